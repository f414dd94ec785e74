/-
Property C118: frame indifference of the plastic material, and the axes of the kinematic hardening.
-/
import Verif.Props.ReturnMap
import Verif.Proofs.ReturnMapAxes

set_option linter.unusedSectionVars false
set_option linter.unusedSimpArgs false
set_option linter.unusedVariables false

namespace Verif.Plastic

open Verif.Spec.Plasticity

theorem sym6_T (v : Fin 6 → ℝ) : (sym6 v).transpose = sym6 v := by
  funext i j; exact sym6_symm v j i

/-- **C118** (objectivity). Superposed rigid rotations, `Q₁` of the previous and `Q₂` of the current
configuration, change stress and elastic left Cauchy-Green tensor by `Q₂` only, and leave the plastic
variables and the return value as they are. This holds for every yield criterion and for every routine
for principal values, if there is no kinematic hardening or if the principal stretches are distinct. -/
theorem C118_objective (p : List ℝ) (hfn : Option ((ℝ → ℝ) × (ℝ → ℝ)))
    (prin : M3 → Option (V3 × M3)) (hprin : Principal prin) (ns : Nat) (H H' : Hist) (Fp Fc Q1 Q2 : M3)
    (it : Nat) (first : Bool) (h1 : Q1 * Q1.transpose = 1) (h2 : Q2 * Q2.transpose = 1)
    (hdet : Q2.det = 1) (hecg : sym6 H'.ecg = Q1 * sym6 H.ecg * Q1.transpose)
    (hepp : H'.epp = H.epp) (hepl : H'.epl = H.epl) (o : Out)
    (ho : evaluate p hfn prin ns H Fp Fc it first = .ok o)
    (hkin : p[7]? = some 0 ∨ ∃ l N, N * N.transpose = 1 ∧ Function.Injective l ∧
      tensor l N = Fc * Fp⁻¹ * sym6 H.ecg * (Fc * Fp⁻¹).transpose) :
    ∃ o' S, evaluate p hfn prin ns H' (Q1 * Fp) (Q2 * Fc) it first = .ok o' ∧
      o.sig = handedOut ns S ∧ o'.sig = handedOut ns (Q2 * S * Q2.transpose) ∧
      sym6 o'.hist.ecg = Q2 * sym6 o.hist.ecg * Q2.transpose ∧
      o'.hist.epp = o.hist.epp ∧ o'.hist.epl = o.hist.epl ∧ o'.ierr = o.ierr := by
  have hQ1 : Q1.transpose * Q1 = 1 := mul_eq_one_comm.1 h1
  have hQ2 : Q2.transpose * Q2 = 1 := mul_eq_one_comm.1 h2
  have hd1 : Q1.det ≠ 0 := fun h0 => by
    have := congrArg Matrix.det h1
    rw [Matrix.det_mul, h0] at this
    simp at this
  unfold evaluate at ho
  cases hm : fetch p with
  | fail => rw [hm] at ho; cases ho
  | ub => rw [hm] at ho; cases ho
  | ok m =>
    rw [hm] at ho
    simp only [Res.bind] at ho
    by_cases hF : Fp.det = 0 ∨ Fc.det = 0
    · rw [if_pos hF] at ho; cases ho
    rw [if_neg hF] at ho
    push Not at hF
    obtain ⟨be, hbe⟩ : ∃ be, be = Fc * Fp⁻¹ * sym6 H.ecg * (Fc * Fp⁻¹).transpose := ⟨_, rfl⟩
    rw [← hbe] at ho hkin
    have hbs : be.transpose = be := by
      funext i j; rw [hbe]; exact push_symm (Fc * Fp⁻¹) H.ecg j i
    -- the pushed forward tensor of the rotated problem
    have hinv : (Q1 * Fp)⁻¹ = Fp⁻¹ * Q1.transpose := by
      refine Matrix.inv_eq_left_inv ?_
      calc Fp⁻¹ * Q1.transpose * (Q1 * Fp) = Fp⁻¹ * (Q1.transpose * Q1) * Fp := by
            simp only [Matrix.mul_assoc]
        _ = 1 := by
            rw [hQ1, Matrix.mul_one, Matrix.nonsing_inv_mul _ (isUnit_iff_ne_zero.2 hF.1)]
    have hbe' : Q2 * Fc * (Q1 * Fp)⁻¹ * sym6 H'.ecg * (Q2 * Fc * (Q1 * Fp)⁻¹).transpose =
        Q2 * be * Q2.transpose := by
      rw [hinv, hecg, hbe]
      calc Q2 * Fc * (Fp⁻¹ * Q1.transpose) * (Q1 * sym6 H.ecg * Q1.transpose) *
            (Q2 * Fc * (Fp⁻¹ * Q1.transpose)).transpose
          = Q2 * Fc * Fp⁻¹ * (Q1.transpose * Q1) * sym6 H.ecg * (Q1.transpose * Q1) * Fp⁻¹.transpose *
            Fc.transpose * Q2.transpose := by
            simp only [Matrix.transpose_mul, Matrix.transpose_transpose, Matrix.mul_assoc]
        _ = _ := by
            rw [hQ1]
            simp only [Matrix.transpose_mul, Matrix.mul_assoc, Matrix.one_mul]
    obtain ⟨ll2, N, hp, hN, ht, hs1, hs2⟩ := hprin be hbs
    obtain ⟨ll2', N', hp', hN', ht', hs1', hs2'⟩ := hprin (Q2 * be * Q2.transpose) (by
      rw [Matrix.transpose_mul, Matrix.transpose_mul, Matrix.transpose_transpose, hbs,
        Matrix.mul_assoc])
    have hQN : Q2 * N * (Q2 * N).transpose = 1 := by
      rw [Matrix.transpose_mul]
      calc Q2 * N * (N.transpose * Q2.transpose) = Q2 * (N * N.transpose) * Q2.transpose := by
            simp only [Matrix.mul_assoc]
        _ = 1 := by rw [hN, Matrix.mul_one, h2]
    have hrot : tensor ll2 (Q2 * N) = tensor ll2' N' := by rw [tensor_rot, ht, ht']
    have hll : ll2 = ll2' := principal_unique ll2 ll2' (Q2 * N) N' hQN hN' hrot hs1 hs2 hs1' hs2'
    subst hll
    rw [hp] at ho
    simp only [] at ho
    by_cases hpos : ll2 0 ≤ 0 ∨ ll2 1 ≤ 0 ∨ ll2 2 ≤ 0
    · rw [if_pos hpos] at ho; cases ho
    rw [if_neg hpos] at ho
    push Not at hpos
    have hposi : ∀ i, 0 < ll2 i := by
      intro i
      fin_cases i
      · exact hpos.1
      · exact hpos.2.1
      · exact hpos.2.2
    have hF' : (Q1 * Fp).det ≠ 0 ∧ (Q2 * Fc).det ≠ 0 := by
      rw [Matrix.det_mul, Matrix.det_mul, hdet, one_mul]
      exact ⟨mul_ne_zero hd1 hF.1, hF.2⟩
    have hJ : (Q2 * Fc).det = Fc.det := by rw [Matrix.det_mul, hdet, one_mul]
    have hH' : H' = { H with ecg := H'.ecg } := by
      obtain ⟨a, b, c⟩ := H
      obtain ⟨a', b', c'⟩ := H'
      simp only at hepp hepl
      rw [hepp, hepl]
    have htr : ∀ e, trial m H' e = trial m H e := by
      intro e; rw [hH']; rfl
    have hpr' : prin (Q2 * Fc * (Q1 * Fp)⁻¹ * sym6 H'.ecg * (Q2 * Fc * (Q1 * Fp)⁻¹).transpose) =
        some (ll2, N') := by rw [hbe', hp']
    -- principal values of a function of the stretches
    have hfun : ∀ t : V3, (∀ a b, ll2 a = ll2 b → t a = t b) →
        tensor t N' = Q2 * tensor t N * Q2.transpose := by
      intro t hti
      rw [← tensor_rot]
      exact (tensor_indep ll2 t (Q2 * N) N' hQN hN' hrot hti).symm
    have hmk : m.hk = 0 ∨ Function.Injective ll2 := by
      rcases hkin with hk | ⟨l, M, hM, hi, hl⟩
      · left
        unfold fetch at hm
        rw [hk] at hm
        split at hm
        · rename_i b s hk' sy st g4 g5 g7 g9 g12
          cases hm
          cases g7
          simp
        · cases hm
      · right
        obtain ⟨s, hs⟩ := principal_perm l ll2 M N hM hN (hl.trans ht.symm)
        intro a b hab
        rw [← hs a, ← hs b] at hab
        exact s.injective (hi hab)
    cases hy : yfunc p hfn false H.epp (trial m H fun i => Real.log (Real.sqrt (ll2 i))).I1
        (trial m H fun i => Real.log (Real.sqrt (ll2 i))).J2
        (trial m H fun i => Real.log (Real.sqrt (ll2 i))).J3 with
    | fail => rw [hy] at ho; cases ho
    | ub => rw [hy] at ho; cases ho
    | ok y =>
      rw [hy] at ho
      simp only [] at ho
      by_cases hpl : y.yield > -yieldTol m it ∧ flowAllowed m.istart it first = true
      · rw [if_pos hpl] at ho
        cases hr : plasticStep m (yfunc p hfn true) H (fun i => Real.log (Real.sqrt (ll2 i))) N it with
        | fail => rw [hr] at ho; cases ho
        | ub => rw [hr] at ho; cases ho
        | ok r =>
          rw [hr] at ho
          cases ho
          obtain ⟨w, e1, e2, e3⟩ := plasticStep_dirs m (yfunc p hfn true) H H'.ecg
            (fun i => Real.log (Real.sqrt (ll2 i))) N N' it r hr
          have ev := evaluate_plastic p hfn prin ns H' (Q1 * Fp) (Q2 * Fc) it first m hm hF' ll2 N'
            hpr' hposi y (by rw [htr, hepp]; exact hy) hpl _ (by rw [hH']; exact e2)
          have hind : ∀ a b, ll2 a = ll2 b → w a = w b ∧ r.2.1 a = r.2.1 b := by
            intro a b hab
            rcases hmk with h0 | hinj
            · exact e3 h0 a b (by rw [hab])
            · rw [hinj hab]; exact ⟨rfl, rfl⟩
          refine ⟨_, (1 / Fc.det) • tensor r.2.1 N, ev, output_sig _ _ _ _ _ _ _ _, ?_, ?_, rfl, rfl, rfl⟩
          · rw [output_sig, hJ, hfun _ fun a b hab => (hind a b hab).2, Matrix.mul_smul,
              Matrix.smul_mul]
          · show sym6 (spectral w N') = Q2 * sym6 r.1.ecg * Q2.transpose
            rw [e1, sym6_spectral, sym6_spectral]
            exact hfun _ fun a b hab => (hind a b hab).1
      · rw [if_neg hpl] at ho
        cases ho
        have ev := evaluate_elastic p hfn prin ns H' (Q1 * Fp) (Q2 * Fc) it first m hm hF' ll2 N'
          hpr' hposi y (by rw [htr, hepp]; exact hy) hpl
        refine ⟨_, (1 / Fc.det) • tensor (trial m H fun i => Real.log (Real.sqrt (ll2 i))).tau N, ev,
          output_sig _ _ _ _ _ _ _ _, ?_, ?_, hepp, hepl, rfl⟩
        · rw [output_sig, hJ, htr, hfun, Matrix.mul_smul, Matrix.smul_mul]
          intro a b hab
          show 2 * m.shear * (Real.log (Real.sqrt (ll2 a)) - _) + _ =
            2 * m.shear * (Real.log (Real.sqrt (ll2 b)) - _) + _
          rw [hab]
        · show sym6 (fun i => (Q2 * Fc * (Q1 * Fp)⁻¹ * sym6 H'.ecg *
              (Q2 * Fc * (Q1 * Fp)⁻¹).transpose) (p1 i) (p2 i)) =
            Q2 * sym6 (fun i => be (p1 i) (p2 i)) * Q2.transpose
          rw [sym6_pairs _ fun i j => push_symm (Q2 * Fc * (Q1 * Fp)⁻¹) H'.ecg i j,
            sym6_pairs be fun i j => congrFun (congrFun hbs j) i, hbe']

/-- A load history: at each step the evaluation starts from the history variables and the deformation
gradient of the previous one. -/
noncomputable def history (ev : Hist → M3 → M3 → Nat → Bool → Res Out) :
    Hist → M3 → List (M3 × Nat × Bool) → Res (List Out)
  | _, _, [] => .ok []
  | H, F0, (F, it, first) :: l =>
    (ev H F0 F it first).bind fun o => (history ev o.hist F l).bind fun r => .ok (o :: r)

theorem objective_history (p : List ℝ) (hfn : Option ((ℝ → ℝ) × (ℝ → ℝ))) (hk : p[7]? = some 0)
    (prin : M3 → Option (V3 × M3)) (hprin : Principal prin) (ns : Nat)
    (l : List (M3 × M3 × Nat × Bool))
    (hQ : ∀ s ∈ l, s.2.1 * s.2.1.transpose = 1 ∧ s.2.1.det = 1) :
    ∀ (H H' : Hist) (F0 Q : M3), Q * Q.transpose = 1 →
      sym6 H'.ecg = Q * sym6 H.ecg * Q.transpose → H'.epp = H.epp → H'.epl = H.epl → ∀ os,
      history (evaluate p hfn prin ns) H F0 (l.map fun s => (s.1, s.2.2)) = .ok os →
      ∃ os', history (evaluate p hfn prin ns) H' (Q * F0) (l.map fun s => (s.2.1 * s.1, s.2.2)) =
          .ok os' ∧
        List.Forall₂ (fun (s : (M3 × M3 × Nat × Bool) × Out) o' => ∃ S, s.2.sig = handedOut ns S ∧
          o'.sig = handedOut ns (s.1.2.1 * S * s.1.2.1.transpose) ∧ o'.hist.epp = s.2.hist.epp ∧
          o'.ierr = s.2.ierr) (l.zip os) os' := by
  induction l with
  | nil =>
    intro H H' F0 Q _ _ _ _ os h
    exact ⟨[], rfl, by simp⟩
  | cons s l ih =>
    intro H H' F0 Q hq he hp hl os h
    obtain ⟨F, R, it, first⟩ := s
    have hR := hQ (F, R, it, first) (by simp)
    simp only [List.map_cons, history] at h ⊢
    cases hev : evaluate p hfn prin ns H F0 F it first with
    | fail => rw [hev] at h; cases h
    | ub => rw [hev] at h; cases h
    | ok o =>
      rw [hev] at h
      simp only [Res.bind] at h
      cases hh : history (evaluate p hfn prin ns) o.hist F (l.map fun s => (s.1, s.2.2)) with
      | fail => rw [hh] at h; cases h
      | ub => rw [hh] at h; cases h
      | ok r =>
        rw [hh] at h
        cases h
        obtain ⟨o', S, k1, k2, k3, k4, k5, k6, k7⟩ := C118_objective p hfn prin hprin ns H H' F0 F Q R
          it first hq hR.1 hR.2 he hp hl o hev (Or.inl hk)
        obtain ⟨os', j1, j2⟩ := ih (fun s hs => hQ s (by simp [hs])) o.hist o'.hist F R hR.1 k4 k5 k6
          r hh
        refine ⟨o' :: os', ?_, ?_⟩
        · rw [k1]
          simp only [Res.bind]
          rw [j1]
        · exact List.Forall₂.cons ⟨S, k2, k3, k5, k7⟩ j2

theorem sym6_virgin : sym6 hist0.ecg = 1 := by
  funext i j
  fin_cases i <;> fin_cases j <;> simp [sym6, hist0]

/-- **C118** (objectivity over load histories). Without kinematic hardening, for every load history of
a virgin point and any rigid rotations superposed on its configurations: the stresses of all steps are
rotated, and the accumulated plastic strains and return values are the same. -/
theorem C118_objective_history (p : List ℝ) (hfn : Option ((ℝ → ℝ) × (ℝ → ℝ)))
    (hk : p[7]? = some 0) (prin : M3 → Option (V3 × M3)) (hprin : Principal prin) (ns : Nat)
    (l : List (M3 × M3 × Nat × Bool))
    (hQ : ∀ s ∈ l, s.2.1 * s.2.1.transpose = 1 ∧ s.2.1.det = 1) (os : List Out)
    (h : history (evaluate p hfn prin ns) hist0 1 (l.map fun s => (s.1, s.2.2)) = .ok os) :
    ∃ os', history (evaluate p hfn prin ns) hist0 1 (l.map fun s => (s.2.1 * s.1, s.2.2)) =
        .ok os' ∧
      List.Forall₂ (fun (s : (M3 × M3 × Nat × Bool) × Out) o' => ∃ S, s.2.sig = handedOut ns S ∧
        o'.sig = handedOut ns (s.1.2.1 * S * s.1.2.1.transpose) ∧ o'.hist.epp = s.2.hist.epp ∧
        o'.ierr = s.2.ierr) (l.zip os) os' := by
  have := objective_history p hfn hk prin hprin ns l hQ hist0 hist0 1 1 (by simp)
    (by simp [sym6_virgin]) rfl rfl os h
  rwa [Matrix.one_mul] at this

/-- The material of the examples: `K = 1`, `G = 1/2`, von Mises' criterion with yield stress 3 and
kinematic hardening modulus `27/2`, flow allowed from the start. -/
noncomputable def exMat : List ℝ := [0, 0, 0, 0, 1, 1 / 2, 0, 27 / 2, 1, 3, 3, 0, 1]

theorem toInt_nat (n : Nat) : toInt (n : ℝ) = n := by
  unfold toInt
  rw [if_pos (by positivity)]
  exact Int.floor_natCast n

theorem len_axial (u : ℝ) (hu : 0 ≤ u) : len (dev ![2 * u, -u, -u]) = Real.sqrt 6 * u := by
  have e : (dev ![2 * u, -u, -u] 0) ^ 2 + (dev ![2 * u, -u, -u] 1) ^ 2 +
      (dev ![2 * u, -u, -u] 2) ^ 2 = 6 * u ^ 2 := by
    simp [dev, mean]
    ring
  unfold len
  rw [e, Real.sqrt_mul (by norm_num), Real.sqrt_sq hu]

theorem s23_three : Real.sqrt (2 / 3) * 3 = Real.sqrt 6 := by
  have : (Real.sqrt (2 / 3) * 3) ^ 2 = 6 := by
    rw [mul_pow, Real.sq_sqrt (by norm_num)]; norm_num
  rw [← this, Real.sqrt_sq (by positivity)]

theorem sqrt6_pos : 0 < Real.sqrt 6 := Real.sqrt_pos.2 (by norm_num)

theorem tensor_one (l : V3) : tensor l 1 = Matrix.diagonal l := by
  simp [tensor]

/-- The directions of a diagonal tensor with its last two axes first. -/
def cyc : M3 := !![0, 0, 1; 1, 0, 0; 0, 1, 0]

theorem cyc_orth : cyc * cyc.transpose = 1 := by
  funext i j
  fin_cases i <;> fin_cases j <;> simp [cyc, Matrix.mul_apply, Fin.sum_univ_three, Matrix.vecHead,
    Matrix.vecTail]

theorem tensor_cyc (a b c : ℝ) : tensor ![a, b, c] cyc = Matrix.diagonal ![c, a, b] := by
  funext i j
  simp only [tensor, Matrix.mul_apply, Matrix.diagonal_apply, Matrix.transpose_apply,
    Fin.sum_univ_three]
  fin_cases i <;> fin_cases j <;> simp [cyc]

theorem two_equal (x y : ℝ) (hne : x ≠ y) (t : V3) (ht : t 1 = t 2) (a b : Fin 3)
    (hab : (![x, y, y] : V3) a = (![x, y, y] : V3) b) : t a = t b := by
  fin_cases a <;> fin_cases b <;> simp at hab ⊢
  · exact absurd hab hne
  · exact absurd hab hne
  · exact absurd hab.symm hne
  · exact ht
  · exact absurd hab.symm hne
  · exact ht.symm

theorem ne_zero_exp (a b c : ℝ) : (Matrix.diagonal ![Real.exp a, Real.exp b, Real.exp c]).det ≠ 0 := by
  rw [Matrix.det_diagonal, Fin.prod_univ_three]
  have := Real.exp_pos a
  have := Real.exp_pos b
  have := Real.exp_pos c
  simp

theorem diag_inv (a b c : ℝ) : (Matrix.diagonal ![Real.exp a, Real.exp b, Real.exp c])⁻¹ =
    Matrix.diagonal ![Real.exp (-a), Real.exp (-b), Real.exp (-c)] := by
  refine Matrix.inv_eq_left_inv ?_
  rw [Matrix.diagonal_mul_diagonal, ← Matrix.diagonal_one]
  congr 1
  funext i
  fin_cases i <;> simp [← Real.exp_add]

theorem diag_exp_mul (a b c a' b' c' : ℝ) :
    Matrix.diagonal ![Real.exp a, Real.exp b, Real.exp c] *
      Matrix.diagonal ![Real.exp a', Real.exp b', Real.exp c'] =
    Matrix.diagonal ![Real.exp (a + a'), Real.exp (b + b'), Real.exp (c + c')] := by
  rw [Matrix.diagonal_mul_diagonal]
  congr 1
  funext i
  fin_cases i <;> simp [Real.exp_add]

/-- The first step of the example: extension along the first axis. -/
theorem ex_step1 (prin : M3 → Option (V3 × M3)) (hprin : Principal prin) (F1 : M3)
    (hF1 : F1 = Matrix.diagonal ![Real.exp 4, Real.exp (-2), Real.exp (-2)]) :
    ∃ o1 l1 N1, evaluate exMat none prin 6 hist0 1 F1 1 true = .ok o1 ∧
      prin (F1 * F1.transpose) = some (l1, N1) ∧
      tensor o1.hist.epl N1 = Matrix.diagonal ![1 / 5, -(1 / 10), -(1 / 10)] ∧
      o1.hist.epl = ![1 / 5, -(1 / 10), -(1 / 10)] ∧ o1.hist.epp = 1 / 5 ∧
      sym6 o1.hist.ecg =
        Matrix.diagonal ![Real.exp (38 / 5), Real.exp (-(19 / 5)), Real.exp (-(19 / 5))] := by
  have h6 := sqrt6_pos
  have h66 : Real.sqrt 6 * Real.sqrt 6 = 6 := Real.mul_self_sqrt (by norm_num)
  have hs3 : s23 * 3 = Real.sqrt 6 := s23_three
  have hbe : F1 * 1⁻¹ * sym6 hist0.ecg * (F1 * 1⁻¹).transpose =
      Matrix.diagonal ![Real.exp 8, Real.exp (-4), Real.exp (-4)] := by
    rw [inv_one, Matrix.mul_one, sym6_virgin, Matrix.mul_one, hF1, Matrix.diagonal_transpose,
      diag_exp_mul]
    norm_num
  have hbe2 : F1 * F1.transpose = Matrix.diagonal ![Real.exp 8, Real.exp (-4), Real.exp (-4)] := by
    rw [← hbe, inv_one, Matrix.mul_one, sym6_virgin, Matrix.mul_one]
  obtain ⟨l1, N1, hp, hN, ht, k1, k2⟩ := hprin (Matrix.diagonal ![Real.exp 8, Real.exp (-4),
    Real.exp (-4)]) (Matrix.diagonal_transpose _)
  have hl : l1 = ![Real.exp 8, Real.exp (-4), Real.exp (-4)] := by
    refine principal_unique l1 _ N1 1 hN (by simp) (by rw [ht, tensor_one]) k1 k2 ?_ ?_
    · exact Real.exp_le_exp.2 (by norm_num)
    · exact le_refl _
  subst hl
  have heps : (fun i => Real.log (![Real.exp 8, Real.exp (-4), Real.exp (-4)] i) / 2) =
      ![2 * 2, -2, -2] := by
    funext i
    fin_cases i <;> simp [Real.log_exp] <;> norm_num
  have hfl : flowAllowed (toInt 1) 1 true = true := by
    rw [show (1 : ℝ) = ((1 : Nat) : ℝ) by norm_num, toInt_nat]
    decide
  have hxi : (![2 * 2, -2, -2] : V3) = fun j => hencky 1 (1 / 2) (fun i =>
      Real.log (![Real.exp 8, Real.exp (-4), Real.exp (-4)] i) / 2) j - 2 / 3 * (27 / 2) *
      hist0.epl j := by
    rw [heps]
    funext i
    fin_cases i <;> simp [hencky, dev, mean, hist0] <;> norm_num
  have hlen : len (dev ![2 * 2, -2, -2]) = Real.sqrt 6 * 2 := len_axial 2 (by norm_num)
  have hty : toInt 1 = 1 := by
    rw [show (1 : ℝ) = ((1 : Nat) : ℝ) by norm_num, toInt_nat]
    rfl
  obtain ⟨o, nu, e, xi', g1, g2, g3, g4, g5, g6, g7, g8, g9, g10, -⟩ :=
    evaluate_linear exMat none prin 6 hist0 1 F1 1 true _
      (fetch_list 0 0 0 0 1 (1 / 2) 0 (27 / 2) 1 3 3 0 1 []) (by norm_num) (by norm_num)
      (by show 0 < s23 * 3; rw [hs3]; exact h6) (27 / 2) (by norm_num) rfl
      ⟨by simp, by rw [hF1]; exact ne_zero_exp _ _ _⟩ _ N1 (by rw [hbe]; exact hp)
      (by
        intro i
        fin_cases i
        · exact Real.exp_pos _
        · exact Real.exp_pos _
        · exact Real.exp_pos _) ⟨0, by simp⟩ 0 3 0 (le_refl 0)
      (by
        intro e _ i1 j2 j3 hj hz
        refine radial_ok _ j2 hj hz i1 _ _ (s23 * 3 + (s23 * 3 - s23 * 3) * Real.exp (-0 * e) +
          s23 * 0 * e) ?_ (by ring)
        simp only [exMat, yfunc, List.getElem?_cons_succ, List.getElem?_cons_zero, hty, if_true]
        rw [show s23 * (s23 * 0) = 2 / 3 * 0 - s23 * 0 * ((s23 * 3 - s23 * 3) *
          Real.exp (-0 * e)) by ring])
      (by
        intro i1 j2 j3 hj
        obtain ⟨y, hy, hv⟩ := radial_ok0 (yfunc exMat none false hist0.epp i1 j2 j3) j2 hj
          (2 / 3 * 0 - s23 * 0 * ((s23 * 3 - s23 * 3) * Real.exp (-0 * hist0.epp)))
          (s23 * (3 + 0 * hist0.epp))
          (s23 * 3 + (s23 * 3 - s23 * 3) * Real.exp (-0 * hist0.epp) + s23 * 0 * hist0.epp)
          (by simp only [exMat, yfunc, List.getElem?_cons_succ, List.getElem?_cons_zero, hty, if_true])
          (by ring)
        exact ⟨y, hy, by rw [hv]; ring⟩) hfl ![2 * 2, -2, -2] hxi (Real.sqrt 6 / 10)
      (by
        rw [hlen, show s23 * (3 + 0 * hist0.epp) = Real.sqrt 6 by rw [← hs3]; ring]
        norm_num
        ring)
      (by
        rw [hlen, show s23 * (3 + 0 * hist0.epp) = Real.sqrt 6 by rw [← hs3]; ring]
        linarith)
      (by
        rw [hlen]
        have : (2 : ℝ) < Real.sqrt 6 := by
          rw [show (2 : ℝ) = Real.sqrt 4 by rw [show (4 : ℝ) = 2 ^ 2 by norm_num, Real.sqrt_sq (by norm_num)]]
          exact Real.sqrt_lt_sqrt (by norm_num) (by norm_num)
        norm_num
        linarith)
  have hnu : ∀ i, Real.sqrt 6 / 10 * nu i = ![1 / 5, -(1 / 10), -(1 / 10)] i := by
    intro i
    have := g5 i
    rw [hlen] at this
    have h2 : dev ![2 * 2, -2, -2] i = 20 * ![1 / 5, -(1 / 10), -(1 / 10)] i := by
      fin_cases i <;> simp [dev, mean] <;> norm_num
    rw [h2] at this
    linarith
  have hepl : o.hist.epl = ![1 / 5, -(1 / 10), -(1 / 10)] := by
    funext i
    rw [g9 i, add_zero, hnu]
    simp [hist0]
  have hind : ∀ (t : V3), t 1 = t 2 → tensor t N1 = Matrix.diagonal t := by
    intro t ht'
    rw [← tensor_one t]
    refine tensor_indep ![Real.exp 8, Real.exp (-4), Real.exp (-4)] t N1 1 hN (by simp)
      (by rw [ht, tensor_one]) ?_
    exact two_equal _ _ (fun h => by
      have := Real.exp_injective h
      norm_num at this) t ht'
  refine ⟨o, _, N1, g1, by rw [hbe2]; exact hp, ?_, hepl, ?_, ?_⟩
  · rw [hepl]
    exact hind _ rfl
  · rw [g10]
    show (0 : ℝ) + s23 * (Real.sqrt 6 / 10) = 1 / 5
    have : s23 * 3 * Real.sqrt 6 = 6 := by rw [hs3, h66]
    linarith
  · rw [g8]
    have he : (fun a => Real.exp (2 * e a)) =
        ![Real.exp (38 / 5), Real.exp (-(19 / 5)), Real.exp (-(19 / 5))] := by
      funext i
      have hE : e i = ![2 * 2, -2, -2] i - ![1 / 5, -(1 / 10), -(1 / 10)] i := by
        rw [g6, ← hnu i, ← heps]
        simp
      rw [hE]
      fin_cases i <;> simp <;> norm_num
    rw [he]
    exact hind _ rfl

/-- **C118** violated for kinematic hardening: the plastic strains are stored per principal direction
in the order of the principal values, not per material direction. After plastic extension along the
first axis, the load is reversed. The relative stress, with the back stress along the axes where it
was built up, is then outside of the yield surface by 80 percent, but the evaluation takes the step as
elastic. This is so for every routine for principal values that sorts in descending order. -/
theorem C118_axes_violated (prin : M3 → Option (V3 × M3)) (hprin : Principal prin) :
    ∃ F1 F2 o1 o2 l1 N1, evaluate exMat none prin 6 hist0 1 F1 1 true = .ok o1 ∧
      evaluate exMat none prin 6 o1.hist F1 F2 1 true = .ok o2 ∧
      prin (F1 * F1.transpose) = some (l1, N1) ∧
      tensor o1.hist.epl N1 = Matrix.diagonal ![1 / 5, -(1 / 10), -(1 / 10)] ∧
      o2.hist.epp = o1.hist.epp ∧ o2.hist.epl = o1.hist.epl ∧
      o2.sig = handedOut 6 (Matrix.diagonal ![-(9 / 5), 9 / 10, 9 / 10]) ∧
      len (dev fun i => ![-(9 / 5), 9 / 10, 9 / 10] i -
        2 / 3 * (27 / 2) * ![1 / 5, -(1 / 10), -(1 / 10)] i) = 9 / 5 * (Real.sqrt (2 / 3) * 3) := by
  obtain ⟨F1, hF1⟩ : ∃ F1, F1 = Matrix.diagonal ![Real.exp 4, Real.exp (-2), Real.exp (-2)] :=
    ⟨_, rfl⟩
  obtain ⟨F2, hF2⟩ : ∃ F2, F2 = Matrix.diagonal ![Real.exp (-(8 / 5)), Real.exp (4 / 5),
    Real.exp (4 / 5)] := ⟨_, rfl⟩
  obtain ⟨o1, l1, N1, g1, g2, g3, g4, g5, g6⟩ := ex_step1 prin hprin F1 hF1
  have h6 := sqrt6_pos
  have hs3 : s23 * 3 = Real.sqrt 6 := s23_three
  have hbe : F2 * F1⁻¹ * sym6 o1.hist.ecg * (F2 * F1⁻¹).transpose =
      Matrix.diagonal ![Real.exp (-(18 / 5)), Real.exp (9 / 5), Real.exp (9 / 5)] := by
    rw [hF1, hF2, diag_inv, diag_exp_mul, g6, diag_exp_mul, Matrix.diagonal_transpose, diag_exp_mul]
    norm_num
  obtain ⟨l2, N2, hp, hN, ht, k1, k2⟩ := hprin (Matrix.diagonal ![Real.exp (-(18 / 5)),
    Real.exp (9 / 5), Real.exp (9 / 5)]) (Matrix.diagonal_transpose _)
  have hl : l2 = ![Real.exp (9 / 5), Real.exp (9 / 5), Real.exp (-(18 / 5))] := by
    refine principal_unique l2 _ N2 cyc hN cyc_orth (by rw [ht, tensor_cyc]) k1 k2 ?_ ?_
    · exact le_refl _
    · exact Real.exp_le_exp.2 (by norm_num)
  subst hl
  have heps : (fun i => Real.log (![Real.exp (9 / 5), Real.exp (9 / 5), Real.exp (-(18 / 5))] i) / 2) =
      ![9 / 10, 9 / 10, -(9 / 5)] := by
    funext i
    fin_cases i <;> simp [Real.log_exp] <;> norm_num
  have hhe : hencky 1 (1 / 2) ![9 / 10, 9 / 10, -(9 / 5)] = ![9 / 10, 9 / 10, -(9 / 5)] := by
    funext i
    fin_cases i <;> simp [hencky, dev, mean] <;> norm_num
  have hxi : (![-(9 / 10), 9 / 5, -(9 / 10)] : V3) = fun j => hencky 1 (1 / 2) (fun i =>
      Real.log (![Real.exp (9 / 5), Real.exp (9 / 5), Real.exp (-(18 / 5))] i) / 2) j -
      2 / 3 * (27 / 2) * o1.hist.epl j := by
    rw [heps, hhe, g4]
    funext i
    fin_cases i <;> simp <;> norm_num
  have hty : toInt 1 = 1 := by
    rw [show (1 : ℝ) = ((1 : Nat) : ℝ) by norm_num, toInt_nat]
    rfl
  have hdx : dev (![-(9 / 10), 9 / 5, -(9 / 10)] : V3) = ![-(9 / 10), 9 / 5, -(9 / 10)] := by
    funext i
    fin_cases i <;> simp [dev, mean] <;> norm_num
  have hln : len (![-(9 / 10), 9 / 5, -(9 / 10)] : V3) ^ 2 = 243 / 50 := by
    unfold len
    rw [Real.sq_sqrt (by positivity)]
    simp
    norm_num
  have hy : yfunc exMat none false o1.hist.epp
      ((![-(9 / 10), 9 / 5, -(9 / 10)] : V3) 0 + (![-(9 / 10), 9 / 5, -(9 / 10)] : V3) 1 +
        (![-(9 / 10), 9 / 5, -(9 / 10)] : V3) 2)
      (len (dev ![-(9 / 10), 9 / 5, -(9 / 10)]) ^ 2 / 2)
      ((dev ![-(9 / 10), 9 / 5, -(9 / 10)] 0 ^ 3 + dev ![-(9 / 10), 9 / 5, -(9 / 10)] 1 ^ 3 +
        dev ![-(9 / 10), 9 / 5, -(9 / 10)] 2 ^ 3) / 3) =
      .ok { Ypr := 2 / 3 * 0 - s23 * 0 * ((s23 * 3 - s23 * 3) * Real.exp (-0 * o1.hist.epp))
            YY := s23 * 3 + (s23 * 3 - s23 * 3) * Real.exp (-0 * o1.hist.epp) + s23 * 0 * o1.hist.epp
            yield := Real.sqrt (2 * (243 / 50 / 2)) - (s23 * 3 + (s23 * 3 - s23 * 3) *
              Real.exp (-0 * o1.hist.epp) + s23 * 0 * o1.hist.epp) } := by
    rw [hdx, hln]
    simp only [exMat, yfunc, List.getElem?_cons_succ, List.getElem?_cons_zero, hty, if_true, misesD,
      Bool.false_eq_true, false_and, if_false]
    rw [if_pos (by norm_num)]
  obtain ⟨o2, j1, j2, -, j4, j5, -⟩ := C118_elastic 0 0 0 0 1 (1 / 2) 0 (27 / 2) 1 3 3 0 1 [] none prin 6
    o1.hist F1 F2 1 true ⟨by rw [hF1]; exact ne_zero_exp _ _ _, by rw [hF2]; exact ne_zero_exp _ _ _⟩
    _ N2 (by rw [hbe]; exact hp) (by
      intro i
      fin_cases i
      · exact Real.exp_pos _
      · exact Real.exp_pos _
      · exact Real.exp_pos _) _ hxi _ hy (Or.inl ⟨by norm_num, by
      show Real.sqrt (2 * (243 / 50 / 2)) - (s23 * 3 + (s23 * 3 - s23 * 3) *
        Real.exp (-0 * o1.hist.epp) + s23 * 0 * o1.hist.epp) ≤ 0
      have : Real.sqrt (2 * (243 / 50 / 2)) ≤ Real.sqrt 6 := Real.sqrt_le_sqrt (by norm_num)
      rw [sub_self, zero_mul, add_zero, mul_zero, zero_mul, add_zero, hs3]
      linarith⟩)
  refine ⟨F1, F2, o1, o2, l1, N1, g1, j1, g2, g3, j4, j5, ?_, ?_⟩
  · have hdet : F2.det = 1 := by
      rw [hF2, Matrix.det_diagonal, Fin.prod_univ_three]
      simp only [Matrix.cons_val_zero, Matrix.cons_val_one, Matrix.cons_val]
      rw [← Real.exp_add, ← Real.exp_add]
      norm_num
    have hT : tensor ![9 / 10, 9 / 10, -(9 / 5)] N2 = Matrix.diagonal ![-(9 / 5), 9 / 10, 9 / 10] := by
      rw [← tensor_cyc]
      refine tensor_indep ![Real.exp (9 / 5), Real.exp (9 / 5), Real.exp (-(18 / 5))] _ N2 cyc hN
        cyc_orth (by rw [ht, tensor_cyc]) ?_
      intro a b hab
      have hne : Real.exp (9 / 5) ≠ Real.exp (-(18 / 5)) := fun h => by
        have := Real.exp_injective h
        norm_num at this
      fin_cases a <;> fin_cases b <;> simp_all
    rw [j2, hdet, heps, hhe, hT]
    simp
  · have e : (fun i => ![-(9 / 5), 9 / 10, 9 / 10] i -
        2 / 3 * (27 / 2) * ![1 / 5, -(1 / 10), -(1 / 10)] i) = fun i : Fin 3 =>
        -(![2 * (9 / 5), -(9 / 5), -(9 / 5)] : V3) i := by
      funext i
      fin_cases i <;> simp <;> norm_num
    have hneg : ∀ v : V3, len (dev fun i => -v i) = len (dev v) := by
      intro v
      unfold len
      congr 1
      simp only [dev, mean]
      ring
    rw [e, hneg, len_axial _ (by norm_num), s23_three]
    ring

/-! ### Concrete cases meeting the hypotheses -/

/-- The data of the concrete cases: extension of a virgin point along the first axis. -/
theorem ex_data : (fun j => hencky 1 (1 / 2) (fun i =>
      Real.log (![Real.exp 8, Real.exp (-4), Real.exp (-4)] i) / 2) j - 2 / 3 * (27 / 2) *
      hist0.epl j) = ![2 * 2, -2, -2] ∧
    (∀ i, (0 : ℝ) < ![Real.exp 8, Real.exp (-4), Real.exp (-4)] i) ∧
    (∃ i, ![Real.exp 8, Real.exp (-4), Real.exp (-4)] i ≠ 1) ∧
    ((1 : M3).det ≠ 0 ∧ (Matrix.diagonal ![Real.exp 4, Real.exp (-2), Real.exp (-2)]).det ≠ 0) ∧
    1 / 10 ^ 16 < Real.sqrt (2 / 3) * 3 ∧ toInt 1 = 1 ∧ toInt 2 = 2 ∧ toInt 5 = 5 ∧ toInt 6 = 6 ∧
    len (dev ![2 * 2, -2, -2]) = Real.sqrt 6 * 2 ∧ 2 < Real.sqrt 6 ∧ Real.sqrt 6 < 5 / 2 := by
  refine ⟨?_, ?_, ⟨0, by simp⟩, ⟨by simp, ne_zero_exp _ _ _⟩, ?_, ?_, ?_, ?_, ?_,
    len_axial 2 (by norm_num), ?_, ?_⟩
  · have heps : (fun i => Real.log (![Real.exp 8, Real.exp (-4), Real.exp (-4)] i) / 2) =
        ![2 * 2, -2, -2] := by
      funext i
      fin_cases i <;> simp [Real.log_exp] <;> norm_num
    rw [heps]
    funext i
    fin_cases i <;> simp [hencky, dev, mean, hist0] <;> norm_num
  · intro i
    fin_cases i
    · exact Real.exp_pos _
    · exact Real.exp_pos _
    · exact Real.exp_pos _
  · rw [s23_three]
    have : (1 : ℝ) < Real.sqrt 6 := by
      rw [Real.lt_sqrt (by norm_num)]; norm_num
    norm_num at this ⊢
    linarith
  · have := toInt_nat 1; simpa using this
  · have := toInt_nat 2; simpa using this
  · have := toInt_nat 5; simpa using this
  · have := toInt_nat 6; simpa using this
  · rw [Real.lt_sqrt (by norm_num)]; norm_num
  · rw [Real.sqrt_lt' (by norm_num)]; norm_num

/-- Saturating hardening: the hypotheses are met. -/
example : ∃ o, evaluate [0, 0, 0, 0, 1, 1 / 2, 1, 27 / 2, 1, 3, 4, 2, 1] none
    (fun _ => some (![Real.exp 8, Real.exp (-4), Real.exp (-4)], 1)) 6 hist0 1
    (Matrix.diagonal ![Real.exp 4, Real.exp (-2), Real.exp (-2)]) 1 true = .ok o := by
  obtain ⟨d1, d2, d3, d4, d5, d6, -, -, -, d7, d8, d9⟩ := ex_data
  obtain ⟨o, g, e, tau, f, h1, -⟩ := C118_mises 0 0 0 0 1 (1 / 2) 1 (27 / 2) 1 3 4 2 1
    [] none d6 (by norm_num) (by norm_num) (by norm_num) (by norm_num) (by norm_num) (by norm_num) d5
    (fun _ => some (![Real.exp 8, Real.exp (-4), Real.exp (-4)], 1)) 6 hist0 (le_refl _) 1 _ 1 true d4
    _ 1 rfl d2 d3 (by norm_num) (by rw [d6]; decide) (by
      rw [d1, d7, show (4 : ℝ) + (3 - 4) * Real.exp (-2 * hist0.epp) + 1 * hist0.epp = 3 by
        norm_num [hist0], s23_three]
      linarith)
  exact ⟨o, h1⟩

/-- Two saturating terms: the hypotheses are met. -/
example : ∃ o, evaluate [0, 0, 0, 0, 1, 1 / 2, 1, 27 / 2, 6, 3, 4, 2, 1, 1, 3] none
    (fun _ => some (![Real.exp 8, Real.exp (-4), Real.exp (-4)], 1)) 6 hist0 1
    (Matrix.diagonal ![Real.exp 4, Real.exp (-2), Real.exp (-2)]) 1 true = .ok o := by
  obtain ⟨d1, d2, d3, d4, d5, d6, -, -, d6', d7, d8, d9⟩ := ex_data
  obtain ⟨o, g, e, tau, f, h1, -⟩ := C118_voce 0 0 0 0 1 (1 / 2) 1 (27 / 2) 6 3 4 2 1
    [] 1 3 none d6' (by norm_num) (by norm_num) (by norm_num) (by norm_num) (by norm_num) (by norm_num)
    (by norm_num) (by norm_num) d5
    (fun _ => some (![Real.exp 8, Real.exp (-4), Real.exp (-4)], 1)) 6 hist0 (le_refl _) 1 _ 1 true d4
    _ 1 rfl d2 d3 (by norm_num) (by rw [d6]; decide) (by
      rw [d1, d7, show (3 : ℝ) + 4 * (1 - Real.exp (-2 * hist0.epp)) +
        1 * (1 - Real.exp (-3 * hist0.epp)) + 1 * hist0.epp = 3 by simp [hist0], s23_three]
      linarith)
  exact ⟨o, h1⟩

/-- A hardening curve: the hypotheses are met. -/
example : ∃ o, evaluate [0, 0, 0, 0, 1, 1 / 2, 0, 27 / 2, 5, 3, 4, 2, 1]
    (some (fun e => 3 + 2 * e, fun _ => 2))
    (fun _ => some (![Real.exp 8, Real.exp (-4), Real.exp (-4)], 1)) 6 hist0 1
    (Matrix.diagonal ![Real.exp 4, Real.exp (-2), Real.exp (-2)]) 1 true = .ok o := by
  obtain ⟨d1, d2, d3, d4, d5, d6, -, d6', -, d7, d8, d9⟩ := ex_data
  obtain ⟨o, g, e, tau, f, h1, -⟩ := C118_curve 0 0 0 0 1 (1 / 2) (27 / 2) 5 3 4 2 1
    [] (fun e => 3 + 2 * e) (fun _ => 2) d6' (by norm_num) (by norm_num) (by norm_num) (by norm_num)
    (fun _ => some (![Real.exp 8, Real.exp (-4), Real.exp (-4)], 1)) 6 hist0 1 _ 1
    (by intro a b _ _; linarith) (by intro a _; norm_num) (by simpa [hist0] using d5) true d4
    _ 1 rfl d2 d3 (by norm_num) (by rw [d6]; decide) (by
      rw [d1, d7, show (3 : ℝ) + 2 * hist0.epp = 3 by simp [hist0], s23_three]
      linarith)
  exact ⟨o, h1⟩

/-- Linear hardening: the hypotheses are met. -/
example : ∃ o, evaluate [0, 0, 0, 0, 1, 1 / 2, 1, 27 / 2, 1, 3, 3, 2, 1] none
    (fun _ => some (![Real.exp 8, Real.exp (-4), Real.exp (-4)], 1)) 6 hist0 1
    (Matrix.diagonal ![Real.exp 4, Real.exp (-2), Real.exp (-2)]) 1 true = .ok o ∧ o.ierr = 0 := by
  obtain ⟨d1, d2, d3, d4, d5, d6, -, -, -, d7, d8, d9⟩ := ex_data
  obtain ⟨o, e, tau, h1, -, -, -, h2⟩ := C118_linear 0 0 0 0 1 (1 / 2) 1 (27 / 2) 1 3 2 1
    [] none d6 (by norm_num) (by norm_num) (by norm_num) (by norm_num) d5
    (fun _ => some (![Real.exp 8, Real.exp (-4), Real.exp (-4)], 1)) 6 hist0 (le_refl _) 1 _ 1 true d4
    _ 1 rfl d2 d3 (by norm_num) (by rw [d6]; decide) _ d1.symm (by
      rw [d7, show (3 : ℝ) + 1 * hist0.epp = 3 by simp [hist0], s23_three]
      linarith) _ rfl
  exact ⟨o, h1, h2⟩

/-- The criterion with a pressure term: the hypotheses are met. -/
example : ∃ o, evaluate [0, 0, 0, 0, 1, 1 / 2, 1, 27 / 2, 2, 3, 1, 2, 1] none
    (fun _ => some (![Real.exp 8, Real.exp (-4), Real.exp (-4)], 1)) 6 hist0 1
    (Matrix.diagonal ![Real.exp 4, Real.exp (-2), Real.exp (-2)]) 1 true = .ok o ∧ o.ierr = 0 := by
  obtain ⟨d1, d2, d3, d4, d5, d6, d6', -, -, d7, d8, d9⟩ := ex_data
  have hy : Real.sqrt (2 / 3) * (3 + 1 * hist0.epp) = Real.sqrt 6 := by
    rw [show (3 : ℝ) + 1 * hist0.epp = 3 by simp [hist0], s23_three]
  have hsum : (![2 * 2, -2, -2] : V3) 0 + (![2 * 2, -2, -2] : V3) 1 + (![2 * 2, -2, -2] : V3) 2 = 0 := by
    simp; norm_num
  obtain ⟨o, nu, e, xi', h1, h2, h3, h4, h5, h6, h7, h8, h9, h10, h11, h12, h13, h14⟩ :=
    C118_drucker 0 0 0 0 1 (1 / 2) 1 (27 / 2) 2 3 1 2 1
    [] none d6' (by norm_num) (by norm_num) (by norm_num) (by norm_num) (by norm_num)
    (fun _ => some (![Real.exp 8, Real.exp (-4), Real.exp (-4)], 1)) 6 hist0 1 _ 1 true d4
    _ 1 rfl d2 d3 (by norm_num) (by rw [d6]; decide) _ d1.symm _ rfl (by
      rw [d7, hsum, hy]
      linarith) _ rfl (by
      rw [d7, hsum, hy]
      have hc2 : 0 ≤ (Real.sqrt (2 / 3) * 1 / 3) ^ 2 := by positivity
      generalize (Real.sqrt (2 / 3) * 1 / 3) ^ 2 = c2 at hc2
      have hB : 10 ≤ 2 * (1 / 2) + 2 / 3 * (27 / 2) + c2 * (9 * 1 + 2 * (27 / 2)) + 2 / 3 * 1 := by
        norm_num
        linarith
      have hle : (Real.sqrt 6 * 2 + Real.sqrt (2 / 3) * 1 / 3 * 0 - Real.sqrt 6) /
          (2 * (1 / 2) + 2 / 3 * (27 / 2) + c2 * (9 * 1 + 2 * (27 / 2)) + 2 / 3 * 1) ≤
          Real.sqrt 6 / 10 := by
        rw [show Real.sqrt 6 * 2 + Real.sqrt (2 / 3) * 1 / 3 * 0 - Real.sqrt 6 = Real.sqrt 6 by ring]
        exact div_le_div_of_nonneg_left (by positivity) (by norm_num) hB
      norm_num at hle ⊢
      linarith)
  exact ⟨o, h1, h14⟩

/-- A routine for principal values and a load history with plastic flow exist. -/
example : ∃ prin o, Principal prin ∧
    evaluate exMat none prin 6 hist0 1
      (Matrix.diagonal ![Real.exp 4, Real.exp (-2), Real.exp (-2)]) 1 true = .ok o ∧
    0 < o.hist.epp := by
  obtain ⟨prin, hp⟩ := principal_exists
  obtain ⟨o, l, N, h1, -, -, -, h2, -⟩ := ex_step1 prin hp _ rfl
  exact ⟨prin, o, hp, h1, by rw [h2]; norm_num⟩

/-- A virgin point loaded below the yield limit: the hypotheses are met. -/
example : ∃ o, evaluate [0, 0, 0, 0, 1, 1 / 2, 1, 27 / 2, 1, 7, 7, 2, 1] none
    (fun _ => some (![Real.exp 8, Real.exp (-4), Real.exp (-4)], 1)) 6 hist0 1
    (Matrix.diagonal ![Real.exp 4, Real.exp (-2), Real.exp (-2)]) 1 true = .ok o ∧ o.hist.epp = 0 := by
  obtain ⟨d1, d2, d3, d4, d5, d6, -⟩ := ex_data
  have ht : (![2 * 2, -2, -2] : V3) =
      hencky 1 (1 / 2) (fun i => Real.log ((![Real.exp 8, Real.exp (-4), Real.exp (-4)] : V3) i) / 2) := by
    rw [← d1]
    funext j
    simp [hist0]
  have hl : len (dev (![2 * 2, -2, -2] : V3)) ^ 2 / 2 = 12 := by
    rw [len_axial 2 (by norm_num), mul_pow, Real.sq_sqrt (by norm_num)]
    norm_num
  obtain ⟨o, h1, -, -, h2, -⟩ := C118_virgin 0 0 0 0 1 (1 / 2) 1 (27 / 2) 1 7 7 2 1 [] none
    (fun _ => some (![Real.exp 8, Real.exp (-4), Real.exp (-4)], 1)) 6 _ 1 true d4.2 _ 1 rfl d2 _ ht
    { Ypr := 2 / 3 * 1 - s23 * 2 * ((s23 * 7 - s23 * 7) * Real.exp (-2 * 0))
      YY := s23 * 7 + (s23 * 7 - s23 * 7) * Real.exp (-2 * 0) + s23 * 1 * 0
      yield := Real.sqrt (2 * 12) - (s23 * 7 + (s23 * 7 - s23 * 7) * Real.exp (-2 * 0) + s23 * 1 * 0) }
    (by
      rw [hl]
      simp only [yfunc, List.getElem?_cons_succ, List.getElem?_cons_zero, d6, if_true, misesD,
        Bool.false_eq_true, false_and, if_false]
      rw [if_pos (by norm_num)]) ⟨by norm_num, by
      show Real.sqrt (2 * 12) - (s23 * 7 + (s23 * 7 - s23 * 7) * Real.exp (-2 * 0) + s23 * 1 * 0) ≤ 0
      have e : s23 * 7 = Real.sqrt (98 / 3) := by
        rw [show (98 : ℝ) / 3 = 2 / 3 * 7 ^ 2 by norm_num, Real.sqrt_mul (by norm_num),
          Real.sqrt_sq (by norm_num)]
        rfl
      have := Real.sqrt_le_sqrt (show (2 * 12 : ℝ) ≤ 98 / 3 by norm_num)
      rw [e]
      simp
      simpa using this⟩
  exact ⟨o, h1, h2⟩

end Verif.Plastic
