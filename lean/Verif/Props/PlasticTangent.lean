/-
Property C119: the tangent computed by the plastic material at a point.
-/
import Verif.Props.ReturnMapAxes
import Verif.Proofs.ReturnMapTangent
import Verif.Spec.TangentModulus
import Mathlib.Analysis.SpecialFunctions.Log.Deriv
import Mathlib.Analysis.SpecialFunctions.Sqrt
import Mathlib.Analysis.SpecialFunctions.ExpDeriv
import Mathlib.Analysis.SpecialFunctions.Trigonometric.Deriv

set_option linter.unusedSectionVars false
set_option linter.unusedSimpArgs false
set_option linter.unusedVariables false

namespace Verif.Plastic

open Verif.Spec.Plasticity Verif.Spec.TangentModulus Filter Topology

/-- The rows handed out, applied to strain components. -/
theorem apply_kept (ns : Nat) (A : Matrix (Fin 6) (Fin 6) ℝ) (D X : M3) (hD : Fits ns D)
    (hX : ∀ i, A.mulVec (eng D) i = X (p1 i) (p2 i)) :
    apply ((kept ns).map fun i => (kept ns).map fun j => A i j) (strains ns D) = handedOut ns X := by
  have h0 := hX 0
  have h1 := hX 1
  have h2 := hX 2
  have h3 := hX 3
  have h4 := hX 4
  have h5 := hX 5
  simp only [Matrix.mulVec, dotProduct, Fin.sum_univ_six, eng, p1, p2] at h0 h1 h2 h3 h4 h5
  unfold apply kept strains handedOut
  by_cases n3 : ns = 3
  · have z1 := hD.1 n3
    have z2 := hD.2 (Or.inl n3)
    simp only [if_pos n3]
    simp [z1, z2] at h0 h1 h2 h3 h4 h5 ⊢
    refine ⟨?_, ?_, ?_⟩ <;> linarith
  · by_cases n4 : ns = 4
    · have z2 := hD.2 (Or.inr n4)
      simp only [if_neg n3, if_pos n4]
      simp [z2] at h0 h1 h2 h3 h4 h5 ⊢
      refine ⟨?_, ?_, ?_, ?_⟩ <;> linarith
    · simp only [if_neg n3, if_neg n4]
      simp at h0 h1 h2 h3 h4 h5 ⊢
      refine ⟨?_, ?_, ?_, ?_, ?_, ?_⟩ <;> linarith

/-- The trial tensor along a motion changes with the velocity gradient. -/
theorem push_rate (F : ℝ → M3) (L A : M3) (hF : Rate F (L * F 0)) :
    Rate (fun t => F t * A * (F t).transpose)
      (L * (F 0 * A * (F 0).transpose) + F 0 * A * (F 0).transpose * L.transpose) := by
  intro i j
  have hm : ∀ (X Y : M3) i j, (X * A * Y.transpose) i j = ∑ l, ∑ k, X i k * A k l * Y j l := by
    intro X Y i j
    rw [Matrix.mul_apply]
    simp only [Matrix.mul_apply, Matrix.transpose_apply, Finset.sum_mul]
  have h : HasDerivAt (fun t => ∑ l, ∑ k, F t i k * A k l * F t j l)
      (∑ l, ∑ k, ((L * F 0) i k * A k l * F 0 j l + F 0 i k * A k l * (L * F 0) j l)) 0 :=
    HasDerivAt.fun_sum fun l _ => HasDerivAt.fun_sum fun k _ =>
      (((hF i k).mul_const (A k l)).fun_mul (hF j l))
  simp only [hm]
  refine h.congr_deriv ?_
  have e : L * (F 0 * A * (F 0).transpose) + F 0 * A * (F 0).transpose * L.transpose =
      (L * F 0) * A * (F 0).transpose + F 0 * A * (L * F 0).transpose := by
    rw [Matrix.transpose_mul]
    simp only [Matrix.mul_assoc]
  rw [e, Matrix.add_apply, hm, hm]
  simp only [← Finset.sum_add_distrib]

/-- Tensors from functions of the principal values agree for all choices of the axes. -/
theorem tensor_indep2 (l l' t t' : V3) (N N' : M3) (hN : N * N.transpose = 1)
    (hN' : N' * N'.transpose = 1) (h : tensor l N = tensor l' N')
    (ht : ∀ a b, l a = l' b → t a = t' b) : tensor t N = tensor t' N' := by
  have h1 : N.transpose * N = 1 := mul_eq_one_comm.1 hN
  have e : Matrix.diagonal t * (N.transpose * N') = (N.transpose * N') * Matrix.diagonal t' := by
    funext a b
    rw [Matrix.diagonal_mul, Matrix.mul_diagonal]
    rcases mul_eq_zero.1 (diag_rel l l' N N' hN hN' h a b) with h0 | h0
    · rw [ht a b (by linarith), mul_comm]
    · rw [h0]; ring
  calc tensor t N = N * (Matrix.diagonal t * (N.transpose * N')) * N'.transpose := by
        unfold tensor
        simp only [Matrix.mul_assoc]
        rw [hN', Matrix.mul_one]
    _ = (N * N.transpose) * (N' * Matrix.diagonal t' * N'.transpose) := by
        rw [e]; simp only [Matrix.mul_assoc]
    _ = _ := by rw [hN, Matrix.one_mul]; rfl

/-- The logarithmic strain along a motion. -/
theorem log_rate (l : ℝ → V3) (l' : V3) (hl : ∀ i, HasDerivAt (fun t => l t i) (l' i) 0)
    (hpos : ∀ i, 0 < l 0 i) (i : Fin 3) :
    HasDerivAt (fun t => Real.log (l t i) / 2) (l' i / (2 * l 0 i)) 0 := by
  refine (((hl i).log (hpos i).ne').div_const 2).congr_deriv ?_
  rw [div_div, mul_comm]

/-- Near time zero, the determinant does not vanish and the principal values are positive. -/
theorem near_pos (l : ℝ → V3) (l' : V3) (hl : ∀ i, HasDerivAt (fun t => l t i) (l' i) 0)
    (hpos : ∀ i, 0 < l 0 i) : ∀ᶠ t in 𝓝 0, ∀ i, 0 < l t i := by
  have h : ∀ i, ∀ᶠ t in 𝓝 0, 0 < l t i := fun i =>
    (hl i).continuousAt.eventually (lt_mem_nhds (hpos i))
  filter_upwards [h 0, h 1, h 2] with t h0 h1 h2 i
  fin_cases i <;> assumption

theorem near_det (F : ℝ → M3) (F' : M3) (hF : Rate F F') (h0 : (F 0).det ≠ 0) :
    ∀ᶠ t in 𝓝 0, (F t).det ≠ 0 := by
  have hc : ContinuousAt (fun t => (F t).det) 0 := by
    simp only [Matrix.det_fin_three]
    have c : ∀ i j, ContinuousAt (fun t => F t i j) 0 := fun i j => (hF i j).continuousAt
    fun_prop (disch := assumption)
  exact hc.eventually_ne h0

/-- What the routine for principal values finds along a motion. -/
theorem motion_principal (prin : M3 → Option (V3 × M3)) (hprin : Principal prin) (v : Fin 6 → ℝ)
    (Fp : M3) (F : ℝ → M3) (L : M3) (l : ℝ → V3) (N : ℝ → M3) (hM : Motion Fp (sym6 v) F L l N)
    (t : ℝ) : ∃ ll2 N0, prin (F t * Fp⁻¹ * sym6 v * (F t * Fp⁻¹).transpose) = some (ll2, N0) ∧
      N0 * N0.transpose = 1 ∧ tensor ll2 N0 = tensor (l t) (N t) ∧ ll2 1 ≤ ll2 0 ∧ ll2 2 ≤ ll2 1 := by
  obtain ⟨ll2, N0, h1, h2, h3, h4, h5⟩ := hprin (F t * Fp⁻¹ * sym6 v * (F t * Fp⁻¹).transpose) (by
    funext i j
    exact push_symm (F t * Fp⁻¹) v j i)
  exact ⟨ll2, N0, h1, h2, by rw [h3, hM.decomp], h4, h5⟩

/-- The stress rate along a motion from the tangent. -/
theorem motion_rate (v : Fin 6 → ℝ) (Fp : M3) (F : ℝ → M3) (L : M3) (l : ℝ → V3) (N : ℝ → M3)
    (hM : Motion Fp (sym6 v) F L l N) (ns : Nat) (hns : Fits ns (strainRate L))
    (T : ℝ → V3) (ll2 tau : V3) (N0 dtde P0 P : M3) (c : ℝ) (hN0 : N0 * N0.transpose = 1)
    (hten : tensor ll2 N0 = tensor (l 0) (N 0))
    (hd : ∀ a b, dtde a b = 1 / 2 * (P0 a b + if a = b then c else 0))
    (hclP : ∀ i j k m, ll2 i = l 0 k → ll2 j = l 0 m → P0 i j = P k m)
    (hclT : ∀ i k, ll2 i = l 0 k → tau i = T 0 k)
    (hT : ∀ l' : V3, (∀ i, HasDerivAt (fun t => l t i) (l' i) 0) → ∀ a,
      HasDerivAt (fun t => T t a) (∑ b, (P a b + if a = b then c else 0) * (l' b / (2 * l 0 b))) 0) :
    ∃ R, Rate (fun t => tensor (T t) (N t)) R ∧
      apply ((kept ns).map fun i => (kept ns).map fun j => tangent6 ll2 tau dtde N0 (F 0).det i j)
        (strains ns (strainRate L)) =
      handedOut ns ((1 / (F 0).det) • oldroyd L (tensor (T 0) (N 0)) R) := by
  obtain ⟨l', hl'⟩ := hM.smooth
  obtain ⟨N', hN'⟩ := hM.smoothN
  obtain ⟨s, hs⟩ := principal_perm (l 0) ll2 (N 0) N0 (hM.axes 0) hN0 hten.symm
  obtain ⟨R, h1, h2, h3⟩ := tangent_rate (F 0).det N l T N' L l' _ hM.axes hN' hl' (hT l' hl')
    hM.positive (by
      intro i j
      have := push_rate F L (Fp⁻¹ * sym6 v * Fp⁻¹.transpose) hM.grad i j
      have e : ∀ t, F t * (Fp⁻¹ * sym6 v * Fp⁻¹.transpose) * (F t).transpose =
          tensor (l t) (N t) := by
        intro t
        rw [hM.decomp, Matrix.transpose_mul]
        simp only [Matrix.mul_assoc]
      simp only [e] at this
      exact this) ll2 tau N0 dtde P0 P c hN0 hten hd (by
      intro a b
      rcases hM.gap (s b) (s a) with h | h
      · left; rw [← hs a, ← hs b, h]
      · right; rw [← hs a, ← hs b]; exact h) hclP hclT (fun a => rfl)
  refine ⟨R, h1, apply_kept ns _ _ _ hns fun i => ?_⟩
  rw [show strainRate L = (1 / 2 : ℝ) • (L + L.transpose) from rfl, h3 i, Matrix.smul_apply,
    smul_eq_mul]
  rfl

/-- Along a motion, the plastic strains of equal principal values matter only through the kinematic
hardening. -/
theorem near_perm (l : ℝ → V3) (l' : V3) (hl : ∀ i, HasDerivAt (fun t => l t i) (l' i) 0)
    (N : ℝ → M3) (hN : ∀ t, N t * (N t).transpose = 1) (H : ℝ) (ep : V3)
    (hax : H = 0 ∨ (l 0 1 < l 0 0 ∧ l 0 2 < l 0 1)) :
    ∀ᶠ t in 𝓝 0, (∀ a b, l t a = l t b → H * ep a = H * ep b) ∧
      ∀ ll2 N0, N0 * N0.transpose = 1 → tensor ll2 N0 = tensor (l t) (N t) → ll2 1 ≤ ll2 0 →
        ll2 2 ≤ ll2 1 → ∃ s : Equiv.Perm (Fin 3), (∀ i, l t (s i) = ll2 i) ∧
          ∀ i, H * ep (s i) = H * ep i := by
  rcases hax with h0 | ⟨h1, h2⟩
  · refine Eventually.of_forall fun t => ⟨fun a b _ => by rw [h0]; ring, ?_⟩
    intro ll2 N0 g1 g2 _ _
    obtain ⟨s, hs⟩ := principal_perm (l t) ll2 (N t) N0 (hN t) g1 g2.symm
    exact ⟨s, hs, fun i => by rw [h0]; ring⟩
  · filter_upwards [(hl 1).continuousAt.eventually_lt (hl 0).continuousAt h1,
      (hl 2).continuousAt.eventually_lt (hl 1).continuousAt h2] with t k1 k2
    have hinj : ∀ a b, l t a = l t b → a = b := by
      intro a b
      fin_cases a <;> fin_cases b <;> simp <;> intro h <;> linarith
    refine ⟨fun a b hab => by rw [hinj a b hab], ?_⟩
    intro ll2 N0 g1 g2 g3 g4
    have := principal_unique (l t) ll2 (N t) N0 (hN t) g1 g2.symm k1.le k2.le g3 g4
    exact ⟨1, fun i => by rw [this]; rfl, fun i => rfl⟩

/-- Rates of the radial return. -/
theorem radial_rate (K G c B f0 : ℝ) (ep E : V3) (eps : ℝ → V3)
    (heps : ∀ i, HasDerivAt (fun t => eps t i) (E i) 0) (x : ℝ → V3)
    (hx : x = fun t j => hencky K G (eps t) j - ep j) (g : ℝ → ℝ)
    (hg : g = fun t => (len (dev (x t)) + c * (x t 0 + x t 1 + x t 2) - f0) / B) (hB : B ≠ 0)
    (hr : 0 < len (dev (x 0))) (a : Fin 3) :
    ContinuousAt (fun t => len (dev (x t))) 0 ∧
    ContinuousAt (fun t => len (dev (x t)) + c * (x t 0 + x t 1 + x t 2)) 0 ∧ ContinuousAt g 0 ∧
    HasDerivAt (fun t => hencky K G (eps t) a -
        (3 * K * c + 2 * G * (dev (x t) a / len (dev (x t)))) * g t)
      (∑ b, ((K - 2 * G * ((len (dev (x 0)) - 2 * G * g 0) / len (dev (x 0))) *
          (1 / 3 + dev (x 0) a / len (dev (x 0)) * (dev (x 0) b / len (dev (x 0)))) +
          2 * G * (dev (x 0) a / len (dev (x 0))) * (dev (x 0) b / len (dev (x 0))) -
          (2 * G * (dev (x 0) a / len (dev (x 0))) + 3 * K * c) *
            (2 * G * (dev (x 0) b / len (dev (x 0))) + 3 * K * c) / B) +
        if a = b then 2 * G * ((len (dev (x 0)) - 2 * G * g 0) / len (dev (x 0))) else 0) * E b) 0 := by
  have hs3 : HasDerivAt (fun t => eps t 0 + eps t 1 + eps t 2) (E 0 + E 1 + E 2) 0 :=
    ((heps 0).fun_add (heps 1)).fun_add (heps 2)
  have hh : ∀ i, HasDerivAt (fun t => hencky K G (eps t) i)
      (K * (E 0 + E 1 + E 2) + 2 * G * (E i - (E 0 + E 1 + E 2) / 3)) 0 := fun i =>
    (hs3.const_mul K).fun_add (((heps i).fun_sub (hs3.div_const 3)).const_mul (2 * G))
  have hxd : ∀ i, HasDerivAt (fun t => x t i)
      (K * (E 0 + E 1 + E 2) + 2 * G * (E i - (E 0 + E 1 + E 2) / 3)) 0 := by
    intro i
    rw [hx]
    exact (hh i).sub_const _
  have hxs : HasDerivAt (fun t => x t 0 + x t 1 + x t 2) (3 * K * (E 0 + E 1 + E 2)) 0 :=
    (((hxd 0).fun_add (hxd 1)).fun_add (hxd 2)).congr_deriv (by ring)
  have hd : ∀ i, HasDerivAt (fun t => dev (x t) i) (2 * G * (E i - (E 0 + E 1 + E 2) / 3)) 0 :=
    fun i => ((hxd i).fun_sub (hxs.div_const 3)).congr_deriv (by ring)
  have hsum : dev (x 0) 0 + dev (x 0) 1 + dev (x 0) 2 = 0 := by
    simp only [dev, mean]; ring
  have hrd : HasDerivAt (fun t => len (dev (x t))) (2 * G * (dev (x 0) 0 * E 0 + dev (x 0) 1 * E 1 +
      dev (x 0) 2 * E 2) / len (dev (x 0))) 0 := by
    have h0 : dev (x 0) 0 ^ 2 + dev (x 0) 1 ^ 2 + dev (x 0) 2 ^ 2 ≠ 0 := (Real.sqrt_pos.1 hr).ne'
    have := ((((hd 0).fun_pow 2).fun_add ((hd 1).fun_pow 2)).fun_add ((hd 2).fun_pow 2)).sqrt h0
    refine this.congr_deriv ?_
    show _ / (2 * len (dev (x 0))) = _
    rw [div_eq_div_iff (by positivity) hr.ne']
    push_cast
    linear_combination (-4 * G * (E 0 + E 1 + E 2) / 3 * len (dev (x 0))) * hsum
  have hfd : HasDerivAt (fun t => len (dev (x t)) + c * (x t 0 + x t 1 + x t 2))
      (2 * G * (dev (x 0) 0 * E 0 + dev (x 0) 1 * E 1 +
      dev (x 0) 2 * E 2) / len (dev (x 0)) + c * (3 * K * (E 0 + E 1 + E 2))) 0 :=
    hrd.fun_add (hxs.const_mul c)
  have hgd : HasDerivAt g ((2 * G * (dev (x 0) 0 * E 0 + dev (x 0) 1 * E 1 +
      dev (x 0) 2 * E 2) / len (dev (x 0)) + c * (3 * K * (E 0 + E 1 + E 2))) / B) 0 := by
    rw [hg]
    exact (hfd.sub_const f0).div_const B
  refine ⟨hrd.continuousAt, hfd.continuousAt, hgd.continuousAt, ?_⟩
  have := (hh a).fun_sub (((((hd a).fun_div hrd hr.ne').const_mul (2 * G)).const_add
    (3 * K * c)).fun_mul hgd)
  refine this.congr_deriv ?_
  generalize g 0 = g0
  generalize len (dev (x 0)) = r at *
  generalize dev (x 0) a = da
  simp only [add_mul _ _ (E _), Finset.sum_add_distrib, ite_mul, zero_mul, Finset.sum_ite_eq,
    Finset.mem_univ, if_true, Fin.sum_univ_three]
  generalize E a = ea
  generalize E 0 = e0
  generalize E 1 = e1
  generalize E 2 = e2
  have hr0 := hr.ne'
  field_simp
  ring

/-- Deviator and norm of permuted principal values. -/
theorem dev_perm (x y : V3) (s : Equiv.Perm (Fin 3)) (h : ∀ i, y i = x (s i)) :
    (y 0 + y 1 + y 2 = x 0 + x 1 + x 2) ∧ (∀ i, dev y i = dev x (s i)) ∧
      len (dev y) = len (dev x) := by
  have h1 : y 0 + y 1 + y 2 = x 0 + x 1 + x 2 := by
    have := Equiv.sum_comp s x
    rw [Fin.sum_univ_three, Fin.sum_univ_three] at this
    rw [h, h, h, this]
  have h2 : ∀ i, dev y i = dev x (s i) := by
    intro i
    simp only [dev, mean, h1]
    rw [h]
  refine ⟨h1, h2, ?_⟩
  unfold len
  have := Equiv.sum_comp s fun i => dev x i ^ 2
  rw [Fin.sum_univ_three, Fin.sum_univ_three] at this
  rw [h2, h2, h2, this]

/-- The tangent of plastic steps with linear hardening, for criteria with or without a pressure
term. -/
theorem tangent_linear (p : List ℝ) (hfn : Option ((ℝ → ℝ) × (ℝ → ℝ)))
    (prin : M3 → Option (V3 × M3)) (hprin : Principal prin) (ns : Nat) (h : Hist)
    (it : Nat) (first : Bool) (m : Par) (hm : fetch p = .ok m) (hb : 0 < m.bulk) (hs : 0 < m.shear)
    (hy0 : 0 < m.y0) (H : ℝ) (hH : 0 ≤ H) (hk : m.hk = 2 / 3 * H)
    (Fp : M3) (F : ℝ → M3) (L : M3) (l : ℝ → V3) (N : ℝ → M3) (hM : Motion Fp (sym6 h.ecg) F L l N)
    (hns : Fits ns (strainRate L)) (hne : ∃ i, l 0 i ≠ 1)
    (hax : H = 0 ∨ (l 0 1 < l 0 0 ∧ l 0 2 < l 0 1)) (c Y0 hi : ℝ) (hhi : 0 ≤ hi)
    (hyf : Radial (yfunc p hfn true) c (fun e => s23 * Y0 + s23 * hi * e) (fun _ => s23 * (s23 * hi))
      h.epp)
    (hyf0 : ∀ i1 j2 j3, 0 < j2 → ∃ y, yfunc p hfn false h.epp i1 j2 j3 = .ok y ∧
      y.yield = Real.sqrt (2 * j2) + c * i1 - s23 * (Y0 + hi * h.epp))
    (hfl : flowAllowed m.istart it first = true) (xi : V3)
    (hxi : xi = fun j => hencky m.bulk m.shear (fun i => Real.log (l 0 i) / 2) j -
      2 / 3 * H * h.epl j)
    (hyield : s23 * (Y0 + hi * h.epp) + tolc * m.y0 ≤ len (dev xi) + c * (xi 0 + xi 1 + xi 2))
    (hside : 1 / 10 ^ 16 < len (dev xi) - (2 * m.shear + 2 / 3 * H) *
      ((len (dev xi) + c * (xi 0 + xi 1 + xi 2) - s23 * (Y0 + hi * h.epp)) /
      (2 * m.shear + 2 / 3 * H + c ^ 2 * (9 * m.bulk + 2 * H) + 2 / 3 * hi))) :
    ∃ tau R, Rate tau R ∧
      (∀ᶠ t in 𝓝 0, ∃ o, evaluate p hfn prin ns h Fp (F t) it first = .ok o ∧
        o.sig = handedOut ns ((1 / (F t).det) • tau t)) ∧
      ∃ o, evaluate p hfn prin ns h Fp (F 0) it first = .ok o ∧
        apply o.C (strains ns (strainRate L)) =
          handedOut ns ((1 / (F 0).det) • oldroyd L (tau 0) R) := by
  obtain ⟨l', hl'⟩ := hM.smooth
  have hpn := near_pos l l' hl' hM.positive
  have hdn := near_det F _ hM.grad hM.regular.2
  have hsn := near_perm l l' hl' N hM.axes (2 / 3 * H) h.epl (by
    rcases hax with h0 | h0
    · left; rw [h0]; ring
    · exact Or.inr h0)
  obtain ⟨B, hBd⟩ : ∃ B, B = 2 * m.shear + 2 / 3 * H + c ^ 2 * (9 * m.bulk + 2 * H) + 2 / 3 * hi :=
    ⟨_, rfl⟩
  have hB : 0 < B := by rw [hBd]; positivity
  rw [← hBd] at hside
  have ht : (0 : ℝ) < tolc := by unfold tolc; positivity
  have hz : (0 : ℝ) < 1 / 10 ^ 16 := by positivity
  obtain ⟨x, hx⟩ : ∃ x : ℝ → V3, x = fun t j =>
      hencky m.bulk m.shear (fun i => Real.log (l t i) / 2) j - 2 / 3 * H * h.epl j := ⟨_, rfl⟩
  have hx0 : x 0 = xi := by rw [hx, hxi]
  obtain ⟨g, hg⟩ : ∃ g : ℝ → ℝ, g = fun t => (len (dev (x t)) + c * (x t 0 + x t 1 + x t 2) -
    s23 * (Y0 + hi * h.epp)) / B := ⟨_, rfl⟩
  have hg0 : 0 < g 0 := by
    rw [hg]
    have : 0 < tolc * m.y0 := by positivity
    simp only [hx0]
    exact div_pos (by linarith) hB
  have hr : 0 < len (dev (x 0)) := by
    have : 0 ≤ (2 * m.shear + 2 / 3 * H) * g 0 := by positivity
    have e : (len (dev xi) + c * (xi 0 + xi 1 + xi 2) - s23 * (Y0 + hi * h.epp)) / B = g 0 := by
      rw [hg]; simp only [hx0]
    rw [e] at hside
    rw [hx0]; linarith
  have rr := fun (l' : V3) (hl' : ∀ i, HasDerivAt (fun t => l t i) (l' i) 0) => radial_rate m.bulk
    m.shear c B (s23 * (Y0 + hi * h.epp)) (fun j => 2 / 3 * H * h.epl j) _
    (fun t i => Real.log (l t i) / 2) (log_rate l l' hl' hM.positive) x hx g hg hB.ne' hr
  have hny : ∀ᶠ t in 𝓝 0, s23 * (Y0 + hi * h.epp) < len (dev (x t)) + c * (x t 0 + x t 1 + x t 2) := by
    refine (rr l' hl' 0).2.1.eventually (lt_mem_nhds ?_)
    simp only [hx0]
    have : 0 < tolc * m.y0 := by positivity
    linarith
  have hns' : ∀ᶠ t in 𝓝 0, 1 / 10 ^ 16 < len (dev (x t)) - (2 * m.shear + 2 / 3 * H) * g t := by
    refine ((rr l' hl' 0).1.sub ((rr l' hl' 0).2.2.1.const_mul _)).eventually (lt_mem_nhds ?_)
    have e : (len (dev xi) + c * (xi 0 + xi 1 + xi 2) - s23 * (Y0 + hi * h.epp)) / B = g 0 := by
      rw [hg]; simp only [hx0]
    rw [e, ← hx0] at hside
    exact hside
  have hnn : ∀ᶠ t in 𝓝 0, ∃ i, l t i ≠ 1 := by
    obtain ⟨i, hi1⟩ := hne
    filter_upwards [(hl' i).continuousAt.eventually_ne hi1] with t h1
    exact ⟨i, h1⟩
  obtain ⟨T, hT⟩ : ∃ T : ℝ → V3, T = fun t a => hencky m.bulk m.shear (fun i => Real.log (l t i) / 2) a -
      (3 * m.bulk * c + 2 * m.shear * (dev (x t) a / len (dev (x t)))) * g t := ⟨_, rfl⟩
  have hev : ∀ᶠ t in 𝓝 0, ∃ (o : Out) (ll2 : V3) (N0 : M3) (tau nu : V3),
      N0 * N0.transpose = 1 ∧
      tensor ll2 N0 = tensor (l t) (N t) ∧
      evaluate p hfn prin ns h Fp (F t) it first = .ok o ∧
      o.sig = handedOut ns ((1 / (F t).det) • tensor tau N0) ∧
      (∀ i k, ll2 i = l t k → tau i = T t k) ∧
      (∀ i k, ll2 i = l t k → nu i = dev (x t) k / len (dev (x t))) ∧
      (tolc * m.y0 ≤ len (dev (x t)) + c * (x t 0 + x t 1 + x t 2) - s23 * (Y0 + hi * h.epp) →
        o.C = (kept ns).map fun i => (kept ns).map fun j =>
          tangent6 ll2 tau (fun a b => 1 / 2 * (m.bulk +
            2 * m.shear * ((len (dev (x t)) - 2 * m.shear * g t) / len (dev (x t))) *
              ((if a = b then 1 else 0) - 1 / 3 - nu a * nu b) + 2 * m.shear * nu a * nu b -
            (2 * m.shear * nu a + 3 * m.bulk * c) * (2 * m.shear * nu b + 3 * m.bulk * c) /
              B)) N0 (F t).det i j) := by
    filter_upwards [hpn, hdn, hsn, hny, hns', hnn] with t h1 h2 h3 h4 h5 h6
    obtain ⟨ll2, N0, g1, g2, g3, g4, g5⟩ := motion_principal prin hprin h.ecg Fp F L l N hM t
    obtain ⟨s, hs1, hs2⟩ := h3.2 ll2 N0 g2 g3 g4 g5
    obtain ⟨y, hy⟩ : ∃ y : V3, y = fun j => hencky m.bulk m.shear (fun i => Real.log (ll2 i) / 2) j -
      2 / 3 * H * h.epl j := ⟨_, rfl⟩
    have hep := dev_perm (fun i => Real.log (l t i) / 2) (fun i => Real.log (ll2 i) / 2) s
      (fun i => by simp only [hs1])
    have hyx : ∀ i, y i = x t (s i) := by
      intro i
      rw [hy, hx]
      simp only [hencky]
      rw [hep.1, hep.2.1, hs2]
    obtain ⟨q1, q2, q3⟩ := dev_perm (x t) y s hyx
    have hgt : g t = (len (dev y) + c * (y 0 + y 1 + y 2) - s23 * (Y0 + hi * h.epp)) / B := by
      rw [hg]; simp only [q1, q3]
    obtain ⟨o, nu, e, xi', k1, k2, k3, k4, k5, k6, k7, k8, k9, k10, k11, k12, k13, k14, k15⟩ :=
      evaluate_linear p hfn prin ns h Fp (F t) it first m hm hb hs hy0 H hH hk ⟨hM.regular.1, h2⟩
        ll2 N0 g1 (fun i => by rw [← hs1]; exact h1 _) (by
          obtain ⟨i, hi1⟩ := h6
          refine ⟨s.symm i, ?_⟩
          rw [← hs1, Equiv.apply_symm_apply]
          exact hi1) c Y0 hi hhi hyf hyf0 hfl y hy (g t) (by rw [hgt, hBd]) (by
          rw [q1, q3]; exact h4) (by rw [q3]; exact h5)
    have hlr : len (dev (x t)) ≠ 0 := by
      have : 0 ≤ (2 * m.shear + 2 / 3 * H) * g t := by
        have := k2.le
        positivity
      intro h0
      rw [h0] at h5
      linarith
    have hcl : ∀ a b, l t a = l t b → dev (x t) a = dev (x t) b ∧ T t a = T t b := by
      intro a b hab
      have e1 : x t a = x t b := by
        rw [hx]
        simp only [hencky, dev]
        rw [h3.1 a b hab, hab]
      have e2 : dev (x t) a = dev (x t) b := by
        simp only [dev, e1]
      refine ⟨e2, ?_⟩
      rw [hT]
      simp only [e2]
      congr 1
      simp only [hencky, dev]
      rw [hab]
    have hnu : ∀ i, nu i = dev (x t) (s i) / len (dev (x t)) := by
      intro i
      have := k5 i
      rw [q2, q3] at this
      rw [this, mul_div_cancel_left₀ _ hlr]
    have hta : ∀ i, hencky m.bulk m.shear e i = T t (s i) := by
      intro i
      have hm0 : nu 0 + nu 1 + nu 2 = 0 := by
        unfold mean at k4; linarith
      have hhe := hep.1
      have hhd := hep.2.1 i
      rw [hT]
      simp only [← hnu]
      have : hencky m.bulk m.shear (fun i => Real.log (l t i) / 2) (s i) =
          hencky m.bulk m.shear (fun i => Real.log (ll2 i) / 2) i := by
        simp only [hencky]
        rw [hhe, hhd]
      rw [this, k6]
      simp only [hencky, dev, mean]
      linear_combination (-m.bulk * g t + 2 * m.shear * g t / 3) * hm0
    refine ⟨o, ll2, N0, _, nu, g2, g3, k1, k11, ?_, ?_, ?_⟩
    · intro i k hik
      rw [← hs1] at hik
      rw [hta, (hcl _ _ hik).2]
    · intro i k hik
      rw [← hs1] at hik
      rw [hnu, (hcl _ _ hik).1]
    · intro hto
      rw [k15 (by
        rw [ge_iff_le, le_div_iff₀ hy0, q1, q3]
        exact hto), q3, hBd]
  obtain ⟨o, ll2, N0, tau, nu, k1, k2, k3, k4, k5, k6, k7⟩ := hev.self_of_nhds
  obtain ⟨R, hR, hC⟩ := motion_rate h.ecg Fp F L l N hM ns hns T ll2 tau N0
    (fun a b => m.bulk - 2 * m.shear * ((len (dev (x 0)) - 2 * m.shear * g 0) / len (dev (x 0))) *
          (1 / 3 + nu a * nu b) + 2 * m.shear * nu a * nu b -
          (2 * m.shear * nu a + 3 * m.bulk * c) * (2 * m.shear * nu b + 3 * m.bulk * c) / B)
    (fun a b => m.bulk - 2 * m.shear * ((len (dev (x 0)) - 2 * m.shear * g 0) / len (dev (x 0))) *
          (1 / 3 + dev (x 0) a / len (dev (x 0)) * (dev (x 0) b / len (dev (x 0)))) +
          2 * m.shear * (dev (x 0) a / len (dev (x 0))) * (dev (x 0) b / len (dev (x 0))) -
          (2 * m.shear * (dev (x 0) a / len (dev (x 0))) + 3 * m.bulk * c) *
            (2 * m.shear * (dev (x 0) b / len (dev (x 0))) + 3 * m.bulk * c) / B)
    (2 * m.shear * ((len (dev (x 0)) - 2 * m.shear * g 0) / len (dev (x 0)))) k1 k2
    (dtde := fun a b => 1 / 2 * (m.bulk +
            2 * m.shear * ((len (dev (x 0)) - 2 * m.shear * g 0) / len (dev (x 0))) *
              ((if a = b then 1 else 0) - 1 / 3 - nu a * nu b) + 2 * m.shear * nu a * nu b -
            (2 * m.shear * nu a + 3 * m.bulk * c) * (2 * m.shear * nu b + 3 * m.bulk * c) /
              B)) (by
      intro a b
      split_ifs <;> ring) (by
      intro i j k m' hik hjm
      simp only [k6 i k hik, k6 j m' hjm]) k5 (by
      intro l' hl' a
      rw [hT]
      exact (rr l' hl' a).2.2.2)
  refine ⟨_, R, hR, ?_, o, k3, ?_⟩
  · filter_upwards [hev] with t ht
    obtain ⟨o, ll2, N0, tau, nu, k1, k2, k3, k4, k5, k6, k7⟩ := ht
    refine ⟨o, k3, ?_⟩
    rw [k4, tensor_indep2 ll2 (l t) tau (T t) N0 (N t) k1 (hM.axes t) k2 k5]
  · rw [k7 (by rw [hx0]; linarith)]
    exact hC

section parameters
variable (q0 q1 q2 q3 K G h hk ty Y0 Yinf beta ist : ℝ) (q : List ℝ)

/-- **C119** (elastic steps). For every criterion, as long as the evaluations along a motion are
elastic: the matrix gives the convected rate of the Kirchhoff stress, divided by the volume ratio. -/
theorem C119_elastic (hfn : Option ((ℝ → ℝ) × (ℝ → ℝ))) (prin : M3 → Option (V3 × M3))
    (hprin : Principal prin) (ns : Nat) (H : Hist) (Fp : M3) (F : ℝ → M3) (L : M3) (l : ℝ → V3)
    (N : ℝ → M3) (hM : Motion Fp (sym6 H.ecg) F L l N) (hns : Fits ns (strainRate L)) (it : Nat)
    (first : Bool)
    (hel : ∀ᶠ t in 𝓝 0, ∀ ll2 N0 xi,
      prin (F t * Fp⁻¹ * sym6 H.ecg * (F t * Fp⁻¹).transpose) = some (ll2, N0) →
      xi = (fun j => hencky K G (fun i => Real.log (ll2 i) / 2) j - 2 / 3 * hk * H.epl j) →
      ∃ y, yfunc (q0 :: q1 :: q2 :: q3 :: K :: G :: h :: hk :: ty :: Y0 :: Yinf :: beta ::
        ist :: q) hfn false H.epp (xi 0 + xi 1 + xi 2) (len (dev xi) ^ 2 / 2)
        ((dev xi 0 ^ 3 + dev xi 1 ^ 3 + dev xi 2 ^ 3) / 3) = .ok y ∧
        ((0 < it ∧ y.yield ≤ 0) ∨ (it = 0 ∧ toInt ist = 0) ∨
          (first = true ∧ 1 < toInt ist ∧ (it : Int) ≤ toInt ist))) :
    ∃ tau R, Rate tau R ∧
      (∀ᶠ t in 𝓝 0, ∃ o, evaluate (q0 :: q1 :: q2 :: q3 :: K :: G :: h :: hk :: ty :: Y0 :: Yinf ::
        beta :: ist :: q) hfn prin ns H Fp (F t) it first = .ok o ∧
        o.sig = handedOut ns ((1 / (F t).det) • tau t)) ∧
      ∃ o, evaluate (q0 :: q1 :: q2 :: q3 :: K :: G :: h :: hk :: ty :: Y0 :: Yinf ::
        beta :: ist :: q) hfn prin ns H Fp (F 0) it first = .ok o ∧
        apply o.C (strains ns (strainRate L)) =
          handedOut ns ((1 / (F 0).det) • oldroyd L (tau 0) R) := by
  obtain ⟨l', hl'⟩ := hM.smooth
  have hpn := near_pos l l' hl' hM.positive
  have hdn := near_det F _ hM.grad hM.regular.2
  have hev : ∀ᶠ t in 𝓝 0, ∃ ll2 N0, N0 * N0.transpose = 1 ∧ tensor ll2 N0 = tensor (l t) (N t) ∧
      evaluate (q0 :: q1 :: q2 :: q3 :: K :: G :: h :: hk :: ty :: Y0 :: Yinf ::
        beta :: ist :: q) hfn prin ns H Fp (F t) it first = .ok (output ns ll2 N0 (F t).det
          { H with ecg := fun i => (F t * Fp⁻¹ * sym6 H.ecg * (F t * Fp⁻¹).transpose) (p1 i) (p2 i) }
          (hencky K G fun i => Real.log (ll2 i) / 2)
          (elasticTangent ⟨K, G, s23 * Y0, 2 / 3 * hk, toInt ist⟩) 0) := by
    filter_upwards [hpn, hdn, hel] with t hp hd he
    obtain ⟨ll2, N0, h1, h2, h3, -, -⟩ := motion_principal prin hprin H.ecg Fp F L l N hM t
    obtain ⟨s, hs⟩ := principal_perm (l t) ll2 (N t) N0 (hM.axes t) h2 h3.symm
    obtain ⟨y, hy, hyel⟩ := he ll2 N0 _ h1 rfl
    refine ⟨ll2, N0, h2, h3, elastic_output q0 q1 q2 q3 K G h hk ty Y0 Yinf beta ist q hfn prin ns H Fp
      (F t) it first ⟨hM.regular.1, hd⟩ ll2 N0 h1 (fun i => by rw [← hs]; exact hp _) _ rfl y hy ?_⟩
    rcases hyel with e | e | e
    · exact Or.inl e
    · exact Or.inr (Or.inl e)
    · exact Or.inr (Or.inr (Or.inl e))
  have hcl : ∀ (t : ℝ) (ll2 : V3) (N0 : M3), N0 * N0.transpose = 1 →
      tensor ll2 N0 = tensor (l t) (N t) → ∀ i k, ll2 i = l t k →
      hencky K G (fun i => Real.log (ll2 i) / 2) i = hencky K G (fun i => Real.log (l t i) / 2) k := by
    intro t ll2 N0 h1 h2 i k hik
    obtain ⟨s, hs⟩ := principal_perm (l t) ll2 (N t) N0 (hM.axes t) h1 h2.symm
    have hsum : ∑ i, Real.log (ll2 i) / 2 = ∑ i, Real.log (l t i) / 2 := by
      rw [← Equiv.sum_comp s fun i => Real.log (l t i) / 2]
      simp only [hs]
    rw [Fin.sum_univ_three, Fin.sum_univ_three] at hsum
    simp only [hencky, dev, mean]
    rw [hsum, hik]
  obtain ⟨ll2, N0, k1, k2, k3⟩ := hev.self_of_nhds
  obtain ⟨R, hR, hC⟩ := motion_rate H.ecg Fp F L l N hM ns hns
    (fun t => hencky K G fun i => Real.log (l t i) / 2) ll2
    (hencky K G fun i => Real.log (ll2 i) / 2) N0
    (elasticTangent ⟨K, G, s23 * Y0, 2 / 3 * hk, toInt ist⟩) (fun _ _ => K - 2 / 3 * G)
    (fun _ _ => K - 2 / 3 * G) (2 * G) k1 k2 (by
      intro a b
      unfold elasticTangent
      split_ifs <;> ring) (fun _ _ _ _ _ _ => rfl) (hcl 0 ll2 N0 k1 k2) (by
      intro l' hl' a
      have hlog := log_rate l l' hl' hM.positive
      have hs3 : HasDerivAt (fun t => Real.log (l t 0) / 2 + Real.log (l t 1) / 2 + Real.log (l t 2) / 2)
          (l' 0 / (2 * l 0 0) + l' 1 / (2 * l 0 1) + l' 2 / (2 * l 0 2)) 0 :=
        ((hlog 0).fun_add (hlog 1)).fun_add (hlog 2)
      have := (hs3.const_mul K).fun_add (((hlog a).fun_sub (hs3.div_const 3)).const_mul (2 * G))
      refine this.congr_deriv ?_
      simp only [add_mul, Finset.sum_add_distrib, ite_mul, zero_mul, Finset.sum_ite_eq,
        Finset.mem_univ, if_true, ← Finset.mul_sum, Fin.sum_univ_three]
      ring)
  refine ⟨_, R, hR, ?_, _, k3, hC⟩
  filter_upwards [hev] with t ht
  obtain ⟨m2, N2, j1, j2, j3⟩ := ht
  refine ⟨_, j3, ?_⟩
  rw [output_sig, tensor_indep2 m2 (l t) _ _ N2 (N t) j1 (hM.axes t) j2 (hcl t m2 N2 j1 j2)]

/-- **C119** (linear hardening). For von Mises' criterion with linear isotropic and kinematic
hardening, in plastic steps that exceed the yield stress by more than the tolerance: the matrix gives
the convected rate of the Kirchhoff stress of the whole return mapping, divided by the volume ratio. -/
theorem C119_linear (hfn : Option ((ℝ → ℝ) × (ℝ → ℝ))) (hty : toInt ty = 1) (hK : 0 < K) (hG : 0 < G)
    (hh : 0 ≤ h) (hhk : 0 ≤ hk) (hY0 : 1 / 10 ^ 16 < Real.sqrt (2 / 3) * Y0)
    (prin : M3 → Option (V3 × M3)) (hprin : Principal prin) (ns : Nat) (H : Hist) (hepp : 0 ≤ H.epp)
    (Fp : M3) (F : ℝ → M3) (L : M3) (l : ℝ → V3) (N : ℝ → M3) (hM : Motion Fp (sym6 H.ecg) F L l N)
    (hns : Fits ns (strainRate L)) (it : Nat) (first : Bool) (hne : ∃ i, l 0 i ≠ 1)
    (hax : hk = 0 ∨ (l 0 1 < l 0 0 ∧ l 0 2 < l 0 1)) (hit : ¬ (it = 0 ∧ toInt ist = 0))
    (hst : ¬ (first = true ∧ 1 < toInt ist ∧ (it : Int) ≤ toInt ist)) (xi : V3)
    (hxi : xi = fun j => hencky K G (fun i => Real.log (l 0 i) / 2) j - 2 / 3 * hk * H.epl j)
    (hyield : Real.sqrt (2 / 3) * (Y0 + h * H.epp) + 1 / 10 ^ 9 * (Real.sqrt (2 / 3) * Y0) ≤
      len (dev xi)) :
    ∃ tau R, Rate tau R ∧
      (∀ᶠ t in 𝓝 0, ∃ o, evaluate (q0 :: q1 :: q2 :: q3 :: K :: G :: h :: hk :: ty :: Y0 :: Y0 ::
        beta :: ist :: q) hfn prin ns H Fp (F t) it first = .ok o ∧
        o.sig = handedOut ns ((1 / (F t).det) • tau t)) ∧
      ∃ o, evaluate (q0 :: q1 :: q2 :: q3 :: K :: G :: h :: hk :: ty :: Y0 :: Y0 ::
        beta :: ist :: q) hfn prin ns H Fp (F 0) it first = .ok o ∧
        apply o.C (strains ns (strainRate L)) =
          handedOut ns ((1 / (F 0).det) • oldroyd L (tau 0) R) := by
  have hs := s23_pos'
  have hs2 : Real.sqrt (2 / 3) = s23 := rfl
  have hz : (0 : ℝ) < 1 / 10 ^ 16 := by positivity
  rw [hs2] at hY0 hyield
  have hfl : flowAllowed (toInt ist) it first = true := by
    unfold flowAllowed
    rw [if_neg hst]
    have := not_and_or.1 hit
    simpa using this
  refine tangent_linear (q0 :: q1 :: q2 :: q3 :: K :: G :: h :: hk :: ty :: Y0 :: Y0 :: beta ::
    ist :: q) hfn prin hprin ns H it first _
    (fetch_list q0 q1 q2 q3 K G h hk ty Y0 Y0 beta ist q) hK hG (lt_trans hz hY0) hk hhk rfl Fp F L l
    N hM hns hne hax 0 Y0 h hh
    (linear_radial q0 q1 q2 q3 K G h hk ty Y0 beta ist q hfn hty H).1
    (linear_radial q0 q1 q2 q3 K G h hk ty Y0 beta ist q hfn hty H).2 hfl xi hxi ?_ ?_
  · show s23 * (Y0 + h * H.epp) + tolc * (s23 * Y0) ≤ _
    unfold tolc
    linarith
  · show 1 / 10 ^ 16 < len (dev xi) - (2 * G + 2 / 3 * hk) *
      ((len (dev xi) + 0 * (xi 0 + xi 1 + xi 2) - s23 * (Y0 + h * H.epp)) /
      (2 * G + 2 / 3 * hk + 0 ^ 2 * (9 * K + 2 * hk) + 2 / 3 * h))
    have hB : 0 < 2 * G + 2 / 3 * hk + 0 ^ 2 * (9 * K + 2 * hk) + 2 / 3 * h := by positivity
    obtain ⟨g, hg⟩ : ∃ g, g = (len (dev xi) + 0 * (xi 0 + xi 1 + xi 2) - s23 * (Y0 + h * H.epp)) /
      (2 * G + 2 / 3 * hk + 0 ^ 2 * (9 * K + 2 * hk) + 2 / 3 * h) := ⟨_, rfl⟩
    rw [← hg]
    have hgB : g * (2 * G + 2 / 3 * hk + 0 ^ 2 * (9 * K + 2 * hk) + 2 / 3 * h) =
        len (dev xi) + 0 * (xi 0 + xi 1 + xi 2) - s23 * (Y0 + h * H.epp) := by
      rw [hg]; exact div_mul_cancel₀ _ hB.ne'
    have : 0 < 1 / 10 ^ 9 * (s23 * Y0) := mul_pos (by norm_num) (lt_trans hz hY0)
    have hg0 : 0 ≤ g := by rw [hg]; exact div_nonneg (by linarith) hB.le
    have : 0 ≤ h * g := by positivity
    have : 0 ≤ s23 * (h * H.epp) := by positivity
    nlinarith

/-- **C119** (Drucker-Prager). The same for the criterion with a pressure term, for returns to the
side of the cone. -/
theorem C119_drucker (hfn : Option ((ℝ → ℝ) × (ℝ → ℝ))) (hty : toInt ty = 2) (hK : 0 < K) (hG : 0 < G)
    (hh : 0 ≤ h) (hhk : 0 ≤ hk) (hY0 : 0 < Y0)
    (prin : M3 → Option (V3 × M3)) (hprin : Principal prin) (ns : Nat) (H : Hist)
    (Fp : M3) (F : ℝ → M3) (L : M3) (l : ℝ → V3) (N : ℝ → M3) (hM : Motion Fp (sym6 H.ecg) F L l N)
    (hns : Fits ns (strainRate L)) (it : Nat) (first : Bool) (hne : ∃ i, l 0 i ≠ 1)
    (hax : hk = 0 ∨ (l 0 1 < l 0 0 ∧ l 0 2 < l 0 1)) (hit : ¬ (it = 0 ∧ toInt ist = 0))
    (hst : ¬ (first = true ∧ 1 < toInt ist ∧ (it : Int) ≤ toInt ist)) (xi : V3)
    (hxi : xi = fun j => hencky K G (fun i => Real.log (l 0 i) / 2) j - 2 / 3 * hk * H.epl j)
    (c : ℝ) (hc : c = Real.sqrt (2 / 3) * Yinf / 3)
    (hyield : Real.sqrt (2 / 3) * (Y0 + h * H.epp) + 1 / 10 ^ 9 * (Real.sqrt (2 / 3) * Y0) ≤
      len (dev xi) + c * (xi 0 + xi 1 + xi 2))
    (hside : 1 / 10 ^ 16 < len (dev xi) - (2 * G + 2 / 3 * hk) *
      ((len (dev xi) + c * (xi 0 + xi 1 + xi 2) - Real.sqrt (2 / 3) * (Y0 + h * H.epp)) /
      (2 * G + 2 / 3 * hk + c ^ 2 * (9 * K + 2 * hk) + 2 / 3 * h))) :
    ∃ tau R, Rate tau R ∧
      (∀ᶠ t in 𝓝 0, ∃ o, evaluate (q0 :: q1 :: q2 :: q3 :: K :: G :: h :: hk :: ty :: Y0 :: Yinf ::
        beta :: ist :: q) hfn prin ns H Fp (F t) it first = .ok o ∧
        o.sig = handedOut ns ((1 / (F t).det) • tau t)) ∧
      ∃ o, evaluate (q0 :: q1 :: q2 :: q3 :: K :: G :: h :: hk :: ty :: Y0 :: Yinf ::
        beta :: ist :: q) hfn prin ns H Fp (F 0) it first = .ok o ∧
        apply o.C (strains ns (strainRate L)) =
          handedOut ns ((1 / (F 0).det) • oldroyd L (tau 0) R) := by
  have hs := s23_pos'
  have hs2 : Real.sqrt (2 / 3) = s23 := rfl
  rw [hs2] at hc hyield hside
  have hfl : flowAllowed (toInt ist) it first = true := by
    unfold flowAllowed
    rw [if_neg hst]
    have := not_and_or.1 hit
    simpa using this
  exact tangent_linear (q0 :: q1 :: q2 :: q3 :: K :: G :: h :: hk :: ty :: Y0 :: Yinf :: beta ::
    ist :: q) hfn prin hprin ns H it first _
    (fetch_list q0 q1 q2 q3 K G h hk ty Y0 Yinf beta ist q) hK hG (mul_pos hs hY0) hk hhk rfl Fp F L l
    N hM hns hne hax c Y0 h hh
    (drucker_radial q0 q1 q2 q3 K G h hk ty Y0 Yinf beta ist q hfn hty H c hc).1
    (drucker_radial q0 q1 q2 q3 K G h hk ty Y0 Yinf beta ist q hfn hty H c hc).2 hfl xi hxi hyield
    hside

end parameters

theorem cstm_symm (ll2 tau : V3) (d : M3) (hd : ∀ a b, d a b = d b a) :
    (cstm ll2 tau d).transpose = cstm ll2 tau d := by
  unfold cstm
  ext i j
  fin_cases i <;> fin_cases j <;> simp [Matrix.transpose_apply] <;> exact hd _ _

theorem tangent6_symm (ll2 tau : V3) (d n : M3) (J : ℝ) (hd : ∀ a b, d a b = d b a) (i j : Fin 6) :
    tangent6 ll2 tau d n J i j = tangent6 ll2 tau d n J j i := by
  have : (tangent6 ll2 tau d n J).transpose = tangent6 ll2 tau d n J := by
    unfold tangent6
    rw [Matrix.transpose_smul, Matrix.transpose_mul, Matrix.transpose_mul, Matrix.transpose_transpose,
      cstm_symm _ _ _ hd, Matrix.mul_assoc]
  exact congrFun (congrFun this j) i

/-- **C119** (symmetry). The matrix handed out is square, with as many rows as stress components, and
symmetric. This holds for every criterion and every evaluation that succeeds. -/
theorem C119_symmetric (p : List ℝ) (hfn : Option ((ℝ → ℝ) × (ℝ → ℝ)))
    (prin : M3 → Option (V3 × M3)) (ns : Nat) (H : Hist) (Fp Fc : M3) (it : Nat) (first : Bool) (o : Out)
    (ho : evaluate p hfn prin ns H Fp Fc it first = .ok o) :
    o.C.length = o.sig.length ∧ (∀ r ∈ o.C, r.length = o.sig.length) ∧
    ∀ (i j : Nat) (ri rj : List ℝ), o.C[i]? = some ri → o.C[j]? = some rj → ri[j]? = rj[i]? := by
  have key : ∀ (ll2 : V3) (n : M3) (J : ℝ) (h : Hist) (tau : V3) (d : M3) (e : Nat),
      (∀ a b, d a b = d b a) → o = output ns ll2 n J h tau d e →
      o.C.length = o.sig.length ∧ (∀ r ∈ o.C, r.length = o.sig.length) ∧
      ∀ (i j : Nat) (ri rj : List ℝ), o.C[i]? = some ri → o.C[j]? = some rj → ri[j]? = rj[i]? := by
    intro ll2 n J h tau d e hd ho
    rw [ho]
    refine ⟨by simp [output], ?_, ?_⟩
    · intro r hr
      simp only [output, List.mem_map] at hr ⊢
      obtain ⟨i, -, rfl⟩ := hr
      simp
    · intro i j ri rj hi hj
      simp only [output, List.getElem?_map, Option.map_eq_some_iff] at hi hj
      obtain ⟨a, ha, rfl⟩ := hi
      obtain ⟨b, hb, rfl⟩ := hj
      simp only [List.getElem?_map, ha, hb, Option.map_some]
      rw [tangent6_symm _ _ _ _ _ hd]
  unfold evaluate at ho
  cases hm : fetch p with
  | fail => rw [hm] at ho; cases ho
  | ub => rw [hm] at ho; cases ho
  | ok m =>
    rw [hm] at ho
    simp only [Res.bind] at ho
    by_cases hF : Fp.det = 0 ∨ Fc.det = 0
    · rw [if_pos hF] at ho; cases ho
    rw [if_neg hF] at ho
    cases hp : prin (Fc * Fp⁻¹ * sym6 H.ecg * (Fc * Fp⁻¹).transpose) with
    | none => rw [hp] at ho; cases ho
    | some q =>
      obtain ⟨ll2, n⟩ := q
      rw [hp] at ho
      simp only [] at ho
      by_cases hpos : ll2 0 ≤ 0 ∨ ll2 1 ≤ 0 ∨ ll2 2 ≤ 0
      · rw [if_pos hpos] at ho; cases ho
      rw [if_neg hpos] at ho
      cases hy : yfunc p hfn false H.epp (trial m H fun i => Real.log (Real.sqrt (ll2 i))).I1
          (trial m H fun i => Real.log (Real.sqrt (ll2 i))).J2
          (trial m H fun i => Real.log (Real.sqrt (ll2 i))).J3 with
      | fail => rw [hy] at ho; cases ho
      | ub => rw [hy] at ho; cases ho
      | ok y =>
        rw [hy] at ho
        simp only [] at ho
        by_cases hpl : y.yield > -yieldTol m it ∧ flowAllowed m.istart it first = true
        · rw [if_pos hpl] at ho
          cases hr : plasticStep m (yfunc p hfn true) H (fun i => Real.log (Real.sqrt (ll2 i))) n it with
          | fail => rw [hr] at ho; cases ho
          | ub => rw [hr] at ho; cases ho
          | ok r =>
            rw [hr] at ho
            cases ho
            refine key ll2 n _ r.1 r.2.1 r.2.2.1 r.2.2.2 ?_ rfl
            unfold plasticStep at hr
            split_ifs at hr
            simp only [] at hr
            cases hl : rmLoop (rmStep m (yfunc p hfn true) (fun i => Real.log (Real.sqrt (ll2 i)))
                (trial m H fun i => Real.log (Real.sqrt (ll2 i))).alp H.epp) maxIter
                (trial m H fun i => Real.log (Real.sqrt (ll2 i))) with
            | fail => rw [hl] at hr; cases hr
            | ub => rw [hl] at hr; cases hr
            | ok s =>
              rw [hl] at hr
              simp only [Res.bind] at hr
              cases ht : plasticTangent m s with
              | fail => rw [ht] at hr; cases hr
              | ub => rw [ht] at hr; cases hr
              | ok d =>
                rw [ht] at hr
                cases hr
                intro a b
                unfold plasticTangent at ht
                simp only [] at ht
                split at ht
                · cases ht
                  simp only []
                  rw [min_comm, max_comm]
                · cases ht
        · rw [if_neg hpl] at ho
          cases ho
          refine key ll2 n _ _ _ _ _ ?_ rfl
          intro a b
          unfold elasticTangent
          simp only [eq_comm]

/-! ### Concrete cases meeting the hypotheses -/

/-- A rotation about the third axis. -/
noncomputable def exRot (t : ℝ) : M3 :=
  !![Real.cos t, -Real.sin t, 0; Real.sin t, Real.cos t, 0; 0, 0, 1]

/-- Extension along a rotating axis. -/
noncomputable def exF (t : ℝ) : M3 :=
  exRot t * Matrix.diagonal ![Real.exp 4 * (1 + t), Real.exp (-2), Real.exp (-2)]

theorem exRot_orth (t : ℝ) : exRot t * (exRot t).transpose = 1 := by
  have h := Real.sin_sq_add_cos_sq t
  unfold exRot
  ext i j
  fin_cases i <;> fin_cases j <;> simp [Matrix.mul_apply, Fin.sum_univ_three] <;>
    first | linear_combination h | ring

theorem exF_zero : exF 0 = Matrix.diagonal ![Real.exp 4, Real.exp (-2), Real.exp (-2)] := by
  unfold exF exRot
  ext i j
  fin_cases i <;> fin_cases j <;> simp [Matrix.mul_apply, Fin.sum_univ_three]

/-- The motion of the concrete cases. -/
theorem ex_motion : Motion 1 (sym6 hist0.ecg) exF !![1, -1, 0; 1, 0, 0; 0, 0, 0]
    (fun t => ![Real.exp 8 * (1 + t) ^ 2, Real.exp (-4), Real.exp (-4)]) exRot := by
  have e8 : Real.exp 4 * Real.exp 4 = Real.exp 8 := by rw [← Real.exp_add]; norm_num
  have e4 : Real.exp (-2) * Real.exp (-2) = Real.exp (-4) := by rw [← Real.exp_add]; norm_num
  have hc := Real.hasDerivAt_cos 0
  have hs := Real.hasDerivAt_sin 0
  rw [Real.sin_zero, neg_zero] at hc
  rw [Real.cos_zero] at hs
  have hid : HasDerivAt (fun t : ℝ => 1 + t) 1 0 := (hasDerivAt_id (0 : ℝ)).const_add 1
  refine ⟨?_, ⟨by simp, ?_⟩, exRot_orth, ?_, ⟨!![0, -1, 0; 1, 0, 0; 0, 0, 0], ?_⟩,
    ⟨![Real.exp 8 * 2, 0, 0], ?_⟩, ?_, ?_⟩
  · rw [exF_zero]
    intro i j
    unfold exF exRot
    fin_cases i <;> fin_cases j <;>
      simp [Matrix.mul_apply, Fin.sum_univ_three, hasDerivAt_const]
    · exact ((hc.fun_mul (hid.const_mul (Real.exp 4)))).congr_deriv (by simp)
    · exact (hs.mul_const _).fun_neg.congr_deriv (by simp)
    · exact ((hs.fun_mul (hid.const_mul (Real.exp 4)))).congr_deriv (by simp)
    · exact (hc.mul_const _).congr_deriv (by simp)
  · rw [exF_zero]; exact ne_zero_exp _ _ _
  · intro t
    rw [sym6_virgin]
    unfold exF tensor
    rw [inv_one, Matrix.mul_one, Matrix.mul_one, Matrix.transpose_mul, Matrix.diagonal_transpose,
      ← Matrix.mul_assoc, Matrix.mul_assoc (exRot t) (Matrix.diagonal _) (Matrix.diagonal _),
      Matrix.diagonal_mul_diagonal]
    congr 3
    funext i
    fin_cases i
    · show Real.exp 8 * (1 + t) ^ 2 = Real.exp 4 * (1 + t) * (Real.exp 4 * (1 + t))
      rw [← e8]; ring
    · exact e4.symm
    · exact e4.symm
  · intro i j
    unfold exRot
    fin_cases i <;> fin_cases j <;> simp [hasDerivAt_const]
    · exact hc
    · exact hs.fun_neg
    · exact hs
    · exact hc
  · intro i
    fin_cases i
    · exact ((hid.fun_pow 2).const_mul (Real.exp 8)).congr_deriv (by simp)
    · exact hasDerivAt_const _ _
    · exact hasDerivAt_const _ _
  · intro i
    fin_cases i
    · simp [Real.exp_pos]
    · exact Real.exp_pos _
    · exact Real.exp_pos _
  · have h : (1 : ℝ) / 10 ^ 8 < Real.exp 8 - Real.exp (-4) := by
      have h1 : (8 : ℝ) + 1 ≤ Real.exp 8 := Real.add_one_le_exp 8
      have h2 : Real.exp (-4) ≤ 1 := Real.exp_le_one_iff.2 (by norm_num)
      norm_num
      linarith
    have h' := lt_of_lt_of_le h (le_abs_self _)
    intro a b
    fin_cases a <;> fin_cases b <;> first
      | exact Or.inl rfl
      | (right; simpa using h')
      | (right; rw [abs_sub_comm]; simpa using h')

theorem ex_fits : Fits 4 (strainRate !![1, -1, 0; 1, 0, 0; 0, 0, 0]) := by
  refine ⟨by norm_num, fun _ => ?_⟩
  constructor <;> simp [strainRate]

theorem ex_stretch : (![Real.exp 8 * (1 + 0) ^ 2, Real.exp (-4), Real.exp (-4)] : V3) =
    ![Real.exp 8, Real.exp (-4), Real.exp (-4)] := by
  simp

/-- Linear hardening: the hypotheses are met. -/
example : ∃ prin tau R o, Principal prin ∧ Rate tau R ∧
    evaluate [0, 0, 0, 0, 1, 1 / 2, 1, 0, 1, 3, 3, 2, 1] none prin 4 hist0 1 (exF 0) 1 true = .ok o ∧
    apply o.C (strains 4 (strainRate !![1, -1, 0; 1, 0, 0; 0, 0, 0])) =
      handedOut 4 ((1 / (exF 0).det) • oldroyd !![1, -1, 0; 1, 0, 0; 0, 0, 0] (tau 0) R) := by
  obtain ⟨prin, hp⟩ := principal_exists
  obtain ⟨d1, d2, d3, d4, d5, d6, -, -, -, d7, d8, d9⟩ := ex_data
  obtain ⟨tau, R, h1, -, o, h2, h3⟩ := C119_linear 0 0 0 0 1 (1 / 2) 1 0 1 3 2 1 [] none d6
    (by norm_num) (by norm_num) (by norm_num) (by norm_num) d5 prin hp 4 hist0 (le_refl _) 1 exF _ _ _
    ex_motion ex_fits 1 true (by rw [ex_stretch]; exact d3) (Or.inl rfl) (by norm_num)
    (by rw [d6]; decide) ![2 * 2, -2, -2] (by
      rw [ex_stretch, ← d1]
      funext j
      simp [hist0]) (by
      rw [d7, show (3 : ℝ) + 1 * hist0.epp = 3 by simp [hist0], s23_three]
      linarith)
  exact ⟨prin, tau, R, o, hp, h1, h2, h3⟩

/-- The criterion with a pressure term: the hypotheses are met. -/
example : ∃ prin tau R o, Principal prin ∧ Rate tau R ∧
    evaluate [0, 0, 0, 0, 1, 1 / 2, 1, 0, 2, 3, 1, 2, 1] none prin 4 hist0 1 (exF 0) 1 true = .ok o ∧
    apply o.C (strains 4 (strainRate !![1, -1, 0; 1, 0, 0; 0, 0, 0])) =
      handedOut 4 ((1 / (exF 0).det) • oldroyd !![1, -1, 0; 1, 0, 0; 0, 0, 0] (tau 0) R) := by
  obtain ⟨prin, hp⟩ := principal_exists
  obtain ⟨d1, d2, d3, d4, d5, d6, d6', -, -, d7, d8, d9⟩ := ex_data
  have hy : Real.sqrt (2 / 3) * (3 + 1 * hist0.epp) = Real.sqrt 6 := by
    rw [show (3 : ℝ) + 1 * hist0.epp = 3 by simp [hist0], s23_three]
  have hsum : (![2 * 2, -2, -2] : V3) 0 + (![2 * 2, -2, -2] : V3) 1 + (![2 * 2, -2, -2] : V3) 2 = 0 := by
    simp; norm_num
  obtain ⟨tau, R, h1, -, o, h2, h3⟩ := C119_drucker 0 0 0 0 1 (1 / 2) 1 0 2 3 1 2 1 [] none d6'
    (by norm_num) (by norm_num) (by norm_num) (by norm_num) (by norm_num) prin hp 4 hist0 1 exF _ _ _
    ex_motion ex_fits 1 true (by rw [ex_stretch]; exact d3) (Or.inl rfl) (by norm_num)
    (by rw [d6]; decide) ![2 * 2, -2, -2] (by
      rw [ex_stretch, ← d1]
      funext j
      simp [hist0]) _ rfl (by
      rw [d7, hsum, hy, s23_three]
      linarith) (by
      rw [d7, hsum, hy]
      have hc2 : 0 ≤ (Real.sqrt (2 / 3) * 1 / 3) ^ 2 := by positivity
      generalize (Real.sqrt (2 / 3) * 1 / 3) ^ 2 = c2 at hc2
      have hB : 5 / 3 ≤ 2 * (1 / 2) + 2 / 3 * 0 + c2 * (9 * 1 + 2 * 0) + 2 / 3 * 1 := by
        norm_num
        linarith
      have hle : (Real.sqrt 6 * 2 + Real.sqrt (2 / 3) * 1 / 3 * 0 - Real.sqrt 6) /
          (2 * (1 / 2) + 2 / 3 * 0 + c2 * (9 * 1 + 2 * 0) + 2 / 3 * 1) ≤
          Real.sqrt 6 / (5 / 3) := by
        rw [show Real.sqrt 6 * 2 + Real.sqrt (2 / 3) * 1 / 3 * 0 - Real.sqrt 6 = Real.sqrt 6 by ring]
        exact div_le_div_of_nonneg_left (by positivity) (by norm_num) hB
      norm_num at hle ⊢
      linarith)
  exact ⟨prin, tau, R, o, hp, h1, h2, h3⟩

/-- Elastic evaluations (no flow in the predictor iteration): the hypotheses are met. -/
example : ∃ prin tau R o, Principal prin ∧ Rate tau R ∧
    evaluate [0, 0, 0, 0, 1, 1 / 2, 1, 0, 1, 3, 3, 2, 0] none prin 4 hist0 1 (exF 0) 0 true = .ok o ∧
    apply o.C (strains 4 (strainRate !![1, -1, 0; 1, 0, 0; 0, 0, 0])) =
      handedOut 4 ((1 / (exF 0).det) • oldroyd !![1, -1, 0; 1, 0, 0; 0, 0, 0] (tau 0) R) ∧
    o.C.length = o.sig.length := by
  obtain ⟨prin, hp⟩ := principal_exists
  obtain ⟨d1, d2, d3, d4, d5, d6, -⟩ := ex_data
  have d0 : toInt 0 = 0 := by have := toInt_nat 0; simpa using this
  obtain ⟨tau, R, h1, -, o, h2, h3⟩ := C119_elastic 0 0 0 0 1 (1 / 2) 1 0 1 3 3 2 0 [] none prin hp 4
    hist0 1 exF _ _ _ ex_motion ex_fits 0 true (Eventually.of_forall fun t ll2 N0 xi _ _ => by
      simp only [yfunc, List.getElem?_cons_succ, List.getElem?_cons_zero, d6, if_true, misesD,
        Bool.false_eq_true, false_and, if_false]
      split_ifs
      · exact ⟨_, rfl, Or.inr (Or.inl ⟨trivial, d0⟩)⟩
      · exact ⟨_, rfl, Or.inr (Or.inl ⟨trivial, d0⟩)⟩)
  exact ⟨prin, tau, R, o, hp, h1, h2, h3, (C119_symmetric _ _ _ _ _ _ _ _ _ o h2).1⟩

end Verif.Plastic
