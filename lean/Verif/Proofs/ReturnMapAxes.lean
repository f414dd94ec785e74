/-
Proofs about principal decompositions and the dependence of the return mapping on them.
-/
import Verif.Proofs.ReturnMap
import Verif.Spec.Plasticity
import Mathlib.Analysis.Matrix.Spectrum

set_option linter.unusedSectionVars false
set_option linter.unusedSimpArgs false
set_option linter.unusedVariables false

namespace Verif.Plastic

open Verif.Spec.Plasticity

/-- Two diagonalisations of one tensor are related by a matrix connecting equal values only. -/
theorem diag_rel (l l' : V3) (N N' : M3) (hN : N * N.transpose = 1) (hN' : N' * N'.transpose = 1)
    (h : tensor l N = tensor l' N') (a b : Fin 3) :
    (l a - l' b) * (N.transpose * N') a b = 0 := by
  have h1 : N.transpose * N = 1 := mul_eq_one_comm.1 hN
  have h2 : N'.transpose * N' = 1 := mul_eq_one_comm.1 hN'
  have e : Matrix.diagonal l * (N.transpose * N') = (N.transpose * N') * Matrix.diagonal l' := by
    calc Matrix.diagonal l * (N.transpose * N')
        = (N.transpose * N) * Matrix.diagonal l * (N.transpose * N') := by rw [h1, Matrix.one_mul]
      _ = N.transpose * tensor l N * N' := by
          unfold tensor; simp only [Matrix.mul_assoc]
      _ = N.transpose * tensor l' N' * N' := by rw [h]
      _ = N.transpose * N' * Matrix.diagonal l' * (N'.transpose * N') := by
          unfold tensor; simp only [Matrix.mul_assoc]
      _ = _ := by rw [h2, Matrix.mul_one]
  have := congrFun (congrFun e a) b
  rw [Matrix.diagonal_mul, Matrix.mul_diagonal] at this
  linear_combination this

/-- The principal values are unique up to their order. -/
theorem principal_perm (l l' : V3) (N N' : M3) (hN : N * N.transpose = 1)
    (hN' : N' * N'.transpose = 1) (h : tensor l N = tensor l' N') :
    ∃ s : Equiv.Perm (Fin 3), ∀ i, l (s i) = l' i := by
  have hd : (N.transpose * N').det ≠ 0 := by
    have hN1 : N.det ≠ 0 := fun h0 => by
      have := congrArg Matrix.det hN
      rw [Matrix.det_mul, h0] at this
      simp at this
    have hN2 : N'.det ≠ 0 := fun h0 => by
      have := congrArg Matrix.det hN'
      rw [Matrix.det_mul, h0] at this
      simp at this
    rw [Matrix.det_mul, Matrix.det_transpose]
    exact mul_ne_zero hN1 hN2
  rw [Matrix.det_apply] at hd
  obtain ⟨s, -, hs⟩ := Finset.exists_ne_zero_of_sum_ne_zero hd
  have hp : ∏ i, (N.transpose * N') (s i) i ≠ 0 := fun h0 => by
    rw [h0] at hs
    simp at hs
  refine ⟨s, fun i => ?_⟩
  have hi : (N.transpose * N') (s i) i ≠ 0 := Finset.prod_ne_zero_iff.1 hp i (Finset.mem_univ i)
  have := (mul_eq_zero.1 (diag_rel l l' N N' hN hN' h (s i) i)).resolve_right hi
  linarith

/-- The principal values in descending order are unique. -/
theorem principal_unique (l l' : V3) (N N' : M3) (hN : N * N.transpose = 1)
    (hN' : N' * N'.transpose = 1) (h : tensor l N = tensor l' N') (h01 : l 1 ≤ l 0) (h12 : l 2 ≤ l 1)
    (h01' : l' 1 ≤ l' 0) (h12' : l' 2 ≤ l' 1) : l = l' := by
  obtain ⟨s, key⟩ := principal_perm l l' N N' hN hN' h
  have k0 := key 0
  have k1 := key 1
  have k2 := key 2
  have i01 : s 0 ≠ s 1 := fun h => absurd (s.injective h) (by decide)
  have i02 : s 0 ≠ s 2 := fun h => absurd (s.injective h) (by decide)
  have i12 : s 1 ≠ s 2 := fun h => absurd (s.injective h) (by decide)
  generalize s 0 = a at *
  generalize s 1 = b at *
  generalize s 2 = c at *
  clear key
  have fin : l 0 = l' 0 ∧ l 1 = l' 1 ∧ l 2 = l' 2 := by
    fin_cases a <;> fin_cases b <;> fin_cases c <;>
      simp only [Fin.zero_eta, Fin.mk_one, Fin.reduceFinMk, ne_eq, not_true_eq_false] at * <;>
      refine ⟨?_, ?_, ?_⟩ <;> linarith
  funext i
  fin_cases i
  · exact fin.1
  · exact fin.2.1
  · exact fin.2.2

/-- A tensor function with equal values at equal principal values does not depend on the choice of the
principal directions. -/
theorem tensor_indep (l t : V3) (N N' : M3) (hN : N * N.transpose = 1)
    (hN' : N' * N'.transpose = 1) (h : tensor l N = tensor l N')
    (ht : ∀ a b, l a = l b → t a = t b) : tensor t N = tensor t N' := by
  have h1 : N.transpose * N = 1 := mul_eq_one_comm.1 hN
  have h2 : N'.transpose * N' = 1 := mul_eq_one_comm.1 hN'
  have e : Matrix.diagonal t * (N.transpose * N') = (N.transpose * N') * Matrix.diagonal t := by
    funext a b
    rw [Matrix.diagonal_mul, Matrix.mul_diagonal]
    rcases mul_eq_zero.1 (diag_rel l l N N' hN hN' h a b) with h0 | h0
    · rw [ht a b (by linarith), mul_comm]
    · rw [h0]; ring
  calc tensor t N = N * (Matrix.diagonal t * (N.transpose * N')) * N'.transpose := by
        unfold tensor
        simp only [Matrix.mul_assoc]
        rw [hN', Matrix.mul_one]
    _ = (N * N.transpose) * (N' * Matrix.diagonal t * N'.transpose) := by
        rw [e]; simp only [Matrix.mul_assoc]
    _ = _ := by rw [hN, Matrix.one_mul]; rfl

theorem tensor_rot (l : V3) (N Q : M3) : tensor l (Q * N) = Q * tensor l N * Q.transpose := by
  unfold tensor
  rw [Matrix.transpose_mul]
  simp only [Matrix.mul_assoc]

/-- A routine for principal values exists. -/
theorem principal_exists : ∃ prin, Principal prin := by
  classical
  have key : ∀ b : M3, b.transpose = b → ∃ r : V3 × M3,
      r.2 * r.2.transpose = 1 ∧ tensor r.1 r.2 = b ∧ r.1 1 ≤ r.1 0 ∧ r.1 2 ≤ r.1 1 := by
    intro b hb
    have hH : b.IsHermitian := by
      unfold Matrix.IsHermitian
      rw [Matrix.conjTranspose_eq_transpose_of_trivial]
      exact hb
    obtain ⟨U, hU⟩ : ∃ U : M3, U = (hH.eigenvectorUnitary : M3) := ⟨_, rfl⟩
    have hUU : U * U.transpose = 1 := by
      have := Unitary.coe_mul_star_self hH.eigenvectorUnitary
      rw [Unitary.coe_star, Matrix.star_eq_conjTranspose, Matrix.conjTranspose_eq_transpose_of_trivial] at this
      rw [hU]
      exact this
    have hsp : b = U * Matrix.diagonal hH.eigenvalues * U.transpose := by
      have := hH.spectral_theorem
      rw [Unitary.conjStarAlgAut_apply, Matrix.star_eq_conjTranspose,
        Matrix.conjTranspose_eq_transpose_of_trivial] at this
      rw [hU]
      exact this
    obtain ⟨s, hs⟩ : ∃ s : Equiv.Perm (Fin 3), Monotone ((fun i => -hH.eigenvalues i) ∘ s) :=
      ⟨_, Tuple.monotone_sort _⟩
    refine ⟨(fun i => hH.eigenvalues (s i), U.submatrix id s), ?_, ?_, ?_, ?_⟩
    · show U.submatrix id s * (U.submatrix id s).transpose = 1
      rw [Matrix.transpose_submatrix, Matrix.submatrix_mul_equiv, hUU]
      rfl
    · show U.submatrix id s * Matrix.diagonal (hH.eigenvalues ∘ s) * (U.submatrix id s).transpose = b
      rw [← Matrix.submatrix_diagonal_equiv, Matrix.submatrix_mul_equiv, Matrix.transpose_submatrix,
        Matrix.submatrix_mul_equiv, ← hsp]
      rfl
    · have := hs (show (0 : Fin 3) ≤ 1 by decide)
      simp only [Function.comp] at this
      show hH.eigenvalues (s 1) ≤ hH.eigenvalues (s 0)
      linarith
    · have := hs (show (1 : Fin 3) ≤ 2 by decide)
      simp only [Function.comp] at this
      show hH.eigenvalues (s 2) ≤ hH.eigenvalues (s 1)
      linarith
  refine ⟨fun b => if h : b.transpose = b then some (Classical.choose (key b h)) else none,
    fun b hb => ?_⟩
  have := Classical.choose_spec (key b hb)
  refine ⟨_, _, ?_, this⟩
  show (if h : b.transpose = b then some (Classical.choose (key b h)) else none) = _
  rw [dif_pos hb]

/-! ### Dependence on the order of the principal values -/

theorem solve_perm {n : Type} [Fintype n] [DecidableEq n] (e : Equiv.Perm n) {A : Matrix n n ℝ}
    {b x : n → ℝ} (hA : ∀ i j, A (e i) (e j) = A i j) (hb : ∀ i, b (e i) = b i)
    (h : solve A b = some x) (i : n) : x (e i) = x i := by
  classical
  obtain ⟨hd, hx⟩ := solve_inv h
  have h2 : A.mulVec (fun i => x (e i)) = b := by
    funext i
    have e1 : A.mulVec (fun i => x (e i)) i = A.mulVec x (e i) := by
      show ∑ j, A i j * x (e j) = ∑ j, A (e i) j * x j
      rw [← Equiv.sum_comp e (fun j => A (e i) j * x j)]
      exact Finset.sum_congr rfl fun j _ => by rw [hA]
    rw [e1, hx, hb]
  have h3 := hd (fun i => x (e i) - x i) (by
    show A.mulVec ((fun i => x (e i)) - x) = 0
    rw [Matrix.mulVec_sub, h2, hx, sub_self])
  have := congrFun h3 i
  simp only [Pi.zero_apply] at this
  linarith

/-- A state of the return mapping that is invariant under a permutation of the axes. -/
structure Inv (e : Equiv.Perm (Fin 3)) (s : RM) : Prop where
  tau : ∀ i, s.tau (e i) = s.tau i
  alp : ∀ i, s.alp (e i) = s.alp i
  ta : ∀ i, s.ta (e i) = s.ta i
  epsE : ∀ i, s.epsE (e i) = s.epsE i

theorem inv_mk (e : Equiv.Perm (Fin 3)) (m : Par) (tau tt : V3) (pp : ℝ) (alp : V3) (gam epp : ℝ)
    (nn : V3) (rerr : ℝ) (fss : M3) (ypr : ℝ) (h1 : ∀ i, tau (e i) = tau i)
    (h2 : ∀ i, tt (e i) = tt i) (h3 : ∀ i, alp (e i) = alp i) :
    Inv e (mkRM m tau tt pp alp gam epp nn rerr fss ypr) := by
  refine ⟨h1, h3, fun i => ?_, fun i => ?_⟩
  · show tt (e i) - alp (e i) + _ = tt i - alp i + _
    rw [h2, h3]
  · show _ * tt (e i) + _ = _ * tt i + _
    rw [h2]

theorem inv_locSolve (e : Equiv.Perm (Fin 3)) (m : Par) (fss : M3) (nn : V3) (ypr : ℝ) (r1 r2 : V3)
    (r3 : ℝ) (x : V3 × V3 × ℝ) (hf : ∀ a b, fss (e a) (e b) = fss a b) (hn : ∀ a, nn (e a) = nn a)
    (h1 : ∀ a, r1 (e a) = r1 a) (h2 : ∀ a, r2 (e a) = r2 a)
    (h : locSolve m fss nn ypr r1 r2 r3 = some x) :
    (∀ a, x.1 (e a) = x.1 a) ∧ ∀ a, x.2.1 (e a) = x.2.1 a := by
  have hS : ∀ a b, tresS m fss (e a) (e b) = tresS m fss a b := by
    intro a b
    unfold tresS
    simp only [hf, e.injective.eq_iff]
  unfold locSolve at h
  split_ifs at h with hk
  · rw [Option.map_eq_some_iff] at h
    obtain ⟨v, hv, rfl⟩ := h
    have key := solve_perm (Equiv.sumCongr (Equiv.sumCongr e e) (Equiv.refl Unit))
      (by
        rintro ((a | a) | a) ((b | b) | b) <;>
          simp [tres7, hS, hf, hn, e.injective.eq_iff])
      (by rintro ((a | a) | a) <;> simp [h1, h2]) hv
    exact ⟨fun a => key (.inl (.inl a)), fun a => key (.inl (.inr a))⟩
  · rw [Option.map_eq_some_iff] at h
    obtain ⟨v, hv, rfl⟩ := h
    have key := solve_perm (Equiv.sumCongr e (Equiv.refl Unit))
      (by rintro (a | a) (b | b) <;> simp [tres4, hS, hn])
      (by rintro (a | a) <;> simp [h1]) hv
    exact ⟨fun a => key (.inl a), fun a => rfl⟩

theorem inv_step (e : Equiv.Perm (Fin 3)) (m : Par) (yf : ℝ → ℝ → ℝ → ℝ → Res Yld) (eps alpN : V3)
    (epp0 : ℝ) (he : ∀ i, eps (e i) = eps i) (ha : ∀ i, alpN (e i) = alpN i) (s s' : RM)
    (hs : Inv e s) (h : rmStep m yf eps alpN epp0 s = .ok s') : Inv e s' := by
  unfold rmStep at h
  cases hy : yf s.epp s.I1 s.J2 s.J3 with
  | fail => rw [hy] at h; cases h
  | ub => rw [hy] at h; cases h
  | ok y =>
    rw [hy] at h
    simp only [Res.bind] at h
    have hn : ∀ a, flowDir y s (e a) = flowDir y s a := by
      intro a
      simp only [flowDir, hs.ta]
    have hf : ∀ a b, flowGrad y s (e a) (e b) = flowGrad y s a b := by
      intro a b
      simp only [flowGrad, hs.ta, e.injective.eq_iff]
    split at h
    · cases h
    · rename_i dt da dg hl
      cases h
      obtain ⟨k1, k2⟩ := inv_locSolve e m _ _ _ _ _ _ _ hf hn
        (fun a => by simp only [hs.epsE, he, hn]) (fun a => by simp only [ha, hs.alp, hn]) hl
      simp only [] at k1 k2
      refine inv_mk e m _ _ _ _ _ _ _ _ _ _ (fun i => ?_) (fun i => ?_) (fun i => ?_)
      · show s.tau (e i) + dt (e i) = s.tau i + dt i
        rw [hs.tau, k1]
      · show s.tau (e i) + dt (e i) - _ = s.tau i + dt i - _
        rw [hs.tau, k1]
      · show s.alp (e i) + da (e i) = s.alp i + da i
        rw [hs.alp, k2]

theorem inv_loop (e : Equiv.Perm (Fin 3)) (f : RM → Res RM)
    (hf : ∀ s s', Inv e s → f s = .ok s' → Inv e s') (k : Nat) :
    ∀ s s', Inv e s → rmLoop f k s = .ok s' → Inv e s' := by
  induction k with
  | zero => intro s s' hs h; cases h; exact hs
  | succ k ih =>
    intro s s' hs h
    rw [rmLoop] at h
    split_ifs at h
    · cases hfs : f s with
      | fail => rw [hfs] at h; cases h
      | ub => rw [hfs] at h; cases h
      | ok t => rw [hfs] at h; exact ih t s' (hf s t hs hfs) h
    · cases h; exact hs

/-- The plastic step with other directions: the principal values are the same. Without kinematic
hardening, equal trial strains have equal results. -/
theorem plasticStep_dirs (m : Par) (yf : ℝ → ℝ → ℝ → ℝ → Res Yld) (h : Hist) (v : Fin 6 → ℝ) (eps : V3)
    (N N' : M3) (it : Nat) (r : Hist × V3 × M3 × Nat) (hr : plasticStep m yf h eps N it = .ok r) :
    ∃ w, r.1.ecg = spectral w N ∧
      plasticStep m yf { h with ecg := v } eps N' it = .ok (⟨spectral w N', r.1.epp, r.1.epl⟩, r.2) ∧
      (m.hk = 0 → ∀ a b, eps a = eps b → w a = w b ∧ r.2.1 a = r.2.1 b) := by
  have htr : trial m { h with ecg := v } eps = trial m h eps := rfl
  unfold plasticStep at hr ⊢
  split_ifs at hr ⊢ with hc
  simp only [htr] at hr ⊢
  cases hl : rmLoop (rmStep m yf eps (trial m h eps).alp h.epp) maxIter (trial m h eps) with
  | fail => rw [hl] at hr; cases hr
  | ub => rw [hl] at hr; cases hr
  | ok s =>
    rw [hl] at hr
    simp only [Res.bind] at hr ⊢
    cases hd : plasticTangent m s with
    | fail => rw [hd] at hr; cases hr
    | ub => rw [hd] at hr; cases hr
    | ok d =>
      rw [hd] at hr
      cases hr
      refine ⟨fun a => Real.exp (2 * s.epsE a), rfl, rfl, fun hk a b hab => ?_⟩
      have he : ∀ i, eps (Equiv.swap a b i) = eps i := by
        intro i
        rcases eq_or_ne i a with rfl | h1
        · rw [Equiv.swap_apply_left, hab]
        · rcases eq_or_ne i b with rfl | h2
          · rw [Equiv.swap_apply_right, hab]
          · rw [Equiv.swap_apply_of_ne_of_ne h1 h2]
      have h0 : Inv (Equiv.swap a b) (trial m h eps) := by
        refine inv_mk _ m _ _ _ _ _ _ _ _ _ _ (fun i => ?_) (fun i => ?_) (fun i => ?_)
        · simp only [he]
        · simp only [he]
        · simp only [hk, zero_mul]
      have hs := inv_loop (Equiv.swap a b) _ (fun s s' => inv_step (Equiv.swap a b) m yf eps
        (trial m h eps).alp h.epp he h0.alp s s') maxIter _ _ h0 hl
      have t1 := hs.tau b
      have t2 := hs.epsE b
      rw [Equiv.swap_apply_right] at t1 t2
      exact ⟨by simp only [t2], t1⟩

end Verif.Plastic
