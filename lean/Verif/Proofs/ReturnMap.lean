/-
Lemmas on the return mapping of the plastic material.
-/
import Verif.Model.ReturnMap
import Mathlib.LinearAlgebra.Matrix.ToLinearEquiv
import Mathlib.Tactic.FieldSimp
import Mathlib.Tactic.Linarith
import Mathlib.Tactic.LinearCombination
import Mathlib.Tactic.Positivity

set_option linter.unusedSectionVars false
set_option linter.unusedSimpArgs false
set_option linter.unusedVariables false

namespace Verif.Plastic

theorem solve_some {n : Type} [Fintype n] [DecidableEq n] (A : Matrix n n ℝ) (b x : n → ℝ)
    (hk : ∀ v, A.mulVec v = 0 → v = 0) (hx : A.mulVec x = b) : solve A b = some x := by
  have hd : A.det ≠ 0 := by
    intro h
    obtain ⟨v, hv, hz⟩ := Matrix.exists_mulVec_eq_zero_iff.2 h
    exact hv (hk v hz)
  unfold solve
  rw [if_neg hd, ← hx, Matrix.mulVec_mulVec, Matrix.nonsing_inv_mul A (isUnit_iff_ne_zero.2 hd),
    Matrix.one_mulVec]

theorem solve_inv {n : Type} [Fintype n] [DecidableEq n] {A : Matrix n n ℝ} {b x : n → ℝ}
    (h : solve A b = some x) : (∀ v, A.mulVec v = 0 → v = 0) ∧ A.mulVec x = b := by
  unfold solve at h
  split_ifs at h with hd
  constructor
  · intro v hv
    by_contra hne
    exact hd (Matrix.exists_mulVec_eq_zero_iff.1 ⟨v, hne, hv⟩)
  · rw [← Option.some.inj h, Matrix.mulVec_mulVec,
      Matrix.mul_nonsing_inv A (isUnit_iff_ne_zero.2 hd), Matrix.one_mulVec]

/-- Rows of the local system with isotropic hardening. -/
theorem tres4_rows (m : Par) (fss : M3) (nn : V3) (ypr : ℝ) (x : Fin 3 ⊕ Unit → ℝ)
    (r1 : V3) (r3 : ℝ) :
    (tres4 m fss nn ypr).mulVec x = Sum.elim r1 (fun _ => r3) ↔
      (∀ a, ∑ b, tresS m fss a b * x (.inl b) + nn a * x (.inr ()) = r1 a) ∧
      ∑ b, nn b * x (.inl b) - ypr * x (.inr ()) = r3 := by
  constructor
  · intro h
    constructor
    · intro a
      have := congrFun h (.inl a)
      simpa [Matrix.mulVec, dotProduct, tres4] using this
    · have := congrFun h (.inr ())
      simp only [Matrix.mulVec, dotProduct, tres4, Fintype.sum_sum_type, Finset.univ_unique,
        Finset.sum_singleton, Sum.elim_inr] at this
      rw [← this]
      simp [sub_eq_add_neg]
  · rintro ⟨h1, h2⟩
    funext i
    rcases i with a | u
    · simpa [Matrix.mulVec, dotProduct, tres4] using h1 a
    · simp only [Matrix.mulVec, dotProduct, tres4, Fintype.sum_sum_type, Finset.univ_unique,
        Finset.sum_singleton, Sum.elim_inr]
      rw [← h2]
      simp [sub_eq_add_neg]

/-- Rows of the local system with kinematic hardening. -/
theorem tres7_rows (m : Par) (fss : M3) (nn : V3) (ypr : ℝ) (x : (Fin 3 ⊕ Fin 3) ⊕ Unit → ℝ)
    (r1 r2 : V3) (r3 : ℝ) :
    (tres7 m fss nn ypr).mulVec x = Sum.elim (Sum.elim r1 r2) (fun _ => r3) ↔
      (∀ a, ∑ b, tresS m fss a b * x (.inl (.inl b)) - ∑ b, fss a b * x (.inl (.inr b)) +
        nn a * x (.inr ()) = r1 a) ∧
      (∀ a, -∑ b, fss b a * x (.inl (.inl b)) + ∑ b, fss a b * x (.inl (.inr b)) +
        1 / m.hk * x (.inl (.inr a)) - nn a * x (.inr ()) = r2 a) ∧
      ∑ b, nn b * x (.inl (.inl b)) - ∑ b, nn b * x (.inl (.inr b)) - ypr * x (.inr ()) = r3 := by
  have e1 : ∀ a, ((tres7 m fss nn ypr).mulVec x) (.inl (.inl a)) =
      ∑ b, tresS m fss a b * x (.inl (.inl b)) - ∑ b, fss a b * x (.inl (.inr b)) +
        nn a * x (.inr ()) := by
    intro a
    simp [Matrix.mulVec, dotProduct, tres7, sub_eq_add_neg]
  have e2 : ∀ a, ((tres7 m fss nn ypr).mulVec x) (.inl (.inr a)) =
      -∑ b, fss b a * x (.inl (.inl b)) + ∑ b, fss a b * x (.inl (.inr b)) +
        1 / m.hk * x (.inl (.inr a)) - nn a * x (.inr ()) := by
    intro a
    simp only [Matrix.mulVec, dotProduct, tres7, Fintype.sum_sum_type, Finset.univ_unique,
        Finset.sum_singleton, add_mul, Finset.sum_add_distrib, ite_mul, zero_mul,
        Finset.sum_ite_eq, Finset.mem_univ, if_true, neg_mul, Finset.sum_neg_distrib]
    show _ = _
    have : (x (Sum.inr default)) = x (.inr ()) := rfl
    rw [this]
    ring
  have e3 : ((tres7 m fss nn ypr).mulVec x) (.inr ()) =
      ∑ b, nn b * x (.inl (.inl b)) - ∑ b, nn b * x (.inl (.inr b)) - ypr * x (.inr ()) := by
    simp [Matrix.mulVec, dotProduct, tres7, sub_eq_add_neg]
  constructor
  · intro h
    refine ⟨fun a => ?_, fun a => ?_, ?_⟩
    · rw [← e1, h]; rfl
    · rw [← e2, h]; rfl
    · rw [← e3, h]; rfl
  · rintro ⟨h1, h2, h3⟩
    funext i
    rcases i with (a | a) | u
    · rw [e1]; exact h1 a
    · rw [e2]; exact h2 a
    · rw [e3]; exact h3

/-- The elastic part of the stress block, applied to a vector. -/
theorem tresS_mul (m : Par) (fss : M3) (x : V3) (a : Fin 3) :
    ∑ b, tresS m fss a b * x b = ∑ b, fss a b * x b +
      (1 / 3 / m.bulk - 1 / 2 / m.shear) * (1 / 3) * vsum x + 1 / 2 / m.shear * x a := by
  fin_cases a <;> simp [tresS, Fin.sum_univ_three, vsum] <;> ring

/-- The stress block is positive: nothing is annihilated when the second derivatives are positive
semidefinite. -/
theorem elastic_pos (m : Par) (hb : 0 < m.bulk) (hs : 0 < m.shear) (x : V3)
    (h : ∑ a, x a * ((1 / 3 / m.bulk - 1 / 2 / m.shear) * (1 / 3) * vsum x +
      1 / 2 / m.shear * x a) ≤ 0) : x = 0 := by
  have e : ∑ a, x a * ((1 / 3 / m.bulk - 1 / 2 / m.shear) * (1 / 3) * vsum x +
      1 / 2 / m.shear * x a) = 1 / 9 / m.bulk * (vsum x) ^ 2 + 1 / 6 / m.shear *
      ((x 0 - x 1) ^ 2 + (x 1 - x 2) ^ 2 + (x 2 - x 0) ^ 2) := by
    simp only [Fin.sum_univ_three, vsum]
    field_simp
    ring
  rw [e] at h
  have p1 : 0 ≤ 1 / 9 / m.bulk * (vsum x) ^ 2 := by positivity
  have p2 : 0 ≤ 1 / 6 / m.shear * ((x 0 - x 1) ^ 2 + (x 1 - x 2) ^ 2 + (x 2 - x 0) ^ 2) := by
    positivity
  have q1 : (vsum x) ^ 2 = 0 := by
    have : 1 / 9 / m.bulk * (vsum x) ^ 2 = 0 := by linarith
    rcases mul_eq_zero.1 this with h | h
    · exact absurd h (by positivity)
    · exact h
  have q2 : (x 0 - x 1) ^ 2 + (x 1 - x 2) ^ 2 + (x 2 - x 0) ^ 2 = 0 := by
    have : 1 / 6 / m.shear * ((x 0 - x 1) ^ 2 + (x 1 - x 2) ^ 2 + (x 2 - x 0) ^ 2) = 0 := by
      linarith
    rcases mul_eq_zero.1 this with h | h
    · exact absurd h (by positivity)
    · exact h
  have z1 : vsum x = 0 := by simpa using q1
  have z2 : x 0 - x 1 = 0 := by nlinarith [sq_nonneg (x 0 - x 1), sq_nonneg (x 1 - x 2), sq_nonneg (x 2 - x 0)]
  have z3 : x 1 - x 2 = 0 := by nlinarith [sq_nonneg (x 0 - x 1), sq_nonneg (x 1 - x 2), sq_nonneg (x 2 - x 0)]
  unfold vsum at z1
  funext i
  fin_cases i <;> simp <;> linarith

/-- Symmetric positive semidefinite second derivatives. -/
structure PSD (fss : M3) : Prop where
  symm : ∀ a b, fss a b = fss b a
  nonneg : ∀ x : V3, 0 ≤ ∑ a, x a * ∑ b, fss a b * x b

/-- The matrix with kinematic hardening is regular. -/
theorem tres7_ker (m : Par) (hb : 0 < m.bulk) (hs : 0 < m.shear) (fss : M3) (hf : PSD fss)
    (nn : V3) (hn : nn ≠ 0) (ypr : ℝ) (hy : 0 ≤ ypr) (hk : 0 < m.hk) :
    ∀ v, (tres7 m fss nn ypr).mulVec v = 0 → v = 0 := by
  intro v hv
  have hv' : (tres7 m fss nn ypr).mulVec v = Sum.elim (Sum.elim (0 : V3) (0 : V3)) (fun _ => 0) := by
    rw [hv]; funext i; rcases i with (a | a) | u <;> rfl
  obtain ⟨k1, k2, k3⟩ := (tres7_rows m fss nn ypr v 0 0 0).1 hv'
  set x : V3 := fun a => v (.inl (.inl a)) with hx
  set z : V3 := fun a => v (.inl (.inr a)) with hz
  set g := v (.inr ()) with hg
  have kk1 : ∀ a, ∑ b, fss a b * (x b - z b) +
      ((1 / 3 / m.bulk - 1 / 2 / m.shear) * (1 / 3) * vsum x + 1 / 2 / m.shear * x a) +
      nn a * g = 0 := by
    intro a
    have := k1 a
    have t := tresS_mul m fss x a
    simp only [hx] at t
    rw [t] at this
    simp only [Pi.zero_apply] at this
    rw [← this]
    simp only [mul_sub, Finset.sum_sub_distrib, hx, hz]
    ring
  have kk2 : ∀ a, -∑ b, fss a b * (x b - z b) + 1 / m.hk * z a - nn a * g = 0 := by
    intro a
    have := k2 a
    simp only [Pi.zero_apply] at this
    rw [← this]
    simp only [mul_sub, Finset.sum_sub_distrib, hx, hz, hf.symm _ a]
    ring
  have kk3 : ∑ b, nn b * (x b - z b) - ypr * g = 0 := by
    rw [← k3]
    simp only [mul_sub, Finset.sum_sub_distrib, hx, hz]
  have q := hf.nonneg (fun b => x b - z b)
  have e : ∑ a, (x a - z a) * ∑ b, fss a b * (x b - z b) +
      ∑ a, x a * ((1 / 3 / m.bulk - 1 / 2 / m.shear) * (1 / 3) * vsum x +
        1 / 2 / m.shear * x a) + 1 / m.hk * ∑ a, z a ^ 2 + ypr * g ^ 2 = 0 := by
    have a0 := kk1 0
    have a1 := kk1 1
    have a2 := kk1 2
    have b0 := kk2 0
    have b1 := kk2 1
    have b2 := kk2 2
    simp only [Fin.sum_univ_three] at a0 a1 a2 b0 b1 b2 kk3 ⊢
    linear_combination x 0 * a0 + x 1 * a1 + x 2 * a2 + z 0 * b0 + z 1 * b1 + z 2 * b2 - g * kk3
  have pz : 0 ≤ 1 / m.hk * ∑ a, z a ^ 2 := by positivity
  have pg : 0 ≤ ypr * g ^ 2 := by positivity
  have x0 : x = 0 := elastic_pos m hb hs x (by linarith)
  have ex : ∑ a, x a * ((1 / 3 / m.bulk - 1 / 2 / m.shear) * (1 / 3) * vsum x +
        1 / 2 / m.shear * x a) = 0 := by rw [x0]; simp [vsum]
  have ez : ∑ a, z a ^ 2 = 0 := by
    have : 1 / m.hk * ∑ a, z a ^ 2 = 0 := by linarith
    rcases mul_eq_zero.1 this with h | h
    · exact absurd h (by positivity)
    · exact h
  have z0 : z = 0 := by
    funext a
    have := (Finset.sum_eq_zero_iff_of_nonneg (fun i _ => sq_nonneg (z i))).1 ez a
      (Finset.mem_univ a)
    simpa using this
  have g0 : g = 0 := by
    obtain ⟨a, ha⟩ := Function.ne_iff.1 hn
    have := kk1 a
    rw [x0, z0] at this
    simp [vsum] at this
    rcases this with h | h
    · exact absurd h ha
    · exact h
  funext i
  rcases i with (a | a) | u
  · exact congrFun x0 a
  · exact congrFun z0 a
  · exact g0

/-- The matrix with isotropic hardening is regular. -/
theorem tres4_ker (m : Par) (hb : 0 < m.bulk) (hs : 0 < m.shear) (fss : M3) (hf : PSD fss)
    (nn : V3) (hn : nn ≠ 0) (ypr : ℝ) (hy : 0 ≤ ypr) :
    ∀ v, (tres4 m fss nn ypr).mulVec v = 0 → v = 0 := by
  intro v hv
  have hv' : (tres4 m fss nn ypr).mulVec v = Sum.elim (0 : V3) (fun _ => 0) := by
    rw [hv]; funext i; rcases i with a | u <;> rfl
  obtain ⟨k1, k3⟩ := (tres4_rows m fss nn ypr v 0 0).1 hv'
  set x : V3 := fun a => v (.inl a) with hx
  set g := v (.inr ()) with hg
  have kk1 : ∀ a, ∑ b, fss a b * x b +
      ((1 / 3 / m.bulk - 1 / 2 / m.shear) * (1 / 3) * vsum x + 1 / 2 / m.shear * x a) +
      nn a * g = 0 := by
    intro a
    have := k1 a
    have t := tresS_mul m fss x a
    simp only [hx] at t
    rw [t] at this
    simp only [Pi.zero_apply] at this
    rw [← this]
    ring
  have q := hf.nonneg x
  have e : ∑ a, x a * ∑ b, fss a b * x b +
      ∑ a, x a * ((1 / 3 / m.bulk - 1 / 2 / m.shear) * (1 / 3) * vsum x +
        1 / 2 / m.shear * x a) + ypr * g ^ 2 = 0 := by
    have a0 := kk1 0
    have a1 := kk1 1
    have a2 := kk1 2
    have k3' : ∑ b, nn b * x b - ypr * g = 0 := k3
    simp only [Fin.sum_univ_three] at a0 a1 a2 k3' ⊢
    linear_combination x 0 * a0 + x 1 * a1 + x 2 * a2 - g * k3'
  have pg : 0 ≤ ypr * g ^ 2 := by positivity
  have x0 : x = 0 := elastic_pos m hb hs x (by linarith)
  have g0 : g = 0 := by
    obtain ⟨a, ha⟩ := Function.ne_iff.1 hn
    have := kk1 a
    rw [x0] at this
    simp [vsum] at this
    rcases this with h | h
    · exact absurd h ha
    · exact h
  funext i
  rcases i with a | u
  · exact congrFun x0 a
  · exact g0

/-- The local system has exactly the solution satisfying its equations. -/
theorem locSolve_some (m : Par) (hb : 0 < m.bulk) (hs : 0 < m.shear) (fss : M3) (hf : PSD fss)
    (nn : V3) (hn : nn ≠ 0) (ypr : ℝ) (hy : 0 ≤ ypr) (r1 r2 : V3) (r3 : ℝ) (dt da : V3) (dg : ℝ)
    (hr2 : m.hk ≤ 0 → da = 0)
    (h1 : ∀ a, ∑ b, fss a b * (dt b - da b) +
      (1 / 3 / m.bulk - 1 / 2 / m.shear) * (1 / 3) * vsum dt + 1 / 2 / m.shear * dt a + nn a * dg
        = r1 a)
    (h2 : 0 < m.hk → ∀ a, -∑ b, fss a b * (dt b - da b) + 1 / m.hk * da a - nn a * dg = r2 a)
    (h3 : ∑ b, nn b * (dt b - da b) - ypr * dg = r3) :
    locSolve m fss nn ypr r1 r2 r3 = some (dt, da, dg) := by
  unfold locSolve
  by_cases hk : m.hk > 0
  · rw [if_pos hk, solve_some _ _ (Sum.elim (Sum.elim dt da) fun _ => dg)]
    · rfl
    · exact tres7_ker m hb hs fss hf nn hn ypr hy hk
    · refine (tres7_rows m fss nn ypr _ r1 r2 r3).2 ⟨fun a => ?_, fun a => ?_, ?_⟩
      · simp only [Sum.elim_inl, Sum.elim_inr]
        rw [tresS_mul, ← h1 a]
        simp only [mul_sub, Finset.sum_sub_distrib]
        ring
      · simp only [Sum.elim_inl, Sum.elim_inr]
        rw [← h2 hk a]
        simp only [mul_sub, Finset.sum_sub_distrib, hf.symm _ a]
        ring
      · simp only [Sum.elim_inl, Sum.elim_inr]
        rw [← h3]
        simp only [mul_sub, Finset.sum_sub_distrib]
  · rw [if_neg hk, solve_some _ _ (Sum.elim dt fun _ => dg)]
    · rw [hr2 (not_lt.1 hk)]; rfl
    · exact tres4_ker m hb hs fss hf nn hn ypr hy
    · have d0 := hr2 (not_lt.1 hk)
      refine (tres4_rows m fss nn ypr _ r1 r3).2 ⟨fun a => ?_, ?_⟩
      · simp only [Sum.elim_inl, Sum.elim_inr]
        rw [tresS_mul, ← h1 a, d0]
        simp
      · simp only [Sum.elim_inl, Sum.elim_inr]
        rw [← h3, d0]
        simp

/-- The local system always has a solution. -/
theorem locSolve_exists (m : Par) (hb : 0 < m.bulk) (hs : 0 < m.shear) (fss : M3) (hf : PSD fss)
    (nn : V3) (hn : nn ≠ 0) (ypr : ℝ) (hy : 0 ≤ ypr) (r1 r2 : V3) (r3 : ℝ) :
    ∃ x, locSolve m fss nn ypr r1 r2 r3 = some x := by
  have gen : ∀ {n : Type} [Fintype n] [DecidableEq n] (A : Matrix n n ℝ) (b : n → ℝ),
      (∀ v, A.mulVec v = 0 → v = 0) → ∃ x, solve A b = some x := by
    intro n _ _ A b hA
    have hd : A.det ≠ 0 := by
      intro h
      obtain ⟨v, hv, hz⟩ := Matrix.exists_mulVec_eq_zero_iff.2 h
      exact hv (hA v hz)
    exact ⟨_, if_neg hd⟩
  unfold locSolve
  by_cases hk : m.hk > 0
  · obtain ⟨x, hx⟩ := gen (tres7 m fss nn ypr) (Sum.elim (Sum.elim r1 r2) fun _ => r3)
      (tres7_ker m hb hs fss hf nn hn ypr hy hk)
    rw [if_pos hk, hx]
    exact ⟨_, rfl⟩
  · obtain ⟨x, hx⟩ := gen (tres4 m fss nn ypr) (Sum.elim r1 fun _ => r3)
      (tres4_ker m hb hs fss hf nn hn ypr hy)
    rw [if_neg hk, hx]
    exact ⟨_, rfl⟩

/-! ### Radial states -/

/-- A yield function of the form `√(2 J2) + c I1 - Y(e)` with the derivatives the code reports. -/
def Radial (yf : ℝ → ℝ → ℝ → ℝ → Res Yld) (c : ℝ) (Y Yp : ℝ → ℝ) (e0 : ℝ) : Prop :=
  ∀ e, e0 ≤ e → ∀ i1 j2 j3, 0 < j2 → epsZ < Real.sqrt (2 * j2) →
    yf e i1 j2 j3 = .ok { f1 := c, f2 := 1 / Real.sqrt (2 * j2),
                          f22 := -(1 / Real.sqrt (2 * j2)) ^ 3, Ypr := Yp e, YY := Y e,
                          yield := Real.sqrt (2 * j2) + c * i1 - Y e }

/-- The kinematic hardening modulus in effect. -/
noncomputable def hkp (m : Par) : ℝ := if m.hk > 0 then m.hk else 0

theorem hkp_nonneg (m : Par) : 0 ≤ hkp m := by
  unfold hkp; split_ifs with h
  · exact h.le
  · exact le_refl 0

/-- The states of the return mapping on the ray from the trial state. -/
noncomputable def ray (m : Par) (s0 : RM) (eps n : V3) (rho c g : ℝ) (nn : V3) (rerr : ℝ) (fss : M3)
    (ypr : ℝ) : RM :=
  { tau := fun i => s0.tau i - g * (2 * m.shear * n i + 3 * m.bulk * c)
    alp := fun i => s0.alp i + hkp m * g * (n i + c)
    gam := g, epp := s0.epp + s23 * g
    ta := fun i => (rho - (2 * m.shear + hkp m) * g) * n i
    I1 := s0.I1 - g * c * (9 * m.bulk + 3 * hkp m)
    J2 := (rho - (2 * m.shear + hkp m) * g) ^ 2 * (1 / 2)
    J3 := (rho - (2 * m.shear + hkp m) * g) ^ 3 * (n 0 ^ 3 + n 1 ^ 3 + n 2 ^ 3) * (1 / 3)
    epsE := fun i => eps i - g * (n i + c)
    nn := nn, rerr := rerr, fss := fss, ypr := ypr }

/-- The trial state is on the ray. -/
theorem trial_ray (m : Par) (hb : m.bulk ≠ 0) (hs : m.shear ≠ 0) (h : Hist) (eps n : V3)
    (rho c : ℝ) (hn2 : n 0 * n 0 + n 1 * n 1 + n 2 * n 2 = 1)
    (hta : ∀ i, (trial m h eps).ta i = rho * n i) :
    trial m h eps = ray m (trial m h eps) eps n rho c 0 (fun _ => 0) (1 + tolc) (fun _ _ => 0) 0 := by
  have e2 : (trial m h eps).J2 = rho ^ 2 * (1 / 2) := by
    show ((trial m h eps).ta 0 * (trial m h eps).ta 0 + (trial m h eps).ta 1 * (trial m h eps).ta 1 +
      (trial m h eps).ta 2 * (trial m h eps).ta 2) * (1 / 2) = _
    rw [hta, hta, hta]
    linear_combination rho ^ 2 * (1 / 2) * hn2
  have e3 : (trial m h eps).J3 = rho ^ 3 * (n 0 ^ 3 + n 1 ^ 3 + n 2 ^ 3) * (1 / 3) := by
    show ((trial m h eps).ta 0 * (trial m h eps).ta 0 * (trial m h eps).ta 0 +
      (trial m h eps).ta 1 * (trial m h eps).ta 1 * (trial m h eps).ta 1 +
      (trial m h eps).ta 2 * (trial m h eps).ta 2 * (trial m h eps).ta 2) * (1 / 3) = _
    rw [hta, hta, hta]
    ring
  have e4 : (trial m h eps).epsE = eps := by
    funext i
    show 1 / 2 / m.shear * (2 * m.shear * (eps i - vsum eps * (1 / 3))) +
      1 / 3 / m.bulk * (m.bulk * vsum eps) = eps i
    field_simp
    ring
  have e5 : (trial m h eps).ta = fun i => rho * n i := funext hta
  have key : trial m h eps = ⟨(trial m h eps).tau, (trial m h eps).alp, 0,
      (trial m h eps).epp, (trial m h eps).ta, (trial m h eps).I1,
      (trial m h eps).J2, (trial m h eps).J3, (trial m h eps).epsE,
      fun _ => 0, 1 + tolc, fun _ _ => 0, 0⟩ := rfl
  rw [e5, e2, e3, e4] at key
  refine key.trans ?_
  unfold ray
  simp

/-- The second derivatives on the ray. -/
noncomputable def rayFss (n : V3) (rho g : ℝ) : M3 := fun a b =>
  g / rho * ((if a = b then 1 else 0) - 1 / 3 - n a * n b)

theorem rayFss_psd (n : V3) (rho g : ℝ) (hr : 0 < rho) (hg : 0 ≤ g)
    (hn1 : n 0 + n 1 + n 2 = 0) (hn2 : n 0 * n 0 + n 1 * n 1 + n 2 * n 2 = 1) :
    PSD (rayFss n rho g) := by
  refine ⟨fun a b => ?_, fun x => ?_⟩
  · unfold rayFss
    by_cases h : a = b
    · rw [h]
    · rw [if_neg h, if_neg (Ne.symm h)]; ring
  · have e : ∑ a, x a * ∑ b, rayFss n rho g a b * x b = g / rho * (x 0 * x 0 + x 1 * x 1 + x 2 * x 2 -
        (x 0 + x 1 + x 2) ^ 2 / 3 - (n 0 * x 0 + n 1 * x 1 + n 2 * x 2) ^ 2) := by
      simp [Fin.sum_univ_three, rayFss]
      ring
    rw [e]
    refine mul_nonneg (by positivity) ?_
    -- projection onto the complement of the mean direction and of n
    have hid : x 0 * x 0 + x 1 * x 1 + x 2 * x 2 - (x 0 + x 1 + x 2) ^ 2 / 3 -
        (n 0 * x 0 + n 1 * x 1 + n 2 * x 2) ^ 2 =
        (x 0 - (x 0 + x 1 + x 2) / 3 - (n 0 * x 0 + n 1 * x 1 + n 2 * x 2) * n 0) ^ 2 +
        (x 1 - (x 0 + x 1 + x 2) / 3 - (n 0 * x 0 + n 1 * x 1 + n 2 * x 2) * n 1) ^ 2 +
        (x 2 - (x 0 + x 1 + x 2) / 3 - (n 0 * x 0 + n 1 * x 1 + n 2 * x 2) * n 2) ^ 2 := by
      linear_combination -(n 0 * x 0 + n 1 * x 1 + n 2 * x 2) ^ 2 * hn2 -
        2 * (n 0 * x 0 + n 1 * x 1 + n 2 * x 2) * (x 0 + x 1 + x 2) / 3 * hn1
    rw [hid]
    positivity

/-- One iteration from a state on the ray is one step of the scalar Newton iteration. -/
theorem ray_step (m : Par) (hb : 0 < m.bulk) (hs : 0 < m.shear) (yf : ℝ → ℝ → ℝ → ℝ → Res Yld)
    (c : ℝ) (Y Yp : ℝ → ℝ) (e0 : ℝ) (hyf : Radial yf c Y Yp e0) (s0 : RM) (eps n : V3)
    (htau : ∀ i, s0.tau i = 2 * m.shear * (eps i - vsum eps * (1 / 3)) + m.bulk * vsum eps)
    (rho : ℝ) (hta : ∀ i, 2 * m.shear * (eps i - vsum eps * (1 / 3)) - s0.alp i +
      vsum s0.alp * (1 / 3) = rho * n i) (hI1 : s0.I1 = 3 * (m.bulk * vsum eps - vsum s0.alp * (1 / 3)))
    (hn1 : n 0 + n 1 + n 2 = 0) (hn2 : n 0 * n 0 + n 1 * n 1 + n 2 * n 2 = 1)
    (g : ℝ) (hg : 0 ≤ g) (he : e0 ≤ s0.epp + s23 * g) (hypr : 0 ≤ Yp (s0.epp + s23 * g))
    (hr : epsZ < rho - (2 * m.shear + hkp m) * g) (nn : V3) (rerr : ℝ) (fss : M3) (ypr : ℝ) :
    let y := rho - (2 * m.shear + hkp m) * g + c * (s0.I1 - g * c * (9 * m.bulk + 3 * hkp m)) -
      Y (s0.epp + s23 * g)
    let B := 2 * m.shear + hkp m + c ^ 2 * (9 * m.bulk + 3 * hkp m)
    rmStep m yf eps s0.alp s0.epp (ray m s0 eps n rho c g nn rerr fss ypr) =
      .ok (ray m s0 eps n rho c (g + y / (B + Yp (s0.epp + s23 * g))) (fun i => n i + c)
        (|y| / m.y0) (rayFss n (rho - (2 * m.shear + hkp m) * g) g) (Yp (s0.epp + s23 * g))) := by
  intro y B
  have hz : (0 : ℝ) < epsZ := by unfold epsZ; positivity
  set r := rho - (2 * m.shear + hkp m) * g with hrdef
  have hr0 : 0 < r := lt_trans hz hr
  have hk0 := hkp_nonneg m
  have hsq : Real.sqrt (2 * (r ^ 2 * (1 / 2))) = r := by
    rw [show 2 * (r ^ 2 * (1 / 2)) = r ^ 2 by ring]
    exact Real.sqrt_sq hr0.le
  have hy := hyf (s0.epp + s23 * g) he (s0.I1 - g * c * (9 * m.bulk + 3 * hkp m)) (r ^ 2 * (1 / 2))
    (r ^ 3 * (n 0 ^ 3 + n 1 ^ 3 + n 2 ^ 3) * (1 / 3)) (by positivity) (by rw [hsq]; exact hr)
  rw [hsq] at hy
  have hB : 0 < B + Yp (s0.epp + s23 * g) := by
    have : 0 < B := by
      have : 0 ≤ c ^ 2 * (9 * m.bulk + 3 * hkp m) := by positivity
      show 0 < 2 * m.shear + hkp m + c ^ 2 * (9 * m.bulk + 3 * hkp m)
      linarith
    linarith
  unfold rmStep
  have e0' : (ray m s0 eps n rho c g nn rerr fss ypr).epp = s0.epp + s23 * g := rfl
  have e1 : (ray m s0 eps n rho c g nn rerr fss ypr).I1 =
    s0.I1 - g * c * (9 * m.bulk + 3 * hkp m) := rfl
  have e2 : (ray m s0 eps n rho c g nn rerr fss ypr).J2 = r ^ 2 * (1 / 2) := rfl
  have e3 : (ray m s0 eps n rho c g nn rerr fss ypr).J3 =
    r ^ 3 * (n 0 ^ 3 + n 1 ^ 3 + n 2 ^ 3) * (1 / 3) := rfl
  rw [e0', e1, e2, e3, hy]
  simp only [Res.bind]
  have d1 : flowDir ⟨c, 1 / r, 0, 0, -(1 / r) ^ 3, 0, 0, 0, 0, Yp (s0.epp + s23 * g),
      Y (s0.epp + s23 * g), r + c * (s0.I1 - g * c * (9 * m.bulk + 3 * hkp m)) -
        Y (s0.epp + s23 * g)⟩ (ray m s0 eps n rho c g nn rerr fss ypr) = fun i => n i + c := by
    funext i
    show c - 0 * (2 / 3) * _ + (1 / r + 0 * _) * (r * n i) = n i + c
    field_simp
    ring
  have d2 : flowGrad ⟨c, 1 / r, 0, 0, -(1 / r) ^ 3, 0, 0, 0, 0, Yp (s0.epp + s23 * g),
      Y (s0.epp + s23 * g), r + c * (s0.I1 - g * c * (9 * m.bulk + 3 * hkp m)) -
        Y (s0.epp + s23 * g)⟩ (ray m s0 eps n rho c g nn rerr fss ypr) = rayFss n r g := by
    funext a b
    show (0 - 1 / 3 * (1 / r) + -(1 / r) ^ 3 * (r * n a) * (r * n b) + 0 * _ * _ +
      (0 - 2 / 3 * 0) * _ + (0 * _ + 0) * _ + _ * (0 * _ + 0)) * g +
      (if a = b then (1 / r + 2 * 0 * _) * g else 0) = rayFss n r g a b
    unfold rayFss
    split_ifs <;> field_simp <;> ring
  rw [d1, d2]
  have r1z : (fun i => (ray m s0 eps n rho c g nn rerr fss ypr).epsE i - eps i +
      (ray m s0 eps n rho c g nn rerr fss ypr).gam * (n i + c)) = fun _ => (0 : ℝ) := by
    funext i
    show eps i - g * (n i + c) - eps i + g * (n i + c) = 0
    ring
  have r2z : 0 < m.hk → (fun i => (s0.alp i - (ray m s0 eps n rho c g nn rerr fss ypr).alp i) *
      (if m.hk > 0 then 1 / m.hk else 0) +
      (ray m s0 eps n rho c g nn rerr fss ypr).gam * (n i + c)) = fun _ => (0 : ℝ) := by
    intro hk
    funext i
    show (s0.alp i - (s0.alp i + hkp m * g * (n i + c))) * (if m.hk > 0 then 1 / m.hk else 0) +
      g * (n i + c) = 0
    unfold hkp
    rw [if_pos hk, if_pos hk]
    field_simp
    ring
  have hnn : (fun i => n i + c) ≠ (0 : V3) := by
    intro h
    have a0 := congrFun h 0
    have a1 := congrFun h 1
    have a2 := congrFun h 2
    simp only [Pi.zero_apply] at a0 a1 a2
    have c0 : c = 0 := by linarith
    have b0 : n 0 = 0 := by linarith
    have b1 : n 1 = 0 := by linarith
    have b2 : n 2 = 0 := by linarith
    rw [b0, b1, b2] at hn2
    norm_num at hn2
  have hsol : locSolve m (rayFss n r g) (fun i => n i + c) (Yp (s0.epp + s23 * g))
      (fun i => -((ray m s0 eps n rho c g nn rerr fss ypr).epsE i - eps i +
        (ray m s0 eps n rho c g nn rerr fss ypr).gam * (n i + c)))
      (fun i => -((s0.alp i - (ray m s0 eps n rho c g nn rerr fss ypr).alp i) *
        (if m.hk > 0 then 1 / m.hk else 0) +
        (ray m s0 eps n rho c g nn rerr fss ypr).gam * (n i + c)))
      (-(r + c * (s0.I1 - g * c * (9 * m.bulk + 3 * hkp m)) - Y (s0.epp + s23 * g))) =
      some (fun i => -(y / (B + Yp (s0.epp + s23 * g))) * (2 * m.shear * n i + 3 * m.bulk * c),
        fun i => hkp m * (y / (B + Yp (s0.epp + s23 * g))) * (n i + c),
        y / (B + Yp (s0.epp + s23 * g))) := by
    have hyd : y / (B + Yp (s0.epp + s23 * g)) * (B + Yp (s0.epp + s23 * g)) = y :=
      div_mul_cancel₀ _ hB.ne'
    set d := y / (B + Yp (s0.epp + s23 * g)) with hd
    have hfz : ∀ a, ∑ b, rayFss n r g a b *
        (-d * (2 * m.shear * n b + 3 * m.bulk * c) - hkp m * d * (n b + c)) = 0 := by
      intro a
      unfold rayFss
      fin_cases a <;> simp [Fin.sum_univ_three] <;>
        [linear_combination (g / r * (d * (2 * m.shear + hkp m)) * n 0) * hn2 +
          g / r * (1 / 3 * d * (2 * m.shear + hkp m) + d * (3 * m.bulk * c + hkp m * c) * n 0) * hn1;
         linear_combination (g / r * (d * (2 * m.shear + hkp m)) * n 1) * hn2 +
          g / r * (1 / 3 * d * (2 * m.shear + hkp m) + d * (3 * m.bulk * c + hkp m * c) * n 1) * hn1;
         linear_combination (g / r * (d * (2 * m.shear + hkp m)) * n 2) * hn2 +
          g / r * (1 / 3 * d * (2 * m.shear + hkp m) + d * (3 * m.bulk * c + hkp m * c) * n 2) * hn1]
    refine locSolve_some m hb hs _ (rayFss_psd n r g hr0 hg hn1 hn2) _ hnn _ hypr _ _ _ _ _ _ ?_ ?_ ?_ ?_
    · intro hk
      funext i
      simp [hkp, not_lt.2 hk]
    · intro a
      rw [hfz a, congrFun r1z a]
      simp only [vsum]
      have hb' := hb.ne'
      have hs' := hs.ne'
      field_simp
      linear_combination (-(2 * m.shear - 3 * m.bulk) * 2 * m.shear * d) * hn1
    · intro hk a
      rw [hfz a, congrFun (r2z hk) a]
      unfold hkp
      rw [if_pos hk]
      field_simp
      ring
    · have : r + c * (s0.I1 - g * c * (9 * m.bulk + 3 * hkp m)) - Y (s0.epp + s23 * g) = y := rfl
      rw [this, ← hyd, Fin.sum_univ_three]
      show _ = -(d * (2 * m.shear + hkp m + c ^ 2 * (9 * m.bulk + 3 * hkp m) + Yp (s0.epp + s23 * g)))
      linear_combination (-d * (2 * m.shear + hkp m)) * hn2 -
        d * c * (2 * m.shear + 3 * m.bulk + 2 * hkp m) * hn1
  rw [hsol]
  simp only []
  set d := y / (B + Yp (s0.epp + s23 * g)) with hd
  have hrerr : asum (fun i => (ray m s0 eps n rho c g nn rerr fss ypr).epsE i - eps i +
      (ray m s0 eps n rho c g nn rerr fss ypr).gam * (n i + c)) / asum eps +
      (if r + c * (s0.I1 - g * c * (9 * m.bulk + 3 * hkp m)) - Y (s0.epp + s23 * g) < 0 then
        -(r + c * (s0.I1 - g * c * (9 * m.bulk + 3 * hkp m)) - Y (s0.epp + s23 * g)) else
        r + c * (s0.I1 - g * c * (9 * m.bulk + 3 * hkp m)) - Y (s0.epp + s23 * g)) / m.y0 =
      |y| / m.y0 := by
    rw [r1z]
    simp only [asum, abs_zero, add_zero, zero_div, zero_add]
    congr 1
    show (if y < 0 then -y else y) = |y|
    split_ifs with h
    · exact (abs_of_neg h).symm
    · exact (abs_of_nonneg (not_lt.1 h)).symm
  rw [hrerr]
  have htau' : (fun i => (ray m s0 eps n rho c g nn rerr fss ypr).tau i +
      -d * (2 * m.shear * n i + 3 * m.bulk * c)) =
      fun i => s0.tau i - (g + d) * (2 * m.shear * n i + 3 * m.bulk * c) := by
    funext i
    show s0.tau i - g * (2 * m.shear * n i + 3 * m.bulk * c) + _ = _
    ring
  have halp' : (fun i => (ray m s0 eps n rho c g nn rerr fss ypr).alp i + hkp m * d * (n i + c)) =
      fun i => s0.alp i + hkp m * (g + d) * (n i + c) := by
    funext i
    show s0.alp i + hkp m * g * (n i + c) + _ = _
    ring
  have hg' : (ray m s0 eps n rho c g nn rerr fss ypr).gam + d = g + d := rfl
  have htau2 : ∀ i, (ray m s0 eps n rho c g nn rerr fss ypr).tau i +
      -d * (2 * m.shear * n i + 3 * m.bulk * c) =
      s0.tau i - (g + d) * (2 * m.shear * n i + 3 * m.bulk * c) := fun i => congrFun htau' i
  rw [halp', hg']
  simp only [htau2]
  have hpp : vsum (fun i => s0.tau i - (g + d) * (2 * m.shear * n i + 3 * m.bulk * c)) * (1 / 3) =
      m.bulk * vsum eps - (g + d) * (3 * m.bulk * c) := by
    simp only [vsum, htau]
    linear_combination (-(g + d) * 2 * m.shear * (1 / 3)) * hn1
  have haa : vsum (fun i => s0.alp i + hkp m * (g + d) * (n i + c)) * (1 / 3) =
      vsum s0.alp * (1 / 3) + hkp m * (g + d) * c := by
    simp only [vsum]
    linear_combination hkp m * (g + d) * (1 / 3) * hn1
  rw [hpp]
  have hta' : ∀ i, s0.tau i - (g + d) * (2 * m.shear * n i + 3 * m.bulk * c) -
      (m.bulk * vsum eps - (g + d) * (3 * m.bulk * c)) -
      (s0.alp i + hkp m * (g + d) * (n i + c)) + (vsum s0.alp * (1 / 3) + hkp m * (g + d) * c) =
      (rho - (2 * m.shear + hkp m) * (g + d)) * n i := by
    intro i
    have := hta i
    rw [htau i]
    linear_combination this
  unfold mkRM ray
  simp only [haa, hta']
  congr 2
  · rw [hI1]; ring
  · linear_combination (rho - (2 * m.shear + hkp m) * (g + d)) ^ 2 * (1 / 2) * hn2
  · ring
  · funext i
    rw [htau i]
    have hb' := hb.ne'
    have hs' := hs.ne'
    field_simp
    ring

/-- The projection onto the complement of the mean direction and of `n`. -/
theorem proj_sum (n : V3) (hn1 : n 0 + n 1 + n 2 = 0) (i : Fin 3) :
    ∑ b, ((if i = b then (1 : ℝ) else 0) - 1 / 3 - n i * n b) = 0 := by
  rw [Finset.sum_sub_distrib, Finset.sum_sub_distrib, Finset.sum_ite_eq, ← Finset.mul_sum,
    Fin.sum_univ_three n, hn1]
  simp

theorem proj_n (n : V3) (hn1 : n 0 + n 1 + n 2 = 0) (hn2 : n 0 * n 0 + n 1 * n 1 + n 2 * n 2 = 1)
    (i : Fin 3) :
    ∑ b, ((if i = b then (1 : ℝ) else 0) - 1 / 3 - n i * n b) * n b = 0 := by
  have : ∀ b, ((if i = b then (1 : ℝ) else 0) - 1 / 3 - n i * n b) * n b =
      (if i = b then n b else 0) - 1 / 3 * n b - n i * (n b * n b) := by
    intro b; split_ifs <;> ring
  simp only [this]
  rw [Finset.sum_sub_distrib, Finset.sum_sub_distrib, Finset.sum_ite_eq, ← Finset.mul_sum,
    ← Finset.mul_sum, Fin.sum_univ_three n, hn1, Fin.sum_univ_three (fun b => n b * n b), hn2]
  simp

/-- The tangent of a state with the matrix of the ray. -/
theorem ray_tangent (m : Par) (hb : 0 < m.bulk) (hs : 0 < m.shear) (s : RM) (n : V3) (r g : ℝ)
    (hr : 0 < r) (hg : 0 ≤ g) (hn1 : n 0 + n 1 + n 2 = 0)
    (hn2 : n 0 * n 0 + n 1 * n 1 + n 2 * n 2 = 1) (hnn : ∀ i, s.nn i = n i)
    (hf : s.fss = rayFss n r g) (hy : 0 ≤ s.ypr) :
    plasticTangent m s = .ok fun a b => 1 / 2 * (m.bulk +
      2 * m.shear * ((r + hkp m * g) / (r + (2 * m.shear + hkp m) * g)) *
        ((if a = b then 1 else 0) - 1 / 3 - n a * n b) +
      2 * m.shear * ((hkp m + s.ypr) / (2 * m.shear + hkp m + s.ypr)) * n a * n b) := by
  have hk0 := hkp_nonneg m
  have hden : 0 < r + (2 * m.shear + hkp m) * g := by positivity
  have hden2 : 0 < 2 * m.shear + hkp m + s.ypr := by positivity
  have hnn' : s.nn = n := funext hnn
  have hn0 : n ≠ 0 := by
    intro h
    rw [h] at hn2
    norm_num at hn2
  have col : ∀ a : Fin 3, locSolve m s.fss s.nn s.ypr (fun i => if i = a then 1 / 2 else 0)
      (fun _ => 0) 0 = some
      (fun b => 1 / 2 * (m.bulk +
        2 * m.shear * ((r + hkp m * g) / (r + (2 * m.shear + hkp m) * g)) *
          ((if a = b then 1 else 0) - 1 / 3 - n a * n b) +
        2 * m.shear * ((hkp m + s.ypr) / (2 * m.shear + hkp m + s.ypr)) * n a * n b),
       fun b => 1 / 2 * (hkp m * (2 * m.shear * g / (r + (2 * m.shear + hkp m) * g)) *
          ((if a = b then 1 else 0) - 1 / 3 - n a * n b) +
        hkp m * (2 * m.shear / (2 * m.shear + hkp m + s.ypr)) * n a * n b),
       1 / 2 * (2 * m.shear / (2 * m.shear + hkp m + s.ypr) * n a)) := by
    intro a
    rw [hf, hnn']
    have hfx : ∀ i, ∑ b, rayFss n r g i b *
        (1 / 2 * (m.bulk +
          2 * m.shear * ((r + hkp m * g) / (r + (2 * m.shear + hkp m) * g)) *
            ((if a = b then 1 else 0) - 1 / 3 - n a * n b) +
          2 * m.shear * ((hkp m + s.ypr) / (2 * m.shear + hkp m + s.ypr)) * n a * n b) -
        1 / 2 * (hkp m * (2 * m.shear * g / (r + (2 * m.shear + hkp m) * g)) *
            ((if a = b then 1 else 0) - 1 / 3 - n a * n b) +
          hkp m * (2 * m.shear / (2 * m.shear + hkp m + s.ypr)) * n a * n b)) =
        1 / 2 * (2 * m.shear * g / (r + (2 * m.shear + hkp m) * g)) *
            ((if a = i then 1 else 0) - 1 / 3 - n a * n i) := by
      intro i
      have hw : ∀ b, (1 / 2 * (m.bulk +
          2 * m.shear * ((r + hkp m * g) / (r + (2 * m.shear + hkp m) * g)) *
            ((if a = b then 1 else 0) - 1 / 3 - n a * n b) +
          2 * m.shear * ((hkp m + s.ypr) / (2 * m.shear + hkp m + s.ypr)) * n a * n b) -
        1 / 2 * (hkp m * (2 * m.shear * g / (r + (2 * m.shear + hkp m) * g)) *
            ((if a = b then 1 else 0) - 1 / 3 - n a * n b) +
          hkp m * (2 * m.shear / (2 * m.shear + hkp m + s.ypr)) * n a * n b)) =
          1 / 2 * m.bulk + m.shear * r / (r + (2 * m.shear + hkp m) * g) *
            ((if a = b then 1 else 0) - 1 / 3 - n a * n b) +
          m.shear * s.ypr / (2 * m.shear + hkp m + s.ypr) * n a * n b := by
        intro b
        field_simp
        ring
      simp only [hw]
      generalize hA : m.shear * r / (r + (2 * m.shear + hkp m) * g) = A
      generalize hBB : m.shear * s.ypr / (2 * m.shear + hkp m + s.ypr) = B
      have hR : 1 / 2 * (2 * m.shear * g / (r + (2 * m.shear + hkp m) * g)) = g / r * A := by
        rw [← hA]; field_simp
      rw [hR]
      have e : ∑ b, rayFss n r g i b * (1 / 2 * m.bulk +
          A * ((if a = b then 1 else 0) - 1 / 3 - n a * n b) + B * n a * n b) =
          g / r * ((1 / 2 * m.bulk - A * (1 / 3)) *
              ∑ b, ((if i = b then (1 : ℝ) else 0) - 1 / 3 - n i * n b) +
            (B - A) * n a * ∑ b, ((if i = b then (1 : ℝ) else 0) - 1 / 3 - n i * n b) * n b +
            A * ∑ b, if a = b then ((if i = b then (1 : ℝ) else 0) - 1 / 3 - n i * n b) else 0) := by
        simp only [Finset.mul_sum, ← Finset.sum_add_distrib]
        refine Finset.sum_congr rfl fun b _ => ?_
        unfold rayFss
        split_ifs <;> ring
      rw [e, proj_sum n hn1, proj_n n hn1 hn2, Finset.sum_ite_eq, if_pos (Finset.mem_univ a)]
      by_cases h : a = i
      · rw [if_pos h, if_pos h.symm, h]; ring
      · rw [if_neg h, if_neg (Ne.symm h)]; ring
    refine locSolve_some m hb hs _ (rayFss_psd n r g hr hg hn1 hn2) _ hn0 _ hy _ _ _ _ _ _ ?_ ?_ ?_ ?_
    · intro hk
      funext i
      simp [hkp, not_lt.2 hk]
    · intro i
      rw [hfx i]
      have hv : vsum (fun b => 1 / 2 * (m.bulk +
          2 * m.shear * ((r + hkp m * g) / (r + (2 * m.shear + hkp m) * g)) *
            ((if a = b then 1 else 0) - 1 / 3 - n a * n b) +
          2 * m.shear * ((hkp m + s.ypr) / (2 * m.shear + hkp m + s.ypr)) * n a * n b)) =
          3 / 2 * m.bulk := by
        have p := proj_sum n hn1 a
        rw [Fin.sum_univ_three] at p
        unfold vsum
        linear_combination m.shear * ((r + hkp m * g) / (r + (2 * m.shear + hkp m) * g)) * p +
          m.shear * ((hkp m + s.ypr) / (2 * m.shear + hkp m + s.ypr)) * n a * hn1
      rw [hv]
      have hs' := hs.ne'
      have hb' := hb.ne'
      by_cases h : i = a
      · rw [if_pos h, if_pos h.symm, h]
        field_simp
        ring
      · rw [if_neg h, if_neg (Ne.symm h)]
        field_simp
        ring
    · intro hk i
      rw [hfx i]
      have : hkp m = m.hk := if_pos hk
      rw [this]
      rw [this] at hden hden2
      field_simp
      ring
    · have hw : ∀ b, n b * (1 / 2 * (m.bulk +
          2 * m.shear * ((r + hkp m * g) / (r + (2 * m.shear + hkp m) * g)) *
            ((if a = b then 1 else 0) - 1 / 3 - n a * n b) +
          2 * m.shear * ((hkp m + s.ypr) / (2 * m.shear + hkp m + s.ypr)) * n a * n b) -
        1 / 2 * (hkp m * (2 * m.shear * g / (r + (2 * m.shear + hkp m) * g)) *
            ((if a = b then 1 else 0) - 1 / 3 - n a * n b) +
          hkp m * (2 * m.shear / (2 * m.shear + hkp m + s.ypr)) * n a * n b)) =
          1 / 2 * m.bulk * n b + m.shear * r / (r + (2 * m.shear + hkp m) * g) *
            (((if a = b then 1 else 0) - 1 / 3 - n a * n b) * n b) +
          m.shear * s.ypr / (2 * m.shear + hkp m + s.ypr) * n a * (n b * n b) := by
        intro b
        field_simp
        ring
      simp only [hw]
      rw [Finset.sum_add_distrib, Finset.sum_add_distrib, ← Finset.mul_sum, ← Finset.mul_sum,
        ← Finset.mul_sum, proj_n n hn1 hn2, Fin.sum_univ_three n, hn1,
        Fin.sum_univ_three (fun b => n b * n b), hn2]
      field_simp
      ring
  unfold plasticTangent
  simp only [col]
  congr 1
  funext a b
  fin_cases a <;> fin_cases b <;> simp <;> ring

/-- The tangent of a state with the matrix of the ray, for criteria with a pressure term. -/
theorem ray_tangent_c (m : Par) (hb : 0 < m.bulk) (hs : 0 < m.shear) (s : RM) (n : V3) (r g c : ℝ)
    (hr : 0 < r) (hg : 0 ≤ g) (hn1 : n 0 + n 1 + n 2 = 0)
    (hn2 : n 0 * n 0 + n 1 * n 1 + n 2 * n 2 = 1) (hnn : ∀ i, s.nn i = n i + c)
    (hf : s.fss = rayFss n r g) (hy : 0 ≤ s.ypr) :
    plasticTangent m s = .ok fun a b => 1 / 2 * (m.bulk +
      2 * m.shear * ((r + hkp m * g) / (r + (2 * m.shear + hkp m) * g)) *
        ((if a = b then 1 else 0) - 1 / 3 - n a * n b) + 2 * m.shear * n a * n b -
      (2 * m.shear * n a + 3 * m.bulk * c) * (2 * m.shear * n b + 3 * m.bulk * c) /
        (2 * m.shear + hkp m + c ^ 2 * (9 * m.bulk + 3 * hkp m) + s.ypr)) := by
  have hk0 := hkp_nonneg m
  have hden : 0 < r + (2 * m.shear + hkp m) * g := by positivity
  have hden2 : 0 < 2 * m.shear + hkp m + c ^ 2 * (9 * m.bulk + 3 * hkp m) + s.ypr := by positivity
  have hnn' : s.nn = fun i => n i + c := funext hnn
  have hn0 : (fun i => n i + c) ≠ 0 := by
    intro h0
    have e0 : n 0 + c = 0 := congrFun h0 0
    have e1 : n 1 + c = 0 := congrFun h0 1
    have e2 : n 2 + c = 0 := congrFun h0 2
    have hc : c = 0 := by linarith
    have : n 0 = 0 := by linarith
    have : n 1 = 0 := by linarith
    have : n 2 = 0 := by linarith
    simp_all
  obtain ⟨B, hB⟩ : ∃ B, B = 2 * m.shear + hkp m + c ^ 2 * (9 * m.bulk + 3 * hkp m) + s.ypr := ⟨_, rfl⟩
  obtain ⟨th, hth⟩ : ∃ th, th = (r + hkp m * g) / (r + (2 * m.shear + hkp m) * g) := ⟨_, rfl⟩
  obtain ⟨ps, hps⟩ : ∃ ps, ps = 2 * m.shear * g / (r + (2 * m.shear + hkp m) * g) := ⟨_, rfl⟩
  rw [← hB, ← hth]
  rw [← hB] at hden2
  have rel1 : th + ps = 1 := by
    rw [hth, hps]; field_simp; ring
  have rel2 : g / r * (2 * m.shear * th - hkp m * ps) = ps := by
    rw [hth, hps]; field_simp; ring
  have col : ∀ a : Fin 3, locSolve m s.fss s.nn s.ypr (fun i => if i = a then 1 / 2 else 0)
      (fun _ => 0) 0 = some
      (fun b => 1 / 2 * (m.bulk + 2 * m.shear * th *
          ((if a = b then 1 else 0) - 1 / 3 - n a * n b) + 2 * m.shear * n a * n b -
        (2 * m.shear * n a + 3 * m.bulk * c) * (2 * m.shear * n b + 3 * m.bulk * c) / B),
       fun b => 1 / 2 * hkp m * (ps * ((if a = b then 1 else 0) - 1 / 3 - n a * n b) +
         (2 * m.shear * n a + 3 * m.bulk * c) / B * (n b + c)),
       1 / 2 * ((2 * m.shear * n a + 3 * m.bulk * c) / B)) := by
    intro a
    rw [hf, hnn']
    obtain ⟨q, hq⟩ : ∃ q, q = (2 * m.shear * n a + 3 * m.bulk * c) / B := ⟨_, rfl⟩
    have hqB : q * B = 2 * m.shear * n a + 3 * m.bulk * c := by
      rw [hq]; exact div_mul_cancel₀ _ hden2.ne'
    have hdt : ∀ b, (2 * m.shear * n a + 3 * m.bulk * c) * (2 * m.shear * n b + 3 * m.bulk * c) / B =
        q * (2 * m.shear * n b + 3 * m.bulk * c) := by
      intro b; rw [hq]; ring
    simp only [hdt, ← hq]
    have hpa := proj_sum n hn1 a
    have hpn := proj_n n hn1 hn2 a
    rw [Fin.sum_univ_three] at hpa hpn
    have hfx : ∀ i, ∑ b, rayFss n r g i b *
        (1 / 2 * (m.bulk + 2 * m.shear * th * ((if a = b then 1 else 0) - 1 / 3 - n a * n b) +
            2 * m.shear * n a * n b - q * (2 * m.shear * n b + 3 * m.bulk * c)) -
          1 / 2 * hkp m * (ps * ((if a = b then 1 else 0) - 1 / 3 - n a * n b) + q * (n b + c))) =
        1 / 2 * ps * ((if a = i then 1 else 0) - 1 / 3 - n a * n i) := by
      intro i
      have e : ∑ b, rayFss n r g i b *
        (1 / 2 * (m.bulk + 2 * m.shear * th * ((if a = b then 1 else 0) - 1 / 3 - n a * n b) +
            2 * m.shear * n a * n b - q * (2 * m.shear * n b + 3 * m.bulk * c)) -
          1 / 2 * hkp m * (ps * ((if a = b then 1 else 0) - 1 / 3 - n a * n b) + q * (n b + c))) =
          g / r * (1 / 2 * (m.bulk - q * (3 * m.bulk * c) - hkp m * q * c -
              (2 * m.shear * th - hkp m * ps) * (1 / 3)) *
              ∑ b, ((if i = b then (1 : ℝ) else 0) - 1 / 3 - n i * n b) +
            1 / 2 * (2 * m.shear * n a - q * (2 * m.shear) - hkp m * q -
              (2 * m.shear * th - hkp m * ps) * n a) *
              ∑ b, ((if i = b then (1 : ℝ) else 0) - 1 / 3 - n i * n b) * n b +
            1 / 2 * (2 * m.shear * th - hkp m * ps) *
              ∑ b, if a = b then ((if i = b then (1 : ℝ) else 0) - 1 / 3 - n i * n b) else 0) := by
        simp only [Finset.mul_sum, ← Finset.sum_add_distrib]
        refine Finset.sum_congr rfl fun b _ => ?_
        unfold rayFss
        split_ifs <;> ring
      rw [e, proj_sum n hn1, proj_n n hn1 hn2, Finset.sum_ite_eq, if_pos (Finset.mem_univ a)]
      by_cases h : a = i
      · rw [if_pos h, if_pos h.symm, h]
        linear_combination 1 / 2 * (1 - 1 / 3 - n i * n i) * rel2
      · rw [if_neg h, if_neg (Ne.symm h)]
        linear_combination 1 / 2 * (0 - 1 / 3 - n i * n a) * rel2
    refine locSolve_some m hb hs _ (rayFss_psd n r g hr hg hn1 hn2) _ hn0 _ hy _ _ _ _ _ _ ?_ ?_ ?_ ?_
    · intro hk
      funext i
      simp [hkp, not_lt.2 hk]
    · intro i
      rw [hfx i]
      have hv : vsum (fun b => 1 / 2 * (m.bulk +
          2 * m.shear * th * ((if a = b then 1 else 0) - 1 / 3 - n a * n b) +
          2 * m.shear * n a * n b - q * (2 * m.shear * n b + 3 * m.bulk * c))) =
          3 / 2 * m.bulk - 9 / 2 * m.bulk * c * q := by
        unfold vsum
        linear_combination m.shear * th * hpa + (m.shear * n a - m.shear * q) * hn1
      rw [hv]
      have hs' := hs.ne'
      have hb' := hb.ne'
      by_cases h : i = a
      · rw [if_pos h, if_pos h.symm, h]
        field_simp
        linear_combination (18 * m.shear * (1 - 1 / 3 - n a * n a)) * rel1
      · rw [if_neg h, if_neg (Ne.symm h)]
        field_simp
        linear_combination (18 * m.shear * (0 - 1 / 3 - n i * n a)) * rel1
    · intro hk i
      rw [hfx i]
      have : hkp m = m.hk := if_pos hk
      rw [this]
      field_simp
      ring
    · have hpd : ∑ b, (if a = b then n b else 0) = n a := by
        rw [Finset.sum_ite_eq, if_pos (Finset.mem_univ a)]
      have hw : ∀ b, (n b + c) * (1 / 2 * (m.bulk + 2 * m.shear * th *
          ((if a = b then 1 else 0) - 1 / 3 - n a * n b) + 2 * m.shear * n a * n b -
          q * (2 * m.shear * n b + 3 * m.bulk * c)) - 1 / 2 * hkp m * (ps *
          ((if a = b then 1 else 0) - 1 / 3 - n a * n b) + q * (n b + c))) =
          (1 / 2 * (2 * m.shear * th - hkp m * ps)) *
            (((if a = b then 1 else 0) - 1 / 3 - n a * n b) * n b) +
          (1 / 2 * (2 * m.shear * th - hkp m * ps)) * c *
            ((if a = b then 1 else 0) - 1 / 3 - n a * n b) +
          1 / 2 * (2 * m.shear * n a - q * (2 * m.shear) - hkp m * q) * (n b * n b) +
          (1 / 2 * (m.bulk - q * (3 * m.bulk * c) - hkp m * q * c) +
            1 / 2 * c * (2 * m.shear * n a - q * (2 * m.shear) - hkp m * q)) * n b +
          1 / 2 * c * (m.bulk - q * (3 * m.bulk * c) - hkp m * q * c) := by
        intro b
        ring
      simp only [hw]
      simp only [Finset.sum_add_distrib, ← Finset.mul_sum]
      rw [proj_n n hn1 hn2, proj_sum n hn1, Fin.sum_univ_three n, hn1,
        Fin.sum_univ_three (fun b => n b * n b), hn2]
      simp only [Finset.sum_const, Finset.card_univ, Fintype.card_fin, nsmul_eq_mul]
      push_cast
      rw [hB] at hqB
      linear_combination -1 / 2 * hqB
  unfold plasticTangent
  simp only [col]
  congr 1
  funext a b
  fin_cases a <;> fin_cases b <;> simp <;> ring

/-- A hardening curve lying below its tangents, with non-negative slope: `Yp` is `√(2/3)` times the
slope of `Y`. -/
structure Concave (Y Yp : ℝ → ℝ) (e0 : ℝ) : Prop where
  tangent : ∀ a b, e0 ≤ a → e0 ≤ b → Y b ≤ Y a + Yp a / s23 * (b - a)
  slope : ∀ a, e0 ≤ a → 0 ≤ Yp a

theorem s23_pos' : 0 < s23 := Real.sqrt_pos.2 (by norm_num)

theorem Concave.mono {Y Yp : ℝ → ℝ} {e0 : ℝ} (h : Concave Y Yp e0) {a b : ℝ} (ha : e0 ≤ a)
    (hab : a ≤ b) : Y a ≤ Y b := by
  have t := h.tangent b a (ha.trans hab) ha
  have p := h.slope b (ha.trans hab)
  have : Yp b / s23 * (a - b) ≤ 0 :=
    mul_nonpos_of_nonneg_of_nonpos (div_nonneg p s23_pos'.le) (by linarith)
  linarith

/-- The data of the ray: the trial state and the direction of its relative deviatoric stress. -/
structure OnRay (m : Par) (s0 : RM) (eps n : V3) (rho : ℝ) : Prop where
  htau : ∀ i, s0.tau i = 2 * m.shear * (eps i - vsum eps * (1 / 3)) + m.bulk * vsum eps
  hta : ∀ i, 2 * m.shear * (eps i - vsum eps * (1 / 3)) - s0.alp i + vsum s0.alp * (1 / 3) =
    rho * n i
  hI1 : s0.I1 = 3 * (m.bulk * vsum eps - vsum s0.alp * (1 / 3))
  hn1 : n 0 + n 1 + n 2 = 0
  hn2 : n 0 * n 0 + n 1 * n 1 + n 2 * n 2 = 1

/-- The iteration stays on the ray, moves monotonically and never overshoots the yield surface, if
the hardening curve is concave. -/
theorem ray_loop (m : Par) (hb : 0 < m.bulk) (hs : 0 < m.shear) (hy0 : 0 < m.y0)
    (yf : ℝ → ℝ → ℝ → ℝ → Res Yld)
    (Y Yp : ℝ → ℝ) (s0 : RM) (hyf : Radial yf 0 Y Yp s0.epp) (hc : Concave Y Yp s0.epp)
    (hY : epsZ < Y s0.epp) (eps n : V3) (rho : ℝ) (ho : OnRay m s0 eps n rho) (k : Nat) :
    ∀ (g : ℝ) (nn : V3) (rerr : ℝ) (fss : M3) (ypr : ℝ), 0 ≤ g →
      0 ≤ rho - (2 * m.shear + hkp m) * g - Y (s0.epp + s23 * g) →
    ∃ g' nn' rerr' fss' ypr',
      rmLoop (rmStep m yf eps s0.alp s0.epp) k (ray m s0 eps n rho 0 g nn rerr fss ypr) =
        .ok (ray m s0 eps n rho 0 g' nn' rerr' fss' ypr') ∧ g ≤ g' ∧
      0 ≤ rho - (2 * m.shear + hkp m) * g' - Y (s0.epp + s23 * g') ∧
      ((g' = g ∧ nn' = nn ∧ rerr' = rerr ∧ fss' = fss ∧ ypr' = ypr ∧ (k = 0 ∨ rerr < tolc)) ∨
       ∃ g'', g ≤ g'' ∧ g'' ≤ g' ∧
        0 ≤ rho - (2 * m.shear + hkp m) * g'' - Y (s0.epp + s23 * g'') ∧
        rho - (2 * m.shear + hkp m) * g' - Y (s0.epp + s23 * g') ≤
          rho - (2 * m.shear + hkp m) * g'' - Y (s0.epp + s23 * g'') ∧
        nn' = (fun i => n i + 0) ∧
        rerr' = (rho - (2 * m.shear + hkp m) * g'' - Y (s0.epp + s23 * g'')) / m.y0 ∧
        fss' = rayFss n (rho - (2 * m.shear + hkp m) * g'') g'' ∧
        ypr' = Yp (s0.epp + s23 * g'')) := by
  have hk0 := hkp_nonneg m
  have hs23 := s23_pos'
  induction k with
  | zero =>
    intro g nn rerr fss ypr hg hphi
    exact ⟨g, nn, rerr, fss, ypr, rfl, le_refl g, hphi, Or.inl ⟨rfl, rfl, rfl, rfl, rfl, Or.inl rfl⟩⟩
  | succ k ih =>
    intro g nn rerr fss ypr hg hphi
    by_cases hr : rerr ≥ tolc
    · have he : s0.epp ≤ s0.epp + s23 * g := by
        have : 0 ≤ s23 * g := by positivity
        linarith
      have hyp := hc.slope _ he
      have hYg : Y s0.epp ≤ Y (s0.epp + s23 * g) := hc.mono (le_refl _) he
      have st := ray_step m hb hs yf 0 Y Yp s0.epp hyf s0 eps n ho.htau rho ho.hta ho.hI1 ho.hn1
        ho.hn2 g hg he hyp (by linarith) nn rerr fss ypr
      simp only [zero_mul, add_zero, mul_zero, ne_eq, OfNat.ofNat_ne_zero, not_false_eq_true,
        zero_pow] at st
      rw [abs_of_nonneg hphi] at st
      set ph := rho - (2 * m.shear + hkp m) * g - Y (s0.epp + s23 * g) with hph
      set B := 2 * m.shear + hkp m + Yp (s0.epp + s23 * g) with hBdef
      have hB : 0 < B := by positivity
      have hd : 0 ≤ ph / B := div_nonneg hphi hB.le
      have hdB : ph / B * B = ph := div_mul_cancel₀ _ hB.ne'
      set d := ph / B with hddef
      have he1 : s0.epp ≤ s0.epp + s23 * (g + d) := by
        have : 0 ≤ s23 * (g + d) := by positivity
        linarith
      have htan := hc.tangent (s0.epp + s23 * g) (s0.epp + s23 * (g + d)) he he1
      have e : Yp (s0.epp + s23 * g) / s23 * (s0.epp + s23 * (g + d) - (s0.epp + s23 * g)) =
          Yp (s0.epp + s23 * g) * d := by
        field_simp
        ring
      rw [e] at htan
      have hphi1 : 0 ≤ rho - (2 * m.shear + hkp m) * (g + d) - Y (s0.epp + s23 * (g + d)) := by
        have : ph = (2 * m.shear + hkp m) * d + Yp (s0.epp + s23 * g) * d := by
          rw [← hdB, hBdef]; ring
        have h2 : rho - (2 * m.shear + hkp m) * g - Y (s0.epp + s23 * g) = ph := hph.symm
        nlinarith
      have hmono : Y (s0.epp + s23 * g) ≤ Y (s0.epp + s23 * (g + d)) :=
        hc.mono he (by
          have : 0 ≤ s23 * d := by positivity
          nlinarith)
      have hdec : rho - (2 * m.shear + hkp m) * (g + d) - Y (s0.epp + s23 * (g + d)) ≤ ph := by
        have : 0 ≤ (2 * m.shear + hkp m) * d := by positivity
        rw [hph]
        nlinarith
      have hunf : rmLoop (rmStep m yf eps s0.alp s0.epp) (k + 1)
          (ray m s0 eps n rho 0 g nn rerr fss ypr) =
          rmLoop (rmStep m yf eps s0.alp s0.epp) k
            (ray m s0 eps n rho 0 (g + d) n (ph / m.y0)
              (rayFss n (rho - (2 * m.shear + hkp m) * g) g) (Yp (s0.epp + s23 * g))) := by
        have : (ray m s0 eps n rho 0 g nn rerr fss ypr).rerr ≥ tolc := hr
        rw [rmLoop, if_pos this, st]
        rfl
      obtain ⟨g', nn', rerr', fss', ypr', h1, h2, h3, h4⟩ := ih (g + d) n (ph / m.y0)
        (rayFss n (rho - (2 * m.shear + hkp m) * g) g) (Yp (s0.epp + s23 * g)) (by linarith) hphi1
      refine ⟨g', nn', rerr', fss', ypr', hunf.trans h1, by linarith, h3, Or.inr ?_⟩
      rcases h4 with ⟨i1, i2, i3, i4, i5, -⟩ | ⟨g'', j1, j2, j3, j4, j5, j6, j7, j8⟩
      · refine ⟨g, le_refl g, by linarith, hphi, ?_, ?_, i3, i4, i5⟩
        · rw [i1]; exact hdec
        · rw [i2]; funext i; simp
      · exact ⟨g'', by linarith, j2, j3, j4, j5, j6, j7, j8⟩
    · have : ¬ (ray m s0 eps n rho 0 g nn rerr fss ypr).rerr ≥ tolc := hr
      refine ⟨g, nn, rerr, fss, ypr, ?_, le_refl g, hphi,
        Or.inl ⟨rfl, rfl, rfl, rfl, rfl, Or.inr (not_le.1 hr)⟩⟩
      rw [rmLoop, if_neg this]

/-- The trial state satisfies the assumptions of the ray. -/
theorem onRay_trial (m : Par) (h : Hist) (eps n : V3) (rho : ℝ)
    (hta : ∀ i, (trial m h eps).ta i = rho * n i) (hr : rho ≠ 0)
    (hn2 : n 0 * n 0 + n 1 * n 1 + n 2 * n 2 = 1) : OnRay m (trial m h eps) eps n rho := by
  refine ⟨fun i => rfl, hta, rfl, ?_, hn2⟩
  have : rho * (n 0 + n 1 + n 2) = 0 := by
    have a0 : 2 * m.shear * (eps 0 - vsum eps * (1 / 3)) - (trial m h eps).alp 0 +
      vsum (trial m h eps).alp * (1 / 3) = rho * n 0 := hta 0
    have a1 : 2 * m.shear * (eps 1 - vsum eps * (1 / 3)) - (trial m h eps).alp 1 +
      vsum (trial m h eps).alp * (1 / 3) = rho * n 1 := hta 1
    have a2 : 2 * m.shear * (eps 2 - vsum eps * (1 / 3)) - (trial m h eps).alp 2 +
      vsum (trial m h eps).alp * (1 / 3) = rho * n 2 := hta 2
    unfold vsum at a0 a1 a2
    linear_combination -(a0 + a1 + a2)
  exact (mul_eq_zero.1 this).resolve_left hr

/-- A plastic step with a concave hardening curve. -/
theorem plasticStep_concave (m : Par) (hb : 0 < m.bulk) (hs : 0 < m.shear) (hy0 : 0 < m.y0)
    (yf : ℝ → ℝ → ℝ → ℝ → Res Yld) (Y Yp : ℝ → ℝ) (h : Hist) (hyf : Radial yf 0 Y Yp h.epp)
    (hc : Concave Y Yp h.epp) (hY : epsZ < Y h.epp) (eps n : V3) (hne : asum eps ≠ 0) (rho : ℝ)
    (hta : ∀ i, (trial m h eps).ta i = rho * n i)
    (hn2 : n 0 * n 0 + n 1 * n 1 + n 2 * n 2 = 1) (hphi : Y h.epp ≤ rho) (N : M3) (it : Nat) :
    n 0 + n 1 + n 2 = 0 ∧
    ∃ g g'', 0 ≤ g'' ∧ g'' ≤ g ∧
      0 ≤ rho - (2 * m.shear + hkp m) * g - Y (h.epp + s23 * g) ∧
      rho - (2 * m.shear + hkp m) * g - Y (h.epp + s23 * g) ≤
        rho - (2 * m.shear + hkp m) * g'' - Y (h.epp + s23 * g'') ∧
      plasticStep m yf h eps N it = .ok
        (⟨spectral (fun a => Real.exp (2 * (eps a - g * n a))) N, h.epp + s23 * g,
          fun i => h.epl i + g * n i⟩,
         fun i => 2 * m.shear * (eps i - vsum eps * (1 / 3) - g * n i) + m.bulk * vsum eps,
         fun a b => 1 / 2 * (m.bulk +
            2 * m.shear * ((rho - 2 * m.shear * g'') / rho) *
              ((if a = b then 1 else 0) - 1 / 3 - n a * n b) +
            2 * m.shear * ((hkp m + Yp (h.epp + s23 * g'')) /
              (2 * m.shear + hkp m + Yp (h.epp + s23 * g''))) * n a * n b),
         if (rho - (2 * m.shear + hkp m) * g'' - Y (h.epp + s23 * g'')) / m.y0 ≥ tolc ∧ it > 0
           then it else 0) := by
  have hz : (0 : ℝ) < epsZ := by unfold epsZ; positivity
  have hk0 := hkp_nonneg m
  have hs23 := s23_pos'
  have hrho : 0 < rho := by linarith
  have ho := onRay_trial m h eps n rho hta hrho.ne' hn2
  have hepp : (trial m h eps).epp = h.epp := rfl
  refine ⟨ho.hn1, ?_⟩
  have htr := trial_ray m hb.ne' hs.ne' h eps n rho 0 hn2 hta
  obtain ⟨g, nn, rerr, fss, ypr, h1, h2, h3, h4⟩ := ray_loop m hb hs hy0 yf Y Yp (trial m h eps)
    (by rw [hepp]; exact hyf) (by rw [hepp]; exact hc) (by rw [hepp]; exact hY) eps n rho ho maxIter
    0 (fun _ => 0) (1 + tolc) (fun _ _ => 0) 0 (le_refl 0) (by rw [hepp]; simpa using hphi)
  rcases h4 with ⟨-, -, -, -, -, i6⟩ | ⟨g'', j1, j2, j3, j4, j5, j6, j7, j8⟩
  · exfalso
    rcases i6 with i6 | i6
    · exact absurd i6 (by decide)
    · linarith
  rw [hepp] at h3 j3 j4 j6 j8
  refine ⟨g, g'', j1, j2, h3, j4, ?_⟩
  have hcond : ¬ (m.bulk = 0 ∨ m.shear = 0 ∨ asum eps = 0 ∨ m.y0 = 0) := by
    push Not
    exact ⟨hb.ne', hs.ne', hne, hy0.ne'⟩
  have he2 : h.epp ≤ h.epp + s23 * g'' := by
    have : 0 ≤ s23 * g'' := by positivity
    linarith
  have hr2 : 0 < rho - (2 * m.shear + hkp m) * g'' := by
    have := hc.mono (le_refl _) he2
    linarith
  have hsl := hc.slope _ he2
  unfold plasticStep
  rw [if_neg hcond]
  simp only []
  have hl : rmLoop (rmStep m yf eps (trial m h eps).alp h.epp) maxIter (trial m h eps) =
      .ok (ray m (trial m h eps) eps n rho 0 g nn rerr fss ypr) := by
    rw [← h1, ← htr, hepp]
  rw [hl]
  simp only [Res.bind]
  rw [ray_tangent m hb hs (ray m (trial m h eps) eps n rho 0 g nn rerr fss ypr) n
    (rho - (2 * m.shear + hkp m) * g'') g'' hr2 j1 ho.hn1 hn2
    (fun i => by show nn i = n i; rw [j5]; simp) j7 (by show 0 ≤ ypr; rw [j8]; exact hsl)]
  simp only []
  congr 1
  refine Prod.ext ?_ (Prod.ext ?_ (Prod.ext ?_ ?_))
  · show (⟨spectral (fun a => Real.exp (2 * (eps a - g * (n a + 0)))) N, h.epp + s23 * g,
      fun i => h.epl i + g * nn i⟩ : Hist) = _
    rw [j5]
    simp
  · funext i
    show (trial m h eps).tau i - g * (2 * m.shear * n i + 3 * m.bulk * 0) = _
    rw [ho.htau i]
    ring
  · funext a b
    show 1 / 2 * (m.bulk + 2 * m.shear *
      ((rho - (2 * m.shear + hkp m) * g'' + hkp m * g'') /
        (rho - (2 * m.shear + hkp m) * g'' + (2 * m.shear + hkp m) * g'')) * _ +
      2 * m.shear * ((hkp m + ypr) / (2 * m.shear + hkp m + ypr)) * n a * n b) = _
    rw [j8, show rho - (2 * m.shear + hkp m) * g'' + (2 * m.shear + hkp m) * g'' = rho by ring,
      show rho - (2 * m.shear + hkp m) * g'' + hkp m * g'' = rho - 2 * m.shear * g'' by ring]
  · show (if rerr ≥ tolc ∧ it > 0 then it else 0) = _
    rw [j6]

/-- Linear hardening: the first iteration gives the exact solution, a second one confirms it. -/
theorem ray_linear (m : Par) (hb : 0 < m.bulk) (hs : 0 < m.shear) (hy0 : 0 < m.y0)
    (yf : ℝ → ℝ → ℝ → ℝ → Res Yld) (c Y0 H : ℝ) (s0 : RM)
    (hyf : Radial yf c (fun e => Y0 + H * e) (fun _ => s23 * H) s0.epp) (hH : 0 ≤ H) (eps n : V3)
    (rho : ℝ) (ho : OnRay m s0 eps n rho) (g : ℝ)
    (hg : g = (rho + c * s0.I1 - (Y0 + H * s0.epp)) /
      (2 * m.shear + hkp m + c ^ 2 * (9 * m.bulk + 3 * hkp m) + s23 * H))
    (hpos : 0 ≤ rho + c * s0.I1 - (Y0 + H * s0.epp)) (hr0 : epsZ < rho)
    (hr1 : epsZ < rho - (2 * m.shear + hkp m) * g) (k : Nat) (nn : V3) (fss : M3) (ypr : ℝ) :
    rmLoop (rmStep m yf eps s0.alp s0.epp) (k + 2)
        (ray m s0 eps n rho c 0 nn (1 + tolc) fss ypr) =
      .ok (ray m s0 eps n rho c g (fun i => n i + c)
        (if (rho + c * s0.I1 - (Y0 + H * s0.epp)) / m.y0 ≥ tolc then 0 else
          (rho + c * s0.I1 - (Y0 + H * s0.epp)) / m.y0)
        (if (rho + c * s0.I1 - (Y0 + H * s0.epp)) / m.y0 ≥ tolc then
          rayFss n (rho - (2 * m.shear + hkp m) * g) g else rayFss n rho 0) (s23 * H)) := by
  have hk0 := hkp_nonneg m
  have hs23 := s23_pos'
  have ht : (0 : ℝ) < tolc := by unfold tolc; positivity
  have hB : 0 < 2 * m.shear + hkp m + c ^ 2 * (9 * m.bulk + 3 * hkp m) + s23 * H := by positivity
  have hg0 : 0 ≤ g := by rw [hg]; positivity
  have st0 := ray_step m hb hs yf c _ _ s0.epp hyf s0 eps n ho.htau rho ho.hta ho.hI1 ho.hn1
    ho.hn2 0 (le_refl 0) (by simp) (by positivity) (by simpa using hr0) nn (1 + tolc) fss ypr
  simp only [mul_zero, zero_mul, sub_zero, add_zero, zero_add] at st0
  rw [abs_of_nonneg hpos, ← hg] at st0
  have hphi : rho - (2 * m.shear + hkp m) * g + c * (s0.I1 - g * c * (9 * m.bulk + 3 * hkp m)) -
      (Y0 + H * (s0.epp + s23 * g)) = 0 := by
    have : g * (2 * m.shear + hkp m + c ^ 2 * (9 * m.bulk + 3 * hkp m) + s23 * H) =
        rho + c * s0.I1 - (Y0 + H * s0.epp) := by
      rw [hg]; exact div_mul_cancel₀ _ hB.ne'
    linear_combination -this
  have hfirst : (ray m s0 eps n rho c 0 nn (1 + tolc) fss ypr).rerr ≥ tolc := by
    show (1 : ℝ) + tolc ≥ tolc
    linarith
  rw [rmLoop, if_pos hfirst, st0]
  simp only [Res.bind]
  rw [rmLoop]
  by_cases hcv : (rho + c * s0.I1 - (Y0 + H * s0.epp)) / m.y0 ≥ tolc
  · have st1 := ray_step m hb hs yf c _ _ s0.epp hyf s0 eps n ho.htau rho ho.hta ho.hI1 ho.hn1
      ho.hn2 g hg0 (by
        have : 0 ≤ s23 * g := by positivity
        linarith) (by positivity) hr1 (fun i => n i + c)
      ((rho + c * s0.I1 - (Y0 + H * s0.epp)) / m.y0) (rayFss n rho 0) (s23 * H)
    simp only [] at st1
    rw [hphi] at st1
    simp only [abs_zero, zero_div, add_zero] at st1
    have hcv' : (ray m s0 eps n rho c g (fun i => n i + c)
      ((rho + c * s0.I1 - (Y0 + H * s0.epp)) / m.y0) (rayFss n rho 0) (s23 * H)).rerr ≥ tolc := hcv
    rw [if_pos hcv', st1, if_pos hcv, if_pos hcv]
    simp only [Res.bind]
    have hst : ∀ (k : Nat) (s : RM), s.rerr = 0 → ∀ f, rmLoop f k s = .ok s := by
      intro k s hs f
      cases k with
      | zero => rfl
      | succ k => rw [rmLoop, if_neg (by rw [hs]; exact not_le.2 ht)]
    exact hst k _ rfl _
  · have hcv' : ¬ (ray m s0 eps n rho c g (fun i => n i + c)
      ((rho + c * s0.I1 - (Y0 + H * s0.epp)) / m.y0) (rayFss n rho 0) (s23 * H)).rerr ≥ tolc := hcv
    rw [if_neg hcv', if_neg hcv, if_neg hcv]

end Verif.Plastic
