/-
C53: local coordinate systems for result output.
-/
import Verif.Model.LocalSystems
import Verif.Props.Bar
import Mathlib.LinearAlgebra.Matrix.Trace
import Mathlib.LinearAlgebra.Matrix.NonsingularInverse
import Mathlib.Tactic.FinCases
import Mathlib.Tactic.FieldSimp
import Mathlib.Tactic.Linarith
import Mathlib.Tactic.LinearCombination
import Mathlib.Tactic.Positivity

set_option linter.unusedSimpArgs false
set_option linter.unusedVariables false
set_option linter.unnecessarySeqFocus false

namespace Verif.LocalCS

open Verif.Beam (V3)
open Verif.Bar (len cross len_sq)

/-- Specification: the rows are orthonormal and right-handed. -/
def RightHanded (T : Fin 3 → V3 ℝ) : Prop :=
  (∀ i j, T i 0 * T j 0 + T i 1 * T j 1 + T i 2 * T j 2 = if i = j then 1 else 0) ∧
  T 2 = ![T 0 1 * T 1 2 - T 0 2 * T 1 1, T 0 2 * T 1 0 - T 0 0 * T 1 2, T 0 0 * T 1 1 - T 0 1 * T 1 0]

theorem radius (x y : ℝ) (h : x ≠ 0 ∨ y ≠ 0) :
    0 < Real.sqrt (x * x + y * y) ∧ Real.sqrt (x * x + y * y) ^ 2 = x * x + y * y := by
  have hp : 0 < x * x + y * y := by
    rcases h with h | h
    · have := mul_self_pos.2 h; nlinarith [mul_self_nonneg y]
    · have := mul_self_pos.2 h; nlinarith [mul_self_nonneg x]
  exact ⟨Real.sqrt_pos.2 hp, Real.sq_sqrt hp.le⟩

/-- C53: the cylindrical system, outside the axis. Its first axis points away from the z-axis, its third along it. -/
theorem C53_cylinder (X : V3 ℝ) (h : X 0 ≠ 0 ∨ X 1 ≠ 0) :
    RightHanded (cylinder X) ∧ cylinder X 2 = ![0, 0, 1] ∧
    ∃ r > 0, r ^ 2 = X 0 ^ 2 + X 1 ^ 2 ∧ cylinder X 0 = ![X 0 / r, X 1 / r, 0] := by
  obtain ⟨h1, h2⟩ := radius _ _ h
  refine ⟨?_, rfl, _, h1, by rw [h2]; ring, rfl⟩
  unfold cylinder
  generalize Real.sqrt (X 0 * X 0 + X 1 * X 1) = r at h1 h2
  have hr := h1.ne'
  constructor
  · intro i j
    fin_cases i <;> fin_cases j <;> simp <;> field_simp <;> linarith
  · funext k
    fin_cases k <;> simp
    field_simp
    linarith

theorem unit_vec (v : V3 ℝ) (h : v ≠ 0) : 0 < len v ∧ len v * len v = v 0 * v 0 + v 1 * v 1 + v 2 * v 2 := by
  have h2 := len_sq v
  refine ⟨?_, h2⟩
  have : 0 ≤ len v := Real.sqrt_nonneg _
  rcases this.lt_or_eq with h3 | h3
  · exact h3
  · exfalso
    apply h
    rw [← h3] at h2
    have a0 : v 0 = 0 := by nlinarith [mul_self_nonneg (v 0), mul_self_nonneg (v 1), mul_self_nonneg (v 2)]
    have a1 : v 1 = 0 := by nlinarith [mul_self_nonneg (v 0), mul_self_nonneg (v 1), mul_self_nonneg (v 2)]
    have a2 : v 2 = 0 := by nlinarith [mul_self_nonneg (v 0), mul_self_nonneg (v 1), mul_self_nonneg (v 2)]
    funext k
    fin_cases k <;> simp [a0, a1, a2]

/-- C53: the cylindrical part (patch 1) of the system for a cylinder with spherical cap: axes -z, theta and r. -/
theorem C53_cylinderPart (h : ℝ) (X : V3 ℝ) (hX : X 0 ≠ 0 ∨ X 1 ≠ 0) :
    RightHanded (cylinderSphere h 1 X) ∧ cylinderSphere h 1 X 0 = ![0, 0, -1] ∧
    ∃ r > 0, r ^ 2 = X 0 ^ 2 + X 1 ^ 2 ∧ cylinderSphere h 1 X 2 = ![X 0 / r, X 1 / r, 0] := by
  obtain ⟨h1, h2⟩ := radius _ _ hX
  unfold cylinderSphere
  simp only [if_true]
  generalize Real.sqrt (X 0 * X 0 + X 1 * X 1) = r at h1 h2
  have hr := h1.ne'
  refine ⟨?_, rfl, r, h1, by rw [h2]; ring, ?_⟩
  · constructor
    · intro i j
      fin_cases i <;> fin_cases j <;> simp <;> field_simp <;> linarith
    · funext k
      fin_cases k <;> simp
  · funext k
    fin_cases k <;> simp
    ring

theorem angle (x y : ℝ) : ∃ c s : ℝ, Real.cos (Complex.arg ⟨x, y⟩) = c ∧ Real.sin (Complex.arg ⟨x, y⟩) = s ∧
    c ^ 2 + s ^ 2 = 1 ∧ x = Real.sqrt (x * x + y * y) * c ∧ y = Real.sqrt (x * x + y * y) * s := by
  refine ⟨_, _, rfl, rfl, by rw [add_comm]; exact Real.sin_sq_add_cos_sq _, ?_, ?_⟩
  all_goals
    by_cases hz : (⟨x, y⟩ : ℂ) = 0
    · have e0 := congrArg Complex.re hz; have e1 := congrArg Complex.im hz
      simp at e0 e1; simp [e0, e1]
    · obtain ⟨r1, r2⟩ := radius x y (by
        by_contra hh; push Not at hh; exact hz (Complex.ext hh.1 hh.2))
      have : ‖(⟨x, y⟩ : ℂ)‖ = Real.sqrt (x * x + y * y) := by
        rw [Complex.norm_def]; congr 1
      first
        | rw [Complex.cos_arg hz, this, mul_div_cancel₀ _ r1.ne']
        | rw [Complex.sin_arg, this, mul_div_cancel₀ _ r1.ne']

theorem sphere_form (h : ℝ) (p : Nat) (hp : p ≠ 1) (X : V3 ℝ) (hX : ¬ (X 0 = 0 ∧ X 1 = 0 ∧ X 2 = h)) :
    ∃ c s q R : ℝ, c ^ 2 + s ^ 2 = 1 ∧ 0 < R ∧ R ^ 2 = q ^ 2 + (X 2 - h) ^ 2 ∧ X 0 = q * c ∧ X 1 = q * s ∧
      cylinderSphere h p X = ![![c * ((X 2 - h) / R), s * ((X 2 - h) / R), -(q / R)],
        cross ![X 0 / R, X 1 / R, (X 2 - h) / R] ![c * ((X 2 - h) / R), s * ((X 2 - h) / R), -(q / R)],
        ![X 0 / R, X 1 / R, (X 2 - h) / R]] := by
  have hv : (![X 0, X 1, X 2 - h] : V3 ℝ) ≠ 0 := by
    intro e
    apply hX
    have e0 := congrFun e 0
    have e1 := congrFun e 1
    have e2 := congrFun e 2
    simp at e0 e1 e2
    exact ⟨e0, e1, by linarith⟩
  obtain ⟨h1, h2⟩ := unit_vec _ hv
  obtain ⟨c, s, hc, hs, hcs, hx, hy⟩ := angle (X 0) (X 1)
  set R := len ![X 0, X 1, X 2 - h] with hR
  simp only [Matrix.cons_val_zero, Matrix.cons_val_one, Matrix.cons_val] at h2
  have hr := h1.ne'
  have b : -1 ≤ (X 2 - h) / R ∧ (X 2 - h) / R ≤ 1 := by
    have : ((X 2 - h) / R) ^ 2 ≤ 1 := by
      rw [div_pow, div_le_one (by positivity)]
      nlinarith [mul_self_nonneg (X 0), mul_self_nonneg (X 1)]
    constructor <;> nlinarith
  set q := Real.sqrt (X 0 * X 0 + X 1 * X 1) with hq
  have hq0 : 0 ≤ q := Real.sqrt_nonneg _
  have hqR : R ^ 2 = q ^ 2 + (X 2 - h) ^ 2 := by
    rw [sq, h2, hq, Real.sq_sqrt (by nlinarith [mul_self_nonneg (X 0), mul_self_nonneg (X 1)])]
    ring
  have hcp : Real.cos (Real.arccos ((X 2 - h) / R)) = (X 2 - h) / R := Real.cos_arccos b.1 b.2
  have hsp : Real.sin (Real.arccos ((X 2 - h) / R)) = q / R := by
    rw [Real.sin_arccos, show 1 - ((X 2 - h) / R) ^ 2 = (q / R) ^ 2 by field_simp; linarith]
    exact Real.sqrt_sq (by positivity)
  refine ⟨c, s, q, R, hcs, h1, hqR, hx, hy, ?_⟩
  have e3 : (fun i => (![X 0, X 1, X 2 - h] : V3 ℝ) i / R) = ![X 0 / R, X 1 / R, (X 2 - h) / R] := by
    funext i; fin_cases i <;> rfl
  unfold cylinderSphere
  rw [if_neg hp]
  simp only [← hR, e3, hc, hs]
  have e4 : (![X 0, X 1, X 2 - h] : V3 ℝ) 2 = X 2 - h := rfl
  rw [e4, hcp, hsp]

/-- C53: the spherical part (other patches), everywhere outside the centre of the sphere: the third axis points away from the centre,
and the second is horizontal. -/
theorem C53_spherePart (h : ℝ) (p : Nat) (hp : p ≠ 1) (X : V3 ℝ) (hX : ¬ (X 0 = 0 ∧ X 1 = 0 ∧ X 2 = h)) :
    RightHanded (cylinderSphere h p X) ∧ cylinderSphere h p X 1 2 = 0 ∧
    ∃ r > 0, r ^ 2 = X 0 ^ 2 + X 1 ^ 2 + (X 2 - h) ^ 2 ∧
      cylinderSphere h p X 2 = ![X 0 / r, X 1 / r, (X 2 - h) / r] := by
  obtain ⟨c, s, q, R, hcs, hR, hq, hx, hy, e⟩ := sphere_form h p hp X hX
  rw [e, hx, hy]
  generalize X 2 - h = z at hq
  have hs2 : s ^ 2 = 1 - c ^ 2 := by linarith
  have hz2 : z ^ 2 = R ^ 2 - q ^ 2 := by linarith
  have hr := hR.ne'
  refine ⟨⟨?_, ?_⟩, ?_, R, hR, by rw [hq, mul_pow, mul_pow, hs2]; ring, ?_⟩
  · intro i j
    fin_cases i <;> fin_cases j <;> simp [cross] <;> field_simp <;> ring_nf <;>
      simp only [hs2, hz2, show s ^ 4 = (s ^ 2) ^ 2 by ring, show z ^ 4 = (z ^ 2) ^ 2 by ring,
        show s ^ 3 = s ^ 2 * s by ring, show z ^ 3 = z ^ 2 * z by ring] <;> ring
  · funext k
    fin_cases k <;> simp [cross] <;> field_simp <;> ring_nf <;>
      simp only [hs2, hz2, show s ^ 3 = s ^ 2 * s by ring, show z ^ 3 = z ^ 2 * z by ring] <;> ring
  · simp [cross]; field_simp; ring
  · rfl

/-- The systems in concrete points, also above the centre of the sphere. -/
example : RightHanded (cylinder ![3, 4, 5]) ∧ RightHanded (cylinderSphere 1 1 ![3, 4, 5]) ∧
    RightHanded (cylinderSphere 1 2 ![3, 4, 5]) ∧ RightHanded (cylinderSphere 1 2 ![0, 0, 2]) :=
  ⟨(C53_cylinder _ (by norm_num)).1, (C53_cylinderPart _ _ (by norm_num)).1, (C53_spherePart _ _ (by decide) _ (by norm_num)).1,
    (C53_spherePart _ _ (by decide) _ (by simp)).1⟩

/-- C53: with right-handed axes the invariants of a symmetric stress tensor `S` do not depend on the output system: the sum of the
normal stresses and the sum of the squares of all components of `T S T^t` are those of `S`. -/
theorem C53_invariants (T : Fin 3 → V3 ℝ) (hT : RightHanded T) (S : Fin 3 → Fin 3 → ℝ) :
    let S' : Fin 3 → Fin 3 → ℝ := fun i j => ∑ k, ∑ l, T i k * S k l * T j l
    ∑ i, S' i i = ∑ i, S i i ∧ ∑ i, ∑ j, S' i j ^ 2 = ∑ i, ∑ j, S i j ^ 2 := by
  intro S'
  -- the columns are orthonormal as well
  have hM : (Matrix.of T) * (Matrix.of T).transpose = 1 := by
    ext i j
    rw [Matrix.mul_apply, Fin.sum_univ_three]
    simpa [Matrix.one_apply] using hT.1 i j
  have hM' : (Matrix.of T).transpose * (Matrix.of T) = 1 := mul_eq_one_comm.1 hM
  have hS : Matrix.of S' = Matrix.of T * Matrix.of S * (Matrix.of T).transpose := by
    ext i j
    simp only [Matrix.mul_apply, Matrix.of_apply, Matrix.transpose_apply, S', Finset.sum_mul]
    rw [Finset.sum_comm]
  constructor
  · have : (Matrix.of S').trace = (Matrix.of S).trace := by
      rw [hS, Matrix.trace_mul_comm, ← Matrix.mul_assoc, hM', Matrix.one_mul]
    simpa [Matrix.trace] using this
  · have e : ∀ A : Fin 3 → Fin 3 → ℝ, ∑ i, ∑ j, A i j ^ 2 = (Matrix.of A * (Matrix.of A).transpose).trace := by
      intro A
      simp [Matrix.trace, Matrix.mul_apply, sq]
    rw [e, e, hS, Matrix.transpose_mul, Matrix.transpose_mul, Matrix.transpose_transpose]
    rw [show Matrix.of T * Matrix.of S * (Matrix.of T).transpose * (Matrix.of T * ((Matrix.of S).transpose * (Matrix.of T).transpose)) =
      Matrix.of T * (Matrix.of S * ((Matrix.of T).transpose * Matrix.of T) * (Matrix.of S).transpose) * (Matrix.of T).transpose by
        simp only [Matrix.mul_assoc]]
    rw [hM', Matrix.mul_one, Matrix.trace_mul_comm, ← Matrix.mul_assoc, hM', Matrix.one_mul]

end Verif.LocalCS
