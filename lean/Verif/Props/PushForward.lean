/-
Property C25: push-forward of stress and tangent in `LinearMaterial`.
-/
import Verif.Model.NeoHooke
import Mathlib.Tactic.FieldSimp
import Mathlib.Tactic.Ring
import Mathlib.Tactic.NormNum
import Mathlib.Tactic.FinCases

set_option linter.unusedSectionVars false
set_option linter.unusedSimpArgs false
set_option linter.unusedVariables false
set_option linter.unnecessarySeqFocus false

namespace Verif.NeoHooke
variable {K : Type*} [Field K] [DecidableEq K]

/-- Position of a component of a symmetric tensor in 3D. -/
def vix3 : Fin 3 → Fin 3 → Fin 6 := ![![0, 3, 5], ![3, 1, 4], ![5, 4, 2]]

/-- Position of a component of a symmetric tensor in 2D. -/
def vix2 : Fin 2 → Fin 2 → Fin 3 := ![![0, 2], ![2, 1]]

/-- Summation over tensor components with two legs of the deformation gradient is the multiplication
by the matrix of the code. -/
theorem tmat_sum3 (h2 : (2 : K) ≠ 0) (F : Matrix (Fin 3) (Fin 3) K) (g : Fin 6 → K) (i j : Fin 3) :
    ∑ A : Fin 6, tmat 3 (fun i j => if h : i < 3 ∧ j < 3 then F ⟨i, h.1⟩ ⟨j, h.2⟩ else 0)
      A (vix3 i j) * g A = ∑ a, ∑ b, F i a * F j b * g (vix3 a b) := by
  simp only [Fin.sum_univ_three, Fin.sum_univ_six]
  fin_cases i <;> fin_cases j <;>
    · simp [vix3, tmat, nxt]
      field_simp
      ring

theorem tmat_sum2 (h2 : (2 : K) ≠ 0) (F : Matrix (Fin 2) (Fin 2) K) (g : Fin 3 → K) (i j : Fin 2) :
    ∑ A : Fin 3, tmat 2 (fun i j => if h : i < 2 ∧ j < 2 then F ⟨i, h.1⟩ ⟨j, h.2⟩ else 0)
      A (vix2 i j) * g A = ∑ a, ∑ b, F i a * F j b * g (vix2 a b) := by
  simp only [Fin.sum_univ_three, Fin.sum_univ_two]
  fin_cases i <;> fin_cases j <;>
    · simp [vix2, tmat, nxt]
      field_simp
      try ring

/-- C25 in three dimensions: the tangent returned is the push-forward
`c_ijkl = 1/J F_ia F_jb F_kc F_ld C_abcd` of the material tangent, and the stress the push-forward
`σ = 1/J F S Fᵀ` of the second Piola-Kirchhoff stress. Missing: axisymmetry
(`C25_axisymmetric_violated`), and the tangent of the plastic material. -/
theorem C25_push_partial (h2 : (2 : K) ≠ 0) (C : Matrix (Fin 6) (Fin 6) K)
    (S F : Matrix (Fin 3) (Fin 3) K) (hF : F.det ≠ 0) :
    ∃ c s, pushForward 3 C S F = .ok (c, s) ∧
      (∀ i j k l, c (vix3 i j) (vix3 k l) = 1 / F.det * ∑ a, ∑ b, ∑ c, ∑ d,
        F i a * F j b * F k c * F l d * C (vix3 a b) (vix3 c d)) ∧
      ∀ i j, s i j = 1 / F.det * ∑ a, ∑ b, F i a * F j b * S a b := by
  unfold pushForward
  rw [if_neg hF, if_neg (by omega)]
  refine ⟨_, _, rfl, ?_, ?_⟩
  · intro i j k l
    simp only [Matrix.smul_apply, smul_eq_mul, Matrix.mul_apply, Matrix.transpose_apply,
      Matrix.of_apply]
    congr 1
    have h := tmat_sum3 h2 F (fun A => ∑ B, C A B *
      tmat 3 (fun i j => if h : i < 3 ∧ j < 3 then F ⟨i, h.1⟩ ⟨j, h.2⟩ else 0) B (vix3 k l)) i j
    rw [h]
    refine Finset.sum_congr rfl fun a _ => Finset.sum_congr rfl fun b _ => ?_
    have h' := tmat_sum3 h2 F (fun B => C (vix3 a b) B) k l
    rw [show ∑ B : Fin 6, C (vix3 a b) B * tmat 3 (fun i j => if h : i < 3 ∧ j < 3 then F ⟨i, h.1⟩ ⟨j, h.2⟩
        else 0) B (vix3 k l) = ∑ B : Fin 6, tmat 3 (fun i j => if h : i < 3 ∧ j < 3 then
        F ⟨i, h.1⟩ ⟨j, h.2⟩ else 0) B (vix3 k l) * C (vix3 a b) B from
      Finset.sum_congr rfl fun B _ => mul_comm _ _, h']
    simp only [Finset.mul_sum]
    refine Finset.sum_congr rfl fun c _ => Finset.sum_congr rfl fun d _ => ?_
    ring
  · intro i j
    simp only [Matrix.smul_apply, smul_eq_mul, Matrix.mul_apply, Matrix.transpose_apply]
    congr 1
    simp only [Finset.sum_mul]
    rw [Finset.sum_comm]
    refine Finset.sum_congr rfl fun a _ => Finset.sum_congr rfl fun b _ => ?_
    ring

/-- C25 in two dimensions (three stress components). -/
theorem C25_push2_partial (h2 : (2 : K) ≠ 0) (C : Matrix (Fin 3) (Fin 3) K)
    (S F : Matrix (Fin 2) (Fin 2) K) (hF : F.det ≠ 0) :
    ∃ c s, pushForward 2 C S F = .ok (c, s) ∧
      (∀ i j k l, c (vix2 i j) (vix2 k l) = 1 / F.det * ∑ a, ∑ b, ∑ c, ∑ d,
        F i a * F j b * F k c * F l d * C (vix2 a b) (vix2 c d)) ∧
      ∀ i j, s i j = 1 / F.det * ∑ a, ∑ b, F i a * F j b * S a b := by
  unfold pushForward
  rw [if_neg hF, if_neg (by omega)]
  refine ⟨_, _, rfl, ?_, ?_⟩
  · intro i j k l
    simp only [Matrix.smul_apply, smul_eq_mul, Matrix.mul_apply, Matrix.transpose_apply,
      Matrix.of_apply]
    congr 1
    have h := tmat_sum2 h2 F (fun A => ∑ B, C A B *
      tmat 2 (fun i j => if h : i < 2 ∧ j < 2 then F ⟨i, h.1⟩ ⟨j, h.2⟩ else 0) B (vix2 k l)) i j
    rw [h]
    refine Finset.sum_congr rfl fun a _ => Finset.sum_congr rfl fun b _ => ?_
    have h' := tmat_sum2 h2 F (fun B => C (vix2 a b) B) k l
    rw [show ∑ B : Fin 3, C (vix2 a b) B * tmat 2 (fun i j => if h : i < 2 ∧ j < 2 then F ⟨i, h.1⟩ ⟨j, h.2⟩
        else 0) B (vix2 k l) = ∑ B : Fin 3, tmat 2 (fun i j => if h : i < 2 ∧ j < 2 then
        F ⟨i, h.1⟩ ⟨j, h.2⟩ else 0) B (vix2 k l) * C (vix2 a b) B from
      Finset.sum_congr rfl fun B _ => mul_comm _ _, h']
    simp only [Finset.mul_sum]
    refine Finset.sum_congr rfl fun c _ => Finset.sum_congr rfl fun d _ => ?_
    ring
  · intro i j
    simp only [Matrix.smul_apply, smul_eq_mul, Matrix.mul_apply, Matrix.transpose_apply]
    congr 1
    simp only [Finset.sum_mul]
    rw [Finset.sum_comm]
    refine Finset.sum_congr rfl fun a _ => Finset.sum_congr rfl fun b _ => ?_
    ring

theorem pull_sum (F D : Matrix (Fin 3) (Fin 3) K) (g : Fin 3 → Fin 3 → K) :
    ∑ i, ∑ j, D i j * ∑ a, ∑ b, F i a * F j b * g a b =
      ∑ a, ∑ b, (F.transpose * D * F) a b * g a b := by
  simp only [Matrix.mul_apply, Matrix.transpose_apply, Fin.sum_univ_three]
  ring

/-- C25: hence the push-forward keeps the minor and major symmetries of the tangent, and the energy
of every strain: `J d:c:d' = (FᵀdF):C:(Fᵀd'F)`. -/
theorem C25_energy (h2 : (2 : K) ≠ 0) (C : Matrix (Fin 6) (Fin 6) K)
    (S F D D' : Matrix (Fin 3) (Fin 3) K) (hF : F.det ≠ 0) :
    ∃ c s, pushForward 3 C S F = .ok (c, s) ∧
      F.det * (∑ i, ∑ j, ∑ k, ∑ l, D i j * D' k l * c (vix3 i j) (vix3 k l)) =
        ∑ a, ∑ b, ∑ c, ∑ d, (F.transpose * D * F) a b * (F.transpose * D' * F) c d *
          C (vix3 a b) (vix3 c d) ∧
      F.det * (∑ i, ∑ j, D i j * s i j) = ∑ a, ∑ b, (F.transpose * D * F) a b * S a b := by
  obtain ⟨c, s, h, hc, hs⟩ := C25_push_partial h2 C S F hF
  refine ⟨c, s, h, ?_, ?_⟩
  · have e : ∀ i j, ∑ k, ∑ l, D i j * D' k l * c (vix3 i j) (vix3 k l) =
        D i j * ∑ a, ∑ b, F i a * F j b * (1 / F.det * ∑ c, ∑ d, (F.transpose * D' * F) c d *
          C (vix3 a b) (vix3 c d)) := by
      intro i j
      have e1 : ∀ a b, ∑ c, ∑ d, (F.transpose * D' * F) c d * C (vix3 a b) (vix3 c d) =
          ∑ k, ∑ l, D' k l * ∑ c, ∑ d, F k c * F l d * C (vix3 a b) (vix3 c d) := fun a b =>
        (pull_sum F D' (fun c d => C (vix3 a b) (vix3 c d))).symm
      simp only [e1, hc]
      simp only [Finset.mul_sum]
      rw [show ∑ a, ∑ b, ∑ k, ∑ l, ∑ c, ∑ d, D i j * (F i a * F j b * (1 / F.det * (D' k l *
          (F k c * F l d * C (vix3 a b) (vix3 c d))))) = ∑ a, ∑ k, ∑ l, ∑ b, ∑ c, ∑ d,
          D i j * (F i a * F j b * (1 / F.det * (D' k l *
          (F k c * F l d * C (vix3 a b) (vix3 c d))))) from
        Finset.sum_congr rfl fun a _ => by
          rw [Finset.sum_comm]
          exact Finset.sum_congr rfl fun k _ => by rw [Finset.sum_comm]]
      symm
      rw [Finset.sum_comm]
      refine Finset.sum_congr rfl fun k _ => ?_
      rw [Finset.sum_comm]
      refine Finset.sum_congr rfl fun l _ => ?_
      refine Finset.sum_congr rfl fun a _ => Finset.sum_congr rfl fun b _ =>
        Finset.sum_congr rfl fun c _ => Finset.sum_congr rfl fun d _ => ?_
      ring
    simp only [e]
    rw [pull_sum]
    rw [Finset.mul_sum]
    refine Finset.sum_congr rfl fun a _ => ?_
    rw [Finset.mul_sum]
    refine Finset.sum_congr rfl fun b _ => ?_
    rw [show ∀ x y : K, F.det * (x * (1 / F.det * y)) = x * y from fun x y => by field_simp]
    simp only [Finset.mul_sum, mul_assoc]
  · have e : ∀ i j, D i j * s i j = D i j * ∑ a, ∑ b, F i a * F j b * (1 / F.det * S a b) := by
      intro i j
      rw [hs]
      congr 1
      simp only [Finset.mul_sum]
      refine Finset.sum_congr rfl fun a _ => Finset.sum_congr rfl fun b _ => ?_
      ring
    simp only [e]
    rw [pull_sum]
    simp only [Finset.mul_sum]
    refine Finset.sum_congr rfl fun a _ => Finset.sum_congr rfl fun b _ => ?_
    field_simp

/-- C25: a singular deformation gradient is reported as failure. -/
theorem C25_reject {d m : Nat} (n : Nat) (C : Matrix (Fin m) (Fin m) K)
    (S F : Matrix (Fin d) (Fin d) K) (hF : F.det = 0) : pushForward n C S F = .fail := by
  unfold pushForward; rw [if_pos hF]

/-- C25 is violated in axisymmetry, where the tangent has four rows (rr, zz, hoop, rz) but the stress
tensor dimension is two: the hoop and shear components are transformed as shear components of the
planes 12 and 23. For a pure stretch with ratios `a`, `b` and `c` of the three directions, the hoop
stiffness is scaled with `(ab)²` instead of `c⁴`, and the shear stiffness with `(bc)²` instead of
`(ab)²`. -/
theorem C25_axisymmetric_violated (a b c : K) (h : a * b * c ≠ 0) (h2 : (2 : K) ≠ 0)
    (C : Matrix (Fin 4) (Fin 4) K) (S : Matrix (Fin 3) (Fin 3) K) :
    ∃ c' s, pushForward 2 C S (Matrix.diagonal ![a, b, c]) = .ok (c', s) ∧
      c' 2 2 = 1 / (a * b * c) * ((a * b) ^ 2 * C 2 2) ∧
      c' 3 3 = 1 / (a * b * c) * ((b * c) ^ 2 * C 3 3) := by
  have hd : (Matrix.diagonal ![a, b, c]).det = a * b * c := by
    simp [Matrix.det_diagonal, Fin.prod_univ_three]
  unfold pushForward
  rw [hd, if_neg h, if_neg (by omega)]
  refine ⟨_, _, rfl, ?_, ?_⟩
  · simp [Matrix.mul_apply, Fin.sum_univ_four, tmat, nxt, Matrix.diagonal]
    left
    field_simp
    try ring
  · simp [Matrix.mul_apply, Fin.sum_univ_four, tmat, nxt, Matrix.diagonal]
    left
    field_simp
    try ring

/-- C25 is violated for a tangent with four rows and a plane deformation gradient: the components of
the third direction are read outside of it. -/
theorem C25_plane_violated (C : Matrix (Fin 4) (Fin 4) K) (S F : Matrix (Fin 2) (Fin 2) K)
    (h : F.det ≠ 0) : pushForward 2 C S F = .ub := by
  unfold pushForward; rw [if_neg h, if_pos (by omega)]

/-- A sheared and stretched state satisfies the hypotheses. -/
example : (!![2, 1, 0; 0, 1, 0; 0, 3, 1] : Matrix (Fin 3) (Fin 3) ℚ).det ≠ 0 ∧
    (!![2, 1; 0, 1] : Matrix (Fin 2) (Fin 2) ℚ).det ≠ 0 ∧ (2 : ℚ) * 3 * 5 ≠ 0 := by
  refine ⟨?_, ?_, by norm_num⟩
  · simp [Matrix.det_fin_three]
  · simp [Matrix.det_fin_two]

end Verif.NeoHooke
