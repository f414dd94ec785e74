/-
C28 (surface loads on the deformed surface), C67 (internal forces of the total and the updated
Lagrangian formulation) and C68 (mass and body loads of a deformed element).
-/
import Verif.Proofs.FiniteDef
import Verif.Spec.FiniteDef
import Verif.Props.Continuum
import Mathlib.LinearAlgebra.Matrix.NonsingularInverse
import Mathlib.Tactic.NormNum
import Mathlib.Tactic.FieldSimp
import Mathlib.Tactic.Linarith
import Mathlib.Tactic.LinearCombination

set_option linter.unusedSectionVars false
set_option linter.unnecessarySeqFocus false
set_option linter.unusedSimpArgs false
set_option linter.unusedVariables false

namespace Verif.Finite

open Verif.Cont Verif.ContSpec Verif.FiniteSpec

variable {K : Type*} [Field K] [LinearOrder K]

/-! ### C28 -/

/-- The entries of the determinant times the inverse. -/
theorem det_inv (d : Nat) (F : Nat → Nat → K) (h : (lead d F).det ≠ 0) (i j : Nat)
    (hi : i < d) (hj : j < d) :
    (lead d F).det * inv d F (i + 1) (j + 1) = (lead d F).adjugate ⟨i, hi⟩ ⟨j, hj⟩ := by
  unfold inv
  rw [dif_pos ⟨by omega, by omega, by omega, by omega⟩]
  simp only [Nat.add_sub_cancel]
  rw [← mul_assoc, mul_inv_cancel₀ h, one_mul]

/-- Image of a tangent vector of a surface. -/
def img {d : Nat} (F : Nat → Nat → K) (A : Fin d → K) : Fin d → K := (lead d F).mulVec A

theorem nanson3 (F : Nat → Nat → K) (h : (lead 3 F).det ≠ 0) (p s : K) (n A1 A2 : Fin 3 → K)
    (hn : ∀ i, s * n i = cross A1 A2 i) (T : Nat → K) (hT : ∀ i : Fin 3, T (i + 1) = p * n i)
    (i : Fin 3) :
    s * pullBack 3 (lead 3 F).det (inv 3 F) T (i + 1) = p * cross (img F A1) (img F A2) i := by
  have t0 := hT 0
  have t1 := hT 1
  have t2 := hT 2
  have n0 := hn 0
  have n1 := hn 1
  have n2 := hn 2
  simp only [Fin.val_zero, Fin.val_one, Fin.val_two, zero_add, Nat.reduceAdd] at t0 t1 t2
  have key : ∀ j : Nat, (hj : j < 3) → s * pullBack 3 (lead 3 F).det (inv 3 F) T (j + 1)
      = p * ∑ k : Fin 3, (s * n k) * (lead 3 F).adjugate k ⟨j, hj⟩ := by
    intro j hj
    unfold pullBack
    rw [if_pos (by omega)]
    simp only [Finset.sum_range_succ, Finset.sum_range_zero, zero_add, Fin.sum_univ_three]
    rw [t0, show T (1 + 1) = _ from t1, show T (2 + 1) = _ from t2]
    have a0 : (lead 3 F).det * inv 3 F (0 + 1) (j + 1) = (lead 3 F).adjugate 0 ⟨j, by omega⟩ :=
      det_inv 3 F h 0 j (by omega) (by omega)
    have a1 : (lead 3 F).det * inv 3 F (1 + 1) (j + 1) = (lead 3 F).adjugate 1 ⟨j, by omega⟩ :=
      det_inv 3 F h 1 j (by omega) (by omega)
    have a2 : (lead 3 F).det * inv 3 F (2 + 1) (j + 1) = (lead 3 F).adjugate 2 ⟨j, by omega⟩ :=
      det_inv 3 F h 2 j (by omega) (by omega)
    simp only [zero_add] at a0
    linear_combination (s * p * n 0) * a0 + (s * p * n 1) * a1 + (s * p * n 2) * a2
  rw [key i.1 i.2]
  refine congrArg (p * ·) ?_
  simp only [Fin.sum_univ_three, n0, n1, n2, Matrix.adjugate_fin_three]
  fin_cases i <;>
    simp [cross, img, lead, Matrix.mulVec, dotProduct, Fin.sum_univ_three, Matrix.of_apply] <;> ring

theorem nanson2 (F : Nat → Nat → K) (h : (lead 2 F).det ≠ 0) (p s : K) (n A : Fin 2 → K)
    (hn : ∀ i, s * n i = rot A i) (T : Nat → K) (hT : ∀ i : Fin 2, T (i + 1) = p * n i)
    (i : Fin 2) :
    s * pullBack 2 (lead 2 F).det (inv 2 F) T (i + 1) = p * rot (img F A) i := by
  have t0 := hT 0
  have t1 := hT 1
  have n0 := hn 0
  have n1 := hn 1
  simp only [Fin.val_zero, Fin.val_one, zero_add, Nat.reduceAdd] at t0 t1
  have key : ∀ j : Nat, (hj : j < 2) → s * pullBack 2 (lead 2 F).det (inv 2 F) T (j + 1)
      = p * ∑ k : Fin 2, (s * n k) * (lead 2 F).adjugate k ⟨j, hj⟩ := by
    intro j hj
    unfold pullBack
    rw [if_pos (by omega)]
    simp only [Finset.sum_range_succ, Finset.sum_range_zero, zero_add, Fin.sum_univ_two]
    rw [t0, show T (1 + 1) = _ from t1]
    have a0 : (lead 2 F).det * inv 2 F (0 + 1) (j + 1) = (lead 2 F).adjugate 0 ⟨j, by omega⟩ :=
      det_inv 2 F h 0 j (by omega) (by omega)
    have a1 : (lead 2 F).det * inv 2 F (1 + 1) (j + 1) = (lead 2 F).adjugate 1 ⟨j, by omega⟩ :=
      det_inv 2 F h 1 j (by omega) (by omega)
    simp only [zero_add] at a0
    linear_combination (s * p * n 0) * a0 + (s * p * n 1) * a1
  rw [key i.1 i.2]
  refine congrArg (p * ·) ?_
  simp only [Fin.sum_univ_two, n0, n1, Matrix.adjugate_fin_two]
  fin_cases i <;>
    simp [rot, img, lead, Matrix.mulVec, dotProduct, Fin.sum_univ_two, Matrix.of_apply] <;> ring

/-- The deformation gradient of an axisymmetric deformation. -/
structure Axi (F : Nat → Nat → K) : Prop where
  h13 : F 1 3 = 0
  h23 : F 2 3 = 0
  h31 : F 3 1 = 0
  h32 : F 3 2 = 0

theorem nansonAxi (F : Nat → Nat → K) (hF : Axi F) (h : (lead 3 F).det ≠ 0) (p s : K)
    (n A : Fin 2 → K)
    (hn : ∀ i, s * n i = rot A i) (T : Nat → K) (hT : ∀ i : Fin 2, T (i + 1) = p * n i)
    (i : Fin 2) :
    s * pullBack 2 (lead 3 F).det (inv 3 F) T (i + 1) = p * (F 3 3 * rot (img F A) i) := by
  have t0 := hT 0
  have t1 := hT 1
  have n0 := hn 0
  have n1 := hn 1
  simp only [Fin.val_zero, Fin.val_one, zero_add, Nat.reduceAdd] at t0 t1
  have key : ∀ j : Nat, (hj : j < 2) → s * pullBack 2 (lead 3 F).det (inv 3 F) T (j + 1)
      = p * ((s * n 0) * (lead 3 F).adjugate 0 ⟨j, by omega⟩
        + (s * n 1) * (lead 3 F).adjugate 1 ⟨j, by omega⟩) := by
    intro j hj
    unfold pullBack
    rw [if_pos (by omega)]
    simp only [Finset.sum_range_succ, Finset.sum_range_zero, zero_add]
    rw [t0, show T (1 + 1) = _ from t1]
    have a0 : (lead 3 F).det * inv 3 F (0 + 1) (j + 1) = (lead 3 F).adjugate 0 ⟨j, by omega⟩ :=
      det_inv 3 F h 0 j (by omega) (by omega)
    have a1 : (lead 3 F).det * inv 3 F (1 + 1) (j + 1) = (lead 3 F).adjugate 1 ⟨j, by omega⟩ :=
      det_inv 3 F h 1 j (by omega) (by omega)
    simp only [zero_add] at a0
    linear_combination (s * p * n 0) * a0 + (s * p * n 1) * a1
  rw [key i.1 i.2]
  refine congrArg (p * ·) ?_
  simp only [n0, n1, Matrix.adjugate_fin_three]
  fin_cases i <;>
    simp [rot, img, lead, Matrix.mulVec, dotProduct, Fin.sum_univ_two, Matrix.of_apply, hF.h13,
      hF.h23, hF.h31, hF.h32] <;> ring

/-- C28, pressure on a solid: with tangent vectors `A1`, `A2` of the undeformed surface, area vector
`A1 × A2 = s n` and traction `p n`, the force on the surface element is `p` times the area vector of
the deformed surface element. It holds for both formulations where the pressure is followed. -/
theorem C28_pressure_3d (F : Nat → Nat → K) (h : 0 < (lead 3 F).det) (p s w : K)
    (n A1 A2 : Fin 3 → K) (hn : ∀ i, s * n i = cross A1 A2 i) (T : Nat → K)
    (hT : ∀ i : Fin 3, T (i + 1) = p * n i) :
    ∃ T', tlTraction 3 3 true F T w = .ok (T', w) ∧ ulTraction 3 3 1 true F T w = .ok (T', w) ∧
      ∀ i : Fin 3, s * T' (i + 1) = p * cross (img F A1) (img F A2) i := by
  refine ⟨pullBack 3 (lead 3 F).det (inv 3 F) T, ?_, ?_, nanson3 F h.ne' p s n A1 A2 hn T hT⟩
  · simp only [tlTraction, if_true]
    rw [if_neg (not_le.mpr h)]
  · simp only [ulTraction, if_true]
    rw [if_neg h.ne']

/-- C28, pressure in the plane: the boundary has the tangent `A` and the normal `rot A = s n`. -/
theorem C28_pressure_2d (F : Nat → Nat → K) (h : 0 < (lead 2 F).det) (p s w : K)
    (n A : Fin 2 → K) (hn : ∀ i, s * n i = rot A i) (T : Nat → K)
    (hT : ∀ i : Fin 2, T (i + 1) = p * n i) :
    ∃ T', tlTraction 2 2 true F T w = .ok (T', w) ∧ ulTraction 2 2 1 true F T w = .ok (T', w) ∧
      ∀ i : Fin 2, s * T' (i + 1) = p * rot (img F A) i := by
  refine ⟨pullBack 2 (lead 2 F).det (inv 2 F) T, ?_, ?_, nanson2 F h.ne' p s n A hn T hT⟩
  · simp only [tlTraction, if_true]
    rw [if_neg (not_le.mpr h)]
  · simp only [ulTraction, if_true]
    rw [if_neg h.ne']

/-- C28, pressure in axisymmetry: the deformed boundary has the length `rot (F A)` and the
circumference is scaled with the hoop stretch `F 3 3`. -/
theorem C28_pressure_axi (F : Nat → Nat → K) (hF : Axi F) (h : 0 < (lead 3 F).det) (p s w : K)
    (n A : Fin 2 → K) (hn : ∀ i, s * n i = rot A i) (T : Nat → K)
    (hT : ∀ i : Fin 2, T (i + 1) = p * n i) :
    ∃ T', tlTraction 2 3 true F T w = .ok (T', w) ∧ ulTraction 2 3 1 true F T w = .ok (T', w) ∧
      ∀ i : Fin 2, s * T' (i + 1) = p * (F 3 3 * rot (img F A) i) := by
  refine ⟨pullBack 2 (lead 3 F).det (inv 3 F) T, ?_, ?_, nansonAxi F hF h.ne' p s n A hn T hT⟩
  · simp only [tlTraction, if_true]
    rw [if_neg (not_le.mpr h)]
  · simp only [ulTraction, if_true]
    rw [if_neg h.ne']

/-- A simple shear with volume change, and the first coordinate plane, meet the hypotheses. -/
def exF (i j : Nat) : ℚ := if i = j then (if i = 3 then 2 else 1) else if i = 1 ∧ j = 2 then 3 else 0

example : 0 < (lead 3 exF).det ∧ 0 < (lead 2 exF).det ∧ Axi exF ∧
    (∀ i, (1 : ℚ) * (![0, 0, 1] : Fin 3 → ℚ) i = cross ![1, 0, 0] ![0, 1, 0] i) ∧
    (∀ i, (1 : ℚ) * (![0, -1] : Fin 2 → ℚ) i = rot ![1, 0] i) := by
  refine ⟨?_, ?_, ⟨rfl, rfl, rfl, rfl⟩, ?_, ?_⟩
  · simp [Matrix.det_fin_three, lead, exF]
  · simp [Matrix.det_fin_two, lead, exF]
  · intro i; fin_cases i <;> simp [cross]
  · intro i; fin_cases i <;> simp [rot]

/-- C28: tractions that are not normal pressures act as dead loads per undeformed area in the total
Lagrangian formulation, and so do all tractions in the updated Lagrangian formulation unless its
load option is 1. -/
theorem C28_dead (nsd nDF lop : Nat) (np : Bool) (F : Nat → Nat → K) (T : Nat → K) (w : K)
    (hl : lop ≠ 1) :
    tlTraction nsd nDF false F T w = .ok (T, w) ∧ ulTraction nsd nDF lop np F T w = .ok (T, w) := by
  constructor
  · simp [tlTraction]
  · unfold ulTraction; rw [if_neg hl]

/-- C28: an inverted element (total Lagrangian) or a singular one (updated Lagrangian) is reported. -/
theorem C28_reject (nsd nDF : Nat) (F : Nat → Nat → K) (T : Nat → K) (w : K) :
    ((lead nDF F).det ≤ 0 → tlTraction nsd nDF true F T w = .fail) ∧
    ((lead nDF F).det = 0 → ulTraction nsd nDF 1 true F T w = .fail) := by
  constructor
  · intro h; simp [tlTraction, h]
  · intro h; simp [ulTraction, h]

/-- C28 is violated for tractions other than normal pressures in the updated Lagrangian formulation
with load option 1: the load is scaled with the ratio of volumes instead of the ratio of areas. For
a stretch by 2 along the normal of a unit square surface, the area is unchanged but the load is
doubled. -/
theorem C28_traction_violated (T : Nat → ℚ) (w : ℚ) :
    let F : Nat → Nat → ℚ := fun i j => if i = j then (if i = 1 then 2 else 1) else 0
    cross (img F ![0, 1, 0]) (img F ![0, 0, 1]) = cross (![0, 1, 0] : Fin 3 → ℚ) ![0, 0, 1] ∧
      ulTraction 3 3 1 false F T w = .ok (T, 2 * w) := by
  intro F
  constructor
  · ext i
    fin_cases i <;>
      simp [cross, img, lead, F, Matrix.mulVec, dotProduct, Fin.sum_univ_three]
  · have e : (lead 3 F).det = 2 := by
      simp [Matrix.det_fin_three, lead, F]
    simp only [ulTraction, if_true, Bool.false_eq_true, if_false]
    rw [e, mul_comm]

/-- C28 is violated for pressures in the updated Lagrangian formulation with its default load option:
the force on a surface element stretched by 3 in one tangential direction is that of the undeformed
one. -/
theorem C28_default_violated (w : ℚ) :
    let F : Nat → Nat → ℚ := fun i j => if i = j then (if i = 2 then 3 else 1) else 0
    let T : Nat → ℚ := fun i => if i = 1 then 1 else 0
    ulTraction 3 3 0 true F T w = .ok (T, w) ∧ T 1 = 1 ∧
      cross (img F ![0, 1, 0]) (img F ![0, 0, 1]) 0 = 3 := by
  intro F T
  refine ⟨by simp [ulTraction], rfl, ?_⟩
  simp [cross, img, lead, F, Matrix.mulVec, dotProduct, Fin.sum_univ_three]

end Verif.Finite
