/-
C34: the projection of the constitutive matrix in the mixed formulation.
-/
import Verif.Model.Mixed
import Mathlib.Tactic.Linarith
import Mathlib.Tactic.NormNum
import Mathlib.Tactic.Ring
import Mathlib.Tactic.FieldSimp
import Mathlib.Tactic.IntervalCases
import Mathlib.Tactic.FinCases
import Mathlib.Data.Matrix.Mul

set_option linter.unusedSectionVars false
set_option linter.unnecessarySeqFocus false
set_option linter.unusedSimpArgs false
set_option linter.unusedVariables false

namespace Verif.Mixed

variable {K : Type*} [Field K]

/-! ### Specification (components xx, yy, zz, xy, yz, xz) -/

/-- The identity tensor. -/
def one6 (i : Nat) : K := if i ≤ 3 then 1 else 0

/-- The deviatoric projector: identity minus one third of the trace. -/
def dev6 (i j : Nat) : K := (if i = j then 1 else 0) - one6 i * one6 j / 3

/-- Product over the six components. -/
def sum6 (f : Nat → K) : K := ∑ k ∈ Finset.range 6, f (k + 1)

/-- The symmetric fourth order identity (engineering shear strains). -/
def sym6 (i j : Nat) : K := if i = j then (if i ≤ 3 then 1 else 1 / 2) else 0

/-! ### The projection -/

theorem project_entries [CharZero K] (C : Nat → Nat → K) :
    ∃ e, project ⟨7, 7, fun i j => if i ≤ 6 ∧ j ≤ 6 then C i j else 0⟩ = .ok ⟨7, 7, e⟩ ∧
      (∀ i j, 1 ≤ i → i ≤ 6 → 1 ≤ j → j ≤ 6 → e i j
        = C i j - (C i 1 + C i 2 + C i 3) * one6 j / 3
        - one6 i * (C 1 j - (C 1 1 + C 1 2 + C 1 3) * one6 j / 3
          + (C 2 j - (C 2 1 + C 2 2 + C 2 3) * one6 j / 3)
          + (C 3 j - (C 3 1 + C 3 2 + C 3 3) * one6 j / 3)) / 3) ∧
      (∀ i, 1 ≤ i → i ≤ 6 → e i 7
        = (C i 1 + C i 2 + C i 3 - one6 i * (C 1 1 + C 1 2 + C 1 3 + (C 2 1 + C 2 2 + C 2 3)
        + (C 3 1 + C 3 2 + C 3 3)) / 3) / 3) ∧
      (∀ j, 1 ≤ j → j ≤ 6 → e 7 j
        = ((C 1 j - (C 1 1 + C 1 2 + C 1 3) * one6 j / 3)
        + (C 2 j - (C 2 1 + C 2 2 + C 2 3) * one6 j / 3)
        + (C 3 j - (C 3 1 + C 3 2 + C 3 3) * one6 j / 3)) / 3) ∧
      e 7 7 = (C 1 1 + C 1 2 + C 1 3 + (C 2 1 + C 2 2 + C 2 3) + (C 3 1 + C 3 2 + C 3 3)) / 9 := by
  refine ⟨_, rfl, ?_, ?_, ?_, ?_⟩
  · intro i j i1 i2 j1 j2
    interval_cases i <;> interval_cases j
    · show (((C 1 1 + -((C 1 1 + C 1 2 + C 1 3) / 3)) + -((C 1 1 + C 2 1 + C 3 1) / 3)) + ((((C 1 1 + C 1 2 + C 1 3) / 3) + ((C 2 1 + C 2 2 + C 2 3) / 3) + ((C 3 1 + C 3 2 + C 3 3) / 3)) / 3)) = _
      simp only [one6, Nat.reduceLeDiff, if_true, if_false]; ring
    · show (((C 1 2 + -((C 1 1 + C 1 2 + C 1 3) / 3)) + -((C 1 2 + C 2 2 + C 3 2) / 3)) + ((((C 1 1 + C 1 2 + C 1 3) / 3) + ((C 2 1 + C 2 2 + C 2 3) / 3) + ((C 3 1 + C 3 2 + C 3 3) / 3)) / 3)) = _
      simp only [one6, Nat.reduceLeDiff, if_true, if_false]; ring
    · show (((C 1 3 + -((C 1 1 + C 1 2 + C 1 3) / 3)) + -((C 1 3 + C 2 3 + C 3 3) / 3)) + ((((C 1 1 + C 1 2 + C 1 3) / 3) + ((C 2 1 + C 2 2 + C 2 3) / 3) + ((C 3 1 + C 3 2 + C 3 3) / 3)) / 3)) = _
      simp only [one6, Nat.reduceLeDiff, if_true, if_false]; ring
    · show (C 1 4 + -((C 1 4 + C 2 4 + C 3 4) / 3)) = _
      simp only [one6, Nat.reduceLeDiff, if_true, if_false]; ring
    · show (C 1 5 + -((C 1 5 + C 2 5 + C 3 5) / 3)) = _
      simp only [one6, Nat.reduceLeDiff, if_true, if_false]; ring
    · show (C 1 6 + -((C 1 6 + C 2 6 + C 3 6) / 3)) = _
      simp only [one6, Nat.reduceLeDiff, if_true, if_false]; ring
    · show (((C 2 1 + -((C 1 1 + C 2 1 + C 3 1) / 3)) + -((C 2 1 + C 2 2 + C 2 3) / 3)) + ((((C 1 1 + C 1 2 + C 1 3) / 3) + ((C 2 1 + C 2 2 + C 2 3) / 3) + ((C 3 1 + C 3 2 + C 3 3) / 3)) / 3)) = _
      simp only [one6, Nat.reduceLeDiff, if_true, if_false]; ring
    · show (((C 2 2 + -((C 2 1 + C 2 2 + C 2 3) / 3)) + -((C 1 2 + C 2 2 + C 3 2) / 3)) + ((((C 1 1 + C 1 2 + C 1 3) / 3) + ((C 2 1 + C 2 2 + C 2 3) / 3) + ((C 3 1 + C 3 2 + C 3 3) / 3)) / 3)) = _
      simp only [one6, Nat.reduceLeDiff, if_true, if_false]; ring
    · show (((C 2 3 + -((C 2 1 + C 2 2 + C 2 3) / 3)) + -((C 1 3 + C 2 3 + C 3 3) / 3)) + ((((C 1 1 + C 1 2 + C 1 3) / 3) + ((C 2 1 + C 2 2 + C 2 3) / 3) + ((C 3 1 + C 3 2 + C 3 3) / 3)) / 3)) = _
      simp only [one6, Nat.reduceLeDiff, if_true, if_false]; ring
    · show (C 2 4 + -((C 1 4 + C 2 4 + C 3 4) / 3)) = _
      simp only [one6, Nat.reduceLeDiff, if_true, if_false]; ring
    · show (C 2 5 + -((C 1 5 + C 2 5 + C 3 5) / 3)) = _
      simp only [one6, Nat.reduceLeDiff, if_true, if_false]; ring
    · show (C 2 6 + -((C 1 6 + C 2 6 + C 3 6) / 3)) = _
      simp only [one6, Nat.reduceLeDiff, if_true, if_false]; ring
    · show (((C 3 1 + -((C 1 1 + C 2 1 + C 3 1) / 3)) + -((C 3 1 + C 3 2 + C 3 3) / 3)) + ((((C 1 1 + C 1 2 + C 1 3) / 3) + ((C 2 1 + C 2 2 + C 2 3) / 3) + ((C 3 1 + C 3 2 + C 3 3) / 3)) / 3)) = _
      simp only [one6, Nat.reduceLeDiff, if_true, if_false]; ring
    · show (((C 3 2 + -((C 1 2 + C 2 2 + C 3 2) / 3)) + -((C 3 1 + C 3 2 + C 3 3) / 3)) + ((((C 1 1 + C 1 2 + C 1 3) / 3) + ((C 2 1 + C 2 2 + C 2 3) / 3) + ((C 3 1 + C 3 2 + C 3 3) / 3)) / 3)) = _
      simp only [one6, Nat.reduceLeDiff, if_true, if_false]; ring
    · show (((C 3 3 + -((C 3 1 + C 3 2 + C 3 3) / 3)) + -((C 1 3 + C 2 3 + C 3 3) / 3)) + ((((C 1 1 + C 1 2 + C 1 3) / 3) + ((C 2 1 + C 2 2 + C 2 3) / 3) + ((C 3 1 + C 3 2 + C 3 3) / 3)) / 3)) = _
      simp only [one6, Nat.reduceLeDiff, if_true, if_false]; ring
    · show (C 3 4 + -((C 1 4 + C 2 4 + C 3 4) / 3)) = _
      simp only [one6, Nat.reduceLeDiff, if_true, if_false]; ring
    · show (C 3 5 + -((C 1 5 + C 2 5 + C 3 5) / 3)) = _
      simp only [one6, Nat.reduceLeDiff, if_true, if_false]; ring
    · show (C 3 6 + -((C 1 6 + C 2 6 + C 3 6) / 3)) = _
      simp only [one6, Nat.reduceLeDiff, if_true, if_false]; ring
    · show (C 4 1 + -((C 4 1 + C 4 2 + C 4 3) / 3)) = _
      simp only [one6, Nat.reduceLeDiff, if_true, if_false]; ring
    · show (C 4 2 + -((C 4 1 + C 4 2 + C 4 3) / 3)) = _
      simp only [one6, Nat.reduceLeDiff, if_true, if_false]; ring
    · show (C 4 3 + -((C 4 1 + C 4 2 + C 4 3) / 3)) = _
      simp only [one6, Nat.reduceLeDiff, if_true, if_false]; ring
    · show C 4 4 = _
      simp only [one6, Nat.reduceLeDiff, if_true, if_false]; ring
    · show C 4 5 = _
      simp only [one6, Nat.reduceLeDiff, if_true, if_false]; ring
    · show C 4 6 = _
      simp only [one6, Nat.reduceLeDiff, if_true, if_false]; ring
    · show (C 5 1 + -((C 5 1 + C 5 2 + C 5 3) / 3)) = _
      simp only [one6, Nat.reduceLeDiff, if_true, if_false]; ring
    · show (C 5 2 + -((C 5 1 + C 5 2 + C 5 3) / 3)) = _
      simp only [one6, Nat.reduceLeDiff, if_true, if_false]; ring
    · show (C 5 3 + -((C 5 1 + C 5 2 + C 5 3) / 3)) = _
      simp only [one6, Nat.reduceLeDiff, if_true, if_false]; ring
    · show C 5 4 = _
      simp only [one6, Nat.reduceLeDiff, if_true, if_false]; ring
    · show C 5 5 = _
      simp only [one6, Nat.reduceLeDiff, if_true, if_false]; ring
    · show C 5 6 = _
      simp only [one6, Nat.reduceLeDiff, if_true, if_false]; ring
    · show (C 6 1 + -((C 6 1 + C 6 2 + C 6 3) / 3)) = _
      simp only [one6, Nat.reduceLeDiff, if_true, if_false]; ring
    · show (C 6 2 + -((C 6 1 + C 6 2 + C 6 3) / 3)) = _
      simp only [one6, Nat.reduceLeDiff, if_true, if_false]; ring
    · show (C 6 3 + -((C 6 1 + C 6 2 + C 6 3) / 3)) = _
      simp only [one6, Nat.reduceLeDiff, if_true, if_false]; ring
    · show C 6 4 = _
      simp only [one6, Nat.reduceLeDiff, if_true, if_false]; ring
    · show C 6 5 = _
      simp only [one6, Nat.reduceLeDiff, if_true, if_false]; ring
    · show C 6 6 = _
      simp only [one6, Nat.reduceLeDiff, if_true, if_false]; ring
  · intro i i1 i2
    interval_cases i
    · show (((C 1 1 + C 1 2 + C 1 3) / 3) + -((((C 1 1 + C 1 2 + C 1 3) / 3) + ((C 2 1 + C 2 2 + C 2 3) / 3) + ((C 3 1 + C 3 2 + C 3 3) / 3)) / 3)) = _
      simp only [one6, Nat.reduceLeDiff, if_true, if_false]; ring
    · show (((C 2 1 + C 2 2 + C 2 3) / 3) + -((((C 1 1 + C 1 2 + C 1 3) / 3) + ((C 2 1 + C 2 2 + C 2 3) / 3) + ((C 3 1 + C 3 2 + C 3 3) / 3)) / 3)) = _
      simp only [one6, Nat.reduceLeDiff, if_true, if_false]; ring
    · show (((C 3 1 + C 3 2 + C 3 3) / 3) + -((((C 1 1 + C 1 2 + C 1 3) / 3) + ((C 2 1 + C 2 2 + C 2 3) / 3) + ((C 3 1 + C 3 2 + C 3 3) / 3)) / 3)) = _
      simp only [one6, Nat.reduceLeDiff, if_true, if_false]; ring
    · show ((C 4 1 + C 4 2 + C 4 3) / 3) = _
      simp only [one6, Nat.reduceLeDiff, if_true, if_false]; ring
    · show ((C 5 1 + C 5 2 + C 5 3) / 3) = _
      simp only [one6, Nat.reduceLeDiff, if_true, if_false]; ring
    · show ((C 6 1 + C 6 2 + C 6 3) / 3) = _
      simp only [one6, Nat.reduceLeDiff, if_true, if_false]; ring
  · intro i i1 i2
    interval_cases i
    · show (((C 1 1 + C 2 1 + C 3 1) / 3) + -((((C 1 1 + C 1 2 + C 1 3) / 3) + ((C 2 1 + C 2 2 + C 2 3) / 3) + ((C 3 1 + C 3 2 + C 3 3) / 3)) / 3)) = _
      simp only [one6, Nat.reduceLeDiff, if_true, if_false]; ring
    · show (((C 1 2 + C 2 2 + C 3 2) / 3) + -((((C 1 1 + C 1 2 + C 1 3) / 3) + ((C 2 1 + C 2 2 + C 2 3) / 3) + ((C 3 1 + C 3 2 + C 3 3) / 3)) / 3)) = _
      simp only [one6, Nat.reduceLeDiff, if_true, if_false]; ring
    · show (((C 1 3 + C 2 3 + C 3 3) / 3) + -((((C 1 1 + C 1 2 + C 1 3) / 3) + ((C 2 1 + C 2 2 + C 2 3) / 3) + ((C 3 1 + C 3 2 + C 3 3) / 3)) / 3)) = _
      simp only [one6, Nat.reduceLeDiff, if_true, if_false]; ring
    · show ((C 1 4 + C 2 4 + C 3 4) / 3) = _
      simp only [one6, Nat.reduceLeDiff, if_true, if_false]; ring
    · show ((C 1 5 + C 2 5 + C 3 5) / 3) = _
      simp only [one6, Nat.reduceLeDiff, if_true, if_false]; ring
    · show ((C 1 6 + C 2 6 + C 3 6) / 3) = _
      simp only [one6, Nat.reduceLeDiff, if_true, if_false]; ring
  · show ((((C 1 1 + C 1 2 + C 1 3) / 3) + ((C 2 1 + C 2 2 + C 2 3) / 3) + ((C 3 1 + C 3 2 + C 3 3) / 3)) / 3) = _
    ring

theorem stress_entries [CharZero K] (D : DMat K) (hr : D.nr = 7) (hc : D.nc = 7) (s : Nat → K)
    (pb pm : K) :
    ∃ e, stressTerms D s pb pm = .ok ⟨7, 7, e⟩ ∧
      (∀ i j, 1 ≤ i → i ≤ 6 → 1 ≤ j → j ≤ 6 →
        e i j = D.e i j + (pm - 2 / 3 * pb) * one6 i * one6 j
          - 2 / 3 * (one6 i * (s j - pb * one6 j) + (s i - pb * one6 i) * one6 j)
          + 2 * (pb - pm) * sym6 i j) ∧
      (∀ i, 1 ≤ i → i ≤ 6 → e i 7 = D.e i 7 + 2 / 3 * (s i - pb * one6 i)) ∧
      (∀ i, 1 ≤ i → i ≤ 6 → e 7 i = D.e 7 i + 2 / 3 * (s i - pb * one6 i)) ∧
      e 7 7 = D.e 7 7 - pb / 3 := by
  obtain ⟨nr, nc, f⟩ := D
  simp only at hr hc
  subst hr hc
  refine ⟨_, rfl, ?_, ?_, ?_, ?_⟩
  · intro i j i1 i2 j1 j2
    interval_cases i <;> interval_cases j
    · show ((((f 1 1 + (pm - pb * 2 / 3)) + -((s 1 - pb) * (2 / 3))) + -((s 1 - pb) * (2 / 3))) + 2 * (pb - pm)) = f _ _ + _ - _ + _
      simp only [one6, sym6, Nat.reduceLeDiff, Nat.reduceEqDiff, OfNat.ofNat_ne_one, OfNat.one_ne_ofNat, if_true, if_false]; ring
    · show (((f 1 2 + (pm - pb * 2 / 3)) + -((s 2 - pb) * (2 / 3))) + -((s 1 - pb) * (2 / 3))) = f _ _ + _ - _ + _
      simp only [one6, sym6, Nat.reduceLeDiff, Nat.reduceEqDiff, OfNat.ofNat_ne_one, OfNat.one_ne_ofNat, if_true, if_false]; ring
    · show (((f 1 3 + (pm - pb * 2 / 3)) + -((s 3 - pb) * (2 / 3))) + -((s 1 - pb) * (2 / 3))) = f _ _ + _ - _ + _
      simp only [one6, sym6, Nat.reduceLeDiff, Nat.reduceEqDiff, OfNat.ofNat_ne_one, OfNat.one_ne_ofNat, if_true, if_false]; ring
    · show (f 1 4 + -(s 4 * (2 / 3))) = f _ _ + _ - _ + _
      simp only [one6, sym6, Nat.reduceLeDiff, Nat.reduceEqDiff, OfNat.ofNat_ne_one, OfNat.one_ne_ofNat, if_true, if_false]; ring
    · show (f 1 5 + -(s 5 * (2 / 3))) = f _ _ + _ - _ + _
      simp only [one6, sym6, Nat.reduceLeDiff, Nat.reduceEqDiff, OfNat.ofNat_ne_one, OfNat.one_ne_ofNat, if_true, if_false]; ring
    · show (f 1 6 + -(s 6 * (2 / 3))) = f _ _ + _ - _ + _
      simp only [one6, sym6, Nat.reduceLeDiff, Nat.reduceEqDiff, OfNat.ofNat_ne_one, OfNat.one_ne_ofNat, if_true, if_false]; ring
    · show (((f 2 1 + (pm - pb * 2 / 3)) + -((s 2 - pb) * (2 / 3))) + -((s 1 - pb) * (2 / 3))) = f _ _ + _ - _ + _
      simp only [one6, sym6, Nat.reduceLeDiff, Nat.reduceEqDiff, OfNat.ofNat_ne_one, OfNat.one_ne_ofNat, if_true, if_false]; ring
    · show ((((f 2 2 + (pm - pb * 2 / 3)) + -((s 2 - pb) * (2 / 3))) + -((s 2 - pb) * (2 / 3))) + 2 * (pb - pm)) = f _ _ + _ - _ + _
      simp only [one6, sym6, Nat.reduceLeDiff, Nat.reduceEqDiff, OfNat.ofNat_ne_one, OfNat.one_ne_ofNat, if_true, if_false]; ring
    · show (((f 2 3 + (pm - pb * 2 / 3)) + -((s 3 - pb) * (2 / 3))) + -((s 2 - pb) * (2 / 3))) = f _ _ + _ - _ + _
      simp only [one6, sym6, Nat.reduceLeDiff, Nat.reduceEqDiff, OfNat.ofNat_ne_one, OfNat.one_ne_ofNat, if_true, if_false]; ring
    · show (f 2 4 + -(s 4 * (2 / 3))) = f _ _ + _ - _ + _
      simp only [one6, sym6, Nat.reduceLeDiff, Nat.reduceEqDiff, OfNat.ofNat_ne_one, OfNat.one_ne_ofNat, if_true, if_false]; ring
    · show (f 2 5 + -(s 5 * (2 / 3))) = f _ _ + _ - _ + _
      simp only [one6, sym6, Nat.reduceLeDiff, Nat.reduceEqDiff, OfNat.ofNat_ne_one, OfNat.one_ne_ofNat, if_true, if_false]; ring
    · show (f 2 6 + -(s 6 * (2 / 3))) = f _ _ + _ - _ + _
      simp only [one6, sym6, Nat.reduceLeDiff, Nat.reduceEqDiff, OfNat.ofNat_ne_one, OfNat.one_ne_ofNat, if_true, if_false]; ring
    · show (((f 3 1 + (pm - pb * 2 / 3)) + -((s 3 - pb) * (2 / 3))) + -((s 1 - pb) * (2 / 3))) = f _ _ + _ - _ + _
      simp only [one6, sym6, Nat.reduceLeDiff, Nat.reduceEqDiff, OfNat.ofNat_ne_one, OfNat.one_ne_ofNat, if_true, if_false]; ring
    · show (((f 3 2 + (pm - pb * 2 / 3)) + -((s 3 - pb) * (2 / 3))) + -((s 2 - pb) * (2 / 3))) = f _ _ + _ - _ + _
      simp only [one6, sym6, Nat.reduceLeDiff, Nat.reduceEqDiff, OfNat.ofNat_ne_one, OfNat.one_ne_ofNat, if_true, if_false]; ring
    · show ((((f 3 3 + (pm - pb * 2 / 3)) + -((s 3 - pb) * (2 / 3))) + -((s 3 - pb) * (2 / 3))) + 2 * (pb - pm)) = f _ _ + _ - _ + _
      simp only [one6, sym6, Nat.reduceLeDiff, Nat.reduceEqDiff, OfNat.ofNat_ne_one, OfNat.one_ne_ofNat, if_true, if_false]; ring
    · show (f 3 4 + -(s 4 * (2 / 3))) = f _ _ + _ - _ + _
      simp only [one6, sym6, Nat.reduceLeDiff, Nat.reduceEqDiff, OfNat.ofNat_ne_one, OfNat.one_ne_ofNat, if_true, if_false]; ring
    · show (f 3 5 + -(s 5 * (2 / 3))) = f _ _ + _ - _ + _
      simp only [one6, sym6, Nat.reduceLeDiff, Nat.reduceEqDiff, OfNat.ofNat_ne_one, OfNat.one_ne_ofNat, if_true, if_false]; ring
    · show (f 3 6 + -(s 6 * (2 / 3))) = f _ _ + _ - _ + _
      simp only [one6, sym6, Nat.reduceLeDiff, Nat.reduceEqDiff, OfNat.ofNat_ne_one, OfNat.one_ne_ofNat, if_true, if_false]; ring
    · show (f 4 1 + -(s 4 * (2 / 3))) = f _ _ + _ - _ + _
      simp only [one6, sym6, Nat.reduceLeDiff, Nat.reduceEqDiff, OfNat.ofNat_ne_one, OfNat.one_ne_ofNat, if_true, if_false]; ring
    · show (f 4 2 + -(s 4 * (2 / 3))) = f _ _ + _ - _ + _
      simp only [one6, sym6, Nat.reduceLeDiff, Nat.reduceEqDiff, OfNat.ofNat_ne_one, OfNat.one_ne_ofNat, if_true, if_false]; ring
    · show (f 4 3 + -(s 4 * (2 / 3))) = f _ _ + _ - _ + _
      simp only [one6, sym6, Nat.reduceLeDiff, Nat.reduceEqDiff, OfNat.ofNat_ne_one, OfNat.one_ne_ofNat, if_true, if_false]; ring
    · show (f 4 4 + (pb - pm)) = f _ _ + _ - _ + _
      simp only [one6, sym6, Nat.reduceLeDiff, Nat.reduceEqDiff, OfNat.ofNat_ne_one, OfNat.one_ne_ofNat, if_true, if_false]; ring
    · show f 4 5 = f _ _ + _ - _ + _
      simp only [one6, sym6, Nat.reduceLeDiff, Nat.reduceEqDiff, OfNat.ofNat_ne_one, OfNat.one_ne_ofNat, if_true, if_false]; ring
    · show f 4 6 = f _ _ + _ - _ + _
      simp only [one6, sym6, Nat.reduceLeDiff, Nat.reduceEqDiff, OfNat.ofNat_ne_one, OfNat.one_ne_ofNat, if_true, if_false]; ring
    · show (f 5 1 + -(s 5 * (2 / 3))) = f _ _ + _ - _ + _
      simp only [one6, sym6, Nat.reduceLeDiff, Nat.reduceEqDiff, OfNat.ofNat_ne_one, OfNat.one_ne_ofNat, if_true, if_false]; ring
    · show (f 5 2 + -(s 5 * (2 / 3))) = f _ _ + _ - _ + _
      simp only [one6, sym6, Nat.reduceLeDiff, Nat.reduceEqDiff, OfNat.ofNat_ne_one, OfNat.one_ne_ofNat, if_true, if_false]; ring
    · show (f 5 3 + -(s 5 * (2 / 3))) = f _ _ + _ - _ + _
      simp only [one6, sym6, Nat.reduceLeDiff, Nat.reduceEqDiff, OfNat.ofNat_ne_one, OfNat.one_ne_ofNat, if_true, if_false]; ring
    · show f 5 4 = f _ _ + _ - _ + _
      simp only [one6, sym6, Nat.reduceLeDiff, Nat.reduceEqDiff, OfNat.ofNat_ne_one, OfNat.one_ne_ofNat, if_true, if_false]; ring
    · show (f 5 5 + (pb - pm)) = f _ _ + _ - _ + _
      simp only [one6, sym6, Nat.reduceLeDiff, Nat.reduceEqDiff, OfNat.ofNat_ne_one, OfNat.one_ne_ofNat, if_true, if_false]; ring
    · show f 5 6 = f _ _ + _ - _ + _
      simp only [one6, sym6, Nat.reduceLeDiff, Nat.reduceEqDiff, OfNat.ofNat_ne_one, OfNat.one_ne_ofNat, if_true, if_false]; ring
    · show (f 6 1 + -(s 6 * (2 / 3))) = f _ _ + _ - _ + _
      simp only [one6, sym6, Nat.reduceLeDiff, Nat.reduceEqDiff, OfNat.ofNat_ne_one, OfNat.one_ne_ofNat, if_true, if_false]; ring
    · show (f 6 2 + -(s 6 * (2 / 3))) = f _ _ + _ - _ + _
      simp only [one6, sym6, Nat.reduceLeDiff, Nat.reduceEqDiff, OfNat.ofNat_ne_one, OfNat.one_ne_ofNat, if_true, if_false]; ring
    · show (f 6 3 + -(s 6 * (2 / 3))) = f _ _ + _ - _ + _
      simp only [one6, sym6, Nat.reduceLeDiff, Nat.reduceEqDiff, OfNat.ofNat_ne_one, OfNat.one_ne_ofNat, if_true, if_false]; ring
    · show f 6 4 = f _ _ + _ - _ + _
      simp only [one6, sym6, Nat.reduceLeDiff, Nat.reduceEqDiff, OfNat.ofNat_ne_one, OfNat.one_ne_ofNat, if_true, if_false]; ring
    · show f 6 5 = f _ _ + _ - _ + _
      simp only [one6, sym6, Nat.reduceLeDiff, Nat.reduceEqDiff, OfNat.ofNat_ne_one, OfNat.one_ne_ofNat, if_true, if_false]; ring
    · show (f 6 6 + (pb - pm)) = f _ _ + _ - _ + _
      simp only [one6, sym6, Nat.reduceLeDiff, Nat.reduceEqDiff, OfNat.ofNat_ne_one, OfNat.one_ne_ofNat, if_true, if_false]; ring
  · intro i i1 i2
    interval_cases i
    · show (f 1 7 + ((s 1 - pb) * (2 / 3))) = f _ _ + _
      simp only [one6, Nat.reduceLeDiff, if_true, if_false]; ring
    · show (f 2 7 + ((s 2 - pb) * (2 / 3))) = f _ _ + _
      simp only [one6, Nat.reduceLeDiff, if_true, if_false]; ring
    · show (f 3 7 + ((s 3 - pb) * (2 / 3))) = f _ _ + _
      simp only [one6, Nat.reduceLeDiff, if_true, if_false]; ring
    · show (f 4 7 + (s 4 * (2 / 3))) = f _ _ + _
      simp only [one6, Nat.reduceLeDiff, if_true, if_false]; ring
    · show (f 5 7 + (s 5 * (2 / 3))) = f _ _ + _
      simp only [one6, Nat.reduceLeDiff, if_true, if_false]; ring
    · show (f 6 7 + (s 6 * (2 / 3))) = f _ _ + _
      simp only [one6, Nat.reduceLeDiff, if_true, if_false]; ring
  · intro i i1 i2
    interval_cases i
    · show (f 7 1 + ((s 1 - pb) * (2 / 3))) = f _ _ + _
      simp only [one6, Nat.reduceLeDiff, if_true, if_false]; ring
    · show (f 7 2 + ((s 2 - pb) * (2 / 3))) = f _ _ + _
      simp only [one6, Nat.reduceLeDiff, if_true, if_false]; ring
    · show (f 7 3 + ((s 3 - pb) * (2 / 3))) = f _ _ + _
      simp only [one6, Nat.reduceLeDiff, if_true, if_false]; ring
    · show (f 7 4 + (s 4 * (2 / 3))) = f _ _ + _
      simp only [one6, Nat.reduceLeDiff, if_true, if_false]; ring
    · show (f 7 5 + (s 5 * (2 / 3))) = f _ _ + _
      simp only [one6, Nat.reduceLeDiff, if_true, if_false]; ring
    · show (f 7 6 + (s 6 * (2 / 3))) = f _ _ + _
      simp only [one6, Nat.reduceLeDiff, if_true, if_false]; ring
  · show (f 7 7 + -(pb / 3)) = f _ _ - _
    ring

theorem dev_left [CharZero K] (i : Nat) (i1 : 1 ≤ i) (i2 : i ≤ 6) (f : Nat → K) :
    sum6 (fun k => dev6 i k * f k) = f i - one6 i * (f 1 + f 2 + f 3) / 3 := by
  interval_cases i <;>
  · simp only [sum6, dev6, one6, Finset.sum_range_succ, Finset.sum_range_zero, Nat.reduceAdd,
      Nat.reduceLeDiff, if_true, if_false, Nat.reduceEqDiff, OfNat.ofNat_ne_one,
      OfNat.one_ne_ofNat, zero_add]
    ring

theorem dev_right [CharZero K] (j : Nat) (j1 : 1 ≤ j) (j2 : j ≤ 6) (f : Nat → K) :
    sum6 (fun k => f k * dev6 k j) = f j - (f 1 + f 2 + f 3) * one6 j / 3 := by
  interval_cases j <;>
  · simp only [sum6, dev6, one6, Finset.sum_range_succ, Finset.sum_range_zero, Nat.reduceAdd,
      Nat.reduceLeDiff, if_true, if_false, Nat.reduceEqDiff, OfNat.ofNat_ne_one,
      OfNat.one_ne_ofNat, zero_add]
    ring

theorem sum6_mul (c : K) (f : Nat → K) : sum6 (fun k => c * f k) = c * sum6 f := by
  simp only [sum6, Finset.mul_sum]

theorem one_right (f : Nat → K) : sum6 (fun k => f k * one6 k) = f 1 + f 2 + f 3 := by
  simp [sum6, one6, Finset.sum_range_succ]

theorem one_left (f : Nat → K) : sum6 (fun k => one6 k * f k) = f 1 + f 2 + f 3 := by
  simp [sum6, one6, Finset.sum_range_succ]

theorem dcd [CharZero K] (C : Nat → Nat → K) (i j : Nat) (i1 : 1 ≤ i) (i2 : i ≤ 6) (j1 : 1 ≤ j)
    (j2 : j ≤ 6) : (sum6 fun k => sum6 fun l => dev6 i k * C k l * dev6 l j)
      = C i j - (C i 1 + C i 2 + C i 3) * one6 j / 3
        - one6 i * (C 1 j - (C 1 1 + C 1 2 + C 1 3) * one6 j / 3
          + (C 2 j - (C 2 1 + C 2 2 + C 2 3) * one6 j / 3)
          + (C 3 j - (C 3 1 + C 3 2 + C 3 3) * one6 j / 3)) / 3 := by
  have : ∀ k, (sum6 fun l => dev6 i k * C k l * dev6 l j)
      = dev6 i k * (C k j - (C k 1 + C k 2 + C k 3) * one6 j / 3) := by
    intro k
    simp only [mul_assoc]
    rw [sum6_mul, dev_right j j1 j2]
  simp only [this]
  rw [dev_left i i1 i2]

theorem dc1 [CharZero K] (C : Nat → Nat → K) (i : Nat) (i1 : 1 ≤ i) (i2 : i ≤ 6) :
    (sum6 fun k => sum6 fun l => dev6 i k * C k l * one6 l)
      = C i 1 + C i 2 + C i 3 - one6 i * (C 1 1 + C 1 2 + C 1 3 + (C 2 1 + C 2 2 + C 2 3)
        + (C 3 1 + C 3 2 + C 3 3)) / 3 := by
  have : ∀ k, (sum6 fun l => dev6 i k * C k l * one6 l) = dev6 i k * (C k 1 + C k 2 + C k 3) := by
    intro k
    simp only [mul_assoc]
    rw [sum6_mul, one_right]
  simp only [this]
  rw [dev_left i i1 i2]

theorem c1d [CharZero K] (C : Nat → Nat → K) (j : Nat) (j1 : 1 ≤ j) (j2 : j ≤ 6) :
    (sum6 fun k => sum6 fun l => one6 k * C k l * dev6 l j)
      = (C 1 j - (C 1 1 + C 1 2 + C 1 3) * one6 j / 3)
        + (C 2 j - (C 2 1 + C 2 2 + C 2 3) * one6 j / 3)
        + (C 3 j - (C 3 1 + C 3 2 + C 3 3) * one6 j / 3) := by
  have : ∀ k, (sum6 fun l => one6 k * C k l * dev6 l j)
      = one6 k * (C k j - (C k 1 + C k 2 + C k 3) * one6 j / 3) := by
    intro k
    simp only [mul_assoc]
    rw [sum6_mul, dev_right j j1 j2]
  simp only [this]
  rw [one_left]

/-- C34, projection: the leading block is the congruence of the constitutive matrix with the deviatoric
projector, the last row and column its mixed part and the last entry its volumetric part. -/
theorem C34_projection [CharZero K] (C : Nat → Nat → K) :
    ∃ D, project ⟨7, 7, fun i j => if i ≤ 6 ∧ j ≤ 6 then C i j else 0⟩ = .ok D ∧
      D.nr = 7 ∧ D.nc = 7 ∧
      (∀ i j, 1 ≤ i → i ≤ 6 → 1 ≤ j → j ≤ 6 →
        D.e i j = sum6 fun k => sum6 fun l => dev6 i k * C k l * dev6 l j) ∧
      (∀ i, 1 ≤ i → i ≤ 6 →
        D.e i 7 = (sum6 fun k => sum6 fun l => dev6 i k * C k l * one6 l) / 3 ∧
        D.e 7 i = (sum6 fun k => sum6 fun l => one6 k * C k l * dev6 l i) / 3) ∧
      D.e 7 7 = (sum6 fun k => sum6 fun l => one6 k * C k l * one6 l) / 9 := by
  obtain ⟨e, he, h1, h2, h3, h4⟩ := project_entries C
  refine ⟨_, he, rfl, rfl, ?_, ?_, ?_⟩
  · intro i j i1 i2 j1 j2
    rw [dcd C i j i1 i2 j1 j2]
    exact h1 i j i1 i2 j1 j2
  · intro i i1 i2
    rw [dc1 C i i1 i2, c1d C i i1 i2]
    exact ⟨h2 i i1 i2, h3 i i1 i2⟩
  · have : ∀ k : Nat, (sum6 fun l => one6 k * C k l * one6 l) = one6 k * (C k 1 + C k 2 + C k 3) := by
      intro k
      simp only [mul_assoc]
      rw [sum6_mul, one_right]
    simp only [this]
    rw [one_left]
    exact h4

/-- C34, stress terms added to the four blocks, `s` being the stress, `pb` its mean value and `pm` the
pressure of the mixed formulation. -/
theorem C34_stress [CharZero K] (C : Nat → Nat → K) (s : Nat → K) (pb pm : K) :
    ∃ D0 D, project ⟨7, 7, fun i j => if i ≤ 6 ∧ j ≤ 6 then C i j else 0⟩ = .ok D0 ∧
      addVolumetricTerms C s pb pm = .ok D ∧
      (∀ i j, 1 ≤ i → i ≤ 6 → 1 ≤ j → j ≤ 6 →
        D.e i j = D0.e i j + (pm - 2 / 3 * pb) * one6 i * one6 j
          - 2 / 3 * (one6 i * (s j - pb * one6 j) + (s i - pb * one6 i) * one6 j)
          + 2 * (pb - pm) * sym6 i j) ∧
      (∀ i, 1 ≤ i → i ≤ 6 → D.e i 7 = D0.e i 7 + 2 / 3 * (s i - pb * one6 i) ∧
        D.e 7 i = D0.e 7 i + 2 / 3 * (s i - pb * one6 i)) ∧
      D.e 7 7 = D0.e 7 7 - pb / 3 := by
  obtain ⟨D0, h0, r0, c0, -⟩ := C34_projection C
  obtain ⟨e, he, h1, h2, h3, h4⟩ := stress_entries D0 r0 c0 s pb pm
  refine ⟨D0, ⟨7, 7, e⟩, h0, ?_, h1, fun i i1 i2 => ⟨h2 i i1 i2, h3 i i1 i2⟩, h4⟩
  unfold addVolumetricTerms
  rw [h0, show ∀ (p : DMat K) (f : DMat K → Res (DMat K)), (Res.ok p).bind f = f p from fun _ _ => rfl]
  exact he

/-- C34, recombination: put together again, the blocks give the full tangent, plus the tangent of the
pressure difference between the mixed and the constitutive pressure. -/
theorem C34_recombine [CharZero K] (C : Nat → Nat → K) (s : Nat → K) (pb pm : K) :
    ∃ D, addVolumetricTerms C s pb pm = .ok D ∧
      ∀ i j, 1 ≤ i → i ≤ 6 → 1 ≤ j → j ≤ 6 →
        D.e i j + D.e i 7 * one6 j + one6 i * D.e 7 j + one6 i * one6 j * D.e 7 7
          = C i j + (pm - pb) * (one6 i * one6 j - 2 * sym6 i j) := by
  obtain ⟨e0, h0, q1, q2, q3, q4⟩ := project_entries C
  obtain ⟨D0, D, g0, g1, g2, g3, g4⟩ := C34_stress C s pb pm
  rw [h0] at g0
  cases g0
  refine ⟨D, g1, ?_⟩
  intro i j i1 i2 j1 j2
  rw [g2 i j i1 i2 j1 j2, (g3 i i1 i2).1, (g3 j j1 j2).2, g4]
  simp only
  rw [q1 i j i1 i2 j1 j2, q2 i i1 i2, q3 j j1 j2, q4]
  ring

/-- C34: when the mixed pressure is that of the constitutive law, nothing is added to the tangent. -/
theorem C34_consistent [CharZero K] (C : Nat → Nat → K) (s : Nat → K) (p : K) :
    ∃ D, addVolumetricTerms C s p p = .ok D ∧
      ∀ i j, 1 ≤ i → i ≤ 6 → 1 ≤ j → j ≤ 6 →
        D.e i j + D.e i 7 * one6 j + one6 i * D.e 7 j + one6 i * one6 j * D.e 7 7 = C i j := by
  obtain ⟨D, h1, h2⟩ := C34_recombine C s p p
  exact ⟨D, h1, fun i j a b c d => by rw [h2 i j a b c d]; ring⟩

example : ∃ D, addVolumetricTerms (fun i j => (i * j : ℚ)) (fun i => i) 2 2 = .ok D ∧
    D.e 1 2 + D.e 1 7 + D.e 7 2 + D.e 7 7 = 2 := by
  obtain ⟨D, h1, h2⟩ := C34_consistent (fun i j => (i * j : ℚ)) (fun i => i) 2
  refine ⟨D, h1, ?_⟩
  have := h2 1 2 (by norm_num) (by norm_num) (by norm_num) (by norm_num)
  simpa [one6] using this

end Verif.Mixed
