/-
Access sequences of the slot model: when is a sequence free of undefined behaviour?
-/
import Verif.Model.Modes
import Mathlib.Order.Lattice
import Mathlib.Tactic.SplitIfs
import Mathlib.Order.Defs.LinearOrder

set_option linter.unusedSectionVars false
set_option linter.unnecessarySeqFocus false
set_option linter.unusedSimpArgs false
set_option linter.unusedVariables false

namespace Verif.Modes

/-! ### Access sequences -/

theorem touch_A (al : Alloc) (i : Int) : touch al (.A i) = .ok () ↔ 0 ≤ i ∧ i < al.nA := by
  simp only [touch]; split_ifs with h <;> simp [h]

theorem touch_b (al : Alloc) (i : Int) : touch al (.b i) = .ok () ↔ 0 ≤ i ∧ i < al.nB := by
  simp only [touch]; split_ifs with h <;> simp [h]

theorem touchAll_nil (al : Alloc) : touchAll al [] = .ok () ↔ True := by simp [touchAll]

theorem touchAll_cons (al : Alloc) (x : Slot) (l : List Slot) :
    touchAll al (x :: l) = .ok () ↔ touch al x = .ok () ∧ touchAll al l = .ok () := by
  simp only [touchAll]
  rcases h : touch al x with a | _ | _ <;> simp

theorem touchAll_append (al : Alloc) (l l' : List Slot) :
    touchAll al (l ++ l') = .ok () ↔ touchAll al l = .ok () ∧ touchAll al l' = .ok () := by
  induction l with
  | nil => simp [touchAll]
  | cons x l ih => rw [List.cons_append, touchAll_cons, ih, touchAll_cons, and_assoc]

theorem touchAll_sl (al : Alloc) (c : Bool) (l : List Slot) :
    touchAll al (sl c l) = .ok () ↔ (c = true → touchAll al l = .ok ()) := by
  cases c <;> simp [sl, touchAll]

/-- An access sequence is free of undefined behaviour exactly if every matrix index is below
the number of matrices and every vector index below the number of vectors. -/
theorem touchAll_iff (al : Alloc) (l : List Slot) :
    touchAll al l = .ok () ↔
      (∀ i, Slot.A i ∈ l → 0 ≤ i ∧ i < al.nA) ∧ (∀ i, Slot.b i ∈ l → 0 ≤ i ∧ i < al.nB) := by
  induction l with
  | nil => simp [touchAll]
  | cons x l ih =>
    rw [touchAll_cons, ih]
    cases x with
    | A j =>
      rw [touch_A]; constructor
      · rintro ⟨h, h1, h2⟩
        refine ⟨fun i hi => ?_, fun i hi => h2 i (by simpa using hi)⟩
        rcases List.mem_cons.1 hi with e | e
        · cases e; exact h
        · exact h1 i e
      · rintro ⟨h1, h2⟩
        exact ⟨h1 j (by simp), fun i hi => h1 i (by simp [hi]), fun i hi => h2 i (by simp [hi])⟩
    | b j =>
      rw [touch_b]; constructor
      · rintro ⟨h, h1, h2⟩
        refine ⟨fun i hi => h1 i (by simpa using hi), fun i hi => ?_⟩
        rcases List.mem_cons.1 hi with e | e
        · cases e; exact h
        · exact h2 i e
      · rintro ⟨h1, h2⟩
        exact ⟨h2 j (by simp), fun i hi => h1 i (by simp [hi]), fun i hi => h2 i (by simp [hi])⟩

/-- Case analysis used for the slot tables: compute every slot for the mode at hand, then
split on the parameter conditions. -/
macro "slots" "[" ls:Lean.Parser.Tactic.simpLemma,* "]" : tactic =>
  `(tactic| (simp [$ls,*, touchAll_append, touchAll_sl, touchAll_cons, touchAll_nil,
      touch_A, touch_b] <;> (split_ifs <;> simp_all)))

section
variable {K : Type*} [Zero K] [One K] [LinearOrder K]

/-- The conditions on a parameter that occur in the code, by its sign. -/
theorem sgn (x : K) : (x < 0 ∧ ¬ 0 < x ∧ ¬ 0 ≤ x ∧ x ≠ 0) ∨ (¬ x < 0 ∧ ¬ 0 < x ∧ 0 ≤ x ∧ x = 0) ∨
    (¬ x < 0 ∧ 0 < x ∧ 0 ≤ x ∧ x ≠ 0) := by
  rcases lt_trichotomy x 0 with h | h | h
  · exact Or.inl ⟨h, h.not_gt, h.not_ge, h.ne⟩
  · subst h; simp
  · exact Or.inr (Or.inr ⟨h.not_gt, h, h.le, h.ne'⟩)

end

end Verif.Modes
