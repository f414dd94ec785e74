/- Sequences of assignments whose values are given by the position. -/
import Verif.Proofs.Basic

set_option linter.unusedSectionVars false

namespace Verif

open Classical in
theorem foldl_fun {T : Type*} (f : Nat → Nat → T) (l : List (Nat × Nat × T))
    (h : ∀ x ∈ l, x.2.2 = f x.1 x.2.1) (e : Nat → Nat → T) (a b : Nat) :
    l.foldl (fun e x => fun a b => if a = x.1 ∧ b = x.2.1 then x.2.2 else e a b) e a b
      = if ∃ x ∈ l, x.1 = a ∧ x.2.1 = b then f a b else e a b := by
  induction l generalizing e with
  | nil => simp
  | cons x l ih =>
    rw [List.foldl_cons, ih (fun y hy => h y (by simp [hy]))]
    by_cases h1 : ∃ x ∈ l, x.1 = a ∧ x.2.1 = b
    · rw [if_pos h1, if_pos (by obtain ⟨y, hy, e⟩ := h1; exact ⟨y, by simp [hy], e⟩)]
    · rw [if_neg h1]
      by_cases h2 : a = x.1 ∧ b = x.2.1
      · rw [if_pos h2, if_pos ⟨x, by simp, h2.1.symm, h2.2.symm⟩, h x (by simp), h2.1, h2.2]
      · rw [if_neg h2, if_neg]
        rintro ⟨y, hy, e⟩
        rcases List.mem_cons.mp hy with rfl | hy
        · exact h2 ⟨e.1.symm, e.2.symm⟩
        · exact h1 ⟨y, hy, e⟩

theorem setMany_append {T : Type*} (A : DMat T) (l m : List (Nat × Nat × T)) :
    A.setMany (l ++ m) = (A.setMany l).bind fun B => B.setMany m := by
  induction l generalizing A with
  | nil => rfl
  | cons x l ih =>
    obtain ⟨i, j, v⟩ := x
    simp only [List.cons_append, DMat.setMany]
    cases A.set i j v with
    | ok B => exact ih B
    | fail => rfl
    | ub => rfl

theorem loop_setMany {T : Type*} (g : Nat → List (Nat × Nat × T)) (n : Nat) (A : DMat T) :
    loop (fun i B => B.setMany (g i)) n A = A.setMany ((List.range n).flatMap g) := by
  induction n with
  | zero => rfl
  | succ n ih =>
    rw [List.range_succ, List.flatMap_append, setMany_append, ← ih]
    simp only [loop, List.flatMap_cons, List.flatMap_nil, List.append_nil]
    cases loop (fun i B => B.setMany (g i)) n A <;> rfl

open Classical in
/-- Assignments inside the matrix whose values are those of `f` at their positions. -/
theorem setMany_fun {T : Type*} (f : Nat → Nat → T) (l : List (Nat × Nat × T)) (A : DMat T)
    (h : ∀ x ∈ l, x.2.2 = f x.1 x.2.1) (hi : ∀ x ∈ l, A.Inside x.1 x.2.1) :
    ∃ B, A.setMany l = .ok B ∧ B.nr = A.nr ∧ B.nc = A.nc ∧
      ∀ a b, B.e a b = if ∃ x ∈ l, x.1 = a ∧ x.2.1 = b then f a b else A.e a b :=
  ⟨_, DMat.setMany_ok hi, rfl, rfl, fun a b => foldl_fun f l h A.e a b⟩

end Verif
