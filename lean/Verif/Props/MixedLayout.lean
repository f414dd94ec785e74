/-
C32: the layout of the coupled element matrix of the mixed formulation.

The unknowns of an element are numbered: displacement component `i` at position `i`, and for pressure node
`j` the volume change at position `n+2j-1` and the pressure at position `n+2j`.
-/
import Verif.Model.Mixed
import Verif.Proofs.Assign
import Mathlib.Tactic.Linarith
import Mathlib.Tactic.NormNum
import Mathlib.Tactic.Ring

set_option linter.unusedSectionVars false
set_option linter.unnecessarySeqFocus false
set_option linter.unusedSimpArgs false
set_option linter.unusedVariables false

namespace Verif.Mixed

variable {K : Type*} [Field K]

/-- Positions of the unknowns. -/
def thetaPos (n j : Nat) : Nat := n + 2 * j - 1
def presPos (n j : Nat) : Nat := n + 2 * j

/-- Helper: the coupled matrix as a function of the position. -/
def full (n : Nat) (B : Blocks K) (a b : Nat) : K :=
  if a ≤ n then
    if b ≤ n then B.uu a b
    else if (b - n) % 2 = 1 then B.ut a ((b - n + 1) / 2) else B.up a ((b - n) / 2)
  else if b ≤ n then
    if (a - n) % 2 = 1 then B.ut b ((a - n + 1) / 2) else B.up b ((a - n) / 2)
  else if (a - n) % 2 = 1 then
    if (b - n) % 2 = 1 then B.tt ((a - n + 1) / 2) ((b - n + 1) / 2)
    else B.tp ((a - n + 1) / 2) ((b - n) / 2)
  else if (b - n) % 2 = 1 then B.tp ((b - n + 1) / 2) ((a - n) / 2) else 0

theorem mem_rowU (n m : Nat) (B : Blocks K) (i : Nat) (hi1 : 1 ≤ i) (hi : i ≤ n)
    (x : Nat × Nat × K) (hx : x ∈ rowU n m B i) :
    x.2.2 = full n B x.1 x.2.1 ∧ 1 ≤ x.1 ∧ x.1 ≤ n + 2 * m ∧ 1 ≤ x.2.1 ∧ x.2.1 ≤ n + 2 * m ∧
      (x.1 ≤ n ∨ x.2.1 ≤ n) := by
  unfold rowU at hx
  simp only [List.mem_append, List.mem_map, List.mem_range, List.mem_flatMap, List.mem_cons,
    List.not_mem_nil, or_false] at hx
  rcases hx with ⟨j, hj, rfl⟩ | ⟨j, hj, rfl | rfl | rfl | rfl⟩
  · refine ⟨?_, hi1, by simp only; omega, by simp only; omega, by simp only; omega, Or.inl hi⟩
    simp only [full]
    rw [if_pos hi, if_pos (by omega)]
  · refine ⟨?_, hi1, by simp only; omega, by simp only; omega, by simp only; omega, Or.inl hi⟩
    simp only [full]
    rw [if_pos hi, if_neg (show ¬ n + 2 * (j + 1) - 1 ≤ n by omega),
      if_pos (show (n + 2 * (j + 1) - 1 - n) % 2 = 1 by omega)]
    congr 1; omega
  · refine ⟨?_, by simp only; omega, by simp only; omega, hi1, by simp only; omega, Or.inr hi⟩
    simp only [full]
    rw [if_neg (show ¬ n + 2 * (j + 1) - 1 ≤ n by omega), if_pos hi,
      if_pos (show (n + 2 * (j + 1) - 1 - n) % 2 = 1 by omega)]
    congr 1; omega
  · refine ⟨?_, hi1, by simp only; omega, by simp only; omega, by simp only; omega, Or.inl hi⟩
    simp only [full]
    rw [if_pos hi, if_neg (show ¬ n + 2 * (j + 1) ≤ n by omega),
      if_neg (show ¬ (n + 2 * (j + 1) - n) % 2 = 1 by omega)]
    congr 1; omega
  · refine ⟨?_, by simp only; omega, by simp only; omega, hi1, by simp only; omega, Or.inr hi⟩
    simp only [full]
    rw [if_neg (show ¬ n + 2 * (j + 1) ≤ n by omega), if_pos hi,
      if_neg (show ¬ (n + 2 * (j + 1) - n) % 2 = 1 by omega)]
    congr 1; omega

theorem mem_rowT (n m : Nat) (B : Blocks K) (i : Nat) (hi1 : 1 ≤ i) (hi : i ≤ m)
    (x : Nat × Nat × K) (hx : x ∈ rowT n m B i) :
    x.2.2 = full n B x.1 x.2.1 ∧ 1 ≤ x.1 ∧ x.1 ≤ n + 2 * m ∧ 1 ≤ x.2.1 ∧ x.2.1 ≤ n + 2 * m ∧
      (n < x.1 ∧ n < x.2.1) ∧ ((x.1 - n) % 2 = 1 ∨ (x.2.1 - n) % 2 = 1) := by
  unfold rowT at hx
  simp only [List.mem_map, List.mem_range, List.mem_flatMap, List.mem_cons,
    List.not_mem_nil, or_false] at hx
  obtain ⟨j, hj, rfl | rfl | rfl⟩ := hx
  · refine ⟨?_, by simp only; omega, by simp only; omega, by simp only; omega, by simp only; omega,
      ⟨by simp only; omega, by simp only; omega⟩, Or.inl (by simp only; omega)⟩
    simp only [full]
    rw [if_neg (show ¬ n + 2 * i - 1 ≤ n by omega), if_neg (show ¬ n + 2 * (j + 1) - 1 ≤ n by omega),
      if_pos (show (n + 2 * i - 1 - n) % 2 = 1 by omega),
      if_pos (show (n + 2 * (j + 1) - 1 - n) % 2 = 1 by omega)]
    congr 1 <;> omega
  · refine ⟨?_, by simp only; omega, by simp only; omega, by simp only; omega, by simp only; omega,
      ⟨by simp only; omega, by simp only; omega⟩, Or.inl (by simp only; omega)⟩
    simp only [full]
    rw [if_neg (show ¬ n + 2 * i - 1 ≤ n by omega), if_neg (show ¬ n + 2 * (j + 1) ≤ n by omega),
      if_pos (show (n + 2 * i - 1 - n) % 2 = 1 by omega),
      if_neg (show ¬ (n + 2 * (j + 1) - n) % 2 = 1 by omega)]
    congr 1 <;> omega
  · refine ⟨?_, by simp only; omega, by simp only; omega, by simp only; omega, by simp only; omega,
      ⟨by simp only; omega, by simp only; omega⟩, Or.inr (by simp only; omega)⟩
    simp only [full]
    rw [if_neg (show ¬ n + 2 * (j + 1) ≤ n by omega), if_neg (show ¬ n + 2 * i - 1 ≤ n by omega),
      if_neg (show ¬ (n + 2 * (j + 1) - n) % 2 = 1 by omega),
      if_pos (show (n + 2 * i - 1 - n) % 2 = 1 by omega)]
    congr 1 <;> omega

theorem newton_eq (n m : Nat) (B : Blocks K) (N : DMat K) :
    newton n m B N = N.setMany ((List.range n).flatMap (fun i => rowU n m B (i + 1)) ++
      (List.range m).flatMap fun i => rowT n m B (i + 1)) := by
  unfold newton
  rw [loop_setMany (fun i => rowU n m B (i + 1)), setMany_append]
  congr 1
  funext N
  exact loop_setMany (fun i => rowT n m B (i + 1)) m N

theorem newton_full (n m : Nat) (B : Blocks K) (N0 : DMat K) (hr : N0.nr = n + 2 * m)
    (hc : N0.nc = n + 2 * m) :
    ∃ N, newton n m B N0 = .ok N ∧ N.nr = n + 2 * m ∧ N.nc = n + 2 * m ∧
      ∀ a b, 1 ≤ a → a ≤ n + 2 * m → 1 ≤ b → b ≤ n + 2 * m →
        N.e a b = if n < a ∧ n < b ∧ (a - n) % 2 = 0 ∧ (b - n) % 2 = 0 then N0.e a b
          else full n B a b := by
  classical
  have hmem : ∀ x, x ∈ ((List.range n).flatMap (fun i => rowU n m B (i + 1)) ++
      (List.range m).flatMap fun i => rowT n m B (i + 1)) →
      x.2.2 = full n B x.1 x.2.1 ∧ 1 ≤ x.1 ∧ x.1 ≤ n + 2 * m ∧ 1 ≤ x.2.1 ∧ x.2.1 ≤ n + 2 * m ∧
      ((x.1 ≤ n ∨ x.2.1 ≤ n) ∨ ((x.1 - n) % 2 = 1 ∨ (x.2.1 - n) % 2 = 1)) := by
    intro x hx
    simp only [List.mem_append, List.mem_flatMap, List.mem_range] at hx
    rcases hx with ⟨i, hi, hx⟩ | ⟨i, hi, hx⟩
    · obtain ⟨a, b, c, d, e, f⟩ := mem_rowU n m B (i + 1) (by omega) (by omega) x hx
      exact ⟨a, b, c, d, e, Or.inl f⟩
    · obtain ⟨a, b, c, d, e, f, g⟩ := mem_rowT n m B (i + 1) (by omega) (by omega) x hx
      exact ⟨a, b, c, d, e, Or.inr g⟩
  obtain ⟨N, e, n1, n2, he⟩ := setMany_fun (full n B) _ N0 (fun x hx => (hmem x hx).1)
    (fun x hx => by
      obtain ⟨-, b, c, d, e, -⟩ := hmem x hx
      exact ⟨b, by omega, d, by omega⟩)
  refine ⟨N, by rw [newton_eq]; exact e, by omega, by omega, fun a b a1 a2 b1 b2 => ?_⟩
  rw [he]
  by_cases h : n < a ∧ n < b ∧ (a - n) % 2 = 0 ∧ (b - n) % 2 = 0
  · rw [if_pos h, if_neg]
    rintro ⟨x, hx, rfl, rfl⟩
    obtain ⟨-, -, -, -, -, f⟩ := hmem x hx
    omega
  · rw [if_neg h, if_pos]
    simp only [List.mem_append, List.mem_flatMap, List.mem_range]
    by_cases ha : a ≤ n
    · refine ⟨(a, b, full n B a b), Or.inl ⟨a - 1, by omega, ?_⟩, rfl, rfl⟩
      rw [show a - 1 + 1 = a by omega]
      unfold rowU
      simp only [List.mem_append, List.mem_map, List.mem_range, List.mem_flatMap, List.mem_cons,
        List.not_mem_nil, or_false]
      by_cases hb : b ≤ n
      · refine Or.inl ⟨b - 1, by omega, ?_⟩
        rw [show b - 1 + 1 = b by omega, full, if_pos ha, if_pos hb]
      · refine Or.inr ⟨(b - n - 1) / 2, by omega, ?_⟩
        rcases Nat.mod_two_eq_zero_or_one (b - n) with h0 | h1
        · refine Or.inr (Or.inr (Or.inl ?_))
          rw [full, if_pos ha, if_neg hb, if_neg (show ¬ (b - n) % 2 = 1 by omega),
            show (b - n - 1) / 2 + 1 = (b - n) / 2 by omega,
            show n + 2 * ((b - n) / 2) = b by omega]
        · refine Or.inl ?_
          rw [full, if_pos ha, if_neg hb, if_pos h1,
            show (b - n - 1) / 2 + 1 = (b - n + 1) / 2 by omega,
            show n + 2 * ((b - n + 1) / 2) - 1 = b by omega]
    · by_cases hb : b ≤ n
      · refine ⟨(a, b, full n B a b), Or.inl ⟨b - 1, by omega, ?_⟩, rfl, rfl⟩
        rw [show b - 1 + 1 = b by omega]
        unfold rowU
        simp only [List.mem_append, List.mem_map, List.mem_range, List.mem_flatMap, List.mem_cons,
          List.not_mem_nil, or_false]
        refine Or.inr ⟨(a - n - 1) / 2, by omega, ?_⟩
        rcases Nat.mod_two_eq_zero_or_one (a - n) with h0 | h1
        · refine Or.inr (Or.inr (Or.inr ?_))
          rw [full, if_neg ha, if_pos hb, if_neg (show ¬ (a - n) % 2 = 1 by omega),
            show (a - n - 1) / 2 + 1 = (a - n) / 2 by omega,
            show n + 2 * ((a - n) / 2) = a by omega]
        · refine Or.inr (Or.inl ?_)
          rw [full, if_neg ha, if_pos hb, if_pos h1,
            show (a - n - 1) / 2 + 1 = (a - n + 1) / 2 by omega,
            show n + 2 * ((a - n + 1) / 2) - 1 = a by omega]
      · rcases Nat.mod_two_eq_zero_or_one (a - n) with h0 | h1
        · -- a pressure, b volume change
          have hb1 : (b - n) % 2 = 1 := by omega
          refine ⟨(a, b, full n B a b), Or.inr ⟨(b - n - 1) / 2, by omega, ?_⟩, rfl, rfl⟩
          unfold rowT
          simp only [List.mem_flatMap, List.mem_range, List.mem_cons, List.not_mem_nil, or_false]
          refine ⟨(a - n - 1) / 2, by omega, Or.inr (Or.inr ?_)⟩
          rw [full, if_neg ha, if_neg hb, if_neg (show ¬ (a - n) % 2 = 1 by omega), if_pos hb1,
            show (b - n - 1) / 2 + 1 = (b - n + 1) / 2 by omega,
            show (a - n - 1) / 2 + 1 = (a - n) / 2 by omega,
            show n + 2 * ((a - n) / 2) = a by omega,
            show n + 2 * ((b - n + 1) / 2) - 1 = b by omega]
        · refine ⟨(a, b, full n B a b), Or.inr ⟨(a - n - 1) / 2, by omega, ?_⟩, rfl, rfl⟩
          unfold rowT
          simp only [List.mem_flatMap, List.mem_range, List.mem_cons, List.not_mem_nil, or_false]
          refine ⟨(b - n - 1) / 2, by omega, ?_⟩
          rcases Nat.mod_two_eq_zero_or_one (b - n) with hb0 | hb1
          · refine Or.inr (Or.inl ?_)
            rw [full, if_neg ha, if_neg hb, if_pos h1, if_neg (show ¬ (b - n) % 2 = 1 by omega),
              show (a - n - 1) / 2 + 1 = (a - n + 1) / 2 by omega,
              show (b - n - 1) / 2 + 1 = (b - n) / 2 by omega,
              show n + 2 * ((b - n) / 2) = b by omega,
              show n + 2 * ((a - n + 1) / 2) - 1 = a by omega]
          · refine Or.inl ?_
            rw [full, if_neg ha, if_neg hb, if_pos h1, if_pos hb1,
              show (a - n - 1) / 2 + 1 = (a - n + 1) / 2 by omega,
              show (b - n - 1) / 2 + 1 = (b - n + 1) / 2 by omega,
              show n + 2 * ((b - n + 1) / 2) - 1 = b by omega,
              show n + 2 * ((a - n + 1) / 2) - 1 = a by omega]

/-- The numbering: every position belongs to exactly one unknown. -/
theorem C32_numbering (n m k : Nat) (h1 : 1 ≤ k) (h2 : k ≤ n + 2 * m) :
    (k ≤ n ∧ (¬ ∃ j, 1 ≤ j ∧ j ≤ m ∧ k = n + 2 * j - 1) ∧ ¬ ∃ j, 1 ≤ j ∧ j ≤ m ∧ k = n + 2 * j) ∨
    (n < k ∧ (∃! j, 1 ≤ j ∧ j ≤ m ∧ k = n + 2 * j - 1) ∧ ¬ ∃ j, 1 ≤ j ∧ j ≤ m ∧ k = n + 2 * j) ∨
    (n < k ∧ (¬ ∃ j, 1 ≤ j ∧ j ≤ m ∧ k = n + 2 * j - 1) ∧ ∃! j, 1 ≤ j ∧ j ≤ m ∧ k = n + 2 * j) := by
  by_cases h : k ≤ n
  · exact Or.inl ⟨h, by rintro ⟨j, a, b, c⟩; omega, by rintro ⟨j, a, b, c⟩; omega⟩
  · rcases Nat.mod_two_eq_zero_or_one (k - n) with h0 | h1
    · exact Or.inr (Or.inr ⟨by omega, by rintro ⟨j, a, b, c⟩; omega,
        ⟨(k - n) / 2, ⟨by omega, by omega, by omega⟩, fun y hy => by omega⟩⟩)
    · exact Or.inr (Or.inl ⟨by omega, ⟨(k - n + 1) / 2, ⟨by omega, by omega, by omega⟩,
        fun y hy => by omega⟩, by rintro ⟨j, a, b, c⟩; omega⟩)

/-- C32: the coupled matrix of an element with `n` displacement components and `m` pressure nodes holds
every block at the positions of its unknowns, the coupling blocks also transposed, and zero between
two pressures. -/
theorem C32_matrix (n m : Nat) (B : Blocks K) :
    ∃ N, newton n m B (DMat.zero (n + 2 * m) (n + 2 * m)) = .ok N ∧
      N.nr = n + 2 * m ∧ N.nc = n + 2 * m ∧
      (∀ i i', 1 ≤ i → i ≤ n → 1 ≤ i' → i' ≤ n → N.e i i' = B.uu i i') ∧
      (∀ i j, 1 ≤ i → i ≤ n → 1 ≤ j → j ≤ m →
        N.e i (n + 2 * j - 1) = B.ut i j ∧ N.e (n + 2 * j - 1) i = B.ut i j ∧
        N.e i (n + 2 * j) = B.up i j ∧ N.e (n + 2 * j) i = B.up i j) ∧
      ∀ j j', 1 ≤ j → j ≤ m → 1 ≤ j' → j' ≤ m →
        N.e (n + 2 * j - 1) (n + 2 * j' - 1) = B.tt j j' ∧
        N.e (n + 2 * j - 1) (n + 2 * j') = B.tp j j' ∧
        N.e (n + 2 * j') (n + 2 * j - 1) = B.tp j j' ∧
        N.e (n + 2 * j) (n + 2 * j') = 0 := by
  obtain ⟨N, e, n1, n2, he⟩ := newton_full n m B (DMat.zero (n + 2 * m) (n + 2 * m)) rfl rfl
  refine ⟨N, e, n1, n2, ?_, ?_, ?_⟩
  · intro i i' a b c d
    rw [he i i' a (by omega) c (by omega), if_neg (by omega), full, if_pos b, if_pos d]
  · intro i j a b c d
    refine ⟨?_, ?_, ?_, ?_⟩
    · rw [he _ _ (by omega) (by omega) (by omega) (by omega), if_neg (by omega), full, if_pos b,
        if_neg (show ¬ n + 2 * j - 1 ≤ n by omega),
        if_pos (show (n + 2 * j - 1 - n) % 2 = 1 by omega)]
      congr 1; omega
    · rw [he _ _ (by omega) (by omega) (by omega) (by omega), if_neg (by omega), full,
        if_neg (show ¬ n + 2 * j - 1 ≤ n by omega), if_pos b,
        if_pos (show (n + 2 * j - 1 - n) % 2 = 1 by omega)]
      congr 1; omega
    · rw [he _ _ (by omega) (by omega) (by omega) (by omega), if_neg (by omega), full, if_pos b,
        if_neg (show ¬ n + 2 * j ≤ n by omega),
        if_neg (show ¬ (n + 2 * j - n) % 2 = 1 by omega)]
      congr 1; omega
    · rw [he _ _ (by omega) (by omega) (by omega) (by omega), if_neg (by omega), full,
        if_neg (show ¬ n + 2 * j ≤ n by omega), if_pos b,
        if_neg (show ¬ (n + 2 * j - n) % 2 = 1 by omega)]
      congr 1; omega
  · intro i j a b c d
    refine ⟨?_, ?_, ?_, ?_⟩
    · rw [he _ _ (by omega) (by omega) (by omega) (by omega), if_neg (by omega), full,
        if_neg (show ¬ n + 2 * i - 1 ≤ n by omega), if_neg (show ¬ n + 2 * j - 1 ≤ n by omega),
        if_pos (show (n + 2 * i - 1 - n) % 2 = 1 by omega),
        if_pos (show (n + 2 * j - 1 - n) % 2 = 1 by omega)]
      congr 1 <;> omega
    · rw [he _ _ (by omega) (by omega) (by omega) (by omega), if_neg (by omega), full,
        if_neg (show ¬ n + 2 * i - 1 ≤ n by omega), if_neg (show ¬ n + 2 * j ≤ n by omega),
        if_pos (show (n + 2 * i - 1 - n) % 2 = 1 by omega),
        if_neg (show ¬ (n + 2 * j - n) % 2 = 1 by omega)]
      congr 1 <;> omega
    · rw [he _ _ (by omega) (by omega) (by omega) (by omega), if_neg (by omega), full,
        if_neg (show ¬ n + 2 * j ≤ n by omega), if_neg (show ¬ n + 2 * i - 1 ≤ n by omega),
        if_neg (show ¬ (n + 2 * j - n) % 2 = 1 by omega),
        if_pos (show (n + 2 * i - 1 - n) % 2 = 1 by omega)]
      congr 1 <;> omega
    · rw [he _ _ (by omega) (by omega) (by omega) (by omega), if_pos (by omega)]
      rfl

/-- C32, symmetry: the coupled matrix is symmetric when the two diagonal blocks are. -/
theorem C32_symmetric (n m : Nat) (B : Blocks K)
    (hu : ∀ i j, 1 ≤ i → i ≤ n → 1 ≤ j → j ≤ n → B.uu i j = B.uu j i)
    (ht : ∀ i j, 1 ≤ i → i ≤ m → 1 ≤ j → j ≤ m → B.tt i j = B.tt j i) :
    ∃ N, newton n m B (DMat.zero (n + 2 * m) (n + 2 * m)) = .ok N ∧
      ∀ a b, 1 ≤ a → a ≤ n + 2 * m → 1 ≤ b → b ≤ n + 2 * m → N.e a b = N.e b a := by
  obtain ⟨N, e, n1, n2, he⟩ := newton_full n m B (DMat.zero (n + 2 * m) (n + 2 * m)) rfl rfl
  refine ⟨N, e, fun a b a1 a2 b1 b2 => ?_⟩
  rw [he a b a1 a2 b1 b2, he b a b1 b2 a1 a2]
  by_cases h : n < a ∧ n < b ∧ (a - n) % 2 = 0 ∧ (b - n) % 2 = 0
  · rw [if_pos h, if_pos (by omega)]; rfl
  · rw [if_neg h, if_neg (by omega)]
    unfold full
    by_cases ha : a ≤ n
    · by_cases hb : b ≤ n
      · rw [if_pos ha, if_pos hb, if_pos hb, if_pos ha, hu a b a1 ha b1 hb]
      · rw [if_pos ha, if_neg hb, if_neg hb, if_pos ha]
    · by_cases hb : b ≤ n
      · rw [if_neg ha, if_pos hb, if_pos hb, if_neg ha]
      · rw [if_neg ha, if_neg hb, if_neg hb, if_neg ha]
        by_cases h1 : (a - n) % 2 = 1
        · by_cases h2 : (b - n) % 2 = 1
          · rw [if_pos h1, if_pos h2, if_pos h2, if_pos h1]
            exact ht _ _ (by omega) (by omega) (by omega) (by omega)
          · rw [if_pos h1, if_neg h2, if_neg h2, if_pos h1]
        · by_cases h2 : (b - n) % 2 = 1
          · rw [if_neg h1, if_pos h2, if_pos h2, if_neg h1]
          · omega

theorem loop_ru (n : Nat) (Ru : Nat → K) (R : DVec K) (h : n ≤ R.n) :
    ∃ R', loop (fun i R => DVec.set R (i + 1) (Ru (i + 1))) n R = .ok R' ∧ R'.n = R.n ∧
      ∀ i, R'.e i = if 1 ≤ i ∧ i ≤ n then Ru i else R.e i := by
  refine loop_inv _ (fun k R' => R'.n = R.n ∧ ∀ i, R'.e i = if 1 ≤ i ∧ i ≤ k then Ru i else R.e i)
    n R ⟨rfl, fun i => by rw [if_neg (by omega)]⟩ ?_
  rintro k S hk ⟨h1, h2⟩
  refine ⟨⟨S.n, fun a => if a = k + 1 then Ru (k + 1) else S.e a⟩, if_pos ⟨by omega, by omega⟩, h1,
    fun i => ?_⟩
  simp only
  by_cases hi : i = k + 1
  · subst hi; rw [if_pos rfl, if_pos (by omega)]
  · rw [if_neg hi, h2]
    exact if_congr (by omega) rfl rfl

/-- C32, right-hand side: the residuals are ordered as the unknowns of the matrix; without a tangent the
entries of volume change and pressure are zero. -/
theorem C32_rhs (n m : Nat) (withLHS : Bool) (Ru Rt Rp : Nat → K) (R0 : DVec K)
    (h0 : R0.n = n + 2 * m) :
    ∃ R, rhs n m withLHS Ru Rt Rp R0 = .ok R ∧ R.n = n + 2 * m ∧
      (∀ i, 1 ≤ i → i ≤ n → R.e i = Ru i) ∧
      ∀ j, 1 ≤ j → j ≤ m → R.e (n + 2 * j - 1) = (if withLHS then Rt j else 0) ∧
        R.e (n + 2 * j) = if withLHS then Rp j else 0 := by
  obtain ⟨R1, e1, s1, v1⟩ := loop_ru n Ru R0 (by omega)
  unfold rhs
  rw [e1, show ∀ (p : DVec K) (f : DVec K → Res (DVec K)), (Res.ok p).bind f = f p from fun _ _ => rfl]
  cases withLHS with
  | true =>
    rw [if_pos rfl]
    obtain ⟨R, e, s, v⟩ := loop_inv (fun i R => (DVec.set R (n + 2 * (i + 1) - 1) (Rt (i + 1))).bind
      fun R => DVec.set R (n + 2 * (i + 1)) (Rp (i + 1)))
      (fun k R' => R'.n = n + 2 * m ∧ ∀ i, R'.e i = if n < i ∧ i ≤ n + 2 * k then
        (if (i - n) % 2 = 1 then Rt ((i - n + 1) / 2) else Rp ((i - n) / 2)) else R1.e i) m R1
      ⟨by omega, fun i => by rw [if_neg (by omega)]⟩ (by
      rintro k S hk ⟨h1, h2⟩
      refine ⟨⟨S.n, fun a => if a = n + 2 * (k + 1) then Rp (k + 1) else
        if a = n + 2 * (k + 1) - 1 then Rt (k + 1) else S.e a⟩, ?_, h1, fun i => ?_⟩
      · have e2 : DVec.set S (n + 2 * (k + 1) - 1) (Rt (k + 1)) = .ok ⟨S.n, fun a =>
            if a = n + 2 * (k + 1) - 1 then Rt (k + 1) else S.e a⟩ := if_pos ⟨by omega, by omega⟩
        rw [e2]
        exact if_pos ⟨by omega, by simp only; omega⟩
      · simp only
        by_cases ha : i = n + 2 * (k + 1)
        · subst ha
          rw [if_pos rfl, if_pos ⟨by omega, le_rfl⟩,
            if_neg (show ¬ (n + 2 * (k + 1) - n) % 2 = 1 by omega)]
          congr 1; omega
        · by_cases hb : i = n + 2 * (k + 1) - 1
          · subst hb
            rw [if_neg ha, if_pos rfl, if_pos ⟨by omega, by omega⟩,
              if_pos (show (n + 2 * (k + 1) - 1 - n) % 2 = 1 by omega)]
            congr 1; omega
          · rw [if_neg ha, if_neg hb, h2]
            exact if_congr (by omega) rfl rfl)
    refine ⟨R, e, s, fun i a b => ?_, fun j a b => ⟨?_, ?_⟩⟩
    · rw [v, if_neg (by omega), v1, if_pos ⟨a, b⟩]
    · rw [v, if_pos ⟨by omega, by omega⟩, if_pos (show (n + 2 * j - 1 - n) % 2 = 1 by omega), if_pos rfl]
      congr 1; omega
    · rw [v, if_pos ⟨by omega, by omega⟩, if_neg (show ¬ (n + 2 * j - n) % 2 = 1 by omega), if_pos rfl]
      congr 1; omega
  | false =>
    refine ⟨⟨R1.n, fun i => if i ≤ n then R1.e i else 0⟩, rfl, by simp only; omega, fun i a b => ?_,
      fun j a b => ⟨?_, ?_⟩⟩
    · simp only
      rw [if_pos b, v1, if_pos ⟨a, b⟩]
    · simp only
      rw [if_neg (by omega)]; rfl
    · simp only
      rw [if_neg (by omega)]; rfl

/-- An element with eight displacement components and one pressure node. -/
example : ∃ N, newton 8 1 (⟨fun _ _ => 1, fun i _ => (i : ℚ), fun i _ => 2 * i, fun _ _ => 5,
      fun _ _ => -1⟩ : Blocks ℚ) (DMat.zero 10 10) = .ok N ∧ N.e 9 3 = 3 ∧ N.e 3 10 = 6 ∧
      N.e 9 9 = 5 ∧ N.e 10 9 = -1 ∧ N.e 10 10 = 0 := by
  obtain ⟨N, e, -, -, -, h2, h3⟩ := C32_matrix 8 1 (⟨fun _ _ => 1, fun i _ => (i : ℚ),
    fun i _ => 2 * i, fun _ _ => 5, fun _ _ => -1⟩ : Blocks ℚ)
  obtain ⟨a, b, c, d⟩ := h2 3 1 (by norm_num) (by norm_num) (by norm_num) (by norm_num)
  obtain ⟨a', b', c', d'⟩ := h3 1 1 (by norm_num) (by norm_num) (by norm_num) (by norm_num)
  exact ⟨N, e, b.trans (by norm_num), c.trans (by norm_num), a', c', d'⟩

example : ∃ R, rhs 8 1 true (fun i => (i : ℚ)) (fun _ => 20) (fun _ => 30) (DVec.zero 10) = .ok R ∧
    R.e 9 = 20 ∧ R.e 10 = 30 := by
  obtain ⟨R, e, -, -, h⟩ := C32_rhs 8 1 true (fun i => (i : ℚ)) (fun _ => 20) (fun _ => 30)
    (DVec.zero 10) rfl
  obtain ⟨a, b⟩ := h 1 le_rfl le_rfl
  exact ⟨R, e, a, b⟩

end Verif.Mixed
