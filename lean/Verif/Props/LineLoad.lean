/-
C59: line loads on element borders are applied exactly once.
-/
import Verif.Model.LineLoad
import Mathlib.Algebra.BigOperators.Intervals
import Mathlib.Tactic.Ring
import Mathlib.Tactic.Linarith
import Mathlib.Tactic.NormNum
set_option linter.unusedSectionVars false
set_option linter.unusedSimpArgs false
set_option linter.unusedVariables false

namespace Verif.LineLoad
open Finset

variable {K : Type} [Field K] [LinearOrder K] [IsStrictOrderedRing K]

/-- A grid: values strictly increasing up to number `m`. -/
def Grid (m : Nat) (xs : Nat → K) : Prop := ∀ i j, i < j → j ≤ m → xs i < xs j

/-- C59 (which borders): for a line at `u` over `[a,b]` the west border of an element is picked exactly when it lies on the line and within
the range, the east border likewise, and no other border; correspondingly for a line in the other direction. -/
theorem C59_mask (u a b u0 u1 v0 v1 : K) (hu : u0 < u1) (hv : v0 < v1) :
    (maskBorder (setDomainNS u a b) u0 u1 v0 v1 = 1 ↔ u0 = u ∧ a ≤ v0 ∧ v1 ≤ b) ∧
    (maskBorder (setDomainNS u a b) u0 u1 v0 v1 = 2 ↔ u1 = u ∧ a ≤ v0 ∧ v1 ≤ b) ∧
    (maskBorder (setDomainNS u a b) u0 u1 v0 v1 ∈ [0, 1, 2]) ∧
    (maskBorder (setDomainEW u a b) u0 u1 v0 v1 = 4 ↔ v0 = u ∧ a ≤ u0 ∧ u1 ≤ b) ∧
    (maskBorder (setDomainEW u a b) u0 u1 v0 v1 = 8 ↔ v1 = u ∧ a ≤ u0 ∧ u1 ≤ b) ∧
    (maskBorder (setDomainEW u a b) u0 u1 v0 v1 ∈ [0, 4, 8]) := by
  have n1 : ¬ (a = b ∧ u0 ≥ u ∧ u1 ≤ u) := fun ⟨_, h1, h2⟩ => absurd (lt_of_le_of_lt h1 hu) (not_lt.2 h2)
  have n2 : ¬ (a = b ∧ v0 ≥ u ∧ v1 ≤ u) := fun ⟨_, h1, h2⟩ => absurd (lt_of_le_of_lt h1 hv) (not_lt.2 h2)
  have ne1 : u0 = u → u1 ≠ u := fun h h' => hu.ne (h.trans h'.symm)
  have ne2 : v0 = u → v1 ≠ u := fun h h' => hv.ne (h.trans h'.symm)
  have E1 : maskBorder (setDomainNS u a b) u0 u1 v0 v1 = if a ≤ v0 ∧ v1 ≤ b then (if u0 = u then 1 else if u1 = u then 2 else 0) else 0 := by
    unfold maskBorder setDomainNS
    simp only [true_and, ge_iff_le]
    by_cases h : a ≤ v0 ∧ v1 ≤ b
    · rw [if_pos h, if_pos h]
    · rw [if_neg h, if_neg h, if_neg n1]
  have E2 : maskBorder (setDomainEW u a b) u0 u1 v0 v1 = if a ≤ u0 ∧ u1 ≤ b then (if v0 = u then 4 else if v1 = u then 8 else 0) else 0 := by
    unfold maskBorder setDomainEW
    simp only [true_and, ge_iff_le]
    rw [if_neg n2]
  rw [E1, E2]
  refine ⟨?_, ?_, ?_, ?_, ?_, ?_⟩
  · split_ifs with h h1 h2 <;> simp [*]
  · split_ifs with h h1 h2 <;> simp [*]
  · split_ifs <;> simp
  · split_ifs with h h1 h2 <;> simp [*]
  · split_ifs with h h1 h2 <;> simp [*]
  · split_ifs <;> simp

/-! ### Sums over the grid -/

theorem grid_inj {m : Nat} {xs : Nat → K} (h : Grid m xs) {i j : Nat} (hi : i ≤ m) (hj : j ≤ m) (e : xs i = xs j) : i = j := by
  rcases Nat.lt_trichotomy i j with h1 | h1 | h1
  · exact absurd e (h i j h1 hj).ne
  · exact h1
  · exact absurd e (h j i h1 hi).ne'

theorem grid_le {m : Nat} {xs : Nat → K} (h : Grid m xs) {i j : Nat} (hi : i ≤ m) (hj : j ≤ m) : xs i ≤ xs j ↔ i ≤ j := by
  constructor
  · intro e
    by_contra hc
    exact absurd (h j i (not_le.1 hc) hi) (not_lt.2 e)
  · intro e
    rcases Nat.lt_or_eq_of_le e with h1 | h1
    · exact (h i j h1 hj).le
    · rw [h1]

/-- Contribution of an element to a line in the second parameter direction. -/
theorem elm_ns (u a b : K) (G : K → K) {u0 u1 v0 v1 : K} (hu : u0 < u1) (hv : v0 < v1) :
    elmLoad (setDomainNS u a b) G u0 u1 v0 v1 =
      ((if u0 = u then 1 / 2 else 0) + (if u1 = u then 1 / 2 else 0)) * (if a ≤ v0 ∧ v1 ≤ b then G v1 - G v0 else 0) := by
  obtain ⟨h1, h2, h3, -⟩ := C59_mask u a b u0 u1 v0 v1 hu hv
  have ne : u0 = u → u1 ≠ u := fun h h' => hu.ne (h.trans h'.symm)
  unfold elmLoad
  simp only [h1, h2]
  have h4 : ¬ (maskBorder (setDomainNS u a b) u0 u1 v0 v1 = 4 ∨ maskBorder (setDomainNS u a b) u0 u1 v0 v1 = 8) := by
    simp only [List.mem_cons, List.not_mem_nil, or_false] at h3
    omega
  rw [if_neg h4]
  by_cases hr : a ≤ v0 ∧ v1 ≤ b
  · by_cases e0 : u0 = u
    · simp [hr, e0, ne e0]
    · by_cases e1 : u1 = u
      · simp [hr, e0, e1]
      · simp [e0, e1]
  · have n1 : ¬ (u0 = u ∧ a ≤ v0 ∧ v1 ≤ b) := fun h => hr h.2
    have n2 : ¬ (u1 = u ∧ a ≤ v0 ∧ v1 ≤ b) := fun h => hr h.2
    rw [if_neg (fun h => h.elim n1 n2), if_neg hr, mul_zero]

/-- Contribution of an element to a line in the first parameter direction. -/
theorem elm_ew (v a b : K) (G : K → K) {u0 u1 v0 v1 : K} (hu : u0 < u1) (hv : v0 < v1) :
    elmLoad (setDomainEW v a b) G u0 u1 v0 v1 =
      ((if v0 = v then 1 / 2 else 0) + (if v1 = v then 1 / 2 else 0)) * (if a ≤ u0 ∧ u1 ≤ b then G u1 - G u0 else 0) := by
  obtain ⟨-, -, -, h1, h2, h3⟩ := C59_mask v a b u0 u1 v0 v1 hu hv
  have ne : v0 = v → v1 ≠ v := fun h h' => hv.ne (h.trans h'.symm)
  unfold elmLoad
  simp only [h1, h2]
  have h4 : ¬ (maskBorder (setDomainEW v a b) u0 u1 v0 v1 = 1 ∨ maskBorder (setDomainEW v a b) u0 u1 v0 v1 = 2) := by
    simp only [List.mem_cons, List.not_mem_nil, or_false] at h3
    omega
  rw [if_neg h4]
  by_cases hr : a ≤ u0 ∧ u1 ≤ b
  · by_cases e0 : v0 = v
    · simp [hr, e0, ne e0]
    · by_cases e1 : v1 = v
      · simp [hr, e0, e1]
      · simp [e0, e1]
  · have n1 : ¬ (v0 = v ∧ a ≤ u0 ∧ u1 ≤ b) := fun h => hr h.2
    have n2 : ¬ (v1 = v ∧ a ≤ u0 ∧ u1 ≤ b) := fun h => hr h.2
    rw [if_neg (fun h => h.elim n1 n2), if_neg hr, mul_zero]

/-- The number of sides of a grid line with elements. -/
theorem sides {m : Nat} {xs : Nat → K} (h : Grid m xs) {k : Nat} (hk : k ≤ m) :
    ∑ i ∈ range m, ((if xs i = xs k then (1 / 2 : K) else 0) + (if xs (i + 1) = xs k then 1 / 2 else 0)) =
      (if k < m then 1 / 2 else 0) + (if 0 < k then 1 / 2 else 0) := by
  rw [sum_add_distrib]
  congr 1
  · have : ∀ i ∈ range m, (if xs i = xs k then (1 / 2 : K) else 0) = if i = k then 1 / 2 else 0 := by
      intro i hi
      have hi := mem_range.1 hi
      by_cases e : i = k
      · rw [if_pos e, if_pos (by rw [e])]
      · rw [if_neg e, if_neg (fun e' => e (grid_inj h (by omega) hk e'))]
    rw [sum_congr rfl this, sum_ite_eq']
    simp
  · have : ∀ i ∈ range m, (if xs (i + 1) = xs k then (1 / 2 : K) else 0) = if i = k - 1 ∧ 0 < k then 1 / 2 else 0 := by
      intro i hi
      have hi := mem_range.1 hi
      by_cases e : i + 1 = k
      · rw [if_pos (by rw [e]), if_pos (by omega)]
      · rw [if_neg (fun e' => e (grid_inj h (by omega) hk e')), if_neg (by omega)]
    rw [sum_congr rfl this]
    by_cases h0 : 0 < k
    · simp only [h0, and_true, if_true]
      rw [sum_ite_eq', if_pos (mem_range.2 (by omega))]
    · simp [h0]

/-- The pieces of the line add up to the whole line. -/
theorem pieces {n : Nat} {ys : Nat → K} (h : Grid n ys) (G : K → K) {p q : Nat} (hpq : p ≤ q) (hq : q ≤ n) :
    ∑ j ∈ range n, (if ys p ≤ ys j ∧ ys (j + 1) ≤ ys q then G (ys (j + 1)) - G (ys j) else 0) = G (ys q) - G (ys p) := by
  have : ∀ j ∈ range n, (if ys p ≤ ys j ∧ ys (j + 1) ≤ ys q then G (ys (j + 1)) - G (ys j) else 0) =
      if j ∈ Ico p q then G (ys (j + 1)) - G (ys j) else 0 := by
    intro j hj
    have hj := mem_range.1 hj
    have hiff : (ys p ≤ ys j ∧ ys (j + 1) ≤ ys q) ↔ j ∈ Ico p q := by
      rw [grid_le h (by omega) (by omega), grid_le h (by omega) (by omega), mem_Ico]
      omega
    by_cases hc : j ∈ Ico p q
    · rw [if_pos hc, if_pos (hiff.2 hc)]
    · rw [if_neg hc, if_neg (fun h' => hc (hiff.1 h'))]
  rw [sum_congr rfl this, ← sum_filter]
  have hf : (range n).filter (fun j => j ∈ Ico p q) = Ico p q := by
    ext j
    simp only [mem_filter, mem_range, mem_Ico]
    omega
  rw [hf, sum_Ico_sub (fun j => G (ys j)) hpq]

/-! ### The whole load -/

/-- C59: on every grid, a line load along an interior grid line, over a range bounded by grid lines, adds up to the full load of the line.
`G` is any function whose differences are the integrals of load times test function along the line. -/
theorem C59_once {m n : Nat} {xs ys : Nat → K} (hx : Grid m xs) (hy : Grid n ys) (G : K → K) :
    (∀ k p q, 0 < k → k < m → p ≤ q → q ≤ n → patchLoad (setDomainNS (xs k) (ys p) (ys q)) G m n xs ys = G (ys q) - G (ys p)) ∧
    (∀ k p q, 0 < k → k < n → p ≤ q → q ≤ m → patchLoad (setDomainEW (ys k) (xs p) (xs q)) G m n xs ys = G (xs q) - G (xs p)) := by
  refine ⟨?_, ?_⟩
  · intro k p q h0 hk hpq hq
    unfold patchLoad
    have : ∀ i ∈ range m, ∑ j ∈ range n, elmLoad (setDomainNS (xs k) (ys p) (ys q)) G (xs i) (xs (i + 1)) (ys j) (ys (j + 1)) =
        ((if xs i = xs k then 1 / 2 else 0) + (if xs (i + 1) = xs k then 1 / 2 else 0)) * (G (ys q) - G (ys p)) := by
      intro i hi
      have hi := mem_range.1 hi
      rw [← pieces hy G hpq hq, mul_sum]
      refine sum_congr rfl fun j hj => ?_
      have hj := mem_range.1 hj
      exact elm_ns _ _ _ G (hx i (i + 1) (by omega) (by omega)) (hy j (j + 1) (by omega) (by omega))
    rw [sum_congr rfl this, ← sum_mul, sides hx hk.le, if_pos hk, if_pos h0]
    ring
  · intro k p q h0 hk hpq hq
    unfold patchLoad
    rw [sum_comm]
    have : ∀ j ∈ range n, ∑ i ∈ range m, elmLoad (setDomainEW (ys k) (xs p) (xs q)) G (xs i) (xs (i + 1)) (ys j) (ys (j + 1)) =
        ((if ys j = ys k then 1 / 2 else 0) + (if ys (j + 1) = ys k then 1 / 2 else 0)) * (G (xs q) - G (xs p)) := by
      intro j hj
      have hj := mem_range.1 hj
      rw [← pieces hx G hpq hq, mul_sum]
      refine sum_congr rfl fun i hi => ?_
      have hi := mem_range.1 hi
      exact elm_ew _ _ _ G (hx i (i + 1) (by omega) (by omega)) (hy j (j + 1) (by omega) (by omega))
    rw [sum_congr rfl this, ← sum_mul, sides hy hk.le, if_pos hk, if_pos h0]
    ring

/-- C59 (two elements per piece): each piece of the line is picked by the element east of it through its west border, by the element west
of it through its east border, and by no other element. -/
theorem C59_two_elements {m n : Nat} {xs ys : Nat → K} (hx : Grid m xs) (hy : Grid n ys) {k p q i j : Nat} (h0 : 0 < k) (hk : k < m)
    (hpq : p ≤ q) (hq : q ≤ n) (hi : i < m) (hj : j < n) :
    maskBorder (setDomainNS (xs k) (ys p) (ys q)) (xs i) (xs (i + 1)) (ys j) (ys (j + 1)) =
      (if p ≤ j ∧ j < q then (if i = k then 1 else if i + 1 = k then 2 else 0) else 0) := by
  have gu : xs i < xs (i + 1) := hx i (i + 1) (by omega) (by omega)
  have gv : ys j < ys (j + 1) := hy j (j + 1) (by omega) (by omega)
  obtain ⟨h1, h2, h3, -⟩ := C59_mask (xs k) (ys p) (ys q) (xs i) (xs (i + 1)) (ys j) (ys (j + 1)) gu gv
  rw [grid_le hy (by omega) (by omega), grid_le hy (by omega) (by omega)] at h1 h2
  have e1 : xs i = xs k ↔ i = k := ⟨fun e => grid_inj hx (by omega) (by omega) e, fun e => by rw [e]⟩
  have e2 : xs (i + 1) = xs k ↔ i + 1 = k := ⟨fun e => grid_inj hx (by omega) (by omega) e, fun e => by rw [e]⟩
  rw [e1] at h1
  rw [e2] at h2
  simp only [List.mem_cons, List.not_mem_nil, or_false] at h3
  split_ifs with c1 c2 c3 <;> omega

/-- C59 (limits of the rule): a line along the border of the patch collects half the load only, and a line that is not a grid line collects
nothing. -/
theorem C59_border_lines {m n : Nat} {xs ys : Nat → K} (hx : Grid m xs) (hy : Grid n ys) (G : K → K) {p q : Nat} (hpq : p ≤ q) (hq : q ≤ n)
    (hm : 0 < m) (u : K) :
    (u = xs 0 ∨ u = xs m → patchLoad (setDomainNS u (ys p) (ys q)) G m n xs ys = 1 / 2 * (G (ys q) - G (ys p))) ∧
    ((∀ i ≤ m, u ≠ xs i) → patchLoad (setDomainNS u (ys p) (ys q)) G m n xs ys = 0) := by
  have key : patchLoad (setDomainNS u (ys p) (ys q)) G m n xs ys =
      (∑ i ∈ range m, ((if xs i = u then (1 / 2 : K) else 0) + (if xs (i + 1) = u then 1 / 2 else 0))) * (G (ys q) - G (ys p)) := by
    unfold patchLoad
    rw [sum_mul]
    refine sum_congr rfl fun i hi => ?_
    have hi := mem_range.1 hi
    rw [← pieces hy G hpq hq, mul_sum]
    refine sum_congr rfl fun j hj => ?_
    have hj := mem_range.1 hj
    exact elm_ns _ _ _ G (hx i (i + 1) (by omega) (by omega)) (hy j (j + 1) (by omega) (by omega))
  refine ⟨?_, ?_⟩
  · rintro (rfl | rfl)
    · rw [key, sides hx (by omega), if_pos hm, if_neg (by omega), add_zero]
    · rw [key, sides hx le_rfl, if_neg (by omega), if_pos hm, zero_add]
  · intro hu
    rw [key]
    have : ∀ i ∈ range m, ((if xs i = u then (1 / 2 : K) else 0) + (if xs (i + 1) = u then 1 / 2 else 0)) = 0 := by
      intro i hi
      have hi := mem_range.1 hi
      rw [if_neg (fun e => hu i (by omega) e.symm), if_neg (fun e => hu (i + 1) (by omega) e.symm), add_zero]
    rw [sum_congr rfl this, sum_const_zero, zero_mul]

/-- C59 (input): the position and the range given in the input are those the borders are checked against; the attribute `u` takes
precedence over `v`, and without either the line is at the middle of the first direction over the middle half of the other. -/
theorem C59_input (a : Attr K) :
    (∀ u v0 v1, a.u = some u → a.v0 = some v0 → a.v1 = some v1 → checker (parseLine a .default) = setDomainNS u v0 v1) ∧
    (∀ v u0 u1, a.u = none → a.v = some v → a.u0 = some u0 → a.u1 = some u1 → checker (parseLine a .default) = setDomainEW v u0 u1) ∧
    (a.u = none → a.v = none → checker (parseLine a .default) = setDomainNS (1 / 2) (1 / 4) (3 / 4)) := by
  refine ⟨?_, ?_, ?_⟩
  · intro u v0 v1 h1 h2 h3
    simp [parseLine, checker, h1, h2, h3]
  · intro v u0 u1 h0 h1 h2 h3
    simp [parseLine, checker, h0, h1, h2, h3]
  · intro h0 h1
    simp [parseLine, checker, h0, h1, LLdomain.default, Border.default, setDomainNS]

/-- C59 (violation for incomplete input and several lines): a line without a range is accepted and carries no load on any grid, and of two
lines in the input only the last is loaded. -/
theorem C59_input_violated :
    (∀ (m n : Nat) (xs ys : Nat → K), Grid m xs → Grid n ys → ∀ (u : K) (G : K → K),
      patchLoad (checker (parseLine ⟨some u, none, none, none, none, none⟩ .default)) G m n xs ys = 0) ∧
    (∀ (a b : Attr K) (u v0 v1 : K), b.u = some u → b.v0 = some v0 → b.v1 = some v1 →
      checker (parseLine b (parseLine a .default)) = checker (parseLine b .default)) := by
  refine ⟨?_, ?_⟩
  · intro m n xs ys hx hy u G
    have e : checker (parseLine ⟨some u, none, none, none, none, none⟩ .default) = setDomainNS u (0 : K) 0 := by
      simp [parseLine, checker, LLdomain.default]
    rw [e]
    unfold patchLoad
    refine sum_eq_zero fun i hi => sum_eq_zero fun j hj => ?_
    have hi := mem_range.1 hi
    have hj := mem_range.1 hj
    have gv := hy j (j + 1) (by omega) (by omega)
    have hn : ¬ ((0 : K) ≤ ys j ∧ ys (j + 1) ≤ 0) := by
      rintro ⟨h1, h2⟩
      exact absurd (lt_of_le_of_lt h1 gv) (not_lt.2 h2)
    rw [elm_ns _ _ _ G (hx i (i + 1) (by omega) (by omega)) gv, if_neg hn, mul_zero]
  · intro a b u v0 v1 h1 h2 h3
    simp [parseLine, checker, h1, h2, h3]

example : Grid 4 (fun i => (i : ℚ) / 4) := by
  intro i j h1 h2
  have : (i : ℚ) < j := by exact_mod_cast h1
  linarith

example : patchLoad (Border.default (K := ℚ)) id 4 4 (fun i => (i : ℚ) / 4) (fun i => (i : ℚ) / 4) = 1 / 2 := by decide +kernel

end Verif.LineLoad
