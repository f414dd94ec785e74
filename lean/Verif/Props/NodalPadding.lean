/-
C54 — Expanding nodal vectors preserves all existing components.

A nodal vector with `nd` values per node is padded to `nc` values per node.  The
intended result keeps value `j` of node `i` for `j < nd` and is zero for
`nd ≤ j < nc`.
-/
import Verif.Model.MainLinEl
import Mathlib.Tactic.Ring
import Mathlib.Tactic.Linarith

set_option linter.unusedSectionVars false
set_option linter.unusedVariables false
set_option linter.unusedSimpArgs false

namespace Verif.MainLinEl

variable {K : Type} [Zero K]

/-- Specification: `w` is `v` with zeros inserted after the `nd` values of each of the
`nn` nodes, up to `nc` values per node. -/
def Padded (nd nc nn : Nat) (v w : List K) : Prop :=
  w.length = nc * nn ∧
    ∀ i, i < nn → ∀ j, j < nc →
      w[nc * i + j]? = if j < nd then v[nd * i + j]? else some 0

private theorem idx_lt {nc nn i j : Nat} (hi : i < nn) (hj : j < nc) : nc * i + j < nc * nn := by
  have : nc * (i + 1) ≤ nc * nn := Nat.mul_le_mul_left _ hi
  rw [Nat.mul_add] at this
  omega

/-- State of the array while the row of node `i` is being filled from `v`. -/
private def RowInv (nc nd i : Nat) (v : List K) (j : Nat) (u : List K) : Prop :=
  u.length = v.length ∧
  (∀ k, (k < nc * i ∨ nc * i + j ≤ k) → u[k]? = v[k]?) ∧
  ∀ j', j' < j → u[nc * i + j']? =
    if j' < nd then v[nd * i + j' % ((nc - nd) * i)]? else some 0

private theorem row_step {nc nd i : Nat} {v : List K} (hd : nd ≤ nc) (hi : 0 < i)
    (hl : nc * i + nc ≤ v.length) {j : Nat} (hj : j < nc) {u : List K}
    (h : RowInv nc nd i v j u) :
    ∃ w, expandAt nc nd i j u = .ok w ∧ RowInv nc nd i v (j + 1) w := by
  obtain ⟨h1, h2, h3⟩ := h
  have hw : nc * i + j < u.length := by omega
  have hsplit : nc * i = nd * i + (nc - nd) * i := by
    rw [← Nat.add_mul]; congr 1; omega
  unfold expandAt
  rw [if_pos hw]
  by_cases hjd : j < nd
  · rw [if_pos hjd]
    have hr : nd * i + j < u.length := by omega
    have hval : u[nd * i + j]? = v[nd * i + j % ((nc - nd) * i)]? := by
      by_cases hc : j < (nc - nd) * i
      · rw [Nat.mod_eq_of_lt hc]
        exact h2 _ (Or.inl (by omega))
      · by_cases hz : (nc - nd) * i = 0
        · rw [hz, Nat.mod_zero]
          exact h2 _ (Or.inr (by omega))
        · have e : nd * i + j = nc * i + (j - (nc - nd) * i) := by omega
          rw [e, h3 _ (by omega), if_pos (by omega),
            ← Nat.mod_eq_sub_mod (by omega : (nc - nd) * i ≤ j)]
    rw [List.getElem?_eq_getElem hr] at hval ⊢
    refine ⟨_, rfl, ?_, ?_, ?_⟩
    · simpa using h1
    · intro k hk
      rw [List.getElem?_set_ne (by omega)]
      exact h2 k (by omega)
    · intro j' hj'
      by_cases e : j' = j
      · subst e
        rw [List.getElem?_set_self hw, if_pos hjd, hval]
      · rw [List.getElem?_set_ne (by omega)]
        exact h3 j' (by omega)
  · rw [if_neg hjd]
    refine ⟨_, rfl, ?_, ?_, ?_⟩
    · simpa using h1
    · intro k hk
      rw [List.getElem?_set_ne (by omega)]
      exact h2 k (by omega)
    · intro j' hj'
      by_cases e : j' = j
      · subst e
        rw [List.getElem?_set_self hw, if_neg hjd]
      · rw [List.getElem?_set_ne (by omega)]
        exact h3 j' (by omega)

private theorem row_loop {nc nd i : Nat} {v : List K} (hd : nd ≤ nc) (hi : 0 < i)
    (hl : nc * i + nc ≤ v.length) (n : Nat) :
    ∀ j (u : List K), j + n ≤ nc → RowInv nc nd i v j u →
      ∃ w, expandRow nc nd i n j u = .ok w ∧ RowInv nc nd i v (j + n) w := by
  induction n with
  | zero => intro j u _ h; exact ⟨u, rfl, h⟩
  | succ n ih =>
    intro j u hj h
    obtain ⟨w, hw, hI⟩ := row_step hd hi hl (by omega : j < nc) h
    obtain ⟨w', hw', hI'⟩ := ih (j + 1) w (by omega) hI
    refine ⟨w', ?_, by convert hI' using 1; omega⟩
    simp [expandRow, hw, hw']

/-- State of the array when the rows above `m` are filled. -/
private def RowsInv (nc nd nn : Nat) (v : List K) (m : Nat) (u : List K) : Prop :=
  u.length = nc * nn ∧
  (∀ k, k < nc * (m + 1) → u[k]? = v[k]?) ∧
  ∀ i, m < i → i < nn → ∀ j, j < nc → u[nc * i + j]? =
    if j < nd then v[nd * i + j % ((nc - nd) * i)]? else some 0

private theorem rows_loop {nc nd nn : Nat} {v : List K} (hd : nd ≤ nc) (m : Nat) :
    ∀ u : List K, m < nn → RowsInv nc nd nn v m u →
      ∃ w, expandRows nc nd m u = .ok w ∧ RowsInv nc nd nn v 0 w := by
  induction m with
  | zero => intro u _ h; exact ⟨u, rfl, h⟩
  | succ m ih =>
    intro u hm h
    obtain ⟨h1, h2, h3⟩ := h
    have hle : nc * (m + 1 + 1) ≤ nc * nn := Nat.mul_le_mul_left _ hm
    have e2 : nc * (m + 1 + 1) = nc * (m + 1) + nc := by ring
    have hrow : RowInv nc nd (m + 1) u 0 u := ⟨rfl, fun _ _ => rfl, by omega⟩
    obtain ⟨w, hw, g1, g2, g3⟩ :=
      row_loop (i := m + 1) hd (by omega) (by omega) nc 0 u (by omega) hrow
    have hI : RowsInv nc nd nn v m w := by
      refine ⟨by omega, ?_, ?_⟩
      · intro k hk
        rw [g2 k (Or.inl hk)]
        exact h2 k (by omega)
      · intro i hi hin j hj
        by_cases e : i = m + 1
        · subst e
          rw [g3 j (by omega)]
          by_cases hjd : j < nd
          · rw [if_pos hjd, if_pos hjd]
            refine h2 _ ?_
            have hm' : j % ((nc - nd) * (m + 1)) ≤ j := Nat.mod_le _ _
            have : nd * (m + 1) ≤ nc * (m + 1) := Nat.mul_le_mul_right _ hd
            omega
          · rw [if_neg hjd, if_neg hjd]
        · have hge : nc * (m + 1 + 1) ≤ nc * i := Nat.mul_le_mul_left _ (by omega)
          rw [g2 _ (Or.inr (by omega))]
          exact h3 i (by omega) hin j hj
    obtain ⟨w', hw', hI'⟩ := ih w (by omega) hI
    exact ⟨w', by simp [expandRows, hw, hw'], hI'⟩

private theorem clear_loop (n : Nat) : ∀ (j : Nat) (u : List K), j + n ≤ u.length →
    ∃ w, clearFrom n j u = .ok w ∧ w.length = u.length ∧
      ∀ k, w[k]? = if j ≤ k ∧ k < j + n then some 0 else u[k]? := by
  induction n with
  | zero =>
    intro j u _
    exact ⟨u, rfl, rfl, fun k => by rw [if_neg (by omega)]⟩
  | succ n ih =>
    intro j u h
    have hj : j < u.length := by omega
    obtain ⟨w, hw, hl, hk⟩ := ih (j + 1) (u.set j 0) (by simpa using by omega)
    refine ⟨w, by simp [clearFrom, hj, hw], by simpa using hl, fun k => ?_⟩
    rw [hk k]
    by_cases e : k = j
    · subst e
      rw [if_neg (by omega), if_pos (by omega), List.getElem?_set_self hj]
    · rw [List.getElem?_set_ne (by omega)]
      by_cases c : j + 1 ≤ k ∧ k < j + 1 + n
      · rw [if_pos c, if_pos (by omega)]
      · rw [if_neg c, if_neg (by omega)]

/-- **C54, what the padding computes.**  For every number of nodes and every pair of
component counts, the result has the right length, zeros in the new components, and
in component `j` of node `i` the old value number `j mod (nc-nd)·i` of that node. -/
theorem C54_padding_result (nd nc nn : Nat) (v : List K) (hn : 0 < nn) (hd : nd ≤ nc)
    (hv : v.length = nd * nn) :
    ∃ w, expandNodalVec v nn nc = .ok w ∧ w.length = nc * nn ∧
      ∀ i, i < nn → ∀ j, j < nc →
        w[nc * i + j]? = if j < nd then v[nd * i + j % ((nc - nd) * i)]? else some 0 := by
  unfold expandNodalVec
  rw [if_neg (by omega)]
  have hdiv : v.length / nn = nd := by rw [hv, Nat.mul_div_cancel _ hn]
  simp only [hdiv]
  have hle : nd * nn ≤ nc * nn := Nat.mul_le_mul_right _ hd
  set v0 : List K := v.take (nc * nn) ++ List.replicate (nc * nn - v.length) 0 with hv0
  have htake : v.take (nc * nn) = v := List.take_of_length_le (by omega)
  have hlen : v0.length = nc * nn := by
    rw [hv0, htake]; simp; omega
  have hget : ∀ k, k < v.length → v0[k]? = v[k]? := by
    intro k hk
    rw [hv0, htake, List.getElem?_append_left hk]
  have hI : RowsInv nc nd nn v0 (nn - 1) v0 := by
    refine ⟨hlen, fun _ _ => rfl, ?_⟩
    intro i h1 h2; omega
  obtain ⟨w, hw, g1, g2, g3⟩ := rows_loop hd (nn - 1) v0 (by omega) hI
  have hc1 : nc * 1 ≤ nc * nn := Nat.mul_le_mul_left _ hn
  obtain ⟨w', hw', l', k'⟩ := clear_loop (nc - nd) nd w (by omega)
  refine ⟨w', by simp [hw, hw'], by omega, ?_⟩
  intro i hi j hj
  have hin := idx_lt hi hj
  rw [k']
  rcases Nat.eq_zero_or_pos i with rfl | hi0
  · simp only [Nat.mul_zero, Nat.zero_add, Nat.mod_zero]
    by_cases hjd : j < nd
    · rw [if_neg (by omega), if_pos hjd, g2 j (by omega), hget j]
      have : nd * 1 ≤ nd * nn := Nat.mul_le_mul_left _ hn
      omega
    · rw [if_pos (by omega), if_neg hjd]
  · have : nc * 1 ≤ nc * i := Nat.mul_le_mul_left _ hi0
    rw [if_neg (by omega), g3 i hi0 hi j hj]
    by_cases hjd : j < nd
    · rw [if_pos hjd, if_pos hjd, hget]
      have hm' : j % ((nc - nd) * i) ≤ j := Nat.mod_le _ _
      have := idx_lt (nc := nd) hi hjd
      omega
    · rw [if_neg hjd, if_neg hjd]

/-- **C54, the cases in which it is right.**  The padding keeps every old component and
zeroes the new ones if the number of components at least doubles, does not change, or
there is a single node.  (Missing: fewer than twice as many components, which is the
only use made of the function; see `C54_padding_violated`.) -/
theorem C54_padding_partial (nd nc nn : Nat) (v : List K) (hn : 0 < nn) (hd : nd ≤ nc)
    (hv : v.length = nd * nn) (h : 2 * nd ≤ nc ∨ nc = nd ∨ nn = 1) :
    ∃ w, expandNodalVec v nn nc = .ok w ∧ Padded nd nc nn v w := by
  obtain ⟨w, hw, hl, hk⟩ := C54_padding_result nd nc nn v hn hd hv
  refine ⟨w, hw, hl, ?_⟩
  intro i hi j hj
  rw [hk i hi j hj]
  by_cases hjd : j < nd
  · rw [if_pos hjd, if_pos hjd]
    congr 2
    rcases Nat.eq_zero_or_pos i with rfl | hi0
    · simp
    · rcases h with h | h | h
      · refine Nat.mod_eq_of_lt ?_
        have : (nc - nd) * 1 ≤ (nc - nd) * i := Nat.mul_le_mul_left _ hi0
        omega
      · subst h; simp
      · omega
  · rw [if_neg hjd, if_neg hjd]

/-- **C54 is false of the code.**  Whenever the number of components grows to less than
twice as many and there are at least two nodes, value number `nc-nd` of the second node
is replaced by its first value; so the padding is wrong for every vector in which
these two differ. -/
theorem C54_padding_violated (nd nc nn : Nat) (v : List K) (hn : 2 ≤ nn) (h1 : nd < nc)
    (h2 : nc < 2 * nd) (hv : v.length = nd * nn)
    (hne : v[nd]? ≠ v[nd + (nc - nd)]?) :
    ∃ w, expandNodalVec v nn nc = .ok w ∧ w[nc + (nc - nd)]? = v[nd]? ∧
      ¬ Padded nd nc nn v w := by
  obtain ⟨w, hw, hl, hk⟩ := C54_padding_result nd nc nn v (by omega) (by omega) hv
  have h := hk 1 (by omega) (nc - nd) (by omega)
  rw [if_pos (by omega)] at h
  simp only [Nat.mul_one, Nat.mod_self, Nat.add_zero] at h
  refine ⟨w, hw, h, ?_⟩
  rintro ⟨_, hp⟩
  have h' := hp 1 (by omega) (nc - nd) (by omega)
  rw [if_pos (by omega)] at h'
  simp only [Nat.mul_one] at h'
  exact hne (h.symm.trans h')

/-- **C54, the use in the program.**  The three plate moments `m_xx, m_yy, m_xy` at each
node are padded with two shear forces: from the second node on, the first moment stands in
the place of the third. -/
theorem C54_moments_violated (a b c d e f : K) (hne : d ≠ f) :
    expandNodalVec [a, b, c, d, e, f] 2 5 = .ok [a, b, c, 0, 0, d, e, d, 0, 0] ∧
      ¬ Padded 3 5 2 [a, b, c, d, e, f] [a, b, c, 0, 0, d, e, d, 0, 0] := by
  refine ⟨by simp [expandNodalVec, expandRows, expandRow, expandAt, clearFrom], ?_⟩
  rintro ⟨_, hp⟩
  have := hp 1 (by omega) 2 (by omega)
  simp at this
  exact hne this

/-- No node at all: the number of components is a division by zero. -/
theorem C54_no_nodes (v : List K) (nc : Nat) : expandNodalVec v 0 nc = .ub := rfl

/-- A vector with two values at each of three nodes, padded to five: hypotheses of
`C54_padding_partial`. -/
example : expandNodalVec [1, 2, 3, 4, 5, (6 : Nat)] 3 5 =
    .ok [1, 2, 0, 0, 0, 3, 4, 0, 0, 0, 5, 6, 0, 0, 0] := by decide

example : ∃ w, expandNodalVec [1, 2, 3, 4, 5, (6 : Nat)] 3 5 = .ok w ∧
    Padded 2 5 3 [1, 2, 3, 4, 5, (6 : Nat)] w :=
  C54_padding_partial 2 5 3 _ (by omega) (by omega) rfl (Or.inl (by omega))

/-- Hypotheses of `C54_padding_violated` with three moments and five section forces. -/
example : ∃ w, expandNodalVec [1, 2, 3, 4, 5, (6 : Nat)] 2 5 = .ok w ∧
    w[5 + 2]? = some 4 ∧ ¬ Padded 3 5 2 [1, 2, 3, 4, 5, (6 : Nat)] w :=
  C54_padding_violated 3 5 2 _ (by omega) (by omega) (by omega) rfl (by decide)

end Verif.MainLinEl
