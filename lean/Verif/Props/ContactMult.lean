/-
C39: the Lagrange multipliers of the contact nodes.
-/
import Verif.Model.Contact
import Mathlib.Order.Interval.Finset.Nat

set_option linter.unusedVariables false
set_option linter.unusedSimpArgs false

namespace Verif.Contact

/-- The numbers given so far are `n0 + 1, …, ngnod`, each to exactly one node. -/
structure MultInv (n0 : Nat) (m : Mult) : Prop where
  le : n0 ≤ m.ngnod
  range : ∀ k l, m.map.lookup k = some l → n0 < l ∧ l ≤ m.ngnod
  inj : ∀ k k' l, m.map.lookup k = some l → m.map.lookup k' = some l → k = k'
  surj : ∀ l, n0 < l → l ≤ m.ngnod → ∃ k, m.map.lookup k = some l

theorem lookup_cons (k n l : Nat) (m : List (Nat × Nat)) :
    List.lookup k ((n, l) :: m) = if k = n then some l else m.lookup k := by
  rw [List.lookup_cons]
  by_cases h : k = n
  · subst h; simp
  · rw [if_neg h, show (k == n) = false by simpa using h]

theorem assign_inv (n0 : Nat) (m : Mult) (n : Nat) (h : MultInv n0 m) :
    MultInv n0 (assign m n).1 ∧ (assign m n).1.map.lookup n = some (assign m n).2 ∧
    (∀ k l, m.map.lookup k = some l → (assign m n).1.map.lookup k = some l) ∧
    ∀ k l, (assign m n).1.map.lookup k = some l → k = n ∨ m.map.lookup k = some l := by
  unfold assign
  cases e : m.map.lookup n with
  | some l => exact ⟨h, e, fun _ _ h => h, fun _ _ h => .inr h⟩
  | none =>
    simp only [lookup_cons]
    refine ⟨⟨?_, ?_, ?_, ?_⟩, by simp, ?_, ?_⟩
    · exact le_trans h.le (Nat.le_succ _)
    · intro k l hk
      simp only [lookup_cons] at hk ⊢
      split_ifs at hk with hkn
      · simp only [Option.some.injEq] at hk
        have := h.le
        omega
      · have := h.range k l hk
        omega
    · intro k k' l hk hk'
      simp only [lookup_cons] at hk hk'
      split_ifs at hk hk' with h1 h2 h2
      · rw [h1, h2]
      · simp only [Option.some.injEq] at hk
        have := h.range k' l hk'
        omega
      · simp only [Option.some.injEq] at hk'
        have := h.range k l hk
        omega
      · exact h.inj k k' l hk hk'
    · intro l h1 h2
      simp only [lookup_cons] at h2 ⊢
      by_cases hl : l = m.ngnod + 1
      · exact ⟨n, by simp [hl]⟩
      · obtain ⟨k, hk⟩ := h.surj l h1 (by omega)
        refine ⟨k, ?_⟩
        rw [if_neg]
        · exact hk
        · rintro rfl; rw [e] at hk; simp at hk
    · intro k l hk
      rw [if_neg]
      · exact hk
      · rintro rfl; rw [e] at hk; simp at hk
    · intro k l hk
      split_ifs at hk with hkn
      · exact .inl hkn
      · exact .inr hk

theorem assignElm_inv (n0 : Nat) (e : List Nat) : ∀ m, MultInv n0 m →
    MultInv n0 (assignElm m e).1 ∧ (assignElm m e).2.map some = e.map (fun k => (assignElm m e).1.map.lookup k) ∧
    (∀ k l, m.map.lookup k = some l → (assignElm m e).1.map.lookup k = some l) ∧
    ∀ k l, (assignElm m e).1.map.lookup k = some l → k ∈ e ∨ m.map.lookup k = some l := by
  induction e with
  | nil => intro m h; exact ⟨h, rfl, fun _ _ h => h, fun _ _ h => .inr h⟩
  | cons n e ih =>
    intro m h
    obtain ⟨a1, a2, a3, a4⟩ := assign_inv n0 m n h
    obtain ⟨b1, b2, b3, b4⟩ := ih _ a1
    refine ⟨b1, ?_, fun k l hk => b3 k l (a3 k l hk), fun k l hk => ?_⟩
    · show (some (assign m n).2 :: (assignElm (assign m n).1 e).2.map some) = _
      rw [b2]
      show _ = (assignElm (assign m n).1 e).1.map.lookup n :: _
      rw [b3 n _ a2]
      rfl
    · rcases b4 k l hk with h | h
      · exact .inl (List.mem_cons_of_mem _ h)
      · rcases a4 k l h with h | h
        · exact .inl (by rw [h]; exact List.mem_cons_self)
        · exact .inr h

theorem assignAll_inv (n0 : Nat) (es : List (List Nat)) : ∀ m, MultInv n0 m →
    MultInv n0 (assignAll m es).1 ∧
    (assignAll m es).2.map (·.map some) = es.map (fun e => e.map fun k => (assignAll m es).1.map.lookup k) ∧
    (∀ k l, m.map.lookup k = some l → (assignAll m es).1.map.lookup k = some l) ∧
    ∀ k l, (assignAll m es).1.map.lookup k = some l → k ∈ es.flatten ∨ m.map.lookup k = some l := by
  induction es with
  | nil => intro m h; exact ⟨h, rfl, fun _ _ h => h, fun _ _ h => .inr h⟩
  | cons e es ih =>
    intro m h
    obtain ⟨a1, a2, a3, a4⟩ := assignElm_inv n0 e m h
    obtain ⟨b1, b2, b3, b4⟩ := ih _ a1
    refine ⟨b1, ?_, fun k l hk => b3 k l (a3 k l hk), fun k l hk => ?_⟩
    · show ((assignElm m e).2.map some :: (assignAll (assignElm m e).1 es).2.map (·.map some)) = _
      rw [b2]
      show _ = e.map (fun k => (assignAll (assignElm m e).1 es).1.map.lookup k) :: _
      congr 1
      rw [a2]
      refine List.map_congr_left fun k hk => ?_
      have : (assignElm m e).1.map.lookup k ∈ e.map (fun k => (assignElm m e).1.map.lookup k) :=
        List.mem_map.mpr ⟨k, hk, rfl⟩
      rw [← a2] at this
      obtain ⟨l, -, hl⟩ := List.mem_map.mp this
      rw [← hl]
      exact (b3 k l hl.symm).symm
    · rcases b4 k l hk with h | h
      · exact .inl (by simp only [List.flatten_cons, List.mem_append]; exact .inr h)
      · rcases a4 k l h with h | h
        · exact .inl (by simp only [List.flatten_cons, List.mem_append]; exact .inl h)
        · exact .inr h

/-- C39: starting with `n0` nodes, the multipliers given to the contact elements `es` are those of a one-to-one
function `f` of the slave nodes onto the numbers `n0 + 1, …, n0 + d`, where `d` is the number of distinct slave
nodes, and `n0 + d` is the new number of nodes. -/
theorem C39_multipliers (n0 : Nat) (es : List (List Nat)) :
    ∃ f : Nat → Nat, (assignAll ⟨[], n0⟩ es).2 = es.map (·.map f) ∧
      (∀ a ∈ es.flatten, ∀ b ∈ es.flatten, f a = f b → a = b) ∧
      (∀ a ∈ es.flatten, n0 < f a) ∧
      (∀ l, n0 < l → l ≤ (assignAll ⟨[], n0⟩ es).1.ngnod → ∃ a ∈ es.flatten, f a = l) ∧
      (assignAll ⟨[], n0⟩ es).1.ngnod = n0 + es.flatten.toFinset.card := by
  have h0 : MultInv n0 ⟨[], n0⟩ :=
    ⟨le_refl _, fun k l h => by simp at h, fun k k' l h => by simp at h, fun l h1 h2 => by
      simp only at h2; omega⟩
  obtain ⟨h1, h2, -, h4⟩ := assignAll_inv n0 es _ h0
  generalize assignAll ⟨[], n0⟩ es = r at *
  have hsome : ∀ a ∈ es.flatten, ∃ l, r.1.map.lookup a = some l := by
    intro a ha
    obtain ⟨e, he, hae⟩ := List.mem_flatten.mp ha
    have : e.map (fun k => r.1.map.lookup k) ∈ es.map (fun e => e.map fun k => r.1.map.lookup k) :=
      List.mem_map.mpr ⟨e, he, rfl⟩
    rw [← h2] at this
    obtain ⟨e', he', hh⟩ := List.mem_map.mp this
    have : r.1.map.lookup a ∈ e.map (fun k => r.1.map.lookup k) := List.mem_map.mpr ⟨a, hae, rfl⟩
    rw [← hh] at this
    obtain ⟨l, -, hl⟩ := List.mem_map.mp this
    exact ⟨l, hl.symm⟩
  set f : Nat → Nat := fun a => (r.1.map.lookup a).getD 0 with hf
  have hfs : ∀ a ∈ es.flatten, r.1.map.lookup a = some (f a) := by
    intro a ha
    obtain ⟨l, hl⟩ := hsome a ha
    rw [hf]; simp [hl]
  have hinj : ∀ a ∈ es.flatten, ∀ b ∈ es.flatten, f a = f b → a = b := by
    intro a ha b hb hab
    exact h1.inj a b (f a) (hfs a ha) (by rw [hfs b hb, hab])
  have hsurj : ∀ l, n0 < l → l ≤ r.1.ngnod → ∃ a ∈ es.flatten, f a = l := by
    intro l hl hl'
    obtain ⟨k, hk⟩ := h1.surj l hl hl'
    rcases h4 k l hk with h | h
    · refine ⟨k, h, ?_⟩
      have := hfs k h
      rw [hk] at this
      simpa using this.symm
    · simp at h
  refine ⟨f, ?_, hinj, fun a ha => (h1.range a _ (hfs a ha)).1, hsurj, ?_⟩
  · have hmap : (es.map (·.map f)).map (·.map some) = r.2.map (·.map some) := by
      rw [h2, List.map_map]
      refine List.map_congr_left fun e he => ?_
      simp only [Function.comp, List.map_map]
      refine List.map_congr_left fun a ha => ?_
      exact (hfs a (List.mem_flatten.mpr ⟨e, he, ha⟩)).symm
    have : Function.Injective (List.map (List.map (some : Nat → Option Nat))) :=
      (List.map_injective_iff.mpr (List.map_injective_iff.mpr (Option.some_injective _)))
    exact (this hmap).symm
  · have himg : es.flatten.toFinset.image f = Finset.Ioc n0 r.1.ngnod := by
      ext l
      simp only [Finset.mem_image, List.mem_toFinset, Finset.mem_Ioc]
      constructor
      · rintro ⟨a, ha, rfl⟩
        exact h1.range a _ (hfs a ha)
      · rintro ⟨h1, h2⟩
        exact hsurj l h1 h2
    have hcard : (es.flatten.toFinset.image f).card = es.flatten.toFinset.card := by
      apply Finset.card_image_of_injOn
      intro a ha b hb hab
      exact hinj a (by simpa using ha) b (by simpa using hb) hab
    rw [himg, Nat.card_Ioc] at hcard
    have := h1.le
    omega

/-- Two elements sharing a node. -/
example : (assignAll ⟨[], 10⟩ [[3, 5], [5, 8]]).1.ngnod = 13 ∧
    (assignAll ⟨[], 10⟩ [[3, 5], [5, 8]]).2 = [[11, 12], [12, 13]] := by
  decide +kernel

end Verif.Contact
