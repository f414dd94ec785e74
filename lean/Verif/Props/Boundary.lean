/-
C60: boundary reaction sums and interface forces of the boundary sections.
C85: moments of a straight boundary refer to its middle.
-/
import Verif.Model.Boundary
import Mathlib.Algebra.BigOperators.Ring.Finset
import Mathlib.Algebra.BigOperators.Ring.List
import Mathlib.Algebra.BigOperators.Fin
import Mathlib.Algebra.Order.BigOperators.Group.Finset
import Mathlib.Tactic.Ring
import Mathlib.Tactic.Linarith
import Mathlib.Tactic.NormNum
import Mathlib.Tactic.FieldSimp
import Mathlib.Tactic.Positivity
import Mathlib.Tactic.FinCases
set_option linter.unusedSectionVars false
set_option linter.unusedSimpArgs false
set_option linter.unusedVariables false

namespace Verif.Boundary

/-! ### The sections -/

theorem mem_insCode (x y : Int) (l : List Int) : y ∈ insCode x l ↔ y = x ∨ y ∈ l := by
  induction l with
  | nil => simp [insCode]
  | cons z l ih =>
    unfold insCode
    split_ifs with h1 h2
    · simp
    · subst h2; simp
    · simp only [List.mem_cons, ih]; tauto

theorem sorted_insCode (x : Int) {l : List Int} (h : l.Pairwise (· < ·)) : (insCode x l).Pairwise (· < ·) := by
  induction l with
  | nil => simp [insCode]
  | cons z l ih =>
    unfold insCode
    rw [List.pairwise_cons] at h
    split_ifs with h1 h2
    · rw [List.pairwise_cons]
      refine ⟨?_, List.pairwise_cons.2 h⟩
      intro y hy
      rcases List.mem_cons.1 hy with rfl | hy
      · exact h1
      · exact lt_trans h1 (h.1 y hy)
    · exact List.pairwise_cons.2 h
    · rw [List.pairwise_cons]
      refine ⟨?_, ih h.2⟩
      intro y hy
      rcases (mem_insCode _ _ _).1 hy with rfl | hy
      · omega
      · exact h.1 y hy

/-- C60 (sections): the sections are the non-zero codes of the input, each once, in ascending order of the codes. -/
theorem C60_sections (tags : List Int) :
    (parseCodes tags).Pairwise (· < ·) ∧ ∀ c, c ∈ parseCodes tags ↔ c ≠ 0 ∧ c ∈ tags := by
  unfold parseCodes
  induction tags using List.reverseRecOn with
  | nil => simp
  | append_singleton l x ih =>
    rw [List.foldl_append]
    simp only [List.foldl_cons, List.foldl_nil]
    generalize List.foldl (fun m c => if c = 0 then m else insCode c m) [] l = m at *
    obtain ⟨h1, h2⟩ := ih
    by_cases hx : x = 0
    · rw [if_pos hx]
      refine ⟨h1, fun c => ?_⟩
      rw [h2, List.mem_append, List.mem_singleton]
      constructor
      · rintro ⟨a, b⟩; exact ⟨a, Or.inl b⟩
      · rintro ⟨a, b | b⟩
        · exact ⟨a, b⟩
        · exact absurd (b.trans hx) a
    · rw [if_neg hx]
      refine ⟨sorted_insCode x h1, fun c => ?_⟩
      rw [mem_insCode, h2, List.mem_append, List.mem_singleton]
      constructor
      · rintro (rfl | ⟨a, b⟩)
        · exact ⟨hx, Or.inr rfl⟩
        · exact ⟨a, Or.inl b⟩
      · rintro ⟨a, b | b⟩
        · exact Or.inr ⟨a, b⟩
        · exact Or.inl b

/-! ### Reaction forces -/

section Reactions
variable {K : Type} [AddCommMonoid K]

theorem foldl_zip (d : Nat) (l : List (List K)) (r : List K) (hr : r.length = d) (hl : ∀ v ∈ l, v.length = d) (i : Nat) (hi : i < d) :
    (l.foldl (List.zipWith (· + ·)) r)[i]? = some ((r[i]?).getD 0 + (l.map fun v => (v[i]?).getD 0).sum) ∧
    (l.foldl (List.zipWith (· + ·)) r).length = d := by
  induction l generalizing r with
  | nil =>
    simp only [List.foldl_nil, List.map_nil, List.sum_nil, add_zero]
    refine ⟨?_, hr⟩
    rw [List.getElem?_eq_getElem (by omega)]
    rfl
  | cons v l ih =>
    have hv := hl v List.mem_cons_self
    have hz : (List.zipWith (· + ·) r v).length = d := by rw [List.length_zipWith]; omega
    obtain ⟨h1, h2⟩ := ih (List.zipWith (· + ·) r v) hz (fun w hw => hl w (List.mem_cons_of_mem _ hw))
    rw [List.foldl_cons]
    refine ⟨?_, h2⟩
    rw [h1]
    congr 1
    rw [List.map_cons, List.sum_cons, ← add_assoc]
    congr 1
    rw [List.getElem?_eq_getElem (by omega : i < (List.zipWith (· + ·) r v).length), List.getElem?_eq_getElem (by omega : i < r.length),
      List.getElem?_eq_getElem (by omega : i < v.length)]
    simp

/-- C60 (all sections): the array of reactions has one entry per section, in the order of the sections, and the call succeeds exactly when
there is a section and the reactions of all sections are available. -/
theorem C60_all (react : Int → Bool × List K) (codes : List Int) :
    ((boundaryReactions react codes).1 = true ↔ codes ≠ [] ∧ ∀ c ∈ codes, (react c).1 = true) ∧
    (boundaryReactions react codes).2 = codes.map fun c => (react c).2 := by
  unfold boundaryReactions
  cases codes with
  | nil => simp
  | cons c l => simp

/-- C60 (sum): for the section number zero the result is, component by component, the sum of the reactions of all sections. -/
theorem C60_sum_partial (react : Int → Bool × List K) {codes : List Int} (hne : codes ≠ []) (hok : ∀ c ∈ codes, (react c).1 = true)
    {d : Nat} (hd : ∀ c ∈ codes, (react c).2.length = d) :
    ∃ v, boundaryReaction react codes 0 = .ok v ∧ v.length = d ∧
      ∀ i < d, v[i]? = some ((codes.map fun c => ((react c).2[i]?).getD 0).sum) := by
  obtain ⟨h1, h2⟩ := C60_all react codes
  have hb : (boundaryReactions react codes).1 = true := h1.2 ⟨hne, hok⟩
  unfold boundaryReaction
  simp only [hb, h2]
  cases codes with
  | nil => exact absurd rfl hne
  | cons c l =>
    simp only [Bool.not_true, Bool.false_or, List.map_cons, gt_iff_lt, Nat.not_lt_zero, decide_false, Bool.false_eq_true, if_false]
    have hl : ∀ v ∈ l.map (fun c => (react c).2), v.length = d := by
      intro v hv
      obtain ⟨c', hc', rfl⟩ := List.mem_map.1 hv
      exact hd c' (List.mem_cons_of_mem _ hc')
    refine ⟨_, rfl, ?_, ?_⟩
    · by_cases h0 : 0 < d
      · exact (foldl_zip d _ _ (hd c List.mem_cons_self) hl 0 h0).2
      · have d0 : d = 0 := by omega
        subst d0
        have hc : (react c).2 = [] := List.length_eq_zero_iff.1 (hd c List.mem_cons_self)
        rw [hc]
        have : ∀ (ls : List (List K)), ls.foldl (List.zipWith (· + ·)) [] = [] := by
          intro ls
          induction ls with
          | nil => rfl
          | cons a ls ih => simpa using ih
        rw [this]; rfl
    · intro i hi
      rw [(foldl_zip d _ _ (hd c List.mem_cons_self) hl i hi).1, List.map_map, List.sum_cons]
      rfl

/-- C60 (what the section number does): a positive section number selects the section after the one asked for; the number of the last
section reads outside the array; larger numbers are reported as errors. -/
theorem C60_index (react : Int → Bool × List K) {codes : List Int} (hne : codes ≠ []) (hok : ∀ c ∈ codes, (react c).1 = true) {b : Nat}
    (hb : 0 < b) :
    (∀ c, codes[b]? = some c → boundaryReaction react codes b = .ok (react c).2) ∧
    (b = codes.length → boundaryReaction react codes b = .ub) ∧ (codes.length < b → boundaryReaction react codes b = .fail) := by
  obtain ⟨h1, h2⟩ := C60_all react codes
  have hb1 : (boundaryReactions react codes).1 = true := h1.2 ⟨hne, hok⟩
  unfold boundaryReaction
  simp only [hb1, h2, List.length_map, Bool.not_true, Bool.false_or, decide_eq_true_eq, List.getElem?_map]
  refine ⟨?_, ?_, ?_⟩
  · intro c hc
    have : b < codes.length := by
      by_contra hcon
      rw [List.getElem?_eq_none (by omega)] at hc
      cases hc
    rw [if_neg (by omega), if_pos hb, hc]
    rfl
  · intro h
    rw [if_neg (by omega), if_pos hb, List.getElem?_eq_none (by omega)]
    rfl
  · intro h
    rw [if_pos h]

end Reactions

/-- C60 (violation): with two sections, asking for the first one by its one-based number gives the reactions of the second, and asking for the
second is undefined behaviour; with one section, asking for it is undefined behaviour. -/
theorem C60_index_violated :
    (∃ (react : Int → Bool × List ℚ), (∀ c ∈ [1, 2], (react c).1 = true) ∧ (react 1).2 ≠ (react 2).2 ∧
      boundaryReaction react [1, 2] 1 = .ok (react 2).2 ∧ boundaryReaction react [1, 2] 2 = .ub) ∧
    (∀ (react : Int → Bool × List ℚ) c, (react c).1 = true → boundaryReaction react [c] 1 = .ub) := by
  refine ⟨⟨fun c => (true, [c]), by simp, by norm_num, rfl, rfl⟩, ?_⟩
  intro react c h
  exact (C60_index react (by simp) (by simpa using h) (by omega)).2.1 rfl

/-- C60 (violation, order of the sections): the boundary force is evaluated on the section with the smallest code, not on the first one
of the input. -/
theorem C60_first_tag_violated : ∃ tags, tags.head? = some 5 ∧ boundaryForceCode (parseCodes tags) = some 3 :=
  ⟨[5, 3], rfl, rfl⟩

example : ∃ react : Int → Bool × List ℚ, (∀ c ∈ [1, 2], (react c).1 = true) ∧ boundaryReaction react [1, 2] 0 = .ok [3, 30] :=
  ⟨fun c => (true, [c, 10 * c]), by simp, by norm_num [boundaryReaction, boundaryReactions]⟩

/-! ### Interface forces -/

section Interface
variable {K : Type} [Field K] [LinearOrder K] [IsStrictOrderedRing K]

theorem countNode_eq (nodes : Int → List Nat) (hn : ∀ c, (nodes c).Nodup) (codes : List Int) (n : Nat) :
    (countNode nodes codes n : K) = (codes.map fun c => if n ∈ nodes c then (1 : K) else 0).sum := by
  unfold countNode
  have h1 : ∀ c, ((nodes c).filter (· = n)).length = if n ∈ nodes c then 1 else 0 := by
    intro c
    have : ((nodes c).filter (· = n)).length = (nodes c).count n := by
      rw [List.count_eq_length_filter]
      congr 1
    rw [this, List.Nodup.count (hn c)]
  simp only [h1]
  induction codes using List.reverseRecOn with
  | nil => simp
  | append_singleton l c ih =>
    rw [List.foldl_append, List.map_append, List.sum_append, ← ih]
    simp only [List.foldl_cons, List.foldl_nil, List.map_cons, List.map_nil, List.sum_cons, List.sum_nil, add_zero]
    split_ifs <;> push_cast <;> ring

/-- All nodes of the sections, each once. -/
def allNodes (nodes : Int → List Nat) (codes : List Int) : Finset Nat := (codes.flatMap nodes).toFinset

theorem mem_allNodes (nodes : Int → List Nat) (codes : List Int) (n : Nat) : n ∈ allNodes nodes codes ↔ ∃ c ∈ codes, n ∈ nodes c := by
  simp [allNodes]

/-- C60 (interface forces): the forces of all sections add up to the sum of the nodal forces over all nodes on the sections, each node once,
however the sections overlap. -/
theorem C60_interface_total (nodes : Int → List Nat) (hn : ∀ c, (nodes c).Nodup) {codes : List Int} (hne : codes ≠ []) (sf : Nat → K) :
    (codes.map (ifForce nodes codes sf)).sum = ∑ n ∈ allNodes nodes codes, sf n := by
  have hsub : ∀ c ∈ codes, ifForce nodes codes sf c =
      ∑ n ∈ allNodes nodes codes, (if n ∈ nodes c then (1 : K) else 0) * (ifWeight nodes codes n * sf n) := by
    intro c hc
    unfold ifForce
    rw [← List.sum_toFinset _ (hn c)]
    have : (nodes c).toFinset = (allNodes nodes codes).filter (fun n => n ∈ nodes c) := by
      ext n
      simp only [List.mem_toFinset, Finset.mem_filter, mem_allNodes]
      exact ⟨fun h => ⟨⟨c, hc, h⟩, h⟩, fun h => h.2⟩
    rw [this, Finset.sum_filter]
    refine Finset.sum_congr rfl fun n _ => ?_
    split_ifs <;> simp
  have hswap : (codes.map (ifForce nodes codes sf)).sum =
      ∑ n ∈ allNodes nodes codes, (codes.map fun c => if n ∈ nodes c then (1 : K) else 0).sum * (ifWeight nodes codes n * sf n) := by
    have e : codes.map (ifForce nodes codes sf) = codes.map fun c =>
        ∑ n ∈ allNodes nodes codes, (if n ∈ nodes c then (1 : K) else 0) * (ifWeight nodes codes n * sf n) :=
      List.map_congr_left hsub
    rw [e]
    generalize allNodes nodes codes = S
    generalize ifWeight (K := K) nodes codes = w
    clear hsub e hne
    induction codes with
    | nil => simp
    | cons c l ih =>
      simp only [List.map_cons, List.sum_cons, ih, add_mul, Finset.sum_add_distrib]
  rw [hswap]
  refine Finset.sum_congr rfl fun n hmem => ?_
  rw [← countNode_eq nodes hn, ← mul_assoc]
  suffices (countNode nodes codes n : K) * ifWeight nodes codes n = 1 by rw [this, one_mul]
  obtain ⟨c, hc, hnc⟩ := (mem_allNodes _ _ _).1 hmem
  have hpos : 1 ≤ countNode nodes codes n := by
    have h := countNode_eq (K := K) nodes hn codes n
    by_contra h0
    have h0 : countNode nodes codes n = 0 := by omega
    rw [h0, Nat.cast_zero] at h
    have : (1 : K) ≤ (codes.map fun c => if n ∈ nodes c then (1 : K) else 0).sum := by
      refine List.single_le_sum ?_ 1 ?_
      · intro x hx
        obtain ⟨c', _, rfl⟩ := List.mem_map.1 hx
        split_ifs <;> simp
      · exact List.mem_map.2 ⟨c, hc, by rw [if_pos hnc]⟩
    linarith
  unfold ifWeight
  by_cases hl : codes.length > 1
  · simp only [hl, if_true]
    by_cases hw : (countNode nodes codes n : K) > 1
    · rw [if_pos hw, mul_one_div, div_self (by linarith)]
    · rw [if_neg hw]
      have h1 : ((1 : Nat) : K) ≤ (countNode nodes codes n : K) := Nat.cast_le.2 hpos
      rw [Nat.cast_one] at h1
      have : (countNode nodes codes n : K) = 1 := le_antisymm (not_lt.1 hw) h1
      rw [this]; ring
  · rw [if_neg hl, mul_one]
    have hone : codes = [c] := by
      match codes, hne, hc, hl with
      | [a], _, hc, _ => rw [List.mem_singleton.1 hc]
      | a :: b :: l, _, _, hl => simp at hl
    rw [countNode_eq nodes hn, hone]
    simp [hnc]

/-- C60 (violation, total reaction): the sum over the sections counts the reactions of a node once for every section it belongs to; with one node
shared by two sections the total is not the sum over the nodes. The section reactions are sums over the nodes of the section. -/
theorem C60_total_violated : ∃ (nodes : Int → List Nat) (rf : Nat → ℚ) (react : Int → Bool × List ℚ),
    (∀ c, react c = (true, [((nodes c).map rf).sum])) ∧
    boundaryReaction react [1, 2] 0 = .ok [4] ∧ ∑ n ∈ allNodes nodes [1, 2], rf n = 3 := by
  refine ⟨fun c => if c = 1 then [1, 2] else [2, 3], fun _ => 1, _, fun c => rfl, ?_, ?_⟩
  · norm_num [boundaryReaction, boundaryReactions]
  · decide +kernel

example : ∃ nodes : Int → List Nat, (∀ c, (nodes c).Nodup) ∧ allNodes nodes [1, 2] = {1, 2, 3} :=
  ⟨fun c => if c = 1 then [1, 2] else [2, 3], fun c => by dsimp only; split_ifs <;> decide, by decide +kernel⟩

end Interface

/-! ### Moment reference points -/

section RefPoint
variable {K : Type} [Field K] [LinearOrder K] [IsStrictOrderedRing K]

theorem furthest_spec (c : P3 K) (l : List (P3 K)) (s : K × P3 K) :
    s.1 ≤ (furthest c l s).1 ∧ (∀ x ∈ l, dist2 x c ≤ (furthest c l s).1) ∧
    (furthest c l s = s ∨ ((furthest c l s).2 ∈ l ∧ dist2 (furthest c l s).2 c = (furthest c l s).1 ∧ s.1 < (furthest c l s).1)) := by
  induction l generalizing s with
  | nil => exact ⟨le_rfl, by simp, Or.inl rfl⟩
  | cons x l ih =>
    unfold furthest
    by_cases h : dist2 x c > s.1
    · rw [if_pos h]
      obtain ⟨h1, h2, h3⟩ := ih (dist2 x c, x)
      refine ⟨le_trans h.le h1, ?_, Or.inr ?_⟩
      · intro y hy
        rcases List.mem_cons.1 hy with rfl | hy
        · exact h1
        · exact h2 y hy
      · rcases h3 with h3 | ⟨a, b, c'⟩
        · rw [h3]; exact ⟨List.mem_cons_self, rfl, h⟩
        · exact ⟨List.mem_cons_of_mem _ a, b, lt_of_lt_of_le h h1⟩
    · rw [if_neg h]
      obtain ⟨h1, h2, h3⟩ := ih s
      refine ⟨h1, ?_, ?_⟩
      · intro y hy
        rcases List.mem_cons.1 hy with rfl | hy
        · exact le_trans (not_lt.1 h) h1
        · exact h2 y hy
      · rcases h3 with h3 | ⟨a, b, c'⟩
        · exact Or.inl h3
        · exact Or.inr ⟨List.mem_cons_of_mem _ a, b, c'⟩

/-- The point with parameter `t` on a straight line. -/
def onLine (p d : P3 K) (t : K) : P3 K := fun i => p i + t * d i

theorem dist_line (p d : P3 K) (t s : K) :
    dist2 (onLine p d t) (onLine p d s) = (t - s) ^ 2 * (d 0 ^ 2 + d 1 ^ 2 + d 2 ^ 2) := by
  unfold dist2 onLine; ring

theorem mean_line (p d : P3 K) {ts : List K} (hne : ts ≠ []) :
    (fun i => (ts.map (onLine p d)).foldl (fun s x => s + x i) ((0 : P3 K) i) / ((ts.map (onLine p d)).length : K)) =
      onLine p d (ts.sum / ts.length) := by
  have hlen : (ts.length : K) ≠ 0 := by
    rw [Nat.cast_ne_zero]
    exact fun h => hne (List.length_eq_zero_iff.1 h)
  funext i
  have key : ∀ (l : List K) (s0 : K), (l.map (onLine p d)).foldl (fun s x => s + x i) s0 = s0 + l.length * p i + l.sum * d i := by
    intro l
    induction l with
    | nil => intro s0; simp
    | cons t l ih =>
      intro s0
      rw [List.map_cons, List.foldl_cons, ih, List.sum_cons, List.length_cons]
      unfold onLine
      push_cast
      ring
  simp only [List.length_map]
  rw [key, onLine]
  show ((0 : K) + ts.length * p i + ts.sum * d i) / ts.length = _
  field_simp
  ring

theorem sum_bounds (ts : List K) (a : K) :
    ((∀ t ∈ ts, a ≤ t) → ts.length * a ≤ ts.sum) ∧ ((∀ t ∈ ts, t ≤ a) → ts.sum ≤ ts.length * a) ∧
    ((∀ t ∈ ts, a ≤ t) → (∃ t ∈ ts, a < t) → ts.length * a < ts.sum) ∧ ((∀ t ∈ ts, t ≤ a) → (∃ t ∈ ts, t < a) → ts.sum < ts.length * a) := by
  induction ts with
  | nil => simp
  | cons x l ih =>
    obtain ⟨h1, h2, h3, h4⟩ := ih
    simp only [List.sum_cons, List.length_cons, Nat.cast_add, Nat.cast_one, List.mem_cons, forall_eq_or_imp, exists_eq_or_imp]
    refine ⟨?_, ?_, ?_, ?_⟩
    · rintro ⟨a1, a2⟩; linarith [h1 a2]
    · rintro ⟨a1, a2⟩; linarith [h2 a2]
    · rintro ⟨a1, a2⟩ (b | b)
      · linarith [h1 a2]
      · linarith [h3 a2 b]
    · rintro ⟨a1, a2⟩ (b | b)
      · linarith [h2 a2]
      · linarith [h4 a2 b]

theorem sq_neg {a b : K} (h : a ^ 2 ≤ b ^ 2) (hb : b ≤ 0) : b ≤ a ∧ a ≤ -b := by
  have := abs_le_of_sq_le_sq' (a := a) (b := -b) (by rwa [neg_sq]) (by linarith)
  exact ⟨by linarith [this.1], this.2⟩

/-- C85: on every straight boundary, wherever it is and however its points are distributed and ordered, the reference point of the moments is
the middle between the two outermost points. -/
theorem C85_middle_partial (p d : P3 K) {ts : List K} (hne : ts ≠ []) :
    ∃ lo ∈ ts, ∃ hi ∈ ts, (∀ t ∈ ts, lo ≤ t ∧ t ≤ hi) ∧
      refPoint 0 (ts.map (onLine p d)) = some (onLine p d ((lo + hi) / 2)) := by
  obtain ⟨t0, l0, rfl⟩ := List.exists_cons_of_ne_nil hne
  set ts := t0 :: l0 with hts
  -- extreme parameters
  have hmin : ∃ lo ∈ ts, ∀ t ∈ ts, lo ≤ t := by
    obtain ⟨m, hm, h⟩ := Finset.exists_min_image ts.toFinset id ⟨t0, by simp [hts]⟩
    exact ⟨m, List.mem_toFinset.1 hm, fun t ht => h t (List.mem_toFinset.2 ht)⟩
  have hmax : ∃ hi ∈ ts, ∀ t ∈ ts, t ≤ hi := by
    obtain ⟨m, hm, h⟩ := Finset.exists_max_image ts.toFinset id ⟨t0, by simp [hts]⟩
    exact ⟨m, List.mem_toFinset.1 hm, fun t ht => h t (List.mem_toFinset.2 ht)⟩
  obtain ⟨lo, hlo, hl⟩ := hmin
  obtain ⟨hi, hhi, hh⟩ := hmax
  refine ⟨lo, hlo, hi, hhi, fun t ht => ⟨hl t ht, hh t ht⟩, ?_⟩
  have hemp : (ts.map (onLine p d)).isEmpty = false := by simp [hts]
  unfold refPoint
  rw [hemp]
  simp only [Bool.false_eq_true, if_false]
  rw [mean_line p d hne]
  set tb := ts.sum / (ts.length : K) with htb
  set D := d 0 ^ 2 + d 1 ^ 2 + d 2 ^ 2 with hD
  have hD0 : 0 ≤ D := by positivity
  have hlen : (0 : K) < ts.length := by rw [hts]; exact Nat.cast_pos.2 (by simp)
  have htbm : tb * ts.length = ts.sum := by rw [htb, div_mul_cancel₀ _ hlen.ne']
  obtain ⟨a1, a2, a3⟩ := furthest_spec (onLine p d tb) (ts.map (onLine p d)) (0, onLine p d tb)
  generalize hs1 : furthest (onLine p d tb) (ts.map (onLine p d)) (0, onLine p d tb) = s1 at *
  obtain ⟨b1, b2, b3⟩ := furthest_spec s1.2 (ts.map (onLine p d)) (s1.1, s1.2)
  generalize hs2 : furthest s1.2 (ts.map (onLine p d)) (s1.1, s1.2) = s2 at *
  -- all distances vanish: one point only
  by_cases hflat : (hi - lo) ^ 2 * D = 0
  · -- every point is the same
    have hsame : ∀ t, lo ≤ t → t ≤ hi → onLine p d t = onLine p d lo := by
      intro t h1 h2
      rcases mul_eq_zero.1 hflat with h | h
      · have : hi = lo := by
          have := pow_eq_zero_iff (two_ne_zero) |>.1 h
          linarith
        have : t = lo := le_antisymm (by linarith) h1
        rw [this]
      · have q0 : d 0 = 0 := by
          have : d 0 ^ 2 = 0 := le_antisymm (by nlinarith [sq_nonneg (d 0), sq_nonneg (d 1), sq_nonneg (d 2)]) (sq_nonneg _)
          exact pow_eq_zero_iff two_ne_zero |>.1 this
        have q1 : d 1 = 0 := by
          have : d 1 ^ 2 = 0 := le_antisymm (by nlinarith [sq_nonneg (d 0), sq_nonneg (d 1), sq_nonneg (d 2)]) (sq_nonneg _)
          exact pow_eq_zero_iff two_ne_zero |>.1 this
        have q2 : d 2 = 0 := by
          have : d 2 ^ 2 = 0 := le_antisymm (by nlinarith [sq_nonneg (d 0), sq_nonneg (d 1), sq_nonneg (d 2)]) (sq_nonneg _)
          exact pow_eq_zero_iff two_ne_zero |>.1 this
        funext i
        unfold onLine
        fin_cases i <;> simp [q0, q1, q2]
    have hlohi : lo ≤ hi := hl hi hhi
    have hb1 : lo ≤ tb := by
      rw [htb, le_div_iff₀ hlen, mul_comm]; exact (sum_bounds ts lo).1 hl
    have hb2 : tb ≤ hi := by
      rw [htb, div_le_iff₀ hlen, mul_comm]; exact (sum_bounds ts hi).2.1 hh
    have hP : ∀ x ∈ ts.map (onLine p d), x = onLine p d lo := by
      intro x hx
      obtain ⟨t, ht, rfl⟩ := List.mem_map.1 hx
      exact hsame t (hl t ht) (hh t ht)
    have e1 : s1.2 = onLine p d lo := by
      rcases a3 with h | ⟨h, -, -⟩
      · rw [h]; exact hsame tb hb1 hb2
      · exact hP _ h
    have e2 : s2.2 = onLine p d lo := by
      rcases b3 with h | ⟨h, -, -⟩
      · rw [h]; exact e1
      · exact hP _ h
    rw [e1, e2, hsame ((lo + hi) / 2) (by linarith) (by linarith)]
    congr 1
    funext i
    ring
  · -- proper interval
    have hDpos : 0 < D := lt_of_le_of_ne hD0 (fun h => hflat (by rw [← h, mul_zero]))
    have hlt : lo < hi := by
      refine lt_of_le_of_ne (hl hi hhi) fun h => hflat ?_
      rw [h]; ring
    have hb1 : lo < tb := by
      rw [htb, lt_div_iff₀ hlen, mul_comm]; exact (sum_bounds ts lo).2.2.1 hl ⟨hi, hhi, hlt⟩
    have hb2 : tb < hi := by
      rw [htb, div_lt_iff₀ hlen, mul_comm]; exact (sum_bounds ts hi).2.2.2 hh ⟨lo, hlo, hlt⟩
    have dl : ∀ t ∈ ts, ∀ s : K, (t - s) ^ 2 * D = dist2 (onLine p d t) (onLine p d s) := fun t _ s => (dist_line p d t s).symm
    -- first point
    have hm1 : ∀ t ∈ ts, (t - tb) ^ 2 * D ≤ s1.1 := by
      intro t ht
      rw [dl t ht]
      exact a2 _ (List.mem_map_of_mem ht)
    have hex1 : ∃ t1 ∈ ts, s1.2 = onLine p d t1 ∧ s1.1 = (t1 - tb) ^ 2 * D := by
      rcases a3 with h | ⟨h, h', -⟩
      · exfalso
        have := hm1 hi hhi
        rw [h] at this
        have : 0 < (hi - tb) ^ 2 * D := by
          have : 0 < hi - tb := by linarith
          positivity
        simp only at *
        linarith
      · obtain ⟨t1, ht1, e⟩ := List.mem_map.1 h
        refine ⟨t1, ht1, e.symm, ?_⟩
        rw [← h', ← e, dist_line]
    obtain ⟨t1, ht1, e1, m1⟩ := hex1
    have hle : ∀ t ∈ ts, (t - tb) ^ 2 ≤ (t1 - tb) ^ 2 := by
      intro t ht
      have := hm1 t ht
      rw [m1] at this
      exact le_of_mul_le_mul_right this hDpos
    have hm2 : ∀ t ∈ ts, (t - t1) ^ 2 * D ≤ s2.1 := by
      intro t ht
      rw [dl t ht, ← e1]
      exact b2 _ (List.mem_map_of_mem ht)
    have ht1' : t1 = lo ∨ t1 = hi := by
      have h1 := hle lo hlo
      have h2 := hle hi hhi
      have c1 := hl t1 ht1
      have c2 := hh t1 ht1
      by_cases hs : t1 ≤ tb
      · left
        linarith [(sq_neg h1 (by linarith)).1]
      · right
        have hs := not_le.1 hs
        linarith [(abs_le_of_sq_le_sq' h2 (by linarith)).2]
    have hex2 : ∃ t2 ∈ ts, s2.2 = onLine p d t2 ∧ ∀ t ∈ ts, (t - t1) ^ 2 ≤ (t2 - t1) ^ 2 := by
      rcases b3 with h | ⟨h, h', -⟩
      · exfalso
        have g1 := hm2 lo hlo
        have g2 := hm2 hi hhi
        rw [h] at g1 g2
        simp only [m1] at g1 g2
        have g1 := le_of_mul_le_mul_right g1 hDpos
        have g2 := le_of_mul_le_mul_right g2 hDpos
        rcases ht1' with r | r
        · rw [r] at g2; linarith [(sq_neg g2 (by linarith)).2, hle hi hhi, (sq_neg (hle hi hhi) (by linarith)).2]
        · rw [r] at g1; linarith [(abs_le_of_sq_le_sq' g1 (by linarith)).1]
      · obtain ⟨t2, ht2, e⟩ := List.mem_map.1 h
        refine ⟨t2, ht2, e.symm, ?_⟩
        intro t ht
        have := hm2 t ht
        rw [← h', ← e, e1, dist_line] at this
        exact le_of_mul_le_mul_right this hDpos
    obtain ⟨t2, ht2, e2, m2⟩ := hex2
    have ht2' : (t1 = lo ∧ t2 = hi) ∨ (t1 = hi ∧ t2 = lo) := by
      have c1 := hl t2 ht2
      have c2 := hh t2 ht2
      rcases ht1' with r | r
      · left
        refine ⟨r, ?_⟩
        have := m2 hi hhi
        rw [r] at this
        linarith [(abs_le_of_sq_le_sq' this (by linarith)).2]
      · right
        refine ⟨r, ?_⟩
        have := m2 lo hlo
        rw [r] at this
        linarith [(sq_neg this (by linarith)).1]
    rw [e1, e2]
    congr 1
    funext i
    unfold onLine
    rcases ht2' with ⟨r1, r2⟩ | ⟨r1, r2⟩ <;> rw [r1, r2] <;> ring

/-- C85 (violation): when the model is preprocessed a second time the search starts from the old value, and the reference point of a straight
boundary moves to one of its ends. -/
theorem C85_middle_violated : ∃ (xs : List (P3 ℚ)) (x0 x1 : P3 ℚ), refPoint 0 xs = some x0 ∧ refPoint x0 xs = some x1 ∧
    x0 0 = 21 / 2 ∧ x1 0 = 10 := by
  refine ⟨[![10, 0, 0], ![11, 0, 0]], ![21 / 2, 0, 0], ![10, 0, 0], ?_, ?_, rfl, rfl⟩
  · exact congrArg some (funext fun i => by revert i; decide +kernel)
  · exact congrArg some (funext fun i => by revert i; decide +kernel)

/-- C85: a section without nodes keeps its reference point. -/
theorem C85_no_nodes (x0 : P3 K) : refPoint x0 ([] : List (P3 K)) = none := rfl

end RefPoint

end Verif.Boundary
