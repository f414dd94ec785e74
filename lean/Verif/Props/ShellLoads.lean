/-
Property C141: the point loads of plates and shells are those of the input file.
-/
import Verif.Props.PointLoads
import Verif.Model.ShellLoads

set_option linter.unusedSectionVars false
set_option linter.unusedSimpArgs false
set_option linter.unusedVariables false

namespace Verif.PointLoads

variable {K : Type} [Field K]

/-! ### Specification -/

/-- The direction of a tag: the normal of a plate; for shells the given one, or the first axis. -/
def Tag.dir (nsd : Nat) (t : Tag K) : Int := if nsd = 3 then t.direction.getD 1 else 1

/-- The point of a tag. -/
def Tag.point (t : Tag K) : K × K := (t.xi.getD 0, t.eta.getD 0)

/-- The node or element at the point, if there is one. -/
def Tag.place (at_ : Nat → K × K → Point) (t : Tag K) : Option Int := target (at_ (t.patch.getD 0) t.point) (decide (t.onElement = some true))

/-- What a tag contributes to degree of freedom `i` of node `a` at time `τ`: nothing without value; an element load is distributed by the basis functions, a nodal load acts at its node. -/
def Tag.part (nsd : Nat) (N : Nat → K × K → Nat → K) (at_ : Nat → K × K → Point) (τ : K) (t : Tag K) (a i : Nat) : K :=
  match t.value with
  | none => 0
  | some f => if (i : Int) ≠ t.dir nsd then 0
    else if t.onElement = some true then f.1 τ * N (t.patch.getD 0) t.point a
    else if t.place at_ = some (a : Int) then f.1 τ else 0

/-- What a tag contributes to the sum of the loads in direction `i + 1`. -/
def Tag.whole (nsd : Nat) (τ : K) (t : Tag K) (i : Nat) : K :=
  match t.value with
  | none => 0
  | some f => if t.dir nsd = (i : Int) + 1 then f.1 τ else 0

/-! ### Tags -/

/-- The load of a tag with value. -/
def Tag.raw (nsd : Nat) (t : Tag K) : Raw K := ⟨t.patch.getD 0, if t.onElement = some true then -t.dir nsd else t.dir nsd, t.point, t.value⟩

theorem readTag_eq (nsd : Nat) (loads : List (Raw K)) (t : Tag K) : readTag nsd loads t = if t.value.isSome then loads ++ [t.raw nsd] else loads := by
  unfold readTag
  cases h : t.value with
  | none => simp
  | some f =>
    rcases ho : t.onElement with _ | (_ | _) <;> by_cases hn : nsd = 3 <;> simp [Tag.raw, Tag.dir, Tag.point, Raw.new, h, ho, hn]

theorem readTags_eq (nsd : Nat) (tags : List (Tag K)) : readTags nsd tags = (tags.filter fun t => t.value.isSome).map (Tag.raw nsd) := by
  unfold readTags
  induction tags using List.reverseRecOn with
  | nil => rfl
  | append_singleton l t ih =>
    rw [List.foldl_concat, ih, readTag_eq]
    by_cases h : t.value.isSome <;> simp [h]

theorem sum_filter (tags : List (Tag K)) (g : Tag K → K) (hg : ∀ t ∈ tags, t.value = none → g t = 0) : ((tags.filter fun t => t.value.isSome).map g).sum = (tags.map g).sum := by
  induction tags with
  | nil => rfl
  | cons t l ih =>
    have ih := ih fun t ht => hg t (by simp [ht])
    by_cases h : t.value.isSome
    · simp [h, ih]
    · have h' : t.value = none := by simpa using h
      simp [h', ih, hg t (by simp) h']

/-- The list of loads with their nodes. -/
theorem preprocess_map (at_ : Load K → Point) (loads : List (Load K)) (n : Load K → Int) (h : ∀ l ∈ loads, target (at_ l) (decide (l.dof < 0)) = some (n l)) :
    preprocess at_ loads = (loads.map fun l => { l with node := n l }, true) := by
  obtain ⟨h1, h2, h3⟩ := C89_located at_ loads
  refine Prod.ext ?_ (h1.mpr fun l hl => by rw [h l hl]; rfl)
  refine List.ext_getElem? fun j => ?_
  rcases hj : loads[j]? with _ | l
  · rw [List.getElem?_map, hj, Option.map_none]
    rw [List.getElem?_eq_none_iff] at hj ⊢
    omega
  · rw [h3 j l hj (n l) (h l (List.mem_of_getElem? hj)), List.getElem?_map, hj]; rfl

/-- C141 (tags): when the directions exist, and each load with a value has its node or element, the load vector is the sum of what the tags say, and so are the sums of the loads. -/
theorem C141_tags (nsd : Nat) (hd : nsd = 2 ∨ nsd = 3) (N : Nat → K × K → Nat → K) (at_ : Nat → K × K → Point) (τ : K) (tags : List (Tag K))
    (hdir : nsd = 3 → ∀ t ∈ tags, ∀ k, t.direction = some k → 1 ≤ k ∧ k ≤ 3) (hat : ∀ t ∈ tags, t.value.isSome → (t.place at_).isSome) :
    ∃ s, loadVector nsd N at_ τ (readTags nsd tags) = .ok s ∧ (∀ a i, s.b a i = (tags.map fun t => t.part nsd N at_ τ a i).sum) ∧
      ∀ i, s.sum i = (tags.map fun t => t.whole nsd τ i).sum := by
  have hr : ∀ t ∈ tags, 1 ≤ t.dir nsd ∧ t.dir nsd ≤ (if nsd < 3 then 1 else 3 : Nat) := by
    intro t ht
    rcases hd with rfl | rfl
    · simp [Tag.dir]
    · have := hdir rfl t ht
      cases hk : t.direction with
      | none => simp [Tag.dir, hk]
      | some k => simpa [Tag.dir, hk] using this k hk
  obtain ⟨vt, hvt⟩ : ∃ vt, vt = tags.filter fun t => t.value.isSome := ⟨_, rfl⟩
  have hm : ∀ t ∈ vt, t ∈ tags ∧ t.value.isSome = true := by intro t ht; rw [hvt] at ht; simpa using ht
  obtain ⟨z, hz⟩ : ∃ z : (K → K) × (K → K), z = (fun _ => 0, fun _ => 0) := ⟨_, rfl⟩
  obtain ⟨nd, hnd⟩ : ∃ nd : Load K → Int, nd = fun l => (target (at_ l.patch l.xi) (decide (l.dof < 0))).getD 0 := ⟨_, rfl⟩
  have hneg : ∀ t ∈ vt, decide (((t.raw nsd).load z).dof < 0) = decide (t.onElement = some true) := by
    intro t ht
    have := hr t (hm t ht).1
    by_cases ho : t.onElement = some true <;> simp [Raw.load, Tag.raw, ho] <;> omega
  have hpl : ∀ t ∈ vt, target (at_ ((t.raw nsd).load z).patch ((t.raw nsd).load z).xi) (decide (((t.raw nsd).load z).dof < 0)) = t.place at_ := by
    intro t ht
    rw [hneg t ht]; rfl
  have hpre : preprocess (fun l => at_ l.patch l.xi) ((readTags nsd tags).map (Raw.load z)) =
      (vt.map fun t => { (t.raw nsd).load z with node := nd ((t.raw nsd).load z) }, true) := by
    rw [readTags_eq, ← hvt, List.map_map, preprocess_map (fun l => at_ l.patch l.xi) _ nd, List.map_map]
    · rfl
    · intro l hl
      obtain ⟨t, ht, rfl⟩ := List.mem_map.mp hl
      have := hat t (hm t ht).1 (hm t ht).2
      rw [Option.isSome_iff_exists] at this
      obtain ⟨n, hn⟩ := this
      simp only [hnd, Function.comp_apply, hpl t ht, hn, Option.getD_some]
  have hplace : ∀ t ∈ vt, ∃ n, 0 < n ∧ t.place at_ = some n ∧ nd ((t.raw nsd).load z) = n := by
    intro t ht
    obtain ⟨n, hn⟩ := Option.isSome_iff_exists.mp (hat t (hm t ht).1 (hm t ht).2)
    refine ⟨n, ?_, hn, by simp only [hnd, hpl t ht, hn, Option.getD_some]⟩
    unfold Tag.place target at hn
    split_ifs at hn <;> simp_all
  obtain ⟨s, h1, h2, h3⟩ := C89_vector (if nsd < 3 then 1 else 3) (by split_ifs <;> omega) N τ (vt.map fun t => { (t.raw nsd).load z with node := nd ((t.raw nsd).load z) }) ⟨fun _ _ => 0, fun _ => 0⟩ (by
    intro l hl
    obtain ⟨t, ht, rfl⟩ := List.mem_map.mp hl
    obtain ⟨n, n0, -, n2⟩ := hplace t ht
    have := hr t (hm t ht).1
    unfold Valid
    simp only [n2]
    by_cases ho : t.onElement = some true <;> simp only [Raw.load, Tag.raw, ho, if_true, if_false] <;> refine ⟨?_, ?_, ?_, fun _ => n0.le⟩ <;> omega)
  refine ⟨s, ?_, fun a i => ?_, fun i => ?_⟩
  · unfold loadVector
    rw [← hz]
    simp only [hpre]
    rw [if_neg (by simp), if_neg, h1]
    rw [readTags_eq, ← hvt]
    simp only [List.any_map, List.any_eq_true, not_exists, not_and, Function.comp_apply]
    intro t ht
    have := (hm t ht).2
    cases hv : t.value with
    | none => rw [hv] at this; cases this
    | some f => simp [Tag.raw, hv]
  · rw [h2, zero_add, List.map_map, ← sum_filter tags (fun t => t.part nsd N at_ τ a i) (fun t _ hv => by simp [Tag.part, hv]), ← hvt]
    congr 1
    refine List.map_congr_left fun t ht => ?_
    obtain ⟨n, n0, n1, n2⟩ := hplace t ht
    obtain ⟨f, hf⟩ := Option.isSome_iff_exists.mp (hm t ht).2
    have := hr t (hm t ht).1
    simp only [Function.comp_apply, n2]
    by_cases ho : t.onElement = some true
    · have h0 : ¬ 0 < -t.dir nsd := by omega
      simp only [share, Raw.load, Tag.raw, ho, if_true, h0, if_false, neg_neg, Tag.part, hf, Option.getD_some]
      by_cases hi : (i : Int) = t.dir nsd <;> simp [hi]
    · have h0 : 0 < t.dir nsd := by omega
      simp only [share, Raw.load, Tag.raw, ho, if_true, h0, if_false, Tag.part, hf, Option.getD_some, n1, Option.some.injEq]
      by_cases hi : (i : Int) = t.dir nsd <;> by_cases ha : (a : Int) = n <;> simp [hi, ha, eq_comm]
      intro h; exact absurd h.symm ha
  · rw [h3, zero_add, List.map_map, ← sum_filter tags (fun t => t.whole nsd τ i) (fun t _ hv => by simp [Tag.whole, hv]), ← hvt]
    congr 1
    refine List.map_congr_left fun t ht => ?_
    obtain ⟨f, hf⟩ := Option.isSome_iff_exists.mp (hm t ht).2
    have := hr t (hm t ht).1
    simp only [Function.comp_apply, Raw.load, Tag.raw, Tag.whole, hf, Option.getD_some]
    by_cases ho : t.onElement = some true
    · simp only [ho, if_true]
      by_cases hi : t.dir nsd = (i : Int) + 1
      · simp [hi]
      · rw [if_neg (by omega), if_neg hi]
    · simp only [ho, if_false]
      by_cases hi : t.dir nsd = (i : Int) + 1
      · simp [hi]
      · rw [if_neg (by omega), if_neg hi]

/-- A plate with two tags on the first patch: a force of 3 at the node 7 at its corner, and a force of 5 inside an element. -/
example : ∃ s, loadVector 2 (fun _ _ a => if a = 7 ∨ a = 8 then 1 / 2 else 0) (fun _ x => if x = (0, 0) then ⟨7, 7, 1⟩ else ⟨0, 8, 1⟩) 0
      (readTags 2 [(⟨some 1, none, none, none, none, some (fun _ => 3, fun _ => 0)⟩ : Tag ℚ), ⟨some 1, some (1 / 3), some (1 / 4), none, some true, some (fun _ => 5, fun _ => 0)⟩]) = .ok s ∧
    s.b 7 1 = 11 / 2 ∧ s.b 8 1 = 5 / 2 ∧ s.sum 0 = 8 := by
  obtain ⟨s, h1, h2, h3⟩ := C141_tags 2 (.inl rfl) (fun _ _ a => if a = 7 ∨ a = 8 then 1 / 2 else 0) (fun _ x => if x = (0, 0) then ⟨7, 7, 1⟩ else ⟨0, 8, 1⟩) 0
    [(⟨some 1, none, none, none, none, some (fun _ => 3, fun _ => 0)⟩ : Tag ℚ), ⟨some 1, some (1 / 3), some (1 / 4), none, some true, some (fun _ => 5, fun _ => 0)⟩]
    (by intro h; cases h) (by simp [Tag.place, Tag.point, target])
  refine ⟨s, h1, ?_, ?_, ?_⟩
  · rw [h2]; decide +kernel
  · rw [h2]; decide +kernel
  · rw [h3]; norm_num [Tag.whole, Tag.dir]

/-- C141 (points outside): the program stops with a message exactly if some load has neither node nor element. -/
theorem C141_outside (nsd : Nat) (hd : nsd = 2 ∨ nsd = 3) (N : Nat → K × K → Nat → K) (at_ : Nat → K × K → Point) (τ : K) (tags : List (Tag K))
    (hdir : nsd = 3 → ∀ t ∈ tags, ∀ k, t.direction = some k → 1 ≤ k ∧ k ≤ 3) :
    loadVector nsd N at_ τ (readTags nsd tags) = .fail ↔ ∃ t ∈ tags, t.value.isSome ∧ t.place at_ = none := by
  refine ⟨fun h => ?_, fun ⟨t, ht, hv, hp⟩ => ?_⟩
  · by_contra hc
    push Not at hc
    obtain ⟨s, h1, -⟩ := C141_tags nsd hd N at_ τ tags hdir fun t ht hv => Option.isSome_iff_ne_none.mpr (hc t ht hv)
    rw [h1] at h; cases h
  · unfold loadVector
    rw [if_pos]
    have h1 := (C89_located (fun l : Load K => at_ l.patch l.xi) ((readTags nsd tags).map (Raw.load (fun _ => 0, fun _ => 0)))).1
    rw [Bool.eq_false_iff, ne_eq, h1]
    push Not
    have hr : 1 ≤ t.dir nsd := by
      rcases hd with rfl | rfl
      · simp [Tag.dir]
      · have := hdir rfl t ht
        cases hk : t.direction with
        | none => simp [Tag.dir, hk]
        | some k => have := this k hk; simp [Tag.dir, hk]; omega
    refine ⟨(t.raw nsd).load (fun _ => 0, fun _ => 0), ?_, ?_⟩
    · rw [readTags_eq]
      exact List.mem_map_of_mem (List.mem_map_of_mem (List.mem_filter.mpr ⟨ht, hv⟩))
    · have hneg : decide (((t.raw nsd).load (fun _ => 0, fun _ => 0)).dof < 0) = decide (t.onElement = some true) := by
        by_cases ho : t.onElement = some true <;> simp [Raw.load, Tag.raw, ho] <;> omega
      rw [hneg]
      show ¬ (t.place at_).isSome = true
      simp [hp]

/-- A force at a point which can not be evaluated. -/
example : loadVector 3 (fun _ _ _ => 0) (fun _ _ => ⟨-1, 0, 0⟩) 0 (readTags 3 [(⟨some 9, none, none, some 3, none, some (fun _ => 3, fun _ => 0)⟩ : Tag ℚ)]) = .fail :=
  (C141_outside 3 (.inr rfl) _ _ _ _ (by simp)).mpr ⟨_, List.mem_singleton.mpr rfl, rfl, by simp [Tag.place, target]⟩

/-- C141 fails for shells with a negative direction: an element load becomes a nodal load in the positive direction. With direction zero the program is undefined. -/
theorem C141_direction_violated (P Q : K → K) (x y : K) (N : Nat → K × K → Nat → K) (at_ : Nat → K × K → Point) (τ : K) :
    ((readTags 3 [⟨some 1, some x, some y, some (-3), some true, some (P, Q)⟩]).map fun l => l.dof) = [3] ∧
    ∀ e : Option Bool, 0 < (at_ 1 (x, y)).imatch → loadVector 3 N at_ τ (readTags 3 [⟨some 1, some x, some y, some 0, e, some (P, Q)⟩]) = .ub := by
  refine ⟨by simp [readTags, readTag, Raw.new], fun e he => ?_⟩
  have hl : (readTags 3 [(⟨some 1, some x, some y, some 0, e, some (P, Q)⟩ : Tag K)]) = [⟨1, 0, (x, y), some (P, Q)⟩] := by
    rcases e with _ | (_ | _) <;> simp [readTags, readTag, Raw.new]
  have h0 : ¬ (at_ 1 (x, y)).imatch < 0 := by omega
  rw [hl]
  unfold loadVector
  simp only [List.map_cons, List.map_nil, Raw.load, Option.getD_some]
  rw [preprocess_map _ _ (fun l => (at_ l.patch l.xi).imatch) (by
    intro l hl
    obtain rfl := List.mem_singleton.mp hl
    simp [target, h0, he])]
  simp only [List.map_cons, List.map_nil]
  rw [if_neg (by simp), if_neg (by simp)]
  exact C89_direction_violated _ N τ _ rfl [] _

/-! ### Text -/

/-- The tag with the same contents as a line of text. -/
def Line.tag (w : Line K) : Tag K := match w.nums with
  | [a, b, v] => ⟨some w.patch, some a, some b, w.direction, none, some (fun _ => v, fun _ => 0)⟩
  | _ => ⟨none, none, none, none, none, none⟩

theorem readLines_ok (nsd : Nat) (old : List (Raw K)) (lines : List (Line K)) (hlen : old.length = lines.length) (hw : ∀ w ∈ lines, w.nums.length = 3)
    (hk : nsd = 3 → (∀ l ∈ old, l.dof = 1) ∨ ∀ w ∈ lines, w.direction.isSome) (hk2 : nsd ≠ 3 → ∀ l ∈ old, l.dof = 1) :
    readLines nsd old lines = .ok (lines.map fun w => w.tag.raw nsd) := by
  induction lines generalizing old with
  | nil =>
    obtain rfl := List.length_eq_zero_iff.mp hlen
    rfl
  | cons w ws ih =>
    obtain _ | ⟨l, ls⟩ := old
    · cases hlen
    · have h1 : readLine nsd l w = .ok (w.tag.raw nsd) := by
        have := hw w (by simp)
        obtain ⟨a, b, v, hn⟩ := List.length_eq_three.mp this
        unfold readLine Line.tag
        rw [hn]
        by_cases h3 : nsd = 3
        · rcases hk h3 with h | h
          · have := h l (by simp)
            simp [Tag.raw, Tag.dir, Tag.point, h3, this]
          · obtain ⟨k, hk⟩ := Option.isSome_iff_exists.mp (h w (by simp))
            simp [Tag.raw, Tag.dir, Tag.point, h3, hk]
        · have := hk2 h3 l (by simp)
          simp [Tag.raw, Tag.dir, Tag.point, h3, this]
      rw [readLines, h1]
      simp only [Res.bind]
      rw [ih ls (by simpa using hlen) (fun w hm => hw w (by simp [hm])) (fun h3 => ?_) fun h3 l hl => hk2 h3 l (by simp [hl])]
      · rfl
      · rcases hk h3 with h | h
        · exact .inl fun l hl => h l (by simp [hl])
        · exact .inr fun w hm => h w (by simp [hm])

/-- C141 (text), partial: the first section of point loads, with as many complete lines as announced, gives the same loads as tags with the same contents. -/
theorem C141_text_partial (nsd : Nat) (lines : List (Line K)) (hw : ∀ w ∈ lines, w.nums.length = 3) :
    readSection nsd lines.length [] lines = .ok (readTags nsd (lines.map Line.tag)) := by
  unfold readSection
  rw [readLines_ok nsd _ lines (by simp) hw (fun _ => .inl ?_) fun _ => ?_, readTags_eq]
  · congr 1
    rw [List.filter_eq_self.mpr, List.map_map]
    · rfl
    · intro t ht
      obtain ⟨w, hm, rfl⟩ := List.mem_map.mp ht
      obtain ⟨a, b, v, hn⟩ := List.length_eq_three.mp (hw w hm)
      simp [Line.tag, hn]
  all_goals
    intro l hl
    simp only [List.take_nil, List.nil_append] at hl
    rw [List.eq_of_mem_replicate hl]; rfl

/-- A section with one line. -/
example : readSection 3 1 [] [(⟨2, [1, 0, 5], some 3⟩ : Line ℚ)] = .ok (readTags 3 [⟨some 2, some 1, some 0, some 3, none, some (fun _ => 5, fun _ => 0)⟩]) :=
  C141_text_partial 3 [⟨2, [1, 0, 5], some 3⟩] (by simp)

/-- C141 fails for text input: a second section replaces the loads of the first one, and takes over their directions when it gives none; after the end of the file the remaining loads have no function, and the
program is undefined; so it is for a line which is too short. -/
theorem C141_text_violated (N : Nat → K × K → Nat → K) (at_ : Nat → K × K → Point) (τ P Q x y : K) (h : 0 < (at_ 0 (0, 0)).imatch) :
    (readSection 3 1 [⟨1, 3, (x, y), some (fun _ => P, fun _ => 0)⟩] [⟨2, [y, x, Q], none⟩] = .ok [⟨2, 3, (y, x), some (fun _ => Q, fun _ => 0)⟩]) ∧
    ((readSection 2 1 ([] : List (Raw K)) []).bind fun l => loadVector 2 N at_ τ l) = .ub ∧
    readSection 2 1 [] [⟨1, [x, y], none⟩] = .ub := by
  refine ⟨rfl, ?_, rfl⟩
  have h0 : ¬ (at_ 0 (0, 0)).imatch < 0 := by omega
  simp only [readSection, List.take_nil, List.nil_append, List.length_nil, Nat.sub_zero, List.replicate_one, readLines, Res.bind]
  unfold loadVector
  simp only [List.map_cons, List.map_nil, Raw.load, Raw.new, Option.getD_none]
  rw [preprocess_map _ _ (fun l => (at_ l.patch l.xi).imatch) (by
    intro l hl
    obtain rfl := List.mem_singleton.mp hl
    simp [target, h0, h])]
  simp

/-- The hypothesis is met by every point with a node. -/
example : 0 < ((fun _ _ => ⟨4, 0, 1⟩ : Nat → ℚ × ℚ → Point) 0 (0, 0)).imatch := by decide

end Verif.PointLoads
