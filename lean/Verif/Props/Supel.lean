/-
Property C91: superelements keep their own finite element model, materials and result blocks.
-/
import Mathlib.Tactic.Linarith
import Mathlib.Data.List.Range
import Verif.Model.Supel

set_option linter.unusedSectionVars false
set_option linter.unusedSimpArgs false
set_option linter.unusedVariables false

namespace Verif.Supel

/-! ### Reading and linking -/

theorem lookup_insert (k v j : Nat) (l : List (Nat × Nat)) (hs : l.Pairwise (fun a b => a.1 < b.1)) :
    lookup j (insert k v l) = if j = k then some v else lookup j l := by
  induction l with
  | nil => simp [insert, lookup]
  | cons p ps ih =>
    have hs' := List.pairwise_cons.mp hs
    unfold insert
    by_cases h1 : k = p.1
    · rw [if_pos h1]; simp only [lookup]
      by_cases h2 : j = k
      · simp [h2]
      · simp [h2, ← h1]
    · rw [if_neg h1]
      by_cases h2 : k < p.1
      · rw [if_pos h2]; simp only [lookup]
      · rw [if_neg h2]; simp only [lookup]; rw [ih hs'.2]
        by_cases h3 : j = p.1
        · have : j ≠ k := by omega
          simp [h3, this, h1, Ne.symm h1]
        · simp [h3]

theorem insert_keys (k v : Nat) (l : List (Nat × Nat)) (c : Nat) (hc : c < k) (h : ∀ p ∈ l, c < p.1) : ∀ p ∈ insert k v l, c < p.1 := by
  induction l with
  | nil => intro p hp; simp [insert] at hp; subst hp; exact hc
  | cons q qs ih =>
    intro p hp
    unfold insert at hp
    split_ifs at hp
    · obtain rfl | hp := List.mem_cons.mp hp
      · exact hc
      · exact h p (by simp [hp])
    · obtain rfl | hp := List.mem_cons.mp hp
      · exact hc
      · exact h p hp
    · obtain rfl | hp := List.mem_cons.mp hp
      · exact h _ (by simp)
      · exact ih (fun p hp => h p (by simp [hp])) p hp

theorem insert_sorted (k v : Nat) (l : List (Nat × Nat)) (hs : l.Pairwise (fun a b => a.1 < b.1)) : (insert k v l).Pairwise (fun a b => a.1 < b.1) := by
  induction l with
  | nil => simp [insert]
  | cons p ps ih =>
    have hs' := List.pairwise_cons.mp hs
    unfold insert
    by_cases h1 : k = p.1
    · rw [if_pos h1, List.pairwise_cons]; exact ⟨fun q hq => by have := hs'.1 q hq; simp; omega, hs'.2⟩
    · rw [if_neg h1]
      by_cases h2 : k < p.1
      · rw [if_pos h2, List.pairwise_cons]
        refine ⟨fun q hq => ?_, hs⟩
        obtain rfl | hq := List.mem_cons.mp hq
        · exact h2
        · have := hs'.1 q hq; simp; omega
      · rw [if_neg h2, List.pairwise_cons]
        exact ⟨insert_keys k v ps p.1 (by omega) hs'.1, ih hs'.2⟩

/-- Reading a list of blocks, all without errors. -/
def parseAll (ids : List (Option Nat)) : Subs := ids.foldl (fun s i => (parse i true s).1) ⟨[], 0, []⟩

/-- The number of the last block with the given name among the blocks with a name. -/
def lastIndex (k : Nat) (l : List Nat) : Option Nat := ((List.range l.length).filter fun i => l[i]? = some k).getLast?

theorem lastIndex_append (k x : Nat) (l : List Nat) : lastIndex k (l ++ [x]) = if k = x then some l.length else lastIndex k l := by
  unfold lastIndex
  rw [List.length_append, List.length_singleton, List.range_succ, List.filter_append]
  have h : (List.range l.length).filter (fun i => decide ((l ++ [x])[i]? = some k)) = (List.range l.length).filter fun i => decide (l[i]? = some k) := by
    apply List.filter_congr
    intro i hi
    rw [List.mem_range] at hi
    rw [List.getElem?_append_left hi]
  rw [h]
  by_cases hk : k = x
  · subst hk; simp
  · simp [hk, Ne.symm hk]

theorem parse_inv (ids : List (Option Nat)) :
    (parseAll ids).sims.Pairwise (fun a b => a.1 < b.1) ∧ (parseAll ids).created = (ids.filterMap id).length ∧
      ∀ k, lookup k (parseAll ids).sims = lastIndex k (ids.filterMap id) := by
  induction ids using List.reverseRecOn with
  | nil => refine ⟨by simp [parseAll], rfl, fun k => rfl⟩
  | append_singleton ids i ih =>
    obtain ⟨h1, h2, h3⟩ := ih
    have hstep : parseAll (ids ++ [i]) = (parse i true (parseAll ids)).1 := by simp [parseAll]
    cases i with
    | none => rw [hstep]; simpa [parse] using ⟨h1, h2, h3⟩
    | some k =>
      rw [hstep]
      have hf : (ids ++ [some k]).filterMap id = ids.filterMap id ++ [k] := by simp
      rw [hf]
      simp only [parse, if_true, List.length_append, List.length_singleton]
      refine ⟨insert_sorted _ _ _ h1, by rw [h2], fun j => ?_⟩
      rw [lookup_insert _ _ _ _ h1, lastIndex_append, h2, h3]

/-- **C91**: a superelement is linked to the model of the last block with its name, and to none if there is no such block. -/
theorem C91_link (ids : List (Option Nat)) (k : Nat) : link (parseAll ids) k = lastIndex k (ids.filterMap id) := (parse_inv ids).2.2 k

example : link (parseAll [some 4, none, some 2, some 4]) 4 = some 2 ∧ link (parseAll [some 4, none, some 2, some 4]) 2 = some 1 ∧
    link (parseAll [some 4, none, some 2, some 4]) 1 = none := by decide

/-- **C91**: a block with an error is reported and gives no model. -/
theorem C91_bad_block (k : Nat) (s : Subs) : (parse (some k) false s).2 = false ∧ (parse (some k) false s).1.sims = s.sims := ⟨rfl, rfl⟩

/-- **C91**: with different names every model read is owned by the simulator and will be released. -/
theorem C91_release_partial (ids : List (Option Nat)) (h : (ids.filterMap id).Nodup) : (parseAll ids).lost = [] := by
  induction ids using List.reverseRecOn with
  | nil => rfl
  | append_singleton ids i ih =>
    have hstep : parseAll (ids ++ [i]) = (parse i true (parseAll ids)).1 := by simp [parseAll]
    cases i with
    | none => rw [hstep]; exact ih (by simpa using h)
    | some k =>
      rw [hstep]
      simp only [List.filterMap_append, List.filterMap_cons, List.filterMap_nil, id_eq] at h
      rw [List.nodup_append] at h
      have hl : lookup k (parseAll ids).sims = none := by
        rw [(parse_inv ids).2.2]
        unfold lastIndex
        rw [List.getLast?_eq_none_iff, List.filter_eq_nil_iff]
        intro i _ hi
        simp only [decide_eq_true_eq] at hi
        exact h.2.2 k (List.mem_of_getElem? hi) k (by simp) rfl
      simp [parse, hl, ih h.1]

example : ([some 4, none, some 2].filterMap id).Nodup := by decide

/-- **C91** does not hold for two blocks with one name: the first model is never released. -/
theorem C91_release_violated (k : Nat) : (parseAll [some k, some k]).lost = [0] ∧ (parseAll [some k, some k]).sims = [(k, 1)] := by
  constructor <;> simp [parseAll, parse, insert, lookup]

/-! ### Materials -/

theorem evalSup_own {M : Type} (fe : Nat → FE M) (sim : Nat) (cur : Nat → Option M) :
    (evalSup fe sim sim cur).2 = (fe sim).patches.map fun p => some ((fe sim).mat p) := by
  unfold evalSup
  suffices h : ∀ (ps : List Nat) (r : (Nat → Option M) × List (Option M)),
      (ps.foldl (evalPatch fe sim sim) r).2 = r.2 ++ ps.map fun p => some ((fe sim).mat p) by simpa using h (fe sim).patches (cur, [])
  intro ps
  induction ps with
  | nil => intro r; simp
  | cons p ps ih => intro r; rw [List.foldl_cons, ih]; simp [evalPatch]

/-- **C91** (partial): when all superelements with a model have the same model, the stresses of every patch are evaluated with the material of that patch. -/
theorem C91_material_partial {M : Type} (fe : Nat → FE M) (problem : Nat) (sups : List (Option Nat)) (cur : Nat → Option M)
    (h : ∀ s ∈ sups, s = none ∨ s = some problem) :
    (evalAll fe problem sups cur).2 = sups.map fun s =>
      match s with
      | some sim => (fe sim).patches.map fun p => some ((fe sim).mat p)
      | none => [] := by
  induction sups using List.reverseRecOn with
  | nil => rfl
  | append_singleton ss s ih =>
    have ih' := ih fun s hs => h s (by simp [hs])
    unfold evalAll at ih' ⊢
    rw [List.foldl_append, List.map_append, List.foldl_cons, List.foldl_nil, List.map_cons, List.map_nil]
    obtain rfl | rfl := h s (by simp)
    · rw [← ih']
    · simp only
      rw [evalSup_own, ← ih']

example : ∀ s ∈ [some 0, none, some 0], s = none ∨ s = some 0 := by decide

/-- **C91** does not hold for superelements with different models: the material is activated in the superelement's model, but the stresses are evaluated by the integrand of the first
model, with the material last activated there. -/
theorem C91_material_violated : ∃ (fe : Nat → FE String) (s : Subs), s = parseAll [some 1, some 2] ∧
    (evalAll fe ((getMyProblem s).getD 0) [link s 1, link s 2] (fun _ => none)).2 = [[some "steel"], [some "steel"]] ∧
    (fe ((link s 2).getD 0)).patches = [1] ∧ (fe ((link s 2).getD 0)).mat 1 = "concrete" :=
  ⟨fun i => ⟨[1], fun _ => if i = 0 then "steel" else "concrete"⟩, _, rfl, by decide +kernel, by decide, by decide⟩

/-- **C91**: the integrand used for the result names is the one of the model with the first name. -/
theorem C91_problem (s : Subs) (k v : Nat) (rest : List (Nat × Nat)) (h : s.sims = (k, v) :: rest) : getMyProblem s = some v := by simp [getMyProblem, h]

example : (parseAll [some 4, some 2]).sims = [(2, 1), (4, 0)] := by decide

/-! ### Result blocks -/

/-- Every field list has the blocks of its row, in order of writing. -/
def Consistent (s : Out) : Prop := ∀ j, s.sID.getD j [] = (s.log.filter fun b => b.row = j).map Blk.id

theorem writeFields_spec (rows geom : Nat) (s : Out) (h : Consistent s) :
    Consistent (writeFields rows geom s) ∧ rows ≤ (writeFields rows geom s).sID.length ∧ s.sID.length ≤ (writeFields rows geom s).sID.length ∧
      (writeFields rows geom s).nBlock = s.nBlock + rows ∧ (writeFields rows geom s).vID = s.vID ∧ (writeFields rows geom s).vlog = s.vlog ∧
      (writeFields rows geom s).log = s.log ++ (List.range rows).map fun j => ⟨s.nBlock + j + 1, geom, j⟩ := by
  induction rows with
  | zero => exact ⟨by simpa [writeFields] using h, by simp, by simp [writeFields], by simp [writeFields], rfl, rfl, by simp [writeFields]⟩
  | succ n ih =>
    obtain ⟨h1, h2, h3, h4, h5, h6, h7⟩ := ih
    have hstep : writeFields (n + 1) geom s = writeRow geom (writeFields n geom s) n := by
      unfold writeFields; rw [List.range_succ, List.foldl_append]; rfl
    rw [hstep]
    generalize writeFields n geom s = t at *
    unfold writeRow
    refine ⟨fun j => ?_, ?_, ?_, by simp only [h4]; omega, h5, h6, ?_⟩
    · simp only [List.filter_append, List.map_append]
      have hj := h1 j
      by_cases hn : n < t.sID.length
      · rw [if_pos hn]
        by_cases hjn : j = n
        · subst hjn
          rw [← hj]
          simp [List.getD_eq_getElem?_getD, List.getElem?_modify, hn]
        · have : ¬ (n = j) := fun h => hjn h.symm
          rw [← hj]
          simp [List.getD_eq_getElem?_getD, List.getElem?_modify, this]
      · rw [if_neg hn]
        have hlen : t.sID.length = n := by omega
        by_cases hjn : j = n
        · subst hjn
          rw [← hj]
          simp [List.getD_eq_getElem?_getD, hlen]
        · have : ¬ (n = j) := fun h => hjn h.symm
          rw [← hj]
          simp only [List.getD_eq_getElem?_getD]
          by_cases hlt : j < n
          · rw [List.getElem?_append_left (by omega)]; simp [this]
          · rw [List.getElem?_eq_none (by simp; omega), List.getElem?_eq_none (by omega)]; simp [this]
    · simp only; split_ifs <;> simp <;> omega
    · simp only; split_ifs <;> simp <;> omega
    · simp only [h7, h4, List.range_succ, List.map_append, List.append_assoc, List.map_cons, List.map_nil]

/-- **C91**: the secondary solution of the superelements: superelement number `k` has the geometry `k+1` after the start, its field `j` is written to a block of its own, numbered
consecutively, and the list of each field has exactly the blocks of this field. -/
theorem C91_blocks (startGeo n0 : Nat) (rows : List Nat) :
    (writeS2 startGeo rows ⟨n0, [], [], [], []⟩).2.log = ((List.range rows.length).flatMap fun k => (List.range (rows.getD k 0)).map fun j =>
      (⟨n0 + (rows.take k).sum + j + 1, startGeo + k + 1, j⟩ : Blk)) ∧
    (∀ j, (writeS2 startGeo rows ⟨n0, [], [], [], []⟩).2.sID.getD j [] =
      ((writeS2 startGeo rows ⟨n0, [], [], [], []⟩).2.log.filter fun b => b.row = j).map Blk.id) ∧
    (writeS2 startGeo rows ⟨n0, [], [], [], []⟩).2.nBlock = n0 + rows.sum ∧ (writeS2 startGeo rows ⟨n0, [], [], [], []⟩).1 = startGeo + rows.length := by
  induction rows using List.reverseRecOn with
  | nil => simp [writeS2]
  | append_singleton rs r ih =>
    obtain ⟨h1, h2, h3, h4⟩ := ih
    have hstep : writeS2 startGeo (rs ++ [r]) ⟨n0, [], [], [], []⟩ =
        ((writeS2 startGeo rs ⟨n0, [], [], [], []⟩).1 + 1,
          writeFields r ((writeS2 startGeo rs ⟨n0, [], [], [], []⟩).1 + 1) (writeS2 startGeo rs ⟨n0, [], [], [], []⟩).2) := by
      unfold writeS2; rw [List.foldl_append]; rfl
    rw [hstep]
    generalize writeS2 startGeo rs ⟨n0, [], [], [], []⟩ = t at *
    obtain ⟨g1, g2, g3, g4, g5, g6, g7⟩ := writeFields_spec r (t.1 + 1) t.2 h2
    refine ⟨?_, g1, by simp only [g4, h3, List.sum_append, List.sum_singleton]; omega, by simp [h4]; omega⟩
    simp only [g7]
    simp only [h1, h4, h3]
    rw [List.length_append, List.length_singleton, List.range_succ, List.flatMap_append]
    congr 1
    · apply List.flatMap_congr
      intro k hk
      rw [List.mem_range] at hk
      simp [List.getD_eq_getElem?_getD, List.getElem?_append_left hk, List.take_append_of_le_length (Nat.le_of_lt hk)]
    · simp [List.getD_eq_getElem?_getD]

example : (writeS2 5 [2, 1, 2] ⟨10, [], [], [], []⟩).2.sID = [[11, 13, 14], [12, 15]] := by decide

/-- **C91**: the primary solution: each superelement has one vector block followed by a block for each component, on its own geometry, and the list of each component has exactly the
blocks of this component. -/
theorem C91_vector_blocks (startGeo n0 : Nat) (rows : List Nat) :
    (writeS1 startGeo rows ⟨n0, [], [], [], []⟩).2.log = ((List.range rows.length).flatMap fun k => (List.range (rows.getD k 0)).map fun j =>
      (⟨n0 + (rows.take k).sum + k + 1 + j + 1, startGeo + k + 1, j⟩ : Blk)) ∧
    (writeS1 startGeo rows ⟨n0, [], [], [], []⟩).2.vlog = ((List.range rows.length).map fun k => (n0 + (rows.take k).sum + k + 1, startGeo + k + 1)) ∧
    (writeS1 startGeo rows ⟨n0, [], [], [], []⟩).2.vID = (writeS1 startGeo rows ⟨n0, [], [], [], []⟩).2.vlog.map Prod.fst ∧
    (∀ j, (writeS1 startGeo rows ⟨n0, [], [], [], []⟩).2.sID.getD j [] =
      ((writeS1 startGeo rows ⟨n0, [], [], [], []⟩).2.log.filter fun b => b.row = j).map Blk.id) ∧
    (writeS1 startGeo rows ⟨n0, [], [], [], []⟩).2.nBlock = n0 + rows.sum + rows.length ∧
    (writeS1 startGeo rows ⟨n0, [], [], [], []⟩).1 = startGeo + rows.length := by
  induction rows using List.reverseRecOn with
  | nil => simp [writeS1]
  | append_singleton rs r ih =>
    obtain ⟨h1, h2, h3, h4, h5, h6⟩ := ih
    have hstep : writeS1 startGeo (rs ++ [r]) ⟨n0, [], [], [], []⟩ =
        ((writeS1 startGeo rs ⟨n0, [], [], [], []⟩).1 + 1,
          writeFields r ((writeS1 startGeo rs ⟨n0, [], [], [], []⟩).1 + 1)
            (writeVec ((writeS1 startGeo rs ⟨n0, [], [], [], []⟩).1 + 1) (writeS1 startGeo rs ⟨n0, [], [], [], []⟩).2)) := by
      unfold writeS1; rw [List.foldl_append]; rfl
    rw [hstep]
    generalize writeS1 startGeo rs ⟨n0, [], [], [], []⟩ = t at *
    obtain ⟨g1, g2, g3, g4, g5, g6, g7⟩ := writeFields_spec r (t.1 + 1) (writeVec (t.1 + 1) t.2) h4
    refine ⟨?_, ?_, ?_, g1, ?_, by simp [h6]; omega⟩
    · simp only [g7]
      simp only [writeVec, h1, h5, h6]
      rw [List.length_append, List.length_singleton, List.range_succ, List.flatMap_append]
      congr 1
      · apply List.flatMap_congr
        intro k hk
        rw [List.mem_range] at hk
        simp [List.getD_eq_getElem?_getD, List.getElem?_append_left hk, List.take_append_of_le_length (Nat.le_of_lt hk)]
      · simp [List.getD_eq_getElem?_getD]
    · simp only [g6]
      simp only [writeVec, h2, h5, h6]
      rw [List.length_append, List.length_singleton, List.range_succ, List.map_append]
      congr 1
      · apply List.map_congr_left
        intro k hk
        rw [List.mem_range] at hk
        simp [List.take_append_of_le_length (Nat.le_of_lt hk)]
      · simp
    · simp only [g5, g6]; simp [writeVec, h3]
    · simp only [g4]; simp [writeVec, h5]; omega

example : (writeS1 5 [3, 3] ⟨0, [], [], [], []⟩).2.sID = [[2, 6], [3, 7], [4, 8]] ∧ (writeS1 5 [3, 3] ⟨0, [], [], [], []⟩).2.vID = [1, 5] := by decide

end Verif.Supel
