/-
C56: rigid and nodal couplings connect what the input says.
-/
import Verif.Model.Rigid
import Mathlib.Data.Finset.Dedup
import Mathlib.Data.Finset.Card
import Mathlib.Algebra.Order.Field.Basic
import Mathlib.Algebra.Order.Field.Rat
import Mathlib.Tactic.Ring
import Mathlib.Tactic.NormNum
import Mathlib.Tactic.Linarith
set_option linter.unusedSectionVars false
set_option linter.unusedSimpArgs false
set_option linter.unusedVariables false

namespace Verif.Rigid

/-! ### The map -/

section Map
variable {V : Type}

/-- The keys of a map ascend. -/
def Sorted (m : List (Int × V)) : Prop := m.Pairwise (fun a b => a.1 < b.1)

theorem key_update (d : V) (f : V → V) (k j : Int) (m : List (Int × V)) : j ∈ (update d f k m).map (·.1) ↔ j = k ∨ j ∈ m.map (·.1) := by
  induction m with
  | nil => simp [update]
  | cons e m ih =>
    obtain ⟨i, v⟩ := e
    unfold update
    split_ifs with h1 h2
    · simp
    · subst h2; simp
    · simp only [List.map_cons, List.mem_cons, ih]; tauto

theorem sorted_update (d : V) (f : V → V) (k : Int) {m : List (Int × V)} (h : Sorted m) : Sorted (update d f k m) := by
  induction m with
  | nil => simp [update, Sorted]
  | cons e m ih =>
    obtain ⟨i, v⟩ := e
    unfold Sorted at h
    rw [List.pairwise_cons] at h
    unfold update Sorted
    split_ifs with h1 h2
    · rw [List.pairwise_cons]
      refine ⟨?_, List.pairwise_cons.2 h⟩
      intro y hy
      rcases List.mem_cons.1 hy with rfl | hy
      · exact h1
      · exact lt_trans h1 (h.1 y hy)
    · exact List.pairwise_cons.2 ⟨h.1, h.2⟩
    · rw [List.pairwise_cons]
      refine ⟨?_, ih h.2⟩
      intro y hy
      have : y.1 ∈ (update d f k m).map (·.1) := List.mem_map_of_mem hy
      rcases (key_update d f k y.1 m).1 this with h' | h'
      · show i < y.1; omega
      · obtain ⟨z, hz, hzy⟩ := List.mem_map.1 h'
        rw [← hzy]
        exact h.1 z hz

theorem find_cons (k i : Int) (v : V) (m : List (Int × V)) : find k ((i, v) :: m) = if i = k then some v else find k m := by
  unfold find
  rw [List.find?_cons]
  by_cases h : i = k <;> simp [h]

theorem find_none {k : Int} {m : List (Int × V)} (h : ∀ e ∈ m, e.1 ≠ k) : find k m = none := by
  unfold find
  rw [List.find?_eq_none.2 (by intro e he; simpa using h e he)]
  rfl

theorem find_update (d : V) (f : V → V) (k j : Int) {m : List (Int × V)} (h : Sorted m) :
    find j (update d f k m) = if j = k then some (f ((find k m).getD d)) else find j m := by
  induction m with
  | nil =>
    unfold update
    rw [find_cons]
    by_cases hj : j = k
    · subst hj; simp [find]
    · rw [if_neg (fun e => hj e.symm), if_neg hj]
  | cons e m ih =>
    obtain ⟨i, v⟩ := e
    unfold Sorted at h
    rw [List.pairwise_cons] at h
    unfold update
    split_ifs with h1 h2 h3 h4 h5
    · subst h2
      rw [find_cons, if_pos rfl, find_none]
      · rfl
      · intro e he
        rcases List.mem_cons.1 he with rfl | he
        · simp only; omega
        · have := h.1 e he; simp only at this; omega
    · rw [find_cons, if_neg (by omega)]
    · subst h4; subst h3
      simp only [find_cons, if_true, Option.getD_some]
    · subst h3
      simp only [find_cons]
      rw [if_neg (by omega), if_neg (by omega)]
    · subst h5
      simp only [find_cons]
      rw [if_neg (by omega), if_neg (by omega), ih h.2, if_pos rfl]
    · simp only [find_cons]
      rw [ih h.2, if_neg h5]

theorem find_some_iff (k : Int) (v : V) {m : List (Int × V)} (h : Sorted m) : find k m = some v ↔ (k, v) ∈ m := by
  induction m with
  | nil => simp [find]
  | cons e m ih =>
    obtain ⟨i, w⟩ := e
    unfold Sorted at h
    rw [List.pairwise_cons] at h
    rw [find_cons, List.mem_cons]
    by_cases hik : i = k
    · subst hik
      simp only [if_true, Option.some.injEq, Prod.mk.injEq, true_and]
      constructor
      · intro e; exact Or.inl e.symm
      · rintro (e | e)
        · exact e.symm
        · have := h.1 _ e; simp at this
    · rw [if_neg hik, ih h.2]
      constructor
      · exact Or.inr
      · rintro (e | e)
        · simp only [Prod.mk.injEq] at e; omega
        · exact e

end Map

/-! ### Nodal couplings -/

section Nodal
variable {K : Type} [Field K] [LinearOrder K] [IsStrictOrderedRing K]

/-- A line of the input: the slave node followed by its master nodes with their weights. -/
def text (l : Int × List (Int × K)) : List (Tok K) := .int l.1 :: l.2.flatMap fun p => [.int p.1, .real p.2]

/-- What the lines say about a slave: all its masters and weights, in the order of the input. -/
def given (L : List (Int × List (Int × K))) (s : Int) : List (Int × K) := L.flatMap fun l => if l.1 = s then l.2 else []

theorem readPairs_text (ps : List (Int × K)) : readPairs (ps.flatMap fun p => [Tok.int p.1, Tok.real p.2]) = ps := by
  induction ps with
  | nil => rfl
  | cons p ps ih =>
    rw [List.flatMap_cons]
    show (p.1, p.2) :: readPairs (ps.flatMap fun p => [Tok.int p.1, Tok.real p.2]) = _
    rw [ih]

theorem fold_update (ps : List (Int × K)) (s : Int) (m : List (Int × List (Int × K))) (h : Sorted m) :
    Sorted (ps.foldl (fun m p => update [] (· ++ [p]) s m) m) ∧
    ∀ j, find j (ps.foldl (fun m p => update [] (· ++ [p]) s m) m) =
      if j = s ∧ ps ≠ [] then some ((find s m).getD [] ++ ps) else find j m := by
  induction ps generalizing m with
  | nil => exact ⟨h, by simp⟩
  | cons p ps ih =>
    obtain ⟨h1, h2⟩ := ih (update [] (· ++ [p]) s m) (sorted_update _ _ _ h)
    rw [List.foldl_cons]
    refine ⟨h1, fun j => ?_⟩
    rw [h2 j, find_update _ _ _ _ h, find_update _ _ _ _ h]
    by_cases hj : j = s
    · subst hj
      by_cases hp : ps = []
      · subst hp; simp
      · simp [hp]
    · simp [hj]

theorem parse_lines (L : List (Int × List (Int × K))) (m : List (Int × List (Int × K))) (h : Sorted m) :
    Sorted (parseCpl (L.map text) m) ∧
    ∀ j, find j (parseCpl (L.map text) m) = if given L j = [] then find j m else some ((find j m).getD [] ++ given L j) := by
  unfold parseCpl
  induction L using List.reverseRecOn with
  | nil => exact ⟨h, by simp [given]⟩
  | append_singleton L l ih =>
    obtain ⟨h1, h2⟩ := ih
    rw [List.map_append, List.foldl_append]
    simp only [List.map_cons, List.map_nil, List.foldl_cons, List.foldl_nil]
    generalize List.foldl parseLine m (L.map text) = m' at *
    have e : parseLine m' (text l) = l.2.foldl (fun m p => update [] (· ++ [p]) l.1 m) m' := by
      unfold text parseLine
      simp only
      rw [readPairs_text]
    rw [e]
    obtain ⟨g1, g2⟩ := fold_update l.2 l.1 m' h1
    refine ⟨g1, fun j => ?_⟩
    rw [g2 j]
    have hg : given (L ++ [l]) j = given L j ++ (if l.1 = j then l.2 else []) := by
      unfold given; rw [List.flatMap_append]; simp
    rw [hg]
    by_cases hj : j = l.1
    · subst hj
      rw [if_pos rfl, h2]
      by_cases hl : l.2 = []
      · simp [hl]
      · by_cases hL : given L l.1 = []
        · simp [hl, hL]
        · simp [hl, hL]
    · have hn : ¬ (l.1 = j) := fun e => hj e.symm
      have hn2 : ¬ (j = l.1 ∧ l.2 ≠ []) := fun e => hj e.1
      simp only [hn, hn2, if_false, List.append_nil, h2]

/-- C56 (reading nodal couplings): after reading complete lines, the masters and weights of every slave are those given for it, in the
order of the input and however they are spread over lines; slaves without masters are not coupled; each slave occurs once. -/
theorem C56_lines (L : List (Int × List (Int × K))) :
    (parseCpl (L.map text) []).Pairwise (fun a b => a.1 < b.1) ∧
    ∀ s ms, (s, ms) ∈ parseCpl (L.map text) [] ↔ ms ≠ [] ∧ ms = given L s := by
  obtain ⟨h1, h2⟩ := parse_lines L [] (by simp [Sorted])
  refine ⟨h1, fun s ms => ?_⟩
  rw [← find_some_iff _ _ h1, h2]
  by_cases hg : given L s = []
  · rw [if_pos hg, hg]
    constructor
    · intro h; simp [find] at h
    · rintro ⟨a, b⟩; exact absurd b a
  · rw [if_neg hg]
    simp only [find, List.find?_nil, Option.map_none, Option.getD_none, List.nil_append, Option.some.injEq]
    constructor
    · intro e; subst e; exact ⟨hg, rfl⟩
    · rintro ⟨-, e⟩; exact e.symm

/-- C56 (elements): the couplings of an element are added to those given before for the same patch, the other patches keep theirs; the tolerance of the
patch is the last positive one given for it. -/
theorem C56_tags (c : Cpl K) (hc : c.couplings.Pairwise (fun a b => a.1 < b.1)) (ht : c.tols.Pairwise (fun a b => a.1 < b.1))
    (patch : Option Int) (lines : List (List (Tok K))) (xtol : Option K) (j : Int) :
    let r := parseCouplings c ⟨patch, some (some lines), xtol⟩
    r.2 = true ∧
    find j r.1.couplings = (if j = patch.getD 1 then some (parseCpl lines ((find j c.couplings).getD [])) else find j c.couplings) ∧
    (∀ x, xtol = some x → 0 < x → j = patch.getD 1 → find j r.1.tols = some x) ∧
    ((xtol = none ∨ (∃ x, xtol = some x ∧ x ≤ 0) ∨ j ≠ patch.getD 1) → find j r.1.tols = find j c.tols) := by
  refine ⟨rfl, ?_, ?_, ?_⟩
  · show find j (update [] (parseCpl lines) (patch.getD 1) c.couplings) = _
    rw [find_update _ _ _ _ hc]
    by_cases h : j = patch.getD 1
    · rw [if_pos h, if_pos h, h]
    · rw [if_neg h, if_neg h]
  · rintro x rfl hx rfl
    simp only [parseCouplings]
    rw [if_pos hx, find_update _ _ _ _ ht, if_pos rfl]
  · intro h
    cases xtol with
    | none => rfl
    | some x =>
      simp only [parseCouplings]
      by_cases hx : x > 0
      · rw [if_pos hx, find_update _ _ _ _ ht, if_neg]
        rcases h with h | ⟨y, h, h'⟩ | h
        · cases h
        · cases h; exact absurd hx (not_lt.2 h')
        · exact h
      · rw [if_neg hx]

/-- C56 (elements): an element without content or with a file that can not be opened is reported and changes nothing. -/
theorem C56_no_content (c : Cpl K) (patch : Option Int) (xtol : Option K) :
    parseCouplings c ⟨patch, none, xtol⟩ = (c, false) ∧ parseCouplings c ⟨patch, some none, xtol⟩ = (c, false) := ⟨rfl, rfl⟩

/-- C56 (violation): a line with a master but no weight is ignored, and the element is reported as read. -/
theorem C56_lines_violated : ∃ line : List (Tok ℚ), line = [.int 1, .int 2] ∧
    parseCouplings ⟨[], []⟩ ⟨none, some (some [line]), none⟩ = (⟨[(1, [])], []⟩, true) :=
  ⟨_, rfl, rfl⟩

/-- The equations demanded by the calls for a patch: directly connected nodes move together and a linear coupling makes the slave the weighted sum of
its masters. -/
def Holds (pc : PatchCalls K) (u : Int → K) : Prop :=
  (∀ e ∈ pc.connected, u e.1 = u e.2) ∧ ∀ e ∈ pc.linear, u e.1 = (List.zipWith (fun m w => w * u m) e.2.1 e.2.2).sum

/-- C56 (equations): for every patch the calls demand exactly that each slave is the weighted sum of its masters, there is one call per slave, and
the tolerance of the patch is used. -/
theorem C56_equations (tols : List (Int × K)) (patch : Int) (cpl : List (Int × List (Int × K))) :
    (∀ u, Holds (patchCalls tols patch cpl) u ↔ ∀ e ∈ cpl, u e.1 = (e.2.map fun p => p.2 * u p.1).sum) ∧
    (patchCalls tols patch cpl).connected.length + (patchCalls tols patch cpl).linear.length = cpl.length ∧
    (∀ s m, (s, m) ∈ (patchCalls tols patch cpl).connected ↔ (s, [(m, 1)]) ∈ cpl) ∧
    (patchCalls tols patch cpl).tol = find patch tols := by
  suffices h : (∀ u, Holds (patchCalls tols patch cpl) u ↔ ∀ e ∈ cpl, u e.1 = (e.2.map fun p => p.2 * u p.1).sum) ∧
    (patchCalls tols patch cpl).connected.length + (patchCalls tols patch cpl).linear.length = cpl.length ∧
    (∀ s m, (s, m) ∈ (patchCalls tols patch cpl).connected ↔ (s, [(m, 1)]) ∈ cpl) by exact ⟨h.1, h.2.1, h.2.2, rfl⟩
  unfold Holds patchCalls
  simp only
  induction cpl using List.reverseRecOn with
  | nil => simp
  | append_singleton l e ih =>
    rw [List.foldl_append]
    simp only [List.foldl_cons, List.foldl_nil]
    generalize List.foldl _ ([], []) l = s at *
    obtain ⟨h1, h2, h3⟩ := ih
    obtain ⟨a, ms⟩ := e
    have hlin : ∀ (ms : List (Int × K)) (u : Int → K),
        (List.zipWith (fun m w => w * u m) (ms.map (·.1)) (ms.map (·.2))).sum = (ms.map fun p => p.2 * u p.1).sum := by
      intro ms u
      congr 1
      induction ms with
      | nil => rfl
      | cons p ms ih => simp only [List.map_cons, List.zipWith_cons_cons, ih]
    -- the general branch
    have hgen : (¬ ∃ m, ms = [(m, 1)]) → ∀ (lin : Int × List Int × List K), lin = (a, ms.map (·.1), ms.map (·.2)) →
        (∀ u : Int → K, ((∀ e ∈ s.1, u e.1 = u e.2) ∧ ∀ e ∈ s.2 ++ [lin], u e.1 = (List.zipWith (fun m w => w * u m) e.2.1 e.2.2).sum) ↔
          ∀ e ∈ l ++ [(a, ms)], u e.1 = (e.2.map fun p => p.2 * u p.1).sum) ∧
        s.1.length + (s.2 ++ [lin]).length = (l ++ [(a, ms)]).length ∧
        (∀ b m, (b, m) ∈ s.1 ↔ (b, [(m, (1 : K))]) ∈ l ++ [(a, ms)]) := by
      rintro hno lin rfl
      refine ⟨fun u => ?_, ?_, fun b m => ?_⟩
      · simp only [List.mem_append, List.mem_singleton, or_imp, forall_and, forall_eq]
        rw [hlin, ← and_assoc, h1 u]
      · simp only [List.length_append, List.length_singleton]; omega
      · rw [h3, List.mem_append, List.mem_singleton]
        constructor
        · exact Or.inl
        · rintro (h | h)
          · exact h
          · simp only [Prod.mk.injEq] at h
            exact absurd ⟨m, h.2.symm⟩ hno
    match ms, hgen with
    | [(m0, w)], hgen =>
      simp only
      by_cases hw : w = 1
      · subst hw
        rw [if_pos rfl]
        refine ⟨fun u => ?_, ?_, fun b m => ?_⟩
        · simp only [List.mem_append, List.mem_singleton, or_imp, forall_and, forall_eq, ← h1 u, List.map_cons, List.map_nil, List.sum_cons,
            List.sum_nil, one_mul, add_zero]
          tauto
        · simp only [List.length_append, List.length_singleton]; omega
        · simp only [List.mem_append, h3, List.mem_singleton, Prod.mk.injEq, List.cons.injEq, and_true]
      · rw [if_neg hw]
        exact hgen (by rintro ⟨m, h⟩; simp only [List.cons.injEq, Prod.mk.injEq, and_true] at h; exact hw h.2) _ rfl
    | [], hgen => exact hgen (by simp) _ rfl
    | p :: q :: ms, hgen => exact hgen (by simp) _ rfl

/-- C56 (patches): the couplings of every existing patch are made, once, and the status is success exactly when all patches could connect their nodes. -/
theorem C56_patches_partial (hasPatch : Int → Bool) (connect : PatchCalls K → Bool) (c : Cpl K) :
    (addGeneralCouplings hasPatch connect c).1 = (c.couplings.filter fun e => hasPatch e.1).map (fun e => patchCalls c.tols e.1 e.2) ∧
    ((addGeneralCouplings hasPatch connect c).2 = true ↔
      ∀ e ∈ c.couplings, hasPatch e.1 = true → connect (patchCalls c.tols e.1 e.2) = true) := by
  unfold addGeneralCouplings
  generalize c.couplings = L
  induction L using List.reverseRecOn with
  | nil => simp
  | append_singleton L e ih =>
    rw [List.foldl_append]
    simp only [List.foldl_cons, List.foldl_nil]
    generalize List.foldl _ ([], true) L = s at *
    obtain ⟨h1, h2⟩ := ih
    by_cases hp : hasPatch e.1 = true
    · simp only [hp, if_true, List.filter_append, List.map_append, h1, Bool.and_eq_true, h2, List.mem_append, List.mem_singleton, or_imp, forall_and,
        forall_eq]
      refine ⟨by simp [hp], ?_⟩
      simp [hp]
    · simp only [hp, if_false, List.filter_append, List.map_append, h1, h2, List.mem_append, List.mem_singleton, or_imp, forall_and, forall_eq,
        Bool.false_eq_true]
      refine ⟨by simp [hp], ?_⟩
      simp

/-- C56 (violation): couplings for a patch that does not exist are dropped without a message. -/
theorem C56_patches_violated : ∃ (c : Cpl ℚ) (hasPatch : Int → Bool), c.couplings = [(7, [(1, [(2, 1)])])] ∧
    ∀ connect, addGeneralCouplings hasPatch connect c = ([], true) :=
  ⟨⟨[(7, [(1, [(2, 1)])])], []⟩, fun p => p == 1, rfl, fun _ => rfl⟩

/-- C56 (violation): when the input is read again, as the adaptive solution does, the couplings of the first reading are still there and the weights double: the
slave is the sum instead of the mean of its two masters. -/
theorem C56_reread_violated : ∃ t : CplTag ℚ, ∃ c1 c2,
    parseCouplings ⟨[], []⟩ t = (c1, true) ∧ parseCouplings (clearCouplings c1) t = (c2, true) ∧
    (∀ u, Holds (patchCalls c1.tols 1 ((find 1 c1.couplings).getD [])) u ↔ u 1 = (u 2 + u 3) / 2) ∧
    (∀ u, Holds (patchCalls c2.tols 1 ((find 1 c2.couplings).getD [])) u ↔ u 1 = u 2 + u 3) := by
  refine ⟨⟨none, some (some [[.int 1, .int 2, .real (1 / 2), .int 3, .real (1 / 2)]]), none⟩, _, _, rfl, rfl, ?_, ?_⟩
  · intro u
    rw [(C56_equations _ _ _).1]
    simp [clearCouplings, parseCpl, parseLine, readPairs, update, find]
    constructor <;> intro h <;> linarith
  · intro u
    rw [(C56_equations _ _ _).1]
    simp [clearCouplings, parseCpl, parseLine, readPairs, update, find]
    constructor <;> intro h <;> linarith

example : given [((4 : Int), [((1 : Int), (1 / 2 : ℚ))]), (5, [(2, 1)]), (4, [(3, 1 / 2)])] 4 = [(1, 1 / 2), (3, 1 / 2)] := by
  decide +kernel

example : let pc := patchCalls (K := ℚ) [] 1 [(4, [(1, 1 / 2), (3, 1 / 2)]), (5, [(2, 1)])]
    pc.connected = [(5, 2)] ∧ pc.linear = [(4, [1, 3], [1 / 2, 1 / 2])] := by decide +kernel

end Nodal

/-! ### Rigid couplings -/

/-- C56 (reading rigid couplings): the element is accepted when the slave set exists and the master set is a single point, which must exist
if it is a discrete point; then the point becomes the master of the slave code and the other codes keep their masters. -/
theorem C56_rigid_input (islave : Int) (ent : List TopItem) (hasPoint : Int → Bool) {masters : List (Int × TopItem)}
    (hm : masters.Pairwise (fun a b => a.1 < b.1)) :
    (∀ m, parseRigid islave ent hasPoint masters = .ok m → islave ≠ 0 ∧ ∃ t, ent = [t] ∧ t.idim ≤ 0 ∧ (t.patch > 0 ∨ hasPoint t.item = true) ∧
      m.Pairwise (fun a b => a.1 < b.1) ∧ find islave m = some t ∧ ∀ j, j ≠ islave → find j m = find j masters) ∧
    (∀ t, islave ≠ 0 → ent = [t] → t.idim ≤ 0 → (t.patch > 0 ∨ hasPoint t.item = true) → (parseRigid islave ent hasPoint masters).isOk = true) ∧
    (parseRigid islave ent hasPoint masters = .fail ↔ islave = 0 ∨ ∀ t, ent = [t] → t.idim > 0) := by
  unfold parseRigid
  by_cases h0 : islave = 0
  · simp [h0]
  rw [if_neg h0]
  match ent with
  | [] => simp
  | [t] =>
    have key : ∀ j, find j (update t (fun _ => t) islave masters) = if j = islave then some t else find j masters := fun j =>
      find_update _ _ _ _ hm
    simp only [List.cons.injEq, and_true, forall_eq']
    by_cases h1 : t.idim > 0
    · simp [h0, h1]
    · rw [if_neg h1]
      by_cases h2 : t.patch > 0
      · rw [if_pos h2]
        refine ⟨?_, fun _ _ _ _ _ => rfl, ?_⟩
        · rintro m e
          cases e
          refine ⟨h0, t, rfl, by omega, Or.inl h2, sorted_update _ _ _ hm, ?_, ?_⟩
          · rw [key, if_pos rfl]
          · intro j hj; rw [key, if_neg hj]
        · simp [h0]; omega
      · rw [if_neg h2]
        by_cases h3 : hasPoint t.item = true
        · rw [if_pos h3]
          refine ⟨?_, fun _ _ _ _ _ => rfl, ?_⟩
          · rintro m e
            cases e
            refine ⟨h0, t, rfl, by omega, Or.inr h3, sorted_update _ _ _ hm, ?_, ?_⟩
            · rw [key, if_pos rfl]
            · intro j hj; rw [key, if_neg hj]
          · simp [h0]; omega
        · rw [if_neg h3]
          refine ⟨by simp, ?_, ?_⟩
          · rintro t' _ rfl _ (h | h)
            · exact absurd h h2
            · exact absurd h h3
          · simp [h0]; omega
  | a :: b :: l => simp [h0]

/-- C56 (violation): a master set that refers to a discrete point that does not exist is not reported; the program dereferences a null pointer. -/
theorem C56_rigid_input_violated : ∃ ent : List TopItem, parseRigid 1 ent (fun _ => false) [] = .ub := ⟨[⟨0, 1, 0⟩], rfl⟩

/-- The coupling demanded by a rigid property whose master item is `t`. -/
def demanded (masters : List (Int × TopItem)) (p : Prop') : Option RigidCall :=
  (find p.pindx masters).map fun t => ⟨p.patch, p.lindx, t.item⟩

theorem rigid_calls (masters : List (Int × TopItem)) (hasPoint hasPatch : Int → Bool) (addCpl : List RigidCall → RigidCall → Bool)
    (ps : List Prop') (calls : List RigidCall) (n : Nat)
    (hm : ∀ p ∈ ps, p.rigid = true → ∃ t, find p.pindx masters = some t ∧ t.patch = 0) :
    ∃ k, addRigidMPCs masters hasPoint hasPatch addCpl ps calls n = .ok (calls ++ ps.filterMap (fun p => if p.rigid = true then
      (find p.pindx masters).bind fun t => if hasPoint t.item = true ∧ hasPatch p.patch = true then some ⟨p.patch, p.lindx, t.item⟩ else none
      else none), k) := by
  induction ps generalizing calls n with
  | nil => exact ⟨n, by simp [addRigidMPCs]⟩
  | cons p ps ih =>
    have ih := fun calls n => ih calls n (fun q hq => hm q (List.mem_cons_of_mem _ hq))
    unfold addRigidMPCs
    by_cases hr : p.rigid = true
    · obtain ⟨t, ht, htp⟩ := hm p List.mem_cons_self hr
      rw [if_pos hr, ht]
      simp only
      rw [if_neg (by omega)]
      by_cases hh : hasPoint t.item = true ∧ hasPatch p.patch = true
      · have hb : (hasPoint t.item && hasPatch p.patch) = true := by simp [hh.1, hh.2]
        rw [if_pos hb]
        obtain ⟨k, hk⟩ := ih (calls ++ [⟨p.patch, p.lindx, t.item⟩]) (if addCpl calls ⟨p.patch, p.lindx, t.item⟩ then n + 1 else n)
        refine ⟨k, ?_⟩
        rw [hk, List.filterMap_cons_some (b := ⟨p.patch, p.lindx, t.item⟩) (by simp [hr, ht, hh])]
        simp
      · have hb : ¬ (hasPoint t.item && hasPatch p.patch) = true := by simpa using hh
        rw [if_neg hb]
        obtain ⟨k, hk⟩ := ih calls n
        refine ⟨k, ?_⟩
        rw [hk, List.filterMap_cons_none]
        simp only [hr, ht, if_true, Option.bind_some]
        rw [if_neg hh]
    · rw [if_neg hr]
      obtain ⟨k, hk⟩ := ih calls n
      refine ⟨k, ?_⟩
      rw [hk, List.filterMap_cons_none]
      simp [hr]

/-- C56 (rigid couplings made): when all master points and patches exist, every boundary with a rigid property is coupled, once, to the master point of its code,
in the order of the properties. -/
theorem C56_rigid_partial (masters : List (Int × TopItem)) (hasPoint hasPatch : Int → Bool) (addCpl : List RigidCall → RigidCall → Bool)
    (ps : List Prop') (master : Prop' → TopItem)
    (hm : ∀ p ∈ ps, p.rigid = true → find p.pindx masters = some (master p) ∧ (master p).patch = 0)
    (hpt : ∀ p ∈ ps, p.rigid = true → hasPoint (master p).item = true) (hpa : ∀ p ∈ ps, p.rigid = true → hasPatch p.patch = true) :
    ∃ k, addRigidMPCs masters hasPoint hasPatch addCpl ps [] 0 =
      .ok ((ps.filter (·.rigid)).map (fun p => ⟨p.patch, p.lindx, (master p).item⟩), k) := by
  obtain ⟨k, hk⟩ := rigid_calls masters hasPoint hasPatch addCpl ps [] 0 (fun p hp hr => ⟨master p, hm p hp hr⟩)
  refine ⟨k, ?_⟩
  rw [hk, List.nil_append]
  congr 2
  clear hk
  induction ps with
  | nil => rfl
  | cons p ps ih =>
    have ih := ih (fun q hq => hm q (List.mem_cons_of_mem _ hq)) (fun q hq => hpt q (List.mem_cons_of_mem _ hq))
      (fun q hq => hpa q (List.mem_cons_of_mem _ hq))
    by_cases hr : p.rigid = true
    · have hm := hm p List.mem_cons_self hr
      have hpt := hpt p List.mem_cons_self hr
      have hpa := hpa p List.mem_cons_self hr
      rw [List.filterMap_cons_some (b := ⟨p.patch, p.lindx, (master p).item⟩) (by simp [hr, hm.1, hpt, hpa]), ih,
        List.filter_cons_of_pos hr, List.map_cons]
    · rw [List.filterMap_cons_none (by simp [hr]), ih, List.filter_cons_of_neg hr]

/-- C56 (rigid couplings reported): a rigid property with an unknown code, or whose master is a patch vertex, is reported. -/
theorem C56_rigid_reported (masters : List (Int × TopItem)) (hasPoint hasPatch : Int → Bool) (addCpl : List RigidCall → RigidCall → Bool)
    (ps : List Prop') (calls : List RigidCall) (n : Nat) :
    addRigidMPCs masters hasPoint hasPatch addCpl ps calls n = .fail ↔
      ∃ p ∈ ps, p.rigid = true ∧ ∀ t, find p.pindx masters = some t → 0 < t.patch := by
  induction ps generalizing calls n with
  | nil => simp [addRigidMPCs]
  | cons p ps ih =>
    unfold addRigidMPCs
    simp only [List.mem_cons, exists_eq_or_imp]
    by_cases hr : p.rigid = true
    · rw [if_pos hr]
      cases hf : find p.pindx masters with
      | none => simp [hr]
      | some t =>
        simp only [Option.some.injEq, forall_eq']
        by_cases ht : t.patch > 0
        · rw [if_pos ht]; simp [hr, ht]
        · rw [if_neg ht]
          split_ifs <;> rw [ih] <;> simp [hr, ht]
    · rw [if_neg hr, ih]
      simp [hr]

/-- C56 (new nodes): when the library makes a node for each master point the first time it is used, the number of new nodes is the number of different master
points in use. -/
theorem C56_rigid_nodes (masters : List (Int × TopItem)) (hasPoint hasPatch : Int → Bool) (ps : List Prop') (calls : List RigidCall)
    (cs : List RigidCall) (k : Nat)
    (h : addRigidMPCs masters hasPoint hasPatch (fun old c => decide (c.point ∉ old.map (·.point))) ps calls
      (calls.map (·.point)).toFinset.card = .ok (cs, k)) : k = (cs.map (·.point)).toFinset.card := by
  induction ps generalizing calls with
  | nil =>
    unfold addRigidMPCs at h
    cases h; rfl
  | cons p ps ih =>
    unfold addRigidMPCs at h
    split_ifs at h with hr
    · cases hf : find p.pindx masters with
      | none => rw [hf] at h; cases h
      | some t =>
        rw [hf] at h
        simp only at h
        split_ifs at h with h1 h2 h3
        · refine ih (calls ++ [⟨p.patch, p.lindx, t.item⟩]) (Eq.trans ?_ h)
          congr 1
          rw [decide_eq_true_eq] at h3
          rw [List.map_append, List.toFinset_append, List.map_singleton, List.toFinset_cons, List.toFinset_nil,
            insert_empty_eq, Finset.union_comm, ← Finset.insert_eq, Finset.card_insert_of_notMem (by rwa [List.mem_toFinset])]
        · refine ih (calls ++ [⟨p.patch, p.lindx, t.item⟩]) (Eq.trans ?_ h)
          congr 1
          rw [decide_eq_true_eq, not_not] at h3
          rw [List.map_append, List.toFinset_append, List.map_singleton, List.toFinset_cons, List.toFinset_nil,
            insert_empty_eq, Finset.union_comm, ← Finset.insert_eq, Finset.insert_eq_of_mem (by rwa [List.mem_toFinset])]
        · exact ih _ h
    · exact ih _ h

/-- C56 (violation): a rigid property on a patch that does not exist, or whose master point does not exist, is dropped without a message. -/
theorem C56_rigid_violated : ∃ (masters : List (Int × TopItem)) (p : Prop'), p.rigid = true ∧ find p.pindx masters = some ⟨0, 1, 0⟩ ∧
    ∀ addCpl, addRigidMPCs masters (fun _ => true) (fun _ => false) addCpl [p] [] 0 = .ok ([], 0) ∧
      addRigidMPCs masters (fun _ => false) (fun _ => true) addCpl [p] [] 0 = .ok ([], 0) :=
  ⟨[(1, ⟨0, 1, 0⟩)], ⟨true, 1, 1, 2⟩, rfl, rfl, fun _ => ⟨rfl, rfl⟩⟩

example : addRigidMPCs [(1, ⟨0, 1, 0⟩), (2, ⟨0, 1, 0⟩)] (fun _ => true) (fun _ => true) (fun old c => decide (c.point ∉ old.map (·.point)))
    [⟨true, 1, 1, 2⟩, ⟨false, 9, 1, 1⟩, ⟨true, 2, 2, 1⟩] [] 0 = .ok ([⟨1, 2, 1⟩, ⟨2, 1, 1⟩], 1) := by decide +kernel

end Verif.Rigid
