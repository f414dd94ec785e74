/-
Property C105: contact bodies are placed, guided and loaded as the input says.
-/
import Mathlib.Algebra.Ring.Basic
import Mathlib.Algebra.BigOperators.Group.List.Basic
import Mathlib.Algebra.Order.Ring.Rat
import Mathlib.Tactic.Common
import Mathlib.Tactic.NormNum
import Mathlib.Logic.Function.Iterate
import Verif.Model.ContactInput

set_option linter.unusedSectionVars false
set_option linter.unusedSimpArgs false
set_option linter.unusedVariables false

namespace Verif.ContactInput

/-! ### Master nodes -/

/-- The new node numbers after `g`. -/
def fresh (n g : Nat) : List Nat := (List.range n).map fun i => g + 1 + i

/-- The patches of a slave set which exist. -/
def inRange (N : Nat) (items : List (Nat × Bool)) : List Nat := (items.map Prod.fst).filter fun p => decide (0 < p ∧ p ≤ N)

theorem complete_nil (n g : Nat) : complete n g [] = fresh n g := by simp [complete, fresh]

theorem complete_full (n g : Nat) (l : List Nat) (h : l.length = n) : complete n g l = l := by simp [complete, h]

theorem length_fresh (n g : Nat) : (fresh n g).length = n := by simp [fresh]

theorem modify_get {α : Type} (l : List α) (k i : Nat) (f : α → α) : (l.modify k f)[i]? = if k = i then l[i]?.map f else l[i]? := by
  rw [List.getElem?_modify]
  split
  · rfl
  · simp

/-- The loop when the master nodes are known. -/
theorem items_full (n : Nat) (items : List (Nat × Bool)) (w : W) (nodes cs : List Nat) (hn : nodes.length = n) (hv : ∀ t ∈ items, 0 < t.1 → t.1 ≤ w.patches.length → t.2 = true) :
    ∃ w', addItems n items w nodes cs = some (w', nodes, cs ++ inRange w.patches.length items) ∧ w'.gNod = w.gNod ∧ w'.nFun = w.nFun ∧ w'.dMap = w.dMap ∧
      w'.patches.length = w.patches.length ∧
      ∀ i : Nat, w'.patches[i]? = w.patches[i]?.map fun (q : Patch) => { q with nodes := q.nodes ++ (List.replicate ((inRange w.patches.length items).count (i + 1)) nodes).flatten } := by
  induction items generalizing w cs with
  | nil => exact ⟨w, by simp [addItems, inRange], rfl, rfl, rfl, rfl, fun i => by simp [inRange]⟩
  | cons t items ih =>
    obtain ⟨p, v⟩ := t
    by_cases hp : 0 < p ∧ p ≤ w.patches.length
    · have hv1 : v = true := hv (p, v) (by simp) hp.1 hp.2
      subst hv1
      have hx : addX n p w nodes = ({ w with patches := w.patches.modify (p - 1) (fun q => { q with nodes := q.nodes ++ nodes }) }, nodes) := by
        unfold addX
        rw [complete_full n w.gNod nodes hn, hn, Nat.sub_self]
        rfl
      have hl : (w.patches.modify (p - 1) (fun q => { q with nodes := q.nodes ++ nodes })).length = w.patches.length := by simp
      obtain ⟨w', h1, h2, h3, h4, h5, h6⟩ := ih { w with patches := w.patches.modify (p - 1) (fun q => { q with nodes := q.nodes ++ nodes }) } (cs ++ [p])
        (fun t ht a b => hv t (by simp [ht]) a (by simpa [hl] using b))
      refine ⟨w', ?_, h2, h3, h4, by rw [h5]; exact hl, ?_⟩
      · rw [addItems, if_pos hp, if_pos rfl, hx, h1]
        simp [inRange, hp]
      · intro i
        rw [h6 i]
        simp only [hl]
        rw [modify_get]
        have hc : (inRange w.patches.length ((p, true) :: items)) = p :: inRange w.patches.length items := by simp [inRange, hp]
        rw [hc, List.count_cons]
        by_cases hi : p - 1 = i
        · have : (p == i + 1) = true := by simp; omega
          rw [if_pos hi, if_pos this]
          cases w.patches[i]? with
          | none => rfl
          | some q => simp [List.replicate_succ]
        · have : ¬ (p == i + 1) = true := by simp; omega
          rw [if_neg hi, if_neg this]
          rfl
    · obtain ⟨w', h1, h2, h3, h4, h5, h6⟩ := ih w cs (fun t ht => hv t (by simp [ht]))
      have hc : (inRange w.patches.length ((p, v) :: items)) = inRange w.patches.length items := by simp [inRange, hp]
      refine ⟨w', ?_, h2, h3, h4, h5, ?_⟩
      · rw [addItems, if_neg hp, h1, hc]
      · rw [hc]; exact h6

/-- The loop from the start. -/
theorem items_new (n : Nat) (items : List (Nat × Bool)) (w : W) (cs : List Nat) (hv : ∀ t ∈ items, 0 < t.1 → t.1 ≤ w.patches.length → t.2 = true)
    (hne : inRange w.patches.length items ≠ []) :
    ∃ w', addItems n items w [] cs = some (w', fresh n w.gNod, cs ++ inRange w.patches.length items) ∧ w'.gNod = w.gNod + n ∧ w'.nFun = w.nFun ∧ w'.dMap = w.dMap ∧
      w'.patches.length = w.patches.length ∧
      ∀ i : Nat, w'.patches[i]? = w.patches[i]?.map fun (q : Patch) =>
        { q with nodes := q.nodes ++ (List.replicate ((inRange w.patches.length items).count (i + 1)) (fresh n w.gNod)).flatten } := by
  induction items with
  | nil => exact absurd rfl hne
  | cons t items ih =>
    obtain ⟨p, v⟩ := t
    by_cases hp : 0 < p ∧ p ≤ w.patches.length
    · have hv1 : v = true := hv (p, v) (by simp) hp.1 hp.2
      subst hv1
      have hx : addX n p w [] = ({ w with patches := w.patches.modify (p - 1) (fun q => { q with nodes := q.nodes ++ fresh n w.gNod }), gNod := w.gNod + n }, fresh n w.gNod) := by
        unfold addX
        rw [complete_nil]
        rfl
      have hl : (w.patches.modify (p - 1) (fun q => { q with nodes := q.nodes ++ fresh n w.gNod })).length = w.patches.length := by simp
      obtain ⟨w', h1, h2, h3, h4, h5, h6⟩ := items_full n items
        { w with patches := w.patches.modify (p - 1) (fun q => { q with nodes := q.nodes ++ fresh n w.gNod }), gNod := w.gNod + n } (fresh n w.gNod) (cs ++ [p]) (length_fresh _ _)
        (fun t ht a b => hv t (by simp [ht]) a (by simpa [hl] using b))
      refine ⟨w', ?_, h2, h3, h4, by rw [h5]; exact hl, ?_⟩
      · rw [addItems, if_pos hp, if_pos rfl, hx, h1]
        simp [inRange, hp]
      · intro i
        rw [h6 i]
        simp only [hl]
        rw [modify_get]
        have hc : (inRange w.patches.length ((p, true) :: items)) = p :: inRange w.patches.length items := by simp [inRange, hp]
        rw [hc, List.count_cons]
        by_cases hi : p - 1 = i
        · have : (p == i + 1) = true := by simp; omega
          rw [if_pos hi, if_pos this]
          cases w.patches[i]? with
          | none => rfl
          | some q => simp [List.replicate_succ]
        · have : ¬ (p == i + 1) = true := by simp; omega
          rw [if_neg hi, if_neg this]
          rfl
    · have hc : (inRange w.patches.length ((p, v) :: items)) = inRange w.patches.length items := by simp [inRange, hp]
      rw [hc] at hne ⊢
      obtain ⟨w', h1, h2⟩ := ih (fun t ht => hv t (by simp [ht])) hne
      exact ⟨w', by rw [addItems, if_neg hp, h1], h2⟩

/-- C105, partial: with one slave set the master points of the body are new nodes, the same ones in all patches of the set, and no other patch is changed. -/
theorem C105_master_partial {X : Type} (n : Nat) (b : B X) (items : List (Nat × Bool)) (hv : ∀ t ∈ items, 0 < t.1 → t.1 ≤ b.w.patches.length → t.2 = true)
    (hne : inRange b.w.patches.length items ≠ []) (hm : b.mlgn.length = n) :
    ∃ b', parseTag n b (.slave (some items)) = some b' ∧ b'.mlgn = (List.range n).map (fun i => b.w.gNod + 1 + i) ∧ b'.cs = b.cs ++ inRange b.w.patches.length items ∧
      b'.w.gNod = b.w.gNod + n ∧
      ∀ (i : Nat) (q : Patch), b.w.patches[i]? = some q → ∃ k, b'.w.patches[i]? = some { q with nodes := q.nodes ++ (List.replicate k b'.mlgn).flatten } ∧
        k = (inRange b.w.patches.length items).count (i + 1) := by
  obtain ⟨w', h1, h2, h3, h4, h5, h6⟩ := items_new n items b.w b.cs hv hne
  have e : parseTag n b (.slave (some items)) = some ⟨w', b.pts, fresh n b.w.gNod, b.cs ++ inRange b.w.patches.length items⟩ := by
    rw [parseTag, h1]
    simp [length_fresh, hm]
  refine ⟨_, e, rfl, rfl, h2, ?_⟩
  intro i q hq
  exact ⟨_, by rw [h6 i, hq]; rfl, rfl⟩

/-- C105 fails for a body with two slave sets: each gets master nodes of its own, and the body only follows those of the second. -/
theorem C105_two_sets_violated {X : Type} (n : Nat) (hn : 0 < n) (b : B X) (p q : Nat) (hp : 0 < p ∧ p ≤ b.w.patches.length) (hq : 0 < q ∧ q ≤ b.w.patches.length) (hpq : p ≠ q)
    (hm : b.mlgn.length = n) :
    ∃ b' P, parseTags n [.slave (some [(p, true)]), .slave (some [(q, true)])] b = some b' ∧ b'.w.patches[p - 1]? = some P ∧
      P.nodes.drop (P.nodes.length - n) = (List.range n).map (fun i => b.w.gNod + 1 + i) ∧ b'.mlgn = (List.range n).map (fun i => b.w.gNod + n + 1 + i) ∧
      ∀ x ∈ P.nodes.drop (P.nodes.length - n), x ∉ b'.mlgn := by
  have r1 : inRange b.w.patches.length [(p, true)] = [p] := by simp [inRange, hp]
  obtain ⟨b1, e1, m1, c1, g1, k1⟩ := C105_master_partial n b [(p, true)] (by simp) (by rw [r1]; simp) hm
  have hl1 : b1.w.patches.length = b.w.patches.length := by
    obtain ⟨w', h1, h2, h3, h4, h5, h6⟩ := items_new n [(p, true)] b.w b.cs (by simp) (by rw [r1]; simp)
    rw [parseTag, h1] at e1
    obtain rfl := Option.some.inj e1
    exact h5
  have r2 : inRange b1.w.patches.length [(q, true)] = [q] := by rw [hl1]; simp [inRange, hq]
  have hm1 : b1.mlgn.length = n := by rw [m1]; simp
  obtain ⟨b2, e2, m2, c2, g2, k2⟩ := C105_master_partial n b1 [(q, true)] (by simp) (by rw [r2]; simp) hm1
  obtain ⟨P0, hP0⟩ : ∃ P, b.w.patches[p - 1]? = some P := ⟨_, List.getElem?_eq_getElem (by omega)⟩
  obtain ⟨a1, hk1, ha1⟩ := k1 _ _ hP0
  rw [r1, show p - 1 + 1 = p by omega, List.count_singleton_self] at ha1
  subst ha1
  obtain ⟨a2, hk2, ha2⟩ := k2 _ _ hk1
  rw [r2, show p - 1 + 1 = p by omega] at ha2
  have : a2 = 0 := by rw [ha2]; simp [Ne.symm hpq]
  subst this
  refine ⟨b2, _, ?_, hk2, ?_, ?_, ?_⟩
  · simp only [parseTags, e1, e2]
  · simp only [List.replicate_one, List.flatten_cons, List.flatten_nil, List.append_nil, List.replicate_zero]
    rw [← m1]
    simp [hm1]
  · rw [m2, g1]
  · simp only [List.replicate_one, List.flatten_cons, List.flatten_nil, List.append_nil, List.replicate_zero]
    intro x hx
    have hx' : x ∈ b1.mlgn := by
      have : List.drop ((P0.nodes ++ b1.mlgn).length - n) (P0.nodes ++ b1.mlgn) = b1.mlgn := by simp [hm1]
      rw [this] at hx; exact hx
    rw [m1, List.mem_map] at hx'
    obtain ⟨i, hi, rfl⟩ := hx'
    rw [List.mem_range] at hi
    rw [m2, g1, List.mem_map]
    rintro ⟨j, hj, he⟩
    omega

example : ∃ b : B Nat, b.mlgn.length = 1 ∧ inRange b.w.patches.length [(1, true), (2, true)] ≠ [] ∧ b.w.patches.length = 2 :=
  ⟨⟨⟨[⟨[1, 2], [], []⟩, ⟨[2, 3], [], []⟩], 3, 0, []⟩, [], [0], []⟩, rfl, by decide, rfl⟩

/-! ### Movements -/

theorem foldmod_get {α : Type} (cs : List Nat) (hc : ∀ p ∈ cs, 0 < p) (f : α → α) (l : List α) (i : Nat) :
    (cs.foldl (fun ps p => ps.modify (p - 1) f) l)[i]? = l[i]?.map f^[cs.count (i + 1)] := by
  induction cs generalizing l with
  | nil => simp
  | cons p cs ih =>
    rw [List.foldl_cons, ih (fun q hq => hc q (by simp [hq])), modify_get, List.count_cons]
    have hp := hc p (by simp)
    by_cases hi : p - 1 = i
    · have : (p == i + 1) = true := by simp; omega
      rw [if_pos hi, if_pos this]
      cases l[i]? with
      | none => rfl
      | some q => simp [Function.iterate_succ_apply]
    · have : ¬ (p == i + 1) = true := by simp; omega
      rw [if_neg hi, if_neg this]
      rfl

/-- The local numbers of the last `n` nodes, with a component. -/
def lastNodes (len n comp : Nat) : List (Nat × Nat) := (List.range n).map fun i => (len - n + i, comp)

theorem fixLast_iter (n comp k : Nat) (q : Patch) : (fixLast n comp)^[k] q = { q with fixed := q.fixed ++ (List.replicate k (lastNodes q.nodes.length n comp)).flatten } := by
  induction k generalizing q with
  | zero => simp
  | succ k ih => rw [Function.iterate_succ_apply, ih]; simp [fixLast, lastNodes, List.replicate_succ]

theorem prescLast_iter (n comp k : Nat) (q : Patch) : (prescLast n comp)^[k] q = { q with presc := q.presc ++ (List.replicate k (lastNodes q.nodes.length n comp)).flatten } := by
  induction k generalizing q with
  | zero => simp
  | succ k ih => rw [Function.iterate_succ_apply, ih]; simp [prescLast, lastNodes, List.replicate_succ]

/-- The body is connected: the last nodes of the patches in contact are its master nodes. -/
def Connected {X : Type} (n : Nat) (b : B X) : Prop :=
  b.mlgn.length = n ∧ (∀ p ∈ b.cs, 0 < p) ∧ ∀ p ∈ b.cs, ∃ q, b.w.patches[p - 1]? = some q ∧ n ≤ q.nodes.length ∧ ∀ i < n, q.nodes[q.nodes.length - n + i]? = b.mlgn[i]?

example : Connected 1 (⟨⟨[⟨[1, 2, 4], [], []⟩], 4, 0, []⟩, [], [4], [1]⟩ : B Nat) := by
  refine ⟨rfl, by simp, fun p hp => ?_⟩
  simp only [List.mem_singleton] at hp
  subst hp
  refine ⟨_, rfl, by decide, fun i hi => ?_⟩
  obtain rfl : i = 0 := by omega
  rfl

/-- C105: a body with one slave set is connected to the patches of it. -/
theorem C105_connected {X : Type} (n : Nat) (b : B X) (hc : b.cs = []) (items : List (Nat × Bool)) (hv : ∀ t ∈ items, 0 < t.1 → t.1 ≤ b.w.patches.length → t.2 = true)
    (hne : inRange b.w.patches.length items ≠ []) (hm : b.mlgn.length = n) :
    ∃ b', parseTag n b (.slave (some items)) = some b' ∧ Connected n b' ∧ b'.cs ≠ [] := by
  obtain ⟨b', e, m, c, g, k⟩ := C105_master_partial n b items hv hne hm
  rw [hc, List.nil_append] at c
  have hm' : b'.mlgn.length = n := by rw [m]; simp
  have hpos : ∀ p ∈ b'.cs, 0 < p ∧ p ≤ b.w.patches.length := by
    intro p hp
    rw [c] at hp
    simpa using (List.mem_filter.1 hp).2
  refine ⟨b', e, ⟨hm', fun p hp => (hpos p hp).1, ?_⟩, by rw [c]; exact hne⟩
  intro p hp
  have h1 := hpos p hp
  obtain ⟨a, hk, ha⟩ := k (p - 1) _ (List.getElem?_eq_getElem (by omega))
  refine ⟨_, hk, ?_⟩
  rw [show p - 1 + 1 = p by omega] at ha
  have : 0 < a := by rw [ha, List.count_pos_iff, ← c]; exact hp
  obtain ⟨a, rfl⟩ : ∃ a', a = a' + 1 := ⟨a - 1, by omega⟩
  have hlen : ∀ j, ((List.replicate j b'.mlgn).flatten).length = j * n := by intro j; simp [hm']
  have hsplit : (List.replicate (a + 1) b'.mlgn).flatten = (List.replicate a b'.mlgn).flatten ++ b'.mlgn := by
    rw [List.replicate_succ']; simp
  simp only [hsplit, ← List.append_assoc, List.length_append, hm', Nat.add_sub_cancel]
  refine ⟨by omega, fun i hi => ?_⟩
  rw [List.getElem?_append_right (by simp)]
  congr 1
  simp

/-- C105, partial: fixing a component of a connected body fixes this component of all its master nodes in all patches it is in contact with, and nothing else. -/
theorem C105_fix_partial {X : Type} (n comp : Nat) (b : B X) (hc : Connected n b) :
    ∃ b', parseTag n b (.fix comp) = some b' ∧ b'.mlgn = b.mlgn ∧
      (∀ p ∈ b.cs, ∃ q, b'.w.patches[p - 1]? = some q ∧ ∀ i < n, ∃ k, (k, comp) ∈ q.fixed ∧ q.nodes[k]? = b.mlgn[i]?) ∧
      (∀ j (q q' : Patch), b.w.patches[j]? = some q → b'.w.patches[j]? = some q' → q'.nodes = q.nodes ∧ q'.presc = q.presc ∧
        ∀ k c, (k, c) ∈ q'.fixed → (k, c) ∈ q.fixed ∨ (c = comp ∧ j + 1 ∈ b.cs ∧ ∃ i < n, q'.nodes[k]? = b.mlgn[i]?)) := by
  obtain ⟨h1, h2, h3⟩ := hc
  refine ⟨_, rfl, rfl, ?_, ?_⟩
  · intro p hp
    obtain ⟨q, hq, hn, hl⟩ := h3 p hp
    have e := foldmod_get b.cs h2 (fixLast n comp) b.w.patches (p - 1)
    rw [hq, Option.map_some, fixLast_iter, show p - 1 + 1 = p by have := h2 p hp; omega] at e
    refine ⟨_, e, fun i hi => ⟨q.nodes.length - n + i, ?_, hl i hi⟩⟩
    have hpos : 0 < b.cs.count p := List.count_pos_iff.2 hp
    obtain ⟨a, ha⟩ : ∃ a, b.cs.count p = a + 1 := ⟨b.cs.count p - 1, by omega⟩
    simp only [ha, List.replicate_succ, List.flatten_cons, List.mem_append]
    refine Or.inr (Or.inl ?_)
    unfold lastNodes
    rw [List.mem_map]
    exact ⟨i, by simpa using hi, rfl⟩
  · intro j q q' hq hq'
    have e := foldmod_get b.cs h2 (fixLast n comp) b.w.patches j
    rw [hq, Option.map_some, fixLast_iter] at e
    have hq'' : q' = { q with fixed := q.fixed ++ (List.replicate (b.cs.count (j + 1)) (lastNodes q.nodes.length n comp)).flatten } :=
      Option.some.inj (hq'.symm.trans e)
    subst hq''
    refine ⟨rfl, rfl, fun k c hk => ?_⟩
    simp only [List.mem_append, List.mem_flatten, List.mem_replicate] at hk
    rcases hk with hk | ⟨l, ⟨hl0, rfl⟩, hk⟩
    · exact Or.inl hk
    · unfold lastNodes at hk
      rw [List.mem_map] at hk
      obtain ⟨i, hi, he⟩ := hk
      injection he with ek ec
      have hmem : j + 1 ∈ b.cs := List.count_pos_iff.1 (by omega)
      obtain ⟨q2, hq2, hn, hl⟩ := h3 _ hmem
      rw [Nat.add_sub_cancel, hq] at hq2
      obtain rfl := Option.some.inj hq2
      rw [List.mem_range] at hi
      exact Or.inr ⟨ec.symm, hmem, i, hi, by rw [← ek]; exact hl i hi⟩

/-- C105, partial: prescribing a component from 1 to 3 of a connected body enters a new function for all its master nodes in all patches it is in contact with. -/
theorem C105_move_partial {X : Type} (n comp : Nat) (hcomp : 0 < comp ∧ comp ≤ 3) (b : B X) (hc : Connected n b) (p : Nat) (hp : p ∈ b.cs) (node : Nat) (hn : node ∈ b.mlgn) :
    ∃ b', parseTag n b (.move comp) = some b' ∧ b'.w.nFun = b.w.nFun + 1 ∧ ((p, node, comp), b.w.nFun) ∈ b'.w.dMap := by
  obtain ⟨h1, h2, h3⟩ := hc
  rw [parseTag, if_pos hcomp]
  refine ⟨_, rfl, rfl, ?_⟩
  simp only [List.mem_append]
  right
  rw [List.mem_flatMap]
  refine ⟨p, hp, ?_⟩
  rw [List.mem_filterMap]
  refine ⟨node, hn, ?_⟩
  obtain ⟨q, hq, hnl, hl⟩ := h3 p hp
  have e := foldmod_get b.cs h2 (prescLast n comp) b.w.patches (p - 1)
  rw [hq, Option.map_some, prescLast_iter, show p - 1 + 1 = p by have := h2 p hp; omega] at e
  rw [e]
  obtain ⟨i, hi, hni⟩ := List.mem_iff_getElem.1 hn
  have : hasMPC { q with presc := q.presc ++ (List.replicate (b.cs.count p) (lastNodes q.nodes.length n comp)).flatten } node comp = true := by
    unfold hasMPC
    rw [List.any_eq_true]
    refine ⟨(q.nodes.length - n + i, comp), ?_, ?_⟩
    · have hpos : 0 < b.cs.count p := List.count_pos_iff.2 hp
      obtain ⟨a, ha⟩ : ∃ a, b.cs.count p = a + 1 := ⟨b.cs.count p - 1, by omega⟩
      simp only [ha, List.replicate_succ, List.flatten_cons, List.mem_append]
      refine Or.inr (Or.inl ?_)
      unfold lastNodes
      rw [List.mem_map]
      exact ⟨i, by simpa using (by omega : i < n), rfl⟩
    · simp only [decide_eq_true_eq]
      refine ⟨?_, trivial⟩
      rw [hl i (by omega), List.getElem?_eq_getElem hi, hni]
  simp only [this, if_true]

/-- C105 fails when the condition comes before the slave set, which changes nothing: the body is free. The same holds for a movement in several directions at once. -/
theorem C105_order_violated {X : Type} (n comp : Nat) (b : B X) (hc : b.cs = []) (c2 : Nat) (h2 : 3 < c2) (l : List (Tag X)) :
    parseTags n (.fix comp :: l) b = parseTags n l b ∧ (∀ b : B X, parseTags n (.move c2 :: l) b = parseTags n l b) := by
  constructor
  · have e : parseTag n b (.fix comp) = some b := by
      obtain ⟨w, pts, mlgn, cs⟩ := b
      subst hc
      rfl
    rw [parseTags, e]
  · intro b
    have : ¬ (0 < c2 ∧ c2 ≤ 3) := by omega
    simp only [parseTags, parseTag, if_neg this]

/-- C105: the points of the body are the first ones of the input, as many as it has. -/
theorem C105_points {X : Type} (n : Nat) (l : List X) (b : B X) :
    ∃ b', parseTags n (l.map .point) b = some b' ∧ b'.pts = b.pts ++ l.take (n - b.pts.length) ∧ b'.w = b.w := by
  induction l generalizing b with
  | nil => exact ⟨b, rfl, by simp, rfl⟩
  | cons x l ih =>
    simp only [List.map_cons, parseTags, parseTag]
    by_cases h : b.pts.length < n
    · rw [if_pos h]
      obtain ⟨b', e, h1, h2⟩ := ih { b with pts := b.pts ++ [x] }
      refine ⟨b', e, ?_, h2⟩
      rw [h1]
      obtain ⟨k, hk⟩ : ∃ k, n - b.pts.length = k + 1 := ⟨n - b.pts.length - 1, by omega⟩
      have : n - (b.pts ++ [x]).length = k := by simp; omega
      simp only [this, hk, List.take_succ_cons, List.append_assoc, List.singleton_append]
    · rw [if_neg h]
      obtain ⟨b', e, h1, h2⟩ := ih b
      refine ⟨b', e, ?_, h2⟩
      rw [h1, show n - b.pts.length = 0 by omega]
      simp

/-! ### Radius, formulation, integrands -/

/-- C105, partial: a radius given with the body is the one of the body. -/
theorem C105_radius_partial {K : Type} (R0 : K) (l : List (Option Kind × Option K)) (h : ∀ t ∈ l, t.2 ≠ none) :
    radii R0 l = l.filterMap fun t => match t.1, t.2 with | some k, some r => some (k, r) | _, _ => none := by
  induction l generalizing R0 with
  | nil => rfl
  | cons t l ih =>
    obtain ⟨k, r⟩ := t
    cases r with
    | none => exact absurd rfl (h (k, none) (by simp))
    | some r =>
      have := ih r (fun t ht => h t (by simp [ht]))
      cases k with
      | none => simp only [radii, Option.getD_some, this, List.filterMap_cons]
      | some k => simp only [radii, Option.getD_some, this, List.filterMap_cons]

/-- C105 fails for a body without radius after one with a radius: it gets that one, not the default. -/
theorem C105_radius_violated {K : Type} (R0 r : K) (k1 k2 : Kind) : radii R0 [(some k1, some r), (some k2, none)] = [(k1, r), (k2, r)] ∧ radii R0 [(some k2, none)] = [(k2, R0)] :=
  ⟨rfl, rfl⟩

/-- C105: the formulation is the penalty method if the input says so and the augmented Lagrange method else; a second definition is rejected. -/
theorem C105_method (m : Method) (a : Option String) :
    (m ≠ .none → parseMethod m a = none) ∧ parseMethod .none (some "penalty") = some .penalty ∧ (a ≠ some "penalty" → parseMethod .none a = some .augmented) :=
  ⟨fun h => by rw [parseMethod, if_neg h], by decide, fun h => by rw [parseMethod, if_pos rfl, if_neg h]⟩

/-- C105: the bodies with a positive penalty parameter, and only those, have an integrand for the gap and after it one for the forces of the formulation. -/
theorem C105_integrands {K : Type} [LT K] [Zero K] [DecidableLT K] (l : List (Nat × K)) :
    preprocess .penalty l = some ((l.filter fun b => decide (0 < b.2)).flatMap fun b => [.mortar b.1, .penalty b.1]) ∧
    preprocess .augmented l = some ((l.filter fun b => decide (0 < b.2)).flatMap fun b => [.mortar b.1, .augmented b.1]) := by
  induction l with
  | nil => exact ⟨rfl, rfl⟩
  | cons t l ih =>
    obtain ⟨b, eps⟩ := t
    by_cases h : (0 : K) < eps
    · simp [preprocess, h, ih.1, ih.2]
    · simp [preprocess, h, ih.1, ih.2]

/-- C105: the master nodes of all bodies are counted. -/
theorem C105_masters (l : List (List Nat)) : totalMasters l = (l.map List.length).sum := by
  have : ∀ (l : List (List Nat)) n, l.foldl (fun n b => n + b.length) n = n + (l.map List.length).sum := by
    intro l
    induction l with
    | nil => simp
    | cons a l ih => intro n; simp [ih, Nat.add_assoc]
  rw [totalMasters, this, Nat.zero_add]

/-! ### Positions -/

/-- C105, partial: the points of cylinders and planes, and of spheres in space, are at their initial position plus the displacement of their node. -/
theorem C105_update_partial {K : Type} [Add K] (nsd : Nat) (k : Kind) (hk : nsd = 3 ∨ k ≠ .sphere) (hd : nsd = 2 ∨ nsd = 3) (n : Nat) (hn : 0 < n) (x0 : Fin 3 → K) (u : List K)
    (hu : nsd * n ≤ u.length) :
    ∃ x, update (bodyDim nsd k) n x0 u = .ok x ∧ (∀ j : Fin 3, j.val < nsd → ∃ d, u[nsd * (n - 1) + j.val]? = some d ∧ x j = x0 j + d) ∧ ∀ j : Fin 3, nsd ≤ j.val → x j = x0 j := by
  have hb : bodyDim nsd k = nsd := by
    rcases hk with rfl | h
    · cases k <;> rfl
    · cases k <;> first | rfl | exact absurd rfl h
  have hne : u ≠ [] := by
    intro h; subst h
    simp at hu; omega
  have hlen : nsd * (n - 1) + nsd = nsd * n := by
    obtain ⟨m, rfl⟩ : ∃ m, n = m + 1 := ⟨n - 1, by omega⟩
    rw [Nat.add_sub_cancel, Nat.mul_succ]
  have h3 : ¬ (n = 0 ∨ u.length < nsd * (n - 1) + nsd) := by omega
  rw [hb, update, if_neg hne, if_neg h3]
  refine ⟨_, rfl, ?_, ?_⟩
  · intro j hj
    have : nsd * (n - 1) + j.val < u.length := by omega
    refine ⟨u[nsd * (n - 1) + j.val], List.getElem?_eq_getElem this, ?_⟩
    simp only [hj, dif_pos, List.getElem?_eq_getElem this]
  · intro j hj
    simp only [dif_neg (show ¬ j.val < nsd by omega)]

/-- C105: without displacements the bodies are at their initial position. -/
theorem C105_start {K : Type} [Add K] (nsd n : Nat) (x0 : Fin 3 → K) : update nsd n x0 [] = .ok x0 := rfl

/-- C105 fails for a sphere in a plane model: the displacement of other nodes is taken. Witness: node 2 of three nodes is moved by (10, 20), the sphere by (30, 40). As the last node
it reads outside of the vector. -/
theorem C105_sphere_violated : (∃ x, update (bodyDim 2 .sphere) 2 (fun _ => (0 : ℚ)) [0, 0, 10, 30, 40, 50] = .ok x ∧ x 0 = 30 ∧ x 1 = 40) ∧
    update (bodyDim 2 .sphere) 3 (fun _ => (0 : ℚ)) [0, 0, 10, 20, 30, 40] = .ub := by
  refine ⟨⟨_, rfl, ?_, ?_⟩, rfl⟩ <;> simp [bodyDim]

/-! ### Reactions and names -/

/-- C105: the reaction of a body is the sum over its nodes. -/
theorem C105_reaction {K : Type} [AddCommMonoid K] (react : Nat → Option (Fin 3 → K)) (nodes : List Nat) (k : Fin 3) :
    bodyReaction react nodes k = (nodes.map fun n => match react n with | some v => v k | none => 0).sum := by
  have : ∀ (l : List Nat) (r : Fin 3 → K), (l.foldl (fun r n k => r k + valOf (react n) k) r) k =
      r k + (l.map fun n => match react n with | some v => v k | none => 0).sum := by
    intro l
    induction l with
    | nil => intro r; simp
    | cons n l ih =>
      intro r
      rw [List.foldl_cons, ih, List.map_cons, List.sum_cons]
      cases react n with
      | none => simp [valOf]
      | some v => simp [valOf, add_assoc]
  rw [bodyReaction, this, zero_add]

/-- C105, partial: the first nine bodies have their number as name. -/
theorem C105_name_partial (i : Nat) (h : i < 9) : String.ofList (bodyName i) = "Rigid Body " ++ toString (i + 1) := by
  have : i = 0 ∨ i = 1 ∨ i = 2 ∨ i = 3 ∨ i = 4 ∨ i = 5 ∨ i = 6 ∨ i = 7 ∨ i = 8 := by omega
  rcases this with rfl | rfl | rfl | rfl | rfl | rfl | rfl | rfl | rfl <;> decide +kernel

/-- C105 fails for the tenth body, which is called "Rigid Body :". -/
theorem C105_name_violated : String.ofList (bodyName 9) = "Rigid Body :" := by decide +kernel

/-- C105: at each time the prescribed movements have the values of their functions. -/
theorem C105_prescribed {T K : Type} (dMap : List ((Nat × Nat × Nat) × Nat)) (f : Nat → Option (T → K)) (t : T) (k : Nat × Nat × Nat) (v : K) :
    (k, v) ∈ updateDirichlet dMap f t ↔ ∃ i g, (k, i) ∈ dMap ∧ f i = some g ∧ v = g t := by
  unfold updateDirichlet
  rw [List.mem_filterMap]
  constructor
  · rintro ⟨⟨k', i⟩, hm, h⟩
    cases hf : f i with
    | none => simp only [hf] at h; cases h
    | some g =>
      simp only [hf, Option.some.injEq, Prod.mk.injEq] at h
      obtain ⟨rfl, rfl⟩ := h
      exact ⟨i, g, hm, hf, rfl⟩
  · rintro ⟨i, g, hm, hf, rfl⟩
    exact ⟨(k, i), hm, by simp only [hf]⟩

/-- C105: a sphere and a cylinder in the plane are placed by one point, a cylinder in space by two; a plane by two points in the plane and three in space. -/
theorem C105_kinds : nMast 2 .sphere = 1 ∧ nMast 3 .sphere = 1 ∧ nMast 2 .cylinder = 1 ∧ nMast 3 .cylinder = 2 ∧ nMast 2 .plane = 2 ∧ nMast 3 .plane = 3 := by decide

end Verif.ContactInput
