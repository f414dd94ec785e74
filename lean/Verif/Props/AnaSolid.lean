/-
Property C103: boundary conditions from the analytical solution in solid models.
-/
import Mathlib.Tactic.Common
import Verif.Model.AnaSolid

set_option linter.unusedSectionVars false
set_option linter.unusedSimpArgs false
set_option linter.unusedVariables false

namespace Verif.AnaSolid

theorem resolveAll_length (sol : Sol) (l : List Property) (s : St) : (resolveAll sol l s).1.length = l.length := by
  induction l generalizing s with
  | nil => rfl
  | cons p l ih => simp [resolveAll, ih]

/-- What a property becomes, for the code `c` of the analytical displacements. -/
def becomes (sol : Sol) (c : Nat) (p : Property) : Property :=
  if p.pcode = .dirAna then ⟨if sol.vec.isSome ∧ p.pindx.natAbs = c then .dirInhom else .undefined, p.pindx⟩
  else if p.pcode = .neuAna then ⟨if sol.stress.isSome then .neumann else .undefined, p.pindx⟩
  else p

/-- The code of the first property with analytical displacements. -/
def first : List Property → Nat
  | [] => 0
  | p :: l => if p.pcode = .dirAna then p.pindx.natAbs else first l

theorem loop_props (sol : Sol) (l : List Property) (s : St) (h0 : ∀ p ∈ l, p.pcode = .dirAna → p.pindx ≠ 0) :
    (resolveAll sol l s).1 = l.map (becomes sol (if s.a = 0 then first l else s.a)) := by
  induction l generalizing s with
  | nil => rfl
  | cons p l ih =>
    have ih' := fun s => ih s (fun q hq => h0 q (List.mem_cons_of_mem _ hq))
    simp only [resolveAll, List.map_cons]
    rw [ih']
    by_cases hd : p.pcode = .dirAna
    · have hp : p.pindx.natAbs ≠ 0 := fun e => h0 p (by simp) hd (Int.natAbs_eq_zero.1 e)
      unfold resolve
      rw [if_pos hd]
      cases hv : sol.vec with
      | none =>
        simp only [becomes, hd, if_true, hv, Option.isSome_none, Bool.false_eq_true, false_and, if_false]
        refine congrArg₂ _ rfl (List.map_congr_left fun q hq => ?_)
        simp only [hv, Option.isSome_none, Bool.false_eq_true, false_and, if_false, becomes]
      | some f =>
        simp only []
        by_cases h1 : s.a = p.pindx.natAbs
        · have h2 : s.a ≠ 0 := by rw [h1]; exact hp
          rw [if_pos h1]
          simp only [if_neg h2, if_neg hp, becomes, hd, if_true, hv, Option.isSome_some, true_and, h1]
        · rw [if_neg h1]
          by_cases h2 : s.a = 0
          · rw [if_pos h2]
            simp only [if_pos h2, first, hd, if_true, if_neg hp, becomes, hv, Option.isSome_some, true_and]
          · rw [if_neg h2]
            simp only [if_neg h2, becomes, hd, if_true, hv, Option.isSome_some, true_and, if_neg (Ne.symm h1)]
    · unfold resolve
      rw [if_neg hd]
      by_cases hn : p.pcode = .neuAna
      · rw [if_pos hn]
        cases hv : sol.stress with
        | none => simp only [becomes, hn, first, hv, reduceCtorEq, if_false, if_true, Option.isSome_none, Bool.false_eq_true]
        | some g =>
          have ea : (if s.tracs p.pindx = none then ⟨s.a, s.vectors, fun k => if k = p.pindx then some (.field g) else s.tracs k⟩ else s : St).a = s.a := by split <;> rfl
          simp only [ea, becomes, hn, first, hv, reduceCtorEq, if_false, if_true, Option.isSome_some]
      · rw [if_neg hn]
        simp only [becomes, hd, hn, first, if_false]

/-- C103, partial: all properties when the codes of the analytical displacements are not zero. Tractions of the exact stresses are applied on all boundaries they are asked for;
displacements on those with the first code only. -/
theorem C103_types_partial (sol : Sol) (l : List Property) (v : Nat → Option Fun) (t : Int → Option Trac) (h0 : ∀ p ∈ l, p.pcode = .dirAna → p.pindx ≠ 0) (i : Nat) (p : Property)
    (hp : l[i]? = some p) :
    ∃ q, (preprocessA (some sol) l ⟨0, v, t⟩).1[i]? = some q ∧ q.pindx = p.pindx ∧
      (p.pcode = .neuAna → sol.stress ≠ none → q.pcode = .neumann) ∧
      (p.pcode = .neuAna → sol.stress = none → q.pcode = .undefined) ∧
      (p.pcode = .dirAna → sol.vec ≠ none → p.pindx.natAbs = first l → q.pcode = .dirInhom) ∧
      (p.pcode = .dirAna → sol.vec = none → q.pcode = .undefined) ∧
      (p.pcode ≠ .neuAna → p.pcode ≠ .dirAna → q = p) := by
  refine ⟨becomes sol (first l) p, ?_, ?_, ?_, ?_, ?_, ?_, ?_⟩
  · show (resolveAll sol l ⟨0, v, t⟩).1[i]? = _
    rw [loop_props sol l ⟨0, v, t⟩ h0, List.getElem?_map, hp]
    rfl
  · unfold becomes; split_ifs <;> rfl
  · intro h1 h2
    have : sol.stress.isSome = true := Option.isSome_iff_ne_none.2 h2
    simp [becomes, h1, this]
  · intro h1 h2; simp [becomes, h1, h2]
  · intro h1 h2 h3
    have : sol.vec.isSome = true := Option.isSome_iff_ne_none.2 h2
    simp [becomes, h1, this, h3]
  · intro h1 h2; simp [becomes, h1, h2]
  · intro h1 h2; simp [becomes, h1, h2]

/-- C103 fails for every model that asks for analytical displacements with two codes, as each topology set has its own: those with the second one are not fixed at all. -/
theorem C103_second_code_violated (sol : Sol) (l : List Property) (v : Nat → Option Fun) (t : Int → Option Trac) (h0 : ∀ p ∈ l, p.pcode = .dirAna → p.pindx ≠ 0) (i : Nat)
    (p : Property) (hp : l[i]? = some p) (hd : p.pcode = .dirAna) (h2 : p.pindx.natAbs ≠ first l) :
    (preprocessA (some sol) l ⟨0, v, t⟩).1[i]? = some ⟨.undefined, p.pindx⟩ := by
  show (resolveAll sol l ⟨0, v, t⟩).1[i]? = _
  rw [loop_props sol l ⟨0, v, t⟩ h0, List.getElem?_map, hp]
  simp [becomes, hd, h2]

example : ∃ l : List Property, (∀ p ∈ l, p.pcode = .dirAna → p.pindx ≠ 0) ∧ (∃ p, l[0]? = some p ∧ p.pcode = .dirAna ∧ p.pindx.natAbs = first l) ∧
    ∃ p, l[1]? = some p ∧ p.pcode = .dirAna ∧ p.pindx.natAbs ≠ first l :=
  ⟨[⟨.dirAna, 12⟩, ⟨.dirAna, 1000012⟩], by decide, ⟨_, rfl, rfl, by decide⟩, ⟨_, rfl, rfl, by decide⟩⟩

/-- C103: the displacement function of the first code is the analytical one, all other functions are as given in the input. -/
theorem C103_displacement (sol : Sol) (l : List Property) (v : Nat → Option Fun) (t : Int → Option Trac) (h0 : ∀ p ∈ l, p.pcode = .dirAna → p.pindx ≠ 0) (f : Nat)
    (hf : sol.vec = some f) (k : Nat) :
    (preprocessA (some sol) l ⟨0, v, t⟩).2.vectors k = if first l ≠ 0 ∧ k = first l then some (.sol f) else v k := by
  show (resolveAll sol l ⟨0, v, t⟩).2.vectors k = _
  have later : ∀ (l : List Property) (s : St), s.a ≠ 0 → (resolveAll sol l s).2.vectors = s.vectors := by
    intro l
    induction l with
    | nil => intro s _; rfl
    | cons p l ih =>
      intro s hs
      have e : (resolve sol p s).2.a = s.a ∧ (resolve sol p s).2.vectors = s.vectors := by
        unfold resolve
        by_cases hd : p.pcode = .dirAna
        · rw [if_pos hd, hf]
          simp only []
          by_cases h1 : s.a = p.pindx.natAbs
          · rw [if_pos h1]; exact ⟨rfl, rfl⟩
          · rw [if_neg h1, if_neg hs]; exact ⟨rfl, rfl⟩
        · rw [if_neg hd]
          by_cases hn : p.pcode = .neuAna
          · rw [if_pos hn]
            cases sol.stress with
            | none => exact ⟨rfl, rfl⟩
            | some g => simp only []; split <;> exact ⟨rfl, rfl⟩
          · rw [if_neg hn]; exact ⟨rfl, rfl⟩
      simp only [resolveAll]
      rw [ih _ (by rw [e.1]; exact hs), e.2]
  induction l generalizing t with
  | nil => simp [resolveAll, first]
  | cons p l ih =>
    have ih' := fun t => ih t (fun q hq => h0 q (List.mem_cons_of_mem _ hq))
    simp only [resolveAll]
    by_cases hd : p.pcode = .dirAna
    · have hp : p.pindx.natAbs ≠ 0 := fun e => h0 p (by simp) hd (Int.natAbs_eq_zero.1 e)
      have e : resolve sol p ⟨0, v, t⟩ = (⟨.dirInhom, p.pindx⟩, ⟨p.pindx.natAbs, fun k => if k = p.pindx.natAbs then some (.sol f) else v k, t⟩) := by
        unfold resolve
        rw [if_pos hd, hf]
        simp only [if_neg (Ne.symm hp), if_true]
      rw [e, later _ _ hp]
      simp only [first, hd, if_true, hp, ne_eq, not_false_eq_true, true_and]
    · have e : ∃ t', (resolve sol p ⟨0, v, t⟩).2 = ⟨0, v, t'⟩ := by
        unfold resolve
        rw [if_neg hd]
        by_cases hn : p.pcode = .neuAna
        · rw [if_pos hn]
          cases sol.stress with
          | none => exact ⟨_, rfl⟩
          | some g =>
            simp only []
            split
            · exact ⟨_, rfl⟩
            · exact ⟨_, rfl⟩
        · rw [if_neg hn]; exact ⟨_, rfl⟩
      obtain ⟨t', e⟩ := e
      rw [e, ih' t']
      simp only [first, hd, if_false]

/-- C103: the traction of each code is the one given in the input, else the one of the exact stresses if a property asks for it. -/
theorem C103_traction (sol : Sol) (l : List Property) (s : St) (g : Nat) (hg : sol.stress = some g) (k : Int) :
    (∀ x, s.tracs k = some x → (preprocessA (some sol) l s).2.tracs k = some x) ∧
    (s.tracs k = none → (∃ p ∈ l, p.pcode = .neuAna ∧ p.pindx = k) → (preprocessA (some sol) l s).2.tracs k = some (.field g)) ∧
    (s.tracs k = none → (¬ ∃ p ∈ l, p.pcode = .neuAna ∧ p.pindx = k) → (preprocessA (some sol) l s).2.tracs k = none) := by
  show _ ∧ (_ → _ → (resolveAll sol l s).2.tracs k = _) ∧ (_ → _ → (resolveAll sol l s).2.tracs k = none)
  have keep : ∀ (l : List Property) (s : St) x, s.tracs k = some x → (resolveAll sol l s).2.tracs k = some x := by
    intro l
    induction l with
    | nil => intro s x h; exact h
    | cons p l ih =>
      intro s x h
      simp only [resolveAll]
      refine ih _ x ?_
      unfold resolve
      by_cases hd : p.pcode = .dirAna
      · rw [if_pos hd]
        cases sol.vec with
        | none => exact h
        | some f => simp only []; split_ifs <;> exact h
      · rw [if_neg hd]
        by_cases hn : p.pcode = .neuAna
        · rw [if_pos hn, hg]
          simp only []
          by_cases he : s.tracs p.pindx = none
          · rw [if_pos he]
            have : k ≠ p.pindx := fun e => by rw [e, he] at h; cases h
            simp only [if_neg this]; exact h
          · rw [if_neg he]; exact h
        · rw [if_neg hn]; exact h
  have other : ∀ (p : Property) (s : St), ¬ (p.pcode = .neuAna ∧ p.pindx = k) → (resolve sol p s).2.tracs k = s.tracs k := by
    intro p s h
    unfold resolve
    by_cases hd : p.pcode = .dirAna
    · rw [if_pos hd]
      cases sol.vec with
      | none => rfl
      | some f => simp only []; split_ifs <;> rfl
    · rw [if_neg hd]
      by_cases hn : p.pcode = .neuAna
      · rw [if_pos hn, hg]
        have : k ≠ p.pindx := fun e => h ⟨hn, e.symm⟩
        simp only []
        split
        · simp only [if_neg this]
        · rfl
      · rw [if_neg hn]
  refine ⟨fun x h => keep l s x h, ?_, ?_⟩
  · intro h hex
    induction l generalizing s with
    | nil => obtain ⟨p, hp, _⟩ := hex; cases hp
    | cons p l ih =>
      simp only [resolveAll]
      by_cases hp : p.pcode = .neuAna ∧ p.pindx = k
      · refine keep l _ _ ?_
        unfold resolve
        have hd : p.pcode ≠ .dirAna := by rw [hp.1]; decide
        rw [if_neg hd, if_pos hp.1, hg, hp.2]
        simp only [h, if_true]
      · refine ih _ (by rw [other p s hp, h]) ?_
        obtain ⟨q, hq, hq'⟩ := hex
        rcases List.mem_cons.1 hq with rfl | hq
        · exact absurd hq' hp
        · exact ⟨q, hq, hq'⟩
  · intro h hno
    induction l generalizing s with
    | nil => exact h
    | cons p l ih =>
      simp only [resolveAll]
      refine ih _ ?_ ?_
      · rw [other p s (fun e => hno ⟨p, by simp, e⟩), h]
      · rintro ⟨q, hq, e⟩; exact hno ⟨q, by simp [hq], e⟩

/-- C103: without an analytical solution nothing is changed. -/
theorem C103_none (l : List Property) (s : St) : preprocessA none l s = (l, s) := rfl

/-- C103: preprocessing a second time changes nothing. -/
theorem C103_twice (sol : Sol) (l : List Property) (s s' : St) : preprocessA (some sol) (preprocessA (some sol) l s).1 s' = ((preprocessA (some sol) l s).1, s') := by
  show resolveAll sol (resolveAll sol l s).1 s' = ((resolveAll sol l s).1, s')
  have e : ∀ (p : Property) (s : St), (resolve sol p s).1.pcode ≠ .dirAna ∧ (resolve sol p s).1.pcode ≠ .neuAna := by
    intro p s
    unfold resolve
    by_cases hd : p.pcode = .dirAna
    · rw [if_pos hd]
      cases sol.vec with
      | none => exact ⟨by simp, by simp⟩
      | some f => simp only []; split_ifs <;> simp
    · rw [if_neg hd]
      by_cases hn : p.pcode = .neuAna
      · rw [if_pos hn]
        cases sol.stress <;> simp
      · rw [if_neg hn]; exact ⟨hd, hn⟩
  induction l generalizing s with
  | nil => rfl
  | cons p l ih =>
    simp only [resolveAll]
    have h := e p s
    have h2 : resolve sol (resolve sol p s).1 s' = ((resolve sol p s).1, s') := by
      rw [resolve, if_neg h.1, if_neg h.2]
    rw [h2]
    simp only [ih]

/-! ### Ownership -/

/-- Events: the input is read and the model preprocessed, or the properties are cleared. -/
inductive Ev
  | read (sol : Option Sol) (props : List Property) (own : Nat → Option Nat)
  | clear

/-- The state after an event. -/
def after (s : St) : Ev → St
  | .read sol props own => (readInput sol props own s).2
  | .clear => clearProperties s

theorem inv_pre (sol : Option Sol) (l : List Property) (s : St) (hs : ∀ k n, s.vectors k = some (.sol n) → k = s.a ∧ s.a ≠ 0) :
    ∀ k n, (preprocessA sol l s).2.vectors k = some (.sol n) → k = (preprocessA sol l s).2.a ∧ (preprocessA sol l s).2.a ≠ 0 := by
  cases sol with
  | none => exact hs
  | some sol =>
    show ∀ k n, (resolveAll sol l s).2.vectors k = some (.sol n) → k = (resolveAll sol l s).2.a ∧ (resolveAll sol l s).2.a ≠ 0
    induction l generalizing s with
    | nil => exact hs
    | cons p l ih =>
      simp only [resolveAll]
      refine ih _ ?_
      unfold resolve
      by_cases hd : p.pcode = .dirAna
      · rw [if_pos hd]
        cases sol.vec with
        | none => exact hs
        | some f =>
          simp only []
          by_cases h1 : s.a = p.pindx.natAbs
          · rw [if_pos h1]; exact hs
          · rw [if_neg h1]
            by_cases h2 : s.a = 0
            · rw [if_pos h2]
              intro k n hk
              simp only [] at hk ⊢
              by_cases hkp : k = p.pindx.natAbs
              · exact ⟨hkp, fun e => h1 (by rw [h2, e])⟩
              · rw [if_neg hkp] at hk
                exact absurd h2 (hs k n hk).2
            · rw [if_neg h2]; exact hs
      · rw [if_neg hd]
        by_cases hn : p.pcode = .neuAna
        · rw [if_pos hn]
          cases sol.stress with
          | none => exact hs
          | some g => simp only []; split <;> exact hs
        · rw [if_neg hn]; exact hs

/-- C103: whatever the input is and how often it is read again, the functions of the analytical solution are not deleted by the library. -/
theorem C103_release (h : List Ev) (k n : Nat) : released (h.foldl after .init) k ≠ some (.sol n) := by
  have inv : ∀ (h : List Ev) (s : St), (∀ k n, s.vectors k = some (.sol n) → k = s.a ∧ s.a ≠ 0) →
      ∀ k n, (h.foldl after s).vectors k = some (.sol n) → k = (h.foldl after s).a ∧ (h.foldl after s).a ≠ 0 := by
    intro h
    induction h with
    | nil => intro s hs; exact hs
    | cons e h ih =>
      intro s hs
      rw [List.foldl_cons]
      refine ih _ ?_
      cases e with
      | clear => intro k n hk; cases hk
      | read sol props own =>
        show ∀ k n, (readInput sol props own s).2.vectors k = some (.sol n) → _
        unfold readInput
        refine inv_pre sol props _ ?_
        intro k n hk
        show k = s.a ∧ s.a ≠ 0
        simp only [] at hk
        cases ho : own k with
        | some m => rw [ho] at hk; cases hk
        | none => rw [ho] at hk; exact hs k n hk
  intro hk
  have := inv h .init (fun k n e => by cases e) k n
  unfold released at hk
  split at hk
  · rename_i ha
    simp only [] at hk
    split at hk
    · cases hk
    · rename_i hne; exact hne (this hk).1
  · rename_i ha
    exact (this hk).2 (by omega)

/-- C103 fails in one respect: a function of the input with the code of the analytical displacements is never deleted. -/
theorem C103_leak_violated : ∃ (sol : Sol) (props : List Property) (own : Nat → Option Nat) (n : Nat), own 12 = some n ∧
    (∀ k, released (readInput (some sol) props own .init).2 k ≠ some (.own n)) ∧ ∀ k, (readInput (some sol) props own .init).2.vectors k ≠ some (.own n) := by
  refine ⟨⟨some 1, none⟩, [⟨.dirAna, 12⟩], fun k => if k = 12 then some 7 else none, 7, rfl, ?_, ?_⟩
  · intro k
    by_cases hk : k = 12
    · subst hk; decide
    · simp [released, readInput, preprocessA, resolveAll, resolve, St.init, hk]
  · intro k
    by_cases hk : k = 12
    · subst hk; decide
    · simp [readInput, preprocessA, resolveAll, resolve, St.init, hk]

/-- C103: after clearing the properties the input can be read again with the same result as in a new model, whatever was read before. -/
theorem C103_clear (s : St) (sol : Option Sol) (props : List Property) (own : Nat → Option Nat) :
    readInput sol props own (clearProperties s) = readInput sol props own .init := rfl

end Verif.AnaSolid
