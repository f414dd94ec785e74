/-
Properties C15 (plate norms) and C16 (extreme values).
-/
import Verif.Proofs.Norms
import Verif.Spec.Norms
import Mathlib.Tactic.NormNum
import Mathlib.Tactic.IntervalCases
import Mathlib.Algebra.Order.Field.Basic
import Mathlib.Tactic.Positivity

set_option linter.unusedSectionVars false
set_option linter.unusedSimpArgs false
set_option linter.unusedVariables false

namespace Verif.Norms

open Spec

variable {K : Type*}

/-! ### C15 -/

/-- The projections that take part, with their field and residual. -/
def active : List (PPrj K) → List (List K × K)
  | [] => []
  | .skip :: l => active l
  | .nodal m r :: l => (m, r) :: active l
  | .own m r :: l => (m, r) :: active l

/-- Energy density of the specification: stress resultants times curvatures for version 1, the
Frobenius norm of the second derivatives otherwise. -/
def enSpec [Ring K] (d : PPt K) (m : List K) : K := if d.v1 then dot m (d.ci m) else frob m

def pfields [Ring K] (d : PPt K) (v : List K × K) : PFields K where
  en := enSpec d
  mh := d.mh
  m := (d.ana.getD ([], 0)).1
  mr := v.1
  resm := (d.ana.getD ([], 0)).2
  resr := v.2
  h4 := d.h4
  pw := d.pw
  w := d.w

/-- Vectors have the size of the problem: one component (beam) or three (plate). -/
structure PSized (d : PPt K) : Prop where
  n : d.nscmp = 1 ∨ d.nscmp = 3
  mh : d.mh.length = d.nscmp
  ana : ∀ a, d.ana = some a → a.1.length = d.nscmp
  prj : ∀ v ∈ active d.prj, v.1.length = d.nscmp

theorem en_dup [Ring K] (d : PPt K) (hn : d.nscmp = 1 ∨ d.nscmp = 3) (m : List K)
    (h : m.length = d.nscmp) : d.en (dup3 d.v1 d.nscmp m) = enSpec d m := by
  unfold PPt.en enSpec dup3
  cases hv : d.v1 with
  | true => simp [ldot, dot]
  | false =>
    rcases hn with hn | hn
    · rw [hn] at h
      obtain ⟨a, rfl⟩ := List.length_eq_one_iff.1 h
      simp [hn, ldot, frob]
    · rw [hn] at h
      obtain ⟨a, b, c, rfl⟩ := List.length_eq_three.1 h
      simp [hn, ldot, frob, two_mul, add_assoc]

theorem en_dup_diff [Ring K] (d : PPt K) (hn : d.nscmp = 1 ∨ d.nscmp = 3) (m n : List K)
    (h : m.length = d.nscmp) (h' : n.length = d.nscmp) :
    d.en (lsub (dup3 d.v1 d.nscmp m) (dup3 d.v1 d.nscmp n)) = enSpec d (diff m n) := by
  have : lsub (dup3 d.v1 d.nscmp m) (dup3 d.v1 d.nscmp n) = dup3 d.v1 d.nscmp (diff m n) := by
    unfold dup3 lsub diff
    cases hv : d.v1 with
    | true => simp
    | false =>
      rcases hn with hn | hn
      · simp [hn]
      · rw [hn] at h h'
        obtain ⟨a, b, c, rfl⟩ := List.length_eq_three.1 h
        obtain ⟨a', b', c', rfl⟩ := List.length_eq_three.1 h'
        simp [hn]
  rw [this, en_dup d hn]
  simp [diff, h, h']

theorem dup_take [Ring K] (d : PPt K) (m : List K) (h : m.length = d.nscmp) :
    (dup3 d.v1 d.nscmp m).take d.nscmp = m := by
  unfold dup3
  split_ifs with hc
  · have : m[2]? = some (m[2]'(by omega)) := List.getElem?_eq_getElem _
    rw [this]; simp [← h]
  · simp [← h]

theorem dup_take_diff [Ring K] (d : PPt K) (m n : List K)
    (h : m.length = d.nscmp) (h' : n.length = d.nscmp) :
    (lsub (dup3 d.v1 d.nscmp m) (dup3 d.v1 d.nscmp n)).take d.nscmp = diff m n := by
  unfold lsub diff
  rw [List.take_zipWith, dup_take d m h, dup_take d n h']

theorem pPrjSteps_eq [Ring K] (d : PPt K) (hs : PSized d) (v : List K × K)
    (hv : v.1.length = d.nscmp) :
    (pPrjSteps d (dup3 d.v1 d.nscmp d.mh) (dup3 d.v1 d.nscmp v.1) v.2
      (d.ana.map fun a => dup3 d.v1 d.nscmp a.1)).map (fun o => o.getD 0) =
    (pPrj d.ana.isSome).map (pvalue (pfields d v)) := by
  have e1 := en_dup d hs.n v.1 hv
  have e2 := en_dup_diff d hs.n v.1 d.mh hv hs.mh
  have e3 := dup_take d v.1 hv
  have e4 := dup_take_diff d v.1 d.mh hv hs.mh
  unfold pPrjSteps
  cases ha : d.ana with
  | none =>
    simp only [e1, e2, e3, e4, pPrj, Option.map_none, Option.isSome_none, Bool.false_eq_true,
      if_false, List.append_nil, List.map_cons, List.map_nil, pvalue, pfields, Option.getD_some,
      Option.getD_none]
    rfl
  | some a =>
    have e5 := en_dup_diff d hs.n a.1 v.1 (hs.ana a ha) hv
    simp only [e1, e2, e3, e4, e5, pPrj, Option.map_some, Option.isSome_some,
      if_true, List.map_append, List.map_cons, List.map_nil, pvalue, pfields, Option.getD_some,
      Option.getD_none, ha]
    rfl

/-- The stale part of the vector `mr` does not matter: version 1, one component, or a single
projection. -/
def Clean (d : PPt K) : Prop := d.v1 = true ∨ d.nscmp = 1 ∨ (active d.prj).length ≤ 1

theorem pPrjLoop_id [Ring K] (d : PPt K) (h : d.v1 = true ∨ d.nscmp = 1) (mh : List K)
    (m : Option (List K)) (l : List (PPrj K)) (hl : ∀ v ∈ active l, v.1.length = d.nscmp)
    (mr : List K) (hmr : mr.length = d.nscmp) :
    pPrjLoop d mh m l mr =
      (active l).flatMap fun v => pPrjSteps d mh (dup3 d.v1 d.nscmp v.1) v.2 m := by
  have hd : ∀ x : List K, dup3 d.v1 d.nscmp x = x := by
    intro x
    unfold dup3
    rw [if_neg]
    rintro ⟨h1, h2⟩
    rcases h with h | h
    · simp [h] at h1
    · omega
  induction l generalizing mr with
  | nil => rfl
  | cons x l ih =>
    cases x with
    | skip => exact ih hl mr hmr
    | nodal v r =>
      have hv : v.length = d.nscmp := hl (v, r) (by simp [active])
      simp only [pPrjLoop, active, List.flatMap_cons]
      rw [show mr.drop d.nscmp = [] by rw [← hmr]; simp, List.append_nil, hd v,
        ih (fun w hw => hl w (by simp [active, hw])) v hv]
    | own v r =>
      have hv : v.length = d.nscmp := hl (v, r) (by simp [active])
      simp only [pPrjLoop, active, List.flatMap_cons]
      rw [hd v, ih (fun w hw => hl w (by simp [active, hw])) v hv]

theorem pPrjLoop_none [Ring K] (d : PPt K) (mh : List K) (m : Option (List K))
    (l : List (PPrj K)) (hl : active l = []) (mr : List K) : pPrjLoop d mh m l mr = [] := by
  induction l with
  | nil => rfl
  | cons x l ih => cases x with
    | skip => exact ih hl
    | nodal v r => simp [active] at hl
    | own v r => simp [active] at hl

theorem pPrjLoop_one [Ring K] (d : PPt K) (mh : List K) (m : Option (List K))
    (l : List (PPrj K)) (hl : (active l).length ≤ 1) (mr : List K) (hmr : mr.length = d.nscmp) :
    pPrjLoop d mh m l mr =
      (active l).flatMap fun v => pPrjSteps d mh (dup3 d.v1 d.nscmp v.1) v.2 m := by
  induction l with
  | nil => rfl
  | cons x l ih => cases x with
    | skip => exact ih hl
    | nodal v r =>
      have h0 : active l = [] := List.length_eq_zero_iff.1 (by simp [active] at hl; simp [hl])
      simp only [pPrjLoop, active, List.flatMap_cons]
      rw [show mr.drop d.nscmp = [] by rw [← hmr]; simp, List.append_nil,
        pPrjLoop_none d mh m l h0, h0]
      rfl
    | own v r =>
      have h0 : active l = [] := List.length_eq_zero_iff.1 (by simp [active] at hl; simp [hl])
      simp only [pPrjLoop, active, List.flatMap_cons]
      rw [pPrjLoop_none d mh m l h0, h0]
      rfl

theorem plSteps_eq [Ring K] (d : PPt K) (hs : PSized d) (hc : Clean d) :
    (plSteps d).map (fun o => o.getD 0) =
      (pMain d.ana.isSome).map (pvalue (pfields d ([], 0))) ++
      (active d.prj).flatMap fun v => (pPrj d.ana.isSome).map (pvalue (pfields d v)) := by
  unfold plSteps
  rw [List.map_append]
  congr 1
  · have e1 := en_dup d hs.n d.mh hs.mh
    cases ha : d.ana with
    | none =>
      simp only [e1, pMain, Option.isSome_none, Bool.false_eq_true,
        if_false, List.append_nil, List.map_append, List.map_cons, List.map_nil, pvalue, pfields,
        Option.getD_some]
    | some a =>
      have e2 := en_dup d hs.n a.1 (hs.ana a ha)
      have e3 := en_dup_diff d hs.n a.1 d.mh (hs.ana a ha) hs.mh
      simp only [e1, e2, e3, pMain, Option.isSome_some, if_true, List.map_append, List.map_cons,
        List.map_nil, pvalue, pfields, Option.getD_some, ha]
  · have : pPrjLoop d (dup3 d.v1 d.nscmp d.mh) (d.ana.map fun a => dup3 d.v1 d.nscmp a.1) d.prj
        (List.replicate d.nscmp 0) =
        (active d.prj).flatMap fun v => pPrjSteps d (dup3 d.v1 d.nscmp d.mh)
          (dup3 d.v1 d.nscmp v.1) v.2 (d.ana.map fun a => dup3 d.v1 d.nscmp a.1) := by
      rcases hc with h | h | h
      · exact pPrjLoop_id d (Or.inl h) _ _ _ hs.prj _ (by simp)
      · exact pPrjLoop_id d (Or.inr h) _ _ _ hs.prj _ (by simp)
      · exact pPrjLoop_one d _ _ _ h _ (by simp)
    rw [this, List.map_flatMap]
    simp only [List.flatMap_def]
    congr 1
    apply List.map_congr_left
    intro v hv
    exact pPrjSteps_eq d hs v (hs.prj v hv)

theorem pMain_length (ana : Bool) : (pMain ana).length = plNoFields ana 1 := by cases ana <;> rfl
theorem pPrj_length (ana : Bool) : (pPrj ana).length = plNoFields ana 2 := by cases ana <;> rfl

/-- C15, domain part: with the declared array size the integrand succeeds and slot `j` of the main
group and of the `k`-th projection receives exactly the quantity that belongs there.
Missing: the formulations other than version 1 for plates with more than one projection
(`C15_two_projections_violated`). -/
theorem C15_interior_partial [Ring K] (d : PPt K) (hs : PSized d)
    (hc : d.v1 = true ∨ d.nscmp = 1 ∨ (active d.prj).length ≤ 1) (p : List K)
    (hp : p.length = plNoFields d.ana.isSome 1 +
      (active d.prj).length * plNoFields d.ana.isSome 2) :
    ∃ p', plEvalInt d p = .ok p' ∧ p'.length = p.length ∧
      (∀ j q, (pMain d.ana.isSome)[j]? = some q →
        at' p' j = at' p j + pvalue (pfields d ([], 0)) q) ∧
      (∀ k v j q, (active d.prj)[k]? = some v → (pPrj d.ana.isSome)[j]? = some q →
        at' p' (plNoFields d.ana.isSome 1 + k * plNoFields d.ana.isSome 2 + j) =
          at' p (plNoFields d.ana.isSome 1 + k * plNoFields d.ana.isSome 2 + j) +
            pvalue (pfields d v) q) := by
  have hq := pMain_length d.ana.isSome
  have hq2 := pPrj_length d.ana.isSome
  have he := plSteps_eq d hs hc
  have hfl := flatMap_len (plNoFields d.ana.isSome 2)
    (fun v => (pPrj d.ana.isSome).map (pvalue (pfields d v)))
    (active d.prj) (fun v _ => by rw [List.length_map, hq2])
  have hlen : (plSteps d).length = p.length := by
    have := congrArg List.length he
    rw [List.length_map, List.length_append, List.length_map, hq, hfl] at this
    rw [this, hp]
  obtain ⟨p', e, hl, hv⟩ := run_ok (plSteps d) 0 p (by omega)
  have hget : ∀ i, i < p.length → ((plSteps d).getD i none).getD 0 =
      ((plSteps d).map fun o => o.getD 0).getD i 0 := by
    intro i hi
    simp only [List.getD_eq_getElem?_getD, List.getElem?_map]
    rw [List.getElem?_eq_getElem (by omega)]
    simp
  refine ⟨p', by simp only [plEvalInt, e, Res.bind]; rw [if_pos (by omega)], hl, ?_, ?_⟩
  · intro j q hj
    have hjl : j < (pMain d.ana.isSome).length := (List.getElem?_eq_some_iff.1 hj).1
    rw [hv j, if_pos (by omega), Nat.sub_zero, hget j (by omega), he,
      List.getD_eq_getElem?_getD, List.getElem?_append_left (by rw [List.length_map]; exact hjl),
      List.getElem?_map, hj]
    rfl
  · intro k v j q hk hj
    have hjl : j < (pPrj d.ana.isSome).length := (List.getElem?_eq_some_iff.1 hj).1
    have hkl : k < (active d.prj).length := (List.getElem?_eq_some_iff.1 hk).1
    rw [hq2] at hjl
    have hkj : k * plNoFields d.ana.isSome 2 + j <
        (active d.prj).length * plNoFields d.ana.isSome 2 := by
      calc _ < (k + 1) * plNoFields d.ana.isSome 2 := by rw [Nat.succ_mul]; omega
        _ ≤ _ := Nat.mul_le_mul_right _ hkl
    rw [hv, if_pos (by omega), Nat.sub_zero, hget _ (by omega), he,
      List.getD_eq_getElem?_getD, List.getElem?_append_right (by rw [List.length_map]; omega),
      List.length_map, hq, show ∀ a b c : Nat, a + b + c - a = b + c by intros; omega,
      flatMap_get _ _ _ (fun v _ => by rw [List.length_map, hq2]) k j v hk hjl,
      List.getElem?_map, hj]
    rfl

/-- For the other formulations in two dimensions the second projection also integrates the twist
component left over from the first one. -/
theorem C15_two_projections_violated :
    let d : PPt ℚ := {
      v1 := false, nscmp := 3, ci := id, mh := [0, 0, 0], pw := 0, ana := none, h4 := 1, w := 1,
      prj := [.nodal [0, 0, 1] 0, .nodal [0, 0, 0] 0] }
    PSized d ∧ ∃ p', plEvalInt d (List.replicate 15 0) = .ok p' ∧
      (pPrj false)[0]? = some .arr ∧ at' p' (3 + 6) = 1 ∧
      pvalue (pfields d ([0, 0, 0], 0)) .arr = 0 := by
  refine ⟨⟨Or.inr rfl, rfl, by simp, by simp [active]⟩, _, rfl, rfl, ?_, ?_⟩ <;>
  norm_num [at', pvalue, pfields, enSpec, frob, PPt.en, ldot, lsub, dup3]

example : ∃ (d : PPt ℚ) (p : List ℚ), d.v1 = true ∧ PSized d ∧ (active d.prj).length = 2 ∧
    d.ana.isSome = true ∧ p.length = plNoFields d.ana.isSome 1 +
      (active d.prj).length * plNoFields d.ana.isSome 2 :=
  ⟨{ v1 := true, nscmp := 3, ci := id, mh := [1, 2, 3], pw := 0, ana := some ([1, 2, 3], 0),
     h4 := 1, w := 1, prj := [.nodal [0, 0, 1] 0, .skip, .own [0, 0, 0] 0] },
   List.replicate 24 0, rfl, ⟨Or.inr rfl, rfl, by simp, by simp [active]⟩, rfl, rfl, rfl⟩

/-- C15: every slot of the main group and of each projection group is printed under the name of
its quantity. -/
theorem C15_names (ana : Bool) (j : Nat) (q : PQty) :
    ((pMain ana)[j]? = some q → plName ana 1 (j + 1) none = .ok (plabel q)) ∧
    ∀ i, 2 ≤ i → (pPrj ana)[j]? = some q → plName ana i (j + 1) none = .ok (plabel q) := by
  constructor
  · intro h
    have hj : j < 6 := by
      have := (List.getElem?_eq_some_iff.1 h).1
      rw [pMain_length] at this
      cases ana <;> simp [plNoFields] at this <;> omega
    cases ana <;> interval_cases j <;> simp [pMain] at h <;> subst h <;> decide +kernel
  · intro i hi h
    have hj : j < 9 := by
      have := (List.getElem?_eq_some_iff.1 h).1
      rw [pPrj_length] at this
      cases ana <;> simp [plNoFields] at this <;> omega
    have h0 : ¬ i = 0 := by omega
    have h1 : ¬ i = 1 := by omega
    have h2 : i > 1 := by omega
    unfold plName
    simp only [h0, h1, h2, false_and, and_false, false_or, or_false, if_true, if_false]
    cases ana <;> interval_cases j <;> simp [pPrj] at h <;> subst h <;>
      simp [elPick, plNameP, plabel]

theorem bumpJump_ok [AddMonoid K] (p : List K) (ip : Nat) (c : Option K) (h1 : 1 ≤ ip)
    (h : ip < p.length) :
    ∃ p', bumpJump p ip c = .ok p' ∧ p'.length = p.length ∧
      ∀ i, at' p' i = at' p i + if i = ip - 1 ∨ i = ip then c.getD 0 else 0 := by
  cases c with
  | none => exact ⟨p, rfl, rfl, by simp⟩
  | some c =>
    refine ⟨(p.modify (ip - 1) (· + c)).modify ip (· + c), ?_, by simp, fun i => ?_⟩
    · simp only [bumpJump, bump]
      rw [if_pos (by omega)]
      simp only [Res.bind]
      rw [if_pos (by simpa using h)]
    · rw [at'_modify _ _ _ _ (by simpa using h), at'_modify _ _ _ _ (by omega)]
      by_cases ha : i = ip
      · have : ¬ i = ip - 1 := by omega
        simp [ha, show ¬ ip = ip - 1 by omega]
      · by_cases hb : i = ip - 1
        · simp [hb, show ¬ ip - 1 = ip by omega]
        · simp [ha, hb]

theorem plBouLoop_ok [AddMonoid K] (stress : Bool) (l : List (Option (Option K × Option K))) :
    ∀ (ip c : Nat) (p : List K), c = (if stress then 9 else 6) →
    ip + 1 + (l.filterMap id).length * c ≤ p.length →
    ∃ p', plBouLoop stress l ip p = .ok p' ∧ p'.length = p.length ∧
      (∀ k v, (l.filterMap id)[k]? = some v →
        at' p' (ip + 1 + k * c + 4) = at' p (ip + 1 + k * c + 4) + v.1.getD 0 + v.2.getD 0 ∧
        at' p' (ip + 1 + k * c + 5) = at' p (ip + 1 + k * c + 5) + v.1.getD 0 + v.2.getD 0) ∧
      ∀ i, (∀ k, k < (l.filterMap id).length →
        i ≠ ip + 1 + k * c + 4 ∧ i ≠ ip + 1 + k * c + 5) → at' p' i = at' p i := by
  induction l with
  | nil => intro ip c p _ _; exact ⟨p, rfl, rfl, by simp, fun _ _ => rfl⟩
  | cons x l ih =>
    intro ip c p hc hl
    cases x with
    | none => exact ih ip c p hc hl
    | some v =>
      obtain ⟨c1, c2⟩ := v
      have hfm : (some (c1, c2) :: l).filterMap id = (c1, c2) :: l.filterMap id := rfl
      rw [hfm] at hl ⊢
      simp only [List.length_cons, Nat.succ_mul] at hl ⊢
      have hc6 : 6 ≤ c := by rw [hc]; split_ifs <;> omega
      have hstep : (if stress then ip + 6 + 3 else ip + 6) = ip + c := by
        rw [hc]; split_ifs <;> omega
      have hm := Nat.zero_le ((l.filterMap id).length * c)
      obtain ⟨p1, e1, l1, v1⟩ := bumpJump_ok p (ip + 6) c1 (by omega) (by omega)
      obtain ⟨p2, e2, l2, v2⟩ := bumpJump_ok p1 (ip + 6) c2 (by omega) (by omega)
      obtain ⟨p3, e3, l3, h3, h4⟩ := ih (ip + c) c p2 hc (by omega)
      refine ⟨p3, ?_, by omega, ?_, ?_⟩
      · simp only [plBouLoop, e1, Res.bind, e2, hstep, e3]
      · intro k v hk
        cases k with
        | zero =>
          simp only [List.getElem?_cons_zero, Option.some.injEq] at hk
          subst hk
          simp only [Nat.zero_mul, Nat.add_zero]
          have g1 := h4 (ip + 1 + 4) (by intro k _; constructor <;> (have := Nat.zero_le (k * c); omega))
          have g2 := h4 (ip + 1 + 5) (by intro k _; constructor <;> (have := Nat.zero_le (k * c); omega))
          rw [g1, g2, v2, v2, v1, v1, if_pos (by omega), if_pos (by omega), if_pos (by omega),
            if_pos (by omega)]
          exact ⟨rfl, rfl⟩
        | succ k =>
          rw [List.getElem?_cons_succ] at hk
          have := h3 k v hk
          rw [show ip + 1 + (k + 1) * c + 4 = ip + c + 1 + k * c + 4 by rw [Nat.succ_mul]; omega,
            show ip + 1 + (k + 1) * c + 5 = ip + c + 1 + k * c + 5 by rw [Nat.succ_mul]; omega,
            this.1, this.2, v2, v2, v1, v1, if_neg, if_neg, if_neg, if_neg]
          · simp
          all_goals (have := Nat.zero_le (k * c); omega)
      · intro i hi
        rw [h4, v2, v1, if_neg, if_neg]
        · simp
        · have := hi 0 (by omega); omega
        · have := hi 0 (by omega); omega
        · intro k hk
          have := hi (k + 1) (by omega)
          rw [Nat.succ_mul] at this
          omega

/-- C15, boundary part: the jump terms of the `k`-th projection are added to its residual slot and
its jump slot, those of the analytical solution to its residual slot, the work of the boundary
loads to the external energy, and nothing else changes.
Missing: the other formulations with an analytical solution (`C15_boundary_violated`), and
projections with a basis of their own (`C15_own_basis_violated`). -/
theorem C15_boundary_partial [AddCommMonoid K] (v1 : Bool) (tw : Option K)
    (ja : Option (Option K × Option K)) (prj : List (Option (Option K × Option K))) (p : List K)
    (hv : v1 = true ∨ ja = none)
    (hp : p.length = plNoFields ja.isSome 1 +
      (prj.filterMap id).length * plNoFields ja.isSome 2) :
    (pMain ja.isSome)[1]? = some .ext ∧ (ja.isSome = true → (pMain ja.isSome)[4]? = some .resu) ∧
    (pPrj ja.isSome)[4]? = some .resr ∧ (pPrj ja.isSome)[5]? = some .jump ∧
    ∃ p', plEvalBou v1 tw ja prj p = .ok p' ∧ p'.length = p.length ∧
      at' p' 1 = at' p 1 + tw.getD 0 ∧
      (ja.isSome = true → at' p' 4 =
        at' p 4 + ((ja.bind (·.1)).getD 0 + (ja.bind (·.2)).getD 0)) ∧
      (∀ k v, (prj.filterMap id)[k]? = some v → ∀ j, j = 4 ∨ j = 5 →
        at' p' (plNoFields ja.isSome 1 + k * plNoFields ja.isSome 2 + j) =
        at' p (plNoFields ja.isSome 1 + k * plNoFields ja.isSome 2 + j) +
          (v.1.getD 0 + v.2.getD 0)) ∧
      (∀ k j, k < (prj.filterMap id).length → j < 4 ∨ 6 ≤ j ∧ j < 9 →
        j < plNoFields ja.isSome 2 →
        at' p' (plNoFields ja.isSome 1 + k * plNoFields ja.isSome 2 + j) =
        at' p (plNoFields ja.isSome 1 + k * plNoFields ja.isSome 2 + j)) ∧
      (∀ j, j < plNoFields ja.isSome 1 → j ≠ 1 → j ≠ 4 → at' p' j = at' p j) := by
  have hopt : ∀ (p : List K) (i : Nat) (c : Option K), i < p.length →
      ∃ p', bumpOpt p i c = .ok p' ∧ p'.length = p.length ∧
        ∀ j, at' p' j = at' p j + if j = i then c.getD 0 else 0 := by
    intro p i c h
    cases c with
    | none => exact ⟨p, rfl, rfl, by simp⟩
    | some c =>
      refine ⟨p.modify i (· + c), by simp only [bumpOpt, bump, if_pos h], by simp, fun j => ?_⟩
      rw [at'_modify _ _ _ _ h]; rfl
  have hn : plNoFields ja.isSome 1 = (if ja.isSome then 6 else 3) := by
    cases ja <;> rfl
  have hn2 : plNoFields ja.isSome 2 = (if ja.isSome then 9 else 6) := by
    cases ja <;> rfl
  have hst : (v1 && ja.isSome) = ja.isSome := by
    rcases hv with h | h <;> simp [h]
  refine ⟨by cases ja <;> rfl, by cases ja <;> simp [pMain], by cases ja <;> rfl,
    by cases ja <;> rfl, ?_⟩
  obtain ⟨p1, e1, l1, w1⟩ := hopt p 1 tw (by rw [hp, hn]; split_ifs <;> omega)
  have step2 : ∃ p3, ((bumpOpt p1 4 (ja.bind (·.1))).bind fun p =>
      (bumpOpt p 4 (ja.bind (·.2)))) = .ok p3 ∧ p3.length = p1.length ∧
      ∀ j, at' p3 j = at' p1 j +
        if j = 4 then (ja.bind (·.1)).getD 0 + (ja.bind (·.2)).getD 0 else 0 := by
    cases ja with
    | none => exact ⟨p1, rfl, rfl, by simp⟩
    | some v =>
      obtain ⟨c1, c2⟩ := v
      have hl4 : 4 < p1.length := by rw [l1, hp, hn]; simp; omega
      obtain ⟨p2, e2, l2, w2⟩ := hopt p1 4 c1 hl4
      obtain ⟨p3, e3, l3, w3⟩ := hopt p2 4 c2 (by omega)
      refine ⟨p3, ?_, by omega, fun j => ?_⟩
      · simp only [Option.bind_some, e2, Res.bind, e3]
      · rw [w3, w2]
        by_cases h : j = 4 <;> simp [h, add_assoc]
  obtain ⟨p3, e3, l3, w3⟩ := step2
  obtain ⟨p4, e4, l4, h4, g4⟩ := plBouLoop_ok ja.isSome prj (if ja.isSome then 5 else 2)
    (plNoFields ja.isSome 2) p3 hn2 (by
      rw [l3, l1, hp, hn]; split_ifs <;> omega)
  have hip : (if ja.isSome then 5 else 2) + 1 = plNoFields ja.isSome 1 := by
    rw [hn]; split_ifs <;> rfl
  simp only [hip] at h4 g4
  have h6 : 6 ≤ plNoFields ja.isSome 2 := by rw [hn2]; split_ifs <;> omega
  have h3 : 3 ≤ plNoFields ja.isSome 1 := by rw [hn]; split_ifs <;> omega
  have hge : ∀ k j, at' p3 (plNoFields ja.isSome 1 + k * plNoFields ja.isSome 2 + j) =
      at' p (plNoFields ja.isSome 1 + k * plNoFields ja.isSome 2 + j) := by
    intro k j
    have := Nat.zero_le (k * plNoFields ja.isSome 2)
    cases hj : ja with
    | none =>
      rw [← hj, w3, w1, if_neg (show ¬ _ = 1 by omega)]
      simp [hj]
    | some v =>
      have hn6 : plNoFields ja.isSome 1 = 6 := by rw [hn, hj]; rfl
      rw [← hj, w3, w1, if_neg (show ¬ _ = 1 by omega), if_neg (show ¬ _ = 4 by omega)]
      simp
  refine ⟨p4, ?_, by omega, ?_, ?_, ?_, ?_, ?_⟩
  · unfold plEvalBou
    rw [e1, show ∀ f : List K → Res (List K), (Res.ok p1).bind f = f p1 from fun _ => rfl]
    have : ∀ (a : Res (List K)) (f g : List K → Res (List K)),
        (a.bind fun x => (f x).bind g) = (a.bind f).bind g := by
      intro a f g; cases a <;> rfl
    rw [this, e3]
    rw [hst]; exact e4
  · rw [g4 1 (by intro k _; have := Nat.zero_le (k * plNoFields ja.isSome 2); omega), w3, w1]
    simp
  · intro hj
    have hn6 : plNoFields ja.isSome 1 = 6 := by rw [hn, hj]; rfl
    rw [g4 4 (by intro k _; have := Nat.zero_le (k * plNoFields ja.isSome 2); omega), w3, w1]
    simp
  · intro k v hk j hj
    have := h4 k v hk
    rcases hj with rfl | rfl
    · rw [this.1, hge, add_assoc]
    · rw [this.2, hge, add_assoc]
  · intro k j hk hj hj2
    rw [g4, hge]
    intro k' hk'
    have key : ∀ a b, k' * plNoFields ja.isSome 2 + a = k * plNoFields ja.isSome 2 + b →
        a < plNoFields ja.isSome 2 → b < plNoFields ja.isSome 2 → a = b := by
      intro a b h ha hb
      rcases Nat.lt_trichotomy k k' with hlt | heq | hgt
      · have := Nat.mul_le_mul_right (plNoFields ja.isSome 2) (show k + 1 ≤ k' from hlt)
        rw [Nat.succ_mul] at this; omega
      · subst heq; omega
      · have := Nat.mul_le_mul_right (plNoFields ja.isSome 2) (show k' + 1 ≤ k from hgt)
        rw [Nat.succ_mul] at this; omega
    constructor
    · intro h; have := key 4 j (by omega) (by omega) hj2; omega
    · intro h; have := key 5 j (by omega) (by omega) hj2; omega
  · intro j hj h1 h4'
    rw [g4 j (by intro k _; have := Nat.zero_le (k * plNoFields ja.isSome 2); omega), w3, w1,
      if_neg h1, if_neg h4']
    simp

example : ∃ (prj : List (Option (Option ℚ × Option ℚ))) (p : List ℚ),
    (prj.filterMap id).length = 2 ∧ p.length = plNoFields true 1 +
      (prj.filterMap id).length * plNoFields true 2 :=
  ⟨[some (some 1, none), none, some (none, some 2)], List.replicate 24 0, rfl, rfl⟩

/-- With an analytical solution and a formulation other than version 1, the jumps of the second
projection are added three slots too early: to the quantities `l2h` and `arh` positions shifted,
here slots 16 and 17 instead of 19 and 20. -/
theorem C15_boundary_violated :
    ∃ p', plEvalBou (K := ℚ) false none (some (none, none)) [some (none, none), some (some 1, none)]
        (List.replicate 24 0) = .ok p' ∧
      plNoFields true 1 + 1 * plNoFields true 2 + 4 = 19 ∧
      at' p' 19 = 0 ∧ at' p' 20 = 0 ∧ at' p' 16 = 1 ∧ at' p' 17 = 1 := by
  refine ⟨_, rfl, rfl, ?_, ?_, ?_, ?_⟩ <;> norm_num [at']

/-- When the first projection has a basis of its own (so its nodal vector is empty), the jumps of
the second projection are added to the slots of the first. -/
theorem C15_own_basis_violated :
    (active [PPrj.own [0, 0, 0] 0, .nodal [0, 0, 0] (0 : ℚ)]).length = 2 ∧
    ∃ p', plEvalBou (K := ℚ) true none none [none, some (some 1, none)]
        (List.replicate 15 0) = .ok p' ∧
      plNoFields false 1 + 1 * plNoFields false 2 + 5 = 14 ∧
      at' p' 14 = 0 ∧ at' p' 8 = 1 := by
  refine ⟨rfl, _, rfl, rfl, ?_, ?_⟩ <;> norm_num [at']

/-- The moment jump of version 1 is the squared length of the normal moment vector. -/
theorem C15_jump_partial [Field K] [LinearOrder K] [IsStrictOrderedRing K]
    (mxx myy mxy n1 n2 : K) :
    plJump true mxx myy mxy n1 n2 = (mxx * n1 + mxy * n2) ^ 2 + (mxy * n1 + myy * n2) ^ 2 ∧
    0 ≤ plJump true mxx myy mxy n1 n2 := by
  constructor
  · simp only [plJump, if_true]; ring
  · simp only [plJump, if_true]
    exact add_nonneg (mul_self_nonneg _) (mul_self_nonneg _)

/-- In the other formulations the jump is not squared, and a jump can cancel the residual. -/
theorem C15_jump_violated : plJump false (-1 : ℚ) 0 0 1 0 < 0 := by norm_num [plJump]

theorem plFinLoop_ok [Field K] (m : Nat) : ∀ (fuel ip : Nat) (p : List K), m ≤ fuel → 14 ≤ ip →
    p.length + 8 = ip + m * 9 →
    ∃ p', plFinLoop fuel ip p = .ok p' ∧ p'.length = p.length ∧
      (∀ k, k < m → at' p' (ip + k * 9 - 1) = at' p (ip + k * 9 - 7) / at' p 3 ∧
        at' p' (ip + k * 9) = (at' p (ip + k * 9 - 7) + at' p (ip + k * 9 - 4)) / at' p 3) ∧
      ∀ i, (∀ k, k < m → i ≠ ip + k * 9 - 1 ∧ i ≠ ip + k * 9) → at' p' i = at' p i := by
  induction m with
  | zero =>
    intro fuel ip p _ _ hl
    refine ⟨p, ?_, rfl, by omega, fun _ _ => rfl⟩
    cases fuel with
    | zero => rfl
    | succ f => simp only [plFinLoop]; rw [if_neg (by omega)]
  | succ m ih =>
    intro fuel ip p hf hip hl
    obtain ⟨fuel, rfl⟩ : ∃ f, fuel = f + 1 := ⟨fuel - 1, by omega⟩
    have ha : ∀ i, i < p.length → p[i]? = some (at' p i) := by
      intro i hi
      unfold at'; rw [List.getD_eq_getElem?_getD, List.getElem?_eq_getElem hi]; rfl
    have hset : ∀ (p : List K) j v i, j < p.length →
        at' (p.set j v) i = if i = j then v else at' p i := by
      intro p j v i hj
      unfold at'
      simp only [List.getD_eq_getElem?_getD, List.getElem?_set]
      by_cases h : j = i
      · subst h; simp [hj]
      · rw [if_neg h, if_neg (fun h' => h h'.symm)]
    set q := (p.set (ip - 1) (at' p (ip - 7) / at' p 3)).set ip
      ((at' p (ip - 7) + at' p (ip - 4)) / at' p 3) with hq
    have hq' : ∀ i, at' q i = if i = ip then (at' p (ip - 7) + at' p (ip - 4)) / at' p 3
        else if i = ip - 1 then at' p (ip - 7) / at' p 3 else at' p i := by
      intro i
      rw [hq, hset _ _ _ _ (by rw [List.length_set]; omega), hset _ _ _ _ (by omega)]
    obtain ⟨p', e, l', h1, h2⟩ := ih fuel (ip + 9) q (by omega) (by omega)
      (by rw [hq]; simp only [List.length_set]; omega)
    refine ⟨p', ?_, by rw [l', hq]; simp, ?_, ?_⟩
    · simp only [plFinLoop]
      rw [if_pos (by omega), ha _ (by omega), ha _ (by omega), ha 3 (by omega)]
      exact e
    · intro k hk
      cases k with
      | zero =>
        simp only [Nat.zero_mul, Nat.add_zero]
        rw [h2 _ (by intro k _; omega), h2 _ (by intro k _; omega), hq', hq', if_neg (by omega),
          if_pos rfl, if_pos rfl]
        exact ⟨rfl, rfl⟩
      | succ k =>
        have := h1 k (by omega)
        rw [show ip + (k + 1) * 9 - 1 = ip + 9 + k * 9 - 1 by omega,
          show ip + (k + 1) * 9 = ip + 9 + k * 9 by omega, this.1, this.2, hq', hq', hq']
        simp only [show ¬ ip + 9 + k * 9 - 7 = ip by omega, show ¬ 3 = ip by omega,
          show ¬ ip + 9 + k * 9 - 4 = ip by omega, show ¬ ip + 9 + k * 9 - 7 = ip - 1 by omega,
          show ¬ 3 = ip - 1 by omega, show ¬ ip + 9 + k * 9 - 4 = ip - 1 by omega, if_false]
        exact ⟨trivial, trivial⟩
    · intro i hi
      have h0 := hi 0 (by omega)
      rw [h2 i (by intro k hk; have := hi (k + 1) (by omega); omega), hq', if_neg (by omega),
        if_neg (by omega)]

/-- C15: the element finalisation sets exactly the two effectivity slots of each projection. -/
theorem C15_effectivity [Field K] (m : Nat) (p : List K)
    (hp : p.length = plNoFields true 1 + m * plNoFields true 2) :
    (pPrj true)[7]? = some .eff1 ∧ (pPrj true)[8]? = some .eff2 ∧ (pPrj true)[1]? = some .arh ∧
    (pPrj true)[4]? = some .resr ∧ (pMain true)[3]? = some .aee ∧
    ∃ p', plFinalize true p = .ok p' ∧ p'.length = p.length ∧
      (∀ k, k < m →
        at' p' (6 + k * 9 + 7) = at' p (6 + k * 9 + 1) / at' p 3 ∧
        at' p' (6 + k * 9 + 8) = (at' p (6 + k * 9 + 1) + at' p (6 + k * 9 + 4)) / at' p 3) ∧
      ∀ i, (∀ k, k < m → i ≠ 6 + k * 9 + 7 ∧ i ≠ 6 + k * 9 + 8) → at' p' i = at' p i := by
  refine ⟨rfl, rfl, rfl, rfl, rfl, ?_⟩
  have hp' : p.length = 6 + m * 9 := hp
  obtain ⟨p', e, l, h1, h2⟩ := plFinLoop_ok m p.length 14 p (by omega) (by omega) (by omega)
  refine ⟨p', by simp only [plFinalize, if_true, e], l, ?_, ?_⟩
  · intro k hk
    have := h1 k hk
    rw [show 14 + k * 9 - 1 = 6 + k * 9 + 7 by omega, show 14 + k * 9 = 6 + k * 9 + 8 by omega,
      show 6 + k * 9 + 8 - 7 = 6 + k * 9 + 1 by omega,
      show 6 + k * 9 + 8 - 4 = 6 + k * 9 + 4 by omega] at this
    exact this
  · intro i hi
    exact h2 i (fun k hk => by have := hi k hk; omega)

/-! ### C16 -/

section extreme
variable [Field K] [LinearOrder K] [IsStrictOrderedRing K] {X : Type*}

/-- One result point: patch, location and the values of the components. -/
structure Sample (X K : Type*) where
  patch : Nat
  x : X
  s : List K

/-- All evaluations of a run. -/
def runMax (m : List (List (PtVal X K))) (h : List (Sample X K)) : List (List (PtVal X K)) :=
  h.foldl (fun m a => evalMax a.patch a.x a.s m) m

theorem updMax_get (patch : Nat) (x : X) (v : K) (l : List (PtVal X K)) (i : Nat) :
    (updMax patch x v l)[i]? =
      if i = (if l.length > 1 then patch else 0) then
        l[i]?.map (fun o => if |v| > |o.2| then (x, v) else o) else l[i]? := by
  unfold updMax
  set k := if l.length > 1 then patch else 0 with hk
  simp only []
  cases h : l[k]? with
  | none =>
    split_ifs with hi
    · subst hi; simp [h]
    · rfl
  | some old =>
    simp only []
    have hkl : k < l.length := (List.getElem?_eq_some_iff.1 h).1
    by_cases hi : i = k
    · subst hi
      split_ifs with hv
      · rw [List.getElem?_set_self hkl, h, Option.map_some, if_pos hv]
      · rw [h, Option.map_some, if_neg hv]
    · rw [if_neg hi]
      split_ifs with hv
      · rw [List.getElem?_set_ne (fun e => hi e.symm)]
      · rfl

theorem evalMax_get (a : Sample X K) (m : List (List (PtVal X K))) (j : Nat) :
    (evalMax a.patch a.x a.s m)[j]? =
      m[j]?.map fun l => match a.s[j]? with
        | none => l
        | some v => updMax a.patch a.x v l := by
  unfold evalMax
  rw [List.getElem?_mapIdx]
  rfl

/-- C16: after any sequence of evaluations on a freshly initialised table with one entry per patch
(`nP > 1`) or a single entry for all patches (`nP = 1`), the entry of component `j` and patch `i`
holds a value that was evaluated there at the recorded point (or the initial zero), and no
evaluated value of that patch exceeds it in magnitude. -/
theorem C16_extreme (x0 : X) (nf nP : Nat) (h : List (Sample X K)) (j i : Nat)
    (hj : j < nf) (hi : i < nP) :
    ∃ l e, (runMax (allocMax x0 nf nP) h)[j]? = some l ∧ l.length = nP ∧ l[i]? = some e ∧
      (e = (x0, 0) ∨ ∃ a ∈ h, (nP > 1 → a.patch = i) ∧ a.s[j]? = some e.2 ∧ a.x = e.1) ∧
      ∀ a ∈ h, (nP > 1 → a.patch = i) → ∀ v, a.s[j]? = some v → |v| ≤ |e.2| := by
  unfold runMax
  induction h using List.reverseRecOn with
  | nil =>
    refine ⟨List.replicate nP (x0, 0), (x0, 0), ?_, by simp, ?_, Or.inl rfl, by simp⟩
    · simp [allocMax, hj]
    · simp [hi]
  | append_singleton h a ih =>
    obtain ⟨l, e, hl, hn, he, hsrc, hmax⟩ := ih
    rw [List.foldl_append, List.foldl_cons, List.foldl_nil, evalMax_get, hl, Option.map_some]
    cases hs : a.s[j]? with
    | none =>
      refine ⟨l, e, rfl, hn, he, ?_, ?_⟩
      · rcases hsrc with h' | ⟨b, hb, r⟩
        · exact Or.inl h'
        · exact Or.inr ⟨b, by simp [hb], r⟩
      · intro b hb hp v hv
        rw [List.mem_append, List.mem_singleton] at hb
        rcases hb with hb | rfl
        · exact hmax b hb hp v hv
        · rw [hs] at hv; simp at hv
    | some v =>
      have hlen : (updMax a.patch a.x v l).length = nP := by
        unfold updMax
        simp only []
        split
        · exact hn
        · split_ifs <;> simp [hn]
      have hg := updMax_get a.patch a.x v l i
      rw [he, hn] at hg
      by_cases hp : i = (if nP > 1 then a.patch else 0)
      · rw [if_pos hp, Option.map_some] at hg
        have hpi : nP > 1 → a.patch = i := by
          intro h1; rw [hp, if_pos h1]
        refine ⟨_, _, rfl, hlen, hg, ?_, ?_⟩
        · split_ifs with hv
          · exact Or.inr ⟨a, by simp, hpi, hs, rfl⟩
          · rcases hsrc with h' | ⟨b, hb, r⟩
            · exact Or.inl h'
            · exact Or.inr ⟨b, by simp [hb], r⟩
        · intro b hb hpb w hw
          rw [List.mem_append, List.mem_singleton] at hb
          rcases hb with hb | rfl
          · have := hmax b hb hpb w hw
            split_ifs with hv
            · exact this.trans hv.le
            · exact this
          · rw [hs] at hw
            obtain rfl := Option.some.inj hw
            split_ifs with hv
            · exact le_refl _
            · exact not_lt.1 hv
      · rw [if_neg hp] at hg
        have hpi : ¬ (nP > 1 → a.patch = i) := by
          intro h1
          apply hp
          split_ifs with h2
          · exact (h1 h2).symm
          · omega
        refine ⟨_, e, rfl, hlen, hg, ?_, ?_⟩
        · rcases hsrc with h' | ⟨b, hb, r⟩
          · exact Or.inl h'
          · exact Or.inr ⟨b, by simp [hb], r⟩
        · intro b hb hpb w hw
          rw [List.mem_append, List.mem_singleton] at hb
          rcases hb with hb | rfl
          · exact hmax b hb hpb w hw
          · exact absurd hpb hpi

/-- C16: resetting an allocated table gives the freshly allocated one, so that the statement holds
for every load case after its reset. -/
theorem C16_reset (x0 : X) (nf nP : Nat) (h : List (Sample X K)) :
    resetMax x0 (runMax (allocMax x0 nf nP) h) = (allocMax x0 nf nP : List (List (PtVal X K))) := by
  have hshape : ∀ m : List (List (PtVal X K)), m.length = nf → (∀ l ∈ m, l.length = nP) →
      resetMax x0 m = allocMax x0 nf nP := by
    intro m hm hl
    unfold resetMax allocMax
    rw [List.eq_replicate_iff]
    refine ⟨by simpa using hm, ?_⟩
    intro b hb
    rw [List.mem_map] at hb
    obtain ⟨l, hl', rfl⟩ := hb
    rw [List.eq_replicate_iff]
    refine ⟨by simpa using hl l hl', ?_⟩
    intro c hc
    rw [List.mem_map] at hc
    obtain ⟨_, _, rfl⟩ := hc
    rfl
  have hupd : ∀ (p : Nat) (x : X) (v : K) (l : List (PtVal X K)),
      (updMax p x v l).length = l.length := by
    intro p x v l
    unfold updMax
    simp only []
    split
    · rfl
    · split_ifs <;> simp
  have hrun : (runMax (allocMax x0 nf nP) h : List (List (PtVal X K))).length = nf ∧
      ∀ l ∈ (runMax (allocMax x0 nf nP) h : List (List (PtVal X K))), l.length = nP := by
    unfold runMax
    induction h using List.reverseRecOn with
    | nil =>
      refine ⟨by simp [allocMax], ?_⟩
      intro l hl
      simp only [List.foldl_nil, allocMax, List.mem_replicate] at hl
      simp [hl.2]
    | append_singleton h a ih =>
      rw [List.foldl_append, List.foldl_cons, List.foldl_nil]
      refine ⟨by unfold evalMax; rw [List.length_mapIdx]; exact ih.1, ?_⟩
      intro l hl
      obtain ⟨j, hj⟩ := List.mem_iff_getElem?.1 hl
      rw [evalMax_get] at hj
      obtain ⟨l', h1, h2⟩ := Option.map_eq_some_iff.1 hj
      have := ih.2 l' (List.mem_iff_getElem?.2 ⟨j, h1⟩)
      subst h2
      split
      · exact this
      · rw [hupd]; exact this
  exact hshape _ hrun.1 hrun.2

example : runMax (X := ℕ) (allocMax 0 1 1) [⟨0, 5, [(1 : ℚ)]⟩, ⟨0, 6, [-3]⟩, ⟨0, 7, [2]⟩] =
    [[(6, -3)]] := by
  norm_num [runMax, allocMax, evalMax, updMax, abs_of_neg, abs_of_pos]

end extreme

end Verif.Norms
