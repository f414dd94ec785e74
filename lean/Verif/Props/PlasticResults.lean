/-
C120: the quantities reported for the points of the plastic material.
-/
import Verif.Model.PlasticResults
import Verif.Props.ReturnMapAxes
import Mathlib.Tactic.Linarith
import Mathlib.Tactic.FieldSimp
import Mathlib.Tactic.Ring
import Mathlib.Data.List.GetD

namespace Verif.Plastic

open Verif.Spec.Plasticity

variable {H T : Type*}

/-- The seven values reported from a response: plastic strain (zero if the iterations at the point
did not converge), mean stress, principal stresses, triaxiality and Lode parameter. -/
noncomputable def reported (e : Env H T) (r : Resp H) : List ℝ :=
  let p := e.prn r.sig
  let sm := r.sig.trace / (if r.sig.size > 3 then 3 else (r.sig.dim : ℝ))
  [if r.code > 0 then 0 else e.epp r.hc, sm, p 0, p 1, p 2,
    if e.vm r.sig > 0 then sm / e.vm r.sig else 0,
    if p 0 > p 2 then (2 * p 1 - p 0 - p 2) / (p 0 - p 2) else 0]

/-- History variables and deformation gradient of a point on its own, after its evaluations with the
gradients `l`, each starting from the outcome of the one before. Error returns keep the history. -/
def solo (e : Env H T) (l : List T) : H × T :=
  l.foldl (fun s F =>
    let r := e.law s.1 s.2 F 1 false
    (if r.code < 0 then s.1 else r.hc, F)) (e.h0, e.one)

/-- Calls of the material: a result evaluation, an integration loop, a new number of integration
points. -/
inductive Call (T : Type*)
  | results (l : List (Nat × T))
  | integrate (it : Nat) (first : Bool) (l : List (Nat × T))
  | resize (n : Nat)

/-- The material after a call. -/
noncomputable def call (e : Env H T) (m : Mat H T) : Call T → Mat H T
  | .results l => (m.results e l).2
  | .integrate it first l => (m.integrate e it first l).2
  | .resize n => m.resize n

/-- The gradients of a result evaluation. -/
def Call.grads : Call T → Option (List T)
  | .results l => some (l.map (·.2))
  | _ => none

/-- A call that is not a result evaluation. -/
def Call.isAnalysis : Call T → Bool
  | .results _ => false
  | _ => true

/-- The history variables and gradient the next evaluation after an update of the state starts from. -/
def eff (p : RPoint H T) : H × T := (if p.upd = .no then p.hp else p.hc, p.fp)

theorem getD_grow (l : List (RPoint H T)) (n k : Nat) (f : RPoint H T) :
    (l ++ List.replicate n f).getD k f = l.getD k f := by
  simp only [List.getD_eq_getElem?_getD, List.getElem?_append, List.getElem?_replicate]
  split
  · rfl
  · rename_i h
    rw [List.getElem?_eq_none (by omega)]
    split <;> rfl

theorem getD_put (l : List (RPoint H T)) (i k : Nat) (f p : RPoint H T) (hi : i < l.length) :
    (l.set i p).getD k f = if k = i then p else l.getD k f := by
  simp only [List.getD_eq_getElem?_getD, List.getElem?_set]
  by_cases h : i = k
  · subst h; simp [hi]
  · simp [h, Ne.symm h]

/-- The material after the evaluation of a result point. -/
theorem eval_result (e : Env H T) (i : Nat) (F : T) (m : Mat H T) (hm : m.integrating = false) :
    (m.evaluate e i F none).1 =
      decide (0 ≤ (e.law (m.res.getD m.iP2 e.fresh).hp (m.res.getD m.iP2 e.fresh).fp F 1 false).code) ∧
    (m.evaluate e i F none).2.integrating = false ∧
    (m.evaluate e i F none).2.iP2 = m.iP2 + 1 ∧ m.iP2 < (m.evaluate e i F none).2.res.length ∧
    ∀ k, (m.evaluate e i F none).2.res.getD k e.fresh =
      if k = m.iP2 then { (e.point F 1 false (m.res.getD m.iP2 e.fresh)).2 with fp := F }
      else m.res.getD k e.fresh := by
  have hl : m.iP2 < (m.res ++ List.replicate (m.iP2 + 1 - m.res.length) e.fresh).length := by
    simp; omega
  unfold Mat.evaluate
  rw [if_neg (by simp [hm])]
  refine ⟨?_, hm, rfl, ?_, fun k => ?_⟩
  · simp only [getD_grow]
    rfl
  · simpa using hl
  · simp only []
    rw [getD_put _ _ _ _ _ hl, getD_grow, getD_grow]

theorem point_values (e : Env H T) (i : Nat) (F : T) (m : Mat H T) (hm : m.integrating = false) :
    (m.resultPoint e i F).1 =
      (let r := e.law (m.res.getD m.iP2 e.fresh).hp (m.res.getD m.iP2 e.fresh).fp F 1 false
       if 0 ≤ r.code then some (reported e r) else none) := by
  obtain ⟨h1, h2, h3, h4, h5⟩ := eval_result e i F m hm
  have h5 := h5 m.iP2
  rw [if_pos rfl, List.getD_eq_getElem?_getD, List.getElem?_eq_getElem h4, Option.getD_some] at h5
  unfold Mat.resultPoint
  simp only [h1, decide_eq_true_eq]
  by_cases hc : 0 ≤ (e.law (m.res.getD m.iP2 e.fresh).hp (m.res.getD m.iP2 e.fresh).fp F 1 false).code
  · rw [if_pos hc, if_pos hc]
    have hcur : (m.evaluate e i F none).2.current i =
        some { (e.point F 1 false (m.res.getD m.iP2 e.fresh)).2 with fp := F } := by
      unfold Mat.current
      rw [if_neg (by simp [h2]), if_pos (by omega), h3, Nat.add_sub_cancel,
        List.getElem?_eq_getElem h4, h5]
    simp only [List.range, List.range.loop, List.map, Mat.internalVar, hcur]
    simp only [reported, Env.point, measures, triax, lode, if_neg (not_lt.2 hc)]
    congr 1
    refine List.cons_eq_cons.2 ⟨?_, ?_⟩
    · by_cases h0 : (e.law (m.res.getD m.iP2 e.fresh).hp (m.res.getD m.iP2 e.fresh).fp F 1 false).code > 0
      · simp [h0]
      · simp [h0]
    · simp only [gt_iff_lt, sub_pos]
  · rw [if_neg hc, if_neg hc]

theorem eff_point (e : Env H T) (F : T) (p : RPoint H T) (hp : p.upd = .no) :
    eff { (e.point F 1 false p).2 with fp := F } =
      (let r := e.law (eff p).1 (eff p).2 F 1 false
       (if r.code < 0 then (eff p).1 else r.hc, F)) := by
  simp only [eff, Env.point, hp, if_true]
  by_cases h : (e.law p.hp p.fp F 1 false).code < 0
  · simp [h]
  · by_cases h0 : (e.law p.hp p.fp F 1 false).code > 0
    · simp [h, h0]
    · simp [h, h0]

theorem eff_no (p : RPoint H T) (hp : p.upd = .no) : eff p = (p.hp, p.fp) := by
  simp [eff, hp]

/-- One loop over result points. -/
theorem loop_values (e : Env H T) (l : List (Nat × T)) : ∀ m : Mat H T, m.integrating = false →
    (∀ k, m.iP2 ≤ k → (m.res.getD k e.fresh).upd = .no) →
    (m.resultLoop e l).1 = l.mapIdx (fun k x =>
      let s := eff (m.res.getD (m.iP2 + k) e.fresh)
      let r := e.law s.1 s.2 x.2 1 false
      if 0 ≤ r.code then some (reported e r) else none) ∧
    ∀ k, eff ((m.resultLoop e l).2.res.getD k e.fresh) =
      if m.iP2 ≤ k then
        match l[k - m.iP2]? with
        | some x =>
          let s := eff (m.res.getD k e.fresh)
          let r := e.law s.1 s.2 x.2 1 false
          (if r.code < 0 then s.1 else r.hc, x.2)
        | none => eff (m.res.getD k e.fresh)
      else eff (m.res.getD k e.fresh) := by
  induction l with
  | nil =>
    intro m _ _
    refine ⟨rfl, fun k => ?_⟩
    simp [Mat.resultLoop]
  | cons x l ih =>
    intro m hm hno
    obtain ⟨i, F⟩ := x
    obtain ⟨h1, h2, h3, h4, h5⟩ := eval_result e i F m hm
    have hv := point_values e i F m hm
    have e2 : (m.resultPoint e i F).2 = (m.evaluate e i F none).2 := rfl
    obtain ⟨j1, j2⟩ := ih (m.resultPoint e i F).2 (by rw [e2]; exact h2) (by
      intro k hk
      rw [e2, h3] at hk
      rw [e2, h5, if_neg (by omega)]
      exact hno k (by omega))
    simp only [Mat.resultLoop]
    refine ⟨?_, fun k => ?_⟩
    · rw [List.mapIdx_cons]
      refine List.cons_eq_cons.2 ⟨?_, ?_⟩
      · rw [hv]
        simp only [Nat.add_zero]
        rw [eff_no _ (hno _ (le_refl _))]
      · rw [j1]
        refine List.mapIdx_eq_mapIdx_iff.2 fun k hk => ?_
        have hg : (m.evaluate e i F none).2.res.getD (m.iP2 + 1 + k) e.fresh =
            m.res.getD (m.iP2 + (k + 1)) e.fresh := by
          rw [h5, if_neg (by omega), show m.iP2 + 1 + k = m.iP2 + (k + 1) by omega]
        simp only [e2, h3, hg]
    · rw [j2 k, e2, h3, h5]
      by_cases hk : m.iP2 ≤ k
      · rw [if_pos hk]
        by_cases h0 : k = m.iP2
        · subst h0
          rw [if_neg (by omega), if_pos rfl, Nat.sub_self, List.getElem?_cons_zero,
            eff_point e F _ (hno _ (le_refl _))]
        · rw [if_pos (by omega), if_neg h0, show k - m.iP2 = (k - (m.iP2 + 1)) + 1 by omega,
            List.getElem?_cons_succ]
      · rw [if_neg (by omega), if_neg hk, if_neg (by omega)]

theorem eff_update (p : RPoint H T) : (updatePoint true p).upd = .no ∧ eff (updatePoint true p) = eff p := by
  unfold updatePoint updateState eff
  by_cases h : p.upd = .no
  · simp [h]
  · simp [h]

theorem getD_map_update (e : Env H T) (l : List (RPoint H T)) (k : Nat) :
    ((l.map (updatePoint true)).getD k e.fresh).upd = .no ∧
    eff ((l.map (updatePoint true)).getD k e.fresh) = eff (l.getD k e.fresh) := by
  simp only [List.getD_eq_getElem?_getD, List.getElem?_map]
  cases h : l[k]? with
  | none => exact ⟨rfl, rfl⟩
  | some p => exact eff_update p

/-- One result evaluation. -/
theorem results_values (e : Env H T) (l : List (Nat × T)) (m : Mat H T) :
    (m.results e l).1 = l.mapIdx (fun k x =>
      let s := eff (m.res.getD k e.fresh)
      let r := e.law s.1 s.2 x.2 1 false
      if 0 ≤ r.code then some (reported e r) else none) ∧
    ∀ k, eff ((m.results e l).2.res.getD k e.fresh) =
      match l[k]? with
      | some x =>
        let s := eff (m.res.getD k e.fresh)
        let r := e.law s.1 s.2 x.2 1 false
        (if r.code < 0 then s.1 else r.hc, x.2)
      | none => eff (m.res.getD k e.fresh) := by
  obtain ⟨h1, h2⟩ := loop_values e l m.initResultPoints rfl (fun k _ => (getD_map_update e m.res k).1)
  have hi : m.initResultPoints.iP2 = 0 := rfl
  have hr : ∀ k, eff (m.initResultPoints.res.getD k e.fresh) = eff (m.res.getD k e.fresh) :=
    fun k => (getD_map_update e m.res k).2
  refine ⟨?_, fun k => ?_⟩
  · unfold Mat.results
    rw [h1]
    refine List.mapIdx_eq_mapIdx_iff.2 fun k hk => ?_
    simp only [hi, Nat.zero_add, hr]
  · unfold Mat.results
    rw [h2 k, if_pos (by rw [hi]; omega)]
    simp only [hi, Nat.sub_zero, hr]

theorem eval_itg (e : Env H T) (i : Nat) (F : T) (q : Nat × Bool) (m : Mat H T)
    (hm : m.integrating = true) : (m.evaluate e i F (some q)).2.res = m.res ∧
      (m.evaluate e i F (some q)).2.integrating = true := by
  unfold Mat.evaluate
  rw [if_pos hm]
  simp only []
  split
  · exact ⟨rfl, hm⟩
  · split
    · exact ⟨rfl, hm⟩
    · exact ⟨rfl, hm⟩

theorem integrate_res (e : Env H T) (it : Nat) (first : Bool) (l : List (Nat × T)) (m : Mat H T) :
    (m.integrate e it first l).2.res = m.res := by
  have key : ∀ (l : List (Nat × T)) (s : List Bool × Mat H T), s.2.integrating = true →
      (l.foldl (fun s x =>
        let r := s.2.evaluate e x.1 x.2 (some (it, first))
        (s.1 ++ [r.1], r.2)) s).2.res = s.2.res := by
    intro l
    induction l with
    | nil => intro s _; rfl
    | cons x l ih =>
      intro s hs
      rw [List.foldl_cons, ih]
      · exact (eval_itg e x.1 x.2 (it, first) s.2 hs).1
      · exact (eval_itg e x.1 x.2 (it, first) s.2 hs).2
  exact key l _ rfl

/-- **C120** (reported values). After any sequence of result evaluations, integration loops and
changes of the number of integration points, a result evaluation reports for its `k`-th point the
values of the response of that point alone: to its gradient, from the state left by the gradients of
the `k`-th points of the earlier result evaluations, in their order. Nothing else has an influence. -/
theorem C120_values (e : Env H T) (m : Mat H T) (hm : m.res = []) (calls : List (Call T))
    (l : List (Nat × T)) :
    ((calls.foldl (call e) m).results e l).1 = l.mapIdx (fun k x =>
      let s := solo e ((calls.filterMap Call.grads).filterMap (·[k]?))
      let r := e.law s.1 s.2 x.2 1 false
      if 0 ≤ r.code then some (reported e r) else none) := by
  have key : ∀ (c : List (Call T)) (k : Nat), eff ((c.foldl (call e) m).res.getD k e.fresh) =
      solo e ((c.filterMap Call.grads).filterMap (·[k]?)) := by
    intro c
    induction c using List.reverseRecOn with
    | nil => intro k; simp [hm, solo, eff, Env.fresh, newPoint]
    | append_singleton c a ih =>
      intro k
      rw [List.foldl_append, List.foldl_cons, List.foldl_nil, List.filterMap_append,
        List.filterMap_append]
      cases a with
      | results l =>
        simp only [call, List.filterMap_cons, List.filterMap_nil, Call.grads]
        rw [(results_values e l _).2 k, List.getElem?_map]
        cases hk : l[k]? with
        | none => simpa using ih k
        | some x =>
          simp only [Option.map_some, solo, List.foldl_append, List.foldl_cons, List.foldl_nil]
          rw [ih k]
          rfl
      | integrate it first l =>
        simp only [call, List.filterMap_cons, List.filterMap_nil, Call.grads, List.append_nil]
        rw [integrate_res]
        exact ih k
      | resize n =>
        simp only [call, List.filterMap_cons, List.filterMap_nil, Call.grads, List.append_nil]
        exact ih k
  rw [(results_values e l _).1]
  refine List.mapIdx_eq_mapIdx_iff.2 fun k hk => ?_
  simp only [key]

theorem loop_itg (e : Env H T) (l : List (Nat × T)) : ∀ m : Mat H T, m.integrating = false →
    (m.resultLoop e l).2.itg = m.itg := by
  induction l with
  | nil => intro m _; rfl
  | cons x l ih =>
    intro m hm
    obtain ⟨-, h2, -⟩ := eval_result e x.1 x.2 m hm
    simp only [Mat.resultLoop]
    rw [ih _ (by exact h2)]
    show (m.evaluate e x.1 x.2 none).2.itg = m.itg
    unfold Mat.evaluate
    rw [if_neg (by simp [hm])]

/-- Materials with the same integration points give the same integration loops. -/
theorem integrate_same (e : Env H T) (it : Nat) (first : Bool) (l : List (Nat × T)) (m n : Mat H T)
    (h : m.itg = n.itg) : (m.integrate e it first l).1 = (n.integrate e it first l).1 ∧
      (m.integrate e it first l).2.itg = (n.integrate e it first l).2.itg ∧
      (m.integrate e it first l).2.integrating = true ∧
      (n.integrate e it first l).2.integrating = true := by
  have key : ∀ (l : List (Nat × T)) (s t : List Bool × Mat H T), s.1 = t.1 → s.2.itg = t.2.itg →
      s.2.integrating = true → t.2.integrating = true →
      (l.foldl (fun s x =>
        let r := s.2.evaluate e x.1 x.2 (some (it, first))
        (s.1 ++ [r.1], r.2)) s).1 = (l.foldl (fun s x =>
        let r := s.2.evaluate e x.1 x.2 (some (it, first))
        (s.1 ++ [r.1], r.2)) t).1 ∧
      (l.foldl (fun s x =>
        let r := s.2.evaluate e x.1 x.2 (some (it, first))
        (s.1 ++ [r.1], r.2)) s).2.itg = (l.foldl (fun s x =>
        let r := s.2.evaluate e x.1 x.2 (some (it, first))
        (s.1 ++ [r.1], r.2)) t).2.itg ∧
      (l.foldl (fun s x =>
        let r := s.2.evaluate e x.1 x.2 (some (it, first))
        (s.1 ++ [r.1], r.2)) s).2.integrating = true ∧
      (l.foldl (fun s x =>
        let r := s.2.evaluate e x.1 x.2 (some (it, first))
        (s.1 ++ [r.1], r.2)) t).2.integrating = true := by
    intro l
    induction l with
    | nil => intro s t h1 h2 h3 h4; exact ⟨h1, h2, h3, h4⟩
    | cons x l ih =>
      intro s t h1 h2 h3 h4
      rw [List.foldl_cons, List.foldl_cons]
      have hev : (s.2.evaluate e x.1 x.2 (some (it, first))).1 =
          (t.2.evaluate e x.1 x.2 (some (it, first))).1 ∧
          (s.2.evaluate e x.1 x.2 (some (it, first))).2.itg =
          (t.2.evaluate e x.1 x.2 (some (it, first))).2.itg := by
        unfold Mat.evaluate
        rw [if_pos h3, if_pos h4, h2]
        simp only [Option.getD_some]
        cases hq : t.2.itg[x.1]? with
        | none => exact ⟨rfl, h2⟩
        | some q =>
          simp only []
          cases q with
          | some p => exact ⟨rfl, rfl⟩
          | none =>
            by_cases h0 : it = 0 ∧ first = true
            · simp only [if_pos h0]
              exact ⟨trivial, trivial⟩
            · simp only [if_neg h0]
              exact ⟨trivial, h2⟩
      refine ih _ _ ?_ ?_ ?_ ?_
      · show s.1 ++ _ = t.1 ++ _
        rw [h1, hev.1]
      · exact hev.2
      · exact (eval_itg e x.1 x.2 (it, first) s.2 h3).2
      · exact (eval_itg e x.1 x.2 (it, first) t.2 h4).2
  refine key l _ _ rfl ?_ rfl rfl
  show m.itg.map _ = n.itg.map _
  rw [h]

/-- **C120** (no influence on the analysis). Whatever result evaluations are made in between, all
integration loops give the same return values, the same integration points are reported as diverged,
and the same values are reported for the integration points, as without any result evaluation. -/
theorem C120_analysis (e : Env H T) (m : Mat H T) (calls : List (Call T)) (it : Nat) (first : Bool)
    (l : List (Nat × T)) :
    let a := (calls.foldl (call e) m).integrate e it first l
    let b := ((calls.filter Call.isAnalysis).foldl (call e) m).integrate e it first l
    a.1 = b.1 ∧ (∀ i, a.2.diverged i = b.2.diverged i) ∧
      ∀ idx i, a.2.internalVar e idx i = b.2.internalVar e idx i := by
  have key : ∀ (c : List (Call T)) (m n : Mat H T), m.itg = n.itg →
      (c.foldl (call e) m).itg = ((c.filter Call.isAnalysis).foldl (call e) n).itg := by
    intro c
    induction c with
    | nil => intro m n h; exact h
    | cons a c ih =>
      intro m n h
      cases a with
      | results l =>
        rw [List.foldl_cons, List.filter_cons_of_neg (by simp [Call.isAnalysis])]
        refine ih _ _ ?_
        show (m.initResultPoints.resultLoop e l).2.itg = _
        rw [loop_itg e l _ rfl]
        exact h
      | integrate it first l =>
        rw [List.filter_cons_of_pos (by simp [Call.isAnalysis]), List.foldl_cons, List.foldl_cons]
        exact ih _ _ (integrate_same e it first l m n h).2.1
      | resize n' =>
        rw [List.filter_cons_of_pos (by simp [Call.isAnalysis]), List.foldl_cons, List.foldl_cons]
        refine ih _ _ ?_
        show (m.itg ++ List.replicate (n' - m.itg.length) none).take n' =
          (n.itg ++ List.replicate (n' - n.itg.length) none).take n'
        rw [h]
  intro a b
  obtain ⟨h1, h2, h3, h4⟩ := integrate_same e it first l _ _ (key calls m m rfl)
  refine ⟨h1, fun i => ?_, fun idx i => ?_⟩
  · show Mat.diverged i ((calls.foldl (call e) m).integrate e it first l).2 =
      Mat.diverged i (((calls.filter Call.isAnalysis).foldl (call e) m).integrate e it first l).2
    simp only [Mat.diverged, h2]
  · show Mat.internalVar e idx i ((calls.foldl (call e) m).integrate e it first l).2 =
      Mat.internalVar e idx i (((calls.filter Call.isAnalysis).foldl (call e) m).integrate e it first l).2
    simp only [Mat.internalVar, Mat.current, h2, h3, h4, if_true]

/-- **C120** (integration points). When integrating, the values reported for an integration point are
those of the response in its last evaluation, if that is not an error return. Points that do not exist
have zero values. -/
theorem C120_integration (e : Env H T) (m : Mat H T) (hm : m.integrating = true) (i : Nat) (p : RPoint H T)
    (hp : m.itg[i]? = some (some p)) (F : T) (it : Nat) (first : Bool) (r : Resp H)
    (hr : r = e.law p.hp (if it = 0 ∧ first = false then F else p.fp) F it first) (hc : 0 ≤ r.code) :
    (m.evaluate e i F (some (it, first))).1 = decide (r.code = 0) ∧
    (List.range 7).map (fun k => (m.evaluate e i F (some (it, first))).2.internalVar e (k + 1) i) =
      reported e r ∧
    (m.evaluate e i F (some (it, first))).2.diverged (i + 1) = decide (0 < r.code) ∧
    ∀ j, j ≠ i → (m.evaluate e i F (some (it, first))).2.itg[j]? = m.itg[j]? := by
  have hi : i < m.itg.length := by
    by_contra h
    rw [List.getElem?_eq_none (by omega)] at hp
    cases hp
  obtain ⟨p', hp', hfp, hhp⟩ : ∃ p' : RPoint H T, p' = (if it = 0 ∧ first = false then { p with fp := F } else p)
      ∧ p'.fp = (if it = 0 ∧ first = false then F else p.fp) ∧ p'.hp = p.hp := by
    refine ⟨_, rfl, ?_, ?_⟩
    · split <;> rfl
    · split <;> rfl
  have hev : m.evaluate e i F (some (it, first)) =
      ((e.point F it first p').1 == 0, { m with itg := m.itg.set i (some (e.point F it first p').2) }) := by
    unfold Mat.evaluate
    rw [if_pos hm]
    simp only [Option.getD_some, hp]
    rw [← hp']
  have hpt : e.point F it first p' = (r.code, { p' with
      hc := r.hc
      upd := if r.code < 0 then p'.upd else if r.code > 0 then .d else .c
      ms := measures e.vm e.prn r.sig }) := by
    unfold Env.point
    rw [hhp, hfp, ← hr]
  rw [hev, hpt, if_neg (not_lt.2 hc)]
  refine ⟨?_, ?_, ?_, ?_⟩
  · simp only []
    by_cases h : r.code = 0 <;> simp [h]
  · simp only [List.range, List.range.loop, List.map, Mat.internalVar, Mat.current, hm, if_true,
      List.getElem?_set_self hi, Option.join_some]
    simp only [reported, measures, triax, lode]
    refine List.cons_eq_cons.2 ⟨?_, ?_⟩
    · by_cases h0 : r.code > 0 <;> simp [h0]
    · simp only [gt_iff_lt, sub_pos]
  · unfold Mat.diverged
    simp only [List.length_set]
    rw [if_pos (by omega), Nat.add_sub_cancel, List.getD_eq_getElem?_getD, List.getElem?_set_self hi]
    by_cases h0 : r.code > 0
    · simp [h0]
    · simp only [Option.getD_some, h0, if_false]
      have : ¬ 0 < r.code := h0
      simp [this]
  · intro j hj
    simp only []
    rw [List.getElem?_set_ne (Ne.symm hj)]

/-- **C120** (divergence). A query without an index, or with an index beyond the last point, is
answered for all points; otherwise for the point with that one-based index. -/
theorem C120_diverged (m : Mat H T) :
    (m.diverged 0 = true ↔ ∃ p, some p ∈ m.itg ∧ p.upd = .d) ∧
    (∀ i, m.itg.length < i → m.diverged i = m.diverged 0) ∧
    (∀ i, i < m.itg.length → (m.diverged (i + 1) = true ↔ ∃ p, m.itg[i]? = some (some p) ∧ p.upd = .d)) := by
  refine ⟨?_, ?_, ?_⟩
  · unfold Mat.diverged
    rw [if_neg (by omega), List.any_eq_true]
    constructor
    · rintro ⟨q, hq, h⟩
      cases q with
      | none => cases h
      | some p => exact ⟨p, hq, by simpa using h⟩
    · rintro ⟨p, hp, h⟩
      exact ⟨some p, hp, by simpa using h⟩
  · intro i hi
    unfold Mat.diverged
    rw [if_neg (by omega), if_neg (by omega)]
  · intro i hi
    unfold Mat.diverged
    rw [if_pos (by omega), Nat.add_sub_cancel, List.getD_eq_getElem?_getD]
    rw [List.getElem?_eq_getElem hi, Option.getD_some]
    cases hq : m.itg[i] with
    | none => simp
    | some p => simp

/-- **C120** (missing points). Without a point there are no values: an index without integration
point, and a request in a result evaluation before its first point. -/
theorem C120_missing (e : Env H T) (m : Mat H T) (idx i : Nat) :
    (m.integrating = true → (m.itg[i]? = none ∨ m.itg[i]? = some none) → m.internalVar e idx i = 0) ∧
    m.initResultPoints.internalVar e idx i = 0 := by
  constructor
  · intro h1 h2
    unfold Mat.internalVar Mat.current
    rw [if_pos h1]
    rcases h2 with h | h <;> simp [h]
  · simp [Mat.internalVar, Mat.current, Mat.initResultPoints]

/-- **C120** (creation of integration points). A missing integration point is made in the first
iteration of the first step, as a virgin point; at any other time, and for indices out of range, the
evaluation fails without a change. -/
theorem C120_created (e : Env H T) (m : Mat H T) (hm : m.integrating = true) (i : Nat) (F : T) (it : Nat)
    (first : Bool) :
    (m.itg[i]? = some none → it = 0 → first = true →
      (m.evaluate e i F (some (it, first))).1 = decide ((e.law e.h0 e.one F 0 true).code = 0)) ∧
    (m.itg[i]? = some none → ¬ (it = 0 ∧ first = true) → m.evaluate e i F (some (it, first)) = (false, m)) ∧
    (m.itg[i]? = none → m.evaluate e i F (some (it, first)) = (false, m)) := by
  refine ⟨fun h h1 h2 => ?_, fun h h1 => ?_, fun h => ?_⟩
  · subst h1 h2
    unfold Mat.evaluate
    rw [if_pos hm]
    simp only [Option.getD_some, h, and_self, if_true]
    have e1 : (e.law e.h0 e.one F 0 true).code = (e.point F 0 true e.fresh).1 := rfl
    rw [e1]
    by_cases h0 : (e.point F 0 true e.fresh).1 = 0 <;> simp [h0]
  · unfold Mat.evaluate
    rw [if_pos hm]
    simp only [Option.getD_some, h, if_neg h1]
  · unfold Mat.evaluate
    rw [if_pos hm]
    simp only [h]

/-- A new number of integration points keeps the points below the number and leaves the new ones
missing; nothing else changes. -/
theorem C120_resize (m : Mat H T) (n i : Nat) :
    (m.resize n).itg.length = n ∧ (i < n → (m.resize n).itg[i]? = some (m.itg[i]?).join) ∧
      (m.resize n).integrating = m.integrating ∧ (m.resize n).firstStep = m.firstStep ∧
      (m.resize n).iP2 = m.iP2 ∧ (m.resize n).res = m.res := by
  refine ⟨?_, fun hi => ?_, rfl, rfl, rfl, rfl⟩
  · simp only [Mat.resize, List.length_take, List.length_append, List.length_replicate]
    omega
  · simp only [Mat.resize, List.getElem?_take, if_pos hi, List.getElem?_append]
    by_cases h : i < m.itg.length
    · rw [if_pos h, List.getElem?_eq_getElem h]
      rfl
    · rw [if_neg h, List.getElem?_replicate, if_pos (by omega), List.getElem?_eq_none (by omega)]
      rfl

/-- What the start of an integration loop does to a point: its outcome since the last start becomes
the history to start from only in the first iteration of a step after the first one. -/
theorem C120_start (m : Mat H T) (it : Nat) (first : Bool) (i : Nat) (p : RPoint H T)
    (hp : m.itg[i]? = some (some p)) :
    (m.initIntegration it first).integrating = true ∧
      (m.initIntegration it first).itg[i]? = some (some { p with
        hp := if it = 0 ∧ first = false ∧ p.upd ≠ .no then p.hc else p.hp
        upd := .no }) := by
  refine ⟨rfl, ?_⟩
  simp only [Mat.initIntegration, List.getElem?_map, hp, Option.map_some, updatePoint, updateState]
  obtain ⟨⟨hc, hp', u, fp⟩, ms⟩ := p
  cases u <;> cases first <;> by_cases h : it = 0 <;> simp [h]

/-- An evaluation at an integration point without time parameters is one in a corrector iteration,
with the first-step flag of the start of the loop. -/
theorem C120_noparam (e : Env H T) (m : Mat H T) (it : Nat) (first : Bool) (i : Nat) (F : T) :
    (m.initIntegration it first).evaluate e i F none =
      (m.initIntegration it first).evaluate e i F (some (1, first)) := by
  rfl

/-- **C120** (mean stress). With three dimensions, or two with the out-of-plane stress, the mean value
of the three normal stresses is reported. -/
theorem C120_mean (vm : NeoHooke.Sym ℝ → ℝ) (prn : NeoHooke.Sym ℝ → Fin 3 → ℝ) (v : Nat → ℝ) :
    (measures vm prn ⟨3, 6, v⟩).sh = (v 0 + v 1 + v 2) / 3 ∧
    (measures vm prn ⟨2, 4, v⟩).sh = (v 0 + v 1 + v 2) / 3 := by
  constructor
  · simp [measures, NeoHooke.Sym.trace, NeoHooke.Sym.nrm, Finset.sum_range_succ]
  · simp [measures, NeoHooke.Sym.trace, NeoHooke.Sym.nrm, Finset.sum_range_succ]

/-- **C120** (Lode parameter and triaxiality). For principal stresses in descending order the Lode
parameter is between -1 and 1; it is 1 when the two largest, and -1 when the two smallest agree (and
not all three), and 0 when the middle one is the mean of the others. It does not change when a
pressure is added or the stress is scaled. The triaxiality does not change when the stress is scaled. -/
theorem C120_lode (m : Meas) (h1 : m.prin 1 ≤ m.prin 0) (h2 : m.prin 2 ≤ m.prin 1) :
    -1 ≤ lode m ∧ lode m ≤ 1 ∧ (m.prin 2 < m.prin 0 → (lode m = 1 ↔ m.prin 0 = m.prin 1)) ∧
    (m.prin 2 < m.prin 0 → (lode m = -1 ↔ m.prin 2 = m.prin 1)) ∧
    (m.prin 1 = (m.prin 0 + m.prin 2) / 2 → lode m = 0) ∧
    ∀ a b, 0 < a → lode ⟨a * m.sh + b, a * m.se, fun i => a * m.prin i + b⟩ = lode m ∧
      triax ⟨a * m.sh, a * m.se, fun i => a * m.prin i⟩ = triax m := by
  have hl : m.prin 2 < m.prin 0 → lode m = (2 * m.prin 1 - m.prin 0 - m.prin 2) / (m.prin 0 - m.prin 2) := by
    intro h
    unfold lode
    rw [if_pos (by simpa using h)]
  have h0 : ¬ m.prin 2 < m.prin 0 → lode m = 0 := by
    intro h
    unfold lode
    rw [if_neg (by simpa using h)]
  refine ⟨?_, ?_, fun h => ?_, fun h => ?_, fun h => ?_, fun a b ha => ⟨?_, ?_⟩⟩
  · by_cases h : m.prin 2 < m.prin 0
    · rw [hl h, le_div_iff₀ (by linarith)]
      linarith
    · rw [h0 h]; norm_num
  · by_cases h : m.prin 2 < m.prin 0
    · rw [hl h, div_le_iff₀ (by linarith)]
      linarith
    · rw [h0 h]; norm_num
  · rw [hl h, div_eq_iff (by linarith)]
    constructor <;> intro h <;> linarith
  · rw [hl h, div_eq_iff (by linarith)]
    constructor <;> intro h <;> linarith
  · by_cases h' : m.prin 2 < m.prin 0
    · rw [hl h', h, div_eq_iff (by linarith)]
      ring
    · exact h0 h'
  · by_cases h : m.prin 2 < m.prin 0
    · rw [hl h]
      unfold lode
      simp only []
      rw [if_pos (by nlinarith), div_eq_div_iff (by nlinarith) (by linarith)]
      ring
    · rw [h0 h]
      unfold lode
      simp only []
      rw [if_neg (by nlinarith)]
  · unfold triax
    simp only []
    by_cases h : m.se > 0
    · rw [if_pos h, if_pos (by positivity), mul_div_mul_left _ _ ha.ne']
    · rw [if_neg h, if_neg (by nlinarith)]

/-! ### Different sets of result points -/

/-- The evaluation of Model/ReturnMap.lean as a law with stresses in three dimensions. -/
noncomputable def lawOf (p : List ℝ) (prin : M3 → Option (V3 × M3)) : SLaw Hist M3 :=
  fun h Fp Fc it first =>
    match evaluate p none prin 6 h Fp Fc it first with
    | .ok o => ⟨o.hist, o.ierr, ⟨3, 6, fun i => o.sig.getD i 0⟩⟩
    | _ => ⟨h, -1, ⟨3, 6, fun _ => 0⟩⟩

/-- The plastic material with a given routine for principal values. -/
noncomputable def envOf (p : List ℝ) (prin : M3 → Option (V3 × M3)) (vm : NeoHooke.Sym ℝ → ℝ)
    (prn : NeoHooke.Sym ℝ → Fin 3 → ℝ) : Env Hist M3 :=
  ⟨lawOf p prin, hist0, ⟨fun _ => 0, 0, fun _ => 0⟩, 1, Hist.epp, vm, prn⟩

/-- A material without any points. -/
def noPoints (H T : Type*) : Mat H T := ⟨false, true, 0, [], []⟩

theorem evaluate_first (p : List ℝ) (hp : p[12]? = some 1) (hfn : Option ((ℝ → ℝ) × (ℝ → ℝ)))
    (prin : M3 → Option (V3 × M3)) (ns : Nat) (h : Hist) (Fp Fc : M3) (it : Nat) :
    evaluate p hfn prin ns h Fp Fc it false = evaluate p hfn prin ns h Fp Fc it true := by
  unfold evaluate
  cases hm : fetch p with
  | fail => rfl
  | ub => rfl
  | ok m =>
    have hi : m.istart = toInt 1 := by
      unfold fetch at hm
      split at hm
      · rename_i h0
        injection hm with hm
        rw [← hm]
        simp_all
      · cases hm
    have h1 : toInt 1 = 1 := by have := toInt_nat 1; simpa using this
    simp only [Res.bind, hi, h1, flowAllowed]
    simp

/-- **C120** violated for different sets of result points: they share the same history. When the
results at one point of a body are evaluated in a plastically extended state, and then those at a point
of another set (another grid, or another list of points) where the body is undeformed, a plastic strain
of 20 percent is reported for the latter. Evaluated first, it has none. -/
theorem C120_sets_violated (prin : M3 → Option (V3 × M3)) (hprin : Principal prin)
    (vm : NeoHooke.Sym ℝ → ℝ) (prn : NeoHooke.Sym ℝ → Fin 3 → ℝ) :
    ∃ (e : Env Hist M3) (F1 : M3) (v w : List ℝ), e = envOf exMat prin vm prn ∧
      (((noPoints Hist M3).results e [(0, F1)]).2.results e [(0, 1)]).1 = [some v] ∧
      v[0]? = some (1 / 5) ∧
      ((noPoints Hist M3).results e [(0, 1)]).1 = [some w] ∧ w[0]? = some 0 := by
  obtain ⟨F1, hF1⟩ : ∃ F1, F1 = Matrix.diagonal ![Real.exp 4, Real.exp (-2), Real.exp (-2)] :=
    ⟨_, rfl⟩
  obtain ⟨o1, l1, N1, g1, g2, g3, g4, g5, g6⟩ := ex_step1 prin hprin F1 hF1
  have h6 := sqrt6_pos
  have hs3 : s23 * 3 = Real.sqrt 6 := s23_three
  have hty : toInt 1 = 1 := by have := toInt_nat 1; simpa using this
  have hone : (1 : M3) = Matrix.diagonal ![Real.exp 0, Real.exp 0, Real.exp 0] := by
    rw [← Matrix.diagonal_one]
    congr 1
    funext i
    fin_cases i <;> simp
  have hbe : (1 : M3) * F1⁻¹ * sym6 o1.hist.ecg * ((1 : M3) * F1⁻¹).transpose =
      Matrix.diagonal ![Real.exp (-(2 / 5)), Real.exp (1 / 5), Real.exp (1 / 5)] := by
    rw [Matrix.one_mul, hF1, diag_inv, g6, diag_exp_mul, Matrix.diagonal_transpose, diag_exp_mul]
    norm_num
  obtain ⟨l2, N2, hp, hN, ht, k1, k2⟩ := hprin (Matrix.diagonal ![Real.exp (-(2 / 5)),
    Real.exp (1 / 5), Real.exp (1 / 5)]) (Matrix.diagonal_transpose _)
  have hl : l2 = ![Real.exp (1 / 5), Real.exp (1 / 5), Real.exp (-(2 / 5))] := by
    refine principal_unique l2 _ N2 cyc hN cyc_orth (by rw [ht, tensor_cyc]) k1 k2 ?_ ?_
    · exact le_refl _
    · exact Real.exp_le_exp.2 (by norm_num)
  subst hl
  have heps : (fun i => Real.log (![Real.exp (1 / 5), Real.exp (1 / 5), Real.exp (-(2 / 5))] i) / 2) =
      ![1 / 10, 1 / 10, -(1 / 5)] := by
    funext i
    fin_cases i <;> simp [Real.log_exp] <;> norm_num
  have hhe : hencky 1 (1 / 2) ![1 / 10, 1 / 10, -(1 / 5)] = ![1 / 10, 1 / 10, -(1 / 5)] := by
    funext i
    fin_cases i <;> simp [hencky, dev, mean] <;> norm_num
  have hxi : (![-(17 / 10), 1, 7 / 10] : V3) = fun j => hencky 1 (1 / 2) (fun i =>
      Real.log (![Real.exp (1 / 5), Real.exp (1 / 5), Real.exp (-(2 / 5))] i) / 2) j -
      2 / 3 * (27 / 2) * o1.hist.epl j := by
    rw [heps, hhe, g4]
    funext i
    fin_cases i <;> simp <;> norm_num
  have hdx : dev (![-(17 / 10), 1, 7 / 10] : V3) = ![-(17 / 10), 1, 7 / 10] := by
    funext i
    fin_cases i <;> simp [dev, mean] <;> norm_num
  have hln : len (![-(17 / 10), 1, 7 / 10] : V3) ^ 2 = 219 / 50 := by
    unfold len
    rw [Real.sq_sqrt (by positivity)]
    simp
    norm_num
  have hy : yfunc exMat none false o1.hist.epp
      ((![-(17 / 10), 1, 7 / 10] : V3) 0 + (![-(17 / 10), 1, 7 / 10] : V3) 1 +
        (![-(17 / 10), 1, 7 / 10] : V3) 2)
      (len (dev ![-(17 / 10), 1, 7 / 10]) ^ 2 / 2)
      ((dev ![-(17 / 10), 1, 7 / 10] 0 ^ 3 + dev ![-(17 / 10), 1, 7 / 10] 1 ^ 3 +
        dev ![-(17 / 10), 1, 7 / 10] 2 ^ 3) / 3) =
      .ok { Ypr := 2 / 3 * 0 - s23 * 0 * ((s23 * 3 - s23 * 3) * Real.exp (-0 * o1.hist.epp))
            YY := s23 * 3 + (s23 * 3 - s23 * 3) * Real.exp (-0 * o1.hist.epp) + s23 * 0 * o1.hist.epp
            yield := Real.sqrt (2 * (219 / 50 / 2)) - (s23 * 3 + (s23 * 3 - s23 * 3) *
              Real.exp (-0 * o1.hist.epp) + s23 * 0 * o1.hist.epp) } := by
    rw [hdx, hln]
    simp only [exMat, yfunc, List.getElem?_cons_succ, List.getElem?_cons_zero, hty, if_true, misesD,
      Bool.false_eq_true, false_and, if_false]
    rw [if_pos (by norm_num)]
  obtain ⟨o2, j1, -, -, j4, -, j6⟩ := C118_elastic 0 0 0 0 1 (1 / 2) 0 (27 / 2) 1 3 3 0 1 [] none prin 6
    o1.hist F1 1 1 true ⟨by rw [hF1]; exact ne_zero_exp _ _ _, by simp⟩
    _ N2 (by rw [hbe]; exact hp) (by
      intro i
      fin_cases i
      · exact Real.exp_pos _
      · exact Real.exp_pos _
      · exact Real.exp_pos _) _ hxi _ hy (Or.inl ⟨by norm_num, by
      show Real.sqrt (2 * (219 / 50 / 2)) - (s23 * 3 + (s23 * 3 - s23 * 3) *
        Real.exp (-0 * o1.hist.epp) + s23 * 0 * o1.hist.epp) ≤ 0
      have : Real.sqrt (2 * (219 / 50 / 2)) ≤ Real.sqrt 6 := Real.sqrt_le_sqrt (by norm_num)
      rw [sub_self, zero_mul, add_zero, mul_zero, zero_mul, add_zero, hs3]
      linarith⟩)
  -- the undeformed virgin point
  obtain ⟨l3, N3, hp3, hN3, ht3, k13, k23⟩ := hprin 1 (by simp)
  have hl3 : l3 = ![1, 1, 1] := by
    refine principal_unique l3 _ N3 1 hN3 (by simp) ?_ k13 k23 (le_refl _) (le_refl _)
    rw [ht3, tensor_one, ← Matrix.diagonal_one]
    congr 1
    funext i
    fin_cases i <;> rfl
  subst hl3
  have hz : (![0, 0, 0] : V3) = hencky 1 (1 / 2) fun i => Real.log ((![1, 1, 1] : V3) i) / 2 := by
    funext i
    fin_cases i <;> simp [hencky, dev, mean]
  have hd0 : dev (![0, 0, 0] : V3) = ![0, 0, 0] := by
    funext i
    fin_cases i <;> simp [dev, mean]
  have hl0 : len (![0, 0, 0] : V3) = 0 := by simp [len]
  have hy0 : yfunc exMat none false 0
      ((![0, 0, 0] : V3) 0 + (![0, 0, 0] : V3) 1 + (![0, 0, 0] : V3) 2)
      (len (dev ![0, 0, 0]) ^ 2 / 2)
      ((dev ![0, 0, 0] 0 ^ 3 + dev ![0, 0, 0] 1 ^ 3 + dev ![0, 0, 0] 2 ^ 3) / 3) =
      .ok { Ypr := 2 / 3 * 0 - s23 * 0 * ((s23 * 3 - s23 * 3) * Real.exp (-0 * 0))
            YY := s23 * 3 + (s23 * 3 - s23 * 3) * Real.exp (-0 * 0) + s23 * 0 * 0
            yield := 0 - (s23 * 3 + (s23 * 3 - s23 * 3) * Real.exp (-0 * 0) + s23 * 0 * 0) } := by
    rw [hd0, hl0]
    simp only [exMat, yfunc, List.getElem?_cons_succ, List.getElem?_cons_zero, hty, if_true, misesD,
      Bool.false_eq_true, false_and, if_false]
    rw [if_neg (by norm_num)]
  have e1 : (1 : M3) * (1 : M3)⁻¹ * sym6 hist0.ecg * ((1 : M3) * (1 : M3)⁻¹).transpose = 1 := by
    rw [inv_one, Matrix.mul_one, sym6_virgin]
    simp
  obtain ⟨o3, i1, -, -, i4, -, i6⟩ := C118_elastic 0 0 0 0 1 (1 / 2) 0 (27 / 2) 1 3 3 0 1 [] none prin 6
    hist0 1 1 1 true ⟨by simp, by simp⟩ _ N3 (by rw [e1]; exact hp3) (by
      intro i
      fin_cases i <;> simp) ![0, 0, 0] (by rw [hz]; funext j; simp [hist0]) _ hy0 (Or.inl ⟨by norm_num, by
      show 0 - (s23 * 3 + (s23 * 3 - s23 * 3) * Real.exp (-0 * 0) + s23 * 0 * 0) ≤ 0
      rw [sub_self, zero_mul, add_zero, mul_zero, add_zero, hs3]
      linarith⟩)
  have hex : exMat[12]? = some 1 := rfl
  have L1 : lawOf exMat prin hist0 1 F1 1 false =
      ⟨o1.hist, o1.ierr, ⟨3, 6, fun i => o1.sig.getD i 0⟩⟩ := by
    unfold lawOf
    rw [evaluate_first _ hex, g1]
  have L2 : lawOf exMat prin o1.hist F1 1 1 false =
      ⟨o2.hist, o2.ierr, ⟨3, 6, fun i => o2.sig.getD i 0⟩⟩ := by
    unfold lawOf
    rw [evaluate_first _ hex, show exMat = [0, 0, 0, 0, 1, 1 / 2, 0, 27 / 2, 1, 3, 3, 0, 1] from rfl, j1]
  have L3 : lawOf exMat prin hist0 1 1 1 false =
      ⟨o3.hist, o3.ierr, ⟨3, 6, fun i => o3.sig.getD i 0⟩⟩ := by
    unfold lawOf
    rw [evaluate_first _ hex, show exMat = [0, 0, 0, 0, 1, 1 / 2, 0, 27 / 2, 1, 3, 3, 0, 1] from rfl, i1]
  refine ⟨_, F1, reported (envOf exMat prin vm prn) ⟨o2.hist, o2.ierr, ⟨3, 6, fun i => o2.sig.getD i 0⟩⟩,
    reported (envOf exMat prin vm prn) ⟨o3.hist, o3.ierr, ⟨3, 6, fun i => o3.sig.getD i 0⟩⟩, rfl, ?_, ?_,
    ?_, ?_⟩
  · have := C120_values (envOf exMat prin vm prn) (noPoints Hist M3) rfl [.results [(0, F1)]] [(0, 1)]
    rw [List.foldl_cons, List.foldl_nil] at this
    refine Eq.trans this ?_
    have hs : solo (envOf exMat prin vm prn) ((([Call.results [(0, F1)]] : List (Call M3)).filterMap
        Call.grads).filterMap (fun l => l[0]?)) = (o1.hist, F1) := by
      show ((if (lawOf exMat prin hist0 1 F1 1 false).code < 0 then hist0
        else (lawOf exMat prin hist0 1 F1 1 false).hc), F1) = _
      rw [L1, if_neg (by simp)]
    rw [List.mapIdx_cons, List.mapIdx_nil]
    simp only [hs]
    have L2' : (envOf exMat prin vm prn).law o1.hist F1 1 1 false = _ := L2
    rw [L2', if_pos (by simp)]
  · simp only [reported, List.getElem?_cons_zero, j6, envOf, j4, g5]
    simp
  · have := C120_values (envOf exMat prin vm prn) (noPoints Hist M3) rfl [] [(0, 1)]
    rw [List.foldl_nil] at this
    refine Eq.trans this ?_
    have hs : solo (envOf exMat prin vm prn) ((([] : List (Call M3)).filterMap
        Call.grads).filterMap (fun l => l[0]?)) = (hist0, 1) := rfl
    rw [List.mapIdx_cons, List.mapIdx_nil]
    simp only [hs]
    have L3' : (envOf exMat prin vm prn).law hist0 1 1 1 false = _ := L3
    rw [L3', if_pos (by simp)]
  · simp only [reported, List.getElem?_cons_zero, i6, envOf, i4]
    simp [hist0]

/-! ### Concrete cases meeting the hypotheses -/

/-- A law for the examples: the history counts the evaluations, positive codes for negative
gradients. -/
noncomputable def exLaw : SLaw Nat ℝ := fun h _ F _ _ =>
  ⟨h + 1, if F < 0 then 1 else 0, ⟨3, 6, fun _ => F⟩⟩

noncomputable def exEnv : Env Nat ℝ := ⟨exLaw, 0, 0, 1, fun n => n, fun _ => 1, fun _ => ![3, 2, 1]⟩

/-- Two loops over two points and one over three: the third point is virgin in the last. -/
example : (solo exEnv (([[5, 6], [7, 8]] : List (List ℝ)).filterMap (fun l => l[0]?))).1 = 2 ∧
    (solo exEnv (([[5, 6], [7, 8]] : List (List ℝ)).filterMap (fun l => l[2]?))).1 = 0 := by
  constructor
  · norm_num [solo, exEnv, exLaw, List.filterMap_cons]
  · rfl

/-- An integration point that diverges. -/
example : ∃ (m : Mat Nat ℝ) (p : RPoint Nat ℝ), m.integrating = true ∧ m.itg[1]? = some (some p) ∧
    m.diverged 2 = true ∧ m.diverged 1 = false ∧ m.diverged 0 = true ∧ 0 ≤ (exLaw 0 1 (-1) 1 false).code :=
  ⟨⟨true, false, 0, [none, some ⟨⟨1, 0, .d, -1⟩, ⟨0, 0, fun _ => 0⟩⟩], []⟩,
    ⟨⟨1, 0, .d, -1⟩, ⟨0, 0, fun _ => 0⟩⟩, rfl, rfl, by simp [Mat.diverged], by simp [Mat.diverged],
    by simp [Mat.diverged], by norm_num [exLaw]⟩

example : (![3, 2, 1] : Fin 3 → ℝ) 1 ≤ (![3, 2, 1] : Fin 3 → ℝ) 0 ∧
    (![3, 2, 1] : Fin 3 → ℝ) 2 ≤ (![3, 2, 1] : Fin 3 → ℝ) 1 := by
  constructor <;> simp <;> norm_num

/-- A point that is evaluated and whose outcome is taken over. -/
example : ∃ (m : Mat Nat ℝ) (p : RPoint Nat ℝ), m.itg[0]? = some (some p) ∧ p.upd ≠ .no ∧ p.hc ≠ p.hp :=
  ⟨⟨true, false, 0, [some ⟨⟨1, 0, .c, 1⟩, ⟨0, 0, fun _ => 0⟩⟩], []⟩, ⟨⟨1, 0, .c, 1⟩, ⟨0, 0, fun _ => 0⟩⟩,
    rfl, by simp, by simp⟩

example : ∃ prin, Principal prin := principal_exists

end Verif.Plastic
