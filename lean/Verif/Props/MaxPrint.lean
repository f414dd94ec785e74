/-
Property C124: the report of extreme values. Model: Model/MaxPrint.lean.
-/
import Verif.Model.MaxPrint
import Verif.Props.NLDriver
import Verif.Props.SolidFields

set_option linter.unusedVariables false

namespace Verif.MaxPrint

open Verif.Norms Verif.NLDriver Verif.SolidFields

section
variable {X K : Type} [Zero K] [DecidableEq K]

/-- The lines of a component: `row` has the extreme values of the patches, or one of all patches together. -/
def rowLines (n : String) (row : List (PtVal X K)) : List (Line X K) :=
  match row with
  | [v] => if v.2 = 0 then [] else [⟨n, v.2, v.1, none⟩]
  | l => l.mapIdx fun p v => ⟨n, v.2, v.1, some (p + 1)⟩

theorem field_lines (c : Cfg) (t : List (List (PtVal X K))) (i : Nat) (row : List (PtVal X K)) (hr : t[i]? = some row) (n : String) (hn : getField2Name c i none = .ok n) :
    fieldLines c t i = .ok (rowLines (cut n) row) := by
  unfold fieldLines
  rw [hr]
  match row with
  | [] => rfl
  | [v] =>
    by_cases h : v.2 = 0
    · simp [rowLines, h]
    · simp [rowLines, h, hn, Res.bind]
  | a :: b :: l => simp [rowLines, hn, Res.bind]

/-- **C124**: the report of a component consists of its value and point for each patch, with the name of the component, cut after 16 characters. A single value which is zero is left out. Components which do not exist give no
lines. -/
theorem C124_component (c : Cfg) (t : List (List (PtVal X K))) (i : Nat) (row : List (PtVal X K)) (hr : t[i]? = some row) (n : String) (hn : getField2Name c i none = .ok n) :
    (∀ x v, row = [(x, v)] → printMaxVals c t (i + 1) = .ok (if v = 0 then [] else [⟨cut n, v, x, none⟩])) ∧
    (row.length ≠ 1 → printMaxVals c t (i + 1) = .ok (row.mapIdx fun p v => ⟨cut n, v.2, v.1, some (p + 1)⟩)) ∧ ∀ k, t.length < k → printMaxVals c t k = .ok [] := by
  have hi : i < t.length := by
    by_contra h
    rw [List.getElem?_eq_none (by omega)] at hr
    cases hr
  have h1 : printMaxVals c t (i + 1) = .ok (rowLines (cut n) row) := by
    unfold printMaxVals
    rw [if_neg (by omega), if_pos (by omega), Nat.add_sub_cancel, field_lines c t i row hr n hn]
  refine ⟨fun x v h => ?_, fun h => ?_, fun k hk => by simp [printMaxVals, hk]⟩
  · rw [h1, h]
    rfl
  · rw [h1]
    match row with
    | [] => rfl
    | [_] => exact absurd rfl h
    | _ :: _ :: _ => rfl

theorem concat_ok {α β : Type} (l : List β) (f : β → Res (List α)) (g : β → List α) (h : ∀ b ∈ l, f b = .ok (g b)) : concat (l.map f) = .ok (l.flatMap g) := by
  induction l with
  | nil => rfl
  | cons b l ih => simp [concat, h b (by simp), ih fun b hb => h b (by simp [hb]), Res.bind]

/-- **C124**: the report of all components has those of the components in sequence. -/
theorem C124_all (c : Cfg) (t : List (List (PtVal X K))) (n : Nat → String) (hn : ∀ i, i < t.length → getField2Name c i none = .ok (n i)) :
    ∃ g : Nat → List (Line X K), (∀ i, i < t.length → printMaxVals c t (i + 1) = .ok (g i)) ∧ printMaxVals c t 0 = .ok ((List.range t.length).flatMap g) := by
  have hf : ∀ i, i < t.length → fieldLines c t i = .ok (rowLines (cut (n i)) ((t[i]?).getD [])) := fun i hi => by
    have e : t[i]? = some t[i] := List.getElem?_eq_getElem hi
    rw [field_lines c t i t[i] e _ (hn i hi), e]
    rfl
  refine ⟨fun i => rowLines (cut (n i)) ((t[i]?).getD []), fun i hi => ?_, ?_⟩
  · unfold printMaxVals
    rw [if_neg (by omega), if_pos (by omega), Nat.add_sub_cancel, hf i hi]
  · unfold printMaxVals
    rw [if_neg (by omega), if_neg (by omega)]
    exact concat_ok _ _ _ fun i hi => hf i (List.mem_range.mp hi)

/-- The lines for row `i` of the table, under the name `n`. -/
def linesAt (t : List (List (PtVal X K))) (i : Nat) (n : String) : List (Line X K) := rowLines n ((t[i]?).getD [])

theorem print_at (c : Cfg) (t : List (List (PtVal X K))) (i : Nat) (hi : i < t.length) (n : String) (hn : getField2Name c i none = .ok n) : printMaxVals c t (i + 1) = .ok (linesAt t i (cut n)) := by
  unfold printMaxVals
  have e : t[i]? = some t[i] := List.getElem?_eq_getElem hi
  rw [if_neg (by omega), if_pos (by omega), Nat.add_sub_cancel, field_lines c t i t[i] e n hn, linesAt, e]
  rfl

theorem name_plastic (nsd : Nat) (axi ps locSys : Bool) (h : Regular ⟨nsd, axi, ps, false, false, locSys, plasticLabels⟩) :
    let c : Cfg := ⟨nsd, axi, ps, false, false, locSys, plasticLabels⟩
    getNoFields c 2 = getNoFields c 3 + 8 ∧ getField2Name c (getNoFields c 3) none = .ok "von Mises stress" ∧ getField2Name c (getNoFields c 3 + 1) none = .ok "E_pp" ∧
      getField2Name c (getNoFields c 3 + 6) none = .ok "T" ∧ getField2Name c (getNoFields c 3 + 7) none = .ok "L" := by
  rcases h with h | ⟨h, h'⟩ <;> simp only at h <;> (try simp only at h') <;> subst h
  · cases axi <;> cases ps <;> cases locSys <;> decide +kernel
  · subst h'
    cases ps <;> cases locSys <;> decide +kernel

theorem cuts : cut "von Mises stress" = "von Mises stress" ∧ cut "E_pp" = "E_pp" ∧ cut "T" = "T" ∧ cut "L" = "L" ∧ cut "hydrostatic pressure" = "hydrostatic pres" := by
  decide +kernel

/-- **C124**: when the user did not ask for extreme values but results are visualized or projected, the report has the von Mises stress, and with plastic materials the equivalent plastic strain, the triaxiality and the Lode
parameter, each with its own name. -/
theorem C124_selected (nsd : Nat) (axi ps locSys : Bool) (h : Regular ⟨nsd, axi, ps, false, false, locSys, plasticLabels⟩) (t : List (List (PtVal X K)))
    (ht : t.length = getNoFields ⟨nsd, axi, ps, false, false, locSys, plasticLabels⟩ 2) :
    let s := getNoFields ⟨nsd, axi, ps, false, false, locSys, plasticLabels⟩ 3
    report ⟨nsd, axi, ps, false, false, locSys, plasticLabels⟩ t false true
      = .ok (linesAt t s "von Mises stress" ++ linesAt t (s + 1) "E_pp" ++ linesAt t (s + 6) "T" ++ linesAt t (s + 7) "L") := by
  obtain ⟨n0, n1, n2, n3, n4⟩ := name_plastic nsd axi ps locSys h
  obtain ⟨c1, c2, c3, c4, -⟩ := cuts
  intro s
  have p1 := print_at _ t s (by omega) _ n1
  have p2 := print_at _ t (s + 1) (by omega) _ n2
  have p3 := print_at _ t (s + 6) (by omega) _ n3
  have p4 := print_at _ t (s + 7) (by omega) _ n4
  unfold report
  simp only [Bool.false_eq_true, if_false, if_true]
  rw [show getNoFields ⟨nsd, axi, ps, false, false, locSys, plasticLabels⟩ 3 = s from rfl, show s + 1 + 6 = s + 6 + 1 by ring, show s + 1 + 7 = s + 7 + 1 by ring, p1, p2, p3, p4, c1, c2, c3, c4]
  simp [concat, Res.bind]

/-- **C124**: the report of linear analyses has the stress components and the von Mises stress, in this order. -/
theorem C124_linear (c : Cfg) (t : List (List (PtVal X K))) (ht : getNoFields c 3 < t.length) (n : Nat → String) (hn : ∀ i, i ≤ getNoFields c 3 → getField2Name c i none = .ok (n i)) :
    reportLin c t = .ok ((List.range (getNoFields c 3 + 1)).flatMap fun j => linesAt t j (cut (n j))) := by
  unfold reportLin
  refine concat_ok _ _ _ fun j hj => ?_
  have := List.mem_range.mp hj
  exact print_at c t j (by omega) _ (hn j (by omega))

end

/-! ### The extreme values of a step -/

section
variable {X K : Type} [Field K] [LinearOrder K] [IsStrictOrderedRing K]

theorem samples_app (a b : List (Ev X K)) : samples (a ++ b) = samples a ++ samples b := by
  induction a with
  | nil => rfl
  | cons e a ih => cases e <;> simp [samples, ih]

theorem run_app (f : Form) (x0 : X) (s : Mode × List (List (PtVal X K))) (a b : List (Ev X K)) : run f x0 s (a ++ b) = run f x0 (run f x0 s a) b := by
  unfold run; rw [List.foldl_append]

/-- There are evaluations only. -/
def Pure (h : List (Ev X K)) : Prop := ∀ m, Ev.mode m ∉ h

/-- **C124**: in linear and updated Lagrangian formulations, the extreme values reported after a step are those of the points evaluated in this step: the result points, the points of the visualization if the results are saved and
visualized, and those of the projection unless the error norms are computed after it. -/
theorem C124_step (f : Form) (hf : f ≠ .tl) (x0 : X) (nf nP : Nat) (m0 : Mode) (hm : m0 ≠ .recovery) (t : List (List (PtVal X K))) (g : List (Sample X K)) (ht : t = runMax (allocMax x0 nf nP) g)
    (vtf pSolOnly doProject adap saved getMaxVals : Bool) (e : Evals X K) (h1 : Pure e.project) (h2 : Pure e.points) (h3 : Pure e.visual) (h4 : Pure e.projected) (h5 : Pure e.second)
    (h : List (Ev X K)) (hh : stepEvents vtf pSolOnly doProject adap saved getMaxVals e = .ok h) :
    (run f x0 (m0, t) h).2 = runMax (allocMax x0 nf nP) (samples ((if doProject = true ∧ adap = false then e.project else []) ++ e.points
      ++ (if saved = true ∧ vtf = true ∧ pSolOnly = false then e.visual else []) ++ (if saved = false ∧ getMaxVals = true then e.second else [])
      ++ (if doProject = true ∧ (saved = true ∧ vtf = true ∨ saved = false ∧ getMaxVals = true) then e.projected else []))) := by
  have key : ∀ (s : Mode × List (List (PtVal X K))) (l : List (Ev X K)), Pure l → run f x0 s l = (s.1, runMax s.2 (samples l)) := fun s l hl => run_evals f x0 s l hl
  have hreset : ∀ (m : Mode) (g : List (Sample X K)), m ≠ .recovery → run f x0 (m, runMax (allocMax x0 nf nP) g) [.mode .recovery] = (.recovery, allocMax x0 nf nP) := fun m g hm => by
    have : resets f m .recovery = true := by
      cases f <;> cases m <;> first | rfl | exact absurd rfl hm | exact absurd rfl hf
    show (Mode.recovery, if resets f m .recovery then resetMax x0 _ else _) = _
    rw [if_pos this, C16_reset]
  have hstay : ∀ T : List (List (PtVal X K)), run f x0 (.recovery, T) [.mode .recovery] = (.recovery, T) := fun T => by
    have : resets f .recovery .recovery = false := by cases f <;> rfl
    show (Mode.recovery, if resets f .recovery .recovery then resetMax x0 T else T) = _
    rw [this]
    rfl
  have hnorm : ∀ g : List (Sample X K), ∃ g', run f x0 (.recovery, runMax (allocMax x0 nf nP) g) [.mode .norms] = (.norms, runMax (allocMax x0 nf nP) g') := fun g => by
    show ∃ g', (Mode.norms, if resets f .recovery .norms then resetMax x0 _ else _) = _
    cases resets f .recovery .norms with
    | true => exact ⟨[], by rw [if_pos rfl, C16_reset]; rfl⟩
    | false => exact ⟨g, rfl⟩
  have happ : ∀ a b : List (Sample X K), runMax (runMax (allocMax x0 nf nP) a) b = runMax (allocMax x0 nf nP) (a ++ b) := fun a b => by unfold runMax; rw [List.foldl_append]
  have hno : ∀ (m : Mode) (g : List (Sample X K)), m ≠ Mode.recovery → ∃ g', run f x0 (m, runMax (allocMax x0 nf nP) g) [.mode .norms] = (.norms, runMax (allocMax x0 nf nP) g') := fun m g hm => by
    show ∃ g', (Mode.norms, if resets f m .norms then resetMax x0 _ else _) = _
    cases resets f m .norms with
    | true => exact ⟨[], by rw [if_pos rfl, C16_reset]; rfl⟩
    | false => exact ⟨g, rfl⟩
  -- the state once the results of the step are recovered
  have hhead : run f x0 (m0, t) ((if doProject then .mode .recovery :: e.project else []) ++ (if adap then [.mode .norms] else []) ++ .mode .recovery :: e.points)
      = (.recovery, runMax (allocMax x0 nf nP) (samples ((if doProject = true ∧ adap = false then e.project else []) ++ e.points))) := by
    subst ht
    rw [show ∀ l : List (Ev X K), l ++ .mode .recovery :: e.points = l ++ ([.mode .recovery] ++ e.points) from fun l => rfl, run_app, run_app f x0 _ [.mode .recovery], run_app]
    cases doProject <;> cases adap
    · simp only [Bool.false_eq_true, if_false, false_and]
      rw [show run f x0 (run f x0 (m0, runMax (allocMax x0 nf nP) g) []) [] = (m0, runMax (allocMax x0 nf nP) g) from rfl, hreset m0 g hm, key _ _ h2]
      rfl
    · simp only [Bool.false_eq_true, if_false, if_true, false_and]
      obtain ⟨g', hg⟩ := hno m0 g hm
      rw [show run f x0 (m0, runMax (allocMax x0 nf nP) g) [] = (m0, runMax (allocMax x0 nf nP) g) from rfl, hg, hreset .norms g' (by decide), key _ _ h2]
      rfl
    · simp only [Bool.false_eq_true, if_false, if_true, true_and]
      rw [show run f x0 (run f x0 (m0, runMax (allocMax x0 nf nP) g) (.mode .recovery :: e.project)) [] = run f x0 (m0, runMax (allocMax x0 nf nP) g) ([.mode .recovery] ++ e.project) from rfl,
        run_app f x0 _ [.mode .recovery], hreset m0 g hm, key _ _ h1, hstay, key _ _ h2, samples_app]
      unfold runMax
      rw [List.foldl_append]
    · simp only [if_true, Bool.true_eq_false, and_false, if_false]
      rw [show run f x0 (m0, runMax (allocMax x0 nf nP) g) (.mode .recovery :: e.project) = run f x0 (m0, runMax (allocMax x0 nf nP) g) ([.mode .recovery] ++ e.project) from rfl,
        run_app f x0 _ [.mode .recovery], hreset m0 g hm, key _ _ h1]
      obtain ⟨g', hg⟩ := hnorm (samples e.project)
      rw [hg, hreset .norms g' (by decide), key _ _ h2]
      rfl
  have tail : ∀ l : List (Ev X K), Pure l → (run f x0 (m0, t) ((if doProject then .mode .recovery :: e.project else []) ++ (if adap then [.mode .norms] else []) ++ .mode .recovery :: e.points ++ l)).2
      = runMax (allocMax x0 nf nP) (samples ((if doProject = true ∧ adap = false then e.project else []) ++ e.points ++ l)) := fun l hl => by
    rw [run_app, hhead, key _ _ hl]
    simp only
    rw [happ, ← samples_app]
  have pa : ∀ a b : List (Ev X K), Pure a → Pure b → Pure (a ++ b) := fun a b ha hb m hm => by
    rcases List.mem_append.mp hm with h | h
    · exact ha m h
    · exact hb m h
  have pn : Pure ([] : List (Ev X K)) := fun m hm => by simp at hm
  unfold stepEvents at hh
  cases saved
  · cases getMaxVals
    · simp only [Bool.false_eq_true, if_false, Res.ok.injEq] at hh
      rw [← hh]
      have := tail [] pn
      rw [List.append_nil] at this
      rw [this]
      simp
    · cases doProject
      · simp at hh
      · simp only [Bool.false_eq_true, if_false, if_true, Res.ok.injEq] at hh
        rw [← hh]
        have := tail (e.second ++ e.projected) (pa _ _ h5 h4)
        rw [← List.append_assoc] at this
        simp only [if_true] at this
        rw [this]
        simp
  · simp only [if_true, Res.ok.injEq] at hh
    rw [← hh, tail _ (by
      cases vtf <;> cases pSolOnly <;> cases doProject <;> simp only [Bool.false_eq_true, if_false, if_true]
      all_goals first | exact pn | exact pa _ _ pn pn | exact pa _ _ pn h4 | exact pa _ _ h3 pn | exact pa _ _ h3 h4)]
    cases vtf <;> cases pSolOnly <;> cases doProject <;> simp

/-! ### What the user asks for -/

theorem setup_cmd (a : Ask) (c : Cfg) (x0 : X) (np : Nat) (vtf pSolOnly doProject : Bool) (pch : Bool) (hc : a.cmd = some pch) (hi : a.input = none) (hnp : 0 < np) :
    setup (K := K) a c x0 np vtf pSolOnly doProject = (allocMax x0 (getNoFields c 2) (if pch then np else 1), true, (vtf && !pSolOnly) || doProject) := by
  unfold setup
  rw [hc, hi]
  have : 0 < (if pch then np else 1) := by cases pch <;> simp [hnp]
  simp [initMaxVals, this]

theorem setup_input (c0 c : Cfg) (x0 : X) (np : Nat) (vtf pSolOnly doProject : Bool) (h0 : 0 < getNoFields c0 2) :
    setup (K := K) ⟨none, some (c0, false)⟩ c x0 np vtf pSolOnly doProject = (allocMax x0 (getNoFields c0 2) 1, (vtf && !pSolOnly) || doProject, (vtf && !pSolOnly) || doProject) := by
  unfold setup
  have e : (allocMax x0 (getNoFields c0 2) 1 : List (List (PtVal X K))).length = getNoFields c0 2 := by simp [allocMax]
  have r : resetMax x0 (allocMax x0 (getNoFields c0 2) 1 : List (List (PtVal X K))) = allocMax x0 (getNoFields c0 2) 1 := C16_reset x0 _ _ []
  cases vtf <;> cases pSolOnly <;> cases doProject <;> simp [initMaxVals, e, h0, r]

theorem max_len (x0 : X) (nf nP : Nat) (g : List (Sample X K)) : (runMax (allocMax x0 nf nP) g).length = nf := by
  induction g using List.reverseRecOn with
  | nil => simp [runMax, allocMax]
  | append_singleton g a ih =>
    unfold runMax at ih ⊢
    rw [List.foldl_append, List.foldl_cons, List.foldl_nil, evalMax, List.length_mapIdx, ih]

/-- **C124**: a later request for extreme values, or a change to the recovery of results, clears the table whatever it has collected, and keeps its size; a request without a table creates one. -/
theorem C124_clear (c : Cfg) (x0 : X) (nf nP : Nat) (hn : 0 < nf) (g : List (Sample X K)) (n : Nat) :
    initMaxVals c x0 (runMax (allocMax x0 nf nP) g) n = (allocMax x0 nf nP, n == 1) ∧
    (0 < n → initMaxVals (K := K) c x0 [] n = (allocMax x0 (getNoFields c 2) n, false)) ∧ initMaxVals (K := K) c x0 [] 0 = ([], false) := by
  refine ⟨?_, fun h => ?_, by simp [initMaxVals]⟩
  · rw [initMaxVals, if_pos (by rw [max_len]; exact hn), C16_reset]
  · simp [initMaxVals, h]

/-- **C124**, partial: the user asks for the extreme values in the input file (after the material) or on the command line, and the results are visualized in this step. The report then has for each component the value of
largest magnitude among the points which are visualized or printed, with its point and the name of the component, unless all values are zero. Missing: without visualization or projection there is no report (C124_nothing_violated,
C124_input_violated), and steps that are not saved (C124_unsaved_violated). -/
theorem C124_reported_partial (f : Form) (hf : f ≠ .tl) (c : Cfg) (hc : 0 < getNoFields c 2) (x0 : X) (np : Nat) (hnp : 0 < np) (a : Ask) (ha : a = ⟨some false, none⟩ ∨ a = ⟨none, some (c, false)⟩)
    (doProject adap : Bool) (e : Evals X K) (h1 : Pure e.project) (h2 : Pure e.points) (h3 : Pure e.visual) (h4 : Pure e.projected) (h5 : Pure e.second) (m0 : Mode) (hm : m0 ≠ .recovery)
    (n : Nat → String) (hn : ∀ i, i < getNoFields c 2 → getField2Name c i none = .ok (n i)) :
    ∃ t h l, setup a c x0 np true false doProject = (t, true, true) ∧ stepEvents true false doProject adap true true e = .ok h ∧ report c (run f x0 (m0, t) h).2 true true = .ok l ∧
      ∀ i, i < getNoFields c 2 → ∃ x v, (v ≠ 0 → ⟨cut (n i), v, x, none⟩ ∈ l ∧ ∃ s ∈ samples h, s.s[i]? = some v ∧ s.x = x) ∧ ∀ s ∈ samples (e.points ++ e.visual), ∀ w, s.s[i]? = some w → |w| ≤ |v| := by
  have hs : setup (K := K) a c x0 np true false doProject = (allocMax x0 (getNoFields c 2) 1, true, true) := by
    rcases ha with rfl | rfl
    · rw [setup_cmd _ c x0 np true false doProject false rfl rfl hnp]
      simp
    · rw [setup_input c c x0 np true false doProject hc]
      simp
  obtain ⟨h, hh⟩ : ∃ h, stepEvents true false doProject adap true true e = .ok h := ⟨_, by simp only [stepEvents, if_true]; rfl⟩
  have hstep := C124_step f hf x0 (getNoFields c 2) 1 m0 hm (allocMax x0 (getNoFields c 2) 1) [] rfl true false doProject adap true true e h1 h2 h3 h4 h5 h hh
  obtain ⟨S, hS⟩ : ∃ S, S = samples ((if doProject = true ∧ adap = false then e.project else []) ++ e.points ++ (if true = true ∧ true = true ∧ false = false then e.visual else [])
      ++ (if true = false ∧ true = true then e.second else []) ++ (if doProject = true ∧ (true = true ∧ true = true ∨ true = false ∧ true = true) then e.projected else [])) := ⟨_, rfl⟩
  rw [← hS] at hstep
  have hsub : ∀ s ∈ S, s ∈ samples h := fun s hs => by
    rw [hS] at hs
    unfold stepEvents at hh
    simp only [if_true, Res.ok.injEq] at hh
    rw [← hh]
    simp only [samples_app, samples, List.mem_append] at hs ⊢
    cases doProject <;> cases adap <;> simp [samples] at hs ⊢ <;> tauto
  have hsup : ∀ s ∈ samples (e.points ++ e.visual), s ∈ S := fun s hs => by
    rw [hS]
    simp only [samples_app, List.mem_append] at hs ⊢
    simp
    tauto
  have hlen := max_len x0 (getNoFields c 2) 1 S
  obtain ⟨g, g1, g2⟩ := C124_all c (runMax (allocMax x0 (getNoFields c 2) 1) S) n (fun i hi => hn i (by omega))
  refine ⟨_, h, _, hs, hh, by rw [hstep]; exact g2, fun i hi => ?_⟩
  obtain ⟨row, ev, r1, r2, r3, r4, r5⟩ := C16_extreme x0 (getNoFields c 2) 1 S i 0 hi (by omega)
  obtain ⟨x, v⟩ := ev
  obtain rfl : row = [(x, v)] := by
    match row, r2 with
    | [q], _ => simpa using r3
  refine ⟨x, v, fun hv => ⟨?_, ?_⟩, fun s hs w hw => r5 s (hsup s hs) (fun h => by omega) w hw⟩
  · have e1 := (C124_component c _ i [(x, v)] r1 (n i) (hn i hi)).1 x v rfl
    rw [g1 i (by omega), if_neg hv] at e1
    simp only [Res.ok.injEq] at e1
    exact List.mem_flatMap.mpr ⟨i, List.mem_range.mpr (by omega), by rw [e1]; simp⟩
  · rcases r4 with r4 | ⟨s, s1, -, s2, s3⟩
    · exact absurd (congrArg Prod.snd r4) hv
    · exact ⟨s, hsub s s1, s2, s3⟩

theorem zero_rows (c : Cfg) (x0 : X) (nf nP : Nat) (n : Nat → String) (hn : ∀ i, i < nf → getField2Name c i none = .ok (n i)) :
    ∃ l, printMaxVals c (allocMax x0 nf nP : List (List (PtVal X K))) 0 = .ok l ∧ (nP = 1 → l = []) ∧ ∀ q ∈ l, q.val = 0 := by
  have hlen : (allocMax x0 nf nP : List (List (PtVal X K))).length = nf := by simp [allocMax]
  obtain ⟨g, g1, g2⟩ := C124_all c (allocMax x0 nf nP : List (List (PtVal X K))) n (fun i hi => hn i (by omega))
  have hg : ∀ i, i < nf → (nP = 1 → g i = []) ∧ ∀ q ∈ g i, q.val = 0 := fun i hi => by
    have hrow : (allocMax x0 nf nP : List (List (PtVal X K)))[i]? = some (List.replicate nP (x0, 0)) := by simp [allocMax, hi]
    obtain ⟨c1, c2, -⟩ := C124_component c _ i _ hrow (n i) (hn i hi)
    by_cases h1 : nP = 1
    · subst h1
      have := c1 x0 0 rfl
      rw [g1 i (by omega), if_pos rfl, Res.ok.injEq] at this
      simp [this]
    · have := c2 (by simpa using h1)
      rw [g1 i (by omega), Res.ok.injEq] at this
      refine ⟨fun h => absurd h h1, fun q hq => ?_⟩
      rw [this] at hq
      obtain ⟨j, hj, rfl⟩ := List.mem_mapIdx.mp hq
      simp
  refine ⟨_, g2, fun h => ?_, fun q hq => ?_⟩
  · rw [List.flatMap_eq_nil_iff]
    exact fun i hi => (hg i (by have := List.mem_range.mp hi; omega)).1 h
  · obtain ⟨i, hi, hq⟩ := List.mem_flatMap.mp hq
    exact (hg i (by have := List.mem_range.mp hi; omega)).2 q hq

/-- C124: extreme values which are asked for on the command line are not reported when there is neither visualization nor projection of the results, and no result points are printed: whatever the stresses, nothing is printed,
or zeros for all patches. -/
theorem C124_nothing_violated (f : Form) (hf : f ≠ .tl) (c : Cfg) (x0 : X) (np : Nat) (hnp : 0 < np) (pch adap saved : Bool) (e : Evals X K) (he : e.points = []) (m0 : Mode) (hm : m0 ≠ .recovery)
    (n : Nat → String) (hn : ∀ i, i < getNoFields c 2 → getField2Name c i none = .ok (n i)) :
    ∃ t h l, setup ⟨some pch, none⟩ c x0 np false false false = (t, true, false) ∧ stepEvents false false false adap saved false e = .ok h ∧ report c (run f x0 (m0, t) h).2 true false = .ok l ∧
      (pch = false ∨ np = 1 → l = []) ∧ ∀ q ∈ l, q.val = 0 := by
  have hs := setup_cmd (K := K) ⟨some pch, none⟩ c x0 np false false false pch rfl rfl hnp
  obtain ⟨l, l1, l2, l3⟩ := zero_rows (K := K) c x0 (getNoFields c 2) (if pch then np else 1) n hn
  have hh : stepEvents false false false adap saved false e = .ok ((if adap then [.mode .norms] else []) ++ [.mode .recovery]) := by
    unfold stepEvents
    rw [he]
    cases saved <;> simp
  have hr : (run f x0 (m0, allocMax x0 (getNoFields c 2) (if pch then np else 1)) ((if adap then [.mode .norms] else []) ++ [.mode .recovery])).2 = (allocMax x0 (getNoFields c 2) (if pch then np else 1) : List (List (PtVal X K))) := by
    have pn : Pure ([] : List (Ev X K)) := fun m hm => by simp at hm
    have hh' : stepEvents false false false adap true false (⟨[], [], [], [], []⟩ : Evals X K) = .ok ((if adap then [.mode .norms] else []) ++ [.mode .recovery]) := by simp [stepEvents]
    rw [C124_step f hf x0 (getNoFields c 2) (if pch then np else 1) m0 hm (allocMax x0 (getNoFields c 2) (if pch then np else 1)) [] rfl false false false adap true false ⟨[], [], [], [], []⟩ pn pn pn pn pn _ hh']
    simp [samples, runMax]
  refine ⟨_, _, l, hs, hh, by rw [hr]; exact l1, fun h => l2 ?_, l3⟩
  rcases h with rfl | rfl <;> simp

/-- C124: extreme values which are asked for in the input file are not reported when there is neither visualization nor projection of the results, even if there are result points. -/
theorem C124_input_violated (c0 c : Cfg) (h0 : 0 < getNoFields c0 2) (x0 : X) (np : Nat) (vtf pSolOnly : Bool) (hv : vtf = false ∨ pSolOnly = true) :
    ∃ t : List (List (PtVal X K)), setup ⟨none, some (c0, false)⟩ c x0 np vtf pSolOnly false = (t, false, false) ∧
    ∀ t' : List (List (PtVal X K)), report c t' false false = .ok [] := by
  refine ⟨allocMax x0 (getNoFields c0 2) 1, ?_, fun t' => rfl⟩
  rw [setup_input c0 c x0 np vtf pSolOnly false h0]
  rcases hv with rfl | rfl <;> simp

/-- C124: with visualization and without projection, a step whose results are not saved ends in undefined behaviour: the projected results of the empty list are used. -/
theorem C124_unsaved_violated (a : Ask) (c : Cfg) (x0 : X) (np : Nat) (adap : Bool) (e : Evals X K) :
    (setup (K := K) a c x0 np true false false).2.2 = true ∧ stepEvents true false false adap false true e = .ub := by
  refine ⟨?_, rfl⟩
  unfold setup
  simp only [Bool.not_false, Bool.and_true, Bool.or_false, Bool.true_and]
  split <;> rfl

/-- C124: the request in the input file precedes the plastic material. The table then has no room for the variables of the material: the plastic strain is not reported, whatever it is. -/
theorem C124_early_violated (x0 : X) (np : Nat) (vtf pSolOnly doProject locSys : Bool) (g : List (Sample X K)) (p q : Bool) :
    ∃ t, setup ⟨none, some (⟨3, false, true, false, false, locSys, []⟩, false)⟩ ⟨3, false, true, false, false, locSys, plasticLabels⟩ x0 np vtf pSolOnly doProject = (t, (vtf && !pSolOnly) || doProject, (vtf && !pSolOnly) || doProject) ∧
      ∃ l, report ⟨3, false, true, false, false, locSys, plasticLabels⟩ (runMax t g) p q = .ok l ∧ ∀ r ∈ l, r.name ≠ "E_pp" ∧ r.name ≠ "T" ∧ r.name ≠ "L" := by
  refine ⟨_, setup_input _ _ x0 np vtf pSolOnly doProject (by simp [getNoFields]), ?_⟩
  have hnf : getNoFields ⟨3, false, true, false, false, locSys, []⟩ 2 = 7 := by cases locSys <;> decide +kernel
  have hns : getNoFields ⟨3, false, true, false, false, locSys, plasticLabels⟩ 3 = 6 := by cases locSys <;> decide +kernel
  rw [hnf]
  have hlen := max_len x0 7 1 g
  generalize runMax (allocMax x0 7 1) g = t at hlen
  have hn : ∀ i, i < 7 → getField2Name ⟨3, false, true, false, false, locSys, plasticLabels⟩ i none = .ok (["s_xx", "s_yy", "s_zz", "s_xy", "s_yz", "s_xz", "von Mises stress"].getD i "") := fun i hi => by
    interval_cases i <;> cases locSys <;> decide +kernel
  have hrow : ∀ i, i < 7 → ∃ l, printMaxVals ⟨3, false, true, false, false, locSys, plasticLabels⟩ t (i + 1) = .ok l ∧ ∀ r ∈ l, r.name ≠ "E_pp" ∧ r.name ≠ "T" ∧ r.name ≠ "L" := fun i hi => by
    refine ⟨_, print_at _ t i (by omega) _ (hn i hi), fun r hr => ?_⟩
    have hname : r.name = cut (["s_xx", "s_yy", "s_zz", "s_xy", "s_yz", "s_xz", "von Mises stress"].getD i "") := by
      unfold linesAt rowLines at hr
      split at hr
      · split at hr
        · simp at hr
        · rw [List.mem_singleton.mp hr]
      · obtain ⟨j, hj, rfl⟩ := List.mem_mapIdx.mp hr; rfl
    rw [hname]
    interval_cases i <;> decide +kernel
  cases p
  · cases q
    · exact ⟨[], rfl, by simp⟩
    · obtain ⟨l, l1, l2⟩ := hrow 6 (by omega)
      refine ⟨l, ?_, l2⟩
      unfold report
      simp only [Bool.false_eq_true, if_false, if_true]
      rw [hns, l1]
      have ho : ∀ k, 7 < k → printMaxVals ⟨3, false, true, false, false, locSys, plasticLabels⟩ t k = .ok [] := fun k hk => by simp [printMaxVals, hlen, hk]
      rw [ho _ (by omega), ho _ (by omega), ho _ (by omega)]
      simp [concat, Res.bind]
  · obtain ⟨G, g1, g2⟩ := C124_all ⟨3, false, true, false, false, locSys, plasticLabels⟩ t _ (fun i hi => hn i (by omega))
    refine ⟨_, g2, fun r hr => ?_⟩
    obtain ⟨i, hi, hr⟩ := List.mem_flatMap.mp hr
    have hi := List.mem_range.mp hi
    obtain ⟨l, l1, l2⟩ := hrow i (by omega)
    rw [g1 i hi, Res.ok.injEq] at l1
    exact l2 r (l1 ▸ hr)

end

/-! ### Examples -/

/-- A linear material in three dimensions. -/
def solid : Cfg := ⟨3, false, false, false, false, false, []⟩

def solidNames (i : Nat) : String := ["s_xx", "s_yy", "s_zz", "s_xy", "s_yz", "s_xz", "von Mises stress"].getD i ""

theorem solid_names : getNoFields solid 2 = 7 ∧ getNoFields solid 3 = 6 ∧ ∀ i, i < 7 → getField2Name solid i none = .ok (solidNames i) := by
  refine ⟨by decide +kernel, by decide +kernel, fun i hi => ?_⟩
  interval_cases i <;> decide +kernel

/-- Two points are visualized. -/
def twoPoints : Evals Nat ℚ := ⟨[], [], [.eval 0 1 [1, 0, 0, 0, 0, 0, 1], .eval 0 2 [-3, 0, 0, 0, 0, 0, 3]], [], []⟩

example : ∃ t h l, setup ⟨some false, none⟩ solid 0 1 true false false = (t, true, true) ∧ stepEvents true false false false true true twoPoints = .ok h ∧ report solid (run .ul 0 (.static, t) h).2 true true = .ok l ∧
    ∀ i, i < getNoFields solid 2 → ∃ x v, (v ≠ 0 → ⟨cut (solidNames i), v, x, none⟩ ∈ l ∧ ∃ s ∈ samples h, s.s[i]? = some v ∧ s.x = x) ∧ ∀ s ∈ samples (twoPoints.points ++ twoPoints.visual), ∀ w, s.s[i]? = some w → |w| ≤ |v| :=
  C124_reported_partial .ul (by decide) solid (by rw [solid_names.1]; omega) 0 1 (by omega) _ (.inl rfl) false false twoPoints (by simp [Pure, twoPoints]) (by simp [Pure, twoPoints]) (by simp [Pure, twoPoints]) (by simp [Pure, twoPoints])
    (by simp [Pure, twoPoints]) .static (by decide) solidNames (fun i hi => solid_names.2.2 i (by rw [solid_names.1] at hi; exact hi))

example : ∃ t h l, setup ⟨some false, none⟩ solid 0 2 false false false = (t, true, false) ∧ stepEvents false false false false true false twoPoints = .ok h ∧ report solid (run .ul 0 (.static, t) h).2 true false = .ok l ∧ l = [] := by
  obtain ⟨t, h, l, h1, h2, h3, h4, -⟩ := C124_nothing_violated .ul (by decide) solid 0 2 (by omega) false false true twoPoints rfl .static (by decide) solidNames (fun i hi => solid_names.2.2 i (by rw [solid_names.1] at hi; exact hi))
  exact ⟨t, h, l, h1, h2, h3, h4 (.inl rfl)⟩

/-- The table after a step with two points. -/
def tableTwo : List (List (PtVal Nat ℚ)) := [[(2, -3)], [(0, 0)], [(0, 0)], [(0, 0)], [(0, 0)], [(0, 0)], [(2, 3)]]

example : printMaxVals solid tableTwo 1 = .ok [⟨"s_xx", -3, 2, none⟩] ∧ printMaxVals solid tableTwo 2 = .ok [] ∧ printMaxVals solid tableTwo 0 = .ok [⟨"s_xx", -3, 2, none⟩, ⟨"von Mises stress", 3, 2, none⟩] ∧
    reportLin solid tableTwo = .ok [⟨"s_xx", -3, 2, none⟩, ⟨"von Mises stress", 3, 2, none⟩] := by decide +kernel

example : reportLin solid tableTwo = .ok ((List.range 7).flatMap fun j => linesAt tableTwo j (cut (solidNames j))) := by
  have := C124_linear solid tableTwo (by decide +kernel) solidNames (fun i hi => solid_names.2.2 i (by rw [solid_names.2.1] at hi; omega))
  rwa [solid_names.2.1] at this

example : ∃ c : Cfg, c.labels = plasticLabels ∧ Regular c ∧ getNoFields c 2 = 14 := ⟨⟨3, false, false, false, false, false, plasticLabels⟩, rfl, .inr ⟨rfl, rfl⟩, by decide +kernel⟩

end Verif.MaxPrint
