/-
Property C94: the programs run the simulator asked for, with what it needs, and return its status.
-/
import Mathlib.Tactic.Linarith
import Verif.Model.Programs

set_option linter.unusedSectionVars false
set_option linter.unusedSimpArgs false
set_option linter.unusedVariables false

namespace Verif.Programs

/-! ### Drivers -/

/-- **C94** (partial): which simulator the nonlinear program runs. Time integration is linear exactly if the linear formulation is chosen, quasi-static solutions are done by
the fixed increment or the arc-length driver, and adaptivity is used by the fixed increment driver. -/
theorem C94_driver_partial (linear adap : Bool) :
    nonLinEl .static linear adap = ⟨.nonlinear, linear, adap, true⟩ ∧
    (nonLinEl .arclen linear adap).kind = .arcLength ∧ (nonLinEl .arclen linear adap).finiteDef = true ∧
    nonLinEl .genAlpha true adap = ⟨.genAlpha, true, false, false⟩ ∧
    nonLinEl .oldHHT true adap = ⟨.newmark, true, false, false⟩ ∧ nonLinEl .newHHT true adap = ⟨.newmark, true, false, false⟩ ∧
    nonLinEl .newHHT false adap = ⟨.hht, false, false, true⟩ ∧ nonLinEl .oldHHT false adap = ⟨.newmarkNL, false, false, true⟩ ∧
    nonLinEl .genAlpha false adap = ⟨.newmarkNL, false, false, true⟩ ∧
    (∀ arclen, (shellEl arclen adap).adaptive = adap ∧ ((shellEl arclen adap).kind = .arcLength ↔ arclen = true)) := by
  cases linear <;> cases adap <;> decide

/-- **C94** does not hold for the adaptive arc-length method in the nonlinear program: the adaptivity flag is passed as the argument that is ignored. -/
theorem C94_arclen_violated (linear adap : Bool) : (nonLinEl .arclen linear adap).adaptive = false := by
  cases linear <;> cases adap <;> rfl

/-! ### Projection -/

/-- **C94** (partial): the nonlinear, shell and modal programs have the projection vectors they use, for every number of projections. -/
theorem C94_projection_partial (p : Prog) (hp : p = .nonLinEl ∨ p = .shellEl ∨ p = .modal) (asked : Nat) : firstProjection p asked = .ok () := by
  unfold firstProjection
  by_cases h : asked = 0
  · rw [if_pos h]
  · rw [if_neg h, if_neg]
    rcases hp with rfl | rfl | rfl <;> simp [projVectors, h]

example : projVectors .nonLinEl 2 = 1 ∧ projVectors .shellEl 2 = 2 := by decide

/-- **C94** does not hold for the linear dynamics and multi-load-case programs: with any projection they access a vector that does not exist. -/
theorem C94_projection_violated (p : Prog) (hp : p = .dynamic ∨ p = .multiLoadCase) (asked : Nat) (h : asked ≠ 0) : firstProjection p asked = .ub := by
  rcases hp with rfl | rfl <;> simp [firstProjection, projVectors, h]

example : firstProjection .multiLoadCase 1 = .ub := by decide

/-! ### Exit status -/

theorem stages_zero (l : List (Bool × Option Nat)) (hpos : ∀ x ∈ l, x.2 ≠ some 0) : stages l = 0 ↔ ∀ x ∈ l, x.2 = none ∨ x.1 = true := by
  induction l with
  | nil => simp [stages]
  | cons x r ih =>
    obtain ⟨ok, code⟩ := x
    have hr := ih fun x hx => hpos x (by simp [hx])
    have h0 := hpos (ok, code) (by simp)
    cases ok <;> cases code <;> simp [stages, hr]
    simpa using h0

/-- All calls of the set-up succeed, and the simulation returns zero. -/
def AllOk (s : SetUp) : Prop := s.read = true ∧ s.preprocess = true ∧ s.openVtf = true ∧ s.equations = true ∧ s.restart = true ∧ s.run = 0

/-- **C94** (partial): the nonlinear and linear dynamics programs return zero exactly if everything succeeded, and otherwise the status of the first failure. -/
theorem C94_status_partial (p : Prog) (hp : p = .nonLinEl ∨ p = .dynamic) (s : SetUp) :
    (exitStatus p s = 0 ↔ AllOk s) ∧
    (s.read = false → exitStatus p s = 1) ∧ (s.read = true → s.preprocess = false → exitStatus p s = 2) ∧
    (s.read = true → s.preprocess = true → s.openVtf = true → s.equations = true → s.restart = true → exitStatus p s = s.run) := by
  obtain ⟨a, b, c, d, e, f⟩ := s
  rcases hp with rfl | rfl <;> cases a <;> cases b <;> cases c <;> cases d <;> cases e <;>
    simp [exitStatus, runNonlinear, runDynamic, stages, AllOk]

example : AllOk ⟨true, true, true, true, true, 0⟩ := by simp [AllOk]

/-- **C94** does not hold for the shell program: its exit status is zero whatever happens, even if the input file does not exist. -/
theorem C94_shell_violated (s : SetUp) : exitStatus .shellEl s = 0 ∧
    (runShell s = 0 ↔ AllOk s) := by
  refine ⟨rfl, ?_⟩
  obtain ⟨a, b, c, d, e, f⟩ := s
  cases a <;> cases b <;> cases c <;> cases d <;> cases e <;> simp [runShell, stages, AllOk]

example : runShell ⟨false, true, true, true, true, 0⟩ = 1 := by decide

/-- **C94** (partial): a linear static analysis returns zero exactly if the solution, the projection, the norms and the visualization output succeeded. -/
theorem C94_static_partial (s : Static) : linearStatic s = 0 ↔
    s.read = true ∧ s.preprocess = true ∧ s.assemble = true ∧ s.solve = true ∧ s.project = true ∧ s.norms = true ∧ s.geometry = true ∧ s.tractions = true ∧
    s.conditions = true ∧ s.temperature = true ∧ s.loads = true ∧ s.internalForces = true ∧ s.solution = true ∧ s.projected = true ∧ s.elementNorms = true := by
  unfold linearStatic
  rw [stages_zero _ (by simp)]
  simp [and_assoc]

/-- **C94**: the status of a linear static analysis tells the first call that failed, for the stages up to the solution. -/
theorem C94_static_codes (s : Static) :
    (s.read = false → linearStatic s = 1) ∧ (s.read = true → s.preprocess = false → linearStatic s = 2) ∧
    (s.read = true → s.preprocess = true → s.assemble = false → linearStatic s = 4) ∧
    (s.read = true → s.preprocess = true → s.assemble = true → s.solve = false → linearStatic s = 5) ∧
    (s.read = true → s.preprocess = true → s.assemble = true → s.solve = true → s.project = false → linearStatic s = 6) ∧
    (s.read = true → s.preprocess = true → s.assemble = true → s.solve = true → s.project = true → s.norms = false → linearStatic s = 7) := by
  unfold linearStatic
  refine ⟨?_, ?_, ?_, ?_, ?_, ?_⟩ <;> intros <;> simp_all [stages]

/-- A static analysis in which everything succeeds. -/
def allWell : Static := ⟨true, true, true, true, true, true, true, true, true, true, true, true, true, true, true, true, true, true, true⟩

example : linearStatic allWell = 0 ∧ linearStatic { allWell with projected := false } = 17 ∧ linearStatic { allWell with elementNorms := false } = 19 ∧
    linearStatic { allWell with geometry := false } = 12 ∧ linearStatic { allWell with temperature := false } = 14 := by decide

/-- **C94** does not hold for the boundary forces, the result points and the HDF5 file of a static analysis: their failure is not reported. -/
theorem C94_static_violated : linearStatic { allWell with boundaryForces := false, resultPoints := false, hdf5 := false } = 0 := by decide

/-! ### The coupled static solver -/

theorem assembly_ok (sims : List Sim) (i : Nat) : (assembly sims i).2 = true ↔ ∀ s ∈ sims, s.assemble = true := by
  induction sims generalizing i with
  | nil => simp [assembly]
  | cons s r ih =>
    unfold assembly
    by_cases h : s.assemble = true
    · simp [h, ih]
    · simp [h]

theorem geometry_some (sims : List Sim) (i blk : Nat) (h : ∀ s ∈ sims, s.geoOk = true) :
    (geometry sims i blk).2 = some ((List.range sims.length).map fun j => blk + ((sims.take j).map Sim.blocks).sum) := by
  induction sims generalizing i blk with
  | nil => simp [geometry]
  | cons s r ih =>
    have hs := h s (by simp)
    unfold geometry
    rw [if_pos hs]
    simp only [ih (i + 1) (blk + s.blocks) (fun s hm => h s (by simp [hm])), Option.map_some, List.length_cons, List.range_succ_eq_map, List.map_cons, List.map_map,
      List.take_zero, List.map_nil, List.sum_nil, Nat.add_zero]
    congr 2
    refine List.map_congr_left fun j _ => ?_
    simp [Function.comp_def, Nat.add_assoc]

theorem geometry_none (sims : List Sim) (i blk : Nat) (h : ¬ ∀ s ∈ sims, s.geoOk = true) : (geometry sims i blk).2 = none := by
  induction sims generalizing i blk with
  | nil => simp at h
  | cons s r ih =>
    unfold geometry
    by_cases hs : s.geoOk = true
    · rw [if_pos hs]
      have : ¬ ∀ s ∈ r, s.geoOk = true := by
        intro hr; apply h; intro x hx
        rcases List.mem_cons.mp hx with rfl | hx
        · exact hs
        · exact hr x hx
      simp [ih (i + 1) (blk + s.blocks) this]
    · rw [if_neg hs]

theorem results_ok (l : List (Sim × Nat)) (i : Nat) : (results l i).2 = true ↔ ∀ x ∈ l, x.1.saveOk = true := by
  induction l generalizing i with
  | nil => simp [results]
  | cons s r ih =>
    obtain ⟨s, b⟩ := s
    unfold results
    by_cases h : s.saveOk = true
    · simp [h, ih]
    · simp [h]

theorem results_events (l : List (Sim × Nat)) (i : Nat) (h : ∀ x ∈ l, x.1.saveOk = true) :
    (results l i).1 = (l.zipIdx i).map fun x => Event.results x.2 x.1.2 := by
  induction l generalizing i with
  | nil => simp [results]
  | cons s r ih =>
    obtain ⟨s, b⟩ := s
    have hs := h (s, b) (by simp)
    unfold results
    rw [if_pos hs]
    simp [List.zipIdx_cons, ih (i + 1) fun x hx => h x (by simp [hx])]

theorem geometry_events (sims : List Sim) (i blk : Nat) (h : ∀ s ∈ sims, s.geoOk = true) :
    (geometry sims i blk).1 = (List.range sims.length).map fun j => Event.geometry (i + j) (blk + ((sims.take j).map Sim.blocks).sum) := by
  induction sims generalizing i blk with
  | nil => simp [geometry]
  | cons s r ih =>
    have hs := h s (by simp)
    unfold geometry
    rw [if_pos hs]
    simp only [ih (i + 1) (blk + s.blocks) (fun s hm => h s (by simp [hm])), List.length_cons, List.range_succ_eq_map, List.map_cons, List.map_map,
      List.take_zero, List.map_nil, List.sum_nil, Nat.add_zero]
    congr 1
    refine List.map_congr_left fun j _ => ?_
    simp [Function.comp_def, Nat.add_assoc, Nat.add_comm 1]

/-- **C94**: the coupled solver returns zero exactly if the assembly of all simulators, the solution and all output asked for succeeded, and otherwise the code of the failure. -/
theorem C94_coupled_status (sims : List Sim) (solveOk vtf : Bool) :
    (solveStatic sims solveOk vtf).2 =
      if ¬ ∀ s ∈ sims, s.assemble = true then 4 else if solveOk = false then 5 else if vtf = false then 0
      else if ¬ ∀ s ∈ sims, s.geoOk = true then 12 else if ¬ ∀ s ∈ sims, s.saveOk = true then 16 else 0 := by
  have ha := assembly_ok sims 0
  unfold solveStatic
  by_cases h1 : ∀ s ∈ sims, s.assemble = true
  · have h1' := ha.mpr h1
    simp only [h1', Bool.not_true, Bool.false_eq_true, if_false, not_true_eq_false, not_not]
    rw [if_neg (not_not.mpr h1)]
    cases solveOk
    · simp
    · cases vtf
      · simp
      · simp only [Bool.not_true, Bool.false_eq_true, if_false, reduceCtorEq]
        by_cases h2 : ∀ s ∈ sims, s.geoOk = true
        · rw [if_neg (not_not.mpr h2)]
          simp only [geometry_some sims 0 0 h2]
          set st := (List.range sims.length).map fun j => 0 + ((sims.take j).map Sim.blocks).sum with hst
          have hlen : st.length = sims.length := by simp [hst]
          have hz : (∀ x ∈ sims.zip st, x.1.saveOk = true) ↔ ∀ s ∈ sims, s.saveOk = true := by
            constructor
            · intro h s hs
              have : s ∈ (sims.zip st).map Prod.fst := by
                rw [List.map_fst_zip (by omega)]; exact hs
              obtain ⟨x, hx, rfl⟩ := List.mem_map.mp this
              exact h x hx
            · intro h x hx; exact h x.1 (List.of_mem_zip hx).1
          have hr := results_ok (sims.zip st) 0
          rw [hz] at hr
          by_cases h3 : ∀ s ∈ sims, s.saveOk = true
          · rw [if_pos (hr.mpr h3), if_neg (not_not.mpr h3)]
          · rw [if_neg (fun h => h3 (hr.mp h)), if_pos h3]
        · rw [if_pos h2]
          simp only [geometry_none sims 0 0 h2]
  · have h1' : (assembly sims 0).2 = false := by
      rw [← Bool.not_eq_true]; exact fun h => h1 (ha.mp h)
    simp only [h1', Bool.not_false, if_true]
    rw [if_pos h1]

/-- **C94**: the results of each coupled simulator refer to its own geometry: the block number from which its geometry was written, which is the number of blocks of the simulators
before it. -/
theorem C94_coupled_blocks (sims : List Sim) (h1 : ∀ s ∈ sims, s.assemble = true) (h2 : ∀ s ∈ sims, s.geoOk = true) (h3 : ∀ s ∈ sims, s.saveOk = true) (i b : Nat) :
    (Event.results i b ∈ (solveStatic sims true true).1 ↔ i < sims.length ∧ b = ((sims.take i).map Sim.blocks).sum) ∧
    (Event.geometry i b ∈ (solveStatic sims true true).1 ↔ i < sims.length ∧ b = ((sims.take i).map Sim.blocks).sum) := by
  have h1' := (assembly_ok sims 0).mpr h1
  unfold solveStatic
  simp only [h1', Bool.not_true, Bool.false_eq_true, if_false, geometry_some sims 0 0 h2]
  set st := (List.range sims.length).map fun j => 0 + ((sims.take j).map Sim.blocks).sum with hst
  have hz : ∀ x ∈ sims.zip st, x.1.saveOk = true := fun x hx => h3 x.1 (List.of_mem_zip hx).1
  rw [if_pos ((results_ok _ 0).mpr hz)]
  have hass : ∀ (l : List Sim) (k : Nat), Event.results i b ∉ (assembly l k).1 ∧ Event.geometry i b ∉ (assembly l k).1 := by
    intro l
    induction l with
    | nil => intro k; simp [assembly]
    | cons s r ih =>
      intro k; unfold assembly
      split_ifs <;> simp [ih (k + 1)]
  simp only [geometry_events sims 0 0 h2, results_events _ 0 hz, Nat.zero_add]
  have ha := hass sims 0
  constructor
  · simp only [List.mem_append, List.mem_map, List.mem_cons, List.not_mem_nil, or_false, ha.1, false_or, reduceCtorEq, and_false, exists_false, or_false, Event.results.injEq]
    constructor
    · rintro ⟨x, hx, rfl, rfl⟩
      obtain ⟨⟨s, b⟩, n⟩ := x
      have := List.mem_zipIdx hx
      obtain ⟨_, h5, h6⟩ := this
      simp only [Nat.zero_add, List.length_zip, hst, List.length_map, List.length_range, Nat.min_self, Nat.sub_zero] at h5 h6
      refine ⟨h5, ?_⟩
      have h7 := congrArg Prod.snd h6
      simpa using h7
    · rintro ⟨hi, rfl⟩
      refine ⟨((sims[i], ((sims.take i).map Sim.blocks).sum), i), ?_, rfl, rfl⟩
      rw [List.mem_zipIdx_iff_getElem?]
      rw [List.getElem?_eq_getElem (by simp [hst, hi])]
      simp [hst]
  · simp only [List.mem_append, List.mem_map, List.mem_cons, List.not_mem_nil, or_false, ha.2, false_or, reduceCtorEq, and_false, exists_false, or_false, Event.geometry.injEq,
      List.mem_range]
    constructor
    · rintro ⟨j, hj, rfl, rfl⟩; exact ⟨hj, rfl⟩
    · rintro ⟨hi, rfl⟩; exact ⟨i, hi, rfl, rfl⟩

example : (solveStatic [⟨true, true, 2, true⟩, ⟨true, true, 3, true⟩] true true).1 =
    [.init 0 .own, .assemble 0, .init 1 .shared, .assemble 1, .solve, .geometry 0 0, .geometry 1 2, .results 0 0, .results 1 2, .close, .detach 0, .detach 1] := by decide

/-- **C94**: only the first coupled simulator has an equation system of its own, the others share it; each is assembled once, before the solution. -/
theorem C94_coupled_system (sims : List Sim) (h : ∀ s ∈ sims, s.assemble = true) :
    (assembly sims 0).1 = (List.range sims.length).flatMap fun i => [.init i (if i = 0 then .own else .shared), .assemble i] := by
  suffices hh : ∀ k, (assembly sims k).1 = (List.range sims.length).flatMap fun i => [.init (k + i) (if k + i = 0 then .own else .shared), .assemble (k + i)] by
    simpa using hh 0
  induction sims with
  | nil => intro k; simp [assembly]
  | cons s r ih =>
    intro k
    unfold assembly
    rw [if_pos (h s (by simp))]
    simp only [ih (fun s hm => h s (by simp [hm])) (k + 1), List.length_cons, List.range_succ_eq_map, List.flatMap_cons, Nat.add_zero, List.flatMap_map]
    congr 1
    simp only [List.flatMap, Nat.succ_eq_add_one]
    congr 1
    refine List.map_congr_left fun j _ => ?_
    simp only [Nat.add_assoc, Nat.add_comm 1 j, Function.comp_apply]

example : ∀ s ∈ [(⟨true, true, 2, true⟩ : Sim), ⟨true, true, 3, true⟩], s.assemble = true := by simp

/-- **C94**: whenever VTF output has been started, all coupled simulators are detached from the VTF object at the end, whether or not the output succeeded. -/
theorem C94_coupled_detach (sims : List Sim) (h : ∀ s ∈ sims, s.assemble = true) (i : Nat) (hi : i < sims.length) :
    Event.detach i ∈ (solveStatic sims true true).1 := by
  have h1' := (assembly_ok sims 0).mpr h
  unfold solveStatic
  simp only [h1', Bool.not_true, Bool.false_eq_true, if_false]
  cases (geometry sims 0 0).2 with
  | none => simp [hi]
  | some st => simp only; split_ifs <;> simp [hi]

example : Event.detach 1 ∈ (solveStatic [⟨true, true, 2, true⟩, ⟨true, false, 3, true⟩] true true).1 := by decide

/-- **C94** does not hold for the file if output of a coupled simulator fails: the simulators are detached without the file having been closed. -/
theorem C94_coupled_close_violated : ∃ sims : List Sim, Event.close ∉ (solveStatic sims true true).1 ∧ Event.geometry 0 0 ∈ (solveStatic sims true true).1 ∧
    Event.detach 0 ∈ (solveStatic sims true true).1 :=
  ⟨[⟨true, true, 2, true⟩, ⟨true, false, 3, true⟩], by decide, by decide, by decide⟩

/-- **C94** (partial): the field names of up to nine coupled simulators are `u1` to `u9`. -/
theorem C94_coupled_names_partial (i : Nat) (h : i < 9) : fieldName i = 'u' :: (toString (i + 1)).toList := by
  have : i = 0 ∨ i = 1 ∨ i = 2 ∨ i = 3 ∨ i = 4 ∨ i = 5 ∨ i = 6 ∨ i = 7 ∨ i = 8 := by omega
  rcases this with rfl | rfl | rfl | rfl | rfl | rfl | rfl | rfl | rfl <;> decide

example : fieldName 1 = ['u', '2'] := by decide

/-- **C94** does not hold from the tenth coupled simulator on: its field is named with a colon. -/
theorem C94_coupled_names_violated : fieldName 9 = ['u', ':'] := by decide

end Verif.Programs
