/-
Property C92: the dynamics driver saves the right steps and reports every failure.
-/
import Mathlib.Tactic.Linarith
import Mathlib.Algebra.Order.Ring.Rat
import Verif.Model.Newmark

set_option linter.unusedSectionVars false
set_option linter.unusedSimpArgs false
set_option linter.unusedVariables false

namespace Verif.Newmark

variable {K : Type} [Field K] [LinearOrder K] [IsStrictOrderedRing K]

/-- A step in which everything that is asked for succeeds. -/
def Good (c : Cfg K) (x : Step K) : Prop :=
  x.conv = true ∧ (c.doProject = true → x.projOk = true) ∧ (c.vtf = true → x.saveOk = true ∧ (c.doProject = true → x.glvPOk = true)) ∧
  (c.hdf5 = true → x.hdf5Ok = true) ∧ x.gridOk = true ∧ (c.restart = true → x.dump = true → x.serOk = true → x.writeOk = true)

/-- The save times: the first step at or after the next save time is saved. -/
def saved (c : Cfg K) : K → List K → List K
  | _, [] => []
  | next, t :: ts => if next ≤ t then t :: saved c (min (t + c.dtSave) c.stop) ts else saved c next ts

theorem pass_good (c : Cfg K) (hp : c.doProject = true → c.nProj ≠ 0) (s : St K) (hs : s.status = 0) (x : Step K) (hx : Good c x) :
    ∃ s', pass c s x = .ok s' ∧ s'.status = 0 ∧
      s'.iStep = (if s.nextSave ≤ x.t then s.iStep + 1 else s.iStep) ∧
      s'.frames = (if s.nextSave ≤ x.t then s.frames ++ [(s.iStep + 1, x.t)] else s.frames) ∧
      s'.nextSave = (if s.nextSave ≤ x.t then min (x.t + c.dtSave) c.stop else s.nextSave) ∧
      s'.restarts = (if c.restart = true ∧ x.dump = true ∧ x.serOk = true then s.restarts ++ [x.t] else s.restarts) := by
  obtain ⟨h1, h2, h3, h4, h5, h6⟩ := hx
  have hub : ¬ ((c.doProject && decide (c.nProj = 0)) = true) := by
    intro h; simp only [Bool.and_eq_true, decide_eq_true_eq] at h; exact hp h.1 h.2
  have hpr : (c.doProject && !x.projOk) = false := by
    cases hd : c.doProject
    · rfl
    · simp [h2 hd]
  have hmin : (if x.t + c.dtSave > c.stop then c.stop else x.t + c.dtSave) = min (x.t + c.dtSave) c.stop := by
    split_ifs with h
    · exact (min_eq_right (le_of_lt h)).symm
    · exact (min_eq_left (not_lt.mp h)).symm
  have hsave : (save c s x).status = 0 := by
    unfold save
    have e1 : (if c.vtf then (if !x.saveOk then s.status + 11 else if c.doProject && !x.glvPOk then s.status + 14 else s.status) else s.status) = 0 := by
      cases hv : c.vtf
      · simp [hs]
      · obtain ⟨k1, k2⟩ := h3 hv
        cases hd : c.doProject
        · simp [k1, hs]
        · simp [k1, k2 hd, hs]
    have e2 : (c.hdf5 && !x.hdf5Ok) = false := by
      cases hd : c.hdf5
      · rfl
      · simp [h4 hd]
    simp only [e1, e2, h5]; simp
  have hrest : ∀ s1 : St K, s1.status = 0 → (saveRestart c s1 x).status = 0 ∧ (saveRestart c s1 x).iStep = s1.iStep ∧
      (saveRestart c s1 x).frames = s1.frames ∧ (saveRestart c s1 x).nextSave = s1.nextSave ∧
      (saveRestart c s1 x).restarts = (if c.restart = true ∧ x.dump = true ∧ x.serOk = true then s1.restarts ++ [x.t] else s1.restarts) := by
    intro s1 hs1
    unfold saveRestart
    cases hr : c.restart
    · simp [hs1]
    · cases hd : x.dump
      · simp [hs1]
      · cases hw : x.serOk
        · simp [hs1]
        · simp [hs1, h6 hr hd hw]
  unfold pass
  rw [if_neg (by simp [h1]), if_neg hub]
  refine ⟨_, rfl, ?_⟩
  simp only [hpr, Bool.false_eq_true, if_false]
  by_cases hn : s.nextSave ≤ x.t
  · simp only [if_pos hn]
    obtain ⟨r1, r2, r3, r4, r5⟩ := hrest (save c s x) hsave
    refine ⟨r1, by rw [r2]; rfl, by rw [r3]; rfl, by rw [r4]; exact hmin, by rw [r5]; rfl⟩
  · simp only [if_neg hn]
    exact hrest s hs

theorem run_good (c : Cfg K) (hp : c.doProject = true → c.nProj ≠ 0) (xs : List (Step K)) (hx : ∀ x ∈ xs, Good c x) (s : St K) (hs : s.status = 0) :
    ∃ s', run c xs s = .ok s' ∧ s'.status = 0 ∧
      s'.frames = s.frames ++ ((saved c s.nextSave (xs.map Step.t)).zipIdx (s.iStep + 1)).map (fun p => (p.2, p.1)) ∧
      s'.restarts = s.restarts ++ (xs.filter fun x => c.restart && x.dump && x.serOk).map Step.t := by
  induction xs generalizing s with
  | nil => exact ⟨s, rfl, hs, by simp [saved], by simp⟩
  | cons x xs ih =>
    obtain ⟨s1, h1, h2, h3, h4, h5, h6⟩ := pass_good c hp s hs x (hx x (by simp))
    obtain ⟨s2, g1, g2, g3, g4⟩ := ih (fun x hm => hx x (by simp [hm])) s1 h2
    refine ⟨s2, ?_, g2, ?_, ?_⟩
    · simp only [run, if_pos hs, h1, Res.bind]; exact g1
    · rw [g3, h4, h5, h3]
      simp only [List.map_cons, saved]
      by_cases hn : s.nextSave ≤ x.t
      · simp only [if_pos hn, List.zipIdx_cons, List.map_cons, List.append_assoc, List.cons_append, List.nil_append]
      · simp only [if_neg hn]
    · rw [g4, h6]
      by_cases hc : c.restart = true ∧ x.dump = true ∧ x.serOk = true
      · rw [if_pos hc, List.filter_cons_of_pos (by simp [hc.1, hc.2.1, hc.2.2])]; simp
      · have hc' : ¬ ((c.restart && x.dump && x.serOk) = true) := by simpa [Bool.and_eq_true, and_assoc] using hc
        rw [if_neg hc]; simp only [List.filter_cons]; rw [if_neg hc']

/-- **C92**: when everything succeeds the driver returns zero, the saved steps are numbered 1, 2, ..., and they are the first steps at or after each save time. -/
theorem C92_saved (c : Cfg K) (hp : c.doProject = true → c.nProj ≠ 0) (t0 : K) (xs : List (Step K)) (hx : ∀ x ∈ xs, Good c x) :
    ∃ s', run c xs (start t0 c) = .ok s' ∧ s'.status = 0 ∧ s'.frames.map Prod.snd = saved c (t0 + c.dtSave) (xs.map Step.t) ∧
      s'.frames.map Prod.fst = List.range' 1 s'.frames.length ∧
      s'.restarts = (xs.filter fun x => c.restart && x.dump && x.serOk).map Step.t := by
  obtain ⟨s', h1, h2, h3, h4⟩ := run_good c hp xs hx (start t0 c) rfl
  refine ⟨s', h1, h2, ?_, ?_, by simpa [start] using h4⟩
  · rw [h3]; simp [start, Function.comp_def]
  · rw [h3]; simp [start, Function.comp_def, List.zipIdx_map_snd]

/-- A configuration and steps in which everything succeeds. -/
def cfg0 : Cfg ℚ := ⟨false, 0, true, true, true, 2, 5⟩
/-- A step without failures. -/
def step0 (t : ℚ) : Step ℚ := ⟨t, true, true, true, true, true, true, true, true, true⟩

example : (∀ x ∈ [step0 1, step0 2, step0 3, step0 4, step0 5], Good cfg0 x) ∧
    saved cfg0 (0 + 2) ([step0 1, step0 2, step0 3, step0 4, step0 5].map Step.t) = [2, 4, 5] := by
  refine ⟨fun x hx => ?_, by decide +kernel⟩
  simp only [List.mem_cons, List.not_mem_nil, or_false] at hx
  rcases hx with rfl | rfl | rfl | rfl | rfl <;> simp [Good, step0]

/-- **C92**: saved steps are at least the save interval apart, except for those at or after the stop time. -/
theorem C92_spacing (c : Cfg K) (t0 : K) (ts : List K) :
    (saved c (t0 + c.dtSave) ts).IsChain (fun a b => a + c.dtSave ≤ b ∨ c.stop ≤ b) := by
  suffices h : ∀ (ts : List K) (next : K), (saved c next ts).IsChain (fun a b => a + c.dtSave ≤ b ∨ c.stop ≤ b) ∧
      ∀ t ∈ (saved c next ts).head?, next ≤ t from (h ts _).1
  intro ts
  induction ts with
  | nil => intro next; simp [saved]
  | cons t ts ih =>
    intro next
    unfold saved
    by_cases h : next ≤ t
    · rw [if_pos h]
      obtain ⟨i1, i2⟩ := ih (min (t + c.dtSave) c.stop)
      refine ⟨?_, by simpa using h⟩
      rw [List.isChain_cons]
      refine ⟨fun b hb => ?_, i1⟩
      exact min_le_iff.mp (i2 b hb)
    · rw [if_neg h]; exact ih next

/-- **C92**: every step is saved when the save interval is zero (and the stop time is not passed before the end). -/
theorem C92_all (c : Cfg K) (h0 : c.dtSave = 0) (next : K) (ts : List K) (h : (next :: ts).Pairwise (· ≤ ·)) : saved c next ts = ts := by
  induction ts generalizing next with
  | nil => rfl
  | cons t ts ih =>
    have hp := List.pairwise_cons.mp h
    have ht : next ≤ t := hp.1 t (by simp)
    unfold saved
    rw [if_pos ht, ih]
    have hq := List.pairwise_cons.mp hp.2
    rw [List.pairwise_cons]
    refine ⟨fun b hb => le_trans (min_le_left _ _) ?_, hq.2⟩
    rw [h0, add_zero]; exact hq.1 b hb

example : ((0 : ℚ) :: [1, 2, 3]).Pairwise (· ≤ ·) := by decide +kernel

/-- **C92** (partial): the final step, which reaches the stop time, is saved if the first save time is not after the stop time. -/
theorem C92_final_partial (c : Cfg K) (t0 : K) (h : t0 + c.dtSave ≤ c.stop) (ts : List K) (t : K) (ht : c.stop ≤ t) :
    t ∈ saved c (t0 + c.dtSave) (ts ++ [t]) := by
  suffices hh : ∀ (ts : List K) (next : K), next ≤ c.stop → t ∈ saved c next (ts ++ [t]) from hh ts _ h
  intro ts
  induction ts with
  | nil => intro next hn; simp [saved, le_trans hn ht]
  | cons x xs ih =>
    intro next hn
    rw [List.cons_append]
    unfold saved
    by_cases hx : next ≤ x
    · rw [if_pos hx]; exact List.mem_cons_of_mem _ (ih _ (min_le_right _ _))
    · rw [if_neg hx]; exact ih _ hn

example : (0 : ℚ) + cfg0.dtSave ≤ cfg0.stop := by decide +kernel

/-- **C92** does not hold for a save interval longer than the simulation: no step is saved, not even the final one. -/
theorem C92_final_violated (c : Cfg K) (t0 : K) (ts : List K) (h : ∀ t ∈ ts, t ≤ c.stop) (hs : c.stop < t0 + c.dtSave) :
    saved c (t0 + c.dtSave) ts = [] := by
  induction ts with
  | nil => rfl
  | cons t ts ih =>
    have := h t (by simp)
    unfold saved
    rw [if_neg (by linarith), ih fun t hm => h t (by simp [hm])]

example : (∀ t ∈ [(1 : ℚ), 2], t ≤ (⟨false, 0, true, true, true, 10, 2⟩ : Cfg ℚ).stop) ∧
    (⟨false, 0, true, true, true, 10, 2⟩ : Cfg ℚ).stop < 0 + (⟨false, 0, true, true, true, 10, 2⟩ : Cfg ℚ).dtSave := by decide +kernel

/-! ### Failures -/

theorem save_status (c : Cfg K) (s : St K) (x : Step K) : s.status ≤ (save c s x).status := by
  unfold save; simp only; split_ifs <;> omega

theorem rest_status (c : Cfg K) (s : St K) (x : Step K) : s.status ≤ (saveRestart c s x).status := by
  unfold saveRestart; split_ifs <;> simp

/-- **C92**: a step without convergence, with a failing projection or with failing output ends the simulation with an error. -/
theorem C92_failure (c : Cfg K) (s : St K) (hs : s.status = 0) (x : Step K) (xs : List (Step K)) (s' : St K) (h : run c (x :: xs) s = .ok s')
    (hx : x.conv = false ∨ (c.doProject = true ∧ x.projOk = false) ∨
      (s.nextSave ≤ x.t ∧ ((c.vtf = true ∧ (x.saveOk = false ∨ (c.doProject = true ∧ x.glvPOk = false))) ∨ (c.hdf5 = true ∧ x.hdf5Ok = false) ∨
        x.gridOk = false)) ∨ (c.restart = true ∧ x.dump = true ∧ x.serOk = true ∧ x.writeOk = false)) :
    s'.status ≠ 0 ∧ pass c s x = .ok s' := by
  have hrun : run c (x :: xs) s = (pass c s x).bind (run c xs) := by simp [run, hs]
  rw [hrun] at h
  have hend : ∀ s1 : St K, s1.status ≠ 0 → run c xs s1 = .ok s1 := by
    intro s1 h1; cases xs with
    | nil => rfl
    | cons y ys => simp [run, h1]
  suffices hp : ∀ s1, pass c s x = .ok s1 → s1.status ≠ 0 by
    cases hpx : pass c s x with
    | ok s1 =>
      rw [hpx] at h
      have h1 := hp s1 hpx
      simp only [Res.bind, hend s1 h1] at h
      cases h
      exact ⟨h1, rfl⟩
    | fail => rw [hpx] at h; cases h
    | ub => rw [hpx] at h; cases h
  intro s1 hp
  unfold pass at hp
  by_cases hc : x.conv = true
  · rw [if_neg (by simp [hc])] at hp
    by_cases hub : (c.doProject && decide (c.nProj = 0)) = true
    · rw [if_pos hub] at hp; cases hp
    · rw [if_neg hub] at hp
      simp only [Res.ok.injEq] at hp
      subst hp
      rcases hx with hx | hx | hx | ⟨w1, w2, w3, w4⟩
      rotate_left 3
      · unfold saveRestart; simp [w1, w2, w3, w4]
      all_goals refine Nat.pos_iff_ne_zero.mp (lt_of_lt_of_le ?_ (rest_status c _ x))
      · rw [hc] at hx; cases hx
      · obtain ⟨h1, h2⟩ := hx
        have hd : (c.doProject && !x.projOk) = true := by simp [h1, h2]
        simp only [hd, if_true]
        split_ifs
        · exact lt_of_lt_of_le (by simp) (save_status c _ x)
        · simp
      · obtain ⟨h1, h2⟩ := hx
        generalize hgen : (if (c.doProject && !x.projOk) = true then { s with status := s.status + 6 } else s) = s2
        have hn : s2.nextSave = s.nextSave := by rw [← hgen]; split_ifs <;> rfl
        rw [hn, if_pos h1]
        unfold save
        rcases h2 with ⟨h2, h3 | ⟨h3, h4⟩⟩ | ⟨h2, h3⟩ | h3
        · simp [h2, h3]; split_ifs <;> omega
        · simp [h2, h3, h4]; split_ifs <;> omega
        · simp [h2, h3]; split_ifs <;> omega
        · simp [h3]
  · have hc' : x.conv = false := by simpa using hc
    rw [if_pos (by simp [hc'])] at hp
    simp only [Res.ok.injEq] at hp
    subst hp; simp

example : ∃ s', run (⟨true, 1, true, true, true, 1, 5⟩ : Cfg ℚ) [{ step0 1 with projOk := false }] (start 0 ⟨true, 1, true, true, true, 1, 5⟩) = .ok s' ∧
    s'.status = 6 := ⟨_, rfl, by decide +kernel⟩

/-- **C92** does not hold for the meaning of the status: a failing projection together with a failing VTF output gives the status of a failing restart output. -/
theorem C92_status_violated : ∃ (c : Cfg ℚ) (x y : Step ℚ) (s1 s2 : St ℚ), run c [x] (start 0 c) = .ok s1 ∧ run c [y] (start 0 c) = .ok s2 ∧
    x.writeOk = true ∧ x.projOk = false ∧ y.writeOk = false ∧ y.projOk = true ∧ s1.status = 17 ∧ s2.status = 17 :=
  ⟨⟨true, 1, true, true, true, 1, 5⟩, { step0 1 with projOk := false, saveOk := false }, { step0 1 with writeOk := false }, _, _, rfl, rfl, rfl, rfl, rfl, rfl,
    by decide +kernel, by decide +kernel⟩

/-- **C92** does not hold for failing serialization: the step asked for is not in the restart file and no error is reported. -/
theorem C92_restart_violated : ∃ (x : Step ℚ) (s' : St ℚ), x.dump = true ∧ x.serOk = false ∧ run cfg0 [x] (start 0 cfg0) = .ok s' ∧ s'.status = 0 ∧ s'.restarts = [] :=
  ⟨{ step0 1 with serOk := false }, _, rfl, rfl, rfl, by decide +kernel, by decide +kernel⟩

/-! ### Set-up -/

/-- **C92** (partial): with the number of projection vectors set by the modal program, the driver never accesses a missing vector. -/
theorem C92_projection_partial (c : Cfg K) (n : Nat) (h : c.nProj = nProj .modal n) (hn : c.doProject = true → 0 < n) (xs : List (Step K)) (s : St K) :
    run c xs s ≠ .ub := by
  have hp : ∀ s x, ∃ s', pass c s x = .ok s' := by
    intro s x
    unfold pass
    by_cases h1 : (!x.conv) = true
    · rw [if_pos h1]; exact ⟨_, rfl⟩
    · rw [if_neg h1]
      by_cases h2 : (c.doProject && decide (c.nProj = 0)) = true
      · simp only [Bool.and_eq_true, decide_eq_true_eq] at h2
        have := hn h2.1
        simp only [nProj] at h; omega
      · rw [if_neg h2]; exact ⟨_, rfl⟩
  induction xs generalizing s with
  | nil => simp [run]
  | cons x xs ih =>
    unfold run
    split_ifs
    · obtain ⟨s', h'⟩ := hp s x
      rw [h']; exact ih s'
    · simp

example : (⟨true, 2, true, true, true, 1, 5⟩ : Cfg ℚ).nProj = nProj .modal 2 := rfl

/-- **C92** does not hold for linear dynamics with a projection: the projection vectors are never allocated, and the first step accesses a missing one. -/
theorem C92_projection_violated (c : Cfg K) (n : Nat) (h : c.nProj = nProj .dynamic n) (hd : c.doProject = true) (x : Step K) (hx : x.conv = true)
    (xs : List (Step K)) (t0 : K) : run c (x :: xs) (start t0 c) = .ub := by
  have hn : c.nProj = 0 := h
  simp [run, start, pass, hx, hd, hn, Res.bind]

example : (⟨true, 0, true, true, true, 1, 5⟩ : Cfg ℚ).nProj = nProj .dynamic 2 := rfl

/-- **C92** (partial): a stop time above one given on the command line overrides the input in all programs but the modal one. -/
theorem C92_stop_partial (p : Prog) (hp : p ≠ .modal) (time input : K) (h : 1 < time) : stopTime p time input = time := by
  cases p <;> simp_all [stopTime]

example : stopTime .multiLoadCase (2 : ℚ) 7 = 2 := by decide +kernel

/-- **C92** does not hold for stop times up to one, nor for the modal program: the command line is ignored. In the linear dynamics program a negative value gives its absolute
value, which is the only way to ask for a short simulation. -/
theorem C92_stop_violated (time input : K) (h0 : 0 < time) (h1 : time ≤ 1) :
    stopTime .dynamic time input = input ∧ stopTime .multiLoadCase time input = input ∧ (∀ s, stopTime .modal s input = input) ∧
    stopTime .dynamic (-time) input = time := by
  have h2 : ¬ (time > 1) := not_lt.mpr h1
  have h3 : ¬ (time < 0) := not_lt.mpr (le_of_lt h0)
  have h4 : ¬ (-time > 1) := by intro h; linarith
  have h5 : -time < 0 := by linarith
  simp [stopTime, h2, h3, h4, h5]

example : (0 : ℚ) < 1 / 2 ∧ (1 / 2 : ℚ) ≤ 1 := by decide +kernel

end Verif.Newmark
