/-
Property C104: refinement, initial state and extreme values of the nonlinear driver.
-/
import Mathlib.Tactic.NormNum
import Verif.Model.NLDriver
import Verif.Props.PlateNorms

set_option linter.unusedSectionVars false
set_option linter.unusedSimpArgs false
set_option linter.unusedVariables false

namespace Verif.NLDriver

/-! ### Mesh refinement -/

section
variable {K : Type} [Zero K]

/-- C104: without adaptivity, and when the mesh is fine, the state is not changed; an error of the error estimation stops the simulation. -/
theorem C104_no_refinement (format : Int) (r : Refined K) (s : St K) :
    adaptMesh false format r s = (true, s) ∧ (r.ierr = 0 → adaptMesh true format r s = (true, s)) ∧ (r.ierr < 0 → (adaptMesh true format r s).1 = false) := by
  refine ⟨rfl, fun h => ?_, fun h => ?_⟩
  · have h1 : ¬ r.ierr < 0 := by omega
    unfold adaptMesh; rw [if_neg (by decide), if_neg h1, if_pos h]
  · unfold adaptMesh; rw [if_neg (by decide), if_pos h]

/-- C104: the simulation goes on after a refinement exactly if all steps of it were successful. -/
theorem C104_refine_ok (format : Int) (r : Refined K) (s : St K) (h : 0 < r.ierr) :
    (adaptMesh true format r s).1 = true ↔ r.refineOk = true ∧ r.readOk = true ∧ r.preprocOk = true ∧ r.initOk = true ∧ (0 ≤ format → r.saveOk = true) := by
  have h1 : ¬ r.ierr < 0 := by omega
  have h2 : ¬ r.ierr = 0 := by omega
  unfold adaptMesh
  rw [if_neg (by decide), if_neg h1, if_neg h2]
  cases r.refineOk <;> cases r.readOk <;> cases r.preprocOk <;> cases r.initOk <;> cases r.saveOk <;> by_cases hf : format < 0 <;> simp [hf]

theorem find_range {n : Nat} (l : List K) (hl : l.length = n) (d : Nat) (hd : d < n) :
    ((List.range n).zip l).find? (fun q => q.1 = d) = some (d, l[d]'(by omega)) := by
  rw [List.find?_eq_some_iff_getElem]
  refine ⟨by simp, d, by simp [hl, hd], by simp, ?_⟩
  intro j hj
  simp
  omega

/-- C104, partial: with one patch, which has the equations of the model, the solution after the refinement is the one transferred to the new mesh. -/
theorem C104_transfer_partial (format : Int) (r : Refined K) (s : St K) (h : 0 < r.ierr) (v : List (List K)) (hp : r.patches = [v]) (hd : r.dofs = [List.range r.n])
    (hv : ∀ w ∈ v, w.length = r.n) : (adaptMesh true format r s).2.sol = soli r v.length ∧ (adaptMesh true format r s).2.sol = v := by
  have h1 : ¬ r.ierr < 0 := by omega
  have h2 : ¬ r.ierr = 0 := by omega
  have e : (adaptMesh true format r s).2.sol = v := by
    unfold adaptMesh
    rw [if_neg (by decide), if_neg h1, if_neg h2, hp]
    simp only [List.flatten_cons, List.flatten_nil, List.append_nil]
    split_ifs <;> rfl
  refine ⟨?_, e⟩
  rw [e]
  unfold soli
  rw [hp, hd]
  simp only [List.zip_cons_cons, List.zip_nil_left, List.zip_nil_right, List.foldl_cons, List.foldl_nil]
  apply List.ext_getElem?
  intro i
  rw [List.getElem?_map]
  by_cases hi : i < v.length
  · rw [List.getElem?_range hi, Option.map_some, List.getElem?_eq_getElem hi]
    congr 1
    have hl : (v[i]).length = r.n := hv _ (List.getElem_mem hi)
    have hg : v.getD i [] = v[i] := by rw [List.getD_eq_getElem?_getD, List.getElem?_eq_getElem hi]; rfl
    rw [hg]
    unfold inject
    apply List.ext_getElem
    · simp [hl]
    · intro d hd1 hd2
      rw [hl] at hd1
      rw [List.getElem_map, List.getElem_range, find_range _ hl d hd1]
  · rw [List.getElem?_eq_none (by simpa using hi), List.getElem?_eq_none (by simpa using hi)]
    rfl

example : ∃ r : Refined ℚ, 0 < r.ierr ∧ r.patches = [[[1, 2, 3]]] ∧ r.dofs = [List.range r.n] ∧ r.n = 3 :=
  ⟨⟨1, true, true, true, true, true, [[[1, 2, 3]]], [[0, 1, 2]], 3⟩, by decide, rfl, rfl, rfl⟩

/-- C104 fails for several patches: the vectors of the patches take the place of those of the model, such that there are too many. -/
theorem C104_transfer_violated (format : Int) (r : Refined K) (s : St K) (h : 0 < r.ierr) (nsol : Nat) (hn : 0 < nsol) (hp : ∀ v ∈ r.patches, v.length = nsol)
    (h2 : 2 ≤ r.patches.length) : nsol < (adaptMesh true format r s).2.sol.length ∧ (soli r nsol).length = nsol := by
  have h1 : ¬ r.ierr < 0 := by omega
  have h3 : ¬ r.ierr = 0 := by omega
  have e : (adaptMesh true format r s).2.sol = r.patches.flatten := by
    unfold adaptMesh
    rw [if_neg (by decide), if_neg h1, if_neg h3]
    simp only []
    split_ifs <;> rfl
  refine ⟨?_, by simp [soli]⟩
  rw [e, List.length_flatten]
  match hq : r.patches, h2 with
  | a :: b :: l, _ =>
    have ha := hp a (by simp [hq])
    have hb := hp b (by simp [hq])
    simp [ha, hb]
    omega

/-- C104 fails for several patches: the first vector, which is taken for the current solution, has the values of the first patch only. Witness: two elements with a common equation. -/
theorem C104_values_violated : ∃ r : Refined ℚ, r.patches = [[[1, 2]], [[2, 3]]] ∧ r.dofs = [[0, 1], [1, 2]] ∧ r.n = 3 ∧
    soli r 1 = [[1, 2, 3]] ∧ (adaptMesh true 0 r ⟨[[1, 3]], 0⟩).2.sol = [[1, 2], [2, 3]] :=
  ⟨⟨1, true, true, true, true, true, [[[1, 2]], [[2, 3]]], [[0, 1], [1, 2]], 3⟩, rfl, rfl, rfl, by decide +kernel, by decide +kernel⟩

end

/-! ### Options and the initial state -/

/-- C104: options of the post-processing tag. -/
theorem C104_options (o : Opt) (l : List Tag) :
    ((l.foldl parseTag o).pSolOnly = true ↔ o.pSolOnly = true ∧ .direct2nd ∉ l) ∧
    ((l.foldl parseTag o).saveE0 = true ↔ o.saveE0 = true ∨ .saveNewElms0 ∈ l) ∧
    ((l.foldl parseTag o).save0 = true ↔ o.save0 = true ∧ .skipInit ∉ l ∧ .points true ∉ l) := by
  induction l generalizing o with
  | nil => simp
  | cons t l ih =>
    rw [List.foldl_cons]
    obtain ⟨h1, h2, h3⟩ := ih (parseTag o t)
    rw [h1, h2, h3]
    cases t with
    | points g => cases g <;> simp [parseTag]
    | _ => simp [parseTag]

/-- C104: the initial state is saved, as the first step, exactly if results are saved, the input does not ask to skip it, and there are several time steps. -/
theorem C104_initial {K : Type} [LT K] [Zero K] [DecidableLT K] (format : Int) (o : Opt) (multi : Bool) (dt : K) (modelOk stepOk : Bool) :
    ((saveInit format o multi dt modelOk stepOk).2 = 1 ↔ 0 ≤ format ∧ modelOk = true ∧ o.save0 = true ∧ multi = true ∧ 0 < dt) ∧
    ((saveInit format o multi dt modelOk stepOk).2 ≤ 1) ∧
    ((saveInit format o multi dt modelOk stepOk).1 = none ↔ (0 ≤ format → modelOk = true) ∧ ((saveInit format o multi dt modelOk stepOk).2 = 1 → stepOk = true)) := by
  unfold saveInit
  by_cases hf : 0 ≤ format
  · by_cases hd : (0 : K) < dt <;> cases modelOk <;> cases stepOk <;> cases multi <;> cases o.save0 <;> simp [hf, hd]
  · simp [hf]

/-! ### Extreme values -/

section
variable {K X : Type} [Field K] [LinearOrder K] [IsStrictOrderedRing K]

/-- The samples of a history. -/
def samples : List (Ev X K) → List (Norms.Sample X K)
  | [] => []
  | .mode _ :: h => samples h
  | .eval p x s :: h => ⟨p, x, s⟩ :: samples h

theorem run_evals (f : Form) (x0 : X) (s : Mode × List (List (Norms.PtVal X K))) (h : List (Ev X K)) (hm : ∀ m, Ev.mode m ∉ h) :
    run f x0 s h = (s.1, Norms.runMax s.2 (samples h)) := by
  induction h generalizing s with
  | nil => rfl
  | cons e h ih =>
    cases e with
    | mode m => exact absurd (by simp) (hm m)
    | eval p x v =>
      show run f x0 (step f x0 s (.eval p x v)) h = _
      rw [ih _ (fun m hm' => hm m (by simp [hm']))]
      rfl

theorem shape (x0 : X) (f : Form) (nf nP : Nat) (h : List (Ev X K)) (m0 : Mode) :
    ∃ g, (run f x0 (m0, Norms.allocMax x0 nf nP) h).2 = Norms.runMax (Norms.allocMax x0 nf nP) g := by
  induction h using List.reverseRecOn with
  | nil => exact ⟨[], rfl⟩
  | append_singleton h e ih =>
    obtain ⟨g, hg⟩ := ih
    unfold run at hg ⊢
    rw [List.foldl_append, List.foldl_cons, List.foldl_nil]
    generalize List.foldl (step f x0) (m0, Norms.allocMax x0 nf nP) h = s at hg
    cases e with
    | mode m =>
      show ∃ g, (if resets f s.1 m then Norms.resetMax x0 s.2 else s.2) = _
      cases resets f s.1 m with
      | false => exact ⟨g, hg⟩
      | true => exact ⟨[], by rw [if_pos rfl, hg, Norms.C16_reset]; rfl⟩
    | eval p x v =>
      refine ⟨g ++ [⟨p, x, v⟩], ?_⟩
      show Norms.evalMax p x v s.2 = _
      rw [hg]
      unfold Norms.runMax
      rw [List.foldl_append]
      rfl

/-- C104, partial: in linear and updated Lagrangian formulations, whatever was computed before, the extreme values after a step are those of the result points
evaluated since the results of the step are recovered. -/
theorem C104_extreme_partial (f : Form) (hf : f ≠ .tl) (x0 : X) (nf nP : Nat) (m0 : Mode) (before : List (Ev X K)) (m : Mode) (hm : m ≠ .recovery) (now : List (Ev X K))
    (hn : ∀ m, Ev.mode m ∉ now) :
    (run f x0 (m0, Norms.allocMax x0 nf nP) (before ++ [.mode m, .mode .recovery] ++ now)).2 = Norms.runMax (Norms.allocMax x0 nf nP) (samples now) := by
  have e : run f x0 (m0, Norms.allocMax x0 nf nP) (before ++ [.mode m, .mode .recovery] ++ now) =
      run f x0 (run f x0 (m0, Norms.allocMax x0 nf nP) (before ++ [.mode m, .mode .recovery])) now := by
    unfold run; rw [List.foldl_append]
  rw [e, run_evals _ _ _ _ hn]
  have h2 : (run f x0 (m0, Norms.allocMax x0 nf nP) (before ++ [.mode m, .mode .recovery])).2 = Norms.allocMax x0 nf nP := by
    have e2 : run f x0 (m0, Norms.allocMax x0 nf nP) (before ++ [.mode m, .mode .recovery]) =
        step f x0 (run f x0 (m0, Norms.allocMax x0 nf nP) (before ++ [.mode m])) (.mode .recovery) := by
      unfold run
      rw [show before ++ [Ev.mode m, .mode .recovery] = (before ++ [.mode m]) ++ [.mode .recovery] by simp, List.foldl_append (l' := [Ev.mode .recovery])]
      rfl
    have hmode : (run f x0 (m0, Norms.allocMax x0 nf nP) (before ++ [.mode m])).1 = m := by
      unfold run; rw [List.foldl_append]; rfl
    obtain ⟨g, hg⟩ := shape (K := K) x0 f nf nP (before ++ [.mode m]) m0
    rw [e2]
    show (if resets f _ .recovery then Norms.resetMax x0 _ else _) = _
    rw [hmode, hg, Norms.C16_reset]
    have : resets f m .recovery = true := by
      cases f <;> cases m <;> first | rfl | exact absurd rfl hm | exact absurd rfl hf
    rw [if_pos this]
  simp only [h2]

/-- C104 fails in total Lagrangian formulations: the extreme values of all steps are accumulated, those of a step with smaller stresses are not found. -/
theorem C104_extreme_violated (x0 : X) (nf nP : Nat) (m0 : Mode) (before now : List (Ev X K)) :
    (run .tl x0 (m0, Norms.allocMax x0 nf nP) (before ++ now)).2 = Norms.runMax (Norms.allocMax x0 nf nP) (samples before ++ samples now) := by
  have gen : ∀ (h : List (Ev X K)) (s : Mode × List (List (Norms.PtVal X K))), (run .tl x0 s h).2 = Norms.runMax s.2 (samples h) := by
    intro h
    induction h with
    | nil => intro s; rfl
    | cons e h ih =>
      intro s
      show (run .tl x0 (step .tl x0 s e) h).2 = _
      rw [ih]
      cases e <;> rfl
  have happ : ∀ a b : List (Ev X K), samples (a ++ b) = samples a ++ samples b := by
    intro a b
    induction a with
    | nil => rfl
    | cons e a ih => cases e <;> simp [samples, ih]
  rw [gen, happ]

end

/-- Two steps with stresses 10 and 1 in a point: the value of the second step is given as 10 by the total, 1 by the updated Lagrangian formulation. -/
example : (run .tl (0 : Nat) (.static, Norms.allocMax 0 1 1) [.mode .recovery, .eval 0 5 [(10 : ℚ)], .mode .static, .mode .recovery, .eval 0 5 [1]]).2 = [[(5, 10)]] ∧
    (run .ul (0 : Nat) (.static, Norms.allocMax 0 1 1) [.mode .recovery, .eval 0 5 [(10 : ℚ)], .mode .static, .mode .recovery, .eval 0 5 [1]]).2 = [[(5, 1)]] := by
  have e : (Mode.static == Mode.recovery) = false ∧ (Mode.static != Mode.recovery) = true ∧ (Mode.recovery != Mode.static) = true ∧ (Mode.recovery == Mode.recovery) = true := by decide
  constructor <;> norm_num [run, step, resets, e, Norms.resetMax, Norms.allocMax, Norms.evalMax, Norms.updMax]

/-- C104: the extreme values found so far are kept if the recovery of stresses goes on, and in all changes to other modes than recovery (and, in linear analysis, norms). -/
theorem C104_kept [Field K] [LinearOrder K] (x0 : X) (f : Form) (m m' : Mode) (t : List (List (Norms.PtVal X K))) (h : m' ≠ .recovery) (h' : f = .linear → m' ≠ .norms) :
    (run f x0 (m, t) [.mode m']).2 = t ∧ (run f x0 (.recovery, t) [.mode .recovery]).2 = t := by
  have e1 : (m' == Mode.recovery) = false := by simpa using h
  have e3 : (Mode.recovery != Mode.recovery) = false := by decide
  constructor
  · cases f
    · have e2 : (m' == Mode.norms) = false := by simpa using h' rfl
      simp [run, step, resets, e1, e2]
    · simp [run, step, resets, e1]
    · simp [run, step, resets, e1]
  · cases f <;> simp [run, step, resets, e3]

end Verif.NLDriver
