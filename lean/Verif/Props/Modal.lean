/- Property C135: modal simulations. -/
import Verif.Model.Modal
import Verif.Props.Vibration

set_option linter.unusedSectionVars false
set_option linter.unusedSimpArgs false

namespace Verif.Modal

open Verif.Struct

variable {K : Type*} [Field K]

/-! ### Specification -/

/-- The part of the static response in the given modes: each mode times the work of the loads in it over the square of its frequency. -/
def response (d n : Nat) (ms : List (K × (Nat → Nat → K))) (F : Nat → Nat → K) (a i : Nat) : K := (ms.map fun m => dotN d n F m.2 / m.1 * m.2 a i).sum

/-- A list of modes of nonzero frequency, orthonormal with respect to the mass. -/
structure Normal [LinearOrder K] (d n : Nat) (es : List (VElm K)) (r : List (Elm K × DMat K) × List (Elm K × DMat K)) (fixed : Nat → Nat → Prop) (ms : List (K × (Nat → Nat → K))) : Prop where
  modes : ∀ m ∈ ms, Struct.Mode d n (asmK d r.1) (asmK d r.2) fixed m.1 m.2
  nonzero : ∀ m ∈ ms, m.1 ≠ 0
  orth : ms.Pairwise fun m m' => kin d es m.2 m'.2 = 0
  unit : ∀ m ∈ ms, kin d es m.2 m.2 = 1

/-! ### Proofs -/

theorem expand_eq (ms : List (K × (Nat → Nat → K))) (c : K × (Nat → Nat → K) → K) (a i : Nat) : expand ms (ms.map c) a i = (ms.map fun m => c m * m.2 a i).sum := by
  unfold expand
  induction ms with
  | nil => rfl
  | cons m l ih => simp only [List.map_cons, List.zipWith_cons_cons, List.sum_cons, ih]

theorem modalSol_eq (d n : Nat) (ms : List (K × (Nat → Nat → K))) (F : Nat → Nat → K) : expand ms (modalSol d n ms F) = response d n ms F := by
  funext a i
  unfold modalSol response
  rw [expand_eq]
  simp only [dotN, mul_comm (F _ _)]

/-- C135 (quasi-static steps): a quasi-static modal simulation gives in each step, until the first whose equations cannot be solved or whose update fails, the response to the loads of that step; earlier steps have no effect. -/
theorem C135_steps (d n : Nat) (ms : List (K × (Nat → Nat → K))) (l : List (StepIn K)) (sol : List K) :
    run true d n ms l sol = (l.takeWhile fun i => i.solver && i.update).map fun i => response d n ms i.F := by
  induction l generalizing sol with
  | nil => rfl
  | cons i l ih =>
    cases hs : i.solver <;> cases hu : i.update <;>
      simp [run, step, predictStep, checkConvergence, correctStep, hs, hu, ih, modalSol_eq]

/-- C135 (dynamic steps): in a dynamic modal simulation prediction, convergence and correction are those of the time integration, and a step in which prediction, solution or convergence fails leaves the solution as it was. -/
theorem C135_dynamic (d n : Nat) (ms : List (K × (Nat → Nat → K))) (i : StepIn K) (sol : List K) :
    (i.predict = true → i.solver = true → i.conv = .converged → i.correct = true → step false d n ms i sol = (.converged, i.newmark sol)) ∧
    ((step false d n ms i sol).1 = .converged → i.predict = true ∧ i.solver = true ∧ i.conv = .converged ∧ i.correct = true) ∧
    (i.predict = false ∨ i.solver = false ∨ i.conv ≠ .converged → (step false d n ms i sol).2 = sol) := by
  refine ⟨fun h1 h2 h3 h4 => ?_, fun h => ?_, fun h => ?_⟩
  · simp [step, predictStep, checkConvergence, correctStep, h1, h2, h3, h4]
  · revert h
    cases h1 : i.predict <;> cases h2 : i.solver <;> cases h3 : i.conv <;> cases h4 : i.correct <;> simp [step, predictStep, checkConvergence, correctStep, h1, h2, h3, h4]
  · revert h
    cases h1 : i.predict <;> cases h2 : i.solver <;> cases h3 : i.conv <;> simp [step, predictStep, checkConvergence, correctStep, h1, h2, h3]

section
variable [LinearOrder K] [IsStrictOrderedRing K]

theorem work_zero (d : Nat) (es : List (Elm K)) (v : Nat → Nat → K) : work d es v (fun _ _ => 0) = 0 := by
  have := work_lin d es v (fun _ _ => 0) (fun _ _ => 0) 1
  simp only [mul_zero, add_zero, one_mul] at this
  linarith

theorem work_list (d : Nat) (es : List (Elm K)) (v : Nat → Nat → K) (ms : List (K × (Nat → Nat → K))) (c : K × (Nat → Nat → K) → K) :
    work d es v (fun a i => (ms.map fun m => c m * m.2 a i).sum) = (ms.map fun m => c m * work d es v m.2).sum := by
  induction ms with
  | nil => exact work_zero d es v
  | cons m l ih =>
    simp only [List.map_cons, List.sum_cons]
    rw [← ih, add_comm (c m * _), ← work_lin]
    exact congrArg (work d es v) (funext fun a => funext fun i => add_comm _ _)

/-- A sum over modes in which only one does not vanish. -/
theorem sum_one (d : Nat) (es : List (VElm K)) (ms : List (K × (Nat → Nat → K))) (ho : ms.Pairwise fun m m' => kin d es m.2 m'.2 = 0) (hu : ∀ m ∈ ms, kin d es m.2 m.2 = 1)
    (f : K × (Nat → Nat → K) → K) : ∀ m ∈ ms, (ms.map fun m' => f m' * kin d es m.2 m'.2).sum = f m := by
  induction ms with
  | nil => simp
  | cons q l ih =>
    rw [List.pairwise_cons] at ho
    intro m hm
    rw [List.map_cons, List.sum_cons]
    rcases List.mem_cons.mp hm with rfl | hm
    · rw [hu m (by simp), mul_one, List.sum_eq_zero, add_zero]
      intro b hb
      obtain ⟨m', hm', rfl⟩ := List.mem_map.mp hb
      rw [ho.1 m' hm', mul_zero]
    · rw [ih ho.2 (fun m hm => hu m (by simp [hm])) m hm, kin_symm, ho.1 m hm, mul_zero, zero_add]

/-- The work of the internal forces of the response in a mode is that of the loads. -/
theorem work_response (d n : Nat) (x : Nat → Nat → K) (es : List (VElm K)) (h : Heavy d n x es) (r) (hr : vibs d es = .ok r) (fixed : Nat → Nat → Prop) (ms : List (K × (Nat → Nat → K)))
    (hm : Normal d n es r fixed ms) (F : Nat → Nat → K) : ∀ m ∈ ms, work d (es.map VElm.solid) m.2 (response d n ms F) = dotN d n F m.2 := by
  obtain ⟨r', h1, h2, h3⟩ := C134_energies d n x es h
  rw [hr] at h1; cases h1
  intro m hmm
  unfold response
  rw [work_list]
  have e : ∀ m' ∈ ms, dotN d n F m'.2 / m'.1 * work d (es.map VElm.solid) m.2 m'.2 = dotN d n F m'.2 * kin d es m.2 m'.2 := by
    intro m' hm'
    have : m'.1 * kin d es m.2 m'.2 = work d (es.map VElm.solid) m.2 m'.2 := by
      rw [← h2, ← h3, mode_test d n _ _ fixed m'.1 m'.2 m.2 (hm.modes m' hm') (hm.modes m hmm).held]
    rw [← this, ← mul_assoc, div_mul_cancel₀ _ (hm.nonzero m' hm')]
  rw [List.map_congr_left e]
  exact sum_one d es ms hm.orth hm.unit (fun m => dotN d n F m.2) m hmm

theorem response_held (d n : Nat) (es : List (VElm K)) (r) (fixed : Nat → Nat → Prop) (ms : List (K × (Nat → Nat → K))) (hm : Normal d n es r fixed ms) (F : Nat → Nat → K) (a i : Nat) (ha : a < n) (hi : i < d)
    (hf : fixed (a + 1) (i + 1)) : response d n ms F (a + 1) (i + 1) = 0 := by
  unfold response
  refine List.sum_eq_zero fun b hb => ?_
  obtain ⟨m, hmm, rfl⟩ := List.mem_map.mp hb
  rw [(hm.modes m hmm).held a i ha hi hf, mul_zero]

/-- C135 (all modes): if every admissible displacement is a superposition of the modes, the response is the solution of the static problem. -/
theorem C135_static (d n : Nat) (x : Nat → Nat → K) (es : List (VElm K)) (h : Heavy d n x es) (r) (hr : vibs d es = .ok r) (fixed : Nat → Nat → Prop) (ms : List (K × (Nat → Nat → K)))
    (hm : Normal d n es r fixed ms) (hall : ∀ v : Nat → Nat → K, (∀ a i, a < n → i < d → fixed (a + 1) (i + 1) → v (a + 1) (i + 1) = 0) →
      ∃ c : K × (Nat → Nat → K) → K, ∀ a i, a < n → i < d → v (a + 1) (i + 1) = (ms.map fun m => c m * m.2 (a + 1) (i + 1)).sum) (F : Nat → Nat → K) :
    Solves d n (asmK d r.1) F (fun _ _ => 0) fixed (response d n ms F) := by
  obtain ⟨r', h1, h2, h3⟩ := C134_energies d n x es h
  rw [hr] at h1; cases h1
  refine ⟨fun a i ha hi hf => ?_, fun a i ha hi hf => response_held d n es r fixed ms hm F a i ha hi hf⟩
  obtain ⟨G, hG⟩ : ∃ G : Nat → Nat → K, G = fun a i => nodal d n (asmK d r.1) (response d n ms F) a i - F a i := ⟨_, rfl⟩
  have key : ∀ m ∈ ms, ∑ a ∈ Finset.range n, ∑ i ∈ Finset.range d, m.2 (a + 1) (i + 1) * G (a + 1) (i + 1) = 0 := by
    intro m hmm
    have := work_response d n x es h r hr fixed ms hm F m hmm
    rw [← h2] at this
    rw [hG]
    simp only [mul_sub, Finset.sum_sub_distrib]
    rw [this]
    simp only [dotN, mul_comm (F _ _), sub_self]
  obtain ⟨c, hc⟩ := hall (fun b j => if b = a + 1 ∧ j = i + 1 then 1 else 0) fun b j hb hj hbj => by
    rw [if_neg]; rintro ⟨e1, e2⟩; rw [e1, e2] at hbj; exact hf hbj
  have hGu : G (a + 1) (i + 1) = ∑ b ∈ Finset.range n, ∑ j ∈ Finset.range d, (if b + 1 = a + 1 ∧ j + 1 = i + 1 then (1 : K) else 0) * G (b + 1) (j + 1) := by
    rw [Finset.sum_eq_single a, Finset.sum_eq_single i]
    · simp
    · intro j _ hj; simp [hj]
    · intro hn; exact absurd (Finset.mem_range.mpr hi) hn
    · intro b _ hb; exact Finset.sum_eq_zero fun j _ => by simp [hb]
    · intro hn; exact absurd (Finset.mem_range.mpr ha) hn
  have hz : G (a + 1) (i + 1) = 0 := by
    rw [hGu]
    have : ∀ b ∈ Finset.range n, ∀ j ∈ Finset.range d, (if b + 1 = a + 1 ∧ j + 1 = i + 1 then (1 : K) else 0) * G (b + 1) (j + 1) = (ms.map fun m => c m * (m.2 (b + 1) (j + 1) * G (b + 1) (j + 1))).sum := by
      intro b hb j hj
      rw [hc b j (Finset.mem_range.mp hb) (Finset.mem_range.mp hj), ← List.sum_map_mul_right]
      exact congrArg List.sum (List.map_congr_left fun m _ => by ring)
    rw [Finset.sum_congr rfl fun b hb => Finset.sum_congr rfl fun j hj => this b hb j hj]
    have swap : ∀ l : List (K × (Nat → Nat → K)), ∑ b ∈ Finset.range n, ∑ j ∈ Finset.range d, (l.map fun m => c m * (m.2 (b + 1) (j + 1) * G (b + 1) (j + 1))).sum =
        (l.map fun m => c m * ∑ b ∈ Finset.range n, ∑ j ∈ Finset.range d, m.2 (b + 1) (j + 1) * G (b + 1) (j + 1)).sum := by
      intro l
      induction l with
      | nil => simp
      | cons m l ih => simp only [List.map_cons, List.sum_cons, Finset.sum_add_distrib, ih, Finset.mul_sum]
    rw [swap]
    refine List.sum_eq_zero fun b hb => ?_
    obtain ⟨m, hmm, rfl⟩ := List.mem_map.mp hb
    rw [key m hmm, mul_zero]
  rw [hG] at hz
  exact sub_eq_zero.mp hz

/-- C135 (some modes): with any number of modes the strain energy (twice) of the response is the sum of the squared works of the loads in the modes over the squares of the frequencies, so it grows with every mode;
and it is less than that of the static solution by the energy of the difference. -/
theorem C135_energy (d n : Nat) (x : Nat → Nat → K) (es : List (VElm K)) (h : Heavy d n x es) (r) (hr : vibs d es = .ok r) (fixed : Nat → Nat → Prop) (ms : List (K × (Nat → Nat → K)))
    (hm : Normal d n es r fixed ms) (F : Nat → Nat → K) :
    work d (es.map VElm.solid) (response d n ms F) (response d n ms F) = (ms.map fun m => dotN d n F m.2 ^ 2 / m.1).sum ∧ (∀ m ∈ ms, 0 < m.1) ∧
    ∀ u, Solves d n (asmK d r.1) F (fun _ _ => 0) fixed u →
      work d (es.map VElm.solid) (fun a i => u a i - response d n ms F a i) (fun a i => u a i - response d n ms F a i) =
        work d (es.map VElm.solid) u u - work d (es.map VElm.solid) (response d n ms F) (response d n ms F) ∧
      work d (es.map VElm.solid) (response d n ms F) (response d n ms F) ≤ work d (es.map VElm.solid) u u := by
  obtain ⟨r', h1, h2, h3⟩ := C134_energies d n x es h
  rw [hr] at h1; cases h1
  have hl : ∀ v, (∀ m ∈ ms, work d (es.map VElm.solid) v m.2 = dotN d n F m.2) → work d (es.map VElm.solid) v (response d n ms F) = (ms.map fun m => dotN d n F m.2 ^ 2 / m.1).sum := by
    intro v hv
    unfold response
    rw [work_list]
    refine congrArg List.sum (List.map_congr_left fun m hmm => ?_)
    rw [hv m hmm]; ring
  have huu := hl (response d n ms F) fun m hmm => by rw [work_symm]; exact work_response d n x es h r hr fixed ms hm F m hmm
  refine ⟨huu, fun m hmm => ?_, fun u hu => ?_⟩
  · obtain ⟨r', k1, k2⟩ := C134_frequency d n x es h fixed
    rw [hr] at k1; cases k1
    have := (k2 m.1 m.2 (hm.modes m hmm)).2.1 (by rw [hm.unit m hmm]; exact one_ne_zero)
    exact lt_of_le_of_ne this (Ne.symm (hm.nonzero m hmm))
  · have hus : work d (es.map VElm.solid) u (response d n ms F) = (ms.map fun m => dotN d n F m.2 ^ 2 / m.1).sum := by
      refine hl u fun m hmm => ?_
      rw [work_symm, ← h2]
      exact solves_test d n (asmK d r.1) F _ fixed u m.2 hu (hm.modes m hmm).held
    have hd : work d (es.map VElm.solid) (fun a i => u a i - response d n ms F a i) (fun a i => u a i - response d n ms F a i) =
        work d (es.map VElm.solid) u u - work d (es.map VElm.solid) (response d n ms F) (response d n ms F) := by
      have e : (fun a i => u a i - response d n ms F a i) = fun a i => u a i + (-1) * response d n ms F a i := funext fun a => funext fun i => by ring
      rw [e, work_lin, work_symm d _ (fun a i => u a i + (-1) * response d n ms F a i) u, work_lin, work_symm d _ (fun a i => u a i + (-1) * response d n ms F a i) (response d n ms F), work_lin, work_symm d _ (response d n ms F) u, hus, huu]
      ring
    refine ⟨hd, ?_⟩
    have := (work_nonneg d n x _ h.sound fun a i => u a i - response d n ms F a i).1
    rw [hd] at this
    linarith

end

/-! ### Status of the drivers -/

/-- C135 (status): the modal simulation returns 1 if the file is not an input file or cannot be read, 2 if the model cannot be saved, 3 or 4 if the equations or the restart cannot be set up, and otherwise the status of
the time integration, which is done in this case only. Without inertia there is one solution vector, otherwise three. -/
theorem C135_status (i : SimIn) (dumpModes qstatic : Bool) :
    (modalSim i dumpModes qstatic).2 = (if i.xinp = false ∨ i.read = false then 1 else if 0 ≤ i.format ∧ i.saveModel = false then 2 else if i.initSystem = false then 3 else if i.restart = false then 4 else i.solve) ∧
    (Act.solve ∈ (modalSim i dumpModes qstatic).1 ↔ i.xinp = true ∧ i.read = true ∧ (0 ≤ i.format → i.saveModel = true) ∧ i.initSystem = true ∧ i.restart = true) ∧
    (Act.noInertia ∈ (modalSim i dumpModes qstatic).1 ↔ i.xinp = true ∧ i.read = true ∧ qstatic = true) ∧
    (∀ k, Act.initSol k ∈ (modalSim i dumpModes qstatic).1 ↔ i.xinp = true ∧ i.read = true ∧ k = if qstatic then 1 else 3) ∧
    (Act.dump ∈ (modalSim i dumpModes qstatic).1 ↔ dumpModes = true) := by
  obtain ⟨a, b, f, c, e, g, s⟩ := i
  unfold modalSim
  cases a <;> cases b <;> cases c <;> cases e <;> cases g <;> cases dumpModes <;> cases qstatic <;> by_cases hf : 0 ≤ f <;> simp [hf]

/-- C135 (time history): steps are saved with consecutive numbers and their times until the first that does not converge or cannot be saved; the status tells which it was. -/
theorem C135_history (l : List (HistIn K)) (k : Nat) : ∃ m, m ≤ l.length ∧ (histLoop l k).1 = (List.range m).zipWith (fun j i => (k + j, i.t)) l ∧
    (∀ i ∈ l.take (m - 1), i.conv = .converged ∧ i.saveStep = true ∧ i.saveResults = true) ∧
    ((histLoop l k).2 = 0 ↔ ∀ i ∈ l, i.conv = .converged ∧ i.saveStep = true ∧ i.saveResults = true) ∧
    ((histLoop l k).2 = 0 → m = l.length) ∧
    ((histLoop l k).2 = 5 → ∃ i, l[m]? = some i ∧ i.conv ≠ .converged) ∧
    ((histLoop l k).2 = 11 → ∃ i, l[m]? = some i ∧ i.conv = .converged ∧ i.saveStep = false) ∧
    ((histLoop l k).2 = 13 → 0 < m ∧ ∃ i, l[m - 1]? = some i ∧ i.saveResults = false) ∧
    ((histLoop l k).2 = 0 ∨ (histLoop l k).2 = 5 ∨ (histLoop l k).2 = 11 ∨ (histLoop l k).2 = 13) := by
  induction l generalizing k with
  | nil => exact ⟨0, by simp [histLoop]⟩
  | cons i l ih =>
    by_cases h1 : i.conv = .converged
    · cases h2 : i.saveStep
      · exact ⟨0, by simp [histLoop, h1, h2]⟩
      · cases h3 : i.saveResults
        · refine ⟨1, by simp, ?_, by simp, ?_, by simp [histLoop, h1, h2, h3], by simp [histLoop, h1, h2, h3], by simp [histLoop, h1, h2, h3], by simp [histLoop, h1, h2, h3], by simp [histLoop, h1, h2, h3]⟩
          · simp [histLoop, h1, h2, h3, List.range_succ]
          · simp [histLoop, h1, h2, h3]
        · obtain ⟨m, m1, m2, m3, m4, m5, m6, m7, m8, m9⟩ := ih (k + 1)
          have e : histLoop (i :: l) k = ((k, i.t) :: (histLoop l (k + 1)).1, (histLoop l (k + 1)).2) := by simp [histLoop, h1, h2, h3]
          rw [e]
          refine ⟨m + 1, by simpa using m1, ?_, ?_, ?_, fun h => by simp [m5 h], fun h => by simpa using m6 h, fun h => by simpa using m7 h, fun h => ?_, m9⟩
          · simp only [m2]
            rw [List.range_succ_eq_map, List.zipWith_cons_cons, List.zipWith_map_left]
            simp [Nat.add_assoc, Nat.add_comm 1]
          · intro q hq
            cases m with
            | zero => simp at hq
            | succ m =>
              simp only [Nat.add_sub_cancel, List.take_succ_cons, List.mem_cons] at hq m3
              rcases hq with rfl | hq
              · exact ⟨h1, h2, h3⟩
              · exact m3 q hq
          · simp only [List.mem_cons, forall_eq_or_imp, h1, h2, h3, true_and, and_self]
            exact m4
          · obtain ⟨m8a, q, m8b, m8c⟩ := m8 h
            refine ⟨Nat.succ_pos m, q, ?_, m8c⟩
            obtain ⟨m, rfl⟩ : ∃ j, m = j + 1 := ⟨m - 1, by omega⟩
            simpa using m8b
    · exact ⟨0, by simp [histLoop, h1]⟩

/-- C135 (start of the time history): no step is done if the input cannot be read (1), the preprocessing fails (2) or the model cannot be saved (3); the stop time given on the command line replaces that of the input if it is larger than one. -/
theorem C135_history_start [LinearOrder K] (xinp read preprocess : Bool) (format : Int) (saveModel : Bool) (optTime stop : K) (steps : K → List (HistIn K)) :
    histSolve xinp read preprocess format saveModel optTime stop steps =
      if xinp = false ∨ read = false then ([], 1) else if preprocess = false then ([], 2) else if 0 ≤ format ∧ saveModel = false then ([], 3)
      else histLoop (steps (if 1 < optTime then optTime else stop)) 1 := by
  unfold histSolve
  cases xinp <;> cases read <;> cases preprocess <;> cases saveModel <;> by_cases hf : 0 ≤ format <;> simp [hf]

/-! ### Examples -/

/-- The modes of the triangle of the last property, for its supports: the hypotheses of C135_static are met by the modes of C134_exists. -/
example (d n : Nat) (x : Nat → Nat → ℝ) (es : List (VElm ℝ)) (h : Heavy d n x es) (fixed : Nat → Nat → Prop)
    (hpos : ∀ v : Nat → Nat → ℝ, (∀ a i, a < n → i < d → fixed (a + 1) (i + 1) → v (a + 1) (i + 1) = 0) → kin d es v v = 0 → ∀ a i, a < n → i < d → v (a + 1) (i + 1) = 0)
    (hsup : ∀ v : Nat → Nat → ℝ, (∀ a i, a < n → i < d → fixed (a + 1) (i + 1) → v (a + 1) (i + 1) = 0) → work d (es.map VElm.solid) v v = 0 → ∀ a i, a < n → i < d → v (a + 1) (i + 1) = 0) :
    ∃ r, vibs d es = .ok r ∧ ∃ ms, Normal d n es r fixed ms ∧ ∀ F, Solves d n (asmK d r.1) F (fun _ _ => 0) fixed (response d n ms F) := by
  classical
  obtain ⟨r, h1, iF, iD, lam, phi, p1, p2, p3⟩ := C134_exists d n x es h fixed hpos
  obtain ⟨r', k1, k2⟩ := C134_frequency d n x es h fixed
  rw [h1] at k1; cases k1
  have inj : Function.Injective fun s => (lam s, phi s) := by
    intro s t hst
    by_contra hne
    have e1 := p2 s s
    have e2 := p2 s t
    rw [if_neg hne, ← (Prod.mk.inj hst).2, e1, if_pos rfl] at e2
    exact one_ne_zero e2
  have hN : Normal d n es r fixed ((Finset.univ : Finset (Free d n fixed)).toList.map fun s => (lam s, phi s)) := by
    refine ⟨fun m hm => ?_, fun m hm => ?_, ?_, fun m hm => ?_⟩
    · obtain ⟨s, -, rfl⟩ := List.mem_map.mp hm; exact p1 s
    · obtain ⟨s, -, rfl⟩ := List.mem_map.mp hm
      intro h0
      have hE := (k2 _ _ (p1 s)).1
      rw [show lam s = 0 from h0, zero_mul] at hE
      have hz := hsup _ (p1 s).held hE.symm
      have e1 := p2 s s
      rw [if_pos rfl] at e1
      obtain ⟨r', q1, -, q3⟩ := C134_energies d n x es h
      rw [h1] at q1; cases q1
      rw [← q3] at e1
      refine absurd e1 ?_
      rw [Finset.sum_eq_zero fun a ha => Finset.sum_eq_zero fun i hi => by rw [hz a i (Finset.mem_range.mp ha) (Finset.mem_range.mp hi), zero_mul]]
      exact zero_ne_one
    · rw [List.pairwise_map]
      refine (Finset.nodup_toList _).imp fun {s t} hst => ?_
      rw [p2, if_neg hst]
    · obtain ⟨s, -, rfl⟩ := List.mem_map.mp hm
      exact (p2 s s).trans (if_pos rfl)
  refine ⟨r, h1, _, hN, fun F => C135_static d n x es h r h1 fixed _ hN (fun v hv => ⟨fun m => kin d es m.2 v, fun a i ha hi => ?_⟩) F⟩
  rw [(p3 v hv).1 a i ha hi, List.map_map, ← Finset.sum_map_toList]
  rfl

/-- A step that cannot be saved ends a time history of three. -/
example : histLoop [⟨(1 : ℚ), .converged, true, true⟩, ⟨2, .converged, true, false⟩, ⟨3, .converged, true, true⟩] 1 = ([(1, 1), (2, 2)], 13) := by decide +kernel

end Verif.Modal
