/-
C62 — Command line and input file formulation settings override each other predictably, and
the model check of the nonlinear program (part of C55).
-/
import Verif.Model.NLargs
import Mathlib.Data.List.Basic
import Mathlib.Tactic.Ring

set_option linter.unusedSectionVars false
set_option linter.unusedVariables false
set_option linter.unusedSimpArgs false

namespace Verif.NLargs

open Verif.MainLinEl (Str eqs pre)

/-! ## The option list -/

/-- The last value given, if any; a negative number means "not given". -/
def lastGiven (l : List Int) : Option Int := (l.filter fun n => 0 ≤ n).getLast?

/-- Specification: the option list after a history of settings `(formulation, order)`. -/
def expected (hist : List (Int × Int)) : List Int :=
  match lastGiven (hist.map Prod.fst), lastGiven (hist.map Prod.snd) with
  | none, none => []
  | some f, none => [f]
  | f, some p => [f.getD 0, p]

private theorem lastGiven_append (l : List Int) (n : Int) :
    lastGiven (l ++ [n]) = if 0 ≤ n then some n else lastGiven l := by
  unfold lastGiven
  rw [List.filter_append]
  by_cases h : 0 ≤ n <;> simp [h]

/-- **C62, the option list.**  After every history of settings from the command line and the
input file, the list is: empty if nothing was given, the last formulation if no order was ever
given, and otherwise the last formulation followed by the last order. -/
theorem C62_options (hist : List (Int × Int)) :
    hist.foldl (fun o s => setFormulation o s.1 s.2) [] = expected hist := by
  induction hist using List.reverseRecOn with
  | nil => rfl
  | append_singleton l s ih =>
    obtain ⟨f, p⟩ := s
    rw [List.foldl_append, ih]
    simp only [List.foldl_cons, List.foldl_nil]
    unfold expected
    rw [List.map_append, List.map_append]
    simp only [List.map_cons, List.map_nil, lastGiven_append]
    unfold setFormulation
    cases lastGiven (l.map Prod.fst) <;> cases lastGiven (l.map Prod.snd) <;>
      by_cases hf : 0 ≤ f <;> by_cases hp : 0 ≤ p <;> simp [hf, hp]

/-! ## The command line -/

/-- The character of a decimal digit. -/
def digitChar (d : Fin 10) : Char := Char.ofNat (48 + d)

/-- The number written with the given digits. -/
def number (ds : List (Fin 10)) : Int := ds.foldl (fun a d => 10 * a + (d : Nat)) 0

private theorem atoi_digits (ds : List (Fin 10)) : ∀ a : Int,
    atoiFrom a (ds.map digitChar) = ds.foldl (fun (a : Int) d => 10 * a + (d : Nat)) a := by
  induction ds with
  | nil => intro a; rfl
  | cons d ds ih =>
    intro a
    have h1 : (digitChar d).isDigit = true := by revert d; decide
    have h2 : (digitChar d).toNat - '0'.toNat = (d : Nat) := by revert d; decide
    simp only [List.map_cons, atoiFrom, h1, if_true, h2, List.foldl_cons]
    exact ih _

private theorem order_digits (p : String) (ds : List (Fin 10)) (hd : ds ≠ []) :
    orderAfter p.toList.length (p.toList ++ ds.map digitChar) = number ds := by
  unfold orderAfter
  rw [List.drop_left]
  cases ds with
  | nil => exact absurd rfl hd
  | cons d ds =>
    have h1 : (digitChar d).isDigit = true := by clear hd; revert d; decide
    simp only [List.map_cons, h1, if_true]
    exact atoi_digits (d :: ds) 0

/-- What an option does to the option list, everything else as it was. -/
def Sets (t : Str) (form pOrd : Int) : Prop :=
  ∀ s : St, ∃ s', parseArg t s = some s' ∧ s'.options = setFormulation s.options form pOrd ∧
    s'.algor = s.algor ∧ s'.dim = s.dim ∧ s'.planeStrain = s.planeStrain ∧ s'.axi = s.axi

/-- **C62, the command line.**  Each formulation option selects its formulation, with the
order written directly after `-MX` and `-Fbar`; without digits the order is left as it was. -/
theorem C62_arguments (ds : List (Fin 10)) (hd : ds ≠ []) :
    Sets "-linear".toList 1 (-1) ∧ Sets "-Tensor".toList 2 (-1) ∧ Sets "-UL".toList 4 (-1) ∧
    Sets "-MX".toList 5 (-1) ∧ Sets "-mixed".toList 6 (-1) ∧ Sets "-Mixed".toList 6 (-1) ∧
    Sets "-Fbar".toList 7 (-1) ∧
    Sets ("-MX".toList ++ ds.map digitChar) 5 (number ds) ∧
    Sets ("-Fbar".toList ++ ds.map digitChar) 7 (number ds) := by
  refine ⟨?_, ?_, ?_, ?_, ?_, ?_, ?_, ?_, ?_⟩
  iterate 7 exact fun s => ⟨_, rfl, rfl, rfl, rfl, rfl, rfl⟩
  · intro s
    have h := order_digits "-MX" ds hd
    have h3 : "-MX".toList.length = 3 := rfl
    rw [h3] at h
    refine ⟨_, rfl, ?_, rfl, rfl, rfl, rfl⟩
    show setFormulation s.options MIXED_QnPn1 (orderAfter 3 ("-MX".toList ++ ds.map digitChar)) = _
    rw [h]; rfl
  · intro s
    have h := order_digits "-Fbar" ds hd
    have h5 : "-Fbar".toList.length = 5 := rfl
    rw [h5] at h
    refine ⟨_, rfl, ?_, rfl, rfl, rfl, rfl⟩
    show setFormulation s.options FBAR (orderAfter 5 ("-Fbar".toList ++ ds.map digitChar)) = _
    rw [h]; rfl

/-- **C62, other options leave the formulation alone** and select what they say; `-mixed` and
`-Mixed` choose the reduced or full continuity of the displacement basis. -/
theorem C62_other_arguments (s : St) :
    (∀ t ∈ ["-printMax", "-printMaxPatch", "-dumpNodeMap", "-checkRHS", "-fixDup"],
      parseArg t.toList s = some s) ∧
    parseArg "-2Dpstrain".toList s = some { s with dim := 2, planeStrain := true } ∧
    parseArg "-2Daxisymm".toList s = some { s with dim := 2, axi := true } ∧
    parseArg "-GA".toList s = some { s with algor := .genAlpha } ∧
    parseArg "-oldHHT".toList s = some { s with algor := .oldHHT } ∧
    parseArg "-HHT".toList s = some { s with algor := .newHHT } ∧
    parseArg "-arclen".toList s = some { s with algor := .arclen } ∧
    (∃ s', parseArg "-mixed".toList s = some s' ∧ s'.reduced = some true) ∧
    (∃ s', parseArg "-Mixed".toList s = some s' ∧ s'.reduced = some false) ∧
    parseArg "-2D".toList s = none ∧ parseArg "-adap".toList s = none := by
  refine ⟨?_, rfl, rfl, rfl, rfl, rfl, rfl, ⟨_, rfl, rfl⟩, ⟨_, rfl, rfl⟩, rfl, rfl⟩
  simp only [List.forall_mem_cons, List.forall_mem_nil]
  exact ⟨rfl, rfl, rfl, rfl, rfl, by simp⟩

/-! ## The input file -/

/-- The formulation a child element asks for. -/
def formOf : Child → Option Int
  | .totalLagrange => some 3
  | .updatedLagrange => some 4
  | .linear => some 1
  | .mixed _ type =>
    if type = "Qp/Pp-1" then some 5 else if type = "Qp/Qp-1" then some 6
    else if type = "Fbar" then some 7 else if type = "Tensor" then some 2 else none
  | _ => none

/-- The order a child element gives. -/
def orderOf : Child → Option Int
  | .mixed o _ => o
  | _ => none

/-- The formulation asked for by the last child that asks for one; -1 if none does. -/
def wanted (cs : List Child) : Int := ((cs.filterMap formOf).getLast?).getD (-1)

/-- The order given by the last child that gives one; -1 if none does. -/
def wantedOrder (cs : List Child) : Int := ((cs.filterMap orderOf).getLast?).getD (-1)

private theorem wanted_append (cs : List Child) (c : Child) :
    wanted (cs ++ [c]) = (formOf c).getD (wanted cs) := by
  unfold wanted
  rw [List.filterMap_append]
  cases h : formOf c <;> simp [h]

private theorem wantedOrder_append (cs : List Child) (c : Child) :
    wantedOrder (cs ++ [c]) = (orderOf c).getD (wantedOrder cs) := by
  unfold wantedOrder
  rw [List.filterMap_append]
  cases h : orderOf c <;> simp [h]

private theorem fold_order (dim : Nat) (p0 : PF) (h0 : p0.pOrd = -1) (cs : List Child) :
    (cs.foldl (childStep dim) p0).pOrd = wantedOrder cs := by
  induction cs using List.reverseRecOn with
  | nil => simpa [wantedOrder] using h0
  | append_singleton cs c ih =>
    rw [List.foldl_append, wantedOrder_append]
    simp only [List.foldl_cons, List.foldl_nil]
    cases c with
    | updatedLagrange =>
      simp only [childStep, orderOf, Option.getD_none]
      split_ifs <;> exact ih
    | mixed o t =>
      simp only [childStep, orderOf]
      cases o <;> simp only [Option.getD_none, Option.getD_some] <;> split_ifs <;>
        first | exact ih | rfl
    | _ => exact ih

/-- The children are in an order in which no `updatedlagrange` follows an element asking for
one of the mixed formulations. -/
def NoULAfterMixed (cs : List Child) : Prop :=
  ∀ l1 l2, cs = l1 ++ .updatedLagrange :: l2 → wanted l1 ≤ 4

private theorem fold_form (dim : Nat) (p0 : PF) (h0 : p0.form = -1) (cs : List Child) :
    NoULAfterMixed cs → (cs.foldl (childStep dim) p0).form = wanted cs := by
  induction cs using List.reverseRecOn with
  | nil => intro _; simpa [wanted] using h0
  | append_singleton cs c ih =>
    intro h
    have hcs : NoULAfterMixed cs := by
      intro l1 l2 e
      exact h l1 (l2 ++ [c]) (by rw [e]; simp)
    have ih := ih hcs
    rw [List.foldl_append, wanted_append]
    simp only [List.foldl_cons, List.foldl_nil]
    cases c with
    | updatedLagrange =>
      have h4 := h cs [] rfl
      simp only [childStep, formOf, Option.getD_some]
      split_ifs with hc
      · rfl
      · rw [ih]
        rw [ih] at hc
        simp only [UPDATED_LAGRANGE] at hc
        omega
    | mixed o t =>
      simp only [childStep, formOf]
      cases o <;> simp only <;> split_ifs <;> first | exact ih | rfl
    | totalLagrange => rfl
    | linear => rfl
    | planeStrain => exact ih
    | axisymmetric => exact ih
    | other => exact ih

/-- **C62, the input file.**  The formulation element sets the formulation of the last child
asking for one and the order of the last child giving one, provided that no `updatedlagrange`
follows a mixed formulation.  (Missing: that case, see `C62_input_violated`.) -/
theorem C62_input_partial (cs : List Child) (s : St) (h : NoULAfterMixed cs) :
    (parseFormulation cs s).options = setFormulation s.options (wanted cs) (wantedOrder cs) ∧
    (parseFormulation cs s).algor = s.algor ∧ (parseFormulation cs s).dim = s.dim := by
  refine ⟨?_, rfl, rfl⟩
  simp only [parseFormulation]
  rw [fold_form _ _ rfl _ h, fold_order _ _ rfl]

/-- **C62, the last setting does not always win.**  In the input file an `updatedlagrange` after
any mixed formulation is ignored; the same two settings on the command line give the updated
Lagrangian formulation. -/
theorem C62_input_violated :
    (∀ (o : Option Int) (t : String), t = "Qp/Pp-1" ∨ t = "Qp/Qp-1" ∨ t = "Fbar" → ∀ s : St,
      wanted [.mixed o t, .updatedLagrange] = 4 ∧
      ∃ f r, f ≠ 4 ∧ (parseFormulation [.mixed o t, .updatedLagrange] s).options = f :: r) ∧
    (∃ s', parseArg "-Fbar".toList {} = some s' ∧ ∃ s'', parseArg "-UL".toList s' = some s'' ∧
      s''.options = [4]) ∧
    (parseFormulation [.mixed none "Fbar", .updatedLagrange] {}).options = [7] := by
  refine ⟨?_, ⟨_, rfl, _, rfl, rfl⟩, by decide⟩
  intro o t ht s
  have hset : ∀ (l : List Int) (f p : Int), 0 ≤ f → ∃ r, setFormulation l f p = f :: r := by
    intro l f p hf
    unfold setFormulation
    cases l with
    | nil => by_cases hp : 0 ≤ p <;> simp [hf, hp]
    | cons a l =>
      cases l with
      | nil => by_cases hp : 0 ≤ p <;> simp [hf, hp]
      | cons b l => by_cases hp : 0 ≤ p <;> simp [hf, hp]
  refine ⟨?_, ?_⟩
  · rcases ht with rfl | rfl | rfl <;> simp [wanted, formOf]
  · rcases ht with rfl | rfl | rfl
    · obtain ⟨r, hr⟩ := hset s.options 5 (o.getD (-1)) (by decide)
      refine ⟨5, r, by decide, ?_⟩
      rw [← hr]
      cases o <;> rfl
    · obtain ⟨r, hr⟩ := hset s.options 6 (o.getD (-1)) (by decide)
      refine ⟨6, r, by decide, ?_⟩
      rw [← hr]
      cases o <;> rfl
    · obtain ⟨r, hr⟩ := hset s.options 7 (o.getD (-1)) (by decide)
      refine ⟨7, r, by decide, ?_⟩
      rw [← hr]
      cases o <;> rfl

/-- **C62, plane strain and axial symmetry in the input file** are switched on for
two-dimensional models and off for all others. -/
theorem C62_planar (cs : List Child) (s : St) :
    (parseFormulation cs s).planeStrain =
      (if .planeStrain ∈ cs then decide (s.dim = 2) else s.planeStrain) ∧
    (parseFormulation cs s).axi =
      (if .axisymmetric ∈ cs then decide (s.dim = 2) else s.axi) := by
  have one : ∀ (c : Child) (p : PF),
      (childStep s.dim p c).planeStrain =
        (if .planeStrain = c then decide (s.dim = 2) else p.planeStrain) ∧
      (childStep s.dim p c).axi = (if .axisymmetric = c then decide (s.dim = 2) else p.axi) := by
    intro c p
    cases c with
    | planeStrain => exact ⟨rfl, rfl⟩
    | axisymmetric => exact ⟨rfl, rfl⟩
    | updatedLagrange =>
      by_cases h : p.form < UPDATED_LAGRANGE <;> simp [childStep, h]
    | mixed o t =>
      simp only [childStep, reduceCtorEq, if_false]
      cases o <;> simp only <;> split_ifs <;> exact ⟨rfl, rfl⟩
    | _ => exact ⟨rfl, rfl⟩
  have key : ∀ (cs : List Child) (p : PF),
      (cs.foldl (childStep s.dim) p).planeStrain =
        (if .planeStrain ∈ cs then decide (s.dim = 2) else p.planeStrain) ∧
      (cs.foldl (childStep s.dim) p).axi =
        (if .axisymmetric ∈ cs then decide (s.dim = 2) else p.axi) := by
    intro cs
    induction cs using List.reverseRecOn with
    | nil => intro p; simp
    | append_singleton cs c ih =>
      intro p
      rw [List.foldl_append]
      simp only [List.foldl_cons, List.foldl_nil, List.mem_append, List.mem_singleton]
      obtain ⟨h1, h2⟩ := ih p
      obtain ⟨g1, g2⟩ := one c (cs.foldl (childStep s.dim) p)
      rw [g1, g2, h1, h2]
      constructor
      · by_cases a : Child.planeStrain ∈ cs <;> by_cases b : Child.planeStrain = c <;> simp [a, b]
      · by_cases a : Child.axisymmetric ∈ cs <;> by_cases b : Child.axisymmetric = c <;> simp [a, b]
  exact key cs _

/-- **C62, the basis of the continuous mixed formulation**: the full-continuity displacement
basis is used exactly if the order given is one. -/
theorem C62_mixed_basis (cs : List Child) (o : Option Int) (s : St) :
    (parseFormulation (cs ++ [.mixed o "Qp/Qp-1"]) s).reduced =
      some (decide (wantedOrder (cs ++ [.mixed o "Qp/Qp-1"]) ≠ 1)) := by
  simp only [parseFormulation]
  rw [List.foldl_append, wantedOrder_append,
    ← fold_order s.dim { planeStrain := s.planeStrain, axi := s.axi, reduced := s.reduced } rfl cs]
  have hb : ∀ n : Int, (!decide (n = 1)) = decide (n ≠ 1) := by
    intro n; by_cases h : n = 1 <;> simp [h]
  cases o <;> exact congrArg some (hb _)

/-- **C62, the solution driver** chosen in the input file. -/
theorem C62_driver (s : St) :
    parse (.nonlinearSolver true) s = { s with algor := .arclen } ∧
    parse (.nonlinearSolver false) s = s ∧
    parse (.newmarkSolver "hht") s = { s with algor := .newHHT } ∧
    parse (.newmarkSolver "oldhht") s = { s with algor := .oldHHT } ∧
    parse (.newmarkSolver "generalized alpha") s = { s with algor := .genAlpha } ∧
    parse (.finiteDeformation none) s = s ∧ parse .other s = s ∧
    ∀ cs, parse (.finiteDeformation (some cs)) s = parseFormulation cs s := by
  refine ⟨rfl, rfl, rfl, rfl, rfl, rfl, rfl, fun _ => rfl⟩

/-! ## The integrand that is used -/

/-- **C62, the formulation used.**  After every history of settings with at least one
formulation, the integrand is that of the last formulation, with the last order given (zero if
none was); without any setting it is the total Lagrangian formulation. -/
theorem C62_integrand (hist : List (Int × Int)) :
    let used := getIntegrand (nlo (hist.foldl (fun o s => setFormulation o s.1 s.2) []))
    let p := (lastGiven (hist.map Prod.snd)).getD 0
    (hist = [] → used = some .tl) ∧
    (lastGiven (hist.map Prod.fst) = some 1 → used = some .linear) ∧
    (lastGiven (hist.map Prod.fst) = some 2 → used = some .tensor) ∧
    (lastGiven (hist.map Prod.fst) = some 3 → used = some .tl) ∧
    (lastGiven (hist.map Prod.fst) = some 4 → used = some .ul) ∧
    (lastGiven (hist.map Prod.fst) = some 5 → used = some (.ulMX p)) ∧
    (lastGiven (hist.map Prod.fst) = some 6 → used = some .ulMixed) ∧
    (lastGiven (hist.map Prod.fst) = some 7 → used = some (.fbar p)) := by
  simp only
  rw [C62_options]
  unfold expected
  refine ⟨?_, ?_, ?_, ?_, ?_, ?_, ?_, ?_⟩
  · rintro rfl; rfl
  all_goals
    intro h
    rw [h]
    cases lastGiven (hist.map Prod.snd) <;> rfl

/-- **C62, an order alone removes the default formulation.**  If only an order is given, as by
a `mixed` element without a known type, no integrand is created at all, although without any
setting the total Lagrangian formulation would be used. -/
theorem C62_order_only_violated (p : Int) (hp : 0 ≤ p) (t : String)
    (ht : t ≠ "Qp/Pp-1" ∧ t ≠ "Qp/Qp-1" ∧ t ≠ "Fbar" ∧ t ≠ "Tensor") :
    (parseFormulation [.mixed (some p) t] {}).options = [0, p] ∧
    getIntegrand (nlo (parseFormulation [.mixed (some p) t] {}).options) = none ∧
    getIntegrand (nlo (parseFormulation [] {}).options) = some .tl := by
  have h : (parseFormulation [.mixed (some p) t] {}).options = [0, p] := by
    simp [parseFormulation, childStep, ht, setFormulation, hp]
  exact ⟨h, by rw [h]; rfl, rfl⟩

/-! ## The model check of the nonlinear program (C55) -/

/-- **C55 for the nonlinear program, exactly.**  The simulation is run if and only if the last of
the options `-check` and `-stopTime` is `-stopTime` with a value that is not negative, or there
is none.  (So a check is a check if no stop time follows it.) -/
theorem C55_nonlinear_check (ts : List TimeOpt) :
    solves (stopTime ts) = true ↔
      ts = [] ∨ ∃ l t, 0 ≤ t ∧ ts = l ++ [.stopTime t] := by
  induction ts using List.reverseRecOn with
  | nil => simp [solves, stopTime]
  | append_singleton l o _ =>
    have hst : stopTime (l ++ [o]) = (match o with
        | .stopTime t => t
        | .check => -1) := by
      cases o <;> simp [stopTime, List.foldl_append]
    rw [hst]
    cases o with
    | check => simp [solves]
    | stopTime t =>
      simp only [solves, Bool.not_eq_true', decide_eq_false_iff_not, not_lt]
      constructor
      · intro h; exact Or.inr ⟨l, t, h, rfl⟩
      · rintro (h | ⟨l', t', h, e⟩)
        · simp at h
        · have := List.append_inj_right' e rfl
          simp only [List.cons.injEq, TimeOpt.stopTime.injEq, and_true] at this
          omega

/-- **C62, the stop time.**  A positive stop time, given last, is the one that is used; zero leaves the input file's. -/
theorem C62_stop_time (ts : List TimeOpt) (t : Int) :
    (0 < t → stopTimeUsed (stopTime (ts ++ [.stopTime t])) = some t) ∧ stopTimeUsed (stopTime (ts ++ [.stopTime 0])) = none := by
  simp only [stopTime, List.foldl_append, List.foldl_cons, List.foldl_nil, stopTimeUsed]
  exact ⟨fun h => if_pos h, rfl⟩

example : (0 : Int) < 1 := by decide

/-- **C55 is false of the nonlinear program too.**  `-check -stopTime 5` runs the simulation up
to time 5, and `-stopTime -3` is a check. -/
theorem C55_nonlinear_check_violated :
    solves (stopTime [.check, .stopTime 5]) = true ∧
    stopTimeUsed (stopTime [.check, .stopTime 5]) = some 5 ∧
    solves (stopTime [.stopTime 5, .check]) = false ∧
    solves (stopTime [.stopTime (-3)]) = false := by decide

/-- A history: order and F-bar in the input file, then `-UL` and `-MX3` on the command line. -/
example : [(7, 2), (4, -1), (5, 3)].foldl (fun o (s : Int × Int) => setFormulation o s.1 s.2) [] =
    [5, 3] := C62_options _

example : NoULAfterMixed [.updatedLagrange, .mixed (some 1) "Qp/Qp-1", .planeStrain] := by
  intro l1 l2 h
  cases l1 with
  | nil => decide
  | cons a l1 =>
    cases l1 with
    | nil => simp at h
    | cons b l1 =>
      cases l1 with
      | nil => simp at h
      | cons c l1 => simp at h

example : (parseFormulation [.updatedLagrange, .mixed (some 1) "Qp/Qp-1", .planeStrain]
    { options := [1] }).options = [6, 1] := by decide

example : number [1, 2] = 12 := by decide

end Verif.NLargs
