/-
C130: A beam model is the one written in the element `beam` of the input.
-/
import Verif.Model.BeamModel
import Mathlib.Tactic.Linarith
import Mathlib.Tactic.NormNum
import Mathlib.Tactic.FieldSimp
import Mathlib.Tactic.Ring

namespace Verif.BeamModel

open Verif.Beam (Prop' eval evalRho useF useIf)
open Verif.BeamInput (Att Sec attr defSec parseSec parseShape readCSV beamMaterial)

variable {X V : Type}

/-! ### Specification -/

/-- The last element of a list for which something is given. -/
def lastSome {A B : Type} (sel : A → Option B) (l : List A) : Option B := (l.filterMap sel).getLast?

/-- The function given last for a name. -/
def given (t : String) (cs : List (FChild X)) : Option (X → ℝ) := (lastSome (fun c => if c.tag = t then c.func else none) cs).join

theorem lastSome_nil {A B : Type} (sel : A → Option B) : lastSome sel [] = none := rfl

theorem lastSome_cons {A B : Type} (sel : A → Option B) (a : A) (l : List A) : lastSome sel (a :: l) = (lastSome sel l).or (sel a) := by
  unfold lastSome
  cases h : sel a with
  | none => simp [List.filterMap_cons, h]
  | some b =>
    simp only [List.filterMap_cons, h]
    rcases e : l.filterMap sel with _ | ⟨c, cs⟩
    · simp
    · obtain ⟨w, hw⟩ : ∃ w, (c :: cs).getLast? = some w := by
        cases h' : (c :: cs).getLast? with
        | none => simp at h'
        | some w => exact ⟨w, rfl⟩
      rw [List.getLast?_cons_cons, hw]
      rfl

/-! ### Property functions of a section -/

theorem funcs_get {B : Type} (g : Prop' X ℝ → Option B) (h : Option (X → ℝ) → Option B) (t : String)
    (hg : ∀ p tag f, g (setFunc p tag f) = if tag = t then h f else g p) (cs : List (FChild X)) (p : Prop' X ℝ) :
    g (parseFuncs cs p) = ((lastSome (fun c : FChild X => if c.tag = t then c.func else none) cs).map h).getD (g p) := by
  induction cs generalizing p with
  | nil => rfl
  | cons c cs ih =>
    rw [lastSome_cons]
    cases e : c.func with
    | none => simp only [parseFuncs, e, ih, ite_self, Option.or_none]
    | some f =>
      simp only [parseFuncs, e, ih, hg]
      cases lastSome (fun c : FChild X => if c.tag = t then c.func else none) cs with
      | some w => rfl
      | none => by_cases ht : c.tag = t <;> simp [ht]

theorem funcs_keep {B : Type} (g : Prop' X ℝ → B) (hg : ∀ p tag f, g (setFunc p tag f) = g p) (cs : List (FChild X)) (p : Prop' X ℝ) : g (parseFuncs cs p) = g p := by
  induction cs generalizing p with
  | nil => rfl
  | cons c cs ih =>
    cases e : c.func with
    | none => simp only [parseFuncs, e, ih]
    | some f => simp only [parseFuncs, e, ih, hg]

theorem funcs_given (g : Prop' X ℝ → Option (X → ℝ)) (t : String) (hg : ∀ p tag f, g (setFunc p tag f) = if tag = t then f else g p) (cs : List (FChild X)) (p : Prop' X ℝ)
    (hp : g p = none) : g (parseFuncs cs p) = given t cs := by
  rw [funcs_get g id t hg, hp, given]
  cases lastSome (fun c : FChild X => if c.tag = t then c.func else none) cs with
  | none => rfl
  | some w => rfl

theorem set_EAf (p : Prop' X ℝ) (tag : String) (f : Option (X → ℝ)) : (setFunc p tag f).EAf = if tag = "EA" then f else p.EAf := by
  by_cases h : tag = "EA"
  · subst h
    simp [setFunc]
  · simp only [setFunc, apply_ite Prop'.EAf, if_neg h, ite_self]

theorem set_EIyf (p : Prop' X ℝ) (tag : String) (f : Option (X → ℝ)) : (setFunc p tag f).EIyf = if tag = "EIy" then f else p.EIyf := by
  by_cases h : tag = "EIy"
  · subst h
    simp [setFunc]
  · simp only [setFunc, apply_ite Prop'.EIyf, if_neg h, ite_self]

theorem set_EIzf (p : Prop' X ℝ) (tag : String) (f : Option (X → ℝ)) : (setFunc p tag f).EIzf = if tag = "EIz" then f else p.EIzf := by
  by_cases h : tag = "EIz"
  · subst h
    simp [setFunc]
  · simp only [setFunc, apply_ite Prop'.EIzf, if_neg h, ite_self]

theorem set_GItf (p : Prop' X ℝ) (tag : String) (f : Option (X → ℝ)) : (setFunc p tag f).GItf = if tag = "GIt" then f else p.GItf := by
  by_cases h : tag = "GIt"
  · subst h
    simp [setFunc]
  · simp only [setFunc, apply_ite Prop'.GItf, if_neg h, ite_self]

theorem set_rhof (p : Prop' X ℝ) (tag : String) (f : Option (X → ℝ)) : (setFunc p tag f).rhof = if tag = "rho" then f else p.rhof := by
  by_cases h : tag = "rho"
  · subst h
    simp [setFunc]
  · simp only [setFunc, apply_ite Prop'.rhof, if_neg h, ite_self]

theorem set_Ixf (p : Prop' X ℝ) (tag : String) (f : Option (X → ℝ)) : (setFunc p tag f).Ixf = if tag = "Ix" then f else p.Ixf := by
  by_cases h : tag = "Ix"
  · subst h
    simp [setFunc]
  · simp only [setFunc, apply_ite Prop'.Ixf, if_neg h, ite_self]

theorem set_Iyf (p : Prop' X ℝ) (tag : String) (f : Option (X → ℝ)) : (setFunc p tag f).Iyf = if tag = "Iy" then f else p.Iyf := by
  by_cases h : tag = "Iy"
  · subst h
    simp [setFunc]
  · simp only [setFunc, apply_ite Prop'.Iyf, if_neg h, ite_self]

theorem set_Izf (p : Prop' X ℝ) (tag : String) (f : Option (X → ℝ)) : (setFunc p tag f).Izf = if tag = "Iz" then f else p.Izf := by
  by_cases h : tag = "Iz"
  · subst h
    simp [setFunc]
  · simp only [setFunc, apply_ite Prop'.Izf, if_neg h, ite_self]

theorem set_CGyf (p : Prop' X ℝ) (tag : String) (f : Option (X → ℝ)) : (setFunc p tag f).CGyf = if tag = "CGy" then f else p.CGyf := by
  by_cases h : tag = "CGy"
  · subst h
    simp [setFunc]
  · simp only [setFunc, apply_ite Prop'.CGyf, if_neg h, ite_self]

theorem set_CGzf (p : Prop' X ℝ) (tag : String) (f : Option (X → ℝ)) : (setFunc p tag f).CGzf = if tag = "CGz" then f else p.CGzf := by
  by_cases h : tag = "CGz"
  · subst h
    simp [setFunc]
  · simp only [setFunc, apply_ite Prop'.CGzf, if_neg h, ite_self]

theorem keep_Axf (p : Prop' X ℝ) (tag : String) (f : Option (X → ℝ)) : (setFunc p tag f).Axf = p.Axf := by
  simp only [setFunc, apply_ite Prop'.Axf, ite_self]

theorem keep_Ayf (p : Prop' X ℝ) (tag : String) (f : Option (X → ℝ)) : (setFunc p tag f).Ayf = p.Ayf := by
  simp only [setFunc, apply_ite Prop'.Ayf, ite_self]

theorem keep_Azf (p : Prop' X ℝ) (tag : String) (f : Option (X → ℝ)) : (setFunc p tag f).Azf = p.Azf := by
  simp only [setFunc, apply_ite Prop'.Azf, ite_self]

theorem keep_Syf (p : Prop' X ℝ) (tag : String) (f : Option (X → ℝ)) : (setFunc p tag f).Syf = p.Syf := by
  simp only [setFunc, apply_ite Prop'.Syf, ite_self]

theorem keep_Szf (p : Prop' X ℝ) (tag : String) (f : Option (X → ℝ)) : (setFunc p tag f).Szf = p.Szf := by
  simp only [setFunc, apply_ite Prop'.Szf, ite_self]

theorem keep_A (p : Prop' X ℝ) (tag : String) (f : Option (X → ℝ)) : (setFunc p tag f).A = p.A := by
  simp only [setFunc, apply_ite Prop'.A, ite_self]

theorem keep_Ix (p : Prop' X ℝ) (tag : String) (f : Option (X → ℝ)) : (setFunc p tag f).Ix = p.Ix := by
  simp only [setFunc, apply_ite Prop'.Ix, ite_self]

theorem keep_Iy (p : Prop' X ℝ) (tag : String) (f : Option (X → ℝ)) : (setFunc p tag f).Iy = p.Iy := by
  simp only [setFunc, apply_ite Prop'.Iy, ite_self]

theorem keep_Iz (p : Prop' X ℝ) (tag : String) (f : Option (X → ℝ)) : (setFunc p tag f).Iz = p.Iz := by
  simp only [setFunc, apply_ite Prop'.Iz, ite_self]

theorem keep_It (p : Prop' X ℝ) (tag : String) (f : Option (X → ℝ)) : (setFunc p tag f).It = p.It := by
  simp only [setFunc, apply_ite Prop'.It, ite_self]

theorem keep_Ky (p : Prop' X ℝ) (tag : String) (f : Option (X → ℝ)) : (setFunc p tag f).Ky = p.Ky := by
  simp only [setFunc, apply_ite Prop'.Ky, ite_self]

theorem keep_Kz (p : Prop' X ℝ) (tag : String) (f : Option (X → ℝ)) : (setFunc p tag f).Kz = p.Kz := by
  simp only [setFunc, apply_ite Prop'.Kz, ite_self]

theorem keep_Sy (p : Prop' X ℝ) (tag : String) (f : Option (X → ℝ)) : (setFunc p tag f).Sy = p.Sy := by
  simp only [setFunc, apply_ite Prop'.Sy, ite_self]

theorem keep_Sz (p : Prop' X ℝ) (tag : String) (f : Option (X → ℝ)) : (setFunc p tag f).Sz = p.Sz := by
  simp only [setFunc, apply_ite Prop'.Sz, ite_self]

/-- The functions of a section read from tags. -/
theorem C130_functions (s : Sec) (cs : List (FChild X)) :
    let p := parseFuncs cs (ofSec s)
    (p.EAf = given "EA" cs ∧ p.EIyf = given "EIy" cs ∧ p.EIzf = given "EIz" cs ∧ p.GItf = given "GIt" cs ∧ p.rhof = given "rho" cs ∧
      p.Ixf = given "Ix" cs ∧ p.Iyf = given "Iy" cs ∧ p.Izf = given "Iz" cs ∧ p.CGyf = given "CGy" cs ∧ p.CGzf = given "CGz" cs) ∧
    (p.Axf = none ∧ p.Ayf = none ∧ p.Azf = none ∧ p.Syf = none ∧ p.Szf = none) ∧
    (p.A = s.A ∧ p.Ix = s.Ix ∧ p.Iy = s.Iy ∧ p.Iz = s.Iz ∧ p.It = s.It ∧ p.Ky = s.Ky ∧ p.Kz = s.Kz ∧ p.Sy = s.Sy ∧ p.Sz = s.Sz) := by
  refine ⟨⟨?_, ?_, ?_, ?_, ?_, ?_, ?_, ?_, ?_, ?_⟩, ⟨?_, ?_, ?_, ?_, ?_⟩, ?_, ?_, ?_, ?_, ?_, ?_, ?_, ?_, ?_⟩
  · exact funcs_given (fun p => p.EAf) _ set_EAf cs _ rfl
  · exact funcs_given (fun p => p.EIyf) _ set_EIyf cs _ rfl
  · exact funcs_given (fun p => p.EIzf) _ set_EIzf cs _ rfl
  · exact funcs_given (fun p => p.GItf) _ set_GItf cs _ rfl
  · exact funcs_given (fun p => p.rhof) _ set_rhof cs _ rfl
  · exact funcs_given (fun p => p.Ixf) _ set_Ixf cs _ rfl
  · exact funcs_given (fun p => p.Iyf) _ set_Iyf cs _ rfl
  · exact funcs_given (fun p => p.Izf) _ set_Izf cs _ rfl
  · exact funcs_given (fun p => p.CGyf) _ set_CGyf cs _ rfl
  · exact funcs_given (fun p => p.CGzf) _ set_CGzf cs _ rfl
  · exact funcs_keep (fun p => p.Axf) keep_Axf cs _
  · exact funcs_keep (fun p => p.Ayf) keep_Ayf cs _
  · exact funcs_keep (fun p => p.Azf) keep_Azf cs _
  · exact funcs_keep (fun p => p.Syf) keep_Syf cs _
  · exact funcs_keep (fun p => p.Szf) keep_Szf cs _
  · exact funcs_keep (fun p => p.A) keep_A cs _
  · exact funcs_keep (fun p => p.Ix) keep_Ix cs _
  · exact funcs_keep (fun p => p.Iy) keep_Iy cs _
  · exact funcs_keep (fun p => p.Iz) keep_Iz cs _
  · exact funcs_keep (fun p => p.It) keep_It cs _
  · exact funcs_keep (fun p => p.Ky) keep_Ky cs _
  · exact funcs_keep (fun p => p.Kz) keep_Kz cs _
  · exact funcs_keep (fun p => p.Sy) keep_Sy cs _
  · exact funcs_keep (fun p => p.Sz) keep_Sz cs _

/-- The value of a function that may be given, otherwise the constant. -/
noncomputable def valueAt (f : Option (X → ℝ)) (x : X) (c : ℝ) : ℝ := (f.map fun g => g x).getD c

theorem useF_valueAt (f : Option (X → ℝ)) (x : X) (c : ℝ) : useF f x c = valueAt f x c := by
  cases f <;> rfl

/-- What the element `properties` without a table means for the stiffness and mass of the beam at a point: a function given for the stiffness or line mass itself, otherwise the modulus or the density times the
function given for the geometric property, otherwise times the constant. -/
theorem C130_section (atof : List Char → ℝ) (interp : List ℝ → List ℝ → X → ℝ) (fs : String → Option (List (List Char))) (e : PElem X) (hfile : ∀ n, e.first = some n → fs n = none) (x : X)
    (L E G rho : ℝ) (grav mass : Bool) :
    ∃ p, parseProp atof interp fs e = .ok p ∧
      (let s := parseSec e.att defSec
       let v := eval p x L E G rho grav mass
       v.EA = valueAt (given "EA" e.children) x (E * s.A) ∧
       v.EIy = valueAt (given "EIy" e.children) x (E * valueAt (given "Iy" e.children) x s.Iy) ∧
       v.EIz = valueAt (given "EIz" e.children) x (E * valueAt (given "Iz" e.children) x s.Iz) ∧
       v.GIt = valueAt (given "GIt" e.children) x (G * valueAt (given "Ix" e.children) x s.It) ∧
       v.Aly = 12 * v.EIy * s.Ky / (G * L * L * s.A) ∧ v.Alz = 12 * v.EIz * s.Kz / (G * L * L * s.A) ∧
       evalRho p x rho = valueAt (given "rho" e.children) x (rho * s.A) ∧
       (grav = true ∨ mass = true → v.rhoA = valueAt (given "rho" e.children) x (rho * s.A) ∧ v.CGy = valueAt (given "CGy" e.children) x 0 ∧ v.CGz = valueAt (given "CGz" e.children) x 0) ∧
       (mass = true → v.Ixx = valueAt (given "Ix" e.children) x (rho * s.Ix) ∧ v.Iyy = valueAt (given "Iy" e.children) x (rho * s.Iy) ∧ v.Izz = valueAt (given "Iz" e.children) x (rho * s.Iz))) := by
  have hf : e.first.bind fs = none := by
    cases h : e.first with
    | none => rfl
    | some n => exact hfile n h
  refine ⟨parseFuncs e.children (ofSec (parseSec e.att defSec)), by simp only [parseProp, hf], ?_⟩
  obtain ⟨⟨h1, h2, h3, h4, h5, h6, h7, h8, h9, h10⟩, ⟨k1, k2, k3, k4, k5⟩, m1, m2, m3, m4, m5, m6, m7, m8, m9⟩ := C130_functions (parseSec e.att defSec) e.children
  dsimp only
  simp only [eval, evalRho, h1, h2, h3, h4, h5, h6, h7, h8, h9, h10, k1, k2, k3, m1, m2, m3, m4, m5, m6, m7, useF_valueAt, useIf, Option.map_none]
  have hn : ∀ c : ℝ, valueAt (X := X) none x c = c := fun _ => rfl
  simp only [hn]
  refine ⟨trivial, trivial, trivial, trivial, ?_, ?_, trivial, ?_, ?_⟩
  · simp only [div_eq_mul_inv, mul_inv]; ring
  · simp only [div_eq_mul_inv, mul_inv]; ring
  · intro hb
    have : (mass || grav) = true := by cases mass <;> cases grav <;> simp_all
    simp [this, valueAt]
  · intro hb
    simp [hb]

/-- A table takes the place of all functions in the element. -/
theorem C130_table (atof : List Char → ℝ) (interp : List ℝ → List ℝ → X → ℝ) (fs : String → Option (List (List Char))) (e : PElem X) (n : String) (lines : List (List Char))
    (xs : List ℝ) (tab : String → List ℝ) (h1 : e.first = some n) (h2 : fs n = some lines) (h3 : readCSV atof lines = .ok (some (xs, tab))) :
    ∃ p, parseProp atof interp fs e = .ok p ∧
      (∀ f ∈ [(p.Axf, "Ax"), (p.Ayf, "Ay"), (p.Azf, "Az"), (p.Ixf, "Ix"), (p.Iyf, "Iy"), (p.Izf, "Iz"), (p.Syf, "Sy"), (p.Szf, "Sz")],
        (tab f.2 = [] → f.1 = none) ∧ (tab f.2 ≠ [] → f.1 = some (interp xs (tab f.2)))) ∧
      p.EAf = none ∧ p.EIyf = none ∧ p.EIzf = none ∧ p.GItf = none ∧ p.rhof = none ∧ p.CGyf = none ∧ p.CGzf = none ∧
      p.A = (parseSec e.att defSec).A ∧ p.It = (parseSec e.att defSec).It := by
  refine ⟨setTable interp (xs, tab) (ofSec (parseSec e.att defSec)), by simp only [parseProp, h1, Option.bind_some, h2, h3], ?_, rfl, rfl, rfl, rfl, rfl, rfl, rfl, rfl, rfl⟩
  intro f hf
  simp only [List.mem_cons, List.not_mem_nil, or_false, setTable] at hf
  rcases hf with h | h | h | h | h | h | h | h <;> subst h <;> simp only [tableFunc] <;> exact ⟨fun h => if_pos h, fun h => if_neg h⟩

/-- A file with the name of the first function (or of a comment in front of it) is read in place of the functions of the input. -/
theorem C130_functions_violated : ∃ (atof : List Char → ℝ) (interp : List ℝ → List ℝ → Unit → ℝ) (fs : String → Option (List (List Char))) (e : PElem Unit) (p : Prop' Unit ℝ),
    e.first = some "EA" ∧ given "EA" e.children ≠ none ∧ parseProp atof interp fs e = .ok p ∧ p.EAf = none := by
  refine ⟨fun _ => 1, fun _ _ _ => 0, fun n => if n = "EA" then some ["a,x,m,1".toList] else none, ⟨fun _ => none, some "EA", [⟨"EA", some (some fun _ => 5)⟩]⟩,
    setTable (fun _ _ _ => 0) (readCSV (fun _ => (1 : ℝ)) ["a,x,m,1".toList] |> fun r => match r with | .ok (some t) => t | _ => ([], fun _ => [])) (ofSec (parseSec (fun _ => none) defSec)), rfl, ?_, ?_, rfl⟩
  · simp [given, lastSome]
  · have e1 : Verif.BeamInput.tokens ('#' :: "a,x,m,1".toList) = [['#', 'a'], ['x'], ['m'], ['1']] := by decide +kernel
    have e2 : Verif.BeamInput.unitExp ['m'] = 0 := by decide +kernel
    have e3 : ∃ t, readCSV (fun _ => (1 : ℝ)) ["a,x,m,1".toList] = .ok (some t) := by
      simp only [readCSV, Verif.BeamInput.readLines, Verif.BeamInput.readLine, e1, e2, Verif.BeamInput.getValues]
      simp
    obtain ⟨t, ht⟩ := e3
    simp only [parseProp, Option.bind_some, if_true, ht]

/-! ### The element -/

/-- The attributes of a material. -/
def materialOf : Tag X V → Option Att
  | .material a => some a
  | _ => none

/-- The last given text of line loads. -/
def lineOf : Tag X V → Option (Option V)
  | .lineload f => f
  | _ => none

/-- The same for moments. -/
def cplOf : Tag X V → Option (Option V)
  | .cplload f => f
  | _ => none

/-- The twist. -/
def twistOf : Tag X V → Option (Option (X → ℝ))
  | .twist f => some f
  | _ => none

/-- The components of the Z-direction. -/
def zOf (i : Fin 3) : Tag X V → Option ℝ
  | .zdirection x y z => ![x, y, z] i
  | _ => none

/-- The mass formulation. -/
def lumpedOf : Tag X V → Option Int
  | .lumped w => some (w.getD 1)
  | _ => none

/-- The sections. -/
def propOf : Tag X V → Option (PElem X)
  | .properties e => some e
  | _ => none

/-- The accepted loads: a direction from one to six and a parameter between zero and one, or a positive node. -/
noncomputable def loadOf : Tag X V → Option PLoad
  | .pointload a f =>
    match a.dof, a.u with
    | some d, some u => if 1 ≤ d ∧ d ≤ 6 ∧ 0 ≤ u ∧ u ≤ 1 then some ⟨a.patch.getD 1, if a.onElement = some true then -d else d, u, f⟩ else none
    | _, _ => none
  | .nodeload a f =>
    match a.node, a.dof with
    | some n, some d => if 1 ≤ n ∧ 1 ≤ d ∧ d ≤ 6 then some ⟨n, d, -1, f⟩ else none
    | _, _ => none
  | _ => none

/-- No load without content and no element that the base classes do not accept. -/
def Accepted (v : Env X V) : Tag X V → Prop
  | .lineload none => False
  | .cplload none => False
  | .other ok => ok = true
  | .properties e => ∃ p, parseProp v.atof v.interp v.fs e = .ok p
  | _ => True

theorem pointLoad_eq (a : LAtt) (f : Option (ℝ → ℝ)) :
    pointLoad 6 a f (fun xi => decide (xi ≥ 0) && decide (xi ≤ 1)) = loadOf (X := X) (V := V) (.pointload a f) := by
  obtain ⟨node, patch, dof, u, on⟩ := a
  unfold pointLoad loadOf
  dsimp only
  cases dof with
  | none => simp
  | some d =>
    cases u with
    | none =>
      have : ¬ (0 : ℝ) ≤ -1 := by norm_num
      simp [this]
    | some u =>
      simp only [Option.getD_some, Bool.and_eq_true, decide_eq_true_eq, ge_iff_le]
      have e : (d > 0 ∧ d ≤ 6 ∧ 0 ≤ u ∧ u ≤ 1) ↔ (1 ≤ d ∧ d ≤ 6 ∧ 0 ≤ u ∧ u ≤ 1) := ⟨fun h => ⟨by omega, h.2⟩, fun h => ⟨by omega, h.2⟩⟩
      by_cases h : (1 ≤ d ∧ d ≤ 6 ∧ 0 ≤ u ∧ u ≤ 1)
      · rw [if_pos h, if_pos (e.mpr h)]
        rcases on with _ | _ | _ <;> simp
      · rw [if_neg h, if_neg (fun hh => h (e.mp hh))]

theorem nodeLoad_eq (a : LAtt) (f : Option (ℝ → ℝ)) : nodeLoad 6 a f = loadOf (X := X) (V := V) (.nodeload a f) := by
  obtain ⟨node, patch, dof, u, on⟩ := a
  unfold nodeLoad loadOf
  dsimp only
  cases node with
  | none => simp
  | some n =>
    cases dof with
    | none => simp
    | some d =>
      simp only [Option.getD_some]
      have e : (n > 0 ∧ d > 0 ∧ d ≤ 6) ↔ (1 ≤ n ∧ 1 ≤ d ∧ d ≤ 6) := ⟨fun h => ⟨by omega, by omega, h.2.2⟩, fun h => ⟨by omega, by omega, h.2.2⟩⟩
      by_cases h : (1 ≤ n ∧ 1 ≤ d ∧ d ≤ 6)
      · rw [if_pos h, if_pos (e.mpr h)]
      · rw [if_neg h, if_neg (fun hh => h (e.mp hh))]

/-- The shear modulus of a material: given, or from Poisson's ratio, or the default. -/
noncomputable def shearModulus (a : Att) : ℝ :=
  match a "G", a "nu" with
  | some G, _ => G
  | none, some nu => if 0 ≤ nu ∧ nu < 1 / 2 then (a "E").getD 210000000000 / (2 * (1 + nu)) else 81000000000
  | none, none => 81000000000

theorem material_eq (a : Att) : beamMaterial a = ((a "E").getD 210000000000, shearModulus a, (a "rho").getD 7850) := by
  unfold beamMaterial shearModulus attr
  refine Prod.ext rfl (Prod.ext ?_ rfl)
  dsimp only
  cases a "G" with
  | some G => rfl
  | none =>
    cases a "nu" with
    | none => rfl
    | some nu =>
      dsimp only
      by_cases h : (0 ≤ nu ∧ nu < 1 / 2)
      · rw [if_pos h, if_pos (show nu ≥ 0 ∧ nu < 1 / 2 from h)]
        congr 1
        ring
      · rw [if_neg h, if_neg (fun hh => h hh)]

/-- The result of one accepted child. -/
theorem step_accepted (v : Env X V) (s : St X V) (t : Tag X V) (ht : Accepted v t) :
    ∃ s', step v s t = .ok (s', true) ∧
      (s'.E = ((materialOf t).map fun a => (a "E").getD 210000000000).getD s.E ∧ s'.G = ((materialOf t).map shearModulus).getD s.G ∧
        s'.rho = ((materialOf t).map fun a => (a "rho").getD 7850).getD s.rho) ∧
      s'.line = (lineOf t).getD s.line ∧ s'.cpl = (cplOf t).getD s.cpl ∧ s'.twist = (twistOf t).getD s.twist ∧
      s'.zdir = ((zOf 0 t).getD s.zdir.1, (zOf 1 t).getD s.zdir.2.1, (zOf 2 t).getD s.zdir.2.2) ∧
      s'.lumped = (lumpedOf t).getD s.lumped ∧ s'.loads = s.loads ++ (loadOf t).toList ∧
      (match propOf t with
        | some e => ∃ p, parseProp v.atof v.interp v.fs e = .ok p ∧ s'.secs = s.secs ++ [p] ∧ s'.sec = some p
        | none => s'.secs = s.secs ∧ s'.sec = s.sec) := by
  cases t with
  | material a =>
    refine ⟨_, rfl, ⟨?_, ?_, ?_⟩, rfl, rfl, rfl, rfl, rfl, (List.append_nil _).symm, rfl, rfl⟩
    all_goals rw [material_eq]; rfl
  | properties e =>
    obtain ⟨p, hp⟩ := ht
    refine ⟨{ s with secs := s.secs ++ [p], sec := some p }, by simp only [step, hp], ⟨rfl, rfl, rfl⟩, rfl, rfl, rfl, rfl, rfl, (List.append_nil _).symm, p, hp, rfl, rfl⟩
  | lineload f =>
    cases f with
    | none => exact ht.elim
    | some f => exact ⟨_, rfl, ⟨rfl, rfl, rfl⟩, rfl, rfl, rfl, rfl, rfl, (List.append_nil _).symm, rfl, rfl⟩
  | cplload f =>
    cases f with
    | none => exact ht.elim
    | some f => exact ⟨_, rfl, ⟨rfl, rfl, rfl⟩, rfl, rfl, rfl, rfl, rfl, (List.append_nil _).symm, rfl, rfl⟩
  | zdirection x y z => exact ⟨_, rfl, ⟨rfl, rfl, rfl⟩, rfl, rfl, rfl, rfl, rfl, (List.append_nil _).symm, rfl, rfl⟩
  | twist f => exact ⟨_, rfl, ⟨rfl, rfl, rfl⟩, rfl, rfl, rfl, rfl, rfl, (List.append_nil _).symm, rfl, rfl⟩
  | pointload a f =>
    refine ⟨_, rfl, ⟨rfl, rfl, rfl⟩, rfl, rfl, rfl, rfl, rfl, ?_, rfl, rfl⟩
    dsimp only
    rw [pointLoad_eq (X := X) (V := V)]
  | nodeload a f =>
    refine ⟨_, rfl, ⟨rfl, rfl, rfl⟩, rfl, rfl, rfl, rfl, rfl, ?_, rfl, rfl⟩
    dsimp only
    rw [nodeLoad_eq (X := X) (V := V)]
  | lumped w => exact ⟨_, rfl, ⟨rfl, rfl, rfl⟩, rfl, rfl, rfl, rfl, rfl, (List.append_nil _).symm, rfl, rfl⟩
  | other ok =>
    have : ok = true := ht
    subst this
    exact ⟨_, rfl, ⟨rfl, rfl, rfl⟩, rfl, rfl, rfl, rfl, rfl, (List.append_nil _).symm, rfl, rfl⟩

theorem lastSome_getD {A B : Type} (sel : A → Option B) (a : A) (l : List A) (d : B) : (lastSome sel (a :: l)).getD d = (lastSome sel l).getD ((sel a).getD d) := by
  rw [lastSome_cons]
  cases lastSome sel l <;> simp

/-- The sections read, in the order of the input. -/
def SectionsRead (v : Env X V) : List (PElem X) → List (Prop' X ℝ) → Prop := List.Forall₂ fun e p => parseProp v.atof v.interp v.fs e = .ok p

/-- An accepted element gives the model of its children: what is given last counts for the material, the line loads, the Z-direction, the twist and the mass formulation; sections and accepted loads are
kept in the order of the input; the section in use is the last one. -/
theorem C130_beam (v : Env X V) (ts : List (Tag X V)) (s : St X V) (h : ∀ t ∈ ts, Accepted v t) :
    ∃ s', parse v ts s = .ok (s', true) ∧
      (s'.E = (lastSome (fun t => (materialOf t).map fun a => (a "E").getD 210000000000) ts).getD s.E ∧ s'.G = (lastSome (fun t => (materialOf t).map shearModulus) ts).getD s.G ∧
        s'.rho = (lastSome (fun t => (materialOf t).map fun a => (a "rho").getD 7850) ts).getD s.rho) ∧
      s'.line = (lastSome lineOf ts).getD s.line ∧ s'.cpl = (lastSome cplOf ts).getD s.cpl ∧ s'.twist = (lastSome twistOf ts).getD s.twist ∧
      s'.zdir = ((lastSome (zOf 0) ts).getD s.zdir.1, (lastSome (zOf 1) ts).getD s.zdir.2.1, (lastSome (zOf 2) ts).getD s.zdir.2.2) ∧
      s'.lumped = (lastSome lumpedOf ts).getD s.lumped ∧ s'.loads = s.loads ++ ts.filterMap loadOf ∧
      ∃ ps, SectionsRead v (ts.filterMap propOf) ps ∧ s'.secs = s.secs ++ ps ∧ s'.sec = ps.getLast?.or s.sec := by
  induction ts generalizing s with
  | nil => exact ⟨s, rfl, ⟨rfl, rfl, rfl⟩, rfl, rfl, rfl, rfl, rfl, (List.append_nil _).symm, [], List.Forall₂.nil, (List.append_nil _).symm, rfl⟩
  | cons t ts ih =>
    obtain ⟨s1, e, ⟨a1, a2, a3⟩, a4, a5, a6, a7, a8, a9, a10⟩ := step_accepted v s t (h t List.mem_cons_self)
    obtain ⟨s2, e2, ⟨b1, b2, b3⟩, b4, b5, b6, b7, b8, b9, ps, c1, c2, c3⟩ := ih s1 fun t' ht' => h t' (List.mem_cons_of_mem _ ht')
    refine ⟨s2, by simp only [parse, e, e2], ⟨?_, ?_, ?_⟩, ?_, ?_, ?_, ?_, ?_, ?_, ?_⟩
    · rw [b1, a1, lastSome_getD]
    · rw [b2, a2, lastSome_getD]
    · rw [b3, a3, lastSome_getD]
    · rw [b4, a4, lastSome_getD]
    · rw [b5, a5, lastSome_getD]
    · rw [b6, a6, lastSome_getD]
    · rw [b7, a7, lastSome_getD, lastSome_getD, lastSome_getD]
    · rw [b8, a8, lastSome_getD]
    · rw [b9, a9, List.append_assoc]
      refine congrArg _ ?_
      rw [List.filterMap_cons]
      cases loadOf t <;> rfl
    · cases hp : propOf t with
      | none =>
        rw [hp] at a10
        refine ⟨ps, ?_, by rw [c2, a10.1], by rw [c3, a10.2]⟩
        rw [List.filterMap_cons, hp]
        exact c1
      | some e =>
        rw [hp] at a10
        obtain ⟨p, q1, q2, q3⟩ := a10
        refine ⟨p :: ps, ?_, by rw [c2, q2, List.append_assoc]; rfl, ?_⟩
        · rw [List.filterMap_cons, hp]
          exact List.Forall₂.cons q1 c1
        · rw [c3, q3]
          cases ps with
          | nil => rfl
          | cons q qs =>
            rw [List.getLast?_cons_cons]
            cases hq : (q :: qs).getLast? with
            | none => simp at hq
            | some w => rfl

/-- An element the base classes do not accept ends the reading with an error. -/
theorem C130_rejected (v : Env X V) (ts us : List (Tag X V)) (s : St X V) (h : ∀ t ∈ ts, Accepted v t) :
    ∃ s', parse v (ts ++ .other false :: us) s = .ok (s', false) := by
  induction ts generalizing s with
  | nil => exact ⟨s, rfl⟩
  | cons t ts ih =>
    obtain ⟨s1, e, -⟩ := step_accepted v s t (h t List.mem_cons_self)
    obtain ⟨s2, e2⟩ := ih s1 fun t' ht' => h t' (List.mem_cons_of_mem _ ht')
    exact ⟨s2, by simp only [List.cons_append, parse, e, e2]⟩

/-- A line load or a distributed moment without content is a null pointer access. -/
theorem C130_load_violated (v : Env X V) (ts us : List (Tag X V)) (s : St X V) (h : ∀ t ∈ ts, Accepted v t) :
    parse v (ts ++ .lineload none :: us) s = .ub ∧ parse v (ts ++ .cplload none :: us) s = .ub := by
  induction ts generalizing s with
  | nil => exact ⟨rfl, rfl⟩
  | cons t ts ih =>
    obtain ⟨s1, e, -⟩ := step_accepted v s t (h t List.mem_cons_self)
    obtain ⟨e2, e3⟩ := ih s1 fun t' ht' => h t' (List.mem_cons_of_mem _ ht')
    exact ⟨by simp only [List.cons_append, parse, e, e2], by simp only [List.cons_append, parse, e, e3]⟩

/-- Point loads without direction or outside of the patch are dropped and the input is accepted. -/
theorem C130_dropped_violated (v : Env X V) (s : St X V) (f : Option (ℝ → ℝ)) :
    parse v [.pointload ⟨none, some 1, none, some (1 / 2), none⟩ f, .pointload ⟨none, some 1, some 3, some 2, none⟩ f, .nodeload ⟨some 4, none, none, none, none⟩ f] s = .ok (s, true) := by
  obtain ⟨s', h, -⟩ := C130_beam v [.pointload ⟨none, some 1, none, some (1 / 2), none⟩ f, .pointload ⟨none, some 1, some 3, some 2, none⟩ f, .nodeload ⟨some 4, none, none, none, none⟩ f] s
    (by simp [Accepted])
  have e1 : pointLoad 6 ⟨none, some 1, none, some (1 / 2), none⟩ f (fun xi => decide (xi ≥ 0) && decide (xi ≤ 1)) = none := by simp [pointLoad]
  have e2 : pointLoad 6 ⟨none, some 1, some 3, some 2, none⟩ f (fun xi => decide (xi ≥ 0) && decide (xi ≤ 1)) = none := by
    have : ¬ (2 : ℝ) ≤ 1 := by norm_num
    simp [pointLoad, this]
  have e3 : nodeLoad 6 ⟨some 4, none, none, none, none⟩ f = none := by simp [nodeLoad]
  simp only [parse, step, e1, e2, e3, Option.toList_none, List.append_nil]

/-- Without `properties` the beam has the default section: 0.1, 0.002, 0.001, 0.001, and no functions. -/
theorem C130_default (v : Env X V) (ts : List (Tag X V)) (h : ∀ t ∈ ts, Accepted v t) (hp : ∀ e, Tag.properties e ∉ ts) (x : X) (L : ℝ) (grav mass : Bool) :
    ∃ s', parse v ts (initial X V) = .ok (s', true) ∧
      (let w := eval (section' s') x L s'.E s'.G s'.rho grav mass
       w.EA = s'.E * (1 / 10) ∧ w.EIy = s'.E * (1 / 1000) ∧ w.EIz = s'.E * (1 / 1000) ∧ w.GIt = s'.G * (2 / 1000) ∧ w.Aly = 0 ∧ w.Alz = 0 ∧ w.rhoA = s'.rho * (1 / 10) ∧
        w.Ixx = s'.rho * (2 / 1000) ∧ w.Iyy = s'.rho * (1 / 1000) ∧ w.Izz = s'.rho * (1 / 1000)) := by
  obtain ⟨s', e, -, -, -, -, -, -, -, ps, c1, -, c3⟩ := C130_beam v ts (initial X V) h
  refine ⟨s', e, ?_⟩
  have hn : ts.filterMap propOf = [] := by
    rw [List.filterMap_eq_nil_iff]
    intro t ht
    cases t <;> first | rfl | exact (hp _ ht).elim
  rw [hn] at c1
  have hps : ps = [] := by cases c1; rfl
  subst hps
  have hs : s'.sec = none := c3
  have hsec : section' s' = ofSec defSec := by unfold section'; rw [hs]; rfl
  simp only [hsec, eval, ofSec, defSec, useF, useIf, Option.map_none, zero_div, mul_zero, ite_self, and_self]

/-- The unknowns of a node, and the directions of the loads that are accepted for bars: in a planar model a load in the third direction is accepted although nodes have two unknowns. -/
theorem C130_planar_violated : numFields 3 2 = 2 ∧ numFields 3 3 = 3 ∧ numFields 6 2 = 6 ∧
    nodeLoad 3 ⟨some 1, none, some 3, none, none⟩ none = some ⟨1, 3, -1, none⟩ := by
  refine ⟨rfl, rfl, rfl, rfl⟩

/-- The model is generated exactly if all patches are, and then the twist is applied to all of them or, if none is given, to none. -/
theorem C130_twist (twist : Bool) (gs : List Bool) (h : (createFEM twist gs true).1 = true) :
    (∀ g ∈ gs, g = true) ∧ (createFEM twist gs true).2 = List.replicate gs.length twist := by
  induction gs with
  | nil => exact ⟨by simp, rfl⟩
  | cons g gs ih =>
    have key : ∀ l, (createFEM twist l false).1 = false := by
      intro l
      induction l with
      | nil => rfl
      | cons g l ih => exact ih
    cases g with
    | false =>
      have := key gs
      simp only [createFEM, Bool.and_false] at h
      rw [this] at h
      exact absurd h (by decide)
    | true =>
      have := ih h
      refine ⟨fun g hg => ?_, ?_⟩
      · rcases List.mem_cons.mp hg with r | r
        · exact r
        · exact this.1 g r
      · change (twist && (true && true)) :: _ = _
        simp only [Bool.and_self, Bool.and_true, List.length_cons, List.replicate_succ]
        exact congrArg _ this.2

theorem C130_generated (twist : Bool) (gs : List Bool) (h : ∀ g ∈ gs, g = true) : (createFEM twist gs true).1 = true := by
  induction gs with
  | nil => rfl
  | cons g gs ih =>
    have : g = true := h g List.mem_cons_self
    subst this
    exact ih fun g' hg' => h g' (List.mem_cons_of_mem _ hg')

/-- End moments act on cables exactly with the function given for the code. -/
theorem C130_moment {F : Type} (cable : Bool) (scalars : Nat → Option F) (code : Nat) (f : F) : initNeumann cable scalars code = some f ↔ cable = true ∧ scalars code = some f := by
  cases cable <;> simp [initNeumann]

/-- A beam with a material, a section with a function, a load and a rejected load. -/
noncomputable def exTags : List (Tag Unit Unit) :=
  [.material (fun n => if n = "E" then some 10 else if n = "nu" then some (1 / 4) else none),
   .properties ⟨fun n => if n = "A" then some 3 else none, some "Iy", [⟨"Iy", some (some fun _ => 7)⟩, ⟨"xyz", some none⟩]⟩,
   .lineload (some (some ())), .nodeload ⟨some 4, none, some 2, none, none⟩ none, .nodeload ⟨some 4, none, some 7, none, none⟩ none, .zdirection none (some 1) none]

/-- No files. -/
noncomputable def exEnv : Env Unit Unit := ⟨fun _ => 0, fun _ _ _ => 0, fun _ => none⟩

theorem exAccepted : ∀ t ∈ exTags, Accepted exEnv t := by
  intro t ht
  simp only [exTags, List.mem_cons, List.not_mem_nil, or_false] at ht
  rcases ht with h | h | h | h | h | h <;> subst h <;> first | trivial | exact ⟨_, rfl⟩

/-- The hypotheses of `C130_beam` hold for a beam with all kinds of children, and the result is the expected one. -/
example : ∃ s', parse exEnv exTags (initial Unit Unit) = .ok (s', true) ∧ s'.E = 10 ∧ s'.G = 4 ∧ s'.rho = 7850 ∧ s'.zdir = (0, 1, 0) ∧ s'.loads = [⟨4, 2, -1, none⟩] := by
  obtain ⟨s', e, ⟨h1, h2, h3⟩, -, -, -, h4, -, h5, -⟩ := C130_beam exEnv exTags (initial Unit Unit) exAccepted
  refine ⟨s', e, ?_, ?_, ?_, ?_, ?_⟩
  · rw [h1]; simp [exTags, lastSome, materialOf]
  · rw [h2]; simp only [exTags, lastSome, materialOf, shearModulus, Option.map_some, Option.map_none, List.filterMap_cons, List.filterMap_nil, List.getLast?_singleton, Option.getD_some]
    rw [if_neg (by decide), if_neg (by decide), if_neg (by decide)]
    simp only [if_true, Option.getD_some]
    norm_num
  · rw [h3]; simp [exTags, lastSome, materialOf]
  · rw [h4]; simp [exTags, lastSome, zOf, initial, List.filterMap_cons]
  · rw [h5]; simp [exTags, loadOf, initial, List.filterMap_cons]

end Verif.BeamModel
