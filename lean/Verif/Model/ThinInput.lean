/-
Model of the input of C1-continuous beams (Linear/SIMLinElBeamC1.C) and of the text input of plates and shells (Shell/SIMKLShell.C), and of the definition of
analytical plate solutions (Linear/SIMLinElKL.C).

A line of text input is its property code and the list of the numbers after it; reading a number which is missing converts a null pointer, which is
undefined (`Res.ub`). The library gives the index of a material to the regions with its property code, the last call deciding. The library functions
for the interpretation of pressure functions are not modelled: functions are of a type `F`.
-/
import Mathlib.Algebra.Group.Defs
import Verif.Basic
import Verif.Model.Analytic

namespace Verif.ThinInput

/-- Properties of a material: Young's modulus, Poisson's ratio and density. -/
structure Mat (K : Type) where
  E : K
  nu : K
  rho : K
  deriving DecidableEq, Repr

/-- The simulator: materials, thicknesses, material index of the property codes, and the material and thickness of the integrand (Linear/SIMLinElBeamC1.h:94-96,
Elasticity/KirchhoffLove.h:213-215). -/
structure Sim (K : Type) where
  mVec : List (Mat K)
  tVec : List K
  codes : List (Int × Nat)
  cur : Option (Mat K)
  thick : K

/-- Index of the material of the regions with a property code. -/
def indexOf (codes : List (Int × Nat)) (c : Int) : Option Nat := (codes.reverse.find? fun e => e.1 == c).map Prod.snd

/-! ### Materials -/

/-- A value which may be missing at the end of the line (Linear/SIMLinElBeamC1.C:81-82, Shell/SIMKLShell.C:136-137). -/
def opt {K : Type} [Zero K] (l : List K) (i : Nat) : K := match l[i]? with
  | some v => v
  | none => 0

/-- Numbers of a material line of a beam (Linear/SIMLinElBeamC1.C:80-83): Young's modulus, density, thickness. -/
def beamLine {K : Type} [Zero K] (l : List K) : Res (Mat K × K) := match l with
  | [] => .ub
  | E :: r => .ok (⟨E, 0, opt r 0⟩, opt r 1)

/-- Numbers of a material line of a plate (Shell/SIMKLShell.C:134-138): Young's modulus, Poisson's ratio, density, thickness. -/
def plateLine {K : Type} [Zero K] (l : List K) : Res (Mat K × K) := match l with
  | E :: nu :: r => .ok (⟨E, nu, opt r 0⟩, opt r 1)
  | _ => .ub

/-- Attributes of the material tag of a beam with their defaults (Linear/SIMLinElBeamC1.C:181-186). -/
def beamXml {K : Type} [Zero K] (dE drho dt : K) (E rho t : Option K) : Mat K × K := (⟨E.getD dE, 0, rho.getD drho⟩, t.getD dt)

/-- One material of a given code (Linear/SIMLinElBeamC1.C:76-85, 179-187, Shell/SIMKLShell.C:130-139). -/
def addMat {K : Type} (s : Sim K) (code : Int) (m : Mat K × K) : Sim K :=
  { s with
    codes := if code > 0 then s.codes ++ [(code, s.mVec.length)] else s.codes
    mVec := s.mVec ++ [m.1]
    tVec := s.tVec ++ [m.2] }

/-- The first material is the default (Linear/SIMLinElBeamC1.C:90-93, 190-192, Shell/SIMKLShell.C:144-147). -/
def setFront {K : Type} [Zero K] [DecidableEq K] (s : Sim K) : Sim K :=
  { s with
    cur := match s.mVec.head? with
      | some m => some m
      | none => s.cur
    thick := match s.tVec.head? with
      | some t => if t ≠ 0 then t else s.thick
      | none => s.thick }

/-- The lines of a material section (Linear/SIMLinElBeamC1.C:74-88, Shell/SIMKLShell.C:128-142): `n` lines are announced, the loop ends with the file. -/
def matLines {K : Type} (f : List K → Res (Mat K × K)) : Nat → List (Int × List K) → Sim K → Res (Sim K)
  | 0, _, s => .ok s
  | _ + 1, [], s => .ok s
  | n + 1, l :: ls, s => match f l.2 with
    | .ok m => matLines f n ls (addMat s l.1 m)
    | .fail => .fail
    | .ub => .ub

/-- A material section. -/
def matSection {K : Type} [Zero K] [DecidableEq K] (f : List K → Res (Mat K × K)) (n : Nat) (ls : List (Int × List K)) (s : Sim K) : Res (Sim K) :=
  match matLines f n ls s with
  | .ok s' => .ok (setFront s')
  | .fail => .fail
  | .ub => .ub

/-- Material tags (Linear/SIMLinElBeamC1.C:178-193). -/
def matTags {K : Type} [Zero K] [DecidableEq K] (l : List (Int × (Mat K × K))) (s : Sim K) : Sim K := l.foldl (fun s t => setFront (addMat s t.1 t.2)) s

/-- `SIMLinElBeamC1::initMaterial` (Linear/SIMLinElBeamC1.C:291-303): the index is limited to that of the last material; without materials it wraps around. -/
def initMaterial {K : Type} [Zero K] [DecidableEq K] (s : Sim K) (propInd : Nat) : Res (Sim K) :=
  let i := if propInd ≥ s.mVec.length then s.mVec.length - 1 else propInd
  match s.mVec[i]?, s.tVec[i]? with
  | some m, some t => .ok { s with cur := some m, thick := if t ≠ 0 then t else s.thick }
  | _, _ => .ub

/-- The region with a property code is initialised; regions without material use what is there. -/
def enterRegion {K : Type} [Zero K] [DecidableEq K] (s : Sim K) (c : Int) : Res (Sim K) := match indexOf s.codes c with
  | some i => initMaterial s i
  | none => .ok s

/-- A sequence of regions. -/
def enterRegions {K : Type} [Zero K] [DecidableEq K] : List Int → Sim K → Res (Sim K)
  | [], s => .ok s
  | c :: l, s => match enterRegion s c with
    | .ok s' => enterRegions l s'
    | .fail => .fail
    | .ub => .ub

/-! ### Point loads -/

/-- A point load of a beam with its defaults (Linear/SIMLinElBeamC1.h:81-91). -/
structure Load (K : Type) where
  patch : Nat
  xi : K
  p : K
  deriving DecidableEq, Repr

/-- A new load (Linear/SIMLinElBeamC1.h:89). -/
def Load.new {K : Type} [Zero K] [One K] [Neg K] : Load K := ⟨1, -1, 0⟩

/-- Change of the length of the array of loads. -/
def resize {K : Type} [Zero K] [One K] [Neg K] (l : List (Load K)) (n : Nat) : List (Load K) := l.take n ++ List.replicate (n - l.length) Load.new

/-- A section of point loads of a beam (Linear/SIMLinElBeamC1.C:96-110); `lines` are the lines up to the end of the file. -/
def loadSection {K : Type} [Zero K] [One K] [Neg K] (n : Nat) (lines : List (Load K)) (old : List (Load K)) : List (Load K) :=
  lines.take n ++ (resize old n).drop (lines.take n).length

/-- A point load tag (Linear/SIMLinElBeamC1.C:195-209). -/
def loadTag {K : Type} (t : Load K) (old : List (Load K)) : List (Load K) := old ++ [t]

/-! ### Pressures -/

/-- Functions by code, and the codes of body load properties. -/
structure Pres (F : Type) where
  fn : Int → Option F
  body : List Int

/-- A line of a pressure section (Linear/SIMLinElBeamC1.C:117-127, Shell/SIMKLShell.C:179-189). -/
def presLine {F : Type} (p : Pres F) (code : Int) (f : F) : Pres F :=
  ⟨fun c => if c = code then some f else p.fn c, if code > 0 then p.body ++ [code] else p.body⟩

/-- A pressure tag (Linear/SIMLinElBeamC1.C:211-226). -/
def presTag {F : Type} (p : Pres F) (code : Int) (f : F) : Pres F :=
  if code > 0 then ⟨fun c => if c = code then some f else p.fn c, p.body ++ [code]⟩ else p

/-- `SIMLinElBeamC1::initBodyLoad` (Linear/SIMLinElBeamC1.C:306-321): the functions acting on a patch with the property codes `codes`. -/
def initBodyLoad {F : Type} (p : Pres F) (codes : List Int) : List F :=
  (p.fn 0).toList ++ codes.flatMap fun c => if p.body.contains c then (p.fn c).toList else []

/-! ### Analytical plate solutions -/

/-- A plate solution. -/
inductive Sol
  | navier (n : Verif.Analytic.Navier)
  | circular (R t E nu P : ℝ)
  | expression (id : Nat)

/-- Material and thickness at the origin known to the integrand. -/
structure Plate where
  E : ℝ
  nu : ℝ
  t : ℝ

/-- Attributes of the tag of an analytical solution with their defaults (Linear/SIMLinElKL.C:92-101, 127-129). -/
structure Attr where
  a : ℝ := 0
  b : ℝ := 0
  c : ℝ := 0
  d : ℝ := 0
  pz : ℝ := 1
  xi : ℝ := 0
  eta : ℝ := 0
  nTerm : Nat := 100
  R : ℝ := 0
  P : ℝ := 1000000

open Classical in
/-- `SIMLinElKL::parseAnaSol` from a tag (Linear/SIMLinElKL.C:86-147); `plate` is `none` before the material is defined, `id` identifies the expressions. -/
noncomputable def anaTag (plate : Option Plate) (type : String) (x : Attr) (id : Nat) (old : Option Sol) : Res (Option Sol) :=
  if type = "navierplate" then
    match plate with
    | none => .ub
    | some p =>
      .ok (match old with
        | some s => some s
        | none => some (.navier (
            if x.xi ≠ 0 ∧ x.eta ≠ 0 then
              if x.c ≠ 0 ∧ x.d ≠ 0 then Verif.Analytic.navierPartial x.a x.b p.t p.E p.nu x.pz x.xi x.eta x.c x.d x.nTerm
              else Verif.Analytic.navierPartial x.a x.b p.t p.E p.nu x.pz x.xi x.eta 0 0 x.nTerm
            else Verif.Analytic.navierUniform x.a x.b p.t p.E p.nu x.pz x.nTerm)))
  else if type = "circularplate" then
    match plate with
    | none => .ub
    | some p => .ok (match old with
      | some s => some s
      | none => some (.circular x.R p.t p.E p.nu x.P))
  else if type = "expression" then
    .ok (match old with
      | some s => some s
      | none => some (.expression id))
  else .ok old

/-- `SIMLinElKL::parseAnaSol` from text, for the Navier plate (Linear/SIMLinElKL.C:43-70): the numbers after the keyword. -/
noncomputable def anaLine (plate : Option Plate) (l : List ℝ) (old : Option Sol) : Res (Option Sol) :=
  match l, plate with
  | a :: b :: pz :: r, some p => match r with
    | [] => .ok (match old with | some s => some s | none => some (.navier (Verif.Analytic.navierUniform a b p.t p.E p.nu pz 100)))
    | [_] => .ub
    | [xi, eta] => .ok (match old with | some s => some s | none => some (.navier (Verif.Analytic.navierPartial a b p.t p.E p.nu pz xi eta 0 0 100)))
    | [_, _, _] => .ub
    | xi :: eta :: c :: d :: _ => .ok (match old with | some s => some s | none => some (.navier (Verif.Analytic.navierPartial a b p.t p.E p.nu pz xi eta c d 100)))
  | _, _ => .ub

end Verif.ThinInput
