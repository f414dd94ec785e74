/-
Model of the material input of finite deformation problems: FiniteDeformation/SIMFiniteDefEl.C (constructor, the two `parse` functions, `parseMaterial`, `preprocessB`).

Numbers are elements of a field. `toInt` is the conversion `static_cast<int>`, `atof` the library function. Attributes of an XML element are given by a function from
names to values; an attribute that is not there leaves the variable as it is (`utl::getAttribute`).
-/
import Mathlib.Algebra.Field.Basic
import Verif.Basic
import Verif.Model.Plastic

namespace Verif.FDInput

variable {K : Type} [Field K]

/-- The number of the updated Lagrange formulation (`SIM::UPDATED_LAGRANGE`, NLoptions.h). -/
def UL : Int := 4

/-- The materials that can be created. -/
inductive Mat (K : Type)
  | linIso (planeStress axi : Bool)
  | linIso3
  | neoHooke (ver : Int)
  | linear (m : Mat K)
  | plastic (p : List K)

/-- Whether a material is linear (Elasticity/MaterialBase.h:53, FiniteDeformation/NeoHookeMaterial.h:44, FiniteDeformation/PlasticMaterial.h:148). -/
def isLinear : Mat K → Bool
  | .neoHooke _ => false
  | .plastic _ => false
  | _ => true

/-- Whether a material depends on the history (Elasticity/MaterialBase.h:51, FiniteDeformation/PlasticMaterial.h:146). -/
def isHistory : Mat K → Bool
  | .plastic _ => true
  | _ => false

/-- The setting of the problem: formulation, dimension, plane strain and axial symmetry. -/
structure Setting where
  form : Int
  dim : Nat
  planeStrain : Bool
  axi : Bool

/-- The formulation and its order from the options (FiniteDeformation/SIMFiniteDefEl.C:38-41); 3 is the total Lagrange formulation. -/
def formulation (options : List Int) : Int × Int := (options.getD 0 3, options.getD 1 0)

/-- The isotropic material of the text format; version -1 if none is given (FiniteDeformation/SIMFiniteDefEl.C:67-78). -/
def isoText (s : Setting) (ver : Option Int) : Mat K :=
  let matVer := ver.getD (-1)
  let m := if matVer ≥ 0 ∧ s.form ≥ UL then .neoHooke matVer
    else if s.dim = 2 then .linIso (!s.planeStrain) s.axi else .linIso3
  if matVer < 0 ∧ s.form ≥ UL then .linear m else m

/-- The isotropic material of the XML format, as it is stored (FiniteDeformation/SIMFiniteDefEl.C:180-191 and 139-143). -/
def isoXml (s : Setting) (ver : Option Int) : Mat K :=
  let mVer := ver.getD (-1)
  let m : Mat K := if mVer ≥ 0 ∧ s.form ≥ UL then .neoHooke mVer
    else if s.dim = 2 then .linIso (!s.planeStrain) s.axi else .linIso3
  if s.form ≥ UL ∧ isLinear m = true then .linear m else m

/-! ### Plastic materials -/

/-- A child element of `<plastic>`: a hardening curve (with or without contents) or any other element, with its name. -/
inductive PChild (F : Type)
  | hardening (f : Option F)
  | other (name : List Char)

/-- The element `<plastic>`: attributes, child elements, and the numbers given as text. -/
structure PElem (K F : Type) where
  attr : String → Option K
  children : List (PChild F)
  text : List K

/-- `utl::getAttribute(elem,name,pMAT[i])`. -/
def put (attr : String → Option K) (name : String) (i : Nat) (p : List K) : List K :=
  match attr name with
  | some v => p.set i v
  | none => p

/-- `resize(n,0.0)` if shorter than `n`. -/
def extend (n : Nat) (p : List K) : List K := p ++ List.replicate (n - p.length) 0

/-- The numbers read from the child elements: the *name* of each element is converted to a number (FiniteDeformation/SIMFiniteDefEl.C:198-207). -/
def childNumbers {F : Type} (atof : List Char → K) : List (PChild F) → List K
  | [] => []
  | .hardening _ :: r => childNumbers atof r
  | .other name :: r => atof name :: childNumbers atof r

/-- The hardening function: the last one with contents (FiniteDeformation/SIMFiniteDefEl.C:208-215). -/
def hardening {F : Type} (l : List (PChild F)) : Option F :=
  l.foldl (fun h c => match c with
    | .hardening (some f) => some f
    | _ => h) none

/-- The parameters of a plastic material in the XML format (FiniteDeformation/SIMFiniteDefEl.C:194-245). -/
def plasticXml {F : Type} (toInt : K → Int) (atof : List Char → K) (e : PElem K F) : List K :=
  let p := extend 11 (childNumbers atof e.children)
  let p := put e.attr "Bmod" 0 p
  let p := put e.attr "Emod" 0 p
  let p := put e.attr "E" 0 p
  let p := put e.attr "Smod" 1 p
  let p := put e.attr "nu" 1 p
  let p := put e.attr "rho" 3 p
  let p := put e.attr "Hiso" 4 p
  let p := put e.attr "Hkin" 5 p
  let p := put e.attr "yield" 6 p
  let p := put e.attr "Y0" 7 p
  let p := put e.attr "Yinf" 8 p
  let p := put e.attr "beta" 9 p
  let p := put e.attr "istrt" 10 p
  let iYield := toInt (p.getD 6 0)
  if iYield = 4 then
    put e.attr "n" 9 (put e.attr "B" 8 (put e.attr "A" 7 p))
  else if iYield = 6 then
    put e.attr "C2" 12 (put e.attr "Q2" 11 (put e.attr "C1" 9 (put e.attr "Q1" 8 (extend 13 p))))
  else p

/-- The parameters of a plastic material in the text format: the numbers as they are (FiniteDeformation/SIMFiniteDefEl.C:101-104). -/
def plasticText (numbers : List K) : List K := numbers

/-! ### The lists of materials -/

/-- The result of reading: materials, properties (code and material index) and the default material of the integrand, as an index. -/
structure Input (K : Type) where
  mats : List (Mat K)
  props : List (Int × Nat)
  default : Option Nat

/-- One material of a text format block (FiniteDeformation/SIMFiniteDefEl.C:60-84 and 96-111); the last component is the local variable `defaultMat`. -/
def addText (a : Input K × Option Nat) (x : Int × Mat K) : Input K × Option Nat :=
  let n := a.1.mats.length
  ({ a.1 with mats := a.1.mats ++ [x.2], props := if x.1 > 0 then a.1.props ++ [(x.1, n)] else a.1.props },
   if a.2 = none ∨ x.1 = 0 then some n else a.2)

/-- A block of the text format: codes and materials (FiniteDeformation/SIMFiniteDefEl.C:46-124). -/
def parseText (l : List (Int × Mat K)) (a : Input K) : Input K :=
  let r := l.foldl addText (a, none)
  match r.2 with
  | some n => { r.1 with default := some n }
  | none => r.1

/-- The children of `<finitedeformation>`: a material with its code, a contact definition (with the outcome of its parsing), or anything else. -/
inductive XChild (K : Type)
  | mat (code : Int) (m : Mat K)
  | contact (ok : Bool)
  | other

/-- The children of the XML format in order; a failing contact definition ends the parsing without the default material being set (FiniteDeformation/SIMFiniteDefEl.C:133-167). -/
def xmlLoop : List (XChild K) → Input K × Option Nat → Input K × Option Nat × Bool
  | [], a => (a.1, a.2, true)
  | .mat code m :: r, a =>
    let n := a.1.mats.length
    xmlLoop r ({ a.1 with mats := a.1.mats ++ [m], props := if code > 0 then a.1.props ++ [(code, n)] else a.1.props }, if a.2 = none then some n else a.2)
  | .contact ok :: r, a => if ok then xmlLoop r a else (a.1, a.2, false)
  | .other :: r, a => xmlLoop r a

/-- `parse` of the XML element (FiniteDeformation/SIMFiniteDefEl.C:128-168). -/
def parseXml (l : List (XChild K)) (a : Input K) : Input K × Bool :=
  let r := xmlLoop l (a, none)
  if r.2.2 then
    (match r.2.1 with
      | some n => { r.1 with default := some n }
      | none => r.1, true)
  else (r.1, false)

/-! ### Preprocessing -/

/-- The number of element parameters: the largest of all materials (FiniteDeformation/SIMFiniteDefEl.C:277-281). -/
def noElParameters (l : List Nat) : Nat := l.foldl max 0

/-- The check of the projection methods; `true` in the list is the continuous global projection with integration point values (FiniteDeformation/SIMFiniteDefEl.C:284-298). -/
def projectionOk (mats : List (Mat K)) (project : List Bool) : Bool :=
  if mats.any isHistory then (project.find? fun p => !p).isNone else true

end Verif.FDInput
