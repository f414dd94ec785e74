/-
The element `beam` of the input: Beam/SIMElasticBar.C (the loop over the children, twist, point and node loads), Beam/ElasticBeam.C (loads and default section) and
Beam/BeamProperty.C (cross sections with property functions).

The constant part of a cross section, the tables and the materials are in Model/BeamInput.lean, the evaluation of a section in Model/Beam.lean.

IFEM assumptions: `utl::getAttribute` leaves its argument unchanged and returns false if there is no such attribute; the functions that `utl::parseRealFunc`, `utl::parseVecFunc` and
`utl::parseTimeFunc` give for a text are parameters, where `none` is a null pointer.
-/
import Verif.Model.Beam
import Verif.Model.BeamInput

namespace Verif.BeamModel

open Verif.Beam (Prop')
open Verif.BeamInput (Att Sec attr defSec parseSec readCSV beamMaterial)

/-- A child element of `properties`: its name and, if it has a child node, the function of the text. -/
structure FChild (X : Type) where
  tag : String
  func : Option (Option (X → ℝ))

/-- The section with constant data only (Beam/BeamProperty.C:24-39). -/
def ofSec {X : Type} (s : Sec) : Prop' X ℝ :=
  { A := s.A, Ix := s.Ix, Iy := s.Iy, Iz := s.Iz, It := s.It, Ky := s.Ky, Kz := s.Kz, Sy := s.Sy, Sz := s.Sz }

/-- The assignment of the function of one child (Beam/BeamProperty.C:206-233); other names are ignored. -/
def setFunc {X : Type} (p : Prop' X ℝ) (tag : String) (f : Option (X → ℝ)) : Prop' X ℝ :=
  if tag = "EA" then { p with EAf := f }
  else if tag = "EIy" then { p with EIyf := f }
  else if tag = "EIz" then { p with EIzf := f }
  else if tag = "GIt" then { p with GItf := f }
  else if tag = "rho" then { p with rhof := f }
  else if tag = "Ix" then { p with Ixf := f }
  else if tag = "Iy" then { p with Iyf := f }
  else if tag = "Iz" then { p with Izf := f }
  else if tag = "CGy" then { p with CGyf := f }
  else if tag = "CGz" then { p with CGzf := f }
  else p

/-- The loop over the children (Beam/BeamProperty.C:195-241), where elements without child node are skipped. -/
def parseFuncs {X : Type} : List (FChild X) → Prop' X ℝ → Prop' X ℝ
  | [], p => p
  | c :: cs, p =>
    match c.func with
    | some f => parseFuncs cs (setFunc p c.tag f)
    | none => parseFuncs cs p

/-- The element `properties`: attributes, the value of its first child node (the text, the comment or the name of the element), and its child elements. -/
structure PElem (X : Type) where
  att : Att
  first : Option String
  children : List (FChild X)

/-- A property function of a table (Beam/BeamProperty.C:315-319); `interp` is `Interpolate1D`. -/
def tableFunc {X : Type} (interp : List ℝ → List ℝ → X → ℝ) (x v : List ℝ) : Option (X → ℝ) := if v = [] then none else some (interp x v)

/-- The functions of a table (Beam/BeamProperty.C:321-330). -/
def setTable {X : Type} (interp : List ℝ → List ℝ → X → ℝ) (t : List ℝ × (String → List ℝ)) (p : Prop' X ℝ) : Prop' X ℝ :=
  { p with Axf := tableFunc interp t.1 (t.2 "Ax"), Ayf := tableFunc interp t.1 (t.2 "Ay"), Azf := tableFunc interp t.1 (t.2 "Az")
           Ixf := tableFunc interp t.1 (t.2 "Ix"), Iyf := tableFunc interp t.1 (t.2 "Iy"), Izf := tableFunc interp t.1 (t.2 "Iz")
           Syf := tableFunc interp t.1 (t.2 "Sy"), Szf := tableFunc interp t.1 (t.2 "Sz") }

/-- `BeamProperty::parse` of a new section (Beam/BeamProperty.C:155-230), without the eccentricities: `fs` gives the lines of the files that can be opened. -/
noncomputable def parseProp {X : Type} (atof : List Char → ℝ) (interp : List ℝ → List ℝ → X → ℝ) (fs : String → Option (List (List Char))) (e : PElem X) : Res (Prop' X ℝ) :=
  let p := ofSec (parseSec e.att defSec)
  match e.first.bind fs with
  | some lines =>
    match readCSV atof lines with
    | .ok (some t) => .ok (setTable interp t p)
    | .ok none => .ok (parseFuncs e.children p)
    | .fail => .fail
    | .ub => .ub
  | none => .ok (parseFuncs e.children p)

/-- `SIMElasticBar::PointLoad` (Beam/SIMElasticBar.h:97-106) with default values. -/
structure PLoad where
  inod : Int := 0
  ldof : Int := 0
  xi : ℝ := -1
  p : Option (ℝ → ℝ) := none

/-- Attributes of a point or node load. -/
structure LAtt where
  node : Option Int
  patch : Option Int
  dof : Option Int
  u : Option ℝ
  onElement : Option Bool

/-- A point load (Beam/SIMElasticBar.C:241-269) on a model with `nf` degrees of freedom in a node; nothing is stored unless the direction and the parameter are in range. -/
def pointLoad (nf : Int) (a : LAtt) (f : Option (ℝ → ℝ)) (xiOk : ℝ → Bool) : Option PLoad :=
  let ldof := a.dof.getD 0
  let xi := a.u.getD (-1)
  if ldof > 0 ∧ ldof ≤ nf ∧ xiOk xi = true then
    some { inod := a.patch.getD 1, ldof := if a.onElement.getD false then -ldof else ldof, xi := xi, p := f }
  else none

/-- A node load (Beam/SIMElasticBar.C:273-296). -/
def nodeLoad (nf : Int) (a : LAtt) (f : Option (ℝ → ℝ)) : Option PLoad :=
  let inod := a.node.getD 0
  let ldof := a.dof.getD 0
  if inod > 0 ∧ ldof > 0 ∧ ldof ≤ nf then some { inod := inod, ldof := ldof, p := f } else none

/-- A child element of `beam`. The loads have the function of their text; without a child node they are `none`. Elements `twist`, `pointload` and `nodeload` without child node and all
elements with other names are `other`, with the status that the integrand or the base class returns. -/
inductive Tag (X V : Type)
  | material (a : Att)
  | properties (e : PElem X)
  | lineload (f : Option (Option V))
  | cplload (f : Option (Option V))
  | zdirection (x y z : Option ℝ)
  | twist (f : Option (X → ℝ))
  | pointload (a : LAtt) (f : Option (ℝ → ℝ))
  | nodeload (a : LAtt) (f : Option (ℝ → ℝ))
  | lumped (version : Option Int)
  | other (ok : Bool)

/-- The data of a beam model. `sec` is the section in use. -/
structure St (X V : Type) where
  E : ℝ
  G : ℝ
  rho : ℝ
  secs : List (Prop' X ℝ)
  sec : Option (Prop' X ℝ)
  line : Option V
  cpl : Option V
  zdir : ℝ × ℝ × ℝ
  twist : Option (X → ℝ)
  loads : List PLoad
  lumped : Int

/-- The data before the element is read (Beam/ElasticBeam.C:83-113, Beam/SIMElasticBar.C:31-39). -/
noncomputable def initial (X V : Type) : St X V := ⟨205000000000, 79400000000, 7850, [], none, none, none, (0, 0, 0), none, [], 0⟩

/-- The library functions. -/
structure Env (X V : Type) where
  atof : List Char → ℝ
  interp : List ℝ → List ℝ → X → ℝ
  fs : String → Option (List (List Char))

/-- One child of `beam` (Beam/SIMElasticBar.C:169-299; Beam/ElasticBeam.C:133-145 for the mass; 157-181 for the line loads, which read the first child node without a check; Beam/SIMElasticBar.C:311-333 for
the twist): the new data and the status. -/
noncomputable def step {X V : Type} (v : Env X V) (s : St X V) : Tag X V → Res (St X V × Bool)
  | .material a => .ok ({ s with E := (beamMaterial a).1, G := (beamMaterial a).2.1, rho := (beamMaterial a).2.2 }, true)
  | .properties e =>
    match parseProp v.atof v.interp v.fs e with
    | .ok p => .ok ({ s with secs := s.secs ++ [p], sec := some p }, true)
    | .fail => .fail
    | .ub => .ub
  | .lineload (some f) => .ok ({ s with line := f }, true)
  | .lineload none => .ub
  | .cplload (some f) => .ok ({ s with cpl := f }, true)
  | .cplload none => .ub
  | .zdirection x y z => .ok ({ s with zdir := (x.getD s.zdir.1, y.getD s.zdir.2.1, z.getD s.zdir.2.2) }, true)
  | .twist f => .ok ({ s with twist := f }, true)
  | .pointload a f => .ok ({ s with loads := s.loads ++ (pointLoad 6 a f fun xi => decide (xi ≥ 0) && decide (xi ≤ 1)).toList }, true)
  | .nodeload a f => .ok ({ s with loads := s.loads ++ (nodeLoad 6 a f).toList }, true)
  | .lumped w => .ok ({ s with lumped := w.getD 1 }, true)
  | .other ok => .ok (s, ok)

/-- The loop over the children of `beam` (Beam/SIMElasticBar.C:168-303), which ends at the first failure. -/
noncomputable def parse {X V : Type} (v : Env X V) : List (Tag X V) → St X V → Res (St X V × Bool)
  | [], s => .ok (s, true)
  | t :: ts, s =>
    match step v s t with
    | .ok (s', true) => parse v ts s'
    | .ok (s', false) => .ok (s', false)
    | .fail => .fail
    | .ub => .ub

/-- The section in use when the problem has been printed (Beam/ElasticBeam.C:113-122). -/
noncomputable def section' {X V : Type} (s : St X V) : Prop' X ℝ := s.sec.getD (ofSec defSec)

/-- The number of unknowns in a node (Beam/SIMElasticBar.C:378-381). -/
def numFields (nf nsd : Int) : Int := if nf = 3 ∧ nsd < 3 then nsd else nf

/-- `SIMElasticBar::createFEMmodel` (Beam/SIMElasticBar.C:333-344): for each patch the status of its generation; gives the overall status and for each patch if the twist is applied. -/
def createFEM (twist : Bool) : List Bool → Bool → Bool × List Bool
  | [], ok => (ok, [])
  | g :: gs, ok =>
    let ok' := ok && g
    let r := createFEM twist gs ok'
    (r.1, (twist && ok') :: r.2)

/-- `SIMElasticBar::initNeumann` (Beam/SIMElasticBar.C:357-370): the moment function for a property code, if the integrand is a cable. -/
def initNeumann {F : Type} (cable : Bool) (scalars : Nat → Option F) (code : Nat) : Option F := if cable then scalars code else none

end Verif.BeamModel
