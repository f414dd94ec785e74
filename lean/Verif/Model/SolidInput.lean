/-
Input of solid models: Elasticity/LinIsotropic.C (materials), Elasticity/Elasticity.C and Elasticity/LocalSystems.C (integrand) and the context element of Elasticity/SIMElasticity.C.

IFEM assumptions: `utl::getAttribute` leaves its argument unchanged and returns false if there is no such attribute; the functions that `utl::parseRealFunc`, `utl::parseTimeFunc` and
`utl::parseVecFunc` give for a text and a type are parameters, where `none` is a null pointer; `parseMaterialSet` and `getUniquePropertyCode` are given by the code they return. Names of elements are in lower case.
-/
import Verif.Model.LinIsotropic
import Verif.Model.LocalSystems

namespace Verif.SolidInput

open Verif.LinIso (Pt FE Mat)

variable {K : Type}

/-- A child element of a material: name, attributes `type` and `aging`, and its text. -/
structure Child where
  tag : String
  type : String := ""
  aging : Option Bool := none
  text : Option String := none

/-- A material element. -/
structure Elem (K : Type) where
  att : String → Option K
  children : List Child := []

/-- The library functions. -/
structure Lib (K : Type) where
  real : String → String → Option (Pt K → K)
  time : String → String → Option (K → K)

/-- The data of an isotropic material (Elasticity/LinIsotropic.h:119-140). -/
structure Iso (K : Type) where
  Emod : K
  nu : K
  rho : K
  alpha : K
  heatcapacity : K
  conductivity : K
  Efunc : Option (Pt K → K) := none
  nuFunc : Option (Pt K → K) := none
  rhoFunc : Option (Pt K → K) := none
  Eaging : Option (K → K) := none
  Afunc : Option (K → K) := none
  Cpfunc : Option (K → K) := none
  condFunc : Option (K → K) := none
  planeStress : Bool
  axiSymmetry : Bool

/-- The default material (Elasticity/LinIsotropic.C:25-37). -/
def defaultIso [Field K] (ps ax : Bool) : Iso K :=
  { Emod := 205000000000, nu := 29 / 100, rho := 7850, alpha := 12 / 100000000, heatcapacity := 1, conductivity := 1, planeStress := ps, axiSymmetry := ax }

/-- The lambda function for spatial functions (Elasticity/LinIsotropic.C:94-104): its copy of the pointer is the one at its definition, so it reads the *first* child element whenever it is called. -/
def spatialFunc (lib : Lib K) (first : Option Child) : Option (Pt K → K) := first.bind fun c => c.text.bind fun t => lib.real t c.type

/-- The lambda function for scalar functions (Elasticity/LinIsotropic.C:107-114), likewise. -/
def scalarFunc (lib : Lib K) (first : Option Child) : Option (K → K) := first.bind fun c => c.text.bind fun t => lib.time t c.type

/-- One child element (Elasticity/LinIsotropic.C:117-133). -/
def childStep [Zero K] [LE K] [DecidableLE K] (lib : Lib K) (first : Option Child) (m : Iso K) (c : Child) : Iso K :=
  if c.tag = "stiffness" then
    if c.aging = some true then { m with Eaging := scalarFunc lib first }
    else if (0 : K) ≤ m.Emod ∧ m.Efunc.isNone = true then { m with Efunc := spatialFunc lib first }
    else m
  else if c.tag = "poisson" then { m with nuFunc := spatialFunc lib first }
  else if c.tag = "density" then { m with rhoFunc := spatialFunc lib first }
  else if c.tag = "thermalexpansion" then { m with Afunc := scalarFunc lib first }
  else if c.tag = "heatcapacity" then { m with Cpfunc := scalarFunc lib first }
  else if c.tag = "conductivity" then { m with condFunc := scalarFunc lib first }
  else m

/-- The attributes (Elasticity/LinIsotropic.C:81-92). -/
def attributes [Zero K] [LE K] [DecidableLE K] (m : Iso K) (a : String → Option K) : Iso K :=
  { m with Emod := if (0 : K) ≤ m.Emod then (a "E").getD m.Emod else m.Emod
           nu := (a "nu").getD m.nu
           rho := (a "rho").getD m.rho
           alpha := (a "alpha").getD m.alpha
           heatcapacity := (a "cp").getD m.heatcapacity
           conductivity := (a "kappa").getD m.conductivity }

/-- `LinIsotropic::parse` (Elasticity/LinIsotropic.C:77-133). -/
def parseIso [Zero K] [LE K] [DecidableLE K] (lib : Lib K) (m : Iso K) (e : Elem K) : Iso K := e.children.foldl (childStep lib e.children.head?) (attributes m e.att)

/-- The part used by the constitutive evaluation. -/
def Iso.toMat (m : Iso K) : Mat K := { Efunc := m.Efunc, Eaging := m.Eaging, Emod := m.Emod, nuFunc := m.nuFunc, nu := m.nu, planeStress := m.planeStress, axiSymmetry := m.axiSymmetry }

/-- `getPoissonRatio` (Elasticity/LinIsotropic.C:371-374). -/
def getPoissonRatio (m : Iso K) (X : Pt K) : K :=
  match m.nuFunc with
  | some f => f X
  | none => m.nu

/-- `getMassDensity` (Elasticity/LinIsotropic.C:377-380). -/
def getMassDensity (m : Iso K) (X : Pt K) : K :=
  match m.rhoFunc with
  | some f => f X
  | none => m.rho

/-- `getThermalExpansion` (Elasticity/LinIsotropic.C:383-386). -/
def getThermalExpansion (m : Iso K) (T : K) : K :=
  match m.Afunc with
  | some f => f T
  | none => m.alpha

/-- `getHeatCapacity` (Elasticity/LinIsotropic.C:389-392). -/
def getHeatCapacity (m : Iso K) (T : K) : K :=
  match m.Cpfunc with
  | some f => f T
  | none => m.heatcapacity

/-- `getThermalConductivity` (Elasticity/LinIsotropic.C:395-398). -/
def getThermalConductivity (m : Iso K) (T : K) : K :=
  match m.condFunc with
  | some f => f T
  | none => m.conductivity

/-! ### The context element -/

/-- Local coordinate systems for results (Elasticity/LocalSystems.C:29-33, 60-66). -/
inductive LocSys (K : Type)
  | cylindricZ
  | cylinderSphere (H : K)

/-- `Elasticity::parseLocalSystem` of an element (Elasticity/LocalSystems.C:167-188): its text in lower case and the attribute `H`; an unknown name is ignored. -/
def parseLocalSystem [Zero K] (old : Option (LocSys K)) (text : Option String) (H : Option K) : Option (LocSys K) :=
  match text with
  | none => old
  | some t =>
    if t = "cylindricz" then some .cylindricZ
    else if t = "cylinder+sphere" then some (.cylinderSphere (H.getD 0))
    else old

/-- `Elasticity::parseLocalSystem` of a line in lower case (Elasticity/LocalSystems.C:150-164): the system and the status. -/
def parseLocalLine (atof : List Char → K) (old : Option (LocSys K)) (line : List Char) : Option (LocSys K) × Bool :=
  if "cylindricz".toList <+: line then (some .cylindricZ, true)
  else if "cylinder+sphere".toList <+: line then (some (.cylinderSphere (atof (line.drop 15))), true)
  else (old, false)

/-- A child of the context element: materials with the attribute `planeStrain`, texture materials with the outcome of the check of the parameter domains, body forces with the code of their set (zero without a set), the attribute `code`, and the
function of their text (`none` without a text), stabilisation, local systems; and all others with the status returned by their parser. -/
inductive Tag (K F : Type)
  | isotropic (code : Int) (planeStrain : Option Bool) (e : Elem K)
  | texture (code : Int) (planeStrain : Option Bool) (domainOk : Bool)
  | bodyforce (setCode : Int) (code : Option Int) (f : Option (Option F))
  | stabilization (gamma : Option K)
  | localsystem (text : Option String) (H : Option K)
  | other (ok : Bool)

/-- A material of the model. -/
inductive AnyMat (K : Type)
  | iso (m : Iso K)
  | texture (planeStress axiSymmetry : Bool)

/-- The data of a solid model; `planeStrain` is a static variable (Elasticity/SIMElasticity.C:39-42). -/
structure St (K F : Type) where
  planeStrain : Bool
  mats : List (AnyMat K)
  codes : List (Int × Nat)
  bodies : List (Int × F)
  gamma : K
  locSys : Option (LocSys K)

/-- `planeStress` of a new material (Elasticity/Elasticity.C:92, 105-106). -/
def newPlaneStress (nsd : Nat) (planeStrain : Bool) : Bool := if nsd = 2 then !planeStrain else false

/-- The outcome of a child: the data, the status, and if the loop goes on. -/
def step [Field K] [LE K] [DecidableLE K] {F : Type} (lib : Lib K) (nsd : Nat) (ax : Bool) (s : St K F) : Tag K F → St K F × Bool × Bool
  | .isotropic code ps e =>
    let strain := ps.getD s.planeStrain
    ({ s with planeStrain := strain, codes := s.codes ++ [(code, s.mats.length)], mats := s.mats ++ [.iso (parseIso lib (defaultIso (newPlaneStress nsd strain) ax) e)] }, true, true)
  | .texture code ps domainOk =>
    if domainOk then
      let strain := ps.getD s.planeStrain
      ({ s with planeStrain := strain, codes := s.codes ++ [(code, s.mats.length)], mats := s.mats ++ [.texture (newPlaneStress nsd strain) ax] }, true, true)
    else (s, false, false)
  | .bodyforce setCode code f =>
    let c := if setCode = 0 then code.getD setCode else setCode
    match f with
    | some (some f) => if c > 0 then ({ s with bodies := s.bodies ++ [(c, f)] }, true, true) else (s, true, true)
    | _ => (s, true, true)
  | .stabilization g => ({ s with gamma := g.getD s.gamma }, true, true)
  | .localsystem t H => ({ s with locSys := parseLocalSystem s.locSys t H }, true, true)
  | .other ok => (s, ok, true)

/-- The loop over the children (Elasticity/SIMElasticity.C:685-768): failures do not end it, except for a texture material in a parameter domain that is not a unit square. -/
def parse [Field K] [LE K] [DecidableLE K] {F : Type} (lib : Lib K) (nsd : Nat) (ax : Bool) : List (Tag K F) → St K F → Bool → St K F × Bool
  | [], s, ok => (s, ok)
  | t :: ts, s, ok =>
    match step lib nsd ax s t with
    | (s', ok', true) => parse lib nsd ax ts s' (ok && ok')
    | (s', _, false) => (s', false)

/-- `clearProperties` before the input is read again (Elasticity/SIMElasticity.C:180-204): materials and loads are removed, the static variable and the data of the integrand stay. -/
def clear {F : Type} (s : St K F) : St K F := { s with mats := [], codes := [], bodies := [] }

end Verif.SolidInput
