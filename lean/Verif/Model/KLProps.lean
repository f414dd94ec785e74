/-
Model of the property handling of the shell and plate simulator (Shell/SIMKLShell.C) together with the setters of its integrand
(Elasticity/KirchhoffLove.C): materials, thicknesses, pressures and line loads, their initialisation per patch and their release
when the input file is read again.

Function and material objects are identified by addresses (natural numbers). The addresses of new objects are part of the input of the
parser, as the allocator chooses them. The set of live objects is a predicate; deleting an object removes its address. A `std::map` is a list of
key-value pairs in ascending order of the keys, as in `Verif.Rigid`. The library function `parseMaterialSet` returns the property code of the
set of the material, and gives the material index to the properties with that code, so that `initMaterial` is called with the index.
-/
import Verif.Model.Rigid

namespace Verif.KLProps

open Verif.Rigid (update find)

/-- The thickness member of the integrand: a constant owned by the integrand (`constantT`), or a function owned by the simulator. -/
inductive Thick (K : Type)
  | const (t : K)
  | func (f : Nat)
  deriving DecidableEq

/-- `KirchhoffLove::constantThickness` (Elasticity/KirchhoffLove.h:66). -/
def Thick.isConst {K : Type} : Thick K → Bool
  | .const _ => true
  | .func _ => false

/-- The members of the integrand that refer to objects of the simulator (Elasticity/KirchhoffLove.h:212-240). -/
structure KL (K : Type) where
  mat : Option Nat
  thick : Thick K
  pres : List Nat
  lin : Option Nat

/-- The containers of the simulator (Shell/SIMKLShell.h:137-142 and the library's `myScalars`), the integrand and the live objects. -/
structure Sim (K : Type) where
  klp : KL K
  mVec : List Nat
  tVec : List K
  tFunc : List (Int × Nat)
  scalars : List (Int × Nat)
  live : Nat → Bool

/-- The objects referred to by a map. -/
def objs (m : List (Int × Nat)) : List Nat := m.map (·.2)

/-- An input element: a material with its code, thickness attribute, its address and the address of the thickness function, if one is given; a line load
or a pressure with its code and the address of its function. -/
inductive Tag (K : Type)
  | isotropic (code : Int) (t : K) (mat : Nat) (func : Option Nat)
  | lineload (code : Int) (f : Nat)
  | pressure (code : Int) (f : Nat)

/-- A new object at address `a`. -/
def alloc (live : Nat → Bool) (a : Nat) : Nat → Bool := fun b => b == a || live b

/-- `KirchhoffLove::setPressure` with a function (Elasticity/KirchhoffLove.C:178-184). -/
def setPressure {K : Type} (k : KL K) (f : Nat) : KL K := { k with pres := k.pres ++ [f] }

/-- Does the integrand have interior loads, `haveLoads('I')` (Elasticity/KirchhoffLove.C:312-316), apart from gravity. -/
def haveLoads {K : Type} (k : KL K) : Bool := !k.pres.isEmpty || k.lin.isSome

/-- One element in `SIMKLShell::parse` (Shell/SIMKLShell.C:224-253 material, 289-323 line load, 325-342 pressure; without gravity). -/
def parseTag {K : Type} [Zero K] [DecidableEq K] (s : Sim K) : Tag K → Sim K
  | .isotropic code t mat func =>
    let tVec := s.tVec ++ [t]
    let mVec := s.mVec ++ [mat]
    let live := alloc s.live mat
    let klp := { s.klp with mat := mVec.head? }
    match func with
    | some f =>
      { s with
        tVec := tVec
        mVec := mVec
        tFunc := update 0 (fun _ => f) code s.tFunc
        live := alloc live f
        klp := if s.klp.thick.isConst then { klp with thick := .func f } else klp }
    | none =>
      { s with
        tVec := tVec
        mVec := mVec
        live := live
        klp := match tVec.head? with
          | some t0 => if t0 ≠ 0 ∧ s.klp.thick.isConst = true then { klp with thick := .const t0 } else klp
          | none => klp }
  | .lineload code f =>
    if code > 0 then
      { s with scalars := update 0 (fun _ => f) code s.scalars, live := alloc s.live f, klp := { s.klp with lin := some f } }
    else s
  | .pressure code f =>
    if code > 0 then
      { s with
        scalars := update 0 (fun _ => f) code s.scalars
        live := alloc s.live f
        klp := if haveLoads s.klp then s.klp else setPressure s.klp f }
    else s

/-- Reading the input file. -/
def parse {K : Type} [Zero K] [DecidableEq K] (s : Sim K) (tags : List (Tag K)) : Sim K := tags.foldl parseTag s

/-- `SIMKLShell::clearProperties` (Shell/SIMKLShell.C:81-109) without analytical solution; the library deletes the functions in `myScalars`. -/
def clearProperties {K : Type} (s : Sim K) : Sim K :=
  { klp := { s.klp with mat := none, pres := [] }
    mVec := []
    tVec := []
    tFunc := []
    scalars := []
    live := fun a => s.live a && !(objs s.tFunc).contains a && !s.mVec.contains a && !(objs s.scalars).contains a }

/-- `SIMKLShell::initMaterial` (Shell/SIMKLShell.C:357-373). Without materials the index wraps around and the array access is undefined. -/
def initMaterial {K : Type} [Zero K] [DecidableEq K] (s : Sim K) (propInd : Nat) : Res (Sim K) :=
  if s.mVec.isEmpty then .ub
  else
    let i := if propInd ≥ s.mVec.length then s.mVec.length - 1 else propInd
    match s.mVec[i]?, s.tVec[i]? with
    | some m, some t =>
      let klp := { s.klp with mat := some m }
      match find (i : Int) s.tFunc with
      | some f => .ok { s with klp := { klp with thick := .func f } }
      | none => if t ≠ 0 then .ok { s with klp := { klp with thick := .const t } } else .ok { s with klp := klp }
    | _, _ => .ub

/-- A body load property: its code and patch. -/
structure BodyLoad where
  code : Int
  patch : Nat

/-- The body of the loop over the properties in `SIMKLShell::initBodyLoad` (Shell/SIMKLShell.C:385-388), for a property of type body load. -/
def bodyStep {K : Type} (scalars : List (Int × Nat)) (patch : Nat) (k : KL K) (p : BodyLoad) : KL K :=
  if p.patch = patch then
    match find p.code scalars with
    | some f => setPressure k f
    | none => k
  else k

/-- `SIMKLShell::initBodyLoad` (Shell/SIMKLShell.C:376-391) for the properties of type body load. -/
def initBodyLoad {K : Type} (s : Sim K) (props : List BodyLoad) (patch : Nat) : Sim K :=
  let k0 : KL K := { s.klp with pres := [] }
  let k1 := match find 0 s.scalars with
    | some f => setPressure k0 f
    | none => k0
  { s with klp := props.foldl (bodyStep s.scalars patch) k1 }

end Verif.KLProps
