/-
Model of the handling of analytical boundary conditions in the solid simulators (Elasticity/SIMElasticity.C).

A function object is identified by its address and owner, as in `Verif.AnaBC`. The maps `myVectors` and `myTracs` of the library class `SIMbase` are total
functions with `none` for codes without an entry. The library destructor and `clearProperties` delete every function that is in the maps.
-/
import Verif.Basic

namespace Verif.AnaSolid

/-- Vector functions by address and owner. -/
inductive Fun
  | own (n : Nat)
  | sol (n : Nat)
  deriving DecidableEq, Repr

/-- Traction functions: given in the input, or the `TractionField` of a stress solution. -/
inductive Trac
  | own (n : Nat)
  | field (stress : Nat)
  deriving DecidableEq, Repr

/-- The property types that matter here (`Property::Type` of the library); `other` stands for all others. -/
inductive PCode
  | undefined | dirAna | dirInhom | neuAna | neumann | other (n : Nat)
  deriving DecidableEq, Repr

/-- A boundary property: type and code. -/
structure Property where
  pcode : PCode
  pindx : Int
  deriving DecidableEq, Repr

/-- The analytical solution: `getVectorSol` and `getStressSol`; a null pointer is `none`. -/
structure Sol where
  vec : Option Nat
  stress : Option Nat

/-- The members of the simulator that take part: `aCode`, `myVectors` and `myTracs`. -/
structure St where
  a : Nat
  vectors : Nat → Option Fun
  tracs : Int → Option Trac

/-- A new simulator, or one with cleared properties. -/
def St.init : St := ⟨0, fun _ => none, fun _ => none⟩

/-- The loop body of `SIMElasticity::preprocessA` (Elasticity/SIMElasticity.C:335-363). -/
def resolve (sol : Sol) (p : Property) (s : St) : Property × St :=
  if p.pcode = .dirAna then
    match sol.vec with
    | none => (⟨.undefined, p.pindx⟩, s)
    | some f =>
      if s.a = p.pindx.natAbs then (⟨.dirInhom, p.pindx⟩, s)
      else if s.a = 0 then
        (⟨.dirInhom, p.pindx⟩, ⟨p.pindx.natAbs, fun k => if k = p.pindx.natAbs then some (.sol f) else s.vectors k, s.tracs⟩)
      else (⟨.undefined, p.pindx⟩, s)
  else if p.pcode = .neuAna then
    match sol.stress with
    | none => (⟨.undefined, p.pindx⟩, s)
    | some g =>
      (⟨.neumann, p.pindx⟩, if s.tracs p.pindx = none then ⟨s.a, s.vectors, fun k => if k = p.pindx then some (.field g) else s.tracs k⟩ else s)
  else (p, s)

/-- The loop over all properties (Elasticity/SIMElasticity.C:334-363). -/
def resolveAll (sol : Sol) : List Property → St → List Property × St
  | [], s => ([], s)
  | p :: l, s => ((resolve sol p s).1 :: (resolveAll sol l (resolve sol p s).2).1, (resolveAll sol l (resolve sol p s).2).2)

/-- `SIMElasticity::preprocessA` (Elasticity/SIMElasticity.C:319-364), the part from line 331. -/
def preprocessA (sol : Option Sol) (props : List Property) (s : St) : List Property × St :=
  match sol with
  | none => (props, s)
  | some sol => resolveAll sol props s

/-- The functions left in the map of vector functions for the library to delete, in the destructor (Elasticity/SIMElasticity.C:126-134) and in `clearProperties`
(Elasticity/SIMElasticity.C:180-186). -/
def released (s : St) : Nat → Option Fun := if s.a > 0 then (fun k => if k = s.a then none else s.vectors k) else s.vectors

/-- The state after `clearProperties` (Elasticity/SIMElasticity.C:180-215); the library empties its maps. -/
def clearProperties (_ : St) : St := .init

/-- One reading of the input: the functions given there are entered, then the model is preprocessed. -/
def readInput (sol : Option Sol) (props : List Property) (own : Nat → Option Nat) (s : St) : List Property × St :=
  preprocessA sol props ⟨s.a, fun k => match own k with | some n => some (.own n) | none => s.vectors k, s.tracs⟩

end Verif.AnaSolid
