/-
Model of the handling of analytical boundary conditions in the Kirchhoff-Love plate simulators
(Linear/SIMLinElKL.C and Shell/SIMKLShell.C).

A function object is identified by its address: `Fun.own n` are functions owned by the simulator (parsed from the input),
`Fun.sol n` are functions owned by the analytical solution. The map from codes to functions, `myScalars` of the library class `SIMbase`,
is a total function with `none` for codes without an entry. The library destructor and its `clearProperties` delete every function
that is in the map.
-/
import Verif.Basic

namespace Verif.AnaBC

/-- Function objects by address and owner. -/
inductive Fun
  | own (n : Nat)
  | sol (n : Nat)
  deriving DecidableEq, Repr

/-- The property types that matter here (`Property::Type` of the library); `other` stands for all others. -/
inductive PCode
  | undefined | anasol | inhom | other (n : Nat)
  deriving DecidableEq, Repr

/-- A boundary property: type and code. -/
structure Property where
  pcode : PCode
  pindx : Int
  deriving DecidableEq, Repr

/-- Fields of an analytical plate solution (`getScalarSol`, `thetaX`, `thetaY`); a null pointer is `none`. -/
structure PlateSol where
  w : Option Nat
  thetaX : Option Nat
  thetaY : Option Nat

/-- The members of the simulator that take part: `aCode[0..2]` and `myScalars`. -/
structure St where
  a0 : Nat
  a1 : Nat
  a2 : Nat
  scalars : Nat → Option Fun

/-- `myScalars[c] = f`. -/
def put (s : Nat → Option Fun) (c : Nat) (f : Option Fun) : Nat → Option Fun := fun k => if k = c then f else s k

/-- The loop body of `SIMLinElKL::preprocessA` (Linear/SIMLinElKL.C:158-200). -/
def resolve (sol : PlateSol) (p : Property) (s : St) : Property × St :=
  if p.pcode = .anasol then
    let c := p.pindx.natAbs
    if c ≥ 200 then
      if s.a2 = c then (⟨.inhom, p.pindx⟩, s)
      else match s.a2, sol.thetaY with
        | 0, some f => (⟨.inhom, p.pindx⟩, ⟨s.a0, s.a1, c, put s.scalars c (some (.sol f))⟩)
        | _, _ => (⟨.undefined, p.pindx⟩, s)
    else if c ≥ 100 then
      if s.a1 = c then (⟨.inhom, p.pindx⟩, s)
      else match s.a1, sol.thetaX with
        | 0, some f => (⟨.inhom, p.pindx⟩, ⟨s.a0, c, s.a2, put s.scalars c (some (.sol f))⟩)
        | _, _ => (⟨.undefined, p.pindx⟩, s)
    else if c > 0 then
      if s.a0 = c then (⟨.inhom, p.pindx⟩, s)
      else match s.a0, sol.w with
        | 0, some f => (⟨.inhom, p.pindx⟩, ⟨c, s.a1, s.a2, put s.scalars c (some (.sol f))⟩)
        | _, _ => (⟨.undefined, p.pindx⟩, s)
    else (p, s)
  else (p, s)

/-- The loop over all properties (Linear/SIMLinElKL.C:158-200). -/
def resolveAll (sol : PlateSol) : List Property → St → List Property × St
  | [], s => ([], s)
  | p :: l, s =>
    let r := resolve sol p s
    let t := resolveAll sol l r.2
    (r.1 :: t.1, t.2)

/-- `SIMLinElKL::preprocessA` (Linear/SIMLinElKL.C:150-201): `sol` is `none` when there is no analytical solution or when it is not
one of the built-in plate solutions. -/
def preprocessA (sol : Option PlateSol) (props : List Property) (s : St) : List Property × St :=
  match sol with
  | none => (props, s)
  | some sol => resolveAll sol props s

/-- One step of the erase loop (Shell/SIMKLShell.C:60-61 and 83-84). -/
def eraseCode (a : Nat) (s : Nat → Option Fun) : Nat → Option Fun := if a > 0 then put s a none else s

/-- The functions left in the map for the library destructor to delete (`SIMKLShell::~SIMKLShell`, Shell/SIMKLShell.C:51-62). -/
def destroy (s : St) : Nat → Option Fun := eraseCode s.a2 (eraseCode s.a1 (eraseCode s.a0 s.scalars))

/-- `SIMKLShell::clearProperties` (Shell/SIMKLShell.C:80-110), as far as codes and functions are concerned: the functions the library
deletes, and the state after it has emptied the map. -/
def clearProperties (s : St) : (Nat → Option Fun) × St :=
  (eraseCode s.a2 (eraseCode s.a1 (eraseCode s.a0 s.scalars)), ⟨0, 0, 0, fun _ => none⟩)

end Verif.AnaBC
