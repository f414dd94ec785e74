/-
Model of the boundary resultants of the elasticity simulator (Elasticity/SIMElasticity.C): the boundary sections, their reaction forces,
interface forces and moment reference points.

Scalars are elements of a field (ordered where compared). The library calls `getCurrentReactions` and `getBoundaryNodes` are functions of
the section code; there is one process, so that `allReduceAsSum` changes nothing. `getInterfaceForces` of the library sums the nodal
interface forces over the nodes of a section, each with its weight, or with weight one when the weight array is empty.
-/
import Mathlib.Algebra.Order.Field.Basic
import Mathlib.Algebra.BigOperators.Group.Finset.Basic
import Verif.Basic

namespace Verif.Boundary

/-! ### Sections -/

/-- Insertion of a code in `std::map<int,Vec3> bCode`: ascending codes without duplicates. -/
def insCode (x : Int) : List Int → List Int
  | [] => [x]
  | y :: l => if x < y then x :: y :: l else if x = y then y :: l else y :: insCode x l

/-- The codes after parsing `<boundaryforce>` tags in order (Elasticity/SIMElasticity.C:730-746); tags without code (zero) are skipped. -/
def parseCodes (tags : List Int) : List Int := tags.foldl (fun m c => if c = 0 then m else insCode c m) []

section Reactions
variable {K : Type} [Add K]

/-- `SIMElasticity::getBoundaryReactions (Real2DMat&)` (Elasticity/SIMElasticity.C:255-271): `react` is the library call
`getCurrentReactions` for a code, with its success flag. Returns the flag and the array. -/
def boundaryReactions (react : Int → Bool × List K) (codes : List Int) : Bool × List (List K) :=
  if codes.isEmpty then (false, [])
  else (codes.all fun c => (react c).1, codes.map fun c => (react c).2)

/-- `SIMElasticity::getBoundaryReactions (Vector&, size_t)` (Elasticity/SIMElasticity.C:274-290). -/
def boundaryReaction (react : Int → Bool × List K) (codes : List Int) (bindex : Nat) : Res (List K) :=
  let rtmp := boundaryReactions react codes
  if !rtmp.1 || bindex > rtmp.2.length then .fail
  else if bindex > 0 then
    match rtmp.2[bindex]? with
    | some v => .ok v
    | none => .ub
  else match rtmp.2 with
    | [] => .ub
    | r :: l => .ok (l.foldl (List.zipWith (· + ·)) r)

end Reactions

/-- `SIMElasticity::getBoundaryForce` (Elasticity/SIMElasticity.C:235-246): the code of the section it evaluates. -/
def boundaryForceCode (codes : List Int) : Option Int := codes.head?

/-! ### Interface forces -/

section Interface
variable {K : Type} [Field K] [LinearOrder K]

/-- The counting loop of `Elastic::printBoundaryForces` (Elasticity/SIMElasticity.C:88-94): number of times a node is met in the sections. -/
def countNode (nodes : Int → List Nat) (codes : List Int) (n : Nat) : Nat :=
  codes.foldl (fun k c => k + ((nodes c).filter (· = n)).length) 0

/-- The weights (Elasticity/SIMElasticity.C:86-97), given an empty array; for a single section the array stays empty. -/
def ifWeight (nodes : Int → List Nat) (codes : List Int) (n : Nat) : K :=
  if codes.length > 1 then
    let w : K := (countNode nodes codes n : K)
    if w > 1 then 1 / w else w
  else 1

/-- The force of a section (Elasticity/SIMElasticity.C:103), one component of the nodal forces. -/
def ifForce (nodes : Int → List Nat) (codes : List Int) (sf : Nat → K) (c : Int) : K :=
  ((nodes c).map fun n => ifWeight nodes codes n * sf n).sum

end Interface

/-! ### Moment reference points -/

section RefPoint
variable {K : Type} [Field K] [LinearOrder K]

/-- A point in space. -/
abbrev P3 (K : Type) := Fin 3 → K

/-- `(X-Y).length2()`. -/
def dist2 (x y : P3 K) : K := (x 0 - y 0) * (x 0 - y 0) + (x 1 - y 1) * (x 1 - y 1) + (x 2 - y 2) * (x 2 - y 2)

/-- The loops that look for the point furthest away (Elasticity/SIMElasticity.C:408-414 and 418-423): running maximum and its point. -/
def furthest (c : P3 K) : List (P3 K) → K × P3 K → K × P3 K
  | [], s => s
  | x :: l, s => furthest c l (if dist2 x c > s.1 then (dist2 x c, x) else s)

/-- The reference point of a section with the nodal points `xs` (Elasticity/SIMElasticity.C:396-429), `x0` being the value before;
`none` when the section has no nodes and keeps its value. -/
def refPoint (x0 : P3 K) (xs : List (P3 K)) : Option (P3 K) :=
  if xs.isEmpty then none
  else
    let mean : P3 K := fun i => xs.foldl (fun s x => s + x i) (x0 i) / xs.length
    let s1 := furthest mean xs (0, mean)
    let s2 := furthest s1.2 xs (s1.1, s1.2)
    some fun i => 1 / 2 * (s1.2 i + s2.2 i)

end RefPoint

end Verif.Boundary
