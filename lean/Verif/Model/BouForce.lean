/-
Model of the integration of boundary forces: `ElasticityForce` (Elasticity/Elasticity.C:1354-1437, Elasticity/Elasticity.h:453-500),
`SIMElasticity::calcBouForces` (Elasticity/SIMElasticity.C:214-226) and their print-out (main_LinEl.C:607-626).

Scalars are elements of a field. Vectors of `Vec3` are functions of the zero-based index. The library is assumed to behave as follows:
`SymmTensor(vector)` takes the dimension from the number of components, which come in the order 11, 22, 33, 12, 23, 13 (11, 22, 12 or
11, 22, 33, 12 in two dimensions); the product with a vector keeps the components beyond the dimension of the tensor; `Vec3(a,b)` is the
cross product; `ForceBase::getLocalIntegral` gives zeros, one for each of `getNoComps`; `SIM::getBoundaryForce` adds the element values,
and there is one process. The return value of `evalSol` is ignored by the code; only points where it succeeds are considered.
-/
import Mathlib.Algebra.Field.Basic
import Verif.Basic

namespace Verif.BouForce

variable {K : Type} [Field K]

/-- A boundary integration point: basis functions, coordinates, unit normal, strain and stress components recovered there, and `detJxW`. -/
structure Pnt (K : Type) where
  N : DVec K
  X : Nat → K
  nrm : Nat → K
  eps : List K
  sig : List K
  w : K

/-- The values which `Elasticity::evalSol` returns without `toLocal` (Elasticity/Elasticity.C:798-824): strains if those are wanted. -/
def recovered (wantStrain : Bool) (p : Pnt K) : List K := if wantStrain then p.eps else p.sig

/-- Dimension of `SymmTensor(vector)`. -/
def dimOf (n : Nat) : Nat := if 6 ≤ n then 3 else if 3 ≤ n then 2 else 1

/-- Position of the component `(i,j)`, `i ≤ j`, in a vector of `n` components. -/
def posOf (n i j : Nat) : Nat :=
  if i = j then i
  else if 6 ≤ n then (if j = 1 then 3 else if i = 1 then 4 else 5)
  else n - 1

/-- The component `(i,j)` of the tensor. -/
def entry (v : List K) (i j : Nat) : K := v.getD (posOf v.length (min i j) (max i j)) 0

/-- The traction `sigmah*normal` (Elasticity/Elasticity.C:1374-1380). -/
def traction (wantStrain : Bool) (p : Pnt K) (i : Nat) : K :=
  let v := recovered wantStrain p
  if i < dimOf v.length then ∑ j ∈ Finset.range (dimOf v.length), entry v i j * p.nrm j else p.nrm i

/-- `Vec3(a,b)`: the cross product. -/
def cross (a b : Nat → K) (i : Nat) : K :=
  if i = 0 then a 1 * b 2 - a 2 * b 1 else if i = 1 then a 2 * b 0 - a 0 * b 2 else a 0 * b 1 - a 1 * b 0

/-- `ElasticityForce::getNoComps` (Elasticity/Elasticity.C:1427-1437): `torque` tells that there is a reference point. -/
def getNoComps (nodal torque : Bool) (nsd : Nat) : Nat :=
  if nodal then nsd else nsd + (if torque then (if nsd = 2 then 1 else nsd) else 0)

/-- `ElasticityForce::evalForce` for resultants (Elasticity/Elasticity.C:1391-1410); `pnorm` has a zero-based index in the code. -/
def evalForce (nsd : Nat) (X0 : Option (Nat → K)) (pnorm : DVec K) (th X : Nat → K) (detJW : K) : Res (DVec K) :=
  (pnorm.addMany ((List.range nsd).map fun i => (i + 1, th i * detJW))).bind fun b =>
  match X0 with
  | none => .ok b
  | some X0 =>
    let T := cross (fun i => X i - X0 i) th
    if nsd = 2 then b.add (nsd + 1) (T 2 * detJW)
    else b.addMany ((List.range nsd).map fun i => (nsd + i + 1, T i * detJW))

/-- `ElasticityForce::evalForce` for nodal forces (Elasticity/Elasticity.C:1413-1424). -/
def evalNodal (nsd : Nat) (ES : DVec K) (th : Nat → K) (N : DVec K) (detJW : K) : Res (DVec K) :=
  ES.addMany ((List.range N.n).flatMap fun a => (List.range nsd).map fun d => (nsd * a + d + 1, th d * N.e (a + 1) * detJW))

/-- The resultants of an element: `evalBou` (Elasticity/Elasticity.C:1368-1388) at all boundary points, starting from zero. -/
def resultants (wantStrain : Bool) (nsd : Nat) (X0 : Option (Nat → K)) (pts : List (Pnt K)) : Res (DVec K) :=
  pts.foldl (fun r p => r.bind fun b => evalForce nsd X0 b (traction wantStrain p) p.X p.w)
    (.ok (DVec.zero (getNoComps false X0.isSome nsd)))

/-- The nodal forces of an element with `nen` nodes (Elasticity/Elasticity.C:1354-1365, 1368-1388). -/
def nodalForces (wantStrain : Bool) (nsd nen : Nat) (pts : List (Pnt K)) : Res (DVec K) :=
  pts.foldl (fun r p => r.bind fun b => evalNodal nsd b (traction wantStrain p) p.N p.w) (.ok (DVec.zero (getNoComps true false nsd * nen)))

/-- The sum over the elements of a boundary. -/
def sumUp (n : Nat) : List (Res (DVec K)) → Res (DVec K)
  | [] => .ok (DVec.zero n)
  | r :: l => r.bind fun a => (sumUp n l).bind fun b => .ok ⟨n, fun i => a.e i + b.e i⟩

/-- `SIM::getBoundaryForce` for the elements of a boundary section. -/
def boundaryForce (wantStrain : Bool) (nsd : Nat) (X0 : Option (Nat → K)) (elems : List (List (Pnt K))) : Res (DVec K) :=
  sumUp (getNoComps false X0.isSome nsd) (elems.map (resultants wantStrain nsd X0))

/-- `SIMElasticity::calcBouForces` (Elasticity/SIMElasticity.C:214-226): `bCode` are the codes with their reference points, `elems` the
boundary elements of a code. Returns the success flag and the forces. -/
def calcBouForces (wantStrain : Bool) (nsd : Nat) (elems : Int → List (List (Pnt K))) (bCode : List (Int × (Nat → K))) :
    Bool × List (Res (DVec K)) :=
  let f := bCode.map fun c => boundaryForce wantStrain nsd (some c.2) (elems c.1)
  (!f.isEmpty, f)

/-- The lines printed by `printBoundaryForces` (main_LinEl.C:607-626): number of the section and its values after `trunc`; none on failure. -/
def printed {V : Type} (trunc : V → V) (ok : Bool) (forces : List (List V)) : Option (List (Nat × List V)) :=
  if !ok then none else some ((forces.map (·.map trunc)).zipIdx 1 |>.map fun x => (x.2, x.1))

end Verif.BouForce
