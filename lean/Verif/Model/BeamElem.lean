/-
Model of the assembly of one linear beam element: `ElasticBeam::evalInt` and `finalizeElement` (Beam/ElasticBeam.C) around the element matrices of
`Verif.Model.Beam`, and of the norm integrand.

The cross section properties at the integration point are arguments. The library function `utl::transform` multiplies all 3×3 blocks of a matrix by the
matrix `T` from the left and its transpose from the right, and the 3-blocks of a vector by `T` or its transpose. Slots of matrices and vectors are numbered from 1, 0
meaning that the matrix or vector is not wanted. `multiply` with a negative last argument subtracts the product.
-/
import Verif.Basic
import Verif.Model.Beam

namespace Verif.BeamElem

open Verif.Beam

section

variable {K : Type} [Field K]

/-- First index of the 3-block of `i`, minus one. -/
def blk (i : Nat) : Nat := (i - 1) / 3 * 3

/-- Index within the block. -/
def loc (i : Nat) : Fin 3 := ⟨(i - 1) % 3, Nat.mod_lt _ (by omega)⟩

/-- `utl::transform` of a vector by `T`. -/
def rotVec (T : Fin 3 → Fin 3 → K) (b : Nat → K) (i : Nat) : K := T (loc i) 0 * b (blk i + 1) + T (loc i) 1 * b (blk i + 2) + T (loc i) 2 * b (blk i + 3)

/-- `utl::transform` of a vector by the transpose of `T`. -/
def rotVecT (T : Fin 3 → Fin 3 → K) (b : Nat → K) (i : Nat) : K := T 0 (loc i) * b (blk i + 1) + T 1 (loc i) * b (blk i + 2) + T 2 (loc i) * b (blk i + 3)

/-- `utl::transform` of a matrix by `T`. -/
def rotMat (T : Fin 3 → Fin 3 → K) (A : Mat K) : Mat K := fun i j => rotVec T (fun c => rotVec T (fun r => A r c) i) j

/-- Values of the cross section at the point (Beam/ElasticBeam.C:530-536). -/
structure Sect (K : Type) where
  L : K
  EA : K
  EIy : K
  EIz : K
  GIt : K
  Aly : K
  Alz : K
  rhoA : K
  CGy : K
  CGz : K
  Ixx : K
  Iyy : K
  Izz : K
  ItoA : K
  Sy : K
  Sz : K

/-- Members of the integrand: eccentricities, gravitation, lumping of the mass and distributed loads, which are of a type `X` (Beam/ElasticBeam.h:124-140). -/
structure Beam (K X : Type) where
  e1 : V3 K
  e2 : V3 K
  grav : V3 K
  lumped : Int
  lineLoad : Option X
  cplLoad : Option X

/-- Slots of the material and geometric stiffness, mass, external and internal forces. -/
structure Slots where
  eKm : Nat
  eKg : Nat
  eM : Nat
  eS : Nat
  iS : Nat

/-- Element matrices and vectors. -/
structure Mats (K : Type) where
  A : Nat → Mat K
  b : Nat → Nat → K

/-- All zero. -/
def Mats.zero : Mats K := ⟨fun _ _ _ => 0, fun _ _ => 0⟩

/-- Assignment to a matrix. -/
def Mats.setA (m : Mats K) (k : Nat) (M : Mat K) : Mats K := { m with A := fun j => if j = k then M else m.A j }

/-- Assignment to a vector. -/
def Mats.setB (m : Mats K) (k : Nat) (v : Nat → K) : Mats K := { m with b := fun j => if j = k then v else m.b j }

/-- Product of a 12×12 matrix and a vector. -/
def mulVec (A : Mat K) (v : Nat → K) (i : Nat) : K := ∑ j ∈ Finset.range 12, A i (j + 1) * v (j + 1)

/-- Gravitation in local axes, `gravity*Tlg` (Beam/ElasticBeam.C:625). -/
def localG (T : Fin 3 → Fin 3 → K) (g : V3 K) : V3 K := fun j => g 0 * T 0 j + g 1 * T 1 j + g 2 * T 2 j

end

section ordered

variable {K X : Type} [Field K] [LinearOrder K]

/-- Is one end eccentric (Beam/ElasticBeam.C:556, 661). -/
def hasEcc (q : Beam K X) : Bool := decide (q.e1 0 ≠ 0 ∨ q.e1 1 ≠ 0 ∨ q.e1 2 ≠ 0 ∨ q.e2 0 ≠ 0 ∨ q.e2 1 ≠ 0 ∨ q.e2 2 ≠ 0)

/-- Is there gravitation (Beam/ElasticBeam.C:533). -/
def hasGr (q : Beam K X) : Bool := decide (q.grav 0 ≠ 0 ∨ q.grav 1 ≠ 0 ∨ q.grav 2 ≠ 0)

/-- `normInf` of the element vector compared with a bound (Beam/ElasticBeam.C:555, 722). -/
def above (tol : K) (v : Nat → K) : Bool := twelve.any fun i => decide (tol < |v i|)

/-- The material stiffness at the point. -/
def km (p : Sect K) : Mat K := stiffness p.L p.EA p.GIt p.EIy p.EIz p.Aly p.Alz p.Sy p.Sz

/-- The mass matrix related to the neutral axis (Beam/ElasticBeam.C:611-619). -/
def mm (q : Beam K X) (p : Sect K) : Mat K :=
  let M := mass q.lumped p.rhoA p.Ixx p.Iyy p.Izz p.L
  if p.CGy ≠ 0 ∨ p.CGz ≠ 0 then eccMat M ![0, -p.CGy, -p.CGz] ![0, -p.CGy, -p.CGz] else M

/-- Material stiffness (Beam/ElasticBeam.C:551-552). -/
def stepKm (s : Slots) (p : Sect K) (m : Mats K) : Mats K := if s.eKm ≠ 0 then m.setA s.eKm (km p) else m

/-- Internal forces (Beam/ElasticBeam.C:569, 575-577, 588-601). -/
def stepInt (s : Slots) (p : Sect K) (T : Fin 3 → Fin 3 → K) (dis ecc : Bool) (v : Nat → K) (m : Mats K) : Mats K :=
  if s.iS ≠ 0 then
    if dis && !ecc then m.setB s.iS (fun i => 0 - mulVec (km p) (rotVecT T v) i) else m.setB s.iS (fun _ => 0)
  else m

/-- The axial force (Beam/ElasticBeam.C:567, 578, 585). -/
def axial (s : Slots) (p : Sect K) (T : Fin 3 → Fin 3 → K) (dis ecc : Bool) (v : Nat → K) : K :=
  if s.eKg ≠ 0 ∧ dis = true ∧ ecc = false then p.EA * ((rotVecT T v 7 - rotVecT T v 1) / p.L) else 0

/-- Geometric stiffness (Beam/ElasticBeam.C:603-613). -/
def stepKg (s : Slots) (p : Sect K) (N : K) (m : Mats K) : Mats K :=
  if s.eKg ≠ 0 ∧ N ≠ 0 then
    let G := geometric N p.L p.Aly p.Alz p.ItoA p.Sy p.Sz
    if s.eKg = s.eKm then m.setA s.eKm (fun i j => m.A s.eKm i j + G i j) else m.setA s.eKg G
  else m

/-- Mass matrix (Beam/ElasticBeam.C:609-621). -/
def stepM (s : Slots) (q : Beam K X) (p : Sect K) (m : Mats K) : Mats K := if s.eM ≠ 0 then m.setA s.eM (mm q p) else m

/-- Gravitation forces (Beam/ElasticBeam.C:533, 622-632). -/
def stepG (s : Slots) (q : Beam K X) (p : Sect K) (T : Fin 3 → Fin 3 → K) (m : Mats K) : Mats K :=
  if s.eS ≠ 0 ∧ hasGr q = true then m.setB s.eS (gravity (mm q p) (localG T q.grav) (if s.eS = s.iS then m.b s.eS else fun _ => 0)) else m

/-- `ElasticBeam::evalInt` (Beam/ElasticBeam.C:514-643). -/
def evalInt (s : Slots) (q : Beam K X) (p : Sect K) (T : Fin 3 → Fin 3 → K) (v : Nat → K) (m : Mats K) : Res (Mats K) :=
  if p.L ≤ 1 / 100000000 then .fail
  else
    let dis := above (1 / 10000000000000000 * p.L) v
    let ecc := hasEcc q
    if s.eKg ≠ 0 ∧ dis = true ∧ ecc = true then .fail
    else
      let m := stepInt s p T dis ecc v (stepKm s p m)
      .ok (stepG s q p T (stepM s q p (stepKg s p (axial s p T dis ecc v) m)))

/-- Transformation of the matrix in slot `k` (Beam/ElasticBeam.C:668-685, 700-718). -/
def finA (s : Slots) (q : Beam K X) (T : Fin 3 → Fin 3 → K) (k : Nat) (A : Mat K) : Mat K :=
  if k = s.eM ∧ q.lumped = 2 then
    if hasEcc q then lumpEcc (lumpAxes T A) q.e1 q.e2 else lumpAxes T A
  else if hasEcc q then eccMat (rotMat T A) q.e1 q.e2 else rotMat T A

/-- Transformation of a vector (Beam/ElasticBeam.C:692-695, 720-721). -/
def finB (q : Beam K X) (T : Fin 3 → Fin 3 → K) (b : Nat → K) : Nat → K :=
  if hasEcc q then eccVec (rotVec T b) q.e1 q.e2 else rotVec T b

/-- `ElasticBeam::finalizeElement` (Beam/ElasticBeam.C:658-741). -/
def finalize (s : Slots) (q : Beam K X) (T : Fin 3 → Fin 3 → K) (v : Nat → K) (m : Mats K) : Res (Mats K) :=
  let m' : Mats K := ⟨fun k => finA s q T k (m.A k), fun k => finB q T (m.b k)⟩
  if s.iS ≠ 0 ∧ hasEcc q = true ∧ above 0 v = true then
    if s.eKm < 1 ∨ s.eKg = s.eKm then .fail
    else .ok (m'.setB s.iS fun i => m'.b s.iS i - mulVec (m'.A s.eKm) v i)
  else .ok m'

/-- One element with one integration point. -/
def element (s : Slots) (q : Beam K X) (p : Sect K) (T : Fin 3 → Fin 3 → K) (v : Nat → K) : Res (Mats K) :=
  match evalInt s q p T v Mats.zero with
  | .ok m => finalize s q T v m
  | .fail => .fail
  | .ub => .ub

end ordered

section norm

variable {K : Type} [Field K]

/-- `ElasticBeamNorm::evalInt` (Beam/ElasticBeam.C:793-819): at a point with weight `w`, finite element solution `uh` and exact solution `u`, if any. -/
def normStep (n : K × K × K) (w : K) (uh : V3 K) (u : Option (V3 K)) : K × K × K :=
  let d (a b : V3 K) : K := a 0 * b 0 + a 1 * b 1 + a 2 * b 2
  match u with
  | none => (n.1 + d uh uh * w, n.2)
  | some u => (n.1 + d uh uh * w, n.2.1 + d u u * w, n.2.2 + d (u - uh) (u - uh) * w)

/-- `ElasticBeam::displacement` (Beam/ElasticBeam.C:744-751): shape functions `N`, six unknowns in each node. -/
def displacement (N : List K) (v : Nat → K) (k : Fin 3) : K := (N.zipIdx.map fun a => a.1 * v (6 * a.2 + k.val)).sum

/-- Number of norms (Beam/ElasticBeam.C:761-764). -/
def noNorms (fld : Int) (anasol : Bool) : Nat := if fld = 0 ∨ anasol = false then 1 else 3

end norm

end Verif.BeamElem
