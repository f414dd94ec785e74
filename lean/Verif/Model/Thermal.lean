/-
Thermal strains in linear elasticity: Elasticity/LinearElasticity.C (temperature fields, thermal strain, load vector, internal forces), Elasticity/LinIsotropic.C (expansion coefficient)
and the stress recovery of Elasticity/Elasticity.C.

IFEM assumptions: assigning a number to a `SymmTensor`, or subtracting one from it, acts on the diagonal components, the 33-component of a two-dimensional tensor with four components
included; `Matrix::multiply(v,r,true,true)` adds the product of the transposed matrix with `v` to `r`.
-/
import Verif.Model.LinIsotropic

namespace Verif.Thermal

open Verif.LinIso

variable {K : Type*} [Field K]

/-- The temperature data of the integrand and the material (Elasticity/LinearElasticity.h:133-134, Elasticity/LinIsotropic.h:133-134). -/
structure Heat (K : Type*) where
  temp0 : Option (Pt K → K) := none
  temp : Option (Pt K → K) := none
  Afunc : Option (K → K) := none
  alpha : K

/-- `LinearElasticity::parse` (Elasticity/LinearElasticity.C:44-72): an element `initialtemperature` or `temperature` replaces the respective field, if it has content; other elements are
passed on. -/
def parse (h : Heat K) (tag : String) (value : Option (Pt K → K)) : Heat K :=
  if tag = "initialtemperature" then
    match value with
    | none => h
    | some f => { h with temp0 := some f }
  else if tag = "temperature" then
    match value with
    | none => h
    | some f => { h with temp := some f }
  else h

/-- `LinIsotropic::getThermalExpansion` (Elasticity/LinIsotropic.C:383-386). -/
def getThermalExpansion (h : Heat K) (T : K) : K :=
  match h.Afunc with
  | some f => f T
  | none => h.alpha

/-- `LinearElasticity::getThermalStrain` (Elasticity/LinearElasticity.C:362-370). -/
def getThermalStrain (h : Heat K) (X : Pt K) : K :=
  match h.temp with
  | none => 0
  | some T =>
    let T0 := match h.temp0 with
      | some f => f X
      | none => 0
    getThermalExpansion h (T X) * (T X - T0)

/-- Number of diagonal components of the Voigt vector of `SymmTensor(nsd,axi)`, which come first. -/
def nDiag (nsd : Nat) (axi : Bool) : Nat := if nsd = 2 ∧ axi = true then 3 else nsd

/-- `SymmTensor::operator=(Real)`: one-based Voigt components. -/
def diag (nsd : Nat) (axi : Bool) (e : K) (i : Nat) : K := if 1 ≤ i ∧ i ≤ nDiag nsd axi then e else 0

/-- `SymmTensor::operator-=(Real)`. -/
def subDiag (nsd : Nat) (axi : Bool) (eps : Nat → K) (e : K) (i : Nat) : K := if 1 ≤ i ∧ i ≤ nDiag nsd axi then eps i - e else eps i

/-- Components of the stress tensor of the recovery (Elasticity/Elasticity.C:798), where `isPlaneStrain` is the negation of the plane stress flag. -/
def sigSize (m : Mat K) (nsd : Nat) : Nat := if nsd = 2 ∧ (m.axiSymmetry || !m.planeStress) = true then 4 else nsd * (nsd + 1) / 2

section
variable [LinearOrder K]

/-- Stress recovery with thermal strains in `Elasticity::evalSol` (Elasticity/Elasticity.C:794-810), for the strains `eps` of the displacements; the correction of the transverse stress
asks for the stiffness with the default age zero (Elasticity/MaterialBase.h:67). -/
def recover (m : Mat K) (h : Heat K) (nsd : Nat) (fe : FE K) (X : Pt K) (eps : Nat → K) : Res (Nat → K) :=
  let e := getThermalStrain h X
  let eps := if e ≠ 0 then subDiag nsd m.axiSymmetry eps e else eps
  match (evaluate m nsd (sigSize m nsd) fe X eps 1).2 with
  | .ok o => match o.sig with
    | some s => .ok (if e ≠ 0 ∧ nsd = 2 ∧ m.planeStress = false then fun i => if i = 3 then s 3 - getStiffness m X 0 * e else s i else s)
    | none => .fail
  | .fail => .fail
  | .ub => .ub

end

/-- `LinearElasticity::formInitStrainForces` (Elasticity/LinearElasticity.C:373-392): `es` is the index of the load vector, `B` the strain-displacement matrix, `w` the weighted Jacobian;
`C.multiply` fails if the sizes do not match. -/
def formInitStrainForces (h : Heat K) (es : Int) (b : Nat → K) (B : Nat → Nat → K) (C : DMat K) (nsd : Nat) (axi : Bool) (X : Pt K) (w : K) : Res (Nat → K) :=
  if es ≤ 0 ∨ h.temp.isNone then .ok b
  else if C.nc ≠ nst nsd axi then .fail
  else .ok fun d => b d + ∑ i ∈ Finset.range C.nr, B (i + 1) d * mulVec C (diag nsd axi (getThermalStrain h X * w)) (i + 1)

/-- Internal forces of a point, `ES -= B^T*sigma` (Elasticity/LinearElasticity.C:239-245). -/
def internalForces (b : Nat → K) (B : Nat → Nat → K) (n : Nat) (sigma : Nat → K) (w : K) : Nat → K :=
  fun d => b d + ∑ i ∈ Finset.range n, B (i + 1) d * (sigma (i + 1) * (-w))

/-- Stiffness of a point, `EK += B^T*C*B*w` (Elasticity/LinearElasticity.C:219-225). -/
def addStiffness (A : Nat → Nat → K) (B : Nat → Nat → K) (C : DMat K) (w : K) : Nat → Nat → K :=
  fun d f => A d f + ∑ i ∈ Finset.range C.nr, B (i + 1) d * ((∑ j ∈ Finset.range C.nc, C.e (i + 1) (j + 1) * B (j + 1) f) * w)

/-- An integration point: strain-displacement matrix, constitutive matrix, coordinates and weight. -/
structure GP (K : Type*) where
  B : Nat → Nat → K
  C : DMat K
  X : Pt K
  w : K

/-- The element stiffness matrix over the integration points (Elasticity/LinearElasticity.C:182-225). -/
def elmStiffness (ps : List (GP K)) : Nat → Nat → K := ps.foldl (fun A p => addStiffness A p.B p.C p.w) fun _ _ => 0

/-- The element load vector of the temperature over the integration points (Elasticity/LinearElasticity.C:247-254). -/
def elmLoad (h : Heat K) (es : Int) (nsd : Nat) (axi : Bool) (ps : List (GP K)) : Res (Nat → K) :=
  ps.foldl (fun r p => r.bind fun b => formInitStrainForces h es b p.B p.C nsd axi p.X p.w) (.ok fun _ => 0)

end Verif.Thermal
