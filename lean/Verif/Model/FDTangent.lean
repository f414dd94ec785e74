/-
Model of `evalInt` of the total and the updated Lagrangian integrands, FiniteDeformation/NonlinearElasticityTL.C and NonlinearElasticityUL.C, in a static nonlinear
analysis: the tangent stiffness (material and geometric part in the same matrix, as set by `Elasticity::setMode`) and the internal forces.
The kinematics are those of Model/FiniteDef.lean.

The material is a function of the deformation gradient and the strains which returns the constitutive matrix and the stresses, or a failure. In the code the
stresses are not evaluated if there are no strains, in which case they are not used either. `SymmTensor::isZero(tol)` of the IFEM library is assumed to tell
whether no component exceeds the tolerance, and component (i,j) of a `SymmTensor` to be that of the order xx, yy, zz, xy, yz, xz.
-/
import Verif.Model.FiniteDef

namespace Verif.Finite

open Verif.Cont

variable {K : Type*} [Field K]

/-- An integration point: basis functions and gradients, radius and weight (`fe.N`, `fe.dNdX`, `X.x` and `detJW` in FiniteDeformation/NonlinearElasticityTL.C:113-114). -/
structure FPt (K : Type*) where
  N : DVec K
  dN : DMat K
  X : K
  w : K

/-- A material: `material->evaluate` (FiniteDeformation/NonlinearElasticityTL.C:90-110, FiniteDeformation/NonlinearElasticityUL.C:161-168). -/
abbrev Mat (K : Type*) := (Nat → Nat → K) → (Nat → K) → Res (DMat K × (Nat → K))

/-- The number of components of the strain tensor `SymmTensor E(nsd,axiSymmetry)`. -/
def ncomp (nsd : Nat) (axi : Bool) : Nat := if axi then 4 else nsd * (nsd + 1) / 2

/-- `E.isZero(1.0e-16)` (FiniteDeformation/NonlinearElasticityTL.C:91, FiniteDeformation/NonlinearElasticityUL.C:112). -/
def zeroStrain [LinearOrder K] (tol : K) (n : Nat) (E : Nat → K) : Bool :=
  (List.range n).all fun i => decide (max (E (i + 1)) (-E (i + 1)) ≤ tol)

/-- Component (i,j) of a symmetric tensor stored as a vector, as used by `formKG` (Elasticity/Elasticity.C:592). -/
def symT (nsd : Nat) (axi : Bool) (s : Nat → K) (i j : Nat) : K :=
  if i = j then s i
  else if nsd = 3 then (if i + j = 3 then s 4 else if i + j = 5 then s 5 else s 6)
  else s (if axi then 4 else 3)

/-- `NonlinearElasticityTL::evalInt` (FiniteDeformation/NonlinearElasticityTL.C:75-140): element matrix and vector after an integration point. -/
def tlPoint [LinearOrder K] (nsd : Nat) (axi : Bool) (tol epsR : K) (mat : Mat K) (eV : DVec K) (p : FPt K) (M : DMat K × DVec K) : Res (DMat K × DVec K) :=
  (kinTL nsd axi eV p.N p.dN p.X epsR).bind fun k =>
  (mat k.F k.E).bind fun cs =>
  let EK := addKm M.1 k.B cs.1 p.w
  if zeroStrain tol (ncomp nsd axi) k.E then .ok (EK, M.2)
  else
    (formKG nsd axi EK p.N p.dN p.X (symT nsd axi cs.2) p.w).bind fun EK =>
    .ok (EK, addIntForce M.2 k.B cs.2 p.w)

/-- The loop over the integration points of an element, each with its material. -/
def tlElement [LinearOrder K] (nsd : Nat) (axi : Bool) (tol epsR : K) (eV : DVec K) : List (FPt K × Mat K) → DMat K × DVec K → Res (DMat K × DVec K)
  | [], M => .ok M
  | p :: l, M => (tlPoint nsd axi tol epsR p.2 eV p.1 M).bind fun M => tlElement nsd axi tol epsR eV l M

/-- `NonlinearElasticityUL::kinematics` (FiniteDeformation/NonlinearElasticityUL.C:288-330): deformation gradient and strains. -/
def kinUL [LinearOrder K] (nsd : Nat) (axi : Bool) (eV : DVec K) (p : FPt K) (epsR : K) : Res ((Nat → Nat → K) × (Nat → K)) :=
  if eV.n = 0 then .ok (fun i j => if i = j then 1 else 0, fun _ => 0)
  else if eV.n ≠ nsd * p.dN.nr ∨ p.dN.nc < nsd then .fail
  else
    let H := defGrad nsd axi true p.N p.dN p.X epsR eV.e
    let ur := ∑ a ∈ Finset.range p.N.n, eV.e (nsd * a + 1) * p.N.e (a + 1)
    .ok (kinF axi p.X epsR ur H, strainV nsd axi H)

/-- `NonlinearElasticityUL::evalInt` (FiniteDeformation/NonlinearElasticityUL.C:92-190): element matrix and vector after an integration point. -/
def ulEval [LinearOrder K] (nsd : Nat) (axi : Bool) (tol epsR : K) (mat : Mat K) (eV : DVec K) (p : FPt K) (M : DMat K × DVec K) : Res (DMat K × DVec K) :=
  (kinUL nsd axi eV p epsR).bind fun k =>
  let hs := !zeroStrain tol (ncomp nsd axi) k.2
  let ur := ∑ a ∈ Finset.range p.N.n, eV.e (nsd * a + 1) * p.N.e (a + 1)
  (ulPoint nsd axi hs k.1 p.N p.dN p.X ur epsR p.w).bind fun P =>
  (mat k.1 k.2).bind fun cs =>
  let EK := addKm M.1 P.B cs.1 P.detJW
  if hs then
    (formKG nsd axi EK p.N (pushGrad nsd k.1 p.dN) (if axi then p.X + ur else 0) (symT nsd axi cs.2) P.detJW).bind fun EK =>
    .ok (EK, addIntForce M.2 P.B cs.2 P.detJW)
  else .ok (EK, M.2)

/-- The loop over the integration points of an element, each with its material. -/
def ulElement [LinearOrder K] (nsd : Nat) (axi : Bool) (tol epsR : K) (eV : DVec K) : List (FPt K × Mat K) → DMat K × DVec K → Res (DMat K × DVec K)
  | [], M => .ok M
  | p :: l, M => (ulEval nsd axi tol epsR p.2 eV p.1 M).bind fun M => ulElement nsd axi tol epsR eV l M

end Verif.Finite
