/-
Model of the stress recovery in large deformation analyses. The total and updated Lagrangian elements and the F-bar element use `Elasticity::evalSol` (Elasticity/Elasticity.C:771-843) with their own kinematics;
the tensorial total Lagrangian element has its own one (FiniteDeformation/NonlinearElasticity.C:191-237). The materials get an operation code `iop`, which tells the kind of stresses wanted.

The kinematics are those of Model/FDTangent.lean, without the strain-displacement matrix, which is not used in the recovery. Axial symmetry, the normal component of plane strain and temperatures are left out
(for the latter see Model/Thermal.lean). The order of the values is the subject of Model/SolidFields.lean.
-/
import Verif.Model.FDTangent
import Verif.Model.NeoHooke
import Verif.Model.SolidFields

namespace Verif.Finite

open Verif.Cont

variable {K : Type*} [Field K]

/-- A material as function of the operation code, the deformation gradient and the strains: `Material::evaluate` (Elasticity/MaterialBase.h:98-102). -/
abbrev OpMat (K : Type*) := Nat → Mat K

/-- `LinIsotropic::evaluate` (Elasticity/LinIsotropic.C:208-316) with constitutive matrix `D`: the deformation gradient is not used, and all positive operation codes give the same stresses. -/
def linOp (D : DMat K) : OpMat K := fun iop _ E =>
  .ok (D, fun i => if iop = 0 then 0 else ∑ j ∈ Finset.range D.nc, D.e i (j + 1) * E (j + 1))

/-- `sigma.transform(F)` for a stress tensor stored as a vector: components of `F * sigma * F^t`. -/
def pushStress (nsd : Nat) (F : Nat → Nat → K) (s : Nat → K) (k : Nat) : K :=
  let T := fun i j => ∑ p ∈ Finset.range nsd, ∑ q ∈ Finset.range nsd, F i (p + 1) * symT nsd false s (p + 1) (q + 1) * F j (q + 1)
  if k ≤ nsd then T k k
  else if nsd = 3 then (if k = 4 then T 1 2 else if k = 5 then T 2 3 else T 1 3)
  else T 1 2

/-- `LinearMaterial::evaluate` (FiniteDeformation/LinearMaterial.C:26-92) around the material `m`: stresses are pushed forward for the operation codes 1 and above 2, the constitutive matrix for 0 and 1. -/
def pushOp [DecidableEq K] (nsd : Nat) (m : OpMat K) : OpMat K := fun iop F E =>
  (m iop F E).bind fun cs =>
  if iop = 2 then .ok cs
  else
    let J := (lead nsd F).det
    if J = 0 then .fail
    else
      let sig := if iop > 0 then fun i => pushStress nsd F cs.2 i * (1 / J) else cs.2
      if iop > 1 then .ok (cs.1, sig)
      else
        let T := fun i j => NeoHooke.tmat nsd (fun i j => F (i + 1) (j + 1)) i j
        .ok (⟨cs.1.nr, cs.1.nc, fun i j => 1 / J * ∑ k ∈ Finset.range cs.1.nr, ∑ l ∈ Finset.range cs.1.nc, T k (i - 1) * cs.1.e (k + 1) (l + 1) * T l (j - 1)⟩, sig)

/-- `PlasticMaterial::evaluate` (FiniteDeformation/PlasticMaterial.C:126-219) around the evaluation `m` of the material point: the second Piola-Kirchhoff stresses are not available. -/
def plasticOp (m : Mat K) : OpMat K := fun iop F E =>
  (m F E).bind fun cs => if iop = 2 then .fail else .ok cs

/-- The operation code of the total Lagrangian elements (FiniteDeformation/NonlinearElasticityTL.C:94). -/
def tlOp [LinearOrder K] (nsd : Nat) (tol : K) (m : OpMat K) : Mat K := fun F E =>
  m (if zeroStrain tol (ncomp nsd false) E then 0 else 2) F E

/-- The operation code of the updated Lagrangian elements, internal forces being asked for (FiniteDeformation/NonlinearElasticityUL.C:166). -/
def ulOp (m : OpMat K) : Mat K := m 1

/-- The stresses at a point by `Elasticity::evalSol` (Elasticity/Elasticity.C:771-803), in which the operation code has its default value 1 (Elasticity/MaterialBase.h:101). The test on the length of the
solution vector precedes the kinematics. -/
def stressAt [LinearOrder K] (nsd : Nat) (epsR : K) (m : OpMat K) (eV : DVec K) (p : FPt K) : Res (Nat → K) :=
  if eV.n ≠ 0 ∧ eV.n ≠ nsd * p.dN.nr then .fail
  else
    (kinUL nsd false eV p epsR).bind fun k =>
    (m 1 k.1 k.2).bind fun cs => .ok cs.2

/-- The stresses at a point by `NonlinearElasticity::formStressTensor` (FiniteDeformation/NonlinearElasticity.C:214-237). -/
def stressOld [LinearOrder K] (nsd : Nat) (epsR : K) (m : OpMat K) (eV : DVec K) (p : FPt K) : Res (Nat → K) :=
  if eV.n = 0 then .ok fun _ => 0
  else
    (kinUL nsd false eV p epsR).bind fun k =>
    (m 2 k.1 k.2).bind fun cs => .ok cs.2

/-- The values of `NonlinearElasticity::evalSol` (FiniteDeformation/NonlinearElasticity.C:191-211). -/
def evalOld (c : SolidFields.Cfg) (toLocal : Bool) : List SolidFields.Val :=
  (SolidFields.comps c.nsd false).map (fun p => .comp (toLocal && c.locSys) p.1 p.2) ++ (if toLocal then [.vonMises] else [])

/-- `Elasticity::evalSol2` (Elasticity/Elasticity.C:722-768) in a regular point of the tensorial total Lagrangian element. -/
def evalOld2 (c : SolidFields.Cfg) : List SolidFields.Val := evalOld c true ++ (List.range c.labels.length).map (fun i => .int (i + 1))

end Verif.Finite
