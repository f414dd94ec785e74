/-
Linear buckling analysis of a whole solid model: element matrices of material and geometric stiffness (Elasticity/LinearElasticity.C) for the displacements of the static solution, and their assembly.

IFEM assumptions: as in Model/Vibration.lean; `SIMbase::systemModes` returns pairs of eigenvalues and eigenvectors of the two assembled matrices. `SymmTensor::isZero(tol)` tells that no component exceeds `tol`
in magnitude. Axial symmetry is not modelled here (see Model/Continuum.lean for the geometric stiffness in this case).
-/
import Verif.Model.Vibration
import Verif.Model.FDTangent

namespace Verif.Struct

open Verif.Cont

variable {K : Type*} [Field K]

/-- `LinearElasticity::evalInt` for `SIM::BUCKLING` (Elasticity/LinearElasticity.C:181-233): material and geometric stiffness after an integration point, for the element displacements `eV`. -/
def buckInt [LinearOrder K] (nsd : Nat) (tol : K) (eV : Nat → K) (A : DMat K × DMat K) (p : VPt K) : Res (DMat K × DMat K) :=
  (formB nsd p.q.dN).bind fun B =>
  let eps := B.mulV eV
  (LinIso.evaluate p.q.mat nsd B.nr p.q.fe p.q.X eps 1).2.bind fun o =>
  let EK := addKm A.1 B o.C p.q.w
  if Finite.zeroStrain tol (Finite.ncomp nsd false) eps then .ok (EK, A.2)
  else match o.sig with
    | some s => (formKG nsd false A.2 p.N p.q.dN 0 (Finite.symT nsd false s) p.q.w).bind fun EG => .ok (EK, EG)
    | none => .fail

/-- The loop over the integration points (Elasticity/LinearElasticity.C:181-233 for each of them). -/
def buckAll [LinearOrder K] (nsd : Nat) (tol : K) (eV : Nat → K) : List (VPt K) → DMat K × DMat K → Res (DMat K × DMat K)
  | [], A => .ok A
  | p :: l, A => (buckInt nsd tol eV A p).bind fun A => buckAll nsd tol eV l A

/-- The matrices of all elements, from zero, for the static solution `u` (main_LinEl.C:826-830); a failure ends the assembly. -/
def bucks [LinearOrder K] (nsd : Nat) (tol : K) (u : Nat → Nat → K) : List (VElm K) → Res (List (Elm K × DMat K) × List (Elm K × DMat K))
  | [] => .ok ([], [])
  | e :: l => (buckAll nsd tol (dofVec nsd fun s i => u (e.node s) i) e.pts (DMat.zero (nsd * e.nen) (nsd * e.nen), DMat.zero (nsd * e.nen) (nsd * e.nen))).bind fun A =>
    (bucks nsd tol u l).bind fun r => .ok ((e.solid, A.1) :: r.1, (e.solid, A.2) :: r.2)

end Verif.Struct
