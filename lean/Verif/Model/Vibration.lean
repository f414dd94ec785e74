/-
Free vibrations of a whole solid model in linear elasticity: element stiffness and mass matrices (Elasticity/LinearElasticity.C), their assembly, and the eigenvalue problem that main_LinEl.C solves.

IFEM assumptions: as in Model/Structure.lean; `SIMbase::systemModes` returns pairs of eigenvalues and eigenvectors of the assembled matrices, for the free degrees of freedom, with zeros in the others.
-/
import Verif.Model.Structure

namespace Verif.Struct

open Verif.Cont

variable {K : Type*} [Field K]

/-- An integration point with the values of the basis functions and the density of the material (`fe.N` in Elasticity/LinearElasticity.C:232-234, `getMassDensity` in Elasticity/Elasticity.C:612). -/
structure VPt (K : Type*) where
  q : QPt K
  N : DVec K
  rho : K

/-- An element of a vibrating model. -/
structure VElm (K : Type*) where
  nen : Nat
  node : Nat → Nat
  pts : List (VPt K)

/-- The element without its masses. -/
def VElm.solid (e : VElm K) : Elm K := ⟨e.nen, e.node, e.pts.map VPt.q⟩

/-- `LinearElasticity::evalInt` for `SIM::VIBRATION` (Elasticity/LinearElasticity.C:181-234): stiffness and mass matrix after an integration point. -/
def vibInt [LinearOrder K] (nsd : Nat) (A : DMat K × DMat K) (p : VPt K) : Res (DMat K × DMat K) :=
  (evalInt nsd A.1 p.q).bind fun EK => (formMass nsd A.2 p.N p.rho p.q.w).bind fun EM => .ok (EK, EM)

/-- The loop over the integration points (Elasticity/LinearElasticity.C:181-234 for each of them). -/
def vibAll [LinearOrder K] (nsd : Nat) : List (VPt K) → DMat K × DMat K → Res (DMat K × DMat K)
  | [], A => .ok A
  | p :: l, A => (vibInt nsd A p).bind fun A => vibAll nsd l A

/-- The matrices of all elements, from zero; a failure ends the assembly (main_LinEl.C:877-878). -/
def vibs [LinearOrder K] (nsd : Nat) : List (VElm K) → Res (List (Elm K × DMat K) × List (Elm K × DMat K))
  | [] => .ok ([], [])
  | e :: l => (vibAll nsd e.pts (DMat.zero (nsd * e.nen) (nsd * e.nen), DMat.zero (nsd * e.nen) (nsd * e.nen))).bind fun A =>
    (vibs nsd l).bind fun r => .ok ((e.solid, A.1) :: r.1, (e.solid, A.2) :: r.2)

/-- A solution of the eigenvalue problem solved in main_LinEl.C:881: `lam` is the square of the angular frequency, `phi` the shape. -/
structure Mode (nsd n : Nat) (Kg Mg : Nat → Nat → Nat → Nat → K) (fixed : Nat → Nat → Prop) (lam : K) (phi : Nat → Nat → K) : Prop where
  free : ∀ a i, a < n → i < nsd → ¬ fixed (a + 1) (i + 1) → nodal nsd n Kg phi (a + 1) (i + 1) = lam * nodal nsd n Mg phi (a + 1) (i + 1)
  held : ∀ a i, a < n → i < nsd → fixed (a + 1) (i + 1) → phi (a + 1) (i + 1) = 0

end Verif.Struct
