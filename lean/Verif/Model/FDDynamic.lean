/-
Dynamic analysis with large deformations, total Lagrangian formulation: mass matrix, internal forces and body forces of FiniteDeformation/NonlinearElasticityTL.C, assembled, and states in which the equations of motion are met.

Assumptions on the library: those of Model/FDStatic.lean. There is no damping, and the element matrices class subtracts the mass matrix times the accelerations from the forces. The integration in time is not modelled.
-/
import Verif.Model.FDStatic

namespace Verif.FDDynamic

open Verif.Cont Verif.Finite

/-- An integration point: that of static analysis with its material, the density, the body force and the outcome of `f.isZero()` (`fe`, `material`, `getMassDensity` and `getBodyforce` in
FiniteDeformation/NonlinearElasticityTL.C:129-146, Elasticity/Elasticity.C:609-638). -/
structure MPt where
  pt : FPt ℝ
  mat : Mat ℝ
  rho : ℝ
  f : Nat → ℝ
  fZero : Bool

/-- An element: number of nodes, the global node of each of its nodes, and its integration points. -/
structure MElm where
  nen : Nat
  node : Nat → Nat
  pts : List MPt

/-- The element of static analysis. -/
def MElm.static (e : MElm) : FElm := ⟨e.nen, e.node, .total (e.pts.map fun p => (p.pt, p.mat))⟩

/-- Mass matrix and body forces of all integration points (FiniteDeformation/NonlinearElasticityTL.C:129-146 for each of them). -/
noncomputable def addInertia (nsd : Nat) : List MPt → DMat ℝ × Loads ℝ → Res (DMat ℝ × Loads ℝ)
  | [], E => .ok E
  | p :: l, E => (tlInertia nsd p.pt.N p.pt.w E.1 E.2 p.rho p.f p.fZero).bind fun E => addInertia nsd l E

/-- Mass matrix and vector of forces of an element in dynamic analysis, for the nodal displacements `u` (FiniteDeformation/NonlinearElasticityTL.C:75-150; internal and body forces are added to the same vector). In the program the
contributions of a point to matrix and vector are added before those of the next point; here the internal forces of all points come first. The stiffness matrix, as in Model/FDStatic.lean, is left out. -/
noncomputable def MElm.eval (nsd : Nat) (tol epsR : ℝ) (u : Nat → Nat → ℝ) (e : MElm) : Res (DMat ℝ × DVec ℝ) :=
  (e.static.eval nsd tol epsR u).bind fun A =>
    (addInertia nsd e.pts (DMat.zero (nsd * e.nen) (nsd * e.nen), ⟨A.2, DVec.zero nsd⟩)).bind fun E => .ok (E.1, E.2.ES)

/-- The matrices and vectors of all elements; a failure ends the assembly. -/
noncomputable def assemble (nsd : Nat) (tol epsR : ℝ) (u : Nat → Nat → ℝ) : List MElm → Res (List (MElm × DMat ℝ × DVec ℝ))
  | [] => .ok []
  | e :: l => (e.eval nsd tol epsR u).bind fun A => (assemble nsd tol epsR u l).bind fun r => .ok ((e, A) :: r)

/-- The product of the assembled mass matrix and accelerations. -/
noncomputable def inertia (nsd n : Nat) (acc : Nat → Nat → ℝ) (r : List (MElm × DMat ℝ × DVec ℝ)) : Nat → Nat → ℝ := Struct.nodal nsd n (Struct.asmK nsd (r.map fun e => (e.1.static.conn, e.2.1))) acc

/-- The residual of the equations of motion: loads `F`, forces of the elements, and inertia. -/
noncomputable def residual (nsd n : Nat) (F acc : Nat → Nat → ℝ) (r : List (MElm × DMat ℝ × DVec ℝ)) (a i : Nat) : ℝ := F a i + Struct.asmV nsd (r.map fun e => (e.1.static.conn, e.2.2)) a i - inertia nsd n acc r a i

/-- Displacements `u` and accelerations `acc` for which the residual vanishes except where the displacements are `fixed`. -/
def Motion (nsd n : Nat) (tol epsR : ℝ) (es : List MElm) (F : Nat → Nat → ℝ) (fixed : Nat → Nat → Prop) (u acc : Nat → Nat → ℝ) : Prop :=
  ∃ r, assemble nsd tol epsR u es = .ok r ∧ ∀ a i, a < n → i < nsd → ¬ fixed (a + 1) (i + 1) → residual nsd n F acc r (a + 1) (i + 1) = 0

end Verif.FDDynamic
