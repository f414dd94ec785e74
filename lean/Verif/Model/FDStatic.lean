/-
Static analysis with large deformations: the elements of Model/FDTangent.lean (total and updated Lagrangian) and Model/FbarElem.lean (F-bar), assembled, and the iterations for equilibrium.

Assumptions on the library: `SIMbase::assembleSystem` adds the element matrices and vectors of all elements for the current displacements; `NonLinSIM::solveStep` solves with the assembled matrix and the residual and adds
the result to the displacements, and stops when the residual vanishes (the tolerances of its convergence test are not modelled).
-/
import Verif.Model.FbarElem
import Verif.Model.FDEnergy
import Verif.Model.Structure

namespace Verif.Finite

/-- The formulation of an element with its integration points (FiniteDeformation/NonlinearElasticityTL.C, FiniteDeformation/NonlinearElasticityUL.C, FiniteDeformation/NonlinearElasticityFbar.C). In the program all elements
of a model have the same formulation. -/
inductive Kind where
  | total (pts : List (FPt ℝ × Mat ℝ))
  | updated (pts : List (FPt ℝ × Mat ℝ))
  | fbar (smp : List (FPt ℝ)) (pts : List (FPt ℝ × Mat ℝ × List ℝ))

/-- An element: number of nodes, node numbers, formulation. -/
structure FElm where
  nen : Nat
  node : Nat → Nat
  kind : Kind

/-- Its nodes, as in linear analyses. -/
def FElm.conn (e : FElm) : Struct.Elm ℝ := ⟨e.nen, e.node, []⟩

/-- Matrix and vector of an element, for the nodal displacements `u` (FiniteDeformation/NonlinearElasticityTL.C:75-150, FiniteDeformation/NonlinearElasticityUL.C:92-200, FiniteDeformation/NonlinearElasticityFbar.C:462-667). -/
noncomputable def FElm.eval (nsd : Nat) (tol epsR : ℝ) (u : Nat → Nat → ℝ) (e : FElm) : Res (DMat ℝ × DVec ℝ) :=
  let eV : DVec ℝ := ⟨nsd * e.nen, dofVec nsd fun s i => u (e.node s) i⟩
  let Z := (DMat.zero (nsd * e.nen) (nsd * e.nen), DVec.zero (nsd * e.nen))
  match e.kind with
  | .total pts => tlElement nsd false tol epsR eV pts Z
  | .updated pts => ulElement nsd false tol epsR eV pts Z
  | .fbar smp pts => fbarElement nsd false tol epsR smp eV pts Z

/-- The matrices and vectors of all elements; a failure ends the assembly. -/
noncomputable def assemble (nsd : Nat) (tol epsR : ℝ) (u : Nat → Nat → ℝ) : List FElm → Res (List (FElm × DMat ℝ × DVec ℝ))
  | [] => .ok []
  | e :: l => (e.eval nsd tol epsR u).bind fun A => (assemble nsd tol epsR u l).bind fun r => .ok ((e, A) :: r)

/-- The assembled tangent stiffness matrix. -/
noncomputable def tangent (nsd : Nat) (r : List (FElm × DMat ℝ × DVec ℝ)) : Nat → Nat → Nat → Nat → ℝ := Struct.asmK nsd (r.map fun e => (e.1.conn, e.2.1))

/-- The residual: loads `F` and internal forces, which the elements subtract (FiniteDeformation/NonlinearElasticityTL.C:133-140, FiniteDeformation/NonlinearElasticityUL.C:183-189). -/
noncomputable def residual (nsd : Nat) (F : Nat → Nat → ℝ) (r : List (FElm × DMat ℝ × DVec ℝ)) (a i : Nat) : ℝ := F a i + Struct.asmV nsd (r.map fun e => (e.1.conn, e.2.2)) a i

/-- One iteration from `u` to `u'` (Elasticity/NonlinearDriver.C:309-315), for prescribed displacements `g` where `fixed`. -/
def Iterate (nsd n : Nat) (tol epsR : ℝ) (es : List FElm) (F g : Nat → Nat → ℝ) (fixed : Nat → Nat → Prop) (u u' : Nat → Nat → ℝ) : Prop :=
  ∃ r, assemble nsd tol epsR u es = .ok r ∧ Struct.Solves nsd n (tangent nsd r) (residual nsd F r) (fun a i => g a i - u a i) fixed fun a i => u' a i - u a i

/-- A converged state. -/
def Converged (nsd n : Nat) (tol epsR : ℝ) (es : List FElm) (F g : Nat → Nat → ℝ) (fixed : Nat → Nat → Prop) (u : Nat → Nat → ℝ) : Prop :=
  ∃ r, assemble nsd tol epsR u es = .ok r ∧ (∀ a i, a < n → i < nsd → ¬ fixed (a + 1) (i + 1) → residual nsd F r (a + 1) (i + 1) = 0) ∧
    ∀ a i, a < n → i < nsd → fixed (a + 1) (i + 1) → u (a + 1) (i + 1) = g (a + 1) (i + 1)

/-- The energy reported for updated Lagrangian elements, the sum over all elements (FiniteDeformation/NonlinearElasticityUL.C:355-416). -/
noncomputable def energyAll (nsd : Nat) (ps : Bool) (epsR : ℝ) (u : Nat → Nat → ℝ) : List (Struct.Elm ℝ × List (FPt ℝ × EMat)) → Res ℝ
  | [] => .ok 0
  | e :: l => (ulNorm nsd false ps epsR ⟨nsd * e.1.nen, dofVec nsd fun s i => u (e.1.node s) i⟩ e.2 NormUL.Norms.zero).bind fun N => (energyAll nsd ps epsR u l).bind fun s => .ok (N.energy + s)

end Verif.Finite
