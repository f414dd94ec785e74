/-
Static analysis of thin shells with large displacements: the integrand of Shell/NLKirchhoffLoveShell.C, assembled, and the iterations for equilibrium.

Assumptions on the library: those of Model/Structure.lean and Model/Shell.lean, and those of Model/FDStatic.lean on the iterations. With the integrand type `UPDATED_NODES` the last vector of an element holds the current
positions of its nodes. Loads are given as nodal loads; pressures, which follow the normal of the deformed shell, are not included.
-/
import Verif.Model.Shell
import Verif.Model.ShellStatic

namespace Verif.NLShellStatic

open Verif.Beam (V3)
open Verif.Shell (Geo Basis deformed)
open Verif.ShellStatic (nodeOf dirOf)

/-- An integration point: initial surface, basis functions, material, point, thickness and weight (`fe.G` and `fe.H`, `fe.dNdX` and `fe.d2NdX2`, `material`, `fe`, `X`, `thickness` and `fe.detJxW` in
Shell/NLKirchhoffLoveShell.C:36-79). -/
structure NPt where
  G : Geo
  f : Basis
  mat : LinIso.Mat ℝ
  fe : LinIso.FE ℝ
  X : LinIso.Pt ℝ
  T : ℝ
  dJW : ℝ

/-- An element: number of nodes, the global node of each of its nodes, and its integration points. -/
structure NElm where
  nen : Nat
  node : Nat → Nat
  pts : List NPt

/-- The nodes of an element. -/
def NElm.conn (e : NElm) : Struct.Elm ℝ := ⟨e.nen, e.node, []⟩

/-- The current positions of the nodes of an element (`elmInt.vec.back()` in Shell/NLKirchhoffLoveShell.C:45-46): `Y` are the positions of the nodes of the model. -/
def NElm.positions (e : NElm) (Y : Nat → Nat → ℝ) : Nat → V3 ℝ := fun k i => Y (e.node (k + 1)) (i.val + 1)

/-- `NLKirchhoffLoveShell::evalInt` with tangent stiffness matrix and internal forces (Shell/NLKirchhoffLoveShell.C:36-79), for the positions `x` of the nodes. The result of `evalKandS` is not used. -/
noncomputable def evalInt (x : Nat → V3 ℝ) (E : DMat ℝ × DVec ℝ) (p : NPt) : Res (DMat ℝ × DVec ℝ) :=
  match Shell.evalKandS p.mat p.fe p.X p.T p.dJW p.f p.G (deformed p.f x) with
  | .ok k => .ok (⟨E.1.nr, E.1.nc, fun r c => E.1.e r c + k.1 (nodeOf r) (dirOf r) (nodeOf c) (dirOf c)⟩, ⟨E.2.n, fun r => E.2.e r + k.2 (nodeOf r) (dirOf r)⟩)
  | .fail => .ok E
  | .ub => .ub

/-- The loop over the integration points (Shell/NLKirchhoffLoveShell.C:36-79 for each of them). -/
noncomputable def evalAll (x : Nat → V3 ℝ) : List NPt → DMat ℝ × DVec ℝ → Res (DMat ℝ × DVec ℝ)
  | [], E => .ok E
  | p :: l, E => (evalInt x E p).bind fun E => evalAll x l E

/-- The element matrices and vectors of all elements, from zero (Elasticity/NonlinearDriver.C:310). -/
noncomputable def assemble (Y : Nat → Nat → ℝ) : List NElm → Res (List (NElm × DMat ℝ × DVec ℝ))
  | [] => .ok []
  | e :: l => (evalAll (e.positions Y) e.pts (DMat.zero (3 * e.nen) (3 * e.nen), DVec.zero (3 * e.nen))).bind fun A => (assemble Y l).bind fun r => .ok ((e, A) :: r)

/-- The assembled tangent stiffness matrix. -/
noncomputable def tangent (r : List (NElm × DMat ℝ × DVec ℝ)) : Nat → Nat → Nat → Nat → ℝ := Struct.asmK 3 (r.map fun e => (e.1.conn, e.2.1))

/-- The residual: loads `F` and internal forces, which the elements subtract (Shell/NLKirchhoffLoveShell.C:180-182). -/
noncomputable def residual (F : Nat → Nat → ℝ) (r : List (NElm × DMat ℝ × DVec ℝ)) (a i : Nat) : ℝ := F a i + Struct.asmV 3 (r.map fun e => (e.1.conn, e.2.2)) a i

/-- One iteration from the positions `Y` to `Y'` (Elasticity/NonlinearDriver.C:309-315), with given positions `g` where `fixed`. -/
def Iterate (n : Nat) (es : List NElm) (F g : Nat → Nat → ℝ) (fixed : Nat → Nat → Prop) (Y Y' : Nat → Nat → ℝ) : Prop :=
  ∃ r, assemble Y es = .ok r ∧ Struct.Solves 3 n (tangent r) (residual F r) (fun a i => g a i - Y a i) fixed fun a i => Y' a i - Y a i

/-- A converged state. -/
def Converged (n : Nat) (es : List NElm) (F g : Nat → Nat → ℝ) (fixed : Nat → Nat → Prop) (Y : Nat → Nat → ℝ) : Prop :=
  ∃ r, assemble Y es = .ok r ∧ (∀ a i, a < n → i < 3 → ¬ fixed (a + 1) (i + 1) → residual F r (a + 1) (i + 1) = 0) ∧
    ∀ a i, a < n → i < 3 → fixed (a + 1) (i + 1) → Y (a + 1) (i + 1) = g (a + 1) (i + 1)

end Verif.NLShellStatic
