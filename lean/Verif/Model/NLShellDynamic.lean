/-
Dynamic analysis of thin shells with large displacements: mass matrix, internal forces, weight and pressures of Shell/NLKirchhoffLoveShell.C, assembled, and states in which the equations of motion are met.

Assumptions on the library: those of Model/NLShellStatic.lean. There is no damping, and the element matrices class subtracts the mass
matrix times the accelerations from the forces. The integration in time is not modelled.
-/
import Verif.Model.NLShellStatic
import Verif.Model.Plate

namespace Verif.NLShellDynamic

open Verif.Beam (V3)
open Verif.Shell (deformed)
open Verif.ShellStatic (nodeOf dirOf)
open Verif.NLShellStatic (NPt NElm)

/-- An integration point: that of static analysis, the basis functions (from one), density, gravitation and pressures (`fe.N`, `getMassDensity`, `gravity` and `presFld` in Elasticity/KirchhoffLove.C:283-371). -/
structure MPt where
  pt : NPt
  N : Nat → ℝ
  rho : ℝ
  g : ℝ
  pres : List ℝ

/-- An element: number of nodes, the global node of each of its nodes, and its integration points. -/
structure MElm where
  nen : Nat
  node : Nat → Nat
  pts : List MPt

/-- The element of static analysis. -/
def MElm.static (e : MElm) : NElm := ⟨e.nen, e.node, e.pts.map MPt.pt⟩

/-- What a point adds to the mass matrix (Shell/NLKirchhoffLoveShell.C:56-57). -/
noncomputable def massAt (p : MPt) (r c : Nat) : ℝ := Plate.formMassMatrix 3 p.rho p.pt.T p.N p.pt.dJW (nodeOf r + 1) ((dirOf r).val + 1) (nodeOf c + 1) ((dirOf c).val + 1)

/-- What a point adds to the load vector (Shell/NLKirchhoffLoveShell.C:68-75), with the normal of the deformed surface for the positions `x` of the nodes. The normal is zero, and the pressures act in the third direction, where
the base vectors are parallel; where there are no pressures the normal is not used. -/
noncomputable def loadAt (p : MPt) (x : Nat → V3 ℝ) (r : Nat) : ℝ :=
  let n := ShellStatic.shellNormal (deformed p.pt.f x)
  let nzero := decide (Bar.len (Bar.cross (deformed p.pt.f x).g1 (deformed p.pt.f x).g2) = 0)
  (Plate.formBodyForce 3 p.N (Plate.getPressure p.rho p.g p.pt.T p.pres n nzero false) p.pt.dJW false).1 (nodeOf r + 1) ((dirOf r).val + 1)

/-- `NLKirchhoffLoveShell::evalInt` in dynamic analysis (Shell/NLKirchhoffLoveShell.C:36-79), for the positions `x` of the nodes: mass matrix and the vector of internal forces, weight and pressures (`eM` is two, `eS` and `iS` are one,
Elasticity/KirchhoffLove.C:99-103). The result of `evalKandS` is not used. The stiffness matrix, as in Model/NLShellStatic.lean, is left out. -/
noncomputable def evalInt (x : Nat → V3 ℝ) (E : DMat ℝ × DVec ℝ) (p : MPt) : Res (DMat ℝ × DVec ℝ) :=
  match Shell.evalKandS p.pt.mat p.pt.fe p.pt.X p.pt.T p.pt.dJW p.pt.f p.pt.G (deformed p.pt.f x) with
  | .ok k => .ok (⟨E.1.nr, E.1.nc, fun r c => E.1.e r c + massAt p r c⟩, ⟨E.2.n, fun r => E.2.e r + (k.2 (nodeOf r) (dirOf r) + loadAt p x r)⟩)
  | .fail => .ok (⟨E.1.nr, E.1.nc, fun r c => E.1.e r c + massAt p r c⟩, ⟨E.2.n, fun r => E.2.e r + loadAt p x r⟩)
  | .ub => .ub

/-- The loop over the integration points (Shell/NLKirchhoffLoveShell.C:36-79 for each of them). -/
noncomputable def evalAll (x : Nat → V3 ℝ) : List MPt → DMat ℝ × DVec ℝ → Res (DMat ℝ × DVec ℝ)
  | [], E => .ok E
  | p :: l, E => (evalInt x E p).bind fun E => evalAll x l E

/-- The element matrices and vectors of all elements, from zero (Elasticity/NonlinearDriver.C:310 for the assembly in statics; the dynamic one is part of the library). -/
noncomputable def assemble (Y : Nat → Nat → ℝ) : List MElm → Res (List (MElm × DMat ℝ × DVec ℝ))
  | [] => .ok []
  | e :: l => (evalAll (e.static.positions Y) e.pts (DMat.zero (3 * e.nen) (3 * e.nen), DVec.zero (3 * e.nen))).bind fun A => (assemble Y l).bind fun r => .ok ((e, A) :: r)

/-- The product of the assembled mass matrix and accelerations. -/
noncomputable def inertia (n : Nat) (acc : Nat → Nat → ℝ) (r : List (MElm × DMat ℝ × DVec ℝ)) : Nat → Nat → ℝ := Struct.nodal 3 n (Struct.asmK 3 (r.map fun e => (e.1.static.conn, e.2.1))) acc

/-- The residual of the equations of motion: loads `F`, forces of the elements, and inertia. -/
noncomputable def residual (n : Nat) (F acc : Nat → Nat → ℝ) (r : List (MElm × DMat ℝ × DVec ℝ)) (a i : Nat) : ℝ := F a i + Struct.asmV 3 (r.map fun e => (e.1.static.conn, e.2.2)) a i - inertia n acc r a i

/-- Positions `Y` and accelerations `acc` for which the residual vanishes except where the positions are `fixed`. -/
def Motion (n : Nat) (es : List MElm) (F : Nat → Nat → ℝ) (fixed : Nat → Nat → Prop) (Y acc : Nat → Nat → ℝ) : Prop :=
  ∃ r, assemble Y es = .ok r ∧ ∀ a i, a < n → i < 3 → ¬ fixed (a + 1) (i + 1) → residual n F acc r (a + 1) (i + 1) = 0

end Verif.NLShellDynamic
