/-
The static problem and the free vibrations of a whole linear shell model: element matrices of Shell/KirchhoffLoveShell.C, their assembly, and the equations of main_LinEl.C.

IFEM assumptions: as in Model/Structure.lean, with three displacements in each control point, and those of Model/Shell.lean. Degree of freedom `3*(a-1)+i` is displacement `i` of node `a`.
-/
import Verif.Model.Shell
import Verif.Model.Structure

namespace Verif.ShellStatic

open Verif.Bar (unit cross)
open Verif.Shell (Geo Basis)

/-- An integration point: surface, basis functions, material, point, thickness, weight, density, gravitation and pressures (`fe`, `material`, `X`, `thickness`, `getMassDensity`, `gravity` and `presFld` in
Shell/KirchhoffLoveShell.C:39-60 and Elasticity/KirchhoffLove.C:283-371). -/
structure QPt where
  G : Geo
  f : Basis
  N : Nat → ℝ
  mat : LinIso.Mat ℝ
  fe : LinIso.FE ℝ
  X : LinIso.Pt ℝ
  T : ℝ
  dJW : ℝ
  rho : ℝ
  g : ℝ
  pres : List ℝ

/-- An element: number of nodes, the global node of each of its nodes, and its integration points. -/
structure Elm where
  nen : Nat
  node : Nat → Nat
  pts : List QPt

/-- The nodes of an element. -/
def Elm.conn (e : Elm) : Struct.Elm ℝ := ⟨e.nen, e.node, []⟩

/-- The element matrices: mass, stiffness, load vector and the sums of the loads (`elMat.A[eM-1]`, `elMat.A[eK-1]`, `elMat.b[eS-1]` and `elMat.c` in Shell/KirchhoffLoveShell.C:43-53). -/
structure Mats where
  EM : DMat ℝ
  EK : DMat ℝ
  ES : DVec ℝ
  sum : Nat → ℝ

/-- Node (from zero) and direction of a degree of freedom. -/
def nodeOf (k : Nat) : Nat := (k - 1) / 3
def dirOf (k : Nat) : Fin 3 := ⟨(k - 1) % 3, Nat.mod_lt _ (by omega)⟩

/-- `KirchhoffLoveShell::getShellNormal` (Shell/KirchhoffLoveShell.C:337-342), with directions from one. -/
noncomputable def shellNormal (G : Geo) (i : Nat) : ℝ := unit (cross G.g1 G.g2) (dirOf i)

/-- `KirchhoffLoveShell::evalInt` with mass matrix, stiffness matrix and load vector (Shell/KirchhoffLoveShell.C:39-60). The result of `evalK` is not used. -/
noncomputable def evalInt (E : Mats) (p : QPt) : Res Mats :=
  let M : DMat ℝ := ⟨E.EM.nr, E.EM.nc, fun r c => E.EM.e r c + Plate.formMassMatrix 3 p.rho p.T p.N p.dJW (nodeOf r + 1) (dirOf r + 1) (nodeOf c + 1) (dirOf c + 1)⟩
  let F := Plate.formBodyForce 3 p.N (Plate.getPressure p.rho p.g p.T p.pres (shellNormal p.G) false false) p.dJW false
  let S : DVec ℝ := ⟨E.ES.n, fun r => E.ES.e r + F.1 (nodeOf r + 1) (dirOf r + 1)⟩
  match Shell.evalK p.mat p.fe p.X p.T p.dJW p.G p.f with
  | .ok k => .ok ⟨M, ⟨E.EK.nr, E.EK.nc, fun r c => E.EK.e r c + k (nodeOf r) (dirOf r) (nodeOf c) (dirOf c)⟩, S, fun i => E.sum i + F.2 i⟩
  | .fail => .ok ⟨M, E.EK, S, fun i => E.sum i + F.2 i⟩
  | .ub => .ub

/-- The loop over the integration points (Shell/KirchhoffLoveShell.C:39-60 for each of them). -/
noncomputable def evalAll : List QPt → Mats → Res Mats
  | [], E => .ok E
  | p :: l, E => (evalInt E p).bind fun E => evalAll l E

/-- The element matrices of all elements, from zero; a failure ends the assembly (main_LinEl.C:637-638). -/
noncomputable def matrices : List Elm → Res (List (Elm × Mats))
  | [] => .ok []
  | e :: l => (evalAll e.pts ⟨DMat.zero (3 * e.nen) (3 * e.nen), DMat.zero (3 * e.nen) (3 * e.nen), DVec.zero (3 * e.nen), fun _ => 0⟩).bind fun A =>
    (matrices l).bind fun r => .ok ((e, A) :: r)

/-- The assembled stiffness matrix. -/
noncomputable def stiff (r : List (Elm × Mats)) : Nat → Nat → Nat → Nat → ℝ := Struct.asmK 3 (r.map fun e => (e.1.conn, e.2.EK))

/-- The assembled mass matrix. -/
noncomputable def massM (r : List (Elm × Mats)) : Nat → Nat → Nat → Nat → ℝ := Struct.asmK 3 (r.map fun e => (e.1.conn, e.2.EM))

/-- The assembled load vector. -/
noncomputable def loadV (r : List (Elm × Mats)) : Nat → Nat → ℝ := Struct.asmV 3 (r.map fun e => (e.1.conn, e.2.ES))

end Verif.ShellStatic
