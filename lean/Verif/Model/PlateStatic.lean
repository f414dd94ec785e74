/-
The static problem and the free vibrations of a whole plate model: element matrices of Linear/KirchhoffLovePlate.C, their assembly, and the equations of main_LinEl.C.

IFEM assumptions: as in Model/Structure.lean, with one degree of freedom (the deflection) in each control point.
-/
import Verif.Model.Plate
import Verif.Model.Structure

namespace Verif.PlateStatic

variable {K : Type*} [Field K] [LinearOrder K]

/-- An integration point: basis functions, material, point, thickness, density, gravitation and pressures (`fe`, `material`, `X`, `thickness`, `getMassDensity`, `gravity` and `presFld` in
Linear/KirchhoffLovePlate.C:118-138 and Elasticity/KirchhoffLove.C:283-371). -/
structure QPt (K : Type*) where
  f : Plate.Elm K
  mat : LinIso.Mat K
  X : LinIso.Pt K
  T : K
  rho : K
  g : K
  pres : List K

/-- An element: number of nodes, the global node of each of its nodes, and its integration points. -/
structure Elm (K : Type*) where
  nen : Nat
  node : Nat → Nat
  pts : List (QPt K)

/-- The nodes of an element. -/
def Elm.conn (e : Elm K) : Struct.Elm K := ⟨e.nen, e.node, []⟩

/-- The element matrices: mass, stiffness, load vector and the sum of the loads (`elMat.A[eM-1]`, `elMat.A[eK-1]`, `elMat.b[eS-1]` and `elMat.c` in Linear/KirchhoffLovePlate.C:122-137). -/
structure Mats (K : Type*) where
  EM : DMat K
  EK : DMat K
  ES : DVec K
  sum : K

/-- `KirchhoffLovePlate::evalInt` with mass matrix, stiffness matrix and load vector (Linear/KirchhoffLovePlate.C:118-138). -/
def evalInt (version : Nat) (E : Mats K) (p : QPt K) : Res (Mats K) :=
  let M : DMat K := ⟨E.EM.nr, E.EM.nc, fun a b => E.EM.e a b + Plate.formMassMatrix 1 p.rho p.T p.f.N p.f.dJW a 1 b 1⟩
  let F := Plate.formBodyForce 1 p.f.N (Plate.getPressure p.rho p.g p.T p.pres (fun _ => 0) true false) p.f.dJW false
  (Plate.stiffness version p.mat 2 p.f p.X p.T).bind fun k =>
  .ok ⟨M, ⟨E.EK.nr, E.EK.nc, fun a b => E.EK.e a b + k a b⟩, ⟨E.ES.n, fun a => E.ES.e a + F.1 a 1⟩, E.sum + F.2 1⟩

/-- The loop over the integration points (Linear/KirchhoffLovePlate.C:118-138 for each of them). -/
def evalAll (version : Nat) : List (QPt K) → Mats K → Res (Mats K)
  | [], E => .ok E
  | p :: l, E => (evalInt version E p).bind fun E => evalAll version l E

/-- The element matrices of all elements, from zero; a failure ends the assembly (main_LinEl.C:637-638). -/
def matrices (version : Nat) : List (Elm K) → Res (List (Elm K × Mats K))
  | [] => .ok []
  | e :: l => (evalAll version e.pts ⟨DMat.zero e.nen e.nen, DMat.zero e.nen e.nen, DVec.zero e.nen, 0⟩).bind fun A =>
    (matrices version l).bind fun r => .ok ((e, A) :: r)

/-- The assembled stiffness matrix. -/
def stiff (r : List (Elm K × Mats K)) : Nat → Nat → Nat → Nat → K := Struct.asmK 1 (r.map fun e => (e.1.conn, e.2.EK))

/-- The assembled mass matrix. -/
def massM (r : List (Elm K × Mats K)) : Nat → Nat → Nat → Nat → K := Struct.asmK 1 (r.map fun e => (e.1.conn, e.2.EM))

/-- The assembled load vector. -/
def loadV (r : List (Elm K × Mats K)) : Nat → Nat → K := Struct.asmV 1 (r.map fun e => (e.1.conn, e.2.ES))

end Verif.PlateStatic
