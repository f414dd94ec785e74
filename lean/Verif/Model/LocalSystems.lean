/-
Model of the local coordinate systems for result output (Elasticity/LocalSystems.C).

`atan2(y,x)` is the argument of the complex number `x + iy`. Division by zero (points on the axis or in the centre) gives NaN in the
program; the theorems exclude these points.
-/
import Verif.Model.Bar
import Mathlib.Analysis.SpecialFunctions.Complex.Arg
import Mathlib.Analysis.SpecialFunctions.Trigonometric.Inverse

namespace Verif.LocalCS

open Verif.Beam (V3)
open Verif.Bar (len cross)

/-- `CylinderCS::getTmat` (Elasticity/LocalSystems.C:41-51): rows are the local axes. -/
noncomputable def cylinder (X : V3 ℝ) : Fin 3 → V3 ℝ :=
  let r := Real.sqrt (X 0 * X 0 + X 1 * X 1)
  ![![X 0 / r, X 1 / r, 0], ![-(X 1 / r), X 0 / r, 0], ![0, 0, 1]]

/-- `CylinderSphereCS::getTmat` (Elasticity/LocalSystems.C:92-136) for patch number `patch` and height `h` of the centre of the
sphere. -/
noncomputable def cylinderSphere (h : ℝ) (patch : Nat) (X : V3 ℝ) : Fin 3 → V3 ℝ :=
  if patch = 1 then
    let r := Real.sqrt (X 0 * X 0 + X 1 * X 1)
    ![![0, 0, -1], ![-X 1 / r, X 0 / r, 0], ![X 0 / r, -(-X 1 / r), 0]]
  else
    let v : V3 ℝ := ![X 0, X 1, X 2 - h]
    let v3 : V3 ℝ := fun i => v i / len v
    let theta := Complex.arg ⟨X 0, X 1⟩
    let phi := Real.arccos (v3 2)
    let v1 : V3 ℝ := ![Real.cos theta * Real.cos phi, Real.sin theta * Real.cos phi, -Real.sin phi]
    let v2 : V3 ℝ := cross v3 v1
    ![v1, v2, v3]

end Verif.LocalCS
