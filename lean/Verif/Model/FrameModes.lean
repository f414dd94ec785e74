/-
Free vibrations and linear buckling of a frame: element matrices of `ElasticBeam` (Model/BeamElem.lean) in the solution modes `SIM::VIBRATION` and `SIM::BUCKLING`, assembled with six unknowns in each node.

Assumptions on the library: those of Model/Frame.lean; `SIMbase::systemModes` returns pairs of eigenvalues and eigenvectors of the two assembled matrices.
-/
import Verif.Model.Frame

namespace Verif.Frame

open Verif.Beam Verif.BeamElem

variable {K X : Type} [Field K]

/-- Stiffness and mass matrix of a member in an analysis of vibrations (Beam/ElasticBeam.C:514-741; slots of Elasticity/ElasticBase.C:93-98). -/
def vibMember [LinearOrder K] (e : Member K X) : Res (DMat K × DMat K) :=
  (element ⟨1, 0, 2, 0, 0⟩ e.q e.p e.T fun _ => 0).bind fun m => .ok (⟨12, 12, m.A 1⟩, ⟨12, 12, m.A 2⟩)

/-- Material and geometric stiffness matrix of a member in a buckling analysis, for the static displacements `u` (Beam/ElasticBeam.C:514-741; slots of Elasticity/ElasticBase.C:87-91). -/
def buckMember [LinearOrder K] (u : Nat → Nat → K) (e : Member K X) : Res (DMat K × DMat K) :=
  (element ⟨1, 2, 0, 0, 0⟩ e.q e.p e.T fun k => if k ≤ 6 then u e.n1 k else u e.n2 (k - 6)).bind fun m => .ok (⟨12, 12, m.A 1⟩, ⟨12, 12, m.A 2⟩)

/-- The two matrices of all members; a failure ends the assembly (main_LinEl.C:826-830). -/
def pairs (f : Member K X → Res (DMat K × DMat K)) : List (Member K X) → Res (List (Struct.Elm K × DMat K) × List (Struct.Elm K × DMat K))
  | [] => .ok ([], [])
  | e :: l => (f e).bind fun m => (pairs f l).bind fun r => .ok ((conn e, m.1) :: r.1, (conn e, m.2) :: r.2)

end Verif.Frame
