/-
The static problem of a frame: members with two nodes and the element matrices of `ElasticBeam` (Model/BeamElem.lean), assembled with six unknowns in each node (Model/Structure.lean).

Assumptions on the library: `fe.XC` holds the positions of the two nodes of the element, and `fe.Te` local axes with the first one from the first node to the second.
-/
import Verif.Model.BeamElem
import Verif.Model.Structure

namespace Verif.Frame

open Verif.Beam Verif.BeamElem

variable {K X : Type} [Field K]

/-- A member: its two nodes, the members of the integrand, the section at the integration point and the local axes (Beam/ElasticBeam.C:268-283, 514-537). -/
structure Member (K X : Type) where
  n1 : Nat
  n2 : Nat
  q : Beam K X
  p : Sect K
  T : Fin 3 → Fin 3 → K

/-- The connectivity of a member. -/
def conn (e : Member K X) : Struct.Elm K := ⟨2, fun s => if s = 1 then e.n1 else e.n2, []⟩

/-- Element matrix and vector of a member in a linear static analysis (Beam/ElasticBeam.C:514-741; matrices and vectors as given out by `initLHSbuffers` and `setMode` for `SIM::STATIC`). -/
def member [LinearOrder K] (e : Member K X) : Res (DMat K × DVec K) :=
  (element ⟨1, 0, 0, 1, 1⟩ e.q e.p e.T fun _ => 0).bind fun m => .ok (⟨12, 12, m.A 1⟩, ⟨12, m.b 1⟩)

/-- All members; a failure ends the assembly (main_LinEl.C:637-638). -/
def members [LinearOrder K] : List (Member K X) → Res (List (Struct.Elm K × DMat K) × List (Struct.Elm K × DVec K))
  | [] => .ok ([], [])
  | e :: l => (member e).bind fun m => (members l).bind fun r => .ok ((conn e, m.1) :: r.1, (conn e, m.2) :: r.2)

end Verif.Frame
