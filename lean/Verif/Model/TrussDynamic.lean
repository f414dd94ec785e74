/-
Dynamic analysis of trusses of elastic bars with large displacements (Beam/ElasticBar.C): the forces and mass matrices of the bars, their assembly, and states in which the equations of motion are met.

Assumptions on the library: those of Model/TrussStatic.lean. There is no damping, the external and internal forces are not stored separately (`intPrm[3]` and `intPrm[4]` are zero), and the element matrices class
subtracts the mass matrix times the accelerations from the forces. The integration in time is not modelled.
-/
import Verif.Model.TrussStatic

namespace Verif.TrussDynamic

open Verif.TrussStatic (Member at3)

/-- The matrices and vectors in a dynamic analysis: the third matrix for the stiffness, the second for the mass, one vector for external and internal forces (Elasticity/ElasticBase.C:73-84, Beam/ElasticBar.C:77-82). -/
def slots : Bar.Slots := { eKm := 3, eKg := 3, eM := 2, eS := 1, iS := 1 }

/-- The mass matrix and the forces of a bar with nodal coordinates `X` and displacements `u` (Beam/ElasticBar.C:117-309), from zero. -/
noncomputable def member (X u : Nat → Nat → ℝ) (m : Member) : Res (DMat ℝ × DVec ℝ) :=
  (Bar.evalInt m.data slots (at3 X m.n1) (at3 X m.n2) (some (at3 u m.n1, at3 u m.n2)) ⟨fun _ _ _ => 0, fun _ _ => 0⟩).bind fun E => .ok (⟨6, 6, E.A 2⟩, ⟨6, E.b 1⟩)

/-- The element matrices and vectors of all bars; a failure ends the assembly. -/
noncomputable def assemble (X u : Nat → Nat → ℝ) : List Member → Res (List (Member × DMat ℝ × DVec ℝ))
  | [] => .ok []
  | m :: l => (member X u m).bind fun A => (assemble X u l).bind fun r => .ok ((m, A) :: r)

/-- The product of the assembled mass matrix and accelerations. -/
noncomputable def inertia (n : Nat) (acc : Nat → Nat → ℝ) (r : List (Member × DMat ℝ × DVec ℝ)) : Nat → Nat → ℝ := Struct.nodal 3 n (Struct.asmK 3 (r.map fun e => (e.1.conn, e.2.1))) acc

/-- The nodal loads `F` (Beam/SIMElasticBar.C:446-459) and the forces of the bars. -/
noncomputable def forces (F : Nat → Nat → ℝ) (r : List (Member × DMat ℝ × DVec ℝ)) (a i : Nat) : ℝ := F a i + Struct.asmV 3 (r.map fun e => (e.1.conn, e.2.2)) a i

/-- The residual of the equations of motion. -/
noncomputable def residual (n : Nat) (F acc : Nat → Nat → ℝ) (r : List (Member × DMat ℝ × DVec ℝ)) (a i : Nat) : ℝ := forces F r a i - inertia n acc r a i

/-- Displacements `u` and accelerations `acc` for which the residual vanishes except where the displacements are `fixed`. -/
def Motion (n : Nat) (X : Nat → Nat → ℝ) (ms : List Member) (F : Nat → Nat → ℝ) (fixed : Nat → Nat → Prop) (u acc : Nat → Nat → ℝ) : Prop :=
  ∃ r, assemble X u ms = .ok r ∧ ∀ a i, a < n → i < 3 → ¬ fixed (a + 1) (i + 1) → residual n F acc r (a + 1) (i + 1) = 0

end Verif.TrussDynamic
