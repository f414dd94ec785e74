/-
Static analysis of trusses of elastic bars with large displacements (Beam/ElasticBar.C): the forces and tangents of the bars, their assembly, and the iterations for equilibrium.

Assumptions on the library: those of Model/Structure.lean and Model/Bar.lean, and those of Model/FDStatic.lean on the iterations. The nodes have three unknowns; the reduction to two of them (Model/Bar.lean) is not used here.
-/
import Verif.Model.Bar
import Verif.Model.Structure

namespace Verif.TrussStatic

open Verif.Beam (V3)

/-- A bar: its end nodes and properties (the two nodes of an element and the members of Beam/ElasticBar.h:93-98). -/
structure Member where
  n1 : Nat
  n2 : Nat
  data : Bar.Data

/-- The nodes of an element. -/
def Member.conn (m : Member) : Struct.Elm ℝ := ⟨2, fun s => if s = 1 then m.n1 else m.n2, []⟩

/-- The values of a node (`fe.XC` and `elmInt.vec.front()` in Beam/ElasticBar.C:122-147). -/
def at3 (Y : Nat → Nat → ℝ) (a : Nat) : V3 ℝ := fun i => Y a (i.val + 1)

/-- The matrices and vectors in a static analysis: one matrix for material and geometric stiffness, one vector for external and internal forces (Elasticity/ElasticBase.C:64-70, Beam/ElasticBar.C:66-71). -/
def slots : Bar.Slots := ⟨1, 1, 0, 1, 1⟩

/-- The tangent stiffness and the forces of a bar with nodal coordinates `X` and displacements `u` (Beam/ElasticBar.C:117-309), from zero. -/
noncomputable def member (X u : Nat → Nat → ℝ) (m : Member) : Res (DMat ℝ × DVec ℝ) :=
  (Bar.evalInt m.data slots (at3 X m.n1) (at3 X m.n2) (some (at3 u m.n1, at3 u m.n2)) ⟨fun _ _ _ => 0, fun _ _ => 0⟩).bind fun E => .ok (⟨6, 6, E.A 1⟩, ⟨6, E.b 1⟩)

/-- The element matrices and vectors of all bars; a failure ends the assembly (Elasticity/NonlinearDriver.C:310). -/
noncomputable def assemble (X u : Nat → Nat → ℝ) : List Member → Res (List (Member × DMat ℝ × DVec ℝ))
  | [] => .ok []
  | m :: l => (member X u m).bind fun A => (assemble X u l).bind fun r => .ok ((m, A) :: r)

/-- The assembled tangent stiffness matrix. -/
noncomputable def tangent (r : List (Member × DMat ℝ × DVec ℝ)) : Nat → Nat → Nat → Nat → ℝ := Struct.asmK 3 (r.map fun e => (e.1.conn, e.2.1))

/-- The residual: the nodal loads `F` (Beam/SIMElasticBar.C:446-459) and the forces of the bars. -/
noncomputable def residual (F : Nat → Nat → ℝ) (r : List (Member × DMat ℝ × DVec ℝ)) (a i : Nat) : ℝ := F a i + Struct.asmV 3 (r.map fun e => (e.1.conn, e.2.2)) a i

/-- One iteration from the displacements `u` to `u'` (Elasticity/NonlinearDriver.C:309-315), with given displacements `g` where `fixed`. -/
def Iterate (n : Nat) (X : Nat → Nat → ℝ) (ms : List Member) (F g : Nat → Nat → ℝ) (fixed : Nat → Nat → Prop) (u u' : Nat → Nat → ℝ) : Prop :=
  ∃ r, assemble X u ms = .ok r ∧ Struct.Solves 3 n (tangent r) (residual F r) (fun a i => g a i - u a i) fixed fun a i => u' a i - u a i

/-- A converged state. -/
def Converged (n : Nat) (X : Nat → Nat → ℝ) (ms : List Member) (F g : Nat → Nat → ℝ) (fixed : Nat → Nat → Prop) (u : Nat → Nat → ℝ) : Prop :=
  ∃ r, assemble X u ms = .ok r ∧ (∀ a i, a < n → i < 3 → ¬ fixed (a + 1) (i + 1) → residual F r (a + 1) (i + 1) = 0) ∧
    ∀ a i, a < n → i < 3 → fixed (a + 1) (i + 1) → u (a + 1) (i + 1) = g (a + 1) (i + 1)

end Verif.TrussStatic
