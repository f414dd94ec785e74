/-
Dynamic analysis of cables with large displacements: the forces and mass matrices of Beam/ElasticCable.C, assembled, and states in which the equations of motion are met.

Assumptions on the library: those of Model/CableStatic.lean. There is no damping, the external and internal forces are not stored separately (`intPrm[3]` and `intPrm[4]` are zero), and the element matrices class subtracts the mass
matrix times the accelerations from the forces. The integration in time is not modelled.
-/
import Verif.Model.CableStatic

namespace Verif.CableDynamic

open Verif.Beam (V3)
open Verif.Cable (gravityEntry massEntry)
open Verif.ShellStatic (nodeOf dirOf)
open Verif.CableStatic (Props CPt CElm)

/-- `ElasticCable::evalInt` in dynamic analysis (Beam/ElasticCable.C:119-475): the mass matrix (lines 451-462), and the vector of internal forces and gravitation forces (`eM` is two, `eS` and `iS` are one,
Elasticity/ElasticBase.C:73-84). It fails when the axes cannot be found. The stiffness matrices, as in Model/CableStatic.lean, are left out. -/
noncomputable def evalInt (C : Props) (nen : Nat) (U : Nat → V3 ℝ) (E : DMat ℝ × DVec ℝ) (p : CPt) : Res (DMat ℝ × DVec ℝ) :=
  (Cable.evalInt nen C.EA C.EI p.w p.dX p.ddX p.f U).bind fun q =>
  .ok (⟨E.1.nr, E.1.nc, fun r c => E.1.e r c + massEntry C.lineMass p.w p.N (nodeOf r) (dirOf r) (nodeOf c) (dirOf c)⟩,
    ⟨E.2.n, fun r => E.2.e r + (q.S (nodeOf r) (dirOf r) + gravityEntry C.lineMass p.w p.N C.gravity (nodeOf r) (dirOf r))⟩)

/-- The loop over the integration points (Beam/ElasticCable.C:119-475 for each of them). -/
noncomputable def evalAll (C : Props) (nen : Nat) (U : Nat → V3 ℝ) : List CPt → DMat ℝ × DVec ℝ → Res (DMat ℝ × DVec ℝ)
  | [], E => .ok E
  | p :: l, E => (evalInt C nen U E p).bind fun E => evalAll C nen U l E

/-- The element matrices and vectors of all elements, from zero (Elasticity/NonlinearDriver.C:310 for the assembly in statics; the dynamic one is part of the library). -/
noncomputable def assemble (C : Props) (u : Nat → Nat → ℝ) : List CElm → Res (List (CElm × DMat ℝ × DVec ℝ))
  | [] => .ok []
  | e :: l => (evalAll C e.nen (e.disp u) e.pts (DMat.zero (3 * e.nen) (3 * e.nen), DVec.zero (3 * e.nen))).bind fun A => (assemble C u l).bind fun r => .ok ((e, A) :: r)

/-- The product of the assembled mass matrix and accelerations. -/
noncomputable def inertia (n : Nat) (acc : Nat → Nat → ℝ) (r : List (CElm × DMat ℝ × DVec ℝ)) : Nat → Nat → ℝ := Struct.nodal 3 n (Struct.asmK 3 (r.map fun e => (e.1.conn, e.2.1))) acc

/-- The residual of the equations of motion: loads `F`, forces of the elements, and inertia. -/
noncomputable def residual (n : Nat) (F acc : Nat → Nat → ℝ) (r : List (CElm × DMat ℝ × DVec ℝ)) (a i : Nat) : ℝ := F a i + Struct.asmV 3 (r.map fun e => (e.1.conn, e.2.2)) a i - inertia n acc r a i

/-- Displacements `u` and accelerations `acc` for which the residual vanishes except where the displacements are `fixed`. -/
def Motion (C : Props) (n : Nat) (es : List CElm) (F : Nat → Nat → ℝ) (fixed : Nat → Nat → Prop) (u acc : Nat → Nat → ℝ) : Prop :=
  ∃ r, assemble C u es = .ok r ∧ ∀ a i, a < n → i < 3 → ¬ fixed (a + 1) (i + 1) → residual n F acc r (a + 1) (i + 1) = 0

end Verif.CableDynamic
