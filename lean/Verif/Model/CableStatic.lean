/-
Static analysis of cables with large displacements: the integrand of Beam/ElasticCable.C, assembled, and the iterations for equilibrium.

Assumptions on the library: those of Model/Structure.lean and Model/Cable.lean, and those of Model/FDStatic.lean on the iterations. The first vector of an element holds the displacements of its nodes. Loads are given as nodal loads
and gravitation; the end moments, which C46 treats, are not included.
-/
import Verif.Model.Cable
import Verif.Model.ShellStatic

namespace Verif.CableStatic

open Verif.Beam (V3)
open Verif.Cable (Basis gravityEntry)
open Verif.ShellStatic (nodeOf dirOf)

/-- The properties of the cable: stiffnesses, mass per length and gravitation (`EA`, `EI`, `lineMass` and `gravity` in Beam/ElasticCable.h, Beam/ElasticBar.h and Elasticity/ElasticBase.h). -/
structure Props where
  EA : ℝ
  EI : ℝ
  lineMass : ℝ
  gravity : V3 ℝ

/-- An integration point: first and second derivative of the initial position, derivatives and values of the basis functions, and weight (`fe.G`, `fe.dNdX` and `fe.d2NdX2`, `fe.N` and `fe.detJxW` in
Beam/ElasticCable.C:119-148). -/
structure CPt where
  dX : V3 ℝ
  ddX : V3 ℝ
  f : Basis
  N : Nat → ℝ
  w : ℝ

/-- An element: number of nodes, the global node of each of its nodes, and its integration points. -/
structure CElm where
  nen : Nat
  node : Nat → Nat
  pts : List CPt

/-- The nodes of an element. -/
def CElm.conn (e : CElm) : Struct.Elm ℝ := ⟨e.nen, e.node, []⟩

/-- The displacements of the nodes of an element (`elMat.vec.front()` in Beam/ElasticCable.C:137): `u` are the displacements of the nodes of the model. -/
def CElm.disp (e : CElm) (u : Nat → Nat → ℝ) : Nat → V3 ℝ := fun k i => u (e.node (k + 1)) (i.val + 1)

/-- `ElasticCable::evalInt` in static analysis (Beam/ElasticCable.C:119-475): both stiffness matrices are added to the same matrix, and the internal forces and the gravitation forces to the same vector (`eKm`, `eKg`, `eS` and `iS` are one,
Elasticity/ElasticBase.C:63-69, with the default `intPrm[3]`). It fails when the axes cannot be found, and with it the assembly. -/
noncomputable def evalInt (C : Props) (nen : Nat) (U : Nat → V3 ℝ) (E : DMat ℝ × DVec ℝ) (p : CPt) : Res (DMat ℝ × DVec ℝ) :=
  (Cable.evalInt nen C.EA C.EI p.w p.dX p.ddX p.f U).bind fun q =>
  .ok (⟨E.1.nr, E.1.nc, fun r c => E.1.e r c + (q.Km (nodeOf r) (dirOf r) (nodeOf c) (dirOf c) + q.Kg (nodeOf r) (dirOf r) (nodeOf c) (dirOf c))⟩,
    ⟨E.2.n, fun r => E.2.e r + (q.S (nodeOf r) (dirOf r) + gravityEntry C.lineMass p.w p.N C.gravity (nodeOf r) (dirOf r))⟩)

/-- The loop over the integration points (Beam/ElasticCable.C:119-475 for each of them). -/
noncomputable def evalAll (C : Props) (nen : Nat) (U : Nat → V3 ℝ) : List CPt → DMat ℝ × DVec ℝ → Res (DMat ℝ × DVec ℝ)
  | [], E => .ok E
  | p :: l, E => (evalInt C nen U E p).bind fun E => evalAll C nen U l E

/-- The element matrices and vectors of all elements, from zero (Elasticity/NonlinearDriver.C:310). -/
noncomputable def assemble (C : Props) (u : Nat → Nat → ℝ) : List CElm → Res (List (CElm × DMat ℝ × DVec ℝ))
  | [] => .ok []
  | e :: l => (evalAll C e.nen (e.disp u) e.pts (DMat.zero (3 * e.nen) (3 * e.nen), DVec.zero (3 * e.nen))).bind fun A => (assemble C u l).bind fun r => .ok ((e, A) :: r)

/-- The assembled tangent stiffness matrix. -/
noncomputable def tangent (r : List (CElm × DMat ℝ × DVec ℝ)) : Nat → Nat → Nat → Nat → ℝ := Struct.asmK 3 (r.map fun e => (e.1.conn, e.2.1))

/-- The residual: loads `F` and the forces of the elements, which contain minus the internal forces and the weight (Beam/ElasticCable.C:429-471). -/
noncomputable def residual (F : Nat → Nat → ℝ) (r : List (CElm × DMat ℝ × DVec ℝ)) (a i : Nat) : ℝ := F a i + Struct.asmV 3 (r.map fun e => (e.1.conn, e.2.2)) a i

/-- One iteration from the displacements `u` to `u'` (Elasticity/NonlinearDriver.C:309-315), with given displacements `g` where `fixed`. -/
def Iterate (C : Props) (n : Nat) (es : List CElm) (F g : Nat → Nat → ℝ) (fixed : Nat → Nat → Prop) (u u' : Nat → Nat → ℝ) : Prop :=
  ∃ r, assemble C u es = .ok r ∧ Struct.Solves 3 n (tangent r) (residual F r) (fun a i => g a i - u a i) fixed fun a i => u' a i - u a i

/-- A converged state. -/
def Converged (C : Props) (n : Nat) (es : List CElm) (F g : Nat → Nat → ℝ) (fixed : Nat → Nat → Prop) (u : Nat → Nat → ℝ) : Prop :=
  ∃ r, assemble C u es = .ok r ∧ (∀ a i, a < n → i < 3 → ¬ fixed (a + 1) (i + 1) → residual F r (a + 1) (i + 1) = 0) ∧
    ∀ a i, a < n → i < 3 → fixed (a + 1) (i + 1) → u (a + 1) (i + 1) = g (a + 1) (i + 1)

end Verif.CableStatic
