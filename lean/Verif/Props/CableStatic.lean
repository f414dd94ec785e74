/-
Property C144: converged states of cables with large displacements are in equilibrium, do not depend on orientation, and are stationary points of the potential; the tangent matrix is not always the derivative.
-/
import Verif.Props.NLShellStatic
import Verif.Model.CableStatic

set_option linter.unusedSectionVars false
set_option linter.unusedSimpArgs false
set_option linter.unusedVariables false

namespace Verif.CableStatic

open Verif.Beam (V3)
open Verif.Cable (Basis Point Axes evalLocalAxes energy push current gravityEntry)
open Verif.Shell (rot Rotation)
open Verif.Bar (len cross)
open Verif.ShellStatic (nodeOf dirOf nodeOf_eq dirOf_eq)
open Verif.Struct (asmV asmK asmV_balance InBalance dotN loc)
open Verif.NLShellStatic (list_zero sum_list mul_list sub_list add_list deriv_sum one_term turned move)

/-! ### Specification -/

/-- The basis functions of a point sum up to one, their derivatives to zero, the derivatives of the initial position are the ones interpolated from the nodes at `X`, and the initial axes exist. -/
structure Sound (X : Nat → Nat → ℝ) (e : CElm) (p : CPt) : Prop where
  zero : ∑ k ∈ Finset.range e.nen, p.N k = 1
  one : ∑ k ∈ Finset.range e.nen, p.f.dN k = 0
  two : ∑ k ∈ Finset.range e.nen, p.f.d2N k = 0
  first : ∀ i : Fin 3, p.dX i = ∑ k ∈ Finset.range e.nen, p.f.dN k * X (e.node (k + 1)) (i.val + 1)
  second : ∀ i : Fin 3, p.ddX i = ∑ k ∈ Finset.range e.nen, p.f.d2N k * X (e.node (k + 1)) (i.val + 1)
  axes : ∃ A, evalLocalAxes p.dX p.ddX = .ok A

/-- The nodes of the elements are nodes of the model, and the integration points are sound. -/
def Good (n : Nat) (X : Nat → Nat → ℝ) (es : List CElm) : Prop :=
  ∀ e ∈ es, (∀ s, s < e.nen → 1 ≤ e.node (s + 1) ∧ e.node (s + 1) ≤ n) ∧ ∀ p ∈ e.pts, Sound X e p

/-- The cable is curved in each integration point when its nodes are at `x`. -/
def Curved (es : List CElm) (x : Nat → Nat → ℝ) : Prop :=
  ∀ e ∈ es, ∀ p ∈ e.pts, 1 / 1000000000000 ≤ len (cross (fun i => ∑ k ∈ Finset.range e.nen, p.f.dN k * x (e.node (k + 1)) (i.val + 1))
    (fun i => ∑ k ∈ Finset.range e.nen, p.f.d2N k * x (e.node (k + 1)) (i.val + 1)))

/-- The nodes of an element are different. -/
def Distinct (es : List CElm) : Prop := ∀ e ∈ es, ∀ s t, s < e.nen → t < e.nen → e.node (s + 1) = e.node (t + 1) → s = t

/-- The weight of the cable as nodal loads. -/
noncomputable def weight (C : Props) (es : List CElm) (a : Nat) (i : Fin 3) : ℝ :=
  (es.map fun e => ∑ s ∈ Finset.range e.nen, if e.node (s + 1) = a then (e.pts.map fun p => p.N s * (C.lineMass * p.w * C.gravity i)).sum else 0).sum

/-- The unit normal of the initial cable. -/
noncomputable def normal (p : CPt) : V3 ℝ := match evalLocalAxes p.dX p.ddX with
  | .ok A => A.N
  | _ => 0

/-- The strain energy of the cable as in C45, minus the work of the weight. -/
noncomputable def energyAll (C : Props) (es : List CElm) (u : Nat → Nat → ℝ) : ℝ :=
  (es.map fun e => (e.pts.map fun p => energy e.nen C.EA C.EI p.w p.dX p.ddX (normal p) p.f (fun k i => u (e.node (k + 1)) (i.val + 1)) -
    C.lineMass * p.w * ∑ i : Fin 3, C.gravity i * ∑ k ∈ Finset.range e.nen, p.N k * u (e.node (k + 1)) (i.val + 1)).sum).sum

/-! ### Assembly -/

/-- Result of an integration point. -/
noncomputable def out (C : Props) (e : CElm) (p : CPt) (U : Nat → V3 ℝ) : Point :=
  match Cable.evalInt e.nen C.EA C.EI p.w p.dX p.ddX p.f U with
  | .ok r => r
  | _ => ⟨fun _ _ => 0, fun _ _ _ _ => 0, fun _ _ _ _ => 0⟩

theorem out_eq (C : Props) (e : CElm) (p : CPt) (U : Nat → V3 ℝ) (r) (h : Cable.evalInt e.nen C.EA C.EI p.w p.dX p.ddX p.f U = .ok r) : out C e p U = r := by
  unfold out; rw [h]

/-- The point can be evaluated. -/
def Works (C : Props) (es : List CElm) (u : Nat → Nat → ℝ) : Prop :=
  ∀ e ∈ es, ∀ p ∈ e.pts, Cable.evalInt e.nen C.EA C.EI p.w p.dX p.ddX p.f (e.disp u) = .ok (out C e p (e.disp u))

theorem works (C : Props) (n : Nat) (X : Nat → Nat → ℝ) (es : List CElm) (h : Good n X es) (u : Nat → Nat → ℝ) (hu : Curved es fun a i => X a i + u a i) : Works C es u := by
  intro e he p hp
  have hs := (h e he).2 p hp
  obtain ⟨A, hA⟩ := hs.axes
  obtain ⟨q, h1, -⟩ := Cable.C129_cable_balance e.nen C.EA C.EI p.w p.dX p.ddX p.f (e.disp X) (e.disp u) A hs.one hs.two hs.first hs.second hA _ rfl (hu e he p hp)
  rw [out_eq C e p _ _ h1]; exact h1

noncomputable def force (C : Props) (e : CElm) (U : Nat → V3 ℝ) (k : Nat) (d : Fin 3) : ℝ := (e.pts.map fun p => (out C e p U).S k d).sum
noncomputable def grav (C : Props) (e : CElm) (k : Nat) (d : Fin 3) : ℝ := (e.pts.map fun p => gravityEntry C.lineMass p.w p.N C.gravity k d).sum
noncomputable def stiff (C : Props) (e : CElm) (U : Nat → V3 ℝ) (k : Nat) (d : Fin 3) (l : Nat) (c : Fin 3) : ℝ := (e.pts.map fun p => (out C e p U).Km k d l c + (out C e p U).Kg k d l c).sum

noncomputable def vecS (C : Props) (e : CElm) (u : Nat → Nat → ℝ) : DVec ℝ := ⟨3 * e.nen, fun r => force C e (e.disp u) (nodeOf r) (dirOf r)⟩
noncomputable def vecE (C : Props) (e : CElm) (u : Nat → Nat → ℝ) : DVec ℝ := ⟨3 * e.nen, fun r => force C e (e.disp u) (nodeOf r) (dirOf r) + grav C e (nodeOf r) (dirOf r)⟩
noncomputable def matE (C : Props) (e : CElm) (u : Nat → Nat → ℝ) : DMat ℝ := ⟨3 * e.nen, 3 * e.nen, fun r c => stiff C e (e.disp u) (nodeOf r) (dirOf r) (nodeOf c) (dirOf c)⟩

theorem evalAll_ok (C : Props) (e : CElm) (U : Nat → V3 ℝ) (pts : List CPt) (h : ∀ p ∈ pts, Cable.evalInt e.nen C.EA C.EI p.w p.dX p.ddX p.f U = .ok (out C e p U)) (E : DMat ℝ × DVec ℝ) :
    evalAll C e.nen U pts E = .ok (⟨E.1.nr, E.1.nc, fun r c => E.1.e r c + (pts.map fun p => (out C e p U).Km (nodeOf r) (dirOf r) (nodeOf c) (dirOf c) + (out C e p U).Kg (nodeOf r) (dirOf r) (nodeOf c) (dirOf c)).sum⟩,
      ⟨E.2.n, fun r => E.2.e r + (pts.map fun p => (out C e p U).S (nodeOf r) (dirOf r) + gravityEntry C.lineMass p.w p.N C.gravity (nodeOf r) (dirOf r)).sum⟩) := by
  induction pts generalizing E with
  | nil => simp [evalAll]
  | cons p l ih =>
    rw [evalAll, evalInt, h p (by simp)]
    simp only [Res.bind]
    rw [ih fun p hp => h p (by simp [hp])]
    simp only [List.map_cons, List.sum_cons, add_assoc]

theorem assemble_ok (C : Props) (es : List CElm) (u : Nat → Nat → ℝ) (h : Works C es u) : assemble C u es = .ok (es.map fun e => (e, matE C e u, vecE C e u)) := by
  induction es with
  | nil => rfl
  | cons e l ih =>
    rw [assemble, evalAll_ok C e _ _ (h e (by simp)), ih fun e he => h e (by simp [he])]
    simp only [Res.bind, matE, vecE, force, grav, stiff, DMat.zero, DVec.zero, add_list, zero_add, List.map_cons]

theorem split_asm (C : Props) (es : List CElm) (u : Nat → Nat → ℝ) (a : Nat) (i : Fin 3) :
    asmV 3 ((es.map fun e => (e, matE C e u, vecE C e u)).map fun e => (e.1.conn, e.2.2)) a (i.val + 1) =
      (es.map fun e => ∑ s ∈ Finset.range e.nen, if e.node (s + 1) = a then force C e (e.disp u) s i else 0).sum +
      (es.map fun e => ∑ s ∈ Finset.range e.nen, if e.node (s + 1) = a then grav C e s i else 0).sum := by
  unfold asmV
  rw [List.map_map, List.map_map, add_list]
  refine congrArg List.sum (List.map_congr_left fun e _ => ?_)
  simp only [Function.comp, CElm.conn, vecE]
  rw [← Finset.sum_add_distrib]
  refine Finset.sum_congr rfl fun s _ => ?_
  rw [← add_assoc, nodeOf_eq s i i.isLt, dirOf_eq s i i.isLt]
  by_cases hc : e.node (s + 1) = a
  · rw [if_pos hc, if_pos hc]; exact if_pos hc
  · rw [if_neg hc, if_neg hc, add_zero]; exact if_neg hc

theorem tangent_eq (C : Props) (es : List CElm) (u : Nat → Nat → ℝ) (a b : Nat) (i j : Fin 3) :
    tangent (es.map fun e => (e, matE C e u, vecE C e u)) a (i.val + 1) b (j.val + 1) =
      (es.map fun e => ∑ s ∈ Finset.range e.nen, ∑ t ∈ Finset.range e.nen, if e.node (s + 1) = a ∧ e.node (t + 1) = b then stiff C e (e.disp u) s i t j else 0).sum := by
  unfold tangent asmK
  rw [List.map_map, List.map_map]
  refine congrArg List.sum (List.map_congr_left fun e _ => ?_)
  simp only [Function.comp, CElm.conn, matE]
  refine Finset.sum_congr rfl fun s _ => Finset.sum_congr rfl fun t _ => ?_
  rw [← add_assoc, ← add_assoc, nodeOf_eq s i i.isLt, dirOf_eq s i i.isLt, nodeOf_eq t j j.isLt, dirOf_eq t j j.isLt]
  by_cases hc : e.node (s + 1) = a ∧ e.node (t + 1) = b
  · exact (if_pos hc).trans (if_pos hc).symm
  · exact (if_neg hc).trans (if_neg hc).symm

theorem asm_S (C : Props) (es : List CElm) (u : Nat → Nat → ℝ) (a : Nat) (i : Fin 3) :
    asmV 3 (es.map fun e => (e.conn, vecS C e u)) a (i.val + 1) =
      (es.map fun e => ∑ s ∈ Finset.range e.nen, if e.node (s + 1) = a then force C e (e.disp u) s i else 0).sum := by
  unfold asmV
  rw [List.map_map]
  refine congrArg List.sum (List.map_congr_left fun e _ => ?_)
  simp only [Function.comp, CElm.conn, vecS]
  refine Finset.sum_congr rfl fun s _ => ?_
  rw [← add_assoc, nodeOf_eq s i i.isLt, dirOf_eq s i i.isLt]
  by_cases hc : e.node (s + 1) = a
  · exact (if_pos hc).trans (if_pos hc).symm
  · exact (if_neg hc).trans (if_neg hc).symm

theorem grav_eq (C : Props) (hm : 0 ≤ C.lineMass) (e : CElm) (s : Nat) (i : Fin 3) : grav C e s i = (e.pts.map fun p => p.N s * (C.lineMass * p.w * C.gravity i)).sum := by
  unfold grav
  refine congrArg List.sum (List.map_congr_left fun p _ => ?_)
  unfold gravityEntry
  split_ifs with h
  · ring
  · have : C.lineMass = 0 := le_antisymm (not_lt.mp h) hm
    rw [this]; ring

/-- The residual: loads, weight and internal forces. -/
theorem residual_eq (C : Props) (hm : 0 ≤ C.lineMass) (F : Nat → Nat → ℝ) (es : List CElm) (u : Nat → Nat → ℝ) (a : Nat) (i : Fin 3) :
    residual F (es.map fun e => (e, matE C e u, vecE C e u)) a (i.val + 1) = F a (i.val + 1) + weight C es a i +
      (es.map fun e => ∑ s ∈ Finset.range e.nen, if e.node (s + 1) = a then force C e (e.disp u) s i else 0).sum := by
  unfold residual weight
  rw [split_asm]
  simp only [grav_eq C hm]
  ring

/-! ### Equilibrium -/

theorem point_balance (C : Props) (n : Nat) (X : Nat → Nat → ℝ) (es : List CElm) (h : Good n X es) (u : Nat → Nat → ℝ) (hu : Curved es fun a i => X a i + u a i) (e : CElm) (he : e ∈ es) (p : CPt) (hp : p ∈ e.pts) (i j : Fin 3) :
    (∑ k ∈ Finset.range e.nen, (out C e p (e.disp u)).S k i) = 0 ∧
    (∑ k ∈ Finset.range e.nen, ((e.disp X k i + e.disp u k i) * (out C e p (e.disp u)).S k j - (e.disp X k j + e.disp u k j) * (out C e p (e.disp u)).S k i)) = 0 := by
  have hs := (h e he).2 p hp
  obtain ⟨A, hA⟩ := hs.axes
  obtain ⟨q, h1, h2⟩ := Cable.C129_cable_balance e.nen C.EA C.EI p.w p.dX p.ddX p.f (e.disp X) (e.disp u) A hs.one hs.two hs.first hs.second hA _ rfl (hu e he p hp)
  rw [out_eq C e p _ _ h1]
  refine ⟨(h2 i).1, ?_⟩
  have a0 := (h2 0).2
  have a1 := (h2 1).2
  have a2 : ∑ k ∈ Finset.range e.nen, ((e.disp X k 0 + e.disp u k 0) * q.S k 1 - (e.disp X k 1 + e.disp u k 1) * q.S k 0) = 0 := (h2 2).2
  simp only [Matrix.cons_val_zero, Matrix.cons_val_one, Matrix.cons_val_two, Matrix.cons_val, Finset.sum_sub_distrib] at a0 a1 a2
  simp only [Finset.sum_sub_distrib]
  fin_cases i <;> fin_cases j <;> simp only [Fin.zero_eta, Fin.mk_one, Fin.reduceFinMk, Fin.isValue] <;> linarith

theorem vecS_balanced (C : Props) (n : Nat) (X : Nat → Nat → ℝ) (es : List CElm) (h : Good n X es) (u : Nat → Nat → ℝ) (hu : Curved es fun a i => X a i + u a i) (e : CElm) (he : e ∈ es) :
    Finite.Balanced 3 e.nen (loc e.conn fun a i => X a i + u a i) (vecS C e u) := by
  have hv : ∀ s i (hi : i < 3), (vecS C e u).e (3 * s + (i + 1)) = force C e (e.disp u) s ⟨i, hi⟩ := fun s i hi => by
    simp only [vecS]; rw [← add_assoc, nodeOf_eq s i hi, dirOf_eq s i hi]
  refine ⟨fun i i1 i2 => ?_, fun i j i1 i2 j1 j2 => ?_⟩
  · obtain ⟨i, rfl⟩ : ∃ k, i = k + 1 := ⟨i - 1, by omega⟩
    simp only [hv _ i (by omega), force]
    rw [sum_list e.nen e.pts fun k p => (out C e p (e.disp u)).S k ⟨i, by omega⟩]
    exact list_zero _ _ fun p hp => (point_balance C n X es h u hu e he p hp _ 0).1
  · obtain ⟨i, rfl⟩ : ∃ k, i = k + 1 := ⟨i - 1, by omega⟩
    obtain ⟨j, rfl⟩ : ∃ k, j = k + 1 := ⟨j - 1, by omega⟩
    simp only [hv _ i (by omega), hv _ j (by omega), force, mul_list, sub_list]
    rw [sum_list e.nen e.pts fun k p => loc e.conn (fun a i => X a i + u a i) (k + 1) (i + 1) * (out C e p (e.disp u)).S k ⟨j, by omega⟩ -
      loc e.conn (fun a i => X a i + u a i) (k + 1) (j + 1) * (out C e p (e.disp u)).S k ⟨i, by omega⟩]
    exact list_zero _ _ fun p hp => (point_balance C n X es h u hu e he p hp ⟨i, by omega⟩ ⟨j, by omega⟩).2

/-- C144 (equilibrium): in a converged state in which the cable is curved, the reactions, minus the residual, vanish where nothing is held, and together with the loads and the weight they have no resultant,
and no moment about any point, at the deformed positions. Missing: states in which the cable is straight in some point. -/
theorem C144_balance_partial (C : Props) (hm : 0 ≤ C.lineMass) (n : Nat) (X : Nat → Nat → ℝ) (es : List CElm) (h : Good n X es) (F g : Nat → Nat → ℝ) (fixed : Nat → Nat → Prop) (u : Nat → Nat → ℝ)
    (hu : Curved es fun a i => X a i + u a i) (hc : Converged C n es F g fixed u) :
    ∃ r, assemble C u es = .ok r ∧ (∀ a i, a < n → i < 3 → ¬ fixed (a + 1) (i + 1) → -residual F r (a + 1) (i + 1) = 0) ∧
      (∀ i : Fin 3, ∑ a ∈ Finset.range n, (-residual F r (a + 1) (i.val + 1) + F (a + 1) (i.val + 1) + weight C es (a + 1) i) = 0) ∧
      ∀ (c : Fin 3 → ℝ) (i j : Fin 3), ∑ a ∈ Finset.range n,
        ((X (a + 1) (i.val + 1) + u (a + 1) (i.val + 1) - c i) * (-residual F r (a + 1) (j.val + 1) + F (a + 1) (j.val + 1) + weight C es (a + 1) j) -
        (X (a + 1) (j.val + 1) + u (a + 1) (j.val + 1) - c j) * (-residual F r (a + 1) (i.val + 1) + F (a + 1) (i.val + 1) + weight C es (a + 1) i)) = 0 := by
  obtain ⟨r, hr, h1, -⟩ := hc
  refine ⟨r, hr, fun a i ha hi hf => by rw [h1 a i ha hi hf, neg_zero], ?_⟩
  rw [assemble_ok C es u (works C n X es h u hu)] at hr
  cases hr
  have hb := asmV_balance 3 n (fun a i => X a i + u a i) (es.map fun e => (e.conn, vecS C e u)) (fun q hq => by
    simp only [List.mem_map] at hq
    obtain ⟨e, he, rfl⟩ := hq
    exact (h e he).1) (fun q hq => by
    simp only [List.mem_map] at hq
    obtain ⟨e, he, rfl⟩ := hq
    exact vecS_balanced C n X es h u hu e he)
  have e0 : ∀ a (i : Fin 3), -residual F (es.map fun e => (e, matE C e u, vecE C e u)) a (i.val + 1) + F a (i.val + 1) + weight C es a i = -asmV 3 (es.map fun e => (e.conn, vecS C e u)) a (i.val + 1) := by
    intro a i; rw [residual_eq C hm, asm_S]; ring
  simp only [e0]
  refine ⟨fun i => by rw [Finset.sum_neg_distrib, hb.1 (i.val + 1) (by omega) (by omega), neg_zero], fun c i j => ?_⟩
  have := hb.2 (fun k => if hk : 1 ≤ k ∧ k ≤ 3 then c ⟨k - 1, by omega⟩ else 0) (i.val + 1) (j.val + 1) (by omega) (by omega) (by omega) (by omega)
  have c1 : ∀ i : Fin 3, (if hk : 1 ≤ i.val + 1 ∧ i.val + 1 ≤ 3 then c ⟨i.val + 1 - 1, by omega⟩ else 0) = c i := fun i => by
    rw [dif_pos ⟨by omega, by omega⟩]; rfl
  rw [c1, c1] at this
  rw [← neg_zero, ← this, ← Finset.sum_neg_distrib]
  exact Finset.sum_congr rfl fun a _ => by ring

/-- Sum of nodal values of elements. -/
theorem scatter (n : Nat) (es : List CElm) (h : ∀ e ∈ es, ∀ s, s < e.nen → 1 ≤ e.node (s + 1) ∧ e.node (s + 1) ≤ n) (v : CElm → Nat → ℝ) (z : Nat → ℝ) :
    ∑ a ∈ Finset.range n, z (a + 1) * (es.map fun e => ∑ s ∈ Finset.range e.nen, if e.node (s + 1) = a + 1 then v e s else 0).sum =
      (es.map fun e => ∑ s ∈ Finset.range e.nen, z (e.node (s + 1)) * v e s).sum := by
  simp only [mul_list]
  rw [sum_list n es fun a e => z (a + 1) * ∑ s ∈ Finset.range e.nen, if e.node (s + 1) = a + 1 then v e s else 0]
  refine congrArg List.sum (List.map_congr_left fun e he => ?_)
  simp only [Finset.mul_sum]
  rw [Finset.sum_comm]
  refine Finset.sum_congr rfl fun s hs => ?_
  obtain ⟨n1, n2⟩ := h e he s (Finset.mem_range.mp hs)
  rw [Finset.sum_eq_single (e.node (s + 1) - 1)]
  · rw [Nat.sub_add_cancel n1, if_pos rfl]
  · intro a _ ha
    rw [if_neg (by omega), mul_zero]
  · intro ha; exact absurd (Finset.mem_range.mpr (by omega)) ha

/-- C144 (weight): the nodal loads of the weight have the resultant mass times gravitation, summed over the integration points, and its moment at the deformed position of the points. -/
theorem C144_weight (C : Props) (n : Nat) (X : Nat → Nat → ℝ) (es : List CElm) (h : Good n X es) (x : Nat → Nat → ℝ) (i j : Fin 3) :
    ∑ a ∈ Finset.range n, weight C es (a + 1) i = (es.map fun e => (e.pts.map fun p => C.lineMass * p.w * C.gravity i).sum).sum ∧
    ∑ a ∈ Finset.range n, x (a + 1) (j.val + 1) * weight C es (a + 1) i =
      (es.map fun e => (e.pts.map fun p => (∑ k ∈ Finset.range e.nen, p.N k * x (e.node (k + 1)) (j.val + 1)) * (C.lineMass * p.w * C.gravity i)).sum).sum := by
  have key := fun z => scatter n es (fun e he => (h e he).1) (fun e s => (e.pts.map fun p => p.N s * (C.lineMass * p.w * C.gravity i)).sum) z
  constructor
  · have := key fun _ => 1
    simp only [one_mul] at this
    unfold weight
    rw [this]
    refine congrArg List.sum (List.map_congr_left fun e he => ?_)
    rw [sum_list e.nen e.pts fun s p => p.N s * (C.lineMass * p.w * C.gravity i)]
    refine congrArg List.sum (List.map_congr_left fun p hp => ?_)
    rw [← Finset.sum_mul, ((h e he).2 p hp).zero, one_mul]
  · have := key fun a => x a (j.val + 1)
    unfold weight
    rw [this]
    refine congrArg List.sum (List.map_congr_left fun e he => ?_)
    simp only [mul_list]
    rw [sum_list e.nen e.pts fun s p => x (e.node (s + 1)) (j.val + 1) * (p.N s * (C.lineMass * p.w * C.gravity i))]
    refine congrArg List.sum (List.map_congr_left fun p hp => ?_)
    rw [Finset.sum_mul]
    exact Finset.sum_congr rfl fun s _ => by ring

/-! ### Orientation -/

theorem current_congr (nen : Nat) (dX : V3 ℝ) (dN : Nat → ℝ) (U V : Nat → V3 ℝ) (h : ∀ k, k < nen → U k = V k) : current nen dX dN U = current nen dX dN V := by
  funext i
  unfold current
  congr 1
  exact Finset.sum_congr rfl fun k hk => by rw [h k (Finset.mem_range.mp hk)]

theorem evalInt_congr (C : Props) (e : CElm) (p : CPt) (U V : Nat → V3 ℝ) (h : ∀ k, k < e.nen → U k = V k) :
    Cable.evalInt e.nen C.EA C.EI p.w p.dX p.ddX p.f U = Cable.evalInt e.nen C.EA C.EI p.w p.dX p.ddX p.f V := by
  unfold Cable.evalInt
  rw [current_congr e.nen p.dX p.f.dN U V h, current_congr e.nen p.ddX p.f.d2N U V h]

theorem out_congr (C : Props) (e : CElm) (p : CPt) (U V : Nat → V3 ℝ) (h : ∀ k, k < e.nen → U k = V k) : out C e p U = out C e p V := by
  unfold out; rw [evalInt_congr C e p U V h]

/-- A point of the turned cable. -/
theorem point_turn (C : Props) (n : Nat) (X : Nat → Nat → ℝ) (es : List CElm) (h : Good n X es) (u u' : Nat → Nat → ℝ) (r : Fin 3 → V3 ℝ) (c : V3 ℝ) (hr : Rotation r)
    (hY : ∀ a, a < n → ∀ i : Fin 3, X (a + 1) (i.val + 1) + u' (a + 1) (i.val + 1) = c i + turned r (fun k => X (a + 1) k + u (a + 1) k) i)
    (hu : Curved es fun a i => X a i + u a i) (e : CElm) (he : e ∈ es) (p : CPt) (hp : p ∈ e.pts) :
    Cable.evalInt e.nen C.EA C.EI p.w p.dX p.ddX p.f (e.disp u') = .ok (out C e p (e.disp u')) ∧
    ∀ k d, (out C e p (e.disp u')).S k d = ∑ b, r b d * (out C e p (e.disp u)).S k b := by
  have hs := (h e he).2 p hp
  obtain ⟨A, hA⟩ := hs.axes
  obtain ⟨q, q', h1, h2, h3, -⟩ := Cable.C129_cable_turn e.nen C.EA C.EI p.w p.dX p.ddX p.f (e.disp X) (e.disp u) (fun k i => c i + rot r (fun j => e.disp X k j + e.disp u k j) i - e.disp X k i) A c r hr
    hs.one hs.two hs.first hs.second hA _ rfl (fun k i => by ring) (hu e he p hp)
  have hc : ∀ k, k < e.nen → e.disp u' k = fun i => c i + rot r (fun j => e.disp X k j + e.disp u k j) i - e.disp X k i := by
    intro k hk
    obtain ⟨n1, n2⟩ := (h e he).1 k hk
    funext i
    have := hY (e.node (k + 1) - 1) (by omega) i
    rw [Nat.sub_add_cancel n1] at this
    simp only [turned, Fin.sum_univ_three] at this
    simp only [CElm.disp, rot]
    simp only [Fin.isValue, Fin.val_zero, Fin.val_one, Fin.val_two] at this ⊢
    linarith
  have h2' : Cable.evalInt e.nen C.EA C.EI p.w p.dX p.ddX p.f (e.disp u') = .ok q' := by
    rw [evalInt_congr C e p _ _ hc]; exact h2
  rw [out_eq C e p _ _ h2', out_eq C e p _ _ h1]
  exact ⟨h2', h3⟩

theorem turn_list {α : Type} (r : Fin 3 → V3 ℝ) (i : Fin 3) (l : List α) (g : α → ℝ) (v : α → Fin 3 → ℝ) (h : ∀ p ∈ l, g p = ∑ b, r b i * v p b) :
    (l.map g).sum = ∑ b, r b i * (l.map fun p => v p b).sum := by
  induction l with
  | nil => simp
  | cons p l ih =>
    simp only [List.map_cons, List.sum_cons, mul_add, Finset.sum_add_distrib]
    rw [ih fun p hp => h p (by simp [hp]), h p (by simp)]

theorem turn_nodes (r : Fin 3 → V3 ℝ) (i : Fin 3) (es : List CElm) (a : Nat) (g : CElm → Nat → ℝ) (v : CElm → Nat → Fin 3 → ℝ) (h : ∀ e ∈ es, ∀ s, g e s = ∑ b, r b i * v e s b) :
    (es.map fun e => ∑ s ∈ Finset.range e.nen, if e.node (s + 1) = a then g e s else 0).sum =
      ∑ b, r b i * (es.map fun e => ∑ s ∈ Finset.range e.nen, if e.node (s + 1) = a then v e s b else 0).sum := by
  refine turn_list r i es _ (fun e b => ∑ s ∈ Finset.range e.nen, if e.node (s + 1) = a then v e s b else 0) fun e he => ?_
  simp only [Finset.mul_sum]
  rw [Finset.sum_comm]
  refine Finset.sum_congr rfl fun s _ => ?_
  by_cases hc : e.node (s + 1) = a
  · simp only [hc, if_true]; exact h e he s
  · simp [hc]

theorem weight_turn (C : Props) (es : List CElm) (r : Fin 3 → V3 ℝ) (a : Nat) (i : Fin 3) : weight { C with gravity := rot r C.gravity } es a i = ∑ b, r b i * weight C es a b := by
  have key := turn_nodes r i es a (fun e s => (e.pts.map fun p => p.N s * (C.lineMass * p.w * rot r C.gravity i)).sum)
    (fun e s b => (e.pts.map fun p => p.N s * (C.lineMass * p.w * C.gravity b)).sum) fun e _ s => by
    have := turn_list r i e.pts (fun p => p.N s * (C.lineMass * p.w * rot r C.gravity i)) (fun p b => p.N s * (C.lineMass * p.w * C.gravity b)) fun p _ => by
      simp only [rot, Fin.sum_univ_three]
      ring
    simp only [this]
  simp only [weight]
  rw [key]

/-- C144 (orientation): when a curved cable is turned and moved as a rigid body and the loads and the gravitation are turned alike, the residual is turned; so a state is converged with held nodes if and only if the turned state is. -/
theorem C144_turn (C : Props) (hm : 0 ≤ C.lineMass) (n : Nat) (X : Nat → Nat → ℝ) (es : List CElm) (h : Good n X es) (u u' F F' : Nat → Nat → ℝ) (r : Fin 3 → V3 ℝ) (c : V3 ℝ) (hr : Rotation r)
    (hY : ∀ a, a < n → ∀ i : Fin 3, X (a + 1) (i.val + 1) + u' (a + 1) (i.val + 1) = c i + turned r (fun k => X (a + 1) k + u (a + 1) k) i)
    (hF : ∀ a, a < n → ∀ i : Fin 3, F' (a + 1) (i.val + 1) = turned r (F (a + 1)) i) (hu : Curved es fun a i => X a i + u a i) :
    (∃ s s', assemble C u es = .ok s ∧ assemble { C with gravity := rot r C.gravity } u' es = .ok s' ∧
      ∀ a, a < n → ∀ i : Fin 3, residual F' s' (a + 1) (i.val + 1) = turned r (residual F s (a + 1)) i) ∧
    ∀ held : Nat → Prop, Converged C n es F u (fun a _ => held a) u ↔ Converged { C with gravity := rot r C.gravity } n es F' u' (fun a _ => held a) u' := by
  obtain ⟨C', hC'⟩ : ∃ C' : Props, C' = { C with gravity := rot r C.gravity } := ⟨_, rfl⟩
  rw [← hC']
  have hout : ∀ e p U, out C' e p U = out C e p U := fun e p U => by subst hC'; rfl
  have hpt := point_turn C n X es h u u' r c hr hY hu
  have hw : Works C es u := works C n X es h u hu
  have hw' : Works C' es u' := by
    intro e he p hp
    have := (hpt e he p hp).1
    rw [hout]; subst hC'; exact this
  have key : ∀ a, a < n → ∀ i : Fin 3, residual F' (es.map fun e => (e, matE C' e u', vecE C' e u')) (a + 1) (i.val + 1) = turned r (residual F (es.map fun e => (e, matE C e u, vecE C e u)) (a + 1)) i := by
    intro a ha i
    have hm' : 0 ≤ C'.lineMass := by subst hC'; exact hm
    rw [residual_eq C' hm' F' es u' (a + 1) i, hF a ha i]
    unfold turned
    simp only [residual_eq C hm F es u (a + 1), mul_add, Finset.sum_add_distrib]
    have w1 : weight C' es (a + 1) i = ∑ b, r b i * weight C es (a + 1) b := by rw [hC']; exact weight_turn C es r (a + 1) i
    have w2 := turn_nodes r i es (a + 1) (fun e s => force C' e (e.disp u') s i) (fun e s b => force C e (e.disp u) s b) fun e he s => by
      refine turn_list r i e.pts (fun p => (out C' e p (e.disp u')).S s i) (fun p b => (out C e p (e.disp u)).S s b) fun p hp => ?_
      rw [hout]
      exact (hpt e he p hp).2 s i
    rw [w1, w2]
  refine ⟨⟨_, _, assemble_ok C es u hw, assemble_ok C' es u' hw', key⟩, fun held => ⟨fun hc => ?_, fun hc => ?_⟩⟩
  · obtain ⟨s, h1, h2, -⟩ := hc
    rw [assemble_ok C es u hw] at h1
    cases h1
    refine ⟨_, assemble_ok C' es u' hw', fun a i ha hi hf => ?_, fun _ _ _ _ _ => rfl⟩
    rw [key a ha ⟨i, hi⟩]
    exact Finset.sum_eq_zero fun b _ => by rw [h2 a b ha b.isLt hf, mul_zero]
  · obtain ⟨s, h1, h2, -⟩ := hc
    rw [assemble_ok C' es u' hw'] at h1
    cases h1
    refine ⟨_, assemble_ok C es u hw, fun a i ha hi hf => ?_, fun _ _ _ _ _ => rfl⟩
    have hz : ∀ i : Fin 3, turned r (residual F (es.map fun e => (e, matE C e u, vecE C e u)) (a + 1)) i = 0 := fun i => by
      rw [← key a ha i]; exact h2 a i ha i.isLt hf
    obtain ⟨v, hv⟩ : ∃ v : Nat → ℝ, v = residual F (es.map fun e => (e, matE C e u, vecE C e u)) (a + 1) := ⟨_, rfl⟩
    rw [← hv] at hz ⊢
    have hr' := hr
    obtain ⟨r00, r11, r22, r01, r02, r12, -⟩ := hr'
    have z0 := hz 0
    have z1 := hz 1
    have z2 := hz 2
    simp only [turned, Fin.sum_univ_three, Fin.isValue, Fin.val_zero, Fin.val_one, Fin.val_two] at z0 z1 z2
    simp only [Cable.dot] at r00 r11 r22 r01 r02 r12
    have w0 : v 1 = 0 := by linear_combination r 0 0 * z0 + r 0 1 * z1 + r 0 2 * z2 - v 1 * r00 - v 2 * r01 - v 3 * r02
    have w1 : v 2 = 0 := by linear_combination r 1 0 * z0 + r 1 1 * z1 + r 1 2 * z2 - v 1 * r01 - v 2 * r11 - v 3 * r12
    have w2 : v 3 = 0 := by linear_combination r 2 0 * z0 + r 2 1 * z1 + r 2 2 * z2 - v 1 * r02 - v 2 * r12 - v 3 * r22
    interval_cases i
    · exact w0
    · exact w1
    · exact w2

/-- C144 (rigid motions): a cable that is curved initially and is turned and moved without deformation, however far, carries its weight by the supports and loads alone. -/
theorem C144_rigid (C : Props) (hm : 0 ≤ C.lineMass) (n : Nat) (X : Nat → Nat → ℝ) (es : List CElm) (h : Good n X es) (hX : Curved es X) (u : Nat → Nat → ℝ) (r : Fin 3 → V3 ℝ) (c : V3 ℝ) (hr : Rotation r)
    (hY : ∀ a, a < n → ∀ i : Fin 3, X (a + 1) (i.val + 1) + u (a + 1) (i.val + 1) = c i + turned r (X (a + 1)) i) :
    ∃ s, assemble C u es = .ok s ∧ ∀ F a, ∀ i : Fin 3, residual F s a (i.val + 1) = F a (i.val + 1) + weight C es a i := by
  have h0 : Curved es fun a i => X a i + (fun _ _ => (0 : ℝ)) a i := by simpa using hX
  have hpt := point_turn C n X es h (fun _ _ => 0) u r c hr (by simpa using hY) h0
  refine ⟨_, assemble_ok C es u fun e he p hp => (hpt e he p hp).1, fun F a i => ?_⟩
  rw [residual_eq C hm F es u a i, list_zero, add_zero]
  intro e he
  refine Finset.sum_eq_zero fun s _ => ?_
  rw [force, list_zero, ite_self]
  intro p hp
  rw [(hpt e he p hp).2 s i]
  refine Finset.sum_eq_zero fun b _ => ?_
  obtain ⟨A, hA⟩ := ((h e he).2 p hp).axes
  have hcur : ∀ (dX : V3 ℝ) (dN : Nat → ℝ), current e.nen dX dN (e.disp fun _ _ => 0) = dX := fun dX dN => by
    funext i; simp [current, CElm.disp]
  have : Cable.evalInt e.nen C.EA C.EI p.w p.dX p.ddX p.f (e.disp fun _ _ => 0) = .ok (Cable.contributions C.EA C.EI p.w p.dX p.ddX p.dX p.ddX A A p.f) := by
    unfold Cable.evalInt
    simp only [hcur, hA, Res.bind]
  rw [out_eq C e p _ _ this]
  simp [Cable.contributions, Cable.strain, Cable.curvature]

/-! ### Potential -/

/-- Moving a node of the model moves at most one node of an element. -/
theorem disp_move (e : CElm) (hd : ∀ s t, s < e.nen → t < e.nen → e.node (s + 1) = e.node (t + 1) → s = t) (u : Nat → Nat → ℝ) (b j : Nat) (hj : j < 3) (s : ℝ) :
    (∀ k, k < e.nen → e.node (k + 1) = b → ∀ l, l < e.nen → e.disp (move u b (j + 1) s) l = push (e.disp u) k ⟨j, hj⟩ s l) ∧
    ((∀ k, k < e.nen → e.node (k + 1) ≠ b) → ∀ l, l < e.nen → e.disp (move u b (j + 1) s) l = e.disp u l) := by
  refine ⟨fun k hk hb l hl => ?_, fun hb l hl => ?_⟩
  · funext i
    simp only [CElm.disp, move, push]
    congr 1
    have h1 : e.node (l + 1) = b ↔ l = k := ⟨fun h => hd l k hl hk (h.trans hb.symm), fun h => by rw [h, hb]⟩
    have h2 : i.val + 1 = j + 1 ↔ i = ⟨j, hj⟩ := by rw [Fin.ext_iff]; simp
    simp only [h1, h2]
  · funext i
    simp [CElm.disp, move, hb l hl]

/-- Potential of a point. -/
noncomputable def pot (C : Props) (e : CElm) (p : CPt) (U : Nat → V3 ℝ) : ℝ :=
  energy e.nen C.EA C.EI p.w p.dX p.ddX (normal p) p.f U - C.lineMass * p.w * ∑ i : Fin 3, C.gravity i * ∑ k ∈ Finset.range e.nen, p.N k * U k i

theorem pot_congr (C : Props) (e : CElm) (p : CPt) (U V : Nat → V3 ℝ) (h : ∀ k, k < e.nen → U k = V k) : pot C e p U = pot C e p V := by
  have : ∀ (w : Nat → ℝ) i, ∑ k ∈ Finset.range e.nen, w k * U k i = ∑ k ∈ Finset.range e.nen, w k * V k i := fun w i =>
    Finset.sum_congr rfl fun k hk => by rw [h k (Finset.mem_range.mp hk)]
  unfold pot energy
  simp only [this]

theorem pot_deriv (C : Props) (e : CElm) (p : CPt) (X : Nat → Nat → ℝ) (hs : Sound X e p) (u : Nat → Nat → ℝ)
    (hc : 1 / 1000000000000 ≤ len (cross (fun i => ∑ k ∈ Finset.range e.nen, p.f.dN k * (X (e.node (k + 1)) (i.val + 1) + u (e.node (k + 1)) (i.val + 1)))
      (fun i => ∑ k ∈ Finset.range e.nen, p.f.d2N k * (X (e.node (k + 1)) (i.val + 1) + u (e.node (k + 1)) (i.val + 1))))) (l : Nat) (hl : l < e.nen) (j : Fin 3) :
    HasDerivAt (fun s => pot C e p (push (e.disp u) l j s)) (-1 * ((out C e p (e.disp u)).S l j + p.N l * (C.lineMass * p.w * C.gravity j))) 0 := by
  obtain ⟨A, hA⟩ := hs.axes
  have c1 : current e.nen p.dX p.f.dN (e.disp u) = fun i => ∑ k ∈ Finset.range e.nen, p.f.dN k * (X (e.node (k + 1)) (i.val + 1) + u (e.node (k + 1)) (i.val + 1)) := by
    funext i; simp only [current, hs.first, CElm.disp, mul_add, Finset.sum_add_distrib]
  have c2 : current e.nen p.ddX p.f.d2N (e.disp u) = fun i => ∑ k ∈ Finset.range e.nen, p.f.d2N k * (X (e.node (k + 1)) (i.val + 1) + u (e.node (k + 1)) (i.val + 1)) := by
    funext i; simp only [current, hs.second, CElm.disp, mul_add, Finset.sum_add_distrib]
  rw [← c1, ← c2] at hc
  obtain ⟨q, h1, h2⟩ := Cable.C45_forces p.f l j e.nen C.EA C.EI p.w p.dX p.ddX (e.disp u) A hl hA hc
  rw [out_eq C e p _ _ h1]
  have hn : normal p = A.N := by unfold normal; rw [hA]
  have hw : ∀ s, C.lineMass * p.w * ∑ i : Fin 3, C.gravity i * ∑ k ∈ Finset.range e.nen, p.N k * push (e.disp u) l j s k i =
      C.lineMass * p.w * (∑ i : Fin 3, C.gravity i * ∑ k ∈ Finset.range e.nen, p.N k * e.disp u k i) + s * (p.N l * (C.lineMass * p.w * C.gravity j)) := by
    intro s
    have e1 : ∀ i, ∑ k ∈ Finset.range e.nen, p.N k * push (e.disp u) l j s k i = (∑ k ∈ Finset.range e.nen, p.N k * e.disp u k i) + if i = j then p.N l * s else 0 := by
      intro i
      simp only [push, mul_add, Finset.sum_add_distrib]
      congr 1
      rw [Finset.sum_eq_single l]
      · simp
      · intro k _ hk; simp [hk]
      · intro hk; exact absurd (Finset.mem_range.mpr hl) hk
    simp only [e1, mul_add, Finset.sum_add_distrib]
    simp
    ring
  unfold pot
  simp only [hw, hn]
  have h3 : HasDerivAt (fun s : ℝ => C.lineMass * p.w * (∑ i : Fin 3, C.gravity i * ∑ k ∈ Finset.range e.nen, p.N k * e.disp u k i) + s * (p.N l * (C.lineMass * p.w * C.gravity j)))
      (p.N l * (C.lineMass * p.w * C.gravity j)) 0 := by
    simpa using ((hasDerivAt_id (0 : ℝ)).mul_const (p.N l * (C.lineMass * p.w * C.gravity j))).const_add
      (C.lineMass * p.w * (∑ i : Fin 3, C.gravity i * ∑ k ∈ Finset.range e.nen, p.N k * e.disp u k i))
  exact (h2.sub h3).congr_deriv (by ring)

theorem elm_deriv (C : Props) (n : Nat) (X : Nat → Nat → ℝ) (es : List CElm) (h : Good n X es) (hd : Distinct es) (u : Nat → Nat → ℝ) (hu : Curved es fun a i => X a i + u a i) (b j : Nat) (hj : j < 3) (e : CElm) (he : e ∈ es) :
    HasDerivAt (fun s => (e.pts.map fun p => pot C e p (e.disp (move u b (j + 1) s))).sum)
      (-1 * ∑ s ∈ Finset.range e.nen, if e.node (s + 1) = b then force C e (e.disp u) s ⟨j, hj⟩ + (e.pts.map fun p => p.N s * (C.lineMass * p.w * C.gravity ⟨j, hj⟩)).sum else 0) 0 := by
  by_cases hl : ∃ l, l < e.nen ∧ e.node (l + 1) = b
  · obtain ⟨l, hl, hlb⟩ := hl
    rw [one_term e.nen l hl (fun t => e.node (t + 1) = b) (fun t ht => ⟨fun h => hd e he t l ht hl (h.trans hlb.symm), fun h => by rw [h, hlb]⟩), force, add_list, mul_list]
    have e3 : (fun s => (e.pts.map fun p => pot C e p (e.disp (move u b (j + 1) s))).sum) = fun s => (e.pts.map fun p => pot C e p (push (e.disp u) l ⟨j, hj⟩ s)).sum := by
      funext s
      exact congrArg List.sum (List.map_congr_left fun p _ => pot_congr C e p _ _ fun t ht => (disp_move e (hd e he) u b j hj s).1 l hl hlb t ht)
    rw [e3]
    exact deriv_sum e.pts (fun p s => pot C e p (push (e.disp u) l ⟨j, hj⟩ s)) (fun p => -1 * ((out C e p (e.disp u)).S l ⟨j, hj⟩ + p.N l * (C.lineMass * p.w * C.gravity ⟨j, hj⟩)))
      fun p hp => pot_deriv C e p X ((h e he).2 p hp) u (hu e he p hp) l hl _
  · push Not at hl
    rw [Finset.sum_eq_zero fun t ht => if_neg (hl t (Finset.mem_range.mp ht)), mul_zero]
    have e3 : (fun s => (e.pts.map fun p => pot C e p (e.disp (move u b (j + 1) s))).sum) = fun s => (e.pts.map fun p => pot C e p (e.disp u)).sum := by
      funext s
      exact congrArg List.sum (List.map_congr_left fun p _ => pot_congr C e p _ _ fun t ht => (disp_move e (hd e he) u b j hj s).2 hl t ht)
    rw [e3]
    exact hasDerivAt_const _ _

/-- C144 (potential): where the cable is curved, the derivative of the strain energy minus the work of weight and loads with respect to a nodal displacement is minus the residual. So a state is converged exactly if
the given displacements are met and this potential is stationary with respect to all free displacements. -/
theorem C144_stationary (C : Props) (hm : 0 ≤ C.lineMass) (n : Nat) (X : Nat → Nat → ℝ) (es : List CElm) (h : Good n X es) (hd : Distinct es) (F g : Nat → Nat → ℝ) (fixed : Nat → Nat → Prop) (u : Nat → Nat → ℝ)
    (hu : Curved es fun a i => X a i + u a i) :
    (∃ r, assemble C u es = .ok r ∧ ∀ b j, b < n → j < 3 →
      HasDerivAt (fun s => energyAll C es (move u (b + 1) (j + 1) s) - dotN 3 n F (move u (b + 1) (j + 1) s)) (-residual F r (b + 1) (j + 1)) 0) ∧
    (Converged C n es F g fixed u ↔ (∀ a i, a < n → i < 3 → fixed (a + 1) (i + 1) → u (a + 1) (i + 1) = g (a + 1) (i + 1)) ∧
      ∀ b j, b < n → j < 3 → ¬ fixed (b + 1) (j + 1) → HasDerivAt (fun s => energyAll C es (move u (b + 1) (j + 1) s) - dotN 3 n F (move u (b + 1) (j + 1) s)) 0 0) := by
  have hw := works C n X es h u hu
  have key : ∀ b j, b < n → j < 3 → HasDerivAt (fun s => energyAll C es (move u (b + 1) (j + 1) s) - dotN 3 n F (move u (b + 1) (j + 1) s))
      (-residual F (es.map fun e => (e, matE C e u, vecE C e u)) (b + 1) (j + 1)) 0 := by
    intro b j hb hj
    rw [residual_eq C hm F es u (b + 1) ⟨j, hj⟩]
    have hW : ∀ s, dotN 3 n F (move u (b + 1) (j + 1) s) = dotN 3 n F u + s * F (b + 1) (j + 1) := by
      intro s
      unfold dotN move
      simp only [mul_add, Finset.sum_add_distrib]
      congr 1
      rw [Finset.sum_eq_single b, Finset.sum_eq_single j]
      · simp; ring
      · intro k _ hk; simp [hk]
      · intro hk; exact absurd (Finset.mem_range.mpr hj) hk
      · intro k _ hk; exact Finset.sum_eq_zero fun i _ => by simp [hk]
      · intro hk; exact absurd (Finset.mem_range.mpr hb) hk
    have h1 : HasDerivAt (fun s => dotN 3 n F (move u (b + 1) (j + 1) s)) (F (b + 1) (j + 1)) 0 := by
      simp only [hW]
      simpa using ((hasDerivAt_id (0 : ℝ)).mul_const (F (b + 1) (j + 1))).const_add (dotN 3 n F u)
    have h2 : HasDerivAt (fun s => energyAll C es (move u (b + 1) (j + 1) s))
        (-1 * (es.map fun e => ∑ s ∈ Finset.range e.nen, if e.node (s + 1) = b + 1 then force C e (e.disp u) s ⟨j, hj⟩ + (e.pts.map fun p => p.N s * (C.lineMass * p.w * C.gravity ⟨j, hj⟩)).sum else 0).sum) 0 := by
      rw [mul_list]
      exact deriv_sum es (fun e s => (e.pts.map fun p => pot C e p (e.disp (move u (b + 1) (j + 1) s))).sum) _ fun e he => elm_deriv C n X es h hd u hu (b + 1) j hj e he
    refine (h2.sub h1).congr_deriv ?_
    have e5 : (es.map fun e => ∑ s ∈ Finset.range e.nen, if e.node (s + 1) = b + 1 then force C e (e.disp u) s ⟨j, hj⟩ + (e.pts.map fun p => p.N s * (C.lineMass * p.w * C.gravity ⟨j, hj⟩)).sum else 0).sum =
        (es.map fun e => ∑ s ∈ Finset.range e.nen, if e.node (s + 1) = b + 1 then force C e (e.disp u) s ⟨j, hj⟩ else 0).sum + weight C es (b + 1) ⟨j, hj⟩ := by
      unfold weight
      rw [add_list]
      refine congrArg List.sum (List.map_congr_left fun e _ => ?_)
      rw [← Finset.sum_add_distrib]
      refine Finset.sum_congr rfl fun s _ => ?_
      split_ifs <;> simp
    rw [e5]
    ring
  refine ⟨⟨_, assemble_ok C es u hw, key⟩, fun ⟨r, h1, h2, h3⟩ => ⟨h3, fun b j hb hj hf => ?_⟩, fun ⟨h3, h2⟩ => ⟨_, assemble_ok C es u hw, fun b j hb hj hf => ?_, h3⟩⟩
  · rw [assemble_ok C es u hw] at h1
    cases h1
    have := key b j hb hj
    rwa [h2 b j hb hj hf, neg_zero] at this
  · have := (key b j hb hj).unique (h2 b j hb hj hf)
    linarith

/-- C144 (iterations): the converged states are the ones that an iteration does not change. -/
theorem C144_iterate (C : Props) (n : Nat) (es : List CElm) (F g : Nat → Nat → ℝ) (fixed : Nat → Nat → Prop) (u : Nat → Nat → ℝ) : Converged C n es F g fixed u ↔ Iterate C n es F g fixed u u := by
  refine ⟨fun ⟨r, h1, h2, h3⟩ => ⟨r, h1, ⟨fun a i ha hi hf => ?_, fun a i ha hi hf => ?_⟩⟩, fun ⟨r, h1, h2⟩ => ⟨r, h1, fun a i ha hi hf => ?_, fun a i ha hi hf => ?_⟩⟩
  · rw [h2 a i ha hi hf]; simp [Struct.nodal]
  · have := h3 a i ha hi hf
    linarith
  · have := h2.free a i ha hi hf
    rw [← this]; simp [Struct.nodal]
  · have := h2.held a i ha hi hf
    linarith

/-! ### Tangent -/

/-- C144 (symmetry): the assembled tangent matrix is symmetric. -/
theorem C144_symmetric (C : Props) (n : Nat) (X : Nat → Nat → ℝ) (es : List CElm) (h : Good n X es) (u : Nat → Nat → ℝ) (hu : Curved es fun a i => X a i + u a i) :
    ∃ r, assemble C u es = .ok r ∧ ∀ a b (i j : Fin 3), tangent r a (i.val + 1) b (j.val + 1) = tangent r b (j.val + 1) a (i.val + 1) := by
  have hw := works C n X es h u hu
  refine ⟨_, assemble_ok C es u hw, fun a b i j => ?_⟩
  rw [tangent_eq, tangent_eq]
  refine congrArg List.sum (List.map_congr_left fun e he => ?_)
  rw [Finset.sum_comm]
  refine Finset.sum_congr rfl fun s _ => Finset.sum_congr rfl fun t _ => ?_
  have : stiff C e (e.disp u) t i s j = stiff C e (e.disp u) s j t i := by
    unfold stiff
    refine congrArg List.sum (List.map_congr_left fun p hp => ?_)
    have hp' := hw e he p hp
    obtain ⟨q, hq⟩ : ∃ q, q = out C e p (e.disp u) := ⟨_, rfl⟩
    rw [← hq] at hp' ⊢
    unfold Cable.evalInt at hp'
    cases hA : evalLocalAxes p.dX p.ddX with
    | fail => rw [hA] at hp'; simp [Res.bind] at hp'
    | ub => rw [hA] at hp'; simp [Res.bind] at hp'
    | ok A =>
      rw [hA] at hp'
      simp only [Res.bind] at hp'
      cases hB : evalLocalAxes (current e.nen p.dX p.f.dN (e.disp u)) (current e.nen p.ddX p.f.d2N (e.disp u)) with
      | fail => rw [hB] at hp'; simp at hp'
      | ub => rw [hB] at hp'; simp at hp'
      | ok B =>
        rw [hB] at hp'
        simp only [Res.ok.injEq] at hp'
        have := Cable.C45_symmetric C.EA C.EI p.w p.dX p.ddX (current e.nen p.dX p.f.dN (e.disp u)) (current e.nen p.ddX p.f.d2N (e.disp u)) A B p.f t s i j
        rw [hp'] at this
        rw [this.1, this.2]
  rw [this]
  simp only [and_comm]

/-- The cable is curved in each integration point, its tangent is along a coordinate axis, and its curvature vector lies in a coordinate plane, when its nodes are at `x`. -/
def Aligned (es : List CElm) (x : Nat → Nat → ℝ) : Prop :=
  ∀ e ∈ es, ∀ p ∈ e.pts, ∀ dx ddx : V3 ℝ, (dx = fun i => ∑ k ∈ Finset.range e.nen, p.f.dN k * x (e.node (k + 1)) (i.val + 1)) →
    (ddx = fun i => ∑ k ∈ Finset.range e.nen, p.f.d2N k * x (e.node (k + 1)) (i.val + 1)) →
    1 / 1000000000000 < len (cross dx ddx) ∧ ∃ j k : Fin 3, j ≠ k ∧ dx j = 0 ∧ dx k = 0 ∧ ddx k = 0

theorem single_sum (B da dc : V3 ℝ) (k : Fin 3) (h : ∀ l, l ≠ k → B l = 0) : ∑ l : Fin 3, B l * B l * da l * dc l = (∑ l : Fin 3, B l * da l) * (∑ l : Fin 3, B l * dc l) := by
  rw [Finset.sum_eq_single k (fun l _ hl => by rw [h l hl]; ring) (by simp), Finset.sum_eq_single k (fun l _ hl => by rw [h l hl]; ring) (by simp),
    Finset.sum_eq_single k (fun l _ hl => by rw [h l hl]; ring) (by simp)]
  ring

theorem cross_support (v w : V3 ℝ) (k : Fin 3) (hv : v k = 0) (hw : w k = 0) (l : Fin 3) (hl : l ≠ k) : cross v w l = 0 := by
  fin_cases k <;> fin_cases l <;> simp_all [cross]

theorem point_tangent (C : Props) (X : Nat → Nat → ℝ) (e : CElm) (p : CPt) (hs : Sound X e p) (u : Nat → Nat → ℝ)
    (ha : ∀ dx ddx : V3 ℝ, (dx = fun i => ∑ k ∈ Finset.range e.nen, p.f.dN k * (X (e.node (k + 1)) (i.val + 1) + u (e.node (k + 1)) (i.val + 1))) →
      (ddx = fun i => ∑ k ∈ Finset.range e.nen, p.f.d2N k * (X (e.node (k + 1)) (i.val + 1) + u (e.node (k + 1)) (i.val + 1))) →
      1 / 1000000000000 < len (cross dx ddx) ∧ ∃ j k : Fin 3, j ≠ k ∧ dx j = 0 ∧ dx k = 0 ∧ ddx k = 0) (l : Nat) (hl : l < e.nen) (j : Fin 3) :
    (∀ᶠ t in nhds (0 : ℝ), Cable.evalInt e.nen C.EA C.EI p.w p.dX p.ddX p.f (push (e.disp u) l j t) = .ok (out C e p (push (e.disp u) l j t))) ∧
    ∀ k i, HasDerivAt (fun t => (out C e p (push (e.disp u) l j t)).S k i) (-1 * ((out C e p (e.disp u)).Km k i l j + (out C e p (e.disp u)).Kg k i l j)) 0 := by
  obtain ⟨A, hA⟩ := hs.axes
  obtain ⟨dx, hdx⟩ : ∃ dx : V3 ℝ, dx = fun i => ∑ k ∈ Finset.range e.nen, p.f.dN k * (X (e.node (k + 1)) (i.val + 1) + u (e.node (k + 1)) (i.val + 1)) := ⟨_, rfl⟩
  obtain ⟨ddx, hddx⟩ : ∃ ddx : V3 ℝ, ddx = fun i => ∑ k ∈ Finset.range e.nen, p.f.d2N k * (X (e.node (k + 1)) (i.val + 1) + u (e.node (k + 1)) (i.val + 1)) := ⟨_, rfl⟩
  obtain ⟨hc, j', k', hjk, z1, z2, z3⟩ := ha dx ddx hdx hddx
  have c1 : dx = fun i => p.dX i + ∑ k ∈ Finset.range e.nen, p.f.dN k * e.disp u k i := by
    rw [hdx]; funext i; simp only [hs.first, CElm.disp, mul_add, Finset.sum_add_distrib]
  have c2 : ddx = fun i => p.ddX i + ∑ k ∈ Finset.range e.nen, p.f.d2N k * e.disp u k i := by
    rw [hddx]; funext i; simp only [hs.second, CElm.disp, mul_add, Finset.sum_add_distrib]
  have hB := cross_support dx ddx k' z2 z3
  have hn := cross_support (Bar.unit (cross dx ddx)) dx j' (by simp [Bar.unit, hB j' hjk]) z1
  have key := fun k i => Cable.C45_tangent_partial dx ddx p.f k l i j e.nen C.EA C.EI p.w p.dX p.ddX (e.disp u) A hl hA c1 c2 hc (single_sum _ _ _ k' hB) (single_sum _ _ _ j' hn)
  refine ⟨?_, fun k i => ?_⟩
  · obtain ⟨P, q, -, h2, -⟩ := key 0 0
    filter_upwards [h2] with t ht
    rw [out_eq C e p _ _ ht]; exact ht
  · obtain ⟨P, q, h1, h2, h3⟩ := key k i
    rw [out_eq C e p _ _ h1, neg_one_mul]
    refine h3.congr_of_eventuallyEq ?_
    filter_upwards [h2] with t ht
    rw [out_eq C e p _ _ ht]

theorem eventually_list {α : Type} (l : List α) (P : α → ℝ → Prop) (h : ∀ p ∈ l, ∀ᶠ t in nhds (0 : ℝ), P p t) : ∀ᶠ t in nhds (0 : ℝ), ∀ p ∈ l, P p t := by
  induction l with
  | nil => simp
  | cons p l ih =>
    filter_upwards [h p (by simp), ih fun p hp => h p (by simp [hp])] with t h1 h2 q hq
    rcases List.mem_cons.mp hq with rfl | hq
    · exact h1
    · exact h2 q hq

theorem cable_force_deriv (C : Props) (n : Nat) (X : Nat → Nat → ℝ) (es : List CElm) (h : Good n X es) (hd : Distinct es) (u : Nat → Nat → ℝ) (ha : Aligned es fun a i => X a i + u a i) (e : CElm) (he : e ∈ es) (a b : Nat) (i j : Fin 3) (k : Nat) :
    HasDerivAt (fun t => if e.node (k + 1) = a then force C e (e.disp (move u b (j.val + 1) t)) k i else 0)
      (-1 * ∑ l ∈ Finset.range e.nen, if e.node (k + 1) = a ∧ e.node (l + 1) = b then stiff C e (e.disp u) k i l j else 0) 0 := by
  by_cases hk : e.node (k + 1) = a
  · simp only [hk, if_true, true_and]
    by_cases hb : ∃ l, l < e.nen ∧ e.node (l + 1) = b
    · obtain ⟨l, hl, hlb⟩ := hb
      rw [one_term e.nen l hl (fun t => e.node (t + 1) = b) (fun t ht => ⟨fun h => hd e he t l ht hl (h.trans hlb.symm), fun h => by rw [h, hlb]⟩)
        (fun t => stiff C e (e.disp u) k i t j)]
      have e3 : (fun t => force C e (e.disp (move u b (j.val + 1) t)) k i) = fun t => (e.pts.map fun p => (out C e p (push (e.disp u) l j t)).S k i).sum := by
        funext t
        unfold force
        refine congrArg List.sum (List.map_congr_left fun p hp => ?_)
        rw [out_congr C e p _ (push (e.disp u) l j t) fun m hm => (disp_move e (hd e he) u b j j.isLt t).1 l hl hlb m hm]
      rw [e3, stiff, mul_list]
      exact deriv_sum e.pts (fun p t => (out C e p (push (e.disp u) l j t)).S k i) (fun p => -1 * ((out C e p (e.disp u)).Km k i l j + (out C e p (e.disp u)).Kg k i l j))
        fun p hp => (point_tangent C X e p ((h e he).2 p hp) u (ha e he p hp) l hl j).2 k i
    · push Not at hb
      rw [Finset.sum_eq_zero fun t ht => if_neg (hb t (Finset.mem_range.mp ht)), mul_zero]
      have e3 : (fun t => force C e (e.disp (move u b (j.val + 1) t)) k i) = fun t => force C e (e.disp u) k i := by
        funext t
        unfold force
        refine congrArg List.sum (List.map_congr_left fun p hp => ?_)
        rw [out_congr C e p _ (e.disp u) fun m hm => (disp_move e (hd e he) u b j j.isLt t).2 hb m hm]
      rw [e3]
      exact hasDerivAt_const _ _
  · simp only [hk, if_false, false_and, Finset.sum_const_zero, mul_zero]
    exact hasDerivAt_const _ _

/-- C144 (tangent): where the tangent of the cable is along a coordinate axis and its curvature lies in a coordinate plane, the assembled tangent matrix is minus the derivative of the residual with respect to each nodal displacement.
Missing: other directions, see `C144_tangent_violated`. -/
theorem C144_tangent_partial (C : Props) (hm : 0 ≤ C.lineMass) (n : Nat) (X : Nat → Nat → ℝ) (es : List CElm) (h : Good n X es) (hd : Distinct es) (u : Nat → Nat → ℝ) (ha : Aligned es fun a i => X a i + u a i) (b : Nat) (j : Fin 3) :
    ∃ r : ℝ → List (CElm × DMat ℝ × DVec ℝ), assemble C u es = .ok (r 0) ∧ (∀ᶠ t in nhds (0 : ℝ), assemble C (move u b (j.val + 1) t) es = .ok (r t)) ∧
      ∀ F a (i : Fin 3), HasDerivAt (fun t => residual F (r t) a (i.val + 1)) (-tangent (r 0) a (i.val + 1) b (j.val + 1)) 0 := by
  have hcur : Curved es fun a i => X a i + u a i := fun e he p hp => (ha e he p hp _ _ rfl rfl).1.le
  have hm0 : move u b (j.val + 1) 0 = u := by funext a i; simp [move]
  have hw := works C n X es h u hcur
  refine ⟨fun t => es.map fun e => (e, matE C e (move u b (j.val + 1) t), vecE C e (move u b (j.val + 1) t)), ?_, ?_, fun F a i => ?_⟩
  · have := assemble_ok C es u hw
    simp only [hm0]; exact this
  · have : ∀ᶠ t in nhds (0 : ℝ), Works C es (move u b (j.val + 1) t) := by
      refine eventually_list es (fun e t => ∀ p ∈ e.pts, Cable.evalInt e.nen C.EA C.EI p.w p.dX p.ddX p.f (e.disp (move u b (j.val + 1) t)) = .ok (out C e p (e.disp (move u b (j.val + 1) t)))) fun e he => ?_
      refine eventually_list e.pts (fun p t => Cable.evalInt e.nen C.EA C.EI p.w p.dX p.ddX p.f (e.disp (move u b (j.val + 1) t)) = .ok (out C e p (e.disp (move u b (j.val + 1) t)))) fun p hp => ?_
      by_cases hb : ∃ l, l < e.nen ∧ e.node (l + 1) = b
      · obtain ⟨l, hl, hlb⟩ := hb
        filter_upwards [(point_tangent C X e p ((h e he).2 p hp) u (ha e he p hp) l hl j).1] with t ht
        have hcg := fun m hm => (disp_move e (hd e he) u b j j.isLt t).1 l hl hlb m hm
        rw [evalInt_congr C e p _ _ hcg, out_congr C e p _ _ hcg]
        exact ht
      · push Not at hb
        refine Filter.Eventually.of_forall fun t => ?_
        have hcg := fun m hm => (disp_move e (hd e he) u b j j.isLt t).2 hb m hm
        rw [evalInt_congr C e p _ _ hcg, out_congr C e p _ _ hcg]
        exact hw e he p hp
    filter_upwards [this] with t ht
    exact assemble_ok C es _ ht
  · simp only [hm0, residual_eq C hm, tangent_eq]
    refine HasDerivAt.const_add _ ?_
    rw [neg_eq_neg_one_mul, mul_list]
    simp only [Finset.mul_sum]
    refine deriv_sum es (fun e t => ∑ s ∈ Finset.range e.nen, if e.node (s + 1) = a then force C e (e.disp (move u b (j.val + 1) t)) s i else 0) _ fun e he =>
      HasDerivAt.fun_sum fun k _ => ?_
    have := cable_force_deriv C n X es h hd u ha e he a b i j k
    rw [Finset.mul_sum] at this
    exact this

/-- The witness: a straight cable of one element with three nodes, whose second node is moved sidewards. -/
noncomputable def vf : Basis := ⟨fun a => if a = 0 then 1 else if a = 2 then -1 else 0, fun a => if a = 1 then 1 else if a = 2 then -1 else 0⟩
noncomputable def vP : CPt := ⟨![3, 4, 0], ![0, 0, 0], vf, fun _ => 1 / 3, 1⟩
noncomputable def vE : CElm := ⟨3, fun s => s, [vP]⟩
def vX : Nat → Nat → ℝ := fun a i => if a = 1 ∧ i = 1 then 3 else if a = 1 ∧ i = 2 then 4 else 0
def vU : Nat → Nat → ℝ := fun a i => if a = 2 ∧ i = 2 then 1 else 0
def vC : Props := ⟨0, 1, 0, fun _ => 0⟩

theorem v_good : Good 3 vX [vE] := by
  intro e he
  obtain rfl := List.mem_singleton.mp he
  refine ⟨fun s hs => ?_, fun p hp => ?_⟩
  · simp only [vE] at hs ⊢; omega
  · simp only [vE, List.mem_singleton] at hp
    subst hp
    refine ⟨by simp [vE, vP], by simp [vE, vP, vf, Finset.sum_range_succ], by simp [vE, vP, vf, Finset.sum_range_succ], fun i => ?_, fun i => ?_, Cable.w_initial⟩
    · fin_cases i <;> simp [vE, vP, vf, vX, Finset.sum_range_succ]
    · fin_cases i <;> simp [vE, vP, vf, vX, Finset.sum_range_succ]

theorem v_distinct : Distinct [vE] := by
  intro e he s t hs ht h
  obtain rfl := List.mem_singleton.mp he
  simp only [vE] at hs ht h; omega

theorem v_curved : Curved [vE] fun a i => vX a i + vU a i := by
  intro e he p hp
  obtain rfl := List.mem_singleton.mp he
  simp only [vE, List.mem_singleton] at hp
  subst hp
  have e1 : (fun i : Fin 3 => ∑ k ∈ Finset.range vE.nen, vP.f.dN k * (vX (vE.node (k + 1)) (i.val + 1) + vU (vE.node (k + 1)) (i.val + 1))) = ![3, 4, 0] := by
    funext i; fin_cases i <;> simp [vE, vP, vf, vX, vU, Finset.sum_range_succ]
  have e2 : (fun i : Fin 3 => ∑ k ∈ Finset.range vE.nen, vP.f.d2N k * (vX (vE.node (k + 1)) (i.val + 1) + vU (vE.node (k + 1)) (i.val + 1))) = ![0, 1, 0] := by
    funext i; fin_cases i <;> simp [vE, vP, vf, vX, vU, Finset.sum_range_succ]
  rw [e1, e2, Cable.w_cross, Cable.w_len]
  norm_num

theorem same_point (dX ddX dx ddx : V3 ℝ) (A B : Axes) :
    (∀ i, (Cable.contributions 0 1 1 dX ddX dx ddx A B vf).S 0 i = (Cable.contributions 0 1 1 dX ddX dx ddx A B Cable.wf).S 0 i) ∧
    (∀ i j, (Cable.contributions 0 1 1 dX ddX dx ddx A B vf).Km 0 i 0 j = (Cable.contributions 0 1 1 dX ddX dx ddx A B Cable.wf).Km 0 i 0 j) ∧
    ∀ i j, (Cable.contributions 0 1 1 dX ddX dx ddx A B vf).Kg 0 i 0 j = (Cable.contributions 0 1 1 dX ddX dx ddx A B Cable.wf).Kg 0 i 0 j := by
  have h1 : vf.dN 0 = Cable.wf.dN 0 := by simp [vf, Cable.wf]
  have h2 : vf.d2N 0 = Cable.wf.d2N 0 := by simp [vf, Cable.wf]
  refine ⟨fun i => ?_, fun i j => ?_, fun i j => ?_⟩ <;>
    simp only [Cable.contributions, Cable.deps, Cable.ddeps, Cable.dkappa, Cable.ddkappa, Cable.dnu, Cable.dnc, Cable.dbu, Cable.ddnu, Cable.ddbu, h1, h2]

theorem same_eval (U : Nat → V3 ℝ) (hU : U 2 = 0) (p : Point) (h : Cable.evalInt 2 0 1 1 ![3, 4, 0] ![0, 0, 0] Cable.wf U = .ok p) :
    ∃ q, Cable.evalInt 3 0 1 1 ![3, 4, 0] ![0, 0, 0] vf U = .ok q ∧ (∀ i, q.S 0 i = p.S 0 i) ∧ (∀ i j, q.Km 0 i 0 j = p.Km 0 i 0 j) ∧ ∀ i j, q.Kg 0 i 0 j = p.Kg 0 i 0 j := by
  have c1 : ∀ dX, current 3 dX vf.dN U = current 2 dX Cable.wf.dN U := fun dX => by
    funext i; simp [current, vf, Cable.wf, Finset.sum_range_succ, hU]
  have c2 : ∀ dX, current 3 dX vf.d2N U = current 2 dX Cable.wf.d2N U := fun dX => by
    funext i; simp [current, vf, Cable.wf, Finset.sum_range_succ, hU]
  unfold Cable.evalInt at h ⊢
  rw [c1, c2]
  cases hA : evalLocalAxes ![3, 4, 0] ![0, 0, 0] with
  | fail => rw [hA] at h; simp [Res.bind] at h
  | ub => rw [hA] at h; simp [Res.bind] at h
  | ok A =>
    rw [hA] at h
    simp only [Res.bind] at h ⊢
    cases hB : evalLocalAxes (current 2 ![3, 4, 0] Cable.wf.dN U) (current 2 ![0, 0, 0] Cable.wf.d2N U) with
    | fail => rw [hB] at h; simp at h
    | ub => rw [hB] at h; simp at h
    | ok B =>
      rw [hB] at h
      simp only [Res.ok.injEq] at h
      subst h
      exact ⟨_, rfl, same_point _ _ _ _ A B⟩

theorem v_works (u : Nat → Nat → ℝ) (q : Point) (h : Cable.evalInt 3 0 1 1 ![3, 4, 0] ![0, 0, 0] vf (vE.disp u) = .ok q) : Works vC [vE] u ∧ out vC vE vP (vE.disp u) = q := by
  have h' : Cable.evalInt vE.nen vC.EA vC.EI vP.w vP.dX vP.ddX vP.f (vE.disp u) = .ok q := h
  have ho := out_eq vC vE vP _ _ h'
  refine ⟨fun e he p hp => ?_, ho⟩
  obtain rfl := List.mem_singleton.mp he
  simp only [vE, List.mem_singleton] at hp
  subst hp
  rw [ho]; exact h'

theorem v_residual (u : Nat → Nat → ℝ) : residual (fun _ _ => 0) ([vE].map fun e => (e, matE vC e u, vecE vC e u)) 1 1 = (out vC vE vP (vE.disp u)).S 0 0 := by
  have := residual_eq vC (le_refl _) (fun _ _ => 0) [vE] u 1 0
  simp only [Fin.val_zero, zero_add, Fin.isValue] at this
  rw [this]
  simp [weight, vC, force]
  rw [one_term vE.nen 0 (by simp [vE]) (fun t => vE.node (t + 1) = 1) (fun t _ => by simp [vE])]
  simp [vE]

/-- C144 is violated for the tangent: the assembled tangent matrix of a straight cable that is bent in its plane is not minus the derivative of the residual, so that the iterations are not Newton iterations. -/
theorem C144_tangent_violated :
    ∃ (C : Props) (n : Nat) (X u : Nat → Nat → ℝ) (es : List CElm) (r : ℝ → List (CElm × DMat ℝ × DVec ℝ)), 0 ≤ C.lineMass ∧ Good n X es ∧ Distinct es ∧ Curved es (fun a i => X a i + u a i) ∧
      assemble C u es = .ok (r 0) ∧ (∀ᶠ t in nhds (0 : ℝ), assemble C (move u 1 2 t) es = .ok (r t)) ∧
      ¬ HasDerivAt (fun t => residual (fun _ _ => 0) (r t) 1 1) (-tangent (r 0) 1 1 1 2) 0 := by
  obtain ⟨p, q, h1, h2, h3⟩ := Cable.C45_tangent_violated
  have hd : ∀ t, ∀ k, k < 3 → vE.disp (move vU 1 2 t) k = push Cable.wu 0 1 t k := by
    intro t k hk
    funext i
    interval_cases k <;> fin_cases i <;> simp [vE, CElm.disp, move, vU, push, Cable.wu]
  have hm : move vU 1 2 0 = vU := by funext a i; simp [move]
  have hp0 : push Cable.wu 0 1 0 = Cable.wu := by funext a i; simp [push]
  have hev : ∀ t q', Cable.evalInt 2 0 1 1 ![3, 4, 0] ![0, 0, 0] Cable.wf (push Cable.wu 0 1 t) = .ok q' →
      Works vC [vE] (move vU 1 2 t) ∧ (out vC vE vP (vE.disp (move vU 1 2 t))).S 0 0 = q'.S 0 0 ∧
      (∀ i j, (out vC vE vP (vE.disp (move vU 1 2 t))).Km 0 i 0 j = q'.Km 0 i 0 j) ∧ ∀ i j, (out vC vE vP (vE.disp (move vU 1 2 t))).Kg 0 i 0 j = q'.Kg 0 i 0 j := by
    intro t q' hq
    obtain ⟨q3, k1, k2, k3, k4⟩ := same_eval (push Cable.wu 0 1 t) (by funext i; simp [push, Cable.wu]; fin_cases i <;> rfl) q' hq
    have k1' : Cable.evalInt 3 0 1 1 ![3, 4, 0] ![0, 0, 0] vf (vE.disp (move vU 1 2 t)) = .ok q3 := by
      rw [← k1]; exact evalInt_congr vC vE vP _ _ (hd t)
    obtain ⟨w1, w2⟩ := v_works _ _ k1'
    rw [w2]
    exact ⟨w1, k2 0, k3, k4⟩
  have h0 := hev 0 p (by rw [hp0]; exact h1)
  refine ⟨vC, 3, vX, vU, [vE], fun t => [vE].map fun e => (e, matE vC e (move vU 1 2 t), vecE vC e (move vU 1 2 t)), le_refl _, v_good, v_distinct, v_curved, ?_, ?_, ?_⟩
  · have := assemble_ok vC [vE] _ h0.1
    simp only [hm] at this ⊢; exact this
  · filter_upwards [h2] with t ht
    exact assemble_ok vC [vE] _ (hev t _ ht).1
  · intro hD
    have e1 : (fun t => residual (fun _ _ => 0) ([vE].map fun e => (e, matE vC e (move vU 1 2 t), vecE vC e (move vU 1 2 t))) 1 1) =ᶠ[nhds 0] fun t => (q t).S 0 0 := by
      filter_upwards [h2] with t ht
      rw [v_residual]
      exact (hev t _ ht).2.1
    have e2 : tangent ([vE].map fun e => (e, matE vC e (move vU 1 2 0), vecE vC e (move vU 1 2 0))) 1 1 1 2 = p.Km 0 0 0 1 + p.Kg 0 0 0 1 := by
      have := tangent_eq vC [vE] (move vU 1 2 0) 1 1 0 1
      simp only [Fin.val_zero, Fin.val_one, zero_add, Fin.isValue] at this
      rw [show (1 + 1 : Nat) = 2 from rfl] at this
      rw [this]
      have : stiff vC vE (vE.disp (move vU 1 2 0)) 0 0 0 1 = p.Km 0 0 0 1 + p.Kg 0 0 0 1 := by
        rw [← h0.2.2.1, ← h0.2.2.2]; simp [stiff, vE]
      simp [vE, Finset.sum_range_succ] at this ⊢
      exact this
    rw [e2] at hD
    exact h3 (hD.congr_of_eventuallyEq e1.symm)

/-! ### Examples -/

/-- The witness meets the hypotheses: it has the loads under which it is in equilibrium, and is turned and moved. -/
example (C : Props) : ∃ F, Converged C 3 [vE] F vU (fun a _ => a = 1) vU := by
  have h := assemble_ok C [vE] vU (works C 3 vX [vE] v_good vU v_curved)
  exact ⟨fun a i => -asmV 3 (([vE].map fun e => (e, matE C e vU, vecE C e vU)).map fun e => (e.1.conn, e.2.2)) a i, _, h, fun a i _ _ _ => by simp [residual], fun _ _ _ _ _ => rfl⟩

example (C : Props) (hm : 0 ≤ C.lineMass) (F : Nat → Nat → ℝ) : ∃ r, assemble C vU [vE] = .ok r ∧ ∀ b j, b < 3 → j < 3 →
    HasDerivAt (fun s => energyAll C [vE] (move vU (b + 1) (j + 1) s) - dotN 3 3 F (move vU (b + 1) (j + 1) s)) (-residual F r (b + 1) (j + 1)) 0 :=
  (C144_stationary C hm 3 vX [vE] v_good v_distinct F vU (fun _ _ => False) vU v_curved).1

/-- A cable that is curved initially, turned by a quarter. -/
noncomputable def kP : CPt := ⟨![3, 4, 0], ![0, 1, 0], vf, fun _ => 1 / 3, 1⟩
noncomputable def kE : CElm := ⟨3, fun s => s, [kP]⟩

theorem k_first : (fun i : Fin 3 => ∑ k ∈ Finset.range kE.nen, kP.f.dN k * (fun a i => vX a i + vU a i) (kE.node (k + 1)) (i.val + 1)) = ![3, 4, 0] := by
  funext i; fin_cases i <;> simp [kE, kP, vf, vX, vU, Finset.sum_range_succ]

theorem k_second : (fun i : Fin 3 => ∑ k ∈ Finset.range kE.nen, kP.f.d2N k * (fun a i => vX a i + vU a i) (kE.node (k + 1)) (i.val + 1)) = ![0, 1, 0] := by
  funext i; fin_cases i <;> simp [kE, kP, vf, vX, vU, Finset.sum_range_succ]

theorem k_len : (1 : ℝ) / 1000000000000 ≤ len (cross ![3, 4, 0] ![0, 1, 0]) := by
  rw [Cable.w_cross, Cable.w_len]; norm_num

theorem k_good : Good 3 (fun a i => vX a i + vU a i) [kE] := by
  intro e he
  obtain rfl := List.mem_singleton.mp he
  refine ⟨fun s hs => ?_, fun p hp => ?_⟩
  · simp only [kE] at hs ⊢; omega
  · simp only [kE, List.mem_singleton] at hp
    subst hp
    exact ⟨by simp [kE, kP], by simp [kE, kP, vf, Finset.sum_range_succ], by simp [kE, kP, vf, Finset.sum_range_succ], fun i => (congrFun k_first i).symm, fun i => (congrFun k_second i).symm,
      ⟨_, Cable.axes_ok _ _ k_len⟩⟩

theorem k_curved : Curved [kE] fun a i => vX a i + vU a i := by
  intro e he p hp
  obtain rfl := List.mem_singleton.mp he
  simp only [kE, List.mem_singleton] at hp
  subst hp
  have := k_len
  rw [← k_first, ← k_second] at this
  exact this

example (C : Props) (hm : 0 ≤ C.lineMass) : ∃ (u : Nat → Nat → ℝ) (s : _), u 1 1 = 0 ∧ assemble C u [kE] = .ok s ∧
    ∀ F a, ∀ i : Fin 3, residual F s a (i.val + 1) = F a (i.val + 1) + weight C [kE] a i := by
  obtain ⟨s, h⟩ := C144_rigid C hm 3 _ [kE] k_good k_curved
    (fun a i => if h : 1 ≤ i ∧ i ≤ 3 then (fun j : Fin 3 => if j = 0 then vX 1 1 - turned Shell.quarter (fun i => vX 1 i + vU 1 i) 0 else 7) ⟨i - 1, by omega⟩ + turned Shell.quarter (fun k => vX a k + vU a k) ⟨i - 1, by omega⟩ - (vX a i + vU a i) else 0)
    Shell.quarter (fun j : Fin 3 => if j = 0 then vX 1 1 - turned Shell.quarter (fun i => vX 1 i + vU 1 i) 0 else 7) Shell.quarter_rot (by
    intro a _ i
    have h : 1 ≤ i.val + 1 ∧ i.val + 1 ≤ 3 := by omega
    simp only [h, and_self, dite_true, Nat.add_sub_cancel, Fin.eta]
    ring)
  refine ⟨_, s, ?_, h⟩
  simp [vU]

/-- A cable with tangent vector and curvature along coordinate axes is aligned. -/
example : ∃ X, Good 3 X [⟨3, fun s => s, [⟨![1, 0, 0], ![0, 1, 0], vf, fun _ => 1 / 3, 1⟩]⟩] ∧ Distinct [⟨3, fun s => s, [⟨![1, 0, 0], ![0, 1, 0], vf, fun _ => 1 / 3, 1⟩]⟩] ∧
    Aligned [⟨3, fun s => s, [⟨![1, 0, 0], ![0, 1, 0], vf, fun _ => 1 / 3, 1⟩]⟩] X := by
  have hl : (1 : ℝ) / 1000000000000 < len (cross ![1, 0, 0] ![0, 1, 0]) := by rw [Cable.t_len]; norm_num
  refine ⟨fun a i => if a = 1 ∧ i = 1 then 1 else if a = 2 ∧ i = 2 then 1 else 0, ?_, ?_, ?_⟩
  · intro e he
    obtain rfl := List.mem_singleton.mp he
    refine ⟨fun s hs => ?_, fun p hp => ?_⟩
    · simp only at hs ⊢; omega
    · obtain rfl := List.mem_singleton.mp hp
      refine ⟨by simp, by simp [vf, Finset.sum_range_succ], by simp [vf, Finset.sum_range_succ], fun i => ?_, fun i => ?_, ⟨_, Cable.axes_ok _ _ hl.le⟩⟩
      · fin_cases i <;> simp [vf, Finset.sum_range_succ]
      · fin_cases i <;> simp [vf, Finset.sum_range_succ]
  · intro e he s t hs ht h
    obtain rfl := List.mem_singleton.mp he
    simp only at h; omega
  · intro e he p hp dx ddx h1 h2
    obtain rfl := List.mem_singleton.mp he
    obtain rfl := List.mem_singleton.mp hp
    have e1 : dx = ![1, 0, 0] := by rw [h1]; funext i; fin_cases i <;> simp [vf, Finset.sum_range_succ]
    have e2 : ddx = ![0, 1, 0] := by rw [h2]; funext i; fin_cases i <;> simp [vf, Finset.sum_range_succ]
    subst e1 e2
    exact ⟨hl, 1, 2, by decide, by simp, by simp, by simp⟩

end Verif.CableStatic
