/-
Property C148: motions of solids with large deformations (total Lagrangian formulation): balance of momentum and angular momentum, kinetic energy, balance of energy.
-/
import Verif.Props.FDStatic
import Verif.Props.NLShellStatic
import Verif.Props.FDEnergy
import Verif.Model.FDDynamic
import Mathlib.Analysis.Calculus.MeanValue

set_option linter.unusedSectionVars false
set_option linter.unusedSimpArgs false
set_option linter.unusedVariables false

namespace Verif.FDDynamic

open Verif.Cont Verif.ContSpec Verif.FiniteSpec Verif.Finite
open Verif.NLShellStatic (list_zero sum_list mul_list add_list sub_list)
open Verif.Struct (asmV asmK dotN loc nodal one_nodal)

/-! ### Specification -/

/-- The nodes of the elements are nodes of the model; the basis functions of an integration point belong to the nodes of its element, and their sum is one. -/
def Sane (n : Nat) (es : List MElm) : Prop := Nodes n (es.map MElm.static) ∧ ∀ e ∈ es, ∀ p ∈ e.pts, p.pt.N.n = e.nen ∧ ∑ k ∈ Finset.range e.nen, p.pt.N.e (k + 1) = 1

/-- Interpolation of nodal values in an integration point. -/
def at1 (e : MElm) (p : MPt) (y : Nat → Nat → ℝ) (i : Nat) : ℝ := ∑ k ∈ Finset.range e.nen, p.pt.N.e (k + 1) * y (e.node (k + 1)) i

/-- Sum over the integration points of all elements of mass, in the undeformed volume, times a value. -/
noncomputable def overMass (es : List MElm) (g : MElm → MPt → ℝ) : ℝ := (es.map fun e => (e.pts.map fun p => p.rho * p.pt.w * g e p).sum).sum

/-- The body forces at a node. -/
noncomputable def load (es : List MElm) (a i : Nat) : ℝ :=
  (es.map fun e => ∑ s ∈ Finset.range e.nen, if e.node (s + 1) = a then (e.pts.map fun p => p.pt.N.e (s + 1) * (p.pt.w * if p.fZero then 0 else p.f i)).sum else 0).sum

/-- `u + t v`. -/
def along (u v : Nat → Nat → ℝ) (t : ℝ) : Nat → Nat → ℝ := fun a i => u a i + t * v a i

/-- The strain energy of linear materials with the constitutive matrices `D`, for the Green-Lagrange strains. -/
noncomputable def strainEnergy (d : Nat) (D : MPt → DMat ℝ) (es : List MElm) (u : Nat → Nat → ℝ) : ℝ :=
  (es.map fun e => 1 / 2 * (e.pts.map fun p => p.pt.w * ∑ k ∈ Finset.range (D p).nr, ∑ l ∈ Finset.range (D p).nc,
    greenV d (grad e.nen (e.static.at u) p.pt.dN.e) (k + 1) * (D p).e (k + 1) (l + 1) * greenV d (grad e.nen (e.static.at u) p.pt.dN.e) (l + 1)).sum).sum

/-! ### Elements -/

theorem dot_unit (d n : Nat) (A : DVec ℝ) (h : A.n = d * n) (a i : Nat) (ha : a < n) (hi : i < d) : A.dot (dofVec d (Cont.unit a i)) = A.e (d * a + i + 1) := by
  unfold DVec.dot
  rw [h, sum_range_mul, Finset.sum_eq_single a]
  · rw [Finset.sum_eq_single i]
    · rw [dofVec_eq _ _ _ _ hi]; simp [Cont.unit]
    · intro k hk hne
      rw [dofVec_eq _ _ _ _ (Finset.mem_range.mp hk)]; simp [Cont.unit, hne]
    · intro h; exact absurd (Finset.mem_range.mpr hi) h
  · intro b _ hb
    refine Finset.sum_eq_zero fun k hk => ?_
    rw [dofVec_eq _ _ _ _ (Finset.mem_range.mp hk)]; simp [Cont.unit, hb]
  · intro h; exact absurd (Finset.mem_range.mpr ha) h

theorem unit_sum (n d : Nat) (g : Nat → ℝ) (a i k : Nat) (ha : a < n) : ∑ b ∈ Finset.range n, g (b + 1) * Cont.unit (K := ℝ) a i (b + 1) (k + 1) = if k = i then g (a + 1) else 0 := by
  rw [Finset.sum_eq_single a]
  · simp [Cont.unit]
  · intro b _ hb; simp [Cont.unit, hb]
  · intro h; exact absurd (Finset.mem_range.mpr ha) h

theorem step (d n : Nat) (p : MPt) (hN : p.pt.N.n = n) (E : DMat ℝ × Loads ℝ) (h1 : E.1.nr = d * n) (h2 : E.1.nc = d * n) (h3 : E.2.ES.n = d * n) (h4 : E.2.sumLoad.n = d) :
    ∃ E', tlInertia d p.pt.N p.pt.w E.1 E.2 p.rho p.f p.fZero = .ok E' ∧ E'.1.nr = d * n ∧ E'.1.nc = d * n ∧ E'.2.ES.n = d * n ∧ E'.2.sumLoad.n = d ∧
      (∀ a i b j, a < n → i < d → b < n → j < d → E'.1.e (d * a + i + 1) (d * b + j + 1) = E.1.e (d * a + i + 1) (d * b + j + 1) +
        if j = i then p.pt.N.e (a + 1) * (p.pt.N.e (b + 1) * (p.rho * p.pt.w)) else 0) ∧
      ∀ a i, a < n → i < d → E'.2.ES.e (d * a + i + 1) = E.2.ES.e (d * a + i + 1) + p.pt.N.e (a + 1) * (p.pt.w * if p.fZero then 0 else p.f (i + 1)) := by
  subst hN
  obtain ⟨M, hM, m1, m2, m3⟩ := formMass_ok d E.1 p.pt.N p.rho p.pt.w h1 h2
  have hm : ∀ a i b j, a < p.pt.N.n → i < d → b < p.pt.N.n → j < d → M.e (d * a + i + 1) (d * b + j + 1) = E.1.e (d * a + i + 1) (d * b + j + 1) +
        if j = i then p.pt.N.e (a + 1) * (p.pt.N.e (b + 1) * (p.rho * p.pt.w)) else 0 := by
    intro a i b j ha hi hb hj
    have := m3 (Cont.unit a i) (Cont.unit b j)
    rw [bil_unit d _ M (m1.trans h1) (m2.trans h2) a i b j ha hi hb hj, bil_unit d _ E.1 h1 h2 a i b j ha hi hb hj] at this
    rw [this]
    congr 1
    simp only [unit_sum _ d p.pt.N.e a i _ ha, unit_sum _ d p.pt.N.e b j _ hb]
    rw [Finset.sum_eq_single i]
    · by_cases h : j = i
      · subst h; simp; ring
      · rw [if_neg (Ne.symm h), if_neg h]; ring
    · intro k _ hk; rw [if_neg hk, zero_mul]
    · intro h; exact absurd (Finset.mem_range.mpr hi) h
  unfold tlInertia
  rw [hM]
  simp only [Res.bind]
  unfold formBodyForce
  by_cases hz : p.fZero
  · refine ⟨(M, E.2), by simp [hz], m1.trans h1, m2.trans h2, h3, h4, hm, fun a i _ _ => by simp [hz]⟩
  · obtain ⟨B, hB, b1, b2⟩ := DVec.addMany_ok (A := E.2.ES)
      (l := (List.range p.pt.N.n).flatMap fun a => (List.range d).map fun i => (d * a + i + 1, p.f (i + 1) * p.pt.w * p.pt.N.e (a + 1))) (by
        intro x hx
        simp only [List.mem_flatMap, List.mem_range, List.mem_map] at hx
        obtain ⟨a, ha, i, hi, rfl⟩ := hx
        exact ⟨by simp, by rw [h3]; exact dof_lt ha hi⟩)
    obtain ⟨s, hs, s1, -⟩ := addMany_sum d E.2.sumLoad (fun i => p.f (i + 1) * p.pt.w) h4
    refine ⟨(M, ⟨B, s⟩), ?_, m1.trans h1, m2.trans h2, b1.trans h3, s1, hm, fun a i ha hi => ?_⟩
    · simp only [hz, Bool.false_eq_true, if_false, hB, hs, Res.bind]
    · have := b2 (dofVec d (Cont.unit a i))
      rw [dot_unit d _ B (b1.trans h3) a i ha hi, dot_unit d _ E.2.ES h3 a i ha hi] at this
      simp only [this]
      congr 1
      simp only [sum_flatMap, List.map_map, Function.comp_def, sum_list_range]
      rw [Finset.sum_eq_single a]
      · rw [Finset.sum_eq_single i]
        · rw [dofVec_eq _ _ _ _ hi]; simp [Cont.unit, hz]; ring
        · intro k hk hne
          rw [dofVec_eq _ _ _ _ (Finset.mem_range.mp hk)]; simp [Cont.unit, hne]
        · intro h; exact absurd (Finset.mem_range.mpr hi) h
      · intro b _ hb
        refine Finset.sum_eq_zero fun k hk => ?_
        rw [dofVec_eq _ _ _ _ (Finset.mem_range.mp hk)]; simp [Cont.unit, hb]
      · intro h; exact absurd (Finset.mem_range.mpr ha) h

theorem add_ok (d n : Nat) (pts : List MPt) (hN : ∀ p ∈ pts, p.pt.N.n = n) (E : DMat ℝ × Loads ℝ) (h1 : E.1.nr = d * n) (h2 : E.1.nc = d * n) (h3 : E.2.ES.n = d * n) (h4 : E.2.sumLoad.n = d) :
    ∃ E', addInertia d pts E = .ok E' ∧ 
      (∀ a i b j, a < n → i < d → b < n → j < d → E'.1.e (d * a + i + 1) (d * b + j + 1) = E.1.e (d * a + i + 1) (d * b + j + 1) +
        if j = i then (pts.map fun p => p.pt.N.e (a + 1) * (p.pt.N.e (b + 1) * (p.rho * p.pt.w))).sum else 0) ∧
      ∀ a i, a < n → i < d → E'.2.ES.e (d * a + i + 1) = E.2.ES.e (d * a + i + 1) + (pts.map fun p => p.pt.N.e (a + 1) * (p.pt.w * if p.fZero then 0 else p.f (i + 1))).sum := by
  induction pts generalizing E with
  | nil => exact ⟨E, rfl, fun _ _ _ _ _ _ _ _ => by simp, fun _ _ _ _ => by simp⟩
  | cons p l ih =>
    obtain ⟨E1, e0, e1, e2, e3, e4, e5, e6⟩ := step d n p (hN p (by simp)) E h1 h2 h3 h4
    obtain ⟨E2, f0, f1, f2⟩ := ih (fun q hq => hN q (by simp [hq])) E1 e1 e2 e3 e4
    refine ⟨E2, by simp only [addInertia, e0, Res.bind, f0], fun a i b j ha hi hb hj => ?_, fun a i ha hi => ?_⟩
    · rw [f1 a i b j ha hi hb hj, e5 a i b j ha hi hb hj]
      by_cases h : j = i
      · simp only [if_pos h, List.map_cons, List.sum_cons, add_assoc]
      · simp only [if_neg h, add_zero]
    · rw [f2 a i ha hi, e6 a i ha hi]
      simp only [List.map_cons, List.sum_cons, add_assoc]

/-- Matrix and vector of an element, when its static analysis succeeds with the vector `f`. -/
def Parts (d : Nat) (e : MElm) (f : DVec ℝ) (M : DMat ℝ) (v : DVec ℝ) : Prop :=
  (∀ a i b j, a < e.nen → i < d → b < e.nen → j < d → M.e (d * a + i + 1) (d * b + j + 1) = if j = i then (e.pts.map fun p => p.pt.N.e (a + 1) * (p.pt.N.e (b + 1) * (p.rho * p.pt.w))).sum else 0) ∧
  ∀ a i, a < e.nen → i < d → v.e (d * a + i + 1) = f.e (d * a + i + 1) + (e.pts.map fun p => p.pt.N.e (a + 1) * (p.pt.w * if p.fZero then 0 else p.f (i + 1))).sum

theorem eval_ok (d : Nat) (hd : d = 2 ∨ d = 3) (tol epsR : ℝ) (X u : Nat → Nat → ℝ) (e : MElm) (hn : 0 < e.nen) (hN : ∀ p ∈ e.pts, p.pt.N.n = e.nen) (h : Ready d tol X u e.static) :
    ∃ A f M v, (e.static.eval d tol epsR u = .ok (A, f) ∧ f.n = d * e.nen) ∧ e.eval d tol epsR u = .ok (M, v) ∧ Parts d e f M v := by
  obtain ⟨A, f, h1, hf, -⟩ := C122_total_balance d hd e.nen hn tol epsR _ _ _ h
  have h1' : e.static.eval d tol epsR u = .ok (A, f) := h1
  obtain ⟨E, e0, e1, e2⟩ := add_ok d e.nen e.pts hN (DMat.zero (d * e.nen) (d * e.nen), ⟨f, DVec.zero d⟩) rfl rfl hf rfl
  refine ⟨A, f, E.1, E.2.ES, ⟨h1', hf⟩, ?_, fun a i b j ha hi hb hj => ?_, e2⟩
  · simp only [MElm.eval, h1', Res.bind, e0]
  · rw [e1 a i b j ha hi hb hj]
    simp [DMat.zero]

/-! ### Assembly -/

theorem assemble_ok (d : Nat) (tol epsR : ℝ) (u : Nat → Nat → ℝ) (es : List MElm) (A : MElm → DMat ℝ) (f : MElm → DVec ℝ) (h : ∀ e ∈ es, e.eval d tol epsR u = .ok (A e, f e)) :
    assemble d tol epsR u es = .ok (es.map fun e => (e, A e, f e)) := by
  induction es with
  | nil => rfl
  | cons e l ih => simp only [assemble, h e (by simp), Res.bind, ih fun e he => h e (by simp [he]), List.map_cons]

theorem static_ok (d : Nat) (tol epsR : ℝ) (u : Nat → Nat → ℝ) (es : List MElm) (A : MElm → DMat ℝ) (f : MElm → DVec ℝ) (h : ∀ e ∈ es, e.static.eval d tol epsR u = .ok (A e, f e)) :
    Finite.assemble d tol epsR u (es.map MElm.static) = .ok (es.map fun e => (e.static, A e, f e)) := by
  induction es with
  | nil => rfl
  | cons e l ih => simp only [Finite.assemble, h e (by simp), Res.bind, ih fun e he => h e (by simp [he]), List.map_cons]

/-- The results of all elements. -/
theorem both (d : Nat) (hd : d = 2 ∨ d = 3) (n : Nat) (tol epsR : ℝ) (X u : Nat → Nat → ℝ) (es : List MElm) (hs : Sane n es) (h : ∀ e ∈ es, Ready d tol X u e.static) :
    ∃ (A : MElm → DMat ℝ) (f : MElm → DVec ℝ) (M : MElm → DMat ℝ) (v : MElm → DVec ℝ), Finite.assemble d tol epsR u (es.map MElm.static) = .ok (es.map fun e => (e.static, A e, f e)) ∧
      assemble d tol epsR u es = .ok (es.map fun e => (e, M e, v e)) ∧ (∀ e ∈ es, Parts d e (f e) (M e) (v e)) ∧ ∀ e ∈ es, e.static.eval d tol epsR u = .ok (A e, f e) ∧ (f e).n = d * e.nen := by
  obtain ⟨A, f, M, v, hp⟩ := pick4 es (fun e A f M v => (e.static.eval d tol epsR u = .ok (A, f) ∧ f.n = d * e.nen) ∧ e.eval d tol epsR u = .ok (M, v) ∧ Parts d e f M v) fun e he =>
    eval_ok d hd tol epsR X u e (hs.1 e.static (List.mem_map.mpr ⟨e, he, rfl⟩)).1 (fun p hp => (hs.2 e he p hp).1) (h e he)
  exact ⟨A, f, M, v, static_ok d tol epsR u es A f fun e he => (hp e he).1.1, assemble_ok d tol epsR u es M v fun e he => (hp e he).2.1, fun e he => (hp e he).2.2, fun e he => (hp e he).1⟩

theorem row (d : Nat) (e : MElm) (f v : DVec ℝ) (M : DMat ℝ) (h : Parts d e f M v) (y : Nat → Nat → ℝ) (s i : Nat) (hs : s < e.nen) (hi : i < d) :
    ∑ t ∈ Finset.range e.nen, ∑ j ∈ Finset.range d, M.e (d * s + (i + 1)) (d * t + (j + 1)) * loc e.static.conn y (t + 1) (j + 1) =
      (e.pts.map fun p => p.pt.N.e (s + 1) * (p.rho * p.pt.w * at1 e p y (i + 1))).sum := by
  have h1 : ∀ t, t ∈ Finset.range e.nen → ∑ j ∈ Finset.range d, M.e (d * s + (i + 1)) (d * t + (j + 1)) * loc e.static.conn y (t + 1) (j + 1) =
      (e.pts.map fun p => p.pt.N.e (s + 1) * (p.pt.N.e (t + 1) * (p.rho * p.pt.w)) * y (e.node (t + 1)) (i + 1)).sum := by
    intro t ht
    rw [Finset.sum_eq_single i]
    · rw [← add_assoc, ← add_assoc, h.1 s i t i hs hi (Finset.mem_range.mp ht) hi, if_pos rfl, mul_comm, mul_list]
      refine congrArg List.sum (List.map_congr_left fun p _ => ?_)
      simp only [loc, FElm.conn, MElm.static]
      ring
    · intro j hj hne
      rw [← add_assoc, ← add_assoc, h.1 s i t j hs hi (Finset.mem_range.mp ht) (Finset.mem_range.mp hj), if_neg hne, zero_mul]
    · intro h; exact absurd (Finset.mem_range.mpr hi) h
  rw [Finset.sum_congr rfl h1]
  rw [sum_list e.nen e.pts fun t p => p.pt.N.e (s + 1) * (p.pt.N.e (t + 1) * (p.rho * p.pt.w)) * y (e.node (t + 1)) (i + 1)]
  refine congrArg List.sum (List.map_congr_left fun p _ => ?_)
  rw [at1, Finset.mul_sum, Finset.mul_sum]
  exact Finset.sum_congr rfl fun t _ => by ring

/-- The inertia at a node: mass times accelerations at the points, distributed by the basis functions. -/
theorem inertia_all (d n : Nat) (es : List MElm) (hn : ∀ e ∈ es, ∀ s, s < e.nen → 1 ≤ e.node (s + 1) ∧ e.node (s + 1) ≤ n) (f v : MElm → DVec ℝ) (M : MElm → DMat ℝ) (h : ∀ e ∈ es, Parts d e (f e) (M e) (v e))
    (y : Nat → Nat → ℝ) (a i : Nat) (hi : i < d) :
    inertia d n y (es.map fun e => (e, M e, v e)) a (i + 1) =
      (es.map fun e => ∑ s ∈ Finset.range e.nen, if e.node (s + 1) = a then (e.pts.map fun p => p.pt.N.e (s + 1) * (p.rho * p.pt.w * at1 e p y (i + 1))).sum else 0).sum := by
  induction es with
  | nil => simp [nodal, inertia, asmK]
  | cons e l ih =>
    have := ih (fun k hk => hn k (by simp [hk])) fun k hk => h k (by simp [hk])
    rw [List.map_cons, List.map_cons, List.sum_cons, ← this]
    have e1 := one_nodal d n e.static.conn (M e) (hn e (by simp)) y a (i + 1)
    have e2 : inertia d n y ((e, M e, v e) :: l.map fun e => (e, M e, v e)) a (i + 1) = (∑ b ∈ Finset.range n, ∑ j ∈ Finset.range d, (∑ s ∈ Finset.range e.static.conn.nen, ∑ t ∈ Finset.range e.static.conn.nen,
        if e.static.conn.node (s + 1) = a ∧ e.static.conn.node (t + 1) = b + 1 then (M e).e (d * s + (i + 1)) (d * t + (j + 1)) else 0) * y (b + 1) (j + 1)) + inertia d n y (l.map fun e => (e, M e, v e)) a (i + 1) := by
      simp only [nodal, inertia, asmK, List.map_cons, List.sum_cons, add_mul, Finset.sum_add_distrib]
    rw [e2, e1]
    refine congrArg (· + _) (Finset.sum_congr rfl fun s hs => ?_)
    by_cases ha : e.node (s + 1) = a
    · rw [if_pos ha]
      exact (if_pos ha).trans (row d e (f e) (v e) (M e) (h e (by simp)) y s i (Finset.mem_range.mp hs) hi)
    · rw [if_neg ha]
      exact if_neg ha

theorem scatter (n : Nat) (es : List MElm) (h : ∀ e ∈ es, ∀ s, s < e.nen → 1 ≤ e.node (s + 1) ∧ e.node (s + 1) ≤ n) (v : MElm → Nat → ℝ) (z : Nat → ℝ) :
    ∑ a ∈ Finset.range n, z (a + 1) * (es.map fun e => ∑ s ∈ Finset.range e.nen, if e.node (s + 1) = a + 1 then v e s else 0).sum =
      (es.map fun e => ∑ s ∈ Finset.range e.nen, z (e.node (s + 1)) * v e s).sum := by
  simp only [mul_list]
  rw [sum_list n es fun a e => z (a + 1) * ∑ s ∈ Finset.range e.nen, if e.node (s + 1) = a + 1 then v e s else 0]
  refine congrArg List.sum (List.map_congr_left fun e he => ?_)
  simp only [Finset.mul_sum]
  rw [Finset.sum_comm]
  refine Finset.sum_congr rfl fun s hs => ?_
  obtain ⟨n1, n2⟩ := h e he s (Finset.mem_range.mp hs)
  rw [Finset.sum_eq_single (e.node (s + 1) - 1)]
  · rw [Nat.sub_add_cancel n1, if_pos rfl]
  · intro a _ ha
    rw [if_neg (by omega), mul_zero]
  · intro ha; exact absurd (Finset.mem_range.mpr (by omega)) ha

theorem nodes_of (n : Nat) (es : List MElm) (h : Sane n es) : ∀ e ∈ es, ∀ s, s < e.nen → 1 ≤ e.node (s + 1) ∧ e.node (s + 1) ≤ n :=
  fun e he => (h.1 e.static (List.mem_map.mpr ⟨e, he, rfl⟩)).2

/-- Weighted sums of the inertia. -/
theorem inertia_sum (d n : Nat) (es : List MElm) (hs : Sane n es) (f v : MElm → DVec ℝ) (M : MElm → DMat ℝ) (h : ∀ e ∈ es, Parts d e (f e) (M e) (v e)) (y : Nat → Nat → ℝ) (i : Nat) (hi : i < d) :
    ∑ a ∈ Finset.range n, inertia d n y (es.map fun e => (e, M e, v e)) (a + 1) (i + 1) = overMass es (fun e p => at1 e p y (i + 1)) ∧
    ∀ (x : Nat → Nat → ℝ) (j : Nat), ∑ a ∈ Finset.range n, x (a + 1) j * inertia d n y (es.map fun e => (e, M e, v e)) (a + 1) (i + 1) = overMass es (fun e p => at1 e p x j * at1 e p y (i + 1)) := by
  have hn := nodes_of n es hs
  have key := fun z => scatter n es hn (fun e s => (e.pts.map fun p => p.pt.N.e (s + 1) * (p.rho * p.pt.w * at1 e p y (i + 1))).sum) z
  have hi := fun a => inertia_all d n es hn f v M h y a i hi
  refine ⟨?_, fun x j => ?_⟩
  · have := key fun _ => 1
    simp only [one_mul] at this
    simp only [hi]
    rw [this]
    refine congrArg List.sum (List.map_congr_left fun e he => ?_)
    rw [sum_list e.nen e.pts fun s p => p.pt.N.e (s + 1) * (p.rho * p.pt.w * at1 e p y (i + 1))]
    refine congrArg List.sum (List.map_congr_left fun p hp => ?_)
    rw [← Finset.sum_mul, (hs.2 e he p hp).2, one_mul]
  · have := key fun a => x a j
    simp only [hi]
    rw [this]
    refine congrArg List.sum (List.map_congr_left fun e he => ?_)
    simp only [mul_list]
    rw [sum_list e.nen e.pts fun s p => x (e.node (s + 1)) j * (p.pt.N.e (s + 1) * (p.rho * p.pt.w * at1 e p y (i + 1)))]
    refine congrArg List.sum (List.map_congr_left fun p hp => ?_)
    rw [show p.rho * p.pt.w * (at1 e p x j * at1 e p y (i + 1)) = at1 e p x j * (p.rho * p.pt.w * at1 e p y (i + 1)) by ring]
    rw [show at1 e p x j = ∑ k ∈ Finset.range e.nen, p.pt.N.e (k + 1) * x (e.node (k + 1)) j from rfl, Finset.sum_mul]
    exact Finset.sum_congr rfl fun s _ => by ring

theorem over_sub (es : List MElm) (f g : MElm → MPt → ℝ) : overMass es f - overMass es g = overMass es fun e p => f e p - g e p := by
  unfold overMass
  rw [sub_list]
  refine congrArg List.sum (List.map_congr_left fun e _ => ?_)
  rw [sub_list]
  exact congrArg List.sum (List.map_congr_left fun p _ => by ring)

theorem over_mul (es : List MElm) (c : ℝ) (f : MElm → MPt → ℝ) : c * overMass es f = overMass es fun e p => c * f e p := by
  unfold overMass
  rw [mul_list]
  refine congrArg List.sum (List.map_congr_left fun e _ => ?_)
  rw [mul_list]
  exact congrArg List.sum (List.map_congr_left fun p _ => by ring)

theorem over_sum (es : List MElm) (d : Nat) (f : Nat → MElm → MPt → ℝ) : ∑ i ∈ Finset.range d, overMass es (f i) = overMass es fun e p => ∑ i ∈ Finset.range d, f i e p := by
  unfold overMass
  rw [sum_list d es fun i e => (e.pts.map fun p => p.rho * p.pt.w * f i e p).sum]
  refine congrArg List.sum (List.map_congr_left fun e _ => ?_)
  rw [sum_list d e.pts fun i p => p.rho * p.pt.w * f i e p]
  exact congrArg List.sum (List.map_congr_left fun p _ => by rw [Finset.mul_sum])

/-! ### Motions -/

/-- The residual is that of static analysis with the body forces as nodal loads, minus the inertia. -/
theorem residual_static (d n : Nat) (es : List MElm) (A M : MElm → DMat ℝ) (f v : MElm → DVec ℝ) (h : ∀ e ∈ es, Parts d e (f e) (M e) (v e)) (F acc : Nat → Nat → ℝ) (a i : Nat) (hi : i < d) :
    residual d n F acc (es.map fun e => (e, M e, v e)) a (i + 1) =
      Finite.residual d (fun a i => F a i + load es a i) (es.map fun e => (e.static, A e, f e)) a (i + 1) - inertia d n acc (es.map fun e => (e, M e, v e)) a (i + 1) := by
  have key : asmV d ((es.map fun e => (e, M e, v e)).map fun e => (e.1.static.conn, e.2.2)) a (i + 1) = load es a (i + 1) + asmV d ((es.map fun e => (e.static, A e, f e)).map fun e => (e.1.conn, e.2.2)) a (i + 1) := by
    simp only [asmV, load, List.map_map, Function.comp_def]
    rw [add_list]
    refine congrArg List.sum (List.map_congr_left fun e he => ?_)
    simp only [FElm.conn, MElm.static]
    rw [← Finset.sum_add_distrib]
    refine Finset.sum_congr rfl fun s hs' => ?_
    by_cases hs : e.node (s + 1) = a
    · refine (if_pos hs).trans (Eq.symm ((congrArg₂ (· + ·) (if_pos hs) (if_pos hs)).trans (Eq.symm ?_)))
      rw [← add_assoc, (h e he).2 s i (Finset.mem_range.mp hs') hi, add_comm]
    · exact (if_neg hs).trans (Eq.symm ((congrArg₂ (· + ·) (if_neg hs) (if_neg hs)).trans (add_zero 0)))
  simp only [residual, Finite.residual]
  rw [key]
  ring

/-- C148 (rest): a state without accelerations solves the equations of motion exactly if it is converged in static analysis, with the body forces as nodal loads. -/
theorem C148_rest (d : Nat) (hd : d = 2 ∨ d = 3) (n : Nat) (tol epsR : ℝ) (X u : Nat → Nat → ℝ) (es : List MElm) (hs : Sane n es) (h : ∀ e ∈ es, Ready d tol X u e.static) (F : Nat → Nat → ℝ) (fixed : Nat → Nat → Prop) :
    Motion d n tol epsR es F fixed u (fun _ _ => 0) ↔ Finite.Converged d n tol epsR (es.map MElm.static) (fun a i => F a i + load es a i) u fixed u := by
  obtain ⟨A, f, M, v, b1, b2, b3, -⟩ := both d hd n tol epsR X u es hs h
  have z : ∀ a i, inertia d n (fun _ _ => 0) (es.map fun e => (e, M e, v e)) a i = 0 := fun a i => by simp [inertia, nodal]
  constructor
  · rintro ⟨r, h1, h2⟩
    rw [b2] at h1
    cases h1
    refine ⟨_, b1, fun a i ha hi hf => ?_, fun _ _ _ _ _ => rfl⟩
    have := h2 a i ha hi hf
    rwa [residual_static d n es A M f v b3 F _ _ _ hi, z, sub_zero] at this
  · rintro ⟨r, h1, h2, -⟩
    rw [b1] at h1
    cases h1
    refine ⟨_, b2, fun a i ha hi hf => ?_⟩
    rw [residual_static d n es A M f v b3 F _ _ _ hi, z, sub_zero]
    exact h2 a i ha hi hf

/-- C148 (momentum): when the equations of motion are met, the reactions vanish where nothing is held, and together with loads and body forces they are mass times acceleration, summed over the integration points; their moments about any
point, at the deformed positions, are the change of angular momentum. -/
theorem C148_momentum (d : Nat) (hd : d = 2 ∨ d = 3) (n : Nat) (tol epsR : ℝ) (X u acc : Nat → Nat → ℝ) (es : List MElm) (hs : Sane n es) (h : ∀ e ∈ es, Ready d tol X u e.static) (F : Nat → Nat → ℝ) (fixed : Nat → Nat → Prop)
    (hc : Motion d n tol epsR es F fixed u acc) : ∃ r, assemble d tol epsR u es = .ok r ∧
      (∀ a i, a < n → i < d → ¬ fixed (a + 1) (i + 1) → -residual d n F acc r (a + 1) (i + 1) = 0) ∧
      (∀ i, i < d → ∑ a ∈ Finset.range n, (-residual d n F acc r (a + 1) (i + 1) + F (a + 1) (i + 1) + load es (a + 1) (i + 1)) = overMass es fun e p => at1 e p acc (i + 1)) ∧
      ∀ (c : Nat → ℝ) i j, i < d → j < d → ∑ a ∈ Finset.range n,
        ((X (a + 1) (i + 1) + u (a + 1) (i + 1) - c (i + 1)) * (-residual d n F acc r (a + 1) (j + 1) + F (a + 1) (j + 1) + load es (a + 1) (j + 1)) -
        (X (a + 1) (j + 1) + u (a + 1) (j + 1) - c (j + 1)) * (-residual d n F acc r (a + 1) (i + 1) + F (a + 1) (i + 1) + load es (a + 1) (i + 1))) =
        overMass es fun e p => (at1 e p (fun a i => X a i + u a i) (i + 1) - c (i + 1)) * at1 e p acc (j + 1) - (at1 e p (fun a i => X a i + u a i) (j + 1) - c (j + 1)) * at1 e p acc (i + 1) := by
  obtain ⟨A, f, M, v, b1, b2, b3, -⟩ := both d hd n tol epsR X u es hs h
  obtain ⟨r, h1, h2⟩ := hc
  rw [b2] at h1
  cases h1
  obtain ⟨s, s1, -, s2, s3⟩ := C140_balance d hd n tol epsR X (es.map MElm.static) hs.1 (fun a i => F a i + load es a i) u (fun _ _ => True) u
    (fun e he => by obtain ⟨e', he', rfl⟩ := List.mem_map.mp he; exact h e' he') ⟨_, b1, fun _ _ _ _ hf => absurd trivial hf, fun _ _ _ _ _ => rfl⟩
  rw [b1] at s1
  cases s1
  have rs := fun a i (hi : i < d) => residual_static d n es A M f v b3 F acc a i hi
  have is := fun i hi => inertia_sum d n es hs f v M b3 acc i hi
  refine ⟨_, b2, fun a i ha hi hf => by rw [h2 a i ha hi hf, neg_zero], fun i hi => ?_, fun c i j hi hj => ?_⟩
  · rw [← (is i hi).1, ← sub_eq_zero, ← Finset.sum_sub_distrib, ← s2 (i + 1) (by omega) (by omega)]
    exact Finset.sum_congr rfl fun a _ => by rw [rs _ _ hi]; ring
  · have key : ∀ i j, j < d → ∑ a ∈ Finset.range n, (X (a + 1) (i + 1) + u (a + 1) (i + 1) - c (i + 1)) * inertia d n acc (es.map fun e => (e, M e, v e)) (a + 1) (j + 1) =
        overMass es fun e p => (at1 e p (fun a i => X a i + u a i) (i + 1) - c (i + 1)) * at1 e p acc (j + 1) := by
      intro i j hj
      simp only [sub_mul]
      rw [Finset.sum_sub_distrib, ← Finset.mul_sum, (is j hj).1, over_mul, (is j hj).2 (fun a i => X a i + u a i) (i + 1), over_sub]
    have s4 := s3 c (i + 1) (j + 1) (by omega) (by omega) (by omega) (by omega)
    rw [← over_sub, ← key i j hj, ← key j i hi, ← Finset.sum_sub_distrib, ← sub_eq_zero, ← Finset.sum_sub_distrib, ← s4]
    exact Finset.sum_congr rfl fun a _ => by rw [rs _ _ hi, rs _ _ hj]; ring

/-- C148 (kinetic energy): the mass matrix gives the kinetic energy of the solid with the velocities at the integration points, is symmetric, and is the same in all states of deformation. -/
theorem C148_kinetic (d : Nat) (hd : d = 2 ∨ d = 3) (n : Nat) (tol epsR : ℝ) (X u : Nat → Nat → ℝ) (es : List MElm) (hs : Sane n es) (h : ∀ e ∈ es, Ready d tol X u e.static) :
    ∃ r, assemble d tol epsR u es = .ok r ∧ ∀ y z : Nat → Nat → ℝ, dotN d n z (inertia d n y r) = overMass es (fun e p => ∑ i ∈ Finset.range d, at1 e p z (i + 1) * at1 e p y (i + 1)) ∧
      dotN d n z (inertia d n y r) = dotN d n y (inertia d n z r) ∧ ((∀ e ∈ es, ∀ p ∈ e.pts, 0 ≤ p.rho * p.pt.w) → 0 ≤ dotN d n y (inertia d n y r)) := by
  obtain ⟨A, f, M, v, b1, b2, b3, -⟩ := both d hd n tol epsR X u es hs h
  have main : ∀ y z : Nat → Nat → ℝ, dotN d n z (inertia d n y (es.map fun e => (e, M e, v e))) = overMass es (fun e p => ∑ i ∈ Finset.range d, at1 e p z (i + 1) * at1 e p y (i + 1)) := by
    intro y z
    unfold dotN
    rw [Finset.sum_comm, Finset.sum_congr rfl fun i hi => (inertia_sum d n es hs f v M b3 y i (Finset.mem_range.mp hi)).2 z (i + 1)]
    exact over_sum es d _
  refine ⟨_, b2, fun y z => ⟨main y z, ?_, fun hp => ?_⟩⟩
  · rw [main, main]
    unfold overMass
    refine congrArg List.sum (List.map_congr_left fun e _ => congrArg List.sum (List.map_congr_left fun p _ => ?_))
    exact congrArg _ (Finset.sum_congr rfl fun i _ => mul_comm _ _)
  · rw [main]
    unfold overMass
    refine List.sum_nonneg fun q hq => ?_
    obtain ⟨e, he, rfl⟩ := List.mem_map.mp hq
    refine List.sum_nonneg fun q hq => ?_
    obtain ⟨p, hpp, rfl⟩ := List.mem_map.mp hq
    exact mul_nonneg (hp e he p hpp) (Finset.sum_nonneg fun i _ => mul_self_nonneg _)

/-- C148 (energy): for linear materials (St. Venant-Kirchhoff), the power of reactions, loads and body forces is the rate of change of kinetic energy and strain energy. Where all strains are below the tolerance of the code, they
have to vanish. -/
theorem C148_energy (d : Nat) (hd : d = 2 ∨ d = 3) (n : Nat) (tol epsR : ℝ) (X u vel acc : Nat → Nat → ℝ) (es : List MElm) (hs : Sane n es) (h : ∀ e ∈ es, Ready d tol X u e.static) (F : Nat → Nat → ℝ) (fixed : Nat → Nat → Prop)
    (D Di : MPt → DMat ℝ) (hD : ∀ e ∈ es, ∀ p ∈ e.pts, p.mat = tlOp d tol (linOp (D p)) ∧ Finite.Sym d (D p) ∧ Inverse d (D p) (Di p) ∧
      ((∀ i, 1 ≤ i → i ≤ d * (d + 1) / 2 → |greenV d (grad e.nen (e.static.at u) p.pt.dN.e) i| ≤ tol) → ∀ i, 1 ≤ i → i ≤ d * (d + 1) / 2 → greenV d (grad e.nen (e.static.at u) p.pt.dN.e) i = 0))
    (hc : Motion d n tol epsR es F fixed u acc) : ∃ r, assemble d tol epsR u es = .ok r ∧
      (∀ a i, a < n → i < d → ¬ fixed (a + 1) (i + 1) → -residual d n F acc r (a + 1) (i + 1) = 0) ∧
      HasDerivAt (fun t => overMass es (fun e p => 1 / 2 * ∑ i ∈ Finset.range d, at1 e p (along vel acc t) (i + 1) ^ 2) + strainEnergy d D es (along u vel t))
        (∑ a ∈ Finset.range n, ∑ i ∈ Finset.range d, vel (a + 1) (i + 1) * (-residual d n F acc r (a + 1) (i + 1) + F (a + 1) (i + 1) + load es (a + 1) (i + 1))) 0 := by
  obtain ⟨A, f, M, v, b1, b2, b3, b4⟩ := both d hd n tol epsR X u es hs h
  obtain ⟨r, h1, h2⟩ := hc
  rw [b2] at h1
  cases h1
  refine ⟨_, b2, fun a i ha hi hf => by rw [h2 a i ha hi hf, neg_zero], ?_⟩
  have hK : HasDerivAt (fun t => overMass es (fun e p => 1 / 2 * ∑ i ∈ Finset.range d, at1 e p (along vel acc t) (i + 1) ^ 2)) (overMass es fun e p => ∑ i ∈ Finset.range d, at1 e p vel (i + 1) * at1 e p acc (i + 1)) 0 := by
    unfold overMass
    refine deriv_list es _ _ fun e _ => deriv_list e.pts _ _ fun p _ => HasDerivAt.const_mul _ ?_
    have lin : ∀ t i, at1 e p (along vel acc t) i = at1 e p vel i + t * at1 e p acc i := by
      intro t i
      simp only [at1, along, Finset.mul_sum, ← Finset.sum_add_distrib]
      exact Finset.sum_congr rfl fun k _ => by ring
    simp only [lin]
    have : ∀ i ∈ Finset.range d, HasDerivAt (fun t : ℝ => (at1 e p vel (i + 1) + t * at1 e p acc (i + 1)) ^ 2) (2 * (at1 e p vel (i + 1) * at1 e p acc (i + 1))) 0 := by
      intro i _
      have := (((hasDerivAt_id (0 : ℝ)).mul_const (at1 e p acc (i + 1))).const_add (at1 e p vel (i + 1))).pow 2
      refine this.congr_deriv ?_
      simp
      ring
    refine ((HasDerivAt.fun_sum this).const_mul (1 / 2 : ℝ)).congr_deriv ?_
    rw [← Finset.mul_sum]
    ring
  have hE : HasDerivAt (fun t => strainEnergy d D es (along u vel t)) (es.map fun e => -(f e).dot (dofVec d (e.static.at vel))).sum 0 := by
    unfold strainEnergy
    refine deriv_list es _ _ fun e he => ?_
    have hn := (hs.1 e.static (List.mem_map.mpr ⟨e, he, rfl⟩)).1
    obtain ⟨A', f', N, e1, e2, e3⟩ := C123_total_partial d hd e.nen hn tol epsR (e.pts.map fun p => (p.pt, D p, Di p)) (e.static.at u) (e.static.at vel) fun q hq => by
      obtain ⟨p, hp, rfl⟩ := List.mem_map.mp hq
      have hi := (h e he (p.pt, p.mat) (List.mem_map.mpr ⟨p, hp, rfl⟩)).1
      exact ⟨hi.1, hi.2.1, (hD e he p hp).2.1, (hD e he p hp).2.2.1, (hD e he p hp).2.2.2⟩
    have e4 : e.static.eval d tol epsR u = .ok (A', f') := by
      rw [← e1]
      simp only [FElm.eval, MElm.static, List.map_map, Function.comp_def]
      have : (e.pts.map fun p => (p.pt, p.mat)) = e.pts.map fun p => (p.pt, tlOp d tol (linOp (D p))) := List.map_congr_left fun p hp => by rw [(hD e he p hp).1]
      rw [this]
      rfl
    rw [(b4 e he).1] at e4
    cases e4
    refine e3.congr_of_eventuallyEq (Filter.Eventually.of_forall fun t => ?_)
    show _ = 1 / 2 * N t
    rw [(e2 t).2, List.map_map]
    rfl
  refine (hK.add hE).congr_deriv ?_
  have rs := fun a i (hi : i < d) => residual_static d n es A M f v b3 F acc a i hi
  have main : ∀ a i, i ∈ Finset.range d → vel (a + 1) (i + 1) * (-residual d n F acc (es.map fun e => (e, M e, v e)) (a + 1) (i + 1) + F (a + 1) (i + 1) + load es (a + 1) (i + 1)) =
      vel (a + 1) (i + 1) * inertia d n acc (es.map fun e => (e, M e, v e)) (a + 1) (i + 1) - vel (a + 1) (i + 1) * asmV d ((es.map fun e => (e.static, A e, f e)).map fun e => (e.1.conn, e.2.2)) (a + 1) (i + 1) := by
    intro a i hi
    rw [rs _ _ (Finset.mem_range.mp hi), Finite.residual]
    ring
  rw [Finset.sum_congr rfl fun a _ => Finset.sum_congr rfl (main a)]
  simp only [Finset.sum_sub_distrib]
  rw [Struct.asmV_sum d n _ (fun q hq => by
    simp only [List.map_map, List.mem_map] at hq
    obtain ⟨e, he, rfl⟩ := hq
    exact nodes_of n es hs e he), Finset.sum_comm, Finset.sum_congr rfl fun i hi => (inertia_sum d n es hs f v M b3 acc i (Finset.mem_range.mp hi)).2 vel (i + 1), over_sum, list_neg, ← sub_eq_add_neg, List.map_map, List.map_map]
  refine congrArg (_ - ·) (congrArg List.sum (List.map_congr_left fun e he => ?_))
  rw [dot_nodes d e.nen (f e) (b4 e he).2]
  rfl

/-! ### Histories -/

theorem deriv_at {α : Type} (l : List α) (f : α → ℝ → ℝ) (f' : α → ℝ) (t : ℝ) (h : ∀ e ∈ l, HasDerivAt (f e) (f' e) t) : HasDerivAt (fun s => (l.map fun e => f e s).sum) (l.map f').sum t := by
  induction l with
  | nil => simpa using hasDerivAt_const t (0 : ℝ)
  | cons e l ih =>
    simp only [List.map_cons, List.sum_cons]
    exact (h e (by simp)).add (ih fun e he => h e (by simp [he]))

theorem over_deriv (es : List MElm) (f : MElm → MPt → ℝ → ℝ) (f' : MElm → MPt → ℝ) (t : ℝ) (h : ∀ e p, HasDerivAt (f e p) (f' e p) t) : HasDerivAt (fun s => overMass es fun e p => f e p s) (overMass es f') t := by
  unfold overMass
  exact deriv_at es _ _ t fun e _ => deriv_at e.pts _ _ t fun p _ => (h e p).const_mul _

theorem at_deriv (e : MElm) (p : MPt) (y : ℝ → Nat → Nat → ℝ) (y' : Nat → Nat → ℝ) (t : ℝ) (h : ∀ a i, HasDerivAt (fun s => y s a i) (y' a i) t) (i : Nat) : HasDerivAt (fun s => at1 e p (y s) i) (at1 e p y' i) t := by
  unfold at1
  exact HasDerivAt.fun_sum fun k _ => (h _ _).const_mul _

/-- C148 (histories): along every motion in which the equations of motion are met at all times, the rate of change of the momentum of the solid is the sum of reactions, loads and body forces, and the rate of change of its angular
momentum about any point is the sum of their moments at the deformed positions. -/
theorem C148_history (d : Nat) (hd : d = 2 ∨ d = 3) (n : Nat) (tol epsR : ℝ) (X : Nat → Nat → ℝ) (u vel acc F : ℝ → Nat → Nat → ℝ) (es : List MElm) (hs : Sane n es) (fixed : Nat → Nat → Prop)
    (hu : ∀ t a i, HasDerivAt (fun s => u s a i) (vel t a i) t) (hv : ∀ t a i, HasDerivAt (fun s => vel s a i) (acc t a i) t)
    (h : ∀ t, ∀ e ∈ es, Ready d tol X (u t) e.static) (hc : ∀ t, Motion d n tol epsR es (F t) fixed (u t) (acc t)) (t : ℝ) : ∃ r, assemble d tol epsR (u t) es = .ok r ∧
      (∀ a i, a < n → i < d → ¬ fixed (a + 1) (i + 1) → -residual d n (F t) (acc t) r (a + 1) (i + 1) = 0) ∧
      (∀ i, i < d → HasDerivAt (fun s => overMass es fun e p => at1 e p (vel s) (i + 1))
        (∑ a ∈ Finset.range n, (-residual d n (F t) (acc t) r (a + 1) (i + 1) + F t (a + 1) (i + 1) + load es (a + 1) (i + 1))) t) ∧
      ∀ (c : Nat → ℝ) i j, i < d → j < d → HasDerivAt (fun s => overMass es fun e p => (at1 e p (fun a i => X a i + u s a i) (i + 1) - c (i + 1)) * at1 e p (vel s) (j + 1) -
          (at1 e p (fun a i => X a i + u s a i) (j + 1) - c (j + 1)) * at1 e p (vel s) (i + 1))
        (∑ a ∈ Finset.range n, ((X (a + 1) (i + 1) + u t (a + 1) (i + 1) - c (i + 1)) * (-residual d n (F t) (acc t) r (a + 1) (j + 1) + F t (a + 1) (j + 1) + load es (a + 1) (j + 1)) -
          (X (a + 1) (j + 1) + u t (a + 1) (j + 1) - c (j + 1)) * (-residual d n (F t) (acc t) r (a + 1) (i + 1) + F t (a + 1) (i + 1) + load es (a + 1) (i + 1)))) t := by
  obtain ⟨r, h1, h2, h3, h4⟩ := C148_momentum d hd n tol epsR X (u t) (acc t) es hs (h t) (F t) fixed (hc t)
  refine ⟨r, h1, h2, fun i hi => ?_, fun c i j hi hj => ?_⟩
  · rw [h3 i hi]
    exact over_deriv es _ _ t fun e p => at_deriv e p vel (acc t) t (hv t) (i + 1)
  · rw [h4 c i j hi hj]
    refine over_deriv es (fun e p s => (at1 e p (fun a i => X a i + u s a i) (i + 1) - c (i + 1)) * at1 e p (vel s) (j + 1) - (at1 e p (fun a i => X a i + u s a i) (j + 1) - c (j + 1)) * at1 e p (vel s) (i + 1)) _ t fun e p => ?_
    have hx := fun i => (at_deriv e p (fun s a i => X a i + u s a i) (vel t) t (fun a i => (hu t a i).const_add _) i).sub_const (c i)
    have hw := at_deriv e p vel (acc t) t (hv t)
    refine (((hx (i + 1)).mul (hw (j + 1))).sub ((hx (j + 1)).mul (hw (i + 1)))).congr_deriv ?_
    ring

/-- C148 (free motions): without supports, loads and body forces momentum and angular momentum never change. -/
theorem C148_free (d : Nat) (hd : d = 2 ∨ d = 3) (n : Nat) (tol epsR : ℝ) (X : Nat → Nat → ℝ) (u vel acc : ℝ → Nat → Nat → ℝ) (es : List MElm) (hs : Sane n es) (hf : ∀ e ∈ es, ∀ p ∈ e.pts, p.fZero = true)
    (hu : ∀ t a i, HasDerivAt (fun s => u s a i) (vel t a i) t) (hv : ∀ t a i, HasDerivAt (fun s => vel s a i) (acc t a i) t)
    (h : ∀ t, ∀ e ∈ es, Ready d tol X (u t) e.static) (hc : ∀ t, Motion d n tol epsR es (fun _ _ => 0) (fun _ _ => False) (u t) (acc t)) (t s : ℝ) :
      (∀ i, i < d → (overMass es fun e p => at1 e p (vel t) (i + 1)) = overMass es fun e p => at1 e p (vel s) (i + 1)) ∧
      ∀ (c : Nat → ℝ) i j, i < d → j < d → (overMass es fun e p => (at1 e p (fun a i => X a i + u t a i) (i + 1) - c (i + 1)) * at1 e p (vel t) (j + 1) -
          (at1 e p (fun a i => X a i + u t a i) (j + 1) - c (j + 1)) * at1 e p (vel t) (i + 1)) =
        overMass es fun e p => (at1 e p (fun a i => X a i + u s a i) (i + 1) - c (i + 1)) * at1 e p (vel s) (j + 1) - (at1 e p (fun a i => X a i + u s a i) (j + 1) - c (j + 1)) * at1 e p (vel s) (i + 1) := by
  have hl : ∀ a i, load es a i = 0 := fun a i => list_zero _ _ fun e he => Finset.sum_eq_zero fun k _ => by
    split
    · exact list_zero _ _ fun p hp => by simp [hf e he p hp]
    · rfl
  have key := C148_history d hd n tol epsR X u vel acc (fun _ _ _ => 0) es hs (fun _ _ => False) hu hv h hc
  have zero : ∀ g : ℝ → ℝ, (∀ t, HasDerivAt g 0 t) → g t = g s := fun g hg => is_const_of_deriv_eq_zero (fun t => (hg t).differentiableAt) (fun t => (hg t).deriv) t s
  refine ⟨fun i hi => zero (fun s => overMass es fun e p => at1 e p (vel s) (i + 1)) fun t => ?_, fun c i j hi hj => zero (fun s => overMass es fun e p => (at1 e p (fun a i => X a i + u s a i) (i + 1) - c (i + 1)) * at1 e p (vel s) (j + 1) -
    (at1 e p (fun a i => X a i + u s a i) (j + 1) - c (j + 1)) * at1 e p (vel s) (i + 1)) fun t => ?_⟩
  · obtain ⟨r, -, h2, h3, -⟩ := key t
    refine (h3 i hi).congr_deriv (Finset.sum_eq_zero fun a ha => ?_)
    rw [h2 a i (Finset.mem_range.mp ha) hi id, hl, add_zero, add_zero]
  · obtain ⟨r, -, h2, -, h4⟩ := key t
    refine (h4 c i j hi hj).congr_deriv (Finset.sum_eq_zero fun a ha => ?_)
    rw [h2 a i (Finset.mem_range.mp ha) hi id, h2 a j (Finset.mem_range.mp ha) hj id, hl, hl]
    ring

/-! ### Examples -/

/-- A model of one triangle with unit density and a body force. -/
noncomputable def heavyTri : MElm := ⟨3, id, [⟨⟨⟨3, fun _ => 1 / 3⟩, triangle.dN, triangle.X, triangle.w⟩, tlOp 2 0 (linOp plane1), 1, fun i => i, false⟩]⟩

theorem heavy_sane : Sane 3 [heavyTri] := by
  refine ⟨fun e he => ?_, fun e he p hp => ?_⟩
  · obtain rfl := List.mem_singleton.mp he
    exact ⟨by simp [heavyTri, MElm.static], fun s hs => ⟨by simp [heavyTri, MElm.static], hs⟩⟩
  · obtain rfl := List.mem_singleton.mp he
    obtain rfl := List.mem_singleton.mp hp
    exact ⟨rfl, by simp [heavyTri]⟩

theorem heavy_ready : ∀ e ∈ [heavyTri], Ready 2 0 corner (stretch 1) e.static := by
  intro e he
  obtain rfl := List.mem_singleton.mp he
  intro p hp
  obtain rfl := List.mem_singleton.mp hp
  exact ⟨triangle_iso, _, _, rfl, rfl⟩

/-- The stretched triangle, held at two corners, meets the equations of motion for all accelerations with the load at the third one which they need; without accelerations this is a converged state of static analysis. -/
example (acc : Nat → Nat → ℝ) : ∃ F, Motion 2 3 0 0 [heavyTri] F (fun a _ => a ≠ 2) (stretch 1) acc ∧ ∀ a i, a ≠ 2 → F a i = 0 := by
  obtain ⟨r, h1, -⟩ := C148_kinetic 2 (.inl rfl) 3 0 0 corner (stretch 1) [heavyTri] heavy_sane heavy_ready
  refine ⟨fun a i => if a = 2 then -residual 2 3 (fun _ _ => 0) acc r a i else 0, ⟨r, h1, fun a i ha hi hf => ?_⟩, fun a i ha => by simp [ha]⟩
  push Not at hf
  simp only [residual, hf]
  simp

/-- The energy of the stretched triangle, in all motions through that state. -/
example (vel acc : Nat → Nat → ℝ) (F : Nat → Nat → ℝ) (h : Motion 2 3 0 0 [heavyTri] F (fun a _ => a ≠ 2) (stretch 1) acc) : ∃ P, HasDerivAt (fun t =>
    overMass [heavyTri] (fun e p => 1 / 2 * ∑ i ∈ Finset.range 2, at1 e p (along vel acc t) (i + 1) ^ 2) + strainEnergy 2 (fun _ => plane1) [heavyTri] (along (stretch 1) vel t)) P 0 := by
  obtain ⟨r, -, -, h3⟩ := C148_energy 2 (.inl rfl) 3 0 0 corner (stretch 1) vel acc [heavyTri] heavy_sane heavy_ready F _ (fun _ => plane1) (fun _ => plane1i) (fun e he p hp => by
    obtain rfl := List.mem_singleton.mp he
    obtain rfl := List.mem_singleton.mp hp
    exact ⟨rfl, plane1_sym, plane1_inv, fun hz i h1 h2 => abs_nonpos_iff.mp (hz i h1 h2)⟩) h
  exact ⟨_, h3⟩

/-- The triangle without body force. -/
noncomputable def freeTri : MElm := ⟨3, id, [⟨⟨⟨3, fun _ => 1 / 3⟩, triangle.dN, triangle.X, triangle.w⟩, tlOp 2 0 (linOp plane1), 1, fun _ => 0, true⟩]⟩

/-- It can move with constant velocity: a history to which the theorems apply. -/
example (c : Nat → ℝ) : ∃ vel acc : ℝ → Nat → Nat → ℝ, (∀ t a i, HasDerivAt (fun s : ℝ => s * c i) (vel t a i) t) ∧ (∀ t a i, HasDerivAt (fun s => vel s a i) (acc t a i) t) ∧ Sane 3 [freeTri] ∧
    (∀ t : ℝ, ∀ e ∈ [freeTri], Ready 2 0 corner (fun _ i => t * c i) e.static) ∧ ∀ t : ℝ, Motion 2 3 0 0 [freeTri] (fun _ _ => 0) (fun _ _ => False) (fun _ i => t * c i) (acc t) := by
  have hsane : Sane 3 [freeTri] := by
    refine ⟨fun e he => ?_, fun e he p hp => ?_⟩
    · obtain rfl := List.mem_singleton.mp he
      exact ⟨by simp [freeTri, MElm.static], fun s hs => ⟨by simp [freeTri, MElm.static], hs⟩⟩
    · obtain rfl := List.mem_singleton.mp he
      obtain rfl := List.mem_singleton.mp hp
      exact ⟨rfl, by simp [freeTri]⟩
  have hready : ∀ t : ℝ, ∀ e ∈ [freeTri], Ready 2 0 corner (fun _ i => t * c i) e.static := by
    intro t e he
    obtain rfl := List.mem_singleton.mp he
    intro p hp
    obtain rfl := List.mem_singleton.mp hp
    exact ⟨triangle_iso, _, _, rfl, rfl⟩
  refine ⟨fun _ _ i => c i, fun _ _ _ => 0, fun t a i => by simpa using (hasDerivAt_id t).mul_const (c i), fun t a i => hasDerivAt_const t _, hsane, hready, fun t => ?_⟩
  rw [C148_rest 2 (.inl rfl) 3 0 0 corner _ [freeTri] hsane (hready t)]
  have hl : (fun a i => (0 : ℝ) + load [freeTri] a i) = fun _ _ => 0 := by
    funext a i
    simp [load, freeTri]
  rw [hl]
  refine (C140_rigid_partial 2 (.inl rfl) 3 0 0 le_rfl corner ([freeTri].map MElm.static) hsane.1 _ (fun i j => if i = j then 1 else 0) (fun i => t * c i) ⟨fun k l hk hl => ?_, ?_⟩ (fun k i hk hi => ?_) fun e he => ?_).2 _
  · interval_cases k <;> interval_cases l <;> simp [Finset.sum_range_succ]
  · simp [Matrix.det_fin_two, lead]
  · interval_cases i <;> simp [Finset.sum_range_succ, add_comm]
  · obtain rfl := List.mem_singleton.mp he
    intro p hp
    obtain rfl := List.mem_singleton.mp hp
    exact ⟨triangle_iso, fun F => ⟨_, _, rfl, rfl⟩⟩

end Verif.FDDynamic
