/- Property C139: free vibrations and linear buckling of frames. -/
import Verif.Model.FrameModes
import Verif.Props.Frame
import Verif.Props.BeamMass
import Verif.Props.Buckling

set_option linter.unusedSectionVars false
set_option linter.unnecessarySeqFocus false
set_option linter.unusedSimpArgs false

namespace Verif.Frame

open Verif.Beam Verif.BeamElem Verif.Struct

variable {K X : Type} [Field K]

/-! ### Specification -/

/-- The work of the member forces of `u` in the displacements `v`. -/
def elastic [LinearOrder K] [IsStrictOrderedRing K] (l : List (Member K X)) (v u : Nat → Nat → K) : K :=
  (l.map fun e => form (stiffness e.p.L e.p.EA e.p.GIt e.p.EIy e.p.EIz e.p.Aly e.p.Alz e.p.Sy e.p.Sz) (ends e.q e.T (at2 e v)) (ends e.q e.T (at2 e u))).sum

/-- The displacements of the line of mass centres at the ends of a member, in its axes: the centre of mass is beside the neutral axis. -/
def centre [LinearOrder K] [IsStrictOrderedRing K] (e : Member K X) (v : Nat → Nat → K) : Nat → K := armed ![0, -e.p.CGy, -e.p.CGz] ![0, -e.p.CGy, -e.p.CGz] (ends e.q e.T (at2 e v))

/-- The work of the inertia of `u` in the displacements `v` (see C42 for the mass matrix). -/
def inertia [LinearOrder K] [IsStrictOrderedRing K] (l : List (Member K X)) (v u : Nat → Nat → K) : K :=
  (l.map fun e => form (mass e.q.lumped e.p.rhoA e.p.Ixx e.p.Iyy e.p.Izz e.p.L) (centre e v) (centre e u)).sum

/-- The axial force of a member. -/
def pull [LinearOrder K] [IsStrictOrderedRing K] (e : Member K X) (u : Nat → Nat → K) : K := e.p.EA * (ends e.q e.T (at2 e u) 7 - ends e.q e.T (at2 e u) 1) / e.p.L

/-- The second-order shortening of a member in two displacements: twist and the two inclinations. -/
def shortening (p : Sect K) (u v : Nat → K) : K :=
  p.ItoA / p.L * ((u 10 - u 4) * (v 10 - v 4))
    + p.L * ((u 8 - u 2) / p.L * ((v 8 - v 2) / p.L) + (u 12 - u 6) * (v 12 - v 6) / 12 + (u 6 + u 12 - 2 * ((u 8 - u 2) / p.L)) * (v 6 + v 12 - 2 * ((v 8 - v 2) / p.L)) / (20 * (1 + p.Aly) ^ 2))
    + p.L * ((u 9 - u 3) / p.L * ((v 9 - v 3) / p.L) + (u 11 - u 5) * (v 11 - v 5) / 12 + (u 5 + u 11 + 2 * ((u 9 - u 3) / p.L)) * (v 5 + v 11 + 2 * ((v 9 - v 3) / p.L)) / (20 * (1 + p.Alz) ^ 2))

/-- The second-order work of the axial forces of `u` in the displacements `v` and `w` of the shear centres. -/
def second [LinearOrder K] [IsStrictOrderedRing K] (l : List (Member K X)) (u v w : Nat → Nat → K) : K :=
  (l.map fun e => pull e u * shortening e.p (shearPoint e.p.Sy e.p.Sz (ends e.q e.T (at2 e v))) (shearPoint e.p.Sy e.p.Sz (ends e.q e.T (at2 e w)))).sum

/-- The displacements of each member vanish, or exceed the threshold of the code (10⁻¹⁶ times the length). -/
def Displaced [LinearOrder K] (l : List (Member K X)) (u : Nat → Nat → K) : Prop :=
  ∀ e ∈ l, (∀ k, 1 ≤ k → k ≤ 12 → at2 e u k = 0) ∨ ∃ k, 1 ≤ k ∧ k ≤ 12 ∧ 1 / 10000000000000000 * e.p.L < |at2 e u k|

/-! ### Assembly -/

section
variable [LinearOrder K] [IsStrictOrderedRing K]

theorem pairs_ok (n : Nat) (f : Member K X → Res (DMat K × DMat K)) (W Q : Member K X → (Nat → K) → (Nat → K) → K) (l : List (Member K X)) (h : ∀ e ∈ l, Fit n e)
    (hf : ∀ e ∈ l, ∃ A B : Mat K, f e = .ok (⟨12, 12, A⟩, ⟨12, 12, B⟩) ∧ (∀ v u, form A v u = W e v u) ∧ ∀ v u, form B v u = Q e v u) : ∃ r, pairs f l = .ok r ∧
    (∀ v u, ∑ a ∈ Finset.range n, ∑ i ∈ Finset.range 6, v (a + 1) (i + 1) * nodal 6 n (asmK 6 r.1) u (a + 1) (i + 1) = (l.map fun e => W e (at2 e v) (at2 e u)).sum) ∧
    ∀ v u, ∑ a ∈ Finset.range n, ∑ i ∈ Finset.range 6, v (a + 1) (i + 1) * nodal 6 n (asmK 6 r.2) u (a + 1) (i + 1) = (l.map fun e => Q e (at2 e v) (at2 e u)).sum := by
  suffices H : ∃ r, pairs f l = .ok r ∧
      (∀ e ∈ r.1, (∀ s, s < e.1.nen → 1 ≤ e.1.node (s + 1) ∧ e.1.node (s + 1) ≤ n) ∧ e.2.nr = 6 * e.1.nen ∧ e.2.nc = 6 * e.1.nen) ∧
      (∀ e ∈ r.2, (∀ s, s < e.1.nen → 1 ≤ e.1.node (s + 1) ∧ e.1.node (s + 1) ≤ n) ∧ e.2.nr = 6 * e.1.nen ∧ e.2.nc = 6 * e.1.nen) ∧
      (∀ v u, (r.1.map fun e => e.2.bil (dofVec 6 (loc e.1 v)) (dofVec 6 (loc e.1 u))).sum = (l.map fun e => W e (at2 e v) (at2 e u)).sum) ∧
      ∀ v u, (r.2.map fun e => e.2.bil (dofVec 6 (loc e.1 v)) (dofVec 6 (loc e.1 u))).sum = (l.map fun e => Q e (at2 e v) (at2 e u)).sum by
    obtain ⟨r, r1, r2, r3, r4, r5⟩ := H
    exact ⟨r, r1, fun v u => (virtual_work_bil 6 n r.1 (fun e he => (r2 e he).1) (fun e he => (r2 e he).2) v u).trans (r4 v u),
      fun v u => (virtual_work_bil 6 n r.2 (fun e he => (r3 e he).1) (fun e he => (r3 e he).2) v u).trans (r5 v u)⟩
  induction l with
  | nil => exact ⟨([], []), rfl, by simp, by simp, fun _ _ => rfl, fun _ _ => rfl⟩
  | cons e l ih =>
    obtain ⟨r, r1, r2, r3, r4, r5⟩ := ih (fun e he => h e (by simp [he])) fun e he => hf e (by simp [he])
    have he := h e (by simp)
    obtain ⟨A, B, m1, m2, m3⟩ := hf e (by simp)
    have hnode : ∀ s, s < (conn e).nen → 1 ≤ (conn e).node (s + 1) ∧ (conn e).node (s + 1) ≤ n := by
      intro s hs
      have hs : s < 2 := hs
      interval_cases s
      · exact he.node1
      · exact he.node2
    refine ⟨((conn e, ⟨12, 12, A⟩) :: r.1, (conn e, ⟨12, 12, B⟩) :: r.2), by simp only [pairs, m1, Res.bind, r1], fun q hq => ?_, fun q hq => ?_, fun v u => ?_, fun v u => ?_⟩
    · rcases List.mem_cons.mp hq with rfl | hq
      · exact ⟨hnode, rfl, rfl⟩
      · exact r2 q hq
    · rcases List.mem_cons.mp hq with rfl | hq
      · exact ⟨hnode, rfl, rfl⟩
      · exact r3 q hq
    · simp only [List.map_cons, List.sum_cons]
      rw [r4, bil_form, m2]
    · simp only [List.map_cons, List.sum_cons]
      rw [r5, bil_form, m3]

theorem form_mm (e : Member K X) (u v : Nat → K) : form (mm e.q e.p) u v =
    form (mass e.q.lumped e.p.rhoA e.p.Ixx e.p.Iyy e.p.Izz e.p.L) (armed ![0, -e.p.CGy, -e.p.CGz] ![0, -e.p.CGy, -e.p.CGz] u) (armed ![0, -e.p.CGy, -e.p.CGz] ![0, -e.p.CGy, -e.p.CGz] v) := by
  unfold mm
  by_cases h : e.p.CGy ≠ 0 ∨ e.p.CGz ≠ 0
  · rw [if_pos h, form_ecc]
  · rw [if_neg h]
    push Not at h
    have : ∀ u : Nat → K, armed ![0, -e.p.CGy, -e.p.CGz] ![0, -e.p.CGy, -e.p.CGz] u = u := fun u => armed_zero _ _ (by simp [h.1, h.2]) u
    rw [this, this]

theorem vib_element (n : Nat) (e : Member K X) (h : Fit n e) (hl : e.q.lumped ≠ 2) : ∃ A B : Mat K, vibMember e = .ok (⟨12, 12, A⟩, ⟨12, 12, B⟩) ∧
    (∀ v u, form A v u = form (stiffness e.p.L e.p.EA e.p.GIt e.p.EIy e.p.EIz e.p.Aly e.p.Alz e.p.Sy e.p.Sz) (ends e.q e.T v) (ends e.q e.T u)) ∧
    ∀ v u, form B v u = form (mass e.q.lumped e.p.rhoA e.p.Ixx e.p.Iyy e.p.Izz e.p.L) (armed ![0, -e.p.CGy, -e.p.CGz] ![0, -e.p.CGy, -e.p.CGz] (ends e.q e.T v))
      (armed ![0, -e.p.CGy, -e.p.CGz] ![0, -e.p.CGy, -e.p.CGz] (ends e.q e.T u)) := by
  have hL' : ¬ e.p.L ≤ 1 / 100000000 := not_le.2 h.long
  obtain ⟨m0, e0, hA, hA2⟩ : ∃ m0, evalInt ⟨1, 0, 2, 0, 0⟩ e.q e.p e.T (fun _ => 0) Mats.zero = .ok m0 ∧ m0.A 1 = km e.p ∧ m0.A 2 = mm e.q e.p := by
    refine ⟨_, by simp only [BeamElem.evalInt, if_neg hL', ne_eq, not_true, false_and, if_false]; rfl, ?_, ?_⟩ <;>
    simp [stepG, stepM, stepKg, stepInt, stepKm, Mats.setA, Mats.setB]
  refine ⟨finA ⟨1, 0, 2, 0, 0⟩ e.q e.T 1 (m0.A 1), finA ⟨1, 0, 2, 0, 0⟩ e.q e.T 2 (m0.A 2), ?_, fun v u => ?_, fun v u => ?_⟩
  · unfold vibMember element
    rw [e0]
    simp only [finalize, ne_eq, not_true, false_and, if_false, Res.bind]
  · rw [form_finA _ _ _ _ (by simp), hA]; rfl
  · rw [form_finA _ _ _ _ (by simp [hl]), hA2, form_mm]

/-- C139 (energies of vibrations): for members without diagonal lumping of the mass, the assembly succeeds; the stiffness does the work of the member forces, and the mass matrix that of the inertia, with the centres
of mass beside the axis. -/
theorem C139_energies_partial (n : Nat) (l : List (Member K X)) (h : ∀ e ∈ l, Fit n e) (hl : ∀ e ∈ l, e.q.lumped ≠ 2) : ∃ r, pairs vibMember l = .ok r ∧
    (∀ v u, ∑ a ∈ Finset.range n, ∑ i ∈ Finset.range 6, v (a + 1) (i + 1) * nodal 6 n (asmK 6 r.1) u (a + 1) (i + 1) = elastic l v u) ∧
    ∀ v u, ∑ a ∈ Finset.range n, ∑ i ∈ Finset.range 6, v (a + 1) (i + 1) * nodal 6 n (asmK 6 r.2) u (a + 1) (i + 1) = inertia l v u :=
  pairs_ok n vibMember _ _ l h fun e he => vib_element n e (h e he) (hl e he)

theorem elastic_symm (n : Nat) (l : List (Member K X)) (h : ∀ e ∈ l, Fit n e) (v u : Nat → Nat → K) : elastic l v u = elastic l u v := by
  unfold elastic
  refine congrArg List.sum (List.map_congr_left fun e he => ?_)
  exact C40_symmetric _ _ _ _ _ _ _ _ _ (pos_of_fit n e (h e he)) (h e he).shear.1 (h e he).shear.2 _ _

theorem inertia_symm (n : Nat) (l : List (Member K X)) (h : ∀ e ∈ l, Fit n e) (v u : Nat → Nat → K) : inertia l v u = inertia l u v := by
  unfold inertia
  refine congrArg List.sum (List.map_congr_left fun e he => ?_)
  exact C42_symmetric _ _ _ _ _ _ (pos_of_fit n e (h e he)).ne' _ _

theorem elastic_nonneg (n : Nat) (l : List (Member K X)) (h : ∀ e ∈ l, Fit n e) (v : Nat → Nat → K) : 0 ≤ elastic l v v := by
  unfold elastic
  refine list_sum_nonneg _ fun a ha => ?_
  obtain ⟨e, he, rfl⟩ := List.mem_map.mp ha
  obtain ⟨p1, p2, p3, p4⟩ := (h e he).stiff
  exact C40_nonneg _ _ _ _ _ _ _ _ _ (pos_of_fit n e (h e he)) (h e he).shear.1 (h e he).shear.2 p1.le p2.le p3.le p4.le _

theorem inertia_nonneg (n : Nat) (l : List (Member K X)) (h : ∀ e ∈ l, Fit n e) (hm : ∀ e ∈ l, 0 ≤ e.p.rhoA ∧ 0 ≤ e.p.Ixx ∧ 0 ≤ e.p.Iyy ∧ 0 ≤ e.p.Izz) (v : Nat → Nat → K) : 0 ≤ inertia l v v := by
  unfold inertia
  refine list_sum_nonneg _ fun a ha => ?_
  obtain ⟨e, he, rfl⟩ := List.mem_map.mp ha
  obtain ⟨p1, p2, p3, p4⟩ := hm e he
  exact C42_nonneg _ _ _ _ _ _ (pos_of_fit n e (h e he)) p1 p2 p3 p4 _

/-- C139 (total mass): when all nodes move with the velocity `t`, the frame has the kinetic energy of its total mass, and its momentum along `s` is that of the total mass. -/
theorem C139_mass_partial (n : Nat) (x : Nat → Fin 3 → K) (l : List (Member K X)) (h : ∀ e ∈ l, Fit n e) (hx : ∀ e ∈ l, Placed x e) (hl : ∀ e ∈ l, e.q.lumped ≠ 2) (s t : Fin 3 → K) :
    ∃ r, pairs vibMember l = .ok r ∧
      ∑ a ∈ Finset.range n, ∑ i ∈ Finset.range 6, moving s 0 x (a + 1) (i + 1) * nodal 6 n (asmK 6 r.2) (moving t 0 x) (a + 1) (i + 1) =
        (l.map fun e => e.p.rhoA * e.p.L).sum * (s 0 * t 0 + s 1 * t 1 + s 2 * t 2) := by
  obtain ⟨r, r1, -, r3⟩ := C139_energies_partial n l h hl
  refine ⟨r, r1, ?_⟩
  rw [r3, ← List.sum_map_mul_right]
  unfold inertia
  refine congrArg List.sum (List.map_congr_left fun e he => ?_)
  have hr := T_rows x e (hx e he)
  have hc : ∀ t : Fin 3 → K, ∀ k, 1 ≤ k → k ≤ 12 → centre e (moving t 0 x) k = Beam.rigid e.p.L (fun j => e.T 0 j * t 0 + e.T 1 j * t 1 + e.T 2 j * t 2) 0 k := by
    intro t k h1 h2
    interval_cases k <;> simp [centre, ends, rotVecT, BeamElem.loc, blk, Beam.rigid, armed, at2, moving]
  rw [form_congr _ (hc s) (hc t), C42_total _ _ _ _ _ _ (pos_of_fit n e (h e he)).ne']
  have a00 := hr 0 0; have a01 := hr 0 1; have a02 := hr 0 2; have a11 := hr 1 1; have a12 := hr 1 2; have a22 := hr 2 2
  simp at a00 a01 a02 a11 a12 a22
  linear_combination (e.p.rhoA * e.p.L) * (s 0 * t 0 * a00 + (s 0 * t 1 + s 1 * t 0) * a01 + (s 0 * t 2 + s 2 * t 0) * a02 + s 1 * t 1 * a11 + (s 1 * t 2 + s 2 * t 1) * a12 + s 2 * t 2 * a22)

/-! ### Buckling -/

theorem above_iff (c : K) (v : Nat → K) : above c v = true ↔ ∃ k, 1 ≤ k ∧ k ≤ 12 ∧ c < |v k| := by
  unfold above
  rw [List.any_eq_true]
  constructor
  · rintro ⟨k, hk, h⟩
    have : ∀ k ∈ twelve, 1 ≤ k ∧ k ≤ 12 := by decide
    exact ⟨k, (this k hk).1, (this k hk).2, of_decide_eq_true h⟩
  · rintro ⟨k, h1, h2, h⟩
    have : ∀ k, 1 ≤ k → k ≤ 12 → k ∈ twelve := by
      intro k h1 h2; interval_cases k <;> decide
    exact ⟨k, this k h1 h2, decide_eq_true h⟩

theorem geo_shortening (p : Sect K) (N : K) (hL : 0 < p.L) (hy : 0 ≤ p.Aly) (hz : 0 ≤ p.Alz) (a b : Nat → K) :
    form (geometric N p.L p.Aly p.Alz p.ItoA p.Sy p.Sz) a b = N * shortening p (shearPoint p.Sy p.Sz a) (shearPoint p.Sy p.Sz b) := by
  rw [C72_energy _ _ _ _ _ _ _ hL hy hz]
  simp only [shortening]
  ring

theorem buck_element (n : Nat) (e : Member K X) (h : Fit n e) (he : e.q.e1 = 0 ∧ e.q.e2 = 0) (u : Nat → Nat → K)
    (hu : (∀ k, 1 ≤ k → k ≤ 12 → at2 e u k = 0) ∨ ∃ k, 1 ≤ k ∧ k ≤ 12 ∧ 1 / 10000000000000000 * e.p.L < |at2 e u k|) :
    ∃ A B : Mat K, buckMember u e = .ok (⟨12, 12, A⟩, ⟨12, 12, B⟩) ∧
      (∀ v w, form A v w = form (stiffness e.p.L e.p.EA e.p.GIt e.p.EIy e.p.EIz e.p.Aly e.p.Alz e.p.Sy e.p.Sz) (ends e.q e.T v) (ends e.q e.T w)) ∧
      ∀ v w, form B v w = pull e u * shortening e.p (shearPoint e.p.Sy e.p.Sz (ends e.q e.T v)) (shearPoint e.p.Sy e.p.Sz (ends e.q e.T w)) := by
  have hL := pos_of_fit n e h
  have hL' : ¬ e.p.L ≤ 1 / 100000000 := not_le.2 h.long
  have hecc : hasEcc e.q = false := by simp [hasEcc, he.1, he.2]
  have hend : ∀ w : Nat → K, ends e.q e.T w = rotVecT e.T w := by
    intro w; unfold ends; rw [armed_zero _ _ (by simp [he.1, he.2])]
  obtain ⟨dis, hdis⟩ : ∃ dis, dis = above (1 / 10000000000000000 * e.p.L) (at2 e u) := ⟨_, rfl⟩
  have hN : axial ⟨1, 2, 0, 0, 0⟩ e.p e.T dis false (at2 e u) = pull e u := by
    rcases hu with hz | hex
    · have : dis = false := by
        rw [hdis, Bool.eq_false_iff]
        intro ht
        obtain ⟨k, k1, k2, k3⟩ := (above_iff _ _).mp ht
        rw [hz k k1 k2, abs_zero] at k3
        exact absurd k3 (not_lt.mpr (by positivity))
      have hr := rotVecT_zero e.T (at2 e u) (fun i hi => by
        have : ∀ k ∈ twelve, 1 ≤ k ∧ k ≤ 12 := by decide
        exact hz i (this i hi).1 (this i hi).2)
      simp [axial, this, pull, hend, hr 7 (by decide), hr 1 (by decide)]
    · have : dis = true := hdis.trans ((above_iff _ _).mpr hex)
      simp [axial, this, pull, hend]; ring
  obtain ⟨m0, e0, hA, hA2⟩ : ∃ m0, evalInt ⟨1, 2, 0, 0, 0⟩ e.q e.p e.T (at2 e u) Mats.zero = .ok m0 ∧ m0.A 1 = km e.p ∧
      m0.A 2 = if pull e u = 0 then fun _ _ => 0 else geometric (pull e u) e.p.L e.p.Aly e.p.Alz e.p.ItoA e.p.Sy e.p.Sz := by
    refine ⟨_, by simp only [BeamElem.evalInt, if_neg hL', hecc, ne_eq, Bool.false_eq_true, and_false, if_false, ← hdis, hN]; rfl, ?_, ?_⟩
    · by_cases hp : pull e u = 0 <;> simp [stepG, stepM, stepKg, stepInt, stepKm, Mats.setA, Mats.setB, hp]
    · by_cases hp : pull e u = 0 <;> simp [stepG, stepM, stepKg, stepInt, stepKm, Mats.setA, Mats.setB, Mats.zero, hp]
  refine ⟨finA ⟨1, 2, 0, 0, 0⟩ e.q e.T 1 (m0.A 1), finA ⟨1, 2, 0, 0, 0⟩ e.q e.T 2 (m0.A 2), ?_, fun v w => ?_, fun v w => ?_⟩
  · unfold buckMember element
    have : (fun k => if k ≤ 6 then u e.n1 k else u e.n2 (k - 6)) = at2 e u := rfl
    rw [this, e0]
    simp only [finalize, ne_eq, not_true, false_and, if_false, Res.bind]
  · rw [form_finA _ _ _ _ (by simp), hA]; rfl
  · rw [form_finA _ _ _ _ (by simp), hA2]
    by_cases hp : pull e u = 0
    · rw [if_pos hp, hp, zero_mul]; simp [form]
    · rw [if_neg hp, geo_shortening _ _ hL h.shear.1 h.shear.2]

/-- C139 (second-order work): without eccentricities, the assembly of a buckling analysis succeeds; the first matrix is the stiffness, and the second does the second-order work of the axial forces of the static
solution `u`. -/
theorem C139_second_partial (n : Nat) (l : List (Member K X)) (h : ∀ e ∈ l, Fit n e) (he : ∀ e ∈ l, e.q.e1 = 0 ∧ e.q.e2 = 0) (u : Nat → Nat → K) (hu : Displaced l u) : ∃ r, pairs (buckMember u) l = .ok r ∧
    (∀ v w, ∑ a ∈ Finset.range n, ∑ i ∈ Finset.range 6, v (a + 1) (i + 1) * nodal 6 n (asmK 6 r.1) w (a + 1) (i + 1) = elastic l v w) ∧
    ∀ v w, ∑ a ∈ Finset.range n, ∑ i ∈ Finset.range 6, v (a + 1) (i + 1) * nodal 6 n (asmK 6 r.2) w (a + 1) (i + 1) = second l u v w :=
  pairs_ok n (buckMember u) _ (fun e v w => pull e u * shortening e.p (shearPoint e.p.Sy e.p.Sz (ends e.q e.T v)) (shearPoint e.p.Sy e.p.Sz (ends e.q e.T w))) l h
    fun e hel => buck_element n e (h e hel) (he e hel) u (hu e hel)

theorem second_symm (l : List (Member K X)) (u v w : Nat → Nat → K) : second l u v w = second l u w v := by
  unfold second
  refine congrArg List.sum (List.map_congr_left fun e _ => ?_)
  unfold shortening; ring

theorem shortening_nonneg (p : Sect K) (hL : 0 < p.L) (hI : 0 ≤ p.ItoA) (u : Nat → K) : 0 ≤ shortening p u u := by
  unfold shortening
  simp only [← sq]
  have := hL.le
  positivity

/-- C139 (energy): in a state of buckling of the frame the strain energy is that released by the axial forces times the load factor. -/
theorem C139_energy_partial (n : Nat) (l : List (Member K X)) (h : ∀ e ∈ l, Fit n e) (he : ∀ e ∈ l, e.q.e1 = 0 ∧ e.q.e2 = 0) (u : Nat → Nat → K) (hu : Displaced l u) (fixed : Nat → Nat → Prop) (r)
    (hr : pairs (buckMember u) l = .ok r) : ∀ mu phi, Neutral 6 n r fixed mu phi → elastic l phi phi = -mu * second l u phi phi := by
  obtain ⟨r', h1, h2, h3⟩ := C139_second_partial n l h he u hu
  rw [hr] at h1; cases h1
  intro mu phi hm
  have := neutral_test 6 n r fixed mu phi phi hm hm.held
  rw [h2, h3] at this
  linear_combination this

/-- C139 (tension): if no member is compressed and the supports admit no motion without deformation, the frame does not buckle at any positive load factor. -/
theorem C139_tension_partial (n : Nat) (l : List (Member K X)) (h : ∀ e ∈ l, Fit n e) (he : ∀ e ∈ l, e.q.e1 = 0 ∧ e.q.e2 = 0) (hI : ∀ e ∈ l, 0 ≤ e.p.ItoA) (u : Nat → Nat → K) (hu : Displaced l u)
    (fixed : Nat → Nat → Prop) (r) (hr : pairs (buckMember u) l = .ok r) (hsup : ∀ v, Struct.Admissible 6 n fixed v → elastic l v v = 0 → ¬ Moves 6 n v) (hten : ∀ e ∈ l, 0 ≤ pull e u) :
    ∀ mu phi, 0 < mu → ¬ Neutral 6 n r fixed mu phi := by
  intro mu phi hmu hm
  have hg : 0 ≤ second l u phi phi := by
    unfold second
    refine list_sum_nonneg _ fun a ha => ?_
    obtain ⟨e, hel, rfl⟩ := List.mem_map.mp ha
    exact mul_nonneg (hten e hel) (shortening_nonneg e.p (pos_of_fit n e (h e hel)) (hI e hel) _)
  have hw := elastic_nonneg n l h phi
  have hen := C139_energy_partial n l h he u hu fixed r hr mu phi hm
  have : elastic l phi phi = 0 := le_antisymm (by rw [hen]; nlinarith [mul_nonneg hmu.le hg]) hw
  exact hsup phi hm.held this hm.moves

/-- C139 (eccentricities, violated): a frame with an eccentric member that is displaced in the static solution has no buckling analysis: the assembly fails. -/
theorem C139_eccentric_violated (l l' : List (Member K X)) (e : Member K X) (u : Nat → Nat → K) (he : e.q.e1 ≠ 0 ∨ e.q.e2 ≠ 0) (hL : 1 / 100000000 < e.p.L)
    (hu : ∃ k, 1 ≤ k ∧ k ≤ 12 ∧ 1 / 10000000000000000 * e.p.L < |at2 e u k|) : ¬ ∃ r, pairs (buckMember u) (l ++ e :: l') = .ok r := by
  have hecc : hasEcc e.q = true := by
    simp only [hasEcc, decide_eq_true_eq]
    by_contra hc
    push Not at hc
    obtain ⟨a, b, c, d, f, g⟩ := hc
    rcases he with he | he <;> refine he (funext fun i => ?_) <;> fin_cases i <;> assumption
  have hab := (above_iff _ _).mpr hu
  have hf : buckMember u e = .fail := by
    have hL' : ¬ e.p.L ≤ 1 / 100000000 := not_le.2 hL
    unfold buckMember element
    have : (fun k => if k ≤ 6 then u e.n1 k else u e.n2 (k - 6)) = at2 e u := rfl
    rw [this]
    simp only [BeamElem.evalInt, if_neg hL', hab, hecc, ne_eq, not_false_eq_true, and_self, if_true, Res.bind, OfNat.ofNat_ne_zero]
  rintro ⟨r, hr⟩
  induction l generalizing r with
  | nil => simp [pairs, hf, Res.bind] at hr
  | cons b l ih =>
    simp only [List.cons_append, pairs] at hr
    cases hb : buckMember u b with
    | ok m =>
      rw [hb] at hr
      simp only [Res.bind] at hr
      cases hp : pairs (buckMember u) (l ++ e :: l') with
      | ok q => exact ih q hp
      | fail => rw [hp] at hr; simp at hr
      | ub => rw [hp] at hr; simp at hr
    | fail => rw [hb] at hr; simp [Res.bind] at hr
    | ub => rw [hb] at hr; simp [Res.bind] at hr

end

/-! ### Modes -/

/-- C139 (modes of vibration): if all admissible displacements other than zero move mass, there are as many modes as free degrees of freedom, with squares of frequencies that are not negative, orthogonal with respect
to the mass, and all admissible displacements are their combinations; the lowest frequency is the least quotient of energies. Squares are positive if the supports admit no motion without deformation. -/
theorem C139_modes_partial (n : Nat) (l : List (Member ℝ X)) (h : ∀ e ∈ l, Fit n e) (hl : ∀ e ∈ l, e.q.lumped ≠ 2) (hm : ∀ e ∈ l, 0 ≤ e.p.rhoA ∧ 0 ≤ e.p.Ixx ∧ 0 ≤ e.p.Iyy ∧ 0 ≤ e.p.Izz) (fixed : Nat → Nat → Prop)
    (hpos : ∀ v : Nat → Nat → ℝ, Struct.Admissible 6 n fixed v → inertia l v v = 0 → ∀ a i, a < n → i < 6 → v (a + 1) (i + 1) = 0) :
    ∃ r, pairs vibMember l = .ok r ∧ ∃ (_ : Fintype (Free 6 n fixed)) (_ : DecidableEq (Free 6 n fixed)) (lam : Free 6 n fixed → ℝ) (phi : Free 6 n fixed → Nat → Nat → ℝ),
      (∀ s, Mode 6 n (asmK 6 r.1) (asmK 6 r.2) fixed (lam s) (phi s) ∧ 0 ≤ lam s ∧ ((∀ v, Struct.Admissible 6 n fixed v → elastic l v v = 0 → ¬ Moves 6 n v) → 0 < lam s)) ∧
      (∀ s t, inertia l (phi s) (phi t) = if s = t then 1 else 0) ∧
      ∀ v, Struct.Admissible 6 n fixed v →
        (∀ a i, a < n → i < 6 → v (a + 1) (i + 1) = ∑ s, inertia l (phi s) v * phi s (a + 1) (i + 1)) ∧
        elastic l v v = ∑ s, lam s * inertia l (phi s) v ^ 2 ∧ ∀ low, (∀ s, low ≤ lam s) → low * inertia l v v ≤ elastic l v v := by
  obtain ⟨r, h1, h2, h3⟩ := C139_energies_partial n l h hl
  obtain ⟨f1, f2, lam, phi, m1, m2, m3⟩ := exists_modes 6 n (asmK 6 r.1) (asmK 6 r.2) (elastic l) (inertia l) h2 h3 (elastic_symm n l h) (inertia_symm n l h) fixed
    (inertia_nonneg n l h hm) hpos
  have hlam : ∀ s, elastic l (phi s) (phi s) = lam s := by
    intro s
    have t := mode_test 6 n _ _ fixed (lam s) (phi s) (phi s) (m1 s) (m1 s).held
    rwa [h2, h3, m2, if_pos rfl, mul_one] at t
  refine ⟨r, h1, f1, f2, lam, phi, fun s => ⟨m1 s, ?_, fun hsup => ?_⟩, m2, fun v hv => ?_⟩
  · rw [← hlam]; exact elastic_nonneg n l h (phi s)
  · rw [← hlam]
    refine lt_of_le_of_ne (elastic_nonneg n l h (phi s)) fun h0 => hsup (phi s) (m1 s).held h0.symm ?_
    by_contra hnm
    have hz : ∀ a i, a < n → i < 6 → phi s (a + 1) (i + 1) = 0 := fun a i ha hi => by by_contra hne; exact hnm ⟨a, i, ha, hi, hne⟩
    have e := m2 s s
    rw [if_pos rfl, ← h3, Finset.sum_eq_zero fun a ha => Finset.sum_eq_zero fun i hi => by rw [hz a i (Finset.mem_range.mp ha) (Finset.mem_range.mp hi), zero_mul]] at e
    exact zero_ne_one e
  · obtain ⟨v1, v2, -, v4⟩ := m3 v hv
    exact ⟨v1, v2, v4⟩

/-- C139 (stability): below the lowest positive load factor all displacements other than zero need energy, above any load factor there are displacements that release it. -/
theorem C139_stability_partial (n : Nat) (l : List (Member ℝ X)) (h : ∀ e ∈ l, Fit n e) (he : ∀ e ∈ l, e.q.e1 = 0 ∧ e.q.e2 = 0) (u : Nat → Nat → ℝ) (hu : Displaced l u) (fixed : Nat → Nat → Prop)
    (hsup : ∀ v, Struct.Admissible 6 n fixed v → elastic l v v = 0 → ¬ Moves 6 n v) :
    ∃ r, pairs (buckMember u) l = .ok r ∧ ∀ mu, 0 < mu →
      ((∀ nu phi, 0 < nu → nu ≤ mu → ¬ Neutral 6 n r fixed nu phi) → ∀ v, Struct.Admissible 6 n fixed v → Moves 6 n v → 0 < elastic l v v + mu * second l u v v) ∧
      ∀ nu phi, 0 < nu → nu < mu → Neutral 6 n r fixed nu phi → elastic l phi phi + mu * second l u phi phi < 0 := by
  obtain ⟨r, h1, h2, h3⟩ := C139_second_partial n l h he u hu
  have wpos : ∀ v, Struct.Admissible 6 n fixed v → Moves 6 n v → 0 < elastic l v v := fun v hv hm =>
    lt_of_le_of_ne (elastic_nonneg n l h v) fun h0 => hsup v hv h0.symm hm
  refine ⟨r, h1, fun mu hmu => ⟨fun hno v hv hm => ?_, fun nu phi hnu hlt hn => ?_⟩⟩
  · obtain ⟨iF, iD, kap, phi, p1, p2, p3⟩ := exists_modes 6 n (asmK 6 r.2) (asmK 6 r.1) _ _ h3 h2 (second_symm l u) (elastic_symm n l h) fixed (elastic_nonneg n l h) (fun v hv h0 a i ha hi => by
      by_contra hne; exact hsup v hv h0 ⟨a, i, ha, hi, hne⟩)
    have hk : ∀ s, 0 < 1 + mu * kap s := by
      intro s
      by_contra hc
      push Not at hc
      have hneg : kap s < 0 := by by_contra h'; push Not at h'; nlinarith [mul_nonneg hmu.le h']
      have hmv : Moves 6 n (phi s) := by
        by_contra hnm
        have hz : ∀ a i, a < n → i < 6 → phi s (a + 1) (i + 1) = 0 := fun a i ha hi => by by_contra hne; exact hnm ⟨a, i, ha, hi, hne⟩
        have e := p2 s s
        rw [if_pos rfl, ← h2, Finset.sum_eq_zero fun a ha => Finset.sum_eq_zero fun i hi => by rw [hz a i (Finset.mem_range.mp ha) (Finset.mem_range.mp hi), zero_mul]] at e
        exact zero_ne_one e
      refine hno (-1 / kap s) (phi s) (div_pos_of_neg_of_neg (by norm_num) hneg) ?_ ⟨fun a i ha hi hf => ?_, (p1 s).held, hmv⟩
      · rw [div_le_iff_of_neg hneg]; linarith
      · rw [(p1 s).free a i ha hi hf]
        field_simp [hneg.ne]
        ring
    obtain ⟨-, q2, q3, -⟩ := p3 v hv
    have hv0 := wpos v hv hm
    rw [q2, q3, Finset.mul_sum, ← Finset.sum_add_distrib]
    have e : ∀ s, elastic l (phi s) v ^ 2 + mu * (kap s * elastic l (phi s) v ^ 2) = (1 + mu * kap s) * elastic l (phi s) v ^ 2 := fun s => by ring
    simp only [e]
    rw [q3] at hv0
    obtain ⟨s, -, hs⟩ := Finset.exists_ne_zero_of_sum_ne_zero hv0.ne'
    exact Finset.sum_pos' (fun s _ => mul_nonneg (hk s).le (sq_nonneg _)) ⟨s, Finset.mem_univ s, mul_pos (hk s) (lt_of_le_of_ne (sq_nonneg _) (Ne.symm hs))⟩
  · have hen := C139_energy_partial n l h he u hu fixed r h1 nu phi hn
    have := wpos phi hn.held hn.moves
    have hg : second l u phi phi < 0 := by
      by_contra hc; push Not at hc
      rw [hen] at this
      nlinarith [mul_nonneg hnu.le hc]
    rw [hen]
    nlinarith [mul_neg_of_pos_of_neg (sub_pos.mpr hlt) hg]

/-! ### A column -/

/-- A column of unit length, area and stiffnesses, with two units of mass. -/
noncomputable def column (e2 : Fin 3 → ℝ) : Member ℝ Unit := ⟨1, 2, ⟨0, e2, ![0, 0, -1], 0, none, none⟩, ⟨1, 1, 1, 1, 1, 0, 0, 2, 0, 0, 0, 0, 0, 0, 0, 0⟩, fun i j => if i = j then 1 else 0⟩

/-- Pinned ends: the rotations about the third axis and the axial displacement of the second node are free. -/
def pinned : Nat → Nat → Prop := fun a i => ¬ (i = 6 ∨ (a = 2 ∧ i = 1))

/-- The column is compressed by a unit force. -/
noncomputable def squeezed : Nat → Nat → ℝ := fun a i => if a = 2 ∧ i = 1 then -1 else 0

/-- Its first state of buckling: opposite rotations of the ends. -/
noncomputable def bowed : Nat → Nat → ℝ := fun a i => if i = 6 then (if a = 1 then 1 else -1) else 0

theorem column_fit (e2 : Fin 3 → ℝ) : ∀ e ∈ [column e2], Fit 2 e := fun e he => by
  rw [List.mem_singleton.mp he]
  constructor <;> norm_num [column]

theorem column_displaced : Displaced [column 0] squeezed := fun e he => by
  rw [List.mem_singleton.mp he]
  exact Or.inr ⟨7, by omega, by omega, by norm_num [column, at2, squeezed]⟩

theorem column_ends (v : Nat → Nat → ℝ) (k : Nat) (h1 : 1 ≤ k) (h2 : k ≤ 12) : ends (column 0).q (column 0).T (at2 (column 0) v) k = if k ≤ 6 then v 1 k else v 2 (k - 6) := by
  interval_cases k <;> simp [ends, rotVecT, BeamElem.loc, blk, armed, at2, column]

theorem column_elastic (v u : Nat → Nat → ℝ) : elastic [column 0] v u =
    (v 2 1 - v 1 1) * (u 2 1 - u 1 1) + (v 2 4 - v 1 4) * (u 2 4 - u 1 4) + (v 2 6 - v 1 6) * (u 2 6 - u 1 6) + 3 * ((v 1 6 + v 2 6 - 2 * (v 2 2 - v 1 2)) * (u 1 6 + u 2 6 - 2 * (u 2 2 - u 1 2)))
      + (v 2 5 - v 1 5) * (u 2 5 - u 1 5) + 3 * ((v 1 5 + v 2 5 + 2 * (v 2 3 - v 1 3)) * (u 1 5 + u 2 5 + 2 * (u 2 3 - u 1 3))) := by
  unfold elastic
  simp only [List.map_cons, List.map_nil, List.sum_cons, List.sum_nil, add_zero]
  rw [C40_energy _ _ _ _ _ _ _ _ _ (by norm_num [column]) (by norm_num [column]) (by norm_num [column])]
  have c := column_ends
  simp only [shearPoint]
  norm_num [column, c]
  simp only [column] at c
  norm_num [c]
  try ring

theorem column_supported : ∀ v, Struct.Admissible 6 2 pinned v → elastic [column 0] v v = 0 → ¬ Moves 6 2 v := by
  intro v hv h0
  have z : ∀ a i, a < 2 → i < 6 → pinned (a + 1) (i + 1) → v (a + 1) (i + 1) = 0 := hv
  have a1 := z 0 0 (by omega) (by omega) (by simp [pinned]); have a2 := z 0 1 (by omega) (by omega) (by simp [pinned]); have a3 := z 0 2 (by omega) (by omega) (by simp [pinned])
  have a4 := z 0 3 (by omega) (by omega) (by simp [pinned]); have a5 := z 0 4 (by omega) (by omega) (by simp [pinned])
  have b2 := z 1 1 (by omega) (by omega) (by simp [pinned]); have b3 := z 1 2 (by omega) (by omega) (by simp [pinned])
  have b4 := z 1 3 (by omega) (by omega) (by simp [pinned]); have b5 := z 1 4 (by omega) (by omega) (by simp [pinned])
  norm_num at a1 a2 a3 a4 a5 b2 b3 b4 b5
  rw [column_elastic, a1, a2, a3, a4, a5, b2, b3, b4, b5] at h0
  have c1 : v 2 1 = 0 := by nlinarith [sq_nonneg (v 2 1), sq_nonneg (v 2 6 - v 1 6), sq_nonneg (v 1 6 + v 2 6)]
  have c2 : v 2 6 - v 1 6 = 0 := by nlinarith [sq_nonneg (v 2 1), sq_nonneg (v 2 6 - v 1 6), sq_nonneg (v 1 6 + v 2 6)]
  have c3 : v 1 6 + v 2 6 = 0 := by nlinarith [sq_nonneg (v 2 1), sq_nonneg (v 2 6 - v 1 6), sq_nonneg (v 1 6 + v 2 6)]
  have c4 : v 1 6 = 0 := by linarith
  have c5 : v 2 6 = 0 := by linarith
  rintro ⟨a, i, ha, hi, hne⟩
  apply hne
  interval_cases a <;> interval_cases i <;> norm_num [a1, a2, a3, a4, a5, b2, b3, b4, b5, c1, c4, c5]

theorem column_second (v w : Nat → Nat → ℝ) : second [column 0] squeezed v w =
    -((v 2 2 - v 1 2) * (w 2 2 - w 1 2) + (v 2 6 - v 1 6) * (w 2 6 - w 1 6) / 12 + (v 1 6 + v 2 6 - 2 * (v 2 2 - v 1 2)) * (w 1 6 + w 2 6 - 2 * (w 2 2 - w 1 2)) / 20
      + ((v 2 3 - v 1 3) * (w 2 3 - w 1 3) + (v 2 5 - v 1 5) * (w 2 5 - w 1 5) / 12 + (v 1 5 + v 2 5 + 2 * (v 2 3 - v 1 3)) * (w 1 5 + w 2 5 + 2 * (w 2 3 - w 1 3)) / 20)) := by
  unfold second
  simp only [List.map_cons, List.map_nil, List.sum_cons, List.sum_nil, add_zero]
  have c := column_ends
  have hp : pull (column 0) squeezed = -1 := by
    unfold pull
    rw [c _ 7 (by omega) (by omega), c _ 1 (by omega) (by omega)]
    norm_num [column, squeezed]
  rw [hp]
  simp only [shortening, shearPoint]
  norm_num [column, c]
  simp only [column] at c
  norm_num [c]
  try ring

/-- The hypotheses of the theorems are met, and the column buckles at twelve times its load (π² times is the exact value for a pinned column): above it the column releases energy when it bows. -/
example : ∃ r, pairs (buckMember squeezed) [column 0] = .ok r ∧ Neutral 6 2 r pinned 12 bowed ∧ ∀ mu, 12 < mu → elastic [column 0] bowed bowed + mu * second [column 0] squeezed bowed bowed < 0 := by
  have he : ∀ e ∈ [column 0], e.q.e1 = 0 ∧ e.q.e2 = 0 := fun e he => by rw [List.mem_singleton.mp he]; exact ⟨rfl, rfl⟩
  obtain ⟨r, h1, h2⟩ := C139_stability_partial 2 [column 0] (column_fit 0) he squeezed column_displaced pinned column_supported
  obtain ⟨r', k1, k2, k3⟩ := C139_second_partial 2 [column 0] (column_fit 0) he squeezed column_displaced
  rw [h1] at k1; cases k1
  have hN : Neutral 6 2 r pinned 12 bowed := by
    refine ⟨fun a i ha hi hf => ?_, ?_, 0, 5, by omega, by omega, by norm_num [bowed]⟩
    · rw [← nodal_unit 6 2 (asmK 6 r.1) bowed a i ha hi, ← nodal_unit 6 2 (asmK 6 r.2) bowed a i ha hi]
      rw [k2 (fun b j => if b = a + 1 ∧ j = i + 1 then 1 else 0) bowed, k3 (fun b j => if b = a + 1 ∧ j = i + 1 then 1 else 0) bowed, column_elastic, column_second]
      interval_cases a <;> interval_cases i <;> simp [pinned] at hf <;> norm_num [bowed]
    · intro a i ha hi hf
      interval_cases a <;> interval_cases i <;> simp [pinned] at hf <;> norm_num [bowed]
  exact ⟨r, h1, hN, fun mu hmu => (h2 mu (by linarith)).2 12 bowed (by norm_num) hmu hN⟩

/-- The column has modes of vibration. -/
example : ∀ v : Nat → Nat → ℝ, Struct.Admissible 6 2 pinned v → inertia [column 0] v v = 0 → ∀ a i, a < 2 → i < 6 → v (a + 1) (i + 1) = 0 := by
  intro v hv h0
  have z : ∀ a i, a < 2 → i < 6 → pinned (a + 1) (i + 1) → v (a + 1) (i + 1) = 0 := hv
  have a1 := z 0 0 (by omega) (by omega) (by simp [pinned]); have a2 := z 0 1 (by omega) (by omega) (by simp [pinned]); have a3 := z 0 2 (by omega) (by omega) (by simp [pinned])
  have a4 := z 0 3 (by omega) (by omega) (by simp [pinned]); have a5 := z 0 4 (by omega) (by omega) (by simp [pinned])
  have b2 := z 1 1 (by omega) (by omega) (by simp [pinned]); have b3 := z 1 2 (by omega) (by omega) (by simp [pinned])
  have b4 := z 1 3 (by omega) (by omega) (by simp [pinned]); have b5 := z 1 4 (by omega) (by omega) (by simp [pinned])
  norm_num at a1 a2 a3 a4 a5 b2 b3 b4 b5
  have hI : inertia [column 0] v v = form (mass 0 2 0 0 0 1) (fun k => if k ≤ 6 then v 1 k else v 2 (k - 6)) (fun k => if k ≤ 6 then v 1 k else v 2 (k - 6)) := by
    have hc : ∀ k, 1 ≤ k → k ≤ 12 → centre (column 0) v k = if k ≤ 6 then v 1 k else v 2 (k - 6) := by
      intro k h1 h2
      unfold centre
      rw [armed_zero _ _ (by simp [column]), column_ends v k h1 h2]
    unfold inertia
    simp only [List.map_cons, List.map_nil, List.sum_cons, List.sum_nil, add_zero]
    exact form_congr _ hc hc
  have hM : mass 0 (2 : ℝ) 0 0 0 1 = symm (entry (massUpper 2 0 0 0 1)) := by simp [Beam.mass]
  rw [hI, hM, form_mass _ _ _ _ _ (by norm_num)] at h0
  norm_num [hermite, hermiteSlope, linear, a1, a2, a3, a4, a5, b2, b3, b4, b5] at h0
  have c1 : v 2 1 = 0 := by nlinarith [sq_nonneg (v 2 1), sq_nonneg (v 2 6 - v 1 6), sq_nonneg (v 1 6 + v 2 6)]
  have c2 : v 2 6 - v 1 6 = 0 := by nlinarith [sq_nonneg (v 2 1), sq_nonneg (v 2 6 - v 1 6), sq_nonneg (v 1 6 + v 2 6)]
  have c3 : v 1 6 + v 2 6 = 0 := by nlinarith [sq_nonneg (v 2 1), sq_nonneg (v 2 6 - v 1 6), sq_nonneg (v 1 6 + v 2 6)]
  have c4 : v 1 6 = 0 := by linarith
  have c5 : v 2 6 = 0 := by linarith
  intro a i ha hi
  interval_cases a <;> interval_cases i <;> norm_num [a1, a2, a3, a4, a5, b2, b3, b4, b5, c1, c4, c5]

/-- An eccentric column has no buckling analysis. -/
example : ¬ ∃ r, pairs (buckMember squeezed) [column ![0, 1, 0]] = .ok r :=
  C139_eccentric_violated [] [] (column ![0, 1, 0]) squeezed (Or.inr fun h => by have := congrFun h 1; simp [column] at this) (by norm_num [column])
    ⟨7, by omega, by omega, by norm_num [column, at2, squeezed]⟩

/-- The mass of the column is two, and pulling it instead does not make it buckle. -/
example : (∀ e ∈ [unitBeam ![0, 0, 0] ![0, 0, 0]], Fit 2 e ∧ Placed unitX e ∧ e.q.lumped ≠ 2) ∧ ([unitBeam ![0, 0, 0] ![0, 0, 0]].map fun e => e.p.rhoA * e.p.L).sum = 2 ∧
    (∀ e ∈ [column 0], 0 ≤ e.p.ItoA) ∧ ∀ e ∈ [column 0], 0 ≤ pull e fun a i => -squeezed a i := by
  refine ⟨fun e he => ?_, by norm_num [unitBeam], fun e he => ?_, fun e he => ?_⟩
  · rw [List.mem_singleton.mp he]; exact ⟨unitBeam_fit _ _, unitBeam_placed _ _, by simp [unitBeam]⟩
  · rw [List.mem_singleton.mp he]; simp [column]
  · rw [List.mem_singleton.mp he]
    unfold pull
    rw [column_ends _ 7 (by omega) (by omega), column_ends _ 1 (by omega) (by omega)]
    norm_num [column, squeezed]

end Verif.Frame
