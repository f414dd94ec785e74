/- Property C133: the static solution of a frame of beams. -/
import Verif.Model.Frame
import Verif.Props.BeamElem
import Verif.Props.BeamStiff
import Verif.Props.Structure
import Mathlib.Logic.Relation

set_option linter.unusedSectionVars false
set_option linter.unnecessarySeqFocus false
set_option linter.unusedSimpArgs false

namespace Verif.Frame

open Verif.Beam Verif.BeamElem Verif.Struct

variable {K X : Type} [Field K]

/-! ### Specification -/

/-- The twelve displacements of a member: those of its first node, then those of its second one. -/
def at2 (e : Member K X) (u : Nat → Nat → K) (k : Nat) : K := if k ≤ 6 then u e.n1 k else u e.n2 (k - 6)

/-- The motion of a rigid body with translation `t` and (small) rotation `w`: displacements and rotations of the nodes. -/
def moving (t w : Fin 3 → K) (x : Nat → Fin 3 → K) (a : Nat) : Nat → K
  | 1 => t 0 + (w 1 * x a 2 - w 2 * x a 1)
  | 2 => t 1 + (w 2 * x a 0 - w 0 * x a 2)
  | 3 => t 2 + (w 0 * x a 1 - w 1 * x a 0)
  | 4 => w 0
  | 5 => w 1
  | 6 => w 2
  | _ => 0

/-- The member lies between its nodes, with right-handed local axes. -/
structure Placed (x : Nat → Fin 3 → K) (e : Member K X) : Prop where
  unit0 : e.T 0 0 ^ 2 + e.T 1 0 ^ 2 + e.T 2 0 ^ 2 = 1
  unit1 : e.T 0 1 ^ 2 + e.T 1 1 ^ 2 + e.T 2 1 ^ 2 = 1
  orth : e.T 0 0 * e.T 0 1 + e.T 1 0 * e.T 1 1 + e.T 2 0 * e.T 2 1 = 0
  third : e.T 0 2 = e.T 1 0 * e.T 2 1 - e.T 2 0 * e.T 1 1 ∧ e.T 1 2 = e.T 2 0 * e.T 0 1 - e.T 0 0 * e.T 2 1 ∧ e.T 2 2 = e.T 0 0 * e.T 1 1 - e.T 1 0 * e.T 0 1
  span : ∀ i, x e.n2 i - x e.n1 i = e.p.L * e.T i 0

/-- Admissible members of a frame of `n` nodes. -/
structure Fit [LinearOrder K] (n : Nat) (e : Member K X) : Prop where
  node1 : 1 ≤ e.n1 ∧ e.n1 ≤ n
  node2 : 1 ≤ e.n2 ∧ e.n2 ≤ n
  long : 1 / 100000000 < e.p.L
  stiff : 0 < e.p.EA ∧ 0 < e.p.GIt ∧ 0 < e.p.EIy ∧ 0 < e.p.EIz
  shear : 0 ≤ e.p.Aly ∧ 0 ≤ e.p.Alz

/-- Nodal forces (components 1-3) and moments (4-6) in equilibrium: no resultant force, and no moment about any point. -/
structure InBalance (n : Nat) (x : Nat → Fin 3 → K) (G : Nat → Nat → K) : Prop where
  force : ∀ i, 1 ≤ i → i ≤ 3 → ∑ a ∈ Finset.range n, G (a + 1) i = 0
  moment : ∀ c : Fin 3 → K,
    ∑ a ∈ Finset.range n, (G (a + 1) 4 + ((x (a + 1) 1 - c 1) * G (a + 1) 3 - (x (a + 1) 2 - c 2) * G (a + 1) 2)) = 0 ∧
    ∑ a ∈ Finset.range n, (G (a + 1) 5 + ((x (a + 1) 2 - c 2) * G (a + 1) 1 - (x (a + 1) 0 - c 0) * G (a + 1) 3)) = 0 ∧
    ∑ a ∈ Finset.range n, (G (a + 1) 6 + ((x (a + 1) 0 - c 0) * G (a + 1) 2 - (x (a + 1) 1 - c 1) * G (a + 1) 1)) = 0

/-! ### Proofs -/

theorem loc_conn (e : Member K X) (u : Nat → Nat → K) (k : Nat) (h1 : 1 ≤ k) (h2 : k ≤ 12) : dofVec 6 (loc (conn e) u) k = at2 e u k := by
  unfold dofVec Struct.loc conn at2
  interval_cases k <;> rfl

theorem form_congr (A : Nat → Nat → K) {u u' v v' : Nat → K} (hu : ∀ k, 1 ≤ k → k ≤ 12 → u k = u' k) (hv : ∀ k, 1 ≤ k → k ≤ 12 → v k = v' k) : form A u v = form A u' v' := by
  unfold form
  refine Finset.sum_congr rfl fun i hi => ?_
  have hi := Finset.mem_range.mp hi
  rw [hu (i + 1) (by omega) (by omega)]
  refine congrArg (_ * ·) (Finset.sum_congr rfl fun j hj => ?_)
  have hj := Finset.mem_range.mp hj
  rw [hv (j + 1) (by omega) (by omega)]

theorem bil_form (A : Nat → Nat → K) (e : Member K X) (v u : Nat → Nat → K) : (⟨12, 12, A⟩ : DMat K).bil (dofVec 6 (loc (conn e) v)) (dofVec 6 (loc (conn e) u)) = form A (at2 e v) (at2 e u) := by
  rw [← form_congr A (fun k h1 h2 => loc_conn e v k h1 h2) (fun k h1 h2 => loc_conn e u k h1 h2)]
  unfold DMat.bil form
  simp only [Finset.mul_sum, mul_assoc]

theorem T_cols (x : Nat → Fin 3 → K) (e : Member K X) (h : Placed x e) (i k : Fin 3) : e.T 0 i * e.T 0 k + e.T 1 i * e.T 1 k + e.T 2 i * e.T 2 k = if i = k then 1 else 0 := by
  obtain ⟨t0, t1, t2⟩ := h.third
  have h0 := h.unit0
  have h1 := h.unit1
  have h2 := h.orth
  fin_cases i <;> fin_cases k <;> simp
  · linear_combination h0
  · linear_combination h2
  · rw [t0, t1, t2]; ring
  · linear_combination h2
  · linear_combination h1
  · rw [t0, t1, t2]; ring
  · rw [t0, t1, t2]; ring
  · rw [t0, t1, t2]; ring
  · rw [t0, t1, t2]
    linear_combination h0 * (e.T 0 1 ^ 2 + e.T 1 1 ^ 2 + e.T 2 1 ^ 2) + h1 - h2 * (e.T 0 0 * e.T 0 1 + e.T 1 0 * e.T 1 1 + e.T 2 0 * e.T 2 1)

theorem T_rows (x : Nat → Fin 3 → K) (e : Member K X) (h : Placed x e) (i k : Fin 3) : e.T i 0 * e.T k 0 + e.T i 1 * e.T k 1 + e.T i 2 * e.T k 2 = if i = k then 1 else 0 := by
  have hM : (Matrix.of e.T).transpose * Matrix.of e.T = 1 := by
    ext i k
    simp only [Matrix.mul_apply, Matrix.transpose_apply, Matrix.of_apply, Fin.sum_univ_three, Matrix.one_apply]
    exact T_cols x e h i k
  have hN : Matrix.of e.T * (Matrix.of e.T).transpose = 1 := mul_eq_one_comm.mp hM
  have := congrFun (congrFun hN i) k
  simpa only [Matrix.mul_apply, Matrix.transpose_apply, Matrix.of_apply, Fin.sum_univ_three, Matrix.one_apply] using this

/-- Local components determine a vector. -/
theorem T_inj (x : Nat → Fin 3 → K) (e : Member K X) (h : Placed x e) (z : Fin 3 → K) (hz : ∀ j, e.T 0 j * z 0 + e.T 1 j * z 1 + e.T 2 j * z 2 = 0) : ∀ i, z i = 0 := by
  have r := T_rows x e h
  have r00 := r 0 0; have r01 := r 0 1; have r02 := r 0 2; have r11 := r 1 1; have r12 := r 1 2; have r22 := r 2 2
  simp at r00 r01 r02 r11 r12 r22
  intro i
  fin_cases i <;> simp
  · linear_combination e.T 0 0 * hz 0 + e.T 0 1 * hz 1 + e.T 0 2 * hz 2 - r00 * z 0 - r01 * z 1 - r02 * z 2
  · linear_combination e.T 1 0 * hz 0 + e.T 1 1 * hz 1 + e.T 1 2 * hz 2 - r01 * z 0 - r11 * z 1 - r12 * z 2
  · linear_combination e.T 2 0 * hz 0 + e.T 2 1 * hz 1 + e.T 2 2 * hz 2 - r02 * z 0 - r12 * z 1 - r22 * z 2

/-- The second local axis is the negative vector product of the first and the third one. -/
theorem T_cross (x : Nat → Fin 3 → K) (e : Member K X) (h : Placed x e) :
    e.T 1 0 * e.T 2 2 - e.T 2 0 * e.T 1 2 = - e.T 0 1 ∧ e.T 2 0 * e.T 0 2 - e.T 0 0 * e.T 2 2 = - e.T 1 1 ∧ e.T 0 0 * e.T 1 2 - e.T 1 0 * e.T 0 2 = - e.T 2 1 := by
  obtain ⟨t0, t1, t2⟩ := h.third
  have h0 := h.unit0
  have h2 := h.orth
  rw [t0, t1, t2]
  refine ⟨?_, ?_, ?_⟩
  · linear_combination e.T 0 0 * h2 - e.T 0 1 * h0
  · linear_combination e.T 1 0 * h2 - e.T 1 1 * h0
  · linear_combination e.T 2 0 * h2 - e.T 2 1 * h0

/-- A rigid motion of the frame moves the ends of a member with equal eccentricities as a rigid body. -/
theorem ends_moving (x : Nat → Fin 3 → K) (e : Member K X) (h : Placed x e) (he : e.q.e1 = e.q.e2) (t w : Fin 3 → K) :
    ∃ t' w' : Fin 3 → K, ∀ k, 1 ≤ k → k ≤ 12 → ends e.q e.T (at2 e (moving t w x)) k = rigid e.p.L t' w' k := by
  obtain ⟨t0, t1, t2⟩ := h.third
  obtain ⟨c0, c1, c2⟩ := T_cross x e h
  have s0 := h.span 0
  have s1 := h.span 1
  have s2 := h.span 2
  have f0 : x e.n2 0 = x e.n1 0 + e.p.L * e.T 0 0 := by linear_combination s0
  have f1 : x e.n2 1 = x e.n1 1 + e.p.L * e.T 1 0 := by linear_combination s1
  have f2 : x e.n2 2 = x e.n1 2 + e.p.L * e.T 2 0 := by linear_combination s2
  refine ⟨fun j => e.T 0 j * (armed e.q.e1 e.q.e2 (at2 e (moving t w x)) 1) + e.T 1 j * (armed e.q.e1 e.q.e2 (at2 e (moving t w x)) 2) + e.T 2 j * (armed e.q.e1 e.q.e2 (at2 e (moving t w x)) 3),
    fun j => e.T 0 j * w 0 + e.T 1 j * w 1 + e.T 2 j * w 2, fun k h1 h2 => ?_⟩
  unfold ends
  interval_cases k <;> simp [rotVecT, BeamElem.loc, blk, rigid, armed, at2, moving, he, f0, f1, f2]
  · ring
  · linear_combination (-e.p.L * w 0) * t0 + (-e.p.L * w 1) * t1 + (-e.p.L * w 2) * t2
  · linear_combination (e.p.L * w 0) * c0 + (e.p.L * w 1) * c1 + (e.p.L * w 2) * c2

section
variable [LinearOrder K] [IsStrictOrderedRing K]

theorem member_ok (n : Nat) (e : Member K X) (h : Fit n e) : ∃ m, member e = .ok m ∧ m.1.nr = 12 ∧ m.1.nc = 12 ∧ m.2.n = 12 ∧
    (∀ v u, m.1.bil (dofVec 6 (loc (conn e) v)) (dofVec 6 (loc (conn e) u)) =
      form (stiffness e.p.L e.p.EA e.p.GIt e.p.EIy e.p.EIz e.p.Aly e.p.Alz e.p.Sy e.p.Sz) (ends e.q e.T (at2 e v)) (ends e.q e.T (at2 e u))) ∧
    ∀ x, Placed x e → ∀ t, work m.2.e (Beam.rigid 0 t 0) = e.p.rhoA * e.p.L * (t 0 * e.q.grav 0 + t 1 * e.q.grav 1 + t 2 * e.q.grav 2) := by
  obtain ⟨m, e1, e2, -⟩ := C108_static_partial e.q e.p e.T (fun _ => 0) h.long (Or.inl fun _ _ => rfl)
  refine ⟨(⟨12, 12, m.A 1⟩, ⟨12, m.b 1⟩), by unfold member; rw [e1]; rfl, rfl, rfl, rfl, fun v u => ?_, fun x hx t => ?_⟩
  · rw [bil_form, e2]
  · obtain ⟨m', e1', e2'⟩ := C108_weight e.q e.p e.T h.long (T_rows x e hx) t
    rw [e1] at e1'; cases e1'
    exact e2'

theorem members_ok (n : Nat) (l : List (Member K X)) (h : ∀ e ∈ l, Fit n e) : ∃ r, members l = .ok r ∧
    (∀ e ∈ r.1, (∀ s, s < e.1.nen → 1 ≤ e.1.node (s + 1) ∧ e.1.node (s + 1) ≤ n) ∧ e.2.nr = 6 * e.1.nen ∧ e.2.nc = 6 * e.1.nen) ∧
    (∀ e ∈ r.2, ∀ s, s < e.1.nen → 1 ≤ e.1.node (s + 1) ∧ e.1.node (s + 1) ≤ n) ∧
    (∀ v u, (r.1.map fun e => e.2.bil (dofVec 6 (loc e.1 v)) (dofVec 6 (loc e.1 u))).sum =
      (l.map fun e => form (stiffness e.p.L e.p.EA e.p.GIt e.p.EIy e.p.EIz e.p.Aly e.p.Alz e.p.Sy e.p.Sz) (ends e.q e.T (at2 e v)) (ends e.q e.T (at2 e u))).sum) ∧
    ∀ x, (∀ e ∈ l, Placed x e) → ∀ i : Fin 3, (r.2.map fun e => ∑ s ∈ Finset.range e.1.nen, ∑ k ∈ Finset.range 6, (if k = i.val then 1 else 0) * e.2.e (6 * s + (k + 1))).sum =
      (l.map fun e => e.p.rhoA * e.p.L * e.q.grav i).sum := by
  induction l with
  | nil => exact ⟨([], []), rfl, by simp, by simp, fun _ _ => rfl, fun _ _ _ => rfl⟩
  | cons e l ih =>
    obtain ⟨r, r1, r2, r3, r4, r5⟩ := ih fun e he => h e (by simp [he])
    have he := h e (by simp)
    obtain ⟨m, m1, m2, m3, m4, m5, m6⟩ := member_ok n e he
    have hnode : ∀ s, s < (conn e).nen → 1 ≤ (conn e).node (s + 1) ∧ (conn e).node (s + 1) ≤ n := by
      intro s hs
      have hs : s < 2 := hs
      interval_cases s
      · exact he.node1
      · exact he.node2
    refine ⟨((conn e, m.1) :: r.1, (conn e, m.2) :: r.2), by simp only [members, m1, Res.bind, r1], fun q hq => ?_, fun q hq => ?_, fun v u => ?_, fun x hx i => ?_⟩
    · rcases List.mem_cons.mp hq with rfl | hq
      · exact ⟨hnode, m2, m3⟩
      · exact r2 q hq
    · rcases List.mem_cons.mp hq with rfl | hq
      · exact hnode
      · exact r3 q hq
    · simp only [List.map_cons, List.sum_cons]
      rw [r4, m5]
    · simp only [List.map_cons, List.sum_cons]
      rw [r5 x (fun e he => hx e (by simp [he])) i]
      refine congrArg (· + _) ?_
      have := m6 x (hx e (by simp)) (fun j => if j = i then 1 else 0)
      have h2 : (conn e).nen = 2 := rfl
      rw [h2]
      unfold Beam.work at this
      fin_cases i <;> simp [Finset.sum_range_succ, Beam.rigid] at this ⊢ <;> linear_combination this

/-- C133 (virtual work): the assembly of a frame succeeds, and the internal forces do the work of the member forces in the displacements of the member ends. -/
theorem C133_virtual_work (n : Nat) (l : List (Member K X)) (h : ∀ e ∈ l, Fit n e) : ∃ r, members l = .ok r ∧ ∀ v u,
    ∑ a ∈ Finset.range n, ∑ i ∈ Finset.range 6, v (a + 1) (i + 1) * nodal 6 n (asmK 6 r.1) u (a + 1) (i + 1) =
      (l.map fun e => form (stiffness e.p.L e.p.EA e.p.GIt e.p.EIy e.p.EIz e.p.Aly e.p.Alz e.p.Sy e.p.Sz) (ends e.q e.T (at2 e v)) (ends e.q e.T (at2 e u))).sum := by
  obtain ⟨r, r1, r2, -, r4, -⟩ := members_ok n l h
  exact ⟨r, r1, fun v u => (virtual_work_bil 6 n r.1 (fun e he => (r2 e he).1) (fun e he => (r2 e he).2) v u).trans (r4 v u)⟩

theorem balance_of_work (n : Nat) (x : Nat → Fin 3 → K) (G : Nat → Nat → K) (h : ∀ t w, ∑ a ∈ Finset.range n, ∑ i ∈ Finset.range 6, moving t w x (a + 1) (i + 1) * G (a + 1) (i + 1) = 0) : InBalance n x G := by
  refine ⟨fun i h1 h2 => ?_, fun c => ⟨?_, ?_, ?_⟩⟩
  · have := h (fun j => if j.val + 1 = i then 1 else 0) (fun _ => 0)
    rw [← this]
    refine Finset.sum_congr rfl fun a _ => ?_
    interval_cases i <;> simp [Finset.sum_range_succ, moving]
  · rw [← h ![0, c 2, -c 1] ![1, 0, 0]]
    refine Finset.sum_congr rfl fun a _ => ?_
    simp [Finset.sum_range_succ, moving]; ring
  · rw [← h ![-c 2, 0, c 0] ![0, 1, 0]]
    refine Finset.sum_congr rfl fun a _ => ?_
    simp [Finset.sum_range_succ, moving]; ring
  · rw [← h ![c 1, -c 0, 0] ![0, 0, 1]]
    refine Finset.sum_congr rfl fun a _ => ?_
    simp [Finset.sum_range_succ, moving]; ring

theorem pos_of_fit (n : Nat) (e : Member K X) (h : Fit n e) : 0 < e.p.L := lt_trans (by norm_num) h.long

/-- C133 (balance): in a frame whose members have the same eccentricity at both ends, for every solution the support forces and moments act only where displacements or rotations are prescribed,
and they are in equilibrium with the loads, for moments about any point. -/
theorem C133_balance_partial (n : Nat) (x : Nat → Fin 3 → K) (l : List (Member K X)) (h : ∀ e ∈ l, Fit n e) (hx : ∀ e ∈ l, Placed x e) (he : ∀ e ∈ l, e.q.e1 = e.q.e2) (F g : Nat → Nat → K)
    (fixed : Nat → Nat → Prop) : ∃ r, members l = .ok r ∧ ∀ u, Solves 6 n (asmK 6 r.1) F g fixed u →
      (∀ a i, a < n → i < 6 → ¬ fixed (a + 1) (i + 1) → reaction 6 n (asmK 6 r.1) F u (a + 1) (i + 1) = 0) ∧ InBalance n x (fun a i => reaction 6 n (asmK 6 r.1) F u a i + F a i) := by
  obtain ⟨r, r1, r2⟩ := C133_virtual_work n l h
  refine ⟨r, r1, fun u hu => ⟨fun a i ha hi hf => by rw [reaction, hu.free a i ha hi hf, sub_self], balance_of_work n x _ fun t w => ?_⟩⟩
  simp only [reaction, sub_add_cancel]
  rw [r2]
  refine List.sum_eq_zero fun b hb => ?_
  obtain ⟨e, hel, rfl⟩ := List.mem_map.mp hb
  have hL := pos_of_fit n e (h e hel)
  have hs := (h e hel).shear
  obtain ⟨t', w', hr⟩ := ends_moving x e (hx e hel) (he e hel) t w
  rw [C40_symmetric _ _ _ _ _ _ _ _ _ hL hs.1 hs.2, form_congr _ (fun _ _ _ => rfl) hr]
  exact C40_rigid _ _ _ _ _ _ _ _ _ hL hs.1 hs.2 t' w' _

/-- C133 (reciprocity): the work of the loads of one load case in the displacements of another is the same when the cases are exchanged. -/
theorem C133_reciprocity (n : Nat) (l : List (Member K X)) (h : ∀ e ∈ l, Fit n e) (F F' : Nat → Nat → K) (fixed : Nat → Nat → Prop) :
    ∃ r, members l = .ok r ∧ ∀ u u', Solves 6 n (asmK 6 r.1) F (fun _ _ => 0) fixed u → Solves 6 n (asmK 6 r.1) F' (fun _ _ => 0) fixed u' → dotN 6 n F u' = dotN 6 n F' u := by
  obtain ⟨r, r1, r2⟩ := C133_virtual_work n l h
  refine ⟨r, r1, fun u u' hu hu' => ?_⟩
  rw [← solves_test 6 n (asmK 6 r.1) F _ fixed u u' hu fun a i ha hi hf => hu'.held a i ha hi hf,
    ← solves_test 6 n (asmK 6 r.1) F' _ fixed u' u hu' fun a i ha hi hf => hu.held a i ha hi hf, r2, r2]
  refine congrArg List.sum (List.map_congr_left fun e he => ?_)
  exact C40_symmetric _ _ _ _ _ _ _ _ _ (pos_of_fit n e (h e he)) (h e he).shear.1 (h e he).shear.2 _ _

/-- Displacements of a member without deformation: its nodes move as one rigid body. -/
theorem rigid_pair (n : Nat) (x : Nat → Fin 3 → K) (e : Member K X) (h : Fit n e) (hx : Placed x e) (he : e.q.e1 = e.q.e2) (v : Nat → Nat → K)
    (h0 : form (stiffness e.p.L e.p.EA e.p.GIt e.p.EIy e.p.EIz e.p.Aly e.p.Alz e.p.Sy e.p.Sz) (ends e.q e.T (at2 e v)) (ends e.q e.T (at2 e v)) = 0) :
    (v e.n2 4 = v e.n1 4 ∧ v e.n2 5 = v e.n1 5 ∧ v e.n2 6 = v e.n1 6) ∧
    v e.n2 1 = v e.n1 1 + (v e.n1 5 * (x e.n2 2 - x e.n1 2) - v e.n1 6 * (x e.n2 1 - x e.n1 1)) ∧
    v e.n2 2 = v e.n1 2 + (v e.n1 6 * (x e.n2 0 - x e.n1 0) - v e.n1 4 * (x e.n2 2 - x e.n1 2)) ∧
    v e.n2 3 = v e.n1 3 + (v e.n1 4 * (x e.n2 1 - x e.n1 1) - v e.n1 5 * (x e.n2 0 - x e.n1 0)) := by
  obtain ⟨p1, p2, p3, p4⟩ := h.stiff
  obtain ⟨t, r, hr⟩ := (C40_null _ _ _ _ _ _ _ e.p.Sy e.p.Sz (pos_of_fit n e h) h.shear.1 h.shear.2 p1 p2 p3 p4 _).mp h0
  obtain ⟨t0, t1, t2⟩ := hx.third
  obtain ⟨c0, c1, c2⟩ := T_cross x e hx
  have k1 := hr 1 (by omega) (by omega); have k2 := hr 2 (by omega) (by omega); have k3 := hr 3 (by omega) (by omega)
  have k4 := hr 4 (by omega) (by omega); have k5 := hr 5 (by omega) (by omega); have k6 := hr 6 (by omega) (by omega)
  have k7 := hr 7 (by omega) (by omega); have k8 := hr 8 (by omega) (by omega); have k9 := hr 9 (by omega) (by omega)
  have k10 := hr 10 (by omega) (by omega); have k11 := hr 11 (by omega) (by omega); have k12 := hr 12 (by omega) (by omega)
  simp [ends, rotVecT, BeamElem.loc, blk, Beam.rigid, armed, at2, he] at k1 k2 k3 k4 k5 k6 k7 k8 k9 k10 k11 k12
  have hθ := T_inj x e hx ![v e.n2 4 - v e.n1 4, v e.n2 5 - v e.n1 5, v e.n2 6 - v e.n1 6] fun j => by
    fin_cases j <;> simp
    · linear_combination k10 - k4
    · linear_combination k11 - k5
    · linear_combination k12 - k6
  have q4 : v e.n2 4 = v e.n1 4 := by have := hθ 0; simp at this; linear_combination this
  have q5 : v e.n2 5 = v e.n1 5 := by have := hθ 1; simp at this; linear_combination this
  have q6 : v e.n2 6 = v e.n1 6 := by have := hθ 2; simp at this; linear_combination this
  rw [q4, q5, q6] at k7 k8 k9
  have hd := T_inj x e hx ![v e.n2 1 - v e.n1 1 - e.p.L * (v e.n1 5 * e.T 2 0 - v e.n1 6 * e.T 1 0), v e.n2 2 - v e.n1 2 - e.p.L * (v e.n1 6 * e.T 0 0 - v e.n1 4 * e.T 2 0),
      v e.n2 3 - v e.n1 3 - e.p.L * (v e.n1 4 * e.T 1 0 - v e.n1 5 * e.T 0 0)] fun j => by
    fin_cases j <;> simp
    · linear_combination k7 - k1
    · linear_combination k8 - k2 - e.p.L * k6 + e.p.L * (v e.n1 4 * t0 + v e.n1 5 * t1 + v e.n1 6 * t2)
    · linear_combination k9 - k3 + e.p.L * k5 - e.p.L * (v e.n1 4 * c0 + v e.n1 5 * c1 + v e.n1 6 * c2)
  have d0 := hd 0; have d1 := hd 1; have d2 := hd 2
  simp at d0 d1 d2
  refine ⟨⟨q4, q5, q6⟩, ?_, ?_, ?_⟩
  · rw [hx.span 2, hx.span 1]; linear_combination d0
  · rw [hx.span 0, hx.span 2]; linear_combination d1
  · rw [hx.span 1, hx.span 0]; linear_combination d2

/-- C133 (existence and uniqueness): if the members, with the same eccentricity at both ends, connect all nodes of the frame and the supports admit no motion as a rigid body, then for all loads and prescribed
displacements there is a solution, and only one. -/
theorem C133_exists_partial (n : Nat) (x : Nat → Fin 3 → K) (l : List (Member K X)) (h : ∀ e ∈ l, Fit n e) (hx : ∀ e ∈ l, Placed x e) (he : ∀ e ∈ l, e.q.e1 = e.q.e2)
    (hc : ∀ a b, 1 ≤ a → a ≤ n → 1 ≤ b → b ≤ n → Relation.EqvGen (fun a b => ∃ e ∈ l, e.n1 = a ∧ e.n2 = b) a b) (F g : Nat → Nat → K) (fixed : Nat → Nat → Prop)
    (hsup : ∀ t w : Fin 3 → K, (∀ a i, a < n → i < 6 → fixed (a + 1) (i + 1) → moving t w x (a + 1) (i + 1) = 0) → ∀ a i, a < n → i < 6 → moving t w x (a + 1) (i + 1) = 0) :
    ∃ r, members l = .ok r ∧ ∃ u, Solves 6 n (asmK 6 r.1) F g fixed u ∧ ∀ v, Solves 6 n (asmK 6 r.1) F g fixed v → ∀ a i, a < n → i < 6 → v (a + 1) (i + 1) = u (a + 1) (i + 1) := by
  obtain ⟨r, r1, r2⟩ := C133_virtual_work n l h
  refine ⟨r, r1, exactly_one 6 n (asmK 6 r.1) F g fixed fun v hv hz => ?_⟩
  rw [r2] at hz
  have h0 : ∀ e ∈ l, form (stiffness e.p.L e.p.EA e.p.GIt e.p.EIy e.p.EIz e.p.Aly e.p.Alz e.p.Sy e.p.Sz) (ends e.q e.T (at2 e v)) (ends e.q e.T (at2 e v)) = 0 := by
    intro e hel
    refine list_sum_zero _ (fun b hb => ?_) hz _ (List.mem_map.mpr ⟨e, hel, rfl⟩)
    obtain ⟨e', hel', rfl⟩ := List.mem_map.mp hb
    have := (h e' hel').stiff
    exact C40_nonneg _ _ _ _ _ _ _ _ _ (pos_of_fit n e' (h e' hel')) (h e' hel').shear.1 (h e' hel').shear.2 this.1.le this.2.1.le this.2.2.1.le this.2.2.2.le _
  have pair : ∀ a b, Relation.EqvGen (fun a b => ∃ e ∈ l, e.n1 = a ∧ e.n2 = b) a b → (v b 4 = v a 4 ∧ v b 5 = v a 5 ∧ v b 6 = v a 6) ∧
      v b 1 = v a 1 + (v a 5 * (x b 2 - x a 2) - v a 6 * (x b 1 - x a 1)) ∧ v b 2 = v a 2 + (v a 6 * (x b 0 - x a 0) - v a 4 * (x b 2 - x a 2)) ∧
      v b 3 = v a 3 + (v a 4 * (x b 1 - x a 1) - v a 5 * (x b 0 - x a 0)) := by
    intro a b hab
    induction hab with
    | rel a b hab =>
      obtain ⟨e, hel, rfl, rfl⟩ := hab
      exact rigid_pair n x e (h e hel) (hx e hel) (he e hel) v (h0 e hel)
    | refl a => exact ⟨⟨rfl, rfl, rfl⟩, by ring, by ring, by ring⟩
    | symm a b _ ih =>
      obtain ⟨⟨i1, i2, i3⟩, i4, i5, i6⟩ := ih
      refine ⟨⟨i1.symm, i2.symm, i3.symm⟩, ?_, ?_, ?_⟩
      · rw [i4, i2, i3]; ring
      · rw [i5, i1, i3]; ring
      · rw [i6, i1, i2]; ring
    | trans a b c _ _ ih1 ih2 =>
      obtain ⟨⟨i1, i2, i3⟩, i4, i5, i6⟩ := ih1
      obtain ⟨⟨j1, j2, j3⟩, j4, j5, j6⟩ := ih2
      refine ⟨⟨j1.trans i1, j2.trans i2, j3.trans i3⟩, ?_, ?_, ?_⟩
      · rw [j4, i4, i2, i3]; ring
      · rw [j5, i5, i1, i3]; ring
      · rw [j6, i6, i1, i2]; ring
  rcases Nat.eq_zero_or_pos n with rfl | hn
  · intro a i ha; omega
  have key : ∀ a i, a < n → i < 6 → v (a + 1) (i + 1) =
      moving ![v 1 1 - (v 1 5 * x 1 2 - v 1 6 * x 1 1), v 1 2 - (v 1 6 * x 1 0 - v 1 4 * x 1 2), v 1 3 - (v 1 4 * x 1 1 - v 1 5 * x 1 0)] ![v 1 4, v 1 5, v 1 6] x (a + 1) (i + 1) := by
    intro a i ha hi
    obtain ⟨⟨i1, i2, i3⟩, i4, i5, i6⟩ := pair 1 (a + 1) (hc 1 (a + 1) (le_refl _) hn (by omega) ha)
    interval_cases i <;> simp [moving]
    · rw [i4]; ring
    · rw [i5]; ring
    · rw [i6]; ring
    · exact i1
    · exact i2
    · exact i3
  intro a i ha hi
  rw [key a i ha hi]
  exact hsup _ _ (fun a i ha hi hf => by rw [← key a i ha hi]; exact hv a i ha hi hf) a i ha hi

/-- C133 (weight): the resultant of the gravitation loads is the weight of all members; eccentricities do not change it. -/
theorem C133_weight (n : Nat) (x : Nat → Fin 3 → K) (l : List (Member K X)) (h : ∀ e ∈ l, Fit n e) (hx : ∀ e ∈ l, Placed x e) : ∃ r, members l = .ok r ∧
    ∀ i : Fin 3, ∑ a ∈ Finset.range n, asmV 6 r.2 (a + 1) (i.val + 1) = (l.map fun e => e.p.rhoA * e.p.L * e.q.grav i).sum := by
  obtain ⟨r, r1, -, r3, -, r5⟩ := members_ok n l h
  refine ⟨r, r1, fun i => ?_⟩
  rw [← r5 x hx i]
  have hs := asmV_sum 6 n r.2 r3 (fun _ k => if k = i.val + 1 then 1 else 0)
  simp only [Struct.loc, Nat.add_right_cancel_iff] at hs
  rw [← hs]
  refine Finset.sum_congr rfl fun a _ => ?_
  fin_cases i <;> simp [Finset.sum_range_succ]

end

/-- A beam from (0,0,0) to (1,0,0) with unit stiffnesses, the given eccentricity of the second end and a weight of 2 in the negative third direction. -/
def unitBeam (e1 e2 : Fin 3 → ℚ) : Member ℚ Unit := ⟨1, 2, ⟨e1, e2, ![0, 0, -1], 0, none, none⟩, ⟨1, 1, 1, 1, 1, 0, 0, 2, 0, 0, 0, 0, 0, 0, 0, 0⟩, fun i j => if i = j then 1 else 0⟩

/-- Its nodes. -/
def unitX : Nat → Fin 3 → ℚ := fun a => ![if a = 2 then 1 else 0, 0, 0]

theorem unitBeam_fit (e1 e2 : Fin 3 → ℚ) : Fit 2 (unitBeam e1 e2) := by
  constructor <;> norm_num [unitBeam]

theorem unitBeam_placed (e1 e2 : Fin 3 → ℚ) : Placed unitX (unitBeam e1 e2) :=
  ⟨by simp [unitBeam], by simp [unitBeam], by simp [unitBeam], by simp [unitBeam], fun i => by fin_cases i <;> simp [unitBeam, unitX]⟩

/-- C133 (eccentricities): a clamped beam whose ends have different eccentricities, pulled at its free end: the length and the axes of the beam are those between the nodes, not those between the eccentric ends, so the
axial forces at the two ends are not on one line, and the support forces and moments are not in equilibrium with the loads. -/
theorem C133_eccentric_violated : ∃ (e : Member ℚ Unit) (x : Nat → Fin 3 → ℚ) (F : Nat → Nat → ℚ) (u : Nat → Nat → ℚ), Fit 2 e ∧ Placed x e ∧ e.q.e1 ≠ e.q.e2 ∧
    ∃ r, members [e] = .ok r ∧ Solves 6 2 (asmK 6 r.1) F (fun _ _ => 0) (fun a _ => a = 1) u ∧ ¬ InBalance 2 x (fun a i => reaction 6 2 (asmK 6 r.1) F u a i + F a i) := by
  obtain ⟨r, r1, r2⟩ := C133_virtual_work 2 [unitBeam ![0, 0, 0] ![0, 0, 1]] fun e he => by
    rw [List.mem_singleton.mp he]; exact unitBeam_fit _ _
  let u : Nat → Nat → ℚ := fun a i => if a = 2 ∧ i = 1 then 1 else 0
  refine ⟨_, unitX, fun a i => if a = 1 then 0 else nodal 6 2 (asmK 6 r.1) u a i, u, unitBeam_fit ![0, 0, 0] ![0, 0, 1], unitBeam_placed _ _, by decide +kernel, r, r1,
    ⟨fun a i _ _ hf => by rw [if_neg hf], fun a i _ _ hf => by simp [u, hf]⟩, fun hb => ?_⟩
  have hm := (hb.moment fun _ => 0).2.1
  simp only [reaction, sub_add_cancel] at hm
  have hw := r2 (moving (fun _ => 0) ![0, 1, 0] unitX) u
  have hv : (([unitBeam ![0, 0, 0] ![0, 0, 1]].map fun e => form (stiffness e.p.L e.p.EA e.p.GIt e.p.EIy e.p.EIz e.p.Aly e.p.Alz e.p.Sy e.p.Sz) (ends e.q e.T (at2 e (moving (fun _ => 0) ![0, 1, 0] unitX)))
      (ends e.q e.T (at2 e u))).sum : ℚ) ≠ 0 := by decide +kernel
  refine hv (hw.symm.trans (Eq.trans ?_ hm))
  refine Finset.sum_congr rfl fun a _ => ?_
  simp [Finset.sum_range_succ, moving]
  ring

/-- The hypotheses of the theorems are met: one member, clamped at its first node. -/
example : (∀ e ∈ [unitBeam ![0, 0, 1] ![0, 0, 1]], Fit 2 e) ∧ (∀ e ∈ [unitBeam ![0, 0, 1] ![0, 0, 1]], Placed unitX e) ∧ (∀ e ∈ [unitBeam ![0, 0, 1] ![0, 0, 1]], e.q.e1 = e.q.e2) ∧
    (∀ a b, 1 ≤ a → a ≤ 2 → 1 ≤ b → b ≤ 2 → Relation.EqvGen (fun a b => ∃ e ∈ [unitBeam ![0, 0, 1] ![0, 0, 1]], e.n1 = a ∧ e.n2 = b) a b) ∧
    (∀ t w : Fin 3 → ℚ, (∀ a i, a < 2 → i < 6 → a + 1 = 1 → moving t w unitX (a + 1) (i + 1) = 0) → ∀ a i, a < 2 → i < 6 → moving t w unitX (a + 1) (i + 1) = 0) := by
  refine ⟨fun e he => ?_, fun e he => ?_, fun e he => ?_, fun a b h1 h2 h3 h4 => ?_, fun t w h => ?_⟩
  · rw [List.mem_singleton.mp he]; exact unitBeam_fit _ _
  · rw [List.mem_singleton.mp he]; exact unitBeam_placed _ _
  · rw [List.mem_singleton.mp he]; rfl
  · have h12 : Relation.EqvGen (fun a b => ∃ e ∈ [unitBeam ![0, 0, 1] ![0, 0, 1]], e.n1 = a ∧ e.n2 = b) 1 2 := .rel _ _ ⟨unitBeam ![0, 0, 1] ![0, 0, 1], by simp, rfl, rfl⟩
    interval_cases a <;> interval_cases b
    · exact .refl _
    · exact h12
    · exact h12.symm
    · exact .refl _
  · have k1 := h 0 0 (by omega) (by omega) rfl; have k2 := h 0 1 (by omega) (by omega) rfl; have k3 := h 0 2 (by omega) (by omega) rfl
    have k4 := h 0 3 (by omega) (by omega) rfl; have k5 := h 0 4 (by omega) (by omega) rfl; have k6 := h 0 5 (by omega) (by omega) rfl
    simp [moving, unitX] at k1 k2 k3 k4 k5 k6
    intro a i ha hi
    interval_cases a <;> interval_cases i <;> simp [moving, unitX, k1, k2, k3, k4, k5, k6]

/-- Loads on the free end are carried by the clamped end: a force of 3 in direction 2 at the free end gives a support force -3 and a support moment about the third axis. -/
example (r) (hr : members [unitBeam ![0, 0, 1] ![0, 0, 1]] = .ok r) (u : Nat → Nat → ℚ) (hu : Solves 6 2 (asmK 6 r.1) (fun a i => if a = 2 ∧ i = 2 then 3 else 0) (fun _ _ => 0) (fun a _ => a = 1) u) :
    reaction 6 2 (asmK 6 r.1) (fun a i => if a = 2 ∧ i = 2 then 3 else 0) u 1 2 = -3 ∧ reaction 6 2 (asmK 6 r.1) (fun a i => if a = 2 ∧ i = 2 then 3 else 0) u 1 6 = -3 := by
  obtain ⟨r', r1, r2⟩ := C133_balance_partial 2 unitX [unitBeam ![0, 0, 1] ![0, 0, 1]] (fun e he => by rw [List.mem_singleton.mp he]; exact unitBeam_fit _ _)
    (fun e he => by rw [List.mem_singleton.mp he]; exact unitBeam_placed _ _) (fun e he => by rw [List.mem_singleton.mp he]; rfl) (fun a i => if a = 2 ∧ i = 2 then 3 else 0) (fun _ _ => 0) (fun a _ => a = 1)
  rw [hr] at r1; cases r1
  obtain ⟨q1, q2⟩ := r2 u hu
  have a1 := q2.force 2 (by omega) (by omega)
  have a2 := (q2.moment fun _ => 0).2.2
  have b1 := q1 1 1 (by omega) (by omega) (by decide)
  have b2 := q1 1 5 (by omega) (by omega) (by decide)
  simp [Finset.sum_range_succ, unitX, b1, b2] at a1 a2
  exact ⟨by linarith, by linarith⟩

end Verif.Frame
