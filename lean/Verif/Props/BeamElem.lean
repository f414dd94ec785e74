/-
Property C108: the beam element as a whole is in equilibrium with its loads, consistent and independent of the position of its axes.
-/
import Mathlib.Algebra.Order.Field.Basic
import Mathlib.Algebra.Order.Ring.Rat
import Mathlib.Algebra.Order.BigOperators.Group.List
import Mathlib.Tactic.Positivity
import Mathlib.Tactic.Linarith
import Mathlib.Tactic.FinCases
import Verif.Model.BeamElem
import Verif.Proofs.Beam
import Verif.Props.BeamMass

set_option linter.unusedSectionVars false
set_option linter.unusedSimpArgs false
set_option linter.unusedVariables false

namespace Verif.BeamElem

open Verif.Beam

/-! ### Transformations -/

section field

variable {K : Type} [Field K]

theorem work_rot (T : Fin 3 → Fin 3 → K) (b u : Nat → K) : work (rotVec T b) u = work b (rotVecT T u) := by
  simp only [work, Finset.sum_range_succ, Finset.sum_range_zero, rotVec, rotVecT, blk, loc]
  norm_num
  simp only [show (⟨2, by decide⟩ : Fin 3) = 2 from rfl]
  ring

theorem form_swap (A : Mat K) (u v : Nat → K) : form A u v = ∑ j ∈ Finset.range 12, work (fun r => A r (j + 1)) u * v (j + 1) := by
  unfold form work
  simp only [Finset.mul_sum, Finset.sum_mul]
  rw [Finset.sum_comm (s := Finset.range 12)]
  refine Finset.sum_congr rfl fun j _ => Finset.sum_congr rfl fun i _ => ?_
  ring

theorem form_rot (T : Fin 3 → Fin 3 → K) (A : Mat K) (u v : Nat → K) : form (rotMat T A) u v = form A (rotVecT T u) (rotVecT T v) := by
  have e1 : form (rotMat T A) u v = form (fun i c => rotVec T (fun r => A r c) i) u (rotVecT T v) := by
    unfold form
    refine Finset.sum_congr rfl fun i _ => ?_
    congr 1
    exact work_rot T (fun c => rotVec T (fun r => A r c) (i + 1)) v
  rw [e1, form_swap, form_swap]
  refine Finset.sum_congr rfl fun j _ => ?_
  rw [work_rot]

theorem work_mulVec (A : Mat K) (v w : Nat → K) : work (mulVec A v) w = form A w v := by
  unfold work form mulVec
  refine Finset.sum_congr rfl fun i _ => ?_
  rw [mul_comm]

theorem work_sub (a b w : Nat → K) : work (fun i => a i - b i) w = work a w - work b w := by
  unfold work
  rw [← Finset.sum_sub_distrib]
  refine Finset.sum_congr rfl fun i _ => ?_
  ring

theorem work_neg (b w : Nat → K) : work (fun i => 0 - b i) w = - work b w := by
  unfold work
  rw [← Finset.sum_neg_distrib]
  refine Finset.sum_congr rfl fun i _ => ?_
  ring

theorem work_zero (w : Nat → K) : work (fun _ => (0 : K)) w = 0 := by simp [work]

theorem work_gravity (M : Mat K) (g : V3 K) (S w : Nat → K) : work (gravity M g S) w = work S w + work (gravity M g 0) w := by
  unfold work gravity
  rw [← Finset.sum_add_distrib]
  refine Finset.sum_congr rfl fun i _ => ?_
  simp only [Pi.zero_apply]
  ring

theorem form_zero_right (A : Mat K) (u v : Nat → K) (h : ∀ i ∈ twelve, v i = 0) : form A u v = 0 := by
  unfold form
  refine Finset.sum_eq_zero fun i _ => ?_
  rw [Finset.sum_eq_zero, mul_zero]
  intro j hj
  rw [h _ (mem_twelve j (Finset.mem_range.mp hj)), mul_zero]

theorem rotVecT_zero (T : Fin 3 → Fin 3 → K) (v : Nat → K) (h : ∀ i ∈ twelve, v i = 0) : ∀ i ∈ twelve, rotVecT T v i = 0 := by
  intro i hi
  have a : ∀ i ∈ twelve, blk i + 1 ∈ twelve ∧ blk i + 2 ∈ twelve ∧ blk i + 3 ∈ twelve := by decide
  obtain ⟨h1, h2, h3⟩ := a i hi
  simp [rotVecT, h _ h1, h _ h2, h _ h3]

theorem armed_zero (e1 e2 : V3 K) (h : ¬ (e1 0 ≠ 0 ∨ e1 1 ≠ 0 ∨ e1 2 ≠ 0 ∨ e2 0 ≠ 0 ∨ e2 1 ≠ 0 ∨ e2 2 ≠ 0)) (u : Nat → K) : armed e1 e2 u = u := by
  push Not at h
  obtain ⟨a, b, c, d, e, f⟩ := h
  funext i
  unfold armed
  split <;> simp [a, b, c, d, e, f]

end field

section ordered

variable {K X : Type} [Field K] [LinearOrder K] [IsStrictOrderedRing K]

/-- Displacements of the ends of the beam in its axes, from those of the nodes. -/
def ends (q : Beam K X) (T : Fin 3 → Fin 3 → K) (u : Nat → K) : Nat → K := rotVecT T (armed q.e1 q.e2 u)

theorem form_finA (s : Slots) (q : Beam K X) (T : Fin 3 → Fin 3 → K) (k : Nat) (h : ¬ (k = s.eM ∧ q.lumped = 2)) (A : Mat K) (u v : Nat → K) :
    form (finA s q T k A) u v = form A (ends q T u) (ends q T v) := by
  unfold finA ends
  rw [if_neg h]
  by_cases he : hasEcc q = true
  · rw [if_pos he, form_ecc, form_rot]
  · rw [if_neg he, form_rot]
    have : ¬ (q.e1 0 ≠ 0 ∨ q.e1 1 ≠ 0 ∨ q.e1 2 ≠ 0 ∨ q.e2 0 ≠ 0 ∨ q.e2 1 ≠ 0 ∨ q.e2 2 ≠ 0) := by simpa only [hasEcc, decide_eq_true_eq] using he
    rw [armed_zero _ _ this, armed_zero _ _ this]

theorem work_finB (q : Beam K X) (T : Fin 3 → Fin 3 → K) (b w : Nat → K) : work (finB q T b) w = work b (ends q T w) := by
  unfold finB ends
  by_cases he : hasEcc q = true
  · rw [if_pos he, work_ecc, work_rot]
  · rw [if_neg he, work_rot]
    have : ¬ (q.e1 0 ≠ 0 ∨ q.e1 1 ≠ 0 ∨ q.e1 2 ≠ 0 ∨ q.e2 0 ≠ 0 ∨ q.e2 1 ≠ 0 ∨ q.e2 2 ≠ 0) := by simpa only [hasEcc, decide_eq_true_eq] using he
    rw [armed_zero _ _ this]

theorem above_zero_false (v : Nat → K) (h : above 0 v = false) : ∀ i ∈ twelve, v i = 0 := by
  intro i hi
  have : ¬ (0 < |v i|) := by
    intro hh
    have : above 0 v = true := by
      unfold above
      rw [List.any_eq_true]
      exact ⟨i, hi, by simpa using hh⟩
    rw [this] at h; cases h
  simpa using this

/-- C108, partial: linear statics. The stiffness of the element is the one of the beam for the displacements of its ends in its axes, and the force vector does the virtual work of
the gravitation forces minus that of the internal forces with the same stiffness. The displacements are zero or not vanishingly small, or there are eccentricities. -/
theorem C108_static_partial (q : Beam K X) (p : Sect K) (T : Fin 3 → Fin 3 → K) (v : Nat → K) (hL : 1 / 100000000 < p.L)
    (hv : (∀ i ∈ twelve, v i = 0) ∨ hasEcc q = true ∨ above (1 / 10000000000000000 * p.L) v = true) :
    ∃ m, element ⟨1, 0, 0, 1, 1⟩ q p T v = .ok m ∧
      (∀ u w, form (m.A 1) u w = form (stiffness p.L p.EA p.GIt p.EIy p.EIz p.Aly p.Alz p.Sy p.Sz) (ends q T u) (ends q T w)) ∧
      ∀ w, work (m.b 1) w = (if q.grav = 0 then 0 else work (gravity (mm q p) (localG T q.grav) 0) (ends q T w)) - form (m.A 1) w v := by
  have hL' : ¬ p.L ≤ 1 / 100000000 := not_le.2 hL
  have hg : hasGr q = true ↔ ¬ q.grav = 0 := by
    unfold hasGr
    rw [decide_eq_true_eq]
    constructor
    · rintro h h0; rw [h0] at h; simp at h
    · intro h
      by_contra hh
      push Not at hh
      apply h
      funext i
      fin_cases i
      · exact hh.1
      · exact hh.2.1
      · exact hh.2.2
  set dis := above (1 / 10000000000000000 * p.L) v with hdis
  -- the state after the integration
  obtain ⟨m0, e0, hA, hB⟩ : ∃ m0, evalInt ⟨1, 0, 0, 1, 1⟩ q p T v Mats.zero = .ok m0 ∧ m0.A 1 = km p ∧
      ∀ w, work (m0.b 1) w = (if q.grav = 0 then 0 else work (gravity (mm q p) (localG T q.grav) 0) w) -
        (if dis && !hasEcc q then form (km p) w (rotVecT T v) else 0) := by
    refine ⟨_, by simp only [evalInt, if_neg hL', ne_eq, not_true, false_and, if_false]; rfl, ?_, ?_⟩
    · by_cases hgr : hasGr q = true
      · simp [stepG, stepM, stepKg, stepInt, stepKm, Mats.setA, Mats.setB, hgr]; split <;> simp
      · simp [stepG, stepM, stepKg, stepInt, stepKm, Mats.setA, Mats.setB, hgr]; split <;> simp
    · intro w
      rw [← hdis]
      by_cases hgr : hasGr q = true
      · rw [if_neg (hg.1 hgr)]
        by_cases hd : (dis && !hasEcc q) = true
        · simp only [stepG, stepM, stepKg, stepInt, stepKm, Mats.setA, Mats.setB, hgr, hd, if_true, ne_eq, not_true, not_false_eq_true, false_and, if_false, true_and, and_true,
            one_ne_zero]
          rw [work_gravity, work_neg, work_mulVec]
          ring
        · simp only [stepG, stepM, stepKg, stepInt, stepKm, Mats.setA, Mats.setB, hgr, hd, if_true, ne_eq, not_true, not_false_eq_true, false_and, if_false, true_and, and_true,
            one_ne_zero, Bool.false_eq_true]
          rw [work_gravity, work_zero]
          ring
      · have h0 : q.grav = 0 := by by_contra h; exact hgr (hg.2 h)
        rw [if_pos h0]
        by_cases hd : (dis && !hasEcc q) = true
        · simp only [stepG, stepM, stepKg, stepInt, stepKm, Mats.setA, Mats.setB, hgr, hd, if_true, ne_eq, not_true, not_false_eq_true, false_and, if_false, true_and, and_true,
            one_ne_zero, Bool.false_eq_true, and_false]
          rw [work_neg, work_mulVec]
          ring
        · simp only [stepG, stepM, stepKg, stepInt, stepKm, Mats.setA, Mats.setB, hgr, hd, if_true, ne_eq, not_true, not_false_eq_true, false_and, if_false, true_and, and_true,
            one_ne_zero, Bool.false_eq_true, and_false]
          rw [work_zero]
          ring
  have hfA : ∀ u w, form (finA ⟨1, 0, 0, 1, 1⟩ q T 1 (m0.A 1)) u w = form (km p) (ends q T u) (ends q T w) := by
    intro u w
    rw [form_finA _ _ _ _ (by simp), hA]
  unfold element
  rw [e0]
  simp only [finalize]
  by_cases hc : hasEcc q = true ∧ above 0 v = true
  · rw [if_pos ⟨by decide, hc⟩, if_neg (by decide)]
    refine ⟨_, rfl, hfA, ?_⟩
    intro w
    simp only [Mats.setB, if_true]
    rw [work_sub, work_mulVec, work_finB, hB, hc.1]
    simp
  · have : ¬ ((1 : Nat) ≠ 0 ∧ hasEcc q = true ∧ above 0 v = true) := fun h => hc h.2
    rw [if_neg this]
    refine ⟨_, rfl, hfA, ?_⟩
    intro w
    simp only
    rw [work_finB, hB]
    congr 1
    rw [hfA]
    by_cases hecc : hasEcc q = true
    · have hz : ∀ i ∈ twelve, v i = 0 := above_zero_false v (by
        cases ha : above 0 v with
        | false => rfl
        | true => exact absurd ⟨hecc, ha⟩ hc)
      have harm : ∀ i ∈ twelve, armed q.e1 q.e2 v i = 0 := by
        intro i hi
        have t : ∀ j ∈ twelve, v j = 0 := hz
        unfold armed
        split <;> first
          | simp [t 1 (by decide), t 2 (by decide), t 3 (by decide), t 4 (by decide), t 5 (by decide), t 6 (by decide), t 7 (by decide), t 8 (by decide), t 9 (by decide),
              t 10 (by decide), t 11 (by decide), t 12 (by decide)]
          | exact t _ hi
      have e1 : form (km p) (ends q T w) (ends q T v) = 0 := form_zero_right _ _ _ (rotVecT_zero T _ harm)
      rw [e1]
      simp [hecc]
    · have hne : ¬ (q.e1 0 ≠ 0 ∨ q.e1 1 ≠ 0 ∨ q.e1 2 ≠ 0 ∨ q.e2 0 ≠ 0 ∨ q.e2 1 ≠ 0 ∨ q.e2 2 ≠ 0) := by simpa only [hasEcc, decide_eq_true_eq] using hecc
      have ev : ends q T v = rotVecT T v := by unfold ends; rw [armed_zero _ _ hne]
      rw [ev]
      rcases hv with hz | he | hd
      · rw [form_zero_right _ _ _ (rotVecT_zero T v hz)]
        simp
      · exact absurd he hecc
      · have : dis = true := hd
        simp [this, hecc]

/-- C108: for axes of unit length and at right angles the weight of the beam does the right virtual work in a rigid translation, in any position of the beam and of its ends. -/
theorem C108_weight (q : Beam K X) (p : Sect K) (T : Fin 3 → Fin 3 → K) (hL : 1 / 100000000 < p.L) (hT : ∀ i k, T i 0 * T k 0 + T i 1 * T k 1 + T i 2 * T k 2 = if i = k then 1 else 0)
    (t : Fin 3 → K) :
    ∃ m, element ⟨1, 0, 0, 1, 1⟩ q p T (fun _ => 0) = .ok m ∧ work (m.b 1) (rigid 0 t 0) = p.rhoA * p.L * (t 0 * q.grav 0 + t 1 * q.grav 1 + t 2 * q.grav 2) := by
  obtain ⟨m, e, h1, h2⟩ := C108_static_partial q p T (fun _ => 0) hL (Or.inl fun _ _ => rfl)
  refine ⟨m, e, ?_⟩
  rw [h2, form_zero_right _ _ _ (fun _ _ => rfl), sub_zero]
  by_cases h0 : q.grav = 0
  · rw [if_pos h0, h0]; simp
  · rw [if_neg h0]
    have hL0 : p.L ≠ 0 := by
      have : (0 : K) < p.L := lt_trans (by norm_num) hL
      exact this.ne'
    have he : ∀ i ∈ twelve, ends q T (rigid 0 t 0) i = rigid p.L (fun j => T 0 j * t 0 + T 1 j * t 1 + T 2 j * t 2) 0 i := by
      intro i hi
      fin_cases hi <;> simp [ends, rotVecT, armed, rigid, blk, loc]
    have hw : ∀ b : Nat → K, work b (ends q T (rigid 0 t 0)) = work b (rigid p.L (fun j => T 0 j * t 0 + T 1 j * t 1 + T 2 j * t 2) 0) := by
      intro b
      unfold work
      refine Finset.sum_congr rfl fun i hi => ?_
      rw [he _ (mem_twelve i (Finset.mem_range.mp hi))]
    rw [hw]
    have hw2 : work (gravity (mm q p) (localG T q.grav) 0) (rigid p.L (fun j => T 0 j * t 0 + T 1 j * t 1 + T 2 j * t 2) 0) =
        p.rhoA * p.L * ((T 0 0 * t 0 + T 1 0 * t 1 + T 2 0 * t 2) * localG T q.grav 0 + (T 0 1 * t 0 + T 1 1 * t 1 + T 2 1 * t 2) * localG T q.grav 1 +
          (T 0 2 * t 0 + T 1 2 * t 1 + T 2 2 * t 2) * localG T q.grav 2) := by
      unfold mm
      simp only
      split
      · rw [C42_centre _ _ _ _ _ _ _ _ hL0]
        simp
      · rw [C42_gravity _ _ _ _ _ _ hL0]
        simp
    rw [hw2]
    simp only [localG]
    have a00 := hT 0 0; have a11 := hT 1 1; have a22 := hT 2 2; have a01 := hT 0 1; have a02 := hT 0 2; have a12 := hT 1 2
    simp only [if_true, show ((0 : Fin 3) = 1) = False by decide, show ((0 : Fin 3) = 2) = False by decide, show ((1 : Fin 3) = 2) = False by decide, if_false] at a00 a11 a22 a01 a02 a12
    congr 1
    linear_combination t 0 * q.grav 0 * a00 + t 1 * q.grav 1 * a11 + t 2 * q.grav 2 * a22 + (t 0 * q.grav 1 + t 1 * q.grav 0) * a01 + (t 0 * q.grav 2 + t 2 * q.grav 0) * a02 +
      (t 1 * q.grav 2 + t 2 * q.grav 1) * a12

/-- C108: the tangent of a beam without eccentricities which is loaded by displacements is its stiffness plus the geometric stiffness of the axial force, `EA` times the elongation over
the length. -/
theorem C108_tangent (q : Beam K X) (p : Sect K) (T : Fin 3 → Fin 3 → K) (v : Nat → K) (hL : 1 / 100000000 < p.L) (he : hasEcc q = false)
    (hv : above (1 / 10000000000000000 * p.L) v = true) (hN : p.EA * ((rotVecT T v 7 - rotVecT T v 1) / p.L) ≠ 0) (u w : Nat → K) :
    (∃ m, element ⟨1, 1, 0, 1, 1⟩ q p T v = .ok m ∧ form (m.A 1) u w =
      form (km p) (ends q T u) (ends q T w) +
      form (geometric (p.EA * ((rotVecT T v 7 - rotVecT T v 1) / p.L)) p.L p.Aly p.Alz p.ItoA p.Sy p.Sz) (ends q T u) (ends q T w)) ∧
    ∃ m, element ⟨1, 2, 0, 0, 0⟩ q p T v = .ok m ∧ form (m.A 1) u w = form (km p) (ends q T u) (ends q T w) ∧
      form (m.A 2) u w = form (geometric (p.EA * ((rotVecT T v 7 - rotVecT T v 1) / p.L)) p.L p.Aly p.Alz p.ItoA p.Sy p.Sz) (ends q T u) (ends q T w) := by
  have hL' : ¬ p.L ≤ 1 / 100000000 := not_le.2 hL
  generalize hNN : p.EA * ((rotVecT T v 7 - rotVecT T v 1) / p.L) = N at hN ⊢
  have ax1 : axial ⟨1, 1, 0, 1, 1⟩ p T true false v = N := by simp [axial, hNN]
  have ax2 : axial ⟨1, 2, 0, 0, 0⟩ p T true false v = N := by simp [axial, hNN]
  have fadd : ∀ A B : Mat K, ∀ u w, form (fun i j => A i j + B i j) u w = form A u w + form B u w := by
    intro A B u w
    unfold form
    rw [← Finset.sum_add_distrib]
    refine Finset.sum_congr rfl fun i _ => ?_
    rw [← mul_add, ← Finset.sum_add_distrib]
    congr 1
    refine Finset.sum_congr rfl fun j _ => ?_
    ring
  constructor
  · obtain ⟨m0, e0, hA⟩ : ∃ m0, evalInt ⟨1, 1, 0, 1, 1⟩ q p T v Mats.zero = .ok m0 ∧ m0.A 1 = fun i j => km p i j + geometric N p.L p.Aly p.Alz p.ItoA p.Sy p.Sz i j := by
      refine ⟨_, by simp only [evalInt, if_neg hL', hv, he, ne_eq, Bool.false_eq_true, and_false, if_false, ax1]; rfl, ?_⟩
      simp only [stepG, stepM, stepKg, stepInt, stepKm, Mats.setA, Mats.setB, hN, ne_eq, not_true, not_false_eq_true, if_true, one_ne_zero, and_true, if_false, Bool.not_false, Bool.and_true]
      split <;> simp
    unfold element
    rw [e0]
    simp only [finalize, he, Bool.false_eq_true, false_and, and_false, if_false]
    refine ⟨_, rfl, ?_⟩
    simp only
    rw [form_finA _ _ _ _ (by simp), hA, fadd]
  · obtain ⟨m0, e0, hA, hA2⟩ : ∃ m0, evalInt ⟨1, 2, 0, 0, 0⟩ q p T v Mats.zero = .ok m0 ∧ m0.A 1 = km p ∧ m0.A 2 = geometric N p.L p.Aly p.Alz p.ItoA p.Sy p.Sz := by
      refine ⟨_, by simp only [evalInt, if_neg hL', hv, he, ne_eq, Bool.false_eq_true, and_false, if_false, ax2]; rfl, ?_, ?_⟩ <;>
      simp [stepG, stepM, stepKg, stepInt, stepKm, Mats.setA, Mats.setB, hN]
    unfold element
    rw [e0]
    simp only [finalize, he, Bool.false_eq_true, false_and, and_false, if_false]
    refine ⟨_, rfl, ?_, ?_⟩
    · simp only
      rw [form_finA _ _ _ _ (by simp), hA]
    · simp only
      rw [form_finA _ _ _ _ (by simp), hA2]

/-- C108 fails for distributed loads: they are read from the input, but the element is the same for all of them. Without gravitation an undeformed beam has no load, whatever
distributed load is given. -/
theorem C108_lineload_violated (q : Beam K X) (p : Sect K) (T : Fin 3 → Fin 3 → K) (v : Nat → K) (s : Slots) (l c : Option X) :
    element s { q with lineLoad := l, cplLoad := c } p T v = element s ({ q with lineLoad := none, cplLoad := none } : Beam K X) p T v ∧
    (q.grav = 0 → 1 / 100000000 < p.L → ∃ m, element ⟨1, 0, 0, 1, 1⟩ { q with lineLoad := l, cplLoad := c } p T (fun _ => 0) = .ok m ∧ ∀ w, work (m.b 1) w = 0) := by
  refine ⟨rfl, fun hg hL => ?_⟩
  obtain ⟨m, e, h1, h2⟩ := C108_static_partial { q with lineLoad := l, cplLoad := c } p T (fun _ => 0) hL (Or.inl fun _ _ => rfl)
  refine ⟨m, e, fun w => ?_⟩
  rw [h2, if_pos hg, form_zero_right _ _ _ (fun _ _ => rfl), sub_zero]

/-- C108 fails for eccentric beams when only the force vector is wanted, and for their geometric stiffness: the element is refused as soon as there are displacements. -/
theorem C108_eccentric_violated (q : Beam K X) (p : Sect K) (T : Fin 3 → Fin 3 → K) (v : Nat → K) (he : hasEcc q = true) (hv : above 0 v = true) (hL : 1 / 100000000 < p.L)
    (hv' : above (1 / 10000000000000000 * p.L) v = true) :
    element ⟨0, 0, 0, 1, 1⟩ q p T v = .fail ∧ element ⟨1, 1, 0, 1, 1⟩ q p T v = .fail ∧ element ⟨1, 2, 0, 0, 0⟩ q p T v = .fail := by
  have hL' : ¬ p.L ≤ 1 / 100000000 := not_le.2 hL
  refine ⟨?_, ?_, ?_⟩
  · unfold element
    have : ∃ m0, evalInt ⟨0, 0, 0, 1, 1⟩ q p T v Mats.zero = .ok m0 := ⟨_, by simp only [evalInt, if_neg hL', ne_eq, not_true, false_and, if_false]; rfl⟩
    obtain ⟨m0, e0⟩ := this
    rw [e0]
    simp only [finalize]
    rw [if_pos ⟨by decide, he, hv⟩, if_pos (Or.inl (by decide))]
  · unfold element
    have : evalInt ⟨1, 1, 0, 1, 1⟩ q p T v Mats.zero = .fail := by
      simp only [evalInt, if_neg hL', hv', he, ne_eq, one_ne_zero, OfNat.ofNat_ne_zero, not_false_eq_true, true_and, and_self, if_true]
    rw [this]
  · unfold element
    have : evalInt ⟨1, 2, 0, 0, 0⟩ q p T v Mats.zero = .fail := by
      simp only [evalInt, if_neg hL', hv', he, ne_eq, one_ne_zero, OfNat.ofNat_ne_zero, not_false_eq_true, true_and, and_self, if_true]
    rw [this]

/-- C108 fails for displacements which are very small compared with the length: there are no internal forces. Witness: a unit beam stretched by a hundredth of the limit. -/
theorem C108_small_violated (q : Beam K X) (p : Sect K) (T : Fin 3 → Fin 3 → K) (v : Nat → K) (hL : 1 / 100000000 < p.L) (he : hasEcc q = false) (hg : q.grav = 0)
    (hv : above (1 / 10000000000000000 * p.L) v = false) : ∃ m, element ⟨1, 0, 0, 1, 1⟩ q p T v = .ok m ∧ ∀ w, work (m.b 1) w = 0 := by
  have hL' : ¬ p.L ≤ 1 / 100000000 := not_le.2 hL
  have hgr : hasGr q = false := by simp [hasGr, hg]
  have : ∃ m0, evalInt ⟨1, 0, 0, 1, 1⟩ q p T v Mats.zero = .ok m0 ∧ m0.b 1 = fun _ => 0 := by
    refine ⟨_, by simp only [evalInt, if_neg hL', ne_eq, not_true, false_and, if_false]; rfl, ?_⟩
    rw [hv]
    simp [stepG, stepM, stepKg, stepInt, stepKm, Mats.setA, Mats.setB, hgr]
  obtain ⟨m0, e0, hb⟩ := this
  unfold element
  rw [e0]
  simp only [finalize, he, Bool.false_eq_true, false_and, and_false, if_false]
  refine ⟨_, rfl, fun w => ?_⟩
  simp only
  rw [work_finB, hb, work_zero]

/-- C108: without displacements an eccentric element is accepted when geometric stiffness is asked for; that is zero, so the matrix is the material stiffness. -/
theorem C108_undeformed (q : Beam K X) (p : Sect K) (T : Fin 3 → Fin 3 → K) (v : Nat → K) (hL : 1 / 100000000 < p.L) (hv : above (1 / 10000000000000000 * p.L) v = false) :
    ∃ m, evalInt ⟨1, 2, 0, 0, 0⟩ q p T v Mats.zero = .ok m ∧ m.A 1 = km p ∧ m.A 2 = fun _ _ => 0 := by
  have hL' : ¬ p.L ≤ 1 / 100000000 := not_le.2 hL
  refine ⟨_, by simp only [evalInt, if_neg hL', hv, ne_eq, Bool.false_eq_true, false_and, and_false, if_false]; rfl, ?_, ?_⟩ <;>
  simp [stepG, stepM, stepKg, stepInt, stepKm, axial, Mats.setA, Mats.setB, Mats.zero]

/-- C108: an element without length is refused. -/
theorem C108_length (s : Slots) (q : Beam K X) (p : Sect K) (T : Fin 3 → Fin 3 → K) (v : Nat → K) (h : p.L ≤ 1 / 100000000) : element s q p T v = .fail := by
  simp only [element, evalInt, if_pos h]

/-! ### Norms -/

/-- C108: the norms over a list of points are the integrals of the squares of the solution, of the exact solution and of their difference. -/
theorem C108_norms (l : List (K × V3 K × V3 K)) :
    l.foldl (fun n t => normStep n t.1 t.2.1 (some t.2.2)) (0, 0, 0) =
      ((l.map fun t => (t.2.1 0 ^ 2 + t.2.1 1 ^ 2 + t.2.1 2 ^ 2) * t.1).sum, (l.map fun t => (t.2.2 0 ^ 2 + t.2.2 1 ^ 2 + t.2.2 2 ^ 2) * t.1).sum,
        (l.map fun t => ((t.2.2 0 - t.2.1 0) ^ 2 + (t.2.2 1 - t.2.1 1) ^ 2 + (t.2.2 2 - t.2.1 2) ^ 2) * t.1).sum) := by
  have key : ∀ (l : List (K × V3 K × V3 K)) (n : K × K × K), l.foldl (fun n t => normStep n t.1 t.2.1 (some t.2.2)) n =
      (n.1 + (l.map fun t => (t.2.1 0 ^ 2 + t.2.1 1 ^ 2 + t.2.1 2 ^ 2) * t.1).sum, n.2.1 + (l.map fun t => (t.2.2 0 ^ 2 + t.2.2 1 ^ 2 + t.2.2 2 ^ 2) * t.1).sum,
        n.2.2 + (l.map fun t => ((t.2.2 0 - t.2.1 0) ^ 2 + (t.2.2 1 - t.2.1 1) ^ 2 + (t.2.2 2 - t.2.1 2) ^ 2) * t.1).sum) := by
    intro l
    induction l with
    | nil => intro n; simp
    | cons t l ih =>
      intro n
      rw [List.foldl_cons, ih]
      simp only [normStep, List.map_cons, List.sum_cons, Pi.sub_apply]
      refine Prod.ext ?_ (Prod.ext ?_ ?_) <;> simp only <;> ring
  rw [key]
  simp

/-- C108: the error norm of a solution is zero exactly if it has the exact values in all points, for positive weights. -/
theorem C108_error_zero (l : List (K × V3 K × V3 K)) (hw : ∀ t ∈ l, 0 < t.1) :
    (l.foldl (fun n t => normStep n t.1 t.2.1 (some t.2.2)) (0, 0, 0)).2.2 = 0 ↔ ∀ t ∈ l, t.2.1 = t.2.2 := by
  rw [C108_norms]
  simp only
  induction l with
  | nil => simp
  | cons t l ih =>
    have hl := ih (fun t ht => hw t (by simp [ht]))
    have hp : 0 < t.1 := hw t (by simp)
    have hs : 0 ≤ (l.map fun t => ((t.2.2 0 - t.2.1 0) ^ 2 + (t.2.2 1 - t.2.1 1) ^ 2 + (t.2.2 2 - t.2.1 2) ^ 2) * t.1).sum := by
      refine List.sum_nonneg fun x hx => ?_
      obtain ⟨y, hy, rfl⟩ := List.mem_map.1 hx
      have := hw y (by simp [hy])
      positivity
    rw [List.map_cons, List.sum_cons]
    have h0 : 0 ≤ ((t.2.2 0 - t.2.1 0) ^ 2 + (t.2.2 1 - t.2.1 1) ^ 2 + (t.2.2 2 - t.2.1 2) ^ 2) * t.1 := by positivity
    constructor
    · intro h
      have h1 : ((t.2.2 0 - t.2.1 0) ^ 2 + (t.2.2 1 - t.2.1 1) ^ 2 + (t.2.2 2 - t.2.1 2) ^ 2) * t.1 = 0 := by linarith
      have h2 : (l.map fun t => ((t.2.2 0 - t.2.1 0) ^ 2 + (t.2.2 1 - t.2.1 1) ^ 2 + (t.2.2 2 - t.2.1 2) ^ 2) * t.1).sum = 0 := by linarith
      have h3 : (t.2.2 0 - t.2.1 0) ^ 2 + (t.2.2 1 - t.2.1 1) ^ 2 + (t.2.2 2 - t.2.1 2) ^ 2 = 0 := by
        rcases mul_eq_zero.1 h1 with h | h
        · exact h
        · exact absurd h hp.ne'
      intro x hx
      rcases List.mem_cons.1 hx with rfl | hx
      · funext k
        have a := sq_nonneg (x.2.2 0 - x.2.1 0); have b := sq_nonneg (x.2.2 1 - x.2.1 1); have c := sq_nonneg (x.2.2 2 - x.2.1 2)
        have z0 : x.2.2 0 - x.2.1 0 = 0 := by have : (x.2.2 0 - x.2.1 0) ^ 2 = 0 := by linarith
                                              exact pow_eq_zero_iff (two_ne_zero) |>.1 this
        have z1 : x.2.2 1 - x.2.1 1 = 0 := by have : (x.2.2 1 - x.2.1 1) ^ 2 = 0 := by linarith
                                              exact pow_eq_zero_iff (two_ne_zero) |>.1 this
        have z2 : x.2.2 2 - x.2.1 2 = 0 := by have : (x.2.2 2 - x.2.1 2) ^ 2 = 0 := by linarith
                                              exact pow_eq_zero_iff (two_ne_zero) |>.1 this
        fin_cases k
        · exact (sub_eq_zero.1 z0).symm
        · exact (sub_eq_zero.1 z1).symm
        · exact (sub_eq_zero.1 z2).symm
      · exact hl.1 h2 x hx
    · intro h
      have ht := h t (by simp)
      rw [hl.2 (fun x hx => h x (by simp [hx])), ht]
      simp

/-- C108: one norm is reported without exact solution, three with it; the displacement in a point is interpolated between the translations of the nodes, six unknowns apart. -/
theorem C108_fields (a b : K) (v : Nat → K) (k : Fin 3) (f : Int) (hf : f ≠ 0) :
    noNorms f false = 1 ∧ noNorms f true = 3 ∧ noNorms 0 true = 1 ∧ displacement [a, b] v k = a * v k.val + b * v (6 + k.val) ∧
    ∀ n : K × K × K, ∀ w uh, normStep n w uh none = (n.1 + (uh 0 ^ 2 + uh 1 ^ 2 + uh 2 ^ 2) * w, n.2) := by
  refine ⟨by simp [noNorms], by simp [noNorms, hf], by simp [noNorms], by simp [displacement, List.zipIdx], fun n w uh => ?_⟩
  simp only [normStep]
  congr 1
  ring

end ordered

/-- The hypotheses of the theorems above: a beam of unit length in turned axes, with and without eccentricity. -/
example : ∃ (T : Fin 3 → Fin 3 → ℚ) (v : Nat → ℚ), (∀ i k, T i 0 * T k 0 + T i 1 * T k 1 + T i 2 * T k 2 = if i = k then 1 else 0) ∧ T 0 0 = 0 ∧
    above (1 / 10000000000000000 * 1) v = true ∧ rotVecT T v 7 - rotVecT T v 1 ≠ 0 := by
  refine ⟨![![0, -1, 0], ![1, 0, 0], ![0, 0, 1]], fun i => if i = 8 then 1 else 0, ?_, rfl, by decide +kernel, by decide +kernel⟩
  intro i k
  fin_cases i <;> fin_cases k <;> simp

end Verif.BeamElem
