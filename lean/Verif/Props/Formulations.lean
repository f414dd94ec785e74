/-
C67 (the total and the updated Lagrangian formulation give the same internal forces) and C68 (the
mass and the body loads of an element do not depend on its deformation).
-/
import Verif.Proofs.FiniteDef
import Verif.Spec.FiniteDef
import Verif.Props.FollowerLoad
import Verif.Props.FiniteDef

set_option linter.unusedSectionVars false
set_option linter.unnecessarySeqFocus false
set_option linter.unusedSimpArgs false
set_option linter.unusedVariables false

namespace Verif.Finite

open Verif.Cont Verif.ContSpec Verif.FiniteSpec

variable {K : Type*} [Field K] [LinearOrder K]

/-! ### C67 -/

/-- Components of a symmetric tensor in the order xx, yy, zz, xy, yz, xz. -/
def voigt3 (S : Nat → Nat → K) : Nat → K
  | 1 => S 1 1
  | 2 => S 2 2
  | 3 => S 3 3
  | 4 => S 1 2
  | 5 => S 2 3
  | 6 => S 1 3
  | _ => 0

/-- Components of a symmetric tensor in the order xx, yy, xy. -/
def voigt2 (S : Nat → Nat → K) : Nat → K
  | 1 => S 1 1
  | 2 => S 2 2
  | 3 => S 1 2
  | _ => 0

/-- `σ` is the Cauchy stress belonging to the second Piola-Kirchhoff stress `S`: `J σ = F S Fᵀ`. -/
structure Stresses (d : Nat) (F S sig : Nat → Nat → K) : Prop where
  sym : ∀ i j, S i j = S j i
  push : ∀ i j, 1 ≤ i → i ≤ d → 1 ≤ j → j ≤ d → (lead d F).det * sig i j
    = ∑ p ∈ Finset.range d, ∑ q ∈ Finset.range d, F i (p + 1) * S (p + 1) (q + 1) * F j (q + 1)

theorem inv_mul (d : Nat) (F : Nat → Nat → K) (h : (lead d F).det ≠ 0) (k r : Nat) (hk : k < d)
    (hr : r < d) :
    ∑ q : Fin d, inv d F (k + 1) (q + 1) * F (q + 1) (r + 1) = if k = r then 1 else 0 := by
  have e := congrFun (congrFun (Matrix.adjugate_mul (lead d F)) ⟨k, hk⟩) ⟨r, hr⟩
  rw [Matrix.mul_apply, Matrix.smul_apply, Matrix.one_apply] at e
  simp only [Fin.mk.injEq] at e
  have : (lead d F).det * ∑ q : Fin d, inv d F (k + 1) (q + 1) * F (q + 1) (r + 1)
      = (lead d F).det * if k = r then 1 else 0 := by
    rw [smul_eq_mul] at e
    rw [← e, Finset.mul_sum]
    refine Finset.sum_congr rfl fun q _ => ?_
    rw [← mul_assoc, det_inv d F h k q hk q.2]
    rfl
  exact mul_left_cancel₀ h this

/-- C67 for solids: at every integration point and for every nodal force component, the updated
Lagrangian internal force (spatial gradients, Cauchy stress, weight times `J`) equals the total
Lagrangian one (material gradients, second Piola-Kirchhoff stress). -/
theorem C67_solid_partial (F S sig : Nat → Nat → K) (N : DVec K) (dN : DMat K) (X ur r epsR w : K)
    (hJ : (lead 3 F).det ≠ 0) (hS : Stresses 3 F S sig) (hc : 3 ≤ dN.nc) :
    ∃ B P, tlB 3 false F N dN r epsR = .ok B ∧ ulPoint 3 false true F N dN X ur epsR w = .ok P ∧
      ∀ a j, a < dN.nr → j < 3 →
        (addIntForce (DVec.zero (3 * dN.nr)) P.B (voigt3 sig) P.detJW).e (3 * a + j + 1)
          = (addIntForce (DVec.zero (3 * dN.nr)) B (voigt3 S) w).e (3 * a + j + 1) := by
  obtain ⟨B, hB, b1, b2, b3⟩ := tlB_3 F N dN r epsR
  obtain ⟨B', hB', d1, d2, d3⟩ := formB_3 (pushGrad 3 F dN) (by simp [pushGrad])
  refine ⟨B, ⟨B', w * (lead 3 F).det⟩, hB, ?_, fun a j ha hj => ?_⟩
  · simp only [ulPoint, if_true, Bool.false_eq_true, if_false]
    rw [if_neg hJ, hB']; rfl
  · simp only [addIntForce, DVec.zero, zero_add]
    rw [b1, d1]
    have e1 : ∀ i ∈ Finset.range 6, B.e (i + 1) (3 * a + j + 1) * (voigt3 S (i + 1) * -w)
        = eng3 (fun p q => F (j + 1) p * dN.e (a + 1) q) (i + 1) * (voigt3 S (i + 1) * -w) := by
      intro i hi
      have hi := Finset.mem_range.mp hi
      rw [b3 (i + 1) j a (by omega) (by omega) hj ha]
    have e2 : ∀ i ∈ Finset.range 6, B'.e (i + 1) (3 * a + j + 1)
          * (voigt3 sig (i + 1) * -(w * (lead 3 F).det))
        = col3 ((pushGrad 3 F dN).e (a + 1) 1) ((pushGrad 3 F dN).e (a + 1) 2)
            ((pushGrad 3 F dN).e (a + 1) 3) (i + 1 + 6 * j)
          * (voigt3 sig (i + 1) * -(w * (lead 3 F).det)) := by
      intro i hi
      have hi := Finset.mem_range.mp hi
      rw [d3 (i + 1) j a (by omega) (by omega) hj (show a < dN.nr from ha)]
    rw [Finset.sum_congr rfl e1, Finset.sum_congr rfl e2]
    have i11 := inv_mul 3 F hJ 0 0 (by omega) (by omega)
    have i12 := inv_mul 3 F hJ 0 1 (by omega) (by omega)
    have i13 := inv_mul 3 F hJ 0 2 (by omega) (by omega)
    have i21 := inv_mul 3 F hJ 1 0 (by omega) (by omega)
    have i22 := inv_mul 3 F hJ 1 1 (by omega) (by omega)
    have i23 := inv_mul 3 F hJ 1 2 (by omega) (by omega)
    have i31 := inv_mul 3 F hJ 2 0 (by omega) (by omega)
    have i32 := inv_mul 3 F hJ 2 1 (by omega) (by omega)
    have i33 := inv_mul 3 F hJ 2 2 (by omega) (by omega)
    simp [Fin.sum_univ_three] at i11 i12 i13 i21 i22 i23 i31 i32 i33
    have p := fun i j => hS.push i j
    simp only [Finset.sum_range_succ, Finset.sum_range_zero, zero_add, Nat.reduceAdd] at p
    have p11 := p 1 1 (by omega) (by omega) (by omega) (by omega)
    have p12 := p 1 2 (by omega) (by omega) (by omega) (by omega)
    have p13 := p 1 3 (by omega) (by omega) (by omega) (by omega)
    have p22 := p 2 2 (by omega) (by omega) (by omega) (by omega)
    have p23 := p 2 3 (by omega) (by omega) (by omega) (by omega)
    have p33 := p 3 3 (by omega) (by omega) (by omega) (by omega)
    have s21 := hS.sym 2 1
    have s31 := hS.sym 3 1
    have s32 := hS.sym 3 2
    rw [s21, s31, s32] at p11 p12 p13 p22 p23 p33
    simp only [pushGrad, Finset.sum_range_succ, Finset.sum_range_zero, zero_add, Nat.reduceAdd]
    generalize (lead 3 F).det = J at *
    generalize inv 3 F = G at *
    interval_cases j <;> simp [eng3, voigt3, col3]
    · linear_combination (-w * (dN.e (a + 1) 1 * G 1 1 + dN.e (a + 1) 2 * G 2 1 + dN.e (a + 1) 3 * G 3 1)) * p11
        + (-w * (dN.e (a + 1) 1 * G 1 2 + dN.e (a + 1) 2 * G 2 2 + dN.e (a + 1) 3 * G 3 2)) * p12
        + (-w * (dN.e (a + 1) 1 * G 1 3 + dN.e (a + 1) 2 * G 2 3 + dN.e (a + 1) 3 * G 3 3)) * p13
        + (-w * dN.e (a + 1) 1 * (F 1 1 * S 1 1 + F 1 2 * S 1 2 + F 1 3 * S 1 3)) * i11
        + (-w * dN.e (a + 1) 1 * (F 1 1 * S 1 2 + F 1 2 * S 2 2 + F 1 3 * S 2 3)) * i12
        + (-w * dN.e (a + 1) 1 * (F 1 1 * S 1 3 + F 1 2 * S 2 3 + F 1 3 * S 3 3)) * i13
        + (-w * dN.e (a + 1) 2 * (F 1 1 * S 1 1 + F 1 2 * S 1 2 + F 1 3 * S 1 3)) * i21
        + (-w * dN.e (a + 1) 2 * (F 1 1 * S 1 2 + F 1 2 * S 2 2 + F 1 3 * S 2 3)) * i22
        + (-w * dN.e (a + 1) 2 * (F 1 1 * S 1 3 + F 1 2 * S 2 3 + F 1 3 * S 3 3)) * i23
        + (-w * dN.e (a + 1) 3 * (F 1 1 * S 1 1 + F 1 2 * S 1 2 + F 1 3 * S 1 3)) * i31
        + (-w * dN.e (a + 1) 3 * (F 1 1 * S 1 2 + F 1 2 * S 2 2 + F 1 3 * S 2 3)) * i32
        + (-w * dN.e (a + 1) 3 * (F 1 1 * S 1 3 + F 1 2 * S 2 3 + F 1 3 * S 3 3)) * i33
    · linear_combination (-w * (dN.e (a + 1) 1 * G 1 1 + dN.e (a + 1) 2 * G 2 1 + dN.e (a + 1) 3 * G 3 1)) * p12
        + (-w * (dN.e (a + 1) 1 * G 1 2 + dN.e (a + 1) 2 * G 2 2 + dN.e (a + 1) 3 * G 3 2)) * p22
        + (-w * (dN.e (a + 1) 1 * G 1 3 + dN.e (a + 1) 2 * G 2 3 + dN.e (a + 1) 3 * G 3 3)) * p23
        + (-w * dN.e (a + 1) 1 * (F 2 1 * S 1 1 + F 2 2 * S 1 2 + F 2 3 * S 1 3)) * i11
        + (-w * dN.e (a + 1) 1 * (F 2 1 * S 1 2 + F 2 2 * S 2 2 + F 2 3 * S 2 3)) * i12
        + (-w * dN.e (a + 1) 1 * (F 2 1 * S 1 3 + F 2 2 * S 2 3 + F 2 3 * S 3 3)) * i13
        + (-w * dN.e (a + 1) 2 * (F 2 1 * S 1 1 + F 2 2 * S 1 2 + F 2 3 * S 1 3)) * i21
        + (-w * dN.e (a + 1) 2 * (F 2 1 * S 1 2 + F 2 2 * S 2 2 + F 2 3 * S 2 3)) * i22
        + (-w * dN.e (a + 1) 2 * (F 2 1 * S 1 3 + F 2 2 * S 2 3 + F 2 3 * S 3 3)) * i23
        + (-w * dN.e (a + 1) 3 * (F 2 1 * S 1 1 + F 2 2 * S 1 2 + F 2 3 * S 1 3)) * i31
        + (-w * dN.e (a + 1) 3 * (F 2 1 * S 1 2 + F 2 2 * S 2 2 + F 2 3 * S 2 3)) * i32
        + (-w * dN.e (a + 1) 3 * (F 2 1 * S 1 3 + F 2 2 * S 2 3 + F 2 3 * S 3 3)) * i33
    · linear_combination (-w * (dN.e (a + 1) 1 * G 1 1 + dN.e (a + 1) 2 * G 2 1 + dN.e (a + 1) 3 * G 3 1)) * p13
        + (-w * (dN.e (a + 1) 1 * G 1 2 + dN.e (a + 1) 2 * G 2 2 + dN.e (a + 1) 3 * G 3 2)) * p23
        + (-w * (dN.e (a + 1) 1 * G 1 3 + dN.e (a + 1) 2 * G 2 3 + dN.e (a + 1) 3 * G 3 3)) * p33
        + (-w * dN.e (a + 1) 1 * (F 3 1 * S 1 1 + F 3 2 * S 1 2 + F 3 3 * S 1 3)) * i11
        + (-w * dN.e (a + 1) 1 * (F 3 1 * S 1 2 + F 3 2 * S 2 2 + F 3 3 * S 2 3)) * i12
        + (-w * dN.e (a + 1) 1 * (F 3 1 * S 1 3 + F 3 2 * S 2 3 + F 3 3 * S 3 3)) * i13
        + (-w * dN.e (a + 1) 2 * (F 3 1 * S 1 1 + F 3 2 * S 1 2 + F 3 3 * S 1 3)) * i21
        + (-w * dN.e (a + 1) 2 * (F 3 1 * S 1 2 + F 3 2 * S 2 2 + F 3 3 * S 2 3)) * i22
        + (-w * dN.e (a + 1) 2 * (F 3 1 * S 1 3 + F 3 2 * S 2 3 + F 3 3 * S 3 3)) * i23
        + (-w * dN.e (a + 1) 3 * (F 3 1 * S 1 1 + F 3 2 * S 1 2 + F 3 3 * S 1 3)) * i31
        + (-w * dN.e (a + 1) 3 * (F 3 1 * S 1 2 + F 3 2 * S 2 2 + F 3 3 * S 2 3)) * i32
        + (-w * dN.e (a + 1) 3 * (F 3 1 * S 1 3 + F 3 2 * S 2 3 + F 3 3 * S 3 3)) * i33

/-- C67 for plane elements: at every integration point and for every nodal force component, the updated
Lagrangian internal force (spatial gradients, Cauchy stress, weight times `J`) equals the total
Lagrangian one (material gradients, second Piola-Kirchhoff stress). -/
theorem C67_plane_partial (F S sig : Nat → Nat → K) (N : DVec K) (dN : DMat K) (X ur r epsR w : K)
    (hJ : (lead 2 F).det ≠ 0) (hS : Stresses 2 F S sig) (hc : 2 ≤ dN.nc) :
    ∃ B P, tlB 2 false F N dN r epsR = .ok B ∧ ulPoint 2 false true F N dN X ur epsR w = .ok P ∧
      ∀ a j, a < dN.nr → j < 2 →
        (addIntForce (DVec.zero (2 * dN.nr)) P.B (voigt2 sig) P.detJW).e (2 * a + j + 1)
          = (addIntForce (DVec.zero (2 * dN.nr)) B (voigt2 S) w).e (2 * a + j + 1) := by
  obtain ⟨B, hB, b1, b2, b3⟩ := tlB_2 F N dN r epsR
  obtain ⟨B', hB', d1, d2, d3⟩ := formB_2 (pushGrad 2 F dN) (by simp [pushGrad])
  refine ⟨B, ⟨B', w * (lead 2 F).det⟩, hB, ?_, fun a j ha hj => ?_⟩
  · simp only [ulPoint, if_true, Bool.false_eq_true, if_false]
    rw [if_neg hJ, hB']; rfl
  · simp only [addIntForce, DVec.zero, zero_add]
    rw [b1, d1]
    have e1 : ∀ i ∈ Finset.range 3, B.e (i + 1) (2 * a + j + 1) * (voigt2 S (i + 1) * -w)
        = eng2 (fun p q => F (j + 1) p * dN.e (a + 1) q) (i + 1) * (voigt2 S (i + 1) * -w) := by
      intro i hi
      have hi := Finset.mem_range.mp hi
      rw [b3 (i + 1) j a (by omega) (by omega) hj ha]
    have e2 : ∀ i ∈ Finset.range 3, B'.e (i + 1) (2 * a + j + 1)
          * (voigt2 sig (i + 1) * -(w * (lead 2 F).det))
        = col2 ((pushGrad 2 F dN).e (a + 1) 1) ((pushGrad 2 F dN).e (a + 1) 2) (i + 1 + 3 * j)
          * (voigt2 sig (i + 1) * -(w * (lead 2 F).det)) := by
      intro i hi
      have hi := Finset.mem_range.mp hi
      rw [d3 (i + 1) j a (by omega) (by omega) hj (show a < dN.nr from ha)]
    rw [Finset.sum_congr rfl e1, Finset.sum_congr rfl e2]
    have i11 := inv_mul 2 F hJ 0 0 (by omega) (by omega)
    have i12 := inv_mul 2 F hJ 0 1 (by omega) (by omega)
    have i21 := inv_mul 2 F hJ 1 0 (by omega) (by omega)
    have i22 := inv_mul 2 F hJ 1 1 (by omega) (by omega)
    simp [Fin.sum_univ_two] at i11 i12 i21 i22
    have p := fun i j => hS.push i j
    simp only [Finset.sum_range_succ, Finset.sum_range_zero, zero_add, Nat.reduceAdd] at p
    have p11 := p 1 1 (by omega) (by omega) (by omega) (by omega)
    have p12 := p 1 2 (by omega) (by omega) (by omega) (by omega)
    have p22 := p 2 2 (by omega) (by omega) (by omega) (by omega)
    have s21 := hS.sym 2 1
    rw [s21] at p11 p12 p22
    simp only [pushGrad, Finset.sum_range_succ, Finset.sum_range_zero, zero_add, Nat.reduceAdd]
    generalize (lead 2 F).det = J at *
    generalize inv 2 F = G at *
    interval_cases j <;> simp [eng2, voigt2, col2]
    · linear_combination (-w * (dN.e (a + 1) 1 * G 1 1 + dN.e (a + 1) 2 * G 2 1)) * p11
        + (-w * (dN.e (a + 1) 1 * G 1 2 + dN.e (a + 1) 2 * G 2 2)) * p12
        + (-w * dN.e (a + 1) 1 * (F 1 1 * S 1 1 + F 1 2 * S 1 2)) * i11
        + (-w * dN.e (a + 1) 1 * (F 1 1 * S 1 2 + F 1 2 * S 2 2)) * i12
        + (-w * dN.e (a + 1) 2 * (F 1 1 * S 1 1 + F 1 2 * S 1 2)) * i21
        + (-w * dN.e (a + 1) 2 * (F 1 1 * S 1 2 + F 1 2 * S 2 2)) * i22
    · linear_combination (-w * (dN.e (a + 1) 1 * G 1 1 + dN.e (a + 1) 2 * G 2 1)) * p12
        + (-w * (dN.e (a + 1) 1 * G 1 2 + dN.e (a + 1) 2 * G 2 2)) * p22
        + (-w * dN.e (a + 1) 1 * (F 2 1 * S 1 1 + F 2 2 * S 1 2)) * i11
        + (-w * dN.e (a + 1) 1 * (F 2 1 * S 1 2 + F 2 2 * S 2 2)) * i12
        + (-w * dN.e (a + 1) 2 * (F 2 1 * S 1 1 + F 2 2 * S 1 2)) * i21
        + (-w * dN.e (a + 1) 2 * (F 2 1 * S 1 2 + F 2 2 * S 2 2)) * i22

/-- A simple shear with a volume change, a stress and its push-forward meet the hypotheses. -/
example : (lead 3 exF).det ≠ 0 ∧ ∃ S sig, Stresses 3 exF S sig ∧ S 1 2 = 5 := by
  have h : (lead 3 exF).det = 2 := by simp [Matrix.det_fin_three, lead, exF]
  refine ⟨by rw [h]; norm_num, fun i j => if i = j then 1 else 5,
    fun i j => (∑ p ∈ Finset.range 3, ∑ q ∈ Finset.range 3,
      exF i (p + 1) * (if p + 1 = q + 1 then 1 else 5) * exF j (q + 1)) / 2,
    ⟨fun i j => by simp [eq_comm], fun i j _ _ _ _ => ?_⟩, rfl⟩
  rw [h]; ring

/-- C67 is violated in axisymmetry: for an element with a unit hoop stress at the radius 2, no
displacement, the updated Lagrangian force on the first node is `-N/r = -1/8`, while the total
Lagrangian one is zero (all of the hoop force goes to the third node). -/
theorem C67_axisymmetric_violated :
    let F : Nat → Nat → ℝ := fun i j => if i = j then 1 else 0
    let S : Nat → ℝ := fun i => if i = 3 then 1 else 0
    ∃ B P, tlB 2 true F quadN quadDN 2 (1 / 10 ^ 16) = .ok B ∧
      ulPoint 2 true true F quadN quadDN 2 0 (1 / 10 ^ 16) 1 = .ok P ∧
      (addIntForce (DVec.zero 8) B S 1).e 1 = 0 ∧
      (addIntForce (DVec.zero 8) P.B S P.detJW).e 1 = -1 / 8 := by
  intro F S
  obtain ⟨B, hB, b1, b2, b3⟩ := tlB_axi F quadN quadDN 2 (1 / 10 ^ 16) rfl (by decide)
  obtain ⟨B', hB', d1, d2, d3⟩ := formB_axi quadN (pushGrad 2 F quadDN) rfl (by simp [pushGrad])
    (2 + 0) (1 / 10 ^ 16) (by norm_num)
  have hd : (lead 2 F).det = 1 := by simp [Matrix.det_fin_two, lead, F]
  refine ⟨B, ⟨B', 1 * ((lead 2 F).det * F 3 3)⟩, hB, ?_, ?_, ?_⟩
  · simp only [ulPoint, if_true]
    rw [if_neg (by rw [hd]; simp [F]), hB']; rfl
  · simp only [addIntForce, DVec.zero, zero_add]
    rw [b1]
    have h := b3 3 0 0 (by omega) (by omega) (by omega) (by decide)
    simp only [Nat.mul_zero, Nat.zero_add] at h
    simp [Finset.sum_range_succ, S, h]
  · simp only [addIntForce, DVec.zero, zero_add]
    rw [d1]
    have h := d3 3 0 0 (by omega) (by omega) (by omega) (by decide)
    simp only [Nat.mul_zero, Nat.zero_add] at h
    rw [if_neg (by norm_num)] at h
    simp [Finset.sum_range_succ, S, h, hd, F, colAx, quadN]
    norm_num

/-! ### C68 -/

/-- C68 for deformations without volume change, and before there are any strains: the mass matrix,
the body force vector and the reported resultant of the updated Lagrangian formulation are those of
the undeformed element. Missing: deformations with volume change, see `C68_volume_violated`. -/
theorem C68_isochoric_partial (d : Nat) (hd : d = 2 ∨ d = 3) (haveStrains : Bool)
    (F : Nat → Nat → K) (N : DVec K) (dN : DMat K) (X ur epsR w : K) (EM : DMat K) (L : Loads K)
    (rho : K) (f : Nat → K) (isZero : Bool) (hc : d ≤ dN.nc)
    (h : haveStrains = true → (lead d F).det = 1) :
    ulInertia d false haveStrains F N dN X ur epsR w EM L rho f isZero
      = tlInertia d N w EM L rho f isZero := by
  have key : ∃ B, ulPoint d false haveStrains F N dN X ur epsR w = .ok ⟨B, w⟩ := by
    have hex : ∀ dM : DMat K, d ≤ dM.nc → ∃ B, formB d dM = .ok B := by
      intro dM hM
      rcases hd with h | h <;> subst h
      · obtain ⟨B, hB, -⟩ := formB_2 dM hM; exact ⟨B, hB⟩
      · obtain ⟨B, hB, -⟩ := formB_3 dM hM; exact ⟨B, hB⟩
    cases haveStrains
    · obtain ⟨B, hB⟩ := hex dN hc
      refine ⟨B, ?_⟩
      simp only [ulPoint, Bool.false_eq_true, if_false]
      rw [hB]; rfl
    · obtain ⟨B, hB⟩ := hex (pushGrad d F dN) (by simp [pushGrad])
      refine ⟨B, ?_⟩
      simp only [ulPoint, Bool.false_eq_true, if_false, if_true]
      rw [h rfl, if_neg one_ne_zero, hB, mul_one]; rfl
  obtain ⟨B, hB⟩ := key
  unfold ulInertia tlInertia
  rw [hB]; rfl

example : (lead 3 fun i j => if i = 1 ∧ j = 2 then (4 : ℚ) else if i = j then 1 else 0).det = 1 := by
  simp [Matrix.det_fin_three, lead]

/-- C68 is violated when the volume changes: with all lengths doubled, the updated Lagrangian mass of
an element with one node and unit density and volume is 8, as is the body force, while it is 1 in
the undeformed element. -/
theorem C68_volume_violated :
    let F : Nat → Nat → ℚ := fun i j => if i = j then 2 else 0
    let N : DVec ℚ := ⟨1, fun _ => 1⟩
    let dN : DMat ℚ := ⟨1, 3, fun _ _ => 0⟩
    let L : Loads ℚ := ⟨DVec.zero 3, DVec.zero 3⟩
    ∃ M L' M0 L0,
      ulInertia 3 false true F N dN 0 0 0 1 (DMat.zero 3 3) L 1 (fun _ => 1) false = .ok (M, L') ∧
      tlInertia 3 N 1 (DMat.zero 3 3) L 1 (fun _ => 1) false = .ok (M0, L0) ∧
      M.e 1 1 = 8 ∧ M0.e 1 1 = 1 ∧ L'.sumLoad.e 1 = 8 ∧ L0.sumLoad.e 1 = 1 := by
  intro F N dN L
  have hd : (lead 3 F).det = 8 := by simp [Matrix.det_fin_three, lead, F]; norm_num
  obtain ⟨B, hB, -⟩ := formB_3 (pushGrad 3 F dN) (by simp [pushGrad])
  have hp : ulPoint 3 false true F N dN 0 0 0 1 = .ok ⟨B, 8⟩ := by
    simp only [ulPoint, if_true, Bool.false_eq_true, if_false]
    rw [hd, if_neg (by norm_num), hB]; norm_num
  have gen : ∀ w : ℚ, w ≠ 0 → ∃ M L', tlInertia 3 N w (DMat.zero 3 3) L 1 (fun _ => 1) false
      = .ok (M, L') ∧ M.e 1 1 = w ∧ L'.sumLoad.e 1 = w := by
    intro w hw
    have hm : ∃ M, formMass 3 (DMat.zero 3 3) N 1 w = .ok M ∧ M.e 1 1 = w := by
      unfold formMass
      simp only []
      rw [if_neg (by rw [one_mul]; exact hw)]
      refine ⟨_, rfl, ?_⟩
      show (0 : ℚ) + 1 * w * 1 * 1 = w
      ring
    have hb : ∃ L', formBodyForce 3 L N (fun _ => 1) false w false = .ok L' ∧ L'.sumLoad.e 1 = w := by
      refine ⟨_, rfl, ?_⟩
      show (0 : ℚ) + 1 * w = w
      ring
    obtain ⟨M, hM, m1⟩ := hm
    obtain ⟨L', hL, l1⟩ := hb
    refine ⟨M, L', ?_, m1, l1⟩
    unfold tlInertia
    rw [hM]
    show ((formBodyForce 3 L N (fun _ => 1) false w false).bind fun L => .ok (M, L)) = _
    rw [hL]; rfl
  obtain ⟨M, L', h1, h2, h3⟩ := gen 8 (by norm_num)
  obtain ⟨M0, L0, g1, g2, g3⟩ := gen 1 (by norm_num)
  refine ⟨M, L', M0, L0, ?_, g1, h2, g2, h3, g3⟩
  rw [← h1]
  unfold ulInertia tlInertia
  rw [hp]; rfl

end Verif.Finite
