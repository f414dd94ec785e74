/-
C46: end moments of cables.
-/
import Verif.Model.Cable
import Mathlib.Analysis.Calculus.Deriv.Mul
import Mathlib.Analysis.Calculus.Deriv.Inv
import Mathlib.Analysis.Calculus.Deriv.Add
import Mathlib.Tactic.FinCases
import Mathlib.Tactic.FieldSimp
import Mathlib.Tactic.Linarith
import Mathlib.Tactic.Positivity

set_option linter.unusedSimpArgs false
set_option linter.unusedVariables false
set_option linter.unnecessarySeqFocus false

namespace Verif.Cable

open Verif.Beam (Mat V3)

/-- Distance of the two nodes when they are moved in the plane by `t` times `v 0, v 1` and `v 2, v 3`. -/
def moved (dX : V3 ℝ) (v : Fin 4 → ℝ) (t : ℝ) : V3 ℝ := ![dX 0 + t * (v 2 - v 0), dX 1 + t * (v 3 - v 1), dX 2]

/-- C46: the end moment acts at the last node if `xi = 1`, with the last but one as the other node of the couple, and at the first
node if `xi = -1`, with the second one. No other position is accepted. -/
theorem C46_nodes (n : Nat) (h : 2 ≤ n) (xi : ℝ) :
    endNodes (-1) n = .ok (2, 1) ∧ endNodes 1 n = .ok (n - 1, n) ∧ (xi ≠ 1 → xi ≠ -1 → endNodes xi n = .fail) := by
  have h' : ¬ n < 2 := by omega
  refine ⟨by simp [endNodes, h'], ?_, fun h1 h2 => by simp [endNodes, h1, h2]⟩
  unfold endNodes
  rw [if_neg (by norm_num), if_pos rfl, if_neg h']

/-- C46: the four components of the load vector that are used are the first two of the `npv` components of each of these nodes;
they are different and inside a vector for `n` nodes. -/
theorem C46_dofs (npv n n1 n2 : Nat) (hp : 2 ≤ npv) (h1 : 1 ≤ n1 ∧ n1 ≤ n) (h2 : 1 ≤ n2 ∧ n2 ≤ n) (hn : n1 ≠ n2) :
    let j := dofs npv n1 n2
    (j.1 - 1) / npv + 1 = n1 ∧ (j.1 - 1) % npv = 0 ∧ (j.2.1 - 1) / npv + 1 = n1 ∧ (j.2.1 - 1) % npv = 1 ∧
    (j.2.2.1 - 1) / npv + 1 = n2 ∧ (j.2.2.1 - 1) % npv = 0 ∧ (j.2.2.2 - 1) / npv + 1 = n2 ∧ (j.2.2.2 - 1) % npv = 1 ∧
    j.1 ≠ j.2.2.1 ∧ j.2.1 ≠ j.2.2.2 ∧ 1 ≤ j.1 ∧ j.2.1 ≤ npv * n ∧ 1 ≤ j.2.2.1 ∧ j.2.2.2 ≤ npv * n := by
  have hq : ∀ m, 1 ≤ m → (npv * (m - 1)) / npv + 1 = m ∧ (npv * (m - 1)) % npv = 0 ∧
      (npv * (m - 1) + 1) / npv + 1 = m ∧ (npv * (m - 1) + 1) % npv = 1 := by
    intro m hm
    refine ⟨?_, Nat.mul_mod_right _ _, ?_, ?_⟩
    · rw [Nat.mul_div_cancel_left _ (by omega)]; omega
    · rw [Nat.mul_add_div (by omega), Nat.div_eq_of_lt (by omega)]; omega
    · rw [Nat.mul_add_mod]; exact Nat.mod_eq_of_lt (by omega)
  have hle : ∀ m, 1 ≤ m → m ≤ n → npv * (m - 1) + npv ≤ npv * n := by
    intro m hm hmn
    calc npv * (m - 1) + npv = npv * (m - 1 + 1) := by ring
      _ ≤ npv * n := Nat.mul_le_mul_left _ (by omega)
  obtain ⟨a1, a2, a3, a4⟩ := hq n1 h1.1
  obtain ⟨b1, b2, b3, b4⟩ := hq n2 h2.1
  have l1 := hle n1 h1.1 h1.2
  have l2 := hle n2 h2.1 h2.2
  have hne : npv * (n1 - 1) ≠ npv * (n2 - 1) := by
    intro he
    have := Nat.eq_of_mul_eq_mul_left (by omega) he
    omega
  simp only [dofs]
  refine ⟨by simpa using a1, by simpa using a2, by simpa using a3, by simpa using a4, by simpa using b1, by simpa using b2,
    by simpa using b3, by simpa using b4, by omega, by omega, by omega, by omega, by omega, by omega⟩

/-- C46: in the plane, the end moment is replaced by two opposite forces normal to the cable whose moment is `xi * M`.
Missing: cables that are not in the x-y plane, see `C46_couple_violated`. -/
theorem C46_couple_partial (xi M : ℝ) (dX : V3 ℝ) (hz : dX 2 = 0) (h : dX ≠ 0) :
    let F := couple xi M dX
    F 0 + F 2 = 0 ∧ F 1 + F 3 = 0 ∧ F 2 * dX 0 + F 3 * dX 1 = 0 ∧ dX 0 * F 3 - dX 1 * F 2 = xi * M := by
  have hn : dX 0 * dX 0 + dX 1 * dX 1 + 0 * 0 ≠ 0 := by
    intro h0
    apply h
    have h1 := mul_self_nonneg (dX 0)
    have h2 := mul_self_nonneg (dX 1)
    have e0 : dX 0 = 0 := mul_self_eq_zero.mp (by linarith)
    have e1 : dX 1 = 0 := mul_self_eq_zero.mp (by linarith)
    funext i; fin_cases i <;> simp [e0, e1, hz]
  simp only [couple, hz]
  simp
  have hn' : dX 0 ^ 2 + dX 1 ^ 2 ≠ 0 := by simpa [pow_two] using hn
  simp at hn
  refine ⟨?_, ?_⟩ <;> field_simp <;> ring

/-- C46 is violated out of the plane: only part of the moment about the z-axis is represented, and there is a moment about
another axis. -/
theorem C46_couple_violated (M : ℝ) (h : M ≠ 0) :
    let dX : V3 ℝ := ![1, 0, 1]
    let F := couple 1 M dX
    dX 0 * F 3 - dX 1 * F 2 = M / 2 ∧ dX 0 * F 3 - dX 1 * F 2 ≠ M ∧ dX 1 * 0 - dX 2 * F 3 ≠ 0 := by
  simp [couple]
  norm_num
  exact ⟨by intro h'; apply h; linarith, h⟩

theorem couple_deriv (xi M : ℝ) (dX : V3 ℝ) (h : dX 0 * dX 0 + dX 1 * dX 1 + dX 2 * dX 2 ≠ 0) (v : Fin 4 → ℝ) (r : Fin 4) :
    HasDerivAt (fun t : ℝ => couple xi M (moved dX v t) r) 
      (xi * (loadStiff 1 M dX r 0 * v 0 - loadStiff 1 M dX r 1 * v 1 + loadStiff 1 M dX r 2 * v 2 - loadStiff 1 M dX r 3 * v 3)) 0 := by
  have h0 : HasDerivAt (fun t : ℝ => dX 0 + t * (v 2 - v 0)) (v 2 - v 0) 0 := by
    simpa using ((hasDerivAt_id (0 : ℝ)).mul_const (v 2 - v 0)).const_add (dX 0)
  have h1 : HasDerivAt (fun t : ℝ => dX 1 + t * (v 3 - v 1)) (v 3 - v 1) 0 := by
    simpa using ((hasDerivAt_id (0 : ℝ)).mul_const (v 3 - v 1)).const_add (dX 1)
  have h2 : HasDerivAt (fun t : ℝ => dX 2) 0 0 := hasDerivAt_const _ _
  have hs := ((h0.mul h0).add (h1.mul h1)).add (h2.mul h2)
  have e0 : ∀ a b : ℝ, a + 0 * b = a := by intros; ring
  have hm := (hasDerivAt_const (0 : ℝ) M).div hs (by simpa [e0] using h)
  have h' : dX 0 ^ 2 + dX 1 ^ 2 + dX 2 ^ 2 ≠ 0 := by simpa [pow_two] using h
  have gx := hm.mul h1
  have gy := hm.mul h0
  fin_cases r
  · refine (gx.const_mul xi).congr_deriv ?_
    simp [loadStiff, Fin.sum_univ_four, e0, -mul_eq_mul_left_iff]
    field_simp
    ring
  · refine (gy.const_mul (-xi)).congr_deriv ?_
    simp [loadStiff, Fin.sum_univ_four, e0, -mul_eq_mul_left_iff]
    field_simp
    ring
  · refine (gx.const_mul (-xi)).congr_deriv ?_
    simp [loadStiff, Fin.sum_univ_four, e0, -mul_eq_mul_left_iff]
    field_simp
    ring
  · refine (gy.const_mul xi).congr_deriv ?_
    simp [loadStiff, Fin.sum_univ_four, e0, -mul_eq_mul_left_iff]
    field_simp
    ring

/-- C46: for displacements along x, the load correction stiffness is minus the derivative of the couple at the first node;
for displacements along y, it is minus the derivative of the couple at the last node.
Missing: the other two combinations, see `C46_stiffness_first_violated` and `C46_stiffness_last_violated`. -/
theorem C46_stiffness_partial (M : ℝ) (dX : V3 ℝ) (h : dX 0 * dX 0 + dX 1 * dX 1 + dX 2 * dX 2 ≠ 0) (p q : ℝ) (r : Fin 4) :
    HasDerivAt (fun t : ℝ => couple (-1) M (moved dX ![p, 0, q, 0] t) r)
      (-∑ c, loadStiff 1 M dX r c * ![p, 0, q, 0] c) 0 ∧
    HasDerivAt (fun t : ℝ => couple 1 M (moved dX ![0, p, 0, q] t) r)
      (-∑ c, loadStiff 1 M dX r c * ![0, p, 0, q] c) 0 := by
  refine ⟨(couple_deriv (-1) M dX h _ r).congr_deriv ?_, (couple_deriv 1 M dX h _ r).congr_deriv ?_⟩ <;>
    simp [Fin.sum_univ_four] <;> ring

/-- C46 is violated at the first node: for a cable along the x-axis and a displacement of the end along y, the load correction
stiffness has the wrong sign. -/
theorem C46_stiffness_first_violated (M : ℝ) (h : M ≠ 0) :
    ¬ HasDerivAt (fun t : ℝ => couple (-1) M (moved ![1, 0, 0] ![0, 0, 0, 1] t) 0)
      (-∑ c, loadStiff 1 M ![1, 0, 0] 0 c * ![0, 0, 0, 1] c) 0 := by
  intro hd
  have := hd.unique (couple_deriv (-1) M ![1, 0, 0] (by simp) ![0, 0, 0, 1] 0)
  simp [loadStiff, Fin.sum_univ_four] at this
  apply h
  linarith

/-- C46 is violated at the last node: for a displacement of the end along the cable, the load correction stiffness has the wrong
sign. -/
theorem C46_stiffness_last_violated (M : ℝ) (h : M ≠ 0) :
    ¬ HasDerivAt (fun t : ℝ => couple 1 M (moved ![1, 0, 0] ![0, 0, 1, 0] t) 1)
      (-∑ c, loadStiff 1 M ![1, 0, 0] 1 c * ![0, 0, 1, 0] c) 0 := by
  intro hd
  have := hd.unique (couple_deriv 1 M ![1, 0, 0] (by simp) ![0, 0, 1, 0] 1)
  simp [loadStiff, Fin.sum_univ_four] at this
  apply h
  linarith

/-- C46: the other option gives the symmetric part of that matrix. -/
theorem C46_symmetric (n : Nat) (hn : n ≠ 1) (M : ℝ) (dX : V3 ℝ) (r c : Fin 4) :
    loadStiff n M dX r c = (loadStiff 1 M dX r c + loadStiff 1 M dX c r) / 2 := by
  simp only [loadStiff, if_neg hn, if_true]
  fin_cases r <;> fin_cases c <;> simp <;> ring

/-- The hypotheses can be met. -/
example : (![1, 0, 0] : V3 ℝ) 2 = 0 ∧ (![1, 0, 0] : V3 ℝ) ≠ 0 :=
  ⟨rfl, fun h => by simpa using congrFun h 0⟩

end Verif.Cable
