/-
C51: the built-in analytical stress fields satisfy equilibrium and the traction conditions of their problems.
-/
import Verif.Model.Analytic
import Mathlib.MeasureTheory.Integral.IntervalIntegral.FundThmCalculus
import Mathlib.Analysis.SpecialFunctions.Log.Deriv

set_option linter.unusedSectionVars false
set_option linter.unnecessarySeqFocus false
set_option linter.unusedSimpArgs false
set_option linter.unusedVariables false

namespace Verif.Analytic

open Verif.Beam (V3)
open Topology

/-! ### Specification -/

/-- The point `p` moved by `s` in the direction of axis `j`. -/
def move (p : V3 ℝ) (j : Fin 3) (s : ℝ) : V3 ℝ := fun k => p k + if k = j then s else 0

/-- Equilibrium without volume forces at a point: the sum of the partial derivatives ∂σ_ij/∂x_j over j exists and is zero for
every i. -/
def Equilibrium (σ : V3 ℝ → Stress) (p : V3 ℝ) : Prop :=
  ∃ d : Fin 3 → Fin 3 → ℝ, (∀ i j, HasDerivAt (fun s => σ (move p j s) i j) (d i j) 0) ∧ ∀ i, d i 0 + d i 1 + d i 2 = 0

/-- The function satisfies Laplace's equation in the region. -/
def Harmonic (f : V3 ℝ → ℝ) (U : Set (V3 ℝ)) : Prop :=
  ∃ g h : Fin 3 → V3 ℝ → ℝ, ∀ p ∈ U, (∀ j, HasDerivAt (fun s => f (move p j s)) (g j p) 0 ∧
    HasDerivAt (fun s => g j (move p j s)) (h j p) 0) ∧ h 0 p + h 1 p + h 2 p = 0

/-- Every component is symmetric. -/
def Symmetric (σ : Stress) : Prop := ∀ i j, σ i j = σ j i

/-- The traction on a surface with the normal direction `n` vanishes. -/
def TractionFree (σ : Stress) (n : V3 ℝ) : Prop := ∀ i, σ i 0 * n 0 + σ i 1 * n 1 + σ i 2 * n 2 = 0

/-! ### Tools -/

theorem move_zero (p : V3 ℝ) (j : Fin 3) : move p j 0 = p := by funext k; simp [move]

theorem move_cont (p : V3 ℝ) (j : Fin 3) : Continuous (fun s => move p j s) := by
  refine continuous_pi fun k => ?_
  by_cases h : k = j <;> simp [move, h] <;> fun_prop

theorem move_mem {U : Set (V3 ℝ)} (hU : IsOpen U) {p : V3 ℝ} (hp : p ∈ U) (j : Fin 3) : ∀ᶠ s in 𝓝 (0 : ℝ), move p j s ∈ U := by
  have hc : ContinuousAt (fun s => move p j s) 0 := (move_cont p j).continuousAt
  exact hc.eventually (hU.mem_nhds (by show move p j 0 ∈ U; rw [move_zero]; exact hp))

theorem move_deriv (p : V3 ℝ) (j k : Fin 3) : HasDerivAt (fun s => move p j s k) (if k = j then 1 else 0) 0 := by
  by_cases h : k = j
  · simp only [move, h, if_true]; exact (hasDerivAt_id (0 : ℝ)).const_add _
  · simp only [move, h, if_false]; exact hasDerivAt_const _ _

/-- Derivative of the reciprocal squared distance from the third axis. -/
theorem recip_deriv (p : V3 ℝ) (j : Fin 3) (h : p 0 ^ 2 + p 1 ^ 2 ≠ 0) :
    HasDerivAt (fun s => 1 / (move p j s 0 ^ 2 + move p j s 1 ^ 2))
      (-(2 * p 0 * (if (0 : Fin 3) = j then 1 else 0) + 2 * p 1 * (if (1 : Fin 3) = j then 1 else 0)) * (1 / (p 0 ^ 2 + p 1 ^ 2)) ^ 2) 0 := by
  have h0 := (move_deriv p j 0).pow 2
  have h1 := (move_deriv p j 1).pow 2
  have hs := h0.add h1
  have hh : move p j 0 0 ^ 2 + move p j 0 1 ^ 2 ≠ 0 := by rw [move_zero]; exact h
  have := (hasDerivAt_const (0 : ℝ) (1 : ℝ)).div hs hh
  refine HasDerivAt.congr_deriv this ?_
  simp only [Pi.add_apply, Pi.pow_apply, move_zero]
  push_cast
  field_simp
  norm_num

theorem hypot_sq (x y : ℝ) : hypot x y ^ 2 = x ^ 2 + y ^ 2 := by
  unfold hypot; rw [Real.sq_sqrt (add_nonneg (mul_self_nonneg x) (mul_self_nonneg y))]; ring

theorem hypot_nonneg (x y : ℝ) : 0 ≤ hypot x y := Real.sqrt_nonneg _

theorem hypot_pos {x y : ℝ} (h : x ^ 2 + y ^ 2 ≠ 0) : 0 < hypot x y := by
  refine lt_of_le_of_ne (hypot_nonneg x y) fun e => h ?_
  rw [← hypot_sq, ← e]; norm_num

theorem norm_mk (x y : ℝ) : ‖(⟨x, y⟩ : ℂ)‖ = hypot x y := by
  rw [Complex.norm_def, Complex.normSq_mk]; rfl

theorem cos_atan2 {x y : ℝ} (h : x ^ 2 + y ^ 2 ≠ 0) : Real.cos (atan2 y x) = x / hypot x y := by
  have : (⟨x, y⟩ : ℂ) ≠ 0 := by
    intro e
    rw [Complex.ext_iff] at e
    simp at e
    exact h (by rw [e.1, e.2]; norm_num)
  unfold atan2
  rw [Complex.cos_arg this, norm_mk]

theorem sin_atan2 (x y : ℝ) : Real.sin (atan2 y x) = y / hypot x y := by
  unfold atan2
  rw [Complex.sin_arg, norm_mk]

/-- Equilibrium of a plane stress field from the derivatives of its components. -/
theorem plane_equilibrium {σ : V3 ℝ → Stress} {U : Set (V3 ℝ)} (hU : IsOpen U) {p : V3 ℝ} (hp : p ∈ U) {xx yy zz xy : V3 ℝ → ℝ}
    (h : ∀ q ∈ U, σ q = sym (xx q) (yy q) (zz q) (xy q) 0) {d00 d01 d10 d11 d22 : ℝ}
    (h00 : HasDerivAt (fun s => xx (move p 0 s)) d00 0) (h01 : HasDerivAt (fun s => xy (move p 1 s)) d01 0)
    (h10 : HasDerivAt (fun s => xy (move p 0 s)) d10 0) (h11 : HasDerivAt (fun s => yy (move p 1 s)) d11 0)
    (h22 : HasDerivAt (fun s => zz (move p 2 s)) d22 0) (e0 : d00 + d01 = 0) (e1 : d10 + d11 = 0) (e2 : d22 = 0) :
    Equilibrium σ p := by
  have z : HasDerivAt (fun _ : ℝ => (0 : ℝ)) 0 0 := hasDerivAt_const _ _
  refine ⟨![![d00, d01, 0], ![d10, d11, 0], ![0, 0, d22]], ?_, ?_⟩
  · intro i j
    have ev : (fun s => σ (move p j s) i j) =ᶠ[𝓝 0] fun s =>
        sym (xx (move p j s)) (yy (move p j s)) (zz (move p j s)) (xy (move p j s)) 0 i j := by
      filter_upwards [move_mem hU hp j] with s hs
      rw [h _ hs]
    refine HasDerivAt.congr_of_eventuallyEq ?_ ev
    fin_cases i <;> fin_cases j
    · exact h00
    · exact h01
    · exact z
    · exact h10
    · exact h11
    · exact z
    · exact z
    · exact z
    · exact h22
  · intro i
    fin_cases i
    · simp [e0]
    · simp [e1]
    · simp [e2]

/-! ### Plate with a hole -/

/-- The region outside the hole. -/
def outside (a : ℝ) : Set (V3 ℝ) := {p | a ^ 2 < p 0 ^ 2 + p 1 ^ 2}

theorem outside_open (a : ℝ) : IsOpen (outside a) := isOpen_lt (by fun_prop) (by fun_prop)

theorem multiple {x y : ℝ} (h : x ^ 2 + y ^ 2 ≠ 0) :
    Real.cos (2 * atan2 y x) = (x ^ 2 - y ^ 2) * (1 / (x ^ 2 + y ^ 2)) ∧ Real.sin (2 * atan2 y x) = 2 * x * y * (1 / (x ^ 2 + y ^ 2)) ∧
    Real.cos (4 * atan2 y x) = (x ^ 4 - 6 * x ^ 2 * y ^ 2 + y ^ 4) * (1 / (x ^ 2 + y ^ 2)) ^ 2 ∧
    Real.sin (4 * atan2 y x) = 4 * x * y * (x ^ 2 - y ^ 2) * (1 / (x ^ 2 + y ^ 2)) ^ 2 := by
  have hp := (hypot_pos h).ne'
  have hs := hypot_sq x y
  have c2 : Real.cos (2 * atan2 y x) = (x ^ 2 - y ^ 2) * (1 / (x ^ 2 + y ^ 2)) := by
    rw [Real.cos_two_mul, cos_atan2 h, div_pow, hs]; field_simp; ring
  have s2 : Real.sin (2 * atan2 y x) = 2 * x * y * (1 / (x ^ 2 + y ^ 2)) := by
    rw [Real.sin_two_mul, cos_atan2 h, sin_atan2, ← hs]; field_simp
  have e : 4 * atan2 y x = 2 * (2 * atan2 y x) := by ring
  refine ⟨c2, s2, ?_, ?_⟩
  · rw [e, Real.cos_two_mul, c2]; field_simp; ring
  · rw [e, Real.sin_two_mul, c2, s2]; field_simp; ring

/-- The components of the stress as functions of the coordinates. -/
def holeForm (a F0 c k1 k2 k3 A Q u : ℝ) : ℝ := F0 * (c + k1 * a ^ 2 * (A * u ^ 2) + k2 * a ^ 2 * (Q * u ^ 3) + k3 * a ^ 4 * (Q * u ^ 4))

theorem hole_eq {a : ℝ} (F0 nu : ℝ) (ha : 0 < a) {p : V3 ℝ} (hp : a ^ 2 ≤ p 0 ^ 2 + p 1 ^ 2) :
    hole a F0 nu p =
      sym (holeForm a F0 1 (-3 / 2) (-1) (3 / 2) (p 0 ^ 2 - p 1 ^ 2) (p 0 ^ 4 - 6 * p 0 ^ 2 * p 1 ^ 2 + p 1 ^ 4) (1 / (p 0 ^ 2 + p 1 ^ 2)))
        (holeForm a F0 0 (-1 / 2) 1 (-3 / 2) (p 0 ^ 2 - p 1 ^ 2) (p 0 ^ 4 - 6 * p 0 ^ 2 * p 1 ^ 2 + p 1 ^ 4) (1 / (p 0 ^ 2 + p 1 ^ 2)))
        (nu * holeForm a F0 1 (-2) 0 0 (p 0 ^ 2 - p 1 ^ 2) (p 0 ^ 4 - 6 * p 0 ^ 2 * p 1 ^ 2 + p 1 ^ 4) (1 / (p 0 ^ 2 + p 1 ^ 2)))
        (holeForm a F0 0 (-1 / 2) (-1) (3 / 2) (2 * p 0 * p 1) (4 * p 0 * p 1 * (p 0 ^ 2 - p 1 ^ 2)) (1 / (p 0 ^ 2 + p 1 ^ 2))) 0 := by
  have h : p 0 ^ 2 + p 1 ^ 2 ≠ 0 := by have := pow_pos ha 2; intro e; linarith
  obtain ⟨c2, s2, c4, s4⟩ := multiple h
  have hs := hypot_sq (p 0) (p 1)
  have hpos := hypot_pos h
  have R2 : (if hypot (p 0) (p 1) ≤ a then (1 : ℝ) else a * a / (hypot (p 0) (p 1) * hypot (p 0) (p 1))) = a ^ 2 * (1 / (p 0 ^ 2 + p 1 ^ 2)) := by
    split_ifs with hle
    · have : p 0 ^ 2 + p 1 ^ 2 = a ^ 2 := by
        refine le_antisymm ?_ hp
        rw [← hs]; exact pow_le_pow_left₀ hpos.le hle 2
      rw [this]; field_simp
    · rw [← hs]; field_simp
  have R4 : (if hypot (p 0) (p 1) ≤ a then (1 : ℝ) else a ^ 2 * (1 / (p 0 ^ 2 + p 1 ^ 2)) * (a ^ 2 * (1 / (p 0 ^ 2 + p 1 ^ 2)))) =
      a ^ 4 * (1 / (p 0 ^ 2 + p 1 ^ 2)) ^ 2 := by
    split_ifs with hle
    · have : p 0 ^ 2 + p 1 ^ 2 = a ^ 2 := by
        refine le_antisymm ?_ hp
        rw [← hs]; exact pow_le_pow_left₀ hpos.le hle 2
      rw [this]; field_simp
    · ring
  unfold hole
  simp only [R2, R4, c2, s2, c4, s4]
  unfold holeForm
  congr 1 <;> ring

theorem holeForm_deriv (a F0 c k1 k2 k3 : ℝ) {A Q u : ℝ → ℝ} {A' Q' u' : ℝ} (hA : HasDerivAt A A' 0) (hQ : HasDerivAt Q Q' 0)
    (hu : HasDerivAt u u' 0) :
    HasDerivAt (fun s => holeForm a F0 c k1 k2 k3 (A s) (Q s) (u s))
      (F0 * (k1 * a ^ 2 * (A' * u 0 ^ 2 + A 0 * (2 * u 0 * u')) + k2 * a ^ 2 * (Q' * u 0 ^ 3 + Q 0 * (3 * u 0 ^ 2 * u')) +
        k3 * a ^ 4 * (Q' * u 0 ^ 4 + Q 0 * (4 * u 0 ^ 3 * u')))) 0 := by
  unfold holeForm
  have h1 := (hA.mul (hu.pow 2)).const_mul (k1 * a ^ 2)
  have h2 := (hQ.mul (hu.pow 3)).const_mul (k2 * a ^ 2)
  have h3 := (hQ.mul (hu.pow 4)).const_mul (k3 * a ^ 4)
  refine HasDerivAt.congr_deriv ((((h1.const_add c).add h2).add h3).const_mul F0) ?_
  simp only [Pi.pow_apply]
  push_cast
  ring

theorem A_deriv (p : V3 ℝ) (j : Fin 3) : HasDerivAt (fun s => move p j s 0 ^ 2 - move p j s 1 ^ 2)
    (2 * p 0 * (if (0 : Fin 3) = j then 1 else 0) - 2 * p 1 * (if (1 : Fin 3) = j then 1 else 0)) 0 := by
  refine HasDerivAt.congr_deriv (((move_deriv p j 0).pow 2).sub ((move_deriv p j 1).pow 2)) ?_
  simp only [move_zero]; norm_num

theorem B_deriv (p : V3 ℝ) (j : Fin 3) : HasDerivAt (fun s => 2 * move p j s 0 * move p j s 1)
    (2 * (if (0 : Fin 3) = j then 1 else 0) * p 1 + 2 * p 0 * (if (1 : Fin 3) = j then 1 else 0)) 0 := by
  refine HasDerivAt.congr_deriv (((move_deriv p j 0).const_mul 2).mul (move_deriv p j 1)) ?_
  simp only [move_zero]

theorem Q_deriv (p : V3 ℝ) (j : Fin 3) :
    HasDerivAt (fun s => move p j s 0 ^ 4 - 6 * move p j s 0 ^ 2 * move p j s 1 ^ 2 + move p j s 1 ^ 4)
    ((4 * p 0 ^ 3 - 12 * p 0 * p 1 ^ 2) * (if (0 : Fin 3) = j then 1 else 0) +
      (4 * p 1 ^ 3 - 12 * p 0 ^ 2 * p 1) * (if (1 : Fin 3) = j then 1 else 0)) 0 := by
  have h0 := move_deriv p j 0
  have h1 := move_deriv p j 1
  refine HasDerivAt.congr_deriv (((h0.pow 4).sub (((h0.pow 2).const_mul 6).mul (h1.pow 2))).add (h1.pow 4)) ?_
  simp only [move_zero, Pi.pow_apply]; push_cast; ring

theorem W_deriv (p : V3 ℝ) (j : Fin 3) :
    HasDerivAt (fun s => 4 * move p j s 0 * move p j s 1 * (move p j s 0 ^ 2 - move p j s 1 ^ 2))
    ((12 * p 0 ^ 2 * p 1 - 4 * p 1 ^ 3) * (if (0 : Fin 3) = j then 1 else 0) +
      (4 * p 0 ^ 3 - 12 * p 0 * p 1 ^ 2) * (if (1 : Fin 3) = j then 1 else 0)) 0 := by
  have h0 := move_deriv p j 0
  have h1 := move_deriv p j 1
  refine HasDerivAt.congr_deriv (((h0.const_mul 4).mul h1).mul (A_deriv p j)) ?_
  simp only [move_zero, Pi.pow_apply, Pi.mul_apply]; ring

theorem outside_ne {a : ℝ} {p : V3 ℝ} (hp : p ∈ outside a) : p 0 ^ 2 + p 1 ^ 2 ≠ 0 := by
  have : a ^ 2 < p 0 ^ 2 + p 1 ^ 2 := hp
  have := sq_nonneg a
  intro e; linarith

/-- C51 (hole): equilibrium at every point outside the hole. -/
theorem C51_hole_equilibrium {a : ℝ} (F0 nu : ℝ) (ha : 0 < a) {p : V3 ℝ} (hp : a ^ 2 < p 0 ^ 2 + p 1 ^ 2) :
    Equilibrium (hole a F0 nu) p := by
  have hne : p 0 ^ 2 + p 1 ^ 2 ≠ 0 := outside_ne (a := a) hp
  have d0 := fun k => holeForm_deriv a F0 1 (-3 / 2) (-1) (3 / 2) (A_deriv p k) (Q_deriv p k) (recip_deriv p k hne)
  have d1 := fun k => holeForm_deriv a F0 0 (-1 / 2) 1 (-3 / 2) (A_deriv p k) (Q_deriv p k) (recip_deriv p k hne)
  have d2 := fun k => (holeForm_deriv a F0 1 (-2) 0 0 (A_deriv p k) (Q_deriv p k) (recip_deriv p k hne)).const_mul nu
  have d3 := fun k => holeForm_deriv a F0 0 (-1 / 2) (-1) (3 / 2) (B_deriv p k) (W_deriv p k) (recip_deriv p k hne)
  refine plane_equilibrium (outside_open a) hp (fun q hq => hole_eq F0 nu ha (le_of_lt hq)) (d0 0) (d3 1) (d3 0) (d1 1) (d2 2) ?_ ?_ ?_
  · simp [move_zero]
    field_simp
    ring
  · simp [move_zero]
    field_simp
    ring
  · simp

/-- C51 (hole): no traction on the rim of the hole. -/
theorem C51_hole_rim {a : ℝ} (F0 nu : ℝ) (ha : 0 < a) {p : V3 ℝ} (hp : p 0 ^ 2 + p 1 ^ 2 = a ^ 2) :
    TractionFree (hole a F0 nu p) ![p 0, p 1, 0] := by
  have hne : a ≠ 0 := ha.ne'
  intro i
  rw [hole_eq F0 nu ha hp.ge]
  simp only [hp]
  have e : p 0 ^ 2 = a ^ 2 - p 1 ^ 2 := by linarith
  fin_cases i
  · simp [sym, holeForm]
    field_simp
    simp only [e]; ring
  · simp [sym, holeForm]
    field_simp
    simp only [e]; ring
  · simp [sym]

/-- C51 (hole): far from the hole the stress is the uniaxial tension `F0`; the deviation is at most four times the tension times the
squared ratio of radius and distance. -/
theorem C51_hole_far {a : ℝ} (F0 nu : ℝ) (ha : 0 < a) {p : V3 ℝ} (hp : a ^ 2 < p 0 ^ 2 + p 1 ^ 2) :
    |hole a F0 nu p 0 0 - F0| ≤ 4 * |F0| * (a ^ 2 / (p 0 ^ 2 + p 1 ^ 2)) ∧
    |hole a F0 nu p 1 1| ≤ 4 * |F0| * (a ^ 2 / (p 0 ^ 2 + p 1 ^ 2)) ∧
    |hole a F0 nu p 0 1| ≤ 4 * |F0| * (a ^ 2 / (p 0 ^ 2 + p 1 ^ 2)) := by
  have hs := hypot_sq (p 0) (p 1)
  have hgt : ¬ hypot (p 0) (p 1) ≤ a := by
    intro h
    have := pow_le_pow_left₀ (hypot_nonneg (p 0) (p 1)) h 2
    rw [hs] at this; linarith
  have hR : a * a / (hypot (p 0) (p 1) * hypot (p 0) (p 1)) = a ^ 2 / (p 0 ^ 2 + p 1 ^ 2) := by rw [← hs]; ring
  have hpos : 0 < p 0 ^ 2 + p 1 ^ 2 := lt_trans (pow_pos ha 2) hp
  have h0 : 0 ≤ a ^ 2 / (p 0 ^ 2 + p 1 ^ 2) := by positivity
  have h1 : a ^ 2 / (p 0 ^ 2 + p 1 ^ 2) ≤ 1 := by rw [div_le_one hpos]; exact hp.le
  simp only [hole, hgt, if_false, hR, sym]
  generalize a ^ 2 / (p 0 ^ 2 + p 1 ^ 2) = k at h0 h1
  generalize atan2 (p 1) (p 0) = th
  have c2 := Real.abs_cos_le_one (2 * th)
  have c4 := Real.abs_cos_le_one (4 * th)
  have s2 := Real.abs_sin_le_one (2 * th)
  have s4 := Real.abs_sin_le_one (4 * th)
  generalize Real.cos (2 * th) = C2 at c2
  generalize Real.cos (4 * th) = C4 at c4
  generalize Real.sin (2 * th) = S2 at s2
  generalize Real.sin (4 * th) = S4 at s4
  have key : ∀ x y c d e : ℝ, |x| ≤ 1 → |y| ≤ 1 → |c| + |d| + |e| ≤ 4 → |F0 * (-k * (c * x + d * y) + e * (k * k) * y)| ≤ 4 * |F0| * k := by
    intro x y c d e hx hy hc
    have hkk : k * k ≤ k := by nlinarith
    have b1 : |c * x| ≤ |c| := by rw [abs_mul]; nlinarith [abs_nonneg c, abs_nonneg x]
    have b2 : |d * y| ≤ |d| := by rw [abs_mul]; nlinarith [abs_nonneg d, abs_nonneg y]
    have b3 : |e * y| ≤ |e| := by rw [abs_mul]; nlinarith [abs_nonneg e, abs_nonneg y]
    have e1 : -k * (c * x + d * y) + e * (k * k) * y = k * (-(c * x) - d * y + k * (e * y)) := by ring
    have b4 : |-(c * x) - d * y + k * (e * y)| ≤ 4 := by
      have t1 : |k * (e * y)| ≤ |e * y| := by rw [abs_mul, abs_of_nonneg h0]; nlinarith [abs_nonneg (e * y)]
      calc |-(c * x) - d * y + k * (e * y)| ≤ |-(c * x) - d * y| + |k * (e * y)| := abs_add_le _ _
        _ ≤ |-(c * x)| + |d * y| + |k * (e * y)| := by gcongr; exact abs_sub _ _
        _ ≤ 4 := by rw [abs_neg]; linarith
    rw [abs_mul, e1, abs_mul, abs_of_nonneg h0]
    have : |F0| * (k * |-(c * x) - d * y + k * (e * y)|) ≤ |F0| * (k * 4) := by gcongr
    linarith
  refine ⟨?_, ?_, ?_⟩
  · have := key C2 C4 (3 / 2) 1 (3 / 2) c2 c4 (by norm_num [abs_of_pos])
    convert this using 2
    simp; ring
  · have := key C2 C4 (1 / 2) (-1) (-3 / 2) c2 c4 (by norm_num [abs_of_pos])
    convert this using 2
    show F0 * (-k * (1 / 2 * C2 - C4) - 3 / 2 * (k * k) * C4) = _
    ring
  · have := key S2 S4 (1 / 2) 1 (3 / 2) s2 s4 (by norm_num [abs_of_pos])
    convert this using 2
    show F0 * (-k * (1 / 2 * S2 + S4) + 3 / 2 * (k * k) * S4) = _
    ring

/-- C51 (hole): the stress is plane strain stress, σzz = ν (σxx + σyy), and the sum of the in-plane normal stresses satisfies
Laplace's equation; with equilibrium these are the conditions for stresses that belong to a displacement field. -/
theorem C51_hole_compatible {a : ℝ} (F0 nu : ℝ) (ha : 0 < a) :
    Harmonic (fun p => hole a F0 nu p 0 0 + hole a F0 nu p 1 1) {p | a ^ 2 < p 0 ^ 2 + p 1 ^ 2} ∧
    ∀ p : V3 ℝ, a ^ 2 < p 0 ^ 2 + p 1 ^ 2 → hole a F0 nu p 2 2 = nu * (hole a F0 nu p 0 0 + hole a F0 nu p 1 1) := by
  have tr : ∀ q : V3 ℝ, q ∈ outside a → hole a F0 nu q 0 0 + hole a F0 nu q 1 1 =
      holeForm a F0 1 (-2) 0 0 (q 0 ^ 2 - q 1 ^ 2) 0 (1 / (q 0 ^ 2 + q 1 ^ 2)) := by
    intro q hq
    rw [hole_eq F0 nu ha (le_of_lt hq)]
    simp only [sym, holeForm]
    simp; ring
  constructor
  · let u : V3 ℝ → ℝ := fun q => 1 / (q 0 ^ 2 + q 1 ^ 2)
    let A : V3 ℝ → ℝ := fun q => q 0 ^ 2 - q 1 ^ 2
    let e : Fin 3 → Fin 3 → ℝ := fun k j => if k = j then 1 else 0
    let A' : Fin 3 → V3 ℝ → ℝ := fun j q => 2 * q 0 * e 0 j - 2 * q 1 * e 1 j
    let S' : Fin 3 → V3 ℝ → ℝ := fun j q => 2 * q 0 * e 0 j + 2 * q 1 * e 1 j
    let u' : Fin 3 → V3 ℝ → ℝ := fun j q => -S' j q * u q ^ 2
    refine ⟨fun j q => F0 * (-2 * a ^ 2 * (A' j q * u q ^ 2 + A q * (2 * u q * (-S' j q * u q ^ 2)))),
      fun j q => F0 * (-2 * a ^ 2 * ((2 * e 0 j - 2 * e 1 j) * u q ^ 2 + A' j q * (2 * u q * u' j q) +
        (A' j q * (2 * u q * (-S' j q * u q ^ 2)) + A q * (-2 * ((2 * e 0 j + 2 * e 1 j) * u q ^ 3 + S' j q * (3 * u q ^ 2 * u' j q)))))), ?_⟩
    intro p hp
    have hne : p 0 ^ 2 + p 1 ^ 2 ≠ 0 := outside_ne (a := a) hp
    refine ⟨fun j => ⟨?_, ?_⟩, ?_⟩
    · have ev : (fun s => hole a F0 nu (move p j s) 0 0 + hole a F0 nu (move p j s) 1 1) =ᶠ[𝓝 0] fun s =>
          holeForm a F0 1 (-2) 0 0 (move p j s 0 ^ 2 - move p j s 1 ^ 2) 0 (1 / (move p j s 0 ^ 2 + move p j s 1 ^ 2)) := by
        filter_upwards [move_mem (outside_open a) (p := p) hp j] with s hs
        exact tr _ hs
      refine HasDerivAt.congr_of_eventuallyEq ?_ ev
      refine HasDerivAt.congr_deriv (holeForm_deriv a F0 1 (-2) 0 0 (A_deriv p j) (hasDerivAt_const _ _) (recip_deriv p j hne)) ?_
      simp only [move_zero, A', S', u, A, e]
      ring
    · have hu : HasDerivAt (fun s => u (move p j s)) (u' j p) 0 := recip_deriv p j hne
      have hA : HasDerivAt (fun s => A (move p j s)) (A' j p) 0 := A_deriv p j
      have ee : ∀ k, e k j * e k j = e k j := by intro k; simp only [e]; split_ifs <;> simp
      have hA' : HasDerivAt (fun s => A' j (move p j s)) (2 * e 0 j - 2 * e 1 j) 0 := by
        refine HasDerivAt.congr_deriv ((((move_deriv p j 0).const_mul 2).mul_const (e 0 j)).sub
          (((move_deriv p j 1).const_mul 2).mul_const (e 1 j))) ?_
        show 2 * e 0 j * e 0 j - 2 * e 1 j * e 1 j = _
        rw [mul_assoc, mul_assoc, ee, ee]
      have hS' : HasDerivAt (fun s => S' j (move p j s)) (2 * e 0 j + 2 * e 1 j) 0 := by
        refine HasDerivAt.congr_deriv ((((move_deriv p j 0).const_mul 2).mul_const (e 0 j)).add
          (((move_deriv p j 1).const_mul 2).mul_const (e 1 j))) ?_
        show 2 * e 0 j * e 0 j + 2 * e 1 j * e 1 j = _
        rw [mul_assoc, mul_assoc, ee, ee]
      refine HasDerivAt.congr_deriv ((((hA'.mul (hu.pow 2)).add (hA.mul ((hu.const_mul 2).mul (hS'.neg.mul (hu.pow 2))))).const_mul
        (-2 * a ^ 2)).const_mul F0) ?_
      simp only [move_zero, Pi.pow_apply, Pi.mul_apply, Pi.neg_apply]
      push_cast
      ring
    · simp [A', S', u, A, u', e]
      field_simp
      ring
  · intro p hp
    rw [tr p hp, hole_eq F0 nu ha hp.le]
    simp [sym, holeForm]

example : (1 : ℝ) ^ 2 < (![1, 1, 0] : V3 ℝ) 0 ^ 2 + (![1, 1, 0] : V3 ℝ) 1 ^ 2 := by norm_num

end Verif.Analytic
