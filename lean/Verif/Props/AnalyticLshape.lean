/-
C51, L-shaped domain: the edges at the re-entrant corner are free of tractions, with the constants of the program.
-/
import Verif.Props.AnalyticPipe
import Mathlib.Analysis.Real.Pi.Bounds
import Mathlib.Analysis.Complex.Exponential
set_option linter.unusedSectionVars false
set_option linter.unnecessarySeqFocus false
set_option linter.unusedSimpArgs false
set_option linter.unusedVariables false

namespace Verif.Analytic
open Verif.Beam

/-- Taylor polynomials of degree 10 and 11 of cosine and sine, with the remainder. -/
theorem cos_sin_taylor {x : ℝ} (hx : |x| ≤ 1) :
    |Real.cos x - (1 - x ^ 2 / 2 + x ^ 4 / 24 - x ^ 6 / 720 + x ^ 8 / 40320 - x ^ 10 / 3628800)| ≤ |x| ^ 12 / 5000000 / 88 ∧
    |Real.sin x - (x - x ^ 3 / 6 + x ^ 5 / 120 - x ^ 7 / 5040 + x ^ 9 / 362880 - x ^ 11 / 39916800)| ≤ |x| ^ 12 / 5000000 / 88 := by
  have hn : ‖(x : ℂ) * Complex.I‖ = |x| := by simp
  have h := Complex.exp_bound (x := (x : ℂ) * Complex.I) (by rw [hn]; exact hx) (n := 12) (by norm_num)
  have I2 : Complex.I ^ 2 = -1 := Complex.I_sq
  have I3 : Complex.I ^ 3 = -Complex.I := by rw [pow_succ, I2]; simp
  have I4 : Complex.I ^ 4 = 1 := Complex.I_pow_four
  have I5 : Complex.I ^ 5 = Complex.I := by rw [pow_succ, I4]; simp
  have I6 : Complex.I ^ 6 = -1 := by rw [pow_succ, I5]; simp
  have I7 : Complex.I ^ 7 = -Complex.I := by rw [pow_succ, I6]; simp
  have I8 : Complex.I ^ 8 = 1 := by rw [pow_succ, I7]; simp
  have I9 : Complex.I ^ 9 = Complex.I := by rw [pow_succ, I8]; simp
  have I10 : Complex.I ^ 10 = -1 := by rw [pow_succ, I9]; simp
  have I11 : Complex.I ^ 11 = -Complex.I := by rw [pow_succ, I10]; simp
  have hs : ∑ m ∈ Finset.range 12, ((x : ℂ) * Complex.I) ^ m / (m.factorial : ℂ) =
      ((1 - x ^ 2 / 2 + x ^ 4 / 24 - x ^ 6 / 720 + x ^ 8 / 40320 - x ^ 10 / 3628800 : ℝ) : ℂ) +
      ((x - x ^ 3 / 6 + x ^ 5 / 120 - x ^ 7 / 5040 + x ^ 9 / 362880 - x ^ 11 / 39916800 : ℝ) : ℂ) * Complex.I := by
    simp only [Finset.sum_range_succ, Finset.sum_range_zero, mul_pow, I2, I3, I4, I5, I6, I7, I8, I9, I10, I11, Nat.factorial]
    push_cast
    ring
  have he : Complex.exp ((x : ℂ) * Complex.I) = (Real.cos x : ℂ) + (Real.sin x : ℂ) * Complex.I := by
    rw [Complex.exp_mul_I]; simp
  rw [hs, he, hn] at h
  have hb : |x| ^ 12 * (((12 : ℕ).succ : ℝ) * (((12 : ℕ).factorial : ℝ) * (12 : ℕ) : ℝ)⁻¹) ≤ |x| ^ 12 / 5000000 / 88 := by
    have : (((12 : ℕ).succ : ℝ) * (((12 : ℕ).factorial : ℝ) * (12 : ℕ) : ℝ)⁻¹) ≤ 1 / 5000000 / 88 := by norm_num [Nat.factorial]
    calc _ ≤ |x| ^ 12 * (1 / 5000000 / 88) := mul_le_mul_of_nonneg_left this (by positivity)
      _ = _ := by ring
  have h' := le_trans h hb
  refine ⟨le_trans ?_ h', le_trans ?_ h'⟩
  · refine le_trans (le_of_eq ?_) (Complex.abs_re_le_norm _)
    simp only [Complex.sub_re, Complex.add_re, Complex.mul_re, Complex.ofReal_re, Complex.ofReal_im, Complex.I_re, Complex.I_im]
    ring_nf
  · refine le_trans (le_of_eq ?_) (Complex.abs_im_le_norm _)
    simp only [Complex.sub_im, Complex.add_im, Complex.mul_im, Complex.ofReal_re, Complex.ofReal_im, Complex.I_re, Complex.I_im]
    ring_nf

/-- The angle that decides whether the corner edges are free: `(3λ - 1)π/4` for the exponent of the program. -/
noncomputable def edgeAngle : ℝ := (3 * (544483737 / 10 ^ 9) - 1) * Real.pi / 4

theorem edge_numbers : |Real.cos edgeAngle - 878772933107 / 10 ^ 12| ≤ 1 / 10 ^ 11 ∧
    |Real.sin edgeAngle - 477240119896 / 10 ^ 12| ≤ 1 / 10 ^ 11 := by
  have hd : |edgeAngle - 4975114177213 / 10 ^ 13| ≤ 1 / 10 ^ 12 := by
    have h1 := Real.pi_gt_d20
    have h2 := Real.pi_lt_d20
    unfold edgeAngle
    rw [abs_le]
    constructor <;> norm_num at * <;> linarith
  obtain ⟨hc, hs⟩ := cos_sin_taylor (x := 4975114177213 / 10 ^ 13) (by rw [abs_of_pos (by norm_num)]; norm_num)
  have hx : |(4975114177213 : ℝ) / 10 ^ 13| = 4975114177213 / 10 ^ 13 := abs_of_pos (by norm_num)
  rw [hx] at hc hs
  have lc : |Real.cos edgeAngle - Real.cos (4975114177213 / 10 ^ 13)| ≤ 1 / 10 ^ 12 := le_trans (Real.abs_cos_sub_cos_le _ _) hd
  have ls : |Real.sin edgeAngle - Real.sin (4975114177213 / 10 ^ 13)| ≤ 1 / 10 ^ 12 := le_trans (Real.abs_sin_sub_sin_le _ _) hd
  rw [abs_le] at lc ls hc hs
  constructor
  · obtain ⟨a1, a2⟩ := lc
    obtain ⟨b1, b2⟩ := hc
    rw [abs_le]
    constructor <;> norm_num at b1 b2 a1 a2 ⊢ <;> linarith
  · obtain ⟨a1, a2⟩ := ls
    obtain ⟨b1, b2⟩ := hs
    rw [abs_le]
    constructor <;> norm_num at b1 b2 a1 a2 ⊢ <;> linarith


/-- Residual tractions of the program's constants. -/
theorem edge_residual : |Real.sin edgeAngle - 543075579 / 10 ^ 9 * Real.cos edgeAngle| ≤ 6 / 10 ^ 10 ∧
    |543075579 / 10 ^ 9 * (544483737 / 10 ^ 9 + 1) * Real.sin edgeAngle + (544483737 / 10 ^ 9 - 1) * Real.cos edgeAngle| ≤ 9 / 10 ^ 10 := by
  obtain ⟨hc, hs⟩ := edge_numbers
  rw [abs_le] at hc hs
  obtain ⟨c1, c2⟩ := hc
  obtain ⟨s1, s2⟩ := hs
  rw [abs_le, abs_le]
  refine ⟨⟨?_, ?_⟩, ?_, ?_⟩ <;> norm_num at c1 c2 s1 s2 ⊢ <;> linarith

/-- The in-plane stresses in polar coordinates about the corner. -/
theorem lshape_polar (lam q F0 nu : ℝ) {a : ℝ} (ha : 0 < a) {p : V3 ℝ} (hp : (a / 10 ^ 32) ^ 2 < p 0 ^ 2 + p 1 ^ 2) :
    let r := hypot (p 0) (p 1)
    let th := (zeta p).arg
    lshapeWith lam q a F0 nu p 0 0 = F0 * lam * r ^ (lam - 1) * (2 * Real.cos ((lam - 1) * th) - q * (lam + 1) * Real.sin ((lam - 1) * th) -
      (lam - 1) * Real.sin ((lam - 3) * th)) ∧
    lshapeWith lam q a F0 nu p 1 1 = F0 * lam * r ^ (lam - 1) * (2 * Real.cos ((lam - 1) * th) + q * (lam + 1) * Real.sin ((lam - 1) * th) +
      (lam - 1) * Real.sin ((lam - 3) * th)) ∧
    lshapeWith lam q a F0 nu p 0 1 = -(F0 * lam * r ^ (lam - 1) * (q * (lam + 1) * Real.cos ((lam - 1) * th) +
      (lam - 1) * Real.cos ((lam - 3) * th))) := by
  intro r th
  have hpos : 0 < p 0 ^ 2 + p 1 ^ 2 := lt_of_le_of_lt (sq_nonneg _) hp
  have hz : zeta p ≠ 0 := by
    rw [← norm_pos_iff, norm_zeta]; exact hypot_pos hpos.ne'
  obtain ⟨h1, h2, h3, h4⟩ := cpow_parts lam hz
  have hr : ‖zeta p‖ = r := norm_zeta p
  rw [hr] at h1 h2 h3 h4
  rw [lshape_eq lam q F0 nu ha hp]
  unfold lpot
  have e : ∀ x y z w v : ℝ, sym x y z w v 0 0 = x ∧ sym x y z w v 1 1 = y ∧ sym x y z w v 0 1 = w := by
    intro x y z w v; simp [sym]
  refine ⟨?_, ?_, ?_⟩
  · rw [(e _ _ _ _ _).1]
    generalize zeta p ^ ((lam - 1 : ℝ) : ℂ) = f at *
    generalize (starRingEnd ℂ) (zeta p) * zeta p ^ ((lam - 2 : ℝ) : ℂ) = g at *
    simp [h1, h2, h3, h4, th]; ring
  · rw [(e _ _ _ _ _).2.1]
    generalize zeta p ^ ((lam - 1 : ℝ) : ℂ) = f at *
    generalize (starRingEnd ℂ) (zeta p) * zeta p ^ ((lam - 2 : ℝ) : ℂ) = g at *
    simp [h1, h2, h3, h4, th]; ring
  · rw [(e _ _ _ _ _).2.2]
    generalize zeta p ^ ((lam - 1 : ℝ) : ℂ) = f at *
    generalize (starRingEnd ℂ) (zeta p) * zeta p ^ ((lam - 2 : ℝ) : ℂ) = g at *
    simp [h1, h2, h3, h4, th]; ring

theorem arg_edge_x {r : ℝ} (hr : 0 < r) : (zeta ![r, 0, 0]).arg = 3 * Real.pi / 4 := by
  have hs : Real.sqrt (1 / 2) = Real.sqrt 2 / 2 := by
    rw [Real.sqrt_div (by norm_num), Real.sqrt_one, div_eq_div_iff (by positivity) (by norm_num), Real.mul_self_sqrt (by norm_num)]; norm_num
  have hc : Real.cos (3 * Real.pi / 4) = -(Real.sqrt 2 / 2) := by
    rw [show 3 * Real.pi / 4 = Real.pi - Real.pi / 4 by ring, Real.cos_pi_sub, Real.cos_pi_div_four]
  have hn : Real.sin (3 * Real.pi / 4) = Real.sqrt 2 / 2 := by
    rw [show 3 * Real.pi / 4 = Real.pi - Real.pi / 4 by ring, Real.sin_pi_sub, Real.sin_pi_div_four]
  have hz : zeta ![r, 0, 0] = (r : ℂ) * (Complex.cos ((3 * Real.pi / 4 : ℝ) : ℂ) + Complex.sin ((3 * Real.pi / 4 : ℝ) : ℂ) * Complex.I) := by
    rw [← Complex.ofReal_cos, ← Complex.ofReal_sin, hc, hn]
    unfold zeta turn
    rw [hs]
    apply Complex.ext <;> simp <;> ring
  rw [hz]
  exact Complex.arg_mul_cos_add_sin_mul_I hr ⟨by linarith [Real.pi_pos], by linarith [Real.pi_pos]⟩

theorem arg_edge_y {r : ℝ} (hr : 0 < r) : (zeta ![0, r, 0]).arg = -(3 * Real.pi / 4) := by
  have hs : Real.sqrt (1 / 2) = Real.sqrt 2 / 2 := by
    rw [Real.sqrt_div (by norm_num), Real.sqrt_one, div_eq_div_iff (by positivity) (by norm_num), Real.mul_self_sqrt (by norm_num)]; norm_num
  have hc : Real.cos (-(3 * Real.pi / 4)) = -(Real.sqrt 2 / 2) := by
    rw [Real.cos_neg, show 3 * Real.pi / 4 = Real.pi - Real.pi / 4 by ring, Real.cos_pi_sub, Real.cos_pi_div_four]
  have hn : Real.sin (-(3 * Real.pi / 4)) = -(Real.sqrt 2 / 2) := by
    rw [Real.sin_neg, show 3 * Real.pi / 4 = Real.pi - Real.pi / 4 by ring, Real.sin_pi_sub, Real.sin_pi_div_four]
  have hz : zeta ![0, r, 0] = (r : ℂ) * (Complex.cos ((-(3 * Real.pi / 4) : ℝ) : ℂ) + Complex.sin ((-(3 * Real.pi / 4) : ℝ) : ℂ) * Complex.I) := by
    rw [← Complex.ofReal_cos, ← Complex.ofReal_sin, hc, hn]
    unfold zeta turn
    rw [hs]
    apply Complex.ext <;> simp <;> ring
  rw [hz]
  exact Complex.arg_mul_cos_add_sin_mul_I hr ⟨by linarith [Real.pi_pos], by linarith [Real.pi_pos]⟩

theorem edge_trig (lam : ℝ) :
    let u := (3 * lam - 1) * Real.pi / 4
    let th := 3 * Real.pi / 4
    Real.cos ((lam - 1) * th) = Real.sin u ∧ Real.sin ((lam - 1) * th) = -Real.cos u ∧
    Real.cos ((lam - 3) * th) = Real.cos u ∧ Real.sin ((lam - 3) * th) = Real.sin u := by
  intro u th
  have e1 : (lam - 1) * th = u - Real.pi / 2 := by simp only [u, th]; ring
  have e2 : (lam - 3) * th = u - 2 * Real.pi := by simp only [u, th]; ring
  rw [e1, e2, Real.cos_sub_pi_div_two, Real.sin_sub_pi_div_two, Real.cos_sub_two_pi, Real.sin_sub_two_pi]
  exact ⟨rfl, rfl, rfl, rfl⟩

/-- C51 (L-shaped domain): on both edges that meet in the re-entrant corner the traction vanishes up to 1e-9 of the local stress level
`F0 r^(λ-1)`; the nine-digit constants of the program leave no more than that. -/
theorem C51_lshape_free_edges (F0 nu : ℝ) {a r : ℝ} (ha : 0 < a) (hr : a / 10 ^ 32 < r) :
    let level := |F0| * r ^ ((544483737 : ℝ) / 10 ^ 9 - 1)
    |lshape a F0 nu ![r, 0, 0] 1 1| ≤ level / 10 ^ 9 ∧ |lshape a F0 nu ![r, 0, 0] 0 1| ≤ level / 10 ^ 9 ∧
    |lshape a F0 nu ![0, r, 0] 0 0| ≤ level / 10 ^ 9 ∧ |lshape a F0 nu ![0, r, 0] 0 1| ≤ level / 10 ^ 9 := by
  intro level
  have h0 : 0 < r := lt_trans (by positivity) hr
  have hsq : (a / 10 ^ 32) ^ 2 < r ^ 2 := by
    have : 0 < a / 10 ^ 32 := by positivity
    nlinarith
  obtain ⟨-, hx2, hx3⟩ := lshape_polar (544483737 / 10 ^ 9) (543075579 / 10 ^ 9) F0 nu ha (p := ![r, 0, 0]) (by simpa using hsq)
  obtain ⟨hy1, -, hy3⟩ := lshape_polar (544483737 / 10 ^ 9) (543075579 / 10 ^ 9) F0 nu ha (p := ![0, r, 0]) (by simpa using hsq)
  have r1 : hypot r 0 = r := by simp [hypot, Real.sqrt_mul_self h0.le]
  have r2 : hypot 0 r = r := by simp [hypot, Real.sqrt_mul_self h0.le]
  obtain ⟨t1, t2, t3, t4⟩ := edge_trig (544483737 / 10 ^ 9)
  have hneg : ∀ k : ℝ, k * -(3 * Real.pi / 4) = -(k * (3 * Real.pi / 4)) := by intro k; ring
  simp only [arg_edge_x h0, arg_edge_y h0, hneg, Real.cos_neg, Real.sin_neg, t1, t2, t3, t4] at hx2 hx3 hy1 hy3
  change lshapeWith _ _ _ _ _ _ _ _ = F0 * _ * hypot r 0 ^ _ * _ at hx2
  change lshapeWith _ _ _ _ _ _ _ _ = -(F0 * _ * hypot r 0 ^ _ * _) at hx3
  change lshapeWith _ _ _ _ _ _ _ _ = F0 * _ * hypot 0 r ^ _ * _ at hy1
  change lshapeWith _ _ _ _ _ _ _ _ = -(F0 * _ * hypot 0 r ^ _ * _) at hy3
  rw [r1] at hx2 hx3
  rw [r2] at hy1 hy3
  change lshapeWith _ _ _ _ _ _ _ _ = F0 * _ * r ^ _ * (2 * Real.sin edgeAngle + _ * _ * -Real.cos edgeAngle + _ * Real.sin edgeAngle) at hx2
  change lshapeWith _ _ _ _ _ _ _ _ = -(F0 * _ * r ^ _ * (_ * _ * Real.sin edgeAngle + _ * Real.cos edgeAngle)) at hx3
  change lshapeWith _ _ _ _ _ _ _ _ = F0 * _ * r ^ _ * (2 * Real.sin edgeAngle - _ * _ * -(-Real.cos edgeAngle) - _ * -(Real.sin edgeAngle)) at hy1
  change lshapeWith _ _ _ _ _ _ _ _ = -(F0 * _ * r ^ _ * (_ * _ * Real.sin edgeAngle + _ * Real.cos edgeAngle)) at hy3
  obtain ⟨g1, g2⟩ := edge_residual
  have hpow : 0 ≤ r ^ ((544483737 : ℝ) / 10 ^ 9 - 1) := Real.rpow_nonneg h0.le _
  generalize hR : r ^ ((544483737 : ℝ) / 10 ^ 9 - 1) = R at *
  have hl : level = |F0| * R := by simp only [level, hR]
  clear_value level
  subst hl
  have key1 : |F0 * (544483737 / 10 ^ 9) * R * ((544483737 / 10 ^ 9 + 1) * (Real.sin edgeAngle - 543075579 / 10 ^ 9 * Real.cos edgeAngle))| ≤ |F0| * R / 10 ^ 9 := by
    rw [abs_mul, abs_mul, abs_mul, abs_mul, abs_of_nonneg hpow, abs_of_pos (by norm_num : (0 : ℝ) < 544483737 / 10 ^ 9),
      abs_of_pos (by norm_num : (0 : ℝ) < 544483737 / 10 ^ 9 + 1)]
    calc |F0| * (544483737 / 10 ^ 9) * R * ((544483737 / 10 ^ 9 + 1) * |Real.sin edgeAngle - 543075579 / 10 ^ 9 * Real.cos edgeAngle|)
        ≤ |F0| * (544483737 / 10 ^ 9) * R * ((544483737 / 10 ^ 9 + 1) * (6 / 10 ^ 10)) := by gcongr
      _ = |F0| * R * ((544483737 / 10 ^ 9) * ((544483737 / 10 ^ 9 + 1) * (6 / 10 ^ 10))) := by ring
      _ ≤ |F0| * R * (1 / 10 ^ 9) := by
        refine mul_le_mul_of_nonneg_left (by norm_num) (by positivity)
      _ = _ := by ring
  have key2 : |-(F0 * (544483737 / 10 ^ 9) * R * (543075579 / 10 ^ 9 * (544483737 / 10 ^ 9 + 1) * Real.sin edgeAngle +
      (544483737 / 10 ^ 9 - 1) * Real.cos edgeAngle))| ≤ |F0| * R / 10 ^ 9 := by
    rw [abs_neg, abs_mul, abs_mul, abs_mul, abs_of_nonneg hpow, abs_of_pos (by norm_num : (0 : ℝ) < 544483737 / 10 ^ 9)]
    calc |F0| * (544483737 / 10 ^ 9) * R * |543075579 / 10 ^ 9 * (544483737 / 10 ^ 9 + 1) * Real.sin edgeAngle + (544483737 / 10 ^ 9 - 1) * Real.cos edgeAngle|
        ≤ |F0| * (544483737 / 10 ^ 9) * R * (9 / 10 ^ 10) := by gcongr
      _ = |F0| * R * ((544483737 / 10 ^ 9) * (9 / 10 ^ 10)) := by ring
      _ ≤ |F0| * R * (1 / 10 ^ 9) := by
        refine mul_le_mul_of_nonneg_left (by norm_num) (by positivity)
      _ = _ := by ring
  unfold lshape
  rw [hx2, hx3, hy1, hy3]
  refine ⟨le_trans (le_of_eq ?_) key1, key2, le_trans (le_of_eq ?_) key1, key2⟩
  · congr 1; ring
  · congr 1; ring

example : (1 : ℝ) / 10 ^ 32 < 1 := by norm_num

end Verif.Analytic
