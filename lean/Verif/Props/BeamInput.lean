/-
C99: cross sections, tables and materials of bars, cables and beams.
-/
import Verif.Model.BeamInput
import Mathlib.Analysis.SpecialFunctions.Integrals.Basic
import Mathlib.Tactic.Linarith
import Mathlib.Tactic.NormNum
import Mathlib.Tactic.FieldSimp
import Mathlib.Tactic.Ring

set_option linter.unusedSectionVars false
set_option linter.unusedSimpArgs false
set_option linter.unusedVariables false
set_option linter.unusedTactic false
set_option linter.unreachableTactic false

namespace Verif.BeamInput

/-! ### Pipes -/

/-- C99: a pipe of radius R and wall thickness t has the area and the second moment of area of the ring, given by integrals over the radius; the radius may be given by the diameter. -/
theorem C99_pipe (a : Att) (R t : ℝ) (hR : a "R" = some R ∨ (a "R" = none ∧ a "D" = some (2 * R))) (ht : a "t" = some t) (h : t < R) :
    parsePipe a = some (∫ s in (R - t)..R, 2 * Real.pi * s, ∫ s in (R - t)..R, Real.pi * s ^ 3, 2) := by
  have e1 : (∫ s in (R - t)..R, 2 * Real.pi * s) = Real.pi * (R * R - (R - t) * (R - t)) := by
    rw [intervalIntegral.integral_const_mul, integral_id]; ring
  have e2 : (∫ s in (R - t)..R, Real.pi * s ^ 3) = Real.pi * (R * R * (R * R) - (R - t) * (R - t) * ((R - t) * (R - t))) * (1 / 4) := by
    rw [intervalIntegral.integral_const_mul, integral_pow]; norm_num; ring
  have e3 : (R - t) * (R - t) > 0 := by have : 0 < R - t := by linarith
                                        exact mul_pos this this
  rw [e1, e2]
  rcases hR with hR | ⟨hR, hD⟩
  · simp only [parsePipe, hR, ht, Option.some_or, Option.map_some, if_pos e3]
  · have : 1 / 2 * (2 * R) = R := by ring
    simp only [parsePipe, hR, hD, ht, Option.none_or, Option.map_some, this, if_pos e3]

/-- C99: a circular bar has the area and second moment of area of the disk and the shear factor 10/9. -/
theorem C99_disk (a : Att) (R : ℝ) (hR : a "R" = some R ∨ (a "R" = none ∧ a "D" = some (2 * R))) (ht : a "t" = none) :
    parsePipe a = some (∫ s in (0 : ℝ)..R, 2 * Real.pi * s, ∫ s in (0 : ℝ)..R, Real.pi * s ^ 3, 10 / 9) := by
  have e1 : (∫ s in (0 : ℝ)..R, 2 * Real.pi * s) = Real.pi * (R * R - 0) := by
    rw [intervalIntegral.integral_const_mul, integral_id]; ring
  have e2 : (∫ s in (0 : ℝ)..R, Real.pi * s ^ 3) = Real.pi * (R * R * (R * R) - 0 * 0) * (1 / 4) := by
    rw [intervalIntegral.integral_const_mul, integral_pow]; norm_num; ring
  have e4 : (1 : ℝ) / (9 / 10) = 10 / 9 := by norm_num
  rw [e1, e2]
  rcases hR with hR | ⟨hR, hD⟩
  · simp only [parsePipe, hR, ht, Option.some_or, Option.map_some, gt_iff_lt, lt_irrefl, if_false, e4]
  · have : 1 / 2 * (2 * R) = R := by ring
    simp only [parsePipe, hR, hD, ht, Option.none_or, Option.map_some, this, gt_iff_lt, lt_irrefl, if_false, e4]

/-- C99 fails for walls that are thicker than the radius: a hole of the radius t - R is left, and the area vanishes for t = 2R. -/
theorem C99_pipe_violated (a : Att) (R : ℝ) (hR : a "R" = some R) (ht : a "t" = some (2 * R)) (h0 : 0 < R) :
    parsePipe a = some (0, 0, 2) := by
  have e3 : (R - 2 * R) * (R - 2 * R) > 0 := by nlinarith
  simp only [parsePipe, hR, ht, Option.some_or, Option.map_some, if_pos e3]
  congr 2
  · ring
  · congr 1; ring

example : (fun n : String => if n = "R" then some (1 : ℝ) else if n = "t" then some (1 / 10) else none) "t" = some (1 / 10) ∧ (1 / 10 : ℝ) < 1 := by
  refine ⟨by simp, by norm_num⟩

/-- C99: no radius and diameter, no pipe. -/
theorem C99_no_pipe (a : Att) (hR : a "R" = none) (hD : a "D" = none) : parsePipe a = none := by
  simp [parsePipe, hR, hD]

/-! ### Boxes -/

/-- C99: a box with height H and width B and walls of thickness t1 (top and bottom) and t2 (sides) has the area and the second moments of area of the outer minus the inner rectangle, as
integrals over height and width, the torsional constant of Bredt's formula 4 A² / ∮ ds/t for the centre line of the walls, and shear factors such that the areas A / K are those of the two
walls parallel to the force. -/
theorem C99_box (a : Att) (H B t1 t2 : ℝ) (hH : a "H" = some H) (hB : a "B" = some B) (ht : a "t" = some t1 ∨ (a "t" = none ∧ a "t1" = some t1))
    (ht2 : a "t2" = some t2) (h1 : 0 < t1) (h2 : 0 < t2) (h3 : 2 * t1 < H) (h4 : 2 * t2 < B) :
    ∃ b, parseBox a = some b ∧
      b.A = (∫ z in (-(H / 2))..(H / 2), B) - (∫ z in (-(H / 2 - t1))..(H / 2 - t1), (B - 2 * t2)) ∧
      b.I1 = (∫ z in (-(H / 2))..(H / 2), B * z ^ 2) - (∫ z in (-(H / 2 - t1))..(H / 2 - t1), (B - 2 * t2) * z ^ 2) ∧
      b.I2 = (∫ y in (-(B / 2))..(B / 2), H * y ^ 2) - (∫ y in (-(B / 2 - t2))..(B / 2 - t2), (H - 2 * t1) * y ^ 2) ∧
      b.J = 4 * ((B - t2) * (H - t1)) ^ 2 / (2 * (B - t2) / t1 + 2 * (H - t1) / t2) ∧
      b.A / b.K1 = 2 * ((B - 2 * t2) * t1) ∧ b.A / b.K2 = 2 * ((H - 2 * t1) * t2) := by
  have e : parseBox a = some (hollowBox H B t1 t2) := by
    rcases ht with ht | ⟨hn, ht⟩
    · simp only [parseBox, attr, hH, hB, ht, ht2, Option.map_some, Option.some_or, Option.getD_some]
    · simp only [parseBox, attr, hH, hB, hn, ht, ht2, Option.map_some, Option.none_or, Option.getD_some]
  have p1 : 0 < B - 2 * t2 := by linarith
  have p2 : 0 < H - 2 * t1 := by linarith
  have p3 : 0 < B - t2 := by linarith
  have p4 : 0 < H - t1 := by linarith
  have pA : 0 < B * H - (B - 2 * t2) * (H - 2 * t1) := by nlinarith [mul_pos h1 p1, mul_pos h2 p2, mul_pos h1 h2]
  refine ⟨_, e, ?_, ?_, ?_, ?_, ?_, ?_⟩
  · simp only [hollowBox, intervalIntegral.integral_const, smul_eq_mul]; ring
  · simp only [hollowBox, intervalIntegral.integral_const_mul, integral_pow]; norm_num; ring
  · simp only [hollowBox, intervalIntegral.integral_const_mul, integral_pow]; norm_num; ring
  · simp only [hollowBox]
    have q : 0 < (B - t2) * t2 + (H - t1) * t1 := by positivity
    have q2 : B * t2 + H * t1 - t2 * t2 - t1 * t1 = (B - t2) * t2 + (H - t1) * t1 := by ring
    have q3 : 2 * (B - t2) / t1 + 2 * (H - t1) / t2 = 2 * ((B - t2) * t2 + (H - t1) * t1) / (t1 * t2) := by
      field_simp
    rw [q2, q3]
    field_simp
    ring
  · simp only [hollowBox]
    have q : B * H - (B - 2 * t2) * (H - 2 * t1) ≠ 0 := pA.ne'
    field_simp
  · simp only [hollowBox]
    have q : B * H - (B - 2 * t2) * (H - 2 * t1) ≠ 0 := pA.ne'
    field_simp

/-- C99: without the second thickness all walls are alike, and without the width the box is square. -/
theorem C99_box_defaults (a : Att) (H t1 : ℝ) (hH : a "H" = some H) (ht : a "t" = some t1) (ht2 : a "t2" = none) (hB : a "B" = none) :
    parseBox a = parseBox (fun n => if n = "t2" then some t1 else if n = "B" then some H else a n) := by
  simp [parseBox, attr, hH, ht, ht2, hB]

/-- C99: a rectangle has the area and the second moments of area of integrals over height and width, the shear factor 6/5, and the torsional constant of Roark's formula for the long side b and
the short side h, which does not depend on the order of the sides. -/
theorem C99_rectangle (a : Att) (H B : ℝ) (hH : a "H" = some H) (hB : a "B" = some B) (ht : a "t" = none) (ht1 : a "t1" = none) (h1 : 0 < H) (h2 : 0 < B) :
    ∃ s, parseBox a = some s ∧
      s.A = (∫ z in (-(H / 2))..(H / 2), B) ∧
      s.I1 = (∫ z in (-(H / 2))..(H / 2), B * z ^ 2) ∧
      s.I2 = (∫ y in (-(B / 2))..(B / 2), H * y ^ 2) ∧
      s.J = (let b := max H B; let h := min H B; b * h ^ 3 * (1 / 3 - 21 / 100 * (h / b) * (1 - h ^ 4 / (12 * b ^ 4)))) ∧
      s.K1 = 6 / 5 ∧ s.K2 = 6 / 5 := by
  have e : parseBox a = some (solidBox H B) := by
    simp only [parseBox, attr, hH, hB, ht, ht1, Option.map_some, Option.none_or, Option.getD_some]
  refine ⟨_, e, ?_, ?_, ?_, ?_, ?_, ?_⟩
  · simp only [solidBox, intervalIntegral.integral_const, smul_eq_mul]; ring
  · simp only [solidBox, intervalIntegral.integral_const_mul, integral_pow]; norm_num; ring
  · simp only [solidBox, intervalIntegral.integral_const_mul, integral_pow]; norm_num; ring
  · by_cases h : H > B
    · simp only [solidBox, if_pos h, max_eq_left h.le, min_eq_right h.le]
      field_simp
      ring
    · have h' : H ≤ B := not_lt.mp h
      simp only [solidBox, if_neg h, max_eq_right h', min_eq_left h']
      field_simp
      ring
  · simp only [solidBox]; norm_num
  · simp only [solidBox]; norm_num

/-- C99: the torsional constant of a rectangle is positive and at most the polar moment of area. -/
theorem C99_torsion_bound (H B : ℝ) (h1 : 0 < H) (h2 : 0 < B) : 0 < (solidBox H B).J ∧ (solidBox H B).J ≤ (solidBox H B).I1 + (solidBox H B).I2 := by
  have key : ∀ b h : ℝ, 0 < h → h ≤ b →
      0 < b * h * h * h * (1 - 63 / 100 * (h / b) * (1 - (h / b) ^ 4 / 12)) / 3 ∧
      b * h * h * h * (1 - 63 / 100 * (h / b) * (1 - (h / b) ^ 4 / 12)) / 3 ≤ b * h * h * h / 12 + h * b * b * b / 12 := by
    intro b h hh hb
    have pb : 0 < b := lt_of_lt_of_le hh hb
    obtain ⟨r, hr⟩ : ∃ r, r = h / b := ⟨_, rfl⟩
    have hhr : h = r * b := by rw [hr]; field_simp
    have r0 : 0 < r := by rw [hr]; positivity
    have r1 : r ≤ 1 := by rw [hr]; exact (div_le_one pb).mpr hb
    have r4 : r ^ 4 ≤ 1 := pow_le_one₀ r0.le r1
    have r4p : 0 < r ^ 4 := by positivity
    rw [← hr]
    refine ⟨?_, ?_⟩
    · have : 0 < 1 - 63 / 100 * r * (1 - r ^ 4 / 12) := by nlinarith
      positivity
    · have e1 : b * h * h * h / 12 + h * b * b * b / 12 - b * h * h * h * (1 - 63 / 100 * r * (1 - r ^ 4 / 12)) / 3
          = b ^ 4 * r / 12 * (1 - 3 * r ^ 2 + 252 / 100 * r ^ 3 - 21 / 100 * (r ^ 4 * r ^ 3)) := by
        rw [hhr]; ring
      have r3 : r ^ 4 * r ^ 3 ≤ r ^ 3 := by have : 0 < r ^ 3 := by positivity
                                            nlinarith
      have c : 0 ≤ 1 - 3 * r ^ 2 + 231 / 100 * r ^ 3 := by nlinarith [mul_nonneg r0.le (sq_nonneg (r - 13 / 15)), sq_nonneg (r - 13 / 15)]
      have : 0 ≤ b ^ 4 * r / 12 * (1 - 3 * r ^ 2 + 252 / 100 * r ^ 3 - 21 / 100 * (r ^ 4 * r ^ 3)) :=
        mul_nonneg (by positivity) (by nlinarith)
      linarith
  by_cases h : H > B
  · have := key H B h2 h.le
    simp only [solidBox, if_pos h]
    exact ⟨this.1, by linarith [this.2]⟩
  · have := key B H h1 (not_lt.mp h)
    simp only [solidBox, if_neg h]
    exact this

/-- C99: exchanging height and width, and the thicknesses, exchanges the two directions and keeps area and torsional constant. -/
theorem C99_box_exchange (H B t1 t2 : ℝ) :
    (hollowBox B H t2 t1).A = (hollowBox H B t1 t2).A ∧ (hollowBox B H t2 t1).I1 = (hollowBox H B t1 t2).I2 ∧ (hollowBox B H t2 t1).I2 = (hollowBox H B t1 t2).I1 ∧
    (hollowBox B H t2 t1).J = (hollowBox H B t1 t2).J ∧ (hollowBox B H t2 t1).K1 = (hollowBox H B t1 t2).K2 ∧ (hollowBox B H t2 t1).K2 = (hollowBox H B t1 t2).K1 ∧
    (solidBox B H).A = (solidBox H B).A ∧ (solidBox B H).I1 = (solidBox H B).I2 ∧ (solidBox B H).J = (solidBox H B).J := by
  have hA : H * B - (H - 2 * t1) * (B - 2 * t2) = B * H - (B - 2 * t2) * (H - 2 * t1) := by ring
  refine ⟨?_, ?_, ?_, ?_, ?_, ?_, ?_, ?_, ?_⟩
  · simp only [hollowBox]; ring
  · simp only [hollowBox]
  · simp only [hollowBox]
  · simp only [hollowBox]
    have : H * t1 + B * t2 - t1 * t1 - t2 * t2 = B * t2 + H * t1 - t2 * t2 - t1 * t1 := by ring
    rw [this]
    congr 1
    ring
  · simp only [hollowBox, hA]
  · simp only [hollowBox, hA]
  · simp only [solidBox]; ring
  · simp only [solidBox]
  · rcases lt_trichotomy H B with h | h | h
    · simp only [solidBox, if_pos h, if_neg (not_lt.mpr h.le), gt_iff_lt]
    · subst h; rfl
    · simp only [solidBox, if_pos h, if_neg (not_lt.mpr h.le), gt_iff_lt]

/-- C99 fails for boxes whose walls fill the section more than once: the area may vanish. -/
theorem C99_box_violated (a : Att) (H : ℝ) (hH : a "H" = some H) (hB : a "B" = none) (ht : a "t" = some H) (ht2 : a "t2" = none) :
    ∃ b, parseBox a = some b ∧ b.A = 0 ∧ b.I1 = 0 ∧ b.I2 = 0 := by
  refine ⟨hollowBox H H H H, by simp [parseBox, attr, hH, hB, ht, ht2], ?_, ?_, ?_⟩ <;> simp only [hollowBox] <;> ring

/-! ### Cross sections -/

/-- C99: a pipe has equal properties in both directions, and twice the second moment of area as torsional constant and polar moment. -/
theorem C99_pipe_section (a : Att) (s : Sec) (A I k : ℝ) (h : parsePipe a = some (A, I, k))
    (hn : ∀ n ∈ ["A", "Ix", "Iy", "Iz", "It", "Sy", "Sz", "Ky", "Kz"], a n = none) :
    (parseSec a s).A = A ∧ (parseSec a s).Iy = I ∧ (parseSec a s).Iz = I ∧ (parseSec a s).It = 2 * I ∧ (parseSec a s).Ix = 2 * I ∧
    (parseSec a s).Ky = k ∧ (parseSec a s).Kz = k ∧ (parseSec a s).Sy = s.Sy ∧ (parseSec a s).Sz = s.Sz := by
  simp only [List.mem_cons, List.not_mem_nil, or_false, forall_eq_or_imp, forall_eq] at hn
  obtain ⟨n1, n2, n3, n4, n5, n6, n7, n8, n9⟩ := hn
  simp only [parseSec, parseShape, h, attr, n1, n2, n3, n4, n5, n6, n7, n8, n9, Option.getD_none, true_and, and_true]
  exact ⟨by ring, by ring⟩

/-- C99: a box is used if there is no pipe, with the height in the direction of the local z-axis. -/
theorem C99_box_section (a : Att) (s : Sec) (b : Box) (hp : parsePipe a = none) (h : parseBox a = some b)
    (hn : ∀ n ∈ ["A", "Ix", "Iy", "Iz", "It", "Sy", "Sz", "Ky", "Kz"], a n = none) :
    (parseSec a s).A = b.A ∧ (parseSec a s).Iy = b.I1 ∧ (parseSec a s).Iz = b.I2 ∧ (parseSec a s).It = b.J ∧ (parseSec a s).Ix = b.I1 + b.I2 ∧
    (parseSec a s).Ky = b.K1 ∧ (parseSec a s).Kz = b.K2 ∧ (parseSec a s).Sy = s.Sy ∧ (parseSec a s).Sz = s.Sz := by
  simp only [List.mem_cons, List.not_mem_nil, or_false, forall_eq_or_imp, forall_eq] at hn
  obtain ⟨n1, n2, n3, n4, n5, n6, n7, n8, n9⟩ := hn
  simp only [parseSec, parseShape, hp, h, attr, n1, n2, n3, n4, n5, n6, n7, n8, n9, Option.getD_none, true_and, and_true]

/-- C99: every given property takes precedence over the shape and the default value. -/
theorem C99_override (a : Att) (s : Sec) (v : ℝ) :
    (a "A" = some v → (parseSec a s).A = v) ∧ (a "Ix" = some v → (parseSec a s).Ix = v) ∧ (a "Iy" = some v → (parseSec a s).Iy = v) ∧
    (a "Iz" = some v → (parseSec a s).Iz = v) ∧ (a "It" = some v → (parseSec a s).It = v) ∧ (a "Sy" = some v → (parseSec a s).Sy = v) ∧
    (a "Sz" = some v → (parseSec a s).Sz = v) ∧ (a "Ky" = some v → (parseSec a s).Ky = v) ∧ (a "Kz" = some v → (parseSec a s).Kz = v) := by
  refine ⟨?_, ?_, ?_, ?_, ?_, ?_, ?_, ?_, ?_⟩ <;> intro h <;> simp only [parseSec, attr, h, Option.getD_some]

/-- C99: without shape and properties the default values are used. -/
theorem C99_default (a : Att) (hn : ∀ n, a n = none) :
    parseSec a defSec = ⟨1 / 10, 1 / 500, 1 / 1000, 1 / 1000, 1 / 500, 0, 0, 0, 0, 0⟩ := by
  simp only [parseSec, parseShape, parsePipe, parseBox, attr, hn, Option.none_or, Option.map_none, Option.getD_none, defSec]
  norm_num

/-- C99, partial: the polar moment of area is the sum of the second moments as long as they are not given one by one. -/
theorem C99_polar_partial (a : Att) (h1 : a "Ix" = none) (h2 : a "Iy" = none) (h3 : a "Iz" = none) :
    (parseSec a defSec).Ix = (parseSec a defSec).Iy + (parseSec a defSec).Iz := by
  simp only [parseSec, attr, h1, h2, h3, Option.getD_none]
  unfold parseShape
  cases hp : parsePipe a with
  | some p => obtain ⟨A, I, k⟩ := p; simp only; ring
  | none => cases hb : parseBox a with
    | some b => simp only
    | none => simp only [defSec]; norm_num

/-- C99 fails for second moments given by attributes: the polar moment of area, used for the mass, and the torsional constant keep their default values. -/
theorem C99_polar_violated (a : Att) (y z : ℝ) (hy : a "Iy" = some y) (hz : a "Iz" = some z) (hn : ∀ n, n ≠ "Iy" → n ≠ "Iz" → a n = none) :
    (parseSec a defSec).Iy = y ∧ (parseSec a defSec).Iz = z ∧ (parseSec a defSec).Ix = 1 / 500 ∧ (parseSec a defSec).It = 1 / 500 := by
  have e := fun n h1 h2 => hn n h1 h2
  simp only [parseSec, parseShape, parsePipe, parseBox, attr, hy, hz, e "R" (by decide) (by decide), e "D" (by decide) (by decide), e "H" (by decide) (by decide),
    e "A" (by decide) (by decide), e "Ix" (by decide) (by decide), e "It" (by decide) (by decide), Option.none_or, Option.map_none, Option.getD_none, Option.getD_some, defSec]
  norm_num

example : ∃ a : Att, a "Iy" = some 3 ∧ a "Iz" = some 4 ∧ ∀ n, n ≠ "Iy" → n ≠ "Iz" → a n = none :=
  ⟨fun n => if n = "Iy" then some 3 else if n = "Iz" then some 4 else none, by simp, by simp, by intro n h1 h2; simp [h1, h2]⟩

/-- C99: a list of values gives the properties in the order A, Iy, Iz, It, Ky, Kz, Sy, Sz, phi, and the polar moment Iy + Iz; missing values at the end keep the earlier values. -/
theorem C99_constant (s : Sec) (A Iy Iz It Ky Kz Sy Sz phi : ℝ) (n : Nat) :
    setConstant [A, Iy, Iz, It, Ky, Kz, Sy, Sz, phi] s = ⟨A, Iy + Iz, Iy, Iz, It, Ky, Kz, Sy, Sz, phi⟩ ∧
    setConstant [A, Iy, Iz, It, Ky, Kz] s = ⟨A, Iy + Iz, Iy, Iz, It, Ky, Kz, s.Sy, s.Sz, s.phi⟩ ∧
    setConstant [A, Iy, Iz, It] s = ⟨A, Iy + Iz, Iy, Iz, It, s.Ky, s.Kz, s.Sy, s.Sz, s.phi⟩ ∧
    setConstant [A, Iy, Iz] s = ⟨A, Iy + Iz, Iy, Iz, s.It, s.Ky, s.Kz, s.Sy, s.Sz, s.phi⟩ ∧
    setConstant [A] s = ⟨A, s.Ix, s.Iy, s.Iz, s.It, s.Ky, s.Kz, s.Sy, s.Sz, s.phi⟩ ∧
    setConstant [] s = s := by
  refine ⟨rfl, rfl, rfl, rfl, rfl, rfl⟩

/-- C99 fails for lists of two values: the polar moment does not follow. -/
theorem C99_constant_violated (s : Sec) (A Iy : ℝ) : (setConstant [A, Iy] s).Iy = Iy ∧ (setConstant [A, Iy] s).Ix = s.Ix := ⟨rfl, rfl⟩

/-! ### Tables -/

/-- A text of a field. -/
def Field' (f : List Char) : Prop := f ≠ [] ∧ ',' ∉ f

theorem tokens_single : ∀ f : List Char, Field' f → tokens f = [f]
  | [], h => absurd rfl h.1
  | [c], h => by
    have : c ≠ ',' := fun e => h.2 (by simp [e])
    simp [tokens, this]
  | c :: d :: t, h => by
    have h1 : c ≠ ',' := fun e => h.2 (by simp [e])
    have h2 : d ≠ ',' := fun e => h.2 (by simp [e])
    have ih := tokens_single (d :: t) ⟨by simp, fun e => h.2 (List.mem_cons_of_mem _ e)⟩
    rw [tokens, if_neg h1]
    simp only [if_neg h2, ih]

theorem tokens_comma (r : List Char) : tokens (',' :: r) = tokens r := by
  rw [tokens.eq_def]; simp

theorem tokens_field : ∀ (f : List Char) (rest : List Char), Field' f → tokens (f ++ ',' :: rest) = f :: tokens rest
  | [], _, h => absurd rfl h.1
  | [c], rest, h => by
    have : c ≠ ',' := fun e => h.2 (by simp [e])
    show tokens (c :: ',' :: rest) = _
    rw [tokens, if_neg this]
    simp only [if_true]
    rw [tokens_comma]
  | c :: d :: t, rest, h => by
    have h1 : c ≠ ',' := fun e => h.2 (by simp [e])
    have h2 : d ≠ ',' := fun e => h.2 (by simp [e])
    have ih := tokens_field (d :: t) rest ⟨by simp, fun e => h.2 (List.mem_cons_of_mem _ e)⟩
    show tokens (c :: (d :: (t ++ ',' :: rest))) = _
    rw [tokens, if_neg h1]
    simp only [if_neg h2]
    have : tokens (d :: (t ++ ',' :: rest)) = (d :: t) :: tokens rest := ih
    rw [this]

/-- The text of a line with the given fields. -/
def text : List (List Char) → List Char
  | [] => []
  | [f] => f
  | f :: g :: fs => f ++ ',' :: text (g :: fs)

theorem tokens_text : ∀ fs : List (List Char), (∀ f ∈ fs, Field' f) → tokens (text fs) = fs
  | [], _ => rfl
  | [f], h => tokens_single f (h f (by simp))
  | f :: g :: fs, h => by
    rw [text, tokens_field f _ (h f (by simp)), tokens_text (g :: fs) (fun x hx => h x (List.mem_cons_of_mem _ hx))]

theorem text_hash (d : List Char) (fs : List (List Char)) : '#' :: text (d :: fs) = text (('#' :: d) :: fs) := by
  cases fs with
  | nil => rfl
  | cons g fs => rfl

/-- A well-formed line: description, label, unit and values. -/
structure Line where
  descr : List Char
  label : List Char
  unit : List Char
  values : List (List Char)

/-- The fields are not empty and without commas; the description may be empty. -/
def Line.ok (l : Line) : Prop := ',' ∉ l.descr ∧ Field' l.label ∧ Field' l.unit ∧ ∀ v ∈ l.values, Field' v

/-- The text of a line. -/
def Line.text (l : Line) : List Char := BeamInput.text (l.descr :: l.label :: l.unit :: l.values)

section
variable {K : Type} [Field K]

/-- C99: the fields of a line are description, label, unit and values, which are converted to meters according to the unit. -/
theorem C99_csv_line (atof : List Char → K) (l : Line) (h : l.ok) :
    readLine atof l.text = .ok ⟨l.descr, l.label, l.unit, l.values.map fun v => atof v * (10 : K) ^ unitExp l.unit⟩ := by
  obtain ⟨h1, h2, h3, h4⟩ := h
  have e : tokens ('#' :: l.text) = ('#' :: l.descr) :: l.label :: l.unit :: l.values := by
    rw [Line.text, text_hash]
    apply tokens_text
    intro f hf
    simp only [List.mem_cons] at hf
    rcases hf with rfl | rfl | rfl | hf
    · exact ⟨by simp, fun e => by
        rcases List.mem_cons.mp e with e | e
        · exact absurd e (by decide)
        · exact h1 e⟩
    · exact h2
    · exact h3
    · exact h4 f hf
  rw [readLine, e]
  rfl

/-- C99: the factors of the units cm and mm to the powers one to four; other units have the factor one. -/
theorem C99_csv_units :
    unitExp "[cm]".toList = -2 ∧ unitExp "[cm2]".toList = 2 * -2 ∧ unitExp "[cm3]".toList = 3 * -2 ∧ unitExp "[cm4]".toList = 4 * -2 ∧
    unitExp "[mm]".toList = -3 ∧ unitExp "[mm2]".toList = 2 * -3 ∧ unitExp "[mm3]".toList = 3 * -3 ∧ unitExp "[mm4]".toList = 4 * -3 ∧
    ∀ u : List Char, (∀ p ∈ ["[cm]", "[cm2]", "[cm3]", "[cm4]", "[mm]", "[mm2]", "[mm3]", "[mm4]"], u ≠ p.toList) → unitExp u = 0 := by
  refine ⟨by decide, by decide, by decide, by decide, by decide, by decide, by decide, by decide, ?_⟩
  intro u h
  simp only [List.mem_cons, List.not_mem_nil, or_false, forall_eq_or_imp, forall_eq] at h
  obtain ⟨h1, h2, h3, h4, h5, h6, h7, h8⟩ := h
  unfold unitExp
  rw [if_neg h1, if_neg h5, if_neg h2, if_neg h6, if_neg h3, if_neg h7, if_neg h4, if_neg h8]

theorem readLines_ok (atof : List Char → K) : ∀ (ls : List Line) (m : List Char → Option (DataLine K)), (∀ l ∈ ls, l.ok) →
    readLines atof m (ls.map Line.text) = .ok (fun key => (m key).or
      ((ls.find? fun l => decide (l.label = key)).map fun l => ⟨l.descr, l.label, l.unit, l.values.map fun v => atof v * (10 : K) ^ unitExp l.unit⟩))
  | [], m, _ => by simp [readLines]
  | l :: ls, m, h => by
    have e := C99_csv_line atof l (h l (by simp))
    rw [List.map_cons, readLines, e]
    simp only
    rw [readLines_ok atof ls _ (fun x hx => h x (List.mem_cons_of_mem _ hx))]
    congr 1
    funext key
    by_cases hk : l.label = key
    · subst hk
      rw [List.find?_cons_of_pos (by simp)]
      cases hm : m l.label with
      | none => simp [hm]
      | some d => simp [hm]
    · rw [List.find?_cons_of_neg (by simp [hk])]
      cases hm : m l.label with
      | none => simp [hm, Ne.symm hk, show key ≠ l.label from fun e => hk e.symm]
      | some d => simp [hm]

/-- The values of the first line with a label, in meters. -/
def valuesOf (atof : List Char → K) (ls : List Line) (key : String) : List K :=
  match ls.find? fun l => decide (l.label = key.toList) with
  | some l => l.values.map fun v => atof v * (10 : K) ^ unitExp l.unit
  | none => []

/-- C99: a table of well-formed lines gives the abscissas of the line x, and for each property the values of the first line with its label: Ax, Ay, Az, Ix, Iy, Iz, and ey and ez for the shear
centre. Without abscissas it is no table. -/
theorem C99_csv_table (atof : List Char → K) (ls : List Line) (h : ∀ l ∈ ls, l.ok) :
    (valuesOf atof ls "x" = [] → readCSV atof (ls.map Line.text) = .ok none) ∧
    (valuesOf atof ls "x" ≠ [] → ∃ f, readCSV atof (ls.map Line.text) = .ok (some (valuesOf atof ls "x", f)) ∧
      f "Ax" = valuesOf atof ls "Ax" ∧ f "Ay" = valuesOf atof ls "Ay" ∧ f "Az" = valuesOf atof ls "Az" ∧
      f "Ix" = valuesOf atof ls "Ix" ∧ f "Iy" = valuesOf atof ls "Iy" ∧ f "Iz" = valuesOf atof ls "Iz" ∧
      f "Sy" = valuesOf atof ls "ey" ∧ f "Sz" = valuesOf atof ls "ez") := by
  have e := readLines_ok atof ls (fun _ => none) h
  obtain ⟨m, hm⟩ : ∃ m, m = (fun key => ((none : Option (DataLine K))).or
      ((ls.find? fun l => decide (l.label = key)).map fun l => (⟨l.descr, l.label, l.unit, l.values.map fun v => atof v * (10 : K) ^ unitExp l.unit⟩ : DataLine K))) := ⟨_, rfl⟩
  rw [← hm] at e
  have g : ∀ key : String, getValues m key.toList = valuesOf atof ls key := by
    intro key
    simp only [getValues, valuesOf, hm, Option.none_or]
    cases ls.find? fun l => decide (l.label = key.toList) <;> rfl
  have gx : getValues m ['x'] = valuesOf atof ls "x" := g "x"
  refine ⟨?_, ?_⟩
  · intro hx
    rw [readCSV, e]
    simp only
    rw [gx, hx]
    simp
  · intro hx
    rw [readCSV, e]
    simp only
    rw [gx, if_neg hx]
    refine ⟨_, rfl, ?_⟩
    simp only [String.reduceEq, if_true, if_false]
    exact ⟨g "Ax", g "Ay", g "Az", g "Ix", g "Iy", g "Iz", g "ey", g "ez"⟩

/-- C99 fails for tables with an empty line, or a title line without commas: the program is aborted by an exception. -/
theorem C99_csv_blank_violated (atof : List Char → K) (ls : List Line) (h : ∀ l ∈ ls, l.ok) (title : List Char) (ht : ',' ∉ title) (rest : List (List Char)) :
    readCSV atof (ls.map Line.text ++ title :: rest) = .fail := by
  have key : ∀ (ls : List Line) (m : List Char → Option (DataLine K)), (∀ l ∈ ls, l.ok) → readLines atof m (ls.map Line.text ++ title :: rest) = .fail := by
    intro ls
    induction ls with
    | nil =>
      intro m _
      have e : tokens ('#' :: title) = ['#' :: title] := tokens_single _ ⟨by simp, fun e => by
        rcases List.mem_cons.mp e with e | e
        · exact absurd e (by decide)
        · exact ht e⟩
      simp only [List.map_nil, List.nil_append, readLines, readLine, e]
    | cons l ls ih =>
      intro m hl
      have e := C99_csv_line atof l (hl l (by simp))
      rw [List.map_cons, List.cons_append, readLines, e]
      exact ih _ (fun x hx => hl x (List.mem_cons_of_mem _ hx))
  rw [readCSV, key ls _ h]

/-- C99 fails for empty fields: they are skipped, and the following fields are taken for the ones before them. -/
theorem C99_csv_empty_field_violated (atof : List Char → K) (d u v : List Char) (vs : List (List Char)) (hd : ',' ∉ d) (hu : Field' u) (hv : Field' v)
    (hvs : ∀ x ∈ vs, Field' x) :
    readLine atof (d ++ ',' :: ',' :: text (u :: v :: vs)) = .ok ⟨d, u, v, vs.map fun x => atof x * (10 : K) ^ unitExp v⟩ := by
  have hd' : Field' ('#' :: d) := ⟨by simp, fun e => by
    rcases List.mem_cons.mp e with e | e
    · exact absurd e (by decide)
    · exact hd e⟩
  have e : tokens ('#' :: (d ++ ',' :: ',' :: text (u :: v :: vs))) = ('#' :: d) :: u :: v :: vs := by
    have := tokens_field ('#' :: d) (',' :: text (u :: v :: vs)) hd'
    rw [List.cons_append] at this
    rw [this]
    congr 1
    rw [tokens_comma]
    apply tokens_text
    intro f hf
    simp only [List.mem_cons] at hf
    rcases hf with rfl | rfl | hf
    · exact hu
    · exact hv
    · exact hvs f hf
  rw [readLine, e]
  rfl

end

example : (⟨"".toList, "x".toList, "[m]".toList, ["0".toList, "2.5".toList]⟩ : Line).ok := by
  refine ⟨by decide, ⟨by decide, by decide⟩, ⟨by decide, by decide⟩, ?_⟩
  intro v hv
  simp only [List.mem_cons, List.not_mem_nil, or_false] at hv
  rcases hv with rfl | rfl <;> exact ⟨by decide, by decide⟩

/-! ### Materials -/

/-- C99: the kind of the model is fixed by the first element, and elements of beams and of bars and cables exclude each other. -/
theorem C99_kind (k : Kind) (t : Option String) :
    integrand none .beam t = some .beam ∧ integrand none .bar none = some .bar ∧ integrand none .cable none = some .cable ∧
    integrand (some .beam) .beam t = some .beam ∧ integrand (some .beam) .bar t = none ∧ integrand (some .beam) .cable t = none ∧
    (k ≠ .beam → integrand (some k) .beam t = none ∧ integrand (some k) .bar t = some k ∧ integrand (some k) .cable t = some k) := by
  refine ⟨rfl, rfl, rfl, rfl, rfl, rfl, ?_⟩
  intro h
  simp [integrand, h]

/-- C99, partial: the stiffness of bars and cables is E A and the mass rho A with the given area, that of the pipe, or one. The bending stiffness of cables is E I. -/
theorem C99_bar_partial (a : Att) (tag : Kind) (E rho A : ℝ) (hE : a "E" = some E) (hr : a "rho" = some rho) (h1 : a "EA" = none) (h2 : a "rhoA" = none)
    (hA : a "A" = some A ∨ (a "A" = none ∧ ((∃ I k, parsePipe a = some (A, I, k)) ∨ (parsePipe a = none ∧ A = 1)))) (ht : tag ≠ .beam) :
    ∃ m, barMaterial tag tag a = .ok m ∧ m.EA = E * A ∧ m.rhoA = rho * A := by
  have hA' : attr a "A" (pipeA a) = A := by
    rcases hA with h | ⟨h, ⟨I, k, hp⟩ | ⟨hp, h1⟩⟩
    · simp [attr, h]
    · simp [attr, h, hp, pipeA]
    · simp [attr, h, hp, h1, pipeA]
  cases tag with
  | beam => exact absurd rfl ht
  | bar =>
    refine ⟨⟨E * A, none, rho * A⟩, ?_, rfl, rfl⟩
    simp only [barMaterial, h1, h2]
    rw [hA']
    simp [attr, hE, hr]
  | cable =>
    simp only [barMaterial, h1, h2, if_true]
    rw [hA']
    simp only [attr, hE, hr, Option.getD_some]
    exact ⟨_, rfl, rfl, rfl⟩

/-- C99: given stiffness and mass of bars and cables are used, and the bending stiffness of cables is the given one, or E I with the given second moment of area, that of the pipe, or zero. -/
theorem C99_cable (a : Att) (EA r : ℝ) (h1 : a "EA" = some EA) (h2 : a "rhoA" = some r) (hp : parsePipe a = none) :
    ∃ m, barMaterial .cable .cable a = .ok m ∧ m.EA = EA ∧ m.rhoA = r ∧
      (∀ EI, a "EI" = some EI → m.EI = some EI) ∧
      (∀ I, a "EI" = none → a "I" = some I → m.EI = some ((a "E").getD 210000000000 * I)) ∧
      (a "EI" = none → a "I" = none → m.EI = some 0) := by
  simp only [barMaterial, pipeA, pipeI, h1, h2, hp, if_true]
  refine ⟨_, rfl, rfl, by simp, ?_, ?_, ?_⟩
  · intro EI h; simp [h]
  · intro I h h'; simp [h, h', attr]
  · intro h h'; simp [h, h', attr]

/-- C99 fails for the mass of bars with given axial stiffness: the given area is ignored then. -/
theorem C99_bar_mass_violated (a : Att) (EA A rho : ℝ) (h1 : a "EA" = some EA) (hA : a "A" = some A) (hr : a "rho" = some rho) (h2 : a "rhoA" = none)
    (hp : parsePipe a = none) : barMaterial .bar .bar a = .ok ⟨EA, none, rho⟩ := by
  simp [barMaterial, pipeA, h1, hA, hr, h2, hp, attr]

/-- C99 fails for the given mass of bars without area, where it is ignored. -/
theorem C99_bar_area_violated (a : Att) (r : ℝ) (h1 : a "EA" = none) (hA : a "A" = some 0) (h2 : a "rhoA" = some r) :
    ∃ m, barMaterial .bar .bar a = .ok m ∧ m.rhoA = 0 := by
  simp only [barMaterial, h1, hA, h2, attr, Option.getD_some, lt_irrefl, gt_iff_lt, if_false, mul_zero]
  exact ⟨_, rfl, rfl⟩

/-- C99 fails for cable elements of another type, or after a bar element: the bar is used as a cable, which is undefined. A bar element of type cable leaves the bending stiffness of the cable
without a value. -/
theorem C99_cable_violated (a : Att) :
    (∀ t, t ≠ "cable" → integrand none .cable (some t) = some .bar) ∧ (∀ t, integrand (some .bar) .cable t = some .bar) ∧ barMaterial .cable .bar a = .ub ∧
    integrand none .bar (some "cable") = some .cable ∧ ∃ m, barMaterial .bar .cable a = .ok m ∧ m.EI = none := by
  refine ⟨?_, fun t => rfl, rfl, rfl, ?_⟩
  · intro t h; simp [integrand, h]
  · simp only [barMaterial, reduceCtorEq, if_false]
    exact ⟨_, rfl, rfl⟩

/-- C99: the shear modulus of beams is the given one, or follows from Poisson's ratio. -/
theorem C99_beam_material (a : Att) (E : ℝ) (hE : a "E" = some E) :
    (∀ G, a "G" = some G → (beamMaterial a).2.1 = G) ∧
    (∀ nu, a "G" = none → a "nu" = some nu → 0 ≤ nu → nu < 1 / 2 → (beamMaterial a).2.1 = E / (2 * (1 + nu))) ∧
    (a "G" = none → a "nu" = none → (beamMaterial a).2.1 = 81000000000) ∧
    (beamMaterial a).1 = E ∧ (beamMaterial a).2.2 = (a "rho").getD 7850 := by
  refine ⟨?_, ?_, ?_, ?_, rfl⟩
  · intro G h; simp only [beamMaterial, h]
  · intro nu h h' h0 h1
    have : 2 * (1 + nu) = nu + nu + 2 := by ring
    simp only [beamMaterial, h, h', attr, hE, Option.getD_some]
    rw [if_pos ⟨h0, h1⟩, this]
  · intro h h'; simp only [beamMaterial, h, h']
  · simp [beamMaterial, attr, hE]

/-- C99 fails for other values of Poisson's ratio, which are ignored without a message: the shear modulus is that of steel for all materials. -/
theorem C99_beam_material_violated (a : Att) (nu : ℝ) (h : a "G" = none) (h' : a "nu" = some nu) (hn : nu < 0 ∨ 1 / 2 ≤ nu) : (beamMaterial a).2.1 = 81000000000 := by
  simp only [beamMaterial, h, h']
  rw [if_neg]
  rintro ⟨h0, h1⟩
  rcases hn with hn | hn <;> linarith

/-- C99: the section of a property index is used for the following elements; an index without section keeps the one of the elements before. -/
theorem C99_sections {S : Type} (secs : List S) (old s : S) (i : Nat) :
    (secs[i]? = some s → initMaterial secs old i = s) ∧ (secs.length ≤ i → initMaterial secs old i = old) := by
  refine ⟨fun h => by simp [initMaterial, h], fun h => by simp [initMaterial, List.getElem?_eq_none h]⟩

/-- C99: the beam tag comes directly before every geometry tag, and the order of the other tags is kept. -/
theorem C99_tags (l : List String) (h : "beam" ∉ l) :
    (prioritizedTags l).filter (fun t => decide (t ≠ "beam")) = l ∧ ∀ p q, prioritizedTags l = p ++ "geometry" :: q → ∃ p', p = p' ++ ["beam"] := by
  induction l with
  | nil =>
    refine ⟨rfl, ?_⟩
    intro p q e
    simp [prioritizedTags] at e
  | cons t ts ih =>
    have ht : t ≠ "beam" := fun e => h (by simp [e])
    obtain ⟨i1, i2⟩ := ih (fun e => h (List.mem_cons_of_mem _ e))
    by_cases hg : t = "geometry"
    · subst hg
      rw [prioritizedTags, if_pos rfl]
      refine ⟨?_, ?_⟩
      · rw [List.filter_cons_of_neg (by simp), List.filter_cons_of_pos (by simp), i1]
      · intro p q e
        match p, e with
        | [], e => simp at e
        | [x], e => simp only [List.singleton_append, List.cons.injEq] at e; exact ⟨[], by simp [← e.1]⟩
        | x :: y :: p, e =>
          simp only [List.cons_append, List.cons.injEq] at e
          obtain ⟨p', hp⟩ := i2 p q e.2.2
          exact ⟨x :: y :: p', by simp [hp]⟩
    · rw [prioritizedTags, if_neg hg]
      refine ⟨?_, ?_⟩
      · rw [List.filter_cons_of_pos (by simp [ht]), i1]
      · intro p q e
        match p, e with
        | [], e => simp only [List.nil_append, List.cons.injEq] at e; exact absurd e.1 hg
        | x :: p, e =>
          simp only [List.cons_append, List.cons.injEq] at e
          obtain ⟨p', hp⟩ := i2 p q e.2
          exact ⟨x :: p', by simp [hp]⟩

example : prioritizedTags ["console", "geometry", "boundaryconditions"] = ["console", "beam", "geometry", "boundaryconditions"] := by decide

/-- C99: the nodal rotations of beams are updated by the solution increment times the step length; a vanishing length means the total solution with rotations from unity, and no increment
the end of a converged step. Bars and cables have no rotations. -/
theorem C99_rotations (u : List ℝ) (ex : List ℝ → List ℝ) (alpha : ℝ) (nf : Nat) :
    (nf ≠ 6 → updateRotations nf u ex alpha = .none) ∧
    updateRotations 6 [] ex alpha = .commit ∧
    (u ≠ [] → alpha ≠ 0 → updateRotations 6 u ex alpha = .add ((ex u).map (alpha * ·)) false) ∧
    (u ≠ [] → updateRotations 6 u ex 0 = .add (ex u) true) := by
  refine ⟨?_, ?_, ?_, ?_⟩
  · intro h; simp [updateRotations, h]
  · simp [updateRotations]
  · intro hu ha
    by_cases h1 : alpha = 1
    · subst h1; simp [updateRotations, hu]
    · simp [updateRotations, hu, ha, h1, mul_comm]
  · intro hu; simp [updateRotations, hu]

/-- C99: the rotation of a node is that of the first patch with the node, or the unit tensor. -/
theorem C99_node_rotation {R : Type} (unit : R) (pre post : List ((Nat → Nat) × (Nat → R))) (p : (Nat → Nat) × (Nat → R)) (node : Nat)
    (h : ∀ q ∈ pre, q.1 node = 0) :
    getNodeRotation unit pre node = unit ∧ (p.1 node > 0 → getNodeRotation unit (pre ++ p :: post) node = p.2 (p.1 node)) := by
  induction pre with
  | nil => exact ⟨rfl, fun hp => by simp [getNodeRotation, hp]⟩
  | cons q pre ih =>
    have hq := h q (by simp)
    obtain ⟨i1, i2⟩ := ih (fun x hx => h x (List.mem_cons_of_mem _ hx))
    refine ⟨?_, ?_⟩
    · rw [getNodeRotation, if_neg (by omega)]; exact i1
    · intro hp
      rw [List.cons_append, getNodeRotation, if_neg (by omega)]; exact i2 hp

end Verif.BeamInput
