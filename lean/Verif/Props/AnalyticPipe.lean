/-
C51 and C84: the analytical stress fields of the pipe and of the L-shaped domain.
-/
import Verif.Props.AnalyticBeams
import Mathlib.Analysis.SpecialFunctions.Pow.Deriv
import Mathlib.Analysis.Complex.RealDeriv
import Mathlib.Analysis.SpecialFunctions.Sqrt

set_option linter.unusedSectionVars false
set_option linter.unnecessarySeqFocus false
set_option linter.unusedSimpArgs false
set_option linter.unusedVariables false

namespace Verif.Analytic

open Verif.Beam (V3)
open Topology

/-! ### Pipe -/

/-- Radial and circumferential stress of the pipe as functions of the radius. -/
noncomputable def pipeR (ra rb Ti To E nu alpha r : ℝ) : ℝ :=
  E * alpha * (To - Ti) * (1 / 2) / (1 - nu ^ 2) * (Real.log (rb / r) / Real.log (rb / ra) - ((rb / r) ^ 2 - 1) / ((rb / ra) ^ 2 - 1))

@[inherit_doc pipeR]
noncomputable def pipeT (ra rb Ti To E nu alpha r : ℝ) : ℝ :=
  E * alpha * (To - Ti) * (1 / 2) / (1 - nu ^ 2) * ((Real.log (rb / r) - 1) / Real.log (rb / ra) + ((rb / r) ^ 2 + 1) / ((rb / ra) ^ 2 - 1))

/-- Specification: stationary temperature in a pipe wall with the temperatures `Ti` and `To` on the two sides. -/
noncomputable def temperature (ra rb Ti To r : ℝ) : ℝ := Ti + (To - Ti) * Real.log (r / ra) / Real.log (rb / ra)

theorem pipe_eq (ra rb Ti To T0 E nu alpha : ℝ) (X : V3 ℝ) :
    let r := hypot (X 0) (X 1)
    let s := pipeR ra rb Ti To E nu alpha r
    let t := pipeT ra rb Ti To E nu alpha r
    let z := nu * (s + t) - E * alpha * (temperature ra rb Ti To r - T0)
    pipe ra rb Ti To T0 E nu alpha true X = sym s t z 0 0 ∧
    pipe ra rb Ti To T0 E nu alpha false X = transform2 (X 0 / r) (-(X 1 / r)) (X 1 / r) (X 0 / r) s t z 0 := by
  intro r s t z
  constructor <;>
  · simp only [pipe, s, t, z, pipeR, pipeT, temperature, r, if_true, ← sq]
    try simp

theorem pipeR_deriv (ra rb Ti To E nu alpha : ℝ) {r : ℝ} (hr : 0 < r) (hb : 0 < rb) :
    HasDerivAt (pipeR ra rb Ti To E nu alpha) ((pipeT ra rb Ti To E nu alpha r - pipeR ra rb Ti To E nu alpha r) / r) r := by
  have hi : HasDerivAt (fun r : ℝ => rb / r) (-rb / r ^ 2) r := by
    refine HasDerivAt.congr_deriv ((hasDerivAt_const r rb).div (hasDerivAt_id r) hr.ne') ?_
    simp
  have hl := hi.log (div_pos hb hr).ne'
  unfold pipeR
  refine HasDerivAt.congr_deriv (((hl.div_const _).sub (((hi.pow 2).sub_const 1).div_const _)).const_mul _) ?_
  unfold pipeT
  generalize E * alpha * (To - Ti) * (1 / 2) / (1 - nu ^ 2) = C
  generalize Real.log (rb / ra) = L
  generalize (rb / ra) ^ 2 - 1 = k
  generalize Real.log (rb / r) = l
  have h1 : -rb / r ^ 2 / (rb / r) = -1 / r := by field_simp
  rw [h1]
  push_cast
  simp only [div_eq_mul_inv]
  generalize L⁻¹ = Li
  generalize k⁻¹ = ki
  field_simp
  ring

theorem pipeT_deriv (ra rb Ti To E nu alpha : ℝ) {r : ℝ} (hr : 0 < r) (hb : 0 < rb) :
    HasDerivAt (pipeT ra rb Ti To E nu alpha)
      (E * alpha * (To - Ti) * (1 / 2) / (1 - nu ^ 2) * (-1 / r / Real.log (rb / ra) - 2 * rb ^ 2 / r ^ 3 / ((rb / ra) ^ 2 - 1))) r := by
  have hi : HasDerivAt (fun r : ℝ => rb / r) (-rb / r ^ 2) r := by
    refine HasDerivAt.congr_deriv ((hasDerivAt_const r rb).div (hasDerivAt_id r) hr.ne') ?_
    simp
  have hl := hi.log (div_pos hb hr).ne'
  unfold pipeT
  refine HasDerivAt.congr_deriv ((((hl.sub_const 1).div_const _).add (((hi.pow 2).add_const 1).div_const _)).const_mul _) ?_
  generalize E * alpha * (To - Ti) * (1 / 2) / (1 - nu ^ 2) = C
  generalize Real.log (rb / ra) = L
  generalize (rb / ra) ^ 2 - 1 = k
  have h1 : -rb / r ^ 2 / (rb / r) = -1 / r := by field_simp
  rw [h1]
  push_cast
  simp only [div_eq_mul_inv]
  generalize L⁻¹ = Li
  generalize k⁻¹ = ki
  field_simp
  ring

theorem hypot_deriv (p : V3 ℝ) (j : Fin 3) (h : p 0 ^ 2 + p 1 ^ 2 ≠ 0) :
    HasDerivAt (fun s => hypot (move p j s 0) (move p j s 1))
      ((p 0 * (if (0 : Fin 3) = j then 1 else 0) + p 1 * (if (1 : Fin 3) = j then 1 else 0)) / hypot (p 0) (p 1)) 0 := by
  have hs := ((move_deriv p j 0).mul (move_deriv p j 0)).add ((move_deriv p j 1).mul (move_deriv p j 1))
  have hne : move p j 0 0 * move p j 0 0 + move p j 0 1 * move p j 0 1 ≠ 0 := by
    rw [move_zero]; intro e; exact h (by rw [← e]; ring)
  have := hs.sqrt hne
  refine HasDerivAt.congr_deriv this ?_
  simp only [Pi.add_apply, Pi.mul_apply, move_zero]
  have hp := (hypot_pos h).ne'
  unfold hypot at hp ⊢
  field_simp
  ring

/-- C51 (pipe): equilibrium at every point off the axis, both for Cartesian components and, as dσr/dr + (σr - σθ)/r = 0, for polar ones. -/
theorem C51_pipe_equilibrium (ra rb Ti To T0 E nu alpha : ℝ) (hb : 0 < rb) :
    (∀ p : V3 ℝ, p 0 ^ 2 + p 1 ^ 2 ≠ 0 → Equilibrium (pipe ra rb Ti To T0 E nu alpha false) p) ∧
    ∀ r : ℝ, 0 < r →
      let σ := fun r => pipe ra rb Ti To T0 E nu alpha true ![r, 0, 0]
      ∃ d, HasDerivAt (fun r => σ r 0 0) d r ∧ d + (σ r 0 0 - σ r 1 1) / r = 0 ∧ σ r 0 1 = 0 := by
  constructor
  · intro p hp
    have hr := hypot_pos hp
    have hs := hypot_sq (p 0) (p 1)
    let R : V3 ℝ → ℝ := fun q => hypot (q 0) (q 1)
    let s : V3 ℝ → ℝ := fun q => pipeR ra rb Ti To E nu alpha (R q)
    let t : V3 ℝ → ℝ := fun q => pipeT ra rb Ti To E nu alpha (R q)
    let z : V3 ℝ → ℝ := fun q => nu * (s q + t q) - E * alpha * (temperature ra rb Ti To (R q) - T0)
    let e : Fin 3 → Fin 3 → ℝ := fun k j => if k = j then 1 else 0
    let R' : Fin 3 → ℝ := fun j => (p 0 * e 0 j + p 1 * e 1 j) / R p
    have hR : ∀ j, HasDerivAt (fun w => R (move p j w)) (R' j) 0 := fun j => hypot_deriv p j hp
    have hR0 : ∀ j, R (move p j 0) = R p := fun j => by rw [move_zero]
    have dS : ∀ j, HasDerivAt (fun w => s (move p j w)) ((t p - s p) / R p * R' j) 0 := by
      intro j
      have h1 := pipeR_deriv ra rb Ti To E nu alpha (r := R (move p j 0)) (by rw [hR0]; exact hr) hb
      have := HasDerivAt.comp (0 : ℝ) h1 (hR j)
      rw [hR0] at this
      exact this
    obtain ⟨dt, hdt⟩ : ∃ dt, ∀ j, HasDerivAt (fun w => t (move p j w)) (dt * R' j) 0 := by
      refine ⟨E * alpha * (To - Ti) * (1 / 2) / (1 - nu ^ 2) *
        (-1 / R p / Real.log (rb / ra) - 2 * rb ^ 2 / R p ^ 3 / ((rb / ra) ^ 2 - 1)), fun j => ?_⟩
      · have h1 := pipeT_deriv ra rb Ti To E nu alpha (r := R (move p j 0)) (by rw [hR0]; exact hr) hb
        have := HasDerivAt.comp (0 : ℝ) h1 (hR j)
        rw [hR0] at this
        exact this
    have hform : ∀ q ∈ {q : V3 ℝ | q 0 ^ 2 + q 1 ^ 2 ≠ 0}, pipe ra rb Ti To T0 E nu alpha false q =
        sym ((q 0 ^ 2 * s q + q 1 ^ 2 * t q) * (1 / (q 0 ^ 2 + q 1 ^ 2))) ((q 1 ^ 2 * s q + q 0 ^ 2 * t q) * (1 / (q 0 ^ 2 + q 1 ^ 2))) (z q)
          (q 0 * q 1 * (s q - t q) * (1 / (q 0 ^ 2 + q 1 ^ 2))) 0 := by
      intro q hq
      have hq1 := (hypot_pos hq).ne'
      have hq2 := hypot_sq (q 0) (q 1)
      rw [(pipe_eq ra rb Ti To T0 E nu alpha q).2]
      unfold transform2
      rw [← hq2]
      congr 1
      · simp only [s, t, R]; field_simp; ring
      · simp only [s, t, R]; field_simp; ring
      · simp only [s, t, R]; field_simp; ring
    have m0 := fun j => move_deriv p j 0
    have m1 := fun j => move_deriv p j 1
    have u := fun j => recip_deriv p j hp
    have dz : HasDerivAt (fun w => z (move p 2 w)) 0 0 := by
      have : (fun w => z (move p 2 w)) = fun _ => z p := by
        funext w
        have : R (move p 2 w) = R p := by simp [R, move]
        simp only [z, s, t, this]
      rw [this]; exact hasDerivAt_const _ _
    refine plane_equilibrium plane_open hp hform (((((m0 0).pow 2).mul (dS 0)).add (((m1 0).pow 2).mul (hdt 0))).mul (u 0))
      ((((m0 1).mul (m1 1)).mul ((dS 1).sub (hdt 1))).mul (u 1)) ((((m0 0).mul (m1 0)).mul ((dS 0).sub (hdt 0))).mul (u 0))
      (((((m1 1).pow 2).mul (dS 1)).add (((m0 1).pow 2).mul (hdt 1))).mul (u 1)) dz ?_ ?_ rfl
    · simp only [Pi.add_apply, Pi.mul_apply, Pi.sub_apply, Pi.pow_apply, move_zero, R', e]
      have hRp : R p ^ 2 = p 0 ^ 2 + p 1 ^ 2 := hs
      have hR0 : R p ≠ 0 := hr.ne'
      rw [← hRp]
      have e0 : p 0 ^ 2 = R p ^ 2 - p 1 ^ 2 := by rw [hRp]; ring
      generalize R p = r at *
      generalize s p = S
      generalize t p = T
      simp
      field_simp
      simp only [e0]
      ring
    · simp only [Pi.add_apply, Pi.mul_apply, Pi.sub_apply, Pi.pow_apply, move_zero, R', e]
      have hRp : R p ^ 2 = p 0 ^ 2 + p 1 ^ 2 := hs
      have hR0 : R p ≠ 0 := hr.ne'
      rw [← hRp]
      have e0 : p 0 ^ 2 = R p ^ 2 - p 1 ^ 2 := by rw [hRp]; ring
      generalize R p = r at *
      generalize s p = S
      generalize t p = T
      simp
      field_simp
      simp only [e0]
      ring
  · intro r hr σ
    have hh : ∀ r : ℝ, hypot r 0 = |r| := by intro r; unfold hypot; simp [Real.sqrt_mul_self_eq_abs]
    have h00 : ∀ r : ℝ, 0 < r → σ r 0 0 = pipeR ra rb Ti To E nu alpha r := by
      intro r hr
      have := (pipe_eq ra rb Ti To T0 E nu alpha ![r, 0, 0]).1
      simp only [σ, this]
      simp [sym, hh, abs_of_pos hr]
    have h11 : σ r 1 1 = pipeT ra rb Ti To E nu alpha r := by
      have := (pipe_eq ra rb Ti To T0 E nu alpha ![r, 0, 0]).1
      simp only [σ, this]
      simp [sym, hh, abs_of_pos hr]
    refine ⟨_, (pipeR_deriv ra rb Ti To E nu alpha hr hb).congr_of_eventuallyEq ?_, ?_, ?_⟩
    · filter_upwards [lt_mem_nhds hr] with w hw using h00 w hw
    · rw [h00 r hr, h11]; ring
    · simp [σ, pipe, sym]

/-- C51 (pipe): the inner and outer surface are free of traction. -/
theorem C51_pipe_boundary (Ti To T0 E nu alpha : ℝ) {ra rb : ℝ} (ha : 0 < ra) (hab : ra < rb) {p : V3 ℝ}
    (h : p 0 ^ 2 + p 1 ^ 2 = ra ^ 2 ∨ p 0 ^ 2 + p 1 ^ 2 = rb ^ 2) :
    TractionFree (pipe ra rb Ti To T0 E nu alpha false p) ![p 0, p 1, 0] ∧ pipe ra rb Ti To T0 E nu alpha true p 0 0 = 0 := by
  have hb : 0 < rb := ha.trans hab
  have hne : p 0 ^ 2 + p 1 ^ 2 ≠ 0 := by rcases h with h | h <;> rw [h] <;> positivity
  have hL : Real.log (rb / ra) ≠ 0 := by
    have : 1 < rb / ra := by rw [one_lt_div ha]; exact hab
    exact (Real.log_pos this).ne'
  have hk : (rb / ra) ^ 2 - 1 ≠ 0 := by
    have : 1 < rb / ra := by rw [one_lt_div ha]; exact hab
    nlinarith
  have key : pipeR ra rb Ti To E nu alpha (hypot (p 0) (p 1)) = 0 := by
    rcases h with h | h
    · have : hypot (p 0) (p 1) = ra := by
        have := hypot_sq (p 0) (p 1)
        rw [h] at this
        exact (pow_left_inj₀ (hypot_nonneg _ _) ha.le two_ne_zero).1 this
      rw [this]
      unfold pipeR
      rw [div_self hL, div_self hk]; ring
    · have : hypot (p 0) (p 1) = rb := by
        have := hypot_sq (p 0) (p 1)
        rw [h] at this
        exact (pow_left_inj₀ (hypot_nonneg _ _) hb.le two_ne_zero).1 this
      rw [this]
      unfold pipeR
      rw [div_self hb.ne']; simp
  constructor
  · intro i
    rw [(pipe_eq ra rb Ti To T0 E nu alpha p).2, key]
    fin_cases i <;> simp [transform2, sym] <;> ring
  · rw [(pipe_eq ra rb Ti To T0 E nu alpha p).1, key]
    simp [sym]

example : (0 : ℝ) < 1 ∧ (1 : ℝ) < 2 ∧ (![0, 2, 0] : V3 ℝ) 0 ^ 2 + (![0, 2, 0] : V3 ℝ) 1 ^ 2 = 2 ^ 2 := by norm_num

/-! ### Thermal strains of the pipe -/

/-- Specification: strain in one direction of an isotropic body with stress `s` in this direction, `t` and `z` in the two others, and
temperature change `dT`. -/
noncomputable def strain (E nu alpha s t z dT : ℝ) : ℝ := (s - nu * (t + z)) / E + alpha * dT

theorem temperature_deriv (Ti To : ℝ) {ra rb r : ℝ} (ha : 0 < ra) (hr : 0 < r) :
    HasDerivAt (temperature ra rb Ti To) ((To - Ti) / Real.log (rb / ra) / r) r := by
  unfold temperature
  have hl := ((hasDerivAt_id r).div_const ra).log (div_pos hr ha).ne'
  refine HasDerivAt.congr_deriv (((hl.const_mul (To - Ti)).div_const (Real.log (rb / ra))).const_add Ti) ?_
  simp only [id]
  have : 1 / ra / (r / ra) = 1 / r := by field_simp
  rw [this]; ring

/-- The gap in the compatibility condition of the pipe solution. -/
theorem pipe_gap (Ti To T0 alpha : ℝ) {ra rb E nu r : ℝ} (ha : 0 < ra) (hab : ra < rb) (hE : E ≠ 0) (h1 : 1 - nu ≠ 0) (h2 : 1 + nu ≠ 0)
    (hr : 0 < r) :
    let σ := fun r => pipe ra rb Ti To T0 E nu alpha true ![r, 0, 0]
    let T := temperature ra rb Ti To
    HasDerivAt (fun r => r * strain E nu alpha (σ r 1 1) (σ r 0 0) (σ r 2 2) (T r - T0))
      (strain E nu alpha (σ r 0 0) (σ r 1 1) (σ r 2 2) (T r - T0) + nu * (alpha * (To - Ti)) / Real.log (rb / ra)) r := by
  intro σ T
  have hb : 0 < rb := ha.trans hab
  have hh : ∀ r : ℝ, hypot r 0 = |r| := by intro r; unfold hypot; simp [Real.sqrt_mul_self_eq_abs]
  have hσ : ∀ r : ℝ, 0 < r → σ r 0 0 = pipeR ra rb Ti To E nu alpha r ∧ σ r 1 1 = pipeT ra rb Ti To E nu alpha r ∧
      σ r 2 2 = nu * (pipeR ra rb Ti To E nu alpha r + pipeT ra rb Ti To E nu alpha r) - E * alpha * (T r - T0) := by
    intro r hr
    have := (pipe_eq ra rb Ti To T0 E nu alpha ![r, 0, 0]).1
    simp only [σ, this]
    simp [sym, hh, abs_of_pos hr, T]
  have dR := pipeR_deriv ra rb Ti To E nu alpha hr hb
  have dT := pipeT_deriv ra rb Ti To E nu alpha hr hb
  have dt := temperature_deriv Ti To (rb := rb) ha hr
  have hev : (fun r => r * strain E nu alpha (σ r 1 1) (σ r 0 0) (σ r 2 2) (T r - T0)) =ᶠ[𝓝 r] fun r =>
      r * ((pipeT ra rb Ti To E nu alpha r - nu * (pipeR ra rb Ti To E nu alpha r + (nu * (pipeR ra rb Ti To E nu alpha r +
        pipeT ra rb Ti To E nu alpha r) - E * alpha * (temperature ra rb Ti To r - T0)))) / E + alpha * (temperature ra rb Ti To r - T0)) := by
    filter_upwards [lt_mem_nhds hr] with w hw
    obtain ⟨a1, a2, a3⟩ := hσ w hw
    rw [a1, a2, a3]; rfl
  refine HasDerivAt.congr_of_eventuallyEq ?_ hev
  refine HasDerivAt.congr_deriv ((hasDerivAt_id r).mul (((dT.sub ((dR.add (((dR.add dT).const_mul nu).sub
    ((dt.sub_const T0).const_mul (E * alpha)))).const_mul nu)).div_const E).add ((dt.sub_const T0).const_mul alpha))) ?_
  obtain ⟨a1, a2, a3⟩ := hσ r hr
  rw [a1, a2, a3]
  have hL : Real.log (rb / ra) ≠ 0 := by
    have : 1 < rb / ra := by rw [one_lt_div ha]; exact hab
    exact (Real.log_pos this).ne'
  have hk : (rb / ra) ^ 2 - 1 ≠ 0 := by
    have : 1 < rb / ra := by rw [one_lt_div ha]; exact hab
    nlinarith
  have hnu : 1 - nu ^ 2 ≠ 0 := by
    have : 1 - nu ^ 2 = (1 - nu) * (1 + nu) := by ring
    rw [this]; exact mul_ne_zero h1 h2
  simp only [strain, T, id, Pi.add_apply, Pi.sub_apply, Pi.mul_apply]
  generalize temperature ra rb Ti To r - T0 = θ
  unfold pipeT pipeR
  generalize Real.log (rb / ra) = L at *
  generalize Real.log (rb / r) = l
  generalize (rb / ra) ^ 2 - 1 = k at *
  have hr' := hr.ne'
  field_simp
  ring

/-- C84: without lateral contraction the pipe solution is one of thermoelasticity: no axial strain, and radial and circumferential strain belong
to one radial displacement. What is missing: see `C84_pipe_violated`. -/
theorem C84_pipe_partial (Ti To T0 alpha : ℝ) {ra rb E r : ℝ} (ha : 0 < ra) (hab : ra < rb) (hE : E ≠ 0) (hr : 0 < r) :
    let σ := fun r => pipe ra rb Ti To T0 E 0 alpha true ![r, 0, 0]
    let T := temperature ra rb Ti To
    HasDerivAt (fun r => r * strain E 0 alpha (σ r 1 1) (σ r 0 0) (σ r 2 2) (T r - T0))
      (strain E 0 alpha (σ r 0 0) (σ r 1 1) (σ r 2 2) (T r - T0)) r := by
  intro σ T
  have := pipe_gap Ti To T0 alpha ha hab hE (nu := 0) (by norm_num) (by norm_num) hr
  simpa using this

/-- C84: the axial strain vanishes for every material (plane strain), and the temperature has the prescribed values. -/
theorem C84_plane (Ti To T0 alpha : ℝ) {ra rb E nu : ℝ} (ha : 0 < ra) (hab : ra < rb) (hE : E ≠ 0) (p : V3 ℝ) :
    (let σ := pipe ra rb Ti To T0 E nu alpha true p
     strain E nu alpha (σ 2 2) (σ 0 0) (σ 1 1) (temperature ra rb Ti To (hypot (p 0) (p 1)) - T0) = 0) ∧
    (let σ := pipe ra rb Ti To T0 E nu alpha false p
     p 0 ^ 2 + p 1 ^ 2 ≠ 0 → strain E nu alpha (σ 2 2) (σ 0 0) (σ 1 1) (temperature ra rb Ti To (hypot (p 0) (p 1)) - T0) = 0) ∧
    temperature ra rb Ti To ra = Ti ∧ temperature ra rb Ti To rb = To := by
  have hL : Real.log (rb / ra) ≠ 0 := by
    have : 1 < rb / ra := by rw [one_lt_div ha]; exact hab
    exact (Real.log_pos this).ne'
  refine ⟨?_, ?_, ?_, ?_⟩
  · intro σ
    simp only [σ, (pipe_eq ra rb Ti To T0 E nu alpha p).1]
    simp [sym, strain]
    field_simp
    ring
  · intro σ hp
    simp only [σ, (pipe_eq ra rb Ti To T0 E nu alpha p).2]
    have hh := (hypot_pos hp).ne'
    have hs := hypot_sq (p 0) (p 1)
    simp only [strain, transform2, sym]
    generalize pipeR ra rb Ti To E nu alpha (hypot (p 0) (p 1)) = S
    generalize pipeT ra rb Ti To E nu alpha (hypot (p 0) (p 1)) = U
    generalize temperature ra rb Ti To (hypot (p 0) (p 1)) - T0 = th
    generalize hypot (p 0) (p 1) = r at *
    simp
    field_simp
    have e0 : p 0 ^ 2 = r ^ 2 - p 1 ^ 2 := by rw [hs]; ring
    simp only [e0]
    ring
  · simp [temperature, div_self ha.ne']
  · simp [temperature]
    field_simp
    ring

/-- C84 fails: for every Poisson's ratio other than zero the strains of the pipe solution do not belong to any displacement, whenever the two
sides have different temperatures: with `u = r εθ` the radial displacement, du/dr is not the radial strain. (The constant has
1-ν² where thermoelasticity requires 1-ν, Linear/AnalyticSolutions.C:198-200.) -/
theorem C84_pipe_violated (Ti To T0 alpha : ℝ) {ra rb E nu r : ℝ} (ha : 0 < ra) (hab : ra < rb) (hE : 0 < E) (h0 : nu ≠ 0) (h1 : nu ≠ 1)
    (h2 : nu ≠ -1) (hal : alpha ≠ 0) (hT : Ti ≠ To) (hr : 0 < r) :
    let σ := fun r => pipe ra rb Ti To T0 E nu alpha true ![r, 0, 0]
    let T := temperature ra rb Ti To
    ¬ HasDerivAt (fun r => r * strain E nu alpha (σ r 1 1) (σ r 0 0) (σ r 2 2) (T r - T0))
      (strain E nu alpha (σ r 0 0) (σ r 1 1) (σ r 2 2) (T r - T0)) r := by
  intro σ T h
  have hL : Real.log (rb / ra) ≠ 0 := by
    have : 1 < rb / ra := by rw [one_lt_div ha]; exact hab
    exact (Real.log_pos this).ne'
  have hg := pipe_gap Ti To T0 alpha ha hab hE.ne' (nu := nu) (sub_ne_zero.2 (Ne.symm h1))
    (by intro e; exact h2 (by linarith)) hr
  have := h.unique hg
  have z : nu * (alpha * (To - Ti)) / Real.log (rb / ra) = 0 := by
    have e : ∀ x y : ℝ, x = x + y → y = 0 := fun x y hxy => by linarith
    exact e _ _ this
  rw [div_eq_zero_iff] at z
  rcases z with z | z
  · rcases mul_eq_zero.1 z with z | z
    · exact h0 z
    · rcases mul_eq_zero.1 z with z | z
      · exact hal z
      · exact hT (by linarith)
  · exact hL z

example : (0 : ℝ) < 1 ∧ (1 : ℝ) < 2 ∧ (3 / 10 : ℝ) ≠ 0 ∧ (3 / 10 : ℝ) ≠ 1 ∧ (3 / 10 : ℝ) ≠ -1 ∧ (20 : ℝ) ≠ 100 := by norm_num

/-! ### L-shaped domain -/

/-- The local complex coordinate: the global one, `x + iy`, turned by 135 degrees. -/
noncomputable def turn : ℂ := ⟨-Real.sqrt (1 / 2), Real.sqrt (1 / 2)⟩

/-- The complex functions of which the stress components are real parts. -/
noncomputable def lpot (lam q : ℝ) (α β γ z zbar : ℂ) : ℂ :=
  α * z ^ ((lam - 1 : ℝ) : ℂ) + β * (q * (lam + 1) : ℝ) * z ^ ((lam - 1 : ℝ) : ℂ) + γ * (lam - 1 : ℝ) * (zbar * z ^ ((lam - 2 : ℝ) : ℂ))

theorem lpot_deriv (lam q : ℝ) (α β γ z zbar k kbar : ℂ) (hz : z ∈ Complex.slitPlane) :
    HasDerivAt (fun w : ℂ => lpot lam q α β γ (z + w * k) (zbar + w * kbar))
      (α * ((lam - 1 : ℝ) * z ^ ((lam - 2 : ℝ) : ℂ) * k) + β * (q * (lam + 1) : ℝ) * ((lam - 1 : ℝ) * z ^ ((lam - 2 : ℝ) : ℂ) * k) +
        γ * (lam - 1 : ℝ) * (kbar * z ^ ((lam - 2 : ℝ) : ℂ) + zbar * ((lam - 2 : ℝ) * z ^ ((lam - 3 : ℝ) : ℂ) * k))) 0 := by
  have hl : HasDerivAt (fun w : ℂ => z + w * k) k 0 := by
    simpa using ((hasDerivAt_id (0 : ℂ)).mul_const k).const_add z
  have hb : HasDerivAt (fun w : ℂ => zbar + w * kbar) kbar 0 := by
    simpa using ((hasDerivAt_id (0 : ℂ)).mul_const kbar).const_add zbar
  have hz' : z + 0 * k ∈ Complex.slitPlane := by simpa using hz
  have h1 := hl.cpow_const (c := ((lam - 1 : ℝ) : ℂ)) hz'
  have h2 := hl.cpow_const (c := ((lam - 2 : ℝ) : ℂ)) hz'
  have e1 : ((lam - 1 : ℝ) : ℂ) - 1 = ((lam - 2 : ℝ) : ℂ) := by push_cast; ring
  have e2 : ((lam - 2 : ℝ) : ℂ) - 1 = ((lam - 3 : ℝ) : ℂ) := by push_cast; ring
  rw [e1] at h1
  rw [e2] at h2
  unfold lpot
  refine HasDerivAt.congr_deriv (((h1.const_mul α).add (h1.const_mul (β * (q * (lam + 1) : ℝ)))).add
    ((hb.mul h2).const_mul (γ * (lam - 1 : ℝ)))) ?_
  simp

theorem cpow_parts {z : ℂ} (lam : ℝ) (hz : z ≠ 0) :
    (z ^ ((lam - 1 : ℝ) : ℂ)).re = ‖z‖ ^ (lam - 1) * Real.cos ((lam - 1) * z.arg) ∧
    (z ^ ((lam - 1 : ℝ) : ℂ)).im = ‖z‖ ^ (lam - 1) * Real.sin ((lam - 1) * z.arg) ∧
    ((starRingEnd ℂ) z * z ^ ((lam - 2 : ℝ) : ℂ)).re = ‖z‖ ^ (lam - 1) * Real.cos ((lam - 3) * z.arg) ∧
    ((starRingEnd ℂ) z * z ^ ((lam - 2 : ℝ) : ℂ)).im = ‖z‖ ^ (lam - 1) * Real.sin ((lam - 3) * z.arg) := by
  have hn : 0 < ‖z‖ := norm_pos_iff.2 hz
  have hp : ‖z‖ ^ (lam - 1) = ‖z‖ * ‖z‖ ^ (lam - 2) := by
    have := Real.rpow_add hn 1 (lam - 2)
    rw [Real.rpow_one] at this
    rw [← this]; congr 1; ring
  have hre : z.re = ‖z‖ * Real.cos z.arg := (Complex.norm_mul_cos_arg z).symm
  have him : z.im = ‖z‖ * Real.sin z.arg := (Complex.norm_mul_sin_arg z).symm
  have c3 : Real.cos ((lam - 3) * z.arg) = Real.cos (z.arg * (lam - 2)) * Real.cos z.arg + Real.sin (z.arg * (lam - 2)) * Real.sin z.arg := by
    rw [← Real.cos_sub]; congr 1; ring
  have s3 : Real.sin ((lam - 3) * z.arg) = Real.sin (z.arg * (lam - 2)) * Real.cos z.arg - Real.cos (z.arg * (lam - 2)) * Real.sin z.arg := by
    rw [← Real.sin_sub]; congr 1; ring
  refine ⟨?_, ?_, ?_, ?_⟩
  · rw [Complex.cpow_ofReal_re, mul_comm z.arg]
  · rw [Complex.cpow_ofReal_im, mul_comm z.arg]
  · rw [Complex.mul_re, Complex.cpow_ofReal_re, Complex.cpow_ofReal_im, Complex.conj_re, Complex.conj_im, hre, him, c3, hp]; ring
  · rw [Complex.mul_im, Complex.cpow_ofReal_re, Complex.cpow_ofReal_im, Complex.conj_re, Complex.conj_im, hre, him, s3, hp]; ring

/-- Local complex coordinate of a point and its conjugate. -/
noncomputable def zeta (p : V3 ℝ) : ℂ := turn * ⟨p 0, p 1⟩

/-- Derivative of the local coordinate in the direction of an axis. -/
noncomputable def zdir : Fin 3 → ℂ := ![turn, turn * Complex.I, 0]

theorem zeta_move (p : V3 ℝ) (j : Fin 3) (s : ℝ) : zeta (move p j s) = zeta p + (s : ℂ) * zdir j := by
  unfold zeta zdir
  fin_cases j <;> apply Complex.ext <;> simp [move, turn] <;> ring

theorem zetabar_move (p : V3 ℝ) (j : Fin 3) (s : ℝ) :
    (starRingEnd ℂ) (zeta (move p j s)) = (starRingEnd ℂ) (zeta p) + (s : ℂ) * (starRingEnd ℂ) (zdir j) := by
  rw [zeta_move]; simp

theorem norm_zeta (p : V3 ℝ) : ‖zeta p‖ = hypot (p 0) (p 1) := by
  have : ‖turn‖ = 1 := by
    rw [turn, norm_mk, hypot, neg_mul_neg, Real.mul_self_sqrt (by norm_num)]; norm_num
  rw [zeta, norm_mul, this, norm_mk, one_mul]

theorem lshape_eq (lam q F0 nu : ℝ) {a : ℝ} (ha : 0 < a) {p : V3 ℝ} (hp : (a / 10 ^ 32) ^ 2 < p 0 ^ 2 + p 1 ^ 2) :
    let z := zeta p
    let zb := (starRingEnd ℂ) (zeta p)
    let c := F0 * lam
    lshapeWith lam q a F0 nu p = sym (c * (lpot lam q 2 Complex.I Complex.I z zb).re) (c * (lpot lam q 2 (-Complex.I) (-Complex.I) z zb).re)
      (nu * (c * (lpot lam q 4 0 0 z zb).re)) (c * (lpot lam q 0 (-1) (-1) z zb).re) 0 := by
  intro z zb c
  have hpos : 0 < p 0 ^ 2 + p 1 ^ 2 := lt_of_le_of_lt (sq_nonneg _) hp
  have hz : z ≠ 0 := by
    rw [← norm_pos_iff, norm_zeta]; exact hypot_pos hpos.ne'
  obtain ⟨h1, h2, h3, h4⟩ := cpow_parts lam hz
  have ez : (⟨p 0 * -Real.sqrt (1 / 2) + p 1 * -Real.sqrt (1 / 2), p 0 * Real.sqrt (1 / 2) + p 1 * -Real.sqrt (1 / 2)⟩ : ℂ) = z := by
    simp only [z, zeta, turn]
    apply Complex.ext <;> simp <;> ring
  have hyp : hypot (p 0 * -Real.sqrt (1 / 2) + p 1 * -Real.sqrt (1 / 2)) (p 0 * Real.sqrt (1 / 2) + p 1 * -Real.sqrt (1 / 2)) = ‖z‖ := by
    rw [← norm_mk, ez]
  have harg : atan2 (p 0 * Real.sqrt (1 / 2) + p 1 * -Real.sqrt (1 / 2)) (p 0 * -Real.sqrt (1 / 2) + p 1 * -Real.sqrt (1 / 2)) = z.arg := by
    rw [atan2, ez]
  have htol : ¬ ‖z‖ < a * (1 / 10 ^ 32) := by
    rw [norm_zeta, not_lt]
    have : a * (1 / 10 ^ 32) = a / 10 ^ 32 := by ring
    rw [this]
    refine le_of_lt (lt_of_pow_lt_pow_left₀ 2 (hypot_nonneg _ _) ?_)
    rw [hypot_sq]; exact hp
  have hs2 : Real.sqrt (1 / 2) * Real.sqrt (1 / 2) = 1 / 2 := Real.mul_self_sqrt (by norm_num)
  unfold lshapeWith
  simp only [hyp, harg, htol, if_false]
  unfold transform2
  have r1 : (lpot lam q 2 Complex.I Complex.I z zb).re = 2 * (z ^ ((lam - 1 : ℝ) : ℂ)).re - q * (lam + 1) * (z ^ ((lam - 1 : ℝ) : ℂ)).im -
      (lam - 1) * (zb * z ^ ((lam - 2 : ℝ) : ℂ)).im := by
    unfold lpot
    generalize z ^ ((lam - 1 : ℝ) : ℂ) = f
    generalize zb * z ^ ((lam - 2 : ℝ) : ℂ) = g
    simp; ring
  have r2 : (lpot lam q 2 (-Complex.I) (-Complex.I) z zb).re = 2 * (z ^ ((lam - 1 : ℝ) : ℂ)).re +
      q * (lam + 1) * (z ^ ((lam - 1 : ℝ) : ℂ)).im + (lam - 1) * (zb * z ^ ((lam - 2 : ℝ) : ℂ)).im := by
    unfold lpot
    generalize z ^ ((lam - 1 : ℝ) : ℂ) = f
    generalize zb * z ^ ((lam - 2 : ℝ) : ℂ) = g
    simp; try ring
  have r3 : (lpot lam q 4 0 0 z zb).re = 4 * (z ^ ((lam - 1 : ℝ) : ℂ)).re := by
    unfold lpot
    generalize z ^ ((lam - 1 : ℝ) : ℂ) = f
    simp
  have r4 : (lpot lam q 0 (-1) (-1) z zb).re = -(q * (lam + 1) * (z ^ ((lam - 1 : ℝ) : ℂ)).re) - (lam - 1) * (zb * z ^ ((lam - 2 : ℝ) : ℂ)).re := by
    unfold lpot
    generalize z ^ ((lam - 1 : ℝ) : ℂ) = f
    generalize zb * z ^ ((lam - 2 : ℝ) : ℂ) = g
    simp; try ring
  rw [r1, r2, r3, r4, h1, h2, h3, h4]
  generalize Real.sqrt (1 / 2) = s at hs2
  generalize Real.cos ((lam - 1) * z.arg) = c1
  generalize Real.cos ((lam - 3) * z.arg) = c3
  generalize Real.sin ((lam - 1) * z.arg) = s1
  generalize Real.sin ((lam - 3) * z.arg) = s3
  have hs : s ^ 2 = 1 / 2 := by rw [sq]; exact hs2
  congr 1
  · ring_nf; simp only [hs]; ring
  · ring_nf; simp only [hs]; ring
  · ring
  · ring_nf; simp only [hs]; ring

/-- The region: away from the truncated corner and off the ray that bisects the removed quadrant. -/
def lregion (a : ℝ) : Set (V3 ℝ) := {p | (a / 10 ^ 32) ^ 2 < p 0 ^ 2 + p 1 ^ 2}

theorem lregion_open (a : ℝ) : IsOpen (lregion a) := isOpen_lt (by fun_prop) (by fun_prop)

theorem slit_iff {p : V3 ℝ} (h : ¬ (p 0 = p 1 ∧ 0 ≤ p 0)) : zeta p ∈ Complex.slitPlane := by
  rw [Complex.mem_slitPlane_iff]
  have hs : 0 < Real.sqrt (1 / 2) := Real.sqrt_pos.2 (by norm_num)
  have e1 : (zeta p).re = Real.sqrt (1 / 2) * -(p 0 + p 1) := by simp only [zeta, turn]; simp; ring
  have e2 : (zeta p).im = Real.sqrt (1 / 2) * (p 0 - p 1) := by simp only [zeta, turn]; simp; ring
  rw [e1, e2]
  by_cases he : p 0 = p 1
  · left
    have : p 0 < 0 := by
      by_contra hc
      exact h ⟨he, not_lt.1 hc⟩
    refine mul_pos hs ?_
    rw [← he]; linarith
  · right
    exact mul_ne_zero hs.ne' (sub_ne_zero.2 he)

/-- C51 (L-shaped domain): the stress field is in equilibrium at every point that is not within 1e-32 times the side length from the re-entrant
corner and not on the bisector of the removed quadrant, for every exponent and coefficient. -/
theorem C51_lshape_equilibrium (lam q F0 nu : ℝ) {a : ℝ} (ha : 0 < a) {p : V3 ℝ} (hp : (a / 10 ^ 32) ^ 2 < p 0 ^ 2 + p 1 ^ 2)
    (hq : ¬ (p 0 = p 1 ∧ 0 ≤ p 0)) : Equilibrium (lshapeWith lam q a F0 nu) p := by
  have hz := slit_iff hq
  have D : ∀ (α β γ : ℂ) (j : Fin 3), HasDerivAt (fun s : ℝ => (lpot lam q α β γ (zeta (move p j s)) ((starRingEnd ℂ) (zeta (move p j s)))).re)
      (α * ((lam - 1 : ℝ) * zeta p ^ ((lam - 2 : ℝ) : ℂ) * zdir j) + β * (q * (lam + 1) : ℝ) *
        ((lam - 1 : ℝ) * zeta p ^ ((lam - 2 : ℝ) : ℂ) * zdir j) + γ * (lam - 1 : ℝ) * ((starRingEnd ℂ) (zdir j) * zeta p ^ ((lam - 2 : ℝ) : ℂ) +
          (starRingEnd ℂ) (zeta p) * ((lam - 2 : ℝ) * zeta p ^ ((lam - 3 : ℝ) : ℂ) * zdir j))).re 0 := by
    intro α β γ j
    have := (lpot_deriv lam q α β γ (zeta p) ((starRingEnd ℂ) (zeta p)) (zdir j) ((starRingEnd ℂ) (zdir j)) hz)
    have h0 : ((0 : ℝ) : ℂ) = 0 := rfl
    rw [← h0] at this
    have := this.real_of_complex
    simp only [zeta_move]
    simpa using this
  refine plane_equilibrium (lregion_open a) hp (fun p hp => lshape_eq lam q F0 nu ha hp)
    ((D 2 Complex.I Complex.I 0).const_mul (F0 * lam)) ((D 0 (-1) (-1) 1).const_mul (F0 * lam))
    ((D 0 (-1) (-1) 0).const_mul (F0 * lam)) ((D 2 (-Complex.I) (-Complex.I) 1).const_mul (F0 * lam))
    (((D 4 0 0 2).const_mul (F0 * lam)).const_mul nu) ?_ ?_ ?_
  · generalize zeta p ^ ((lam - 2 : ℝ) : ℂ) = f
    generalize zeta p ^ ((lam - 3 : ℝ) : ℂ) = g
    simp [zdir, turn]
    ring
  · generalize zeta p ^ ((lam - 2 : ℝ) : ℂ) = f
    generalize zeta p ^ ((lam - 3 : ℝ) : ℂ) = g
    simp [zdir, turn]
    ring
  · simp [zdir]

/-- The same for the constants of the program, with plane strain stress normal to the plane. -/
theorem C51_lshape (F0 nu : ℝ) {a : ℝ} (ha : 0 < a) {p : V3 ℝ} (hp : (a / 10 ^ 32) ^ 2 < p 0 ^ 2 + p 1 ^ 2) :
    (¬ (p 0 = p 1 ∧ 0 ≤ p 0) → Equilibrium (lshape a F0 nu) p) ∧
    lshape a F0 nu p 2 2 = nu * (lshape a F0 nu p 0 0 + lshape a F0 nu p 1 1) := by
  refine ⟨fun hq => C51_lshape_equilibrium _ _ F0 nu ha hp hq, ?_⟩
  unfold lshape
  rw [lshape_eq _ _ F0 nu ha hp]
  unfold lpot
  simp only [sym]
  simp
  ring_nf
  try simp

example : ((1 : ℝ) / 10 ^ 32) ^ 2 < (![-1, 0, 0] : V3 ℝ) 0 ^ 2 + (![-1, 0, 0] : V3 ℝ) 1 ^ 2 ∧
    ¬ ((![-1, 0, 0] : V3 ℝ) 0 = (![-1, 0, 0] : V3 ℝ) 1 ∧ 0 ≤ (![-1, 0, 0] : V3 ℝ) 0) := by norm_num

end Verif.Analytic
