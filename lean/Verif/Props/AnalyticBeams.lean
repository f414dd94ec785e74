/-
C51: the analytical stress fields of cantilevers, curved beam, pipe and L-shaped domain.
-/
import Verif.Props.Analytic

set_option linter.unusedSectionVars false
set_option linter.unnecessarySeqFocus false
set_option linter.unusedSimpArgs false
set_option linter.unusedVariables false

namespace Verif.Analytic

open Verif.Beam (V3)
open Topology

/-! ### Cantilevers -/

/-- Equilibrium of a stress field in the plane of the first and third axis. -/
theorem xz_equilibrium {σ : V3 ℝ → Stress} {p : V3 ℝ} {xx xz : V3 ℝ → ℝ} (h : ∀ q, σ q = sym (xx q) 0 0 0 (xz q)) {d00 d02 d20 : ℝ}
    (h00 : HasDerivAt (fun s => xx (move p 0 s)) d00 0) (h02 : HasDerivAt (fun s => xz (move p 2 s)) d02 0)
    (h20 : HasDerivAt (fun s => xz (move p 0 s)) d20 0) (e0 : d00 + d02 = 0) (e2 : d20 = 0) : Equilibrium σ p := by
  have z : HasDerivAt (fun _ : ℝ => (0 : ℝ)) 0 0 := hasDerivAt_const _ _
  refine ⟨![![d00, 0, d02], ![0, 0, 0], ![d20, 0, 0]], ?_, ?_⟩
  · intro i j
    simp only [h]
    fin_cases i <;> fin_cases j
    · exact h00
    · exact z
    · exact h02
    · exact z
    · exact z
    · exact z
    · exact h20
    · exact z
    · exact z
  · intro i
    fin_cases i
    · simp [e0]
    · simp
    · simp [e2]

/-- C51 (cantilever with tip shear): equilibrium everywhere, no traction on lower and upper side and no normal stress at the tip; the shear
stress resultant over the height is the tip load `F0` and the moment is the tip load times the distance from the tip.
`n` is the height direction: the second axis in two dimensions, the third in three dimensions. -/
theorem C51_cantilever_shear {L H : ℝ} (F0 : ℝ) (hL : L ≠ 0) (hH : 0 < H) (is3D : Bool) :
    let n : Fin 3 := if is3D then 2 else 1
    let at' : ℝ → ℝ → V3 ℝ := fun x y k => if k = 0 then x else if k = n then y else 0
    (∀ p, Equilibrium (canTS L H F0 is3D) p) ∧
    (∀ x i, canTS L H F0 is3D (at' x 0) i n = 0 ∧ canTS L H F0 is3D (at' x H) i n = 0) ∧
    (∀ y, canTS L H F0 is3D (at' L y) 0 0 = 0) ∧
    (∀ x, ∫ y in (0 : ℝ)..H, canTS L H F0 is3D (at' x y) 0 n = F0) ∧
    ∀ x, ∫ y in (0 : ℝ)..H, canTS L H F0 is3D (at' x y) 0 0 * (y - H / 2) = F0 * (x - L) := by
  intro n at'
  have hH' := hH.ne'
  refine ⟨?_, ?_, ?_, ?_, ?_⟩
  · intro p
    have h0 : ∀ j, HasDerivAt (fun s => move p j s 0 / L) ((if (0 : Fin 3) = j then 1 else 0) / L) 0 := fun j =>
      (move_deriv p j 0).div_const L
    have hn : ∀ j, HasDerivAt (fun s => (if is3D then move p j s 2 else move p j s 1) / H - 1 / 2)
        ((if n = j then 1 else 0) / H) 0 := by
      intro j
      cases is3D
      · exact ((move_deriv p j 1).div_const H).sub_const _
      · exact ((move_deriv p j 2).div_const H).sub_const _
    have d11 := fun j => (((h0 j).sub_const 1).const_mul (F0 * L * H / (H * H * H / 12))).mul (hn j)
    have d1n := fun j => (((hn j).mul (hn j)).const_sub (1 / 4)).const_mul (F0 * H * H / (H * H * H / 12) * (1 / 2))
    have z : HasDerivAt (fun _ : ℝ => (0 : ℝ)) 0 0 := hasDerivAt_const _ _
    cases is3D
    · refine plane_equilibrium (zz := fun _ => 0) (yy := fun _ => 0) isOpen_univ (Set.mem_univ p) (fun q _ => rfl) (d11 0) (d1n 1) (d1n 0) z z
        ?_ ?_ rfl
      · simp [move_zero, n]; field_simp; ring
      · simp [n]
    · refine xz_equilibrium (fun q => rfl) (d11 0) (d1n 2) (d1n 0) ?_ ?_
      · simp [move_zero, n]; field_simp; ring
      · simp [n]
  · intro x i
    cases is3D <;> fin_cases i <;> simp [canTS, sym, at', n] <;> (try field_simp) <;> norm_num
  · intro y
    cases is3D <;> simp [canTS, sym, at', n, hL]
  · intro x
    have e : ∀ y, canTS L H F0 is3D (at' x y) 0 n = 6 * F0 / H * (1 / 4 - (y / H - 1 / 2) * (y / H - 1 / 2)) := by
      intro y
      have : canTS L H F0 is3D (at' x y) 0 n = F0 * H * H / (H * H * H / 12) * (1 / 2) * (1 / 4 - (y / H - 1 / 2) * (y / H - 1 / 2)) := by
        cases is3D <;> rfl
      rw [this]; field_simp; ring
    simp only [e]
    have hd : ∀ y ∈ Set.uIcc 0 H, HasDerivAt (fun y => 6 * F0 / H * (1 / 4 * y - H / 3 * (y / H - 1 / 2) ^ 3))
        (6 * F0 / H * (1 / 4 - (y / H - 1 / 2) * (y / H - 1 / 2))) y := by
      intro y _
      refine HasDerivAt.congr_deriv ((((hasDerivAt_id y).const_mul (1 / 4)).sub
        (((((hasDerivAt_id y).div_const H).sub_const (1 / 2)).pow 3).const_mul (H / 3))).const_mul (6 * F0 / H)) ?_
      simp; field_simp; simp
    rw [intervalIntegral.integral_eq_sub_of_hasDerivAt hd (by apply Continuous.intervalIntegrable; fun_prop)]
    field_simp; ring
  · intro x
    have e : ∀ y, canTS L H F0 is3D (at' x y) 0 0 * (y - H / 2) = 12 * F0 / H * (x - L) * ((y / H - 1 / 2) * (y / H - 1 / 2)) := by
      intro y
      have : canTS L H F0 is3D (at' x y) 0 0 = F0 * L * H / (H * H * H / 12) * (x / L - 1) * (y / H - 1 / 2) := by
        cases is3D <;> rfl
      rw [this]; field_simp; try ring
    simp only [e]
    have hd : ∀ y ∈ Set.uIcc 0 H, HasDerivAt (fun y => 12 * F0 / H * (x - L) * (H / 3 * (y / H - 1 / 2) ^ 3))
        (12 * F0 / H * (x - L) * ((y / H - 1 / 2) * (y / H - 1 / 2))) y := by
      intro y _
      refine HasDerivAt.congr_deriv ((((((hasDerivAt_id y).div_const H).sub_const (1 / 2)).pow 3).const_mul (H / 3)).const_mul
        (12 * F0 / H * (x - L))) ?_
      simp; field_simp; simp
    rw [intervalIntegral.integral_eq_sub_of_hasDerivAt hd (by apply Continuous.intervalIntegrable; fun_prop)]
    field_simp; ring

/-- C51 (cantilever with tip moment): equilibrium everywhere, no traction on lower and upper side, no axial force, and the moment is `M0`
in every section. -/
theorem C51_cantilever_moment {H : ℝ} (M0 : ℝ) (hH : 0 < H) (is3D : Bool) :
    let n : Fin 3 := if is3D then 2 else 1
    let at' : ℝ → ℝ → V3 ℝ := fun x y k => if k = 0 then x else if k = n then y else 0
    (∀ p, Equilibrium (canTM H M0 is3D) p) ∧
    (∀ x y i, canTM H M0 is3D (at' x y) i n = 0) ∧
    (∀ x, ∫ y in (0 : ℝ)..H, canTM H M0 is3D (at' x y) 0 0 = 0) ∧
    ∀ x, ∫ y in (0 : ℝ)..H, canTM H M0 is3D (at' x y) 0 0 * (y - H / 2) = M0 := by
  intro n at'
  have hH' := hH.ne'
  refine ⟨?_, ?_, ?_, ?_⟩
  · intro p
    have z : HasDerivAt (fun _ : ℝ => (0 : ℝ)) 0 0 := hasDerivAt_const _ _
    have h00 : HasDerivAt (fun s => canTM H M0 is3D (move p 0 s) 0 0) 0 0 := by
      have : (fun s => canTM H M0 is3D (move p 0 s) 0 0) = fun _ => canTM H M0 is3D p 0 0 := by
        funext s; cases is3D <;> simp [canTM, sym, move]
      rw [this]; exact hasDerivAt_const _ _
    refine ⟨0, fun i j => ?_, by simp⟩
    fin_cases i <;> fin_cases j
    · exact h00
    all_goals exact z
  · intro x y i
    cases is3D <;> fin_cases i <;> simp [canTM, sym, n]
  · intro x
    have e : ∀ y, canTM H M0 is3D (at' x y) 0 0 = 12 * M0 / H ^ 2 * (y / H - 1 / 2) := by
      intro y
      have : canTM H M0 is3D (at' x y) 0 0 = M0 * H / (H * H * H / 12) * (y / H - 1 / 2) := by
        cases is3D <;> rfl
      rw [this]; field_simp; try ring
    simp only [e]
    have hd : ∀ y ∈ Set.uIcc 0 H, HasDerivAt (fun y => 12 * M0 / H ^ 2 * (H / 2 * (y / H - 1 / 2) ^ 2))
        (12 * M0 / H ^ 2 * (y / H - 1 / 2)) y := by
      intro y _
      refine HasDerivAt.congr_deriv ((((((hasDerivAt_id y).div_const H).sub_const (1 / 2)).pow 2).const_mul (H / 2)).const_mul
        (12 * M0 / H ^ 2)) ?_
      simp; field_simp; simp
    rw [intervalIntegral.integral_eq_sub_of_hasDerivAt hd (by apply Continuous.intervalIntegrable; fun_prop)]
    field_simp; ring
  · intro x
    have e : ∀ y, canTM H M0 is3D (at' x y) 0 0 * (y - H / 2) = 12 * M0 / H * ((y / H - 1 / 2) * (y / H - 1 / 2)) := by
      intro y
      have : canTM H M0 is3D (at' x y) 0 0 = M0 * H / (H * H * H / 12) * (y / H - 1 / 2) := by
        cases is3D <;> rfl
      rw [this]; field_simp; try ring
    simp only [e]
    have hd : ∀ y ∈ Set.uIcc 0 H, HasDerivAt (fun y => 12 * M0 / H * (H / 3 * (y / H - 1 / 2) ^ 3))
        (12 * M0 / H * ((y / H - 1 / 2) * (y / H - 1 / 2))) y := by
      intro y _
      refine HasDerivAt.congr_deriv ((((((hasDerivAt_id y).div_const H).sub_const (1 / 2)).pow 3).const_mul (H / 3)).const_mul
        (12 * M0 / H)) ?_
      simp; field_simp; simp
    rw [intervalIntegral.integral_eq_sub_of_hasDerivAt hd (by apply Continuous.intervalIntegrable; fun_prop)]
    field_simp; ring

/-! ### Curved beam -/

theorem plane_open : IsOpen {p : V3 ℝ | p 0 ^ 2 + p 1 ^ 2 ≠ 0} := isOpen_ne_fun (by fun_prop) (by fun_prop)

/-- Form of the stress components of the curved beam. -/
def curvForm (P c d α1 β1 γ1 α2 β2 γ2 V X Y U : ℝ) : ℝ :=
  P * V * (U * (X ^ 2 * (α1 + β1 * (c * U ^ 2) + γ1 * (d * U)) + Y ^ 2 * (α2 + β2 * (c * U ^ 2) + γ2 * (d * U))))

theorem curvForm_deriv (P c d α1 β1 γ1 α2 β2 γ2 : ℝ) {V X Y U : ℝ → ℝ} {V' X' Y' U' : ℝ} (hV : HasDerivAt V V' 0)
    (hX : HasDerivAt X X' 0) (hY : HasDerivAt Y Y' 0) (hU : HasDerivAt U U' 0) :
    HasDerivAt (fun s => curvForm P c d α1 β1 γ1 α2 β2 γ2 (V s) (X s) (Y s) (U s))
      (P * V' * (U 0 * (X 0 ^ 2 * (α1 + β1 * (c * U 0 ^ 2) + γ1 * (d * U 0)) + Y 0 ^ 2 * (α2 + β2 * (c * U 0 ^ 2) + γ2 * (d * U 0)))) +
       P * V 0 * (U' * (X 0 ^ 2 * (α1 + β1 * (c * U 0 ^ 2) + γ1 * (d * U 0)) + Y 0 ^ 2 * (α2 + β2 * (c * U 0 ^ 2) + γ2 * (d * U 0))) +
         U 0 * (2 * X 0 * X' * (α1 + β1 * (c * U 0 ^ 2) + γ1 * (d * U 0)) + X 0 ^ 2 * (β1 * (c * (2 * U 0 * U')) + γ1 * (d * U')) +
           (2 * Y 0 * Y' * (α2 + β2 * (c * U 0 ^ 2) + γ2 * (d * U 0)) + Y 0 ^ 2 * (β2 * (c * (2 * U 0 * U')) + γ2 * (d * U')))))) 0 := by
  unfold curvForm
  have q : ∀ α β γ : ℝ, HasDerivAt (fun s => α + β * (c * U s ^ 2) + γ * (d * U s)) (β * (c * (2 * U 0 * U')) + γ * (d * U')) 0 := by
    intro α β γ
    refine HasDerivAt.congr_deriv (((((hU.pow 2).const_mul c).const_mul β).const_add α).add ((hU.const_mul d).const_mul γ)) ?_
    norm_num
  refine HasDerivAt.congr_deriv ((hV.const_mul P).mul (hU.mul (((hX.pow 2).mul (q α1 β1 γ1)).add ((hY.pow 2).mul (q α2 β2 γ2))))) ?_
  simp only [Pi.pow_apply, Pi.add_apply, Pi.mul_apply]
  push_cast
  ring

/-- Components of the curved beam solution as functions of the coordinates, with `c = a²b²` and `d = a² + b²`. -/
theorem curved_eq (u0 a b E : ℝ) {p : V3 ℝ} (h : p 0 ^ 2 + p 1 ^ 2 ≠ 0) :
    curvedBeam u0 a b E p =
      sym (curvForm (-u0 * E / (Real.pi * (a * a + b * b))) (a ^ 2 * b ^ 2) (a ^ 2 + b ^ 2) 3 3 (-3) 3 (-1) (-1) (p 1) (p 0) (p 1)
          (1 / (p 0 ^ 2 + p 1 ^ 2)))
        (curvForm (-u0 * E / (Real.pi * (a * a + b * b))) (a ^ 2 * b ^ 2) (a ^ 2 + b ^ 2) 1 (-3) 1 1 1 (-1) (p 1) (p 0) (p 1)
          (1 / (p 0 ^ 2 + p 1 ^ 2))) 0
        (curvForm (-u0 * E / (Real.pi * (a * a + b * b))) (a ^ 2 * b ^ 2) (a ^ 2 + b ^ 2) (-1) (-1) 1 (-1) 3 (-1) (p 0) (p 0) (p 1)
          (1 / (p 0 ^ 2 + p 1 ^ 2))) 0 := by
  have hr := (hypot_pos h).ne'
  have hs := hypot_sq (p 0) (p 1)
  unfold curvedBeam
  simp only [cos_atan2 h, sin_atan2]
  unfold transform2 curvForm
  rw [← hs]
  generalize -u0 * E / (Real.pi * (a * a + b * b)) = P
  generalize hypot (p 0) (p 1) = r at hr hs
  congr 1
  · field_simp; ring
  · field_simp; ring
  · field_simp; ring

/-- C51 (curved beam): equilibrium at every point except the centre. -/
theorem C51_curved_equilibrium (u0 a b E : ℝ) {p : V3 ℝ} (hp : p 0 ^ 2 + p 1 ^ 2 ≠ 0) : Equilibrium (curvedBeam u0 a b E) p := by
  have d0 := fun k => curvForm_deriv (-u0 * E / (Real.pi * (a * a + b * b))) (a ^ 2 * b ^ 2) (a ^ 2 + b ^ 2) 3 3 (-3) 3 (-1) (-1)
    (move_deriv p k 1) (move_deriv p k 0) (move_deriv p k 1) (recip_deriv p k hp)
  have d1 := fun k => curvForm_deriv (-u0 * E / (Real.pi * (a * a + b * b))) (a ^ 2 * b ^ 2) (a ^ 2 + b ^ 2) 1 (-3) 1 1 1 (-1)
    (move_deriv p k 1) (move_deriv p k 0) (move_deriv p k 1) (recip_deriv p k hp)
  have d3 := fun k => curvForm_deriv (-u0 * E / (Real.pi * (a * a + b * b))) (a ^ 2 * b ^ 2) (a ^ 2 + b ^ 2) (-1) (-1) 1 (-1) 3 (-1)
    (move_deriv p k 0) (move_deriv p k 0) (move_deriv p k 1) (recip_deriv p k hp)
  refine plane_equilibrium (zz := fun _ => 0) plane_open hp (fun q hq => curved_eq u0 a b E hq) (d0 0) (d3 1) (d3 0) (d1 1)
    (hasDerivAt_const _ _) ?_ ?_ rfl
  · simp only [move_zero]
    generalize -u0 * E / (Real.pi * (a * a + b * b)) = P
    simp
    field_simp
    ring
  · simp only [move_zero]
    generalize -u0 * E / (Real.pi * (a * a + b * b)) = P
    simp
    field_simp
    ring

/-- C51 (curved beam): the inner and outer arcs are free of traction, and there is no normal stress on the end at the first axis, where the
shear load acts. -/
theorem C51_curved_boundary (u0 E : ℝ) {a b : ℝ} (ha : 0 < a) (hb : 0 < b) {p : V3 ℝ} :
    (p 0 ^ 2 + p 1 ^ 2 = a ^ 2 ∨ p 0 ^ 2 + p 1 ^ 2 = b ^ 2 → TractionFree (curvedBeam u0 a b E p) ![p 0, p 1, 0]) ∧
    (p 0 ≠ 0 → p 1 = 0 → curvedBeam u0 a b E p 1 1 = 0) := by
  constructor
  · intro h i
    have hne : p 0 ^ 2 + p 1 ^ 2 ≠ 0 := by rcases h with h | h <;> rw [h] <;> positivity
    rw [curved_eq u0 a b E hne]
    unfold curvForm
    generalize -u0 * E / (Real.pi * (a * a + b * b)) = P
    rcases h with h | h <;> rw [h] <;> fin_cases i <;> simp [sym] <;> field_simp <;>
      (rw [show p 0 ^ 2 = _ - p 1 ^ 2 from eq_sub_of_add_eq h]; ring)
  · intro h0 h1
    have hne : p 0 ^ 2 + p 1 ^ 2 ≠ 0 := by rw [h1]; positivity
    rw [curved_eq u0 a b E hne]
    simp [sym, curvForm, h1]

/-- C51 (curved beam): the sum of the normal stresses satisfies Laplace's equation (compatibility). -/
theorem C51_curved_compatible (u0 a b E : ℝ) :
    Harmonic (fun p => curvedBeam u0 a b E p 0 0 + curvedBeam u0 a b E p 1 1) {p | p 0 ^ 2 + p 1 ^ 2 ≠ 0} := by
  generalize hP : -u0 * E / (Real.pi * (a * a + b * b)) = P
  have tr : ∀ q : V3 ℝ, q 0 ^ 2 + q 1 ^ 2 ≠ 0 → curvedBeam u0 a b E q 0 0 + curvedBeam u0 a b E q 1 1 =
      P * (q 1 * (4 - 2 * (a ^ 2 + b ^ 2) * (1 / (q 0 ^ 2 + q 1 ^ 2)))) := by
    intro q hq
    rw [curved_eq u0 a b E hq, hP]
    simp [sym, curvForm]
    field_simp
    ring
  let d := a ^ 2 + b ^ 2
  let u : V3 ℝ → ℝ := fun q => 1 / (q 0 ^ 2 + q 1 ^ 2)
  refine ⟨![fun q => 4 * P * d * (q 0 * q 1 * u q ^ 2), fun q => P * (4 - 2 * d * u q + 4 * d * (q 1 ^ 2 * u q ^ 2)), fun _ => 0],
    ![fun q => 4 * P * d * (q 1 * u q ^ 2 - 4 * q 0 ^ 2 * q 1 * u q ^ 3),
      fun q => P * (4 * d * q 1 * u q ^ 2 + 4 * d * (2 * q 1 * u q ^ 2 - 4 * q 1 ^ 3 * u q ^ 3)), fun _ => 0], ?_⟩
  intro p hp
  have hu := fun j => recip_deriv p j hp
  refine ⟨fun j => ⟨?_, ?_⟩, ?_⟩
  · have ev : (fun s => curvedBeam u0 a b E (move p j s) 0 0 + curvedBeam u0 a b E (move p j s) 1 1) =ᶠ[𝓝 0] fun s =>
        P * (move p j s 1 * (4 - 2 * (a ^ 2 + b ^ 2) * (1 / (move p j s 0 ^ 2 + move p j s 1 ^ 2)))) := by
      filter_upwards [move_mem plane_open hp j] with s hs
      exact tr _ hs
    refine HasDerivAt.congr_of_eventuallyEq ?_ ev
    refine HasDerivAt.congr_deriv (((move_deriv p j 1).mul (((hu j).const_mul (2 * (a ^ 2 + b ^ 2))).const_sub 4)).const_mul P) ?_
    have hw : 1 / (p 0 ^ 2 + p 1 ^ 2) = u p := rfl
    have hd : a ^ 2 + b ^ 2 = d := rfl
    simp only [move_zero, hw, hd]
    fin_cases j <;> simp <;> first | (left; ring1) | ring1
  · fin_cases j
    · refine HasDerivAt.congr_deriv ((((move_deriv p 0 0).mul (move_deriv p 0 1)).mul ((hu 0).pow 2)).const_mul (4 * P * d)) ?_
      have hw : 1 / (p 0 ^ 2 + p 1 ^ 2) = u p := rfl
      simp only [move_zero, hw, Pi.pow_apply, Pi.mul_apply]
      simp
      left; ring
    · refine HasDerivAt.congr_deriv (((((hu 1).const_mul (2 * d)).const_sub 4).add
        ((((move_deriv p 1 1).pow 2).mul ((hu 1).pow 2)).const_mul (4 * d))).const_mul P) ?_
      have hw : 1 / (p 0 ^ 2 + p 1 ^ 2) = u p := rfl
      simp only [move_zero, hw, Pi.pow_apply, Pi.mul_apply]
      simp
      left; ring
    · exact hasDerivAt_const _ _
  · have hne : p 0 ^ 2 + p 1 ^ 2 ≠ 0 := hp
    simp [u]
    field_simp
    ring

example : (![3 / 2, 1, 0] : V3 ℝ) 0 ^ 2 + (![3 / 2, 1, 0] : V3 ℝ) 1 ^ 2 ≠ 0 := by norm_num

end Verif.Analytic
