/-
C44: the tangent stiffness of the bar. C42 (bar): mass matrices of the bar.
-/
import Verif.Model.Bar
import Verif.Proofs.Assign
import Mathlib.Analysis.SpecialFunctions.Log.Deriv
import Mathlib.Analysis.SpecialFunctions.Sqrt
import Mathlib.Tactic.FinCases
import Mathlib.Tactic.IntervalCases
import Mathlib.Tactic.LinearCombination
import Mathlib.Tactic.FieldSimp
import Mathlib.Tactic.Positivity

set_option linter.unusedSectionVars false
set_option linter.unusedSimpArgs false
set_option linter.unusedVariables false
set_option linter.unnecessarySeqFocus false

namespace Verif.Bar

open Verif.Beam (Mat V3)

/-! ### What the theorems are about -/

/-- Component `i` of vector `s` of an element, zero if the evaluation failed. -/
noncomputable def vecOf (r : Res Mats) (s i : Nat) : ℝ :=
  match r with
  | .ok E => E.b s i
  | _ => 0

/-- The six displacements of the two end points. -/
def six (v1 v2 : V3 ℝ) (j : Nat) : ℝ := if j ≤ 3 then at1 v1 j else at1 v2 j

/-- `uᵀ A v` for a 6×6 matrix. -/
def form6 (A : Mat ℝ) (u v : Nat → ℝ) : ℝ :=
  ∑ i ∈ Finset.range 6, u (i + 1) * ∑ j ∈ Finset.range 6, A (i + 1) (j + 1) * v (j + 1)

/-! ### Lemmas -/

theorem len_sq (d : V3 ℝ) : len d * len d = d 0 * d 0 + d 1 * d 1 + d 2 * d 2 :=
  Real.mul_self_sqrt (by nlinarith [mul_self_nonneg (d 0), mul_self_nonneg (d 1), mul_self_nonneg (d 2)])

theorem unit_sq (d : V3 ℝ) (h : 0 < len d) : unit d 0 * unit d 0 + unit d 1 * unit d 1 + unit d 2 * unit d 2 = 1 := by
  have := len_sq d
  simp only [unit]
  have h' := h.ne'
  field_simp
  nlinarith

/-- Two orthogonal unit vectors and their cross product are a complete set of axes. -/
theorem two_axes (X Y : V3 ℝ) (hX : X 0 * X 0 + X 1 * X 1 + X 2 * X 2 = 1) (hY : Y 0 * Y 0 + Y 1 * Y 1 + Y 2 * Y 2 = 1)
    (h : X 0 * Y 0 + X 1 * Y 1 + X 2 * Y 2 = 0) (i j : Fin 3) :
    Y i * Y j + cross X Y i * cross X Y j = (if i = j then 1 else 0) - X i * X j := by
  fin_cases i <;> fin_cases j <;> simp [cross]
  · linear_combination (Y 1 * Y 1 + Y 2 * Y 2) * hX + (1 - X 0 * X 0) * hY - (X 1 * Y 1 + X 2 * Y 2 - X 0 * Y 0) * h
  · linear_combination -X 0 * X 1 * hY - Y 0 * Y 1 * hX + (X 1 * Y 0 + X 0 * Y 1) * h
  · linear_combination -X 0 * X 2 * hY - Y 0 * Y 2 * hX + (X 2 * Y 0 + X 0 * Y 2) * h
  · linear_combination -X 0 * X 1 * hY - Y 0 * Y 1 * hX + (X 1 * Y 0 + X 0 * Y 1) * h
  · linear_combination (Y 0 * Y 0 + Y 2 * Y 2) * hX + (1 - X 1 * X 1) * hY - (X 0 * Y 0 + X 2 * Y 2 - X 1 * Y 1) * h
  · linear_combination -X 1 * X 2 * hY - Y 1 * Y 2 * hX + (X 2 * Y 1 + X 1 * Y 2) * h
  · linear_combination -X 0 * X 2 * hY - Y 0 * Y 2 * hX + (X 2 * Y 0 + X 0 * Y 2) * h
  · linear_combination -X 1 * X 2 * hY - Y 1 * Y 2 * hX + (X 2 * Y 1 + X 1 * Y 2) * h
  · linear_combination (Y 0 * Y 0 + Y 1 * Y 1) * hX + (1 - X 2 * X 2) * hY - (X 0 * Y 0 + X 1 * Y 1 - X 2 * Y 2) * h

theorem len_pos {d : V3 ℝ} (h : 0 < d 0 * d 0 + d 1 * d 1 + d 2 * d 2) : 0 < len d := Real.sqrt_pos.mpr h

theorem cross_neg (X Y : V3 ℝ) (i : Fin 3) : cross Y X i = -cross X Y i := by
  fin_cases i <;> simp [cross] <;> ring

/-- The two local axes span the plane normal to the bar. -/
theorem axes_proj (X : V3 ℝ) (h : X 0 * X 0 + X 1 * X 1 + X 2 * X 2 = 1) (i j : Fin 3) :
    (axes X).1 i * (axes X).1 j + (axes X).2 i * (axes X).2 j = (if i = j then 1 else 0) - X i * X j := by
  unfold axes
  by_cases c : |X 2| > |X 1|
  · rw [if_pos c]
    have hq : 0 < X 0 * X 0 + X 2 * X 2 := by
      have : X 2 ≠ 0 := abs_pos.mp (lt_of_le_of_lt (abs_nonneg _) c)
      have := mul_self_pos.mpr this
      nlinarith [mul_self_nonneg (X 0)]
    have hl : 0 < len ![-X 1 * X 0, X 0 * X 0 + X 2 * X 2, -X 1 * X 2] := by
      refine len_pos ?_
      simp
      nlinarith [mul_pos hq hq, mul_self_nonneg (X 1 * X 0), mul_self_nonneg (X 1 * X 2)]
    refine two_axes X _ h (unit_sq _ hl) ?_ i j
    simp only [unit]
    field_simp
    simp
    left
    ring
  · rw [if_neg c]
    have hq : 0 < X 0 * X 0 + X 1 * X 1 := by
      by_contra h0
      have h1 : X 1 = 0 := by
        have := mul_self_nonneg (X 0)
        have := mul_self_nonneg (X 1)
        have : X 1 * X 1 = 0 := by linarith
        exact mul_self_eq_zero.mp this
      rw [h1, abs_zero] at c
      have h2 : X 2 = 0 := abs_eq_zero.mp (le_antisymm (not_lt.mp c) (abs_nonneg _))
      rw [h1] at h h0
      rw [h2] at h
      linarith
    have hl : 0 < len ![-X 2 * X 0, -X 2 * X 1, X 0 * X 0 + X 1 * X 1] := by
      refine len_pos ?_
      simp
      nlinarith [mul_pos hq hq, mul_self_nonneg (X 2 * X 0), mul_self_nonneg (X 2 * X 1)]
    have := two_axes X _ h (unit_sq _ hl) (by simp only [unit]; field_simp; simp; left; ring) i j
    rw [← this]
    dsimp only
    rw [cross_neg X, cross_neg X]
    ring

/-! ### The axial force and its derivative -/

/-- The leading block of the tangent. -/
noncomputable def lead (m : Char) (k L0 : ℝ) (d : V3 ℝ) (i j : Fin 3) : ℝ :=
  let n := nominal m true k (len d) L0
  n.2.1 * unit d i * unit d j + geoEntry m n.2.2 (unit d) (if len d ≠ L0 then (axes (unit d)).1 else fun _ => 0)
    (if len d ≠ L0 then (axes (unit d)).2 else fun _ => 0) i j

theorem len_deriv (d w : V3 ℝ) (h : 0 < len d) :
    HasDerivAt (fun t : ℝ => len (d + t • w)) ((d 0 * w 0 + d 1 * w 1 + d 2 * w 2) / len d) 0 := by
  have h1 : ∀ i, HasDerivAt (fun t : ℝ => (d + t • w) i) (w i) 0 := by
    intro i
    have := ((hasDerivAt_id (0 : ℝ)).mul_const (w i)).const_add (d i)
    simpa using this
  have h2 := ((h1 0).mul (h1 0)).add ((h1 1).mul (h1 1)) |>.add ((h1 2).mul (h1 2))
  have e0 : (d + (0 : ℝ) • w) = d := by simp
  simp only [e0] at h2
  have hs : Real.sqrt (d 0 * d 0 + d 1 * d 1 + d 2 * d 2) = len d := rfl
  have h3 : HasDerivAt (fun t : ℝ => len (d + t • w)) _ 0 := h2.sqrt (by
    have : (d + (0 : ℝ) • w) 0 * (d + (0 : ℝ) • w) 0 + (d + (0 : ℝ) • w) 1 * (d + (0 : ℝ) • w) 1 +
        (d + (0 : ℝ) • w) 2 * (d + (0 : ℝ) • w) 2 ≠ 0 := by
      rw [e0, ← len_sq]; exact (mul_pos h h).ne'
    exact this)
  refine h3.congr_deriv ?_
  simp only [Pi.add_apply (ι := ℝ), Pi.mul_apply (ι := ℝ), e0, hs]
  have hne := h.ne'
  field_simp
  ring

theorem force_deriv (m : Char) (k L0 : ℝ) (d w : V3 ℝ) (h0 : 0 < L0) (h : 0 < len d) (b : Bool) (i : Fin 3) :
    HasDerivAt (fun t : ℝ => (nominal m b k (len (d + t • w)) L0).1 * unit (d + t • w) i)
      (lead m k L0 d i 0 * w 0 + lead m k L0 d i 1 * w 1 + lead m k L0 d i 2 * w 2) 0 := by
  have hL := len_deriv d w h
  have hd : HasDerivAt (fun t : ℝ => (d + t • w) i) (w i) 0 := by
    have := ((hasDerivAt_id (0 : ℝ)).mul_const (w i)).const_add (d i)
    simpa using this
  have e0 : len (d + (0 : ℝ) • w) = len d := by simp
  have hl : len (d + (0 : ℝ) • w) ≠ 0 := by rw [e0]; exact h.ne'
  have hu : HasDerivAt (fun t : ℝ => unit (d + t • w) i) ((w i * len d - d i * ((d 0 * w 0 + d 1 * w 1 + d 2 * w 2) / len d)) / len d ^ 2) 0 := by
    refine HasDerivAt.congr_deriv (hd.div hL hl) ?_
    simp
  have hlam : HasDerivAt (fun t : ℝ => len (d + t • w) / L0) ((d 0 * w 0 + d 1 * w 1 + d 2 * w 2) / len d / L0) 0 := hL.div_const L0
  have hn := h.ne'
  have hL0 := h0.ne'
  have hu0 : unit (d + (0 : ℝ) • w) = unit d := by simp
  by_cases hG : m = 'G'
  · subst hG
    have hF := (((hlam.const_mul (1 / 2 : ℝ)).mul hlam).sub_const (1 / 2 : ℝ)).const_mul k |>.mul hlam
    have := hF.mul hu
    simp only [Pi.mul_apply, e0, hu0] at this
    have key : ∀ L, (nominal 'G' b k L L0).1 = k * (1 / 2 * (L / L0) * (L / L0) - 1 / 2) * (L / L0) := by
      intro L; simp [nominal, getStrain]
    simp only [key]
    refine HasDerivAt.congr_deriv this ?_
    fin_cases i <;> simp [lead, nominal, geoEntry, getStrain, unit, show ('G' : Char) ≠ 'E' by decide] <;> field_simp <;> ring
  by_cases hl' : m = 'L'
  · subst hl'
    have hF := (((hlam.log (by rw [e0]; positivity)).const_mul k).div hlam (by rw [e0]; positivity))
    have := hF.mul hu
    simp only [Pi.mul_apply, Pi.div_apply, e0, hu0] at this
    have key : ∀ L, (nominal 'L' b k L L0).1 = k * Real.log (L / L0) / (L / L0) := by
      intro L; simp [nominal, getStrain, show ('L' : Char) ≠ 'G' by decide]
    simp only [key]
    refine HasDerivAt.congr_deriv this ?_
    fin_cases i <;> simp [lead, nominal, geoEntry, getStrain, unit, show ('L' : Char) ≠ 'E' by decide,
      show ('L' : Char) ≠ 'G' by decide] <;> field_simp <;> ring
  · have hF := (hlam.sub_const (1 : ℝ)).const_mul k
    have := hF.mul hu
    simp only [e0, hu0] at this
    have hg : ∀ j, lead m k L0 d i j = k / L0 * unit d i * unit d j +
        k * (len d / L0 - 1) / len d * ((if i = j then 1 else 0) - unit d i * unit d j) := by
      intro j
      simp only [lead, nominal, geoEntry, getStrain, if_neg hG, if_neg hl', if_true]
      by_cases hE : m = 'E'
      · rw [if_pos hE]
      · rw [if_neg hE]
        by_cases hll : len d = L0
        · simp [hll, hL0]
        · rw [if_pos hll, if_pos hll, axes_proj _ (unit_sq d h)]
    simp only [hg]
    simp only [nominal, getStrain, if_neg hG, if_neg hl']
    refine HasDerivAt.congr_deriv this ?_
    fin_cases i <;> simp [unit] <;> field_simp <;> ring

/-! ### Results of the evaluation -/

/-- The line element at the displacements `u1` and `u2` of its ends. -/
def diff (X1 X2 u1 u2 : V3 ℝ) : V3 ℝ := (X2 + u2) - (X1 + u1)

theorem evalInt_ok (p : Data) (s : Slots) (X1 X2 u1 u2 : V3 ℝ) (E : Mats) (h0 : 1 / 100000000 < len (X2 - X1))
    (h : 1 / 100000000 < len (diff X1 X2 u1 u2)) :
    evalInt p s X1 X2 (some (u1, u2)) E
      = .ok (fill p s (unit (diff X1 X2 u1 u2)) (len (diff X1 X2 u1 u2)) (len (X2 - X1)) E) := by
  unfold evalInt
  simp only [diff] at h ⊢
  rw [if_neg (not_le.mpr h0), if_neg (not_le.mpr h)]

/-- The stiffness matrix when material and geometric part are added up. -/
theorem stiff_entry (p : Data) (s : Slots) (d : V3 ℝ) (L0 : ℝ) (A : Nat → Mat ℝ) (h1 : s.eKm ≠ 0) (h2 : s.eKg = s.eKm)
    (i j : Nat) (hi : 1 ≤ i) (hi' : i ≤ 6) (hj : 1 ≤ j) (hj' : j ≤ 6) :
    stiff p s (unit d) (len d) L0 A s.eKm i j
      = (if i ≤ 3 ↔ j ≤ 3 then 1 else -1) * at2 (lead p.measure p.stiffness L0 d) i j := by
  have hb : (s.eKm != 0) = true := by simpa using h1
  have hg : s.eKg ≠ 0 := by rw [h2]; exact h1
  have key : ∀ A0 : Nat → Mat ℝ, (∀ a b, 1 ≤ a → a ≤ 3 → 1 ≤ b → b ≤ 3 → A0 s.eKm a b = at2 (lead p.measure p.stiffness L0 d) a b) →
      mirror A0 s.eKm s.eKm s.eKm i j = (if i ≤ 3 ↔ j ≤ 3 then 1 else -1) * at2 (lead p.measure p.stiffness L0 d) i j := by
    intro A0 hA
    unfold mirror
    rw [if_pos rfl]
    have e1 := hA i j
    have e2 := hA (i - 3) (j - 3)
    have e3 := hA i (j - 3)
    have e4 := hA (i - 3) j
    interval_cases i <;> interval_cases j <;> norm_num at e1 e2 e3 e4 ⊢ <;> first | rw [e1] | rw [e2]; rfl | rw [e3]; rfl | rw [e4]; rfl
  unfold stiff
  rw [if_neg h1]
  simp only [h2, hb, if_neg h1, ne_eq, not_true_eq_false, and_false, if_false, h1, not_false_eq_true, true_and, if_true]
  refine key _ (fun a b ha ha' hb' hb'' => ?_)
  by_cases hn : (nominal p.measure true p.stiffness (len d) L0).2.2 = 0
  · rw [if_pos hn, setLead, if_pos ⟨rfl, ha, ha', hb', hb''⟩]
    simp only [at2, lead, hn]
    simp [geoEntry]
  · rw [if_neg hn, addLead, if_pos ⟨rfl, ha, ha', hb', hb''⟩, setLead, if_pos ⟨rfl, ha, ha', hb', hb''⟩]
    simp only [at2, lead, ne_eq]

theorem fill_A (p : Data) (s : Slots) (X : V3 ℝ) (L L0 : ℝ) (E : Mats) (k : Nat) (h : s.eM ≠ k) :
    (fill p s X L L0 E).A k = stiff p s X L L0 E.A k := by
  simp only [fill]
  split_ifs
  · rfl
  · rw [Function.update_of_ne (Ne.symm h)]

/-- The vector of internal forces: a part that does not depend on the displacements, and plus or minus the axial force. -/
theorem fill_b (p : Data) (s : Slots) (L0 : ℝ) (E : Mats) (h : s.iS ≠ 0) :
    ∃ c : Nat → ℝ, (s.iS ≠ s.eS → c = 0) ∧ ∀ (X : V3 ℝ) (L : ℝ) (i : Nat), 1 ≤ i → i ≤ 6 → (fill p s X L L0 E).b s.iS i =
      c i + (if i ≤ 3 then 1 else -1) * ((nominal p.measure (s.eKg != 0) p.stiffness L L0).1 * at1 X i) := by
  refine ⟨fun i => if s.iS = s.eS then (if s.eS = 0 then E.b else Function.update E.b s.eS
    (gravityForce (1 / 2 * p.lineMass * L0) p.gravity (E.b s.eS))) s.iS i else 0, ?_, ?_⟩
  · intro h; funext i; simp [h]
  · intro X L i h1 h2
    simp only [fill, if_neg h, Function.update_self, internalForce]
    by_cases hs : s.iS = s.eS
    · simp only [hs, beq_self_eq_true, if_true]
      by_cases hi : i ≤ 3
      · rw [if_pos ⟨h1, hi⟩, if_pos hi]; ring
      · rw [if_neg (by omega), if_pos (by omega), if_neg hi]; ring
    · have : (s.iS == s.eS) = false := by simpa using hs
      simp only [this, if_neg hs]
      by_cases hi : i ≤ 3
      · rw [if_pos ⟨h1, hi⟩, if_pos hi]; simp
      · rw [if_neg (by omega), if_pos (by omega), if_neg hi]; simp

theorem diff_line (X1 X2 u1 u2 v1 v2 : V3 ℝ) (t : ℝ) :
    diff X1 X2 (u1 + t • v1) (u2 + t • v2) = diff X1 X2 u1 u2 + t • (v2 - v1) := by
  funext i
  simp only [diff, Pi.add_apply, Pi.sub_apply, Pi.smul_apply, smul_eq_mul]
  ring

/-! ### C44 -/

/-- C44: for every strain measure, the stiffness matrix with both parts is minus the derivative of the nodal forces with
respect to the end displacements, in every direction. -/
theorem C44_tangent (p : Data) (s : Slots) (X1 X2 u1 u2 v1 v2 : V3 ℝ) (E : Mats)
    (h0 : 1 / 100000000 < len (X2 - X1)) (h : 1 / 100000000 < len ((X2 + u2) - (X1 + u1)))
    (hm : s.eKm ≠ 0) (hg : s.eKg = s.eKm) (hM : s.eM ≠ s.eKm) (hs : s.iS ≠ 0) :
    ∃ E', evalInt p s X1 X2 (some (u1, u2)) E = .ok E' ∧ ∀ i, 1 ≤ i → i ≤ 6 →
      HasDerivAt (fun t : ℝ => vecOf (evalInt p s X1 X2 (some (u1 + t • v1, u2 + t • v2)) E) s.iS i)
        (-∑ j ∈ Finset.range 6, E'.A s.eKm i (j + 1) * six v1 v2 (j + 1)) 0 := by
  refine ⟨_, evalInt_ok p s X1 X2 u1 u2 E h0 h, fun i h1 h6 => ?_⟩
  have hl : (0 : ℝ) < len (diff X1 X2 u1 u2) := lt_trans (by norm_num) h
  have hl0 : 0 < len (X2 - X1) := lt_trans (by norm_num) h0
  obtain ⟨c, -, hc⟩ := fill_b p s (len (X2 - X1)) E hs
  have hcont := (len_deriv (diff X1 X2 u1 u2) (v2 - v1) hl).continuousAt
  have hev : ∀ᶠ t : ℝ in nhds 0, 1 / 100000000 < len (diff X1 X2 u1 u2 + t • (v2 - v1)) := by
    refine hcont.eventually (lt_mem_nhds ?_)
    have e0 : diff X1 X2 u1 u2 + (0 : ℝ) • (v2 - v1) = diff X1 X2 u1 u2 := by simp
    simp only [e0]; exact h
  have hf := ((force_deriv p.measure p.stiffness (len (X2 - X1)) (diff X1 X2 u1 u2) (v2 - v1) hl0 hl (s.eKg != 0)
    ⟨(i - 1) % 3, Nat.mod_lt _ (by omega)⟩).const_mul (if i ≤ 3 then (1 : ℝ) else -1)).const_add (c i)
  have hf2 := hf.congr_of_eventuallyEq (f₁ := fun t : ℝ => vecOf (evalInt p s X1 X2 (some (u1 + t • v1, u2 + t • v2)) E) s.iS i)
    (by
      filter_upwards [hev] with t ht
      rw [evalInt_ok p s X1 X2 _ _ E h0 (by rw [diff_line]; exact ht), diff_line]
      exact hc _ _ i h1 h6)
  refine hf2.congr_deriv ?_
  rw [fill_A _ _ _ _ _ _ _ hM]
  simp only [Finset.sum_range_succ, Finset.range_zero, Finset.sum_empty]
  rw [stiff_entry p s _ _ _ hm hg i _ h1 h6 (by norm_num) (by norm_num), stiff_entry p s _ _ _ hm hg i _ h1 h6 (by norm_num) (by norm_num),
    stiff_entry p s _ _ _ hm hg i _ h1 h6 (by norm_num) (by norm_num), stiff_entry p s _ _ _ hm hg i _ h1 h6 (by norm_num) (by norm_num),
    stiff_entry p s _ _ _ hm hg i _ h1 h6 (by norm_num) (by norm_num), stiff_entry p s _ _ _ hm hg i _ h1 h6 (by norm_num) (by norm_num)]
  interval_cases i <;> simp [at2, at1, six] <;> ring

/-- C44: the nodal forces are minus the derivative of the strain energy `½ k L0 ε²`. -/
theorem C44_energy (p : Data) (s : Slots) (X1 X2 u1 u2 v1 v2 : V3 ℝ) (E : Mats)
    (h0 : 1 / 100000000 < len (X2 - X1)) (h : 1 / 100000000 < len ((X2 + u2) - (X1 + u1))) (hs : s.iS ≠ 0) (he : s.iS ≠ s.eS) :
    ∃ E', evalInt p s X1 X2 (some (u1, u2)) E = .ok E' ∧
      HasDerivAt (fun t : ℝ => 1 / 2 * p.stiffness * len (X2 - X1) *
          (getStrain p.measure (len ((X2 + (u2 + t • v2)) - (X1 + (u1 + t • v1))) / len (X2 - X1))) ^ 2)
        (-∑ j ∈ Finset.range 6, E'.b s.iS (j + 1) * six v1 v2 (j + 1)) 0 := by
  refine ⟨_, evalInt_ok p s X1 X2 u1 u2 E h0 h, ?_⟩
  have hl : (0 : ℝ) < len (diff X1 X2 u1 u2) := lt_trans (by norm_num) h
  have hl0 : 0 < len (X2 - X1) := lt_trans (by norm_num) h0
  obtain ⟨c, h1, hc⟩ := fill_b p s (len (X2 - X1)) E hs
  have hc0 := h1 he
  simp only [Finset.sum_range_succ, Finset.range_zero, Finset.sum_empty]
  rw [hc _ _ _ (by norm_num) (by norm_num), hc _ _ _ (by norm_num) (by norm_num), hc _ _ _ (by norm_num) (by norm_num),
    hc _ _ _ (by norm_num) (by norm_num), hc _ _ _ (by norm_num) (by norm_num), hc _ _ _ (by norm_num) (by norm_num), hc0]
  have e : ∀ t : ℝ, (X2 + (u2 + t • v2)) - (X1 + (u1 + t • v1)) = diff X1 X2 u1 u2 + t • (v2 - v1) := fun t => diff_line X1 X2 u1 u2 v1 v2 t
  simp only [e]
  have hlam := (len_deriv (diff X1 X2 u1 u2) (v2 - v1) hl).div_const (len (X2 - X1))
  generalize hd : diff X1 X2 u1 u2 = d at *
  generalize hL0 : len (X2 - X1) = L0 at *
  have e0 : len (d + (0 : ℝ) • (v2 - v1)) = len d := by simp
  have hn := hl.ne'
  have hn0 := hl0.ne'
  have main : ∀ g', HasDerivAt (fun t : ℝ => getStrain p.measure (len (d + t • (v2 - v1)) / L0)) g' 0 →
      HasDerivAt (fun t : ℝ => 1 / 2 * p.stiffness * L0 * (getStrain p.measure (len (d + t • (v2 - v1)) / L0)) ^ 2)
        (p.stiffness * L0 * getStrain p.measure (len d / L0) * g') 0 := by
    intro g' hg
    refine ((hg.pow 2).const_mul (1 / 2 * p.stiffness * L0)).congr_deriv ?_
    rw [e0]
    push_cast
    ring
  by_cases hG : p.measure = 'G'
  · have h3 := ((hlam.const_mul (1 / 2 : ℝ)).mul hlam).sub_const (1 / 2 : ℝ)
    have h4 : ∀ f', HasDerivAt (fun t : ℝ => 1 / 2 * (len (d + t • (v2 - v1)) / L0) * (len (d + t • (v2 - v1)) / L0) - 1 / 2) f' 0 →
        HasDerivAt (fun t : ℝ => getStrain p.measure (len (d + t • (v2 - v1)) / L0)) f' 0 := by
      intro f' hf; simpa only [getStrain, if_pos hG] using hf
    refine (main _ (h4 _ h3)).congr_deriv ?_
    simp only [e0]
    simp [nominal, getStrain, hG, at1, six, unit]
    field_simp
    ring
  by_cases hL : p.measure = 'L'
  · have h3 := hlam.log (by rw [e0]; positivity)
    have h4 : ∀ f', HasDerivAt (fun t : ℝ => Real.log (len (d + t • (v2 - v1)) / L0)) f' 0 →
        HasDerivAt (fun t : ℝ => getStrain p.measure (len (d + t • (v2 - v1)) / L0)) f' 0 := by
      intro f' hf; simpa only [getStrain, if_neg hG, if_pos hL] using hf
    refine (main _ (h4 _ h3)).congr_deriv ?_
    simp only [e0]
    simp [nominal, getStrain, hL, at1, six, unit]
    field_simp
    ring
  · have h3 := hlam.sub_const (1 : ℝ)
    have h4 : ∀ f', HasDerivAt (fun t : ℝ => len (d + t • (v2 - v1)) / L0 - 1) f' 0 →
        HasDerivAt (fun t : ℝ => getStrain p.measure (len (d + t • (v2 - v1)) / L0)) f' 0 := by
      intro f' hf; simpa only [getStrain, if_neg hG, if_neg hL] using hf
    refine (main _ (h4 _ h3)).congr_deriv ?_
    simp [nominal, getStrain, hG, hL, at1, six, unit]
    field_simp
    ring

/-- C44: the two nodal forces are opposite and directed along the bar. -/
theorem C44_equilibrium (p : Data) (s : Slots) (X1 X2 u1 u2 : V3 ℝ) (E : Mats)
    (h0 : 1 / 100000000 < len (X2 - X1)) (h : 1 / 100000000 < len ((X2 + u2) - (X1 + u1))) (hs : s.iS ≠ 0) (he : s.iS ≠ s.eS) :
    ∃ E', evalInt p s X1 X2 (some (u1, u2)) E = .ok E' ∧
      ∃ N, ∀ i : Fin 3, E'.b s.iS (i + 1) = N * ((X2 i + u2 i) - (X1 i + u1 i)) ∧ E'.b s.iS (i + 4) = -E'.b s.iS (i + 1) := by
  refine ⟨_, evalInt_ok p s X1 X2 u1 u2 E h0 h, ?_⟩
  obtain ⟨c, h1, hc⟩ := fill_b p s (len (X2 - X1)) E hs
  have hc0 := h1 he
  refine ⟨(nominal p.measure (s.eKg != 0) p.stiffness (len (diff X1 X2 u1 u2)) (len (X2 - X1))).1 / len (diff X1 X2 u1 u2), fun i => ?_⟩
  fin_cases i <;> refine ⟨?_, ?_⟩ <;> simp only [] <;> norm_num <;>
    (repeat rw [hc _ _ _ (by norm_num) (by norm_num)]) <;> simp [hc0, at1, unit, diff] <;> ring

/-- C44: with one matrix for both parts, the stiffness is symmetric and a rigid translation gives no force. -/
theorem C44_translation (p : Data) (s : Slots) (X1 X2 u1 u2 t : V3 ℝ) (E : Mats)
    (h0 : 1 / 100000000 < len (X2 - X1)) (h : 1 / 100000000 < len ((X2 + u2) - (X1 + u1)))
    (hm : s.eKm ≠ 0) (hg : s.eKg = s.eKm) (hM : s.eM ≠ s.eKm) :
    ∃ E', evalInt p s X1 X2 (some (u1, u2)) E = .ok E' ∧ ∀ i, 1 ≤ i → i ≤ 6 →
      ∑ j ∈ Finset.range 6, E'.A s.eKm i (j + 1) * six t t (j + 1) = 0 := by
  refine ⟨_, evalInt_ok p s X1 X2 u1 u2 E h0 h, fun i h1 h6 => ?_⟩
  rw [fill_A _ _ _ _ _ _ _ hM]
  simp only [Finset.sum_range_succ, Finset.range_zero, Finset.sum_empty]
  rw [stiff_entry p s _ _ _ hm hg i _ h1 h6 (by norm_num) (by norm_num), stiff_entry p s _ _ _ hm hg i _ h1 h6 (by norm_num) (by norm_num),
    stiff_entry p s _ _ _ hm hg i _ h1 h6 (by norm_num) (by norm_num), stiff_entry p s _ _ _ hm hg i _ h1 h6 (by norm_num) (by norm_num),
    stiff_entry p s _ _ _ hm hg i _ h1 h6 (by norm_num) (by norm_num), stiff_entry p s _ _ _ hm hg i _ h1 h6 (by norm_num) (by norm_num)]
  interval_cases i <;> simp [at2, at1, six] <;> ring

/-- The material and geometric stiffness when they are separate, unless the latter is zero. -/
theorem stiff_sep (p : Data) (s : Slots) (X : V3 ℝ) (L L0 : ℝ) (A : Nat → Mat ℝ) (h1 : s.eKm ≠ 0) (h2 : s.eKg ≠ s.eKm)
    (h3 : s.eKg ≠ 0) (i j : Nat) (hi : 1 ≤ i) (hi' : i ≤ 6) (hj : 1 ≤ j) (hj' : j ≤ 6) :
    stiff p s X L L0 A s.eKm i j = (if i ≤ 3 ↔ j ≤ 3 then 1 else -1) *
      at2 (fun i j => (nominal p.measure true p.stiffness L L0).2.1 * X i * X j) i j ∧
    ((nominal p.measure true p.stiffness L L0).2.2 = 0 → stiff p s X L L0 A s.eKg i j = A s.eKg i j) ∧
    ((nominal p.measure true p.stiffness L L0).2.2 ≠ 0 → stiff p s X L L0 A s.eKg i j = if i ≤ 3 ↔ j ≤ 3 then
      at2 (geoEntry p.measure (nominal p.measure true p.stiffness L L0).2.2 X (if L ≠ L0 then (axes X).1 else fun _ => 0)
        (if L ≠ L0 then (axes X).2 else fun _ => 0)) i j
      else -at2 (fun i j => (nominal p.measure true p.stiffness L L0).2.1 * X i * X j) i j) := by
  have hb : (s.eKg != 0) = true := by simpa using h3
  unfold stiff
  rw [if_neg h1]
  simp only [hb, if_neg h2, if_neg h3, ne_eq, h2, h3, not_false_eq_true, and_true, true_and]
  by_cases hn : (nominal p.measure true p.stiffness L L0).2.2 = 0
  · refine ⟨?_, fun _ => ?_, fun h => absurd hn h⟩
    · rw [if_neg (not_not.mpr hn), if_pos hn]
      unfold mirror setLead
      interval_cases i <;> interval_cases j <;> simp [at2]
    · rw [if_neg (not_not.mpr hn), if_pos hn]
      simp [mirror, setLead, h2]
  · refine ⟨?_, fun h => absurd h hn, fun _ => ?_⟩
    · rw [if_pos hn, if_neg hn]
      have h2' : s.eKm ≠ s.eKg := Ne.symm h2
      unfold mirror setLead
      interval_cases i <;> interval_cases j <;> simp [at2, h2, h2']
    · rw [if_pos hn, if_neg hn]
      have h2' : s.eKm ≠ s.eKg := Ne.symm h2
      unfold mirror setLead
      interval_cases i <;> interval_cases j <;> simp [at2, h2, h2']

/-- C44 is violated in a buckling analysis, where the two parts are separate: the off-diagonal blocks of the geometric stiffness
are taken from the material stiffness, so that a translation normal to a stretched bar gives a force. -/
theorem C44_buckling_violated (lumped : Bool) (lineMass : ℝ) (g : V3 ℝ) (E : Mats) :
    ∃ E', evalInt ⟨'E', 1, lineMass, lumped, g⟩ ⟨1, 2, 0, 0, 0⟩ ![0, 0, 0] ![1, 0, 0] (some (![0, 0, 0], ![1, 0, 0])) E = .ok E' ∧
      ∑ j ∈ Finset.range 6, E'.A 2 2 (j + 1) * six ![0, 1, 0] ![0, 1, 0] (j + 1) = 1 / 2 := by
  have e1 : len (![1, 0, 0] - ![0, 0, 0]) = 1 := by simp [len]
  have e2 : len (diff ![0, 0, 0] ![1, 0, 0] ![0, 0, 0] ![1, 0, 0]) = 2 := by
    have : len (diff ![0, 0, 0] ![1, 0, 0] ![0, 0, 0] ![1, 0, 0]) = Real.sqrt (2 ^ 2) := by
      simp [len, diff]; norm_num
    rw [this, Real.sqrt_sq (by norm_num)]
  refine ⟨_, evalInt_ok _ _ _ _ _ _ E (by rw [e1]; norm_num) (by rw [e2]; norm_num), ?_⟩
  rw [fill_A _ _ _ _ _ _ _ (by decide), e1, e2]
  have hn : (nominal 'E' true 1 2 1).2.2 = 1 / 2 := by
    simp [nominal, getStrain, show ('E' : Char) ≠ 'G' by decide, show ('E' : Char) ≠ 'L' by decide]; norm_num
  have k := fun j (hj : 1 ≤ j) (hj' : j ≤ 6) => (stiff_sep ⟨'E', 1, lineMass, lumped, g⟩ ⟨1, 2, 0, 0, 0⟩
    (unit (diff ![0, 0, 0] ![1, 0, 0] ![0, 0, 0] ![1, 0, 0])) 2 1 E.A (by decide) (by decide) (by decide) 2 j (by decide)
    (by decide) hj hj').2.2 (by rw [hn]; norm_num)
  simp only [Finset.sum_range_succ, Finset.range_zero, Finset.sum_empty]
  rw [k 2 (by decide) (by decide), k 5 (by decide) (by decide)]
  simp [six, at1, at2, hn, geoEntry, unit, diff]

/-- C44: in a buckling analysis the material part gives no force for a translation, and the diagonal blocks of the two parts
add up to those of the tangent. Missing: the off-diagonal blocks of the geometric part, see `C44_buckling_violated`. -/
theorem C44_buckling_partial (p : Data) (s s' : Slots) (X1 X2 u1 u2 t : V3 ℝ) (E : Mats)
    (h0 : 1 / 100000000 < len (X2 - X1)) (h : 1 / 100000000 < len ((X2 + u2) - (X1 + u1)))
    (hm : s.eKm ≠ 0) (hg : s.eKg ≠ s.eKm) (hg0 : s.eKg ≠ 0) (hM : s.eM ≠ s.eKm) (hMg : s.eM ≠ s.eKg)
    (hm' : s'.eKm ≠ 0) (hg' : s'.eKg = s'.eKm) (hM' : s'.eM ≠ s'.eKm) :
    ∃ E' E'', evalInt p s X1 X2 (some (u1, u2)) (⟨fun _ _ _ => 0, fun _ _ => 0⟩) = .ok E' ∧
      evalInt p s' X1 X2 (some (u1, u2)) E = .ok E'' ∧
      (∀ i, 1 ≤ i → i ≤ 6 → ∑ j ∈ Finset.range 6, E'.A s.eKm i (j + 1) * six t t (j + 1) = 0) ∧
      ∀ i j, 1 ≤ i → i ≤ 6 → 1 ≤ j → j ≤ 6 → (i ≤ 3 ↔ j ≤ 3) → E''.A s'.eKm i j = E'.A s.eKm i j + E'.A s.eKg i j := by
  refine ⟨_, _, evalInt_ok p s X1 X2 u1 u2 _ h0 h, evalInt_ok p s' X1 X2 u1 u2 _ h0 h, fun i h1 h6 => ?_,
    fun i j hi hi' hj hj' hij => ?_⟩
  · rw [fill_A _ _ _ _ _ _ _ hM]
    have k := fun j (hj : 1 ≤ j) (hj' : j ≤ 6) => (stiff_sep p s (unit (diff X1 X2 u1 u2)) (len (diff X1 X2 u1 u2))
      (len (X2 - X1)) (fun _ _ _ => 0) hm hg hg0 i j h1 h6 hj hj').1
    simp only [Finset.sum_range_succ, Finset.range_zero, Finset.sum_empty]
    rw [k _ (by norm_num) (by norm_num), k _ (by norm_num) (by norm_num), k _ (by norm_num) (by norm_num),
      k _ (by norm_num) (by norm_num), k _ (by norm_num) (by norm_num), k _ (by norm_num) (by norm_num)]
    interval_cases i <;> simp [at2, at1, six] <;> ring
  · rw [fill_A _ _ _ _ _ _ _ hM, fill_A _ _ _ _ _ _ _ hM', fill_A _ _ _ _ _ _ _ hMg,
      stiff_entry p s' _ _ _ hm' hg' i j hi hi' hj hj']
    obtain ⟨k1, k2, k3⟩ := stiff_sep p s (unit (diff X1 X2 u1 u2)) (len (diff X1 X2 u1 u2))
      (len (X2 - X1)) (fun _ _ _ => 0) hm hg hg0 i j hi hi' hj hj'
    rw [k1, if_pos hij, one_mul, one_mul]
    by_cases hn : (nominal p.measure true p.stiffness (len (diff X1 X2 u1 u2)) (len (X2 - X1))).2.2 = 0
    · rw [k2 hn]
      simp only [at2, lead, hn]
      simp [geoEntry]
    · rw [k3 hn, if_pos hij]
      simp only [at2, lead]

/-- C44: a bar of no length, initially or in the deformed state, is reported. -/
theorem C44_degenerate (p : Data) (s : Slots) (X1 X2 u1 u2 : V3 ℝ) (E : Mats)
    (h : len (X2 - X1) ≤ 1 / 100000000 ∨ len ((X2 + u2) - (X1 + u1)) ≤ 1 / 100000000) :
    evalInt p s X1 X2 (some (u1, u2)) E = .fail := by
  unfold evalInt
  by_cases h0 : len (X2 - X1) ≤ 1 / 100000000
  · simp only [h0, if_true]
  · simp only [if_neg h0, if_pos (h.resolve_left h0)]

/-- C44: without a solution vector the forces and matrices are those of the initial state. -/
theorem C44_initial (p : Data) (s : Slots) (X1 X2 : V3 ℝ) (E : Mats) :
    evalInt p s X1 X2 none E = evalInt p s X1 X2 (some (0, 0)) E := by
  simp [evalInt]

/-- The hypotheses can be met, e.g. by a bar stretched to twice its length. -/
example : (1 / 100000000 : ℝ) < len (![1, 0, 0] - ![0, 0, 0]) ∧
    (1 / 100000000 : ℝ) < len ((![1, 0, 0] + ![1, 0, 0]) - (![0, 0, 0] + ![0, 0, 0])) := by
  have : (1 / 100000000 : ℝ) < Real.sqrt (2 ^ 2) := by rw [Real.sqrt_sq (by norm_num)]; norm_num
  constructor
  · simp [len]; norm_num
  · refine lt_of_lt_of_eq this (congrArg Real.sqrt ?_); simp; norm_num

/-! ### C42, mass of the bar -/

/-- C42: the lumped mass matrix puts half of the mass at each end, in all directions. -/
theorem C42_bar_lumped (p : Data) (s : Slots) (X1 X2 u1 u2 : V3 ℝ)
    (h0 : 1 / 100000000 < len (X2 - X1)) (h : 1 / 100000000 < len ((X2 + u2) - (X1 + u1)))
    (hM : s.eM ≠ 0) (hm : s.eM ≠ s.eKm) (hg : s.eM ≠ s.eKg) (hl : p.lumped = true) :
    ∃ E', evalInt p s X1 X2 (some (u1, u2)) (⟨fun _ _ _ => 0, fun _ _ => 0⟩) = .ok E' ∧ ∀ v1 v2 w1 w2 : V3 ℝ,
      form6 (E'.A s.eM) (six v1 v2) (six w1 w2) = p.lineMass * len (X2 - X1) / 2 *
        ((v1 0 * w1 0 + v1 1 * w1 1 + v1 2 * w1 2) + (v2 0 * w2 0 + v2 1 * w2 1 + v2 2 * w2 2)) := by
  refine ⟨_, evalInt_ok p s X1 X2 u1 u2 _ h0 h, fun v1 v2 w1 w2 => ?_⟩
  have hz : stiff p s (unit (diff X1 X2 u1 u2)) (len (diff X1 X2 u1 u2)) (len (X2 - X1)) (fun _ _ _ => 0) s.eM = fun _ _ => 0 := by
    funext i j
    have hm' : s.eM ≠ if s.eKg = 0 then s.eKm else s.eKg := by split_ifs <;> assumption
    simp only [stiff]
    split_ifs <;> simp [mirror, setLead, addLead, hm, hg, hm']
  simp only [fill, if_neg hM, Function.update_self, hz, massMat, hl, if_true]
  simp [form6, Finset.sum_range_succ, six, at1]
  ring

/-- Consistent mass matrix before any shrinking. -/
theorem mass_consistent (p : Data) (s : Slots) (X1 X2 u1 u2 : V3 ℝ) (E : Mats)
    (h0 : 1 / 100000000 < len (X2 - X1)) (h : 1 / 100000000 < len ((X2 + u2) - (X1 + u1)))
    (hM : s.eM ≠ 0) (hl : p.lumped = false) :
    ∃ E', evalInt p s X1 X2 (some (u1, u2)) E = .ok E' ∧
      E'.A s.eM = fun i j => if i = j ∧ 1 ≤ i ∧ i ≤ 6 then 1 / 2 * p.lineMass * len (X2 - X1) / 3 * 2
        else 1 / 2 * p.lineMass * len (X2 - X1) / 3 := by
  refine ⟨_, evalInt_ok p s X1 X2 u1 u2 _ h0 h, ?_⟩
  simp only [fill, if_neg hM, Function.update_self, massMat, hl, Bool.false_eq_true, if_false]

/-- C42 is violated by the consistent mass matrix: translations in two different directions are coupled. -/
theorem C42_bar_violated (p : Data) (s : Slots) (X1 X2 u1 u2 : V3 ℝ) (E : Mats)
    (h0 : 1 / 100000000 < len (X2 - X1)) (h : 1 / 100000000 < len ((X2 + u2) - (X1 + u1)))
    (hM : s.eM ≠ 0) (hl : p.lumped = false) (hm : p.lineMass ≠ 0) :
    ∃ E', evalInt p s X1 X2 (some (u1, u2)) E = .ok E' ∧
      form6 (E'.A s.eM) (six ![1, 0, 0] ![1, 0, 0]) (six ![0, 1, 0] ![0, 1, 0]) ≠ 0 := by
  obtain ⟨E', h1, h2⟩ := mass_consistent p s X1 X2 u1 u2 E h0 h hM hl
  refine ⟨E', h1, ?_⟩
  rw [h2]
  have hp : len (X2 - X1) ≠ 0 := by have : 0 < len (X2 - X1) := lt_trans (by norm_num) h0
                                    exact this.ne'
  simp [form6, Finset.sum_range_succ, six, at1]
  have : p.lineMass * len (X2 - X1) ≠ 0 := mul_ne_zero hm hp
  exact ⟨hm, hp⟩

/-- C42: each end of the bar carries half of the weight. -/
theorem C42_bar_gravity (p : Data) (s : Slots) (X1 X2 u1 u2 : V3 ℝ)
    (h0 : 1 / 100000000 < len (X2 - X1)) (h : 1 / 100000000 < len ((X2 + u2) - (X1 + u1)))
    (hS : s.eS ≠ 0) (hi : s.iS ≠ s.eS) :
    ∃ E', evalInt p s X1 X2 (some (u1, u2)) (⟨fun _ _ _ => 0, fun _ _ => 0⟩) = .ok E' ∧ ∀ i : Fin 3,
      E'.b s.eS (i + 1) = p.lineMass * len (X2 - X1) * p.gravity i / 2 ∧
      E'.b s.eS (i + 4) = p.lineMass * len (X2 - X1) * p.gravity i / 2 := by
  refine ⟨_, evalInt_ok p s X1 X2 u1 u2 _ h0 h, fun i => ?_⟩
  have e : (fill p s (unit (diff X1 X2 u1 u2)) (len (diff X1 X2 u1 u2)) (len (X2 - X1)) ⟨fun _ _ _ => 0, fun _ _ => 0⟩).b s.eS
      = gravityForce (1 / 2 * p.lineMass * len (X2 - X1)) p.gravity (fun _ => 0) := by
    simp only [fill, if_neg hS]
    split_ifs
    · rw [Function.update_self]
    · rw [Function.update_of_ne (Ne.symm hi), Function.update_self]
  rw [e]
  unfold gravityForce
  split_ifs with hg
  · simp [hg]
  · fin_cases i <;> simp [at1] <;> ring

/-- C42: with `npv` unknowns per node, the shrunk matrix has the entries of the first `npv` unknowns of each node. -/
theorem C42_bar_shrink (npv nen : Nat) (A : DMat ℝ) : ∃ B, shrink npv nen A = .ok B ∧ B.nr = npv * nen ∧ B.nc = npv * nen ∧
    ∀ a b i j, a < nen → b < nen → i < npv → j < npv →
      B.e (npv * a + (i + 1)) (npv * b + (j + 1)) = A.e (3 * a + (i + 1)) (3 * b + (j + 1)) := by
  have dm : ∀ a i, i < npv → (npv * a + (i + 1) - 1) / npv = a ∧ (npv * a + (i + 1) - 1) % npv = i := by
    intro a i hi
    have hp : 0 < npv := by omega
    rw [show npv * a + (i + 1) - 1 = i + npv * a by omega]
    exact ⟨by rw [Nat.add_mul_div_left _ _ hp, Nat.div_eq_of_lt hi, zero_add], by rw [Nat.add_mul_mod_self_left, Nat.mod_eq_of_lt hi]⟩
  obtain ⟨B, hB, h1, h2, h3⟩ := setMany_fun
    (fun r c => A.e (3 * ((r - 1) / npv) + ((r - 1) % npv + 1)) (3 * ((c - 1) / npv) + ((c - 1) % npv + 1)))
    ((List.range nen).flatMap fun a => (List.range nen).flatMap fun b =>
      (List.range npv).flatMap fun i => (List.range npv).map fun j =>
        (npv * a + (i + 1), npv * b + (j + 1), A.e (3 * a + (i + 1)) (3 * b + (j + 1))))
    (DMat.zero (npv * nen) (npv * nen))
    (by
      intro x hx
      simp only [List.mem_flatMap, List.mem_map, List.mem_range] at hx
      obtain ⟨a, ha, b, hb, i, hi, j, hj, rfl⟩ := hx
      simp only [(dm a i hi).1, (dm a i hi).2, (dm b j hj).1, (dm b j hj).2])
    (by
      intro x hx
      simp only [List.mem_flatMap, List.mem_map, List.mem_range] at hx
      obtain ⟨a, ha, b, hb, i, hi, j, hj, rfl⟩ := hx
      have q : ∀ c k, c < nen → k < npv → npv * c + (k + 1) ≤ npv * nen := by
        intro c k hc hk
        calc npv * c + (k + 1) ≤ npv * c + npv := by omega
          _ = npv * (c + 1) := by ring
          _ ≤ npv * nen := Nat.mul_le_mul_left _ hc
      exact ⟨by show 1 ≤ npv * a + (i + 1); omega, q a i ha hi, by show 1 ≤ npv * b + (j + 1); omega, q b j hb hj⟩)
  refine ⟨B, hB, h1, h2, fun a b i j ha hb hi hj => ?_⟩
  rw [h3, if_pos]
  · rw [(dm a i hi).1, (dm a i hi).2, (dm b j hj).1, (dm b j hj).2]
  · refine ⟨_, List.mem_flatMap.mpr ⟨a, List.mem_range.mpr ha, List.mem_flatMap.mpr ⟨b, List.mem_range.mpr hb,
      List.mem_flatMap.mpr ⟨i, List.mem_range.mpr hi, List.mem_map.mpr ⟨j, List.mem_range.mpr hj, rfl⟩⟩⟩⟩, rfl, rfl⟩

/-- C42: the same for vectors, which are shrunk in place. -/
theorem C42_bar_shrinkV (npv nen : Nat) (hp : npv ≤ 3) (v : Nat → ℝ) :
    ∀ a i, a < nen → i < npv → shrinkV npv nen v (npv * a + (i + 1)) = v (3 * a + (i + 1)) := by
  suffices H : (∀ a i, a < nen → i < npv → shrinkV npv nen v (npv * a + (i + 1)) = v (3 * a + (i + 1))) ∧
      ∀ k, npv * nen < k → shrinkV npv nen v k = v k from H.1
  unfold shrinkV
  induction nen with
  | zero => exact ⟨fun a i h => by omega, fun k _ => rfl⟩
  | succ n ih =>
    obtain ⟨ih1, ih2⟩ := ih
    rw [List.range_succ, List.filter_append, List.foldl_append]
    by_cases hn : n = 0
    · subst hn
      refine ⟨fun a i ha hi => ?_, fun k hk => rfl⟩
      have : a = 0 := by omega
      subst this
      simp
    · rw [show [n].filter (· ≠ 0) = [n] by simp [hn]]
      generalize hw : List.foldl (fun b a => (List.range npv).foldl (fun b i =>
        Function.update b (npv * a + (i + 1)) (b (3 * a + (i + 1)))) b) v ((List.range n).filter (· ≠ 0)) = w at *
      simp only [List.foldl_cons, List.foldl_nil]
      have inner : ∀ m, m ≤ npv → ∀ k, (List.range m).foldl (fun b i =>
          Function.update b (npv * n + (i + 1)) (b (3 * n + (i + 1)))) w k
          = if npv * n < k ∧ k ≤ npv * n + m then w (3 * n + (k - npv * n)) else w k := by
        intro m
        induction m with
        | zero => intro _ k; rw [if_neg (by omega)]; rfl
        | succ m ihm =>
          intro hm k
          have ih' := ihm (by omega)
          rw [List.range_succ, List.foldl_append, List.foldl_cons, List.foldl_nil]
          have h3 : npv * n ≤ 3 * n := Nat.mul_le_mul_right _ hp
          by_cases hk : k = npv * n + (m + 1)
          · subst hk
            rw [Function.update_self, ih', if_neg (by omega), if_pos (by omega)]
            congr 1; omega
          · rw [Function.update_of_ne hk, ih']
            by_cases h1 : npv * n < k ∧ k ≤ npv * n + m
            · rw [if_pos h1, if_pos (by omega)]
            · rw [if_neg h1, if_neg (by omega)]
      have e : npv * (n + 1) = npv * n + npv := by ring
      have h3 : npv * n ≤ 3 * n := Nat.mul_le_mul_right _ hp
      refine ⟨fun a i ha hi => ?_, fun k hk => ?_⟩
      · rw [inner npv le_rfl]
        by_cases han : a = n
        · subst han
          rw [if_pos (by omega), ih2 _ (by omega)]
          congr 1; omega
        · have : npv * a + npv ≤ npv * n := by
            have := Nat.mul_le_mul_left npv (show a + 1 ≤ n by omega)
            rwa [Nat.mul_add, Nat.mul_one] at this
          rw [if_neg (by omega), ih1 a i (by omega) hi]
      · rw [inner npv le_rfl, if_neg (by omega), ih2 k (by omega)]

/-- C42: the consistent mass matrix is the one of linear interpolation for axial unknowns only. Missing: two and three unknowns
per node, see `C42_bar_violated`. -/
theorem C42_bar_axial_partial (p : Data) (s : Slots) (X1 X2 u1 u2 : V3 ℝ) (E : Mats)
    (h0 : 1 / 100000000 < len (X2 - X1)) (h : 1 / 100000000 < len ((X2 + u2) - (X1 + u1)))
    (hM : s.eM ≠ 0) (hl : p.lumped = false) :
    ∃ E' B, evalInt p s X1 X2 (some (u1, u2)) E = .ok E' ∧ shrink 1 2 ⟨6, 6, E'.A s.eM⟩ = .ok B ∧ B.nr = 2 ∧ B.nc = 2 ∧
      B.e 1 1 = p.lineMass * len (X2 - X1) / 3 ∧ B.e 1 2 = p.lineMass * len (X2 - X1) / 6 ∧
      B.e 2 1 = p.lineMass * len (X2 - X1) / 6 ∧ B.e 2 2 = p.lineMass * len (X2 - X1) / 3 := by
  obtain ⟨E', h1, h2⟩ := mass_consistent p s X1 X2 u1 u2 E h0 h hM hl
  obtain ⟨B, b1, b2, b3, b4⟩ := C42_bar_shrink 1 2 ⟨6, 6, E'.A s.eM⟩
  refine ⟨E', B, h1, b1, b2, b3, ?_, ?_, ?_, ?_⟩
  · have := b4 0 0 0 0 (by omega) (by omega) (by omega) (by omega)
    simp [h2] at this; rw [this]; ring
  · have := b4 0 1 0 0 (by omega) (by omega) (by omega) (by omega)
    simp [h2] at this; rw [this]; ring
  · have := b4 1 0 0 0 (by omega) (by omega) (by omega) (by omega)
    simp [h2] at this; rw [this]; ring
  · have := b4 1 1 0 0 (by omega) (by omega) (by omega) (by omega)
    simp [h2] at this; rw [this]; ring

end Verif.Bar
