/-
Properties C24 and C26: neo-Hookean materials.
-/
import Verif.Model.NeoHooke
import Mathlib.Analysis.SpecialFunctions.Log.Deriv
import Mathlib.Analysis.SpecialFunctions.Pow.Deriv
import Mathlib.Tactic.FieldSimp
import Mathlib.Tactic.Ring
import Mathlib.Tactic.Linarith
import Mathlib.Tactic.LinearCombination
import Mathlib.Tactic.NormNum
import Mathlib.Tactic.FinCases
import Mathlib.LinearAlgebra.Matrix.Trace
import Mathlib.LinearAlgebra.Matrix.SemiringInverse
import Mathlib.Tactic.Positivity

set_option linter.unusedSectionVars false
set_option linter.unusedSimpArgs false
set_option linter.unusedVariables false
set_option linter.unnecessarySeqFocus false

namespace Verif.NeoHooke

/-! ### C24 -/

/-- C24: the pressure and the modulus are the first and second derivatives of the volumetric energy,
for every volumetric law but number 4 (`C24_potential_violated`), and at every non-singular state. -/
theorem C24_potential_partial (iVOL : Nat) (hv : iVOL ≠ 4) (K J : ℝ) (hJ : J ≠ 0) :
    HasDerivAt (fun x => (volumetricModuli iVOL K x).U) (volumetricModuli iVOL K J).Up J ∧
    HasDerivAt (fun x => (volumetricModuli iVOL K x).Up) (volumetricModuli iVOL K J).Upp J := by
  have hl : HasDerivAt (fun x => Real.log |x|) J⁻¹ J := by
    simpa [Real.log_abs] using Real.hasDerivAt_log hJ
  have hi : HasDerivAt (fun x : ℝ => 1 / x) (-(J ^ 2)⁻¹) J := by
    simpa using hasDerivAt_inv hJ
  have hx := hasDerivAt_id J
  match iVOL, hv with
  | 1, _ =>
    constructor
    · refine ((((hx.mul hx).sub_const 1).sub (hl.const_mul 2)).const_mul (1 / 4 * K)).congr_deriv ?_
      simp only [volumetricModuli, id]; field_simp; ring
    · refine ((hx.sub hi).const_mul (1 / 2 * K)).congr_deriv ?_
      simp only [volumetricModuli, id]; field_simp; ring
  | 2, _ =>
    constructor
    · refine (((hx.sub_const 1).const_mul (1 / 2 * K)).mul (hx.sub_const 1)).congr_deriv ?_
      simp only [volumetricModuli, id]; ring
    · refine ((hx.sub_const 1).const_mul K).congr_deriv ?_
      simp only [volumetricModuli, mul_one]
  | 3, _ =>
    constructor
    · refine ((hl.const_mul (1 / 2 * K)).mul hl).congr_deriv ?_
      simp only [volumetricModuli]; field_simp; ring
    · refine ((hl.const_mul K).div hx hJ).congr_deriv ?_
      simp only [volumetricModuli, id]; field_simp
  | 0, _ => exact ⟨hasDerivAt_const _ _, hasDerivAt_const _ _⟩
  | n + 5, _ => exact ⟨hasDerivAt_const _ _, hasDerivAt_const _ _⟩

/-- C24: the undeformed state has neither energy nor pressure, and the modulus there is the given
one, for the laws 1, 2 and 3. -/
theorem C24_undeformed_partial (iVOL : Nat) (hv : iVOL = 1 ∨ iVOL = 2 ∨ iVOL = 3) (K : ℝ) :
    (volumetricModuli iVOL K 1).U = 0 ∧ (volumetricModuli iVOL K 1).Up = 0 ∧
    (volumetricModuli iVOL K 1).Upp = K := by
  rcases hv with rfl | rfl | rfl <;> norm_num [volumetricModuli] <;> ring

/-- C24: compression gives negative pressure, expansion positive pressure, and the energy is
positive away from the undeformed state. -/
theorem C24_sign_partial (iVOL : Nat) (hv : iVOL = 1 ∨ iVOL = 2 ∨ iVOL = 3) (K J : ℝ) (hK : 0 < K)
    (hJ : 0 < J) :
    ((volumetricModuli iVOL K J).Up < 0 ↔ J < 1) ∧ (0 < (volumetricModuli iVOL K J).Up ↔ 1 < J) ∧
    (J ≠ 1 → 0 < (volumetricModuli iVOL K J).U) := by
  have hlog : J ≠ 1 → 2 * Real.log J < J * J - 1 := fun h => by
    have h1 : J * J ≠ 1 := fun h' => h (by nlinarith)
    have := Real.log_lt_sub_one_of_pos (mul_pos hJ hJ) h1
    rw [Real.log_mul hJ.ne' hJ.ne'] at this
    linarith
  have key : ∀ x : ℝ, (x < 0 ↔ J < 1) → (0 < x ↔ 1 < J) → ∀ c : ℝ, 0 < c →
      (c * x < 0 ↔ J < 1) ∧ (0 < c * x ↔ 1 < J) := fun x h1 h2 c hc => by
    constructor
    · rw [← h1]; exact ⟨fun h => by by_contra h'; push Not at h'; nlinarith [mul_nonneg hc.le h'],
        fun h => mul_neg_of_pos_of_neg hc h⟩
    · rw [← h2]; exact mul_pos_iff_of_pos_left hc
  rcases hv with rfl | rfl | rfl
  · have e : (volumetricModuli 1 K J).Up = (1 / 2 * K / J * (J + 1)) * (J - 1) := by
      simp only [volumetricModuli]; field_simp; ring
    have hc : 0 < 1 / 2 * K / J * (J + 1) := by positivity
    obtain ⟨a, b⟩ := key (J - 1) sub_neg sub_pos _ hc
    rw [e]
    refine ⟨a, b, fun h => ?_⟩
    simp only [volumetricModuli, Real.log_abs]
    exact mul_pos (by positivity) (by linarith [hlog h])
  · obtain ⟨a, b⟩ := key (J - 1) sub_neg sub_pos _ hK
    refine ⟨a, b, fun h => ?_⟩
    simp only [volumetricModuli]
    have : 0 < (J - 1) * (J - 1) := mul_self_pos.2 (sub_ne_zero.2 h)
    have := mul_pos (show 0 < 1 / 2 * K by positivity) this
    linarith
  · have e : (volumetricModuli 3 K J).Up = (K / J) * Real.log J := by
      simp only [volumetricModuli, Real.log_abs]; field_simp
    have hc : 0 < K / J := by positivity
    obtain ⟨a, b⟩ := key (Real.log J) (Real.log_neg_iff hJ) (Real.log_pos_iff hJ.le) _ hc
    rw [e]
    refine ⟨a, b, fun h => ?_⟩
    simp only [volumetricModuli, Real.log_abs]
    have : 0 < Real.log J * Real.log J :=
      mul_self_pos.2 (fun h0 => by
        rcases Real.log_eq_zero.1 h0 with h' | h' | h' <;> first | exact h h' | linarith)
    have := mul_pos (show 0 < 1 / 2 * K by positivity) this
    linarith

/-- C24 is violated by the volumetric law 4: at the undeformed state the pressure is the bulk
modulus, not zero; the pressure is nowhere the derivative of the energy except at `J = ∞`, and the
modulus is half of the second derivative. -/
theorem C24_potential_violated (K : ℝ) (hK : K ≠ 0) :
    (volumetricModuli 4 K 1).Up = K ∧
    ∀ J, J ≠ 0 → ¬ HasDerivAt (fun x => (volumetricModuli 4 K x).U) (volumetricModuli 4 K J).Up J := by
  refine ⟨by norm_num [volumetricModuli], fun J hJ h => ?_⟩
  have hl : HasDerivAt (fun x => Real.log |x|) J⁻¹ J := by
    simpa [Real.log_abs] using Real.hasDerivAt_log hJ
  have h2 := (((hasDerivAt_id J).sub_const 1).sub hl).const_mul (2 * K)
  have := h.unique h2
  simp only [volumetricModuli] at this
  field_simp at this
  apply hK
  have h3 : K * (1 : ℝ) = 0 := by linarith
  simpa using h3

/-! ### C26 -/

/-- Position of a component of a symmetric tensor. -/
def voigt : Fin 3 → Fin 3 → Fin 6 := ![![0, 3, 5], ![3, 1, 4], ![5, 4, 2]]

/-- The stress as a matrix. -/
def sig (o : Out) : Matrix (Fin 3) (Fin 3) ℝ := Matrix.of fun i j => o.S.v (voigt i j)

/-- The tangent component (i,j,k,l). -/
def tang (o : Out) (i j k l : Fin 3) : ℝ := o.C.e ((voigt i j : Nat) + 1) ((voigt k l : Nat) + 1)

/-- The outcome of a successful call as real number. -/
noncomputable def val (f : Out → ℝ) : Res Out → ℝ
  | .ok o => f o
  | _ => 0

/-- Specification of a hyperelastic material in spatial form at the state `F`: along every motion
leaving `F` with the velocity gradient `L`, the power of the stress is the rate of the energy, and
the tangent gives the Truesdell rate of the stress; the tangent has the major symmetry. -/
def Hyperelastic (E : Matrix (Fin 3) (Fin 3) ℝ → Res Out) (F : Matrix (Fin 3) (Fin 3) ℝ) : Prop :=
  ∃ o, E F = .ok o ∧ o.C.nr = 6 ∧ o.C.nc = 6 ∧
    (∀ i j k l, tang o i j k l = tang o k l i j) ∧
    ∀ L : Matrix (Fin 3) (Fin 3) ℝ,
      HasDerivAt (fun t : ℝ => val Out.U (E ((1 + t • L) * F)))
        (F.det * ∑ i, ∑ j, sig o i j * L i j) 0 ∧
      ∀ i j, HasDerivAt
        (fun t : ℝ => ((1 + t • L) * F).det * val (fun o => sig o i j) (E ((1 + t • L) * F)))
        (F.det * (∑ k, ∑ l, tang o i j k l * ((L k l + L l k) / 2) +
          ∑ k, (L i k * sig o k j + sig o i k * L j k))) 0

theorem leftCG (L F : Matrix (Fin 3) (Fin 3) ℝ) (t : ℝ) :
    ((1 + t • L) * F) * ((1 + t • L) * F).transpose =
      F * F.transpose + t • (L * (F * F.transpose) + F * F.transpose * L.transpose) +
      (t ^ 2) • (L * (F * F.transpose) * L.transpose) := by
  rw [Matrix.transpose_mul]
  have : (1 + t • L) * F * (F.transpose * (1 + t • L).transpose) =
    (1 + t • L) * (F * F.transpose) * (1 + t • L).transpose := by
    simp only [Matrix.mul_assoc]
  rw [this]
  simp only [Matrix.transpose_add, Matrix.transpose_smul, Matrix.transpose_one, add_mul, mul_add,
    one_mul, mul_one, Matrix.smul_mul, Matrix.mul_smul, smul_smul, pow_two, smul_add]
  abel

theorem det_path (L F : Matrix (Fin 3) (Fin 3) ℝ) : ∃ a : ℝ, ∀ t : ℝ,
    ((1 + t • L) * F).det =
      (1 + t * (L 0 0 + L 1 1 + L 2 2) + t ^ 2 * a + t ^ 3 * L.det) * F.det := by
  refine ⟨L 0 0 * L 1 1 + L 1 1 * L 2 2 + L 0 0 * L 2 2 - L 0 1 * L 1 0 - L 1 2 * L 2 1 -
    L 0 2 * L 2 0, fun t => ?_⟩
  rw [Matrix.det_mul]
  congr 1
  rw [Matrix.det_fin_three, Matrix.det_fin_three]
  simp [Matrix.one_apply]
  ring

theorem hasDerivAt_poly (a b c d : ℝ) :
    HasDerivAt (fun t : ℝ => a + t * b + t ^ 2 * c + t ^ 3 * d) b 0 := by
  have h := (((((hasDerivAt_id (0 : ℝ)).mul_const b).const_add a).add
    ((hasDerivAt_pow 2 (0 : ℝ)).mul_const c)).add ((hasDerivAt_pow 3 (0 : ℝ)).mul_const d))
  refine h.congr_deriv ?_
  norm_num

theorem det_deriv (L F : Matrix (Fin 3) (Fin 3) ℝ) :
    HasDerivAt (fun t : ℝ => ((1 + t • L) * F).det) ((L 0 0 + L 1 1 + L 2 2) * F.det) 0 := by
  obtain ⟨a, ha⟩ := det_path L F
  simp only [ha]
  exact (hasDerivAt_poly 1 _ a _).mul_const _

theorem b_deriv (L F : Matrix (Fin 3) (Fin 3) ℝ) (i j : Fin 3) :
    HasDerivAt (fun t : ℝ => (((1 + t • L) * F) * ((1 + t • L) * F).transpose) i j)
      ((L * (F * F.transpose) + F * F.transpose * L.transpose) i j) 0 := by
  have h := hasDerivAt_poly ((F * F.transpose) i j)
    ((L * (F * F.transpose) + F * F.transpose * L.transpose) i j)
    ((L * (F * F.transpose) * L.transpose) i j) 0
  refine h.congr_of_eventuallyEq (Filter.Eventually.of_forall fun t => ?_)
  simp only [leftCG, Matrix.add_apply, Matrix.smul_apply, smul_eq_mul, mul_zero, add_zero]

theorem det_zero (L F : Matrix (Fin 3) (Fin 3) ℝ) : ((1 + (0 : ℝ) • L) * F) = F := by simp

/-- The states in the neighbourhood are not singular. -/
theorem det_ne (L F : Matrix (Fin 3) (Fin 3) ℝ) (h : F.det ≠ 0) :
    ∀ᶠ t : ℝ in nhds 0, ((1 + t • L) * F).det ≠ 0 := by
  have hc := (det_deriv L F).continuousAt
  have h0 : (fun t : ℝ => ((1 + t • L) * F).det) 0 ≠ 0 := by simpa using h
  exact hc.eventually_ne h0

theorem det_pos (L F : Matrix (Fin 3) (Fin 3) ℝ) (h : 0 < F.det) :
    ∀ᶠ t : ℝ in nhds 0, 0 < ((1 + t • L) * F).det := by
  have hc := (det_deriv L F).continuousAt
  have h0 : 0 < (fun t : ℝ => ((1 + t • L) * F).det) 0 := by simpa using h
  exact hc.eventually (lt_mem_nhds h0)

section
variable {K : Type*} [Field K]

theorem stdC3 (c1 c2 c3 P : K) : ∃ C, stdC 3 c1 c2 c3 P (DMat.zero 6 6) = .ok C ∧
    C.nr = 6 ∧ C.nc = 6 ∧ C.toM 6 6 = !![c2, c3 + P, c3 + P, 0, 0, 0; c3 + P, c2, c3 + P, 0, 0, 0;
      c3 + P, c3 + P, c2, 0, 0, 0; 0, 0, 0, c1 - P, 0, 0; 0, 0, 0, 0, c1 - P, 0;
      0, 0, 0, 0, 0, c1 - P] := by
  refine ⟨_, rfl, rfl, rfl, ?_⟩
  ext i j
  fin_cases i <;> fin_cases j <;> rfl

theorem stdC2 (c1 c2 c3 P : K) : stdC 2 c1 c2 c3 P (DMat.zero 3 3) = .ub ∧
    stdC 2 c1 c2 c3 P (DMat.zero 4 4) = .ub := ⟨rfl, rfl⟩

theorem modC3 (G J Ic P Cv : K) (p : Nat → K) :
    ∃ C, modC 3 G J Ic P Cv p (DMat.zero 6 6) = .ok C ∧ C.nr = 6 ∧ C.nc = 6 ∧
    C.toM 6 6 = !![(0 + -(G * 2 / 3 * p 0) + -(G * 2 / 3 * p 0) + (G * Ic + G * Ic) + -((G * Ic + G * Ic) / 3)) * (1 / J) + (Cv * J - P),
      (0 + -(G * 2 / 3 * p 0) + -(G * 2 / 3 * p 1) + -((G * Ic + G * Ic) / 3)) * (1 / J) + (Cv * J + P),
      (0 + -(G * 2 / 3 * p 0) + -(G * 2 / 3 * p 2) + -((G * Ic + G * Ic) / 3)) * (1 / J) + (Cv * J + P),
      (0 + -(G * 2 / 3 * p 3)) * (1 / J),
      (0 + -(G * 2 / 3 * p 4)) * (1 / J),
      (0 + -(G * 2 / 3 * p 5)) * (1 / J);
      (0 + -(G * 2 / 3 * p 0) + -(G * 2 / 3 * p 1) + -((G * Ic + G * Ic) / 3)) * (1 / J) + (Cv * J + P),
      (0 + -(G * 2 / 3 * p 1) + -(G * 2 / 3 * p 1) + (G * Ic + G * Ic) + -((G * Ic + G * Ic) / 3)) * (1 / J) + (Cv * J - P),
      (0 + -(G * 2 / 3 * p 1) + -(G * 2 / 3 * p 2) + -((G * Ic + G * Ic) / 3)) * (1 / J) + (Cv * J + P),
      (0 + -(G * 2 / 3 * p 3)) * (1 / J),
      (0 + -(G * 2 / 3 * p 4)) * (1 / J),
      (0 + -(G * 2 / 3 * p 5)) * (1 / J);
      (0 + -(G * 2 / 3 * p 0) + -(G * 2 / 3 * p 2) + -((G * Ic + G * Ic) / 3)) * (1 / J) + (Cv * J + P),
      (0 + -(G * 2 / 3 * p 1) + -(G * 2 / 3 * p 2) + -((G * Ic + G * Ic) / 3)) * (1 / J) + (Cv * J + P),
      (0 + -(G * 2 / 3 * p 2) + -(G * 2 / 3 * p 2) + (G * Ic + G * Ic) + -((G * Ic + G * Ic) / 3)) * (1 / J) + (Cv * J - P),
      (0 + -(G * 2 / 3 * p 3)) * (1 / J),
      (0 + -(G * 2 / 3 * p 4)) * (1 / J),
      (0 + -(G * 2 / 3 * p 5)) * (1 / J);
      (0 + -(G * 2 / 3 * p 3)) * (1 / J),
      (0 + -(G * 2 / 3 * p 3)) * (1 / J),
      (0 + -(G * 2 / 3 * p 3)) * (1 / J),
      (0 + G * Ic) * (1 / J) + -P,
      (0) * (1 / J),
      (0) * (1 / J);
      (0 + -(G * 2 / 3 * p 4)) * (1 / J),
      (0 + -(G * 2 / 3 * p 4)) * (1 / J),
      (0 + -(G * 2 / 3 * p 4)) * (1 / J),
      (0) * (1 / J),
      (0 + G * Ic) * (1 / J) + -P,
      (0) * (1 / J);
      (0 + -(G * 2 / 3 * p 5)) * (1 / J),
      (0 + -(G * 2 / 3 * p 5)) * (1 / J),
      (0 + -(G * 2 / 3 * p 5)) * (1 / J),
      (0) * (1 / J),
      (0) * (1 / J),
      (0 + G * Ic) * (1 / J) + -P] := by
  refine ⟨_, rfl, rfl, rfl, ?_⟩
  ext i j
  fin_cases i <;> fin_cases j <;> rfl

end

theorem bsymm (F : Matrix (Fin 3) (Fin 3) ℝ) (i j : Fin 3) :
    (F * F.transpose) i j = (F * F.transpose) j i := by
  have : (F * F.transpose).transpose = F * F.transpose := by simp
  exact (congrFun (congrFun this j) i : _)

/-- The standard material: explicit stress, energy and tangent. -/
theorem std_eval (iVOL : Nat) (K G : ℝ) (F : Matrix (Fin 3) (Fin 3) ℝ) (hF : F.det ≠ 0) :
    ∃ o, evaluate3 1 iVOL K G F = .ok o ∧ o.C.nr = 6 ∧ o.C.nc = 6 ∧
      (∀ i j, sig o i j = G / F.det * (F * F.transpose) i j +
        if i = j then (volumetricModuli iVOL K F.det).Up - G / F.det else 0) ∧
      o.U = (volumetricModuli iVOL K F.det).U + G * (1 / 2 * ((F * F.transpose) 0 0 +
        (F * F.transpose) 1 1 + (F * F.transpose) 2 2) - 3 / 2 - Real.log |F.det|) ∧
      o.C.toM 6 6 = (let c1 := G / F.det
        let P := (volumetricModuli iVOL K F.det).Up
        let c3 := (volumetricModuli iVOL K F.det).Upp * F.det
        let c2 := c1 + c1 + c3 - P
        !![c2, c3 + P, c3 + P, 0, 0, 0; c3 + P, c2, c3 + P, 0, 0, 0;
          c3 + P, c3 + P, c2, 0, 0, 0; 0, 0, 0, c1 - P, 0, 0; 0, 0, 0, 0, c1 - P, 0;
          0, 0, 0, 0, 0, c1 - P]) := by
  obtain ⟨C, hC, h1, h2, h3⟩ := stdC3 (G / F.det) (G / F.det + G / F.det +
    (volumetricModuli iVOL K F.det).Upp * F.det - (volumetricModuli iVOL K F.det).Up)
    ((volumetricModuli iVOL K F.det).Upp * F.det) (volumetricModuli iVOL K F.det).Up
  unfold evaluate3 evaluate
  rw [if_neg hF]
  simp only [stdNeoHooke]
  have e1 : (sym3 (F * F.transpose)).dim = 3 := rfl
  have e2 : (sym3 (F * F.transpose)).size = 6 := rfl
  rw [e1, e2, hC]
  refine ⟨_, rfl, h1, h2, ?_, ?_, h3⟩
  · intro i j
    have hb := bsymm F
    generalize F * F.transpose = b at hb
    have h10 := hb 1 0
    have h20 := hb 2 0
    have h21 := hb 2 1
    fin_cases i <;> fin_cases j <;>
      simp [sig, Sym.shift, Sym.scale, Sym.nrm, sym3, voigt, *] <;> ring
  · simp [Sym.trace, Sym.nrm, sym3, Finset.sum_range_succ]

/-- C26, standard material: stress and tangent derive from the energy at every non-singular state,
for every volumetric law but number 4. -/
theorem C26_standard_partial (iVOL : Nat) (hv : iVOL ≠ 4) (K G : ℝ)
    (F : Matrix (Fin 3) (Fin 3) ℝ) (hF : F.det ≠ 0) :
    Hyperelastic (evaluate3 1 iVOL K G) F := by
  obtain ⟨o, ho, h1, h2, hs, hU, hC⟩ := std_eval iVOL K G F hF
  have hCe : ∀ i j : Fin 6, o.C.e (i + 1) (j + 1) = o.C.toM 6 6 i j := fun _ _ => rfl
  refine ⟨o, ho, h1, h2, ?_, ?_⟩
  · intro i j k l
    simp only [tang, hCe, hC]
    fin_cases i <;> fin_cases j <;> fin_cases k <;> fin_cases l <;> rfl
  intro L
  obtain ⟨hd1, hd2⟩ := C24_potential_partial iVOL hv K F.det hF
  have hdet := det_deriv L F
  have hb := b_deriv L F
  have e0 : ((1 + (0 : ℝ) • L) * F).det = F.det := by rw [det_zero]
  have hd1' := HasDerivAt.comp (0 : ℝ) (by rw [e0]; exact hd1) hdet
  have hd2' := HasDerivAt.comp (0 : ℝ) (by rw [e0]; exact hd2) hdet
  have hlog : HasDerivAt (fun t : ℝ => Real.log |((1 + t • L) * F).det|)
      (L 0 0 + L 1 1 + L 2 2) 0 := by
    have h := (hdet.log (by rw [e0]; exact hF))
    simp only [Real.log_abs]
    refine h.congr_deriv ?_
    rw [e0]; field_simp
  have hne := det_ne L F hF
  have hsym := bsymm F
  have hev : ∀ᶠ t : ℝ in nhds 0, ∃ o, evaluate3 1 iVOL K G ((1 + t • L) * F) = .ok o ∧
      (∀ i j, sig o i j = G / ((1 + t • L) * F).det *
          (((1 + t • L) * F) * ((1 + t • L) * F).transpose) i j +
        if i = j then (volumetricModuli iVOL K ((1 + t • L) * F).det).Up -
          G / ((1 + t • L) * F).det else 0) ∧
      o.U = (volumetricModuli iVOL K ((1 + t • L) * F).det).U +
        G * (1 / 2 * ((((1 + t • L) * F) * ((1 + t • L) * F).transpose) 0 0 +
        (((1 + t • L) * F) * ((1 + t • L) * F).transpose) 1 1 +
        (((1 + t • L) * F) * ((1 + t • L) * F).transpose) 2 2) - 3 / 2 -
          Real.log |((1 + t • L) * F).det|) := by
    refine hne.mono fun t ht => ?_
    obtain ⟨o, a, _, _, b, c, _⟩ := std_eval iVOL K G ((1 + t • L) * F) ht
    exact ⟨o, a, b, c⟩
  constructor
  · have h := hd1'.add ((((((hb 0 0).add (hb 1 1)).add (hb 2 2)).const_mul (1 / 2)).sub_const
      (3 / 2)).sub hlog |>.const_mul G)
    refine (h.congr_deriv ?_).congr_of_eventuallyEq (hev.mono ?_)
    · simp only [hs, Fin.sum_univ_three, Matrix.add_apply]
      rw [Matrix.mul_apply, Matrix.mul_apply, Matrix.mul_apply, Matrix.mul_apply, Matrix.mul_apply,
        Matrix.mul_apply]
      simp only [Fin.sum_univ_three, Matrix.transpose_apply]
      have h10 := hsym 1 0
      have h20 := hsym 2 0
      have h21 := hsym 2 1
      generalize F * F.transpose = b at h10 h20 h21 ⊢
      rw [h10, h20, h21]
      simp
      field_simp
      ring
    · rintro t ⟨o, a, b, c⟩
      simp only [a, val, c]
      rfl
  · intro i j
    have h := ((hb i j).const_mul G).add
      (((hdet.mul hd2').sub_const G).mul_const (if i = j then 1 else 0))
    refine (h.congr_deriv ?_).congr_of_eventuallyEq ((hev.and hne).mono ?_)
    · simp only [hs, Fin.sum_univ_three, Matrix.add_apply, tang, hCe, hC, e0, Function.comp]
      rw [Matrix.mul_apply, Matrix.mul_apply]
      simp only [Fin.sum_univ_three, Matrix.transpose_apply]
      have h10 := hsym 1 0
      have h20 := hsym 2 0
      have h21 := hsym 2 1
      generalize F * F.transpose = b at h10 h20 h21 ⊢
      generalize volumetricModuli iVOL K F.det = v
      fin_cases i <;> fin_cases j <;>
        · simp [voigt, h10, h20, h21]
          field_simp
          ring
    · rintro t ⟨⟨o, a, b, c⟩, hn⟩
      simp only [a, val, b, Function.comp, Pi.add_apply, Pi.mul_apply]
      generalize (1 + t • L) * F = A at hn ⊢
      generalize A * A.transpose = B
      generalize A.det = D at hn ⊢
      split
      · field_simp
        try ring
      · field_simp
        ring

/-- The modified material: explicit stress, energy and tangent. -/
theorem mod_eval (iVOL : Nat) (K G : ℝ) (F : Matrix (Fin 3) (Fin 3) ℝ) (hF : F.det ≠ 0) :
    ∃ o, evaluate3 2 iVOL K G F = .ok o ∧ o.C.nr = 6 ∧ o.C.nc = 6 ∧
      (∀ i j, sig o i j = G / F.det * (F.det ^ (-2 / 3 : ℝ) * ((F * F.transpose) i j -
          if i = j then ((F * F.transpose) 0 0 + (F * F.transpose) 1 1 +
            (F * F.transpose) 2 2) / 3 else 0)) +
        if i = j then (volumetricModuli iVOL K F.det).Up else 0) ∧
      o.U = (volumetricModuli iVOL K F.det).U + 1 / 2 * G * (F.det ^ (-2 / 3 : ℝ) *
        ((F * F.transpose) 0 0 + (F * F.transpose) 1 1 + (F * F.transpose) 2 2) - 3) ∧
      ∃ p : Nat → ℝ, (∀ i j, p (voigt i j) = F.det ^ (-2 / 3 : ℝ) * ((F * F.transpose) i j -
          if i = j then ((F * F.transpose) 0 0 + (F * F.transpose) 1 1 +
            (F * F.transpose) 2 2) / 3 else 0)) ∧
      modC 3 G F.det (F.det ^ (-2 / 3 : ℝ) * ((F * F.transpose) 0 0 + (F * F.transpose) 1 1 +
            (F * F.transpose) 2 2) / 3) (volumetricModuli iVOL K F.det).Up
          (volumetricModuli iVOL K F.det).Upp p (DMat.zero 6 6) = .ok o.C := by
  have hb := bsymm F
  unfold evaluate3 evaluate
  rw [if_neg hF]
  simp only [modNeoHooke]
  generalize F * F.transpose = b at hb ⊢
  generalize F.det = J at hF ⊢
  generalize J ^ (-2 / 3 : ℝ) = q
  generalize volumetricModuli iVOL K J = v
  have e1 : (((sym3 b).scale q).shift (-(((sym3 b).scale q).trace / 3))).dim = 3 := rfl
  have e2 : (sym3 b).size = 6 := rfl
  have e3 : ((sym3 b).scale q).trace / 3 = q * (b 0 0 + b 1 1 + b 2 2) / 3 := by
    simp [Sym.trace, Sym.scale, Sym.nrm, sym3, Finset.sum_range_succ]; ring
  rw [e1, e2, e3]
  obtain ⟨C, hC, h1, h2, h3⟩ := modC3 G J (q * (b 0 0 + b 1 1 + b 2 2) / 3) v.Up v.Upp
    (((sym3 b).scale q).shift (-(q * (b 0 0 + b 1 1 + b 2 2) / 3))).v
  rw [hC]
  have h10 := hb 1 0
  have h20 := hb 2 0
  have h21 := hb 2 1
  refine ⟨_, rfl, h1, h2, ?_, ?_, _, ?_, hC⟩
  · intro i j
    fin_cases i <;> fin_cases j <;>
      simp [sig, Sym.shift, Sym.scale, Sym.nrm, sym3, voigt, h10, h20, h21] <;> ring
  · simp only []; ring
  · intro i j
    fin_cases i <;> fin_cases j <;>
      simp [sig, Sym.shift, Sym.scale, Sym.nrm, sym3, voigt, h10, h20, h21] <;> ring

/-- C26, modified material: stress and tangent derive from the energy at every state with positive
volume ratio, for every volumetric law but number 4. -/
theorem C26_modified_partial (iVOL : Nat) (hv : iVOL ≠ 4) (K G : ℝ)
    (F : Matrix (Fin 3) (Fin 3) ℝ) (hF : 0 < F.det) :
    Hyperelastic (evaluate3 2 iVOL K G) F := by
  obtain ⟨o, ho, h1, h2, hs, hU, p, hp, hC'⟩ := mod_eval iVOL K G F hF.ne'
  obtain ⟨C, hC, _, _, hCM⟩ := modC3 G F.det (F.det ^ (-2 / 3 : ℝ) * ((F * F.transpose) 0 0 +
    (F * F.transpose) 1 1 + (F * F.transpose) 2 2) / 3) (volumetricModuli iVOL K F.det).Up
    (volumetricModuli iVOL K F.det).Upp p
  have hoC : o.C = C := by rw [hC] at hC'; injection hC' with h; exact h.symm
  have hCe : ∀ i j : Fin 6, o.C.e (i + 1) (j + 1) = C.toM 6 6 i j := fun i j => by rw [hoC]; rfl
  have p0 := hp 0 0
  have p1 := hp 1 1
  have p2 := hp 2 2
  have p3 := hp 0 1
  have p4 := hp 1 2
  have p5 := hp 0 2
  simp [voigt] at p0 p1 p2 p3 p4 p5
  refine ⟨o, ho, h1, h2, ?_, ?_⟩
  · intro i j k l
    simp only [tang, hCe, hCM]
    fin_cases i <;> fin_cases j <;> fin_cases k <;> fin_cases l <;> rfl
  intro L
  obtain ⟨hd1, hd2⟩ := C24_potential_partial iVOL hv K F.det hF.ne'
  have hdet := det_deriv L F
  have hb := b_deriv L F
  have e0 : ((1 + (0 : ℝ) • L) * F).det = F.det := by rw [det_zero]
  have hd1' := HasDerivAt.comp (0 : ℝ) (by rw [e0]; exact hd1) hdet
  have hd2' := HasDerivAt.comp (0 : ℝ) (by rw [e0]; exact hd2) hdet
  have hq : HasDerivAt (fun t : ℝ => ((1 + t • L) * F).det ^ (-2 / 3 : ℝ))
      (-2 / 3 * (L 0 0 + L 1 1 + L 2 2) * F.det ^ (-2 / 3 : ℝ)) 0 := by
    have h := hdet.rpow_const (p := (-2 / 3 : ℝ)) (Or.inl (by rw [e0]; exact hF.ne'))
    refine h.congr_deriv ?_
    rw [e0, Real.rpow_sub_one hF.ne']
    have := hF.ne'
    field_simp
  have hne := det_pos L F hF
  have hsym := bsymm F
  have hev : ∀ᶠ t : ℝ in nhds 0, ∃ o, evaluate3 2 iVOL K G ((1 + t • L) * F) = .ok o ∧
      (∀ i j, sig o i j = G / ((1 + t • L) * F).det * (((1 + t • L) * F).det ^ (-2 / 3 : ℝ) *
          ((((1 + t • L) * F) * ((1 + t • L) * F).transpose) i j -
          if i = j then ((((1 + t • L) * F) * ((1 + t • L) * F).transpose) 0 0 +
            (((1 + t • L) * F) * ((1 + t • L) * F).transpose) 1 1 +
            (((1 + t • L) * F) * ((1 + t • L) * F).transpose) 2 2) / 3 else 0)) +
        if i = j then (volumetricModuli iVOL K ((1 + t • L) * F).det).Up else 0) ∧
      o.U = (volumetricModuli iVOL K ((1 + t • L) * F).det).U +
        1 / 2 * G * (((1 + t • L) * F).det ^ (-2 / 3 : ℝ) *
        ((((1 + t • L) * F) * ((1 + t • L) * F).transpose) 0 0 +
        (((1 + t • L) * F) * ((1 + t • L) * F).transpose) 1 1 +
        (((1 + t • L) * F) * ((1 + t • L) * F).transpose) 2 2) - 3) := by
    refine hne.mono fun t ht => ?_
    obtain ⟨o, a, _, _, b, c, _⟩ := mod_eval iVOL K G ((1 + t • L) * F) ht.ne'
    exact ⟨o, a, b, c⟩
  have hJ := hF.ne'
  constructor
  · have h := hd1'.add (((hq.mul (((hb 0 0).add (hb 1 1)).add (hb 2 2))).sub_const 3).const_mul
      (1 / 2 * G))
    refine (h.congr_deriv ?_).congr_of_eventuallyEq (hev.mono ?_)
    · simp only [hs, Fin.sum_univ_three, Matrix.add_apply, Pi.add_apply, e0, det_zero]
      have h10 := hsym 1 0
      have h20 := hsym 2 0
      have h21 := hsym 2 1
      generalize F * F.transpose = b at h10 h20 h21 ⊢
      simp only [Matrix.mul_apply, Fin.sum_univ_three, Matrix.transpose_apply]
      rw [h10, h20, h21]
      generalize F.det ^ (-2 / 3 : ℝ) = q
      generalize volumetricModuli iVOL K F.det = v
      generalize F.det = J at hJ ⊢
      simp
      field_simp
      ring
    · rintro t ⟨o, a, b, c⟩
      simp only [a, val, c]
      rfl
  · intro i j
    have h := ((hq.mul ((hb i j).sub ((((hb 0 0).add (hb 1 1)).add (hb 2 2)).mul_const
      (if i = j then 1 / 3 else 0)))).const_mul G).add
      ((hdet.mul hd2').mul_const (if i = j then 1 else 0))
    refine (h.congr_deriv ?_).congr_of_eventuallyEq ((hev.and hne).mono ?_)
    · simp only [hs, Fin.sum_univ_three, Matrix.add_apply, tang, hCe, hCM, e0, Function.comp,
        det_zero, Pi.add_apply, Pi.sub_apply]
      have h10 := hsym 1 0
      have h20 := hsym 2 0
      have h21 := hsym 2 1
      generalize F * F.transpose = b at h10 h20 h21 p0 p1 p2 p3 p4 p5 ⊢
      simp only [Matrix.mul_apply, Fin.sum_univ_three, Matrix.transpose_apply]
      generalize F.det ^ (-2 / 3 : ℝ) = q at p0 p1 p2 p3 p4 p5 ⊢
      generalize volumetricModuli iVOL K F.det = v
      generalize F.det = J at hJ ⊢
      fin_cases i <;> fin_cases j <;>
        · simp [voigt, h10, h20, h21, p0, p1, p2, p3, p4, p5]
          field_simp
          ring
    · rintro t ⟨⟨o, a, b, c⟩, hn⟩
      have hn := hn.ne'
      simp only [a, val, b, Function.comp, Pi.add_apply, Pi.mul_apply, Pi.sub_apply]
      generalize (1 + t • L) * F = A at hn ⊢
      generalize A * A.transpose = B
      generalize A.det ^ (-2 / 3 : ℝ) = q
      generalize A.det = D at hn ⊢
      split
      · field_simp
        try ring
      · field_simp
        try ring

/-- Both materials: the stress is a combination of the left Cauchy-Green tensor and the identity with
coefficients depending on its trace and the volume ratio only; so does the energy. -/
theorem isotropic_form (mVER iVOL : Nat) (hm : mVER = 1 ∨ mVER = 2) (K G : ℝ) :
    ∃ f g w : ℝ → ℝ → ℝ, ∀ F : Matrix (Fin 3) (Fin 3) ℝ, F.det ≠ 0 →
      ∃ o, evaluate3 mVER iVOL K G F = .ok o ∧
        sig o = f F.det (F * F.transpose).trace • (F * F.transpose) +
          g F.det (F * F.transpose).trace • (1 : Matrix (Fin 3) (Fin 3) ℝ) ∧
        o.U = w F.det (F * F.transpose).trace := by
  have ht : ∀ b : Matrix (Fin 3) (Fin 3) ℝ, b.trace = b 0 0 + b 1 1 + b 2 2 := fun b => by
    simp [Matrix.trace, Fin.sum_univ_three]
  rcases hm with rfl | rfl
  · refine ⟨fun J _ => G / J, fun J _ => (volumetricModuli iVOL K J).Up - G / J,
      fun J t => (volumetricModuli iVOL K J).U + G * (1 / 2 * t - 3 / 2 - Real.log |J|), ?_⟩
    intro F hF
    obtain ⟨o, a, _, _, b, c, _⟩ := std_eval iVOL K G F hF
    refine ⟨o, a, ?_, ?_⟩
    · ext i j
      rw [b]
      by_cases h : i = j <;> simp [h, Matrix.one_apply]
    · rw [c, ht]
  · refine ⟨fun J _ => G / J * J ^ (-2 / 3 : ℝ),
      fun J t => (volumetricModuli iVOL K J).Up - G / J * J ^ (-2 / 3 : ℝ) * t / 3,
      fun J t => (volumetricModuli iVOL K J).U + 1 / 2 * G * (J ^ (-2 / 3 : ℝ) * t - 3), ?_⟩
    intro F hF
    obtain ⟨o, a, _, _, b, c, _⟩ := mod_eval iVOL K G F hF
    refine ⟨o, a, ?_, ?_⟩
    · ext i j
      rw [b, ht]
      by_cases h : i = j <;> simp [h, Matrix.one_apply] <;> ring
    · rw [c, ht]

/-- C26: frame indifference and isotropy. A rotation of the deformed body rotates the stress and keeps
the energy; a rotation of the undeformed body changes neither; the stress is symmetric. -/
theorem C26_frame (mVER iVOL : Nat) (hm : mVER = 1 ∨ mVER = 2) (K G : ℝ)
    (F Q : Matrix (Fin 3) (Fin 3) ℝ) (hF : F.det ≠ 0) (hQ : Q * Q.transpose = 1) (hd : Q.det = 1) :
    ∃ o o' o'', evaluate3 mVER iVOL K G F = .ok o ∧ evaluate3 mVER iVOL K G (Q * F) = .ok o' ∧
      evaluate3 mVER iVOL K G (F * Q) = .ok o'' ∧
      sig o' = Q * sig o * Q.transpose ∧ o'.U = o.U ∧ sig o'' = sig o ∧ o''.U = o.U ∧
      (sig o).transpose = sig o := by
  have hQ' : Q.transpose * Q = 1 := mul_eq_one_comm.1 hQ
  obtain ⟨f, g, w, h⟩ := isotropic_form mVER iVOL hm K G
  have d1 : (Q * F).det = F.det := by rw [Matrix.det_mul, hd, one_mul]
  have d2 : (F * Q).det = F.det := by rw [Matrix.det_mul, hd, mul_one]
  obtain ⟨o, a, b, c⟩ := h F hF
  obtain ⟨o', a', b', c'⟩ := h (Q * F) (by rw [d1]; exact hF)
  obtain ⟨o'', a'', b'', c''⟩ := h (F * Q) (by rw [d2]; exact hF)
  have e1 : (Q * F) * (Q * F).transpose = Q * (F * F.transpose) * Q.transpose := by
    rw [Matrix.transpose_mul]; simp only [Matrix.mul_assoc]
  have e2 : (F * Q) * (F * Q).transpose = F * F.transpose := by
    rw [Matrix.transpose_mul, Matrix.mul_assoc, ← Matrix.mul_assoc Q, hQ, Matrix.one_mul]
  have t1 : ((Q * F) * (Q * F).transpose).trace = (F * F.transpose).trace := by
    rw [e1, Matrix.trace_mul_comm, ← Matrix.mul_assoc, hQ', Matrix.one_mul]
  rw [t1, d1] at b' c'
  rw [e2, d2] at b'' c''
  refine ⟨o, o', o'', a, a', a'', ?_, by rw [c', c], by rw [b'', b], by rw [c'', c], ?_⟩
  · rw [b', b, e1]
    simp only [Matrix.mul_add, Matrix.add_mul, Matrix.mul_smul, Matrix.smul_mul, Matrix.mul_one, hQ]
  · rw [b]; simp

/-- A rotation which is not the identity, and a deformation that is not a rotation. -/
example : ∃ Q F : Matrix (Fin 3) (Fin 3) ℝ, Q * Q.transpose = 1 ∧ Q.det = 1 ∧ Q ≠ 1 ∧ F.det = 2 := by
  refine ⟨!![0, -1, 0; 1, 0, 0; 0, 0, 1], !![2, 5, 0; 0, 1, 0; 0, 0, 1], ?_, ?_, ?_, ?_⟩
  · ext i j; fin_cases i <;> fin_cases j <;> simp [Matrix.mul_apply, Fin.sum_univ_three]
  · simp [Matrix.det_fin_three]
  · intro h; have := congrFun (congrFun h 0) 0; norm_num at this
  · simp [Matrix.det_fin_three]

/-- C26: the undeformed state has neither stress nor energy, for every volumetric law but number 4,
and the tangent there is the one of linear elasticity: with the first Lamé parameter `K` for the
standard material and `K - 2G/3` (bulk modulus `K`) for the modified one. -/
theorem C26_undeformed_partial (mVER iVOL : Nat) (hm : mVER = 1 ∨ mVER = 2)
    (hv : iVOL = 1 ∨ iVOL = 2 ∨ iVOL = 3) (K G : ℝ) :
    ∃ o, evaluate3 mVER iVOL K G 1 = .ok o ∧ sig o = 0 ∧ o.U = 0 ∧
      ∀ i j k l, tang o i j k l = (if mVER = 1 then K else K - 2 * G / 3) *
          (if i = j ∧ k = l then 1 else 0) +
        G * ((if i = k ∧ j = l then 1 else 0) + if i = l ∧ j = k then 1 else 0) := by
  obtain ⟨u1, u2, u3⟩ := C24_undeformed_partial iVOL hv K
  have hd : (1 : Matrix (Fin 3) (Fin 3) ℝ).det ≠ 0 := by simp
  rcases hm with rfl | rfl
  · obtain ⟨o, a, _, _, b, c, d⟩ := std_eval iVOL K G 1 hd
    have hCe : ∀ i j : Fin 6, o.C.e (i + 1) (j + 1) = o.C.toM 6 6 i j := fun _ _ => rfl
    refine ⟨o, a, ?_, ?_, ?_⟩
    · ext i j
      rw [b]
      by_cases h : i = j <;> simp [h, u2]
    · rw [c]; simp [u1]; right; norm_num
    · intro i j k l
      simp only [tang, hCe, d]
      simp only [Matrix.det_one, u2, u3]
      fin_cases i <;> fin_cases j <;> fin_cases k <;> fin_cases l <;> simp [voigt] <;> ring
  · obtain ⟨o, a, _, _, b, c, p, hp, d⟩ := mod_eval iVOL K G 1 hd
    obtain ⟨C, hC, _, _, hCM⟩ := modC3 G (1 : Matrix (Fin 3) (Fin 3) ℝ).det _
      (volumetricModuli iVOL K (1 : Matrix (Fin 3) (Fin 3) ℝ).det).Up
      (volumetricModuli iVOL K (1 : Matrix (Fin 3) (Fin 3) ℝ).det).Upp p
    have hoC : o.C = C := by rw [hC] at d; injection d with h; exact h.symm
    have hCe : ∀ i j : Fin 6, o.C.e (i + 1) (j + 1) = C.toM 6 6 i j := fun i j => by rw [hoC]; rfl
    have p0 := hp 0 0
    have p1 := hp 1 1
    have p2 := hp 2 2
    have p3 := hp 0 1
    have p4 := hp 1 2
    have p5 := hp 0 2
    simp [voigt] at p0 p1 p2 p3 p4 p5
    norm_num at p0 p1 p2
    refine ⟨o, a, ?_, ?_, ?_⟩
    · ext i j
      rw [b]
      by_cases h : i = j
      · simp [h, u2]; right; norm_num
      · simp [h]
    · rw [c]; simp [u1]; right; norm_num
    · intro i j k l
      simp only [tang, hCe, hCM]
      simp only [Matrix.det_one, u2, u3, p0, p1, p2, p3, p4, p5]
      fin_cases i <;> fin_cases j <;> fin_cases k <;> fin_cases l <;> simp [voigt] <;> ring

/-- C26 is violated with the volumetric law 4: the undeformed body has the stress `K` in all
directions. -/
theorem C26_undeformed_violated (K G : ℝ) :
    ∃ o, evaluate3 1 4 K G 1 = .ok o ∧ sig o = K • (1 : Matrix (Fin 3) (Fin 3) ℝ) := by
  obtain ⟨o, a, _, _, b, c, d⟩ := std_eval 4 K G 1 (by simp)
  refine ⟨o, a, ?_⟩
  ext i j
  rw [b]
  by_cases h : i = j <;> simp [h, volumetricModuli] <;> ring

/-- C26 is violated in two dimensions: both materials write outside of the constitutive matrix when
the stress has three components, as it has in plane strain; the standard material does so in
axisymmetry (four components), too. -/
theorem C26_plane_violated (iVOL : Nat) (K G J : ℝ) (hJ : J ≠ 0) (v : Nat → ℝ) :
    evaluate 1 iVOL K G J ⟨2, 3, v⟩ = .ub ∧ evaluate 2 iVOL K G J ⟨2, 3, v⟩ = .ub ∧
    evaluate 1 iVOL K G J ⟨2, 4, v⟩ = .ub := by
  unfold evaluate
  rw [if_neg hJ, if_neg hJ, if_neg hJ]
  exact ⟨rfl, rfl, rfl⟩

/-- C26 is violated in axisymmetry by the modified material: at the undeformed state the tangent has
no coupling between radial and hoop direction, and a hoop stiffness of `G` instead of `K + 4G/3`. -/
theorem C26_axisymmetric_violated (K G : ℝ) :
    ∃ o, evaluate 2 2 K G 1 ⟨2, 4, fun i => if i < 3 then 1 else 0⟩ = .ok o ∧
      o.C.e 1 1 = K + 4 / 3 * G ∧ o.C.e 1 2 = K - 2 / 3 * G ∧ o.C.e 1 3 = 0 ∧ o.C.e 3 3 = G := by
  have hm : ∀ (J Ic P Cv : ℝ) (p : Nat → ℝ), ∃ C, modC 2 G J Ic P Cv p (DMat.zero 4 4) = .ok C ∧
      C.e 1 1 = (0 + -(G * 2 / 3 * p 0) + -(G * 2 / 3 * p 0) + (G * Ic + G * Ic) +
        -((G * Ic + G * Ic) / 3)) * (1 / J) + (Cv * J - P) ∧
      C.e 1 2 = (0 + -(G * 2 / 3 * p 0) + -(G * 2 / 3 * p 1) + -((G * Ic + G * Ic) / 3)) * (1 / J) +
        (Cv * J + P) ∧
      C.e 1 3 = (0 + -(G * 2 / 3 * p 2)) * (1 / J) ∧
      C.e 3 3 = (0 + G * Ic) * (1 / J) + -P := fun J Ic P Cv p =>
    ⟨_, rfl, rfl, rfl, rfl, rfl⟩
  unfold evaluate
  rw [if_neg one_ne_zero]
  simp only [modNeoHooke]
  have e3 : (Sym.scale ⟨2, 4, fun i => if i < 3 then (1 : ℝ) else 0⟩ (1 ^ (-2 / 3 : ℝ))).trace / 3 =
      1 := by
    have : ∑ i ∈ Finset.range 3, (if i < 3 then (1 : ℝ) else 0) * 1 ^ (-2 / 3 : ℝ) = 3 := by
      rw [Finset.sum_range_succ, Finset.sum_range_succ, Finset.sum_range_succ,
        Finset.sum_range_zero]
      norm_num
    simp only [Sym.trace, Sym.scale, Sym.nrm, if_true]
    rw [this]; norm_num
  rw [e3]
  obtain ⟨C, hC, h1, h2, h3, h4⟩ := hm 1 1 (volumetricModuli 2 K 1).Up (volumetricModuli 2 K 1).Upp
    ((Sym.scale ⟨2, 4, fun i => if i < 3 then (1 : ℝ) else 0⟩ (1 ^ (-2 / 3 : ℝ))).shift (-1)).v
  have hC' : modC ((Sym.scale ⟨2, 4, fun i => if i < 3 then (1 : ℝ) else 0⟩
      (1 ^ (-2 / 3 : ℝ))).shift (-1)).dim G 1 1 (volumetricModuli 2 K 1).Up
      (volumetricModuli 2 K 1).Upp ((Sym.scale ⟨2, 4, fun i => if i < 3 then (1 : ℝ) else 0⟩
      (1 ^ (-2 / 3 : ℝ))).shift (-1)).v (DMat.zero 4 4) = .ok C := hC
  rw [hC']
  refine ⟨_, rfl, ?_, ?_, ?_, ?_⟩
  · simp only [h1]; simp [Sym.shift, Sym.scale, Sym.nrm, volumetricModuli]; ring
  · simp only [h2]; simp [Sym.shift, Sym.scale, Sym.nrm, volumetricModuli]; ring
  · simp only [h3]; simp [Sym.shift, Sym.scale, Sym.nrm, volumetricModuli]
  · simp only [h4]; simp [Sym.shift, Sym.scale, Sym.nrm, volumetricModuli]

/-- C26: an unknown material version and a singular deformation gradient are reported. -/
theorem C26_reject (mVER iVOL : Nat) (K G : ℝ) (F : Matrix (Fin 3) (Fin 3) ℝ)
    (h : F.det = 0 ∨ (mVER ≠ 1 ∧ mVER ≠ 2)) : evaluate3 mVER iVOL K G F = .fail := by
  unfold evaluate3 evaluate
  rcases h with h | ⟨h1, h2⟩
  · rw [if_pos h]
  · split
    · rfl
    · split
      · exact absurd rfl h1
      · exact absurd rfl h2
      · rfl

end Verif.NeoHooke
