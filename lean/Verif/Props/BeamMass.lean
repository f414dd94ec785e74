/-
C41: eccentricity transformation. C42: mass matrices. C74: lumped mass matrices that are kept diagonal.
-/
import Verif.Proofs.Beam
import Mathlib.Tactic.Linarith
import Mathlib.Tactic.Positivity
import Mathlib.Tactic.IntervalCases
import Mathlib.Tactic.FinCases
import Mathlib.Algebra.Order.Ring.Rat
import Mathlib.Analysis.SpecialFunctions.Integrals.Basic

set_option linter.unusedSectionVars false
set_option linter.unusedSimpArgs false
set_option linter.unusedVariables false
set_option linter.unnecessarySeqFocus false

namespace Verif.Beam

section field

variable {K : Type*} [Field K]

/-- C41: the transformed matrix is the congruence with the kinematics of the rigid arms. -/
theorem C41_matrix (A : Mat K) (e1 e2 : V3 K) (u v : Nat → K) :
    form (eccMat A e1 e2) u v = form A (armed e1 e2 u) (armed e1 e2 v) := form_ecc A e1 e2 u v

/-- C41: the transformed vector does the same virtual work as the vector at the ends of the arms. -/
theorem C41_vector (b : Nat → K) (e1 e2 : V3 K) (u : Nat → K) :
    work (eccVec b e1 e2) u = work b (armed e1 e2 u) := work_ecc b u e1 e2

/-- C41: the forces are statically equivalent: unchanged force, and the moment of the force about the node, the force
acting at `-e` from it, is added. -/
theorem C41_statics (b : Nat → K) (e1 e2 : V3 K) :
    (eccVec b e1 e2 1 = b 1 ∧ eccVec b e1 e2 2 = b 2 ∧ eccVec b e1 e2 3 = b 3) ∧
    (eccVec b e1 e2 4 = b 4 + ((-e1 1) * b 3 - (-e1 2) * b 2) ∧
      eccVec b e1 e2 5 = b 5 + ((-e1 2) * b 1 - (-e1 0) * b 3) ∧
      eccVec b e1 e2 6 = b 6 + ((-e1 0) * b 2 - (-e1 1) * b 1)) ∧
    (eccVec b e1 e2 7 = b 7 ∧ eccVec b e1 e2 8 = b 8 ∧ eccVec b e1 e2 9 = b 9) ∧
    (eccVec b e1 e2 10 = b 10 + ((-e2 1) * b 9 - (-e2 2) * b 8) ∧
      eccVec b e1 e2 11 = b 11 + ((-e2 2) * b 7 - (-e2 0) * b 9) ∧
      eccVec b e1 e2 12 = b 12 + ((-e2 0) * b 8 - (-e2 1) * b 7)) := by
  refine ⟨⟨?_, ?_, ?_⟩, ⟨?_, ?_, ?_⟩, ⟨?_, ?_, ?_⟩, ?_, ?_, ?_⟩ <;> simp [eccVec, addToV] <;> ring

/-- C41: symmetry is preserved. -/
theorem C41_symmetric (A : Mat K) (e1 e2 : V3 K) (h : ∀ u v, form A u v = form A v u) (u v : Nat → K) :
    form (eccMat A e1 e2) u v = form (eccMat A e1 e2) v u := by
  rw [C41_matrix, C41_matrix, h]

/-- C41: the same for the transformation to the shear centre. -/
theorem C41_shear (A : Mat K) (Sy Sz : K) (u v : Nat → K) :
    form (shearMat A Sy Sz) u v = form A (centred Sy Sz u) (centred Sy Sz v) := form_shear A Sy Sz u v

/-! ### Mass -/

/-- Form of the lumped mass matrix. -/
theorem form_lumped (rhoA Ixx L : K) (u v : Nat → K) :
    form (entry (massLumped rhoA Ixx L)) u v =
      rhoA * L / 2 * (u 1 * v 1 + u 2 * v 2 + u 3 * v 3 + u 7 * v 7 + u 8 * v 8 + u 9 * v 9)
      + Ixx * L / 2 * (u 4 * v 4 + u 10 * v 10)
      + rhoA * L ^ 3 / 420 * (u 5 * v 5 + u 6 * v 6 + u 11 * v 11 + u 12 * v 12) := by
  simp [form, Finset.sum_range_succ, entry, massLumped]
  ring

/-- C42: the mass matrices are symmetric. -/
theorem C42_symmetric [CharZero K] (lumped : Int) (rhoA Ixx Iyy Izz L : K) (hL : L ≠ 0) (u v : Nat → K) :
    form (mass lumped rhoA Ixx Iyy Izz L) u v = form (mass lumped rhoA Ixx Iyy Izz L) v u := by
  unfold mass
  split_ifs
  · rw [form_lumped, form_lumped]; ring
  · rw [form_mass _ _ _ _ _ hL, form_mass _ _ _ _ _ hL]
    unfold hermite hermiteSlope linear; ring
  · rw [form_mass _ _ _ _ _ hL, form_mass _ _ _ _ _ hL]
    unfold hermite hermiteSlope linear; ring

/-- C42: a translation acceleration `t` gives forces in its own direction, half of `rhoA L t` at each end, and, with the
consistent matrix, the end moments of a uniformly distributed load. -/
theorem C42_translation [CharZero K] (lumped : Int) (rhoA Ixx Iyy Izz L : K) (hL : L ≠ 0) (t : Fin 3 → K) (v : Nat → K) :
    form (mass lumped rhoA Ixx Iyy Izz L) v (rigid L t 0) =
      rhoA * L / 2 * (t 0 * (v 1 + v 7) + t 1 * (v 2 + v 8) + t 2 * (v 3 + v 9))
      + if lumped > 0 then 0 else rhoA * L ^ 2 / 12 * (t 1 * (v 6 - v 12) - t 2 * (v 5 - v 11)) := by
  unfold mass
  split_ifs
  · rw [form_lumped]; simp only [rigid, Pi.zero_apply]; ring
  · rw [form_mass _ _ _ _ _ hL]
    unfold hermite hermiteSlope linear; simp [rigid]; ring
  · rw [form_mass _ _ _ _ _ hL]
    unfold hermite hermiteSlope linear; simp [rigid]; field_simp; ring

/-- C42: the total mass in every direction. -/
theorem C42_total [CharZero K] (lumped : Int) (rhoA Ixx Iyy Izz L : K) (hL : L ≠ 0) (t s : Fin 3 → K) :
    form (mass lumped rhoA Ixx Iyy Izz L) (rigid L s 0) (rigid L t 0) =
      rhoA * L * (s 0 * t 0 + s 1 * t 1 + s 2 * t 2) := by
  rw [C42_translation _ _ _ _ _ _ hL]
  simp [rigid]
  ring

/-- C42: the kinetic energy of a rigid-body motion with the consistent mass matrix is that of a rigid rod. -/
theorem C42_rigid [CharZero K] (rhoA Ixx Iyy Izz L : K) (hL : L ≠ 0) (t r s q : Fin 3 → K) :
    form (mass 0 rhoA Ixx Iyy Izz L) (rigid L t r) (rigid L s q) =
      rhoA * L * (t 0 * s 0 + t 1 * s 1 + t 2 * s 2)
      + rhoA * L ^ 2 / 2 * (t 1 * q 2 - t 2 * q 1 + s 1 * r 2 - s 2 * r 1)
      + Ixx * L * (r 0 * q 0) + (rhoA * L ^ 3 / 3 + Iyy * L) * (r 1 * q 1)
      + (rhoA * L ^ 3 / 3 + Izz * L) * (r 2 * q 2) := by
  have : mass 0 rhoA Ixx Iyy Izz L = symm (entry (massUpper rhoA Ixx Iyy Izz L)) := by simp [mass]
  rw [this, form_mass _ _ _ _ _ hL]
  unfold hermite hermiteSlope linear; simp [rigid]; field_simp; ring

/-- C42: the kinetic energy of a rigid-body motion when the rotary inertia of bending is left out (`lumped < 0`), and when the mass
is lumped in the ends (`lumped > 0`). -/
theorem C42_rigid_lumped [CharZero K] (lumped : Int) (rhoA Ixx Iyy Izz L : K) (hL : L ≠ 0) (hl : lumped ≠ 0) (t r s q : Fin 3 → K) :
    form (mass lumped rhoA Ixx Iyy Izz L) (rigid L t r) (rigid L s q) =
      rhoA * L * (t 0 * s 0 + t 1 * s 1 + t 2 * s 2)
      + rhoA * L ^ 2 / 2 * (t 1 * q 2 - t 2 * q 1 + s 1 * r 2 - s 2 * r 1)
      + Ixx * L * (r 0 * q 0)
      + rhoA * L ^ 3 * (if lumped < 0 then 1 / 3 else 1 / 2 + 1 / 210) * (r 1 * q 1 + r 2 * q 2) := by
  unfold mass
  by_cases h : lumped > 0
  · rw [if_pos h, if_neg (by omega), form_lumped]
    simp [rigid]; field_simp; ring
  · rw [if_neg h, if_pos (by omega), if_pos (by omega), form_mass _ _ _ _ _ hL]
    unfold hermite hermiteSlope linear; simp [rigid]; field_simp; ring

/-- C42: the gravitation forces have the resultant and the moment about the first end of the weight at the middle of the
beam. -/
theorem C42_gravity [CharZero K] (lumped : Int) (rhoA Ixx Iyy Izz L : K) (hL : L ≠ 0) (g t r : Fin 3 → K) :
    work (gravity (mass lumped rhoA Ixx Iyy Izz L) g 0) (rigid L t r) =
      rhoA * L * (t 0 * g 0 + t 1 * g 1 + t 2 * g 2) + rhoA * L * (L / 2) * (r 2 * g 1 - r 1 * g 2) := by
  have e : work (gravity (mass lumped rhoA Ixx Iyy Izz L) g 0) (rigid L t r)
      = form (mass lumped rhoA Ixx Iyy Izz L) (rigid L t r) (rigid L g 0) := by
    unfold work form gravity
    refine Finset.sum_congr rfl fun i _ => ?_
    simp [Finset.sum_range_succ, rigid]
    ring
  rw [e, C42_translation _ _ _ _ _ _ hL]
  split_ifs <;> simp [rigid] <;> ring

/-- C42: with the centre of gravity at `(0, CGy, CGz)` from the axis, the total mass and weight are unchanged and the
moment of the weight is that of a force in the centre of gravity. -/
theorem C42_centre [CharZero K] (lumped : Int) (rhoA Ixx Iyy Izz L CGy CGz : K) (hL : L ≠ 0) (g t r : Fin 3 → K) :
    work (gravity (eccMat (mass lumped rhoA Ixx Iyy Izz L) ![0, -CGy, -CGz] ![0, -CGy, -CGz]) g 0) (rigid L t r) =
      rhoA * L * (t 0 * g 0 + t 1 * g 1 + t 2 * g 2)
      + rhoA * L * (r 0 * (CGy * g 2 - CGz * g 1) + r 1 * (CGz * g 0 - L / 2 * g 2) + r 2 * (L / 2 * g 1 - CGy * g 0))
      := by
  have e : ∀ M : Mat K, work (gravity M g 0) (rigid L t r) = form M (rigid L t r) (rigid L g 0) := by
    intro M
    unfold work form gravity
    refine Finset.sum_congr rfl fun i _ => ?_
    simp [Finset.sum_range_succ, rigid]
    ring
  rw [e, C41_matrix]
  have e2 : form (mass lumped rhoA Ixx Iyy Izz L) (armed ![0, -CGy, -CGz] ![0, -CGy, -CGz] (rigid L t r))
      (armed ![0, -CGy, -CGz] ![0, -CGy, -CGz] (rigid L g 0))
      = form (mass lumped rhoA Ixx Iyy Izz L) (rigid L ![t 0 + (r 1 * CGz - r 2 * CGy), t 1 - r 0 * CGz,
        t 2 + r 0 * CGy] r) (rigid L g 0) := by
    unfold form
    simp [Finset.sum_range_succ, rigid, armed]
    ring
  rw [e2, C42_translation _ _ _ _ _ _ hL]
  split_ifs <;> simp [rigid] <;> ring

/-! ### Lumped mass matrices kept diagonal -/

/-- C74: for rows `T i` of unit length, and equal masses in the three directions of the first node, the diagonal
of every 3×3 block is that of `T D Tᵀ`; nothing is added outside the diagonal. -/
theorem C74_axes (T : Fin 3 → Fin 3 → K) (A : Mat K) (hT : ∀ i, T i 0 ^ 2 + T i 1 ^ 2 + T i 2 ^ 2 = 1)
    (h2 : A 2 2 = A 1 1) (h3 : A 3 3 = A 1 1) :
    (∀ b < 4, ∀ i : Fin 3, lumpAxes T A (3 * b + i.val + 1) (3 * b + i.val + 1) =
      ∑ j : Fin 3, T i j * A (3 * b + j.val + 1) (3 * b + j.val + 1) * T i j) ∧
    ∀ r c, r ≠ c → lumpAxes T A r c = A r c := by
  constructor
  · intro b hb i
    interval_cases b
    · have : lumpAxes T A (3 * 0 + i.val + 1) (3 * 0 + i.val + 1) = A 1 1 := by
        fin_cases i <;> simp [lumpAxes, h2, h3]
      rw [this, Fin.sum_univ_three]
      simp [h2, h3]
      linear_combination (-A 1 1) * hT i
    all_goals
      fin_cases i <;> simp [lumpAxes, Fin.sum_univ_three] <;> ring
  · intro r c h
    simp [lumpAxes, h]

/-- C74: the sum of the three rotational inertias of a node is unchanged by the change of axes. -/
theorem C74_trace (T : Fin 3 → Fin 3 → K) (A : Mat K) (hT : ∀ j, T 0 j ^ 2 + T 1 j ^ 2 + T 2 j ^ 2 = 1) :
    lumpAxes T A 4 4 + lumpAxes T A 5 5 + lumpAxes T A 6 6 = A 4 4 + A 5 5 + A 6 6 ∧
    lumpAxes T A 10 10 + lumpAxes T A 11 11 + lumpAxes T A 12 12 = A 10 10 + A 11 11 + A 12 12 := by
  simp [lumpAxes]
  constructor
  · linear_combination (A 4 4) * hT 0 + (A 5 5) * hT 1 + (A 6 6) * hT 2
  · linear_combination (A 10 10) * hT 0 + (A 11 11) * hT 1 + (A 12 12) * hT 2

/-- C74: for a diagonal matrix, the special eccentricity transformation gives the diagonal of the exact one. -/
theorem C74_eccentric (A : Mat K) (e1 e2 : V3 K) (hA : ∀ i j, i ≠ j → A i j = 0) :
    (∀ i, 1 ≤ i → i ≤ 12 → lumpEcc A e1 e2 i i =
      form A (armed e1 e2 fun k => if k = i then 1 else 0) (armed e1 e2 fun k => if k = i then 1 else 0)) ∧
    ∀ i j, i ≠ j → lumpEcc A e1 e2 i j = 0 := by
  constructor
  · intro i h1 h2
    have hf : ∀ u : Nat → K, form A u u = ∑ k ∈ Finset.range 12, A (k + 1) (k + 1) * (u (k + 1) * u (k + 1)) := by
      intro u
      unfold form
      refine Finset.sum_congr rfl fun k hk => ?_
      rw [Finset.sum_eq_single_of_mem k hk]
      · ring
      · intro j _ hj
        rw [hA _ _ (by omega)]; ring
    rw [hf]
    interval_cases i <;> simp [lumpEcc, addTo, armed, Finset.sum_range_succ] <;> ring
  · intro i j h
    have : ∀ (A : Mat K) (k : Nat) (v : K), addTo A k k v i j = A i j := by
      intro A k v
      unfold addTo
      rw [if_neg]
      rintro ⟨rfl, rfl⟩; exact h rfl
    simp only [lumpEcc, this]
    exact hA i j h

end field

section ordered

variable {K : Type*} [Field K] [LinearOrder K] [IsStrictOrderedRing K]

/-- C41: non-negative energy is preserved. -/
theorem C41_nonneg (A : Mat K) (e1 e2 : V3 K) (h : ∀ u, 0 ≤ form A u u) (u : Nat → K) :
    0 ≤ form (eccMat A e1 e2) u u := by
  rw [C41_matrix]; exact h _

/-- C42: kinetic energy is not negative. -/
theorem C42_nonneg (lumped : Int) (rhoA Ixx Iyy Izz L : K) (hL : 0 < L) (h1 : 0 ≤ rhoA) (h2 : 0 ≤ Ixx)
    (h3 : 0 ≤ Iyy) (h4 : 0 ≤ Izz) (u : Nat → K) : 0 ≤ form (mass lumped rhoA Ixx Iyy Izz L) u u := by
  unfold mass
  split_ifs
  · rw [form_lumped]; simp only [← sq]; positivity
  · rw [form_mass _ _ _ _ _ hL.ne']
    unfold hermite hermiteSlope linear
    simp only [← sq, zero_mul, add_zero]
    positivity
  · rw [form_mass _ _ _ _ _ hL.ne']
    unfold hermite hermiteSlope linear
    simp only [← sq]
    positivity

end ordered

/-! ### The consistent mass matrix as an integral -/

/-- The cubic polynomial with values `w1`, `w2` and slopes `t1`, `t2` at `0` and `L`. -/
noncomputable def cubic (L w1 t1 w2 t2 x : ℝ) : ℝ :=
  w1 + t1 * x + (3 * (w2 - w1) / L ^ 2 - (2 * t1 + t2) / L) * x ^ 2
    + (2 * (w1 - w2) / L ^ 3 + (t1 + t2) / L ^ 2) * x ^ 3

/-- Its derivative. -/
noncomputable def cubicSlope (L w1 t1 w2 t2 x : ℝ) : ℝ :=
  t1 + 2 * (3 * (w2 - w1) / L ^ 2 - (2 * t1 + t2) / L) * x
    + 3 * (2 * (w1 - w2) / L ^ 3 + (t1 + t2) / L ^ 2) * x ^ 2

theorem cubic_ends (L w1 t1 w2 t2 : ℝ) (hL : L ≠ 0) :
    cubic L w1 t1 w2 t2 0 = w1 ∧ cubicSlope L w1 t1 w2 t2 0 = t1 ∧
    cubic L w1 t1 w2 t2 L = w2 ∧ cubicSlope L w1 t1 w2 t2 L = t2 := by
  refine ⟨by simp [cubic], by simp [cubicSlope], ?_, ?_⟩
  · unfold cubic; field_simp; ring
  · unfold cubicSlope; field_simp; ring

theorem cubic_deriv (L w1 t1 w2 t2 x : ℝ) :
    HasDerivAt (cubic L w1 t1 w2 t2) (cubicSlope L w1 t1 w2 t2 x) x := by
  unfold cubic cubicSlope
  have h := (((hasDerivAt_const x w1).add ((hasDerivAt_id x).const_mul t1)).add
    (((hasDerivAt_id x).pow 2).const_mul (3 * (w2 - w1) / L ^ 2 - (2 * t1 + t2) / L))).add
    (((hasDerivAt_id x).pow 3).const_mul (2 * (w1 - w2) / L ^ 3 + (t1 + t2) / L ^ 2))
  refine (h.congr_deriv ?_)
  simp
  ring

/-- Integral of a polynomial of degree six. -/
theorem integral_poly (a : Fin 7 → ℝ) (L : ℝ) :
    ∫ x in (0:ℝ)..L, (a 0 + a 1 * x + a 2 * x ^ 2 + a 3 * x ^ 3 + a 4 * x ^ 4 + a 5 * x ^ 5 + a 6 * x ^ 6)
      = a 0 * L + a 1 * L ^ 2 / 2 + a 2 * L ^ 3 / 3 + a 3 * L ^ 4 / 4 + a 4 * L ^ 5 / 5 + a 5 * L ^ 6 / 6
        + a 6 * L ^ 7 / 7 := by
  have hd : ∀ x : ℝ, HasDerivAt (fun x => a 0 * x + a 1 * x ^ 2 / 2 + a 2 * x ^ 3 / 3 + a 3 * x ^ 4 / 4
      + a 4 * x ^ 5 / 5 + a 5 * x ^ 6 / 6 + a 6 * x ^ 7 / 7)
      (a 0 + a 1 * x + a 2 * x ^ 2 + a 3 * x ^ 3 + a 4 * x ^ 4 + a 5 * x ^ 5 + a 6 * x ^ 6) x := by
    intro x
    have h := (((((((hasDerivAt_id x).const_mul (a 0)).add
      ((((hasDerivAt_id x).pow 2).const_mul (a 1)).div_const 2)).add
      ((((hasDerivAt_id x).pow 3).const_mul (a 2)).div_const 3)).add
      ((((hasDerivAt_id x).pow 4).const_mul (a 3)).div_const 4)).add
      ((((hasDerivAt_id x).pow 5).const_mul (a 4)).div_const 5)).add
      ((((hasDerivAt_id x).pow 6).const_mul (a 5)).div_const 6)).add
      ((((hasDerivAt_id x).pow 7).const_mul (a 6)).div_const 7)
    refine h.congr_deriv ?_
    simp
    ring
  rw [intervalIntegral.integral_eq_sub_of_hasDerivAt (fun x _ => hd x)]
  · simp
  · apply Continuous.intervalIntegrable
    fun_prop

theorem hermite_integral (L w1 t1 w2 t2 x1 s1 x2 s2 : ℝ) (hL : L ≠ 0) :
    ∫ x in (0:ℝ)..L, cubic L w1 t1 w2 t2 x * cubic L x1 s1 x2 s2 x = hermite L w1 t1 w2 t2 x1 s1 x2 s2 := by
  have gen : ∀ a b c d a' b' c' d' : ℝ,
      ∫ x in (0:ℝ)..L, (a + b * x + c * x ^ 2 + d * x ^ 3) * (a' + b' * x + c' * x ^ 2 + d' * x ^ 3)
      = a * a' * L + (a * b' + b * a') * L ^ 2 / 2 + (a * c' + b * b' + c * a') * L ^ 3 / 3
        + (a * d' + b * c' + c * b' + d * a') * L ^ 4 / 4 + (b * d' + c * c' + d * b') * L ^ 5 / 5
        + (c * d' + d * c') * L ^ 6 / 6 + d * d' * L ^ 7 / 7 := by
    intro a b c d a' b' c' d'
    have := integral_poly ![a * a', a * b' + b * a', a * c' + b * b' + c * a', a * d' + b * c' + c * b' + d * a',
      b * d' + c * c' + d * b', c * d' + d * c', d * d'] L
    simp only [Matrix.cons_val] at this
    rw [← this]
    congr 1
    funext x
    ring
  unfold cubic
  rw [gen]
  unfold hermite
  field_simp
  ring

theorem hermiteSlope_integral (L w1 t1 w2 t2 x1 s1 x2 s2 : ℝ) (hL : L ≠ 0) :
    ∫ x in (0:ℝ)..L, cubicSlope L w1 t1 w2 t2 x * cubicSlope L x1 s1 x2 s2 x
      = hermiteSlope L w1 t1 w2 t2 x1 s1 x2 s2 := by
  have gen : ∀ b c d b' c' d' : ℝ,
      ∫ x in (0:ℝ)..L, (b + 2 * c * x + 3 * d * x ^ 2) * (b' + 2 * c' * x + 3 * d' * x ^ 2)
      = b * b' * L + (2 * b * c' + 2 * c * b') * L ^ 2 / 2 + (3 * b * d' + 4 * c * c' + 3 * d * b') * L ^ 3 / 3
        + (6 * c * d' + 6 * d * c') * L ^ 4 / 4 + 9 * d * d' * L ^ 5 / 5 := by
    intro b c d b' c' d'
    have := integral_poly ![b * b', 2 * b * c' + 2 * c * b', 3 * b * d' + 4 * c * c' + 3 * d * b',
      6 * c * d' + 6 * d * c', 9 * d * d', 0, 0] L
    simp only [Matrix.cons_val, zero_mul, zero_div, add_zero] at this
    rw [← this]
    congr 1
    funext x
    ring
  unfold cubicSlope
  rw [gen]
  unfold hermiteSlope
  field_simp
  ring

theorem linear_integral (L w1 w2 x1 x2 : ℝ) (hL : L ≠ 0) :
    ∫ x in (0:ℝ)..L, (w1 + (w2 - w1) * x / L) * (x1 + (x2 - x1) * x / L) = linear L w1 w2 x1 x2 := by
  have := integral_poly ![w1 * x1, (w1 * (x2 - x1) + (w2 - w1) * x1) / L, (w2 - w1) * (x2 - x1) / L ^ 2, 0, 0, 0, 0] L
  simp only [Matrix.cons_val, zero_mul, zero_div, add_zero] at this
  rw [show linear L w1 w2 x1 x2 = w1 * x1 * L + (w1 * (x2 - x1) + (w2 - w1) * x1) / L * L ^ 2 / 2
    + (w2 - w1) * (x2 - x1) / L ^ 2 * L ^ 3 / 3 by unfold linear; field_simp; ring, ← this]
  congr 1
  funext x
  field_simp
  ring

/-- C42: the consistent mass matrix gives the inertia of the interpolated displacements: linear for elongation and twist,
cubic for the deflections, with the rotary inertia of the slopes. -/
theorem C42_integral (rhoA Ixx Iyy Izz L : ℝ) (hL : L ≠ 0) (u v : Nat → ℝ) :
    form (mass 0 rhoA Ixx Iyy Izz L) u v =
      rhoA * (∫ x in (0:ℝ)..L, (u 1 + (u 7 - u 1) * x / L) * (v 1 + (v 7 - v 1) * x / L))
      + Ixx * (∫ x in (0:ℝ)..L, (u 4 + (u 10 - u 4) * x / L) * (v 4 + (v 10 - v 4) * x / L))
      + rhoA * (∫ x in (0:ℝ)..L, cubic L (u 2) (u 6) (u 8) (u 12) x * cubic L (v 2) (v 6) (v 8) (v 12) x)
      + Izz * (∫ x in (0:ℝ)..L, cubicSlope L (u 2) (u 6) (u 8) (u 12) x * cubicSlope L (v 2) (v 6) (v 8) (v 12) x)
      + rhoA * (∫ x in (0:ℝ)..L, cubic L (u 3) (-u 5) (u 9) (-u 11) x * cubic L (v 3) (-v 5) (v 9) (-v 11) x)
      + Iyy * (∫ x in (0:ℝ)..L,
          cubicSlope L (u 3) (-u 5) (u 9) (-u 11) x * cubicSlope L (v 3) (-v 5) (v 9) (-v 11) x) := by
  simp only [hermite_integral _ _ _ _ _ _ _ _ _ hL, hermiteSlope_integral _ _ _ _ _ _ _ _ _ hL,
    linear_integral _ _ _ _ _ hL]
  have : mass 0 rhoA Ixx Iyy Izz L = symm (entry (massUpper rhoA Ixx Iyy Izz L)) := by simp [mass]
  rw [this, form_mass _ _ _ _ _ hL]

/-- A beam of length two and mass three per length, moving along the second axis. -/
example : form (mass 0 (3 : ℚ) 1 1 1 2) (rigid 2 ![0, 1, 0] 0) (rigid 2 ![0, 1, 0] 0) = 6 := by
  rw [C42_total _ _ _ _ _ _ (by norm_num)]
  simp
  norm_num

end Verif.Beam
