/-
C48, C80, C81, C82, C83: the linear Kirchhoff-Love shell.
-/
import Verif.Model.Shell
import Verif.Model.LocalSystems
import Verif.Props.Cable
import Verif.Props.LinIsotropic
import Mathlib.Tactic.FinCases
import Mathlib.Tactic.FieldSimp
import Mathlib.Tactic.Linarith
import Mathlib.Tactic.LinearCombination
import Mathlib.Tactic.Positivity

set_option linter.unusedSectionVars false
set_option linter.unusedSimpArgs false
set_option linter.unusedVariables false
set_option linter.unnecessarySeqFocus false

namespace Verif.Shell

open Verif.Beam (V3)
open Verif.Bar (len unit cross len_sq len_pos unit_sq)
open Verif.Cable (dot)
open Verif.LinIso (FE Pt Mat Admissible nuAt)

/-! ### Geometry -/

theorem lagrange (a b : V3 ℝ) : dot a a * dot b b - dot a b * dot a b = len (cross a b) * len (cross a b) := by
  rw [len_sq]; simp [cross, dot]; ring

/-- The tangents are independent. -/
theorem tangents {g1 g2 : V3 ℝ} (h : 0 < len (cross g1 g2)) :
    0 < len g1 ∧ 0 < gab g1 g2 0 * gab g1 g2 1 - gab g1 g2 2 * gab g1 g2 2 := by
  have hl := lagrange g1 g2
  have hd : 0 < dot g1 g1 * dot g2 g2 - dot g1 g2 * dot g1 g2 := by rw [hl]; positivity
  refine ⟨?_, ?_⟩
  · apply len_pos
    rcases (add_nonneg (add_nonneg (mul_self_nonneg (g1 0)) (mul_self_nonneg (g1 1))) (mul_self_nonneg (g1 2))).lt_or_eq with h1 | h1
    · exact h1
    · exfalso
      have e : dot g1 g1 = 0 := by simp only [dot]; linarith
      rw [e] at hd
      nlinarith [mul_self_nonneg (dot g1 g2)]
  · simpa [gab] using hd

theorem dot_lin (a b c : V3 ℝ) (x y D : ℝ) :
    dot a (fun k => (x * b k + y * c k) / D) = (x * dot a b + y * dot a c) / D := by
  simp only [dot]; ring

theorem dot_unit (a b : V3 ℝ) : dot (unit a) b = dot a b / len a := by
  simp only [dot, unit]; ring

theorem dot_comm (a b : V3 ℝ) : dot a b = dot b a := by simp only [dot]; ring

/-- The two axes in terms of the tangents, with the coefficients that the transformation matrix is made of. -/
theorem axes {g1 g2 : V3 ℝ} (h : 0 < len (cross g1 g2)) :
    ∃ p q r : ℝ, 0 < p ∧ 0 < r ∧
      (frame g1 g2).1 = (fun k => p * g1 k) ∧ (frame g1 g2).2.1 = (fun k => q * g1 k + r * g2 k) ∧
      p * p * dot g1 g1 = 1 ∧ dot (frame g1 g2).2.1 (frame g1 g2).2.1 = 1 ∧ dot g1 (frame g1 g2).2.1 = 0 ∧
      tmat g1 g2 = ![![p * p, 0, 0], ![q * q, r * r, 2 * q * r], ![2 * p * q, 0, 2 * (p * r)]] := by
  obtain ⟨h1, h2⟩ := tangents h
  set D := gab g1 g2 0 * gab g1 g2 1 - gab g1 g2 2 * gab g1 g2 2 with hD
  have hD' : D = dot g1 g1 * dot g2 g2 - dot g1 g2 * dot g1 g2 := by simp [hD, gab]
  have hsq : len g1 * len g1 = dot g1 g1 := by rw [len_sq]; rfl
  -- the second contravariant vector
  set w : V3 ℝ := (frame g1 g2).2.2.2 with hw
  have ew : w = fun k => (-(dot g1 g2) * g1 k + dot g1 g1 * g2 k) / D := by
    rw [hw]
    funext k
    rw [hD']
    simp [frame, gab]
    ring
  have wsq : len w * len w = dot g1 g1 / D := by
    rw [len_sq, ew]
    have : dot g1 g1 * D = (-(dot g1 g2) * g1 0 + dot g1 g1 * g2 0) ^ 2 + (-(dot g1 g2) * g1 1 + dot g1 g1 * g2 1) ^ 2 +
        (-(dot g1 g2) * g1 2 + dot g1 g1 * g2 2) ^ 2 := by
      rw [hD']; simp only [dot]; ring
    field_simp
    linear_combination -this
  have gpos : 0 < dot g1 g1 := by rw [← hsq]; positivity
  have wpos : 0 < len w := by
    have h0 : 0 ≤ len w := Real.sqrt_nonneg _
    rcases h0.lt_or_eq with h3 | h3
    · exact h3
    · exfalso
      rw [← h3] at wsq
      have : 0 < dot g1 g1 / D := by positivity
      rw [← wsq] at this; simp at this
  have eu : (frame g1 g2).2.1 = unit w := rfl
  have e1 : (frame g1 g2).1 = unit g1 := rfl
  have ew1 : (frame g1 g2).2.2.1 = fun k => (dot g2 g2 * g1 k + -(dot g1 g2) * g2 k) / D := by
    funext k
    rw [hD']
    simp [frame, gab]
    ring
  have dw1 : dot g1 w = 0 := by rw [ew, dot_lin]; ring
  have dw2 : dot g2 w = 1 := by
    rw [ew, dot_lin, dot_comm g2 g1]
    rw [div_eq_one_iff_eq h2.ne', hD']; ring
  refine ⟨1 / len g1, -(dot g1 g2) / (D * len w), dot g1 g1 / (D * len w), by positivity, by positivity, ?_, ?_, ?_, ?_, ?_, ?_⟩
  · rw [e1]; funext k; simp only [unit]; field_simp
  · rw [eu]; funext k
    simp only [unit]
    rw [show w k = (-(dot g1 g2) * g1 k + dot g1 g1 * g2 k) / D by rw [ew]]
    field_simp
  · field_simp; rw [pow_two, hsq]
  · rw [eu]; simp only [dot]; exact unit_sq w wpos
  · rw [eu, dot_comm, dot_unit, dot_comm, dw1, zero_div]
  · -- the products with the contravariant vectors
    have d1 : dot (frame g1 g2).1 (frame g1 g2).2.2.1 = 1 / len g1 := by
      rw [e1, ew1, dot_unit, dot_lin]
      congr 1
      rw [div_eq_one_iff_eq h2.ne', hD']; ring
    have d2 : dot (frame g1 g2).1 (frame g1 g2).2.2.2 = 0 := by
      rw [e1, ← hw, dot_unit, dw1, zero_div]
    have d3 : dot (frame g1 g2).2.1 (frame g1 g2).2.2.1 = -(dot g1 g2) / (D * len w) := by
      rw [eu, ew1, dot_unit, dot_lin, dot_comm w g1, dot_comm w g2, dw1, dw2]
      field_simp; ring
    have d4 : dot (frame g1 g2).2.1 (frame g1 g2).2.2.2 = dot g1 g1 / (D * len w) := by
      rw [eu, ← hw, dot_unit]
      have : dot w w = dot g1 g1 / D := by rw [← wsq, len_sq]; rfl
      rw [this]
      field_simp
    unfold tmat
    simp only [d1, d2, d3, d4]
    funext i j
    fin_cases i <;> fin_cases j <;> simp

/-- Specification: the value of a bilinear form. -/
def bil (A : Fin 3 → Fin 3 → ℝ) (a b : V3 ℝ) : ℝ := ∑ i, ∑ j, a i * A i j * b j

/-- C80: the matrix that transforms strains to a local system gives the components (with doubled shear) with respect to two
orthonormal axes in the tangent plane, the first along the first tangent, right-handed together with the shell normal. The surface
strains are the values of a symmetric form `A` on the tangents. -/
theorem C80_local (g1 g2 : V3 ℝ) (h : 0 < len (cross g1 g2)) :
    ∃ e1 e2 : V3 ℝ, dot e1 e1 = 1 ∧ dot e2 e2 = 1 ∧ dot e1 e2 = 0 ∧ (∃ p > 0, e1 = fun k => p * g1 k) ∧
      cross e1 e2 = (fun k => cross g1 g2 k / len (cross g1 g2)) ∧
      ∀ A : Fin 3 → Fin 3 → ℝ, (∀ i j, A i j = A j i) →
        tmul (tmat g1 g2) ![bil A g1 g1, bil A g2 g2, bil A g1 g2] = ![bil A e1 e1, bil A e2 e2, 2 * bil A e1 e2] := by
  obtain ⟨p, q, r, hp, hr, e1, e2, n1, n2, n3, hT⟩ := axes h
  have o1 : dot (frame g1 g2).1 (frame g1 g2).1 = 1 := by rw [e1, ← n1]; simp only [dot]; ring
  have o2 : dot (frame g1 g2).1 (frame g1 g2).2.1 = 0 := by
    have : dot (frame g1 g2).1 (frame g1 g2).2.1 = p * dot g1 (frame g1 g2).2.1 := by rw [e1]; simp only [dot]; ring
    rw [this, n3, mul_zero]
  refine ⟨(frame g1 g2).1, (frame g1 g2).2.1, o1, n2, o2, ⟨p, hp, e1⟩, ?_, ?_⟩
  · have hc : cross (frame g1 g2).1 (frame g1 g2).2.1 = fun k => p * r * cross g1 g2 k := by
      rw [e1, e2]; funext k; fin_cases k <;> simp [cross] <;> ring
    have hl := lagrange (frame g1 g2).1 (frame g1 g2).2.1
    rw [o1, n2, o2, len_sq, hc] at hl
    have h3 := len_sq (cross g1 g2)
    have h4 : (p * r * len (cross g1 g2)) * (p * r * len (cross g1 g2)) = 1 := by
      linear_combination p * p * r * r * h3 - hl
    have h5 : p * r * len (cross g1 g2) = 1 := by
      have h0 : 0 < p * r * len (cross g1 g2) := by positivity
      nlinarith
    rw [hc]
    funext k
    rw [eq_div_iff h.ne']
    linear_combination cross g1 g2 k * h5
  · intro A hA
    rw [hT, e1, e2]
    have a1 := hA 1 0
    have a2 := hA 2 0
    have a3 := hA 2 1
    funext k
    fin_cases k <;> simp [tmul, bil, Fin.sum_univ_three, a1, a2, a3] <;> ring

example : (0 : ℝ) < len (cross ![2, 0, 0] ![1, 3, 0]) := len_pos (by simp [cross])

/-! ### Linear strains -/

/-- The displacement gradients enter the membrane strains and curvatures. -/
theorem tmul_sum (T : Fin 3 → Fin 3 → ℝ) (n : Nat) (F : Nat → Fin 3 → Fin 3 → ℝ) (u : Nat → V3 ℝ) (r : Fin 3) :
    (∑ k ∈ Finset.range n, ∑ d, tmul T (F k d) r * u k d) = tmul T (fun j => ∑ k ∈ Finset.range n, ∑ d, F k d j * u k d) r := by
  simp only [tmul, Fin.sum_univ_three, Finset.mul_sum, ← Finset.sum_add_distrib]
  refine Finset.sum_congr rfl fun k _ => ?_
  ring

/-- Change of the normal for changes `D1`, `D2` of the tangents. -/
noncomputable def dnOf (g1 g2 D1 D2 : V3 ℝ) : V3 ℝ := fun i =>
  (cross g1 D2 i + cross D1 g2 i -
    cross g1 g2 i * (dot (cross g1 g2) (fun k => cross g1 D2 k + cross D1 g2 k) / (len (cross g1 g2) * len (cross g1 g2)))) /
    len (cross g1 g2)

/-- Derivatives of a field with nodal values `u`. -/
def d1 (f : Basis) (u : Nat → V3 ℝ) (c : Fin 2) : V3 ℝ := fun i => ∑ k ∈ Finset.range f.nen, f.dN k c * u k i
def d2 (f : Basis) (u : Nat → V3 ℝ) (j : Fin 3) : V3 ℝ := fun i => ∑ k ∈ Finset.range f.nen, f.d2N k j * u k i

theorem dE_sum (g1 g2 : V3 ℝ) (f : Basis) (u : Nat → V3 ℝ) (j : Fin 3) :
    (∑ k ∈ Finset.range f.nen, ∑ d, dE g1 g2 f k d j * u k d) =
      ![dot g1 (d1 f u 0), dot g2 (d1 f u 1), 1 / 2 * (dot g2 (d1 f u 0) + dot g1 (d1 f u 1))] j := by
  fin_cases j <;>
    simp only [Fin.zero_eta, Fin.mk_one, Fin.reduceFinMk, dE, dot, d1, Finset.mul_sum, ← Finset.sum_add_distrib, Matrix.cons_val] <;>
    (refine Finset.sum_congr rfl fun k _ => ?_) <;> simp [Fin.sum_univ_three] <;> ring

theorem dnLin_node (g1 g2 : V3 ℝ) (f : Basis) (k : Nat) (u : V3 ℝ) (i : Fin 3) :
    (∑ d, dnLin g1 g2 f k d i * u d) = dnOf g1 g2 (fun i => f.dN k 0 * u i) (fun i => f.dN k 1 * u i) i := by
  have hg : g3 g1 g2 = cross g1 g2 := rfl
  simp only [dnLin, dnOf, hg]
  generalize hl : len (cross g1 g2) = l
  fin_cases i <;> simp [single, cross, dot, Fin.sum_univ_three] <;> ring

theorem dnOf_sum (g1 g2 : V3 ℝ) (n : Nat) (a b : Nat → V3 ℝ) (i : Fin 3) :
    (∑ k ∈ Finset.range n, dnOf g1 g2 (a k) (b k) i) =
      dnOf g1 g2 (fun i => ∑ k ∈ Finset.range n, a k i) (fun i => ∑ k ∈ Finset.range n, b k i) i := by
  induction n with
  | zero => 
    fin_cases i <;> simp [dnOf, cross, dot]
  | succ n ih =>
    rw [Finset.sum_range_succ, ih]
    simp only [dnOf, Finset.sum_range_succ]
    generalize len (cross g1 g2) = l
    fin_cases i <;> simp [cross, dot] <;> ring

theorem dK_sum (G : Geo) (f : Basis) (u : Nat → V3 ℝ) (j : Fin 3) :
    (∑ k ∈ Finset.range f.nen, ∑ d, dKLin G f k d j * u k d) =
      -dot (unit (cross G.g1 G.g2)) (d2 f u j) - dot (dnOf G.g1 G.g2 (d1 f u 0) (d1 f u 1)) (G.H j) := by
  have h1 : ∀ i, dnOf G.g1 G.g2 (d1 f u 0) (d1 f u 1) i = ∑ k ∈ Finset.range f.nen, ∑ d, dnLin G.g1 G.g2 f k d i * u k d := by
    intro i
    simp only [dnLin_node]
    rw [dnOf_sum]; rfl
  have hg : g3 G.g1 G.g2 = cross G.g1 G.g2 := rfl
  simp only [dot, h1, d2, dKLin, rowH, hg]
  simp only [Finset.mul_sum, Finset.sum_mul, ← Finset.sum_add_distrib, ← Finset.sum_neg_distrib, ← Finset.sum_sub_distrib]
  refine Finset.sum_congr rfl fun k _ => ?_
  simp only [Fin.sum_univ_three]
  ring

/-- C48: the membrane strains and curvatures of the linear shell vanish for every infinitesimal rigid-body motion of the nodes: a
translation `c` and a rotation `om`. The surface is interpolated with the same functions as the displacements. -/
theorem C48_rigid (G : Geo) (f : Basis) (x : Nat → V3 ℝ) (h : 0 < len (cross G.g1 G.g2))
    (h1 : ∀ c, ∑ k ∈ Finset.range f.nen, f.dN k c = 0) (h2 : ∀ j, ∑ k ∈ Finset.range f.nen, f.d2N k j = 0)
    (e1 : ∀ i, ∑ k ∈ Finset.range f.nen, f.dN k 0 * x k i = G.g1 i)
    (e2 : ∀ i, ∑ k ∈ Finset.range f.nen, f.dN k 1 * x k i = G.g2 i)
    (eH : ∀ j i, ∑ k ∈ Finset.range f.nen, f.d2N k j * x k i = G.H j i)
    (c om : V3 ℝ) (u : Nat → V3 ℝ) (hu : ∀ k, u k = ![c 0 + (om 1 * x k 2 - om 2 * x k 1), c 1 + (om 2 * x k 0 - om 0 * x k 2),
      c 2 + (om 0 * x k 1 - om 1 * x k 0)]) (r : Fin 3) :
    (∑ k ∈ Finset.range f.nen, ∑ d, (formBmatrix G f).1 r k d * u k d) = 0 ∧
    (∑ k ∈ Finset.range f.nen, ∑ d, (formBmatrix G f).2 r k d * u k d) = 0 := by
  have gen : ∀ (w : Nat → ℝ) (v : V3 ℝ), (∑ k ∈ Finset.range f.nen, w k = 0) →
      (∀ i, ∑ k ∈ Finset.range f.nen, w k * x k i = v i) → (fun i => ∑ k ∈ Finset.range f.nen, w k * u k i) = cross om v := by
    intro w v hw hv
    funext i
    simp only [hu]
    fin_cases i <;> simp [cross, ← hv, mul_add, mul_sub, Finset.sum_add_distrib, Finset.mul_sum, ← Finset.sum_mul, hw,
      Finset.sum_sub_distrib, mul_left_comm]
  have t1 : d1 f u 0 = cross om G.g1 := gen _ _ (h1 0) e1
  have t2 : d1 f u 1 = cross om G.g2 := gen _ _ (h1 1) e2
  have t3 : ∀ j, d2 f u j = cross om (G.H j) := fun j => gen _ _ (h2 j) (eH j)
  simp only [formBmatrix, tmul_sum, dE_sum, dK_sum, t1, t2, t3]
  have z1 : ∀ a : V3 ℝ, dot a (cross om a) = 0 := by intro a; simp [dot, cross]; ring
  have z2 : ∀ a b : V3 ℝ, dot b (cross om a) + dot a (cross om b) = 0 := by intro a b; simp [dot, cross]; ring
  have z3 : ∀ k, cross G.g1 (cross om G.g2) k + cross (cross om G.g1) G.g2 k = cross om (cross G.g1 G.g2) k := by
    intro k; fin_cases k <;> simp [cross] <;> ring
  have z4 : dnOf G.g1 G.g2 (cross om G.g1) (cross om G.g2) = fun k => cross om (cross G.g1 G.g2) k / len (cross G.g1 G.g2) := by
    funext k
    simp only [dnOf, z3]
    have : dot (cross G.g1 G.g2) (fun k => cross om (cross G.g1 G.g2) k) = 0 := z1 _
    rw [this]; ring
  constructor
  · have : (fun j => ![dot G.g1 (cross om G.g1), dot G.g2 (cross om G.g2),
        1 / 2 * (dot G.g2 (cross om G.g1) + dot G.g1 (cross om G.g2))] j) = fun _ => 0 := by
      funext j; fin_cases j <;> simp [z1, z2]
    rw [this]; simp [tmul]
  · have : (fun j => -dot (unit (cross G.g1 G.g2)) (cross om (G.H j)) -
        dot (dnOf G.g1 G.g2 (cross om G.g1) (cross om G.g2)) (G.H j)) = fun _ => 0 := by
      funext j
      rw [z4, dot_unit]
      have : dot (fun k => cross om (cross G.g1 G.g2) k / len (cross G.g1 G.g2)) (G.H j) =
        dot (cross om (cross G.g1 G.g2)) (G.H j) / len (cross G.g1 G.g2) := by simp only [dot]; ring
      rw [this, dot_comm (cross om _)]
      have := z2 (cross G.g1 G.g2) (G.H j)
      rw [← neg_div, ← sub_div]
      rw [div_eq_zero_iff]; left; linarith
    rw [this]; simp [tmul]

/-- A point of a curved surface, with four nodes and the functions `1-s-t-s^2, s, t, s^2`. -/
def wf : Basis := ⟨4, fun k => if k = 0 then ![-1, -1] else if k = 1 then ![1, 0] else if k = 2 then ![0, 1] else ![0, 0],
  fun k => if k = 0 then ![-2, 0, 0] else if k = 3 then ![2, 0, 0] else ![0, 0, 0]⟩
def wx : Nat → V3 ℝ := fun k => if k = 1 then ![1, 0, 0] else if k = 2 then ![0, 1, 0] else if k = 3 then ![0, 0, 1] else ![0, 0, 0]
def wG : Geo := ⟨![1, 0, 0], ![0, 1, 0], ![![0, 0, 2], ![0, 0, 0], ![0, 0, 0]]⟩

example (c om : V3 ℝ) (r : Fin 3) : (∑ k ∈ Finset.range 4, ∑ d, (formBmatrix wG wf).2 r k d *
    (![c 0 + (om 1 * wx k 2 - om 2 * wx k 1), c 1 + (om 2 * wx k 0 - om 0 * wx k 2),
      c 2 + (om 0 * wx k 1 - om 1 * wx k 0)] : V3 ℝ) d) = 0 :=
  (C48_rigid wG wf wx (len_pos (by simp [wG, cross])) (by intro c; fin_cases c <;> simp [wf, Finset.sum_range_succ])
    (by intro c; fin_cases c <;> simp [wf, Finset.sum_range_succ])
    (by intro c; fin_cases c <;> simp [wf, wG, wx, Finset.sum_range_succ])
    (by intro c; fin_cases c <;> simp [wf, wG, wx, Finset.sum_range_succ])
    (by intro j c; fin_cases j <;> fin_cases c <;> simp [wf, wG, wx, Finset.sum_range_succ]) c om _ (fun _ => rfl) r).2

/-! ### Stiffness -/

/-- Specification: Hooke's law for plane stress or plane strain, with engineering shear strain. -/
noncomputable def hooke (E nu : ℝ) (planeStress : Bool) (e : Fin 3 → ℝ) : Fin 3 → ℝ :=
  if planeStress then
    ![E / (1 - nu ^ 2) * (e 0 + nu * e 1), E / (1 - nu ^ 2) * (nu * e 0 + e 1), E / (2 * (1 + nu)) * e 2]
  else
    ![E / ((1 + nu) * (1 - 2 * nu)) * ((1 - nu) * e 0 + nu * e 1), E / ((1 + nu) * (1 - 2 * nu)) * (nu * e 0 + (1 - nu) * e 1),
      E / (2 * (1 + nu)) * e 2]

/-- The constitutive matrices. -/
theorem formD_eq (m : Mat ℝ) (fe : FE ℝ) (X : Pt ℝ) (t : ℝ) (ha : m.axiSymmetry = false) (hn : Admissible m X) :
    ∃ D, formDmatrix m fe X t false = .ok D ∧
      ∀ v, dmul D.1 v = (fun r => t * hooke (m.young fe X) (nuAt m X) m.planeStress v r) ∧
        dmul D.2 v = (fun r => t ^ 3 / 12 * hooke (m.young fe X) (nuAt m X) m.planeStress v r) := by
  obtain ⟨C, hC, h1, h2, h3⟩ := LinIso.cmat_2d (m.young fe X) (nuAt m X) m.planeStress false
  obtain ⟨o, ho, hoC, -⟩ := LinIso.evaluate_eq m 2 3 (Or.inl rfl) fe X (fun _ => 0) 1 hn (C := C) (by rw [ha]; exact hC)
  refine ⟨(⟨C.nr, C.nc, fun i j => C.e i j * t⟩, ⟨C.nr, C.nc, fun i j => C.e i j * (t * t * t / 12)⟩), ?_, ?_⟩
  · unfold formDmatrix
    simp only [Bool.false_eq_true, if_false, ho, Res.bind, hoC]
  · intro v
    have e : ∀ i j : Fin 3, C.e (i.val + 1) (j.val + 1) = C.toM 3 3 i j := fun i j => rfl
    rw [h3] at e
    constructor
    · funext r
      simp only [dmul, e, Fin.sum_univ_three, hooke, LinIso.dirA, LinIso.dirB, LinIso.shG]
      cases m.planeStress <;> fin_cases r <;> simp <;> ring
    · funext r
      simp only [dmul, e, Fin.sum_univ_three, hooke, LinIso.dirA, LinIso.dirB, LinIso.shG]
      cases m.planeStress <;> fin_cases r <;> simp <;> ring

theorem hooke_lin (E nu : ℝ) (ps : Bool) (n : Nat) (a : Nat → Fin 3 → ℝ) (c : Nat → ℝ) (r : Fin 3) :
    (∑ k ∈ Finset.range n, hooke E nu ps (a k) r * c k) = hooke E nu ps (fun s => ∑ k ∈ Finset.range n, a k s * c k) r := by
  cases ps <;> fin_cases r <;> simp only [hooke, if_true, if_false, Bool.false_eq_true, Fin.zero_eta, Fin.mk_one, Fin.reduceFinMk,
    Matrix.cons_val, Finset.mul_sum, ← Finset.sum_add_distrib] <;>
    (refine Finset.sum_congr rfl fun k _ => ?_) <;> ring

theorem hooke_symm (E nu : ℝ) (ps : Bool) (a b : Fin 3 → ℝ) : dot3 a (hooke E nu ps b) = dot3 b (hooke E nu ps a) := by
  cases ps <;> simp [dot3, hooke, Fin.sum_univ_three] <;> ring

theorem hooke_pos (E nu : ℝ) (ps : Bool) (hE : 0 < E) (h0 : 0 ≤ nu) (h1 : nu < 1 / 2) (a : Fin 3 → ℝ) (ha : a ≠ 0) :
    0 < dot3 a (hooke E nu ps a) := by
  obtain ⟨p1, p2, p3, p4, p5⟩ := LinIso.pos_facts h0 h1
  have hne : 0 < a 0 ^ 2 + a 1 ^ 2 ∨ 0 < a 2 ^ 2 := by
    by_contra h
    push Not at h
    apply ha
    have s0 := sq_nonneg (a 0); have s1 := sq_nonneg (a 1); have s2 := sq_nonneg (a 2)
    have z0 : a 0 = 0 := pow_eq_zero_iff (two_ne_zero) |>.1 (by linarith)
    have z1 : a 1 = 0 := pow_eq_zero_iff (two_ne_zero) |>.1 (by linarith)
    have z2 : a 2 = 0 := pow_eq_zero_iff (two_ne_zero) |>.1 (by linarith)
    funext i
    fin_cases i
    · exact z0
    · exact z1
    · exact z2
  have main : ∀ c g k : ℝ, 0 < c → 0 < g → 0 < k →
      0 < c * (k * (a 0 ^ 2 + a 1 ^ 2) + nu * (a 0 + a 1) ^ 2) + g * a 2 ^ 2 := by
    intro c g k hc hg hk
    have s3 := mul_nonneg h0 (sq_nonneg (a 0 + a 1))
    rcases hne with h | h
    · have := mul_pos hk h
      have := mul_pos hc (show 0 < k * (a 0 ^ 2 + a 1 ^ 2) + nu * (a 0 + a 1) ^ 2 by linarith)
      have := mul_nonneg hg.le (sq_nonneg (a 2))
      linarith
    · have := mul_pos hg h
      have := mul_nonneg hc.le (show 0 ≤ k * (a 0 ^ 2 + a 1 ^ 2) + nu * (a 0 + a 1) ^ 2 by positivity)
      linarith
  cases ps
  · have e : dot3 a (hooke E nu false a) = E / ((1 + nu) * (1 - 2 * nu)) * ((1 - 2 * nu) * (a 0 ^ 2 + a 1 ^ 2) +
        nu * (a 0 + a 1) ^ 2) + E / (2 * (1 + nu)) * a 2 ^ 2 := by
      simp [dot3, hooke, Fin.sum_univ_three]; ring
    have p6 : 0 < 1 - 2 * nu := by linarith
    rw [e]
    exact main _ _ _ (by positivity) (by positivity) p6
  · have e : dot3 a (hooke E nu true a) = E / (1 - nu ^ 2) * ((1 - nu) * (a 0 ^ 2 + a 1 ^ 2) +
        nu * (a 0 + a 1) ^ 2) + E / (2 * (1 + nu)) * a 2 ^ 2 := by
      simp [dot3, hooke, Fin.sum_univ_three]; ring
    have p6 : 0 < 1 - nu ^ 2 := by linarith [p5, pow_two nu]
    rw [e]
    exact main _ _ _ (by positivity) (by positivity) p2

/-- Specification: membrane strains (first) and curvatures (second) for the displacements `u`. -/
noncomputable def strainOf (B : Fin 3 → Nat → Fin 3 → ℝ) (n : Nat) (u : Nat → V3 ℝ) : Fin 3 → ℝ := fun r =>
  ∑ k ∈ Finset.range n, ∑ d, B r k d * u k d

theorem quad (n : Nat) (B : Fin 3 → Nat → Fin 3 → ℝ) (E nu t : ℝ) (ps : Bool) (u v : Nat → V3 ℝ) :
    (∑ k ∈ Finset.range n, ∑ d, ∑ l ∈ Finset.range n, ∑ e, u k d *
      (∑ r, B r k d * (t * hooke E nu ps (fun s => B s l e) r)) * v l e) =
    t * dot3 (strainOf B n u) (hooke E nu ps (strainOf B n v)) := by
  have h1 : ∀ r, hooke E nu ps (strainOf B n v) r = ∑ l ∈ Finset.range n, ∑ e, hooke E nu ps (fun s => B s l e) r * v l e := by
    intro r
    cases ps <;> fin_cases r <;> simp only [hooke, strainOf, if_true, if_false, Bool.false_eq_true, Fin.zero_eta, Fin.mk_one,
      Fin.reduceFinMk, Matrix.cons_val, Finset.mul_sum, ← Finset.sum_add_distrib] <;>
      (refine Finset.sum_congr rfl fun k _ => ?_) <;> (refine Finset.sum_congr rfl fun k _ => ?_) <;> ring
  have hA : ∀ k d, (∑ l ∈ Finset.range n, ∑ e, u k d *
      (∑ r, B r k d * (t * hooke E nu ps (fun s => B s l e) r)) * v l e) =
      t * ∑ r, B r k d * u k d * hooke E nu ps (strainOf B n v) r := by
    intro k d
    simp only [h1, Fin.sum_univ_three, Finset.mul_sum, ← Finset.sum_add_distrib]
    refine Finset.sum_congr rfl fun k _ => ?_
    ring
  simp only [hA]
  generalize hooke E nu ps (strainOf B n v) = w
  simp only [dot3, strainOf, Fin.sum_univ_three, Finset.mul_sum, Finset.sum_mul, ← Finset.sum_add_distrib]
  refine Finset.sum_congr rfl fun k _ => ?_
  ring

/-- C48: the stiffness matrix gives `dJW` times thickness times the membrane energy plus `t^3/12` times the bending energy, by
Hooke's law. It is therefore symmetric and, for positive thickness, vanishes only on displacements without any strain. -/
theorem C48_energy (m : Mat ℝ) (fe : FE ℝ) (X : Pt ℝ) (t dJW : ℝ) (G : Geo) (f : Basis) (ha : m.axiSymmetry = false)
    (hn : Admissible m X) :
    ∃ k, evalK m fe X t dJW G f = .ok k ∧ (∀ a d b e, k a d b e = k b e a d) ∧
      ∀ u v : Nat → V3 ℝ,
        (∑ a ∈ Finset.range f.nen, ∑ d, ∑ b ∈ Finset.range f.nen, ∑ e, u a d * k a d b e * v b e) =
          dJW * (t * dot3 (strainOf (formBmatrix G f).1 f.nen u)
                (hooke (m.young fe X) (nuAt m X) m.planeStress (strainOf (formBmatrix G f).1 f.nen v)) +
            t ^ 3 / 12 * dot3 (strainOf (formBmatrix G f).2 f.nen u)
                (hooke (m.young fe X) (nuAt m X) m.planeStress (strainOf (formBmatrix G f).2 f.nen v))) := by
  obtain ⟨D, hD, hv⟩ := formD_eq m fe X t ha hn
  refine ⟨fun k d l e =>
    (∑ r, (formBmatrix G f).1 r k d * dmul D.1 (fun s => (formBmatrix G f).1 s l e) r) * dJW +
    (∑ r, (formBmatrix G f).2 r k d * dmul D.2 (fun s => (formBmatrix G f).2 s l e) r) * dJW, ?_, ?_, ?_⟩
  · simp only [evalK, hD, Res.bind]
  · intro a d b e
    simp only [(hv _).1, (hv _).2]
    have h1 := hooke_symm (m.young fe X) (nuAt m X) m.planeStress (fun s => (formBmatrix G f).1 s a d) (fun s => (formBmatrix G f).1 s b e)
    have h2 := hooke_symm (m.young fe X) (nuAt m X) m.planeStress (fun s => (formBmatrix G f).2 s a d) (fun s => (formBmatrix G f).2 s b e)
    simp only [dot3, Fin.sum_univ_three] at h1 h2 ⊢
    linear_combination dJW * t * h1 + dJW * t ^ 3 / 12 * h2
  · intro u v
    simp only [(hv _).1, (hv _).2]
    rw [← quad, mul_add, ← quad]
    simp only [Finset.mul_sum, ← Finset.sum_add_distrib]
    refine Finset.sum_congr rfl fun k _ => Finset.sum_congr rfl fun d _ => Finset.sum_congr rfl fun l _ => Finset.sum_congr rfl fun e _ => ?_
    simp only [Fin.sum_univ_three]
    ring

/-- C48: the energy is positive unless all strains vanish. -/
theorem C48_definite (m : Mat ℝ) (fe : FE ℝ) (X : Pt ℝ) (t dJW : ℝ) (G : Geo) (f : Basis) (ha : m.axiSymmetry = false)
    (hn : Admissible m X) (hE : 0 < m.young fe X) (ht : 0 < t) (hw : 0 < dJW) :
    ∃ k, evalK m fe X t dJW G f = .ok k ∧ ∀ u : Nat → V3 ℝ,
      0 ≤ (∑ a ∈ Finset.range f.nen, ∑ d, ∑ b ∈ Finset.range f.nen, ∑ e, u a d * k a d b e * u b e) ∧
      ((∑ a ∈ Finset.range f.nen, ∑ d, ∑ b ∈ Finset.range f.nen, ∑ e, u a d * k a d b e * u b e) = 0 ↔
        ∀ r, (∑ k ∈ Finset.range f.nen, ∑ d, (formBmatrix G f).1 r k d * u k d) = 0 ∧
          (∑ k ∈ Finset.range f.nen, ∑ d, (formBmatrix G f).2 r k d * u k d) = 0) := by
  obtain ⟨k, hk, -, h⟩ := C48_energy m fe X t dJW G f ha hn
  refine ⟨k, hk, fun u => ?_⟩
  rw [h u u]
  have nn : ∀ w, 0 ≤ dot3 w (hooke (m.young fe X) (nuAt m X) m.planeStress w) ∧
      (dot3 w (hooke (m.young fe X) (nuAt m X) m.planeStress w) = 0 ↔ w = 0) := by
    intro w
    by_cases hw : w = 0
    · subst hw
      have : dot3 0 (hooke (m.young fe X) (nuAt m X) m.planeStress 0) = 0 := by simp [dot3]
      rw [this]; simp
    · have := hooke_pos _ _ m.planeStress hE hn.1 hn.2 w hw
      exact ⟨this.le, ⟨fun h => absurd h this.ne', fun h => absurd h hw⟩⟩
  obtain ⟨a1, a2⟩ := nn (strainOf (formBmatrix G f).1 f.nen u)
  obtain ⟨b1, b2⟩ := nn (strainOf (formBmatrix G f).2 f.nen u)
  refine ⟨by positivity, ?_⟩
  have e : (∀ r, (∑ k ∈ Finset.range f.nen, ∑ d, (formBmatrix G f).1 r k d * u k d) = 0 ∧
      (∑ k ∈ Finset.range f.nen, ∑ d, (formBmatrix G f).2 r k d * u k d) = 0) ↔
      strainOf (formBmatrix G f).1 f.nen u = 0 ∧ strainOf (formBmatrix G f).2 f.nen u = 0 := by
    constructor
    · intro h; exact ⟨funext fun r => (h r).1, funext fun r => (h r).2⟩
    · intro h r; exact ⟨congrFun h.1 r, congrFun h.2 r⟩
  rw [e, ← a2, ← b2]
  constructor
  · intro h
    have h3 := (mul_eq_zero.1 h).resolve_left hw.ne'
    have c1 := mul_nonneg ht.le a1
    have c2 := mul_nonneg (show 0 ≤ t ^ 3 / 12 by positivity) b1
    have d1 : t * dot3 (strainOf (formBmatrix G f).1 f.nen u) (hooke (m.young fe X) (nuAt m X) m.planeStress
      (strainOf (formBmatrix G f).1 f.nen u)) = 0 := by linarith
    have d2 : t ^ 3 / 12 * dot3 (strainOf (formBmatrix G f).2 f.nen u) (hooke (m.young fe X) (nuAt m X) m.planeStress
      (strainOf (formBmatrix G f).2 f.nen u)) = 0 := by linarith
    exact ⟨(mul_eq_zero.1 d1).resolve_left ht.ne', (mul_eq_zero.1 d2).resolve_left (by positivity)⟩
  · rintro ⟨h1, h2⟩
    rw [h1, h2]; ring

end Verif.Shell
