/-
C27 (strain-displacement matrix of the total Lagrangian formulation), C28 (surface loads on the
deformed surface), C67 (internal forces of the two formulations) and C68 (mass and body loads in a
deformed element).
-/
import Verif.Proofs.FiniteDef
import Verif.Spec.FiniteDef
import Verif.Props.Continuum
import Mathlib.Analysis.Calculus.Deriv.Pow
import Mathlib.Analysis.Calculus.Deriv.Add
import Mathlib.Analysis.Calculus.Deriv.Mul
import Mathlib.LinearAlgebra.Matrix.NonsingularInverse
import Mathlib.Tactic.NormNum
import Mathlib.Tactic.FieldSimp
import Mathlib.Tactic.Linarith
import Mathlib.Tactic.LinearCombination

set_option linter.unusedSectionVars false
set_option linter.unnecessarySeqFocus false
set_option linter.unusedSimpArgs false
set_option linter.unusedVariables false

namespace Verif.Finite

open Verif.Cont Verif.ContSpec Verif.FiniteSpec

/-! ### C27 -/

theorem deriv_quad (f : ℝ → ℝ) (a b c : ℝ) (h : ∀ t, f t = a + b * t + c * t ^ 2) :
    HasDerivAt f b 0 := by
  have e : f = fun t => a + b * t + c * t ^ 2 := funext h
  rw [e]
  have := (((hasDerivAt_id (0 : ℝ)).const_mul b).const_add a).add
    (((hasDerivAt_id (0 : ℝ)).pow 2).const_mul c)
  refine (this.congr_deriv ?_).congr_of_eventuallyEq (Filter.Eventually.of_forall fun t => ?_)
  · simp
  · simp

theorem grad_along (n : Nat) (u v : Nat → Nat → ℝ) (dN : Nat → Nat → ℝ) (t : ℝ) (i j : Nat) :
    grad n (along u v t) dN i j = grad n u dN i j + t * grad n v dN i j := by
  unfold grad along
  rw [Finset.mul_sum, ← Finset.sum_add_distrib]
  exact Finset.sum_congr rfl fun a _ => by ring

theorem defGrad_grad {K : Type*} [Field K] [LinearOrder K] (d : Nat) (axi : Bool) (N : DVec K)
    (dN : DMat K) (r epsR : K)
    (u : Nat → Nat → K) (i j : Nat) (h1 : 1 ≤ i) (h2 : i ≤ d) (h3 : 1 ≤ j) (h4 : j ≤ d)
    (hc : d ≤ dN.nc) :
    defGrad d axi true N dN r epsR (dofVec d u) i j = grad dN.nr u dN.e i j := by
  simp only [defGrad, Bool.true_eq_false, false_and, and_false, if_false, if_true]
  rw [if_pos (by omega), zero_add]
  refine Finset.sum_congr rfl fun a _ => ?_
  rw [show d * a + i = d * a + (i - 1) + 1 by omega, dofVec_eq d u a (i - 1) (by omega),
    show i - 1 + 1 = i by omega]

theorem mulV_3 {K : Type*} [Field K] [LinearOrder K] (B : DMat K) (F : Nat → Nat → K)
    (dN : DMat K) (b2 : B.nc = 3 * dN.nr)
    (b3 : ∀ i j a, 1 ≤ i → i ≤ 6 → j < 3 → a < dN.nr → B.e i (3 * a + j + 1)
        = eng3 (fun p q => F (j + 1) p * dN.e (a + 1) q) i)
    (v : Nat → Nat → K) (i : Nat) (h1 : 1 ≤ i) (h2 : i ≤ 6) :
    B.mulV (dofVec 3 v) i
      = eng3 (fun p q => ∑ k ∈ Finset.range 3, F (k + 1) p * grad dN.nr v dN.e (k + 1) q) i := by
  rw [mulV_dof 3 dN.nr B b2]
  have e : ∀ a ∈ Finset.range dN.nr, ∑ j ∈ Finset.range 3, B.e i (3 * a + j + 1) * v (a + 1) (j + 1)
      = ∑ j ∈ Finset.range 3, eng3 (fun p q => F (j + 1) p * dN.e (a + 1) q) i * v (a + 1) (j + 1) := by
    intro a ha
    refine Finset.sum_congr rfl fun j hj => ?_
    rw [b3 i j a h1 h2 (Finset.mem_range.mp hj) (Finset.mem_range.mp ha)]
  rw [Finset.sum_congr rfl e]
  interval_cases i <;>
    simp only [eng3, Finset.sum_range_succ, Finset.sum_range_zero, zero_add, grad, Finset.mul_sum,
      ← Finset.sum_add_distrib] <;>
    exact Finset.sum_congr rfl fun a _ => by ring

theorem mulV_2 {K : Type*} [Field K] [LinearOrder K] (B : DMat K) (F : Nat → Nat → K)
    (dN : DMat K) (b2 : B.nc = 2 * dN.nr)
    (b3 : ∀ i j a, 1 ≤ i → i ≤ 3 → j < 2 → a < dN.nr → B.e i (2 * a + j + 1)
        = eng2 (fun p q => F (j + 1) p * dN.e (a + 1) q) i)
    (v : Nat → Nat → K) (i : Nat) (h1 : 1 ≤ i) (h2 : i ≤ 3) :
    B.mulV (dofVec 2 v) i
      = eng2 (fun p q => ∑ k ∈ Finset.range 2, F (k + 1) p * grad dN.nr v dN.e (k + 1) q) i := by
  rw [mulV_dof 2 dN.nr B b2]
  have e : ∀ a ∈ Finset.range dN.nr, ∑ j ∈ Finset.range 2, B.e i (2 * a + j + 1) * v (a + 1) (j + 1)
      = ∑ j ∈ Finset.range 2, eng2 (fun p q => F (j + 1) p * dN.e (a + 1) q) i * v (a + 1) (j + 1) := by
    intro a ha
    refine Finset.sum_congr rfl fun j hj => ?_
    rw [b3 i j a h1 h2 (Finset.mem_range.mp hj) (Finset.mem_range.mp ha)]
  rw [Finset.sum_congr rfl e]
  interval_cases i <;>
    simp only [eng2, Finset.sum_range_succ, Finset.sum_range_zero, zero_add, grad, Finset.mul_sum,
      ← Finset.sum_add_distrib] <;>
    exact Finset.sum_congr rfl fun a _ => by ring

/-- C27 in two and three dimensions (plane and solid elements with any number of nodes): the call
succeeds, the deformation gradient is `1 + ∂u/∂X`, the strains are the Green-Lagrange strains, and
the B-matrix times nodal increments `v` is the derivative of the Green-Lagrange strain in the
direction `v`. -/
theorem C27_variation_partial (d : Nat) (hd : d = 2 ∨ d = 3) (N : DVec ℝ) (dN : DMat ℝ) (r epsR : ℝ)
    (hn : 0 < dN.nr) (hc : d ≤ dN.nc) (u : Nat → Nat → ℝ) :
    ∃ k, kinTL d false ⟨d * dN.nr, dofVec d u⟩ N dN r epsR = .ok k ∧
      k.B.nr = d * (d + 1) / 2 ∧ k.B.nc = d * dN.nr ∧
      (∀ i j, 1 ≤ i → i ≤ d → 1 ≤ j → j ≤ d →
        k.F i j = (if i = j then 1 else 0) + grad dN.nr u dN.e i j) ∧
      (∀ i, 1 ≤ i → i ≤ d * (d + 1) / 2 →
        k.E i = engineering d (green d (grad dN.nr u dN.e)) i) ∧
      ∀ v i, 1 ≤ i → i ≤ d * (d + 1) / 2 →
        HasDerivAt (fun t => engineering d (green d (grad dN.nr (along u v t) dN.e)) i)
          (k.B.mulV (dofVec d v) i) 0 := by
  have hF : ∀ i j, 1 ≤ i → i ≤ d → 1 ≤ j → j ≤ d →
      kinF false r epsR (∑ a ∈ Finset.range N.n, dofVec d u (d * a + 1) * N.e (a + 1))
        (defGrad d false true N dN r epsR (dofVec d u)) i j
        = (if i = j then 1 else 0) + grad dN.nr u dN.e i j := by
    intro i j h1 h2 h3 h4
    simp only [kinF, Bool.false_eq_true, false_and, if_false]
    rw [defGrad_grad d false N dN r epsR u i j h1 h2 h3 h4 hc, add_comm]
  have hg := fun i j h1 h2 h3 h4 =>
    defGrad_grad d false N dN r epsR u i j h1 h2 h3 h4 hc
  have hne : ¬ d * dN.nr = 0 := by
    rcases hd with h | h <;> rw [h] <;> omega
  rcases hd with h | h
  · subst h
    obtain ⟨B, hB, b1, b2, b3⟩ := tlB_2 (kinF false r epsR
      (∑ a ∈ Finset.range N.n, dofVec 2 u (2 * a + 1) * N.e (a + 1))
        (defGrad 2 false true N dN r epsR (dofVec 2 u))) N dN r epsR
    refine ⟨⟨B, kinF false r epsR (∑ a ∈ Finset.range N.n, dofVec 2 u (2 * a + 1) * N.e (a + 1))
        (defGrad 2 false true N dN r epsR (dofVec 2 u)),
        strainV 2 false (defGrad 2 false true N dN r epsR (dofVec 2 u))⟩, ?_, b1, b2, hF, ?_, ?_⟩
    · unfold kinTL
      refine (if_neg hne).trans ((if_neg (by simp; omega)).trans ?_)
      simp only []
      rw [hB]; rfl
    · intro i h1 h2
      have h2 : i ≤ 3 := h2
      interval_cases i <;>
        simp [strainV, strainE, engineering, eng2, green, hg, Finset.sum_range_succ] <;> ring
    · intro v i h1 h2
      have h2 : i ≤ 3 := h2
      rw [mulV_2 B _ dN b2 b3 v i h1 h2]
      have hF' := hF
      generalize kinF false r epsR (∑ a ∈ Finset.range N.n, dofVec 2 u (2 * a + 1) * N.e (a + 1))
        (defGrad 2 false true N dN r epsR (dofVec 2 u)) = F at hF'
      refine deriv_quad _ (engineering 2 (green 2 (grad dN.nr u dN.e)) i) _
        (engineering 2 (fun p q => 1 / 2 * ∑ k ∈ Finset.range 2,
          grad dN.nr v dN.e (k + 1) p * grad dN.nr v dN.e (k + 1) q) i) fun t => ?_
      simp only [engineering]
      have f11 := hF' 1 1 (by omega) (by omega) (by omega) (by omega)
      have f12 := hF' 1 2 (by omega) (by omega) (by omega) (by omega)
      have f21 := hF' 2 1 (by omega) (by omega) (by omega) (by omega)
      have f22 := hF' 2 2 (by omega) (by omega) (by omega) (by omega)
      simp at f11 f12 f21 f22
      interval_cases i <;>
        simp [eng2, green, grad_along, Finset.sum_range_succ, f11, f12, f21, f22] <;> ring
  · subst h
    obtain ⟨B, hB, b1, b2, b3⟩ := tlB_3 (kinF false r epsR
      (∑ a ∈ Finset.range N.n, dofVec 3 u (3 * a + 1) * N.e (a + 1))
        (defGrad 3 false true N dN r epsR (dofVec 3 u))) N dN r epsR
    refine ⟨⟨B, kinF false r epsR (∑ a ∈ Finset.range N.n, dofVec 3 u (3 * a + 1) * N.e (a + 1))
        (defGrad 3 false true N dN r epsR (dofVec 3 u)),
        strainV 3 false (defGrad 3 false true N dN r epsR (dofVec 3 u))⟩, ?_, b1, b2, hF, ?_, ?_⟩
    · unfold kinTL
      refine (if_neg hne).trans ((if_neg (by simp; omega)).trans ?_)
      simp only []
      rw [hB]; rfl
    · intro i h1 h2
      have h2 : i ≤ 6 := h2
      interval_cases i <;>
        simp [strainV, strainE, engineering, eng3, green, hg, Finset.sum_range_succ] <;> ring
    · intro v i h1 h2
      have h2 : i ≤ 6 := h2
      rw [mulV_3 B _ dN b2 b3 v i h1 h2]
      have hF' := hF
      generalize kinF false r epsR (∑ a ∈ Finset.range N.n, dofVec 3 u (3 * a + 1) * N.e (a + 1))
        (defGrad 3 false true N dN r epsR (dofVec 3 u)) = F at hF'
      refine deriv_quad _ (engineering 3 (green 3 (grad dN.nr u dN.e)) i) _
        (engineering 3 (fun p q => 1 / 2 * ∑ k ∈ Finset.range 3,
          grad dN.nr v dN.e (k + 1) p * grad dN.nr v dN.e (k + 1) q) i) fun t => ?_
      simp only [engineering]
      have f11 := hF' 1 1 (by omega) (by omega) (by omega) (by omega)
      have f12 := hF' 1 2 (by omega) (by omega) (by omega) (by omega)
      have f13 := hF' 1 3 (by omega) (by omega) (by omega) (by omega)
      have f21 := hF' 2 1 (by omega) (by omega) (by omega) (by omega)
      have f22 := hF' 2 2 (by omega) (by omega) (by omega) (by omega)
      have f23 := hF' 2 3 (by omega) (by omega) (by omega) (by omega)
      have f31 := hF' 3 1 (by omega) (by omega) (by omega) (by omega)
      have f32 := hF' 3 2 (by omega) (by omega) (by omega) (by omega)
      have f33 := hF' 3 3 (by omega) (by omega) (by omega) (by omega)
      simp at f11 f12 f13 f21 f22 f23 f31 f32 f33
      interval_cases i <;>
        simp [eng3, green, grad_along, Finset.sum_range_succ, f11, f12, f13, f21, f22, f23, f31, f32, f33] <;> ring

example : ∃ (N : DVec ℝ) (dN : DMat ℝ), 0 < dN.nr ∧ 3 ≤ dN.nc := ⟨⟨4, fun _ => 1 / 4⟩, ⟨4, 3, fun _ _ => 1⟩, by norm_num, by norm_num⟩

/-- The three in-plane rows of the axisymmetric strain-displacement matrix. -/
theorem mulV_axi {K : Type*} [Field K] [LinearOrder K] (B : DMat K) (F : Nat → Nat → K)
    (dN : DMat K) (hv : K) (b2 : B.nc = 2 * dN.nr)
    (b3 : ∀ i j a, 1 ≤ i → i ≤ 4 → j < 2 → a < dN.nr → B.e i (2 * a + j + 1)
        = if i = 3 then (if j = 0 ∧ a = 2 then hv else 0)
          else engAxi (fun p q => F (j + 1) p * dN.e (a + 1) q) 0 i)
    (v : Nat → Nat → K) (i : Nat) (h1 : 1 ≤ i) (h2 : i ≤ 4) (h3 : i ≠ 3) :
    B.mulV (dofVec 2 v) i
      = engAxi (fun p q => ∑ k ∈ Finset.range 2, F (k + 1) p * grad dN.nr v dN.e (k + 1) q) 0 i := by
  rw [mulV_dof 2 dN.nr B b2]
  have e : ∀ a ∈ Finset.range dN.nr, ∑ j ∈ Finset.range 2, B.e i (2 * a + j + 1) * v (a + 1) (j + 1)
      = ∑ j ∈ Finset.range 2, engAxi (fun p q => F (j + 1) p * dN.e (a + 1) q) 0 i * v (a + 1) (j + 1) := by
    intro a ha
    refine Finset.sum_congr rfl fun j hj => ?_
    rw [b3 i j a h1 h2 (Finset.mem_range.mp hj) (Finset.mem_range.mp ha), if_neg h3]
  rw [Finset.sum_congr rfl e]
  interval_cases i <;> first
    | exact absurd rfl h3
    | (simp only [engAxi, Finset.sum_range_succ, Finset.sum_range_zero, zero_add, grad,
        Finset.mul_sum, ← Finset.sum_add_distrib]
       exact Finset.sum_congr rfl fun a _ => by ring)

/-- C27 in axisymmetry, for elements with at least three nodes: the components rr, zz and rz of the
strain and of its variation are right, and so is the hoop stretch. Missing: the hoop strain and its
variation, see `C27_hoop_violated`. -/
theorem C27_axisymmetric_partial (N : DVec ℝ) (dN : DMat ℝ) (r epsR : ℝ) (hr : epsR < r)
    (hN : N.n = dN.nr) (hn : 3 ≤ dN.nr) (hc : 2 ≤ dN.nc) (u : Nat → Nat → ℝ) :
    ∃ k, kinTL 2 true ⟨2 * dN.nr, dofVec 2 u⟩ N dN r epsR = .ok k ∧
      k.B.nr = 4 ∧ k.B.nc = 2 * dN.nr ∧
      k.F 3 3 = 1 + val dN.nr u N.e 1 / r ∧
      (∀ i j, 1 ≤ i → i ≤ 2 → 1 ≤ j → j ≤ 2 →
        k.F i j = (if i = j then 1 else 0) + grad dN.nr u dN.e i j) ∧
      (∀ i, 1 ≤ i → i ≤ 4 → i ≠ 3 →
        k.E i = engAxi (green 2 (grad dN.nr u dN.e)) 0 i) ∧
      ∀ v i, 1 ≤ i → i ≤ 4 → i ≠ 3 →
        HasDerivAt (fun t => engAxi (green 2 (grad dN.nr (along u v t) dN.e)) 0 i)
          (k.B.mulV (dofVec 2 v) i) 0 := by
  have hF : ∀ i j, 1 ≤ i → i ≤ 2 → 1 ≤ j → j ≤ 2 →
      kinF true r epsR (∑ a ∈ Finset.range N.n, dofVec 2 u (2 * a + 1) * N.e (a + 1))
        (defGrad 2 true true N dN r epsR (dofVec 2 u)) i j
        = (if i = j then 1 else 0) + grad dN.nr u dN.e i j := by
    intro i j h1 h2 h3 h4
    simp only [kinF]
    rw [if_neg (by omega), defGrad_grad 2 true N dN r epsR u i j h1 h2 h3 h4 (by omega), add_comm]
  have hg := fun i j h1 h2 h3 h4 =>
    defGrad_grad 2 true N dN r epsR u i j h1 h2 h3 h4 (by omega)
  obtain ⟨B, hB, b1, b2, b3⟩ := tlB_axi (kinF true r epsR
    (∑ a ∈ Finset.range N.n, dofVec 2 u (2 * a + 1) * N.e (a + 1))
      (defGrad 2 true true N dN r epsR (dofVec 2 u))) N dN r epsR hN hn
  refine ⟨⟨B, kinF true r epsR (∑ a ∈ Finset.range N.n, dofVec 2 u (2 * a + 1) * N.e (a + 1))
      (defGrad 2 true true N dN r epsR (dofVec 2 u)),
      strainV 2 true (defGrad 2 true true N dN r epsR (dofVec 2 u))⟩, ?_, b1, b2, ?_, hF, ?_, ?_⟩
  · unfold kinTL
    refine (if_neg (show ¬ 2 * dN.nr = 0 by omega)).trans ((if_neg (by simp; omega)).trans ?_)
    simp only []
    rw [hB]; rfl
  · simp only [kinF, true_and, and_self, if_true, hr, gt_iff_lt, and_true]
    have e : defGrad 2 true true N dN r epsR (dofVec 2 u) 3 3 = 0 := by
      simp [defGrad]
    rw [e, zero_add, hN]
    congr 2
    unfold val
    refine Finset.sum_congr rfl fun a _ => ?_
    rw [show 2 * a + 1 = 2 * a + 0 + 1 by omega, dofVec_eq 2 u a 0 (by omega)]
  · intro i h1 h2 h3
    interval_cases i <;> first
      | exact absurd rfl h3
      | (simp [strainV, strainE, engAxi, green, hg, Finset.sum_range_succ] <;> ring)
  · intro v i h1 h2 h3
    rw [mulV_axi B _ dN _ b2 b3 v i h1 h2 h3]
    have hF' := hF
    generalize kinF true r epsR (∑ a ∈ Finset.range N.n, dofVec 2 u (2 * a + 1) * N.e (a + 1))
      (defGrad 2 true true N dN r epsR (dofVec 2 u)) = F at hF'
    refine deriv_quad _ (engAxi (green 2 (grad dN.nr u dN.e)) 0 i) _
      (engAxi (fun p q => 1 / 2 * ∑ k ∈ Finset.range 2,
        grad dN.nr v dN.e (k + 1) p * grad dN.nr v dN.e (k + 1) q) 0 i) fun t => ?_
    have f11 := hF' 1 1 (by omega) (by omega) (by omega) (by omega)
    have f12 := hF' 1 2 (by omega) (by omega) (by omega) (by omega)
    have f21 := hF' 2 1 (by omega) (by omega) (by omega) (by omega)
    have f22 := hF' 2 2 (by omega) (by omega) (by omega) (by omega)
    simp at f11 f12 f21 f22
    interval_cases i <;> first
      | exact absurd rfl h3
      | (simp [engAxi, green, grad_along, Finset.sum_range_succ, f11, f12, f21, f22] <;> ring)

/-- A bilinear element evaluated at its centre, with the radius 2 there. -/
noncomputable def quadN : DVec ℝ := ⟨4, fun _ => 1 / 4⟩
noncomputable def quadDN : DMat ℝ := ⟨4, 2, fun a j => if j = 1 then (if a % 2 = 0 then 1 / 2 else -1 / 2)
  else (if a ≤ 2 then -1 / 2 else 1 / 2)⟩

/-- The hypotheses of the theorems on axisymmetry are met by the bilinear element. -/
example : (1 / 10 ^ 16 : ℝ) < 2 ∧ quadN.n = quadDN.nr ∧ 3 ≤ quadDN.nr ∧ 2 ≤ quadDN.nc := by
  refine ⟨by norm_num, rfl, by decide, by decide⟩

/-- C27 is violated in axisymmetry: with all nodes of a bilinear element moved outwards by 2 at the
radius 2 (hoop strain 3/2), the hoop strain computed is zero, and moving the first node further out
does not change it according to the B-matrix although it does so in fact. -/
theorem C27_hoop_violated :
    let u : Nat → Nat → ℝ := fun _ i => if i = 1 then 2 else 0
    let v : Nat → Nat → ℝ := fun a i => if a = 1 ∧ i = 1 then 1 else 0
    ∃ k, kinTL 2 true ⟨8, dofVec 2 u⟩ quadN quadDN 2 (1 / 10 ^ 16) = .ok k ∧
      k.E 3 = 0 ∧ hoopStrain (val 4 u quadN.e 1) 2 = 3 / 2 ∧
      k.B.mulV (dofVec 2 v) 3 = 0 ∧
      HasDerivAt (fun t => hoopStrain (val 4 (along u v t) quadN.e 1) 2) (1 / 4) 0 := by
  intro u v
  obtain ⟨B, hB, b1, b2, b3⟩ := tlB_axi (kinF true (2 : ℝ) (1 / 10 ^ 16)
    (∑ a ∈ Finset.range quadN.n, dofVec 2 u (2 * a + 1) * quadN.e (a + 1))
      (defGrad 2 true true quadN quadDN 2 (1 / 10 ^ 16) (dofVec 2 u))) quadN quadDN 2 (1 / 10 ^ 16)
      rfl (by decide)
  refine ⟨⟨B, kinF true (2 : ℝ) (1 / 10 ^ 16)
    (∑ a ∈ Finset.range quadN.n, dofVec 2 u (2 * a + 1) * quadN.e (a + 1))
      (defGrad 2 true true quadN quadDN 2 (1 / 10 ^ 16) (dofVec 2 u)),
      strainV 2 true (defGrad 2 true true quadN quadDN 2 (1 / 10 ^ 16) (dofVec 2 u))⟩, ?_, ?_, ?_, ?_, ?_⟩
  · unfold kinTL
    refine (if_neg (show ¬ (8 = 0) by decide)).trans ((if_neg (by simp [quadDN])).trans ?_)
    simp only []
    rw [hB]; rfl
  · simp [strainV, strainE]
  · simp [hoopStrain, val, u, quadN, Finset.sum_range_succ]; norm_num
  · show B.mulV (dofVec 2 v) 3 = 0
    rw [mulV_dof 2 4 B b2]
    refine Finset.sum_eq_zero fun a ha => Finset.sum_eq_zero fun j hj => ?_
    have ha := Finset.mem_range.mp ha
    have hj := Finset.mem_range.mp hj
    rw [b3 3 j a (by omega) (by omega) hj ha, if_pos rfl]
    by_cases h : j = 0 ∧ a = 2
    · obtain ⟨h1, h2⟩ := h
      subst h1 h2
      simp [v]
    · rw [if_neg h, zero_mul]
  · refine deriv_quad _ (3 / 2) _ (1 / 128) fun t => ?_
    simp [hoopStrain, val, along, u, v, quadN, Finset.sum_range_succ]; ring

/-- C27: an element displacement vector of the wrong length is rejected. -/
theorem C27_reject (d : Nat) (axi : Bool) (eV N : DVec ℝ) (dN : DMat ℝ) (r epsR : ℝ)
    (h0 : eV.n ≠ 0) (h : eV.n ≠ d * dN.nr ∨ dN.nc < d) : kinTL d axi eV N dN r epsR = .fail := by
  unfold kinTL
  rw [if_neg h0, if_pos h]

end Verif.Finite
