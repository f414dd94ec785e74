/-
The integral of the Gaussian curvature of a clamped surface over a rectangle is zero.
-/
import Mathlib.MeasureTheory.Integral.IntervalIntegral.IntegrationByParts
import Mathlib.MeasureTheory.Integral.Prod
import Mathlib.Analysis.Calculus.Deriv.Mul
import Mathlib.Tactic.Linarith

namespace Verif

open MeasureTheory intervalIntegral Set

theorem integral_swap (a b c d : ℝ) (f : ℝ → ℝ → ℝ) (hf : Continuous (Function.uncurry f)) :
    ∫ y in c..d, ∫ x in a..b, f x y = ∫ x in a..b, ∫ y in c..d, f x y := by
  symm
  refine MeasureTheory.intervalIntegral_intervalIntegral_swap (F := f) ?_
  have h : IntegrableOn f.uncurry (Set.uIcc a b ×ˢ Set.uIcc c d) :=
    hf.continuousOn.integrableOn_compact (isCompact_uIcc.prod isCompact_uIcc)
  exact h.mono_set (Set.prod_mono Set.uIoc_subset_uIcc Set.uIoc_subset_uIcc)

theorem gauss_zero (a b c d : ℝ) (wx wxx wxy wyy wxyy : ℝ → ℝ → ℝ)
    (h1 : ∀ x y, HasDerivAt (fun t => wx t y) (wxx x y) x) (h2 : ∀ x y, HasDerivAt (fun t => wx x t) (wxy x y) y)
    (h3 : ∀ x y, HasDerivAt (fun t => wxy x t) (wxyy x y) y) (h4 : ∀ x y, HasDerivAt (fun t => wyy t y) (wxyy x y) x)
    (c0 : Continuous (Function.uncurry wx)) (c1 : Continuous (Function.uncurry wxx)) (c2 : Continuous (Function.uncurry wxy))
    (c4 : Continuous (Function.uncurry wxyy))
    (ba : ∀ y ∈ uIcc c d, wx a y = 0) (bb : ∀ y ∈ uIcc c d, wx b y = 0)
    (bc : ∀ x ∈ uIcc a b, wx x c = 0) (bd : ∀ x ∈ uIcc a b, wx x d = 0) :
    ∫ y in c..d, ∫ x in a..b, wxx x y * wyy x y = ∫ y in c..d, ∫ x in a..b, wxy x y ^ 2 := by
  have sx : ∀ {f : ℝ → ℝ → ℝ}, Continuous (Function.uncurry f) → ∀ y, Continuous fun x => f x y := fun hf y =>
    hf.comp (Continuous.prodMk_left y)
  have sy : ∀ {f : ℝ → ℝ → ℝ}, Continuous (Function.uncurry f) → ∀ x, Continuous fun y => f x y := fun hf x =>
    hf.comp (Continuous.prodMk_right x)
  have c22 : Continuous (Function.uncurry fun x y => wxy x y ^ 2) := c2.pow 2
  have i1 : ∀ y ∈ uIcc c d, ∫ x in a..b, wxx x y * wyy x y = -∫ x in a..b, wx x y * wxyy x y := by
    intro y hy
    have := integral_mul_deriv_eq_deriv_mul (a := a) (b := b) (u := fun x => wx x y) (u' := fun x => wxx x y)
      (v := fun x => wyy x y) (v' := fun x => wxyy x y) (fun x _ => h1 x y) (fun x _ => h4 x y)
      ((sx c1 y).intervalIntegrable _ _) ((sx c4 y).intervalIntegrable _ _)
    rw [this, ba y hy, bb y hy]; ring
  have i2 : ∀ x ∈ uIcc a b, ∫ y in c..d, wx x y * wxyy x y = -∫ y in c..d, wxy x y ^ 2 := by
    intro x hx
    have := integral_mul_deriv_eq_deriv_mul (a := c) (b := d) (u := fun y => wx x y) (u' := fun y => wxy x y)
      (v := fun y => wxy x y) (v' := fun y => wxyy x y) (fun y _ => h2 x y) (fun y _ => h3 x y)
      ((sy c2 x).intervalIntegrable _ _) ((sy c4 x).intervalIntegrable _ _)
    rw [this, bc x hx, bd x hx]; simp [sq]
  rw [integral_congr i1, intervalIntegral.integral_neg, integral_swap a b c d (fun x y => wx x y * wxyy x y) (c0.mul c4),
    integral_congr i2, intervalIntegral.integral_neg, neg_neg, ← integral_swap a b c d (fun x y => wxy x y ^ 2) c22]

theorem energy_clamped (a b c d p q : ℝ) (wx wxx wxy wyy wxyy : ℝ → ℝ → ℝ)
    (h1 : ∀ x y, HasDerivAt (fun t => wx t y) (wxx x y) x) (h2 : ∀ x y, HasDerivAt (fun t => wx x t) (wxy x y) y)
    (h3 : ∀ x y, HasDerivAt (fun t => wxy x t) (wxyy x y) y) (h4 : ∀ x y, HasDerivAt (fun t => wyy t y) (wxyy x y) x)
    (c0 : Continuous (Function.uncurry wx)) (c1 : Continuous (Function.uncurry wxx)) (c2 : Continuous (Function.uncurry wxy))
    (c3 : Continuous (Function.uncurry wyy)) (c4 : Continuous (Function.uncurry wxyy))
    (ba : ∀ y ∈ uIcc c d, wx a y = 0) (bb : ∀ y ∈ uIcc c d, wx b y = 0)
    (bc : ∀ x ∈ uIcc a b, wx x c = 0) (bd : ∀ x ∈ uIcc a b, wx x d = 0) :
    ∫ y in c..d, ∫ x in a..b, (p * (wxx x y + wyy x y) ^ 2 + q * (wxx x y * wyy x y - wxy x y ^ 2)) =
      ∫ y in c..d, ∫ x in a..b, p * (wxx x y + wyy x y) ^ 2 := by
  have key := gauss_zero a b c d wx wxx wxy wyy wxyy h1 h2 h3 h4 c0 c1 c2 c4 ba bb bc bd
  have ii : ∀ f : ℝ → ℝ → ℝ, Continuous (Function.uncurry f) → ∀ y, IntervalIntegrable (fun x => f x y) volume a b :=
    fun f hf y => (hf.comp (Continuous.prodMk_left y)).intervalIntegrable _ _
  have jj : ∀ f : ℝ → ℝ → ℝ, Continuous (Function.uncurry f) →
      IntervalIntegrable (fun y => ∫ x in a..b, f x y) volume c d := by
    intro f hf
    apply Continuous.intervalIntegrable
    exact intervalIntegral.continuous_parametric_intervalIntegral_of_continuous' (f := fun y x => f x y)
      (hf.comp continuous_swap) a b
  have f1 : Continuous (Function.uncurry fun x y => p * (wxx x y + wyy x y) ^ 2) :=
    continuous_const.mul ((c1.add c3).pow 2)
  have f2 : Continuous (Function.uncurry fun x y => wxy x y ^ 2) := c2.pow 2
  have f3 : Continuous (Function.uncurry fun x y => wxx x y * wyy x y) := c1.mul c3
  have f4 : Continuous (Function.uncurry fun x y => wxx x y * wyy x y - wxy x y ^ 2) := f3.sub f2
  have e : ∀ y, ∫ x in a..b, (p * (wxx x y + wyy x y) ^ 2 + q * (wxx x y * wyy x y - wxy x y ^ 2)) =
      (∫ x in a..b, p * (wxx x y + wyy x y) ^ 2) +
        q * ((∫ x in a..b, wxx x y * wyy x y) - ∫ x in a..b, wxy x y ^ 2) := by
    intro y
    rw [intervalIntegral.integral_add (ii _ f1 y) ((ii _ f4 y).const_mul _),
      intervalIntegral.integral_const_mul (r := q), intervalIntegral.integral_sub (ii _ f3 y) (ii _ f2 y)]
  simp only [e]
  rw [intervalIntegral.integral_add (jj _ f1) (((jj _ f3).sub (jj _ f2)).const_mul _),
    intervalIntegral.integral_const_mul (r := q), intervalIntegral.integral_sub (jj _ f3) (jj _ f2), key]
  ring

end Verif
