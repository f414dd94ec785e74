/-
Property C22: yield functions and their derivatives.
-/
import Verif.Model.Plastic
import Mathlib.Analysis.SpecialFunctions.Sqrt
import Mathlib.Analysis.SpecialFunctions.ExpDeriv
import Mathlib.Analysis.SpecialFunctions.Pow.Deriv
import Mathlib.Tactic.FieldSimp
import Mathlib.Tactic.Ring
import Mathlib.Tactic.Linarith
import Mathlib.Tactic.NormNum
import Mathlib.Tactic.Positivity

set_option linter.unusedSectionVars false
set_option linter.unusedSimpArgs false
set_option linter.unusedVariables false

namespace Verif.Plastic

/-- One output of a successful call. -/
noncomputable def out (k : Yld → ℝ) : Res Yld → ℝ
  | .ok y => k y
  | _ => 0

/-- Specification: at the given point the outputs are the first and second partial derivatives of
the returned yield value with respect to the stress invariants, and `Ypr` is the derivative of the
yield radius with respect to the plastic multiplier, of which the accumulated plastic strain is
`sqrt(2/3)` times. `Y` is the function with all its arguments `Epp`, `I1`, `J2`, `J3`. -/
def Consistent (Y : ℝ → ℝ → ℝ → ℝ → Res Yld) (e i1 j2 j3 : ℝ) (y : Yld) : Prop :=
  Y e i1 j2 j3 = .ok y ∧
  HasDerivAt (fun x => out Yld.yield (Y e x j2 j3)) y.f1 i1 ∧
  HasDerivAt (fun x => out Yld.yield (Y e i1 x j3)) y.f2 j2 ∧
  HasDerivAt (fun x => out Yld.yield (Y e i1 j2 x)) y.f3 j3 ∧
  HasDerivAt (fun x => out Yld.f1 (Y e x j2 j3)) y.f11 i1 ∧
  HasDerivAt (fun x => out Yld.f2 (Y e i1 x j3)) y.f22 j2 ∧
  HasDerivAt (fun x => out Yld.f3 (Y e i1 j2 x)) y.f33 j3 ∧
  HasDerivAt (fun x => out Yld.f1 (Y e i1 x j3)) y.f12 j2 ∧
  HasDerivAt (fun x => out Yld.f1 (Y e i1 j2 x)) y.f13 j3 ∧
  HasDerivAt (fun x => out Yld.f2 (Y e i1 j2 x)) y.f23 j3 ∧
  HasDerivAt (fun x => out Yld.YY (Y (e + Real.sqrt (2 / 3) * x) i1 j2 j3)) y.Ypr 0 ∧
  HasDerivAt (fun x => out Yld.yield (Y (e + Real.sqrt (2 / 3) * x) i1 j2 j3)) (-y.Ypr) 0

theorem hasDerivAt_ss (x : ℝ) (hx : 0 < x) :
    HasDerivAt (fun x => Real.sqrt (2 * x)) (1 / Real.sqrt (2 * x)) x := by
  have h := ((hasDerivAt_id x).const_mul 2).sqrt (by simpa using hx.ne')
  refine h.congr_deriv ?_
  simp only [id]
  field_simp

theorem hasDerivAt_ss_inv (x : ℝ) (hx : 0 < x) :
    HasDerivAt (fun x => 1 / Real.sqrt (2 * x)) (-(1 / Real.sqrt (2 * x)) ^ 3) x := by
  have hs : Real.sqrt (2 * x) ≠ 0 := (Real.sqrt_pos.2 (by linarith)).ne'
  have h := (hasDerivAt_ss x hx).inv hs
  have e : (fun x => 1 / Real.sqrt (2 * x)) = (fun x => Real.sqrt (2 * x))⁻¹ := by
    funext y; simp
  rw [e]
  refine h.congr_deriv ?_
  field_simp

theorem eps_pos : 0 < epsZ := by unfold epsZ; positivity

/-- The points where the square root is above the threshold. -/
theorem ss_gt (x : ℝ) : epsZ < Real.sqrt (2 * x) ↔ epsZ ^ 2 / 2 < x := by
  rw [Real.lt_sqrt eps_pos.le]
  constructor <;> intro h <;> linarith

theorem s23_pos : 0 < s23 := Real.sqrt_pos.2 (by norm_num)

theorem s23_sq : s23 * s23 = 2 / 3 := Real.mul_self_sqrt (by norm_num)

/-- The criteria of von Mises type: the yield value is `sqrt(2 J2) - R(Epp)`. -/
theorem mises_consistent (Y : ℝ → ℝ → ℝ → ℝ → Res Yld) (R : ℝ → ℝ) (P : ℝ → ℝ)
    (e i1 j2 j3 : ℝ)
    (hY : ∀ᶠ e in nhds e, ∀ i1 j2 j3, Y e i1 j2 j3 =
      .ok (misesD true (if j2 > 0 then Real.sqrt (2 * j2) else 0)
      { Ypr := P e, YY := R e, yield := (if j2 > 0 then Real.sqrt (2 * j2) else 0) - R e }))
    (hj : epsZ ^ 2 / 2 < j2)
    (hP : HasDerivAt R (P e / s23) e) :
    ∃ y, Consistent Y e i1 j2 j3 y ∧ y.yield = Real.sqrt (2 * j2) - R e ∧ y.YY = R e := by
  have hj0 : 0 < j2 := lt_trans (by have := eps_pos; positivity) hj
  have hval' : ∀ᶠ e in nhds e, ∀ i1 j2 j3, epsZ ^ 2 / 2 < j2 → Y e i1 j2 j3 =
      .ok { Ypr := P e, YY := R e, yield := Real.sqrt (2 * j2) - R e,
            f2 := 1 / Real.sqrt (2 * j2), f22 := -(1 / Real.sqrt (2 * j2)) ^ 3 } := by
    refine hY.mono fun e hY i1 j2 j3 hj => ?_
    have hj0 : 0 < j2 := lt_trans (by have := eps_pos; positivity) hj
    rw [hY, if_pos hj0]
    unfold misesD
    rw [if_pos ⟨rfl, (ss_gt j2).2 hj⟩]
  have hval := hval'.self_of_nhds
  have hc : Filter.Tendsto (fun x : ℝ => e + Real.sqrt (2 / 3) * x) (nhds 0) (nhds e) := by
    have h : Continuous fun x : ℝ => e + Real.sqrt (2 / 3) * x := by fun_prop
    have := h.tendsto 0
    simpa using this
  have hev0 := hc.eventually hval'
  have hev : ∀ᶠ x in nhds j2, epsZ ^ 2 / 2 < x := lt_mem_nhds hj
  have hE : HasDerivAt (fun x => R (e + Real.sqrt (2 / 3) * x)) (P e) 0 := by
    have h1 : HasDerivAt (fun x : ℝ => e + Real.sqrt (2 / 3) * x) s23 0 := by
      have := ((hasDerivAt_id (0 : ℝ)).const_mul (Real.sqrt (2 / 3))).const_add e
      simpa [s23] using this
    have h2 : HasDerivAt R (P e / s23) (e + Real.sqrt (2 / 3) * 0) := by simpa using hP
    refine (h2.comp (0 : ℝ) h1).congr_deriv ?_
    exact div_mul_cancel₀ _ s23_pos.ne'
  refine ⟨_, ⟨hval i1 j2 j3 hj, ?_, ?_, ?_, ?_, ?_, ?_, ?_, ?_, ?_, ?_, ?_⟩, rfl, rfl⟩
  · simp only [hval _ j2 _ hj, out]; exact hasDerivAt_const _ _
  · have h := (hasDerivAt_ss j2 hj0).sub_const (R e)
    exact h.congr_of_eventuallyEq (hev.mono fun x hx => by simp only [hval _ x _ hx, out])
  · simp only [hval _ j2 _ hj, out]; exact hasDerivAt_const _ _
  · simp only [hval _ j2 _ hj, out]; exact hasDerivAt_const _ _
  · exact (hasDerivAt_ss_inv j2 hj0).congr_of_eventuallyEq
      (hev.mono fun x hx => by simp only [hval _ x _ hx, out])
  · simp only [hval _ j2 _ hj, out]; exact hasDerivAt_const _ _
  · exact (hasDerivAt_const j2 (0 : ℝ)).congr_of_eventuallyEq
      (hev.mono fun x hx => by simp only [hval _ x _ hx, out])
  · simp only [hval _ j2 _ hj, out]; exact hasDerivAt_const _ _
  · simp only [hval _ j2 _ hj, out]; exact hasDerivAt_const _ _
  · exact hE.congr_of_eventuallyEq (hev0.mono fun x hx => by simp only [hx _ j2 _ hj, out])
  · have h := hE.const_sub (Real.sqrt (2 * j2))
    exact h.congr_of_eventuallyEq (hev0.mono fun x hx => by simp only [hx _ j2 _ hj, out])

/-- `sqrt(2 J2)` is `sqrt(2/3)` times the von Mises stress `sqrt(3 J2)`. -/
theorem ss_mises (j2 : ℝ) : Real.sqrt (2 * j2) = Real.sqrt (2 / 3) * Real.sqrt (3 * j2) := by
  rw [← Real.sqrt_mul (by norm_num)]; congr 1; ring

variable (p0 p1 p2 p3 k g h hk Y0 Yinf beta ist : ℝ)

/-- C22, von Mises with exponential hardening: the outputs are consistent derivatives at every
stress above the threshold, and the yield value is `sqrt(2/3)` times the excess of the von Mises
stress over the current yield stress `σ∞ + (σ0-σ∞) exp(-β ε) + H ε`. -/
theorem C22_mises (l : List ℝ) (hfn : Option ((ℝ → ℝ) × (ℝ → ℝ))) (ty : ℝ) (hty : toInt ty = 1)
    (e i1 j2 j3 : ℝ) (hj : epsZ ^ 2 / 2 < j2) :
    ∃ y, Consistent (yfunc (p0 :: p1 :: p2 :: p3 :: k :: g :: h :: hk :: ty :: Y0 :: Yinf ::
        beta :: ist :: l) hfn true) e i1 j2 j3 y ∧
      y.yield = Real.sqrt (2 / 3) * (Real.sqrt (3 * j2) -
        (Yinf + (Y0 - Yinf) * Real.exp (-beta * e) + h * e)) := by
  obtain ⟨y, a, b, c⟩ := mises_consistent
    (yfunc (p0 :: p1 :: p2 :: p3 :: k :: g :: h :: hk :: ty :: Y0 :: Yinf :: beta :: ist :: l) hfn true)
    (fun e => s23 * Yinf + (s23 * Y0 - s23 * Yinf) * Real.exp (-beta * e) + s23 * h * e)
    (fun e => 2 / 3 * h - s23 * beta * ((s23 * Y0 - s23 * Yinf) * Real.exp (-beta * e)))
    e i1 j2 j3 (Filter.Eventually.of_forall (by intro e i1 j2 j3; simp [yfunc, hty])) hj (by
      have h1 : HasDerivAt (fun x => Real.exp (-beta * x)) (Real.exp (-beta * e) * (-beta)) e := by
        simpa using ((hasDerivAt_id e).const_mul (-beta)).exp
      have h2 := ((h1.const_mul (s23 * Y0 - s23 * Yinf)).const_add (s23 * Yinf)).add
        ((hasDerivAt_id e).const_mul (s23 * h))
      refine h2.congr_deriv ?_
      have := s23_sq
      have hp := s23_pos.ne'
      rw [eq_div_iff hp, ← this]
      ring)
  refine ⟨y, a, ?_⟩
  rw [b, ss_mises, show Real.sqrt (2 / 3) = s23 from rfl]
  ring

/-- C22, Drucker-Prager: consistent derivatives, and the yield value is `sqrt(2/3)` times
`σ_vM + α I1/3 - (σ0 + H ε)`. -/
theorem C22_drucker (l : List ℝ) (hfn : Option ((ℝ → ℝ) × (ℝ → ℝ))) (ty : ℝ) (hty : toInt ty = 2)
    (e i1 j2 j3 : ℝ) (hj : epsZ ^ 2 / 2 < j2) :
    ∃ y, Consistent (yfunc (p0 :: p1 :: p2 :: p3 :: k :: g :: h :: hk :: ty :: Y0 :: Yinf ::
        beta :: ist :: l) hfn true) e i1 j2 j3 y ∧
      y.yield = Real.sqrt (2 / 3) * (Real.sqrt (3 * j2) + Yinf * i1 / 3 - (Y0 + h * e)) := by
  have hj0 : 0 < j2 := lt_trans (by have := eps_pos; positivity) hj
  have hval : ∀ e i1 j2 j3, epsZ ^ 2 / 2 < j2 → yfunc (p0 :: p1 :: p2 :: p3 :: k :: g :: h :: hk ::
      ty :: Y0 :: Yinf :: beta :: ist :: l) hfn true e i1 j2 j3 =
      .ok { Ypr := 2 / 3 * h, YY := s23 * Y0 + s23 * h * e,
            yield := Real.sqrt (2 * j2) + 1 / 3 * (s23 * Yinf) * i1 - (s23 * Y0 + s23 * h * e),
            f1 := 1 / 3 * (s23 * Yinf),
            f2 := 1 / Real.sqrt (2 * j2), f22 := -(1 / Real.sqrt (2 * j2)) ^ 3 } := by
    intro e i1 j2 j3 hj
    have hj0 : 0 < j2 := lt_trans (by have := eps_pos; positivity) hj
    have h2 : ¬ toInt ty = 1 := by rw [hty]; decide
    simp only [yfunc, List.getElem?_cons_succ, List.getElem?_cons_zero, if_neg h2, if_pos hty,
      if_pos hj0, misesD, if_true]
    rw [if_pos ⟨trivial, (ss_gt j2).2 hj⟩]
  have hev : ∀ᶠ x in nhds j2, epsZ ^ 2 / 2 < x := lt_mem_nhds hj
  have hE : HasDerivAt (fun x => s23 * Y0 + s23 * h * (e + Real.sqrt (2 / 3) * x)) (2 / 3 * h) 0 := by
    have h1 := ((((hasDerivAt_id (0 : ℝ)).const_mul (Real.sqrt (2 / 3))).const_add e).const_mul
      (s23 * h)).const_add (s23 * Y0)
    refine h1.congr_deriv ?_
    rw [show Real.sqrt (2 / 3) = s23 from rfl, ← s23_sq]; ring
  refine ⟨_, ⟨hval e i1 j2 j3 hj, ?_, ?_, ?_, ?_, ?_, ?_, ?_, ?_, ?_, ?_, ?_⟩, ?_⟩
  · simp only [hval _ _ j2 _ hj, out]
    have := (((hasDerivAt_id i1).const_mul (1 / 3 * (s23 * Yinf))).const_add
      (Real.sqrt (2 * j2))).sub_const (s23 * Y0 + s23 * h * e)
    simpa using this
  · have h := ((hasDerivAt_ss j2 hj0).add_const (1 / 3 * (s23 * Yinf) * i1)).sub_const
      (s23 * Y0 + s23 * h * e)
    exact h.congr_of_eventuallyEq (hev.mono fun x hx => by simp only [hval _ _ x _ hx, out])
  · simp only [hval _ _ j2 _ hj, out]; exact hasDerivAt_const _ _
  · simp only [hval _ _ j2 _ hj, out]; exact hasDerivAt_const _ _
  · exact (hasDerivAt_ss_inv j2 hj0).congr_of_eventuallyEq
      (hev.mono fun x hx => by simp only [hval _ _ x _ hx, out])
  · simp only [hval _ _ j2 _ hj, out]; exact hasDerivAt_const _ _
  · exact (hasDerivAt_const j2 (1 / 3 * (s23 * Yinf))).congr_of_eventuallyEq
      (hev.mono fun x hx => by simp only [hval _ _ x _ hx, out])
  · simp only [hval _ _ j2 _ hj, out]; exact hasDerivAt_const _ _
  · simp only [hval _ _ j2 _ hj, out]; exact hasDerivAt_const _ _
  · simp only [hval _ _ j2 _ hj, out]; exact hE
  · simp only [hval _ _ j2 _ hj, out]
    simpa using hE.const_sub (Real.sqrt (2 * j2) + 1 / 3 * (s23 * Yinf) * i1)
  · simp only []
    rw [ss_mises, show Real.sqrt (2 / 3) = s23 from rfl]
    ring

/-- C22, Prager-Lode: consistent derivatives during the return mapping wherever `J2` is above the
threshold, and the yield value is `sqrt(2/3)` times
`σ_vM + (9/2) λ J3/J2 - (σ0 + H ε)`. -/
theorem C22_lode_partial (l : List ℝ) (hfn : Option ((ℝ → ℝ) × (ℝ → ℝ))) (ty : ℝ)
    (hty : toInt ty = 3) (e i1 j2 j3 : ℝ) (hj : epsZ < j2) :
    ∃ y, Consistent (yfunc (p0 :: p1 :: p2 :: p3 :: k :: g :: h :: hk :: ty :: Y0 :: Yinf ::
        beta :: ist :: l) hfn true) e i1 j2 j3 y ∧
      y.yield = Real.sqrt (2 / 3) * (Real.sqrt (3 * j2) +
        Real.sqrt (27 / 2) * Yinf * j3 / j2 - (Y0 + h * e)) := by
  have hj0 : 0 < j2 := lt_trans eps_pos hj
  have hval : ∀ e i1 j2 j3, epsZ < j2 → yfunc (p0 :: p1 :: p2 :: p3 :: k :: g :: h :: hk ::
      ty :: Y0 :: Yinf :: beta :: ist :: l) hfn true e i1 j2 j3 =
      .ok { Ypr := 2 / 3 * h, YY := s23 * Y0 + s23 * h * e,
            yield := Real.sqrt (2 * j2) + Real.sqrt (27 / 2) * (s23 * Yinf) * j3 / j2 -
              (s23 * Y0 + s23 * h * e),
            f2 := 1 / Real.sqrt (2 * j2) - Real.sqrt (27 / 2) * (s23 * Yinf) * j3 / j2 ^ 2,
            f3 := Real.sqrt (27 / 2) * (s23 * Yinf) / j2,
            f22 := -(1 / Real.sqrt (2 * j2)) ^ 3 +
              2 * (Real.sqrt (27 / 2) * (s23 * Yinf) * j3) / j2 ^ 3,
            f23 := -(Real.sqrt (27 / 2) * (s23 * Yinf)) / j2 ^ 2 } := by
    intro e i1 j2 j3 hj
    have hj0 : 0 < j2 := lt_trans eps_pos hj
    have h1 : ¬ toInt ty = 1 := by rw [hty]; decide
    have h2 : ¬ toInt ty = 2 := by rw [hty]; decide
    have h4 : ¬ j2 < epsZ := not_lt.2 hj.le
    have e1 : Real.sqrt (1 / 2) * Real.sqrt (1 / j2) = 1 / Real.sqrt (2 * j2) := by
      rw [← Real.sqrt_mul (by norm_num), show (1 : ℝ) / 2 * (1 / j2) = (2 * j2)⁻¹ by field_simp,
        Real.sqrt_inv, one_div]
    have e2 : -Real.sqrt (1 / 2) * Real.sqrt (1 / j2) ^ 3 * (1 / 2) =
        -(1 / Real.sqrt (2 * j2)) ^ 3 := by
      rw [← e1]
      have := Real.mul_self_sqrt (show (0 : ℝ) ≤ 1 / 2 by norm_num)
      calc _ = -Real.sqrt (1 / 2) * Real.sqrt (1 / j2) ^ 3 *
              (Real.sqrt (1 / 2) * Real.sqrt (1 / 2)) := by rw [this]
        _ = _ := by ring
    simp only [yfunc, List.getElem?_cons_succ, List.getElem?_cons_zero, if_neg h1, if_neg h2,
      if_pos hty, if_neg h4, if_pos hj0, if_true, e1, e2]
    congr 2
    · congr 1; field_simp
    · field_simp
    · congr 1; field_simp
    · field_simp
  have hev : ∀ᶠ x in nhds j2, epsZ < x := lt_mem_nhds hj
  have hE : HasDerivAt (fun x => s23 * Y0 + s23 * h * (e + Real.sqrt (2 / 3) * x)) (2 / 3 * h) 0 := by
    have h1 := ((((hasDerivAt_id (0 : ℝ)).const_mul (Real.sqrt (2 / 3))).const_add e).const_mul
      (s23 * h)).const_add (s23 * Y0)
    refine h1.congr_deriv ?_
    rw [show Real.sqrt (2 / 3) = s23 from rfl, ← s23_sq]; ring
  have hd1 : ∀ c : ℝ, HasDerivAt (fun x => c / x) (-c / j2 ^ 2) j2 := fun c => by
    have := (hasDerivAt_inv hj0.ne').const_mul c
    refine (this.congr_deriv ?_).congr_of_eventuallyEq (Filter.Eventually.of_forall fun x => ?_)
    · field_simp
    · exact div_eq_mul_inv _ _
  have hd2 : ∀ c : ℝ, HasDerivAt (fun x => c / x ^ 2) (-(2 * c / j2 ^ 3)) j2 := fun c => by
    have := ((hasDerivAt_pow 2 j2).inv (pow_ne_zero 2 hj0.ne')).const_mul c
    refine (this.congr_deriv ?_).congr_of_eventuallyEq (Filter.Eventually.of_forall fun x => ?_)
    · norm_num; field_simp
    · simp [div_eq_mul_inv]
  refine ⟨_, ⟨hval e i1 j2 j3 hj, ?_, ?_, ?_, ?_, ?_, ?_, ?_, ?_, ?_, ?_, ?_⟩, ?_⟩
  · simp only [hval _ _ j2 _ hj, out]; exact hasDerivAt_const _ _
  · have h := ((hasDerivAt_ss j2 hj0).add (hd1 (Real.sqrt (27 / 2) * (s23 * Yinf) * j3))).sub_const
      (s23 * Y0 + s23 * h * e)
    refine (h.congr_deriv ?_).congr_of_eventuallyEq
      (hev.mono fun x hx => by simp only [hval _ _ x _ hx, out]; rfl)
    ring
  · simp only [hval _ _ j2 _ hj, out]
    have := ((((hasDerivAt_id j3).const_mul (Real.sqrt (27 / 2) * (s23 * Yinf))).div_const
      j2).const_add (Real.sqrt (2 * j2))).sub_const (s23 * Y0 + s23 * h * e)
    simpa using this
  · simp only [hval _ _ j2 _ hj, out]; exact hasDerivAt_const _ _
  · have h := (hasDerivAt_ss_inv j2 hj0).sub (hd2 (Real.sqrt (27 / 2) * (s23 * Yinf) * j3))
    refine (h.congr_deriv ?_).congr_of_eventuallyEq
      (hev.mono fun x hx => by simp only [hval _ _ x _ hx, out]; rfl)
    ring
  · simp only [hval _ _ j2 _ hj, out]; exact hasDerivAt_const _ _
  · exact (hasDerivAt_const j2 (0 : ℝ)).congr_of_eventuallyEq
      (hev.mono fun x hx => by simp only [hval _ _ x _ hx, out])
  · simp only [hval _ _ j2 _ hj, out]; exact hasDerivAt_const _ _
  · simp only [hval _ _ j2 _ hj, out]
    have := (((hasDerivAt_id j3).const_mul (Real.sqrt (27 / 2) * (s23 * Yinf))).div_const
      (j2 ^ 2)).const_sub (1 / Real.sqrt (2 * j2))
    refine (this.congr_deriv ?_)
    ring
  · simp only [hval _ _ j2 _ hj, out]; exact hE
  · simp only [hval _ _ j2 _ hj, out]
    simpa using hE.const_sub (Real.sqrt (2 * j2) + Real.sqrt (27 / 2) * (s23 * Yinf) * j3 / j2)
  · simp only []
    rw [ss_mises, show Real.sqrt (2 / 3) = s23 from rfl]
    ring

/-- C22 is violated for the Prager-Lode criterion: the check for yielding (`lIter` false) reports
the negative yield radius whatever the stress, so no overstress is ever detected, although the
yield value used by the return mapping at the same stress is positive and arbitrarily large. -/
theorem C22_lode_violated (l : List ℝ) (hfn : Option ((ℝ → ℝ) × (ℝ → ℝ))) (ty : ℝ)
    (hty : toInt ty = 3) (e i1 : ℝ) :
    (∀ j2 j3, ∃ y, yfunc (p0 :: p1 :: p2 :: p3 :: k :: g :: h :: hk :: ty :: Y0 :: Yinf ::
        beta :: ist :: l) hfn false e i1 j2 j3 = .ok y ∧
        y.yield = -(Real.sqrt (2 / 3) * (Y0 + h * e))) ∧
    ∀ B : ℝ, ∃ j2 y, epsZ < j2 ∧ yfunc (p0 :: p1 :: p2 :: p3 :: k :: g :: h :: hk :: ty :: Y0 ::
        Yinf :: beta :: ist :: l) hfn true e i1 j2 0 = .ok y ∧ B < y.yield := by
  have h1 : ¬ toInt ty = 1 := by rw [hty]; decide
  have h2 : ¬ toInt ty = 2 := by rw [hty]; decide
  constructor
  · intro j2 j3
    by_cases h4 : j2 < epsZ
    · refine ⟨⟨0, 0, 0, 0, 0, 0, 0, 0, 0, 2 / 3 * h, s23 * Y0 + s23 * h * e,
        -(s23 * Y0 + s23 * h * e)⟩, ?_, ?_⟩
      · simp only [yfunc, List.getElem?_cons_succ, List.getElem?_cons_zero, if_neg h1,
          if_neg h2, if_pos hty, if_pos h4]
      · simp only [s23]; ring
    · refine ⟨⟨0, 0, 0, 0, 0, 0, 0, 0, 0, 2 / 3 * h, s23 * Y0 + s23 * h * e,
        -(s23 * Y0 + s23 * h * e)⟩, ?_, ?_⟩
      · simp only [yfunc, List.getElem?_cons_succ, List.getElem?_cons_zero, if_neg h1,
          if_neg h2, if_pos hty, if_neg h4, Bool.false_eq_true, if_false]
      · simp only [s23]; ring
  · intro B
    obtain ⟨c, hc⟩ : ∃ c, c = |B + (Real.sqrt (2 / 3) * (Y0 + h * e))| + 1 := ⟨_, rfl⟩
    have hc1 : 1 ≤ c := by rw [hc]; have := abs_nonneg (B + (Real.sqrt (2 / 3) * (Y0 + h * e))); linarith
    have hB : B + (Real.sqrt (2 / 3) * (Y0 + h * e)) < c := by
      rw [hc]; have := le_abs_self (B + (Real.sqrt (2 / 3) * (Y0 + h * e))); linarith
    have hj : epsZ < c ^ 2 / 2 := by
      have : (1 : ℝ) ≤ c ^ 2 := by nlinarith
      unfold epsZ
      have : (1 : ℝ) / 10 ^ 16 < 1 / 2 := by norm_num
      linarith
    obtain ⟨y, a, b⟩ := C22_lode_partial p0 p1 p2 p3 k g h hk Y0 Yinf beta ist l hfn ty hty e i1
      (c ^ 2 / 2) 0 hj
    refine ⟨c ^ 2 / 2, y, hj, a.1, ?_⟩
    rw [b, mul_sub, mul_add, ← ss_mises, show 2 * (c ^ 2 / 2) = c ^ 2 by ring,
      Real.sqrt_sq (by linarith)]
    simp only [mul_zero, zero_div]
    linarith

/-- C22, Johnson-Cook: consistent derivatives once there is plastic strain above the threshold, and
the yield value is `sqrt(2/3)` times `σ_vM - (A + B ε^n + H ε)`. -/
theorem C22_johnson_partial (l : List ℝ) (hfn : Option ((ℝ → ℝ) × (ℝ → ℝ))) (ty : ℝ)
    (hty : toInt ty = 4) (e i1 j2 j3 : ℝ) (he : epsZ < e) (hj : epsZ ^ 2 / 2 < j2) :
    ∃ y, Consistent (yfunc (p0 :: p1 :: p2 :: p3 :: k :: g :: h :: hk :: ty :: Y0 :: Yinf ::
        beta :: ist :: l) hfn true) e i1 j2 j3 y ∧
      y.yield = Real.sqrt (2 / 3) * (Real.sqrt (3 * j2) - (Y0 + Yinf * e ^ beta + h * e)) := by
  obtain ⟨y, a, b, c⟩ := mises_consistent
    (yfunc (p0 :: p1 :: p2 :: p3 :: k :: g :: h :: hk :: ty :: Y0 :: Yinf :: beta :: ist :: l) hfn true)
    (fun e => s23 * Y0 + s23 * Yinf * e ^ beta + s23 * h * e)
    (fun e => 2 / 3 * h + s23 * beta * (s23 * Yinf) * e ^ (beta - 1))
    e i1 j2 j3 ((lt_mem_nhds he).mono (by
      intro e he i1 j2 j3
      have h5 : ¬ (e < epsZ ∧ -e < epsZ) := fun h => absurd h.1 (not_lt.2 he.le)
      have h1 : ¬ toInt ty = 1 := by rw [hty]; decide
      have h2 : ¬ toInt ty = 2 := by rw [hty]; decide
      have h3 : ¬ toInt ty = 3 := by rw [hty]; decide
      simp only [yfunc, List.getElem?_cons_succ, List.getElem?_cons_zero, if_neg h1, if_neg h2,
        if_neg h3, if_pos hty, if_neg h5])) hj (by
      have h1 := Real.hasDerivAt_rpow_const (x := e) (p := beta) (Or.inl (lt_trans eps_pos he).ne')
      have h2 := ((h1.const_mul (s23 * Yinf)).const_add (s23 * Y0)).add
        ((hasDerivAt_id e).const_mul (s23 * h))
      refine h2.congr_deriv ?_
      have := s23_sq
      have hp := s23_pos.ne'
      rw [eq_div_iff hp, ← this]
      ring)
  refine ⟨y, a, ?_⟩
  rw [b, ss_mises, show Real.sqrt (2 / 3) = s23 from rfl]
  ring

/-- C22 is violated for the Johnson-Cook criterion without plastic strain: the returned hardening
slope is `H + B epsZ^(n-1)` times 2/3, without the factor `n` of the derivative `n B ε^(n-1)` at
`epsZ`, although the returned yield radius is constant in the neighbourhood; so the slope is not
the derivative of the radius. -/
theorem C22_johnson_violated (l : List ℝ) (hfn : Option ((ℝ → ℝ) × (ℝ → ℝ))) (ty : ℝ)
    (hty : toInt ty = 4) (i1 j2 j3 : ℝ) (hs : h + Yinf * epsZ ^ (beta - 1) ≠ 0) :
    ∀ y, ¬ Consistent (yfunc (p0 :: p1 :: p2 :: p3 :: k :: g :: h :: hk :: ty :: Y0 :: Yinf ::
        beta :: ist :: l) hfn true) 0 i1 j2 j3 y := by
  have h1 : ¬ toInt ty = 1 := by rw [hty]; decide
  have h2 : ¬ toInt ty = 2 := by rw [hty]; decide
  have h3 : ¬ toInt ty = 3 := by rw [hty]; decide
  have hval : ∀ e, |e| < epsZ → yfunc (p0 :: p1 :: p2 :: p3 :: k :: g :: h :: hk :: ty :: Y0 ::
      Yinf :: beta :: ist :: l) hfn true e i1 j2 j3 =
      .ok (misesD true (if j2 > 0 then Real.sqrt (2 * j2) else 0)
        { Ypr := 2 / 3 * h + s23 * (s23 * Yinf) * epsZ ^ (beta - 1), YY := s23 * Y0,
          yield := (if j2 > 0 then Real.sqrt (2 * j2) else 0) - s23 * Y0 }) := by
    intro e he
    have h5 : e < epsZ ∧ -e < epsZ := ⟨(abs_lt.1 he).2, by linarith [(abs_lt.1 he).1]⟩
    simp only [yfunc, List.getElem?_cons_succ, List.getElem?_cons_zero, if_neg h1, if_neg h2,
      if_neg h3, if_pos hty, if_pos h5]
  have hYY : ∀ s (y : Yld), (misesD true s y).YY = y.YY ∧ (misesD true s y).Ypr = y.Ypr := by
    intro s y; unfold misesD; split <;> exact ⟨rfl, rfl⟩
  rintro y ⟨a, -, -, -, -, -, -, -, -, -, hd, -⟩
  rw [hval 0 (by simpa using eps_pos)] at a
  have hy : y.Ypr = 2 / 3 * h + s23 * (s23 * Yinf) * epsZ ^ (beta - 1) := by
    injection a with a; rw [← a, (hYY _ _).2]
  have hev : ∀ᶠ x : ℝ in nhds 0, |0 + Real.sqrt (2 / 3) * x| < epsZ := by
    have hc : Continuous fun x : ℝ => |0 + Real.sqrt (2 / 3) * x| := by fun_prop
    exact hc.tendsto 0 |>.eventually (gt_mem_nhds (by simpa using eps_pos))
  have hc := (hasDerivAt_const (0 : ℝ) (s23 * Y0)).congr_of_eventuallyEq
    (f₁ := fun x => out Yld.YY (yfunc (p0 :: p1 :: p2 :: p3 :: k :: g :: h :: hk :: ty :: Y0 ::
      Yinf :: beta :: ist :: l) hfn true (0 + Real.sqrt (2 / 3) * x) i1 j2 j3))
    (hev.mono fun x hx => by simp only [hval _ hx, out, (hYY _ _).1])
  have := hd.unique hc
  rw [hy, ← mul_assoc, s23_sq] at this
  apply hs
  linarith

/-- C22, hardening curve: with no additional linear hardening modulus the outputs are consistent,
for every differentiable curve; the yield value is `sqrt(2/3)` times `σ_vM - h(ε)`. -/
theorem C22_curve_partial (l : List ℝ) (hc hc' : ℝ → ℝ) (ty : ℝ) (hty : toInt ty = 5)
    (e i1 j2 j3 : ℝ) (hj : epsZ ^ 2 / 2 < j2) (hd : HasDerivAt hc (hc' e) e) :
    ∃ y, Consistent (yfunc (p0 :: p1 :: p2 :: p3 :: k :: g :: 0 :: hk :: ty :: Y0 :: Yinf ::
        beta :: ist :: l) (some (hc, hc')) true) e i1 j2 j3 y ∧
      y.yield = Real.sqrt (2 / 3) * (Real.sqrt (3 * j2) - hc e) := by
  obtain ⟨y, a, b, c⟩ := mises_consistent
    (yfunc (p0 :: p1 :: p2 :: p3 :: k :: g :: 0 :: hk :: ty :: Y0 :: Yinf :: beta :: ist :: l)
      (some (hc, hc')) true)
    (fun e => s23 * hc e) (fun e => 2 / 3 * 0 + 2 / 3 * hc' e)
    e i1 j2 j3 (Filter.Eventually.of_forall (by intro e i1 j2 j3; simp [yfunc, hty])) hj (by
      refine (hd.const_mul s23).congr_deriv ?_
      have hp := s23_pos.ne'
      rw [eq_div_iff hp, ← s23_sq]
      ring)
  refine ⟨y, a, ?_⟩
  rw [b, ss_mises, show Real.sqrt (2 / 3) = s23 from rfl]
  ring

/-- C22 is violated for the hardening curve combined with a linear hardening modulus: the modulus
enters the returned slope but not the returned yield radius. -/
theorem C22_curve_violated (l : List ℝ) (hc hc' : ℝ → ℝ) (ty : ℝ) (hty : toInt ty = 5)
    (e i1 j2 j3 : ℝ) (hd : HasDerivAt hc (hc' e) e) (hh : h ≠ 0) :
    ∀ y, ¬ Consistent (yfunc (p0 :: p1 :: p2 :: p3 :: k :: g :: h :: hk :: ty :: Y0 :: Yinf ::
        beta :: ist :: l) (some (hc, hc')) true) e i1 j2 j3 y := by
  have hval : ∀ e, yfunc (p0 :: p1 :: p2 :: p3 :: k :: g :: h :: hk :: ty :: Y0 ::
      Yinf :: beta :: ist :: l) (some (hc, hc')) true e i1 j2 j3 =
      .ok (misesD true (if j2 > 0 then Real.sqrt (2 * j2) else 0)
        { Ypr := 2 / 3 * h + 2 / 3 * hc' e, YY := s23 * hc e,
          yield := (if j2 > 0 then Real.sqrt (2 * j2) else 0) - s23 * hc e }) := by
    intro e; simp [yfunc, hty]
  have hYY : ∀ s (y : Yld), (misesD true s y).YY = y.YY ∧ (misesD true s y).Ypr = y.Ypr := by
    intro s y; unfold misesD; split <;> exact ⟨rfl, rfl⟩
  rintro y ⟨a, -, -, -, -, -, -, -, -, -, hdY, -⟩
  rw [hval e] at a
  have hy : y.Ypr = 2 / 3 * h + 2 / 3 * hc' e := by
    injection a with a; rw [← a, (hYY _ _).2]
  simp only [hval, out, (hYY _ _).1] at hdY
  have h1 : HasDerivAt (fun x : ℝ => e + Real.sqrt (2 / 3) * x) s23 0 := by
    have := ((hasDerivAt_id (0 : ℝ)).const_mul (Real.sqrt (2 / 3))).const_add e
    simpa [s23] using this
  have h2 : HasDerivAt hc (hc' e) (e + Real.sqrt (2 / 3) * 0) := by simpa using hd
  have := hdY.unique ((h2.comp (0 : ℝ) h1).const_mul s23)
  rw [hy] at this
  have e2 : s23 * (hc' e * s23) = 2 / 3 * hc' e := by rw [← s23_sq]; ring
  rw [e2] at this
  apply hh
  linarith

/-- C22, Voce: consistent derivatives, and the yield value is `sqrt(2/3)` times
`σ_vM - (σ0 + Q1 (1-exp(-C1 ε)) + Q2 (1-exp(-C2 ε)) + H ε)`. -/
theorem C22_voce_partial (l : List ℝ) (hfn : Option ((ℝ → ℝ) × (ℝ → ℝ))) (ty : ℝ) (hty : toInt ty = 6)
    (Q2 C2 : ℝ) (e i1 j2 j3 : ℝ) (hj : epsZ ^ 2 / 2 < j2) :
    ∃ y, Consistent (yfunc (p0 :: p1 :: p2 :: p3 :: k :: g :: h :: hk :: ty :: Y0 :: Yinf ::
        beta :: ist :: Q2 :: C2 :: l) hfn true) e i1 j2 j3 y ∧
      y.yield = Real.sqrt (2 / 3) * (Real.sqrt (3 * j2) - (Y0 + Yinf * (1 - Real.exp (-beta * e)) +
        Q2 * (1 - Real.exp (-C2 * e)) + h * e)) := by
  obtain ⟨y, a, b, c⟩ := mises_consistent
    (yfunc (p0 :: p1 :: p2 :: p3 :: k :: g :: h :: hk :: ty :: Y0 :: Yinf :: beta :: ist :: Q2 ::
      C2 :: l) hfn true)
    (fun e => s23 * Y0 + s23 * Yinf + s23 * Q2 - s23 * Yinf * Real.exp (-beta * e) -
      s23 * Q2 * Real.exp (-C2 * e) + s23 * h * e)
    (fun e => 2 / 3 * h + s23 * (beta * (s23 * Yinf * Real.exp (-beta * e)) +
      C2 * (s23 * Q2 * Real.exp (-C2 * e))))
    e i1 j2 j3 (Filter.Eventually.of_forall (by intro e i1 j2 j3; simp [yfunc, hty])) hj (by
      have h1 : ∀ b : ℝ, HasDerivAt (fun x => Real.exp (-b * x)) (Real.exp (-b * e) * (-b)) e := by
        intro b
        simpa using ((hasDerivAt_id e).const_mul (-b)).exp
      have h2 := ((((h1 beta).const_mul (s23 * Yinf)).const_sub (s23 * Y0 + s23 * Yinf + s23 * Q2)).sub
        ((h1 C2).const_mul (s23 * Q2))).add ((hasDerivAt_id e).const_mul (s23 * h))
      refine h2.congr_deriv ?_
      have := s23_sq
      have hp := s23_pos.ne'
      rw [eq_div_iff hp, ← this]
      ring)
  refine ⟨y, a, ?_⟩
  rw [b, ss_mises, show Real.sqrt (2 / 3) = s23 from rfl]
  ring

/-- C22 is violated for the Voce criterion with fewer than thirteen parameters in the keyword input:
the constructor only completes the list to eleven, and the yield function then reads outside of
the array. -/
theorem C22_voce_violated (hfn : Option ((ℝ → ℝ) × (ℝ → ℝ))) (lIter : Bool) (ty : ℝ)
    (hty : toInt ty = 6) (q : List ℝ) (hq : q.length ≤ 1) (e i1 j2 j3 : ℝ) :
    yfunc (p0 :: p1 :: p2 :: p3 :: k :: g :: h :: hk :: ty :: Y0 :: Yinf :: beta :: ist :: q) hfn
      lIter e i1 j2 j3 = .ub := by
  have : q[1]? = none := List.getElem?_eq_none hq
  simp [yfunc, hty, this]

/-- C22, the check for yielding: for every criterion but Prager-Lode the value inspected by the
check is the value which the return mapping drives to zero. -/
theorem C22_check_partial (p : List ℝ) (hfn : Option ((ℝ → ℝ) × (ℝ → ℝ))) (ty : ℝ)
    (hp : p[8]? = some ty) (hty : toInt ty ≠ 3) (e i1 j2 j3 : ℝ) (y : Yld)
    (h : yfunc p hfn true e i1 j2 j3 = .ok y) :
    ∃ y', yfunc p hfn false e i1 j2 j3 = .ok y' ∧ y'.yield = y.yield ∧ y'.YY = y.YY ∧
      y'.Ypr = y.Ypr := by
  have hm : ∀ b s (y : Yld), (misesD b s y).yield = y.yield ∧ (misesD b s y).YY = y.YY ∧
      (misesD b s y).Ypr = y.Ypr := by
    intro b s y; unfold misesD; split <;> exact ⟨rfl, rfl, rfl⟩
  unfold yfunc at h ⊢
  rw [hp] at h ⊢
  split at h
  · rename_i a1 a2 a3 a4 a5
    injection a2 with a2
    subst a2
    simp only [a1, a3, a4, a5]
    simp only [if_neg hty] at h ⊢
    by_cases c1 : toInt ty = 1
    · rw [if_pos c1] at h ⊢
      injection h with h; subst h
      refine ⟨_, rfl, ?_, ?_, ?_⟩ <;> simp only [hm]
    rw [if_neg c1] at h ⊢
    by_cases c2 : toInt ty = 2
    · rw [if_pos c2] at h ⊢
      injection h with h; subst h
      refine ⟨_, rfl, ?_, ?_, ?_⟩ <;> simp only [hm, if_true, Bool.false_eq_true, if_false]
    rw [if_neg c2] at h ⊢
    by_cases c4 : toInt ty = 4
    · rw [if_pos c4] at h ⊢
      split at h
      · rename_i c; rw [if_pos c]
        injection h with h; subst h
        refine ⟨_, rfl, ?_, ?_, ?_⟩ <;> simp only [hm]
      · rename_i c; rw [if_neg c]
        injection h with h; subst h
        refine ⟨_, rfl, ?_, ?_, ?_⟩ <;> simp only [hm]
    rw [if_neg c4] at h ⊢
    by_cases c5 : toInt ty = 5
    · rw [if_pos c5] at h ⊢
      cases hfn with
      | none => exact absurd h (by simp)
      | some f =>
        injection h with h; subst h
        refine ⟨_, rfl, ?_, ?_, ?_⟩ <;> simp only [hm]
    rw [if_neg c5] at h ⊢
    by_cases c6 : toInt ty = 6
    · rw [if_pos c6] at h ⊢
      rcases h13 : p[13]? with _ | q <;> rcases h14 : p[14]? with _ | c <;> simp only [h13, h14] at h
      all_goals injection h
      rename_i h
      subst h
      refine ⟨_, rfl, ?_, ?_, ?_⟩ <;> simp only [hm]
    rw [if_neg c6] at h
    exact absurd h (by simp)
  · exact absurd h (by simp)

/-- C22: an unknown criterion, or a hardening curve which is not given, is reported as failure. -/
theorem C22_reject (l : List ℝ) (lIter : Bool) (ty : ℝ)
    (hty : toInt ty = 5 ∨ toInt ty < 1 ∨ 6 < toInt ty) (e i1 j2 j3 : ℝ) :
    yfunc (p0 :: p1 :: p2 :: p3 :: k :: g :: h :: hk :: ty :: Y0 :: Yinf :: beta :: ist :: l) none
      lIter e i1 j2 j3 = .fail := by
  simp only [yfunc, List.getElem?_cons_succ, List.getElem?_cons_zero]
  rw [if_neg (by omega), if_neg (by omega), if_neg (by omega), if_neg (by omega)]
  split
  · rfl
  · rw [if_neg (by omega)]

/-- The hypotheses hold for a von Mises stress of 3 and each type. -/
example : epsZ ^ 2 / 2 < (3 : ℝ) ∧ epsZ < (3 : ℝ) ∧ toInt 1 = 1 ∧ toInt 2 = 2 ∧ toInt 3 = 3 ∧
    toInt 4 = 4 ∧ toInt 5 = 5 ∧ toInt 6 = 6 ∧ toInt 7 = 7 := by
  refine ⟨by unfold epsZ; norm_num, by unfold epsZ; norm_num, ?_, ?_, ?_, ?_, ?_, ?_, ?_⟩ <;>
    · unfold toInt; rw [if_pos (by norm_num)]; norm_num [Int.floor_eq_iff]

/-- The Johnson-Cook condition holds for every `H`, `B ≥ 0`, not both zero. -/
example (H B n : ℝ) (hH : 0 ≤ H) (hB : 0 < B) : H + B * epsZ ^ (n - 1) ≠ 0 := by
  have := Real.rpow_pos_of_pos eps_pos (n - 1)
  have := mul_pos hB this
  linarith

end Verif.Plastic
