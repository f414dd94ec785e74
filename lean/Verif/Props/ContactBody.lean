/-
C37: gap, normal vector and curvature of the rigid bodies. C38: the weights of the rigid plane.
-/
import Verif.Model.Contact
import Mathlib.Analysis.Calculus.Deriv.Add
import Mathlib.Analysis.Calculus.Deriv.Mul
import Mathlib.Analysis.Calculus.Deriv.Inv
import Mathlib.Analysis.Calculus.Deriv.Pow
import Mathlib.Analysis.SpecialFunctions.Sqrt
import Mathlib.Tactic.Linarith
import Mathlib.Tactic.NormNum
import Mathlib.Tactic.Ring
import Mathlib.Tactic.FieldSimp
import Mathlib.Tactic.Positivity
import Mathlib.Tactic.FinCases
import Mathlib.Tactic.LinearCombination

set_option linter.unusedSectionVars false
set_option linter.unnecessarySeqFocus false
set_option linter.unusedSimpArgs false
set_option linter.unusedVariables false

namespace Verif.Contact

theorem dot_self_nonneg (a : V3) : 0 ≤ dot a a := by
  unfold dot; nlinarith [mul_self_nonneg (a 0), mul_self_nonneg (a 1), mul_self_nonneg (a 2)]

theorem len_sq (a : V3) : len a * len a = dot a a := Real.mul_self_sqrt (dot_self_nonneg a)

theorem len_nonneg (a : V3) : 0 ≤ len a := Real.sqrt_nonneg _

theorem len_ne_zero {a : V3} : len a ≠ 0 ↔ a ≠ 0 := by
  constructor
  · rintro h rfl
    apply h
    simp [len, dot]
  · intro h h'
    apply h
    have : dot a a = 0 := by rw [← len_sq, h', mul_zero]
    unfold dot at this
    have h0 : a 0 = 0 := by nlinarith [mul_self_nonneg (a 0), mul_self_nonneg (a 1), mul_self_nonneg (a 2)]
    have h1 : a 1 = 0 := by nlinarith [mul_self_nonneg (a 0), mul_self_nonneg (a 1), mul_self_nonneg (a 2)]
    have h2 : a 2 = 0 := by nlinarith [mul_self_nonneg (a 0), mul_self_nonneg (a 1), mul_self_nonneg (a 2)]
    ext i; fin_cases i <;> assumption

/-- A curve of vectors with derivative `v` at zero. -/
def HasDer (f : ℝ → V3) (v : V3) : Prop := ∀ i, HasDerivAt (fun t => f t i) (v i) 0

theorem hasDer_dot {f g : ℝ → V3} {v w a b : V3} (hf : HasDer f v) (hg : HasDer g w) (ea : f 0 = a)
    (eb : g 0 = b) : HasDerivAt (fun t => dot (f t) (g t)) (dot v b + dot a w) 0 := by
  subst ea eb
  have h := (((hf 0).mul (hg 0)).add ((hf 1).mul (hg 1))).add ((hf 2).mul (hg 2))
  refine h.congr_deriv ?_
  unfold dot; ring

theorem hasDer_len {f : ℝ → V3} {v d : V3} (hf : HasDer f v) (ed : f 0 = d) (h0 : d ≠ 0) :
    HasDerivAt (fun t => len (f t)) (dot ((len d)⁻¹ • d) v) 0 := by
  subst ed
  have hl := len_ne_zero.mpr h0
  have hd : dot (f 0) (f 0) ≠ 0 := by rw [← len_sq]; exact mul_ne_zero hl hl
  have h := (hasDer_dot hf hf rfl rfl).sqrt hd
  refine h.congr_deriv ?_
  show _ / (2 * len (f 0)) = _
  have e : dot ((len (f 0))⁻¹ • f 0) v = (len (f 0))⁻¹ * dot (f 0) v := by
    simp only [dot, Pi.smul_apply, smul_eq_mul]; ring
  rw [e]
  have e2 : dot v (f 0) = dot (f 0) v := by unfold dot; ring
  rw [e2]
  field_simp
  ring

theorem hasDer_unit {f : ℝ → V3} {v d : V3} (hf : HasDer f v) (ed : f 0 = d) (h0 : d ≠ 0) (i : Fin 3) :
    HasDerivAt (fun t : ℝ => ((len (f t))⁻¹ • f t) i)
      ((v i - dot ((len d)⁻¹ • d) v * ((len d)⁻¹ • d) i) / len d) 0 := by
  subst ed
  have hl := len_ne_zero.mpr h0
  have h := ((hasDer_len hf rfl h0).inv hl).mul (hf i)
  refine h.congr_deriv ?_
  simp only [Pi.smul_apply, smul_eq_mul, Pi.inv_apply]
  field_simp
  ring

theorem hasDer_line (x c v : V3) : HasDer (fun t => x + t • v - c) v := by
  intro i
  have h : HasDerivAt (fun t : ℝ => x i + t * v i - c i) (1 * v i) 0 :=
    (((hasDerivAt_id (0 : ℝ)).mul_const (v i)).const_add (x i)).sub_const (c i)
  simpa using h

/-- C37, sphere: at every point off the centre the derivative of the gap in any direction is the component along the
normal vector, which has unit length, and the derivative of the normal vector is the geometric stiffness. -/
theorem C37_sphere (c : V3) (R : ℝ) (X v : V3) (h : X ≠ c) :
    HasDerivAt (fun t : ℝ => (sphereGap c R (X + t • v)).gap) (dot (sphereGap c R X).nrm v) 0 ∧
    dot (sphereGap c R X).nrm (sphereGap c R X).nrm = 1 ∧
    ∀ i, HasDerivAt (fun t : ℝ => (sphereGap c R (X + t • v)).nrm i) (∑ j, sphereTg c X i j * v j) 0 := by
  have h0 : X - c ≠ 0 := sub_ne_zero.mpr h
  have hf := hasDer_line X c v
  have e0 : X + (0 : ℝ) • v - c = X - c := by simp
  have hl := len_ne_zero.mpr h0
  refine ⟨?_, ?_, fun i => ?_⟩
  · have := hasDer_len hf e0 h0
    exact this.sub_const R
  · show dot ((len (X - c))⁻¹ • (X - c)) ((len (X - c))⁻¹ • (X - c)) = 1
    have e : dot ((len (X - c))⁻¹ • (X - c)) ((len (X - c))⁻¹ • (X - c))
        = (len (X - c))⁻¹ * (len (X - c))⁻¹ * dot (X - c) (X - c) := by
      simp only [dot, Pi.smul_apply, smul_eq_mul]; ring
    rw [e, ← len_sq]; field_simp
  · have := hasDer_unit hf e0 h0 i
    refine this.congr_deriv ?_
    simp only [sphereTg, Fin.sum_univ_three]
    generalize (len (X - c))⁻¹ • (X - c) = n
    rw [div_mul_eq_mul_div, div_mul_eq_mul_div, div_mul_eq_mul_div, ← add_div, ← add_div]
    congr 1
    unfold dot
    fin_cases i <;> simp <;> ring

/-- C37, the gap of the sphere follows the body: moving the sphere by `v` changes the gap by minus the normal
component of `v`, in agreement with the weight one of its single master point. -/
theorem C37_sphere_moved (c : V3) (R : ℝ) (X v : V3) (h : X ≠ c) :
    HasDerivAt (fun t : ℝ => (sphereGap (c + t • v) R X).gap) (-dot (sphereGap c R X).nrm v) 0 ∧
    (sphereGap c R X).N = [1] := by
  refine ⟨?_, rfl⟩
  have e : (fun t : ℝ => (sphereGap (c + t • v) R X).gap) = fun t => (sphereGap c R (X + t • (-v))).gap := by
    funext t
    simp only [sphereGap]
    congr 2
    ext i; simp; ring
  rw [e]
  refine (C37_sphere c R X (-v) h).1.congr_deriv ?_
  unfold dot; simp; ring

theorem hasDer_proj {f : ℝ → V3} {v : V3} (hf : HasDer f v) (a : V3) :
    HasDer (fun t => f t - dot (f t) a • a) (v - dot v a • a) := by
  intro i
  have ha : HasDer (fun _ => a) 0 := fun i => by simpa using hasDerivAt_const (0 : ℝ) (a i)
  have h := (hf i).sub ((hasDer_dot hf ha rfl rfl).mul_const (a i))
  refine h.congr_deriv ?_
  simp [dot]

/-- C37, cylinder with unit axis direction `a`: at every point off the axis. -/
theorem C37_cylinder (threeD : Bool) (x0 a : V3) (L R : ℝ) (X v : V3) (ha : dot a a = 1)
    (h : X - x0 ≠ dot (X - x0) a • a) :
    HasDerivAt (fun t : ℝ => (cylGap threeD x0 a L R (X + t • v)).gap)
      (dot (cylGap threeD x0 a L R X).nrm v) 0 ∧
    dot (cylGap threeD x0 a L R X).nrm (cylGap threeD x0 a L R X).nrm = 1 ∧
    dot (cylGap threeD x0 a L R X).nrm a = 0 ∧
    ∀ i, HasDerivAt (fun t : ℝ => (cylGap threeD x0 a L R (X + t • v)).nrm i)
      (∑ j, cylTg x0 a X i j * v j) 0 := by
  have h0 : X - x0 - dot (X - x0) a • a ≠ 0 := sub_ne_zero.mpr h
  have hf := hasDer_proj (hasDer_line X x0 v) a
  have e0 : X + (0 : ℝ) • v - x0 - dot (X + (0 : ℝ) • v - x0) a • a
      = X - x0 - dot (X - x0) a • a := by simp
  have hl := len_ne_zero.mpr h0
  have hperp : dot (X - x0 - dot (X - x0) a • a) a = 0 := by
    have : dot (X - x0 - dot (X - x0) a • a) a = dot (X - x0) a - dot (X - x0) a * dot a a := by
      simp only [dot, Pi.sub_apply, Pi.smul_apply, smul_eq_mul]; ring
    rw [this, ha]; ring
  have hn : dot ((len (X - x0 - dot (X - x0) a • a))⁻¹ • (X - x0 - dot (X - x0) a • a)) a = 0 := by
    have : ∀ (s : ℝ) (n : V3), dot (s • n) a = s * dot n a := by
      intro s n; simp only [dot, Pi.smul_apply, smul_eq_mul]; ring
    rw [this, hperp, mul_zero]
  have key : dot ((len (X - x0 - dot (X - x0) a • a))⁻¹ • (X - x0 - dot (X - x0) a • a)) (v - dot v a • a)
      = dot ((len (X - x0 - dot (X - x0) a • a))⁻¹ • (X - x0 - dot (X - x0) a • a)) v := by
    have : ∀ n : V3, dot n (v - dot v a • a) = dot n v - dot v a * dot n a := by
      intro n; simp only [dot, Pi.sub_apply, Pi.smul_apply, smul_eq_mul]; ring
    rw [this, hn]; ring
  refine ⟨?_, ?_, hn, fun i => ?_⟩
  · have := hasDer_len hf e0 h0
    rw [key] at this
    exact this.sub_const R
  · show dot ((len (X - x0 - dot (X - x0) a • a))⁻¹ • (X - x0 - dot (X - x0) a • a))
      ((len (X - x0 - dot (X - x0) a • a))⁻¹ • (X - x0 - dot (X - x0) a • a)) = 1
    generalize X - x0 - dot (X - x0) a • a = d at hl
    have e : dot ((len d)⁻¹ • d) ((len d)⁻¹ • d) = (len d)⁻¹ * (len d)⁻¹ * dot d d := by
      simp only [dot, Pi.smul_apply, smul_eq_mul]; ring
    rw [e, ← len_sq]; field_simp
  · have := hasDer_unit hf e0 h0 i
    rw [key] at this
    refine this.congr_deriv ?_
    simp only [cylTg, Fin.sum_univ_three]
    generalize (len (X - x0 - dot (X - x0) a • a))⁻¹ • (X - x0 - dot (X - x0) a • a) = n
    rw [div_mul_eq_mul_div, div_mul_eq_mul_div, div_mul_eq_mul_div, ← add_div, ← add_div]
    congr 1
    unfold dot
    fin_cases i <;> simp <;> ring

/-- C37, the gap of the cylinder follows the body: moving the two points of the axis by `v0` and `v1` changes the gap
by minus the normal component of their weighted sum, the weights being those returned with the gap. -/
theorem C37_cylinder_moved (x0 x1 : V3) (R : ℝ) (X v0 v1 : V3) (hx : x1 ≠ x0)
    (h : X - x0 ≠ dot (X - x0) (cylAxis x0 x1) • cylAxis x0 x1) :
    ∃ w0 w1, (cylGap true x0 (cylAxis x0 x1) (len (x1 - x0)) R X).N = [w0, w1] ∧ w0 + w1 = 1 ∧
      HasDerivAt (fun t : ℝ => (cylGap true (x0 + t • v0) (cylAxis (x0 + t • v0) (x1 + t • v1))
          (len (x1 + t • v1 - (x0 + t • v0))) R X).gap)
        (-dot (cylGap true x0 (cylAxis x0 x1) (len (x1 - x0)) R X).nrm (w0 • v0 + w1 • v1)) 0 := by
  refine ⟨_, _, rfl, by ring, ?_⟩
  have hb : x1 - x0 ≠ 0 := sub_ne_zero.mpr hx
  have hL := len_ne_zero.mpr hb
  -- the curves
  have hd : HasDer (fun t : ℝ => X - (x0 + t • v0)) (-v0) := by
    intro i
    have h : HasDerivAt (fun t : ℝ => X i - (x0 i + t * v0 i)) (-(1 * v0 i)) 0 :=
      (((hasDerivAt_id (0 : ℝ)).mul_const (v0 i)).const_add (x0 i)).const_sub (X i)
    simpa using h
  have hbd : HasDer (fun t : ℝ => x1 + t • v1 - (x0 + t • v0)) (v1 - v0) := by
    intro i
    have h : HasDerivAt (fun t : ℝ => x1 i + t * v1 i - (x0 i + t * v0 i)) (1 * v1 i - 1 * v0 i) 0 :=
      (((hasDerivAt_id (0 : ℝ)).mul_const (v1 i)).const_add (x1 i)).sub
        (((hasDerivAt_id (0 : ℝ)).mul_const (v0 i)).const_add (x0 i))
    simpa using h
  have hb0 : x1 + (0 : ℝ) • v1 - (x0 + (0 : ℝ) • v0) = x1 - x0 := by simp
  have hd0 : X - (x0 + (0 : ℝ) • v0) = X - x0 := by simp
  have hu : HasDer (fun t : ℝ => cylAxis (x0 + t • v0) (x1 + t • v1)) (fun i =>
      ((v1 - v0) i - dot (cylAxis x0 x1) (v1 - v0) * cylAxis x0 x1 i) / len (x1 - x0)) := by
    intro i
    exact hasDer_unit hbd hb0 hb i
  have hu0 : cylAxis (x0 + (0 : ℝ) • v0) (x1 + (0 : ℝ) • v1) = cylAxis x0 x1 := by simp
  have haa : dot (cylAxis x0 x1) (cylAxis x0 x1) = 1 := by
    unfold cylAxis
    generalize x1 - x0 = d at hL
    have e : dot ((len d)⁻¹ • d) ((len d)⁻¹ • d) = (len d)⁻¹ * (len d)⁻¹ * dot d d := by
      simp only [dot, Pi.smul_apply, smul_eq_mul]; ring
    rw [e, ← len_sq]; field_simp
  generalize hA : cylAxis x0 x1 = a at *
  generalize hLe : len (x1 - x0) = L at *
  generalize hD : X - x0 = d at *
  -- the vector from the axis
  have hz := hasDer_dot hd hu hd0 hu0
  have hn : HasDer (fun t : ℝ => X - (x0 + t • v0) - dot (X - (x0 + t • v0))
      (cylAxis (x0 + t • v0) (x1 + t • v1)) • cylAxis (x0 + t • v0) (x1 + t • v1))
      (fun i => (-v0) i - ((dot (-v0) a + dot d fun i => ((v1 - v0) i - dot a (v1 - v0) * a i) / L) * a i
        + dot d a * (((v1 - v0) i - dot a (v1 - v0) * a i) / L))) := by
    intro i
    have := (hd i).sub (hz.mul (hu i))
    refine this.congr_deriv ?_
    simp only [hd0, hu0]
  have hn0 : X - (x0 + (0 : ℝ) • v0) - dot (X - (x0 + (0 : ℝ) • v0))
      (cylAxis (x0 + (0 : ℝ) • v0) (x1 + (0 : ℝ) • v1)) • cylAxis (x0 + (0 : ℝ) • v0) (x1 + (0 : ℝ) • v1)
      = d - dot d a • a := by
    rw [hd0, hu0]
  have h0 : d - dot d a • a ≠ 0 := sub_ne_zero.mpr h
  have hl := hasDer_len hn hn0 h0
  refine (hl.sub_const R).congr_deriv ?_
  have hnrm : (cylGap true x0 a L R X).nrm = (len (d - dot d a • a))⁻¹ • (d - dot d a • a) := by
    simp only [cylGap, hD]
  rw [hnrm]
  have hperp : dot (d - dot d a • a) a = 0 := by
    have : dot (d - dot d a • a) a = dot d a - dot d a * dot a a := by
      simp only [dot, Pi.sub_apply, Pi.smul_apply, smul_eq_mul]; ring
    rw [this, haa]; ring
  have hs : ∀ (s : ℝ) (n w : V3), dot (s • n) w = s * dot n w := by
    intro s n w; simp only [dot, Pi.smul_apply, smul_eq_mul]; ring
  rw [hs, hs, ← mul_neg]
  congr 1
  generalize hzz : dot d a = z at *
  generalize hnn : d - z • a = n at *
  generalize (dot (-v0) a + dot d fun i => ((v1 - v0) i - dot a (v1 - v0) * a i) / L) = q
  generalize dot a (v1 - v0) = r
  have e : dot n (fun i => (-v0) i - (q * a i + z * (((v1 - v0) i - r * a i) / L)))
      = -dot n v0 - q * dot n a - z * ((dot n v1 - dot n v0) - r * dot n a) / L := by
    simp only [dot, Pi.sub_apply, Pi.neg_apply]; ring
  rw [e, hperp]
  have e2 : dot n ((1 - z / L) • v0 + (z / L) • v1) = (1 - z / L) * dot n v0 + z / L * dot n v1 := by
    simp only [dot, Pi.add_apply, Pi.smul_apply, smul_eq_mul]; ring
  rw [e2]; ring

/-! ### The plane -/

theorem len_smul (s : ℝ) (a : V3) : len (s • a) = |s| * len a := by
  unfold len
  have : dot (s • a) (s • a) = s ^ 2 * dot a a := by
    simp only [dot, Pi.smul_apply, smul_eq_mul]; ring
  rw [this, Real.sqrt_mul (sq_nonneg s), Real.sqrt_sq_eq_abs]

theorem unit_normal (m : V3) (h : len m ≠ 0) : dot ((len m)⁻¹ • m) ((len m)⁻¹ • m) = 1 := by
  have e : dot ((len m)⁻¹ • m) ((len m)⁻¹ • m) = (len m)⁻¹ * (len m)⁻¹ * dot m m := by
    simp only [dot, Pi.smul_apply, smul_eq_mul]; ring
  rw [e, ← len_sq]; field_simp

/-- What a successful update of the plane gives: a unit normal vector orthogonal to the plane. -/
theorem plane_normal (threeD : Bool) (x0 x1 x2 n : V3) (area : ℝ)
    (h : planeUpdate threeD x0 x1 x2 = some (n, area)) (hz : threeD = false → x1 2 = x0 2) :
    dot n n = 1 ∧ dot n (x1 - x0) = 0 ∧ (threeD = true → dot n (x2 - x0) = 0) := by
  unfold planeUpdate at h
  cases threeD with
  | true =>
    simp only [if_true] at h
    split_ifs at h with hl
    simp only [Option.some.injEq, Prod.mk.injEq] at h
    obtain ⟨rfl, rfl⟩ := h
    push Not at hl
    have hs : ∀ (s : ℝ) (n w : V3), dot (s • n) w = s * dot n w := by
      intro s n w; simp only [dot, Pi.smul_apply, smul_eq_mul]; ring
    refine ⟨unit_normal _ hl.ne', ?_, fun _ => ?_⟩
    · rw [hs]
      have : dot (cross (x1 - x0) (x2 - x0)) (x1 - x0) = 0 := by
        simp [dot, cross]; ring
      rw [this, mul_zero]
    · rw [hs]
      have : dot (cross (x1 - x0) (x2 - x0)) (x2 - x0) = 0 := by
        simp [dot, cross]; ring
      rw [this, mul_zero]
  | false =>
    simp only [Bool.false_eq_true, if_false] at h
    split_ifs at h with hl
    simp only [Option.some.injEq, Prod.mk.injEq] at h
    obtain ⟨rfl, rfl⟩ := h
    push Not at hl
    have h2 : (x1 - x0) 2 = 0 := by simp [hz rfl]
    have hsq := len_sq (x1 - x0)
    generalize x1 - x0 = t at *
    generalize len t = L at *
    refine ⟨?_, ?_, fun h => by simp at h⟩
    · unfold dot at hsq ⊢
      rw [h2] at hsq
      have : L ≠ 0 := hl.ne'
      simp only [Matrix.cons_val_zero, Matrix.cons_val_one, Matrix.cons_val_two, Matrix.tail_cons,
        Matrix.head_cons, Matrix.cons_val]
      field_simp
      linarith
    · unfold dot
      simp [h2]; ring

/-- C37, plane: the derivative of the gap is the component along the normal vector, which is of unit length and does
not change, in agreement with the absence of a geometric stiffness. -/
theorem C37_plane (threeD : Bool) (x0 x1 x2 n : V3) (area : ℝ)
    (h : planeUpdate threeD x0 x1 x2 = some (n, area)) (hz : threeD = false → x1 2 = x0 2) (X v : V3) :
    HasDerivAt (fun t : ℝ => (planeGap threeD x0 x1 x2 n area (X + t • v)).gap)
      (dot (planeGap threeD x0 x1 x2 n area X).nrm v) 0 ∧
    dot (planeGap threeD x0 x1 x2 n area X).nrm (planeGap threeD x0 x1 x2 n area X).nrm = 1 ∧
    ∀ i, HasDerivAt (fun t : ℝ => (planeGap threeD x0 x1 x2 n area (X + t • v)).nrm i) 0 0 := by
  obtain ⟨h1, -, -⟩ := plane_normal threeD x0 x1 x2 n area h hz
  refine ⟨?_, h1, fun i => hasDerivAt_const _ _⟩
  have hc : HasDer (fun _ => n) 0 := fun i => by simpa using hasDerivAt_const (0 : ℝ) (n i)
  have := hasDer_dot (hasDer_line X x0 v) hc rfl rfl
  refine this.congr_deriv ?_
  show _ = dot n v
  simp only [dot, Pi.zero_apply]; ring

/-- C38: the weights always sum to one. -/
theorem C38_sum (threeD : Bool) (x0 x1 x2 n : V3) (area : ℝ) (X : V3) :
    (planeGap threeD x0 x1 x2 n area X).N.sum = 1 := by
  unfold planeGap
  cases threeD <;> simp

theorem foot_plane (x0 x1 x2 n : V3) (area : ℝ)
    (h : planeUpdate false x0 x1 x2 = some (n, area)) (h1 : x1 2 = x0 2) (X : V3) (hX : X 2 = x0 2) :
    ∃ s, X - x0 - dot (X - x0) n • n = s • (x1 - x0) ∧ s * (area * area) = dot (X - x0) (x1 - x0) ∧ 0 < area
      ∧ len (x1 - x0) = area := by
  unfold planeUpdate at h
  simp only [Bool.false_eq_true, if_false] at h
  split_ifs at h with hl
  simp only [Option.some.injEq, Prod.mk.injEq] at h
  obtain ⟨rfl, rfl⟩ := h
  push Not at hl
  have t2 : (x1 - x0) 2 = 0 := by simp [h1]
  have d2 : (X - x0) 2 = 0 := by simp [hX]
  have hsq := len_sq (x1 - x0)
  generalize x1 - x0 = t at *
  generalize X - x0 = d at *
  generalize len t = L at *
  have hL : L ≠ 0 := hl.ne'
  have hsq' : t 0 * t 0 + t 1 * t 1 = L * L := by
    rw [hsq]; unfold dot; rw [t2]; ring
  refine ⟨dot d t / (L * L), ?_, by field_simp, hl, rfl⟩
  ext i
  fin_cases i
  · simp only [dot, d2, t2]
    simp
    field_simp
    rw [show L ^ 2 = t 0 * t 0 + t 1 * t 1 by rw [hsq']; ring]
    ring
  · simp only [dot, d2, t2]
    simp
    field_simp
    rw [show L ^ 2 = t 0 * t 0 + t 1 * t 1 by rw [hsq']; ring]
    ring
  · simp [d2, t2]

/-- C38, two dimensions: the weights reproduce the contact point, and hence force and moment, if the contact point is
on the same side of the first master point as the second one. Not covered: the other side, see
`C38_plane_violated`. -/
theorem C38_plane_partial (x0 x1 x2 n : V3) (area : ℝ)
    (h : planeUpdate false x0 x1 x2 = some (n, area)) (h1 : x1 2 = x0 2) (X : V3) (hX : X 2 = x0 2)
    (hs : 0 ≤ dot (X - x0) (x1 - x0)) :
    ∃ N0 N1, (planeGap false x0 x1 x2 n area X).N = [N0, N1] ∧ N0 + N1 = 1 ∧
      N0 • x0 + N1 • x1 = X - (planeGap false x0 x1 x2 n area X).gap • n ∧
      ∀ f : V3, cross x0 (N0 • f) + cross x1 (N1 • f)
        = cross (X - (planeGap false x0 x1 x2 n area X).gap • n) f := by
  obtain ⟨s, e, es, ha, hlen⟩ := foot_plane x0 x1 x2 n area h h1 X hX
  refine ⟨_, _, rfl, by ring, ?_⟩
  have hs0 : 0 ≤ s := by
    rw [← es] at hs
    exact nonneg_of_mul_nonneg_left hs (mul_pos ha ha)
  have hxi : len (X - x0 - dot (X - x0) n • n) / area = s := by
    rw [e, len_smul, hlen, abs_of_nonneg hs0]; field_simp
  rw [hxi]
  have foot : (1 - s) • x0 + s • x1 = X - (planeGap false x0 x1 x2 n area X).gap • n := by
    show _ = X - dot (X - x0) n • n
    have : X - dot (X - x0) n • n = x0 + s • (x1 - x0) := by rw [← e]; abel
    rw [this]
    ext i; simp; ring
  refine ⟨foot, fun f => ?_⟩
  rw [← foot]
  ext i
  fin_cases i <;> simp [cross] <;> ring

/-- C38 is violated in two dimensions: for a contact point on the other side of the first master point the weights
reproduce its mirror image, although they sum to one. -/
theorem C38_plane_violated : ∃ (x0 x1 x2 n X : V3) (area N0 N1 : ℝ),
    planeUpdate false x0 x1 x2 = some (n, area) ∧
    (planeGap false x0 x1 x2 n area X).N = [N0, N1] ∧
    (planeGap false x0 x1 x2 n area X).gap = 0 ∧ N0 • x0 + N1 • x1 ≠ X := by
  have hl : len ((![1, 0, 0] : V3) - 0) = 1 := by simp [len, dot]
  refine ⟨0, ![1, 0, 0], 0, ![0, 1, 0], ![-1, 0, 0], 1, 0, 1, ?_, ?_, ?_, ?_⟩
  · unfold planeUpdate
    simp only [Bool.false_eq_true, if_false, hl]
    rw [if_neg (by norm_num)]
    simp
  · unfold planeGap
    simp [dot, len]
  · simp [planeGap, dot]
  · intro h
    have := congrFun h 0
    simp at this
    norm_num at this

theorem cross_len (x0 x1 x2 n : V3) (area : ℝ) (h : planeUpdate true x0 x1 x2 = some (n, area)) :
    0 < area ∧ len (cross (x1 - x0) (x2 - x0)) = area := by
  unfold planeUpdate at h
  simp only [if_true] at h
  split_ifs at h with hl
  simp only [Option.some.injEq, Prod.mk.injEq] at h
  obtain ⟨-, rfl⟩ := h
  exact ⟨not_le.mp hl, rfl⟩

/-- Every point is the sum of a point in the plane and a multiple of the normal vector. -/
theorem plane_coordinates (x0 x1 x2 n : V3) (area : ℝ)
    (h : planeUpdate true x0 x1 x2 = some (n, area)) (X : V3) :
    ∃ a b g : ℝ, X = x0 + a • (x1 - x0) + b • (x2 - x0) + g • n := by
  obtain ⟨ha, hl⟩ := cross_len x0 x1 x2 n area h
  unfold planeUpdate at h
  simp only [if_true] at h
  split_ifs at h with hl'
  simp only [Option.some.injEq, Prod.mk.injEq] at h
  obtain ⟨rfl, -⟩ := h
  rw [hl]
  have hm := len_sq (cross (x1 - x0) (x2 - x0))
  rw [hl] at hm
  have hX : X = x0 + (X - x0) := by abel
  generalize X - x0 = d at hX
  subst hX
  generalize x1 - x0 = t1 at *
  generalize x2 - x0 = t2 at *
  have hmm : dot (cross t1 t2) (cross t1 t2) ≠ 0 := by rw [← hm]; exact (mul_pos ha ha).ne'
  refine ⟨dot (cross d t2) (cross t1 t2) / dot (cross t1 t2) (cross t1 t2),
    dot (cross t1 d) (cross t1 t2) / dot (cross t1 t2) (cross t1 t2),
    dot d (cross t1 t2) / dot (cross t1 t2) (cross t1 t2) * area, ?_⟩
  have hid : dot (cross t1 t2) (cross t1 t2) • d = dot (cross d t2) (cross t1 t2) • t1
      + dot (cross t1 d) (cross t1 t2) • t2 + dot d (cross t1 t2) • cross t1 t2 := by
    ext i
    fin_cases i <;> simp [dot, cross] <;> ring
  ext i
  have hi := congrFun hid i
  simp only [Pi.add_apply, Pi.smul_apply, smul_eq_mul] at hi ⊢
  have hA := ha.ne'
  field_simp
  linear_combination hi

/-- C38, three dimensions: the weights computed for the contact point with area coordinates `a` and `b` of the second and
third master point are `|b|` and `|a|`, so that the contact point is reproduced exactly if `a = b ≥ 0`. -/
theorem C38_solid_partial (x0 x1 x2 n : V3) (area : ℝ)
    (h : planeUpdate true x0 x1 x2 = some (n, area)) (a b g : ℝ) :
    ∃ N0 N1 N2, (planeGap true x0 x1 x2 n area (x0 + a • (x1 - x0) + b • (x2 - x0) + g • n)).N = [N0, N1, N2] ∧
      N1 = |b| ∧ N2 = |a| ∧ N0 + N1 + N2 = 1 ∧
      (planeGap true x0 x1 x2 n area (x0 + a • (x1 - x0) + b • (x2 - x0) + g • n)).gap = g ∧
      (N0 • x0 + N1 • x1 + N2 • x2 = x0 + a • (x1 - x0) + b • (x2 - x0) ↔ a = b ∧ 0 ≤ a) := by
  obtain ⟨ha, hl⟩ := cross_len x0 x1 x2 n area h
  obtain ⟨n1, n2, n3⟩ := plane_normal true x0 x1 x2 n area h (by simp)
  have n3 := n3 rfl
  have hd : x0 + a • (x1 - x0) + b • (x2 - x0) + g • n - x0 = a • (x1 - x0) + b • (x2 - x0) + g • n := by abel
  have hg : dot (a • (x1 - x0) + b • (x2 - x0) + g • n) n = g := by
    have : dot (a • (x1 - x0) + b • (x2 - x0) + g • n) n = a * dot n (x1 - x0) + b * dot n (x2 - x0) + g * dot n n := by
      simp only [dot, Pi.add_apply, Pi.smul_apply, smul_eq_mul]; ring
    rw [this, n1, n2, n3]; ring
  have hp : a • (x1 - x0) + b • (x2 - x0) + g • n - g • n = a • (x1 - x0) + b • (x2 - x0) := by abel
  have A2 : len (cross (a • (x1 - x0) + b • (x2 - x0)) (x1 - x0)) / area = |b| := by
    have : cross (a • (x1 - x0) + b • (x2 - x0)) (x1 - x0) = (-b) • cross (x1 - x0) (x2 - x0) := by
      ext i
      fin_cases i <;> simp [cross] <;> ring
    rw [this, len_smul, hl, abs_neg]; field_simp
  have A3 : len (cross (x2 - x0) (a • (x1 - x0) + b • (x2 - x0))) / area = |a| := by
    have : cross (x2 - x0) (a • (x1 - x0) + b • (x2 - x0)) = (-a) • cross (x1 - x0) (x2 - x0) := by
      ext i
      fin_cases i <;> simp [cross] <;> ring
    rw [this, len_smul, hl, abs_neg]; field_simp
  refine ⟨1 - |b| - |a|, |b|, |a|, ?_, rfl, rfl, by ring, ?_, ?_⟩
  · simp only [planeGap, if_true, hd, hg, hp, A2, A3]
  · simp only [planeGap, hd, hg]
  · have hm : cross (x1 - x0) (x2 - x0) ≠ 0 := by
      rw [← len_ne_zero, hl]; exact ha.ne'
    have hc : ∀ p q : ℝ, p • (x1 - x0) + q • (x2 - x0) = 0 → p = 0 ∧ q = 0 := by
      intro p q hpq
      have c1 : p • cross (x1 - x0) (x2 - x0) = 0 := by
        have : p • cross (x1 - x0) (x2 - x0) = cross (p • (x1 - x0) + q • (x2 - x0)) (x2 - x0) := by
          ext i; fin_cases i <;> simp [cross] <;> ring
        rw [this, hpq]; ext i; fin_cases i <;> simp [cross]
      have c2 : q • cross (x1 - x0) (x2 - x0) = 0 := by
        have : q • cross (x1 - x0) (x2 - x0) = cross (x1 - x0) (p • (x1 - x0) + q • (x2 - x0)) := by
          ext i; fin_cases i <;> simp [cross] <;> ring
        rw [this, hpq]; ext i; fin_cases i <;> simp [cross]
      exact ⟨(smul_eq_zero.mp c1).resolve_right hm, (smul_eq_zero.mp c2).resolve_right hm⟩
    constructor
    · intro he
      have : (|b| - a) • (x1 - x0) + (|a| - b) • (x2 - x0) = 0 := by
        have := sub_eq_zero.mpr he
        rw [← this]
        ext i; simp; ring
      obtain ⟨e1, e2⟩ := hc _ _ this
      have h1 : a = |b| := by linarith
      have h2 : b = |a| := by linarith
      have ha0 : 0 ≤ a := by rw [h1]; exact abs_nonneg b
      have hb0 : 0 ≤ b := by rw [h2]; exact abs_nonneg a
      rw [abs_of_nonneg hb0] at h1
      exact ⟨h1, ha0⟩
    · rintro ⟨rfl, h0⟩
      rw [abs_of_nonneg h0]
      ext i; simp; ring

/-- C38 is violated in three dimensions: inside the triangle of master points, the weights of the second and third
point are swapped. -/
theorem C38_solid_violated : ∃ (x0 x1 x2 n X : V3) (area N0 N1 N2 : ℝ),
    planeUpdate true x0 x1 x2 = some (n, area) ∧
    X = (1/4 : ℝ) • x0 + (1/2 : ℝ) • x1 + (1/4 : ℝ) • x2 ∧
    (planeGap true x0 x1 x2 n area X).N = [N0, N1, N2] ∧ N0 • x0 + N1 • x1 + N2 • x2 ≠ X := by
  have hc : cross ((![1, 0, 0] : V3) - 0) (![0, 1, 0] - 0) = ![0, 0, 1] := by simp [cross]
  have hl : len ((![0, 0, 1] : V3)) = 1 := by simp [len, dot]
  have hu : planeUpdate true 0 ![1, 0, 0] ![0, 1, 0] = some (![0, 0, 1], 1) := by
    unfold planeUpdate
    simp only [if_true, hc, hl]
    rw [if_neg (by norm_num)]
    simp
  obtain ⟨N0, N1, N2, h1, h2, h3, h4, -, h5⟩ := C38_solid_partial 0 ![1, 0, 0] ![0, 1, 0] ![0, 0, 1] 1 hu (1/2) (1/4) 0
  have hX : (0 : V3) + (1/2 : ℝ) • (![1, 0, 0] - 0) + (1/4 : ℝ) • (![0, 1, 0] - 0) + (0 : ℝ) • ![0, 0, 1]
      = (1/4 : ℝ) • 0 + (1/2 : ℝ) • ![1, 0, 0] + (1/4 : ℝ) • ![0, 1, 0] := by
    ext i; fin_cases i <;> simp
  refine ⟨0, ![1, 0, 0], ![0, 1, 0], ![0, 0, 1], _, 1, N0, N1, N2, hu, hX, h1, fun he => ?_⟩
  have he' : N0 • (0 : V3) + N1 • ![1, 0, 0] + N2 • ![0, 1, 0]
      = (0 : V3) + (1/2 : ℝ) • (![1, 0, 0] - 0) + (1/4 : ℝ) • (![0, 1, 0] - 0) := by
    rw [he]; simp
  have := (h5.mp he').1
  norm_num at this

/-- The hypotheses of the sphere, cylinder and plane theorems can be met. -/
example : (![2, 0, 0] : V3) ≠ 0 ∧ dot ![0, 0, 1] ![0, 0, 1] = 1 ∧
    (![2, 0, 5] : V3) - 0 ≠ dot (![2, 0, 5] - 0) ![0, 0, 1] • ![0, 0, 1] := by
  refine ⟨fun h => ?_, by simp [dot], fun h => ?_⟩
  · have := congrFun h 0; simp at this
  · have := congrFun h 0; simp [dot] at this

example : planeUpdate false 0 ![1, 0, 0] 0 = some (![0, 1, 0], 1) ∧
    0 ≤ dot ((![3, 7, 0] : V3) - 0) (![1, 0, 0] - 0) := by
  have hl : len ((![1, 0, 0] : V3) - 0) = 1 := by simp [len, dot]
  constructor
  · unfold planeUpdate
    simp only [Bool.false_eq_true, if_false, hl]
    rw [if_neg (by norm_num)]
    simp
  · simp [dot]

end Verif.Contact
