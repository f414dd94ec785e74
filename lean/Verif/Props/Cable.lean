/-
C45, C75: local axes, strain and curvature variations of the cable element.
-/
import Verif.Model.Cable
import Verif.Props.Bar
import Mathlib.Analysis.Calculus.Deriv.Mul
import Mathlib.Analysis.Calculus.Deriv.Inv
import Mathlib.Analysis.Calculus.Deriv.Add
import Mathlib.Analysis.SpecialFunctions.Sqrt
import Mathlib.Tactic.FinCases
import Mathlib.Tactic.FieldSimp
import Mathlib.Tactic.Linarith
import Mathlib.Tactic.LinearCombination
import Mathlib.Tactic.Positivity

set_option linter.unusedSimpArgs false
set_option linter.unusedVariables false
set_option linter.unnecessarySeqFocus false

namespace Verif.Cable

open Verif.Beam (Mat V3)
open Verif.Bar (len unit cross len_sq len_pos unit_sq)
open scoped Topology

/-! ### Derivatives of lengths and unit vectors -/

/-- Derivative of a length. -/
theorem len_var {w : ℝ → V3 ℝ} {w' : V3 ℝ} {t : ℝ} (h : ∀ k, HasDerivAt (fun s => w s k) (w' k) t) (hl : 0 < len (w t)) :
    HasDerivAt (fun s => len (w s)) (normalPart (unit (w t)) w') t := by
  have h2 := (((h 0).mul (h 0)).add ((h 1).mul (h 1))).add ((h 2).mul (h 2))
  have h3 := h2.sqrt (by
    simp only [Pi.add_apply, Pi.mul_apply]
    rw [← len_sq]; positivity)
  refine HasDerivAt.congr_deriv h3 ?_
  have : Real.sqrt (w t 0 * w t 0 + w t 1 * w t 1 + w t 2 * w t 2) = len (w t) := rfl
  simp only [Pi.add_apply, Pi.mul_apply, this, normalPart, unit, Fin.sum_univ_three]
  field_simp
  ring

/-- Derivative of a unit vector. -/
theorem unit_var {w : ℝ → V3 ℝ} {w' : V3 ℝ} {t : ℝ} (h : ∀ k, HasDerivAt (fun s => w s k) (w' k) t) (hl : 0 < len (w t)) (k : Fin 3) :
    HasDerivAt (fun s => unit (w s) k) (dunit (unit (w t)) w' (len (w t)) k) t := by
  have h3 := (h k).div (len_var h hl) hl.ne'
  refine HasDerivAt.congr_deriv h3 ?_
  simp only [dunit, unit]
  field_simp

/-- The second variation of the length of a vector. -/
noncomputable def ddlen (w da dc dd : V3 ℝ) (l : ℝ) : ℝ := (dot dd w + dot da dc - dot w da * dot w dc / (l * l)) / l

theorem normalPart_var {w d : ℝ → V3 ℝ} {w' d' : V3 ℝ} {t : ℝ} (h : ∀ k, HasDerivAt (fun s => w s k) (w' k) t)
    (hd : ∀ k, HasDerivAt (fun s => d s k) (d' k) t) (hl : 0 < len (w t)) :
    HasDerivAt (fun s => normalPart (unit (w s)) (d s)) (ddlen (w t) (d t) w' d' (len (w t))) t := by
  have hu := unit_var h hl
  have h3 := (((hu 0).mul (hd 0)).add ((hu 1).mul (hd 1))).add ((hu 2).mul (hd 2))
  have key : ∀ s, normalPart (unit (w s)) (d s) = unit (w s) 0 * d s 0 + unit (w s) 1 * d s 1 + unit (w s) 2 * d s 2 := by
    intro s; simp [normalPart, Fin.sum_univ_three]
  simp only [key]
  refine HasDerivAt.congr_deriv h3 ?_
  simp only [dunit, unit, ddlen, dot, normalPart, Fin.sum_univ_three]
  field_simp
  ring

theorem dunit_var {w d : ℝ → V3 ℝ} {w' d' : V3 ℝ} {t : ℝ} (h : ∀ k, HasDerivAt (fun s => w s k) (w' k) t)
    (hd : ∀ k, HasDerivAt (fun s => d s k) (d' k) t) (hl : 0 < len (w t)) (k : Fin 3) :
    HasDerivAt (fun s => dunit (unit (w s)) (d s) (len (w s)) k)
      (ddunit (w t) (d t) w' d' (normalPart (unit (w t)) (d t)) (normalPart (unit (w t)) w')
        (ddlen (w t) (d t) w' d' (len (w t))) (len (w t)) k) t := by
  have hu := unit_var h hl k
  have h3 := ((hd k).sub (hu.mul (normalPart_var h hd hl))).div (len_var h hl) hl.ne'
  refine HasDerivAt.congr_deriv h3 ?_
  simp only [Pi.sub_apply, Pi.mul_apply, dunit, ddunit]
  have e : unit (w t) k = w t k / len (w t) := rfl
  rw [e]
  field_simp
  ring

/-! ### The vectors of the code as cross products -/

/-- Vector with component `c` in direction `i`. -/
def single (c : ℝ) (i : Fin 3) : V3 ℝ := fun k => if k = i then c else 0

/-- A vector changed by `t * c` in direction `i`. -/
def moved1 (v : V3 ℝ) (c : ℝ) (i : Fin 3) (t : ℝ) : V3 ℝ := fun k => v k + t * single c i k

theorem moved1_zero (v : V3 ℝ) (c : ℝ) (i : Fin 3) : moved1 v c i 0 = v := by funext k; simp [moved1]

theorem moved1_var (v : V3 ℝ) (c : ℝ) (i k : Fin 3) : HasDerivAt (fun t => moved1 v c i t k) (single c i k) 0 := by
  simpa [moved1] using ((hasDerivAt_id (0 : ℝ)).mul_const (single c i k)).const_add (v k)

theorem cross_var {a b : ℝ → V3 ℝ} {a' b' : V3 ℝ} {t : ℝ} (ha : ∀ k, HasDerivAt (fun s => a s k) (a' k) t)
    (hb : ∀ k, HasDerivAt (fun s => b s k) (b' k) t) (k : Fin 3) :
    HasDerivAt (fun s => cross (a s) (b s) k) (cross a' (b t) k + cross (a t) b' k) t := by
  have h := fun i j => (ha i).mul (hb j)
  fin_cases k
  · refine ((h 1 2).sub (h 2 1)).congr_deriv ?_
    simp [cross]; ring
  · refine ((h 2 0).sub (h 0 2)).congr_deriv ?_
    simp [cross]; ring
  · refine ((h 0 1).sub (h 1 0)).congr_deriv ?_
    simp [cross]; ring

theorem db_eq (dx ddx : V3 ℝ) (n1 n2 : ℝ) (i k : Fin 3) :
    db dx ddx n1 n2 i k = cross (single n1 i) ddx k + cross dx (single n2 i) k := by
  fin_cases i <;> fin_cases k <;> simp [db, eps, cross, single, Fin.sum_univ_three] <;> ring

theorem ddb_eq (a1 a2 b1 b2 : ℝ) (i j k : Fin 3) :
    ddb a1 a2 b1 b2 i j k = cross (single a1 i) (single b2 j) k + cross (single b1 j) (single a2 i) k := by
  fin_cases i <;> fin_cases j <;> fin_cases k <;> simp [ddb, eps, cross, single] <;> ring

theorem dn_eq (dx bu dbu : V3 ℝ) (n1 : ℝ) (i k : Fin 3) :
    dn dx bu dbu n1 i k = cross bu (single n1 i) k + cross dbu dx k := by
  fin_cases i <;> fin_cases k <;> simp [dn, eps, cross, single, Fin.sum_univ_three] <;> ring

theorem ddn_eq (dx dbua dbuc ddbu : V3 ℝ) (a1 b1 : ℝ) (i j k : Fin 3) :
    ddn dx dbua dbuc ddbu a1 b1 i j k =
      cross dbua (single b1 j) k + cross dbuc (single a1 i) k + cross ddbu dx k := by
  fin_cases i <;> fin_cases j <;> fin_cases k <;> simp [ddn, eps, cross, single, Fin.sum_univ_three] <;> ring

/-- The axes for a given curved configuration. -/
noncomputable def ax (dx ddx : V3 ℝ) : Axes := finish dx (cross dx ddx)

theorem unit_mul (w : V3 ℝ) (h : 0 < len w) : (fun k => unit w k * len w) = w := by
  funext k; simp only [unit]; field_simp

/-- The normal vector has the length of the tangent vector. -/
theorem normal_len (dx ddx : V3 ℝ) (h : 0 < len (cross dx ddx)) : 0 < len (cross (unit (cross dx ddx)) dx) := by
  have h1 := len_sq (cross dx ddx)
  have h2 : len (cross dx ddx) * len (cross dx ddx) > 0 := by positivity
  have hu := unit_sq _ h
  have hp : unit (cross dx ddx) 0 * dx 0 + unit (cross dx ddx) 1 * dx 1 + unit (cross dx ddx) 2 * dx 2 = 0 := by
    simp only [unit]
    simp [cross]
    field_simp
    ring
  have hd : 0 < dx 0 * dx 0 + dx 1 * dx 1 + dx 2 * dx 2 := by
    rcases lt_or_ge 0 (dx 0 * dx 0 + dx 1 * dx 1 + dx 2 * dx 2) with hh | hh
    · exact hh
    · exfalso
      have a0 := mul_self_nonneg (dx 0)
      have a1 := mul_self_nonneg (dx 1)
      have a2 := mul_self_nonneg (dx 2)
      have e0 : dx 0 = 0 := mul_self_eq_zero.mp (by linarith)
      have e1 : dx 1 = 0 := mul_self_eq_zero.mp (by linarith)
      have e2 : dx 2 = 0 := mul_self_eq_zero.mp (by linarith)
      rw [h1] at h2
      simp [cross, e0, e1, e2] at h2
  apply len_pos
  generalize unit (cross dx ddx) = u at *
  have e : cross u dx 0 * cross u dx 0 + cross u dx 1 * cross u dx 1 + cross u dx 2 * cross u dx 2 =
      dx 0 * dx 0 + dx 1 * dx 1 + dx 2 * dx 2 := by
    simp [cross]
    linear_combination (dx 0 * dx 0 + dx 1 * dx 1 + dx 2 * dx 2) * hu -
      (u 0 * dx 0 + u 1 * dx 1 + u 2 * dx 2) * hp
  rw [e]; exact hd

/-! ### Exact variations of the axes -/

/-- Second variation of the unit binormal. -/
noncomputable def ddbuT (dx ddx : V3 ℝ) (f : Basis) (a b : Nat) (i j : Fin 3) : V3 ℝ :=
  let w := cross dx ddx
  let da := db dx ddx (f.dN a) (f.d2N a) i
  let dc := db dx ddx (f.dN b) (f.d2N b) j
  let dd := ddb (f.dN a) (f.d2N a) (f.dN b) (f.d2N b) i j
  ddunit w da dc dd (normalPart (unit w) da) (normalPart (unit w) dc) (ddlen w da dc dd (len w)) (len w)

/-- Second variation of the unit normal. -/
noncomputable def ddnuT (dx ddx : V3 ℝ) (f : Basis) (a b : Nat) (i j : Fin 3) : V3 ℝ :=
  let x := ax dx ddx
  let n := cross x.B dx
  let da := dnc dx ddx x f a i
  let dc := dnc dx ddx x f b j
  let dd := ddn dx (dbu dx ddx x f a i) (dbu dx ddx x f b j) (ddbuT dx ddx f a b i j) (f.dN a) (f.dN b) i j
  ddunit n da dc dd (normalPart (unit n) da) (normalPart (unit n) dc) (ddlen n da dc dd (len n)) (len n)

/-- Second variation of the curvature. -/
noncomputable def ddkappaT (dx ddx : V3 ℝ) (f : Basis) (a b : Nat) (i j : Fin 3) : ℝ :=
  (f.d2N a * dnu dx ddx (ax dx ddx) f b j i + f.d2N b * dnu dx ddx (ax dx ddx) f a i j) +
    ∑ k : Fin 3, ddx k * ddnuT dx ddx f a b i j k

section Var

variable (dx ddx : V3 ℝ) (f : Basis) (a b : Nat) (i j : Fin 3)

theorem bin_var (k : Fin 3) :
    HasDerivAt (fun t => cross (moved1 dx (f.dN b) j t) (moved1 ddx (f.d2N b) j t) k)
      (db dx ddx (f.dN b) (f.d2N b) j k) 0 := by
  refine (cross_var (moved1_var dx (f.dN b) j) (moved1_var ddx (f.d2N b) j) k).congr_deriv ?_
  rw [moved1_zero, moved1_zero, db_eq]

theorem db_var (k : Fin 3) :
    HasDerivAt (fun t => db (moved1 dx (f.dN b) j t) (moved1 ddx (f.d2N b) j t) (f.dN a) (f.d2N a) i k)
      (ddb (f.dN a) (f.d2N a) (f.dN b) (f.d2N b) i j k) 0 := by
  simp only [db_eq]
  have h0 : ∀ (c : ℝ) (i k : Fin 3), HasDerivAt (fun _ : ℝ => single c i k) ((0 : V3 ℝ) k) 0 := fun c i k => hasDerivAt_const _ _
  refine ((cross_var (h0 (f.dN a) i) (moved1_var ddx (f.d2N b) j) k).add
    (cross_var (moved1_var dx (f.dN b) j) (h0 (f.d2N a) i) k)).congr_deriv ?_
  rw [ddb_eq]
  have z1 : ∀ v, cross 0 v k = 0 := by intro v; fin_cases k <;> simp [cross]
  have z2 : ∀ v, cross v 0 k = 0 := by intro v; fin_cases k <;> simp [cross]
  rw [z1, z2]; ring

variable (h : 0 < len (cross dx ddx))
include h

theorem bu_var (k : Fin 3) :
    HasDerivAt (fun t => unit (cross (moved1 dx (f.dN b) j t) (moved1 ddx (f.d2N b) j t)) k)
      (dbu dx ddx (ax dx ddx) f b j k) 0 := by
  have := unit_var (bin_var dx ddx f b j) (by simpa only [moved1_zero] using h) k
  simp only [moved1_zero] at this
  exact this

theorem dbu_var (k : Fin 3) :
    HasDerivAt (fun t => dbu (moved1 dx (f.dN b) j t) (moved1 ddx (f.d2N b) j t)
        (ax (moved1 dx (f.dN b) j t) (moved1 ddx (f.d2N b) j t)) f a i k) (ddbuT dx ddx f a b i j k) 0 := by
  have := dunit_var (bin_var dx ddx f b j) (db_var dx ddx f a b i j) (by simpa only [moved1_zero] using h) k
  simp only [moved1_zero] at this
  exact this

theorem n_var (k : Fin 3) :
    HasDerivAt (fun t => cross (unit (cross (moved1 dx (f.dN b) j t) (moved1 ddx (f.d2N b) j t))) (moved1 dx (f.dN b) j t) k)
      (dnc dx ddx (ax dx ddx) f b j k) 0 := by
  have := cross_var (bu_var dx ddx f b j h) (moved1_var dx (f.dN b) j) k
  simp only [moved1_zero] at this
  refine this.congr_deriv ?_
  rw [dnc, dn_eq]
  show _ = cross (unit (cross dx ddx)) _ k + _
  ring

theorem dnc_var (k : Fin 3) :
    HasDerivAt (fun t => dnc (moved1 dx (f.dN b) j t) (moved1 ddx (f.d2N b) j t)
        (ax (moved1 dx (f.dN b) j t) (moved1 ddx (f.d2N b) j t)) f a i k)
      (ddn dx (dbu dx ddx (ax dx ddx) f a i) (dbu dx ddx (ax dx ddx) f b j) (ddbuT dx ddx f a b i j) (f.dN a) (f.dN b) i j k) 0 := by
  have h0 : ∀ (c : ℝ) (i k : Fin 3), HasDerivAt (fun _ : ℝ => single c i k) ((0 : V3 ℝ) k) 0 := fun c i k => hasDerivAt_const _ _
  have := (cross_var (bu_var dx ddx f b j h) (h0 (f.dN a) i) k).add
    (cross_var (dbu_var dx ddx f a b i j h) (moved1_var dx (f.dN b) j) k)
  simp only [moved1_zero] at this
  have key : ∀ t, dnc (moved1 dx (f.dN b) j t) (moved1 ddx (f.d2N b) j t)
        (ax (moved1 dx (f.dN b) j t) (moved1 ddx (f.d2N b) j t)) f a i k =
      cross (unit (cross (moved1 dx (f.dN b) j t) (moved1 ddx (f.d2N b) j t))) (single (f.dN a) i) k +
      cross (dbu (moved1 dx (f.dN b) j t) (moved1 ddx (f.d2N b) j t)
        (ax (moved1 dx (f.dN b) j t) (moved1 ddx (f.d2N b) j t)) f a i) (moved1 dx (f.dN b) j t) k := by
    intro t; rw [dnc, dn_eq]; rfl
  simp only [key]
  refine HasDerivAt.congr_deriv this ?_
  have z2 : ∀ v, cross v 0 k = 0 := by intro v; fin_cases k <;> simp [cross]
  rw [z2, ddn_eq]; ring

theorem nu_var (k : Fin 3) :
    HasDerivAt (fun t => (ax (moved1 dx (f.dN b) j t) (moved1 ddx (f.d2N b) j t)).N k)
      (dnu dx ddx (ax dx ddx) f b j k) 0 := by
  have := unit_var (n_var dx ddx f b j h) (by simpa only [moved1_zero] using normal_len dx ddx h) k
  simp only [moved1_zero] at this
  exact this

theorem dnu_var (k : Fin 3) :
    HasDerivAt (fun t => dnu (moved1 dx (f.dN b) j t) (moved1 ddx (f.d2N b) j t)
        (ax (moved1 dx (f.dN b) j t) (moved1 ddx (f.d2N b) j t)) f a i k) (ddnuT dx ddx f a b i j k) 0 := by
  have := dunit_var (n_var dx ddx f b j h) (dnc_var dx ddx f a b i j h) (by simpa only [moved1_zero] using normal_len dx ddx h) k
  simp only [moved1_zero] at this
  exact this

omit h in
theorem dot_single (v : V3 ℝ) (c : ℝ) : dot (single c j) v = c * v j := by
  fin_cases j <;> simp [dot, single]

theorem kappa_var (c : ℝ) :
    HasDerivAt (fun t => dot (moved1 ddx (f.d2N b) j t) (ax (moved1 dx (f.dN b) j t) (moved1 ddx (f.d2N b) j t)).N - c)
      (dkappa dx ddx (ax dx ddx) f b j) 0 := by
  have h1 := moved1_var ddx (f.d2N b) j
  have h2 := nu_var dx ddx f b j h
  have := (((h1 0).mul (h2 0)).add ((h1 1).mul (h2 1))).add ((h1 2).mul (h2 2)) |>.sub_const c
  refine HasDerivAt.congr_deriv this ?_
  simp only [moved1_zero, dkappa, Fin.sum_univ_three]
  have := dot_single j (ax dx ddx).N (f.d2N b)
  simp only [dot] at this
  linear_combination this

theorem dkappa_var :
    HasDerivAt (fun t => dkappa (moved1 dx (f.dN b) j t) (moved1 ddx (f.d2N b) j t)
        (ax (moved1 dx (f.dN b) j t) (moved1 ddx (f.d2N b) j t)) f a i) (ddkappaT dx ddx f a b i j) 0 := by
  have h1 := moved1_var ddx (f.d2N b) j
  have h2 := dnu_var dx ddx f a b i j h
  have := ((nu_var dx ddx f b j h i).const_mul (f.d2N a)).add
    ((((h1 0).mul (h2 0)).add ((h1 1).mul (h2 1))).add ((h1 2).mul (h2 2)))
  have key : ∀ t, dkappa (moved1 dx (f.dN b) j t) (moved1 ddx (f.d2N b) j t)
        (ax (moved1 dx (f.dN b) j t) (moved1 ddx (f.d2N b) j t)) f a i =
      f.d2N a * (ax (moved1 dx (f.dN b) j t) (moved1 ddx (f.d2N b) j t)).N i +
      (moved1 ddx (f.d2N b) j t 0 * dnu (moved1 dx (f.dN b) j t) (moved1 ddx (f.d2N b) j t)
        (ax (moved1 dx (f.dN b) j t) (moved1 ddx (f.d2N b) j t)) f a i 0 +
       moved1 ddx (f.d2N b) j t 1 * dnu (moved1 dx (f.dN b) j t) (moved1 ddx (f.d2N b) j t)
        (ax (moved1 dx (f.dN b) j t) (moved1 ddx (f.d2N b) j t)) f a i 1 +
       moved1 ddx (f.d2N b) j t 2 * dnu (moved1 dx (f.dN b) j t) (moved1 ddx (f.d2N b) j t)
        (ax (moved1 dx (f.dN b) j t) (moved1 ddx (f.d2N b) j t)) f a i 2) := by
    intro t; simp only [dkappa, Fin.sum_univ_three]
  simp only [key]
  refine HasDerivAt.congr_deriv this ?_
  simp only [moved1_zero, ddkappaT, Fin.sum_univ_three]
  have := dot_single j (dnu dx ddx (ax dx ddx) f a i) (f.d2N b)
  simp only [dot] at this
  linear_combination this

omit h in
/-- The second variation of the length as computed in the code. -/
theorem ddnormal_eq (w da dc dd : V3 ℝ) (l : ℝ) (hl : l ≠ 0) :
    ddnormal w da dc dd l = ddlen w da dc dd l +
      (dot w da * dot w dc - ∑ k : Fin 3, w k * w k * da k * dc k) / (l * l * l) := by
  simp only [ddnormal, ddlen, dot, Fin.sum_univ_three]
  field_simp
  ring

omit h in
theorem ddunit_diff (w da dc dd : V3 ℝ) (pa pc n1 n2 l : ℝ) (k : Fin 3) :
    ddunit w da dc dd pa pc n1 l k = ddunit w da dc dd pa pc n2 l k - w k * (n1 - n2) / (l * l) := by
  simp only [ddunit]; ring

/-- Second variation of the unit binormal, when two sums of products agree. -/
theorem ddbu_eq
    (hb : ∑ k : Fin 3, cross dx ddx k * cross dx ddx k * db dx ddx (f.dN a) (f.d2N a) i k * db dx ddx (f.dN b) (f.d2N b) j k =
      dot (cross dx ddx) (db dx ddx (f.dN a) (f.d2N a) i) * dot (cross dx ddx) (db dx ddx (f.dN b) (f.d2N b) j)) :
    ddbu dx ddx (ax dx ddx) f a b i j = ddbuT dx ddx f a b i j := by
  have e : (fun k => (ax dx ddx).B k * (ax dx ddx).Blen) = cross dx ddx := unit_mul _ h
  simp only [ddbu, e, ddbuT]
  have := ddnormal_eq (cross dx ddx) (db dx ddx (f.dN a) (f.d2N a) i) (db dx ddx (f.dN b) (f.d2N b) j)
    (ddb (f.dN a) (f.d2N a) (f.dN b) (f.d2N b) i j) (len (cross dx ddx)) h.ne'
  rw [hb, sub_self, zero_div, add_zero] at this
  show ddunit _ _ _ _ _ _ (ddnormal _ _ _ _ (len (cross dx ddx))) _ = _
  rw [this]
  rfl

/-- Difference of the computed and the exact second variation of the curvature, when those of the binormal agree. -/
theorem ddkappa_eq (hb : ddbu dx ddx (ax dx ddx) f a b i j = ddbuT dx ddx f a b i j) :
    let n := cross (ax dx ddx).B dx
    let da := dnc dx ddx (ax dx ddx) f a i
    let dc := dnc dx ddx (ax dx ddx) f b j
    ddkappa dx ddx (ax dx ddx) f a b i j = ddkappaT dx ddx f a b i j -
      dot ddx n * (dot n da * dot n dc - ∑ k : Fin 3, n k * n k * da k * dc k) / (len n * len n * len n * (len n * len n)) := by
  intro n da dc
  have hn : 0 < len n := normal_len dx ddx h
  have e : (fun k => (ax dx ddx).N k * (ax dx ddx).Nlen) = n := unit_mul _ hn
  simp only [ddkappa, ddkappaT, ddnu, e, hb, ddnuT]
  have h1 := ddnormal_eq n da dc (ddn dx (dbu dx ddx (ax dx ddx) f a i) (dbu dx ddx (ax dx ddx) f b j) (ddbuT dx ddx f a b i j)
    (f.dN a) (f.dN b) i j) (len n) hn.ne'
  have h3 : ∀ x y z : ℝ, x = y + z → x - y = z := fun x y z e => by rw [e]; ring
  have h2 := fun k => ddunit_diff n da dc (ddn dx (dbu dx ddx (ax dx ddx) f a i) (dbu dx ddx (ax dx ddx) f b j)
    (ddbuT dx ddx f a b i j) (f.dN a) (f.dN b) i j) (normalPart (unit n) da) (normalPart (unit n) dc)
    (ddnormal n da dc (ddn dx (dbu dx ddx (ax dx ddx) f a i) (dbu dx ddx (ax dx ddx) f b j) (ddbuT dx ddx f a b i j)
    (f.dN a) (f.dN b) i j) (len n))
    (ddlen n da dc (ddn dx (dbu dx ddx (ax dx ddx) f a i) (dbu dx ddx (ax dx ddx) f b j) (ddbuT dx ddx f a b i j)
    (f.dN a) (f.dN b) i j) (len n)) (len n) k
  simp only [h3 _ _ _ h1] at h2
  have hl : (ax dx ddx).Nlen = len n := rfl
  have hN : (ax dx ddx).N = unit n := rfl
  have hx : cross (ax dx ddx).B dx = n := rfl
  have hda : dnc dx ddx (ax dx ddx) f a i = da := rfl
  have hdc : dnc dx ddx (ax dx ddx) f b j = dc := rfl
  simp only [hl, hN, hx, hda, hdc]
  rw [Fin.sum_univ_three, Fin.sum_univ_three (f := fun k => ddx k * ddunit _ _ _ _ _ _ (ddlen _ _ _ _ _) _ k), h2 0, h2 1, h2 2]
  generalize ∑ k : Fin 3, n k * n k * da k * dc k = q
  generalize dot n da * dot n dc = r
  have e4 : dot ddx n = ddx 0 * n 0 + ddx 1 * n 1 + ddx 2 * n 2 := rfl
  rw [e4]
  field_simp
  ring

/-! ### The property -/

omit h in
/-- Displacements with component `j` of node `b` increased by `t`. -/
def push (u : Nat → V3 ℝ) (b : Nat) (j : Fin 3) (t : ℝ) : Nat → V3 ℝ := fun c k => u c k + if c = b ∧ k = j then t else 0

omit h in
theorem current_push (nen : Nat) (dX : V3 ℝ) (dN : Nat → ℝ) (u : Nat → V3 ℝ) (hb : b < nen) (t : ℝ) :
    current nen dX dN (push u b j t) = moved1 (current nen dX dN u) (dN b) j t := by
  funext k
  simp only [current, push, moved1, single, mul_add, Finset.sum_add_distrib]
  have : ∑ c ∈ Finset.range nen, dN c * (if c = b ∧ k = j then t else 0) = t * (if k = j then dN b else 0) := by
    by_cases hk : k = j
    · simp only [hk, and_true, if_true, mul_ite, mul_zero]
      rw [Finset.sum_ite_eq' (Finset.range nen) b]
      simp [hb, mul_comm]
    · simp [hk]
  rw [this]; ring

omit h in
theorem axes_ok (hc : 1 / 1000000000000 ≤ len (cross dx ddx)) : evalLocalAxes dx ddx = .ok (ax dx ddx) := by
  unfold evalLocalAxes ax
  simp only
  rw [if_neg (not_lt.mpr hc)]

omit h in
/-- The elastic energy of an integration point: axial strain and change of curvature with respect to the initial configuration,
the curvature being the component of the second derivative along the unit normal in the osculating plane. -/
noncomputable def energyAt (EA EI w : ℝ) (dX ddX N0 dx ddx : V3 ℝ) : ℝ :=
  let n := unit (cross (unit (cross dx ddx)) dx)
  let eps := ((dx 0 * dx 0 + dx 1 * dx 1 + dx 2 * dx 2) - (dX 0 * dX 0 + dX 1 * dX 1 + dX 2 * dX 2)) / 2
  let kap := (ddx 0 * n 0 + ddx 1 * n 1 + ddx 2 * n 2) - (ddX 0 * N0 0 + ddX 1 * N0 1 + ddX 2 * N0 2)
  w / (dX 0 * dX 0 + dX 1 * dX 1 + dX 2 * dX 2) ^ 2 * (EA * eps ^ 2 / 2 + EI * kap ^ 2 / 2)

omit h in
/-- The same for given displacements of the nodes. -/
noncomputable def energy (nen : Nat) (EA EI w : ℝ) (dX ddX N0 : V3 ℝ) (f : Basis) (u : Nat → V3 ℝ) : ℝ :=
  energyAt EA EI w dX ddX N0 (fun i => dX i + ∑ a ∈ Finset.range nen, f.dN a * u a i)
    (fun i => ddX i + ∑ a ∈ Finset.range nen, f.d2N a * u a i)

omit h in
theorem energy_eq (EA EI w : ℝ) (dX ddX N0 dx ddx : V3 ℝ) :
    energyAt EA EI w dX ddX N0 dx ddx =
    w / (dX 0 * dX 0 + dX 1 * dX 1 + dX 2 * dX 2) ^ 2 * (EA * (strain dX dx * strain dX dx) / 2 +
      EI * ((dot ddx (ax dx ddx).N - dot ddX N0) * (dot ddx (ax dx ddx).N - dot ddX N0)) / 2) := by
  simp only [energyAt, strain, dot, ax, finish]
  ring

omit h in
theorem energy_push (nen : Nat) (EA EI w : ℝ) (dX ddX N0 : V3 ℝ) (u : Nat → V3 ℝ) (hb : b < nen) (t : ℝ) :
    energy nen EA EI w dX ddX N0 f (push u b j t) =
      energyAt EA EI w dX ddX N0 (moved1 (current nen dX f.dN u) (f.dN b) j t) (moved1 (current nen ddX f.d2N u) (f.d2N b) j t) := by
  rw [← current_push b j nen dX f.dN u hb t, ← current_push b j nen ddX f.d2N u hb t]
  rfl

omit h in
theorem strain_var (dX : V3 ℝ) :
    HasDerivAt (fun t => strain dX (moved1 dx (f.dN b) j t)) (deps dx f b j) 0 := by
  have h1 := moved1_var dx (f.dN b) j
  have := (((((h1 0).mul (h1 0)).add ((h1 1).mul (h1 1))).add ((h1 2).mul (h1 2))).sub_const (dot dX dX)).const_mul (1 / 2)
  refine HasDerivAt.congr_deriv this ?_
  simp only [moved1_zero, deps]
  have := dot_single j dx (f.dN b)
  simp only [dot] at this
  linear_combination this

omit h in
theorem deps_var : HasDerivAt (fun t => deps (moved1 dx (f.dN b) j t) f a i) (ddeps f a b i j) 0 := by
  refine ((moved1_var dx (f.dN b) j i).const_mul (f.dN a)).congr_deriv ?_
  simp only [single, ddeps, mul_ite, mul_zero]

section Final

variable (nen : Nat) (EA EI w : ℝ) (dX ddX : V3 ℝ) (u : Nat → V3 ℝ) (X : Axes)

omit h in
/-- C45: the internal forces are minus the derivatives of the elastic energy with respect to the displacements, i.e., the first
variations of strain and curvature are exact. -/
theorem C45_forces (hb : b < nen) (hX : evalLocalAxes dX ddX = .ok X)
    (hc : 1 / 1000000000000 ≤ len (cross (current nen dX f.dN u) (current nen ddX f.d2N u))) :
    ∃ p, evalInt nen EA EI w dX ddX f u = .ok p ∧
      HasDerivAt (fun t => energy nen EA EI w dX ddX X.N f (push u b j t)) (-p.S b j) 0 := by
  set dx := current nen dX f.dN u with hdx
  set ddx := current nen ddX f.d2N u with hddx
  have h : 0 < len (cross dx ddx) := lt_of_lt_of_le (by norm_num) hc
  refine ⟨contributions EA EI w dX ddX dx ddx X (ax dx ddx) f, ?_, ?_⟩
  · simp only [evalInt, hX, Res.bind, ← hdx, ← hddx, axes_ok dx ddx hc]
  · have key : ∀ t, energy nen EA EI w dX ddX X.N f (push u b j t) =
        w / (dX 0 * dX 0 + dX 1 * dX 1 + dX 2 * dX 2) ^ 2 *
          (EA * (strain dX (moved1 dx (f.dN b) j t) * strain dX (moved1 dx (f.dN b) j t)) / 2 +
           EI * ((dot (moved1 ddx (f.d2N b) j t) (ax (moved1 dx (f.dN b) j t) (moved1 ddx (f.d2N b) j t)).N - dot ddX X.N) *
            (dot (moved1 ddx (f.d2N b) j t) (ax (moved1 dx (f.dN b) j t) (moved1 ddx (f.d2N b) j t)).N - dot ddX X.N)) / 2) := by
      intro t
      rw [energy_push f b j nen EA EI w dX ddX X.N u hb t, energy_eq]
    simp only [key]
    have hs := strain_var dx f b j dX
    have hk := kappa_var dx ddx f b j h (dot ddX X.N)
    have := ((((hs.mul hs).const_mul EA).div_const 2).add (((hk.mul hk).const_mul EI).div_const 2)).const_mul
      (w / (dX 0 * dX 0 + dX 1 * dX 1 + dX 2 * dX 2) ^ 2)
    refine HasDerivAt.congr_deriv this ?_
    simp only [moved1_zero, contributions, weight, curvature]
    generalize dkappa dx ddx (ax dx ddx) f b j = p
    generalize deps dx f b j = q
    generalize strain dX dx = e
    generalize dot ddx (ax dx ddx).N - dot ddX X.N = k
    generalize dX 0 * dX 0 + dX 1 * dX 1 + dX 2 * dX 2 = L
    ring

omit h in
theorem evalInt_push (hb : b < nen) (hX : evalLocalAxes dX ddX = .ok X)
    (hc : 1 / 1000000000000 < len (cross (current nen dX f.dN u) (current nen ddX f.d2N u))) :
    ∀ᶠ t in 𝓝 (0 : ℝ), evalInt nen EA EI w dX ddX f (push u b j t) = .ok (contributions EA EI w dX ddX
      (moved1 (current nen dX f.dN u) (f.dN b) j t) (moved1 (current nen ddX f.d2N u) (f.d2N b) j t) X
      (ax (moved1 (current nen dX f.dN u) (f.dN b) j t) (moved1 (current nen ddX f.d2N u) (f.d2N b) j t)) f) := by
  have h : 0 < len (cross (current nen dX f.dN u) (current nen ddX f.d2N u)) := lt_trans (by norm_num) hc
  have hl := (len_var (bin_var (current nen dX f.dN u) (current nen ddX f.d2N u) f b j)
    (by simpa only [moved1_zero] using h)).continuousAt
  have := hl.eventually (lt_mem_nhds (a := 1 / 1000000000000) (by simpa only [moved1_zero] using hc))
  filter_upwards [this] with t ht
  simp only [evalInt, hX, Res.bind, current_push b j nen dX f.dN u hb t, current_push b j nen ddX f.d2N u hb t,
    axes_ok _ _ ht.le]

theorem S_var :
    HasDerivAt (fun t => (contributions EA EI w dX ddX (moved1 dx (f.dN b) j t) (moved1 ddx (f.d2N b) j t) X
        (ax (moved1 dx (f.dN b) j t) (moved1 ddx (f.d2N b) j t)) f).S a i)
      (-((contributions EA EI w dX ddX dx ddx X (ax dx ddx) f).Km a i b j +
         (ddeps f a b i j * (strain dX dx * weight EA dX w) +
          ddkappaT dx ddx f a b i j * ((dot ddx (ax dx ddx).N - dot ddX X.N) * weight EI dX w)))) 0 := by
  have hs := strain_var dx f b j dX
  have hk := kappa_var dx ddx f b j h (dot ddX X.N)
  have := ((deps_var dx f a b i j).mul (hs.neg.mul_const (weight EA dX w))).add
    ((dkappa_var dx ddx f a b i j h).mul (hk.neg.mul_const (weight EI dX w)))
  refine HasDerivAt.congr_deriv this ?_
  simp only [Pi.neg_apply, moved1_zero, contributions]
  ring

omit h in
/-- C45: the tangent stiffness is minus the derivative of the internal forces, i.e., the second variations of strain and curvature
are exact, if for the binormal and the normal vector the sum of products computed in the code equals the product of the sums.
Missing: other configurations, see `C45_tangent_violated`. -/
theorem C45_tangent_partial (hb : b < nen) (hX : evalLocalAxes dX ddX = .ok X)
    (hdx : dx = fun i => dX i + ∑ a ∈ Finset.range nen, f.dN a * u a i)
    (hddx : ddx = fun i => ddX i + ∑ a ∈ Finset.range nen, f.d2N a * u a i)
    (hc : 1 / 1000000000000 < len (cross dx ddx))
    (hB : let B := cross dx ddx
      let da := db dx ddx (f.dN a) (f.d2N a) i
      let dc := db dx ddx (f.dN b) (f.d2N b) j
      ∑ k : Fin 3, B k * B k * da k * dc k = (∑ k : Fin 3, B k * da k) * (∑ k : Fin 3, B k * dc k))
    (hN : let n := cross (unit (cross dx ddx)) dx
      let da := dnc dx ddx (ax dx ddx) f a i
      let dc := dnc dx ddx (ax dx ddx) f b j
      ∑ k : Fin 3, n k * n k * da k * dc k = (∑ k : Fin 3, n k * da k) * (∑ k : Fin 3, n k * dc k)) :
    ∃ (p : Point) (q : ℝ → Point), evalInt nen EA EI w dX ddX f u = .ok p ∧
      (∀ᶠ t in 𝓝 (0 : ℝ), evalInt nen EA EI w dX ddX f (push u b j t) = .ok (q t)) ∧
      HasDerivAt (fun t => (q t).S a i) (-(p.Km a i b j + p.Kg a i b j)) 0 := by
  have h : 0 < len (cross dx ddx) := lt_trans (by norm_num) hc
  refine ⟨contributions EA EI w dX ddX dx ddx X (ax dx ddx) f, fun t => contributions EA EI w dX ddX
    (moved1 dx (f.dN b) j t) (moved1 ddx (f.d2N b) j t) X (ax (moved1 dx (f.dN b) j t) (moved1 ddx (f.d2N b) j t)) f, ?_, ?_, ?_⟩
  · have e := axes_ok _ _ hc.le
    have e1 : current nen dX f.dN u = dx := hdx.symm
    have e2 : current nen ddX f.d2N u = ddx := hddx.symm
    simp only [evalInt, hX, Res.bind, e1, e2, e]
  · subst hdx; subst hddx
    exact evalInt_push f b j nen EA EI w dX ddX u X hb hX hc
  · have hs := S_var dx ddx f a b i j h EA EI w dX ddX X
    refine HasDerivAt.congr_deriv hs ?_
    have e1 := ddbu_eq dx ddx f a b i j h (by simpa only [dot, Fin.sum_univ_three] using hB)
    have e2 := ddkappa_eq dx ddx f a b i j h e1
    have e3 : ∑ k : Fin 3, cross (ax dx ddx).B dx k * cross (ax dx ddx).B dx k * dnc dx ddx (ax dx ddx) f a i k *
        dnc dx ddx (ax dx ddx) f b j k = dot (cross (ax dx ddx).B dx) (dnc dx ddx (ax dx ddx) f a i) *
        dot (cross (ax dx ddx).B dx) (dnc dx ddx (ax dx ddx) f b j) := by
      rw [show (ax dx ddx).B = unit (cross dx ddx) from rfl]
      simpa only [dot, Fin.sum_univ_three] using hN
    simp only [e3, sub_self, mul_zero, zero_div, sub_zero] at e2
    simp only [contributions, curvature, e2]

end Final

end Var

/-! ### Witness -/

theorem len_eq {v : V3 ℝ} {c : ℝ} (hc : 0 ≤ c) (e : v 0 * v 0 + v 1 * v 1 + v 2 * v 2 = c * c) : len v = c := by
  unfold len; rw [e]; exact Real.sqrt_mul_self hc

/-- Basis functions of two nodes for the witness. -/
def wf : Basis := ⟨fun a => if a = 0 then 1 else 0, fun a => if a = 1 then 1 else 0⟩

/-- Displacements for the witness. -/
def wu : Nat → V3 ℝ := fun a => if a = 1 then ![0, 1, 0] else ![0, 0, 0]

theorem w_current : current 2 ![3, 4, 0] wf.dN wu = ![3, 4, 0] ∧ current 2 ![0, 0, 0] wf.d2N wu = ![0, 1, 0] := by
  constructor <;> funext k <;> fin_cases k <;> simp [current, wf, wu, Finset.sum_range_succ]

theorem w_cross : cross ![3, 4, 0] ![0, 1, 0] = ![0, 0, 3] := by
  funext k; fin_cases k <;> simp [cross]

theorem w_len : len (![0, 0, 3] : V3 ℝ) = 3 := len_eq (by norm_num) (by simp)

theorem w_B : (ax ![3, 4, 0] ![0, 1, 0]).B = ![0, 0, 1] := by
  simp only [ax, finish, w_cross]
  funext k; simp only [unit, w_len]; fin_cases k <;> simp

theorem w_n : cross ![0, 0, 1] ![3, 4, 0] = ![-4, 3, 0] := by
  funext k; fin_cases k <;> simp [cross]

theorem w_nlen : len (![-4, 3, 0] : V3 ℝ) = 5 := len_eq (by norm_num) (by simp; norm_num)

theorem w_N : (ax ![3, 4, 0] ![0, 1, 0]).N = ![-4 / 5, 3 / 5, 0] := by
  have : (ax ![3, 4, 0] ![0, 1, 0]).N = unit (cross (ax ![3, 4, 0] ![0, 1, 0]).B ![3, 4, 0]) := rfl
  rw [this, w_B, w_n]
  funext k; simp only [unit, w_nlen]; fin_cases k <;> simp

theorem w_dbu (i : Fin 3) (hi : i ≠ 2) : dbu ![3, 4, 0] ![0, 1, 0] (ax ![3, 4, 0] ![0, 1, 0]) wf 0 i = 0 := by
  funext k
  simp only [dbu, dunit, w_B, normalPart, db_eq, Fin.sum_univ_three]
  fin_cases i <;> fin_cases k <;> simp [cross, single, wf] at hi ⊢

theorem w_dn0 : dnc ![3, 4, 0] ![0, 1, 0] (ax ![3, 4, 0] ![0, 1, 0]) wf 0 0 = ![0, 1, 0] := by
  funext k
  rw [dnc, dn_eq, w_dbu 0 (by decide), w_B]
  fin_cases k <;> simp [cross, single, wf]

theorem w_dn1 : dnc ![3, 4, 0] ![0, 1, 0] (ax ![3, 4, 0] ![0, 1, 0]) wf 0 1 = ![-1, 0, 0] := by
  funext k
  rw [dnc, dn_eq, w_dbu 1 (by decide), w_B]
  fin_cases k <;> simp [cross, single, wf]

theorem w_initial : ∃ X, evalLocalAxes ![3, 4, 0] ![0, 0, 0] = .ok X := by
  have z : ∀ v : V3 ℝ, v = ![0, 0, 0] → len (cross ![3, 4, 0] v) = 0 := by
    intro v hv; subst hv; exact len_eq (le_refl _) (by simp [cross])
  have hne : (![3, 4, 0] : V3 ℝ) ≠ 0 := fun h => by simpa using congrFun h 0
  have l3 : len (cross ![3, 4, 0] ![-4, 3, 0]) = 25 := len_eq (by norm_num) (by simp [cross]; norm_num)
  refine ⟨finish ![3, 4, 0] (cross ![3, 4, 0] ![-4, 3, 0]), ?_⟩
  unfold evalLocalAxes
  simp only
  rw [if_pos (by rw [z _ rfl]; norm_num), if_neg hne, if_pos, if_neg]
  · simp
  · have : (![-(![3, 4, 0] : V3 ℝ) 1, (![3, 4, 0] : V3 ℝ) 0, 0] : V3 ℝ) = ![-4, 3, 0] := by
      funext k; fin_cases k <;> simp
    rw [this, l3]; norm_num
  · rw [z]
    · norm_num
    · funext k; fin_cases k <;> simp [dot]

/-- C45 is violated: for an initially straight cable with tangent vector (3,4,0) that is bent in its plane, the tangent stiffness
is not minus the derivative of the internal forces. -/
theorem C45_tangent_violated :
    ∃ (p : Point) (q : ℝ → Point), evalInt 2 0 1 1 ![3, 4, 0] ![0, 0, 0] wf wu = .ok p ∧
      (∀ᶠ t in 𝓝 (0 : ℝ), evalInt 2 0 1 1 ![3, 4, 0] ![0, 0, 0] wf (push wu 0 1 t) = .ok (q t)) ∧
      ¬ HasDerivAt (fun t => (q t).S 0 0) (-(p.Km 0 0 0 1 + p.Kg 0 0 0 1)) 0 := by
  obtain ⟨X, hX⟩ := w_initial
  have hc : 1 / 1000000000000 < len (cross ![3, 4, 0] ![0, 1, 0]) := by rw [w_cross, w_len]; norm_num
  have h : 0 < len (cross ![3, 4, 0] ![0, 1, 0]) := lt_trans (by norm_num) hc
  refine ⟨contributions 0 1 1 ![3, 4, 0] ![0, 0, 0] ![3, 4, 0] ![0, 1, 0] X (ax ![3, 4, 0] ![0, 1, 0]) wf,
    fun t => contributions 0 1 1 ![3, 4, 0] ![0, 0, 0]
    (moved1 ![3, 4, 0] (wf.dN 0) 1 t) (moved1 ![0, 1, 0] (wf.d2N 0) 1 t) X
      (ax (moved1 ![3, 4, 0] (wf.dN 0) 1 t) (moved1 ![0, 1, 0] (wf.d2N 0) 1 t)) wf, ?_, ?_, ?_⟩
  · simp only [evalInt, hX, Res.bind, w_current.1, w_current.2, axes_ok _ _ hc.le]
  · have := evalInt_push wf 0 1 2 0 1 1 ![3, 4, 0] ![0, 0, 0] wu X (by norm_num) hX
      (by rw [w_current.1, w_current.2]; exact hc)
    rw [w_current.1, w_current.2] at this
    exact this
  · intro hd
    have hu := hd.unique (S_var ![3, 4, 0] ![0, 1, 0] wf 0 0 0 1 h 0 1 1 ![3, 4, 0] ![0, 0, 0] X)
    have hb := ddbu_eq ![3, 4, 0] ![0, 1, 0] wf 0 0 0 1 h (by
      simp only [w_cross, db_eq, Fin.sum_univ_three, dot]
      simp [cross, single, wf])
    have e := ddkappa_eq ![3, 4, 0] ![0, 1, 0] wf 0 0 0 1 h hb
    simp only [w_B, w_n, w_nlen, w_dn0, w_dn1] at e
    simp [contributions, curvature, w_N, e, weight, dot, Fin.sum_univ_three] at hu
    norm_num at hu

/-- Tangent vectors along a coordinate axis with a curvature along another one meet the hypotheses of `C45_tangent_partial`. -/
example (f : Basis) (a b : Nat) (i j : Fin 3) :
    let dx : V3 ℝ := ![1, 0, 0]
    let ddx : V3 ℝ := ![0, 1, 0]
    1 / 1000000000000 < len (cross dx ddx) ∧
    (let B := cross dx ddx
      let da := db dx ddx (f.dN a) (f.d2N a) i
      let dc := db dx ddx (f.dN b) (f.d2N b) j
      ∑ k : Fin 3, B k * B k * da k * dc k = (∑ k : Fin 3, B k * da k) * (∑ k : Fin 3, B k * dc k)) ∧
    (let n := cross (unit (cross dx ddx)) dx
      let da := dnc dx ddx (ax dx ddx) f a i
      let dc := dnc dx ddx (ax dx ddx) f b j
      ∑ k : Fin 3, n k * n k * da k * dc k = (∑ k : Fin 3, n k * da k) * (∑ k : Fin 3, n k * dc k)) := by
  have e1 : cross ![1, 0, 0] ![0, 1, 0] = ![0, 0, 1] := by funext k; fin_cases k <;> simp [cross]
  have e2 : len (![0, 0, 1] : V3 ℝ) = 1 := len_eq (by norm_num) (by simp)
  have e3 : unit (![0, 0, 1] : V3 ℝ) = ![0, 0, 1] := by funext k; simp only [unit, e2]; simp
  have e4 : cross ![0, 0, 1] ![1, 0, 0] = ![0, 1, 0] := by funext k; fin_cases k <;> simp [cross]
  simp only [e1, e2, e3, e4]
  refine ⟨by norm_num, ?_, ?_⟩ <;> simp [Fin.sum_univ_three]

/-- C45: both stiffness matrices are symmetric. -/
theorem C45_symmetric (EA EI w : ℝ) (dX ddX dx ddx : V3 ℝ) (X x : Axes) (f : Basis) (a b : Nat) (i j : Fin 3) :
    let p := contributions EA EI w dX ddX dx ddx X x f
    p.Km a i b j = p.Km b j a i ∧ p.Kg a i b j = p.Kg b j a i := by
  have hb : ddbu dx ddx x f a b i j = ddbu dx ddx x f b a j i := by
    funext k
    simp only [ddbu, ddunit, ddnormal, Fin.sum_univ_three, ddb_eq]
    ring
  have hn : ddnu dx ddx x f a b i j = ddnu dx ddx x f b a j i := by
    funext k
    simp only [ddnu, ddunit, ddnormal, Fin.sum_univ_three, ddn_eq, hb]
    ring
  have hk : ddkappa dx ddx x f a b i j = ddkappa dx ddx x f b a j i := by
    simp only [ddkappa, hn]; ring
  have he : ddeps f a b i j = ddeps f b a j i := by
    simp only [ddeps, eq_comm (a := i), mul_comm (f.dN a)]
  simp only [contributions, hk, he]
  exact ⟨by ring, trivial⟩

/-! ### Local axes -/

/-- Vectors normal to the tangent give orthonormal axes. -/
theorem finish_spec (dX B : V3 ℝ) (hB : 0 < len B) (hp : dot dX B = 0) (hd : 0 < len dX) :
    let x := finish dX B
    len x.B = 1 ∧ len x.N = 1 ∧ dot x.B x.N = 0 ∧ dot dX x.B = 0 ∧ dot dX x.N = 0 ∧
      ∀ k, cross x.N x.B k = dX k / len dX := by
  have hu := unit_sq B hB
  have hpu : dot dX (unit B) = 0 := by
    have : dot dX (unit B) = dot dX B / len B := by simp only [dot, unit]; ring
    rw [this, hp, zero_div]
  have hsq := len_sq dX
  have hn : len (cross (unit B) dX) = len dX := by
    refine len_eq hd.le ?_
    rw [hsq]
    simp only [dot] at hpu
    generalize unit B = u at *
    simp [cross]
    linear_combination (dX 0 * dX 0 + dX 1 * dX 1 + dX 2 * dX 2) * hu - (dX 0 * u 0 + dX 1 * u 1 + dX 2 * u 2) * hpu
  have hun := unit_sq (cross (unit B) dX) (by rw [hn]; exact hd)
  have hd' := hd.ne'
  simp only [finish]
  refine ⟨len_eq (by norm_num) (by rw [hu]; norm_num), len_eq (by norm_num) (by rw [hun]; norm_num), ?_, hpu, ?_, ?_⟩
  · have : dot (unit B) (unit (cross (unit B) dX)) = dot (unit B) (cross (unit B) dX) / len (cross (unit B) dX) := by
      simp only [dot, unit]; ring
    rw [this]
    simp [dot, cross]
    left; ring
  · have : dot dX (unit (cross (unit B) dX)) = dot dX (cross (unit B) dX) / len (cross (unit B) dX) := by
      simp only [dot, unit]; ring
    rw [this]
    simp [dot, cross]
    left; ring
  · intro k
    have e : cross (unit (cross (unit B) dX)) (unit B) k = cross (cross (unit B) dX) (unit B) k / len dX := by
      have e' : unit (cross (unit B) dX) = fun k => cross (unit B) dX k / len dX := by funext k; rw [unit, hn]
      rw [e']
      generalize cross (unit B) dX = c
      fin_cases k <;> simp [cross] <;> ring
    rw [e]
    congr 1
    simp only [dot] at hpu
    generalize unit B = u at *
    fin_cases k <;> simp [cross]
    · linear_combination dX 0 * hu - u 0 * hpu
    · linear_combination dX 1 * hu - u 1 * hpu
    · linear_combination dX 2 * hu - u 2 * hpu

theorem dot_cross (a b : V3 ℝ) : dot a (cross a b) = 0 := by simp [dot, cross]; ring

theorem len_ne {d : V3 ℝ} (h : d ≠ 0) : 0 < len d := by
  apply len_pos
  have a0 := mul_self_nonneg (d 0)
  have a1 := mul_self_nonneg (d 1)
  have a2 := mul_self_nonneg (d 2)
  rcases lt_or_ge 0 (d 0 * d 0 + d 1 * d 1 + d 2 * d 2) with hh | hh
  · exact hh
  · exfalso
    apply h
    have e0 : d 0 = 0 := mul_self_eq_zero.mp (by linarith)
    have e1 : d 1 = 0 := mul_self_eq_zero.mp (by linarith)
    have e2 : d 2 = 0 := mul_self_eq_zero.mp (by linarith)
    funext k; fin_cases k <;> simp [e0, e1, e2]

/-- C75: whenever axes are returned, the binormal and the normal vector are unit vectors, and together with the tangent direction
they are a right-handed orthogonal system. -/
theorem C75_axes (dX ddX : V3 ℝ) (x : Axes) (h : evalLocalAxes dX ddX = .ok x) :
    x.B 0 * x.B 0 + x.B 1 * x.B 1 + x.B 2 * x.B 2 = 1 ∧ x.N 0 * x.N 0 + x.N 1 * x.N 1 + x.N 2 * x.N 2 = 1 ∧
    dot x.B x.N = 0 ∧ dot dX x.B = 0 ∧ dot dX x.N = 0 ∧ ∀ k, cross x.N x.B k = dX k / len dX := by
  have main : ∀ B, 0 < len B → dot dX B = 0 → 0 < len dX → x = finish dX B →
      x.B 0 * x.B 0 + x.B 1 * x.B 1 + x.B 2 * x.B 2 = 1 ∧ x.N 0 * x.N 0 + x.N 1 * x.N 1 + x.N 2 * x.N 2 = 1 ∧
      dot x.B x.N = 0 ∧ dot dX x.B = 0 ∧ dot dX x.N = 0 ∧ ∀ k, cross x.N x.B k = dX k / len dX := by
    intro B h1 h2 h3 h4
    have := finish_spec dX B h1 h2 h3
    simp only [← h4] at this
    obtain ⟨a, b, c⟩ := this
    exact ⟨by rw [← len_sq, a]; norm_num, by rw [← len_sq, b]; norm_num, c⟩
  have hinj : ∀ B, (Res.ok (finish dX B) : Res Axes) = .ok x → x = finish dX B := by
    intro B hB; injection hB with hB; exact hB.symm
  unfold evalLocalAxes at h
  simp only at h
  by_cases c1 : len (cross dX ddX) < 1 / 1000000000000
  · rw [if_pos c1] at h
    by_cases c2 : dX = 0
    · rw [if_pos c2] at h; cases h
    · rw [if_neg c2] at h
      have hd := len_ne c2
      split_ifs at h with c3 c4 c5 c6
      · refine main _ (lt_of_lt_of_le (by norm_num) (not_lt.mp c6)) (dot_cross _ _) hd (hinj _ h)
      · rename_i c7
        refine main _ (lt_of_lt_of_le (by norm_num) (not_lt.mp c7)) ?_ hd (hinj _ h)
        simp [dot]; ring
      · refine main _ (lt_of_lt_of_le (by norm_num) (not_lt.mp c4)) (dot_cross _ _) hd (hinj _ h)
      · refine main _ (lt_of_lt_of_le (by norm_num) (not_lt.mp c3)) (dot_cross _ _) hd (hinj _ h)
  · rw [if_neg c1] at h
    have hB : 0 < len (cross dX ddX) := lt_of_lt_of_le (by norm_num) (not_lt.mp c1)
    refine main _ hB (dot_cross _ _) ?_ (hinj _ h)
    apply len_ne
    rintro rfl
    have : len (cross 0 ddX) = 0 := len_eq (le_refl _) (by simp [cross])
    rw [this] at hB; exact lt_irrefl _ hB

/-- C75: where the cable is curved, the normal vector points to the centre of curvature: the second derivative of the position is
in the plane of tangent and normal vector, and its normal component is the length of the cross product of the two derivatives,
divided by that of the tangent vector. -/
theorem C75_curvature (dX ddX : V3 ℝ) (h : 1 / 1000000000000 ≤ len (cross dX ddX)) :
    ∃ x, evalLocalAxes dX ddX = .ok x ∧ dot ddX x.B = 0 ∧ dot ddX x.N = len (cross dX ddX) / len dX := by
  refine ⟨ax dX ddX, axes_ok _ _ h, ?_, ?_⟩
  · have hB : 0 < len (cross dX ddX) := lt_of_lt_of_le (by norm_num) h
    have : dot ddX (ax dX ddX).B = dot ddX (cross dX ddX) / len (cross dX ddX) := by
      simp only [dot, ax, finish, unit]; ring
    rw [this]
    simp [dot, cross]
    left; ring
  · have hB : 0 < len (cross dX ddX) := lt_of_lt_of_le (by norm_num) h
    have hd : 0 < len dX := by
      apply len_ne
      rintro rfl
      have : len (cross 0 ddX) = 0 := len_eq (le_refl _) (by simp [cross])
      rw [this] at hB; exact lt_irrefl _ hB
    have hu := unit_sq _ hB
    have hsq := len_sq dX
    have hsB := len_sq (cross dX ddX)
    have hpu : dX 0 * unit (cross dX ddX) 0 + dX 1 * unit (cross dX ddX) 1 + dX 2 * unit (cross dX ddX) 2 = 0 := by
      simp only [unit]
      simp [cross]
      field_simp
      ring
    have hn : len (cross (unit (cross dX ddX)) dX) = len dX := by
      refine len_eq hd.le ?_
      rw [hsq]
      generalize unit (cross dX ddX) = u at *
      simp [cross]
      linear_combination (dX 0 * dX 0 + dX 1 * dX 1 + dX 2 * dX 2) * hu - (dX 0 * u 0 + dX 1 * u 1 + dX 2 * u 2) * hpu
    have e1 : dot ddX (ax dX ddX).N = dot ddX (cross (unit (cross dX ddX)) dX) / len dX := by
      simp only [ax, finish]
      rw [show unit (cross (unit (cross dX ddX)) dX) = fun k => cross (unit (cross dX ddX)) dX k / len dX from by
        funext k; rw [unit, hn]]
      simp only [dot]; ring
    rw [e1]
    congr 1
    have e2 : dot ddX (cross (unit (cross dX ddX)) dX) = dot (cross dX ddX) (cross dX ddX) / len (cross dX ddX) := by
      have : dot ddX (cross (unit (cross dX ddX)) dX) = dot (cross dX ddX) (unit (cross dX ddX)) := by
        generalize unit (cross dX ddX) = u
        simp [dot, cross]; ring
      rw [this]
      simp only [dot, unit]; ring
    rw [e2]
    have e3 : dot (cross dX ddX) (cross dX ddX) = len (cross dX ddX) * len (cross dX ddX) := hsB.symm
    rw [e3]
    field_simp

/-- C75: tangent vectors that are not too short always get local axes. -/
theorem C75_found (dX ddX : V3 ℝ) (h : 1 / 1000 ≤ len dX) : ∃ x, evalLocalAxes dX ddX = .ok x := by
  have hd : 0 < len dX := lt_of_lt_of_le (by norm_num) h
  have hne : dX ≠ 0 := by
    rintro rfl
    have : len (0 : V3 ℝ) = 0 := len_eq (le_refl _) (by simp)
    rw [this] at hd; exact lt_irrefl _ hd
  unfold evalLocalAxes
  simp only
  by_cases c1 : len (cross dX ddX) < 1 / 1000000000000
  · rw [if_pos c1, if_neg hne]
    split_ifs with c3 c4 c5 c6 c7
    · exfalso
      have s4 : len (cross dX ![-dX 1, dX 0, 0]) * len (cross dX ![-dX 1, dX 0, 0]) ≤ 1 / 10000000000 * (1 / 10000000000) :=
        mul_self_le_mul_self (Real.sqrt_nonneg _) c4.le
      have s6 : len (cross dX ![-dX 1 * dX 0, dX 0 * dX 0 + dX 2 * dX 2, -dX 1 * dX 2]) *
          len (cross dX ![-dX 1 * dX 0, dX 0 * dX 0 + dX 2 * dX 2, -dX 1 * dX 2]) ≤ 1 / 10000000000 * (1 / 10000000000) :=
        mul_self_le_mul_self (Real.sqrt_nonneg _) c6.le
      rw [len_sq] at s4 s6
      have s1 : 1 / 1000 * (1 / 1000) ≤ len dX * len dX := mul_self_le_mul_self (by norm_num) h
      rw [len_sq] at s1
      simp [cross] at s4 s6
      set x := dX 0
      set y := dX 1
      set z := dX 2
      have e4 : (x * x + y * y) * (x * x + y * y + z * z) ≤ 1 / 10000000000 * (1 / 10000000000) := by
        refine le_trans (le_of_eq ?_) (s4.trans (le_of_eq (by norm_num))); ring
      have e6 : (x * x + y * y + z * z) * ((x * x + y * y + z * z) * (x * x + z * z)) ≤ 1 / 10000000000 * (1 / 10000000000) := by
        refine le_trans (le_of_eq ?_) (s6.trans (le_of_eq (by norm_num))); ring
      have nx := mul_self_nonneg x
      have ny := mul_self_nonneg y
      have nz := mul_self_nonneg z
      set L := x * x + y * y + z * z with hL
      have hr : x * x + y * y ≤ 1 / 1000000000000 := by
        by_contra hc
        push Not at hc
        have : 1 / 1000000000000 * (1 / 1000000) < (x * x + y * y) * L :=
          mul_lt_mul hc (by norm_num at s1 ⊢; exact s1) (by norm_num) (by linarith)
        linarith
      have hz : L - 1 / 1000000000000 ≤ x * x + z * z := by linarith
      have h3 : 1 / 1000000 * (1 / 1000000 * (1 / 1000000 - 1 / 1000000000000)) ≤ L * (L * (x * x + z * z)) := by
        have hL6 : 1 / 1000000 ≤ L := by norm_num at s1 ⊢; exact s1
        refine mul_le_mul hL6 (mul_le_mul hL6 (by linarith) (by norm_num) (by linarith)) (by norm_num) (by linarith)
      norm_num at h3 e6
      linarith
    · exact ⟨_, rfl⟩
    · exfalso
      have s4 : len (cross dX ![-dX 1, dX 0, 0]) * len (cross dX ![-dX 1, dX 0, 0]) ≤ 1 / 10000000000 * (1 / 10000000000) :=
        mul_self_le_mul_self (Real.sqrt_nonneg _) c4.le
      rw [len_sq] at s4
      have s1 : 1 / 1000 * (1 / 1000) ≤ len dX * len dX := mul_self_le_mul_self (by norm_num) h
      rw [len_sq] at s1
      simp [cross] at s4
      have hyz : dX 2 * dX 2 ≤ dX 1 * dX 1 := by
        have := mul_self_le_mul_self (abs_nonneg _) (not_lt.mp c5)
        simpa only [abs_mul_abs_self] using this
      set x := dX 0
      set y := dX 1
      set z := dX 2
      have e4 : (x * x + y * y) * (x * x + y * y + z * z) ≤ 1 / 10000000000 * (1 / 10000000000) := by
        refine le_trans (le_of_eq ?_) (s4.trans (le_of_eq (by norm_num))); ring
      have nx := mul_self_nonneg x
      have h1 : 1 / 2000000 ≤ x * x + y * y := by linarith
      have h2 : 1 / 2000000 * (1 / 1000000) ≤ (x * x + y * y) * (x * x + y * y + z * z) :=
        mul_le_mul h1 (by norm_num at s1 ⊢; exact s1) (by norm_num) (by linarith)
      linarith
    all_goals exact ⟨_, rfl⟩
  · rw [if_neg c1]; exact ⟨_, rfl⟩

/-- C75 is violated: a degenerated element, with tangent vector zero, is not reported; instead, axes whose components are not
numbers are used. -/
theorem C75_degenerated_violated (ddX : V3 ℝ) : evalLocalAxes 0 ddX = .ub ∧ evalLocalAxes 0 ddX ≠ .fail := by
  have : len (cross 0 ddX) = 0 := len_eq (le_refl _) (by simp [cross])
  have e : evalLocalAxes 0 ddX = .ub := by
    unfold evalLocalAxes
    simp only
    rw [if_pos (by rw [this]; norm_num), if_pos trivial]
  exact ⟨e, by rw [e]; exact fun h => by cases h⟩

example : ∃ dX ddX : V3 ℝ, 1 / 1000000000000 ≤ len (cross dX ddX) ∧ 1 / 1000 ≤ len dX :=
  ⟨![3, 4, 0], ![0, 1, 0], by rw [w_cross, w_len]; norm_num,
    by rw [len_eq (c := 5) (by norm_num) (by simp; norm_num)]; norm_num⟩

/-! ### Section forces, mass and gravitation -/

/-- C76: section forces for a parametrisation by arc length: the axial force is `EA` times the Green strain, and the bending moment
is `EI` times the change of curvature. Missing: other parametrisations, see `C76_violated`. -/
theorem C76_sectionForces_partial (nen : Nat) (EA EI : ℝ) (dX ddX : V3 ℝ) (f : Basis) (u : Nat → V3 ℝ) (dx ddx : V3 ℝ)
    (hdx : dx = fun i => dX i + ∑ a ∈ Finset.range nen, f.dN a * u a i)
    (hddx : ddx = fun i => ddX i + ∑ a ∈ Finset.range nen, f.d2N a * u a i) (h1 : len dX = 1)
    (hC : 1 / 1000000000000 ≤ len (cross dX ddX)) (hc : 1 / 1000000000000 ≤ len (cross dx ddx)) :
    evalSol nen EA EI dX ddX f u = .ok (EA * ((len dx ^ 2 - 1) / 2),
      EI * (len (cross dx ddx) / len dx - len (cross dX ddX))) := by
  obtain ⟨X, e1, -, e2⟩ := C75_curvature dX ddX hC
  obtain ⟨x, e3, -, e4⟩ := C75_curvature dx ddx hc
  have c1 : current nen dX f.dN u = dx := hdx.symm
  have c2 : current nen ddX f.d2N u = ddx := hddx.symm
  simp only [evalSol, e1, Res.bind, c1, c2, e3, e4, e2]
  have s1 : dot dx dx = len dx ^ 2 := by rw [pow_two, len_sq]; rfl
  have s2 : dot dX dX = 1 := by have := len_sq dX; rw [h1] at this; simp only [dot]; linarith
  rw [s1, s2, h1]
  congr 2
  · ring
  · ring

/-- C76 is violated: with another parametrisation of the same curve (`c` times faster), the section forces of the same
deformation are multiplied by the square of `c`. -/
theorem C76_violated (nen : Nat) (EA EI c : ℝ) (hc : 1 ≤ c) (dX ddX : V3 ℝ) (f : Basis) (u : Nat → V3 ℝ) (N M : ℝ)
    (h : evalSol nen EA EI dX ddX f u = .ok (N, M)) (hC : 1 / 1000000000000 ≤ len (cross dX ddX))
    (hc' : 1 / 1000000000000 ≤ len (cross (current nen dX f.dN u) (current nen ddX f.d2N u))) :
    evalSol nen EA EI (fun i => c * dX i) (fun i => c * (c * ddX i)) ⟨fun a => c * f.dN a, fun a => c * (c * f.d2N a)⟩ u =
      .ok (c * c * N, c * c * M) := by
  have hp : 0 < c := lt_of_lt_of_le (by norm_num) hc
  have sc : ∀ v : V3 ℝ, len (fun i => c * v i) = c * len v := by
    intro v
    refine len_eq (mul_nonneg hp.le (Real.sqrt_nonneg _)) ?_
    have := len_sq v
    linear_combination (-c * c) * this
  have cr : ∀ a b : V3 ℝ, cross (fun i => c * a i) (fun i => c * (c * b i)) = fun i => c * (c * (c * cross a b i)) := by
    intro a b
    funext k; fin_cases k <;> simp [cross] <;> ring
  have hax : ∀ a b : V3 ℝ, 1 / 1000000000000 ≤ len (cross a b) → ∃ x y, evalLocalAxes a b = .ok x ∧
      evalLocalAxes (fun i => c * a i) (fun i => c * (c * b i)) = .ok y ∧
      dot (fun i => c * (c * b i)) y.N = c * c * dot b x.N := by
    intro a b hab
    obtain ⟨x, e1, -, e2⟩ := C75_curvature a b hab
    have l1 : len (cross (fun i => c * a i) (fun i => c * (c * b i))) = c * (c * (c * len (cross a b))) := by
      rw [cr, sc, sc, sc]
    have hge : 1 / 1000000000000 ≤ len (cross (fun i => c * a i) (fun i => c * (c * b i))) := by
      rw [l1]
      have h0 : 0 ≤ len (cross a b) := Real.sqrt_nonneg _
      have k1 : len (cross a b) ≤ c * len (cross a b) := le_mul_of_one_le_left h0 hc
      have k2 : c * len (cross a b) ≤ c * (c * len (cross a b)) := le_mul_of_one_le_left (by positivity) hc
      have k3 : c * (c * len (cross a b)) ≤ c * (c * (c * len (cross a b))) := le_mul_of_one_le_left (by positivity) hc
      linarith
    obtain ⟨y, e3, -, e4⟩ := C75_curvature _ _ hge
    refine ⟨x, y, e1, e3, ?_⟩
    rw [e4, e2, l1, sc]
    field_simp
  obtain ⟨X, Y, e1, e2, e3⟩ := hax dX ddX hC
  obtain ⟨x, y, f1, f2, f3⟩ := hax _ _ hc'
  have c1 : current nen (fun i => c * dX i) (fun a => c * f.dN a) u = fun i => c * current nen dX f.dN u i := by
    funext i; simp only [current, mul_add, Finset.mul_sum]; congr 1; exact Finset.sum_congr rfl fun a _ => by ring
  have c2 : current nen (fun i => c * (c * ddX i)) (fun a => c * (c * f.d2N a)) u = fun i => c * (c * current nen ddX f.d2N u i) := by
    funext i; simp only [current, mul_add, Finset.mul_sum]; congr 1; exact Finset.sum_congr rfl fun a _ => by ring
  simp only [evalSol, e1, Res.bind, f1] at h
  simp only [evalSol, e2, Res.bind, c1, c2, f2, e3, f3]
  injection h with h
  injection h with h1 h2
  rw [← h1, ← h2]
  congr 2
  · simp only [dot]; ring
  · ring

/-- C42 for cables: for basis functions with sum one, the mass matrix gives twice the kinetic energy of the mass of the point for
every rigid motion without rotation, and the gravitation forces add up to its weight. -/
theorem C42_cable_mass (nen : Nat) (rho w : ℝ) (hr : 0 ≤ rho) (N : Nat → ℝ) (hN : ∑ a ∈ Finset.range nen, N a = 1) (v g : V3 ℝ)
    (i : Fin 3) :
    (∑ a ∈ Finset.range nen, ∑ i : Fin 3, ∑ b ∈ Finset.range nen, ∑ j : Fin 3, v i * massEntry rho w N a i b j * v j) =
      rho * w * (v 0 ^ 2 + v 1 ^ 2 + v 2 ^ 2) ∧
    ∑ a ∈ Finset.range nen, gravityEntry rho w N g a i = rho * w * g i := by
  rcases hr.lt_or_eq with h | h
  · simp only [massEntry, gravityEntry, if_pos h]
    constructor
    · have : ∀ a b : Nat, ∀ i : Fin 3, ∑ j : Fin 3, v i * (if i = j then N a * N b * (rho * w) else 0) * v j =
          (rho * w) * (N a * (v i * v i)) * N b := by
        intro a b i
        rw [Finset.sum_eq_single i]
        · simp; ring
        · intro j _ hj; simp [Ne.symm hj]
        · intro h; simp at h
      simp only [this, ← Finset.mul_sum, hN, mul_one, Fin.sum_univ_three]
      rw [← Finset.sum_mul, hN]; ring
    · have : ∀ a, N a * g i * (rho * w) = N a * (rho * w * g i) := fun a => by ring
      simp only [this, ← Finset.sum_mul, hN, one_mul]
  · simp [massEntry, gravityEntry, ← h]

end Verif.Cable
