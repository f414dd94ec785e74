/-
Property C109: printed norms and error estimates are those their labels say.
-/
import Mathlib.Algebra.Order.Field.Basic
import Mathlib.Algebra.Order.Ring.Rat
import Mathlib.Algebra.Order.Chebyshev
import Mathlib.Algebra.Order.BigOperators.Group.List
import Mathlib.Tactic.Positivity
import Mathlib.Tactic.Linarith
import Mathlib.Tactic.NormNum
import Verif.Model.NormPrint
import Verif.Spec.Norms
import Verif.Model.NormUL

set_option linter.unusedSectionVars false
set_option linter.unusedSimpArgs false
set_option linter.unusedVariables false

namespace Verif.NormPrint

open Verif.Norms.Spec

section field

variable {K : Type} [Field K]

/-- C109: the error estimates of a recovered solution of a solid. The relative errors are per cent of the exact energy norm, or of the recovered one if there is no analytical solution. -/
theorem C109_solid (val : Qty → K) (n : Nat) :
    printNorms true ((qPrj true).map val) ((qMain true n).map val) = some
      [(.rEnergy, val .arr), (.rError, val .arh), (.rRel true, val .arh * (100 / val .auu)), (.xError, val .aur), (.xRel, val .aur * (100 / val .auu)), (.eff, val .arh / val .aee)] ∧
    printNorms false ((qPrj false).map val) ((qMain false n).map val) = some
      [(.rEnergy, val .arr), (.rError, val .arh), (.rRel false, val .arh * (100 / val .arr))] := by
  constructor
  · simp [printNorms, at1, resLines, exactLines, qPrj, qMain]
  · simp [printNorms, at1, resLines, exactLines, qPrj, qMain]

/-- C109: the error estimates of a recovered solution of a plate or a thin beam. -/
theorem C109_plate (val : PQty → K) :
    printNorms true ((pPrj true).map val) ((pMain true).map val) = some
      [(.rEnergy, val .arr), (.rError, val .arh), (.rRel true, val .arh * (100 / val .auu)), (.rRes, val .resr), (.rRelRes true, val .resr * (100 / val .auu)), (.jump, val .jump),
       (.relJump true, val .jump * (100 / val .auu)), (.xError, val .aur), (.xRel, val .aur * (100 / val .auu)), (.eff, val .arh / val .aee), (.effEx, (val .arh + val .aur) / val .aee),
       (.effRes, (val .arh + val .resr) / val .aee)] ∧
    printNorms false ((pPrj false).map val) ((pMain false).map val) = some
      [(.rEnergy, val .arr), (.rError, val .arh), (.rRel false, val .arh * (100 / val .arr)), (.rRes, val .resr), (.rRelRes false, val .resr * (100 / val .arr))] := by
  constructor
  · simp [printNorms, at1, resLines, exactLines, pPrj, pMain]
  · simp [printNorms, at1, resLines, exactLines, pPrj, pMain]

/-- C109: the L2 norms of a recovered solution of solids and plates; shells have none in this place. -/
theorem C109_l2 (val : Qty → K) (pval : PQty → K) (ana : Bool) (g : List K) :
    l2Lines false ((qPrj ana).map val) = some [(.l2, val .l2r), (.l2err, val .l2h), (.l2rel, val .l2h / val .l2r * 100)] ∧
    l2Lines false ((pPrj ana).map pval) = some [(.l2, pval .l2r), (.l2err, pval .l2h), (.l2rel, pval .l2h / pval .l2r * 100)] ∧
    l2Lines true g = some [] := by
  cases ana <;> simp [l2Lines, at1, qPrj, pPrj]

theorem qMain_false (n i : Nat) (h : i < n) : (qMain false n)[3 + i]? = some (.ahw i) := by
  have : (qMain false n) = [.ahh, .ext, .vol] ++ (List.range n).map Qty.ahw := rfl
  rw [this, List.getElem?_append_right (by simp)]
  simp [h]

theorem pairs {α : Type} (f : Nat → α) (n : Nat) : (List.range n).flatMap (fun k => [f (2 * k), f (2 * k + 1)]) = (List.range (2 * n)).map f := by
  induction n with
  | zero => rfl
  | succ n ih =>
    rw [List.range_succ, List.flatMap_append, ih, show 2 * (n + 1) = 2 * n + 1 + 1 by ring, List.range_succ, List.range_succ]
    simp

/-- The quantity at a position after the volume. -/
def sec (i : Nat) : Qty := if i % 2 = 0 then .ahw (i / 2) else .auw (i / 2)

theorem qMain_true (n : Nat) : qMain true n = [.ahh, .ext, .auu, .aee, .vol] ++ (List.range (2 * n)).map sec := by
  have : qMain true n = [.ahh, .ext, .auu, .aee, .vol] ++ (List.range n).flatMap fun k => [.ahw k, .auw k] := rfl
  rw [this, ← pairs]
  congr 1
  congr 1
  funext k
  have h1 : 2 * k % 2 = 0 := by omega
  have h2 : (2 * k + 1) % 2 ≠ 0 := by omega
  have h3 : 2 * k / 2 = k := by omega
  have h4 : (2 * k + 1) / 2 = k := by omega
  simp only [sec, if_pos h1, if_neg h2, h3, h4]

theorem loop_false (val : Qty → K) (n : Nat) (fuel i : Nat) (hi : i ≤ n) (hf : n ≤ i + fuel) :
    vcpLoop false n ((qMain false n).map val) fuel i = (List.range' i (n - i)).map fun k => (Lab.recovered (k + 1), val (.ahw k)) := by
  have hl : ((qMain false n).map val).length = 3 + n := by simp [qMain]; omega
  induction fuel generalizing i with
  | zero =>
    have : n - i = 0 := by omega
    rw [this]; rfl
  | succ fuel ih =>
    unfold vcpLoop
    by_cases h : i < n
    · have hv : vcpIndex false n (i + 1) = 3 + (i + 1) := by
        unfold vcpIndex
        rw [if_neg (by simp; omega)]; simp
      have hc : 3 + (i + 1) ≠ 0 ∧ ((qMain false n).map val).length ≥ 3 + (i + 1) := ⟨by omega, by rw [hl]; omega⟩
      simp only [hv, if_pos hc]
      rw [ih (i + 1) (by omega) (by omega), show n - i = (n - (i + 1)) + 1 by omega, List.range'_succ, List.map_cons]
      have hg : ((qMain false n).map val).getD (3 + (i + 1) - 1) 0 = val (.ahw i) := by
        rw [show 3 + (i + 1) - 1 = 3 + i by omega, List.getD_eq_getElem?_getD, List.getElem?_map, qMain_false n i h]; rfl
      rw [hg]
      simp
    · have hv : vcpIndex false n (i + 1) = 0 := by
        unfold vcpIndex
        rw [if_pos (by simp; omega)]
      have : n - i = 0 := by omega
      simp only [hv, this]
      simp

theorem loop_true (val : Qty → K) (n : Nat) (fuel i : Nat) (hi : i ≤ 2 * n) (hf : 2 * n ≤ i + fuel) :
    vcpLoop true n ((qMain true n).map val) fuel i =
      (List.range' i (2 * n - i)).map fun k => ((if k % 2 = 0 then Lab.recovered else Lab.exactSec) (k / 2 + 1), val (sec k)) := by
  have hl : ((qMain true n).map val).length = 5 + 2 * n := by rw [qMain_true]; simp; omega
  induction fuel generalizing i with
  | zero =>
    have : 2 * n - i = 0 := by omega
    rw [this]; rfl
  | succ fuel ih =>
    unfold vcpLoop
    by_cases h : i < 2 * n
    · have hv : vcpIndex true n (i + 1) = 5 + (i + 1) := by
        unfold vcpIndex
        rw [if_neg (by simp; omega)]; simp
      have hc : 5 + (i + 1) ≠ 0 ∧ ((qMain true n).map val).length ≥ 5 + (i + 1) := ⟨by omega, by rw [hl]; omega⟩
      simp only [hv, if_pos hc]
      rw [ih (i + 1) (by omega) (by omega), show 2 * n - i = (2 * n - (i + 1)) + 1 by omega, List.range'_succ, List.map_cons]
      have hg : ((qMain true n).map val).getD (5 + (i + 1) - 1) 0 = val (sec i) := by
        rw [show 5 + (i + 1) - 1 = 5 + i by omega, List.getD_eq_getElem?_getD, List.getElem?_map, qMain_true, List.getElem?_append_right (by simp)]
        simp [h]
      rw [hg]
      have hp : ((i + 1) % 2 = 0) ↔ ¬ (i % 2 = 0) := by omega
      by_cases h2 : i % 2 = 0
      · have : ¬ (i + 1) % 2 = 0 := by omega
        simp [h2, this]
      · have : (i + 1) % 2 = 0 := by omega
        simp [h2, this]
    · have hv : vcpIndex true n (i + 1) = 0 := by
        unfold vcpIndex
        rw [if_pos (by simp; omega)]
      have : 2 * n - i = 0 := by omega
      simp only [hv, this]
      simp

variable [LinearOrder K]

/-- C109: the norms of the solution of a solid, with any number of section forces. -/
theorem C109_main (val : Qty → K) (n : Nat) (d : K) :
    mainLines false true n ((qMain true n).map val) none = some ((.energy, val .ahh) :: (if val .ext ≠ 0 then [(.external, val .ext)] else []) ++
      [(.exact, val .auu), (.error, val .aee), (.relError, val .aee * (100 / val .auu))] ++
      (List.range n).flatMap fun k => [(.recovered (k + 1), val (.ahw k)), (.exactSec (k + 1), val (.auw k))]) ∧
    mainLines false false n ((qMain false n).map val) (some d) = some ((.energy, val .ahh) :: (if val .ext ≠ 0 then [(.external, val .ext)] else []) ++
      ((List.range n).map fun k => (.recovered (k + 1), val (.ahw k))) ++ [(.dual, d)]) := by
  constructor
  · have hl : ((qMain true n).map val).length = 5 + 2 * n := by rw [qMain_true]; simp; omega
    have e0 : at1 ((qMain true n).map val) 1 = some (val .ahh) := by simp [at1, qMain]
    have e1 : at1 ((qMain true n).map val) 2 = some (val .ext) := by simp [at1, qMain]
    have e2 : ((qMain true n).map val).getD 2 0 = val .auu := by simp [qMain]
    have e3 : ((qMain true n).map val).getD 3 0 = val .aee := by simp [qMain]
    have hsplit : ∀ r : K, firstVcp true n ((qMain true n).map val) r ++ vcpLoop true n ((qMain true n).map val) (5 + 2 * n) 2 =
        (List.range n).flatMap fun k => [(Lab.recovered (k + 1), val (.ahw k)), (Lab.exactSec (k + 1), val (.auw k))] := by
      intro r
      cases n with
      | zero => simp [firstVcp, vcpIndex, vcpLoop, qMain]
      | succ n =>
        rw [loop_true val (n + 1) _ 2 (by omega) (by omega)]
        have hv : vcpIndex true (n + 1) 1 = 6 := by unfold vcpIndex; rw [if_neg (by simp)]; simp
        have hf : firstVcp true (n + 1) ((qMain true (n + 1)).map val) r = [(.recovered 1, val (.ahw 0)), (.exactSec 1, val (.auw 0))] := by
          unfold firstVcp
          simp only [hv]
          rw [if_pos ⟨by decide, by rw [hl]; omega⟩, if_pos (by simp only [true_and]; rw [hl]; omega)]
          have a : ((qMain true (n + 1)).map val).getD (6 - 1) 0 = val (.ahw 0) := by
            rw [List.getD_eq_getElem?_getD, List.getElem?_map, qMain_true, List.getElem?_append_right (by simp)]
            simp [sec]
          have b : ((qMain true (n + 1)).map val).getD 6 0 = val (.auw 0) := by
            rw [List.getD_eq_getElem?_getD, List.getElem?_map, qMain_true, List.getElem?_append_right (by simp), List.getElem?_map, List.getElem?_range (by simp only [List.length_cons, List.length_nil]; omega)]
            simp [sec]
          rw [a, b]
        rw [hf]
        have hfl : ((List.range (n + 1)).flatMap fun k => [((Lab.recovered (k + 1) : Lab), val (.ahw k)), (Lab.exactSec (k + 1), val (.auw k))]) =
            (List.range (2 * (n + 1))).map fun k => ((if k % 2 = 0 then Lab.recovered else Lab.exactSec) (k / 2 + 1), val (sec k)) := by
          rw [← pairs]
          congr 1
          funext k
          have h1 : 2 * k % 2 = 0 := by omega
          have h2 : (2 * k + 1) % 2 ≠ 0 := by omega
          have h3 : 2 * k / 2 = k := by omega
          have h4 : (2 * k + 1) / 2 = k := by omega
          simp only [sec, if_pos h1, if_neg h2, h3, h4]
        rw [hfl, List.range_eq_range', show 2 * (n + 1) = (2 * (n + 1) - 2) + 1 + 1 by omega, List.range'_succ, List.range'_succ]
        simp [sec]
    simp only [mainLines, e0, e1, e2, e3, hl, Option.bind_eq_bind, Option.bind_some, Bool.false_eq_true, if_false, if_true, true_and]
    rw [if_pos (show 5 + 2 * n > 2 by omega), if_pos (show 5 + 2 * n ≥ 4 by omega)]
    rw [List.append_nil, List.append_assoc, hsplit]
  · have hl : ((qMain false n).map val).length = 3 + n := by simp [qMain]; omega
    have e0 : at1 ((qMain false n).map val) 1 = some (val .ahh) := by simp [at1, qMain]
    have e1 : at1 ((qMain false n).map val) 2 = some (val .ext) := by simp [at1, qMain]
    have hsplit : ∀ r : K, firstVcp false n ((qMain false n).map val) r ++ vcpLoop false n ((qMain false n).map val) (3 + n) 1 =
        (List.range n).map fun k => (Lab.recovered (k + 1), val (.ahw k)) := by
      intro r
      cases n with
      | zero => simp [firstVcp, vcpIndex, vcpLoop, qMain]
      | succ n =>
        rw [loop_false val (n + 1) _ 1 (by omega) (by omega)]
        have hv : vcpIndex false (n + 1) 1 = 4 := by unfold vcpIndex; rw [if_neg (by simp)]; simp
        have hf : firstVcp false (n + 1) ((qMain false (n + 1)).map val) r = [(.recovered 1, val (.ahw 0))] := by
          unfold firstVcp
          simp only [hv]
          rw [if_pos ⟨by decide, by rw [hl]; omega⟩, if_neg (by simp)]
          have a : ((qMain false (n + 1)).map val).getD (4 - 1) 0 = val (.ahw 0) := by
            rw [List.getD_eq_getElem?_getD, List.getElem?_map, qMain_false _ 0 (by omega)]
            rfl
          rw [a]
        rw [hf, List.range_eq_range', List.range'_succ]
        simp
    simp only [mainLines, e0, e1, hl, Option.bind_eq_bind, Option.bind_some, Bool.false_eq_true, if_false, false_and, List.append_nil]
    rw [List.append_assoc (_ :: _), hsplit]

/-- C109: the norms of the solution of a plate or a thin beam; the residual is only printed for the analytical solution. -/
theorem C109_main_plate (val : PQty → K) (hx : val .ext ≠ 0) :
    mainLines false true 0 ((pMain true).map val) none = some
      [(.energy, val .ahh), (.external, val .ext), (.exact, val .auu), (.error, val .aee), (.relError, val .aee * (100 / val .auu)), (.residual, val .resu),
       (.relResidual, val .resu * (100 / val .auu))] ∧
    mainLines false false 0 ((pMain false).map val) none = some [(.energy, val .ahh), (.external, val .ext)] := by
  constructor <;> simp [mainLines, at1, pMain, firstVcp, vcpIndex, vcpLoop, hx]

/-- C109: the norms of beams in space. -/
theorem C109_main_beam (a b c : K) (ana : Bool) (n : Nat) :
    mainLines true ana n [a, b, c] none = some [(.beamL2, a), (.beamExact, b), (.beamError, c)] ∧ mainLines true ana n [a] none = some [(.beamL2, a)] := by
  constructor <;> simp [mainLines, at1]

/-- C109: the error estimates of shells, from the recovered energy and error, the membrane forces and moments and their errors; parts which vanish are left out. -/
theorem C109_shell [IsStrictOrderedRing K] (tol a e n m ne me : K) (ht : 0 ≤ tol) :
    (tol < |a| → tol < n → tol < m → shellLines tol [a, e, n, m, ne, me] = some
      [(.rEnergy, a), (.rError, e), (.rRel false, 100 * e / a), (.n, n), (.nErr, ne), (.nRel, 100 * ne / n), (.m, m), (.mErr, me), (.mRel, 100 * me / m)]) ∧
    (|a| ≤ tol → shellLines tol [a, e, n, m, ne, me] = some []) ∧
    (tol < |a| → 0 ≤ n → n ≤ tol → tol < m → shellLines tol [a, e, n, m, ne, me] = some
      [(.rEnergy, a), (.rError, e), (.rRel false, 100 * e / a), (.m, m), (.mErr, me), (.mRel, 100 * me / m)]) := by
  refine ⟨fun ha hn hm => ?_, fun ha => ?_, fun ha hn0 hn hm => ?_⟩
  · have ha0 : a ≠ 0 := by rintro rfl; simp at ha; exact absurd ht (not_le.2 ha)
    have hn0 : 0 < n := lt_of_le_of_lt ht hn
    have hm0 : 0 < m := lt_of_le_of_lt ht hm
    simp [shellLines, at1, trunc, ha, ha0, abs_of_pos hn0, abs_of_pos hm0, hn, hm, hn0, hm0]
  · simp [shellLines, at1, trunc, not_lt.2 ha]
  · have ha0 : a ≠ 0 := by rintro rfl; simp at ha; exact absurd ht (not_le.2 ha)
    have hm0 : 0 < m := lt_of_le_of_lt ht hm
    simp [shellLines, at1, trunc, ha, ha0, abs_of_nonneg hn0, not_lt.2 hn, abs_of_pos hm0, hm, hm0]

end field

/-! ### Which norms there are -/

/-- C109: the print-out expects an analytical solution exactly if the norms were evaluated with one. -/
theorem C109_analytical (sol stress second : Bool) (v : Nat) (hv : 1 ≤ v) :
    haveAna none sol stress second = normAna none sol stress second ∧ haveAna (some v) sol stress second = normAna (some v) sol stress second := by
  refine ⟨?_, ?_⟩
  · cases sol <;> cases stress <;> rfl
  · unfold haveAna normAna
    by_cases h : v = 1
    · subst h; cases sol <;> simp
    · have : v > 1 := by omega
      cases sol <;> simp [h, this]

/-- C109: the volume of solids and the area of plates are found where they are. -/
theorem C109_volume (ana : Bool) (n v : Nat) :
    (qMain ana n)[volumeIndex none ana - 1]? = some .vol ∧ (pMain ana)[volumeIndex (some v) ana - 1]? = some .area ∧ NormUL.quantitiesUL[7 - 1]? = some .volume := by
  cases ana <;> simp [qMain, pMain, volumeIndex, NormUL.quantitiesUL]

/-- C109, partial: for solids the norms of the projected analytical solution are evaluated exactly if there is one. -/
theorem C109_reference_partial (l : List (Option Nat × Nat)) : noProj false l = false ↔ ∃ p ∈ l, p.1.isSome = true := by
  have key : ∀ (l : List (Option Nat × Nat)) (b : Bool), l.foldl (noProjStep false) b = false ↔ b = false ∨ ∃ p ∈ l, p.1.isSome = true := by
    intro l
    induction l with
    | nil => intro b; simp
    | cons p l ih =>
      intro b
      rw [List.foldl_cons, ih]
      rcases p with ⟨_ | s, q⟩ <;> simp [noProjStep]
  unfold noProj
  rw [key]
  simp

/-- C109 fails for plates: with shear forces the projected solution has more components than the analytical one, so that the latter is extended, but its norms are never evaluated. Witness:
the five components of a plate with 10 nodes against the three moments. -/
theorem C109_reference_violated : noProj true [(some 30, 50)] = true ∧ ∀ l : List (Option Nat × Nat), (∀ p ∈ l, ∀ s, p.1 = some s → s < p.2) → noProj true l = true := by
  refine ⟨by decide, ?_⟩
  intro l
  unfold noProj
  induction l with
  | nil => intro _; rfl
  | cons p l ih =>
    intro h
    rw [List.foldl_cons]
    have h1 := h p (by simp)
    rcases p with ⟨_ | s, q⟩
    · exact ih (fun p hp => h p (by simp [hp]))
    · have hs : noProjStep true true (some s, q) = true := by simp [noProjStep, h1 s rfl]
      rw [hs]
      exact ih (fun p hp => h p (by simp [hp]))

/-! ### Dual solution -/

/-- C109: the error estimate takes the element error norms of the first recovered solution. -/
theorem C109_dual_row (ana : Bool) (n : Nat) (l : List Qty) : (qMain ana n ++ qPrj ana ++ l)[dualRow (qMain ana n).length - 1]? = some .arh := by
  unfold dualRow
  rw [List.append_assoc, List.getElem?_append_right (by omega)]
  rw [show 2 + (qMain ana n).length - 1 - (qMain ana n).length = 1 by omega]
  cases ana <;> simp [qPrj]

/-- C109, partial: the error of a section force is at most the printed estimate times the square root of the number of elements, if in each element it is at most the product of the energy
norms of both errors. -/
theorem C109_dual_partial (e f c : List ℝ) (he : e.length = c.length) (hf : f.length = c.length)
    (h : ∀ j (hj : j < c.length), |c[j]| ≤ e[j] * f[j]) : |c.sum| ≤ Real.sqrt c.length * dualEstimate e f := by
  have hs : (List.zipWith (fun a b => (a * b) * (a * b)) e f).sum = ∑ j : Fin c.length, (e[j] * f[j]) ^ 2 := by
    have hz : (List.zipWith (fun a b => (a * b) * (a * b)) e f) = List.ofFn fun j : Fin c.length => (e[j] * f[j]) ^ 2 := by
      apply List.ext_getElem
      · simp [he, hf]
      · intro i h1 h2
        simp [sq]
    rw [hz, List.sum_ofFn]
  have hc : c.sum = ∑ j : Fin c.length, c[j] := by
    conv_lhs => rw [← List.ofFn_getElem (xs := c)]
    rw [List.sum_ofFn]
    rfl
  have h1 : |c.sum| ≤ ∑ j : Fin c.length, e[j] * f[j] := by
    rw [hc]
    refine (Finset.abs_sum_le_sum_abs _ _).trans (Finset.sum_le_sum fun j _ => ?_)
    exact h j.1 j.2
  have h2 : (∑ j : Fin c.length, e[j] * f[j]) ^ 2 ≤ c.length * ∑ j : Fin c.length, (e[j] * f[j]) ^ 2 := by
    have := sq_sum_le_card_mul_sum_sq (s := (Finset.univ : Finset (Fin c.length))) (f := fun j => e[j] * f[j])
    simpa using this
  unfold dualEstimate
  rw [hs, ← Real.sqrt_mul (by positivity)]
  exact h1.trans (Real.le_sqrt_of_sq_le h2)

/-- C109 fails for the error estimate of section forces: it is smaller than the error it bounds. Witness: two elements with unit errors. -/
theorem C109_dual_violated : ∃ e f c : List ℝ, e.length = c.length ∧ f.length = c.length ∧ (∀ j (hj : j < c.length), |c.getD j 0| ≤ e.getD j 0 * f.getD j 0) ∧
    dualEstimate e f < |c.sum| := by
  refine ⟨[1, 1], [1, 1], [1, 1], rfl, rfl, ?_, ?_⟩
  · intro j hj
    have : j = 0 ∨ j = 1 := by simp at hj; omega
    rcases this with rfl | rfl <;> simp
  · simp only [dualEstimate, List.zipWith_cons_cons, List.zipWith_nil_right, List.sum_cons, List.sum_nil]
    rw [Real.sqrt_lt' (by norm_num)]
    norm_num

/-- The hypotheses of the theorems above can be met: norms with a nonzero external energy, and a shell with membrane forces and moments. -/
example : ∃ val : PQty → ℚ, val .ext ≠ 0 := ⟨fun _ => 1, by norm_num⟩

example : shellLines (1 / 1000 : ℚ) [2, 1, 3, 4, 1, 2] = some
      [(.rEnergy, 2), (.rError, 1), (.rRel false, 100 * 1 / 2), (.n, 3), (.nErr, 1), (.nRel, 100 * 1 / 3), (.m, 4), (.mErr, 2), (.mRel, 100 * 2 / 4)] :=
  (C109_shell (1 / 1000) 2 1 3 4 1 2 (by norm_num)).1 (by norm_num [abs_of_pos]) (by norm_num) (by norm_num)

end Verif.NormPrint
