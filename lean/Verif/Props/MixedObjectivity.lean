/-
Property C127: the forces of the mixed elements (internal pressure modes, and three fields) are in equilibrium with themselves and turn with the element. Models: Model/MixedElem.lean, Model/TripleElem.lean.
The specification of balanced and turned forces is that of C122 (Props/Objectivity.lean).
-/
import Verif.Props.FDEnergy

set_option linter.unusedVariables false

namespace Verif.Finite

open Verif.Cont Verif.ContSpec Verif.FiniteSpec Verif.Fbar Verif.Mixed Filter Topology

variable {nPM : Nat}

/-! ### Lemmas -/

/-- The first Piola-Kirchhoff stresses of the Cauchy stresses `T`, for the volume ratio `w`. -/
noncomputable def cauP (w : ℝ) (F T : Nat → Nat → ℝ) (i r : Nat) : ℝ := w * ∑ j ∈ Finset.range 3, T i (j + 1) * inv 3 F r (j + 1)

theorem cauP_lead (w : ℝ) (F T : Nat → Nat → ℝ) : lead 3 (cauP w F T) = w • (lead 3 T * (lead 3 F)⁻¹.transpose) := by
  ext i r
  rw [Matrix.smul_apply, Matrix.mul_apply, ← lead_inv]
  show w * _ = w * _
  congr 1

theorem tens_zero (d n : Nat) (g : Nat → Nat → ℝ) (r : Nat → ℝ) (x : Nat → Nat → ℝ) (i j : Nat) (h : ¬ ((1 ≤ i ∧ i ≤ d) ∧ 1 ≤ j ∧ j ≤ d)) : tens d false n g r x i j = 0 := by
  unfold tens
  rw [if_neg h, if_neg (by simp)]

theorem piola_of_cauchy (d n : Nat) (hd : d = 2 ∨ d = 3) {α : Type} (pts : List α) (geo : α → FPt ℝ) (w : α → ℝ) (F T : α → Nat → Nat → ℝ) (r : α → Nat → ℝ) (f : DVec ℝ) (hf : f.n = d * n)
    (hdet : ∀ p ∈ pts, (lead 3 (F p)).det ≠ 0)
    (hw : ∀ (x : Nat → Nat → ℝ) (g : α → Nat → Nat → ℝ), (∀ p ∈ pts, ∀ i j, i < 3 → j < 3 → ∑ k ∈ Finset.range 3, g p (i + 1) (k + 1) * F p (k + 1) (j + 1) = tens d false n (geo p).dN.e (r p) x (i + 1) (j + 1)) →
      f.dot (dofVec d x) = -(pts.map fun p => (geo p).w * (w p * ∑ i ∈ Finset.range 3, ∑ j ∈ Finset.range 3, T p (i + 1) (j + 1) * g p (i + 1) (j + 1))).sum) :
    Piola d n pts geo (fun p => cauP (w p) (F p) (T p)) f := by
  refine ⟨hf, fun x => ?_⟩
  rw [hw x (fun p i j => ∑ k ∈ Finset.range 3, tens d false n (geo p).dN.e (r p) x i (k + 1) * inv 3 (F p) (k + 1) j) fun p hp i j hi hj => ?_]
  · congr 2
    refine List.map_congr_left fun p hp => ?_
    congr 1
    have e : w p * ∑ i ∈ Finset.range 3, ∑ j ∈ Finset.range 3, T p (i + 1) (j + 1) * ∑ k ∈ Finset.range 3, tens d false n (geo p).dN.e (r p) x (i + 1) (k + 1) * inv 3 (F p) (k + 1) (j + 1)
        = ∑ i ∈ Finset.range 3, ∑ k ∈ Finset.range 3, cauP (w p) (F p) (T p) (i + 1) (k + 1) * tens d false n (geo p).dN.e (r p) x (i + 1) (k + 1) := by
      simp only [cauP, Finset.mul_sum, Finset.sum_mul]
      refine Finset.sum_congr rfl fun i _ => ?_
      rw [Finset.sum_comm]
      exact Finset.sum_congr rfl fun k _ => Finset.sum_congr rfl fun j _ => by ring
    rw [e]
    rcases hd with rfl | rfl
    · simp only [Finset.sum_range_succ, Finset.sum_range_zero, zero_add]
      rw [tens_zero 2 n _ _ x (0 + 1) (2 + 1) (by omega), tens_zero 2 n _ _ x (1 + 1) (2 + 1) (by omega), tens_zero 2 n _ _ x (2 + 1) (0 + 1) (by omega), tens_zero 2 n _ _ x (2 + 1) (1 + 1) (by omega),
        tens_zero 2 n _ _ x (2 + 1) (2 + 1) (by omega), tens_in 2 false n _ _ x 0 0 (by omega) (by omega), tens_in 2 false n _ _ x 0 1 (by omega) (by omega), tens_in 2 false n _ _ x 1 0 (by omega) (by omega),
        tens_in 2 false n _ _ x 1 1 (by omega) (by omega)]
      simp only [mul_zero, add_zero, zero_add]
    · exact Finset.sum_congr rfl fun i hi => Finset.sum_congr rfl fun k hk => by rw [tens_in 3 false n _ _ x i k (Finset.mem_range.mp hi) (Finset.mem_range.mp hk)]
  · have hu : IsUnit (lead 3 (F p)).det := isUnit_iff_ne_zero.mpr (hdet p hp)
    have e : lead 3 (fun i j => ∑ k ∈ Finset.range 3, tens d false n (geo p).dN.e (r p) x i (k + 1) * inv 3 (F p) (k + 1) j) = lead 3 (tens d false n (geo p).dN.e (r p) x) * (lead 3 (F p))⁻¹ := by
      ext i j
      rw [← lead_inv, ← sum_lead]
      rfl
    rw [sum_lead 3 (fun i j => ∑ k ∈ Finset.range 3, tens d false n (geo p).dN.e (r p) x i (k + 1) * inv 3 (F p) (k + 1) j) (F p) ⟨i, hi⟩ ⟨j, hj⟩, e, Matrix.mul_assoc, Matrix.nonsing_inv_mul _ hu, Matrix.mul_one]
    rfl

theorem mxF_defF (d n : Nat) (p : MPt nPM) (u : Nat → Nat → ℝ) : mxF d false n p u = defF d (grad n u p.pt.dN.e) := by
  funext i j
  unfold mxF mRef tens defF
  simp

theorem defF_out (d : Nat) (H : Nat → Nat → ℝ) (i j : Nat) (h : ¬ ((1 ≤ i ∧ i ≤ d) ∧ 1 ≤ j ∧ j ≤ d)) : defF d H i j = if i = j then 1 else 0 := by
  unfold defF
  rw [if_neg h, add_zero]

theorem cauP_symm (d : Nat) (hd : d = 2 ∨ d = 3) (H T : Nat → Nat → ℝ) (w : ℝ) (hJ : (lead 3 (defF d H)).det ≠ 0) (hT : ∀ i j, T i j = T j i) (i j : Nat) (hi : i < d) (hj : j < d) :
    ∑ r ∈ Finset.range d, cauP w (defF d H) T (i + 1) (r + 1) * defF d H (j + 1) (r + 1) = ∑ r ∈ Finset.range d, cauP w (defF d H) T (j + 1) (r + 1) * defF d H (i + 1) (r + 1) := by
  have hu : IsUnit (lead 3 (defF d H)).det := isUnit_iff_ne_zero.mpr hJ
  have e : lead 3 (cauP w (defF d H) T) * (lead 3 (defF d H)).transpose = w • lead 3 T := by
    rw [cauP_lead, Matrix.smul_mul, Matrix.mul_assoc, ← Matrix.transpose_mul, Matrix.mul_nonsing_inv _ hu, Matrix.transpose_one, Matrix.mul_one]
  have key : ∀ a b, a < d → b < d → ∑ r ∈ Finset.range d, cauP w (defF d H) T (a + 1) (r + 1) * defF d H (b + 1) (r + 1) = w * T (a + 1) (b + 1) := by
    intro a b ha hb
    have h3 : ∑ r ∈ Finset.range 3, cauP w (defF d H) T (a + 1) (r + 1) * defF d H (b + 1) (r + 1) = w * T (a + 1) (b + 1) := by
      rw [sum_leadT 3 (cauP w (defF d H) T) (defF d H) ⟨a, by omega⟩ ⟨b, by omega⟩, e]
      rfl
    rcases hd with rfl | rfl
    · rw [Finset.sum_range_succ, defF_out 2 H (b + 1) (2 + 1) (by omega), if_neg (by omega), mul_zero, add_zero] at h3
      exact h3
    · exact h3
  rw [key i j hi hj, key j i hj hi, hT]

/-- A rotation in the plane, as one in space. -/
def inSpace (d : Nat) (Q : Nat → Nat → ℝ) (i j : Nat) : ℝ := if i ≤ d ∧ j ≤ d then Q i j else if i = j then 1 else 0

theorem inSpace_in (d : Nat) (Q : Nat → Nat → ℝ) (i j : Nat) (hi : i < d) (hj : j < d) : inSpace d Q (i + 1) (j + 1) = Q (i + 1) (j + 1) := by
  unfold inSpace
  rw [if_pos ⟨by omega, by omega⟩]

theorem inSpace_rot (d : Nat) (hd : d = 2 ∨ d = 3) (Q : Nat → Nat → ℝ) (hQ : Rot d Q) : Rot 3 (inSpace d Q) := by
  rcases hd with rfl | rfl
  · obtain ⟨h1, h2⟩ := hQ
    have a := h1 0 0 (by omega) (by omega)
    have b := h1 0 1 (by omega) (by omega)
    have c := h1 1 0 (by omega) (by omega)
    have d := h1 1 1 (by omega) (by omega)
    simp [Finset.sum_range_succ] at a b c d
    refine ⟨fun k l hk hl => ?_, ?_⟩
    · interval_cases k <;> interval_cases l <;> simp [inSpace, Finset.sum_range_succ, a, b, c, d]
    · rw [Matrix.det_fin_two] at h2
      simp [lead] at h2
      simp [Matrix.det_fin_three, lead, inSpace]
      linarith
  · have e : lead 3 (inSpace 3 Q) = lead 3 Q := by ext i j; exact inSpace_in 3 Q i j i.2 j.2
    refine ⟨fun k l hk hl => ?_, by rw [e]; exact hQ.2⟩
    rw [← hQ.1 k l hk hl]
    exact Finset.sum_congr rfl fun i hi => by rw [inSpace_in 3 Q i k (Finset.mem_range.mp hi) hk, inSpace_in 3 Q i l (Finset.mem_range.mp hi) hl]

theorem inSpace_F (d : Nat) (hd : d = 2 ∨ d = 3) (Q H H' : Nat → Nat → ℝ) (h : ∀ i r, i < d → r < d → defF d H' (i + 1) (r + 1) = ∑ k ∈ Finset.range d, Q (i + 1) (k + 1) * defF d H (k + 1) (r + 1)) (i r : Nat) (hi : i < 3) (hr : r < 3) :
    defF d H' (i + 1) (r + 1) = ∑ k ∈ Finset.range 3, inSpace d Q (i + 1) (k + 1) * defF d H (k + 1) (r + 1) := by
  rcases hd with rfl | rfl
  · by_cases hir : i < 2 ∧ r < 2
    · rw [h i r hir.1 hir.2, Finset.sum_range_succ _ 2, defF_out 2 H (2 + 1) (r + 1) (by omega), if_neg (by omega), mul_zero, add_zero]
      exact Finset.sum_congr rfl fun k hk => by rw [inSpace_in 2 Q i k hir.1 (Finset.mem_range.mp hk)]
    · rw [defF_out 2 H' (i + 1) (r + 1) (by omega)]
      have o1 := defF_out 2 H (2 + 1) (r + 1) (by omega)
      have o2 : ∀ k, k < 3 → r = 2 → defF 2 H (k + 1) (r + 1) = if k + 1 = r + 1 then 1 else 0 := fun k _ hr => defF_out 2 H (k + 1) (r + 1) (by omega)
      simp only [Finset.sum_range_succ, Finset.sum_range_zero, zero_add]
      rcases (show r = 2 ∨ (i = 2 ∧ r < 2) by omega) with hr | ⟨hi, hr⟩
      · have p0 := o2 0 (by omega) hr
        have p1 := o2 1 (by omega) hr
        have p2 := o2 2 (by omega) hr
        subst hr
        simp only [zero_add, Nat.reduceAdd] at p0 p1 p2
        simp only [Nat.reduceAdd, p0, p1, p2]
        interval_cases i <;> simp [inSpace]
      · subst hi
        simp only [Nat.reduceAdd] at o1
        simp only [Nat.reduceAdd, o1]
        interval_cases r <;> simp [inSpace]
  · rw [h i r hi hr]
    exact Finset.sum_congr rfl fun k hk => by rw [inSpace_in 3 Q i k hi (Finset.mem_range.mp hk)]

/-- Stresses with another mean value. -/
def shifted (s : Nat → ℝ) (c : ℝ) (i j : Nat) : ℝ := symT 3 false s i j + if i = j then c else 0

theorem shifted_lead (s : Nat → ℝ) (c : ℝ) : lead 3 (shifted s c) = lead 3 (symT 3 false s) + c • 1 := by
  ext i j
  rw [Matrix.add_apply, Matrix.smul_apply, Matrix.one_apply]
  unfold lead shifted
  simp [Fin.ext_iff]

theorem shifted_symm (s : Nat → ℝ) (c : ℝ) (i j : Nat) : shifted s c i j = shifted s c j i := by
  unfold shifted
  rw [symT_symm 3 false s]
  simp only [eq_comm]

theorem rot_right (Q : Nat → Nat → ℝ) (hQ : Rot 3 Q) : lead 3 Q * (lead 3 Q).transpose = 1 := mul_eq_one_comm.mp (rot_lead 3 Q hQ)

theorem cauP_turned (d : Nat) (hd : d = 2 ∨ d = 3) (Q F F' : Nat → Nat → ℝ) (hQ : Rot d Q) (w : ℝ) (s s' : Nat → ℝ) (c : ℝ) (hs : TurnedStress 3 (inSpace d Q) s s')
    (h : ∀ i r, i < 3 → r < 3 → F' (i + 1) (r + 1) = ∑ k ∈ Finset.range 3, inSpace d Q (i + 1) (k + 1) * F (k + 1) (r + 1)) (i r : Nat) (hi : i < d) (hr : r < d) :
    cauP w F' (shifted s' c) (i + 1) (r + 1) = ∑ k ∈ Finset.range d, Q (i + 1) (k + 1) * cauP w F (shifted s c) (k + 1) (r + 1) := by
  have hR := inSpace_rot d hd Q hQ
  have hF := leadF_turned 3 (inSpace d Q) _ _ h
  have m1 := rot_lead 3 _ hR
  have m2 := rot_right _ hR
  have e : lead 3 (cauP w F' (shifted s' c)) = lead 3 (inSpace d Q) * lead 3 (cauP w F (shifted s c)) := by
    rw [cauP_lead, cauP_lead, shifted_lead, shifted_lead, turned_lead 3 (inSpace d Q) s s' hs, hF, Matrix.mul_inv_rev, Matrix.transpose_mul, Matrix.inv_eq_left_inv m1, Matrix.transpose_transpose, Matrix.mul_smul]
    congr 1
    rw [Matrix.add_mul, Matrix.add_mul, Matrix.mul_add]
    congr 1
    · simp only [Matrix.mul_assoc]
      rw [← Matrix.mul_assoc (lead 3 (inSpace d Q)).transpose, m1, Matrix.one_mul]
    · rw [Matrix.smul_mul, Matrix.smul_mul, Matrix.one_mul, Matrix.one_mul, Matrix.mul_smul]
  have h3 : cauP w F' (shifted s' c) (i + 1) (r + 1) = ∑ k ∈ Finset.range 3, inSpace d Q (i + 1) (k + 1) * cauP w F (shifted s c) (k + 1) (r + 1) := by
    rw [sum_lead 3 (inSpace d Q) (cauP w F (shifted s c)) ⟨i, by omega⟩ ⟨r, by omega⟩, ← e]
    rfl
  rw [h3]
  rcases hd with rfl | rfl
  · rw [Finset.sum_range_succ _ 2, show inSpace 2 Q (i + 1) (2 + 1) = 0 by unfold inSpace; rw [if_neg (by omega), if_neg (by omega)], zero_mul, add_zero]
    exact Finset.sum_congr rfl fun k hk => by rw [inSpace_in 2 Q i k hi (Finset.mem_range.mp hk)]
  · exact Finset.sum_congr rfl fun k hk => by rw [inSpace_in 3 Q i k hi (Finset.mem_range.mp hk)]

theorem trace_turned (Q : Nat → Nat → ℝ) (hQ : Rot 3 Q) (s s' : Nat → ℝ) (hs : TurnedStress 3 Q s s') : s' 1 + s' 2 + s' 3 = s 1 + s 2 + s 3 := by
  have t : ∀ s : Nat → ℝ, s 1 + s 2 + s 3 = (lead 3 (symT 3 false s)).trace := by
    intro s
    simp [Matrix.trace, Fin.sum_univ_three, lead, symT]
  rw [t, t, turned_lead 3 Q s s' hs, Matrix.trace_mul_comm, ← Matrix.mul_assoc, rot_lead 3 Q hQ, Matrix.one_mul]

/-! ### Elements with internal pressure modes -/

theorem mx_piola (d : Nat) (n : Nat) (tol epsR : ℝ) (pts : List (MPt nPM)) (eP : DVec ℝ) (hE : MxOk d false n epsR pts eP) (sig : MPt nPM → (Nat → Nat → ℝ) → Nat → ℝ)
    (c : MPt nPM → (Nat → Nat → ℝ) → DMat ℝ) (hmat : ∀ p ∈ pts, ∀ F E, (lead 3 F).det ≠ 0 → p.mat F E = .ok (c p F, sig p F)) (u : Nat → Nat → ℝ) (hJ : ∀ p ∈ pts, mxJ d false n p u ≠ 0) (hT : ∀ p ∈ pts, mTh d false n pts u p ≠ 0)
    (hs : ∀ p ∈ pts, (∀ i, 1 ≤ i → i ≤ 6 → |mS d false n pts sig u p i| ≤ tol) → ∀ i, 1 ≤ i → i ≤ 6 → mS d false n pts sig u p i = 0) :
    ∃ (A : DMat ℝ) (f : DVec ℝ), mxElement d false tol epsR ⟨d * n, dofVec d u⟩ eP pts (DMat.zero (d * n) (d * n), DVec.zero (d * n)) = .ok (A, f) ∧
      Piola d n pts (fun p => p.pt) (fun p => cauP (mTh d false n pts u p) (mxF d false n p u) (shifted (mS d false n pts sig u p) (mP d false n pts sig u p - mQ d false n pts sig u p))) f := by
  obtain ⟨A, f, e1, e2, e3⟩ := C114_forces d false n tol epsR pts eP hE sig c hmat u hJ hT hs
  refine ⟨A, f, e1, piola_of_cauchy d n (hE.dim.imp_right And.left) pts _ _ _ _ (fun p a => p.pt.N.e a / p.pt.X) f e2 hJ fun x g hg => ?_⟩
  rw [e3 x g hg]
  congr 2
  refine List.map_congr_left fun p _ => ?_
  simp only [mwt, Bool.false_eq_true, if_false, shifted, Nat.add_right_cancel_iff, mul_assoc]

/-- **C127**, elements with pressure modes: the internal forces have no resultant and no moment in the deformed configuration, for all materials. -/
theorem C127_modes_balance (d : Nat) (n : Nat) (tol epsR : ℝ) (pts : List (MPt nPM)) (eP : DVec ℝ) (hE : MxOk d false n epsR pts eP) (X : Nat → Nat → ℝ) (hX : ∀ p ∈ pts, Iso d n X p.pt) (sig : MPt nPM → (Nat → Nat → ℝ) → Nat → ℝ)
    (c : MPt nPM → (Nat → Nat → ℝ) → DMat ℝ) (hmat : ∀ p ∈ pts, ∀ F E, (lead 3 F).det ≠ 0 → p.mat F E = .ok (c p F, sig p F)) (u : Nat → Nat → ℝ) (hJ : ∀ p ∈ pts, mxJ d false n p u ≠ 0) (hT : ∀ p ∈ pts, mTh d false n pts u p ≠ 0)
    (hs : ∀ p ∈ pts, (∀ i, 1 ≤ i → i ≤ 6 → |mS d false n pts sig u p i| ≤ tol) → ∀ i, 1 ≤ i → i ≤ 6 → mS d false n pts sig u p i = 0) :
    ∃ (A : DMat ℝ) (f : DVec ℝ), mxElement d false tol epsR ⟨d * n, dofVec d u⟩ eP pts (DMat.zero (d * n) (d * n), DVec.zero (d * n)) = .ok (A, f) ∧ f.n = d * n ∧ Balanced d n (fun a i => X a i + u a i) f := by
  obtain ⟨A, f, e1, e2⟩ := mx_piola d n tol epsR pts eP hE sig c hmat u hJ hT hs
  refine ⟨A, f, e1, e2.1, balanced_of_piola d n pts _ _ f e2 X u hX fun p h i j hi hj => ?_⟩
  have hj' := hJ p h
  unfold mxJ at hj'
  rw [mxF_defF] at hj' ⊢
  exact cauP_symm d (hE.dim.imp_right And.left) _ _ _ hj' (shifted_symm _ _) i j hi hj

/-- What does not change when the deformed element is turned, and what turns. -/
theorem mx_turned (d : Nat) (hd : d = 2 ∨ d = 3) (n : Nat) (pts : List (MPt nPM)) (X : Nat → Nat → ℝ) (hX : ∀ p ∈ pts, Iso d n X p.pt) (sig : MPt nPM → (Nat → Nat → ℝ) → Nat → ℝ) (c : MPt nPM → (Nat → Nat → ℝ) → DMat ℝ)
    (hmat : ∀ p ∈ pts, ∀ F E, (lead 3 F).det ≠ 0 → p.mat F E = .ok (c p F, sig p F)) (hO : ∀ p ∈ pts, Objective 3 p.mat) (u u' Q : Nat → Nat → ℝ) (c0 : Nat → ℝ) (hQ : Rot d Q)
    (ht : Turned d n Q c0 (fun a i => X a i + u a i) (fun a i => X a i + u' a i)) (hJ : ∀ p ∈ pts, mxJ d false n p u ≠ 0) (hT : ∀ p ∈ pts, mTh d false n pts u p ≠ 0) :
    (∀ p ∈ pts, ∀ i r, i < 3 → r < 3 → mxF d false n p u' (i + 1) (r + 1) = ∑ k ∈ Finset.range 3, inSpace d Q (i + 1) (k + 1) * mxF d false n p u (k + 1) (r + 1)) ∧
    (∀ p ∈ pts, mxJ d false n p u' = mxJ d false n p u) ∧ (∀ p, mTh d false n pts u' p = mTh d false n pts u p) ∧
    (∀ p ∈ pts, TurnedStress 3 (inSpace d Q) (mS d false n pts sig u p) (mS d false n pts sig u' p)) ∧
    (∀ p ∈ pts, mQ d false n pts sig u' p = mQ d false n pts sig u p) ∧ ∀ p ∈ pts, mP d false n pts sig u' p = mP d false n pts sig u p := by
  have hR := inSpace_rot d hd Q hQ
  have hF : ∀ p ∈ pts, ∀ i r, i < 3 → r < 3 → mxF d false n p u' (i + 1) (r + 1) = ∑ k ∈ Finset.range 3, inSpace d Q (i + 1) (k + 1) * mxF d false n p u (k + 1) (r + 1) := by
    intro p hp i r hi hr
    rw [mxF_defF, mxF_defF]
    exact inSpace_F d hd Q _ _ (turned_F d n X p.pt (hX p hp) Q c0 u u' ht) i r hi hr
  have hJ' : ∀ p ∈ pts, mxJ d false n p u' = mxJ d false n p u := fun p hp => by
    unfold mxJ
    rw [leadF_turned 3 _ _ _ (hF p hp), Matrix.det_mul, hR.2, one_mul]
  have hT' : ∀ p, mTh d false n pts u' p = mTh d false n pts u p := fun p => mprj_congr false pts _ _ hJ' p
  have hS : ∀ p ∈ pts, TurnedStress 3 (inSpace d Q) (mS d false n pts sig u p) (mS d false n pts sig u' p) := by
    intro p hp
    have hb : ∀ i r, i < 3 → r < 3 → mFb d false n pts u' p (i + 1) (r + 1) = ∑ k ∈ Finset.range 3, inSpace d Q (i + 1) (k + 1) * mFb d false n pts u p (k + 1) (r + 1) := by
      intro i r hi hr
      unfold mFb
      rw [hT' p, hJ' p hp, hF p hp i r hi hr, Finset.mul_sum]
      exact Finset.sum_congr rfl fun k _ => by ring
    have h1 := mFb_det d false n pts u p (hJ p hp) (hT p hp)
    have h2 : (lead 3 (mFb d false n pts u' p)).det ≠ 0 := by rw [leadF_turned 3 _ _ _ hb, Matrix.det_mul, hR.2, one_mul]; exact h1
    obtain ⟨C', s', k1, k2⟩ := hO p hp _ _ _ (fun _ => 0) _ _ hR h1 hb (hmat p hp _ (fun _ => 0) h1)
    have := (hmat p hp _ (fun _ => 0) h2).symm.trans k1
    simp only [Res.ok.injEq, Prod.mk.injEq] at this
    unfold mS
    rw [this.2]
    exact k2
  have hq : ∀ p ∈ pts, mQ d false n pts sig u' p = mQ d false n pts sig u p := fun p hp => by
    unfold mQ
    rw [trace_turned _ hR _ _ (hS p hp)]
  refine ⟨hF, hJ', hT', hS, hq, fun p hp => ?_⟩
  unfold mP mPr
  rw [hT' p, hJ' p hp, mprj_congr false pts _ _ hq p]

/-- **C127**, elements with pressure modes: turning and moving a deformed element turns its internal forces, for all objective materials. -/
theorem C127_modes_turn (d : Nat) (n : Nat) (tol epsR : ℝ) (pts : List (MPt nPM)) (eP eP' : DVec ℝ) (hE : MxOk d false n epsR pts eP) (he' : eP'.n = 0 ∨ eP'.n = d * n) (X : Nat → Nat → ℝ) (hX : ∀ p ∈ pts, Iso d n X p.pt)
    (sig : MPt nPM → (Nat → Nat → ℝ) → Nat → ℝ) (c : MPt nPM → (Nat → Nat → ℝ) → DMat ℝ) (hmat : ∀ p ∈ pts, ∀ F E, (lead 3 F).det ≠ 0 → p.mat F E = .ok (c p F, sig p F)) (hO : ∀ p ∈ pts, Objective 3 p.mat)
    (u u' Q : Nat → Nat → ℝ) (c0 : Nat → ℝ) (hQ : Rot d Q) (ht : Turned d n Q c0 (fun a i => X a i + u a i) (fun a i => X a i + u' a i))
    (hJ : ∀ p ∈ pts, mxJ d false n p u ≠ 0) (hT : ∀ p ∈ pts, mTh d false n pts u p ≠ 0)
    (hs : ∀ p ∈ pts, (∀ i, 1 ≤ i → i ≤ 6 → |mS d false n pts sig u p i| ≤ tol) → ∀ i, 1 ≤ i → i ≤ 6 → mS d false n pts sig u p i = 0)
    (hs' : ∀ p ∈ pts, (∀ i, 1 ≤ i → i ≤ 6 → |mS d false n pts sig u' p i| ≤ tol) → ∀ i, 1 ≤ i → i ≤ 6 → mS d false n pts sig u' p i = 0) :
    ∃ A f A' f', mxElement d false tol epsR ⟨d * n, dofVec d u⟩ eP pts (DMat.zero (d * n) (d * n), DVec.zero (d * n)) = .ok (A, f) ∧
      mxElement d false tol epsR ⟨d * n, dofVec d u'⟩ eP' pts (DMat.zero (d * n) (d * n), DVec.zero (d * n)) = .ok (A', f') ∧ TurnedForce d n Q f f' := by
  have hd : d = 2 ∨ d = 3 := hE.dim.imp_right And.left
  obtain ⟨hF, hJ', hT', hS, hq, hP⟩ := mx_turned d hd n pts X hX sig c hmat hO u u' Q c0 hQ ht hJ hT
  have hE' : MxOk d false n epsR pts eP' := { hE with previous := he' }
  obtain ⟨A, f, e1, e2⟩ := mx_piola d n tol epsR pts eP hE sig c hmat u hJ hT hs
  obtain ⟨A', f', e1', e2'⟩ := mx_piola d n tol epsR pts eP' hE' sig c hmat u' (fun p hp => by rw [hJ' p hp]; exact hJ p hp) (fun p hp => by rw [hT' p]; exact hT p hp) hs'
  refine ⟨A, f, A', f', e1, e1', turned_of_piola d n pts _ _ _ f f' e2 e2' Q fun p h i r hi hr => ?_⟩
  rw [hT' p, hq p h, hP p h]
  exact cauP_turned d hd Q _ _ hQ _ _ _ _ (hS p h) (hF p h) i r hi hr

/-- **C127**, elements with pressure modes: an element in rigid motion has no internal forces, however large the rotation, for all objective materials without stresses in the initial configuration. -/
theorem C127_modes_rigid (d : Nat) (n : Nat) (tol epsR : ℝ) (pts : List (MPt nPM)) (eP : DVec ℝ) (hE : MxOk d false n epsR pts eP) (X : Nat → Nat → ℝ) (hX : ∀ p ∈ pts, Iso d n X p.pt)
    (sig : MPt nPM → (Nat → Nat → ℝ) → Nat → ℝ) (c : MPt nPM → (Nat → Nat → ℝ) → DMat ℝ) (hmat : ∀ p ∈ pts, ∀ F E, (lead 3 F).det ≠ 0 → p.mat F E = .ok (c p F, sig p F)) (hO : ∀ p ∈ pts, Objective 3 p.mat)
    (h0 : ∀ p ∈ pts, ∀ i, 1 ≤ i → i ≤ 6 → sig p (fun i j => if i = j then 1 else 0) i = 0) (u Q : Nat → Nat → ℝ) (c0 : Nat → ℝ) (hQ : Rot d Q) (ht : Turned d n Q c0 X (fun a i => X a i + u a i)) :
    ∃ A f, mxElement d false tol epsR ⟨d * n, dofVec d u⟩ eP pts (DMat.zero (d * n) (d * n), DVec.zero (d * n)) = .ok (A, f) ∧ ∀ a i, a < n → i < d → f.e (d * a + i + 1) = 0 := by
  have hd : d = 2 ∨ d = 3 := hE.dim.imp_right And.left
  have hF0 : ∀ p : MPt nPM, mxF d false n p (fun _ _ => 0) = fun i j => if i = j then 1 else 0 := by
    intro p
    rw [mxF_defF]
    funext i j
    unfold defF grad
    simp
  have hJ0 : ∀ p : MPt nPM, mxJ d false n p (fun _ _ => 0) = 1 := by
    intro p
    unfold mxJ
    rw [hF0 p, Matrix.det_fin_three]
    simp [lead]
  have hT0 : ∀ p ∈ pts, mTh d false n pts (fun _ _ => 0) p = 1 := by
    intro p hp
    unfold mTh
    simp only [hJ0]
    exact mprj_one false pts hE.modes hE.constant hE.independent p hp
  have hS0 : ∀ p ∈ pts, ∀ i, 1 ≤ i → i ≤ 6 → mS d false n pts sig (fun _ _ => 0) p i = 0 := by
    intro p hp i h1 h6
    have : mFb d false n pts (fun _ _ => 0) p = fun i j => if i = j then 1 else 0 := by
      funext i j
      unfold mFb
      rw [hT0 p hp, hJ0 p, hF0 p]
      simp
    unfold mS
    rw [this]
    exact h0 p hp i h1 h6
  have ht' : Turned d n Q c0 (fun a i => X a i + (fun _ _ => (0 : ℝ)) a i) (fun a i => X a i + u a i) := by simpa using ht
  have n1 : ∀ p ∈ pts, mxJ d false n p (fun _ _ => 0) ≠ 0 := fun p _ => by rw [hJ0]; exact one_ne_zero
  have n2 : ∀ p ∈ pts, mTh d false n pts (fun _ _ => 0) p ≠ 0 := fun p hp => by rw [hT0 p hp]; exact one_ne_zero
  obtain ⟨-, -, -, hS, -, -⟩ := mx_turned d hd n pts X hX sig c hmat hO (fun _ _ => 0) u Q c0 hQ ht' n1 n2
  have hS' : ∀ p ∈ pts, ∀ i, 1 ≤ i → i ≤ 6 → mS d false n pts sig u p i = 0 := by
    intro p hp i h1 h6
    have z : ∀ k l, k < 3 → l < 3 → symT 3 false (mS d false n pts sig (fun _ _ => 0) p) (k + 1) (l + 1) = 0 := by
      intro k l hk hl
      interval_cases k <;> interval_cases l <;> simp [symT, hS0 p hp]
    have t : ∀ k l, k < 3 → l < 3 → symT 3 false (mS d false n pts sig u p) (k + 1) (l + 1) = 0 := by
      intro k l hk hl
      rw [hS p hp k l hk hl]
      exact Finset.sum_eq_zero fun a ha => Finset.sum_eq_zero fun b hb => by rw [z a b (Finset.mem_range.mp ha) (Finset.mem_range.mp hb), mul_zero, zero_mul]
    have t1 := t 0 0 (by omega) (by omega)
    have t2 := t 1 1 (by omega) (by omega)
    have t3 := t 2 2 (by omega) (by omega)
    have t4 := t 0 1 (by omega) (by omega)
    have t5 := t 1 2 (by omega) (by omega)
    have t6 := t 0 2 (by omega) (by omega)
    simp [symT] at t1 t2 t3 t4 t5 t6
    interval_cases i <;> assumption
  obtain ⟨A, f, A', f', e1, e2, e3⟩ := C127_modes_turn d n tol epsR pts eP eP hE hE.previous X hX sig c hmat hO (fun _ _ => 0) u Q c0 hQ ht' n1 n2 (fun p hp _ => hS0 p hp) fun p hp _ => hS' p hp
  obtain ⟨A1, f1, e1', e4⟩ := mx_piola d n tol epsR pts eP hE sig c hmat (fun _ _ => 0) n1 n2 (fun p hp _ => hS0 p hp)
  have hff := e1.symm.trans e1'
  simp only [Res.ok.injEq, Prod.mk.injEq] at hff
  have hz : ∀ a i, a < n → i < d → f.e (d * a + i + 1) = 0 := by
    rw [hff.2]
    refine zero_forces d n f1 e4.1 fun x => ?_
    rw [e4.2, sum_zero_of, neg_zero]
    intro p hp
    have hq : ∀ p ∈ pts, mQ d false n pts sig (fun _ _ => 0) p = 0 := fun p hp => by
      unfold mQ
      rw [hS0 p hp 1 (by omega) (by omega), hS0 p hp 2 (by omega) (by omega), hS0 p hp 3 (by omega) (by omega)]
      norm_num
    have hP : mP d false n pts sig (fun _ _ => 0) p = 0 := by
      unfold mP mPr
      rw [mprj_congr false pts _ (fun _ => 0) hq p]
      unfold mprj
      simp
    have : ∀ i r, i < 3 → cauP (mTh d false n pts (fun _ _ => 0) p) (mxF d false n p fun _ _ => 0) (shifted (mS d false n pts sig (fun _ _ => 0) p) (mP d false n pts sig (fun _ _ => 0) p - mQ d false n pts sig (fun _ _ => 0) p)) (i + 1) r = 0 := by
      intro i r hi
      unfold cauP
      rw [Finset.sum_eq_zero, mul_zero]
      intro j hj
      rw [hP, hq p hp]
      have hj := Finset.mem_range.mp hj
      have : shifted (mS d false n pts sig (fun _ _ => 0) p) (0 - 0) (i + 1) (j + 1) = 0 := by
        unfold shifted
        interval_cases i <;> interval_cases j <;> simp [symT, hS0 p hp]
      rw [this, zero_mul]
    rw [Finset.sum_eq_zero, mul_zero]
    intro i hi
    refine Finset.sum_eq_zero fun r _ => ?_
    dsimp only
    rw [this i _ (by have := Finset.mem_range.mp hi; omega), zero_mul]
  refine ⟨A', f', e2, fun a i ha hi => ?_⟩
  rw [e3 a i ha hi]
  exact Finset.sum_eq_zero fun k hk => by rw [hz a k ha (Finset.mem_range.mp hk), mul_zero]

/-! ### Elements with three fields -/

theorem tr_turned (d : Nat) (hd : d = 2 ∨ d = 3) (n : Nat) (pts : List TPt) (X : Nat → Nat → ℝ) (hX : ∀ p ∈ pts, Iso d n X p.pt) (sig : TPt → (Nat → Nat → ℝ) → Nat → ℝ) (c : TPt → (Nat → Nat → ℝ) → DMat ℝ)
    (hmat : ∀ p ∈ pts, ∀ F E, (lead 3 F).det ≠ 0 → p.mat F E = .ok (c p F, sig p F)) (hO : ∀ p ∈ pts, Objective 3 p.mat) (u u' Q : Nat → Nat → ℝ) (c0 : Nat → ℝ) (hQ : Rot d Q)
    (ht : Turned d n Q c0 (fun a i => X a i + u a i) (fun a i => X a i + u' a i)) (hJ : ∀ p ∈ pts, mxJ d false n (tq p) u ≠ 0) (T : TPt → ℝ) (hT : ∀ p ∈ pts, T p ≠ 0) :
    (∀ p ∈ pts, ∀ i r, i < 3 → r < 3 → mxF d false n (tq p) u' (i + 1) (r + 1) = ∑ k ∈ Finset.range 3, inSpace d Q (i + 1) (k + 1) * mxF d false n (tq p) u (k + 1) (r + 1)) ∧
    (∀ p ∈ pts, mxJ d false n (tq p) u' = mxJ d false n (tq p) u) ∧
    ∀ p ∈ pts, TurnedStress 3 (inSpace d Q) (sig p fun i j => |T p / mxJ d false n (tq p) u| ^ ((1 : ℝ) / 3) * mxF d false n (tq p) u i j) (sig p fun i j => |T p / mxJ d false n (tq p) u'| ^ ((1 : ℝ) / 3) * mxF d false n (tq p) u' i j) := by
  have hR := inSpace_rot d hd Q hQ
  have hF : ∀ p ∈ pts, ∀ i r, i < 3 → r < 3 → mxF d false n (tq p) u' (i + 1) (r + 1) = ∑ k ∈ Finset.range 3, inSpace d Q (i + 1) (k + 1) * mxF d false n (tq p) u (k + 1) (r + 1) := by
    intro p hp i r hi hr
    rw [mxF_defF, mxF_defF]
    exact inSpace_F d hd Q _ _ (turned_F d n X p.pt (hX p hp) Q c0 u u' ht) i r hi hr
  have hJ' : ∀ p ∈ pts, mxJ d false n (tq p) u' = mxJ d false n (tq p) u := fun p hp => by
    unfold mxJ
    rw [leadF_turned 3 _ _ _ (hF p hp), Matrix.det_mul, hR.2, one_mul]
  refine ⟨hF, hJ', fun p hp => ?_⟩
  rw [hJ' p hp]
  have hk : |T p / mxJ d false n (tq p) u| ^ ((1 : ℝ) / 3) ≠ 0 := (Real.rpow_pos_of_pos (abs_pos.mpr (div_ne_zero (hT p hp) (hJ p hp))) _).ne'
  generalize |T p / mxJ d false n (tq p) u| ^ ((1 : ℝ) / 3) = k at hk
  have hb : ∀ i r, i < 3 → r < 3 → k * mxF d false n (tq p) u' (i + 1) (r + 1) = ∑ l ∈ Finset.range 3, inSpace d Q (i + 1) (l + 1) * (k * mxF d false n (tq p) u (l + 1) (r + 1)) := by
    intro i r hi hr
    rw [hF p hp i r hi hr, Finset.mul_sum]
    exact Finset.sum_congr rfl fun k _ => by ring
  have h1 : (lead 3 (fun i j => k * mxF d false n (tq p) u i j)).det ≠ 0 := scaled_det 3 _ hk _ (hJ p hp)
  have h2 : (lead 3 (fun i j => k * mxF d false n (tq p) u' i j)).det ≠ 0 := by rw [leadF_turned 3 (inSpace d Q) (fun i j => k * mxF d false n (tq p) u i j) (fun i j => k * mxF d false n (tq p) u' i j) hb, Matrix.det_mul, hR.2, one_mul]; exact h1
  obtain ⟨C', s', k1, k2⟩ := hO p hp _ _ (fun i j => k * mxF d false n (tq p) u' i j) (fun _ => 0) _ _ hR h1 hb (hmat p hp _ (fun _ => 0) h1)
  have := (hmat p hp _ (fun _ => 0) h2).symm.trans k1
  simp only [Res.ok.injEq, Prod.mk.injEq] at this
  rw [this.2]
  exact k2

theorem coupled_dot (N m : Nat) (f : DVec ℝ) (hf : f.n = N + 2 * m) (x : Nat → ℝ) : f.dot (coupled N x (fun _ => 0) fun _ => 0) = (⟨N, f.e⟩ : DVec ℝ).dot x := by
  unfold DVec.dot
  rw [hf, Finset.sum_range_add]
  have : ∑ k ∈ Finset.range (2 * m), coupled N x (fun _ => 0) (fun _ => 0) (N + k + 1) * f.e (N + k + 1) = 0 := by
    refine Finset.sum_eq_zero fun k _ => ?_
    unfold coupled
    rw [if_neg (by omega)]
    simp
  rw [this, add_zero]
  exact Finset.sum_congr rfl fun k hk => by rw [coupled_u N x _ _ k (Finset.mem_range.mp hk)]

theorem coupled_entry (N m : Nat) (f : DVec ℝ) (hf : f.n = N + 2 * m) (k : Nat) (h1 : N < k) (h2 : k ≤ N + 2 * m) :
    f.dot (coupled N (fun _ => 0) (fun j => if N + 2 * j = k + 1 then 1 else 0) fun j => if N + 2 * j = k then 1 else 0) = f.e k := by
  unfold DVec.dot
  rw [Finset.sum_eq_single (k - 1)]
  · rw [show k - 1 + 1 = k by omega]
    unfold coupled
    rw [if_neg (by omega)]
    dsimp only
    split_ifs <;> first | rw [one_mul] | (exfalso; omega)
  · intro b _ hb
    unfold coupled
    dsimp only
    split_ifs <;> first | rw [zero_mul] | (exfalso; omega)
  · intro hk
    exact absurd (Finset.mem_range.mpr (by omega)) hk

/-- The forces of the displacements of a three-field element. -/
theorem tr_piola (d n m : Nat) (tol epsR : ℝ) (pts : List TPt) (hE : TrOk d false n m epsR pts) (sig : TPt → (Nat → Nat → ℝ) → Nat → ℝ) (c : TPt → (Nat → Nat → ℝ) → DMat ℝ)
    (hmat : ∀ p ∈ pts, ∀ F E, (lead 3 F).det ≠ 0 → p.mat F E = .ok (c p F, sig p F)) (u : Nat → Nat → ℝ) (th pr : Nat → ℝ) (hS : ∀ p ∈ pts, Strained d false n m tol epsR p u th)
    (s : TPt → Nat → ℝ) (T P : TPt → ℝ) (hT : ∀ p, T p = 1 + ∑ b ∈ Finset.range m, p.N2.e (b + 1) * th (b + 1)) (hP : ∀ p, P p = ∑ b ∈ Finset.range m, p.N2.e (b + 1) * pr (b + 1))
    (hs : ∀ p, s p = sig p fun i j => |T p / mxJ d false n (tq p) u| ^ ((1 : ℝ) / 3) * mxF d false n (tq p) u i j) :
    ∃ (A : DMat ℝ) (f : DVec ℝ), tElement d false tol epsR n m ⟨d * n, dofVec d u⟩ ⟨m, th⟩ ⟨m, pr⟩ pts = .ok (A, f) ∧ f.n = d * n + 2 * m ∧
      Piola d n pts (fun p => p.pt) (fun p => cauP (T p) (mxF d false n (tq p) u) (shifted (s p) (P p * mxJ d false n (tq p) u / T p - (s p 1 + s p 2 + s p 3) / 3))) ⟨d * n, f.e⟩ ∧
      ∀ y z, f.dot (coupled (d * n) (fun _ => 0) y z) = -(pts.map fun p => p.pt.w * (((s p 1 + s p 2 + s p 3) / 3 - P p) * (∑ b ∈ Finset.range m, p.N2.e (b + 1) * y (b + 1))
        + (mxJ d false n (tq p) u - T p) * ∑ b ∈ Finset.range m, p.N2.e (b + 1) * z (b + 1))).sum := by
  obtain ⟨A, f, e1, e2, e3⟩ := C115_forces d false n m tol epsR pts hE sig c hmat u th pr hS
  refine ⟨A, f, e1, e2, ?_, fun y z => ?_⟩
  · refine piola_of_cauchy d n (hE.dim.imp_right And.left) pts _ _ _ _ (fun p a => p.pt.N.e a / p.pt.X) _ rfl (fun p hp => (hS p hp).2.1) fun x g hg => ?_
    rw [← coupled_dot (d * n) m f e2, e3 x (fun _ => 0) (fun _ => 0) g s T P (fun p => mxJ d false n (tq p) u) (fun p => (s p 1 + s p 2 + s p 3) / 3) hT hP (fun _ => rfl) hs (fun _ => rfl) hg]
    congr 2
    refine List.map_congr_left fun p _ => ?_
    simp only [mul_zero, Finset.sum_const_zero, add_zero, mwt, Bool.false_eq_true, if_false, shifted, Nat.add_right_cancel_iff]
    rfl
  · have h := e3 (fun _ _ => 0) y z (fun _ _ _ => 0) s T P (fun p => mxJ d false n (tq p) u) (fun p => (s p 1 + s p 2 + s p 3) / 3) hT hP (fun _ => rfl) hs (fun _ => rfl) fun p _ i j _ _ => by
      unfold mRef tens grad
      simp
    have z0 : dofVec d (fun _ _ => (0 : ℝ)) = fun _ => 0 := by funext k; unfold dofVec; rfl
    rw [z0] at h
    rw [h]
    congr 2
    refine List.map_congr_left fun p _ => ?_
    simp only [mul_zero, Finset.sum_const_zero, zero_add, mwt, Bool.false_eq_true, if_false]
    rfl

/-- **C127**, elements with three fields: the forces of the displacements have no resultant and no moment in the deformed configuration, for all materials and all values of volume change and pressure. -/
theorem C127_fields_balance (d n m : Nat) (tol epsR : ℝ) (pts : List TPt) (hE : TrOk d false n m epsR pts) (X : Nat → Nat → ℝ) (hX : ∀ p ∈ pts, Iso d n X p.pt) (sig : TPt → (Nat → Nat → ℝ) → Nat → ℝ) (c : TPt → (Nat → Nat → ℝ) → DMat ℝ)
    (hmat : ∀ p ∈ pts, ∀ F E, (lead 3 F).det ≠ 0 → p.mat F E = .ok (c p F, sig p F)) (u : Nat → Nat → ℝ) (th pr : Nat → ℝ) (hS : ∀ p ∈ pts, Strained d false n m tol epsR p u th) :
    ∃ (A : DMat ℝ) (f : DVec ℝ), tElement d false tol epsR n m ⟨d * n, dofVec d u⟩ ⟨m, th⟩ ⟨m, pr⟩ pts = .ok (A, f) ∧ f.n = d * n + 2 * m ∧ Balanced d n (fun a i => X a i + u a i) f := by
  obtain ⟨A, f, e1, e2, e3, -⟩ := tr_piola d n m tol epsR pts hE sig c hmat u th pr hS _ _ _ (fun _ => rfl) (fun _ => rfl) fun _ => rfl
  refine ⟨A, f, e1, e2, ?_⟩
  have hb : Balanced d n (fun a i => X a i + u a i) ⟨d * n, f.e⟩ := by
    refine balanced_of_piola d n pts _ _ _ e3 X u hX fun p h i j hi hj => ?_
    have hj' := (hS p h).2.1
    unfold mxJ at hj'
    rw [mxF_defF] at hj' ⊢
    exact cauP_symm d (hE.dim.imp_right And.left) _ _ _ hj' (shifted_symm _ _) i j hi hj
  exact hb

/-- **C127**, elements with three fields: turning and moving a deformed element turns the forces of its displacements and leaves those of volume change and pressure as they are, for all objective materials. -/
theorem C127_fields_turn (d n m : Nat) (tol epsR : ℝ) (pts : List TPt) (hE : TrOk d false n m epsR pts) (X : Nat → Nat → ℝ) (hX : ∀ p ∈ pts, Iso d n X p.pt) (sig : TPt → (Nat → Nat → ℝ) → Nat → ℝ) (c : TPt → (Nat → Nat → ℝ) → DMat ℝ)
    (hmat : ∀ p ∈ pts, ∀ F E, (lead 3 F).det ≠ 0 → p.mat F E = .ok (c p F, sig p F)) (hO : ∀ p ∈ pts, Objective 3 p.mat) (u u' Q : Nat → Nat → ℝ) (c0 : Nat → ℝ) (hQ : Rot d Q)
    (ht : Turned d n Q c0 (fun a i => X a i + u a i) (fun a i => X a i + u' a i)) (th pr : Nat → ℝ) (hS : ∀ p ∈ pts, Strained d false n m tol epsR p u th) :
    ∃ A f A' f', tElement d false tol epsR n m ⟨d * n, dofVec d u⟩ ⟨m, th⟩ ⟨m, pr⟩ pts = .ok (A, f) ∧ tElement d false tol epsR n m ⟨d * n, dofVec d u'⟩ ⟨m, th⟩ ⟨m, pr⟩ pts = .ok (A', f') ∧
      TurnedForce d n Q f f' ∧ ∀ k, d * n < k → k ≤ d * n + 2 * m → f'.e k = f.e k := by
  have hd : d = 2 ∨ d = 3 := hE.dim.imp_right And.left
  obtain ⟨T, hT⟩ : ∃ T : TPt → ℝ, ∀ p, T p = 1 + ∑ b ∈ Finset.range m, p.N2.e (b + 1) * th (b + 1) := ⟨_, fun _ => rfl⟩
  obtain ⟨hF, hJ', hs⟩ := tr_turned d hd n pts X hX sig c hmat hO u u' Q c0 hQ ht (fun p hp => (hS p hp).2.1) T fun p hp => by rw [hT]; exact (hS p hp).2.2.1
  have hS' : ∀ p ∈ pts, Strained d false n m tol epsR p u' th := by
    intro p hp
    obtain ⟨-, h2, h3, h4⟩ := hS p hp
    refine ⟨fun h => absurd h (by decide), by rw [hJ' p hp]; exact h2, h3, ?_⟩
    rw [turned_green d hd Q _ _ hQ (turned_F d n X p.pt (hX p hp) Q c0 u u' ht)]
    exact h4
  obtain ⟨A, f, e1, e2, e3, e4⟩ := tr_piola d n m tol epsR pts hE sig c hmat u th pr hS _ _ _ hT (fun _ => rfl) fun _ => rfl
  obtain ⟨A', f', e1', e2', e3', e4'⟩ := tr_piola d n m tol epsR pts hE sig c hmat u' th pr hS' _ _ _ hT (fun _ => rfl) fun _ => rfl
  refine ⟨A, f, A', f', e1, e1', ?_, fun k h1 h2 => ?_⟩
  · have ht' : TurnedForce d n Q ⟨d * n, f.e⟩ ⟨d * n, f'.e⟩ := by
      refine turned_of_piola d n pts _ _ _ _ _ e3 e3' Q fun p h i r hi hr => ?_
      rw [trace_turned _ (inSpace_rot d hd Q hQ) _ _ (hs p h)]
      simp only [hJ' p h]
      have := hs p h
      rw [hJ' p h] at this
      exact cauP_turned d hd Q _ _ hQ _ _ _ _ this (hF p h) i r hi hr
    exact ht'
  · rw [← coupled_entry (d * n) m f e2 k h1 h2, ← coupled_entry (d * n) m f' e2' k h1 h2, e4, e4']
    congr 2
    refine List.map_congr_left fun p hp => ?_
    rw [trace_turned _ (inSpace_rot d hd Q hQ) _ _ (hs p hp), hJ' p hp]

/-! ### Examples -/

theorem neo3_lead (mu la : ℝ) (F : Nat → Nat → ℝ) : lead 3 (symT 3 false (neo3 mu la F)) = (mu / (lead 3 F).det) • (lead 3 F * (lead 3 F).transpose) + (la * ((lead 3 F).det - 1) - mu / (lead 3 F).det) • 1 := by
  ext i j
  have e : (lead 3 F * (lead 3 F).transpose) i j = F (i + 1) 1 * F (j + 1) 1 + F (i + 1) 2 * F (j + 1) 2 + F (i + 1) 3 * F (j + 1) 3 := by
    rw [Matrix.mul_apply, Fin.sum_univ_three]
    rfl
  rw [Matrix.add_apply, Matrix.smul_apply, Matrix.smul_apply, e, Matrix.one_apply]
  show symT 3 false (neo3 mu la F) (i + 1) (j + 1) = _
  unfold neo3
  generalize (lead 3 F).det = J
  simp only [smul_eq_mul]
  fin_cases i <;> fin_cases j <;> simp [symT] <;> ring

theorem neo3_objective (mu la : ℝ) : Objective 3 fun F _ => .ok (neoC mu la F, neo3 mu la F) := by
  intro Q F F' E C s hQ hJ hF hm
  refine ⟨_, _, rfl, fun i j hi hj => ?_⟩
  simp only [Res.ok.injEq, Prod.mk.injEq] at hm
  rw [← hm.2]
  have hl := leadF_turned 3 Q _ _ hF
  have hdet : (lead 3 F').det = (lead 3 F).det := by rw [hl, Matrix.det_mul, hQ.2, one_mul]
  have m2 := rot_right Q hQ
  have e : lead 3 (symT 3 false (neo3 mu la F')) = lead 3 Q * lead 3 (symT 3 false (neo3 mu la F)) * (lead 3 Q).transpose := by
    rw [neo3_lead, neo3_lead, hdet, hl, Matrix.transpose_mul, Matrix.mul_add, Matrix.add_mul, Matrix.mul_smul, Matrix.smul_mul, Matrix.mul_smul, Matrix.smul_mul, Matrix.mul_one, m2]
    simp only [Matrix.mul_assoc]
  have h := congrFun (congrFun e ⟨i, hi⟩) ⟨j, hj⟩
  rw [Matrix.mul_apply, Fin.sum_univ_three] at h
  simp only [Matrix.mul_apply, Fin.sum_univ_three, Matrix.transpose_apply] at h
  simp only [Finset.sum_range_succ, Finset.sum_range_zero, zero_add]
  refine Eq.trans (show _ = lead 3 (symT 3 false (neo3 mu la F')) ⟨i, hi⟩ ⟨j, hj⟩ from rfl) (h.trans ?_)
  unfold lead
  simp only [Fin.val_zero, Fin.val_one, Fin.val_two, zero_add]
  ring

theorem ring3_mx : MxOk 2 false 3 0 [ring3 1 1] (DVec.zero 0) := by
  refine ⟨.inl rfl, by omega, fun h => absurd h (by decide), fun p hp => ?_, le_refl _, fun p hp => ?_, ?_, .inl rfl⟩
  · obtain rfl := List.mem_singleton.mp hp
    exact ⟨rfl, rfl, fun h => absurd h (by decide)⟩
  · obtain rfl := List.mem_singleton.mp hp
    rfl
  · simp [modeMat, mwt, ring3, triangle]

theorem stretch_J : mxJ 2 false 3 (ring3 1 1) (stretch 1) = 2 := by
  simp [mxJ, Matrix.det_fin_three, lead, mxF, mRef, tens, grad, val, ring3, triangle, stretch, Finset.sum_range_succ]
  norm_num

/-- The stretched, turned and moved triangle with one pressure mode. -/
example : ∃ A f A' f', mxElement 2 false 0 0 ⟨2 * 3, dofVec 2 (stretch 1)⟩ (DVec.zero 0) [ring3 1 1] (DMat.zero (2 * 3) (2 * 3), DVec.zero (2 * 3)) = .ok (A, f) ∧
    mxElement 2 false 0 0 ⟨2 * 3, dofVec 2 (carried 1)⟩ (DVec.zero 0) [ring3 1 1] (DMat.zero (2 * 3) (2 * 3), DVec.zero (2 * 3)) = .ok (A', f') ∧ TurnedForce 2 3 quarter f f' :=
  C127_modes_turn 2 3 0 0 [ring3 1 1] _ _ ring3_mx (.inl rfl) corner (fun p hp => by obtain rfl := List.mem_singleton.mp hp; exact triangle_iso) (fun _ => neo3 1 1) (fun _ => neoC 1 1)
    (fun p hp => by obtain rfl := List.mem_singleton.mp hp; exact fun _ _ _ => rfl) (fun p hp => by obtain rfl := List.mem_singleton.mp hp; exact neo3_objective 1 1) _ _ quarter _ quarter_rot (carried_turned 1)
    (fun p hp => by obtain rfl := List.mem_singleton.mp hp; rw [stretch_J]; norm_num)
    (fun p hp => by
      obtain rfl := List.mem_singleton.mp hp
      rw [(one_point 2 false 3 (ring3 1 1) rfl (by simp [mwt, ring3, triangle]) (fun _ => neo3 1 1) (stretch 1) (by rw [stretch_J]; norm_num)).1, stretch_J]
      norm_num)
    (fun p _ h i h1 h6 => abs_nonpos_iff.mp (h i h1 h6)) fun p _ h i h1 h6 => abs_nonpos_iff.mp (h i h1 h6)

/-- Its material has no stresses in the initial configuration. -/
example : ∀ i, 1 ≤ i → i ≤ 6 → neo3 1 1 (fun i j => if i = j then 1 else 0) i = 0 := by
  intro i h1 h6
  interval_cases i <;> simp [neo3, Matrix.det_fin_three, lead]

/-- The triangle with three fields. -/
example : ∃ A f A' f', tElement 2 false (1 / 10) 0 3 1 ⟨2 * 3, dofVec 2 (stretch 1)⟩ ⟨1, fun _ => 1 / 2⟩ ⟨1, fun _ => 7⟩ [tri1 1 1] = .ok (A, f) ∧
    tElement 2 false (1 / 10) 0 3 1 ⟨2 * 3, dofVec 2 (carried 1)⟩ ⟨1, fun _ => 1 / 2⟩ ⟨1, fun _ => 7⟩ [tri1 1 1] = .ok (A', f') ∧ TurnedForce 2 3 quarter f f' ∧ ∀ k, 2 * 3 < k → k ≤ 2 * 3 + 2 * 1 → f'.e k = f.e k :=
  C127_fields_turn 2 3 1 (1 / 10) 0 [tri1 1 1] (tri1_ok 1 1 0 one_pos false) corner (fun p hp => by obtain rfl := List.mem_singleton.mp hp; exact triangle_iso) (fun _ => neo3 1 1) (fun _ => neoC 1 1)
    (fun p hp => by obtain rfl := List.mem_singleton.mp hp; exact fun _ _ _ => rfl) (fun p hp => by obtain rfl := List.mem_singleton.mp hp; exact neo3_objective 1 1) _ _ quarter _ quarter_rot (carried_turned 1) _ _
    fun p hp => by
      obtain rfl := List.mem_singleton.mp hp
      refine ⟨fun h => absurd h (by decide), ?_, ?_, 1, le_refl _, by norm_num, ?_⟩
      · simp [mxJ, Matrix.det_fin_three, lead, mxF, mRef, tens, grad, val, tq, tri1, triangle, stretch, Finset.sum_range_succ]
      · simp [tri1]; norm_num
      · show (1 / 10 : ℝ) < |greenV 2 (grad 3 (stretch 1) triangle.dN.e) 1|
        rw [(stretch_green 1).1]
        norm_num [abs_of_pos]

end Verif.Finite
