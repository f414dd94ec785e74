/-
C113: the stiffness of the F-bar element is the derivative of its forces, and the element is the ordinary one when the volume change is uniform.
-/
import Verif.Model.FbarElem
import Verif.Props.FDTangent
import Verif.Props.FbarTangent
import Mathlib.Analysis.SpecialFunctions.Pow.Deriv
import Mathlib.Analysis.Calculus.Deriv.Abs

set_option linter.unusedSectionVars false
set_option linter.unnecessarySeqFocus false
set_option linter.unusedSimpArgs false
set_option linter.unusedVariables false

namespace Verif.Finite

open Verif.Cont Verif.ContSpec Verif.FiniteSpec Verif.Fbar Filter Topology

/-! ### Specification -/

/-- Position of a component of a symmetric tensor in its storage. -/
def posD (d : Nat) : Nat → Nat → Nat := if d = 2 then pos2 else pos3

/-- A material whose Cauchy stresses `sig` depend on the deformation gradient only, and whose tangent `c` gives their rate: `σ' = c : L + L σ + σ Lᵀ - σ tr L` in every motion with velocity gradient `L`
(the specification `stressRate` of C31). -/
structure Truesdell (d : Nat) (mat : Mat ℝ) (sig : (Nat → Nat → ℝ) → Nat → ℝ) (c : (Nat → Nat → ℝ) → DMat ℝ) : Prop where
  eval : ∀ F E, (lead d F).det ≠ 0 → mat F E = .ok (c F, sig F)
  rate : ∀ (P : ℝ → Nat → Nat → ℝ) (L : Nat → Nat → ℝ), (lead d (P 0)).det ≠ 0 →
    (∀ i j, i < d → j < d → HasDerivAt (fun t => P t (i + 1) (j + 1)) (∑ k ∈ Finset.range d, L (i + 1) (k + 1) * P 0 (k + 1) (j + 1)) 0) →
    ∀ i j, i < d → j < d → HasDerivAt (fun t => symT d false (sig (P t)) (i + 1) (j + 1)) (stressRate (posD d) d (c (P 0)).e (symT d false (sig (P 0))) L (i + 1) (j + 1)) 0

/-- The volume ratio of a displacement gradient. -/
noncomputable def ratio (d : Nat) (H : Nat → Nat → ℝ) : ℝ := (lead d (defF d H)).det

/-- The volume ratio used at an integration point: its own one without sampling points, that of a single sampling point, or the sum of the sampled ones with the factors `Nb`. -/
def meanRatio (Js Nb : List ℝ) (J : ℝ) : ℝ :=
  match Js with
  | [] => J
  | [a] => a
  | _ => (Js.zip Nb).map (fun x => x.1 * x.2) |>.sum

/-- The deformation gradient scaled to the volume ratio `Jb`. -/
noncomputable def scaledF (d : Nat) (H : Nat → Nat → ℝ) (Jb : ℝ) (i j : Nat) : ℝ := |Jb / ratio d H| ^ ((1 : ℝ) / d) * defF d H i j

/-! ### Lemmas -/

theorem adj_deriv (d : Nat) (hd : d = 2 ∨ d = 3) (F : ℝ → Nat → Nat → ℝ) (L : Nat → Nat → ℝ)
    (h : ∀ i j, i < d → j < d → HasDerivAt (fun t => F t (i + 1) (j + 1)) (∑ k ∈ Finset.range d, L (i + 1) (k + 1) * F 0 (k + 1) (j + 1)) 0) (k j : Fin d) :
    HasDerivAt (fun t => (lead d (F t)).adjugate k j) ((lead d (F 0)).adjugate k j * tr d L - ∑ m : Fin d, (lead d (F 0)).adjugate k m * L (m + 1) (j + 1)) 0 := by
  rcases hd with e | e <;> subst e
  · have h00 := h 0 0 (by omega) (by omega); have h01 := h 0 1 (by omega) (by omega); have h10 := h 1 0 (by omega) (by omega); have h11 := h 1 1 (by omega) (by omega)
    simp only [Finset.sum_range_succ, Finset.sum_range_zero, zero_add] at h00 h01 h10 h11
    simp only [Matrix.adjugate_fin_two, Fin.sum_univ_two, tr, Finset.sum_range_succ, Finset.sum_range_zero, zero_add]
    fin_cases k <;> fin_cases j <;> simp [lead]
    · exact h11.congr_deriv (by ring)
    · exact h01.neg.congr_deriv (by ring)
    · exact h10.neg.congr_deriv (by ring)
    · exact h00.congr_deriv (by ring)
  · have h00 := h 0 0 (by omega) (by omega); have h01 := h 0 1 (by omega) (by omega); have h02 := h 0 2 (by omega) (by omega)
    have h10 := h 1 0 (by omega) (by omega); have h11 := h 1 1 (by omega) (by omega); have h12 := h 1 2 (by omega) (by omega)
    have h20 := h 2 0 (by omega) (by omega); have h21 := h 2 1 (by omega) (by omega); have h22 := h 2 2 (by omega) (by omega)
    simp only [Finset.sum_range_succ, Finset.sum_range_zero, zero_add] at h00 h01 h02 h10 h11 h12 h20 h21 h22
    simp only [Matrix.adjugate_fin_three, Fin.sum_univ_three, tr, Finset.sum_range_succ, Finset.sum_range_zero, zero_add]
    fin_cases k <;> fin_cases j <;> simp [lead]
    · exact ((h11.mul h22).sub (h12.mul h21)).congr_deriv (by ring)
    · exact ((h01.mul h22).neg.add (h02.mul h21)).congr_deriv (by ring)
    · exact ((h01.mul h12).sub (h02.mul h11)).congr_deriv (by ring)
    · exact ((h10.mul h22).neg.add (h12.mul h20)).congr_deriv (by ring)
    · exact ((h00.mul h22).sub (h02.mul h20)).congr_deriv (by ring)
    · exact ((h00.mul h12).neg.add (h02.mul h10)).congr_deriv (by ring)
    · exact ((h10.mul h21).sub (h11.mul h20)).congr_deriv (by ring)
    · exact ((h00.mul h21).neg.add (h01.mul h20)).congr_deriv (by ring)
    · exact ((h00.mul h11).sub (h01.mul h10)).congr_deriv (by ring)

theorem det_deriv (d : Nat) (hd : d = 2 ∨ d = 3) (F : ℝ → Nat → Nat → ℝ) (L : Nat → Nat → ℝ)
    (h : ∀ i j, i < d → j < d → HasDerivAt (fun t => F t (i + 1) (j + 1)) (∑ k ∈ Finset.range d, L (i + 1) (k + 1) * F 0 (k + 1) (j + 1)) 0) :
    HasDerivAt (fun t => (lead d (F t)).det) ((lead d (F 0)).det * tr d L) 0 := by
  rcases hd with e | e <;> subst e
  · have h00 := h 0 0 (by omega) (by omega); have h01 := h 0 1 (by omega) (by omega); have h10 := h 1 0 (by omega) (by omega); have h11 := h 1 1 (by omega) (by omega)
    simp only [Finset.sum_range_succ, Finset.sum_range_zero, zero_add] at h00 h01 h10 h11
    simp only [Matrix.det_fin_two, tr, Finset.sum_range_succ, Finset.sum_range_zero, zero_add, lead]
    exact ((h00.mul h11).sub (h01.mul h10)).congr_deriv (by simp; ring)
  · have h00 := h 0 0 (by omega) (by omega); have h01 := h 0 1 (by omega) (by omega); have h02 := h 0 2 (by omega) (by omega)
    have h10 := h 1 0 (by omega) (by omega); have h11 := h 1 1 (by omega) (by omega); have h12 := h 1 2 (by omega) (by omega)
    have h20 := h 2 0 (by omega) (by omega); have h21 := h 2 1 (by omega) (by omega); have h22 := h 2 2 (by omega) (by omega)
    simp only [Finset.sum_range_succ, Finset.sum_range_zero, zero_add] at h00 h01 h02 h10 h11 h12 h20 h21 h22
    simp only [Matrix.det_fin_three, tr, Finset.sum_range_succ, Finset.sum_range_zero, zero_add, lead]
    exact ((((((h00.mul h11).mul h22).sub ((h00.mul h12).mul h21)).sub ((h01.mul h10).mul h22)).add ((h01.mul h12).mul h20)).add ((h02.mul h10).mul h21)).sub ((h02.mul h11).mul h20) |>.congr_deriv (by simp; ring)

/-- The factor of the modified gradient. -/
theorem pow_deriv (d : Nat) (hd : 0 < d) (q : ℝ → ℝ) (a : ℝ) (h0 : q 0 ≠ 0) (h : HasDerivAt q (q 0 * a) 0) : HasDerivAt (fun t => |q t| ^ ((1 : ℝ) / d)) (|q 0| ^ ((1 : ℝ) / d) * (a / d)) 0 := by
  have habs : HasDerivAt (fun t => |q t|) (|q 0| * a) 0 := by
    rcases lt_or_gt_of_ne h0 with hn | hp
    · refine (h.neg.congr_of_eventuallyEq ?_).congr_deriv (by rw [abs_of_neg hn]; ring)
      filter_upwards [h.continuousAt.eventually (gt_mem_nhds hn)] with t ht
      exact abs_of_neg ht
    · refine (h.congr_of_eventuallyEq ?_).congr_deriv (by rw [abs_of_pos hp])
      filter_upwards [h.continuousAt.eventually (lt_mem_nhds hp)] with t ht
      exact abs_of_pos ht
  have hpos : 0 < |q 0| := abs_pos.mpr h0
  refine (habs.rpow_const (.inl hpos.ne')).congr_deriv ?_
  rw [Real.rpow_sub_one hpos.ne']
  have : (d : ℝ) ≠ 0 := by exact_mod_cast hd.ne'
  field_simp

/-- The motion of the modified gradient. -/
theorem scaled_deriv (d : Nat) (hd : d = 2 ∨ d = 3) (F : ℝ → Nat → Nat → ℝ) (L M : Nat → Nat → ℝ) (Jb : ℝ → ℝ) (hJ : (lead d (F 0)).det ≠ 0) (hb : Jb 0 ≠ 0)
    (h : ∀ i j, i < d → j < d → HasDerivAt (fun t => F t (i + 1) (j + 1)) (∑ k ∈ Finset.range d, L (i + 1) (k + 1) * F 0 (k + 1) (j + 1)) 0)
    (hB : HasDerivAt Jb (Jb 0 * tr d M) 0) (i j : Nat) (hi : i < d) (hj : j < d) :
    HasDerivAt (fun t => |Jb t / (lead d (F t)).det| ^ ((1 : ℝ) / d) * F t (i + 1) (j + 1))
      (∑ k ∈ Finset.range d, barRate d L M (i + 1) (k + 1) * (|Jb 0 / (lead d (F 0)).det| ^ ((1 : ℝ) / d) * F 0 (k + 1) (j + 1))) 0 := by
  have hdet := det_deriv d hd F L h
  have hq : HasDerivAt (fun t => Jb t / (lead d (F t)).det) (Jb 0 / (lead d (F 0)).det * (tr d M - tr d L)) 0 :=
    (hB.div hdet hJ).congr_deriv (by field_simp)
  have hc := pow_deriv d (by omega) (fun t => Jb t / (lead d (F t)).det) (tr d M - tr d L) (div_ne_zero hb hJ) hq
  refine (hc.mul (h i j hi hj)).congr_deriv ?_
  generalize |Jb 0 / (lead d (F 0)).det| ^ ((1 : ℝ) / d) = c
  have e : ∑ k ∈ Finset.range d, barRate d L M (i + 1) (k + 1) * (c * F 0 (k + 1) (j + 1))
      = c * (∑ k ∈ Finset.range d, L (i + 1) (k + 1) * F 0 (k + 1) (j + 1)) + ∑ k ∈ Finset.range d, (if i = k then (tr d M - tr d L) / d * (c * F 0 (k + 1) (j + 1)) else 0) := by
    rw [Finset.mul_sum, ← Finset.sum_add_distrib]
    refine Finset.sum_congr rfl fun k _ => ?_
    unfold barRate
    by_cases hk : i = k
    · rw [if_pos (by omega), if_pos hk]; ring
    · rw [if_neg (by omega), if_neg hk]; ring
  rw [e, Finset.sum_ite_eq, if_pos (Finset.mem_range.mpr hi)]
  ring

/-- The derivative of the work of the stresses in the deformed configuration. -/
theorem spatial_work (d : Nat) (hd : d = 2 ∨ d = 3) (F : ℝ → Nat → Nat → ℝ) (L R S0 G : Nat → Nat → ℝ) (S : ℝ → Nat → Nat → ℝ)
    (h : ∀ i j, i < d → j < d → HasDerivAt (fun t => F t (i + 1) (j + 1)) (∑ k ∈ Finset.range d, L (i + 1) (k + 1) * F 0 (k + 1) (j + 1)) 0)
    (hS : ∀ i j, i < d → j < d → HasDerivAt (fun t => S t (i + 1) (j + 1)) (R (i + 1) (j + 1)) 0) :
    HasDerivAt (fun t => ∑ i : Fin d, ∑ j : Fin d, S t (i + 1) (j + 1) * ∑ k : Fin d, G (i + 1) (k + 1) * (lead d (F t)).adjugate k j)
      (∑ i : Fin d, ∑ j : Fin d, (∑ k : Fin d, G (i + 1) (k + 1) * (lead d (F 0)).adjugate k j) * forceRate d (S 0) R L (i + 1) (j + 1)) 0 := by
  have hsum : HasDerivAt (fun t => ∑ i : Fin d, ∑ j : Fin d, S t (i + 1) (j + 1) * ∑ k : Fin d, G (i + 1) (k + 1) * (lead d (F t)).adjugate k j)
      (∑ i : Fin d, ∑ j : Fin d, (R (i + 1) (j + 1) * ∑ k : Fin d, G (i + 1) (k + 1) * (lead d (F 0)).adjugate k j
        + S 0 (i + 1) (j + 1) * ∑ k : Fin d, G (i + 1) (k + 1) * ((lead d (F 0)).adjugate k j * tr d L - ∑ m : Fin d, (lead d (F 0)).adjugate k m * L (m + 1) (j + 1)))) 0 :=
    HasDerivAt.fun_sum fun i _ => HasDerivAt.fun_sum fun j _ => (hS i j i.2 j.2).mul (HasDerivAt.fun_sum fun k _ => (adj_deriv d hd F L h k j).const_mul _)
  refine hsum.congr_deriv ?_
  generalize (lead d (F 0)).adjugate = A
  unfold forceRate tr
  generalize S 0 = s
  rcases hd with e | e <;> subst e
  · simp [Fin.sum_univ_two, Finset.sum_range_succ]; ring
  · simp [Fin.sum_univ_three, Finset.sum_range_succ]; ring

/-- The gradient operator. -/
theorem grad_ok (d : Nat) (hd : 1 ≤ d) (n : Nat) (N : DVec ℝ) (dN : DMat ℝ) (hn : dN.nr = n) :
    ∃ G, gradOp d (-1 : ℝ) N dN = .ok G ∧ G.nr = d * d ∧ G.nc = d * n ∧ ∀ v k, k < d * d → G.mulV (dofVec d v) (k + 1) = num d (grad n v dN.e) (k + 1) := by
  have h0 : ¬ (0 : ℝ) < -1 := by norm_num
  obtain ⟨G, g1, g2, g3, -, -⟩ := gradOp_entries d hd (-1 : ℝ) N dN (fun h => absurd h h0)
  rw [if_neg h0] at g2
  refine ⟨G, g1, g2, by rw [g3, hn], fun v k hk => ?_⟩
  obtain ⟨G', e1, -, e3, -⟩ := C31_gradient d hd (-1 : ℝ) N dN (fun h => absurd h h0) v
  have : G' = G := by rw [g1] at e1; cases e1; rfl
  subst this
  have hj : k % d < d := Nat.mod_lt _ (by omega)
  have hi : k / d < d := Nat.div_lt_of_lt_mul hk
  have := e3 (k / d) (k % d) hi hj
  rw [Nat.div_add_mod] at this
  rw [this, hn]
  unfold num comp dir grad
  rw [if_pos (by omega), if_pos (by omega)]
  simp only [Nat.add_sub_cancel]
  exact Finset.sum_congr rfl fun a _ => mul_comm _ _

theorem addGAG_ok (m N : Nat) (EK G A G' : DMat ℝ) (h1 : A.nc = m) (h2 : A.nr = m) (h3 : G.nr = m) (h4 : G'.nr = m) (h5 : G.nc = N) (h6 : G'.nc = N) (h7 : EK.nr = N) (h8 : EK.nc = N) :
    ∃ E, addGAG EK G A G' = .ok E ∧ E.nr = N ∧ E.nc = N ∧ ∀ x y, E.bil x y = EK.bil x y + ∑ k ∈ Finset.range m, G.mulV x (k + 1) * A.mulV (G'.mulV y) (k + 1) := by
  unfold addGAG
  rw [if_pos ⟨by omega, by omega, by omega, by omega⟩]
  refine ⟨_, rfl, h7, h8, fun x y => ?_⟩
  unfold DMat.bil DMat.mulV
  simp only [h1, h2, h3, h4, h5, h6, h7, h8, mul_add, add_mul, Finset.sum_add_distrib]
  congr 1
  simp only [Finset.sum_mul, Finset.mul_sum]
  rw [Finset.sum_comm' (t' := Finset.range N) (s' := fun _ => Finset.range N) (by simp)]
  have e : ∀ i j, ∑ k ∈ Finset.range m, ∑ l ∈ Finset.range m, x (i + 1) * (G.e (k + 1) (i + 1) * (A.e (k + 1) (l + 1) * G'.e (l + 1) (j + 1))) * y (j + 1)
      = ∑ k ∈ Finset.range m, ∑ l ∈ Finset.range m, G.e (k + 1) (i + 1) * x (i + 1) * (A.e (k + 1) (l + 1) * (G'.e (l + 1) (j + 1) * y (j + 1))) :=
    fun i j => Finset.sum_congr rfl fun k _ => Finset.sum_congr rfl fun l _ => by ring
  simp only [e]
  -- order of summation
  have sw : ∀ f : Nat → Nat → Nat → Nat → ℝ, ∑ j ∈ Finset.range N, ∑ i ∈ Finset.range N, ∑ k ∈ Finset.range m, ∑ l ∈ Finset.range m, f i j k l
      = ∑ k ∈ Finset.range m, ∑ l ∈ Finset.range m, ∑ j ∈ Finset.range N, ∑ i ∈ Finset.range N, f i j k l := by
    intro f
    have s1 : ∀ j, ∑ i ∈ Finset.range N, ∑ k ∈ Finset.range m, ∑ l ∈ Finset.range m, f i j k l = ∑ k ∈ Finset.range m, ∑ l ∈ Finset.range m, ∑ i ∈ Finset.range N, f i j k l := by
      intro j
      rw [Finset.sum_comm]
      exact Finset.sum_congr rfl fun k _ => Finset.sum_comm
    simp only [s1]
    rw [Finset.sum_comm]
    exact Finset.sum_congr rfl fun k _ => Finset.sum_comm
  rw [sw]

theorem num_sum (d : Nat) (hd : d = 2 ∨ d = 3) (x T : Nat → Nat → ℝ) :
    ∑ k ∈ Finset.range (d * d), num d x (k + 1) * T (comp d (k + 1)) (dir d (k + 1)) = ∑ i ∈ Finset.range d, ∑ j ∈ Finset.range d, x (i + 1) (j + 1) * T (i + 1) (j + 1) := by
  rcases hd with e | e <;> subst e
  · simp [Finset.sum_range_succ, num, comp, dir]; ring
  · simp [Finset.sum_range_succ, num, comp, dir]; ring

theorem stressRate_scale (d : Nat) (hd : d = 2 ∨ d = 3) (pos : Nat → Nat → Nat) (C S L L' : Nat → Nat → ℝ) (s : ℝ) (i j : Nat) :
    forceRate d (fun i j => S i j * s) (stressRate pos d (fun i j => C i j * s) (fun i j => S i j * s) L') L i j = s * forceRate d S (stressRate pos d C S L') L i j := by
  unfold forceRate stressRate
  rcases hd with e | e <;> subst e
  · simp [Finset.sum_range_succ]; ring
  · simp [Finset.sum_range_succ]; ring

/-- The stiffness of an integration point. -/
theorem stiff_ok (d : Nat) (hd : d = 2 ∨ d = 3) (n : Nat) (EK : DMat ℝ) (N : DVec ℝ) (dNdx : DMat ℝ) (r : ℝ) (fld : VolFld) (C : Nat → Nat → ℝ) (sig : Nat → ℝ) (s : ℝ)
    (h1 : dNdx.nr = n) (h2 : fld.dM.nr = n) (h3 : EK.nr = d * n) (h4 : EK.nc = d * n) :
    ∃ E, fbarStiff d false EK N dNdx r fld (fun i j => C i j * s) (fun i => sig i * s) = .ok E ∧ E.nr = d * n ∧ E.nc = d * n ∧
      ∀ x y, E.bil (dofVec d x) (dofVec d y) = EK.bil (dofVec d x) (dofVec d y)
        + s * (∑ i ∈ Finset.range d, ∑ j ∈ Finset.range d, grad n x dNdx.e (i + 1) (j + 1) *
            forceRate d (symT d false sig) (stressRate (posD d) d C (symT d false sig) (barRate d (grad n y dNdx.e) (grad n y fld.dM.e))) (grad n y dNdx.e) (i + 1) (j + 1))
        + if d = 3 then s * ((symT 3 false sig 1 2 - symT 3 false sig 1 3) * grad n y dNdx.e 3 1 * grad n x dNdx.e 3 3) else 0 := by
  obtain ⟨G, g1, g2, g3, g4⟩ := grad_ok d (by omega) n N dNdx h1
  obtain ⟨Gb, b1, b2, b3, b4⟩ := grad_ok d (by omega) n fld.M fld.dM h2
  have key : ∀ A Q : DMat ℝ, A.nr = d * d → A.nc = d * d → Q.nr = d * d → Q.nc = d * d →
      fbarA d false (fun i j => C i j * s) (fun i => sig i * s) = .ok A →
      qmat d d false A (fun i j => sig (if d = 2 then vidx2 i j else vidx3 i j) * s) = .ok Q →
      ∃ E, fbarStiff d false EK N dNdx r fld (fun i j => C i j * s) (fun i => sig i * s) = .ok E ∧ E.nr = d * n ∧ E.nc = d * n ∧
        ∀ x y, E.bil (dofVec d x) (dofVec d y) = EK.bil (dofVec d x) (dofVec d y) + ∑ k ∈ Finset.range (d * d), num d (grad n x dNdx.e) (k + 1) *
          (A.mulV (num d (grad n y dNdx.e)) (k + 1) + Q.mulV (fun l => num d (grad n y fld.dM.e) l - num d (grad n y dNdx.e) l) (k + 1)) := by
    intro A Q a1 a2 q1 q2 hA hQ
    obtain ⟨E1, e1, e2, e3, e4⟩ := addGAG_ok (d * d) (d * n) EK G A G a2 a1 g2 g2 g3 g3 h3 h4
    obtain ⟨E2, f1, f2, f3, f4⟩ := addGAG_ok (d * d) (d * n) E1 G Q ⟨Gb.nr, Gb.nc, fun i j => Gb.e i j - G.e i j⟩ q2 q1 g2 b2 g3 b3 e2 e3
    refine ⟨E2, ?_, f2, f3, fun x y => ?_⟩
    · unfold fbarStiff
      simp only [Bool.false_eq_true, if_false, g1, b1, Res.bind, hA, hQ, e1, if_pos (show Gb.nr = G.nr ∧ Gb.nc = G.nc from ⟨by omega, by omega⟩), f1]
    · rw [f4, e4, add_assoc, ← Finset.sum_add_distrib]
      congr 1
      refine Finset.sum_congr rfl fun k hk => ?_
      have hk' := Finset.mem_range.mp hk
      rw [g4 x k hk', ← mul_add]
      congr 2
      · unfold DMat.mulV at g4 ⊢
        rw [a2]
        exact Finset.sum_congr rfl fun l hl => by rw [← g4 y l (Finset.mem_range.mp hl)]
      · unfold DMat.mulV at g4 b4 ⊢
        rw [q2]
        refine Finset.sum_congr rfl fun l hl => ?_
        beta_reduce
        rw [← g4 y l (Finset.mem_range.mp hl), ← b4 y l (Finset.mem_range.mp hl)]
        simp only [sub_mul, Finset.sum_sub_distrib, g3, b3]
  rcases hd with e | e <;> subst e
  · have hS : Stored pos2 2 (fun i j => symT 2 false sig i j * s) (fun i => sig i * s) := ⟨fun i j i1 i2 j1 j2 => by interval_cases i <;> interval_cases j <;> rfl⟩
    obtain ⟨A0, hA0, n1, n2, -⟩ := C31_plane (fun i j => C i j * s) _ _ hS
    have hA0' : fbarA 2 false (fun i j => C i j * s) (fun i => sig i * s) = .ok A0 := hA0
    obtain ⟨Q0, hQ0, m1, m2, -⟩ : ∃ Q, qmat 2 2 false A0 (fun i j => sig (vidx2 i j) * s) = .ok Q ∧ Q.nr = 4 ∧ Q.nc = 4 ∧ True := by
      obtain ⟨nr, nc, e⟩ := A0
      simp only at n1 n2
      subst n1 n2
      obtain ⟨Q, a, b, c, -⟩ := q2 e (fun i j => sig (vidx2 i j) * s)
      exact ⟨Q, a, b, c, trivial⟩
    obtain ⟨E, k1, k2, k3, k4⟩ := key A0 Q0 n1 n2 m1 m2 hA0' hQ0
    refine ⟨E, k1, k2, k3, fun x y => ?_⟩
    rw [k4, if_neg (by omega), add_zero]
    congr 1
    obtain ⟨A1, Q1, hA1, hQ1, ht⟩ := C31_tangent_plane (fun i j => C i j * s) _ _ hS (grad n y dNdx.e) (grad n y fld.dM.e)
    have : A1 = A0 := by rw [hA0] at hA1; cases hA1; rfl
    subst this
    have : Q1 = Q0 := by rw [hQ0] at hQ1; cases hQ1; rfl
    subst this
    rw [Finset.mul_sum]
    rw [Finset.sum_congr rfl fun k hk => by rw [ht (k + 1) (by omega) (by have := Finset.mem_range.mp hk; omega), stressRate_scale 2 (.inl rfl)]]
    rw [num_sum 2 (.inl rfl) _ (fun i j => s * forceRate 2 (symT 2 false sig) _ _ i j)]
    refine Finset.sum_congr rfl fun i _ => ?_
    rw [Finset.mul_sum]
    exact Finset.sum_congr rfl fun j _ => by rw [show posD 2 = pos2 from rfl]; ring
  · have hS : Stored pos3 3 (fun i j => symT 3 false sig i j * s) (fun i => sig i * s) := ⟨fun i j i1 i2 j1 j2 => by interval_cases i <;> interval_cases j <;> rfl⟩
    obtain ⟨A0, hA0, n1, n2, -⟩ := C31_solid_partial (fun i j => C i j * s) _ _ hS
    have hA0' : fbarA 3 false (fun i j => C i j * s) (fun i => sig i * s) = .ok A0 := hA0
    obtain ⟨Q0, hQ0, m1, m2, -⟩ : ∃ Q, qmat 3 3 false A0 (fun i j => sig (vidx3 i j) * s) = .ok Q ∧ Q.nr = 9 ∧ Q.nc = 9 ∧ True := by
      obtain ⟨nr, nc, e⟩ := A0
      simp only at n1 n2
      subst n1 n2
      obtain ⟨Q, a, b, c, -⟩ := q3 e (fun i j => sig (vidx3 i j) * s)
      exact ⟨Q, a, b, c, trivial⟩
    obtain ⟨E, k1, k2, k3, k4⟩ := key A0 Q0 n1 n2 m1 m2 hA0' hQ0
    refine ⟨E, k1, k2, k3, fun x y => ?_⟩
    rw [k4, if_pos rfl, add_assoc]
    congr 1
    obtain ⟨A1, Q1, hA1, hQ1, ht⟩ := C31_tangent_solid_partial (fun i j => C i j * s) _ _ hS (grad n y dNdx.e) (grad n y fld.dM.e)
    have : A1 = A0 := by rw [hA0] at hA1; cases hA1; rfl
    subst this
    have : Q1 = Q0 := by rw [hQ0] at hQ1; cases hQ1; rfl
    subst this
    rw [Finset.sum_congr rfl fun k hk => by rw [ht (k + 1) (by omega) (by have := Finset.mem_range.mp hk; omega), stressRate_scale 3 (.inr rfl), mul_add]]
    rw [Finset.sum_add_distrib, num_sum 3 (.inr rfl) _ (fun i j => s * forceRate 3 (symT 3 false sig) _ _ i j)]
    congr 1
    · rw [Finset.mul_sum]
      refine Finset.sum_congr rfl fun i _ => ?_
      rw [Finset.mul_sum]
      exact Finset.sum_congr rfl fun j _ => by rw [show posD 3 = pos3 from rfl]; ring
    · simp [Finset.sum_range_succ, num, comp, dir]
      ring

/-- The internal forces of an integration point. -/
theorem force_ok (d : Nat) (hd : d = 2 ∨ d = 3) (n : Nat) (ES : DVec ℝ) (N : DVec ℝ) (dNdx : DMat ℝ) (r : ℝ) (sig : Nat → ℝ) (h1 : dNdx.nr = n) (h2 : ES.n = d * n) :
    ∃ E, fbarForce d false ES N dNdx r sig = .ok E ∧ E.n = d * n ∧
      ∀ x, E.dot (dofVec d x) = ES.dot (dofVec d x) - ∑ i ∈ Finset.range d, ∑ j ∈ Finset.range d, symT d false sig (i + 1) (j + 1) * grad n x dNdx.e (i + 1) (j + 1) := by
  unfold fbarForce
  obtain ⟨E, e1, e2, e3⟩ := DVec.addMany_ok (A := ES) (l := (List.range dNdx.nr).flatMap fun a => (if false = true ∧ 0 < r then [(d * a + 1, -(N.e (a + 1) * sig 3 / r))] else []) ++
    (List.range d).map fun i => (d * a + i + 1, -∑ j ∈ Finset.range d, dNdx.e (a + 1) (j + 1) * symT d false sig (i + 1) (j + 1))) (by
      intro x hx
      simp only [Bool.false_eq_true, false_and, if_false, List.nil_append, List.mem_flatMap, List.mem_range, List.mem_map] at hx
      obtain ⟨a, ha, i, hi, rfl⟩ := hx
      refine ⟨by simp, ?_⟩
      rw [h2]
      exact block_lt d a i n hi (by omega))
  refine ⟨E, e1, e2.trans h2, fun x => ?_⟩
  rw [e3, sub_eq_add_neg]
  congr 1
  simp only [Bool.false_eq_true, false_and, if_false, List.nil_append]
  rw [sum_flatMap, sum_list_range, h1]
  have e : ∀ a, ((List.map (fun i => (d * a + i + 1, -∑ j ∈ Finset.range d, dNdx.e (a + 1) (j + 1) * symT d false sig (i + 1) (j + 1))) (List.range d)).map fun t => dofVec d x t.1 * t.2).sum
      = -∑ i ∈ Finset.range d, ∑ j ∈ Finset.range d, symT d false sig (i + 1) (j + 1) * (x (a + 1) (i + 1) * dNdx.e (a + 1) (j + 1)) := by
    intro a
    rw [List.map_map, sum_list_range, ← Finset.sum_neg_distrib]
    refine Finset.sum_congr rfl fun i hi => ?_
    simp only [Function.comp]
    rw [dofVec_eq d x a i (Finset.mem_range.mp hi), mul_neg, Finset.mul_sum]
    congr 1
    exact Finset.sum_congr rfl fun j _ => by ring
  simp only [e, Finset.sum_neg_distrib]
  congr 1
  unfold grad
  simp only [Finset.mul_sum]
  rw [Finset.sum_comm]
  exact Finset.sum_congr rfl fun i _ => Finset.sum_comm

theorem ncomp_solid (d : Nat) : ncomp d false = d * (d + 1) / 2 := by simp [ncomp]

theorem symT_scale (d : Nat) (s : Nat → ℝ) (w : ℝ) (i j : Nat) : symT d false (fun i => s i * w) i j = symT d false s i j * w := by
  unfold symT
  split_ifs <;> simp

theorem scaled_det (d : Nat) (c : ℝ) (hc : c ≠ 0) (F : Nat → Nat → ℝ) (h : (lead d F).det ≠ 0) : (lead d fun i j => c * F i j).det ≠ 0 := by
  have : (lead d fun i j => c * F i j) = c • lead d F := by ext i j; rfl
  rw [this, Matrix.det_smul]
  exact mul_ne_zero (pow_ne_zero _ hc) h

/-- What a strained integration point adds. -/
theorem fb_contr (d : Nat) (hd : d = 2 ∨ d = 3) (n : Nat) (hn : 0 < n) (tol epsR : ℝ) (p : FPt ℝ) (mat : Mat ℝ) (sig : (Nat → Nat → ℝ) → Nat → ℝ) (c : (Nat → Nat → ℝ) → DMat ℝ)
    (hm : ∀ F E, (lead d F).det ≠ 0 → mat F E = .ok (c F, sig F)) (hr : p.dN.nr = n) (hc : p.dN.nc = d)
    (V : (Nat → Nat → ℝ) → List VolPt) (Nb : List ℝ) (u : Nat → Nat → ℝ) (hz : ¬ zeroStrain tol (d * (d + 1) / 2) (greenV d (grad n u p.dN.e)) = true) (hJ : ratio d (grad n u p.dN.e) ≠ 0)
    (fld : VolFld) (hf : volField false (V u) Nb (ratio d (grad n u p.dN.e)) 0 (pushGrad d (defF d (grad n u p.dN.e)) p.dN) p.N = .ok fld) (hfn : fld.dM.nr = n) (hfJ : fld.J ≠ 0) :
    Contr d n (fun u M => fbarPoint d false tol epsR (V u) mat ⟨d * n, dofVec d u⟩ p Nb M) u
      (fun x => p.w * ratio d (grad n u p.dN.e) * ∑ i ∈ Finset.range d, ∑ j ∈ Finset.range d,
        symT d false (sig (scaledF d (grad n u p.dN.e) fld.J)) (i + 1) (j + 1) * grad n x (pushGrad d (defF d (grad n u p.dN.e)) p.dN).e (i + 1) (j + 1))
      (fun x y => p.w * ratio d (grad n u p.dN.e) * (∑ i ∈ Finset.range d, ∑ j ∈ Finset.range d, grad n x (pushGrad d (defF d (grad n u p.dN.e)) p.dN).e (i + 1) (j + 1) *
          forceRate d (symT d false (sig (scaledF d (grad n u p.dN.e) fld.J))) (stressRate (posD d) d (c (scaledF d (grad n u p.dN.e) fld.J)).e (symT d false (sig (scaledF d (grad n u p.dN.e) fld.J)))
            (barRate d (grad n y (pushGrad d (defF d (grad n u p.dN.e)) p.dN).e) (grad n y fld.dM.e))) (grad n y (pushGrad d (defF d (grad n u p.dN.e)) p.dN).e) (i + 1) (j + 1))
        + if d = 3 then p.w * ratio d (grad n u p.dN.e) * ((symT 3 false (sig (scaledF d (grad n u p.dN.e) fld.J)) 1 2 - symT 3 false (sig (scaledF d (grad n u p.dN.e) fld.J)) 1 3)
          * grad n y (pushGrad d (defF d (grad n u p.dN.e)) p.dN).e 3 1 * grad n x (pushGrad d (defF d (grad n u p.dN.e)) p.dN).e 3 3) else 0) := by
  subst hr
  have hk := kinUL_ok d hd p epsR hn hc u
  generalize grad p.dN.nr u p.dN.e = H at hk hJ hz hf ⊢
  have hdn : (pushGrad d (defF d H) p.dN).nr = p.dN.nr := rfl
  generalize hg : pushGrad d (defF d H) p.dN = g at hf hdn ⊢
  have hcpos : |fld.J / ratio d H| ^ ((1 : ℝ) / d) ≠ 0 := (Real.rpow_pos_of_pos (abs_pos.mpr (div_ne_zero hfJ hJ)) _).ne'
  have hmat : mat (fun i j => |fld.J / ratio d H| ^ ((1 : ℝ) / d) * defF d H i j) (greenV d H) = .ok (c (scaledF d H fld.J), sig (scaledF d H fld.J)) :=
    hm _ _ (scaled_det d _ hcpos _ hJ)
  generalize c (scaledF d H fld.J) = C at hmat ⊢
  generalize sig (scaledF d H fld.J) = s at hmat ⊢
  have hstep : ∀ M : DMat ℝ × DVec ℝ, fbarPoint d false tol epsR (V u) mat ⟨d * p.dN.nr, dofVec d u⟩ p Nb M =
      (fbarForce d false M.2 p.N g 0 (fun i => s i * (p.w * ratio d H))).bind fun ES =>
        (fbarStiff d false M.1 p.N g 0 fld (fun i j => C.e i j * (p.w * ratio d H)) (fun i => s i * (p.w * ratio d H))).bind fun EK => .ok (EK, ES) := by
    intro M
    unfold fbarPoint
    rw [hk]
    simp only [Res.bind, ncomp_solid, hz, Bool.not_false, if_true, Bool.false_eq_true, if_false]
    have hJ' : ¬ (lead d (defF d H)).det = 0 := hJ
    rw [if_neg hJ']
    rw [hg]
    have hf' : volField false (V u) Nb (lead d (defF d H)).det 0 g p.N = .ok fld := hf
    rw [hf']
    simp only []
    have hmat' : mat (fun i j => |fld.J / (lead d (defF d H)).det| ^ ((1 : ℝ) / d) * defF d H i j) (greenV d H) = .ok (C, s) := hmat
    rw [hmat']
    rfl
  classical
  have hF := fun b : DVec ℝ => fun hb : b.n = d * p.dN.nr => force_ok d hd p.dN.nr b p.N g 0 (fun i => s i * (p.w * ratio d H)) hdn hb
  refine ⟨fun b => if hb : b.n = d * p.dN.nr then (hF b hb).choose else b, fun b hb => ?_, fun A b a1 a2 hb => ?_⟩
  · beta_reduce
    rw [dif_pos hb]
    obtain ⟨-, e2, e3⟩ := (hF b hb).choose_spec
    refine ⟨e2, fun x => ?_⟩
    rw [e3]
    congr 1
    rw [mul_dsum]
    refine Finset.sum_congr rfl fun i _ => Finset.sum_congr rfl fun j _ => ?_
    rw [symT_scale d s (p.w * ratio d H)]
    ring
  · obtain ⟨e1, -, -⟩ := (hF b hb).choose_spec
    obtain ⟨E, k1, k2, k3, k4⟩ := stiff_ok d hd p.dN.nr A p.N g 0 fld C.e s (p.w * ratio d H) hdn hfn a1 a2
    refine ⟨E, ?_, k2, k3, fun x y => ?_⟩
    · show fbarPoint d false tol epsR (V u) mat ⟨d * p.dN.nr, dofVec d u⟩ p Nb (A, b) = _
      rw [hstep]
      beta_reduce
      rw [dif_pos hb]
      refine (congrArg (fun r => Res.bind r _) e1).trans ?_
      exact (congrArg (fun r => Res.bind r _) k1)
    · rw [k4, add_assoc]

/-! ### Sampling points and volumetric field -/

/-- The data of strained sampling points. -/
noncomputable def vols (d n : Nat) (smp : List (FPt ℝ)) (u : Nat → Nat → ℝ) : List VolPt :=
  smp.map fun s => ⟨ratio d (grad n u s.dN.e), pushGrad d (defF d (grad n u s.dN.e)) s.dN, DVec.zero 0⟩

theorem reduced_ok (d : Nat) (hd : d = 2 ∨ d = 3) (n : Nat) (hn : 0 < n) (tol epsR : ℝ) (u : Nat → Nat → ℝ) (smp : List (FPt ℝ))
    (h : ∀ s ∈ smp, s.dN.nr = n ∧ s.dN.nc = d ∧ ¬ zeroStrain tol (d * (d + 1) / 2) (greenV d (grad n u s.dN.e)) = true ∧ ratio d (grad n u s.dN.e) ≠ 0) :
    reducedAll d false tol epsR ⟨d * n, dofVec d u⟩ smp = .ok (vols d n smp u) := by
  induction smp with
  | nil => rfl
  | cons s l ih =>
    obtain ⟨h1, h2, h3, h4⟩ := h s (by simp)
    have hk := kinUL_ok d hd s epsR (by omega) h2 u
    rw [h1] at hk
    have e : reducedInt d false tol epsR ⟨d * n, dofVec d u⟩ s = .ok ⟨ratio d (grad n u s.dN.e), pushGrad d (defF d (grad n u s.dN.e)) s.dN, DVec.zero 0⟩ := by
      unfold reducedInt
      rw [hk]
      have h4' : ¬ (lead d (defF d (grad n u s.dN.e))).det = 0 := h4
      simp only [Res.bind, ncomp_solid, if_neg h3, Bool.false_eq_true, if_false, if_neg h4', false_and]
      rfl
    simp only [reducedAll, e, Res.bind, ih fun s hs => h s (by simp [hs]), vols, List.map_cons]

/-- A motion of the nodes moves the deformation gradient. -/
theorem path_deriv (d : Nat) (n : Nat) (dN : DMat ℝ) (u v : Nat → Nat → ℝ) (hJ : ratio d (grad n u dN.e) ≠ 0) (i j : Nat) (hi : i < d) (hj : j < d) :
    HasDerivAt (fun t => defF d (grad n (along u v t) dN.e) (i + 1) (j + 1))
      (∑ k ∈ Finset.range d, grad n v (pushGrad d (defF d (grad n u dN.e)) dN).e (i + 1) (k + 1) * defF d (grad n (along u v 0) dN.e) (k + 1) (j + 1)) 0 := by
  rw [along_zero, pushGrad_mul d _ hJ n dN v (i + 1) j hj]
  simp only [grad_line, defF, if_pos (show (1 ≤ i + 1 ∧ i + 1 ≤ d) ∧ 1 ≤ j + 1 ∧ j + 1 ≤ d from ⟨⟨by omega, by omega⟩, by omega, by omega⟩)]
  exact ((((hasDerivAt_id (0 : ℝ)).mul_const (grad n v dN.e (i + 1) (j + 1))).const_add _).const_add _).congr_deriv (by simp)

theorem ratio_deriv (d : Nat) (hd : d = 2 ∨ d = 3) (n : Nat) (dN : DMat ℝ) (u v : Nat → Nat → ℝ) (hJ : ratio d (grad n u dN.e) ≠ 0) :
    HasDerivAt (fun t => ratio d (grad n (along u v t) dN.e)) (ratio d (grad n u dN.e) * tr d (grad n v (pushGrad d (defF d (grad n u dN.e)) dN).e)) 0 := by
  have := det_deriv d hd (fun t => defF d (grad n (along u v t) dN.e)) _ (path_deriv d n dN u v hJ)
  simp only [along_zero] at this
  exact this

theorem sum_deriv (d : Nat) (hd : d = 2 ∨ d = 3) (n : Nat) (u v : Nat → Nat → ℝ) (smp : List (FPt ℝ)) (Nb : List ℝ) (h : ∀ s ∈ smp, ratio d (grad n u s.dN.e) ≠ 0) :
    HasDerivAt (fun t => (((vols d n smp (along u v t)).zip Nb).map fun w => w.1.J * w.2).sum)
      ((((vols d n smp u).zip Nb).map fun w => w.1.J * w.2 * tr d (grad n v w.1.dN.e)).sum) 0 := by
  induction smp generalizing Nb with
  | nil => simpa [vols] using hasDerivAt_const (0 : ℝ) (0 : ℝ)
  | cons s l ih =>
    cases Nb with
    | nil => simpa [vols] using hasDerivAt_const (0 : ℝ) (0 : ℝ)
    | cons b Nb =>
      have h1 := ih Nb fun s hs => h s (by simp [hs])
      have h2 := (ratio_deriv d hd n s.dN u v (h s (by simp))).mul_const b
      simp only [vols, List.map_cons, List.zip_cons_cons, List.sum_cons] at h1 ⊢
      exact (h2.add h1).congr_deriv (by ring)

theorem sum_tr (d : Nat) (n : Nat) (v : Nat → Nat → ℝ) (c : ℝ) (z : List (VolPt × ℝ)) :
    tr d (grad n v fun a i => c * (z.map fun w => w.1.J * w.2 * w.1.dN.e a i).sum) = c * (z.map fun w => w.1.J * w.2 * tr d (grad n v w.1.dN.e)).sum := by
  induction z with
  | nil => simp [tr, grad]
  | cons w l ih =>
    simp only [List.map_cons, List.sum_cons, mul_add, ← ih]
    simp only [tr, grad, Finset.mul_sum, ← Finset.sum_add_distrib]
    exact Finset.sum_congr rfl fun i _ => Finset.sum_congr rfl fun a _ => by ring

theorem sum_ratio (d n : Nat) (smp : List (FPt ℝ)) (Nb : List ℝ) (u : Nat → Nat → ℝ) :
    (((vols d n smp u).zip Nb).map fun w => w.1.J * w.2).sum = (((smp.map fun s => ratio d (grad n u s.dN.e)).zip Nb).map fun x => x.1 * x.2).sum := by
  induction smp generalizing Nb with
  | nil => rfl
  | cons s l ih =>
    cases Nb with
    | nil => rfl
    | cons b Nb => simp only [vols, List.map_cons, List.zip_cons_cons, List.sum_cons] at ih ⊢; rw [ih]

/-- The volumetric field along a motion. -/
theorem field_ok (d : Nat) (hd : d = 2 ∨ d = 3) (n : Nat) (smp : List (FPt ℝ)) (Nb : List ℝ) (hl : Nb.length = smp.length) (dN : DMat ℝ) (N : DVec ℝ) (hr : dN.nr = n) (hs : ∀ s ∈ smp, s.dN.nr = n) (u v : Nat → Nat → ℝ)
    (h : ∀ s ∈ smp, ratio d (grad n u s.dN.e) ≠ 0) (hJ : ratio d (grad n u dN.e) ≠ 0)
    (hm : meanRatio (smp.map fun s => ratio d (grad n u s.dN.e)) Nb (ratio d (grad n u dN.e)) ≠ 0) :
    ∃ fld : ℝ → VolFld, (∀ᶠ t in 𝓝 (0 : ℝ), volField false (vols d n smp (along u v t)) Nb (ratio d (grad n (along u v t) dN.e)) 0 (pushGrad d (defF d (grad n (along u v t) dN.e)) dN) N = .ok (fld t)) ∧
      (∀ t, (fld t).dM.nr = n ∧ (fld t).J = meanRatio (smp.map fun s => ratio d (grad n (along u v t) s.dN.e)) Nb (ratio d (grad n (along u v t) dN.e))) ∧
      HasDerivAt (fun t => (fld t).J) ((fld 0).J * tr d (grad n v (fld 0).dM.e)) 0 := by
  rcases smp with _ | ⟨s, _ | ⟨s', l⟩⟩
  · refine ⟨fun t => ⟨ratio d (grad n (along u v t) dN.e), pushGrad d (defF d (grad n (along u v t) dN.e)) dN, DVec.zero 0⟩, Eventually.of_forall fun t => ?_, fun t => ⟨hr, rfl⟩, ?_⟩
    · simp [vols, volField]
    · simp only [along_zero]
      exact ratio_deriv d hd n dN u v hJ
  · refine ⟨fun t => ⟨ratio d (grad n (along u v t) s.dN.e), pushGrad d (defF d (grad n (along u v t) s.dN.e)) s.dN, DVec.zero 0⟩, Eventually.of_forall fun t => ?_, fun t => ⟨hs s (by simp), rfl⟩, ?_⟩
    · simp [vols, volField]
    · simp only [along_zero]
      exact ratio_deriv d hd n s.dN u v (h s (by simp))
  · have hlen : ¬ (vols d n (s :: s' :: l) u).length < Nb.length := by simp [vols, hl]
    have hder := sum_deriv d hd n u v (s :: s' :: l) Nb h
    have hm' : (((vols d n (s :: s' :: l) u).zip Nb).map fun w => w.1.J * w.2).sum ≠ 0 := by rw [sum_ratio]; exact hm
    generalize hL : s :: s' :: l = L at *
    have hcase : ∀ t, ∃ a b c, vols d n L (along u v t) = a :: b :: c := fun t => by rw [← hL]; exact ⟨_, _, _, rfl⟩
    have hlen' : ∀ t, ¬ (vols d n L (along u v t)).length < Nb.length := fun t => by simp [vols, hl]
    refine ⟨fun t => ⟨(((vols d n L (along u v t)).zip Nb).map fun w => w.1.J * w.2).sum, ⟨n, d, fun a i => 1 / (((vols d n L (along u v t)).zip Nb).map fun w => w.1.J * w.2).sum *
      (((vols d n L (along u v t)).zip Nb).map fun w => w.1.J * w.2 * w.1.dN.e a i).sum⟩, DVec.zero 0⟩, ?_, fun t => ⟨rfl, ?_⟩, ?_⟩
    · have h0 := hder.continuousAt.eventually (isOpen_ne.mem_nhds (show (((vols d n L (along u v 0)).zip Nb).map fun w => w.1.J * w.2).sum ≠ 0 by rw [along_zero]; exact hm'))
      filter_upwards [h0] with t ht
      obtain ⟨a, b, c, e⟩ := hcase t
      have hl' := hlen' t
      rw [e] at ht hl' ⊢
      unfold volField
      simp only [if_neg hl', Bool.false_eq_true, if_false]
      refine (if_neg ht).trans ?_
      rw [← hr]
      rfl
    · beta_reduce
      show (List.map _ _).sum = _
      rw [sum_ratio, ← hL]
      rfl
    · simp only [along_zero]
      refine hder.congr_deriv ?_
      show _ = _ * tr d (grad n v fun a i => _ * _)
      rw [sum_tr, ← mul_assoc, mul_one_div_cancel hm', one_mul]

theorem cof_grad (d n : Nat) (F : Nat → Nat → ℝ) (hF : (lead d F).det ≠ 0) (dN : DMat ℝ) (x : Nat → Nat → ℝ) (i : Nat) (j : Fin d) :
    (lead d F).det * grad n x (pushGrad d F dN).e i (j + 1) = ∑ k : Fin d, grad n x dN.e i (k + 1) * (lead d F).adjugate k j := by
  have e : ∀ k : Fin d, (lead d F).adjugate k j = (lead d F).det * inv d F (k + 1) (j + 1) := fun k => (det_inv d F hF k j k.2 j.2).symm
  simp only [e]
  rw [Fin.sum_univ_eq_sum_range (fun k => grad n x dN.e i (k + 1) * ((lead d F).det * inv d F (k + 1) (j + 1))) d]
  unfold grad pushGrad
  simp only [Finset.sum_mul, Finset.mul_sum]
  rw [Finset.sum_comm]
  exact Finset.sum_congr rfl fun k _ => Finset.sum_congr rfl fun a _ => by ring

theorem work_cof (d n : Nat) (F S : Nat → Nat → ℝ) (hF : (lead d F).det ≠ 0) (dN : DMat ℝ) (x : Nat → Nat → ℝ) :
    (lead d F).det * ∑ i ∈ Finset.range d, ∑ j ∈ Finset.range d, S (i + 1) (j + 1) * grad n x (pushGrad d F dN).e (i + 1) (j + 1)
      = ∑ i : Fin d, ∑ j : Fin d, S (i + 1) (j + 1) * ∑ k : Fin d, grad n x dN.e (i + 1) (k + 1) * (lead d F).adjugate k j := by
  rw [mul_dsum, ← Fin.sum_univ_eq_sum_range (fun i => ∑ j ∈ Finset.range d, (lead d F).det * (S (i + 1) (j + 1) * grad n x (pushGrad d F dN).e (i + 1) (j + 1))) d]
  refine Finset.sum_congr rfl fun i _ => ?_
  rw [← Fin.sum_univ_eq_sum_range (fun j => (lead d F).det * (S (i + 1) (j + 1) * grad n x (pushGrad d F dN).e (i + 1) (j + 1))) d]
  refine Finset.sum_congr rfl fun j _ => ?_
  rw [← cof_grad d n F hF]
  ring

/-- Strains beyond the tolerance stay so nearby. -/
theorem strained_near (d : Nat) (hd : d = 2 ∨ d = 3) (n : Nat) (tol : ℝ) (dN : DMat ℝ) (u v : Nat → Nat → ℝ) (hs : ∃ i, 1 ≤ i ∧ i ≤ d * (d + 1) / 2 ∧ tol < |greenV d (grad n u dN.e) i|) :
    ∀ᶠ t in 𝓝 (0 : ℝ), ¬ zeroStrain tol (d * (d + 1) / 2) (greenV d (grad n (along u v t) dN.e)) = true := by
  obtain ⟨i, h1, h2, h3⟩ := hs
  have e : (fun p' q => grad n u dN.e p' q + 0 * grad n v dN.e p' q) = grad n u dN.e := by funext p q; ring
  have hc := (greenV_cont d hd (grad n u dN.e) (grad n v dN.e) i h1 h2).abs.tendsto 0
  simp only [e] at hc
  filter_upwards [hc.eventually (lt_mem_nhds h3)] with t ht
  rw [zeroStrain_iff, grad_line]
  exact fun h => absurd (h i h1 h2) (not_le.mpr ht)

theorem ratio_near (d : Nat) (hd : d = 2 ∨ d = 3) (n : Nat) (dN : DMat ℝ) (u v : Nat → Nat → ℝ) (hJ : ratio d (grad n u dN.e) ≠ 0) : ∀ᶠ t in 𝓝 (0 : ℝ), ratio d (grad n (along u v t) dN.e) ≠ 0 :=
  (ratio_deriv d hd n dN u v hJ).continuousAt.eventually (isOpen_ne.mem_nhds (show ratio d (grad n (along u v 0) dN.e) ≠ 0 by rw [along_zero]; exact hJ))

theorem fb_good (d : Nat) (hd : d = 2 ∨ d = 3) (n : Nat) (hn : 0 < n) (tol epsR : ℝ) (smp : List (FPt ℝ)) (p : FPt ℝ) (mat : Mat ℝ) (Nb : List ℝ) (sig c) (hm : Truesdell d mat sig c) (hr : p.dN.nr = n) (hc : p.dN.nc = d)
    (hl : Nb.length = smp.length) (u v : Nat → Nat → ℝ) (hsn : ∀ s ∈ smp, s.dN.nr = n) (hsr : ∀ s ∈ smp, ratio d (grad n u s.dN.e) ≠ 0)
    (hJ : ratio d (grad n u p.dN.e) ≠ 0) (hs : ∃ i, 1 ≤ i ∧ i ≤ d * (d + 1) / 2 ∧ tol < |greenV d (grad n u p.dN.e) i|)
    (hmr : meanRatio (smp.map fun s => ratio d (grad n u s.dN.e)) Nb (ratio d (grad n u p.dN.e)) ≠ 0)
    (h3 : d = 3 → sig (scaledF d (grad n u p.dN.e) (meanRatio (smp.map fun s => ratio d (grad n u s.dN.e)) Nb (ratio d (grad n u p.dN.e)))) 4 =
      sig (scaledF d (grad n u p.dN.e) (meanRatio (smp.map fun s => ratio d (grad n u s.dN.e)) Nb (ratio d (grad n u p.dN.e)))) 6) :
    Good d n (fun u M => fbarPoint d false tol epsR (vols d n smp u) mat ⟨d * n, dofVec d u⟩ p Nb M) u v := by
  obtain ⟨fld, f1, f2, f3⟩ := field_ok d hd n smp Nb hl p.dN p.N hr hsn u v hsr hJ hmr
  have fJ0 : (fld 0).J ≠ 0 := by rw [(f2 0).2, along_zero]; exact hmr
  have f4 : ∀ᶠ t in 𝓝 (0 : ℝ), (fld t).J ≠ 0 := f3.continuousAt.eventually (isOpen_ne.mem_nhds fJ0)
  refine good_of_contr d n _ u v _ _ (by
    filter_upwards [f1, f4, strained_near d hd n tol p.dN u v hs, ratio_near d hd n p.dN u v hJ] with t a1 a2 a3 a4
    exact fb_contr d hd n hn tol epsR p mat sig c hm.eval hr hc (vols d n smp) Nb (along u v t) a3 a4 (fld t) a1 (f2 t).1 a2) fun x => ?_
  have hpath := path_deriv d n p.dN u v hJ
  have hJ' : (lead d (defF d (grad n (along u v 0) p.dN.e))).det ≠ 0 := by rw [along_zero]; exact hJ
  have hsc := scaled_deriv d hd (fun t => defF d (grad n (along u v t) p.dN.e)) _ (grad n v (fld 0).dM.e) (fun t => (fld t).J) hJ' fJ0 hpath f3
  have hrate := hm.rate (fun t => scaledF d (grad n (along u v t) p.dN.e) (fld t).J) _
    (scaled_det d _ (Real.rpow_pos_of_pos (abs_pos.mpr (div_ne_zero fJ0 hJ')) _).ne' _ hJ') hsc
  have hw := (spatial_work d hd (fun t => defF d (grad n (along u v t) p.dN.e)) _ _ (fun _ _ => 0) (grad n x p.dN.e)
    (fun t => symT d false (sig (scaledF d (grad n (along u v t) p.dN.e) (fld t).J))) hpath hrate).const_mul p.w
  refine (hw.congr_of_eventuallyEq ?_).congr_deriv ?_
  · filter_upwards [ratio_near d hd n p.dN u v hJ] with t ht
    rw [← work_cof d n _ _ ht, mul_assoc]
    rfl
  · have e3 : (if d = 3 then p.w * ratio d (grad n (along u v 0) p.dN.e) * ((symT 3 false (sig (scaledF d (grad n (along u v 0) p.dN.e) (fld 0).J)) 1 2
        - symT 3 false (sig (scaledF d (grad n (along u v 0) p.dN.e) (fld 0).J)) 1 3)
          * grad n v (pushGrad d (defF d (grad n (along u v 0) p.dN.e)) p.dN).e 3 1 * grad n x (pushGrad d (defF d (grad n (along u v 0) p.dN.e)) p.dN).e 3 3) else 0) = 0 := by
      split_ifs with h
      · have := h3 h
        rw [(f2 0).2, along_zero]
        have e : symT 3 false (sig (scaledF d (grad n u p.dN.e) (meanRatio (smp.map fun s => ratio d (grad n u s.dN.e)) Nb (ratio d (grad n u p.dN.e))))) 1 2
            = symT 3 false (sig (scaledF d (grad n u p.dN.e) (meanRatio (smp.map fun s => ratio d (grad n u s.dN.e)) Nb (ratio d (grad n u p.dN.e))))) 1 3 := this
        rw [e]
        ring
      · rfl
    rw [e3, add_zero]
    have hc' := work_cof d n (defF d (grad n (along u v 0) p.dN.e)) (forceRate d (symT d false (sig (scaledF d (grad n (along u v 0) p.dN.e) (fld 0).J)))
      (stressRate (posD d) d (c (scaledF d (grad n (along u v 0) p.dN.e) (fld 0).J)).e (symT d false (sig (scaledF d (grad n (along u v 0) p.dN.e) (fld 0).J)))
        (barRate d (grad n v (pushGrad d (defF d (grad n u p.dN.e)) p.dN).e) (grad n v (fld 0).dM.e))) (grad n v (pushGrad d (defF d (grad n u p.dN.e)) p.dN).e)) hJ' p.dN x
    simp only [along_zero] at hc' ⊢
    rw [mul_assoc]
    congr 1
    simp only [mul_comm (∑ k : Fin d, grad n x p.dN.e _ (k.1 + 1) * _) (forceRate _ _ _ _ _ _), mul_comm (grad n x (pushGrad d (defF d (grad n u p.dN.e)) p.dN).e _ _) (forceRate _ _ _ _ _ _)]
    exact hc'.symm

theorem fbarPoints_run (d : Nat) (tol epsR : ℝ) (n : Nat) (smp : List (FPt ℝ)) (pts : List (FPt ℝ × Mat ℝ × List ℝ)) (u : Nat → Nat → ℝ) (M : DMat ℝ × DVec ℝ) :
    fbarPoints d false tol epsR (vols d n smp u) ⟨d * n, dofVec d u⟩ pts M = runAll (pts.map fun p => fun u M => fbarPoint d false tol epsR (vols d n smp u) p.2.1 ⟨d * n, dofVec d u⟩ p.1 p.2.2 M) u M := by
  induction pts generalizing M with
  | nil => rfl
  | cons p l ih =>
    simp only [fbarPoints, List.map_cons, runAll]
    congr 1
    funext M
    exact ih M

/-- C113: the stiffness matrix of the F-bar element is the derivative of its internal forces with respect to all nodal displacements, including those that enter only through the volume ratio of the
sampling points: along every line `u + t v` the forces `-f` are differentiable with the derivative `A v`. This holds at integration points strained beyond the tolerance whose materials have the
Truesdell rate of their Cauchy stresses as tangent; in three dimensions only if the modified gradient gives equal stresses xy and xz (see `C31_solid_violated`). -/
theorem C113_tangent_partial (d : Nat) (hd : d = 2 ∨ d = 3) (n : Nat) (hn : 0 < n) (tol epsR : ℝ) (smp : List (FPt ℝ)) (pts : List (FPt ℝ × Mat ℝ × List ℝ)) (u v : Nat → Nat → ℝ)
    (hsmp : ∀ s ∈ smp, s.dN.nr = n ∧ s.dN.nc = d ∧ (∃ i, 1 ≤ i ∧ i ≤ d * (d + 1) / 2 ∧ tol < |greenV d (grad n u s.dN.e) i|) ∧ ratio d (grad n u s.dN.e) ≠ 0)
    (hp : ∀ p ∈ pts, p.1.dN.nr = n ∧ p.1.dN.nc = d ∧ p.2.2.length = smp.length ∧ (∃ i, 1 ≤ i ∧ i ≤ d * (d + 1) / 2 ∧ tol < |greenV d (grad n u p.1.dN.e) i|) ∧ ratio d (grad n u p.1.dN.e) ≠ 0 ∧
      meanRatio (smp.map fun s => ratio d (grad n u s.dN.e)) p.2.2 (ratio d (grad n u p.1.dN.e)) ≠ 0 ∧
      ∃ sig c, Truesdell d p.2.1 sig c ∧
        (d = 3 → sig (scaledF d (grad n u p.1.dN.e) (meanRatio (smp.map fun s => ratio d (grad n u s.dN.e)) p.2.2 (ratio d (grad n u p.1.dN.e)))) 4
          = sig (scaledF d (grad n u p.1.dN.e) (meanRatio (smp.map fun s => ratio d (grad n u s.dN.e)) p.2.2 (ratio d (grad n u p.1.dN.e)))) 6)) :
    ∃ (A : DMat ℝ) (f : ℝ → DVec ℝ), fbarElement d false tol epsR smp ⟨d * n, dofVec d u⟩ pts (DMat.zero (d * n) (d * n), DVec.zero (d * n)) = .ok (A, f 0) ∧
      (∀ᶠ t in 𝓝 (0 : ℝ), ∃ A', fbarElement d false tol epsR smp ⟨d * n, dofVec d (along u v t)⟩ pts (DMat.zero (d * n) (d * n), DVec.zero (d * n)) = .ok (A', f t)) ∧
      ∀ x, HasDerivAt (fun t => (f t).dot (dofVec d x)) (-A.bil (dofVec d x) (dofVec d v)) 0 := by
  obtain ⟨A, f, e1, e2, e3⟩ := good_zero d n _ u v (good_all d n u v (pts.map fun p => fun u M => fbarPoint d false tol epsR (vols d n smp u) p.2.1 ⟨d * n, dofVec d u⟩ p.1 p.2.2 M) (by
    intro s hs
    obtain ⟨p, hpm, rfl⟩ := List.mem_map.mp hs
    obtain ⟨p1, p2, p3, p4, p5, p6, sig, c, p7, p8⟩ := hp p hpm
    exact fb_good d hd n hn tol epsR smp p.1 p.2.1 p.2.2 sig c p7 p1 p2 p3 u v (fun s hs => (hsmp s hs).1) (fun s hs => (hsmp s hs).2.2.2) p5 p4 p6 p8))
  have hrun : ∀ w, (∀ s ∈ smp, ¬ zeroStrain tol (d * (d + 1) / 2) (greenV d (grad n w s.dN.e)) = true ∧ ratio d (grad n w s.dN.e) ≠ 0) → ∀ M,
      fbarElement d false tol epsR smp ⟨d * n, dofVec d w⟩ pts M = runAll (pts.map fun p => fun u M => fbarPoint d false tol epsR (vols d n smp u) p.2.1 ⟨d * n, dofVec d u⟩ p.1 p.2.2 M) w M := by
    intro w hw M
    unfold fbarElement
    rw [reduced_ok d hd n hn tol epsR w smp fun s hs => ⟨(hsmp s hs).1, (hsmp s hs).2.1, (hw s hs).1, (hw s hs).2⟩]
    exact fbarPoints_run d tol epsR n smp pts w M
  have hall : ∀ᶠ t in 𝓝 (0 : ℝ), ∀ s ∈ smp, ¬ zeroStrain tol (d * (d + 1) / 2) (greenV d (grad n (along u v t) s.dN.e)) = true ∧ ratio d (grad n (along u v t) s.dN.e) ≠ 0 := by
    clear hp e1 e2 e3 hrun
    induction smp with
    | nil => simp
    | cons s l ih =>
      filter_upwards [ih fun s hs => hsmp s (by simp [hs]), strained_near d hd n tol s.dN u v (hsmp s (by simp)).2.2.1, ratio_near d hd n s.dN u v (hsmp s (by simp)).2.2.2] with t h1 h2 h3
      intro q hq
      rcases List.mem_cons.mp hq with rfl | hq
      · exact ⟨h2, h3⟩
      · exact h1 q hq
  refine ⟨A, f, ?_, ?_, e3⟩
  · have h0 := hall.self_of_nhds
    rw [along_zero] at h0
    rw [hrun u h0, e1]
  · filter_upwards [e2, hall] with t h1 h2
    obtain ⟨A', h1⟩ := h1
    exact ⟨A', by rw [hrun _ h2, h1]⟩

/-! ### Forces -/

theorem contr_run (d n : Nat) {α : Type} (pts : List α) (step : α → (Nat → Nat → ℝ) → DMat ℝ × DVec ℝ → Res (DMat ℝ × DVec ℝ)) (W : α → (Nat → Nat → ℝ) → ℝ) (Q : α → (Nat → Nat → ℝ) → (Nat → Nat → ℝ) → ℝ)
    (u : Nat → Nat → ℝ) (h : ∀ p ∈ pts, Contr d n (step p) u (W p) (Q p)) (A : DMat ℝ) (b : DVec ℝ) (a1 : A.nr = d * n) (a2 : A.nc = d * n) (hb : b.n = d * n) :
    ∃ A' b', runAll (pts.map step) u (A, b) = .ok (A', b') ∧ ∀ x, b'.dot (dofVec d x) = b.dot (dofVec d x) - (pts.map fun p => W p x).sum := by
  induction pts generalizing A b with
  | nil => exact ⟨A, b, rfl, fun x => by simp⟩
  | cons p l ih =>
    obtain ⟨g, g1, g2⟩ := h p (by simp)
    obtain ⟨A1, k1, k2, k3, -⟩ := g2 A b a1 a2 hb
    obtain ⟨A2, b2, l1, l2⟩ := ih (fun p hp => h p (by simp [hp])) A1 (g b) k2 k3 (g1 b hb).1
    refine ⟨A2, b2, ?_, fun x => ?_⟩
    · simp only [List.map_cons, runAll, k1, Res.bind]
      exact l1
    · rw [l2, (g1 b hb).2]
      simp only [List.map_cons, List.sum_cons]
      ring

/-- The gradient in the deformed configuration is determined by the chain rule. -/
theorem push_unique (d n : Nat) (F : Nat → Nat → ℝ) (hF : (lead d F).det ≠ 0) (dN : DMat ℝ) (x g : Nat → Nat → ℝ)
    (h : ∀ i r, i < d → r < d → ∑ l ∈ Finset.range d, g (i + 1) (l + 1) * F (l + 1) (r + 1) = grad n x dN.e (i + 1) (r + 1)) (i j : Nat) (hi : i < d) (hj : j < d) :
    grad n x (pushGrad d F dN).e (i + 1) (j + 1) = g (i + 1) (j + 1) := by
  let A : Matrix (Fin d) (Fin d) ℝ := fun i j => g (i + 1) (j + 1)
  let B : Matrix (Fin d) (Fin d) ℝ := fun i j => grad n x (pushGrad d F dN).e (i + 1) (j + 1)
  have e : B * lead d F = A * lead d F := by
    ext i r
    rw [Matrix.mul_apply, Matrix.mul_apply]
    show ∑ l : Fin d, grad n x (pushGrad d F dN).e (i + 1) (l + 1) * F (l + 1) (r + 1) = ∑ l : Fin d, g (i + 1) (l + 1) * F (l + 1) (r + 1)
    rw [Fin.sum_univ_eq_sum_range (fun l => grad n x (pushGrad d F dN).e (i + 1) (l + 1) * F (l + 1) (r + 1)) d, Fin.sum_univ_eq_sum_range (fun l => g (i + 1) (l + 1) * F (l + 1) (r + 1)) d,
      pushGrad_mul d F hF n dN x (i + 1) r r.2, h i r i.2 r.2]
  have hu : IsUnit (lead d F).det := isUnit_iff_ne_zero.mpr hF
  have : B = A := by
    have := congrArg (· * (lead d F)⁻¹) e
    simpa only [Matrix.mul_nonsing_inv_cancel_right _ _ hu] using this
  exact congrFun (congrFun this ⟨i, hi⟩) ⟨j, hj⟩

/-- C113: the forces of an F-bar element are those of the Cauchy stresses at the modified gradient, integrated over the deformed element: the work in every virtual displacement `x` is the sum of
`w J σ(F̄) : ∇x`, where `F̄` is the gradient of the point scaled to the volume ratio of the sampling points and `∇x` the gradient in the deformed configuration. -/
theorem C113_forces (d : Nat) (hd : d = 2 ∨ d = 3) (n : Nat) (hn : 0 < n) (tol epsR : ℝ) (smp : List (FPt ℝ)) (pts : List (FPt ℝ × Mat ℝ × List ℝ)) (u : Nat → Nat → ℝ)
    (sig : Mat ℝ → (Nat → Nat → ℝ) → Nat → ℝ)
    (hsmp : ∀ s ∈ smp, s.dN.nr = n ∧ s.dN.nc = d ∧ (∃ i, 1 ≤ i ∧ i ≤ d * (d + 1) / 2 ∧ tol < |greenV d (grad n u s.dN.e) i|) ∧ ratio d (grad n u s.dN.e) ≠ 0)
    (hp : ∀ p ∈ pts, p.1.dN.nr = n ∧ p.1.dN.nc = d ∧ p.2.2.length = smp.length ∧ (∃ i, 1 ≤ i ∧ i ≤ d * (d + 1) / 2 ∧ tol < |greenV d (grad n u p.1.dN.e) i|) ∧ ratio d (grad n u p.1.dN.e) ≠ 0 ∧
      meanRatio (smp.map fun s => ratio d (grad n u s.dN.e)) p.2.2 (ratio d (grad n u p.1.dN.e)) ≠ 0 ∧ ∃ c, Truesdell d p.2.1 (sig p.2.1) c) :
    ∃ A f, fbarElement d false tol epsR smp ⟨d * n, dofVec d u⟩ pts (DMat.zero (d * n) (d * n), DVec.zero (d * n)) = .ok (A, f) ∧
      ∀ (x : Nat → Nat → ℝ) (g : FPt ℝ → Nat → Nat → ℝ),
        (∀ p ∈ pts, ∀ i r, i < d → r < d → ∑ l ∈ Finset.range d, g p.1 (i + 1) (l + 1) * defF d (grad n u p.1.dN.e) (l + 1) (r + 1) = grad n x p.1.dN.e (i + 1) (r + 1)) →
        f.dot (dofVec d x) = -(pts.map fun p => p.1.w * ratio d (grad n u p.1.dN.e) * ∑ i ∈ Finset.range d, ∑ j ∈ Finset.range d,
          symT d false (sig p.2.1 (scaledF d (grad n u p.1.dN.e) (meanRatio (smp.map fun s => ratio d (grad n u s.dN.e)) p.2.2 (ratio d (grad n u p.1.dN.e))))) (i + 1) (j + 1) * g p.1 (i + 1) (j + 1)).sum := by
  have hz : ∀ dN : DMat ℝ, (∃ i, 1 ≤ i ∧ i ≤ d * (d + 1) / 2 ∧ tol < |greenV d (grad n u dN.e) i|) → ¬ zeroStrain tol (d * (d + 1) / 2) (greenV d (grad n u dN.e)) = true := by
    rintro dN ⟨i, h1, h2, h3⟩
    rw [zeroStrain_iff]
    exact fun h => absurd (h i h1 h2) (not_le.mpr h3)
  have hrun : ∀ M, fbarElement d false tol epsR smp ⟨d * n, dofVec d u⟩ pts M = runAll (pts.map fun p => fun u M => fbarPoint d false tol epsR (vols d n smp u) p.2.1 ⟨d * n, dofVec d u⟩ p.1 p.2.2 M) u M := by
    intro M
    unfold fbarElement
    rw [reduced_ok d hd n hn tol epsR u smp fun s hs => ⟨(hsmp s hs).1, (hsmp s hs).2.1, hz _ (hsmp s hs).2.2.1, (hsmp s hs).2.2.2⟩]
    exact fbarPoints_run d tol epsR n smp pts u M
  have hcon : ∀ p ∈ pts, ∃ Q, Contr d n (fun u M => fbarPoint d false tol epsR (vols d n smp u) p.2.1 ⟨d * n, dofVec d u⟩ p.1 p.2.2 M) u
      (fun x => p.1.w * ratio d (grad n u p.1.dN.e) * ∑ i ∈ Finset.range d, ∑ j ∈ Finset.range d,
        symT d false (sig p.2.1 (scaledF d (grad n u p.1.dN.e) (meanRatio (smp.map fun s => ratio d (grad n u s.dN.e)) p.2.2 (ratio d (grad n u p.1.dN.e))))) (i + 1) (j + 1)
          * grad n x (pushGrad d (defF d (grad n u p.1.dN.e)) p.1.dN).e (i + 1) (j + 1)) Q := by
    intro p hpm
    obtain ⟨p1, p2, p3, p4, p5, p6, c, p7⟩ := hp p hpm
    obtain ⟨fld, f1, f2, -⟩ := field_ok d hd n smp p.2.2 p3 p.1.dN p.1.N p1 (fun s hs => (hsmp s hs).1) u u (fun s hs => (hsmp s hs).2.2.2) p5 p6
    have f1 := f1.self_of_nhds
    have f2 := f2 0
    rw [along_zero] at f1 f2
    rw [← f2.2]
    exact ⟨_, fb_contr d hd n hn tol epsR p.1 p.2.1 (sig p.2.1) c p7.eval p1 p2 (vols d n smp) p.2.2 u (hz _ p4) p5 (fld 0) f1 f2.1 (by rw [f2.2]; exact p6)⟩
  classical
  obtain ⟨A, f, e1, e2⟩ := contr_run d n pts (fun p => fun u M => fbarPoint d false tol epsR (vols d n smp u) p.2.1 ⟨d * n, dofVec d u⟩ p.1 p.2.2 M) _
    (fun p => if h : p ∈ pts then (hcon p h).choose else fun _ _ => 0) u (fun p h => by rw [dif_pos h]; exact (hcon p h).choose_spec) (DMat.zero (d * n) (d * n)) (DVec.zero (d * n)) rfl rfl rfl
  refine ⟨A, f, by rw [hrun, e1], fun x g hg => ?_⟩
  rw [e2, zero_dot, zero_sub]
  congr 2
  refine List.map_congr_left fun p hpm => ?_
  congr 1
  refine Finset.sum_congr rfl fun i hi => Finset.sum_congr rfl fun j hj => ?_
  rw [push_unique d n _ (hp p hpm).2.2.2.2.1 p.1.dN x (g p.1) (hg p hpm) i j (Finset.mem_range.mp hi) (Finset.mem_range.mp hj)]

/-- C113: where the sampling points give the volume ratio of the integration point itself, the modified gradient is the gradient. -/
theorem C113_uniform (d : Nat) (H : Nat → Nat → ℝ) (hJ : ratio d H ≠ 0) (i j : Nat) : scaledF d H (ratio d H) i j = defF d H i j := by
  unfold scaledF
  rw [div_self hJ]
  simp

/-- C113: the modified gradient has the volume ratio of the sampling points, if both have the same sign. -/
theorem C113_volume (d : Nat) (hd : d = 2 ∨ d = 3) (H : Nat → Nat → ℝ) (Jb : ℝ) (hJ : 0 < Jb / ratio d H) : (lead d (scaledF d H Jb)).det = Jb := by
  have e : lead d (scaledF d H Jb) = (|Jb / ratio d H| ^ ((1 : ℝ) / d)) • lead d (defF d H) := by ext i j; rfl
  have hd0 : (d : ℝ) ≠ 0 := by rcases hd with h | h <;> rw [h] <;> norm_num
  rw [e, Matrix.det_smul, Fintype.card_fin, ← Real.rpow_natCast, ← Real.rpow_mul (abs_nonneg _), one_div, inv_mul_cancel₀ hd0, Real.rpow_one, abs_of_pos hJ]
  have : ratio d H ≠ 0 := by rintro h; rw [h] at hJ; simp at hJ
  exact div_mul_cancel₀ Jb this

/-! ### A material and an element -/

/-- Cauchy stresses of a compressible neo-Hookean material of the plane. -/
noncomputable def hooke2 (mu : ℝ) (F : Nat → Nat → ℝ) (i : Nat) : ℝ :=
  if i = 1 then mu * (F 1 1 * F 1 1 + F 1 2 * F 1 2 - 1) / (lead 2 F).det + ((lead 2 F).det - 1)
  else if i = 2 then mu * (F 2 1 * F 2 1 + F 2 2 * F 2 2 - 1) / (lead 2 F).det + ((lead 2 F).det - 1)
  else mu * (F 1 1 * F 2 1 + F 1 2 * F 2 2) / (lead 2 F).det

/-- Its tangent. -/
noncomputable def hookeC (mu : ℝ) (F : Nat → Nat → ℝ) : DMat ℝ :=
  ⟨3, 3, fun i j => if i = 3 ∧ j = 3 then mu / (lead 2 F).det - ((lead 2 F).det - 1) else if i = 3 ∨ j = 3 then 0 else if i = j then 2 * mu / (lead 2 F).det + 1 else 2 * (lead 2 F).det - 1⟩

theorem hooke2_ok (mu : ℝ) : Truesdell 2 (fun F _ => .ok (hookeC mu F, hooke2 mu F)) (hooke2 mu) (hookeC mu) := by
  refine ⟨fun _ _ _ => rfl, fun P L hP h i j hi hj => ?_⟩
  have hdet := det_deriv 2 (.inl rfl) P L h
  have h00 := h 0 0 (by omega) (by omega); have h01 := h 0 1 (by omega) (by omega); have h10 := h 1 0 (by omega) (by omega); have h11 := h 1 1 (by omega) (by omega)
  simp only [Finset.sum_range_succ, Finset.sum_range_zero, zero_add] at h00 h01 h10 h11
  have e1 := ((((h00.mul h00).add (h01.mul h01)).sub_const 1).const_mul mu).div hdet hP |>.add (hdet.sub_const 1)
  have e2 := ((((h10.mul h10).add (h11.mul h11)).sub_const 1).const_mul mu).div hdet hP |>.add (hdet.sub_const 1)
  have e3 := (((h00.mul h10).add (h01.mul h11)).const_mul mu).div hdet hP
  have hd2 : (lead 2 (P 0)).det = P 0 1 1 * P 0 2 2 - P 0 1 2 * P 0 2 1 := by simp [Matrix.det_fin_two, lead]
  interval_cases i <;> interval_cases j
  · refine e1.congr_deriv ?_
    simp [stressRate, posD, pos2, symT, hooke2, hookeC, tr, Finset.sum_range_succ]
    field_simp
    ring
  · refine e3.congr_deriv ?_
    simp [stressRate, posD, pos2, symT, hooke2, hookeC, tr, Finset.sum_range_succ]
    field_simp
    ring
  · refine e3.congr_deriv ?_
    simp [stressRate, posD, pos2, symT, hooke2, hookeC, tr, Finset.sum_range_succ]
    field_simp
    ring
  · refine e2.congr_deriv ?_
    simp [stressRate, posD, pos2, symT, hooke2, hookeC, tr, Finset.sum_range_succ]
    field_simp
    ring

/-- A stretched triangle with two sampling points and one integration point meets the hypotheses of `C113_tangent_partial` and `C113_forces`. -/
example (mu : ℝ) : ∃ (smp : List (FPt ℝ)) (pts : List (FPt ℝ × Mat ℝ × List ℝ)) (u : Nat → Nat → ℝ), smp.length = 2 ∧ pts.length = 1 ∧
    (∀ s ∈ smp, s.dN.nr = 3 ∧ s.dN.nc = 2 ∧ (∃ i, 1 ≤ i ∧ i ≤ 2 * (2 + 1) / 2 ∧ (1 / 10 : ℝ) < |greenV 2 (grad 3 u s.dN.e) i|) ∧ ratio 2 (grad 3 u s.dN.e) ≠ 0) ∧
    ∀ p ∈ pts, p.1.dN.nr = 3 ∧ p.1.dN.nc = 2 ∧ p.2.2.length = smp.length ∧ (∃ i, 1 ≤ i ∧ i ≤ 2 * (2 + 1) / 2 ∧ (1 / 10 : ℝ) < |greenV 2 (grad 3 u p.1.dN.e) i|) ∧ ratio 2 (grad 3 u p.1.dN.e) ≠ 0 ∧
      meanRatio (smp.map fun s => ratio 2 (grad 3 u s.dN.e)) p.2.2 (ratio 2 (grad 3 u p.1.dN.e)) ≠ 0 ∧ ∃ c, Truesdell 2 p.2.1 (hooke2 mu) c := by
  have hr : ratio 2 (grad 3 (fun a i => if a = 2 ∧ i = 1 then 1 else 0) triangle.dN.e) = 2 := by
    simp [ratio, Matrix.det_fin_two, lead, defF, grad, triangle, Finset.sum_range_succ]
    norm_num
  have hs : ∃ i, 1 ≤ i ∧ i ≤ 2 * (2 + 1) / 2 ∧ (1 / 10 : ℝ) < |greenV 2 (grad 3 (fun a i => if a = 2 ∧ i = 1 then 1 else 0) triangle.dN.e) i| := by
    refine ⟨1, le_refl _, by norm_num, ?_⟩
    simp [greenV, engineering, eng2, green, grad, triangle, Finset.sum_range_succ]
    norm_num [abs_of_pos]
  refine ⟨[triangle, triangle], [(triangle, fun F _ => .ok (hookeC mu F, hooke2 mu F), [1 / 2, 1 / 2])], fun a i => if a = 2 ∧ i = 1 then 1 else 0, rfl, rfl, fun s hm => ?_, fun p hm => ?_⟩
  · have : s = triangle := by simpa using hm
    subst this
    exact ⟨rfl, rfl, hs, by rw [hr]; norm_num⟩
  · obtain rfl := List.mem_singleton.mp hm
    refine ⟨rfl, rfl, rfl, hs, by rw [hr]; norm_num, ?_, _, hooke2_ok mu⟩
    simp only [List.map_cons, List.map_nil, hr, meanRatio, List.zip_cons_cons, List.zip_nil_right, List.sum_cons, List.sum_nil]
    norm_num

/-- The gradients of the bilinear functions of the square [-1,1]² at the point (a,b); the nodes are (-1,-1), (1,-1), (-1,1), (1,1). -/
noncomputable def square (a b w : ℝ) : FPt ℝ :=
  ⟨⟨4, fun i => if i = 1 then (1 - a) * (1 - b) / 4 else if i = 2 then (1 + a) * (1 - b) / 4 else if i = 3 then (1 - a) * (1 + b) / 4 else (1 + a) * (1 + b) / 4⟩,
   ⟨4, 2, fun i j => if i = 1 then (if j = 1 then -(1 - b) / 4 else -(1 - a) / 4) else if i = 2 then (if j = 1 then (1 - b) / 4 else -(1 + a) / 4)
     else if i = 3 then (if j = 1 then -(1 + b) / 4 else (1 - a) / 4) else (if j = 1 then (1 + b) / 4 else (1 + a) / 4)⟩, 1, w⟩

/-- The nodal displacements of `u_x = (x - a)(y - a)`, `u_y = 0`. -/
def twist (a : ℝ) (i k : Nat) : ℝ := if k = 1 then (if i = 1 then (1 + a) * (1 + a) else if i = 4 then (1 - a) * (1 - a) else -(1 - a) * (1 + a)) else 0

theorem twist_grad (a b c w : ℝ) : grad 4 (twist a) (square b c w).dN.e 1 1 = c - a ∧ grad 4 (twist a) (square b c w).dN.e 1 2 = b - a ∧
    grad 4 (twist a) (square b c w).dN.e 2 1 = 0 ∧ grad 4 (twist a) (square b c w).dN.e 2 2 = 0 := by
  refine ⟨?_, ?_, ?_, ?_⟩ <;> simp [grad, twist, square, Finset.sum_range_succ] <;> ring

/-- C113: an integration point without strains of its own contributes no forces, although the sampling point changes the volume of its modified gradient and the material has stresses there: the
displacements `u_x = (x - a)(y - a)` of the square leave the Gauss point (a,a) undeformed, while the volume ratio in the centre is `1 - a`. The forces vanish, but the work of the stresses of the modified
gradient in a stretch does not. -/
theorem C113_unstrained_violated (a w tol epsR : ℝ) (h0 : 0 < a) (h1 : a < 1) (hw : w ≠ 0) (ht : 0 ≤ tol) (ht' : tol < a - a * a / 2) :
    ∃ A f, fbarElement 2 false tol epsR [square 0 0 4] ⟨2 * 4, dofVec 2 (twist a)⟩ [(square a a w, fun F _ => .ok (hookeC 0 F, hooke2 0 F), [1])] (DMat.zero (2 * 4) (2 * 4), DVec.zero (2 * 4)) = .ok (A, f) ∧
      (∀ x, f.dot x = 0) ∧ ratio 2 (grad 4 (twist a) (square 0 0 4).dN.e) = 1 - a ∧ (∀ i j, i < 2 → j < 2 → grad 4 (twist a) (square a a w).dN.e (i + 1) (j + 1) = 0) ∧
      ∃ x : Nat → Nat → ℝ, w * ratio 2 (grad 4 (twist a) (square a a w).dN.e) * ∑ i ∈ Finset.range 2, ∑ j ∈ Finset.range 2,
        symT 2 false (hooke2 0 (scaledF 2 (grad 4 (twist a) (square a a w).dN.e) (1 - a))) (i + 1) (j + 1) * grad 4 x (square a a w).dN.e (i + 1) (j + 1) ≠ 0 := by
  obtain ⟨s1, s2, s3, s4⟩ := twist_grad a 0 0 4
  obtain ⟨p1, p2, p3, p4⟩ := twist_grad a a a w
  rw [sub_self] at p1 p2
  have hrs : ratio 2 (grad 4 (twist a) (square 0 0 4).dN.e) = 1 - a := by
    simp [ratio, Matrix.det_fin_two, lead, defF, s1, s2, s3, s4]; ring
  have hrp : ratio 2 (grad 4 (twist a) (square a a w).dN.e) = 1 := by
    simp [ratio, Matrix.det_fin_two, lead, defF, p1, p2, p3, p4]
  have hzs : ¬ zeroStrain tol (2 * (2 + 1) / 2) (greenV 2 (grad 4 (twist a) (square 0 0 4).dN.e)) = true := by
    rw [zeroStrain_iff]
    intro h
    have := h 1 (le_refl _) (by norm_num)
    have e : greenV 2 (grad 4 (twist a) (square 0 0 4).dN.e) 1 = -(a - a * a / 2) := by
      simp [greenV, engineering, eng2, green, s1, s3, Finset.sum_range_succ]; ring
    rw [e, abs_neg, abs_of_pos (by nlinarith)] at this
    linarith
  have hzp : zeroStrain tol (2 * (2 + 1) / 2) (greenV 2 (grad 4 (twist a) (square a a w).dN.e)) = true := by
    rw [zeroStrain_iff]
    intro i i1 i2
    norm_num at i2
    have e : greenV 2 (grad 4 (twist a) (square a a w).dN.e) i = 0 := by
      interval_cases i <;> simp [greenV, engineering, eng2, green, p1, p2, p3, p4, Finset.sum_range_succ]
    rw [e, abs_zero]
    exact ht
  have hred := reduced_ok 2 (.inl rfl) 4 (by omega) tol epsR (twist a) [square 0 0 4] (fun s hs => by
    obtain rfl := List.mem_singleton.mp hs
    exact ⟨rfl, rfl, hzs, by rw [hrs]; linarith⟩)
  have hk := kinUL_ok 2 (.inl rfl) (square a a w) epsR (by show 0 < 4; omega) rfl (twist a)
  have hk' : kinUL 2 false ⟨2 * 4, dofVec 2 (twist a)⟩ (square a a w) epsR = .ok (defF 2 (grad 4 (twist a) (square a a w).dN.e), greenV 2 (grad 4 (twist a) (square a a w).dN.e)) := hk
  have hstep : ∃ A, fbarPoint 2 false tol epsR (vols 2 4 [square 0 0 4] (twist a)) (fun F _ => .ok (hookeC 0 F, hooke2 0 F)) ⟨2 * 4, dofVec 2 (twist a)⟩ (square a a w) [1]
      (DMat.zero (2 * 4) (2 * 4), DVec.zero (2 * 4)) = .ok (A, DVec.zero (2 * 4)) := by
    unfold fbarPoint
    rw [hk']
    simp only [Res.bind, ncomp_solid, hzp, Bool.not_true, Bool.false_eq_true, if_false, one_ne_zero]
    unfold vols volField
    simp only [List.map_cons, List.map_nil, Bool.false_eq_true, if_false]
    generalize (hookeC 0 _).e = C
    obtain ⟨E, k1, -, -, -⟩ := stiff_ok 2 (.inl rfl) 4 (DMat.zero (2 * 4) (2 * 4)) (square a a w).N (square a a w).dN 0
      ⟨ratio 2 (grad 4 (twist a) (square 0 0 4).dN.e), pushGrad 2 (defF 2 (grad 4 (twist a) (square 0 0 4).dN.e)) (square 0 0 4).dN, DVec.zero 0⟩ C (fun _ => 0) ((square a a w).w * 1) rfl rfl rfl rfl
    simp only [zero_mul] at k1
    rw [k1]
    exact ⟨E, rfl⟩
  obtain ⟨A, hA⟩ := hstep
  refine ⟨A, DVec.zero (2 * 4), ?_, fun x => zero_dot _ x, hrs, ?_, fun i k => if k = 1 then (if i = 2 ∨ i = 4 then 2 else 0) else 0, ?_⟩
  · unfold fbarElement
    rw [hred]
    simp only [Res.bind, fbarPoints, hA]
  · intro i j hi hj
    interval_cases i <;> interval_cases j <;> assumption
  · have hdet : (lead 2 (scaledF 2 (grad 4 (twist a) (square a a w).dN.e) (1 - a))).det = 1 - a :=
      C113_volume 2 (.inl rfl) _ _ (by rw [hrp]; simp; linarith)
    have g11 : grad 4 (fun i k => if k = 1 then (if i = 2 ∨ i = 4 then 2 else 0) else 0) (square a a w).dN.e 1 1 = 1 := by
      simp [grad, square, Finset.sum_range_succ]; ring
    have g22 : ∀ j, grad 4 (fun i k => if k = 1 then (if i = 2 ∨ i = 4 then (2 : ℝ) else 0) else 0) (square a a w).dN.e 2 j = 0 := by
      simp [grad]
    rw [hrp]
    simp [Finset.sum_range_succ, symT, hooke2, hdet, g11, g22]
    exact ⟨hw, h0.ne'⟩

example : (0 : ℝ) < 1 / Real.sqrt 3 ∧ 1 / Real.sqrt 3 < 1 ∧ (1 / 1000 : ℝ) < 1 / Real.sqrt 3 - 1 / Real.sqrt 3 * (1 / Real.sqrt 3) / 2 := by
  have h3 : Real.sqrt 3 * Real.sqrt 3 = 3 := Real.mul_self_sqrt (by norm_num)
  have h1 : 1 < Real.sqrt 3 := by nlinarith [Real.sqrt_nonneg 3]
  have h2 : Real.sqrt 3 < 2 := by nlinarith [Real.sqrt_nonneg 3]
  have e : 1 / Real.sqrt 3 * (1 / Real.sqrt 3) = 1 / 3 := by rw [div_mul_div_comm, h3]; norm_num
  have h4 : 1 / 2 < 1 / Real.sqrt 3 := one_div_lt_one_div_of_lt (by linarith) h2
  refine ⟨by positivity, by rw [div_lt_one (by linarith)]; exact h1, ?_⟩
  rw [e]
  linarith

/-! ### Axisymmetric elements -/

theorem radial_dof (n : Nat) (u : Nat → Nat → ℝ) (N : DVec ℝ) : radial 2 ⟨2 * n, dofVec 2 u⟩ N = ∑ a ∈ Finset.range N.n, u (a + 1) 1 * N.e (a + 1) := by
  unfold radial
  refine Finset.sum_congr rfl fun a _ => ?_
  have := dofVec_eq 2 u a 0 (by omega)
  simp only [add_zero, zero_add] at this
  show dofVec 2 u (2 * a + 1) * _ = _
  rw [this]

/-- C113: a sampling point of an axisymmetric element gives the volume ratio including the hoop stretch, and its basis functions divided by the deformed radius; without strains the volume ratio is one and the
radius is the undeformed one. -/
theorem C113_sample_axi (n : Nat) (tol epsR : ℝ) (u : Nat → Nat → ℝ) (p : FPt ℝ) (F : Nat → Nat → ℝ) (E : Nat → ℝ) (hX : 0 < p.X) (hk : kinUL 2 true ⟨2 * n, dofVec 2 u⟩ p epsR = .ok (F, E)) :
    ((∀ i, 1 ≤ i → i ≤ 4 → |E i| ≤ tol) → reducedInt 2 true tol epsR ⟨2 * n, dofVec 2 u⟩ p = .ok ⟨1, p.dN, ⟨p.N.n, fun a => p.N.e a * (1 / p.X)⟩⟩) ∧
    ((∃ i, 1 ≤ i ∧ i ≤ 4 ∧ tol < |E i|) → (F 1 1 * F 2 2 - F 1 2 * F 2 1) * F 3 3 ≠ 0 →
      reducedInt 2 true tol epsR ⟨2 * n, dofVec 2 u⟩ p = .ok ⟨(F 1 1 * F 2 2 - F 1 2 * F 2 1) * F 3 3, pushGrad 2 F p.dN,
        ⟨p.N.n, fun a => p.N.e a * (1 / (p.X + ∑ a ∈ Finset.range p.N.n, u (a + 1) 1 * p.N.e (a + 1)))⟩⟩) := by
  have hn : ncomp 2 true = 4 := by decide
  have hd : (lead 2 F).det = F 1 1 * F 2 2 - F 1 2 * F 2 1 := by simp [Matrix.det_fin_two, lead]
  constructor
  · intro h
    unfold reducedInt
    rw [hk]
    simp only [Res.bind, hn, if_pos ((zeroStrain_iff tol 4 E).mpr h), true_and, if_pos hX]
    rfl
  · rintro ⟨i, h1, h2, h3⟩ hJ
    have hz : ¬ zeroStrain tol 4 E = true := by
      rw [zeroStrain_iff]
      exact fun h => absurd (h i h1 h2) (not_le.mpr h3)
    unfold reducedInt
    rw [hk]
    simp only [Res.bind, hn, if_neg hz, if_true, hd, if_neg hJ, true_and, if_pos hX, radial_dof]
    rfl

/-- The internal forces of an axisymmetric integration point. -/
theorem force_axi (n : Nat) (ES : DVec ℝ) (N : DVec ℝ) (dNdx : DMat ℝ) (r : ℝ) (hr : 0 < r) (sig : Nat → ℝ) (h1 : dNdx.nr = n) (h2 : ES.n = 2 * n) :
    ∃ E, fbarForce 2 true ES N dNdx r sig = .ok E ∧ E.n = 2 * n ∧
      ∀ x, E.dot (dofVec 2 x) = ES.dot (dofVec 2 x) - (∑ i ∈ Finset.range 2, ∑ j ∈ Finset.range 2, symT 2 true sig (i + 1) (j + 1) * grad n x dNdx.e (i + 1) (j + 1)
        + sig 3 * ((∑ a ∈ Finset.range n, x (a + 1) 1 * N.e (a + 1)) / r)) := by
  unfold fbarForce
  obtain ⟨E, e1, e2, e3⟩ := DVec.addMany_ok (A := ES) (l := (List.range dNdx.nr).flatMap fun a => (if true = true ∧ 0 < r then [(2 * a + 1, -(N.e (a + 1) * sig 3 / r))] else []) ++
    (List.range 2).map fun i => (2 * a + i + 1, -∑ j ∈ Finset.range 2, dNdx.e (a + 1) (j + 1) * symT 2 true sig (i + 1) (j + 1))) (by
      intro x hx
      simp only [true_and, if_pos hr, List.mem_flatMap, List.mem_range, List.mem_map, List.mem_append, List.mem_singleton] at hx
      obtain ⟨a, ha, h | ⟨i, hi, rfl⟩⟩ := hx
      · subst h; refine ⟨by simp, ?_⟩; rw [h2]; simp; omega
      · refine ⟨by simp, ?_⟩
        rw [h2]
        exact block_lt 2 a i n hi (by omega))
  refine ⟨E, e1, e2.trans h2, fun x => ?_⟩
  rw [e3, sub_eq_add_neg]
  congr 1
  simp only [true_and, if_pos hr]
  rw [sum_flatMap, sum_list_range, h1]
  have e : ∀ a, (([(2 * a + 1, -(N.e (a + 1) * sig 3 / r))] ++ List.map (fun i => (2 * a + i + 1, -∑ j ∈ Finset.range 2, dNdx.e (a + 1) (j + 1) * symT 2 true sig (i + 1) (j + 1))) (List.range 2)).map fun t => dofVec 2 x t.1 * t.2).sum
      = -(∑ i ∈ Finset.range 2, ∑ j ∈ Finset.range 2, symT 2 true sig (i + 1) (j + 1) * (x (a + 1) (i + 1) * dNdx.e (a + 1) (j + 1))) - sig 3 * (x (a + 1) 1 * N.e (a + 1) / r) := by
    intro a
    have d0 := dofVec_eq 2 x a 0 (by omega)
    have d1 := dofVec_eq 2 x a 1 (by omega)
    simp only [add_zero, zero_add] at d0 d1
    simp only [List.range_succ, List.range_zero, List.nil_append, List.map_append, List.map_cons, List.map_nil, List.sum_append, List.sum_cons, List.sum_nil, add_zero, zero_add, d0, d1, Finset.sum_range_succ, Finset.sum_range_zero]
    ring
  simp only [e, Finset.sum_sub_distrib, Finset.sum_neg_distrib]
  rw [neg_add, ← sub_eq_add_neg]
  congr 1
  · congr 1
    unfold grad
    simp only [Finset.mul_sum]
    rw [Finset.sum_comm]
    exact Finset.sum_congr rfl fun i _ => Finset.sum_comm
  · rw [Finset.sum_div, Finset.mul_sum]

/-- C113: the forces of a strained integration point of an axisymmetric element. The volume ratio includes the hoop stretch, the gradient is scaled by the cubic root of the ratio of the volumes, and the hoop
stress works on the virtual radial displacement divided by the deformed radius. -/
theorem C113_forces_axi (n : Nat) (tol epsR : ℝ) (vol : List VolPt) (mat : Mat ℝ) (u : Nat → Nat → ℝ) (p : FPt ℝ) (Nb : List ℝ) (M M' : DMat ℝ × DVec ℝ) (F : Nat → Nat → ℝ) (E : Nat → ℝ) (fld : VolFld) (C : DMat ℝ) (s : Nat → ℝ)
    (hn : p.dN.nr = n) (hM : M.2.n = 2 * n) (hk : kinUL 2 true ⟨2 * n, dofVec 2 u⟩ p epsR = .ok (F, E)) (hs : ∃ i, 1 ≤ i ∧ i ≤ 4 ∧ tol < |E i|)
    (hr : 0 < p.X + ∑ a ∈ Finset.range p.N.n, u (a + 1) 1 * p.N.e (a + 1))
    (hf : volField true vol Nb ((F 1 1 * F 2 2 - F 1 2 * F 2 1) * F 3 3) (p.X + ∑ a ∈ Finset.range p.N.n, u (a + 1) 1 * p.N.e (a + 1)) (pushGrad 2 F p.dN) p.N = .ok fld)
    (hmat : mat (fun i j => |fld.J / ((F 1 1 * F 2 2 - F 1 2 * F 2 1) * F 3 3)| ^ ((1 : ℝ) / 3) * F i j) E = .ok (C, s))
    (h : fbarPoint 2 true tol epsR vol mat ⟨2 * n, dofVec 2 u⟩ p Nb M = .ok M') (x : Nat → Nat → ℝ) :
    M'.2.dot (dofVec 2 x) = M.2.dot (dofVec 2 x) - p.w * ((F 1 1 * F 2 2 - F 1 2 * F 2 1) * F 3 3) *
      (∑ i ∈ Finset.range 2, ∑ j ∈ Finset.range 2, symT 2 true s (i + 1) (j + 1) * grad n x (pushGrad 2 F p.dN).e (i + 1) (j + 1)
        + s 3 * ((∑ a ∈ Finset.range n, x (a + 1) 1 * p.N.e (a + 1)) / (p.X + ∑ a ∈ Finset.range p.N.n, u (a + 1) 1 * p.N.e (a + 1)))) := by
  have hnc : ncomp 2 true = 4 := by decide
  have hd : (lead 2 F).det = F 1 1 * F 2 2 - F 1 2 * F 2 1 := by simp [Matrix.det_fin_two, lead]
  obtain ⟨i, h1, h2, h3⟩ := hs
  have hz : zeroStrain tol 4 E = false := by
    rw [← Bool.not_eq_true, zeroStrain_iff]
    exact fun h => absurd (h i h1 h2) (not_le.mpr h3)
  unfold fbarPoint at h
  rw [hk] at h
  simp only [Res.bind, hnc, hz, Bool.not_false, if_true, hd, radial_dof] at h
  generalize p.X + ∑ a ∈ Finset.range p.N.n, u (a + 1) 1 * p.N.e (a + 1) = r at *
  generalize (F 1 1 * F 2 2 - F 1 2 * F 2 1) * F 3 3 = J at *
  by_cases hJ : J = 0
  · rw [if_pos hJ] at h; simp at h
  rw [if_neg hJ, hf] at h
  have hmat' : mat (fun i j => |fld.J / J| ^ ((1 : ℝ) / ((3 : ℕ) : ℝ)) * F i j) E = .ok (C, s) := by exact_mod_cast hmat
  simp only [hmat'] at h
  obtain ⟨E2, k1, -, k3⟩ := force_axi n M.2 p.N (pushGrad 2 F p.dN) r hr (fun i => s i * (p.w * J)) hn hM
  rw [k1] at h
  simp only at h
  cases hst : fbarStiff 2 true M.1 p.N (pushGrad 2 F p.dN) r fld (fun i j => C.e i j * (p.w * J)) (fun i => s i * (p.w * J)) with
  | ok EK =>
    rw [hst] at h
    simp only [Res.ok.injEq] at h
    rw [← h]
    show E2.dot _ = _
    rw [k3]
    congr 1
    simp [Finset.sum_range_succ, symT]
    ring
  | fail => rw [hst] at h; simp at h
  | ub => rw [hst] at h; simp at h

/-- A stretched axisymmetric triangle meets the hypotheses. -/
example : ∃ F E, kinUL 2 true ⟨2 * 3, dofVec 2 fun a i => if a = 2 ∧ i = 1 then 1 else 0⟩ triangle (0 : ℝ) = .ok (F, E) ∧ (∃ i, 1 ≤ i ∧ i ≤ 4 ∧ (1 / 10 : ℝ) < |E i|) ∧
    (F 1 1 * F 2 2 - F 1 2 * F 2 1) * F 3 3 = 8 / 3 ∧ 0 < triangle.X + ∑ a ∈ Finset.range triangle.N.n, (if a + 1 = 2 ∧ 1 = 1 then (1 : ℝ) else 0) * triangle.N.e (a + 1) := by
  have hg : ∀ i j, 1 ≤ i → i ≤ 2 → 1 ≤ j → j ≤ 2 → defGrad 2 true true triangle.N triangle.dN triangle.X (0 : ℝ) (dofVec 2 fun a i => if a = 2 ∧ i = 1 then 1 else 0) i j = if i = 1 ∧ j = 1 then 1 else 0 := by
    intro i j a b c e
    rw [defGrad_grad 2 true triangle.N triangle.dN triangle.X 0 _ i j a b c e (le_refl _)]
    interval_cases i <;> interval_cases j <;> simp [grad, triangle, Finset.sum_range_succ]
  have h33 : defGrad 2 true true triangle.N triangle.dN triangle.X (0 : ℝ) (dofVec 2 fun a i => if a = 2 ∧ i = 1 then 1 else 0) 3 3 = 0 := by simp [defGrad]
  have hu : ∑ a ∈ Finset.range triangle.N.n, dofVec 2 (fun a i => if a = 2 ∧ i = 1 then (1 : ℝ) else 0) (2 * a + 1) * triangle.N.e (a + 1) = 1 / 3 := by
    simp [triangle, Finset.sum_range_succ, dofVec]
  refine ⟨kinF true triangle.X 0 (1 / 3) (defGrad 2 true true triangle.N triangle.dN triangle.X (0 : ℝ) (dofVec 2 fun a i => if a = 2 ∧ i = 1 then 1 else 0)),
    strainV 2 true (defGrad 2 true true triangle.N triangle.dN triangle.X (0 : ℝ) (dofVec 2 fun a i => if a = 2 ∧ i = 1 then 1 else 0)), ?_, ⟨1, le_refl _, by norm_num, ?_⟩, ?_, ?_⟩
  · unfold kinUL
    refine (if_neg (by simp)).trans ((if_neg (by simp [triangle])).trans ?_)
    rw [hu]
  · simp [strainV, strainE, hg, Finset.sum_range_succ]
    norm_num [abs_of_pos]
  · simp only [kinF, hg 1 1 (by omega) (by omega) (by omega) (by omega), hg 1 2 (by omega) (by omega) (by omega) (by omega), hg 2 1 (by omega) (by omega) (by omega) (by omega), hg 2 2 (by omega) (by omega) (by omega) (by omega), h33]
    simp [triangle]
    norm_num
  · simp [triangle, Finset.sum_range_succ]
    norm_num

/-- C113: as in the other formulations (`C112_hoop_violated`), an axisymmetric ring that is expanded radially has no forces, whatever its material and sampling points. -/
theorem C113_hoop_violated (tol epsR : ℝ) (ht : 0 ≤ tol) (n : Nat) (hn : 0 < n) (smp : List (FPt ℝ)) (pts : List (FPt ℝ × Mat ℝ × List ℝ)) (ur : ℝ)
    (hp : ∀ p ∈ pts, p.1.dN.nr = n ∧ p.1.dN.nc = 2 ∧ ∑ a ∈ Finset.range n, p.1.dN.e (a + 1) 1 = 0 ∧ ∑ a ∈ Finset.range n, p.1.dN.e (a + 1) 2 = 0) (M M' : DMat ℝ × DVec ℝ)
    (h : fbarElement 2 true tol epsR smp ⟨2 * n, dofVec 2 fun _ i => if i = 1 then ur else 0⟩ pts M = .ok M') : M'.2 = M.2 := by
  unfold fbarElement at h
  generalize reducedAll 2 true tol epsR _ smp = R at h
  cases R with
  | fail => simp [Res.bind] at h
  | ub => simp [Res.bind] at h
  | ok vol =>
    simp only [Res.bind] at h
    induction pts generalizing M with
    | nil => simp only [fbarPoints, Res.ok.injEq] at h; rw [h]
    | cons p l ih =>
      obtain ⟨p1, p2, p3, p4⟩ := hp p (by simp)
      simp only [fbarPoints] at h
      have key : ∀ M1, fbarPoint 2 true tol epsR vol p.2.1 ⟨2 * n, dofVec 2 fun _ i => if i = 1 then ur else 0⟩ p.1 p.2.2 M = .ok M1 → M1.2 = M.2 := by
        intro M1 h1
        have hk : ∃ F, kinUL 2 true ⟨2 * n, dofVec 2 fun _ i => if i = 1 then ur else 0⟩ p.1 epsR
            = .ok (F, strainV 2 true (defGrad 2 true true p.1.N p.1.dN p.1.X epsR (dofVec 2 fun _ i => if i = 1 then ur else 0))) := by
          unfold kinUL
          exact ⟨_, (if_neg (by show ¬ 2 * n = 0; omega)).trans (if_neg (by simp [p1, p2]))⟩
        obtain ⟨F, hk⟩ := hk
        have hz := ring_strain tol epsR ht n p.1 p1 p2 p3 p4 ur
        unfold fbarPoint at h1
        rw [hk] at h1
        simp only [Res.bind, show ncomp 2 true = 4 from by decide, hz, Bool.not_true, Bool.false_eq_true, if_false, one_ne_zero] at h1
        generalize volField true _ _ _ _ _ _ = V at h1
        cases V with
        | fail => simp at h1
        | ub => simp at h1
        | ok fld =>
          simp only at h1
          generalize p.2.1 _ _ = m at h1
          cases m with
          | fail => simp at h1
          | ub => simp at h1
          | ok cs =>
            simp only at h1
            generalize fbarStiff 2 true _ _ _ _ _ _ _ = S at h1
            cases S with
            | fail => simp at h1
            | ub => simp at h1
            | ok E =>
              simp only [Res.ok.injEq] at h1
              rw [← h1]
      generalize fbarPoint 2 true tol epsR vol p.2.1 ⟨2 * n, dofVec 2 fun _ i => if i = 1 then ur else 0⟩ p.1 p.2.2 M = X at h key
      cases X with
      | fail => simp [Res.bind] at h
      | ub => simp [Res.bind] at h
      | ok M1 =>
        simp only [Res.bind] at h
        exact (ih (fun p hp' => hp p (by simp [hp'])) M1 h).trans (key M1 rfl)

/-- The gradient of nodal values of an axisymmetric element, with the hoop component from the values `N`. -/
noncomputable def axGrad (n : Nat) (g : Nat → Nat → ℝ) (N : Nat → ℝ) (x : Nat → Nat → ℝ) (i j : Nat) : ℝ :=
  if i ≤ 2 ∧ j ≤ 2 then grad n x g i j else if i = 3 ∧ j = 3 then ∑ a ∈ Finset.range n, x (a + 1) 1 * N (a + 1) else 0

/-- The stress tensor of an axisymmetric element, from the components rr, zz, hoop, rz. -/
noncomputable def axStress (s : Nat → ℝ) (i j : Nat) : ℝ :=
  if i = 3 ∧ j = 3 then s 3 else if i = 3 ∨ j = 3 then 0 else if i = j then s i else s 4

theorem grad_ax (n : Nat) (r : ℝ) (hr : 0 < r) (N : DVec ℝ) (dN : DMat ℝ) (hn : dN.nr = n) (hN : N.n = n) :
    ∃ G, gradOp 2 r N dN = .ok G ∧ G.nr = 5 ∧ G.nc = 2 * n ∧ ∀ v k, k < 5 → G.mulV (dofVec 2 v) (k + 1) = num 2 (axGrad n dN.e (fun a => N.e a / r) v) (k + 1) := by
  obtain ⟨G, g1, g2, g3, -, -⟩ := gradOp_entries 2 (by omega) r N dN (fun _ => by omega)
  rw [if_pos hr] at g2
  refine ⟨G, g1, g2, by rw [g3, hn], fun v k hk => ?_⟩
  obtain ⟨G', e1, -, e3, e4⟩ := C31_gradient 2 (by omega) r N dN (fun _ => by omega) v
  have : G' = G := by rw [g1] at e1; cases e1; rfl
  subst this
  by_cases h4 : k = 4
  · subst h4
    rw [show 4 + 1 = 2 * 2 + 1 from rfl, e4 hr, hn]
    simp only [num, comp, dir, axGrad]
    norm_num
    rw [Finset.sum_div]
    exact Finset.sum_congr rfl fun a _ => by ring
  · have hj : k % 2 < 2 := Nat.mod_lt _ (by omega)
    have hi : k / 2 < 2 := Nat.div_lt_of_lt_mul (by omega)
    have := e3 (k / 2) (k % 2) hi hj
    rw [Nat.div_add_mod] at this
    rw [this, hn]
    unfold num comp dir axGrad grad
    simp only [if_pos (show k + 1 ≤ 2 * 2 by omega), Nat.add_sub_cancel]
    rw [if_pos (by constructor <;> omega)]
    exact Finset.sum_congr rfl fun a _ => mul_comm _ _

/-- C113: the matrix of an integration point of an axisymmetric element, away from the axis of rotation: rate of the virtual work of the stresses in a motion, in which the gradients of the integration point
have the trace of those of the volumetric field. -/
theorem C113_matrix_axi (n : Nat) (EK : DMat ℝ) (N : DVec ℝ) (dNdx : DMat ℝ) (r : ℝ) (fld : VolFld) (C : Nat → Nat → ℝ) (sig : Nat → ℝ) (s : ℝ)
    (h1 : dNdx.nr = n) (h2 : fld.dM.nr = n) (h3 : EK.nr = 2 * n) (h4 : EK.nc = 2 * n) (h5 : N.n = n) (h6 : fld.M.n = n) (hr : 0 < r) :
    ∃ E, fbarStiff 2 true EK N dNdx r fld (fun i j => C i j * s) (fun i => sig i * s) = .ok E ∧ E.nr = 2 * n ∧ E.nc = 2 * n ∧
      ∀ x y, E.bil (dofVec 2 x) (dofVec 2 y) = EK.bil (dofVec 2 x) (dofVec 2 y)
        + s * ∑ i ∈ Finset.range 3, ∑ j ∈ Finset.range 3, axGrad n dNdx.e (fun a => N.e a / r) x (i + 1) (j + 1) *
            forceRate 3 (axStress sig) (stressRate posA 3 C (axStress sig) (barRate 3 (axGrad n dNdx.e (fun a => N.e a / r) y) (axGrad n fld.dM.e fld.M.e y))) (axGrad n dNdx.e (fun a => N.e a / r) y) (i + 1) (j + 1) := by
  obtain ⟨G, g1, g2, g3, g4⟩ := grad_ax n r hr N dNdx h1 h5
  obtain ⟨Gb, b1, b2, b3, b4⟩ := grad_ax n 1 one_pos fld.M fld.dM h2 h6
  simp only [div_one] at b4
  have hS : sig 1 * s = axStress sig 1 1 * s ∧ sig 2 * s = axStress sig 2 2 * s ∧ sig 3 * s = axStress sig 3 3 * s ∧ sig 4 * s = axStress sig 1 2 * s ∧ sig 4 * s = axStress sig 2 1 * s := by
    refine ⟨?_, ?_, ?_, ?_, ?_⟩ <;> simp [axStress]
  have aS : AxiForm (fun i j => axStress sig i j * s) := by
    refine ⟨?_, ?_, ?_, ?_⟩ <;> simp [axStress]
  have aL : ∀ (g : Nat → Nat → ℝ) (N : Nat → ℝ) y, AxiForm (axGrad n g N y) := by
    intro g N y
    refine ⟨?_, ?_, ?_, ?_⟩ <;> simp [axGrad]
  obtain ⟨A, hA, n1, n2, -⟩ := C31_axisymmetric (fun i j => C i j * s) (fun i j => axStress sig i j * s) (fun i => sig i * s) hS
  obtain ⟨Q, hQ, m1, m2⟩ : ∃ Q, qmat 2 3 true A (fun i j => sig (vidxA i j) * s) = .ok Q ∧ Q.nr = 5 ∧ Q.nc = 5 := by
    obtain ⟨nr, nc, e⟩ := A
    simp only at n1 n2
    subst n1 n2
    obtain ⟨Q, a, b, c, -⟩ := qA e (fun i j => sig (vidxA i j) * s)
    exact ⟨Q, a, b, c⟩
  obtain ⟨E1, e1, e2, e3, e4⟩ := addGAG_ok 5 (2 * n) EK G A G n2 n1 g2 g2 g3 g3 h3 h4
  obtain ⟨E2, f1, f2, f3, f4⟩ := addGAG_ok 5 (2 * n) E1 G Q ⟨Gb.nr, Gb.nc, fun i j => Gb.e i j - G.e i j⟩ m2 m1 g2 b2 g3 b3 e2 e3
  refine ⟨E2, ?_, f2, f3, fun x y => ?_⟩
  · unfold fbarStiff fbarA
    simp only [if_true, g1, b1, Res.bind, hA, hQ, e1, if_pos (show Gb.nr = G.nr ∧ Gb.nc = G.nc from ⟨by omega, by omega⟩), f1]
  · rw [f4, e4, add_assoc, ← Finset.sum_add_distrib]
    congr 1
    obtain ⟨A1, Q1, hA1, hQ1, ht⟩ := C31_tangent_axisymmetric (fun i j => C i j * s) (fun i j => axStress sig i j * s) (fun i => sig i * s) hS (axGrad n dNdx.e (fun a => N.e a / r) y) (axGrad n fld.dM.e fld.M.e y) aS (aL _ _ _)
    have : A1 = A := by rw [hA] at hA1; cases hA1; rfl
    subst this
    have : Q1 = Q := by rw [hQ] at hQ1; cases hQ1; rfl
    subst this
    have hk : ∀ k ∈ Finset.range 5, G.mulV (dofVec 2 x) (k + 1) * A1.mulV (G.mulV (dofVec 2 y)) (k + 1) + G.mulV (dofVec 2 x) (k + 1) * Q1.mulV ((⟨Gb.nr, Gb.nc, fun i j => Gb.e i j - G.e i j⟩ : DMat ℝ).mulV (dofVec 2 y)) (k + 1)
        = num 2 (axGrad n dNdx.e (fun a => N.e a / r) x) (k + 1) * (s * forceRate 3 (axStress sig) (stressRate posA 3 C (axStress sig) (barRate 3 (axGrad n dNdx.e (fun a => N.e a / r) y) (axGrad n fld.dM.e fld.M.e y)))
            (axGrad n dNdx.e (fun a => N.e a / r) y) (comp 2 (k + 1)) (dir 2 (k + 1))) := by
      intro k hk
      have hk' := Finset.mem_range.mp hk
      rw [← stressRate_scale 3 (.inr rfl), ← ht (k + 1) (by omega) (by omega), g4 x k hk', ← mul_add]
      congr 2
      · unfold DMat.mulV at g4 ⊢
        rw [n2]
        exact Finset.sum_congr rfl fun l hl => by rw [← g4 y l (Finset.mem_range.mp hl)]
      · unfold DMat.mulV at g4 b4 ⊢
        rw [m2]
        refine Finset.sum_congr rfl fun l hl => ?_
        beta_reduce
        rw [← g4 y l (Finset.mem_range.mp hl), ← b4 y l (Finset.mem_range.mp hl)]
        simp only [sub_mul, Finset.sum_sub_distrib, g3, b3]
    rw [Finset.sum_congr rfl hk]
    generalize forceRate 3 (axStress sig) _ _ = R
    obtain ⟨l1, l2, l3, l4⟩ := aL dNdx.e (fun a => N.e a / r) x
    simp only [Finset.sum_range_succ, Finset.sum_range_zero, zero_add, num, comp, dir, Nat.reduceAdd, l1, l2, l3, l4]
    norm_num
    ring

/-- C113: with several sampling points, volume ratio times gradients of the volumetric field, the hoop component included, are the sums of those of the sampling points. -/
theorem C113_field_axi (n : Nat) (v w : VolPt) (vol : List VolPt) (Nb : List ℝ) (J r : ℝ) (dNdx : DMat ℝ) (N : DVec ℝ) (hl : Nb.length ≤ (v :: w :: vol).length) (hJ : (((v :: w :: vol).zip Nb).map fun z => z.1.J * z.2).sum ≠ 0) :
    ∃ fld, volField true (v :: w :: vol) Nb J r dNdx N = .ok fld ∧ fld.J = (((v :: w :: vol).zip Nb).map fun z => z.1.J * z.2).sum ∧ fld.dM.nr = dNdx.nr ∧ fld.M.n = dNdx.nr ∧
      ∀ x i j, fld.J * axGrad n fld.dM.e fld.M.e x i j = (((v :: w :: vol).zip Nb).map fun z => z.1.J * z.2 * axGrad n z.1.dN.e z.1.Nr.e x i j).sum := by
  unfold volField
  simp only [if_neg (not_lt.mpr hl), if_neg hJ, if_true]
  refine ⟨_, rfl, rfl, rfl, rfl, fun x i j => ?_⟩
  generalize (v :: w :: vol).zip Nb = z at *
  simp only [axGrad]
  split_ifs
  · unfold grad
    rw [Finset.mul_sum]
    have : ∀ a ∈ Finset.range n, (z.map fun v => v.1.J * v.2).sum * (x (a + 1) i * (1 / (z.map fun v => v.1.J * v.2).sum * (z.map fun v => v.1.J * v.2 * v.1.dN.e (a + 1) j).sum)) = (z.map fun v => v.1.J * v.2 * (x (a + 1) i * v.1.dN.e (a + 1) j)).sum := by
      intro a _
      have e : (z.map fun v => v.1.J * v.2 * (x (a + 1) i * v.1.dN.e (a + 1) j)).sum = x (a + 1) i * (z.map fun v => v.1.J * v.2 * v.1.dN.e (a + 1) j).sum := by
        rw [← List.sum_map_mul_left]
        congr 1
        exact List.map_congr_left fun v _ => by ring
      rw [e]
      field_simp
    rw [Finset.sum_congr rfl this]
    clear this hJ
    induction z with
    | nil => simp
    | cons a l ih => simp only [List.map_cons, List.sum_cons, Finset.sum_add_distrib, ih, Finset.mul_sum]
  · rw [Finset.mul_sum]
    have : ∀ a ∈ Finset.range n, (z.map fun v => v.1.J * v.2).sum * (x (a + 1) 1 * ((z.map fun v => v.1.J * v.2 * v.1.Nr.e (a + 1)).sum / (z.map fun v => v.1.J * v.2).sum)) = (z.map fun v => v.1.J * v.2 * (x (a + 1) 1 * v.1.Nr.e (a + 1))).sum := by
      intro a _
      have e : (z.map fun v => v.1.J * v.2 * (x (a + 1) 1 * v.1.Nr.e (a + 1))).sum = x (a + 1) 1 * (z.map fun v => v.1.J * v.2 * v.1.Nr.e (a + 1)).sum := by
        rw [← List.sum_map_mul_left]
        congr 1
        exact List.map_congr_left fun v _ => by ring
      rw [e]
      field_simp
    rw [Finset.sum_congr rfl this]
    clear this hJ
    induction z with
    | nil => simp
    | cons a l ih => simp only [List.map_cons, List.sum_cons, Finset.sum_add_distrib, ih, Finset.mul_sum]
  · simp

example : (((⟨2, ⟨1, 2, fun _ _ => 1⟩, ⟨1, fun _ => 1⟩⟩ : VolPt) :: ⟨3, ⟨1, 2, fun _ _ => 1⟩, ⟨1, fun _ => 1⟩⟩ :: []).zip [(1 / 2 : ℝ), 1 / 2] |>.map fun z => z.1.J * z.2).sum ≠ 0 := by
  norm_num

end Verif.Finite
