/-
C114: the matrix and the forces of the mixed element with internal pressure modes.

Quantities (Proofs/MixedElem.lean): `mxF` the deformation gradient, `mxJ` its determinant, `mwt` the volume of an integration point in the initial configuration, `mprj` the least squares fit of a quantity by the
pressure modes, `mTh` the fit of the volume ratio, `mFb` the deformation gradient scaled to that volume ratio, `mS` the constitutive stresses there, `mQ` their mean value, `mP` the mixed pressure, i.e. the fit of the
mean stresses transformed to the volume `mTh`, and `mRef` the gradient of nodal values in the initial configuration.
-/
import Verif.Proofs.MixedElem

set_option linter.unusedSectionVars false
set_option linter.unusedSimpArgs false
set_option linter.unusedVariables false

namespace Verif.Finite

open Verif.Cont Verif.ContSpec Verif.FiniteSpec Verif.Fbar Verif.Mixed Filter Topology

variable {nPM : Nat}

/-! ### The property -/

/-- An element: plane, three-dimensional or axisymmetric (then away from the axis of rotation), the first pressure mode is constant and the pressure modes are independent in the integration points. -/
structure MxOk (nsd : Nat) (axi : Bool) (n : Nat) (epsR : ℝ) (pts : List (MPt nPM)) (eP : DVec ℝ) : Prop where
  dim : nsd = 2 ∨ nsd = 3 ∧ axi = false
  nodes : 0 < n
  eps : axi = true → 0 ≤ epsR ∧ epsR < 1
  points : ∀ p ∈ pts, p.pt.dN.nr = n ∧ p.pt.dN.nc = nsd ∧ (axi = true → p.pt.N.n = n ∧ epsR < p.pt.X ∧ 0 < p.pt.X)
  modes : 1 ≤ nPM
  constant : ∀ p ∈ pts, p.phi ⟨0, modes⟩ = 1
  independent : (modeMat axi pts).det ≠ 0
  previous : eP.n = 0 ∨ eP.n = nsd * n

/-- The hoop stress of the mixed formulation at an integration point. -/
noncomputable def hoopStress (nsd : Nat) (axi : Bool) (n : Nat) (pts : List (MPt nPM)) (sig : MPt nPM → (Nat → Nat → ℝ) → Nat → ℝ) (u : Nat → Nat → ℝ) (p : MPt nPM) : ℝ :=
  mS nsd axi n pts sig u p 3 + mP nsd axi n pts sig u p - mQ nsd axi n pts sig u p

theorem hoop_eq (nsd : Nat) (axi : Bool) (n : Nat) (pts : List (MPt nPM)) (sig : MPt nPM → (Nat → Nat → ℝ) → Nat → ℝ) (u : Nat → Nat → ℝ) (p : MPt nPM) (X Y : Nat → Nat → ℝ) :
    mHoop axi (mS nsd axi n pts sig u p) (mP nsd axi n pts sig u p) X Y = if axi = true ∧ hoopStress nsd axi n pts sig u p ≤ 0 then hoopStress nsd axi n pts sig u p * (X 3 3 * Y 3 3) else 0 := by
  have e : mSg (mS nsd axi n pts sig u p) (mP nsd axi n pts sig u p) 3 3 = hoopStress nsd axi n pts sig u p := by
    simp only [mSg, if_true, hoopStress, mQ]
    simp [symT]
    ring
  unfold mHoop
  rw [e]
  simp only [not_lt]

/-- C114: the derivative of the forces of a mixed element is the element matrix, up to the part of the geometric stiffness which belongs to compressive hoop stresses of an axisymmetric element. -/
theorem C114_tangent_defect (nsd : Nat) (axi : Bool) (n : Nat) (tol epsR : ℝ) (pts : List (MPt nPM)) (eP : DVec ℝ) (hE : MxOk nsd axi n epsR pts eP) (sig : MPt nPM → (Nat → Nat → ℝ) → Nat → ℝ)
    (c : MPt nPM → (Nat → Nat → ℝ) → DMat ℝ) (hmat : ∀ p ∈ pts, Truesdell 3 p.mat (sig p) (c p)) (u v : Nat → Nat → ℝ) (hJ : ∀ p ∈ pts, mxJ nsd axi n p u ≠ 0) (hT : ∀ p ∈ pts, mTh nsd axi n pts u p ≠ 0)
    (hs : tol = 0 ∨ ∀ p ∈ pts, ∃ i, 1 ≤ i ∧ i ≤ 6 ∧ tol < |mS nsd axi n pts sig u p i|) :
    ∃ (A : DMat ℝ) (f : ℝ → DVec ℝ), mxElement nsd axi tol epsR ⟨nsd * n, dofVec nsd u⟩ eP pts (DMat.zero (nsd * n) (nsd * n), DVec.zero (nsd * n)) = .ok (A, f 0) ∧
      (∀ᶠ t in 𝓝 (0 : ℝ), ∃ A', mxElement nsd axi tol epsR ⟨nsd * n, dofVec nsd (along u v t)⟩ eP pts (DMat.zero (nsd * n) (nsd * n), DVec.zero (nsd * n)) = .ok (A', f t)) ∧
      ∀ x, HasDerivAt (fun t => (f t).dot (dofVec nsd x)) (-(A.bil (dofVec nsd x) (dofVec nsd v) + (pts.map fun p => mwt axi p * mTh nsd axi n pts u p *
        if axi = true ∧ hoopStress nsd axi n pts sig u p ≤ 0 then hoopStress nsd axi n pts sig u p * (mL nsd axi n p u x 3 3 * mL nsd axi n p u v 3 3) else 0).sum)) 0 := by
  obtain ⟨a1, a2, a3, a4, a5, a6, a7, a8⟩ := hE
  obtain ⟨A, f, e1, e2, e3, e4⟩ := contr_start nsd n (fun u M => mxElement nsd axi tol epsR ⟨nsd * n, dofVec nsd u⟩ eP pts M) u v _ _ _ (near_contr nsd axi a1 n a2 a5 tol epsR a3 pts a4 a6 a7 eP a8 sig c hmat u v hJ hT hs)
    fun x => list_deriv pts (fun t p => mWork nsd axi n pts sig (along u v t) p x) _ fun p hpm => point_deriv nsd axi a1 n epsR pts a4 a7 sig c u v x hJ hT hmat p hpm
  refine ⟨A, f, e1, e2, fun x => (e3 x).congr_deriv ?_⟩
  rw [e4, rate_sum nsd axi a1 n pts a7 sig c u v x hT, ← map_sum_add, along_zero]
  congr 1
  refine map_sum_congr _ _ _ fun p _ => ?_
  rw [hoop_eq]
  ring

/-- C114: the element matrix of a mixed element is the derivative of its forces, except for axisymmetric elements with compressive hoop stresses: for small changes of the displacements in any direction
the element is evaluated, and the rate of the virtual work of its forces is minus the bilinear form of the element matrix. -/
theorem C114_tangent_partial (nsd : Nat) (axi : Bool) (n : Nat) (tol epsR : ℝ) (pts : List (MPt nPM)) (eP : DVec ℝ) (hE : MxOk nsd axi n epsR pts eP) (sig : MPt nPM → (Nat → Nat → ℝ) → Nat → ℝ)
    (c : MPt nPM → (Nat → Nat → ℝ) → DMat ℝ) (hmat : ∀ p ∈ pts, Truesdell 3 p.mat (sig p) (c p)) (u v : Nat → Nat → ℝ) (hJ : ∀ p ∈ pts, mxJ nsd axi n p u ≠ 0) (hT : ∀ p ∈ pts, mTh nsd axi n pts u p ≠ 0)
    (hs : tol = 0 ∨ ∀ p ∈ pts, ∃ i, 1 ≤ i ∧ i ≤ 6 ∧ tol < |mS nsd axi n pts sig u p i|) (hh : axi = true → ∀ p ∈ pts, 0 ≤ hoopStress nsd axi n pts sig u p) :
    ∃ (A : DMat ℝ) (f : ℝ → DVec ℝ), mxElement nsd axi tol epsR ⟨nsd * n, dofVec nsd u⟩ eP pts (DMat.zero (nsd * n) (nsd * n), DVec.zero (nsd * n)) = .ok (A, f 0) ∧
      (∀ᶠ t in 𝓝 (0 : ℝ), ∃ A', mxElement nsd axi tol epsR ⟨nsd * n, dofVec nsd (along u v t)⟩ eP pts (DMat.zero (nsd * n) (nsd * n), DVec.zero (nsd * n)) = .ok (A', f t)) ∧
      ∀ x, HasDerivAt (fun t => (f t).dot (dofVec nsd x)) (-A.bil (dofVec nsd x) (dofVec nsd v)) 0 := by
  obtain ⟨A, f, e1, e2, e3⟩ := C114_tangent_defect nsd axi n tol epsR pts eP hE sig c hmat u v hJ hT hs
  refine ⟨A, f, e1, e2, fun x => (e3 x).congr_deriv ?_⟩
  have : (pts.map fun p => mwt axi p * mTh nsd axi n pts u p *
        if axi = true ∧ hoopStress nsd axi n pts sig u p ≤ 0 then hoopStress nsd axi n pts sig u p * (mL nsd axi n p u x 3 3 * mL nsd axi n p u v 3 3) else 0).sum = 0 := by
    refine List.sum_eq_zero fun y hy => ?_
    obtain ⟨p, hp, rfl⟩ := List.mem_map.mp hy
    split_ifs with h
    · rw [le_antisymm h.2 (hh h.1 p hp)]; ring
    · ring
  rw [this, add_zero]

/-- Uniqueness of the gradient in the deformed configuration. -/
theorem grad_unique (F g h : Nat → Nat → ℝ) (hF : (lead 3 F).det ≠ 0) (e : ∀ i j, i < 3 → j < 3 → ∑ k ∈ Finset.range 3, g (i + 1) (k + 1) * F (k + 1) (j + 1) = ∑ k ∈ Finset.range 3, h (i + 1) (k + 1) * F (k + 1) (j + 1))
    (i j : Nat) (hi : i < 3) (hj : j < 3) : g (i + 1) (j + 1) = h (i + 1) (j + 1) := by
  have a := cofac g F (fun i j => ∑ k ∈ Finset.range 3, h i (k + 1) * F (k + 1) j) (fun i j hi hj => e i j hi hj) i hi ⟨j, hj⟩
  have b := cofac h F (fun i j => ∑ k ∈ Finset.range 3, h i (k + 1) * F (k + 1) j) (fun i j hi hj => rfl) i hi ⟨j, hj⟩
  exact mul_left_cancel₀ hF (a.trans b.symm)

/-- C114: the virtual work of the forces of a mixed element is that of the constitutive stresses at the modified deformation gradient, with their mean value replaced by the mixed pressure, in the volume given by the
projected volume ratio. -/
theorem C114_forces (nsd : Nat) (axi : Bool) (n : Nat) (tol epsR : ℝ) (pts : List (MPt nPM)) (eP : DVec ℝ) (hE : MxOk nsd axi n epsR pts eP) (sig : MPt nPM → (Nat → Nat → ℝ) → Nat → ℝ)
    (c : MPt nPM → (Nat → Nat → ℝ) → DMat ℝ) (hmat : ∀ p ∈ pts, ∀ F E, (lead 3 F).det ≠ 0 → p.mat F E = .ok (c p F, sig p F)) (u : Nat → Nat → ℝ) (hJ : ∀ p ∈ pts, mxJ nsd axi n p u ≠ 0) (hT : ∀ p ∈ pts, mTh nsd axi n pts u p ≠ 0)
    (hs : ∀ p ∈ pts, (∀ i, 1 ≤ i → i ≤ 6 → |mS nsd axi n pts sig u p i| ≤ tol) → ∀ i, 1 ≤ i → i ≤ 6 → mS nsd axi n pts sig u p i = 0) :
    ∃ (A : DMat ℝ) (f : DVec ℝ), mxElement nsd axi tol epsR ⟨nsd * n, dofVec nsd u⟩ eP pts (DMat.zero (nsd * n) (nsd * n), DVec.zero (nsd * n)) = .ok (A, f) ∧ f.n = nsd * n ∧
      ∀ (x : Nat → Nat → ℝ) (g : MPt nPM → Nat → Nat → ℝ),
        (∀ p ∈ pts, ∀ i j, i < 3 → j < 3 → ∑ k ∈ Finset.range 3, g p (i + 1) (k + 1) * mxF nsd axi n p u (k + 1) (j + 1) = mRef nsd axi n p x (i + 1) (j + 1)) →
        f.dot (dofVec nsd x) = -(pts.map fun p => mwt axi p * mTh nsd axi n pts u p * ∑ i ∈ Finset.range 3, ∑ j ∈ Finset.range 3,
          (symT 3 false (mS nsd axi n pts sig u p) (i + 1) (j + 1) + if i = j then mP nsd axi n pts sig u p - mQ nsd axi n pts sig u p else 0) * g p (i + 1) (j + 1)).sum := by
  obtain ⟨a1, a2, a3, a4, a5, a6, a7, a8⟩ := hE
  obtain ⟨g0, s1, s2⟩ := elem_contr nsd axi a1 n a2 a5 tol epsR a3 pts a4 a6 a7 eP a8 sig c hmat u hJ hT fun p hpm hz => hs p hpm ((zeroStrain_iff _ _ _).mp hz)
  obtain ⟨A, e1, -⟩ := s2 (DMat.zero (nsd * n) (nsd * n)) (DVec.zero (nsd * n)) rfl rfl rfl
  refine ⟨A, _, e1, (s1 (DVec.zero (nsd * n)) rfl).1, fun x g hg => ?_⟩
  rw [(s1 (DVec.zero (nsd * n)) rfl).2 x, zero_dot, zero_sub]
  congr 1
  refine map_sum_congr _ _ _ fun p hpm => ?_
  unfold mWork
  congr 1
  refine Finset.sum_congr rfl fun i hi => Finset.sum_congr rfl fun j hj => ?_
  rw [grad_unique (mxF nsd axi n p u) (g p) (mL nsd axi n p u x) (hJ p hpm) (fun i j hi hj => by rw [hg p hpm i j hi hj, chain nsd axi a1 n epsR p (a4 p hpm) u x (hJ p hpm) i j hi hj]) i j (Finset.mem_range.mp hi) (Finset.mem_range.mp hj)]
  unfold mSg mQ
  simp only [Nat.add_right_cancel_iff]

/-- A strain energy `W` per volume of the initial configuration, whose stresses are `sig`: `W' = J σ : L` in every motion. -/
def Energy (W : (Nat → Nat → ℝ) → ℝ) (sig : (Nat → Nat → ℝ) → Nat → ℝ) : Prop :=
  ∀ (P : ℝ → Nat → Nat → ℝ) (L : Nat → Nat → ℝ), (lead 3 (P 0)).det ≠ 0 →
    (∀ i j, i < 3 → j < 3 → HasDerivAt (fun t => P t (i + 1) (j + 1)) (∑ k ∈ Finset.range 3, L (i + 1) (k + 1) * P 0 (k + 1) (j + 1)) 0) →
    HasDerivAt (fun t => W (P t)) ((lead 3 (P 0)).det * ∑ i ∈ Finset.range 3, ∑ j ∈ Finset.range 3, symT 3 false (sig (P 0)) (i + 1) (j + 1) * L (i + 1) (j + 1)) 0

theorem mFb_vol (nsd : Nat) (axi : Bool) (n : Nat) (pts : List (MPt nPM)) (u : Nat → Nat → ℝ) (p : MPt nPM) (h : 0 < mTh nsd axi n pts u p / mxJ nsd axi n p u) : (lead 3 (mFb nsd axi n pts u p)).det = mTh nsd axi n pts u p := by
  have e : lead 3 (mFb nsd axi n pts u p) = (|mTh nsd axi n pts u p / mxJ nsd axi n p u| ^ ((1 : ℝ) / 3)) • lead 3 (mxF nsd axi n p u) := by ext i j; rfl
  rw [e, Matrix.det_smul, Fintype.card_fin, ← Real.rpow_natCast, ← Real.rpow_mul (abs_nonneg _)]
  norm_num
  rw [abs_div] at *
  have hJ : mxJ nsd axi n p u ≠ 0 := by rintro h'; rw [h'] at h; simp at h
  rw [← abs_div, abs_of_pos h]
  exact div_mul_cancel₀ _ hJ

/-- C114: the forces of a mixed element of a hyperelastic material have the strain energy of the modified deformation gradients as potential. -/
theorem C114_potential (nsd : Nat) (axi : Bool) (n : Nat) (tol epsR : ℝ) (pts : List (MPt nPM)) (eP : DVec ℝ) (hE : MxOk nsd axi n epsR pts eP) (sig : MPt nPM → (Nat → Nat → ℝ) → Nat → ℝ)
    (c : MPt nPM → (Nat → Nat → ℝ) → DMat ℝ) (hmat : ∀ p ∈ pts, ∀ F E, (lead 3 F).det ≠ 0 → p.mat F E = .ok (c p F, sig p F)) (W : MPt nPM → (Nat → Nat → ℝ) → ℝ) (hW : ∀ p ∈ pts, Energy (W p) (sig p)) (u : Nat → Nat → ℝ)
    (hJ : ∀ p ∈ pts, 0 < mxJ nsd axi n p u) (hT : ∀ p ∈ pts, 0 < mTh nsd axi n pts u p)
    (hs : ∀ p ∈ pts, (∀ i, 1 ≤ i → i ≤ 6 → |mS nsd axi n pts sig u p i| ≤ tol) → ∀ i, 1 ≤ i → i ≤ 6 → mS nsd axi n pts sig u p i = 0) :
    ∃ (A : DMat ℝ) (f : DVec ℝ), mxElement nsd axi tol epsR ⟨nsd * n, dofVec nsd u⟩ eP pts (DMat.zero (nsd * n) (nsd * n), DVec.zero (nsd * n)) = .ok (A, f) ∧
      ∀ x, HasDerivAt (fun t => (pts.map fun p => mwt axi p * W p (mFb nsd axi n pts (along u x t) p)).sum) (-f.dot (dofVec nsd x)) 0 := by
  obtain ⟨a1, a2, a3, a4, a5, a6, a7, a8⟩ := hE
  have hJ' : ∀ p ∈ pts, mxJ nsd axi n p u ≠ 0 := fun p hpm => (hJ p hpm).ne'
  have hT' : ∀ p ∈ pts, mTh nsd axi n pts u p ≠ 0 := fun p hpm => (hT p hpm).ne'
  obtain ⟨g0, s1, s2⟩ := elem_contr nsd axi a1 n a2 a5 tol epsR a3 pts a4 a6 a7 eP a8 sig c hmat u hJ' hT' fun p hpm hz => hs p hpm ((zeroStrain_iff _ _ _).mp hz)
  obtain ⟨A, e1, -⟩ := s2 (DMat.zero (nsd * n) (nsd * n)) (DVec.zero (nsd * n)) rfl rfl rfl
  refine ⟨A, _, e1, fun x => ?_⟩
  rw [(s1 (DVec.zero (nsd * n)) rfl).2 x, zero_dot, zero_sub, neg_neg]
  have hder := list_deriv pts (fun t p => mwt axi p * W p (mFb nsd axi n pts (along u x t) p)) (fun p => mwt axi p * (mTh nsd axi n pts u p * ∑ i ∈ Finset.range 3, ∑ j ∈ Finset.range 3,
      symT 3 false (mS nsd axi n pts sig u p) (i + 1) (j + 1) * barVel (mL nsd axi n p u x) (divg n nsd (mGb nsd axi n pts u p) x) (i + 1) (j + 1))) fun p hpm => by
    have h := (hW p hpm (fun t => mFb nsd axi n pts (along u x t) p) (barVel (mL nsd axi n p u x) (divg n nsd (mGb nsd axi n pts u p) x))
      (by rw [along_zero]; exact mFb_det nsd axi n pts u p (hJ' p hpm) (hT' p hpm)) (fb_deriv nsd axi a1 n epsR pts a4 a7 u x hJ' p hpm (hT' p hpm))).const_mul (mwt axi p)
    rw [along_zero, mFb_vol nsd axi n pts u p (div_pos (hT p hpm) (hJ p hpm))] at h
    exact h
  refine hder.congr_deriv ?_
  have adj := mprj_adjoint axi pts a7 (mQ nsd axi n pts sig u) fun q => mxJ nsd axi n q u * tr 3 (mL nsd axi n q u x)
  have e : ∀ p ∈ pts, mwt axi p * (mTh nsd axi n pts u p * ∑ i ∈ Finset.range 3, ∑ j ∈ Finset.range 3,
      symT 3 false (mS nsd axi n pts sig u p) (i + 1) (j + 1) * barVel (mL nsd axi n p u x) (divg n nsd (mGb nsd axi n pts u p) x) (i + 1) (j + 1))
      + mwt axi p * (mprj axi pts (mQ nsd axi n pts sig u) p * (mxJ nsd axi n p u * tr 3 (mL nsd axi n p u x)))
      = mWork nsd axi n pts sig u p x + mwt axi p * (mQ nsd axi n pts sig u p * mprj axi pts (fun q => mxJ nsd axi n q u * tr 3 (mL nsd axi n q u x)) p) := by
    intro p hpm
    rw [← th_div nsd axi a1 n pts a7 u p (hT' p hpm) x]
    have hTp := hT' p hpm
    unfold mWork mSg mP mPr mQ
    generalize mprj axi pts _ p = b
    generalize mxJ nsd axi n p u = J at *
    generalize mTh nsd axi n pts u p = T at *
    generalize mL nsd axi n p u x = X
    generalize divg n nsd (mGb nsd axi n pts u p) x = l
    generalize mS nsd axi n pts sig u p = s
    simp only [Finset.sum_range_succ, Finset.sum_range_zero, zero_add, tr, barVel]
    simp [symT]
    field_simp
    ring
  have hsum := map_sum_congr pts _ _ e
  rw [map_sum_add, map_sum_add, adj] at hsum
  exact add_right_cancel hsum

/-- C114: the element matrix is symmetric for materials with symmetric tangents. -/
theorem C114_symmetric (nsd : Nat) (axi : Bool) (n : Nat) (tol epsR : ℝ) (pts : List (MPt nPM)) (eP : DVec ℝ) (hE : MxOk nsd axi n epsR pts eP) (sig : MPt nPM → (Nat → Nat → ℝ) → Nat → ℝ)
    (c : MPt nPM → (Nat → Nat → ℝ) → DMat ℝ) (hmat : ∀ p ∈ pts, ∀ F E, (lead 3 F).det ≠ 0 → p.mat F E = .ok (c p F, sig p F))
    (hc : ∀ p ∈ pts, ∀ F k l, (c p F).e k l = (c p F).e l k) (u : Nat → Nat → ℝ) (hJ : ∀ p ∈ pts, mxJ nsd axi n p u ≠ 0) (hT : ∀ p ∈ pts, mTh nsd axi n pts u p ≠ 0)
    (hs : ∀ p ∈ pts, (∀ i, 1 ≤ i → i ≤ 6 → |mS nsd axi n pts sig u p i| ≤ tol) → ∀ i, 1 ≤ i → i ≤ 6 → mS nsd axi n pts sig u p i = 0) :
    ∃ (A : DMat ℝ) (f : DVec ℝ), mxElement nsd axi tol epsR ⟨nsd * n, dofVec nsd u⟩ eP pts (DMat.zero (nsd * n) (nsd * n), DVec.zero (nsd * n)) = .ok (A, f) ∧
      ∀ x y, A.bil (dofVec nsd x) (dofVec nsd y) = A.bil (dofVec nsd y) (dofVec nsd x) := by
  obtain ⟨a1, a2, a3, a4, a5, a6, a7, a8⟩ := hE
  obtain ⟨g0, s1, s2⟩ := elem_contr nsd axi a1 n a2 a5 tol epsR a3 pts a4 a6 a7 eP a8 sig c hmat u hJ hT fun p hpm hz => hs p hpm ((zeroStrain_iff _ _ _).mp hz)
  obtain ⟨A, e1, -, -, e4⟩ := s2 (DMat.zero (nsd * n) (nsd * n)) (DVec.zero (nsd * n)) rfl rfl rfl
  refine ⟨A, _, e1, fun x y => ?_⟩
  rw [e4, e4]
  congr 1
  · rw [zero_bil, zero_bil]
  refine map_sum_congr _ _ _ fun p hpm => ?_
  congr 2
  · unfold mStiff
    congr 1
    · rw [Finset.sum_comm]
      refine Finset.sum_congr rfl fun i hi => Finset.sum_congr rfl fun j hj => ?_
      congr 1
      · unfold mSg
        rw [symT_symm]
        simp only [eq_comm]
      · exact Finset.sum_congr rfl fun k _ => mul_comm _ _
    · obtain ⟨D, h1, h2⟩ := volTerms (c p (mFb nsd axi n pts u p)).e (mS nsd axi n pts sig u p) ((mS nsd axi n pts sig u p 1 + mS nsd axi n pts sig u p 2 + mS nsd axi n pts sig u p 3) / 3) (mP nsd axi n pts sig u p)
      have hD : D = mDm (c p (mFb nsd axi n pts u p)).e (mS nsd axi n pts sig u p) (mP nsd axi n pts sig u p) := by
        have h3 := mDm_ok (c p (mFb nsd axi n pts u p)).e (mS nsd axi n pts sig u p) (mP nsd axi n pts sig u p)
        rw [h1] at h3
        exact Res.ok.inj h3
      rw [← hD, h2, h2]
      have q1 : ∀ X Y : Nat → Nat → ℝ, ∑ k ∈ Finset.range 6, ∑ l ∈ Finset.range 6, eng3 X (k + 1) * (c p (mFb nsd axi n pts u p)).e (k + 1) (l + 1) * eng3 Y (l + 1)
          = ∑ k ∈ Finset.range 6, ∑ l ∈ Finset.range 6, eng3 Y (k + 1) * (c p (mFb nsd axi n pts u p)).e (k + 1) (l + 1) * eng3 X (l + 1) := by
        intro X Y
        rw [Finset.sum_comm]
        refine Finset.sum_congr rfl fun i hi => Finset.sum_congr rfl fun j hj => ?_
        rw [hc p hpm]; ring
      have q2 : ∀ X Y : Nat → Nat → ℝ, ∑ k ∈ Finset.range 6, ∑ l ∈ Finset.range 6, eng3 X (k + 1) * sym6 (k + 1) (l + 1) * eng3 Y (l + 1)
          = ∑ k ∈ Finset.range 6, ∑ l ∈ Finset.range 6, eng3 Y (k + 1) * sym6 (k + 1) (l + 1) * eng3 X (l + 1) := by
        intro X Y
        rw [Finset.sum_comm]
        refine Finset.sum_congr rfl fun i hi => Finset.sum_congr rfl fun j hj => ?_
        have : sym6 (j + 1) (i + 1) = (sym6 (i + 1) (j + 1) : ℝ) := by
          unfold sym6
          by_cases e : i = j
          · rw [e]
          · rw [if_neg (by omega), if_neg (by omega)]
        rw [this]; ring
      rw [q1, q2]
      ring
  · unfold mHoop
    split_ifs
    · ring
    · rfl

/-! ### A material and an element -/

/-- Cauchy stresses of a compressible neo-Hookean material: `σ = (μ (F Fᵀ - 1) / J) + λ (J - 1)`. -/
noncomputable def neo3 (mu la : ℝ) (F : Nat → Nat → ℝ) (k : Nat) : ℝ :=
  let b := fun i j => mu * (F i 1 * F j 1 + F i 2 * F j 2 + F i 3 * F j 3) / (lead 3 F).det
  let h := la * ((lead 3 F).det - 1) - mu / (lead 3 F).det
  if k = 1 then b 1 1 + h else if k = 2 then b 2 2 + h else if k = 3 then b 3 3 + h else if k = 4 then b 1 2 else if k = 5 then b 2 3 else b 1 3

/-- Its tangent. -/
noncomputable def neoC (mu la : ℝ) (F : Nat → Nat → ℝ) : DMat ℝ :=
  ⟨6, 6, fun i j => la * (2 * (lead 3 F).det - 1) * (one6 i * one6 j) - 2 * (la * ((lead 3 F).det - 1) - mu / (lead 3 F).det) * sym6 i j⟩

/-- Its strain energy. -/
noncomputable def neoW (mu la : ℝ) (F : Nat → Nat → ℝ) : ℝ :=
  mu / 2 * (∑ i ∈ Finset.range 3, ∑ j ∈ Finset.range 3, F (i + 1) (j + 1) * F (i + 1) (j + 1) - 3) - mu * Real.log (lead 3 F).det + la / 2 * (((lead 3 F).det - 1) * ((lead 3 F).det - 1))

theorem neo3_symT (mu la : ℝ) (F : Nat → Nat → ℝ) (i j : Nat) (hi : i < 3) (hj : j < 3) :
    symT 3 false (neo3 mu la F) (i + 1) (j + 1) = mu * (F (i + 1) 1 * F (j + 1) 1 + F (i + 1) 2 * F (j + 1) 2 + F (i + 1) 3 * F (j + 1) 3) / (lead 3 F).det
      + if i = j then la * ((lead 3 F).det - 1) - mu / (lead 3 F).det else 0 := by
  interval_cases i <;> interval_cases j <;> simp [symT, neo3] <;> ring

theorem neo3_ok (mu la : ℝ) : Truesdell 3 (fun F _ => .ok (neoC mu la F, neo3 mu la F)) (neo3 mu la) (neoC mu la) := by
  refine ⟨fun _ _ _ => rfl, fun P L hP h i j hi hj => ?_⟩
  have hdet := det_deriv 3 (.inr rfl) P L h
  have g : ∀ a b (ha : a < 3) (hb : b < 3), HasDerivAt (fun t => P t (a + 1) (b + 1)) (L (a + 1) 1 * P 0 1 (b + 1) + L (a + 1) 2 * P 0 2 (b + 1) + L (a + 1) 3 * P 0 3 (b + 1)) 0 := by
    intro a b ha hb
    have := h a b ha hb
    simpa only [Finset.sum_range_succ, Finset.sum_range_zero, zero_add] using this
  have hb := ((((g i 0 hi (by omega)).mul (g j 0 hj (by omega))).add ((g i 1 hi (by omega)).mul (g j 1 hj (by omega)))).add ((g i 2 hi (by omega)).mul (g j 2 hj (by omega)))).const_mul mu |>.div hdet hP
  have hh := ((hdet.sub_const 1).const_mul la).sub ((hasDerivAt_const (0 : ℝ) mu).div hdet hP)
  simp only [neo3_symT mu la _ i j hi hj]
  have hC : ∑ k ∈ Finset.range 3, ∑ l ∈ Finset.range 3, (neoC mu la (P 0)).e (posD 3 (i + 1) (j + 1)) (posD 3 (k + 1) (l + 1)) * L (k + 1) (l + 1)
      = (if i = j then la * (2 * (lead 3 (P 0)).det - 1) * tr 3 L else 0) - (la * ((lead 3 (P 0)).det - 1) - mu / (lead 3 (P 0)).det) * (L (i + 1) (j + 1) + L (j + 1) (i + 1)) := by
    clear hb hh
    interval_cases i <;> interval_cases j <;> simp [neoC, posD, pos3, one6, sym6, tr, Finset.sum_range_succ] <;> ring
  have hS : ∀ a b, a < 3 → b < 3 → symT 3 false (neo3 mu la (P 0)) (a + 1) (b + 1) = _ := fun a b ha hb => neo3_symT mu la (P 0) a b ha hb
  have hR : stressRate (posD 3) 3 (neoC mu la (P 0)).e (symT 3 false (neo3 mu la (P 0))) L (i + 1) (j + 1)
      = ((if i = j then la * (2 * (lead 3 (P 0)).det - 1) * tr 3 L else 0) - (la * ((lead 3 (P 0)).det - 1) - mu / (lead 3 (P 0)).det) * (L (i + 1) (j + 1) + L (j + 1) (i + 1)))
        + (L (i + 1) 1 * symT 3 false (neo3 mu la (P 0)) (0 + 1) (j + 1) + L (i + 1) 2 * symT 3 false (neo3 mu la (P 0)) (1 + 1) (j + 1) + L (i + 1) 3 * symT 3 false (neo3 mu la (P 0)) (2 + 1) (j + 1))
        + (symT 3 false (neo3 mu la (P 0)) (i + 1) (0 + 1) * L (j + 1) 1 + symT 3 false (neo3 mu la (P 0)) (i + 1) (1 + 1) * L (j + 1) 2 + symT 3 false (neo3 mu la (P 0)) (i + 1) (2 + 1) * L (j + 1) 3)
        - symT 3 false (neo3 mu la (P 0)) (i + 1) (j + 1) * tr 3 L := by
    unfold stressRate
    rw [hC]
    simp only [Finset.sum_range_succ, Finset.sum_range_zero, zero_add]
  rw [hR, hS 0 j (by omega) hj, hS 1 j (by omega) hj, hS 2 j (by omega) hj, hS i 0 hi (by omega), hS i 1 hi (by omega), hS i 2 hi (by omega), hS i j hi hj]
  simp only [zero_add, Nat.reduceAdd] at hb ⊢
  by_cases e : i = j
  · subst e
    simp only [if_true]
    refine (hb.add hh).congr_deriv ?_
    simp only [Pi.add_apply, Pi.mul_apply]
    generalize (lead 3 (P 0)).det = J at *
    generalize tr 3 L = T
    interval_cases i <;> simp <;> field_simp <;> ring
  · simp only [if_neg e, add_zero]
    refine hb.congr_deriv ?_
    simp only [Pi.add_apply, Pi.mul_apply]
    generalize (lead 3 (P 0)).det = J at *
    generalize tr 3 L = T
    interval_cases i <;> interval_cases j <;> first | (exact absurd rfl e) | (simp; field_simp; ring)

theorem neoW_ok (mu la : ℝ) : Energy (neoW mu la) (neo3 mu la) := by
  intro P L hP h
  have hdet := det_deriv 3 (.inr rfl) P L h
  have hsum : HasDerivAt (fun t => ∑ i ∈ Finset.range 3, ∑ j ∈ Finset.range 3, P t (i + 1) (j + 1) * P t (i + 1) (j + 1))
      (∑ i ∈ Finset.range 3, ∑ j ∈ Finset.range 3, ((∑ k ∈ Finset.range 3, L (i + 1) (k + 1) * P 0 (k + 1) (j + 1)) * P 0 (i + 1) (j + 1) + P 0 (i + 1) (j + 1) * ∑ k ∈ Finset.range 3, L (i + 1) (k + 1) * P 0 (k + 1) (j + 1))) 0 :=
    HasDerivAt.fun_sum fun i hi => HasDerivAt.fun_sum fun j hj => (h i j (Finset.mem_range.mp hi) (Finset.mem_range.mp hj)).mul (h i j (Finset.mem_range.mp hi) (Finset.mem_range.mp hj))
  have hw := (((hsum.sub_const 3).const_mul (mu / 2)).sub ((hdet.log hP).const_mul mu)).add (((hdet.sub_const 1).mul (hdet.sub_const 1)).const_mul (la / 2))
  refine hw.congr_deriv ?_
  have e : ∀ i ∈ Finset.range 3, ∀ j ∈ Finset.range 3, symT 3 false (neo3 mu la (P 0)) (i + 1) (j + 1) * L (i + 1) (j + 1) = _ :=
    fun i hi j hj => by rw [neo3_symT mu la (P 0) i j (Finset.mem_range.mp hi) (Finset.mem_range.mp hj)]
  rw [Finset.sum_congr rfl fun i hi => Finset.sum_congr rfl fun j hj => e i hi j hj]
  clear e hw hdet
  generalize (lead 3 (P 0)).det = J at *
  simp only [Finset.sum_range_succ, Finset.sum_range_zero, zero_add, tr, Nat.reduceAdd]
  simp
  field_simp
  ring

/-- An integration point of an element with the three linear functions of the triangle (0,0), (1,0), (0,1), or of the ring with the radii 2/3, 5/3, 2/3 in the nodes. -/
noncomputable def ring3 (mu la : ℝ) : MPt 1 := ⟨triangle, fun _ => 1, fun F _ => .ok (neoC mu la F, neo3 mu la F)⟩

theorem one_mode (axi : Bool) (p : MPt 1) (h1 : p.phi 0 = 1) (hw : mwt axi p ≠ 0) (f : MPt 1 → ℝ) : (modeMat axi [p]).det = mwt axi p ∧ mprj axi [p] f p = f p := by
  have e : modeMat axi [p] 0 0 = mwt axi p := by simp [modeMat, h1]
  have hdet : (modeMat axi [p]).det = mwt axi p := by rw [Matrix.det_fin_one, e]
  refine ⟨hdet, ?_⟩
  unfold mprj
  rw [Matrix.inv_def, hdet, Matrix.adjugate_subsingleton]
  simp [h1]
  field_simp

theorem one_point (nsd : Nat) (axi : Bool) (n : Nat) (p : MPt 1) (h1 : p.phi 0 = 1) (hw : mwt axi p ≠ 0) (sig : MPt 1 → (Nat → Nat → ℝ) → Nat → ℝ) (u : Nat → Nat → ℝ) (hJ : mxJ nsd axi n p u ≠ 0) :
    mTh nsd axi n [p] u p = mxJ nsd axi n p u ∧ mS nsd axi n [p] sig u p = sig p (mxF nsd axi n p u) ∧ hoopStress nsd axi n [p] sig u p = sig p (mxF nsd axi n p u) 3 := by
  have a1 : mTh nsd axi n [p] u p = mxJ nsd axi n p u := (one_mode axi p h1 hw _).2
  have a2 : mFb nsd axi n [p] u p = mxF nsd axi n p u := by
    funext i j
    unfold mFb
    rw [a1, div_self hJ]
    simp
  have a3 : mP nsd axi n [p] sig u p = mQ nsd axi n [p] sig u p := by
    unfold mP mPr
    rw [(one_mode axi p h1 hw _).2, a1, mul_div_assoc, div_self hJ, mul_one]
  have a4 : mS nsd axi n [p] sig u p = sig p (mxF nsd axi n p u) := by unfold mS; rw [a2]
  refine ⟨a1, a4, ?_⟩
  unfold hoopStress
  rw [a3, a4]
  ring

theorem ring3_wt (mu la : ℝ) (axi : Bool) : mwt axi (ring3 mu la) = if axi then Real.pi else 1 / 2 := by
  cases axi <;> simp [mwt, ring3, triangle]
  ring

theorem ring3_ok (mu la epsR : ℝ) (he : 0 ≤ epsR) (he' : epsR < 1) (axi : Bool) : MxOk 2 axi 3 epsR [ring3 mu la] (DVec.zero 0) := by
  refine ⟨Or.inl rfl, by omega, fun _ => ⟨he, he'⟩, fun p hp => ?_, le_refl _, fun p hp => ?_, ?_, Or.inl rfl⟩
  · obtain rfl := List.mem_singleton.mp hp
    exact ⟨rfl, rfl, fun _ => ⟨rfl, he', one_pos⟩⟩
  · obtain rfl := List.mem_singleton.mp hp
    rfl
  · rw [(one_mode axi (ring3 mu la) rfl (by rw [ring3_wt]; split_ifs <;> positivity) fun _ => 0).1, ring3_wt]
    split_ifs <;> positivity

/-- A stretched ring, for which the matrix is the derivative of the forces. -/
example : MxOk 2 true 3 0 [ring3 1 1] (DVec.zero 0) ∧ Truesdell 3 (ring3 1 1).mat (neo3 1 1) (neoC 1 1) ∧ Energy (neoW 1 1) (neo3 1 1) ∧
    mxJ 2 true 3 (ring3 1 1) (fun a i => if a = 2 ∧ i = 1 then 1 else 0) = 8 / 3 ∧ mTh 2 true 3 [ring3 1 1] (fun a i => if a = 2 ∧ i = 1 then 1 else 0) (ring3 1 1) = 8 / 3 ∧
    1 / 10 < |mS 2 true 3 [ring3 1 1] (fun _ => neo3 1 1) (fun a i => if a = 2 ∧ i = 1 then 1 else 0) (ring3 1 1) 1| ∧
    0 ≤ hoopStress 2 true 3 [ring3 1 1] (fun _ => neo3 1 1) (fun a i => if a = 2 ∧ i = 1 then 1 else 0) (ring3 1 1) := by
  have hJ : mxJ 2 true 3 (ring3 1 1) (fun a i => if a = 2 ∧ i = 1 then 1 else 0) = 8 / 3 := by
    simp [mxJ, Matrix.det_fin_three, lead, mxF, mRef, tens, grad, val, ring3, triangle, Finset.sum_range_succ]
    norm_num
  obtain ⟨a, b, e⟩ := one_point 2 true 3 (ring3 1 1) rfl (by rw [ring3_wt]; simp [Real.pi_ne_zero]) (fun _ => neo3 1 1) (fun a i => if a = 2 ∧ i = 1 then 1 else 0) (by rw [hJ]; norm_num)
  have hJ' : (lead 3 (mxF 2 true 3 (ring3 1 1) (fun a i => if a = 2 ∧ i = 1 then 1 else 0))).det = 8 / 3 := hJ
  refine ⟨ring3_ok 1 1 0 (le_refl _) one_pos true, neo3_ok 1 1, neoW_ok 1 1, hJ, by rw [a, hJ], ?_, ?_⟩
  · rw [b]
    unfold neo3
    simp only [hJ']
    simp [ mxF, mRef, tens, grad, val, ring3, triangle, Finset.sum_range_succ]
    norm_num [abs_of_pos]
  · rw [e]
    unfold neo3
    simp only [hJ']
    simp [ mxF, mRef, tens, grad, val, ring3, triangle, Finset.sum_range_succ]
    norm_num

/-- C114: the matrix of a radially compressed ring is not the derivative of its forces: the geometric stiffness of the (compressive) hoop stress is left out. The nodes of the ring are moved inwards by
1/2, which gives the hoop stress -3/2; only the diagonal element for uniform radial displacements is looked at. -/
theorem C114_hoop_violated (tol epsR : ℝ) (ht : tol < 3 / 2) (he : 0 ≤ epsR) (he' : epsR < 1) :
    ∃ (A : DMat ℝ) (f : ℝ → DVec ℝ), mxElement 2 true tol epsR ⟨2 * 3, dofVec 2 fun _ i => if i = 1 then -1 / 2 else 0⟩ (DVec.zero 0) [ring3 1 0] (DMat.zero (2 * 3) (2 * 3), DVec.zero (2 * 3)) = .ok (A, f 0) ∧
      (∀ᶠ t in 𝓝 (0 : ℝ), ∃ A', mxElement 2 true tol epsR ⟨2 * 3, dofVec 2 fun _ i => if i = 1 then -1 / 2 + t else 0⟩ (DVec.zero 0) [ring3 1 0] (DMat.zero (2 * 3) (2 * 3), DVec.zero (2 * 3)) = .ok (A', f t)) ∧
      HasDerivAt (fun t => (f t).dot (dofVec 2 fun _ i => if i = 1 then 1 else 0)) (-(A.bil (dofVec 2 fun _ i => if i = 1 then 1 else 0) (dofVec 2 fun _ i => if i = 1 then 1 else 0)) + 3 * Real.pi) 0 := by
  have hF : ∀ i j, mxF 2 true 3 (ring3 1 0) (fun _ i => if i = 1 then -1 / 2 else 0) i j = (if i = j then 1 else 0) + if i = 3 ∧ j = 3 then -1 / 2 else 0 := by
    intro i j
    unfold mxF mRef tens
    by_cases h : (1 ≤ i ∧ i ≤ 2) ∧ 1 ≤ j ∧ j ≤ 2
    · rw [if_pos h, if_neg (show ¬ (i = 3 ∧ j = 3) by omega)]
      obtain ⟨⟨a, b⟩, c, d⟩ := h
      interval_cases i <;> interval_cases j <;> simp [grad, ring3, triangle, Finset.sum_range_succ]
    · rw [if_neg h]
      simp only [true_and]
      split_ifs <;> simp [val, ring3, triangle, Finset.sum_range_succ]
      all_goals norm_num
  have hJ : mxJ 2 true 3 (ring3 1 0) (fun _ i => if i = 1 then -1 / 2 else 0) = 1 / 2 := by
    simp [mxJ, Matrix.det_fin_three, lead, hF]
    norm_num
  have hJ' : (lead 3 (mxF 2 true 3 (ring3 1 0) (fun _ i => if i = 1 then -1 / 2 else 0))).det = 1 / 2 := hJ
  obtain ⟨a, b, e⟩ := one_point 2 true 3 (ring3 1 0) rfl (by rw [ring3_wt]; simp [Real.pi_ne_zero]) (fun _ => neo3 1 0) (fun _ i => if i = 1 then -1 / 2 else 0) (by rw [hJ]; norm_num)
  have h3 : neo3 1 0 (mxF 2 true 3 (ring3 1 0) (fun _ i => if i = 1 then -1 / 2 else 0)) 3 = -3 / 2 := by
    simp [neo3, hJ', hF]
    norm_num
  obtain ⟨A, f, e1, e2, e3⟩ := C114_tangent_defect 2 true 3 tol epsR [ring3 1 0] (DVec.zero 0) (ring3_ok 1 0 epsR he he' true) (fun _ => neo3 1 0) (fun _ => neoC 1 0) (fun p hp => by
      obtain rfl := List.mem_singleton.mp hp
      exact neo3_ok 1 0) (fun _ i => if i = 1 then -1 / 2 else 0) (fun _ i => if i = 1 then 1 else 0) (fun p hp => by
      obtain rfl := List.mem_singleton.mp hp
      rw [hJ]; norm_num) (fun p hp => by
      obtain rfl := List.mem_singleton.mp hp
      rw [a, hJ]; norm_num) (Or.inr fun p hp => by
      obtain rfl := List.mem_singleton.mp hp
      refine ⟨3, by omega, by omega, ?_⟩
      rw [b, h3]
      norm_num [abs_of_neg]
      exact ht)
  refine ⟨A, f, e1, ?_, (e3 _).congr_deriv ?_⟩
  · filter_upwards [e2] with t ht
    obtain ⟨A', h⟩ := ht
    refine ⟨A', ?_⟩
    rw [← h]
    congr 3
    funext a i
    simp [along]
    split_ifs <;> ring
  · have hL : mL 2 true 3 (ring3 1 0) (fun _ i => if i = 1 then -1 / 2 else 0) (fun _ i => if i = 1 then 1 else 0) 3 3 = 2 := by
      simp [mL, tens, mNr, scaleN, val, ring3, triangle, Finset.sum_range_succ]
      norm_num
    simp only [List.map_cons, List.map_nil, List.sum_cons, List.sum_nil, e, h3, hL, a, hJ, ring3_wt, true_and, if_true]
    rw [if_pos (by norm_num)]
    ring

end Verif.Finite
