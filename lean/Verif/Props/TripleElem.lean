/-
C115: the coupled matrix and forces of the three-field mixed element (displacements, volume change, pressure).

Quantities (Proofs/MixedElem.lean, Proofs/TripleElem.lean): `mxF` the deformation gradient at an integration point, `mxJ` its determinant, `mwt` the volume of an integration point in the initial configuration, `mRef` the
gradient of nodal values in the initial configuration, `tval` the value of a field of the second basis, `tFb` the deformation gradient scaled such that its determinant becomes the volume change, `coupled` the vector of the
coupled unknowns. The volume change is `1` plus its field. `tq p` is the integration point without the second basis.
-/
import Verif.Proofs.TripleElem
import Verif.Props.MixedElem

set_option linter.unusedSectionVars false
set_option linter.unusedSimpArgs false
set_option linter.unusedVariables false

namespace Verif.Finite

open Verif.Cont Verif.ContSpec Verif.FiniteSpec Verif.Fbar Verif.Mixed Filter Topology

/-! ### The property -/

/-- An element: plane, three-dimensional or axisymmetric (then away from the axis of rotation), with `n` and `m` basis functions. -/
structure TrOk (nsd : Nat) (axi : Bool) (n m : Nat) (epsR : ℝ) (pts : List TPt) : Prop where
  dim : nsd = 2 ∨ nsd = 3 ∧ axi = false
  nodes : 0 < n
  points : ∀ p ∈ pts, p.pt.dN.nr = n ∧ p.pt.dN.nc = nsd ∧ p.pt.N.n = n ∧ p.N2.n = m ∧ (axi = true → epsR < p.pt.X ∧ 0 < p.pt.X)

/-- A state of the element: the displacements `u` strain the integration point, its volume and the volume change `1 + th` do not vanish, and in the axisymmetric case it stays away from the axis of rotation. -/
def Strained (nsd : Nat) (axi : Bool) (n m : Nat) (tol epsR : ℝ) (p : TPt) (u : Nat → Nat → ℝ) (th : Nat → ℝ) : Prop :=
  (axi = true → 0 ≤ epsR ∧ epsR < p.pt.X + ∑ a ∈ Finset.range n, u (a + 1) 1 * p.pt.N.e (a + 1)) ∧ mxJ nsd axi n (tq p) u ≠ 0 ∧ 1 + ∑ b ∈ Finset.range m, p.N2.e (b + 1) * th (b + 1) ≠ 0 ∧
    ∃ i, 1 ≤ i ∧ i ≤ nsd * (nsd + 1) / 2 ∧ tol < |greenV nsd (grad n u p.pt.dN.e) i|

theorem strained_state (nsd : Nat) (axi : Bool) (n m : Nat) (tol epsR : ℝ) (p : TPt) (u : Nat → Nat → ℝ) (th : Nat → ℝ) (h : Strained nsd axi n m tol epsR p u th) : TState nsd axi n m tol epsR p u th := by
  obtain ⟨h1, h2, h3, i, h4, h5, h6⟩ := h
  refine ⟨h1, h2, ?_, fun hz => ?_⟩
  · rw [add_comm]; exact h3
  · exact absurd ((zeroStrain_iff _ _ _).mp hz i h4 h5) (not_le.mpr h6)

theorem TrOk.pt {nsd : Nat} {axi : Bool} {n m : Nat} {epsR : ℝ} {pts : List TPt} (h : TrOk nsd axi n m epsR pts) : ∀ p ∈ pts, MPtOk nsd axi n epsR (tq p) := fun p hp => by
  obtain ⟨a, b, c, d, e⟩ := h.points p hp
  exact ⟨a, b, fun ha => ⟨c, e ha⟩⟩

theorem TrOk.len {nsd : Nat} {axi : Bool} {n m : Nat} {epsR : ℝ} {pts : List TPt} (h : TrOk nsd axi n m epsR pts) : ∀ p ∈ pts, p.pt.N.n = n ∧ p.N2.n = m := fun p hp => by
  obtain ⟨a, b, c, d, e⟩ := h.points p hp
  exact ⟨c, d⟩

/-- The hoop stress of the mixed formulation: constitutive stresses `s`, whose mean value is replaced by the pressure `P J / T`. -/
noncomputable def trHoop (s : Nat → ℝ) (T P J : ℝ) : ℝ := s 3 + P * J / T - (s 1 + s 2 + s 3) / 3

theorem mHoop_eq (axi : Bool) (s : Nat → ℝ) (T P J : ℝ) (X Y : Nat → Nat → ℝ) : mHoop axi s (P * J / T) X Y = if axi = true ∧ trHoop s T P J ≤ 0 then trHoop s T P J * (X 3 3 * Y 3 3) else 0 := by
  have e : mSg s (P * J / T) 3 3 = trHoop s T P J := by
    simp only [mSg, if_true, trHoop]
    simp [symT]
    ring
  unfold mHoop
  rw [e]
  simp only [not_lt]

/-- C115: the derivative of the coupled forces of a three-field element is the coupled element matrix, up to the part of the geometric stiffness which belongs to compressive hoop stresses of an axisymmetric element. -/
theorem C115_tangent_defect (nsd : Nat) (axi : Bool) (n m : Nat) (tol epsR : ℝ) (pts : List TPt) (hE : TrOk nsd axi n m epsR pts) (sig : TPt → (Nat → Nat → ℝ) → Nat → ℝ) (c : TPt → (Nat → Nat → ℝ) → DMat ℝ)
    (hmat : ∀ p ∈ pts, Truesdell 3 p.mat (sig p) (c p)) (hC : ∀ p ∈ pts, ∀ F i j, 1 ≤ i → i ≤ 6 → 1 ≤ j → j ≤ 6 → (c p F).e i j = (c p F).e j i) (u v : Nat → Nat → ℝ) (th pr t' p' : Nat → ℝ)
    (hS : ∀ p ∈ pts, Strained nsd axi n m tol epsR p u th) :
    ∃ (A : DMat ℝ) (f : ℝ → DVec ℝ), tElement nsd axi tol epsR n m ⟨nsd * n, dofVec nsd u⟩ ⟨m, th⟩ ⟨m, pr⟩ pts = .ok (A, f 0) ∧ A.nr = nsd * n + 2 * m ∧ A.nc = nsd * n + 2 * m ∧ (f 0).n = nsd * n + 2 * m ∧
      (∀ᶠ t in 𝓝 (0 : ℝ), ∃ A', tElement nsd axi tol epsR n m ⟨nsd * n, dofVec nsd fun a i => u a i + t * v a i⟩ ⟨m, fun b => th b + t * t' b⟩ ⟨m, fun b => pr b + t * p' b⟩ pts = .ok (A', f t)) ∧
      ∀ x y z, HasDerivAt (fun t => (f t).dot (coupled (nsd * n) (dofVec nsd x) y z)) (-(A.bil (coupled (nsd * n) (dofVec nsd x) y z) (coupled (nsd * n) (dofVec nsd v) t' p')
        + (pts.map fun p => mwt axi (tq p) * (tval m p th + 1) * if axi = true ∧ trHoop (sig p (tFb nsd axi n p u (tval m p th + 1))) (tval m p th + 1) (tval m p pr) (mxJ nsd axi n (tq p) u) ≤ 0
            then trHoop (sig p (tFb nsd axi n p u (tval m p th + 1))) (tval m p th + 1) (tval m p pr) (mxJ nsd axi n (tq p) u) * (mL nsd axi n (tq p) u x 3 3 * mL nsd axi n (tq p) u v 3 3) else 0).sum)) 0 := by
  have hS' : ∀ p ∈ pts, TState nsd axi n m tol epsR p u th := fun p hp => strained_state _ _ _ _ _ _ _ _ _ (hS p hp)
  have near := tnear nsd axi hE.dim n m tol epsR pts hE.pt u v th t' hS'
  have ev : ∀ p ∈ pts, ∀ F E, (lead 3 F).det ≠ 0 → p.mat F E = .ok (c p F, sig p F) := fun p hp => (hmat p hp).eval
  let f : ℝ → DVec ℝ := fun t => match tElement nsd axi tol epsR n m ⟨nsd * n, dofVec nsd (along u v t)⟩ ⟨m, lineV th t' t⟩ ⟨m, lineV pr p' t⟩ pts with
    | .ok (_, R) => R
    | _ => DVec.zero 0
  have hf : ∀ t, (∀ p ∈ pts, TState nsd axi n m tol epsR p (along u v t) (lineV th t' t)) →
      ∃ A, tElement nsd axi tol epsR n m ⟨nsd * n, dofVec nsd (along u v t)⟩ ⟨m, lineV th t' t⟩ ⟨m, lineV pr p' t⟩ pts = .ok (A, f t) ∧ A.nr = nsd * n + 2 * m ∧ A.nc = nsd * n + 2 * m ∧ (f t).n = nsd * n + 2 * m ∧
      (∀ x y z, (f t).dot (coupled (nsd * n) (dofVec nsd x) y z) = -(pts.map fun p => tWork nsd axi n m p (sig p (tFb nsd axi n p (along u v t) (tval m p th + 1 + t * tval m p t'))) (tval m p th + 1 + t * tval m p t') (tval m p pr + t * tval m p p') (along u v t) x y z).sum) ∧
      ∀ x y z v' t'' q, A.bil (coupled (nsd * n) (dofVec nsd x) y z) (coupled (nsd * n) (dofVec nsd v') t'' q)
        = (pts.map fun p => tStiff nsd axi n m p (c p (tFb nsd axi n p (along u v t) (tval m p th + 1 + t * tval m p t'))).e (sig p (tFb nsd axi n p (along u v t) (tval m p th + 1 + t * tval m p t'))) (tval m p th + 1 + t * tval m p t') (tval m p pr + t * tval m p p') (along u v t) x y z v' t'' q).sum := by
    intro t ht
    obtain ⟨A, R, e1, e2, e3, e4, e5, e6⟩ := tElement_ok nsd axi hE.dim n m hE.nodes tol epsR pts hE.pt hE.len sig c ev (along u v t) (lineV th t' t) (lineV pr p' t) ht
    have hR : f t = R := by
      show (match tElement nsd axi tol epsR n m ⟨nsd * n, dofVec nsd (along u v t)⟩ ⟨m, lineV th t' t⟩ ⟨m, lineV pr p' t⟩ pts with
        | .ok (_, R) => R
        | _ => DVec.zero 0) = R
      rw [e1]
    have hl : ∀ p, tval m p (lineV th t' t) + 1 = tval m p th + 1 + t * tval m p t' := fun p => by rw [tval_line]; ring
    simp only [hl, tval_line m _ pr p' t] at e5 e6
    rw [hR]
    exact ⟨A, e1, e2, e3, e4, e5, e6⟩
  obtain ⟨A, e1, e2, e3, e4, -, e6⟩ := hf 0 (by rw [along_zero, lineV_zero]; exact hS')
  rw [along_zero, lineV_zero, lineV_zero] at e1
  refine ⟨A, f, e1, e2, e3, e4, ?_, fun x y z => ?_⟩
  · filter_upwards [near] with t ht
    obtain ⟨A', h, -⟩ := hf t ht
    exact ⟨A', h⟩
  · have hder := list_deriv pts (fun t p => tWork nsd axi n m p (sig p (tFb nsd axi n p (along u v t) (tval m p th + 1 + t * tval m p t'))) (tval m p th + 1 + t * tval m p t') (tval m p pr + t * tval m p p') (along u v t) x y z) _
      fun p hp => tpoint_deriv nsd axi hE.dim n m epsR p (hE.pt p hp) (sig p) (c p) (hmat p hp) u v x y z t' p' (hS' p hp).vol _ (tval m p pr) (hS' p hp).change (hC p hp _)
    refine (hder.neg.congr_of_eventuallyEq ?_).congr_deriv ?_
    · filter_upwards [near] with t ht
      obtain ⟨A', -, -, -, -, h, -⟩ := hf t ht
      exact h x y z
    · rw [e6]
      simp only [along_zero, zero_mul, add_zero]
      rw [← map_sum_add]
      congr 1
      refine map_sum_congr _ _ _ fun p _ => ?_
      rw [mHoop_eq]

/-- C115: the coupled matrix of a three-field element is the derivative of its coupled forces with respect to displacements, volume change and pressure, except for axisymmetric elements with compressive hoop stresses:
for small changes of the unknowns in any direction the element is evaluated, and the rate of the virtual work of its forces is minus the bilinear form of the element matrix. -/
theorem C115_tangent_partial (nsd : Nat) (axi : Bool) (n m : Nat) (tol epsR : ℝ) (pts : List TPt) (hE : TrOk nsd axi n m epsR pts) (sig : TPt → (Nat → Nat → ℝ) → Nat → ℝ) (c : TPt → (Nat → Nat → ℝ) → DMat ℝ)
    (hmat : ∀ p ∈ pts, Truesdell 3 p.mat (sig p) (c p)) (hC : ∀ p ∈ pts, ∀ F i j, 1 ≤ i → i ≤ 6 → 1 ≤ j → j ≤ 6 → (c p F).e i j = (c p F).e j i) (u v : Nat → Nat → ℝ) (th pr t' p' : Nat → ℝ)
    (hS : ∀ p ∈ pts, Strained nsd axi n m tol epsR p u th)
    (hh : axi = true → ∀ p ∈ pts, 0 ≤ trHoop (sig p (tFb nsd axi n p u (tval m p th + 1))) (tval m p th + 1) (tval m p pr) (mxJ nsd axi n (tq p) u)) :
    ∃ (A : DMat ℝ) (f : ℝ → DVec ℝ), tElement nsd axi tol epsR n m ⟨nsd * n, dofVec nsd u⟩ ⟨m, th⟩ ⟨m, pr⟩ pts = .ok (A, f 0) ∧
      (∀ᶠ t in 𝓝 (0 : ℝ), ∃ A', tElement nsd axi tol epsR n m ⟨nsd * n, dofVec nsd fun a i => u a i + t * v a i⟩ ⟨m, fun b => th b + t * t' b⟩ ⟨m, fun b => pr b + t * p' b⟩ pts = .ok (A', f t)) ∧
      ∀ x y z, HasDerivAt (fun t => (f t).dot (coupled (nsd * n) (dofVec nsd x) y z)) (-A.bil (coupled (nsd * n) (dofVec nsd x) y z) (coupled (nsd * n) (dofVec nsd v) t' p')) 0 := by
  obtain ⟨A, f, e1, -, -, -, e2, e3⟩ := C115_tangent_defect nsd axi n m tol epsR pts hE sig c hmat hC u v th pr t' p' hS
  refine ⟨A, f, e1, e2, fun x y z => (e3 x y z).congr_deriv ?_⟩
  rw [List.sum_eq_zero, add_zero]
  intro y' hy
  obtain ⟨p, hp, rfl⟩ := List.mem_map.mp hy
  split_ifs with h
  · rw [le_antisymm h.2 (hh h.1 p hp)]; ring
  · ring

/-- C115: the virtual work of the coupled forces. That of the displacements is the one of the constitutive stresses, with their mean value replaced by the pressure field, in the volume given by the volume change; that of the
volume change is the difference of the pressure and the mean stress; that of the pressure is the difference of the volume change and the volume ratio. -/
theorem C115_forces (nsd : Nat) (axi : Bool) (n m : Nat) (tol epsR : ℝ) (pts : List TPt) (hE : TrOk nsd axi n m epsR pts) (sig : TPt → (Nat → Nat → ℝ) → Nat → ℝ) (c : TPt → (Nat → Nat → ℝ) → DMat ℝ)
    (hmat : ∀ p ∈ pts, ∀ F E, (lead 3 F).det ≠ 0 → p.mat F E = .ok (c p F, sig p F)) (u : Nat → Nat → ℝ) (th pr : Nat → ℝ) (hS : ∀ p ∈ pts, Strained nsd axi n m tol epsR p u th) :
    ∃ (A : DMat ℝ) (f : DVec ℝ), tElement nsd axi tol epsR n m ⟨nsd * n, dofVec nsd u⟩ ⟨m, th⟩ ⟨m, pr⟩ pts = .ok (A, f) ∧ f.n = nsd * n + 2 * m ∧
      ∀ (x : Nat → Nat → ℝ) (y z : Nat → ℝ) (g : TPt → Nat → Nat → ℝ) (s : TPt → Nat → ℝ) (T P J q : TPt → ℝ), (∀ p, T p = 1 + ∑ b ∈ Finset.range m, p.N2.e (b + 1) * th (b + 1)) → (∀ p, P p = ∑ b ∈ Finset.range m, p.N2.e (b + 1) * pr (b + 1)) →
        (∀ p, J p = (lead 3 (mxF nsd axi n (tq p) u)).det) → (∀ p, s p = sig p fun i j => |T p / J p| ^ ((1 : ℝ) / 3) * mxF nsd axi n (tq p) u i j) → (∀ p, q p = (s p 1 + s p 2 + s p 3) / 3) →
        (∀ p ∈ pts, ∀ i j, i < 3 → j < 3 → ∑ k ∈ Finset.range 3, g p (i + 1) (k + 1) * mxF nsd axi n (tq p) u (k + 1) (j + 1) = mRef nsd axi n (tq p) x (i + 1) (j + 1)) →
        f.dot (coupled (nsd * n) (dofVec nsd x) y z) = -(pts.map fun p => mwt axi (tq p) * (T p * (∑ i ∈ Finset.range 3, ∑ j ∈ Finset.range 3, (symT 3 false (s p) (i + 1) (j + 1) + if i = j then P p * J p / T p - q p else 0) * g p (i + 1) (j + 1))
          + (q p - P p) * (∑ b ∈ Finset.range m, p.N2.e (b + 1) * y (b + 1)) + (J p - T p) * ∑ b ∈ Finset.range m, p.N2.e (b + 1) * z (b + 1))).sum := by
  have hS' : ∀ p ∈ pts, TState nsd axi n m tol epsR p u th := fun p hp => strained_state _ _ _ _ _ _ _ _ _ (hS p hp)
  obtain ⟨A, R, e1, -, -, e4, e5, -⟩ := tElement_ok nsd axi hE.dim n m hE.nodes tol epsR pts hE.pt hE.len sig c hmat u th pr hS'
  refine ⟨A, R, e1, e4, fun x y z g s T P J q hT hP hJ hs hq hg => ?_⟩
  rw [e5]
  congr 1
  refine map_sum_congr _ _ _ fun p hpm => ?_
  have t1 : tval m p th + 1 = T p := by rw [hT, add_comm]; rfl
  have t2 : tval m p pr = P p := by rw [hP]; rfl
  have t3 : mxJ nsd axi n (tq p) u = J p := by rw [hJ]; rfl
  have t4 : sig p (tFb nsd axi n p u (tval m p th + 1)) = s p := by rw [hs, t1, ← t3]; rfl
  unfold tWork
  rw [t4, t1, t2, t3]
  change _ + _ * _ * tval m p y + _ * _ * tval m p z = _ * (_ + _ * tval m p y + _ * tval m p z)
  have e : ∑ i ∈ Finset.range 3, ∑ j ∈ Finset.range 3, mSg (s p) (P p * J p / T p) (i + 1) (j + 1) * mL nsd axi n (tq p) u x (i + 1) (j + 1)
      = ∑ i ∈ Finset.range 3, ∑ j ∈ Finset.range 3, (symT 3 false (s p) (i + 1) (j + 1) + if i = j then P p * J p / T p - q p else 0) * g p (i + 1) (j + 1) := by
    refine Finset.sum_congr rfl fun i hi => Finset.sum_congr rfl fun j hj => ?_
    rw [grad_unique (mxF nsd axi n (tq p) u) (g p) (mL nsd axi n (tq p) u x) (hS' p hpm).vol (fun i j hi hj => by rw [hg p hpm i j hi hj, chain nsd axi hE.dim n epsR (tq p) (hE.pt p hpm) u x (hS' p hpm).vol i j hi hj]) i j (Finset.mem_range.mp hi) (Finset.mem_range.mp hj)]
    unfold mSg
    rw [hq]
    simp only [Nat.add_right_cancel_iff]
  rw [e, hq]
  ring

theorem tFb_vol (nsd : Nat) (axi : Bool) (n : Nat) (p : TPt) (u : Nat → Nat → ℝ) (T : ℝ) (h : 0 < T / mxJ nsd axi n (tq p) u) : (lead 3 (tFb nsd axi n p u T)).det = T := by
  have e : lead 3 (tFb nsd axi n p u T) = (|T / mxJ nsd axi n (tq p) u| ^ ((1 : ℝ) / 3)) • lead 3 (mxF nsd axi n (tq p) u) := by ext i j; rfl
  rw [e, Matrix.det_smul, Fintype.card_fin, ← Real.rpow_natCast, ← Real.rpow_mul (abs_nonneg _)]
  norm_num
  have hJ : mxJ nsd axi n (tq p) u ≠ 0 := by rintro h'; rw [h'] at h; simp at h
  rw [abs_of_pos h]
  exact div_mul_cancel₀ _ hJ

/-- C115: the coupled forces of a three-field element of a hyperelastic material have the potential `Σ w (W(F̄) + p (J - θ))`. -/
theorem C115_potential (nsd : Nat) (axi : Bool) (n m : Nat) (tol epsR : ℝ) (pts : List TPt) (hE : TrOk nsd axi n m epsR pts) (sig : TPt → (Nat → Nat → ℝ) → Nat → ℝ) (c : TPt → (Nat → Nat → ℝ) → DMat ℝ)
    (hmat : ∀ p ∈ pts, ∀ F E, (lead 3 F).det ≠ 0 → p.mat F E = .ok (c p F, sig p F)) (W : TPt → (Nat → Nat → ℝ) → ℝ) (hW : ∀ p ∈ pts, Energy (W p) (sig p)) (u : Nat → Nat → ℝ) (th pr : Nat → ℝ)
    (hS : ∀ p ∈ pts, Strained nsd axi n m tol epsR p u th) (hpos : ∀ p ∈ pts, 0 < mxJ nsd axi n (tq p) u ∧ 0 < 1 + tval m p th) :
    ∃ (A : DMat ℝ) (f : DVec ℝ), tElement nsd axi tol epsR n m ⟨nsd * n, dofVec nsd u⟩ ⟨m, th⟩ ⟨m, pr⟩ pts = .ok (A, f) ∧
      ∀ (v : Nat → Nat → ℝ) (t' p' : Nat → ℝ), HasDerivAt (fun t => (pts.map fun p => mwt axi (tq p) * (W p (tFb nsd axi n p (fun a i => u a i + t * v a i) (1 + tval m p fun b => th b + t * t' b))
        + (tval m p fun b => pr b + t * p' b) * (mxJ nsd axi n (tq p) (fun a i => u a i + t * v a i) - (1 + tval m p fun b => th b + t * t' b)))).sum) (-f.dot (coupled (nsd * n) (dofVec nsd v) t' p')) 0 := by
  have hS' : ∀ p ∈ pts, TState nsd axi n m tol epsR p u th := fun p hp => strained_state _ _ _ _ _ _ _ _ _ (hS p hp)
  obtain ⟨A, R, e1, -, -, e4, e5, -⟩ := tElement_ok nsd axi hE.dim n m hE.nodes tol epsR pts hE.pt hE.len sig c hmat u th pr hS'
  refine ⟨A, R, e1, fun v t' p' => ?_⟩
  rw [e5, neg_neg]
  refine list_deriv pts (fun t p => mwt axi (tq p) * (W p (tFb nsd axi n p (fun a i => u a i + t * v a i) (1 + tval m p fun b => th b + t * t' b))
        + (tval m p fun b => pr b + t * p' b) * (mxJ nsd axi n (tq p) (fun a i => u a i + t * v a i) - (1 + tval m p fun b => th b + t * t' b)))) _ fun p hp => ?_
  obtain ⟨h1, h2⟩ := hpos p hp
  have hv := (hS' p hp).vol
  have hc := (hS' p hp).change
  have dJ := J_deriv nsd axi hE.dim n epsR (tq p) (hE.pt p hp) u v hv
  have dl : ∀ a b : ℝ, HasDerivAt (fun t : ℝ => a + t * b) b 0 := fun a b => (((hasDerivAt_id (0 : ℝ)).mul_const b).const_add a).congr_deriv (by simp)
  have dW := hW p hp (fun t => tFb nsd axi n p (along u v t) (tval m p th + 1 + t * tval m p t')) (barVel (mL nsd axi n (tq p) u v) (tval m p t' / (tval m p th + 1)))
    (by rw [along_zero, zero_mul, add_zero]; exact tFb_det nsd axi n p u _ hv hc) (fbT_deriv nsd axi hE.dim n epsR p (hE.pt p hp) u v hv _ (tval m p t') hc)
  rw [along_zero, zero_mul, add_zero, tFb_vol nsd axi n p u _ (div_pos (by linarith) h1)] at dW
  have hall := (dW.add ((dl (tval m p pr) (tval m p p')).mul (dJ.sub (dl (tval m p th + 1) (tval m p t'))))).const_mul (mwt axi (tq p))
  refine (hall.congr_of_eventuallyEq (Eventually.of_forall fun t => ?_)).congr_deriv ?_
  · have l1 : (1 + tval m p fun b => th b + t * t' b) = tval m p th + 1 + t * tval m p t' := by rw [show (fun b => th b + t * t' b) = lineV th t' t from rfl, tval_line]; ring
    have l2 : (tval m p fun b => pr b + t * p' b) = tval m p pr + t * tval m p p' := by rw [show (fun b => pr b + t * p' b) = lineV pr p' t from rfl, tval_line]
    beta_reduce
    rw [l1, l2]
    rfl
  · simp only [Pi.sub_apply, along_zero, zero_mul, add_zero]
    unfold tWork mSg
    generalize mxJ nsd axi n (tq p) u = J at *
    generalize sig p (tFb nsd axi n p u (tval m p th + 1)) = s
    generalize tval m p th + 1 = T at *
    generalize mL nsd axi n (tq p) u v = X
    generalize tval m p t' = T'
    generalize tval m p p' = P'
    generalize tval m p pr = P
    simp only [Finset.sum_range_succ, Finset.sum_range_zero, zero_add, tr, barVel]
    simp [symT]
    field_simp
    ring

/-- Every vector of the length of the coupled unknowns consists of its three parts. -/
theorem split_vec (nsd n m : Nat) (X : Nat → ℝ) : ∃ x y z, ∀ k, k < nsd * n + 2 * m → coupled (nsd * n) (dofVec nsd x) y z (k + 1) = X (k + 1) := by
  refine ⟨fun a i => X (nsd * (a - 1) + i), fun j => X (nsd * n + 2 * j - 1), fun j => X (nsd * n + 2 * j), fun k hk => ?_⟩
  by_cases h : k < nsd * n
  · rw [coupled_u _ _ _ _ _ h]
    unfold dofVec
    have := Nat.div_add_mod k nsd
    refine congrArg X ?_
    show nsd * (k / nsd + 1 - 1) + (k % nsd + 1) = k + 1
    rw [Nat.add_sub_cancel]
    omega
  · obtain ⟨j, hj⟩ : ∃ j, k = nsd * n + 2 * j ∨ k = nsd * n + 2 * j + 1 := ⟨(k - nsd * n) / 2, by omega⟩
    rcases hj with rfl | rfl
    · rw [coupled_t]; exact congrArg X (by omega)
    · rw [coupled_p]; exact congrArg X (by omega)

theorem bil_congr (A : DMat ℝ) (x x' y y' : Nat → ℝ) (h1 : ∀ k, k < A.nr → x (k + 1) = x' (k + 1)) (h2 : ∀ k, k < A.nc → y (k + 1) = y' (k + 1)) : A.bil x y = A.bil x' y' := by
  unfold DMat.bil
  refine Finset.sum_congr rfl fun i hi => Finset.sum_congr rfl fun j hj => ?_
  rw [h1 i (Finset.mem_range.mp hi), h2 j (Finset.mem_range.mp hj)]

/-- C115: the coupled element matrix is symmetric for materials with symmetric tangents. -/
theorem C115_symmetric (nsd : Nat) (axi : Bool) (n m : Nat) (tol epsR : ℝ) (pts : List TPt) (hE : TrOk nsd axi n m epsR pts) (sig : TPt → (Nat → Nat → ℝ) → Nat → ℝ) (c : TPt → (Nat → Nat → ℝ) → DMat ℝ)
    (hmat : ∀ p ∈ pts, ∀ F E, (lead 3 F).det ≠ 0 → p.mat F E = .ok (c p F, sig p F)) (hC : ∀ p ∈ pts, ∀ F i j, 1 ≤ i → i ≤ 6 → 1 ≤ j → j ≤ 6 → (c p F).e i j = (c p F).e j i) (u : Nat → Nat → ℝ) (th pr : Nat → ℝ)
    (hS : ∀ p ∈ pts, Strained nsd axi n m tol epsR p u th) :
    ∃ (A : DMat ℝ) (f : DVec ℝ), tElement nsd axi tol epsR n m ⟨nsd * n, dofVec nsd u⟩ ⟨m, th⟩ ⟨m, pr⟩ pts = .ok (A, f) ∧ A.nr = nsd * n + 2 * m ∧ A.nc = nsd * n + 2 * m ∧ ∀ X Y, A.bil X Y = A.bil Y X := by
  have hS' : ∀ p ∈ pts, TState nsd axi n m tol epsR p u th := fun p hp => strained_state _ _ _ _ _ _ _ _ _ (hS p hp)
  obtain ⟨A, R, e1, e2, e3, -, -, e6⟩ := tElement_ok nsd axi hE.dim n m hE.nodes tol epsR pts hE.pt hE.len sig c hmat u th pr hS'
  refine ⟨A, R, e1, e2, e3, fun X Y => ?_⟩
  obtain ⟨x, y, z, h1⟩ := split_vec nsd n m X
  obtain ⟨v, t, q, h2⟩ := split_vec nsd n m Y
  rw [bil_congr A X (coupled (nsd * n) (dofVec nsd x) y z) Y (coupled (nsd * n) (dofVec nsd v) t q) (fun k hk => (h1 k (by omega)).symm) (fun k hk => (h2 k (by omega)).symm),
    bil_congr A Y (coupled (nsd * n) (dofVec nsd v) t q) X (coupled (nsd * n) (dofVec nsd x) y z) (fun k hk => (h2 k (by omega)).symm) (fun k hk => (h1 k (by omega)).symm), e6, e6]
  refine map_sum_congr _ _ _ fun p hp => ?_
  unfold tStiff
  rw [mDm_symm _ (hC p hp _) _ _ (mL nsd axi n (tq p) u x)]
  have g : ∀ (S a b : Nat → Nat → ℝ), (∀ i j, S i j = S j i) → ∑ i ∈ Finset.range 3, ∑ j ∈ Finset.range 3, S (i + 1) (j + 1) * ∑ k ∈ Finset.range 3, a (k + 1) (i + 1) * b (k + 1) (j + 1)
      = ∑ i ∈ Finset.range 3, ∑ j ∈ Finset.range 3, S (i + 1) (j + 1) * ∑ k ∈ Finset.range 3, b (k + 1) (i + 1) * a (k + 1) (j + 1) := by
    intro S a b hs
    rw [Finset.sum_comm]
    refine Finset.sum_congr rfl fun i hi => Finset.sum_congr rfl fun j hj => ?_
    rw [hs]
    congr 1
    exact Finset.sum_congr rfl fun k _ => mul_comm _ _
  have hm : ∀ (s : Nat → ℝ) P i j, mSg s P i j = mSg s P j i := by
    intro s P i j
    unfold mSg
    rw [symT_symm]
    simp only [eq_comm]
  rw [g _ (mL nsd axi n (tq p) u x) _ (hm _ _)]
  have hh : ∀ (s : Nat → ℝ) P (a b : Nat → Nat → ℝ), mHoop axi s P a b = mHoop axi s P b a := by
    intro s P a b
    unfold mHoop
    split_ifs
    · ring
    · rfl
  rw [hh _ _ (mL nsd axi n (tq p) u x)]
  ring

/-! ### An element -/

/-- An integration point of a triangle (or of a ring) with three linear functions for the displacements and constant volume change and pressure. -/
noncomputable def tri1 (mu la : ℝ) : TPt := ⟨triangle, ⟨1, fun _ => 1⟩, fun F _ => .ok (neoC mu la F, neo3 mu la F)⟩

theorem tri1_ok (mu la epsR : ℝ) (he' : epsR < 1) (axi : Bool) : TrOk 2 axi 3 1 epsR [tri1 mu la] := by
  refine ⟨Or.inl rfl, by omega, fun p hp => ?_⟩
  obtain rfl := List.mem_singleton.mp hp
  exact ⟨rfl, rfl, rfl, rfl, fun _ => ⟨he', one_pos⟩⟩

theorem tri1_wt (mu la : ℝ) (axi : Bool) : mwt axi (tq (tri1 mu la)) = if axi then Real.pi else 1 / 2 := by
  cases axi <;> simp [mwt, tq, tri1, triangle]
  ring

theorem tFb_self (nsd : Nat) (axi : Bool) (n : Nat) (p : TPt) (u : Nat → Nat → ℝ) (hJ : mxJ nsd axi n (tq p) u ≠ 0) : tFb nsd axi n p u (mxJ nsd axi n (tq p) u) = mxF nsd axi n (tq p) u := by
  funext i j
  unfold tFb
  rw [div_self hJ]
  simp

theorem neoC_symm (mu la : ℝ) (F : Nat → Nat → ℝ) (i j : Nat) : (neoC mu la F).e i j = (neoC mu la F).e j i := by
  unfold neoC
  have : sym6 i j = (sym6 j i : ℝ) := by
    unfold sym6
    by_cases e : i = j
    · rw [e]
    · rw [if_neg e, if_neg (fun h => e h.symm)]
  simp only [this, mul_comm (one6 i)]

/-- A stretched ring, for which the matrix is the derivative of the forces. -/
example : TrOk 2 true 3 1 0 [tri1 1 1] ∧ Truesdell 3 (tri1 1 1).mat (neo3 1 1) (neoC 1 1) ∧ Energy (neoW 1 1) (neo3 1 1) ∧ (∀ F i j, (neoC 1 1 F).e i j = (neoC 1 1 F).e j i) ∧
    Strained 2 true 3 1 (1 / 10) 0 (tri1 1 1) (fun a i => if a = 2 ∧ i = 1 then 1 else 0) (fun _ => 5 / 3) ∧ 0 < mxJ 2 true 3 (tq (tri1 1 1)) (fun a i => if a = 2 ∧ i = 1 then 1 else 0) ∧ 0 < 1 + tval 1 (tri1 1 1) (fun _ => 5 / 3) ∧
    0 ≤ trHoop (neo3 1 1 (tFb 2 true 3 (tri1 1 1) (fun a i => if a = 2 ∧ i = 1 then 1 else 0) (tval 1 (tri1 1 1) (fun _ => 5 / 3) + 1))) (tval 1 (tri1 1 1) (fun _ => 5 / 3) + 1) (tval 1 (tri1 1 1) fun _ => 2)
      (mxJ 2 true 3 (tq (tri1 1 1)) (fun a i => if a = 2 ∧ i = 1 then 1 else 0)) := by
  have hJ : mxJ 2 true 3 (tq (tri1 1 1)) (fun a i => if a = 2 ∧ i = 1 then 1 else 0) = 8 / 3 := by
    simp [mxJ, Matrix.det_fin_three, lead, mxF, mRef, tens, grad, val, tq, tri1, triangle, Finset.sum_range_succ]
    norm_num
  have hJ' : (lead 3 (mxF 2 true 3 (tq (tri1 1 1)) (fun a i => if a = 2 ∧ i = 1 then 1 else 0))).det = 8 / 3 := hJ
  have hT : tval 1 (tri1 1 1) (fun _ => 5 / 3) = 5 / 3 := by simp [tval, tri1]
  have hP : tval 1 (tri1 1 1) (fun _ => 2) = 2 := by simp [tval, tri1]
  have hF := tFb_self 2 true 3 (tri1 1 1) (fun a i => if a = 2 ∧ i = 1 then 1 else 0) (by rw [hJ]; norm_num)
  rw [hJ] at hF
  refine ⟨tri1_ok 1 1 0 one_pos true, neo3_ok 1 1, neoW_ok 1 1, neoC_symm 1 1, ⟨fun _ => ⟨le_refl _, ?_⟩, by rw [hJ]; norm_num, ?_, 1, by omega, by omega, ?_⟩, by rw [hJ]; norm_num, by rw [hT]; norm_num, ?_⟩
  · simp [tri1, triangle, Finset.sum_range_succ]; norm_num
  · simp [tri1]; norm_num
  · simp [greenV, engineering, eng2, green, defF, grad, tri1, triangle, Finset.sum_range_succ]; norm_num [abs_of_pos, abs_of_neg]
  · rw [hT, hP, hJ, show (5 / 3 + 1 : ℝ) = 8 / 3 by norm_num, hF]
    unfold trHoop neo3
    simp only [hJ']
    simp [mxF, mRef, tens, grad, val, tq, tri1, triangle, Finset.sum_range_succ]
    norm_num

/-- C115: the matrix of a radially compressed ring is not the derivative of its forces: the geometric stiffness of the (compressive) hoop stress is left out. The ring is shrunk to half its radius, the volume change and the
pressure equal the volume ratio and the mean stress; the hoop stress is -3. Only the diagonal element for uniform radial displacements is looked at. -/
theorem C115_hoop_violated (tol epsR : ℝ) (ht : tol < 3 / 8) (he : 0 ≤ epsR) (he' : epsR < 1 / 2) :
    ∃ (A : DMat ℝ) (f : ℝ → DVec ℝ), tElement 2 true tol epsR 3 1 ⟨2 * 3, dofVec 2 fun a i => if i = 1 then if a = 2 then -5 / 6 else -1 / 3 else 0⟩ ⟨1, fun _ => -3 / 4⟩ ⟨1, fun _ => -2⟩ [tri1 1 0] = .ok (A, f 0) ∧
      (∀ᶠ t in 𝓝 (0 : ℝ), ∃ A', tElement 2 true tol epsR 3 1 ⟨2 * 3, dofVec 2 fun a i => (if i = 1 then if a = 2 then -5 / 6 else -1 / 3 else 0) + t * if i = 1 then 1 else 0⟩ ⟨1, fun _ => -3 / 4 + t * 0⟩ ⟨1, fun _ => -2 + t * 0⟩ [tri1 1 0] = .ok (A', f t)) ∧
      HasDerivAt (fun t => (f t).dot (coupled (2 * 3) (dofVec 2 fun _ i => if i = 1 then 1 else 0) (fun _ => 0) fun _ => 0))
        (-(A.bil (coupled (2 * 3) (dofVec 2 fun _ i => if i = 1 then 1 else 0) (fun _ => 0) fun _ => 0) (coupled (2 * 3) (dofVec 2 fun _ i => if i = 1 then 1 else 0) (fun _ => 0) fun _ => 0)) + 3 * Real.pi) 0 := by
  have hJ : mxJ 2 true 3 (tq (tri1 1 0)) (fun a i => if i = 1 then if a = 2 then -5 / 6 else -1 / 3 else 0) = 1 / 4 := by
    simp [mxJ, Matrix.det_fin_three, lead, mxF, mRef, tens, grad, val, tq, tri1, triangle, Finset.sum_range_succ]
    norm_num
  have hJ' : (lead 3 (mxF 2 true 3 (tq (tri1 1 0)) (fun a i => if i = 1 then if a = 2 then -5 / 6 else -1 / 3 else 0))).det = 1 / 4 := hJ
  have hT : tval 1 (tri1 1 0) (fun _ => -3 / 4) + 1 = 1 / 4 := by simp [tval, tri1]; norm_num
  have hP : tval 1 (tri1 1 0) (fun _ => -2) = -2 := by simp [tval, tri1]
  have hF := tFb_self 2 true 3 (tri1 1 0) (fun a i => if i = 1 then if a = 2 then -5 / 6 else -1 / 3 else 0) (by rw [hJ]; norm_num)
  rw [hJ] at hF
  have h3 : trHoop (neo3 1 0 (mxF 2 true 3 (tq (tri1 1 0)) (fun a i => if i = 1 then if a = 2 then -5 / 6 else -1 / 3 else 0))) (1 / 4) (-2) (1 / 4) = -3 := by
    unfold trHoop neo3
    simp only [hJ']
    simp [mxF, mRef, tens, grad, val, tq, tri1, triangle, Finset.sum_range_succ]
    norm_num
  obtain ⟨A, f, e1, -, -, -, e2, e3⟩ := C115_tangent_defect 2 true 3 1 tol epsR [tri1 1 0] (tri1_ok 1 0 epsR (by linarith) true) (fun _ => neo3 1 0) (fun _ => neoC 1 0) (fun p hp => by
      obtain rfl := List.mem_singleton.mp hp
      exact neo3_ok 1 0) (fun p _ F i j _ _ _ _ => neoC_symm 1 0 F i j) (fun a i => if i = 1 then if a = 2 then -5 / 6 else -1 / 3 else 0) (fun _ i => if i = 1 then 1 else 0) (fun _ => -3 / 4) (fun _ => -2) (fun _ => 0) (fun _ => 0) (fun p hp => by
      obtain rfl := List.mem_singleton.mp hp
      refine ⟨fun _ => ⟨he, ?_⟩, by rw [hJ]; norm_num, ?_, 1, by omega, by omega, ?_⟩
      · simp [tri1, triangle, Finset.sum_range_succ]; norm_num; linarith
      · simp [tri1]; norm_num
      · simp [greenV, engineering, eng2, green, defF, grad, tri1, triangle, Finset.sum_range_succ]; norm_num [abs_of_pos, abs_of_neg]; exact ht)
  refine ⟨A, f, e1, e2, (e3 _ _ _).congr_deriv ?_⟩
  have hL : mL 2 true 3 (tq (tri1 1 0)) (fun a i => if i = 1 then if a = 2 then -5 / 6 else -1 / 3 else 0) (fun _ i => if i = 1 then 1 else 0) 3 3 = 2 := by
    simp [mL, tens, mNr, scaleN, val, tq, tri1, triangle, Finset.sum_range_succ]
    norm_num
  simp only [List.map_cons, List.map_nil, List.sum_cons, List.sum_nil, add_zero, hT, hP, hJ, hF, h3, hL, tri1_wt, if_true, true_and]
  norm_num
  ring

/-- C115: without strains all forces of the element are zero, whatever the values of volume change and pressure: here the volume ratio is 1, the volume change is 2 and the pressure is 5. -/
theorem C115_unstrained_violated (mu la tol epsR : ℝ) (ht : 0 ≤ tol) :
    mxJ 2 false 3 (tq (tri1 mu la)) (fun _ _ => 0) = 1 ∧ 1 + tval 1 (tri1 mu la) (fun _ => 1) = 2 ∧ tval 1 (tri1 mu la) (fun _ => 5) = 5 ∧
    ∃ (A : DMat ℝ) (f : DVec ℝ), tElement 2 false tol epsR 3 1 ⟨2 * 3, dofVec 2 fun _ _ => 0⟩ ⟨1, fun _ => 1⟩ ⟨1, fun _ => 5⟩ [tri1 mu la] = .ok (A, f) ∧ f.n = 8 ∧ ∀ x y z, f.dot (coupled (2 * 3) (dofVec 2 x) y z) = 0 := by
  have hJ : mxJ 2 false 3 (tq (tri1 mu la)) (fun _ _ => 0) = 1 := by
    simp [mxJ, Matrix.det_fin_three, lead, mxF, mRef, tens, grad, val]
  refine ⟨hJ, by simp [tval, tri1]; norm_num, by simp [tval, tri1], ?_⟩
  have hz : zeroStrain tol (ncomp 2 false) (strainV 2 false (defGrad 2 false true (tq (tri1 mu la)).pt.N (tq (tri1 mu la)).pt.dN (tq (tri1 mu la)).pt.X epsR (dofVec 2 fun _ _ => 0))) = true := by
    rw [zeroStrain_iff]
    intro i h1 h2
    have h2' : i ≤ 3 := h2
    interval_cases i <;> simp [strainV, strainE, defGrad, dofVec, Finset.sum_range_succ] <;> exact ht
  have hk := kin_F 2 false (Or.inl rfl) 3 (by omega) epsR (tq (tri1 mu la)) ⟨rfl, rfl, fun h => absurd h (by decide)⟩ fun _ _ => 0
  have hok := tri1_ok mu la 0 one_pos false
  obtain ⟨g1, g2, g3⟩ := start_ok 2 3 1
  obtain ⟨d1, d2, d3, d4, d5, d6, d7, d8, d9, d10, d11, d12, d13⟩ := g1
  obtain ⟨D, hD, -⟩ := volTerms (neoC mu la (tFb 2 false 3 (tri1 mu la) (fun _ _ => 0) 2)).e (neo3 mu la (tFb 2 false 3 (tri1 mu la) (fun _ _ => 0) 2)) 0 0
  obtain ⟨A2, l1, l2, l3, -⟩ := acc_ok 2 false (Or.inl rfl) 3 (tri1 mu la).pt.N.e (mDN 2 false 3 (tq (tri1 mu la)) fun _ _ => 0).e (fun _ _ => 0) D.e (2 * (1 / 2)) _ d1 d2
  obtain ⟨A3, u1, u2, u3, -⟩ := ut_ok 2 false (Or.inl rfl) 3 1 (mDN 2 false 3 (tq (tri1 mu la)) fun _ _ => 0).e (tri1 mu la).pt.N.e 0 (tri1 mu la).N2.e (fun i => D.e i 7 * (2 * (1 / 2)) / 2) _ d3 d4
  obtain ⟨A4, v1, v2, v3, -⟩ := up_ok 2 false (Or.inl rfl) 3 1 (mDN 2 false 3 (tq (tri1 mu la)) fun _ _ => 0).e (tri1 mu la).pt.N.e 0 (tri1 mu la).N2.e (1 * (1 / 2)) _ d5 d6
  obtain ⟨A5, w1, w2, w3, -⟩ := outer_ok 1 (tri1 mu la).N2.e (D.e 7 7 * (2 * (1 / 2)) / (2 * 2)) _ d7 d8
  obtain ⟨A6, x1, x2, x3, -⟩ := outer_ok 1 (tri1 mu la).N2.e (-(1 / 2)) _ d9 d10
  have hpt : tPoint 2 false tol epsR ⟨2 * 3, dofVec 2 fun _ _ => 0⟩ ⟨1, fun _ => 1⟩ ⟨1, fun _ => 5⟩ (tri1 mu la) (TMats.start 2 3 1)
      = .ok ⟨A2, A3, A4, A5, A6, (TMats.start 2 3 1).Ru, (TMats.start 2 3 1).Rt, (TMats.start 2 3 1).Rp⟩ := by
    have hTd : (tri1 mu la).N2.dot (fun _ => 1) + 1 = 2 := by simp [DVec.dot, tri1]; norm_num
    have hw : (tri1 mu la).pt.w = 1 / 2 := rfl
    have hdet := det_lead 2 false (Or.inl rfl) 3 (tq (tri1 mu la)) fun _ _ => 0
    simp only [Bool.false_eq_true, if_false] at hdet
    unfold tPoint
    refine (congrArg (fun r => Res.bind r _) hk).trans ?_
    simp only [Res.bind, hz, Bool.not_true, Bool.false_eq_true, if_false, hTd, hw, hdet, hJ]
    rw [if_neg one_ne_zero, if_neg (show ¬ ((2 : ℝ) = 0 ∨ False ∧ True) by norm_num)]
    have e1 : tFbar 2 false (mxF 2 false 3 (tq (tri1 mu la)) fun _ _ => 0) 2 = tFb 2 false 3 (tri1 mu la) (fun _ _ => 0) 2 := tFbar_eq 2 false (Or.inl rfl) 3 (tq (tri1 mu la)) _ 2
    have e2 : pushGrad 2 (mxF 2 false 3 (tq (tri1 mu la)) fun _ _ => 0) (tri1 mu la).pt.dN = mDN 2 false 3 (tq (tri1 mu la)) fun _ _ => 0 := rfl
    have e4 : (tri1 mu la).mat (tFb 2 false 3 (tri1 mu la) (fun _ _ => 0) 2) = fun _ => .ok (neoC mu la (tFb 2 false 3 (tri1 mu la) (fun _ _ => 0) 2), neo3 mu la (tFb 2 false 3 (tri1 mu la) (fun _ _ => 0) 2)) := rfl
    simp only [e1, e2, e4, hD]
    rw [if_pos trivial, acc2T]
    rw [if_pos rfl] at l1
    have n1 : (tri1 mu la).pt.N.n = 3 := rfl
    have n2 : (tri1 mu la).N2.n = 1 := rfl
    simp only [false_and, if_false, n1, n2, l1, u1, v1, w1, x1]
  obtain ⟨A, R, f1, f2, f3, f4, f5, f6, f7⟩ := pack_ok 2 3 1 ⟨A2, A3, A4, A5, A6, (TMats.start 2 3 1).Ru, (TMats.start 2 3 1).Rt, (TMats.start 2 3 1).Rp⟩ ⟨l2, l3, u2, u3, v2, v3, w2, w3, x2, x3, rfl, rfl, rfl⟩
  refine ⟨A, R, ?_, f5, fun x y z => ?_⟩
  · unfold tElement tPoints
    rw [hpt]
    simp only [Res.bind, tPoints]
    rw [f1]
    simp only []
    rw [f2]
  · rw [f6]
    exact g2 x y z

end Verif.Finite
