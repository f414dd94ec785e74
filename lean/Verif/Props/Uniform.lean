/-
Property C128: under a uniform deformation all formulations of solid elements have the nodal forces of a uniform stress. Models: Model/Continuum.lean, Model/FDTangent.lean, Model/FbarElem.lean, Model/MixedElem.lean,
Model/TripleElem.lean. An isoparametric element is specified as in C122 (`Iso`).
-/
import Verif.Props.MixedObjectivity

set_option linter.unusedVariables false

namespace Verif.Finite

open Verif.Cont Verif.ContSpec Verif.FiniteSpec Verif.Fbar Verif.Mixed

variable {nPM : Nat}

/-! ### Specification -/

/-- The displacements `u` of the nodes in `X` are those of a body with the displacement gradient `G`, up to a translation. -/
def Affine (d n : Nat) (X u G : Nat → Nat → ℝ) : Prop :=
  ∃ c : Nat → ℝ, ∀ a i, a < n → i < d → u (a + 1) (i + 1) = c (i + 1) + ∑ k ∈ Finset.range d, G (i + 1) (k + 1) * X (a + 1) (k + 1)

/-- The nodal forces `f` are those which a uniform (first Piola-Kirchhoff) stress `P` exerts on the nodes, that is `P` times the integral of the gradient of the basis function of the node. -/
def UniformForces (d n : Nat) (pts : List (FPt ℝ)) (P : Nat → Nat → ℝ) (f : Nat → ℝ) : Prop :=
  ∀ a i, a < n → i < d → f (d * a + i + 1) = -∑ r ∈ Finset.range d, P (i + 1) (r + 1) * (pts.map fun p => p.w * p.dN.e (a + 1) (r + 1)).sum

/-- The deformation gradient with the displacement gradient `G`, that has no components beyond the dimension `d`. -/
noncomputable def gradF (d : Nat) (G : Nat → Nat → ℝ) (i j : Nat) : ℝ := (if i = j then 1 else 0) + if (1 ≤ i ∧ i ≤ d) ∧ 1 ≤ j ∧ j ≤ d then G i j else 0

/-- The first Piola-Kirchhoff stresses `P` belong to the Cauchy stresses `T`: `P F^T = det(F) T`. -/
def Nominal (d : Nat) (G T P : Nat → Nat → ℝ) : Prop :=
  ∀ i j, i < d → j < d → ∑ r ∈ Finset.range d, P (i + 1) (r + 1) * gradF d G (j + 1) (r + 1) = (Matrix.of fun k l : Fin d => gradF d G (k + 1) (l + 1)).det * T (i + 1) (j + 1)

/-! ### Lemmas -/

theorem gradF_defF (d : Nat) (G : Nat → Nat → ℝ) : gradF d G = defF d G := rfl

theorem affine_grad (d n : Nat) (X u G : Nat → Nat → ℝ) (hu : Affine d n X u G) (p : FPt ℝ) (hp : Iso d n X p) (i r : Nat) (hi : i < d) (hr : r < d) : grad n u p.dN.e (i + 1) (r + 1) = G (i + 1) (r + 1) := by
  obtain ⟨c, hc⟩ := hu
  unfold grad
  rw [Finset.sum_congr rfl fun a ha => show u (a + 1) (i + 1) * p.dN.e (a + 1) (r + 1) = c (i + 1) * p.dN.e (a + 1) (r + 1) + ∑ k ∈ Finset.range d, G (i + 1) (k + 1) * (X (a + 1) (k + 1) * p.dN.e (a + 1) (r + 1)) by
    rw [hc a i (Finset.mem_range.mp ha) hi, add_mul, Finset.sum_mul]; congr 1; exact Finset.sum_congr rfl fun k _ => by ring]
  rw [Finset.sum_add_distrib, ← Finset.mul_sum, hp.2.2.1 r hr, mul_zero, zero_add, Finset.sum_comm]
  rw [Finset.sum_congr rfl fun k hk => show ∑ a ∈ Finset.range n, G (i + 1) (k + 1) * (X (a + 1) (k + 1) * p.dN.e (a + 1) (r + 1)) = if k = r then G (i + 1) (k + 1) else 0 by
    rw [← Finset.mul_sum, hp.2.2.2 k r (Finset.mem_range.mp hk) hr]; split_ifs <;> simp]
  simp [hr]

theorem affine_F (d n : Nat) (X u G : Nat → Nat → ℝ) (hu : Affine d n X u G) (p : FPt ℝ) (hp : Iso d n X p) : defF d (grad n u p.dN.e) = defF d G := by
  funext i j
  unfold defF
  congr 1
  split_ifs with h
  · have := affine_grad d n X u G hu p hp (i - 1) (j - 1) (by omega) (by omega)
    rwa [show i - 1 + 1 = i by omega, show j - 1 + 1 = j by omega] at this
  · rfl

theorem affine_green (d : Nat) (hd : d = 2 ∨ d = 3) (n : Nat) (X u G : Nat → Nat → ℝ) (hu : Affine d n X u G) (p : FPt ℝ) (hp : Iso d n X p) : greenV d (grad n u p.dN.e) = greenV d G := by
  have h := affine_grad d n X u G hu p hp
  have e : ∀ i j, i < d → j < d → green d (grad n u p.dN.e) (i + 1) (j + 1) = green d G (i + 1) (j + 1) := by
    intro i j hi hj
    unfold green
    rw [h i j hi hj, h j i hj hi, Finset.sum_congr rfl fun k hk => by rw [h k i (Finset.mem_range.mp hk) hi, h k j (Finset.mem_range.mp hk) hj]]
  unfold greenV
  rcases hd with rfl | rfl
  · exact eng2_congr _ _ (e 0 0 (by omega) (by omega)) (e 1 1 (by omega) (by omega)) (e 0 1 (by omega) (by omega)) (e 1 0 (by omega) (by omega))
  · exact eng3_congr _ _ (e 0 0 (by omega) (by omega)) (e 1 1 (by omega) (by omega)) (e 2 2 (by omega) (by omega)) (e 0 1 (by omega) (by omega)) (e 1 0 (by omega) (by omega)) (e 1 2 (by omega) (by omega)) (e 2 1 (by omega) (by omega))
      (e 0 2 (by omega) (by omega)) (e 2 0 (by omega) (by omega))

theorem affine_ratio (d n : Nat) (X u G : Nat → Nat → ℝ) (hu : Affine d n X u G) (p : FPt ℝ) (hp : Iso d n X p) : ratio d (grad n u p.dN.e) = ratio d G := by
  unfold ratio
  rw [affine_F d n X u G hu p hp]

theorem sum_mul_right {α : Type} (l : List α) (g : α → ℝ) (c : ℝ) : (l.map fun p => c * g p).sum = c * (l.map g).sum := by
  induction l with
  | nil => simp
  | cons p l ih => simp only [List.map_cons, List.sum_cons, ih]; ring

theorem list_sum_range {α : Type} (l : List α) (d : Nat) (g : α → Nat → ℝ) : (l.map fun p => ∑ r ∈ Finset.range d, g p r).sum = ∑ r ∈ Finset.range d, (l.map fun p => g p r).sum := by
  induction l with
  | nil => simp
  | cons p l ih => simp only [List.map_cons, List.sum_cons, ih, Finset.sum_add_distrib]

/-- Points with the same stresses give the forces of a uniform stress. -/
theorem uniform_of_piola (d n : Nat) {α : Type} (pts : List α) (geo : α → FPt ℝ) (P : α → Nat → Nat → ℝ) (P0 : Nat → Nat → ℝ) (f : DVec ℝ) (hf : Piola d n pts geo P f)
    (hP : ∀ p ∈ pts, ∀ i r, i < d → r < d → P p (i + 1) (r + 1) = P0 (i + 1) (r + 1)) : UniformForces d n (pts.map geo) P0 f.e := by
  intro a i ha hi
  have h := hf.2 (at1 a (unit1 i))
  rw [dot_at d n f hf.1 a ha, sum_unit d i hi fun k => f.e (d * a + k + 1)] at h
  rw [h]
  congr 1
  simp only [List.map_map, Function.comp_def]
  rw [← Finset.sum_congr rfl fun r _ => sum_mul_right pts (fun p => (geo p).w * (geo p).dN.e (a + 1) (r + 1)) (P0 (i + 1) (r + 1)), ← list_sum_range]
  congr 1
  refine List.map_congr_left fun p hp => ?_
  rw [Finset.mul_sum, Finset.sum_eq_single i]
  · rw [Finset.mul_sum]
    refine Finset.sum_congr rfl fun r hr => ?_
    rw [grad_at n a ha, hP p hp i r hi (Finset.mem_range.mp hr)]
    simp [unit1]
    ring
  · intro k hk hki
    rw [Finset.sum_eq_zero, mul_zero]
    intro r _
    rw [grad_at n a ha]
    simp [unit1, hki]
  · intro hk; exact absurd (Finset.mem_range.mpr hi) hk

theorem uniform_congr (d n : Nat) (pts : List (FPt ℝ)) (P P' : Nat → Nat → ℝ) (f : Nat → ℝ) (h : ∀ i r, i < d → r < d → P (i + 1) (r + 1) = P' (i + 1) (r + 1)) (hf : UniformForces d n pts P f) : UniformForces d n pts P' f := by
  intro a i ha hi
  rw [hf a i ha hi]
  congr 1
  exact Finset.sum_congr rfl fun r hr => by rw [h i r hi (Finset.mem_range.mp hr)]

theorem nominal_lead (d : Nat) (G T P : Nat → Nat → ℝ) (h : Nominal d G T P) : lead d P * (lead d (defF d G)).transpose = ratio d G • lead d T := by
  ext i j
  rw [← sum_leadT]
  exact h i j i.2 j.2

/-- The stresses `P` are determined by the Cauchy stresses. -/
theorem nominal_unique (d : Nat) (G T P P' : Nat → Nat → ℝ) (hJ : ratio d G ≠ 0) (h : Nominal d G T P) (h' : Nominal d G T P') (i r : Nat) (hi : i < d) (hr : r < d) : P (i + 1) (r + 1) = P' (i + 1) (r + 1) := by
  have hu : IsUnit (lead d (defF d G)).transpose.det := by rw [Matrix.det_transpose]; exact isUnit_iff_ne_zero.mpr hJ
  have e : lead d P = lead d P' := by
    have := (nominal_lead d G T P h).trans (nominal_lead d G T P' h').symm
    have := congrArg (· * ((lead d (defF d G)).transpose)⁻¹) this
    simpa [Matrix.mul_assoc, Matrix.mul_nonsing_inv _ hu] using this
  exact congrFun (congrFun e ⟨i, hi⟩) ⟨r, hr⟩

theorem spP_nominal (d : Nat) (G : Nat → Nat → ℝ) (hJ : ratio d G ≠ 0) (s : Nat → ℝ) : Nominal d G (symT d false s) (spP d G s) := by
  intro i j hi hj
  have hu : IsUnit (lead d (defF d G)).det := isUnit_iff_ne_zero.mpr hJ
  have e : lead d (spP d G s) * (lead d (defF d G)).transpose = ratio d G • lead d (symT d false s) := by
    rw [spP_lead, Matrix.smul_mul, Matrix.mul_assoc, ← Matrix.transpose_mul, Matrix.mul_nonsing_inv _ hu, Matrix.transpose_one, Matrix.mul_one]
  rw [gradF_defF, sum_leadT d (spP d G s) (defF d G) ⟨i, hi⟩ ⟨j, hj⟩, e]
  rfl

/-! ### Linear elasticity -/

/-- **C128**, linear elasticity: the stiffness matrix times the displacements of a uniform deformation gives the nodal forces of the stress `C` times the strain. -/
theorem C128_linear (d : Nat) (hd : d = 2 ∨ d = 3) (n : Nat) (pts : List (FPt ℝ × DMat ℝ)) (X u G : Nat → Nat → ℝ) (hu : Affine d n X u G) (C : DMat ℝ) (hC : C.nr = d * (d + 1) / 2 ∧ C.nc = d * (d + 1) / 2 ∧ ∀ i j, C.e i j = C.e j i)
    (hp : ∀ p ∈ pts, Iso d n X p.1 ∧ formB d p.1.dN = .ok p.2) (s : Nat → ℝ) (hs : ∀ k, s k = ∑ l ∈ Finset.range (d * (d + 1) / 2), C.e k (l + 1) * engineering d G (l + 1)) :
    UniformForces d n (pts.map fun p => p.1) (symT d false s) fun k => -(stiffness (d * n) (pts.map fun p => (p.2, C, p.1.w))).mulV (dofVec d u) k := by
  have hB : ∀ p ∈ pts, p.2.nr = d * (d + 1) / 2 ∧ p.2.nc = d * n ∧ ∀ x i, 1 ≤ i → i ≤ d * (d + 1) / 2 → p.2.mulV (dofVec d x) i = engineering d (grad n x p.1.dN.e) i := by
    intro p h
    obtain ⟨⟨a1, a2, -⟩, a3⟩ := hp p h
    obtain ⟨B, h1, h2, h3, h4⟩ := formB_ok d hd p.1.dN (by omega)
    rw [a3] at h1
    simp only [Res.ok.injEq] at h1
    subst h1
    rw [a1] at h3 h4
    exact ⟨h2, h3, h4⟩
  have hK := stiffness_dim (d * n) (pts.map fun p => (p.2, C, p.1.w))
  have hpi : Piola d n pts (fun p => p.1) (fun _ => symT d false s) ⟨d * n, fun k => -(stiffness (d * n) (pts.map fun p => (p.2, C, p.1.w))).mulV (dofVec d u) k⟩ := by
    refine ⟨rfl, fun x => ?_⟩
    have e : (⟨d * n, fun k => -(stiffness (d * n) (pts.map fun p => (p.2, C, p.1.w))).mulV (dofVec d u) k⟩ : DVec ℝ).dot (dofVec d x) = -(stiffness (d * n) (pts.map fun p => (p.2, C, p.1.w))).bil (dofVec d x) (dofVec d u) := by
      unfold DVec.dot DMat.bil DMat.mulV
      rw [hK.1, ← Finset.sum_neg_distrib]
      refine Finset.sum_congr rfl fun i _ => ?_
      simp only [mul_neg, Finset.mul_sum, mul_assoc]
    rw [e, stiffness_bil (d * n) _ (fun q hq => by
      obtain ⟨p, h, rfl⟩ := List.mem_map.mp hq
      exact ⟨(hB p h).2.1, ⟨hC.1.trans (hB p h).1.symm, hC.2.1.trans (hB p h).1.symm⟩, hC.2.2⟩), List.map_map]
    congr 2
    refine List.map_congr_left fun p h => ?_
    obtain ⟨b1, b2, b3⟩ := hB p h
    simp only [Function.comp_apply]
    congr 1
    rw [b1, ← eng_work d hd]
    refine Finset.sum_congr rfl fun k hk => ?_
    have hk := Finset.mem_range.mp hk
    rw [hs, Finset.mul_sum]
    refine Finset.sum_congr rfl fun l hl => ?_
    have hl := Finset.mem_range.mp hl
    rw [b3 x (k + 1) (by omega) (by omega), b3 u (l + 1) (by omega) (by omega), engineering_congr d hd _ G (fun i j hi hj => affine_grad d n X u G hu p.1 (hp p h).1 i j hi hj) (l + 1) (by omega) (by omega)]
    ring
  exact uniform_of_piola d n pts _ _ _ _ hpi fun _ _ _ _ _ _ => rfl

/-! ### Finite deformations -/

/-- **C128**, total Lagrangian elements: a uniform deformation gives the nodal forces of the stress `F S`, with the second Piola-Kirchhoff stresses `S` of the material. -/
theorem C128_total (d : Nat) (hd : d = 2 ∨ d = 3) (n : Nat) (hn : 0 < n) (tol epsR : ℝ) (pts : List (FPt ℝ × Mat ℝ)) (X u G : Nat → Nat → ℝ) (hu : Affine d n X u G) (C : DMat ℝ) (S : Nat → ℝ) (hC : C.nc = d * (d + 1) / 2)
    (hG : ∃ i, 1 ≤ i ∧ i ≤ d * (d + 1) / 2 ∧ tol < |engineering d (green d G) i|) (hp : ∀ p ∈ pts, Iso d n X p.1 ∧ p.2 (gradF d G) (engineering d (green d G)) = .ok (C, S)) :
    ∃ A f, tlElement d false tol epsR ⟨d * n, dofVec d u⟩ pts (DMat.zero (d * n) (d * n), DVec.zero (d * n)) = .ok (A, f) ∧
      UniformForces d n (pts.map fun p => p.1) (fun i r => ∑ q ∈ Finset.range d, gradF d G i (q + 1) * symT d false S (q + 1) r) f.e := by
  obtain ⟨A, f, e1, -, -, e4, -⟩ := tl_element d hd n hn tol epsR pts u (fun _ => C) (fun _ => S) fun p h => ⟨(hp p h).1.1, (hp p h).1.2.1, by
    rw [affine_F d n X u G hu p.1 (hp p h).1, affine_green d hd n X u G hu p.1 (hp p h).1]; exact (hp p h).2, hC⟩
  refine ⟨A, f, e1, uniform_of_piola d n pts _ _ _ f e4 fun p h i r _ _ => ?_⟩
  have hz : ¬ zeroStrain tol (d * (d + 1) / 2) (greenV d (grad n u p.1.dN.e)) = true := by
    rw [← strn_iff]
    unfold Strn
    rw [affine_green d hd n X u G hu p.1 (hp p h).1]
    exact hG
  simp only [tlP, if_neg hz, affine_F d n X u G hu p.1 (hp p h).1]
  rfl

/-- **C128**, updated Lagrangian elements: a uniform deformation gives the nodal forces of the stresses which belong to the Cauchy stresses of the material. -/
theorem C128_updated (d : Nat) (hd : d = 2 ∨ d = 3) (n : Nat) (hn : 0 < n) (tol epsR : ℝ) (pts : List (FPt ℝ × Mat ℝ)) (X u G P : Nat → Nat → ℝ) (hu : Affine d n X u G) (C : DMat ℝ) (s : Nat → ℝ)
    (hG : ∃ i, 1 ≤ i ∧ i ≤ d * (d + 1) / 2 ∧ tol < |engineering d (green d G) i|) (hJ : (Matrix.of fun k l : Fin d => gradF d G (k + 1) (l + 1)).det ≠ 0)
    (hp : ∀ p ∈ pts, Iso d n X p.1 ∧ p.2 (gradF d G) (engineering d (green d G)) = .ok (C, s)) (hP : Nominal d G (symT d false s) P) :
    ∃ A f, ulElement d false tol epsR ⟨d * n, dofVec d u⟩ pts (DMat.zero (d * n) (d * n), DVec.zero (d * n)) = .ok (A, f) ∧ UniformForces d n (pts.map fun p => p.1) P f.e := by
  have hJ : ratio d G ≠ 0 := hJ
  obtain ⟨A, f, e1, e4⟩ := ul_element d hd n hn tol epsR pts u (fun _ => C) (fun _ => s) fun p h => ⟨(hp p h).1.1, (hp p h).1.2.1, by rw [affine_ratio d n X u G hu p.1 (hp p h).1]; exact hJ, by
    rw [affine_F d n X u G hu p.1 (hp p h).1, affine_green d hd n X u G hu p.1 (hp p h).1]; exact (hp p h).2⟩
  refine ⟨A, f, e1, uniform_of_piola d n pts _ _ _ f e4 fun p h i r hi hr => ?_⟩
  have hz : ¬ zeroStrain tol (d * (d + 1) / 2) (greenV d (grad n u p.1.dN.e)) = true := by
    rw [← strn_iff]
    unfold Strn
    rw [affine_green d hd n X u G hu p.1 (hp p h).1]
    exact hG
  rw [nominal_unique d G _ P (spP d G s) hJ hP (spP_nominal d G hJ s) i r hi hr]
  simp only [ulP, if_neg hz, spP, affine_F d n X u G hu p.1 (hp p h).1, affine_ratio d n X u G hu p.1 (hp p h).1]

/-- A sum of equal volume ratios with factors of sum one. -/
theorem meanRatio_const (Js Nb : List ℝ) (J : ℝ) (hl : Nb.length = Js.length) (h : ∀ a ∈ Js, a = J) (hN : 2 ≤ Js.length → Nb.sum = 1) : meanRatio Js Nb J = J := by
  match Js, hl, h, hN with
  | [], _, _, _ => rfl
  | [a], _, h, _ => exact h a (by simp)
  | a :: b :: l, hl, h, hN =>
    show (((a :: b :: l).zip Nb).map fun x => x.1 * x.2).sum = J
    have key : ∀ (Js Nb : List ℝ), Nb.length = Js.length → (∀ a ∈ Js, a = J) → ((Js.zip Nb).map fun x => x.1 * x.2).sum = J * Nb.sum := by
      intro Js
      induction Js with
      | nil => intro Nb hl _; rw [List.length_eq_zero_iff.mp hl]; simp
      | cons a l ih =>
        intro Nb hl h
        obtain ⟨m, Nb, rfl⟩ := List.exists_cons_of_length_eq_add_one hl
        simp only [List.zip_cons_cons, List.map_cons, List.sum_cons]
        rw [ih Nb (by simpa using hl) (fun a ha => h a (by simp [ha])), h a (by simp)]
        ring
    rw [key _ _ hl h, hN (by simp), mul_one]

/-- **C128**, F-bar elements: for all sampling points and all polynomials with sum one, a uniform deformation gives the nodal forces of the stresses which belong to the Cauchy stresses of the material. -/
theorem C128_fbar (d : Nat) (hd : d = 2 ∨ d = 3) (n : Nat) (hn : 0 < n) (tol epsR : ℝ) (smp : List (FPt ℝ)) (pts : List (FPt ℝ × Mat ℝ × List ℝ)) (X u G P : Nat → Nat → ℝ) (hu : Affine d n X u G)
    (c : (Nat → Nat → ℝ) → DMat ℝ) (sig : (Nat → Nat → ℝ) → Nat → ℝ) (hG : ∃ i, 1 ≤ i ∧ i ≤ d * (d + 1) / 2 ∧ tol < |engineering d (green d G) i|) (hJ : (Matrix.of fun k l : Fin d => gradF d G (k + 1) (l + 1)).det ≠ 0)
    (hsmp : ∀ q ∈ smp, Iso d n X q) (hp : ∀ p ∈ pts, Iso d n X p.1 ∧ (∀ F E, (Matrix.of fun k l : Fin d => F (k + 1) (l + 1)).det ≠ 0 → p.2.1 F E = .ok (c F, sig F)) ∧ p.2.2.length = smp.length ∧ (2 ≤ smp.length → p.2.2.sum = 1))
    (hP : Nominal d G (symT d false (sig (gradF d G))) P) :
    ∃ A f, fbarElement d false tol epsR smp ⟨d * n, dofVec d u⟩ pts (DMat.zero (d * n) (d * n), DVec.zero (d * n)) = .ok (A, f) ∧ UniformForces d n (pts.map fun p => p.1) P f.e := by
  have hJ : ratio d G ≠ 0 := hJ
  have hm : ∀ p ∈ pts, meanRatio (smp.map fun s => ratio d (grad n u s.dN.e)) p.2.2 (ratio d (grad n u p.1.dN.e)) = ratio d G := by
    intro p h
    rw [affine_ratio d n X u G hu p.1 (hp p h).1]
    refine meanRatio_const _ _ _ (by rw [List.length_map]; exact (hp p h).2.2.1) (fun a ha => ?_) (by rw [List.length_map]; exact (hp p h).2.2.2)
    obtain ⟨q, hq, rfl⟩ := List.mem_map.mp ha
    exact affine_ratio d n X u G hu q (hsmp q hq)
  have hS : ∀ p, Iso d n X p → Strn d n tol u p := by
    intro p h
    unfold Strn
    rw [affine_green d hd n X u G hu p h]
    exact hG
  have ho : FbOk d n tol X smp pts u := by
    refine ⟨fun q hq => ⟨hsmp q hq, hS q (hsmp q hq), by rw [affine_ratio d n X u G hu q (hsmp q hq)]; exact hJ⟩, fun p h => ⟨(hp p h).1, (hp p h).2.2.1, hS p.1 (hp p h).1, by rw [affine_ratio d n X u G hu p.1 (hp p h).1]; exact hJ, by rw [hm p h]; exact hJ⟩⟩
  obtain ⟨A, f, e1, e4⟩ := fb_element d hd n hn tol epsR X smp pts u ho (fun _ => c) (fun _ => sig) fun p h F E hF => (hp p h).2.1 F E hF
  refine ⟨A, f, e1, uniform_of_piola d n pts _ _ _ f e4 fun p h i r hi hr => ?_⟩
  rw [nominal_unique d G _ P (spP d G (sig (gradF d G))) hJ hP (spP_nominal d G hJ _) i r hi hr]
  have hF : barF d n smp u p.1 p.2.2 = gradF d G := by
    funext i j
    unfold barF
    rw [hm p h, gradF_defF, ← C113_uniform d G hJ i j]
    unfold scaledF
    rw [affine_F d n X u G hu p.1 (hp p h).1, affine_ratio d n X u G hu p.1 (hp p h).1]
  simp only [hF, spP, affine_F d n X u G hu p.1 (hp p h).1, affine_ratio d n X u G hu p.1 (hp p h).1]

/-! ### Mixed elements -/

theorem det_space (d : Nat) (hd : d = 2 ∨ d = 3) (H : Nat → Nat → ℝ) : (lead 3 (defF d H)).det = ratio d H := by
  rcases hd with rfl | rfl
  · unfold ratio
    rw [Matrix.det_fin_three, Matrix.det_fin_two]
    simp [lead, defF]
  · rfl

theorem cauP_nominal (d : Nat) (hd : d = 2 ∨ d = 3) (G T : Nat → Nat → ℝ) (hJ : ratio d G ≠ 0) : Nominal d G T (cauP (ratio d G) (defF d G) T) := by
  have hu : IsUnit (lead 3 (defF d G)).det := isUnit_iff_ne_zero.mpr (by rw [det_space d hd]; exact hJ)
  have e : lead 3 (cauP (ratio d G) (defF d G) T) * (lead 3 (defF d G)).transpose = ratio d G • lead 3 T := by
    rw [cauP_lead, Matrix.smul_mul, Matrix.mul_assoc, ← Matrix.transpose_mul, Matrix.mul_nonsing_inv _ hu, Matrix.transpose_one, Matrix.mul_one]
  intro a b ha hb
  have h3 : ∑ r ∈ Finset.range 3, cauP (ratio d G) (defF d G) T (a + 1) (r + 1) * defF d G (b + 1) (r + 1) = ratio d G * T (a + 1) (b + 1) := by
    rw [sum_leadT 3 (cauP (ratio d G) (defF d G) T) (defF d G) ⟨a, by omega⟩ ⟨b, by omega⟩, e]
    rfl
  rw [gradF_defF]
  rcases hd with rfl | rfl
  · rw [Finset.sum_range_succ, defF_out 2 G (b + 1) (2 + 1) (by omega), if_neg (by omega), mul_zero, add_zero] at h3
    exact h3
  · exact h3

theorem mprj_const (axi : Bool) (pts : List (MPt nPM)) (c : ℝ) (p : MPt nPM) : mprj axi pts (fun _ => c) p = c * mprj axi pts (fun _ => 1) p := by
  unfold mprj
  rw [Finset.mul_sum]
  refine Finset.sum_congr rfl fun i _ => ?_
  rw [← mul_assoc, Finset.mul_sum]
  congr 1
  refine Finset.sum_congr rfl fun j _ => ?_
  rw [mul_left_comm, ← sum_mul_right pts (fun q => q.phi j * 1 * mwt axi q) c]
  refine congrArg (fun l : List ℝ => (modeMat axi pts)⁻¹ i j * l.sum) (List.map_congr_left fun q _ => ?_)
  ring

theorem shifted_zero (s : Nat → ℝ) (c : ℝ) (hc : c = 0) : shifted s c = symT 3 false s := by
  funext i j
  unfold shifted
  rw [hc]
  simp

theorem scale_one (x : ℝ) (h : x ≠ 0) (F : Nat → Nat → ℝ) : (fun i j => |x / x| ^ ((1 : ℝ) / 3) * F i j) = F := by
  funext i j
  rw [div_self h, abs_one, Real.one_rpow, one_mul]

/-- **C128**, elements with pressure modes: for all numbers of modes, a uniform deformation gives the nodal forces of the stresses which belong to the Cauchy stresses of the material. -/
theorem C128_modes (d : Nat) (n : Nat) (tol epsR : ℝ) (pts : List (MPt nPM)) (eP : DVec ℝ) (hE : MxOk d false n epsR pts eP) (X u G P : Nat → Nat → ℝ) (hX : ∀ p ∈ pts, Iso d n X p.pt) (hu : Affine d n X u G)
    (c : (Nat → Nat → ℝ) → DMat ℝ) (sig : (Nat → Nat → ℝ) → Nat → ℝ) (hmat : ∀ p ∈ pts, ∀ F E, (Matrix.of fun k l : Fin 3 => F (k + 1) (l + 1)).det ≠ 0 → p.mat F E = .ok (c F, sig F))
    (hJ : (Matrix.of fun k l : Fin d => gradF d G (k + 1) (l + 1)).det ≠ 0) (hs : (∀ i, 1 ≤ i → i ≤ 6 → |sig (gradF d G) i| ≤ tol) → ∀ i, 1 ≤ i → i ≤ 6 → sig (gradF d G) i = 0)
    (hP : Nominal d G (symT 3 false (sig (gradF d G))) P) :
    ∃ (A : DMat ℝ) (f : DVec ℝ), mxElement d false tol epsR ⟨d * n, dofVec d u⟩ eP pts (DMat.zero (d * n) (d * n), DVec.zero (d * n)) = .ok (A, f) ∧ UniformForces d n (pts.map fun p => p.pt) P f.e := by
  have hd : d = 2 ∨ d = 3 := hE.dim.imp_right And.left
  have hJ : ratio d G ≠ 0 := hJ
  have kF : ∀ p ∈ pts, mxF d false n p u = defF d G := fun p hp => by rw [mxF_defF, affine_F d n X u G hu p.pt (hX p hp)]
  have kJ : ∀ p ∈ pts, mxJ d false n p u = ratio d G := fun p hp => by unfold mxJ; rw [kF p hp, det_space d hd]
  have kT : ∀ p ∈ pts, mTh d false n pts u p = ratio d G := by
    intro p hp
    unfold mTh
    rw [mprj_congr false pts _ (fun _ => ratio d G) kJ, mprj_const, mprj_one false pts hE.modes hE.constant hE.independent p hp, mul_one]
  have kS : ∀ p ∈ pts, mS d false n pts (fun _ => sig) u p = sig (gradF d G) := by
    intro p hp
    unfold mS
    refine congrArg sig ?_
    funext i j
    unfold mFb
    rw [kT p hp, kJ p hp, kF p hp]
    exact congrFun (congrFun (scale_one _ hJ (defF d G)) i) j
  have kP : ∀ p ∈ pts, mP d false n pts (fun _ => sig) u p - mQ d false n pts (fun _ => sig) u p = 0 := by
    intro p hp
    have kq : ∀ p ∈ pts, mQ d false n pts (fun _ => sig) u p = (sig (gradF d G) 1 + sig (gradF d G) 2 + sig (gradF d G) 3) / 3 := fun p hp => by unfold mQ; rw [kS p hp]
    unfold mP mPr
    rw [kT p hp, kJ p hp, mul_div_assoc, div_self hJ, mul_one, kq p hp, mprj_congr false pts _ (fun _ => (sig (gradF d G) 1 + sig (gradF d G) 2 + sig (gradF d G) 3) / 3) kq, mprj_const,
      mprj_one false pts hE.modes hE.constant hE.independent p hp, mul_one, sub_self]
  obtain ⟨A, f, e1, e2⟩ := mx_piola d n tol epsR pts eP hE (fun _ => sig) (fun _ => c) hmat u (fun p hp => by rw [kJ p hp]; exact hJ) (fun p hp => by rw [kT p hp]; exact hJ) fun p hp => by rw [kS p hp]; exact hs
  refine ⟨A, f, e1, uniform_of_piola d n pts _ _ _ f e2 fun p hp i r hi hr => ?_⟩
  rw [nominal_unique d G _ P _ hJ hP (cauP_nominal d hd G _ hJ) i r hi hr]
  rw [kT p hp, kF p hp, kS p hp, shifted_zero _ _ (kP p hp)]

/-- **C128**, elements with three fields: a uniform deformation with its volume change and the mean stress of the material gives the nodal forces of the stresses which belong to the Cauchy stresses of the material, and solves
the equations of volume change and pressure. -/
theorem C128_fields (d n m : Nat) (tol epsR : ℝ) (pts : List TPt) (hE : TrOk d false n m epsR pts) (X u G P : Nat → Nat → ℝ) (hX : ∀ p ∈ pts, Iso d n X p.pt) (hu : Affine d n X u G)
    (c : (Nat → Nat → ℝ) → DMat ℝ) (sig : (Nat → Nat → ℝ) → Nat → ℝ) (hmat : ∀ p ∈ pts, ∀ F E, (Matrix.of fun k l : Fin 3 => F (k + 1) (l + 1)).det ≠ 0 → p.mat F E = .ok (c F, sig F))
    (hG : ∃ i, 1 ≤ i ∧ i ≤ d * (d + 1) / 2 ∧ tol < |engineering d (green d G) i|) (hJ : (Matrix.of fun k l : Fin d => gradF d G (k + 1) (l + 1)).det ≠ 0) (th pr : Nat → ℝ)
    (hth : ∀ p ∈ pts, ∑ b ∈ Finset.range m, p.N2.e (b + 1) * th (b + 1) = (Matrix.of fun k l : Fin d => gradF d G (k + 1) (l + 1)).det - 1)
    (hpr : ∀ p ∈ pts, ∑ b ∈ Finset.range m, p.N2.e (b + 1) * pr (b + 1) = (sig (gradF d G) 1 + sig (gradF d G) 2 + sig (gradF d G) 3) / 3)
    (hP : Nominal d G (symT 3 false (sig (gradF d G))) P) :
    ∃ (A : DMat ℝ) (f : DVec ℝ), tElement d false tol epsR n m ⟨d * n, dofVec d u⟩ ⟨m, th⟩ ⟨m, pr⟩ pts = .ok (A, f) ∧ UniformForces d n (pts.map fun p => p.pt) P f.e ∧ ∀ k, d * n < k → k ≤ d * n + 2 * m → f.e k = 0 := by
  have hd : d = 2 ∨ d = 3 := hE.dim.imp_right And.left
  have hJ : ratio d G ≠ 0 := hJ
  have hth : ∀ p ∈ pts, 1 + ∑ b ∈ Finset.range m, p.N2.e (b + 1) * th (b + 1) = ratio d G := fun p hp => by rw [hth p hp]; show 1 + (ratio d G - 1) = _; ring
  have kF : ∀ p ∈ pts, mxF d false n (tq p) u = defF d G := fun p hp => by rw [mxF_defF]; exact affine_F d n X u G hu p.pt (hX p hp)
  have kJ : ∀ p ∈ pts, mxJ d false n (tq p) u = ratio d G := fun p hp => by unfold mxJ; rw [kF p hp, det_space d hd]
  have hS : ∀ p ∈ pts, Strained d false n m tol epsR p u th := fun p hp => by
    refine ⟨fun h => absurd h (by decide), by rw [kJ p hp]; exact hJ, by rw [hth p hp]; exact hJ, ?_⟩
    rw [affine_green d hd n X u G hu p.pt (hX p hp)]
    exact hG
  obtain ⟨A, f, e1, e2, e3, e4⟩ := tr_piola d n m tol epsR pts hE (fun _ => sig) (fun _ => c) hmat u th pr hS _ _ _ (fun _ => rfl) (fun _ => rfl) fun _ => rfl
  have kS : ∀ p ∈ pts, (sig fun i j => |(1 + ∑ b ∈ Finset.range m, p.N2.e (b + 1) * th (b + 1)) / mxJ d false n (tq p) u| ^ ((1 : ℝ) / 3) * mxF d false n (tq p) u i j) = sig (gradF d G) := fun p hp => by
    rw [hth p hp, kJ p hp, kF p hp, scale_one _ hJ]
    rfl
  refine ⟨A, f, e1, ?_, fun k h1 h2 => ?_⟩
  · refine uniform_of_piola d n pts _ _ _ ⟨d * n, f.e⟩ e3 fun p hp i r hi hr => ?_
    rw [nominal_unique d G _ P _ hJ hP (cauP_nominal d hd G _ hJ) i r hi hr]
    rw [kS p hp, hth p hp, kJ p hp, kF p hp, hpr p hp, shifted_zero _ _ (by rw [mul_div_assoc, div_self hJ, mul_one, sub_self])]
  · rw [← coupled_entry (d * n) m f e2 k h1 h2, e4, neg_eq_zero]
    refine List.sum_eq_zero fun y hy => ?_
    obtain ⟨p, hp, rfl⟩ := List.mem_map.mp hy
    rw [kS p hp, hth p hp, kJ p hp, hpr p hp]
    ring

/-! ### Consequences -/

/-- **C128**, patch test: in a uniform deformation no force acts on a node whose basis function has a vanishing integral of its gradient, as that of an inner node. -/
theorem C128_inner (d n : Nat) (pts : List (FPt ℝ)) (P : Nat → Nat → ℝ) (f : Nat → ℝ) (hf : UniformForces d n pts P f) (a : Nat) (ha : a < n) (hin : ∀ r, r < d → (pts.map fun p => p.w * p.dN.e (a + 1) (r + 1)).sum = 0)
    (i : Nat) (hi : i < d) : f (d * a + i + 1) = 0 := by
  rw [hf a i ha hi, neg_eq_zero]
  exact Finset.sum_eq_zero fun r hr => by rw [hin r (Finset.mem_range.mp hr), mul_zero]

/-- **C128**: the stresses `P` of given Cauchy stresses exist and are unique, so that all formulations with the same Cauchy stresses have the same nodal forces. -/
theorem C128_agree (d n : Nat) (pts : List (FPt ℝ)) (G T P P' : Nat → Nat → ℝ) (f f' : Nat → ℝ) (hJ : (Matrix.of fun k l : Fin d => gradF d G (k + 1) (l + 1)).det ≠ 0) (hP : Nominal d G T P) (hP' : Nominal d G T P')
    (hf : UniformForces d n pts P f) (hf' : UniformForces d n pts P' f') (k : Nat) (h1 : 1 ≤ k) (hk : k ≤ d * n) : f k = f' k := by
  have hd : 0 < d := by rcases Nat.eq_zero_or_pos d with rfl | h; · omega
                        · exact h
  have e : k = d * ((k - 1) / d) + (k - 1) % d + 1 := by have := Nat.div_add_mod (k - 1) d; omega
  have ha : (k - 1) / d < n := Nat.div_lt_of_lt_mul (by omega)
  have hi := Nat.mod_lt (k - 1) hd
  rw [e, hf _ _ ha hi, hf' _ _ ha hi]
  congr 1
  exact Finset.sum_congr rfl fun r hr => by rw [nominal_unique d G T P P' hJ hP hP' _ r hi (Finset.mem_range.mp hr)]

/-! ### Examples -/

/-- The gradient of the stretched triangle. -/
def elong (i j : Nat) : ℝ := if i = 1 ∧ j = 1 then 1 else 0

theorem stretch_affine : Affine 2 3 corner (stretch 1) elong := by
  refine ⟨fun _ => 0, fun a i ha hi => ?_⟩
  interval_cases a <;> interval_cases i <;> simp [corner, stretch, elong, Finset.sum_range_succ]

theorem elong_strain : ∃ i, 1 ≤ i ∧ i ≤ 2 * (2 + 1) / 2 ∧ (1 / 10 : ℝ) < |engineering 2 (green 2 elong) i| := by
  refine ⟨1, le_refl _, by norm_num, ?_⟩
  simp [engineering, eng2, green, elong, Finset.sum_range_succ]
  norm_num [abs_of_pos]

theorem elong_det : (Matrix.of fun k l : Fin 2 => gradF 2 elong (k + 1) (l + 1)).det = 2 := by
  rw [Matrix.det_fin_two]
  simp [gradF, elong]
  norm_num

/-- The stresses `P` for the Cauchy stresses `T` of the stretched triangle. -/
noncomputable def elongP (T : Nat → Nat → ℝ) (i r : Nat) : ℝ := if r = 1 then T i 1 else 2 * T i r

theorem elong_nominal (T : Nat → Nat → ℝ) : Nominal 2 elong T (elongP T) := by
  intro i j hi hj
  rw [elong_det]
  interval_cases i <;> interval_cases j <;> simp [Finset.sum_range_succ, elongP, gradF, elong] <;> ring

example : ∃ A f, tlElement 2 false (1 / 10) 0 ⟨2 * 3, dofVec 2 (stretch 1)⟩ [(triangle, linOp plane1 1)] (DMat.zero (2 * 3) (2 * 3), DVec.zero (2 * 3)) = .ok (A, f) ∧
    UniformForces 2 3 [triangle] (fun i r => ∑ q ∈ Finset.range 2, gradF 2 elong i (q + 1) * symT 2 false (fun k => ∑ l ∈ Finset.range 3, plane1.e k (l + 1) * engineering 2 (green 2 elong) (l + 1)) (q + 1) r) f.e :=
  C128_total 2 (.inl rfl) 3 (by omega) (1 / 10) 0 _ corner _ elong stretch_affine plane1 _ rfl elong_strain fun p hp => by
    obtain rfl := List.mem_singleton.mp hp
    exact ⟨triangle_iso, rfl⟩

example : ∃ (A : DMat ℝ) (f : DVec ℝ), mxElement 2 false 0 0 ⟨2 * 3, dofVec 2 (stretch 1)⟩ (DVec.zero 0) [ring3 1 1] (DMat.zero (2 * 3) (2 * 3), DVec.zero (2 * 3)) = .ok (A, f) ∧
    UniformForces 2 3 [triangle] (elongP (symT 3 false (neo3 1 1 (gradF 2 elong)))) f.e :=
  C128_modes 2 3 0 0 [ring3 1 1] _ ring3_mx corner _ elong _ (fun p hp => by obtain rfl := List.mem_singleton.mp hp; exact triangle_iso) stretch_affine (neoC 1 1) (neo3 1 1)
    (fun p hp => by obtain rfl := List.mem_singleton.mp hp; exact fun _ _ _ => rfl) (by rw [elong_det]; norm_num) (fun h i h1 h6 => abs_nonpos_iff.mp (h i h1 h6)) (elong_nominal _)

example : ∃ (A : DMat ℝ) (f : DVec ℝ), tElement 2 false (1 / 10) 0 3 1 ⟨2 * 3, dofVec 2 (stretch 1)⟩ ⟨1, fun _ => 1⟩ ⟨1, fun _ => (neo3 1 1 (gradF 2 elong) 1 + neo3 1 1 (gradF 2 elong) 2 + neo3 1 1 (gradF 2 elong) 3) / 3⟩ [tri1 1 1] = .ok (A, f) ∧
    UniformForces 2 3 [triangle] (elongP (symT 3 false (neo3 1 1 (gradF 2 elong)))) f.e ∧ ∀ k, 2 * 3 < k → k ≤ 2 * 3 + 2 * 1 → f.e k = 0 :=
  C128_fields 2 3 1 (1 / 10) 0 [tri1 1 1] (tri1_ok 1 1 0 one_pos false) corner _ elong _ (fun p hp => by obtain rfl := List.mem_singleton.mp hp; exact triangle_iso) stretch_affine (neoC 1 1) (neo3 1 1)
    (fun p hp => by obtain rfl := List.mem_singleton.mp hp; exact fun _ _ _ => rfl) elong_strain (by rw [elong_det]; norm_num) _ _ (fun p hp => by obtain rfl := List.mem_singleton.mp hp; rw [elong_det]; simp [tri1]; norm_num)
    (fun p hp => by obtain rfl := List.mem_singleton.mp hp; simp [tri1]) (elong_nominal _)

example : ∃ A f, ulElement 2 false (1 / 10) 0 ⟨2 * 3, dofVec 2 (stretch 1)⟩ [(triangle, fun F _ => .ok (hookeC 1 F, hooke2 1 F))] (DMat.zero (2 * 3) (2 * 3), DVec.zero (2 * 3)) = .ok (A, f) ∧
    UniformForces 2 3 [triangle] (elongP (symT 2 false (hooke2 1 (gradF 2 elong)))) f.e :=
  C128_updated 2 (.inl rfl) 3 (by omega) (1 / 10) 0 _ corner _ elong _ stretch_affine _ _ elong_strain (by rw [elong_det]; norm_num)
    (fun p hp => by obtain rfl := List.mem_singleton.mp hp; exact ⟨triangle_iso, rfl⟩) (elong_nominal _)

/-- Two sampling points, with polynomials whose sum is one. -/
example : ∃ A f, fbarElement 2 false (1 / 10) 0 [triangle, triangle] ⟨2 * 3, dofVec 2 (stretch 1)⟩ [(triangle, (fun F _ => .ok (hookeC 1 F, hooke2 1 F)), [-1, 2])] (DMat.zero (2 * 3) (2 * 3), DVec.zero (2 * 3)) = .ok (A, f) ∧
    UniformForces 2 3 [triangle] (elongP (symT 2 false (hooke2 1 (gradF 2 elong)))) f.e :=
  C128_fbar 2 (.inl rfl) 3 (by omega) (1 / 10) 0 _ _ corner _ elong _ stretch_affine (hookeC 1) (hooke2 1) elong_strain (by rw [elong_det]; norm_num)
    (fun p hp => by simp only [List.mem_cons, List.not_mem_nil, or_false, or_self] at hp; subst hp; exact triangle_iso)
    (fun p hp => by obtain rfl := List.mem_singleton.mp hp; exact ⟨triangle_iso, fun _ _ _ => rfl, rfl, fun _ => by norm_num⟩) (elong_nominal _)

/-- The linear triangle. -/
example : ∃ B, formB 2 triangle.dN = .ok B ∧ UniformForces 2 3 [triangle] (symT 2 false fun k => ∑ l ∈ Finset.range 3, plane1.e k (l + 1) * engineering 2 elong (l + 1))
    fun k => -(stiffness (2 * 3) [(B, plane1, triangle.w)]).mulV (dofVec 2 (stretch 1)) k := by
  obtain ⟨B, hB, -⟩ := formB_ok 2 (.inl rfl) triangle.dN (le_refl 2)
  exact ⟨B, hB, C128_linear 2 (.inl rfl) 3 [(triangle, B)] corner _ elong stretch_affine plane1 plane1_sym (fun p hp => by obtain rfl := List.mem_singleton.mp hp; exact ⟨triangle_iso, hB⟩) _ fun _ => rfl⟩

/-- Two triangles, as one element with two points, and a node between them: the gradients of its basis function cancel. -/
example : ∀ r, r < 2 → ([(⟨⟨1, fun _ => 0⟩, ⟨1, 2, fun _ _ => 1⟩, 1, 1⟩ : FPt ℝ), ⟨⟨1, fun _ => 0⟩, ⟨1, 2, fun _ _ => -1⟩, 1, 1⟩].map fun p => p.w * p.dN.e (0 + 1) (r + 1)).sum = 0 := by
  intro r _
  simp

end Verif.Finite
