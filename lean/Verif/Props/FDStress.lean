/-
Property C121: the stresses reported in a large deformation analysis are those that balance the loads: the internal forces of an element do the virtual work of the reported (Cauchy) stresses, integrated over the deformed
element. Model: Model/FDStress.lean and the element models Model/FDTangent.lean, Model/FbarElem.lean.
-/
import Verif.Model.FDStress
import Verif.Props.FDTangent
import Verif.Props.FbarElem
import Verif.Props.SolidFields

namespace Verif.Finite

open Verif.Cont Verif.ContSpec Verif.FiniteSpec Verif.Fbar Filter Topology

/-! ### Lemmas -/

theorem stressAt_ok (d : Nat) (hd : d = 2 ∨ d = 3) (n : Nat) (hn : 0 < n) (epsR : ℝ) (m : OpMat ℝ) (p : FPt ℝ) (hr : p.dN.nr = n) (hc : p.dN.nc = d) (u : Nat → Nat → ℝ) (c : DMat ℝ) (s : Nat → ℝ)
    (hm : m 1 (defF d (grad n u p.dN.e)) (greenV d (grad n u p.dN.e)) = .ok (c, s)) : stressAt d epsR m ⟨d * n, dofVec d u⟩ p = .ok s := by
  subst hr
  unfold stressAt
  rw [if_neg (by simp), kinUL_ok d hd p epsR hn hc u]
  simp only [Res.bind]
  rw [hm]

theorem stressAt_inv (d : Nat) (hd : d = 2 ∨ d = 3) (n : Nat) (hn : 0 < n) (epsR : ℝ) (m : OpMat ℝ) (p : FPt ℝ) (hr : p.dN.nr = n) (hc : p.dN.nc = d) (u : Nat → Nat → ℝ) (s : Nat → ℝ)
    (h : stressAt d epsR m ⟨d * n, dofVec d u⟩ p = .ok s) : ∃ c, m 1 (defF d (grad n u p.dN.e)) (greenV d (grad n u p.dN.e)) = .ok (c, s) := by
  subst hr
  unfold stressAt at h
  rw [if_neg (by simp), kinUL_ok d hd p epsR hn hc u] at h
  simp only [Res.bind] at h
  cases hm : m 1 (defF d (grad p.dN.nr u p.dN.e)) (greenV d (grad p.dN.nr u p.dN.e)) with
  | ok cs => rw [hm] at h; simp only [Res.ok.injEq] at h; exact ⟨cs.1, by rw [← h]⟩
  | fail => rw [hm] at h; cases h
  | ub => rw [hm] at h; cases h

/-- The geometric data of an integration point are those of the element. -/
def Fits (d n : Nat) (p : FPt ℝ) : Prop := p.dN.nr = n ∧ p.dN.nc = d

/-- A point that is strained. -/
def Strn (d n : Nat) (tol : ℝ) (u : Nat → Nat → ℝ) (p : FPt ℝ) : Prop := ∃ i, 1 ≤ i ∧ i ≤ d * (d + 1) / 2 ∧ tol < |greenV d (grad n u p.dN.e) i|

theorem strn_iff (d n : Nat) (tol : ℝ) (u : Nat → Nat → ℝ) (p : FPt ℝ) : Strn d n tol u p ↔ ¬ zeroStrain tol (d * (d + 1) / 2) (greenV d (grad n u p.dN.e)) = true := by
  rw [zeroStrain_iff]
  unfold Strn
  push Not
  rfl

/-- The updated Lagrangian element at a point. -/
theorem ul_stress (d : Nat) (hd : d = 2 ∨ d = 3) (n : Nat) (hn : 0 < n) (tol epsR : ℝ) (p : FPt ℝ) (mat : Mat ℝ) (hp : Fits d n p) (u : Nat → Nat → ℝ) (c : DMat ℝ) (s : Nat → ℝ)
    (hm : mat (defF d (grad n u p.dN.e)) (greenV d (grad n u p.dN.e)) = .ok (c, s)) (hJ : ratio d (grad n u p.dN.e) ≠ 0) (hs : Strn d n tol u p ∨ ∀ i, s i = 0)
    (A : DMat ℝ) (b : DVec ℝ) (a1 : A.nr = d * n) (a2 : A.nc = d * n) (hb : b.n = d * n) :
    ∃ A' b', ulEval d false tol epsR mat ⟨d * n, dofVec d u⟩ p (A, b) = .ok (A', b') ∧ A'.nr = d * n ∧ A'.nc = d * n ∧ b'.n = d * n ∧
      ∀ x, b'.dot (dofVec d x) = b.dot (dofVec d x) - p.w * ratio d (grad n u p.dN.e) * ∑ i ∈ Finset.range d, ∑ j ∈ Finset.range d,
        symT d false s (i + 1) (j + 1) * grad n x (pushGrad d (defF d (grad n u p.dN.e)) p.dN).e (i + 1) (j + 1) := by
  obtain ⟨hr, hc⟩ := hp
  rw [strn_iff] at hs
  subst hr
  have hk := kinUL_ok d hd p epsR hn hc u
  generalize grad p.dN.nr u p.dN.e = H at hk hJ hm hs ⊢
  by_cases hz : zeroStrain tol (d * (d + 1) / 2) (greenV d H) = true
  · obtain ⟨B, hB, b1, b2, b3⟩ := formB_ok d hd p.dN (by omega)
    have h0 : ∀ i, s i = 0 := hs.resolve_left (fun h => h hz)
    refine ⟨addKm A B c p.w, b, ?_, a1, a2, hb, fun x => ?_⟩
    · simp only [ulEval, hk, Res.bind, ncomp, Bool.false_eq_true, if_false, hz, Bool.not_true, ulPoint, hB, hm]
    · have : ∀ i j, symT d false s i j = 0 := by intro i j; unfold symT; simp only [h0, ite_self]
      simp only [this, zero_mul, Finset.sum_const_zero, mul_zero, sub_zero]
  · obtain ⟨B, hB, b1, b2, b3⟩ := formB_ok d hd (pushGrad d (defF d H) p.dN) (le_of_eq rfl)
    have b2 : B.nc = d * p.dN.nr := b2
    have b3 : ∀ x i, 1 ≤ i → i ≤ d * (d + 1) / 2 → B.mulV (dofVec d x) i = engineering d (grad p.dN.nr x (pushGrad d (defF d H) p.dN).e) i := b3
    obtain ⟨A', hA, k1, k2, -⟩ := formKG_ok d false (addKm A B c (p.w * (lead d (defF d H)).det)) p.N (pushGrad d (defF d H) p.dN) 0 (symT d false s)
      (p.w * (lead d (defF d H)).det) (by rcases hd with h | h <;> omega) a1 a2
    refine ⟨A', addIntForce b B s (p.w * (lead d (defF d H)).det), ?_, k1.trans a1, k2.trans a2, hb, fun x => ?_⟩
    · have hJ' : (lead d (defF d H)).det ≠ 0 := hJ
      simp only [ulEval, hk, Res.bind, ncomp, Bool.false_eq_true, if_false, hz, Bool.not_false, if_true, ulPoint, hJ', hB, hm]
      rw [hA]
    · rw [addIntForce_dot _ _ _ _ (by rw [hb, b2]), b1]
      congr 1
      rw [Finset.sum_congr rfl fun k hk => by rw [b3 x (k + 1) (by omega) (by have := Finset.mem_range.mp hk; omega)]]
      rw [eng_work d hd]
      rfl

/-! ### Updated Lagrangian formulation -/

/-- **C121**, updated Lagrangian elements: for every material, the virtual work of the forces of an element is that of the stresses reported in its integration points, `Σ w J σ : ∇x`, where `∇x` is the gradient in the deformed
configuration. The points are strained, or their reported stresses vanish. -/
theorem C121_updated (d : Nat) (hd : d = 2 ∨ d = 3) (n : Nat) (hn : 0 < n) (tol epsR : ℝ) (pts : List (FPt ℝ × OpMat ℝ)) (u : Nat → Nat → ℝ) (s : FPt ℝ × OpMat ℝ → Nat → ℝ)
    (hp : ∀ p ∈ pts, Fits d n p.1 ∧ ratio d (grad n u p.1.dN.e) ≠ 0 ∧ stressAt d epsR p.2 ⟨d * n, dofVec d u⟩ p.1 = .ok (s p) ∧ (Strn d n tol u p.1 ∨ ∀ i, s p i = 0)) :
    ∃ A f, ulElement d false tol epsR ⟨d * n, dofVec d u⟩ (pts.map fun p => (p.1, ulOp p.2)) (DMat.zero (d * n) (d * n), DVec.zero (d * n)) = .ok (A, f) ∧
      ∀ (x : Nat → Nat → ℝ) (g : FPt ℝ → Nat → Nat → ℝ),
        (∀ p ∈ pts, ∀ i r, i < d → r < d → ∑ l ∈ Finset.range d, g p.1 (i + 1) (l + 1) * defF d (grad n u p.1.dN.e) (l + 1) (r + 1) = grad n x p.1.dN.e (i + 1) (r + 1)) →
        f.dot (dofVec d x) = -(pts.map fun p => p.1.w * ratio d (grad n u p.1.dN.e) * ∑ i ∈ Finset.range d, ∑ j ∈ Finset.range d,
          symT d false (s p) (i + 1) (j + 1) * g p.1 (i + 1) (j + 1)).sum := by
  have key : ∀ (l : List (FPt ℝ × OpMat ℝ)), (∀ p ∈ l, p ∈ pts) → ∀ (A : DMat ℝ) (b : DVec ℝ), A.nr = d * n → A.nc = d * n → b.n = d * n →
      ∃ A' b', ulElement d false tol epsR ⟨d * n, dofVec d u⟩ (l.map fun p => (p.1, ulOp p.2)) (A, b) = .ok (A', b') ∧
        ∀ x, b'.dot (dofVec d x) = b.dot (dofVec d x) - (l.map fun p => p.1.w * ratio d (grad n u p.1.dN.e) * ∑ i ∈ Finset.range d, ∑ j ∈ Finset.range d,
          symT d false (s p) (i + 1) (j + 1) * grad n x (pushGrad d (defF d (grad n u p.1.dN.e)) p.1.dN).e (i + 1) (j + 1)).sum := by
    intro l
    induction l with
    | nil => exact fun _ A b _ _ _ => ⟨A, b, rfl, fun x => by simp⟩
    | cons p l ih =>
      intro hl A b a1 a2 hb
      obtain ⟨h1, h2, h3, h4⟩ := hp p (hl p (by simp))
      obtain ⟨c, hc⟩ := stressAt_inv d hd n hn epsR p.2 p.1 h1.1 h1.2 u (s p) h3
      obtain ⟨A1, b1, e1, k1, k2, k3, k4⟩ := ul_stress d hd n hn tol epsR p.1 (ulOp p.2) h1 u c (s p) hc h2 h4 A b a1 a2 hb
      obtain ⟨A2, b2, e2, k5⟩ := ih (fun q hq => hl q (by simp [hq])) A1 b1 k1 k2 k3
      refine ⟨A2, b2, ?_, fun x => ?_⟩
      · simp only [List.map_cons, ulElement, e1, Res.bind]
        exact e2
      · rw [k5, k4]
        simp only [List.map_cons, List.sum_cons]
        ring
  obtain ⟨A, f, e1, e2⟩ := key pts (fun p hp => hp) (DMat.zero (d * n) (d * n)) (DVec.zero (d * n)) rfl rfl rfl
  refine ⟨A, f, e1, fun x g hg => ?_⟩
  rw [e2, zero_dot, zero_sub]
  congr 2
  refine List.map_congr_left fun p hpm => ?_
  congr 1
  refine Finset.sum_congr rfl fun i hi => Finset.sum_congr rfl fun j hj => ?_
  rw [push_unique d n _ (hp p hpm).2.1 p.1.dN x (g p.1) (hg p hpm) i j (Finset.mem_range.mp hi) (Finset.mem_range.mp hj)]

/-! ### Linear materials -/

theorem pushStress_symT (d : Nat) (hd : d = 2 ∨ d = 3) (F : Nat → Nat → ℝ) (s : Nat → ℝ) (i j : Nat) (h1 : 1 ≤ i) (h2 : i ≤ d) (h3 : 1 ≤ j) (h4 : j ≤ d) :
    symT d false (pushStress d F s) i j = ∑ p ∈ Finset.range d, ∑ q ∈ Finset.range d, F i (p + 1) * symT d false s (p + 1) (q + 1) * F j (q + 1) := by
  rcases hd with h | h <;> subst h
  · interval_cases i <;> interval_cases j <;> simp [symT, pushStress, Finset.sum_range_succ] <;> ring
  · interval_cases i <;> interval_cases j <;> simp [symT, pushStress, Finset.sum_range_succ] <;> ring

theorem symT_smul (d : Nat) (s : Nat → ℝ) (c : ℝ) (i j : Nat) : symT d false (fun i => s i * c) i j = symT d false s i j * c := by
  unfold symT
  split_ifs <;> rfl

theorem pushOp_one (d : Nat) (D : DMat ℝ) (F : Nat → Nat → ℝ) (E : Nat → ℝ) (hJ : (lead d F).det ≠ 0) :
    ∃ c, pushOp d (linOp D) 1 F E = .ok (c, fun i => pushStress d F (fun i => ∑ j ∈ Finset.range D.nc, D.e i (j + 1) * E (j + 1)) i * (1 / (lead d F).det)) := by
  refine ⟨⟨D.nr, D.nc, fun i j => 1 / (lead d F).det * ∑ k ∈ Finset.range D.nr, ∑ l ∈ Finset.range D.nc,
    NeoHooke.tmat d (fun i j => F (i + 1) (j + 1)) k (i - 1) * D.e (k + 1) (l + 1) * NeoHooke.tmat d (fun i j => F (i + 1) (j + 1)) l (j - 1)⟩, ?_⟩
  simp [pushOp, linOp, Res.bind, hJ]

/-- **C121**, updated Lagrangian elements of a linear material: the reported stresses are the Cauchy stresses `σ = F S Fᵀ / J` of the second Piola-Kirchhoff stresses `S = D E` for the Green-Lagrange strains. -/
theorem C121_linear (d : Nat) (hd : d = 2 ∨ d = 3) (n : Nat) (hn : 0 < n) (epsR : ℝ) (D : DMat ℝ) (p : FPt ℝ) (hp : Fits d n p) (u : Nat → Nat → ℝ) (hJ : ratio d (grad n u p.dN.e) ≠ 0) :
    ∃ s, stressAt d epsR (pushOp d (linOp D)) ⟨d * n, dofVec d u⟩ p = .ok s ∧ ∀ i j, 1 ≤ i → i ≤ d → 1 ≤ j → j ≤ d →
      ratio d (grad n u p.dN.e) * symT d false s i j = ∑ a ∈ Finset.range d, ∑ b ∈ Finset.range d, defF d (grad n u p.dN.e) i (a + 1)
        * symT d false (fun k => ∑ l ∈ Finset.range D.nc, D.e k (l + 1) * greenV d (grad n u p.dN.e) (l + 1)) (a + 1) (b + 1) * defF d (grad n u p.dN.e) j (b + 1) := by
  obtain ⟨c, hc⟩ := pushOp_one d D (defF d (grad n u p.dN.e)) (greenV d (grad n u p.dN.e)) hJ
  refine ⟨_, stressAt_ok d hd n hn epsR _ p hp.1 hp.2 u _ _ hc, fun i j h1 h2 h3 h4 => ?_⟩
  rw [symT_smul, pushStress_symT d hd _ _ i j h1 h2 h3 h4]
  have : (lead d (defF d (grad n u p.dN.e))).det ≠ 0 := hJ
  show (lead d (defF d (grad n u p.dN.e))).det * _ = _
  field_simp

/-- A triangle of the linear material meets the hypotheses of `C121_updated`. -/
example : ∃ (pts : List (FPt ℝ × OpMat ℝ)) (u : Nat → Nat → ℝ) (s : FPt ℝ × OpMat ℝ → Nat → ℝ), pts.length = 1 ∧
    ∀ p ∈ pts, Fits 2 3 p.1 ∧ ratio 2 (grad 3 u p.1.dN.e) ≠ 0 ∧ stressAt 2 0 p.2 ⟨2 * 3, dofVec 2 u⟩ p.1 = .ok (s p) ∧ (Strn 2 3 (1 / 10) u p.1 ∨ ∀ i, s p i = 0) := by
  have hr : ratio 2 (grad 3 (fun a i => if a = 2 ∧ i = 1 then 1 else 0) triangle.dN.e) = 2 := by
    simp [ratio, Matrix.det_fin_two, lead, defF, grad, triangle, Finset.sum_range_succ]
    norm_num
  obtain ⟨s, hs, -⟩ := C121_linear 2 (.inl rfl) 3 (by omega) 0 ⟨3, 3, fun i j => if i = j then 1 else 0⟩ triangle ⟨rfl, rfl⟩ (fun a i => if a = 2 ∧ i = 1 then 1 else 0) (by rw [hr]; norm_num)
  refine ⟨[(triangle, pushOp 2 (linOp ⟨3, 3, fun i j => if i = j then 1 else 0⟩))], fun a i => if a = 2 ∧ i = 1 then 1 else 0, fun _ => s, rfl, fun p hm => ?_⟩
  obtain rfl := List.mem_singleton.mp hm
  refine ⟨⟨rfl, rfl⟩, by rw [hr]; norm_num, hs, .inl ⟨1, le_refl _, by norm_num, ?_⟩⟩
  simp [greenV, engineering, eng2, green, grad, triangle, Finset.sum_range_succ]
  norm_num [abs_of_pos]

/-! ### Total Lagrangian formulation -/

theorem tl_eval (d : Nat) (tol : ℝ) (D : DMat ℝ) (H : Nat → Nat → ℝ) : tlOp d tol (linOp D) (defF d H) (greenV d H) =
    .ok (D, fun i => if zeroStrain tol (d * (d + 1) / 2) (greenV d H) then 0 else ∑ j ∈ Finset.range D.nc, D.e i (j + 1) * greenV d H (j + 1)) := by
  unfold tlOp linOp ncomp
  simp only [Bool.false_eq_true, if_false, Res.ok.injEq, Prod.mk.injEq, true_and]
  funext i
  by_cases hz : zeroStrain tol (d * (d + 1) / 2) (greenV d H) = true
  · simp [hz]
  · simp [hz]

theorem lin_stressAt (d : Nat) (hd : d = 2 ∨ d = 3) (n : Nat) (hn : 0 < n) (epsR : ℝ) (D : DMat ℝ) (p : FPt ℝ) (hp : Fits d n p) (u : Nat → Nat → ℝ) :
    stressAt d epsR (linOp D) ⟨d * n, dofVec d u⟩ p = .ok fun i => ∑ j ∈ Finset.range D.nc, D.e i (j + 1) * greenV d (grad n u p.dN.e) (j + 1) :=
  stressAt_ok d hd n hn epsR _ p hp.1 hp.2 u D _ (by simp [linOp])

/-- **C121**, total Lagrangian elements (of linear materials, the only ones they can be used with): the work of the forces of an element is that of the stresses reported in its integration points if these are taken as second
Piola-Kirchhoff stresses, `Σ w S : Fᵀ∇x` with the gradient in the undeformed configuration. Missing: they are not the Cauchy stresses (C121_total_violated). -/
theorem C121_total_partial (d : Nat) (hd : d = 2 ∨ d = 3) (n : Nat) (hn : 0 < n) (tol epsR : ℝ) (pts : List (FPt ℝ × DMat ℝ)) (u : Nat → Nat → ℝ) (s : FPt ℝ × DMat ℝ → Nat → ℝ)
    (hp : ∀ p ∈ pts, Fits d n p.1 ∧ p.2.nc = d * (d + 1) / 2 ∧ stressAt d epsR (linOp p.2) ⟨d * n, dofVec d u⟩ p.1 = .ok (s p) ∧ (Strn d n tol u p.1 ∨ ∀ i, s p i = 0)) :
    ∃ A f, tlElement d false tol epsR ⟨d * n, dofVec d u⟩ (pts.map fun p => (p.1, tlOp d tol (linOp p.2))) (DMat.zero (d * n) (d * n), DVec.zero (d * n)) = .ok (A, f) ∧
      ∀ x : Nat → Nat → ℝ, f.dot (dofVec d x) = -(pts.map fun p => p.1.w * ∑ i ∈ Finset.range d, ∑ j ∈ Finset.range d,
        symT d false (s p) (i + 1) (j + 1) * ∑ k ∈ Finset.range d, defF d (grad n u p.1.dN.e) (k + 1) (i + 1) * grad n x p.1.dN.e (k + 1) (j + 1)).sum := by
  rw [show (DMat.zero (d * n) (d * n), DVec.zero (d * n)) = ((DMat.zero (d * n) (d * n) : DMat ℝ), (DVec.zero (d * n) : DVec ℝ)) from rfl, tlElement_run, List.map_map]
  obtain ⟨A, f, e1, e2⟩ := contr_run d n pts (fun p u M => tlPoint d false tol epsR (tlOp d tol (linOp p.2)) ⟨d * n, dofVec d u⟩ p.1 M) _ _ u
    (fun p h => tl_contr d hd n hn tol epsR p.1 (tlOp d tol (linOp p.2)) _ (fun _ => p.2) (tl_eval d tol p.2) (fun _ => (hp p h).2.1) (hp p h).1.1 (hp p h).1.2 u)
    (DMat.zero (d * n) (d * n)) (DVec.zero (d * n)) rfl rfl rfl
  refine ⟨A, f, e1, fun x => ?_⟩
  rw [e2, zero_dot, zero_sub]
  congr 2
  refine List.map_congr_left fun p hpm => ?_
  obtain ⟨h1, h2, h3, h4⟩ := hp p hpm
  rw [lin_stressAt d hd n hn epsR p.2 p.1 h1 u] at h3
  simp only [Res.ok.injEq] at h3
  rw [strn_iff] at h4
  by_cases hz : zeroStrain tol (d * (d + 1) / 2) (greenV d (grad n u p.1.dN.e)) = true
  · have h0 := h4.resolve_left (fun h => h hz)
    have : ∀ i j, symT d false (s p) i j = 0 := by intro i j; unfold symT; simp only [h0, ite_self]
    simp [hz, this]
  · simp only [hz, Bool.false_eq_true, if_false]
    rw [← h3]
    congr 1
    unfold rateV
    exact eng_work d hd (fun i j => ∑ k ∈ Finset.range d, defF d (grad n u p.1.dN.e) (k + 1) i * grad n x p.1.dN.e (k + 1) j) (fun i => ∑ j ∈ Finset.range p.2.nc, p.2.e i (j + 1) * greenV d (grad n u p.1.dN.e) (j + 1))

/-- The displacements which stretch the triangle in the first direction. -/
def stretch (a : ℝ) (k i : Nat) : ℝ := if k = 2 ∧ i = 1 then a else 0

theorem stretch_grad (a : ℝ) : grad 3 (stretch a) triangle.dN.e 1 1 = a ∧ grad 3 (stretch a) triangle.dN.e 1 2 = 0 ∧ grad 3 (stretch a) triangle.dN.e 2 1 = 0 ∧ grad 3 (stretch a) triangle.dN.e 2 2 = 0 := by
  refine ⟨?_, ?_, ?_, ?_⟩ <;> simp [grad, triangle, stretch, Finset.sum_range_succ]

theorem stretch_green (a : ℝ) : greenV 2 (grad 3 (stretch a) triangle.dN.e) 1 = a + a * a / 2 ∧ greenV 2 (grad 3 (stretch a) triangle.dN.e) 2 = 0 ∧ greenV 2 (grad 3 (stretch a) triangle.dN.e) 3 = 0 := by
  obtain ⟨h1, h2, h3, h4⟩ := stretch_grad a
  refine ⟨?_, ?_, ?_⟩ <;> simp [greenV, engineering, eng2, green, Finset.sum_range_succ, h1, h2, h3, h4]
  ring

theorem stretch_ratio (a : ℝ) : ratio 2 (grad 3 (stretch a) triangle.dN.e) = 1 + a := by
  obtain ⟨h1, h2, h3, h4⟩ := stretch_grad a
  simp [ratio, Matrix.det_fin_two, lead, defF, h1, h2, h3, h4]

/-- The constitutive matrix of plane stress for the modulus of elasticity 1 and Poisson's ratio 0. -/
noncomputable def plane1 : DMat ℝ := ⟨3, 3, fun i j => if i = j then (if i = 3 then 1 / 2 else 1) else 0⟩

/-- **C121** does not hold for total Lagrangian elements. A triangle of a linear material is stretched by the factor `1 + a` in one direction. The total and the updated Lagrangian formulation give the same force at the pulled
corner, `(1 + a)(a + a²/2)/2`; the updated Lagrangian one reports the Cauchy stress `(1 + a)(a + a²/2)` and the total Lagrangian one the stress `a + a²/2`, which is in balance with a smaller force: its work
`w J σ : ∇x` in a unit displacement of that corner is `(a + a²/2)/2`. -/
theorem C121_total_violated (a tol epsR : ℝ) (ha : 0 < a) (ht : tol < a + a * a / 2) :
    (∃ s, stressAt 2 epsR (linOp plane1) ⟨2 * 3, dofVec 2 (stretch a)⟩ triangle = .ok s ∧ s 1 = a + a * a / 2 ∧
      triangle.w * (1 + a) * ∑ i ∈ Finset.range 2, ∑ j ∈ Finset.range 2, symT 2 false s (i + 1) (j + 1) * (if i = 0 ∧ j = 0 then 1 / (1 + a) else 0) = (a + a * a / 2) / 2) ∧
    (∃ s, stressAt 2 epsR (pushOp 2 (linOp plane1)) ⟨2 * 3, dofVec 2 (stretch a)⟩ triangle = .ok s ∧ s 1 = (1 + a) * (a + a * a / 2)) ∧
    (∃ A f, tlElement 2 false tol epsR ⟨2 * 3, dofVec 2 (stretch a)⟩ [(triangle, tlOp 2 tol (linOp plane1))] (DMat.zero (2 * 3) (2 * 3), DVec.zero (2 * 3)) = .ok (A, f) ∧
      f.dot (dofVec 2 (stretch 1)) = -((1 + a) * (a + a * a / 2) / 2)) ∧
    (∃ A f, ulElement 2 false tol epsR ⟨2 * 3, dofVec 2 (stretch a)⟩ [(triangle, ulOp (pushOp 2 (linOp plane1)))] (DMat.zero (2 * 3) (2 * 3), DVec.zero (2 * 3)) = .ok (A, f) ∧
      f.dot (dofVec 2 (stretch 1)) = -((1 + a) * (a + a * a / 2) / 2)) ∧
    (∀ i r, i < 2 → r < 2 → ∑ l ∈ Finset.range 2, (if i = 0 ∧ l = 0 then 1 / (1 + a) else 0) * defF 2 (grad 3 (stretch a) triangle.dN.e) (l + 1) (r + 1) = grad 3 (stretch 1) triangle.dN.e (i + 1) (r + 1)) ∧
    (a + a * a / 2) / 2 ≠ (1 + a) * (a + a * a / 2) / 2 := by
  obtain ⟨h1, h2, h3, h4⟩ := stretch_grad a
  obtain ⟨k1, k2, k3, k4⟩ := stretch_grad 1
  obtain ⟨g1, g2, g3⟩ := stretch_green a
  have hr := stretch_ratio a
  have hfit : Fits 2 3 triangle := ⟨rfl, rfl⟩
  have h1a : (1 + a) ≠ 0 := by positivity
  have hst : Strn 2 3 tol (stretch a) triangle := ⟨1, le_refl _, by norm_num, by rw [g1, abs_of_pos (by positivity)]; exact ht⟩
  have hs1 := lin_stressAt 2 (.inl rfl) 3 (by omega) epsR plane1 triangle hfit (stretch a)
  have hchain : ∀ i r, i < 2 → r < 2 → ∑ l ∈ Finset.range 2, (if i = 0 ∧ l = 0 then 1 / (1 + a) else 0) * defF 2 (grad 3 (stretch a) triangle.dN.e) (l + 1) (r + 1) = grad 3 (stretch 1) triangle.dN.e (i + 1) (r + 1) := by
    intro i r hi hr
    interval_cases i <;> interval_cases r <;> simp [Finset.sum_range_succ, defF, h1, h2, h3, h4, k1, k2, k3, k4]
    field_simp
  obtain ⟨s, hs, hsc⟩ := C121_linear 2 (.inl rfl) 3 (by omega) epsR plane1 triangle hfit (stretch a) (by rw [hr]; exact h1a)
  have hs11 : s 1 = (1 + a) * (a + a * a / 2) := by
    have := hsc 1 1 (by omega) (by omega) (by omega) (by omega)
    rw [hr] at this
    simp [Finset.sum_range_succ, symT, plane1, g1, g2, g3, defF, h1, h2, h3, h4] at this
    apply mul_left_cancel₀ h1a
    linarith
  refine ⟨⟨_, hs1, ?_, ?_⟩, ⟨s, hs, hs11⟩, ?_, ?_, hchain, ?_⟩
  · simp [plane1, Finset.sum_range_succ, g1, g2, g3]
  · simp [plane1, Finset.sum_range_succ, g1, g2, g3, symT]
    rw [show triangle.w = (1 / 2 : ℝ) from rfl]
    field_simp
  · obtain ⟨A, f, e1, e2⟩ := C121_total_partial 2 (.inl rfl) 3 (by omega) tol epsR [(triangle, plane1)] (stretch a) (fun p => fun i => ∑ j ∈ Finset.range p.2.nc, p.2.e i (j + 1) * greenV 2 (grad 3 (stretch a) p.1.dN.e) (j + 1))
      (fun p hp => by obtain rfl := List.mem_singleton.mp hp; exact ⟨hfit, rfl, hs1, .inl hst⟩)
    refine ⟨A, f, e1, ?_⟩
    rw [e2]
    simp [plane1, Finset.sum_range_succ, g1, g2, g3, symT, defF, h1, h2, h3, h4, k1, k2, k3, k4]
    simp [triangle]
    ring
  · obtain ⟨A, f, e1, e2⟩ := C121_updated 2 (.inl rfl) 3 (by omega) tol epsR [(triangle, pushOp 2 (linOp plane1))] (stretch a) (fun _ => s)
      (fun p hp => by obtain rfl := List.mem_singleton.mp hp; exact ⟨hfit, by rw [hr]; exact h1a, hs, .inl hst⟩)
    refine ⟨A, f, e1, ?_⟩
    rw [e2 (stretch 1) (fun _ i l => if i = 1 ∧ l = 1 then 1 / (1 + a) else 0) (fun p hp i r hi hr' => by
      obtain rfl := List.mem_singleton.mp hp
      have := hchain i r hi hr'
      simpa using this)]
    simp [hr, Finset.sum_range_succ, symT, hs11]
    rw [show triangle.w = (1 / 2 : ℝ) from rfl]
    field_simp
  · intro h
    have : a * (a + a * a / 2) = 0 := by linarith
    have : 0 < a * (a + a * a / 2) := by positivity
    linarith

example : (0 : ℝ) < 1 ∧ (1 / 10 ^ 16 : ℝ) < 1 + 1 * 1 / 2 := by norm_num

/-- **C121**: with a plastic material, a total Lagrangian element fails at every strained point (its second Piola-Kirchhoff stresses are not available), so that no wrong stresses are reported. -/
theorem C121_plastic (d : Nat) (hd : d = 2 ∨ d = 3) (n : Nat) (hn : 0 < n) (tol epsR : ℝ) (p : FPt ℝ) (hp : Fits d n p) (m : Mat ℝ) (u : Nat → Nat → ℝ) (cs : DMat ℝ × (Nat → ℝ))
    (hm : m (defF d (grad n u p.dN.e)) (greenV d (grad n u p.dN.e)) = .ok cs) (hs : Strn d n tol u p) (l : List (FPt ℝ × Mat ℝ)) (M : DMat ℝ × DVec ℝ) :
    tlElement d false tol epsR ⟨d * n, dofVec d u⟩ ((p, tlOp d tol (plasticOp m)) :: l) M = .fail ∧
      stressAt d epsR (plasticOp m) ⟨d * n, dofVec d u⟩ p = .ok cs.2 := by
  constructor
  · rw [strn_iff] at hs
    obtain ⟨hr, hc⟩ := hp
    subst hr
    obtain ⟨B, hB, -⟩ := kinTL_ok d hd p epsR hn hc u
    unfold tlElement tlPoint
    rw [hB]
    simp only [Res.bind, tlOp, ncomp, Bool.false_eq_true, if_false, hs, plasticOp, hm, if_true]
  · exact stressAt_ok d hd n hn epsR _ p hp.1 hp.2 u cs.1 cs.2 (by simp [plasticOp, hm, Res.bind])

/-! ### F-bar elements -/

/-- **C121**, F-bar elements: if the sampled volume ratio is that of each integration point, the forces do the work of the reported stresses. Missing: other states (C121_fbar_violated). -/
theorem C121_fbar_partial (d : Nat) (hd : d = 2 ∨ d = 3) (n : Nat) (hn : 0 < n) (tol epsR : ℝ) (smp : List (FPt ℝ)) (pts : List (FPt ℝ × OpMat ℝ × List ℝ)) (u : Nat → Nat → ℝ)
    (s : FPt ℝ × OpMat ℝ × List ℝ → Nat → ℝ)
    (hsmp : ∀ q ∈ smp, Fits d n q ∧ Strn d n tol u q ∧ ratio d (grad n u q.dN.e) ≠ 0)
    (hp : ∀ p ∈ pts, Fits d n p.1 ∧ p.2.2.length = smp.length ∧ Strn d n tol u p.1 ∧ ratio d (grad n u p.1.dN.e) ≠ 0 ∧
      meanRatio (smp.map fun q => ratio d (grad n u q.dN.e)) p.2.2 (ratio d (grad n u p.1.dN.e)) = ratio d (grad n u p.1.dN.e) ∧ (∃ sig c, Truesdell d (p.2.1 1) sig c) ∧
      stressAt d epsR p.2.1 ⟨d * n, dofVec d u⟩ p.1 = .ok (s p)) :
    ∃ A f, fbarElement d false tol epsR smp ⟨d * n, dofVec d u⟩ (pts.map fun p => (p.1, ulOp p.2.1, p.2.2)) (DMat.zero (d * n) (d * n), DVec.zero (d * n)) = .ok (A, f) ∧
      ∀ (x : Nat → Nat → ℝ) (g : FPt ℝ → Nat → Nat → ℝ),
        (∀ p ∈ pts, ∀ i r, i < d → r < d → ∑ l ∈ Finset.range d, g p.1 (i + 1) (l + 1) * defF d (grad n u p.1.dN.e) (l + 1) (r + 1) = grad n x p.1.dN.e (i + 1) (r + 1)) →
        f.dot (dofVec d x) = -(pts.map fun p => p.1.w * ratio d (grad n u p.1.dN.e) * ∑ i ∈ Finset.range d, ∑ j ∈ Finset.range d,
          symT d false (s p) (i + 1) (j + 1) * g p.1 (i + 1) (j + 1)).sum := by
  classical
  let sig : Mat ℝ → (Nat → Nat → ℝ) → Nat → ℝ := fun m => if h : ∃ sig c, Truesdell d m sig c then h.choose else fun _ _ => 0
  have hsig : ∀ p ∈ pts, ∃ c, Truesdell d (p.2.1 1) (sig (p.2.1 1)) c := by
    intro p hpm
    have h := (hp p hpm).2.2.2.2.2.1
    show ∃ c, Truesdell d (p.2.1 1) (if h : ∃ sig c, Truesdell d (p.2.1 1) sig c then h.choose else fun _ _ => 0) c
    rw [dif_pos h]
    exact h.choose_spec
  obtain ⟨A, f, e1, e2⟩ := C113_forces d hd n hn tol epsR smp (pts.map fun p => (p.1, ulOp p.2.1, p.2.2)) u sig (fun q hq => ⟨(hsmp q hq).1.1, (hsmp q hq).1.2, (hsmp q hq).2⟩) (fun p' hp' => by
    obtain ⟨p, hpm, rfl⟩ := List.mem_map.mp hp'
    obtain ⟨h1, h2, h3, h4, h5, h6, h7⟩ := hp p hpm
    exact ⟨h1.1, h1.2, h2, h3, h4, by rw [h5]; exact h4, hsig p hpm⟩)
  refine ⟨A, f, e1, fun x g hg => ?_⟩
  rw [e2 x g (fun p' hp' => by obtain ⟨p, hpm, rfl⟩ := List.mem_map.mp hp'; exact hg p hpm), List.map_map]
  congr 2
  refine List.map_congr_left fun p hpm => ?_
  obtain ⟨h1, h2, h3, h4, h5, h6, h7⟩ := hp p hpm
  obtain ⟨c, hc⟩ := hsig p hpm
  obtain ⟨c', hc'⟩ := stressAt_inv d hd n hn epsR p.2.1 p.1 h1.1 h1.2 u (s p) h7
  have hF : scaledF d (grad n u p.1.dN.e) (ratio d (grad n u p.1.dN.e)) = defF d (grad n u p.1.dN.e) := by
    funext i j; exact C113_uniform d _ h4 i j
  have e := (hc.eval (defF d (grad n u p.1.dN.e)) (greenV d (grad n u p.1.dN.e)) h4).symm.trans hc'
  simp only [Res.ok.injEq, Prod.mk.injEq] at e
  simp only [Function.comp, ulOp]
  rw [h5, hF, e.2]

/-- The stretched triangle with one sampling point meets the hypotheses of `C121_fbar_partial`. -/
example (mu : ℝ) : ∃ (smp : List (FPt ℝ)) (pts : List (FPt ℝ × OpMat ℝ × List ℝ)) (u : Nat → Nat → ℝ) (s : FPt ℝ × OpMat ℝ × List ℝ → Nat → ℝ), smp.length = 1 ∧ pts.length = 1 ∧
    (∀ q ∈ smp, Fits 2 3 q ∧ Strn 2 3 (1 / 10) u q ∧ ratio 2 (grad 3 u q.dN.e) ≠ 0) ∧
    ∀ p ∈ pts, Fits 2 3 p.1 ∧ p.2.2.length = smp.length ∧ Strn 2 3 (1 / 10) u p.1 ∧ ratio 2 (grad 3 u p.1.dN.e) ≠ 0 ∧
      meanRatio (smp.map fun q => ratio 2 (grad 3 u q.dN.e)) p.2.2 (ratio 2 (grad 3 u p.1.dN.e)) = ratio 2 (grad 3 u p.1.dN.e) ∧ (∃ sig c, Truesdell 2 (p.2.1 1) sig c) ∧
      stressAt 2 0 p.2.1 ⟨2 * 3, dofVec 2 u⟩ p.1 = .ok (s p) := by
  have hr := stretch_ratio 1
  have hst : Strn 2 3 (1 / 10) (stretch 1) triangle := ⟨1, le_refl _, by norm_num, by rw [(stretch_green 1).1]; norm_num [abs_of_pos]⟩
  refine ⟨[triangle], [(triangle, fun _ F _ => .ok (hookeC mu F, hooke2 mu F), [1])], stretch 1, fun p => hooke2 mu (defF 2 (grad 3 (stretch 1) triangle.dN.e)), rfl, rfl, fun q hq => ?_, fun p hq => ?_⟩
  · obtain rfl := List.mem_singleton.mp hq
    exact ⟨⟨rfl, rfl⟩, hst, by rw [hr]; norm_num⟩
  · obtain rfl := List.mem_singleton.mp hq
    exact ⟨⟨rfl, rfl⟩, rfl, hst, by rw [hr]; norm_num, rfl, ⟨_, _, hooke2_ok mu⟩, stressAt_ok 2 (.inl rfl) 3 (by omega) 0 _ triangle rfl rfl _ _ _ rfl⟩

/-- **C121** does not hold for F-bar elements. The displacements of the square [-1,1]² are `u_x = (x + 1)(y + 1)`, so that the volume ratio is `2 + y`; the pressure of the material is the volume ratio minus one. The sampling
point is the centre, with the ratio 2, and the forces are those of the stress 1; at the integration point (b,c), `1 + c` is reported. -/
theorem C121_fbar_violated (b c w tol epsR : ℝ) (hb : -1 < b) (hc : -1 < c) (hc0 : c ≠ 0) (hw : w ≠ 0) (ht : tol < 1) (ht' : tol < 1 + c) :
    ∃ (A : DMat ℝ) (f : DVec ℝ) (s x : Nat → ℝ) (g : Nat → Nat → ℝ),
      fbarElement 2 false tol epsR [square 0 0 4] ⟨2 * 4, dofVec 2 (twist (-1))⟩ [(square b c w, ulOp fun _ F _ => .ok (hookeC 0 F, hooke2 0 F), [1])] (DMat.zero (2 * 4) (2 * 4), DVec.zero (2 * 4)) = .ok (A, f) ∧
      stressAt 2 epsR (fun _ F _ => .ok (hookeC 0 F, hooke2 0 F)) ⟨2 * 4, dofVec 2 (twist (-1))⟩ (square b c w) = .ok s ∧
      (∀ i r, i < 2 → r < 2 → ∑ l ∈ Finset.range 2, g (i + 1) (l + 1) * defF 2 (grad 4 (twist (-1)) (square b c w).dN.e) (l + 1) (r + 1) = grad 4 (fun k i => if i = 1 then x k else 0) (square b c w).dN.e (i + 1) (r + 1)) ∧
      s 1 = 1 + c ∧ s 2 = 1 + c ∧ s 3 = 0 ∧ f.dot (dofVec 2 fun k i => if i = 1 then x k else 0) = -w ∧
      -(w * ratio 2 (grad 4 (twist (-1)) (square b c w).dN.e) * ∑ i ∈ Finset.range 2, ∑ j ∈ Finset.range 2, symT 2 false s (i + 1) (j + 1) * g (i + 1) (j + 1)) = -(w * (1 + c)) ∧ -(w * (1 + c)) ≠ -w := by
  obtain ⟨s1, s2, s3, s4⟩ := twist_grad (-1) 0 0 4
  obtain ⟨p1, p2, p3, p4⟩ := twist_grad (-1) b c w
  have hrs : ratio 2 (grad 4 (twist (-1)) (square 0 0 4).dN.e) = 2 := by
    simp [ratio, Matrix.det_fin_two, lead, defF, s1, s2, s3, s4]; norm_num
  have hrp : ratio 2 (grad 4 (twist (-1)) (square b c w).dN.e) = 2 + c := by
    simp [ratio, Matrix.det_fin_two, lead, defF, p1, p2, p3, p4]; ring
  have h2c : 2 + c ≠ 0 := by linarith
  have hss : Strn 2 4 tol (twist (-1)) (square 0 0 4) := ⟨1, le_refl _, by norm_num, by
    have e : greenV 2 (grad 4 (twist (-1)) (square 0 0 4).dN.e) 1 = 3 / 2 := by
      simp [greenV, engineering, eng2, green, s1, s3, Finset.sum_range_succ]; norm_num
    rw [e, abs_of_pos (by norm_num)]; linarith⟩
  have hsp : Strn 2 4 tol (twist (-1)) (square b c w) := ⟨1, le_refl _, by norm_num, by
    have e : greenV 2 (grad 4 (twist (-1)) (square b c w).dN.e) 1 = (1 + c) + (1 + c) * (1 + c) / 2 := by
      simp [greenV, engineering, eng2, green, p1, p3, Finset.sum_range_succ]; ring
    rw [e, abs_of_pos (by nlinarith)]; nlinarith⟩
  obtain ⟨A, f, e1, e2⟩ := C113_forces 2 (.inl rfl) 4 (by omega) tol epsR [square 0 0 4] [(square b c w, ulOp fun _ F _ => .ok (hookeC 0 F, hooke2 0 F), [1])] (twist (-1)) (fun _ => hooke2 0)
    (fun q hq => by obtain rfl := List.mem_singleton.mp hq; exact ⟨rfl, rfl, hss, by rw [hrs]; norm_num⟩)
    (fun p hq => by
      obtain rfl := List.mem_singleton.mp hq
      refine ⟨rfl, rfl, rfl, hsp, by rw [hrp]; exact h2c, ?_, _, hooke2_ok 0⟩
      simp only [List.map_cons, List.map_nil, meanRatio, hrs]; norm_num)
  let x : Nat → ℝ := fun k => if k = 1 ∨ k = 3 then -1 else 1
  let g : Nat → Nat → ℝ := fun i j => if i = 1 ∧ j = 1 then 1 / (2 + c) else if i = 1 ∧ j = 2 then -(1 + b) / (2 + c) else 0
  have hx : ∀ i j, i < 2 → j < 2 → grad 4 (fun k i => if i = 1 then x k else 0) (square b c w).dN.e (i + 1) (j + 1) = if i = 0 ∧ j = 0 then 1 else 0 := by
    intro i j hi hj
    interval_cases i <;> interval_cases j <;> simp [grad, square, x, Finset.sum_range_succ] <;> ring
  have hg : ∀ i r, i < 2 → r < 2 → ∑ l ∈ Finset.range 2, g (i + 1) (l + 1) * defF 2 (grad 4 (twist (-1)) (square b c w).dN.e) (l + 1) (r + 1) = grad 4 (fun k i => if i = 1 then x k else 0) (square b c w).dN.e (i + 1) (r + 1) := by
    intro i r hi hr
    rw [hx i r hi hr]
    interval_cases i <;> interval_cases r <;> simp [Finset.sum_range_succ, defF, g, p1, p2, p3, p4] <;> field_simp <;> ring
  have hdet : (lead 2 (defF 2 (grad 4 (twist (-1)) (square b c w).dN.e))).det = 2 + c := hrp
  have hdet2 : (lead 2 (scaledF 2 (grad 4 (twist (-1)) (square b c w).dN.e) 2)).det = 2 := C113_volume 2 (.inl rfl) _ _ (by rw [hrp]; apply div_pos <;> linarith)
  refine ⟨A, f, hooke2 0 (defF 2 (grad 4 (twist (-1)) (square b c w).dN.e)), x, g, e1, stressAt_ok 2 (.inl rfl) 4 (by omega) epsR _ _ rfl rfl _ _ _ rfl, hg, ?_, ?_, ?_, ?_, ?_, ?_⟩
  · simp [hooke2, hdet]; ring
  · simp [hooke2, hdet]; ring
  · simp [hooke2]
  · rw [e2 _ (fun _ => g) (fun p hq => by obtain rfl := List.mem_singleton.mp hq; exact hg)]
    simp only [List.map_cons, List.map_nil, List.sum_cons, List.sum_nil, add_zero, meanRatio, hrs, hrp]
    simp [Finset.sum_range_succ, symT, hooke2, hdet2, g]
    rw [show (square b c w).w = w from rfl]
    field_simp
    norm_num
  · rw [hrp]
    simp [Finset.sum_range_succ, symT, hooke2, hdet, g]
    field_simp
    ring
  · intro h
    have : w * c = 0 := by linarith
    rcases mul_eq_zero.mp this with h | h
    · exact hw h
    · exact hc0 h

example : (-1 : ℝ) < 1 / 2 ∧ (1 / 2 : ℝ) ≠ 0 ∧ (4 : ℝ) ≠ 0 ∧ (1 / 10 ^ 16 : ℝ) < 1 ∧ (1 / 10 ^ 16 : ℝ) < 1 + 1 / 2 := by norm_num

/-! ### The tensorial total Lagrangian element -/

open Verif.SolidFields in
/-- **C121**: the values of the tensorial total Lagrangian element are as many as announced and have the proper names, if there are neither principal values nor plane strain. -/
theorem C121_old_partial (c : Cfg) (h : Regular c) (ha : c.axi = false) (hps : c.planeStrain = false) (hp : c.principal = false) (hs : c.strain = false) :
    (evalOld2 c).length = getNoFields c 2 ∧ ∀ pre i v, (evalOld2 c)[i]? = some v → getField2Name c i pre = .ok (prefixed pre (properName c v)) := by
  let f : Val → Val := fun v => match v with
    | .comp _ a b => .comp c.locSys a b
    | v => v
  have e : evalOld2 c = (evalSol2 c false true).map f := by
    unfold evalOld2 evalOld evalSol2 evalSol
    simp only [ha, hps, hp, Bool.or_self, Bool.true_and, Bool.and_false, Bool.false_and, Bool.false_eq_true, if_false, if_true, List.append_nil, List.map_append, List.map_map, List.map_cons, List.map_nil]
    congr 1
  refine ⟨by rw [e, List.length_map, C96_number c h true (fun _ => rfl)], fun pre i v hi => ?_⟩
  rw [e, List.getElem?_map, Option.map_eq_some_iff] at hi
  obtain ⟨v', hv', rfl⟩ := hi
  rw [C96_names_partial c h (fun h => by rw [hs] at h; cases h) (fun h => by rw [hp] at h; cases h) true pre i v' hv']
  cases v' <;> rfl

example : Verif.SolidFields.Regular ⟨2, false, false, false, false, true, ["T"]⟩ ∧ evalOld2 ⟨2, false, false, false, false, true, ["T"]⟩ = [.comp true 0 0, .comp true 1 1, .comp true 0 1, .vonMises, .int 1] := ⟨.inl rfl, rfl⟩

open Verif.SolidFields in
/-- **C121** does not hold for the tensorial total Lagrangian element with principal values or in plane strain: fewer values are computed than announced, and in plane strain the shear stress is named like the normal stress and the
von Mises stress like the shear stress. -/
theorem C121_old_violated (c : Cfg) (h : Regular c) (ha : c.axi = false) :
    (c.principal = true → (evalOld2 c).length < getNoFields c 2) ∧
    (c.nsd = 2 → c.planeStrain = true → c.strain = false → (evalOld2 c).length < getNoFields c 2 ∧ (evalOld2 c)[2]? = some (.comp c.locSys 0 1) ∧ getField2Name c 2 none = .ok "s_zz" ∧
      (evalOld2 c)[3]? = some .vonMises ∧ getField2Name c 3 none = .ok "s_xy") := by
  constructor
  · intro hp
    rcases h with h | ⟨h, -⟩
    · simp [evalOld2, evalOld, getNoFields, comps, h, hp]
      split_ifs <;> omega
    · simp [evalOld2, evalOld, getNoFields, comps, h, hp]
      omega
  · intro h2 hps hs
    refine ⟨?_, ?_, ?_, ?_, ?_⟩
    · simp [evalOld2, evalOld, getNoFields, comps, h2, hps]
      omega
    · simp [evalOld2, evalOld, comps, h2]
    · simp [getField2Name, getNoFields, h2, hps, ha, hs, table, Res.bind]
      omega
    · simp [evalOld2, evalOld, comps, h2]
    · simp [getField2Name, getNoFields, h2, hps, ha, hs, table, Res.bind]
      omega

example : Verif.SolidFields.Regular ⟨2, false, true, true, false, true, ["T"]⟩ ∧ evalOld2 ⟨2, false, true, true, false, true, ["T"]⟩ = [.comp true 0 0, .comp true 1 1, .comp true 0 1, .vonMises, .int 1] := ⟨.inl rfl, rfl⟩

/-- **C121**: for a deformed element of a linear material, the tensorial element reports the stresses of the other total Lagrangian element; none without a solution. -/
theorem C121_old_stress (d : Nat) (hd : d = 2 ∨ d = 3) (n : Nat) (hn : 0 < n) (epsR : ℝ) (D : DMat ℝ) (p : FPt ℝ) (hp : Fits d n p) (u : Nat → Nat → ℝ) (m : OpMat ℝ) :
    stressOld d epsR (linOp D) ⟨d * n, dofVec d u⟩ p = .ok (fun i => ∑ j ∈ Finset.range D.nc, D.e i (j + 1) * greenV d (grad n u p.dN.e) (j + 1)) ∧
    stressOld d epsR m ⟨0, dofVec d u⟩ p = .ok fun _ => 0 := by
  obtain ⟨hr, hc⟩ := hp
  subst hr
  constructor
  · unfold stressOld
    rw [if_neg (by simp; rcases hd with h | h <;> omega), kinUL_ok d hd p epsR hn hc u]
    simp [Res.bind, linOp]
  · simp [stressOld]

/-- **C121**: a solution vector of a wrong length is refused. -/
theorem C121_size (d : Nat) (epsR : ℝ) (m : OpMat ℝ) (eV : DVec ℝ) (p : FPt ℝ) (h0 : eV.n ≠ 0) (h : eV.n ≠ d * p.dN.nr) : stressAt d epsR m eV p = .fail ∧ stressOld d epsR m eV p = .fail := by
  constructor
  · unfold stressAt
    rw [if_pos ⟨h0, h⟩]
  · unfold stressOld kinUL
    rw [if_neg h0, if_neg h0, if_pos (.inl h)]
    rfl

/-- **C121**: without a solution the stresses are those of the undeformed state. -/
theorem C121_initial (d : Nat) (epsR : ℝ) (D : DMat ℝ) (e : Nat → ℝ) (p : FPt ℝ) : ∃ s, stressAt d epsR (linOp D) ⟨0, e⟩ p = .ok s ∧ ∀ i, s i = 0 := by
  refine ⟨fun _ => 0, ?_, fun i => rfl⟩
  unfold stressAt kinUL
  simp [Res.bind, linOp]

end Verif.Finite
