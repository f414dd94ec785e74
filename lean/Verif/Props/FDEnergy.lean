/-
Property C123: energies and norms reported for the total and updated Lagrangian elements. Model: Model/FDEnergy.lean. Also an addition to C122, for the neo-Hookean materials.
-/
import Verif.Model.FDEnergy
import Verif.Props.NormMixed
import Verif.Props.Objectivity
import Verif.Props.NeoHooke

set_option linter.unusedVariables false

namespace Verif.Finite

open Verif.Cont Verif.ContSpec Verif.FiniteSpec Verif.Fbar Filter Topology

/-! ### Updated Lagrangian elements -/

theorem ulNorm_ok {α : Type} (d : Nat) (hd : d = 2 ∨ d = 3) (n : Nat) (hn : 0 < n) (ps : Bool) (epsR : ℝ) (pts : List α) (g : α → FPt ℝ) (em : α → EMat) (u : Nat → Nat → ℝ) (hp : ∀ p ∈ pts, (g p).dN.nr = n ∧ (g p).dN.nc = d)
    (s : α → Nat → ℝ) (U : α → ℝ) (hem : ∀ p ∈ pts, em p (defF d (grad n u (g p).dN.e)) (greenV d (grad n u (g p).dN.e)) = .ok (s p, U p)) (N : NormUL.Norms ℝ) :
    ulNorm d false ps epsR ⟨d * n, dofVec d u⟩ (pts.map fun p => (g p, em p)) N
      = .ok ((pts.map fun p => (⟨symFbar d ps (s p), U p, ratio d (grad n u (g p).dN.e), (g p).w⟩ : NormUL.Pt ℝ)).foldl (fun n p => NormUL.evalInt n p.S p.U p.J p.w) N) := by
  induction pts generalizing N with
  | nil => rfl
  | cons p l ih =>
    obtain ⟨a1, a2⟩ := hp p (by simp)
    have hk := kinUL_ok d hd (g p) epsR (by omega) a2 u
    rw [a1] at hk
    have hm := hem p (by simp)
    simp only [ulNorm, List.map_cons, List.foldl_cons]
    have e : ulNormPt d false ps epsR ⟨d * n, dofVec d u⟩ (g p) (em p) N = .ok (NormUL.evalInt N (symFbar d ps (s p)) (U p) (ratio d (grad n u (g p).dN.e)) (g p).w) := by
      unfold ulNormPt
      rw [hk]
      refine (congrArg (fun r => Res.bind r _) hm).trans ?_
      rfl
    rw [e]
    exact ih (fun q hq => hp q (by simp [hq])) (fun q hq => hem q (by simp [hq])) _

theorem total_energy {α : Type} (pts : List α) (T : α → NormUL.Sym ℝ) (U J w : α → ℝ) : (NormUL.total (pts.map fun p => (⟨T p, U p, J p, w p⟩ : NormUL.Pt ℝ))).energy = (pts.map fun p => w p * U p).sum ∧
    (NormUL.total (pts.map fun p => (⟨T p, U p, J p, w p⟩ : NormUL.Pt ℝ))).vol = (pts.map fun p => w p * J p).sum := by
  rw [NormUL.total, NormUL.foldl_gen]
  simp only [NormUL.Norms.zero, zero_add, List.map_map, Function.comp_def]
  refine ⟨?_, ?_⟩ <;> first | trivial | exact map_sum_congr _ _ _ fun p hp => by ring

/-- **C123**, updated Lagrangian elements: the energy is the integral of the strain energy density over the undeformed element, the volume that of the deformed element, and the other norms are the integrals over the deformed
element of the squared Cauchy stresses, mean stress, deviatoric stresses and von Mises stress, in three dimensions and in plane strain. For plane stress see C102. -/
theorem C123_updated_norms (d : Nat) (hd : d = 2 ∨ d = 3) (n : Nat) (hn : 0 < n) (ps : Bool) (epsR : ℝ) (pts : List (FPt ℝ × EMat)) (u : Nat → Nat → ℝ) (hp : ∀ p ∈ pts, p.1.dN.nr = n ∧ p.1.dN.nc = d)
    (s : FPt ℝ × EMat → Nat → ℝ) (U : FPt ℝ × EMat → ℝ) (hem : ∀ p ∈ pts, p.2 (defF d (grad n u p.1.dN.e)) (greenV d (grad n u p.1.dN.e)) = .ok (s p, U p)) :
    ∃ N, ulNorm d false ps epsR ⟨d * n, dofVec d u⟩ pts NormUL.Norms.zero = .ok N ∧ N.energy = (pts.map fun p => p.1.w * U p).sum ∧ N.vol = (pts.map fun p => p.1.w * ratio d (grad n u p.1.dN.e)).sum ∧
      (d = 3 → NormsOf N pts (fun p => p.1.w) U (fun p => ratio d (grad n u p.1.dN.e)) fun p => symT 3 false (s p)) ∧
      (d = 2 → ps = true → NormsOf N pts (fun p => p.1.w) U (fun p => ratio d (grad n u p.1.dN.e)) fun p => planeS (s p)) := by
  have hr := ulNorm_ok d hd n hn ps epsR pts (fun p => p.1) (fun p => p.2) u hp s U hem NormUL.Norms.zero
  rw [show (pts.map fun p => (p.1, p.2)) = pts from List.map_id pts] at hr
  refine ⟨_, hr, (total_energy pts (fun p => symFbar d ps (s p)) U _ (fun p => p.1.w)).1, (total_energy pts (fun p => symFbar d ps (s p)) U _ (fun p => p.1.w)).2,
    fun h3 => ?_, fun h2 hps => ?_⟩
  · subst h3
    exact total_norms pts (fun p => p.1.w) U _ (fun p => symFbar 3 ps (s p)) (fun p => symT 3 false (s p)) fun p hp => ⟨.inl (by simp only [symFbar, if_true]; exact solid_sym _), by simp [symT], by simp [symT], by simp [symT]⟩
  · subst h2 hps
    exact total_norms pts (fun p => p.1.w) U _ (fun p => symFbar 2 true (s p)) (fun p => planeS (s p)) fun p hp => ⟨.inr ⟨by simp [symFbar, planeS], by simp [planeS], by simp [planeS]⟩, by simp [planeS], by simp [planeS], by simp [planeS]⟩

/-- The outcome of a material. -/
def outC (r : Res (DMat ℝ × (Nat → ℝ))) : DMat ℝ := match r with | .ok a => a.1 | _ => DMat.zero 0 0

def outS (r : Res (DMat ℝ × (Nat → ℝ))) : Nat → ℝ := match r with | .ok a => a.2 | _ => fun _ => 0

/-- Forces and energy of an element whose materials have energies `W` along the line `u + t x`. -/
theorem ul_potential (d : Nat) (hd : d = 2 ∨ d = 3) (n : Nat) (hn : 0 < n) (ps : Bool) (tol epsR : ℝ) (pts : List (FPt ℝ × Mat ℝ × EMat)) (u x : Nat → Nat → ℝ)
    (C : FPt ℝ × Mat ℝ × EMat → DMat ℝ) (S : FPt ℝ × Mat ℝ × EMat → Nat → ℝ) (s : FPt ℝ × Mat ℝ × EMat → ℝ → Nat → ℝ) (W : FPt ℝ × Mat ℝ × EMat → ℝ → ℝ)
    (hp : ∀ p ∈ pts, p.1.dN.nr = n ∧ p.1.dN.nc = d ∧ ratio d (grad n u p.1.dN.e) ≠ 0 ∧ p.2.1 (defF d (grad n u p.1.dN.e)) (greenV d (grad n u p.1.dN.e)) = .ok (C p, S p) ∧
      (∀ᶠ t in 𝓝 (0 : ℝ), p.2.2 (defF d (grad n (along u x t) p.1.dN.e)) (greenV d (grad n (along u x t) p.1.dN.e)) = .ok (s p t, W p t)) ∧
      HasDerivAt (W p) (∑ i ∈ Finset.range d, ∑ r ∈ Finset.range d, ulP d tol (grad n u p.1.dN.e) (S p) (i + 1) (r + 1) * grad n x p.1.dN.e (i + 1) (r + 1)) 0) :
    ∃ (A : DMat ℝ) (f : DVec ℝ) (N : ℝ → NormUL.Norms ℝ), ulElement d false tol epsR ⟨d * n, dofVec d u⟩ (pts.map fun p => (p.1, p.2.1)) (DMat.zero (d * n) (d * n), DVec.zero (d * n)) = .ok (A, f) ∧
      (∀ᶠ t in 𝓝 (0 : ℝ), ulNorm d false ps epsR ⟨d * n, dofVec d (along u x t)⟩ (pts.map fun p => (p.1, p.2.2)) NormUL.Norms.zero = .ok (N t)) ∧
      HasDerivAt (fun t => (N t).energy) (-f.dot (dofVec d x)) 0 := by
  obtain ⟨A, f, e1, e2⟩ := ul_element d hd n hn tol epsR (pts.map fun p => (p.1, p.2.1)) u (fun q => outC (q.2 (defF d (grad n u q.1.dN.e)) (greenV d (grad n u q.1.dN.e)))) (fun q => outS (q.2 (defF d (grad n u q.1.dN.e)) (greenV d (grad n u q.1.dN.e))))
    (fun q hq => by
      obtain ⟨p, hpm, rfl⟩ := List.mem_map.mp hq
      obtain ⟨a1, a2, a3, a4, -⟩ := hp p hpm
      exact ⟨a1, a2, a3, by simp only [a4, outC, outS]⟩)
  have hN : ∀ᶠ t in 𝓝 (0 : ℝ), ∃ N, ulNorm d false ps epsR ⟨d * n, dofVec d (along u x t)⟩ (pts.map fun p => (p.1, p.2.2)) NormUL.Norms.zero = .ok N ∧ N.energy = (pts.map fun p => p.1.w * W p t).sum := by
    filter_upwards [ev_list pts _ fun p hpm => (hp p hpm).2.2.2.2.1] with t ht
    exact ⟨_, ulNorm_ok d hd n hn ps epsR pts (fun p => p.1) (fun p => p.2.2) (along u x t) (fun p h => ⟨(hp p h).1, (hp p h).2.1⟩) (fun p => s p t) (fun p => W p t) ht NormUL.Norms.zero, (total_energy pts _ _ _ (fun p => p.1.w)).1⟩
  classical
  refine ⟨A, f, fun t => if h : ∃ N, ulNorm d false ps epsR ⟨d * n, dofVec d (along u x t)⟩ (pts.map fun p => (p.1, p.2.2)) NormUL.Norms.zero = .ok N ∧ N.energy = (pts.map fun p => p.1.w * W p t).sum then h.choose else NormUL.Norms.zero, e1, ?_, ?_⟩
  · filter_upwards [hN] with t ht
    rw [dif_pos ht]
    exact ht.choose_spec.1
  · have hder : HasDerivAt (fun t => (pts.map fun p => p.1.w * W p t).sum) (pts.map fun p => p.1.w * ∑ i ∈ Finset.range d, ∑ r ∈ Finset.range d, ulP d tol (grad n u p.1.dN.e) (S p) (i + 1) (r + 1) * grad n x p.1.dN.e (i + 1) (r + 1)).sum 0 :=
      list_deriv _ _ _ fun p hpm => (hp p hpm).2.2.2.2.2.const_mul p.1.w
    refine (hder.congr_of_eventuallyEq ?_).congr_deriv ?_
    · filter_upwards [hN] with t ht
      simp only [dif_pos ht]
      exact ht.choose_spec.2
    · rw [e2.2, neg_neg, List.map_map]
      exact map_sum_congr _ _ _ fun p hpm => by
        simp only [Function.comp_apply, (hp p hpm).2.2.2.1, outS]

/-- The power of the stresses in the velocity gradient of the virtual displacements. -/
theorem sp_power (d n : Nat) (H : Nat → Nat → ℝ) (s : Nat → ℝ) (dN : DMat ℝ) (x : Nat → Nat → ℝ) :
    ratio d H * ∑ i ∈ Finset.range d, ∑ j ∈ Finset.range d, symT d false s (i + 1) (j + 1) * grad n x (pushGrad d (defF d H) dN).e (i + 1) (j + 1)
      = ∑ i ∈ Finset.range d, ∑ r ∈ Finset.range d, spP d H s (i + 1) (r + 1) * grad n x dN.e (i + 1) (r + 1) := by
  have := sp_work d n 1 H s dN x
  simpa using this

/-- **C123**, updated Lagrangian elements: the reported energy is the potential of the internal forces for every material with a strain energy function: its rate in every direction is minus the work of the forces. Where the
strains are below the tolerance, the element takes the stresses to be zero, which is required of the material here. -/
theorem C123_updated_potential (d : Nat) (hd : d = 2 ∨ d = 3) (n : Nat) (hn : 0 < n) (ps : Bool) (tol epsR : ℝ) (pts : List (FPt ℝ × Mat ℝ × EMat)) (u x : Nat → Nat → ℝ)
    (c : FPt ℝ × Mat ℝ × EMat → (Nat → Nat → ℝ) → DMat ℝ) (sig s : FPt ℝ × Mat ℝ × EMat → (Nat → Nat → ℝ) → Nat → ℝ) (W : FPt ℝ × Mat ℝ × EMat → (Nat → Nat → ℝ) → ℝ)
    (hp : ∀ p ∈ pts, p.1.dN.nr = n ∧ p.1.dN.nc = d ∧ ratio d (grad n u p.1.dN.e) ≠ 0 ∧ (∀ F E, (lead d F).det ≠ 0 → p.2.1 F E = .ok (c p F, sig p F) ∧ p.2.2 F E = .ok (s p F, W p F)) ∧ EnergyD d (W p) (sig p) ∧
      ((∀ i, 1 ≤ i → i ≤ d * (d + 1) / 2 → |greenV d (grad n u p.1.dN.e) i| ≤ tol) → ∀ i j, i < d → j < d → symT d false (sig p (defF d (grad n u p.1.dN.e))) (i + 1) (j + 1) = 0)) :
    ∃ (A : DMat ℝ) (f : DVec ℝ) (N : ℝ → NormUL.Norms ℝ), ulElement d false tol epsR ⟨d * n, dofVec d u⟩ (pts.map fun p => (p.1, p.2.1)) (DMat.zero (d * n) (d * n), DVec.zero (d * n)) = .ok (A, f) ∧
      (∀ᶠ t in 𝓝 (0 : ℝ), ulNorm d false ps epsR ⟨d * n, dofVec d fun a i => u a i + t * x a i⟩ (pts.map fun p => (p.1, p.2.2)) NormUL.Norms.zero = .ok (N t)) ∧
      HasDerivAt (fun t => (N t).energy) (-f.dot (dofVec d x)) 0 := by
  refine ul_potential d hd n hn ps tol epsR pts u x (fun p => c p (defF d (grad n u p.1.dN.e))) (fun p => sig p (defF d (grad n u p.1.dN.e))) (fun p t => s p (defF d (grad n (along u x t) p.1.dN.e)))
    (fun p t => W p (defF d (grad n (along u x t) p.1.dN.e))) fun p hpm => ?_
  obtain ⟨a1, a2, a3, a4, a5, a6⟩ := hp p hpm
  refine ⟨a1, a2, a3, (a4 _ _ a3).1, ?_, ?_⟩
  · filter_upwards [ratio_near d hd n p.1.dN u x a3] with t ht
    exact (a4 _ _ ht).2
  · have h := a5 (fun t => defF d (grad n (along u x t) p.1.dN.e)) (grad n x (pushGrad d (defF d (grad n u p.1.dN.e)) p.1.dN).e) (by rw [along_zero]; exact a3) (path_deriv d n p.1.dN u x a3)
    refine h.congr_deriv ?_
    rw [along_zero]
    show ratio d (grad n u p.1.dN.e) * _ = _
    by_cases hz : zeroStrain tol (d * (d + 1) / 2) (greenV d (grad n u p.1.dN.e)) = true
    · simp only [ulP, hz, if_true, zero_mul, Finset.sum_const_zero]
      have h0 := a6 ((zeroStrain_iff _ _ _).mp hz)
      rw [Finset.sum_eq_zero fun i hi => Finset.sum_eq_zero fun j hj => by rw [h0 i j (Finset.mem_range.mp hi) (Finset.mem_range.mp hj), zero_mul], mul_zero]
    · simp only [ulP, if_neg hz]
      exact sp_power d n _ _ p.1.dN x

/-! ### Linear materials -/

/-- A symmetric constitutive matrix for `d` dimensions. -/
def Sym (d : Nat) (D : DMat ℝ) : Prop := D.nr = d * (d + 1) / 2 ∧ D.nc = d * (d + 1) / 2 ∧ ∀ i j, D.e i j = D.e j i

/-- The second Piola-Kirchhoff stresses of the linear material. -/
noncomputable def linS (D : DMat ℝ) (E : Nat → ℝ) (i : Nat) : ℝ := ∑ j ∈ Finset.range D.nc, D.e i (j + 1) * E (j + 1)

theorem lin_rate (d : Nat) (hd : d = 2 ∨ d = 3) (n : Nat) (D : DMat ℝ) (hD : Sym d D) (dN : DMat ℝ) (u x : Nat → Nat → ℝ) :
    HasDerivAt (fun t => 1 / 2 * ∑ k ∈ Finset.range D.nr, linS D (greenV d (grad n (along u x t) dN.e)) (k + 1) * greenV d (grad n (along u x t) dN.e) (k + 1))
      (∑ i ∈ Finset.range (d * (d + 1) / 2), rateV d (grad n u dN.e) (grad n x dN.e) (i + 1) * linS D (greenV d (grad n u dN.e)) (i + 1)) 0 := by
  obtain ⟨h1, h2, h3⟩ := hD
  have hE : ∀ k, k < d * (d + 1) / 2 → HasDerivAt (fun t => greenV d (grad n (along u x t) dN.e) (k + 1)) (rateV d (grad n u dN.e) (grad n x dN.e) (k + 1)) 0 := fun k hk => by
    have := greenV_deriv d hd (grad n u dN.e) (grad n x dN.e) (k + 1) (by omega) (by omega)
    refine this.congr_of_eventuallyEq (Eventually.of_forall fun t => ?_)
    show greenV d _ _ = greenV d _ _
    rw [grad_line n u x dN.e t]
  have hS : ∀ k, HasDerivAt (fun t => linS D (greenV d (grad n (along u x t) dN.e)) k) (linS D (rateV d (grad n u dN.e) (grad n x dN.e)) k) 0 := fun k => by
    unfold linS
    exact HasDerivAt.fun_sum fun j hj => (hE j (by have := Finset.mem_range.mp hj; omega)).const_mul _
  have := (HasDerivAt.fun_sum (u := Finset.range D.nr) fun k hk => (hS (k + 1)).mul (hE k (by have := Finset.mem_range.mp hk; omega))).const_mul (1 / 2 : ℝ)
  refine this.congr_deriv ?_
  simp only [along_zero]
  rw [Finset.sum_add_distrib]
  have hsym : ∑ k ∈ Finset.range D.nr, linS D (rateV d (grad n u dN.e) (grad n x dN.e)) (k + 1) * greenV d (grad n u dN.e) (k + 1) = ∑ k ∈ Finset.range D.nr, linS D (greenV d (grad n u dN.e)) (k + 1) * rateV d (grad n u dN.e) (grad n x dN.e) (k + 1) := by
    unfold linS
    simp only [Finset.sum_mul]
    rw [h1, h2, Finset.sum_comm]
    exact Finset.sum_congr rfl fun k _ => Finset.sum_congr rfl fun j _ => by rw [h3]; ring
  rw [hsym, h1]
  rw [← two_mul, ← mul_assoc]
  norm_num
  exact Finset.sum_congr rfl fun k _ => mul_comm _ _

theorem tl_work (d : Nat) (hd : d = 2 ∨ d = 3) (H G : Nat → Nat → ℝ) (S : Nat → ℝ) :
    ∑ i ∈ Finset.range (d * (d + 1) / 2), rateV d H G (i + 1) * S (i + 1) = ∑ i ∈ Finset.range d, ∑ r ∈ Finset.range d, (∑ p ∈ Finset.range d, defF d H (i + 1) (p + 1) * symT d false S (p + 1) (r + 1)) * G (i + 1) (r + 1) := by
  unfold rateV
  rw [eng_work d hd (fun a b => ∑ k ∈ Finset.range d, defF d H (k + 1) a * G (k + 1) b) S]
  simp only [Finset.mul_sum, Finset.sum_mul]
  have e : ∀ a b, ∑ k ∈ Finset.range d, symT d false S (a + 1) (b + 1) * (defF d H (k + 1) (a + 1) * G (k + 1) (b + 1)) = ∑ k ∈ Finset.range d, defF d H (k + 1) (a + 1) * symT d false S (a + 1) (b + 1) * G (k + 1) (b + 1) :=
    fun a b => Finset.sum_congr rfl fun k _ => by ring
  simp only [e]
  rw [Finset.sum_congr rfl fun a _ => Finset.sum_comm, Finset.sum_comm]
  refine Finset.sum_congr rfl fun k _ => ?_
  rw [Finset.sum_comm]

/-- Stresses that are pushed forward have the first Piola-Kirchhoff stresses `F S`. -/
theorem sp_push (d : Nat) (hd : d = 2 ∨ d = 3) (H : Nat → Nat → ℝ) (hJ : ratio d H ≠ 0) (S : Nat → ℝ) (i r : Nat) (hi : i < d) (hr : r < d) :
    spP d H (fun k => pushStress d (defF d H) S k * (1 / ratio d H)) (i + 1) (r + 1) = ∑ p ∈ Finset.range d, defF d H (i + 1) (p + 1) * symT d false S (p + 1) (r + 1) := by
  have hu : IsUnit (lead d (defF d H)).det := isUnit_iff_ne_zero.mpr hJ
  have hs : lead d (symT d false fun k => pushStress d (defF d H) S k * (1 / ratio d H)) = (ratio d H)⁻¹ • (lead d (defF d H) * lead d (symT d false S) * (lead d (defF d H)).transpose) := by
    ext a b
    have e1 : lead d (symT d false fun k => pushStress d (defF d H) S k * (1 / ratio d H)) a b = symT d false (fun k => pushStress d (defF d H) S k * (1 / ratio d H)) (a + 1) (b + 1) := rfl
    rw [e1, symT_smul, pushStress_symT d hd _ _ _ _ (by omega) (by omega) (by omega) (by omega), Matrix.smul_apply, smul_eq_mul, mul_comm, one_div, Finset.sum_comm]
    congr 1
    rw [Matrix.mul_apply, ← Fin.sum_univ_eq_sum_range (fun q => ∑ p ∈ Finset.range d, defF d H (a + 1) (p + 1) * symT d false S (p + 1) (q + 1) * defF d H (b + 1) (q + 1)) d]
    refine Finset.sum_congr rfl fun q _ => ?_
    rw [← sum_lead d (defF d H) (symT d false S) a q, Finset.sum_mul]
    rfl
  have := congrFun (congrFun (spP_lead d H (fun k => pushStress d (defF d H) S k * (1 / ratio d H))) ⟨i, hi⟩) ⟨r, hr⟩
  refine this.trans ?_
  rw [hs, Matrix.smul_mul, smul_smul, mul_inv_cancel₀ hJ, one_smul, Matrix.mul_assoc, ← Matrix.transpose_mul, Matrix.nonsing_inv_mul _ hu, Matrix.transpose_one, Matrix.mul_one]
  exact (sum_lead d (defF d H) (symT d false S) ⟨i, hi⟩ ⟨r, hr⟩).symm

def outE1 (r : Res ((Nat → ℝ) × ℝ)) : Nat → ℝ := match r with | .ok a => a.1 | _ => fun _ => 0

def outE2 (r : Res ((Nat → ℝ) × ℝ)) : ℝ := match r with | .ok a => a.2 | _ => 0

theorem pushE_ok (d : Nat) (D : DMat ℝ) (F : Nat → Nat → ℝ) (E : Nat → ℝ) (hJ : (lead d F).det ≠ 0) :
    pushE d (linE D) F E = .ok (fun k => pushStress d F (linS D E) k * (1 / (lead d F).det), 1 / 2 * ∑ k ∈ Finset.range D.nr, linS D E (k + 1) * E (k + 1)) := by
  unfold pushE linE
  simp only [Res.bind]
  rw [if_neg hJ]
  rfl

/-- **C123**, updated Lagrangian elements of linear materials: the reported energy, the integral of half the product of the second Piola-Kirchhoff stresses and the Green-Lagrange strains, is the potential of the internal forces. -/
theorem C123_updated_linear (d : Nat) (hd : d = 2 ∨ d = 3) (n : Nat) (hn : 0 < n) (ps : Bool) (tol epsR : ℝ) (pts : List (FPt ℝ × DMat ℝ)) (u x : Nat → Nat → ℝ)
    (hp : ∀ p ∈ pts, p.1.dN.nr = n ∧ p.1.dN.nc = d ∧ ratio d (grad n u p.1.dN.e) ≠ 0 ∧ Sym d p.2 ∧
      ((∀ i, 1 ≤ i → i ≤ d * (d + 1) / 2 → |greenV d (grad n u p.1.dN.e) i| ≤ tol) → ∀ i, 1 ≤ i → i ≤ d * (d + 1) / 2 → greenV d (grad n u p.1.dN.e) i = 0)) :
    ∃ (A : DMat ℝ) (f : DVec ℝ) (N : ℝ → NormUL.Norms ℝ), ulElement d false tol epsR ⟨d * n, dofVec d u⟩ (pts.map fun p => (p.1, ulOp (pushOp d (linOp p.2)))) (DMat.zero (d * n) (d * n), DVec.zero (d * n)) = .ok (A, f) ∧
      (∀ᶠ t in 𝓝 (0 : ℝ), ulNorm d false ps epsR ⟨d * n, dofVec d fun a i => u a i + t * x a i⟩ (pts.map fun p => (p.1, pushE d (linE p.2))) NormUL.Norms.zero = .ok (N t) ∧
        (N t).energy = (pts.map fun p => p.1.w * (1 / 2 * ∑ k ∈ Finset.range p.2.nr, ∑ l ∈ Finset.range p.2.nc,
          greenV d (grad n (fun a i => u a i + t * x a i) p.1.dN.e) (k + 1) * p.2.e (k + 1) (l + 1) * greenV d (grad n (fun a i => u a i + t * x a i) p.1.dN.e) (l + 1))).sum) ∧
      HasDerivAt (fun t => (N t).energy) (-f.dot (dofVec d x)) 0 := by
  obtain ⟨A, f, N, e1, e2, e3⟩ := ul_potential d hd n hn ps tol epsR (pts.map fun p => (p.1, ulOp (pushOp d (linOp p.2)), pushE d (linE p.2))) u x
    (fun p => outC (p.2.1 (defF d (grad n u p.1.dN.e)) (greenV d (grad n u p.1.dN.e)))) (fun p => outS (p.2.1 (defF d (grad n u p.1.dN.e)) (greenV d (grad n u p.1.dN.e))))
    (fun p t => outE1 (p.2.2 (defF d (grad n (along u x t) p.1.dN.e)) (greenV d (grad n (along u x t) p.1.dN.e)))) (fun p t => outE2 (p.2.2 (defF d (grad n (along u x t) p.1.dN.e)) (greenV d (grad n (along u x t) p.1.dN.e)))) fun q hq => by
      obtain ⟨p, hpm, rfl⟩ := List.mem_map.mp hq
      obtain ⟨a1, a2, a3, a4, a5⟩ := hp p hpm
      obtain ⟨c, hc⟩ := pushOp_one d p.2 (defF d (grad n u p.1.dN.e)) (greenV d (grad n u p.1.dN.e)) a3
      have hc : ulOp (pushOp d (linOp p.2)) (defF d (grad n u p.1.dN.e)) (greenV d (grad n u p.1.dN.e)) = .ok (c, fun k => pushStress d (defF d (grad n u p.1.dN.e)) (linS p.2 (greenV d (grad n u p.1.dN.e))) k * (1 / ratio d (grad n u p.1.dN.e))) := hc
      have hev := ratio_near d hd n p.1.dN u x a3
      refine ⟨a1, a2, a3, by simp only [hc, outC, outS], ?_, ?_⟩
      · filter_upwards [hev] with t ht
        simp only [pushE_ok d p.2 _ _ ht, outE1, outE2]
      · refine ((lin_rate d hd n p.2 a4 p.1.dN u x).congr_of_eventuallyEq ?_).congr_deriv ?_
        · filter_upwards [hev] with t ht
          simp only [pushE_ok d p.2 _ _ ht, outE2]
        · simp only [hc, outS]
          by_cases hz : zeroStrain tol (d * (d + 1) / 2) (greenV d (grad n u p.1.dN.e)) = true
          · simp only [ulP, hz, if_true, zero_mul, Finset.sum_const_zero]
            have h0 := a5 ((zeroStrain_iff _ _ _).mp hz)
            refine Finset.sum_eq_zero fun i hi => ?_
            rw [linS, Finset.sum_eq_zero fun j hj => by rw [h0 (j + 1) (by omega) (by have := Finset.mem_range.mp hj; have := a4.2.1; omega), mul_zero], mul_zero]
          · simp only [ulP, if_neg hz]
            rw [tl_work d hd]
            exact Finset.sum_congr rfl fun i hi => Finset.sum_congr rfl fun r hr => by rw [sp_push d hd _ a3 _ i r (Finset.mem_range.mp hi) (Finset.mem_range.mp hr)]
  simp only [List.map_map, Function.comp_def] at e1 e2
  refine ⟨A, f, N, e1, ?_, e3⟩
  filter_upwards [e2, ev_list pts _ fun p hpm => ratio_near d hd n p.1.dN u x (hp p hpm).2.2.1] with t ht hr
  refine ⟨ht, ?_⟩
  have h := ulNorm_ok d hd n hn ps epsR pts (fun p => p.1) (fun p => pushE d (linE p.2)) (along u x t) (fun p h => ⟨(hp p h).1, (hp p h).2.1⟩) _ _ (fun p h => pushE_ok d p.2 _ _ (hr p h)) NormUL.Norms.zero
  have hN := ht.symm.trans h
  simp only [Res.ok.injEq] at hN
  rw [hN]
  refine ((total_energy pts _ _ _ (fun p => p.1.w)).1).trans (map_sum_congr _ _ _ fun p hpm => ?_)
  congr 2
  refine Finset.sum_congr rfl fun k _ => ?_
  rw [linS, Finset.sum_mul]
  exact Finset.sum_congr rfl fun l _ => by show _ = greenV d (grad n (along u x t) p.1.dN.e) (k + 1) * p.2.e (k + 1) (l + 1) * greenV d (grad n (along u x t) p.1.dN.e) (l + 1); ring

/-! ### Total Lagrangian elements -/

/-- `Ci` is the inverse of the constitutive matrix `D`. -/
def Inverse (d : Nat) (D Ci : DMat ℝ) : Prop := Ci.nr = d * (d + 1) / 2 ∧ Ci.nc = d * (d + 1) / 2 ∧
  ∀ i k, i < d * (d + 1) / 2 → k < d * (d + 1) / 2 → ∑ j ∈ Finset.range (d * (d + 1) / 2), Ci.e (i + 1) (j + 1) * D.e (j + 1) (k + 1) = if i = k then 1 else 0

theorem inv_stress (d : Nat) (D Ci : DMat ℝ) (hD : D.nc = d * (d + 1) / 2) (hI : Inverse d D Ci) (E : Nat → ℝ) :
    ∑ i ∈ Finset.range Ci.nr, linS D E (i + 1) * ∑ j ∈ Finset.range Ci.nc, Ci.e (i + 1) (j + 1) * linS D E (j + 1) = ∑ k ∈ Finset.range (d * (d + 1) / 2), linS D E (k + 1) * E (k + 1) := by
  obtain ⟨h1, h2, h3⟩ := hI
  rw [h1, h2]
  refine Finset.sum_congr rfl fun i hi => ?_
  congr 1
  unfold linS
  rw [hD]
  simp only [Finset.mul_sum]
  rw [Finset.sum_comm]
  have : ∀ k ∈ Finset.range (d * (d + 1) / 2), ∑ j ∈ Finset.range (d * (d + 1) / 2), Ci.e (i + 1) (j + 1) * (D.e (j + 1) (k + 1) * E (k + 1)) = (if i = k then 1 else 0) * E (k + 1) := fun k hk => by
    rw [← h3 i k (Finset.mem_range.mp hi) (Finset.mem_range.mp hk), Finset.sum_mul]
    exact Finset.sum_congr rfl fun j _ => by ring
  rw [Finset.sum_congr rfl this]
  simp [Finset.mem_range.mp hi]

theorem tlNorm_ok (d : Nat) (hd : d = 2 ∨ d = 3) (n : Nat) (hn : 0 < n) (epsR : ℝ) (pts : List (FPt ℝ × DMat ℝ × DMat ℝ)) (u : Nat → Nat → ℝ)
    (hp : ∀ p ∈ pts, p.1.dN.nr = n ∧ p.1.dN.nc = d ∧ p.2.1.nc = d * (d + 1) / 2 ∧ Inverse d p.2.1 p.2.2) (N : ℝ × ℝ) :
    tlNorm d epsR ⟨d * n, dofVec d u⟩ (pts.map fun p => (p.1, linOp p.2.1, p.2.2)) N
      = .ok (N.1 + (pts.map fun p => p.1.w * ∑ k ∈ Finset.range (d * (d + 1) / 2), linS p.2.1 (greenV d (grad n u p.1.dN.e)) (k + 1) * greenV d (grad n u p.1.dN.e) (k + 1)).sum, N.2 + (pts.map fun p => p.1.w).sum) := by
  induction pts generalizing N with
  | nil => simp [tlNorm]
  | cons p l ih =>
    obtain ⟨a1, a2, a3, a4⟩ := hp p (by simp)
    have hs := lin_stressAt d hd n hn epsR p.2.1 p.1 ⟨a1, a2⟩ u
    simp only [tlNorm, List.map_cons, List.sum_cons]
    unfold tlNormPt
    rw [hs]
    simp only [Res.bind]
    rw [ih fun q hq => hp q (by simp [hq])]
    have := inv_stress d p.2.1 p.2.2 a3 a4 (greenV d (grad n u p.1.dN.e))
    unfold linS at this ⊢
    simp only [this, Res.ok.injEq, Prod.mk.injEq]
    exact ⟨by ring, by ring⟩

/-- **C123**, total Lagrangian elements of linear materials: the square of the reported energy norm is the integral of the product of the second Piola-Kirchhoff stresses and the Green-Lagrange strains over the undeformed
element, half of it is the potential of the internal forces. Missing: it is not the strain energy itself (C123_total_violated). -/
theorem C123_total_partial (d : Nat) (hd : d = 2 ∨ d = 3) (n : Nat) (hn : 0 < n) (tol epsR : ℝ) (pts : List (FPt ℝ × DMat ℝ × DMat ℝ)) (u x : Nat → Nat → ℝ)
    (hp : ∀ p ∈ pts, p.1.dN.nr = n ∧ p.1.dN.nc = d ∧ Sym d p.2.1 ∧ Inverse d p.2.1 p.2.2 ∧
      ((∀ i, 1 ≤ i → i ≤ d * (d + 1) / 2 → |greenV d (grad n u p.1.dN.e) i| ≤ tol) → ∀ i, 1 ≤ i → i ≤ d * (d + 1) / 2 → greenV d (grad n u p.1.dN.e) i = 0)) :
    ∃ (A : DMat ℝ) (f : DVec ℝ) (N : ℝ → ℝ), tlElement d false tol epsR ⟨d * n, dofVec d u⟩ (pts.map fun p => (p.1, tlOp d tol (linOp p.2.1))) (DMat.zero (d * n) (d * n), DVec.zero (d * n)) = .ok (A, f) ∧
      (∀ t, tlNorm d epsR ⟨d * n, dofVec d fun a i => u a i + t * x a i⟩ (pts.map fun p => (p.1, linOp p.2.1, p.2.2)) (0, 0) = .ok (N t, (pts.map fun p => p.1.w).sum) ∧
        N t = (pts.map fun p => p.1.w * ∑ k ∈ Finset.range p.2.1.nr, ∑ l ∈ Finset.range p.2.1.nc,
          greenV d (grad n (fun a i => u a i + t * x a i) p.1.dN.e) (k + 1) * p.2.1.e (k + 1) (l + 1) * greenV d (grad n (fun a i => u a i + t * x a i) p.1.dN.e) (l + 1)).sum) ∧
      HasDerivAt (fun t => 1 / 2 * N t) (-f.dot (dofVec d x)) 0 := by
  obtain ⟨A, f, e1, -, -, e2, -⟩ := tl_element d hd n hn tol epsR (pts.map fun p => (p.1, tlOp d tol (linOp p.2.1))) u (fun q => outC (q.2 (defF d (grad n u q.1.dN.e)) (greenV d (grad n u q.1.dN.e))))
    (fun q => outS (q.2 (defF d (grad n u q.1.dN.e)) (greenV d (grad n u q.1.dN.e)))) fun q hq => by
      obtain ⟨p, hpm, rfl⟩ := List.mem_map.mp hq
      obtain ⟨a1, a2, a3, a4, a5⟩ := hp p hpm
      exact ⟨a1, a2, by simp only [tlOp, linOp, outC, outS], by simp only [tlOp, linOp, outC]; exact a3.2.1⟩
  refine ⟨A, f, fun t => (pts.map fun p => p.1.w * ∑ k ∈ Finset.range (d * (d + 1) / 2), linS p.2.1 (greenV d (grad n (along u x t) p.1.dN.e)) (k + 1) * greenV d (grad n (along u x t) p.1.dN.e) (k + 1)).sum, e1, fun t => ⟨?_, ?_⟩, ?_⟩
  · have := tlNorm_ok d hd n hn epsR pts (along u x t) (fun p h => ⟨(hp p h).1, (hp p h).2.1, (hp p h).2.2.1.2.1, (hp p h).2.2.2.1⟩) (0, 0)
    simp only [zero_add] at this
    exact this
  · refine map_sum_congr _ _ _ fun p hpm => ?_
    rw [(hp p hpm).2.2.1.1]
    congr 1
    refine Finset.sum_congr rfl fun k _ => ?_
    rw [linS, Finset.sum_mul]
    exact Finset.sum_congr rfl fun l _ => by show _ = greenV d (grad n (along u x t) p.1.dN.e) (k + 1) * p.2.1.e (k + 1) (l + 1) * greenV d (grad n (along u x t) p.1.dN.e) (l + 1); ring
  · have hder := list_deriv pts (fun t p => p.1.w * (1 / 2 * ∑ k ∈ Finset.range p.2.1.nr, linS p.2.1 (greenV d (grad n (along u x t) p.1.dN.e)) (k + 1) * greenV d (grad n (along u x t) p.1.dN.e) (k + 1))) _
      fun p hpm => (lin_rate d hd n p.2.1 (hp p hpm).2.2.1 p.1.dN u x).const_mul p.1.w
    refine (hder.congr_of_eventuallyEq (Eventually.of_forall fun t => ?_)).congr_deriv ?_
    · show 1 / 2 * _ = _
      rw [← List.sum_map_mul_left]
      refine map_sum_congr _ _ _ fun p hpm => ?_
      rw [(hp p hpm).2.2.1.1]
      ring
    · rw [e2.2, neg_neg, List.map_map]
      refine map_sum_congr _ _ _ fun p hpm => ?_
      obtain ⟨a1, a2, a3, a4, a5⟩ := hp p hpm
      simp only [Function.comp_apply]
      congr 1
      by_cases hz : zeroStrain tol (d * (d + 1) / 2) (greenV d (grad n u p.1.dN.e)) = true
      · simp only [tlP, hz, if_true, zero_mul, Finset.sum_const_zero]
        have h0 := a5 ((zeroStrain_iff _ _ _).mp hz)
        refine Finset.sum_eq_zero fun i hi => ?_
        rw [linS, Finset.sum_eq_zero fun j hj => by rw [h0 (j + 1) (by omega) (by have := Finset.mem_range.mp hj; have := a3.2.1; omega), mul_zero], mul_zero]
      · simp only [tlP, if_neg hz, tlOp, linOp, ncomp, Bool.false_eq_true, if_false, outS, OfNat.ofNat_ne_zero]
        exact tl_work d hd _ _ _

/-- The inverse of the constitutive matrix of plane stress for the modulus of elasticity 1 and Poisson's ratio 0. -/
noncomputable def plane1i : DMat ℝ := ⟨3, 3, fun i j => if i = j then (if i = 3 then 2 else 1) else 0⟩

theorem plane1_sym : Sym 2 plane1 := ⟨rfl, rfl, fun i j => by
  by_cases h : i = j
  · simp [plane1, h]
  · simp [plane1, h, Ne.symm h]⟩

theorem plane1_inv : Inverse 2 plane1 plane1i := by
  refine ⟨rfl, rfl, fun i k hi hk => ?_⟩
  have hi : i < 3 := hi
  have hk : k < 3 := hk
  interval_cases i <;> interval_cases k <;> simp [plane1, plane1i]

/-- C123: the energy reported for a total Lagrangian element is no potential of its internal forces. Stretching the triangle by `a`, total and updated Lagrangian elements of the same linear material have the same forces, but the
energy reported for the total Lagrangian element is twice that reported for the updated Lagrangian element, and its rate twice the work of the forces. Both are printed as energy norm of the finite element solution. -/
theorem C123_total_violated (a tol epsR : ℝ) (ha : 0 < a) (ht : tol < a + a * a / 2) :
    (∃ A f, tlElement 2 false tol epsR ⟨2 * 3, dofVec 2 (stretch a)⟩ [(triangle, tlOp 2 tol (linOp plane1))] (DMat.zero (2 * 3) (2 * 3), DVec.zero (2 * 3)) = .ok (A, f) ∧ f.dot (dofVec 2 (stretch 1)) = -((1 + a) * (a + a * a / 2) / 2)) ∧
    (∃ A f, ulElement 2 false tol epsR ⟨2 * 3, dofVec 2 (stretch a)⟩ [(triangle, ulOp (pushOp 2 (linOp plane1)))] (DMat.zero (2 * 3) (2 * 3), DVec.zero (2 * 3)) = .ok (A, f) ∧
      f.dot (dofVec 2 (stretch 1)) = -((1 + a) * (a + a * a / 2) / 2)) ∧
    (∃ N : ℝ → ℝ, (∀ b, tlNorm 2 epsR ⟨2 * 3, dofVec 2 (stretch b)⟩ [(triangle, linOp plane1, plane1i)] (0, 0) = .ok (N b, 1 / 2)) ∧ N a = (a + a * a / 2) ^ 2 / 2 ∧ HasDerivAt N ((1 + a) * (a + a * a / 2)) a) ∧
    (∀ ps, ∃ N, ulNorm 2 false ps epsR ⟨2 * 3, dofVec 2 (stretch a)⟩ [(triangle, pushE 2 (linE plane1))] NormUL.Norms.zero = .ok N ∧ N.energy = (a + a * a / 2) ^ 2 / 4) ∧
    (a + a * a / 2) ^ 2 / 2 ≠ (a + a * a / 2) ^ 2 / 4 ∧ (1 + a) * (a + a * a / 2) ≠ (1 + a) * (a + a * a / 2) / 2 := by
  obtain ⟨-, -, v1, v2, -⟩ := C121_total_violated a tol epsR ha ht
  have hE : 0 < a + a * a / 2 := by positivity
  refine ⟨v1, v2, ⟨fun b => (b + b * b / 2) ^ 2 / 2, fun b => ?_, rfl, ?_⟩, fun ps => ?_, ?_, ?_⟩
  · have := tlNorm_ok 2 (.inl rfl) 3 (by omega) epsR [(triangle, plane1, plane1i)] (stretch b) (fun p hp => by obtain rfl := List.mem_singleton.mp hp; exact ⟨rfl, rfl, rfl, plane1_inv⟩) (0, 0)
    refine this.trans ?_
    obtain ⟨g1, g2, g3⟩ := stretch_green b
    simp [linS, plane1, Finset.sum_range_succ, g1, g2, g3]
    rw [show triangle.w = (1 / 2 : ℝ) from rfl]
    refine ⟨by ring, by norm_num⟩
  · have h := (((hasDerivAt_id a).add (((hasDerivAt_id a).mul (hasDerivAt_id a)).div_const 2)).pow 2).div_const 2
    refine h.congr_deriv ?_
    simp
    ring
  · have hr : ratio 2 (grad 3 (stretch a) triangle.dN.e) ≠ 0 := by rw [stretch_ratio]; positivity
    have := ulNorm_ok 2 (.inl rfl) 3 (by omega) ps epsR [(triangle, plane1)] (fun p => p.1) (fun p => pushE 2 (linE p.2)) (stretch a) (fun p hp => by obtain rfl := List.mem_singleton.mp hp; exact ⟨rfl, rfl⟩)
      (fun p k => pushStress 2 (defF 2 (grad 3 (stretch a) p.1.dN.e)) (linS p.2 (greenV 2 (grad 3 (stretch a) p.1.dN.e))) k * (1 / (lead 2 (defF 2 (grad 3 (stretch a) p.1.dN.e))).det))
      (fun p => 1 / 2 * ∑ k ∈ Finset.range p.2.nr, linS p.2 (greenV 2 (grad 3 (stretch a) p.1.dN.e)) (k + 1) * greenV 2 (grad 3 (stretch a) p.1.dN.e) (k + 1))
      (fun p hp => by obtain rfl := List.mem_singleton.mp hp; exact pushE_ok 2 plane1 _ _ hr) NormUL.Norms.zero
    refine ⟨_, this, ?_⟩
    refine ((total_energy [(triangle, plane1)] _ _ _ (fun p => p.1.w)).1).trans ?_
    obtain ⟨g1, g2, g3⟩ := stretch_green a
    simp [linS, plane1, Finset.sum_range_succ, g1, g2, g3]
    rw [show triangle.w = (1 / 2 : ℝ) from rfl]
    ring
  · intro h; nlinarith [pow_pos hE 2]
  · intro h; nlinarith [mul_pos (by linarith : 0 < 1 + a) hE]

/-! ### The neo-Hookean materials -/

theorem neo_sym (o : NeoHooke.Out) : lead 3 (symT 3 false fun k => o.S.v (k - 1)) = NeoHooke.sig o := by
  ext i j
  fin_cases i <;> fin_cases j <;> simp [lead, symT, NeoHooke.sig, NeoHooke.voigt]

theorem neo_op (mVER iVOL : Nat) (K G : ℝ) (F : Nat → Nat → ℝ) (E : Nat → ℝ) (o : NeoHooke.Out) (h : NeoHooke.evaluate3 mVER iVOL K G (lead 3 F) = .ok o) : ulOp (neoOp mVER iVOL K G) F E = .ok (o.C, fun k => o.S.v (k - 1)) := by
  simp [ulOp, neoOp, h, Res.bind]

/-- **C122**: the neo-Hookean materials are objective. -/
theorem C122_neohooke (mVER iVOL : Nat) (hm : mVER = 1 ∨ mVER = 2) (K G : ℝ) : Objective 3 (ulOp (neoOp mVER iVOL K G)) := by
  intro Q F F' E C s hQ hJ hF hs
  have hl := leadF_turned 3 Q F F' hF
  have hq := rot_lead 3 Q hQ
  obtain ⟨o, o', -, h1, h2, -, h3, -⟩ := NeoHooke.C26_frame mVER iVOL hm K G (lead 3 F) (lead 3 Q) hJ (mul_eq_one_comm.1 hq) hQ.2
  rw [neo_op _ _ _ _ _ _ o h1] at hs
  simp only [Res.ok.injEq, Prod.mk.injEq] at hs
  rw [← hl] at h2
  refine ⟨_, _, neo_op _ _ _ _ _ _ o' h2, fun i j hi hj => ?_⟩
  rw [← hs.2]
  have e := congrFun (congrFun ((neo_sym o').trans h3) ⟨i, hi⟩) ⟨j, hj⟩
  rw [← neo_sym o, Matrix.mul_apply] at e
  refine e.trans ?_
  rw [Finset.sum_comm, ← Fin.sum_univ_eq_sum_range (fun l => ∑ k ∈ Finset.range 3, Q (i + 1) (k + 1) * symT 3 false (fun k => o.S.v (k - 1)) (k + 1) (l + 1) * Q (j + 1) (l + 1)) 3]
  refine Finset.sum_congr rfl fun l _ => ?_
  rw [← sum_lead 3 Q (symT 3 false fun k => o.S.v (k - 1)) ⟨i, hi⟩ l, Finset.sum_mul]
  rfl

theorem lead_line (n : Nat) (dN : DMat ℝ) (u x : Nat → Nat → ℝ) (hJ : ratio 3 (grad n u dN.e) ≠ 0) (t : ℝ) :
    lead 3 (defF 3 (grad n (along u x t) dN.e)) = (1 + t • lead 3 (grad n x (pushGrad 3 (defF 3 (grad n u dN.e)) dN).e)) * lead 3 (defF 3 (grad n u dN.e)) := by
  ext i j
  rw [add_mul, one_mul, Matrix.add_apply, Matrix.smul_mul, Matrix.smul_apply, ← sum_lead, pushGrad_mul 3 _ hJ n dN x (i + 1) j j.2]
  show defF 3 _ _ _ = defF 3 _ _ _ + _
  simp only [grad_line, defF, if_pos (show (1 ≤ (i : Nat) + 1 ∧ (i : Nat) + 1 ≤ 3) ∧ 1 ≤ (j : Nat) + 1 ∧ (j : Nat) + 1 ≤ 3 from ⟨⟨by omega, by omega⟩, by omega, by omega⟩), smul_eq_mul]
  ring

/-- **C123**: in three dimensions, the energy reported for updated Lagrangian elements of the neo-Hookean materials is the potential of the internal forces, at states whose strain energy density is not zero. -/
theorem C123_neohooke (mVER iVOL : Nat) (hv : iVOL ≠ 4) (K G : ℝ) (n : Nat) (hn : 0 < n) (ps : Bool) (tol epsR : ℝ) (pts : List (FPt ℝ)) (u x : Nat → Nat → ℝ)
    (hp : ∀ p ∈ pts, p.dN.nr = n ∧ p.dN.nc = 3 ∧ (mVER = 1 ∧ ratio 3 (grad n u p.dN.e) ≠ 0 ∨ mVER = 2 ∧ 0 < ratio 3 (grad n u p.dN.e)) ∧ (∃ i, 1 ≤ i ∧ i ≤ 6 ∧ tol < |greenV 3 (grad n u p.dN.e) i|) ∧
      ∃ o, NeoHooke.evaluate3 mVER iVOL K G (lead 3 (defF 3 (grad n u p.dN.e))) = .ok o ∧ o.U ≠ 0) :
    ∃ (A : DMat ℝ) (f : DVec ℝ) (N : ℝ → NormUL.Norms ℝ), ulElement 3 false tol epsR ⟨3 * n, dofVec 3 u⟩ (pts.map fun p => (p, ulOp (neoOp mVER iVOL K G))) (DMat.zero (3 * n) (3 * n), DVec.zero (3 * n)) = .ok (A, f) ∧
      (∀ᶠ t in 𝓝 (0 : ℝ), ulNorm 3 false ps epsR ⟨3 * n, dofVec 3 fun a i => u a i + t * x a i⟩ (pts.map fun p => (p, neoE mVER iVOL K G)) NormUL.Norms.zero = .ok (N t)) ∧
      HasDerivAt (fun t => (N t).energy) (-f.dot (dofVec 3 x)) 0 := by
  have hm : ∀ p ∈ pts, mVER = 1 ∨ mVER = 2 := fun p h => (hp p h).2.2.1.imp (·.1) (·.1)
  have hR : ∀ p ∈ pts, ratio 3 (grad n u p.dN.e) ≠ 0 := fun p h => (hp p h).2.2.1.elim (·.2) (·.2.ne')
  have hyp : ∀ p ∈ pts, NeoHooke.Hyperelastic (NeoHooke.evaluate3 mVER iVOL K G) (lead 3 (defF 3 (grad n u p.dN.e))) := fun p h => by
    rcases (hp p h).2.2.1 with ⟨rfl, h2⟩ | ⟨rfl, h2⟩
    · exact NeoHooke.C26_standard_partial iVOL hv K G _ h2
    · exact NeoHooke.C26_modified_partial iVOL hv K G _ h2
  obtain ⟨A, f, N, e1, e2, e3⟩ := ul_potential 3 (.inr rfl) n hn ps tol epsR (pts.map fun p => (p, ulOp (neoOp mVER iVOL K G), neoE mVER iVOL K G)) u x
    (fun q => outC (q.2.1 (defF 3 (grad n u q.1.dN.e)) (greenV 3 (grad n u q.1.dN.e)))) (fun q => outS (q.2.1 (defF 3 (grad n u q.1.dN.e)) (greenV 3 (grad n u q.1.dN.e))))
    (fun q t => outE1 (q.2.2 (defF 3 (grad n (along u x t) q.1.dN.e)) (greenV 3 (grad n (along u x t) q.1.dN.e)))) (fun q t => outE2 (q.2.2 (defF 3 (grad n (along u x t) q.1.dN.e)) (greenV 3 (grad n (along u x t) q.1.dN.e)))) fun q hq => by
      obtain ⟨p, hpm, rfl⟩ := List.mem_map.mp hq
      obtain ⟨a1, a2, -, a4, o, a5, a6⟩ := hp p hpm
      have a3 := hR p hpm
      have hop := neo_op mVER iVOL K G (defF 3 (grad n u p.dN.e)) (greenV 3 (grad n u p.dN.e)) o a5
      obtain ⟨o2, b1, -, -, -, b2⟩ := hyp p hpm
      obtain rfl : o = o2 := by rw [a5] at b1; injection b1
      have b3 := (b2 (lead 3 (grad n x (pushGrad 3 (defF 3 (grad n u p.dN.e)) p.dN).e))).1
      simp only [← lead_line n p.dN u x a3] at b3
      have near := ratio_near 3 (.inr rfl) n p.dN u x a3
      have ok : ∀ t, ratio 3 (grad n (along u x t) p.dN.e) ≠ 0 → ∃ o, NeoHooke.evaluate3 mVER iVOL K G (lead 3 (defF 3 (grad n (along u x t) p.dN.e))) = .ok o := fun t ht => by
        obtain ⟨f, g, w, h⟩ := NeoHooke.isotropic_form mVER iVOL (hm p hpm) K G
        obtain ⟨o, h, -⟩ := h _ ht
        exact ⟨o, h⟩
      have nz : ∀ᶠ t in 𝓝 (0 : ℝ), NeoHooke.val NeoHooke.Out.U (NeoHooke.evaluate3 mVER iVOL K G (lead 3 (defF 3 (grad n (along u x t) p.dN.e)))) ≠ 0 :=
        b3.continuousAt.eventually_ne (by rw [along_zero, a5]; exact a6)
      refine ⟨a1, a2, a3, by simp only [hop, outC, outS], ?_, ?_⟩
      · filter_upwards [near] with t ht
        obtain ⟨o, ho⟩ := ok t ht
        simp only [neoE, ho, Res.bind, outE1, outE2]
      · refine (b3.congr_of_eventuallyEq ?_).congr_deriv ?_
        · filter_upwards [near, nz] with t ht hz
          obtain ⟨o, ho⟩ := ok t ht
          rw [ho] at hz ⊢
          simp only [NeoHooke.val] at hz ⊢
          simp only [neoE, ho, Res.bind, outE2, if_neg hz]
        · have hz : ¬ zeroStrain tol (3 * (3 + 1) / 2) (greenV 3 (grad n u p.dN.e)) = true := fun hz => by
            obtain ⟨i, i1, i2, i3⟩ := a4
            exact absurd ((zeroStrain_iff _ _ _).mp hz i i1 i2) (not_le.mpr i3)
          simp only [ulP, if_neg hz]
          rw [← sp_power 3 n _ _ p.dN x]
          show ratio 3 (grad n u p.dN.e) * _ = _
          congr 1
          simp only [hop, outS]
          rw [← neo_sym, ← Fin.sum_univ_eq_sum_range (fun i => ∑ j ∈ Finset.range 3, symT 3 false (fun k => o.S.v (k - 1)) (i + 1) (j + 1) * grad n x (pushGrad 3 (defF 3 (grad n u p.dN.e)) p.dN).e (i + 1) (j + 1)) 3]
          refine Finset.sum_congr rfl fun i _ => ?_
          rw [← Fin.sum_univ_eq_sum_range (fun j => symT 3 false (fun k => o.S.v (k - 1)) (i + 1) (j + 1) * grad n x (pushGrad 3 (defF 3 (grad n u p.dN.e)) p.dN).e (i + 1) (j + 1)) 3]
          rfl
  rw [List.map_map] at e1
  simp only [List.map_map] at e2
  exact ⟨A, f, N, e1, e2, e3⟩

/-! ### Examples -/

theorem stretched (a : ℝ) (ha : 0 < a) : ratio 2 (grad 3 (stretch a) triangle.dN.e) ≠ 0 ∧ 0 < greenV 2 (grad 3 (stretch a) triangle.dN.e) 1 :=
  ⟨by rw [stretch_ratio]; positivity, by rw [(stretch_green a).1]; positivity⟩

example : ∃ N, ulNorm 2 false true 0 ⟨2 * 3, dofVec 2 (stretch 1)⟩ [(triangle, pushE 2 (linE plane1))] NormUL.Norms.zero = .ok N ∧ N.vol = 1 := by
  obtain ⟨N, h1, -, h3, -⟩ := C123_updated_norms 2 (.inl rfl) 3 (by omega) true 0 [(triangle, pushE 2 (linE plane1))] (stretch 1) (fun p hp => by obtain rfl := List.mem_singleton.mp hp; exact ⟨rfl, rfl⟩)
    (fun p => outE1 (p.2 (defF 2 (grad 3 (stretch 1) p.1.dN.e)) (greenV 2 (grad 3 (stretch 1) p.1.dN.e)))) (fun p => outE2 (p.2 (defF 2 (grad 3 (stretch 1) p.1.dN.e)) (greenV 2 (grad 3 (stretch 1) p.1.dN.e))))
    (fun p hp => by
      obtain rfl := List.mem_singleton.mp hp
      simp only [pushE_ok 2 plane1 _ _ (stretched 1 one_pos).1, outE1, outE2])
  refine ⟨N, h1, h3.trans ?_⟩
  simp [stretch_ratio]
  norm_num [triangle]

example (x : Nat → Nat → ℝ) : ∃ (A : DMat ℝ) (f : DVec ℝ) (N : ℝ → NormUL.Norms ℝ), ulElement 2 false 0 0 ⟨2 * 3, dofVec 2 (stretch 1)⟩ [(triangle, fun F _ => .ok (hookeC 1 F, hooke2 1 F))] (DMat.zero (2 * 3) (2 * 3), DVec.zero (2 * 3)) = .ok (A, f) ∧
    (∀ᶠ t in 𝓝 (0 : ℝ), ulNorm 2 false true 0 ⟨2 * 3, dofVec 2 fun a i => stretch 1 a i + t * x a i⟩ [(triangle, fun F _ => .ok (hooke2 1 F, hookeW 1 F))] NormUL.Norms.zero = .ok (N t)) ∧ HasDerivAt (fun t => (N t).energy) (-f.dot (dofVec 2 x)) 0 :=
  C123_updated_potential 2 (.inl rfl) 3 (by omega) true 0 0 [(triangle, (fun F _ => .ok (hookeC 1 F, hooke2 1 F)), fun F _ => .ok (hooke2 1 F, hookeW 1 F))] (stretch 1) x (fun _ => hookeC 1) (fun _ => hooke2 1) (fun _ => hooke2 1) (fun _ => hookeW 1)
    fun p hp => by
      obtain rfl := List.mem_singleton.mp hp
      exact ⟨rfl, rfl, (stretched 1 one_pos).1, fun F E _ => ⟨rfl, rfl⟩, hookeW_ok 1, fun h => absurd (h 1 (by omega) (by omega)) (not_le.mpr (abs_pos.mpr (stretched 1 one_pos).2.ne'))⟩

example (x : Nat → Nat → ℝ) : ∃ (A : DMat ℝ) (f : DVec ℝ) (N : ℝ → NormUL.Norms ℝ), ulElement 2 false 0 0 ⟨2 * 3, dofVec 2 (stretch 1)⟩ [(triangle, ulOp (pushOp 2 (linOp plane1)))] (DMat.zero (2 * 3) (2 * 3), DVec.zero (2 * 3)) = .ok (A, f) ∧
    HasDerivAt (fun t => (N t).energy) (-f.dot (dofVec 2 x)) 0 := by
  obtain ⟨A, f, N, h1, -, h3⟩ := C123_updated_linear 2 (.inl rfl) 3 (by omega) true 0 0 [(triangle, plane1)] (stretch 1) x fun p hp => by
    obtain rfl := List.mem_singleton.mp hp
    exact ⟨rfl, rfl, (stretched 1 one_pos).1, plane1_sym, fun h => absurd (h 1 (by omega) (by omega)) (not_le.mpr (abs_pos.mpr (stretched 1 one_pos).2.ne'))⟩
  exact ⟨A, f, N, h1, h3⟩

example (x : Nat → Nat → ℝ) : ∃ (A : DMat ℝ) (f : DVec ℝ) (N : ℝ → ℝ), tlElement 2 false 0 0 ⟨2 * 3, dofVec 2 (stretch 1)⟩ [(triangle, tlOp 2 0 (linOp plane1))] (DMat.zero (2 * 3) (2 * 3), DVec.zero (2 * 3)) = .ok (A, f) ∧
    HasDerivAt (fun t => 1 / 2 * N t) (-f.dot (dofVec 2 x)) 0 := by
  obtain ⟨A, f, N, h1, -, h3⟩ := C123_total_partial 2 (.inl rfl) 3 (by omega) 0 0 [(triangle, plane1, plane1i)] (stretch 1) x fun p hp => by
    obtain rfl := List.mem_singleton.mp hp
    exact ⟨rfl, rfl, plane1_sym, plane1_inv, fun h => absurd (h 1 (by omega) (by omega)) (not_le.mpr (abs_pos.mpr (stretched 1 one_pos).2.ne'))⟩
  exact ⟨A, f, N, h1, h3⟩

/-- A tetrahedron with one integration point. -/
noncomputable def tetra : FPt ℝ := ⟨⟨4, fun _ => 1 / 4⟩, ⟨4, 3, fun a j => if a = 1 then -1 else if a = j + 1 then 1 else 0⟩, 1, 1 / 6⟩

theorem tetra_lead : lead 3 (defF 3 (grad 4 (stretch 1) tetra.dN.e)) = !![2, 0, 0; 0, 1, 0; 0, 0, 1] := by
  ext i j
  fin_cases i <;> fin_cases j <;> simp [lead, defF, grad, tetra, stretch, Finset.sum_range_succ] <;> norm_num

example (x : Nat → Nat → ℝ) : ∃ (A : DMat ℝ) (f : DVec ℝ) (N : ℝ → NormUL.Norms ℝ), ulElement 3 false 0 0 ⟨3 * 4, dofVec 3 (stretch 1)⟩ [(tetra, ulOp (neoOp 1 2 1 1))] (DMat.zero (3 * 4) (3 * 4), DVec.zero (3 * 4)) = .ok (A, f) ∧
    HasDerivAt (fun t => (N t).energy) (-f.dot (dofVec 3 x)) 0 := by
  have hd : ratio 3 (grad 4 (stretch 1) tetra.dN.e) = 2 := by
    unfold ratio
    rw [tetra_lead]
    simp [Matrix.det_fin_three]
  obtain ⟨A, f, N, h1, -, h3⟩ := C123_neohooke 1 2 (by omega) 1 1 4 (by omega) false 0 0 [tetra] (stretch 1) x fun p hp => by
    obtain rfl := List.mem_singleton.mp hp
    refine ⟨rfl, rfl, .inl ⟨rfl, by rw [hd]; norm_num⟩, ⟨1, by omega, by omega, ?_⟩, ?_⟩
    · simp [greenV, engineering, eng3, green, Finset.sum_range_succ, grad, tetra, stretch]
      norm_num
    · obtain ⟨o, h, -, -, -, hU, -⟩ := NeoHooke.std_eval 2 1 1 (lead 3 (defF 3 (grad 4 (stretch 1) tetra.dN.e))) (by show ratio 3 _ ≠ 0; rw [hd]; norm_num)
      refine ⟨o, h, ?_⟩
      rw [hU, show (lead 3 (defF 3 (grad 4 (stretch 1) tetra.dN.e))).det = 2 from hd, tetra_lead]
      have := Real.log_le_sub_one_of_pos (show (0 : ℝ) < 2 by norm_num)
      simp [Matrix.mul_apply, Fin.sum_univ_three, NeoHooke.volumetricModuli]
      intro h
      linarith
  exact ⟨A, f, N, h1, h3⟩

end Verif.Finite
