/- Property C134: free vibrations of a whole solid model in linear elasticity. -/
import Verif.Model.Vibration
import Verif.Props.Structure
import Verif.Proofs.Spectral

set_option linter.unusedSectionVars false
set_option linter.unnecessarySeqFocus false
set_option linter.unusedSimpArgs false

namespace Verif.Struct

open Verif.Cont ContSpec

variable {K : Type*} [Field K]

/-! ### Specification -/

/-- Twice the kinetic energy of velocities `u`, or more generally the integral of density times the product of two velocities, in the whole body. -/
def kin (d : Nat) (es : List (VElm K)) (v u : Nat → Nat → K) : K :=
  (es.map fun e => (e.pts.map fun p => p.rho * p.q.w * ∑ i ∈ Finset.range d, val e.nen (loc e.solid v) p.N.e (i + 1) * val e.nen (loc e.solid u) p.N.e (i + 1)).sum).sum

/-- The mass of the body. -/
def mass (es : List (VElm K)) : K := (es.map fun e => (e.pts.map fun p => p.rho * p.q.w).sum).sum

/-- The integral of density times a function of the element and the integration point. -/
def integral (es : List (VElm K)) (f : VElm K → VPt K → K) : K := (es.map fun e => (e.pts.map fun p => p.rho * p.q.w * f e p).sum).sum

/-- A sound model of a vibrating body: the values of the basis functions have sum one, densities are not negative. -/
structure Heavy [LinearOrder K] (d n : Nat) (x : Nat → Nat → K) (es : List (VElm K)) : Prop where
  sound : Sound d n x (es.map VElm.solid)
  size : ∀ e ∈ es, ∀ p ∈ e.pts, p.N.n = e.nen
  unity : ∀ e ∈ es, ∀ p ∈ e.pts, ∑ a ∈ Finset.range e.nen, p.N.e (a + 1) = 1
  density : ∀ e ∈ es, ∀ p ∈ e.pts, 0 ≤ p.rho

/-! ### Proofs -/

section
variable [LinearOrder K] [IsStrictOrderedRing K]

theorem vibAll_ok (d n : Nat) (x : Nat → Nat → K) (es : List (VElm K)) (h : Heavy d n x es) (e : VElm K) (he : e ∈ es) (pts : List (VPt K)) (hp : ∀ p ∈ pts, p ∈ e.pts) :
    ∀ A : DMat K × DMat K, A.1.nr = d * e.nen → A.1.nc = d * e.nen → A.2.nr = d * e.nen → A.2.nc = d * e.nen →
      ∃ B, vibAll d pts A = .ok B ∧ evalAll d (pts.map VPt.q) A.1 = .ok B.1 ∧ B.2.nr = d * e.nen ∧ B.2.nc = d * e.nen ∧ ∀ v u,
        B.2.bil (dofVec d v) (dofVec d u) = A.2.bil (dofVec d v) (dofVec d u) +
          (pts.map fun p => p.rho * p.q.w * ∑ i ∈ Finset.range d, val e.nen v p.N.e (i + 1) * val e.nen u p.N.e (i + 1)).sum := by
  have hes : e.solid ∈ es.map VElm.solid := List.mem_map.mpr ⟨e, he, rfl⟩
  induction pts with
  | nil => exact fun A h1 h2 h3 h4 => ⟨A, rfl, rfl, h3, h4, fun v u => by simp⟩
  | cons p l ih =>
    intro A h1 h2 h3 h4
    have hpe := hp p (by simp)
    have hpq : p.q ∈ e.solid.pts := List.mem_map.mpr ⟨p, hpe, rfl⟩
    obtain ⟨A1, k1, k2, k3, -⟩ := evalAll_bil d n x _ h.sound e.solid hes [p.q] (fun q hq => by rw [List.mem_singleton.mp hq]; exact hpq) A.1 h1 h2
    have k1' : evalInt d A.1 p.q = .ok A1 := by
      simp only [evalAll] at k1
      cases hc : evalInt d A.1 p.q with
      | ok B => rw [hc] at k1; simp only [Res.bind] at k1; rw [k1]
      | fail => rw [hc] at k1; simp only [Res.bind] at k1; exact absurd k1 (by simp)
      | ub => rw [hc] at k1; simp only [Res.bind] at k1; exact absurd k1 (by simp)
    have hN := h.size e he p hpe
    obtain ⟨M1, m1, m2, m3, m4⟩ := formMass_ok d A.2 p.N p.rho p.q.w (by rw [h3, hN]) (by rw [h4, hN])
    obtain ⟨B, b1, b2, b3, b4, b5⟩ := ih (fun q hq => hp q (by simp [hq])) (A1, M1) k2 k3 (m2.trans h3) (m3.trans h4)
    refine ⟨B, ?_, ?_, b3, b4, fun v u => ?_⟩
    · simp only [vibAll, vibInt, k1', m1, Res.bind]; exact b1
    · simp only [List.map_cons, evalAll, k1', Res.bind]; exact b2
    · rw [b5, m4, List.map_cons, List.sum_cons, add_assoc, hN]
      simp only [val, mul_comm]

theorem vibs_ok (d n : Nat) (x : Nat → Nat → K) (es : List (VElm K)) (h : Heavy d n x es) (l : List (VElm K)) (hl : ∀ e ∈ l, e ∈ es) :
    ∃ r, vibs d l = .ok r ∧ matrices d (l.map VElm.solid) = .ok r.1 ∧ (∀ e ∈ r.2, e.1 ∈ es.map VElm.solid ∧ e.2.nr = d * e.1.nen ∧ e.2.nc = d * e.1.nen) ∧
      ∀ v u, (r.2.map fun e => e.2.bil (dofVec d (loc e.1 v)) (dofVec d (loc e.1 u))).sum = kin d l v u := by
  induction l with
  | nil => exact ⟨([], []), rfl, rfl, by simp, fun v u => by simp [kin]⟩
  | cons e l ih =>
    obtain ⟨r, h1, h2, h3, h4⟩ := ih fun e he => hl e (by simp [he])
    have he := hl e (by simp)
    obtain ⟨B, b1, b2, b3, b4, b5⟩ := vibAll_ok d n x es h e he e.pts (fun p hp => hp) (DMat.zero (d * e.nen) (d * e.nen), DMat.zero (d * e.nen) (d * e.nen)) rfl rfl rfl rfl
    refine ⟨((e.solid, B.1) :: r.1, (e.solid, B.2) :: r.2), ?_, ?_, fun q hq => ?_, fun v u => ?_⟩
    · simp only [vibs, b1, Res.bind, h1]
    · simp only [List.map_cons, matrices, elmK, Res.bind, h2]
      rw [show evalAll d e.solid.pts (DMat.zero (d * e.solid.nen) (d * e.solid.nen)) = .ok B.1 from b2]
    · rcases List.mem_cons.mp hq with rfl | hq
      · exact ⟨List.mem_map.mpr ⟨e, he, rfl⟩, b3, b4⟩
      · exact h3 q hq
    · rw [List.map_cons, List.sum_cons, h4, b5]
      simp only [kin, List.map_cons, List.sum_cons]
      have : (DMat.zero (d * e.nen) (d * e.nen) : DMat K).bil (dofVec d (loc e.solid v)) (dofVec d (loc e.solid u)) = 0 := by simp [DMat.bil, DMat.zero]
      rw [this, zero_add]

/-- C134 (energies): the assembly succeeds; the quadratic form of the stiffness matrix is the strain energy (twice) and that of the mass matrix the kinetic energy (twice). -/
theorem C134_energies (d n : Nat) (x : Nat → Nat → K) (es : List (VElm K)) (h : Heavy d n x es) : ∃ r, vibs d es = .ok r ∧
    (∀ v u, ∑ a ∈ Finset.range n, ∑ i ∈ Finset.range d, v (a + 1) (i + 1) * nodal d n (asmK d r.1) u (a + 1) (i + 1) = work d (es.map VElm.solid) v u) ∧
    ∀ v u, ∑ a ∈ Finset.range n, ∑ i ∈ Finset.range d, v (a + 1) (i + 1) * nodal d n (asmK d r.2) u (a + 1) (i + 1) = kin d es v u := by
  obtain ⟨r, h1, h2, h3, h4⟩ := vibs_ok d n x es h es fun _ he => he
  obtain ⟨ms, k1, k2⟩ := C132_virtual_work d n x _ h.sound
  rw [h2] at k1; cases k1
  exact ⟨r, h1, k2, fun v u => (virtual_work_bil d n r.2 (fun e he => h.sound.nodes e.1 (h3 e he).1) (fun e he => (h3 e he).2) v u).trans (h4 v u)⟩

theorem kin_symm (d : Nat) (es : List (VElm K)) (v u : Nat → Nat → K) : kin d es v u = kin d es u v := by
  unfold kin
  refine congrArg List.sum (List.map_congr_left fun e _ => congrArg List.sum (List.map_congr_left fun p _ => congrArg (p.rho * p.q.w * ·) ?_))
  exact Finset.sum_congr rfl fun _ _ => mul_comm _ _

theorem kin_nonneg (d n : Nat) (x : Nat → Nat → K) (es : List (VElm K)) (h : Heavy d n x es) (u : Nat → Nat → K) : 0 ≤ kin d es u u := by
  unfold kin
  refine list_sum_nonneg _ fun a ha => ?_
  obtain ⟨e, he, rfl⟩ := List.mem_map.mp ha
  refine list_sum_nonneg _ fun a ha => ?_
  obtain ⟨p, hp, rfl⟩ := List.mem_map.mp ha
  exact mul_nonneg (mul_nonneg (h.density e he p hp) (h.sound.weight e.solid (List.mem_map.mpr ⟨e, he, rfl⟩) p.q (List.mem_map.mpr ⟨p, hp, rfl⟩)).le) (Finset.sum_nonneg fun i _ => mul_self_nonneg _)

/-- The energy identity of a mode, against any admissible displacements. -/
theorem mode_test (d n : Nat) (Kg Mg : Nat → Nat → Nat → Nat → K) (fixed : Nat → Nat → Prop) (lam : K) (phi v : Nat → Nat → K) (hm : Mode d n Kg Mg fixed lam phi)
    (hv : ∀ a i, a < n → i < d → fixed (a + 1) (i + 1) → v (a + 1) (i + 1) = 0) :
    ∑ a ∈ Finset.range n, ∑ i ∈ Finset.range d, v (a + 1) (i + 1) * nodal d n Kg phi (a + 1) (i + 1) =
      lam * ∑ a ∈ Finset.range n, ∑ i ∈ Finset.range d, v (a + 1) (i + 1) * nodal d n Mg phi (a + 1) (i + 1) := by
  simp only [Finset.mul_sum]
  refine Finset.sum_congr rfl fun a ha => Finset.sum_congr rfl fun i hi => ?_
  by_cases hf : fixed (a + 1) (i + 1)
  · rw [hv a i (Finset.mem_range.mp ha) (Finset.mem_range.mp hi) hf]; ring
  · rw [hm.free a i (Finset.mem_range.mp ha) (Finset.mem_range.mp hi) hf]; ring

/-- C134 (frequencies): the eigenvalue of a mode is its strain energy over its kinetic energy at unit frequency; it is not negative if the mode moves any mass, and it is zero only if the mode causes no strains. -/
theorem C134_frequency (d n : Nat) (x : Nat → Nat → K) (es : List (VElm K)) (h : Heavy d n x es) (fixed : Nat → Nat → Prop) : ∃ r, vibs d es = .ok r ∧
    ∀ lam phi, Mode d n (asmK d r.1) (asmK d r.2) fixed lam phi → lam * kin d es phi phi = work d (es.map VElm.solid) phi phi ∧ (kin d es phi phi ≠ 0 → 0 ≤ lam) ∧
      (lam = 0 → ∀ e ∈ es, ∀ p ∈ e.pts, ∀ k, k < d * (d + 1) / 2 → strain d p.q (loc e.solid phi) (k + 1) = 0) := by
  obtain ⟨r, h1, h2, h3⟩ := C134_energies d n x es h
  refine ⟨r, h1, fun lam phi hm => ?_⟩
  have hE : lam * kin d es phi phi = work d (es.map VElm.solid) phi phi := by rw [← h2, ← h3, mode_test d n _ _ fixed lam phi phi hm hm.held]
  obtain ⟨w1, w2⟩ := work_nonneg d n x _ h.sound phi
  refine ⟨hE, fun hk => ?_, fun h0 e he p hp k hk => ?_⟩
  · have hk := lt_of_le_of_ne (kin_nonneg d n x es h phi) (Ne.symm hk)
    by_contra hc
    push Not at hc
    have := mul_neg_of_neg_of_pos hc hk
    rw [hE] at this
    exact absurd this (not_lt.mpr w1)
  · rw [h0, zero_mul] at hE
    exact w2 hE.symm e.solid (List.mem_map.mpr ⟨e, he, rfl⟩) p.q (List.mem_map.mpr ⟨p, hp, rfl⟩) k hk

/-- C134 (orthogonality): modes of different frequencies are orthogonal with respect to mass and stiffness. -/
theorem C134_orthogonal (d n : Nat) (x : Nat → Nat → K) (es : List (VElm K)) (h : Heavy d n x es) (fixed : Nat → Nat → Prop) : ∃ r, vibs d es = .ok r ∧
    ∀ lam mu phi psi, Mode d n (asmK d r.1) (asmK d r.2) fixed lam phi → Mode d n (asmK d r.1) (asmK d r.2) fixed mu psi → lam ≠ mu →
      kin d es phi psi = 0 ∧ work d (es.map VElm.solid) phi psi = 0 := by
  obtain ⟨r, h1, h2, h3⟩ := C134_energies d n x es h
  refine ⟨r, h1, fun lam mu phi psi hm hn hne => ?_⟩
  have e1 : mu * kin d es phi psi = work d (es.map VElm.solid) phi psi := by rw [← h2, ← h3, mode_test d n _ _ fixed mu psi phi hn hm.held]
  have e2 : lam * kin d es phi psi = work d (es.map VElm.solid) phi psi := by
    rw [work_symm, kin_symm, ← h2, ← h3, mode_test d n _ _ fixed lam phi psi hm hn.held]
  have h0 : kin d es phi psi = 0 := by
    have : (lam - mu) * kin d es phi psi = 0 := by linear_combination e2 - e1
    exact (mul_eq_zero.mp this).resolve_left (sub_ne_zero.mpr hne)
  exact ⟨h0, by rw [← e1, h0, mul_zero]⟩

/-- C134 (mass): the mass of the body moves with it: a unit velocity in any direction has twice the kinetic energy of the mass of the body, and velocities in different directions are not coupled. -/
theorem C134_mass (d n : Nat) (x : Nat → Nat → K) (es : List (VElm K)) (h : Heavy d n x es) : ∃ r, vibs d es = .ok r ∧ ∀ i j, i < d → j < d →
    ∑ a ∈ Finset.range n, ∑ b ∈ Finset.range n, asmK d r.2 (a + 1) (i + 1) (b + 1) (j + 1) = if i = j then mass es else 0 := by
  obtain ⟨r, h1, -, h3⟩ := C134_energies d n x es h
  refine ⟨r, h1, fun i j hi hj => ?_⟩
  have hk := h3 (fun _ k => if k = i + 1 then 1 else 0) (fun _ k => if k = j + 1 then 1 else 0)
  simp only [nodal, Nat.add_right_cancel_iff, mul_ite, ite_mul, mul_one, mul_zero, one_mul, zero_mul, Finset.sum_ite_eq', Finset.mem_range, if_pos hi, if_pos hj] at hk
  rw [hk]
  unfold kin mass
  have hv : ∀ e ∈ es, ∀ p ∈ e.pts, ∀ i k, val e.nen (loc e.solid fun _ k => if k = i + 1 then 1 else 0) p.N.e (k + 1) = if k = i then 1 else 0 := by
    intro e he p hp i k
    simp only [val, loc, Nat.add_right_cancel_iff]
    by_cases hki : k = i
    · simp only [if_pos hki, one_mul]; exact h.unity e he p hp
    · simp [hki]
  by_cases hij : i = j
  · subst hij
    rw [if_pos rfl]
    refine congrArg List.sum (List.map_congr_left fun e he => congrArg List.sum (List.map_congr_left fun p hp => ?_))
    simp only [hv e he p hp]
    simp [hi]
  · rw [if_neg hij]
    refine List.sum_eq_zero fun a ha => ?_
    obtain ⟨e, he, rfl⟩ := List.mem_map.mp ha
    refine List.sum_eq_zero fun b hb => ?_
    obtain ⟨p, hp, rfl⟩ := List.mem_map.mp hb
    simp only [hv e he p hp]
    rw [Finset.sum_eq_zero, mul_zero]
    intro k _
    by_cases hk : k = i
    · subst hk; simp [hij]
    · simp [hk]

theorem nodal_unit (d n : Nat) (Kg : Nat → Nat → Nat → Nat → K) (u : Nat → Nat → K) (a i : Nat) (ha : a < n) (hi : i < d) :
    ∑ b ∈ Finset.range n, ∑ j ∈ Finset.range d, (if b + 1 = a + 1 ∧ j + 1 = i + 1 then (1 : K) else 0) * nodal d n Kg u (b + 1) (j + 1) = nodal d n Kg u (a + 1) (i + 1) := by
  rw [Finset.sum_eq_single a, Finset.sum_eq_single i]
  · simp
  · intro j _ hj; simp [hj]
  · intro hn; exact absurd (Finset.mem_range.mpr hi) hn
  · intro b _ hb; exact Finset.sum_eq_zero fun j _ => by simp [hb]
  · intro hn; exact absurd (Finset.mem_range.mpr ha) hn

/-- C134 (free bodies): without supports the motions of a rigid body are modes of frequency zero, and all modes of other frequencies are free of momentum and of angular momentum. -/
theorem C134_free (d n : Nat) (x : Nat → Nat → K) (es : List (VElm K)) (h : Heavy d n x es) : ∃ r, vibs d es = .ok r ∧
    (∀ phi, Rigid d x phi → Mode d n (asmK d r.1) (asmK d r.2) (fun _ _ => False) 0 phi) ∧
    ∀ lam phi, Mode d n (asmK d r.1) (asmK d r.2) (fun _ _ => False) lam phi → lam ≠ 0 →
      (∀ i, i < d → integral es (fun e p => val e.nen (loc e.solid phi) p.N.e (i + 1)) = 0) ∧
      ∀ i j, i < d → j < d → integral es (fun e p => val e.nen (loc e.solid x) p.N.e (i + 1) * val e.nen (loc e.solid phi) p.N.e (j + 1) -
        val e.nen (loc e.solid x) p.N.e (j + 1) * val e.nen (loc e.solid phi) p.N.e (i + 1)) = 0 := by
  obtain ⟨r, h1, h2, h3⟩ := C134_energies d n x es h
  refine ⟨r, h1, fun phi hr => ⟨fun a i ha hi _ => ?_, fun _ _ _ _ hf => absurd hf id⟩, fun lam phi hm h0 => ?_⟩
  · rw [zero_mul, ← nodal_unit d n (asmK d r.1) phi a i ha hi, h2 (fun b j => if b = a + 1 ∧ j = i + 1 then 1 else 0) phi, work_symm]
    exact work_rigid d n x _ h.sound _ _ hr
  · have key : ∀ v, Rigid d x v → kin d es v phi = 0 := by
      intro v hv
      have e1 : lam * kin d es v phi = work d (es.map VElm.solid) v phi := by rw [← h2, ← h3, mode_test d n _ _ _ lam phi v hm fun _ _ _ _ hf => absurd hf id]
      rw [work_rigid d n x _ h.sound _ _ hv] at e1
      exact (mul_eq_zero.mp e1).resolve_left h0
    refine ⟨fun i hi => ?_, fun i j hi hj => ?_⟩
    · have := key (fun _ k => if k = i + 1 then 1 else 0) ⟨fun k => if k = i + 1 then 1 else 0, fun _ _ => 0, by simp, by simp, by simp⟩
      rw [← this]
      unfold kin integral
      refine congrArg List.sum (List.map_congr_left fun e he => congrArg List.sum (List.map_congr_left fun p hp => congrArg (p.rho * p.q.w * ·) ?_))
      rw [Finset.sum_eq_single i]
      · have : val e.nen (loc e.solid fun _ k => if k = i + 1 then 1 else 0) p.N.e (i + 1) = 1 := by
          simp only [val, loc, if_true, one_mul]; exact h.unity e he p hp
        rw [this, one_mul]
      · intro k _ hk
        have : val e.nen (loc e.solid fun _ k => if k = i + 1 then 1 else 0) p.N.e (k + 1) = 0 := by simp [val, loc, hk]
        rw [this, zero_mul]
      · intro hn; exact absurd (Finset.mem_range.mpr hi) hn
    · by_cases hij : i = j
      · subst hij; simp [integral]
      have hr : Rigid d x (fun a k => (if k = j + 1 then x a (i + 1) else 0) - (if k = i + 1 then x a (j + 1) else 0)) := by
        refine ⟨fun k => 0, fun p q => if p = j + 1 ∧ q = i + 1 then 1 else if p = i + 1 ∧ q = j + 1 then -1 else 0, ?_, ?_, ?_⟩
        · intro p q
          by_cases p1 : p = i + 1 <;> by_cases p2 : p = j + 1 <;> by_cases q1 : q = i + 1 <;> by_cases q2 : q = j + 1 <;> simp_all
        · intro p
          by_cases p1 : p = i + 1 <;> by_cases p2 : p = j + 1 <;> simp_all
        · intro a k
          have hi' : i ∈ Finset.range d := Finset.mem_range.mpr hi
          have hj' : j ∈ Finset.range d := Finset.mem_range.mpr hj
          by_cases k1 : k = i + 1
          · subst k1
            simp [hij, hj, ite_mul, Finset.sum_ite_eq']
          · by_cases k2 : k = j + 1
            · subst k2
              have hne : ¬ (j = i) := fun hh => hij hh.symm
              simp [hne, hi, ite_mul, Finset.sum_ite_eq']
            · simp [k1, k2]
      have := key _ hr
      rw [← this]
      unfold kin integral
      refine congrArg List.sum (List.map_congr_left fun e he => congrArg List.sum (List.map_congr_left fun p hp => congrArg (p.rho * p.q.w * ·) ?_))
      have hv : ∀ k, val e.nen (loc e.solid fun a k => (if k = j + 1 then x a (i + 1) else 0) - (if k = i + 1 then x a (j + 1) else 0)) p.N.e (k + 1) =
          (if k = j then val e.nen (loc e.solid x) p.N.e (i + 1) else 0) - (if k = i then val e.nen (loc e.solid x) p.N.e (j + 1) else 0) := by
        intro k
        by_cases k1 : k = j <;> by_cases k2 : k = i <;> simp [val, loc, k1, k2, sub_mul, Finset.sum_sub_distrib]
      simp only [hv, sub_mul, ite_mul, zero_mul, Finset.sum_sub_distrib, Finset.sum_ite_eq', Finset.mem_range, if_pos hi, if_pos hj]

/-- C134 (density): with densities `c` times as large the modes are the same, and the squares of the frequencies are divided by `c`. -/
theorem C134_density (d n : Nat) (x : Nat → Nat → K) (es : List (VElm K)) (h : Heavy d n x es) (fixed : Nat → Nat → Prop) (c : K) (hc : 0 < c) :
    ∃ r r', vibs d es = .ok r ∧ vibs d (es.map fun e => ⟨e.nen, e.node, e.pts.map fun p => ⟨p.q, p.N, c * p.rho⟩⟩) = .ok r' ∧
      ∀ lam phi, Mode d n (asmK d r.1) (asmK d r.2) fixed lam phi ↔ Mode d n (asmK d r'.1) (asmK d r'.2) fixed (lam / c) phi := by
  obtain ⟨es', hes⟩ : ∃ es' : List (VElm K), es' = es.map fun e => ⟨e.nen, e.node, e.pts.map fun p => ⟨p.q, p.N, c * p.rho⟩⟩ := ⟨_, rfl⟩
  have hsol : es'.map VElm.solid = es.map VElm.solid := by
    rw [hes, List.map_map]
    refine List.map_congr_left fun e _ => ?_
    simp [VElm.solid, Function.comp_def]
  have h' : Heavy d n x es' := by
    refine ⟨by rw [hsol]; exact h.sound, ?_, ?_, ?_⟩ <;> intro e he p hp <;> rw [hes] at he <;> obtain ⟨e0, he0, rfl⟩ := List.mem_map.mp he <;> obtain ⟨p0, hp0, rfl⟩ := List.mem_map.mp hp
    · exact h.size e0 he0 p0 hp0
    · exact h.unity e0 he0 p0 hp0
    · exact mul_nonneg hc.le (h.density e0 he0 p0 hp0)
  have hk : ∀ v u, kin d es' v u = c * kin d es v u := by
    intro v u
    unfold kin
    rw [hes, List.map_map, ← List.sum_map_mul_left]
    refine congrArg List.sum (List.map_congr_left fun e _ => ?_)
    simp only [Function.comp_def, List.map_map]
    rw [← List.sum_map_mul_left]
    refine congrArg List.sum (List.map_congr_left fun p _ => ?_)
    simp only [mul_assoc]; rfl
  obtain ⟨r, h1, h2, h3⟩ := C134_energies d n x es h
  obtain ⟨r', h1', h2', h3'⟩ := C134_energies d n x es' h'
  have hK : ∀ u a i, a < n → i < d → nodal d n (asmK d r'.1) u (a + 1) (i + 1) = nodal d n (asmK d r.1) u (a + 1) (i + 1) := by
    intro u a i ha hi
    rw [← nodal_unit d n (asmK d r.1) u a i ha hi, ← nodal_unit d n (asmK d r'.1) u a i ha hi]
    exact (h2' (fun b j => if b = a + 1 ∧ j = i + 1 then 1 else 0) u).trans ((by rw [hsol] : _ = _).trans (h2 (fun b j => if b = a + 1 ∧ j = i + 1 then 1 else 0) u).symm)
  have hM : ∀ u a i, a < n → i < d → nodal d n (asmK d r'.2) u (a + 1) (i + 1) = c * nodal d n (asmK d r.2) u (a + 1) (i + 1) := by
    intro u a i ha hi
    rw [← nodal_unit d n (asmK d r.2) u a i ha hi, ← nodal_unit d n (asmK d r'.2) u a i ha hi]
    exact (h3' (fun b j => if b = a + 1 ∧ j = i + 1 then 1 else 0) u).trans ((hk _ _).trans (congrArg (c * ·) (h3 (fun b j => if b = a + 1 ∧ j = i + 1 then 1 else 0) u).symm))
  have hcc : ∀ lam m : K, lam / c * (c * m) = lam * m := fun lam m => by rw [← mul_assoc, div_mul_cancel₀ _ hc.ne']
  refine ⟨r, r', h1, by rw [← hes]; exact h1', fun lam phi => ⟨fun hm => ⟨fun a i ha hi hf => ?_, hm.held⟩, fun hm => ⟨fun a i ha hi hf => ?_, hm.held⟩⟩⟩
  · rw [hK _ a i ha hi, hM _ a i ha hi, hm.free a i ha hi hf, hcc]
  · have := hm.free a i ha hi hf
    rwa [hK _ a i ha hi, hM _ a i ha hi, hcc] at this

end

/-! ### All modes -/

/-- The free components of displacement. -/
abbrev Free (d n : Nat) (fixed : Nat → Nat → Prop) := {p : Fin n × Fin d // ¬ fixed (p.1.val + 1) (p.2.val + 1)}

/-- Displacements from values of the free components. -/
noncomputable def extend (d n : Nat) (fixed : Nat → Nat → Prop) [Fintype (Free d n fixed)] (y : Free d n fixed → ℝ) (a i : Nat) : ℝ :=
  ∑ s : Free d n fixed, if s.1.1.val + 1 = a ∧ s.1.2.val + 1 = i then y s else 0

open Matrix in
/-- The modes of two symmetric forms, one of them positive definite for admissible displacements. -/
theorem exists_modes (d n : Nat) (A M : Nat → Nat → Nat → Nat → ℝ) (W Q : (Nat → Nat → ℝ) → (Nat → Nat → ℝ) → ℝ)
    (h2 : ∀ v u, ∑ a ∈ Finset.range n, ∑ i ∈ Finset.range d, v (a + 1) (i + 1) * nodal d n A u (a + 1) (i + 1) = W v u)
    (h3 : ∀ v u, ∑ a ∈ Finset.range n, ∑ i ∈ Finset.range d, v (a + 1) (i + 1) * nodal d n M u (a + 1) (i + 1) = Q v u) (sW : ∀ v u, W v u = W u v) (sQ : ∀ v u, Q v u = Q u v) (fixed : Nat → Nat → Prop)
    (hnn : ∀ v, 0 ≤ Q v v) (hpos : ∀ v : Nat → Nat → ℝ, (∀ a i, a < n → i < d → fixed (a + 1) (i + 1) → v (a + 1) (i + 1) = 0) → Q v v = 0 → ∀ a i, a < n → i < d → v (a + 1) (i + 1) = 0) :
    ∃ (_ : Fintype (Free d n fixed)) (_ : DecidableEq (Free d n fixed)) (lam : Free d n fixed → ℝ) (phi : Free d n fixed → Nat → Nat → ℝ),
      (∀ s, Mode d n A M fixed (lam s) (phi s)) ∧ (∀ s t, Q (phi s) (phi t) = if s = t then 1 else 0) ∧
      ∀ v, (∀ a i, a < n → i < d → fixed (a + 1) (i + 1) → v (a + 1) (i + 1) = 0) →
        (∀ a i, a < n → i < d → v (a + 1) (i + 1) = ∑ s, Q (phi s) v * phi s (a + 1) (i + 1)) ∧
        W v v = ∑ s, lam s * Q (phi s) v ^ 2 ∧ Q v v = ∑ s, Q (phi s) v ^ 2 ∧
        ∀ low, (∀ s, low ≤ lam s) → low * Q v v ≤ W v v := by
  classical
  let ad : (Nat → Nat → ℝ) → Prop := fun v => ∀ a i, a < n → i < d → fixed (a + 1) (i + 1) → v (a + 1) (i + 1) = 0
  let res : (Nat → Nat → ℝ) → Free d n fixed → ℝ := fun v s => v (s.1.1.val + 1) (s.1.2.val + 1)
  let mat : (Nat → Nat → Nat → Nat → ℝ) → Matrix (Free d n fixed) (Free d n fixed) ℝ := fun Kg s t => Kg (s.1.1.val + 1) (s.1.2.val + 1) (t.1.1.val + 1) (t.1.2.val + 1)
  have hsum : ∀ f : Nat → Nat → ℝ, (∀ a i, a < n → i < d → fixed (a + 1) (i + 1) → f a i = 0) → ∑ a ∈ Finset.range n, ∑ i ∈ Finset.range d, f a i = ∑ s : Free d n fixed, f s.1.1.val s.1.2.val := by
    intro f hf
    rw [Finset.sum_range]
    simp only [Finset.sum_range]
    rw [← Fintype.sum_prod_type' (f := fun (a : Fin n) (i : Fin d) => f a.val i.val)]
    rw [← Finset.sum_filter_of_ne (p := fun q : Fin n × Fin d => ¬ fixed (q.1.val + 1) (q.2.val + 1)) (fun q _ hne hfx => hne (hf _ _ q.1.isLt q.2.isLt hfx))]
    exact Finset.sum_subtype _ (fun q => by simp) _
  have hext : ∀ (y : Free d n fixed → ℝ) (s : Free d n fixed), extend d n fixed y (s.1.1.val + 1) (s.1.2.val + 1) = y s := by
    intro y s
    unfold extend
    rw [Finset.sum_eq_single s]
    · simp
    · intro t _ hts
      rw [if_neg]
      rintro ⟨e1, e2⟩
      exact hts (Subtype.ext (Prod.ext (Fin.ext (by omega)) (Fin.ext (by omega))))
    · intro hn; exact absurd (Finset.mem_univ s) hn
  have had : ∀ y, ad (extend d n fixed y) := by
    intro y a i ha hi hf
    unfold extend
    refine Finset.sum_eq_zero fun s _ => ?_
    rw [if_neg]
    rintro ⟨e1, e2⟩
    refine s.2 ?_
    rw [e1, e2]; exact hf
  have hnod : ∀ Kg u, ad u → ∀ s : Free d n fixed, nodal d n Kg u (s.1.1.val + 1) (s.1.2.val + 1) = (mat Kg *ᵥ res u) s := by
    intro Kg u hu s
    unfold nodal
    rw [hsum (fun b j => Kg (s.1.1.val + 1) (s.1.2.val + 1) (b + 1) (j + 1) * u (b + 1) (j + 1)) fun a i ha hi hf => by rw [hu a i ha hi hf, mul_zero]]
    rfl
  have hform : ∀ Kg v u, ad v → ad u → ∑ a ∈ Finset.range n, ∑ i ∈ Finset.range d, v (a + 1) (i + 1) * nodal d n Kg u (a + 1) (i + 1) = res v ⬝ᵥ (mat Kg *ᵥ res u) := by
    intro Kg v u hv hu
    rw [hsum (fun a i => v (a + 1) (i + 1) * nodal d n Kg u (a + 1) (i + 1)) fun a i ha hi hf => by rw [hv a i ha hi hf, zero_mul]]
    exact Finset.sum_congr rfl fun s _ => by rw [hnod Kg u hu s]
  have hres : ∀ y, res (extend d n fixed y) = y := fun y => funext fun s => hext y s
  have hsym : ∀ Kg, (∀ v u, ∑ a ∈ Finset.range n, ∑ i ∈ Finset.range d, v (a + 1) (i + 1) * nodal d n Kg u (a + 1) (i + 1) = ∑ a ∈ Finset.range n, ∑ i ∈ Finset.range d, u (a + 1) (i + 1) * nodal d n Kg v (a + 1) (i + 1)) →
      (mat Kg).transpose = mat Kg := by
    intro Kg hs
    ext s t
    have := hs (extend d n fixed (Pi.single t 1)) (extend d n fixed (Pi.single s 1))
    rw [hform _ _ _ (had _) (had _), hform _ _ _ (had _) (had _), hres, hres] at this
    simpa [mulVec_single_one] using this
  have hKs := hsym A fun v u => by rw [h2, h2, sW]
  have hMs := hsym M fun v u => by rw [h3, h3, sQ]
  obtain ⟨P, lam, p1, p2, p3⟩ := Spectral.generalised (mat A) (mat M) hKs hMs (by
    intro y hy
    rw [show y ⬝ᵥ (mat M *ᵥ y) = Q (extend d n fixed y) (extend d n fixed y) by rw [← h3, hform _ _ _ (had _) (had _), hres]]
    refine lt_of_le_of_ne (hnn _) fun h0 => hy ?_
    funext s
    rw [← hext y s]
    exact hpos _ (had y) h0.symm _ _ s.1.1.isLt s.1.2.isLt)
  have hcol : ∀ s, res (extend d n fixed (P.col s)) = P.col s := fun s => hres _
  have hkin : ∀ v, ad v → ∀ s, Q (extend d n fixed (P.col s)) v = ((P.transpose * mat M) *ᵥ res v) s := by
    intro v hv s
    rw [← h3, hform _ _ _ (had _) hv, hcol, ← mulVec_mulVec]
    rfl
  have hv' : ∀ v, ad v → res v = P *ᵥ fun s => Q (extend d n fixed (P.col s)) v := by
    intro v hv
    rw [show (fun s => Q (extend d n fixed (P.col s)) v) = (P.transpose * mat M) *ᵥ res v from funext (hkin v hv), mulVec_mulVec, p3, one_mulVec]
  have p4 : P.transpose * mat A * P = diagonal lam := by
    rw [Matrix.mul_assoc, p2, ← Matrix.mul_assoc, ← Matrix.mul_assoc, p1, Matrix.one_mul]
  refine ⟨inferInstance, inferInstance, lam, fun s => extend d n fixed (P.col s), fun s => ⟨fun a i ha hi hf => ?_, had _⟩, fun s t => ?_, fun v hv => ?_⟩
  · have e1 := hnod A _ (had (P.col s)) ⟨(⟨a, ha⟩, ⟨i, hi⟩), hf⟩
    have e2 := hnod M _ (had (P.col s)) ⟨(⟨a, ha⟩, ⟨i, hi⟩), hf⟩
    simp only at e1 e2
    rw [e1, e2, hcol]
    have e3 := congrFun (congrFun p2 ⟨(⟨a, ha⟩, ⟨i, hi⟩), hf⟩) s
    rw [mul_diagonal, mul_comm] at e3
    exact e3
  · rw [hkin _ (had _), hcol]
    have := congrFun (congrFun p1 s) t
    rw [one_apply] at this
    exact this
  · obtain ⟨c, hc⟩ : ∃ c, c = fun s => Q (extend d n fixed (P.col s)) v := ⟨_, rfl⟩
    have e0 := hv' v hv
    rw [← hc] at e0
    have ew : W v v = ∑ s, lam s * c s ^ 2 := by
      rw [← h2, hform _ _ _ hv hv, e0, mulVec_mulVec, dotProduct_comm, dotProduct_mulVec, ← mulVec_transpose, mulVec_mulVec, ← Matrix.mul_assoc, p4]
      refine Finset.sum_congr rfl fun s _ => ?_
      rw [mulVec_diagonal]; ring
    have ek : Q v v = ∑ s, c s ^ 2 := by
      rw [← h3, hform _ _ _ hv hv, e0, mulVec_mulVec, dotProduct_comm, dotProduct_mulVec, ← mulVec_transpose, mulVec_mulVec, ← Matrix.mul_assoc, p1, one_mulVec]
      exact Finset.sum_congr rfl fun s _ => by ring
    have hcs : ∀ s, Q (extend d n fixed (P.col s)) v = c s := fun s => by rw [hc]
    simp only [hcs]
    refine ⟨fun a i ha hi => ?_, ew, ek, fun low hlow => ?_⟩
    · by_cases hf : fixed (a + 1) (i + 1)
      · rw [hv a i ha hi hf]
        exact (Finset.sum_eq_zero fun s _ => by rw [had _ a i ha hi hf, mul_zero]).symm
      · have := congrFun e0 ⟨(⟨a, ha⟩, ⟨i, hi⟩), hf⟩
        refine this.trans (Finset.sum_congr rfl fun s _ => ?_)
        rw [mul_comm]
        exact congrArg (c s * ·) (hext (P.col s) ⟨(⟨a, ha⟩, ⟨i, hi⟩), hf⟩).symm
    · rw [ew, ek, Finset.mul_sum]
      exact Finset.sum_le_sum fun s _ => mul_le_mul_of_nonneg_right (hlow s) (sq_nonneg _)

/-- C134 (existence): if no admissible displacements are without kinetic energy, there are as many modes as free components of displacement; they are orthonormal with respect to the mass, all displacements that
vanish at the supports are superpositions of them, and their strain energy is at least that of the lowest frequency (Rayleigh's principle). -/
theorem C134_exists (d n : Nat) (x : Nat → Nat → ℝ) (es : List (VElm ℝ)) (h : Heavy d n x es) (fixed : Nat → Nat → Prop)
    (hpos : ∀ v : Nat → Nat → ℝ, (∀ a i, a < n → i < d → fixed (a + 1) (i + 1) → v (a + 1) (i + 1) = 0) → kin d es v v = 0 → ∀ a i, a < n → i < d → v (a + 1) (i + 1) = 0) :
    ∃ r, vibs d es = .ok r ∧ ∃ (_ : Fintype (Free d n fixed)) (_ : DecidableEq (Free d n fixed)) (lam : Free d n fixed → ℝ) (phi : Free d n fixed → Nat → Nat → ℝ),
      (∀ s, Mode d n (asmK d r.1) (asmK d r.2) fixed (lam s) (phi s)) ∧ (∀ s t, kin d es (phi s) (phi t) = if s = t then 1 else 0) ∧
      ∀ v, (∀ a i, a < n → i < d → fixed (a + 1) (i + 1) → v (a + 1) (i + 1) = 0) →
        (∀ a i, a < n → i < d → v (a + 1) (i + 1) = ∑ s, kin d es (phi s) v * phi s (a + 1) (i + 1)) ∧
        work d (es.map VElm.solid) v v = ∑ s, lam s * kin d es (phi s) v ^ 2 ∧ kin d es v v = ∑ s, kin d es (phi s) v ^ 2 ∧
        ∀ low, (∀ s, low ≤ lam s) → low * kin d es v v ≤ work d (es.map VElm.solid) v v := by
  obtain ⟨r, h1, h2, h3⟩ := C134_energies d n x es h
  exact ⟨r, h1, exists_modes d n (asmK d r.1) (asmK d r.2) _ _ h2 h3 (work_symm d _) (kin_symm d es) fixed (kin_nonneg d n x es h) hpos⟩

/-! ### Example: a triangle of unit density, integrated at the midpoints of its sides -/

noncomputable def triMat : LinIso.Mat ℝ := { Emod := 205, nu := 3 / 10 }

def triX (a i : Nat) : ℝ := if (a = 2 ∧ i = 1) ∨ (a = 3 ∧ i = 2) then 1 else 0

/-- The midpoint of the side opposite to node `k`. -/
noncomputable def triPt (k : Nat) : VPt ℝ :=
  ⟨⟨⟨3, 2, fun a j => if a = 1 then -1 else if a = j + 1 then 1 else 0⟩, triMat, ⟨0, 0, 0⟩, ⟨0, 0, 0⟩, 1 / 6⟩, ⟨3, fun a => if a = k then 0 else 1 / 2⟩, 1⟩

noncomputable def triElm : VElm ℝ := ⟨3, fun s => s, [triPt 1, triPt 2, triPt 3]⟩

theorem tri_heavy : Heavy 2 3 triX [triElm] := by
  refine ⟨⟨Or.inl rfl, ?_, ?_, ?_, ?_, ?_⟩, ?_, ?_, ?_⟩
  · intro e he s hs
    obtain rfl := List.mem_singleton.mp he
    change s < 3 at hs
    exact ⟨Nat.succ_pos s, hs⟩
  · intro e he p hp
    obtain rfl := List.mem_singleton.mp he
    simp only [VElm.solid, triElm, List.map_cons, List.map_nil, List.mem_cons, List.not_mem_nil, or_false] at hp
    rcases hp with rfl | rfl | rfl <;> exact ⟨rfl, le_refl _⟩
  · intro e he p hp
    obtain rfl := List.mem_singleton.mp he
    simp only [VElm.solid, triElm, List.map_cons, List.map_nil, List.mem_cons, List.not_mem_nil, or_false] at hp
    rcases hp with rfl | rfl | rfl <;>
      (refine ⟨fun j h1 h2 => ?_, fun i j h1 h2 h3 h4 => ?_⟩
       · interval_cases j <;> simp [triPt, triElm, VElm.solid, Finset.sum_range_succ]
       · interval_cases i <;> interval_cases j <;> simp [triPt, triElm, VElm.solid, Finset.sum_range_succ, loc, triX])
  · intro e he p hp
    obtain rfl := List.mem_singleton.mp he
    simp only [VElm.solid, triElm, List.map_cons, List.map_nil, List.mem_cons, List.not_mem_nil, or_false] at hp
    rcases hp with rfl | rfl | rfl <;> norm_num [triPt, triMat, LinIso.Mat.young, LinIso.nuAt]
  · intro e he p hp
    obtain rfl := List.mem_singleton.mp he
    simp only [VElm.solid, triElm, List.map_cons, List.map_nil, List.mem_cons, List.not_mem_nil, or_false] at hp
    rcases hp with rfl | rfl | rfl <;> norm_num [triPt]
  all_goals
    intro e he p hp
    obtain rfl := List.mem_singleton.mp he
    simp only [triElm, List.mem_cons, List.not_mem_nil, or_false] at hp
    rcases hp with rfl | rfl | rfl <;> norm_num [triPt, triElm, Finset.sum_range_succ]

/-- Its mass, and its modes without supports and with any supports: all displacements have kinetic energy. -/
example : mass [triElm] = 1 / 2 := by norm_num [mass, triElm, triPt]

theorem tri_moves (v : Nat → Nat → ℝ) (h0 : kin 2 [triElm] v v = 0) : ∀ a i, a < 3 → i < 2 → v (a + 1) (i + 1) = 0 := by
  simp [kin, triElm, triPt, val, loc, VElm.solid, Finset.sum_range_succ] at h0
  have e : ∀ i, (i = 1 ∨ i = 2) → v 1 i = 0 ∧ v 2 i = 0 ∧ v 3 i = 0 := by
    intro i hi
    have q1 : v 2 i + v 3 i = 0 := by
      rcases hi with rfl | rfl <;>
      nlinarith [sq_nonneg (v 2 1 + v 3 1), sq_nonneg (v 1 1 + v 3 1), sq_nonneg (v 1 1 + v 2 1), sq_nonneg (v 2 2 + v 3 2), sq_nonneg (v 1 2 + v 3 2), sq_nonneg (v 1 2 + v 2 2)]
    have q2 : v 1 i + v 3 i = 0 := by
      rcases hi with rfl | rfl <;>
      nlinarith [sq_nonneg (v 2 1 + v 3 1), sq_nonneg (v 1 1 + v 3 1), sq_nonneg (v 1 1 + v 2 1), sq_nonneg (v 2 2 + v 3 2), sq_nonneg (v 1 2 + v 3 2), sq_nonneg (v 1 2 + v 2 2)]
    have q3 : v 1 i + v 2 i = 0 := by
      rcases hi with rfl | rfl <;>
      nlinarith [sq_nonneg (v 2 1 + v 3 1), sq_nonneg (v 1 1 + v 3 1), sq_nonneg (v 1 1 + v 2 1), sq_nonneg (v 2 2 + v 3 2), sq_nonneg (v 1 2 + v 3 2), sq_nonneg (v 1 2 + v 2 2)]
    exact ⟨by linarith, by linarith, by linarith⟩
  have e1 := e 1 (Or.inl rfl)
  have e2 := e 2 (Or.inr rfl)
  intro a i ha hi
  interval_cases a <;> interval_cases i <;> simp [e1, e2]

example (fixed : Nat → Nat → Prop) := C134_exists 2 3 triX [triElm] tri_heavy fixed fun v _ h0 => tri_moves v h0

end Verif.Struct
