/- Property C136: linear buckling of a whole solid model. -/
import Verif.Model.Buckling
import Verif.Props.Vibration

set_option linter.unusedSectionVars false
set_option linter.unusedSimpArgs false

namespace Verif.Struct

open Verif.Cont ContSpec

variable {K : Type*} [Field K]

/-! ### Specification -/

/-- The stress tensor from the components xx, yy, zz, xy, yz, xz (or xx, yy, xy). -/
def tensor (d : Nat) (s : Nat → K) (i j : Nat) : K :=
  if i = j then s i else if d = 2 then s 3 else if i = 3 ∨ j = 3 then (if i = 2 ∨ j = 2 then s 5 else s 6) else s 4

/-- The second-order work of the stresses of `u` in the displacements `v` and `w`: the integral of σ_ij ∂v_k/∂x_i ∂w_k/∂x_j. -/
def geo [LinearOrder K] (d : Nat) (es : List (VElm K)) (u v w : Nat → Nat → K) : K :=
  (es.map fun e => (e.pts.map fun p => p.q.w * ∑ k ∈ Finset.range d, ∑ i ∈ Finset.range d, ∑ j ∈ Finset.range d, tensor d (stress d p.q (loc e.solid u)) (i + 1) (j + 1) *
    grad e.nen (loc e.solid v) p.q.dN.e (k + 1) (i + 1) * grad e.nen (loc e.solid w) p.q.dN.e (k + 1) (j + 1)).sum).sum

/-- The strains of `u` vanish at each integration point or exceed the threshold of the code (10⁻¹⁶). -/
def Clear (d : Nat) (tol : K) [LinearOrder K] (es : List (VElm K)) (u : Nat → Nat → K) : Prop :=
  ∀ e ∈ es, ∀ p ∈ e.pts, (∀ k, k < d * (d + 1) / 2 → strain d p.q (loc e.solid u) (k + 1) = 0) ∨ ∃ k, k < d * (d + 1) / 2 ∧ tol < |strain d p.q (loc e.solid u) (k + 1)|

/-- Displacements that vanish at the supports. -/
def Admissible (d n : Nat) (fixed : Nat → Nat → Prop) (v : Nat → Nat → K) : Prop := ∀ a i, a < n → i < d → fixed (a + 1) (i + 1) → v (a + 1) (i + 1) = 0

/-- Displacements that do not vanish in all nodes. -/
def Moves (d n : Nat) (v : Nat → Nat → K) : Prop := ∃ a i, a < n ∧ i < d ∧ v (a + 1) (i + 1) ≠ 0

/-- At the load factor `mu` the forces of the material and of the stresses are in balance for the displacements `phi`: a state of buckling. -/
structure Neutral (d n : Nat) (r : List (Elm K × DMat K) × List (Elm K × DMat K)) (fixed : Nat → Nat → Prop) (mu : K) (phi : Nat → Nat → K) : Prop where
  free : ∀ a i, a < n → i < d → ¬ fixed (a + 1) (i + 1) → nodal d n (asmK d r.1) phi (a + 1) (i + 1) + mu * nodal d n (asmK d r.2) phi (a + 1) (i + 1) = 0
  held : Admissible d n fixed phi
  moves : Moves d n phi

/-! ### Proofs -/

section
variable [LinearOrder K] [IsStrictOrderedRing K]

theorem tensor_symm (d : Nat) (s : Nat → K) (i j : Nat) : tensor d s i j = tensor d s j i := by
  unfold tensor
  by_cases h : i = j
  · subst h; rfl
  · rw [if_neg h, if_neg (Ne.symm h)]
    simp only [or_comm]

theorem symT_eq (d : Nat) (hd : d = 2 ∨ d = 3) (s t : Nat → K) (h : ∀ k, k < d * (d + 1) / 2 → s (k + 1) = t (k + 1)) (i j : Nat) (hi : i < d) (hj : j < d) :
    Finite.symT d false s (i + 1) (j + 1) = tensor d t (i + 1) (j + 1) := by
  rcases hd with rfl | rfl
  · have h0 := h 0 (by decide); have h1 := h 1 (by decide); have h2 := h 2 (by decide)
    interval_cases i <;> interval_cases j <;> simp_all [Finite.symT, tensor]
  · have h0 := h 0 (by decide); have h1 := h 1 (by decide); have h2 := h 2 (by decide); have h3 := h 3 (by decide); have h4 := h 4 (by decide); have h5 := h 5 (by decide)
    interval_cases i <;> interval_cases j <;> simp_all [Finite.symT, tensor]

theorem sum_out (d n : Nat) (g : Nat → Nat → Nat → Nat → K) : ∑ k ∈ Finset.range d, ∑ i ∈ Finset.range d, ∑ j ∈ Finset.range d, ∑ a ∈ Finset.range n, g k i j a =
    ∑ a ∈ Finset.range n, ∑ k ∈ Finset.range d, ∑ i ∈ Finset.range d, ∑ j ∈ Finset.range d, g k i j a := by
  refine Eq.trans (Finset.sum_congr rfl fun k _ => ?_) Finset.sum_comm
  refine Eq.trans (Finset.sum_congr rfl fun i _ => ?_) Finset.sum_comm
  exact Finset.sum_comm

/-- The sums over nodes of the geometric stiffness are products of gradients. -/
theorem geo_point (d n : Nat) (dN : Nat → Nat → K) (sg : Nat → Nat → K) (w : K) (u v : Nat → Nat → K) :
    ∑ a ∈ Finset.range n, ∑ b ∈ Finset.range n, (∑ i ∈ Finset.range d, ∑ j ∈ Finset.range d, dN (a + 1) (i + 1) * sg (i + 1) (j + 1) * dN (b + 1) (j + 1)) * w *
      (∑ k ∈ Finset.range d, u (a + 1) (k + 1) * v (b + 1) (k + 1)) =
    w * ∑ k ∈ Finset.range d, ∑ i ∈ Finset.range d, ∑ j ∈ Finset.range d, sg (i + 1) (j + 1) * grad n u dN (k + 1) (i + 1) * grad n v dN (k + 1) (j + 1) := by
  have e : ∀ k i j, sg (i + 1) (j + 1) * grad n u dN (k + 1) (i + 1) * grad n v dN (k + 1) (j + 1) =
      ∑ a ∈ Finset.range n, ∑ b ∈ Finset.range n, sg (i + 1) (j + 1) * (u (a + 1) (k + 1) * dN (a + 1) (i + 1)) * (v (b + 1) (k + 1) * dN (b + 1) (j + 1)) := by
    intro k i j
    simp only [grad, Finset.mul_sum, Finset.sum_mul]
    exact Finset.sum_comm
  simp only [e]
  rw [sum_out, Finset.mul_sum]
  refine Finset.sum_congr rfl fun a _ => ?_
  rw [sum_out, Finset.mul_sum]
  refine Finset.sum_congr rfl fun b _ => ?_
  rw [mul_comm _ w, mul_assoc]
  refine congrArg (w * ·) ?_
  rw [Finset.mul_sum]
  refine Finset.sum_congr rfl fun k _ => ?_
  rw [Finset.sum_mul]
  refine Finset.sum_congr rfl fun i _ => ?_
  rw [Finset.sum_mul]
  exact Finset.sum_congr rfl fun j _ => by ring

theorem law_stress (d : Nat) (hd : d = 2 ∨ d = 3) (m : LinIso.Mat K) (fe : LinIso.FE K) (X : LinIso.Pt K) (eps : Nat → K) (hE : 0 < m.young fe X) (h0 : 0 ≤ LinIso.nuAt m X)
    (h1 : LinIso.nuAt m X < 1 / 2) (ha : m.axiSymmetry = false) :
    ∃ o, (LinIso.evaluate m d (d * (d + 1) / 2) fe X eps 1).2 = .ok o ∧ ∃ s, o.sig = some s ∧ ∀ k, k < d * (d + 1) / 2 → s (k + 1) =
      ∑ l ∈ Finset.range (d * (d + 1) / 2), hooke d m.planeStress (m.young fe X) (LinIso.nuAt m X) (k + 1) (l + 1) * eps (l + 1) := by
  obtain ⟨o, o1, o2, o3, o4⟩ := law_eq d hd m fe X (d * (d + 1) / 2) eps hE h0 h1 ha
  have hC : ∃ C, LinIso.cmat (m.young fe X) (LinIso.nuAt m X) d m.planeStress m.axiSymmetry (decide ((1 : Int) < 0)) = .ok C := by
    rcases hd with rfl | rfl
    · obtain ⟨C, c1, -⟩ := LinIso.cmat_2d (m.young fe X) (LinIso.nuAt m X) m.planeStress false
      exact ⟨C, by rw [ha]; exact c1⟩
    · obtain ⟨C, c1, -⟩ := LinIso.cmat_3d (m.young fe X) (LinIso.nuAt m X) m.planeStress m.axiSymmetry false
      exact ⟨C, c1⟩
  obtain ⟨C, c1⟩ := hC
  obtain ⟨o', p1, p2, p3, -⟩ := LinIso.evaluate_eq m d (d * (d + 1) / 2) hd fe X eps 1 ⟨h0, h1⟩ c1
  rw [o1] at p1; cases p1
  have p3 := p3 (by decide)
  refine ⟨o, o1, _, p3, fun k hk => ?_⟩
  have hsz : d * (d + 1) / 2 ≠ 4 := by rcases hd with rfl | rfl <;> decide
  simp only [LinIso.assignSig, hsz, and_false, if_false]
  rw [← p2]
  simp only [LinIso.mulVec, o3]
  exact Finset.sum_congr rfl fun l hl => by rw [o4 k l hk (Finset.mem_range.mp hl)]

theorem buckAll_ok (d n : Nat) (tol : K) (x : Nat → Nat → K) (es : List (VElm K)) (h : Heavy d n x es) (u : Nat → Nat → K) (hu : Clear d tol es u) (e : VElm K) (he : e ∈ es) (pts : List (VPt K)) (hp : ∀ p ∈ pts, p ∈ e.pts) :
    ∀ A : DMat K × DMat K, A.1.nr = d * e.nen → A.1.nc = d * e.nen → A.2.nr = d * e.nen → A.2.nc = d * e.nen →
      ∃ B, buckAll d tol (dofVec d (loc e.solid u)) pts A = .ok B ∧ evalAll d (pts.map VPt.q) A.1 = .ok B.1 ∧ B.2.nr = d * e.nen ∧ B.2.nc = d * e.nen ∧ ∀ v w,
        B.2.bil (dofVec d v) (dofVec d w) = A.2.bil (dofVec d v) (dofVec d w) +
          (pts.map fun p => p.q.w * ∑ k ∈ Finset.range d, ∑ i ∈ Finset.range d, ∑ j ∈ Finset.range d, tensor d (stress d p.q (loc e.solid u)) (i + 1) (j + 1) *
            grad e.nen v p.q.dN.e (k + 1) (i + 1) * grad e.nen w p.q.dN.e (k + 1) (j + 1)).sum := by
  have hes : e.solid ∈ es.map VElm.solid := List.mem_map.mpr ⟨e, he, rfl⟩
  induction pts with
  | nil => exact fun A h1 h2 h3 h4 => ⟨A, rfl, rfl, h3, h4, fun v u => by simp⟩
  | cons p l ih =>
    intro A h1 h2 h3 h4
    have hpe := hp p (by simp)
    have hpq : p.q ∈ e.solid.pts := List.mem_map.mpr ⟨p, hpe, rfl⟩
    obtain ⟨s1, s2⟩ := h.sound.size e.solid hes p.q hpq
    have s1 : p.q.dN.nr = e.nen := s1
    obtain ⟨B, b1, b2, b3, b4⟩ := sB_eq d h.sound.dim p.q s2
    obtain ⟨m1, m2, m3, m4⟩ := h.sound.material e.solid hes p.q hpq
    obtain ⟨o, o1, o2, o3, o4⟩ := law_eq d h.sound.dim p.q.mat p.q.fe p.q.X B.nr (fun _ => 0) m1 m2 m3 m4
    obtain ⟨o', q1, q2, q3, q4⟩ := law_eq d h.sound.dim p.q.mat p.q.fe p.q.X B.nr (B.mulV (dofVec d (loc e.solid u))) m1 m2 m3 m4
    have hCC : o.C = o'.C := by
      have hC : ∃ C, LinIso.cmat (p.q.mat.young p.q.fe p.q.X) (LinIso.nuAt p.q.mat p.q.X) d p.q.mat.planeStress p.q.mat.axiSymmetry (decide ((1 : Int) < 0)) = .ok C := by
        rcases h.sound.dim with rfl | rfl
        · obtain ⟨C, c1, -⟩ := LinIso.cmat_2d (p.q.mat.young p.q.fe p.q.X) (LinIso.nuAt p.q.mat p.q.X) p.q.mat.planeStress false
          exact ⟨C, by rw [m4]; exact c1⟩
        · obtain ⟨C, c1, -⟩ := LinIso.cmat_3d (p.q.mat.young p.q.fe p.q.X) (LinIso.nuAt p.q.mat p.q.X) p.q.mat.planeStress p.q.mat.axiSymmetry false
          exact ⟨C, c1⟩
      obtain ⟨C, c1⟩ := hC
      obtain ⟨o2', w1, w2, -⟩ := LinIso.evaluate_eq p.q.mat d B.nr h.sound.dim p.q.fe p.q.X (fun _ => 0) 1 ⟨m2, m3⟩ c1
      obtain ⟨o3', z1, z2, -⟩ := LinIso.evaluate_eq p.q.mat d B.nr h.sound.dim p.q.fe p.q.X (B.mulV (dofVec d (loc e.solid u))) 1 ⟨m2, m3⟩ c1
      rw [o1] at w1; cases w1
      rw [q1] at z1; cases z1
      rw [w2, z2]
    obtain ⟨o'', t1, s, t2, t3⟩ := law_stress d h.sound.dim p.q.mat p.q.fe p.q.X (B.mulV (dofVec d (loc e.solid u))) m1 m2 m3 m4
    rw [← b2, q1] at t1; cases t1
    have hstr : ∀ k, k < d * (d + 1) / 2 → s (k + 1) = stress d p.q (loc e.solid u) (k + 1) := by
      intro k hk
      rw [t3 k hk, stress]
      exact Finset.sum_congr rfl fun l hl => by rw [b4 _ _ (Finset.mem_range.mp hl)]
    have hEI : evalInt d A.1 p.q = .ok (addKm A.1 B o'.C p.q.w) := by
      simp only [evalInt, b1, Res.bind, o1, hCC]
    have hz : Finite.zeroStrain tol (Finite.ncomp d false) (B.mulV (dofVec d (loc e.solid u))) = true → ∀ k, k < d * (d + 1) / 2 → stress d p.q (loc e.solid u) (k + 1) = 0 := by
      intro hzs k hk
      simp only [Finite.zeroStrain, Finite.ncomp, Bool.false_eq_true, if_false, List.all_eq_true, List.mem_range, decide_eq_true_eq] at hzs
      rcases hu e he p hpe with h0 | ⟨j, hj, hgt⟩
      · rw [stress]
        exact Finset.sum_eq_zero fun l hl => by rw [h0 l (Finset.mem_range.mp hl), mul_zero]
      · have := hzs j hj
        rw [b4 _ _ hj] at this
        exact absurd (lt_of_lt_of_le hgt this) (lt_irrefl _)
    have hEK : (addKm A.1 B o'.C p.q.w).nr = d * e.nen ∧ (addKm A.1 B o'.C p.q.w).nc = d * e.nen := ⟨h1, h2⟩
    by_cases hzs : Finite.zeroStrain tol (Finite.ncomp d false) (B.mulV (dofVec d (loc e.solid u))) = true
    · obtain ⟨R, r1, r2, r3, r4, r5⟩ := ih (fun q hq => hp q (by simp [hq])) (addKm A.1 B o'.C p.q.w, A.2) hEK.1 hEK.2 h3 h4
      refine ⟨R, ?_, ?_, r3, r4, fun v w => ?_⟩
      · simp only [buckAll, buckInt, b1, Res.bind, q1, hzs, if_true]; exact r1
      · simp only [List.map_cons, evalAll, hEI, Res.bind]; exact r2
      · rw [r5, List.map_cons, List.sum_cons, ← add_assoc]
        have h0 : ∑ k ∈ Finset.range d, ∑ i ∈ Finset.range d, ∑ j ∈ Finset.range d, tensor d (stress d p.q (loc e.solid u)) (i + 1) (j + 1) *
            grad e.nen v p.q.dN.e (k + 1) (i + 1) * grad e.nen w p.q.dN.e (k + 1) (j + 1) = 0 := by
          refine Finset.sum_eq_zero fun k _ => Finset.sum_eq_zero fun i hi => Finset.sum_eq_zero fun j hj => ?_
          rw [← symT_eq d h.sound.dim (fun _ => 0) _ (fun k hk => (hz hzs k hk).symm) i j (Finset.mem_range.mp hi) (Finset.mem_range.mp hj)]
          have : Finite.symT d false (fun _ => (0 : K)) (i + 1) (j + 1) = 0 := by simp [Finite.symT]
          rw [this, zero_mul, zero_mul]
        rw [h0, mul_zero, add_zero]
    · obtain ⟨G, g1, g2, g3, g4⟩ := formKG_ok d false A.2 p.N p.q.dN 0 (Finite.symT d false s) p.q.w (by rcases h.sound.dim with h | h <;> omega) (by rw [h3, s1]) (by rw [h4, s1])
      obtain ⟨R, r1, r2, r3, r4, r5⟩ := ih (fun q hq => hp q (by simp [hq])) (addKm A.1 B o'.C p.q.w, G) hEK.1 hEK.2 (g2.trans h3) (g3.trans h4)
      refine ⟨R, ?_, ?_, r3, r4, fun v w => ?_⟩
      · simp only [buckAll, buckInt, b1, Res.bind, q1, hzs, t2, g1]; exact r1
      · simp only [List.map_cons, evalAll, hEI, Res.bind]; exact r2
      · rw [r5, g4, List.map_cons, List.sum_cons, ← add_assoc]
        refine congrArg (· + _) (congrArg (_ + ·) ?_)
        simp only [Bool.false_eq_true, false_and, if_false, lt_irrefl, gt_iff_lt, add_zero]
        rw [geo_point, s1]
        refine congrArg (p.q.w * ·) (Finset.sum_congr rfl fun k _ => Finset.sum_congr rfl fun i hi => Finset.sum_congr rfl fun j hj => ?_)
        rw [symT_eq d h.sound.dim s _ hstr i j (Finset.mem_range.mp hi) (Finset.mem_range.mp hj)]

theorem bucks_ok (d n : Nat) (tol : K) (x : Nat → Nat → K) (es : List (VElm K)) (h : Heavy d n x es) (u : Nat → Nat → K) (hu : Clear d tol es u) (l : List (VElm K)) (hl : ∀ e ∈ l, e ∈ es) :
    ∃ r, bucks d tol u l = .ok r ∧ matrices d (l.map VElm.solid) = .ok r.1 ∧ (∀ e ∈ r.2, e.1 ∈ es.map VElm.solid ∧ e.2.nr = d * e.1.nen ∧ e.2.nc = d * e.1.nen) ∧
      ∀ v w, (r.2.map fun e => e.2.bil (dofVec d (loc e.1 v)) (dofVec d (loc e.1 w))).sum = geo d l u v w := by
  induction l with
  | nil => exact ⟨([], []), rfl, rfl, by simp, fun v u => by simp [geo]⟩
  | cons e l ih =>
    obtain ⟨r, h1, h2, h3, h4⟩ := ih fun e he => hl e (by simp [he])
    have he := hl e (by simp)
    obtain ⟨B, b1, b2, b3, b4, b5⟩ := buckAll_ok d n tol x es h u hu e he e.pts (fun p hp => hp) (DMat.zero (d * e.nen) (d * e.nen), DMat.zero (d * e.nen) (d * e.nen)) rfl rfl rfl rfl
    refine ⟨((e.solid, B.1) :: r.1, (e.solid, B.2) :: r.2), ?_, ?_, fun q hq => ?_, fun v w => ?_⟩
    · simp only [bucks]
      rw [show buckAll d tol (dofVec d fun s i => u (e.node s) i) e.pts (DMat.zero (d * e.nen) (d * e.nen), DMat.zero (d * e.nen) (d * e.nen)) = .ok B from b1]
      simp only [Res.bind, h1]
    · simp only [List.map_cons, matrices, elmK, Res.bind, h2]
      rw [show evalAll d e.solid.pts (DMat.zero (d * e.solid.nen) (d * e.solid.nen)) = .ok B.1 from b2]
    · rcases List.mem_cons.mp hq with rfl | hq
      · exact ⟨List.mem_map.mpr ⟨e, he, rfl⟩, b3, b4⟩
      · exact h3 q hq
    · rw [List.map_cons, List.sum_cons, h4, b5]
      simp only [geo, List.map_cons, List.sum_cons]
      have : (DMat.zero (d * e.nen) (d * e.nen) : DMat K).bil (dofVec d (loc e.solid v)) (dofVec d (loc e.solid w)) = 0 := by simp [DMat.bil, DMat.zero]
      rw [this, zero_add]

/-- C136 (matrices), for loads without changes of temperature (with them the claim is false, see `C136_thermal_violated`): the assembly succeeds; the first matrix is that of the static problem, and the form of the second is the second-order work of the stresses of the static solution. -/
theorem C136_forms_partial (d n : Nat) (tol : K) (x : Nat → Nat → K) (es : List (VElm K)) (h : Heavy d n x es) (u : Nat → Nat → K) (hu : Clear d tol es u) : ∃ r, bucks d tol u es = .ok r ∧
    matrices d (es.map VElm.solid) = .ok r.1 ∧
    (∀ v w, ∑ a ∈ Finset.range n, ∑ i ∈ Finset.range d, v (a + 1) (i + 1) * nodal d n (asmK d r.1) w (a + 1) (i + 1) = work d (es.map VElm.solid) v w) ∧
    ∀ v w, ∑ a ∈ Finset.range n, ∑ i ∈ Finset.range d, v (a + 1) (i + 1) * nodal d n (asmK d r.2) w (a + 1) (i + 1) = geo d es u v w := by
  obtain ⟨r, h1, h2, h3, h4⟩ := bucks_ok d n tol x es h u hu es fun _ he => he
  obtain ⟨ms, k1, k2⟩ := C132_virtual_work d n x _ h.sound
  rw [h2] at k1; cases k1
  exact ⟨r, h1, h2, k2, fun v u => (virtual_work_bil d n r.2 (fun e he => h.sound.nodes e.1 (h3 e he).1) (fun e he => (h3 e he).2) v u).trans (h4 v u)⟩

theorem geo_symm (d : Nat) (es : List (VElm K)) (u v w : Nat → Nat → K) : geo d es u v w = geo d es u w v := by
  unfold geo
  refine congrArg List.sum (List.map_congr_left fun e _ => congrArg List.sum (List.map_congr_left fun p _ => congrArg (p.q.w * ·) (Finset.sum_congr rfl fun k _ => ?_)))
  rw [Finset.sum_comm]
  exact Finset.sum_congr rfl fun i _ => Finset.sum_congr rfl fun j _ => by rw [tensor_symm]; ring

theorem tensor_smul (d : Nat) (c : K) (s t : Nat → K) (h : ∀ k, t k = c * s k) (i j : Nat) : tensor d t i j = c * tensor d s i j := by
  unfold tensor; split_ifs <;> exact h _

theorem geo_smul (d : Nat) (es : List (VElm K)) (c : K) (u v w : Nat → Nat → K) : geo d es (fun a i => c * u a i) v w = c * geo d es u v w := by
  unfold geo
  rw [← List.sum_map_mul_left]
  refine congrArg List.sum (List.map_congr_left fun e _ => ?_)
  rw [← List.sum_map_mul_left]
  refine congrArg List.sum (List.map_congr_left fun p _ => ?_)
  rw [mul_left_comm]
  refine congrArg (p.q.w * ·) ?_
  simp only [Finset.mul_sum]
  refine Finset.sum_congr rfl fun k _ => Finset.sum_congr rfl fun i _ => Finset.sum_congr rfl fun j _ => ?_
  rw [tensor_smul d c (stress d p.q (loc e.solid u)) (stress d p.q (loc e.solid fun a i => c * u a i)) (fun k => ?_), mul_assoc, mul_assoc, mul_assoc]
  unfold stress
  rw [Finset.mul_sum]
  refine Finset.sum_congr rfl fun l _ => ?_
  have : loc e.solid (fun a i => c * u a i) = fun a i => 0 + c * loc e.solid u a i := funext fun a => funext fun i => by simp [loc]
  rw [this, strain_lin]
  have hz : strain d p.q (fun _ _ => (0 : K)) (l + 1) = 0 := by
    have := strain_lin d p.q (fun _ _ => (0 : K)) (fun _ _ => 0) 1 (l + 1)
    simp only [mul_zero, add_zero, one_mul] at this
    linarith
  rw [hz]; ring

/-- Virtual displacements against a state of buckling. -/
theorem neutral_test (d n : Nat) (r : List (Elm K × DMat K) × List (Elm K × DMat K)) (fixed : Nat → Nat → Prop) (mu : K) (phi v : Nat → Nat → K) (hm : Neutral d n r fixed mu phi) (hv : Admissible d n fixed v) :
    ∑ a ∈ Finset.range n, ∑ i ∈ Finset.range d, v (a + 1) (i + 1) * nodal d n (asmK d r.1) phi (a + 1) (i + 1) +
      mu * ∑ a ∈ Finset.range n, ∑ i ∈ Finset.range d, v (a + 1) (i + 1) * nodal d n (asmK d r.2) phi (a + 1) (i + 1) = 0 := by
  simp only [Finset.mul_sum, ← Finset.sum_add_distrib]
  refine Finset.sum_eq_zero fun a ha => Finset.sum_eq_zero fun i hi => ?_
  by_cases hf : fixed (a + 1) (i + 1)
  · rw [hv a i (Finset.mem_range.mp ha) (Finset.mem_range.mp hi) hf]; ring
  · linear_combination v (a + 1) (i + 1) * hm.free a i (Finset.mem_range.mp ha) (Finset.mem_range.mp hi) hf

/-- C136 (modes): the modes of the eigenvalue problem, with eigenvalue `lam`, are the states of buckling at the load factor `-lam`. -/
theorem C136_modes (d n : Nat) (r : List (Elm K × DMat K) × List (Elm K × DMat K)) (fixed : Nat → Nat → Prop) (lam : K) (phi : Nat → Nat → K) :
    Neutral d n r fixed (-lam) phi ↔ Mode d n (asmK d r.1) (asmK d r.2) fixed lam phi ∧ Moves d n phi :=
  ⟨fun h => ⟨⟨fun a i ha hi hf => by linear_combination h.free a i ha hi hf, h.held⟩, h.moves⟩, fun h => ⟨fun a i ha hi hf => by linear_combination h.1.free a i ha hi hf, h.1.held, h.2⟩⟩

/-- C136 (energy): in a state of buckling the strain energy is that released by the stresses of the loads times the load factor; states with different load factors are orthogonal. -/
theorem C136_energy_partial (d n : Nat) (tol : K) (x : Nat → Nat → K) (es : List (VElm K)) (h : Heavy d n x es) (u : Nat → Nat → K) (hu : Clear d tol es u) (fixed : Nat → Nat → Prop) (r) (hr : bucks d tol u es = .ok r) :
    (∀ mu phi, Neutral d n r fixed mu phi → work d (es.map VElm.solid) phi phi = -mu * geo d es u phi phi) ∧
    ∀ mu nu phi psi, Neutral d n r fixed mu phi → Neutral d n r fixed nu psi → mu ≠ nu → geo d es u phi psi = 0 ∧ work d (es.map VElm.solid) phi psi = 0 := by
  obtain ⟨r', h1, -, h2, h3⟩ := C136_forms_partial d n tol x es h u hu
  rw [hr] at h1; cases h1
  have key : ∀ mu phi v, Neutral d n r fixed mu phi → Admissible d n fixed v → work d (es.map VElm.solid) v phi = -mu * geo d es u v phi := by
    intro mu phi v hm hv
    have := neutral_test d n r fixed mu phi v hm hv
    rw [h2, h3] at this
    linear_combination this
  refine ⟨fun mu phi hm => key mu phi phi hm hm.held, fun mu nu phi psi hm hn hne => ?_⟩
  have e1 := key nu psi phi hn hm.held
  have e2 := key mu phi psi hm hn.held
  rw [work_symm, geo_symm] at e2
  have h0 : geo d es u phi psi = 0 := by
    have : (mu - nu) * geo d es u phi psi = 0 := by linear_combination e2 - e1
    exact (mul_eq_zero.mp this).resolve_left (sub_ne_zero.mpr hne)
  exact ⟨h0, by rw [e1, h0, mul_zero]⟩

/-- C136 (tension): if the supports admit no motion without strains and the stresses of the loads are tensile in all directions, the body does not buckle at any positive load factor. -/
theorem C136_tension_partial (d n : Nat) (tol : K) (x : Nat → Nat → K) (es : List (VElm K)) (h : Heavy d n x es) (u : Nat → Nat → K) (hu : Clear d tol es u) (fixed : Nat → Nat → Prop) (r) (hr : bucks d tol u es = .ok r)
    (hsup : ∀ v, Admissible d n fixed v → work d (es.map VElm.solid) v v = 0 → ¬ Moves d n v)
    (hten : ∀ e ∈ es, ∀ p ∈ e.pts, ∀ a : Nat → K, 0 ≤ ∑ i ∈ Finset.range d, ∑ j ∈ Finset.range d, tensor d (stress d p.q (loc e.solid u)) (i + 1) (j + 1) * a (i + 1) * a (j + 1)) :
    ∀ mu phi, 0 < mu → ¬ Neutral d n r fixed mu phi := by
  intro mu phi hmu hm
  have hg : 0 ≤ geo d es u phi phi := by
    unfold geo
    refine list_sum_nonneg _ fun a ha => ?_
    obtain ⟨e, he, rfl⟩ := List.mem_map.mp ha
    refine list_sum_nonneg _ fun a ha => ?_
    obtain ⟨p, hp, rfl⟩ := List.mem_map.mp ha
    refine mul_nonneg (h.sound.weight e.solid (List.mem_map.mpr ⟨e, he, rfl⟩) p.q (List.mem_map.mpr ⟨p, hp, rfl⟩)).le (Finset.sum_nonneg fun k _ => ?_)
    exact hten e he p hp fun i => grad e.nen (loc e.solid phi) p.q.dN.e (k + 1) i
  have hw := (work_nonneg d n x _ h.sound phi).1
  have he := (C136_energy_partial d n tol x es h u hu fixed r hr).1 mu phi hm
  have : work d (es.map VElm.solid) phi phi = 0 := le_antisymm (by rw [he]; nlinarith [mul_nonneg hmu.le hg]) hw
  exact hsup phi hm.held this hm.moves

/-- C136 (reference load): for displacements `c` times as large (loads `c` times as large) the states of buckling are the same, and the load factors are divided by `c`. -/
theorem C136_scale_partial (d n : Nat) (tol : K) (x : Nat → Nat → K) (es : List (VElm K)) (h : Heavy d n x es) (u : Nat → Nat → K) (hu : Clear d tol es u) (c : K) (hc : c ≠ 0) (hu' : Clear d tol es fun a i => c * u a i) (fixed : Nat → Nat → Prop) :
    ∃ r r', bucks d tol u es = .ok r ∧ bucks d tol (fun a i => c * u a i) es = .ok r' ∧ ∀ mu phi, Neutral d n r fixed mu phi ↔ Neutral d n r' fixed (mu / c) phi := by
  obtain ⟨r, h1, m1, h2, h3⟩ := C136_forms_partial d n tol x es h u hu
  obtain ⟨r', h1', m1', h2', h3'⟩ := C136_forms_partial d n tol x es h _ hu'
  have hK : r'.1 = r.1 := by rw [m1] at m1'; exact (Res.ok.inj m1').symm
  have hM : ∀ v a i, a < n → i < d → nodal d n (asmK d r'.2) v (a + 1) (i + 1) = c * nodal d n (asmK d r.2) v (a + 1) (i + 1) := by
    intro v a i ha hi
    rw [← nodal_unit d n (asmK d r.2) v a i ha hi, ← nodal_unit d n (asmK d r'.2) v a i ha hi]
    exact (h3' (fun b j => if b = a + 1 ∧ j = i + 1 then 1 else 0) v).trans ((geo_smul d es c u _ _).trans (congrArg (c * ·) (h3 (fun b j => if b = a + 1 ∧ j = i + 1 then 1 else 0) v).symm))
  have hcc : ∀ mu m : K, mu / c * (c * m) = mu * m := fun lam m => by rw [← mul_assoc, div_mul_cancel₀ _ hc]
  refine ⟨r, r', h1, h1', fun mu phi => ⟨fun hm => ⟨fun a i ha hi hf => ?_, hm.held, hm.moves⟩, fun hm => ⟨fun a i ha hi hf => ?_, hm.held, hm.moves⟩⟩⟩
  · rw [hM _ a i ha hi, hcc, hK]; exact hm.free a i ha hi hf
  · have := hm.free a i ha hi hf
    rwa [hM _ a i ha hi, hcc, hK] at this

/-- C136 (translations): the stresses of the loads cause no forces when the body is moved without rotation. -/
theorem C136_translation (d n : Nat) (tol : K) (x : Nat → Nat → K) (es : List (VElm K)) (h : Heavy d n x es) (u : Nat → Nat → K) (hu : Clear d tol es u) (t : Nat → K) :
    ∃ r, bucks d tol u es = .ok r ∧ ∀ a i, a < n → i < d → nodal d n (asmK d r.2) (fun _ j => t j) (a + 1) (i + 1) = 0 := by
  obtain ⟨r, h1, -, -, h3⟩ := C136_forms_partial d n tol x es h u hu
  refine ⟨r, h1, fun a i ha hi => ?_⟩
  rw [← nodal_unit d n (asmK d r.2) _ a i ha hi]
  refine (h3 (fun b j => if b = a + 1 ∧ j = i + 1 then 1 else 0) _).trans ?_
  unfold geo
  refine List.sum_eq_zero fun q hq => ?_
  obtain ⟨e, he, rfl⟩ := List.mem_map.mp hq
  refine List.sum_eq_zero fun q hq => ?_
  obtain ⟨p, hp, rfl⟩ := List.mem_map.mp hq
  refine mul_eq_zero_of_right _ (Finset.sum_eq_zero fun k _ => Finset.sum_eq_zero fun i _ => Finset.sum_eq_zero fun j hj => ?_)
  have hz : grad e.nen (loc e.solid fun _ j => t j) p.q.dN.e (k + 1) (j + 1) = 0 := by
    have := (h.sound.complete e.solid (List.mem_map.mpr ⟨e, he, rfl⟩) p.q (List.mem_map.mpr ⟨p, hp, rfl⟩)).1 (j + 1) (by omega) (by have := Finset.mem_range.mp hj; omega)
    simp only [grad, loc]
    rw [← Finset.mul_sum]
    exact mul_eq_zero_of_right _ this
  rw [hz, mul_zero]

end

/-- C136 (stability): if the supports admit no motion without strains, then below the lowest positive load factor of buckling every disturbance raises the energy, and above it there is one that lowers it. -/
theorem C136_stability_partial (d n : Nat) (tol : ℝ) (x : Nat → Nat → ℝ) (es : List (VElm ℝ)) (h : Heavy d n x es) (u : Nat → Nat → ℝ) (hu : Clear d tol es u) (fixed : Nat → Nat → Prop)
    (hsup : ∀ v, Admissible d n fixed v → work d (es.map VElm.solid) v v = 0 → ¬ Moves d n v) :
    ∃ r, bucks d tol u es = .ok r ∧ ∀ mu, 0 < mu →
      ((∀ nu phi, 0 < nu → nu ≤ mu → ¬ Neutral d n r fixed nu phi) → ∀ v, Admissible d n fixed v → Moves d n v → 0 < work d (es.map VElm.solid) v v + mu * geo d es u v v) ∧
      ∀ nu phi, 0 < nu → nu < mu → Neutral d n r fixed nu phi → work d (es.map VElm.solid) phi phi + mu * geo d es u phi phi < 0 := by
  obtain ⟨r, h1, -, h2, h3⟩ := C136_forms_partial d n tol x es h u hu
  have wpos : ∀ v, Admissible d n fixed v → Moves d n v → 0 < work d (es.map VElm.solid) v v := fun v hv hm =>
    lt_of_le_of_ne (work_nonneg d n x _ h.sound v).1 fun h0 => hsup v hv h0.symm hm
  refine ⟨r, h1, fun mu hmu => ⟨fun hno v hv hm => ?_, fun nu phi hnu hlt hn => ?_⟩⟩
  · obtain ⟨iF, iD, kap, phi, p1, p2, p3⟩ := exists_modes d n (asmK d r.2) (asmK d r.1) _ _ h3 h2 (geo_symm d es u) (work_symm d _) fixed (fun v => (work_nonneg d n x _ h.sound v).1) (fun v hv h0 a i ha hi => by
      by_contra hne; exact hsup v hv h0 ⟨a, i, ha, hi, hne⟩)
    have hk : ∀ s, 0 < 1 + mu * kap s := by
      intro s
      by_contra hc
      push Not at hc
      have hneg : kap s < 0 := by by_contra h'; push Not at h'; nlinarith [mul_nonneg hmu.le h']
      have hmv : Moves d n (phi s) := by
        by_contra hnm
        have hz : ∀ a i, a < n → i < d → phi s (a + 1) (i + 1) = 0 := fun a i ha hi => by by_contra hne; exact hnm ⟨a, i, ha, hi, hne⟩
        have e := p2 s s
        rw [if_pos rfl, ← h2, Finset.sum_eq_zero fun a ha => Finset.sum_eq_zero fun i hi => by rw [hz a i (Finset.mem_range.mp ha) (Finset.mem_range.mp hi), zero_mul]] at e
        exact zero_ne_one e
      refine hno (-1 / kap s) (phi s) (div_pos_of_neg_of_neg (by norm_num) hneg) ?_ ⟨fun a i ha hi hf => ?_, (p1 s).held, hmv⟩
      · rw [div_le_iff_of_neg hneg]; linarith
      · rw [(p1 s).free a i ha hi hf]
        field_simp [hneg.ne]
        ring
    obtain ⟨-, q2, q3, -⟩ := p3 v hv
    have hv0 := wpos v hv hm
    rw [q2, q3, Finset.mul_sum, ← Finset.sum_add_distrib]
    have e : ∀ s, work d (es.map VElm.solid) (phi s) v ^ 2 + mu * (kap s * work d (es.map VElm.solid) (phi s) v ^ 2) = (1 + mu * kap s) * work d (es.map VElm.solid) (phi s) v ^ 2 := fun s => by ring
    simp only [e]
    rw [q3] at hv0
    obtain ⟨s, -, hs⟩ := Finset.exists_ne_zero_of_sum_ne_zero hv0.ne'
    exact Finset.sum_pos' (fun s _ => mul_nonneg (hk s).le (sq_nonneg _)) ⟨s, Finset.mem_univ s, mul_pos (hk s) (lt_of_le_of_ne (sq_nonneg _) (Ne.symm hs))⟩
  · have he := (C136_energy_partial d n tol x es h u hu fixed r h1).1 nu phi hn
    have := wpos phi hn.held hn.moves
    have hg : geo d es u phi phi < 0 := by
      by_contra hc; push Not at hc
      rw [he] at this
      nlinarith [mul_nonneg hnu.le hc]
    rw [he]
    nlinarith [mul_neg_of_pos_of_neg (sub_pos.mpr hlt) hg]

/-! ### Example: a triangle on two supports, with its third node pressed down, buckles sidewards -/

def triFix (a _i : Nat) : Prop := a = 1 ∨ a = 2

/-- The static displacements: the third node moves down. -/
def triU (a i : Nat) : ℝ := if a = 3 ∧ i = 2 then -1 else 0

/-- The state of buckling: the third node moves sidewards. -/
def triSide (a i : Nat) : ℝ := if a = 3 ∧ i = 1 then 1 else 0

theorem tri_clear : Clear 2 (1 / 10 ^ 16) [triElm] triU := by
  intro e he p hp
  obtain rfl := List.mem_singleton.mp he
  refine Or.inr ⟨1, by decide, ?_⟩
  simp only [triElm, List.mem_cons, List.not_mem_nil, or_false] at hp
  rcases hp with rfl | rfl | rfl <;> norm_num [strain, triPt, eng2, grad, loc, VElm.solid, triElm, triU, Finset.sum_range_succ]

theorem tri_supported (v : Nat → Nat → ℝ) (hv : Admissible 2 3 triFix v) (h0 : work 2 ([triElm].map VElm.solid) v v = 0) : ¬ Moves 2 3 v := by
  have hs := (work_nonneg 2 3 triX _ tri_heavy.sound v).2 h0 triElm.solid (by simp) (triPt 1).q (by simp [VElm.solid, triElm])
  have a1 := hv 0 0 (by omega) (by omega) (Or.inl rfl)
  have a2 := hv 0 1 (by omega) (by omega) (Or.inl rfl)
  have a3 := hv 1 0 (by omega) (by omega) (Or.inr rfl)
  have a4 := hv 1 1 (by omega) (by omega) (Or.inr rfl)
  have s1 := hs 1 (by decide)
  have s2 := hs 2 (by decide)
  norm_num [strain, triPt, eng2, grad, loc, VElm.solid, triElm, Finset.sum_range_succ] at s1 s2 a1 a2 a3 a4
  rintro ⟨a, i, ha, hi, hne⟩
  refine hne ?_
  interval_cases a <;> interval_cases i <;> norm_num <;> linarith

/-- All hypotheses of the theorems above are met: it is a state of buckling at the load factor 2/7, so the triangle is unstable at larger ones. -/
example : ∃ r, bucks 2 (1 / 10 ^ 16) triU [triElm] = .ok r ∧ Neutral 2 3 r triFix (2 / 7) triSide ∧ ∀ mu, 2 / 7 < mu → work 2 ([triElm].map VElm.solid) triSide triSide + mu * geo 2 [triElm] triU triSide triSide < 0 := by
  obtain ⟨r, h1, h2⟩ := C136_stability_partial 2 3 _ triX [triElm] tri_heavy triU tri_clear triFix tri_supported
  obtain ⟨r', k1, -, k2, k3⟩ := C136_forms_partial 2 3 _ triX [triElm] tri_heavy triU tri_clear
  rw [h1] at k1; cases k1
  have hN : Neutral 2 3 r triFix (2 / 7) triSide := by
    refine ⟨fun a i ha hi hf => ?_, ?_, 2, 0, by omega, by omega, by norm_num [triSide]⟩
    · rw [← nodal_unit 2 3 (asmK 2 r.1) triSide a i ha hi, ← nodal_unit 2 3 (asmK 2 r.2) triSide a i ha hi]
      rw [k2 (fun b j => if b = a + 1 ∧ j = i + 1 then 1 else 0) triSide, k3 (fun b j => if b = a + 1 ∧ j = i + 1 then 1 else 0) triSide]
      have ha' : a = 2 := by
        interval_cases a
        · exact absurd (Or.inl rfl) hf
        · exact absurd (Or.inr rfl) hf
        · rfl
      subst ha'
      interval_cases i <;>
      norm_num [work, geo, strain, stress, tensor, hooke, triPt, triMat, eng2, grad, loc, VElm.solid, triElm, triU, triSide, Finset.sum_range_succ, LinIso.Mat.young, LinIso.nuAt]
    · intro a i ha hi hf
      interval_cases a <;> simp_all [triFix, triSide]
  exact ⟨r, h1, hN, fun mu hmu => (h2 mu (by linarith)).2 (2 / 7) triSide (by norm_num) hmu hN⟩

/-! ### Changes of temperature -/

/-- The stresses at an integration point with the thermal strain `th`, as they are reported (Elasticity/Elasticity.C:794-810). -/
def heatStress [LinearOrder K] (d : Nat) (p : QPt K) (th : K) (u : Nat → Nat → K) (k : Nat) : K :=
  ∑ l ∈ Finset.range (d * (d + 1) / 2), hooke d p.mat.planeStress (p.mat.young p.fe p.X) (LinIso.nuAt p.mat p.X) k (l + 1) * (strain d p u (l + 1) - if l < d then th else 0)

/-- The second-order work of these stresses. -/
def heatGeo [LinearOrder K] (d : Nat) (es : List (VElm K)) (th : K) (u v w : Nat → Nat → K) : K :=
  (es.map fun e => (e.pts.map fun p => p.q.w * ∑ k ∈ Finset.range d, ∑ i ∈ Finset.range d, ∑ j ∈ Finset.range d, tensor d (heatStress d p.q th (loc e.solid u)) (i + 1) (j + 1) *
    grad e.nen (loc e.solid v) p.q.dN.e (k + 1) (i + 1) * grad e.nen (loc e.solid w) p.q.dN.e (k + 1) (j + 1)).sum).sum

/-- Without change of temperature it is that of the property. -/
theorem heatGeo_zero [LinearOrder K] (d : Nat) (es : List (VElm K)) (u v w : Nat → Nat → K) : heatGeo d es 0 u v w = geo d es u v w := by
  unfold heatGeo geo
  have : ∀ p : QPt K, ∀ z, heatStress d p 0 z = stress d p z := fun p z => funext fun k => by simp [heatStress, stress]
  simp only [this]

/-- The third node moves up. -/
noncomputable def triUp (a i : Nat) : ℝ := if a = 3 ∧ i = 2 then 1 / 100 else 0

/-- C136, full property refuted for changes of temperature: the geometric stiffness is formed with the stresses of the total strains (Elasticity/LinearElasticity.C:199-204, 232), without the thermal strains.
The heated triangle is in equilibrium and free of stress in the vertical direction, but the geometric stiffness holds its third node as if it was under tension. -/
theorem C136_thermal_violated : ∃ th : ℝ,
    (∀ v, Admissible 2 3 triFix v → ([triElm].map fun e => (e.pts.map fun p => p.q.w * ∑ k ∈ Finset.range 3, strain 2 p.q (loc e.solid v) (k + 1) * heatStress 2 p.q th (loc e.solid triUp) (k + 1)).sum).sum = 0) ∧
    ∃ r, bucks 2 (1 / 10 ^ 16) triUp [triElm] = .ok r ∧
      heatGeo 2 [triElm] th triUp triSide triSide = 0 ∧ 0 < ∑ a ∈ Finset.range 3, ∑ i ∈ Finset.range 2, triSide (a + 1) (i + 1) * nodal 2 3 (asmK 2 r.2) triSide (a + 1) (i + 1) := by
  refine ⟨7 / 1000, fun v hv => ?_, ?_⟩
  · have a1 := hv 0 0 (by omega) (by omega) (Or.inl rfl)
    have a2 := hv 0 1 (by omega) (by omega) (Or.inl rfl)
    have a3 := hv 1 0 (by omega) (by omega) (Or.inr rfl)
    have a4 := hv 1 1 (by omega) (by omega) (Or.inr rfl)
    norm_num at a1 a2 a3 a4
    norm_num [heatStress, strain, hooke, triPt, triMat, eng2, grad, loc, VElm.solid, triElm, triUp, Finset.sum_range_succ, LinIso.Mat.young, LinIso.nuAt, a1, a2, a3, a4]
  · have hc : Clear 2 (1 / 10 ^ 16) [triElm] triUp := by
      intro e he p hp
      obtain rfl := List.mem_singleton.mp he
      refine Or.inr ⟨1, by decide, ?_⟩
      simp only [triElm, List.mem_cons, List.not_mem_nil, or_false] at hp
      rcases hp with rfl | rfl | rfl <;> norm_num [strain, triPt, eng2, grad, loc, VElm.solid, triElm, triUp, Finset.sum_range_succ]
    obtain ⟨r, k1, -, -, k3⟩ := C136_forms_partial 2 3 _ triX [triElm] tri_heavy triUp hc
    refine ⟨r, k1, ?_, ?_⟩
    · norm_num [heatGeo, heatStress, strain, tensor, hooke, triPt, triMat, eng2, grad, loc, VElm.solid, triElm, triUp, triSide, Finset.sum_range_succ, LinIso.Mat.young, LinIso.nuAt]
    · rw [k3]
      norm_num [geo, stress, strain, tensor, hooke, triPt, triMat, eng2, grad, loc, VElm.solid, triElm, triUp, triSide, Finset.sum_range_succ, LinIso.Mat.young, LinIso.nuAt]

end Verif.Struct
