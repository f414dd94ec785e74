/-
C35: penalty contact. Forces act only at closed gaps and balance between the slave and master sides; the
contact tangent of the mortar terms is symmetric and positive semi-definite.
-/
import Verif.Model.Contact
import Verif.Proofs.Basic
import Mathlib.Algebra.Order.BigOperators.Ring.Finset
import Mathlib.Algebra.BigOperators.Field
import Mathlib.Tactic.Linarith
import Mathlib.Tactic.NormNum
import Mathlib.Tactic.Ring
import Mathlib.Tactic.FieldSimp
import Mathlib.Tactic.Positivity

set_option linter.unusedSectionVars false
set_option linter.unnecessarySeqFocus false
set_option linter.unusedSimpArgs false
set_option linter.unusedVariables false

namespace Verif.Contact

/-! ### Weighted gaps and contact forces -/

section forces

variable {K : Type*} [Field K]

/-- The normal component of the relative virtual displacement of the slave surface with respect to the
body: `u a k` is component `k` of node `a`, the slave nodes `1..nS` coming before the master ones. -/
def relNormal (npv : Nat) (p : Pt K) (u : Nat → Nat → K) : K :=
  ∑ k ∈ Finset.range npv, p.nrm (k + 1) *
    (∑ a ∈ Finset.range p.nS, p.Ns (a + 1) * u (a + 1) (k + 1)
      - ∑ b ∈ Finset.range p.nM, p.Nm (b + 1) * u (p.nS + b + 1) (k + 1))

/-- A field on the slave surface with nodal values `x`. -/
def slaveVal (p : Pt K) (x : Nat → K) : K := ∑ j ∈ Finset.range p.nS, p.Ns (j + 1) * x (j + 1)

theorem dof_in {npv i k n : Nat} (hi : i < n) (hk : k < npv) : i * npv + k + 1 ≤ npv * n := by
  have : i * npv + npv ≤ npv * n := by
    calc i * npv + npv = (i + 1) * npv := by ring
      _ ≤ n * npv := Nat.mul_le_mul_right _ hi
      _ = npv * n := Nat.mul_comm _ _
  omega

theorem sum_split (nS nM : Nat) (f g : Nat → K) :
    ∑ i ∈ Finset.range (nS + nM), (if i + 1 ≤ nS then f (i + 1) else g (i + 1 - nS))
      = ∑ a ∈ Finset.range nS, f (a + 1) + ∑ b ∈ Finset.range nM, g (b + 1) := by
  rw [Finset.sum_range_add]
  congr 1
  · refine Finset.sum_congr rfl fun a ha => ?_
    rw [if_pos (by have := Finset.mem_range.mp ha; omega)]
  · refine Finset.sum_congr rfl fun b _ => ?_
    rw [if_neg (by omega)]
    congr 1
    omega

theorem dofVec_at (npv : Nat) (u : Nat → Nat → K) (i k : Nat) (hk : k < npv) :
    dofVec npv u (i * npv + k + 1) = u (i + 1) (k + 1) := by
  rw [Nat.mul_comm]; exact dofVec_eq npv u i k hk

theorem relNormal_eq (npv : Nat) (p : Pt K) (u : Nat → Nat → K) :
    relNormal npv p u = ∑ i ∈ Finset.range (p.nS + p.nM), ∑ k ∈ Finset.range npv,
      u (i + 1) (k + 1) * (p.nrm (k + 1) * (if i + 1 ≤ p.nS then p.Ns (i + 1) else -p.Nm (i + 1 - p.nS))) := by
  unfold relNormal
  rw [Finset.sum_comm]
  refine Finset.sum_congr rfl fun k _ => ?_
  have := sum_split p.nS p.nM (fun a => p.Ns a * u a (k + 1))
    (fun b => -(p.Nm b * u (p.nS + b) (k + 1)))
  rw [Finset.sum_neg_distrib, ← sub_eq_add_neg] at this
  simp only [← Nat.add_assoc] at this
  rw [← this, Finset.mul_sum]
  refine Finset.sum_congr rfl fun i _ => ?_
  by_cases h : i + 1 ≤ p.nS
  · simp only [if_pos h]; ring
  · simp only [if_neg h]
    rw [show p.nS + (i + 1 - p.nS) = i + 1 by omega]; ring

/-- C35, weighted gaps: one integration point adds to the matrix of the mortar formulation the product of
the relative normal displacement and the field on the slave surface, to the areas the integral of the
interpolation functions and to the gaps their integral against the gap. -/
theorem C35_gap_point (npv : Nat) (m : GapMats K) (p : Pt K)
    (h1 : m.phi.nr = npv * (p.nS + p.nM)) (h2 : m.phi.nc = p.nS) (h3 : m.area.n = p.nS)
    (h4 : m.gap.n = p.nS) :
    ∃ m', gapPoint npv m p = .ok m' ∧ m'.phi.nr = m.phi.nr ∧ m'.phi.nc = m.phi.nc ∧
      m'.area.n = m.area.n ∧ m'.gap.n = m.gap.n ∧
      (∀ u x, m'.phi.bil (dofVec npv u) x
        = m.phi.bil (dofVec npv u) x + relNormal npv p u * slaveVal p x * p.w) ∧
      (∀ x, m'.area.dot x = m.area.dot x + slaveVal p x * p.w) ∧
      ∀ x, m'.gap.dot x = m.gap.dot x + slaveVal p x * p.gap * p.w := by
  obtain ⟨B, eB, b1, b2, -, b3⟩ := DMat.addMany_ok (l := phiList npv p) (A := m.phi) (by
    intro t ht
    simp only [phiList, List.mem_flatMap, List.mem_map, List.mem_range] at ht
    obtain ⟨j, hj, i, hi, k, hk, rfl⟩ := ht
    refine ⟨by simp, ?_, by simp, by simp only; omega⟩
    rw [h1]; exact dof_in hi hk)
  obtain ⟨C, eC, c1, c2⟩ := DVec.addMany_ok
    (l := (List.range p.nS).map fun j => (j + 1, p.Ns (j + 1) * p.w)) (A := m.area) (by
    intro t ht
    simp only [List.mem_map, List.mem_range] at ht
    obtain ⟨j, hj, rfl⟩ := ht
    exact ⟨by simp, by simp only; omega⟩)
  obtain ⟨D, eD, d1, d2⟩ := DVec.addMany_ok
    (l := (List.range p.nS).map fun j => (j + 1, p.Ns (j + 1) * (p.gap * p.w))) (A := m.gap) (by
    intro t ht
    simp only [List.mem_map, List.mem_range] at ht
    obtain ⟨j, hj, rfl⟩ := ht
    exact ⟨by simp, by simp only; omega⟩)
  refine ⟨⟨B, C, D⟩, ?_, b1, b2, c1, d1, ?_, ?_, ?_⟩
  · unfold gapPoint; rw [eB]; simp only [Res.bind, eC, eD]
  · intro u x
    rw [b3]
    congr 1
    simp only [phiList, sum_flatMap, List.map_map, sum_list_range, Function.comp]
    rw [relNormal_eq, slaveVal, Finset.mul_sum, Finset.sum_mul]
    refine Finset.sum_congr rfl fun j _ => ?_
    rw [Finset.sum_mul, Finset.sum_mul]
    refine Finset.sum_congr rfl fun i _ => ?_
    rw [Finset.sum_mul, Finset.sum_mul]
    refine Finset.sum_congr rfl fun k hk => ?_
    rw [dofVec_at npv u i k (Finset.mem_range.mp hk)]
    by_cases h : i + 1 ≤ p.nS
    · simp only [if_pos h]; ring
    · simp only [if_neg h]; ring
  · intro x
    rw [c2, slaveVal]
    congr 1
    simp only [List.map_map, sum_list_range, Function.comp, Finset.sum_mul]
    exact Finset.sum_congr rfl fun j _ => by ring
  · intro x
    rw [d2, slaveVal]
    congr 1
    simp only [List.map_map, sum_list_range, Function.comp, Finset.sum_mul]
    exact Finset.sum_congr rfl fun j _ => by ring

/-- C35, nodal gap: the weighted gap divided by the area of the node, if there is any. -/
theorem C35_nodal [LinearOrder K] (area gap : K) :
    (0 < area → nodalGap area gap * area = gap) ∧ (area ≤ 0 → nodalGap area gap = gap) := by
  unfold nodalGap
  refine ⟨fun h => ?_, fun h => ?_⟩
  · rw [if_pos h, div_mul_cancel₀ _ h.ne']
  · rw [if_neg (not_lt.mpr h)]

/-- C35, an element: the same summed over any number of integration points. -/
theorem C35_gap_element (npv nS nM : Nat) (pts : List (Pt K))
    (h : ∀ p ∈ pts, p.nS = nS ∧ p.nM = nM) :
    ∃ m', gapElement npv (gapZero npv nS nM) pts = .ok m' ∧
      (∀ u x, m'.phi.bil (dofVec npv u) x
        = (pts.map fun p => relNormal npv p u * slaveVal p x * p.w).sum) ∧
      (∀ x, m'.area.dot x = (pts.map fun p => slaveVal p x * p.w).sum) ∧
      ∀ x, m'.gap.dot x = (pts.map fun p => slaveVal p x * p.gap * p.w).sum := by
  suffices H : ∀ (m : GapMats K), m.phi.nr = npv * (nS + nM) → m.phi.nc = nS → m.area.n = nS →
      m.gap.n = nS → ∃ m', gapElement npv m pts = .ok m' ∧
      (∀ u x, m'.phi.bil (dofVec npv u) x = m.phi.bil (dofVec npv u) x
        + (pts.map fun p => relNormal npv p u * slaveVal p x * p.w).sum) ∧
      (∀ x, m'.area.dot x = m.area.dot x + (pts.map fun p => slaveVal p x * p.w).sum) ∧
      ∀ x, m'.gap.dot x = m.gap.dot x + (pts.map fun p => slaveVal p x * p.gap * p.w).sum by
    obtain ⟨m', e, a, b, c⟩ := H (gapZero npv nS nM) rfl rfl rfl rfl
    refine ⟨m', e, ?_, ?_, ?_⟩
    · intro u x; rw [a]; simp [gapZero, DMat.bil, DMat.zero]
    · intro x; rw [b]; simp [gapZero, DVec.dot, DVec.zero]
    · intro x; rw [c]; simp [gapZero, DVec.dot, DVec.zero]
  induction pts with
  | nil => intro m _ _ _ _; exact ⟨m, rfl, by simp, by simp, by simp⟩
  | cons p l ih =>
    intro m h1 h2 h3 h4
    obtain ⟨e1, e2⟩ := h p (by simp)
    obtain ⟨m1, em, s1, s2, s3, s4, a, b, c⟩ := C35_gap_point npv m p (by rw [e1, e2]; exact h1)
      (by rw [e1]; exact h2) (by rw [e1]; exact h3) (by rw [e1]; exact h4)
    obtain ⟨m2, em2, a', b', c'⟩ := ih (fun q hq => h q (by simp [hq])) m1
      (s1.trans h1) (s2.trans h2) (s3.trans h3) (s4.trans h4)
    refine ⟨m2, by simp only [gapElement, em, Res.bind]; exact em2, ?_, ?_, ?_⟩
    · intro u x; rw [a', a]; simp only [List.map_cons, List.sum_cons]; ring
    · intro x; rw [b', b]; simp only [List.map_cons, List.sum_cons]; ring
    · intro x; rw [c', c]; simp only [List.map_cons, List.sum_cons]; ring

/-- C35, contact forces: the virtual work of the forces of one integration point is minus the contact
pressure times the relative normal displacement. -/
theorem C35_force_point (npv : Nat) (R : DVec K) (p : Pt K) (lam : Nat → K) (epsW : K)
    (hR : R.n = npv * (p.nS + p.nM)) :
    ∃ R', R.addMany (resList npv p lam epsW) = .ok R' ∧ R'.n = R.n ∧
      ∀ u, R'.dot (dofVec npv u) = R.dot (dofVec npv u) - slaveVal p lam * epsW * relNormal npv p u := by
  obtain ⟨B, eB, b1, b2⟩ := DVec.addMany_ok (l := resList npv p lam epsW) (A := R) (by
    intro t ht
    simp only [resList, List.mem_flatMap, List.mem_map, List.mem_range] at ht
    obtain ⟨j, hj, k, hk, rfl⟩ := ht
    exact ⟨by simp, by simp only; rw [hR]; exact dof_in hj hk⟩)
  refine ⟨B, eB, b1, fun u => ?_⟩
  rw [b2, sub_eq_add_neg]
  congr 1
  simp only [resList, sum_flatMap, List.map_map, sum_list_range, Function.comp]
  rw [relNormal_eq, slaveVal, Finset.mul_sum, ← Finset.sum_neg_distrib]
  refine Finset.sum_congr rfl fun i _ => ?_
  rw [Finset.mul_sum, ← Finset.sum_neg_distrib]
  refine Finset.sum_congr rfl fun k hk => ?_
  rw [dofVec_at npv u i k (Finset.mem_range.mp hk)]
  by_cases h : i + 1 ≤ p.nS
  · simp only [if_pos h]; ring
  · simp only [if_neg h]; ring

/-- C35, balance: the contact forces of an integration point on the slave and master nodes have no
resultant, whatever the pressure, if both sets of interpolation functions sum to one. -/
theorem C35_balance (npv : Nat) (p : Pt K) (lam : Nat → K) (epsW : K) (R : DVec K)
    (hR : R.n = npv * (p.nS + p.nM))
    (hs : ∑ a ∈ Finset.range p.nS, p.Ns (a + 1) = 1) (hm : ∑ b ∈ Finset.range p.nM, p.Nm (b + 1) = 1)
    (c : Nat → K) :
    ∃ R', R.addMany (resList npv p lam epsW) = .ok R' ∧
      R'.dot (dofVec npv fun _ k => c k) = R.dot (dofVec npv fun _ k => c k) := by
  obtain ⟨R', e, -, h⟩ := C35_force_point npv R p lam epsW hR
  refine ⟨R', e, ?_⟩
  rw [h]
  have : relNormal npv p (fun _ k => c k) = 0 := by
    unfold relNormal
    refine Finset.sum_eq_zero fun k _ => ?_
    rw [← Finset.sum_mul, ← Finset.sum_mul, hs, hm]; ring
  rw [this]; ring

/-- C35, no tension: the virtual work of the contact forces of an element is `-eps` times the weighted gap
matrix applied to the closed part `min(g,0)` of the nodal gaps; nothing acts at a node with an open gap. -/
theorem C35_force_element [LinearOrder K] (npv nS nM : Nat) (pts : List (Pt K))
    (h : ∀ p ∈ pts, p.nS = nS ∧ p.nM = nM) (eps : K) (g : Nat → K) :
    ∃ R m, penaltyElement npv eps (fun j => penaltyGap (g j)) (DVec.zero (npv * (nS + nM))) pts = .ok R ∧
      gapElement npv (gapZero npv nS nM) pts = .ok m ∧
      ∀ u, R.dot (dofVec npv u) = -(eps * m.phi.bil (dofVec npv u) fun j => min (g j) 0) := by
  have hmin : ∀ j, penaltyGap (g j) = min (g j) 0 := by
    intro j; unfold penaltyGap
    by_cases hj : 0 < g j
    · rw [if_pos hj, min_eq_right hj.le]
    · rw [if_neg hj, min_eq_left (not_lt.mp hj)]
  simp only [hmin]
  obtain ⟨m, em, hm, -⟩ := C35_gap_element npv nS nM pts h
  suffices H : ∀ (R0 : DVec K), R0.n = npv * (nS + nM) →
      ∃ R, penaltyElement npv eps (fun j => min (g j) 0) R0 pts = .ok R ∧
      ∀ u, R.dot (dofVec npv u) = R0.dot (dofVec npv u)
        - eps * (pts.map fun p => relNormal npv p u * slaveVal p (fun j => min (g j) 0) * p.w).sum by
    obtain ⟨R, eR, hR⟩ := H (DVec.zero _) rfl
    refine ⟨R, m, eR, em, fun u => ?_⟩
    rw [hR, hm]; simp [DVec.dot, DVec.zero]
  clear hm em
  induction pts with
  | nil => intro R0 _; exact ⟨R0, rfl, by simp⟩
  | cons p l ih =>
    intro R0 h0
    obtain ⟨e1, e2⟩ := h p (by simp)
    obtain ⟨R1, eR, n1, f1⟩ := C35_force_point npv R0 p (fun j => min (g j) 0) (eps * p.w)
      (by rw [e1, e2]; exact h0)
    obtain ⟨R2, eR2, f2⟩ := ih (fun q hq => h q (by simp [hq])) R1 (n1.trans h0)
    refine ⟨R2, by simp only [penaltyElement, eR, Res.bind]; exact eR2, fun u => ?_⟩
    rw [f2, f1]; simp only [List.map_cons, List.sum_cons]; ring

/-- Two slave nodes and one master node meet the hypotheses. -/
example : ∃ p : Pt ℚ, p.nS = 2 ∧ p.nM = 1 ∧ ∑ a ∈ Finset.range p.nS, p.Ns (a + 1) = 1 ∧
    ∑ b ∈ Finset.range p.nM, p.Nm (b + 1) = 1 ∧ relNormal 2 p (fun a k => if a = 3 then 1 else 0) = -3 :=
  ⟨⟨2, 1, fun a => if a = 1 then 1/4 else 3/4, fun _ => 1, fun k => k, -1, 2⟩, rfl, rfl,
    by norm_num [Finset.sum_range_succ], by norm_num [Finset.sum_range_succ],
    by simp only [relNormal, Finset.sum_range_succ, Finset.sum_range_zero]; norm_num⟩

end forces

/-! ### The system matrix -/

section tangent

variable {K : Type*} [Field K]

theorem pairs (X Y : Nat → K) (n : Nat) :
    ∑ i ∈ Finset.range n, (X i * Y i + ∑ d ∈ Finset.range (n - (i + 1)),
      (X i * Y (i + 1 + d) + X (i + 1 + d) * Y i))
      = (∑ i ∈ Finset.range n, X i) * ∑ i ∈ Finset.range n, Y i := by
  induction n with
  | zero => simp
  | succ n ih =>
    rw [Finset.sum_range_succ, Finset.sum_range_succ X, Finset.sum_range_succ Y]
    have e : ∀ i ∈ Finset.range n, (X i * Y i + ∑ d ∈ Finset.range (n + 1 - (i + 1)),
        (X i * Y (i + 1 + d) + X (i + 1 + d) * Y i))
        = (X i * Y i + ∑ d ∈ Finset.range (n - (i + 1)),
        (X i * Y (i + 1 + d) + X (i + 1 + d) * Y i)) + (X i * Y n + X n * Y i) := by
      intro i hi
      have hi' := Finset.mem_range.mp hi
      rw [show n + 1 - (i + 1) = n - (i + 1) + 1 by omega, Finset.sum_range_succ,
        show i + 1 + (n - (i + 1)) = n by omega]
      ring
    rw [Finset.sum_congr rfl e, Finset.sum_add_distrib, ih, Finset.sum_add_distrib, ← Finset.sum_mul,
      ← Finset.mul_sum]
    simp
    ring

/-- The weighted normal displacement of slave node `n` for the displacement vector `x`. -/
def weighted (npv nnod : Nat) (phi : Nat → Nat → K) (x : Nat → K) (n : Nat) : K :=
  ∑ i ∈ Finset.range nnod, ∑ k ∈ Finset.range npv, phi (i * npv + k + 1) n * x (i * npv + k + 1)

/-- C35, tangent: the contact terms of the system matrix are
`Σ eps/A_n (φ_nᵀ x)(φ_nᵀ y)` over the active slave nodes, for all vectors `x` and `y`. The nodes skipped by the
code are slave nodes without area, on which the weighted gap matrix vanishes. -/
theorem C35_tangent [LinearOrder K] (npv nnod nslv : Nat) (eps : K) (area : Nat → K)
    (phi : Nat → Nat → K) (active : List Bool) (K0 : DMat K) (hr : K0.nr = npv * nnod)
    (hc : K0.nc = npv * nnod)
    (hz : ∀ i k n, i + 1 ≤ nslv → k < npv → area (i + 1) = 0 → phi (i * npv + k + 1) n = 0) :
    ∃ K1, K0.addMany (sysList npv nnod nslv eps area phi active) = .ok K1 ∧
      ∀ x y, K1.bil x y = K0.bil x y + ∑ n ∈ Finset.range active.length,
        if active[n]? = some true ∧ 0 < area (n + 1) then
          eps / area (n + 1) * weighted npv nnod phi x (n + 1) * weighted npv nnod phi y (n + 1) else 0 := by
  by_cases ha : active = []
  · refine ⟨K0, ?_, fun x y => ?_⟩
    · unfold sysList; rw [if_pos ha]; rfl
    · subst ha; simp
  obtain ⟨B, eB, -, -, -, hB⟩ := DMat.addMany_ok
    (l := sysList npv nnod nslv eps area phi active) (A := K0) (by
    intro t ht
    unfold sysList at ht
    rw [if_neg ha] at ht
    simp only [List.mem_flatMap, List.mem_range] at ht
    obtain ⟨i, hi, ht⟩ := ht
    split_ifs at ht with hs
    · simp at ht
    · rw [List.mem_append] at ht
      rcases ht with ht | ht
      · simp only [List.mem_flatMap, List.mem_map, List.mem_range] at ht
        obtain ⟨k, hk, l, hl, rfl⟩ := ht
        exact ⟨by simp, by rw [hr]; exact dof_in hi hk, by simp, by rw [hc]; exact dof_in hi hl⟩
      · simp only [List.mem_flatMap, List.mem_range] at ht
        obtain ⟨d, hd, ht⟩ := ht
        split_ifs at ht with hs'
        · simp at ht
        · simp only [List.mem_flatMap, List.mem_range] at ht
          obtain ⟨k, hk, l, hl, ht⟩ := ht
          have hj : i + 1 + d < nnod := by omega
          simp only [List.mem_cons, List.not_mem_nil, or_false] at ht
          rcases ht with rfl | rfl
          · exact ⟨by simp, by rw [hr]; exact dof_in hi hk, by simp, by rw [hc]; exact dof_in hj hl⟩
          · exact ⟨by simp, by rw [hr]; exact dof_in hj hl, by simp, by rw [hc]; exact dof_in hi hk⟩)
  refine ⟨B, eB, fun x y => ?_⟩
  rw [hB]
  congr 1
  -- the blocks
  let W := fun (z : Nat → K) (n i : Nat) => ∑ k ∈ Finset.range npv, phi (i * npv + k + 1) n * z (i * npv + k + 1)
  let c := fun n => if active[n]? = some true ∧ 0 < area (n + 1) then eps / area (n + 1) else 0
  let s := fun a b => ∑ n ∈ Finset.range active.length,
    if active[n]? = some true ∧ 0 < area (n + 1) then
      eps / area (n + 1) * phi a (n + 1) * phi b (n + 1) else 0
  have hsv : ∀ a b, s a b = ∑ n ∈ Finset.range active.length, c n * phi a (n + 1) * phi b (n + 1) := by
    intro a b
    refine Finset.sum_congr rfl fun n _ => ?_
    simp only [c]; split_ifs <;> ring
  have hW : ∀ (z z' : Nat → K) i j, (∑ k ∈ Finset.range npv, ∑ l ∈ Finset.range npv,
      z (i * npv + k + 1) * s (i * npv + k + 1) (j * npv + l + 1) * z' (j * npv + l + 1))
      = ∑ n ∈ Finset.range active.length, c n * (W z (n + 1) i * W z' (n + 1) j) := by
    intro z z' i j
    have e1 : ∀ n, c n * (W z (n + 1) i * W z' (n + 1) j) = ∑ k ∈ Finset.range npv,
        ∑ l ∈ Finset.range npv, z (i * npv + k + 1) * (c n * phi (i * npv + k + 1) (n + 1) *
          phi (j * npv + l + 1) (n + 1)) * z' (j * npv + l + 1) := by
      intro n
      simp only [W]
      rw [Finset.sum_mul_sum, Finset.mul_sum]
      refine Finset.sum_congr rfl fun k _ => ?_
      rw [Finset.mul_sum]
      exact Finset.sum_congr rfl fun l _ => by ring
    simp only [e1]
    rw [Finset.sum_comm (s := Finset.range active.length)]
    refine Finset.sum_congr rfl fun k _ => ?_
    rw [Finset.sum_comm (s := Finset.range active.length)]
    refine Finset.sum_congr rfl fun l _ => ?_
    rw [hsv, Finset.mul_sum, Finset.sum_mul]
  have hz' : ∀ z n i, (i + 1 ≤ nslv ∧ area (i + 1) = 0) → W z n i = 0 := by
    intro z n i hi
    simp only [W]
    refine Finset.sum_eq_zero fun k hk => ?_
    rw [hz i k n hi.1 (Finset.mem_range.mp hk) hi.2, zero_mul]
  have main : ((sysList npv nnod nslv eps area phi active).map
      fun t => x t.1 * t.2.2 * y t.2.1).sum = ∑ i ∈ Finset.range nnod,
      ((∑ n ∈ Finset.range active.length, c n * (W x (n + 1) i * W y (n + 1) i)) +
      ∑ d ∈ Finset.range (nnod - (i + 1)),
        ((∑ n ∈ Finset.range active.length, c n * (W x (n + 1) i * W y (n + 1) (i + 1 + d))) +
         ∑ n ∈ Finset.range active.length, c n * (W y (n + 1) i * W x (n + 1) (i + 1 + d)))) := by
    unfold sysList
    rw [if_neg ha, sum_flatMap, sum_list_range]
    refine Finset.sum_congr rfl fun i _ => ?_
    by_cases hs : i + 1 ≤ nslv ∧ area (i + 1) = 0
    · simp only [if_pos hs, List.map_nil, List.sum_nil]
      simp [hz' _ _ _ hs]
    · simp only [if_neg hs]
      rw [List.map_append, List.sum_append]
      congr 1
      · rw [← hW]
        simp only [sum_flatMap, List.map_map, sum_list_range, Function.comp]
        rfl
      · rw [sum_flatMap, sum_list_range]
        refine Finset.sum_congr rfl fun d _ => ?_
        by_cases hs' : i + 1 + d + 1 ≤ nslv ∧ area (i + 1 + d + 1) = 0
        · simp only [if_pos hs', List.map_nil, List.sum_nil]
          simp [hz' _ _ _ hs']
        · simp only [if_neg hs']
          rw [← hW, ← hW, ← Finset.sum_add_distrib]
          simp only [sum_flatMap, List.map_map, sum_list_range, Function.comp]
          refine Finset.sum_congr rfl fun k _ => ?_
          rw [← Finset.sum_add_distrib]
          refine Finset.sum_congr rfl fun l _ => ?_
          simp only [List.map_cons, List.map_nil, List.sum_cons, List.sum_nil, add_zero]
          show x _ * s _ _ * y _ + x _ * s _ _ * y _ = _
          ring
  rw [main]
  have e2 : ∀ n, (if active[n]? = some true ∧ 0 < area (n + 1) then
      eps / area (n + 1) * weighted npv nnod phi x (n + 1) * weighted npv nnod phi y (n + 1) else 0)
      = c n * ((∑ i ∈ Finset.range nnod, W x (n + 1) i) * ∑ i ∈ Finset.range nnod, W y (n + 1) i) := by
    intro n
    simp only [c, weighted, W]
    split_ifs <;> ring
  simp only [e2, ← pairs]
  simp only [Finset.mul_sum, mul_add]
  symm
  rw [Finset.sum_comm]
  refine Finset.sum_congr rfl fun i _ => ?_
  rw [Finset.sum_add_distrib]
  congr 1
  rw [Finset.sum_comm]
  refine Finset.sum_congr rfl fun d _ => ?_
  rw [Finset.sum_add_distrib]
  congr 1
  exact Finset.sum_congr rfl fun n _ => by ring

/-- C35, the contact tangent is symmetric and positive semi-definite. -/
theorem C35_semidefinite [LinearOrder K] [IsStrictOrderedRing K] (npv nnod nslv : Nat) (eps : K)
    (heps : 0 ≤ eps) (area : Nat → K)
    (phi : Nat → Nat → K) (active : List Bool)
    (hz : ∀ i k n, i + 1 ≤ nslv → k < npv → area (i + 1) = 0 → phi (i * npv + k + 1) n = 0) :
    ∃ K1, (DMat.zero (npv * nnod) (npv * nnod)).addMany
        (sysList npv nnod nslv eps area phi active) = .ok K1 ∧
      (∀ x y, K1.bil x y = K1.bil y x) ∧ ∀ x, 0 ≤ K1.bil x x := by
  obtain ⟨K1, e, h⟩ := C35_tangent npv nnod nslv eps area phi active
    (DMat.zero (npv * nnod) (npv * nnod)) rfl rfl hz
  have h0 : ∀ x y, (DMat.zero (npv * nnod) (npv * nnod) : DMat K).bil x y = 0 := by
    intro x y; simp [DMat.bil, DMat.zero]
  refine ⟨K1, e, fun x y => ?_, fun x => ?_⟩
  · rw [h, h, h0, h0]
    congr 1
    exact Finset.sum_congr rfl fun n _ => by split_ifs <;> ring
  · rw [h, h0, zero_add]
    refine Finset.sum_nonneg fun n _ => ?_
    split_ifs with hn
    · have := div_nonneg heps hn.2.le
      have h2 := mul_self_nonneg (weighted npv nnod phi x (n + 1))
      calc 0 ≤ eps / area (n + 1) * (weighted npv nnod phi x (n + 1) * weighted npv nnod phi x (n + 1)) :=
            mul_nonneg this h2
        _ = _ := by ring
    · exact le_rfl

/-- C35, the tangent only sees the active nodes: without active nodes nothing is added. -/
theorem C35_tangent_open [LinearOrder K] (npv nnod nslv : Nat) (eps : K) (area : Nat → K)
    (phi : Nat → Nat → K) (active : List Bool) (K0 : DMat K) (hr : K0.nr = npv * nnod)
    (hc : K0.nc = npv * nnod)
    (hz : ∀ i k n, i + 1 ≤ nslv → k < npv → area (i + 1) = 0 → phi (i * npv + k + 1) n = 0)
    (hopen : ∀ b ∈ active, b = false) :
    ∃ K1, K0.addMany (sysList npv nnod nslv eps area phi active) = .ok K1 ∧
      ∀ x y, K1.bil x y = K0.bil x y := by
  obtain ⟨K1, e, h⟩ := C35_tangent npv nnod nslv eps area phi active K0 hr hc hz
  refine ⟨K1, e, fun x y => ?_⟩
  rw [h, Finset.sum_eq_zero, add_zero]
  intro n _
  rw [if_neg]
  rintro ⟨h1, -⟩
  have := hopen true (List.mem_of_getElem? h1)
  simp at this

/-- Two slave nodes, the first one without area and not coupled, the second one active. -/
example : ∃ (area : Nat → ℚ) (phi : Nat → Nat → ℚ), area 1 = 0 ∧ 0 < area 2 ∧
    (∀ i k n, i + 1 ≤ 2 → k < 2 → area (i + 1) = 0 → phi (i * 2 + k + 1) n = 0) ∧
    weighted 2 3 phi (fun i => i) 2 = 31 / 2 := by
  refine ⟨fun n => if n = 1 then 0 else 2, fun m n => if m ≤ 2 then 0 else if m ≤ 4 then 3 else -(1/2),
    by simp, by norm_num, ?_, ?_⟩
  · intro i k n hi hk h
    by_cases h0 : i = 0
    · subst h0; simp only; rw [if_pos (by omega)]
    · simp at h; exact absurd h h0
  · simp only [weighted, Finset.sum_range_succ, Finset.sum_range_zero]
    norm_num

end tangent

end Verif.Contact
