/-
C111: the mortar matrices and contact forces of the whole contact boundary.
-/
import Mathlib.Tactic.IntervalCases
import Verif.Model.ContactGlobal
import Verif.Props.ContactPenalty

set_option linter.unusedSectionVars false
set_option linter.unnecessarySeqFocus false
set_option linter.unusedSimpArgs false
set_option linter.unusedVariables false

namespace Verif.Contact

section assembly

variable {K : Type*} [Field K]

/-- The values at the nodes of an element of a nodal field of the model; zero for nodes that are not on the contact boundary. -/
def gather (mnpc : List Int) (x : Nat → K) (j : Nat) : K :=
  match nodeAt mnpc (j - 1) with
  | some n => x n
  | none => 0

/-- The same for a vector field. -/
def gather2 (mnpc : List Int) (u : Nat → Nat → K) (j k : Nat) : K := gather mnpc (fun n => u n k) j

theorem nodeAt_some {mnpc : List Int} {j n : Nat} (h : nodeAt mnpc j = some n) : mnpc[j]? = some (n : Int) ∧ 0 < n := by
  unfold nodeAt at h
  cases e : mnpc[j]? with
  | none => rw [e] at h; simp at h
  | some z =>
    rw [e] at h
    simp only at h
    split_ifs at h with hz
    · simp only [Option.some.injEq] at h
      subst h
      exact ⟨by congr 1; omega, by omega⟩

/-- A contact element of a model with `nNod` nodes of which the last `nMast` are master nodes: the nodes of the element itself are slave nodes (or not on the contact boundary). -/
structure Fits (nNod nMast : Nat) (e : Elm K) : Prop where
  len : e.nS + e.nM ≤ e.mnpc.length
  slave : ∀ j n, j < e.nS → nodeAt e.mnpc j = some n → n ≤ nNod - nMast
  all : ∀ j n, j < e.nS + e.nM → nodeAt e.mnpc j = some n → n ≤ nNod
  pts : ∀ p ∈ e.pts, p.nS = e.nS ∧ p.nM = e.nM

theorem vecAdds_sum (mnpc : List Int) (v : DVec K) (x : Nat → K) :
    ((vecAdds mnpc v).map fun t => x t.1 * t.2).sum = v.dot (gather mnpc x) := by
  simp only [vecAdds, sum_flatMap, sum_list_range, DVec.dot]
  refine Finset.sum_congr rfl fun j _ => ?_
  cases h : nodeAt mnpc j <;> simp [gather, h]

theorem phiAdds_sum (nsd : Nat) (mnpc : List Int) (A : DMat K) (n : Nat) (hn : A.nr = nsd * n) (hl : n ≤ mnpc.length) (u : Nat → Nat → K) (y : Nat → K) :
    ((phiAdds nsd mnpc A).map fun t => dofVec nsd u t.1 * t.2.2 * y t.2.1).sum = A.bil (dofVec nsd (gather2 mnpc u)) (gather mnpc y) := by
  unfold DMat.bil
  rw [hn, sum_range_mul, phiAdds, sum_flatMap, sum_list_range]
  rcases Nat.eq_zero_or_pos nsd with rfl | hpos
  · simp only [Nat.zero_mul, Finset.range_zero, Finset.sum_empty, Finset.sum_const_zero, List.range_zero, List.map_nil]
    refine Finset.sum_eq_zero fun j _ => ?_
    cases nodeAt mnpc j with
    | none => simp
    | some m =>
      simp only [sum_flatMap, sum_list_range]
      refine Finset.sum_eq_zero fun i _ => ?_
      split_ifs
      · cases nodeAt mnpc i <;> simp
      · simp
  rw [Finset.sum_congr rfl (fun a _ => Finset.sum_comm), Finset.sum_comm]
  refine Finset.sum_congr rfl fun j _ => ?_
  cases hj : nodeAt mnpc j with
  | none => simp [gather, hj]
  | some m =>
    simp only [sum_flatMap, sum_list_range]
    rw [← Finset.sum_subset (Finset.range_mono hl)]
    · refine Finset.sum_congr rfl fun i hi => ?_
      have hi' := Finset.mem_range.mp hi
      rw [if_pos (by rw [hn]; exact Nat.mul_le_mul_left _ hi')]
      cases hk : nodeAt mnpc i with
      | none =>
        simp only [List.map_nil, List.sum_nil]
        symm
        refine Finset.sum_eq_zero fun k hk' => ?_
        rw [dofVec_eq _ _ _ _ (Finset.mem_range.mp hk')]
        simp [gather2, gather, hk]
      | some q =>
        rw [List.map_map, sum_list_range]
        refine Finset.sum_congr rfl fun k hk' => ?_
        have hk'' := Finset.mem_range.mp hk'
        simp only [Function.comp]
        rw [dofVec_eq _ _ _ _ hk'', dofVec_eq _ _ _ _ hk'']
        have := (nodeAt_some hk).2
        simp only [gather2, gather, hk, hj, Nat.add_sub_cancel]
        rw [show q - 1 + 1 = q by omega]
    · intro i _ hi
      rw [if_neg]
      · simp
      · rw [hn]
        intro h
        exact hi (Finset.mem_range.mpr (Nat.le_of_mul_le_mul_left h hpos))

theorem resAdds_sum (nsd : Nat) (mnpc : List Int) (R : DVec K) (n : Nat) (hn : R.n = nsd * n) (hl : n ≤ mnpc.length) (u : Nat → Nat → K) :
    ((resAdds nsd mnpc R).map fun t => dofVec nsd u t.1 * t.2).sum = R.dot (dofVec nsd (gather2 mnpc u)) := by
  unfold DVec.dot
  rw [hn, sum_range_mul, resAdds, sum_flatMap, sum_list_range]
  rcases Nat.eq_zero_or_pos nsd with rfl | hpos
  · simp only [Finset.range_zero, Finset.sum_empty, Finset.sum_const_zero]
    refine Finset.sum_eq_zero fun i _ => ?_
    split_ifs
    · cases nodeAt mnpc i <;> simp
    · simp
  rw [← Finset.sum_subset (Finset.range_mono hl)]
  · refine Finset.sum_congr rfl fun i hi => ?_
    have hi' := Finset.mem_range.mp hi
    rw [if_pos (by rw [hn]; exact Nat.mul_le_mul_left _ hi')]
    cases hk : nodeAt mnpc i with
    | none =>
      simp only [List.map_nil, List.sum_nil]
      symm
      refine Finset.sum_eq_zero fun k hk' => ?_
      rw [dofVec_eq _ _ _ _ (Finset.mem_range.mp hk')]
      simp [gather2, gather, hk]
    | some q =>
      rw [List.map_map, sum_list_range]
      refine Finset.sum_congr rfl fun k hk' => ?_
      have hk'' := Finset.mem_range.mp hk'
      simp only [Function.comp]
      rw [dofVec_eq _ _ _ _ hk'', dofVec_eq _ _ _ _ hk'']
      have := (nodeAt_some hk).2
      simp only [gather2, gather, hk, Nat.add_sub_cancel]
      rw [show q - 1 + 1 = q by omega]
  · intro i _ hi
    rw [if_neg]
    · simp
    · rw [hn]
      intro h
      exact hi (Finset.mem_range.mpr (Nat.le_of_mul_le_mul_left h hpos))

theorem gapElement_size (npv nS nM : Nat) (pts : List (Pt K)) (h : ∀ p ∈ pts, p.nS = nS ∧ p.nM = nM) (m m' : GapMats K)
    (h1 : m.phi.nr = npv * (nS + nM)) (h2 : m.phi.nc = nS) (h3 : m.area.n = nS) (h4 : m.gap.n = nS) (e : gapElement npv m pts = .ok m') :
    m'.phi.nr = npv * (nS + nM) ∧ m'.phi.nc = nS ∧ m'.area.n = nS ∧ m'.gap.n = nS := by
  induction pts generalizing m with
  | nil => simp only [gapElement, Res.ok.injEq] at e; subst e; exact ⟨h1, h2, h3, h4⟩
  | cons p l ih =>
    obtain ⟨e1, e2⟩ := h p (by simp)
    obtain ⟨m1, em, s1, s2, s3, s4, -⟩ := C35_gap_point npv m p (by rw [e1, e2]; exact h1) (by rw [e1]; exact h2) (by rw [e1]; exact h3) (by rw [e1]; exact h4)
    simp only [gapElement, em, Res.bind] at e
    exact ih (fun q hq => h q (by simp [hq])) m1 (s1.trans h1) (s2.trans h2) (s3.trans h3) (s4.trans h4) e

/-- The integrals over an element: of the relative normal displacement times a field on the slave surface, of the field, and of the field times the gap. -/
def elmPhi (nsd : Nat) (e : Elm K) (u : Nat → Nat → K) (x : Nat → K) : K :=
  (e.pts.map fun p => relNormal nsd p (gather2 e.mnpc u) * slaveVal p (gather e.mnpc x) * p.w).sum
def elmArea (e : Elm K) (x : Nat → K) : K := (e.pts.map fun p => slaveVal p (gather e.mnpc x) * p.w).sum
def elmGapInt (e : Elm K) (x : Nat → K) : K := (e.pts.map fun p => slaveVal p (gather e.mnpc x) * p.gap * p.w).sum

theorem assemble_one (nsd nNod nMast : Nat) (e : Elm K) (h : Fits nNod nMast e) (m : GapMats K)
    (h1 : m.phi.nr = nsd * nNod) (h2 : m.phi.nc = nNod - nMast) (h3 : m.area.n = nNod - nMast) (h4 : m.gap.n = nNod - nMast) :
    ∃ em m', gapElement nsd (gapZero nsd e.nS e.nM) e.pts = .ok em ∧ assembleElm nsd m e.mnpc em = .ok m' ∧
      m'.phi.nr = nsd * nNod ∧ m'.phi.nc = nNod - nMast ∧ m'.area.n = nNod - nMast ∧ m'.gap.n = nNod - nMast ∧
      (∀ u x, m'.phi.bil (dofVec nsd u) x = m.phi.bil (dofVec nsd u) x + elmPhi nsd e u x) ∧
      (∀ x, m'.area.dot x = m.area.dot x + elmArea e x) ∧ ∀ x, m'.gap.dot x = m.gap.dot x + elmGapInt e x := by
  obtain ⟨em, ee, a, b, c⟩ := C35_gap_element nsd e.nS e.nM e.pts h.pts
  obtain ⟨z1, z2, z3, z4⟩ := gapElement_size nsd e.nS e.nM e.pts h.pts _ em rfl rfl rfl rfl ee
  have vin : ∀ (v w : DVec K), v.n = e.nS → w.n = nNod - nMast → ∀ t ∈ vecAdds e.mnpc v, 1 ≤ t.1 ∧ t.1 ≤ w.n := by
    intro v w hv hw t ht
    simp only [vecAdds, List.mem_flatMap, List.mem_range] at ht
    obtain ⟨j, hj, ht⟩ := ht
    cases hk : nodeAt e.mnpc j with
    | none => rw [hk] at ht; simp at ht
    | some n =>
      rw [hk] at ht
      simp only [List.mem_singleton] at ht
      subst ht
      exact ⟨(nodeAt_some hk).2, by rw [hw]; exact h.slave j n (by omega) hk⟩
  obtain ⟨A, eA, a1, a2⟩ := DVec.addMany_ok (l := vecAdds e.mnpc em.area) (A := m.area) (vin _ _ z3 h3)
  obtain ⟨G, eG, g1, g2⟩ := DVec.addMany_ok (l := vecAdds e.mnpc em.gap) (A := m.gap) (vin _ _ z4 h4)
  obtain ⟨P, eP, p1, p2, -, p3⟩ := DMat.addMany_ok (l := phiAdds nsd e.mnpc em.phi) (A := m.phi) (by
    intro t ht
    simp only [phiAdds, List.mem_flatMap, List.mem_range] at ht
    obtain ⟨j, hj, ht⟩ := ht
    cases hk : nodeAt e.mnpc j with
    | none => rw [hk] at ht; simp at ht
    | some n =>
      rw [hk] at ht
      simp only [List.mem_flatMap, List.mem_range] at ht
      obtain ⟨i, hi, ht⟩ := ht
      split_ifs at ht with hin
      · cases hk2 : nodeAt e.mnpc i with
        | none => rw [hk2] at ht; simp at ht
        | some q =>
          rw [hk2] at ht
          simp only [List.mem_map, List.mem_range] at ht
          obtain ⟨d, hd, rfl⟩ := ht
          have hq := (nodeAt_some hk2).2
          have hqn : q ≤ nNod := h.all i q (by
            rw [z1] at hin
            have := Nat.le_of_mul_le_mul_left hin (by omega); omega) hk2
          refine ⟨by simp, ?_, (nodeAt_some hk).2, ?_⟩
          · rw [h1]; exact dof_bound (d := nsd) (i := d + 1) hq hqn (by omega)
          · rw [h2]; exact h.slave j n (by omega) hk
      · simp at ht)
  refine ⟨em, ⟨P, A, G⟩, ee, ?_, p1.trans h1, p2.trans h2, a1.trans h3, g1.trans h4, ?_, ?_, ?_⟩
  · simp only [assembleElm, eA, eG, eP, Res.bind]
  · intro u x
    rw [p3, phiAdds_sum nsd e.mnpc em.phi _ z1 h.len, a]; rfl
  · intro x
    rw [a2, vecAdds_sum, b]; rfl
  · intro x
    rw [g2, vecAdds_sum, c]; rfl

/-- **C111**: for any number of contact elements in a model where the master nodes come last, the mortar matrices of the model are the integrals over the whole contact boundary: of the
relative normal displacement of slave and master nodes times a field of the slave nodes, of this field (areas), and of the field times the gap. -/
theorem C111_assembly (nsd nNod nMast : Nat) (els : List (Elm K)) (h : ∀ e ∈ els, Fits nNod nMast e) :
    ∃ m, assembleAll nsd (mortarZero nsd nNod nMast) els = .ok m ∧
      (∀ u x, m.phi.bil (dofVec nsd u) x
        = (els.map fun e => (e.pts.map fun p => relNormal nsd p (gather2 e.mnpc u) * slaveVal p (gather e.mnpc x) * p.w).sum).sum) ∧
      (∀ x, m.area.dot x = (els.map fun e => (e.pts.map fun p => slaveVal p (gather e.mnpc x) * p.w).sum).sum) ∧
      (∀ x, m.gap.dot x = (els.map fun e => (e.pts.map fun p => slaveVal p (gather e.mnpc x) * p.gap * p.w).sum).sum) ∧
      m.phi.nr = nsd * nNod ∧ m.phi.nc = nNod - nMast ∧ m.area.n = nNod - nMast ∧ m.gap.n = nNod - nMast := by
  suffices H : ∀ (m : GapMats K), m.phi.nr = nsd * nNod → m.phi.nc = nNod - nMast → m.area.n = nNod - nMast → m.gap.n = nNod - nMast →
      ∃ m', assembleAll nsd m els = .ok m' ∧
      (∀ u x, m'.phi.bil (dofVec nsd u) x = m.phi.bil (dofVec nsd u) x + (els.map fun e => elmPhi nsd e u x).sum) ∧
      (∀ x, m'.area.dot x = m.area.dot x + (els.map fun e => elmArea e x).sum) ∧
      (∀ x, m'.gap.dot x = m.gap.dot x + (els.map fun e => elmGapInt e x).sum) ∧
      m'.phi.nr = nsd * nNod ∧ m'.phi.nc = nNod - nMast ∧ m'.area.n = nNod - nMast ∧ m'.gap.n = nNod - nMast by
    obtain ⟨m, e, a, b, c, d⟩ := H (mortarZero nsd nNod nMast) rfl rfl rfl rfl
    refine ⟨m, e, fun u x => ?_, fun x => ?_, fun x => ?_, d⟩
    · rw [a]; simp [mortarZero, DMat.bil, DMat.zero, elmPhi]
    · rw [b]; simp [mortarZero, DVec.dot, DVec.zero, elmArea]
    · rw [c]; simp [mortarZero, DVec.dot, DVec.zero, elmGapInt]
  induction els with
  | nil => intro m h1 h2 h3 h4; exact ⟨m, rfl, by simp, by simp, by simp, h1, h2, h3, h4⟩
  | cons e l ih =>
    intro m h1 h2 h3 h4
    obtain ⟨em, m1, e1, e2, s1, s2, s3, s4, a, b, c⟩ := assemble_one nsd nNod nMast e (h e (by simp)) m h1 h2 h3 h4
    obtain ⟨m2, e3, a', b', c', d'⟩ := ih (fun q hq => h q (by simp [hq])) m1 s1 s2 s3 s4
    refine ⟨m2, by simp only [assembleAll, e1, Res.bind, e2]; exact e3, ?_, ?_, ?_, d'⟩
    · intro u x; rw [a', a]; simp only [List.map_cons, List.sum_cons]; ring
    · intro x; rw [b', b]; simp only [List.map_cons, List.sum_cons]; ring
    · intro x; rw [c', c]; simp only [List.map_cons, List.sum_cons]; ring

theorem dot_unit (v : DVec K) (n : Nat) (h1 : 1 ≤ n) (h2 : n ≤ v.n) : v.dot (fun i => if i = n then 1 else 0) = v.e n := by
  unfold DVec.dot
  rw [Finset.sum_eq_single (n - 1)]
  · rw [show n - 1 + 1 = n by omega]; simp
  · intro i _ hi
    have : ¬ (i + 1 = n) := by omega
    simp [this]
  · intro h; exact absurd (Finset.mem_range.mpr (by omega)) h

/-- The interpolation functions of nodes that are not on the contact boundary vanish there, and those of the others have the sum one; the same for the master nodes, all of which have numbers. -/
structure Unity (e : Elm K) : Prop where
  off : ∀ p ∈ e.pts, ∀ j, j < e.nS → nodeAt e.mnpc j = none → p.Ns (j + 1) = 0
  mast : ∀ b, b < e.nM → nodeAt e.mnpc (e.nS + b) ≠ none
  slave : ∀ p ∈ e.pts, ∑ j ∈ Finset.range e.nS, p.Ns (j + 1) = 1
  master : ∀ p ∈ e.pts, ∑ j ∈ Finset.range e.nM, p.Nm (j + 1) = 1

theorem slave_const (e : Elm K) (h : Unity e) (p : Pt K) (hp : p ∈ e.pts) (hs : p.nS = e.nS) (c : K) : slaveVal p (gather e.mnpc fun _ => c) = c := by
  unfold slaveVal
  rw [hs]
  have : ∑ j ∈ Finset.range e.nS, p.Ns (j + 1) * gather e.mnpc (fun _ => c) (j + 1) = ∑ j ∈ Finset.range e.nS, p.Ns (j + 1) * c := by
    refine Finset.sum_congr rfl fun j hj => ?_
    cases hk : nodeAt e.mnpc j with
    | none => rw [h.off p hp j (Finset.mem_range.mp hj) hk]; ring
    | some n => simp [gather, hk]
  rw [this, ← Finset.sum_mul, h.slave p hp, one_mul]

/-- **C111**: the areas of the slave nodes sum up to the area of the contact boundary, and the gaps times the areas to the integral of the gap. -/
theorem C111_total [LinearOrder K] [IsStrictOrderedRing K] (nsd nNod nMast : Nat) (els : List (Elm K)) (h : ∀ e ∈ els, Fits nNod nMast e) (hu : ∀ e ∈ els, Unity e) :
    ∃ m, assembleAll nsd (mortarZero nsd nNod nMast) els = .ok m ∧
      ∑ n ∈ Finset.range (nNod - nMast), m.area.e (n + 1) = (els.map fun e => (e.pts.map fun p => p.w).sum).sum ∧
      ((∀ n, n < nNod - nMast → 0 < m.area.e (n + 1)) →
        ∑ n ∈ Finset.range (nNod - nMast), m.area.e (n + 1) * finalGap m (n + 1) = (els.map fun e => (e.pts.map fun p => p.gap * p.w).sum).sum) := by
  obtain ⟨m, em, -, b, c, -, -, s3, s4⟩ := C111_assembly nsd nNod nMast els h
  refine ⟨m, em, ?_, fun hpos => ?_⟩
  · have := b (fun _ => 1)
    simp only [DVec.dot, one_mul, s3] at this
    rw [this]
    congr 1
    refine List.map_congr_left fun e he => ?_
    congr 1
    refine List.map_congr_left fun p hp => ?_
    rw [slave_const e (hu e he) p hp ((h e he).pts p hp).1, one_mul]
  · have := c (fun _ => 1)
    simp only [DVec.dot, one_mul, s4] at this
    have e1 : ∑ n ∈ Finset.range (nNod - nMast), m.area.e (n + 1) * finalGap m (n + 1) = ∑ n ∈ Finset.range (nNod - nMast), m.gap.e (n + 1) := by
      refine Finset.sum_congr rfl fun n hn => ?_
      have hp := hpos n (Finset.mem_range.mp hn)
      rw [finalGap, nodalGap, if_pos hp, mul_div_cancel₀ _ hp.ne']
    rw [e1, this]
    congr 1
    refine List.map_congr_left fun e he => ?_
    congr 1
    refine List.map_congr_left fun p hp => ?_
    rw [slave_const e (hu e he) p hp ((h e he).pts p hp).1, one_mul]

/-- **C111**: a uniform gap is the gap of every slave node that has an area, whatever the mesh. -/
theorem C111_uniform [LinearOrder K] [IsStrictOrderedRing K] (nsd nNod nMast : Nat) (els : List (Elm K)) (h : ∀ e ∈ els, Fits nNod nMast e) (g : K)
    (hg : ∀ e ∈ els, ∀ p ∈ e.pts, p.gap = g) :
    ∃ m, assembleAll nsd (mortarZero nsd nNod nMast) els = .ok m ∧ ∀ n, 1 ≤ n → n ≤ nNod - nMast → 0 < m.area.e n → finalGap m n = g := by
  obtain ⟨m, em, -, b, c, -, -, s3, s4⟩ := C111_assembly nsd nNod nMast els h
  refine ⟨m, em, fun n h1 h2 hp => ?_⟩
  have hb := b (fun i => if i = n then 1 else 0)
  have hc := c (fun i => if i = n then 1 else 0)
  rw [dot_unit _ _ h1 (by rw [s3]; exact h2)] at hb
  rw [dot_unit _ _ h1 (by rw [s4]; exact h2)] at hc
  have : m.gap.e n = g * m.area.e n := by
    rw [hb, hc, ← List.sum_map_mul_left]
    congr 1
    refine List.map_congr_left fun e he => ?_
    rw [← List.sum_map_mul_left]
    congr 1
    refine List.map_congr_left fun p hp => ?_
    rw [hg e he p hp]; ring
  rw [finalGap, nodalGap, if_pos hp, this, mul_div_assoc, div_self hp.ne', mul_one]

/-- **C111**: the mortar matrix does not see a common translation of body and slave surface: with contact pressures `x` at the slave nodes, the forces have no resultant. -/
theorem C111_balance (nsd nNod nMast : Nat) (els : List (Elm K)) (h : ∀ e ∈ els, Fits nNod nMast e) (hu : ∀ e ∈ els, Unity e) (c : Nat → K) (x : Nat → K) :
    ∃ m, assembleAll nsd (mortarZero nsd nNod nMast) els = .ok m ∧ m.phi.bil (dofVec nsd fun _ k => c k) x = 0 := by
  obtain ⟨m, em, a, -⟩ := C111_assembly nsd nNod nMast els h
  refine ⟨m, em, ?_⟩
  rw [a]
  refine List.sum_eq_zero fun y hy => ?_
  obtain ⟨e, he, rfl⟩ := List.mem_map.mp hy
  refine List.sum_eq_zero fun z hz => ?_
  obtain ⟨p, hp, rfl⟩ := List.mem_map.mp hz
  have hpt := (h e he).pts p hp
  have : relNormal nsd p (gather2 e.mnpc fun _ k => c k) = 0 := by
    unfold relNormal
    refine Finset.sum_eq_zero fun k _ => ?_
    have e1 : ∑ a ∈ Finset.range p.nS, p.Ns (a + 1) * gather2 e.mnpc (fun _ k => c k) (a + 1) (k + 1) = c (k + 1) := slave_const e (hu e he) p hp hpt.1 (c (k + 1))
    have e2 : ∑ b ∈ Finset.range p.nM, p.Nm (b + 1) * gather2 e.mnpc (fun _ k => c k) (p.nS + b + 1) (k + 1) = c (k + 1) := by
      rw [hpt.2, hpt.1]
      have : ∑ b ∈ Finset.range e.nM, p.Nm (b + 1) * gather2 e.mnpc (fun _ k => c k) (e.nS + b + 1) (k + 1) = ∑ b ∈ Finset.range e.nM, p.Nm (b + 1) * c (k + 1) := by
        refine Finset.sum_congr rfl fun b hb => ?_
        cases hk : nodeAt e.mnpc (e.nS + b) with
        | none => exact absurd hk ((hu e he).mast b (Finset.mem_range.mp hb))
        | some n => simp [gather2, gather, hk]
      rw [this, ← Finset.sum_mul, (hu e he).master p hp, one_mul]
    rw [e1, e2, sub_self, mul_zero]
  rw [this]; ring

theorem penaltyElement_size (npv : Nat) (eps : K) (lam : Nat → K) (nS nM : Nat) (pts : List (Pt K)) (h : ∀ p ∈ pts, p.nS = nS ∧ p.nM = nM) (R0 R : DVec K)
    (h0 : R0.n = npv * (nS + nM)) (e : penaltyElement npv eps lam R0 pts = .ok R) : R.n = npv * (nS + nM) := by
  induction pts generalizing R0 with
  | nil => simp only [penaltyElement, Res.ok.injEq] at e; subst e; exact h0
  | cons p l ih =>
    obtain ⟨e1, e2⟩ := h p (by simp)
    obtain ⟨R1, eR, n1, -⟩ := C35_force_point npv R0 p lam (eps * p.w) (by rw [e1, e2]; exact h0)
    simp only [penaltyElement, eR, Res.bind] at e
    exact ih (fun q hq => h q (by simp [hq])) R1 (n1.trans h0) e

theorem slaveVal_congr (p : Pt K) (nS : Nat) (hs : p.nS = nS) (x y : Nat → K) (h : ∀ j, j < nS → x (j + 1) = y (j + 1)) : slaveVal p x = slaveVal p y := by
  unfold slaveVal
  rw [hs]
  exact Finset.sum_congr rfl fun j hj => by rw [h j (Finset.mem_range.mp hj)]

/-- **C111**: the virtual work of all contact forces of the penalty formulation is `-eps` times the mortar matrix applied to the closed part `min(g,0)` of the gaps of the slave nodes:
no force comes from slave nodes with an open gap. -/
theorem C111_forces [LinearOrder K] [IsStrictOrderedRing K] (nsd nNod nMast : Nat) (eps : K) (els : List (Elm K)) (h : ∀ e ∈ els, Fits nNod nMast e) :
    ∃ m R, assembleAll nsd (mortarZero nsd nNod nMast) els = .ok m ∧ residualAll nsd eps m (DVec.zero (nsd * nNod)) els = .ok R ∧
      ∀ u, R.dot (dofVec nsd u) = -(eps * m.phi.bil (dofVec nsd u) fun n => min (finalGap m n) 0) := by
  obtain ⟨m, em, a, -⟩ := C111_assembly nsd nNod nMast els h
  have key : ∀ e ∈ els, ∃ r, penaltyElement nsd eps (elmGap m e.mnpc) (DVec.zero (nsd * (e.nS + e.nM))) e.pts = .ok r ∧ r.n = nsd * (e.nS + e.nM) ∧
      ∀ u, r.dot (dofVec nsd (gather2 e.mnpc u)) = -(eps * elmPhi nsd e u fun n => min (finalGap m n) 0) := by
    intro e he
    have hgap : ∀ j, elmGap m e.mnpc j = penaltyGap (match nodeAt e.mnpc (j - 1) with | some n => finalGap m n | none => 0) := by
      intro j
      unfold elmGap
      cases nodeAt e.mnpc (j - 1) with
      | some n => rfl
      | none => simp [penaltyGap]
    have hfun : elmGap m e.mnpc = fun j => penaltyGap (match nodeAt e.mnpc (j - 1) with | some n => finalGap m n | none => 0) := funext hgap
    obtain ⟨R, mm, e1, e2, e3⟩ := C35_force_element nsd e.nS e.nM e.pts (h e he).pts eps (fun j => match nodeAt e.mnpc (j - 1) with | some n => finalGap m n | none => 0)
    refine ⟨R, by rw [hfun]; exact e1, penaltyElement_size nsd eps _ e.nS e.nM e.pts (h e he).pts _ R rfl e1, fun u => ?_⟩
    rw [e3]
    obtain ⟨mm', e2', b, -⟩ := C35_gap_element nsd e.nS e.nM e.pts (h e he).pts
    rw [e2] at e2'
    obtain rfl := Res.ok.inj e2'
    rw [b]
    congr 2
    unfold elmPhi
    congr 1
    refine List.map_congr_left fun p hp => ?_
    congr 2
    refine slaveVal_congr p e.nS ((h e he).pts p hp).1 _ _ fun j hj => ?_
    simp only [Nat.add_sub_cancel, gather]
    cases nodeAt e.mnpc j <;> simp
  have H : ∀ (l : List (Elm K)) (hl : ∀ e ∈ l, e ∈ els) (R0 : DVec K), R0.n = nsd * nNod → ∃ R, residualAll nsd eps m R0 l = .ok R ∧
      ∀ u, R.dot (dofVec nsd u) = R0.dot (dofVec nsd u) - eps * (l.map fun e => elmPhi nsd e u fun n => min (finalGap m n) 0).sum := by
    intro l
    induction l with
    | nil => intro _ R0 _; exact ⟨R0, rfl, by simp⟩
    | cons e l ih =>
      intro hl R0 h0
      have he := hl e (by simp)
      obtain ⟨r, er, rn, rd⟩ := key e he
      obtain ⟨B, eB, b1, b2⟩ := DVec.addMany_ok (l := resAdds nsd e.mnpc r) (A := R0) (by
        intro t ht
        simp only [resAdds, List.mem_flatMap, List.mem_range] at ht
        obtain ⟨i, hi, ht⟩ := ht
        split_ifs at ht with hin
        · cases hk2 : nodeAt e.mnpc i with
          | none => rw [hk2] at ht; simp at ht
          | some q =>
            rw [hk2] at ht
            simp only [List.mem_map, List.mem_range] at ht
            obtain ⟨d, hd, rfl⟩ := ht
            have hq := (nodeAt_some hk2).2
            have hqn : q ≤ nNod := (h e he).all i q (by
              rw [rn] at hin
              have := Nat.le_of_mul_le_mul_left hin (by omega); omega) hk2
            exact ⟨by simp, by rw [h0]; exact dof_bound (d := nsd) (i := d + 1) hq hqn (by omega)⟩
        · simp at ht)
      obtain ⟨R, eR, hR⟩ := ih (fun q hq => hl q (by simp [hq])) B (b1.trans h0)
      refine ⟨R, by simp only [residualAll, er, Res.bind, eB]; exact eR, fun u => ?_⟩
      rw [hR, b2, resAdds_sum nsd e.mnpc r _ rn (h e he).len, rd]
      simp only [List.map_cons, List.sum_cons]; ring
  obtain ⟨R, eR, hR⟩ := H els (fun _ he => he) (DVec.zero (nsd * nNod)) rfl
  refine ⟨m, R, em, eR, fun u => ?_⟩
  rw [hR, a]
  simp [DVec.dot, DVec.zero, elmPhi]

/-- `weighted` is the product of the mortar matrix with a displacement vector. -/
theorem bil_weighted (nsd nNod : Nat) (A : DMat K) (h : A.nr = nsd * nNod) (x y : Nat → K) :
    A.bil x y = ∑ n ∈ Finset.range A.nc, weighted nsd nNod A.e x (n + 1) * y (n + 1) := by
  unfold DMat.bil weighted
  rw [h, sum_range_mul, Finset.sum_congr rfl (fun a _ => Finset.sum_comm), Finset.sum_comm]
  refine Finset.sum_congr rfl fun n _ => ?_
  rw [Finset.sum_mul]
  refine Finset.sum_congr rfl fun i _ => ?_
  rw [Finset.sum_mul]
  refine Finset.sum_congr rfl fun k _ => ?_
  rw [Nat.mul_comm nsd i]
  ring

/-- **C111**: the contact terms of the system matrix belong to the contact forces. When the displacements change by `du`, which changes the gap of every slave node with an area by the
mortar matrix times `du` over its area, and no node opens or closes, then the forces change by minus the system matrix times `du`. The curvature of the body is not part of this. -/
theorem C111_tangent [LinearOrder K] [IsStrictOrderedRing K] (nsd nNod nslv : Nat) (eps : K) (phi : DMat K) (area g g' : Nat → K) (du v : Nat → K) (active : List Bool)
    (hr : phi.nr = nsd * nNod) (hc : phi.nc = nslv) (hl : active.length ≤ nslv)
    (hz : ∀ i k n, i + 1 ≤ nslv → k < nsd → area (i + 1) = 0 → phi.e (i * nsd + k + 1) n = 0)
    (hcol : ∀ n, n < nslv → ¬ 0 < area (n + 1) → ∀ r, phi.e r (n + 1) = 0)
    (hg : ∀ n, n < nslv → 0 < area (n + 1) → g' (n + 1) = g (n + 1) + weighted nsd nNod phi.e du (n + 1) / area (n + 1))
    (ha : ∀ n, n < nslv → 0 < area (n + 1) → (active[n]? = some true → g (n + 1) ≤ 0 ∧ g' (n + 1) ≤ 0) ∧ (active[n]? ≠ some true → 0 ≤ g (n + 1) ∧ 0 ≤ g' (n + 1))) :
    ∃ K1, (DMat.zero (nsd * nNod) (nsd * nNod)).addMany (sysList nsd nNod nslv eps area phi.e active) = .ok K1 ∧
      -(eps * phi.bil v fun n => min (g' n) 0) - -(eps * phi.bil v fun n => min (g n) 0) = -K1.bil v du := by
  obtain ⟨K1, e1, h1⟩ := C35_tangent nsd nNod nslv eps area phi.e active (DMat.zero (nsd * nNod) (nsd * nNod)) rfl rfl hz
  refine ⟨K1, e1, ?_⟩
  rw [h1, bil_weighted nsd nNod phi hr, bil_weighted nsd nNod phi hr, hc]
  have hzero : (DMat.zero (nsd * nNod) (nsd * nNod) : DMat K).bil v du = 0 := by simp [DMat.bil, DMat.zero]
  rw [hzero, zero_add]
  have hext : ∑ n ∈ Finset.range active.length, (if active[n]? = some true ∧ 0 < area (n + 1) then
        eps / area (n + 1) * weighted nsd nNod phi.e v (n + 1) * weighted nsd nNod phi.e du (n + 1) else 0)
      = ∑ n ∈ Finset.range nslv, (if active[n]? = some true ∧ 0 < area (n + 1) then
        eps / area (n + 1) * weighted nsd nNod phi.e v (n + 1) * weighted nsd nNod phi.e du (n + 1) else 0) := by
    refine Finset.sum_subset (Finset.range_mono hl) fun n _ hn => ?_
    rw [if_neg]
    rintro ⟨h, -⟩
    exact hn (Finset.mem_range.mpr (List.getElem?_eq_some_iff.mp h).1)
  rw [hext, Finset.mul_sum, Finset.mul_sum, ← Finset.sum_neg_distrib, ← Finset.sum_neg_distrib, ← Finset.sum_neg_distrib, ← Finset.sum_sub_distrib]
  refine Finset.sum_congr rfl fun n hn => ?_
  have hn' := Finset.mem_range.mp hn
  by_cases hA : 0 < area (n + 1)
  · by_cases hact : active[n]? = some true
    · rw [if_pos ⟨hact, hA⟩]
      obtain ⟨q1, q2⟩ := (ha n hn' hA).1 hact
      rw [min_eq_left q1, min_eq_left q2, hg n hn' hA]
      field_simp
      ring
    · rw [if_neg (fun h => hact h.1)]
      obtain ⟨q1, q2⟩ := (ha n hn' hA).2 hact
      rw [min_eq_right q1, min_eq_right q2]
      ring
  · rw [if_neg (fun h => hA h.2)]
    have : weighted nsd nNod phi.e v (n + 1) = 0 := by
      unfold weighted
      refine Finset.sum_eq_zero fun i _ => Finset.sum_eq_zero fun k _ => ?_
      rw [hcol n hn' hA]; ring
    rw [this]; ring

/-- The hypotheses hold for one slave and one master node in contact. -/
example : let phi : DMat ℚ := ⟨2, 1, fun r _ => if r = 1 then -3 else 3⟩
    (∀ i k n, i + 1 ≤ 1 → k < 1 → (3 : ℚ) = 0 → phi.e (i * 1 + k + 1) n = 0) ∧ (∀ n, n < 1 → ¬ (0 : ℚ) < 3 → ∀ r, phi.e r (n + 1) = 0) ∧
    (-1 + weighted 1 2 phi.e (fun r => if r = 1 then 1/2 else 1/4) 1 / 3 = (-5/4 : ℚ)) ∧ (-1 : ℚ) ≤ 0 ∧ (-5/4 : ℚ) ≤ 0 := by
  refine ⟨fun _ _ _ _ _ h => by norm_num at h, fun _ _ h => absurd (by norm_num) h, ?_, by norm_num, by norm_num⟩
  norm_num [weighted, Finset.sum_range_succ]

theorem bil_unit (A : DMat K) (r c : Nat) (hr1 : 1 ≤ r) (hr : r ≤ A.nr) (hc1 : 1 ≤ c) (hc : c ≤ A.nc) :
    A.bil (fun i => if i = r then 1 else 0) (fun i => if i = c then 1 else 0) = A.e r c := by
  unfold DMat.bil
  rw [Finset.sum_eq_single (r - 1), Finset.sum_eq_single (c - 1)]
  · rw [show r - 1 + 1 = r by omega, show c - 1 + 1 = c by omega]; simp
  · intro i _ hi
    have : ¬ (i + 1 = c) := by omega
    simp [this]
  · intro h; exact absurd (Finset.mem_range.mpr (by omega)) h
  · intro i _ hi
    refine Finset.sum_eq_zero fun j _ => ?_
    have : ¬ (i + 1 = r) := by omega
    simp [this]
  · intro h; exact absurd (Finset.mem_range.mpr (by omega)) h

theorem unit_dof (nsd a k : Nat) (hk : k < nsd) (r : Nat) (hr : 1 ≤ r) :
    dofVec nsd (fun n d => if n = a + 1 ∧ d = k + 1 then (1 : K) else 0) r = if r = a * nsd + k + 1 then 1 else 0 := by
  unfold dofVec
  by_cases h : r = a * nsd + k + 1
  · rw [if_pos h]
    refine if_pos ?_
    subst h
    constructor
    · congr 1
      rw [Nat.add_sub_cancel, Nat.add_comm, Nat.add_mul_div_right _ _ (by omega), Nat.div_eq_of_lt hk]; omega
    · congr 1
      rw [Nat.add_sub_cancel, Nat.add_comm, Nat.add_mul_mod_self_right, Nat.mod_eq_of_lt hk]
  · rw [if_neg h]
    refine if_neg ?_
    rintro ⟨h1, h2⟩
    apply h
    have e1 : (r - 1) / nsd = a := by omega
    have e2 : (r - 1) % nsd = k := by omega
    have := Nat.div_add_mod (r - 1) nsd
    rw [e1, e2, Nat.mul_comm] at this
    omega

/-- **C111**: with non-negative interpolation functions and positive weights, a slave node without area takes no part in the contact: neither its rows nor its column of the mortar matrix
have an entry, so that leaving it out of the system matrix is no loss. -/
theorem C111_no_area [LinearOrder K] [IsStrictOrderedRing K] (nsd nNod nMast : Nat) (els : List (Elm K)) (h : ∀ e ∈ els, Fits nNod nMast e)
    (hN : ∀ e ∈ els, ∀ p ∈ e.pts, 0 < p.w ∧ ∀ j, 0 ≤ p.Ns j) (hM : ∀ e ∈ els, ∀ b n, b < e.nM → nodeAt e.mnpc (e.nS + b) = some n → nNod - nMast < n) :
    ∃ m, assembleAll nsd (mortarZero nsd nNod nMast) els = .ok m ∧ (∀ n, 1 ≤ n → n ≤ nNod - nMast → 0 ≤ m.area.e n) ∧
      ∀ n, n < nNod - nMast → m.area.e (n + 1) = 0 →
        (∀ k c, k < nsd → 1 ≤ c → c ≤ nNod - nMast → m.phi.e (n * nsd + k + 1) c = 0) ∧ ∀ a k, a < nNod → k < nsd → m.phi.e (a * nsd + k + 1) (n + 1) = 0 := by
  obtain ⟨m, em, a, b, -, s1, s2, s3, -⟩ := C111_assembly nsd nNod nMast els h
  have hterm : ∀ n, ∀ e ∈ els, ∀ p ∈ e.pts, 0 ≤ slaveVal p (gather e.mnpc fun i => if i = n then (1 : K) else 0) := by
    intro n e he p hp
    refine Finset.sum_nonneg fun j _ => mul_nonneg ((hN e he p hp).2 _) ?_
    unfold gather
    cases nodeAt e.mnpc (j + 1 - 1) with
    | none => exact le_refl _
    | some q => simp only; split_ifs <;> norm_num
  have harea : ∀ n, 1 ≤ n → n ≤ nNod - nMast → m.area.e n = (els.map fun e => (e.pts.map fun p => slaveVal p (gather e.mnpc fun i => if i = n then (1 : K) else 0) * p.w).sum).sum := by
    intro n h1 h2
    have hb := b (fun i => if i = n then 1 else 0)
    rwa [dot_unit _ _ h1 (by rw [s3]; exact h2)] at hb
  have hnn : ∀ n, ∀ e ∈ els, 0 ≤ (e.pts.map fun p => slaveVal p (gather e.mnpc fun i => if i = n then (1 : K) else 0) * p.w).sum := by
    intro n e he
    refine List.sum_nonneg fun y hy => ?_
    obtain ⟨p, hp, rfl⟩ := List.mem_map.mp hy
    exact mul_nonneg (hterm n e he p hp) (hN e he p hp).1.le
  refine ⟨m, em, fun n h1 h2 => ?_, fun n hn h0 => ?_⟩
  · rw [harea n h1 h2]
    refine List.sum_nonneg fun y hy => ?_
    obtain ⟨e, he, rfl⟩ := List.mem_map.mp hy
    exact hnn n e he
  -- the interpolation function of the node vanishes in all points
  have hval : ∀ e ∈ els, ∀ p ∈ e.pts, slaveVal p (gather e.mnpc fun i => if i = n + 1 then (1 : K) else 0) = 0 := by
    rw [harea (n + 1) (by omega) (by omega)] at h0
    intro e he p hp
    have h1 := (List.all_zero_of_le_zero_le_of_sum_eq_zero (l := els.map fun e => (e.pts.map fun p => slaveVal p (gather e.mnpc fun i => if i = n + 1 then (1 : K) else 0) * p.w).sum)
      (by intro y hy; obtain ⟨e, he, rfl⟩ := List.mem_map.mp hy; exact hnn (n + 1) e he) h0) (List.mem_map_of_mem he)
    have h2 := (List.all_zero_of_le_zero_le_of_sum_eq_zero (l := e.pts.map fun p => slaveVal p (gather e.mnpc fun i => if i = n + 1 then (1 : K) else 0) * p.w)
      (by intro y hy; obtain ⟨p, hp, rfl⟩ := List.mem_map.mp hy; exact mul_nonneg (hterm (n + 1) e he p hp) (hN e he p hp).1.le) h1) (List.mem_map_of_mem hp)
    exact (mul_eq_zero.mp h2).resolve_right (hN e he p hp).1.ne'
  have hNs : ∀ e ∈ els, ∀ p ∈ e.pts, ∀ j, j < e.nS → nodeAt e.mnpc j = some (n + 1) → p.Ns (j + 1) = 0 := by
    intro e he p hp j hj hk
    have := hval e he p hp
    unfold slaveVal at this
    have h3 := (Finset.sum_eq_zero_iff_of_nonneg (by
      intro i _
      refine mul_nonneg ((hN e he p hp).2 _) ?_
      unfold gather
      cases nodeAt e.mnpc (i + 1 - 1) with
      | none => exact le_refl _
      | some q => simp only; split_ifs <;> norm_num)).mp this j (Finset.mem_range.mpr (by rw [((h e he).pts p hp).1]; exact hj))
    simpa [gather, hk] using h3
  constructor
  · intro k c hk hc1 hc2
    have hp := a (fun q d => if q = n + 1 ∧ d = k + 1 then 1 else 0) (fun i => if i = c then 1 else 0)
    have hfun : m.phi.bil (dofVec nsd fun q d => if q = n + 1 ∧ d = k + 1 then (1 : K) else 0) (fun i => if i = c then 1 else 0)
        = m.phi.bil (fun i => if i = n * nsd + k + 1 then 1 else 0) (fun i => if i = c then 1 else 0) := by
      unfold DMat.bil
      refine Finset.sum_congr rfl fun i _ => Finset.sum_congr rfl fun j _ => ?_
      rw [unit_dof nsd n k hk (i + 1) (by omega)]
    rw [hfun, bil_unit _ _ _ (by omega) (by rw [s1]; exact dof_in (by omega) hk) hc1 (by rw [s2]; exact hc2)] at hp
    rw [hp]
    refine List.sum_eq_zero fun y hy => ?_
    obtain ⟨e, he, rfl⟩ := List.mem_map.mp hy
    refine List.sum_eq_zero fun z hz => ?_
    obtain ⟨p, hp, rfl⟩ := List.mem_map.mp hz
    have : relNormal nsd p (gather2 e.mnpc fun q d => if q = n + 1 ∧ d = k + 1 then (1 : K) else 0) = 0 := by
      unfold relNormal
      refine Finset.sum_eq_zero fun d _ => ?_
      rw [Finset.sum_eq_zero, Finset.sum_eq_zero, sub_self, mul_zero]
      · intro b hb
        have hb' := Finset.mem_range.mp hb
        rw [((h e he).pts p hp).2] at hb'
        rw [((h e he).pts p hp).1]
        cases hk2 : nodeAt e.mnpc (e.nS + b) with
        | none => simp [gather2, gather, hk2]
        | some q =>
          have := hM e he b q hb' hk2
          have hq : ¬ (q = n + 1) := by omega
          simp [gather2, gather, hk2, hq]
      · intro j hj
        have hj' := Finset.mem_range.mp hj
        rw [((h e he).pts p hp).1] at hj'
        cases hk2 : nodeAt e.mnpc j with
        | none => simp [gather2, gather, hk2]
        | some q =>
          by_cases hq : q = n + 1
          · subst hq
            rw [hNs e he p hp j hj' hk2]; ring
          · simp [gather2, gather, hk2, hq]
    rw [this]; ring
  · intro b k hb hk
    have hp := a (fun q d => if q = b + 1 ∧ d = k + 1 then 1 else 0) (fun i => if i = n + 1 then 1 else 0)
    have hfun : m.phi.bil (dofVec nsd fun q d => if q = b + 1 ∧ d = k + 1 then (1 : K) else 0) (fun i => if i = n + 1 then 1 else 0)
        = m.phi.bil (fun i => if i = b * nsd + k + 1 then 1 else 0) (fun i => if i = n + 1 then 1 else 0) := by
      unfold DMat.bil
      refine Finset.sum_congr rfl fun i _ => Finset.sum_congr rfl fun j _ => ?_
      rw [unit_dof nsd b k hk (i + 1) (by omega)]
    rw [hfun, bil_unit _ _ _ (by omega) (by rw [s1]; exact dof_in hb hk) (by omega) (by rw [s2]; omega)] at hp
    rw [hp]
    refine List.sum_eq_zero fun y hy => ?_
    obtain ⟨e, he, rfl⟩ := List.mem_map.mp hy
    refine List.sum_eq_zero fun z hz => ?_
    obtain ⟨p, hp, rfl⟩ := List.mem_map.mp hz
    rw [hval e he p hp]; ring

/-- **C111** does not hold if a slave node has a higher number than a master node, as in a model where geometry is added after the contact: its area is added outside of the vector. -/
theorem C111_numbering_violated : assembleAll 1 (mortarZero 1 3 1) [(⟨[3, 2], 1, 1, [⟨1, 1, fun _ => 1, fun _ => 1, fun _ => 1, -1, 1⟩]⟩ : Elm ℚ)] = .ub := by
  rfl

/-- Two elements with two nodes each, of which they share one, and one master node; the nodes 4 and 5 are not on the boundary. -/
example : ∃ els : List (Elm ℚ), els.length = 2 ∧ (∀ e ∈ els, Fits 4 1 e ∧ Unity e ∧ (∀ p ∈ e.pts, 0 < p.w ∧ ∀ j, 0 ≤ p.Ns j) ∧
    ∀ b n, b < e.nM → nodeAt e.mnpc (e.nS + b) = some n → 4 - 1 < n) := by
  let p : Pt ℚ := ⟨3, 1, fun a => if a = 1 then 1/4 else if a = 2 then 3/4 else 0, fun _ => 1, fun k => k, -1, 2⟩
  refine ⟨[⟨[1, 2, -4, 4], 3, 1, [p]⟩, ⟨[2, 3, -5, 4], 3, 1, [p, p]⟩], rfl, ?_⟩
  have hp : 0 < p.w ∧ ∀ j, 0 ≤ p.Ns j := ⟨by norm_num [p], fun j => by simp only [p]; split_ifs <;> norm_num⟩
  have hs : ∑ j ∈ Finset.range 3, p.Ns (j + 1) = 1 := by norm_num [p, Finset.sum_range_succ]
  have hm : ∑ j ∈ Finset.range 1, p.Nm (j + 1) = 1 := by norm_num [p]
  intro e he
  simp only [List.mem_cons, List.not_mem_nil, or_false] at he
  rcases he with rfl | rfl
  · refine ⟨⟨by simp, ?_, ?_, by simp [p]⟩, ⟨?_, ?_, by simpa using hs, by simpa using hm⟩, by simpa using hp, ?_⟩
    · intro j n hj h; simp only at hj; interval_cases j <;> simp [nodeAt] at h <;> omega
    · intro j n hj h; simp only at hj; interval_cases j <;> simp [nodeAt] at h <;> omega
    · intro q hq j hj h
      simp only [List.mem_singleton] at hq; subst hq
      simp only at hj
      interval_cases j <;> simp [nodeAt] at h
      norm_num [p]
    · intro b hb; simp only at hb; interval_cases b; simp [nodeAt]
    · intro b n hb h; simp only at hb; interval_cases b; simp [nodeAt] at h; omega
  · refine ⟨⟨by simp, ?_, ?_, by simp [p]⟩, ⟨?_, ?_, by simpa using hs, by simpa using hm⟩, by simpa using hp, ?_⟩
    · intro j n hj h; simp only at hj; interval_cases j <;> simp [nodeAt] at h <;> omega
    · intro j n hj h; simp only at hj; interval_cases j <;> simp [nodeAt] at h <;> omega
    · intro q hq j hj h
      simp only [List.mem_cons, List.not_mem_nil, or_false, or_self] at hq; subst hq
      simp only at hj
      interval_cases j <;> simp [nodeAt] at h
      norm_num [p]
    · intro b hb; simp only at hb; interval_cases b; simp [nodeAt]
    · intro b n hb h; simp only at hb; interval_cases b; simp [nodeAt] at h; omega

end assembly

/-! ### Print-out of the contact status -/

theorem statusLoop_eq (l : List Bool) (s n : Nat) (c : Nat → Option Char) :
    statusLoop s l c n = if s < n ∧ l[n - 1 - s]? = some true then (if c n = none then some 'A' else some 'R') else c n := by
  induction l generalizing s c with
  | nil => simp [statusLoop]
  | cons b l ih =>
    cases b with
    | false =>
      rw [statusLoop, ih]
      by_cases h : s < n
      · by_cases h1 : n = s + 1
        · subst h1; simp
        · have : n - 1 - s = n - 1 - (s + 1) + 1 := by omega
          have h2 : s + 1 < n := by omega
          rw [this, List.getElem?_cons_succ]
          simp [h, h2]
      · have h2 : ¬ s + 1 < n := by omega
        simp [h, h2]
    | true =>
      rw [statusLoop, ih]
      by_cases h : s < n
      · by_cases h1 : n = s + 1
        · subst h1; simp
        · have : n - 1 - s = n - 1 - (s + 1) + 1 := by omega
          have h2 : s + 1 < n := by omega
          rw [this, List.getElem?_cons_succ]
          simp [h, h2, h1]
      · have h2 : ¬ s + 1 < n := by omega
        have h3 : ¬ n = s + 1 := by omega
        simp [h, h2, h3]

/-- **C111**: the print-out names exactly the nodes that are or were active, each with what has happened to it: activated, still active, or deactivated. -/
theorem C111_status (old active : List Bool) (n : Nat) :
    status old active (n + 1) = if active[n]? = some true then (if old[n]? = some true then some " remains active" else some " was activated")
      else if old[n]? = some true then some " was deactivated" else none := by
  unfold status
  rw [statusLoop_eq]
  simp only [statusBefore, Nat.add_sub_cancel, Nat.sub_zero, Nat.zero_lt_succ, and_true, true_and]
  by_cases h1 : active[n]? = some true <;> by_cases h2 : old[n]? = some true <;> simp [h1, h2, statusText]

example : (status [true, true, false] [false, true, false, true] 1, status [true, true, false] [false, true, false, true] 2, status [true, true, false] [false, true, false, true] 3,
    status [true, true, false] [false, true, false, true] 4) = (some " was deactivated", some " remains active", none, some " was activated") := by decide +kernel

/-- **C111**: the closest node that is not active is one with an area and an open gap, none of which has a smaller gap, and the first of those with this gap. It is printed as zero when there
is no node with an open gap. -/
theorem C111_closest {K : Type*} [Field K] [LinearOrder K] [IsStrictOrderedRing K] (big : K) (area gap : Nat → K) (nslv : Nat) (hb : ∀ n, gap n < big) (hbig : 0 < big) :
    let c := closest big area gap nslv
    (c.1 = 0 ↔ ∀ n, n < nslv → 0 < area (n + 1) → gap (n + 1) ≤ 0) ∧
    (c.1 ≠ 0 → c.1 ≤ nslv ∧ 0 < area c.1 ∧ 0 < gap c.1 ∧ c.2 = gap c.1) ∧
    (∀ n, n < nslv → 0 < area (n + 1) → 0 < gap (n + 1) → c.2 ≤ gap (n + 1) ∧ (gap (n + 1) = c.2 → c.1 ≤ n + 1)) := by
  intro c
  suffices H : (c.1 = 0 → c.2 = big) ∧ (c.1 ≠ 0 → c.1 ≤ nslv ∧ 0 < area c.1 ∧ 0 < gap c.1 ∧ c.2 = gap c.1) ∧
      (∀ n, n < nslv → 0 < area (n + 1) → 0 < gap (n + 1) → c.2 ≤ gap (n + 1) ∧ (gap (n + 1) = c.2 → c.1 ≤ n + 1)) by
    obtain ⟨h1, h2, h3⟩ := H
    refine ⟨⟨fun h0 n hn ha => ?_, fun h => ?_⟩, h2, h3⟩
    · by_contra hg
      have := (h3 n hn ha (not_le.mp hg)).1
      rw [h1 h0] at this
      exact absurd (hb (n + 1)) (not_lt.mpr this)
    · by_contra h0
      obtain ⟨q1, q2, q3, -⟩ := h2 h0
      have := h (c.1 - 1) (by omega)
      rw [show c.1 - 1 + 1 = c.1 by omega] at this
      exact absurd q3 (not_lt.mpr (this q2))
  induction nslv with
  | zero => exact ⟨fun _ => rfl, fun h => absurd rfl h, fun n hn => by omega⟩
  | succ k ih =>
    obtain ⟨h1, h2, h3⟩ := ih
    simp only [c, closest]
    split_ifs with hc1 hc2
    · refine ⟨h1, fun h => ?_, fun n hn ha hg => ?_⟩
      · obtain ⟨a1, a2⟩ := h2 h; exact ⟨by omega, a2⟩
      · rcases Nat.lt_succ_iff_lt_or_eq.mp hn with h | rfl
        · exact h3 n h ha hg
        · exact absurd hg (not_lt.mpr hc1.2)
    · refine ⟨fun h => by simp at h, fun _ => ⟨le_refl _, hc2.1, ?_, rfl⟩, fun n hn ha hg => ?_⟩
      · by_contra h; exact hc1 ⟨hc2.1, not_lt.mp h⟩
      · rcases Nat.lt_succ_iff_lt_or_eq.mp hn with h | rfl
        · have := (h3 n h ha hg).1
          exact ⟨(hc2.2.trans_le this).le, fun he => absurd (hc2.2.trans_le this) (by rw [he]; exact lt_irrefl _)⟩
        · exact ⟨le_refl _, fun _ => le_refl _⟩
    · refine ⟨h1, fun h => ?_, fun n hn ha hg => ?_⟩
      · obtain ⟨a1, a2⟩ := h2 h; exact ⟨by omega, a2⟩
      · rcases Nat.lt_succ_iff_lt_or_eq.mp hn with h | rfl
        · exact h3 n h ha hg
        · have hle : (closest big area gap n).2 ≤ gap (n + 1) := by
            by_contra hh; exact hc2 ⟨ha, not_le.mp hh⟩
          refine ⟨hle, fun _ => ?_⟩
          by_cases h0 : (closest big area gap n).1 = 0
          · omega
          · have := (h2 h0).1; omega

example : closest (1000 : ℚ) (fun n => if n = 2 then 0 else 1) (fun n => if n = 1 then -1 else if n = 2 then 1/2 else 5 - n) 4 = (4, 1) := by
  decide +kernel

/-- **C111**: the printed number of active nodes is the number of slave nodes with an area and a closed gap, except when the first iteration is repeated (see C35). -/
theorem C111_count_partial {K : Type*} [Field K] [LinearOrder K] [IsStrictOrderedRing K] (area gap : Nat → K) (nslv : Nat) (old : List Bool) :
    activeCount (activate false nslv (penaltyCond area gap) old) = ((List.range nslv).filter fun n => decide (0 < area (n + 1) ∧ gap (n + 1) ≤ 0)).length := by
  have hmark : ∀ n, (markAll (penaltyCond area gap) n []).length ≤ n ∧
      (markAll (penaltyCond area gap) n []).count true = ((List.range n).filter fun n => decide (0 < area (n + 1) ∧ gap (n + 1) ≤ 0)).length := by
    intro n
    induction n with
    | zero => simp [markAll]
    | succ n ih =>
      rw [List.range_succ, List.filter_append, List.length_append, markAll, markStep]
      have hc : penaltyCond area gap (n + 1) = decide (0 < area (n + 1) ∧ gap (n + 1) ≤ 0) := by simp [penaltyCond]
      by_cases h : 0 < area (n + 1) ∧ gap (n + 1) ≤ 0
      · rw [hc, if_pos (by simpa using h)]
        have hr : resizeB (markAll (penaltyCond area gap) n []) (n + 1) = markAll (penaltyCond area gap) n [] ++ List.replicate (n + 1 - (markAll (penaltyCond area gap) n []).length) false := by
          unfold resizeB
          rw [if_neg (by omega)]
        rw [hr]
        have hk : n + 1 - (markAll (penaltyCond area gap) n []).length = n - (markAll (penaltyCond area gap) n []).length + 1 := by omega
        rw [hk, List.replicate_succ', ← List.append_assoc, List.dropLast_concat]
        refine ⟨by simp; omega, ?_⟩
        simp [h, ih.2, List.count_append, List.count_replicate]
      · rw [hc, if_neg (by simpa using h)]
        refine ⟨by omega, ?_⟩
        rw [ih.2]
        have : decide (0 < area (n + 1) ∧ gap (n + 1) ≤ 0) = false := by simpa using h
        simp [List.filter_cons, this]
        exact fun ha => not_le.mp fun hb => h ⟨ha, hb⟩
  unfold activeCount activate
  simp only [Bool.false_eq_true, if_false]
  exact (hmark nslv).2

end Verif.Contact
