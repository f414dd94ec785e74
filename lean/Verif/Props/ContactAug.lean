/-
C36: augmented Lagrangian contact. The multiplier equations are the contact conditions, the coupling matrix is
the derivative of the contact forces with respect to the multipliers, and the element matrix is symmetric.
C71: the geometric contact stiffness and a common translation of the body and the slave surface.
-/
import Verif.Props.ContactPenalty
import Verif.Props.ContactActive
import Verif.Proofs.Assign

set_option linter.unusedSectionVars false
set_option linter.unnecessarySeqFocus false
set_option linter.unusedSimpArgs false
set_option linter.unusedVariables false

namespace Verif.Contact

section

variable {K : Type*} [Field K]

/-- C36, complementarity: with the active nodes determined by the augmented pressure, the multiplier residual of a
node vanishes exactly at the contact conditions: no penetration, no tension, and no force at an open gap. -/
theorem C36_complementarity [LinearOrder K] [IsStrictOrderedRing K] (eps lam gap area : K)
    (heps : 0 < eps) (ha : 0 < area) :
    (multiplierEqn eps lam gap area (decide (lam + eps * gap ≤ 0))).1 = 0 ↔
      0 ≤ gap ∧ lam ≤ 0 ∧ lam * gap = 0 := by
  unfold multiplierEqn
  by_cases h : lam + eps * gap ≤ 0
  · simp only [h, decide_true, if_true]
    rw [mul_eq_zero, neg_eq_zero]
    constructor
    · rintro (rfl | h')
      · refine ⟨le_rfl, by simpa using h, by simp⟩
      · exact absurd h' ha.ne'
    · rintro ⟨h1, h2, h3⟩
      left
      rcases mul_eq_zero.mp h3 with h4 | h4
      · rw [h4, zero_add] at h
        by_contra h5
        have : 0 < gap := lt_of_le_of_ne h1 (Ne.symm h5)
        have := mul_pos heps this
        linarith
      · exact h4
  · simp only [h, decide_false]
    rw [if_neg (by simp)]
    simp only
    rw [mul_eq_zero, div_eq_zero_iff]
    push Not at h
    constructor
    · rintro ((rfl | h') | h')
      · rw [zero_add] at h
        exact ⟨(pos_of_mul_pos_right h heps.le).le, le_rfl, by simp⟩
      · exact absurd h' heps.ne'
      · exact absurd h' ha.ne'
    · rintro ⟨h1, h2, h3⟩
      left; left
      rcases mul_eq_zero.mp h3 with h4 | h4
      · exact h4
      · rw [h4, mul_zero, add_zero] at h
        exact absurd h2 (not_le.mpr h)

/-- C36, status: with either status the residual vanishes exactly for zero gap (active) or zero multiplier
(inactive). -/
theorem C36_status (eps lam gap area : K) (heps : eps ≠ 0) (ha : area ≠ 0) (active : Bool) :
    (multiplierEqn eps lam gap area active).1 = 0 ↔ if active then gap = 0 else lam = 0 := by
  unfold multiplierEqn
  cases active <;> simp [heps, ha]

/-- C36, linearisation: the diagonal tangent and the weighted gap variation `area * dg` give the change of the
multiplier residual exactly, for every increment. -/
theorem C36_linearised (eps lam gap area dl dg : K) (active : Bool) :
    (multiplierEqn eps (lam + dl) (gap + dg) area active).1
      = (multiplierEqn eps lam gap area active).1
        - ((if active then area * dg else 0) + (multiplierEqn eps lam gap area active).2 * dl) := by
  unfold multiplierEqn
  cases active
  · simp; ring
  · simp; ring

/-- C36, coupling matrix: its contribution from one integration point, for every displacement `u` and every
vector `y` of multiplier values. -/
theorem C36_coupling (npv nlag : Nat) (A : DMat K) (p : Pt K) (iLag : Nat → Nat)
    (h1 : A.nr = npv * (p.nS + p.nM)) (h2 : A.nc = nlag)
    (hl : ∀ j < p.nS, iLag (j + 1) ≤ nlag) :
    ∃ B, A.addMany (kulList npv p iLag) = .ok B ∧ B.nr = A.nr ∧ B.nc = A.nc ∧
      ∀ u y, B.bil (dofVec npv u) y = A.bil (dofVec npv u) y
        + relNormal npv p u * p.w * slaveVal p fun j => if 0 < iLag j then y (iLag j) else 0 := by
  obtain ⟨B, eB, b1, b2, -, b3⟩ := DMat.addMany_ok (l := kulList npv p iLag) (A := A) (by
    intro t ht
    simp only [kulList, List.mem_flatMap, List.mem_range] at ht
    obtain ⟨j, hj, ht⟩ := ht
    split_ifs at ht with hs
    · rw [List.mem_append] at ht
      have := hl j hj
      rcases ht with ht | ht
      · simp only [List.mem_flatMap, List.mem_map, List.mem_range] at ht
        obtain ⟨i, hi, k, hk, rfl⟩ := ht
        exact ⟨by simp, by rw [h1]; exact dof_in (by omega) hk, hs, by rw [h2]; exact this⟩
      · simp only [List.mem_flatMap, List.mem_map, List.mem_range] at ht
        obtain ⟨i, hi, k, hk, rfl⟩ := ht
        exact ⟨by simp, by rw [h1]; exact dof_in (by omega) hk, hs, by rw [h2]; exact this⟩
    · simp at ht)
  refine ⟨B, eB, b1, b2, fun u y => ?_⟩
  rw [b3]
  congr 1
  rw [kulList, sum_flatMap, sum_list_range, slaveVal, Finset.mul_sum]
  refine Finset.sum_congr rfl fun j _ => ?_
  by_cases hs : 0 < iLag (j + 1)
  · simp only [if_pos hs]
    rw [List.map_append, List.sum_append]
    simp only [sum_flatMap, List.map_map, sum_list_range, Function.comp]
    have e1 : ∀ i, ∀ k ∈ Finset.range npv, dofVec npv u (i * npv + k + 1) = u (i + 1) (k + 1) :=
      fun i k hk => dofVec_at npv u i k (Finset.mem_range.mp hk)
    have e2 : relNormal npv p u * p.w * (p.Ns (j + 1) * y (iLag (j + 1)))
        = (∑ i ∈ Finset.range p.nS, ∑ k ∈ Finset.range npv, u (i + 1) (k + 1) *
            (p.nrm (k + 1) * p.Ns (i + 1) * p.Ns (j + 1) * p.w) * y (iLag (j + 1)))
          + ∑ i ∈ Finset.range p.nM, ∑ k ∈ Finset.range npv, u (p.nS + i + 1) (k + 1) *
            (-(p.nrm (k + 1) * p.Nm (i + 1) * p.Ns (j + 1) * p.w)) * y (iLag (j + 1)) := by
      unfold relNormal
      rw [Finset.sum_comm, Finset.sum_comm (s := Finset.range p.nM), ← Finset.sum_add_distrib,
        Finset.sum_mul, Finset.sum_mul]
      refine Finset.sum_congr rfl fun k _ => ?_
      rw [mul_sub, Finset.mul_sum, Finset.mul_sum, sub_eq_add_neg, ← Finset.sum_neg_distrib, add_mul,
        add_mul, Finset.sum_mul, Finset.sum_mul, Finset.sum_mul, Finset.sum_mul]
      congr 1
      · exact Finset.sum_congr rfl fun i _ => by ring
      · exact Finset.sum_congr rfl fun i _ => by ring
    rw [e2]
    congr 1
    · refine Finset.sum_congr rfl fun i _ => Finset.sum_congr rfl fun k hk => ?_
      rw [e1 i k hk]
    · refine Finset.sum_congr rfl fun i _ => Finset.sum_congr rfl fun k hk => ?_
      rw [e1 (p.nS + i) k hk]
  · simp only [if_neg hs, List.map_nil, List.sum_nil, mul_zero]

/-- C36, consistency: a change `y` of the multipliers of the active nodes changes the virtual work of the contact
forces of an integration point by minus the coupling matrix applied to it. -/
theorem C36_forces (npv nlag : Nat) (p : Pt K) (iLag : Nat → Nat) (lam : Nat → K) (y : Nat → K)
    (hl : ∀ j < p.nS, iLag (j + 1) ≤ nlag) :
    ∃ R R' B, (DVec.zero (npv * (p.nS + p.nM))).addMany (resList npv p lam p.w) = .ok R ∧
      (DVec.zero (npv * (p.nS + p.nM))).addMany
        (resList npv p (fun j => lam j + if 0 < iLag j then y (iLag j) else 0) p.w) = .ok R' ∧
      (DMat.zero (npv * (p.nS + p.nM)) nlag).addMany (kulList npv p iLag) = .ok B ∧
      ∀ u, R'.dot (dofVec npv u) = R.dot (dofVec npv u) - B.bil (dofVec npv u) y := by
  obtain ⟨R, e1, -, h1⟩ := C35_force_point npv (DVec.zero (npv * (p.nS + p.nM))) p lam p.w rfl
  obtain ⟨R', e2, -, h2⟩ := C35_force_point npv (DVec.zero (npv * (p.nS + p.nM))) p
    (fun j => lam j + if 0 < iLag j then y (iLag j) else 0) p.w rfl
  obtain ⟨B, e3, -, -, h3⟩ := C36_coupling npv nlag (DMat.zero (npv * (p.nS + p.nM)) nlag) p iLag rfl rfl hl
  refine ⟨R, R', B, e1, e2, e3, fun u => ?_⟩
  rw [h1, h2, h3]
  have : slaveVal p (fun j => lam j + if 0 < iLag j then y (iLag j) else 0)
      = slaveVal p lam + slaveVal p fun j => if 0 < iLag j then y (iLag j) else 0 := by
    unfold slaveVal
    rw [← Finset.sum_add_distrib]
    exact Finset.sum_congr rfl fun j _ => by ring
  have h0 : ∀ x, (DMat.zero (npv * (p.nS + p.nM)) nlag : DMat K).bil (dofVec npv u) x = 0 := by
    intro x; simp [DMat.bil, DMat.zero]
  rw [this, h0]; ring

/-- C36, element nodes: for a list of element nodes the `j`-th entry is the number of slave boundary nodes up to
and including the `j`-th one and its augmented pressure if that node is active, and zero otherwise. -/
theorem C36_nodes (eps : K) (lam gap : Nat → K) (active : List Bool) (nLag : Nat)
    (nodes : List (Option Nat)) (j : Nat) (hj : j < nodes.length) :
    (lagNodes eps lam gap active nLag nodes)[j]? = some
      (match nodes[j]? with
       | some (some n) =>
         if active[n - 1]? = some true then
           (nLag + (nodes.take (j + 1)).countP (·.isSome), lam n + eps * gap n) else (0, 0)
       | _ => (0, 0)) := by
  induction nodes generalizing j nLag with
  | nil => simp at hj
  | cons o l ih =>
    cases j with
    | zero =>
      cases o with
      | none => simp [lagNodes]
      | some n =>
        simp only [lagNodes, isActive]
        have : ((active[n - 1]?).getD false = true) ↔ active[n - 1]? = some true := by
          cases active[n - 1]? with
          | none => simp
          | some b => simp
        simp [this]
    | succ j =>
      have hj' : j < l.length := by simpa using hj
      cases o with
      | none =>
        simp only [lagNodes, List.getElem?_cons_succ, List.take_succ_cons, List.countP_cons]
        rw [ih nLag j hj']
        simp
      | some n =>
        simp only [lagNodes, List.getElem?_cons_succ, List.take_succ_cons, List.countP_cons]
        rw [ih (nLag + 1) j hj']
        simp only [Option.isSome_some, if_true]
        have : ∀ x, nLag + 1 + x = nLag + (x + 1) := by omega
        simp only [this]

/-- C36, the element matrix: its entries, and the zero block of the multipliers. -/
theorem C36_matrix (Kuu Kul : DMat K) (hu : Kuu.nr = Kuu.nc) (hul : Kul.nr = Kuu.nc) :
    ∃ N, newton Kuu Kul (fun _ _ => 0) = .ok N ∧ N.nr = Kuu.nc + Kul.nc ∧ N.nc = Kuu.nc + Kul.nc ∧
      ∀ i j, 1 ≤ i → 1 ≤ j → i ≤ Kuu.nc + Kul.nc → j ≤ Kuu.nc + Kul.nc →
        N.e i j = if i ≤ Kuu.nc then (if j ≤ Kuu.nc then Kuu.e i j else Kul.e i (j - Kuu.nc))
          else (if j ≤ Kuu.nc then Kul.e j (i - Kuu.nc) else 0) := by
  unfold newton
  simp only
  rw [loop_setMany (fun i => newtonRow Kuu.nc Kul.nc Kuu Kul (i + 1))]
  let f : Nat → Nat → K := fun i j =>
    if i ≤ Kuu.nc then (if j ≤ Kuu.nc then Kuu.e i j else Kul.e i (j - Kuu.nc))
          else (if j ≤ Kuu.nc then Kul.e j (i - Kuu.nc) else 0)
  have hmem : ∀ x ∈ (List.range Kuu.nc).flatMap fun i => newtonRow Kuu.nc Kul.nc Kuu Kul (i + 1),
      x.2.2 = f x.1 x.2.1 ∧
      DMat.Inside (⟨Kuu.nc + Kul.nc, Kuu.nc + Kul.nc, fun _ _ => 0⟩ : DMat K) x.1 x.2.1 := by
    intro x hx
    simp only [List.mem_flatMap, List.mem_range, newtonRow, List.mem_append, List.mem_map] at hx
    obtain ⟨i, hi, ⟨j, hj, rfl⟩ | ⟨j, hj, hx⟩⟩ := hx
    · refine ⟨?_, by unfold DMat.Inside; simp only; omega⟩
      simp only [f]
      rw [if_pos (show i + 1 ≤ Kuu.nc by omega), if_pos (show j + 1 ≤ Kuu.nc by omega)]
    · simp only [List.mem_cons, List.not_mem_nil, or_false] at hx
      rcases hx with rfl | rfl
      · refine ⟨?_, by unfold DMat.Inside; simp only; omega⟩
        simp only [f]
        rw [if_pos (show i + 1 ≤ Kuu.nc by omega), if_neg (show ¬ Kuu.nc + (j + 1) ≤ Kuu.nc by omega),
          Nat.add_sub_cancel_left]
      · refine ⟨?_, by unfold DMat.Inside; simp only; omega⟩
        simp only [f]
        rw [if_neg (show ¬ Kuu.nc + (j + 1) ≤ Kuu.nc by omega), if_pos (show i + 1 ≤ Kuu.nc by omega),
          Nat.add_sub_cancel_left]
  classical
  obtain ⟨N, e, n1, n2, h⟩ := setMany_fun f _ _ (fun x hx => (hmem x hx).1) (fun x hx => (hmem x hx).2)
  refine ⟨N, e, n1, n2, fun i j hi1 hj1 hi hj => ?_⟩
  rw [h]
  show _ = f i j
  split_ifs with hex
  · rfl
  · simp only [f]
    by_cases h1 : i ≤ Kuu.nc
    · exfalso
      apply hex
      by_cases h2 : j ≤ Kuu.nc
      · refine ⟨(i, j, Kuu.e i j), ?_, rfl, rfl⟩
        simp only [List.mem_flatMap, List.mem_range, newtonRow, List.mem_append, List.mem_map]
        refine ⟨i - 1, by omega, Or.inl ⟨j - 1, by omega, ?_⟩⟩
        rw [Nat.sub_add_cancel hi1, Nat.sub_add_cancel hj1]
      · refine ⟨(i, j, Kul.e i (j - Kuu.nc)), ?_, rfl, rfl⟩
        simp only [List.mem_flatMap, List.mem_range, newtonRow, List.mem_append, List.mem_map]
        refine ⟨i - 1, by omega, Or.inr ⟨j - Kuu.nc - 1, by omega, ?_⟩⟩
        rw [Nat.sub_add_cancel hi1, Nat.sub_add_cancel (by omega : 1 ≤ j - Kuu.nc),
          Nat.add_sub_cancel' (by omega : Kuu.nc ≤ j)]
        simp
    · by_cases h2 : j ≤ Kuu.nc
      · exfalso
        apply hex
        refine ⟨(i, j, Kul.e j (i - Kuu.nc)), ?_, rfl, rfl⟩
        simp only [List.mem_flatMap, List.mem_range, newtonRow, List.mem_append, List.mem_map]
        refine ⟨j - 1, by omega, Or.inr ⟨i - Kuu.nc - 1, by omega, ?_⟩⟩
        rw [Nat.sub_add_cancel hj1, Nat.sub_add_cancel (by omega : 1 ≤ i - Kuu.nc),
          Nat.add_sub_cancel' (by omega : Kuu.nc ≤ i)]
        simp
      · rw [if_neg h1, if_neg h2]

/-- C36, the element matrix is symmetric if its displacement part is. -/
theorem C36_symmetric (Kuu Kul : DMat K) (hu : Kuu.nr = Kuu.nc) (hul : Kul.nr = Kuu.nc)
    (hs : ∀ i j, Kuu.e i j = Kuu.e j i) :
    ∃ N, newton Kuu Kul (fun _ _ => 0) = .ok N ∧
      ∀ i j, 1 ≤ i → 1 ≤ j → i ≤ N.nr → j ≤ N.nc → N.e i j = N.e j i := by
  obtain ⟨N, e, n1, n2, h⟩ := C36_matrix Kuu Kul hu hul
  refine ⟨N, e, fun i j hi hj hi' hj' => ?_⟩
  rw [n1] at hi'
  rw [n2] at hj'
  rw [h i j hi hj hi' hj', h j i hj hi hj' hi']
  by_cases h1 : i ≤ Kuu.nc
  · by_cases h2 : j ≤ Kuu.nc
    · simp only [if_pos h1, if_pos h2]; exact hs i j
    · simp only [if_pos h1, if_neg h2]
  · by_cases h2 : j ≤ Kuu.nc
    · simp only [if_neg h1, if_pos h2]
    · simp only [if_neg h1, if_neg h2]

/-- A node with a closed gap and compression meets the contact conditions, one with a tensile multiplier does not. -/
example : (multiplierEqn (10 : ℚ) (-2) 0 3 (decide ((-2 : ℚ) + 10 * 0 ≤ 0))).1 = 0 ∧
    (multiplierEqn (10 : ℚ) 2 0 3 (decide ((2 : ℚ) + 10 * 0 ≤ 0))).1 ≠ 0 := by
  constructor <;> norm_num [multiplierEqn]

/-- Three nodes, the second not on the boundary, the third active: its multiplier has index 2. -/
example : lagNodes (1 : ℚ) (fun n => -n) (fun _ => 0) [false, false, true] 0 [some 1, none, some 3]
    = [(0, 0), (0, 0), (2, -3)] := by decide +kernel

/-! ### Geometric contact stiffness -/

/-- Interpolated displacement of the slave surface. -/
def slaveDisp (p : Pt K) (u : Nat → Nat → K) (k : Nat) : K :=
  ∑ a ∈ Finset.range p.nS, p.Ns (a + 1) * u (a + 1) k

/-- Interpolated displacement of the master points. -/
def mastDisp (p : Pt K) (u : Nat → Nat → K) (k : Nat) : K :=
  ∑ b ∈ Finset.range p.nM, p.Nm (b + 1) * u (p.nS + b + 1) k

/-- What the code adds: the geometric stiffness applied to the sum of the displacements of the two surfaces. -/
theorem tangent_point (npv : Nat) (A : DMat K) (p : Pt K) (lam : Nat → K) (epsW : K)
    (Tg : Nat → Nat → K) (h1 : A.nr = npv * (p.nS + p.nM)) (h2 : A.nc = npv * (p.nS + p.nM)) :
    ∃ B, A.addMany (tanList npv p lam epsW Tg) = .ok B ∧
      ∀ u v, B.bil (dofVec npv u) (dofVec npv v) = A.bil (dofVec npv u) (dofVec npv v)
        + slaveVal p lam * epsW * ∑ k ∈ Finset.range npv, ∑ l ∈ Finset.range npv,
          (slaveDisp p u (k + 1) + mastDisp p u (k + 1)) * Tg (k + 1) (l + 1)
            * (slaveDisp p v (l + 1) + mastDisp p v (l + 1)) := by
  obtain ⟨B, eB, -, -, -, b3⟩ := DMat.addMany_ok (l := tanList npv p lam epsW Tg) (A := A) (by
    intro t ht
    simp only [tanList, List.mem_flatMap, List.mem_map, List.mem_range] at ht
    obtain ⟨j, hj, l, hl, i, hi, k, hk, rfl⟩ := ht
    exact ⟨by simp, by rw [h1]; exact dof_in hi hk, by simp, by rw [h2]; exact dof_in hj hl⟩)
  refine ⟨B, eB, fun u v => ?_⟩
  rw [b3]
  congr 1
  have hd : ∀ (u : Nat → Nat → K) k, slaveDisp p u k + mastDisp p u k = ∑ i ∈ Finset.range (p.nS + p.nM),
      (if i + 1 ≤ p.nS then p.Ns (i + 1) else p.Nm (i + 1 - p.nS)) * u (i + 1) k := by
    intro u k
    have := sum_split p.nS p.nM (fun a => p.Ns a * u a k) (fun b => p.Nm b * u (p.nS + b) k)
    simp only [← Nat.add_assoc] at this
    rw [slaveDisp, mastDisp, ← this]
    refine Finset.sum_congr rfl fun i _ => ?_
    by_cases h : i + 1 ≤ p.nS
    · simp only [if_pos h]
    · simp only [if_neg h]
      rw [show p.nS + (i + 1 - p.nS) = i + 1 by omega]
  simp only [hd, tanList, sum_flatMap, List.map_map, sum_list_range, Function.comp]
  show _ = slaveVal p lam * epsW * _
  rw [Finset.sum_comm (s := Finset.range (p.nS + p.nM))]
  rw [Finset.mul_sum]
  conv_rhs => rw [← Finset.mul_sum, Finset.sum_comm, Finset.mul_sum]
  refine Finset.sum_congr rfl fun l hl => ?_
  rw [Finset.mul_sum]
  have e1 : ∀ k ∈ Finset.range npv, slaveVal p lam * epsW * ((∑ i ∈ Finset.range (p.nS + p.nM),
      (if i + 1 ≤ p.nS then p.Ns (i + 1) else p.Nm (i + 1 - p.nS)) * u (i + 1) (k + 1)) *
        Tg (k + 1) (l + 1) * ∑ i ∈ Finset.range (p.nS + p.nM),
      (if i + 1 ≤ p.nS then p.Ns (i + 1) else p.Nm (i + 1 - p.nS)) * v (i + 1) (l + 1))
      = ∑ j ∈ Finset.range (p.nS + p.nM), ∑ i ∈ Finset.range (p.nS + p.nM),
        u (i + 1) (k + 1) * ((if i + 1 ≤ p.nS then p.Ns (i + 1) else p.Nm (i + 1 - p.nS)) *
          (if j + 1 ≤ p.nS then p.Ns (j + 1) else p.Nm (j + 1 - p.nS)) *
          (Tg (k + 1) (l + 1) * (slaveVal p lam * epsW))) * v (j + 1) (l + 1) := by
    intro k _
    rw [Finset.mul_sum, Finset.mul_sum]
    refine Finset.sum_congr rfl fun j _ => ?_
    rw [Finset.sum_mul, Finset.sum_mul, Finset.mul_sum]
    exact Finset.sum_congr rfl fun i _ => by ring
  rw [Finset.sum_congr rfl e1]
  rw [Finset.sum_comm (s := Finset.range npv)]
  refine Finset.sum_congr rfl fun j _ => ?_
  rw [Finset.sum_comm (s := Finset.range npv)]
  refine Finset.sum_congr rfl fun i _ => Finset.sum_congr rfl fun k hk => ?_
  rw [dofVec_at npv u i k (Finset.mem_range.mp hk), dofVec_at npv v j l (Finset.mem_range.mp hl)]
  rfl

/-- C71: for bodies that do not move, the geometric part is the contact pressure times the second derivative of the
gap, applied to the displacements of the slave surface. Missing: moving bodies, see `C71_translation_violated`. -/
theorem C71_fixed_partial (npv : Nat) (A : DMat K) (p : Pt K) (lam : Nat → K) (epsW : K)
    (Tg : Nat → Nat → K) (h1 : A.nr = npv * (p.nS + p.nM)) (h2 : A.nc = npv * (p.nS + p.nM)) :
    ∃ B, A.addMany (tanList npv p lam epsW Tg) = .ok B ∧
      ∀ u v, (∀ b k, p.nS < b → u b k = 0 ∧ v b k = 0) →
        B.bil (dofVec npv u) (dofVec npv v) = A.bil (dofVec npv u) (dofVec npv v)
        + (∑ j ∈ Finset.range p.nS, p.Ns (j + 1) * lam (j + 1)) * epsW *
          ∑ k ∈ Finset.range npv, ∑ l ∈ Finset.range npv,
            (∑ a ∈ Finset.range p.nS, p.Ns (a + 1) * u (a + 1) (k + 1)) * Tg (k + 1) (l + 1)
            * ∑ a ∈ Finset.range p.nS, p.Ns (a + 1) * v (a + 1) (l + 1) := by
  obtain ⟨B, e, h⟩ := tangent_point npv A p lam epsW Tg h1 h2
  refine ⟨B, e, fun u v hz => ?_⟩
  have z1 : ∀ k, mastDisp p u k = 0 := fun k => Finset.sum_eq_zero fun b _ => by
    rw [(hz (p.nS + b + 1) k (by omega)).1, mul_zero]
  have z2 : ∀ k, mastDisp p v k = 0 := fun k => Finset.sum_eq_zero fun b _ => by
    rw [(hz (p.nS + b + 1) k (by omega)).2, mul_zero]
  rw [h]
  simp only [z1, z2, add_zero]
  rfl

end

/-- C71 is violated: at a point penetrating a sphere of radius two around the origin, a common translation of the
sphere and the slave surface, which does not change the gap, is given a nonzero stiffness. -/
theorem C71_translation_violated : ∃ (p : Pt ℝ) (lam : Nat → ℝ) (c : Nat → ℝ) (B : DMat ℝ),
    (∑ a ∈ Finset.range p.nS, p.Ns (a + 1) = 1) ∧ (∑ b ∈ Finset.range p.nM, p.Nm (b + 1) = 1) ∧
    (∀ X t : V3, (sphereGap ((0 : V3) + t) 2 (X + t)).gap = (sphereGap 0 2 X).gap) ∧
    (DMat.zero 6 6).addMany (tanList 3 p lam 1 fun i j =>
      if h : i - 1 < 3 ∧ j - 1 < 3 then sphereTg 0 ![1, 0, 0] ⟨i - 1, h.1⟩ ⟨j - 1, h.2⟩ else 0) = .ok B ∧
    B.bil (dofVec 3 fun _ k => c k) (dofVec 3 fun _ k => c k) ≠ 0 := by
  let p : Pt ℝ := ⟨1, 1, fun _ => 1, fun _ => 1, fun k => if k = 1 then 1 else 0, -1, 1⟩
  obtain ⟨B, e, h⟩ := tangent_point 3 (DMat.zero 6 6) p (fun _ => -1) 1 (fun i j =>
      if h : i - 1 < 3 ∧ j - 1 < 3 then sphereTg 0 ![1, 0, 0] ⟨i - 1, h.1⟩ ⟨j - 1, h.2⟩ else 0) rfl rfl
  refine ⟨p, fun _ => -1, fun k => if k = 2 then 1 else 0, B, by simp [p], by simp [p], ?_, e, ?_⟩
  · intro X t
    simp [sphereGap]
  · rw [h]
    have hl : len ((![1, 0, 0] : V3) - 0) = 1 := by
      simp [len, dot]
    have hT : sphereTg 0 ![1, 0, 0] 1 1 = 1 := by
      simp only [sphereTg, hl]; simp
    have h0 : (DMat.zero 6 6 : DMat ℝ).bil (dofVec 3 fun _ k => if k = 2 then 1 else 0)
        (dofVec 3 fun _ k => if k = 2 then 1 else 0) = 0 := by simp [DMat.bil, DMat.zero]
    rw [h0]
    simp only [slaveVal, slaveDisp, mastDisp, p, Finset.sum_range_succ, Finset.sum_range_zero]
    norm_num
    rw [hT]; norm_num

end Verif.Contact
