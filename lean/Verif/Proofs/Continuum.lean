/- Helper lemmas for the continuum element operations. -/
import Verif.Model.Continuum
import Verif.Proofs.Basic
import Mathlib.Tactic.FinCases
import Mathlib.Tactic.IntervalCases

set_option linter.unusedSectionVars false

namespace Verif.Cont

variable {K : Type*} [Field K]

/-- One column of the un-reshaped B-matrix in 3D. -/
def col3 (d1 d2 d3 : K) (r : Nat) : K :=
  if r = 18 then d1 else if r = 6 then d3 else if r = 17 then d2 else if r = 11 then d3 else
  if r = 10 then d1 else if r = 4 then d2 else if r = 15 then d3 else if r = 8 then d2 else
  if r = 1 then d1 else 0

def col2 (d1 d2 : K) (r : Nat) : K :=
  if r = 6 then d1 else if r = 3 then d2 else if r = 5 then d2 else if r = 1 then d1 else 0

def colAx (d1 d2 h : K) (r : Nat) : K :=
  if r = 8 then d1 else if r = 4 then d2 else if r = 3 then h else if r = 6 then d2 else
  if r = 1 then d1 else 0

theorem inside_mk {m n : Nat} {e : Nat → Nat → K} {i j : Nat} (h1 : 1 ≤ i) (h2 : i ≤ m) (h3 : 1 ≤ j)
    (h4 : j ≤ n) : (⟨m, n, e⟩ : DMat K).Inside i j := ⟨h1, h2, h3, h4⟩

theorem formB_3 (dN : DMat K) (hc : 3 ≤ dN.nc) :
    ∃ B, formB 3 dN = .ok B ∧ B.nr = 6 ∧ B.nc = 3 * dN.nr ∧
      ∀ i j a, 1 ≤ i → i ≤ 6 → j < 3 → a < dN.nr →
        B.e i (3 * a + j + 1)
          = col3 (dN.e (a + 1) 1) (dN.e (a + 1) 2) (dN.e (a + 1) 3) (i + 6 * j) := by
  have key := loop_inv (fun i B => bcol 3 dN (i + 1) B)
    (fun k B => B.nr = 18 ∧ B.nc = dN.nr ∧ ∀ r c, B.e r c =
      if 1 ≤ c ∧ c ≤ k then col3 (dN.e c 1) (dN.e c 2) (dN.e c 3) r else 0)
    dN.nr (DMat.zero 18 dN.nr) ⟨rfl, rfl, fun r c => by
      rw [if_neg (by omega)]; rfl⟩ (by
    rintro k ⟨m, n, e⟩ hk ⟨h1, h2, h3⟩
    simp only at h1 h2 h3
    subst h1 h2
    have hi : ∀ j, 1 ≤ j → j ≤ 3 → dN.Inside (k + 1) j := fun j h h' =>
      ⟨by omega, by omega, h, by omega⟩
    simp only [bcol, DMat.get_ok (hi 1 (by omega) (by omega)),
      DMat.get_ok (hi 2 (by omega) (by omega)), DMat.get_ok (hi 3 (by omega) (by omega)), Res.bind]
    rw [DMat.setMany_ok]
    · refine ⟨_, rfl, rfl, rfl, fun r c => ?_⟩
      simp only [List.foldl]
      by_cases hck : c = k + 1
      · subst hck
        have h0 : e r (k + 1) = 0 := by rw [h3, if_neg (by omega)]
        rw [if_pos (show 1 ≤ k + 1 ∧ k + 1 ≤ k + 1 by omega), h0]
        simp only [and_true, col3, Nat.reduceAdd, Nat.reduceSub, Nat.reduceMul]
      · simp only [hck, and_false, if_false, h3]
        by_cases h : 1 ≤ c ∧ c ≤ k
        · rw [if_pos h, if_pos (show 1 ≤ c ∧ c ≤ k + 1 by omega)]
        · rw [if_neg h, if_neg (show ¬ (1 ≤ c ∧ c ≤ k + 1) by omega)]
    · intro x hx
      fin_cases hx <;> (refine inside_mk ?_ ?_ ?_ ?_ <;> simp only [] <;> omega))
  obtain ⟨B, hB, b1, b2, b3⟩ := key
  refine ⟨B.reshape 6 (3 * dN.nr), ?_, rfl, rfl, ?_⟩
  · unfold formB
    refine (if_neg (show ¬ dN.nc < 3 by omega)).trans ((if_pos (by decide)).trans ?_)
    change (loop (fun i B => bcol 3 dN (i + 1) B) dN.nr (DMat.zero 18 dN.nr)).bind _ = _
    rw [hB]; rfl
  · intro i j a hi1 hi2 hj ha
    simp only [DMat.reshape, b1]
    have e1 : (i - 1 + 6 * (3 * a + j + 1 - 1)) % 18 + 1 = i + 6 * j := by omega
    have e2 : (i - 1 + 6 * (3 * a + j + 1 - 1)) / 18 + 1 = a + 1 := by omega
    rw [e1, e2, b3, if_pos (by omega)]

theorem formB_2 (dN : DMat K) (hc : 2 ≤ dN.nc) :
    ∃ B, formB 2 dN = .ok B ∧ B.nr = 3 ∧ B.nc = 2 * dN.nr ∧
      ∀ i j a, 1 ≤ i → i ≤ 3 → j < 2 → a < dN.nr →
        B.e i (2 * a + j + 1) = col2 (dN.e (a + 1) 1) (dN.e (a + 1) 2) (i + 3 * j) := by
  have key := loop_inv (fun i B => bcol 2 dN (i + 1) B)
    (fun k B => B.nr = 6 ∧ B.nc = dN.nr ∧ ∀ r c, B.e r c =
      if 1 ≤ c ∧ c ≤ k then col2 (dN.e c 1) (dN.e c 2) r else 0)
    dN.nr (DMat.zero 6 dN.nr) ⟨rfl, rfl, fun r c => by
      rw [if_neg (by omega)]; rfl⟩ (by
    rintro k ⟨m, n, e⟩ hk ⟨h1, h2, h3⟩
    simp only at h1 h2 h3
    subst h1 h2
    have hi : ∀ j, 1 ≤ j → j ≤ 2 → dN.Inside (k + 1) j := fun j h h' =>
      ⟨by omega, by omega, h, by omega⟩
    simp only [bcol, DMat.get_ok (hi 1 (by omega) (by omega)),
      DMat.get_ok (hi 2 (by omega) (by omega)), Res.bind]
    rw [DMat.setMany_ok]
    · refine ⟨_, rfl, rfl, rfl, fun r c => ?_⟩
      simp only [List.foldl]
      by_cases hck : c = k + 1
      · subst hck
        have h0 : e r (k + 1) = 0 := by rw [h3, if_neg (by omega)]
        rw [if_pos (show 1 ≤ k + 1 ∧ k + 1 ≤ k + 1 by omega), h0]
        simp only [and_true, col2, Nat.reduceAdd, Nat.reduceSub, Nat.reduceMul]
      · simp only [hck, and_false, if_false, h3]
        by_cases h : 1 ≤ c ∧ c ≤ k
        · rw [if_pos h, if_pos (show 1 ≤ c ∧ c ≤ k + 1 by omega)]
        · rw [if_neg h, if_neg (show ¬ (1 ≤ c ∧ c ≤ k + 1) by omega)]
    · intro x hx
      fin_cases hx <;> (refine inside_mk ?_ ?_ ?_ ?_ <;> simp only [] <;> omega))
  obtain ⟨B, hB, b1, b2, b3⟩ := key
  refine ⟨B.reshape 3 (2 * dN.nr), ?_, rfl, rfl, ?_⟩
  · unfold formB
    refine (if_neg (show ¬ dN.nc < 2 by omega)).trans ((if_pos (by decide)).trans ?_)
    change (loop (fun i B => bcol 2 dN (i + 1) B) dN.nr (DMat.zero 6 dN.nr)).bind _ = _
    rw [hB]; rfl
  · intro i j a hi1 hi2 hj ha
    simp only [DMat.reshape, b1]
    have e1 : (i - 1 + 3 * (2 * a + j + 1 - 1)) % 6 + 1 = i + 3 * j := by omega
    have e2 : (i - 1 + 3 * (2 * a + j + 1 - 1)) / 6 + 1 = a + 1 := by omega
    rw [e1, e2, b3, if_pos (by omega)]

theorem formB_1 (dN : DMat K) (hc : 1 ≤ dN.nc) :
    ∃ B, formB 1 dN = .ok B ∧ B.nr = 1 ∧ B.nc = 1 * dN.nr ∧
      ∀ a, a < dN.nr → B.e 1 (1 * a + 0 + 1) = dN.e (a + 1) 1 := by
  have key := loop_inv (fun i B => bcol 1 dN (i + 1) B)
    (fun k B => B.nr = 1 ∧ B.nc = dN.nr ∧ ∀ c, 1 ≤ c → c ≤ k → B.e 1 c = dN.e c 1)
    dN.nr (DMat.zero 1 dN.nr) ⟨rfl, rfl, fun c _ _ => by omega⟩ (by
    rintro k ⟨m, n, e⟩ hk ⟨h1, h2, h3⟩
    simp only at h1 h2 h3
    subst h1 h2
    have hi : dN.Inside (k + 1) 1 := ⟨by omega, by omega, by omega, by omega⟩
    simp only [bcol, DMat.get_ok hi, Res.bind]
    rw [DMat.setMany_ok]
    · refine ⟨_, rfl, rfl, rfl, fun c hc1 hc2 => ?_⟩
      simp only [List.foldl]
      by_cases hck : c = k + 1
      · subst hck; simp
      · simp only [hck, and_false, if_false]
        exact h3 c hc1 (by omega)
    · intro x hx
      fin_cases hx <;> (refine inside_mk ?_ ?_ ?_ ?_ <;> simp only [] <;> omega))
  obtain ⟨B, hB, b1, b2, b3⟩ := key
  refine ⟨B.reshape 1 (1 * dN.nr), ?_, rfl, rfl, ?_⟩
  · unfold formB
    refine (if_neg (show ¬ dN.nc < 1 by omega)).trans ((if_pos (by decide)).trans ?_)
    change (loop (fun i B => bcol 1 dN (i + 1) B) dN.nr (DMat.zero 1 dN.nr)).bind _ = _
    rw [hB]; rfl
  · intro a ha
    simp only [DMat.reshape, b1]
    have e1 : (1 - 1 + 1 * (1 * a + 0 + 1 - 1)) % 1 + 1 = 1 := by omega
    have e2 : (1 - 1 + 1 * (1 * a + 0 + 1 - 1)) / 1 + 1 = a + 1 := by omega
    rw [e1, e2, b3 _ (by omega) (by omega)]

theorem formB_axi [LinearOrder K] (N : DVec K) (dN : DMat K) (hr : dN.nr = N.n) (hc : 2 ≤ dN.nc)
    (r epsR : K) (hpos : ¬ r < -epsR) :
    ∃ B, formBaxi N dN r epsR = .ok B ∧ B.nr = 4 ∧ B.nc = 2 * N.n ∧
      ∀ i j a, 1 ≤ i → i ≤ 4 → j < 2 → a < N.n →
        B.e i (2 * a + j + 1) = colAx (dN.e (a + 1) 1) (dN.e (a + 1) 2)
          (if r ≤ epsR then dN.e (a + 1) 1 else N.e (a + 1) / r) (i + 4 * j) := by
  have key := loop_inv (fun i B => bcolAxi N dN r epsR (i + 1) B)
    (fun k B => B.nr = 8 ∧ B.nc = N.n ∧ ∀ q c, B.e q c =
      if 1 ≤ c ∧ c ≤ k then colAx (dN.e c 1) (dN.e c 2)
        (if r ≤ epsR then dN.e c 1 else N.e c / r) q else 0)
    N.n (DMat.zero 8 N.n) ⟨rfl, rfl, fun r c => by
      rw [if_neg (by omega)]; rfl⟩ (by
    rintro k ⟨m, n, e⟩ hk ⟨h1, h2, h3⟩
    simp only at h1 h2 h3
    subst h1 h2
    have hi : ∀ j, 1 ≤ j → j ≤ 2 → dN.Inside (k + 1) j := fun j h h' =>
      ⟨by omega, by omega, h, by omega⟩
    have hn : N.get (k + 1) = .ok (N.e (k + 1)) := by unfold DVec.get; exact if_pos ⟨by omega, hk⟩
    simp only [bcolAxi, DMat.get_ok (hi 1 (by omega) (by omega)),
      DMat.get_ok (hi 2 (by omega) (by omega)), hn, Res.bind]
    rw [DMat.setMany_ok]
    · refine ⟨_, rfl, rfl, rfl, fun q c => ?_⟩
      simp only [List.foldl]
      by_cases hck : c = k + 1
      · subst hck
        have h0 : e q (k + 1) = 0 := by rw [h3, if_neg (by omega)]
        rw [if_pos (show 1 ≤ k + 1 ∧ k + 1 ≤ k + 1 by omega), h0]
        simp only [and_true, colAx, Nat.reduceAdd, Nat.reduceSub, Nat.reduceMul]
      · simp only [hck, and_false, if_false, h3]
        by_cases h : 1 ≤ c ∧ c ≤ k
        · rw [if_pos h, if_pos (show 1 ≤ c ∧ c ≤ k + 1 by omega)]
        · rw [if_neg h, if_neg (show ¬ (1 ≤ c ∧ c ≤ k + 1) by omega)]
    · intro x hx
      fin_cases hx <;> (refine inside_mk ?_ ?_ ?_ ?_ <;> simp only [] <;> omega))
  obtain ⟨B, hB, b1, b2, b3⟩ := key
  refine ⟨B.reshape 4 (2 * N.n), ?_, rfl, rfl, ?_⟩
  · unfold formBaxi
    simp only [if_neg (show ¬ dN.nc < 2 by omega), if_neg hpos]
    rw [hB]; rfl
  · intro i j a hi1 hi2 hj ha
    simp only [DMat.reshape, b1]
    have e1 : (i - 1 + 4 * (2 * a + j + 1 - 1)) % 8 + 1 = i + 4 * j := by omega
    have e2 : (i - 1 + 4 * (2 * a + j + 1 - 1)) / 8 + 1 = a + 1 := by omega
    rw [e1, e2, b3, if_pos (show 1 ≤ a + 1 ∧ a + 1 ≤ N.n by omega)]

theorem bil_dof (d n : Nat) (A : DMat K) (h1 : A.nr = d * n) (h2 : A.nc = d * n)
    (u v : Nat → Nat → K) :
    A.bil (dofVec d u) (dofVec d v) = ∑ a ∈ Finset.range n, ∑ i ∈ Finset.range d,
      ∑ b ∈ Finset.range n, ∑ j ∈ Finset.range d,
        u (a + 1) (i + 1) * A.e (d * a + i + 1) (d * b + j + 1) * v (b + 1) (j + 1) := by
  unfold DMat.bil
  rw [h1, h2, sum_range_mul]
  refine Finset.sum_congr rfl fun a _ => Finset.sum_congr rfl fun i hi => ?_
  rw [sum_range_mul]
  refine Finset.sum_congr rfl fun b _ => Finset.sum_congr rfl fun j hj => ?_
  rw [dofVec_eq _ _ _ _ (Finset.mem_range.mp hi), dofVec_eq _ _ _ _ (Finset.mem_range.mp hj)]

/-- Indicator of one nodal degree of freedom (zero-based `a`, `i`). -/
def unit (a i : Nat) (a' i' : Nat) : K := if a' = a + 1 then (if i' = i + 1 then 1 else 0) else 0

theorem bil_unit (d n : Nat) (A : DMat K) (h1 : A.nr = d * n) (h2 : A.nc = d * n)
    (a i b j : Nat) (ha : a < n) (hi : i < d) (hb : b < n) (hj : j < d) :
    A.bil (dofVec d (unit a i)) (dofVec d (unit b j)) = A.e (d * a + i + 1) (d * b + j + 1) := by
  rw [bil_dof d n A h1 h2]
  rw [Finset.sum_eq_single a]
  · rw [Finset.sum_eq_single i]
    · rw [Finset.sum_eq_single b]
      · rw [Finset.sum_eq_single j]
        · simp [unit]
        · intro x _ hx; simp [unit, hx]
        · intro h; exact absurd (Finset.mem_range.mpr hj) h
      · intro x _ hx; simp [unit, hx]
      · intro h; exact absurd (Finset.mem_range.mpr hb) h
    · intro x _ hx; simp [unit, hx]
    · intro h; exact absurd (Finset.mem_range.mpr hi) h
  · intro x _ hx; simp [unit, hx]
  · intro h; exact absurd (Finset.mem_range.mpr ha) h

theorem mulV_dof (d n : Nat) (A : DMat K) (h2 : A.nc = d * n) (u : Nat → Nat → K) (i : Nat) :
    A.mulV (dofVec d u) i = ∑ a ∈ Finset.range n, ∑ j ∈ Finset.range d,
      A.e i (d * a + j + 1) * u (a + 1) (j + 1) := by
  unfold DMat.mulV
  rw [h2, sum_range_mul]
  refine Finset.sum_congr rfl fun a _ => Finset.sum_congr rfl fun j hj => ?_
  rw [dofVec_eq _ _ _ _ (Finset.mem_range.mp hj)]

theorem dof_lt {d n a i : Nat} (ha : a < n) (hi : i < d) : d * a + i + 1 ≤ d * n := by
  have := Nat.mul_le_mul_left d (Nat.succ_le_of_lt ha)
  rw [Nat.mul_succ] at this; omega

/-- The bilinear form produced by the mass loop. -/
theorem formMass_ok [DecidableEq K] (d : Nat) (EM : DMat K) (N : DVec K) (rho w : K)
    (h1 : EM.nr = d * N.n) (h2 : EM.nc = d * N.n) :
    ∃ B, formMass d EM N rho w = .ok B ∧ B.nr = EM.nr ∧ B.nc = EM.nc ∧
      ∀ u v, B.bil (dofVec d u) (dofVec d v) = EM.bil (dofVec d u) (dofVec d v)
        + rho * w * ∑ i ∈ Finset.range d, (∑ a ∈ Finset.range N.n, N.e (a + 1) * u (a + 1) (i + 1))
            * (∑ b ∈ Finset.range N.n, N.e (b + 1) * v (b + 1) (i + 1)) := by
  unfold formMass
  by_cases h : rho * w = 0
  · refine ⟨EM, if_pos h, rfl, rfl, fun u v => by rw [h]; simp⟩
  · simp only [if_neg h]
    obtain ⟨B, hB, b1, b2, -, b3⟩ := DMat.addMany_ok (A := EM)
      (l := (List.range N.n).flatMap fun a => (List.range N.n).flatMap fun b =>
        (List.range d).map fun i =>
          (d * a + i + 1, d * b + i + 1, rho * w * N.e (a + 1) * N.e (b + 1))) (by
        intro x hx
        simp only [List.mem_flatMap, List.mem_range, List.mem_map] at hx
        obtain ⟨a, ha, b, hb, i, hi, rfl⟩ := hx
        exact ⟨by simp, by rw [h1]; exact dof_lt ha hi, by simp, by rw [h2]; exact dof_lt hb hi⟩)
    refine ⟨B, hB, b1, b2, fun u v => ?_⟩
    rw [b3]
    congr 1
    simp only [sum_flatMap, List.map_map, Function.comp_def, sum_list_range]
    simp only [Finset.sum_mul_sum]
    simp only [Finset.mul_sum]
    have e : ∀ a b i, i ∈ Finset.range d →
        dofVec d u (d * a + i + 1) * (rho * w * N.e (a + 1) * N.e (b + 1))
          * dofVec d v (d * b + i + 1)
        = rho * w * (N.e (a + 1) * u (a + 1) (i + 1) * (N.e (b + 1) * v (b + 1) (i + 1))) := by
      intro a b i hi
      rw [dofVec_eq _ _ _ _ (Finset.mem_range.mp hi), dofVec_eq _ _ _ _ (Finset.mem_range.mp hi)]
      ring
    rw [Finset.sum_comm (s := Finset.range d)]
    refine Finset.sum_congr rfl fun a _ => ?_
    rw [Finset.sum_comm (s := Finset.range d)]
    exact Finset.sum_congr rfl fun b _ => Finset.sum_congr rfl fun i hi => e a b i hi

/-- The bilinear form produced by the geometric stiffness loop. -/
theorem formKG_ok [LinearOrder K] (d : Nat) (axi : Bool) (EM : DMat K) (N : DVec K) (dN : DMat K)
    (r : K) (sigma : Nat → Nat → K) (w : K) (hd : 1 ≤ d)
    (h1 : EM.nr = d * dN.nr) (h2 : EM.nc = d * dN.nr) :
    ∃ B, formKG d axi EM N dN r sigma w = .ok B ∧ B.nr = EM.nr ∧ B.nc = EM.nc ∧
      ∀ u v, B.bil (dofVec d u) (dofVec d v) = EM.bil (dofVec d u) (dofVec d v)
        + ∑ a ∈ Finset.range dN.nr, ∑ b ∈ Finset.range dN.nr,
          ((∑ i ∈ Finset.range d, ∑ j ∈ Finset.range d,
            dN.e (a + 1) (i + 1) * sigma (i + 1) (j + 1) * dN.e (b + 1) (j + 1)) * w
            * (∑ k ∈ Finset.range d, u (a + 1) (k + 1) * v (b + 1) (k + 1))
          + if (if axi = true ∧ r > 0 then sigma 3 3 / (r * r) else 0) > 0 then
              N.e (a + 1) * (if axi = true ∧ r > 0 then sigma 3 3 / (r * r) else 0) * N.e (b + 1)
                * w * (u (a + 1) 1 * v (b + 1) 1) else 0) := by
  unfold formKG
  obtain ⟨B, hB, b1, b2, -, b3⟩ := DMat.addMany_ok (A := EM)
      (l := kgList d axi N dN r sigma w) (by
        intro x hx
        simp only [kgList, List.mem_flatMap, List.mem_range, List.mem_append, List.mem_map] at hx
        obtain ⟨a, ha, b, hb, h | h⟩ := hx
        · obtain ⟨i, hi, rfl⟩ := h
          exact ⟨by simp, by rw [h1]; exact dof_lt ha hi, by simp, by rw [h2]; exact dof_lt hb hi⟩
        · split_ifs at h
          all_goals first
            | (simp only [List.not_mem_nil] at h)
            | (simp only [List.mem_singleton] at h
               subst h
               exact ⟨by simp, by rw [h1]; exact dof_lt (i := 0) ha (by omega), by simp,
                by rw [h2]; exact dof_lt (i := 0) hb (by omega)⟩))
  refine ⟨B, hB, b1, b2, fun u v => ?_⟩
  rw [b3]
  congr 1
  unfold kgList
  simp only [sum_flatMap, sum_list_range, List.map_append, List.sum_append]
  refine Finset.sum_congr rfl fun a _ => Finset.sum_congr rfl fun b _ => ?_
  congr 1
  · rw [List.map_map, sum_list_range, Finset.mul_sum]
    refine Finset.sum_congr rfl fun i hi => ?_
    simp only [Function.comp]
    rw [dofVec_eq _ _ _ _ (Finset.mem_range.mp hi), dofVec_eq _ _ _ _ (Finset.mem_range.mp hi)]
    ring
  · have e1 := dofVec_eq d u a 0 (by omega)
    have e2 := dofVec_eq d v b 0 (by omega)
    rw [Nat.add_zero] at e1 e2
    generalize (if axi = true ∧ r > 0 then sigma 3 3 / (r * r) else 0) = g
    by_cases h : g > 0
    · simp only [if_pos h, List.map_cons, List.map_nil, List.sum_cons, List.sum_nil, e1, e2]; ring
    · simp only [if_neg h, List.map_nil, List.sum_nil]

end Verif.Cont
