/-
C29 (the F-bar sampling rule), C30 (the modified deformation gradient) and C69 (the sampled volume
changes are reproduced at the sampling points).
-/
import Verif.Model.Fbar
import Mathlib.Tactic.Linarith
import Mathlib.Tactic.Ring
import Mathlib.Tactic.FieldSimp
import Mathlib.Tactic.NormNum
import Mathlib.Tactic.FinCases
import Mathlib.Tactic.IntervalCases
import Mathlib.Analysis.Real.Sqrt
import Mathlib.LinearAlgebra.Matrix.Determinant.Basic

set_option linter.unusedSectionVars false
set_option linter.unnecessarySeqFocus false
set_option linter.unusedSimpArgs false
set_option linter.unusedVariables false

namespace Verif.Fbar

/-! ### C29 -/

theorem pbarOf_pow (nsd m : Nat) (h : 1 ≤ nsd) : pbarOf nsd (m ^ nsd) = m := by
  unfold pbarOf
  have e : ((m ^ nsd : ℕ) : ℝ) ^ ((1 : ℝ) / nsd) = m := by
    rw [one_div]
    push_cast
    exact Real.pow_rpow_inv_natCast (Nat.cast_nonneg m) (by omega)
  rw [e, Int.ceil_eq_iff]
  constructor
  · push_cast; linarith
  · push_cast; linarith

theorem pbarOf_nonneg (nsd n : Nat) : 0 ≤ pbarOf nsd n := by
  unfold pbarOf
  have h : (0 : ℝ) ≤ (n : ℝ) ^ ((1 : ℝ) / nsd) := Real.rpow_nonneg (Nat.cast_nonneg n) _
  have : (-1 : ℤ) < ⌈(n : ℝ) ^ ((1 : ℝ) / nsd) - 1 / 2⌉ := by
    rw [Int.lt_ceil]; push_cast; linarith
  omega

theorem pbarOf_spec (nsd n : Nat) (h : 1 ≤ nsd) :
    ((pbarOf nsd n : ℝ) ^ nsd = (n : ℝ)) ↔ ∃ m : Nat, n = m ^ nsd := by
  constructor
  · intro e
    refine ⟨(pbarOf nsd n).toNat, ?_⟩
    have h0 := pbarOf_nonneg nsd n
    have : ((pbarOf nsd n).toNat : ℤ) = pbarOf nsd n := Int.toNat_of_nonneg h0
    have : ((pbarOf nsd n).toNat : ℝ) = (pbarOf nsd n : ℝ) := by exact_mod_cast this
    rw [← this] at e
    exact_mod_cast e.symm
  · rintro ⟨m, rfl⟩
    rw [pbarOf_pow nsd m h]
    push_cast; rfl

/-- The rules with 2 and more points are available, each with as many coordinates as points. -/
def Rules (gauss : Nat → Option (List ℝ)) (m : Nat) : Prop :=
  2 ≤ m → ∃ x, gauss m = some x ∧ x.length = m

/-- C29, acceptance: with the Gauss rules available, the sampling points of an element are accepted
exactly when their number is an exact power of a number `m` of points per direction; there is
then a place for each of them and the order of the volume field is `m`. -/
theorem C29_accept {D : Type*} (gauss : Nat → Option (List ℝ)) (d0 : D) (nsd n : Nat)
    (h : 1 ≤ nsd) (hg : ∀ m, Rules gauss m) :
    (∀ m, n = m ^ nsd → ∃ st, init gauss d0 nsd n = .ok st ∧ st.pbar = m ∧ st.iP = 0 ∧
      st.vol.length = n) ∧
    ((¬ ∃ m, n = m ^ nsd) → init gauss d0 nsd n = .fail) := by
  constructor
  · rintro m rfl
    unfold init
    simp only [pbarOf_pow nsd m h]
    rw [if_pos (by push_cast; rfl)]
    by_cases h1 : (1 : ℤ) < (m : ℤ)
    · obtain ⟨x, hx, hl⟩ := hg m (by omega)
      rw [if_pos h1]
      simp only [Int.toNat_natCast, hx]
      have : m - 1 < x.length := by omega
      rw [List.getElem?_eq_getElem this]
      exact ⟨_, rfl, rfl, rfl, by simp⟩
    · rw [if_neg h1]
      exact ⟨_, rfl, rfl, rfl, by simp⟩
  · intro hn
    unfold init
    rw [← pbarOf_spec nsd n h] at hn
    simp only
    rw [if_neg hn]

/-- A rule table (all points at 1, the values are of no interest here) and a plane element with a
3 × 3 rule; seven points are rejected. -/
example : ∃ st, init (fun n => some (List.replicate n 1)) () 2 9 = .ok st ∧ st.pbar = 3 ∧
    st.iP = 0 ∧ st.vol.length = 9 :=
  (C29_accept _ () 2 9 (by norm_num) (fun m _ => ⟨_, rfl, by simp⟩)).1 3 (by norm_num)

example : init (fun n => some (List.replicate n 1)) () 2 7 = .fail :=
  (C29_accept _ () 2 7 (by norm_num) (fun m _ => ⟨_, rfl, by simp⟩)).2 (by
    rintro ⟨m, hm⟩
    have : m < 3 := by by_contra hc; push Not at hc; nlinarith
    interval_cases m <;> omega)

theorem sampleAll_spec {D : Type*} : ∀ (l : List D) (st : ElmData D),
    st.iP + l.length ≤ st.vol.length →
    ∃ st', sampleAll st l = .ok st' ∧ st'.pbar = st.pbar ∧ st'.scale = st.scale ∧
      st'.iP = st.iP + l.length ∧ st'.vol.length = st.vol.length ∧
      (∀ i, i < st.iP → st'.vol[i]? = st.vol[i]?) ∧
      ∀ i, i < l.length → st'.vol[st.iP + i]? = l[i]?
  | [], st, _ => ⟨st, rfl, rfl, rfl, rfl, rfl, fun _ _ => rfl, fun i hi => by simp at hi⟩
  | d :: l, st, h => by
    have h1 : st.iP < st.vol.length := by simp at h; omega
    obtain ⟨st', e, p1, p2, p3, p4, p5, p6⟩ := sampleAll_spec l
      { st with vol := st.vol.set st.iP d, iP := st.iP + 1 } (by simp at h ⊢; omega)
    refine ⟨st', ?_, p1, p2, ?_, ?_, ?_, ?_⟩
    · simp only [sampleAll, sample, if_pos h1, Res.bind]; exact e
    · rw [p3]; simp; omega
    · rw [p4]; simp
    · intro i hi
      rw [p5 i (by simp; omega)]
      simp only
      rw [List.getElem?_set_ne (by omega)]
    · intro i hi
      rcases i with _ | i
      · rw [Nat.add_zero, p5 st.iP (by simp)]
        simp [h1]
      · have := p6 i (by simp at hi; omega)
        simp only at this
        rw [show st.iP + (i + 1) = st.iP + 1 + i by omega, this]
        simp

/-- C29, indexing: after initialisation, the sampling points of the element are stored in their
order, one place for each, and the evaluation of the volume ratio at an integration point of a
plane or solid element stays inside the table and is the sum over all sampling points. -/
theorem C29_index {D : Type*} (J : D → ℝ) (gauss : Nat → Option (List ℝ)) (d0 : D) (nsd m : Nat)
    (h : nsd = 2 ∨ nsd = 3) (hg : ∀ m, Rules gauss m) (pts : List D) (hp : pts.length = m ^ nsd)
    (nbar : Nat → ℝ) (Jpt : ℝ) :
    ∃ st st', init gauss d0 nsd (m ^ nsd) = .ok st ∧ sampleAll st pts = .ok st' ∧ st'.vol = pts ∧
      jbar J nsd st' nbar Jpt = .ok (if m = 0 then Jpt else
        if m = 1 then (pts.map J).sum else ∑ a : Fin pts.length, J (pts.get a) * nbar a) := by
  obtain ⟨st, e, q1, q2, q3⟩ := (C29_accept gauss d0 nsd (m ^ nsd) (by omega) hg).1 m rfl
  obtain ⟨st', e', p1, p2, p3, p4, p5, p6⟩ := sampleAll_spec pts st (by omega)
  have hv : st'.vol = pts := by
    apply List.ext_getElem?
    intro i
    by_cases hi : i < pts.length
    · rw [← p6 i hi, q2, zero_add]
    · rw [List.getElem?_eq_none (by omega), List.getElem?_eq_none (by omega)]
  refine ⟨st, st', e, e', hv, ?_⟩
  have loopOk : ∀ k, k ≤ pts.length → jbarLoop J pts nbar k
      = .ok (∑ a ∈ Finset.range k, (pts[a]?.elim 0 J) * nbar a) := by
    intro k
    induction k with
    | zero => intro _; rfl
    | succ k ih =>
      intro hk
      have hk' : k < pts.length := by omega
      rw [jbarLoop, ih (by omega)]
      simp only [Res.bind]
      rw [List.getElem?_eq_getElem hk', Finset.sum_range_succ, List.getElem?_eq_getElem hk']
      rfl
  rcases Nat.lt_trichotomy m 1 with h0 | h1 | h2
  · have : m = 0 := by omega
    subst this
    have : pts = [] := by
      rcases h with rfl | rfl <;> simpa using hp
    subst this
    simp [jbar, hv]
  · subst h1
    have : pts.length = 1 := by simpa using hp
    obtain ⟨d, rfl⟩ := List.length_eq_one_iff.mp this
    simp [jbar, hv]
  · rw [if_neg (by omega), if_neg (by omega)]
    have h4 : 4 ≤ pts.length := by
      rw [hp]; rcases h with rfl | rfl <;> nlinarith [mul_self_nonneg m, sq_nonneg m]
    have nb : nBasis nsd st'.pbar = pts.length := by
      rw [p1, q1, hp]
      rcases h with rfl | rfl
      · simp [nBasis]; ring
      · simp only [nBasis, Int.toNat_natCast]
        rw [if_pos (show 3 > 2 by norm_num), if_pos (by omega)]; ring
    have hj : jbar J nsd st' nbar Jpt = jbarLoop J pts nbar pts.length := by
      rw [← nb]
      unfold jbar
      rw [hv]
      match pts, h4 with
      | _ :: _ :: _, _ => rfl
    rw [hj, loopOk _ le_rfl]
    congr 1
    rw [Finset.sum_range]
    refine Finset.sum_congr rfl fun a _ => ?_
    rw [List.getElem?_eq_getElem a.2]; rfl

/-- Four sampling points of a plane element. -/
example : ∃ st st', init (fun n => some (List.replicate n 1)) (0 : ℝ) 2 (2 ^ 2) = .ok st ∧
    sampleAll st [1, 2, 3, 4] = .ok st' ∧ st'.vol = [1, 2, 3, 4] ∧
    jbar id 2 st' (fun _ => 1 / 4) 1 = .ok (if 2 = 0 then 1 else if 2 = 1 then
      (([1, 2, 3, 4] : List ℝ).map id).sum else
        ∑ a : Fin ([1, 2, 3, 4] : List ℝ).length, id (([1, 2, 3, 4] : List ℝ).get a) * (1 / 4)) :=
  C29_index id _ 0 2 2 (Or.inl rfl) (fun m _ => ⟨_, rfl, by simp⟩) [1, 2, 3, 4] rfl _ 1

/-! ### C30 -/

theorem scale_pow (n : Nat) (hn : 1 ≤ n) (x : ℝ) (hx : 0 ≤ x) : (x ^ ((1 : ℝ) / n)) ^ n = x := by
  rw [one_div]
  exact Real.rpow_inv_natCast_pow hx (by omega)

/-- C30: when the volume ratio of the integration point and the averaged volume ratio have the same
sign, the modified deformation gradient has exactly the averaged determinant. -/
theorem C30_det (n : Nat) (hn : 1 ≤ n) (F : Matrix (Fin n) (Fin n) ℝ) (Jbar : ℝ)
    (h : 0 < Jbar * F.det) : (fbar n F F.det Jbar).det = Jbar := by
  have hJ : F.det ≠ 0 := by rintro e; rw [e] at h; simp at h
  have hq : 0 < Jbar / F.det := by
    rw [div_eq_mul_inv]
    rcases lt_or_gt_of_ne hJ with h1 | h1
    · have : Jbar < 0 := by nlinarith
      exact mul_pos_of_neg_of_neg this (inv_lt_zero.mpr h1)
    · have : 0 < Jbar := by nlinarith
      exact mul_pos this (inv_pos.mpr h1)
  unfold fbar
  rw [Matrix.det_smul, Fintype.card_fin, scale_pow n hn _ (abs_nonneg _), abs_of_pos hq]
  field_simp

/-- C30: in the same case the modified gradient is a positive multiple of the original one, and both
have the same isochoric part `det(F)^(-1/n) F` (for a positive volume ratio). -/
theorem C30_isochoric (n : Nat) (hn : 1 ≤ n) (F : Matrix (Fin n) (Fin n) ℝ) (Jbar : ℝ)
    (hF : 0 < F.det) (h : 0 < Jbar) :
    (fbar n F F.det Jbar).det ^ (-((1 : ℝ) / n)) • fbar n F F.det Jbar
      = F.det ^ (-((1 : ℝ) / n)) • F := by
  rw [C30_det n hn F Jbar (mul_pos h hF)]
  unfold fbar
  rw [smul_smul, abs_of_pos (div_pos h hF), Real.div_rpow h.le hF.le,
    Real.rpow_neg h.le, Real.rpow_neg hF.le]
  congr 1
  have := Real.rpow_pos_of_pos h ((1 : ℝ) / n)
  have := Real.rpow_pos_of_pos hF ((1 : ℝ) / n)
  field_simp

/-- C30, all other cases: the absolute value of the determinant is always the averaged one, and its
sign that of the integration point. -/
theorem C30_abs (n : Nat) (hn : 1 ≤ n) (F : Matrix (Fin n) (Fin n) ℝ) (Jbar : ℝ) (h : F.det ≠ 0) :
    |(fbar n F F.det Jbar).det| = |Jbar| ∧ 0 ≤ (fbar n F F.det Jbar).det * F.det := by
  unfold fbar
  rw [Matrix.det_smul, Fintype.card_fin, scale_pow n hn _ (abs_nonneg _)]
  refine ⟨?_, ?_⟩
  · rw [abs_mul, abs_abs, abs_div]
    have : |F.det| ≠ 0 := abs_ne_zero.mpr h
    field_simp
  · rw [mul_assoc]
    exact mul_nonneg (abs_nonneg _) (mul_self_nonneg _)

/-- The factor of the modified gradient is a positive number if the averaged ratio is not zero, so
that no entry changes its sign and the ratios between the entries are kept. -/
theorem C30_multiple (n : Nat) (F : Matrix (Fin n) (Fin n) ℝ) (Jbar : ℝ) (hJ : Jbar ≠ 0)
    (h : F.det ≠ 0) : ∃ c : ℝ, 0 < c ∧ ∀ i j, fbar n F F.det Jbar i j = c * F i j :=
  ⟨_, Real.rpow_pos_of_pos (abs_pos.mpr (div_ne_zero hJ h)) _, fun _ _ => rfl⟩

example : (fbar 2 !![2, 0; 0, 1] 2 8).det = 8 := by
  have := C30_det 2 (by norm_num) !![2, 0; 0, 1] 8 (by simp [Matrix.det_fin_two])
  simpa [Matrix.det_fin_two] using this

/-! ### C69 -/

/-- The nodes of the regular one-dimensional Lagrange basis with `p` points on [-1,1]. -/
noncomputable def node (p i : Nat) : ℝ := -1 + 2 * (i : ℝ) / ((p : ℝ) - 1)

/-- The Lagrange polynomial of node `i` (the value of `Lagrange::evalPol` of the IFEM library). -/
noncomputable def lagr (p i : Nat) (x : ℝ) : ℝ :=
  ∏ k ∈ (Finset.range p).erase i, (x - node p k) / (node p i - node p k)

/-- The volume ratio along a line of sampling points, at the coordinate `x`, of the field that
interpolates the sampled values `J`. -/
noncomputable def line (p : Nat) (scale : ℝ) (J : Nat → ℝ) (x : ℝ) : ℝ :=
  ∑ a ∈ Finset.range p, J a * lagr p a (x * scale)

/-- Coordinates of the Gauss rules with two, three and four points. -/
noncomputable def gauss : Nat → Option (List ℝ)
  | 1 => some [0]
  | 2 => some [-(1 / √3), 1 / √3]
  | 3 => some [-√(3 / 5), 0, √(3 / 5)]
  | 4 => some [-√(3 / 7 + 2 / 7 * √(6 / 5)), -√(3 / 7 - 2 / 7 * √(6 / 5)),
      √(3 / 7 - 2 / 7 * √(6 / 5)), √(3 / 7 + 2 / 7 * √(6 / 5))]
  | _ => none

theorem node_inj (p i k : Nat) (hp : 2 ≤ p) (h : node p i = node p k) : i = k := by
  unfold node at h
  have hp' : (p : ℝ) - 1 ≠ 0 := by
    have : (2 : ℝ) ≤ p := by exact_mod_cast hp
    intro h; linarith
  field_simp at h
  have : (i : ℝ) = k := by linarith
  exact_mod_cast this

theorem lagr_node (p i k : Nat) (hp : 2 ≤ p) (hk : k < p) :
    lagr p i (node p k) = if i = k then 1 else 0 := by
  unfold lagr
  by_cases h : i = k
  · subst h
    rw [if_pos rfl]
    refine Finset.prod_eq_one fun j hj => div_self ?_
    intro e
    have := node_inj p i j hp (by linarith)
    simp [this] at hj
  · rw [if_neg h]
    refine Finset.prod_eq_zero (i := k) (by simp [Ne.symm h, hk]) ?_
    rw [sub_self, zero_div]

/-- The points of a Gauss rule are regularly spaced once scaled so that the last one is at 1. -/
def Regular (x : List ℝ) : Prop := ∀ k (h : k < x.length),
  x[k] * (1 / x[x.length - 1]'(by omega)) = node x.length k

theorem regular_2 : ∃ x, gauss 2 = some x ∧ x.length = 2 ∧ Regular x := by
  refine ⟨_, rfl, rfl, ?_⟩
  have h3 : √(3 : ℝ) ≠ 0 := by positivity
  intro k hk
  simp only [List.length_cons, List.length_nil] at hk
  interval_cases k
  · simp [node]
  · simp [node]; norm_num

theorem regular_3 : ∃ x, gauss 3 = some x ∧ x.length = 3 ∧ Regular x := by
  refine ⟨_, rfl, rfl, ?_⟩
  have h3 : √(3 / 5 : ℝ) ≠ 0 := by positivity
  intro k hk
  simp only [List.length_cons, List.length_nil] at hk
  interval_cases k
  · simp only [List.length_cons, List.length_nil, List.getElem_cons_zero, node]
    simp only [Nat.zero_add, Nat.add_one_sub_one, List.getElem_cons_succ, List.getElem_cons_zero]
    field_simp; norm_num
  · simp only [List.length_cons, List.length_nil, List.getElem_cons_zero, node]
    simp only [Nat.zero_add, Nat.add_one_sub_one, List.getElem_cons_succ, List.getElem_cons_zero]
    norm_num
  · simp only [List.length_cons, List.length_nil, List.getElem_cons_zero, node]
    simp only [Nat.zero_add, Nat.add_one_sub_one, List.getElem_cons_succ, List.getElem_cons_zero]
    field_simp; norm_num

/-- Values of the tensor product Lagrange basis in the order of `Lagrange::computeBasis` (the first
direction varies fastest) in two and three dimensions. -/
noncomputable def basis2 (p : Nat) (x y : ℝ) (a : Nat) : ℝ :=
  lagr p (a % p) x * lagr p (a / p) y

noncomputable def basis3 (p : Nat) (x y z : ℝ) (a : Nat) : ℝ :=
  lagr p (a % p) x * lagr p (a / p % p) y * lagr p (a / p / p) z

theorem delta_sum (n k : Nat) (hk : k < n) (J : Nat → ℝ) (f : Nat → ℝ)
    (h : ∀ a, a < n → f a = if a = k then 1 else 0) :
    ∑ a : Fin n, J a * f a = J k := by
  rw [Finset.sum_eq_single ⟨k, hk⟩]
  · rw [h k hk, if_pos rfl, mul_one]
  · intro b _ hb
    rw [h b b.2, if_neg (by intro e; exact hb (Fin.ext e)), mul_zero]
  · intro hb; exact absurd (Finset.mem_univ _) hb

/-- C69 in plane elements: if the rule is regular after scaling, the volume ratio evaluated at the
sampling point `(i,j)` is the value sampled there. -/
theorem C69_plane_partial (gauss : Nat → Option (List ℝ)) (m : Nat) (hm : 2 ≤ m) (x : List ℝ)
    (hx : gauss m = some x) (hl : x.length = m) (hr : Regular x) (hg : ∀ m, Rules gauss m)
    (pts : List ℝ) (hp : pts.length = m ^ 2) (i j : Nat) (hi : i < m) (hj : j < m) :
    ∃ st st', init gauss 0 2 (m ^ 2) = .ok st ∧ sampleAll st pts = .ok st' ∧
      ∀ Jpt, jbar id 2 st' (basis2 m (x[i]'(by omega) * st'.scale) (x[j]'(by omega) * st'.scale)) Jpt
        = .ok (pts[m * j + i]'(by nlinarith)) := by
  obtain ⟨st, st', e, e', hv, -⟩ := C29_index id gauss 0 2 m (Or.inl rfl) hg pts hp (fun _ => 0) 0
  refine ⟨st, st', e, e', fun Jpt => ?_⟩
  have hsc : st'.scale = 1 / x[x.length - 1]'(by omega) := by
    obtain ⟨s2, f, -, f2, -⟩ := sampleAll_spec pts st (by
      obtain ⟨s3, g1, g2, g3, g4⟩ := (C29_accept gauss (0 : ℝ) 2 (m ^ 2) (by omega) hg).1 m rfl
      rw [g1] at e; cases e; omega)
    rw [e'] at f; cases f
    rw [f2]
    unfold init at e
    simp only [pbarOf_pow 2 m (by norm_num), Int.toNat_natCast, hx] at e
    rw [if_pos (by push_cast; rfl), if_pos (show (m : ℤ) > 1 by omega)] at e
    have : m - 1 < x.length := by omega
    rw [List.getElem?_eq_getElem this] at e
    cases e
    simp only [hl]
  have key := C29_index id gauss 0 2 m (Or.inl rfl) hg pts hp
    (basis2 m (x[i]'(by omega) * st'.scale) (x[j]'(by omega) * st'.scale)) Jpt
  obtain ⟨s1, s2, k1, k2, k3, k4⟩ := key
  rw [e] at k1; cases k1
  rw [e'] at k2; cases k2
  rw [k4, if_neg (by omega), if_neg (by omega)]
  congr 1
  have hb : m * j + i < pts.length := by rw [hp]; nlinarith
  have := delta_sum pts.length (m * j + i) hb (fun a => pts[a]?.elim 0 id)
    (basis2 m (x[i]'(by omega) * st'.scale) (x[j]'(by omega) * st'.scale)) (by
      intro a ha
      rw [hp] at ha
      rw [hsc, basis2, hr i (by omega), hr j (by omega), hl, lagr_node m _ i hm hi,
        lagr_node m _ j hm hj]
      have hd := Nat.div_add_mod a m
      by_cases hh : a = m * j + i
      · subst hh
        rw [if_pos rfl, if_pos (by rw [Nat.mul_add_mod]; exact Nat.mod_eq_of_lt hi),
          if_pos (by rw [Nat.mul_add_div (by omega), Nat.div_eq_of_lt hi]; rfl), mul_one]
      · rw [if_neg hh]
        by_cases h1 : a % m = i
        · rw [if_neg (show ¬ a / m = j by intro h2; apply hh; rw [← hd, h1, h2]), mul_zero]
        · rw [if_neg h1, zero_mul])
  rw [List.getElem?_eq_getElem hb] at this
  rw [show (pts[m * j + i]'hb) = (some (pts[m * j + i]'hb)).elim 0 id from rfl, ← this]
  refine Finset.sum_congr rfl fun a _ => ?_
  rw [List.getElem?_eq_getElem a.2]; rfl

/-- C69 in solid elements: if the rule is regular after scaling, the volume ratio evaluated at the
sampling point `(i,j,k)` is the value sampled there. -/
theorem C69_solid_partial (gauss : Nat → Option (List ℝ)) (m : Nat) (hm : 2 ≤ m) (x : List ℝ)
    (hx : gauss m = some x) (hl : x.length = m) (hr : Regular x) (hg : ∀ m, Rules gauss m)
    (pts : List ℝ) (hp : pts.length = m ^ 3) (i j k : Nat) (hi : i < m) (hj : j < m) (hk : k < m)
    (hb : m * (m * k + j) + i < pts.length) :
    ∃ st st', init gauss 0 3 (m ^ 3) = .ok st ∧ sampleAll st pts = .ok st' ∧
      ∀ Jpt, jbar id 3 st' (basis3 m (x[i]'(by omega) * st'.scale) (x[j]'(by omega) * st'.scale)
        (x[k]'(by omega) * st'.scale)) Jpt = .ok (pts[m * (m * k + j) + i]) := by
  obtain ⟨st, st', e, e', hv, -⟩ := C29_index id gauss 0 3 m (Or.inr rfl) hg pts hp (fun _ => 0) 0
  refine ⟨st, st', e, e', fun Jpt => ?_⟩
  have hsc : st'.scale = 1 / x[x.length - 1]'(by omega) := by
    obtain ⟨s2, f, -, f2, -⟩ := sampleAll_spec pts st (by
      obtain ⟨s3, g1, g2, g3, g4⟩ := (C29_accept gauss (0 : ℝ) 3 (m ^ 3) (by omega) hg).1 m rfl
      rw [g1] at e; cases e; omega)
    rw [e'] at f; cases f
    rw [f2]
    unfold init at e
    simp only [pbarOf_pow 3 m (by norm_num), Int.toNat_natCast, hx] at e
    rw [if_pos (by push_cast; rfl), if_pos (show (m : ℤ) > 1 by omega)] at e
    have : m - 1 < x.length := by omega
    rw [List.getElem?_eq_getElem this] at e
    cases e
    simp only [hl]
  have key := C29_index id gauss 0 3 m (Or.inr rfl) hg pts hp
    (basis3 m (x[i]'(by omega) * st'.scale) (x[j]'(by omega) * st'.scale)
        (x[k]'(by omega) * st'.scale)) Jpt
  obtain ⟨s1, s2, k1, k2, k3, k4⟩ := key
  rw [e] at k1; cases k1
  rw [e'] at k2; cases k2
  rw [k4, if_neg (by omega), if_neg (by omega)]
  congr 1
  have := delta_sum pts.length (m * (m * k + j) + i) hb (fun a => pts[a]?.elim 0 id)
    (basis3 m (x[i]'(by omega) * st'.scale) (x[j]'(by omega) * st'.scale)
        (x[k]'(by omega) * st'.scale)) (by
      intro a ha
      rw [hsc, basis3, hr i (by omega), hr j (by omega), hr k (by omega), hl,
        lagr_node m _ i hm hi, lagr_node m _ j hm hj, lagr_node m _ k hm hk]
      have hd := Nat.div_add_mod a m
      have hd2 := Nat.div_add_mod (a / m) m
      by_cases hh : a = m * (m * k + j) + i
      · have e1 : a % m = i := by rw [hh, Nat.mul_add_mod]; exact Nat.mod_eq_of_lt hi
        have e2 : a / m = m * k + j := by
          rw [hh, Nat.mul_add_div (by omega), Nat.div_eq_of_lt hi]; rfl
        have e3 : (m * k + j) % m = j := by rw [Nat.mul_add_mod]; exact Nat.mod_eq_of_lt hj
        have e4 : (m * k + j) / m = k := by
          rw [Nat.mul_add_div (by omega), Nat.div_eq_of_lt hj]; rfl
        rw [if_pos hh, if_pos e1, if_pos (by rw [e2, e3]), if_pos (by rw [e2, e4])]
        norm_num
      · rw [if_neg hh]
        by_cases h1 : a % m = i
        · by_cases h2 : a / m % m = j
          · rw [if_neg (show ¬ a / m / m = k by intro h3; apply hh; rw [← hd, ← hd2, h1, h2, h3]), mul_zero]
          · rw [if_neg h2, mul_zero, zero_mul]
        · rw [if_neg h1, zero_mul, zero_mul])
  rw [List.getElem?_eq_getElem hb] at this
  rw [show (pts[m * (m * k + j) + i]'hb) = (some (pts[m * (m * k + j) + i]'hb)).elim 0 id from rfl,
    ← this]
  refine Finset.sum_congr rfl fun a _ => ?_
  rw [List.getElem?_eq_getElem a.2]; rfl

/-- The rules with two and three points are regular after scaling. -/
theorem C69_regular_partial : ∀ m, m = 2 ∨ m = 3 →
    ∃ x, gauss m = some x ∧ x.length = m ∧ Regular x := by
  rintro m (rfl | rfl)
  · exact regular_2
  · exact regular_3

/-- C69 is violated by the rule with four points per direction: when a volume ratio of one is
sampled in the first column of points and zero in the others, the ratio evaluated at the second
point of a row is not zero. -/
theorem C69_four_violated : ∃ x : List ℝ, gauss 4 = some x ∧ ∃ h : x.length = 4,
    line 4 ((1 : ℝ) / x[3]) (fun a => if a = 0 then 1 else 0) x[1] ≠ 0 := by
  refine ⟨_, rfl, rfl, ?_⟩
  set s := √(6 / 5 : ℝ) with hs
  have hs2 : s * s = 6 / 5 := Real.mul_self_sqrt (by norm_num)
  have hs0 : 0 ≤ s := Real.sqrt_nonneg _
  have hs1 : s < 3 / 2 := by nlinarith
  set a := √(3 / 7 + 2 / 7 * s) with ha
  set b := √(3 / 7 - 2 / 7 * s) with hb
  have ha2 : a * a = 3 / 7 + 2 / 7 * s := Real.mul_self_sqrt (by linarith)
  have hb2 : b * b = 3 / 7 - 2 / 7 * s := Real.mul_self_sqrt (by linarith)
  have ha0 : 0 < a := Real.sqrt_pos.mpr (by linarith)
  have hb0 : 0 < b := Real.sqrt_pos.mpr (by linarith)
  have e : line 4 (1 / a) (fun a => if a = 0 then 1 else 0) (-b) = lagr 4 0 (-b * (1 / a)) := by
    unfold line
    rw [Finset.sum_eq_single 0]
    · simp
    · intro c _ hc; simp [hc]
    · simp
  change line 4 (1 / a) (fun a => if a = 0 then 1 else 0) (-b) ≠ 0
  rw [e]
  unfold lagr
  have r1 : (Finset.range 4).erase 0 = {1, 2, 3} := by decide
  rw [r1, Finset.prod_insert (by decide), Finset.prod_insert (by decide), Finset.prod_singleton]
  simp only [node]
  have hne : b * b * 9 ≠ a * a := by
    rw [ha2, hb2]
    intro h
    have : s = 6 / 5 := by linarith
    rw [this] at hs2; norm_num at hs2
  refine mul_ne_zero (div_ne_zero ?_ (by norm_num)) (mul_ne_zero (div_ne_zero ?_ (by norm_num))
    (div_ne_zero ?_ (by norm_num)))
  · intro h
    have : b * 3 = a := by
      have h' : -b * (1 / a) = -1 / 3 := by push_cast at h; linarith
      field_simp at h'; linarith
    apply hne; rw [← this]; ring
  · intro h
    have h' : -b * (1 / a) = 1 / 3 := by push_cast at h; linarith
    have : 0 < b * (1 / a) := by positivity
    nlinarith
  · intro h
    have h' : -b * (1 / a) = 1 := by push_cast at h; linarith
    have : 0 < b * (1 / a) := by positivity
    nlinarith

/-- A table with the two-point rule (and placeholders for the others). -/
noncomputable def exGauss (n : Nat) : Option (List ℝ) :=
  if n = 2 then gauss 2 else some (List.replicate n 1)

example (i j : Nat) (hi : i < 2) (hj : j < 2) :
    ∃ x : List ℝ, ∃ hl : x.length = 2, ∃ st st', init exGauss 0 2 (2 ^ 2) = .ok st ∧
      sampleAll st [1, 2, 3, 4] = .ok st' ∧
      ∀ Jpt, jbar id 2 st' (basis2 2 (x[i]'(by omega) * st'.scale) (x[j]'(by omega) * st'.scale)) Jpt
        = .ok (([1, 2, 3, 4] : List ℝ)[2 * j + i]'(by simp; omega)) := by
  obtain ⟨x, h1, h2, h3⟩ := regular_2
  refine ⟨x, h2, C69_plane_partial exGauss 2 le_rfl x h1 h2 h3 ?_ [1, 2, 3, 4] rfl i j hi hj⟩
  intro m _
  by_cases hm : m = 2
  · subst hm; exact ⟨x, h1, h2⟩
  · exact ⟨List.replicate m 1, by simp [exGauss, hm], by simp⟩

end Verif.Fbar
