/-
C31: the spatial tangent of the F-bar element.

A velocity gradient (or the gradient of a displacement increment) `L i j = ∂v_i/∂x_j` is numbered with
the component running fastest: `k = nsd*(j-1) + i`, followed by the hoop component in axisymmetry.
-/
import Verif.Model.Fbar
import Verif.Proofs.Assign
import Mathlib.Tactic.Linarith
import Mathlib.Tactic.Ring
import Mathlib.Tactic.FieldSimp
import Mathlib.Tactic.NormNum
import Mathlib.Tactic.FinCases
import Mathlib.Tactic.IntervalCases
import Mathlib.Tactic.LinearCombination
import Mathlib.Algebra.CharZero.Defs
import Mathlib.Algebra.BigOperators.Field

set_option linter.unusedSectionVars false
set_option linter.unnecessarySeqFocus false
set_option linter.unusedSimpArgs false
set_option linter.unusedVariables false

namespace Verif.Fbar

variable {K : Type*} [Field K]

/-! ### Specification -/

/-- Position of the symmetric component `(i,j)` in the order xx, yy, zz, xy, yz, xz. -/
def pos3 (i j : Nat) : Nat := if i = j then i else if i + j = 3 then 4 else if i + j = 5 then 5 else 6

/-- Position of the symmetric component `(i,j)` in the order xx, yy, xy. -/
def pos2 (i j : Nat) : Nat := if i = j then i else 3

/-- Position of the symmetric component `(i,j)` in the order rr, zz, hoop, rz. -/
def posA (i j : Nat) : Nat := if i = j then i else 4

/-- The symmetric tensor `S` as a vector, with a given numbering of its components. -/
structure Stored (pos : Nat → Nat → Nat) (d : Nat) (S : Nat → Nat → K) (sig : Nat → K) : Prop where
  at_ : ∀ i j, 1 ≤ i → i ≤ d → 1 ≤ j → j ≤ d → sig (pos i j) = S i j

/-- Component and direction of the `k`-th gradient component. -/
def comp (nsd k : Nat) : Nat := if k ≤ nsd * nsd then (k - 1) % nsd + 1 else 3
def dir (nsd k : Nat) : Nat := if k ≤ nsd * nsd then (k - 1) / nsd + 1 else 3

/-- The numbered gradient. -/
def num (nsd : Nat) (L : Nat → Nat → K) (k : Nat) : K := L (comp nsd k) (dir nsd k)

/-- Trace of the leading `d × d` part. -/
def tr (d : Nat) (L : Nat → Nat → K) : K := ∑ i ∈ Finset.range d, L (i + 1) (i + 1)

/-- Rate of the Cauchy stress `S` in a motion with velocity gradient `L`, when the Truesdell rate is
given by the spatial moduli `C` (numbered by `pos`):
`σ' = C : L + L σ + σ Lᵀ - σ tr L`. -/
def stressRate (pos : Nat → Nat → Nat) (d : Nat) (C : Nat → Nat → K) (S L : Nat → Nat → K)
    (i j : Nat) : K :=
  (∑ k ∈ Finset.range d, ∑ l ∈ Finset.range d, C (pos i j) (pos (k + 1) (l + 1)) * L (k + 1) (l + 1))
    + (∑ m ∈ Finset.range d, L i (m + 1) * S (m + 1) j)
    + (∑ m ∈ Finset.range d, S i (m + 1) * L j (m + 1)) - S i j * tr d L

/-- Rate of the internal force per deformed volume when the stress changes at the rate `R` while the
point moves with the velocity gradient `L`: `σ' + σ tr L - σ Lᵀ`. -/
def forceRate (d : Nat) (S R L : Nat → Nat → K) (i j : Nat) : K :=
  R i j + S i j * tr d L - ∑ m ∈ Finset.range d, S i (m + 1) * L j (m + 1)

/-- Velocity gradient of the modified deformation gradient: the gradient `L` of the integration point
with its trace replaced by that of the sampled gradient `M`. -/
def barRate (d : Nat) (L M : Nat → Nat → K) (i j : Nat) : K :=
  L i j + if i = j then (tr d M - tr d L) / d else 0

/-! ### The matrices -/

/-- C31 in two dimensions: each entry is the constitutive tangent plus the initial stress term. -/
theorem C31_plane (C S : Nat → Nat → K) (sig : Nat → K) (hS : Stored pos2 2 S sig) :
    ∃ A, amat2 C sig = .ok A ∧ A.nr = 4 ∧ A.nc = 4 ∧
      ∀ k l, 1 ≤ k → k ≤ 4 → 1 ≤ l → l ≤ 4 →
        A.e k l = C (pos2 (comp 2 k) (dir 2 k)) (pos2 (comp 2 l) (dir 2 l))
          + if comp 2 k = comp 2 l then S (dir 2 k) (dir 2 l) else 0 := by
  refine ⟨_, rfl, rfl, rfl, ?_⟩
  have h11 := hS.at_ 1 1 (by norm_num) (by norm_num) (by norm_num) (by norm_num)
  have h12 := hS.at_ 1 2 (by norm_num) (by norm_num) (by norm_num) (by norm_num)
  have h21 := hS.at_ 2 1 (by norm_num) (by norm_num) (by norm_num) (by norm_num)
  have h22 := hS.at_ 2 2 (by norm_num) (by norm_num) (by norm_num) (by norm_num)
  intro k l k1 k2 l1 l2
  interval_cases k <;> interval_cases l <;>
    first
    | exact (add_zero _).symm
    | exact congrArg _ h11
    | exact congrArg _ h12
    | exact congrArg _ h21
    | exact congrArg _ h22

/-- C31 in axisymmetry. -/
theorem C31_axisymmetric (C S : Nat → Nat → K) (sig : Nat → K)
    (hS : sig 1 = S 1 1 ∧ sig 2 = S 2 2 ∧ sig 3 = S 3 3 ∧ sig 4 = S 1 2 ∧ sig 4 = S 2 1) :
    ∃ A, amatAx C sig = .ok A ∧ A.nr = 5 ∧ A.nc = 5 ∧
      ∀ k l, 1 ≤ k → k ≤ 5 → 1 ≤ l → l ≤ 5 →
        A.e k l = C (posA (comp 2 k) (dir 2 k)) (posA (comp 2 l) (dir 2 l))
          + if comp 2 k = comp 2 l then S (dir 2 k) (dir 2 l) else 0 := by
  refine ⟨_, rfl, rfl, rfl, ?_⟩
  obtain ⟨h11, h22, h33, h12, h21⟩ := hS
  intro k l k1 k2 l1 l2
  interval_cases k <;> interval_cases l <;>
    first
    | exact (add_zero _).symm
    | exact congrArg _ h11
    | exact congrArg _ h12
    | exact congrArg _ h21
    | exact congrArg _ h22
    | exact congrArg _ h33

set_option maxHeartbeats 2000000 in
/-- C31 in three dimensions holds for every pair of gradient components but one. Missing: the pair
(9,3), see `C31_solid_violated`. -/
theorem C31_solid_partial (C S : Nat → Nat → K) (sig : Nat → K) (hS : Stored pos3 3 S sig) :
    ∃ A, amat3 C sig = .ok A ∧ A.nr = 9 ∧ A.nc = 9 ∧ A.e 9 3 = C 3 6 + S 1 2 ∧
      ∀ k l, 1 ≤ k → k ≤ 9 → 1 ≤ l → l ≤ 9 → ¬ (k = 9 ∧ l = 3) →
        A.e k l = C (pos3 (comp 3 k) (dir 3 k)) (pos3 (comp 3 l) (dir 3 l))
          + if comp 3 k = comp 3 l then S (dir 3 k) (dir 3 l) else 0 := by
  have h11 := hS.at_ 1 1 (by norm_num) (by norm_num) (by norm_num) (by norm_num)
  have h12 := hS.at_ 1 2 (by norm_num) (by norm_num) (by norm_num) (by norm_num)
  have h13 := hS.at_ 1 3 (by norm_num) (by norm_num) (by norm_num) (by norm_num)
  have h21 := hS.at_ 2 1 (by norm_num) (by norm_num) (by norm_num) (by norm_num)
  have h22 := hS.at_ 2 2 (by norm_num) (by norm_num) (by norm_num) (by norm_num)
  have h23 := hS.at_ 2 3 (by norm_num) (by norm_num) (by norm_num) (by norm_num)
  have h31 := hS.at_ 3 1 (by norm_num) (by norm_num) (by norm_num) (by norm_num)
  have h32 := hS.at_ 3 2 (by norm_num) (by norm_num) (by norm_num) (by norm_num)
  have h33 := hS.at_ 3 3 (by norm_num) (by norm_num) (by norm_num) (by norm_num)
  refine ⟨_, rfl, rfl, rfl, congrArg (C 3 6 + ·) h12, ?_⟩
  intro k l k1 k2 l1 l2 hkl
  interval_cases k <;> interval_cases l <;>
    first
    | exact (add_zero _).symm
    | exact congrArg _ h11
    | exact congrArg _ h12
    | exact congrArg _ h13
    | exact congrArg _ h21
    | exact congrArg _ h22
    | exact congrArg _ h23
    | exact congrArg _ h31
    | exact congrArg _ h32
    | exact congrArg _ h33
    | exact absurd ⟨rfl, rfl⟩ hkl

/-- C31 is violated in three dimensions: the entry that couples `∂v_z/∂z` with `∂v_z/∂x` contains the
shear stress xy instead of xz, as soon as the two differ. -/
theorem C31_solid_violated (C S : Nat → Nat → K) (sig : Nat → K) (hS : Stored pos3 3 S sig)
    (h : S 1 2 ≠ S 1 3) :
    ∃ A, amat3 C sig = .ok A ∧ comp 3 9 = 3 ∧ dir 3 9 = 3 ∧ comp 3 3 = 3 ∧ dir 3 3 = 1 ∧
      A.e 9 3 ≠ C (pos3 3 3) (pos3 3 1) + S 3 1 := by
  obtain ⟨A, h1, -, -, h2, -⟩ := C31_solid_partial C S sig hS
  refine ⟨A, h1, rfl, rfl, rfl, rfl, ?_⟩
  have h13 := hS.at_ 1 3 (by norm_num) (by norm_num) (by norm_num) (by norm_num)
  have h31 := hS.at_ 3 1 (by norm_num) (by norm_num) (by norm_num) (by norm_num)
  have e : S 3 1 = S 1 3 := h31.symm.trans h13
  rw [h2, e]
  exact fun hh => h (add_left_cancel hh)

/-- Storage of a symmetric tensor. -/
def store3 (S : Nat → Nat → K) : Nat → K
  | 1 => S 1 1 | 2 => S 2 2 | 3 => S 3 3 | 4 => S 1 2 | 5 => S 2 3 | 6 => S 1 3 | _ => 0
def store2 (S : Nat → Nat → K) : Nat → K
  | 1 => S 1 1 | 2 => S 2 2 | 3 => S 1 2 | _ => 0

theorem stored3 (S : Nat → Nat → K) (h : ∀ i j, S i j = S j i) : Stored pos3 3 S (store3 S) :=
  ⟨fun i j i1 i2 j1 j2 => by
    interval_cases i <;> interval_cases j <;> first | rfl | exact h _ _⟩

theorem stored2 (S : Nat → Nat → K) (h : ∀ i j, S i j = S j i) : Stored pos2 2 S (store2 S) :=
  ⟨fun i j i1 i2 j1 j2 => by
    interval_cases i <;> interval_cases j <;> first | rfl | exact h _ _⟩

/-- A stress state with xz shear only. -/
example : ∃ A, amat3 (fun _ _ => (0 : ℚ)) (store3 fun i j => if i + j = 4 ∧ i ≠ j then 1 else 0)
      = .ok A ∧ comp 3 9 = 3 ∧ dir 3 9 = 3 ∧ comp 3 3 = 3 ∧ dir 3 3 = 1 ∧
      A.e 9 3 ≠ 0 + (if 3 + 1 = 4 ∧ 3 ≠ 1 then 1 else 0) :=
  C31_solid_violated _ _ _ (stored3 _ fun i j => by
    by_cases h : i + j = 4 ∧ i ≠ j
    · rw [if_pos h, if_pos ⟨by omega, by omega⟩]
    · rw [if_neg h, if_neg (by omega)]) (by norm_num)

/-! ### The linearisation -/

theorem q2 (e : Nat → Nat → K) (S : Nat → Nat → K) :
    ∃ Q, qmat 2 2 false ⟨4, 4, e⟩ S = .ok Q ∧ Q.nr = 4 ∧ Q.nc = 4 ∧
      ∀ k, 1 ≤ k → k ≤ 4 → Q.e k 2 = 0 ∧ Q.e k 3 = 0 ∧ Q.e k 1 = Q.e k 4 ∧
        Q.e k 1 = ((1 - ((2 : ℕ) : K)) * S (dir 2 k) (comp 2 k) + e k 1 + e k 4) / ((2 : ℕ) : K) := by
  refine ⟨_, rfl, rfl, rfl, fun k k1 k2 => ?_⟩
  interval_cases k <;> exact ⟨rfl, rfl, rfl, rfl⟩

theorem qA (e : Nat → Nat → K) (S : Nat → Nat → K) :
    ∃ Q, qmat 2 3 true ⟨5, 5, e⟩ S = .ok Q ∧ Q.nr = 5 ∧ Q.nc = 5 ∧
      ∀ k, 1 ≤ k → k ≤ 5 → Q.e k 2 = 0 ∧ Q.e k 3 = 0 ∧ Q.e k 1 = Q.e k 4 ∧ Q.e k 1 = Q.e k 5 ∧
        Q.e k 1 = ((1 - ((3 : ℕ) : K)) * S (dir 2 k) (comp 2 k) + e k 1 + e k 4 + e k 5)
          / ((3 : ℕ) : K) := by
  refine ⟨_, rfl, rfl, rfl, fun k k1 k2 => ?_⟩
  interval_cases k <;> exact ⟨rfl, rfl, rfl, rfl, rfl⟩

theorem q3 (e : Nat → Nat → K) (S : Nat → Nat → K) :
    ∃ Q, qmat 3 3 false ⟨9, 9, e⟩ S = .ok Q ∧ Q.nr = 9 ∧ Q.nc = 9 ∧
      ∀ k, 1 ≤ k → k ≤ 9 → Q.e k 2 = 0 ∧ Q.e k 3 = 0 ∧ Q.e k 4 = 0 ∧ Q.e k 6 = 0 ∧ Q.e k 7 = 0 ∧
        Q.e k 8 = 0 ∧ Q.e k 1 = Q.e k 5 ∧ Q.e k 1 = Q.e k 9 ∧
        Q.e k 1 = ((1 - ((3 : ℕ) : K)) * S (dir 3 k) (comp 3 k) + e k 1 + e k 5 + e k 9)
          / ((3 : ℕ) : K) := by
  refine ⟨_, rfl, rfl, rfl, fun k k1 k2 => ?_⟩
  interval_cases k <;> exact ⟨rfl, rfl, rfl, rfl, rfl, rfl, rfl, rfl, rfl⟩

/-- C31, the F-bar terms: for every increment with gradient `L` at the integration point and `M` at the
sampling points, the tangent gives the rate of the internal force when the stress follows the modified
deformation gradient (plane case). -/
theorem C31_tangent_plane [CharZero K] (C S : Nat → Nat → K) (sig : Nat → K)
    (hS : Stored pos2 2 S sig) (L M : Nat → Nat → K) :
    ∃ A Q, amat2 C sig = .ok A ∧ qmat 2 2 false A (fun i j => sig (vidx2 i j)) = .ok Q ∧
      ∀ k, 1 ≤ k → k ≤ 4 →
        A.mulV (num 2 L) k + Q.mulV (fun l => num 2 M l - num 2 L l) k
          = forceRate 2 S (stressRate pos2 2 C S (barRate 2 L M)) L (comp 2 k) (dir 2 k) := by
  obtain ⟨A, hA, n1, n2, he⟩ := C31_plane C S sig hS
  have h11 := hS.at_ 1 1 (by norm_num) (by norm_num) (by norm_num) (by norm_num)
  have h12 := hS.at_ 1 2 (by norm_num) (by norm_num) (by norm_num) (by norm_num)
  have h22 := hS.at_ 2 2 (by norm_num) (by norm_num) (by norm_num) (by norm_num)
  have h21 := hS.at_ 2 1 (by norm_num) (by norm_num) (by norm_num) (by norm_num)
  obtain ⟨nr, nc, e⟩ := A
  simp only at n1 n2 he
  subst n1 n2
  obtain ⟨Q, hQ, m1, m2, hq⟩ := q2 e (fun i j => sig (vidx2 i j))
  refine ⟨_, Q, hA, hQ, ?_⟩
  have hsig : S 2 1 = S 1 2 := h21.symm.trans h12
  have two : (2 : K) ≠ 0 := two_ne_zero
  intro k k1 k2
  obtain ⟨z2, z3, e4, e1⟩ := hq k k1 k2
  simp only [DMat.mulV, m2, Finset.sum_range_succ, Finset.sum_range_zero, zero_add, Nat.reduceAdd]
  rw [z2, z3, ← e4, e1, he k 1 k1 k2 (by norm_num) (by norm_num),
    he k 2 k1 k2 (by norm_num) (by norm_num), he k 3 k1 k2 (by norm_num) (by norm_num),
    he k 4 k1 k2 (by norm_num) (by norm_num)]
  interval_cases k <;>
  · simp only [num, comp, dir, pos2, forceRate, stressRate, barRate, tr, Finset.sum_range_succ,
      Finset.sum_range_zero, vidx2, Nat.reduceMul, Nat.reduceSub, Nat.reduceMod, Nat.reduceDiv,
      Nat.reduceAdd, Nat.reduceLeDiff, if_true, if_false, zero_add, Nat.reduceEqDiff,
      OfNat.ofNat_ne_one, OfNat.one_ne_ofNat] at h11 h12 h21 h22 ⊢
    simp only [h11, h12, h22, hsig]
    push_cast
    field_simp
    ring

/-- The tensor `T` has no components that couple the hoop direction with the others. -/
def AxiForm (T : Nat → Nat → K) : Prop := T 1 3 = 0 ∧ T 3 1 = 0 ∧ T 2 3 = 0 ∧ T 3 2 = 0

set_option maxHeartbeats 2000000 in
/-- C31, the F-bar terms in axisymmetry. -/
theorem C31_tangent_axisymmetric [CharZero K] (C S : Nat → Nat → K) (sig : Nat → K)
    (hS : sig 1 = S 1 1 ∧ sig 2 = S 2 2 ∧ sig 3 = S 3 3 ∧ sig 4 = S 1 2 ∧ sig 4 = S 2 1)
    (L M : Nat → Nat → K) (aS : AxiForm S) (aL : AxiForm L) :
    ∃ A Q, amatAx C sig = .ok A ∧ qmat 2 3 true A (fun i j => sig (vidxA i j)) = .ok Q ∧
      ∀ k, 1 ≤ k → k ≤ 5 →
        A.mulV (num 2 L) k + Q.mulV (fun l => num 2 M l - num 2 L l) k
          = forceRate 3 S (stressRate posA 3 C S (barRate 3 L M)) L (comp 2 k) (dir 2 k) := by
  obtain ⟨A, hA, n1, n2, he⟩ := C31_axisymmetric C S sig hS
  obtain ⟨h11, h22, h33, h12, h21⟩ := hS
  obtain ⟨s1, s2, s3, s4⟩ := aS
  obtain ⟨l1, l2, l3, l4⟩ := aL
  obtain ⟨nr, nc, e⟩ := A
  simp only at n1 n2 he
  subst n1 n2
  obtain ⟨Q, hQ, m1, m2, hq⟩ := qA e (fun i j => sig (vidxA i j))
  refine ⟨_, Q, hA, hQ, ?_⟩
  have hsig : S 2 1 = S 1 2 := h21.symm.trans h12
  have two : (3 : K) ≠ 0 := three_ne_zero
  intro k k1 k2
  obtain ⟨z2, z3, e4, e5, e1⟩ := hq k k1 k2
  simp only [DMat.mulV, m2, Finset.sum_range_succ, Finset.sum_range_zero, zero_add, Nat.reduceAdd]
  rw [z2, z3, ← e4, ← e5, e1, he k 1 k1 k2 (by norm_num) (by norm_num),
    he k 2 k1 k2 (by norm_num) (by norm_num), he k 3 k1 k2 (by norm_num) (by norm_num),
    he k 4 k1 k2 (by norm_num) (by norm_num), he k 5 k1 k2 (by norm_num) (by norm_num)]
  interval_cases k <;>
  · simp only [num, comp, dir, posA, forceRate, stressRate, barRate, tr, Finset.sum_range_succ,
      Finset.sum_range_zero, vidxA, Nat.reduceMul, Nat.reduceSub, Nat.reduceMod, Nat.reduceDiv,
      Nat.reduceAdd, Nat.reduceLeDiff, if_true, if_false, zero_add, Nat.reduceEqDiff,
      OfNat.ofNat_ne_one, OfNat.one_ne_ofNat]
    simp only [h11, h12, h22, h33, hsig, s1, s2, s3, s4, l1, l2, l3, l4]
    push_cast
    field_simp
    ring

set_option maxHeartbeats 4000000 in
/-- C31, the F-bar terms in three dimensions. Missing: the entry (9,3) of `C31_solid_violated`, which
shows up as the last term. -/
theorem C31_tangent_solid_partial [CharZero K] (C S : Nat → Nat → K) (sig : Nat → K)
    (hS : Stored pos3 3 S sig) (L M : Nat → Nat → K) :
    ∃ A Q, amat3 C sig = .ok A ∧ qmat 3 3 false A (fun i j => sig (vidx3 i j)) = .ok Q ∧
      ∀ k, 1 ≤ k → k ≤ 9 →
        A.mulV (num 3 L) k + Q.mulV (fun l => num 3 M l - num 3 L l) k
          = forceRate 3 S (stressRate pos3 3 C S (barRate 3 L M)) L (comp 3 k) (dir 3 k)
            + if k = 9 then (S 1 2 - S 1 3) * L 3 1 else 0 := by
  obtain ⟨A, hA, n1, n2, h93, he⟩ := C31_solid_partial C S sig hS
  have h11 := hS.at_ 1 1 (by norm_num) (by norm_num) (by norm_num) (by norm_num)
  have h12 := hS.at_ 1 2 (by norm_num) (by norm_num) (by norm_num) (by norm_num)
  have h13 := hS.at_ 1 3 (by norm_num) (by norm_num) (by norm_num) (by norm_num)
  have h21 := hS.at_ 2 1 (by norm_num) (by norm_num) (by norm_num) (by norm_num)
  have h22 := hS.at_ 2 2 (by norm_num) (by norm_num) (by norm_num) (by norm_num)
  have h23 := hS.at_ 2 3 (by norm_num) (by norm_num) (by norm_num) (by norm_num)
  have h31 := hS.at_ 3 1 (by norm_num) (by norm_num) (by norm_num) (by norm_num)
  have h32 := hS.at_ 3 2 (by norm_num) (by norm_num) (by norm_num) (by norm_num)
  have h33 := hS.at_ 3 3 (by norm_num) (by norm_num) (by norm_num) (by norm_num)
  have g1 : S 2 1 = S 1 2 := h21.symm.trans h12
  have g2 : S 3 1 = S 1 3 := h31.symm.trans h13
  have g3 : S 3 2 = S 2 3 := h32.symm.trans h23
  change sig 1 = _ at h11
  change sig 2 = _ at h22
  change sig 3 = _ at h33
  change sig 4 = _ at h12
  change sig 5 = _ at h23
  change sig 6 = _ at h13
  clear h21 h31 h32
  obtain ⟨nr, nc, e⟩ := A
  simp only at n1 n2 he h93
  subst n1 n2
  obtain ⟨Q, hQ, m1, m2, hq⟩ := q3 e (fun i j => sig (vidx3 i j))
  refine ⟨_, Q, hA, hQ, ?_⟩
  have three : (3 : K) ≠ 0 := three_ne_zero
  intro k k1 k2
  obtain ⟨z2, z3, z4, z6, z7, z8, e5, e9, e1⟩ := hq k k1 k2
  simp only [DMat.mulV, m2, Finset.sum_range_succ, Finset.sum_range_zero, zero_add, Nat.reduceAdd]
  rw [z2, z3, z4, z6, z7, z8, ← e5, ← e9, e1, he k 1 k1 k2 (by norm_num) (by norm_num) (by omega),
    he k 2 k1 k2 (by norm_num) (by norm_num) (by omega),
    he k 4 k1 k2 (by norm_num) (by norm_num) (by omega),
    he k 5 k1 k2 (by norm_num) (by norm_num) (by omega),
    he k 6 k1 k2 (by norm_num) (by norm_num) (by omega),
    he k 7 k1 k2 (by norm_num) (by norm_num) (by omega),
    he k 8 k1 k2 (by norm_num) (by norm_num) (by omega),
    he k 9 k1 k2 (by norm_num) (by norm_num) (by omega)]
  have e3 : e k 3 = C (pos3 (comp 3 k) (dir 3 k)) (pos3 (comp 3 3) (dir 3 3))
      + (if comp 3 k = comp 3 3 then S (dir 3 k) (dir 3 3) else 0)
      + if k = 9 then S 1 2 - S 1 3 else 0 := by
    by_cases h9 : k = 9
    · subst h9
      rw [h93, if_pos rfl]
      change _ = C 3 6 + S 3 1 + _
      rw [g2]; ring
    · rw [he k 3 k1 k2 (by norm_num) (by norm_num) (by omega), if_neg h9, add_zero]
  rw [e3]
  clear e3 e1 e5 e9 z2 z3 z4 z6 z7 z8 hq he h93
  interval_cases k <;>
  · simp only [num, comp, dir, pos3, forceRate, stressRate, barRate, tr, Finset.sum_range_succ,
      Finset.sum_range_zero, vidx3, Nat.reduceMul, Nat.reduceSub, Nat.reduceMod, Nat.reduceDiv,
      Nat.reduceAdd, Nat.reduceLeDiff, if_true, if_false, zero_add, Nat.reduceEqDiff,
      OfNat.ofNat_ne_one, OfNat.one_ne_ofNat]
    simp only [h11, h12, h22, h33, h13, h23, g1, g2, g3]
    push_cast
    field_simp
    ring

example (C S : Nat → Nat → ℚ) (hsym : ∀ i j, S i j = S j i) (L M : Nat → Nat → ℚ) :
    ∃ A Q, amat2 C (store2 S) = .ok A ∧
      qmat 2 2 false A (fun i j => store2 S (vidx2 i j)) = .ok Q ∧
      ∀ k, 1 ≤ k → k ≤ 4 →
        A.mulV (num 2 L) k + Q.mulV (fun l => num 2 M l - num 2 L l) k
          = forceRate 2 S (stressRate pos2 2 C S (barRate 2 L M)) L (comp 2 k) (dir 2 k) :=
  C31_tangent_plane C S _ (stored2 S hsym) L M

/-! ### The gradient operator -/

theorem split_eq (d i j i' j' : Nat) (hj : j < d) (hj' : j' < d) (h : d * i + j = d * i' + j') :
    i = i' ∧ j = j' := by
  have h1 : (d * i + j) / d = i := by
    rw [Nat.mul_add_div (by omega), Nat.div_eq_of_lt hj, add_zero]
  have h2 : (d * i' + j') / d = i' := by
    rw [Nat.mul_add_div (by omega), Nat.div_eq_of_lt hj', add_zero]
  have e : i = i' := by rw [← h1, h, h2]
  subst e
  exact ⟨rfl, by omega⟩

theorem block_lt (d i j n : Nat) (hj : j < d) (hi : i < n) : d * i + j + 1 ≤ d * n := by
  have := Nat.mul_le_mul_left d (show i + 1 ≤ n by omega)
  rw [Nat.mul_succ] at this
  omega

set_option maxHeartbeats 1000000 in
theorem gradOp_entries [LinearOrder K] (nsd : Nat) (hn : 1 ≤ nsd) (r : K) (N : DVec K) (dN : DMat K)
    (hN : 0 < r → N.n = dN.nr) :
    ∃ G, gradOp nsd r N dN = .ok G ∧ G.nr = (if 0 < r then nsd * nsd + 1 else nsd * nsd) ∧
      G.nc = nsd * dN.nr ∧
      (∀ i j a j', i < nsd → j < nsd → a < dN.nr → j' < nsd → G.e (nsd * i + j + 1) (nsd * a + j' + 1)
        = if j' = j then dN.e (a + 1) (i + 1) else 0) ∧
      (0 < r → ∀ a j', a < dN.nr → j' < nsd → G.e (nsd * nsd + 1) (nsd * a + j' + 1)
        = if j' = 0 then N.e (a + 1) / r else 0) := by
  classical
  have key := loop_inv (fun a (G : DMat K) =>
    (G.setMany ((List.range nsd).flatMap fun i => (List.range nsd).map fun j =>
      (nsd * i + j + 1, nsd * a + j + 1, dN.e (a + 1) (i + 1)))).bind fun G =>
    if 0 < r then (N.get (a + 1)).bind fun n => G.set (nsd * nsd + 1) (nsd * a + 1) (n / r)
    else .ok G)
    (fun k G => G.nr = (if 0 < r then nsd * nsd + 1 else nsd * nsd) ∧ G.nc = nsd * dN.nr ∧
      (∀ i j a j', i < nsd → j < nsd → a < dN.nr → j' < nsd → G.e (nsd * i + j + 1) (nsd * a + j' + 1)
        = if a < k ∧ j' = j then dN.e (a + 1) (i + 1) else 0) ∧
      (0 < r → ∀ a j', a < dN.nr → j' < nsd → G.e (nsd * nsd + 1) (nsd * a + j' + 1)
        = if a < k ∧ j' = 0 then N.e (a + 1) / r else 0))
    dN.nr (DMat.zero (if 0 < r then nsd * nsd + 1 else nsd * nsd) (nsd * dN.nr))
    ⟨rfl, rfl, fun i j a j' _ _ _ _ => by simp [DMat.zero], fun _ a j' _ _ => by simp [DMat.zero]⟩ (by
    rintro k G hk ⟨p1, p2, p3, p4⟩
    have nr : nsd * nsd ≤ G.nr := by rw [p1]; split_ifs <;> omega
    have e := DMat.setMany_ok (l := (List.range nsd).flatMap fun i => (List.range nsd).map fun j =>
      (nsd * i + j + 1, nsd * k + j + 1, dN.e (k + 1) (i + 1))) (A := G) (by
        intro x hx
        simp only [List.mem_flatMap, List.mem_range, List.mem_map] at hx
        obtain ⟨i, hi, j, hj, rfl⟩ := hx
        have b1 := block_lt nsd i j nsd hj hi
        have b2 := block_lt nsd k j dN.nr hj hk
        exact ⟨by simp, by simp only; omega, by simp, by simp only; omega⟩)
    have val : ∀ a b, (List.foldl (fun e x => fun a b => if a = x.1 ∧ b = x.2.1 then x.2.2 else e a b)
        G.e ((List.range nsd).flatMap fun i => (List.range nsd).map fun j =>
        (nsd * i + j + 1, nsd * k + j + 1, dN.e (k + 1) (i + 1)))) a b
        = if ∃ i j, i < nsd ∧ j < nsd ∧ nsd * i + j + 1 = a ∧ nsd * k + j + 1 = b
          then dN.e (k + 1) ((a - 1) / nsd + 1) else G.e a b := by
      intro a b
      rw [foldl_fun (fun a b => dN.e (k + 1) ((a - 1) / nsd + 1))]
      · refine if_congr ?_ rfl rfl
        simp only [List.mem_flatMap, List.mem_range, List.mem_map]
        constructor
        · rintro ⟨x, ⟨i, hi, j, hj, rfl⟩, e1, e2⟩
          exact ⟨i, j, hi, hj, e1, e2⟩
        · rintro ⟨i, j, hi, hj, e1, e2⟩
          exact ⟨_, ⟨i, hi, j, hj, rfl⟩, e1, e2⟩
      · intro x hx
        simp only [List.mem_flatMap, List.mem_range, List.mem_map] at hx
        obtain ⟨i, hi, j, hj, rfl⟩ := hx
        simp only
        rw [show nsd * i + j + 1 - 1 = nsd * i + j by omega, Nat.mul_add_div (by omega),
          Nat.div_eq_of_lt hj, add_zero]
    have entry : ∀ i j a j', i < nsd → j < nsd → a < dN.nr → j' < nsd →
        (if ∃ i' j'', i' < nsd ∧ j'' < nsd ∧ nsd * i' + j'' + 1 = nsd * i + j + 1 ∧
          nsd * k + j'' + 1 = nsd * a + j' + 1
          then dN.e (k + 1) ((nsd * i + j + 1 - 1) / nsd + 1)
          else G.e (nsd * i + j + 1) (nsd * a + j' + 1))
        = if a < k + 1 ∧ j' = j then dN.e (a + 1) (i + 1) else 0 := by
      intro i j a j' hi hj ha hj'
      by_cases h : a = k ∧ j' = j
      · obtain ⟨rfl, rfl⟩ := h
        rw [if_pos ⟨i, j', hi, hj, rfl, rfl⟩, if_pos ⟨by omega, rfl⟩,
          show nsd * i + j' + 1 - 1 = nsd * i + j' by omega, Nat.mul_add_div (by omega),
          Nat.div_eq_of_lt hj, add_zero]
      · rw [if_neg, p3 i j a j' hi hj ha hj']
        · refine if_congr ?_ rfl rfl
          constructor
          · rintro ⟨x, y⟩; exact ⟨by omega, y⟩
          · rintro ⟨x, y⟩; exact ⟨by have : a ≠ k := fun e => h ⟨e, y⟩
                                     omega, y⟩
        · rintro ⟨i', j'', g1, g2, g3, g4⟩
          obtain ⟨q1, q2⟩ := split_eq nsd i' j'' i j g2 hj (by omega)
          obtain ⟨q3, q4⟩ := split_eq nsd k j'' a j' g2 hj' (by omega)
          exact h ⟨q3.symm, by rw [← q4, q2]⟩
    by_cases hr : 0 < r
    · have hN' := hN hr
      refine ⟨⟨G.nr, G.nc, fun a b => if a = nsd * nsd + 1 ∧ b = nsd * k + 1 then N.e (k + 1) / r
        else (List.foldl (fun e x => fun a b => if a = x.1 ∧ b = x.2.1 then x.2.2 else e a b)
        G.e ((List.range nsd).flatMap fun i => (List.range nsd).map fun j =>
        (nsd * i + j + 1, nsd * k + j + 1, dN.e (k + 1) (i + 1)))) a b⟩, ?_, p1, p2, ?_, ?_⟩
      · beta_reduce
        rw [e, show ∀ (p : DMat K) (f : DMat K → Res (DMat K)), (Res.ok p).bind f = f p
          from fun _ _ => rfl, if_pos hr]
        have hg : N.get (k + 1) = .ok (N.e (k + 1)) := by
          unfold DVec.get; exact if_pos ⟨by omega, by omega⟩
        rw [hg, show ∀ (p : K) (f : K → Res (DMat K)), (Res.ok p).bind f = f p
          from fun _ _ => rfl]
        have b2 := block_lt nsd k 0 dN.nr (by omega) hk
        rw [DMat.set_ok ⟨by omega, by show nsd * nsd + 1 ≤ G.nr; rw [p1, if_pos hr], by omega,
          by show nsd * k + 1 ≤ G.nc; rw [p2]; omega⟩]
      · intro i j a j' hi hj ha hj'
        have b1 := block_lt nsd i j nsd hj hi
        simp only
        rw [if_neg (by omega), val, entry i j a j' hi hj ha hj']
      · intro _ a j' ha hj'
        simp only
        by_cases h : a = k ∧ j' = 0
        · obtain ⟨rfl, rfl⟩ := h
          simp
        · rw [if_neg, val, if_neg, p4 hr a j' ha hj']
          · refine if_congr ?_ rfl rfl
            constructor
            · rintro ⟨x, y⟩; exact ⟨by omega, y⟩
            · rintro ⟨x, y⟩; exact ⟨by have : a ≠ k := fun e => h ⟨e, y⟩
                                       omega, y⟩
          · rintro ⟨i', j'', g1, g2, g3, g4⟩
            have := block_lt nsd i' j'' nsd g2 g1
            omega
          · rintro ⟨-, g⟩
            obtain ⟨q3, q4⟩ := split_eq nsd a j' k 0 hj' (by omega) (by omega)
            exact h ⟨q3, q4⟩
    · refine ⟨⟨G.nr, G.nc,
        (List.foldl (fun e x => fun a b => if a = x.1 ∧ b = x.2.1 then x.2.2 else e a b)
        G.e ((List.range nsd).flatMap fun i => (List.range nsd).map fun j =>
        (nsd * i + j + 1, nsd * k + j + 1, dN.e (k + 1) (i + 1))))⟩, ?_, p1, p2, ?_,
        fun h => absurd h hr⟩
      · beta_reduce
        rw [e, show ∀ (p : DMat K) (f : DMat K → Res (DMat K)), (Res.ok p).bind f = f p
          from fun _ _ => rfl, if_neg hr]
      · intro i j a j' hi hj ha hj'
        simp only
        rw [val, entry i j a j' hi hj ha hj'])
  obtain ⟨G, g1, g2, g3, g4, g5⟩ := key
  refine ⟨G, g1, g2, g3, fun i j a j' hi hj ha hj' => ?_, fun hr a j' ha hj' => ?_⟩
  · rw [g4 i j a j' hi hj ha hj']
    exact if_congr (by simp [ha]) rfl rfl
  · rw [g5 hr a j' ha hj']
    exact if_congr (by simp [ha]) rfl rfl

/-- C31, the gradient operator: applied to any nodal displacements `u` it gives their gradient
`∂u_j/∂x_i` in the numbering of the tangent, and the hoop strain `u_r/r` in axisymmetry. -/
theorem C31_gradient [LinearOrder K] (nsd : Nat) (hn : 1 ≤ nsd) (r : K) (N : DVec K) (dN : DMat K)
    (hN : 0 < r → N.n = dN.nr) (u : Nat → Nat → K) :
    ∃ G, gradOp nsd r N dN = .ok G ∧ G.nr = (if 0 < r then nsd * nsd + 1 else nsd * nsd) ∧
      (∀ i j, i < nsd → j < nsd → G.mulV (dofVec nsd u) (nsd * i + j + 1)
        = ∑ a ∈ Finset.range dN.nr, dN.e (a + 1) (i + 1) * u (a + 1) (j + 1)) ∧
      (0 < r → G.mulV (dofVec nsd u) (nsd * nsd + 1)
        = (∑ a ∈ Finset.range dN.nr, N.e (a + 1) * u (a + 1) 1) / r) := by
  obtain ⟨G, g1, g2, g3, g4, g5⟩ := gradOp_entries nsd hn r N dN hN
  refine ⟨G, g1, g2, fun i j hi hj => ?_, fun hr => ?_⟩
  · rw [DMat.mulV, g3, sum_range_mul]
    refine Finset.sum_congr rfl fun a ha => ?_
    have ha := Finset.mem_range.mp ha
    rw [Finset.sum_eq_single j]
    · rw [g4 i j a j hi hj ha hj, if_pos rfl, dofVec_eq nsd u a j hj]
    · intro b hb hbj
      have hb := Finset.mem_range.mp hb
      rw [g4 i j a b hi hj ha hb, if_neg hbj, zero_mul]
    · intro h; exact absurd (Finset.mem_range.mpr hj) h
  · rw [DMat.mulV, g3, sum_range_mul, Finset.sum_div]
    refine Finset.sum_congr rfl fun a ha => ?_
    have ha := Finset.mem_range.mp ha
    rw [Finset.sum_eq_single 0]
    · rw [g5 hr a 0 ha (by omega), if_pos rfl, dofVec_eq nsd u a 0 (by omega)]
      ring
    · intro b hb hb0
      have hb := Finset.mem_range.mp hb
      rw [g5 hr a b ha hb, if_neg hb0, zero_mul]
    · intro h; exact absurd (Finset.mem_range.mpr (by omega)) h

/-- Two nodes in the plane, with a hoop row. -/
example : ∃ G, gradOp 2 (2 : ℚ) ⟨2, fun a => if a = 1 then 1 / 4 else 3 / 4⟩
      ⟨2, 2, fun a j => if a = 1 then -1 else j⟩ = .ok G ∧
      G.mulV (dofVec 2 fun a j => (a : ℚ)) 5 = 7 / 8 := by
  obtain ⟨G, h1, -, -, h2⟩ := C31_gradient 2 (by norm_num) (2 : ℚ)
    ⟨2, fun a => if a = 1 then 1 / 4 else 3 / 4⟩ ⟨2, 2, fun a j => if a = 1 then -1 else j⟩
    (fun _ => rfl) (fun a j => (a : ℚ))
  refine ⟨G, h1, ?_⟩
  rw [show 5 = 2 * 2 + 1 by rfl, h2 (by norm_num)]
  norm_num [Finset.sum_range_succ]

end Verif.Fbar
