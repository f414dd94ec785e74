/-
Property C122: the internal forces of a large deformation element are in equilibrium with themselves and turn with the element. Models: Model/FDTangent.lean, Model/FbarElem.lean, Model/FDStress.lean.
-/
import Verif.Props.FDStress

set_option linter.unusedVariables false

namespace Verif.Finite

open Verif.Cont Verif.ContSpec Verif.FiniteSpec Verif.Fbar Filter Topology

/-! ### Specification -/

/-- Nodal forces without resultant and without moment about the origin, when they act in the nodal positions `y`. -/
def Balanced (d n : Nat) (y : Nat → Nat → ℝ) (f : DVec ℝ) : Prop :=
  (∀ i, 1 ≤ i → i ≤ d → ∑ a ∈ Finset.range n, f.e (d * a + i) = 0) ∧
  ∀ i j, 1 ≤ i → i ≤ d → 1 ≤ j → j ≤ d → ∑ a ∈ Finset.range n, (y (a + 1) i * f.e (d * a + j) - y (a + 1) j * f.e (d * a + i)) = 0

/-- The gradients of an integration point are those of an isoparametric element with nodes in `X`: the sum of the basis functions is constant, and they interpolate the coordinates. -/
def Iso (d n : Nat) (X : Nat → Nat → ℝ) (p : FPt ℝ) : Prop :=
  p.dN.nr = n ∧ p.dN.nc = d ∧ (∀ j, j < d → ∑ a ∈ Finset.range n, p.dN.e (a + 1) (j + 1) = 0) ∧
  ∀ i j, i < d → j < d → ∑ a ∈ Finset.range n, X (a + 1) (i + 1) * p.dN.e (a + 1) (j + 1) = if i = j then 1 else 0

/-- A proper rotation in `d` dimensions. -/
def Rot (d : Nat) (Q : Nat → Nat → ℝ) : Prop :=
  (∀ k l, k < d → l < d → ∑ i ∈ Finset.range d, Q (i + 1) (k + 1) * Q (i + 1) (l + 1) = if k = l then 1 else 0) ∧ (lead d Q).det = 1

/-- The positions `y'` are the positions `y`, turned by `Q` and moved by `c`. -/
def Turned (d n : Nat) (Q : Nat → Nat → ℝ) (c : Nat → ℝ) (y y' : Nat → Nat → ℝ) : Prop :=
  ∀ a i, a < n → i < d → y' (a + 1) (i + 1) = c (i + 1) + ∑ k ∈ Finset.range d, Q (i + 1) (k + 1) * y (a + 1) (k + 1)

/-- The forces `f'` are the forces `f` turned by `Q`. -/
def TurnedForce (d n : Nat) (Q : Nat → Nat → ℝ) (f f' : DVec ℝ) : Prop :=
  ∀ a i, a < n → i < d → f'.e (d * a + i + 1) = ∑ k ∈ Finset.range d, Q (i + 1) (k + 1) * f.e (d * a + k + 1)

/-! ### Lemmas -/

theorem dot_nodes (d n : Nat) (f : DVec ℝ) (hf : f.n = d * n) (x : Nat → Nat → ℝ) :
    f.dot (dofVec d x) = ∑ a ∈ Finset.range n, ∑ i ∈ Finset.range d, x (a + 1) (i + 1) * f.e (d * a + i + 1) := by
  unfold DVec.dot
  rw [hf, sum_range_mul]
  exact Finset.sum_congr rfl fun a _ => Finset.sum_congr rfl fun i hi => by rw [dofVec_eq d x a i (Finset.mem_range.mp hi)]

/-- What an element with the first Piola-Kirchhoff stresses `P` in its points has as forces. -/
def Piola (d n : Nat) {α : Type} (pts : List α) (geo : α → FPt ℝ) (P : α → Nat → Nat → ℝ) (f : DVec ℝ) : Prop :=
  f.n = d * n ∧ ∀ x, f.dot (dofVec d x) = -(pts.map fun p => (geo p).w * ∑ i ∈ Finset.range d, ∑ r ∈ Finset.range d, P p (i + 1) (r + 1) * grad n x (geo p).dN.e (i + 1) (r + 1)).sum

theorem sum_zero_of {α : Type} (l : List α) (g : α → ℝ) (h : ∀ p ∈ l, g p = 0) : (l.map g).sum = 0 := by
  induction l with
  | nil => rfl
  | cons p l ih => simp only [List.map_cons, List.sum_cons, h p (by simp), ih fun q hq => h q (by simp [hq]), add_zero]

theorem defF_in (d : Nat) (H : Nat → Nat → ℝ) (i j : Nat) (hi : i < d) (hj : j < d) : defF d H (i + 1) (j + 1) = (if i = j then 1 else 0) + H (i + 1) (j + 1) := by
  unfold defF
  rw [if_pos (show (1 ≤ i + 1 ∧ i + 1 ≤ d) ∧ 1 ≤ j + 1 ∧ j + 1 ≤ d from ⟨⟨by omega, by omega⟩, by omega, by omega⟩)]
  simp only [Nat.add_right_cancel_iff]

theorem neg_sum {α : Type} (l : List α) (g : α → ℝ) : -(l.map g).sum = (l.map fun p => -g p).sum := by
  induction l with
  | nil => simp
  | cons p l ih => simp only [List.map_cons, List.sum_cons, ← ih]; ring

/-- The deformation gradient is the gradient of the positions. -/
theorem defF_pos (d n : Nat) (X : Nat → Nat → ℝ) (p : FPt ℝ) (hp : Iso d n X p) (u y : Nat → Nat → ℝ) (hy : ∀ a i, a < n → i < d → y (a + 1) (i + 1) = X (a + 1) (i + 1) + u (a + 1) (i + 1)) (i r : Nat) (hi : i < d) (hr : r < d) :
    defF d (grad n u p.dN.e) (i + 1) (r + 1) = grad n y p.dN.e (i + 1) (r + 1) := by
  rw [defF_in d _ i r hi hr]
  have e : grad n y p.dN.e (i + 1) (r + 1) = grad n X p.dN.e (i + 1) (r + 1) + grad n u p.dN.e (i + 1) (r + 1) := by
    unfold grad
    rw [← Finset.sum_add_distrib]
    exact Finset.sum_congr rfl fun a ha => by rw [hy a i (Finset.mem_range.mp ha) hi]; ring
  rw [e]
  congr 1
  have := hp.2.2.2 i r hi hr
  exact this.symm

theorem balanced_of_piola (d n : Nat) {α : Type} (pts : List α) (geo : α → FPt ℝ) (P : α → Nat → Nat → ℝ) (f : DVec ℝ) (hf : Piola d n pts geo P f) (X u : Nat → Nat → ℝ) (hg : ∀ p ∈ pts, Iso d n X (geo p))
    (hs : ∀ p ∈ pts, ∀ i j, i < d → j < d → ∑ r ∈ Finset.range d, P p (i + 1) (r + 1) * defF d (grad n u (geo p).dN.e) (j + 1) (r + 1) = ∑ r ∈ Finset.range d, P p (j + 1) (r + 1) * defF d (grad n u (geo p).dN.e) (i + 1) (r + 1)) :
    Balanced d n (fun a i => X a i + u a i) f := by
  obtain ⟨hn, hw⟩ := hf
  constructor
  · intro i h1 h2
    have h := hw fun a k => if k = i then 1 else 0
    rw [dot_nodes d n f hn] at h
    have e : ∀ a, ∑ k ∈ Finset.range d, (if k + 1 = i then (1 : ℝ) else 0) * f.e (d * a + k + 1) = f.e (d * a + i) := by
      intro a
      rw [Finset.sum_eq_single (i - 1)]
      · rw [if_pos (by omega), one_mul]; congr 1; omega
      · intro k _ hk; rw [if_neg (by omega), zero_mul]
      · intro hk; exact absurd (Finset.mem_range.mpr (by omega)) hk
    simp only [e] at h
    rw [h, sum_zero_of, neg_zero]
    intro p hp
    rw [Finset.sum_eq_zero, mul_zero]
    intro k hk
    refine Finset.sum_eq_zero fun r hr => ?_
    have : grad n (fun a k => if k = i then (1 : ℝ) else 0) (geo p).dN.e (k + 1) (r + 1) = 0 := by
      unfold grad
      rw [← Finset.mul_sum, (hg p hp).2.2.1 r (Finset.mem_range.mp hr), mul_zero]
    rw [this, mul_zero]
  · intro i j h1 h2 h3 h4
    obtain ⟨i, rfl⟩ : ∃ k, i = k + 1 := ⟨i - 1, by omega⟩
    obtain ⟨j, rfl⟩ : ∃ k, j = k + 1 := ⟨j - 1, by omega⟩
    let y : Nat → Nat → ℝ := fun a i => X a i + u a i
    have h := hw fun a k => (if k = j + 1 then y a (i + 1) else 0) - (if k = i + 1 then y a (j + 1) else 0)
    rw [dot_nodes d n f hn] at h
    have e : ∀ a, ∑ k ∈ Finset.range d, ((if k + 1 = j + 1 then y (a + 1) (i + 1) else 0) - (if k + 1 = i + 1 then y (a + 1) (j + 1) else 0)) * f.e (d * a + k + 1) = y (a + 1) (i + 1) * f.e (d * a + (j + 1)) - y (a + 1) (j + 1) * f.e (d * a + (i + 1)) := by
      intro a
      simp only [sub_mul, Finset.sum_sub_distrib, Nat.add_right_cancel_iff, ite_mul, zero_mul, Finset.sum_ite_eq', Finset.mem_range, if_pos (show j < d by omega), if_pos (show i < d by omega)]
      rfl
    simp only [e] at h
    rw [h, sum_zero_of, neg_zero]
    intro p hp
    have hF := fun i r hi hr => defF_pos d n X (geo p) (hg p hp) u y (fun a i _ _ => rfl) i r hi hr
    have hgr : ∀ k r, grad n (fun a k => (if k = j + 1 then y a (i + 1) else 0) - (if k = i + 1 then y a (j + 1) else 0)) (geo p).dN.e (k + 1) (r + 1)
        = (if k = j then grad n y (geo p).dN.e (i + 1) (r + 1) else 0) - (if k = i then grad n y (geo p).dN.e (j + 1) (r + 1) else 0) := by
      intro k r
      unfold grad
      simp only [sub_mul, Finset.sum_sub_distrib, Nat.add_right_cancel_iff]
      congr 1
      · split_ifs <;> simp
      · split_ifs <;> simp
    simp only [hgr]
    have e2 : ∑ k ∈ Finset.range d, ∑ r ∈ Finset.range d, P p (k + 1) (r + 1) * ((if k = j then grad n y (geo p).dN.e (i + 1) (r + 1) else 0) - (if k = i then grad n y (geo p).dN.e (j + 1) (r + 1) else 0))
        = ∑ r ∈ Finset.range d, P p (j + 1) (r + 1) * grad n y (geo p).dN.e (i + 1) (r + 1) - ∑ r ∈ Finset.range d, P p (i + 1) (r + 1) * grad n y (geo p).dN.e (j + 1) (r + 1) := by
      rw [Finset.sum_comm, ← Finset.sum_sub_distrib]
      refine Finset.sum_congr rfl fun r _ => ?_
      simp only [mul_sub, Finset.sum_sub_distrib, mul_ite, mul_zero, Finset.sum_ite_eq', Finset.mem_range, if_pos (show j < d by omega), if_pos (show i < d by omega)]
    rw [e2]
    have h5 := hs p hp i j (by omega) (by omega)
    have h6 : ∀ k l, k < d → l < d → ∑ r ∈ Finset.range d, P p (k + 1) (r + 1) * defF d (grad n u (geo p).dN.e) (l + 1) (r + 1) = ∑ r ∈ Finset.range d, P p (k + 1) (r + 1) * grad n y (geo p).dN.e (l + 1) (r + 1) :=
      fun k l hk hl => Finset.sum_congr rfl fun r hr => by rw [hF l r hl (Finset.mem_range.mp hr)]
    rw [h6 i j (by omega) (by omega), h6 j i (by omega) (by omega)] at h5
    rw [h5, sub_self, mul_zero]

theorem turned_of_piola (d n : Nat) {α : Type} (pts : List α) (geo : α → FPt ℝ) (P P' : α → Nat → Nat → ℝ) (f f' : DVec ℝ) (hf : Piola d n pts geo P f) (hf' : Piola d n pts geo P' f') (Q : Nat → Nat → ℝ)
    (hP : ∀ p ∈ pts, ∀ i r, i < d → r < d → P' p (i + 1) (r + 1) = ∑ k ∈ Finset.range d, Q (i + 1) (k + 1) * P p (k + 1) (r + 1)) : TurnedForce d n Q f f' := by
  intro a i ha hi
  let x : Nat → Nat → ℝ := fun b k => if b = a + 1 ∧ k = i + 1 then 1 else 0
  let z : Nat → Nat → ℝ := fun b k => if b = a + 1 then Q (i + 1) k else 0
  have h' := hf'.2 x
  have h := hf.2 z
  rw [dot_nodes d n f' hf'.1] at h'
  rw [dot_nodes d n f hf.1] at h
  have e' : ∑ b ∈ Finset.range n, ∑ k ∈ Finset.range d, x (b + 1) (k + 1) * f'.e (d * b + k + 1) = f'.e (d * a + i + 1) := by
    rw [Finset.sum_eq_single a, Finset.sum_eq_single i]
    · simp [x]
    · intro k _ hk; simp [x, hk]
    · intro hk; exact absurd (Finset.mem_range.mpr hi) hk
    · intro b _ hb; simp [x, hb]
    · intro hk; exact absurd (Finset.mem_range.mpr ha) hk
  have e : ∑ b ∈ Finset.range n, ∑ k ∈ Finset.range d, z (b + 1) (k + 1) * f.e (d * b + k + 1) = ∑ k ∈ Finset.range d, Q (i + 1) (k + 1) * f.e (d * a + k + 1) := by
    rw [Finset.sum_eq_single a]
    · simp [z]
    · intro b _ hb; simp [z, hb]
    · intro hk; exact absurd (Finset.mem_range.mpr ha) hk
  rw [e'] at h'
  rw [e] at h
  rw [h', h]
  congr 2
  refine List.map_congr_left fun p hp => ?_
  congr 1
  have gx : ∀ k r, grad n x (geo p).dN.e (k + 1) (r + 1) = if k = i then (geo p).dN.e (a + 1) (r + 1) else 0 := by
    intro k r
    unfold grad
    rw [Finset.sum_eq_single a]
    · simp [x]
    · intro b _ hb; simp [x, hb]
    · intro hk; exact absurd (Finset.mem_range.mpr ha) hk
  have gz : ∀ k r, grad n z (geo p).dN.e (k + 1) (r + 1) = Q (i + 1) (k + 1) * (geo p).dN.e (a + 1) (r + 1) := by
    intro k r
    unfold grad
    rw [Finset.sum_eq_single a]
    · simp [z]
    · intro b _ hb; simp [z, hb]
    · intro hk; exact absurd (Finset.mem_range.mpr ha) hk
  simp only [gx, gz]
  rw [Finset.sum_comm, Finset.sum_comm (f := fun k r => P p (k + 1) (r + 1) * _)]
  refine Finset.sum_congr rfl fun r hr => ?_
  simp only [mul_ite, mul_zero, Finset.sum_ite_eq', Finset.mem_range, if_pos hi]
  rw [hP p hp i r hi (Finset.mem_range.mp hr), Finset.sum_mul]
  exact Finset.sum_congr rfl fun k _ => by ring

/-- Turning the positions turns the deformation gradient. -/
theorem turned_F (d n : Nat) (X : Nat → Nat → ℝ) (p : FPt ℝ) (hp : Iso d n X p) (Q : Nat → Nat → ℝ) (c : Nat → ℝ) (u u' : Nat → Nat → ℝ) (ht : Turned d n Q c (fun a i => X a i + u a i) (fun a i => X a i + u' a i)) (i r : Nat) (hi : i < d) (hr : r < d) :
    defF d (grad n u' p.dN.e) (i + 1) (r + 1) = ∑ k ∈ Finset.range d, Q (i + 1) (k + 1) * defF d (grad n u p.dN.e) (k + 1) (r + 1) := by
  rw [defF_pos d n X p hp u' (fun a i => X a i + u' a i) (fun a i _ _ => rfl) i r hi hr,
    Finset.sum_congr rfl fun k hk => by rw [defF_pos d n X p hp u (fun a i => X a i + u a i) (fun a i _ _ => rfl) k r (Finset.mem_range.mp hk) hr]]
  unfold grad
  rw [Finset.sum_congr rfl fun a ha => show (X (a + 1) (i + 1) + u' (a + 1) (i + 1)) * p.dN.e (a + 1) (r + 1) = c (i + 1) * p.dN.e (a + 1) (r + 1)
    + ∑ k ∈ Finset.range d, Q (i + 1) (k + 1) * ((X (a + 1) (k + 1) + u (a + 1) (k + 1)) * p.dN.e (a + 1) (r + 1)) by
      rw [show X (a + 1) (i + 1) + u' (a + 1) (i + 1) = _ from ht a i (Finset.mem_range.mp ha) hi, add_mul, Finset.sum_mul]; congr 1; exact Finset.sum_congr rfl fun k _ => by ring]
  rw [Finset.sum_add_distrib, ← Finset.mul_sum, hp.2.2.1 r hr, mul_zero, zero_add, Finset.sum_comm]
  exact Finset.sum_congr rfl fun k _ => by rw [Finset.mul_sum]

theorem eng2_congr (A B : Nat → Nat → ℝ) (h1 : A 1 1 = B 1 1) (h2 : A 2 2 = B 2 2) (h3 : A 1 2 = B 1 2) (h4 : A 2 1 = B 2 1) : engineering 2 A = engineering 2 B := by
  funext k
  simp only [engineering, if_neg (show ¬ (2 : Nat) = 3 by omega)]
  unfold eng2
  split <;> simp only [h1, h2, h3, h4]

theorem eng3_congr (A B : Nat → Nat → ℝ) (h1 : A 1 1 = B 1 1) (h2 : A 2 2 = B 2 2) (h3 : A 3 3 = B 3 3) (h4 : A 1 2 = B 1 2) (h5 : A 2 1 = B 2 1) (h6 : A 2 3 = B 2 3) (h7 : A 3 2 = B 3 2) (h8 : A 1 3 = B 1 3) (h9 : A 3 1 = B 3 1) :
    engineering 3 A = engineering 3 B := by
  funext k
  simp only [engineering, if_true]
  unfold eng3
  split <;> simp only [h1, h2, h3, h4, h5, h6, h7, h8, h9]

/-- The strains do not depend on the rotation. -/
theorem turned_green (d : Nat) (hd : d = 2 ∨ d = 3) (Q H H' : Nat → Nat → ℝ) (hQ : Rot d Q) (h : ∀ i r, i < d → r < d → defF d H' (i + 1) (r + 1) = ∑ k ∈ Finset.range d, Q (i + 1) (k + 1) * defF d H (k + 1) (r + 1)) :
    greenV d H' = greenV d H := by
  have hg : ∀ (H : Nat → Nat → ℝ) i j, i < d → j < d → green d H (i + 1) (j + 1) = 1 / 2 * (∑ k ∈ Finset.range d, defF d H (k + 1) (i + 1) * defF d H (k + 1) (j + 1) - if i = j then 1 else 0) := by
    intro H i j hi hj
    have e : ∀ k ∈ Finset.range d, defF d H (k + 1) (i + 1) * defF d H (k + 1) (j + 1) = (if k = i then (if i = j then 1 else 0) + H (i + 1) (j + 1) else 0) + (if k = j then H (j + 1) (i + 1) else 0) + H (k + 1) (i + 1) * H (k + 1) (j + 1) := by
      intro k hk
      have hk := Finset.mem_range.mp hk
      rw [defF_in d H k i hk hi, defF_in d H k j hk hj]
      by_cases h1 : k = i
      · subst h1
        by_cases h2 : k = j
        · subst h2; simp; ring
        · simp [h2]; ring
      · by_cases h2 : k = j
        · subst h2; simp [h1]; ring
        · simp [h1, h2]
    rw [Finset.sum_congr rfl e]
    simp only [Finset.sum_add_distrib, Finset.sum_ite_eq', Finset.mem_range, if_pos hi, if_pos hj]
    unfold green
    ring
  have hC : ∀ i j, i < d → j < d → green d H' (i + 1) (j + 1) = green d H (i + 1) (j + 1) := by
    intro i j hi hj
    rw [hg H' i j hi hj, hg H i j hi hj]
    congr 2
    rw [Finset.sum_congr rfl fun k hk => by rw [h k i (Finset.mem_range.mp hk) hi, h k j (Finset.mem_range.mp hk) hj, Finset.sum_mul_sum]]
    rw [Finset.sum_comm]
    rw [Finset.sum_congr rfl fun k hk => by
      rw [Finset.sum_comm, Finset.sum_congr rfl fun l hl => by
        rw [Finset.sum_congr rfl fun m _ => show Q (m + 1) (k + 1) * defF d H (k + 1) (i + 1) * (Q (m + 1) (l + 1) * defF d H (l + 1) (j + 1)) = defF d H (k + 1) (i + 1) * defF d H (l + 1) (j + 1) * (Q (m + 1) (k + 1) * Q (m + 1) (l + 1)) by ring,
          ← Finset.mul_sum, hQ.1 k l (Finset.mem_range.mp hk) (Finset.mem_range.mp hl)]]]
    refine Finset.sum_congr rfl fun k hk => ?_
    simp only [mul_ite, mul_one, mul_zero, Finset.sum_ite_eq, hk, if_true]
  have h11 := hC 0 0 (by omega) (by omega); have h12 := hC 0 1 (by omega) (by omega); have h21 := hC 1 0 (by omega) (by omega); have h22 := hC 1 1 (by omega) (by omega)
  simp only [zero_add, Nat.reduceAdd] at h11 h12 h21 h22
  rcases hd with hd | hd <;> subst hd
  · exact eng2_congr _ _ h11 h22 h12 h21
  · exact eng3_congr _ _ h11 h22 (hC 2 2 (by omega) (by omega)) h12 h21 (hC 1 2 (by omega) (by omega)) (hC 2 1 (by omega) (by omega)) (hC 0 2 (by omega) (by omega)) (hC 2 0 (by omega) (by omega))

/-- The loop over the integration points. -/
theorem contr_all (d n : Nat) {α : Type} (pts : List α) (step : α → (Nat → Nat → ℝ) → DMat ℝ × DVec ℝ → Res (DMat ℝ × DVec ℝ)) (W : α → (Nat → Nat → ℝ) → ℝ) (Q : α → (Nat → Nat → ℝ) → (Nat → Nat → ℝ) → ℝ)
    (u : Nat → Nat → ℝ) (h : ∀ p ∈ pts, Contr d n (step p) u (W p) (Q p)) (A : DMat ℝ) (b : DVec ℝ) (a1 : A.nr = d * n) (a2 : A.nc = d * n) (hb : b.n = d * n) :
    ∃ A' b', runAll (pts.map step) u (A, b) = .ok (A', b') ∧ A'.nr = d * n ∧ A'.nc = d * n ∧ b'.n = d * n ∧ (∀ x, b'.dot (dofVec d x) = b.dot (dofVec d x) - (pts.map fun p => W p x).sum) ∧
      ∀ x y, A'.bil (dofVec d x) (dofVec d y) = A.bil (dofVec d x) (dofVec d y) + (pts.map fun p => Q p x y).sum := by
  induction pts generalizing A b with
  | nil => exact ⟨A, b, rfl, a1, a2, hb, fun x => by simp, fun x y => by simp⟩
  | cons p l ih =>
    obtain ⟨g, g1, g2⟩ := h p (by simp)
    obtain ⟨A1, k1, k2, k3, k4⟩ := g2 A b a1 a2 hb
    obtain ⟨A2, b2, l1, l2, l3, l4, l5, l6⟩ := ih (fun p hp => h p (by simp [hp])) A1 (g b) k2 k3 (g1 b hb).1
    refine ⟨A2, b2, ?_, l2, l3, l4, fun x => ?_, fun x y => ?_⟩
    · simp only [List.map_cons, runAll, k1, Res.bind]
      exact l1
    · rw [l5, (g1 b hb).2]
      simp only [List.map_cons, List.sum_cons]
      ring
    · rw [l6, k4]
      simp only [List.map_cons, List.sum_cons]
      ring

theorem contr_congr (d n : Nat) (step step' : (Nat → Nat → ℝ) → DMat ℝ × DVec ℝ → Res (DMat ℝ × DVec ℝ)) (u : Nat → Nat → ℝ) (W W' : (Nat → Nat → ℝ) → ℝ) (Q Q' : (Nat → Nat → ℝ) → (Nat → Nat → ℝ) → ℝ)
    (hs : ∀ M, step u M = step' u M) (hW : ∀ x, W x = W' x) (hQ : ∀ x y, Q x y = Q' x y) (h : Contr d n step u W Q) : Contr d n step' u W' Q' := by
  obtain ⟨g, g1, g2⟩ := h
  refine ⟨g, fun b hb => ⟨(g1 b hb).1, fun x => by rw [(g1 b hb).2, hW]⟩, fun A b a1 a2 hb => ?_⟩
  obtain ⟨A', k1, k2, k3, k4⟩ := g2 A b a1 a2 hb
  exact ⟨A', by rw [← hs, k1], k2, k3, fun x y => by rw [k4, hQ]⟩

/-! ### Total Lagrangian formulation -/

/-- The first Piola-Kirchhoff stresses of second ones. -/
noncomputable def tlP (d : Nat) (tol : ℝ) (H : Nat → Nat → ℝ) (S : Nat → ℝ) (i r : Nat) : ℝ :=
  if zeroStrain tol (d * (d + 1) / 2) (greenV d H) then 0 else ∑ p ∈ Finset.range d, defF d H i (p + 1) * symT d false S (p + 1) r

theorem tl_piola (d : Nat) (hd : d = 2 ∨ d = 3) (n : Nat) (hn : 0 < n) (tol epsR : ℝ) (p : FPt ℝ) (mat : Mat ℝ) (hr : p.dN.nr = n) (hc : p.dN.nc = d) (u : Nat → Nat → ℝ) (C : DMat ℝ) (S : Nat → ℝ)
    (hm : mat (defF d (grad n u p.dN.e)) (greenV d (grad n u p.dN.e)) = .ok (C, S)) (hC : C.nc = d * (d + 1) / 2) :
    Contr d n (fun u M => tlPoint d false tol epsR mat ⟨d * n, dofVec d u⟩ p M) u
      (fun x => p.w * ∑ i ∈ Finset.range d, ∑ r ∈ Finset.range d, tlP d tol (grad n u p.dN.e) S (i + 1) (r + 1) * grad n x p.dN.e (i + 1) (r + 1))
      (fun x y => p.w * (∑ k ∈ Finset.range (d * (d + 1) / 2), ∑ l ∈ Finset.range (d * (d + 1) / 2),
          rateV d (grad n u p.dN.e) (grad n x p.dN.e) (k + 1) * C.e (k + 1) (l + 1) * rateV d (grad n u p.dN.e) (grad n y p.dN.e) (l + 1))
        + if zeroStrain tol (d * (d + 1) / 2) (greenV d (grad n u p.dN.e)) then 0 else
          p.w * ∑ i ∈ Finset.range d, ∑ j ∈ Finset.range d, symT d false S (i + 1) (j + 1) * ∑ k ∈ Finset.range d, grad n x p.dN.e (k + 1) (i + 1) * grad n y p.dN.e (k + 1) (j + 1)) := by
  refine contr_congr d n _ _ u _ _ _ _ (fun M => ?_) (fun x => ?_) (fun x y => rfl) (tl_contr d hd n hn tol epsR p (fun _ _ => .ok (C, S)) (fun _ => S) (fun _ => C) (fun _ => rfl) (fun _ => hC) hr hc u)
  · subst hr
    obtain ⟨B, hB, -⟩ := kinTL_ok d hd p epsR hn hc u
    unfold tlPoint
    rw [hB]
    simp only [Res.bind, hm]
  · by_cases hz : zeroStrain tol (d * (d + 1) / 2) (greenV d (grad n u p.dN.e)) = true
    · simp only [hz, if_true, tlP, zero_mul, Finset.sum_const_zero, mul_zero]
    · simp only [tlP, if_neg hz]
      congr 1
      unfold rateV
      rw [eng_work d hd (fun a b => ∑ k ∈ Finset.range d, defF d (grad n u p.dN.e) (k + 1) a * grad n x p.dN.e (k + 1) b) S]
      simp only [Finset.mul_sum, Finset.sum_mul]
      have e : ∀ a b, ∑ k ∈ Finset.range d, symT d false S (a + 1) (b + 1) * (defF d (grad n u p.dN.e) (k + 1) (a + 1) * grad n x p.dN.e (k + 1) (b + 1))
          = ∑ k ∈ Finset.range d, defF d (grad n u p.dN.e) (k + 1) (a + 1) * symT d false S (a + 1) (b + 1) * grad n x p.dN.e (k + 1) (b + 1) := fun a b => Finset.sum_congr rfl fun k _ => by ring
      simp only [e]
      rw [Finset.sum_congr rfl fun a _ => Finset.sum_comm, Finset.sum_comm]
      refine Finset.sum_congr rfl fun k _ => ?_
      rw [Finset.sum_comm]

theorem tlP_symm (d : Nat) (tol : ℝ) (H : Nat → Nat → ℝ) (S : Nat → ℝ) (i j : Nat) :
    ∑ r ∈ Finset.range d, tlP d tol H S i (r + 1) * defF d H j (r + 1) = ∑ r ∈ Finset.range d, tlP d tol H S j (r + 1) * defF d H i (r + 1) := by
  by_cases hz : zeroStrain tol (d * (d + 1) / 2) (greenV d H) = true
  · simp only [tlP, hz, if_true, zero_mul]
  · simp only [tlP, if_neg hz, Finset.sum_mul]
    rw [Finset.sum_comm]
    refine Finset.sum_congr rfl fun p _ => Finset.sum_congr rfl fun r _ => ?_
    rw [symT_symm d false S]
    ring

theorem tl_element (d : Nat) (hd : d = 2 ∨ d = 3) (n : Nat) (hn : 0 < n) (tol epsR : ℝ) (pts : List (FPt ℝ × Mat ℝ)) (u : Nat → Nat → ℝ) (C : FPt ℝ × Mat ℝ → DMat ℝ) (S : FPt ℝ × Mat ℝ → Nat → ℝ)
    (hp : ∀ p ∈ pts, p.1.dN.nr = n ∧ p.1.dN.nc = d ∧ p.2 (defF d (grad n u p.1.dN.e)) (greenV d (grad n u p.1.dN.e)) = .ok (C p, S p) ∧ (C p).nc = d * (d + 1) / 2) :
    ∃ A f, tlElement d false tol epsR ⟨d * n, dofVec d u⟩ pts (DMat.zero (d * n) (d * n), DVec.zero (d * n)) = .ok (A, f) ∧ A.nr = d * n ∧ A.nc = d * n ∧
      Piola d n pts (fun p => p.1) (fun p => tlP d tol (grad n u p.1.dN.e) (S p)) f ∧
      ∀ x y, A.bil (dofVec d x) (dofVec d y) = (pts.map fun p => p.1.w * (∑ k ∈ Finset.range (d * (d + 1) / 2), ∑ l ∈ Finset.range (d * (d + 1) / 2),
          rateV d (grad n u p.1.dN.e) (grad n x p.1.dN.e) (k + 1) * (C p).e (k + 1) (l + 1) * rateV d (grad n u p.1.dN.e) (grad n y p.1.dN.e) (l + 1))
        + if zeroStrain tol (d * (d + 1) / 2) (greenV d (grad n u p.1.dN.e)) then 0 else
          p.1.w * ∑ i ∈ Finset.range d, ∑ j ∈ Finset.range d, symT d false (S p) (i + 1) (j + 1) * ∑ k ∈ Finset.range d, grad n x p.1.dN.e (k + 1) (i + 1) * grad n y p.1.dN.e (k + 1) (j + 1)).sum := by
  obtain ⟨A, f, e1, e2, e3, e4, e5, e6⟩ := contr_all d n pts (fun p u M => tlPoint d false tol epsR p.2 ⟨d * n, dofVec d u⟩ p.1 M) _ _ u
    (fun p hpm => tl_piola d hd n hn tol epsR p.1 p.2 (hp p hpm).1 (hp p hpm).2.1 u (C p) (S p) (hp p hpm).2.2.1 (hp p hpm).2.2.2) (DMat.zero (d * n) (d * n)) (DVec.zero (d * n)) rfl rfl rfl
  refine ⟨A, f, by rw [tlElement_run, e1], e2, e3, ⟨e4, fun x => ?_⟩, fun x y => ?_⟩
  · rw [e5, zero_dot, zero_sub]
  · rw [e6]
    simp [DMat.bil, DMat.zero]

/-- **C122**, total Lagrangian elements: for all materials, weights and displacements, the internal forces of an isoparametric element have no resultant and no moment in the deformed configuration. -/
theorem C122_total_balance (d : Nat) (hd : d = 2 ∨ d = 3) (n : Nat) (hn : 0 < n) (tol epsR : ℝ) (pts : List (FPt ℝ × Mat ℝ)) (X u : Nat → Nat → ℝ)
    (hp : ∀ p ∈ pts, Iso d n X p.1 ∧ ∃ C S, p.2 (defF d (grad n u p.1.dN.e)) (greenV d (grad n u p.1.dN.e)) = .ok (C, S) ∧ C.nc = d * (d + 1) / 2) :
    ∃ A f, tlElement d false tol epsR ⟨d * n, dofVec d u⟩ pts (DMat.zero (d * n) (d * n), DVec.zero (d * n)) = .ok (A, f) ∧ f.n = d * n ∧ Balanced d n (fun a i => X a i + u a i) f := by
  classical
  obtain ⟨C, hC⟩ : ∃ C : FPt ℝ × Mat ℝ → DMat ℝ, ∀ p ∈ pts, ∃ S, p.2 (defF d (grad n u p.1.dN.e)) (greenV d (grad n u p.1.dN.e)) = .ok (C p, S) ∧ (C p).nc = d * (d + 1) / 2 :=
    ⟨fun p => if h : p ∈ pts then (hp p h).2.choose else DMat.zero 0 0, fun p h => by simp only [dif_pos h]; exact (hp p h).2.choose_spec⟩
  obtain ⟨S, hS⟩ : ∃ S : FPt ℝ × Mat ℝ → Nat → ℝ, ∀ p ∈ pts, p.2 (defF d (grad n u p.1.dN.e)) (greenV d (grad n u p.1.dN.e)) = .ok (C p, S p) ∧ (C p).nc = d * (d + 1) / 2 :=
    ⟨fun p => if h : p ∈ pts then (hC p h).choose else fun _ => 0, fun p h => by simp only [dif_pos h]; exact (hC p h).choose_spec⟩
  obtain ⟨A, f, e1, -, -, e4, -⟩ := tl_element d hd n hn tol epsR pts u C S fun p h => ⟨(hp p h).1.1, (hp p h).1.2.1, (hS p h).1, (hS p h).2⟩
  exact ⟨A, f, e1, e4.1, balanced_of_piola d n pts _ _ f e4 X u (fun p h => (hp p h).1) fun p h i j _ _ => tlP_symm d tol _ _ (i + 1) (j + 1)⟩

theorem pick2 {α β γ : Type} [Inhabited β] [Inhabited γ] (pts : List α) (R : α → β → γ → Prop) (h : ∀ p ∈ pts, ∃ b c, R p b c) : ∃ (B : α → β) (C : α → γ), ∀ p ∈ pts, R p (B p) (C p) := by
  classical
  have h1 : ∀ p, ∃ b : β, p ∈ pts → ∃ c, R p b c := fun p => by
    by_cases hp : p ∈ pts
    · obtain ⟨b, hb⟩ := h p hp; exact ⟨b, fun _ => hb⟩
    · exact ⟨default, fun h => absurd h hp⟩
  choose B hB using h1
  have h2 : ∀ p, ∃ c : γ, p ∈ pts → R p (B p) c := fun p => by
    by_cases hp : p ∈ pts
    · obtain ⟨c, hc⟩ := hB p hp; exact ⟨c, fun _ => hc⟩
    · exact ⟨default, fun h => absurd h hp⟩
  choose C hC using h2
  exact ⟨B, C, hC⟩

/-- The matrix `A'` is the matrix `A` turned by `Q`. -/
def TurnedMat (d n : Nat) (Q : Nat → Nat → ℝ) (A A' : DMat ℝ) : Prop :=
  ∀ a i b j, a < n → i < d → b < n → j < d → A'.e (d * a + i + 1) (d * b + j + 1) = ∑ k ∈ Finset.range d, ∑ l ∈ Finset.range d, Q (i + 1) (k + 1) * A.e (d * a + k + 1) (d * b + l + 1) * Q (j + 1) (l + 1)

theorem bil_nodes (d n : Nat) (A : DMat ℝ) (h1 : A.nr = d * n) (h2 : A.nc = d * n) (x y : Nat → Nat → ℝ) :
    A.bil (dofVec d x) (dofVec d y) = ∑ a ∈ Finset.range n, ∑ i ∈ Finset.range d, ∑ b ∈ Finset.range n, ∑ j ∈ Finset.range d, x (a + 1) (i + 1) * A.e (d * a + i + 1) (d * b + j + 1) * y (b + 1) (j + 1) := by
  unfold DMat.bil
  rw [h1, h2, sum_range_mul]
  refine Finset.sum_congr rfl fun a _ => Finset.sum_congr rfl fun i hi => ?_
  rw [sum_range_mul, dofVec_eq d x a i (Finset.mem_range.mp hi)]
  exact Finset.sum_congr rfl fun b _ => Finset.sum_congr rfl fun j hj => by rw [dofVec_eq d y b j (Finset.mem_range.mp hj)]

/-- A nodal field in a single node. -/
def at1 (a : Nat) (q : Nat → ℝ) (b k : Nat) : ℝ := if b = a + 1 then q k else 0

theorem bil_at (d n : Nat) (A : DMat ℝ) (h1 : A.nr = d * n) (h2 : A.nc = d * n) (a : Nat) (ha : a < n) (q : Nat → ℝ) (y : Nat → Nat → ℝ) :
    A.bil (dofVec d (at1 a q)) (dofVec d y) = ∑ i ∈ Finset.range d, ∑ b ∈ Finset.range n, ∑ j ∈ Finset.range d, q (i + 1) * A.e (d * a + i + 1) (d * b + j + 1) * y (b + 1) (j + 1) := by
  rw [bil_nodes d n A h1 h2, Finset.sum_eq_single a]
  · simp [at1]
  · intro b _ hb; simp [at1, hb]
  · intro hk; exact absurd (Finset.mem_range.mpr ha) hk

theorem bil_at2 (d n : Nat) (A : DMat ℝ) (h1 : A.nr = d * n) (h2 : A.nc = d * n) (a b : Nat) (ha : a < n) (hb : b < n) (q r : Nat → ℝ) :
    A.bil (dofVec d (at1 a q)) (dofVec d (at1 b r)) = ∑ i ∈ Finset.range d, ∑ j ∈ Finset.range d, q (i + 1) * A.e (d * a + i + 1) (d * b + j + 1) * r (j + 1) := by
  rw [bil_at d n A h1 h2 a ha]
  refine Finset.sum_congr rfl fun i _ => ?_
  rw [Finset.sum_eq_single b]
  · simp [at1]
  · intro c _ hc; simp [at1, hc]
  · intro hk; exact absurd (Finset.mem_range.mpr hb) hk

theorem dot_at (d n : Nat) (f : DVec ℝ) (hf : f.n = d * n) (a : Nat) (ha : a < n) (q : Nat → ℝ) : f.dot (dofVec d (at1 a q)) = ∑ i ∈ Finset.range d, q (i + 1) * f.e (d * a + i + 1) := by
  rw [dot_nodes d n f hf, Finset.sum_eq_single a]
  · simp [at1]
  · intro b _ hb; simp [at1, hb]
  · intro hk; exact absurd (Finset.mem_range.mpr ha) hk

theorem grad_at (n a : Nat) (ha : a < n) (q : Nat → ℝ) (g : Nat → Nat → ℝ) (i r : Nat) : grad n (at1 a q) g i r = q i * g (a + 1) r := by
  unfold grad
  rw [Finset.sum_eq_single a]
  · simp [at1]
  · intro b _ hb; simp [at1, hb]
  · intro hk; exact absurd (Finset.mem_range.mpr ha) hk

/-- Components of the unit vector. -/
def unit1 (i k : Nat) : ℝ := if k = i + 1 then 1 else 0

theorem sum_unit (d i : Nat) (hi : i < d) (g : Nat → ℝ) : ∑ k ∈ Finset.range d, unit1 i (k + 1) * g k = g i := by
  simp [unit1, hi]

theorem turned_rate (d : Nat) (hd : d = 2 ∨ d = 3) (Q H H' G G' : Nat → Nat → ℝ) (h : ∀ i r, i < d → r < d → defF d H' (i + 1) (r + 1) = ∑ k ∈ Finset.range d, Q (i + 1) (k + 1) * defF d H (k + 1) (r + 1))
    (hG : ∀ k r, k < d → r < d → G (k + 1) (r + 1) = ∑ i ∈ Finset.range d, Q (i + 1) (k + 1) * G' (i + 1) (r + 1)) : rateV d H' G' = rateV d H G := by
  have e : ∀ p q, p < d → q < d → ∑ k ∈ Finset.range d, defF d H' (k + 1) (p + 1) * G' (k + 1) (q + 1) = ∑ k ∈ Finset.range d, defF d H (k + 1) (p + 1) * G (k + 1) (q + 1) := by
    intro p q hp hq
    rw [Finset.sum_congr rfl fun k hk => by rw [h k p (Finset.mem_range.mp hk) hp, Finset.sum_mul], Finset.sum_comm]
    refine Finset.sum_congr rfl fun k hk => ?_
    rw [hG k q (Finset.mem_range.mp hk) hq, Finset.mul_sum]
    exact Finset.sum_congr rfl fun i _ => by ring
  unfold rateV
  rcases hd with hd | hd <;> subst hd
  · exact eng2_congr _ _ (e 0 0 (by omega) (by omega)) (e 1 1 (by omega) (by omega)) (e 0 1 (by omega) (by omega)) (e 1 0 (by omega) (by omega))
  · exact eng3_congr _ _ (e 0 0 (by omega) (by omega)) (e 1 1 (by omega) (by omega)) (e 2 2 (by omega) (by omega)) (e 0 1 (by omega) (by omega)) (e 1 0 (by omega) (by omega)) (e 1 2 (by omega) (by omega)) (e 2 1 (by omega) (by omega))
      (e 0 2 (by omega) (by omega)) (e 2 0 (by omega) (by omega))

/-- **C122**, total Lagrangian elements: turning and moving a deformed element turns its internal forces and its stiffness matrix, for all materials whose second Piola-Kirchhoff stresses and tangent only depend on the strains. -/
theorem C122_total_turn (d : Nat) (hd : d = 2 ∨ d = 3) (n : Nat) (hn : 0 < n) (tol epsR : ℝ) (pts : List (FPt ℝ × Mat ℝ)) (X u u' Q : Nat → Nat → ℝ) (c : Nat → ℝ) (hQ : Rot d Q)
    (ht : Turned d n Q c (fun a i => X a i + u a i) (fun a i => X a i + u' a i))
    (hp : ∀ p ∈ pts, Iso d n X p.1 ∧ ∃ C S, (∀ F, p.2 F (greenV d (grad n u p.1.dN.e)) = .ok (C, S)) ∧ C.nc = d * (d + 1) / 2) :
    ∃ A f A' f', tlElement d false tol epsR ⟨d * n, dofVec d u⟩ pts (DMat.zero (d * n) (d * n), DVec.zero (d * n)) = .ok (A, f) ∧
      tlElement d false tol epsR ⟨d * n, dofVec d u'⟩ pts (DMat.zero (d * n) (d * n), DVec.zero (d * n)) = .ok (A', f') ∧ TurnedForce d n Q f f' ∧ TurnedMat d n Q A A' := by
  have : Inhabited (DMat ℝ) := ⟨DMat.zero 0 0⟩
  obtain ⟨C, S, hS⟩ := pick2 pts (fun p C S => (∀ F, p.2 F (greenV d (grad n u p.1.dN.e)) = .ok (C, S)) ∧ C.nc = d * (d + 1) / 2) fun p h => (hp p h).2
  have hF := fun p h => turned_F d n X p (hp := h) Q c u u' ht
  have hE : ∀ p ∈ pts, greenV d (grad n u' p.1.dN.e) = greenV d (grad n u p.1.dN.e) := fun p h => turned_green d hd Q _ _ hQ (hF p.1 (hp p h).1)
  obtain ⟨A, f, e1, e2, e3, e4, e5⟩ := tl_element d hd n hn tol epsR pts u C S fun p h => ⟨(hp p h).1.1, (hp p h).1.2.1, (hS p h).1 _, (hS p h).2⟩
  obtain ⟨A', f', e1', e2', e3', e4', e5'⟩ := tl_element d hd n hn tol epsR pts u' C S fun p h => ⟨(hp p h).1.1, (hp p h).1.2.1, by rw [hE p h]; exact (hS p h).1 _, (hS p h).2⟩
  refine ⟨A, f, A', f', e1, e1', turned_of_piola d n pts _ _ _ f f' e4 e4' Q fun p h i r hi hr => ?_, fun a i b j ha hi hb hj => ?_⟩
  · unfold tlP
    rw [hE p h]
    by_cases hz : zeroStrain tol (d * (d + 1) / 2) (greenV d (grad n u p.1.dN.e)) = true
    · simp only [hz, if_true, mul_zero, Finset.sum_const_zero]
    · simp only [if_neg hz, Finset.mul_sum]
      rw [Finset.sum_comm]
      refine Finset.sum_congr rfl fun k hk => ?_
      rw [hF p.1 (hp p h).1 i k hi (Finset.mem_range.mp hk), Finset.sum_mul]
      exact Finset.sum_congr rfl fun l _ => by ring
  · have l' := bil_at2 d n A' e2' e3' a b ha hb (unit1 i) (unit1 j)
    have l := bil_at2 d n A e2 e3 a b ha hb (Q (i + 1)) (Q (j + 1))
    have s1 : ∑ k ∈ Finset.range d, ∑ l ∈ Finset.range d, unit1 i (k + 1) * A'.e (d * a + k + 1) (d * b + l + 1) * unit1 j (l + 1) = A'.e (d * a + i + 1) (d * b + j + 1) := by
      rw [← sum_unit d i hi fun k => A'.e (d * a + k + 1) (d * b + j + 1)]
      refine Finset.sum_congr rfl fun k _ => ?_
      rw [← sum_unit d j hj fun l => A'.e (d * a + k + 1) (d * b + l + 1), Finset.mul_sum]
      exact Finset.sum_congr rfl fun l _ => by ring
    rw [s1] at l'
    rw [← l', ← l, e5, e5']
    congr 1
    refine List.map_congr_left fun p h => ?_
    have hG : ∀ (a i : Nat), a < n → i < d → ∀ k r, k < d → r < d → grad n (at1 a (Q (i + 1))) p.1.dN.e (k + 1) (r + 1) = ∑ m ∈ Finset.range d, Q (m + 1) (k + 1) * grad n (at1 a (unit1 i)) p.1.dN.e (m + 1) (r + 1) := by
      intro a i ha hi k r hk hr
      simp only [grad_at n a ha]
      rw [Finset.sum_congr rfl fun m _ => show Q (m + 1) (k + 1) * (unit1 i (m + 1) * p.1.dN.e (a + 1) (r + 1)) = unit1 i (m + 1) * (Q (m + 1) (k + 1) * p.1.dN.e (a + 1) (r + 1)) by ring, sum_unit d i hi]
    rw [hE p h, turned_rate d hd Q _ _ _ _ (hF p.1 (hp p h).1) (hG a i ha hi), turned_rate d hd Q _ _ _ _ (hF p.1 (hp p h).1) (hG b j hb hj)]
    congr 1
    have hQ2 : ∀ k l, k < d → l < d → ∑ m ∈ Finset.range d, Q (k + 1) (m + 1) * Q (l + 1) (m + 1) = if k = l then 1 else 0 := by
      have m1 : (lead d Q).transpose * lead d Q = 1 := by
        ext k l
        rw [Matrix.mul_apply, Matrix.one_apply]
        have := hQ.1 k l k.2 l.2
        rw [← Fin.sum_univ_eq_sum_range (fun m => Q (m + 1) (k + 1) * Q (m + 1) (l + 1)) d] at this
        simp only [Fin.ext_iff]
        exact this
      have m2 := mul_eq_one_comm.mp m1
      intro k l hk hl
      have := congrFun (congrFun m2 ⟨k, hk⟩) ⟨l, hl⟩
      rw [Matrix.mul_apply, Matrix.one_apply] at this
      rw [← Fin.sum_univ_eq_sum_range (fun m => Q (k + 1) (m + 1) * Q (l + 1) (m + 1)) d]
      simp only [Fin.ext_iff] at this
      exact this
    have hgg : ∀ p' q', ∑ k ∈ Finset.range d, grad n (at1 a (unit1 i)) p.1.dN.e (k + 1) (p' + 1) * grad n (at1 b (unit1 j)) p.1.dN.e (k + 1) (q' + 1)
        = ∑ k ∈ Finset.range d, grad n (at1 a (Q (i + 1))) p.1.dN.e (k + 1) (p' + 1) * grad n (at1 b (Q (j + 1))) p.1.dN.e (k + 1) (q' + 1) := by
      intro p' q'
      simp only [grad_at n a ha, grad_at n b hb]
      have v1 : ∑ m ∈ Finset.range d, unit1 i (m + 1) * p.1.dN.e (a + 1) (p' + 1) * (unit1 j (m + 1) * p.1.dN.e (b + 1) (q' + 1)) = (if i = j then 1 else 0) * (p.1.dN.e (a + 1) (p' + 1) * p.1.dN.e (b + 1) (q' + 1)) := by
        rw [Finset.sum_congr rfl fun m _ => show unit1 i (m + 1) * p.1.dN.e (a + 1) (p' + 1) * (unit1 j (m + 1) * p.1.dN.e (b + 1) (q' + 1)) = unit1 i (m + 1) * (unit1 j (m + 1) * (p.1.dN.e (a + 1) (p' + 1) * p.1.dN.e (b + 1) (q' + 1))) by ring, sum_unit d i hi]
        simp [unit1]
      have v2 : ∑ m ∈ Finset.range d, Q (i + 1) (m + 1) * p.1.dN.e (a + 1) (p' + 1) * (Q (j + 1) (m + 1) * p.1.dN.e (b + 1) (q' + 1)) = (if i = j then 1 else 0) * (p.1.dN.e (a + 1) (p' + 1) * p.1.dN.e (b + 1) (q' + 1)) := by
        rw [← hQ2 i j hi hj, Finset.sum_mul]
        exact Finset.sum_congr rfl fun m _ => by ring
      rw [v1, v2]
    simp only [hgg]

theorem green_of_rot (d : Nat) (hd : d = 2 ∨ d = 3) (Q H : Nat → Nat → ℝ) (hQ : Rot d Q) (h : ∀ i r, i < d → r < d → defF d H (i + 1) (r + 1) = Q (i + 1) (r + 1)) : greenV d H = fun _ => 0 := by
  have h0 : greenV d (fun _ _ => 0) = fun _ => 0 := by
    funext k
    rcases hd with hd | hd <;> subst hd
    · simp only [greenV, engineering, if_neg (show ¬ (2 : Nat) = 3 by omega)]
      unfold eng2
      split <;> simp [green]
    · simp only [greenV, engineering, if_true]
      unfold eng3
      split <;> simp [green]
  rw [turned_green d hd Q (fun _ _ => 0) H hQ fun i r hi hr => ?_, h0]
  rw [h i r hi hr, Finset.sum_congr rfl fun k hk => by rw [defF_in d _ k r (Finset.mem_range.mp hk) hr, add_zero]]
  simp [hr]

/-- A rigid motion of the element is the rotation of its reference configuration. -/
theorem rigid_F (d n : Nat) (X : Nat → Nat → ℝ) (p : FPt ℝ) (hp : Iso d n X p) (Q : Nat → Nat → ℝ) (c : Nat → ℝ) (u : Nat → Nat → ℝ) (ht : Turned d n Q c X (fun a i => X a i + u a i)) (i r : Nat) (hi : i < d) (hr : r < d) :
    defF d (grad n u p.dN.e) (i + 1) (r + 1) = Q (i + 1) (r + 1) := by
  rw [turned_F d n X p hp Q c (fun _ _ => 0) u (fun a i ha hi => by simpa using ht a i ha hi) i r hi hr]
  rw [Finset.sum_congr rfl fun k hk => show Q (i + 1) (k + 1) * defF d (grad n (fun _ _ => 0) p.dN.e) (k + 1) (r + 1) = if k = r then Q (i + 1) (r + 1) else 0 by
    rw [defF_in d _ k r (Finset.mem_range.mp hk) hr]
    by_cases h : k = r
    · subst h; simp [grad]
    · simp [grad, h]]
  simp [hr]

theorem zero_forces (d n : Nat) (f : DVec ℝ) (hf : f.n = d * n) (h : ∀ x, f.dot (dofVec d x) = 0) (a i : Nat) (ha : a < n) (hi : i < d) : f.e (d * a + i + 1) = 0 := by
  have := h (at1 a (unit1 i))
  rwa [dot_at d n f hf a ha, sum_unit d i hi fun k => f.e (d * a + k + 1)] at this

/-- **C122**, total Lagrangian elements: an element in rigid motion has no internal forces, whatever its material. -/
theorem C122_total_rigid (d : Nat) (hd : d = 2 ∨ d = 3) (n : Nat) (hn : 0 < n) (tol epsR : ℝ) (htol : 0 ≤ tol) (pts : List (FPt ℝ × Mat ℝ)) (X u Q : Nat → Nat → ℝ) (c : Nat → ℝ) (hQ : Rot d Q)
    (ht : Turned d n Q c X (fun a i => X a i + u a i)) (hp : ∀ p ∈ pts, Iso d n X p.1 ∧ ∃ C S, p.2 (defF d (grad n u p.1.dN.e)) (fun _ => 0) = .ok (C, S) ∧ C.nc = d * (d + 1) / 2) :
    ∃ A f, tlElement d false tol epsR ⟨d * n, dofVec d u⟩ pts (DMat.zero (d * n) (d * n), DVec.zero (d * n)) = .ok (A, f) ∧ ∀ a i, a < n → i < d → f.e (d * a + i + 1) = 0 := by
  have : Inhabited (DMat ℝ) := ⟨DMat.zero 0 0⟩
  have hE : ∀ p ∈ pts, greenV d (grad n u p.1.dN.e) = fun _ => 0 := fun p h => green_of_rot d hd Q _ hQ (rigid_F d n X p.1 (hp p h).1 Q c u ht)
  obtain ⟨C, S, hS⟩ := pick2 pts (fun p C S => p.2 (defF d (grad n u p.1.dN.e)) (fun _ => 0) = .ok (C, S) ∧ C.nc = d * (d + 1) / 2) fun p h => (hp p h).2
  obtain ⟨A, f, e1, -, -, e4, -⟩ := tl_element d hd n hn tol epsR pts u C S fun p h => ⟨(hp p h).1.1, (hp p h).1.2.1, by rw [hE p h]; exact (hS p h).1, (hS p h).2⟩
  refine ⟨A, f, e1, zero_forces d n f e4.1 fun x => ?_⟩
  rw [e4.2, sum_zero_of, neg_zero]
  intro p h
  have : zeroStrain tol (d * (d + 1) / 2) (greenV d (grad n u p.1.dN.e)) = true := by
    rw [zeroStrain_iff, hE p h]
    intro i _ _
    simpa using htol
  simp only [tlP, this, if_true, zero_mul, Finset.sum_const_zero, mul_zero]

/-- The velocities of a rotation in the plane of two axes. -/
def spin (i j : Nat) (y : Nat → Nat → ℝ) (a k : Nat) : ℝ := (if k = j then y a i else 0) - (if k = i then y a j else 0)

theorem grad_spin (n i j : Nat) (y g : Nat → Nat → ℝ) (k r : Nat) : grad n (spin i j y) g k r = (if k = j then grad n y g i r else 0) - (if k = i then grad n y g j r else 0) := by
  unfold grad spin
  simp only [sub_mul, Finset.sum_sub_distrib]
  congr 1
  · split_ifs <;> simp
  · split_ifs <;> simp

theorem sum_spin (d i j : Nat) (hi : i < d) (hj : j < d) (s : Nat → ℝ) (a b : ℝ) :
    ∑ k ∈ Finset.range d, s k * ((if k + 1 = j + 1 then a else 0) - (if k + 1 = i + 1 then b else 0)) = s j * a - s i * b := by
  simp [mul_sub, Finset.sum_sub_distrib, hi, hj]

theorem rate_spin (d : Nat) (hd : d = 2 ∨ d = 3) (H G : Nat → Nat → ℝ) (i j : Nat) (hi : i < d) (hj : j < d)
    (hG : ∀ k r, k < d → r < d → G (k + 1) (r + 1) = (if k + 1 = j + 1 then defF d H (i + 1) (r + 1) else 0) - (if k + 1 = i + 1 then defF d H (j + 1) (r + 1) else 0)) : rateV d H G = fun _ => 0 := by
  have e : ∀ p q, p < d → q < d → ∑ k ∈ Finset.range d, defF d H (k + 1) (p + 1) * G (k + 1) (q + 1) = defF d H (j + 1) (p + 1) * defF d H (i + 1) (q + 1) - defF d H (i + 1) (p + 1) * defF d H (j + 1) (q + 1) := by
    intro p q hp hq
    rw [Finset.sum_congr rfl fun k hk => by rw [hG k q (Finset.mem_range.mp hk) hq], sum_spin d i j hi hj]
  unfold rateV
  funext m
  rcases hd with hd | hd <;> subst hd
  · have e11 := e 0 0 (by omega) (by omega); have e22 := e 1 1 (by omega) (by omega); have e12 := e 0 1 (by omega) (by omega); have e21 := e 1 0 (by omega) (by omega)
    simp only [zero_add, Nat.reduceAdd] at e11 e22 e12 e21
    simp only [engineering, if_neg (show ¬ (2 : Nat) = 3 by omega)]
    unfold eng2
    split <;> simp only [e11, e22, e12, e21] <;> ring
  · have e11 := e 0 0 (by omega) (by omega); have e22 := e 1 1 (by omega) (by omega); have e12 := e 0 1 (by omega) (by omega); have e21 := e 1 0 (by omega) (by omega); have e33 := e 2 2 (by omega) (by omega)
    have e13 := e 0 2 (by omega) (by omega); have e31 := e 2 0 (by omega) (by omega); have e23 := e 1 2 (by omega) (by omega); have e32 := e 2 1 (by omega) (by omega)
    simp only [zero_add, Nat.reduceAdd] at e11 e22 e12 e21 e33 e13 e31 e23 e32
    simp only [engineering, if_true]
    unfold eng3
    split <;> simp only [e11, e22, e12, e21, e33, e13, e31, e23, e32] <;> ring

theorem grad_const (n : Nat) (k : Nat) (g : Nat → Nat → ℝ) (r : Nat) (h : ∑ a ∈ Finset.range n, g (a + 1) r = 0) (q : Nat → ℝ) : grad n (fun _ => q) g k r = 0 := by
  unfold grad
  rw [← Finset.mul_sum, h, mul_zero]

/-- **C122**, total Lagrangian elements: the stiffness matrix gives no forces in a translation, and turns the internal forces in a rotation of the deformed element (in the plane of the axes `i` and `j`), for every material. -/
theorem C122_total_stiffness (d : Nat) (hd : d = 2 ∨ d = 3) (n : Nat) (hn : 0 < n) (tol epsR : ℝ) (pts : List (FPt ℝ × Mat ℝ)) (X u : Nat → Nat → ℝ)
    (hp : ∀ p ∈ pts, Iso d n X p.1 ∧ ∃ C S, p.2 (defF d (grad n u p.1.dN.e)) (greenV d (grad n u p.1.dN.e)) = .ok (C, S) ∧ C.nc = d * (d + 1) / 2) :
    ∃ A f, tlElement d false tol epsR ⟨d * n, dofVec d u⟩ pts (DMat.zero (d * n) (d * n), DVec.zero (d * n)) = .ok (A, f) ∧
      ∀ a k i, a < n → k < d → i < d → ∑ b ∈ Finset.range n, A.e (d * a + k + 1) (d * b + i + 1) = 0 ∧
        ∀ j, j < d → ∑ b ∈ Finset.range n, (A.e (d * a + k + 1) (d * b + j + 1) * (X (b + 1) (i + 1) + u (b + 1) (i + 1)) - A.e (d * a + k + 1) (d * b + i + 1) * (X (b + 1) (j + 1) + u (b + 1) (j + 1)))
          = (if k = i then f.e (d * a + j + 1) else 0) - (if k = j then f.e (d * a + i + 1) else 0) := by
  have : Inhabited (DMat ℝ) := ⟨DMat.zero 0 0⟩
  obtain ⟨C, S, hS⟩ := pick2 pts (fun p C S => p.2 (defF d (grad n u p.1.dN.e)) (greenV d (grad n u p.1.dN.e)) = .ok (C, S) ∧ C.nc = d * (d + 1) / 2) fun p h => (hp p h).2
  obtain ⟨A, f, e1, e2, e3, e4, e5⟩ := tl_element d hd n hn tol epsR pts u C S fun p h => ⟨(hp p h).1.1, (hp p h).1.2.1, (hS p h).1, (hS p h).2⟩
  refine ⟨A, f, e1, fun a k i ha hk hi => ⟨?_, fun j hj => ?_⟩⟩
  · have h := bil_at d n A e2 e3 a ha (unit1 k) (fun _ => unit1 i)
    have s1 : ∑ m ∈ Finset.range d, ∑ b ∈ Finset.range n, ∑ l ∈ Finset.range d, unit1 k (m + 1) * A.e (d * a + m + 1) (d * b + l + 1) * unit1 i (l + 1) = ∑ b ∈ Finset.range n, A.e (d * a + k + 1) (d * b + i + 1) := by
      rw [← sum_unit d k hk fun m => ∑ b ∈ Finset.range n, A.e (d * a + m + 1) (d * b + i + 1)]
      refine Finset.sum_congr rfl fun m _ => ?_
      rw [Finset.mul_sum]
      refine Finset.sum_congr rfl fun b _ => ?_
      rw [← sum_unit d i hi fun l => A.e (d * a + m + 1) (d * b + l + 1), Finset.mul_sum]
      exact Finset.sum_congr rfl fun l _ => by ring
    rw [s1] at h
    rw [← h, e5, sum_zero_of]
    intro p hpm
    have g0 : ∀ k r, r < d → grad n (fun _ => unit1 i) p.1.dN.e k (r + 1) = 0 := fun k r hr => grad_const n k _ _ ((hp p hpm).1.2.2.1 r hr) _
    have r0 : rateV d (grad n u p.1.dN.e) (grad n (fun _ => unit1 i) p.1.dN.e) = fun _ => 0 := by
      have e : ∀ q, q < d → ∀ p', ∑ k ∈ Finset.range d, defF d (grad n u p.1.dN.e) (k + 1) p' * grad n (fun _ => unit1 i) p.1.dN.e (k + 1) (q + 1) = 0 := fun q hq p' => Finset.sum_eq_zero fun k _ => by rw [g0 _ q hq, mul_zero]
      unfold rateV
      funext m
      rcases hd with hd | hd <;> subst hd
      · have e1 := e 0 (by omega); have e2 := e 1 (by omega)
        simp only [zero_add, Nat.reduceAdd] at e1 e2
        simp only [engineering, if_neg (show ¬ (2 : Nat) = 3 by omega)]
        unfold eng2
        split <;> simp only [e1, e2, add_zero]
      · have e1 := e 0 (by omega); have e2 := e 1 (by omega); have e3 := e 2 (by omega)
        simp only [zero_add, Nat.reduceAdd] at e1 e2 e3
        simp only [engineering, if_true]
        unfold eng3
        split <;> simp only [e1, e2, e3, add_zero]
    rw [r0]
    have s0 : ∑ i' ∈ Finset.range d, ∑ j ∈ Finset.range d, symT d false (S p) (i' + 1) (j + 1) * ∑ k' ∈ Finset.range d, grad n (at1 a (unit1 k)) p.1.dN.e (k' + 1) (i' + 1) * grad n (fun _ => unit1 i) p.1.dN.e (k' + 1) (j + 1) = 0 :=
      Finset.sum_eq_zero fun i' _ => Finset.sum_eq_zero fun j hj => by rw [Finset.sum_eq_zero fun k' _ => by rw [g0 _ j (Finset.mem_range.mp hj), mul_zero], mul_zero]
    rw [s0]
    simp
  · let y : Nat → Nat → ℝ := fun a i => X a i + u a i
    have h := bil_at d n A e2 e3 a ha (unit1 k) (spin (i + 1) (j + 1) y)
    have s1 : ∑ m ∈ Finset.range d, ∑ b ∈ Finset.range n, ∑ l ∈ Finset.range d, unit1 k (m + 1) * A.e (d * a + m + 1) (d * b + l + 1) * spin (i + 1) (j + 1) y (b + 1) (l + 1)
        = ∑ b ∈ Finset.range n, (A.e (d * a + k + 1) (d * b + j + 1) * y (b + 1) (i + 1) - A.e (d * a + k + 1) (d * b + i + 1) * y (b + 1) (j + 1)) := by
      rw [← sum_unit d k hk fun m => ∑ b ∈ Finset.range n, (A.e (d * a + m + 1) (d * b + j + 1) * y (b + 1) (i + 1) - A.e (d * a + m + 1) (d * b + i + 1) * y (b + 1) (j + 1))]
      refine Finset.sum_congr rfl fun m _ => ?_
      rw [Finset.mul_sum]
      refine Finset.sum_congr rfl fun b _ => ?_
      rw [← sum_spin d i j hi hj (fun l => A.e (d * a + m + 1) (d * b + l + 1)), Finset.mul_sum]
      exact Finset.sum_congr rfl fun l _ => by rw [mul_assoc]; rfl
    rw [s1] at h
    have h2 := e4.2 (spin (i + 1) (j + 1) (at1 a (unit1 k)))
    have s2 : f.dot (dofVec d (spin (i + 1) (j + 1) (at1 a (unit1 k)))) = (if k = i then f.e (d * a + j + 1) else 0) - (if k = j then f.e (d * a + i + 1) else 0) := by
      rw [dot_nodes d n f e4.1, Finset.sum_eq_single a]
      · rw [Finset.sum_congr rfl fun m _ => mul_comm _ _]
        unfold spin
        rw [sum_spin d i j hi hj fun m => f.e (d * a + m + 1)]
        simp only [at1, unit1, if_true, Nat.add_right_cancel_iff, mul_ite, mul_one, mul_zero, eq_comm]
      · intro b _ hb; simp [spin, at1, hb]
      · intro hk; exact absurd (Finset.mem_range.mpr ha) hk
    rw [← s2]
    refine h.symm.trans (Eq.trans ?_ h2.symm)
    rw [e5, neg_sum]
    congr 1
    refine List.map_congr_left fun p hpm => ?_
    have hF := fun i r hi hr => defF_pos d n X p.1 (hp p hpm).1 u y (fun a i _ _ => rfl) i r hi hr
    rw [rate_spin d hd (grad n u p.1.dN.e) (grad n (spin (i + 1) (j + 1) y) p.1.dN.e) i j hi hj fun k r hk hr => by rw [grad_spin, hF i r hi hr, hF j r hj hr]]
    by_cases hz : zeroStrain tol (d * (d + 1) / 2) (greenV d (grad n u p.1.dN.e)) = true
    · simp [tlP, hz]
    · simp only [tlP, if_neg hz, mul_zero, Finset.sum_const_zero, zero_add, grad_spin]
      rw [← mul_neg]
      congr 1
      have c1 : ∀ i' j', ∑ k' ∈ Finset.range d, grad n (at1 a (unit1 k)) p.1.dN.e (k' + 1) (i' + 1) * ((if k' + 1 = j + 1 then grad n y p.1.dN.e (i + 1) (j' + 1) else 0) - if k' + 1 = i + 1 then grad n y p.1.dN.e (j + 1) (j' + 1) else 0)
          = grad n (at1 a (unit1 k)) p.1.dN.e (j + 1) (i' + 1) * grad n y p.1.dN.e (i + 1) (j' + 1) - grad n (at1 a (unit1 k)) p.1.dN.e (i + 1) (i' + 1) * grad n y p.1.dN.e (j + 1) (j' + 1) :=
        fun i' j' => sum_spin d i j hi hj (fun k' => grad n (at1 a (unit1 k)) p.1.dN.e (k' + 1) (i' + 1)) _ _
      simp only [c1]
      rw [Finset.sum_comm (f := fun i' r => (∑ p' ∈ Finset.range d, defF d (grad n u p.1.dN.e) (i' + 1) (p' + 1) * symT d false (S p) (p' + 1) (r + 1)) * _)]
      have c2 : ∀ r, ∑ i' ∈ Finset.range d, (∑ p' ∈ Finset.range d, defF d (grad n u p.1.dN.e) (i' + 1) (p' + 1) * symT d false (S p) (p' + 1) (r + 1)) *
          ((if i' + 1 = j + 1 then grad n (at1 a (unit1 k)) p.1.dN.e (i + 1) (r + 1) else 0) - if i' + 1 = i + 1 then grad n (at1 a (unit1 k)) p.1.dN.e (j + 1) (r + 1) else 0) = _ :=
        fun r => sum_spin d i j hi hj (fun i' => ∑ p' ∈ Finset.range d, defF d (grad n u p.1.dN.e) (i' + 1) (p' + 1) * symT d false (S p) (p' + 1) (r + 1)) _ _
      simp only [c2]
      rw [← Finset.sum_neg_distrib]
      refine Finset.sum_congr rfl fun r _ => ?_
      rw [neg_sub, Finset.sum_mul, Finset.sum_mul, ← Finset.sum_sub_distrib]
      refine Finset.sum_congr rfl fun q hq => ?_
      rw [hF i q hi (Finset.mem_range.mp hq), hF j q hj (Finset.mem_range.mp hq), symT_symm d false (S p) (r + 1)]
      ring

/-! ### Updated Lagrangian formulation -/

/-- The first Piola-Kirchhoff stresses of Cauchy stresses. -/
noncomputable def spP (d : Nat) (H : Nat → Nat → ℝ) (s : Nat → ℝ) (i r : Nat) : ℝ := ratio d H * ∑ j ∈ Finset.range d, symT d false s i (j + 1) * inv d (defF d H) r (j + 1)

/-- These stresses in a point where they are not used without strains. -/
noncomputable def ulP (d : Nat) (tol : ℝ) (H : Nat → Nat → ℝ) (s : Nat → ℝ) (i r : Nat) : ℝ := if zeroStrain tol (d * (d + 1) / 2) (greenV d H) then 0 else spP d H s i r

theorem grad_push (d n : Nat) (F : Nat → Nat → ℝ) (dN : DMat ℝ) (x : Nat → Nat → ℝ) (i j : Nat) : grad n x (pushGrad d F dN).e i j = ∑ k ∈ Finset.range d, grad n x dN.e i (k + 1) * inv d F (k + 1) j := by
  unfold grad pushGrad
  simp only [Finset.sum_mul, Finset.mul_sum]
  rw [Finset.sum_comm]
  exact Finset.sum_congr rfl fun k _ => Finset.sum_congr rfl fun a _ => by ring

theorem sp_work (d n : Nat) (w : ℝ) (H : Nat → Nat → ℝ) (s : Nat → ℝ) (dN : DMat ℝ) (x : Nat → Nat → ℝ) :
    w * ratio d H * ∑ i ∈ Finset.range d, ∑ j ∈ Finset.range d, symT d false s (i + 1) (j + 1) * grad n x (pushGrad d (defF d H) dN).e (i + 1) (j + 1)
      = w * ∑ i ∈ Finset.range d, ∑ r ∈ Finset.range d, spP d H s (i + 1) (r + 1) * grad n x dN.e (i + 1) (r + 1) := by
  rw [mul_assoc, Finset.mul_sum]
  congr 1
  refine Finset.sum_congr rfl fun i _ => ?_
  simp only [grad_push, spP, Finset.mul_sum, Finset.sum_mul]
  rw [Finset.sum_comm]
  exact Finset.sum_congr rfl fun r _ => Finset.sum_congr rfl fun j _ => by ring

theorem lead_inv (d : Nat) (F : Nat → Nat → ℝ) : lead d (inv d F) = (lead d F)⁻¹ := by
  ext i j
  rw [Matrix.inv_def, Ring.inverse_eq_inv]
  have : inv d F (i + 1) (j + 1) = (lead d F).det⁻¹ * (lead d F).adjugate i j := by
    unfold inv
    rw [dif_pos ⟨by omega, by omega, by omega, by omega⟩]
    rfl
  exact this

theorem spP_lead (d : Nat) (H : Nat → Nat → ℝ) (s : Nat → ℝ) : lead d (spP d H s) = ratio d H • (lead d (symT d false s) * (lead d (defF d H))⁻¹.transpose) := by
  ext i r
  rw [Matrix.smul_apply, Matrix.mul_apply, ← lead_inv]
  show ratio d H * _ = ratio d H * _
  congr 1
  exact (Fin.sum_univ_eq_sum_range (fun j => symT d false s (i + 1) (j + 1) * inv d (defF d H) (r + 1) (j + 1)) d).symm

theorem sum_lead (d : Nat) (A B : Nat → Nat → ℝ) (i j : Fin d) : ∑ r ∈ Finset.range d, A (i + 1) (r + 1) * B (r + 1) (j + 1) = (lead d A * lead d B) i j := by
  rw [Matrix.mul_apply]
  exact (Fin.sum_univ_eq_sum_range (fun r => A (i + 1) (r + 1) * B (r + 1) (j + 1)) d).symm

theorem sum_leadT (d : Nat) (A B : Nat → Nat → ℝ) (i j : Fin d) : ∑ r ∈ Finset.range d, A (i + 1) (r + 1) * B (j + 1) (r + 1) = (lead d A * (lead d B).transpose) i j := by
  rw [Matrix.mul_apply]
  exact (Fin.sum_univ_eq_sum_range (fun r => A (i + 1) (r + 1) * B (j + 1) (r + 1)) d).symm

theorem symT_lead (d : Nat) (s : Nat → ℝ) : (lead d (symT d false s)).transpose = lead d (symT d false s) := by
  ext i j
  exact symT_symm d false s _ _

theorem spP_symm (d : Nat) (H : Nat → Nat → ℝ) (hJ : ratio d H ≠ 0) (s : Nat → ℝ) (i j : Nat) (hi : i < d) (hj : j < d) :
    ∑ r ∈ Finset.range d, spP d H s (i + 1) (r + 1) * defF d H (j + 1) (r + 1) = ∑ r ∈ Finset.range d, spP d H s (j + 1) (r + 1) * defF d H (i + 1) (r + 1) := by
  have hu : IsUnit (lead d (defF d H)).det := isUnit_iff_ne_zero.mpr hJ
  have e : lead d (spP d H s) * (lead d (defF d H)).transpose = ratio d H • lead d (symT d false s) := by
    rw [spP_lead, Matrix.smul_mul, Matrix.mul_assoc, ← Matrix.transpose_mul, Matrix.mul_nonsing_inv _ hu, Matrix.transpose_one, Matrix.mul_one]
  rw [sum_leadT d (spP d H s) (defF d H) ⟨i, hi⟩ ⟨j, hj⟩, sum_leadT d (spP d H s) (defF d H) ⟨j, hj⟩ ⟨i, hi⟩, e, ← Matrix.transpose_apply (ratio d H • lead d (symT d false s)), Matrix.transpose_smul, symT_lead]

theorem ul_element (d : Nat) (hd : d = 2 ∨ d = 3) (n : Nat) (hn : 0 < n) (tol epsR : ℝ) (pts : List (FPt ℝ × Mat ℝ)) (u : Nat → Nat → ℝ) (C : FPt ℝ × Mat ℝ → DMat ℝ) (S : FPt ℝ × Mat ℝ → Nat → ℝ)
    (hp : ∀ p ∈ pts, p.1.dN.nr = n ∧ p.1.dN.nc = d ∧ ratio d (grad n u p.1.dN.e) ≠ 0 ∧ p.2 (defF d (grad n u p.1.dN.e)) (greenV d (grad n u p.1.dN.e)) = .ok (C p, S p)) :
    ∃ A f, ulElement d false tol epsR ⟨d * n, dofVec d u⟩ pts (DMat.zero (d * n) (d * n), DVec.zero (d * n)) = .ok (A, f) ∧ Piola d n pts (fun p => p.1) (fun p => ulP d tol (grad n u p.1.dN.e) (S p)) f := by
  have key : ∀ (l : List (FPt ℝ × Mat ℝ)), (∀ p ∈ l, p ∈ pts) → ∀ (A : DMat ℝ) (b : DVec ℝ), A.nr = d * n → A.nc = d * n → b.n = d * n →
      ∃ A' b', ulElement d false tol epsR ⟨d * n, dofVec d u⟩ l (A, b) = .ok (A', b') ∧ b'.n = d * n ∧
        ∀ x, b'.dot (dofVec d x) = b.dot (dofVec d x) - (l.map fun p => p.1.w * ∑ i ∈ Finset.range d, ∑ r ∈ Finset.range d, ulP d tol (grad n u p.1.dN.e) (S p) (i + 1) (r + 1) * grad n x p.1.dN.e (i + 1) (r + 1)).sum := by
    intro l
    induction l with
    | nil => exact fun _ A b _ _ hb => ⟨A, b, rfl, hb, fun x => by simp⟩
    | cons p l ih =>
      intro hl A b a1 a2 hb
      obtain ⟨h1, h2, h3, h4⟩ := hp p (hl p (by simp))
      have hpt : ∃ A' b', ulEval d false tol epsR p.2 ⟨d * n, dofVec d u⟩ p.1 (A, b) = .ok (A', b') ∧ A'.nr = d * n ∧ A'.nc = d * n ∧ b'.n = d * n ∧ ∀ x, b'.dot (dofVec d x) = b.dot (dofVec d x)
          - p.1.w * ∑ i ∈ Finset.range d, ∑ r ∈ Finset.range d, ulP d tol (grad n u p.1.dN.e) (S p) (i + 1) (r + 1) * grad n x p.1.dN.e (i + 1) (r + 1) := by
        by_cases hz : zeroStrain tol (d * (d + 1) / 2) (greenV d (grad n u p.1.dN.e)) = true
        · subst h1
          obtain ⟨B, hB, b1, b2, b3⟩ := formB_ok d hd p.1.dN (by omega)
          refine ⟨addKm A B (C p) p.1.w, b, ?_, a1, a2, hb, fun x => by simp [ulP, hz]⟩
          simp only [ulEval, kinUL_ok d hd p.1 epsR hn h2 u, Res.bind, ncomp, Bool.false_eq_true, if_false, hz, Bool.not_true, ulPoint, hB, h4]
        · obtain ⟨A1, b1, e1, k1, k2, k3, k4⟩ := ul_stress d hd n hn tol epsR p.1 p.2 ⟨h1, h2⟩ u (C p) (S p) h4 h3 (.inl ((strn_iff d n tol u p.1).mpr hz)) A b a1 a2 hb
          refine ⟨A1, b1, e1, k1, k2, k3, fun x => ?_⟩
          rw [k4, sp_work]
          simp only [ulP, if_neg hz]
      obtain ⟨A1, b1, e1, k1, k2, k3, k4⟩ := hpt
      obtain ⟨A2, b2, e2, k5, k6⟩ := ih (fun q hq => hl q (by simp [hq])) A1 b1 k1 k2 k3
      refine ⟨A2, b2, ?_, k5, fun x => ?_⟩
      · simp only [ulElement, e1, Res.bind]
        exact e2
      · rw [k6, k4]
        simp only [List.map_cons, List.sum_cons]
        ring
  obtain ⟨A, f, e1, e2, e3⟩ := key pts (fun p hp => hp) (DMat.zero (d * n) (d * n)) (DVec.zero (d * n)) rfl rfl rfl
  exact ⟨A, f, e1, e2, fun x => by rw [e3, zero_dot, zero_sub]⟩

/-- **C122**, updated Lagrangian elements: the internal forces have no resultant and no moment in the deformed configuration, for all materials. -/
theorem C122_updated_balance (d : Nat) (hd : d = 2 ∨ d = 3) (n : Nat) (hn : 0 < n) (tol epsR : ℝ) (pts : List (FPt ℝ × Mat ℝ)) (X u : Nat → Nat → ℝ)
    (hp : ∀ p ∈ pts, Iso d n X p.1 ∧ ratio d (grad n u p.1.dN.e) ≠ 0 ∧ ∃ C S, p.2 (defF d (grad n u p.1.dN.e)) (greenV d (grad n u p.1.dN.e)) = .ok (C, S)) :
    ∃ A f, ulElement d false tol epsR ⟨d * n, dofVec d u⟩ pts (DMat.zero (d * n) (d * n), DVec.zero (d * n)) = .ok (A, f) ∧ f.n = d * n ∧ Balanced d n (fun a i => X a i + u a i) f := by
  have : Inhabited (DMat ℝ) := ⟨DMat.zero 0 0⟩
  obtain ⟨C, S, hS⟩ := pick2 pts (fun p C S => p.2 (defF d (grad n u p.1.dN.e)) (greenV d (grad n u p.1.dN.e)) = .ok (C, S)) fun p h => (hp p h).2.2
  obtain ⟨A, f, e1, e2⟩ := ul_element d hd n hn tol epsR pts u C S fun p h => ⟨(hp p h).1.1, (hp p h).1.2.1, (hp p h).2.1, hS p h⟩
  refine ⟨A, f, e1, e2.1, balanced_of_piola d n pts _ _ f e2 X u (fun p h => (hp p h).1) fun p h i j hi hj => ?_⟩
  by_cases hz : zeroStrain tol (d * (d + 1) / 2) (greenV d (grad n u p.1.dN.e)) = true
  · simp only [ulP, hz, if_true, zero_mul]
  · simp only [ulP, if_neg hz]
    exact spP_symm d _ (hp p h).2.1 (S p) i j hi hj

/-- Cauchy stresses `s'` which are the stresses `s` turned by `Q`. -/
def TurnedStress (d : Nat) (Q : Nat → Nat → ℝ) (s s' : Nat → ℝ) : Prop :=
  ∀ i j, i < d → j < d → symT d false s' (i + 1) (j + 1) = ∑ k ∈ Finset.range d, ∑ l ∈ Finset.range d, Q (i + 1) (k + 1) * symT d false s (k + 1) (l + 1) * Q (j + 1) (l + 1)

theorem rot_lead (d : Nat) (Q : Nat → Nat → ℝ) (hQ : Rot d Q) : (lead d Q).transpose * lead d Q = 1 := by
  ext k l
  rw [Matrix.mul_apply, Matrix.one_apply]
  have := hQ.1 k l k.2 l.2
  rw [← Fin.sum_univ_eq_sum_range (fun m => Q (m + 1) (k + 1) * Q (m + 1) (l + 1)) d] at this
  simp only [Fin.ext_iff]
  exact this

theorem turned_lead (d : Nat) (Q s s') (h : TurnedStress d Q s s') : lead d (symT d false s') = lead d Q * lead d (symT d false s) * (lead d Q).transpose := by
  ext i j
  rw [Matrix.mul_apply]
  refine (h i j i.2 j.2).trans ?_
  rw [Finset.sum_comm, ← Fin.sum_univ_eq_sum_range (fun l => ∑ k ∈ Finset.range d, Q (i + 1) (k + 1) * symT d false s (k + 1) (l + 1) * Q (j + 1) (l + 1)) d]
  refine Finset.sum_congr rfl fun l _ => ?_
  rw [← Finset.sum_mul, sum_lead d Q (symT d false s) i l]
  rfl

theorem leadF_turned (d : Nat) (Q F F' : Nat → Nat → ℝ) (h : ∀ i r, i < d → r < d → F' (i + 1) (r + 1) = ∑ k ∈ Finset.range d, Q (i + 1) (k + 1) * F (k + 1) (r + 1)) : lead d F' = lead d Q * lead d F := by
  ext i r
  rw [← sum_lead]
  exact h i r i.2 r.2

theorem spP_turned (d : Nat) (Q H H' : Nat → Nat → ℝ) (hQ : Rot d Q) (hJ : ratio d H ≠ 0) (s s' : Nat → ℝ) (hs : TurnedStress d Q s s')
    (h : ∀ i r, i < d → r < d → defF d H' (i + 1) (r + 1) = ∑ k ∈ Finset.range d, Q (i + 1) (k + 1) * defF d H (k + 1) (r + 1)) (i r : Nat) (hi : i < d) (hr : r < d) :
    spP d H' s' (i + 1) (r + 1) = ∑ k ∈ Finset.range d, Q (i + 1) (k + 1) * spP d H s (k + 1) (r + 1) := by
  have hF := leadF_turned d Q _ _ h
  have m1 := rot_lead d Q hQ
  have hJ' : ratio d H' = ratio d H := by unfold ratio; rw [hF, Matrix.det_mul, hQ.2, one_mul]
  have e : lead d (spP d H' s') = lead d Q * lead d (spP d H s) := by
    rw [spP_lead, spP_lead, hJ', turned_lead d Q s s' hs, hF, Matrix.mul_inv_rev, Matrix.transpose_mul, Matrix.inv_eq_left_inv m1, Matrix.transpose_transpose, Matrix.mul_smul]
    congr 1
    simp only [Matrix.mul_assoc]
    rw [← Matrix.mul_assoc (lead d Q).transpose, m1, Matrix.one_mul]
  rw [sum_lead d Q (spP d H s) ⟨i, hi⟩ ⟨r, hr⟩, ← e]
  rfl

/-- A material whose Cauchy stresses turn with the body. -/
def Objective (d : Nat) (mat : Mat ℝ) : Prop :=
  ∀ (Q F F' : Nat → Nat → ℝ) (E : Nat → ℝ) (C : DMat ℝ) (s : Nat → ℝ), Rot d Q → (lead d F).det ≠ 0 → (∀ i r, i < d → r < d → F' (i + 1) (r + 1) = ∑ k ∈ Finset.range d, Q (i + 1) (k + 1) * F (k + 1) (r + 1)) →
    mat F E = .ok (C, s) → ∃ C' s', mat F' E = .ok (C', s') ∧ TurnedStress d Q s s'

theorem ratio_turned (d : Nat) (Q H H' : Nat → Nat → ℝ) (hQ : Rot d Q) (h : ∀ i r, i < d → r < d → defF d H' (i + 1) (r + 1) = ∑ k ∈ Finset.range d, Q (i + 1) (k + 1) * defF d H (k + 1) (r + 1)) : ratio d H' = ratio d H := by
  unfold ratio
  rw [leadF_turned d Q _ _ h, Matrix.det_mul, hQ.2, one_mul]

/-- **C122**, updated Lagrangian elements: turning and moving a deformed element turns its internal forces, for all objective materials. -/
theorem C122_updated_turn (d : Nat) (hd : d = 2 ∨ d = 3) (n : Nat) (hn : 0 < n) (tol epsR : ℝ) (pts : List (FPt ℝ × Mat ℝ)) (X u u' Q : Nat → Nat → ℝ) (c : Nat → ℝ) (hQ : Rot d Q)
    (ht : Turned d n Q c (fun a i => X a i + u a i) (fun a i => X a i + u' a i))
    (hp : ∀ p ∈ pts, Iso d n X p.1 ∧ ratio d (grad n u p.1.dN.e) ≠ 0 ∧ Objective d p.2 ∧ ∃ C S, p.2 (defF d (grad n u p.1.dN.e)) (greenV d (grad n u p.1.dN.e)) = .ok (C, S)) :
    ∃ A f A' f', ulElement d false tol epsR ⟨d * n, dofVec d u⟩ pts (DMat.zero (d * n) (d * n), DVec.zero (d * n)) = .ok (A, f) ∧
      ulElement d false tol epsR ⟨d * n, dofVec d u'⟩ pts (DMat.zero (d * n) (d * n), DVec.zero (d * n)) = .ok (A', f') ∧ TurnedForce d n Q f f' := by
  have : Inhabited (DMat ℝ) := ⟨DMat.zero 0 0⟩
  obtain ⟨C, S, hS⟩ := pick2 pts (fun p C S => p.2 (defF d (grad n u p.1.dN.e)) (greenV d (grad n u p.1.dN.e)) = .ok (C, S)) fun p h => (hp p h).2.2.2
  have hF := fun p h => turned_F d n X p (hp := h) Q c u u' ht
  have hE : ∀ p ∈ pts, greenV d (grad n u' p.1.dN.e) = greenV d (grad n u p.1.dN.e) := fun p h => turned_green d hd Q _ _ hQ (hF p.1 (hp p h).1)
  obtain ⟨C', S', hS'⟩ := pick2 pts (fun p C' S' => p.2 (defF d (grad n u' p.1.dN.e)) (greenV d (grad n u' p.1.dN.e)) = .ok (C', S') ∧ TurnedStress d Q (S p) S') fun p h => by
    rw [hE p h]
    exact (hp p h).2.2.1 Q _ _ _ (C p) (S p) hQ (hp p h).2.1 (hF p.1 (hp p h).1) (hS p h)
  obtain ⟨A, f, e1, e2⟩ := ul_element d hd n hn tol epsR pts u C S fun p h => ⟨(hp p h).1.1, (hp p h).1.2.1, (hp p h).2.1, hS p h⟩
  obtain ⟨A', f', e1', e2'⟩ := ul_element d hd n hn tol epsR pts u' C' S' fun p h => ⟨(hp p h).1.1, (hp p h).1.2.1, by rw [ratio_turned d Q _ _ hQ (hF p.1 (hp p h).1)]; exact (hp p h).2.1, (hS' p h).1⟩
  refine ⟨A, f, A', f', e1, e1', turned_of_piola d n pts _ _ _ f f' e2 e2' Q fun p h i r hi hr => ?_⟩
  unfold ulP
  rw [hE p h]
  by_cases hz : zeroStrain tol (d * (d + 1) / 2) (greenV d (grad n u p.1.dN.e)) = true
  · simp only [hz, if_true, mul_zero, Finset.sum_const_zero]
  · simp only [if_neg hz]
    exact spP_turned d Q _ _ hQ (hp p h).2.1 _ _ (hS' p h).2 (hF p.1 (hp p h).1) i r hi hr

/-- **C122**: the linear materials of the updated Lagrangian formulation are objective. -/
theorem C122_linear_objective (d : Nat) (hd : d = 2 ∨ d = 3) (D : DMat ℝ) : Objective d (ulOp (pushOp d (linOp D))) := by
  intro Q F F' E C s hQ hJ hF hm
  have hl := leadF_turned d Q _ _ hF
  have hdet : (lead d F').det = (lead d F).det := by rw [hl, Matrix.det_mul, hQ.2, one_mul]
  obtain ⟨c, hc⟩ := pushOp_one d D F E hJ
  obtain ⟨c', hc'⟩ := pushOp_one d D F' E (by rw [hdet]; exact hJ)
  have hs := hm.symm.trans hc
  simp only [Res.ok.injEq, Prod.mk.injEq] at hs
  obtain ⟨-, hs⟩ := hs
  refine ⟨c', _, hc', fun i j hi hj => ?_⟩
  rw [hs]
  simp only [symT_smul, hdet]
  generalize (fun i => ∑ j ∈ Finset.range D.nc, D.e i (j + 1) * E (j + 1)) = S
  generalize (lead d F).det = J
  have r1 : symT d false (pushStress d F' S) (i + 1) (j + 1) = ∑ p ∈ Finset.range d, ∑ q ∈ Finset.range d, (∑ k ∈ Finset.range d, Q (i + 1) (k + 1) * F (k + 1) (p + 1)) * symT d false S (p + 1) (q + 1) * (∑ k ∈ Finset.range d, Q (j + 1) (k + 1) * F (k + 1) (q + 1)) := by
    rw [pushStress_symT d hd _ _ (i + 1) (j + 1) (by omega) (by omega) (by omega) (by omega)]
    exact Finset.sum_congr rfl fun p hp => Finset.sum_congr rfl fun q hq => by rw [hF i p hi (Finset.mem_range.mp hp), hF j q hj (Finset.mem_range.mp hq)]
  have r2 : ∑ k ∈ Finset.range d, ∑ l ∈ Finset.range d, Q (i + 1) (k + 1) * (symT d false (pushStress d F S) (k + 1) (l + 1) * (1 / J)) * Q (j + 1) (l + 1)
      = ∑ k ∈ Finset.range d, ∑ l ∈ Finset.range d, Q (i + 1) (k + 1) * ((∑ p ∈ Finset.range d, ∑ q ∈ Finset.range d, F (k + 1) (p + 1) * symT d false S (p + 1) (q + 1) * F (l + 1) (q + 1)) * (1 / J)) * Q (j + 1) (l + 1) :=
    Finset.sum_congr rfl fun k hk => Finset.sum_congr rfl fun l hl => by
      rw [pushStress_symT d hd _ _ (k + 1) (l + 1) (by omega) (by have := Finset.mem_range.mp hk; omega) (by omega) (by have := Finset.mem_range.mp hl; omega)]
  rw [r1, r2]
  clear r1 r2
  rcases hd with h | h <;> subst h
  · simp only [Finset.sum_range_succ, Finset.sum_range_zero, zero_add]; ring
  · simp only [Finset.sum_range_succ, Finset.sum_range_zero, zero_add]; ring

/-- **C122**, updated Lagrangian elements: an element in rigid motion has no internal forces, whatever its material. -/
theorem C122_updated_rigid (d : Nat) (hd : d = 2 ∨ d = 3) (n : Nat) (hn : 0 < n) (tol epsR : ℝ) (htol : 0 ≤ tol) (pts : List (FPt ℝ × Mat ℝ)) (X u Q : Nat → Nat → ℝ) (c : Nat → ℝ) (hQ : Rot d Q)
    (ht : Turned d n Q c X (fun a i => X a i + u a i)) (hp : ∀ p ∈ pts, Iso d n X p.1 ∧ ∃ C S, p.2 (defF d (grad n u p.1.dN.e)) (fun _ => 0) = .ok (C, S)) :
    ∃ A f, ulElement d false tol epsR ⟨d * n, dofVec d u⟩ pts (DMat.zero (d * n) (d * n), DVec.zero (d * n)) = .ok (A, f) ∧ ∀ a i, a < n → i < d → f.e (d * a + i + 1) = 0 := by
  have : Inhabited (DMat ℝ) := ⟨DMat.zero 0 0⟩
  have hE : ∀ p ∈ pts, greenV d (grad n u p.1.dN.e) = fun _ => 0 := fun p h => green_of_rot d hd Q _ hQ (rigid_F d n X p.1 (hp p h).1 Q c u ht)
  obtain ⟨C, S, hS⟩ := pick2 pts (fun p C S => p.2 (defF d (grad n u p.1.dN.e)) (fun _ => 0) = .ok (C, S)) fun p h => (hp p h).2
  obtain ⟨A, f, e1, e4⟩ := ul_element d hd n hn tol epsR pts u C S fun p h => ⟨(hp p h).1.1, (hp p h).1.2.1, by
    have : lead d (defF d (grad n u p.1.dN.e)) = lead d Q := by ext i r; exact rigid_F d n X p.1 (hp p h).1 Q c u ht i r i.2 r.2
    unfold ratio
    rw [this, hQ.2]
    exact one_ne_zero, by rw [hE p h]; exact hS p h⟩
  refine ⟨A, f, e1, zero_forces d n f e4.1 fun x => ?_⟩
  rw [e4.2, sum_zero_of, neg_zero]
  intro p h
  have : zeroStrain tol (d * (d + 1) / 2) (greenV d (grad n u p.1.dN.e)) = true := by
    rw [zeroStrain_iff, hE p h]
    intro i _ _
    simpa using htol
  simp only [ulP, this, if_true, zero_mul, Finset.sum_const_zero, mul_zero]

/-! ### F-bar elements -/

/-- The modified gradient of a point. -/
noncomputable def barF (d n : Nat) (smp : List (FPt ℝ)) (u : Nat → Nat → ℝ) (p : FPt ℝ) (Nb : List ℝ) : Nat → Nat → ℝ :=
  scaledF d (grad n u p.dN.e) (meanRatio (smp.map fun s => ratio d (grad n u s.dN.e)) Nb (ratio d (grad n u p.dN.e)))

/-- Sampling and integration points of an element that are strained and keep a volume. -/
def FbOk (d n : Nat) (tol : ℝ) (X : Nat → Nat → ℝ) (smp : List (FPt ℝ)) (pts : List (FPt ℝ × Mat ℝ × List ℝ)) (u : Nat → Nat → ℝ) : Prop :=
  (∀ s ∈ smp, Iso d n X s ∧ Strn d n tol u s ∧ ratio d (grad n u s.dN.e) ≠ 0) ∧
  ∀ p ∈ pts, Iso d n X p.1 ∧ p.2.2.length = smp.length ∧ Strn d n tol u p.1 ∧ ratio d (grad n u p.1.dN.e) ≠ 0 ∧ meanRatio (smp.map fun s => ratio d (grad n u s.dN.e)) p.2.2 (ratio d (grad n u p.1.dN.e)) ≠ 0

theorem fb_element (d : Nat) (hd : d = 2 ∨ d = 3) (n : Nat) (hn : 0 < n) (tol epsR : ℝ) (X : Nat → Nat → ℝ) (smp : List (FPt ℝ)) (pts : List (FPt ℝ × Mat ℝ × List ℝ)) (u : Nat → Nat → ℝ) (ho : FbOk d n tol X smp pts u)
    (c : Mat ℝ → (Nat → Nat → ℝ) → DMat ℝ) (sig : Mat ℝ → (Nat → Nat → ℝ) → Nat → ℝ) (hm : ∀ p ∈ pts, ∀ F E, (lead d F).det ≠ 0 → p.2.1 F E = .ok (c p.2.1 F, sig p.2.1 F)) :
    ∃ A f, fbarElement d false tol epsR smp ⟨d * n, dofVec d u⟩ pts (DMat.zero (d * n) (d * n), DVec.zero (d * n)) = .ok (A, f) ∧
      Piola d n pts (fun p => p.1) (fun p => spP d (grad n u p.1.dN.e) (sig p.2.1 (barF d n smp u p.1 p.2.2))) f := by
  obtain ⟨hsmp, hp⟩ := ho
  have hrun : ∀ M, fbarElement d false tol epsR smp ⟨d * n, dofVec d u⟩ pts M = runAll (pts.map fun p => fun u M => fbarPoint d false tol epsR (vols d n smp u) p.2.1 ⟨d * n, dofVec d u⟩ p.1 p.2.2 M) u M := by
    intro M
    unfold fbarElement
    rw [reduced_ok d hd n hn tol epsR u smp fun s hs => ⟨(hsmp s hs).1.1, (hsmp s hs).1.2.1, (strn_iff d n tol u s).mp (hsmp s hs).2.1, (hsmp s hs).2.2⟩]
    exact fbarPoints_run d tol epsR n smp pts u M
  have hcon : ∀ p ∈ pts, ∃ Q, Contr d n (fun u M => fbarPoint d false tol epsR (vols d n smp u) p.2.1 ⟨d * n, dofVec d u⟩ p.1 p.2.2 M) u
      (fun x => p.1.w * ∑ i ∈ Finset.range d, ∑ r ∈ Finset.range d, spP d (grad n u p.1.dN.e) (sig p.2.1 (barF d n smp u p.1 p.2.2)) (i + 1) (r + 1) * grad n x p.1.dN.e (i + 1) (r + 1)) Q := by
    intro p hpm
    obtain ⟨p1, p3, p4, p5, p6⟩ := hp p hpm
    obtain ⟨fld, f1, f2, -⟩ := field_ok d hd n smp p.2.2 p3 p.1.dN p.1.N p1.1 (fun s hs => (hsmp s hs).1.1) u u (fun s hs => (hsmp s hs).2.2) p5 p6
    have f1 := f1.self_of_nhds
    have f2 := f2 0
    rw [along_zero] at f1 f2
    unfold barF
    rw [← f2.2]
    simp only [← sp_work]
    exact ⟨_, fb_contr d hd n hn tol epsR p.1 p.2.1 (sig p.2.1) (c p.2.1) (hm p hpm) p1.1 p1.2.1 (vols d n smp) p.2.2 u ((strn_iff d n tol u p.1).mp p4) p5 (fld 0) f1 f2.1 (by rw [f2.2]; exact p6)⟩
  classical
  obtain ⟨A, f, e1, -, -, e2, e3, -⟩ := contr_all d n pts (fun p => fun u M => fbarPoint d false tol epsR (vols d n smp u) p.2.1 ⟨d * n, dofVec d u⟩ p.1 p.2.2 M) _
    (fun p => if h : p ∈ pts then (hcon p h).choose else fun _ _ => 0) u (fun p h => by rw [dif_pos h]; exact (hcon p h).choose_spec) (DMat.zero (d * n) (d * n)) (DVec.zero (d * n)) rfl rfl rfl
  exact ⟨A, f, by rw [hrun, e1], e2, fun x => by rw [e3, zero_dot, zero_sub]⟩

/-- **C122**, F-bar elements: the internal forces have no resultant and no moment in the deformed configuration, for all materials and all sampling points. -/
theorem C122_fbar_balance (d : Nat) (hd : d = 2 ∨ d = 3) (n : Nat) (hn : 0 < n) (tol epsR : ℝ) (X : Nat → Nat → ℝ) (smp : List (FPt ℝ)) (pts : List (FPt ℝ × Mat ℝ × List ℝ)) (u : Nat → Nat → ℝ) (ho : FbOk d n tol X smp pts u)
    (c : Mat ℝ → (Nat → Nat → ℝ) → DMat ℝ) (sig : Mat ℝ → (Nat → Nat → ℝ) → Nat → ℝ) (hm : ∀ p ∈ pts, ∀ F E, (lead d F).det ≠ 0 → p.2.1 F E = .ok (c p.2.1 F, sig p.2.1 F)) :
    ∃ A f, fbarElement d false tol epsR smp ⟨d * n, dofVec d u⟩ pts (DMat.zero (d * n) (d * n), DVec.zero (d * n)) = .ok (A, f) ∧ f.n = d * n ∧ Balanced d n (fun a i => X a i + u a i) f := by
  obtain ⟨A, f, e1, e2⟩ := fb_element d hd n hn tol epsR X smp pts u ho c sig hm
  exact ⟨A, f, e1, e2.1, balanced_of_piola d n pts _ _ f e2 X u (fun p h => (ho.2 p h).1) fun p h i j hi hj => spP_symm d _ (ho.2 p h).2.2.2.1 _ i j hi hj⟩

/-- **C122**, F-bar elements: turning and moving a deformed element turns its internal forces, for all objective materials and all sampling points. -/
theorem C122_fbar_turn (d : Nat) (hd : d = 2 ∨ d = 3) (n : Nat) (hn : 0 < n) (tol epsR : ℝ) (X : Nat → Nat → ℝ) (smp : List (FPt ℝ)) (pts : List (FPt ℝ × Mat ℝ × List ℝ)) (u u' Q : Nat → Nat → ℝ) (c0 : Nat → ℝ) (hQ : Rot d Q)
    (ht : Turned d n Q c0 (fun a i => X a i + u a i) (fun a i => X a i + u' a i)) (ho : FbOk d n tol X smp pts u)
    (c : Mat ℝ → (Nat → Nat → ℝ) → DMat ℝ) (sig : Mat ℝ → (Nat → Nat → ℝ) → Nat → ℝ) (hm : ∀ p ∈ pts, (∀ F E, (lead d F).det ≠ 0 → p.2.1 F E = .ok (c p.2.1 F, sig p.2.1 F)) ∧ Objective d p.2.1) :
    ∃ A f A' f', fbarElement d false tol epsR smp ⟨d * n, dofVec d u⟩ pts (DMat.zero (d * n) (d * n), DVec.zero (d * n)) = .ok (A, f) ∧
      fbarElement d false tol epsR smp ⟨d * n, dofVec d u'⟩ pts (DMat.zero (d * n) (d * n), DVec.zero (d * n)) = .ok (A', f') ∧ TurnedForce d n Q f f' := by
  have hF := fun p h => turned_F d n X p (hp := h) Q c0 u u' ht
  have hE := fun p h => turned_green d hd Q _ _ hQ (hF p h)
  have hJ := fun p h => ratio_turned d Q _ _ hQ (hF p h)
  have hst : ∀ p, Iso d n X p → Strn d n tol u p → Strn d n tol u' p := fun p h hs => by
    unfold Strn at hs ⊢
    rw [hE p h]
    exact hs
  have hsm : (smp.map fun s => ratio d (grad n u' s.dN.e)) = smp.map fun s => ratio d (grad n u s.dN.e) := List.map_congr_left fun s h => hJ s (ho.1 s h).1
  have ho' : FbOk d n tol X smp pts u' := by
    refine ⟨fun s h => ?_, fun p h => ?_⟩
    · obtain ⟨h1, h2, h3⟩ := ho.1 s h
      exact ⟨h1, hst s h1 h2, by rw [hJ s h1]; exact h3⟩
    · obtain ⟨h1, h2, h3, h4, h5⟩ := ho.2 p h
      exact ⟨h1, h2, hst p.1 h1 h3, by rw [hJ p.1 h1]; exact h4, by rw [hJ p.1 h1, hsm]; exact h5⟩
  obtain ⟨A, f, e1, e2⟩ := fb_element d hd n hn tol epsR X smp pts u ho c sig fun p h => (hm p h).1
  obtain ⟨A', f', e1', e2'⟩ := fb_element d hd n hn tol epsR X smp pts u' ho' c sig fun p h => (hm p h).1
  refine ⟨A, f, A', f', e1, e1', turned_of_piola d n pts _ _ _ f f' e2 e2' Q fun p h i r hi hr => ?_⟩
  obtain ⟨h1, h2, h3, h4, h5⟩ := ho.2 p h
  refine spP_turned d Q _ _ hQ h4 _ _ ?_ (hF p.1 h1) i r hi hr
  have hb : ∀ i r, i < d → r < d → barF d n smp u' p.1 p.2.2 (i + 1) (r + 1) = ∑ k ∈ Finset.range d, Q (i + 1) (k + 1) * barF d n smp u p.1 p.2.2 (k + 1) (r + 1) := by
    intro i r hi hr
    unfold barF scaledF
    rw [hsm, hJ p.1 h1, hF p.1 h1 i r hi hr, Finset.mul_sum]
    exact Finset.sum_congr rfl fun k _ => by ring
  have hd1 : (lead d (barF d n smp u p.1 p.2.2)).det ≠ 0 := scaled_det d _ (Real.rpow_pos_of_pos (abs_pos.mpr (div_ne_zero h5 h4)) _).ne' _ h4
  have hd2 : (lead d (barF d n smp u' p.1 p.2.2)).det ≠ 0 := by rw [leadF_turned d Q _ _ hb, Matrix.det_mul, hQ.2, one_mul]; exact hd1
  obtain ⟨C', s', k1, k2⟩ := (hm p h).2 Q _ _ (fun _ => 0) _ _ hQ hd1 hb ((hm p h).1 _ (fun _ => 0) hd1)
  have := ((hm p h).1 _ (fun _ => 0) hd2).symm.trans k1
  simp only [Res.ok.injEq, Prod.mk.injEq] at this
  rw [this.2]
  exact k2

/-! ### Examples -/

/-- The corners of the triangle. -/
def corner (a i : Nat) : ℝ := if a = i + 1 then 1 else 0

/-- The quarter turn. -/
def quarter (i j : Nat) : ℝ := if i = 1 ∧ j = 2 then -1 else if i = 2 ∧ j = 1 then 1 else 0

/-- The displacements of a stretched, turned and moved triangle. -/
noncomputable def carried (a : ℝ) (k i : Nat) : ℝ := 5 + quarter i 1 * (corner k 1 + stretch a k 1) + quarter i 2 * (corner k 2 + stretch a k 2) - corner k i

theorem triangle_iso : Iso 2 3 corner triangle := by
  refine ⟨rfl, rfl, fun j hj => ?_, fun i j hi hj => ?_⟩
  · interval_cases j <;> simp [triangle, Finset.sum_range_succ]
  · interval_cases i <;> interval_cases j <;> simp [triangle, corner, Finset.sum_range_succ]

theorem quarter_rot : Rot 2 quarter := by
  refine ⟨fun k l hk hl => ?_, ?_⟩
  · interval_cases k <;> interval_cases l <;> simp [quarter, Finset.sum_range_succ]
  · simp [Matrix.det_fin_two, lead, quarter]

theorem carried_turned (a : ℝ) : Turned 2 3 quarter (fun _ => 5) (fun k i => corner k i + stretch a k i) (fun k i => corner k i + carried a k i) := by
  intro k i _ hi
  simp only [Finset.sum_range_succ, Finset.sum_range_zero, zero_add, carried]
  ring

/-- The forces of the stretched triangle are not zero. -/
example : ∃ A f, tlElement 2 false 0 0 ⟨2 * 3, dofVec 2 (stretch 1)⟩ [(triangle, tlOp 2 0 (linOp plane1))] (DMat.zero (2 * 3) (2 * 3), DVec.zero (2 * 3)) = .ok (A, f) ∧ f.dot (dofVec 2 (stretch 1)) = -(3 / 2) := by
  obtain ⟨A, f, h1, h2⟩ := (C121_total_violated 1 0 0 (by norm_num) (by norm_num)).2.2.1
  exact ⟨A, f, h1, by rw [h2]; norm_num⟩

example : ∃ A f A' f', tlElement 2 false 0 0 ⟨2 * 3, dofVec 2 (stretch 1)⟩ [(triangle, linOp plane1 1)] (DMat.zero (2 * 3) (2 * 3), DVec.zero (2 * 3)) = .ok (A, f) ∧
    tlElement 2 false 0 0 ⟨2 * 3, dofVec 2 (carried 1)⟩ [(triangle, linOp plane1 1)] (DMat.zero (2 * 3) (2 * 3), DVec.zero (2 * 3)) = .ok (A', f') ∧ TurnedForce 2 3 quarter f f' ∧ TurnedMat 2 3 quarter A A' :=
  C122_total_turn 2 (.inl rfl) 3 (by omega) 0 0 _ corner _ _ quarter _ quarter_rot (carried_turned 1) fun p h => by
    obtain rfl := List.mem_singleton.mp h
    exact ⟨triangle_iso, _, _, fun _ => rfl, rfl⟩

example : ∃ A f, tlElement 2 false 0 0 ⟨2 * 3, dofVec 2 (stretch 1)⟩ [(triangle, linOp plane1 1)] (DMat.zero (2 * 3) (2 * 3), DVec.zero (2 * 3)) = .ok (A, f) ∧ f.n = 2 * 3 ∧ Balanced 2 3 (fun a i => corner a i + stretch 1 a i) f :=
  C122_total_balance 2 (.inl rfl) 3 (by omega) 0 0 _ corner _ fun p h => by
    obtain rfl := List.mem_singleton.mp h
    exact ⟨triangle_iso, _, _, rfl, rfl⟩

example : ∃ A f, tlElement 2 false 0 0 ⟨2 * 3, dofVec 2 (carried 0)⟩ [(triangle, linOp plane1 1)] (DMat.zero (2 * 3) (2 * 3), DVec.zero (2 * 3)) = .ok (A, f) ∧ ∀ a i, a < 3 → i < 2 → f.e (2 * a + i + 1) = 0 :=
  C122_total_rigid 2 (.inl rfl) 3 (by omega) 0 0 le_rfl _ corner _ quarter (fun _ => 5) quarter_rot (fun k i hk hi => by simpa [stretch] using carried_turned 0 k i hk hi) fun p h => by
    obtain rfl := List.mem_singleton.mp h
    exact ⟨triangle_iso, _, _, rfl, rfl⟩

theorem carry_ok : ratio 2 (grad 3 (stretch 1) triangle.dN.e) ≠ 0 ∧ ∃ C S, ulOp (pushOp 2 (linOp plane1)) (defF 2 (grad 3 (stretch 1) triangle.dN.e)) (greenV 2 (grad 3 (stretch 1) triangle.dN.e)) = .ok (C, S) := by
  have hr : ratio 2 (grad 3 (stretch 1) triangle.dN.e) ≠ 0 := by rw [stretch_ratio]; norm_num
  refine ⟨hr, ?_⟩
  unfold ratio at hr
  simp only [ulOp, pushOp, linOp, Res.bind, hr, if_false]
  exact ⟨_, _, rfl⟩

example : ∃ A f A' f', ulElement 2 false 0 0 ⟨2 * 3, dofVec 2 (stretch 1)⟩ [(triangle, ulOp (pushOp 2 (linOp plane1)))] (DMat.zero (2 * 3) (2 * 3), DVec.zero (2 * 3)) = .ok (A, f) ∧
    ulElement 2 false 0 0 ⟨2 * 3, dofVec 2 (carried 1)⟩ [(triangle, ulOp (pushOp 2 (linOp plane1)))] (DMat.zero (2 * 3) (2 * 3), DVec.zero (2 * 3)) = .ok (A', f') ∧ TurnedForce 2 3 quarter f f' :=
  C122_updated_turn 2 (.inl rfl) 3 (by omega) 0 0 _ corner _ _ quarter _ quarter_rot (carried_turned 1) fun p h => by
    obtain rfl := List.mem_singleton.mp h
    exact ⟨triangle_iso, carry_ok.1, C122_linear_objective 2 (.inl rfl) _, carry_ok.2⟩

/-- The neo-Hookean material of the plane is objective. -/
theorem hooke2_objective (mu : ℝ) : Objective 2 (fun F _ => .ok (hookeC mu F, hooke2 mu F)) := by
  intro Q F F' E C s hQ hJ hF hs
  simp only [Res.ok.injEq, Prod.mk.injEq] at hs
  refine ⟨_, _, rfl, ?_⟩
  rw [← hs.2]
  have hdet : (lead 2 F').det = (lead 2 F).det := by rw [leadF_turned 2 Q _ _ hF, Matrix.det_mul, hQ.2, one_mul]
  have h00 := hF 0 0 (by omega) (by omega); have h01 := hF 0 1 (by omega) (by omega); have h10 := hF 1 0 (by omega) (by omega); have h11 := hF 1 1 (by omega) (by omega)
  have q1 := hQ.1 0 0 (by omega) (by omega); have q2 := hQ.1 0 1 (by omega) (by omega); have q3 := hQ.1 1 1 (by omega) (by omega)
  have qd := hQ.2
  rw [Matrix.det_fin_two] at qd
  simp only [Finset.sum_range_succ, Finset.sum_range_zero, zero_add, lead, Matrix.of_apply, Fin.val_zero, Fin.val_one, if_true, one_ne_zero, zero_ne_one, if_false] at h00 h01 h10 h11 q1 q2 q3 qd
  have r1 : Q 2 1 = -Q 1 2 := by linear_combination (-Q 1 2) * q1 + Q 1 1 * q2 - Q 2 1 * qd
  have r2 : Q 2 2 = Q 1 1 := by linear_combination (-Q 2 2) * q1 + Q 1 1 * qd + Q 2 1 * q2
  intro i j hi hj
  have k1 : Q 1 1 * Q 1 1 + Q 1 2 * Q 1 2 = 1 := by rw [r1] at q1; linear_combination q1
  interval_cases i <;> interval_cases j <;>
    simp only [symT, Finset.sum_range_succ, Finset.sum_range_zero, zero_add, hooke2, hdet, h00, h01, h10, h11, r1, r2, Nat.reduceAdd, Nat.reduceEqDiff, if_true, if_false, OfNat.ofNat_ne_one, OfNat.one_ne_ofNat, Bool.false_eq_true, Nat.succ_ne_self]
  · linear_combination (mu / (lead 2 F).det - (lead 2 F).det + 1) * k1
  · ring
  · ring
  · linear_combination (mu / (lead 2 F).det - (lead 2 F).det + 1) * k1

theorem stretch_fb (a : ℝ) (ha : 0 < a) : FbOk 2 3 0 corner [triangle] [(triangle, (fun F _ => .ok (hookeC 1 F, hooke2 1 F)), [1])] (stretch a) := by
  have hst : Strn 2 3 0 (stretch a) triangle := ⟨1, le_refl _, by norm_num, by rw [(stretch_green a).1, abs_of_pos (by positivity)]; positivity⟩
  have hr : ratio 2 (grad 3 (stretch a) triangle.dN.e) ≠ 0 := by rw [stretch_ratio]; positivity
  refine ⟨fun s h => ?_, fun p h => ?_⟩
  · obtain rfl := List.mem_singleton.mp h
    exact ⟨triangle_iso, hst, hr⟩
  · obtain rfl := List.mem_singleton.mp h
    exact ⟨triangle_iso, rfl, hst, hr, hr⟩

example : ∃ A f A' f', fbarElement 2 false 0 0 [triangle] ⟨2 * 3, dofVec 2 (stretch 1)⟩ [(triangle, (fun F _ => .ok (hookeC 1 F, hooke2 1 F)), [1])] (DMat.zero (2 * 3) (2 * 3), DVec.zero (2 * 3)) = .ok (A, f) ∧
    fbarElement 2 false 0 0 [triangle] ⟨2 * 3, dofVec 2 (carried 1)⟩ [(triangle, (fun F _ => .ok (hookeC 1 F, hooke2 1 F)), [1])] (DMat.zero (2 * 3) (2 * 3), DVec.zero (2 * 3)) = .ok (A', f') ∧ TurnedForce 2 3 quarter f f' :=
  C122_fbar_turn 2 (.inl rfl) 3 (by omega) 0 0 corner _ _ _ _ quarter _ quarter_rot (carried_turned 1) (stretch_fb 1 one_pos) (fun _ => hookeC 1) (fun _ => hooke2 1) fun p h => by
    obtain rfl := List.mem_singleton.mp h
    exact ⟨fun _ _ _ => rfl, hooke2_objective 1⟩

end Verif.Finite
