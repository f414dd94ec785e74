/-
Boundary forces (C116): the integrated traction resultants, torques and nodal forces of boundary sections.
-/
import Mathlib.Tactic.NormNum
import Mathlib.Tactic.FinCases
import Verif.Proofs.BouForce

set_option linter.unusedSectionVars false
set_option linter.unusedSimpArgs false
set_option linter.unusedVariables false
set_option linter.unnecessarySeqFocus false

namespace Verif.BouForce

open Verif

variable {K : Type} [Field K]

/-! ### Specification -/

/-- A boundary point of the specification: basis functions, coordinates, normal, stress tensor, recovered strains, weight. -/
structure Bp (K : Type) where
  N : DVec K
  X : Nat → K
  n : Nat → K
  S : Nat → Nat → K
  E : List K
  w : K

/-- The stress components as they are stored: with the transverse stress or without it in two dimensions. -/
def voigt (nsd : Nat) (with33 : Bool) (S : Nat → Nat → K) : List K :=
  if nsd = 2 then (if with33 then [S 0 0, S 1 1, S 2 2, S 0 1] else [S 0 0, S 1 1, S 0 1])
  else [S 0 0, S 1 1, S 2 2, S 0 1, S 1 2, S 0 2]

/-- The point as the code sees it. -/
def Bp.pnt (nsd : Nat) (with33 : Bool) (q : Bp K) : Pnt K := ⟨q.N, q.X, q.n, q.E, voigt nsd with33 q.S, q.w⟩

/-- Component `i` of the traction. -/
def Bp.t (nsd : Nat) (q : Bp K) (i : Nat) : K := ∑ j ∈ Finset.range nsd, q.S i j * q.n j

/-- Symmetry of the stress tensor. -/
def Bp.Symm (q : Bp K) : Prop := ∀ i j, q.S i j = q.S j i

theorem traction_eq (nsd : Nat) (hn : nsd = 2 ∨ nsd = 3) (with33 : Bool) (q : Bp K) (hS : q.Symm) (i : Nat) (hi : i < nsd) :
    traction false (q.pnt nsd with33) i = q.t nsd i := by
  unfold traction Bp.t recovered Bp.pnt voigt
  rcases hn with rfl | rfl
  · cases with33 <;> interval_cases i <;>
      simp [dimOf, entry, posOf, Finset.sum_range_succ, hS 1 0]
  · interval_cases i <;> simp [dimOf, entry, posOf, Finset.sum_range_succ, hS 1 0, hS 2 0, hS 2 1]

theorem map_sum_congr' {α : Type} (l : List α) (f g : α → K) (h : ∀ a ∈ l, f a = g a) : (l.map f).sum = (l.map g).sum :=
  congrArg List.sum (List.map_congr_left h)

theorem list_swap {α : Type} (n : Nat) (l : List α) (g : Nat → α → K) :
    ∑ a ∈ Finset.range n, (l.map fun q => g a q).sum = (l.map fun q => ∑ a ∈ Finset.range n, g a q).sum := by
  induction l with
  | nil => simp
  | cons q l ih => simp only [List.map_cons, List.sum_cons, Finset.sum_add_distrib, ih]

theorem list_sub {α : Type} (l : List α) (g h : α → K) : (l.map g).sum - (l.map h).sum = (l.map fun q => g q - h q).sum := by
  induction l with
  | nil => simp
  | cons q l ih => simp only [List.map_cons, List.sum_cons, ← ih]; ring

/-! ### Resultants of a section -/

/-- **C116 (resultants).** The forces reported for a boundary section are the integrals of the traction `σ n`, and the torques those of
`(x − x₀) × σ n`, over all boundary points of all elements; there is one torque in two dimensions and three in three. -/
theorem C116_resultants (nsd : Nat) (hn : nsd = 2 ∨ nsd = 3) (with33 : Bool) (X0 : Nat → K) (elems : List (List (Bp K)))
    (hS : ∀ e ∈ elems, ∀ q ∈ e, q.Symm) :
    ∃ f, boundaryForce false nsd (some X0) (elems.map (·.map (Bp.pnt nsd with33))) = .ok f ∧
      f.n = (if nsd = 2 then 3 else 6) ∧
      (∀ i, i < nsd → f.e (i + 1) = (elems.map fun e => (e.map fun q => q.t nsd i * q.w).sum).sum) ∧
      (nsd = 2 → f.e 3 = (elems.map fun e => (e.map fun q =>
        ((q.X 0 - X0 0) * q.t 2 1 - (q.X 1 - X0 1) * q.t 2 0) * q.w).sum).sum) ∧
      (nsd = 3 →
        f.e 4 = (elems.map fun e => (e.map fun q => ((q.X 1 - X0 1) * q.t 3 2 - (q.X 2 - X0 2) * q.t 3 1) * q.w).sum).sum ∧
        f.e 5 = (elems.map fun e => (e.map fun q => ((q.X 2 - X0 2) * q.t 3 0 - (q.X 0 - X0 0) * q.t 3 2) * q.w).sum).sum ∧
        f.e 6 = (elems.map fun e => (e.map fun q => ((q.X 0 - X0 0) * q.t 3 1 - (q.X 1 - X0 1) * q.t 3 0) * q.w).sum).sum) := by
  have key := sumUp_ok (getNoComps false true nsd)
    (fun e : List (Bp K) => resultants false nsd (some X0) (e.map (Bp.pnt nsd with33))) _ elems
    (fun e _ => resultants_some false nsd X0 (e.map (Bp.pnt nsd with33)))
  obtain ⟨f, e, n, d⟩ := key
  have hlen : f.n = (if nsd = 2 then 3 else 6) := by
    rw [n]; unfold getNoComps; rcases hn with rfl | rfl <;> rfl
  have pick : ∀ k, k < f.n → f.e (k + 1) = (elems.map fun e => (e.map fun q =>
      (∑ i ∈ Finset.range nsd, (if i + 1 = k + 1 then (1 : K) else 0) * (q.t nsd i * q.w))
        + torqueDot nsd (fun i => cross (fun i => q.X i - X0 i) (traction false (q.pnt nsd with33)) i * q.w)
          (fun i => if i = k + 1 then 1 else 0)).sum).sum := by
    intro k hk
    rw [← dot_single f k hk, d]
    refine map_sum_congr' _ _ _ fun e he => ?_
    rw [List.map_map]
    refine map_sum_congr' _ _ _ fun q hq => ?_
    simp only [Function.comp]
    refine congrArg₂ (· + ·) (Finset.sum_congr rfl fun i hi => ?_) rfl
    rw [traction_eq nsd hn with33 q (hS e he q hq) i (Finset.mem_range.mp hi)]
    rfl
  refine ⟨f, by unfold boundaryForce; rw [List.map_map]; exact e, hlen, ?_, ?_, ?_⟩
  · intro i hi
    rw [pick i (by rw [hlen]; rcases hn with rfl | rfl <;> simp <;> omega)]
    refine map_sum_congr' _ _ _ fun e he => map_sum_congr' _ _ _ fun q hq => ?_
    rcases hn with rfl | rfl
    · interval_cases i <;> simp [Finset.sum_range_succ, torqueDot]
    · interval_cases i <;> simp [Finset.sum_range_succ, torqueDot]
  · rintro rfl
    rw [pick 2 (by rw [hlen]; simp)]
    refine map_sum_congr' _ _ _ fun e he => map_sum_congr' _ _ _ fun q hq => ?_
    have t := fun i hi => traction_eq 2 hn with33 q (hS e he q hq) i hi
    simp [Finset.sum_range_succ, torqueDot, cross, t 0 (by norm_num), t 1 (by norm_num)]
  · rintro rfl
    refine ⟨?_, ?_, ?_⟩
    · rw [pick 3 (by rw [hlen]; simp)]
      refine map_sum_congr' _ _ _ fun e he => map_sum_congr' _ _ _ fun q hq => ?_
      have t := fun i hi => traction_eq 3 hn with33 q (hS e he q hq) i hi
      simp [Finset.sum_range_succ, torqueDot, cross, t 0 (by norm_num), t 1 (by norm_num), t 2 (by norm_num)]
    · rw [pick 4 (by rw [hlen]; simp)]
      refine map_sum_congr' _ _ _ fun e he => map_sum_congr' _ _ _ fun q hq => ?_
      have t := fun i hi => traction_eq 3 hn with33 q (hS e he q hq) i hi
      simp [Finset.sum_range_succ, torqueDot, cross, t 0 (by norm_num), t 1 (by norm_num), t 2 (by norm_num)]
    · rw [pick 5 (by rw [hlen]; simp)]
      refine map_sum_congr' _ _ _ fun e he => map_sum_congr' _ _ _ fun q hq => ?_
      have t := fun i hi => traction_eq 3 hn with33 q (hS e he q hq) i hi
      simp [Finset.sum_range_succ, torqueDot, cross, t 0 (by norm_num), t 1 (by norm_num), t 2 (by norm_num)]

/-- **C116 (no reference point).** Without a reference point there are only the forces. -/
theorem C116_no_torque (nsd : Nat) (hn : nsd = 2 ∨ nsd = 3) (with33 : Bool) (elems : List (List (Bp K)))
    (hS : ∀ e ∈ elems, ∀ q ∈ e, q.Symm) :
    ∃ f, boundaryForce false nsd none (elems.map (·.map (Bp.pnt nsd with33))) = .ok f ∧ f.n = nsd ∧
      ∀ i, i < nsd → f.e (i + 1) = (elems.map fun e => (e.map fun q => q.t nsd i * q.w).sum).sum := by
  have key := sumUp_ok (getNoComps false false nsd)
    (fun e : List (Bp K) => resultants false nsd none (e.map (Bp.pnt nsd with33))) _ elems
    (fun e _ => resultants_none false nsd (e.map (Bp.pnt nsd with33)))
  obtain ⟨f, e, n, d⟩ := key
  have hlen : f.n = nsd := by rw [n]; rfl
  refine ⟨f, by unfold boundaryForce; rw [List.map_map]; exact e, hlen, fun i hi => ?_⟩
  rw [← dot_single f i (by omega), d]
  refine map_sum_congr' _ _ _ fun e he => ?_
  rw [List.map_map]
  refine map_sum_congr' _ _ _ fun q hq => ?_
  simp only [Function.comp]
  rw [Finset.sum_eq_single i]
  · rw [traction_eq nsd hn with33 q (hS e he q hq) i hi]; simp [Bp.pnt]
  · intro j _ hj; simp [hj]
  · intro h; exact absurd (Finset.mem_range.mpr hi) h

/-! ### Nodal forces -/

/-- **C116 (nodal forces).** The nodal force of node `a` is the integral of `N_a σ n`. -/
theorem C116_nodal (nsd : Nat) (hn : nsd = 2 ∨ nsd = 3) (with33 : Bool) (nen : Nat) (pts : List (Bp K))
    (hS : ∀ q ∈ pts, q.Symm) (hN : ∀ q ∈ pts, q.N.n = nen) :
    ∃ b, nodalForces false nsd nen (pts.map (Bp.pnt nsd with33)) = .ok b ∧ b.n = nsd * nen ∧
      (∀ a i, a < nen → i < nsd → b.e (nsd * a + i + 1) = (pts.map fun q => q.N.e (a + 1) * q.t nsd i * q.w).sum) ∧
      ∀ v : Nat → Nat → K, b.dot (dofVec nsd v) = (pts.map fun q =>
        (∑ i ∈ Finset.range nsd, (∑ a ∈ Finset.range nen, q.N.e (a + 1) * v (a + 1) (i + 1)) * q.t nsd i) * q.w).sum := by
  obtain ⟨b, e, n, d⟩ := nodalForces_ok false nsd nen (pts.map (Bp.pnt nsd with33))
    (by intro p hp; obtain ⟨q, hq, rfl⟩ := List.mem_map.mp hp; exact hN q hq)
  have d' : ∀ x, b.dot x = (pts.map fun q => ∑ a ∈ Finset.range nen, ∑ i ∈ Finset.range nsd,
      x (nsd * a + i + 1) * (q.t nsd i * q.N.e (a + 1) * q.w)).sum := by
    intro x
    rw [d, List.map_map]
    refine map_sum_congr' _ _ _ fun q hq => Finset.sum_congr rfl fun a _ => Finset.sum_congr rfl fun i hi => ?_
    rw [traction_eq nsd hn with33 q (hS q hq) i (Finset.mem_range.mp hi)]
    rfl
  refine ⟨b, e, n, ?_, ?_⟩
  · intro a i ha hi
    rw [← dot_single b (nsd * a + i) (by rw [n]; have := Cont.dof_lt ha hi; omega), d']
    refine map_sum_congr' _ _ _ fun q hq => ?_
    rw [Finset.sum_eq_single a, Finset.sum_eq_single i]
    · rw [if_pos rfl]; ring
    · intro j hj hji
      rw [if_neg (show ¬ (nsd * a + j + 1 = nsd * a + i + 1) by omega), zero_mul]
    · intro h; exact absurd (Finset.mem_range.mpr hi) h
    · intro c hc hca
      refine Finset.sum_eq_zero fun j hj => ?_
      rw [if_neg, zero_mul]
      intro h
      have hj := Finset.mem_range.mp hj
      have h' : nsd * c + j = nsd * a + i := by omega
      have := congrArg (· / nsd) h'
      simp only [Nat.mul_add_div (show 0 < nsd by omega), Nat.div_eq_of_lt hj, Nat.div_eq_of_lt hi] at this
      omega
    · intro h; exact absurd (Finset.mem_range.mpr ha) h
  · intro v
    rw [d']
    refine map_sum_congr' _ _ _ fun q hq => ?_
    rw [Finset.sum_comm, Finset.sum_mul]
    refine Finset.sum_congr rfl fun i hi => ?_
    rw [Finset.sum_mul, Finset.sum_mul]
    refine Finset.sum_congr rfl fun a _ => ?_
    rw [dofVec_eq nsd v a i (Finset.mem_range.mp hi)]
    ring

/-- **C116 (nodal forces and resultants).** If the basis functions sum to one and reproduce the coordinates at the boundary points, the
nodal forces of an element sum to its resultant, and their moments about the reference point to its torque. -/
theorem C116_balance (nsd : Nat) (hn : nsd = 2 ∨ nsd = 3) (with33 : Bool) (nen : Nat) (X0 : Nat → K) (xn : Nat → Nat → K)
    (pts : List (Bp K)) (hS : ∀ q ∈ pts, q.Symm) (hN : ∀ q ∈ pts, q.N.n = nen)
    (h1 : ∀ q ∈ pts, ∑ a ∈ Finset.range nen, q.N.e (a + 1) = 1)
    (hX : ∀ q ∈ pts, ∀ i, i < nsd → ∑ a ∈ Finset.range nen, q.N.e (a + 1) * xn a i = q.X i) :
    ∃ b f, nodalForces false nsd nen (pts.map (Bp.pnt nsd with33)) = .ok b ∧
      boundaryForce false nsd (some X0) [pts.map (Bp.pnt nsd with33)] = .ok f ∧
      (∀ i, i < nsd → ∑ a ∈ Finset.range nen, b.e (nsd * a + i + 1) = f.e (i + 1)) ∧
      (nsd = 2 → ∑ a ∈ Finset.range nen, ((xn a 0 - X0 0) * b.e (2 * a + 2) - (xn a 1 - X0 1) * b.e (2 * a + 1)) = f.e 3) ∧
      (nsd = 3 →
        ∑ a ∈ Finset.range nen, ((xn a 1 - X0 1) * b.e (3 * a + 3) - (xn a 2 - X0 2) * b.e (3 * a + 2)) = f.e 4 ∧
        ∑ a ∈ Finset.range nen, ((xn a 2 - X0 2) * b.e (3 * a + 1) - (xn a 0 - X0 0) * b.e (3 * a + 3)) = f.e 5 ∧
        ∑ a ∈ Finset.range nen, ((xn a 0 - X0 0) * b.e (3 * a + 2) - (xn a 1 - X0 1) * b.e (3 * a + 1)) = f.e 6) := by
  obtain ⟨b, eb, nb, hb, _⟩ := C116_nodal nsd hn with33 nen pts hS hN
  obtain ⟨f, ef, nf, hf, hf2, hf3⟩ := C116_resultants nsd hn with33 X0 [pts]
    (by intro e he q hq; rw [List.mem_singleton] at he; subst he; exact hS q hq)
  simp only [List.map_cons, List.map_nil, List.sum_cons, List.sum_nil, add_zero] at ef hf hf2 hf3
  have swap := fun g : Nat → Bp K → K => list_swap nen pts g
  have mom : ∀ i j, i < nsd → j < nsd → ∑ a ∈ Finset.range nen, (xn a i - X0 i) * b.e (nsd * a + j + 1)
      = (pts.map fun q => (q.X i - X0 i) * q.t nsd j * q.w).sum := by
    intro i j hi hj
    have e1 : ∀ a ∈ Finset.range nen, (xn a i - X0 i) * b.e (nsd * a + j + 1)
        = (pts.map fun q => (xn a i - X0 i) * (q.N.e (a + 1) * q.t nsd j * q.w)).sum := by
      intro a ha
      rw [hb a j (Finset.mem_range.mp ha) hj, List.sum_map_mul_left]
    rw [Finset.sum_congr rfl e1, swap]
    refine map_sum_congr' _ _ _ fun q hq => ?_
    have e2 : ∀ a ∈ Finset.range nen, (xn a i - X0 i) * (q.N.e (a + 1) * q.t nsd j * q.w)
        = q.N.e (a + 1) * xn a i * (q.t nsd j * q.w) - q.N.e (a + 1) * (X0 i * (q.t nsd j * q.w)) := fun a _ => by ring
    rw [Finset.sum_congr rfl e2, Finset.sum_sub_distrib, ← Finset.sum_mul, ← Finset.sum_mul, hX q hq i hi, h1 q hq]
    ring
  have subm := fun g h : Bp K → K => list_sub pts g h
  refine ⟨b, f, eb, ef, ?_, ?_, ?_⟩
  · intro i hi
    rw [Finset.sum_congr rfl fun a ha => hb a i (Finset.mem_range.mp ha) hi, swap, hf i hi]
    refine map_sum_congr' _ _ _ fun q hq => ?_
    rw [Finset.sum_congr rfl fun a _ => mul_assoc _ _ _, ← Finset.sum_mul, h1 q hq, one_mul]
  · rintro rfl
    rw [Finset.sum_sub_distrib, hf2 rfl]
    refine (congrArg₂ (· - ·) (mom 0 1 (by norm_num) (by norm_num)) (mom 1 0 (by norm_num) (by norm_num))).trans ?_
    rw [subm]
    exact map_sum_congr' _ _ _ fun q hq => by ring
  · rintro rfl
    obtain ⟨g4, g5, g6⟩ := hf3 rfl
    refine ⟨?_, ?_, ?_⟩
    · rw [Finset.sum_sub_distrib, g4]
      refine (congrArg₂ (· - ·) (mom 1 2 (by norm_num) (by norm_num)) (mom 2 1 (by norm_num) (by norm_num))).trans ?_
      rw [subm]
      exact map_sum_congr' _ _ _ fun q hq => by ring
    · rw [Finset.sum_sub_distrib, g5]
      refine (congrArg₂ (· - ·) (mom 2 0 (by norm_num) (by norm_num)) (mom 0 2 (by norm_num) (by norm_num))).trans ?_
      rw [subm]
      exact map_sum_congr' _ _ _ fun q hq => by ring
    · rw [Finset.sum_sub_distrib, g6]
      refine (congrArg₂ (· - ·) (mom 0 1 (by norm_num) (by norm_num)) (mom 1 0 (by norm_num) (by norm_num))).trans ?_
      rw [subm]
      exact map_sum_congr' _ _ _ fun q hq => by ring

/-! ### Uniform stress -/

theorem t_uniform (nsd : Nat) (S : Nat → Nat → K) (q : Bp K) (h : q.S = S) (i : Nat) :
    q.t nsd i = ∑ j ∈ Finset.range nsd, S i j * q.n j := by unfold Bp.t; rw [h]

/-- **C116 (equilibrium of uniform stress).** If the section is the whole boundary of a body (so that the normals integrate to zero and
`x_i n_j` integrates to the volume for `i = j` and to zero otherwise), a uniform stress gives neither a force nor a torque about any point. -/
theorem C116_uniform (nsd : Nat) (hn : nsd = 2 ∨ nsd = 3) (with33 : Bool) (X0 : Nat → K) (S : Nat → Nat → K) (V : K)
    (pts : List (Bp K)) (hS : ∀ i j, S i j = S j i) (hu : ∀ q ∈ pts, q.S = S)
    (hc : ∀ j, j < nsd → (pts.map fun q => q.n j * q.w).sum = 0)
    (hv : ∀ i j, i < nsd → j < nsd → (pts.map fun q => q.X i * q.n j * q.w).sum = if i = j then V else 0) :
    ∃ f, boundaryForce false nsd (some X0) [pts.map (Bp.pnt nsd with33)] = .ok f ∧ ∀ k, 1 ≤ k → k ≤ f.n → f.e k = 0 := by
  obtain ⟨f, ef, nf, hf, hf2, hf3⟩ := C116_resultants nsd hn with33 X0 [pts]
    (by
      intro e he q hq; rw [List.mem_singleton] at he; subst he
      intro i j; rw [hu q hq]; exact hS i j)
  simp only [List.map_cons, List.map_nil, List.sum_cons, List.sum_nil, add_zero] at ef hf hf2 hf3
  have force : ∀ i, (pts.map fun q => q.t nsd i * q.w).sum = 0 := by
    intro i
    have e : ∀ q ∈ pts, q.t nsd i * q.w = ∑ j ∈ Finset.range nsd, S i j * (q.n j * q.w) := by
      intro q hq; rw [t_uniform nsd S q (hu q hq), Finset.sum_mul]
      exact Finset.sum_congr rfl fun j _ => by ring
    rw [map_sum_congr' _ _ _ e, ← list_swap]
    refine Finset.sum_eq_zero fun j hj => ?_
    rw [List.sum_map_mul_left, hc j (Finset.mem_range.mp hj), mul_zero]
  have mom : ∀ i k, i < nsd → (pts.map fun q => (q.X i - X0 i) * q.t nsd k * q.w).sum = S k i * V := by
    intro i k hi
    have e : ∀ q ∈ pts, (q.X i - X0 i) * q.t nsd k * q.w
        = (∑ j ∈ Finset.range nsd, S k j * (q.X i * q.n j * q.w)) - X0 i * (q.t nsd k * q.w) := by
      intro q hq; rw [t_uniform nsd S q (hu q hq), sub_mul, sub_mul, Finset.mul_sum, Finset.sum_mul]
      refine congrArg₂ (· - ·) (Finset.sum_congr rfl fun j _ => by ring) (by ring)
    rw [map_sum_congr' _ _ _ e, ← list_sub, ← list_swap, List.sum_map_mul_left, force, mul_zero, sub_zero]
    rw [Finset.sum_eq_single i]
    · rw [List.sum_map_mul_left, hv i i hi hi, if_pos rfl]
    · intro j hj hji
      rw [List.sum_map_mul_left, hv i j hi (Finset.mem_range.mp hj), if_neg (Ne.symm hji), mul_zero]
    · intro h; exact absurd (Finset.mem_range.mpr hi) h
  have tor : ∀ i k, i < nsd → k < nsd → (pts.map fun q => ((q.X i - X0 i) * q.t nsd k - (q.X k - X0 k) * q.t nsd i) * q.w).sum = 0 := by
    intro i k hi hk
    rw [map_sum_congr' _ _ _ (fun q _ => sub_mul _ _ _), ← list_sub, mom i k hi, mom k i hk, hS k i, sub_self]
  refine ⟨f, ef, fun k h1 h2 => ?_⟩
  rcases hn with rfl | rfl
  · simp only [if_true] at nf
    rw [nf] at h2
    interval_cases k
    · rw [hf 0 (by norm_num)]; exact force 0
    · rw [hf 1 (by norm_num)]; exact force 1
    · rw [hf2 rfl]; exact tor 0 1 (by norm_num) (by norm_num)
  · rw [if_neg (by norm_num)] at nf
    rw [nf] at h2
    obtain ⟨g4, g5, g6⟩ := hf3 rfl
    interval_cases k
    · rw [hf 0 (by norm_num)]; exact force 0
    · rw [hf 1 (by norm_num)]; exact force 1
    · rw [hf 2 (by norm_num)]; exact force 2
    · rw [g4]; exact tor 1 2 (by norm_num) (by norm_num)
    · rw [g5]; exact tor 2 0 (by norm_num) (by norm_num)
    · rw [g6]; exact tor 0 1 (by norm_num) (by norm_num)

/-! ### Boundary forces and applied loads -/

/-- The nodal loads of the traction `σ n` applied at the points of an element, by `Elasticity::evalBou`; `twoPi` is `2π`. -/
def loads (nsd nen : Nat) (axi : Bool) (twoPi : K) (pts : List (Bp K)) : Res (Cont.Loads K) :=
  pts.foldl (fun r q => r.bind fun L => Cont.evalBou nsd axi L q.N (fun i => q.t nsd (i - 1)) (twoPi * q.X 0) q.w)
    (.ok ⟨DVec.zero (nsd * nen), DVec.zero nsd⟩)

theorem loads_ok (nsd nen : Nat) (axi : Bool) (twoPi : K) (pts : List (Bp K)) (L : Cont.Loads K)
    (h1 : L.ES.n = nsd * nen) (hN : ∀ q ∈ pts, q.N.n = nen) :
    ∃ L', pts.foldl (fun (r : Res (Cont.Loads K)) q => r.bind fun L =>
        Cont.evalBou nsd axi L q.N (fun i => q.t nsd (i - 1)) (twoPi * q.X 0) q.w) (.ok L) = .ok L' ∧ L'.ES.n = nsd * nen ∧
      ∀ x, L'.ES.dot x = L.ES.dot x + (pts.map fun q => ∑ a ∈ Finset.range nen, ∑ i ∈ Finset.range nsd,
        x (nsd * a + i + 1) * (q.t nsd i * q.N.e (a + 1) * (if axi then twoPi * q.X 0 * q.w else q.w))).sum := by
  induction pts generalizing L with
  | nil => exact ⟨L, rfl, h1, by simp⟩
  | cons q l ih =>
    have hq := hN q (by simp)
    obtain ⟨b1, e1, n1, d1⟩ := DVec.addMany_ok (A := L.ES)
      (l := (List.range q.N.n).flatMap fun a => (List.range nsd).map fun i =>
        (nsd * a + i + 1, q.t nsd (i + 1 - 1) * q.N.e (a + 1) * (if axi then twoPi * q.X 0 * q.w else q.w)))
      (by
        intro x hx
        obtain ⟨a, ha, hx⟩ := List.mem_flatMap.mp hx
        obtain ⟨i, hi, rfl⟩ := List.mem_map.mp hx
        have := Cont.dof_lt (n := nen) (hq ▸ List.mem_range.mp ha) (List.mem_range.mp hi)
        simp only []; omega)
    obtain ⟨b2, e2, n2, d2⟩ := DVec.addMany_ok (A := L.sumLoad)
      (l := (List.range (min nsd L.sumLoad.n)).map fun i => (i + 1, q.t nsd (i + 1 - 1) * q.w))
      (by
        intro x hx
        obtain ⟨i, hi, rfl⟩ := List.mem_map.mp hx
        have := List.mem_range.mp hi
        simp only []; omega)
    obtain ⟨L', e, n, d⟩ := ih ⟨b1, b2⟩ (n1.trans h1) (fun q hq => hN q (by simp [hq]))
    refine ⟨L', ?_, n, fun x => ?_⟩
    · rw [List.foldl_cons]
      have : Cont.evalBou nsd axi L q.N (fun i => q.t nsd (i - 1)) (twoPi * q.X 0) q.w = .ok ⟨b1, b2⟩ := by
        unfold Cont.evalBou
        refine (congrArg (fun r => Res.bind r _) e1).trans ?_
        simp only [Res.bind]
        refine (congrArg (fun r => Res.bind r _) e2).trans rfl
      show List.foldl _ (Cont.evalBou nsd axi L q.N (fun i => q.t nsd (i - 1)) (twoPi * q.X 0) q.w) l = _
      rw [this]; exact e
    · rw [d, d1, sum_flatMap, sum_list_range, hq, List.map_cons, List.sum_cons, add_assoc]
      refine congrArg₂ (· + ·) rfl (congrArg₂ (· + ·) (Finset.sum_congr rfl fun a _ => ?_) rfl)
      rw [List.map_map, sum_list_range]
      rfl

/-- **C116 (loaded boundaries), partial.** Without axisymmetry, the nodal forces of a boundary where the stress is in equilibrium with the
applied traction are exactly the nodal loads of that traction. -/
theorem C116_loads_partial (nsd : Nat) (hn : nsd = 2 ∨ nsd = 3) (with33 : Bool) (nen : Nat) (twoPi : K) (pts : List (Bp K))
    (hS : ∀ q ∈ pts, q.Symm) (hN : ∀ q ∈ pts, q.N.n = nen) :
    ∃ b L, nodalForces false nsd nen (pts.map (Bp.pnt nsd with33)) = .ok b ∧ loads nsd nen false twoPi pts = .ok L ∧
      b.n = L.ES.n ∧ ∀ k, 1 ≤ k → k ≤ b.n → b.e k = L.ES.e k := by
  obtain ⟨b, e, n, d⟩ := nodalForces_ok false nsd nen (pts.map (Bp.pnt nsd with33))
    (by intro p hp; obtain ⟨q, hq, rfl⟩ := List.mem_map.mp hp; exact hN q hq)
  obtain ⟨L, e2, n2, d2⟩ := loads_ok nsd nen false twoPi pts ⟨DVec.zero (nsd * nen), DVec.zero nsd⟩ rfl hN
  refine ⟨b, L, e, e2, n.trans n2.symm, fun k h1 h2 => ?_⟩
  obtain ⟨m, rfl⟩ : ∃ m, k = m + 1 := ⟨k - 1, by omega⟩
  rw [← dot_single b m (by omega), ← dot_single L.ES m (by omega), d, d2, zero_dot', zero_add, List.map_map]
  refine map_sum_congr' _ _ _ fun q hq => Finset.sum_congr rfl fun a _ => Finset.sum_congr rfl fun i hi => ?_
  rw [traction_eq nsd hn with33 q (hS q hq) i (Finset.mem_range.mp hi)]
  simp [Bp.pnt]

/-- **C116 (axisymmetry), violated.** In an axisymmetric problem the boundary forces lack the factor `2πr` of the loads: a boundary at
radius `r` under the traction `p` has the nodal load `2πr p w` and the reported nodal force and resultant `p w`. -/
theorem C116_axisymmetric_violated (r p w twoPi : K) (hw : p * w ≠ 0) (hr : twoPi * r ≠ 1) :
    let q : Bp K := ⟨⟨1, fun _ => 1⟩, ![r, 0, 0] ∘ Fin.ofNat 3, fun i => if i = 0 then 1 else 0, fun i j => if i = 0 ∧ j = 0 then p else 0, [], w⟩
    ∃ b f L, nodalForces false 2 1 [q.pnt 2 true] = .ok b ∧ boundaryForce false 2 none [[q.pnt 2 true]] = .ok f ∧
      loads 2 1 true twoPi [q] = .ok L ∧ b.e 1 = p * w ∧ f.e 1 = p * w ∧ L.ES.e 1 = twoPi * r * (p * w) ∧ b.e 1 ≠ L.ES.e 1 := by
  intro q
  have hs : q.Symm := by intro i j; simp only [q]; split_ifs <;> simp_all
  have ht : q.t 2 0 = p := by simp [q, Bp.t, Finset.sum_range_succ]
  obtain ⟨b, e, n, d, _⟩ := C116_nodal 2 (Or.inl rfl) true 1 [q] (by simpa using hs) (by simp [q])
  obtain ⟨f, ef, nf, hf⟩ := C116_no_torque 2 (Or.inl rfl) true [[q]] (by simpa using hs)
  obtain ⟨L, e2, n2, d2⟩ := loads_ok 2 1 true twoPi [q] ⟨DVec.zero 2, DVec.zero 2⟩ rfl (by simp [q])
  have hb : b.e 1 = p * w := by
    have := d 0 0 (by norm_num) (by norm_num)
    simp only [List.map_cons, List.map_nil, List.sum_cons, List.sum_nil, add_zero, ht] at this
    simpa [q] using this
  have hL : L.ES.e 1 = twoPi * r * (p * w) := by
    rw [← dot_single L.ES 0 (by rw [n2]; norm_num), d2, zero_dot']
    simp [Finset.sum_range_succ, ht]
    simp [q]
    ring
  refine ⟨b, f, L, e, ef, e2, hb, ?_, hL, ?_⟩
  · have := hf 0 (by norm_num)
    simp only [List.map_cons, List.map_nil, List.sum_cons, List.sum_nil, add_zero, ht] at this
    simpa [q] using this
  · rw [hb, hL]
    intro h
    apply hr
    have : (twoPi * r - 1) * (p * w) = 0 := by linear_combination -h
    rcases mul_eq_zero.mp this with h | h
    · linear_combination h
    · exact absurd h hw

/-- **C116 (strain output), violated.** When the output of strains is wanted instead of stresses, the boundary forces are computed from the
strains: the bar under the stress `E ε` with the strain `ε` reports the force `ε w`. -/
theorem C116_strain_violated (E e w : K) (he : e * w ≠ 0) (hE : E ≠ 1) :
    let q : Bp K := ⟨⟨1, fun _ => 1⟩, fun _ => 0, fun i => if i = 0 then 1 else 0, fun i j => if i = 0 ∧ j = 0 then E * e else 0, [e, 0, 0], w⟩
    ∃ f g, boundaryForce true 2 none [[q.pnt 2 false]] = .ok f ∧ boundaryForce false 2 none [[q.pnt 2 false]] = .ok g ∧
      f.e 1 = e * w ∧ g.e 1 = q.t 2 0 * w ∧ f.e 1 ≠ g.e 1 := by
  intro q
  have hs : q.Symm := by intro i j; simp only [q]; split_ifs <;> simp_all
  have ht : q.t 2 0 = E * e := by simp [q, Bp.t, Finset.sum_range_succ]
  obtain ⟨g, eg, ng, hg⟩ := C116_no_torque 2 (Or.inl rfl) false [[q]] (by simpa using hs)
  obtain ⟨f, ef, nf, df⟩ := sumUp_ok (getNoComps false false 2) (fun e : List (Pnt K) => resultants true 2 none e) _ [[q.pnt 2 false]]
    (fun e _ => resultants_none true 2 e)
  have h1 : f.e 1 = e * w := by
    rw [← dot_single f 0 (by rw [nf]; decide), df]
    simp [Finset.sum_range_succ, traction, recovered, dimOf, entry, posOf, Bp.pnt, q]
  have h2 : g.e 1 = q.t 2 0 * w := by
    have := hg 0 (by norm_num)
    simpa [q] using this
  refine ⟨f, g, ef, eg, h1, h2, ?_⟩
  rw [h1, h2, ht]
  intro h
  have : (E - 1) * (e * w) = 0 := by linear_combination -h
  rcases mul_eq_zero.mp this with h | h
  · exact hE (by linear_combination h)
  · exact absurd h he

/-! ### Sections -/

/-- **C116 (sections).** The sections are reported in the order of their codes, each with its own reference point, the first having number
one; without any section the calculation reports failure and nothing is printed. -/
theorem C116_sections (nsd : Nat) (s : Bool) (elems : Int → List (List (Pnt K))) (bCode : List (Int × (Nat → K))) {V : Type}
    (trunc : V → V) (vals : List (List V)) :
    ((calcBouForces s nsd elems bCode).1 = true ↔ bCode ≠ []) ∧
    (calcBouForces s nsd elems bCode).2.length = bCode.length ∧
    (∀ (k : Nat) (c : Int × (Nat → K)), bCode[k]? = some c →
      (calcBouForces s nsd elems bCode).2[k]? = some (boundaryForce s nsd (some c.2) (elems c.1))) ∧
    printed trunc false vals = none ∧
    ∃ l, printed trunc true vals = some l ∧ l.length = vals.length ∧ ∀ k v, vals[k]? = some v → l[k]? = some (k + 1, v.map trunc) := by
  refine ⟨?_, ?_, ?_, rfl, _, rfl, ?_, ?_⟩
  · cases bCode <;> simp [calcBouForces]
  · simp [calcBouForces]
  · intro k c hk; simp [calcBouForces, hk]
  · simp
  · intro k v hk; simp [hk, Nat.add_comm]

/-! ### Examples -/

/-- A square under shear: corner points of the sides with their normals. -/
def square : List (Bp ℚ) :=
  let S : Nat → Nat → ℚ := fun i j => if i = j then 0 else 5
  let mk (x y nx ny : ℚ) : Bp ℚ := ⟨⟨1, fun _ => 1⟩, fun i => if i = 0 then x else y, fun i => if i = 0 then nx else ny, S, [], 2⟩
  [mk 1 0 1 0, mk (-1) 0 (-1) 0, mk 0 1 0 1, mk 0 (-1) 0 (-1)]

/-- The hypotheses of C116_uniform hold for the square with area four. -/
example : (∀ j, j < 2 → (square.map fun q => q.n j * q.w).sum = 0) ∧
    (∀ i j, i < 2 → j < 2 → (square.map fun q => q.X i * q.n j * q.w).sum = if i = j then 4 else 0) := by
  constructor
  · intro j hj; interval_cases j <;> simp [square]
  · intro i j hi hj; interval_cases i <;> interval_cases j <;> norm_num [square]

/-- The hypotheses of C116_balance hold in the middle of a line element, with a stress which gives a force. -/
example : let q : Bp ℚ := ⟨⟨2, fun _ => 1 / 2⟩, fun i => if i = 0 then 1 else 3, fun i => if i = 0 then 0 else 1, fun i j => i + j, [], 2⟩
    q.Symm ∧ ∑ a ∈ Finset.range 2, q.N.e (a + 1) = 1 ∧
    (∀ i, i < 2 → ∑ a ∈ Finset.range 2, q.N.e (a + 1) * (fun a i => if i = 0 then (2 * a : ℚ) else 3) a i = q.X i) ∧
    q.t 2 0 * q.w = 2 := by
  refine ⟨fun i j => by simp [add_comm], by norm_num [Finset.sum_range_succ], fun i hi => ?_, by norm_num [Bp.t, Finset.sum_range_succ]⟩
  interval_cases i <;> norm_num [Finset.sum_range_succ]

end Verif.BouForce
