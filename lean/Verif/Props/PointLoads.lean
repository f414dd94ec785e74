/-
Property C89: point loads act where the input puts them, and the load vector, the load sums, the load gradient and the external energy agree.
-/
import Mathlib.Tactic.Ring
import Mathlib.Tactic.FieldSimp
import Mathlib.Tactic.NormNum
import Mathlib.Tactic.Linarith
import Mathlib.Algebra.BigOperators.Ring.Finset
import Mathlib.Algebra.BigOperators.Group.Finset.Piecewise
import Mathlib.Algebra.Order.Ring.Rat
import Mathlib.Analysis.Calculus.Deriv.Add
import Mathlib.Analysis.Calculus.Deriv.Mul
import Mathlib.Order.Interval.Finset.Nat
import Verif.Model.PointLoads

set_option linter.unusedSectionVars false
set_option linter.unusedSimpArgs false
set_option linter.unusedVariables false

namespace Verif.PointLoads

variable {K : Type}

/-! ### Specification -/

/-- Where a load belongs: nothing when the point can not be evaluated; the element for element loads; otherwise the node at the point, or the closest node when
there is none. -/
def target (pt : Point) (onElement : Bool) : Option Int :=
  if pt.imatch < 0 then none
  else if onElement then (if 0 < pt.element then some pt.element else none)
  else if 0 < pt.imatch then some pt.imatch
  else if 0 < pt.closest then some pt.closest
  else none

/-- The contribution of one load with value `P` to degree of freedom `i` of node `a`. -/
def share [Field K] (N : Nat → K) (node dof : Int) (P : K) (a i : Nat) : K :=
  if 0 < dof then (if (a : Int) = node ∧ (i : Int) = dof then P else 0)
  else (if (i : Int) = -dof then P * N a else 0)

/-- Loads with directions the patch has. -/
def Valid (npv : Nat) (l : Load K) : Prop := l.dof ≠ 0 ∧ -(npv : Int) ≤ l.dof ∧ l.dof ≤ npv ∧ (0 < l.dof → 0 ≤ l.node)

/-! ### Locating the loads -/

/-- **C89**: preprocessing succeeds exactly when each load has its node or element, and stores just that. -/
theorem C89_located (at_ : Load K → Point) (loads : List (Load K)) :
    ((preprocess at_ loads).2 = true ↔ ∀ l ∈ loads, (target (at_ l) (decide (l.dof < 0))).isSome) ∧
    (preprocess at_ loads).1.length = loads.length ∧
    ∀ (j : Nat) l, loads[j]? = some l → ∀ n, target (at_ l) (decide (l.dof < 0)) = some n →
      (preprocess at_ loads).1[j]? = some { l with node := n } := by
  have hloc : ∀ l : Load K, (0 < locate (at_ l) l.dof ↔ (target (at_ l) (decide (l.dof < 0))).isSome) ∧
      ∀ n, target (at_ l) (decide (l.dof < 0)) = some n → locate (at_ l) l.dof = n := by
    intro l
    unfold locate target
    generalize (at_ l).imatch = m; generalize (at_ l).closest = c; generalize (at_ l).element = e
    simp only [decide_eq_true_eq]
    by_cases h1 : m < 0
    · have : ¬ (m ≥ 0 ∧ l.dof < 0) := by omega
      have h3 : ¬ (m = 0 ∧ c > 0) := by omega
      rw [if_neg this, if_neg h3, if_pos h1]; simp; omega
    · by_cases h2 : l.dof < 0
      · have : m ≥ 0 ∧ l.dof < 0 := by omega
        rw [if_pos this, if_neg h1, if_pos h2]
        by_cases h3 : 0 < e
        · simp [h3]
        · simp [h3]
      · have : ¬ (m ≥ 0 ∧ l.dof < 0) := by omega
        rw [if_neg this, if_neg h1, if_neg h2]
        by_cases h3 : 0 < m
        · have h4 : ¬ (m = 0 ∧ c > 0) := by omega
          rw [if_neg h4]; simp [h3]
        · by_cases h5 : 0 < c
          · have h4 : m = 0 ∧ c > 0 := by omega
            rw [if_pos h4]; simp [h3, h5]
          · have h4 : ¬ (m = 0 ∧ c > 0) := by omega
            rw [if_neg h4]; simp [h3, h5]
  have hpre : ∀ loads : List (Load K), preprocess at_ loads =
      (loads.map (fun l => { l with node := locate (at_ l) l.dof }), loads.all fun l => decide (locate (at_ l) l.dof > 0)) := by
    intro loads
    induction loads using List.reverseRecOn with
    | nil => rfl
    | append_singleton ls l ih =>
      unfold preprocess at ih ⊢
      rw [List.foldl_append, ih]
      simp
  rw [hpre]
  refine ⟨?_, by simp, ?_⟩
  · simp only [List.all_eq_true, decide_eq_true_eq]
    exact forall₂_congr fun l _ => (hloc l).1
  · intro j l hj n hn
    simp only [List.getElem?_map, hj, Option.map_some, (hloc l).2 n hn]

example : (preprocess (K := ℚ) (fun l => if l.dof < 0 then ⟨0, 7, 3⟩ else ⟨0, 7, 3⟩)
    [⟨1, 0, -3, (0, 0), id, fun _ => 1⟩, ⟨1, 0, 3, (0, 0), id, fun _ => 1⟩]).1.map (·.node) = [3, 7] := by decide +kernel

/-! ### Load vector, sums and energy of plates and shells -/

section
variable [Field K]

theorem shellTerm_ok (npv : Nat) (hn : npv ≤ 3) (N : Nat → K × K → Nat → K) (t : K) (s : Acc K) (l : Load K) (hl : Valid npv l) :
    ∃ s', shellTerm npv N t s l = .ok s' ∧ (∀ a i, s'.b a i = s.b a i + share (N l.patch l.xi) l.node l.dof (l.p t) a i) ∧
      ∀ i, s'.sum i = s.sum i + (if l.dof = i + 1 ∨ l.dof = -(i + 1 : Int) then l.p t else 0) := by
  obtain ⟨h0, h1, h2, h3⟩ := hl
  unfold shellTerm
  by_cases hd : l.dof > 0
  · rw [if_pos hd]
    refine ⟨_, rfl, fun a i => ?_, fun i => ?_⟩
    · simp only [addNode, share, if_pos hd]
      have : (a = l.node.toNat ∧ i = l.dof.toNat) ↔ ((a : Int) = l.node ∧ (i : Int) = l.dof) := by have := h3 hd; omega
      simp only [this]
    · have : (i = l.dof.toNat - 1) ↔ (l.dof = i + 1 ∨ l.dof = -(i + 1 : Int)) := by omega
      simp only [this]
  · rw [if_neg hd]
    have : 1 ≤ -l.dof ∧ -l.dof ≤ 3 := by omega
    unfold assemblePoint
    rw [if_pos this]
    refine ⟨_, rfl, fun a i => ?_, fun i => ?_⟩
    · simp only [evalPoint, share, if_neg hd]
      by_cases hi : (i : Int) = -l.dof
      · have : 1 ≤ i ∧ i ≤ npv ∧ i ≤ 3 := by omega
        simp [hi, this]
      · simp [hi]
    · simp only [evalPoint]
      by_cases hi : ((i + 1 : Nat) : Int) = -l.dof
      · have h4 : i < npv ∧ i < 3 := by omega
        have h5 : l.dof = i + 1 ∨ l.dof = -(i + 1 : Int) := by omega
        rw [if_pos h5, if_pos ⟨trivial, h4⟩, if_pos hi]
      · have h5 : ¬ (l.dof = i + 1 ∨ l.dof = -(i + 1 : Int)) := by omega
        rw [if_neg h5, if_neg hi]; simp

/-- **C89**: the load vector of a plate or shell receives the sum of the loads: the value at the node of a nodal load, the value times the basis functions for an element
load; and the reported load sum in each direction is the sum of the values of the loads in this direction. -/
theorem C89_vector (npv : Nat) (hn : npv ≤ 3) (N : Nat → K × K → Nat → K) (t : K) (loads : List (Load K)) (s : Acc K) (hl : ∀ l ∈ loads, Valid npv l) :
    ∃ s', shellTerms npv N t loads s = .ok s' ∧
      (∀ a i, s'.b a i = s.b a i + (loads.map fun l => share (N l.patch l.xi) l.node l.dof (l.p t) a i).sum) ∧
      ∀ i, s'.sum i = s.sum i + (loads.map fun (l : Load K) => if l.dof = (i : Int) + 1 ∨ l.dof = -((i : Int) + 1) then l.p t else 0).sum := by
  induction loads using List.reverseRecOn with
  | nil => exact ⟨s, rfl, by simp, by simp⟩
  | append_singleton ls l ih =>
    obtain ⟨s1, h1, h2, h3⟩ := ih fun l hm => hl l (by simp [hm])
    obtain ⟨s2, h4, h5, h6⟩ := shellTerm_ok npv hn N t s1 l (hl l (by simp))
    refine ⟨s2, ?_, fun a i => ?_, fun i => ?_⟩
    · unfold shellTerms at h1 ⊢
      rw [List.foldl_append, h1]
      simpa [Res.bind] using h4
    · rw [h5, h2]; simp [add_assoc]
    · rw [h6, h3]; simp [add_assoc]

theorem shellGradTerm_ok (npv : Nat) (hn : npv ≤ 3) (N : Nat → K × K → Nat → K) (t : K) (s : Acc K) (l : Load K) (hl : Valid npv l) :
    ∃ s', shellGradTerm npv N t s l = .ok s' ∧ (∀ a i, s'.b a i = s.b a i + share (N l.patch l.xi) l.node l.dof (l.dp t) a i) ∧
      ∀ i, s'.sum i = s.sum i := by
  obtain ⟨h0, h1, h2, h3⟩ := hl
  unfold shellGradTerm
  by_cases hd : l.dof > 0
  · rw [if_pos hd]
    refine ⟨_, rfl, fun a i => ?_, fun i => rfl⟩
    simp only [addNode, share, if_pos hd]
    have : (a = l.node.toNat ∧ i = l.dof.toNat) ↔ ((a : Int) = l.node ∧ (i : Int) = l.dof) := by have := h3 hd; omega
    simp only [this]
  · rw [if_neg hd]
    have : 1 ≤ -l.dof ∧ -l.dof ≤ 3 := by omega
    unfold assemblePoint
    rw [if_pos this]
    refine ⟨_, rfl, fun a i => ?_, fun i => ?_⟩
    · simp only [evalPoint, share, if_neg hd]
      by_cases hi : (i : Int) = -l.dof
      · have : 1 ≤ i ∧ i ≤ npv ∧ i ≤ 3 := by omega
        simp [hi, this]
      · simp [hi]
    · simp [evalPoint]

theorem shellGrad_ok (npv : Nat) (hn : npv ≤ 3) (N : Nat → K × K → Nat → K) (t : K) (loads : List (Load K)) (s : Acc K) (hl : ∀ l ∈ loads, Valid npv l) :
    ∃ s', shellGrad npv N t loads s = .ok s' ∧
      (∀ a i, s'.b a i = s.b a i + (loads.map fun l => share (N l.patch l.xi) l.node l.dof (l.dp t) a i).sum) ∧
      ∀ i, s'.sum i = s.sum i := by
  induction loads using List.reverseRecOn with
  | nil => exact ⟨s, rfl, by simp, by simp⟩
  | append_singleton ls l ih =>
    obtain ⟨s1, h1, h2, h3⟩ := ih fun l hm => hl l (by simp [hm])
    obtain ⟨s2, h4, h5, h6⟩ := shellGradTerm_ok npv hn N t s1 l (hl l (by simp))
    refine ⟨s2, ?_, fun a i => ?_, fun i => ?_⟩
    · unfold shellGrad at h1 ⊢
      rw [List.foldl_append, h1]
      simpa [Res.bind] using h4
    · rw [h5, h2]; simp [add_assoc]
    · rw [h6, h3]

/-- Work of the share of one load. -/
theorem share_work (npv : Nat) (N : Nat → K) (S : Finset Nat) (u : Nat → Nat → K) (node dof : Int) (P : K) (h0 : dof ≠ 0) (h1 : -(npv : Int) ≤ dof)
    (h2 : dof ≤ npv) (h3 : 0 < dof → 0 ≤ node ∧ node.toNat ∈ S) :
    (∑ a ∈ S, ∑ i ∈ Finset.Icc 1 npv, share N node dof P a i * u a i) =
      if 0 < dof then P * u node.toNat dof.toNat else P * ∑ a ∈ S, N a * u a (-dof).toNat := by
  unfold share
  by_cases hd : 0 < dof
  · obtain ⟨h4, h5⟩ := h3 hd
    simp only [if_pos hd]
    rw [Finset.sum_eq_single_of_mem node.toNat h5]
    · rw [Finset.sum_eq_single_of_mem dof.toNat (by rw [Finset.mem_Icc]; omega)]
      · rw [if_pos (by omega)]
      · intro i _ hi; rw [if_neg (by omega)]; simp
    · intro a _ ha
      apply Finset.sum_eq_zero; intro i _; rw [if_neg (by omega)]; simp
  · simp only [if_neg hd]
    rw [Finset.mul_sum]
    apply Finset.sum_congr rfl; intro a _
    rw [Finset.sum_eq_single_of_mem (-dof).toNat (by rw [Finset.mem_Icc]; omega)]
    · rw [if_pos (by omega)]; ring
    · intro i _ hi; rw [if_neg (by omega)]; simp

/-- **C89**: the external energy of the point loads of a plate or shell is the assembled load vector times the displacement. -/
theorem C89_energy (npv : Nat) (hn : npv ≤ 3) (N : Nat → K × K → Nat → K) (S : Finset Nat) (t : K) (u : Nat → Nat → K) (loads : List (Load K))
    (hl : ∀ l ∈ loads, Valid npv l ∧ (0 < l.dof → l.node.toNat ∈ S)) :
    ∃ s', shellTerms npv N t loads ⟨fun _ _ => 0, fun _ => 0⟩ = .ok s' ∧
      shellEnergy npv N S t u loads = ∑ a ∈ S, ∑ i ∈ Finset.Icc 1 npv, s'.b a i * u a i := by
  obtain ⟨s', h1, h2, -⟩ := C89_vector npv hn N t loads ⟨fun _ _ => 0, fun _ => 0⟩ fun l hm => (hl l hm).1
  refine ⟨s', h1, ?_⟩
  simp only [h2, zero_add]
  clear h1 h2 s'
  induction loads using List.reverseRecOn with
  | nil => simp [shellEnergy]
  | append_singleton ls l ih =>
    have ih' := ih fun l hm => hl l (by simp [hm])
    obtain ⟨⟨h0, h1, h2, h3⟩, h4⟩ := hl l (by simp)
    have hw := share_work npv (N l.patch l.xi) S u l.node l.dof (l.p t) h0 h1 h2 fun h => ⟨h3 h, h4 h⟩
    simp only [List.map_append, List.map_cons, List.map_nil, List.sum_append, List.sum_cons, List.sum_nil, add_zero, add_mul,
      Finset.sum_add_distrib]
    rw [hw, ← ih']
    unfold shellEnergy
    rw [List.foldl_append]
    simp only [List.foldl_cons, List.foldl_nil]
    by_cases hd : 0 < l.dof
    · rw [if_pos hd, if_pos hd]
    · have h5 : l.dof < 0 := by omega
      have h6 : (-l.dof).toNat - 1 < npv := by omega
      have h7 : (-l.dof).toNat - 1 + 1 = (-l.dof).toNat := by omega
      rw [if_neg hd, if_neg hd, if_pos h5, if_pos h6, h7]

/-- **C89**: when the basis functions sum to one, the reported load sum in each direction is the sum of the load vector over the nodes. -/
theorem C89_sums (npv : Nat) (hn : npv ≤ 3) (N : Nat → K × K → Nat → K) (S : Finset Nat) (t : K) (loads : List (Load K))
    (hl : ∀ l ∈ loads, Valid npv l ∧ (0 < l.dof → l.node.toNat ∈ S)) (hN : ∀ l ∈ loads, ∑ a ∈ S, N l.patch l.xi a = 1) :
    ∃ s', shellTerms npv N t loads ⟨fun _ _ => 0, fun _ => 0⟩ = .ok s' ∧ ∀ i, i < npv → s'.sum i = ∑ a ∈ S, s'.b a (i + 1) := by
  obtain ⟨s', h1, h2, h3⟩ := C89_vector npv hn N t loads ⟨fun _ _ => 0, fun _ => 0⟩ fun l hm => (hl l hm).1
  refine ⟨s', h1, fun i hi => ?_⟩
  simp only [h2, h3, zero_add]
  clear h1 h2 h3 s'
  induction loads with
  | nil => simp
  | cons l ls ih =>
    obtain ⟨⟨h0, h1, h2, h3⟩, h4⟩ := hl l (by simp)
    simp only [List.map_cons, List.sum_cons, Finset.sum_add_distrib]
    rw [ih (fun l hm => hl l (by simp [hm])) (fun l hm => hN l (by simp [hm]))]
    congr 1
    unfold share
    by_cases hd : 0 < l.dof
    · simp only [if_pos hd]
      by_cases hi' : ((i + 1 : Nat) : Int) = l.dof
      · rw [if_pos (by omega), Finset.sum_eq_single_of_mem l.node.toNat (h4 hd)]
        · rw [if_pos (by have := h3 hd; omega)]
        · intro a _ ha; rw [if_neg (by omega)]
      · rw [if_neg (by omega)]; symm; apply Finset.sum_eq_zero; intro a _; rw [if_neg (by omega)]
    · simp only [if_neg hd]
      by_cases hi' : ((i + 1 : Nat) : Int) = -l.dof
      · simp only [if_pos hi']
        rw [if_pos (by omega), ← Finset.mul_sum, hN l (by simp), mul_one]
      · simp only [if_neg hi']
        rw [if_neg (by omega)]; simp

end

/-- **C89**: the load gradient of the arc-length driver is the derivative of the load vector with respect to time, and it is not counted in the load sums. -/
theorem C89_gradient (npv : Nat) (hn : npv ≤ 3) (N : Nat → ℝ × ℝ → Nat → ℝ) (t : ℝ) (loads : List (Load ℝ))
    (hl : ∀ l ∈ loads, Valid npv l ∧ HasDerivAt l.p (l.dp t) t) (b : ℝ → Nat → Nat → ℝ)
    (hb : ∀ t, ∃ q, shellTerms npv N t loads ⟨fun _ _ => 0, fun _ => 0⟩ = .ok ⟨b t, q⟩) :
    ∃ g, shellGrad npv N t loads ⟨fun _ _ => 0, fun _ => 0⟩ = .ok ⟨g, fun _ => 0⟩ ∧ ∀ a i, HasDerivAt (fun t => b t a i) (g a i) t := by
  obtain ⟨⟨g, q⟩, h1, h2, h3⟩ := shellGrad_ok npv hn N t loads ⟨fun _ _ => 0, fun _ => 0⟩ fun l hm => (hl l hm).1
  have hq : q = fun _ => 0 := funext h3
  subst hq
  refine ⟨g, h1, fun a i => ?_⟩
  have hbt : (fun t => b t a i) = fun t => (loads.map fun l => share (N l.patch l.xi) l.node l.dof (l.p t) a i).sum := by
    funext t
    obtain ⟨q, hq⟩ := hb t
    obtain ⟨s', h4, h5, -⟩ := C89_vector npv hn N t loads ⟨fun _ _ => 0, fun _ => 0⟩ fun l hm => (hl l hm).1
    rw [hq] at h4
    cases h4
    simpa using h5 a i
  rw [hbt]
  have hg : g a i = (loads.map fun l => share (N l.patch l.xi) l.node l.dof (l.dp t) a i).sum := by simpa using h2 a i
  rw [hg]
  clear hg hbt h1 h2 h3 hb
  induction loads with
  | nil => simpa using hasDerivAt_const t (0 : ℝ)
  | cons l ls ih =>
    simp only [List.map_cons, List.sum_cons]
    refine HasDerivAt.add ?_ (ih fun l hm => hl l (by simp [hm]))
    have hd := (hl l (by simp)).2
    unfold share
    by_cases h : 0 < l.dof
    · simp only [if_pos h]
      by_cases h' : (a : Int) = l.node ∧ (i : Int) = l.dof
      · simpa only [if_pos h'] using hd
      · simpa only [if_neg h'] using hasDerivAt_const t (0 : ℝ)
    · simp only [if_neg h]
      by_cases h' : (i : Int) = -l.dof
      · simpa only [if_pos h'] using hd.mul_const _
      · simpa only [if_neg h'] using hasDerivAt_const t (0 : ℝ)

/-- Two loads in the third direction, nodal and on an element with two nodes. -/
def twoLoads : List (Load ℚ) := [⟨1, 4, 3, (0, 0), fun t => 2 * t, fun _ => 2⟩, ⟨1, 1, -3, (0, 0), fun t => 4 * t, fun _ => 4⟩]

example : (∀ l ∈ twoLoads, Valid 3 l ∧ (0 < l.dof → l.node.toNat ∈ ({4, 5} : Finset Nat))) ∧
    (∃ s', shellTerms 3 (fun _ _ a => if a = 4 ∨ a = 5 then 1 / 2 else 0) 3 twoLoads ⟨fun _ _ => 0, fun _ => 0⟩ = .ok s' ∧
      s'.b 4 3 = 12 ∧ s'.b 5 3 = 6 ∧ s'.sum 2 = 18) := by
  refine ⟨?_, ?_⟩
  · intro l hl
    simp only [twoLoads, List.mem_cons, List.not_mem_nil, or_false] at hl
    obtain rfl | rfl := hl <;> simp [Valid]
  · exact ⟨_, rfl, by decide +kernel, by decide +kernel, by decide +kernel⟩

/-- **C89**: shifting the node numbers moves the nodal loads with their nodes and leaves the element loads alone. -/
theorem C89_shift (nshift : Int) (loads : List (Load K)) :
    (shellShift nshift loads).length = loads.length ∧
    ∀ (j : Nat) l, loads[j]? = some l →
      (0 < l.dof → (shellShift nshift loads)[j]? = some { l with node := l.node + nshift }) ∧
      (l.dof ≤ 0 → (shellShift nshift loads)[j]? = some l) := by
  refine ⟨by simp [shellShift], fun j l hj => ⟨fun h => ?_, fun h => ?_⟩⟩
  · simp [shellShift, hj, h]
  · have : ¬ (0 < l.dof) := by omega
    simp [shellShift, hj, this]

/-- **C89** does not hold for a load without a valid direction: direction zero is accepted as an element load and writes outside the load vector of three components. -/
theorem C89_direction_violated [Field K] (npv : Nat) (N : Nat → K × K → Nat → K) (t : K) (l : Load K) (h : l.dof = 0) (ls : List (Load K)) (s : Acc K) :
    shellTerms npv N t (l :: ls) s = .ub := by
  have h1 : shellTerm npv N t s l = .ub := by simp [shellTerm, h, assemblePoint]
  unfold shellTerms
  rw [List.foldl_cons]
  have : (Res.ok s).bind (fun s => shellTerm npv N t s l) = .ub := h1
  rw [this]
  induction ls with
  | nil => rfl
  | cons l' ls ih => simpa [Res.bind] using ih

example : (⟨1, 1, 0, (0, 0), id, fun _ => 1⟩ : Load ℚ).dof = 0 := rfl

/-! ### One-dimensional models -/

/-- **C89** (partial): where the point can be evaluated, the load point of a bar or beam is found exactly when there is a node or element for it; elements are stored with negative
numbers. -/
theorem C89_point_partial (pt : Point) (onElement : Bool) (h0 : 0 ≤ pt.imatch) (he : 0 ≤ pt.element) :
    findLoadPoint pt onElement =
      match target pt onElement with
      | some n => if onElement then -n else n
      | none => 0 := by
  unfold findLoadPoint target
  generalize pt.imatch = m at *; generalize pt.closest = c; generalize pt.element = e at *
  have h1 : ¬ m < 0 := by omega
  cases onElement
  · by_cases h3 : 0 < m
    · have : m ≠ 0 := by omega
      simp [h1, h3, this]
    · have hm : m = 0 := by omega
      by_cases h5 : 0 < c
      · simp [h5, hm]
      · simp [h5, hm]
  · by_cases h3 : 0 < e
    · simp [h1, h3, h0]
    · have : e = 0 := by omega
      simp [h1, this, h0]

example : findLoadPoint ⟨0, 5, 3⟩ true = -3 ∧ findLoadPoint ⟨0, 5, 3⟩ false = 5 ∧ findLoadPoint ⟨2, 5, 3⟩ false = 2 ∧ findLoadPoint ⟨0, 0, 3⟩ false = 0 := by decide

/-- **C89** does not hold for the points of bars and beams which can not be evaluated: with element loads allowed, the error code is taken for an element number and no
error is reported. -/
theorem C89_point_violated (pt : Point) (h : pt.imatch < 0) :
    target pt true = none ∧ findLoadPoint pt true = pt.imatch ∧ findLoadPoint pt true ≠ 0 ∧ findLoadPoint pt false = 0 := by
  have h1 : ¬ (0 ≤ pt.imatch) := by omega
  have h2 : ¬ (0 < pt.imatch) := by omega
  have h3 : pt.imatch ≠ 0 := by omega
  unfold findLoadPoint target
  simp [h, h1, h2, h3]

example : (⟨-1, 0, 0⟩ : Point).imatch < 0 := by decide

section
variable [Field K]

/-- **C89**: the external energy of the point loads of a C1-continuous beam is the assembled load vector times the displacement. -/
theorem C89_beam_energy (N : Nat → K → Nat → K) (S : Finset Nat) (u : Nat → K) (loads : List (BLoad K))
    (hl : ∀ l ∈ loads, 0 < l.inod → l.inod.toNat ∈ S) :
    beamEnergy N S u loads = ∑ a ∈ S, beamTerms N loads (fun _ => 0) a * u a := by
  induction loads using List.reverseRecOn with
  | nil => simp [beamEnergy, beamTerms]
  | append_singleton ls l ih =>
    have ih' := ih fun l hm => hl l (by simp [hm])
    have h4 := hl l (by simp)
    unfold beamEnergy beamTerms at ih' ⊢
    rw [List.foldl_append, List.foldl_append, ih']
    simp only [List.foldl_cons, List.foldl_nil]
    by_cases h1 : 0 < l.inod
    · rw [if_pos h1, if_pos h1]
      simp only [add_mul, Finset.sum_add_distrib, ite_mul, zero_mul]
      rw [Finset.sum_ite_eq' S l.inod.toNat, if_pos (h4 h1)]
    · rw [if_neg h1, if_neg h1]
      by_cases h2 : l.inod < 0
      · rw [if_pos h2, if_pos h2]
        simp only [add_mul, Finset.sum_add_distrib, Finset.mul_sum, mul_assoc]
      · rw [if_neg h2, if_neg h2]

/-- **C89**: each point load of a C1-continuous beam is in the load vector: its value at its node, or its value times the basis functions. -/
theorem C89_beam_vector (N : Nat → K → Nat → K) (loads : List (BLoad K)) (b : Nat → K) (a : Nat) :
    beamTerms N loads b a = b a + (loads.map fun l =>
      if 0 < l.inod then (if (a : Int) = l.inod then l.pload else 0) else if l.inod < 0 then l.pload * N l.patch l.xi a else 0).sum := by
  induction loads using List.reverseRecOn with
  | nil => simp [beamTerms]
  | append_singleton ls l ih =>
    unfold beamTerms at ih ⊢
    rw [List.foldl_append]
    simp only [List.foldl_cons, List.foldl_nil, List.map_append, List.map_cons, List.map_nil, List.sum_append, List.sum_cons, List.sum_nil, add_zero]
    by_cases h1 : 0 < l.inod
    · have : (a = l.inod.toNat) ↔ ((a : Int) = l.inod) := by omega
      rw [if_pos h1, if_pos h1]; simp only [ih, this, add_assoc]
    · rw [if_neg h1, if_neg h1]
      by_cases h2 : l.inod < 0
      · rw [if_pos h2, if_pos h2]; simp only [ih, add_assoc]
      · rw [if_neg h2, if_neg h2]; simp [ih]

end

example : ∀ l ∈ [(⟨1, 4, 0, 2⟩ : BLoad ℚ), ⟨1, -1, 0, 4⟩], 0 < l.inod → l.inod.toNat ∈ ({4, 5} : Finset Nat) := by decide

/-- **C89**: a point load of a bar or beam is stored with its patch, direction and parameter when direction and parameter are in range. -/
theorem C89_bar_input [Field K] [LinearOrder K] (nf : Nat) (dof : Int) (u : K) (onElement : Option Bool) (patch : Option Int) (h1 : 1 ≤ dof)
    (h2 : dof ≤ nf) (h3 : 0 ≤ u) (h4 : u ≤ 1) :
    barParse nf (some dof) (some u) onElement patch =
      some ⟨patch.getD 1, if onElement = some true then -dof else dof, u⟩ := by
  have h5 : 0 < dof := by omega
  cases onElement <;> simp [barParse, h2, h3, h4, h5]

/-- **C89** does not hold for the input of bars and beams: a load with a direction or a parameter out of range, or without them, is dropped and nothing is reported. -/
theorem C89_bar_input_violated [Field K] [LinearOrder K] [IsStrictOrderedRing K] (nf : Nat) (dof : Int) (u : Option K) (onElement : Option Bool)
    (patch : Option Int) :
    barParse (K := K) nf none u onElement patch = none ∧ barParse (K := K) nf (some (nf + 1 : Int)) u onElement patch = none ∧
    barParse (K := K) nf (some dof) none onElement patch = none := by
  have h : ¬ ((nf : Int) + 1 ≤ nf) := by omega
  have h' : ¬ ((-1 : K) ≥ 0) := by norm_num
  refine ⟨by simp [barParse], ?_, ?_⟩
  · simp [barParse]
  · simp [barParse, h']

/-- **C89**: preprocessing moves a nodal point load of a bar or beam to its node, or reports that there is none. -/
theorem C89_bar_node [Field K] [LinearOrder K] (at_ : Int → K → Point) (l : BarLoad K) (h1 : 0 ≤ l.xi) (h2 : 0 < l.inod) (h3 : 0 < l.ldof)  :
    barLocate at_ l = match target (at_ l.inod l.xi) false with
      | some n => ({ l with inod := n }, true)
      | none => (l, false) := by
  have hd : ¬ (l.ldof < 0) := by omega
  unfold barLocate
  rw [if_pos ⟨h1, h2⟩]
  simp only [hd, decide_false]
  generalize at_ l.inod l.xi = pt
  by_cases hm : pt.imatch < 0
  · have := (C89_point_violated pt hm).2.2.2
    rw [this]; simp [target, hm]
  · have hp : findLoadPoint pt false = match target pt false with | some n => n | none => 0 := by
      have := C89_point_partial ⟨pt.imatch, pt.closest, 0⟩ false (by simpa using hm) le_rfl
      simpa [findLoadPoint, target] using this
    rw [hp]
    have hpos : ∀ n, target pt false = some n → 0 < n := by
      intro n hn
      unfold target at hn
      rw [if_neg hm] at hn
      simp only [Bool.false_eq_true, if_false] at hn
      split_ifs at hn <;> (cases hn; assumption)
    cases ht : target pt false with
    | none => simp
    | some n => simp [hpos n ht]

/-- **C89** does not hold for bars and beams preprocessed a second time: the node number found in the first run is then taken for a patch number. -/
theorem C89_bar_again_violated :
    ∃ (at_ : Int → ℚ → Point) (l : BarLoad ℚ), (barLocate at_ l).1.inod = 4 ∧ (barLocate at_ l).2 = true ∧
      (barLocate at_ (barLocate at_ l).1).2 = false := by
  refine ⟨fun patch _ => if patch = 1 then ⟨4, 0, 1⟩ else ⟨-1, 0, 0⟩, ⟨1, 2, 1⟩, ?_, ?_, ?_⟩ <;> decide +kernel

/-- **C89**: a nodal load of a bar or beam enters the right-hand side with the factor of the time integration, and the load sum without it; an element load is distributed
by the basis functions. -/
theorem C89_bar_vector_partial [Field K] (nf : Nat) (N : Int → K → Nat → K) (P scl : K) (s : Acc K) (l : BarLoad K) (h0 : l.ldof ≠ 0)
    (h1 : -(3 : Int) ≤ l.ldof) (h2 : -(nf : Int) ≤ l.ldof) (h3 : 0 < l.ldof → 0 ≤ l.inod) :
    ∃ s', barTerm nf N P scl s l = .ok s' ∧
      (∀ a i, s'.b a i = s.b a i + share (N l.inod l.xi) l.inod l.ldof (if 0 < l.ldof then P * scl else P) a i) ∧
      ∀ i, s'.sum i = s.sum i + (if l.ldof = i + 1 ∨ l.ldof = -(i + 1 : Int) then P else 0) := by
  unfold barTerm
  by_cases hd : l.ldof > 0
  · rw [if_pos hd]
    refine ⟨_, rfl, fun a i => ?_, fun i => ?_⟩
    · simp only [addNode, share, if_pos hd]
      have : (a = l.inod.toNat ∧ i = l.ldof.toNat) ↔ ((a : Int) = l.inod ∧ (i : Int) = l.ldof) := by have := h3 hd; omega
      simp only [this]
    · have : (i = l.ldof.toNat - 1) ↔ (l.ldof = i + 1 ∨ l.ldof = -(i + 1 : Int)) := by omega
      simp only [this]
  · rw [if_neg hd]
    have : 1 ≤ -l.ldof ∧ -l.ldof ≤ 3 := by omega
    unfold assemblePoint
    rw [if_pos this]
    refine ⟨_, rfl, fun a i => ?_, fun i => ?_⟩
    · simp only [evalPoint, share, if_neg hd]
      by_cases hi : (i : Int) = -l.ldof
      · have : 1 ≤ i ∧ i ≤ nf ∧ i ≤ 3 := by omega
        simp [hi, this]
      · simp [hi]
    · simp only [evalPoint]
      by_cases hi : ((i + 1 : Nat) : Int) = -l.ldof
      · have h4 : i < nf ∧ i < 3 := by omega
        have h5 : l.ldof = i + 1 ∨ l.ldof = -(i + 1 : Int) := by omega
        rw [if_pos h5, if_pos ⟨trivial, h4⟩, if_pos hi]
      · have h5 : ¬ (l.ldof = i + 1 ∨ l.ldof = -(i + 1 : Int)) := by omega
        rw [if_neg h5, if_neg hi]; simp

example : ∃ l : BarLoad ℚ, l.ldof ≠ 0 ∧ -(3 : Int) ≤ l.ldof ∧ -(6 : Int) ≤ l.ldof ∧ (0 < l.ldof → 0 ≤ l.inod) := ⟨⟨1, -2, 0⟩, by decide⟩

/-- **C89** does not hold for moments on beam elements: the input is accepted, and the load writes outside the vector of three components. -/
theorem C89_bar_moment_violated (N : Int → ℚ → Nat → ℚ) (P scl : ℚ) (s : Acc ℚ) :
    ∃ l, barParse 6 (some 5) (some (1 / 2 : ℚ)) (some true) none = some l ∧ barTerm 6 N P scl s l = .ub := by
  refine ⟨⟨1, -5, 1 / 2⟩, ?_, ?_⟩
  · rw [C89_bar_input 6 5 (1 / 2) (some true) none (by norm_num) (by norm_num) (by norm_num) (by norm_num)]; rfl
  · simp [barTerm, assemblePoint]

end Verif.PointLoads
