/-
Property C145: motion of trusses: balance of momentum, angular momentum and energy.
-/
import Mathlib.Analysis.Calculus.MeanValue
import Verif.Props.TrussStatic
import Verif.Model.TrussDynamic

set_option linter.unusedSectionVars false
set_option linter.unusedSimpArgs false
set_option linter.unusedVariables false

namespace Verif.TrussDynamic

open Verif.Beam (V3)
open Verif.Bar (len)
open Verif.TrussStatic
open Verif.NLShellStatic (mul_list sub_list add_list sum_list)
open Verif.Struct (asmV asmK dotN loc nodal one_nodal)

/-! ### Specification -/

/-- Half of the mass of each bar at each of its ends. -/
noncomputable def massAt (X : Nat → Nat → ℝ) (ms : List Member) (a : Nat) : ℝ :=
  (ms.map fun m => ((if m.n1 = a then 1 else 0) + if m.n2 = a then 1 else 0) * (1 / 2 * m.data.lineMass * len (span X m))).sum

/-- All bars have lumped mass matrices. -/
def Lumped (ms : List Member) : Prop := ∀ m ∈ ms, m.data.lumped = true

/-! ### Assembly -/

noncomputable def res (X u : Nat → Nat → ℝ) (m : Member) : Bar.Mats := Bar.fill m.data slots (Bar.unit (span (pos X u) m)) (len (span (pos X u) m)) (len (span X m)) E0

noncomputable def matE (X u : Nat → Nat → ℝ) (m : Member) : DMat ℝ := ⟨6, 6, (res X u m).A 2⟩

noncomputable def all (X u : Nat → Nat → ℝ) (ms : List Member) : List (Member × DMat ℝ × DVec ℝ) := ms.map fun m => (m, matE X u m, vecE X u m)

theorem member_ok (X u : Nat → Nat → ℝ) (m : Member) (h0 : 1 / 100000000 < len (span X m)) (h : 1 / 100000000 < len (span (pos X u) m)) :
    member X u m = .ok (matE X u m, vecE X u m) := by
  have := eval_ok X u m h0 h slots
  have e : (res X u m).b 1 = (TrussStatic.res X u m).b 1 := by
    simp [res, TrussStatic.res, Bar.fill, slots, TrussStatic.slots, E0]
  unfold member
  unfold E0 at this
  rw [this]
  unfold matE vecE
  rw [← e]
  rfl

theorem assemble_ok (X u : Nat → Nat → ℝ) (ms : List Member) (h : Long X u ms) : assemble X u ms = .ok (all X u ms) := by
  induction ms with
  | nil => rfl
  | cons m l ih =>
    rw [assemble, member_ok X u m (h m (by simp)).1 (h m (by simp)).2, ih fun m hm => h m (by simp [hm])]
    rfl

theorem member_fail (X u : Nat → Nat → ℝ) (m : Member) (h : ¬ (1 / 100000000 < len (span X m) ∧ 1 / 100000000 < len (span (pos X u) m))) : member X u m = .fail := by
  unfold member Bar.evalInt
  simp only [span_X]
  have e : (at3 X m.n2 + at3 u m.n2) - (at3 X m.n1 + at3 u m.n1) = span (pos X u) m := by funext i; simp [at3, span, pos]
  simp only [e]
  by_cases h0 : len (span X m) ≤ 1 / 100000000
  · rw [if_pos h0]; rfl
  · rw [if_neg h0, if_pos (not_lt.mp fun hc => h ⟨not_le.mp h0, hc⟩)]; rfl

theorem assemble_fail (X u : Nat → Nat → ℝ) (ms : List Member) (h : ¬ Long X u ms) : assemble X u ms = .fail := by
  induction ms with
  | nil => exact absurd (fun m hm => by simp at hm) h
  | cons m l ih =>
    rw [assemble]
    by_cases hm : 1 / 100000000 < len (span X m) ∧ 1 / 100000000 < len (span (pos X u) m)
    · rw [member_ok X u m hm.1 hm.2, ih fun hc => h fun k hk => by
        rcases List.mem_cons.mp hk with rfl | hk
        · exact hm
        · exact hc k hk]
      rfl
    · rw [member_fail X u m hm]; rfl

theorem forces_all (X u : Nat → Nat → ℝ) (ms : List Member) (h : Long X u ms) (F : Nat → Nat → ℝ) (a : Nat) (i : Fin 3) :
    forces F (all X u ms) a (i.val + 1) = F a (i.val + 1) + weight X ms a i + pull X u ms a i := by
  rw [← residual_all X u ms h F a i]
  simp only [forces, TrussStatic.residual, all, TrussStatic.all, List.map_map, Function.comp_def]

theorem mat_eq (X u : Nat → Nat → ℝ) (m : Member) (hm : m.data.lumped = true) (i j : Nat) (hi : 1 ≤ i) (h6 : i ≤ 6) :
    (matE X u m).e i j = if i = j then 1 / 2 * m.data.lineMass * len (span X m) else 0 := by
  have hz : Bar.stiff m.data slots (Bar.unit (span (pos X u) m)) (len (span (pos X u) m)) (len (span X m)) (fun _ _ _ => 0) 2 = fun _ _ => 0 := by
    funext i j
    simp only [Bar.stiff, show slots.eKm = 3 from rfl, show slots.eKg = 3 from rfl, if_neg (show ¬ (3 = 0) by norm_num), if_true]
    split_ifs <;> simp [Bar.mirror, Bar.setLead, Bar.addLead]
  have : (matE X u m).e i j = Bar.massMat m.data.lumped (1 / 2 * m.data.lineMass * len (span X m)) (fun _ _ => 0) i j := by
    rw [← hz]
    simp [matE, res, Bar.fill, slots, E0]
  rw [this, hm]
  by_cases h : i = j
  · simp [Bar.massMat, h]; omega
  · simp [Bar.massMat, h]

theorem mat_full (X u : Nat → Nat → ℝ) (m : Member) (hm : m.data.lumped = false) (i j : Nat) (hi : 1 ≤ i) (h6 : i ≤ 6) :
    (matE X u m).e i j = if i = j then 1 / 2 * m.data.lineMass * len (span X m) / 3 * 2 else 1 / 2 * m.data.lineMass * len (span X m) / 3 := by
  have : (matE X u m).e i j = Bar.massMat m.data.lumped (1 / 2 * m.data.lineMass * len (span X m)) (Bar.stiff m.data slots (Bar.unit (span (pos X u) m)) (len (span (pos X u) m)) (len (span X m)) (fun _ _ _ => 0) 2) i j := by
    simp [matE, res, Bar.fill, slots, E0]
  rw [this, hm]
  by_cases h : i = j
  · simp [Bar.massMat, h]; omega
  · simp [Bar.massMat, h]

theorem nodal_all (n : Nat) (X u v : Nat → Nat → ℝ) (ms : List Member) (hn : Nodes n ms) (a i : Nat) :
    inertia n v (all X u ms) a i = (ms.map fun m => ∑ s ∈ Finset.range 2, if m.conn.node (s + 1) = a then
      ∑ j ∈ Finset.range 6, (matE X u m).e (3 * s + i) (j + 1) * Bar.six (at3 v m.n1) (at3 v m.n2) (j + 1) else 0).sum := by
  induction ms with
  | nil => simp [nodal, inertia, all, asmK]
  | cons m l ih =>
    have := ih fun k hk => hn k (by simp [hk])
    rw [List.map_cons, List.sum_cons, ← this]
    have hn1 : ∀ s, s < m.conn.nen → 1 ≤ m.conn.node (s + 1) ∧ m.conn.node (s + 1) ≤ n := by
      intro s hs
      have hs : s < 2 := hs
      have := hn m (by simp)
      interval_cases s <;> simp [Member.conn] <;> omega
    have e1 := one_nodal 3 n m.conn (matE X u m) hn1 v a i
    have e2 : inertia n v (all X u (m :: l)) a i = (∑ b ∈ Finset.range n, ∑ j ∈ Finset.range 3, (∑ s ∈ Finset.range m.conn.nen, ∑ t ∈ Finset.range m.conn.nen,
        if m.conn.node (s + 1) = a ∧ m.conn.node (t + 1) = b + 1 then (matE X u m).e (3 * s + i) (3 * t + (j + 1)) else 0) * v (b + 1) (j + 1)) + inertia n v (all X u l) a i := by
      simp only [nodal, inertia, all, asmK, List.map_cons, List.sum_cons, add_mul, Finset.sum_add_distrib]
    rw [e2, e1]
    refine congrArg (· + _) (Finset.sum_congr rfl fun s hs => ?_)
    by_cases ha : m.conn.node (s + 1) = a
    · rw [if_pos ha, if_pos ha]
      simp only [Member.conn, loc, Finset.sum_range_succ, Finset.range_zero, Finset.sum_empty, Bar.six, Bar.at1, at3]
      norm_num
      ring
    · rw [if_neg ha, if_neg ha]

/-- The mass matrix is diagonal: half of the mass of each bar at its ends. -/
theorem inertia_all (n : Nat) (X u acc : Nat → Nat → ℝ) (ms : List Member) (hn : Nodes n ms) (hl : Lumped ms) (a : Nat) (i : Fin 3) :
    inertia n acc (all X u ms) a (i.val + 1) = massAt X ms a * acc a (i.val + 1) := by
  rw [nodal_all n X u acc ms hn, massAt, mul_comm, mul_list]
  refine congrArg List.sum (List.map_congr_left fun m hm => ?_)
  rw [Finset.sum_range_succ, Finset.sum_range_one]
  have h1 : ∀ s, s < 2 → ∀ j, (matE X u m).e (3 * s + (i.val + 1)) j = if 3 * s + (i.val + 1) = j then 1 / 2 * m.data.lineMass * len (span X m) else 0 :=
    fun s hs j => mat_eq X u m (hl m hm) _ _ (by omega) (by omega)
  simp only [h1 0 (by norm_num), h1 1 (by norm_num)]
  have n1 : m.conn.node (0 + 1) = m.n1 := by simp [Member.conn]
  have n2 : m.conn.node (1 + 1) = m.n2 := by simp [Member.conn]
  rw [n1, n2]
  have s1 : ∑ j ∈ Finset.range 6, (if 3 * 0 + (i.val + 1) = j + 1 then 1 / 2 * m.data.lineMass * len (span X m) else 0) * Bar.six (at3 acc m.n1) (at3 acc m.n2) (j + 1) = 1 / 2 * m.data.lineMass * len (span X m) * acc m.n1 (i.val + 1) := by
    fin_cases i <;> simp [Finset.sum_range_succ, Bar.six, Bar.at1, at3]
  have s2 : ∑ j ∈ Finset.range 6, (if 3 * 1 + (i.val + 1) = j + 1 then 1 / 2 * m.data.lineMass * len (span X m) else 0) * Bar.six (at3 acc m.n1) (at3 acc m.n2) (j + 1) = 1 / 2 * m.data.lineMass * len (span X m) * acc m.n2 (i.val + 1) := by
    fin_cases i <;> simp [Finset.sum_range_succ, Bar.six, Bar.at1, at3]
  rw [s1, s2]
  by_cases a1 : m.n1 = a <;> by_cases a2 : m.n2 = a
  · subst a1; rw [if_pos rfl, if_pos rfl, if_pos a2, if_pos a2, a2]; ring
  · subst a1; rw [if_pos rfl, if_pos rfl, if_neg a2, if_neg a2]; ring
  · subst a2; rw [if_neg a1, if_neg a1, if_pos rfl, if_pos rfl]; ring
  · simp [a1, a2]

/-! ### Equations of motion -/

/-- C145 (equations of motion): with lumped masses a motion is possible exactly if no bar is too short and, at each node that is free, mass times acceleration is the sum of the load, the weight and the pull of the bars. -/
theorem C145_motion_partial (n : Nat) (X u acc : Nat → Nat → ℝ) (ms : List Member) (hn : Nodes n ms) (hl : Lumped ms) (F : Nat → Nat → ℝ) (fixed : Nat → Nat → Prop) :
    Motion n X ms F fixed u acc ↔ Long X u ms ∧ ∀ a, a < n → ∀ i : Fin 3, ¬ fixed (a + 1) (i.val + 1) →
      massAt X ms (a + 1) * acc (a + 1) (i.val + 1) = F (a + 1) (i.val + 1) + weight X ms (a + 1) i + pull X u ms (a + 1) i := by
  constructor
  · rintro ⟨r, h1, h2⟩
    have hL : Long X u ms := by
      by_contra hc
      rw [assemble_fail X u ms hc] at h1
      cases h1
    rw [assemble_ok X u ms hL] at h1
    cases h1
    refine ⟨hL, fun a ha i hf => ?_⟩
    have := h2 a i.val ha i.isLt hf
    rw [residual, forces_all X u ms hL, inertia_all n X u acc ms hn hl] at this
    linarith
  · rintro ⟨hL, h⟩
    refine ⟨_, assemble_ok X u ms hL, fun a i ha hi hf => ?_⟩
    have := h a ha ⟨i, hi⟩ hf
    have e1 := forces_all X u ms hL F (a + 1) ⟨i, hi⟩
    have e2 := inertia_all n X u acc ms hn hl (a + 1) ⟨i, hi⟩
    simp only at e1 e2 this
    rw [residual, e1, e2]
    linarith

/-- C145 (mass): the nodes carry the mass of the truss. -/
theorem C145_mass (n : Nat) (X : Nat → Nat → ℝ) (ms : List Member) (hn : Nodes n ms) :
    ∑ a ∈ Finset.range n, massAt X ms (a + 1) = (ms.map fun m => m.data.lineMass * len (span X m)).sum := by
  simp only [massAt]
  rw [sum_list]
  refine congrArg List.sum (List.map_congr_left fun m hm => ?_)
  have h1 := Struct.pick n m.n1 (hn m hm).1.1 (hn m hm).1.2 (fun _ => (1 : ℝ))
  have h2 := Struct.pick n m.n2 (hn m hm).2.1 (hn m hm).2.2 (fun _ => (1 : ℝ))
  rw [← Finset.sum_mul, Finset.sum_add_distrib]
  rw [h1, h2]
  ring

/-- C145 (momentum): the reactions, loads and weight together are the change of momentum, and their moments about any point, at the displaced nodes, are the change of angular momentum. -/
theorem C145_momentum_partial (n : Nat) (X u acc : Nat → Nat → ℝ) (ms : List Member) (hn : Nodes n ms) (hl : Lumped ms) (F : Nat → Nat → ℝ) (fixed : Nat → Nat → Prop) (h : Motion n X ms F fixed u acc) :
    ∃ r, assemble X u ms = .ok r ∧ (∀ a i, a < n → i < 3 → ¬ fixed (a + 1) (i + 1) → -residual n F acc r (a + 1) (i + 1) = 0) ∧
      ∀ i : Fin 3, (∑ a ∈ Finset.range n, (-residual n F acc r (a + 1) (i.val + 1) + F (a + 1) (i.val + 1) + weight X ms (a + 1) i) = ∑ a ∈ Finset.range n, massAt X ms (a + 1) * acc (a + 1) (i.val + 1)) ∧
      ∀ (c : Nat → ℝ) (j : Fin 3), ∑ a ∈ Finset.range n, ((pos X u (a + 1) (i.val + 1) - c i) * (-residual n F acc r (a + 1) (j.val + 1) + F (a + 1) (j.val + 1) + weight X ms (a + 1) j) -
        (pos X u (a + 1) (j.val + 1) - c j) * (-residual n F acc r (a + 1) (i.val + 1) + F (a + 1) (i.val + 1) + weight X ms (a + 1) i)) =
        ∑ a ∈ Finset.range n, massAt X ms (a + 1) * ((pos X u (a + 1) (i.val + 1) - c i) * acc (a + 1) (j.val + 1) - (pos X u (a + 1) (j.val + 1) - c j) * acc (a + 1) (i.val + 1)) := by
  have hL := ((C145_motion_partial n X u acc ms hn hl F fixed).1 h).1
  obtain ⟨r, h1, h2⟩ := h
  rw [assemble_ok X u ms hL] at h1
  cases h1
  obtain ⟨s, s1, -, s2⟩ := C143_balance n X ms hn F u (fun _ _ => True) u ⟨_, TrussStatic.assemble_ok X u ms hL, fun _ _ _ _ hf => absurd trivial hf, fun _ _ _ _ _ => rfl⟩
  rw [TrussStatic.assemble_ok X u ms hL] at s1
  cases s1
  have e : ∀ a (i : Fin 3), -residual n F acc (all X u ms) a (i.val + 1) + F a (i.val + 1) + weight X ms a i =
      (-TrussStatic.residual F (TrussStatic.all X u ms) a (i.val + 1) + F a (i.val + 1) + weight X ms a i) + massAt X ms a * acc a (i.val + 1) := by
    intro a i
    rw [residual, forces_all X u ms hL, inertia_all n X u acc ms hn hl, residual_all X u ms hL]
    ring
  refine ⟨_, assemble_ok X u ms hL, fun a i ha hi hf => by rw [h2 a i ha hi hf, neg_zero], fun i => ⟨?_, fun c j => ?_⟩⟩
  · simp only [e]
    rw [Finset.sum_add_distrib, (s2 i).1, zero_add]
  · have := (s2 i).2 c j
    simp only [e]
    rw [← sub_eq_zero, ← Finset.sum_sub_distrib]
    rw [← this]
    refine Finset.sum_congr rfl fun a _ => ?_
    ring

/-- C145 (energy): the power of reactions, loads and weight is the rate of change of the kinetic energy plus that of the strain energy, for any velocities `v`. -/
theorem C145_energy_partial (n : Nat) (X u v acc : Nat → Nat → ℝ) (ms : List Member) (hn : Nodes n ms) (hl : Lumped ms) (F : Nat → Nat → ℝ) (fixed : Nat → Nat → Prop) (h : Motion n X ms F fixed u acc) :
    ∃ r, assemble X u ms = .ok r ∧ HasDerivAt (fun t => (∑ a ∈ Finset.range n, ∑ i ∈ Finset.range 3, 1 / 2 * massAt X ms (a + 1) * along v acc t (a + 1) (i + 1) ^ 2) + energyAll X ms (along u v t))
      (∑ a ∈ Finset.range n, ∑ i : Fin 3, (-residual n F acc r (a + 1) (i.val + 1) + F (a + 1) (i.val + 1) + weight X ms (a + 1) i) * v (a + 1) (i.val + 1)) 0 := by
  have hL := ((C145_motion_partial n X u acc ms hn hl F fixed).1 h).1
  refine ⟨_, assemble_ok X u ms hL, ?_⟩
  obtain ⟨⟨s, s1, s2⟩, -⟩ := C143_stationary n X u ms hn hL F u fixed
  rw [TrussStatic.assemble_ok X u ms hL] at s1
  cases s1
  have d1 : HasDerivAt (fun t => dotN 3 n (total X ms F) (along u v t)) (dotN 3 n (total X ms F) v) 0 := by
    simp only [dot_along]
    simpa using ((hasDerivAt_id (0 : ℝ)).mul_const (dotN 3 n (total X ms F) v)).const_add (dotN 3 n (total X ms F) u)
  have d2 := (s2 v).add d1
  have d3 : HasDerivAt (fun t => ∑ a ∈ Finset.range n, ∑ i ∈ Finset.range 3, 1 / 2 * massAt X ms (a + 1) * along v acc t (a + 1) (i + 1) ^ 2)
      (∑ a ∈ Finset.range n, ∑ i ∈ Finset.range 3, massAt X ms (a + 1) * acc (a + 1) (i + 1) * v (a + 1) (i + 1)) 0 := by
    refine HasDerivAt.fun_sum fun a _ => HasDerivAt.fun_sum fun i _ => ?_
    have d : HasDerivAt (fun t : ℝ => along v acc t (a + 1) (i + 1)) (acc (a + 1) (i + 1)) 0 := by
      simpa [along] using ((hasDerivAt_id (0 : ℝ)).mul_const (acc (a + 1) (i + 1))).const_add (v (a + 1) (i + 1))
    refine ((d.pow 2).const_mul (1 / 2 * massAt X ms (a + 1))).congr_deriv ?_
    simp [along]
    ring
  have d4 := d3.add d2
  refine (d4.congr_of_eventuallyEq (Filter.Eventually.of_forall fun t => ?_)).congr_deriv ?_
  · simp
  · unfold dotN
    rw [neg_add_eq_sub, ← Finset.sum_sub_distrib, ← Finset.sum_add_distrib]
    refine Finset.sum_congr rfl fun a _ => ?_
    rw [← Finset.sum_sub_distrib, ← Finset.sum_add_distrib, Finset.sum_range (n := 3)]
    refine Finset.sum_congr rfl fun i _ => ?_
    rw [total_at, residual_all X u ms hL, residual, forces_all X u ms hL, inertia_all n X u acc ms hn hl]
    ring

/-- C145: the motion of a free truss without loads and weight. Momentum, angular momentum and energy do not change. -/
theorem C145_free_partial (n : Nat) (X u v acc : Nat → Nat → ℝ) (ms : List Member) (hn : Nodes n ms) (hl : Lumped ms) (hg : ∀ m ∈ ms, m.data.gravity = 0) (h : Motion n X ms (fun _ _ => 0) (fun _ _ => False) u acc) :
    (∀ i : Fin 3, ∑ a ∈ Finset.range n, massAt X ms (a + 1) * acc (a + 1) (i.val + 1) = 0) ∧
    (∀ i j : Fin 3, ∑ a ∈ Finset.range n, massAt X ms (a + 1) * (pos X u (a + 1) (i.val + 1) * acc (a + 1) (j.val + 1) - pos X u (a + 1) (j.val + 1) * acc (a + 1) (i.val + 1)) = 0) ∧
    HasDerivAt (fun t => (∑ a ∈ Finset.range n, ∑ i ∈ Finset.range 3, 1 / 2 * massAt X ms (a + 1) * along v acc t (a + 1) (i + 1) ^ 2) + energyAll X ms (along u v t)) 0 0 := by
  have hw : ∀ a (i : Fin 3), weight X ms a i = 0 := fun a i => by
    unfold weight
    refine NLShellStatic.list_zero _ _ fun m hm => ?_
    simp [hg m hm]
  obtain ⟨r, h1, h2, h3⟩ := C145_momentum_partial n X u acc ms hn hl _ _ h
  obtain ⟨s, e1, e2⟩ := C145_energy_partial n X u v acc ms hn hl _ _ h
  rw [h1] at e1
  cases e1
  have z : ∀ a, a < n → ∀ i : Fin 3, -residual n (fun _ _ => 0) acc r (a + 1) (i.val + 1) = 0 := fun a ha i => h2 a i.val ha i.isLt not_false
  refine ⟨fun i => ?_, fun i j => ?_, e2.congr_deriv ?_⟩
  · rw [← (h3 i).1]
    exact Finset.sum_eq_zero fun a ha => by rw [z a (Finset.mem_range.mp ha), hw]; simp
  · have := (h3 i).2 (fun _ => 0) j
    simp only [sub_zero] at this
    rw [← this]
    exact Finset.sum_eq_zero fun a ha => by rw [z a (Finset.mem_range.mp ha), z a (Finset.mem_range.mp ha), hw, hw]; simp
  · exact Finset.sum_eq_zero fun a ha => Finset.sum_eq_zero fun i _ => by rw [z a (Finset.mem_range.mp ha), hw]; simp

/-- C145 fails without lumped masses: a bar that is accelerated in the first direction also has a change of momentum in the second one, two thirds of that in the first. -/
theorem C145_momentum_violated (n : Nat) (X u : Nat → Nat → ℝ) (m : Member) (hn : Nodes n [m]) (hl : Long X u [m]) (hm : m.data.lumped = false) :
    ∃ r, assemble X u [m] = .ok r ∧
      (∑ a ∈ Finset.range n, inertia n (fun _ i => if i = 1 then 1 else 0) r (a + 1) 1 = m.data.lineMass * len (span X m)) ∧
      ∑ a ∈ Finset.range n, inertia n (fun _ i => if i = 1 then 1 else 0) r (a + 1) 2 = 2 / 3 * (m.data.lineMass * len (span X m)) := by
  refine ⟨_, assemble_ok X u [m] hl, ?_⟩
  have h1 := Struct.pick n m.n1 (hn m (by simp)).1.1 (hn m (by simp)).1.2 (K := ℝ)
  have h2 := Struct.pick (K := ℝ) n m.n2 (hn m (by simp)).2.1 (hn m (by simp)).2.2
  have n1 : m.conn.node (0 + 1) = m.n1 := by simp [Member.conn]
  have n2 : m.conn.node (1 + 1) = m.n2 := by simp [Member.conn]
  have key : ∀ k, 1 ≤ k → k ≤ 3 → ∑ a ∈ Finset.range n, inertia n (fun _ i => if i = 1 then 1 else 0) (all X u [m]) (a + 1) k =
      (matE X u m).e k 1 + (matE X u m).e k 4 + ((matE X u m).e (3 + k) 1 + (matE X u m).e (3 + k) 4) := by
    intro k _ _
    simp only [nodal_all n X u _ [m] hn, List.map_cons, List.map_nil, List.sum_cons, List.sum_nil, add_zero, Finset.sum_range_succ _ 1, Finset.sum_range_one, n1, n2]
    have s : ∀ w : Nat → ℝ, ∑ j ∈ Finset.range 6, w (j + 1) * Bar.six (at3 (fun _ i => if i = 1 then 1 else 0) m.n1) (at3 (fun _ i => if i = 1 then 1 else 0) m.n2) (j + 1) = w 1 + w 4 := by
      intro w
      simp [Finset.sum_range_succ, Bar.six, Bar.at1, at3]
    have p1 := h1 fun _ => (matE X u m).e k 1 + (matE X u m).e k 4
    have p2 := h2 fun _ => (matE X u m).e (3 + k) 1 + (matE X u m).e (3 + k) 4
    rw [Finset.sum_add_distrib]
    have q1 := s fun j => (matE X u m).e (3 * 0 + k) j
    have q2 := s fun j => (matE X u m).e (3 * 1 + k) j
    simp only [] at q1 q2
    rw [q1, q2, show 3 * 0 + k = k by omega, show 3 * 1 + k = 3 + k by omega]
    exact congrArg₂ (· + ·) p1 p2
  constructor
  · rw [key 1 (by norm_num) (by norm_num)]
    simp only [mat_full X u m hm 1 _ (by norm_num) (by norm_num), mat_full X u m hm (3 + 1) _ (by norm_num) (by norm_num)]
    norm_num
    ring
  · rw [key 2 (by norm_num) (by norm_num)]
    simp only [mat_full X u m hm 2 _ (by norm_num) (by norm_num), mat_full X u m hm (3 + 2) _ (by norm_num) (by norm_num)]
    norm_num
    ring

/-! ### Histories -/

/-- C145 (histories): in every motion of a truss with lumped masses, without supports, loads and weight, in which the equations of motion are met at all times, momentum and angular momentum about any point never change. -/
theorem C145_history_partial (n : Nat) (X : Nat → Nat → ℝ) (u vel acc : ℝ → Nat → Nat → ℝ) (ms : List Member) (hn : Nodes n ms) (hl : Lumped ms) (hg : ∀ m ∈ ms, m.data.gravity = 0)
    (hu : ∀ t a i, HasDerivAt (fun s => u s a i) (vel t a i) t) (hv : ∀ t a i, HasDerivAt (fun s => vel s a i) (acc t a i) t) (h : ∀ t, Motion n X ms (fun _ _ => 0) (fun _ _ => False) (u t) (acc t)) (t s : ℝ) :
    (∀ i : Fin 3, ∑ a ∈ Finset.range n, massAt X ms (a + 1) * vel t (a + 1) (i.val + 1) = ∑ a ∈ Finset.range n, massAt X ms (a + 1) * vel s (a + 1) (i.val + 1)) ∧
    ∀ (c : Fin 3 → ℝ) (i j : Fin 3), ∑ a ∈ Finset.range n, massAt X ms (a + 1) * ((pos X (u t) (a + 1) (i.val + 1) - c i) * vel t (a + 1) (j.val + 1) - (pos X (u t) (a + 1) (j.val + 1) - c j) * vel t (a + 1) (i.val + 1)) =
      ∑ a ∈ Finset.range n, massAt X ms (a + 1) * ((pos X (u s) (a + 1) (i.val + 1) - c i) * vel s (a + 1) (j.val + 1) - (pos X (u s) (a + 1) (j.val + 1) - c j) * vel s (a + 1) (i.val + 1)) := by
  have zero : ∀ g : ℝ → ℝ, (∀ t, HasDerivAt g 0 t) → g t = g s := fun g hg => is_const_of_deriv_eq_zero (fun t => (hg t).differentiableAt) (fun t => (hg t).deriv) t s
  have key := fun t => C145_free_partial n X (u t) (vel t) (acc t) ms hn hl hg (h t)
  refine ⟨fun i => zero (fun s => ∑ a ∈ Finset.range n, massAt X ms (a + 1) * vel s (a + 1) (i.val + 1)) fun t => ?_,
    fun c i j => zero (fun s => ∑ a ∈ Finset.range n, massAt X ms (a + 1) * ((pos X (u s) (a + 1) (i.val + 1) - c i) * vel s (a + 1) (j.val + 1) - (pos X (u s) (a + 1) (j.val + 1) - c j) * vel s (a + 1) (i.val + 1))) fun t => ?_⟩
  · rw [← (key t).1 i]
    exact HasDerivAt.fun_sum fun a _ => (hv t _ _).const_mul _
  · have hp : ∀ a i, HasDerivAt (fun s => pos X (u s) a i) (vel t a i) t := fun a i => (hu t a i).const_add (X a i)
    have hd : HasDerivAt (fun s => ∑ a ∈ Finset.range n, massAt X ms (a + 1) * ((pos X (u s) (a + 1) (i.val + 1) - c i) * vel s (a + 1) (j.val + 1) - (pos X (u s) (a + 1) (j.val + 1) - c j) * vel s (a + 1) (i.val + 1)))
        (∑ a ∈ Finset.range n, massAt X ms (a + 1) * ((pos X (u t) (a + 1) (i.val + 1) - c i) * acc t (a + 1) (j.val + 1) - (pos X (u t) (a + 1) (j.val + 1) - c j) * acc t (a + 1) (i.val + 1))) t := by
      refine HasDerivAt.fun_sum fun a _ => HasDerivAt.const_mul _ ?_
      refine ((((hp (a + 1) (i.val + 1)).sub_const (c i)).mul (hv t _ _)).sub (((hp (a + 1) (j.val + 1)).sub_const (c j)).mul (hv t _ _))).congr_deriv ?_
      ring
    refine hd.congr_deriv ?_
    have e1 := (key t).2.1 i j
    have e2 := (key t).1 i
    have e3 := (key t).1 j
    have : ∑ a ∈ Finset.range n, massAt X ms (a + 1) * ((pos X (u t) (a + 1) (i.val + 1) - c i) * acc t (a + 1) (j.val + 1) - (pos X (u t) (a + 1) (j.val + 1) - c j) * acc t (a + 1) (i.val + 1)) =
        ∑ a ∈ Finset.range n, massAt X ms (a + 1) * (pos X (u t) (a + 1) (i.val + 1) * acc t (a + 1) (j.val + 1) - pos X (u t) (a + 1) (j.val + 1) * acc t (a + 1) (i.val + 1)) -
        c i * (∑ a ∈ Finset.range n, massAt X ms (a + 1) * acc t (a + 1) (j.val + 1)) + c j * ∑ a ∈ Finset.range n, massAt X ms (a + 1) * acc t (a + 1) (i.val + 1) := by
      rw [Finset.mul_sum, Finset.mul_sum, ← Finset.sum_sub_distrib, ← Finset.sum_add_distrib]
      exact Finset.sum_congr rfl fun a _ => by ring
    rw [this, e1, e2, e3]
    ring

/-! ### Examples -/

/-- A bar of length one and mass four that is stretched to twice its length; its ends are pulled together. -/
noncomputable def dM : List Member := [⟨1, 2, ⟨'E', 12, 4, true, 0⟩⟩]
noncomputable def dX : Nat → Nat → ℝ := fun a i => if a = 2 ∧ i = 1 then 1 else 0
noncomputable def dA : Nat → Nat → ℝ := fun a i => if i = 1 then (if a = 1 then 6 else -6) else 0

theorem d_nodes : Nodes 2 dM := by
  intro m hm
  simp only [dM, List.mem_cons, List.not_mem_nil, or_false] at hm
  rcases hm with rfl; simp

theorem d_len (b : Bool) : len (span dX ⟨1, 2, ⟨'E', 12, 4, b, 0⟩⟩) = 1 ∧ len (span (pos dX dX) ⟨1, 2, ⟨'E', 12, 4, b, 0⟩⟩) = 2 := by
  refine ⟨?_, ?_⟩
  · simp [len, span, dX]
  · simp only [len, span, pos, dX]
    norm_num
    rw [show (4 : ℝ) = 2 ^ 2 by norm_num, Real.sqrt_sq (by norm_num)]

theorem d_long (b : Bool) : Long dX dX [⟨1, 2, ⟨'E', 12, 4, b, 0⟩⟩] := by
  intro m hm
  simp only [List.mem_cons, List.not_mem_nil, or_false] at hm
  rcases hm with rfl
  rw [(d_len b).1, (d_len b).2]; norm_num

theorem d_lumped : Lumped dM := by
  intro m hm
  simp only [dM, List.mem_cons, List.not_mem_nil, or_false] at hm
  rcases hm with rfl; rfl

example : Motion 2 dX dM (fun _ _ => 0) (fun _ _ => False) dX dA := by
  rw [C145_motion_partial 2 dX dX dA dM d_nodes d_lumped]
  refine ⟨d_long true, fun a ha i _ => ?_⟩
  simp only [massAt, weight, pull, dM, List.map_cons, List.map_nil, List.sum_cons, List.sum_nil, (d_len true).1, (d_len true).2]
  interval_cases a <;> fin_cases i <;> simp [dA, axial, span, pos, dX] <;> norm_num

/-- A bar without lumped mass, as in `C145_momentum_violated`. -/
example : Nodes 2 [⟨1, 2, ⟨'E', 12, 4, false, 0⟩⟩] ∧ Long dX dX [⟨1, 2, ⟨'E', 12, 4, false, 0⟩⟩] := by
  refine ⟨?_, d_long false⟩
  intro m hm
  simp only [List.mem_cons, List.not_mem_nil, or_false] at hm
  rcases hm with rfl; simp

/-- A bar of its initial length can move with constant velocity: a history to which `C145_history_partial` applies. -/
example (c : Nat → ℝ) : (∀ t : ℝ, Motion 2 dX dM (fun _ _ => 0) (fun _ _ => False) (fun _ i => t * c i) fun _ _ => 0) ∧ ∀ t (_ : Nat) i, HasDerivAt (fun s : ℝ => s * c i) (c i) t := by
  refine ⟨fun t => ?_, fun t _ i => by simpa using (hasDerivAt_id t).mul_const (c i)⟩
  rw [C145_motion_partial 2 dX _ _ dM d_nodes d_lumped]
  have hs : span (pos dX fun _ i => t * c i) ⟨1, 2, ⟨'E', 12, 4, true, 0⟩⟩ = span dX ⟨1, 2, ⟨'E', 12, 4, true, 0⟩⟩ := by
    funext i
    simp [span, pos]
  refine ⟨fun m hm => ?_, fun a ha i _ => ?_⟩
  · simp only [dM, List.mem_cons, List.not_mem_nil, or_false] at hm
    rcases hm with rfl
    rw [hs, (d_len true).1]; norm_num
  · simp only [massAt, weight, pull, dM, List.map_cons, List.map_nil, List.sum_cons, List.sum_nil, axial, hs, (d_len true).1]
    interval_cases a <;> fin_cases i <;> simp

end Verif.TrussDynamic
