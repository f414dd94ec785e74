/-
Property C143: converged states of trusses with large displacements are in equilibrium with the loads and the weight, independent of orientation, and stationary.
-/
import Verif.Props.ThinForces
import Verif.Props.NLShellStatic
import Verif.Model.TrussStatic

set_option linter.unusedSectionVars false
set_option linter.unusedSimpArgs false
set_option linter.unusedVariables false

namespace Verif.TrussStatic

open Verif.Beam (V3)
open Verif.Shell (rot Rotation)
open Verif.Bar (len)
open Verif.NLShellStatic (turned deriv_sum list_zero mul_list sub_list add_list sum_list)
open Verif.Struct (asmV asmK asmV_balance asmV_sum InBalance dotN loc nodal one_nodal)

/-! ### Specification -/

/-- Strain for a ratio of lengths: Green strain, logarithmic strain or relative extension. -/
noncomputable def strainOf (c : Char) (lam : ℝ) : ℝ := if c = 'G' then (lam ^ 2 - 1) / 2 else if c = 'L' then Real.log lam else lam - 1

/-- The axial force that is conjugate to the extension for strain energy `k L0 strain² / 2`. -/
noncomputable def axial (c : Char) (k lam : ℝ) : ℝ := if c = 'G' then k * ((lam ^ 2 - 1) / 2) * lam else if c = 'L' then k * Real.log lam / lam else k * (lam - 1)

/-- The vector from the first to the second end of a bar when the nodes are at `Y`. -/
def span (Y : Nat → Nat → ℝ) (m : Member) : V3 ℝ := fun i => Y m.n2 (i.val + 1) - Y m.n1 (i.val + 1)

/-- Positions of the nodes. -/
def pos (X u : Nat → Nat → ℝ) : Nat → Nat → ℝ := fun a i => X a i + u a i

/-- No bar is shorter than the tolerance of the code, before or after the deformation. -/
def Long (X u : Nat → Nat → ℝ) (ms : List Member) : Prop := ∀ m ∈ ms, 1 / 100000000 < len (span X m) ∧ 1 / 100000000 < len (span (pos X u) m)

/-- The ends of the bars are nodes of the model. -/
def Nodes (n : Nat) (ms : List Member) : Prop := ∀ m ∈ ms, (1 ≤ m.n1 ∧ m.n1 ≤ n) ∧ 1 ≤ m.n2 ∧ m.n2 ≤ n

/-- Half of the weight of each bar at each of its ends. -/
noncomputable def weight (X : Nat → Nat → ℝ) (ms : List Member) (a : Nat) (i : Fin 3) : ℝ :=
  (ms.map fun m => ((if m.n1 = a then 1 else 0) + if m.n2 = a then 1 else 0) * (1 / 2 * m.data.lineMass * len (span X m) * m.data.gravity i)).sum

/-- Each bar pulls its ends together with its axial force. -/
noncomputable def pull (X u : Nat → Nat → ℝ) (ms : List Member) (a : Nat) (i : Fin 3) : ℝ :=
  (ms.map fun m => ((if m.n1 = a then 1 else 0) - if m.n2 = a then 1 else 0) *
    (axial m.data.measure m.data.stiffness (len (span (pos X u) m) / len (span X m)) * (span (pos X u) m i / len (span (pos X u) m)))).sum

/-- The strain energy of the truss. -/
noncomputable def energyAll (X : Nat → Nat → ℝ) (ms : List Member) (u : Nat → Nat → ℝ) : ℝ :=
  (ms.map fun m => 1 / 2 * m.data.stiffness * len (span X m) * strainOf m.data.measure (len (span (pos X u) m) / len (span X m)) ^ 2).sum

/-- Loads and weight. -/
noncomputable def total (X : Nat → Nat → ℝ) (ms : List Member) (F : Nat → Nat → ℝ) (a i : Nat) : ℝ := F a i + if h : 1 ≤ i ∧ i ≤ 3 then weight X ms a ⟨i - 1, by omega⟩ else 0

/-- `u + t v`. -/
def along (u v : Nat → Nat → ℝ) (t : ℝ) : Nat → Nat → ℝ := fun a i => u a i + t * v a i

/-! ### Assembly -/

theorem span_X (X : Nat → Nat → ℝ) (m : Member) : at3 X m.n2 - at3 X m.n1 = span X m := by
  funext i; simp [at3, span]

theorem span_u (X u : Nat → Nat → ℝ) (m : Member) : Bar.diff (at3 X m.n1) (at3 X m.n2) (at3 u m.n1) (at3 u m.n2) = span (pos X u) m := by
  funext i; simp [Bar.diff, at3, span, pos]

noncomputable def E0 : Bar.Mats := ⟨fun _ _ _ => 0, fun _ _ => 0⟩

noncomputable def res (X u : Nat → Nat → ℝ) (m : Member) : Bar.Mats := Bar.fill m.data slots (Bar.unit (span (pos X u) m)) (len (span (pos X u) m)) (len (span X m)) E0

theorem eval_ok (X u : Nat → Nat → ℝ) (m : Member) (h0 : 1 / 100000000 < len (span X m)) (h : 1 / 100000000 < len (span (pos X u) m)) (s : Bar.Slots) :
    Bar.evalInt m.data s (at3 X m.n1) (at3 X m.n2) (some (at3 u m.n1, at3 u m.n2)) E0 =
      .ok (Bar.fill m.data s (Bar.unit (span (pos X u) m)) (len (span (pos X u) m)) (len (span X m)) E0) := by
  rw [← span_X] at h0
  rw [← span_u] at h
  rw [Bar.evalInt_ok m.data s _ _ _ _ E0 h0 h, span_X, span_u]

theorem member_ok (X u : Nat → Nat → ℝ) (m : Member) (h0 : 1 / 100000000 < len (span X m)) (h : 1 / 100000000 < len (span (pos X u) m)) :
    member X u m = .ok (⟨6, 6, (res X u m).A 1⟩, ⟨6, (res X u m).b 1⟩) := by
  have := eval_ok X u m h0 h slots
  unfold member
  unfold E0 at this
  rw [this]; rfl

noncomputable def matE (X u : Nat → Nat → ℝ) (m : Member) : DMat ℝ := ⟨6, 6, (res X u m).A 1⟩
noncomputable def vecE (X u : Nat → Nat → ℝ) (m : Member) : DVec ℝ := ⟨6, (res X u m).b 1⟩

noncomputable def all (X u : Nat → Nat → ℝ) (ms : List Member) : List (Member × DMat ℝ × DVec ℝ) := ms.map fun m => (m, matE X u m, vecE X u m)

theorem assemble_ok (X u : Nat → Nat → ℝ) (ms : List Member) (h : Long X u ms) : assemble X u ms = .ok (all X u ms) := by
  induction ms with
  | nil => rfl
  | cons m l ih =>
    rw [assemble, member_ok X u m (h m (by simp)).1 (h m (by simp)).2, ih fun m hm => h m (by simp [hm])]
    rfl

theorem axial_eq (c : Char) (b : Bool) (k L L0 : ℝ) : (Bar.nominal c b k L L0).1 = axial c k (L / L0) := by
  by_cases hG : c = 'G'
  · subst hG
    simp only [Bar.nominal, axial, Bar.getStrain, if_true]
    ring
  · by_cases hL : c = 'L'
    · simp [Bar.nominal, axial, hG, hL, Bar.getStrain]
    · simp [Bar.nominal, axial, hG, hL, Bar.getStrain]

theorem int_lo (b : Bool) (F : ℝ) (x : V3 ℝ) (S : Nat → ℝ) (i : Fin 3) : Bar.internalForce b F x S (i.val + 1) = if b then S (i.val + 1) + F * x i else F * x i := by
  unfold Bar.internalForce
  rw [if_pos ⟨by omega, by omega⟩, Bar.at1_lo]

theorem int_hi (b : Bool) (F : ℝ) (x : V3 ℝ) (S : Nat → ℝ) (i : Fin 3) : Bar.internalForce b F x S (i.val + 4) = if b then S (i.val + 4) - F * x i else -(F * x i) := by
  unfold Bar.internalForce
  rw [if_neg (by omega), if_pos ⟨by omega, by omega⟩, Bar.at1_hi]

/-- The force of a bar: half of its weight, and its axial force. -/
theorem vec_eq (X u : Nat → Nat → ℝ) (m : Member) (s : Nat) (hs : s < 2) (i : Fin 3) : (vecE X u m).e (3 * s + (i.val + 1)) =
    1 / 2 * m.data.lineMass * len (span X m) * m.data.gravity i + (if s = 0 then 1 else -1) *
      (axial m.data.measure m.data.stiffness (len (span (pos X u) m) / len (span X m)) * (span (pos X u) m i / len (span (pos X u) m))) := by
  have hb : ∀ k, (vecE X u m).e k = Bar.internalForce true (axial m.data.measure m.data.stiffness (len (span (pos X u) m) / len (span X m))) (Bar.unit (span (pos X u) m))
      (Bar.gravityForce (1 / 2 * m.data.lineMass * len (span X m)) m.data.gravity (E0.b 1)) k := by
    intro k; simp [vecE, res, Bar.fill, slots, axial_eq]
  have hg : ∀ i, 1 ≤ i → i ≤ 6 → Bar.gravityForce (1 / 2 * m.data.lineMass * len (span X m)) m.data.gravity (E0.b 1) i = 1 / 2 * m.data.lineMass * len (span X m) * Bar.at1 m.data.gravity i := by
    intro i i1 i2
    unfold Bar.gravityForce
    by_cases h0 : m.data.gravity = 0
    · simp [h0, E0, Bar.at1]
    · rw [if_neg h0, if_pos ⟨i1, i2⟩]
  rw [hb]
  interval_cases s
  · rw [show 3 * 0 + (i.val + 1) = i.val + 1 by omega, int_lo, hg _ (by omega) (by omega), Bar.at1_lo]
    simp [Bar.unit]
  · rw [show 3 * 1 + (i.val + 1) = i.val + 4 by omega, int_hi, hg _ (by omega) (by omega), Bar.at1_hi]
    simp [Bar.unit]
    ring

/-- C143 (forces): in any state in which no bar is shorter than the tolerance of the code, the residual in a node is the load there, half of the weight of the bars that meet in the node, and the axial forces of these bars, that
follow from the chosen strain, along the deformed bars. Otherwise the analysis reports a failure. -/
theorem C143_forces (X u : Nat → Nat → ℝ) (ms : List Member) :
    (Long X u ms → ∃ r, assemble X u ms = .ok r ∧ ∀ F a (i : Fin 3), residual F r a (i.val + 1) = F a (i.val + 1) + weight X ms a i + pull X u ms a i) ∧
    (¬ Long X u ms → assemble X u ms = .fail) := by
  refine ⟨fun h => ⟨_, assemble_ok X u ms h, fun F a i => ?_⟩, fun h => ?_⟩
  · unfold residual asmV all weight pull
    rw [List.map_map, List.map_map, add_assoc, add_list]
    refine congrArg (F a (i.val + 1) + ·) (congrArg List.sum (List.map_congr_left fun m _ => ?_))
    simp only [Function.comp, Member.conn, Finset.sum_range_succ, Finset.range_zero, Finset.sum_empty, zero_add]
    rw [vec_eq X u m 0 (by norm_num) i, vec_eq X u m 1 (by norm_num) i]
    by_cases h1 : m.n1 = a <;> by_cases h2 : m.n2 = a <;> simp [h1, h2] <;> ring
  · induction ms with
    | nil => exact absurd (fun m hm => by simp at hm) h
    | cons m l ih =>
      by_cases hm : 1 / 100000000 < len (span X m) ∧ 1 / 100000000 < len (span (pos X u) m)
      · have hl : ¬ Long X u l := fun hl => h fun k hk => by
          rcases List.mem_cons.mp hk with rfl | hk
          · exact hm
          · exact hl k hk
        rw [assemble, member_ok X u m hm.1 hm.2, ih hl]; rfl
      · have : member X u m = .fail := by
          have hd : at3 X m.n2 + at3 u m.n2 - (at3 X m.n1 + at3 u m.n1) = span (pos X u) m := span_u X u m
          simp only [member, Bar.evalInt, span_X, hd]
          by_cases h1 : len (span X m) ≤ 1 / 100000000
          · rw [if_pos h1]; rfl
          · rw [if_neg h1, if_pos (not_lt.mp fun h2 => hm ⟨not_le.mp h1, h2⟩)]; rfl
        rw [assemble, this]; rfl

theorem residual_all (X u : Nat → Nat → ℝ) (ms : List Member) (h : Long X u ms) (F : Nat → Nat → ℝ) (a : Nat) (i : Fin 3) :
    residual F (all X u ms) a (i.val + 1) = F a (i.val + 1) + weight X ms a i + pull X u ms a i := by
  obtain ⟨r, h1, h2⟩ := (C143_forces X u ms).1 h
  rw [assemble_ok X u ms h] at h1
  cases h1
  exact h2 F a i

theorem conv_long (n : Nat) (X : Nat → Nat → ℝ) (ms : List Member) (F g : Nat → Nat → ℝ) (fixed : Nat → Nat → Prop) (u : Nat → Nat → ℝ) (h : Converged n X ms F g fixed u) : Long X u ms := by
  by_contra hc
  obtain ⟨r, h1, -⟩ := h
  rw [(C143_forces X u ms).2 hc] at h1
  cases h1

/-! ### Equilibrium -/

/-- Sums over nodes of the axial forces. -/
theorem pull_sum (n : Nat) (X u : Nat → Nat → ℝ) (ms : List Member) (hn : Nodes n ms) (w : Nat → ℝ) (i : Fin 3) : ∑ a ∈ Finset.range n, w (a + 1) * pull X u ms (a + 1) i =
    (ms.map fun m => (w m.n1 - w m.n2) * (axial m.data.measure m.data.stiffness (len (span (pos X u) m) / len (span X m)) * (span (pos X u) m i / len (span (pos X u) m)))).sum := by
  simp only [pull, mul_list]
  rw [sum_list]
  refine congrArg List.sum (List.map_congr_left fun m hm => ?_)
  have h1 := Struct.pick n m.n1 (hn m hm).1.1 (hn m hm).1.2 w
  have h2 := Struct.pick n m.n2 (hn m hm).2.1 (hn m hm).2.2 w
  rw [← h1, ← h2, ← Finset.sum_sub_distrib, Finset.sum_mul]
  refine Finset.sum_congr rfl fun a _ => ?_
  by_cases h1 : m.n1 = a + 1 <;> by_cases h2 : m.n2 = a + 1 <;> simp [h1, h2]

/-- C143 (equilibrium): in a converged state the reactions, minus the residual, vanish where nothing is held, and together with the loads and the weight of the bars they have no resultant, and no moment about any point, in the deformed
positions. -/
theorem C143_balance (n : Nat) (X : Nat → Nat → ℝ) (ms : List Member) (hn : Nodes n ms) (F g : Nat → Nat → ℝ) (fixed : Nat → Nat → Prop) (u : Nat → Nat → ℝ) (h : Converged n X ms F g fixed u) :
    ∃ r, assemble X u ms = .ok r ∧ (∀ a i, a < n → i < 3 → ¬ fixed (a + 1) (i + 1) → -residual F r (a + 1) (i + 1) = 0) ∧
      ∀ i : Fin 3, (∑ a ∈ Finset.range n, (-residual F r (a + 1) (i.val + 1) + F (a + 1) (i.val + 1) + weight X ms (a + 1) i) = 0) ∧
      ∀ (c : Nat → ℝ) (j : Fin 3), ∑ a ∈ Finset.range n, ((pos X u (a + 1) (i.val + 1) - c i) * (-residual F r (a + 1) (j.val + 1) + F (a + 1) (j.val + 1) + weight X ms (a + 1) j) -
        (pos X u (a + 1) (j.val + 1) - c j) * (-residual F r (a + 1) (i.val + 1) + F (a + 1) (i.val + 1) + weight X ms (a + 1) i)) = 0 := by
  have hl := conv_long n X ms F g fixed u h
  obtain ⟨r, hr, h1, -⟩ := h
  refine ⟨r, hr, fun a i ha hi hf => by rw [h1 a i ha hi hf, neg_zero], ?_⟩
  rw [assemble_ok X u ms hl] at hr
  cases hr
  have e0 : ∀ a (i : Fin 3), -residual F (all X u ms) a (i.val + 1) + F a (i.val + 1) + weight X ms a i = -pull X u ms a i := by
    intro a i; rw [residual_all X u ms hl]; ring
  simp only [e0]
  refine fun i => ⟨?_, fun c j => ?_⟩
  · have := pull_sum n X u ms hn (fun _ => 1) i
    simp only [one_mul, sub_self, zero_mul] at this
    rw [Finset.sum_neg_distrib, this, list_zero _ _ fun _ _ => rfl, neg_zero]
  · simp only [mul_neg, Finset.sum_sub_distrib, Finset.sum_neg_distrib]
    rw [pull_sum n X u ms hn (fun a => pos X u a (i.val + 1) - c i) j, pull_sum n X u ms hn (fun a => pos X u a (j.val + 1) - c j) i, neg_sub_neg, sub_list]
    refine list_zero _ _ fun m _ => ?_
    simp only [span]
    ring

/-! ### Orientation -/

theorem turned_span (n : Nat) (m : Member) (hm : (1 ≤ m.n1 ∧ m.n1 ≤ n) ∧ 1 ≤ m.n2 ∧ m.n2 ≤ n) (Y Y' : Nat → Nat → ℝ) (r : Fin 3 → V3 ℝ) (c : V3 ℝ)
    (hY : ∀ a, a < n → ∀ i : Fin 3, Y' (a + 1) (i.val + 1) = c i + turned r (Y (a + 1)) i) : span Y' m = rot r (span Y m) := by
  have h1 := hY (m.n1 - 1) (by omega)
  have h2 := hY (m.n2 - 1) (by omega)
  rw [Nat.sub_add_cancel hm.1.1] at h1
  rw [Nat.sub_add_cancel hm.2.1] at h2
  funext i
  simp only [span, h1, h2, turned, rot, Fin.sum_univ_three]
  simp
  ring

/-- C143 (orientation): when a truss in any state is turned and moved as a rigid body, and the loads and the gravity are turned alike, the residual is turned; a state is converged exactly if the turned state is, with the same nodes held.
`u'` are the displacements, and `ms'` the bars, after that. -/
theorem C143_turn (n : Nat) (X u u' : Nat → Nat → ℝ) (ms ms' : List Member) (hn : Nodes n ms) (F F' : Nat → Nat → ℝ) (r : Fin 3 → V3 ℝ) (c : V3 ℝ) (hr : Rotation r) (hl : Long X u ms)
    (hY : ∀ a, a < n → ∀ i : Fin 3, pos X u' (a + 1) (i.val + 1) = c i + turned r (pos X u (a + 1)) i) (hF : ∀ a, a < n → ∀ i : Fin 3, F' (a + 1) (i.val + 1) = turned r (F (a + 1)) i)
    (hm : ms' = ms.map fun m => { m with data := { m.data with gravity := rot r m.data.gravity } }) :
    (∃ s s', assemble X u ms = .ok s ∧ assemble X u' ms' = .ok s' ∧ ∀ a, a < n → ∀ i : Fin 3, residual F' s' (a + 1) (i.val + 1) = turned r (residual F s (a + 1)) i) ∧
    ∀ held : Nat → Prop, Converged n X ms F u (fun a _ => held a) u → Converged n X ms' F' u' (fun a _ => held a) u' := by
  have hs : ∀ m ∈ ms, span (pos X u') m = rot r (span (pos X u) m) := fun m hm => turned_span n m (hn m hm) _ _ r c hY
  have hl' : Long X u' ms' := by
    intro m' hm'
    rw [hm] at hm'
    obtain ⟨m, hm1, rfl⟩ := List.mem_map.mp hm'
    refine ⟨(hl m hm1).1, ?_⟩
    have := hs m hm1
    change 1 / 100000000 < len (span (pos X u') m)
    rw [this, Shell.rot_len hr]
    exact (hl m hm1).2
  have key : ∀ a, a < n → ∀ i : Fin 3, residual F' (all X u' ms') (a + 1) (i.val + 1) = turned r (residual F (all X u ms) (a + 1)) i := by
    intro a ha i
    rw [residual_all X u' ms' hl', hF a ha i]
    unfold turned
    simp only [residual_all X u ms hl, mul_add, Finset.sum_add_distrib]
    congr 1
    · congr 1
      simp only [weight, mul_list, hm, List.map_map]
      rw [Fin.sum_univ_three, add_list, add_list]
      refine congrArg List.sum (List.map_congr_left fun m _ => ?_)
      have e2 : span X { m with data := { m.data with gravity := rot r m.data.gravity } } = span X m := rfl
      simp only [Function.comp, e2]
      simp only [rot]
      ring
    · simp only [pull, mul_list, hm, List.map_map]
      rw [Fin.sum_univ_three, add_list, add_list]
      refine congrArg List.sum (List.map_congr_left fun m hm1 => ?_)
      have e1 : span (pos X u') { m with data := { m.data with gravity := rot r m.data.gravity } } = rot r (span (pos X u) m) := hs m hm1
      have e2 : span X { m with data := { m.data with gravity := rot r m.data.gravity } } = span X m := rfl
      simp only [Function.comp, e1, e2, Shell.rot_len hr]
      simp only [rot]
      ring
  refine ⟨⟨_, _, assemble_ok X u ms hl, assemble_ok X u' ms' hl', key⟩, fun held hc => ?_⟩
  obtain ⟨s, h1, h2, -⟩ := hc
  rw [assemble_ok X u ms hl] at h1
  cases h1
  refine ⟨_, assemble_ok X u' ms' hl', fun a i ha hi hf => ?_, fun _ _ _ _ _ => rfl⟩
  have := key a ha ⟨i, hi⟩
  rw [this]
  exact Finset.sum_eq_zero fun b _ => by rw [h2 a b ha b.isLt hf, mul_zero]

/-- C143 (rigid motions): a truss that is turned and moved without changing the length of its bars, however far, has no axial forces. -/
theorem C143_rigid (n : Nat) (X u : Nat → Nat → ℝ) (ms : List Member) (hn : Nodes n ms) (h0 : ∀ m ∈ ms, 1 / 100000000 < len (span X m)) (r : Fin 3 → V3 ℝ) (c : V3 ℝ) (hr : Rotation r)
    (hY : ∀ a, a < n → ∀ i : Fin 3, pos X u (a + 1) (i.val + 1) = c i + turned r (X (a + 1)) i) :
    ∃ s, assemble X u ms = .ok s ∧ ∀ F a (i : Fin 3), residual F s a (i.val + 1) = F a (i.val + 1) + weight X ms a i := by
  have hs : ∀ m ∈ ms, len (span (pos X u) m) = len (span X m) := fun m hm => by rw [turned_span n m (hn m hm) _ _ r c hY, Shell.rot_len hr]
  have hl : Long X u ms := fun m hm => ⟨h0 m hm, by rw [hs m hm]; exact h0 m hm⟩
  refine ⟨_, assemble_ok X u ms hl, fun F a i => ?_⟩
  rw [residual_all X u ms hl, pull, list_zero, add_zero]
  intro m hm
  have hp : 0 < len (span X m) := lt_trans (by norm_num) (h0 m hm)
  rw [hs m hm, div_self hp.ne']
  have : axial m.data.measure m.data.stiffness 1 = 0 := by unfold axial; split_ifs <;> simp
  rw [this]; ring

/-! ### Derivatives -/

theorem span_along (X u v : Nat → Nat → ℝ) (m : Member) (t : ℝ) : span (pos X (along u v t)) m = (at3 X m.n2 + (at3 u m.n2 + t • at3 v m.n2)) - (at3 X m.n1 + (at3 u m.n1 + t • at3 v m.n1)) := by
  funext i
  simp [span, pos, along, at3]

theorem at3_along (u v : Nat → Nat → ℝ) (a : Nat) (t : ℝ) : at3 (along u v t) a = at3 u a + t • at3 v a := by
  funext i; simp [at3, along]

theorem slots_ne : slots.eKm ≠ 0 ∧ slots.eKg = slots.eKm ∧ slots.eM ≠ slots.eKm ∧ slots.iS ≠ 0 := by decide

/-- The forces of a bar near a state. -/
theorem vec_deriv (X u v : Nat → Nat → ℝ) (m : Member) (h0 : 1 / 100000000 < len (span X m)) (h : 1 / 100000000 < len (span (pos X u) m)) (i : Nat) (h1 : 1 ≤ i) (h6 : i ≤ 6) :
    HasDerivAt (fun t => (vecE X (along u v t) m).e i) (-∑ j ∈ Finset.range 6, (matE X u m).e i (j + 1) * Bar.six (at3 v m.n1) (at3 v m.n2) (j + 1)) 0 := by
  have g0 := h0
  have g := h
  rw [← span_X] at h0
  rw [← span_u] at h
  obtain ⟨E', e1, e2⟩ := Bar.C44_tangent m.data slots (at3 X m.n1) (at3 X m.n2) (at3 u m.n1) (at3 u m.n2) (at3 v m.n1) (at3 v m.n2) E0 h0 h slots_ne.1 slots_ne.2.1 slots_ne.2.2.1 slots_ne.2.2.2
  rw [eval_ok X u m g0 g slots] at e1
  cases e1
  refine (e2 i h1 h6).congr_of_eventuallyEq ?_
  have hl : (0 : ℝ) < len (span (pos X u) m) := lt_trans (by norm_num) g
  have hev : ∀ᶠ t : ℝ in nhds 0, 1 / 100000000 < len (span (pos X (along u v t)) m) := by
    have e : ∀ t : ℝ, span (pos X (along u v t)) m = span (pos X u) m + t • (at3 v m.n2 - at3 v m.n1) := by
      intro t; funext i; simp [span, pos, along, at3]; ring
    have hcont := (Bar.len_deriv (span (pos X u) m) (at3 v m.n2 - at3 v m.n1) hl).continuousAt
    simp only [e]
    refine hcont.eventually (lt_mem_nhds ?_)
    simpa using g
  filter_upwards [hev] with t ht
  rw [← at3_along, ← at3_along, eval_ok X (along u v t) m g0 ht slots]
  rfl

theorem six_sum (w : Nat → ℝ) (v1 v2 : V3 ℝ) : ∑ j ∈ Finset.range 6, w (j + 1) * Bar.six v1 v2 (j + 1) = ∑ j : Fin 3, (w (j.val + 1) * v1 j + w (j.val + 4) * v2 j) := by
  simp only [Finset.sum_range_succ, Finset.range_zero, Finset.sum_empty, Fin.sum_univ_three, Bar.six, Bar.at1]
  norm_num
  ring_nf
  rfl

theorem nodal_all (n : Nat) (X u v : Nat → Nat → ℝ) (ms : List Member) (hn : Nodes n ms) (a i : Nat) :
    nodal 3 n (tangent (all X u ms)) v a i = (ms.map fun m => ∑ s ∈ Finset.range 2, if m.conn.node (s + 1) = a then
      ∑ j ∈ Finset.range 6, (matE X u m).e (3 * s + i) (j + 1) * Bar.six (at3 v m.n1) (at3 v m.n2) (j + 1) else 0).sum := by
  induction ms with
  | nil => simp [nodal, tangent, all, asmK]
  | cons m l ih =>
    have := ih fun k hk => hn k (by simp [hk])
    rw [List.map_cons, List.sum_cons, ← this]
    have hn1 : ∀ s, s < m.conn.nen → 1 ≤ m.conn.node (s + 1) ∧ m.conn.node (s + 1) ≤ n := by
      intro s hs
      have hs : s < 2 := hs
      have := hn m (by simp)
      interval_cases s <;> simp [Member.conn] <;> omega
    have e1 := one_nodal 3 n m.conn (matE X u m) hn1 v a i
    have e2 : nodal 3 n (tangent (all X u (m :: l))) v a i = (∑ b ∈ Finset.range n, ∑ j ∈ Finset.range 3, (∑ s ∈ Finset.range m.conn.nen, ∑ t ∈ Finset.range m.conn.nen,
        if m.conn.node (s + 1) = a ∧ m.conn.node (t + 1) = b + 1 then (matE X u m).e (3 * s + i) (3 * t + (j + 1)) else 0) * v (b + 1) (j + 1)) + nodal 3 n (tangent (all X u l)) v a i := by
      simp only [nodal, tangent, all, asmK, List.map_cons, List.sum_cons, add_mul, Finset.sum_add_distrib]
    rw [e2, e1]
    refine congrArg (· + _) (Finset.sum_congr rfl fun s hs => ?_)
    by_cases ha : m.conn.node (s + 1) = a
    · rw [if_pos ha, if_pos ha]
      simp only [Member.conn, loc, Finset.sum_range_succ, Finset.range_zero, Finset.sum_empty, Bar.six, Bar.at1, at3]
      norm_num
      ring
    · rw [if_neg ha, if_neg ha]

/-- C143 (tangent): the tangent matrix gives the change of the residual, with opposite sign, for every change of the displacements. -/
theorem C143_tangent (n : Nat) (X u v : Nat → Nat → ℝ) (ms : List Member) (hn : Nodes n ms) (hl : Long X u ms) (F : Nat → Nat → ℝ) :
    ∃ r, assemble X u ms = .ok r ∧ ∃ R : ℝ → List (Member × DMat ℝ × DVec ℝ), (∀ t, Long X (along u v t) ms → assemble X (along u v t) ms = .ok (R t)) ∧
      ∀ a (i : Fin 3), HasDerivAt (fun t => residual F (R t) a (i.val + 1)) (-nodal 3 n (tangent r) v a (i.val + 1)) 0 := by
  refine ⟨_, assemble_ok X u ms hl, fun t => all X (along u v t) ms, fun t ht => assemble_ok X _ ms ht, fun a i => ?_⟩
  rw [nodal_all n X u v ms hn, neg_eq_neg_one_mul, mul_list]
  have e1 : (fun t => residual F (all X (along u v t) ms) a (i.val + 1)) = fun t => F a (i.val + 1) +
      (ms.map fun m => ∑ s ∈ Finset.range 2, if m.conn.node (s + 1) = a then (vecE X (along u v t) m).e (3 * s + (i.val + 1)) else 0).sum := by
    funext t
    unfold residual asmV all
    rw [List.map_map, List.map_map]
    rfl
  rw [e1]
  refine HasDerivAt.const_add _ (deriv_sum ms (fun m t => ∑ s ∈ Finset.range 2, if m.conn.node (s + 1) = a then (vecE X (along u v t) m).e (3 * s + (i.val + 1)) else 0) _ fun m hm => ?_)
  rw [neg_one_mul, ← Finset.sum_neg_distrib]
  refine HasDerivAt.fun_sum fun s hs => ?_
  have hs := Finset.mem_range.mp hs
  by_cases ha : m.conn.node (s + 1) = a
  · simp only [ha, if_true]
    exact vec_deriv X u v m (hl m hm).1 (hl m hm).2 _ (by omega) (by omega)
  · simp only [ha, if_false, neg_zero]
    exact hasDerivAt_const _ _

theorem strain_eq (c : Char) (lam : ℝ) : Bar.getStrain c lam = strainOf c lam := by
  unfold Bar.getStrain strainOf
  split_ifs <;> ring

theorem energy_deriv (X u v : Nat → Nat → ℝ) (m : Member) (h0 : 1 / 100000000 < len (span X m)) (h : 1 / 100000000 < len (span (pos X u) m)) :
    HasDerivAt (fun t => 1 / 2 * m.data.stiffness * len (span X m) * strainOf m.data.measure (len (span (pos X (along u v t)) m) / len (span X m)) ^ 2)
      (-∑ i : Fin 3, axial m.data.measure m.data.stiffness (len (span (pos X u) m) / len (span X m)) * (span (pos X u) m i / len (span (pos X u) m)) * (v m.n1 (i.val + 1) - v m.n2 (i.val + 1))) 0 := by
  have g0 := h0
  have g := h
  rw [← span_X] at h0
  rw [← span_u] at h
  obtain ⟨E', e1, e2⟩ := Bar.C44_energy m.data ⟨1, 1, 0, 2, 1⟩ (at3 X m.n1) (at3 X m.n2) (at3 u m.n1) (at3 u m.n2) (at3 v m.n1) (at3 v m.n2) E0 h0 h (by decide) (by decide)
  rw [eval_ok X u m g0 g] at e1
  cases e1
  simp only [← span_along, span_X, strain_eq] at e2
  refine e2.congr_deriv ?_
  rw [six_sum]
  congr 1
  refine Finset.sum_congr rfl fun i _ => ?_
  have b1 : (Bar.fill m.data ⟨1, 1, 0, 2, 1⟩ (Bar.unit (span (pos X u) m)) (len (span (pos X u) m)) (len (span X m)) E0).b 1 (i.val + 1) =
      axial m.data.measure m.data.stiffness (len (span (pos X u) m) / len (span X m)) * (span (pos X u) m i / len (span (pos X u) m)) := by
    have : ∀ k, (Bar.fill m.data ⟨1, 1, 0, 2, 1⟩ (Bar.unit (span (pos X u) m)) (len (span (pos X u) m)) (len (span X m)) E0).b 1 k =
        Bar.internalForce false (axial m.data.measure m.data.stiffness (len (span (pos X u) m) / len (span X m))) (Bar.unit (span (pos X u) m)) (E0.b 1) k := by
      intro k; simp [Bar.fill, axial_eq]
    rw [this, int_lo]; simp [Bar.unit]
  have b4 : (Bar.fill m.data ⟨1, 1, 0, 2, 1⟩ (Bar.unit (span (pos X u) m)) (len (span (pos X u) m)) (len (span X m)) E0).b 1 (i.val + 4) =
      -(axial m.data.measure m.data.stiffness (len (span (pos X u) m) / len (span X m)) * (span (pos X u) m i / len (span (pos X u) m))) := by
    have : ∀ k, (Bar.fill m.data ⟨1, 1, 0, 2, 1⟩ (Bar.unit (span (pos X u) m)) (len (span (pos X u) m)) (len (span X m)) E0).b 1 k =
        Bar.internalForce false (axial m.data.measure m.data.stiffness (len (span (pos X u) m) / len (span X m))) (Bar.unit (span (pos X u) m)) (E0.b 1) k := by
      intro k; simp [Bar.fill, axial_eq]
    rw [this, int_hi]; simp [Bar.unit]
  rw [b1, b4]
  simp only [at3]
  ring

theorem dot_along (n : Nat) (F u v : Nat → Nat → ℝ) (t : ℝ) : dotN 3 n F (along u v t) = dotN 3 n F u + t * dotN 3 n F v := by
  simp only [dotN, along, Finset.mul_sum, ← Finset.sum_add_distrib]
  exact Finset.sum_congr rfl fun a _ => Finset.sum_congr rfl fun i _ => by ring

theorem total_at (X : Nat → Nat → ℝ) (ms : List Member) (F : Nat → Nat → ℝ) (a : Nat) (i : Fin 3) : total X ms F a (i.val + 1) = F a (i.val + 1) + weight X ms a i := by
  unfold total
  rw [dif_pos ⟨by omega, by omega⟩]
  rfl

/-- C143 (potential): the derivative of the strain energy minus the work of loads and weight is minus the work of the residual, for every change of the displacements. So a state is converged exactly if the given displacements are met and
this potential is stationary with respect to all changes that leave the held displacements. -/
theorem C143_stationary (n : Nat) (X u : Nat → Nat → ℝ) (ms : List Member) (hn : Nodes n ms) (hl : Long X u ms) (F g : Nat → Nat → ℝ) (fixed : Nat → Nat → Prop) :
    (∃ r, assemble X u ms = .ok r ∧ ∀ v, HasDerivAt (fun t => energyAll X ms (along u v t) - dotN 3 n (total X ms F) (along u v t)) (-dotN 3 n (residual F r) v) 0) ∧
    (Converged n X ms F g fixed u ↔ (∀ a i, a < n → i < 3 → fixed (a + 1) (i + 1) → u (a + 1) (i + 1) = g (a + 1) (i + 1)) ∧
      ∀ v : Nat → Nat → ℝ, (∀ a i, a < n → i < 3 → fixed (a + 1) (i + 1) → v (a + 1) (i + 1) = 0) →
        HasDerivAt (fun t => energyAll X ms (along u v t) - dotN 3 n (total X ms F) (along u v t)) 0 0) := by
  have key : ∀ v, HasDerivAt (fun t => energyAll X ms (along u v t) - dotN 3 n (total X ms F) (along u v t)) (-dotN 3 n (residual F (all X u ms)) v) 0 := by
    intro v
    have h1 : HasDerivAt (fun t => dotN 3 n (total X ms F) (along u v t)) (dotN 3 n (total X ms F) v) 0 := by
      simp only [dot_along]
      simpa using ((hasDerivAt_id (0 : ℝ)).mul_const (dotN 3 n (total X ms F) v)).const_add (dotN 3 n (total X ms F) u)
    have h2 := deriv_sum ms (fun m t => 1 / 2 * m.data.stiffness * len (span X m) * strainOf m.data.measure (len (span (pos X (along u v t)) m) / len (span X m)) ^ 2)
      _ fun m hm => energy_deriv X u v m (hl m hm).1 (hl m hm).2
    refine (h2.sub h1).congr_deriv ?_
    have e1 : dotN 3 n (residual F (all X u ms)) v = dotN 3 n (total X ms F) v + ∑ i : Fin 3, ∑ a ∈ Finset.range n, v (a + 1) (i.val + 1) * pull X u ms (a + 1) i := by
      rw [Finset.sum_comm]
      unfold dotN
      rw [← Finset.sum_add_distrib]
      refine Finset.sum_congr rfl fun a _ => ?_
      rw [Finset.sum_range (n := 3), Finset.sum_range (n := 3), ← Finset.sum_add_distrib]
      refine Finset.sum_congr rfl fun i _ => ?_
      rw [total_at, residual_all X u ms hl]
      ring
    rw [e1]
    rw [Finset.sum_congr rfl fun i _ => pull_sum n X u ms hn (fun a => v a (i.val + 1)) i]
    rw [Fin.sum_univ_three, add_list, add_list, neg_add, ← sub_eq_neg_add, neg_eq_neg_one_mul (List.sum _), mul_list]
    refine congrArg (· - _) (congrArg List.sum (List.map_congr_left fun m _ => ?_))
    rw [Fin.sum_univ_three]
    simp
    ring
  refine ⟨⟨_, assemble_ok X u ms hl, key⟩, fun ⟨r, h1, h2, h3⟩ => ⟨h3, fun v hv => ?_⟩, fun ⟨h3, h2⟩ => ⟨_, assemble_ok X u ms hl, fun b j hb hj hf => ?_, h3⟩⟩
  · rw [assemble_ok X u ms hl] at h1
    cases h1
    have := key v
    have hz : dotN 3 n (residual F (all X u ms)) v = 0 := Finset.sum_eq_zero fun a ha => Finset.sum_eq_zero fun i hi => by
      by_cases hf : fixed (a + 1) (i + 1)
      · rw [hv a i (Finset.mem_range.mp ha) (Finset.mem_range.mp hi) hf, mul_zero]
      · rw [h2 a i (Finset.mem_range.mp ha) (Finset.mem_range.mp hi) hf, zero_mul]
    rwa [hz, neg_zero] at this
  · have h4 := h2 (fun a i => if a = b + 1 ∧ i = j + 1 then 1 else 0) fun a i _ _ hf' => if_neg fun hc => hf (by rw [← hc.1, ← hc.2]; exact hf')
    have h5 := (key _).unique h4
    unfold dotN at h5
    rw [Finset.sum_eq_single b, Finset.sum_eq_single j] at h5
    · simpa using h5
    · intro k _ hk; simp [hk]
    · intro hk; exact absurd (Finset.mem_range.mpr hj) hk
    · intro k _ hk; exact Finset.sum_eq_zero fun i _ => by simp [hk]
    · intro hk; exact absurd (Finset.mem_range.mpr hb) hk

/-- C143 (iterations): the converged states are the ones that an iteration does not change. -/
theorem C143_iterate (n : Nat) (X u : Nat → Nat → ℝ) (ms : List Member) (F g : Nat → Nat → ℝ) (fixed : Nat → Nat → Prop) : Converged n X ms F g fixed u ↔ Iterate n X ms F g fixed u u := by
  refine ⟨fun ⟨r, h1, h2, h3⟩ => ⟨r, h1, ⟨fun a i ha hi hf => ?_, fun a i ha hi hf => ?_⟩⟩, fun ⟨r, h1, h2⟩ => ⟨r, h1, fun a i ha hi hf => ?_, fun a i ha hi hf => ?_⟩⟩
  · rw [h2 a i ha hi hf]; simp [Struct.nodal]
  · have := h3 a i ha hi hf
    linarith
  · have := h2.free a i ha hi hf
    rw [← this]; simp [Struct.nodal]
  · have := h2.held a i ha hi hf
    linarith

/-! ### Examples -/

/-- Two heavy bars along the axes, with engineering strain and logarithmic strain. -/
noncomputable def tX : Nat → Nat → ℝ := fun a i => if a = 2 ∧ i = 1 then 1 else if a = 3 ∧ i = 2 then 1 else 0
noncomputable def tM : List Member := [⟨1, 2, ⟨'E', 12, 3, true, ![0, 0, 2]⟩⟩, ⟨3, 1, ⟨'L', 5, 3, true, ![0, 0, 2]⟩⟩]
/-- The first bar stretched to twice its length. -/
noncomputable def tU : Nat → Nat → ℝ := fun a i => if a = 2 ∧ i = 1 then 1 else 0
/-- Loads that stretch it and carry the weight. -/
noncomputable def tF : Nat → Nat → ℝ := fun a i => if a = 2 ∧ i = 1 then 12 else if i = 3 then (if a = 1 then -6 else -3) else 0

theorem t_nodes : Nodes 3 tM := by
  intro m hm
  simp only [tM, List.mem_cons, List.not_mem_nil, or_false] at hm
  rcases hm with rfl | rfl <;> simp

theorem t_len : len (span tX ⟨1, 2, ⟨'E', 12, 3, true, ![0, 0, 2]⟩⟩) = 1 ∧ len (span (pos tX tU) ⟨1, 2, ⟨'E', 12, 3, true, ![0, 0, 2]⟩⟩) = 2 ∧
    len (span tX ⟨3, 1, ⟨'L', 5, 3, true, ![0, 0, 2]⟩⟩) = 1 ∧ len (span (pos tX tU) ⟨3, 1, ⟨'L', 5, 3, true, ![0, 0, 2]⟩⟩) = 1 := by
  refine ⟨?_, ?_, ?_, ?_⟩
  · simp [len, span, tX]
  · simp only [len, span, pos, tX, tU]
    norm_num
    rw [show (4 : ℝ) = 2 ^ 2 by norm_num, Real.sqrt_sq (by norm_num)]
  · simp [len, span, tX]
  · simp [len, span, pos, tX, tU]

theorem t_long : Long tX tU tM := by
  intro m hm
  simp only [tM, List.mem_cons, List.not_mem_nil, or_false] at hm
  obtain ⟨h1, h2, h3, h4⟩ := t_len
  rcases hm with rfl | rfl
  · rw [h1, h2]; norm_num
  · rw [h3, h4]; norm_num

example : Converged 3 tX tM tF (fun _ _ => 0) (fun a i => a = 1 ∧ i = 1) tU := by
  refine ⟨_, assemble_ok tX tU tM t_long, fun a i ha hi hf => ?_, fun a i _ _ hf => ?_⟩
  · have := residual_all tX tU tM t_long tF (a + 1) ⟨i, hi⟩
    rw [this]
    obtain ⟨h1, h2, h3, h4⟩ := t_len
    simp only [weight, pull, tM, List.map_cons, List.map_nil, List.sum_cons, List.sum_nil, h1, h2, h3, h4]
    interval_cases a <;> interval_cases i <;> simp [tF, axial, span, pos, tX, tU] <;> norm_num <;> simp at hf
  · simp [tU, hf]

/-- Long, as needed for C143_turn, C143_tangent and C143_stationary; and a state in which a bar has vanished. -/
example : Nodes 3 tM ∧ Long tX tU tM ∧ Rotation Shell.quarter ∧ ¬ Long tX (fun a i => if a = 2 ∧ i = 1 then -1 else 0) tM :=
  ⟨t_nodes, t_long, Shell.quarter_rot, fun h => by
    have := (h ⟨1, 2, ⟨'E', 12, 3, true, ![0, 0, 2]⟩⟩ (by simp [tM])).2
    have h0 : len (span (pos tX (fun a i => if a = 2 ∧ i = 1 then -1 else 0)) ⟨1, 2, ⟨'E', 12, 3, true, ![0, 0, 2]⟩⟩) = 0 := by simp [len, span, pos, tX]
    rw [h0] at this
    norm_num at this⟩

/-- A quarter turn of the truss. -/
example : ∃ u : Nat → Nat → ℝ, ∀ a, a < 3 → ∀ i : Fin 3, pos tX u (a + 1) (i.val + 1) = (fun _ => 4 : V3 ℝ) i + turned Shell.quarter (tX (a + 1)) i :=
  ⟨fun a i => if h : 1 ≤ i ∧ i ≤ 3 then 4 + turned Shell.quarter (tX a) ⟨i - 1, by omega⟩ - tX a i else 0, fun a _ i => by
    have h : 1 ≤ i.val + 1 ∧ i.val + 1 ≤ 3 := by omega
    simp [pos, h]⟩

end Verif.TrussStatic
