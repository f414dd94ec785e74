/-
The mixed element with internal pressure modes (C114): quantities of the formulation, what the loops of the element add up to, and the derivative of its forces.
-/
import Verif.Model.MixedElem
import Verif.Props.FbarElem
import Verif.Props.MixedTangent
import Verif.Props.MixedVolume
set_option linter.unusedSectionVars false
set_option linter.unusedSimpArgs false
set_option linter.unusedVariables false
namespace Verif.Finite
open Verif.Cont Verif.ContSpec Verif.FiniteSpec Verif.Fbar Verif.Mixed Filter Topology

/-- Strains of a velocity gradient, followed by the mean volumetric rate. -/
noncomputable def strain7 (X : Nat → Nat → ℝ) (l : ℝ) (k : Nat) : ℝ := if k = 7 then l else eng3 X k

/-- The velocity gradient whose trace is replaced. -/
noncomputable def barVel (Y : Nat → Nat → ℝ) (l : ℝ) (i j : Nat) : ℝ := Y i j + if i = j then (l - tr 3 Y) / 3 else 0

theorem volTerms (C : Nat → Nat → ℝ) (s : Nat → ℝ) (pb pm : ℝ) : ∃ D, addVolumetricTerms C s pb pm = .ok D ∧ ∀ X Y lx ly,
    ∑ k ∈ Finset.range 7, ∑ l ∈ Finset.range 7, strain7 X lx (k + 1) * D.e (k + 1) (l + 1) * strain7 Y ly (l + 1)
      = (∑ k ∈ Finset.range 6, ∑ l ∈ Finset.range 6, eng3 (barVel X lx) (k + 1) * C (k + 1) (l + 1) * eng3 (barVel Y ly) (l + 1))
        + ((pm - 2 / 3 * pb) * tr 3 X * tr 3 Y - 2 / 3 * (tr 3 X * (∑ k ∈ Finset.range 6, (s (k + 1) - pb * one6 (k + 1)) * eng3 Y (k + 1)) + (∑ k ∈ Finset.range 6, (s (k + 1) - pb * one6 (k + 1)) * eng3 X (k + 1)) * tr 3 Y)
          + 2 * (pb - pm) * ∑ k ∈ Finset.range 6, ∑ l ∈ Finset.range 6, eng3 X (k + 1) * sym6 (k + 1) (l + 1) * eng3 Y (l + 1))
        + 2 / 3 * (lx * (∑ k ∈ Finset.range 6, (s (k + 1) - pb * one6 (k + 1)) * eng3 Y (k + 1)) + (∑ k ∈ Finset.range 6, (s (k + 1) - pb * one6 (k + 1)) * eng3 X (k + 1)) * ly)
        - pb / 3 * lx * ly := by
  obtain ⟨e0, h0, q1, q2, q3, q4⟩ := project_entries C
  obtain ⟨D0, D, g0, g1, g2, g3, g4⟩ := C34_stress C s pb pm
  rw [h0] at g0
  cases g0
  refine ⟨D, g1, fun X Y lx ly => ?_⟩
  have hs : ∀ k l, k < 6 → l < 6 → D.e (k + 1) (l + 1) = _ := fun k l hk hl => g2 (k + 1) (l + 1) (by omega) (by omega) (by omega) (by omega)
  have hs' : ∀ k l, k < 6 → l < 6 → e0 (k + 1) (l + 1) = _ := fun k l hk hl => q1 (k + 1) (l + 1) (by omega) (by omega) (by omega) (by omega)
  rw [Finset.sum_range_succ]
  simp only [Finset.sum_range_succ _ 6]
  have e1 : ∀ k ∈ Finset.range 6, ∀ l ∈ Finset.range 6, strain7 X lx (k + 1) * D.e (k + 1) (l + 1) * strain7 Y ly (l + 1) = eng3 X (k + 1) * e0 (k + 1) (l + 1) * eng3 Y (l + 1)
      + ((pm - 2 / 3 * pb) * ((one6 (k + 1) * eng3 X (k + 1)) * (one6 (l + 1) * eng3 Y (l + 1))) - 2 / 3 * ((one6 (k + 1) * eng3 X (k + 1)) * ((s (l + 1) - pb * one6 (l + 1)) * eng3 Y (l + 1)) + ((s (k + 1) - pb * one6 (k + 1)) * eng3 X (k + 1)) * (one6 (l + 1) * eng3 Y (l + 1)))
          + 2 * (pb - pm) * (eng3 X (k + 1) * sym6 (k + 1) (l + 1) * eng3 Y (l + 1))) := by
    intro k hk l hl
    have := Finset.mem_range.mp hk
    have := Finset.mem_range.mp hl
    rw [g2 (k + 1) (l + 1) (by omega) (by omega) (by omega) (by omega)]
    simp only [strain7, show ¬ k + 1 = 7 by omega, show ¬ l + 1 = 7 by omega, if_false]
    ring
  have e2 : ∀ k ∈ Finset.range 6, strain7 X lx (k + 1) * D.e (k + 1) (6 + 1) * strain7 Y ly (6 + 1) = eng3 X (k + 1) * e0 (k + 1) 7 * ly + 2 / 3 * ((s (k + 1) - pb * one6 (k + 1)) * eng3 X (k + 1) * ly) := by
    intro k hk
    have := Finset.mem_range.mp hk
    rw [(g3 (k + 1) (by omega) (by omega)).1]
    simp only [strain7, show ¬ k + 1 = 7 by omega, if_false, if_true]
    ring
  have e3 : ∀ k ∈ Finset.range 6, strain7 X lx (6 + 1) * D.e (6 + 1) (k + 1) * strain7 Y ly (k + 1) = lx * e0 7 (k + 1) * eng3 Y (k + 1) + 2 / 3 * (lx * ((s (k + 1) - pb * one6 (k + 1)) * eng3 Y (k + 1))) := by
    intro k hk
    have := Finset.mem_range.mp hk
    rw [(g3 (k + 1) (by omega) (by omega)).2]
    simp only [strain7, show ¬ k + 1 = 7 by omega, if_false, if_true]
    ring
  have e4 : strain7 X lx (6 + 1) * D.e (6 + 1) (6 + 1) * strain7 Y ly (6 + 1) = lx * e0 7 7 * ly - pb / 3 * lx * ly := by
    rw [g4]
    simp only [strain7, if_true]
    ring
  rw [Finset.sum_add_distrib, Finset.sum_congr rfl fun k hk => Finset.sum_congr rfl fun l hl => e1 k hk l hl, Finset.sum_congr rfl e2, Finset.sum_congr rfl e3, e4]
  have hC : (∑ k ∈ Finset.range 6, ∑ l ∈ Finset.range 6, eng3 X (k + 1) * e0 (k + 1) (l + 1) * eng3 Y (l + 1)) + (∑ k ∈ Finset.range 6, eng3 X (k + 1) * e0 (k + 1) 7 * ly)
      + (∑ k ∈ Finset.range 6, lx * e0 7 (k + 1) * eng3 Y (k + 1)) + lx * e0 7 7 * ly
      = ∑ k ∈ Finset.range 6, ∑ l ∈ Finset.range 6, eng3 (barVel X lx) (k + 1) * C (k + 1) (l + 1) * eng3 (barVel Y ly) (l + 1) := by
    have a2 : ∀ k ∈ Finset.range 6, eng3 X (k + 1) * e0 (k + 1) 7 * ly = _ := fun k hk => by rw [q2 (k + 1) (by omega) (by have := Finset.mem_range.mp hk; omega)]
    have a3 : ∀ k ∈ Finset.range 6, lx * e0 7 (k + 1) * eng3 Y (k + 1) = _ := fun k hk => by rw [q3 (k + 1) (by omega) (by have := Finset.mem_range.mp hk; omega)]
    have a1 : ∀ k ∈ Finset.range 6, ∀ l ∈ Finset.range 6, eng3 X (k + 1) * e0 (k + 1) (l + 1) * eng3 Y (l + 1) = _ := fun k hk l hl => by rw [hs' k l (Finset.mem_range.mp hk) (Finset.mem_range.mp hl)]
    rw [Finset.sum_congr rfl a2, Finset.sum_congr rfl a3, Finset.sum_congr rfl fun k hk => Finset.sum_congr rfl fun l hl => a1 k hk l hl, q4]
    have hb : ∀ Z lz k, k < 6 → eng3 (barVel Z lz) (k + 1) = eng3 Z (k + 1) + one6 (k + 1) * ((lz - tr 3 Z) / 3) := by
      intro Z lz k hk
      interval_cases k <;> simp [eng3, barVel, one6]
    have b1 : ∀ k ∈ Finset.range 6, ∀ l ∈ Finset.range 6, eng3 (barVel X lx) (k + 1) * C (k + 1) (l + 1) * eng3 (barVel Y ly) (l + 1) = _ := fun k hk l hl => by rw [hb X lx k (Finset.mem_range.mp hk), hb Y ly l (Finset.mem_range.mp hl)]
    rw [Finset.sum_congr rfl fun k hk => Finset.sum_congr rfl fun l hl => b1 k hk l hl]
    have tX : tr 3 X = eng3 X 1 + eng3 X 2 + eng3 X 3 := by simp [tr, eng3, Finset.sum_range_succ]
    have tY : tr 3 Y = eng3 Y 1 + eng3 Y 2 + eng3 Y 3 := by simp [tr, eng3, Finset.sum_range_succ]
    rw [tX, tY]
    generalize eng3 X = x
    generalize eng3 Y = y
    simp only [Finset.sum_range_succ, Finset.sum_range_zero, one6, zero_add, Nat.reduceAdd, Nat.reduceLeDiff, if_true, if_false]
    ring
  have o : ∀ Z : Nat → Nat → ℝ, ∑ k ∈ Finset.range 6, one6 (k + 1) * eng3 Z (k + 1) = tr 3 Z := by
    intro Z
    simp [Finset.sum_range_succ, one6, eng3, tr]
  simp only [Finset.sum_add_distrib, Finset.sum_sub_distrib, ← Finset.mul_sum, ← Finset.sum_mul] at hC ⊢
  simp only [o]
  rw [← hC]
  ring

theorem tangent_point (C : Nat → Nat → ℝ) (s : Nat → ℝ) (pb pm : ℝ) (hb : pb = (s 1 + s 2 + s 3) / 3) : ∃ D, addVolumetricTerms C s pb pm = .ok D ∧ ∀ X Y lx ly,
    (∑ i ∈ Finset.range 3, ∑ j ∈ Finset.range 3, X (i + 1) (j + 1) * ((ly - tr 3 Y) * (symT 3 false s (i + 1) (j + 1) - if i = j then pb else 0)
        + (stressRate pos3 3 C (symT 3 false s) (barVel Y ly) (i + 1) (j + 1) - if i = j then tr 3 (stressRate pos3 3 C (symT 3 false s) (barVel Y ly)) / 3 else 0)
        + (symT 3 false s (i + 1) (j + 1) + if i = j then pm - pb else 0) * tr 3 Y
        - ∑ m ∈ Finset.range 3, (symT 3 false s (i + 1) (m + 1) + if i = m then pm - pb else 0) * Y (j + 1) (m + 1)))
      + lx * (tr 3 (stressRate pos3 3 C (symT 3 false s) (barVel Y ly)) / 3)
    = (∑ i ∈ Finset.range 3, ∑ j ∈ Finset.range 3, (symT 3 false s (i + 1) (j + 1) + if i = j then pm - pb else 0) * ∑ k ∈ Finset.range 3, X (k + 1) (i + 1) * Y (k + 1) (j + 1))
      + ∑ k ∈ Finset.range 7, ∑ l ∈ Finset.range 7, strain7 X lx (k + 1) * D.e (k + 1) (l + 1) * strain7 Y ly (l + 1) := by
  obtain ⟨D, h1, h2⟩ := volTerms C s pb pm
  refine ⟨D, h1, fun X Y lx ly => ?_⟩
  rw [h2]
  have hC : ∀ Z W : Nat → Nat → ℝ, ∑ k ∈ Finset.range 6, ∑ l ∈ Finset.range 6, eng3 Z (k + 1) * C (k + 1) (l + 1) * eng3 W (l + 1)
      = ∑ i ∈ Finset.range 3, ∑ j ∈ Finset.range 3, Z (i + 1) (j + 1) * ∑ k ∈ Finset.range 3, ∑ l ∈ Finset.range 3, C (pos3 (i + 1) (j + 1)) (pos3 (k + 1) (l + 1)) * W (k + 1) (l + 1) := by
    intro Z W
    simp [Finset.sum_range_succ, pos3, eng3]
    ring
  rw [hC]
  have hR : ∀ i j, stressRate pos3 3 C (symT 3 false s) (barVel Y ly) i j = (∑ k ∈ Finset.range 3, ∑ l ∈ Finset.range 3, C (pos3 i j) (pos3 (k + 1) (l + 1)) * barVel Y ly (k + 1) (l + 1))
      + ((∑ m ∈ Finset.range 3, barVel Y ly i (m + 1) * symT 3 false s (m + 1) j) + (∑ m ∈ Finset.range 3, symT 3 false s i (m + 1) * barVel Y ly j (m + 1)) - symT 3 false s i j * tr 3 (barVel Y ly)) := by
    intro i j
    unfold stressRate
    ring
  have ht : tr 3 (stressRate pos3 3 C (symT 3 false s) (barVel Y ly)) = stressRate pos3 3 C (symT 3 false s) (barVel Y ly) 1 1 + stressRate pos3 3 C (symT 3 false s) (barVel Y ly) 2 2 + stressRate pos3 3 C (symT 3 false s) (barVel Y ly) 3 3 := by
    simp [tr, Finset.sum_range_succ]
  rw [ht]
  simp only [hR]
  generalize hG : (fun i j => ∑ k ∈ Finset.range 3, ∑ l ∈ Finset.range 3, C (pos3 i j) (pos3 (k + 1) (l + 1)) * barVel Y ly (k + 1) (l + 1)) = G
  have hG' : ∀ i j, ∑ k ∈ Finset.range 3, ∑ l ∈ Finset.range 3, C (pos3 i j) (pos3 (k + 1) (l + 1)) * barVel Y ly (k + 1) (l + 1) = G i j := fun i j => congrFun (congrFun hG i) j
  simp only [hG']
  simp [Finset.sum_range_succ, barVel, tr, symT, eng3, one6, sym6]
  rw [hb]
  ring

/-! ### Accumulation of the material stiffness -/

/-- The gradient tensor of nodal values `x`, for gradients `g` and, in axisymmetry, values `r` for the hoop component. -/
noncomputable def tens (nsd : Nat) (axi : Bool) (n : Nat) (g : Nat → Nat → ℝ) (r : Nat → ℝ) (x : Nat → Nat → ℝ) (i j : Nat) : ℝ :=
  if (1 ≤ i ∧ i ≤ nsd) ∧ 1 ≤ j ∧ j ≤ nsd then grad n x g i j else if axi = true ∧ i = 3 ∧ j = 3 then val n x r 1 else 0

/-- Contribution of a node to the strains. -/
noncomputable def node7 (nsd : Nat) (axi : Bool) (g gb : Nat → Nat → ℝ) (r : Nat → ℝ) (x : Nat → Nat → ℝ) (a k : Nat) : ℝ :=
  strain7 (fun i j => if (1 ≤ i ∧ i ≤ nsd) ∧ 1 ≤ j ∧ j ≤ nsd then x (a + 1) i * g (a + 1) j else if axi = true ∧ i = 3 ∧ j = 3 then x (a + 1) 1 * r (a + 1) else 0)
    (∑ i ∈ Finset.range nsd, gb (a + 1) (i + 1) * x (a + 1) (i + 1)) k

theorem strain7_node (nsd : Nat) (axi : Bool) (n : Nat) (g gb : Nat → Nat → ℝ) (r : Nat → ℝ) (x : Nat → Nat → ℝ) (k : Nat) :
    strain7 (tens nsd axi n g r x) (divg n nsd gb x) k = ∑ a ∈ Finset.range n, node7 nsd axi g gb r x a k := by
  unfold node7 strain7
  by_cases h : k = 7
  · simp only [h, if_true]; rfl
  · simp only [h, if_false]
    have ht : ∀ i j, tens nsd axi n g r x i j = ∑ a ∈ Finset.range n, (if (1 ≤ i ∧ i ≤ nsd) ∧ 1 ≤ j ∧ j ≤ nsd then x (a + 1) i * g (a + 1) j else if axi = true ∧ i = 3 ∧ j = 3 then x (a + 1) 1 * r (a + 1) else 0) := by
      intro i j
      unfold tens grad val
      split_ifs <;> simp
    by_cases hk : 1 ≤ k ∧ k ≤ 6
    · obtain ⟨k1, k2⟩ := hk
      interval_cases k <;> simp only [eng3, ht, Finset.sum_add_distrib]
    · have : eng3 (tens nsd axi n g r x) k = 0 ∧ ∀ T : Nat → Nat → ℝ, eng3 T k = 0 := by
        have : k = 0 ∨ ∃ m, k = m + 7 := by
          by_cases h0 : k = 0
          · exact .inl h0
          · exact .inr ⟨k - 7, by omega⟩
        rcases this with rfl | ⟨m, rfl⟩
        · exact ⟨rfl, fun _ => rfl⟩
        · exact ⟨by simp [eng3], fun _ => by simp [eng3]⟩
      simp only [this.1, this.2, Finset.sum_const_zero]

theorem form7 (nsd : Nat) (axi : Bool) (n : Nat) (g gb D : Nat → Nat → ℝ) (r : Nat → ℝ) (x y : Nat → Nat → ℝ) :
    ∑ k ∈ Finset.range 7, ∑ l ∈ Finset.range 7, strain7 (tens nsd axi n g r x) (divg n nsd gb x) (k + 1) * D (k + 1) (l + 1) * strain7 (tens nsd axi n g r y) (divg n nsd gb y) (l + 1)
      = ∑ a ∈ Finset.range n, ∑ b ∈ Finset.range n, ∑ k ∈ Finset.range 7, ∑ l ∈ Finset.range 7, node7 nsd axi g gb r x a (k + 1) * D (k + 1) (l + 1) * node7 nsd axi g gb r y b (l + 1) := by
  simp only [strain7_node, Finset.sum_mul, Finset.mul_sum]
  have s1 : ∀ k, ∑ l ∈ Finset.range 7, ∑ b ∈ Finset.range n, ∑ a ∈ Finset.range n, node7 nsd axi g gb r x a (k + 1) * D (k + 1) (l + 1) * node7 nsd axi g gb r y b (l + 1)
      = ∑ a ∈ Finset.range n, ∑ b ∈ Finset.range n, ∑ l ∈ Finset.range 7, node7 nsd axi g gb r x a (k + 1) * D (k + 1) (l + 1) * node7 nsd axi g gb r y b (l + 1) := by
    intro k
    rw [Finset.sum_comm]
    conv_rhs => rw [Finset.sum_comm]
    exact Finset.sum_congr rfl fun b _ => Finset.sum_comm
  simp only [s1]
  rw [Finset.sum_comm]
  exact Finset.sum_congr rfl fun a _ => Finset.sum_comm

theorem acc2 (axi : Bool) (n : Nat) (r : Nat → ℝ) (f fb D : Nat → Nat → ℝ) (EK : DMat ℝ) (h1 : EK.nr = 2 * n) (h2 : EK.nc = 2 * n) :
    ∃ E, accKMx2D axi n r f fb D EK = .ok E ∧ E.nr = 2 * n ∧ E.nc = 2 * n ∧ ∀ x y, E.bil (dofVec 2 x) (dofVec 2 y) = EK.bil (dofVec 2 x) (dofVec 2 y)
      + ∑ k ∈ Finset.range 7, ∑ l ∈ Finset.range 7, strain7 (tens 2 axi n f r x) (divg n 2 fb x) (k + 1) * D (k + 1) (l + 1) * strain7 (tens 2 axi n f r y) (divg n 2 fb y) (l + 1) := by
  unfold accKMx2D
  obtain ⟨B, hB, b1, b2, -, b3⟩ := DMat.addMany_ok (A := EK) (l := (List.range n).flatMap fun a => (List.range n).flatMap fun b =>
    [(2 * a + 1, 2 * b + 1, bbc2 axi r f fb D (a + 1) 1 1 * f (b + 1) 1 + bbc2 axi r f fb D (a + 1) 1 4 * f (b + 1) 2 + bbc2 axi r f fb D (a + 1) 1 7 * fb (b + 1) 1),
     (2 * a + 1, 2 * b + 2, bbc2 axi r f fb D (a + 1) 1 4 * f (b + 1) 1 + bbc2 axi r f fb D (a + 1) 1 2 * f (b + 1) 2 + bbc2 axi r f fb D (a + 1) 1 7 * fb (b + 1) 2),
     (2 * a + 2, 2 * b + 1, bbc2 axi r f fb D (a + 1) 2 1 * f (b + 1) 1 + bbc2 axi r f fb D (a + 1) 2 4 * f (b + 1) 2 + bbc2 axi r f fb D (a + 1) 2 7 * fb (b + 1) 1),
     (2 * a + 2, 2 * b + 2, bbc2 axi r f fb D (a + 1) 2 4 * f (b + 1) 1 + bbc2 axi r f fb D (a + 1) 2 2 * f (b + 1) 2 + bbc2 axi r f fb D (a + 1) 2 7 * fb (b + 1) 2)] ++
    if axi then [(2 * a + 1, 2 * b + 1, bbc2 axi r f fb D (a + 1) 1 3 * r (b + 1)), (2 * a + 2, 2 * b + 1, bbc2 axi r f fb D (a + 1) 2 3 * r (b + 1))] else []) (by
      intro t ht
      simp only [List.mem_flatMap, List.mem_range] at ht
      obtain ⟨a, ha, b, hb, ht⟩ := ht
      have : (t.1 = 2 * a + 1 ∨ t.1 = 2 * a + 2) ∧ (t.2.1 = 2 * b + 1 ∨ t.2.1 = 2 * b + 2) := by
        cases axi <;> simp at ht
        · rcases ht with rfl | rfl | rfl | rfl <;> simp
        · rcases ht with rfl | rfl | rfl | rfl | rfl | rfl <;> simp
      unfold DMat.Inside
      rw [h1, h2]
      omega)
  refine ⟨B, hB, b1.trans h1, b2.trans h2, fun x y => ?_⟩
  rw [b3, form7, sum_flatMap, sum_list_range]
  congr 1
  refine Finset.sum_congr rfl fun a _ => ?_
  rw [sum_flatMap, sum_list_range]
  refine Finset.sum_congr rfl fun b _ => ?_
  have ex : ∀ (z : Nat → Nat → ℝ) c, dofVec 2 z (2 * c + 1) = z (c + 1) 1 ∧ dofVec 2 z (2 * c + 2) = z (c + 1) 2 := fun z c => ⟨dofVec_eq 2 z c 0 (by omega), dofVec_eq 2 z c 1 (by omega)⟩
  cases axi
  · simp [ex, bbc2, node7, strain7, eng3, Finset.sum_range_succ]
    ring
  · simp [ex, bbc2, node7, strain7, eng3, Finset.sum_range_succ]
    ring

theorem acc3 (n : Nat) (r : Nat → ℝ) (f fb D : Nat → Nat → ℝ) (EK : DMat ℝ) (h1 : EK.nr = 3 * n) (h2 : EK.nc = 3 * n) :
    ∃ E, accKMx3D n f fb D EK = .ok E ∧ E.nr = 3 * n ∧ E.nc = 3 * n ∧ ∀ x y, E.bil (dofVec 3 x) (dofVec 3 y) = EK.bil (dofVec 3 x) (dofVec 3 y)
      + ∑ k ∈ Finset.range 7, ∑ l ∈ Finset.range 7, strain7 (tens 3 false n f r x) (divg n 3 fb x) (k + 1) * D (k + 1) (l + 1) * strain7 (tens 3 false n f r y) (divg n 3 fb y) (l + 1) := by
  unfold accKMx3D
  have hin : ∀ t ∈ ((List.range n).flatMap fun a => (List.range n).flatMap fun b =>
    let B := bbc3 f fb D (a + 1)
    [(3 * a + 1, 3 * b + 1, B 1 1 * f (b + 1) 1 + B 1 4 * f (b + 1) 2 + B 1 6 * f (b + 1) 3 + B 1 7 * fb (b + 1) 1),
     (3 * a + 1, 3 * b + 2, B 1 4 * f (b + 1) 1 + B 1 2 * f (b + 1) 2 + B 1 5 * f (b + 1) 3 + B 1 7 * fb (b + 1) 2),
     (3 * a + 1, 3 * b + 3, B 1 6 * f (b + 1) 1 + B 1 5 * f (b + 1) 2 + B 1 3 * f (b + 1) 3 + B 1 7 * fb (b + 1) 3),
     (3 * a + 2, 3 * b + 1, B 2 1 * f (b + 1) 1 + B 2 4 * f (b + 1) 2 + B 2 6 * f (b + 1) 3 + B 2 7 * fb (b + 1) 1),
     (3 * a + 2, 3 * b + 2, B 2 4 * f (b + 1) 1 + B 2 2 * f (b + 1) 2 + B 2 5 * f (b + 1) 3 + B 2 7 * fb (b + 1) 2),
     (3 * a + 2, 3 * b + 3, B 2 6 * f (b + 1) 1 + B 2 5 * f (b + 1) 2 + B 2 3 * f (b + 1) 3 + B 2 7 * fb (b + 1) 3),
     (3 * a + 3, 3 * b + 1, B 3 1 * f (b + 1) 1 + B 3 4 * f (b + 1) 2 + B 3 6 * f (b + 1) 3 + B 3 7 * fb (b + 1) 1),
     (3 * a + 3, 3 * b + 2, B 3 4 * f (b + 1) 1 + B 3 2 * f (b + 1) 2 + B 3 5 * f (b + 1) 3 + B 3 7 * fb (b + 1) 2),
     (3 * a + 3, 3 * b + 3, B 3 6 * f (b + 1) 1 + B 3 5 * f (b + 1) 2 + B 3 3 * f (b + 1) 3 + B 3 7 * fb (b + 1) 3)]), EK.Inside t.1 t.2.1 := by
      intro t ht
      simp only [List.mem_flatMap, List.mem_range] at ht
      obtain ⟨a, ha, b, hb, ht⟩ := ht
      have : (t.1 = 3 * a + 1 ∨ t.1 = 3 * a + 2 ∨ t.1 = 3 * a + 3) ∧ (t.2.1 = 3 * b + 1 ∨ t.2.1 = 3 * b + 2 ∨ t.2.1 = 3 * b + 3) := by
        simp at ht
        rcases ht with rfl | rfl | rfl | rfl | rfl | rfl | rfl | rfl | rfl <;> simp
      unfold DMat.Inside
      rw [h1, h2]
      omega
  obtain ⟨B, hB, b1, b2, -, b3⟩ := DMat.addMany_ok (A := EK) hin
  refine ⟨B, hB, b1.trans h1, b2.trans h2, fun x y => ?_⟩
  rw [b3, form7, sum_flatMap, sum_list_range]
  congr 1
  refine Finset.sum_congr rfl fun a _ => ?_
  rw [sum_flatMap, sum_list_range]
  refine Finset.sum_congr rfl fun b _ => ?_
  have ex : ∀ (z : Nat → Nat → ℝ) c, dofVec 3 z (3 * c + 1) = z (c + 1) 1 ∧ dofVec 3 z (3 * c + 2) = z (c + 1) 2 ∧ dofVec 3 z (3 * c + 3) = z (c + 1) 3 :=
    fun z c => ⟨dofVec_eq 3 z c 0 (by omega), dofVec_eq 3 z c 1 (by omega), dofVec_eq 3 z c 2 (by omega)⟩
  simp [ex, bbc3, node7, strain7, eng3, Finset.sum_range_succ]
  ring

/-! ### Kinematics -/

/-- The weight of an integration point, in axisymmetry of the whole circle. -/
noncomputable def mwt {nPM : Nat} (axi : Bool) (p : MPt nPM) : ℝ := if axi then 2 * Real.pi * p.pt.X * p.pt.w else p.pt.w

/-- The gradient of nodal values in the initial configuration. -/
noncomputable def mRef {nPM : Nat} (nsd : Nat) (axi : Bool) (n : Nat) (p : MPt nPM) (x : Nat → Nat → ℝ) : Nat → Nat → ℝ := tens nsd axi n p.pt.dN.e (fun a => p.pt.N.e a / p.pt.X) x

/-- The deformation gradient. -/
noncomputable def mxF {nPM : Nat} (nsd : Nat) (axi : Bool) (n : Nat) (p : MPt nPM) (u : Nat → Nat → ℝ) (i j : Nat) : ℝ := (if i = j then 1 else 0) + mRef nsd axi n p u i j

/-- The volume ratio. -/
noncomputable def mxJ {nPM : Nat} (nsd : Nat) (axi : Bool) (n : Nat) (p : MPt nPM) (u : Nat → Nat → ℝ) : ℝ := (lead 3 (mxF nsd axi n p u)).det

noncomputable def mDN {nPM : Nat} (nsd : Nat) (axi : Bool) (n : Nat) (p : MPt nPM) (u : Nat → Nat → ℝ) : DMat ℝ := pushGrad nsd (mxF nsd axi n p u) p.pt.dN

noncomputable def mNr {nPM : Nat} (axi : Bool) (n : Nat) (p : MPt nPM) (u : Nat → Nat → ℝ) : DVec ℝ := if axi then scaleN p.pt.N (1 / (p.pt.X + val n u p.pt.N.e 1)) else DVec.zero 0

/-- The gradient of nodal values in the deformed configuration. -/
noncomputable def mL {nPM : Nat} (nsd : Nat) (axi : Bool) (n : Nat) (p : MPt nPM) (u x : Nat → Nat → ℝ) : Nat → Nat → ℝ := tens nsd axi n (mDN nsd axi n p u).e (mNr axi n p u).e x

noncomputable def mDat {nPM : Nat} (nsd : Nat) (axi : Bool) (n : Nat) (u : Nat → Nat → ℝ) (p : MPt nPM) : MxData nPM :=
  ⟨mxF nsd axi n p u, mDN nsd axi n p u, mNr axi n p u, ⟨mwt axi p, mxJ nsd axi n p u, p.phi, (mDN nsd axi n p u).e, (mNr axi n p u).e⟩⟩

/-- Plane, axisymmetric or solid. -/
def MDim (nsd : Nat) (axi : Bool) : Prop := nsd = 2 ∨ nsd = 3 ∧ axi = false

/-- An integration point of an element with `n` nodes, in axisymmetry off the axis. -/
def MPtOk {nPM : Nat} (nsd : Nat) (axi : Bool) (n : Nat) (epsR : ℝ) (p : MPt nPM) : Prop :=
  p.pt.dN.nr = n ∧ p.pt.dN.nc = nsd ∧ (axi = true → p.pt.N.n = n ∧ epsR < p.pt.X ∧ 0 < p.pt.X)

variable {nPM : Nat}

theorem mxGrad_ok (nsd : Nat) (axi : Bool) (hd : MDim nsd axi) (n : Nat) (hn : 0 < n) (epsR : ℝ) (p : MPt nPM) (hp : MPtOk nsd axi n epsR p) (u : Nat → Nat → ℝ) :
    mxGrad nsd axi epsR ⟨nsd * n, dofVec nsd u⟩ p.pt = .ok (mxF nsd axi n p u) := by
  obtain ⟨h1, h2, h3⟩ := hp
  have hne : ¬ nsd * n = 0 := by rcases hd with h | ⟨h, -⟩ <;> rw [h] <;> omega
  unfold mxGrad
  refine (if_neg hne).trans ((if_neg (by simp [h1, h2])).trans ?_)
  simp only [Res.ok.injEq]
  funext i j
  have hF0 : ∀ i j, 1 ≤ i → i ≤ nsd → ∑ a ∈ Finset.range n, dofVec nsd u (nsd * a + i) * p.pt.dN.e (a + 1) j = grad n u p.pt.dN.e i j := by
    intro i j a1 a2
    unfold grad
    refine Finset.sum_congr rfl fun a _ => ?_
    have := dofVec_eq nsd u a (i - 1) (by omega)
    rw [show nsd * a + (i - 1) + 1 = nsd * a + i by omega, show i - 1 + 1 = i by omega] at this
    rw [this]
  unfold mxF mRef tens
  by_cases hij : (1 ≤ i ∧ i ≤ nsd) ∧ 1 ≤ j ∧ j ≤ nsd
  · rw [if_pos hij]
    have hx : ¬ (axi = false ∧ nsd = 2 ∧ i = 3 ∧ j = 3) := by omega
    have hx' : ¬ (axi = true ∧ p.pt.X > epsR ∧ false = false ∧ i = 3 ∧ j = 3) := by
      rintro ⟨a1, -, -, a2, -⟩
      rcases hd with h | ⟨-, h⟩
      · omega
      · rw [h] at a1; exact absurd a1 (by decide)
    rw [if_neg hx]
    unfold defGrad
    dsimp only
    rw [if_neg hx', if_pos (by rw [h2]; exact ⟨hij.1.1, hij.1.2, hij.2⟩), h1, hF0 i j hij.1.1 hij.1.2]
    rfl
  · rw [if_neg hij]
    have hy : ¬ (1 ≤ i ∧ i ≤ nsd ∧ 1 ≤ j ∧ j ≤ p.pt.dN.nc) := by rw [h2]; tauto
    by_cases h33 : i = 3 ∧ j = 3
    · obtain ⟨rfl, rfl⟩ := h33
      have hn2 : nsd = 2 := by rcases hd with h | ⟨h, -⟩ <;> omega
      subst hn2
      cases axi with
      | false => simp
      | true =>
        obtain ⟨a1, a2, a3⟩ := h3 rfl
        rw [if_neg (show ¬ (true = false ∧ 2 = 2 ∧ 3 = 3 ∧ 3 = 3) from fun h => absurd h.1 (by decide)), if_pos (show true = true ∧ 3 = 3 ∧ 3 = 3 from ⟨rfl, rfl, rfl⟩)]
        unfold defGrad
        dsimp only
        rw [if_pos ⟨rfl, a2, rfl, rfl, rfl⟩, if_neg hy, a1]
        refine congrArg₂ (· + ·) rfl ?_
        unfold val
        rw [Finset.sum_div]
        refine Finset.sum_congr rfl fun a _ => ?_
        rw [dofVec_eq 2 u a 0 (by omega)]
        ring
    · have hx : ¬ (axi = false ∧ nsd = 2 ∧ i = 3 ∧ j = 3) := fun h => h33 h.2.2
      have hx' : ¬ (axi = true ∧ p.pt.X > epsR ∧ false = false ∧ i = 3 ∧ j = 3) := fun h => h33 h.2.2.2
      rw [if_neg hx, if_neg (show ¬ (axi = true ∧ i = 3 ∧ j = 3) from fun h => h33 h.2)]
      unfold defGrad
      dsimp only
      rw [if_neg hx', if_neg hy, add_zero]
      rfl

theorem tens_out (axi : Bool) (n : Nat) (g : Nat → Nat → ℝ) (r : Nat → ℝ) (x : Nat → Nat → ℝ) :
    tens 2 axi n g r x 1 3 = 0 ∧ tens 2 axi n g r x 2 3 = 0 ∧ tens 2 axi n g r x 3 1 = 0 ∧ tens 2 axi n g r x 3 2 = 0 ∧ tens 2 axi n g r x 3 3 = if axi then val n x r 1 else 0 := by
  refine ⟨?_, ?_, ?_, ?_, ?_⟩ <;> unfold tens <;> simp

theorem det_split (axi : Bool) (n : Nat) (p : MPt nPM) (u : Nat → Nat → ℝ) : mxJ 2 axi n p u = (lead 2 (mxF 2 axi n p u)).det * mxF 2 axi n p u 3 3 := by
  obtain ⟨a1, a2, a3, a4, -⟩ := tens_out axi n p.pt.dN.e (fun a => p.pt.N.e a / p.pt.X) u
  unfold mxJ
  have b1 : mxF 2 axi n p u 1 3 = 0 := by simp [mxF, mRef, a1]
  have b2 : mxF 2 axi n p u 2 3 = 0 := by simp [mxF, mRef, a2]
  have b3 : mxF 2 axi n p u 3 1 = 0 := by simp [mxF, mRef, a3]
  have b4 : mxF 2 axi n p u 3 2 = 0 := by simp [mxF, mRef, a4]
  rw [Matrix.det_fin_three, Matrix.det_fin_two]
  simp [lead, b1, b2, b3, b4]
  ring

theorem det_lead (nsd : Nat) (axi : Bool) (hd : MDim nsd axi) (n : Nat) (p : MPt nPM) (u : Nat → Nat → ℝ) :
    (if axi then (lead nsd (mxF nsd axi n p u)).det * mxF nsd axi n p u 3 3 else (lead nsd (mxF nsd axi n p u)).det) = mxJ nsd axi n p u := by
  rcases hd with h | ⟨h, h'⟩
  · subst h
    rw [det_split]
    cases axi with
    | true => simp
    | false =>
      have : mxF 2 false n p u 3 3 = 1 := by simp [mxF, mRef, (tens_out false n p.pt.dN.e (fun a => p.pt.N.e a / p.pt.X) u).2.2.2.2]
      rw [this, mul_one]
      simp
  · subst h h'
    simp [mxJ]

theorem val_div (n : Nat) (x : Nat → Nat → ℝ) (N : Nat → ℝ) (c : ℝ) (i : Nat) : val n x (fun a => N a / c) i = val n x N i / c := by
  unfold val
  rw [Finset.sum_div]
  exact Finset.sum_congr rfl fun a _ => by ring

theorem mxEval_ok (nsd : Nat) (axi : Bool) (hd : MDim nsd axi) (n : Nat) (hn : 0 < n) (epsR : ℝ) (p : MPt nPM) (hp : MPtOk nsd axi n epsR p) (u : Nat → Nat → ℝ) (eP : DVec ℝ)
    (he : eP.n = 0 ∨ eP.n = nsd * n) (hJ : mxJ nsd axi n p u ≠ 0) : mxEval nsd axi epsR ⟨nsd * n, dofVec nsd u⟩ eP p = .ok (mDat nsd axi n u p) := by
  obtain ⟨h1, h2, h3⟩ := id hp
  have hP : ∃ F, mxGrad nsd axi epsR eP p.pt = .ok F := by
    unfold mxGrad
    rcases he with h | h
    · exact ⟨_, if_pos h⟩
    · by_cases h0 : eP.n = 0
      · exact ⟨_, if_pos h0⟩
      · rw [if_neg h0]
        exact ⟨_, if_neg (by simp [h, h1, h2])⟩
  obtain ⟨F0, hF0⟩ := hP
  unfold mxEval
  rw [hF0, mxGrad_ok nsd axi hd n hn epsR p hp u]
  simp only [Res.bind, det_lead nsd axi hd n p u, if_neg hJ]
  rw [if_pos (by rcases hd with h | ⟨h, -⟩ <;> omega)]
  unfold mDat mNr mwt mDN mxJ
  have hr : axi = true → radial nsd ⟨nsd * n, dofVec nsd u⟩ p.pt.N = val n u p.pt.N.e 1 := by
    intro ha
    have : nsd = 2 := by
      rcases hd with h | ⟨-, h⟩
      · exact h
      · rw [h] at ha; exact absurd ha (by decide)
    subst this
    rw [radial_dof, (h3 ha).1]
    rfl
  cases axi with
  | false => rfl
  | true => simp only [if_true, hr rfl]

/-- The chain rule. -/
theorem chain (nsd : Nat) (axi : Bool) (hd : MDim nsd axi) (n : Nat) (epsR : ℝ) (p : MPt nPM) (hp : MPtOk nsd axi n epsR p) (u x : Nat → Nat → ℝ) (hJ : mxJ nsd axi n p u ≠ 0) (i j : Nat) (hi : i < 3) (hj : j < 3) :
    ∑ k ∈ Finset.range 3, mL nsd axi n p u x (i + 1) (k + 1) * mxF nsd axi n p u (k + 1) (j + 1) = mRef nsd axi n p x (i + 1) (j + 1) := by
  obtain ⟨h1, h2, h3⟩ := id hp
  rcases hd with h | ⟨h, h'⟩
  · subst h
    rw [det_split] at hJ
    have hJ2 := left_ne_zero_of_mul hJ
    have hF3 := right_ne_zero_of_mul hJ
    obtain ⟨a1, a2, a3, a4, a5⟩ := tens_out axi n p.pt.dN.e (fun a => p.pt.N.e a / p.pt.X) u
    have b1 : mxF 2 axi n p u 1 3 = 0 := by simp [mxF, mRef, a1]
    have b2 : mxF 2 axi n p u 2 3 = 0 := by simp [mxF, mRef, a2]
    have b3 : mxF 2 axi n p u 3 1 = 0 := by simp [mxF, mRef, a3]
    have b4 : mxF 2 axi n p u 3 2 = 0 := by simp [mxF, mRef, a4]
    obtain ⟨c1, c2, c3, c4, c5⟩ := tens_out axi n (mDN 2 axi n p u).e (mNr axi n p u).e x
    obtain ⟨d1, d2, d3, d4, d5⟩ := tens_out axi n p.pt.dN.e (fun a => p.pt.N.e a / p.pt.X) x
    have hm := fun i r (hr : r < 2) => pushGrad_mul 2 (mxF 2 axi n p u) hJ2 n p.pt.dN x i r hr
    have hin : ∀ (g : Nat → Nat → ℝ) (r : Nat → ℝ) i j, i < 2 → j < 2 → tens 2 axi n g r x (i + 1) (j + 1) = grad n x g (i + 1) (j + 1) := by
      intro g r i j a b
      unfold tens
      rw [if_pos (by omega)]
    unfold mL mRef
    have h33 : tens 2 axi n (mDN 2 axi n p u).e (mNr axi n p u).e x 3 3 * mxF 2 axi n p u 3 3 = tens 2 axi n p.pt.dN.e (fun a => p.pt.N.e a / p.pt.X) x 3 3 := by
      rw [c5, d5]
      cases axi with
      | false => simp
      | true =>
        obtain ⟨e1, e2, e3⟩ := h3 rfl
        have hF : mxF 2 true n p u 3 3 = 1 + val n u p.pt.N.e 1 / p.pt.X := by
          simp only [mxF, mRef, a5, if_true, val_div]
        rw [hF] at hF3 ⊢
        have hX : p.pt.X ≠ 0 := e3.ne'
        have hXu : p.pt.X + val n u p.pt.N.e 1 ≠ 0 := by
          intro h0
          apply hF3
          field_simp
          rw [h0, mul_zero]
        simp only [if_true, mNr, scaleN]
        have : val n x (fun a => p.pt.N.e a * (1 / (p.pt.X + val n u p.pt.N.e 1))) 1 = val n x p.pt.N.e 1 / (p.pt.X + val n u p.pt.N.e 1) := by
          rw [← val_div]; congr 1; funext a; ring
        rw [this, val_div]
        field_simp
    rw [Finset.sum_range_succ]
    by_cases hi2 : i < 2
    · have e3 : tens 2 axi n (mDN 2 axi n p u).e (mNr axi n p u).e x (i + 1) (2 + 1) = 0 := by
        interval_cases i
        · exact c1
        · exact c2
      rw [e3, zero_mul, add_zero]
      by_cases hj2 : j < 2
      · rw [hin _ _ i j hi2 hj2, ← hm (i + 1) j hj2]
        exact Finset.sum_congr rfl fun k hk => by rw [hin _ _ i k hi2 (Finset.mem_range.mp hk)]; rfl
      · have : j = 2 := by omega
        subst this
        simp only [Finset.sum_range_succ, Finset.sum_range_zero, zero_add, Nat.reduceAdd, b1, b2, mul_zero]
        interval_cases i
        · exact d1.symm
        · exact d2.symm
    · have : i = 2 := by omega
      subst this
      simp only [Finset.sum_range_succ, Finset.sum_range_zero, zero_add, Nat.reduceAdd, c3, c4, zero_mul]
      interval_cases j
      · simp only [zero_add, b3, d3, mul_zero]
      · simp only [Nat.reduceAdd, b4, d4, mul_zero]
      · exact h33
  · subst h h'
    have hin : ∀ (g : Nat → Nat → ℝ) (r : Nat → ℝ) i j, i < 3 → j < 3 → tens 3 false n g r x (i + 1) (j + 1) = grad n x g (i + 1) (j + 1) := by
      intro g r i j a b
      unfold tens
      rw [if_pos (by omega)]
    unfold mL mRef
    rw [hin _ _ i j hi hj, ← pushGrad_mul 3 (mxF 3 false n p u) hJ n p.pt.dN x (i + 1) j hj]
    exact Finset.sum_congr rfl fun k hk => by rw [hin _ _ i k hi (Finset.mem_range.mp hk)]; rfl

/-- Gradients from cofactors. -/
theorem cofac (L F G : Nat → Nat → ℝ) (h : ∀ i j, i < 3 → j < 3 → ∑ k ∈ Finset.range 3, L (i + 1) (k + 1) * F (k + 1) (j + 1) = G (i + 1) (j + 1)) (i : Nat) (hi : i < 3) (j : Fin 3) :
    (lead 3 F).det * L (i + 1) (j + 1) = ∑ k : Fin 3, G (i + 1) (k + 1) * (lead 3 F).adjugate k j := by
  have e : (lead 3 L) * (lead 3 F) = lead 3 G := by
    ext a b
    rw [Matrix.mul_apply]
    show ∑ k : Fin 3, L (a + 1) (k + 1) * F (k + 1) (b + 1) = G (a + 1) (b + 1)
    rw [Fin.sum_univ_eq_sum_range (fun k => L (a + 1) (k + 1) * F (k + 1) (b + 1)) 3, h a b a.2 b.2]
  have e2 : lead 3 G * (lead 3 F).adjugate = (lead 3 F).det • lead 3 L := by
    rw [← e, Matrix.mul_assoc, Matrix.mul_adjugate, Matrix.mul_smul, Matrix.mul_one]
  have := congrFun (congrFun e2 ⟨i, hi⟩) j
  rw [Matrix.mul_apply] at this
  exact this.symm

theorem tens_line (nsd : Nat) (axi : Bool) (n : Nat) (g : Nat → Nat → ℝ) (r : Nat → ℝ) (u v : Nat → Nat → ℝ) (t : ℝ) (i j : Nat) :
    tens nsd axi n g r (along u v t) i j = tens nsd axi n g r u i j + t * tens nsd axi n g r v i j := by
  unfold tens
  by_cases h : (1 ≤ i ∧ i ≤ nsd) ∧ 1 ≤ j ∧ j ≤ nsd
  · simp only [if_pos h, grad_line]
  · simp only [if_neg h]
    by_cases h' : axi = true ∧ i = 3 ∧ j = 3
    · simp only [if_pos h', val, along, add_mul, Finset.sum_add_distrib, mul_assoc, ← Finset.mul_sum]
    · simp only [if_neg h', mul_zero, add_zero]

theorem path3 (nsd : Nat) (axi : Bool) (hd : MDim nsd axi) (n : Nat) (epsR : ℝ) (p : MPt nPM) (hp : MPtOk nsd axi n epsR p) (u v : Nat → Nat → ℝ) (hJ : mxJ nsd axi n p u ≠ 0) (i j : Nat) (hi : i < 3) (hj : j < 3) :
    HasDerivAt (fun t => mxF nsd axi n p (along u v t) (i + 1) (j + 1)) (∑ k ∈ Finset.range 3, mL nsd axi n p u v (i + 1) (k + 1) * mxF nsd axi n p (along u v 0) (k + 1) (j + 1)) 0 := by
  rw [along_zero, chain nsd axi hd n epsR p hp u v hJ i j hi hj]
  have e : (fun t => mxF nsd axi n p (along u v t) (i + 1) (j + 1)) = fun t => mxF nsd axi n p u (i + 1) (j + 1) + t * mRef nsd axi n p v (i + 1) (j + 1) := by
    funext t
    unfold mxF mRef
    rw [tens_line]
    ring
  rw [e]
  exact (((hasDerivAt_id (0 : ℝ)).mul_const _).const_add _).congr_deriv (by simp)

/-! ### Projection on the pressure modes -/

/-- The matrix of the pressure modes: `Σ w φᵢ φⱼ`. -/
noncomputable def modeMat (axi : Bool) (pts : List (MPt nPM)) : Matrix (Fin nPM) (Fin nPM) ℝ := fun i j => (pts.map fun p => mwt axi p * p.phi i * p.phi j).sum

/-- The least squares fit of a quantity by the pressure modes, at an integration point. -/
noncomputable def mprj (axi : Bool) (pts : List (MPt nPM)) (f : MPt nPM → ℝ) (p : MPt nPM) : ℝ :=
  ∑ i, (∑ j, (modeMat axi pts)⁻¹ i j * (pts.map fun q => q.phi j * f q * mwt axi q).sum) * p.phi i

theorem total_map {α : Type} (pts : List α) (k : α → Pt ℝ nPM) (f : Pt ℝ nPM → ℝ) : total (pts.map k) f = (pts.map fun p => f (k p)).sum := by
  unfold total
  rw [List.map_map]
  rfl

theorem hmat_mode (axi : Bool) (pts : List (MPt nPM)) (k : MPt nPM → Pt ℝ nPM) (h1 : ∀ p, (k p).w = mwt axi p) (h2 : ∀ p, (k p).phi = p.phi) : hmat (pts.map k) = modeMat axi pts := by
  ext i j
  rw [hmat_apply, total_map]
  unfold modeMat
  simp only [h1, h2]
  congr 1
  exact List.map_congr_left fun p _ => by ring

theorem hinv_mode (axi : Bool) (pts : List (MPt nPM)) (k : MPt nPM → Pt ℝ nPM) (h1 : ∀ p, (k p).w = mwt axi p) (h2 : ∀ p, (k p).phi = p.phi) (hdet : (modeMat axi pts).det ≠ 0) :
    hinv (pts.map k) = (modeMat axi pts)⁻¹ := by
  unfold hinv
  rw [hmat_mode axi pts k h1 h2, Matrix.inv_def, Ring.inverse_eq_inv']

theorem proj_mprj (axi : Bool) (pts : List (MPt nPM)) (k : MPt nPM → Pt ℝ nPM) (h1 : ∀ p, (k p).w = mwt axi p) (h2 : ∀ p, (k p).phi = p.phi) (hdet : (modeMat axi pts).det ≠ 0) (f : Pt ℝ nPM → ℝ) (p : MPt nPM) :
    proj (pts.map k) f p.phi = mprj axi pts (fun q => f (k q)) p := by
  unfold proj mprj
  simp only [hinv_mode axi pts k h1 h2 hdet, total_map, h1, h2]

theorem mprj_adjoint (axi : Bool) (pts : List (MPt nPM)) (hdet : (modeMat axi pts).det ≠ 0) (f g : MPt nPM → ℝ) :
    (pts.map fun p => mwt axi p * (mprj axi pts f p * g p)).sum = (pts.map fun p => mwt axi p * (f p * mprj axi pts g p)).sum := by
  have k1 : ∀ p : MPt nPM, (⟨mwt axi p, f p, p.phi, fun _ _ => g p, fun _ => 0⟩ : Pt ℝ nPM).w = mwt axi p := fun _ => rfl
  have k2 : ∀ p : MPt nPM, (⟨mwt axi p, f p, p.phi, fun _ _ => g p, fun _ => 0⟩ : Pt ℝ nPM).phi = p.phi := fun _ => rfl
  have := proj_adjoint (pts.map fun p => (⟨mwt axi p, f p, p.phi, fun _ _ => g p, fun _ => 0⟩ : Pt ℝ nPM)) (by rw [hmat_mode axi pts _ k1 k2]; exact hdet) (·.J) (fun q => q.g 0 0)
  simp only [total_map, proj_mprj axi pts _ k1 k2 hdet] at this
  refine Eq.trans ?_ (this.trans ?_)
  · congr 1; exact List.map_congr_left fun p _ => by ring
  · congr 1; exact List.map_congr_left fun p _ => by ring

theorem mprj_congr (axi : Bool) (pts : List (MPt nPM)) (f g : MPt nPM → ℝ) (h : ∀ p ∈ pts, f p = g p) (p : MPt nPM) : mprj axi pts f p = mprj axi pts g p := by
  unfold mprj
  refine Finset.sum_congr rfl fun i _ => ?_
  congr 1
  refine Finset.sum_congr rfl fun j _ => ?_
  congr 2
  exact List.map_congr_left fun q hq => by rw [h q hq]

theorem list_deriv {α : Type} (pts : List α) (f : ℝ → α → ℝ) (f' : α → ℝ) (h : ∀ p ∈ pts, HasDerivAt (fun t => f t p) (f' p) 0) : HasDerivAt (fun t => (pts.map (f t)).sum) (pts.map f').sum 0 := by
  induction pts with
  | nil => simpa using hasDerivAt_const (0 : ℝ) (0 : ℝ)
  | cons p l ih =>
    simp only [List.map_cons, List.sum_cons]
    exact (h p (by simp)).add (ih fun q hq => h q (by simp [hq]))

theorem mprj_deriv (axi : Bool) (pts : List (MPt nPM)) (f : ℝ → MPt nPM → ℝ) (f' : MPt nPM → ℝ) (h : ∀ p ∈ pts, HasDerivAt (fun t => f t p) (f' p) 0) (p : MPt nPM) :
    HasDerivAt (fun t => mprj axi pts (f t) p) (mprj axi pts f' p) 0 := by
  unfold mprj
  refine HasDerivAt.fun_sum fun i _ => (HasDerivAt.fun_sum fun j _ => ?_).mul_const _
  exact (list_deriv pts (fun t q => q.phi j * f t q * mwt axi q) (fun q => q.phi j * f' q * mwt axi q) fun q hq => ((h q hq).const_mul _).mul_const _).const_mul _

/-! ### The element as a loop over the integration points -/

/-- The volume ratio of the mixed formulation. -/
noncomputable def mTh (nsd : Nat) (axi : Bool) (n : Nat) (pts : List (MPt nPM)) (u : Nat → Nat → ℝ) (p : MPt nPM) : ℝ := mprj axi pts (fun q => mxJ nsd axi n q u) p

noncomputable def mGb (nsd : Nat) (axi : Bool) (n : Nat) (pts : List (MPt nPM)) (u : Nat → Nat → ℝ) (p : MPt nPM) (a b : Nat) : ℝ :=
  mprj axi pts (fun q => divGrad axi (mDat nsd axi n u q).pt a b * mxJ nsd axi n q u) p / mTh nsd axi n pts u p

/-- The modified deformation gradient. -/
noncomputable def mFb (nsd : Nat) (axi : Bool) (n : Nat) (pts : List (MPt nPM)) (u : Nat → Nat → ℝ) (p : MPt nPM) (i j : Nat) : ℝ :=
  |mTh nsd axi n pts u p / mxJ nsd axi n p u| ^ ((1 : ℝ) / 3) * mxF nsd axi n p u i j

theorem mxAll_ok (nsd : Nat) (axi : Bool) (hd : MDim nsd axi) (n : Nat) (hn : 0 < n) (epsR : ℝ) (pts : List (MPt nPM)) (hp : ∀ p ∈ pts, MPtOk nsd axi n epsR p) (u : Nat → Nat → ℝ) (eP : DVec ℝ)
    (he : eP.n = 0 ∨ eP.n = nsd * n) (hJ : ∀ p ∈ pts, mxJ nsd axi n p u ≠ 0) : mxAll nsd axi epsR ⟨nsd * n, dofVec nsd u⟩ eP pts = .ok (pts.map (mDat nsd axi n u)) := by
  induction pts with
  | nil => rfl
  | cons p l ih =>
    simp only [mxAll, mxEval_ok nsd axi hd n hn epsR p (hp p (by simp)) u eP he (hJ p (by simp)), Res.bind, ih (fun q hq => hp q (by simp [hq])) fun q hq => hJ q (by simp [hq]), List.map_cons]

theorem mxMats_ok (pts : List (MPt nPM)) (k : MPt nPM → MxData nPM) (th : MPt nPM → ℝ) (cs : MPt nPM → DMat ℝ × (Nat → ℝ))
    (h : ∀ p ∈ pts, p.mat (fun i j => |th p / (k p).pt.J| ^ ((1 : ℝ) / 3) * (k p).F i j) (fun _ => 0) = .ok (cs p)) : mxMats (pts.map fun p => (p, k p, th p)) = .ok (pts.map cs) := by
  induction pts with
  | nil => rfl
  | cons p l ih => simp only [List.map_cons, mxMats, h p (by simp), Res.bind, ih fun q hq => h q (by simp [hq])]

theorem mxLoop_run (nsd : Nat) (axi : Bool) (epsR : ℝ) (hv : Bool) (pts : List (MPt nPM)) (k : MPt nPM → MxData nPM) (th : MPt nPM → ℝ) (gb : MPt nPM → Nat → Nat → ℝ) (cs : MPt nPM → DMat ℝ × (Nat → ℝ))
    (P : MPt nPM → ℝ) (u : Nat → Nat → ℝ) (M : DMat ℝ × DVec ℝ) : mxLoop nsd axi epsR hv (pts.map fun p => (k p, th p, gb p, cs p, P p)) M
      = runAll (pts.map fun p => fun _ M => mxAdd nsd axi epsR hv (k p) (th p) (gb p) (cs p) (P p) M) u M := by
  induction pts generalizing M with
  | nil => rfl
  | cons p l ih =>
    simp only [List.map_cons, mxLoop, runAll]
    congr 1
    funext M
    exact ih M

theorem zip_maps {α β γ : Type} (l : List α) (f : α → β) (g : α → γ) : (l.map f).zip (l.map g) = l.map fun x => (f x, g x) := by
  induction l with
  | nil => rfl
  | cons a l ih => simp only [List.map_cons, List.zip_cons_cons, ih]

/-- The mixed pressure. -/
noncomputable def mPr (nsd : Nat) (axi : Bool) (n : Nat) (pts : List (MPt nPM)) (u : Nat → Nat → ℝ) (q : MPt nPM → ℝ) (p : MPt nPM) : ℝ :=
  mprj axi pts q p * mxJ nsd axi n p u / mTh nsd axi n pts u p

theorem pressure_ok (nsd : Nat) (axi : Bool) (n : Nat) (pts : List (MPt nPM)) (u : Nat → Nat → ℝ) (q : MPt nPM → ℝ) (hdet : (modeMat axi pts).det ≠ 0) :
    pressure (pts.map fun p => (mDat nsd axi n u p).pt) (pts.map q) (pts.map (mTh nsd axi n pts u)) = pts.map (mPr nsd axi n pts u q) := by
  have hinv : ((hmat (pts.map fun p => (mDat nsd axi n u p).pt)).det)⁻¹ • (hmat (pts.map fun p => (mDat nsd axi n u p).pt)).adjugate = (modeMat axi pts)⁻¹ :=
    hinv_mode axi pts (fun p => (mDat nsd axi n u p).pt) (fun _ => rfl) (fun _ => rfl) hdet
  unfold pressure
  simp only [hinv, zip_maps, List.map_map]
  refine List.map_congr_left fun p _ => ?_
  unfold mPr mprj
  simp only [Function.comp]
  congr 2
  refine Finset.sum_congr rfl fun i _ => ?_
  congr 1
  refine Finset.sum_congr rfl fun j _ => ?_
  congr 2
  exact List.map_congr_left fun r _ => by show q r * mwt axi r * r.phi j = _; ring

theorem mxElement_run (nsd : Nat) (axi : Bool) (hd : MDim nsd axi) (n : Nat) (hn : 0 < n) (hm : 1 ≤ nPM) (tol epsR : ℝ) (pts : List (MPt nPM)) (hp : ∀ p ∈ pts, MPtOk nsd axi n epsR p) (h1 : ∀ p ∈ pts, p.phi ⟨0, hm⟩ = 1)
    (hdet : (modeMat axi pts).det ≠ 0) (u : Nat → Nat → ℝ) (eP : DVec ℝ) (he : eP.n = 0 ∨ eP.n = nsd * n) (hJ : ∀ p ∈ pts, mxJ nsd axi n p u ≠ 0) (hT : ∀ p ∈ pts, mTh nsd axi n pts u p ≠ 0)
    (cs : MPt nPM → DMat ℝ × (Nat → ℝ)) (hcs : ∀ p ∈ pts, p.mat (mFb nsd axi n pts u p) (fun _ => 0) = .ok (cs p)) (M : DMat ℝ × DVec ℝ) :
    mxElement nsd axi tol epsR ⟨nsd * n, dofVec nsd u⟩ eP pts M = runAll (pts.map fun p => fun _ M => mxAdd nsd axi epsR (pts.any fun q => !zeroStrain tol 6 (cs q).2) (mDat nsd axi n u p) (mTh nsd axi n pts u p)
      (mGb nsd axi n pts u p) (cs p) (mPr nsd axi n pts u (fun q => if zeroStrain tol 6 (cs q).2 then 0 else ((cs q).2 1 + (cs q).2 2 + (cs q).2 3) / 3) p) M) u M := by
  unfold mxElement
  rw [mxAll_ok nsd axi hd n hn epsR pts hp u eP he hJ]
  simp only [Res.bind, List.map_map]
  have hk1 : ∀ p : MPt nPM, ((fun x : MxData nPM => x.pt) ∘ mDat nsd axi n u) p = (mDat nsd axi n u p).pt := fun _ => rfl
  have hk : ((fun x : MxData nPM => x.pt) ∘ mDat nsd axi n u) = fun p => (mDat nsd axi n u p).pt := rfl
  rw [hk]
  obtain ⟨C, c1, c2, G, c3, c4⟩ := condense_eq axi hm (pts.map fun p => (mDat nsd axi n u p).pt) (by
    intro q hq
    obtain ⟨p, hp, rfl⟩ := List.mem_map.mp hq
    exact h1 p hp) (by rw [hmat_mode axi pts _ (fun _ => rfl) fun _ => rfl]; exact hdet)
  have hpr := proj_mprj axi pts (fun p => (mDat nsd axi n u p).pt) (fun _ => rfl) (fun _ => rfl) hdet
  have t1 : C.theta = pts.map (mTh nsd axi n pts u) := by
    rw [c2, List.map_map]
    exact List.map_congr_left fun p _ => hpr (·.J) p
  have t2 : C.gbar = pts.map (mGb nsd axi n pts u) := by
    rw [c3, List.map_map]
    refine List.map_congr_left fun p hp => ?_
    funext a b
    have := c4 (by
      intro q hq
      obtain ⟨p, hp, rfl⟩ := List.mem_map.mp hq
      rw [show ((mDat nsd axi n u p).pt).phi = p.phi from rfl, hpr]
      exact hT p hp) (mDat nsd axi n u p).pt (List.mem_map.mpr ⟨p, hp, rfl⟩) a b
    rw [show ((mDat nsd axi n u p).pt).phi = p.phi from rfl, hpr, hpr] at this
    have hT' := hT p hp
    show G (mDat nsd axi n u p).pt a b = _
    unfold mGb
    rw [eq_div_iff hT', mul_comm]
    exact this
  rw [c1]
  simp only [t1, t2]
  rw [if_neg (by
    simp only [List.any_map, List.any_eq_true, Function.comp, decide_eq_true_eq, not_exists, not_and]
    exact hT)]
  rw [zip_maps, zip_map_self, mxMats_ok pts (mDat nsd axi n u) (mTh nsd axi n pts u) cs hcs]
  simp only [List.map_map]
  have hq : ((fun c : DMat ℝ × (Nat → ℝ) => if zeroStrain tol 6 c.2 = true then 0 else (c.2 1 + c.2 2 + c.2 3) / 3) ∘ cs) = fun q => if zeroStrain tol 6 (cs q).2 = true then 0 else ((cs q).2 1 + (cs q).2 2 + (cs q).2 3) / 3 := rfl
  rw [hq, pressure_ok nsd axi n pts u _ hdet]
  simp only [zip_maps, List.any_map]
  exact mxLoop_run nsd axi epsR _ pts (mDat nsd axi n u) (mTh nsd axi n pts u) (mGb nsd axi n pts u) cs _ u M

/-! ### Contribution of an integration point -/

/-- The stress of the mixed formulation: the constitutive one with the mean value `P`. -/
noncomputable def mSg (s : Nat → ℝ) (P : ℝ) (i j : Nat) : ℝ := symT 3 false s i j + if i = j then P - (s 1 + s 2 + s 3) / 3 else 0

theorem tens_in (nsd : Nat) (axi : Bool) (n : Nat) (g : Nat → Nat → ℝ) (r : Nat → ℝ) (x : Nat → Nat → ℝ) (i j : Nat) (hi : i < nsd) (hj : j < nsd) : tens nsd axi n g r x (i + 1) (j + 1) = grad n x g (i + 1) (j + 1) := by
  unfold tens
  rw [if_pos (by omega)]

theorem geo_part (nsd : Nat) (axi : Bool) (hd : MDim nsd axi) (n : Nat) (g : Nat → Nat → ℝ) (r : Nat → ℝ) (s : Nat → ℝ) (P : ℝ) (x y : Nat → Nat → ℝ) :
    (∑ i ∈ Finset.range nsd, ∑ j ∈ Finset.range nsd, symT nsd axi (mxSigma nsd axi s ((s 1 + s 2 + s 3) / 3) P) (i + 1) (j + 1) * ∑ k ∈ Finset.range nsd, grad n x g (k + 1) (i + 1) * grad n y g (k + 1) (j + 1))
        + (if axi then mSg s P 3 3 * (val n x r 1 * val n y r 1) else 0)
      = ∑ i ∈ Finset.range 3, ∑ j ∈ Finset.range 3, mSg s P (i + 1) (j + 1) * ∑ k ∈ Finset.range 3, tens nsd axi n g r x (k + 1) (i + 1) * tens nsd axi n g r y (k + 1) (j + 1) := by
  rcases hd with h | ⟨h, h'⟩
  · subst h
    obtain ⟨a1, a2, a3, a4, a5⟩ := tens_out axi n g r x
    obtain ⟨b1, b2, b3, b4, b5⟩ := tens_out axi n g r y
    have i1 := fun i j hi hj => tens_in 2 axi n g r x i j hi hj
    have i2 := fun i j hi hj => tens_in 2 axi n g r y i j hi hj
    have x11 := i1 0 0 (by omega) (by omega); have x12 := i1 0 1 (by omega) (by omega); have x21 := i1 1 0 (by omega) (by omega); have x22 := i1 1 1 (by omega) (by omega)
    have y11 := i2 0 0 (by omega) (by omega); have y12 := i2 0 1 (by omega) (by omega); have y21 := i2 1 0 (by omega) (by omega); have y22 := i2 1 1 (by omega) (by omega)
    simp only [zero_add, Nat.reduceAdd] at x11 x12 x21 x22 y11 y12 y21 y22
    simp only [Finset.sum_range_succ, Finset.sum_range_zero, zero_add, Nat.reduceAdd, a1, a2, a3, a4, a5, b1, b2, b3, b4, b5, x11, x12, x21, x22, y11, y12, y21, y22]
    cases axi <;> simp [mSg, symT, mxSigma, mxComp]
  · subst h h'
    have i1 := fun i j hi hj => tens_in 3 false n g r x i j hi hj
    have i2 := fun i j hi hj => tens_in 3 false n g r y i j hi hj
    have e : ∀ i ∈ Finset.range 3, ∀ j ∈ Finset.range 3, mSg s P (i + 1) (j + 1) * ∑ k ∈ Finset.range 3, tens 3 false n g r x (k + 1) (i + 1) * tens 3 false n g r y (k + 1) (j + 1)
        = mSg s P (i + 1) (j + 1) * ∑ k ∈ Finset.range 3, grad n x g (k + 1) (i + 1) * grad n y g (k + 1) (j + 1) := fun i hi j hj => by
      congr 1
      exact Finset.sum_congr rfl fun k hk => by rw [i1 k i (Finset.mem_range.mp hk) (Finset.mem_range.mp hi), i2 k j (Finset.mem_range.mp hk) (Finset.mem_range.mp hj)]
    rw [Finset.sum_congr rfl fun i hi => Finset.sum_congr rfl fun j hj => e i hi j hj]
    simp only [Bool.false_eq_true, if_false, add_zero]
    refine Finset.sum_congr rfl fun i hi => Finset.sum_congr rfl fun j hj => ?_
    congr 1
    have := Finset.mem_range.mp hi
    have := Finset.mem_range.mp hj
    interval_cases i <;> interval_cases j <;> simp [mSg, symT, mxSigma, mxComp]

theorem mB_ok (nsd : Nat) (axi : Bool) (hd : MDim nsd axi) (n : Nat) (epsR : ℝ) (hR : axi = true → 0 ≤ epsR ∧ epsR < 1) (p : MPt nPM) (hp : MPtOk nsd axi n epsR p) (u : Nat → Nat → ℝ) :
    ∃ B, mxB nsd axi epsR (mDat nsd axi n u p) = .ok B ∧ B.nc = nsd * n ∧ ∀ s P x, ∑ k ∈ Finset.range B.nr, B.mulV (dofVec nsd x) (k + 1) * mxSigma nsd axi s ((s 1 + s 2 + s 3) / 3) P (k + 1)
      = ∑ i ∈ Finset.range 3, ∑ j ∈ Finset.range 3, mSg s P (i + 1) (j + 1) * mL nsd axi n p u x (i + 1) (j + 1) := by
  obtain ⟨h1, h2, h3⟩ := hp
  have hr : (mDN nsd axi n p u).nr = n := h1
  have hc : (mDN nsd axi n p u).nc = nsd := rfl
  cases axi with
  | true =>
    have hn2 : nsd = 2 := by rcases hd with h | ⟨-, h⟩; exact h; exact absurd h (by decide)
    subst hn2
    obtain ⟨r1, r2⟩ := hR rfl
    have hN : (mNr true n p u).n = n := (h3 rfl).1
    obtain ⟨B, hB, b1, b2, b3⟩ := C06_strain_axi (mNr true n p u) (mDN 2 true n p u) (hr.trans hN.symm) (by rw [hc]) 1 epsR (by linarith)
    refine ⟨B, hB, by rw [b2, hN], fun s P x => ?_⟩
    obtain ⟨a1, a2, a3, a4, a5⟩ := tens_out true n (mDN 2 true n p u).e (mNr true n p u).e x
    have i1 := fun i j hi hj => tens_in 2 true n (mDN 2 true n p u).e (mNr true n p u).e x i j hi hj
    have x11 := i1 0 0 (by omega) (by omega); have x12 := i1 0 1 (by omega) (by omega); have x21 := i1 1 0 (by omega) (by omega); have x22 := i1 1 1 (by omega) (by omega)
    simp only [zero_add, Nat.reduceAdd] at x11 x12 x21 x22
    rw [b1]
    have e : ∀ i, 1 ≤ i → i ≤ 4 → B.mulV (dofVec 2 x) i = engAxi (grad n x (mDN 2 true n p u).e) (val n x (mNr true n p u).e 1) i := by
      intro i i1 i2
      have := b3 x i i1 i2
      unfold strains at this
      rw [this, hN, if_neg (not_le.mpr r2), div_one]
    unfold mL
    simp only [Finset.sum_range_succ, Finset.sum_range_zero, zero_add, Nat.reduceAdd, a1, a2, a3, a4, a5, x11, x12, x21, x22]
    rw [e 1 (by omega) (by omega), e 2 (by omega) (by omega), e 3 (by omega) (by omega), e 4 (by omega) (by omega)]
    simp [mSg, symT, mxSigma, mxComp, engAxi]
    ring
  | false =>
    obtain ⟨B, hB, b1, b2, b3⟩ := formB_ok nsd (by rcases hd with h | ⟨h, -⟩ <;> omega) (mDN nsd false n p u) (by rw [hc])
    refine ⟨B, hB, by rw [b2, hr], fun s P x => ?_⟩
    rw [b1, hr] at *
    rw [Finset.sum_congr rfl fun k hk => by rw [b3 x (k + 1) (by omega) (by have := Finset.mem_range.mp hk; omega)],
      eng_work nsd (by rcases hd with h | ⟨h, -⟩ <;> omega)]
    unfold mL
    rcases hd with h | ⟨h, -⟩
    · subst h
      obtain ⟨a1, a2, a3, a4, a5⟩ := tens_out false n (mDN 2 false n p u).e (mNr false n p u).e x
      have i1 := fun i j hi hj => tens_in 2 false n (mDN 2 false n p u).e (mNr false n p u).e x i j hi hj
      have x11 := i1 0 0 (by omega) (by omega); have x12 := i1 0 1 (by omega) (by omega); have x21 := i1 1 0 (by omega) (by omega); have x22 := i1 1 1 (by omega) (by omega)
      simp only [zero_add, Nat.reduceAdd] at x11 x12 x21 x22
      simp only [Finset.sum_range_succ, Finset.sum_range_zero, zero_add, Nat.reduceAdd, a1, a2, a3, a4, a5, x11, x12, x21, x22]
      simp [mSg, symT, mxSigma, mxComp]
    · subst h
      refine Finset.sum_congr rfl fun i hi => Finset.sum_congr rfl fun j hj => ?_
      have hi' := Finset.mem_range.mp hi
      have hj' := Finset.mem_range.mp hj
      rw [tens_in 3 false n _ _ x i j hi' hj']
      congr 1
      interval_cases i <;> interval_cases j <;> simp [mSg, symT, mxSigma, mxComp]

theorem acc_ok (nsd : Nat) (axi : Bool) (hd : MDim nsd axi) (n : Nat) (r : Nat → ℝ) (f fb D : Nat → Nat → ℝ) (w : ℝ) (EK : DMat ℝ) (h1 : EK.nr = nsd * n) (h2 : EK.nc = nsd * n) :
    ∃ E, (if nsd = 2 then accKMx2D axi n r f fb (fun i j => D i j * w) EK else accKMx3D n f fb (fun i j => D i j * w) EK) = .ok E ∧ E.nr = nsd * n ∧ E.nc = nsd * n ∧
      ∀ x y, E.bil (dofVec nsd x) (dofVec nsd y) = EK.bil (dofVec nsd x) (dofVec nsd y)
      + w * ∑ k ∈ Finset.range 7, ∑ l ∈ Finset.range 7, strain7 (tens nsd axi n f r x) (divg n nsd fb x) (k + 1) * D (k + 1) (l + 1) * strain7 (tens nsd axi n f r y) (divg n nsd fb y) (l + 1) := by
  have sc : ∀ a b : Nat → ℝ, ∑ k ∈ Finset.range 7, ∑ l ∈ Finset.range 7, a (k + 1) * (D (k + 1) (l + 1) * w) * b (l + 1) = w * ∑ k ∈ Finset.range 7, ∑ l ∈ Finset.range 7, a (k + 1) * D (k + 1) (l + 1) * b (l + 1) := by
    intro a b
    rw [mul_dsum]
    exact Finset.sum_congr rfl fun k _ => Finset.sum_congr rfl fun l _ => by ring
  rcases hd with h | ⟨h, h'⟩
  · subst h
    obtain ⟨E, e1, e2, e3, e4⟩ := acc2 axi n r f fb (fun i j => D i j * w) EK h1 h2
    exact ⟨E, by rw [if_pos rfl]; exact e1, e2, e3, fun x y => by rw [e4, sc]⟩
  · subst h h'
    obtain ⟨E, e1, e2, e3, e4⟩ := acc3 n r f fb (fun i j => D i j * w) EK h1 h2
    exact ⟨E, by rw [if_neg (by omega)]; exact e1, e2, e3, fun x y => by rw [e4, sc]⟩

/-- The part of the geometric stiffness left out where the hoop stress is negative. -/
noncomputable def mHoop (axi : Bool) (s : Nat → ℝ) (P : ℝ) (X Y : Nat → Nat → ℝ) : ℝ := if axi = true ∧ ¬ 0 < mSg s P 3 3 then mSg s P 3 3 * (X 3 3 * Y 3 3) else 0

theorem add_contr (nsd : Nat) (axi : Bool) (hd : MDim nsd axi) (n : Nat) (epsR : ℝ) (hR : axi = true → 0 ≤ epsR ∧ epsR < 1) (p : MPt nPM) (hp : MPtOk nsd axi n epsR p) (u : Nat → Nat → ℝ) (hv : Bool) (th : ℝ) (gb : Nat → Nat → ℝ)
    (cs : DMat ℝ × (Nat → ℝ)) (P : ℝ) (hz : hv = false → P = 0 ∧ ∀ i, 1 ≤ i → i ≤ 6 → cs.2 i = 0) (D : DMat ℝ) (hD : addVolumetricTerms cs.1.e cs.2 ((cs.2 1 + cs.2 2 + cs.2 3) / 3) P = .ok D) :
    Contr nsd n (fun _ M => mxAdd nsd axi epsR hv (mDat nsd axi n u p) th gb cs P M) u
      (fun x => mwt axi p * th * ∑ i ∈ Finset.range 3, ∑ j ∈ Finset.range 3, mSg cs.2 P (i + 1) (j + 1) * mL nsd axi n p u x (i + 1) (j + 1))
      (fun x y => mwt axi p * th * ((∑ i ∈ Finset.range 3, ∑ j ∈ Finset.range 3, mSg cs.2 P (i + 1) (j + 1) * ∑ k ∈ Finset.range 3, mL nsd axi n p u x (k + 1) (i + 1) * mL nsd axi n p u y (k + 1) (j + 1))
        + (∑ k ∈ Finset.range 7, ∑ l ∈ Finset.range 7, strain7 (mL nsd axi n p u x) (divg n nsd gb x) (k + 1) * D.e (k + 1) (l + 1) * strain7 (mL nsd axi n p u y) (divg n nsd gb y) (l + 1))
        - mHoop axi cs.2 P (mL nsd axi n p u x) (mL nsd axi n p u y))) := by
  obtain ⟨C, s⟩ := cs
  simp only at hz hD ⊢
  obtain ⟨B, hB, b1, b2⟩ := mB_ok nsd axi hd n epsR hR p hp u
  have hr : (mDN nsd axi n p u).nr = n := hp.1
  cases hv with
  | true =>
    refine ⟨fun b => addIntForce b B (mxSigma nsd axi s ((s 1 + s 2 + s 3) / 3) P) (th * mwt axi p), fun b hb => ⟨hb, fun x => ?_⟩, fun A b a1 a2 hb => ?_⟩
    · rw [addIntForce_dot _ _ _ _ (by rw [hb, b1]), b2]
      ring
    · obtain ⟨A1, k1, k2, k3, k4⟩ := formKG_ok nsd axi A (mNr axi n p u) (mDN nsd axi n p u) 1 (symT nsd axi (mxSigma nsd axi s ((s 1 + s 2 + s 3) / 3) P)) (th * mwt axi p)
        (by rcases hd with h | ⟨h, -⟩ <;> omega) (by rw [a1, hr]) (by rw [a2, hr])
      obtain ⟨A2, l1, l2, l3, l4⟩ := acc_ok nsd axi hd n (mNr axi n p u).e (mDN nsd axi n p u).e gb D.e (th * mwt axi p) A1 (by rw [k2, a1]) (by rw [k3, a2])
      refine ⟨A2, ?_, l2, l3, fun x y => ?_⟩
      · show mxAdd nsd axi epsR true (mDat nsd axi n u p) th gb (C, s) P (A, b) = _
        unfold mxAdd
        simp only [if_true]
        refine (congrArg (fun r => Res.bind r _) k1).trans ?_
        simp only [Res.bind]
        rw [hD]
        simp only []
        have l1' : (if nsd = 2 then accKMx2D axi (mDat nsd axi n u p).dN.nr (mDat nsd axi n u p).Nr.e (mDat nsd axi n u p).dN.e gb (fun i j => D.e i j * (th * (mDat nsd axi n u p).pt.w)) A1
            else accKMx3D (mDat nsd axi n u p).dN.nr (mDat nsd axi n u p).dN.e gb (fun i j => D.e i j * (th * (mDat nsd axi n u p).pt.w)) A1) = .ok A2 := by
          rw [show (mDat nsd axi n u p).dN.nr = n from hr]; exact l1
        rw [l1', hB]
        rfl
      · rw [l4, k4, add_assoc]
        congr 1
        have hg := geo_part nsd axi hd n (mDN nsd axi n p u).e (mNr axi n p u).e s P x y
        unfold mL
        simp only [Finset.sum_add_distrib]
        rw [hr, kg_bil nsd n (mDN nsd axi n p u).e _ (th * mwt axi p) x y]
        rw [← hg]
        have hh : ∑ a ∈ Finset.range n, ∑ b ∈ Finset.range n, (if (if axi = true ∧ (1 : ℝ) > 0 then symT nsd axi (mxSigma nsd axi s ((s 1 + s 2 + s 3) / 3) P) 3 3 / (1 * 1) else 0) > 0 then
              (mNr axi n p u).e (a + 1) * (if axi = true ∧ (1 : ℝ) > 0 then symT nsd axi (mxSigma nsd axi s ((s 1 + s 2 + s 3) / 3) P) 3 3 / (1 * 1) else 0) * (mNr axi n p u).e (b + 1)
                * (th * mwt axi p) * (x (a + 1) 1 * y (b + 1) 1) else 0)
            = th * mwt axi p * ((if axi then mSg s P 3 3 * (val n x (mNr axi n p u).e 1 * val n y (mNr axi n p u).e 1) else 0) - mHoop axi s P (tens nsd axi n (mDN nsd axi n p u).e (mNr axi n p u).e x) (tens nsd axi n (mDN nsd axi n p u).e (mNr axi n p u).e y)) := by
          cases axi with
          | false => simp [mHoop]
          | true =>
            have hn2 : nsd = 2 := by rcases hd with h | ⟨-, h⟩; exact h; exact absurd h (by decide)
            subst hn2
            have e33 : symT 2 true (mxSigma 2 true s ((s 1 + s 2 + s 3) / 3) P) 3 3 = mSg s P 3 3 := by simp [symT, mxSigma, mxComp, mSg]
            obtain ⟨-, -, -, -, a5⟩ := tens_out true n (mDN 2 true n p u).e (mNr true n p u).e x
            obtain ⟨-, -, -, -, c5⟩ := tens_out true n (mDN 2 true n p u).e (mNr true n p u).e y
            unfold mHoop
            rw [e33, a5, c5]
            simp only [true_and, gt_iff_lt, zero_lt_one, if_true, mul_one, div_one, and_self]
            by_cases h0 : 0 < mSg s P 3 3
            · simp only [h0, if_true, not_true, if_false, sub_zero]
              unfold val
              rw [Finset.sum_mul_sum, mul_dsum, mul_dsum]
              exact Finset.sum_congr rfl fun a _ => Finset.sum_congr rfl fun b _ => by ring
            · simp only [h0, if_false, not_false_eq_true, if_true, Finset.sum_const_zero]
              ring
        rw [hh]
        ring
  | false =>
    obtain ⟨hP, hs⟩ := hz rfl
    have s1 := hs 1 (by omega) (by omega); have s2 := hs 2 (by omega) (by omega); have s3 := hs 3 (by omega) (by omega)
    have hS : ∀ i j, i < 3 → j < 3 → mSg s P (i + 1) (j + 1) = 0 := by
      intro i j hi hj
      have s4 := hs 4 (by omega) (by omega); have s5 := hs 5 (by omega) (by omega); have s6 := hs 6 (by omega) (by omega)
      interval_cases i <;> interval_cases j <;> simp [mSg, symT, s1, s2, s3, s4, s5, s6, hP]
    refine ⟨id, fun b hb => ⟨hb, fun x => ?_⟩, fun A b a1 a2 hb => ?_⟩
    · have : ∑ i ∈ Finset.range 3, ∑ j ∈ Finset.range 3, mSg s P (i + 1) (j + 1) * mL nsd axi n p u x (i + 1) (j + 1) = 0 :=
        Finset.sum_eq_zero fun i hi => Finset.sum_eq_zero fun j hj => by rw [hS i j (Finset.mem_range.mp hi) (Finset.mem_range.mp hj), zero_mul]
      simp only [this, id, mul_zero, sub_zero]
    · obtain ⟨A2, l1, l2, l3, l4⟩ := acc_ok nsd axi hd n (mNr axi n p u).e (mDN nsd axi n p u).e gb D.e (th * mwt axi p) A a1 a2
      refine ⟨A2, ?_, l2, l3, fun x y => ?_⟩
      · show mxAdd nsd axi epsR false (mDat nsd axi n u p) th gb (C, s) P (A, b) = _
        unfold mxAdd
        simp only [Bool.false_eq_true, if_false, Res.bind]
        have hD' : addVolumetricTerms C.e s 0 0 = .ok D := by rw [← hD, hP, s1, s2, s3]; norm_num
        rw [hD']
        have l1' : (if nsd = 2 then accKMx2D axi (mDat nsd axi n u p).dN.nr (mDat nsd axi n u p).Nr.e (mDat nsd axi n u p).dN.e gb (fun i j => D.e i j * (th * (mDat nsd axi n u p).pt.w)) A
            else accKMx3D (mDat nsd axi n u p).dN.nr (mDat nsd axi n u p).dN.e gb (fun i j => D.e i j * (th * (mDat nsd axi n u p).pt.w)) A) = .ok A2 := by
          rw [show (mDat nsd axi n u p).dN.nr = n from hr]; exact l1
        simp only [l1']
        rfl
      · rw [l4]
        congr 1
        have h0 : mHoop axi s P (mL nsd axi n p u x) (mL nsd axi n p u y) = 0 := by
          unfold mHoop
          rw [hS 2 2 (by omega) (by omega)]
          simp
        have hk : ∑ i ∈ Finset.range 3, ∑ j ∈ Finset.range 3, mSg s P (i + 1) (j + 1) * ∑ k ∈ Finset.range 3, mL nsd axi n p u x (k + 1) (i + 1) * mL nsd axi n p u y (k + 1) (j + 1) = 0 :=
          Finset.sum_eq_zero fun i hi => Finset.sum_eq_zero fun j hj => by rw [hS i j (Finset.mem_range.mp hi) (Finset.mem_range.mp hj), zero_mul]
        beta_reduce
        rw [h0, hk]
        unfold mL
        ring

theorem contr_list (d n : Nat) {α : Type} (pts : List α) (step : α → (Nat → Nat → ℝ) → DMat ℝ × DVec ℝ → Res (DMat ℝ × DVec ℝ)) (W : α → (Nat → Nat → ℝ) → ℝ) (Q : α → (Nat → Nat → ℝ) → (Nat → Nat → ℝ) → ℝ)
    (u : Nat → Nat → ℝ) (h : ∀ p ∈ pts, Contr d n (step p) u (W p) (Q p)) :
    Contr d n (runAll (pts.map step)) u (fun x => (pts.map fun p => W p x).sum) (fun x y => (pts.map fun p => Q p x y).sum) := by
  induction pts with
  | nil => exact ⟨id, fun b hb => ⟨hb, fun x => by simp⟩, fun A b a1 a2 hb => ⟨A, rfl, a1, a2, fun x y => by simp⟩⟩
  | cons p l ih =>
    obtain ⟨g, g1, g2⟩ := h p (by simp)
    obtain ⟨g', f1, f2⟩ := ih fun q hq => h q (by simp [hq])
    refine ⟨fun b => g' (g b), fun b hb => ?_, fun A b a1 a2 hb => ?_⟩
    · obtain ⟨e1, e2⟩ := g1 b hb
      obtain ⟨e3, e4⟩ := f1 (g b) e1
      refine ⟨e3, fun x => ?_⟩
      rw [e4, e2]
      simp only [List.map_cons, List.sum_cons]
      ring
    · obtain ⟨A1, k1, k2, k3, k4⟩ := g2 A b a1 a2 hb
      obtain ⟨A2, l1, l2, l3, l4⟩ := f2 A1 (g b) k2 k3 (g1 b hb).1
      refine ⟨A2, ?_, l2, l3, fun x y => ?_⟩
      · simp only [List.map_cons, runAll, k1, Res.bind]
        exact l1
      · rw [l4, k4]
        simp only [List.map_cons, List.sum_cons]
        ring

/-! ### The element -/

theorem div_tr (nsd : Nat) (axi : Bool) (hd : MDim nsd axi) (n : Nat) (p : MPt nPM) (u x : Nat → Nat → ℝ) : pointDiv axi n nsd (mDat nsd axi n u p).pt x = tr 3 (mL nsd axi n p u x) := by
  have hg : ∀ d (g : Nat → Nat → ℝ), divg n d g x = ∑ i ∈ Finset.range d, grad n x g (i + 1) (i + 1) := by
    intro d g
    unfold divg grad
    rw [Finset.sum_comm]
    exact Finset.sum_congr rfl fun i _ => Finset.sum_congr rfl fun a _ => mul_comm _ _
  unfold pointDiv
  rw [hg]
  unfold tr mL
  rcases hd with h | ⟨h, h'⟩
  · subst h
    rw [Finset.sum_range_succ _ 2]
    obtain ⟨-, -, -, -, a5⟩ := tens_out axi n (mDN 2 axi n p u).e (mNr axi n p u).e x
    rw [show 2 + 1 = 3 from rfl, a5]
    refine congrArg₂ (· + ·) ?_ ?_
    · refine Finset.sum_congr rfl fun i hi => ?_
      rw [tens_in 2 axi n _ _ x i i (Finset.mem_range.mp hi) (Finset.mem_range.mp hi)]
      rfl
    · cases axi
      · rfl
      · simp only [if_true, val]
        exact Finset.sum_congr rfl fun a _ => mul_comm _ _
  · subst h h'
    simp only [Bool.false_eq_true, if_false, add_zero]
    refine Finset.sum_congr rfl fun i hi => ?_
    rw [tens_in 3 false n _ _ x i i (Finset.mem_range.mp hi) (Finset.mem_range.mp hi)]
    rfl

/-- The averaged volumetric rate. -/
theorem th_div (nsd : Nat) (axi : Bool) (hd : MDim nsd axi) (n : Nat) (pts : List (MPt nPM)) (hdet : (modeMat axi pts).det ≠ 0) (u : Nat → Nat → ℝ) (p : MPt nPM) (hT : mTh nsd axi n pts u p ≠ 0) (x : Nat → Nat → ℝ) :
    mTh nsd axi n pts u p * divg n nsd (mGb nsd axi n pts u p) x = mprj axi pts (fun q => mxJ nsd axi n q u * tr 3 (mL nsd axi n q u x)) p := by
  have h := div_proj axi n nsd (by rcases hd with h | ⟨h, -⟩ <;> omega) (pts.map fun p => (mDat nsd axi n u p).pt) x p.phi
  have hpr := fun f => proj_mprj axi pts (fun p => (mDat nsd axi n u p).pt) (fun _ => rfl) (fun _ => rfl) hdet f p
  rw [hpr] at h
  simp only [div_tr nsd axi hd, hpr] at h
  refine Eq.trans ?_ h
  unfold divg mGb
  rw [Finset.mul_sum]
  refine Finset.sum_congr rfl fun a _ => ?_
  rw [Finset.mul_sum]
  refine Finset.sum_congr rfl fun i _ => ?_
  rw [← mul_assoc, mul_div_cancel₀ _ hT]
  rfl

/-- The constitutive stresses of an integration point, and their mean value. -/
noncomputable def mS (nsd : Nat) (axi : Bool) (n : Nat) (pts : List (MPt nPM)) (sig : MPt nPM → (Nat → Nat → ℝ) → Nat → ℝ) (u : Nat → Nat → ℝ) (p : MPt nPM) : Nat → ℝ := sig p (mFb nsd axi n pts u p)

noncomputable def mQ (nsd : Nat) (axi : Bool) (n : Nat) (pts : List (MPt nPM)) (sig : MPt nPM → (Nat → Nat → ℝ) → Nat → ℝ) (u : Nat → Nat → ℝ) (p : MPt nPM) : ℝ :=
  (mS nsd axi n pts sig u p 1 + mS nsd axi n pts sig u p 2 + mS nsd axi n pts sig u p 3) / 3

/-- The mixed pressure of an integration point. -/
noncomputable def mP (nsd : Nat) (axi : Bool) (n : Nat) (pts : List (MPt nPM)) (sig : MPt nPM → (Nat → Nat → ℝ) → Nat → ℝ) (u : Nat → Nat → ℝ) (p : MPt nPM) : ℝ :=
  mPr nsd axi n pts u (mQ nsd axi n pts sig u) p

noncomputable def mDm (C : Nat → Nat → ℝ) (s : Nat → ℝ) (P : ℝ) : DMat ℝ := (volTerms C s ((s 1 + s 2 + s 3) / 3) P).choose

theorem mDm_ok (C : Nat → Nat → ℝ) (s : Nat → ℝ) (P : ℝ) : addVolumetricTerms C s ((s 1 + s 2 + s 3) / 3) P = .ok (mDm C s P) := (volTerms C s ((s 1 + s 2 + s 3) / 3) P).choose_spec.1

/-- The work of the forces of an integration point. -/
noncomputable def mWork (nsd : Nat) (axi : Bool) (n : Nat) (pts : List (MPt nPM)) (sig : MPt nPM → (Nat → Nat → ℝ) → Nat → ℝ) (u : Nat → Nat → ℝ) (p : MPt nPM) (x : Nat → Nat → ℝ) : ℝ :=
  mwt axi p * mTh nsd axi n pts u p * ∑ i ∈ Finset.range 3, ∑ j ∈ Finset.range 3, mSg (mS nsd axi n pts sig u p) (mP nsd axi n pts sig u p) (i + 1) (j + 1) * mL nsd axi n p u x (i + 1) (j + 1)

/-- The complete stiffness of an integration point. -/
noncomputable def mStiff (nsd : Nat) (axi : Bool) (n : Nat) (pts : List (MPt nPM)) (sig : MPt nPM → (Nat → Nat → ℝ) → Nat → ℝ) (c : MPt nPM → (Nat → Nat → ℝ) → DMat ℝ) (u : Nat → Nat → ℝ) (p : MPt nPM) (x y : Nat → Nat → ℝ) : ℝ :=
  (∑ i ∈ Finset.range 3, ∑ j ∈ Finset.range 3, mSg (mS nsd axi n pts sig u p) (mP nsd axi n pts sig u p) (i + 1) (j + 1) * ∑ k ∈ Finset.range 3, mL nsd axi n p u x (k + 1) (i + 1) * mL nsd axi n p u y (k + 1) (j + 1))
    + ∑ k ∈ Finset.range 7, ∑ l ∈ Finset.range 7, strain7 (mL nsd axi n p u x) (divg n nsd (mGb nsd axi n pts u p) x) (k + 1)
      * (mDm (c p (mFb nsd axi n pts u p)).e (mS nsd axi n pts sig u p) (mP nsd axi n pts sig u p)).e (k + 1) (l + 1) * strain7 (mL nsd axi n p u y) (divg n nsd (mGb nsd axi n pts u p) y) (l + 1)

theorem mFb_det (nsd : Nat) (axi : Bool) (n : Nat) (pts : List (MPt nPM)) (u : Nat → Nat → ℝ) (p : MPt nPM) (hJ : mxJ nsd axi n p u ≠ 0) (hT : mTh nsd axi n pts u p ≠ 0) : (lead 3 (mFb nsd axi n pts u p)).det ≠ 0 :=
  scaled_det 3 _ (Real.rpow_pos_of_pos (abs_pos.mpr (div_ne_zero hT hJ)) _).ne' _ hJ

theorem elem_contr (nsd : Nat) (axi : Bool) (hd : MDim nsd axi) (n : Nat) (hn : 0 < n) (hm : 1 ≤ nPM) (tol epsR : ℝ) (hR : axi = true → 0 ≤ epsR ∧ epsR < 1) (pts : List (MPt nPM)) (hp : ∀ p ∈ pts, MPtOk nsd axi n epsR p)
    (h1 : ∀ p ∈ pts, p.phi ⟨0, hm⟩ = 1) (hdet : (modeMat axi pts).det ≠ 0) (eP : DVec ℝ) (he : eP.n = 0 ∨ eP.n = nsd * n) (sig : MPt nPM → (Nat → Nat → ℝ) → Nat → ℝ) (c : MPt nPM → (Nat → Nat → ℝ) → DMat ℝ)
    (hev : ∀ p ∈ pts, ∀ F E, (lead 3 F).det ≠ 0 → p.mat F E = .ok (c p F, sig p F)) (u : Nat → Nat → ℝ) (hJ : ∀ p ∈ pts, mxJ nsd axi n p u ≠ 0) (hT : ∀ p ∈ pts, mTh nsd axi n pts u p ≠ 0)
    (hz : ∀ p ∈ pts, zeroStrain tol 6 (mS nsd axi n pts sig u p) = true → ∀ i, 1 ≤ i → i ≤ 6 → mS nsd axi n pts sig u p i = 0) :
    Contr nsd n (fun u M => mxElement nsd axi tol epsR ⟨nsd * n, dofVec nsd u⟩ eP pts M) u (fun x => (pts.map fun p => mWork nsd axi n pts sig u p x).sum)
      (fun x y => (pts.map fun p => mwt axi p * mTh nsd axi n pts u p * (mStiff nsd axi n pts sig c u p x y
        - mHoop axi (mS nsd axi n pts sig u p) (mP nsd axi n pts sig u p) (mL nsd axi n p u x) (mL nsd axi n p u y))).sum) := by
  have hrun := mxElement_run nsd axi hd n hn hm tol epsR pts hp h1 hdet u eP he hJ hT (fun p => (c p (mFb nsd axi n pts u p), mS nsd axi n pts sig u p))
    fun p hpm => hev p hpm _ _ (mFb_det nsd axi n pts u p (hJ p hpm) (hT p hpm))
  have hq : ∀ p ∈ pts, (if zeroStrain tol 6 (mS nsd axi n pts sig u p) then 0 else (mS nsd axi n pts sig u p 1 + mS nsd axi n pts sig u p 2 + mS nsd axi n pts sig u p 3) / 3) = mQ nsd axi n pts sig u p := by
    intro p hpm
    split_ifs with h
    · have h0 := hz p hpm h
      unfold mQ
      rw [h0 1 (by omega) (by omega), h0 2 (by omega) (by omega), h0 3 (by omega) (by omega)]
      norm_num
    · rfl
  have hP : ∀ p, mPr nsd axi n pts u (fun q => if zeroStrain tol 6 (mS nsd axi n pts sig u q) then 0 else (mS nsd axi n pts sig u q 1 + mS nsd axi n pts sig u q 2 + mS nsd axi n pts sig u q 3) / 3) p = mP nsd axi n pts sig u p := by
    intro p
    unfold mP mPr
    rw [mprj_congr axi pts _ _ hq p]
  simp only [hP] at hrun
  have key := contr_list nsd n pts (fun p => fun _ M => mxAdd nsd axi epsR (pts.any fun q => !zeroStrain tol 6 (mS nsd axi n pts sig u q)) (mDat nsd axi n u p) (mTh nsd axi n pts u p) (mGb nsd axi n pts u p)
    (c p (mFb nsd axi n pts u p), mS nsd axi n pts sig u p) (mP nsd axi n pts sig u p) M) _ _ u fun p hpm => add_contr nsd axi hd n epsR hR p (hp p hpm) u _ _ _ _ _ (by
      intro hany
      have hall : ∀ q ∈ pts, ∀ i, 1 ≤ i → i ≤ 6 → mS nsd axi n pts sig u q i = 0 := by
        intro q hqm
        refine hz q hqm ?_
        have := List.any_eq_false.mp hany q hqm
        simpa using this
      refine ⟨?_, hall p hpm⟩
      unfold mP mPr
      have : mprj axi pts (mQ nsd axi n pts sig u) p = mprj axi pts (fun _ => 0) p := mprj_congr axi pts _ _ (fun q hqm => by
        unfold mQ
        rw [hall q hqm 1 (by omega) (by omega), hall q hqm 2 (by omega) (by omega), hall q hqm 3 (by omega) (by omega)]
        norm_num) p
      rw [this]
      unfold mprj
      simp) _ (mDm_ok _ _ _)
  obtain ⟨g, g1, g2⟩ := key
  refine ⟨g, g1, fun A b a1 a2 hb => ?_⟩
  obtain ⟨A', e1, e2, e3, e4⟩ := g2 A b a1 a2 hb
  exact ⟨A', by rw [← e1]; exact hrun (A, b), e2, e3, e4⟩

/-! ### The derivative of the forces -/

noncomputable def mRate (nsd : Nat) (axi : Bool) (n : Nat) (pts : List (MPt nPM)) (sig : MPt nPM → (Nat → Nat → ℝ) → Nat → ℝ) (c : MPt nPM → (Nat → Nat → ℝ) → DMat ℝ) (u v : Nat → Nat → ℝ) (p : MPt nPM) : Nat → Nat → ℝ :=
  stressRate pos3 3 (c p (mFb nsd axi n pts u p)).e (symT 3 false (mS nsd axi n pts sig u p)) (barVel (mL nsd axi n p u v) (divg n nsd (mGb nsd axi n pts u p) v))

theorem J_deriv (nsd : Nat) (axi : Bool) (hd : MDim nsd axi) (n : Nat) (epsR : ℝ) (p : MPt nPM) (hp : MPtOk nsd axi n epsR p) (u v : Nat → Nat → ℝ) (hJ : mxJ nsd axi n p u ≠ 0) :
    HasDerivAt (fun t => mxJ nsd axi n p (along u v t)) (mxJ nsd axi n p u * tr 3 (mL nsd axi n p u v)) 0 := by
  have h := det_deriv 3 (Or.inr rfl) (fun t => mxF nsd axi n p (along u v t)) (mL nsd axi n p u v) fun i j hi hj => path3 nsd axi hd n epsR p hp u v hJ i j hi hj
  rw [along_zero] at h
  exact h

theorem Th_deriv (nsd : Nat) (axi : Bool) (hd : MDim nsd axi) (n : Nat) (epsR : ℝ) (pts : List (MPt nPM)) (hp : ∀ p ∈ pts, MPtOk nsd axi n epsR p) (hdet : (modeMat axi pts).det ≠ 0) (u v : Nat → Nat → ℝ)
    (hJ : ∀ p ∈ pts, mxJ nsd axi n p u ≠ 0) (p : MPt nPM) (hT : mTh nsd axi n pts u p ≠ 0) :
    HasDerivAt (fun t => mTh nsd axi n pts (along u v t) p) (mTh nsd axi n pts u p * divg n nsd (mGb nsd axi n pts u p) v) 0 := by
  rw [th_div nsd axi hd n pts hdet u p hT v]
  exact mprj_deriv axi pts (fun t q => mxJ nsd axi n q (along u v t)) _ (fun q hq => J_deriv nsd axi hd n epsR q (hp q hq) u v (hJ q hq)) p

theorem fb_deriv (nsd : Nat) (axi : Bool) (hd : MDim nsd axi) (n : Nat) (epsR : ℝ) (pts : List (MPt nPM)) (hp : ∀ p ∈ pts, MPtOk nsd axi n epsR p) (hdet : (modeMat axi pts).det ≠ 0)
    (u v : Nat → Nat → ℝ) (hJ : ∀ p ∈ pts, mxJ nsd axi n p u ≠ 0) (p : MPt nPM) (hpm : p ∈ pts) (hT : mTh nsd axi n pts u p ≠ 0) (i j : Nat) (hi : i < 3) (hj : j < 3) :
    HasDerivAt (fun t => mFb nsd axi n pts (along u v t) p (i + 1) (j + 1))
      (∑ k ∈ Finset.range 3, barVel (mL nsd axi n p u v) (divg n nsd (mGb nsd axi n pts u p) v) (i + 1) (k + 1) * mFb nsd axi n pts (along u v 0) p (k + 1) (j + 1)) 0 := by
  have hM : tr 3 (fun i j => if i = j then divg n nsd (mGb nsd axi n pts u p) v / 3 else 0) = divg n nsd (mGb nsd axi n pts u p) v := by
    simp [tr]; ring
  have hB : barRate 3 (mL nsd axi n p u v) (fun i j => if i = j then divg n nsd (mGb nsd axi n pts u p) v / 3 else 0) = barVel (mL nsd axi n p u v) (divg n nsd (mGb nsd axi n pts u p) v) := by
    funext a b
    unfold barRate barVel
    rw [hM]
    rfl
  have hs := scaled_deriv 3 (Or.inr rfl) (fun t => mxF nsd axi n p (along u v t)) (mL nsd axi n p u v) (fun i j => if i = j then divg n nsd (mGb nsd axi n pts u p) v / 3 else 0)
    (fun t => mTh nsd axi n pts (along u v t) p) (by rw [along_zero]; exact hJ p hpm) (by rw [along_zero]; exact hT)
    (fun i j hi hj => path3 nsd axi hd n epsR p (hp p hpm) u v (hJ p hpm) i j hi hj) (by rw [hM, along_zero]; exact Th_deriv nsd axi hd n epsR pts hp hdet u v hJ p hT)
  rw [hB] at hs
  exact hs i j hi hj

theorem stress_deriv (nsd : Nat) (axi : Bool) (hd : MDim nsd axi) (n : Nat) (epsR : ℝ) (pts : List (MPt nPM)) (hp : ∀ p ∈ pts, MPtOk nsd axi n epsR p) (hdet : (modeMat axi pts).det ≠ 0) (sig : MPt nPM → (Nat → Nat → ℝ) → Nat → ℝ)
    (c : MPt nPM → (Nat → Nat → ℝ) → DMat ℝ) (u v : Nat → Nat → ℝ) (hJ : ∀ p ∈ pts, mxJ nsd axi n p u ≠ 0) (p : MPt nPM) (hpm : p ∈ pts) (hT : mTh nsd axi n pts u p ≠ 0) (hmat : Truesdell 3 p.mat (sig p) (c p)) (i j : Nat) (hi : i < 3) (hj : j < 3) :
    HasDerivAt (fun t => symT 3 false (mS nsd axi n pts sig (along u v t) p) (i + 1) (j + 1)) (mRate nsd axi n pts sig c u v p (i + 1) (j + 1)) 0 := by
  have hr := hmat.rate (fun t => mFb nsd axi n pts (along u v t) p) (barVel (mL nsd axi n p u v) (divg n nsd (mGb nsd axi n pts u p) v))
    (by rw [along_zero]; exact mFb_det nsd axi n pts u p (hJ p hpm) hT) (fb_deriv nsd axi hd n epsR pts hp hdet u v hJ p hpm hT) i j hi hj
  rw [along_zero] at hr
  exact hr

/-- Rate of the work of the forces of an integration point. -/
noncomputable def mRateW (nsd : Nat) (axi : Bool) (n : Nat) (pts : List (MPt nPM)) (sig : MPt nPM → (Nat → Nat → ℝ) → Nat → ℝ) (c : MPt nPM → (Nat → Nat → ℝ) → DMat ℝ) (u v x : Nat → Nat → ℝ) (p : MPt nPM) : ℝ :=
  mwt axi p * mTh nsd axi n pts u p * (∑ i ∈ Finset.range 3, ∑ j ∈ Finset.range 3, mL nsd axi n p u x (i + 1) (j + 1)
      * ((divg n nsd (mGb nsd axi n pts u p) v - tr 3 (mL nsd axi n p u v)) * (symT 3 false (mS nsd axi n pts sig u p) (i + 1) (j + 1) - if i = j then mQ nsd axi n pts sig u p else 0)
        + (mRate nsd axi n pts sig c u v p (i + 1) (j + 1) - if i = j then tr 3 (mRate nsd axi n pts sig c u v p) / 3 else 0)
        + (symT 3 false (mS nsd axi n pts sig u p) (i + 1) (j + 1) + if i = j then mP nsd axi n pts sig u p - mQ nsd axi n pts sig u p else 0) * tr 3 (mL nsd axi n p u v)
        - ∑ m ∈ Finset.range 3, (symT 3 false (mS nsd axi n pts sig u p) (i + 1) (m + 1) + if i = m then mP nsd axi n pts sig u p - mQ nsd axi n pts sig u p else 0) * mL nsd axi n p u v (j + 1) (m + 1)))
    + mwt axi p * (mprj axi pts (fun q => tr 3 (mRate nsd axi n pts sig c u v q) / 3) p * (mxJ nsd axi n p u * tr 3 (mL nsd axi n p u x)))

theorem point_deriv (nsd : Nat) (axi : Bool) (hd : MDim nsd axi) (n : Nat) (epsR : ℝ) (pts : List (MPt nPM)) (hp : ∀ p ∈ pts, MPtOk nsd axi n epsR p) (hdet : (modeMat axi pts).det ≠ 0) (sig : MPt nPM → (Nat → Nat → ℝ) → Nat → ℝ)
    (c : MPt nPM → (Nat → Nat → ℝ) → DMat ℝ) (u v x : Nat → Nat → ℝ) (hJ : ∀ p ∈ pts, mxJ nsd axi n p u ≠ 0) (hT : ∀ p ∈ pts, mTh nsd axi n pts u p ≠ 0) (hmat : ∀ p ∈ pts, Truesdell 3 p.mat (sig p) (c p)) (p : MPt nPM) (hpm : p ∈ pts) :
    HasDerivAt (fun t => mWork nsd axi n pts sig (along u v t) p x) (mRateW nsd axi n pts sig c u v x p) 0 := by
  have dJ := J_deriv nsd axi hd n epsR p (hp p hpm) u v (hJ p hpm)
  have dT := Th_deriv nsd axi hd n epsR pts hp hdet u v hJ p (hT p hpm)
  have dS : ∀ q ∈ pts, ∀ i j, i < 3 → j < 3 → HasDerivAt (fun t => symT 3 false (mS nsd axi n pts sig (along u v t) q) (i + 1) (j + 1)) (mRate nsd axi n pts sig c u v q (i + 1) (j + 1)) 0 :=
    fun q hq i j hi hj => stress_deriv nsd axi hd n epsR pts hp hdet sig c u v hJ q hq (hT q hq) (hmat q hq) i j hi hj
  have dQ : ∀ q ∈ pts, HasDerivAt (fun t => mQ nsd axi n pts sig (along u v t) q) (tr 3 (mRate nsd axi n pts sig c u v q) / 3) 0 := by
    intro q hq
    have h := (((dS q hq 0 0 (by omega) (by omega)).add (dS q hq 1 1 (by omega) (by omega))).add (dS q hq 2 2 (by omega) (by omega))).div_const 3
    refine HasDerivAt.congr_deriv (h.congr_of_eventuallyEq (Eventually.of_forall fun t => ?_)) ?_
    · simp [mQ, symT]
    · simp [tr, Finset.sum_range_succ]
  have dPi := mprj_deriv axi pts (fun t q => mQ nsd axi n pts sig (along u v t) q) _ dQ p
  have hne : mxJ nsd axi n p (along u v 0) ≠ 0 := by rw [along_zero]; exact hJ p hpm
  have hne2 : mTh nsd axi n pts (along u v 0) p ≠ 0 := by rw [along_zero]; exact hT p hpm
  have dR := dT.div dJ hne
  have dK : ∀ i j, i < 3 → j < 3 → HasDerivAt (fun t => (fun a b => mTh nsd axi n pts (along u v t) p / mxJ nsd axi n p (along u v t)
        * (symT 3 false (mS nsd axi n pts sig (along u v t) p) a b - if a = b then mQ nsd axi n pts sig (along u v t) p else 0) + if a = b then mprj axi pts (fun q => mQ nsd axi n pts sig (along u v t) q) p else 0) (i + 1) (j + 1))
      ((fun a b => mTh nsd axi n pts u p / mxJ nsd axi n p u * ((divg n nsd (mGb nsd axi n pts u p) v - tr 3 (mL nsd axi n p u v)) * (symT 3 false (mS nsd axi n pts sig u p) a b - if a = b then mQ nsd axi n pts sig u p else 0)
        + (mRate nsd axi n pts sig c u v p a b - if a = b then tr 3 (mRate nsd axi n pts sig c u v p) / 3 else 0))
        + if a = b then mprj axi pts (fun q => tr 3 (mRate nsd axi n pts sig c u v q) / 3) p else 0) (i + 1) (j + 1)) 0 := by
    intro i j hi hj
    beta_reduce
    have hJp := hJ p hpm
    by_cases e : i = j
    · subst e
      simp only [if_true]
      refine HasDerivAt.congr_deriv ((dR.mul ((dS p hpm i i hi hi).sub (dQ p hpm))).add dPi) ?_
      rw [along_zero]
      field_simp
      simp only [Pi.div_apply, Pi.sub_apply, along_zero]
      field_simp
    · simp only [show ¬ i + 1 = j + 1 by omega, if_false, sub_zero, add_zero]
      refine HasDerivAt.congr_deriv (dR.mul (dS p hpm i j hi hj)) ?_
      rw [along_zero]
      simp only [Pi.div_apply, along_zero]
      field_simp
  have hw := (spatial_work 3 (Or.inr rfl) (fun t => mxF nsd axi n p (along u v t)) (mL nsd axi n p u v)
    (fun a b => mTh nsd axi n pts u p / mxJ nsd axi n p u * ((divg n nsd (mGb nsd axi n pts u p) v - tr 3 (mL nsd axi n p u v)) * (symT 3 false (mS nsd axi n pts sig u p) a b - if a = b then mQ nsd axi n pts sig u p else 0) + (mRate nsd axi n pts sig c u v p a b - if a = b then tr 3 (mRate nsd axi n pts sig c u v p) / 3 else 0)) + if a = b then mprj axi pts (fun q => tr 3 (mRate nsd axi n pts sig c u v q) / 3) p else 0)
    (fun _ _ => 0) (mRef nsd axi n p x)
    (fun t a b => mTh nsd axi n pts (along u v t) p / mxJ nsd axi n p (along u v t) * (symT 3 false (mS nsd axi n pts sig (along u v t) p) a b - if a = b then mQ nsd axi n pts sig (along u v t) p else 0) + if a = b then mprj axi pts (fun q => mQ nsd axi n pts sig (along u v t) q) p else 0)
    (fun i j hi hj => path3 nsd axi hd n epsR p (hp p hpm) u v (hJ p hpm) i j hi hj) dK).const_mul (mwt axi p)
  have cof : ∀ w, mxJ nsd axi n p w ≠ 0 → ∀ i j : Fin 3, ∑ k : Fin 3, mRef nsd axi n p x (i + 1) (k + 1) * (lead 3 (mxF nsd axi n p w)).adjugate k j = mxJ nsd axi n p w * mL nsd axi n p w x (i + 1) (j + 1) :=
    fun w hw i j => (cofac (mL nsd axi n p w x) (mxF nsd axi n p w) (mRef nsd axi n p x) (fun a b ha hb => chain nsd axi hd n epsR p (hp p hpm) w x hw a b ha hb) i i.2 j).symm
  refine HasDerivAt.congr_deriv (hw.congr_of_eventuallyEq ?_) ?_
  · filter_upwards [dJ.continuousAt.eventually_ne hne, dT.continuousAt.eventually_ne hne2] with t h1 h2
    simp only [cof _ h1]
    unfold mWork
    rw [mul_assoc]
    congr 1
    rw [← Fin.sum_univ_eq_sum_range (fun i => ∑ j ∈ Finset.range 3, mSg (mS nsd axi n pts sig (along u v t) p) (mP nsd axi n pts sig (along u v t) p) (i + 1) (j + 1) * mL nsd axi n p (along u v t) x (i + 1) (j + 1)) 3, Finset.mul_sum]
    refine Finset.sum_congr rfl fun i _ => ?_
    rw [← Fin.sum_univ_eq_sum_range (fun j => mSg (mS nsd axi n pts sig (along u v t) p) (mP nsd axi n pts sig (along u v t) p) (i + 1) (j + 1) * mL nsd axi n p (along u v t) x (i + 1) (j + 1)) 3, Finset.mul_sum]
    refine Finset.sum_congr rfl fun j _ => ?_
    unfold mSg mP mPr
    change _ * ((symT 3 false _ _ _ + if _ then _ - mQ nsd axi n pts sig (along u v t) p else 0) * _) = _
    generalize mQ nsd axi n pts sig (along u v t) = q
    by_cases e : (i : Nat) + 1 = j + 1
    · simp only [e, if_true]
      field_simp
      ring
    · simp only [e, if_false]
      field_simp
      ring
  · simp only [along_zero, cof _ (hJ p hpm)]
    have hJp := hJ p hpm
    have hTp := hT p hpm
    unfold mRateW forceRate mP mPr
    generalize mprj axi pts (fun q => tr 3 (mRate nsd axi n pts sig c u v q) / 3) p = a
    have e : mprj axi pts (fun q => mQ nsd axi n pts sig u q) p = mprj axi pts (mQ nsd axi n pts sig u) p := rfl
    rw [e]
    generalize mprj axi pts (mQ nsd axi n pts sig u) p = b
    generalize mRate nsd axi n pts sig c u v p = R
    generalize mQ nsd axi n pts sig u p = q
    generalize mxJ nsd axi n p u = J at *
    generalize mTh nsd axi n pts u p = T at *
    generalize symT 3 false (mS nsd axi n pts sig u p) = S
    generalize mL nsd axi n p u x = X
    generalize mL nsd axi n p u v = Y
    generalize divg n nsd (mGb nsd axi n pts u p) v = l
    simp only [Fin.sum_univ_three, Finset.sum_range_succ, Finset.sum_range_zero, zero_add, tr]
    simp
    field_simp
    ring

theorem map_sum_add {α : Type} (l : List α) (f g : α → ℝ) : (l.map fun p => f p + g p).sum = (l.map f).sum + (l.map g).sum := by
  induction l with
  | nil => simp
  | cons a l ih => simp only [List.map_cons, List.sum_cons, ih]; ring

theorem map_sum_congr {α : Type} (l : List α) (f g : α → ℝ) (h : ∀ p ∈ l, f p = g p) : (l.map f).sum = (l.map g).sum := by
  rw [List.map_congr_left h]

/-- The rates of the integration points add up to the stiffness. -/
theorem rate_sum (nsd : Nat) (axi : Bool) (hd : MDim nsd axi) (n : Nat) (pts : List (MPt nPM)) (hdet : (modeMat axi pts).det ≠ 0) (sig : MPt nPM → (Nat → Nat → ℝ) → Nat → ℝ) (c : MPt nPM → (Nat → Nat → ℝ) → DMat ℝ)
    (u v x : Nat → Nat → ℝ) (hT : ∀ p ∈ pts, mTh nsd axi n pts u p ≠ 0) :
    (pts.map fun p => mRateW nsd axi n pts sig c u v x p).sum = (pts.map fun p => mwt axi p * mTh nsd axi n pts u p * mStiff nsd axi n pts sig c u p x v).sum := by
  unfold mRateW
  rw [map_sum_add, mprj_adjoint axi pts hdet, ← map_sum_add]
  refine map_sum_congr _ _ _ fun p hpm => ?_
  rw [← th_div nsd axi hd n pts hdet u p (hT p hpm) x]
  obtain ⟨D, h1, h2⟩ := tangent_point (c p (mFb nsd axi n pts u p)).e (mS nsd axi n pts sig u p) (mQ nsd axi n pts sig u p) (mP nsd axi n pts sig u p) rfl
  have hD : D = mDm (c p (mFb nsd axi n pts u p)).e (mS nsd axi n pts sig u p) (mP nsd axi n pts sig u p) := by
    have h3 := mDm_ok (c p (mFb nsd axi n pts u p)).e (mS nsd axi n pts sig u p) (mP nsd axi n pts sig u p)
    have h4 : addVolumetricTerms (c p (mFb nsd axi n pts u p)).e (mS nsd axi n pts sig u p) ((mS nsd axi n pts sig u p 1 + mS nsd axi n pts sig u p 2 + mS nsd axi n pts sig u p 3) / 3) (mP nsd axi n pts sig u p) = .ok D := h1
    rw [h4] at h3
    exact Res.ok.inj h3
  have key := h2 (mL nsd axi n p u x) (mL nsd axi n p u v) (divg n nsd (mGb nsd axi n pts u p) x) (divg n nsd (mGb nsd axi n pts u p) v)
  rw [hD] at key
  have key2 : _ = mStiff nsd axi n pts sig c u p x v := key
  rw [← key2]
  unfold mRate
  rw [mul_add]
  refine congrArg₂ (· + ·) rfl ?_
  ring

/-- Components from the symmetric tensor. -/
theorem symT_comp (k : Nat) (h1 : 1 ≤ k) (h2 : k ≤ 6) : ∃ i j, i < 3 ∧ j < 3 ∧ ∀ s : Nat → ℝ, symT 3 false s (i + 1) (j + 1) = s k := by
  interval_cases k
  · exact ⟨0, 0, by omega, by omega, fun s => by simp [symT]⟩
  · exact ⟨1, 1, by omega, by omega, fun s => by simp [symT]⟩
  · exact ⟨2, 2, by omega, by omega, fun s => by simp [symT]⟩
  · exact ⟨0, 1, by omega, by omega, fun s => by simp [symT]⟩
  · exact ⟨1, 2, by omega, by omega, fun s => by simp [symT]⟩
  · exact ⟨0, 2, by omega, by omega, fun s => by simp [symT]⟩

theorem ev_list {α : Type} (l : List α) (P : ℝ → α → Prop) (h : ∀ p ∈ l, ∀ᶠ t in 𝓝 (0 : ℝ), P t p) : ∀ᶠ t in 𝓝 (0 : ℝ), ∀ p ∈ l, P t p := by
  induction l with
  | nil => simp
  | cons a l ih =>
    filter_upwards [h a (by simp), ih fun p hp => h p (by simp [hp])] with t h1 h2
    intro p hp
    rcases List.mem_cons.mp hp with rfl | h
    · exact h1
    · exact h2 p h

theorem contr_start (d n : Nat) (step) (u v : Nat → Nat → ℝ) (W : ℝ → (Nat → Nat → ℝ) → ℝ) (Q : ℝ → (Nat → Nat → ℝ) → (Nat → Nat → ℝ) → ℝ) (D : (Nat → Nat → ℝ) → ℝ)
    (h : ∀ᶠ t in 𝓝 (0 : ℝ), Contr d n step (along u v t) (W t) (Q t)) (hd : ∀ x, HasDerivAt (fun t => W t x) (D x) 0) :
    ∃ (A : DMat ℝ) (f : ℝ → DVec ℝ), step u (DMat.zero (d * n) (d * n), DVec.zero (d * n)) = .ok (A, f 0) ∧
      (∀ᶠ t in 𝓝 (0 : ℝ), ∃ A', step (along u v t) (DMat.zero (d * n) (d * n), DVec.zero (d * n)) = .ok (A', f t)) ∧
      (∀ x, HasDerivAt (fun t => (f t).dot (dofVec d x)) (-D x) 0) ∧ ∀ x y, A.bil (dofVec d x) (dofVec d y) = Q 0 x y := by
  classical
  have h0 := h.self_of_nhds
  rw [along_zero] at h0
  let f : ℝ → DVec ℝ := fun t => if ht : Contr d n step (along u v t) (W t) (Q t) then ht.choose (DVec.zero (d * n)) else DVec.zero (d * n)
  have hf : ∀ t, Contr d n step (along u v t) (W t) (Q t) → (∀ x, (f t).dot (dofVec d x) = -W t x) ∧
      ∃ A', step (along u v t) (DMat.zero (d * n) (d * n), DVec.zero (d * n)) = .ok (A', f t) ∧ ∀ x y, A'.bil (dofVec d x) (dofVec d y) = Q t x y := by
    intro t ht
    have e : f t = ht.choose (DVec.zero (d * n)) := dif_pos ht
    obtain ⟨s1, s2⟩ := ht.choose_spec
    obtain ⟨A', e1, -, -, e4⟩ := s2 (DMat.zero (d * n) (d * n)) (DVec.zero (d * n)) rfl rfl rfl
    rw [e]
    refine ⟨fun x => ?_, A', e1, fun x y => ?_⟩
    · rw [(s1 (DVec.zero (d * n)) rfl).2 x, zero_dot, zero_sub]
    · rw [e4, zero_bil, zero_add]
  obtain ⟨-, A, e1, e2⟩ := hf 0 (by rw [along_zero]; exact h0)
  rw [along_zero] at e1
  refine ⟨A, f, e1, ?_, fun x => ?_, e2⟩
  · filter_upwards [h] with t ht
    obtain ⟨-, A', e, -⟩ := hf t ht
    exact ⟨A', e⟩
  · refine (hd x).neg.congr_of_eventuallyEq ?_
    filter_upwards [h] with t ht
    exact (hf t ht).1 x

theorem near_contr (nsd : Nat) (axi : Bool) (hd : MDim nsd axi) (n : Nat) (hn : 0 < n) (hm : 1 ≤ nPM) (tol epsR : ℝ) (hR : axi = true → 0 ≤ epsR ∧ epsR < 1) (pts : List (MPt nPM)) (hp : ∀ p ∈ pts, MPtOk nsd axi n epsR p)
    (h1 : ∀ p ∈ pts, p.phi ⟨0, hm⟩ = 1) (hdet : (modeMat axi pts).det ≠ 0) (eP : DVec ℝ) (he : eP.n = 0 ∨ eP.n = nsd * n) (sig : MPt nPM → (Nat → Nat → ℝ) → Nat → ℝ) (c : MPt nPM → (Nat → Nat → ℝ) → DMat ℝ)
    (hmat : ∀ p ∈ pts, Truesdell 3 p.mat (sig p) (c p)) (u v : Nat → Nat → ℝ) (hJ : ∀ p ∈ pts, mxJ nsd axi n p u ≠ 0) (hT : ∀ p ∈ pts, mTh nsd axi n pts u p ≠ 0)
    (hs : tol = 0 ∨ ∀ p ∈ pts, ∃ i, 1 ≤ i ∧ i ≤ 6 ∧ tol < |mS nsd axi n pts sig u p i|) :
    ∀ᶠ t in 𝓝 (0 : ℝ), Contr nsd n (fun u M => mxElement nsd axi tol epsR ⟨nsd * n, dofVec nsd u⟩ eP pts M) (along u v t) (fun x => (pts.map fun p => mWork nsd axi n pts sig (along u v t) p x).sum)
      (fun x y => (pts.map fun p => mwt axi p * mTh nsd axi n pts (along u v t) p * (mStiff nsd axi n pts sig c (along u v t) p x y
        - mHoop axi (mS nsd axi n pts sig (along u v t) p) (mP nsd axi n pts sig (along u v t) p) (mL nsd axi n p (along u v t) x) (mL nsd axi n p (along u v t) y))).sum) := by
  have g1 : ∀ᶠ t in 𝓝 (0 : ℝ), ∀ p ∈ pts, mxJ nsd axi n p (along u v t) ≠ 0 := ev_list pts _ fun p hpm =>
    (J_deriv nsd axi hd n epsR p (hp p hpm) u v (hJ p hpm)).continuousAt.eventually_ne (by rw [along_zero]; exact hJ p hpm)
  have g2 : ∀ᶠ t in 𝓝 (0 : ℝ), ∀ p ∈ pts, mTh nsd axi n pts (along u v t) p ≠ 0 := ev_list pts _ fun p hpm =>
    (Th_deriv nsd axi hd n epsR pts hp hdet u v hJ p (hT p hpm)).continuousAt.eventually_ne (by rw [along_zero]; exact hT p hpm)
  have g3 : ∀ᶠ t in 𝓝 (0 : ℝ), ∀ p ∈ pts, zeroStrain tol 6 (mS nsd axi n pts sig (along u v t) p) = true → ∀ i, 1 ≤ i → i ≤ 6 → mS nsd axi n pts sig (along u v t) p i = 0 := by
    rcases hs with h | h
    · refine Eventually.of_forall fun t p _ hz i a b => ?_
      rw [zeroStrain_iff] at hz
      have := hz i a b
      rw [h] at this
      exact abs_eq_zero.mp (le_antisymm this (abs_nonneg _))
    · refine ev_list pts _ fun p hpm => ?_
      obtain ⟨k, k1, k2, k3⟩ := h p hpm
      obtain ⟨i, j, hi, hj, e⟩ := symT_comp k k1 k2
      have hc := (stress_deriv nsd axi hd n epsR pts hp hdet sig c u v hJ p hpm (hT p hpm) (hmat p hpm) i j hi hj).continuousAt.abs.tendsto
      simp only [e] at hc
      rw [along_zero] at hc
      filter_upwards [hc.eventually (lt_mem_nhds k3)] with t ht hz
      rw [zeroStrain_iff] at hz
      exact absurd (hz k k1 k2) (not_le.mpr ht)
  filter_upwards [g1, g2, g3] with t a b e
  exact elem_contr nsd axi hd n hn hm tol epsR hR pts hp h1 hdet eP he sig c (fun p hpm => (hmat p hpm).eval) (along u v t) a b e

end Verif.Finite
