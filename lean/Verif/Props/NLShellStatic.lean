/-
Property C142: converged states of shells with large displacements are in equilibrium, do not depend on orientation, and are stationary points of the potential.
-/
import Verif.Props.ThinForces
import Verif.Props.ShellStatic
import Verif.Model.NLShellStatic

set_option linter.unusedSectionVars false
set_option linter.unusedSimpArgs false
set_option linter.unusedVariables false

namespace Verif.NLShellStatic

open Verif.Beam (V3)
open Verif.Shell (Geo Basis deformed rot Rotation energy push evalKandS)
open Verif.Bar (len cross)
open Verif.LinIso (Admissible nuAt)
open Verif.ShellStatic (nodeOf dirOf nodeOf_eq dirOf_eq)
open Verif.Struct (asmV asmK asmV_balance InBalance dotN loc)

/-! ### Specification -/

/-- The basis functions of a point belong to the element, their sum is constant, and the material is admissible. -/
structure Sound (e : NElm) (p : NPt) : Prop where
  nen : p.f.nen = e.nen
  axi : p.mat.axiSymmetry = false
  adm : Admissible p.mat p.X
  one : ∀ c, ∑ k ∈ Finset.range p.f.nen, p.f.dN k c = 0
  two : ∀ j, ∑ k ∈ Finset.range p.f.nen, p.f.d2N k j = 0

/-- The nodes of the elements are nodes of the model, and the integration points are sound. -/
def Good (n : Nat) (es : List NElm) : Prop := ∀ e ∈ es, (∀ s, s < e.nen → 1 ≤ e.node (s + 1) ∧ e.node (s + 1) ≤ n) ∧ ∀ p ∈ e.pts, Sound e p

/-- The deformed shell is a surface in each integration point. -/
def Regular (es : List NElm) (Y : Nat → Nat → ℝ) : Prop :=
  ∀ e ∈ es, ∀ p ∈ e.pts, 0 < len (cross (deformed p.f (e.positions Y)).g1 (deformed p.f (e.positions Y)).g2)

/-- The nodes of an element are different. -/
def Distinct (es : List NElm) : Prop := ∀ e ∈ es, ∀ s t, s < e.nen → t < e.nen → e.node (s + 1) = e.node (t + 1) → s = t

/-- The strain energy of the shell, as in C49. -/
noncomputable def energyAll (es : List NElm) (Y : Nat → Nat → ℝ) : ℝ :=
  (es.map fun e => (e.pts.map fun p => energy (p.mat.young p.fe p.X) (nuAt p.mat p.X) p.mat.planeStress p.T p.dJW p.G (deformed p.f (e.positions Y))).sum).sum

/-- The positions `Y` with component `j` of node `b` changed by `s`. -/
def move (Y : Nat → Nat → ℝ) (b j : Nat) (s : ℝ) : Nat → Nat → ℝ := fun a i => Y a i + if a = b ∧ i = j then s else 0

/-! ### Assembly -/

/-- Result of an integration point. -/
noncomputable def out (p : NPt) (x : Nat → V3 ℝ) : (Nat → Fin 3 → Nat → Fin 3 → ℝ) × (Nat → Fin 3 → ℝ) :=
  match evalKandS p.mat p.fe p.X p.T p.dJW p.f p.G (deformed p.f x) with
  | .ok r => r
  | _ => (fun _ _ _ _ => 0, fun _ _ => 0)

theorem out_eq (p : NPt) (x : Nat → V3 ℝ) (r) (h : evalKandS p.mat p.fe p.X p.T p.dJW p.f p.G (deformed p.f x) = .ok r) : out p x = r := by
  unfold out; rw [h]

theorem out_ok (e : NElm) (p : NPt) (h : Sound e p) (x : Nat → V3 ℝ) : evalKandS p.mat p.fe p.X p.T p.dJW p.f p.G (deformed p.f x) = .ok (out p x) := by
  have := Shell.evalKandS_eq p.mat p.fe p.X p.T p.dJW p.f p.G (deformed p.f x) h.axi h.adm
  rw [out_eq p x _ this]; exact this

noncomputable def force (e : NElm) (x : Nat → V3 ℝ) (k : Nat) (d : Fin 3) : ℝ := (e.pts.map fun p => (out p x).2 k d).sum
noncomputable def stiff (e : NElm) (x : Nat → V3 ℝ) (k : Nat) (d : Fin 3) (l : Nat) (c : Fin 3) : ℝ := (e.pts.map fun p => (out p x).1 k d l c).sum

noncomputable def vecE (e : NElm) (Y : Nat → Nat → ℝ) : DVec ℝ := ⟨3 * e.nen, fun r => force e (e.positions Y) (nodeOf r) (dirOf r)⟩
noncomputable def matE (e : NElm) (Y : Nat → Nat → ℝ) : DMat ℝ := ⟨3 * e.nen, 3 * e.nen, fun r c => stiff e (e.positions Y) (nodeOf r) (dirOf r) (nodeOf c) (dirOf c)⟩

theorem evalAll_ok (e : NElm) (x : Nat → V3 ℝ) (pts : List NPt) (h : ∀ p ∈ pts, Sound e p) (E : DMat ℝ × DVec ℝ) :
    evalAll x pts E = .ok (⟨E.1.nr, E.1.nc, fun r c => E.1.e r c + (pts.map fun p => (out p x).1 (nodeOf r) (dirOf r) (nodeOf c) (dirOf c)).sum⟩,
      ⟨E.2.n, fun r => E.2.e r + (pts.map fun p => (out p x).2 (nodeOf r) (dirOf r)).sum⟩) := by
  induction pts generalizing E with
  | nil => simp [evalAll]
  | cons p l ih =>
    have h1 : evalInt x E p = .ok (⟨E.1.nr, E.1.nc, fun r c => E.1.e r c + (out p x).1 (nodeOf r) (dirOf r) (nodeOf c) (dirOf c)⟩, ⟨E.2.n, fun r => E.2.e r + (out p x).2 (nodeOf r) (dirOf r)⟩) := by
      unfold evalInt; rw [out_ok e p (h p (by simp)) x]
    rw [evalAll, h1]
    simp only [Res.bind]
    rw [ih fun p hp => h p (by simp [hp])]
    simp only [List.map_cons, List.sum_cons, add_assoc]

theorem assemble_ok (n : Nat) (es : List NElm) (h : Good n es) (Y : Nat → Nat → ℝ) : assemble Y es = .ok (es.map fun e => (e, matE e Y, vecE e Y)) := by
  induction es with
  | nil => rfl
  | cons e l ih =>
    rw [assemble, evalAll_ok e _ _ (h e (by simp)).2, ih fun e he => h e (by simp [he])]
    simp [Res.bind, matE, vecE, force, stiff, DMat.zero, DVec.zero]

/-- The assembled forces. -/
theorem residual_eq (F : Nat → Nat → ℝ) (es : List NElm) (Y : Nat → Nat → ℝ) (a i : Nat) (hi : i < 3) :
    residual F (es.map fun e => (e, matE e Y, vecE e Y)) a (i + 1) =
      F a (i + 1) + (es.map fun e => ∑ s ∈ Finset.range e.nen, if e.node (s + 1) = a then force e (e.positions Y) s ⟨i, hi⟩ else 0).sum := by
  unfold residual asmV
  rw [List.map_map, List.map_map]
  congr 2
  refine List.map_congr_left fun e _ => ?_
  simp only [Function.comp, NElm.conn, vecE]
  refine Finset.sum_congr rfl fun s _ => ?_
  rw [← add_assoc, nodeOf_eq s i hi, dirOf_eq s i hi]
  by_cases hc : e.node (s + 1) = a
  · exact (if_pos hc).trans (if_pos hc).symm
  · exact (if_neg hc).trans (if_neg hc).symm

theorem tangent_eq (es : List NElm) (Y : Nat → Nat → ℝ) (a i b j : Nat) (hi : i < 3) (hj : j < 3) :
    tangent (es.map fun e => (e, matE e Y, vecE e Y)) a (i + 1) b (j + 1) =
      (es.map fun e => ∑ s ∈ Finset.range e.nen, ∑ t ∈ Finset.range e.nen, if e.node (s + 1) = a ∧ e.node (t + 1) = b then stiff e (e.positions Y) s ⟨i, hi⟩ t ⟨j, hj⟩ else 0).sum := by
  unfold tangent asmK
  rw [List.map_map, List.map_map]
  refine congrArg List.sum (List.map_congr_left fun e _ => ?_)
  simp only [Function.comp, NElm.conn, matE]
  refine Finset.sum_congr rfl fun s _ => Finset.sum_congr rfl fun t _ => ?_
  rw [← add_assoc, ← add_assoc, nodeOf_eq s i hi, dirOf_eq s i hi, nodeOf_eq t j hj, dirOf_eq t j hj]
  by_cases hc : e.node (s + 1) = a ∧ e.node (t + 1) = b
  · exact (if_pos hc).trans (if_pos hc).symm
  · exact (if_neg hc).trans (if_neg hc).symm

theorem list_zero {α : Type} (l : List α) (g : α → ℝ) (h : ∀ p ∈ l, g p = 0) : (l.map g).sum = 0 := by
  induction l with
  | nil => rfl
  | cons p l ih => simp [h p (by simp), ih fun p hp => h p (by simp [hp])]

theorem sum_list {α : Type} (n : Nat) (l : List α) (g : Nat → α → ℝ) : ∑ k ∈ Finset.range n, (l.map (g k)).sum = (l.map fun p => ∑ k ∈ Finset.range n, g k p).sum := by
  induction l with
  | nil => simp
  | cons p l ih => simp [Finset.sum_add_distrib, ih]

theorem mul_list {α : Type} (c : ℝ) (l : List α) (g : α → ℝ) : c * (l.map g).sum = (l.map fun p => c * g p).sum := by
  induction l with
  | nil => simp
  | cons p l ih => simp [mul_add, ih]

theorem sub_list {α : Type} (l : List α) (g h : α → ℝ) : (l.map g).sum - (l.map h).sum = (l.map fun p => g p - h p).sum := by
  induction l with
  | nil => simp
  | cons p l ih => simp [← ih]; ring

theorem add_list {α : Type} (l : List α) (g h : α → ℝ) : (l.map g).sum + (l.map h).sum = (l.map fun p => g p + h p).sum := by
  induction l with
  | nil => simp
  | cons p l ih => simp [← ih]; ring

/-! ### Equilibrium -/

theorem point_balance (e : NElm) (p : NPt) (h : Sound e p) (x : Nat → V3 ℝ) (i j : Fin 3) :
    (∑ k ∈ Finset.range e.nen, (out p x).2 k i) = 0 ∧ (∑ k ∈ Finset.range e.nen, (x k i * (out p x).2 k j - x k j * (out p x).2 k i)) = 0 := by
  obtain ⟨K, S, h1, h2⟩ := Shell.C129_shell_balance p.mat p.fe p.X p.T p.dJW p.f p.G x h.axi h.adm h.one h.two
  rw [out_eq p x _ h1, ← h.nen]
  refine ⟨(h2 i).1, ?_⟩
  have a0 := (h2 0).2
  have a1 := (h2 1).2
  have a2 : ∑ k ∈ Finset.range p.f.nen, (x k 0 * S k 1 - x k 1 * S k 0) = 0 := (h2 2).2
  simp only [Matrix.cons_val_zero, Matrix.cons_val_one, Matrix.cons_val_two, Matrix.cons_val, Finset.sum_sub_distrib] at a0 a1 a2
  simp only [Finset.sum_sub_distrib]
  fin_cases i <;> fin_cases j <;> simp only [Fin.zero_eta, Fin.mk_one, Fin.reduceFinMk, Fin.isValue] <;> linarith

theorem vecE_balanced (e : NElm) (h : ∀ p ∈ e.pts, Sound e p) (Y : Nat → Nat → ℝ) : Finite.Balanced 3 e.nen (loc e.conn Y) (vecE e Y) := by
  have hv : ∀ s i (hi : i < 3), (vecE e Y).e (3 * s + (i + 1)) = force e (e.positions Y) s ⟨i, hi⟩ := fun s i hi => by
    simp only [vecE]; rw [← add_assoc, nodeOf_eq s i hi, dirOf_eq s i hi]
  refine ⟨fun i i1 i2 => ?_, fun i j i1 i2 j1 j2 => ?_⟩
  · obtain ⟨i, rfl⟩ : ∃ k, i = k + 1 := ⟨i - 1, by omega⟩
    simp only [hv _ i (by omega), force]
    rw [sum_list e.nen e.pts fun k p => (out p (e.positions Y)).2 k ⟨i, by omega⟩]
    exact list_zero _ _ fun p hp => (point_balance e p (h p hp) _ _ 0).1
  · obtain ⟨i, rfl⟩ : ∃ k, i = k + 1 := ⟨i - 1, by omega⟩
    obtain ⟨j, rfl⟩ : ∃ k, j = k + 1 := ⟨j - 1, by omega⟩
    simp only [hv _ i (by omega), hv _ j (by omega), force, mul_list, sub_list]
    rw [sum_list e.nen e.pts fun k p => loc e.conn Y (k + 1) (i + 1) * (out p (e.positions Y)).2 k ⟨j, by omega⟩ - loc e.conn Y (k + 1) (j + 1) * (out p (e.positions Y)).2 k ⟨i, by omega⟩]
    exact list_zero _ _ fun p hp => (point_balance e p (h p hp) (e.positions Y) ⟨i, by omega⟩ ⟨j, by omega⟩).2

/-- C142 (equilibrium): in a converged state the reactions, minus the residual, vanish where nothing is held, and together with the loads they have no resultant, and no moment about any point, at the deformed positions. -/
theorem C142_balance (n : Nat) (es : List NElm) (h : Good n es) (F g : Nat → Nat → ℝ) (fixed : Nat → Nat → Prop) (Y : Nat → Nat → ℝ) (hY : Converged n es F g fixed Y) :
    ∃ r, assemble Y es = .ok r ∧ (∀ a i, a < n → i < 3 → ¬ fixed (a + 1) (i + 1) → -residual F r (a + 1) (i + 1) = 0) ∧
      (∀ i, 1 ≤ i → i ≤ 3 → ∑ a ∈ Finset.range n, (-residual F r (a + 1) i + F (a + 1) i) = 0) ∧
      ∀ (c : Nat → ℝ) i j, 1 ≤ i → i ≤ 3 → 1 ≤ j → j ≤ 3 → ∑ a ∈ Finset.range n, ((Y (a + 1) i - c i) * (-residual F r (a + 1) j + F (a + 1) j) -
        (Y (a + 1) j - c j) * (-residual F r (a + 1) i + F (a + 1) i)) = 0 := by
  obtain ⟨r, hr, h1, -⟩ := hY
  refine ⟨r, hr, fun a i ha hi hf => by rw [h1 a i ha hi hf, neg_zero], ?_⟩
  rw [assemble_ok n es h Y] at hr
  cases hr
  have hb := asmV_balance 3 n Y ((es.map fun e => (e, matE e Y, vecE e Y)).map fun e => (e.1.conn, e.2.2)) (fun q hq => by
    simp only [List.map_map, List.mem_map] at hq
    obtain ⟨e, he, rfl⟩ := hq
    exact (h e he).1) (fun q hq => by
    simp only [List.map_map, List.mem_map] at hq
    obtain ⟨e, he, rfl⟩ := hq
    exact vecE_balanced e (h e he).2 Y)
  have e0 : ∀ a i, -residual F (es.map fun e => (e, matE e Y, vecE e Y)) a i + F a i = -asmV 3 ((es.map fun e => (e, matE e Y, vecE e Y)).map fun e => (e.1.conn, e.2.2)) a i := by
    intro a i; unfold residual; ring
  simp only [e0]
  refine ⟨fun i i1 i2 => by rw [Finset.sum_neg_distrib, hb.1 i i1 i2, neg_zero], fun c i j i1 i2 j1 j2 => ?_⟩
  rw [← neg_zero, ← hb.2 c i j i1 i2 j1 j2, ← Finset.sum_neg_distrib]
  exact Finset.sum_congr rfl fun a _ => by ring

/-! ### Orientation -/

theorem deformed_congr (f : Basis) (x y : Nat → V3 ℝ) (h : ∀ k, k < f.nen → x k = y k) : deformed f x = deformed f y := by
  have : ∀ (w : Nat → ℝ) i, ∑ k ∈ Finset.range f.nen, x k i * w k = ∑ k ∈ Finset.range f.nen, y k i * w k := fun w i =>
    Finset.sum_congr rfl fun k hk => by rw [h k (Finset.mem_range.mp hk)]
  simp only [deformed, this]

theorem out_congr (p : NPt) (x y : Nat → V3 ℝ) (h : ∀ k, k < p.f.nen → x k = y k) : out p x = out p y := by
  unfold out; rw [deformed_congr p.f x y h]

/-- The rotation `r` of a vector of nodal values. -/
def turned (r : Fin 3 → V3 ℝ) (v : Nat → ℝ) (i : Fin 3) : ℝ := ∑ a : Fin 3, r a i * v (a.val + 1)

/-- C142 (orientation): when a shell in any state is turned and moved as a rigid body and the loads are turned alike, the residual is turned; so a state is converged with held nodes exactly if the turned state is. -/
theorem C142_turn (n : Nat) (es : List NElm) (h : Good n es) (Y Y' F F' : Nat → Nat → ℝ) (r : Fin 3 → V3 ℝ) (c : V3 ℝ) (hr : Rotation r)
    (hY : ∀ a, a < n → ∀ i : Fin 3, Y' (a + 1) (i.val + 1) = c i + turned r (Y (a + 1)) i) (hF : ∀ a, a < n → ∀ i : Fin 3, F' (a + 1) (i.val + 1) = turned r (F (a + 1)) i) :
    (∃ s s', assemble Y es = .ok s ∧ assemble Y' es = .ok s' ∧ ∀ a, a < n → ∀ i : Fin 3, residual F' s' (a + 1) (i.val + 1) = turned r (residual F s (a + 1)) i) ∧
    ∀ held : Nat → Prop, Converged n es F Y (fun a _ => held a) Y → Converged n es F' Y' (fun a _ => held a) Y' := by
  have key : ∀ a, a < n → ∀ i : Fin 3, residual F' (es.map fun e => (e, matE e Y', vecE e Y')) (a + 1) (i.val + 1) = turned r (residual F (es.map fun e => (e, matE e Y, vecE e Y)) (a + 1)) i := by
    intro a ha i
    rw [residual_eq F' es Y' (a + 1) i i.isLt, hF a ha i]
    have e0 : turned r (residual F (es.map fun e => (e, matE e Y, vecE e Y)) (a + 1)) i = turned r (F (a + 1)) i +
        ∑ b : Fin 3, r b i * (es.map fun e => ∑ s ∈ Finset.range e.nen, if e.node (s + 1) = a + 1 then force e (e.positions Y) s b else 0).sum := by
      unfold turned
      rw [← Finset.sum_add_distrib]
      refine Finset.sum_congr rfl fun b _ => ?_
      rw [residual_eq F es Y (a + 1) b b.isLt, mul_add]
    rw [e0]
    congr 1
    have hl : ∀ l : List NElm, (∀ e ∈ l, e ∈ es) → (l.map fun e => ∑ s ∈ Finset.range e.nen, if e.node (s + 1) = a + 1 then force e (e.positions Y') s i else 0).sum =
        ∑ b : Fin 3, r b i * (l.map fun e => ∑ s ∈ Finset.range e.nen, if e.node (s + 1) = a + 1 then force e (e.positions Y) s b else 0).sum := by
      intro l
      induction l with
      | nil => simp
      | cons e l ih =>
        intro hl
        simp only [List.map_cons, List.sum_cons, mul_add, Finset.sum_add_distrib]
        rw [ih fun e he => hl e (by simp [he])]
        congr 1
        simp only [Finset.mul_sum]
        rw [Finset.sum_comm]
        refine Finset.sum_congr rfl fun s hs => ?_
        by_cases hc : e.node (s + 1) = a + 1
        · simp only [hc, if_true, force]
          have hp : ∀ q : List NPt, (∀ p ∈ q, p ∈ e.pts) → (q.map fun p => (out p (e.positions Y')).2 s i).sum = ∑ b : Fin 3, r b i * (q.map fun p => (out p (e.positions Y)).2 s b).sum := by
            intro q
            induction q with
            | nil => simp
            | cons p q ih =>
              intro hq
              simp only [List.map_cons, List.sum_cons, mul_add, Finset.sum_add_distrib]
              rw [ih fun p hp => hq p (by simp [hp])]
              congr 1
              have hs' := (h e (hl e (by simp))).2 p (hq p (by simp))
              obtain ⟨K, S, K', S', e1, e2, e3, -⟩ := Shell.C129_shell_turn p.mat p.fe p.X p.T p.dJW p.f p.G (e.positions Y) r c hs'.axi hs'.adm hr hs'.one hs'.two
              rw [out_eq p _ _ e1, ← e3, out_congr p (e.positions Y') (fun k i => c i + rot r (e.positions Y k) i), out_eq p _ _ e2]
              intro k hk
              rw [hs'.nen] at hk
              obtain ⟨n1, n2⟩ := (h e (hl e (by simp))).1 k hk
              funext i
              have := hY (e.node (k + 1) - 1) (by omega) i
              rw [Nat.sub_add_cancel n1] at this
              simp only [NElm.positions, this, turned, rot, Fin.sum_univ_three]
          exact hp e.pts fun _ hp => hp
        · simp [hc]
    exact hl es fun _ he => he
  refine ⟨⟨_, _, assemble_ok n es h Y, assemble_ok n es h Y', key⟩, fun held hc => ?_⟩
  obtain ⟨s, h1, h2, -⟩ := hc
  rw [assemble_ok n es h Y] at h1
  cases h1
  refine ⟨_, assemble_ok n es h Y', fun a i ha hi hf => ?_, fun _ _ _ _ _ => rfl⟩
  have := key a ha ⟨i, hi⟩
  rw [this]
  exact Finset.sum_eq_zero fun b _ => by rw [h2 a b ha b.isLt hf, mul_zero]

/-- C142 (rigid motions): a shell that is turned and moved from its initial shape without deformation, however far, needs no loads and no support forces. -/
theorem C142_rigid (n : Nat) (es : List NElm) (h : Good n es) (X Y : Nat → Nat → ℝ) (hX : ∀ e ∈ es, ∀ p ∈ e.pts, p.G = deformed p.f (e.positions X)) (r : Fin 3 → V3 ℝ) (c : V3 ℝ) (hr : Rotation r)
    (hY : ∀ a, a < n → ∀ i : Fin 3, Y (a + 1) (i.val + 1) = c i + turned r (X (a + 1)) i) :
    (∃ s, assemble Y es = .ok s ∧ ∀ F a i, i < 3 → residual F s a (i + 1) = F a (i + 1)) ∧ ∀ fixed, Converged n es (fun _ _ => 0) Y fixed Y := by
  have key : ∀ F a i, i < 3 → residual F (es.map fun e => (e, matE e Y, vecE e Y)) a (i + 1) = F a (i + 1) := by
    intro F a i hi
    rw [residual_eq F es Y a i hi, list_zero, add_zero]
    intro e he
    refine Finset.sum_eq_zero fun s hs => ?_
    rw [force, list_zero, ite_self]
    intro p hp
    have hs' := (h e he).2 p hp
    obtain ⟨K, S, e1, e2, -⟩ := Shell.C49_rigid p.mat p.fe p.X p.T p.dJW p.f (e.positions X) r c hs'.axi hs'.adm hr hs'.one hs'.two
    rw [← hX e he p hp] at e1
    rw [out_congr p (e.positions Y) (fun k i => c i + rot r (e.positions X k) i), out_eq p _ _ e1]
    · exact e2 s _
    intro k hk
    rw [hs'.nen] at hk
    obtain ⟨n1, n2⟩ := (h e he).1 k hk
    funext i
    have := hY (e.node (k + 1) - 1) (by omega) i
    rw [Nat.sub_add_cancel n1] at this
    simp only [NElm.positions, this, turned, rot, Fin.sum_univ_three]
  exact ⟨⟨_, assemble_ok n es h Y, key⟩, fun fixed => ⟨_, assemble_ok n es h Y, fun a i _ hi _ => key _ _ i hi, fun _ _ _ _ _ => rfl⟩⟩

/-! ### Derivatives -/

/-- Moving a node of the model moves at most one node of an element. -/
theorem positions_move (e : NElm) (hd : ∀ s t, s < e.nen → t < e.nen → e.node (s + 1) = e.node (t + 1) → s = t) (Y : Nat → Nat → ℝ) (b j : Nat) (hj : j < 3) (s : ℝ) :
    (∀ k, k < e.nen → e.node (k + 1) = b → ∀ l, l < e.nen → e.positions (move Y b (j + 1) s) l = push (e.positions Y) k ⟨j, hj⟩ s l) ∧
    ((∀ k, k < e.nen → e.node (k + 1) ≠ b) → ∀ l, l < e.nen → e.positions (move Y b (j + 1) s) l = e.positions Y l) := by
  refine ⟨fun k hk hb l hl => ?_, fun hb l hl => ?_⟩
  · funext i
    simp only [NElm.positions, move, push]
    congr 1
    have h1 : e.node (l + 1) = b ↔ l = k := ⟨fun h => hd l k hl hk (h.trans hb.symm), fun h => by rw [h, hb]⟩
    have h2 : i.val + 1 = j + 1 ↔ i = ⟨j, hj⟩ := by rw [Fin.ext_iff]; simp
    simp only [h1, h2]
  · funext i
    simp [NElm.positions, move, hb l hl]

theorem deriv_sum {α : Type} (l : List α) (g : α → ℝ → ℝ) (g' : α → ℝ) (h : ∀ p ∈ l, HasDerivAt (g p) (g' p) 0) : HasDerivAt (fun s => (l.map fun p => g p s).sum) (l.map g').sum 0 := by
  induction l with
  | nil => exact hasDerivAt_const (0 : ℝ) (0 : ℝ)
  | cons p l ih =>
    simp only [List.map_cons, List.sum_cons]
    exact (h p (by simp)).fun_add (ih fun p hp => h p (by simp [hp]))

theorem one_term (m k : Nat) (hk : k < m) (P : Nat → Prop) [DecidablePred P] (hP : ∀ t, t < m → (P t ↔ t = k)) (g : Nat → ℝ) : (∑ t ∈ Finset.range m, if P t then g t else 0) = g k := by
  rw [Finset.sum_eq_single k]
  · rw [if_pos ((hP k hk).mpr rfl)]
  · intro t ht hne
    rw [if_neg fun h => hne ((hP t (Finset.mem_range.mp ht)).mp h)]
  · intro h; exact absurd (Finset.mem_range.mpr hk) h

theorem force_deriv (e : NElm) (h : ∀ p ∈ e.pts, Sound e p) (hd : ∀ s t, s < e.nen → t < e.nen → e.node (s + 1) = e.node (t + 1) → s = t) (Y : Nat → Nat → ℝ)
    (hT : ∀ p ∈ e.pts, ∀ x, 0 < len (cross (deformed p.f x).g1 (deformed p.f x).g2) → ∀ k d l c, k < e.nen → l < e.nen →
      (out p x).1 k d l c = (out p x).1 l c k d ∧ HasDerivAt (fun s => -(out p (push x l c s)).2 k d) ((out p x).1 k d l c) 0)
    (hY : ∀ p ∈ e.pts, 0 < len (cross (deformed p.f (e.positions Y)).g1 (deformed p.f (e.positions Y)).g2)) (a i b j : Nat) (hi : i < 3) (hj : j < 3) (k : Nat) (hk : k < e.nen) :
    HasDerivAt (fun s => if e.node (k + 1) = a then force e (e.positions (move Y b (j + 1) s)) k ⟨i, hi⟩ else 0)
      (-∑ t ∈ Finset.range e.nen, if e.node (k + 1) = a ∧ e.node (t + 1) = b then stiff e (e.positions Y) k ⟨i, hi⟩ t ⟨j, hj⟩ else 0) 0 := by
  by_cases ha : e.node (k + 1) = a
  · simp only [ha, if_true, true_and]
    by_cases hb : ∃ l, l < e.nen ∧ e.node (l + 1) = b
    · obtain ⟨l, hl, hlb⟩ := hb
      rw [one_term e.nen l hl (fun t => e.node (t + 1) = b) (fun t ht => ⟨fun h => hd t l ht hl (h.trans hlb.symm), fun h => by rw [h, hlb]⟩)
        (fun t => stiff e (e.positions Y) k ⟨i, hi⟩ t ⟨j, hj⟩)]
      have e3 : (fun s => force e (e.positions (move Y b (j + 1) s)) k ⟨i, hi⟩) = fun s => (e.pts.map fun p => (out p (push (e.positions Y) l ⟨j, hj⟩ s)).2 k ⟨i, hi⟩).sum := by
        funext s
        unfold force
        refine congrArg List.sum (List.map_congr_left fun p hp => ?_)
        rw [out_congr p _ (push (e.positions Y) l ⟨j, hj⟩ s)]
        intro t ht
        rw [(h p hp).nen] at ht
        exact (positions_move e hd Y b j hj s).1 l hl hlb t ht
      rw [e3, stiff, neg_eq_neg_one_mul, mul_list]
      refine deriv_sum e.pts (fun p s => (out p (push (e.positions Y) l ⟨j, hj⟩ s)).2 k ⟨i, hi⟩) (fun p => -1 * (out p (e.positions Y)).1 k ⟨i, hi⟩ l ⟨j, hj⟩) fun p hp => ?_
      have := (hT p hp _ (hY p hp) k ⟨i, hi⟩ l ⟨j, hj⟩ hk hl).2.neg
      simp only [Pi.neg_def, neg_neg] at this
      rw [neg_one_mul]
      exact this
    · push Not at hb
      rw [Finset.sum_eq_zero fun t ht => if_neg (hb t (Finset.mem_range.mp ht)), neg_zero]
      have e3 : (fun s => force e (e.positions (move Y b (j + 1) s)) k ⟨i, hi⟩) = fun s => force e (e.positions Y) k ⟨i, hi⟩ := by
        funext s
        unfold force
        refine congrArg List.sum (List.map_congr_left fun p hp => ?_)
        rw [out_congr p _ (e.positions Y)]
        intro t ht
        rw [(h p hp).nen] at ht
        exact (positions_move e hd Y b j hj s).2 hb t ht
      rw [e3]
      exact hasDerivAt_const _ _
  · simp only [ha, if_false, false_and, Finset.sum_const_zero, neg_zero]
    exact hasDerivAt_const _ _

/-- C142 (tangent): the assembled tangent matrix is symmetric, and is minus the derivative of the residual with respect to each nodal displacement. -/
theorem C142_tangent (n : Nat) (es : List NElm) (h : Good n es) (hd : Distinct es) (F : Nat → Nat → ℝ) :
    ∃ r : (Nat → Nat → ℝ) → List (NElm × DMat ℝ × DVec ℝ), (∀ Y, assemble Y es = .ok (r Y)) ∧ ∀ Y, Regular es Y → ∀ a i b j, i < 3 → j < 3 →
      tangent (r Y) a (i + 1) b (j + 1) = tangent (r Y) b (j + 1) a (i + 1) ∧
      HasDerivAt (fun s => residual F (r (move Y b (j + 1) s)) a (i + 1)) (-tangent (r Y) a (i + 1) b (j + 1)) 0 := by
  have hT : ∀ e ∈ es, ∀ p ∈ e.pts, ∀ x, 0 < len (cross (deformed p.f x).g1 (deformed p.f x).g2) → ∀ k d l c, k < e.nen → l < e.nen →
      (out p x).1 k d l c = (out p x).1 l c k d ∧ HasDerivAt (fun s => -(out p (push x l c s)).2 k d) ((out p x).1 k d l c) 0 := by
    intro e he p hp x hx k d l c hk hl
    have hs := (h e he).2 p hp
    obtain ⟨G, h1, h2⟩ := Shell.C49_tangent p.mat p.fe p.X p.T p.dJW p.f p.G hs.axi hs.adm
    have ho : ∀ x, out p x = G x := fun x => out_eq p x _ (h1 x)
    simp only [ho]
    exact h2 x hx k d l c (by rw [hs.nen]; exact hk) (by rw [hs.nen]; exact hl)
  refine ⟨fun Y => es.map fun e => (e, matE e Y, vecE e Y), fun Y => assemble_ok n es h Y, fun Y hY a i b j hi hj => ⟨?_, ?_⟩⟩
  · rw [tangent_eq es Y a i b j hi hj, tangent_eq es Y b j a i hj hi]
    refine congrArg List.sum (List.map_congr_left fun e he => ?_)
    rw [Finset.sum_comm]
    refine Finset.sum_congr rfl fun s hs => Finset.sum_congr rfl fun t ht => ?_
    have : stiff e (e.positions Y) t ⟨i, hi⟩ s ⟨j, hj⟩ = stiff e (e.positions Y) s ⟨j, hj⟩ t ⟨i, hi⟩ := by
      unfold stiff
      exact congrArg List.sum (List.map_congr_left fun p hp => (hT e he p hp _ (hY e he p hp) _ _ _ _ (Finset.mem_range.mp ht) (Finset.mem_range.mp hs)).1)
    rw [this]
    simp only [and_comm]
  · have e1 : (fun s => residual F (es.map fun e => (e, matE e (move Y b (j + 1) s), vecE e (move Y b (j + 1) s))) a (i + 1)) = fun s =>
        F a (i + 1) + (es.map fun e => ∑ k ∈ Finset.range e.nen, if e.node (k + 1) = a then force e (e.positions (move Y b (j + 1) s)) k ⟨i, hi⟩ else 0).sum := by
      funext s; rw [residual_eq F es _ a i hi]
    rw [e1, tangent_eq es Y a i b j hi hj]
    have e2 : -(es.map fun e => ∑ s ∈ Finset.range e.nen, ∑ t ∈ Finset.range e.nen, if e.node (s + 1) = a ∧ e.node (t + 1) = b then stiff e (e.positions Y) s ⟨i, hi⟩ t ⟨j, hj⟩ else 0).sum =
        (es.map fun e => ∑ s ∈ Finset.range e.nen, -∑ t ∈ Finset.range e.nen, if e.node (s + 1) = a ∧ e.node (t + 1) = b then stiff e (e.positions Y) s ⟨i, hi⟩ t ⟨j, hj⟩ else 0).sum := by
      rw [neg_eq_neg_one_mul, mul_list]
      simp only [Finset.sum_neg_distrib, neg_one_mul]
    rw [e2]
    exact HasDerivAt.const_add _ (deriv_sum es (fun e s => ∑ k ∈ Finset.range e.nen, if e.node (k + 1) = a then force e (e.positions (move Y b (j + 1) s)) k ⟨i, hi⟩ else 0) _ fun e he =>
      HasDerivAt.fun_sum fun k hk => force_deriv e (h e he).2 (hd e he) Y (hT e he) (hY e he) a i b j hi hj k (Finset.mem_range.mp hk))

/-- The strain energy of an element. -/
noncomputable def energyElm (e : NElm) (x : Nat → V3 ℝ) : ℝ :=
  (e.pts.map fun p => energy (p.mat.young p.fe p.X) (nuAt p.mat p.X) p.mat.planeStress p.T p.dJW p.G (deformed p.f x)).sum

theorem energyElm_congr (e : NElm) (x y : Nat → V3 ℝ) (h : ∀ p ∈ e.pts, deformed p.f x = deformed p.f y) : energyElm e x = energyElm e y := by
  unfold energyElm
  exact congrArg List.sum (List.map_congr_left fun p hp => by rw [h p hp])

theorem energy_point (e : NElm) (p : NPt) (hs : Sound e p) (x : Nat → V3 ℝ) (hx : 0 < len (cross (deformed p.f x).g1 (deformed p.f x).g2)) (l : Nat) (hl : l < e.nen) (j : Fin 3) :
    HasDerivAt (fun s => energy (p.mat.young p.fe p.X) (nuAt p.mat p.X) p.mat.planeStress p.T p.dJW p.G (deformed p.f (push x l j s))) (-1 * (out p x).2 l j) 0 := by
  obtain ⟨K, S, k1, k2⟩ := Shell.C49_forces p.mat p.fe p.X p.T p.dJW p.f p.G x hs.axi hs.adm hx
  rw [out_eq p _ _ k1, neg_one_mul]
  exact k2 l (by rw [hs.nen]; exact hl) j

theorem energy_deriv (n : Nat) (es : List NElm) (h : Good n es) (hd : Distinct es) (Y : Nat → Nat → ℝ) (hY : Regular es Y) (b j : Nat) (hj : j < 3) (e : NElm) (he : e ∈ es) :
    HasDerivAt (fun s => energyElm e (e.positions (move Y b (j + 1) s))) (-1 * ∑ s ∈ Finset.range e.nen, if e.node (s + 1) = b then force e (e.positions Y) s ⟨j, hj⟩ else 0) 0 := by
  by_cases hl : ∃ l, l < e.nen ∧ e.node (l + 1) = b
  · obtain ⟨l, hl, hlb⟩ := hl
    rw [one_term e.nen l hl (fun t => e.node (t + 1) = b) (fun t ht => ⟨fun h => hd e he t l ht hl (h.trans hlb.symm), fun h => by rw [h, hlb]⟩), force, mul_list]
    have e3 : (fun s => energyElm e (e.positions (move Y b (j + 1) s))) = fun s => energyElm e (push (e.positions Y) l ⟨j, hj⟩ s) := by
      funext s
      refine energyElm_congr e _ _ fun p hp => deformed_congr p.f _ _ fun t ht => ?_
      rw [((h e he).2 p hp).nen] at ht
      exact (positions_move e (hd e he) Y b j hj s).1 l hl hlb t ht
    rw [e3]
    unfold energyElm
    exact deriv_sum e.pts (fun p s => energy (p.mat.young p.fe p.X) (nuAt p.mat p.X) p.mat.planeStress p.T p.dJW p.G (deformed p.f (push (e.positions Y) l ⟨j, hj⟩ s)))
      (fun p => -1 * (out p (e.positions Y)).2 l ⟨j, hj⟩) fun p hp => energy_point e p ((h e he).2 p hp) _ (hY e he p hp) l hl _
  · push Not at hl
    rw [Finset.sum_eq_zero fun t ht => if_neg (hl t (Finset.mem_range.mp ht)), mul_zero]
    have e3 : (fun s => energyElm e (e.positions (move Y b (j + 1) s))) = fun s => energyElm e (e.positions Y) := by
      funext s
      refine energyElm_congr e _ _ fun p hp => deformed_congr p.f _ _ fun t ht => ?_
      rw [((h e he).2 p hp).nen] at ht
      exact (positions_move e (hd e he) Y b j hj s).2 hl t ht
    rw [e3]
    exact hasDerivAt_const _ _

/-- C142 (potential): the derivative of the strain energy minus the work of the loads with respect to a nodal displacement is minus the residual. So a state is converged exactly if the given positions are met and
this potential is stationary with respect to all free displacements. -/
theorem C142_stationary (n : Nat) (es : List NElm) (h : Good n es) (hd : Distinct es) (F g : Nat → Nat → ℝ) (fixed : Nat → Nat → Prop) (Y : Nat → Nat → ℝ) (hY : Regular es Y) :
    (∃ r, assemble Y es = .ok r ∧ ∀ b j, b < n → j < 3 →
      HasDerivAt (fun s => energyAll es (move Y (b + 1) (j + 1) s) - dotN 3 n F (move Y (b + 1) (j + 1) s)) (-residual F r (b + 1) (j + 1)) 0) ∧
    (Converged n es F g fixed Y ↔ (∀ a i, a < n → i < 3 → fixed (a + 1) (i + 1) → Y (a + 1) (i + 1) = g (a + 1) (i + 1)) ∧
      ∀ b j, b < n → j < 3 → ¬ fixed (b + 1) (j + 1) → HasDerivAt (fun s => energyAll es (move Y (b + 1) (j + 1) s) - dotN 3 n F (move Y (b + 1) (j + 1) s)) 0 0) := by
  have key : ∀ b j, b < n → j < 3 → HasDerivAt (fun s => energyAll es (move Y (b + 1) (j + 1) s) - dotN 3 n F (move Y (b + 1) (j + 1) s))
      (-residual F (es.map fun e => (e, matE e Y, vecE e Y)) (b + 1) (j + 1)) 0 := by
    intro b j hb hj
    rw [residual_eq F es Y (b + 1) j hj]
    have hw : ∀ s, dotN 3 n F (move Y (b + 1) (j + 1) s) = dotN 3 n F Y + s * F (b + 1) (j + 1) := by
      intro s
      unfold dotN move
      simp only [mul_add, Finset.sum_add_distrib]
      congr 1
      rw [Finset.sum_eq_single b, Finset.sum_eq_single j]
      · simp; ring
      · intro k _ hk; simp [hk]
      · intro hk; exact absurd (Finset.mem_range.mpr hj) hk
      · intro k _ hk; exact Finset.sum_eq_zero fun i _ => by simp [hk]
      · intro hk; exact absurd (Finset.mem_range.mpr hb) hk
    have h1 : HasDerivAt (fun s => dotN 3 n F (move Y (b + 1) (j + 1) s)) (F (b + 1) (j + 1)) 0 := by
      simp only [hw]
      simpa using ((hasDerivAt_id (0 : ℝ)).mul_const (F (b + 1) (j + 1))).const_add (dotN 3 n F Y)
    have h2 : HasDerivAt (fun s => energyAll es (move Y (b + 1) (j + 1) s))
        (-(es.map fun e => ∑ s ∈ Finset.range e.nen, if e.node (s + 1) = b + 1 then force e (e.positions Y) s ⟨j, hj⟩ else 0).sum) 0 := by
      rw [neg_eq_neg_one_mul, mul_list]
      exact deriv_sum es (fun e s => energyElm e (e.positions (move Y (b + 1) (j + 1) s))) _ fun e he => energy_deriv n es h hd Y hY (b + 1) j hj e he
    have := h2.sub h1
    refine this.congr_deriv ?_
    ring
  refine ⟨⟨_, assemble_ok n es h Y, key⟩, fun ⟨r, h1, h2, h3⟩ => ⟨h3, fun b j hb hj hf => ?_⟩, fun ⟨h3, h2⟩ => ⟨_, assemble_ok n es h Y, fun b j hb hj hf => ?_, h3⟩⟩
  · rw [assemble_ok n es h Y] at h1
    cases h1
    have := key b j hb hj
    rwa [h2 b j hb hj hf, neg_zero] at this
  · have := (key b j hb hj).unique (h2 b j hb hj hf)
    linarith

/-- C142 (iterations): the converged states are the ones that an iteration does not change. -/
theorem C142_iterate (n : Nat) (es : List NElm) (F g : Nat → Nat → ℝ) (fixed : Nat → Nat → Prop) (Y : Nat → Nat → ℝ) : Converged n es F g fixed Y ↔ Iterate n es F g fixed Y Y := by
  refine ⟨fun ⟨r, h1, h2, h3⟩ => ⟨r, h1, ⟨fun a i ha hi hf => ?_, fun a i ha hi hf => ?_⟩⟩, fun ⟨r, h1, h2⟩ => ⟨r, h1, fun a i ha hi hf => ?_, fun a i ha hi hf => ?_⟩⟩
  · rw [h2 a i ha hi hf]; simp [Struct.nodal]
  · have := h3 a i ha hi hf
    linarith
  · have := h2.free a i ha hi hf
    rw [← this]; simp [Struct.nodal]
  · have := h2.held a i ha hi hf
    linarith

/-! ### Examples -/

/-- A curved shell of one element, with nodes numbered backwards. -/
noncomputable def sP : NPt := ⟨deformed Shell.wf Shell.wx, Shell.wf, { Emod := 12, nu := 0, planeStress := true }, ⟨0, 0, 0⟩, ⟨0, 0, 0⟩, 1, 1⟩
noncomputable def sE : NElm := ⟨4, fun s => 5 - s, [sP]⟩
noncomputable def sX : Nat → Nat → ℝ := fun a i => if a = 3 ∧ i = 1 then 1 else if a = 2 ∧ i = 2 then 1 else if a = 1 ∧ i = 3 then 1 else 0

theorem sE_good : Good 4 [sE] := by
  intro e he
  obtain rfl := List.mem_singleton.mp he
  refine ⟨fun s hs => ?_, fun p hp => ?_⟩
  · simp only [sE] at hs ⊢; omega
  · simp only [sE, List.mem_singleton] at hp
    subst hp
    exact ⟨rfl, rfl, by constructor <;> norm_num [nuAt, sP], by intro c; fin_cases c <;> simp [sP, Shell.wf, Finset.sum_range_succ], by intro c; fin_cases c <;> simp [sP, Shell.wf, Finset.sum_range_succ]⟩

theorem sE_distinct : Distinct [sE] := by
  intro e he s t hs ht h
  obtain rfl := List.mem_singleton.mp he
  simp only [sE] at hs ht h; omega

theorem sE_shape (k : Nat) (hk : k < 4) : sE.positions sX k = Shell.wx k := by
  funext i
  interval_cases k <;> fin_cases i <;> simp [sE, sX, NElm.positions, Shell.wx]

theorem sE_deformed : deformed Shell.wf (sE.positions sX) = deformed Shell.wf Shell.wx := deformed_congr _ _ _ fun k hk => sE_shape k hk

theorem sE_regular : Regular [sE] sX := by
  intro e he p hp
  obtain rfl := List.mem_singleton.mp he
  simp only [sE, List.mem_singleton] at hp
  subst hp
  change 0 < len (cross (deformed Shell.wf (sE.positions sX)).g1 (deformed Shell.wf (sE.positions sX)).g2)
  rw [sE_deformed]
  exact Bar.len_pos (by simp [deformed, Shell.wf, Shell.wx, cross, Finset.sum_range_succ])

/-- Any deformed state of it is converged for the loads that balance its forces. -/
example (Y : Nat → Nat → ℝ) : ∃ F, Converged 4 [sE] F Y (fun _ _ => False) Y := by
  have h := assemble_ok 4 [sE] sE_good Y
  exact ⟨fun a i => -asmV 3 (([sE].map fun e => (e, matE e Y, vecE e Y)).map fun e => (e.1.conn, e.2.2)) a i, _, h, fun a i _ _ _ => by simp [residual], fun _ _ _ _ _ => rfl⟩

/-- A quarter turn of it is converged without loads. -/
example : Converged 4 [sE] (fun _ _ => 0) (fun a i => if h : 1 ≤ i ∧ i ≤ 3 then 7 + turned Shell.quarter (sX a) ⟨i - 1, by omega⟩ else 0) (fun a _ => a = 1)
    (fun a i => if h : 1 ≤ i ∧ i ≤ 3 then 7 + turned Shell.quarter (sX a) ⟨i - 1, by omega⟩ else 0) :=
  (C142_rigid 4 [sE] sE_good sX _ (by
    intro e he p hp
    obtain rfl := List.mem_singleton.mp he
    simp only [sE, List.mem_singleton] at hp
    subst hp
    exact sE_deformed.symm) Shell.quarter (fun _ => 7) Shell.quarter_rot (by
    intro a _ i
    have h : 1 ≤ i.val + 1 ∧ i.val + 1 ≤ 3 := by omega
    simp [h])).2 _

example (F : Nat → Nat → ℝ) : ∃ r, assemble sX [sE] = .ok r ∧ ∀ b j, b < 4 → j < 3 →
    HasDerivAt (fun s => energyAll [sE] (move sX (b + 1) (j + 1) s) - dotN 3 4 F (move sX (b + 1) (j + 1) s)) (-residual F r (b + 1) (j + 1)) 0 :=
  (C142_stationary 4 [sE] sE_good sE_distinct F sX (fun _ _ => False) sX sE_regular).1

example : Good 4 [sE] ∧ Distinct [sE] ∧ Regular [sE] sX ∧ Rotation Shell.quarter := ⟨sE_good, sE_distinct, sE_regular, Shell.quarter_rot⟩

end Verif.NLShellStatic
