/-
Property C147: motions of thin shells with large displacements: balance of momentum and angular momentum, kinetic energy, balance of energy.
-/
import Verif.Props.NLShellStatic
import Verif.Model.NLShellDynamic
import Mathlib.Analysis.Calculus.MeanValue

set_option linter.unusedSectionVars false
set_option linter.unusedSimpArgs false
set_option linter.unusedVariables false

namespace Verif.NLShellDynamic

open Verif.Beam (V3)
open Verif.Shell (Geo Basis deformed energy push evalKandS green bend tmul tmat hooke dot3)
open Verif.ShellStatic (nodeOf dirOf nodeOf_eq dirOf_eq)
open Verif.NLShellStatic (NPt NElm Good Regular energyAll out out_ok vecE matE force list_zero sum_list mul_list add_list sub_list deriv_sum)
open Verif.LinIso (nuAt)
open Verif.Struct (asmV asmK dotN loc nodal one_nodal)
open Verif.Bar (len cross unit)

/-! ### Specification -/

/-- The nodes of the elements are nodes of the model, the integration points are sound as in C142, and the sum of the basis functions is one. -/
def Sane (n : Nat) (es : List MElm) : Prop := Good n (es.map MElm.static) ∧ ∀ e ∈ es, ∀ p ∈ e.pts, ∑ k ∈ Finset.range e.nen, p.N (k + 1) = 1

/-- Interpolation of nodal values in an integration point. -/
def at1 (e : MElm) (p : MPt) (y : Nat → Nat → ℝ) (i : Fin 3) : ℝ := ∑ k ∈ Finset.range e.nen, p.N (k + 1) * y (e.node (k + 1)) (i.val + 1)

/-- Sum over the integration points of all elements of mass times a value. -/
noncomputable def overMass (es : List MElm) (g : MElm → MPt → ℝ) : ℝ := (es.map fun e => (e.pts.map fun p => p.rho * p.pt.T * p.pt.dJW * g e p).sum).sum

/-- The load per area of the deformed surface `G`: own weight in the third direction, and pressures in the direction of its normal. Where it has none, they act in the third direction. -/
noncomputable def areaLoad (p : MPt) (G : Geo) (i : Fin 3) : ℝ :=
  (if i = 2 then p.rho * p.g * p.pt.T else 0) + p.pres.sum * (if len (cross G.g1 G.g2) = 0 then (if i = 2 then 1 else 0) else cross G.g1 G.g2 i / len (cross G.g1 G.g2))

/-- Weight and pressures at a node, for the positions `Y` of the nodes. -/
noncomputable def load (es : List MElm) (Y : Nat → Nat → ℝ) (a : Nat) (i : Fin 3) : ℝ :=
  (es.map fun e => ∑ s ∈ Finset.range e.nen, if e.node (s + 1) = a then (e.pts.map fun p => p.N (s + 1) * (p.pt.dJW * areaLoad p (deformed p.pt.f (e.static.positions Y)) i)).sum else 0).sum

/-- The same, with directions from one. -/
noncomputable def loadN (es : List MElm) (Y : Nat → Nat → ℝ) (a i : Nat) : ℝ := load es Y a (dirOf i)

/-- `u + t v`. -/
def along (u v : Nat → Nat → ℝ) (t : ℝ) : Nat → Nat → ℝ := fun a i => u a i + t * v a i

/-! ### Assembly -/

noncomputable def massE (e : MElm) : DMat ℝ := ⟨3 * e.nen, 3 * e.nen, fun r c => (e.pts.map fun p => massAt p r c).sum⟩
noncomputable def vecD (e : MElm) (Y : Nat → Nat → ℝ) : DVec ℝ := ⟨3 * e.nen, fun r => (e.pts.map fun p => (out p.pt (e.static.positions Y)).2 (nodeOf r) (dirOf r) + loadAt p (e.static.positions Y) r).sum⟩
noncomputable def all (es : List MElm) (Y : Nat → Nat → ℝ) : List (MElm × DMat ℝ × DVec ℝ) := es.map fun e => (e, massE e, vecD e Y)
noncomputable def stat (es : List MElm) (Y : Nat → Nat → ℝ) : List (NElm × DMat ℝ × DVec ℝ) := (es.map MElm.static).map fun e => (e, matE e Y, vecE e Y)

theorem evalAll_ok (e : MElm) (x : Nat → V3 ℝ) (pts : List MPt) (h : ∀ p ∈ pts, NLShellStatic.Sound e.static p.pt) (E : DMat ℝ × DVec ℝ) :
    evalAll x pts E = .ok (⟨E.1.nr, E.1.nc, fun r c => E.1.e r c + (pts.map fun p => massAt p r c).sum⟩,
      ⟨E.2.n, fun r => E.2.e r + (pts.map fun p => (out p.pt x).2 (nodeOf r) (dirOf r) + loadAt p x r).sum⟩) := by
  induction pts generalizing E with
  | nil => simp [evalAll]
  | cons p l ih =>
    rw [evalAll, evalInt, out_ok e.static p.pt (h p (by simp)) x]
    simp only [Res.bind]
    rw [ih fun p hp => h p (by simp [hp])]
    simp only [List.map_cons, List.sum_cons, add_assoc]

theorem sound_of (n : Nat) (es : List MElm) (h : Sane n es) (e : MElm) (he : e ∈ es) : (∀ s, s < e.nen → 1 ≤ e.node (s + 1) ∧ e.node (s + 1) ≤ n) ∧ ∀ p ∈ e.pts, NLShellStatic.Sound e.static p.pt := by
  have := h.1 e.static (List.mem_map.mpr ⟨e, he, rfl⟩)
  exact ⟨this.1, fun p hp => this.2 p.pt (List.mem_map.mpr ⟨p, hp, rfl⟩)⟩

theorem assemble_ok (n : Nat) (es : List MElm) (h : Sane n es) (Y : Nat → Nat → ℝ) : assemble Y es = .ok (all es Y) := by
  have key : ∀ l : List MElm, (∀ e ∈ l, ∀ p ∈ e.pts, NLShellStatic.Sound e.static p.pt) → assemble Y l = .ok (all l Y) := by
    intro l
    induction l with
    | nil => intro _; rfl
    | cons e l ih =>
      intro hl
      rw [assemble, evalAll_ok e _ _ (hl e (by simp)), ih fun e he => hl e (by simp [he])]
      simp only [Res.bind, all, massE, vecD, DMat.zero, DVec.zero, zero_add, List.map_cons]
  exact key es fun e he => (sound_of n es h e he).2

theorem mass_eq (p : MPt) (s t : Nat) (i j : Fin 3) : massAt p (3 * s + (i.val + 1)) (3 * t + (j.val + 1)) = if j = i then p.N (s + 1) * (p.N (t + 1) * (p.rho * p.pt.T * p.pt.dJW)) else 0 := by
  unfold massAt Plate.formMassMatrix
  rw [← add_assoc, ← add_assoc, nodeOf_eq s i i.isLt, dirOf_eq s i i.isLt, nodeOf_eq t j j.isLt, dirOf_eq t j j.isLt]
  by_cases h : p.rho * p.pt.T * p.pt.dJW = 0
  · simp [h]
  · simp only [h, if_false, show ¬ (3 = 1) by norm_num]
    by_cases hj : j = i
    · simp [hj]; ring
    · have : ¬ (i.val + 1 = j.val + 1) := fun h => hj (Fin.ext (by omega))
      rw [if_neg this, if_neg hj]

theorem load_eq (p : MPt) (x : Nat → V3 ℝ) (s : Nat) (i : Fin 3) : loadAt p x (3 * s + (i.val + 1)) = p.N (s + 1) * (p.pt.dJW * areaLoad p (deformed p.pt.f x) i) := by
  set b := decide (len (cross (deformed p.pt.f x).g1 (deformed p.pt.f x).g2) = 0) with hb
  obtain ⟨e3, e1⟩ := Plate.C78_pressure p.rho p.g p.pt.T p.pres (ShellStatic.shellNormal (deformed p.pt.f x)) b false
  have hl : ∀ i : Fin 3, Plate.getPressure p.rho p.g p.pt.T p.pres (ShellStatic.shellNormal (deformed p.pt.f x)) b false (i + 1) = areaLoad p (deformed p.pt.f x) i := by
    intro i
    have hd : dirOf (i.val + 1) = i := by fin_cases i <;> rfl
    by_cases h : i = 2
    · subst h
      have : ((2 : Fin 3) : Nat) + 1 = 3 := rfl
      rw [this, e3]
      have : dirOf 3 = 2 := rfl
      simp only [areaLoad, ShellStatic.shellNormal, unit, if_true, Bool.false_eq_true, if_false, this, hb, decide_eq_true_eq]
    · rw [e1 (i + 1) (fun hh => h (by ext; show i.val = 2; omega))]
      simp only [areaLoad, ShellStatic.shellNormal, unit, if_neg h, hd, zero_add, hb, decide_eq_true_eq]
  have l1 := hl 0
  have l2 := hl 1
  have l3 := hl 2
  simp only [Fin.val_zero, Fin.val_one, Fin.val_two, zero_add, Nat.reduceAdd] at l1 l2 l3
  unfold loadAt
  rw [← add_assoc, nodeOf_eq s i i.isLt, dirOf_eq s i i.isLt]
  simp only [← hb, Plate.formBodyForce, l1, l2, l3]
  by_cases h : areaLoad p (deformed p.pt.f x) 0 = 0 ∧ areaLoad p (deformed p.pt.f x) 1 = 0 ∧ areaLoad p (deformed p.pt.f x) 2 = 0
  · have : areaLoad p (deformed p.pt.f x) i = 0 := by fin_cases i; exacts [h.1, h.2.1, h.2.2]
    simp only [if_pos h, this, mul_zero]
  · simp only [if_neg h, Nat.reduceEqDiff, if_false, hl]
    ring

theorem row (e : MElm) (v : Nat → Nat → ℝ) (s : Nat) (i : Fin 3) :
    ∑ t ∈ Finset.range e.nen, ∑ j ∈ Finset.range 3, (massE e).e (3 * s + (i.val + 1)) (3 * t + (j + 1)) * loc e.static.conn v (t + 1) (j + 1) =
      (e.pts.map fun p => p.N (s + 1) * (p.rho * p.pt.T * p.pt.dJW * at1 e p v i)).sum := by
  have h1 : ∀ t, ∑ j ∈ Finset.range 3, (massE e).e (3 * s + (i.val + 1)) (3 * t + (j + 1)) * loc e.static.conn v (t + 1) (j + 1) =
      (e.pts.map fun p => p.N (s + 1) * (p.N (t + 1) * (p.rho * p.pt.T * p.pt.dJW)) * v (e.node (t + 1)) (i.val + 1)).sum := by
    intro t
    have h2 : ∀ j : Fin 3, (massE e).e (3 * s + (i.val + 1)) (3 * t + (j.val + 1)) * loc e.static.conn v (t + 1) (j.val + 1) =
        if j = i then (e.pts.map fun p => p.N (s + 1) * (p.N (t + 1) * (p.rho * p.pt.T * p.pt.dJW)) * v (e.node (t + 1)) (i.val + 1)).sum else 0 := by
      intro j
      simp only [massE, mass_eq]
      rw [mul_comm, mul_list]
      by_cases hj : j = i
      · subst hj
        rw [if_pos rfl]
        refine congrArg List.sum (List.map_congr_left fun p _ => ?_)
        rw [if_pos rfl]
        simp only [loc, NElm.conn, MElm.static]
        ring
      · rw [if_neg hj]
        exact list_zero _ _ fun p _ => by rw [if_neg hj, mul_zero]
    rw [Finset.sum_range (n := 3)]
    simp only [h2]
    simp
  simp only [h1]
  rw [sum_list e.nen e.pts fun t p => p.N (s + 1) * (p.N (t + 1) * (p.rho * p.pt.T * p.pt.dJW)) * v (e.node (t + 1)) (i.val + 1)]
  refine congrArg List.sum (List.map_congr_left fun p _ => ?_)
  rw [at1, Finset.mul_sum, Finset.mul_sum]
  exact Finset.sum_congr rfl fun t _ => by ring

/-- The inertia at a node: mass times accelerations at the points, distributed by the basis functions. -/
theorem inertia_all (n : Nat) (es : List MElm) (hn : ∀ e ∈ es, ∀ s, s < e.nen → 1 ≤ e.node (s + 1) ∧ e.node (s + 1) ≤ n) (Y v : Nat → Nat → ℝ) (a : Nat) (i : Fin 3) :
    inertia n v (all es Y) a (i.val + 1) = (es.map fun e => ∑ s ∈ Finset.range e.nen, if e.node (s + 1) = a then (e.pts.map fun p => p.N (s + 1) * (p.rho * p.pt.T * p.pt.dJW * at1 e p v i)).sum else 0).sum := by
  induction es with
  | nil => simp [nodal, inertia, all, asmK]
  | cons e l ih =>
    have := ih fun k hk => hn k (by simp [hk])
    rw [List.map_cons, List.sum_cons, ← this]
    have e1 := one_nodal 3 n e.static.conn (massE e) (hn e (by simp)) v a (i.val + 1)
    have e2 : inertia n v (all (e :: l) Y) a (i.val + 1) = (∑ b ∈ Finset.range n, ∑ j ∈ Finset.range 3, (∑ s ∈ Finset.range e.static.conn.nen, ∑ t ∈ Finset.range e.static.conn.nen,
        if e.static.conn.node (s + 1) = a ∧ e.static.conn.node (t + 1) = b + 1 then (massE e).e (3 * s + (i.val + 1)) (3 * t + (j + 1)) else 0) * v (b + 1) (j + 1)) + inertia n v (all l Y) a (i.val + 1) := by
      simp only [nodal, inertia, all, asmK, List.map_cons, List.sum_cons, add_mul, Finset.sum_add_distrib]
    rw [e2, e1]
    refine congrArg (· + _) (Finset.sum_congr rfl fun s hs => ?_)
    by_cases ha : e.node (s + 1) = a
    · rw [if_pos ha]
      exact (if_pos ha).trans (row e v s i)
    · rw [if_neg ha]
      exact if_neg ha

theorem scatter (n : Nat) (es : List MElm) (h : ∀ e ∈ es, ∀ s, s < e.nen → 1 ≤ e.node (s + 1) ∧ e.node (s + 1) ≤ n) (v : MElm → Nat → ℝ) (z : Nat → ℝ) :
    ∑ a ∈ Finset.range n, z (a + 1) * (es.map fun e => ∑ s ∈ Finset.range e.nen, if e.node (s + 1) = a + 1 then v e s else 0).sum =
      (es.map fun e => ∑ s ∈ Finset.range e.nen, z (e.node (s + 1)) * v e s).sum := by
  simp only [mul_list]
  rw [sum_list n es fun a e => z (a + 1) * ∑ s ∈ Finset.range e.nen, if e.node (s + 1) = a + 1 then v e s else 0]
  refine congrArg List.sum (List.map_congr_left fun e he => ?_)
  simp only [Finset.mul_sum]
  rw [Finset.sum_comm]
  refine Finset.sum_congr rfl fun s hs => ?_
  obtain ⟨n1, n2⟩ := h e he s (Finset.mem_range.mp hs)
  rw [Finset.sum_eq_single (e.node (s + 1) - 1)]
  · rw [Nat.sub_add_cancel n1, if_pos rfl]
  · intro a _ ha
    rw [if_neg (by omega), mul_zero]
  · intro ha; exact absurd (Finset.mem_range.mpr (by omega)) ha

/-- Weighted sums of the inertia. -/
theorem inertia_sum (n : Nat) (es : List MElm) (h : Sane n es) (Y v : Nat → Nat → ℝ) (i : Fin 3) :
    ∑ a ∈ Finset.range n, inertia n v (all es Y) (a + 1) (i.val + 1) = overMass es (fun e p => at1 e p v i) ∧
    ∀ (x : Nat → Nat → ℝ) (j : Fin 3), ∑ a ∈ Finset.range n, x (a + 1) (j.val + 1) * inertia n v (all es Y) (a + 1) (i.val + 1) = overMass es (fun e p => at1 e p x j * at1 e p v i) := by
  have hn := fun e he => (sound_of n es h e he).1
  have key := fun z => scatter n es hn (fun e s => (e.pts.map fun p => p.N (s + 1) * (p.rho * p.pt.T * p.pt.dJW * at1 e p v i)).sum) z
  have hi := inertia_all n es hn Y v
  refine ⟨?_, fun x j => ?_⟩
  · have := key fun _ => 1
    simp only [one_mul] at this
    simp only [hi]
    rw [this]
    refine congrArg List.sum (List.map_congr_left fun e he => ?_)
    rw [sum_list e.nen e.pts fun s p => p.N (s + 1) * (p.rho * p.pt.T * p.pt.dJW * at1 e p v i)]
    refine congrArg List.sum (List.map_congr_left fun p hp => ?_)
    rw [← Finset.sum_mul, h.2 e he p hp, one_mul]
  · have := key fun a => x a (j.val + 1)
    simp only [hi]
    rw [this]
    refine congrArg List.sum (List.map_congr_left fun e he => ?_)
    simp only [mul_list]
    rw [sum_list e.nen e.pts fun s p => x (e.node (s + 1)) (j.val + 1) * (p.N (s + 1) * (p.rho * p.pt.T * p.pt.dJW * at1 e p v i))]
    refine congrArg List.sum (List.map_congr_left fun p hp => ?_)
    rw [show p.rho * p.pt.T * p.pt.dJW * (at1 e p x j * at1 e p v i) = at1 e p x j * (p.rho * p.pt.T * p.pt.dJW * at1 e p v i) by ring]
    rw [show at1 e p x j = ∑ k ∈ Finset.range e.nen, p.N (k + 1) * x (e.node (k + 1)) (j.val + 1) from rfl, Finset.sum_mul]
    exact Finset.sum_congr rfl fun s _ => by ring

theorem over_sub (es : List MElm) (f g : MElm → MPt → ℝ) : overMass es f - overMass es g = overMass es fun e p => f e p - g e p := by
  unfold overMass
  rw [sub_list]
  refine congrArg List.sum (List.map_congr_left fun e _ => ?_)
  rw [sub_list]
  exact congrArg List.sum (List.map_congr_left fun p _ => by ring)

theorem over_mul (es : List MElm) (c : ℝ) (f : MElm → MPt → ℝ) : c * overMass es f = overMass es fun e p => c * f e p := by
  unfold overMass
  rw [mul_list]
  refine congrArg List.sum (List.map_congr_left fun e _ => ?_)
  rw [mul_list]
  exact congrArg List.sum (List.map_congr_left fun p _ => by ring)

/-! ### Motions -/

theorem loadN_eq (es : List MElm) (Y : Nat → Nat → ℝ) (a i : Nat) (hi : i < 3) : loadN es Y a (i + 1) = load es Y a ⟨i, hi⟩ := by
  have := dirOf_eq 0 i hi
  simp only [mul_zero, zero_add] at this
  rw [loadN, this]

/-- The residual is that of static analysis with weight and pressures as nodal loads, minus the inertia. -/
theorem residual_static (n : Nat) (es : List MElm) (F Y acc : Nat → Nat → ℝ) (a i : Nat) (hi : i < 3) :
    residual n F acc (all es Y) a (i + 1) = NLShellStatic.residual (fun a i => F a i + loadN es Y a i) (stat es Y) a (i + 1) - inertia n acc (all es Y) a (i + 1) := by
  have key : asmV 3 ((all es Y).map fun e => (e.1.static.conn, e.2.2)) a (i + 1) = loadN es Y a (i + 1) + asmV 3 ((stat es Y).map fun e => (e.1.conn, e.2.2)) a (i + 1) := by
    rw [loadN_eq es Y a i hi]
    simp only [asmV, all, stat, load, List.map_map, Function.comp_def]
    rw [add_list]
    refine congrArg List.sum (List.map_congr_left fun e _ => ?_)
    simp only [NElm.conn, MElm.static]
    rw [← Finset.sum_add_distrib]
    refine Finset.sum_congr rfl fun s _ => ?_
    by_cases hs : e.node (s + 1) = a
    · refine (if_pos hs).trans (Eq.symm ((congrArg₂ (· + ·) (if_pos hs) (if_pos hs)).trans (Eq.symm ?_)))
      simp only [vecD, vecE, force, List.map_map, Function.comp_def]
      rw [add_list]
      refine congrArg List.sum (List.map_congr_left fun p _ => ?_)
      rw [load_eq p _ s ⟨i, hi⟩]
      simp only [MElm.static]
      ring
    · exact (if_neg hs).trans (Eq.symm ((congrArg₂ (· + ·) (if_neg hs) (if_neg hs)).trans (add_zero 0)))
  simp only [residual, NLShellStatic.residual]
  rw [key]
  ring

/-- C147 (rest): a state without accelerations solves the equations of motion exactly if it is converged in static analysis, with weight and pressures as nodal loads. -/
theorem C147_rest (n : Nat) (es : List MElm) (h : Sane n es) (F : Nat → Nat → ℝ) (fixed : Nat → Nat → Prop) (Y : Nat → Nat → ℝ) :
    Motion n es F fixed Y (fun _ _ => 0) ↔ NLShellStatic.Converged n (es.map MElm.static) (fun a i => F a i + loadN es Y a i) Y fixed Y := by
  have z : ∀ a i, inertia n (fun _ _ => 0) (all es Y) a i = 0 := fun a i => by simp [inertia, nodal]
  constructor
  · rintro ⟨r, h1, h2⟩
    rw [assemble_ok n es h Y] at h1
    cases h1
    refine ⟨_, NLShellStatic.assemble_ok n _ h.1 Y, fun a i ha hi hf => ?_, fun _ _ _ _ _ => rfl⟩
    have := h2 a i ha hi hf
    rwa [residual_static _ _ _ _ _ _ _ hi, z, sub_zero] at this
  · rintro ⟨r, h1, h2, -⟩
    rw [NLShellStatic.assemble_ok n _ h.1 Y] at h1
    cases h1
    refine ⟨_, assemble_ok n es h Y, fun a i ha hi hf => ?_⟩
    rw [residual_static _ _ _ _ _ _ _ hi, z, sub_zero]
    exact h2 a i ha hi hf

/-- C147 (momentum): when the equations of motion are met, the reactions vanish where nothing is held, and together with loads, weight and pressures they are mass times acceleration, summed over the integration points; their moments about any
point, at the deformed positions, are the change of angular momentum. -/
theorem C147_momentum (n : Nat) (es : List MElm) (h : Sane n es) (F : Nat → Nat → ℝ) (fixed : Nat → Nat → Prop) (Y acc : Nat → Nat → ℝ) (hc : Motion n es F fixed Y acc) :
    ∃ r, assemble Y es = .ok r ∧ (∀ a i, a < n → i < 3 → ¬ fixed (a + 1) (i + 1) → -residual n F acc r (a + 1) (i + 1) = 0) ∧
      (∀ i : Fin 3, ∑ a ∈ Finset.range n, (-residual n F acc r (a + 1) (i.val + 1) + F (a + 1) (i.val + 1) + load es Y (a + 1) i) = overMass es fun e p => at1 e p acc i) ∧
      ∀ (c : Fin 3 → ℝ) (i j : Fin 3), ∑ a ∈ Finset.range n,
        ((Y (a + 1) (i.val + 1) - c i) * (-residual n F acc r (a + 1) (j.val + 1) + F (a + 1) (j.val + 1) + load es Y (a + 1) j) -
        (Y (a + 1) (j.val + 1) - c j) * (-residual n F acc r (a + 1) (i.val + 1) + F (a + 1) (i.val + 1) + load es Y (a + 1) i)) =
        overMass es fun e p => (at1 e p Y i - c i) * at1 e p acc j - (at1 e p Y j - c j) * at1 e p acc i := by
  obtain ⟨r, h1, h2⟩ := hc
  rw [assemble_ok n es h Y] at h1
  cases h1
  obtain ⟨s, s1, -, s2, s3⟩ := NLShellStatic.C142_balance n (es.map MElm.static) h.1 (fun a i => F a i + loadN es Y a i) Y (fun _ _ => True) Y
    ⟨_, NLShellStatic.assemble_ok n _ h.1 Y, fun _ _ _ _ hf => absurd trivial hf, fun _ _ _ _ _ => rfl⟩
  rw [NLShellStatic.assemble_ok n _ h.1 Y] at s1
  cases s1
  have rs := fun a (i : Fin 3) => residual_static n es F Y acc a i i.isLt
  simp only [stat] at rs
  have hl := fun a (i : Fin 3) => loadN_eq es Y a i i.isLt
  simp only [Fin.eta] at hl
  refine ⟨_, assemble_ok n es h Y, fun a i ha hi hf => by rw [h2 a i ha hi hf, neg_zero], fun i => ?_, fun c i j => ?_⟩
  · rw [← (inertia_sum n es h Y acc i).1, ← sub_eq_zero, ← Finset.sum_sub_distrib, ← s2 (i.val + 1) (by omega) (by omega)]
    exact Finset.sum_congr rfl fun a _ => by rw [rs, hl]; ring
  · have key : ∀ i j : Fin 3, ∑ a ∈ Finset.range n, (Y (a + 1) (i.val + 1) - c i) * inertia n acc (all es Y) (a + 1) (j.val + 1) =
        overMass es fun e p => (at1 e p Y i - c i) * at1 e p acc j := by
      intro i j
      simp only [sub_mul]
      rw [Finset.sum_sub_distrib, ← Finset.mul_sum, (inertia_sum n es h Y acc j).1, over_mul, (inertia_sum n es h Y acc j).2 Y i, over_sub]
    have s4 := s3 (fun k => if hk : 1 ≤ k ∧ k ≤ 3 then c ⟨k - 1, by omega⟩ else 0) (i.val + 1) (j.val + 1) (by omega) (by omega) (by omega) (by omega)
    have hci : ∀ i : Fin 3, (if hk : 1 ≤ i.val + 1 ∧ i.val + 1 ≤ 3 then c ⟨i.val + 1 - 1, by omega⟩ else 0) = c i := fun i => by
      rw [dif_pos (by omega)]; rfl
    rw [hci, hci] at s4
    rw [← over_sub, ← key i j, ← key j i, ← Finset.sum_sub_distrib, ← sub_eq_zero, ← Finset.sum_sub_distrib, ← s4]
    exact Finset.sum_congr rfl fun a _ => by rw [rs, rs, hl, hl]; ring

/-- C147 (kinetic energy): the mass matrix gives the kinetic energy of the shell with the velocities at the integration points, and is symmetric. -/
theorem C147_kinetic (n : Nat) (es : List MElm) (h : Sane n es) (Y : Nat → Nat → ℝ) :
    ∃ r, assemble Y es = .ok r ∧ ∀ v w : Nat → Nat → ℝ, dotN 3 n w (inertia n v r) = overMass es (fun e p => ∑ i : Fin 3, at1 e p w i * at1 e p v i) ∧ dotN 3 n w (inertia n v r) = dotN 3 n v (inertia n w r) ∧
      ((∀ e ∈ es, ∀ p ∈ e.pts, 0 ≤ p.rho * p.pt.T * p.pt.dJW) → 0 ≤ dotN 3 n v (inertia n v r)) := by
  have main : ∀ v w : Nat → Nat → ℝ, dotN 3 n w (inertia n v (all es Y)) = overMass es (fun e p => ∑ i : Fin 3, at1 e p w i * at1 e p v i) := by
    intro v w
    unfold dotN
    rw [Finset.sum_comm, Finset.sum_range (n := 3)]
    have := fun i : Fin 3 => (inertia_sum n es h Y v i).2 w i
    rw [Finset.sum_congr rfl fun i _ => this i, Fin.sum_univ_three]
    unfold overMass
    rw [add_list, add_list]
    refine congrArg List.sum (List.map_congr_left fun e _ => ?_)
    rw [add_list, add_list]
    refine congrArg List.sum (List.map_congr_left fun p _ => ?_)
    simp only [Fin.sum_univ_three]
    ring
  refine ⟨_, assemble_ok n es h Y, fun v w => ⟨main v w, ?_, fun hp => ?_⟩⟩
  · rw [main, main]
    unfold overMass
    refine congrArg List.sum (List.map_congr_left fun e _ => congrArg List.sum (List.map_congr_left fun p _ => ?_))
    exact congrArg _ (Finset.sum_congr rfl fun i _ => mul_comm _ _)
  · rw [main]
    unfold overMass
    refine List.sum_nonneg fun x hx => ?_
    obtain ⟨e, he, rfl⟩ := List.mem_map.mp hx
    refine List.sum_nonneg fun y hy => ?_
    obtain ⟨p, hq, rfl⟩ := List.mem_map.mp hy
    exact mul_nonneg (hp e he p hq) (Finset.sum_nonneg fun i _ => mul_self_nonneg _)

/-! ### Energy -/

/-- Base vectors and second derivatives of the position. -/
abbrev Q := V3 ℝ × V3 ℝ × (Fin 3 → V3 ℝ)

def geo (q : Q) : Geo := ⟨q.1, q.2.1, q.2.2⟩

section
variable {A B : Q → V3 ℝ} {q : Q}

theorem cross_diff (hA : ∀ k, DifferentiableAt ℝ (fun q => A q k) q) (hB : ∀ k, DifferentiableAt ℝ (fun q => B q k) q) (k : Fin 3) : DifferentiableAt ℝ (fun q => cross (A q) (B q) k) q := by
  fin_cases k
  · exact ((hA 1).mul (hB 2)).sub ((hA 2).mul (hB 1))
  · exact ((hA 2).mul (hB 0)).sub ((hA 0).mul (hB 2))
  · exact ((hA 0).mul (hB 1)).sub ((hA 1).mul (hB 0))

theorem len_diff (hA : ∀ k, DifferentiableAt ℝ (fun q => A q k) q) (h : 0 < len (A q)) : DifferentiableAt ℝ (fun q => len (A q)) q := by
  have := (((hA 0).mul (hA 0)).add ((hA 1).mul (hA 1))).add ((hA 2).mul (hA 2))
  exact this.sqrt (Real.sqrt_pos.mp h).ne'

theorem dot_diff (hA : ∀ k, DifferentiableAt ℝ (fun q => A q k) q) (hB : ∀ k, DifferentiableAt ℝ (fun q => B q k) q) : DifferentiableAt ℝ (fun q => Cable.dot (A q) (B q)) q :=
  (((hA 0).mul (hB 0)).add ((hA 1).mul (hB 1))).add ((hA 2).mul (hB 2))

theorem tmul_diff (T : Fin 3 → Fin 3 → ℝ) (hA : ∀ k, DifferentiableAt ℝ (fun q => A q k) q) (r : Fin 3) : DifferentiableAt ℝ (fun q => tmul T (A q) r) q := by
  simp only [tmul, Fin.sum_univ_three]
  exact (((hA 0).const_mul _).add ((hA 1).const_mul _)).add ((hA 2).const_mul _)

theorem hooke_diff (E nu : ℝ) (ps : Bool) (hA : ∀ k, DifferentiableAt ℝ (fun q => A q k) q) (r : Fin 3) : DifferentiableAt ℝ (fun q => hooke E nu ps (A q) r) q := by
  cases ps
  · fin_cases r
    · exact (((hA 0).const_mul _).add ((hA 1).const_mul _)).const_mul _
    · exact (((hA 0).const_mul _).add ((hA 1).const_mul _)).const_mul _
    · exact (hA 2).const_mul _
  · fin_cases r
    · exact ((hA 0).add ((hA 1).const_mul _)).const_mul _
    · exact (((hA 0).const_mul _).add (hA 1)).const_mul _
    · exact (hA 2).const_mul _

theorem dot3_diff (hA : ∀ k, DifferentiableAt ℝ (fun q => A q k) q) (hB : ∀ k, DifferentiableAt ℝ (fun q => B q k) q) : DifferentiableAt ℝ (fun q => dot3 (A q) (B q)) q := by
  simp only [dot3, Fin.sum_univ_three]
  exact (((hA 0).mul (hB 0)).add ((hA 1).mul (hB 1))).add ((hA 2).mul (hB 2))
end

theorem energy_diff (E nu : ℝ) (ps : Bool) (t dJW : ℝ) (G : Geo) (q : Q) (h : 0 < len (cross q.1 q.2.1)) : DifferentiableAt ℝ (fun q : Q => energy E nu ps t dJW G (geo q)) q := by
  have h1 : ∀ k : Fin 3, DifferentiableAt ℝ (fun q : Q => q.1 k) q := fun k => by fun_prop
  have h2 : ∀ k : Fin 3, DifferentiableAt ℝ (fun q : Q => q.2.1 k) q := fun k => by fun_prop
  have h3 : ∀ j k : Fin 3, DifferentiableAt ℝ (fun q : Q => q.2.2 j k) q := fun j k => by fun_prop
  have hg : ∀ j, DifferentiableAt ℝ (fun q : Q => green G (geo q) j) q := by
    intro j
    simp only [green, div_eq_mul_inv]
    fin_cases j
    · exact ((dot_diff h1 h1).sub_const _).mul_const _
    · exact ((dot_diff h2 h2).sub_const _).mul_const _
    · exact ((dot_diff h1 h2).sub_const _).mul_const _
  have hb : ∀ j, DifferentiableAt ℝ (fun q : Q => bend G (geo q) j) q := by
    intro j
    have hc := cross_diff h1 h2
    have hn : ∀ i, DifferentiableAt ℝ (fun q : Q => cross q.1 q.2.1 i * (len (cross q.1 q.2.1))⁻¹) q := fun i => (hc i).mul ((len_diff hc h).inv h.ne')
    simp only [bend, div_eq_mul_inv]
    exact (dot_diff (A := fun q : Q => fun i => cross q.1 q.2.1 i * (len (cross q.1 q.2.1))⁻¹) hn (h3 j)).const_sub _
  have he := tmul_diff (tmat G.g1 G.g2) hg
  have hk := tmul_diff (tmat G.g1 G.g2) hb
  unfold energy
  exact (((dot3_diff he (hooke_diff E nu ps he)).const_mul t).add ((dot3_diff hk (hooke_diff E nu ps hk)).const_mul (t ^ 3 / 12))).const_mul (dJW / 2)

/-- Base vectors and second derivatives with the positions of the nodes. -/
def dir (f : Basis) (V : Nat → V3 ℝ) : Q := ((deformed f V).g1, (deformed f V).g2, (deformed f V).H)

theorem energy_line (E nu : ℝ) (ps : Bool) (t dJW : ℝ) (G : Geo) (f : Basis) (U V : Nat → V3 ℝ) (h : 0 < len (cross (deformed f U).g1 (deformed f U).g2)) :
    HasDerivAt (fun s : ℝ => energy E nu ps t dJW G (deformed f fun k i => U k i + s * V k i)) (fderiv ℝ (fun q : Q => energy E nu ps t dJW G (geo q)) (dir f U) (dir f V)) 0 := by
  have hd := (energy_diff E nu ps t dJW G (dir f U) h).hasFDerivAt
  have hl : HasDerivAt (fun s : ℝ => dir f U + s • dir f V) (dir f V) 0 := by
    simpa using ((hasDerivAt_id (0 : ℝ)).smul_const (dir f V)).const_add (dir f U)
  have hz : dir f U = dir f U + (0 : ℝ) • dir f V := by rw [zero_smul, add_zero]
  rw [hz] at hd
  have := hd.comp_hasDerivAt (0 : ℝ) hl
  rw [← hz] at this
  refine this.congr_of_eventuallyEq (Filter.Eventually.of_forall fun s => ?_)
  have e : ∀ (N : Nat → ℝ) (i : Fin 3), ∑ k ∈ Finset.range f.nen, (U k i + s * V k i) * N k = ∑ k ∈ Finset.range f.nen, U k i * N k + s * ∑ k ∈ Finset.range f.nen, V k i * N k := by
    intro N i
    rw [Finset.mul_sum, ← Finset.sum_add_distrib]
    exact Finset.sum_congr rfl fun a _ => by ring
  have e2 : deformed f (fun k i => U k i + s * V k i) = geo (dir f U + s • dir f V) := by
    simp only [deformed, e]
    rfl
  simp only [e2, Function.comp]

theorem dir_sum (f : Basis) (V : Nat → V3 ℝ) : dir f V = ∑ l ∈ Finset.range f.nen, ∑ j : Fin 3, V l j • dir f (fun k i => if k = l ∧ i = j then 1 else 0) := by
  have one : ∀ (N : Nat → ℝ) (l : Nat) (i j : Fin 3), l < f.nen → ∑ k ∈ Finset.range f.nen, (if k = l ∧ i = j then (1 : ℝ) else 0) * N k = if i = j then N l else 0 := by
    intro N l i j hl
    rw [Finset.sum_eq_single l]
    · simp
    · intro k _ hk; simp [hk]
    · intro hk; exact absurd (Finset.mem_range.mpr hl) hk
  refine Prod.ext ?_ (Prod.ext ?_ ?_)
  · funext i
    simp only [dir, deformed, Prod.fst_sum, Finset.sum_apply, Prod.smul_fst, Pi.smul_apply, smul_eq_mul]
    refine Finset.sum_congr rfl fun l hl => ?_
    simp only [one _ l i _ (Finset.mem_range.mp hl)]
    simp
  · funext i
    simp only [dir, deformed, Prod.snd_sum, Prod.fst_sum, Finset.sum_apply, Prod.smul_snd, Prod.smul_fst, Pi.smul_apply, smul_eq_mul]
    refine Finset.sum_congr rfl fun l hl => ?_
    simp only [one _ l i _ (Finset.mem_range.mp hl)]
    simp
  · funext c i
    simp only [dir, deformed, Prod.snd_sum, Finset.sum_apply, Prod.smul_snd, Pi.smul_apply, smul_eq_mul]
    refine Finset.sum_congr rfl fun l hl => ?_
    simp only [one (fun k => f.d2N k c) l i _ (Finset.mem_range.mp hl)]
    simp

/-- Power of the internal forces of a point. -/
theorem point_power (e : NElm) (p : NPt) (hs : NLShellStatic.Sound e p) (Y v : Nat → Nat → ℝ) (hx : 0 < len (cross (deformed p.f (e.positions Y)).g1 (deformed p.f (e.positions Y)).g2)) :
    HasDerivAt (fun t => energy (p.mat.young p.fe p.X) (nuAt p.mat p.X) p.mat.planeStress p.T p.dJW p.G (deformed p.f (e.positions (along Y v t))))
      (∑ l ∈ Finset.range e.nen, ∑ j : Fin 3, v (e.node (l + 1)) (j.val + 1) * (-1 * (out p (e.positions Y)).2 l j)) 0 := by
  have h1 := energy_line (p.mat.young p.fe p.X) (nuAt p.mat p.X) p.mat.planeStress p.T p.dJW p.G p.f (e.positions Y) (e.positions v) hx
  have hS : ∀ l, l < e.nen → ∀ j, fderiv ℝ (fun q : Q => energy (p.mat.young p.fe p.X) (nuAt p.mat p.X) p.mat.planeStress p.T p.dJW p.G (geo q)) (dir p.f (e.positions Y))
      (dir p.f fun k i => if k = l ∧ i = j then 1 else 0) = -1 * (out p (e.positions Y)).2 l j := by
    intro l hl j
    have h3 := energy_line (p.mat.young p.fe p.X) (nuAt p.mat p.X) p.mat.planeStress p.T p.dJW p.G p.f (e.positions Y) (fun k i => if k = l ∧ i = j then 1 else 0) hx
    have e3 : (fun t : ℝ => energy (p.mat.young p.fe p.X) (nuAt p.mat p.X) p.mat.planeStress p.T p.dJW p.G (deformed p.f fun k i => e.positions Y k i + t * if k = l ∧ i = j then 1 else 0)) =
        fun t => energy (p.mat.young p.fe p.X) (nuAt p.mat p.X) p.mat.planeStress p.T p.dJW p.G (deformed p.f (push (e.positions Y) l j t)) := by
      funext t
      congr 2
      funext k i
      simp [push]
    rw [e3] at h3
    exact h3.unique (NLShellStatic.energy_point e p hs _ hx l hl j)
  rw [dir_sum p.f (e.positions v), map_sum] at h1
  simp only [map_sum, map_smul, smul_eq_mul, hs.nen] at h1
  refine h1.congr_deriv (Finset.sum_congr rfl fun l hl => Finset.sum_congr rfl fun j _ => ?_)
  rw [hS l (Finset.mem_range.mp hl)]
  rfl

/-- Power of the internal forces of all elements. -/
theorem all_power (n : Nat) (es : List MElm) (h : Sane n es) (Y v F : Nat → Nat → ℝ) (hY : Regular (es.map MElm.static) Y) :
    HasDerivAt (fun t => energyAll (es.map MElm.static) (along Y v t)) (∑ a ∈ Finset.range n, ∑ i ∈ Finset.range 3, v (a + 1) (i + 1) *
      (F (a + 1) (i + 1) - NLShellStatic.residual F (stat es Y) (a + 1) (i + 1))) 0 := by
  have h1 := deriv_sum (es.map MElm.static) (fun e t => (e.pts.map fun p => energy (p.mat.young p.fe p.X) (nuAt p.mat p.X) p.mat.planeStress p.T p.dJW p.G (deformed p.f (e.positions (along Y v t)))).sum) _ fun e he =>
    deriv_sum e.pts (fun p t => energy (p.mat.young p.fe p.X) (nuAt p.mat p.X) p.mat.planeStress p.T p.dJW p.G (deformed p.f (e.positions (along Y v t)))) _ fun p hp =>
      point_power e p ((h.1 e he).2 p hp) Y v (hY e he p hp)
  refine h1.congr_deriv ?_
  rw [Finset.sum_comm, Finset.sum_range (n := 3)]
  have e1 : ∀ i : Fin 3, ∑ a ∈ Finset.range n, v (a + 1) (i.val + 1) * (F (a + 1) (i.val + 1) - NLShellStatic.residual F (stat es Y) (a + 1) (i.val + 1)) =
      (es.map fun e => ∑ s ∈ Finset.range e.nen, v (e.node (s + 1)) (i.val + 1) * (-1 * force e.static (e.static.positions Y) s i)).sum := by
    intro i
    rw [← scatter n es (fun e he => (sound_of n es h e he).1) (fun e s => -1 * force e.static (e.static.positions Y) s i) fun a => v a (i.val + 1)]
    refine Finset.sum_congr rfl fun a _ => congrArg _ ?_
    rw [stat, NLShellStatic.residual_eq F _ Y (a + 1) i i.isLt, sub_add_cancel_left, List.map_map, neg_eq_neg_one_mul, mul_list]
    refine congrArg List.sum (List.map_congr_left fun e _ => ?_)
    simp only [Function.comp]
    rw [Finset.mul_sum]
    refine Finset.sum_congr rfl fun s _ => ?_
    by_cases hs : e.node (s + 1) = a + 1
    · rw [if_pos hs, if_pos (show e.static.node (s + 1) = a + 1 from hs)]
    · rw [if_neg hs, if_neg (show ¬ e.static.node (s + 1) = a + 1 from hs), mul_zero]
  rw [Finset.sum_congr rfl fun i _ => e1 i, Fin.sum_univ_three, add_list, add_list, List.map_map]
  refine congrArg List.sum (List.map_congr_left fun e _ => ?_)
  simp only [Function.comp]
  rw [← sum_list e.static.nen e.static.pts fun l p => ∑ j : Fin 3, v (e.static.node (l + 1)) (j.val + 1) * (-1 * (out p (e.static.positions Y)).2 l j)]
  rw [← Finset.sum_add_distrib, ← Finset.sum_add_distrib]
  refine Finset.sum_congr rfl fun l _ => ?_
  simp only [force]
  rw [mul_list, mul_list, mul_list, mul_list, mul_list, mul_list, add_list, add_list]
  exact congrArg List.sum (List.map_congr_left fun p _ => by rw [Fin.sum_univ_three]; rfl)

/-- C147 (energy): when the equations of motion are met and the deformed shell is a surface in each integration point, the power of reactions, loads, weight and pressures is the rate of change of kinetic energy and strain energy, for any
velocities `v`. -/
theorem C147_energy (n : Nat) (es : List MElm) (h : Sane n es) (F : Nat → Nat → ℝ) (fixed : Nat → Nat → Prop) (Y v acc : Nat → Nat → ℝ) (hY : Regular (es.map MElm.static) Y) (hc : Motion n es F fixed Y acc) :
    ∃ r, assemble Y es = .ok r ∧ (∀ a i, a < n → i < 3 → ¬ fixed (a + 1) (i + 1) → -residual n F acc r (a + 1) (i + 1) = 0) ∧
      HasDerivAt (fun t => overMass es (fun e p => 1 / 2 * ∑ i : Fin 3, at1 e p (along v acc t) i ^ 2) + energyAll (es.map MElm.static) (along Y v t))
        (∑ a ∈ Finset.range n, ∑ i ∈ Finset.range 3, v (a + 1) (i + 1) * (-residual n F acc r (a + 1) (i + 1) + F (a + 1) (i + 1) + loadN es Y (a + 1) (i + 1))) 0 := by
  obtain ⟨r, h1, h2⟩ := hc
  rw [assemble_ok n es h Y] at h1
  cases h1
  refine ⟨_, assemble_ok n es h Y, fun a i ha hi hf => by rw [h2 a i ha hi hf, neg_zero], ?_⟩
  have k1 : HasDerivAt (fun t => overMass es (fun e p => 1 / 2 * ∑ i : Fin 3, at1 e p (along v acc t) i ^ 2)) (overMass es fun e p => ∑ i : Fin 3, at1 e p v i * at1 e p acc i) 0 := by
    refine deriv_sum es (fun e t => (e.pts.map fun p => p.rho * p.pt.T * p.pt.dJW * (1 / 2 * ∑ i : Fin 3, at1 e p (along v acc t) i ^ 2)).sum) _ fun e he =>
      deriv_sum e.pts (fun p t => p.rho * p.pt.T * p.pt.dJW * (1 / 2 * ∑ i : Fin 3, at1 e p (along v acc t) i ^ 2)) (fun p => p.rho * p.pt.T * p.pt.dJW * ∑ i : Fin 3, at1 e p v i * at1 e p acc i) fun p hp => ?_
    refine HasDerivAt.const_mul (p.rho * p.pt.T * p.pt.dJW) ?_
    have ha : ∀ t i, at1 e p (along v acc t) i = at1 e p v i + t * at1 e p acc i := by
      intro t i
      simp only [at1, along, Finset.mul_sum, ← Finset.sum_add_distrib]
      exact Finset.sum_congr rfl fun k _ => by ring
    simp only [ha]
    have hs : HasDerivAt (fun t : ℝ => ∑ i : Fin 3, (at1 e p v i + t * at1 e p acc i) ^ 2) (∑ i : Fin 3, 2 * (at1 e p v i * at1 e p acc i)) 0 := by
      refine HasDerivAt.fun_sum fun i _ => ?_
      have d : HasDerivAt (fun t : ℝ => at1 e p v i + t * at1 e p acc i) (at1 e p acc i) 0 := by
        simpa using ((hasDerivAt_id (0 : ℝ)).mul_const (at1 e p acc i)).const_add (at1 e p v i)
      refine (d.pow 2).congr_deriv ?_
      simp
      ring
    refine (hs.const_mul (1 / 2)).congr_deriv ?_
    rw [Finset.mul_sum]
    exact Finset.sum_congr rfl fun i _ => by ring
  have k2 := all_power n es h Y v (fun a i => F a i + loadN es Y a i) hY
  obtain ⟨r', r1, r2⟩ := C147_kinetic n es h Y
  rw [assemble_ok n es h Y] at r1
  cases r1
  rw [← (r2 acc v).1] at k1
  refine (k1.add k2).congr_deriv ?_
  unfold dotN
  rw [← Finset.sum_add_distrib]
  refine Finset.sum_congr rfl fun a _ => ?_
  rw [← Finset.sum_add_distrib]
  refine Finset.sum_congr rfl fun i hi => ?_
  rw [residual_static n es F Y acc (a + 1) i (Finset.mem_range.mp hi)]
  ring

/-! ### Rejected materials -/

noncomputable def vecW (e : MElm) (Y : Nat → Nat → ℝ) : DVec ℝ := ⟨3 * e.nen, fun r => (e.pts.map fun p => loadAt p (e.static.positions Y) r).sum⟩

theorem evalAll_rejected (x : Nat → V3 ℝ) (pts : List MPt) (h : ∀ p ∈ pts, ¬ (0 ≤ nuAt p.pt.mat p.pt.X ∧ nuAt p.pt.mat p.pt.X < 1 / 2)) (E : DMat ℝ × DVec ℝ) :
    evalAll x pts E = .ok (⟨E.1.nr, E.1.nc, fun r c => E.1.e r c + (pts.map fun p => massAt p r c).sum⟩, ⟨E.2.n, fun r => E.2.e r + (pts.map fun p => loadAt p x r).sum⟩) := by
  induction pts generalizing E with
  | nil => simp [evalAll]
  | cons p l ih =>
    have hf : evalKandS p.pt.mat p.pt.fe p.pt.X p.pt.T p.pt.dJW p.pt.f p.pt.G (deformed p.pt.f x) = .fail := by
      have := (LinIso.C03_rejects p.pt.mat 2 3 (by omega) p.pt.fe p.pt.X (fun _ => 0) 1).1.mpr ⟨by omega, h p (by simp)⟩
      simp only [Shell.evalKandS, Shell.formDmatrix, Bool.false_eq_true, if_false, this, Res.bind]
    rw [evalAll, evalInt, hf]
    simp only [Res.bind]
    rw [ih fun p hp => h p (by simp [hp])]
    simp only [List.map_cons, List.sum_cons, add_assoc]

theorem assemble_rejected (Y : Nat → Nat → ℝ) (es : List MElm) (h : ∀ e ∈ es, ∀ p ∈ e.pts, ¬ (0 ≤ nuAt p.pt.mat p.pt.X ∧ nuAt p.pt.mat p.pt.X < 1 / 2)) :
    assemble Y es = .ok (es.map fun e => (e, massE e, vecW e Y)) := by
  induction es with
  | nil => rfl
  | cons e l ih =>
    rw [assemble, evalAll_rejected _ _ (h e (by simp)), ih fun e he => h e (by simp [he])]
    simp only [Res.bind, massE, vecW, DMat.zero, DVec.zero, zero_add, List.map_cons]

/-- C147 (rejected materials, violated): a shell whose material is rejected by the constitutive law (Poisson's ratio outside of [0,1/2)) is assembled without failure and without internal forces, since
`NLKirchhoffLoveShell::evalInt` (Shell/NLKirchhoffLoveShell.C:59-66) does not use the result of `evalKandS`: however it is deformed, it moves as if its points were not connected, all with the acceleration of gravity. -/
theorem C147_material_violated (n : Nat) (es : List MElm) (h : ∀ e ∈ es, ∀ p ∈ e.pts, ¬ (0 ≤ nuAt p.pt.mat p.pt.X ∧ nuAt p.pt.mat p.pt.X < 1 / 2)) (g : ℝ)
    (hn : ∀ e ∈ es, (∀ s, s < e.nen → 1 ≤ e.node (s + 1) ∧ e.node (s + 1) ≤ n) ∧ ∀ p ∈ e.pts, p.g = g ∧ p.pres = [] ∧ ∑ k ∈ Finset.range e.nen, p.N (k + 1) = 1) (Y : Nat → Nat → ℝ) :
    Motion n es (fun _ _ => 0) (fun _ _ => False) Y fun _ i => if i = 3 then g else 0 := by
  refine ⟨_, assemble_rejected Y es h, fun a i ha hi _ => ?_⟩
  have e2 := inertia_all n es (fun e he => (hn e he).1) Y (fun _ i => if i = 3 then g else 0) (a + 1) ⟨i, hi⟩
  have e3 : inertia n (fun _ i => if i = 3 then g else 0) (es.map fun e => (e, massE e, vecW e Y)) (a + 1) (i + 1) = inertia n (fun _ i => if i = 3 then g else 0) (all es Y) (a + 1) (i + 1) := by
    simp only [inertia, all, List.map_map, Function.comp_def]
  simp only at e2
  rw [residual, e3, e2, zero_add, sub_eq_zero]
  simp only [asmV, List.map_map, Function.comp_def]
  refine congrArg List.sum (List.map_congr_left fun e he => Finset.sum_congr rfl fun s _ => ?_)
  by_cases hs : e.node (s + 1) = a + 1
  · refine (if_pos hs).trans (Eq.trans ?_ (if_pos hs).symm)
    refine congrArg List.sum (List.map_congr_left fun p hp => ?_)
    obtain ⟨g1, g2, g3⟩ := (hn e he).2 p hp
    have e4 := load_eq p (e.static.positions Y) s ⟨i, hi⟩
    simp only at e4
    rw [e4, areaLoad, g1, g2, at1]
    simp only
    rw [← Finset.sum_mul, g3, one_mul]
    by_cases h2 : i = 2
    · subst h2
      rw [if_pos (show (⟨2, hi⟩ : Fin 3) = 2 from rfl), if_pos (show 2 + 1 = 3 from rfl), List.sum_nil, zero_mul]
      ring
    · have h3 : ¬ ((⟨i, hi⟩ : Fin 3) = 2) := fun h => h2 (congrArg Fin.val h)
      simp [h3, h2]
  · exact (if_neg hs).trans (if_neg hs).symm

/-! ### Histories -/

theorem deriv_at {α : Type} (l : List α) (f : α → ℝ → ℝ) (f' : α → ℝ) (t : ℝ) (h : ∀ e ∈ l, HasDerivAt (f e) (f' e) t) : HasDerivAt (fun s => (l.map fun e => f e s).sum) (l.map f').sum t := by
  induction l with
  | nil => simpa using hasDerivAt_const t (0 : ℝ)
  | cons e l ih =>
    simp only [List.map_cons, List.sum_cons]
    exact (h e (by simp)).add (ih fun e he => h e (by simp [he]))

theorem over_deriv (es : List MElm) (f : MElm → MPt → ℝ → ℝ) (f' : MElm → MPt → ℝ) (t : ℝ) (h : ∀ e p, HasDerivAt (f e p) (f' e p) t) : HasDerivAt (fun s => overMass es fun e p => f e p s) (overMass es f') t := by
  unfold overMass
  exact deriv_at es _ _ t fun e _ => deriv_at e.pts _ _ t fun p _ => (h e p).const_mul _

theorem at_deriv (e : MElm) (p : MPt) (y : ℝ → Nat → Nat → ℝ) (y' : Nat → Nat → ℝ) (t : ℝ) (h : ∀ a i, HasDerivAt (fun s => y s a i) (y' a i) t) (i : Fin 3) : HasDerivAt (fun s => at1 e p (y s) i) (at1 e p y' i) t := by
  unfold at1
  exact HasDerivAt.fun_sum fun k _ => (h _ _).const_mul _

/-- C147 (histories): along every motion in which the equations of motion are met at all times, the rate of change of the momentum of the shell is the sum of reactions, loads, weight and pressures, and the rate of change of its
angular momentum about any point is the sum of their moments at the deformed positions. -/
theorem C147_history (n : Nat) (es : List MElm) (h : Sane n es) (F Y vel acc : ℝ → Nat → Nat → ℝ) (fixed : Nat → Nat → Prop)
    (hY : ∀ t a i, HasDerivAt (fun s => Y s a i) (vel t a i) t) (hv : ∀ t a i, HasDerivAt (fun s => vel s a i) (acc t a i) t) (hc : ∀ t, Motion n es (F t) fixed (Y t) (acc t)) (t : ℝ) :
    ∃ r, assemble (Y t) es = .ok r ∧ (∀ a i, a < n → i < 3 → ¬ fixed (a + 1) (i + 1) → -residual n (F t) (acc t) r (a + 1) (i + 1) = 0) ∧
      (∀ i : Fin 3, HasDerivAt (fun s => overMass es fun e p => at1 e p (vel s) i)
        (∑ a ∈ Finset.range n, (-residual n (F t) (acc t) r (a + 1) (i.val + 1) + F t (a + 1) (i.val + 1) + load es (Y t) (a + 1) i)) t) ∧
      ∀ (c : Fin 3 → ℝ) (i j : Fin 3), HasDerivAt (fun s => overMass es fun e p => (at1 e p (Y s) i - c i) * at1 e p (vel s) j - (at1 e p (Y s) j - c j) * at1 e p (vel s) i)
        (∑ a ∈ Finset.range n, ((Y t (a + 1) (i.val + 1) - c i) * (-residual n (F t) (acc t) r (a + 1) (j.val + 1) + F t (a + 1) (j.val + 1) + load es (Y t) (a + 1) j) -
          (Y t (a + 1) (j.val + 1) - c j) * (-residual n (F t) (acc t) r (a + 1) (i.val + 1) + F t (a + 1) (i.val + 1) + load es (Y t) (a + 1) i))) t := by
  obtain ⟨r, h1, h2, h3, h4⟩ := C147_momentum n es h (F t) fixed (Y t) (acc t) (hc t)
  refine ⟨r, h1, h2, fun i => ?_, fun c i j => ?_⟩
  · rw [h3 i]
    exact over_deriv es _ _ t fun e p => at_deriv e p vel (acc t) t (hv t) i
  · rw [h4 c i j]
    refine over_deriv es (fun e p s => (at1 e p (Y s) i - c i) * at1 e p (vel s) j - (at1 e p (Y s) j - c j) * at1 e p (vel s) i) _ t fun e p => ?_
    have hx := fun i => (at_deriv e p Y (vel t) t (hY t) i).sub_const (c i)
    have hw := at_deriv e p vel (acc t) t (hv t)
    refine (((hx i).mul (hw j)).sub ((hx j).mul (hw i))).congr_deriv ?_
    ring

/-- C147 (free motions): without supports, loads, weight and pressures momentum and angular momentum never change. -/
theorem C147_free (n : Nat) (es : List MElm) (h : Sane n es) (hf : ∀ e ∈ es, ∀ p ∈ e.pts, p.g = 0 ∧ p.pres = []) (Y vel acc : ℝ → Nat → Nat → ℝ)
    (hY : ∀ t a i, HasDerivAt (fun s => Y s a i) (vel t a i) t) (hv : ∀ t a i, HasDerivAt (fun s => vel s a i) (acc t a i) t) (hc : ∀ t, Motion n es (fun _ _ => 0) (fun _ _ => False) (Y t) (acc t)) (t s : ℝ) :
    (∀ i : Fin 3, (overMass es fun e p => at1 e p (vel t) i) = overMass es fun e p => at1 e p (vel s) i) ∧
      ∀ (c : Fin 3 → ℝ) (i j : Fin 3), (overMass es fun e p => (at1 e p (Y t) i - c i) * at1 e p (vel t) j - (at1 e p (Y t) j - c j) * at1 e p (vel t) i) =
        overMass es fun e p => (at1 e p (Y s) i - c i) * at1 e p (vel s) j - (at1 e p (Y s) j - c j) * at1 e p (vel s) i := by
  have hl : ∀ Y a i, load es Y a i = 0 := fun Y a i => list_zero _ _ fun e he => Finset.sum_eq_zero fun k _ => by
    split
    · exact list_zero _ _ fun p hp => by simp [areaLoad, hf e he p hp]
    · rfl
  have key := C147_history n es h (fun _ _ _ => 0) Y vel acc (fun _ _ => False) hY hv hc
  have zero : ∀ g : ℝ → ℝ, (∀ t, HasDerivAt g 0 t) → g t = g s := fun g hg => is_const_of_deriv_eq_zero (fun t => (hg t).differentiableAt) (fun t => (hg t).deriv) t s
  refine ⟨fun i => zero (fun s => overMass es fun e p => at1 e p (vel s) i) fun t => ?_,
    fun c i j => zero (fun s => overMass es fun e p => (at1 e p (Y s) i - c i) * at1 e p (vel s) j - (at1 e p (Y s) j - c j) * at1 e p (vel s) i) fun t => ?_⟩
  · obtain ⟨r, -, h2, h3, -⟩ := key t
    refine (h3 i).congr_deriv (Finset.sum_eq_zero fun a ha => ?_)
    rw [h2 a i (Finset.mem_range.mp ha) i.isLt id, hl, add_zero, add_zero]
  · obtain ⟨r, -, h2, -, h4⟩ := key t
    refine (h4 c i j).congr_deriv (Finset.sum_eq_zero fun a ha => ?_)
    rw [h2 a i (Finset.mem_range.mp ha) i.isLt id, h2 a j (Finset.mem_range.mp ha) j.isLt id, hl, hl]
    ring

/-! ### Examples -/

/-- A shell with Poisson's ratio 3/5. -/
example (Y : Nat → Nat → ℝ) : Motion 4 [⟨4, fun s => 5 - s, [⟨{ NLShellStatic.sP with mat := { Emod := 12, nu := 3 / 5, planeStress := true } }, fun _ => 1 / 4, 7, -9, []⟩]⟩] (fun _ _ => 0) (fun _ _ => False) Y
    fun _ i => if i = 3 then -9 else 0 := by
  refine C147_material_violated 4 _ ?_ (-9) ?_ Y
  · intro e he p hp
    obtain rfl := List.mem_singleton.mp he
    obtain rfl := List.mem_singleton.mp hp
    norm_num [nuAt]
  · intro e he
    obtain rfl := List.mem_singleton.mp he
    refine ⟨fun s hs => ?_, fun p hp => ?_⟩
    · simp only at hs ⊢; omega
    · obtain rfl := List.mem_singleton.mp hp
      norm_num

/-- The curved shell of C142, with mass and weight, under a pressure. -/
noncomputable def dE (q : ℝ) : MElm := ⟨4, fun s => 5 - s, [⟨NLShellStatic.sP, fun _ => 1 / 4, 7, -9, [q]⟩]⟩

theorem dE_static (q : ℝ) : [dE q].map MElm.static = [NLShellStatic.sE] := rfl

theorem dE_sane (q : ℝ) : Sane 4 [dE q] := by
  refine ⟨by rw [dE_static]; exact NLShellStatic.sE_good, fun e he p hp => ?_⟩
  obtain rfl := List.mem_singleton.mp he
  simp only [dE, List.mem_singleton] at hp
  subst hp
  norm_num [dE]

/-- In its initial shape it is a surface, and without loads and supports all its points have the acceleration of gravity and of the pressure divided by the density. -/
example (q : ℝ) : Sane 4 [dE q] ∧ Regular ([dE q].map MElm.static) NLShellStatic.sX ∧
    Motion 4 [dE q] (fun _ _ => 0) (fun _ _ => False) NLShellStatic.sX (fun _ i => areaLoad ⟨NLShellStatic.sP, fun _ => 1 / 4, 7, -9, [q]⟩ (deformed NLShellStatic.sP.f ((dE q).static.positions NLShellStatic.sX)) (dirOf i) / 7) := by
  refine ⟨dE_sane q, by rw [dE_static]; exact NLShellStatic.sE_regular, _, assemble_ok 4 [dE q] (dE_sane q) _, fun a i ha hi _ => ?_⟩
  obtain ⟨s, s1, s2⟩ := (NLShellStatic.C142_rigid 4 [NLShellStatic.sE] NLShellStatic.sE_good NLShellStatic.sX NLShellStatic.sX (by
    intro e he p hp
    obtain rfl := List.mem_singleton.mp he
    simp only [NLShellStatic.sE, List.mem_singleton] at hp
    subst hp
    exact NLShellStatic.sE_deformed.symm) (fun a i => if a = i then 1 else 0) 0 (by
    simp [Shell.Rotation, Cable.dot, Bar.cross] <;> refine ⟨?_, ?_, ?_⟩ <;> funext i <;> fin_cases i <;> simp) (by
    intro a _ i; simp [NLShellStatic.turned])).1
  rw [NLShellStatic.assemble_ok 4 _ NLShellStatic.sE_good] at s1
  cases s1
  rw [residual_static _ _ _ _ _ _ _ hi]
  have e1 := s2 (fun a i => 0 + loadN [dE q] NLShellStatic.sX a i) (a + 1) i hi
  have e2 := inertia_all 4 [dE q] (fun e he => (sound_of 4 [dE q] (dE_sane q) e he).1) NLShellStatic.sX
    (fun _ i => areaLoad ⟨NLShellStatic.sP, fun _ => 1 / 4, 7, -9, [q]⟩ (deformed NLShellStatic.sP.f ((dE q).static.positions NLShellStatic.sX)) (dirOf i) / 7) (a + 1) ⟨i, hi⟩
  simp only [stat, dE_static] at e1 e2 ⊢
  rw [e1, e2, zero_add, sub_eq_zero, loadN_eq _ _ _ _ hi, load]
  refine congrArg List.sum (List.map_congr_left fun e he => Finset.sum_congr rfl fun k _ => ?_)
  obtain rfl := List.mem_singleton.mp he
  refine if_congr Iff.rfl (congrArg List.sum (List.map_congr_left fun p hp => ?_)) rfl
  have hd := dirOf_eq 0 i hi
  simp only [mul_zero, zero_add] at hd
  simp only [at1]
  rw [← Finset.sum_mul, (dE_sane q).2 (dE q) (by simp) p hp, one_mul, hd]
  simp only [dE, List.mem_singleton] at hp
  subst hp
  simp only [NLShellStatic.sP, dE]
  ring

/-- The shell without weight and pressure. -/
noncomputable def fE : MElm := ⟨4, fun s => 5 - s, [⟨NLShellStatic.sP, fun _ => 1 / 4, 7, 0, []⟩]⟩

/-- It can move with constant velocity: a history to which the theorems apply. -/
example (c : V3 ℝ) : ∃ Y vel acc : ℝ → Nat → Nat → ℝ, (∀ t a i, HasDerivAt (fun s => Y s a i) (vel t a i) t) ∧ (∀ t a i, HasDerivAt (fun s => vel s a i) (acc t a i) t) ∧ Sane 4 [fE] ∧
    (∀ a i, Y 0 a i = NLShellStatic.sX a i) ∧ (∀ t a i, vel t a i = c (dirOf i)) ∧ ∀ t : ℝ, Motion 4 [fE] (fun _ _ => 0) (fun _ _ => False) (Y t) (acc t) := by
  have hs : [fE].map MElm.static = [NLShellStatic.sE] := rfl
  have hsane : Sane 4 [fE] := by
    refine ⟨by rw [hs]; exact NLShellStatic.sE_good, fun e he p hp => ?_⟩
    obtain rfl := List.mem_singleton.mp he
    simp only [fE, List.mem_singleton] at hp
    subst hp
    norm_num [fE]
  refine ⟨fun t a i => NLShellStatic.sX a i + t * c (dirOf i), fun _ _ i => c (dirOf i), fun _ _ _ => 0, fun t a i => by simpa using ((hasDerivAt_id t).mul_const (c (dirOf i))).const_add (NLShellStatic.sX a i),
    fun t a i => hasDerivAt_const t _, hsane, fun a i => by simp, fun _ _ _ => rfl, fun t => ?_⟩
  rw [C147_rest 4 [fE] hsane]
  have hl : (fun a i => (0 : ℝ) + loadN [fE] (fun a i => NLShellStatic.sX a i + t * c (dirOf i)) a i) = fun _ _ => 0 := by
    funext a i
    simp [loadN, load, fE, areaLoad]
  rw [hl, hs]
  refine (NLShellStatic.C142_rigid 4 [NLShellStatic.sE] NLShellStatic.sE_good NLShellStatic.sX _ (by
    intro e he p hp
    obtain rfl := List.mem_singleton.mp he
    simp only [NLShellStatic.sE, List.mem_singleton] at hp
    subst hp
    exact NLShellStatic.sE_deformed.symm) (fun a i => if a = i then 1 else 0) (fun i => t * c i) (by
    simp [Shell.Rotation, Cable.dot, Bar.cross] <;> refine ⟨?_, ?_, ?_⟩ <;> funext i <;> fin_cases i <;> simp) (by
    intro a _ i
    have hd := dirOf_eq 0 i.val i.isLt
    simp only [mul_zero, zero_add] at hd
    simp [NLShellStatic.turned, hd, add_comm])).2 _

end Verif.NLShellDynamic
