/-
Property C146: motions of cables: balance of momentum and angular momentum, kinetic energy.
-/
import Mathlib.Analysis.Calculus.MeanValue
import Verif.Props.CableStatic
import Verif.Model.CableDynamic

set_option linter.unusedSectionVars false
set_option linter.unusedSimpArgs false
set_option linter.unusedVariables false

namespace Verif.CableDynamic

open Verif.Beam (V3)
open Verif.Cable (gravityEntry massEntry)
open Verif.ShellStatic (nodeOf dirOf nodeOf_eq dirOf_eq)
open Verif.CableStatic (Props CPt CElm Good Curved Works works out weight vecE scatter grav force)
open Verif.Struct (asmV asmK dotN loc nodal one_nodal)
open Verif.NLShellStatic (list_zero sum_list mul_list add_list deriv_sum)
open Verif.Bar (len cross unit)

/-! ### Specification -/

/-- Interpolation of nodal values in an integration point. -/
def at1 (e : CElm) (p : CPt) (y : Nat → Nat → ℝ) (i : Fin 3) : ℝ := ∑ k ∈ Finset.range e.nen, p.N k * y (e.node (k + 1)) (i.val + 1)

/-- Sum over the integration points of all elements of mass times a value. -/
noncomputable def overMass (C : Props) (es : List CElm) (g : CElm → CPt → ℝ) : ℝ := (es.map fun e => (e.pts.map fun p => C.lineMass * p.w * g e p).sum).sum

/-- `u + t v`. -/
def along (u v : Nat → Nat → ℝ) (t : ℝ) : Nat → Nat → ℝ := fun a i => u a i + t * v a i

/-! ### Assembly -/

noncomputable def massE (C : Props) (e : CElm) : DMat ℝ := ⟨3 * e.nen, 3 * e.nen, fun r c => (e.pts.map fun p => massEntry C.lineMass p.w p.N (nodeOf r) (dirOf r) (nodeOf c) (dirOf c)).sum⟩

noncomputable def all (C : Props) (es : List CElm) (u : Nat → Nat → ℝ) : List (CElm × DMat ℝ × DVec ℝ) := es.map fun e => (e, massE C e, vecE C e u)

theorem evalAll_ok (C : Props) (e : CElm) (U : Nat → V3 ℝ) (pts : List CPt) (h : ∀ p ∈ pts, Cable.evalInt e.nen C.EA C.EI p.w p.dX p.ddX p.f U = .ok (out C e p U)) (E : DMat ℝ × DVec ℝ) :
    evalAll C e.nen U pts E = .ok (⟨E.1.nr, E.1.nc, fun r c => E.1.e r c + (pts.map fun p => massEntry C.lineMass p.w p.N (nodeOf r) (dirOf r) (nodeOf c) (dirOf c)).sum⟩,
      ⟨E.2.n, fun r => E.2.e r + (pts.map fun p => (out C e p U).S (nodeOf r) (dirOf r) + gravityEntry C.lineMass p.w p.N C.gravity (nodeOf r) (dirOf r)).sum⟩) := by
  induction pts generalizing E with
  | nil => simp [evalAll]
  | cons p l ih =>
    rw [evalAll, evalInt, h p (by simp)]
    simp only [Res.bind]
    rw [ih fun p hp => h p (by simp [hp])]
    simp only [List.map_cons, List.sum_cons, add_assoc]

theorem assemble_ok (C : Props) (es : List CElm) (u : Nat → Nat → ℝ) (h : Works C es u) : assemble C u es = .ok (all C es u) := by
  induction es with
  | nil => rfl
  | cons e l ih =>
    rw [assemble, evalAll_ok C e _ _ (h e (by simp)), ih fun e he => h e (by simp [he])]
    simp only [Res.bind, all, massE, vecE, force, grav, DMat.zero, DVec.zero, add_list, zero_add, List.map_cons]

theorem mass_eq (C : Props) (hm : 0 ≤ C.lineMass) (p : CPt) (s t : Nat) (i j : Fin 3) : massEntry C.lineMass p.w p.N s i t j = if i = j then p.N s * p.N t * (C.lineMass * p.w) else 0 := by
  unfold massEntry
  by_cases h : 0 < C.lineMass
  · rw [if_pos h]
  · have : C.lineMass = 0 := le_antisymm (not_lt.mp h) hm
    rw [if_neg h, this]; simp

theorem row (C : Props) (hm : 0 ≤ C.lineMass) (e : CElm) (v : Nat → Nat → ℝ) (s : Nat) (i : Fin 3) :
    ∑ t ∈ Finset.range e.nen, ∑ j ∈ Finset.range 3, (massE C e).e (3 * s + (i.val + 1)) (3 * t + (j + 1)) * loc e.conn v (t + 1) (j + 1) =
      (e.pts.map fun p => p.N s * (C.lineMass * p.w * at1 e p v i)).sum := by
  have h1 : ∀ t, ∑ j ∈ Finset.range 3, (massE C e).e (3 * s + (i.val + 1)) (3 * t + (j + 1)) * loc e.conn v (t + 1) (j + 1) =
      (e.pts.map fun p => p.N s * p.N t * (C.lineMass * p.w) * v (e.node (t + 1)) (i.val + 1)).sum := by
    intro t
    have h2 : ∀ j : Fin 3, (massE C e).e (3 * s + (i.val + 1)) (3 * t + (j.val + 1)) * loc e.conn v (t + 1) (j.val + 1) =
        if j = i then (e.pts.map fun p => p.N s * p.N t * (C.lineMass * p.w) * v (e.node (t + 1)) (i.val + 1)).sum else 0 := by
      intro j
      simp only [massE, ← add_assoc]
      rw [nodeOf_eq s i i.isLt, dirOf_eq s i i.isLt, nodeOf_eq t j j.isLt, dirOf_eq t j j.isLt, mul_comm, mul_list]
      simp only [mass_eq C hm, Fin.eta]
      by_cases hj : j = i
      · subst hj
        rw [if_pos rfl]
        refine congrArg List.sum (List.map_congr_left fun p _ => ?_)
        rw [if_pos rfl]
        simp only [loc, CElm.conn]
        ring
      · rw [if_neg hj]
        exact list_zero _ _ fun p _ => by rw [if_neg (Ne.symm hj), mul_zero]
    rw [Finset.sum_range (n := 3)]
    simp only [h2]
    simp
  simp only [h1]
  rw [sum_list e.nen e.pts fun t p => p.N s * p.N t * (C.lineMass * p.w) * v (e.node (t + 1)) (i.val + 1)]
  refine congrArg List.sum (List.map_congr_left fun p _ => ?_)
  rw [at1, Finset.mul_sum, Finset.mul_sum]
  exact Finset.sum_congr rfl fun t _ => by ring

/-- The inertia at a node: mass times accelerations at the points, distributed by the basis functions. -/
theorem inertia_all (C : Props) (hm : 0 ≤ C.lineMass) (n : Nat) (es : List CElm) (hn : ∀ e ∈ es, ∀ s, s < e.nen → 1 ≤ e.node (s + 1) ∧ e.node (s + 1) ≤ n) (u v : Nat → Nat → ℝ) (a : Nat) (i : Fin 3) :
    inertia n v (all C es u) a (i.val + 1) = (es.map fun e => ∑ s ∈ Finset.range e.nen, if e.node (s + 1) = a then (e.pts.map fun p => p.N s * (C.lineMass * p.w * at1 e p v i)).sum else 0).sum := by
  induction es with
  | nil => simp [nodal, inertia, all, asmK]
  | cons e l ih =>
    have := ih fun k hk => hn k (by simp [hk])
    rw [List.map_cons, List.sum_cons, ← this]
    have e1 := one_nodal 3 n e.conn (massE C e) (hn e (by simp)) v a (i.val + 1)
    have e2 : inertia n v (all C (e :: l) u) a (i.val + 1) = (∑ b ∈ Finset.range n, ∑ j ∈ Finset.range 3, (∑ s ∈ Finset.range e.conn.nen, ∑ t ∈ Finset.range e.conn.nen,
        if e.conn.node (s + 1) = a ∧ e.conn.node (t + 1) = b + 1 then (massE C e).e (3 * s + (i.val + 1)) (3 * t + (j + 1)) else 0) * v (b + 1) (j + 1)) + inertia n v (all C l u) a (i.val + 1) := by
      simp only [nodal, inertia, all, asmK, List.map_cons, List.sum_cons, add_mul, Finset.sum_add_distrib]
    rw [e2, e1]
    refine congrArg (· + _) (Finset.sum_congr rfl fun s hs => ?_)
    by_cases ha : e.node (s + 1) = a
    · rw [if_pos ha]
      exact (if_pos ha).trans (row C hm e v s i)
    · rw [if_neg ha]
      exact if_neg ha

/-- Weighted sums of the inertia. -/
theorem inertia_sum (C : Props) (hm : 0 ≤ C.lineMass) (n : Nat) (X : Nat → Nat → ℝ) (es : List CElm) (h : Good n X es) (u v : Nat → Nat → ℝ) (i : Fin 3) :
    ∑ a ∈ Finset.range n, inertia n v (all C es u) (a + 1) (i.val + 1) = overMass C es (fun e p => at1 e p v i) ∧
    ∀ (x : Nat → Nat → ℝ) (j : Fin 3), ∑ a ∈ Finset.range n, x (a + 1) (j.val + 1) * inertia n v (all C es u) (a + 1) (i.val + 1) = overMass C es (fun e p => at1 e p x j * at1 e p v i) := by
  have key := fun z => scatter n es (fun e he => (h e he).1) (fun e s => (e.pts.map fun p => p.N s * (C.lineMass * p.w * at1 e p v i)).sum) z
  have hi := inertia_all C hm n es (fun e he => (h e he).1) u v
  refine ⟨?_, fun x j => ?_⟩
  · have := key fun _ => 1
    simp only [one_mul] at this
    simp only [hi]
    rw [this]
    refine congrArg List.sum (List.map_congr_left fun e he => ?_)
    rw [sum_list e.nen e.pts fun s p => p.N s * (C.lineMass * p.w * at1 e p v i)]
    refine congrArg List.sum (List.map_congr_left fun p hp => ?_)
    rw [← Finset.sum_mul, ((h e he).2 p hp).zero, one_mul]
  · have := key fun a => x a (j.val + 1)
    simp only [hi]
    rw [this]
    refine congrArg List.sum (List.map_congr_left fun e he => ?_)
    simp only [mul_list]
    rw [sum_list e.nen e.pts fun s p => x (e.node (s + 1)) (j.val + 1) * (p.N s * (C.lineMass * p.w * at1 e p v i))]
    refine congrArg List.sum (List.map_congr_left fun p hp => ?_)
    rw [show C.lineMass * p.w * (at1 e p x j * at1 e p v i) = at1 e p x j * (C.lineMass * p.w * at1 e p v i) by ring]
    rw [show at1 e p x j = ∑ k ∈ Finset.range e.nen, p.N k * x (e.node (k + 1)) (j.val + 1) from rfl, Finset.sum_mul]
    exact Finset.sum_congr rfl fun s _ => by ring

theorem over_sub (C : Props) (es : List CElm) (f g : CElm → CPt → ℝ) : overMass C es f - overMass C es g = overMass C es fun e p => f e p - g e p := by
  unfold overMass
  rw [NLShellStatic.sub_list]
  refine congrArg List.sum (List.map_congr_left fun e _ => ?_)
  rw [NLShellStatic.sub_list]
  exact congrArg List.sum (List.map_congr_left fun p _ => by ring)

theorem over_mul (C : Props) (es : List CElm) (c : ℝ) (f : CElm → CPt → ℝ) : c * overMass C es f = overMass C es fun e p => c * f e p := by
  unfold overMass
  rw [mul_list]
  refine congrArg List.sum (List.map_congr_left fun e _ => ?_)
  rw [mul_list]
  exact congrArg List.sum (List.map_congr_left fun p _ => by ring)

/-! ### Motions -/

theorem residual_static (C : Props) (n : Nat) (es : List CElm) (F u acc : Nat → Nat → ℝ) (a i : Nat) :
    residual n F acc (all C es u) a i = CableStatic.residual F (es.map fun e => (e, CableStatic.matE C e u, vecE C e u)) a i - inertia n acc (all C es u) a i := by
  simp only [residual, CableStatic.residual, all, List.map_map, Function.comp_def]

/-- C146 (rest): where the cable is curved, a state without accelerations solves the equations of motion exactly if it is converged in static analysis. -/
theorem C146_rest_partial (C : Props) (n : Nat) (X : Nat → Nat → ℝ) (es : List CElm) (h : Good n X es) (F : Nat → Nat → ℝ) (fixed : Nat → Nat → Prop) (u : Nat → Nat → ℝ) (hu : Curved es fun a i => X a i + u a i) :
    Motion C n es F fixed u (fun _ _ => 0) ↔ CableStatic.Converged C n es F u fixed u := by
  have hw := works C n X es h u hu
  have z : ∀ a i, inertia n (fun _ _ => 0) (all C es u) a i = 0 := fun a i => by simp [inertia, nodal]
  constructor
  · rintro ⟨r, h1, h2⟩
    rw [assemble_ok C es u hw] at h1
    cases h1
    refine ⟨_, CableStatic.assemble_ok C es u hw, fun a i ha hi hf => ?_, fun _ _ _ _ _ => rfl⟩
    have := h2 a i ha hi hf
    rwa [residual_static, z, sub_zero] at this
  · rintro ⟨r, h1, h2, -⟩
    rw [CableStatic.assemble_ok C es u hw] at h1
    cases h1
    refine ⟨_, assemble_ok C es u hw, fun a i ha hi hf => ?_⟩
    rw [residual_static, z, sub_zero]
    exact h2 a i ha hi hf

/-- C146 (momentum): when the equations of motion are met and the cable is curved, the reactions vanish where nothing is held, and together with loads and weight they are mass times acceleration, summed over the integration points;
their moments about any point, at the deformed positions, are the change of angular momentum. Missing: states in which the cable is straight in some point. -/
theorem C146_momentum_partial (C : Props) (hm : 0 ≤ C.lineMass) (n : Nat) (X : Nat → Nat → ℝ) (es : List CElm) (h : Good n X es) (F : Nat → Nat → ℝ) (fixed : Nat → Nat → Prop) (u acc : Nat → Nat → ℝ)
    (hu : Curved es fun a i => X a i + u a i) (hc : Motion C n es F fixed u acc) :
    ∃ r, assemble C u es = .ok r ∧ (∀ a i, a < n → i < 3 → ¬ fixed (a + 1) (i + 1) → -residual n F acc r (a + 1) (i + 1) = 0) ∧
      (∀ i : Fin 3, ∑ a ∈ Finset.range n, (-residual n F acc r (a + 1) (i.val + 1) + F (a + 1) (i.val + 1) + weight C es (a + 1) i) = overMass C es fun e p => at1 e p acc i) ∧
      ∀ (c : Fin 3 → ℝ) (i j : Fin 3), ∑ a ∈ Finset.range n,
        ((X (a + 1) (i.val + 1) + u (a + 1) (i.val + 1) - c i) * (-residual n F acc r (a + 1) (j.val + 1) + F (a + 1) (j.val + 1) + weight C es (a + 1) j) -
        (X (a + 1) (j.val + 1) + u (a + 1) (j.val + 1) - c j) * (-residual n F acc r (a + 1) (i.val + 1) + F (a + 1) (i.val + 1) + weight C es (a + 1) i)) =
        overMass C es fun e p => (at1 e p (fun a i => X a i + u a i) i - c i) * at1 e p acc j - (at1 e p (fun a i => X a i + u a i) j - c j) * at1 e p acc i := by
  have hw := works C n X es h u hu
  obtain ⟨r, h1, h2⟩ := hc
  rw [assemble_ok C es u hw] at h1
  cases h1
  obtain ⟨s, s1, -, s2, s3⟩ := CableStatic.C144_balance_partial C hm n X es h F u (fun _ _ => True) u hu ⟨_, CableStatic.assemble_ok C es u hw, fun _ _ _ _ hf => absurd trivial hf, fun _ _ _ _ _ => rfl⟩
  rw [CableStatic.assemble_ok C es u hw] at s1
  cases s1
  refine ⟨_, assemble_ok C es u hw, fun a i ha hi hf => by rw [h2 a i ha hi hf, neg_zero], fun i => ?_, fun c i j => ?_⟩
  · rw [← (inertia_sum C hm n X es h u acc i).1, ← sub_eq_zero, ← Finset.sum_sub_distrib, ← s2 i]
    exact Finset.sum_congr rfl fun a _ => by rw [residual_static]; ring
  · have key : ∀ i j : Fin 3, ∑ a ∈ Finset.range n, (X (a + 1) (i.val + 1) + u (a + 1) (i.val + 1) - c i) * inertia n acc (all C es u) (a + 1) (j.val + 1) =
        overMass C es fun e p => (at1 e p (fun a i => X a i + u a i) i - c i) * at1 e p acc j := by
      intro i j
      simp only [sub_mul]
      rw [Finset.sum_sub_distrib, ← Finset.mul_sum, (inertia_sum C hm n X es h u acc j).1, over_mul]
      have := (inertia_sum C hm n X es h u acc j).2 (fun a i => X a i + u a i) i
      rw [this, over_sub]
    rw [← over_sub, ← key i j, ← key j i, ← Finset.sum_sub_distrib, ← sub_eq_zero, ← Finset.sum_sub_distrib, ← s3 c i j]
    exact Finset.sum_congr rfl fun a _ => by rw [residual_static, residual_static]; ring

/-- C146 (kinetic energy): the mass matrix gives the kinetic energy of the cable with the velocities at the integration points, and is symmetric. -/
theorem C146_kinetic_partial (C : Props) (hm : 0 ≤ C.lineMass) (n : Nat) (X : Nat → Nat → ℝ) (es : List CElm) (h : Good n X es) (u : Nat → Nat → ℝ) (hu : Curved es fun a i => X a i + u a i) :
    ∃ r, assemble C u es = .ok r ∧ ∀ v w : Nat → Nat → ℝ, dotN 3 n w (inertia n v r) = overMass C es (fun e p => ∑ i : Fin 3, at1 e p w i * at1 e p v i) ∧ dotN 3 n w (inertia n v r) = dotN 3 n v (inertia n w r) ∧
      ((∀ e ∈ es, ∀ p ∈ e.pts, 0 ≤ p.w) → 0 ≤ dotN 3 n v (inertia n v r)) := by
  have main : ∀ v w : Nat → Nat → ℝ, dotN 3 n w (inertia n v (all C es u)) = overMass C es (fun e p => ∑ i : Fin 3, at1 e p w i * at1 e p v i) := by
    intro v w
    unfold dotN
    rw [Finset.sum_comm, Finset.sum_range (n := 3)]
    have := fun i : Fin 3 => (inertia_sum C hm n X es h u v i).2 w i
    rw [Finset.sum_congr rfl fun i _ => this i, Fin.sum_univ_three]
    unfold overMass
    rw [add_list, add_list]
    refine congrArg List.sum (List.map_congr_left fun e _ => ?_)
    rw [add_list, add_list]
    refine congrArg List.sum (List.map_congr_left fun p _ => ?_)
    simp only [Fin.sum_univ_three]
    ring
  refine ⟨_, assemble_ok C es u (works C n X es h u hu), fun v w => ⟨main v w, ?_, fun hp => ?_⟩⟩
  · rw [main, main]
    unfold overMass
    refine congrArg List.sum (List.map_congr_left fun e _ => congrArg List.sum (List.map_congr_left fun p _ => ?_))
    exact congrArg _ (Finset.sum_congr rfl fun i _ => mul_comm _ _)
  · rw [main]
    unfold overMass
    refine List.sum_nonneg fun x hx => ?_
    obtain ⟨e, he, rfl⟩ := List.mem_map.mp hx
    refine List.sum_nonneg fun y hy => ?_
    obtain ⟨p, hq, rfl⟩ := List.mem_map.mp hy
    exact mul_nonneg (mul_nonneg hm (hp e he p hq)) (Finset.sum_nonneg fun i _ => mul_self_nonneg _)

/-! ### Energy -/

section
variable {A B : V3 ℝ × V3 ℝ → V3 ℝ} {q : V3 ℝ × V3 ℝ}

theorem cross_diff (hA : ∀ k, DifferentiableAt ℝ (fun q => A q k) q) (hB : ∀ k, DifferentiableAt ℝ (fun q => B q k) q) (k : Fin 3) : DifferentiableAt ℝ (fun q => cross (A q) (B q) k) q := by
  fin_cases k
  · exact ((hA 1).mul (hB 2)).sub ((hA 2).mul (hB 1))
  · exact ((hA 2).mul (hB 0)).sub ((hA 0).mul (hB 2))
  · exact ((hA 0).mul (hB 1)).sub ((hA 1).mul (hB 0))

theorem len_diff (hA : ∀ k, DifferentiableAt ℝ (fun q => A q k) q) (h : 0 < len (A q)) : DifferentiableAt ℝ (fun q => len (A q)) q := by
  have := (((hA 0).mul (hA 0)).add ((hA 1).mul (hA 1))).add ((hA 2).mul (hA 2))
  exact this.sqrt (Real.sqrt_pos.mp h).ne'

theorem unit_diff (hA : ∀ k, DifferentiableAt ℝ (fun q => A q k) q) (h : 0 < len (A q)) (k : Fin 3) : DifferentiableAt ℝ (fun q => unit (A q) k) q := by
  simp only [unit, div_eq_mul_inv]
  exact (hA k).mul ((len_diff hA h).inv h.ne')
end

theorem energy_diff (EA EI w : ℝ) (dX ddX N0 : V3 ℝ) (q : V3 ℝ × V3 ℝ) (h : 0 < len (cross q.1 q.2)) : DifferentiableAt ℝ (fun q : V3 ℝ × V3 ℝ => Cable.energyAt EA EI w dX ddX N0 q.1 q.2) q := by
  have h1 : ∀ k : Fin 3, DifferentiableAt ℝ (fun q : V3 ℝ × V3 ℝ => q.1 k) q := fun k => by fun_prop
  have h2 : ∀ k : Fin 3, DifferentiableAt ℝ (fun q : V3 ℝ × V3 ℝ => q.2 k) q := fun k => by fun_prop
  have hb := unit_diff (cross_diff h1 h2) h
  have hn := unit_diff (cross_diff hb h1) (Cable.normal_len q.1 q.2 h)
  have e1 := (((((h1 0).mul (h1 0)).add ((h1 1).mul (h1 1))).add ((h1 2).mul (h1 2))).sub_const (dX 0 * dX 0 + dX 1 * dX 1 + dX 2 * dX 2)).mul_const (2 : ℝ)⁻¹
  have e2 := ((((h2 0).mul (hn 0)).add ((h2 1).mul (hn 1))).add ((h2 2).mul (hn 2))).sub_const (ddX 0 * N0 0 + ddX 1 * N0 1 + ddX 2 * N0 2)
  simp only [Cable.energyAt, div_eq_mul_inv]
  exact ((((e1.pow 2).const_mul EA).mul_const (2 : ℝ)⁻¹).add (((e2.pow 2).const_mul EI).mul_const (2 : ℝ)⁻¹)).const_mul (w * ((dX 0 * dX 0 + dX 1 * dX 1 + dX 2 * dX 2) ^ 2)⁻¹)

/-- Change of the derivatives of the position with the displacements of the nodes. -/
def dir (nen : Nat) (f : Cable.Basis) (V : Nat → V3 ℝ) : V3 ℝ × V3 ℝ := (fun i => ∑ k ∈ Finset.range nen, f.dN k * V k i, fun i => ∑ k ∈ Finset.range nen, f.d2N k * V k i)

theorem energy_line (nen : Nat) (EA EI w : ℝ) (dX ddX N0 : V3 ℝ) (f : Cable.Basis) (U V : Nat → V3 ℝ) (h : 0 < len (cross (Cable.current nen dX f.dN U) (Cable.current nen ddX f.d2N U))) :
    HasDerivAt (fun t : ℝ => Cable.energy nen EA EI w dX ddX N0 f (fun k i => U k i + t * V k i))
      (fderiv ℝ (fun q : V3 ℝ × V3 ℝ => Cable.energyAt EA EI w dX ddX N0 q.1 q.2) (Cable.current nen dX f.dN U, Cable.current nen ddX f.d2N U) (dir nen f V)) 0 := by
  have hd := (energy_diff EA EI w dX ddX N0 (Cable.current nen dX f.dN U, Cable.current nen ddX f.d2N U) h).hasFDerivAt
  have hl : HasDerivAt (fun t : ℝ => (Cable.current nen dX f.dN U, Cable.current nen ddX f.d2N U) + t • dir nen f V) (dir nen f V) 0 := by
    simpa using ((hasDerivAt_id (0 : ℝ)).smul_const (dir nen f V)).const_add (Cable.current nen dX f.dN U, Cable.current nen ddX f.d2N U)
  have hz : (Cable.current nen dX f.dN U, Cable.current nen ddX f.d2N U) = (Cable.current nen dX f.dN U, Cable.current nen ddX f.d2N U) + (0 : ℝ) • dir nen f V := by rw [zero_smul, add_zero]
  rw [hz] at hd
  have := hd.comp_hasDerivAt (0 : ℝ) hl
  rw [← hz] at this
  refine this.congr_of_eventuallyEq (Filter.Eventually.of_forall fun t => ?_)
  have e : ∀ (y : V3 ℝ) (N : Nat → ℝ), (fun i => y i + ∑ a ∈ Finset.range nen, N a * (U a i + t * V a i)) = Cable.current nen y N U + t • fun i => ∑ k ∈ Finset.range nen, N k * V k i := by
    intro y N
    funext i
    simp only [Cable.current, Pi.add_apply, Pi.smul_apply, smul_eq_mul, Finset.mul_sum]
    rw [add_assoc, ← Finset.sum_add_distrib]
    exact congrArg _ (Finset.sum_congr rfl fun a _ => by ring)
  simp only [Cable.energy, e]
  rfl

theorem dir_sum (nen : Nat) (f : Cable.Basis) (V : Nat → V3 ℝ) : dir nen f V = ∑ l ∈ Finset.range nen, ∑ j : Fin 3, V l j • dir nen f (fun k i => if k = l ∧ i = j then 1 else 0) := by
  have one : ∀ (N : Nat → ℝ) (l : Nat) (i j : Fin 3), l < nen → ∑ k ∈ Finset.range nen, N k * (if k = l ∧ i = j then (1 : ℝ) else 0) = if i = j then N l else 0 := by
    intro N l i j hl
    rw [Finset.sum_eq_single l]
    · simp
    · intro k _ hk; simp [hk]
    · intro hk; exact absurd (Finset.mem_range.mpr hl) hk
  refine Prod.ext ?_ ?_
  · funext i
    simp only [dir, Prod.fst_sum, Finset.sum_apply, Prod.smul_fst, Pi.smul_apply, smul_eq_mul]
    refine Finset.sum_congr rfl fun l hl => ?_
    simp only [one _ l i _ (Finset.mem_range.mp hl)]
    simp [mul_comm]
  · funext i
    simp only [dir, Prod.snd_sum, Finset.sum_apply, Prod.smul_snd, Pi.smul_apply, smul_eq_mul]
    refine Finset.sum_congr rfl fun l hl => ?_
    simp only [one _ l i _ (Finset.mem_range.mp hl)]
    simp [mul_comm]

/-- Power of the forces of a point. -/
theorem point_power (C : Props) (e : CElm) (p : CPt) (X : Nat → Nat → ℝ) (hs : CableStatic.Sound X e p) (u v : Nat → Nat → ℝ)
    (hc : 1 / 1000000000000 ≤ len (cross (fun i => ∑ k ∈ Finset.range e.nen, p.f.dN k * (X (e.node (k + 1)) (i.val + 1) + u (e.node (k + 1)) (i.val + 1)))
      (fun i => ∑ k ∈ Finset.range e.nen, p.f.d2N k * (X (e.node (k + 1)) (i.val + 1) + u (e.node (k + 1)) (i.val + 1))))) :
    HasDerivAt (fun t => CableStatic.pot C e p (e.disp (along u v t))) (∑ l ∈ Finset.range e.nen, ∑ j : Fin 3, v (e.node (l + 1)) (j.val + 1) *
      (-1 * ((out C e p (e.disp u)).S l j + p.N l * (C.lineMass * p.w * C.gravity j)))) 0 := by
  obtain ⟨A, hA⟩ := hs.axes
  have hn : CableStatic.normal p = A.N := by unfold CableStatic.normal; rw [hA]
  have c1 : Cable.current e.nen p.dX p.f.dN (e.disp u) = fun i => ∑ k ∈ Finset.range e.nen, p.f.dN k * (X (e.node (k + 1)) (i.val + 1) + u (e.node (k + 1)) (i.val + 1)) := by
    funext i; simp only [Cable.current, hs.first, CElm.disp, mul_add, Finset.sum_add_distrib]
  have c2 : Cable.current e.nen p.ddX p.f.d2N (e.disp u) = fun i => ∑ k ∈ Finset.range e.nen, p.f.d2N k * (X (e.node (k + 1)) (i.val + 1) + u (e.node (k + 1)) (i.val + 1)) := by
    funext i; simp only [Cable.current, hs.second, CElm.disp, mul_add, Finset.sum_add_distrib]
  rw [← c1, ← c2] at hc
  have hp : 0 < len (cross (Cable.current e.nen p.dX p.f.dN (e.disp u)) (Cable.current e.nen p.ddX p.f.d2N (e.disp u))) := lt_of_lt_of_le (by norm_num) hc
  have h1 := energy_line e.nen C.EA C.EI p.w p.dX p.ddX A.N p.f (e.disp u) (e.disp v) hp
  have hS : ∀ l, l < e.nen → ∀ j, fderiv ℝ (fun q : V3 ℝ × V3 ℝ => Cable.energyAt C.EA C.EI p.w p.dX p.ddX A.N q.1 q.2)
      (Cable.current e.nen p.dX p.f.dN (e.disp u), Cable.current e.nen p.ddX p.f.d2N (e.disp u)) (dir e.nen p.f fun k i => if k = l ∧ i = j then 1 else 0) = -(out C e p (e.disp u)).S l j := by
    intro l hl j
    obtain ⟨q, q1, q2⟩ := Cable.C45_forces p.f l j e.nen C.EA C.EI p.w p.dX p.ddX (e.disp u) A hl hA hc
    rw [CableStatic.out_eq C e p _ _ q1]
    have h3 := energy_line e.nen C.EA C.EI p.w p.dX p.ddX A.N p.f (e.disp u) (fun k i => if k = l ∧ i = j then 1 else 0) hp
    have e3 : (fun t : ℝ => Cable.energy e.nen C.EA C.EI p.w p.dX p.ddX A.N p.f fun k i => e.disp u k i + t * if k = l ∧ i = j then 1 else 0) =
        fun t => Cable.energy e.nen C.EA C.EI p.w p.dX p.ddX A.N p.f (Cable.push (e.disp u) l j t) := by
      funext t
      congr 1
      funext k i
      simp [Cable.push]
    rw [e3] at h3
    exact h3.unique q2
  rw [dir_sum, map_sum] at h1
  simp only [map_sum, map_smul, smul_eq_mul] at h1
  have h2 : HasDerivAt (fun t : ℝ => C.lineMass * p.w * ∑ i : Fin 3, C.gravity i * ∑ k ∈ Finset.range e.nen, p.N k * (e.disp u k i + t * e.disp v k i))
      (C.lineMass * p.w * ∑ i : Fin 3, C.gravity i * ∑ k ∈ Finset.range e.nen, p.N k * e.disp v k i) 0 := by
    refine (HasDerivAt.fun_sum fun i _ => (HasDerivAt.fun_sum fun k _ => ?_).const_mul (C.gravity i)).const_mul (C.lineMass * p.w)
    simpa using (((hasDerivAt_id (0 : ℝ)).mul_const (e.disp v k i)).const_add (e.disp u k i)).const_mul (p.N k)
  have h4 := h1.sub h2
  refine (h4.congr_of_eventuallyEq (Filter.Eventually.of_forall fun t => ?_)).congr_deriv ?_
  · unfold CableStatic.pot
    rw [hn]
    rfl
  · have e5 : C.lineMass * p.w * ∑ i : Fin 3, C.gravity i * ∑ k ∈ Finset.range e.nen, p.N k * e.disp v k i =
        ∑ l ∈ Finset.range e.nen, ∑ j : Fin 3, v (e.node (l + 1)) (j.val + 1) * (p.N l * (C.lineMass * p.w * C.gravity j)) := by
      simp only [Finset.mul_sum]
      rw [Finset.sum_comm]
      exact Finset.sum_congr rfl fun l _ => Finset.sum_congr rfl fun j _ => by simp only [CElm.disp]; ring
    rw [e5, ← Finset.sum_sub_distrib]
    refine Finset.sum_congr rfl fun l hl => ?_
    rw [← Finset.sum_sub_distrib]
    refine Finset.sum_congr rfl fun j _ => ?_
    rw [hS l (Finset.mem_range.mp hl)]
    simp only [CElm.disp]
    ring

/-- Power of the forces of all elements. -/
theorem all_power (C : Props) (hm : 0 ≤ C.lineMass) (n : Nat) (X : Nat → Nat → ℝ) (es : List CElm) (h : Good n X es) (u v : Nat → Nat → ℝ) (hu : Curved es fun a i => X a i + u a i) (F : Nat → Nat → ℝ) :
    HasDerivAt (fun t => CableStatic.energyAll C es (along u v t)) (∑ a ∈ Finset.range n, ∑ i ∈ Finset.range 3, v (a + 1) (i + 1) *
      (F (a + 1) (i + 1) - CableStatic.residual F (es.map fun e => (e, CableStatic.matE C e u, vecE C e u)) (a + 1) (i + 1))) 0 := by
  have h1 := deriv_sum es (fun e t => (e.pts.map fun p => CableStatic.pot C e p (e.disp (along u v t))).sum) _ fun e he =>
    deriv_sum e.pts (fun p t => CableStatic.pot C e p (e.disp (along u v t))) _ fun p hp => point_power C e p X ((h e he).2 p hp) u v (hu e he p hp)
  refine h1.congr_deriv ?_
  rw [Finset.sum_comm, Finset.sum_range (n := 3)]
  have e1 : ∀ i : Fin 3, ∑ a ∈ Finset.range n, v (a + 1) (i.val + 1) * (F (a + 1) (i.val + 1) - CableStatic.residual F (es.map fun e => (e, CableStatic.matE C e u, vecE C e u)) (a + 1) (i.val + 1)) =
      (es.map fun e => ∑ s ∈ Finset.range e.nen, v (e.node (s + 1)) (i.val + 1) * (e.pts.map fun p => -1 * ((out C e p (e.disp u)).S s i + p.N s * (C.lineMass * p.w * C.gravity i))).sum).sum := by
    intro i
    rw [← scatter n es (fun e he => (h e he).1) (fun e s => (e.pts.map fun p => -1 * ((out C e p (e.disp u)).S s i + p.N s * (C.lineMass * p.w * C.gravity i))).sum) fun a => v a (i.val + 1)]
    refine Finset.sum_congr rfl fun a _ => congrArg _ ?_
    rw [CableStatic.residual_eq C hm]
    have : weight C es (a + 1) i + (es.map fun e => ∑ s ∈ Finset.range e.nen, if e.node (s + 1) = a + 1 then force C e (e.disp u) s i else 0).sum =
        -1 * (es.map fun e => ∑ s ∈ Finset.range e.nen, if e.node (s + 1) = a + 1 then (e.pts.map fun p => -1 * ((out C e p (e.disp u)).S s i + p.N s * (C.lineMass * p.w * C.gravity i))).sum else 0).sum := by
      unfold weight force
      rw [add_list, mul_list]
      refine congrArg List.sum (List.map_congr_left fun e _ => ?_)
      rw [← Finset.sum_add_distrib, Finset.mul_sum]
      refine Finset.sum_congr rfl fun s _ => ?_
      by_cases hs : e.node (s + 1) = a + 1
      · rw [if_pos hs, if_pos hs, if_pos hs, ← mul_list, ← add_list]; ring
      · rw [if_neg hs, if_neg hs, if_neg hs]; ring
    linarith
  rw [Finset.sum_congr rfl fun i _ => e1 i, Fin.sum_univ_three, add_list, add_list]
  refine congrArg List.sum (List.map_congr_left fun e _ => ?_)
  rw [← sum_list e.nen e.pts fun l p => ∑ j : Fin 3, v (e.node (l + 1)) (j.val + 1) * (-1 * ((out C e p (e.disp u)).S l j + p.N l * (C.lineMass * p.w * C.gravity j)))]
  rw [← Finset.sum_add_distrib, ← Finset.sum_add_distrib]
  refine Finset.sum_congr rfl fun l _ => ?_
  rw [mul_list, mul_list, mul_list, add_list, add_list]
  exact congrArg List.sum (List.map_congr_left fun p _ => by rw [Fin.sum_univ_three])

/-- C146 (energy): when the equations of motion are met and the cable is curved, the power of reactions and loads is the rate of change of the kinetic energy and the strain energy minus the work of the weight, for any velocities `v`. -/
theorem C146_energy_partial (C : Props) (hm : 0 ≤ C.lineMass) (n : Nat) (X : Nat → Nat → ℝ) (es : List CElm) (h : Good n X es) (F : Nat → Nat → ℝ) (fixed : Nat → Nat → Prop) (u v acc : Nat → Nat → ℝ)
    (hu : Curved es fun a i => X a i + u a i) (hc : Motion C n es F fixed u acc) :
    ∃ r, assemble C u es = .ok r ∧ (∀ a i, a < n → i < 3 → ¬ fixed (a + 1) (i + 1) → -residual n F acc r (a + 1) (i + 1) = 0) ∧
      HasDerivAt (fun t => overMass C es (fun e p => 1 / 2 * ∑ i : Fin 3, at1 e p (along v acc t) i ^ 2) + CableStatic.energyAll C es (along u v t))
        (∑ a ∈ Finset.range n, ∑ i ∈ Finset.range 3, v (a + 1) (i + 1) * (-residual n F acc r (a + 1) (i + 1) + F (a + 1) (i + 1))) 0 := by
  have hw := works C n X es h u hu
  obtain ⟨r, h1, h2⟩ := hc
  rw [assemble_ok C es u hw] at h1
  cases h1
  refine ⟨_, assemble_ok C es u hw, fun a i ha hi hf => by rw [h2 a i ha hi hf, neg_zero], ?_⟩
  have k1 : HasDerivAt (fun t => overMass C es (fun e p => 1 / 2 * ∑ i : Fin 3, at1 e p (along v acc t) i ^ 2)) (overMass C es fun e p => ∑ i : Fin 3, at1 e p v i * at1 e p acc i) 0 := by
    refine deriv_sum es (fun e t => (e.pts.map fun p => C.lineMass * p.w * (1 / 2 * ∑ i : Fin 3, at1 e p (along v acc t) i ^ 2)).sum) _ fun e he =>
      deriv_sum e.pts (fun p t => C.lineMass * p.w * (1 / 2 * ∑ i : Fin 3, at1 e p (along v acc t) i ^ 2)) (fun p => C.lineMass * p.w * ∑ i : Fin 3, at1 e p v i * at1 e p acc i) fun p hp => ?_
    refine HasDerivAt.const_mul (C.lineMass * p.w) ?_
    have ha : ∀ t i, at1 e p (along v acc t) i = at1 e p v i + t * at1 e p acc i := by
      intro t i
      simp only [at1, along, Finset.mul_sum, ← Finset.sum_add_distrib]
      exact Finset.sum_congr rfl fun k _ => by ring
    simp only [ha]
    have hs : HasDerivAt (fun t : ℝ => ∑ i : Fin 3, (at1 e p v i + t * at1 e p acc i) ^ 2) (∑ i : Fin 3, 2 * (at1 e p v i * at1 e p acc i)) 0 := by
      refine HasDerivAt.fun_sum fun i _ => ?_
      have d : HasDerivAt (fun t : ℝ => at1 e p v i + t * at1 e p acc i) (at1 e p acc i) 0 := by
        simpa using ((hasDerivAt_id (0 : ℝ)).mul_const (at1 e p acc i)).const_add (at1 e p v i)
      refine (d.pow 2).congr_deriv ?_
      simp
      ring
    refine (hs.const_mul (1 / 2)).congr_deriv ?_
    rw [Finset.mul_sum]
    exact Finset.sum_congr rfl fun i _ => by ring
  have k2 := all_power C hm n X es h u v hu F
  obtain ⟨r', r1, r2⟩ := C146_kinetic_partial C hm n X es h u hu
  rw [assemble_ok C es u hw] at r1
  cases r1
  rw [← (r2 acc v).1] at k1
  refine (k1.add k2).congr_deriv ?_
  unfold dotN
  rw [← Finset.sum_add_distrib]
  refine Finset.sum_congr rfl fun a _ => ?_
  rw [← Finset.sum_add_distrib]
  refine Finset.sum_congr rfl fun i _ => ?_
  rw [residual_static]
  ring

/-! ### Histories -/

theorem deriv_at {α : Type} (l : List α) (f : α → ℝ → ℝ) (f' : α → ℝ) (t : ℝ) (h : ∀ e ∈ l, HasDerivAt (f e) (f' e) t) : HasDerivAt (fun s => (l.map fun e => f e s).sum) (l.map f').sum t := by
  induction l with
  | nil => simpa using hasDerivAt_const t (0 : ℝ)
  | cons e l ih =>
    simp only [List.map_cons, List.sum_cons]
    exact (h e (by simp)).add (ih fun e he => h e (by simp [he]))

theorem over_deriv (C : Props) (es : List CElm) (f : CElm → CPt → ℝ → ℝ) (f' : CElm → CPt → ℝ) (t : ℝ) (h : ∀ e p, HasDerivAt (f e p) (f' e p) t) : HasDerivAt (fun s => overMass C es fun e p => f e p s) (overMass C es f') t := by
  unfold overMass
  exact deriv_at es _ _ t fun e _ => deriv_at e.pts _ _ t fun p _ => (h e p).const_mul _

theorem at_deriv (e : CElm) (p : CPt) (y : ℝ → Nat → Nat → ℝ) (y' : Nat → Nat → ℝ) (t : ℝ) (h : ∀ a i, HasDerivAt (fun s => y s a i) (y' a i) t) (i : Fin 3) : HasDerivAt (fun s => at1 e p (y s) i) (at1 e p y' i) t := by
  unfold at1
  exact HasDerivAt.fun_sum fun k _ => (h _ _).const_mul _

/-- C146 (histories): along every motion in which the equations of motion are met at all times and the cable stays curved, the rate of change of the momentum of the cable is the sum of reactions, loads and weight, and the rate of
change of its angular momentum about any point is the sum of their moments at the deformed positions. -/
theorem C146_history_partial (C : Props) (hm : 0 ≤ C.lineMass) (n : Nat) (X : Nat → Nat → ℝ) (es : List CElm) (h : Good n X es) (F u vel acc : ℝ → Nat → Nat → ℝ) (fixed : Nat → Nat → Prop)
    (hu : ∀ t a i, HasDerivAt (fun s => u s a i) (vel t a i) t) (hv : ∀ t a i, HasDerivAt (fun s => vel s a i) (acc t a i) t) (hk : ∀ t, Curved es fun a i => X a i + u t a i) (hc : ∀ t, Motion C n es (F t) fixed (u t) (acc t)) (t : ℝ) :
    ∃ r, assemble C (u t) es = .ok r ∧ (∀ a i, a < n → i < 3 → ¬ fixed (a + 1) (i + 1) → -residual n (F t) (acc t) r (a + 1) (i + 1) = 0) ∧
      (∀ i : Fin 3, HasDerivAt (fun s => overMass C es fun e p => at1 e p (vel s) i)
        (∑ a ∈ Finset.range n, (-residual n (F t) (acc t) r (a + 1) (i.val + 1) + F t (a + 1) (i.val + 1) + weight C es (a + 1) i)) t) ∧
      ∀ (c : Fin 3 → ℝ) (i j : Fin 3), HasDerivAt (fun s => overMass C es fun e p => (at1 e p (fun a i => X a i + u s a i) i - c i) * at1 e p (vel s) j - (at1 e p (fun a i => X a i + u s a i) j - c j) * at1 e p (vel s) i)
        (∑ a ∈ Finset.range n, ((X (a + 1) (i.val + 1) + u t (a + 1) (i.val + 1) - c i) * (-residual n (F t) (acc t) r (a + 1) (j.val + 1) + F t (a + 1) (j.val + 1) + weight C es (a + 1) j) -
          (X (a + 1) (j.val + 1) + u t (a + 1) (j.val + 1) - c j) * (-residual n (F t) (acc t) r (a + 1) (i.val + 1) + F t (a + 1) (i.val + 1) + weight C es (a + 1) i))) t := by
  obtain ⟨r, h1, h2, h3, h4⟩ := C146_momentum_partial C hm n X es h (F t) fixed (u t) (acc t) (hk t) (hc t)
  refine ⟨r, h1, h2, fun i => ?_, fun c i j => ?_⟩
  · rw [h3 i]
    exact over_deriv C es _ _ t fun e p => at_deriv e p vel (acc t) t (hv t) i
  · rw [h4 c i j]
    refine over_deriv C es (fun e p s => (at1 e p (fun a i => X a i + u s a i) i - c i) * at1 e p (vel s) j - (at1 e p (fun a i => X a i + u s a i) j - c j) * at1 e p (vel s) i) _ t fun e p => ?_
    have hx := fun i => (at_deriv e p (fun s a i => X a i + u s a i) (vel t) t (fun a i => (hu t a i).const_add (X a i)) i).sub_const (c i)
    have hw := at_deriv e p vel (acc t) t (hv t)
    refine (((hx i).mul (hw j)).sub ((hx j).mul (hw i))).congr_deriv ?_
    ring

/-- C146 (free motions): without supports, loads and weight momentum and angular momentum never change while the cable stays curved. -/
theorem C146_free_partial (C : Props) (hm : 0 ≤ C.lineMass) (hg : C.gravity = fun _ => 0) (n : Nat) (X : Nat → Nat → ℝ) (es : List CElm) (h : Good n X es) (u vel acc : ℝ → Nat → Nat → ℝ)
    (hu : ∀ t a i, HasDerivAt (fun s => u s a i) (vel t a i) t) (hv : ∀ t a i, HasDerivAt (fun s => vel s a i) (acc t a i) t) (hk : ∀ t, Curved es fun a i => X a i + u t a i)
    (hc : ∀ t, Motion C n es (fun _ _ => 0) (fun _ _ => False) (u t) (acc t)) (t s : ℝ) :
    (∀ i : Fin 3, (overMass C es fun e p => at1 e p (vel t) i) = overMass C es fun e p => at1 e p (vel s) i) ∧
      ∀ (c : Fin 3 → ℝ) (i j : Fin 3), (overMass C es fun e p => (at1 e p (fun a i => X a i + u t a i) i - c i) * at1 e p (vel t) j - (at1 e p (fun a i => X a i + u t a i) j - c j) * at1 e p (vel t) i) =
        overMass C es fun e p => (at1 e p (fun a i => X a i + u s a i) i - c i) * at1 e p (vel s) j - (at1 e p (fun a i => X a i + u s a i) j - c j) * at1 e p (vel s) i := by
  have hl : ∀ a i, weight C es a i = 0 := fun a i => list_zero _ _ fun e he => Finset.sum_eq_zero fun k _ => by
    split
    · exact list_zero _ _ fun p hp => by simp [hg]
    · rfl
  have key := C146_history_partial C hm n X es h (fun _ _ _ => 0) u vel acc (fun _ _ => False) hu hv hk hc
  have zero : ∀ g : ℝ → ℝ, (∀ t, HasDerivAt g 0 t) → g t = g s := fun g hg => is_const_of_deriv_eq_zero (fun t => (hg t).differentiableAt) (fun t => (hg t).deriv) t s
  refine ⟨fun i => zero (fun s => overMass C es fun e p => at1 e p (vel s) i) fun t => ?_,
    fun c i j => zero (fun s => overMass C es fun e p => (at1 e p (fun a i => X a i + u s a i) i - c i) * at1 e p (vel s) j - (at1 e p (fun a i => X a i + u s a i) j - c j) * at1 e p (vel s) i) fun t => ?_⟩
  · obtain ⟨r, -, h2, h3, -⟩ := key t
    refine (h3 i).congr_deriv (Finset.sum_eq_zero fun a ha => ?_)
    rw [h2 a i (Finset.mem_range.mp ha) i.isLt id, hl, add_zero, add_zero]
  · obtain ⟨r, -, h2, -, h4⟩ := key t
    refine (h4 c i j).congr_deriv (Finset.sum_eq_zero fun a ha => ?_)
    rw [h2 a i (Finset.mem_range.mp ha) i.isLt id, h2 a j (Finset.mem_range.mp ha) j.isLt id, hl, hl]
    ring

/-! ### Examples -/

/-- A cable at rest in its curved initial state, and the one whose nodes all fall freely. -/
example (C : Props) (hm : 0 ≤ C.lineMass) : Good 3 (fun a i => CableStatic.vX a i + CableStatic.vU a i) [CableStatic.kE] ∧ Curved [CableStatic.kE] (fun a i => (CableStatic.vX a i + CableStatic.vU a i) + 0) ∧
    Motion C 3 [CableStatic.kE] (fun _ _ => 0) (fun _ _ => False) (fun _ _ => 0) (fun _ i => if h : 1 ≤ i ∧ i ≤ 3 then C.gravity ⟨i - 1, by omega⟩ else 0) := by
  have hk : Curved [CableStatic.kE] (fun a i => (CableStatic.vX a i + CableStatic.vU a i) + 0) := by
    simpa using CableStatic.k_curved
  refine ⟨CableStatic.k_good, hk, ?_⟩
  have hw := works C 3 _ [CableStatic.kE] CableStatic.k_good (fun _ _ => 0) hk
  obtain ⟨s, s1, s2⟩ := CableStatic.C144_rigid C hm 3 _ [CableStatic.kE] CableStatic.k_good CableStatic.k_curved (fun _ _ => 0) (fun a i => if a = i then 1 else 0) 0 (by
    simp [Shell.Rotation, Cable.dot, Bar.cross] <;> refine ⟨?_, ?_, ?_⟩ <;> funext i <;> fin_cases i <;> simp) (by
    intro a _ i; simp [NLShellStatic.turned])
  rw [CableStatic.assemble_ok C _ _ hw] at s1
  cases s1
  refine ⟨_, assemble_ok C _ _ hw, fun a i ha hi _ => ?_⟩
  have e1 := s2 (fun _ _ => 0) (a + 1) ⟨i, hi⟩
  have e2 := inertia_all C hm 3 [CableStatic.kE] (fun e he => (CableStatic.k_good e he).1) (fun _ _ => 0) (fun _ i => if h : 1 ≤ i ∧ i ≤ 3 then C.gravity ⟨i - 1, by omega⟩ else 0) (a + 1) ⟨i, hi⟩
  simp only at e1 e2
  rw [residual_static, e1, e2, zero_add, sub_eq_zero]
  unfold weight
  refine congrArg List.sum (List.map_congr_left fun e he => Finset.sum_congr rfl fun k _ => ?_)
  have : ∀ p ∈ e.pts, at1 e p (fun _ i => if h : 1 ≤ i ∧ i ≤ 3 then C.gravity ⟨i - 1, by omega⟩ else 0) ⟨i, hi⟩ = C.gravity ⟨i, hi⟩ := by
    intro p hp
    have hi' : 1 ≤ i + 1 ∧ i + 1 ≤ 3 := by omega
    simp only [at1, dif_pos hi']
    rw [← Finset.sum_mul, ((CableStatic.k_good e he).2 p hp).zero, one_mul]
    rfl
  rw [show (e.pts.map fun p => p.N k * (C.lineMass * p.w * at1 e p (fun _ i => if h : 1 ≤ i ∧ i ≤ 3 then C.gravity ⟨i - 1, by omega⟩ else 0) ⟨i, hi⟩)) =
    e.pts.map fun p => p.N k * (C.lineMass * p.w * C.gravity ⟨i, hi⟩) from List.map_congr_left fun p hp => by rw [this p hp]]

/-- The curved cable without weight can move with constant velocity: a history to which `C146_history_partial` and `C146_free_partial` apply. -/
example (C : Props) (hm : 0 ≤ C.lineMass) (hg : C.gravity = fun _ => 0) (c : Nat → ℝ) : (∀ t : ℝ, Curved [CableStatic.kE] fun a i => (CableStatic.vX a i + CableStatic.vU a i) + t * c i) ∧
    (∀ t : ℝ, Motion C 3 [CableStatic.kE] (fun _ _ => 0) (fun _ _ => False) (fun _ i => t * c i) fun _ _ => 0) ∧ ∀ t (_ : Nat) i, HasDerivAt (fun s : ℝ => s * c i) (c i) t := by
  have hk : ∀ t : ℝ, Curved [CableStatic.kE] fun a i => (CableStatic.vX a i + CableStatic.vU a i) + t * c i := by
    intro t e he p hp
    have hs := (CableStatic.k_good e he).2 p hp
    have := CableStatic.k_curved e he p hp
    simp only [mul_add, Finset.sum_add_distrib, ← Finset.sum_mul, hs.one, hs.two, zero_mul, add_zero] at this ⊢
    exact this
  refine ⟨hk, fun t => ?_, fun t _ i => by simpa using (hasDerivAt_id t).mul_const (c i)⟩
  have hw := works C 3 _ [CableStatic.kE] CableStatic.k_good (fun _ i => t * c i) (hk t)
  obtain ⟨s, s1, s2⟩ := CableStatic.C144_rigid C hm 3 _ [CableStatic.kE] CableStatic.k_good CableStatic.k_curved (fun _ i => t * c i) (fun a i => if a = i then 1 else 0) (fun i => t * c (i.val + 1)) (by
    simp [Shell.Rotation, Cable.dot, Bar.cross] <;> refine ⟨?_, ?_, ?_⟩ <;> funext i <;> fin_cases i <;> simp) (by
    intro a _ i; simp [NLShellStatic.turned, add_comm])
  rw [CableStatic.assemble_ok C _ _ hw] at s1
  cases s1
  refine ⟨_, assemble_ok C _ _ hw, fun a i ha hi _ => ?_⟩
  have e1 := s2 (fun _ _ => 0) (a + 1) ⟨i, hi⟩
  simp only at e1
  rw [residual_static, e1]
  simp [inertia, nodal, weight, hg]

end Verif.CableDynamic
