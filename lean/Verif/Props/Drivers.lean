/-
Properties C17 (arc-length), C18 (nonlinear driver) and C19 (modal driver).
-/
import Verif.Model.Drivers
import Mathlib.Tactic.Linarith
import Mathlib.Tactic.Ring
import Mathlib.Tactic.FieldSimp
import Mathlib.Tactic.Positivity
import Mathlib.Tactic.NormNum

set_option linter.unusedSectionVars false
set_option linter.unusedSimpArgs false
set_option linter.unusedVariables false

namespace Verif.Drivers

/-! ### C17: arc-length -/

theorem dot_self_nonneg {n : Nat} (a : Fin n → ℝ) : 0 ≤ dot a a :=
  Finset.sum_nonneg fun i _ => mul_self_nonneg _

theorem dot_add_smul {n : Nat} (a b c : Fin n → ℝ) (d : ℝ) :
    dot a (fun i => b i + d * c i) = dot a b + d * dot a c := by
  unfold dot
  rw [Finset.mul_sum, ← Finset.sum_add_distrib]
  exact Finset.sum_congr rfl fun i _ => by ring

theorem norm2_sq {n : Nat} (t : Fin n → ℝ) : norm2 t * norm2 t = dot t t :=
  Real.mul_self_sqrt (dot_self_nonneg t)

/-- C17: the predictor travels the prescribed arc length in the measure of each variant:
`Δλ²(1 + |t|²)`, `Δλ²(β|g|² + |t|²)` or `Δλ²|t|²` equals the squared arc length. -/
theorem C17_predictor {n : Nat} (beta arclen lg : ℝ) (t : Fin n → ℝ)
    (inc : Option (Fin n → ℝ)) :
    let d := predictor beta arclen lg t inc
    (beta < 0 → d ^ 2 * (1 + dot t t) = arclen ^ 2) ∧
    (0 < beta → (lg ≠ 0 ∨ dot t t ≠ 0) → d ^ 2 * (beta * lg ^ 2 + dot t t) = arclen ^ 2) ∧
    (beta = 0 → dot t t ≠ 0 → d ^ 2 * dot t t = arclen ^ 2) := by
  have ht := dot_self_nonneg t
  have hsq : predictor beta arclen lg t inc ^ 2 = (if beta < 0 then
      arclen / Real.sqrt (1 + norm2 t * norm2 t)
    else if 0 < beta then arclen / Real.sqrt (beta * lg * lg + norm2 t * norm2 t)
    else arclen / norm2 t) ^ 2 := by
    cases inc with
    | none => rfl
    | some u =>
      unfold predictor
      simp only []
      split_ifs <;> ring
  refine ⟨fun hb => ?_, fun hb hne => ?_, fun hb hne => ?_⟩
  · rw [hsq, if_pos hb, norm2_sq, div_pow, Real.sq_sqrt (by linarith)]
    field_simp
  · have hpos : 0 < beta * lg * lg + dot t t := by
      rcases hne with h | h
      · have : 0 < beta * lg * lg := by
          rw [mul_assoc]; exact mul_pos hb (mul_self_pos.2 h)
        linarith
      · have h1 : 0 < dot t t := lt_of_le_of_ne ht (Ne.symm h)
        have : 0 ≤ beta * lg * lg := by
          rw [mul_assoc]; exact mul_nonneg hb.le (mul_self_nonneg _)
        linarith
    rw [hsq, if_neg (not_lt.2 hb.le), if_pos hb, norm2_sq, div_pow, Real.sq_sqrt hpos.le,
      show beta * lg ^ 2 + dot t t = beta * lg * lg + dot t t by ring]
    exact div_mul_cancel₀ _ hpos.ne'
  · subst hb
    simp only [lt_irrefl, if_false] at hsq ⊢
    rw [hsq, div_pow, show norm2 t ^ 2 = dot t t by rw [sq]; exact norm2_sq t]
    field_simp

/-- C17: the predictor does not turn back: its tangent part never points against the increment of
the previous step. -/
theorem C17_direction {n : Nat} (beta arclen lg : ℝ) (ha : 0 ≤ arclen) (t u : Fin n → ℝ) :
    0 ≤ predictor beta arclen lg t (some u) * dot u t := by
  have hd : ∀ x : ℝ, 0 ≤ x → 0 ≤ (if dot u t < 0 then -x else x) * dot u t := by
    intro x hx
    split_ifs with h
    · have : 0 ≤ x * (-dot u t) := mul_nonneg hx (by linarith)
      linarith
    · exact mul_nonneg hx (not_lt.1 h)
  unfold predictor
  simp only []
  apply hd
  split_ifs
  · exact div_nonneg ha (Real.sqrt_nonneg _)
  · exact div_nonneg ha (Real.sqrt_nonneg _)
  · exact div_nonneg ha (Real.sqrt_nonneg _)

/-- C17: every corrector of the first variant (`β < 0`) is orthogonal, in the space of
displacements and load factor, to the increment accumulated so far. The hypothesis is that the
divisor in the code is not zero. -/
theorem C17_corrector_secant {n : Nat} (beta : ℝ) (hb : beta < 0) (s : Arc n)
    (lin t : Fin n → ℝ) (hne : dot s.inc t + s.dlam ≠ 0) :
    let s' := correct beta s lin t
    dot s.inc (fun i => s'.inc i - s.inc i) + s.dlam * (s'.dlam - s.dlam) = 0 ∧
    s'.lam - s.lam = s'.dlam - s.dlam ∧
    ∀ i, s'.sol i - s.sol i = s'.inc i - s.inc i := by
  refine ⟨?_, ?_, ?_⟩
  · have h1 : (fun i => (correct beta s lin t).inc i - s.inc i) =
        fun i => lin i + corrector beta s lin t * t i := by
      funext i; simp only [correct]; ring
    have h2 : (correct beta s lin t).dlam - s.dlam = corrector beta s lin t := by
      simp only [correct]; ring
    rw [h1, h2, dot_add_smul]
    unfold corrector
    rw [if_pos hb]
    field_simp
    ring
  · simp only [correct]; ring
  · intro i; simp only [correct]; ring

/-- C17: every corrector of the other variants is orthogonal to the current tangent `(t,1)`; the
divisor in the code is never zero. -/
theorem C17_corrector_tangent {n : Nat} (beta : ℝ) (hb : 0 ≤ beta) (s : Arc n)
    (lin t : Fin n → ℝ) :
    let s' := correct beta s lin t
    1 + dot t t ≠ 0 ∧
    dot t (fun i => s'.inc i - s.inc i) + (s'.dlam - s.dlam) = 0 ∧
    s'.lam - s.lam = s'.dlam - s.dlam ∧
    ∀ i, s'.sol i - s.sol i = s'.inc i - s.inc i := by
  have hpos : 1 + dot t t ≠ 0 := by have := dot_self_nonneg t; linarith
  refine ⟨hpos, ?_, ?_, ?_⟩
  · have h1 : (fun i => (correct beta s lin t).inc i - s.inc i) =
        fun i => lin i + corrector beta s lin t * t i := by
      funext i; simp only [correct]; ring
    have h2 : (correct beta s lin t).dlam - s.dlam = corrector beta s lin t := by
      simp only [correct]; ring
    rw [h1, h2, dot_add_smul]
    unfold corrector
    rw [if_neg (not_lt.2 hb)]
    field_simp
    ring
  · simp only [correct]; ring
  · intro i; simp only [correct]; ring

/-- C17: over any number of correctors the accumulated increment is the change since the start of
the step, for displacements and load factor alike. -/
theorem C17_accumulated {n : Nat} (beta arclen lg lam0 : ℝ) (lin t : Fin n → ℝ)
    (inc : Option (Fin n → ℝ)) (sol0 : Fin n → ℝ) (l : List ((Fin n → ℝ) × (Fin n → ℝ))) :
    let s := l.foldl (fun s x => correct beta s x.1 x.2) (predict beta arclen lg lin t inc lam0 sol0)
    s.lam = lam0 + s.dlam ∧ ∀ i, s.sol i = sol0 i + s.inc i := by
  intro s
  have key : ∀ (l : List ((Fin n → ℝ) × (Fin n → ℝ))) (a : Arc n),
      (a.lam = lam0 + a.dlam ∧ ∀ i, a.sol i = sol0 i + a.inc i) →
      (let s := l.foldl (fun s x => correct beta s x.1 x.2) a
       s.lam = lam0 + s.dlam ∧ ∀ i, s.sol i = sol0 i + s.inc i) := by
    intro l
    induction l with
    | nil => intro a h; exact h
    | cons x l ih =>
      intro a h
      apply ih
      refine ⟨?_, fun i => ?_⟩
      · simp only [correct]; rw [h.1]; ring
      · simp only [correct]; rw [h.2 i]; ring
  exact key l _ ⟨rfl, fun i => rfl⟩

example : ∃ (s : Arc 1) (t : Fin 1 → ℝ), dot s.inc t + s.dlam ≠ 0 ∧ dot t t ≠ 0 :=
  ⟨⟨0, 1, fun _ => 1, fun _ => 0⟩, fun _ => 1, by norm_num [dot], by norm_num [dot]⟩

section check
variable {K : Type*} [Field K] [LinearOrder K] [IsStrictOrderedRing K]

/-- C17: the corrector loop ends: at most `maxit + 1` convergence checks are made, whatever the
norms are, and its status is never "not converged yet". -/
theorem C17_terminates (c : CPrm K) (maxit : Nat) (o : Nat → Ite K) (s : CSt K) (iter : Nat)
    (he : ∀ i e, (o i).err = some e → e = .failure ∨ e = .diverged) :
    (arcLoop c maxit o iter s).2 ≤ maxit + 1 - iter ∧
    ((arcLoop c maxit o iter s).1 = .converged ∨ (arcLoop c maxit o iter s).1 = .diverged ∨
     (arcLoop c maxit o iter s).1 = .failure) := by
  induction h : maxit + 1 - iter generalizing iter s with
  | zero =>
    unfold arcLoop
    rw [if_neg (by omega)]
    simp
  | succ k ih =>
    unfold arcLoop
    rw [if_pos (by omega)]
    rcases hc : check c s iter (o iter).x with ⟨st, s'⟩
    have hgo : ∀ r : Conv × Nat, (match (o iter).err with
        | some e => (e, 1)
        | none => ((arcLoop c maxit o (iter + 1) s').1, (arcLoop c maxit o (iter + 1) s').2 + 1)) = r →
        r.2 ≤ k + 1 ∧ (r.1 = .converged ∨ r.1 = .diverged ∨ r.1 = .failure) := by
      intro r hr
      cases he' : (o iter).err with
      | some e =>
        rw [he'] at hr
        simp only [] at hr
        subst hr
        refine ⟨by simp, ?_⟩
        rcases he iter e he' with h | h <;> simp [h]
      | none =>
        rw [he'] at hr
        simp only [] at hr
        subst hr
        have := ih s' (iter + 1) (by omega)
        refine ⟨?_, this.2⟩
        simp only []; omega
    cases st with
    | converged => simp only []; refine ⟨by omega, ?_⟩; split_ifs <;> simp
    | diverged => simp
    | ok => exact hgo _ rfl
    | slow => exact hgo _ rfl
    | failure => exact hgo _ rfl

/-- C17: exhausting the iterations is reported as divergence, and "converged" is only reported
when the last convergence check said so and the norms could be computed. -/
theorem C17_converged (c : CPrm K) (maxit : Nat) (o : Nat → Ite K) (iter : Nat) (s : CSt K)
    (he : ∀ i e, (o i).err = some e → e = .failure ∨ e = .diverged) :
    (maxit < iter → (arcLoop c maxit o iter s).1 = .diverged) ∧
    ((arcLoop c maxit o iter s).1 = .converged →
      ∃ i s', iter ≤ i ∧ i ≤ maxit ∧ (check c s' i (o i).x).1 = .converged ∧
        (o i).normsOk = true) := by
  constructor
  · intro h
    unfold arcLoop
    rw [if_neg (by omega)]
  · intro h
    induction hk : maxit + 1 - iter generalizing iter s with
    | zero =>
      unfold arcLoop at h
      rw [if_neg (by omega)] at h
      simp at h
    | succ k ih =>
      unfold arcLoop at h
      rw [if_pos (by omega)] at h
      rcases hc : check c s iter (o iter).x with ⟨st, s'⟩
      rw [hc] at h
      have hgo : (match (o iter).err with
          | some e => (e, 1)
          | none => ((arcLoop c maxit o (iter + 1) s').1,
              (arcLoop c maxit o (iter + 1) s').2 + 1)).1 = Conv.converged →
          ∃ i s', iter ≤ i ∧ i ≤ maxit ∧ (check c s' i (o i).x).1 = .converged ∧
            (o i).normsOk = true := by
        intro h
        cases he' : (o iter).err with
        | some e =>
          rw [he'] at h
          simp only [] at h
          rcases he iter e he' with h' | h' <;> rw [h'] at h <;> simp at h
        | none =>
          rw [he'] at h
          obtain ⟨i, s2, h1, h2, h3⟩ := ih (iter + 1) s' h (by omega)
          exact ⟨i, s2, by omega, h2, h3⟩
      cases st with
      | converged =>
        simp only [] at h
        refine ⟨iter, s, le_refl _, by omega, by rw [hc], ?_⟩
        by_contra hn
        rw [if_neg hn] at h
        simp at h
      | diverged => simp at h
      | ok => exact hgo h
      | slow => exact hgo h
      | failure => exact hgo h

/-- C17: the status of an iteration after the first, in terms of the scaled norm `r`:
converged below the tolerance; diverged on a NaN, or when the norm has grown more than `maxIncr`
times in a row or above the divergence limit; slow when it is reduced by less than ten. -/
theorem C17_status (c : CPrm K) (s : CSt K) (iter : Nat) (hi : 0 < iter) (x : Nrm K) :
    let r := x.norm / s.refNorm
    ((check c s iter x).1 = .converged ↔ |r| < s.convTol) ∧
    ((check c s iter x).1 = .diverged ↔ ¬ |r| < s.convTol ∧ (x.nan = true ∨
      |s.prev| < |r| ∧ (c.maxIncr < s.nInc + 1 ∨ c.divg < |r|))) ∧
    ((check c s iter x).1 = .slow ↔ (check c s iter x).1 ≠ .converged ∧
      (check c s iter x).1 ≠ .diverged ∧ 1 < iter ∧ 0 < s.prev ∧ s.prev / 10 < |r|) ∧
    ((check c s iter x).1 ≠ .failure) := by
  intro r
  have h0 : ¬ iter = 0 := by omega
  have hsc : scale c s iter x = (r, s) := by simp only [scale, if_neg h0]; rfl
  have e : check c s iter x =
      (let st : Conv := if iter > 1 ∧ s.prev > 0 ∧ |r| > s.prev * (1 / 10) then .slow else .ok
       if |r| < s.convTol ∧ (iter > 0 ∨ c.refAll = true) then (.converged, { s with prev := r })
       else if x.nan = true then (.diverged, { s with prev := r })
       else if |r| ≤ |s.prev| then (st, { s with nInc := 0, prev := r })
       else (if s.nInc + 1 > c.maxIncr ∨ |r| > c.divg then .diverged else st,
         { s with nInc := s.nInc + 1, prev := r })) := by
    unfold check
    rw [if_neg (fun h => h0 h.1), hsc]
  have hst : ∀ b : Prop, ∀ [Decidable b], (if b then Conv.slow else Conv.ok) ≠ .converged ∧
      (if b then Conv.slow else Conv.ok) ≠ .diverged ∧
      (if b then Conv.slow else Conv.ok) ≠ .failure := by
    intro b _; split_ifs <;> simp
  rw [e]
  by_cases h1 : |r| < s.convTol
  · simp only [h1, hi, true_or, and_self, if_true]
    simp
  · simp only [h1, false_and, if_false]
    by_cases h2 : x.nan = true
    · simp [h2]
    · simp only [h2, if_false]
      by_cases h3 : |r| ≤ |s.prev|
      · simp only [if_pos h3]
        refine ⟨by simp [(hst _).1], ?_, ?_, (hst _).2.2⟩
        · simp [(hst _).2.1, not_lt.2 h3]
        · rw [if_neg (by simp), show s.prev / 10 = s.prev * (1 / 10) by rw [div_eq_mul_one_div]]
          by_cases h4 : iter > 1 ∧ s.prev > 0 ∧ |r| > s.prev * (1 / 10)
          · rw [if_pos h4]; exact ⟨fun _ => ⟨by simp, by simp, h4⟩, fun _ => rfl⟩
          · rw [if_neg h4]; exact ⟨fun h => by simp at h, fun h => absurd h.2.2 h4⟩
      · simp only [if_neg h3]
        have h3' := not_le.1 h3
        by_cases h4 : s.nInc + 1 > c.maxIncr ∨ |r| > c.divg
        · simp only [if_pos h4]
          refine ⟨by simp, ?_, by simp, by simp⟩
          refine ⟨fun _ => ?_, fun _ => rfl⟩
          exact ⟨not_false, Or.inr ⟨h3', h4⟩⟩
        · simp only [if_neg h4]
          refine ⟨by simp [(hst _).1], ?_, ?_, (hst _).2.2⟩
          · constructor
            · intro h; exact absurd h (hst _).2.1
            · rintro ⟨_, h | h⟩
              · simp at h
              · exact absurd h.2 h4
          · rw [if_neg (by simp), show s.prev / 10 = s.prev * (1 / 10) by rw [div_eq_mul_one_div]]
            by_cases h5 : iter > 1 ∧ s.prev > 0 ∧ |r| > s.prev * (1 / 10)
            · rw [if_pos h5]; exact ⟨fun _ => ⟨by simp, by simp, h5⟩, fun _ => rfl⟩
            · rw [if_neg h5]; exact ⟨fun h => by simp at h, fun h => absurd h.2.2 h5⟩

/-- C17: the first iteration fixes the tolerance: with `ref` the larger of the reference norm so
far and the first norm (always the first norm with the option "all"), a later iteration meets the
convergence criterion of `C17_status` exactly when its norm is below the larger of the absolute
tolerance and `rTol * ref`. The first iteration itself counts as converged when nothing changes, or
with the option "all" when its norm is below that tolerance. -/
theorem C17_tolerance (c : CPrm K) (s : CSt K) (x : Nrm K) (hs : 0 < s.refNorm) (ha : 0 ≤ c.aTol) :
    let ref := if c.refAll = true then |x.norm| else max |x.norm| s.refNorm
    let s' := (scale c s 0 x).2
    (∀ y : K, |y / s'.refNorm| < s'.convTol ↔ |y| < max c.aTol (c.rTol * ref)) ∧
    ((check c s 0 x).1 = .converged ↔ (x.nan = false ∧ x.lin = 0) ∨
      (c.refAll = true ∧ |x.norm| < max c.aTol (c.rTol * ref))) := by
  intro ref s'
  have href : ref = if c.refAll = true ∨ |x.norm| > s.refNorm then |x.norm| else s.refNorm := by
    simp only [ref]
    by_cases h1 : c.refAll = true
    · simp [h1]
    · rw [if_neg h1]
      by_cases h2 : |x.norm| > s.refNorm
      · rw [if_pos (Or.inr h2), max_eq_left h2.le]
      · rw [if_neg (fun h => h.elim h1 h2), max_eq_right (not_lt.1 h2)]
  have hr0 : 0 ≤ ref := by
    simp only [ref]; split_ifs
    · exact abs_nonneg _
    · exact le_max_of_le_left (abs_nonneg _)
  have hsc : scale c s 0 x = if ref * c.rTol > c.aTol then
      (x.norm / ref, ⟨ref, c.rTol, x.norm / ref, 0⟩) else (x.norm, ⟨1, c.aTol, x.norm, 0⟩) := by
    simp only [scale, if_true]; rw [← href]
  have key : ∀ y : K, |y / s'.refNorm| < s'.convTol ↔ |y| < max c.aTol (c.rTol * ref) := by
    intro y
    simp only [s']
    rw [hsc]
    by_cases h : ref * c.rTol > c.aTol
    · rw [if_pos h]
      simp only []
      have hr : 0 < ref := by
        rcases hr0.lt_or_eq with h' | h'
        · exact h'
        · rw [← h'] at h; simp only [zero_mul] at h; exact absurd h (not_lt.2 ha)
      rw [abs_div, abs_of_pos hr, div_lt_iff₀ hr, max_eq_right]
      rw [mul_comm]; exact h.le
    · rw [if_neg h]
      simp only [div_one]
      rw [max_eq_left]
      rw [mul_comm]; exact not_lt.1 h
  refine ⟨key, ?_⟩
  by_cases hz : x.nan = false ∧ x.lin = 0
  · have : check c s 0 x = (.converged, s) := by
      unfold check; rw [if_pos ⟨rfl, hz⟩]
    rw [this]; simp [hz]
  · have hn : (scale c s 0 x).1 = x.norm / s'.refNorm := by
      simp only [s']; rw [hsc]; split_ifs <;> simp
    have e : (check c s 0 x).1 = .converged ↔
        |(scale c s 0 x).1| < s'.convTol ∧ c.refAll = true := by
      have hst : ∀ b : Prop, ∀ [Decidable b], (if b then Conv.slow else Conv.ok) ≠ .converged := by
        intro b _; split_ifs <;> simp
      unfold check
      rw [if_neg (fun h => hz h.2)]
      simp only []
      by_cases h1 : |(scale c s 0 x).1| < s'.convTol ∧ c.refAll = true
      · rw [if_pos ⟨h1.1, Or.inr h1.2⟩]; exact ⟨fun _ => h1, fun _ => rfl⟩
      · rw [if_neg (fun h => h1 ⟨h.1, h.2.resolve_left (lt_irrefl 0)⟩)]
        refine ⟨fun h => ?_, fun h => absurd h h1⟩
        exfalso
        by_cases h2 : x.nan = true
        · rw [if_pos h2] at h; simp at h
        · rw [if_neg h2] at h
          by_cases h3 : |(scale c s 0 x).1| ≤ |(scale c s 0 x).2.prev|
          · rw [if_pos h3] at h; simp only [] at h; exact hst _ h
          · rw [if_neg h3] at h
            simp only [] at h
            by_cases h4 : (scale c s 0 x).2.nInc + 1 > c.maxIncr ∨ |(scale c s 0 x).1| > c.divg
            · rw [if_pos h4] at h; simp at h
            · rw [if_neg h4] at h; exact hst _ h
    rw [e, hn, key]
    constructor
    · rintro ⟨a, b⟩; exact Or.inr ⟨b, a⟩
    · rintro (h | ⟨a, b⟩)
      · exact absurd h hz
      · exact ⟨b, a⟩

/-- Specification: the number of consecutive growths at the end of a history of norms (latest
first). -/
def growth : List K → Nat
  | a :: b :: l => if |b| < |a| then growth (b :: l) + 1 else 0
  | _ => 0

/-- The checks of a step that goes on: the state after the iterations with the given norms
(latest first), starting with iteration 0. -/
def hist (c : CPrm K) (s0 : CSt K) : List (Nrm K) → CSt K
  | [] => s0
  | x :: l => (check c (hist c s0 l) l.length x).2

/-- C17: as long as no iteration is reported converged or diverged, the counter equals the number
of consecutive growths of the scaled norm since iteration 0, so that "diverged" is reported
exactly when it exceeds its limit (see `C17_status`). -/
theorem C17_growth (c : CPrm K) (s0 : CSt K) (l : List (Nrm K))
    (h : ∀ x l', (x :: l') <:+ l →
      (check c (hist c s0 l') l'.length x).1 ≠ .converged ∧
      (check c (hist c s0 l') l'.length x).1 ≠ .diverged) (hl : l ≠ []) :
    (hist c s0 l).nInc = growth (l.map fun x => x.norm / (hist c s0 l).refNorm) ∧
    (∃ x l', l = x :: l' ∧ (hist c s0 l).prev = x.norm / (hist c s0 l).refNorm) := by
  induction l with
  | nil => exact absurd rfl hl
  | cons x l ih =>
    have hx := h x l (List.suffix_refl _)
    by_cases hl' : l = []
    · subst hl'
      simp only [List.map_cons, List.map_nil, growth, hist, List.length_nil] at *
      have hz : ¬ ((0 : Nat) = 0 ∧ x.nan = false ∧ x.lin = 0) := by
        intro hh
        apply hx.1
        unfold check
        rw [if_pos hh]
      have key : (scale c s0 0 x).2.prev = (scale c s0 0 x).1 ∧ (scale c s0 0 x).2.nInc = 0 ∧
          (scale c s0 0 x).1 = x.norm / (scale c s0 0 x).2.refNorm := by
        simp only [scale, if_true]
        by_cases hq : (if c.refAll = true ∨ |x.norm| > s0.refNorm then |x.norm|
            else s0.refNorm) * c.rTol > c.aTol
        · simp only [if_pos hq]; exact ⟨trivial, trivial, trivial⟩
        · simp only [if_neg hq]; exact ⟨trivial, trivial, by rw [div_one]⟩
      obtain ⟨k1, k2, k3⟩ := key
      have e : (check c s0 0 x).2 = { (scale c s0 0 x).2 with nInc := 0, prev := (scale c s0 0 x).1 } := by
        have hne := hx
        unfold check at hne ⊢
        rw [if_neg hz] at hne ⊢
        simp only [k1, le_refl, if_true] at hne ⊢
        split_ifs at hne ⊢ with h1 h2
        · exact absurd rfl hne.1
        · exact absurd rfl hne.2
        · rfl
        · rfl
      rw [e]
      exact ⟨rfl, x, [], rfl, k3⟩
    · have hi := ih (fun y l' hy => h y l' (hy.trans (List.suffix_cons x l))) hl'
      obtain ⟨hn, y, l'', rfl, hp⟩ := hi
      set s := hist c s0 (y :: l'') with hs
      have hlen : ¬ (y :: l'').length = 0 := by simp
      have hsc : scale c s (y :: l'').length x = (x.norm / s.refNorm, s) := by
        simp only [scale, if_neg hlen]
      have e : (check c s (y :: l'').length x).2 =
          if |x.norm / s.refNorm| ≤ |s.prev| then { s with nInc := 0, prev := x.norm / s.refNorm }
          else { s with nInc := s.nInc + 1, prev := x.norm / s.refNorm } := by
        have hne := hx
        unfold check at hne ⊢
        rw [if_neg (fun hh => hlen hh.1), hsc] at hne ⊢
        simp only [] at hne ⊢
        by_cases h1 : |x.norm / s.refNorm| < s.convTol ∧ ((y :: l'').length > 0 ∨ c.refAll = true)
        · rw [if_pos h1] at hne; exact absurd rfl hne.1
        · rw [if_neg h1] at hne ⊢
          by_cases h2 : x.nan = true
          · rw [if_pos h2] at hne; exact absurd rfl hne.2
          · rw [if_neg h2]
            split_ifs <;> rfl
      have hh : hist c s0 (x :: y :: l'') = (check c s (y :: l'').length x).2 := rfl
      have href : (hist c s0 (x :: y :: l'')).refNorm = s.refNorm := by
        rw [hh, e]; split_ifs <;> rfl
      rw [href]
      refine ⟨?_, x, y :: l'', rfl, ?_⟩
      · rw [hh, e]
        simp only [List.map_cons, growth]
        rw [hp]
        by_cases hg : |y.norm / s.refNorm| < |x.norm / s.refNorm|
        · rw [if_pos hg, if_neg (not_le.2 hg)]
          simp only []
          rw [hn]; rfl
        · rw [if_neg hg, if_pos (not_lt.1 hg)]
      · rw [hh, e]; split_ifs <;> rfl

example : growth [(3 : ℚ), 2, 1, 5] = 2 := by norm_num [growth]

end check

/-! ### C18: nonlinear driver -/

section nonlin
variable {K : Type*} [Field K] [LinearOrder K] [IsStrictOrderedRing K] {S : Type*}

theorem cutLoop_conv (prev : S) (l : List (K × (S → Conv × S))) (st : Conv) (t : K) (u : S)
    (h : st ≠ .diverged) : cutLoop prev l st t u = ((st, t, u), []) := by
  cases l with
  | nil => rfl
  | cons x l => obtain ⟨t', f⟩ := x; simp only [cutLoop, if_neg h]

/-- Every attempt of the cut-back loop starts from the previous solution. -/
theorem cutLoop_starts (prev : S) (l : List (K × (S → Conv × S))) (st : Conv) (t : K) (u : S) :
    ∀ x ∈ (cutLoop prev l st t u).2, x = prev := by
  induction l generalizing st t u with
  | nil => simp [cutLoop]
  | cons y l ih =>
    obtain ⟨t', f⟩ := y
    simp only [cutLoop]
    split_ifs
    · simp only [List.mem_cons]
      rintro x (rfl | h)
      · rfl
      · exact ih _ _ _ x h
    · simp

/-- The possible outcomes of one step. -/
theorem stepOnce_cases (dtSave stop : K) (s : DSt K S) (i : StepIn K S) :
    let a := i.att s.sol
    let r := cutLoop s.sol i.retry a.1 i.t a.2
    (stepOnce dtSave stop s i).1.sol = r.1.2.2 ∧
    (stepOnce dtSave stop s i).1.starts = s.starts ++ [s.sol :: r.2] ∧
    ((stepOnce dtSave stop s i).1.out = s.out ∧
      (stepOnce dtSave stop s i).1.nextSave = s.nextSave ∧
      ((stepOnce dtSave stop s i).2 = none → r.1.1 = .converged ∧ 0 < dtSave ∧ r.1.2.1 < s.nextSave) ∧
      (∀ e, (stepOnce dtSave stop s i).2 = some e →
        (r.1.1 ≠ .converged ∧ e = 7) ∨ i.pre = some e ∨ i.post = some e) ∨
     (stepOnce dtSave stop s i).2 = none ∧ r.1.1 = .converged ∧
      (stepOnce dtSave stop s i).1.out = s.out ++ [⟨i.t, r.1.2.1, .converged, r.1.2.2⟩] ∧
      (stepOnce dtSave stop s i).1.nextSave = (if i.t + dtSave > stop then stop else i.t + dtSave)) := by
  intro a r
  simp only [stepOnce]
  by_cases h1 : r.1.1 ≠ .converged
  · rw [if_pos h1]
    exact ⟨rfl, rfl, Or.inl ⟨rfl, rfl, by simp, fun e he => Or.inl ⟨h1, (Option.some.inj he).symm⟩⟩⟩
  · rw [if_neg h1]
    have hc := not_not.1 h1
    cases hp : i.pre with
    | some e => exact ⟨rfl, rfl, Or.inl ⟨rfl, rfl, by simp, fun e' he => Or.inr (Or.inl (by simpa using he))⟩⟩
    | none =>
      simp only []
      by_cases h2 : dtSave ≤ 0 ∨ s.nextSave ≤ r.1.2.1
      · rw [if_pos h2]
        cases hq : i.post with
        | some e =>
          exact ⟨rfl, rfl, Or.inl ⟨rfl, rfl, by simp, fun e' he => Or.inr (Or.inr (by simpa using he))⟩⟩
        | none =>
          refine ⟨rfl, rfl, Or.inr ⟨rfl, hc, ?_, rfl⟩⟩
          simp only [r, a] at hc
          simp only [hc, r, a]
      · rw [if_neg h2]
        push Not at h2
        exact ⟨rfl, rfl, Or.inl ⟨rfl, rfl, fun _ => ⟨hc, h2.1, h2.2⟩, by simp⟩⟩

/-- C18: when the first attempt of every step does not diverge (no cut-back is made), every saved
result carries the time of the step that produced it. Missing: runs with cut-backs, see
`C18_stamp_violated`. -/
theorem C18_stamp_partial (dtSave stop : K) (l : List (StepIn K S)) (s : DSt K S)
    (hl : ∀ i ∈ l, ∀ u, (i.att u).1 ≠ .diverged) (hs : ∀ r ∈ s.out, r.stamp = r.time) :
    ∀ r ∈ (driver dtSave stop l s).1.out, r.stamp = r.time := by
  induction l generalizing s with
  | nil => exact hs
  | cons i l ih =>
    have hc := stepOnce_cases dtSave stop s i
    simp only [cutLoop_conv _ _ _ _ _ (hl i (by simp) _)] at hc
    have hs' : ∀ r ∈ (stepOnce dtSave stop s i).1.out, r.stamp = r.time := by
      rcases hc.2.2 with h | h
      · rw [h.1]; exact hs
      · rw [h.2.2.1]
        intro r hr
        rw [List.mem_append, List.mem_singleton] at hr
        rcases hr with hr | rfl
        · exact hs r hr
        · rfl
    rcases ho : stepOnce dtSave stop s i with ⟨s', o⟩
    rw [ho] at hs'
    cases o with
    | some e => simp only [driver, ho]; exact hs'
    | none => simp only [driver, ho]; exact ih s' (fun j hj => hl j (by simp [hj])) hs'

/-- A step that first diverges at time 1 and then converges at time 1/2 after a cut-back is saved
with the time stamp 1. -/
theorem C18_stamp_violated :
    let i : StepIn ℚ Unit := ⟨1, fun u => (.diverged, u), [(1 / 2, fun u => (.converged, u))],
      none, none⟩
    ∃ r, (driver 0 10 [i] (driver0 0 0 ())).1.out = [r] ∧ r.status = .converged ∧
      r.time = 1 / 2 ∧ r.stamp = 1 := by
  refine ⟨⟨1, 1 / 2, .converged, ()⟩, ?_, rfl, rfl, rfl⟩
  simp [driver, stepOnce, cutLoop, driver0]

/-- C18: only results of converged steps are saved, whatever failures and cut-backs occur. -/
theorem C18_only_converged (dtSave stop : K) (l : List (StepIn K S)) (s : DSt K S)
    (hs : ∀ r ∈ s.out, r.status = .converged) :
    ∀ r ∈ (driver dtSave stop l s).1.out, r.status = .converged := by
  induction l generalizing s with
  | nil => exact hs
  | cons i l ih =>
    have hc := stepOnce_cases dtSave stop s i
    have hs' : ∀ r ∈ (stepOnce dtSave stop s i).1.out, r.status = .converged := by
      rcases hc.2.2 with h | h
      · rw [h.1]; exact hs
      · rw [h.2.2.1]
        intro r hr
        rw [List.mem_append, List.mem_singleton] at hr
        rcases hr with hr | rfl
        · exact hs r hr
        · rfl
    rcases ho : stepOnce dtSave stop s i with ⟨s', o⟩
    rw [ho] at hs'
    cases o with
    | some e => simp only [driver, ho]; exact hs'
    | none => simp only [driver, ho]; exact ih s' hs'

/-- C18: within a step, every attempt starts from the same solution, namely the one at the end of
the previous step: failed attempts leave no trace in the solution vector. -/
theorem C18_restart (dtSave stop : K) (s : DSt K S) (i : StepIn K S) :
    ∃ att, (stepOnce dtSave stop s i).1.starts = s.starts ++ [att] ∧ att ≠ [] ∧
      ∀ u ∈ att, u = s.sol := by
  refine ⟨_, (stepOnce_cases dtSave stop s i).2.1, by simp, ?_⟩
  intro u hu
  rw [List.mem_cons] at hu
  rcases hu with rfl | hu
  · rfl
  · exact cutLoop_starts _ _ _ _ _ u hu

/-- C18: the return status is zero exactly when all steps were done; a step that did not converge
gives the status 7 (post-processing errors have other, non-zero codes). -/
theorem C18_return (dtSave stop : K) (l : List (StepIn K S)) (s : DSt K S)
    (hpp : ∀ i ∈ l, ∀ e, i.pre = some e ∨ i.post = some e → e ≠ 0 ∧ e ≠ 7) :
    ((driver dtSave stop l s).2 = 0 → (driver dtSave stop l s).1.starts.length =
      s.starts.length + l.length) ∧
    ((driver dtSave stop l s).2 = 7 ↔ ∃ (l1 l2 : List (StepIn K S)) (i : StepIn K S),
      l = l1 ++ i :: l2 ∧ (driver dtSave stop l1 s).2 = 0 ∧
      (let u := (driver dtSave stop l1 s).1.sol
       (cutLoop u i.retry (i.att u).1 i.t (i.att u).2).1.1 ≠ .converged)) := by
  induction l generalizing s with
  | nil => simp [driver]
  | cons i l ih =>
    have hc := stepOnce_cases dtSave stop s i
    rcases ho : stepOnce dtSave stop s i with ⟨s', o⟩
    rw [ho] at hc
    have hih := ih s' (fun j hj => hpp j (by simp [hj]))
    have hlen : s'.starts.length = s.starts.length + 1 := by rw [hc.2.1]; simp
    have hdiv : (∃ (l1 l2 : List (StepIn K S)) (j : StepIn K S),
        i :: l = l1 ++ j :: l2 ∧ (driver dtSave stop l1 s).2 = 0 ∧
        (let u := (driver dtSave stop l1 s).1.sol
         (cutLoop u j.retry (j.att u).1 j.t (j.att u).2).1.1 ≠ .converged)) ↔
        (cutLoop s.sol i.retry (i.att s.sol).1 i.t (i.att s.sol).2).1.1 ≠ .converged ∨
        (o = none ∧ ∃ (l1 l2 : List (StepIn K S)) (j : StepIn K S),
          l = l1 ++ j :: l2 ∧ (driver dtSave stop l1 s').2 = 0 ∧
          (let u := (driver dtSave stop l1 s').1.sol
           (cutLoop u j.retry (j.att u).1 j.t (j.att u).2).1.1 ≠ .converged)) := by
      constructor
      · rintro ⟨l1, l2, j, h1, h2, h3⟩
        cases l1 with
        | nil =>
          simp only [List.nil_append, List.cons.injEq] at h1
          obtain ⟨rfl, rfl⟩ := h1
          exact Or.inl h3
        | cons k l1 =>
          simp only [List.cons_append, List.cons.injEq] at h1
          obtain ⟨rfl, rfl⟩ := h1
          cases o with
          | some e =>
            simp only [driver, ho] at h2
            exfalso
            subst h2
            rcases hc.2.2 with h | h
            · rcases h.2.2.2 0 rfl with h' | h'
              · simp at h'
              · exact (hpp i (by simp) 0 h').1 rfl
            · simp at h
          | none =>
            simp only [driver, ho] at h2 h3
            exact Or.inr ⟨rfl, l1, l2, j, rfl, h2, h3⟩
      · rintro (h | ⟨rfl, l1, l2, j, h1, h2, h3⟩)
        · exact ⟨[], l, i, rfl, rfl, h⟩
        · refine ⟨i :: l1, l2, j, by rw [h1]; rfl, ?_, ?_⟩
          · simp only [driver, ho]; exact h2
          · simp only [driver, ho]; exact h3
    rw [hdiv]
    cases o with
    | some e =>
      simp only [driver, ho]
      have hne : e ≠ 0 := by
        rcases hc.2.2 with h | h
        · rcases h.2.2.2 e rfl with h' | h'
          · rw [h'.2]; decide
          · exact (hpp i (by simp) e h').1
        · simp at h
      refine ⟨fun h => absurd h hne, ?_⟩
      constructor
      · intro h
        left
        rcases hc.2.2 with h' | h'
        · rcases h'.2.2.2 e rfl with h'' | h''
          · exact h''.1
          · exact absurd h ((hpp i (by simp) e h'').2)
        · simp at h'
      · rintro (h | ⟨h, _⟩)
        · have hst : (stepOnce dtSave stop s i).2 = some 7 := by
            simp only [stepOnce]; rw [if_pos h]
          rw [ho] at hst
          exact Option.some.inj hst
        · simp at h
    | none =>
      simp only [driver, ho]
      refine ⟨fun h => ?_, ?_⟩
      · rw [hih.1 h, hlen, List.length_cons]; omega
      · rw [hih.2]
        have hcv : (cutLoop s.sol i.retry (i.att s.sol).1 i.t (i.att s.sol).2).1.1 = .converged := by
          rcases hc.2.2 with h | h
          · exact (h.2.2.1 rfl).1
          · exact h.2.1
        simp [hcv]

theorem driver_append (dtSave stop : K) (l : List (StepIn K S)) (i : StepIn K S) (s : DSt K S)
    (h : (driver dtSave stop (l ++ [i]) s).2 = 0)
    (hpp : ∀ i ∈ l, ∀ e, i.pre = some e ∨ i.post = some e → e ≠ 0) :
    driver dtSave stop (l ++ [i]) s = driver dtSave stop [i] (driver dtSave stop l s).1 := by
  induction l generalizing s with
  | nil => rfl
  | cons j l ih =>
    have hc := stepOnce_cases dtSave stop s j
    rcases ho : stepOnce dtSave stop s j with ⟨s', o⟩
    rw [ho] at hc
    cases o with
    | some e =>
      exfalso
      simp only [List.cons_append, driver, ho] at h
      subst h
      rcases hc.2.2 with h | h
      · rcases h.2.2.2 0 rfl with h' | h'
        · simp at h'
        · exact hpp j (by simp) 0 h' rfl
      · simp at h
    | none =>
      simp only [List.cons_append, driver, ho] at h ⊢
      exact ih s' h (fun k hk => hpp k (by simp [hk]))

theorem nextSave_le (dtSave stop : K) (l : List (StepIn K S)) (s : DSt K S)
    (hn : s.nextSave ≤ stop) : (driver dtSave stop l s).1.nextSave ≤ stop := by
  induction l generalizing s with
  | nil => exact hn
  | cons i l ih =>
    have hc := stepOnce_cases dtSave stop s i
    rcases ho : stepOnce dtSave stop s i with ⟨s', o⟩
    rw [ho] at hc
    have hn' : s'.nextSave ≤ stop := by
      rcases hc.2.2 with h | h
      · have := h.2.1; simp only [] at this; rw [this]; exact hn
      · have := h.2.2.2; simp only [] at this; rw [this]
        split_ifs with h1
        · exact le_refl _
        · exact not_lt.1 h1
    cases o with
    | some e => simp only [driver, ho]; exact hn'
    | none => simp only [driver, ho]; exact ih s' hn'

/-- C18: if the first save is due within the simulated time span, the final step of a successful
run is saved, also after cut-backs: the last saved result is the final solution. Missing: a save
interval longer than the time span, see `C18_final_violated`. -/
theorem C18_final_partial (dtSave stop : K) (l : List (StepIn K S)) (i : StepIn K S)
    (s : DSt K S) (hn : s.nextSave ≤ stop)
    (h0 : (driver dtSave stop (l ++ [i]) s).2 = 0)
    (hpp : ∀ j ∈ l ++ [i], ∀ e, j.pre = some e ∨ j.post = some e → e ≠ 0)
    (hend : let u := (driver dtSave stop l s).1.sol
      stop ≤ (cutLoop u i.retry (i.att u).1 i.t (i.att u).2).1.2.1) :
    ∃ r, (driver dtSave stop (l ++ [i]) s).1.out.getLast? = some r ∧
      r.sol = (driver dtSave stop (l ++ [i]) s).1.sol := by
  have e := driver_append dtSave stop l i s h0 (fun j hj => hpp j (by simp [hj]))
  rw [e] at h0 ⊢
  have hn' := nextSave_le dtSave stop l s hn
  set s1 := (driver dtSave stop l s).1 with hs1
  have hc := stepOnce_cases dtSave stop s1 i
  rcases ho : stepOnce dtSave stop s1 i with ⟨s', o⟩
  rw [ho] at hc
  cases o with
  | some e =>
    exfalso
    simp only [driver, ho] at h0
    subst h0
    rcases hc.2.2 with h | h
    · rcases h.2.2.2 0 rfl with h' | h'
      · simp at h'
      · exact hpp i (by simp) 0 h' rfl
    · simp at h
  | none =>
    simp only [driver, ho]
    rcases hc.2.2 with h | h
    · exact absurd (h.2.2.1 rfl).2.2 (not_lt.2 (hn'.trans hend))
    · have h1 := h.2.2.1
      have h2 := hc.1
      simp only [] at h1 h2
      rw [h1, h2]
      exact ⟨⟨i.t, _, .converged, _⟩, List.getLast?_concat, rfl⟩

/-- A run from 0 to 1 in one converged step with a save interval of 2 saves nothing at all. -/
theorem C18_final_violated :
    let i : StepIn ℚ Unit := ⟨1, fun u => (.converged, u), [], none, none⟩
    (driver 2 1 [i] (driver0 0 2 ())).2 = 0 ∧
    (driver 2 1 [i] (driver0 0 2 ())).1.out = [] := by
  constructor <;> norm_num [driver, stepOnce, cutLoop, driver0]

example : ∃ (i : StepIn ℚ Unit),
    (driver 1 2 [i, { i with t := 2 }] (driver0 0 1 ())).1.out.map (·.stamp) = [1, 2] ∧
    (driver 1 2 [i, { i with t := 2 }] (driver0 0 1 ())).2 = 0 :=
  ⟨⟨1, fun u => (.converged, u), [], none, none⟩, by
    norm_num [driver, stepOnce, cutLoop, driver0], by
    norm_num [driver, stepOnce, cutLoop, driver0]⟩

end nonlin

/-! ### C19: modal driver -/

theorem modalIters_succ (n it : Nat) (hi : 0 < it) :
    (modalIters it n .modal).1 = .modal ∧
    ∀ e ∈ (modalIters it n .modal).2, e = .modalAsm .modal ∨ e = .solve .modal := by
  induction n generalizing it with
  | zero => simp [modalIters]
  | succ n ih =>
    obtain ⟨h1, h2⟩ := ih (it + 1) (by omega)
    have e : modalAssemble false it .modal = (.modal, [.modalAsm .modal]) := by
      simp [modalAssemble, hi, swap]
    simp only [modalIters, e]
    refine ⟨h1, ?_⟩
    intro x hx
    simp only [List.cons_append, List.nil_append, List.mem_cons] at hx
    rcases hx with rfl | rfl | hx
    · exact Or.inl rfl
    · exact Or.inr rfl
    · exact h2 x hx

/-- C19: for every number of time steps and every number (at least one) of iterations in each of
them, a simulation started on the full system assembles every load vector on the full system,
builds and solves the modal equations on the modal system, does post-processing on the full system,
and leaves the full system active. -/
theorem C19_systems (l : List Nat) (hl : ∀ n ∈ l, 0 < n) :
    (modalRun l .full).1 = .full ∧
    ∀ e ∈ (modalRun l .full).2,
      e = .loadAsm .full ∨ e = .modalAsm .modal ∨ e = .solve .modal ∨ e = .post .full := by
  induction l with
  | nil => simp [modalRun]
  | cons n l ih =>
    obtain ⟨h1, h2⟩ := ih (fun k hk => hl k (by simp [hk]))
    obtain ⟨m, rfl⟩ : ∃ m, n = m + 1 := ⟨n - 1, by have := hl n (by simp); omega⟩
    obtain ⟨k1, k2⟩ := modalIters_succ m 1 (by omega)
    have e : modalAssemble false 0 .full = (.modal, [.loadAsm .full, .modalAsm .modal]) := rfl
    have hs : modalStep (m + 1) .full = (.full,
        ([.loadAsm .full, .modalAsm .modal] ++ .solve .modal :: (modalIters 1 m .modal).2) ++
        [.post .full]) := by
      simp only [modalStep, modalIters, e, k1, modalExpand, if_true, swap]
    simp only [modalRun, hs]
    refine ⟨h1, ?_⟩
    intro x hx
    simp only [List.cons_append, List.nil_append, List.mem_cons, List.mem_append,
      List.append_assoc, List.not_mem_nil, or_false] at hx
    rcases hx with rfl | rfl | rfl | hx | rfl | hx
    · exact Or.inl rfl
    · exact Or.inr (Or.inl rfl)
    · exact Or.inr (Or.inr (Or.inl rfl))
    · rcases k2 x hx with rfl | rfl
      · exact Or.inr (Or.inl rfl)
      · exact Or.inr (Or.inr (Or.inl rfl))
    · exact Or.inr (Or.inr (Or.inr rfl))
    · exact h2 x hx

/-- C19: exactly one load vector is assembled and one post-processing done per time step, and one
modal solve per iteration. -/
theorem C19_counts (l : List Nat) (hl : ∀ n ∈ l, 0 < n) :
    (modalRun l .full).2.count (.loadAsm .full) = l.length ∧
    (modalRun l .full).2.count (.post .full) = l.length ∧
    (modalRun l .full).2.count (.solve .modal) = l.sum := by
  have hit : ∀ n it, 0 < it → (modalIters it n .modal).2.count (.loadAsm .full) = 0 ∧
      (modalIters it n .modal).2.count (.post .full) = 0 ∧
      (modalIters it n .modal).2.count (.solve .modal) = n := by
    intro n
    induction n with
    | zero => intro it _; simp [modalIters]
    | succ n ih =>
      intro it hi
      obtain ⟨h1, h2, h3⟩ := ih (it + 1) (by omega)
      have e : modalAssemble false it .modal = (.modal, [.modalAsm .modal]) := by
        simp [modalAssemble, hi, swap]
      simp only [modalIters, e]
      simp [List.count_cons, h1, h2, h3]
  induction l with
  | nil => simp [modalRun]
  | cons n l ih =>
    obtain ⟨h1, h2, h3⟩ := ih (fun k hk => hl k (by simp [hk]))
    obtain ⟨m, rfl⟩ : ∃ m, n = m + 1 := ⟨n - 1, by have := hl n (by simp); omega⟩
    obtain ⟨k1, k2⟩ := modalIters_succ m 1 (by omega)
    obtain ⟨c1, c2, c3⟩ := hit m 1 (by omega)
    have e : modalAssemble false 0 .full = (.modal, [.loadAsm .full, .modalAsm .modal]) := rfl
    have hs : modalStep (m + 1) .full = (.full,
        ([.loadAsm .full, .modalAsm .modal] ++ .solve .modal :: (modalIters 1 m .modal).2) ++
        [.post .full]) := by
      simp only [modalStep, modalIters, e, k1, modalExpand, if_true, swap]
    simp only [modalRun, hs]
    simp [List.count_cons, List.count_append, h1, h2, h3, c1, c2, c3]
    omega

example : (modalRun [2, 1] .full).2 = [.loadAsm .full, .modalAsm .modal, .solve .modal,
    .modalAsm .modal, .solve .modal, .post .full, .loadAsm .full, .modalAsm .modal, .solve .modal,
    .post .full] := by decide

end Verif.Drivers
