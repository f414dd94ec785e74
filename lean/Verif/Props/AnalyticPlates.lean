/-
C52: the built-in analytical plate solutions.
-/
import Verif.Props.AnalyticPipe
import Mathlib.Analysis.Complex.ExponentialBounds
import Mathlib.MeasureTheory.Integral.IntervalIntegral.FundThmCalculus

set_option linter.unusedSectionVars false
set_option linter.unnecessarySeqFocus false
set_option linter.unusedSimpArgs false
set_option linter.unusedVariables false

namespace Verif.Analytic

open Topology

/-! ### Specification -/

/-- The moments (Mxx, Myy, Mxy) at a point are those of the deflection `w` of a thin plate with stiffness `D` and Poisson's ratio `nu`:
minus D times the second derivatives. -/
def MomentsOf (D nu : ℝ) (w : ℝ → ℝ → ℝ) (x y : ℝ) (M : Fin 3 → ℝ) : Prop :=
  ∃ (wx wy : ℝ → ℝ → ℝ) (wxx wyy wxy : ℝ), (∀ x y, HasDerivAt (fun s => w s y) (wx x y) x) ∧ (∀ x y, HasDerivAt (fun s => w x s) (wy x y) y) ∧
    HasDerivAt (fun s => wx s y) wxx x ∧ HasDerivAt (fun s => wy x s) wyy y ∧ HasDerivAt (fun s => wx x s) wxy y ∧
    M 0 = -D * (wxx + nu * wyy) ∧ M 1 = -D * (wyy + nu * wxx) ∧ M 2 = -D * (1 - nu) * wxy

/-! ### Sums over the terms -/

theorem hasDerivAt_list {ι : Type} (l : List ι) (f : ι → ℝ → ℝ) (f' : ι → ℝ) (x : ℝ) (h : ∀ i, HasDerivAt (f i) (f' i) x) :
    HasDerivAt (fun s => (l.map fun i => f i s).sum) (l.map f').sum x := by
  induction l with
  | nil => simpa using hasDerivAt_const x (0 : ℝ)
  | cons a l ih =>
    simp only [List.map_cons, List.sum_cons]
    exact (h a).add ih

theorem steps_succ (inc n : Nat) : steps inc (n + 1) = steps inc n ++ (if n % inc = 0 then [n + 1] else []) := by
  unfold steps
  rw [List.range_succ, List.filterMap_append]
  by_cases h : n % inc = 0 <;> simp [h]

theorem sum_map_add {ι α : Type} [AddCommMonoid α] (l : List ι) (f g : ι → α) :
    (l.map fun i => f i + g i).sum = (l.map f).sum + (l.map g).sum := by
  induction l with
  | nil => simp
  | cons a l ih => simp only [List.map_cons, List.sum_cons, ih]; abel

theorem sum_map_smul {ι : Type} (l : List ι) (c : ℝ) (f : ι → ℝ) : (l.map fun i => c * f i).sum = c * (l.map f).sum := by
  induction l with
  | nil => simp
  | cons a l ih => simp only [List.map_cons, List.sum_cons, ih]; ring

/-- The passes of the loop run over the whole square of terms. -/
theorem passes_square {α : Type} [AddCommMonoid α] (f : Nat → Nat → α) (inc n : Nat) :
    ((steps inc n).map fun i => ((steps inc (i - 1)).map fun j => f i j + f j i).sum + f i i).sum =
      ((steps inc n).map fun m => ((steps inc n).map fun k => f m k).sum).sum := by
  induction n with
  | zero => rfl
  | succ n ih =>
    rw [steps_succ]
    by_cases h : n % inc = 0
    · simp only [h, if_true, List.map_append, List.sum_append, ih, List.map_cons, List.map_nil, List.sum_cons, List.sum_nil, add_zero,
        Nat.add_sub_cancel]
      simp only [sum_map_add]
      abel
    · simp only [h, if_false, List.append_nil, ih]

/-- Fourier coefficient of the load apart from constant factors, by load type. -/
noncomputable def loadCoef (p : Navier) (m n : Nat) : ℝ :=
  if p.type = 0 then 1 / ((m : ℝ) * n)
  else if p.type = 1 then Real.sin (p.alpha * m * p.xi) * Real.sin (p.beta * n * p.eta)
  else if p.type = 2 then
    Real.sin (p.alpha * m * p.xi) * Real.sin (p.beta * n * p.eta) * Real.sin (p.alpha * m * p.c2) * Real.sin (p.beta * n * p.d2) / ((m : ℝ) * n)
  else 0

/-- Amplitude of a term of the deflection, apart from constant factors. -/
noncomputable def amp (p : Navier) (m n : Nat) : ℝ :=
  loadCoef p m n / (((p.alpha * m) * (p.alpha * m) + (p.beta * n) * (p.beta * n)) * ((p.alpha * m) * (p.alpha * m) + (p.beta * n) * (p.beta * n)))

/-- Sum over a square of terms. -/
def square {α : Type} [AddCommMonoid α] (inc N : Nat) (f : Nat → Nat → α) : α :=
  ((steps inc N).map fun m => ((steps inc N).map fun n => f m n).sum).sum

theorem square_congr {α : Type} [AddCommMonoid α] (inc N : Nat) {f g : Nat → Nat → α} (h : ∀ m n, f m n = g m n) :
    square inc N f = square inc N g := by
  have : f = g := by funext m n; exact h m n
  rw [this]

theorem square_smul (inc N : Nat) (c : ℝ) (f : Nat → Nat → ℝ) : square inc N (fun m n => c * f m n) = c * square inc N f := by
  unfold square
  simp only [sum_map_smul]

theorem square_add (inc N : Nat) (f g : Nat → Nat → ℝ) : square inc N (fun m n => f m n + g m n) = square inc N f + square inc N g := by
  unfold square
  simp only [sum_map_add]

theorem square_deriv (inc N : Nat) (f : Nat → Nat → ℝ → ℝ) (f' : Nat → Nat → ℝ) (x : ℝ) (h : ∀ m n, HasDerivAt (f m n) (f' m n) x) :
    HasDerivAt (fun s => square inc N fun m n => f m n s) (square inc N f') x := by
  unfold square
  exact hasDerivAt_list _ _ _ x fun m => hasDerivAt_list _ _ _ x fun n => h m n

/-- Number of terms in the deflection. -/
def count (p : Navier) : Nat := if p.type > 0 then p.mxmn else p.mxmn - 1

/-- Factor of the deflection. -/
noncomputable def facW (p : Navier) : ℝ :=
  if p.type = 1 then 4 * (p.pz / p.D) / (p.c2 * p.d2) else 16 * (p.pz / p.D) / (Real.pi * Real.pi)

theorem displ_eq (p : Navier) (ht : p.type ≤ 2) (x y : ℝ) :
    navierDispl p x y = facW p * square p.inc (count p) fun m n => amp p m n * (Real.sin (p.alpha * m * x) * Real.sin (p.beta * n * y)) := by
  unfold navierDispl square facW count
  have key : ∀ m n : Nat, (if p.type = 0 then
        Real.sin (p.alpha * m * x) * Real.sin (p.beta * n * y) / ((m : ℝ) * n * (p.alpha * m * (p.alpha * m) + p.beta * n * (p.beta * n)) *
          (p.alpha * m * (p.alpha * m) + p.beta * n * (p.beta * n)))
      else (if p.type = 2 then Real.sin (p.alpha * m * p.xi) * Real.sin (p.beta * n * p.eta) /
            ((p.alpha * m * (p.alpha * m) + p.beta * n * (p.beta * n)) * (p.alpha * m * (p.alpha * m) + p.beta * n * (p.beta * n))) *
            (Real.sin (p.alpha * m * p.c2) * Real.sin (p.beta * n * p.d2) / ((m : ℝ) * n))
          else Real.sin (p.alpha * m * p.xi) * Real.sin (p.beta * n * p.eta) /
            ((p.alpha * m * (p.alpha * m) + p.beta * n * (p.beta * n)) * (p.alpha * m * (p.alpha * m) + p.beta * n * (p.beta * n)))) *
          Real.sin (p.alpha * m * x) * Real.sin (p.beta * n * y)) =
      amp p m n * (Real.sin (p.alpha * m * x) * Real.sin (p.beta * n * y)) := by
    intro m n
    have h3 : p.type = 0 ∨ p.type = 1 ∨ p.type = 2 := by omega
    unfold amp loadCoef
    generalize p.alpha * m * (p.alpha * m) + p.beta * n * (p.beta * n) = q
    rcases h3 with h | h | h
    · simp only [h, if_true]; ring
    · have a : ¬ (1 : Nat) = 0 := by omega
      have b : ¬ (1 : Nat) = 2 := by omega
      simp only [h, if_true, if_neg a, if_neg b]; ring
    · have a : ¬ (2 : Nat) = 0 := by omega
      have b : ¬ (2 : Nat) = 1 := by omega
      simp only [h, if_true, if_neg a, if_neg b]; ring
  simp only [key]
  split_ifs <;> ring

theorem addTerms_eq (p : Navier) (x y : ℝ) (m n deriv : Nat) :
    addTerms p x y m n deriv =
      (let am := p.alpha * m
       let bn := p.beta * n
       let sx := Real.sin (am * x)
       let cx := Real.cos (am * x)
       let sy := Real.sin (bn * y)
       let cy := Real.cos (bn * y)
       let k := amp p m n
       match deriv with
       | 0 => ![k * ((am ^ 2 + p.nu * bn ^ 2) * (sx * sy)), k * ((bn ^ 2 + p.nu * am ^ 2) * (sx * sy)), k * ((p.nu - 1) * am * bn * (cx * cy))]
       | 1 => ![k * ((am ^ 2 + p.nu * bn ^ 2) * (am * cx * sy)), k * ((bn ^ 2 + p.nu * am ^ 2) * (am * cx * sy)),
           k * ((p.nu - 1) * am * bn * (-am * sx * cy))]
       | 2 => ![k * ((am ^ 2 + p.nu * bn ^ 2) * (bn * sx * cy)), k * ((bn ^ 2 + p.nu * am ^ 2) * (bn * sx * cy)),
           k * ((p.nu - 1) * am * bn * (-bn * cx * sy))]
       | 11 => ![k * ((am ^ 2 + p.nu * bn ^ 2) * (-am ^ 2 * sx * sy)), k * ((bn ^ 2 + p.nu * am ^ 2) * (-am ^ 2 * sx * sy)),
           k * ((p.nu - 1) * am * bn * (-am ^ 2 * cx * cy))]
       | 22 => ![k * ((am ^ 2 + p.nu * bn ^ 2) * (-bn ^ 2 * sx * sy)), k * ((bn ^ 2 + p.nu * am ^ 2) * (-bn ^ 2 * sx * sy)),
           k * ((p.nu - 1) * am * bn * (-bn ^ 2 * cx * cy))]
       | 12 | 21 => ![k * ((am ^ 2 + p.nu * bn ^ 2) * (am * bn * cx * cy)), k * ((bn ^ 2 + p.nu * am ^ 2) * (am * bn * cx * cy)),
           k * ((p.nu - 1) * am * bn * (am * bn * sx * sy))]
       | _ => 0) := by
  have hk : (if p.type = 0 then 1 / ((m : ℝ) * n) else if p.type = 1 then Real.sin (p.alpha * m * p.xi) * Real.sin (p.beta * n * p.eta)
      else if p.type = 2 then Real.sin (p.alpha * m * p.xi) * Real.sin (p.beta * n * p.eta) * Real.sin (p.alpha * m * p.c2) *
        Real.sin (p.beta * n * p.d2) / ((m : ℝ) * n) else 0) /
      ((p.alpha * m * (p.alpha * m) + p.beta * n * (p.beta * n)) * (p.alpha * m * (p.alpha * m) + p.beta * n * (p.beta * n))) = amp p m n := rfl
  unfold addTerms
  simp only [hk]
  generalize amp p m n = k
  split <;> first | rfl | (funext i; fin_cases i <;> simp <;> ring)

/-! ### Derivative codes -/

theorem sin_deriv (c x : ℝ) : HasDerivAt (fun s => Real.sin (c * s)) (c * Real.cos (c * x)) x := by
  refine ((Real.hasDerivAt_sin (c * x)).comp x ((hasDerivAt_id x).const_mul c)).congr_deriv ?_
  simp; ring

theorem cos_deriv (c x : ℝ) : HasDerivAt (fun s => Real.cos (c * s)) (-c * Real.sin (c * x)) x := by
  refine ((Real.hasDerivAt_cos (c * x)).comp x ((hasDerivAt_id x).const_mul c)).congr_deriv ?_
  simp; ring

theorem dS {f : ℝ → ℝ} {f' x : ℝ} (c A : ℝ) (hf : ∀ s, f s = A * Real.sin (c * s)) (hf' : f' = A * (c * Real.cos (c * x))) :
    HasDerivAt f f' x := by
  rw [show f = fun s => A * Real.sin (c * s) from funext hf, hf']
  exact (sin_deriv c x).const_mul A

theorem dC {f : ℝ → ℝ} {f' x : ℝ} (c A : ℝ) (hf : ∀ s, f s = A * Real.cos (c * s)) (hf' : f' = A * (-c * Real.sin (c * x))) :
    HasDerivAt f f' x := by
  rw [show f = fun s => A * Real.cos (c * s) from funext hf, hf']
  exact (cos_deriv c x).const_mul A

/-- C52: the derivative codes of the plate solution deliver the derivatives of the moments, term by term. -/
theorem C52_derivatives (p : Navier) (x y : ℝ) (m n : Nat) (i : Fin 3) :
    HasDerivAt (fun s => addTerms p s y m n 0 i) (addTerms p x y m n 1 i) x ∧
    HasDerivAt (fun s => addTerms p x s m n 0 i) (addTerms p x y m n 2 i) y ∧
    HasDerivAt (fun s => addTerms p s y m n 1 i) (addTerms p x y m n 11 i) x ∧
    HasDerivAt (fun s => addTerms p x s m n 2 i) (addTerms p x y m n 22 i) y ∧
    HasDerivAt (fun s => addTerms p x s m n 1 i) (addTerms p x y m n 12 i) y ∧
    HasDerivAt (fun s => addTerms p s y m n 2 i) (addTerms p x y m n 21 i) x := by
  simp only [addTerms_eq]
  generalize amp p m n = k
  generalize p.alpha * m = am
  generalize p.beta * n = bn
  refine ⟨?_, ?_, ?_, ?_, ?_, ?_⟩ <;> fin_cases i
  · exact dS am (k * (am ^ 2 + p.nu * bn ^ 2) * Real.sin (bn * y)) (fun s => by simp; ring) (by simp; ring)
  · exact dS am (k * (bn ^ 2 + p.nu * am ^ 2) * Real.sin (bn * y)) (fun s => by simp; ring) (by simp; ring)
  · exact dC am (k * ((p.nu - 1) * am * bn) * Real.cos (bn * y)) (fun s => by simp; ring) (by simp; ring)
  · exact dS bn (k * (am ^ 2 + p.nu * bn ^ 2) * Real.sin (am * x)) (fun s => by simp; ring) (by simp; ring)
  · exact dS bn (k * (bn ^ 2 + p.nu * am ^ 2) * Real.sin (am * x)) (fun s => by simp; ring) (by simp; ring)
  · exact dC bn (k * ((p.nu - 1) * am * bn) * Real.cos (am * x)) (fun s => by simp; ring) (by simp; ring)
  · exact dC am (k * (am ^ 2 + p.nu * bn ^ 2) * am * Real.sin (bn * y)) (fun s => by simp; ring) (by simp; ring)
  · exact dC am (k * (bn ^ 2 + p.nu * am ^ 2) * am * Real.sin (bn * y)) (fun s => by simp; ring) (by simp; ring)
  · exact dS am (k * ((p.nu - 1) * am * bn) * (-am) * Real.cos (bn * y)) (fun s => by simp; ring) (by simp; ring)
  · exact dC bn (k * (am ^ 2 + p.nu * bn ^ 2) * bn * Real.sin (am * x)) (fun s => by simp; ring) (by simp; ring)
  · exact dC bn (k * (bn ^ 2 + p.nu * am ^ 2) * bn * Real.sin (am * x)) (fun s => by simp; ring) (by simp; ring)
  · exact dS bn (k * ((p.nu - 1) * am * bn) * (-bn) * Real.cos (am * x)) (fun s => by simp; ring) (by simp; ring)
  · exact dS bn (k * (am ^ 2 + p.nu * bn ^ 2) * am * Real.cos (am * x)) (fun s => by simp; ring) (by simp; ring)
  · exact dS bn (k * (bn ^ 2 + p.nu * am ^ 2) * am * Real.cos (am * x)) (fun s => by simp; ring) (by simp; ring)
  · exact dC bn (k * ((p.nu - 1) * am * bn) * (-am) * Real.sin (am * x)) (fun s => by simp; ring) (by simp; ring)
  · exact dS am (k * (am ^ 2 + p.nu * bn ^ 2) * bn * Real.cos (bn * y)) (fun s => by simp; ring) (by simp; ring)
  · exact dS am (k * (bn ^ 2 + p.nu * am ^ 2) * bn * Real.cos (bn * y)) (fun s => by simp; ring) (by simp; ring)
  · exact dC am (k * ((p.nu - 1) * am * bn) * (-bn) * Real.sin (bn * y)) (fun s => by simp; ring) (by simp; ring)

/-- C52: every term of the moments balances its share of the load: Mxx,xx + 2 Mxy,xy + Myy,yy = -load. -/
theorem C52_balance (p : Navier) (x y : ℝ) {m n : Nat} (hm : p.alpha * m ≠ 0) :
    addTerms p x y m n 11 0 + 2 * addTerms p x y m n 12 2 + addTerms p x y m n 22 1 =
      -(loadCoef p m n * (Real.sin (p.alpha * m * x) * Real.sin (p.beta * n * y))) := by
  have hq : (p.alpha * m) ^ 2 + (p.beta * n) ^ 2 ≠ 0 := by positivity
  simp only [addTerms_eq, amp]
  generalize loadCoef p m n = k
  generalize p.alpha * m = am at *
  generalize p.beta * n = bn at *
  have hq' : am * am + bn * bn ≠ 0 := by rw [← sq, ← sq]; exact hq
  simp
  field_simp
  ring

/-! ### The summation loop -/

theorem square_succ {α : Type} [AddCommMonoid α] (inc n : Nat) (f : Nat → Nat → α) :
    square inc (n + 1) f = square inc n f + (if n % inc = 0 then
      ((steps inc n).map fun j => f (n + 1) j + f j (n + 1)).sum + f (n + 1) (n + 1) else 0) := by
  unfold square
  rw [← passes_square, ← passes_square, steps_succ]
  by_cases h : n % inc = 0 <;> simp [h]

/-- The steps after `k`. -/
def rest (inc k d : Nat) : List Nat := (List.range d).filterMap fun j => if (k + j) % inc = 0 then some (k + j + 1) else none

theorem rest_succ (inc k d : Nat) :
    rest inc k (d + 1) = (if k % inc = 0 then [k + 1] else []) ++ rest inc (k + 1) d := by
  unfold rest
  rw [List.range_succ_eq_map]
  by_cases h : k % inc = 0
  · simp [h, List.filterMap_map, Function.comp_def, Nat.add_assoc, Nat.add_comm, Nat.add_left_comm]
  · simp [h, List.filterMap_map, Function.comp_def, Nat.add_assoc, Nat.add_comm, Nat.add_left_comm]

theorem loop_square (p : Navier) (x y : ℝ) (deriv : Nat) (d : Nat) :
    ∀ (k : Nat) (prev : ℝ), (prev = 0 ∨ ∃ j, j ≤ k ∧ prev = l2norm (square p.inc j fun m n => addTerms p x y m n deriv)) →
      ∃ n, k ≤ n ∧ n ≤ k + d ∧
        navierLoop p x y deriv (rest p.inc k d) (square p.inc k fun m n => addTerms p x y m n deriv) prev =
          square p.inc n (fun m n => addTerms p x y m n deriv) ∧
        (n = k + d ∨ ∃ prev', (prev' = 0 ∨ ∃ j, j < n ∧ prev' = l2norm (square p.inc j fun m n => addTerms p x y m n deriv)) ∧
          |l2norm (square p.inc n fun m n => addTerms p x y m n deriv) - prev'| <
            1 / 10 ^ 8 * l2norm (square p.inc n fun m n => addTerms p x y m n deriv)) := by
  induction d with
  | zero =>
    intro k prev hp
    exact ⟨k, le_refl k, le_refl k, rfl, Or.inl rfl⟩
  | succ d ih =>
    intro k prev hp
    rw [rest_succ]
    by_cases h : k % p.inc = 0
    · have hM : square p.inc k (fun m n => addTerms p x y m n deriv) + passTerms p x y deriv (k + 1) =
          square p.inc (k + 1) fun m n => addTerms p x y m n deriv := by
        rw [square_succ, if_pos h]
        rfl
      simp only [h, if_true, List.singleton_append, navierLoop, hM]
      have up : ∀ q : ℝ, (q = 0 ∨ ∃ j, j ≤ k + 1 ∧ q = l2norm (square p.inc j fun m n => addTerms p x y m n deriv)) →
          ∃ n, k ≤ n ∧ n ≤ k + (d + 1) ∧
        navierLoop p x y deriv (rest p.inc (k + 1) d) (square p.inc (k + 1) fun m n => addTerms p x y m n deriv) q =
          square p.inc n (fun m n => addTerms p x y m n deriv) ∧
        (n = k + (d + 1) ∨ ∃ prev', (prev' = 0 ∨ ∃ j, j < n ∧ prev' = l2norm (square p.inc j fun m n => addTerms p x y m n deriv)) ∧
          |l2norm (square p.inc n fun m n => addTerms p x y m n deriv) - prev'| <
            1 / 10 ^ 8 * l2norm (square p.inc n fun m n => addTerms p x y m n deriv)) := by
        intro q hq
        obtain ⟨n, h1, h2, h3, h4⟩ := ih (k + 1) q hq
        refine ⟨n, by omega, by omega, h3, ?_⟩
        rcases h4 with h4 | h4
        · exact Or.inl (by omega)
        · exact Or.inr h4
      split_ifs with ho hs
      · refine ⟨k + 1, by omega, by omega, rfl, Or.inr ⟨prev, ?_, hs⟩⟩
        rcases hp with hp | ⟨j, hj, hp⟩
        · exact Or.inl hp
        · exact Or.inr ⟨j, by omega, hp⟩
      · exact up _ (Or.inr ⟨k + 1, le_refl _, rfl⟩)
      · refine up _ ?_
        rcases hp with hp | ⟨j, hj, hp⟩
        · exact Or.inl hp
        · exact Or.inr ⟨j, by omega, hp⟩
    · have hM : square p.inc k (fun m n => addTerms p x y m n deriv) = square p.inc (k + 1) fun m n => addTerms p x y m n deriv := by
        rw [square_succ, if_neg h, add_zero]
      simp only [h, if_false, List.nil_append]
      rw [hM]
      obtain ⟨n, h1, h2, h3, h4⟩ := ih (k + 1) prev (by
        rcases hp with hp | ⟨j, hj, hp⟩
        · exact Or.inl hp
        · exact Or.inr ⟨j, by omega, hp⟩)
      refine ⟨n, by omega, by omega, h3, ?_⟩
      rcases h4 with h4 | h4
      · exact Or.inl (by omega)
      · exact Or.inr h4

/-- Factor of the moments. -/
noncomputable def facM (p : Navier) : ℝ :=
  if p.type = 1 then 4 * p.pz * (p.alpha / Real.pi) * (p.beta / Real.pi) else 16 * p.pz / (Real.pi * Real.pi)

theorem square_apply (inc N : Nat) (f : Nat → Nat → Fin 3 → ℝ) (i : Fin 3) : square inc N f i = square inc N fun m n => f m n i := by
  unfold square
  have h (l : List Nat) (g : Nat → Fin 3 → ℝ) : (l.map g).sum i = (l.map fun k => g k i).sum := by
    induction l with
    | nil => rfl
    | cons a l ih => simp only [List.map_cons, List.sum_cons, Pi.add_apply, ih]
  rw [h]
  simp only [h]

/-- C52: the moments (and their derivatives) are the sum of all terms up to a number `n` in both directions, where `n` is the
maximum number of terms unless the stop criterion was met: adding the last terms changed the norm by less than 1e-8 of itself. -/
theorem C52_sum (p : Navier) (x y : ℝ) (deriv : Nat) :
    ∃ n ≤ p.mxmn, (∀ i, navier p x y deriv i = (if p.type = 1 then 4 * p.pz * (p.alpha / Real.pi) * (p.beta / Real.pi)
        else 16 * p.pz / (Real.pi * Real.pi)) * square p.inc n fun m k => addTerms p x y m k deriv i) ∧
      (n = p.mxmn ∨ ∃ prev, (prev = 0 ∨ ∃ j, j < n ∧ prev = l2norm (square p.inc j fun m k => addTerms p x y m k deriv)) ∧
        |l2norm (square p.inc n fun m k => addTerms p x y m k deriv) - prev| <
          1 / 10 ^ 8 * l2norm (square p.inc n fun m k => addTerms p x y m k deriv)) := by
  obtain ⟨n, _, h2, h3, h4⟩ := loop_square p x y deriv p.mxmn 0 0 (Or.inl rfl)
  have hs : rest p.inc 0 p.mxmn = steps p.inc p.mxmn := by simp [rest, steps]
  have h0 : (square p.inc 0 fun m n => addTerms p x y m n deriv) = 0 := rfl
  rw [hs, h0] at h3
  refine ⟨n, by omega, fun i => ?_, by simpa using h4⟩
  rw [← square_apply p.inc n (fun m k => addTerms p x y m k deriv) i, ← h3]
  unfold navier
  split_ifs <;> simp only [] <;> ring

/-! ### Moments and deflection -/

theorem moments_of_square (p : Navier) (W : ℝ) (N : Nat) (x y : ℝ) :
    MomentsOf p.D p.nu (fun x y => W * square p.inc N fun m n => amp p m n * (Real.sin (p.alpha * m * x) * Real.sin (p.beta * n * y))) x y
      (fun i => p.D * W * square p.inc N fun m n => addTerms p x y m n 0 i) := by
  refine ⟨fun x y => W * square p.inc N fun m n => amp p m n * (p.alpha * m * Real.cos (p.alpha * m * x) * Real.sin (p.beta * n * y)),
    fun x y => W * square p.inc N fun m n => amp p m n * (p.beta * n * Real.sin (p.alpha * m * x) * Real.cos (p.beta * n * y)),
    W * square p.inc N fun m n => amp p m n * (-(p.alpha * m) ^ 2 * Real.sin (p.alpha * m * x) * Real.sin (p.beta * n * y)),
    W * square p.inc N fun m n => amp p m n * (-(p.beta * n) ^ 2 * Real.sin (p.alpha * m * x) * Real.sin (p.beta * n * y)),
    W * square p.inc N fun m n => amp p m n * (p.alpha * m * (p.beta * n) * Real.cos (p.alpha * m * x) * Real.cos (p.beta * n * y)),
    ?_, ?_, ?_, ?_, ?_, ?_, ?_, ?_⟩
  · intro x y
    refine (square_deriv p.inc N (fun m n s => amp p m n * (Real.sin (p.alpha * m * s) * Real.sin (p.beta * n * y))) _ x
      fun m n => dS (p.alpha * m) (amp p m n * Real.sin (p.beta * n * y)) (fun s => by ring) ?_).const_mul W
    ring
  · intro x y
    refine (square_deriv p.inc N (fun m n s => amp p m n * (Real.sin (p.alpha * m * x) * Real.sin (p.beta * n * s))) _ y
      fun m n => dS (p.beta * n) (amp p m n * Real.sin (p.alpha * m * x)) (fun s => by ring) ?_).const_mul W
    ring
  · refine (square_deriv p.inc N (fun m n s => amp p m n * (p.alpha * m * Real.cos (p.alpha * m * s) * Real.sin (p.beta * n * y))) _ x
      fun m n => dC (p.alpha * m) (amp p m n * (p.alpha * m) * Real.sin (p.beta * n * y)) (fun s => by ring) ?_).const_mul W
    ring
  · refine (square_deriv p.inc N (fun m n s => amp p m n * (p.beta * n * Real.sin (p.alpha * m * x) * Real.cos (p.beta * n * s))) _ y
      fun m n => dC (p.beta * n) (amp p m n * (p.beta * n) * Real.sin (p.alpha * m * x)) (fun s => by ring) ?_).const_mul W
    ring
  · refine (square_deriv p.inc N (fun m n s => amp p m n * (p.alpha * m * Real.cos (p.alpha * m * x) * Real.sin (p.beta * n * s))) _ y
      fun m n => dS (p.beta * n) (amp p m n * (p.alpha * m) * Real.cos (p.alpha * m * x)) (fun s => by ring) ?_).const_mul W
    ring
  all_goals
    simp only [← square_smul, ← square_add]
    refine square_congr _ _ fun m n => ?_
    simp only [addTerms_eq]
    generalize amp p m n = k
    simp
    ring

/-- The stop criterion of the summation of the moments after `n` terms: the norm differs from an earlier one (or zero) by less than
1e-8 of itself. -/
def Stopped (p : Navier) (x y : ℝ) (n : Nat) : Prop :=
  ∃ prev, (prev = 0 ∨ ∃ j, j < n ∧ prev = l2norm (square p.inc j fun m k => addTerms p x y m k 0)) ∧
    |l2norm (square p.inc n fun m k => addTerms p x y m k 0) - prev| < 1 / 10 ^ 8 * l2norm (square p.inc n fun m k => addTerms p x y m k 0)

/-- C52 (partial: up to the number of terms taken along): for a uniformly loaded plate the moments are those of the deflection
computed by the same solution with as many terms. -/
theorem C52_uniform_partial (a b t E nu P : ℝ) (N : Nat) (hD : plateD E nu t ≠ 0) (x y : ℝ) :
    ∃ n ≤ N, MomentsOf (plateD E nu t) nu (navierDispl (navierUniform a b t E nu P (n + 1))) x y (navier (navierUniform a b t E nu P N) x y 0) ∧
      (n = N ∨ Stopped (navierUniform a b t E nu P N) x y n) := by
  obtain ⟨n, hn, h, hs⟩ := C52_sum (navierUniform a b t E nu P N) x y 0
  refine ⟨n, hn, ?_, hs⟩
  have hw : navierDispl (navierUniform a b t E nu P (n + 1)) = fun x y => 16 * (P / plateD E nu t) / (Real.pi * Real.pi) *
      square (navierUniform a b t E nu P N).inc n fun m k => amp (navierUniform a b t E nu P N) m k *
        (Real.sin ((navierUniform a b t E nu P N).alpha * m * x) * Real.sin ((navierUniform a b t E nu P N).beta * k * y)) := by
    funext x y
    rw [displ_eq _ (by simp [navierUniform])]
    rfl
  have hM : navier (navierUniform a b t E nu P N) x y 0 = fun i => (navierUniform a b t E nu P N).D *
      (16 * (P / plateD E nu t) / (Real.pi * Real.pi)) *
      square (navierUniform a b t E nu P N).inc n fun m k => addTerms (navierUniform a b t E nu P N) x y m k 0 i := by
    funext i
    rw [h i]
    congr 1
    simp only [navierUniform]
    norm_num
    field_simp
  rw [hw, hM]
  exact moments_of_square _ _ _ _ _

/-- C52 (partial: up to the number of terms taken along): for a point or patch load the moments are those of the deflection
computed by the same solution with as many terms. -/
theorem C52_load_partial (a b t E nu P xi eta c d : ℝ) (N : Nat) (hD : plateD E nu t ≠ 0) (ha : a ≠ 0) (hb : b ≠ 0) (x y : ℝ) :
    ∃ n ≤ N, MomentsOf (plateD E nu t) nu (navierDispl (navierPartial a b t E nu P xi eta c d n)) x y
      (navier (navierPartial a b t E nu P xi eta c d N) x y 0) ∧ (n = N ∨ Stopped (navierPartial a b t E nu P xi eta c d N) x y n) := by
  obtain ⟨n, hn, h, hs⟩ := C52_sum (navierPartial a b t E nu P xi eta c d N) x y 0
  refine ⟨n, hn, ?_, hs⟩
  set p := navierPartial a b t E nu P xi eta c d N with hp
  have hty : p.type = 1 ∨ p.type = 2 := by
    simp only [hp, navierPartial]
    split_ifs <;> simp
  have hw : navierDispl (navierPartial a b t E nu P xi eta c d n) = fun x y => facW p *
      square p.inc n fun m k => amp p m k * (Real.sin (p.alpha * m * x) * Real.sin (p.beta * k * y)) := by
    funext x y
    have ht : (navierPartial a b t E nu P xi eta c d n).type = p.type := rfl
    rw [displ_eq _ (by rw [ht]; omega)]
    have hc : count (navierPartial a b t E nu P xi eta c d n) = n := by
      unfold count
      rw [ht, if_pos (by omega)]
      rfl
    rw [hc]
    rfl
  have hM : navier p x y 0 = fun i => p.D * facW p * square p.inc n fun m k => addTerms p x y m k 0 i := by
    funext i
    rw [h i]
    congr 1
    have hD' : p.D ≠ 0 := hD
    unfold facW
    have hal : p.alpha = Real.pi / a := rfl
    have hbe : p.beta = Real.pi / b := rfl
    have hpi := Real.pi_ne_zero
    by_cases h1 : p.type = 1
    · rw [if_pos h1, if_pos h1]
      have hc : p.c2 = a := by
        have : (if c = 0 ∨ d = 0 then 1 else 2) = 1 := h1
        simp only [hp, navierPartial, this, if_true]
      have hd : p.d2 = b := by
        have : (if c = 0 ∨ d = 0 then 1 else 2) = 1 := h1
        simp only [hp, navierPartial, this, if_true]
      rw [hc, hd, hal, hbe]
      field_simp
    · rw [if_neg h1, if_neg h1]
      field_simp
  rw [hw, hM]
  exact moments_of_square _ _ _ _ _

/-! ### The Fourier coefficients of the loads -/

theorem integral_sin_mul {c : ℝ} (hc : c ≠ 0) (u v : ℝ) : ∫ s in u..v, Real.sin (c * s) = (Real.cos (c * u) - Real.cos (c * v)) / c := by
  have h : ∀ s ∈ Set.uIcc u v, HasDerivAt (fun s => -(Real.cos (c * s)) / c) (Real.sin (c * s)) s := by
    intro s _
    refine ((cos_deriv c s).neg.div_const c).congr_deriv ?_
    field_simp
  rw [intervalIntegral.integral_eq_sub_of_hasDerivAt h ((by fun_prop : Continuous fun s => Real.sin (c * s)).intervalIntegrable u v)]
  ring

/-- C52: the coefficients of the uniformly loaded plate are those of the Fourier series of the load: twice the mean of load times
sine in each direction; even terms, which are left out, vanish. -/
theorem C52_uniform_load (a b t E nu P : ℝ) (N : Nat) (ha : a ≠ 0) (hb : b ≠ 0) {m n : Nat} (hm : m ≠ 0) (hn : n ≠ 0) :
    let p := navierUniform a b t E nu P N
    (4 / (a * b) * ∫ x in (0)..a, ∫ y in (0)..b, P * (Real.sin (Real.pi / a * m * x) * Real.sin (Real.pi / b * n * y))) =
      if m % 2 = 1 ∧ n % 2 = 1 then 16 * P / (Real.pi * Real.pi) * loadCoef p m n else 0 := by
  intro p
  have hpi := Real.pi_ne_zero
  have hm' : (m : ℝ) ≠ 0 := Nat.cast_ne_zero.mpr hm
  have hn' : (n : ℝ) ≠ 0 := Nat.cast_ne_zero.mpr hn
  have e1 : ∀ x, (∫ y in (0)..b, P * (Real.sin (Real.pi / a * m * x) * Real.sin (Real.pi / b * n * y))) =
      P * ((1 - Real.cos (n * Real.pi)) / (Real.pi / b * n)) * Real.sin (Real.pi / a * m * x) := by
    intro x
    have : (fun y => P * (Real.sin (Real.pi / a * m * x) * Real.sin (Real.pi / b * n * y))) =
        fun y => (P * Real.sin (Real.pi / a * m * x)) * Real.sin (Real.pi / b * n * y) := by funext y; ring
    rw [this, intervalIntegral.integral_const_mul, integral_sin_mul (by positivity)]
    rw [show Real.pi / b * n * b = n * Real.pi by field_simp, mul_zero, Real.cos_zero]
    ring
  simp only [e1]
  rw [intervalIntegral.integral_const_mul, integral_sin_mul (by positivity)]
  rw [show Real.pi / a * m * a = m * Real.pi by field_simp, mul_zero, Real.cos_zero]
  have cosn (k : Nat) : Real.cos (k * Real.pi) = if k % 2 = 1 then -1 else 1 := by
    rw [Real.cos_nat_mul_pi]
    rcases Nat.even_or_odd k with h | h
    · rw [h.neg_one_pow, if_neg (by have := Nat.even_iff.mp h; omega)]
    · rw [h.neg_one_pow, if_pos (Nat.odd_iff.mp h)]
  rw [cosn, cosn]
  have hl : loadCoef p m n = 1 / ((m : ℝ) * n) := rfl
  rw [hl]
  by_cases h1 : m % 2 = 1 <;> by_cases h2 : n % 2 = 1 <;> simp [h1, h2]
  field_simp
  ring

/-- C52: the coefficients of the plate with a patch load: pressure `P` on the rectangle of size `c` times `d` centred at relative
position (xi, eta). -/
theorem C52_patch_load (a b t E nu P xi eta c d : ℝ) (N : Nat) (ha : a ≠ 0) (hb : b ≠ 0) (hc : c ≠ 0) (hd : d ≠ 0) {m n : Nat}
    (hm : m ≠ 0) (hn : n ≠ 0) :
    let p := navierPartial a b t E nu P xi eta c d N
    (4 / (a * b) * ∫ x in (xi * a - c / 2)..(xi * a + c / 2), ∫ y in (eta * b - d / 2)..(eta * b + d / 2),
        P * (Real.sin (Real.pi / a * m * x) * Real.sin (Real.pi / b * n * y))) =
      16 * P / (Real.pi * Real.pi) * loadCoef p m n := by
  intro p
  have hpi := Real.pi_ne_zero
  have hm' : (m : ℝ) ≠ 0 := Nat.cast_ne_zero.mpr hm
  have hn' : (n : ℝ) ≠ 0 := Nat.cast_ne_zero.mpr hn
  have diff (w u v : ℝ) : Real.cos (w * (u - v)) - Real.cos (w * (u + v)) = 2 * (Real.sin (w * u) * Real.sin (w * v)) := by
    rw [mul_sub, mul_add, Real.cos_sub, Real.cos_add]
    ring
  have e1 : ∀ x, (∫ y in (eta * b - d / 2)..(eta * b + d / 2), P * (Real.sin (Real.pi / a * m * x) * Real.sin (Real.pi / b * n * y))) =
      P * (2 * (Real.sin (Real.pi / b * n * (eta * b)) * Real.sin (Real.pi / b * n * (d / 2))) / (Real.pi / b * n)) *
        Real.sin (Real.pi / a * m * x) := by
    intro x
    have : (fun y => P * (Real.sin (Real.pi / a * m * x) * Real.sin (Real.pi / b * n * y))) =
        fun y => (P * Real.sin (Real.pi / a * m * x)) * Real.sin (Real.pi / b * n * y) := by funext y; ring
    rw [this, intervalIntegral.integral_const_mul, integral_sin_mul (by positivity), diff]
    ring
  simp only [e1]
  rw [intervalIntegral.integral_const_mul, integral_sin_mul (by positivity), diff]
  have hl : loadCoef p m n = Real.sin (Real.pi / a * m * (xi * a)) * Real.sin (Real.pi / b * n * (eta * b)) *
      Real.sin (Real.pi / a * m * (c / 2)) * Real.sin (Real.pi / b * n * (d / 2)) / ((m : ℝ) * n) := by
    have : (if c = 0 ∨ d = 0 then 1 else 2) = 2 := by simp [hc, hd]
    simp only [loadCoef, p, navierPartial, this]
    norm_num
    simp only [div_eq_inv_mul, mul_one]
  rw [hl]
  generalize Real.sin (Real.pi / a * m * (xi * a)) = s1
  generalize Real.sin (Real.pi / b * n * (eta * b)) = s2
  generalize Real.sin (Real.pi / a * m * (c / 2)) = s3
  generalize Real.sin (Real.pi / b * n * (d / 2)) = s4
  field_simp
  ring

theorem sin_over (k : ℝ) : Filter.Tendsto (fun h : ℝ => Real.sin (k * (1 / 2 * h)) / h) (𝓝[≠] 0) (𝓝 (k / 2)) := by
  have h := (sin_deriv (k / 2) 0).tendsto_slope_zero
  simp only [zero_add, mul_zero, Real.sin_zero, sub_zero, Real.cos_zero, mul_one, smul_eq_mul] at h
  refine h.congr fun t => ?_
  rw [show k * (1 / 2 * t) = k / 2 * t by ring]
  ring

/-- C52: the coefficients of the plate with a point load `P` at relative position (xi, eta) are the limit of those of ever smaller
patches with total load `P` there. -/
theorem C52_point_load (a b t E nu P xi eta : ℝ) (N : Nat) (ha : a ≠ 0) (hb : b ≠ 0) {m n : Nat} (hm : m ≠ 0) (hn : n ≠ 0) :
    let p := navierPartial a b t E nu P xi eta 0 0 N
    Filter.Tendsto (fun q : ℝ × ℝ => 16 * (P / (q.1 * q.2)) / (Real.pi * Real.pi) * loadCoef (navierPartial a b t E nu P xi eta q.1 q.2 N) m n)
      (𝓝[≠] 0 ×ˢ 𝓝[≠] 0) (𝓝 (4 * P * (p.alpha / Real.pi) * (p.beta / Real.pi) * loadCoef p m n)) := by
  intro p
  have hpi := Real.pi_ne_zero
  have hm' : (m : ℝ) ≠ 0 := Nat.cast_ne_zero.mpr hm
  have hn' : (n : ℝ) ≠ 0 := Nat.cast_ne_zero.mpr hn
  have h1 := (sin_over (Real.pi / a * m)).comp (Filter.tendsto_fst (f := 𝓝[≠] (0 : ℝ)) (g := 𝓝[≠] (0 : ℝ)))
  have h2 := (sin_over (Real.pi / b * n)).comp (Filter.tendsto_snd (f := 𝓝[≠] (0 : ℝ)) (g := 𝓝[≠] (0 : ℝ)))
  have h := (h1.mul h2).const_mul (16 * P / (Real.pi * Real.pi) * (Real.sin (Real.pi / a * m * (xi * a)) * Real.sin (Real.pi / b * n * (eta * b)) /
    ((m : ℝ) * n)))
  have hl : loadCoef p m n = Real.sin (Real.pi / a * m * (xi * a)) * Real.sin (Real.pi / b * n * (eta * b)) := by
    simp [p, loadCoef, navierPartial]
  have hal : p.alpha = Real.pi / a := rfl
  have hbe : p.beta = Real.pi / b := rfl
  have hlim : 4 * P * (p.alpha / Real.pi) * (p.beta / Real.pi) * loadCoef p m n =
      16 * P / (Real.pi * Real.pi) * (Real.sin (Real.pi / a * m * (xi * a)) * Real.sin (Real.pi / b * n * (eta * b)) / ((m : ℝ) * n)) *
        (Real.pi / a * m / 2 * (Real.pi / b * n / 2)) := by
    rw [hl, hal, hbe]
    field_simp
    ring
  rw [hlim]
  refine h.congr' ?_
  have e1 : ∀ᶠ q : ℝ × ℝ in (𝓝[≠] 0 ×ˢ 𝓝[≠] 0), q.1 ≠ 0 := Filter.tendsto_fst.eventually self_mem_nhdsWithin
  have e2 : ∀ᶠ q : ℝ × ℝ in (𝓝[≠] 0 ×ˢ 𝓝[≠] 0), q.2 ≠ 0 := Filter.tendsto_snd.eventually self_mem_nhdsWithin
  filter_upwards [e1, e2] with q q1 q2
  have : (if q.1 = 0 ∨ q.2 = 0 then 1 else 2) = 2 := by simp [q1, q2]
  have hlq : loadCoef (navierPartial a b t E nu P xi eta q.1 q.2 N) m n = Real.sin (Real.pi / a * m * (xi * a)) *
      Real.sin (Real.pi / b * n * (eta * b)) * Real.sin (Real.pi / a * m * (1 / 2 * q.1)) * Real.sin (Real.pi / b * n * (1 / 2 * q.2)) / ((m : ℝ) * n) := by
    simp only [loadCoef, navierPartial, this]
    norm_num
  rw [hlq]
  simp only [Function.comp]
  ring

/-- C52: terms skipped for loads at the centre vanish. -/
theorem C52_centre (a b t E nu P c d : ℝ) (N : Nat) (ha : a ≠ 0) (hb : b ≠ 0) {m n : Nat} (h : m % 2 = 0 ∨ n % 2 = 0) :
    (navierPartial a b t E nu P (1 / 2) (1 / 2) c d N).inc = 2 ∧ loadCoef (navierPartial a b t E nu P (1 / 2) (1 / 2) c d N) m n = 0 := by
  refine ⟨by simp [navierPartial], ?_⟩
  have z (k : Nat) (hk : k % 2 = 0) {e : ℝ} (he : e ≠ 0) : Real.sin (Real.pi / e * k * (1 / 2 * e)) = 0 := by
    obtain ⟨j, rfl⟩ := Nat.dvd_of_mod_eq_zero hk
    rw [show Real.pi / e * ((2 * j : Nat) : ℝ) * (1 / 2 * e) = j * Real.pi by push_cast; field_simp]
    exact Real.sin_nat_mul_pi j
  have hz : Real.sin (Real.pi / a * m * (1 / 2 * a)) * Real.sin (Real.pi / b * n * (1 / 2 * b)) = 0 := by
    rcases h with h | h
    · rw [z m h ha, zero_mul]
    · rw [z n h hb, mul_zero]
  simp only [loadCoef, navierPartial, hz, zero_mul, zero_div]
  by_cases hcd : c = 0 ∨ d = 0 <;> simp [hcd]

/-- C52: for an even maximum number of terms the deflection of a uniformly loaded plate has the terms up to that number. -/
theorem C52_uniform_even (a b t E nu P : ℝ) {N : Nat} (hN : N % 2 = 0) (x y : ℝ) :
    navierDispl (navierUniform a b t E nu P (N + 1)) x y = navierDispl (navierUniform a b t E nu P N) x y := by
  have hs : steps 2 N = steps 2 (N - 1) := by
    rcases N with _ | N
    · rfl
    · rw [steps_succ, if_neg (by omega)]
      simp
  have hs' : steps (navierUniform a b t E nu P N).inc ((N + 1) - 1) = steps (navierUniform a b t E nu P N).inc (N - 1) := hs
  have e1 : navierDispl (navierUniform a b t E nu P (N + 1)) x y = facW (navierUniform a b t E nu P N) *
      square (navierUniform a b t E nu P N).inc (N + 1 - 1) fun m n => amp (navierUniform a b t E nu P N) m n *
        (Real.sin ((navierUniform a b t E nu P N).alpha * m * x) * Real.sin ((navierUniform a b t E nu P N).beta * n * y)) := by
    rw [displ_eq _ (by simp [navierUniform])]
    rfl
  have e2 : navierDispl (navierUniform a b t E nu P N) x y = facW (navierUniform a b t E nu P N) *
      square (navierUniform a b t E nu P N).inc (N - 1) fun m n => amp (navierUniform a b t E nu P N) m n *
        (Real.sin ((navierUniform a b t E nu P N).alpha * m * x) * Real.sin ((navierUniform a b t E nu P N).beta * n * y)) := by
    rw [displ_eq _ (by simp [navierUniform])]
    rfl
  rw [e1, e2]
  unfold square
  rw [hs']

/-! ### Where deflection and moments disagree -/

theorem moments_unique {D nu : ℝ} {w : ℝ → ℝ → ℝ} {x y : ℝ} {M M' : Fin 3 → ℝ} (h : MomentsOf D nu w x y M) (h' : MomentsOf D nu w x y M') :
    M = M' := by
  obtain ⟨wx, wy, wxx, wyy, wxy, a1, a2, a3, a4, a5, a6, a7, a8⟩ := h
  obtain ⟨vx, vy, vxx, vyy, vxy, b1, b2, b3, b4, b5, b6, b7, b8⟩ := h'
  have e1 : wx = vx := by funext x y; exact (a1 x y).unique (b1 x y)
  have e2 : wy = vy := by funext x y; exact (a2 x y).unique (b2 x y)
  subst e1 e2
  have e3 := a3.unique b3
  have e4 := a4.unique b4
  have e5 := a5.unique b5
  subst e3 e4 e5
  funext i
  fin_cases i
  · exact a6.trans b6.symm
  · exact a7.trans b7.symm
  · exact a8.trans b8.symm

/-- C52 is violated for a uniformly loaded plate when the maximum number of terms (attribute nTerm) is 1: the deflection is zero
everywhere, but not the moments. -/
theorem C52_uniform_violated : ∃ (a b t E nu P : ℝ) (N : Nat) (x y : ℝ), 0 < a ∧ 0 < b ∧ 0 < plateD E nu t ∧ 0 < N ∧
    ¬ MomentsOf (plateD E nu t) nu (navierDispl (navierUniform a b t E nu P N)) x y (navier (navierUniform a b t E nu P N) x y 0) := by
  have hD : plateD 12 0 1 = 1 := by norm_num [plateD]
  refine ⟨Real.pi, Real.pi, 1, 12, 0, 1, 1, Real.pi / 2, Real.pi / 2, Real.pi_pos, Real.pi_pos, by rw [hD]; norm_num, by norm_num, ?_⟩
  intro h
  have hw : navierDispl (navierUniform Real.pi Real.pi 1 12 0 1 1) = fun _ _ => 0 := by
    funext x y
    simp [navierDispl, navierUniform, steps]
  rw [hw] at h
  have h0 : MomentsOf (plateD 12 0 1) 0 (fun _ _ => 0) (Real.pi / 2) (Real.pi / 2) (fun _ => 0) :=
    ⟨fun _ _ => 0, fun _ _ => 0, 0, 0, 0, fun _ _ => hasDerivAt_const _ _, fun _ _ => hasDerivAt_const _ _, hasDerivAt_const _ _,
      hasDerivAt_const _ _, hasDerivAt_const _ _, by simp, by simp, by simp⟩
  have e := congrFun (moments_unique h h0) 0
  set p := navierUniform Real.pi Real.pi 1 12 0 1 1 with hp
  have hal : p.alpha = 1 := div_self Real.pi_ne_zero
  have hbe : p.beta = 1 := div_self Real.pi_ne_zero
  have hnu : p.nu = 0 := rfl
  have hty : p.type = 0 := rfl
  have A : addTerms p (Real.pi / 2) (Real.pi / 2) 1 1 0 = ![1 / 4, 1 / 4, 0] := by
    rw [addTerms_eq]
    simp [amp, loadCoef, hal, hbe, hnu, hty]
    norm_num
  have P1 : passTerms p (Real.pi / 2) (Real.pi / 2) 0 1 = ![1 / 4, 1 / 4, 0] := by
    simp [passTerms, steps, A]
  have hst : steps p.inc p.mxmn = [1] := rfl
  have hM : navier p (Real.pi / 2) (Real.pi / 2) 0 0 = 4 / (Real.pi * Real.pi) := by
    simp only [navier, hst, hty, navierLoop, P1, zero_add, ite_self]
    have : p.pz = 1 := rfl
    norm_num [this]
    field_simp
    norm_num
  rw [hM] at e
  have := Real.pi_ne_zero
  field_simp at e
  norm_num at e

/-- C52 is violated by the stop criterion: for a patch load of two thirds of the plate size at the centre, all terms with a 3
vanish, so that the moments consist of a single term although the deflection has more. -/
theorem C52_load_violated : ∃ (a b t E nu P xi eta c d : ℝ) (N : Nat) (x y : ℝ), 0 < a ∧ 0 < b ∧ 0 < plateD E nu t ∧ 0 < c ∧ c < a ∧ 0 < d ∧ d < b ∧
    ¬ MomentsOf (plateD E nu t) nu (navierDispl (navierPartial a b t E nu P xi eta c d N)) x y
      (navier (navierPartial a b t E nu P xi eta c d N) x y 0) := by
  have hD : plateD 12 0 1 = 1 := by norm_num [plateD]
  have hpi := Real.pi_pos
  refine ⟨Real.pi, Real.pi, 1, 12, 0, 1, 1 / 2, 1 / 2, 2 * Real.pi / 3, 2 * Real.pi / 3, 5, Real.pi / 2, Real.pi / 2, hpi, hpi, by rw [hD]; norm_num,
    by positivity, by linarith, by positivity, by linarith, ?_⟩
  intro h
  set p := navierPartial Real.pi Real.pi 1 12 0 1 (1 / 2) (1 / 2) (2 * Real.pi / 3) (2 * Real.pi / 3) 5 with hp
  have hty : p.type = 2 := by
    have : ¬ (2 * Real.pi / 3 = 0) := by positivity
    simp [hp, navierPartial, this]
  have hal : p.alpha = 1 := div_self hpi.ne'
  have hbe : p.beta = 1 := div_self hpi.ne'
  have hinc : p.inc = 2 := by simp [hp, navierPartial]
  have hnu : p.nu = 0 := rfl
  have hxi : p.xi = Real.pi / 2 := by simp only [hp, navierPartial]; ring
  have heta : p.eta = Real.pi / 2 := by simp only [hp, navierPartial]; ring
  have hc2 : p.c2 = Real.pi / 3 := by
    have : p.c2 = if p.type = 1 then Real.pi else 1 / 2 * (2 * Real.pi / 3) := rfl
    rw [this, hty]
    norm_num
    ring
  have hd2 : p.d2 = Real.pi / 3 := by
    have : p.d2 = if p.type = 1 then Real.pi else 1 / 2 * (2 * Real.pi / 3) := rfl
    rw [this, hty]
    norm_num
    ring
  have hDp : p.D = 1 := hD
  -- sines
  have s1 : Real.sin (Real.pi / 2) = 1 := Real.sin_pi_div_two
  have s5 : Real.sin (5 * (Real.pi / 2)) = 1 := by
    rw [show 5 * (Real.pi / 2) = Real.pi / 2 + 2 * Real.pi by ring, Real.sin_add_two_pi, Real.sin_pi_div_two]
  have c1 : Real.cos (Real.pi / 2) = 0 := Real.cos_pi_div_two
  have t1 : Real.sin (Real.pi / 3) = Real.sqrt 3 / 2 := Real.sin_pi_div_three
  have t3 : Real.sin (3 * (Real.pi / 3)) = 0 := by
    rw [show 3 * (Real.pi / 3) = Real.pi by ring, Real.sin_pi]
  have t5 : Real.sin (5 * (Real.pi / 3)) = -(Real.sqrt 3 / 2) := by
    rw [show 5 * (Real.pi / 3) = -(Real.pi / 3) + 2 * Real.pi by ring, Real.sin_add_two_pi, Real.sin_neg, t1]
  have r3 : Real.sqrt 3 * Real.sqrt 3 = 3 := Real.mul_self_sqrt (by norm_num)
  have l11 : amp p 1 1 = 3 / 16 := by
    simp only [amp, loadCoef, hty, hal, hbe, hxi, heta, hc2, hd2, Nat.cast_one, one_mul, s1, t1]
    norm_num
    nlinarith [r3]
  have l3 (k : Nat) : amp p 3 k = 0 := by
    simp only [amp, loadCoef, hty, hal, hbe, hxi, heta, hc2, hd2, one_mul]
    norm_num
    simp [t3]
  have l3' (k : Nat) : amp p k 3 = 0 := by
    simp only [amp, loadCoef, hty, hal, hbe, hxi, heta, hc2, hd2, one_mul]
    norm_num
    simp [t3]
  have l15 : amp p 1 5 = -(3 / 20) / 676 := by
    simp only [amp, loadCoef, hty, hal, hbe, hxi, heta, hc2, hd2, Nat.cast_one, one_mul, Nat.cast_ofNat, s1, s5, t1, t5]
    norm_num
    nlinarith [r3]
  have l51 : amp p 5 1 = -(3 / 20) / 676 := by
    simp only [amp, loadCoef, hty, hal, hbe, hxi, heta, hc2, hd2, Nat.cast_one, one_mul, Nat.cast_ofNat, s1, s5, t1, t5]
    norm_num
    nlinarith [r3]
  have l55 : amp p 5 5 = 3 / 100 / 2500 := by
    simp only [amp, loadCoef, hty, hal, hbe, hxi, heta, hc2, hd2, Nat.cast_one, one_mul, Nat.cast_ofNat, s1, s5, t1, t5]
    norm_num
    nlinarith [r3]
  have A11 : addTerms p (Real.pi / 2) (Real.pi / 2) 1 1 0 = ![3 / 16, 3 / 16, 0] := by
    rw [addTerms_eq]
    simp [l11, hal, hbe, hnu, c1]
  have A3 (k : Nat) : addTerms p (Real.pi / 2) (Real.pi / 2) 3 k 0 = 0 := by
    rw [addTerms_eq]
    simp [l3]
  have A3' (k : Nat) : addTerms p (Real.pi / 2) (Real.pi / 2) k 3 0 = 0 := by
    rw [addTerms_eq]
    simp [l3']
  have B : ∀ v : Fin 3 → ℝ, ![v 0, v 1, v 2] = v := fun v => by funext i; fin_cases i <;> rfl
  -- the moments: a single term
  have hsteps : steps p.inc p.mxmn = [1, 3, 5] := by
    rw [hinc]
    rfl
  have P1 : passTerms p (Real.pi / 2) (Real.pi / 2) 0 1 = ![3 / 16, 3 / 16, 0] := by
    simp [passTerms, steps, A11]
  have P3 : passTerms p (Real.pi / 2) (Real.pi / 2) 0 3 = 0 := by
    have : steps p.inc (3 - 1) = [1] := by rw [hinc]; rfl
    simp [passTerms, this, A3, A3']
  have pos : 0 < l2norm ![3 / 16, 3 / 16, 0] := by
    unfold l2norm
    apply Real.sqrt_pos.mpr
    simp
  have hloop : navierLoop p (Real.pi / 2) (Real.pi / 2) 0 [1, 3, 5] 0 0 = ![3 / 16, 3 / 16, 0] := by
    simp only [navierLoop, P1, P3, zero_add, add_zero, sub_zero, sub_self, abs_zero]
    have n1 : ¬ |l2norm ![3 / 16, 3 / 16, 0]| < 1 / 10 ^ 8 * l2norm ![3 / 16, 3 / 16, 0] := by
      rw [abs_of_pos pos]
      intro h
      nlinarith
    have n3 : 0 < 1 / 10 ^ 8 * l2norm ![3 / 16, 3 / 16, 0] := by positivity
    simp only [n1, if_neg, not_false_eq_true, if_pos n3]
    norm_num
  have hM : navier p (Real.pi / 2) (Real.pi / 2) 0 0 = 3 / (Real.pi * Real.pi) := by
    simp only [navier, hsteps, hloop, hty]
    have : p.pz = 1 := rfl
    norm_num [this]
    field_simp
  -- the moments of the deflection
  have hw : navierDispl p = fun x y => facW p *
      square p.inc 5 fun m k => amp p m k * (Real.sin (p.alpha * m * x) * Real.sin (p.beta * k * y)) := by
    funext x y
    rw [displ_eq _ (by rw [hty])]
    have hc : count p = 5 := by
      unfold count
      rw [hty]
      rfl
    rw [hc]
  rw [hw] at h
  have e := congrFun (moments_unique h (moments_of_square p _ 5 _ _)) 0
  rw [hM] at e
  have hf : facW p = 16 / (Real.pi * Real.pi) := by
    have : p.pz = 1 := rfl
    unfold facW
    rw [hty, hDp, this]
    norm_num
  have hsq : (square p.inc 5 fun m n => addTerms p (Real.pi / 2) (Real.pi / 2) m n 0 0) = 3 / 16 - 3 / 520 + 3 / 10000 := by
    have st : steps p.inc 5 = [1, 3, 5] := by rw [hinc]; rfl
    simp only [square, st, List.map_cons, List.map_nil, List.sum_cons, List.sum_nil, addTerms_eq, l11, l15, l51, l55, l3, l3', hal, hbe, hnu,
      Nat.cast_one, Nat.cast_ofNat, one_mul, s1, s5]
    norm_num [s5]
  have e' : 3 / (Real.pi * Real.pi) = p.D * facW p * (3 / 16 - 3 / 520 + 3 / 10000) := e.trans (by rw [hsq])
  rw [hDp, hf] at e'
  field_simp at e'
  norm_num at e'

/-! ### The circular plate -/

theorem hypot_zero {r : ℝ} (hr : 0 ≤ r) : hypot r 0 = r := by
  unfold hypot
  simp [Real.sqrt_mul_self hr, hr]

/-- C52 (partial: simply supported edge only): deflection and radial moment of the circular plate vanish along the edge. -/
theorem C52_circular_partial (P D nu x y : ℝ) {R : ℝ} (hR : 0 < R) (h : hypot x y = R) :
    circDispl P R D nu x y = 0 ∧ (circPolar P R nu (hypot x y)).1 = 0 := by
  have hn : ¬ R < 1 / 10000 * R := by linarith
  constructor
  · simp only [circDispl, h, div_self hR.ne']
    norm_num [log10]
  · simp only [circPolar, h, if_neg hn, div_self hR.ne']
    simp [log10]

/-- C52: the moments of the circular plate have the radial and the circumferential direction as principal directions, with the polar
moments as principal values. -/
theorem C52_circular_axes (P nu x y : ℝ) {R : ℝ} (hR : 0 < R) (h : 1 / 10000 * R ≤ hypot x y) (i : Fin 2) :
    let M := circular P R nu x y
    let e : Fin 2 → ℝ := ![x, y]
    let n : Fin 2 → ℝ := ![-y, x]
    (∑ j : Fin 2, M (Fin.castLE (by omega) i) (Fin.castLE (by omega) j) * e j = (circPolar P R nu (hypot x y)).1 * e i) ∧
    (∑ j : Fin 2, M (Fin.castLE (by omega) i) (Fin.castLE (by omega) j) * n j = (circPolar P R nu (hypot x y)).2 * n i) := by
  intro M e n
  have hr : 0 < hypot x y := by linarith [show 0 < 1 / 10000 * R by positivity]
  have hsq : hypot x y ^ 2 = x ^ 2 + y ^ 2 := by
    unfold hypot
    rw [Real.sq_sqrt (by nlinarith [mul_self_nonneg x, mul_self_nonneg y])]
    ring
  have hM : M = transform2 (x / hypot x y) (-(y / hypot x y)) (y / hypot x y) (x / hypot x y) (circPolar P R nu (hypot x y)).1
      (circPolar P R nu (hypot x y)).2 0 0 := by
    simp only [M, circular, if_neg (not_lt.mpr h)]
  rw [hM]
  generalize circPolar P R nu (hypot x y) = q
  generalize hypot x y = r at *
  have hx : x ^ 2 = r ^ 2 - y ^ 2 := by linarith
  fin_cases i <;> simp [Fin.sum_univ_two, transform2, sym, e, n, Fin.castLE] <;> constructor <;> field_simp
  · linear_combination (-(x * q.1)) * hsq
  · linear_combination (y * q.2) * hsq
  · linear_combination (-(y * q.1)) * hsq
  · linear_combination (-(x * q.2)) * hsq

theorem log10_deriv {r R : ℝ} (hr : 0 < r) (hR : 0 < R) : HasDerivAt (fun s => log10 (s / R)) (1 / (r * Real.log 10)) r := by
  have h := (((hasDerivAt_id r).div_const R).log (by positivity)).div_const (Real.log 10)
  refine HasDerivAt.congr_deriv (f := fun s => log10 (s / R)) h ?_
  simp only [id]
  field_simp

/-- C52 is violated by the moments of the circular plate: for every load, the radial and circumferential moments do not balance the
shear force P / (2 pi r) of a plate with a point load at its centre, whichever sign convention is used. -/
theorem C52_circular_violated {P R nu r : ℝ} (hP : P ≠ 0) (hR : 0 < R) (h1 : -1 < nu) (h2 : nu ≤ 1 / 2) (hr : 1 / 10000 * R < r) :
    ∀ d, HasDerivAt (fun s => s * (circPolar P R nu s).1) d r →
      d - (circPolar P R nu r).2 ≠ P / (2 * Real.pi) ∧ d - (circPolar P R nu r).2 ≠ -(P / (2 * Real.pi)) := by
  intro d hd
  have r0 : 0 < r := by linarith [show 0 < 1 / 10000 * R by positivity]
  have ev : (fun s => s * (circPolar P R nu s).1) =ᶠ[𝓝 r] fun s => s * (1 / 4 * P / Real.pi * (1 + nu) * log10 (s / R)) := by
    filter_upwards [lt_mem_nhds hr] with s hs
    simp only [circPolar, if_neg (not_lt.mpr hs.le)]
  have hd' := (((hasDerivAt_id r).mul ((log10_deriv r0 hR).const_mul (1 / 4 * P / Real.pi * (1 + nu)))).congr_of_eventuallyEq ev).unique hd
  have hpi := Real.pi_pos
  have L : (2 : ℝ) < Real.log 10 := by
    have : Real.exp 2 < 10 := by
      have e := Real.exp_one_lt_d9
      have : Real.exp 2 = Real.exp 1 * Real.exp 1 := by rw [← Real.exp_add]; norm_num
      rw [this]
      nlinarith [Real.exp_pos 1]
    rw [Real.lt_log_iff_exp_lt (by norm_num)]
    exact this
  have hl : 0 < Real.log 10 := by linarith
  have key : d - (circPolar P R nu r).2 = P / (4 * Real.pi) * ((1 + nu) / Real.log 10 - (1 - nu)) := by
    rw [← hd']
    simp only [circPolar, if_neg (not_lt.mpr hr.le), id]
    field_simp
    ring
  have b1 : (1 + nu) / Real.log 10 < 1 := by
    rw [div_lt_one hl]
    linarith
  have b2 : 0 < (1 + nu) / Real.log 10 := by
    apply div_pos _ hl
    linarith
  have q : P / (4 * Real.pi) ≠ 0 := by positivity
  rw [key]
  constructor
  · intro h
    have : P / (2 * Real.pi) = P / (4 * Real.pi) * 2 := by field_simp; norm_num
    rw [this] at h
    have := mul_left_cancel₀ q h
    linarith
  · intro h
    have : -(P / (2 * Real.pi)) = P / (4 * Real.pi) * (-2) := by field_simp; norm_num
    rw [this] at h
    have := mul_left_cancel₀ q h
    linarith

/-- C52 is violated by the deflection of the circular plate: it has a radial bending moment along the edge, where the plate is
simply supported and the moment reported is zero. -/
theorem C52_circular_deflection_violated {P R D nu : ℝ} (hP : P ≠ 0) (hR : 0 < R) (hD : D ≠ 0) (h1 : -1 < nu) (h2 : nu ≤ 1 / 2) :
    ∃ (w' : ℝ → ℝ) (w'' : ℝ), (∀ᶠ r in 𝓝 R, HasDerivAt (fun s => circDispl P R D nu s 0) (w' r) r) ∧ HasDerivAt w' w'' R ∧
      -D * (w'' + nu * (w' R / R)) ≠ 0 ∧ (circPolar P R nu R).1 = 0 := by
  have hpi := Real.pi_pos
  have hl : 0 < Real.log 10 := Real.log_pos (by norm_num)
  have hn : 1 / 10000 * R < R := by linarith
  have hc (a : ℝ) (u : ℝ) : HasDerivAt (fun s : ℝ => a * (s / R) ^ 2) (a * (2 * u / R ^ 2)) u := by
    refine ((((hasDerivAt_id u).div_const R).pow 2).const_mul a).congr_deriv ?_
    simp only [id]
    field_simp
    norm_num
    field_simp
  have w1 : ∀ r, 0 < r → HasDerivAt (fun s => -P * R * R / (16 * Real.pi * D) * ((3 + nu) / (1 + nu) * (1 - (s / R) ^ 2) -
      2 * (s / R) ^ 2 * log10 (s / R))) (-P * R * R / (16 * Real.pi * D) * (-((3 + nu) / (1 + nu) * (2 * r / R ^ 2)) -
        (2 * (2 * r / R ^ 2) * log10 (r / R) + 2 * r / (R ^ 2 * Real.log 10)))) r := by
    intro r r0
    have e1 := ((hc ((3 + nu) / (1 + nu)) r).const_sub ((3 + nu) / (1 + nu)))
    have e2 := (hc 2 r).mul (log10_deriv r0 hR)
    refine HasDerivAt.congr_deriv (f' := -P * R * R / (16 * Real.pi * D) * (-((3 + nu) / (1 + nu) * (2 * r / R ^ 2)) -
        (2 * (2 * r / R ^ 2) * log10 (r / R) + 2 * (r / R) ^ 2 * (1 / (r * Real.log 10))))) ?_ ?_
    · refine HasDerivAt.const_mul _ ?_
      refine HasDerivAt.congr_of_eventuallyEq (e1.sub e2) (Filter.Eventually.of_forall fun s => ?_)
      simp only [Pi.sub_apply, Pi.mul_apply]
      ring
    · field_simp
  refine ⟨fun r => -P * R * R / (16 * Real.pi * D) * (-((3 + nu) / (1 + nu) * (2 * r / R ^ 2)) -
        (2 * (2 * r / R ^ 2) * log10 (r / R) + 2 * r / (R ^ 2 * Real.log 10))),
    -P * R * R / (16 * Real.pi * D) * (-((3 + nu) / (1 + nu) * (2 / R ^ 2)) -
        (4 / (R ^ 2 * Real.log 10) + 2 / (R ^ 2 * Real.log 10))), ?_, ?_, ?_, ?_⟩
  · filter_upwards [lt_mem_nhds hn] with r hr
    have r0 : 0 < r := by linarith [show 0 < 1 / 10000 * R by positivity]
    refine (w1 r r0).congr_of_eventuallyEq ?_
    filter_upwards [lt_mem_nhds hr] with s hs
    have s0 : 0 < s := by linarith [show 0 < 1 / 10000 * R by positivity]
    have : ¬ s / R < 1 / 10000 := by
      rw [not_lt, le_div_iff₀ hR]
      exact hs.le
    simp only [circDispl, hypot_zero s0.le, if_neg this]
    ring
  · have id2 : HasDerivAt (fun s : ℝ => 2 * s / R ^ 2) (2 / R ^ 2) R := by
      refine (((hasDerivAt_id R).const_mul 2).div_const (R ^ 2)).congr_deriv ?_
      simp
    have id3 : HasDerivAt (fun s : ℝ => 2 * s / (R ^ 2 * Real.log 10)) (2 / (R ^ 2 * Real.log 10)) R := by
      refine (((hasDerivAt_id R).const_mul 2).div_const _).congr_deriv ?_
      simp
    have l := log10_deriv hR hR
    have := (((id2.const_mul ((3 + nu) / (1 + nu))).neg).sub (((id2.const_mul 2).mul l).add id3)).const_mul (-P * R * R / (16 * Real.pi * D))
    refine HasDerivAt.congr_deriv this ?_
    rw [div_self hR.ne']
    simp only [log10, Real.logb_one, mul_zero, zero_add]
    field_simp
    ring
  · have h3 : 1 + nu ≠ 0 := by linarith
    have : -D * (-P * R * R / (16 * Real.pi * D) * (-((3 + nu) / (1 + nu) * (2 / R ^ 2)) -
        (4 / (R ^ 2 * Real.log 10) + 2 / (R ^ 2 * Real.log 10))) + nu * (-P * R * R / (16 * Real.pi * D) * (-((3 + nu) / (1 + nu) * (2 * R / R ^ 2)) -
        (2 * (2 * R / R ^ 2) * log10 (R / R) + 2 * R / (R ^ 2 * Real.log 10))) / R)) =
        -(P / (8 * Real.pi)) * (3 + nu) * (1 + 1 / Real.log 10) := by
      rw [div_self hR.ne']
      simp only [log10, Real.logb_one, mul_zero, zero_add]
      field_simp
      ring
    rw [this]
    have h4 : 0 < 3 + nu := by linarith
    have : P / (8 * Real.pi) ≠ 0 := by positivity
    have h5 : 0 < 1 + 1 / Real.log 10 := by positivity
    exact mul_ne_zero (mul_ne_zero (neg_ne_zero.mpr this) h4.ne') h5.ne'
  · simp only [circPolar, if_neg (not_lt.mpr hn.le), div_self hR.ne']
    simp [log10]

/-- Concrete cases meeting the hypotheses. -/
example : plateD 12 0 1 ≠ 0 ∧ (navierUniform 2 3 1 12 0 1 4).alpha * ((3 : Nat) : ℝ) ≠ 0 ∧
    hypot 3 4 = 5 ∧ (-1 : ℝ) < 3 / 10 ∧ (3 / 10 : ℝ) ≤ 1 / 2 := by
  refine ⟨by norm_num [plateD], ?_, ?_, by norm_num, by norm_num⟩
  · simp [navierUniform, Real.pi_ne_zero]
  · unfold hypot
    rw [show (3 : ℝ) * 3 + 4 * 4 = 5 ^ 2 by norm_num]
    exact Real.sqrt_sq (by norm_num)

theorem mem_steps (inc N m : Nat) : m ∈ steps inc N ↔ 1 ≤ m ∧ m ≤ N ∧ (m - 1) % inc = 0 := by
  unfold steps
  simp only [List.mem_filterMap, List.mem_range]
  constructor
  · rintro ⟨k, hk, h⟩
    split_ifs at h with h0
    · obtain rfl := Option.some.inj h
      exact ⟨by omega, by omega, by simpa using h0⟩
  · rintro ⟨h1, h2, h3⟩
    exact ⟨m - 1, by omega, by rw [if_pos h3]; congr 1; omega⟩

/-- C52: the plate stiffness is `E t³ / (12 (1 - ν²))`. -/
theorem C52_stiffness (E nu t : ℝ) : plateD E nu t = E * t ^ 3 / (12 * (1 - nu ^ 2)) := by
  unfold plateD
  congr 1 <;> ring

theorem sin_even {a : ℝ} (ha : a ≠ 0) (k : Nat) : Real.sin (Real.pi / a * (2 * k : Nat) * (1 / 2 * a)) = 0 := by
  have : Real.pi / a * (2 * k : Nat) * (1 / 2 * a) = (k : ℝ) * Real.pi := by
    push_cast; field_simp
  rw [this]
  exact Real.sin_nat_mul_pi k

/-- C52 (no term is lost): every term of the Fourier series up to order `N` whose load coefficient does not vanish takes part in the
summation, for every position and size of the load. -/
theorem C52_no_term_lost (a b t E nu P xi eta c d : ℝ) (N : Nat) (ha : a ≠ 0) (hb : b ≠ 0) {m n : Nat} (hm : 1 ≤ m) (hmN : m ≤ N)
    (hn : 1 ≤ n) (hnN : n ≤ N) (hl : loadCoef (navierPartial a b t E nu P xi eta c d N) m n ≠ 0) :
    m ∈ steps (navierPartial a b t E nu P xi eta c d N).inc N ∧ n ∈ steps (navierPartial a b t E nu P xi eta c d N).inc N := by
  rw [mem_steps, mem_steps]
  by_cases h : xi = 1 / 2 ∧ eta = 1 / 2
  · have hi : (navierPartial a b t E nu P xi eta c d N).inc = 2 := by simp only [navierPartial, if_pos h]
    rw [hi]
    have hodd : (m % 2 = 1) ∧ (n % 2 = 1) := by
      by_contra hc
      apply hl
      have hor : m % 2 = 0 ∨ n % 2 = 0 := by omega
      have hz : Real.sin (Real.pi / a * m * (xi * a)) = 0 ∨ Real.sin (Real.pi / b * n * (eta * b)) = 0 := by
        rcases hor with h2 | h2
        · left
          obtain ⟨k, rfl⟩ : ∃ k, m = 2 * k := ⟨m / 2, by omega⟩
          rw [h.1]; exact sin_even ha k
        · right
          obtain ⟨k, rfl⟩ : ∃ k, n = 2 * k := ⟨n / 2, by omega⟩
          rw [h.2]; exact sin_even hb k
      unfold loadCoef navierPartial
      rcases hz with hz | hz <;> by_cases hcd : c = 0 ∨ d = 0 <;> simp [hcd, hz]
    omega
  · have hi : (navierPartial a b t E nu P xi eta c d N).inc = 1 := by simp only [navierPartial, if_neg h]
    rw [hi]
    omega

example : loadCoef (navierPartial Real.pi Real.pi 1 1 0 1 (1 / 2) (1 / 2) 0 0 3) 1 1 ≠ 0 := by
  have h : Real.pi / Real.pi = 1 := div_self Real.pi_ne_zero
  simp [loadCoef, navierPartial, h]
  have : (2 : ℝ)⁻¹ * Real.pi = Real.pi / 2 := by ring
  rw [this]; simp

end Verif.Analytic
