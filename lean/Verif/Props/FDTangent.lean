/-
C112: the element matrix of a finite deformation analysis is the derivative of the internal forces.
-/
import Verif.Model.FDTangent
import Verif.Props.Formulations
import Mathlib.Topology.Algebra.Order.LiminfLimsup
import Mathlib.Analysis.Calculus.Deriv.Basic
import Mathlib.Topology.Instances.Matrix

set_option linter.unusedSectionVars false
set_option linter.unnecessarySeqFocus false
set_option linter.unusedSimpArgs false
set_option linter.unusedVariables false

namespace Verif.Finite

open Verif.Cont Verif.ContSpec Verif.FiniteSpec Filter Topology

/-! ### Specification -/

/-- The deformation gradient of a displacement gradient in `d` dimensions. -/
noncomputable def defF (d : Nat) (H : Nat → Nat → ℝ) (i j : Nat) : ℝ := (if i = j then 1 else 0) + if (1 ≤ i ∧ i ≤ d) ∧ 1 ≤ j ∧ j ≤ d then H i j else 0

/-- The Green-Lagrange strains in engineering notation. -/
noncomputable def greenV (d : Nat) (H : Nat → Nat → ℝ) : Nat → ℝ := engineering d (green d H)

/-- The rate of the Green-Lagrange strains for the rate `H'` of the displacement gradient. -/
noncomputable def rateV (d : Nat) (H H' : Nat → Nat → ℝ) : Nat → ℝ := engineering d fun p q => ∑ k ∈ Finset.range d, defF d H (k + 1) p * H' (k + 1) q

/-- `F^T x F`. -/
def pull (d : Nat) (F x : Nat → Nat → ℝ) (p q : Nat) : ℝ := ∑ k ∈ Finset.range d, F (k + 1) p * ∑ l ∈ Finset.range d, x (k + 1) (l + 1) * F (l + 1) q

/-- Second Piola-Kirchhoff stresses `S`, which vanish without strains, and their derivative `C` with respect to the strains, as functions of the displacement gradient. -/
structure Law (d : Nat) (S : (Nat → Nat → ℝ) → Nat → ℝ) (C : (Nat → Nat → ℝ) → Nat → Nat → ℝ) : Prop where
  zero : ∀ H, (∀ i, 1 ≤ i → i ≤ d * (d + 1) / 2 → greenV d H i = 0) → ∀ i, S H i = 0
  tangent : ∀ H H' i, 1 ≤ i → i ≤ d * (d + 1) / 2 → HasDerivAt (fun t : ℝ => S (fun p q => H p q + t * H' p q) i)
    (∑ j ∈ Finset.range (d * (d + 1) / 2), C H i (j + 1) * rateV d H H' (j + 1)) 0

/-- A material which returns the second Piola-Kirchhoff stresses and their derivative. -/
structure Hyper (d : Nat) (mat : Mat ℝ) (S : (Nat → Nat → ℝ) → Nat → ℝ) (C : (Nat → Nat → ℝ) → DMat ℝ) : Prop where
  eval : ∀ H, mat (defF d H) (greenV d H) = .ok (C H, S H)
  size : ∀ H, (C H).nc = d * (d + 1) / 2
  law : Law d S fun H => (C H).e

/-- A material which returns the Cauchy stresses of the law (`det F * sigma = F S F^T`) and the tangent in the deformed configuration
(`det F * d:c:d' = (F^T d F):C:(F^T d' F)` for all velocity gradients `d`, `d'`, which is what C25 shows for the push-forward of the code). -/
structure Spatial (d : Nat) (mat : Mat ℝ) (S : (Nat → Nat → ℝ) → Nat → ℝ) (C : (Nat → Nat → ℝ) → Nat → Nat → ℝ) (sig : (Nat → Nat → ℝ) → Nat → ℝ) (c : (Nat → Nat → ℝ) → DMat ℝ) : Prop where
  eval : ∀ H, (lead d (defF d H)).det ≠ 0 → mat (defF d H) (greenV d H) = .ok (c H, sig H)
  size : ∀ H, (c H).nc = d * (d + 1) / 2
  law : Law d S C
  stress : ∀ H i j, (lead d (defF d H)).det ≠ 0 → 1 ≤ i → i ≤ d → 1 ≤ j → j ≤ d → (lead d (defF d H)).det * symT d false (sig H) i j
    = ∑ p ∈ Finset.range d, ∑ q ∈ Finset.range d, defF d H i (p + 1) * symT d false (S H) (p + 1) (q + 1) * defF d H j (q + 1)
  tensor : ∀ H x y, (lead d (defF d H)).det ≠ 0 → (lead d (defF d H)).det * ∑ k ∈ Finset.range (d * (d + 1) / 2), ∑ l ∈ Finset.range (d * (d + 1) / 2),
      engineering d x (k + 1) * (c H).e (k + 1) (l + 1) * engineering d y (l + 1)
    = ∑ k ∈ Finset.range (d * (d + 1) / 2), ∑ l ∈ Finset.range (d * (d + 1) / 2),
      engineering d (pull d (defF d H) x) (k + 1) * C H (k + 1) (l + 1) * engineering d (pull d (defF d H) y) (l + 1)

/-! ### Lemmas -/

theorem kinUL_ok (d : Nat) (hd : d = 2 ∨ d = 3) (p : FPt ℝ) (epsR : ℝ) (hn : 0 < p.dN.nr) (hc : p.dN.nc = d) (u : Nat → Nat → ℝ) :
    kinUL d false ⟨d * p.dN.nr, dofVec d u⟩ p epsR = .ok (defF d (grad p.dN.nr u p.dN.e), greenV d (grad p.dN.nr u p.dN.e)) := by
  have hne : ¬ d * p.dN.nr = 0 := by rcases hd with h | h <;> rw [h] <;> omega
  unfold kinUL
  refine (if_neg hne).trans ((if_neg (by simp; omega)).trans ?_)
  simp only [Res.ok.injEq, Prod.mk.injEq]
  constructor
  · funext i j
    simp only [kinF, Bool.false_eq_true, false_and, if_false, defF]
    by_cases h : (1 ≤ i ∧ i ≤ d) ∧ 1 ≤ j ∧ j ≤ d
    · rw [if_pos h, defGrad_grad d false p.N p.dN p.X epsR u i j h.1.1 h.1.2 h.2.1 h.2.2 (by omega), add_comm]
    · rw [if_neg h, add_comm]
      have h' : ¬ (1 ≤ i ∧ i ≤ d ∧ 1 ≤ j ∧ j ≤ p.dN.nc) := by rw [hc]; tauto
      simp [defGrad, h']
  · funext i
    have hg := fun i j h1 h2 h3 h4 => defGrad_grad d false p.N p.dN p.X epsR u i j h1 h2 h3 h4 (by omega)
    rcases hd with h | h <;> subst h
    · by_cases hi : 1 ≤ i ∧ i ≤ 3
      · obtain ⟨h1, h2⟩ := hi
        interval_cases i <;> simp [strainV, strainE, greenV, engineering, eng2, green, hg, Finset.sum_range_succ] <;> ring
      · have : i = 0 ∨ ∃ k, i = k + 4 := by
          by_cases h : i = 0
          · exact .inl h
          · exact .inr ⟨i - 4, by omega⟩
        rcases this with rfl | ⟨k, rfl⟩ <;> simp [strainV, greenV, engineering, eng2]
    · by_cases hi : 1 ≤ i ∧ i ≤ 6
      · obtain ⟨h1, h2⟩ := hi
        interval_cases i <;> simp [strainV, strainE, greenV, engineering, eng3, green, hg, Finset.sum_range_succ] <;> ring
      · have : i = 0 ∨ ∃ k, i = k + 7 := by
          by_cases h : i = 0
          · exact .inl h
          · exact .inr ⟨i - 7, by omega⟩
        rcases this with rfl | ⟨k, rfl⟩ <;> simp [strainV, greenV, engineering, eng3]

/-- The kinematics of the total Lagrangian element: same deformation gradient and strains, and the B-matrix gives the strain rates. -/
theorem kinTL_ok (d : Nat) (hd : d = 2 ∨ d = 3) (p : FPt ℝ) (epsR : ℝ) (hn : 0 < p.dN.nr) (hc : p.dN.nc = d) (u : Nat → Nat → ℝ) :
    ∃ B, kinTL d false ⟨d * p.dN.nr, dofVec d u⟩ p.N p.dN p.X epsR = .ok ⟨B, defF d (grad p.dN.nr u p.dN.e), greenV d (grad p.dN.nr u p.dN.e)⟩ ∧
      B.nr = d * (d + 1) / 2 ∧ B.nc = d * p.dN.nr ∧
      ∀ v i, 1 ≤ i → i ≤ d * (d + 1) / 2 → B.mulV (dofVec d v) i = rateV d (grad p.dN.nr u p.dN.e) (grad p.dN.nr v p.dN.e) i := by
  have hU := kinUL_ok d hd p epsR hn hc u
  have hne : ¬ d * p.dN.nr = 0 := by rcases hd with h | h <;> rw [h] <;> omega
  have hnf : ¬ (d * p.dN.nr ≠ d * p.dN.nr ∨ p.dN.nc < d) := by simp; omega
  unfold kinUL at hU
  rw [if_neg hne, if_neg hnf] at hU
  simp only [Res.ok.injEq, Prod.mk.injEq] at hU
  obtain ⟨hF, hE⟩ := hU
  unfold kinTL
  rw [if_neg hne, if_neg hnf]
  simp only []
  rw [hF, hE]
  rcases hd with h | h <;> subst h
  · obtain ⟨B, hB, b1, b2, b3⟩ := tlB_2 (defF 2 (grad p.dN.nr u p.dN.e)) p.N p.dN p.X epsR
    refine ⟨B, by rw [hB]; rfl, b1, b2, fun v i h1 h2 => ?_⟩
    rw [mulV_2 B _ p.dN b2 b3 v i h1 h2]
    simp [rateV, engineering]
  · obtain ⟨B, hB, b1, b2, b3⟩ := tlB_3 (defF 3 (grad p.dN.nr u p.dN.e)) p.N p.dN p.X epsR
    refine ⟨B, by rw [hB]; rfl, b1, b2, fun v i h1 h2 => ?_⟩
    rw [mulV_3 B _ p.dN b2 b3 v i h1 h2]
    simp [rateV, engineering]

/-- The work of stresses with engineering strains is that of the tensors. -/
theorem eng_work (d : Nat) (hd : d = 2 ∨ d = 3) (T : Nat → Nat → ℝ) (s : Nat → ℝ) :
    ∑ i ∈ Finset.range (d * (d + 1) / 2), engineering d T (i + 1) * s (i + 1)
      = ∑ p ∈ Finset.range d, ∑ q ∈ Finset.range d, symT d false s (p + 1) (q + 1) * T (p + 1) (q + 1) := by
  rcases hd with h | h <;> subst h
  · simp [Finset.sum_range_succ, engineering, eng2, symT]; ring
  · simp [Finset.sum_range_succ, engineering, eng3, symT]; ring

theorem symT_symm (d : Nat) (axi : Bool) (s : Nat → ℝ) (p q : Nat) : symT d axi s p q = symT d axi s q p := by
  unfold symT
  by_cases h : p = q
  · subst h; rfl
  · rw [if_neg h, if_neg (Ne.symm h), Nat.add_comm]

theorem addIntForce_dot (ES : DVec ℝ) (B : DMat ℝ) (s : Nat → ℝ) (w : ℝ) (h : ES.n = B.nc) (x : Nat → ℝ) :
    (addIntForce ES B s w).dot x = ES.dot x - w * ∑ k ∈ Finset.range B.nr, B.mulV x (k + 1) * s (k + 1) := by
  unfold addIntForce DVec.dot DMat.mulV
  simp only [add_mul, mul_add, Finset.sum_add_distrib, h]
  rw [sub_eq_add_neg]
  congr 1
  simp only [Finset.sum_mul, Finset.mul_sum, ← Finset.sum_neg_distrib]
  rw [Finset.sum_comm]
  exact Finset.sum_congr rfl fun k _ => Finset.sum_congr rfl fun i _ => by ring

theorem zeroStrain_iff (tol : ℝ) (n : Nat) (E : Nat → ℝ) : zeroStrain tol n E = true ↔ ∀ i, 1 ≤ i → i ≤ n → |E i| ≤ tol := by
  unfold zeroStrain
  simp only [List.all_eq_true, List.mem_range, decide_eq_true_eq]
  constructor
  · intro h i h1 h2
    have := h (i - 1) (by omega)
    rwa [show i - 1 + 1 = i by omega] at this
  · intro h i hi
    exact h (i + 1) (by omega) (by omega)

/-- The geometric stiffness in terms of the displacement gradients. -/
theorem kg_bil (d n : Nat) (g : Nat → Nat → ℝ) (sig : Nat → Nat → ℝ) (w : ℝ) (x y : Nat → Nat → ℝ) :
    ∑ a ∈ Finset.range n, ∑ b ∈ Finset.range n,
      (∑ i ∈ Finset.range d, ∑ j ∈ Finset.range d, g (a + 1) (i + 1) * sig (i + 1) (j + 1) * g (b + 1) (j + 1)) * w * (∑ k ∈ Finset.range d, x (a + 1) (k + 1) * y (b + 1) (k + 1))
    = w * ∑ i ∈ Finset.range d, ∑ j ∈ Finset.range d, sig (i + 1) (j + 1) * ∑ k ∈ Finset.range d, grad n x g (k + 1) (i + 1) * grad n y g (k + 1) (j + 1) := by
  unfold grad
  simp only [Finset.sum_mul_sum]
  have e1 : ∀ a b, (∑ i ∈ Finset.range d, ∑ j ∈ Finset.range d, g (a + 1) (i + 1) * sig (i + 1) (j + 1) * g (b + 1) (j + 1)) * w * (∑ k ∈ Finset.range d, x (a + 1) (k + 1) * y (b + 1) (k + 1))
      = ∑ i ∈ Finset.range d, ∑ j ∈ Finset.range d, ∑ k ∈ Finset.range d, w * (sig (i + 1) (j + 1) * (x (a + 1) (k + 1) * g (a + 1) (i + 1) * (y (b + 1) (k + 1) * g (b + 1) (j + 1)))) := by
    intro a b
    simp only [Finset.sum_mul, Finset.mul_sum]
    rw [Finset.sum_comm' (t' := Finset.range d) (s' := fun _ => Finset.range d) (by simp)]
    refine Finset.sum_congr rfl fun i _ => ?_
    rw [Finset.sum_comm]
    exact Finset.sum_congr rfl fun j _ => Finset.sum_congr rfl fun k _ => by ring
  simp only [e1, Finset.mul_sum]
  have sw : ∀ f : Nat → Nat → Nat → Nat → Nat → ℝ, ∑ a ∈ Finset.range n, ∑ b ∈ Finset.range n, ∑ i ∈ Finset.range d, ∑ j ∈ Finset.range d, ∑ k ∈ Finset.range d, f a b i j k
      = ∑ i ∈ Finset.range d, ∑ j ∈ Finset.range d, ∑ k ∈ Finset.range d, ∑ a ∈ Finset.range n, ∑ b ∈ Finset.range n, f a b i j k := by
    intro f
    have s1 : ∀ a, ∑ b ∈ Finset.range n, ∑ i ∈ Finset.range d, ∑ j ∈ Finset.range d, ∑ k ∈ Finset.range d, f a b i j k
        = ∑ i ∈ Finset.range d, ∑ j ∈ Finset.range d, ∑ k ∈ Finset.range d, ∑ b ∈ Finset.range n, f a b i j k := by
      intro a
      rw [Finset.sum_comm]
      refine Finset.sum_congr rfl fun i _ => ?_
      rw [Finset.sum_comm]
      refine Finset.sum_congr rfl fun j _ => ?_
      rw [Finset.sum_comm]
    simp only [s1]
    rw [Finset.sum_comm]
    refine Finset.sum_congr rfl fun i _ => ?_
    rw [Finset.sum_comm]
    refine Finset.sum_congr rfl fun j _ => ?_
    rw [Finset.sum_comm]
  exact sw _

/-- What an integration point adds to the element vector and matrix, as linear and bilinear forms. -/
def Contr (d n : Nat) (step : (Nat → Nat → ℝ) → DMat ℝ × DVec ℝ → Res (DMat ℝ × DVec ℝ)) (u : Nat → Nat → ℝ) (W : (Nat → Nat → ℝ) → ℝ)
    (Q : (Nat → Nat → ℝ) → (Nat → Nat → ℝ) → ℝ) : Prop :=
  ∃ g : DVec ℝ → DVec ℝ, (∀ b, b.n = d * n → (g b).n = d * n ∧ ∀ x, (g b).dot (dofVec d x) = b.dot (dofVec d x) - W x) ∧
    ∀ A b, A.nr = d * n → A.nc = d * n → b.n = d * n → ∃ A', step u (A, b) = .ok (A', g b) ∧ A'.nr = d * n ∧ A'.nc = d * n ∧
      ∀ x y, A'.bil (dofVec d x) (dofVec d y) = A.bil (dofVec d x) (dofVec d y) + Q x y

/-- The derivative of the element vector is minus the element matrix. -/
structure Deriv (d n : Nat) (v : Nat → Nat → ℝ) (A : DMat ℝ) (f : ℝ → DVec ℝ) : Prop where
  nr : A.nr = d * n
  nc : A.nc = d * n
  n : ∀ t, (f t).n = d * n
  deriv : ∀ x, HasDerivAt (fun t => (f t).dot (dofVec d x)) (-A.bil (dofVec d x) (dofVec d v)) 0

def Good (d n : Nat) (step : (Nat → Nat → ℝ) → DMat ℝ × DVec ℝ → Res (DMat ℝ × DVec ℝ)) (u v : Nat → Nat → ℝ) : Prop :=
  ∀ A f, Deriv d n v A f → ∃ A' f', step u (A, f 0) = .ok (A', f' 0) ∧ Deriv d n v A' f' ∧
    ∀ᶠ t in 𝓝 (0 : ℝ), ∀ B, B.nr = d * n → B.nc = d * n → ∃ B', step (along u v t) (B, f t) = .ok (B', f' t) ∧ B'.nr = d * n ∧ B'.nc = d * n

theorem along_zero (u v : Nat → Nat → ℝ) : along u v 0 = u := by funext a i; simp [along]

theorem good_of_contr (d n : Nat) (step) (u v : Nat → Nat → ℝ) (W : ℝ → (Nat → Nat → ℝ) → ℝ) (Q : ℝ → (Nat → Nat → ℝ) → (Nat → Nat → ℝ) → ℝ)
    (h : ∀ᶠ t in 𝓝 (0 : ℝ), Contr d n step (along u v t) (W t) (Q t)) (hd : ∀ x, HasDerivAt (fun t => W t x) (Q 0 x v) 0) : Good d n step u v := by
  classical
  intro A f hf
  have h0 := h.self_of_nhds
  let g : ℝ → DVec ℝ → DVec ℝ := fun t => if ht : Contr d n step (along u v t) (W t) (Q t) then ht.choose else id
  have hg : ∀ t, ∀ ht : Contr d n step (along u v t) (W t) (Q t), g t = ht.choose := fun t ht => dif_pos ht
  obtain ⟨s1, s2⟩ := h0.choose_spec
  obtain ⟨A', e1, n1, n2, q⟩ := s2 A (f 0) hf.nr hf.nc (hf.n 0)
  refine ⟨A', fun t => g t (f t), ?_, ⟨n1, n2, ?_, ?_⟩, ?_⟩
  · show _ = Res.ok (A', g 0 (f 0))
    rw [hg 0 h0, ← e1, along_zero]
  · intro t
    by_cases ht : Contr d n step (along u v t) (W t) (Q t)
    · rw [hg t ht]; exact (ht.choose_spec.1 _ (hf.n t)).1
    · have : g t = id := dif_neg ht
      rw [this]; exact hf.n t
  · intro x
    rw [q x v]
    have := (hf.deriv x).sub (hd x)
    refine (this.congr_deriv (by ring)).congr_of_eventuallyEq ?_
    filter_upwards [h] with t ht
    show (g t (f t)).dot _ = _
    rw [hg t ht]
    exact (ht.choose_spec.1 _ (hf.n t)).2 x
  · filter_upwards [h] with t ht B b1 b2
    obtain ⟨B', k1, k2, k3, -⟩ := ht.choose_spec.2 B (f t) b1 b2 (hf.n t)
    refine ⟨B', ?_, k2, k3⟩
    show _ = Res.ok (B', g t (f t))
    rw [hg t ht]; exact k1

/-- The loop over the integration points. -/
def runAll (steps : List ((Nat → Nat → ℝ) → DMat ℝ × DVec ℝ → Res (DMat ℝ × DVec ℝ))) (u : Nat → Nat → ℝ) : DMat ℝ × DVec ℝ → Res (DMat ℝ × DVec ℝ) :=
  match steps with
  | [] => fun M => .ok M
  | s :: l => fun M => (s u M).bind fun M => runAll l u M

theorem good_all (d n : Nat) (u v : Nat → Nat → ℝ) (steps) (h : ∀ s ∈ steps, Good d n s u v) : Good d n (runAll steps) u v := by
  induction steps with
  | nil => exact fun A f hf => ⟨A, f, rfl, hf, Eventually.of_forall fun t B b1 b2 => ⟨B, rfl, b1, b2⟩⟩
  | cons s l ih =>
    intro A f hf
    obtain ⟨A1, f1, e1, d1, t1⟩ := h s (by simp) A f hf
    obtain ⟨A2, f2, e2, d2, t2⟩ := ih (fun s hs => h s (by simp [hs])) A1 f1 d1
    refine ⟨A2, f2, ?_, d2, ?_⟩
    · show (s u (A, f 0)).bind _ = _
      rw [e1]; exact e2
    · filter_upwards [t1, t2] with t h1 h2 B b1 b2
      obtain ⟨B1, k1, k2, k3⟩ := h1 B b1 b2
      obtain ⟨B2, k4, k5, k6⟩ := h2 B1 k2 k3
      refine ⟨B2, ?_, k5, k6⟩
      show (s _ (B, f t)).bind _ = _
      rw [k1]; exact k4

/-! ### Total Lagrangian formulation -/

theorem tl_contr (d : Nat) (hd : d = 2 ∨ d = 3) (n : Nat) (hn : 0 < n) (tol epsR : ℝ) (p : FPt ℝ) (mat : Mat ℝ) (S : (Nat → Nat → ℝ) → Nat → ℝ) (C : (Nat → Nat → ℝ) → DMat ℝ)
    (hev : ∀ H, mat (defF d H) (greenV d H) = .ok (C H, S H)) (hsz : ∀ H, (C H).nc = d * (d + 1) / 2) (hr : p.dN.nr = n) (hc : p.dN.nc = d) (u : Nat → Nat → ℝ) :
    Contr d n (fun u M => tlPoint d false tol epsR mat ⟨d * n, dofVec d u⟩ p M) u
      (fun x => if zeroStrain tol (d * (d + 1) / 2) (greenV d (grad n u p.dN.e)) then 0 else
        p.w * ∑ k ∈ Finset.range (d * (d + 1) / 2), rateV d (grad n u p.dN.e) (grad n x p.dN.e) (k + 1) * S (grad n u p.dN.e) (k + 1))
      (fun x y => p.w * (∑ k ∈ Finset.range (d * (d + 1) / 2), ∑ l ∈ Finset.range (d * (d + 1) / 2),
          rateV d (grad n u p.dN.e) (grad n x p.dN.e) (k + 1) * (C (grad n u p.dN.e)).e (k + 1) (l + 1) * rateV d (grad n u p.dN.e) (grad n y p.dN.e) (l + 1))
        + if zeroStrain tol (d * (d + 1) / 2) (greenV d (grad n u p.dN.e)) then 0 else
          p.w * ∑ i ∈ Finset.range d, ∑ j ∈ Finset.range d, symT d false (S (grad n u p.dN.e)) (i + 1) (j + 1)
            * ∑ k ∈ Finset.range d, grad n x p.dN.e (k + 1) (i + 1) * grad n y p.dN.e (k + 1) (j + 1)) := by
  subst hr
  obtain ⟨B, hB, b1, b2, b3⟩ := kinTL_ok d hd p epsR hn hc u
  have hmu : ∀ x, ∀ k ∈ Finset.range (d * (d + 1) / 2), B.mulV (dofVec d x) (k + 1) = rateV d (grad p.dN.nr u p.dN.e) (grad p.dN.nr x p.dN.e) (k + 1) :=
    fun x k hk => b3 x (k + 1) (by omega) (by have := Finset.mem_range.mp hk; omega)
  generalize grad p.dN.nr u p.dN.e = H at hB hmu b3 ⊢
  refine ⟨fun b => if zeroStrain tol (d * (d + 1) / 2) (greenV d H) then b else addIntForce b B (S H) p.w, fun b hb => ?_, fun A b a1 a2 hb => ?_⟩
  · by_cases hz : zeroStrain tol (d * (d + 1) / 2) (greenV d H) = true
    · simp only [hz, if_true]
      exact ⟨hb, fun x => by ring⟩
    · simp only [hz, Bool.false_eq_true, if_false]
      refine ⟨hb, fun x => ?_⟩
      rw [addIntForce_dot _ _ _ _ (by rw [hb, b2]), b1]
      congr 2
      exact Finset.sum_congr rfl fun k hk => by rw [hmu x k hk]
  · have hkm : ∀ x y, (addKm A B (C H) p.w).bil (dofVec d x) (dofVec d y) = A.bil (dofVec d x) (dofVec d y) + p.w * ∑ k ∈ Finset.range (d * (d + 1) / 2), ∑ l ∈ Finset.range (d * (d + 1) / 2),
          rateV d H (grad p.dN.nr x p.dN.e) (k + 1) * (C H).e (k + 1) (l + 1) * rateV d H (grad p.dN.nr y p.dN.e) (l + 1) := by
      intro x y
      rw [addKm_bil A B (C H) p.w (by rw [a1, b2]) (by rw [a2, b2]) (by rw [hsz, b1]), b1]
      congr 2
      exact Finset.sum_congr rfl fun k hk => Finset.sum_congr rfl fun l hl => by rw [hmu x k hk, hmu y l hl]
    have hstep : ∀ M : DMat ℝ × DVec ℝ, tlPoint d false tol epsR mat ⟨d * p.dN.nr, dofVec d u⟩ p M =
        if zeroStrain tol (d * (d + 1) / 2) (greenV d H) then .ok (addKm M.1 B (C H) p.w, M.2)
        else (formKG d false (addKm M.1 B (C H) p.w) p.N p.dN p.X (symT d false (S H)) p.w).bind fun EK => .ok (EK, addIntForce M.2 B (S H) p.w) := by
      intro M
      unfold tlPoint
      rw [hB]
      show (mat (defF d H) (greenV d H)).bind _ = _
      rw [hev H]
      rfl
    by_cases hz : zeroStrain tol (d * (d + 1) / 2) (greenV d H) = true
    · refine ⟨addKm A B (C H) p.w, ?_, a1, a2, fun x y => ?_⟩
      · simp only [hstep, hz, if_true]
      · simp only [hz, if_true, add_zero]; exact hkm x y
    · obtain ⟨A', hA, k1, k2, k3⟩ := formKG_ok d false (addKm A B (C H) p.w) p.N p.dN p.X (symT d false (S H)) p.w (by rcases hd with h | h <;> omega) a1 a2
      refine ⟨A', ?_, k1.trans a1, k2.trans a2, fun x y => ?_⟩
      · simp only [hstep, hz, Bool.false_eq_true, if_false]
        rw [hA]; rfl
      · simp only [hz, Bool.false_eq_true, if_false]
        rw [k3, hkm, add_assoc]
        congr 2
        simp only [Bool.false_eq_true, false_and, if_false, lt_self_iff_false, gt_iff_lt, add_zero]
        exact kg_bil d p.dN.nr p.dN.e _ p.w x y

theorem rateV_along (d : Nat) (hd : d = 2 ∨ d = 3) (H H' G : Nat → Nat → ℝ) (t : ℝ) (i : Nat) (h1 : 1 ≤ i) (h2 : i ≤ d * (d + 1) / 2) :
    rateV d (fun p q => H p q + t * H' p q) G i = rateV d H G i + t * engineering d (fun p q => ∑ k ∈ Finset.range d, H' (k + 1) p * G (k + 1) q) i := by
  rcases hd with h | h <;> subst h <;> norm_num at h2 <;> interval_cases i <;> simp [rateV, engineering, eng2, eng3, defF, Finset.sum_range_succ] <;> ring

/-- The derivative of the work of the stresses with a given variation of the displacements. -/
theorem work_deriv (d : Nat) (hd : d = 2 ∨ d = 3) (S C) (hL : Law d S C) (H H' G : Nat → Nat → ℝ) :
    HasDerivAt (fun t : ℝ => ∑ k ∈ Finset.range (d * (d + 1) / 2), rateV d (fun p q => H p q + t * H' p q) G (k + 1) * S (fun p q => H p q + t * H' p q) (k + 1))
      (∑ k ∈ Finset.range (d * (d + 1) / 2), ∑ l ∈ Finset.range (d * (d + 1) / 2), rateV d H G (k + 1) * C H (k + 1) (l + 1) * rateV d H H' (l + 1)
        + ∑ i ∈ Finset.range d, ∑ j ∈ Finset.range d, symT d false (S H) (i + 1) (j + 1) * ∑ k ∈ Finset.range d, G (k + 1) (i + 1) * H' (k + 1) (j + 1)) 0 := by
  have e : (fun p q => H p q + 0 * H' p q) = H := by funext p q; ring
  have h1 : ∀ k ∈ Finset.range (d * (d + 1) / 2), HasDerivAt (fun t : ℝ => rateV d (fun p q => H p q + t * H' p q) G (k + 1) * S (fun p q => H p q + t * H' p q) (k + 1))
      (engineering d (fun p q => ∑ k ∈ Finset.range d, H' (k + 1) p * G (k + 1) q) (k + 1) * S H (k + 1)
        + rateV d H G (k + 1) * ∑ l ∈ Finset.range (d * (d + 1) / 2), C H (k + 1) (l + 1) * rateV d H H' (l + 1)) 0 := by
    intro k hk
    have hk := Finset.mem_range.mp hk
    have r : HasDerivAt (fun t : ℝ => rateV d (fun p q => H p q + t * H' p q) G (k + 1)) (engineering d (fun p q => ∑ k ∈ Finset.range d, H' (k + 1) p * G (k + 1) q) (k + 1)) 0 := by
      have : (fun t : ℝ => rateV d (fun p q => H p q + t * H' p q) G (k + 1)) = fun t => rateV d H G (k + 1) + t * engineering d (fun p q => ∑ k ∈ Finset.range d, H' (k + 1) p * G (k + 1) q) (k + 1) := by
        funext t
        exact rateV_along d hd H H' G t (k + 1) (by omega) (by omega)
      rw [this]
      simpa using ((hasDerivAt_id (0 : ℝ)).mul_const (engineering d (fun p q => ∑ k ∈ Finset.range d, H' (k + 1) p * G (k + 1) q) (k + 1))).const_add (rateV d H G (k + 1))
    have := r.mul (hL.tangent H H' (k + 1) (by omega) (by omega))
    rw [e] at this
    exact this
  refine (HasDerivAt.fun_sum h1).congr_deriv ?_
  rw [Finset.sum_add_distrib, add_comm, eng_work d hd]
  congr 1
  · exact Finset.sum_congr rfl fun k _ => by
      rw [Finset.mul_sum]
      exact Finset.sum_congr rfl fun l _ => by ring
  · rw [Finset.sum_comm]
    refine Finset.sum_congr rfl fun i _ => Finset.sum_congr rfl fun j _ => ?_
    rw [symT_symm]
    congr 1
    exact Finset.sum_congr rfl fun k _ => by ring

theorem grad_line (n : Nat) (u v : Nat → Nat → ℝ) (g : Nat → Nat → ℝ) (t : ℝ) : grad n (along u v t) g = fun p q => grad n u g p q + t * grad n v g p q := by
  funext p q
  exact grad_along n u v g t p q

theorem greenV_cont (d : Nat) (hd : d = 2 ∨ d = 3) (H H' : Nat → Nat → ℝ) (i : Nat) (h1 : 1 ≤ i) (h2 : i ≤ d * (d + 1) / 2) :
    Continuous fun t : ℝ => greenV d (fun p q => H p q + t * H' p q) i := by
  rcases hd with h | h <;> subst h <;> norm_num at h2 <;> interval_cases i <;> simp [greenV, engineering, eng2, eng3, green, Finset.sum_range_succ] <;> fun_prop

/-- The test of the strains is irrelevant if they exceed the tolerance or the tolerance is zero. -/
theorem work_test (d : Nat) (hd : d = 2 ∨ d = 3) (tol : ℝ) (S C) (hL : Law d S C) (H H' : Nat → Nat → ℝ) (hs : (∃ i, 1 ≤ i ∧ i ≤ d * (d + 1) / 2 ∧ tol < |greenV d H i|) ∨ tol = 0) (w : ℝ) :
    ∀ᶠ t in 𝓝 (0 : ℝ), ∀ G, (if zeroStrain tol (d * (d + 1) / 2) (greenV d fun p q => H p q + t * H' p q) then 0 else
        w * ∑ k ∈ Finset.range (d * (d + 1) / 2), rateV d (fun p q => H p q + t * H' p q) G (k + 1) * S (fun p q => H p q + t * H' p q) (k + 1))
      = w * ∑ k ∈ Finset.range (d * (d + 1) / 2), rateV d (fun p q => H p q + t * H' p q) G (k + 1) * S (fun p q => H p q + t * H' p q) (k + 1) := by
  rcases hs with ⟨i, h1, h2, h3⟩ | h
  · have e : (fun p q => H p q + 0 * H' p q) = H := by funext p q; ring
    have hc := (greenV_cont d hd H H' i h1 h2).abs.tendsto 0
    simp only [e] at hc
    filter_upwards [hc.eventually (lt_mem_nhds h3)] with t ht G
    refine if_neg ?_
    rw [zeroStrain_iff]
    intro hz
    exact absurd (hz i h1 h2) (not_le.mpr ht)
  · subst h
    refine Eventually.of_forall fun t G => ?_
    by_cases hz : zeroStrain 0 (d * (d + 1) / 2) (greenV d fun p q => H p q + t * H' p q) = true
    · rw [if_pos hz]
      rw [zeroStrain_iff] at hz
      have := hL.zero _ fun i h1 h2 => abs_nonpos_iff.mp (hz i h1 h2)
      simp only [this, mul_zero, Finset.sum_const_zero]
    · rw [if_neg hz]

theorem tl_good (d : Nat) (hd : d = 2 ∨ d = 3) (n : Nat) (hn : 0 < n) (tol epsR : ℝ) (p : FPt ℝ) (mat : Mat ℝ) (S C) (hm : Hyper d mat S C) (hr : p.dN.nr = n) (hc : p.dN.nc = d) (u v : Nat → Nat → ℝ)
    (hs : (∃ i, 1 ≤ i ∧ i ≤ d * (d + 1) / 2 ∧ tol < |greenV d (grad n u p.dN.e) i|) ∨ tol = 0) :
    Good d n (fun u M => tlPoint d false tol epsR mat ⟨d * n, dofVec d u⟩ p M) u v := by
  refine good_of_contr d n _ u v _ _ (Eventually.of_forall fun t => tl_contr d hd n hn tol epsR p mat S C hm.eval hm.size hr hc (along u v t)) fun x => ?_
  have hw := work_test d hd tol S _ hm.law (grad n u p.dN.e) (grad n v p.dN.e) hs p.w
  have hder := (work_deriv d hd S _ hm.law (grad n u p.dN.e) (grad n v p.dN.e) (grad n x p.dN.e)).const_mul p.w
  simp only [grad_line]
  have e : (fun p' q => grad n u p.dN.e p' q + 0 * grad n v p.dN.e p' q) = grad n u p.dN.e := by funext p q; ring
  refine (hder.congr_of_eventuallyEq ?_).congr_deriv ?_
  · filter_upwards [hw] with t ht
    exact ht _
  · rw [e, mul_add]
    congr 1
    by_cases hz : zeroStrain tol (d * (d + 1) / 2) (greenV d (grad n u p.dN.e)) = true
    · rw [if_pos hz]
      rw [zeroStrain_iff] at hz
      rcases hs with ⟨i, h1, h2, h3⟩ | h
      · exact absurd (hz i h1 h2) (not_le.mpr h3)
      · subst h
        have := hm.law.zero _ fun i h1 h2 => abs_nonpos_iff.mp (hz i h1 h2)
        have : ∀ i j, symT d false (S (grad n u p.dN.e)) i j = 0 := by
          intro i j
          unfold symT
          simp only [this, ite_self]
        simp only [this, zero_mul, Finset.sum_const_zero, mul_zero]
    · rw [if_neg hz]

theorem tlElement_run (d : Nat) (tol epsR : ℝ) (n : Nat) (pts : List (FPt ℝ × Mat ℝ)) (u : Nat → Nat → ℝ) (M : DMat ℝ × DVec ℝ) :
    tlElement d false tol epsR ⟨d * n, dofVec d u⟩ pts M = runAll (pts.map fun p u M => tlPoint d false tol epsR p.2 ⟨d * n, dofVec d u⟩ p.1 M) u M := by
  induction pts generalizing M with
  | nil => rfl
  | cons p l ih =>
    show (tlPoint d false tol epsR p.2 ⟨d * n, dofVec d u⟩ p.1 M).bind _ = (tlPoint d false tol epsR p.2 ⟨d * n, dofVec d u⟩ p.1 M).bind _
    congr 1
    funext M
    exact ih M

theorem zero_bil (k : Nat) (x y : Nat → ℝ) : (DMat.zero k k : DMat ℝ).bil x y = 0 := by simp [DMat.bil, DMat.zero]

theorem zero_dot (k : Nat) (x : Nat → ℝ) : (DVec.zero k : DVec ℝ).dot x = 0 := by simp [DVec.dot, DVec.zero]

theorem good_zero (d n : Nat) (step) (u v : Nat → Nat → ℝ) (h : Good d n step u v) :
    ∃ (A : DMat ℝ) (f : ℝ → DVec ℝ), step u (DMat.zero (d * n) (d * n), DVec.zero (d * n)) = .ok (A, f 0) ∧
      (∀ᶠ t in 𝓝 (0 : ℝ), ∃ A', step (along u v t) (DMat.zero (d * n) (d * n), DVec.zero (d * n)) = .ok (A', f t)) ∧
      ∀ x, HasDerivAt (fun t => (f t).dot (dofVec d x)) (-A.bil (dofVec d x) (dofVec d v)) 0 := by
  obtain ⟨A, f, e, hd, ht⟩ := h (DMat.zero (d * n) (d * n)) (fun _ => DVec.zero (d * n)) ⟨rfl, rfl, fun _ => rfl, fun x => by
    simp only [zero_bil, zero_dot, neg_zero]; exact hasDerivAt_const _ _⟩
  refine ⟨A, f, e, ?_, hd.deriv⟩
  filter_upwards [ht] with t ht
  obtain ⟨B, hB, -, -⟩ := ht (DMat.zero (d * n) (d * n)) rfl rfl
  exact ⟨B, hB⟩

/-- C112: the element matrix of the total Lagrangian formulation is the derivative of the internal forces with respect to the nodal displacements, for every material whose
tangent is the derivative of its stresses: along every line `u + t v` the forces `-f` are differentiable with the derivative `A v`. -/
theorem C112_total (d : Nat) (hd : d = 2 ∨ d = 3) (n : Nat) (hn : 0 < n) (tol epsR : ℝ) (pts : List (FPt ℝ × Mat ℝ)) (u v : Nat → Nat → ℝ)
    (hp : ∀ p ∈ pts, p.1.dN.nr = n ∧ p.1.dN.nc = d ∧ (∃ S C, Hyper d p.2 S C) ∧
      ((∃ i, 1 ≤ i ∧ i ≤ d * (d + 1) / 2 ∧ tol < |greenV d (grad n u p.1.dN.e) i|) ∨ tol = 0)) :
    ∃ (A : DMat ℝ) (f : ℝ → DVec ℝ), tlElement d false tol epsR ⟨d * n, dofVec d u⟩ pts (DMat.zero (d * n) (d * n), DVec.zero (d * n)) = .ok (A, f 0) ∧
      (∀ᶠ t in 𝓝 (0 : ℝ), ∃ A', tlElement d false tol epsR ⟨d * n, dofVec d (along u v t)⟩ pts (DMat.zero (d * n) (d * n), DVec.zero (d * n)) = .ok (A', f t)) ∧
      ∀ x, HasDerivAt (fun t => (f t).dot (dofVec d x)) (-A.bil (dofVec d x) (dofVec d v)) 0 := by
  simp only [tlElement_run]
  refine good_zero d n _ u v (good_all d n u v _ fun s hs => ?_)
  obtain ⟨p, hp', rfl⟩ := List.mem_map.mp hs
  obtain ⟨h1, h2, ⟨S, C, h3⟩, h4⟩ := hp p hp'
  exact tl_good d hd n hn tol epsR p.1 p.2 S C h3 h1 h2 u v h4

/-! ### Updated Lagrangian formulation -/

theorem engineering_congr (d : Nat) (hd : d = 2 ∨ d = 3) (x y : Nat → Nat → ℝ) (h : ∀ i j, i < d → j < d → x (i + 1) (j + 1) = y (i + 1) (j + 1)) (k : Nat) (h1 : 1 ≤ k) (h2 : k ≤ d * (d + 1) / 2) :
    engineering d x k = engineering d y k := by
  rcases hd with e | e <;> subst e <;> norm_num at h2
  · have a := h 0 0 (by omega) (by omega)
    have b := h 0 1 (by omega) (by omega)
    have c := h 1 0 (by omega) (by omega)
    have e := h 1 1 (by omega) (by omega)
    interval_cases k <;> simp_all [engineering, eng2]
  · have a := h 0 0 (by omega) (by omega)
    have b := h 0 1 (by omega) (by omega)
    have c := h 0 2 (by omega) (by omega)
    have e := h 1 0 (by omega) (by omega)
    have f := h 1 1 (by omega) (by omega)
    have g := h 1 2 (by omega) (by omega)
    have i := h 2 0 (by omega) (by omega)
    have j := h 2 1 (by omega) (by omega)
    have l := h 2 2 (by omega) (by omega)
    interval_cases k <;> simp_all [engineering, eng3]

theorem formB_ok (d : Nat) (hd : d = 2 ∨ d = 3) (dN : DMat ℝ) (hc : d ≤ dN.nc) :
    ∃ B, formB d dN = .ok B ∧ B.nr = d * (d + 1) / 2 ∧ B.nc = d * dN.nr ∧ ∀ x i, 1 ≤ i → i ≤ d * (d + 1) / 2 → B.mulV (dofVec d x) i = engineering d (grad dN.nr x dN.e) i := by
  rcases hd with e | e <;> subst e
  · obtain ⟨B, h1, h2, h3, h4⟩ := C06_strain_2d dN hc
    exact ⟨B, h1, h2, h3, fun x i a b => by have := h4 x i a b; simpa [strains, engineering] using this⟩
  · obtain ⟨B, h1, h2, h3, h4⟩ := C06_strain_3d dN hc
    exact ⟨B, h1, h2, h3, fun x i a b => by have := h4 x i a b; simpa [strains, engineering] using this⟩

/-- The gradients in the deformed configuration times the deformation gradient are those in the initial one. -/
theorem pushGrad_mul (d : Nat) (F : Nat → Nat → ℝ) (hF : (lead d F).det ≠ 0) (n : Nat) (dN : DMat ℝ) (x : Nat → Nat → ℝ) (i r : Nat) (hr : r < d) :
    ∑ l ∈ Finset.range d, grad n x (pushGrad d F dN).e i (l + 1) * F (l + 1) (r + 1) = grad n x dN.e i (r + 1) := by
  unfold grad pushGrad
  simp only [Finset.sum_mul, Finset.mul_sum]
  rw [Finset.sum_comm]
  refine Finset.sum_congr rfl fun a _ => ?_
  have h : ∀ k, k < d → ∑ l ∈ Finset.range d, inv d F (k + 1) (l + 1) * F (l + 1) (r + 1) = if k = r then 1 else 0 := by
    intro k hk
    rw [← Fin.sum_univ_eq_sum_range (fun q => inv d F (k + 1) (q + 1) * F (q + 1) (r + 1)) d]
    exact inv_mul d F hF k r hk hr
  have e : ∑ l ∈ Finset.range d, ∑ k ∈ Finset.range d, x (a + 1) i * (dN.e (a + 1) (k + 1) * inv d F (k + 1) (l + 1)) * F (l + 1) (r + 1)
      = ∑ k ∈ Finset.range d, x (a + 1) i * dN.e (a + 1) (k + 1) * ∑ l ∈ Finset.range d, inv d F (k + 1) (l + 1) * F (l + 1) (r + 1) := by
    rw [Finset.sum_comm]
    refine Finset.sum_congr rfl fun k _ => ?_
    rw [Finset.mul_sum]
    exact Finset.sum_congr rfl fun l _ => by ring
  refine e.trans ?_
  rw [Finset.sum_congr rfl fun k hk => by rw [h k (Finset.mem_range.mp hk)]]
  simp [hr]

theorem mul_dsum (d : Nat) (J : ℝ) (f : Nat → Nat → ℝ) : J * ∑ i ∈ Finset.range d, ∑ j ∈ Finset.range d, f i j = ∑ i ∈ Finset.range d, ∑ j ∈ Finset.range d, J * f i j := by
  rw [Finset.mul_sum]
  exact Finset.sum_congr rfl fun i _ => by rw [Finset.mul_sum]

theorem push_form (d : Nat) (hd : d = 2 ∨ d = 3) (F S sig : Nat → Nat → ℝ) (J : ℝ)
    (h : ∀ i j, 1 ≤ i → i ≤ d → 1 ≤ j → j ≤ d → J * sig i j = ∑ p ∈ Finset.range d, ∑ q ∈ Finset.range d, F i (p + 1) * S (p + 1) (q + 1) * F j (q + 1)) (x y : Nat → Nat → ℝ) :
    J * ∑ i ∈ Finset.range d, ∑ j ∈ Finset.range d, sig (i + 1) (j + 1) * ∑ k ∈ Finset.range d, x (k + 1) (i + 1) * y (k + 1) (j + 1)
      = ∑ p ∈ Finset.range d, ∑ q ∈ Finset.range d, S (p + 1) (q + 1) * ∑ k ∈ Finset.range d,
          (∑ l ∈ Finset.range d, x (k + 1) (l + 1) * F (l + 1) (p + 1)) * ∑ l ∈ Finset.range d, y (k + 1) (l + 1) * F (l + 1) (q + 1) := by
  rw [mul_dsum]
  have e : ∀ i ∈ Finset.range d, ∀ j ∈ Finset.range d, J * (sig (i + 1) (j + 1) * ∑ k ∈ Finset.range d, x (k + 1) (i + 1) * y (k + 1) (j + 1))
      = (∑ p ∈ Finset.range d, ∑ q ∈ Finset.range d, F (i + 1) (p + 1) * S (p + 1) (q + 1) * F (j + 1) (q + 1)) * ∑ k ∈ Finset.range d, x (k + 1) (i + 1) * y (k + 1) (j + 1) := by
    intro i hi j hj
    rw [← mul_assoc, h (i + 1) (j + 1) (by omega) (by have := Finset.mem_range.mp hi; omega) (by omega) (by have := Finset.mem_range.mp hj; omega)]
  rw [Finset.sum_congr rfl fun i hi => Finset.sum_congr rfl fun j hj => e i hi j hj]
  rcases hd with e | e <;> subst e <;> simp only [Finset.sum_range_succ, Finset.sum_range_zero, zero_add] <;> ring

theorem push_work (d : Nat) (hd : d = 2 ∨ d = 3) (F S sig : Nat → Nat → ℝ) (J : ℝ)
    (h : ∀ i j, 1 ≤ i → i ≤ d → 1 ≤ j → j ≤ d → J * sig i j = ∑ p ∈ Finset.range d, ∑ q ∈ Finset.range d, F i (p + 1) * S (p + 1) (q + 1) * F j (q + 1)) (x : Nat → Nat → ℝ) :
    J * ∑ i ∈ Finset.range d, ∑ j ∈ Finset.range d, sig (i + 1) (j + 1) * x (i + 1) (j + 1)
      = ∑ p ∈ Finset.range d, ∑ q ∈ Finset.range d, S (p + 1) (q + 1) * ∑ k ∈ Finset.range d, F (k + 1) (p + 1) * ∑ l ∈ Finset.range d, x (k + 1) (l + 1) * F (l + 1) (q + 1) := by
  rw [mul_dsum]
  have e : ∀ i ∈ Finset.range d, ∀ j ∈ Finset.range d, J * (sig (i + 1) (j + 1) * x (i + 1) (j + 1))
      = (∑ p ∈ Finset.range d, ∑ q ∈ Finset.range d, F (i + 1) (p + 1) * S (p + 1) (q + 1) * F (j + 1) (q + 1)) * x (i + 1) (j + 1) := by
    intro i hi j hj
    rw [← mul_assoc, h (i + 1) (j + 1) (by omega) (by have := Finset.mem_range.mp hi; omega) (by omega) (by have := Finset.mem_range.mp hj; omega)]
  rw [Finset.sum_congr rfl fun i hi => Finset.sum_congr rfl fun j hj => e i hi j hj]
  rcases hd with e | e <;> subst e <;> simp only [Finset.sum_range_succ, Finset.sum_range_zero, zero_add] <;> ring

theorem ul_contr (d : Nat) (hd : d = 2 ∨ d = 3) (n : Nat) (hn : 0 < n) (tol epsR : ℝ) (p : FPt ℝ) (mat : Mat ℝ) (S C sig c) (hm : Spatial d mat S C sig c) (hr : p.dN.nr = n) (hc : p.dN.nc = d)
    (u : Nat → Nat → ℝ) (hJ : (lead d (defF d (grad n u p.dN.e))).det ≠ 0) :
    Contr d n (fun u M => ulEval d false tol epsR mat ⟨d * n, dofVec d u⟩ p M) u
      (fun x => if zeroStrain tol (d * (d + 1) / 2) (greenV d (grad n u p.dN.e)) then 0 else
        p.w * ∑ k ∈ Finset.range (d * (d + 1) / 2), rateV d (grad n u p.dN.e) (grad n x p.dN.e) (k + 1) * S (grad n u p.dN.e) (k + 1))
      (fun x y => if zeroStrain tol (d * (d + 1) / 2) (greenV d (grad n u p.dN.e)) then
          p.w * ∑ k ∈ Finset.range (d * (d + 1) / 2), ∑ l ∈ Finset.range (d * (d + 1) / 2),
            engineering d (grad n x p.dN.e) (k + 1) * (c (grad n u p.dN.e)).e (k + 1) (l + 1) * engineering d (grad n y p.dN.e) (l + 1)
        else p.w * (∑ k ∈ Finset.range (d * (d + 1) / 2), ∑ l ∈ Finset.range (d * (d + 1) / 2),
            rateV d (grad n u p.dN.e) (grad n x p.dN.e) (k + 1) * C (grad n u p.dN.e) (k + 1) (l + 1) * rateV d (grad n u p.dN.e) (grad n y p.dN.e) (l + 1))
          + p.w * ∑ i ∈ Finset.range d, ∑ j ∈ Finset.range d, symT d false (S (grad n u p.dN.e)) (i + 1) (j + 1)
            * ∑ k ∈ Finset.range d, grad n x p.dN.e (k + 1) (i + 1) * grad n y p.dN.e (k + 1) (j + 1)) := by
  subst hr
  have hk := kinUL_ok d hd p epsR hn hc u
  generalize grad p.dN.nr u p.dN.e = H at hk hJ ⊢
  have hmat := hm.eval H hJ
  by_cases hz : zeroStrain tol (d * (d + 1) / 2) (greenV d H) = true
  · obtain ⟨B, hB, b1, b2, b3⟩ := formB_ok d hd p.dN (by omega)
    simp only [hz, if_true]
    refine ⟨fun b => b, fun b hb => ⟨hb, fun x => by ring⟩, fun A b a1 a2 hb => ⟨addKm A B (c H) p.w, ?_, a1, a2, fun x y => ?_⟩⟩
    · simp only [ulEval, hk, Res.bind, ncomp, Bool.false_eq_true, if_false, hz, Bool.not_true, ulPoint, hB, hmat]
    · rw [addKm_bil A B (c H) p.w (by rw [a1, b2]) (by rw [a2, b2]) (by rw [hm.size, b1]), b1]
      congr 2
      refine Finset.sum_congr rfl fun k hk => Finset.sum_congr rfl fun l hl => ?_
      have := Finset.mem_range.mp hk
      have := Finset.mem_range.mp hl
      rw [b3 x (k + 1) (by omega) (by omega), b3 y (l + 1) (by omega) (by omega)]
  · obtain ⟨B, hB, b1, b2, b3⟩ := formB_ok d hd (pushGrad d (defF d H) p.dN) (le_of_eq rfl)
    have b2 : B.nc = d * p.dN.nr := b2
    have b3 : ∀ x i, 1 ≤ i → i ≤ d * (d + 1) / 2 → B.mulV (dofVec d x) i = engineering d (grad p.dN.nr x (pushGrad d (defF d H) p.dN).e) i := b3
    have hmul := fun x i r hr => pushGrad_mul d (defF d H) hJ p.dN.nr p.dN x i r hr
    have hst := fun i j => hm.stress H i j hJ
    have hten := fun x y => hm.tensor H x y hJ
    have hrate : ∀ x k, k < d * (d + 1) / 2 → engineering d (pull d (defF d H) (grad p.dN.nr x (pushGrad d (defF d H) p.dN).e)) (k + 1) = rateV d H (grad p.dN.nr x p.dN.e) (k + 1) := by
      intro x k hk
      refine engineering_congr d hd _ _ (fun i j hi hj => ?_) (k + 1) (by omega) (by omega)
      exact Finset.sum_congr rfl fun k _ => by rw [hmul x (k + 1) j hj]
    simp only [hz, Bool.false_eq_true, if_false]
    refine ⟨fun b => addIntForce b B (sig H) (p.w * (lead d (defF d H)).det), fun b hb => ⟨hb, fun x => ?_⟩, fun A b a1 a2 hb => ?_⟩
    · rw [addIntForce_dot _ _ _ _ (by rw [hb, b2]), b1]
      congr 1
      rw [Finset.sum_congr rfl fun k hk => by rw [b3 x (k + 1) (by omega) (by have := Finset.mem_range.mp hk; omega)]]
      rw [eng_work d hd, mul_assoc, push_work d hd (defF d H) _ _ _ hst]
      unfold rateV
      beta_reduce
      rw [eng_work d hd]
      congr 1
      refine Finset.sum_congr rfl fun i hi => Finset.sum_congr rfl fun j hj => ?_
      congr 1
      exact Finset.sum_congr rfl fun k _ => by rw [hmul x (k + 1) j (Finset.mem_range.mp hj)]
    · obtain ⟨A', hA, k1, k2, k3⟩ := formKG_ok d false (addKm A B (c H) (p.w * (lead d (defF d H)).det)) p.N (pushGrad d (defF d H) p.dN) 0 (symT d false (sig H))
        (p.w * (lead d (defF d H)).det) (by rcases hd with h | h <;> omega) a1 a2
      refine ⟨A', ?_, k1.trans a1, k2.trans a2, fun x y => ?_⟩
      · simp only [ulEval, hk, Res.bind, ncomp, Bool.false_eq_true, if_false, hz, Bool.not_false, if_true, ulPoint, hJ, hB, hmat]
        rw [hA]
      · rw [k3, addKm_bil A B (c H) _ (by rw [a1, b2]) (by rw [a2, b2]) (by rw [hm.size, b1]), b1, add_assoc]
        congr 2
        · rw [mul_assoc]
          congr 1
          have e1 : ∀ k ∈ Finset.range (d * (d + 1) / 2), ∀ l ∈ Finset.range (d * (d + 1) / 2),
              B.mulV (dofVec d x) (k + 1) * (c H).e (k + 1) (l + 1) * B.mulV (dofVec d y) (l + 1)
              = engineering d (grad p.dN.nr x (pushGrad d (defF d H) p.dN).e) (k + 1) * (c H).e (k + 1) (l + 1) * engineering d (grad p.dN.nr y (pushGrad d (defF d H) p.dN).e) (l + 1) := by
            intro k hk l hl
            have := Finset.mem_range.mp hk
            have := Finset.mem_range.mp hl
            rw [b3 x (k + 1) (by omega) (by omega), b3 y (l + 1) (by omega) (by omega)]
          rw [Finset.sum_congr rfl fun k hk => Finset.sum_congr rfl fun l hl => e1 k hk l hl, hten]
          exact Finset.sum_congr rfl fun k hk => Finset.sum_congr rfl fun l hl => by rw [hrate x k (Finset.mem_range.mp hk), hrate y l (Finset.mem_range.mp hl)]
        · simp only [Bool.false_eq_true, false_and, if_false, lt_self_iff_false, gt_iff_lt, add_zero]
          have := kg_bil d p.dN.nr (pushGrad d (defF d H) p.dN).e (symT d false (sig H)) (p.w * (lead d (defF d H)).det) x y
          refine this.trans ?_
          rw [mul_assoc, push_form d hd (defF d H) _ _ _ hst]
          congr 1
          refine Finset.sum_congr rfl fun i hi => Finset.sum_congr rfl fun j hj => ?_
          congr 1
          exact Finset.sum_congr rfl fun k _ => by rw [hmul x (k + 1) i (Finset.mem_range.mp hi), hmul y (k + 1) j (Finset.mem_range.mp hj)]

theorem det_cont (d : Nat) (H H' : Nat → Nat → ℝ) : Continuous fun t : ℝ => (lead d (defF d fun p q => H p q + t * H' p q)).det := by
  refine Continuous.matrix_det ?_
  refine continuous_matrix fun i j => ?_
  unfold lead defF
  by_cases h : (1 ≤ i.1 + 1 ∧ i.1 + 1 ≤ d) ∧ 1 ≤ j.1 + 1 ∧ j.1 + 1 ≤ d
  · simp only [if_pos h]
    exact continuous_const.add (by fun_prop)
  · simp only [if_neg h]
    exact continuous_const

theorem ul_good (d : Nat) (hd : d = 2 ∨ d = 3) (n : Nat) (hn : 0 < n) (tol epsR : ℝ) (p : FPt ℝ) (mat : Mat ℝ) (S C sig c) (hm : Spatial d mat S C sig c) (hr : p.dN.nr = n) (hc : p.dN.nc = d) (u v : Nat → Nat → ℝ)
    (hJ : (lead d (defF d (grad n u p.dN.e))).det ≠ 0)
    (hs : (∃ i, 1 ≤ i ∧ i ≤ d * (d + 1) / 2 ∧ tol < |greenV d (grad n u p.dN.e) i|) ∨ (tol = 0 ∧ ∀ i j, i < d → j < d → grad n u p.dN.e (i + 1) (j + 1) = 0)) :
    Good d n (fun u M => ulEval d false tol epsR mat ⟨d * n, dofVec d u⟩ p M) u v := by
  have e : (fun p' q => grad n u p.dN.e p' q + 0 * grad n v p.dN.e p' q) = grad n u p.dN.e := by funext p q; ring
  have hev : ∀ᶠ t in 𝓝 (0 : ℝ), (lead d (defF d (grad n (along u v t) p.dN.e))).det ≠ 0 := by
    simp only [grad_line]
    refine (det_cont d (grad n u p.dN.e) (grad n v p.dN.e)).continuousAt.eventually_ne ?_
    rw [e]; exact hJ
  refine good_of_contr d n _ u v _ _ (hev.mono fun t ht => ul_contr d hd n hn tol epsR p mat S C sig c hm hr hc (along u v t) ht) fun x => ?_
  have hs' : (∃ i, 1 ≤ i ∧ i ≤ d * (d + 1) / 2 ∧ tol < |greenV d (grad n u p.dN.e) i|) ∨ tol = 0 := hs.imp id And.left
  have hw := work_test d hd tol S _ hm.law (grad n u p.dN.e) (grad n v p.dN.e) hs' p.w
  have hder := (work_deriv d hd S _ hm.law (grad n u p.dN.e) (grad n v p.dN.e) (grad n x p.dN.e)).const_mul p.w
  simp only [grad_line]
  refine (hder.congr_of_eventuallyEq ?_).congr_deriv ?_
  · filter_upwards [hw] with t ht
    exact ht _
  · rw [e, mul_add]
    by_cases hz : zeroStrain tol (d * (d + 1) / 2) (greenV d (grad n u p.dN.e)) = true
    · rw [if_pos hz]
      rw [zeroStrain_iff] at hz
      rcases hs with ⟨i, h1, h2, h3⟩ | ⟨h, h0⟩
      · exact absurd (hz i h1 h2) (not_le.mpr h3)
      · subst h
        have h00 := hm.law.zero _ fun i h1 h2 => abs_nonpos_iff.mp (hz i h1 h2)
        have hsz : ∀ i j, symT d false (S (grad n u p.dN.e)) i j = 0 := by
          intro i j
          unfold symT
          simp only [h00, ite_self]
        have hF : ∀ i j, i < d → j < d → defF d (grad n u p.dN.e) (i + 1) (j + 1) = if i = j then 1 else 0 := by
          intro i j hi hj
          unfold defF
          simp [h0 i j hi hj]
        have hdet : (lead d (defF d (grad n u p.dN.e))).det = 1 := by
          have : lead d (defF d (grad n u p.dN.e)) = 1 := by
            ext i j
            show defF d (grad n u p.dN.e) (i + 1) (j + 1) = _
            rw [hF i j i.2 j.2, Matrix.one_apply]
            simp [Fin.ext_iff]
          rw [this, Matrix.det_one]
        have ht := hm.tensor (grad n u p.dN.e) (grad n x p.dN.e) (grad n v p.dN.e) hJ
        rw [hdet, one_mul] at ht
        rw [ht]
        have hp : ∀ y : Nat → Nat → ℝ, ∀ i j, i < d → j < d → pull d (defF d (grad n u p.dN.e)) y (i + 1) (j + 1) = y (i + 1) (j + 1) := by
          intro y i j hi hj
          unfold pull
          have : ∀ k ∈ Finset.range d, defF d (grad n u p.dN.e) (k + 1) (i + 1) * ∑ l ∈ Finset.range d, y (k + 1) (l + 1) * defF d (grad n u p.dN.e) (l + 1) (j + 1)
              = (if k = i then 1 else 0) * y (k + 1) (j + 1) := by
            intro k hk
            rw [hF k i (Finset.mem_range.mp hk) hi, Finset.sum_congr rfl fun l hl => by rw [hF l j (Finset.mem_range.mp hl) hj]]
            simp [hj]
          rw [Finset.sum_congr rfl this]
          simp [hi]
        have hq : ∀ y : Nat → Nat → ℝ, ∀ i j, i < d → j < d → ∑ k ∈ Finset.range d, defF d (grad n u p.dN.e) (k + 1) (i + 1) * y (k + 1) (j + 1) = y (i + 1) (j + 1) := by
          intro y i j hi hj
          rw [Finset.sum_congr rfl fun k hk => by rw [hF k i (Finset.mem_range.mp hk) hi]]
          simp [hi]
        simp only [hsz, zero_mul, Finset.sum_const_zero, mul_zero, add_zero]
        congr 1
        refine Finset.sum_congr rfl fun k hk => Finset.sum_congr rfl fun l hl => ?_
        have := Finset.mem_range.mp hk
        have := Finset.mem_range.mp hl
        rw [engineering_congr d hd _ _ (hp (grad n x p.dN.e)) (k + 1) (by omega) (by omega), engineering_congr d hd _ _ (hp (grad n v p.dN.e)) (l + 1) (by omega) (by omega)]
        unfold rateV
        rw [engineering_congr d hd _ _ (hq (grad n x p.dN.e)) (k + 1) (by omega) (by omega), engineering_congr d hd _ _ (hq (grad n v p.dN.e)) (l + 1) (by omega) (by omega)]
    · rw [if_neg hz]

theorem ulElement_run (d : Nat) (tol epsR : ℝ) (n : Nat) (pts : List (FPt ℝ × Mat ℝ)) (u : Nat → Nat → ℝ) (M : DMat ℝ × DVec ℝ) :
    ulElement d false tol epsR ⟨d * n, dofVec d u⟩ pts M = runAll (pts.map fun p u M => ulEval d false tol epsR p.2 ⟨d * n, dofVec d u⟩ p.1 M) u M := by
  induction pts generalizing M with
  | nil => rfl
  | cons p l ih =>
    show (ulEval d false tol epsR p.2 ⟨d * n, dofVec d u⟩ p.1 M).bind _ = (ulEval d false tol epsR p.2 ⟨d * n, dofVec d u⟩ p.1 M).bind _
    congr 1
    funext M
    exact ih M

/-- C112: likewise in the updated Lagrangian formulation, with Cauchy stresses and the tangent in the deformed configuration, at all points which are strained
or where the displacement gradient is zero. Missing: points rotated without strain (C112_rotation_violated). -/
theorem C112_updated_partial (d : Nat) (hd : d = 2 ∨ d = 3) (n : Nat) (hn : 0 < n) (tol epsR : ℝ) (pts : List (FPt ℝ × Mat ℝ)) (u v : Nat → Nat → ℝ)
    (hp : ∀ p ∈ pts, p.1.dN.nr = n ∧ p.1.dN.nc = d ∧ (∃ S C sig c, Spatial d p.2 S C sig c) ∧ (lead d (defF d (grad n u p.1.dN.e))).det ≠ 0 ∧
      ((∃ i, 1 ≤ i ∧ i ≤ d * (d + 1) / 2 ∧ tol < |greenV d (grad n u p.1.dN.e) i|) ∨ (tol = 0 ∧ ∀ i j, i < d → j < d → grad n u p.1.dN.e (i + 1) (j + 1) = 0))) :
    ∃ (A : DMat ℝ) (f : ℝ → DVec ℝ), ulElement d false tol epsR ⟨d * n, dofVec d u⟩ pts (DMat.zero (d * n) (d * n), DVec.zero (d * n)) = .ok (A, f 0) ∧
      (∀ᶠ t in 𝓝 (0 : ℝ), ∃ A', ulElement d false tol epsR ⟨d * n, dofVec d (along u v t)⟩ pts (DMat.zero (d * n) (d * n), DVec.zero (d * n)) = .ok (A', f t)) ∧
      ∀ x, HasDerivAt (fun t => (f t).dot (dofVec d x)) (-A.bil (dofVec d x) (dofVec d v)) 0 := by
  simp only [ulElement_run]
  refine good_zero d n _ u v (good_all d n u v _ fun s hs => ?_)
  obtain ⟨p, hp', rfl⟩ := List.mem_map.mp hs
  obtain ⟨h1, h2, ⟨S, C, sig, c, h3⟩, h4, h5⟩ := hp p hp'
  exact ul_good d hd n hn tol epsR p.1 p.2 S C sig c h3 h1 h2 u v h4 h5

/-! ### Examples: linear materials -/

theorem greenV_deriv (d : Nat) (hd : d = 2 ∨ d = 3) (H H' : Nat → Nat → ℝ) (i : Nat) (h1 : 1 ≤ i) (h2 : i ≤ d * (d + 1) / 2) :
    HasDerivAt (fun t : ℝ => greenV d (fun p q => H p q + t * H' p q) i) (rateV d H H' i) 0 := by
  have e : (fun t : ℝ => greenV d (fun p q => H p q + t * H' p q) i) = fun t => greenV d H i + t * rateV d H H' i
      + t ^ 2 * engineering d (fun p q => 1 / 2 * ∑ k ∈ Finset.range d, H' (k + 1) p * H' (k + 1) q) i := by
    funext t
    rcases hd with h | h <;> subst h <;> norm_num at h2 <;> interval_cases i <;> simp [greenV, rateV, engineering, eng2, eng3, green, defF, Finset.sum_range_succ] <;> ring
  rw [e]
  generalize engineering d (fun p q => 1 / 2 * ∑ k ∈ Finset.range d, H' (k + 1) p * H' (k + 1) q) i = c
  have h := (((hasDerivAt_id (0 : ℝ)).mul_const (rateV d H H' i)).const_add (greenV d H i)).add (((hasDerivAt_id (0 : ℝ)).pow 2).mul_const c)
  refine HasDerivAt.congr_deriv h ?_
  simp

theorem linear_law (d : Nat) (hd : d = 2 ∨ d = 3) (D : Nat → Nat → ℝ) : Law d (fun H i => ∑ j ∈ Finset.range (d * (d + 1) / 2), D i (j + 1) * greenV d H (j + 1)) fun _ => D := by
  refine ⟨fun H h i => ?_, fun H H' i h1 h2 => ?_⟩
  · refine Finset.sum_eq_zero fun j hj => ?_
    rw [h (j + 1) (by omega) (by have := Finset.mem_range.mp hj; omega), mul_zero]
  · exact HasDerivAt.fun_sum fun j hj => (greenV_deriv d hd H H' (j + 1) (by omega) (by have := Finset.mem_range.mp hj; omega)).const_mul (D i (j + 1))

/-- C112: the materials with a constant matrix (Saint Venant-Kirchhoff) are such materials. -/
theorem C112_linear (d : Nat) (hd : d = 2 ∨ d = 3) (D : DMat ℝ) (h : D.nc = d * (d + 1) / 2) :
    Hyper d (fun _ E => .ok (D, fun i => ∑ j ∈ Finset.range (d * (d + 1) / 2), D.e i (j + 1) * E (j + 1)))
      (fun H i => ∑ j ∈ Finset.range (d * (d + 1) / 2), D.e i (j + 1) * greenV d H (j + 1)) fun _ => D :=
  ⟨fun _ => rfl, fun _ => h, linear_law d hd D.e⟩

/-- The triangle with the corners (0,0), (1,0) and (0,1). -/
noncomputable def triangle : FPt ℝ := ⟨⟨3, fun _ => 1 / 3⟩, ⟨3, 2, fun a j => if a = 1 then -1 else if a = j + 1 then 1 else 0⟩, 1, 1 / 2⟩

example : ∃ (pts : List (FPt ℝ × Mat ℝ)) (u : Nat → Nat → ℝ), pts.length = 1 ∧ ∀ p ∈ pts, p.1.dN.nr = 3 ∧ p.1.dN.nc = 2 ∧ (∃ S C, Hyper 2 p.2 S C) ∧
    ((∃ i, 1 ≤ i ∧ i ≤ 2 * (2 + 1) / 2 ∧ (1 / 10 : ℝ) < |greenV 2 (grad 3 u p.1.dN.e) i|) ∨ (1 / 10 : ℝ) = 0) := by
  refine ⟨[(triangle, fun _ E => .ok (⟨3, 3, fun i j => if i = j then 1 else 0⟩, fun i => ∑ j ∈ Finset.range (2 * (2 + 1) / 2), (if i = j + 1 then 1 else 0) * E (j + 1)))], fun a i => if a = 2 ∧ i = 1 then 1 else 0, rfl, fun p hp => ?_⟩
  obtain rfl := List.mem_singleton.mp hp
  refine ⟨rfl, rfl, ⟨_, _, C112_linear 2 (.inl rfl) ⟨3, 3, fun i j => if i = j then 1 else 0⟩ rfl⟩, .inl ⟨1, le_refl _, by norm_num, ?_⟩⟩
  simp [greenV, engineering, eng2, green, grad, triangle, Finset.sum_range_succ]
  norm_num [abs_of_pos]

/-- The matrix of `x ↦ F^T x F` in engineering notation of the plane. -/
def pull2 (F : Nat → Nat → ℝ) : Nat → Nat → ℝ
  | 1, 1 => F 1 1 * F 1 1
  | 1, 2 => F 2 1 * F 2 1
  | 1, 3 => F 1 1 * F 2 1
  | 2, 1 => F 1 2 * F 1 2
  | 2, 2 => F 2 2 * F 2 2
  | 2, 3 => F 1 2 * F 2 2
  | 3, 1 => 2 * F 1 1 * F 1 2
  | 3, 2 => 2 * F 2 1 * F 2 2
  | 3, 3 => F 1 1 * F 2 2 + F 1 2 * F 2 1
  | _, _ => 0

theorem pull2_eq (F x : Nat → Nat → ℝ) (i : Nat) (h1 : 1 ≤ i) (h2 : i ≤ 3) : engineering 2 (pull 2 F x) i = ∑ j ∈ Finset.range 3, pull2 F i (j + 1) * engineering 2 x (j + 1) := by
  interval_cases i <;> simp [engineering, eng2, pull, pull2, Finset.sum_range_succ] <;> ring

/-- The linear material in the deformed configuration of the plane. -/
noncomputable def linear2 (D : Nat → Nat → ℝ) : Mat ℝ := fun F E =>
  .ok (⟨3, 3, fun k l => (lead 2 F).det⁻¹ * ∑ i ∈ Finset.range 3, ∑ j ∈ Finset.range 3, pull2 F (i + 1) k * D (i + 1) (j + 1) * pull2 F (j + 1) l⟩,
    fun k => (lead 2 F).det⁻¹ * ∑ i ∈ Finset.range 3, pull2 F (i + 1) k * ∑ j ∈ Finset.range 3, D (i + 1) (j + 1) * E (j + 1))

theorem linear2_spatial (D : Nat → Nat → ℝ) : Spatial 2 (linear2 D) (fun H i => ∑ j ∈ Finset.range (2 * (2 + 1) / 2), D i (j + 1) * greenV 2 H (j + 1)) (fun _ => D)
    (fun H k => (lead 2 (defF 2 H)).det⁻¹ * ∑ i ∈ Finset.range 3, pull2 (defF 2 H) (i + 1) k * ∑ j ∈ Finset.range 3, D (i + 1) (j + 1) * greenV 2 H (j + 1))
    (fun H => ⟨3, 3, fun k l => (lead 2 (defF 2 H)).det⁻¹ * ∑ i ∈ Finset.range 3, ∑ j ∈ Finset.range 3, pull2 (defF 2 H) (i + 1) k * D (i + 1) (j + 1) * pull2 (defF 2 H) (j + 1) l⟩) := by
  refine ⟨fun H _ => rfl, fun _ => rfl, linear_law 2 (.inl rfl) D, ?_, ?_⟩
  · intro H i j hJ h1 h2 h3 h4
    generalize defF 2 H = F at hJ ⊢
    generalize greenV 2 H = E
    have : ∀ a : ℝ, (lead 2 F).det * ((lead 2 F).det⁻¹ * a) = a := fun a => by rw [← mul_assoc, mul_inv_cancel₀ hJ, one_mul]
    generalize (lead 2 F).det = J at this
    interval_cases i <;> interval_cases j <;> simp only [symT, Nat.reduceEqDiff, if_true, if_false, Bool.false_eq_true, this] <;> simp [Finset.sum_range_succ, pull2] <;> ring
  · intro H x y hJ
    have hx := fun i (h : i < 3) => pull2_eq (defF 2 H) x (i + 1) (by omega) (by omega)
    have hy := fun i (h : i < 3) => pull2_eq (defF 2 H) y (i + 1) (by omega) (by omega)
    have x1 := hx 0 (by omega); have x2 := hx 1 (by omega); have x3 := hx 2 (by omega)
    have y1 := hy 0 (by omega); have y2 := hy 1 (by omega); have y3 := hy 2 (by omega)
    generalize (lead 2 (defF 2 H)).det = J at hJ
    simp only [Finset.sum_range_succ, Finset.sum_range_zero, zero_add, Nat.reduceMul, Nat.reduceDiv, Nat.reduceAdd] at x1 x2 x3 y1 y2 y3 ⊢
    rw [x1, x2, x3, y1, y2, y3]
    field_simp
    ring

example : ∃ (pts : List (FPt ℝ × Mat ℝ)) (u : Nat → Nat → ℝ), pts.length = 1 ∧ ∀ p ∈ pts, p.1.dN.nr = 3 ∧ p.1.dN.nc = 2 ∧ (∃ S C sig c, Spatial 2 p.2 S C sig c) ∧
    (lead 2 (defF 2 (grad 3 u p.1.dN.e))).det ≠ 0 ∧
    ((∃ i, 1 ≤ i ∧ i ≤ 2 * (2 + 1) / 2 ∧ (1 / 10 : ℝ) < |greenV 2 (grad 3 u p.1.dN.e) i|) ∨ ((1 / 10 : ℝ) = 0 ∧ ∀ i j, i < 2 → j < 2 → grad 3 u p.1.dN.e (i + 1) (j + 1) = 0)) := by
  refine ⟨[(triangle, linear2 fun i j => if i = j then 1 else 0)], fun a i => if a = 2 ∧ i = 1 then 1 else 0, rfl, fun p hp => ?_⟩
  obtain rfl := List.mem_singleton.mp hp
  refine ⟨rfl, rfl, ⟨_, _, _, _, linear2_spatial fun i j => if i = j then 1 else 0⟩, ?_, .inl ⟨1, le_refl _, by norm_num, ?_⟩⟩
  · rw [Matrix.det_fin_two]
    simp [lead, defF, grad, triangle, Finset.sum_range_succ]
  · simp [greenV, engineering, eng2, green, grad, triangle, Finset.sum_range_succ]
    norm_num [abs_of_pos]

/-! ### Violations -/

/-- The forces along a line, with their derivative, and the matrix. -/
theorem contr_zero (d n : Nat) (step) (u v : Nat → Nat → ℝ) (W : ℝ → (Nat → Nat → ℝ) → ℝ) (Q : ℝ → (Nat → Nat → ℝ) → (Nat → Nat → ℝ) → ℝ)
    (h : ∀ᶠ t in 𝓝 (0 : ℝ), Contr d n step (along u v t) (W t) (Q t)) (W' : (Nat → Nat → ℝ) → ℝ) (hd : ∀ x, HasDerivAt (fun t => W t x) (W' x) 0) :
    ∃ (A : DMat ℝ) (f : ℝ → DVec ℝ), step u (DMat.zero (d * n) (d * n), DVec.zero (d * n)) = .ok (A, f 0) ∧
      (∀ᶠ t in 𝓝 (0 : ℝ), ∃ A', step (along u v t) (DMat.zero (d * n) (d * n), DVec.zero (d * n)) = .ok (A', f t)) ∧
      ∀ x, HasDerivAt (fun t => (f t).dot (dofVec d x)) (-W' x) 0 ∧ ∀ y, A.bil (dofVec d x) (dofVec d y) = Q 0 x y := by
  classical
  have h0 := h.self_of_nhds
  let g : ℝ → DVec ℝ → DVec ℝ := fun t => if ht : Contr d n step (along u v t) (W t) (Q t) then ht.choose else id
  have hg : ∀ t, ∀ ht : Contr d n step (along u v t) (W t) (Q t), g t = ht.choose := fun t ht => dif_pos ht
  obtain ⟨A', e1, n1, n2, q⟩ := h0.choose_spec.2 (DMat.zero (d * n) (d * n)) (DVec.zero (d * n)) rfl rfl rfl
  refine ⟨A', fun t => g t (DVec.zero (d * n)), ?_, ?_, fun x => ⟨?_, fun y => by rw [q, zero_bil, zero_add]⟩⟩
  · show _ = Res.ok (A', g 0 _)
    rw [hg 0 h0, ← e1, along_zero]
  · filter_upwards [h] with t ht
    obtain ⟨B', k1, -⟩ := ht.choose_spec.2 (DMat.zero (d * n) (d * n)) (DVec.zero (d * n)) rfl rfl rfl
    refine ⟨B', ?_⟩
    show _ = Res.ok (B', g t _)
    rw [hg t ht]; exact k1
  · refine (hd x).neg.congr_of_eventuallyEq ?_
    filter_upwards [h] with t ht
    show (g t _).dot _ = -W t x
    rw [hg t ht, (ht.choose_spec.1 _ rfl).2 x, zero_dot, zero_sub]

/-- The triangle turned by 90 degrees about its first corner. -/
def turned (a i : Nat) : ℝ := if a = 2 then (if i = 1 then -1 else 1) else if a = 3 then -1 else 0

/-- A displacement of the second corner. -/
def moved (a i : Nat) : ℝ := if a = 2 ∧ i = 2 then 1 else 0

/-- C112 fails in the updated Lagrangian formulation for an element turned without strain: the gradients are not transformed to the turned configuration, so that the matrix is not the
derivative of the forces. Witness: a triangle turned by 90 degrees. -/
theorem C112_rotation_violated :
    ∃ (pts : List (FPt ℝ × Mat ℝ)) (u v : Nat → Nat → ℝ), (∀ p ∈ pts, p.1.dN.nr = 3 ∧ p.1.dN.nc = 2 ∧ (∃ S C sig c, Spatial 2 p.2 S C sig c) ∧ (lead 2 (defF 2 (grad 3 u p.1.dN.e))).det = 1) ∧
      ∃ (A : DMat ℝ) (f : ℝ → DVec ℝ), ulElement 2 false 0 0 ⟨2 * 3, dofVec 2 u⟩ pts (DMat.zero (2 * 3) (2 * 3), DVec.zero (2 * 3)) = .ok (A, f 0) ∧
        (∀ᶠ t in 𝓝 (0 : ℝ), ∃ A', ulElement 2 false 0 0 ⟨2 * 3, dofVec 2 (along u v t)⟩ pts (DMat.zero (2 * 3) (2 * 3), DVec.zero (2 * 3)) = .ok (A', f t)) ∧
        HasDerivAt (fun t => (f t).dot (dofVec 2 v)) (-(1 / 2)) 0 ∧ A.bil (dofVec 2 v) (dofVec 2 v) = 0 := by
  have hdet : (lead 2 (defF 2 (grad 3 turned triangle.dN.e))).det = 1 := by
    rw [Matrix.det_fin_two]
    simp [lead, defF, grad, triangle, turned, Finset.sum_range_succ]
  let D : Nat → Nat → ℝ := fun i j => if i = 1 ∧ j = 1 then 1 else 0
  have hm := linear2_spatial D
  refine ⟨[(triangle, linear2 D)], turned, moved, fun p hp => ?_, ?_⟩
  · obtain rfl := List.mem_singleton.mp hp
    exact ⟨rfl, rfl, ⟨_, _, _, _, hm⟩, hdet⟩
  · have hrun : ∀ u M, ulElement 2 false 0 0 ⟨2 * 3, dofVec 2 u⟩ [(triangle, linear2 D)] M = ulEval 2 false 0 0 (linear2 D) ⟨2 * 3, dofVec 2 u⟩ triangle M := by
      intro u M
      simp only [ulElement]
      cases ulEval 2 false 0 0 (linear2 D) ⟨2 * 3, dofVec 2 u⟩ triangle M <;> rfl
    simp only [hrun]
    have e : (fun p' q => grad 3 turned triangle.dN.e p' q + 0 * grad 3 moved triangle.dN.e p' q) = grad 3 turned triangle.dN.e := by funext p q; ring
    have hev : ∀ᶠ t in 𝓝 (0 : ℝ), (lead 2 (defF 2 (grad 3 (along turned moved t) triangle.dN.e))).det ≠ 0 := by
      simp only [grad_line]
      refine (det_cont 2 (grad 3 turned triangle.dN.e) (grad 3 moved triangle.dN.e)).continuousAt.eventually_ne ?_
      rw [e, hdet]; exact one_ne_zero
    have hw := work_test 2 (.inl rfl) 0 _ _ hm.law (grad 3 turned triangle.dN.e) (grad 3 moved triangle.dN.e) (.inr rfl) triangle.w
    obtain ⟨A, f, k1, k2, k3⟩ := contr_zero 2 3 _ turned moved _ _ (hev.mono fun t ht => ul_contr 2 (.inl rfl) 3 (by omega) 0 0 triangle (linear2 D) _ _ _ _ hm rfl rfl (along turned moved t) ht) _ (fun x => by
      have hder := (work_deriv 2 (.inl rfl) _ _ hm.law (grad 3 turned triangle.dN.e) (grad 3 moved triangle.dN.e) (grad 3 x triangle.dN.e)).const_mul triangle.w
      refine hder.congr_of_eventuallyEq ?_
      simp only [grad_line]
      filter_upwards [hw] with t ht
      exact ht _)
    refine ⟨A, f, k1, k2, (k3 moved).1.congr_deriv ?_, ?_⟩
    · simp [Finset.sum_range_succ, symT, D, rateV, greenV, engineering, eng2, green, defF, grad, triangle, turned, moved]
    · rw [(k3 moved).2 moved, along_zero, if_pos ?_]
      · simp [Finset.sum_range_succ, D, engineering, eng2, defF, grad, triangle, turned, moved, pull2]
      · rw [zeroStrain_iff]
        intro i h1 h2
        norm_num at h2
        interval_cases i <;> simp [greenV, engineering, eng2, green, grad, triangle, turned, Finset.sum_range_succ] <;> norm_num

theorem ring_strain (tol epsR : ℝ) (ht : 0 ≤ tol) (n : Nat) (p : FPt ℝ) (hr : p.dN.nr = n) (hc : p.dN.nc = 2) (h1 : ∑ a ∈ Finset.range n, p.dN.e (a + 1) 1 = 0) (h2 : ∑ a ∈ Finset.range n, p.dN.e (a + 1) 2 = 0) (ur : ℝ) :
    zeroStrain tol 4 (strainV 2 true (defGrad 2 true true p.N p.dN p.X epsR (dofVec 2 fun _ i => if i = 1 then ur else 0))) = true := by
  subst hr
  have hg : ∀ i j, 1 ≤ i → i ≤ 2 → 1 ≤ j → j ≤ 2 → defGrad 2 true true p.N p.dN p.X epsR (dofVec 2 fun _ i => if i = 1 then ur else 0) i j = 0 := by
    intro i j a b c e
    rw [defGrad_grad 2 true p.N p.dN p.X epsR _ i j a b c e (by omega)]
    unfold grad
    rw [← Finset.mul_sum]
    interval_cases j <;> simp [h1, h2]
  rw [zeroStrain_iff]
  intro i a b
  interval_cases i <;> simp [strainV, strainE, hg, Finset.sum_range_succ, ht]

/-- C112 fails in axisymmetry: a ring of any material that is expanded radially by `ur` has no internal forces at all in both formulations, since the hoop strain is not part of the strains
which decide whether there are stresses. -/
theorem C112_hoop_violated (tol epsR : ℝ) (ht : 0 ≤ tol) (n : Nat) (pts : List (FPt ℝ × Mat ℝ)) (ur : ℝ)
    (hp : ∀ p ∈ pts, p.1.dN.nr = n ∧ p.1.dN.nc = 2 ∧ ∑ a ∈ Finset.range n, p.1.dN.e (a + 1) 1 = 0 ∧ ∑ a ∈ Finset.range n, p.1.dN.e (a + 1) 2 = 0) (M M' : DMat ℝ × DVec ℝ) :
    (tlElement 2 true tol epsR ⟨2 * n, dofVec 2 fun _ i => if i = 1 then ur else 0⟩ pts M = .ok M' → M'.2 = M.2) ∧
    (ulElement 2 true tol epsR ⟨2 * n, dofVec 2 fun _ i => if i = 1 then ur else 0⟩ pts M = .ok M' → M'.2 = M.2) := by
  induction pts generalizing M with
  | nil => exact ⟨fun h => by cases h; rfl, fun h => by cases h; rfl⟩
  | cons p l ih =>
    obtain ⟨a1, a2, a3, a4⟩ := hp p (by simp)
    have hz := ring_strain tol epsR ht n p.1 a1 a2 a3 a4 ur
    have hz0 : zeroStrain tol 4 (fun _ => (0 : ℝ)) = true := by
      rw [zeroStrain_iff]; intro i _ _; simp [ht]
    have ih := ih fun p hp' => hp p (by simp [hp'])
    constructor
    · intro h
      simp only [tlElement] at h
      cases hs : tlPoint 2 true tol epsR p.2 ⟨2 * n, dofVec 2 fun _ i => if i = 1 then ur else 0⟩ p.1 M with
      | ok M1 =>
        rw [hs] at h
        rw [(ih M1).1 h]
        unfold tlPoint at hs
        cases hk : kinTL 2 true ⟨2 * n, dofVec 2 fun _ i => if i = 1 then ur else 0⟩ p.1.N p.1.dN p.1.X epsR with
        | ok k =>
          rw [hk] at hs
          have hE : zeroStrain tol 4 k.E = true := by
            unfold kinTL at hk
            by_cases h0 : 2 * n = 0
            · simp only [h0, if_true] at hk
              cases hb : formBaxi p.1.N p.1.dN p.1.X epsR <;> rw [hb] at hk <;> simp only [Res.bind, Res.ok.injEq, reduceCtorEq] at hk
              rw [← hk]; exact hz0
            · have h1 : ¬ (2 * n ≠ 2 * p.1.dN.nr ∨ p.1.dN.nc < 2) := by omega
              simp only [h0, if_false, h1] at hk
              generalize hb : tlB 2 true (K := ℝ) _ _ _ _ _ = b at hk
              cases b <;> simp only [Res.bind, Res.ok.injEq, reduceCtorEq] at hk
              rw [← hk]; exact hz
          simp only [Res.bind] at hs
          cases hm : p.2 k.F k.E with
          | ok cs =>
            rw [hm] at hs
            simp only [ncomp, if_true, hE, Res.ok.injEq] at hs
            rw [← hs]
          | fail => rw [hm] at hs; simp at hs
          | ub => rw [hm] at hs; simp at hs
        | fail => rw [hk] at hs; simp [Res.bind] at hs
        | ub => rw [hk] at hs; simp [Res.bind] at hs
      | fail => rw [hs] at h; simp [Res.bind] at h
      | ub => rw [hs] at h; simp [Res.bind] at h
    · intro h
      simp only [ulElement] at h
      cases hs : ulEval 2 true tol epsR p.2 ⟨2 * n, dofVec 2 fun _ i => if i = 1 then ur else 0⟩ p.1 M with
      | ok M1 =>
        rw [hs] at h
        rw [(ih M1).2 h]
        unfold ulEval at hs
        cases hk : kinUL 2 true ⟨2 * n, dofVec 2 fun _ i => if i = 1 then ur else 0⟩ p.1 epsR with
        | ok k =>
          rw [hk] at hs
          have hE : zeroStrain tol 4 k.2 = true := by
            unfold kinUL at hk
            by_cases h0 : 2 * n = 0
            · simp only [h0, if_true, Res.ok.injEq] at hk
              rw [← hk]; exact hz0
            · have h1 : ¬ (2 * n ≠ 2 * p.1.dN.nr ∨ p.1.dN.nc < 2) := by omega
              simp only [h0, if_false, h1, Res.ok.injEq] at hk
              rw [← hk]; exact hz
          simp only [Res.bind, ncomp, if_true, hE, Bool.not_true, Bool.false_eq_true, if_false] at hs
          generalize ulPoint 2 true false (K := ℝ) _ _ _ _ _ _ _ = P at hs
          cases P with
          | ok P =>
            simp only at hs
            cases hm : p.2 k.1 k.2 with
            | ok cs =>
              rw [hm] at hs
              simp only [Res.ok.injEq] at hs
              rw [← hs]
            | fail => rw [hm] at hs; simp at hs
            | ub => rw [hm] at hs; simp at hs
          | fail => simp at hs
          | ub => simp at hs
        | fail => rw [hk] at hs; simp [Res.bind] at hs
        | ub => rw [hk] at hs; simp [Res.bind] at hs
      | fail => rw [hs] at h; simp [Res.bind] at h
      | ub => rw [hs] at h; simp [Res.bind] at h

example : ∃ pts : List (FPt ℝ × Mat ℝ), pts.length = 1 ∧ ∀ p ∈ pts, p.1.dN.nr = 3 ∧ p.1.dN.nc = 2 ∧ ∑ a ∈ Finset.range 3, p.1.dN.e (a + 1) 1 = 0 ∧ ∑ a ∈ Finset.range 3, p.1.dN.e (a + 1) 2 = 0 := by
  refine ⟨[(triangle, fun F _ => .ok (DMat.zero 4 4, fun i => if i = 3 then F 3 3 - 1 else 0))], rfl, fun p hp => ?_⟩
  obtain rfl := List.mem_singleton.mp hp
  refine ⟨rfl, rfl, ?_, ?_⟩ <;> simp [triangle, Finset.sum_range_succ]

/-- C112 fails for materials with stresses in the unstrained state, such as residual stresses after plastic deformation: the forces jump where the strains vanish. Witness: a triangle with a
constant stress, which is stretched from the undeformed state. -/
theorem C112_residual_violated :
    ∃ (pts : List (FPt ℝ × Mat ℝ)) (u v : Nat → Nat → ℝ) (f : ℝ → DVec ℝ), (∀ p ∈ pts, p.1.dN.nr = 3 ∧ p.1.dN.nc = 2 ∧ ∃ D s, p.2 = fun _ _ => .ok (D, s)) ∧
      (∀ t, ∃ A, tlElement 2 false 0 0 ⟨2 * 3, dofVec 2 (along u v t)⟩ pts (DMat.zero (2 * 3) (2 * 3), DVec.zero (2 * 3)) = .ok (A, f t)) ∧
      ¬ ContinuousAt (fun t => (f t).dot (dofVec 2 v)) 0 := by
  let mat : Mat ℝ := fun _ _ => .ok (DMat.zero 3 3, fun i => if i = 1 then 1 else 0)
  let v : Nat → Nat → ℝ := fun a i => if a = 2 ∧ i = 1 then 1 else 0
  have hC := fun t => tl_contr 2 (.inl rfl) 3 (by omega) 0 0 triangle mat (fun _ i => if i = 1 then 1 else 0) (fun _ => DMat.zero 3 3) (fun _ => rfl) (fun _ => rfl) rfl rfl (along (fun _ _ => 0) v t)
  choose g hg using hC
  have hv : ∀ t, grad 3 (along (fun _ _ => 0) v t) triangle.dN.e = fun i j => if i = 1 ∧ j = 1 then t else 0 := by
    intro t
    funext i j
    simp only [grad, along, v, triangle, Finset.sum_range_succ, Finset.sum_range_zero]
    by_cases h : i = 1 <;> by_cases h' : j = 1 <;> simp [h, h', eq_comm]
  refine ⟨[(triangle, mat)], fun _ _ => 0, v, fun t => g t (DVec.zero (2 * 3)), fun p hp => ?_, fun t => ?_, ?_⟩
  · obtain rfl := List.mem_singleton.mp hp
    exact ⟨rfl, rfl, _, _, rfl⟩
  · obtain ⟨A, hA, -⟩ := (hg t).2 (DMat.zero (2 * 3) (2 * 3)) (DVec.zero (2 * 3)) rfl rfl rfl
    refine ⟨A, ?_⟩
    have hA' : tlPoint 2 false 0 0 mat ⟨2 * 3, dofVec 2 (along (fun _ _ => 0) v t)⟩ triangle (DMat.zero (2 * 3) (2 * 3), DVec.zero (2 * 3)) = _ := hA
    simp only [tlElement]
    rw [hA']; rfl
  · intro hc
    have hf : ∀ t, (g t (DVec.zero (2 * 3))).dot (dofVec 2 v) = _ := fun t => ((hg t).1 (DVec.zero (2 * 3)) rfl).2 v
    rw [Metric.continuousAt_iff] at hc
    obtain ⟨δ, hδ, hc⟩ := hc (1 / 4) (by norm_num)
    have h1 := hc (x := δ / 2) (by rw [Real.dist_eq, sub_zero, abs_of_pos (by positivity)]; linarith)
    have h0 : (g 0 (DVec.zero (2 * 3))).dot (dofVec 2 v) = 0 := by
      rw [hf 0, zero_dot]
      beta_reduce
      rw [if_pos, sub_zero]
      rw [zeroStrain_iff, hv]
      intro i a b
      norm_num at b
      interval_cases i <;> simp [greenV, engineering, eng2, green, Finset.sum_range_succ]
    have hv1 : grad 3 v triangle.dN.e = fun i j => if i = 1 ∧ j = 1 then 1 else 0 := by
      have := hv 1
      rwa [show along (fun _ _ => 0) v 1 = v by funext a i; simp [along]] at this
    have h2 : (g (δ / 2) (DVec.zero (2 * 3))).dot (dofVec 2 v) = -(1 / 2 * (1 + δ / 2)) := by
      rw [hf (δ / 2), zero_dot]
      beta_reduce
      rw [if_neg, zero_sub, hv, hv1]
      · simp [rateV, engineering, eng2, defF, Finset.sum_range_succ, triangle]
      · rw [zeroStrain_iff, hv]
        intro hz
        have h3 := le_trans (le_abs_self _) (hz 1 (by norm_num) (by norm_num))
        have h4 : greenV 2 (fun i j => if i = 1 ∧ j = 1 then δ / 2 else 0) 1 = 1 / 2 * (δ / 2 + δ / 2 + δ / 2 * (δ / 2)) := by
          simp [greenV, engineering, eng2, green, Finset.sum_range_succ]
        rw [h4] at h3
        nlinarith [mul_pos hδ hδ]
    rw [h0, h2, Real.dist_eq, sub_zero, abs_neg, abs_of_pos (by positivity)] at h1
    linarith

end Verif.Finite
