/-
Proofs about the tangent of the plastic material.
-/
import Verif.Proofs.ReturnMapAxes
import Mathlib.Analysis.Calculus.Deriv.Mul
import Mathlib.Analysis.Calculus.Deriv.Add

set_option linter.unusedSectionVars false
set_option linter.unusedSimpArgs false
set_option linter.unusedVariables false

namespace Verif.Plastic

open Verif.Spec.Plasticity

/-- Strain components of a symmetric tensor, with doubled shear components. -/
def eng (D : M3) (i : Fin 6) : ℝ := if i < 3 then D (p1 i) (p2 i) else 2 * D (p1 i) (p2 i)

theorem tmat_strain (N D : M3) (hD : ∀ i j, D i j = D j i) :
    (tmat N).mulVec (eng D) = eng (N.transpose * D * N) := by
  funext i
  have h10 := hD 1 0
  have h20 := hD 2 0
  have h21 := hD 2 1
  fin_cases i <;>
    simp [Matrix.mulVec, dotProduct, Fin.sum_univ_six, tmat, eng, p1, p2, Matrix.mul_apply,
      Fin.sum_univ_three, h10, h20, h21] <;> ring

theorem tmat_stress (N : M3) (s : Fin 6 → ℝ) (i : Fin 6) :
    (tmat N).transpose.mulVec s i = (N * sym6 s * N.transpose) (p1 i) (p2 i) := by
  fin_cases i <;>
    simp [Matrix.mulVec, dotProduct, Fin.sum_univ_six, tmat, sym6, p1, p2, Matrix.mul_apply,
      Fin.sum_univ_three] <;> ring

/-- The action of an isotropic-type tangent in the principal axes. -/
def act (A B E : M3) : M3 := fun i j =>
  (if i = j then ∑ k, A i k * E k k else 0) + B i j * E i j

/-- Shear coefficients in the principal axes. -/
noncomputable def shear2 (l tau : V3) (c : ℝ) : M3 := fun a b =>
  open Classical in
  if l a = l b then c - 2 * tau a else 2 * ((l a * tau b - l b * tau a) / (l b - l a))

theorem cstm_act (l tau : V3) (dtde P : M3) (c : ℝ)
    (hd : ∀ a b, dtde a b = 1 / 2 * (P a b + if a = b then c else 0))
    (hgap : ∀ a b, l a = l b ∨ tolb < |l b - l a|)
    (hcl : ∀ a b, l a = l b → P a a = P b a ∧ tau a = tau b)
    (E : M3) (hE : ∀ i j, E i j = E j i) :
    sym6 ((cstm l tau dtde).mulVec (eng E)) = act P (shear2 l tau c) E := by
  have ht : (0 : ℝ) < tolb := by unfold tolb; positivity
  have sh : ∀ a b : Fin 3, a ≠ b → 2 * (if l b - l a > tolb ∨ l b - l a < -tolb then
      (l a * tau b - l b * tau a) / (l b - l a) else dtde a a - dtde b a - tau a) =
      shear2 l tau c a b := by
    intro a b hab
    unfold shear2
    rcases hgap a b with h | h
    · rw [if_pos h, if_neg (by rw [h]; simp; exact ht.le), hd, hd, if_pos rfl, if_neg hab.symm,
        (hcl a b h).1]
      ring
    · have hne : l a ≠ l b := by
        intro h0
        rw [h0] at h
        simp at h
        linarith
      rw [if_neg hne, if_pos]
      rcases lt_abs.1 h with h | h
      · exact Or.inl h
      · right; linarith
  have symm : ∀ a b, shear2 l tau c a b = shear2 l tau c b a := by
    intro a b
    have h : l a = l b → tau a = tau b := fun h => (hcl a b h).2
    unfold shear2
    by_cases e : l a = l b
    · rw [if_pos e, if_pos e.symm, h e]
    · have e' : l b - l a ≠ 0 := fun h0 => e (by linarith)
      have e'' : l a - l b ≠ 0 := fun h0 => e (by linarith)
      rw [if_neg e, if_neg (Ne.symm e)]
      congr 1
      rw [div_eq_div_iff e' e'']
      ring
  have dg : ∀ a, shear2 l tau c a a = c - 2 * tau a := fun a => if_pos rfl
  have s01 := sh 0 1 (by decide)
  have s12 := sh 1 2 (by decide)
  have s20 := sh 2 0 (by decide)
  have y10 := symm 1 0
  have y21 := symm 2 1
  have y02 := symm 0 2
  have e10 := hE 1 0
  have e21 := hE 2 1
  have e02 := hE 0 2
  have nrm : ∀ a b : Fin 3, 2 * dtde a b - (if b = a then 2 * tau b else 0) =
      P a b + if a = b then c - 2 * tau a else 0 := by
    intro a b
    rw [hd]
    by_cases h : a = b
    · rw [if_pos h, if_pos h, if_pos h.symm, h]; ring
    · rw [if_neg h, if_neg h, if_neg (Ne.symm h)]; ring
  have v0 : ((cstm l tau dtde).mulVec (eng E)) 0 =
      (P 0 0 + (c - 2 * tau 0)) * E 0 0 + P 0 1 * E 1 1 + P 0 2 * E 2 2 := by
    have n0 := nrm 0 0
    have n1 := nrm 0 1
    have n2 := nrm 0 2
    simp only [if_true, Fin.reduceEq, if_false, add_zero, Fin.isValue] at n0 n1 n2
    simp [Matrix.mulVec, dotProduct, Fin.sum_univ_six, cstm, eng, p1, p2, n0, ← n1, ← n2]
  have v1 : ((cstm l tau dtde).mulVec (eng E)) 1 =
      P 1 0 * E 0 0 + (P 1 1 + (c - 2 * tau 1)) * E 1 1 + P 1 2 * E 2 2 := by
    have n0 := nrm 1 0
    have n1 := nrm 1 1
    have n2 := nrm 1 2
    simp only [if_true, Fin.reduceEq, if_false, add_zero, Fin.isValue] at n0 n1 n2
    simp [Matrix.mulVec, dotProduct, Fin.sum_univ_six, cstm, eng, p1, p2, n1, ← n0, ← n2]
  have v2 : ((cstm l tau dtde).mulVec (eng E)) 2 =
      P 2 0 * E 0 0 + P 2 1 * E 1 1 + (P 2 2 + (c - 2 * tau 2)) * E 2 2 := by
    have n0 := nrm 2 0
    have n1 := nrm 2 1
    have n2 := nrm 2 2
    simp only [if_true, Fin.reduceEq, if_false, add_zero, Fin.isValue] at n0 n1 n2
    simp [Matrix.mulVec, dotProduct, Fin.sum_univ_six, cstm, eng, p1, p2, n2, ← n1, ← n0]
  have v3 : ((cstm l tau dtde).mulVec (eng E)) 3 = shear2 l tau c 0 1 * E 0 1 := by
    rw [← s01]
    simp [Matrix.mulVec, dotProduct, Fin.sum_univ_six, cstm, eng, p1, p2]
    ring_nf
  have v4 : ((cstm l tau dtde).mulVec (eng E)) 4 = shear2 l tau c 1 2 * E 1 2 := by
    rw [← s12]
    simp [Matrix.mulVec, dotProduct, Fin.sum_univ_six, cstm, eng, p1, p2]
    ring_nf
  have v5 : ((cstm l tau dtde).mulVec (eng E)) 5 = shear2 l tau c 2 0 * E 2 0 := by
    rw [← s20]
    simp [Matrix.mulVec, dotProduct, Fin.sum_univ_six, cstm, eng, p1, p2]
    ring_nf
  funext i j
  fin_cases i <;> fin_cases j <;>
    simp [sym6, act, v0, v1, v2, v3, v4, v5, dg, y10, y21, y02, e10, e21, e02, Fin.sum_univ_three]
    <;> ring

/-- The action does not depend on the choice of the principal axes. -/
theorem act_rot (A B A' B' R E : M3) (hR : R * R.transpose = 1)
    (h : ∀ i j k l, R i k ≠ 0 → R j l ≠ 0 → A i j = A' k l ∧ B i j = B' k l) :
    act A B (R * E * R.transpose) = R * act A' B' E * R.transpose := by
  have hAR : ∀ i j k l, A i j * (R i k * R j l) = A' k l * (R i k * R j l) := by
    intro i j k l
    by_cases h1 : R i k = 0
    · rw [h1]; ring
    · by_cases h2 : R j l = 0
      · rw [h2]; ring
      · rw [(h i j k l h1 h2).1]
  have hBR : ∀ i j k l, B i j * (R i k * R j l) = B' k l * (R i k * R j l) := by
    intro i j k l
    by_cases h1 : R i k = 0
    · rw [h1]; ring
    · by_cases h2 : R j l = 0
      · rw [h2]; ring
      · rw [(h i j k l h1 h2).2]
  have hT : R.transpose * R = 1 := mul_eq_one_comm.1 hR
  have orth : ∀ k l, ∑ p, R p k * R p l = if k = l then 1 else 0 := by
    intro k l
    have := congrFun (congrFun hT k) l
    rw [Matrix.mul_apply, Matrix.one_apply] at this
    exact this
  have orthR : ∀ i j, ∑ k, R i k * R j k = if i = j then 1 else 0 := by
    intro i j
    have := congrFun (congrFun hR i) j
    rw [Matrix.mul_apply, Matrix.one_apply] at this
    exact this
  have hmul : ∀ (X : M3) i j, (R * X * R.transpose) i j = ∑ k, ∑ l, X k l * (R i k * R j l) := by
    intro X i j
    rw [Matrix.mul_apply]
    simp only [Matrix.mul_apply, Matrix.transpose_apply, Finset.sum_mul]
    rw [Finset.sum_comm]
    refine Finset.sum_congr rfl fun k _ => Finset.sum_congr rfl fun l _ => ?_
    ring
  funext i j
  rw [hmul]
  simp only [act]
  rw [hmul]
  have e1 : B i j * ∑ k, ∑ l, E k l * (R i k * R j l) =
      ∑ k, ∑ l, B' k l * E k l * (R i k * R j l) := by
    simp only [Finset.mul_sum]
    refine Finset.sum_congr rfl fun k _ => Finset.sum_congr rfl fun l _ => ?_
    linear_combination E k l * hBR i j k l
  rw [e1]
  have e2 : (if i = j then ∑ p, A i p * (R * E * R.transpose) p p else 0) =
      ∑ k, ∑ l, (if k = l then ∑ q, A' k q * E q q else 0) * (R i k * R j l) := by
    have r1 : ∑ k, ∑ l, (if k = l then ∑ q, A' k q * E q q else 0) * (R i k * R j l) =
        ∑ k, (∑ q, A' k q * E q q) * (R i k * R j k) := by
      refine Finset.sum_congr rfl fun k _ => ?_
      simp only [ite_mul, zero_mul]
      rw [Finset.sum_ite_eq, if_pos (Finset.mem_univ k)]
    have r2 : ∀ k, (∑ q, A' k q * E q q) * (R i k * R j k) =
        (∑ p, A i p * (R * E * R.transpose) p p) * (R i k * R j k) := by
      intro k
      have : (∑ p, A i p * (R * E * R.transpose) p p) * R i k = (∑ q, A' k q * E q q) * R i k := by
        have s1 : (∑ p, A i p * (R * E * R.transpose) p p) * R i k =
            ∑ a, ∑ b, E a b * (A' k a * R i k * ∑ p, R p a * R p b) := by
          simp only [hmul, Finset.mul_sum, Finset.sum_mul]
          rw [Finset.sum_comm]
          refine Finset.sum_congr rfl fun a _ => ?_
          rw [Finset.sum_comm]
          refine Finset.sum_congr rfl fun b _ => Finset.sum_congr rfl fun p _ => ?_
          linear_combination E a b * R p b * hAR i p k a
        rw [s1]
        simp only [orth]
        rw [Finset.sum_mul]
        refine Finset.sum_congr rfl fun a _ => ?_
        simp only [mul_ite, mul_one, mul_zero]
        rw [Finset.sum_ite_eq, if_pos (Finset.mem_univ a)]
        ring
      linear_combination -R j k * this
    rw [r1]
    simp only [r2]
    rw [← Finset.mul_sum, orthR]
    split_ifs <;> simp
  rw [e2, ← Finset.sum_add_distrib]
  refine Finset.sum_congr rfl fun k _ => ?_
  rw [← Finset.sum_add_distrib]
  refine Finset.sum_congr rfl fun l _ => ?_
  ring

/-- The stress rate in moving principal axes: `W` is the spin of the axes and `E` the velocity
gradient in the axes. -/
theorem act_rate (l l' T T' : V3) (W E P : M3) (c : ℝ) (hpos : ∀ a, 0 < l a)
    (hW : ∀ a b, W a b = -W b a)
    (hb : ∀ a b, W a b * l b - l a * W a b + (if a = b then l' a else 0) = E a b * l b + l a * E b a)
    (hcl : ∀ a b, l a = l b → T a = T b)
    (hT : ∀ a, T' a = ∑ b, (P a b + if a = b then c else 0) * (l' b / (2 * l b))) (a b : Fin 3) :
    W a b * T b - T a * W a b + (if a = b then T' a else 0) - E a b * T b - T a * E b a =
      act P (shear2 l T c) (fun i j => 1 / 2 * (E i j + E j i)) a b := by
  have hl : ∀ b, l' b / (2 * l b) = E b b := by
    intro b
    have := hb b b
    rw [if_pos rfl] at this
    have h0 := hpos b
    rw [div_eq_iff (by positivity)]
    linear_combination this
  unfold act shear2
  by_cases hab : a = b
  · subst hab
    simp only [if_true]
    rw [hT a]
    simp only [hl, add_mul, Finset.sum_add_distrib, ite_mul, zero_mul]
    rw [Finset.sum_ite_eq, if_pos (Finset.mem_univ a)]
    have : ∀ k, P a k * (1 / 2 * (E k k + E k k)) = P a k * E k k := fun k => by ring
    simp only [this]
    ring
  · have h1 := hb a b
    rw [if_neg hab] at h1
    rw [if_neg hab, if_neg hab]
    by_cases h : l a = l b
    · rw [if_pos h]
      have h0 := hpos b
      have e : E a b + E b a = 0 := by
        have : l b * (E a b + E b a) = 0 := by
          rw [h] at h1
          linear_combination -h1
        exact (mul_eq_zero.1 this).resolve_left h0.ne'
      rw [hcl a b h]
      linear_combination (-(T b) - 1 / 2 * (c - 2 * T b)) * e
    · rw [if_neg h]
      have hd : l b - l a ≠ 0 := fun h0 => h (by linarith)
      have e : W a b = (E a b * l b + l a * E b a) / (l b - l a) := by
        rw [eq_div_iff hd]
        linear_combination h1
      rw [e]
      field_simp
      ring

theorem tensor_apply (l : V3) (N : M3) (i j : Fin 3) :
    tensor l N i j = ∑ a, N i a * l a * N j a := by
  simp [tensor, Matrix.mul_apply, Matrix.diagonal_apply, Matrix.transpose_apply]

theorem tensor_deriv (l : ℝ → V3) (N : ℝ → M3) (l' : V3) (N' : M3)
    (hl : ∀ i, HasDerivAt (fun t => l t i) (l' i) 0)
    (hN : ∀ i j, HasDerivAt (fun t => N t i j) (N' i j) 0) (i j : Fin 3) :
    HasDerivAt (fun t => tensor (l t) (N t) i j)
      ((N' * Matrix.diagonal (l 0) * (N 0).transpose + N 0 * Matrix.diagonal l' * (N 0).transpose +
        N 0 * Matrix.diagonal (l 0) * N'.transpose) i j) 0 := by
  simp only [tensor_apply]
  have h : HasDerivAt (fun t => ∑ a, N t i a * l t a * N t j a)
      (∑ a, ((N' i a * l 0 a + N 0 i a * l' a) * N 0 j a + N 0 i a * l 0 a * N' j a)) 0 :=
    HasDerivAt.fun_sum fun a _ => (((hN i a).fun_mul (hl a)).fun_mul (hN j a))
  refine h.congr_deriv ?_
  simp [Matrix.add_apply, Matrix.mul_apply, Matrix.diagonal_apply, Matrix.transpose_apply,
    Fin.sum_univ_three]
  ring

/-- The matrix of the tangent gives the stress rate. -/
theorem tangent_rate (J : ℝ) (N : ℝ → M3) (l T : ℝ → V3) (N' L : M3) (l' T' : V3)
    (hN : ∀ t, N t * (N t).transpose = 1)
    (hN' : ∀ i j, HasDerivAt (fun t => N t i j) (N' i j) 0)
    (hl' : ∀ i, HasDerivAt (fun t => l t i) (l' i) 0)
    (hT' : ∀ i, HasDerivAt (fun t => T t i) (T' i) 0) (hpos : ∀ a, 0 < l 0 a)
    (hb : ∀ i j, HasDerivAt (fun t => tensor (l t) (N t) i j)
      ((L * tensor (l 0) (N 0) + tensor (l 0) (N 0) * L.transpose) i j) 0)
    (ll2 tau : V3) (N0 dtde P0 P : M3) (c : ℝ) (hN0 : N0 * N0.transpose = 1)
    (hten : tensor ll2 N0 = tensor (l 0) (N 0))
    (hd : ∀ a b, dtde a b = 1 / 2 * (P0 a b + if a = b then c else 0))
    (hgap : ∀ a b, ll2 a = ll2 b ∨ tolb < |ll2 b - ll2 a|)
    (hclP : ∀ i j k m, ll2 i = l 0 k → ll2 j = l 0 m → P0 i j = P k m)
    (hclT : ∀ i k, ll2 i = l 0 k → tau i = T 0 k)
    (hT : ∀ a, T' a = ∑ b, (P a b + if a = b then c else 0) * (l' b / (2 * l 0 b))) :
    ∃ R : M3, (∀ i j, HasDerivAt (fun t => tensor (T t) (N t) i j) (R i j) 0) ∧
      tensor tau N0 = tensor (T 0) (N 0) ∧
      ∀ i, (tangent6 ll2 tau dtde N0 J).mulVec (eng ((1 / 2 : ℝ) • (L + L.transpose))) i =
        1 / J * (R - L * tensor (T 0) (N 0) - tensor (T 0) (N 0) * L.transpose) (p1 i) (p2 i) := by
  obtain ⟨s, hs⟩ := principal_perm (l 0) ll2 (N 0) N0 (hN 0) hN0 hten.symm
  have hNt : ∀ t, (N t).transpose * N t = 1 := fun t => mul_eq_one_comm.1 (hN t)
  have hN0t : N0.transpose * N0 = 1 := mul_eq_one_comm.1 hN0
  have hcl : ∀ a b, ll2 a = ll2 b → P0 a a = P0 b a ∧ tau a = tau b := by
    intro a b h
    refine ⟨?_, ?_⟩
    · rw [hclP a a (s a) (s a) (hs a).symm (hs a).symm,
        hclP b a (s a) (s a) (by rw [hs a, h]) (hs a).symm]
    · rw [hclT a (s a) (hs a).symm, hclT b (s a) (by rw [hs a, h])]
  have hclT0 : ∀ a b, l 0 a = l 0 b → T 0 a = T 0 b := by
    intro a b h
    have e : ll2 (s.symm a) = l 0 a := by rw [← hs]; simp
    rw [← hclT (s.symm a) a e, ← hclT (s.symm a) b (e.trans h)]
  -- the spin of the axes
  obtain ⟨W, hWd⟩ : ∃ W, W = (N 0).transpose * N' := ⟨_, rfl⟩
  obtain ⟨E, hEd⟩ : ∃ E, E = (N 0).transpose * L * N 0 := ⟨_, rfl⟩
  have hN'W : N' = N 0 * W := by rw [hWd, ← Matrix.mul_assoc, hN 0, Matrix.one_mul]
  have hLE : L = N 0 * E * (N 0).transpose := by
    rw [hEd]
    calc L = (N 0 * (N 0).transpose) * L * (N 0 * (N 0).transpose) := by
          rw [hN 0, Matrix.one_mul, Matrix.mul_one]
      _ = _ := by simp only [Matrix.mul_assoc]
  have hW : W + W.transpose = 0 := by
    funext a b
    have h1 : HasDerivAt (fun t => ∑ i, N t i a * N t i b)
        (∑ i, (N' i a * N 0 i b + N 0 i a * N' i b)) 0 :=
      HasDerivAt.fun_sum (u := Finset.univ) fun i _ => (hN' i a).mul (hN' i b)
    have h2 : (fun t => ∑ i, N t i a * N t i b) = fun _ => (1 : M3) a b := by
      funext t
      have := congrFun (congrFun (hNt t) a) b
      rw [Matrix.mul_apply] at this
      exact this
    rw [h2] at h1
    have h3 := h1.unique (hasDerivAt_const (0 : ℝ) ((1 : M3) a b))
    rw [hWd]
    simp only [Matrix.add_apply, Matrix.transpose_apply, Matrix.mul_apply, Matrix.zero_apply,
      Fin.sum_univ_three] at h3 ⊢
    linear_combination h3
  have hWe : ∀ a b, W a b = -W b a := by
    intro a b
    have := congrFun (congrFun hW a) b
    simp only [Matrix.add_apply, Matrix.transpose_apply, Matrix.zero_apply] at this
    linarith
  have frame : ∀ (v v' : V3), (N 0).transpose * (N' * Matrix.diagonal v * (N 0).transpose +
      N 0 * Matrix.diagonal v' * (N 0).transpose + N 0 * Matrix.diagonal v * N'.transpose) * N 0 =
      W * Matrix.diagonal v + Matrix.diagonal v' + Matrix.diagonal v * W.transpose := by
    intro v v'
    rw [hN'W, Matrix.transpose_mul]
    simp only [Matrix.mul_add, Matrix.add_mul]
    have k1 : ∀ X : M3, (N 0).transpose * (N 0 * X) = X := by
      intro X; rw [← Matrix.mul_assoc, hNt 0, Matrix.one_mul]
    simp only [Matrix.mul_assoc, k1, hNt 0, Matrix.mul_one]
  have frame2 : ∀ v : V3, (N 0).transpose * (L * tensor v (N 0) + tensor v (N 0) * L.transpose) * N 0 =
      E * Matrix.diagonal v + Matrix.diagonal v * E.transpose := by
    intro v
    rw [hLE]
    unfold tensor
    have k1 : ∀ X : M3, (N 0).transpose * (N 0 * X) = X := by
      intro X; rw [← Matrix.mul_assoc, hNt 0, Matrix.one_mul]
    simp only [Matrix.transpose_mul, Matrix.transpose_transpose, Matrix.mul_add, Matrix.add_mul,
      Matrix.mul_assoc, k1, hNt 0, Matrix.mul_one]
  have hbm : N' * Matrix.diagonal (l 0) * (N 0).transpose + N 0 * Matrix.diagonal l' * (N 0).transpose +
      N 0 * Matrix.diagonal (l 0) * N'.transpose =
      L * tensor (l 0) (N 0) + tensor (l 0) (N 0) * L.transpose := by
    funext i j
    exact (tensor_deriv l N l' N' hl' hN' i j).unique (hb i j)
  have hbe : ∀ a b, W a b * l 0 b - l 0 a * W a b + (if a = b then l' a else 0) =
      E a b * l 0 b + l 0 a * E b a := by
    intro a b
    have := congrArg (fun X => ((N 0).transpose * X * N 0) a b) hbm
    simp only [frame, frame2] at this
    simp only [Matrix.add_apply, Matrix.mul_diagonal, Matrix.diagonal_mul, Matrix.transpose_apply,
      Matrix.diagonal_apply] at this
    linear_combination this - l 0 a * hWe b a
  have hrate := act_rate (l 0) l' (T 0) T' W E P c hpos hWe hbe hclT0 hT
  obtain ⟨R, hR⟩ : ∃ R, R = N' * Matrix.diagonal (T 0) * (N 0).transpose +
      N 0 * Matrix.diagonal T' * (N 0).transpose + N 0 * Matrix.diagonal (T 0) * N'.transpose :=
    ⟨_, rfl⟩
  have hobj : (N 0).transpose * (R - L * tensor (T 0) (N 0) - tensor (T 0) (N 0) * L.transpose) * N 0 =
      act P (shear2 (l 0) (T 0) c) (fun i j => 1 / 2 * (E i j + E j i)) := by
    funext a b
    rw [← hrate a b, sub_sub, Matrix.mul_sub, Matrix.sub_mul, frame2, hR, frame]
    simp only [Matrix.add_apply, Matrix.sub_apply, Matrix.mul_diagonal, Matrix.diagonal_mul,
      Matrix.transpose_apply, Matrix.diagonal_apply]
    linear_combination T 0 a * hWe b a
  have hobj2 : R - L * tensor (T 0) (N 0) - tensor (T 0) (N 0) * L.transpose =
      N 0 * act P (shear2 (l 0) (T 0) c) (fun i j => 1 / 2 * (E i j + E j i)) * (N 0).transpose := by
    rw [← hobj]
    generalize R - L * tensor (T 0) (N 0) - tensor (T 0) (N 0) * L.transpose = X
    calc X = (N 0 * (N 0).transpose) * X * (N 0 * (N 0).transpose) := by
          rw [hN 0, Matrix.one_mul, Matrix.mul_one]
      _ = _ := by simp only [Matrix.mul_assoc]
  -- the axes of the code
  obtain ⟨Q, hQ⟩ : ∃ Q, Q = N0.transpose * N 0 := ⟨_, rfl⟩
  have hQQ : Q * Q.transpose = 1 := by
    rw [hQ, Matrix.transpose_mul, Matrix.transpose_transpose, Matrix.mul_assoc, ← Matrix.mul_assoc (N 0),
      hN 0, Matrix.one_mul, hN0t]
  have hQv : ∀ i k, Q i k ≠ 0 → ll2 i = l 0 k := by
    intro i k h
    have := diag_rel ll2 (l 0) N0 (N 0) hN0 (hN 0) hten i k
    rw [← hQ] at this
    have := (mul_eq_zero.1 this).resolve_right h
    linarith
  have hNQ : N0 * Q = N 0 := by rw [hQ, ← Matrix.mul_assoc, hN0, Matrix.one_mul]
  have hsym : ∀ i j, ((1 / 2 : ℝ) • (L + L.transpose)) i j = ((1 / 2 : ℝ) • (L + L.transpose)) j i := by
    intro i j
    simp only [Matrix.smul_apply, Matrix.add_apply, Matrix.transpose_apply, smul_eq_mul]
    ring
  have hEs : (fun i j => 1 / 2 * (E i j + E j i)) =
      (N 0).transpose * ((1 / 2 : ℝ) • (L + L.transpose)) * N 0 := by
    have : (fun i j => 1 / 2 * (E i j + E j i)) = (1 / 2 : ℝ) • (E + E.transpose) := by
      funext i j
      simp [Matrix.smul_apply, Matrix.add_apply, Matrix.transpose_apply]
    rw [this, hEd, Matrix.mul_smul, Matrix.smul_mul]
    congr 1
    simp only [Matrix.transpose_mul, Matrix.transpose_transpose, Matrix.mul_add, Matrix.add_mul,
      Matrix.mul_assoc]
  have hcode : ∀ i, (tangent6 ll2 tau dtde N0 J).mulVec (eng ((1 / 2 : ℝ) • (L + L.transpose))) i =
      1 / J * (N0 * act P0 (shear2 ll2 tau c) (N0.transpose * ((1 / 2 : ℝ) • (L + L.transpose)) * N0) *
        N0.transpose) (p1 i) (p2 i) := by
    intro i
    unfold tangent6
    rw [Matrix.smul_mulVec, Pi.smul_apply, smul_eq_mul, ← Matrix.mulVec_mulVec, ← Matrix.mulVec_mulVec,
      tmat_strain _ _ hsym, tmat_stress, cstm_act ll2 tau dtde P0 c hd hgap hcl]
    intro a b
    have : (N0.transpose * ((1 / 2 : ℝ) • (L + L.transpose)) * N0).transpose =
        N0.transpose * ((1 / 2 : ℝ) • (L + L.transpose)) * N0 := by
      have e : ((1 / 2 : ℝ) • (L + L.transpose)).transpose = (1 / 2 : ℝ) • (L + L.transpose) := by
        funext i j; exact hsym j i
      rw [Matrix.transpose_mul, Matrix.transpose_mul, Matrix.transpose_transpose, e, Matrix.mul_assoc]
    exact congrFun (congrFun this b) a
  have hrot := act_rot P0 (shear2 ll2 tau c) P (shear2 (l 0) (T 0) c) Q
    ((N 0).transpose * ((1 / 2 : ℝ) • (L + L.transpose)) * N 0) hQQ (by
      intro i j k m h1 h2
      have e1 := hQv i k h1
      have e2 := hQv j m h2
      refine ⟨hclP i j k m e1 e2, ?_⟩
      unfold shear2
      rw [e1, e2, hclT i k e1, hclT j m e2])
  refine ⟨R, fun i j => ?_, ?_, fun i => ?_⟩
  · rw [hR]
    exact tensor_deriv T N T' N' hT' hN' i j
  · have e : Matrix.diagonal tau * Q = Q * Matrix.diagonal (T 0) := by
      funext a b
      rw [Matrix.diagonal_mul, Matrix.mul_diagonal]
      by_cases h : Q a b = 0
      · rw [h]; ring
      · rw [hclT a b (hQv a b h)]; ring
    unfold tensor
    rw [← hNQ, Matrix.transpose_mul]
    calc N0 * Matrix.diagonal tau * N0.transpose
        = N0 * (Matrix.diagonal tau * (Q * Q.transpose)) * N0.transpose := by
          rw [hQQ, Matrix.mul_one]
      _ = N0 * ((Matrix.diagonal tau * Q) * Q.transpose) * N0.transpose := by
          rw [Matrix.mul_assoc (Matrix.diagonal tau)]
      _ = _ := by rw [e]; simp only [Matrix.mul_assoc]
  · rw [hcode i, hobj2, hEs]
    congr 1
    have e : N0.transpose * ((1 / 2 : ℝ) • (L + L.transpose)) * N0 =
        Q * ((N 0).transpose * ((1 / 2 : ℝ) • (L + L.transpose)) * N 0) * Q.transpose := by
      have hq : N 0 * Q.transpose = N0 := by
        rw [← hNQ, Matrix.mul_assoc, hQQ, Matrix.mul_one]
      have hq' : Q * (N 0).transpose = N0.transpose := by
        rw [← hq, Matrix.transpose_mul, Matrix.transpose_transpose]
      calc N0.transpose * ((1 / 2 : ℝ) • (L + L.transpose)) * N0
          = (Q * (N 0).transpose) * ((1 / 2 : ℝ) • (L + L.transpose)) * (N 0 * Q.transpose) := by
            rw [hq, hq']
        _ = _ := by simp only [Matrix.mul_assoc]
    rw [e, hrot]
    generalize act P (shear2 (l 0) (T 0) c)
      ((N 0).transpose * ((1 / 2 : ℝ) • (L + L.transpose)) * N 0) = X
    rw [← hNQ, Matrix.transpose_mul]
    simp only [Matrix.mul_assoc]

end Verif.Plastic
