/- Helper lemmas: explicit form of the constitutive matrices. -/
import Verif.Model.LinIsotropic
import Verif.Spec.Hooke
import Mathlib.LinearAlgebra.Matrix.Symmetric
import Mathlib.LinearAlgebra.Matrix.SemiringInverse
import Mathlib.Tactic.FinCases
import Mathlib.Tactic.Linarith
import Mathlib.Tactic.FieldSimp
import Mathlib.Tactic.Ring
import Mathlib.Tactic.LinearCombination
import Mathlib.Tactic.Positivity

namespace Verif.LinIso

variable {K : Type*} [Field K]

/-- Entries of the constitutive matrix, as the code computes them. -/
def dirA (E nu : K) (ps inv : Bool) : K :=
  if inv then (if ps then 1 / E else (1 - nu * nu) / E)
  else (if ps then E / (1 - nu * nu) else E / ((1 + nu) * (1 - nu - nu)) * (1 - nu))

def dirB (E nu : K) (ps inv : Bool) : K :=
  if inv then (if ps then -nu / E else (-nu - nu * nu) / E)
  else (if ps then E / (1 - nu * nu) * nu else E / ((1 + nu) * (1 - nu - nu)) * nu)

def volA (E nu : K) (inv : Bool) : K :=
  if inv then 1 / E else E / ((1 + nu) * (1 - nu - nu)) * (1 - nu)

def volB (E nu : K) (inv : Bool) : K :=
  if inv then -nu / E else E / ((1 + nu) * (1 - nu - nu)) * nu

def shG (E nu : K) (inv : Bool) : K :=
  if inv then 1 / (E / (2 + nu + nu)) else E / (2 + nu + nu)

theorem cmat_3d (E nu : K) (ps ax inv : Bool) :
    ∃ C, cmat E nu 3 ps ax inv = .ok C ∧ C.nr = 6 ∧ C.nc = 6 ∧
      C.toM 6 6 =
        (let a := volA E nu inv
         let b := volB E nu inv
         let g := shG E nu inv
         !![a, b, b, 0, 0, 0; b, a, b, 0, 0, 0; b, b, a, 0, 0, 0;
            0, 0, 0, g, 0, 0; 0, 0, 0, 0, g, 0; 0, 0, 0, 0, 0, g]) := by
  cases inv <;> refine ⟨_, rfl, rfl, rfl, ?_⟩ <;>
    (ext i j; fin_cases i <;> fin_cases j <;> rfl)

theorem cmat_axi (E nu : K) (ps inv : Bool) :
    ∃ C, cmat E nu 2 ps true inv = .ok C ∧ C.nr = 4 ∧ C.nc = 4 ∧
      C.toM 4 4 =
        (let a := volA E nu inv
         let b := volB E nu inv
         let g := shG E nu inv
         !![a, b, b, 0; b, a, b, 0; b, b, a, 0; 0, 0, 0, g]) := by
  cases inv <;> cases ps <;> refine ⟨_, rfl, rfl, rfl, ?_⟩ <;>
    (ext i j; fin_cases i <;> fin_cases j <;> rfl)

theorem cmat_2d (E nu : K) (ps inv : Bool) :
    ∃ C, cmat E nu 2 ps false inv = .ok C ∧ C.nr = 3 ∧ C.nc = 3 ∧
      C.toM 3 3 =
        (let a := dirA E nu ps inv
         let b := dirB E nu ps inv
         let g := shG E nu inv
         !![a, b, 0; b, a, 0; 0, 0, g]) := by
  cases inv <;> cases ps <;> refine ⟨_, rfl, rfl, rfl, ?_⟩ <;>
    (ext i j; fin_cases i <;> fin_cases j <;> rfl)

theorem mulVec_eq (C : DMat K) (x : Nat → K) (n m : Nat) (h : C.nc = m) (i : Fin n) :
    mulVec C x (i.val + 1) = (C.toM n m).mulVec (fun j => x (j.val + 1)) i := by
  subst h
  simp only [mulVec, Matrix.mulVec, DMat.toM, dotProduct, Finset.sum_range]

section inv
variable [LinearOrder K] [IsStrictOrderedRing K] {E nu : K}

theorem pos_facts (h0 : 0 ≤ nu) (h1 : nu < 1 / 2) :
    0 < 1 + nu ∧ 0 < 1 - nu ∧ 0 < 1 - nu - nu ∧ 0 < 2 + nu + nu ∧ 0 < 1 - nu * nu := by
  refine ⟨by linarith, by linarith, by linarith, by linarith, ?_⟩
  nlinarith

theorem vol_inv (hE : E ≠ 0) (h0 : 0 ≤ nu) (h1 : nu < 1 / 2) :
    volA E nu false * volA E nu true + 2 * (volB E nu false * volB E nu true) = 1 ∧
    volA E nu false * volB E nu true + volB E nu false * volA E nu true
      + volB E nu false * volB E nu true = 0 ∧
    shG E nu false * shG E nu true = 1 := by
  obtain ⟨a, b, c, d, e⟩ := pos_facts h0 h1
  have a := a.ne'; have c := c.ne'; have d := d.ne'
  simp only [volA, volB, shG, Bool.false_eq_true, if_true, if_false]
  refine ⟨?_, ?_, ?_⟩ <;> field_simp <;> ring

theorem dir_inv (ps : Bool) (hE : E ≠ 0) (h0 : 0 ≤ nu) (h1 : nu < 1 / 2) :
    dirA E nu ps false * dirA E nu ps true + dirB E nu ps false * dirB E nu ps true = 1 ∧
    dirA E nu ps false * dirB E nu ps true + dirB E nu ps false * dirA E nu ps true = 0 := by
  obtain ⟨a, b, c, d, e⟩ := pos_facts h0 h1
  have a := a.ne'; have c := c.ne'; have e := e.ne'
  have e' : 1 - nu ^ 2 ≠ 0 := by rw [pow_two]; exact e
  cases ps <;> simp only [dirA, dirB, Bool.false_eq_true, if_true, if_false] <;>
  refine ⟨?_, ?_⟩ <;> field_simp <;> ring

/-- Main inverse lemma on `cmat`. -/
theorem cmat_inverse (nsd : Nat) (hn : nsd = 2 ∨ nsd = 3) (ps ax : Bool)
    (hE : E ≠ 0) (h0 : 0 ≤ nu) (h1 : nu < 1 / 2) :
    ∃ A B, cmat E nu nsd ps ax false = .ok A ∧ cmat E nu nsd ps ax true = .ok B ∧
      A.nr = nst nsd ax ∧ A.nc = nst nsd ax ∧ B.nr = nst nsd ax ∧ B.nc = nst nsd ax ∧
      A.toM (nst nsd ax) (nst nsd ax) * B.toM (nst nsd ax) (nst nsd ax) = 1 := by
  obtain ⟨p, q, r⟩ := vol_inv hE h0 h1
  rcases hn with rfl | rfl
  · cases ax
    · obtain ⟨A, hA, a1, a2, a3⟩ := cmat_2d E nu ps false
      obtain ⟨B, hB, b1, b2, b3⟩ := cmat_2d E nu ps true
      obtain ⟨p', q'⟩ := dir_inv ps hE h0 h1
      refine ⟨A, B, hA, hB, a1, a2, b1, b2, ?_⟩
      change A.toM 3 3 * B.toM 3 3 = 1
      rw [a3, b3]
      ext i j; fin_cases i <;> fin_cases j <;>
        simp [Matrix.mul_apply, Fin.sum_univ_succ] <;> linarith
    · obtain ⟨A, hA, a1, a2, a3⟩ := cmat_axi E nu ps false
      obtain ⟨B, hB, b1, b2, b3⟩ := cmat_axi E nu ps true
      refine ⟨A, B, hA, hB, a1, a2, b1, b2, ?_⟩
      change A.toM 4 4 * B.toM 4 4 = 1
      rw [a3, b3]
      ext i j; fin_cases i <;> fin_cases j <;>
        simp [Matrix.mul_apply, Fin.sum_univ_succ] <;> linarith
  · obtain ⟨A, hA, a1, a2, a3⟩ := cmat_3d E nu ps ax false
    obtain ⟨B, hB, b1, b2, b3⟩ := cmat_3d E nu ps ax true
    have hn : nst 3 ax = 6 := by cases ax <;> rfl
    refine ⟨A, B, hA, hB, a1.trans hn.symm, a2.trans hn.symm, b1.trans hn.symm,
      b2.trans hn.symm, ?_⟩
    rw [hn, a3, b3]
    ext i j; fin_cases i <;> fin_cases j <;>
      simp [Matrix.mul_apply, Fin.sum_univ_succ] <;> linarith

theorem vol_pos (hE : 0 < E) (h0 : 0 ≤ nu) (h1 : nu < 1 / 2) :
    0 < volA E nu false - volB E nu false ∧ 0 ≤ volB E nu false ∧ 0 < shG E nu false := by
  obtain ⟨a, b, c, d, e⟩ := pos_facts h0 h1
  simp only [volA, volB, shG, Bool.false_eq_true, if_false]
  have hf : 0 < E / ((1 + nu) * (1 - nu - nu)) := by positivity
  refine ⟨?_, by positivity, by positivity⟩
  rw [← mul_sub]; exact mul_pos hf c

theorem dir_pos (ps : Bool) (hE : 0 < E) (h0 : 0 ≤ nu) (h1 : nu < 1 / 2) :
    0 < dirA E nu ps false - dirB E nu ps false ∧ 0 ≤ dirB E nu ps false := by
  obtain ⟨a, b, c, d, e⟩ := pos_facts h0 h1
  have hf : 0 < E / ((1 + nu) * (1 - nu - nu)) := by positivity
  have hg : 0 < E / (1 - nu * nu) := by positivity
  cases ps <;> simp only [dirA, dirB, Bool.false_eq_true, if_true, if_false]
  · exact ⟨by rw [← mul_sub]; exact mul_pos hf c, by positivity⟩
  · exact ⟨by nlinarith, by positivity⟩

theorem sum_sq_pos {n : Nat} {x : Fin n → K} (hx : x ≠ 0) : 0 < ∑ i, x i * x i := by
  obtain ⟨i, hi⟩ := Function.ne_iff.mp hx
  have : 0 < x i * x i := mul_self_pos.mpr hi
  exact lt_of_lt_of_le this
    (Finset.single_le_sum (f := fun i => x i * x i) (fun j _ => mul_self_nonneg _)
      (Finset.mem_univ i))

theorem pd3 {d b g Q1 Q2 s : K} (p : 0 < d) (q : 0 ≤ b) (r : 0 < g) (h1 : 0 ≤ Q1) (h2 : 0 ≤ Q2)
    (hs : 0 ≤ s) (h : 0 < Q1 + Q2) : 0 < d * Q1 + b * s + g * Q2 := by
  have t4 := mul_nonneg q hs
  rcases eq_or_lt_of_le h1 with h' | h'
  · have : 0 < Q2 := by linarith
    have := mul_pos r this
    rw [← h']; linarith
  · have := mul_pos p h'
    have := mul_nonneg r.le h2
    linarith

/-- Symmetry and positive definiteness of `cmat`. -/
theorem cmat_posdef (nsd : Nat) (hn : nsd = 2 ∨ nsd = 3) (ps ax : Bool)
    (hE : 0 < E) (h0 : 0 ≤ nu) (h1 : nu < 1 / 2) :
    ∃ A, cmat E nu nsd ps ax false = .ok A ∧
      (A.toM (nst nsd ax) (nst nsd ax)).IsSymm ∧
      ∀ x : Fin (nst nsd ax) → K, x ≠ 0 →
        0 < x ⬝ᵥ (A.toM (nst nsd ax) (nst nsd ax)).mulVec x := by
  obtain ⟨p, q, r⟩ := vol_pos hE h0 h1
  rcases hn with rfl | rfl
  · cases ax
    · obtain ⟨A, hA, a1, a2, a3⟩ := cmat_2d E nu ps false
      obtain ⟨p', q'⟩ := dir_pos ps hE h0 h1
      refine ⟨A, hA, ?_⟩
      change (A.toM 3 3).IsSymm ∧ ∀ x : Fin 3 → K, x ≠ 0 → 0 < x ⬝ᵥ (A.toM 3 3).mulVec x
      rw [a3]
      constructor
      · ext i j; fin_cases i <;> fin_cases j <;> rfl
      · intro x hx
        have hs := sum_sq_pos hx
        have := pd3 p' q' r (Q1 := x 0 * x 0 + x 1 * x 1) (Q2 := x 2 * x 2)
          (add_nonneg (mul_self_nonneg _) (mul_self_nonneg _)) (mul_self_nonneg _)
          (mul_self_nonneg (x 0 + x 1)) (by simp [Fin.sum_univ_succ] at hs; linarith)
        simp [Matrix.mulVec, dotProduct, Fin.sum_univ_succ]
        linarith
    · obtain ⟨A, hA, a1, a2, a3⟩ := cmat_axi E nu ps false
      refine ⟨A, hA, ?_⟩
      change (A.toM 4 4).IsSymm ∧ ∀ x : Fin 4 → K, x ≠ 0 → 0 < x ⬝ᵥ (A.toM 4 4).mulVec x
      rw [a3]
      constructor
      · ext i j; fin_cases i <;> fin_cases j <;> rfl
      · intro x hx
        have hs := sum_sq_pos hx
        have := pd3 p q r (Q1 := x 0 * x 0 + x 1 * x 1 + x 2 * x 2) (Q2 := x 3 * x 3)
          (add_nonneg (add_nonneg (mul_self_nonneg _) (mul_self_nonneg _)) (mul_self_nonneg _))
          (mul_self_nonneg _)
          (mul_self_nonneg (x 0 + x 1 + x 2)) (by simp [Fin.sum_univ_succ] at hs; linarith)
        simp [Matrix.mulVec, dotProduct, Fin.sum_univ_succ]
        linarith
  · obtain ⟨A, hA, a1, a2, a3⟩ := cmat_3d E nu ps ax false
    have hn : nst 3 ax = 6 := by cases ax <;> rfl
    refine ⟨A, hA, ?_⟩
    rw [hn, a3]
    constructor
    · ext i j; fin_cases i <;> fin_cases j <;> rfl
    · intro x hx
      have hs := sum_sq_pos hx
      have := pd3 p q r (Q1 := x 0 * x 0 + x 1 * x 1 + x 2 * x 2)
        (Q2 := x 3 * x 3 + x 4 * x 4 + x 5 * x 5)
        (add_nonneg (add_nonneg (mul_self_nonneg _) (mul_self_nonneg _)) (mul_self_nonneg _))
        (add_nonneg (add_nonneg (mul_self_nonneg _) (mul_self_nonneg _)) (mul_self_nonneg _))
        (mul_self_nonneg (x 0 + x 1 + x 2)) (by simp [Fin.sum_univ_succ] at hs; linarith)
      simp [Matrix.mulVec, dotProduct, Fin.sum_univ_succ]
      linarith

/-- The matrix entries in terms of the Lamé parameters the code computes. -/
theorem vol_lame (h0 : 0 ≤ nu) (h1 : nu < 1 / 2) :
    let mu := 1 / 2 * E / (1 + nu)
    let lam := mu * nu / (1 / 2 - nu)
    volA E nu false = lam + 2 * mu ∧ volB E nu false = lam ∧ shG E nu false = mu ∧
    dirA E nu false false = lam + 2 * mu ∧ dirB E nu false false = lam ∧
    lam = nu * (2 * (lam + mu)) := by
  obtain ⟨a, b, c, d, e⟩ := pos_facts h0 h1
  have a := a.ne'; have c := c.ne'; have d := d.ne'
  have c2 : 1 / 2 - nu ≠ 0 := by intro h; apply c; linarith
  have c4 : 1 - 2 * nu ≠ 0 := by intro h; apply c; linarith
  have c3 : 1 - nu * 2 ≠ 0 := by intro h; apply c; linarith
  have d2 : 2 + nu + nu = 2 * (1 + nu) := by ring
  have k2 : (1 : K) / 2 - nu = (1 - nu - nu) / 2 := by ring
  simp only [volA, volB, shG, dirA, dirB, Bool.false_eq_true, if_false, d2, k2]
  refine ⟨?_, ?_, ?_, ?_, ?_, ?_⟩ <;> field_simp <;> ring

theorem ps_lame (h0 : 0 ≤ nu) (h1 : nu < 1 / 2) :
    let mu := 1 / 2 * E / (1 + nu)
    let lam := mu * nu / (1 / 2 - nu)
    let k := - nu / (1 - nu)
    (lam + 2 * mu) * k + lam = 0 ∧
    dirA E nu true false = lam + 2 * mu + lam * k ∧ dirB E nu true false = lam + lam * k := by
  obtain ⟨a, b, c, d, e⟩ := pos_facts h0 h1
  have a := a.ne'; have b := b.ne'; have c := c.ne'; have d := d.ne'; have e := e.ne'
  have k2 : (1 : K) / 2 - nu = (1 - nu - nu) / 2 := by ring
  have k3 : 1 - nu * nu = (1 - nu) * (1 + nu) := by ring
  simp only [dirA, dirB, if_true, Bool.false_eq_true, if_false, k2, k3]
  refine ⟨?_, ?_, ?_⟩ <;> field_simp <;> ring

end inv

end Verif.LinIso
