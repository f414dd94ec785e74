/-
Properties C01–C04, C63, C64: the isotropic linear elastic material.
-/
import Verif.Proofs.LinIsotropic

set_option linter.unusedSectionVars false

namespace Verif.LinIso

open Verif.Spec

variable {K : Type*} [Field K] [LinearOrder K] [IsStrictOrderedRing K]

/-- Specification: Young's modulus and Poisson's ratio in effect at a point. -/
def nuAt (m : Mat K) (X : Pt K) : K :=
  match m.nuFunc with
  | some f => f X
  | none => m.nu

/-- Specification: the material data are admissible at a point. -/
def Admissible (m : Mat K) (X : Pt K) : Prop := 0 ≤ nuAt m X ∧ nuAt m X < 1 / 2

omit [LinearOrder K] [IsStrictOrderedRing K] [Field K] in
theorem updNu_nu (m : Mat K) (X : Pt K) : (m.updNu X).nu = nuAt m X := by
  unfold Mat.updNu nuAt; cases m.nuFunc <;> rfl

theorem evaluate_eq (m : Mat K) (nsd sz : Nat) (hn : nsd = 2 ∨ nsd = 3) (fe : FE K) (X : Pt K)
    (eps : Nat → K) (iop : Int) (h : Admissible m X) {C : DMat K}
    (hC : cmat (m.young fe X) (nuAt m X) nsd m.planeStress m.axiSymmetry (decide (iop < 0))
      = .ok C) : ∃ o, (evaluate m nsd sz fe X eps iop).2 = .ok o ∧ o.C = C ∧
      (iop > 0 → o.sig = some
        (let s0 := assignSig nsd (nst nsd m.axiSymmetry) sz (mulVec C eps)
         if m.planeStress = false ∧ m.axiSymmetry = false ∧ nsd = 2 ∧ sz = 4
         then fun i => if i = 3 then nuAt m X * (s0 1 + s0 2) else s0 i
         else s0)) ∧
      (iop = 3 → ∀ s, o.sig = some s →
        o.U = some (1 / 2 * innerProd nsd (nst nsd m.axiSymmetry) sz s eps)) := by
  have hn1 : nsd ≠ 1 := by rcases hn with rfl | rfl <;> decide
  have h' : ¬ (nuAt m X < 0 ∨ nuAt m X ≥ 1 / 2) := by
    rcases h with ⟨h0, h1⟩; push Not; exact ⟨h0, h1⟩
  unfold evaluate
  simp only [if_neg hn1, updNu_nu, if_neg h', hC, Res.ok_bind, Res.pure_eq]
  by_cases hi : iop > 0
  · simp only [if_pos hi]
    refine ⟨_, rfl, rfl, fun _ => rfl, ?_⟩
    intro h3 s hs
    simp only [h3, if_true]
    simp only [Option.some.injEq] at hs
    rw [hs]
  · simp only [if_neg hi]
    exact ⟨_, rfl, rfl, fun h => absurd h hi, fun h => by omega⟩

/-- **C01.** In every dimension and plane state, the constitutive matrix (`iop ≥ 0`) and the
compliance matrix (`iop < 0`) returned for the same admissible material at the same point are
mutually inverse square matrices of the same size. -/
theorem C01_inverse (m : Mat K) (nsd sz : Nat) (hn : nsd = 1 ∨ nsd = 2 ∨ nsd = 3) (fe : FE K)
    (X : Pt K) (eps eps' : Nat → K) (iop jop : Int) (hi : 0 ≤ iop) (hj : jop < 0)
    (hE : m.young fe X ≠ 0) (hnu : Admissible m X) :
    ∃ A B n, (evaluate m nsd sz fe X eps iop).2 = .ok A ∧
      (evaluate m nsd sz fe X eps' jop).2 = .ok B ∧
      A.C.nr = n ∧ A.C.nc = n ∧ B.C.nr = n ∧ B.C.nc = n ∧ 0 < n ∧
      A.C.toM n n * B.C.toM n n = 1 ∧ B.C.toM n n * A.C.toM n n = 1 := by
  by_cases h1 : nsd = 1
  · subst h1
    have hj' : ¬ (jop > 0) := by omega
    have hi' : ¬ (iop < 0) := by omega
    have e1 : ∃ A, (evaluate m 1 sz fe X eps iop).2 = .ok A ∧ A.C.nr = 1 ∧ A.C.nc = 1 ∧
        A.C.toM 1 1 = !![m.young fe X] := by
      simp only [evaluate, if_true, DMat.set, DMat.zero, if_neg hi']
      simp only [le_refl, and_self, if_true, Res.ok_bind, Res.pure_eq]
      by_cases h : iop > 0
      · rw [if_pos h]
        refine ⟨_, rfl, rfl, rfl, ?_⟩
        ext i j; fin_cases i; fin_cases j; rfl
      · rw [if_neg h]
        refine ⟨_, rfl, rfl, rfl, ?_⟩
        ext i j; fin_cases i; fin_cases j; rfl
    have e2 : ∃ A, (evaluate m 1 sz fe X eps' jop).2 = .ok A ∧ A.C.nr = 1 ∧ A.C.nc = 1 ∧
        A.C.toM 1 1 = !![1 / m.young fe X] := by
      simp only [evaluate, if_true, DMat.set, DMat.zero, if_pos hj]
      simp only [le_refl, and_self, if_true, Res.ok_bind, Res.pure_eq, if_neg hj']
      refine ⟨_, rfl, rfl, rfl, ?_⟩
      ext i j; fin_cases i; fin_cases j; rfl
    obtain ⟨A, hA, a1, a2, a3⟩ := e1
    obtain ⟨B, hB, b1, b2, b3⟩ := e2
    refine ⟨A, B, 1, hA, hB, a1, a2, b1, b2, one_pos, ?_, ?_⟩ <;> rw [a3, b3] <;>
      (ext i j; fin_cases i; fin_cases j
       simp [Matrix.mul_apply, hE])
  · have hn' : nsd = 2 ∨ nsd = 3 := by omega
    obtain ⟨A, B, hA, hB, a1, a2, b1, b2, hAB⟩ :=
      cmat_inverse nsd hn' m.planeStress m.axiSymmetry hE hnu.1 hnu.2
    have di : decide (iop < 0) = false := by simp; omega
    have dj : decide (jop < 0) = true := by simp; omega
    obtain ⟨oA, hoA, cA, -⟩ := evaluate_eq m nsd sz hn' fe X eps iop hnu (C := A) (by rw [di, hA])
    obtain ⟨oB, hoB, cB, -⟩ := evaluate_eq m nsd sz hn' fe X eps' jop hnu (C := B) (by rw [dj, hB])
    refine ⟨oA, oB, nst nsd m.axiSymmetry, hoA, hoB, by rw [cA, a1], by rw [cA, a2],
      by rw [cB, b1], by rw [cB, b2], ?_, by rw [cA, cB, hAB], ?_⟩
    · rcases hn' with rfl | rfl <;> cases m.axiSymmetry <;> decide
    · rw [cA, cB]; exact mul_eq_one_comm.mp hAB

example : ∃ m : Mat ℚ, m.young ⟨0, 0, 0⟩ ⟨0, 0, 0⟩ ≠ 0 ∧ Admissible m ⟨0, 0, 0⟩ ∧
    0 < nuAt m ⟨0, 0, 0⟩ :=
  ⟨{ Emod := 205, nu := 3 / 10 }, by norm_num [Mat.young], by norm_num [Admissible, nuAt],
    by norm_num [nuAt]⟩

/-- **C02.** For a positive Young's modulus and an admissible Poisson's ratio the constitutive
matrix is symmetric and positive definite, in every dimension and plane state; and so is the
compliance matrix. -/
theorem C02_posdef (m : Mat K) (nsd sz : Nat) (hn : nsd = 1 ∨ nsd = 2 ∨ nsd = 3) (fe : FE K)
    (X : Pt K) (eps : Nat → K) (iop : Int)
    (hE : 0 < m.young fe X) (hnu : Admissible m X) :
    ∃ A n, (evaluate m nsd sz fe X eps iop).2 = .ok A ∧ A.C.nr = n ∧ A.C.nc = n ∧ 0 < n ∧
      (A.C.toM n n).IsSymm ∧ ∀ x : Fin n → K, x ≠ 0 → 0 < x ⬝ᵥ (A.C.toM n n).mulVec x := by
  -- positive direction first
  have main : ∀ jop : Int, 0 ≤ jop →
      ∃ A n, (evaluate m nsd sz fe X eps jop).2 = .ok A ∧ A.C.nr = n ∧ A.C.nc = n ∧ 0 < n ∧
      (A.C.toM n n).IsSymm ∧ ∀ x : Fin n → K, x ≠ 0 → 0 < x ⬝ᵥ (A.C.toM n n).mulVec x := by
    intro jop hj
    obtain ⟨A, B, n, hA, -, a1, a2, -, -, hp, -, -⟩ :=
      C01_inverse m nsd sz hn fe X eps eps jop (-1) hj (by decide) hE.ne' hnu
    refine ⟨A, n, hA, a1, a2, hp, ?_⟩
    by_cases h1 : nsd = 1
    · subst h1
      have hi' : ¬ (jop < 0) := by omega
      have hAC : A.C = ⟨1, 1, fun a b => if a = 1 ∧ b = 1 then m.young fe X else 0⟩ := by
        simp only [evaluate, if_true, DMat.set, DMat.zero, if_neg hi'] at hA
        simp only [le_refl, and_self, if_true, Res.ok_bind, Res.pure_eq] at hA
        split at hA <;> (simp only [Res.ok.injEq] at hA; rw [← hA])
      have hn1 : n = 1 := by rw [← a1, hAC]
      subst hn1
      rw [hAC]
      refine ⟨by ext i j; fin_cases i; fin_cases j; rfl, fun x hx => ?_⟩
      have := sum_sq_pos hx
      simp [Matrix.mulVec, dotProduct, DMat.toM] at this ⊢
      have := mul_pos hE (lt_of_le_of_ne (mul_self_nonneg (x 0))
        (fun h => this (by simpa using h.symm)))
      linarith
    · have hn' : nsd = 2 ∨ nsd = 3 := by omega
      obtain ⟨C, hC, s, p⟩ := cmat_posdef nsd hn' m.planeStress m.axiSymmetry hE hnu.1 hnu.2
      have di : decide (jop < 0) = false := by simp; omega
      obtain ⟨o, ho, oc, -⟩ := evaluate_eq m nsd sz hn' fe X eps jop hnu (C := C) (by rw [di, hC])
      have : o = A := by rw [ho] at hA; simpa using hA
      subst this
      obtain ⟨C', -, hC', -, c1, -⟩ :=
        cmat_inverse nsd hn' m.planeStress m.axiSymmetry hE.ne' hnu.1 hnu.2
      have hCC : C' = C := by rw [hC] at hC'; simpa using hC'.symm
      have : n = nst nsd m.axiSymmetry := by rw [← a1, oc, ← hCC, c1]
      subst this
      rw [oc]
      exact ⟨s, p⟩
  by_cases hi : 0 ≤ iop
  · exact main iop hi
  · obtain ⟨A, n, hA, a1, a2, hp, s, p⟩ := main 0 le_rfl
    obtain ⟨A', B, n', hA', hB, a1', a2', b1, b2, -, hAB, hBA⟩ :=
      C01_inverse m nsd sz hn fe X eps eps 0 iop le_rfl (by omega) hE.ne' hnu
    have : A' = A := by rw [hA] at hA'; simpa using hA'.symm
    subst this
    have : n' = n := by rw [← a1, ← a1']
    subst this
    refine ⟨B, n', hB, b1, b2, hp, ?_, fun x hx => ?_⟩
    · -- inverse of a symmetric matrix
      have h1 : (B.C.toM n' n').transpose * A'.C.toM n' n' = 1 := by
        have := congrArg Matrix.transpose hAB
        rw [Matrix.transpose_mul, Matrix.transpose_one, s.eq] at this
        exact this
      have h2 : (B.C.toM n' n').transpose = B.C.toM n' n' :=
        calc (B.C.toM n' n').transpose
            = (B.C.toM n' n').transpose * (A'.C.toM n' n' * B.C.toM n' n') := by rw [hAB, mul_one]
          _ = B.C.toM n' n' := by rw [← mul_assoc, h1, one_mul]
      exact h2
    · have hx' : x = (A'.C.toM n' n').mulVec ((B.C.toM n' n').mulVec x) := by
        rw [Matrix.mulVec_mulVec, hAB, Matrix.one_mulVec]
      have hy : (B.C.toM n' n').mulVec x ≠ 0 := by
        intro h0
        rw [h0, Matrix.mulVec_zero] at hx'
        exact hx hx'
      have := p _ hy
      rw [← hx'] at this
      rwa [dotProduct_comm] at this

example : ∃ m : Mat ℚ, 0 < m.young ⟨0, 0, 0⟩ ⟨0, 0, 0⟩ ∧ Admissible m ⟨0, 0, 0⟩ ∧
    m.axiSymmetry = true :=
  ⟨{ Emod := 205, nu := 3 / 10, axiSymmetry := true }, by norm_num [Mat.young],
    by norm_num [Admissible, nuAt], rfl⟩

/-- **C03.** In two and three dimensions `evaluate` fails exactly when Poisson's ratio is outside
`[0,1/2)`, whatever the other arguments; in one dimension it always succeeds; and it never runs
into an out-of-range matrix access. The Lamé evaluation fails in exactly the same cases. -/
theorem C03_rejects (m : Mat K) (nsd sz : Nat) (hn : nsd = 1 ∨ nsd = 2 ∨ nsd = 3) (fe : FE K)
    (X : Pt K) (eps : Nat → K) (iop : Int) :
    ((evaluate m nsd sz fe X eps iop).2 = .fail ↔ nsd ≠ 1 ∧ ¬ (0 ≤ nuAt m X ∧ nuAt m X < 1 / 2)) ∧
    (evaluate m nsd sz fe X eps iop).2.isUB = false ∧
    ((lame m fe X).2 = .fail ↔ ¬ (0 ≤ nuAt m X ∧ nuAt m X < 1 / 2)) := by
  have h' : (nuAt m X < 0 ∨ nuAt m X ≥ 1 / 2) ↔ ¬ (0 ≤ nuAt m X ∧ nuAt m X < 1 / 2) := by
    constructor
    · rintro (h | h) ⟨a, b⟩
      · exact absurd h (not_lt.mpr a)
      · exact absurd b (not_lt.mpr h)
    · intro h
      by_contra h2
      push Not at h2
      exact h h2
  have hl : (lame m fe X).2 = .fail ↔ ¬ (0 ≤ nuAt m X ∧ nuAt m X < 1 / 2) := by
    unfold lame
    simp only [updNu_nu]
    by_cases h : nuAt m X < 0 ∨ nuAt m X ≥ 1 / 2
    · simp only [if_pos h]; exact iff_of_true trivial (h'.mp h)
    · simp only [if_neg h]; exact iff_of_false (by simp) (fun h2 => h (h'.mpr h2))
  by_cases h1 : nsd = 1
  · subst h1
    have : ∃ o, (evaluate m 1 sz fe X eps iop).2 = .ok o := by
      simp only [evaluate, if_true, DMat.set, DMat.zero]
      simp only [le_refl, and_self, if_true, Res.ok_bind, Res.pure_eq]
      split <;> exact ⟨_, rfl⟩
    obtain ⟨o, ho⟩ := this
    rw [ho]; exact ⟨by simp, rfl, hl⟩
  · have hn' : nsd = 2 ∨ nsd = 3 := by omega
    by_cases h : nuAt m X < 0 ∨ nuAt m X ≥ 1 / 2
    · have : (evaluate m nsd sz fe X eps iop).2 = .fail := by
        unfold evaluate
        simp only [if_neg h1, updNu_nu, if_pos h]
      rw [this]
      exact ⟨iff_of_true rfl ⟨h1, h'.mp h⟩, rfl, hl⟩
    · have ha : Admissible m X := not_not.mp (fun h2 => h (h'.mpr h2))
      have : ∃ C, cmat (m.young fe X) (nuAt m X) nsd m.planeStress m.axiSymmetry
          (decide (iop < 0)) = .ok C := by
        rcases hn' with rfl | rfl
        · cases m.axiSymmetry
          · exact (cmat_2d _ _ _ _).imp fun _ h => h.1
          · exact (cmat_axi _ _ _ _).imp fun _ h => h.1
        · exact (cmat_3d _ _ _ _ _).imp fun _ h => h.1
      obtain ⟨C, hC⟩ := this
      obtain ⟨o, ho, -⟩ := evaluate_eq m nsd sz hn' fe X eps iop ha hC
      rw [ho]
      have ha' : 0 ≤ nuAt m X ∧ nuAt m X < 1 / 2 := ha
      exact ⟨iff_of_false (by simp) (fun hh => hh.2 ha'), rfl, hl⟩

/-- **C03 (divisors).** For admissible data none of the divisors in the evaluation is zero. -/
theorem C03_no_zero_divisor (m : Mat K) (X : Pt K) (hnu : Admissible m X) (E : K) (hE : E ≠ 0) :
    let nu := nuAt m X
    1 - nu * nu ≠ 0 ∧ (1 + nu) * (1 - nu - nu) ≠ 0 ∧ 2 + nu + nu ≠ 0 ∧ E / (2 + nu + nu) ≠ 0 ∧
      1 + nu ≠ 0 ∧ 1 / 2 - nu ≠ 0 := by
  obtain ⟨a, b, c, d, e⟩ := pos_facts hnu.1 hnu.2
  refine ⟨e.ne', (mul_pos a c).ne', d.ne', div_ne_zero hE d.ne', a.ne', ?_⟩
  have := hnu.2
  intro h
  linarith

example : Admissible ({ Emod := 1, nu := 0, nuFunc := some fun X => X.x } : Mat ℚ) ⟨1 / 4, 0, 0⟩ ∧
    ¬ Admissible ({ Emod := 1, nu := 0, nuFunc := some fun X => X.x } : Mat ℚ) ⟨1 / 2, 0, 0⟩ := by
  constructor <;> norm_num [Admissible, nuAt]

/-- The Voigt stresses returned by an evaluation. -/
def sigOf (r : Mat K × Res (Out K)) : Option (Nat → K) :=
  match r.2 with
  | .ok o => o.sig
  | _ => none

omit [IsStrictOrderedRing K] in
theorem lame_eq (m : Mat K) (fe : FE K) (X : Pt K) (h : Admissible m X) :
    (lame m fe X).2 = .ok (1 / 2 * m.young fe X / (1 + nuAt m X) * nuAt m X / (1 / 2 - nuAt m X),
      1 / 2 * m.young fe X / (1 + nuAt m X)) := by
  have h' : ¬ (nuAt m X < 0 ∨ nuAt m X ≥ 1 / 2) := by
    rcases h with ⟨h0, h1⟩; push Not; exact ⟨h0, h1⟩
  unfold lame
  simp only [updNu_nu, if_neg h']

/-- **C04, three dimensions.** The stress equals `λ tr(ε) I + 2 μ ε` with the Lamé parameters the
same material reports at the same point. -/
theorem C04_hooke_3d (m : Mat K) (fe : FE K) (X : Pt K) (sz : Nat) (eps : Nat → K) (iop : Int)
    (hi : 0 < iop) (hnu : Admissible m X) :
    ∃ lam mu s, (lame m fe X).2 = .ok (lam, mu) ∧
      sigOf (evaluate m 3 sz fe X eps iop) = some s ∧
      stress (s 1) (s 2) (s 3) (s 4) (s 5) (s 6) =
        hooke lam mu (strain (eps 1) (eps 2) (eps 3) (eps 4) (eps 5) (eps 6)) := by
  obtain ⟨C, hC, -, c2, c3⟩ := cmat_3d (m.young fe X) (nuAt m X) m.planeStress m.axiSymmetry false
  have di : decide (iop < 0) = false := by simp; omega
  obtain ⟨o, ho, -, hs, -⟩ := evaluate_eq m 3 sz (Or.inr rfl) fe X eps iop hnu (C := C)
    (by rw [di, hC])
  have hn : nst 3 m.axiSymmetry = 6 := by cases m.axiSymmetry <;> rfl
  have hs' : o.sig = some (mulVec C eps) := by
    rw [hs hi, hn]; simp [assignSig]
  refine ⟨_, _, mulVec C eps, lame_eq m fe X hnu, by simp only [sigOf, ho, hs'], ?_⟩
  obtain ⟨q1, q2, q3, -, -, -⟩ := vol_lame (E := m.young fe X) hnu.1 hnu.2
  have g := fun i : Fin 6 => mulVec_eq C eps 6 6 c2 i
  rw [c3, q1, q2, q3] at g
  have g1 : mulVec C eps 1 = _ := g 0
  have g2 : mulVec C eps 2 = _ := g 1
  have g3 : mulVec C eps 3 = _ := g 2
  have g4 : mulVec C eps 4 = _ := g 3
  have g5 : mulVec C eps 5 = _ := g 4
  have g6 : mulVec C eps 6 = _ := g 5
  generalize 1 / 2 * m.young fe X / (1 + nuAt m X) = mu at *
  generalize mu * nuAt m X / (1 / 2 - nuAt m X) = lam at *
  rw [g1, g2, g3, g4, g5, g6]
  ext i j; fin_cases i <;> fin_cases j <;>
    simp [stress, hooke, strain, Matrix.trace, Fin.sum_univ_succ, Matrix.mulVec, dotProduct] <;>
    ring

/-- **C04, axisymmetry** (Voigt order rr, zz, θθ, rz): the stress is Hooke's law for the strain
tensor with hoop strain in the third direction. -/
theorem C04_hooke_axi (m : Mat K) (fe : FE K) (X : Pt K) (sz : Nat) (eps : Nat → K) (iop : Int)
    (hi : 0 < iop) (hnu : Admissible m X) (hax : m.axiSymmetry = true) :
    ∃ lam mu s, (lame m fe X).2 = .ok (lam, mu) ∧
      sigOf (evaluate m 2 sz fe X eps iop) = some s ∧
      stress (s 1) (s 2) (s 3) (s 4) 0 0 =
        hooke lam mu (strain (eps 1) (eps 2) (eps 3) (eps 4) 0 0) := by
  obtain ⟨C, hC, -, c2, c3⟩ := cmat_axi (m.young fe X) (nuAt m X) m.planeStress false
  have di : decide (iop < 0) = false := by simp; omega
  obtain ⟨o, ho, -, hs, -⟩ := evaluate_eq m 2 sz (Or.inl rfl) fe X eps iop hnu (C := C)
    (by rw [di, hax, hC])
  have hs' : o.sig = some (mulVec C eps) := by
    rw [hs hi, hax]; simp [assignSig, nst]
  refine ⟨_, _, mulVec C eps, lame_eq m fe X hnu, by simp only [sigOf, ho, hs'], ?_⟩
  obtain ⟨q1, q2, q3, -, -, -⟩ := vol_lame (E := m.young fe X) hnu.1 hnu.2
  have g := fun i : Fin 4 => mulVec_eq C eps 4 4 c2 i
  rw [c3, q1, q2, q3] at g
  have g1 : mulVec C eps 1 = _ := g 0
  have g2 : mulVec C eps 2 = _ := g 1
  have g3 : mulVec C eps 3 = _ := g 2
  have g4 : mulVec C eps 4 = _ := g 3
  generalize 1 / 2 * m.young fe X / (1 + nuAt m X) = mu at *
  generalize mu * nuAt m X / (1 / 2 - nuAt m X) = lam at *
  rw [g1, g2, g3, g4]
  ext i j; fin_cases i <;> fin_cases j <;>
    simp [stress, hooke, strain, Matrix.trace, Fin.sum_univ_succ, Matrix.mulVec, dotProduct] <;>
    ring

/-- **C04, plane strain.** With a four-component stress tensor (as used by the integrands for plane
strain) the stress, including its out-of-plane component, is Hooke's law for the strain tensor
with zero out-of-plane components. -/
theorem C04_hooke_plane_strain (m : Mat K) (fe : FE K) (X : Pt K) (eps : Nat → K) (iop : Int)
    (hi : 0 < iop) (hnu : Admissible m X) (hax : m.axiSymmetry = false)
    (hps : m.planeStress = false) :
    ∃ lam mu s, (lame m fe X).2 = .ok (lam, mu) ∧
      sigOf (evaluate m 2 4 fe X eps iop) = some s ∧
      stress (s 1) (s 2) (s 3) (s 4) 0 0 =
        hooke lam mu (strain (eps 1) (eps 2) 0 (eps 3) 0 0) := by
  obtain ⟨C, hC, -, c2, c3⟩ := cmat_2d (m.young fe X) (nuAt m X) m.planeStress false
  have di : decide (iop < 0) = false := by simp; omega
  obtain ⟨o, ho, -, hs, -⟩ := evaluate_eq m 2 4 (Or.inl rfl) fe X eps iop hnu (C := C)
    (by rw [di, hax, hC])
  have hs' := hs hi
  refine ⟨_, _, _, lame_eq m fe X hnu, by simp only [sigOf, ho]; exact hs', ?_⟩
  obtain ⟨-, -, q3, q4, q5, q6⟩ := vol_lame (E := m.young fe X) hnu.1 hnu.2
  have g := fun i : Fin 3 => mulVec_eq C eps 3 3 c2 i
  rw [c3, hps, q3, q4, q5] at g
  have g1 : mulVec C eps 1 = _ := g 0
  have g2 : mulVec C eps 2 = _ := g 1
  have g3 : mulVec C eps 3 = _ := g 2
  simp only [hps, hax, assignSig, nst]
  generalize 1 / 2 * m.young fe X / (1 + nuAt m X) = mu at *
  generalize mu * nuAt m X / (1 / 2 - nuAt m X) = lam at *
  generalize nuAt m X = nu at *
  ext i j; fin_cases i <;> fin_cases j <;>
    simp [stress, hooke, strain, Matrix.trace, Fin.sum_univ_succ, Matrix.mulVec, dotProduct,
      g1, g2, g3] <;>
    first | ring1 | linear_combination (-(eps 1 + eps 2)) * q6

/-- **C04, plane stress.** There is exactly one out-of-plane strain for which Hooke's law gives zero
out-of-plane stress, and the in-plane stresses the code returns are those of that state. -/
theorem C04_hooke_plane_stress (m : Mat K) (fe : FE K) (X : Pt K) (sz : Nat) (hsz : sz = 3)
    (eps : Nat → K) (iop : Int) (hE : m.young fe X ≠ 0)
    (hi : 0 < iop) (hnu : Admissible m X) (hax : m.axiSymmetry = false)
    (hps : m.planeStress = true) :
    ∃ lam mu s, (lame m fe X).2 = .ok (lam, mu) ∧
      sigOf (evaluate m 2 sz fe X eps iop) = some s ∧
      ∃ ezz, stress (s 1) (s 2) 0 (s 3) 0 0 =
        hooke lam mu (strain (eps 1) (eps 2) ezz (eps 3) 0 0) ∧
        ∀ e', hooke lam mu (strain (eps 1) (eps 2) e' (eps 3) 0 0) 2 2 = 0 → e' = ezz := by
  subst hsz
  obtain ⟨C, hC, -, c2, c3⟩ := cmat_2d (m.young fe X) (nuAt m X) m.planeStress false
  have di : decide (iop < 0) = false := by simp; omega
  obtain ⟨o, ho, -, hs, -⟩ := evaluate_eq m 2 3 (Or.inl rfl) fe X eps iop hnu (C := C)
    (by rw [di, hax, hC])
  have hs' : o.sig = some (mulVec C eps) := by
    rw [hs hi, hax]; simp [assignSig, nst]
  refine ⟨_, _, mulVec C eps, lame_eq m fe X hnu, by simp only [sigOf, ho, hs'],
    - nuAt m X / (1 - nuAt m X) * (eps 1 + eps 2), ?_⟩
  obtain ⟨-, -, q3, -, -, q6⟩ := vol_lame (E := m.young fe X) hnu.1 hnu.2
  obtain ⟨r1, r2, r3⟩ := ps_lame (E := m.young fe X) hnu.1 hnu.2
  have hpos : 1 / 2 * m.young fe X / (1 + nuAt m X) * nuAt m X / (1 / 2 - nuAt m X)
      + 2 * (1 / 2 * m.young fe X / (1 + nuAt m X)) ≠ 0 := by
    obtain ⟨a, b, c, d, e⟩ := pos_facts hnu.1 hnu.2
    have hf := vol_lame (E := m.young fe X) hnu.1 hnu.2
    rw [← hf.1]
    simp only [volA, Bool.false_eq_true, if_false]
    exact mul_ne_zero (div_ne_zero hE (mul_pos a c).ne') b.ne'
  have g := fun i : Fin 3 => mulVec_eq C eps 3 3 c2 i
  rw [c3, hps, q3, r2, r3] at g
  have g1 : mulVec C eps 1 = _ := g 0
  have g2 : mulVec C eps 2 = _ := g 1
  have g3 : mulVec C eps 3 = _ := g 2
  generalize 1 / 2 * m.young fe X / (1 + nuAt m X) = mu at *
  generalize mu * nuAt m X / (1 / 2 - nuAt m X) = lam at *
  generalize - nuAt m X / (1 - nuAt m X) = k at *
  constructor
  · rw [g1, g2, g3]
    ext i j; fin_cases i <;> fin_cases j <;>
      simp [stress, hooke, strain, Matrix.trace, Fin.sum_univ_succ, Matrix.mulVec, dotProduct] <;>
      first | ring1 | linear_combination (-(eps 1 + eps 2)) * r1
  · intro e' he
    simp [hooke, strain, Matrix.trace, Fin.sum_univ_succ] at he
    have : (lam + 2 * mu) * (e' - k * (eps 1 + eps 2)) = 0 := by
      linear_combination he - (eps 1 + eps 2) * r1
    rcases mul_eq_zero.mp this with h | h
    · exact absurd h hpos
    · linarith

example : ∃ m : Mat ℚ, m.young ⟨0, 0, 0⟩ ⟨0, 0, 0⟩ ≠ 0 ∧ Admissible m ⟨0, 0, 0⟩ ∧
    m.axiSymmetry = false ∧ m.planeStress = true :=
  ⟨{ Emod := 205, nu := 3 / 10, planeStress := true }, by norm_num [Mat.young],
    by norm_num [Admissible, nuAt], rfl, rfl⟩

/-- **C02 (energy).** With `iop = 3` the reported strain energy density is one half of the
contraction of stress and strain; it is positive for every non-zero strain (3D case). -/
theorem C02_energy_3d (m : Mat K) (fe : FE K) (X : Pt K) (sz : Nat) (eps : Nat → K)
    (hE : 0 < m.young fe X) (hnu : Admissible m X) :
    ∃ o s U, (evaluate m 3 sz fe X eps 3).2 = .ok o ∧ o.sig = some s ∧ o.U = some U ∧
      U = 1 / 2 * ddot (stress (s 1) (s 2) (s 3) (s 4) (s 5) (s 6))
        (strain (eps 1) (eps 2) (eps 3) (eps 4) (eps 5) (eps 6)) ∧
      ((∃ i, 1 ≤ i ∧ i ≤ 6 ∧ eps i ≠ 0) → 0 < U) := by
  obtain ⟨C, hC, -, c2, c3⟩ := cmat_3d (m.young fe X) (nuAt m X) m.planeStress m.axiSymmetry false
  obtain ⟨C', hC', -, pd⟩ := cmat_posdef 3 (Or.inr rfl) m.planeStress m.axiSymmetry hE hnu.1 hnu.2
  have hCC : C' = C := by rw [hC] at hC'; simpa using hC'.symm
  subst hCC
  have hn : nst 3 m.axiSymmetry = 6 := by cases m.axiSymmetry <;> rfl
  obtain ⟨o, ho, -, hs, hU⟩ := evaluate_eq m 3 sz (Or.inr rfl) fe X eps 3 hnu (C := C')
    (by simpa using hC)
  have hs' : o.sig = some (mulVec C' eps) := by
    rw [hs (by decide), hn]; simp [assignSig]
  have hU' := hU rfl _ hs'
  rw [hn] at hU' pd
  refine ⟨o, _, _, ho, hs', hU', ?_, ?_⟩
  · simp [innerProd, ddot, stress, strain, Finset.sum_range_succ, Fin.sum_univ_succ]; ring
  · rintro ⟨i, h1, h2, h3⟩
    have := pd (fun j => eps (j.val + 1)) (by
      intro h0
      have := congrFun h0 ⟨i - 1, by omega⟩
      simp only [Pi.zero_apply] at this
      rw [Nat.sub_add_cancel h1] at this
      exact h3 this)
    have e : innerProd 3 6 sz (mulVec C' eps) eps
        = (fun j : Fin 6 => eps (j.val + 1)) ⬝ᵥ (C'.toM 6 6).mulVec (fun j => eps (j.val + 1)) := by
      simp only [innerProd, Nat.reduceEqDiff, false_and, if_false, Finset.sum_range, dotProduct]
      refine Finset.sum_congr rfl fun j _ => ?_
      rw [mulVec_eq C' eps 6 6 c2 j, mul_comm]
    rw [e]
    exact mul_pos (by norm_num) this

/-- **C63.** Evaluating the material at one point does not influence any later evaluation, although
the evaluation overwrites the stored Poisson's ratio when it is given as a function. -/
theorem C63_no_memory (m : Mat K) (calls : List (Nat × Nat × FE K × Pt K × (Nat → K) × Int))
    (nsd sz : Nat) (fe : FE K) (X : Pt K) (eps : Nat → K) (iop : Int) :
    (evaluate (calls.foldl (fun m c =>
        (evaluate m c.1 c.2.1 c.2.2.1 c.2.2.2.1 c.2.2.2.2.1 c.2.2.2.2.2).1) m)
      nsd sz fe X eps iop).2 = (evaluate m nsd sz fe X eps iop).2 := by
  induction calls generalizing m with
  | nil => rfl
  | cons c cs ih =>
    rw [List.foldl_cons, ih]
    have h1 : (evaluate m c.1 c.2.1 c.2.2.1 c.2.2.2.1 c.2.2.2.2.1 c.2.2.2.2.2).1
        = m.updNu c.2.2.2.1 := by
      unfold evaluate; simp only []; split_ifs <;> rfl
    rw [h1]
    unfold Mat.updNu
    cases hnf : m.nuFunc with
    | none => simp
    | some f => simp [evaluate, Mat.updNu, Mat.young, hnf]

/-- **C64 violated.** A Young's modulus given as a spatial *field* is used by the constitutive
evaluation, but `getStiffness` (and hence the plate stiffness) ignores it. -/
theorem C64_field_ignored_violated :
    ∃ (m : Mat ℚ) (fe : FE ℚ) (X : Pt ℚ), m.young fe X ≠ getStiffness m X fe.age :=
  ⟨{ Efield := some fun _ => 2, Emod := 1, nu := 0 }, ⟨0, 0, 0⟩, ⟨0, 0, 0⟩, by
    norm_num [Mat.young, getStiffness]⟩

/-- **C64, partial** (missing: stiffness given as a field). Without a field, the stiffness reported by
`getStiffness` is the one used by the constitutive evaluation, and the plate stiffness is
`E t³ / (12 (1 - ν²))`. -/
theorem C64_stiffness_partial (m : Mat K) (fe : FE K) (X : Pt K) (t : K) (h : m.Efield = none) :
    getStiffness m X fe.age = m.young fe X ∧
    getPlateStiffness m X t fe.age = m.young fe X * t ^ 3 / (12 * (1 - nuAt m X ^ 2)) := by
  have : getStiffness m X fe.age = m.young fe X := by
    simp only [getStiffness, Mat.young, h]
  refine ⟨this, ?_⟩
  unfold getPlateStiffness nuAt
  rw [this]
  cases m.nuFunc <;> (simp only []; congr 1 <;> ring)

end Verif.LinIso
