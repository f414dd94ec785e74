/-
C47, C77, C78, C79: Kirchhoff-Love plates.
-/
import Verif.Model.Plate
import Verif.Proofs.Assign
import Verif.Proofs.Clamped
import Verif.Props.LinIsotropic
import Mathlib.Analysis.Calculus.Deriv.Mul
import Mathlib.Analysis.Calculus.Deriv.Add
import Mathlib.Analysis.Calculus.Deriv.Pow
import Mathlib.Tactic.FinCases
import Mathlib.Tactic.IntervalCases
import Mathlib.Tactic.FieldSimp
import Mathlib.Tactic.Linarith
import Mathlib.Tactic.LinearCombination
import Mathlib.Tactic.Positivity

set_option linter.unusedSectionVars false
set_option linter.unusedSimpArgs false
set_option linter.unusedVariables false
set_option linter.unnecessarySeqFocus false

namespace Verif.Plate

open Verif.LinIso (FE Pt Mat Admissible nuAt)

variable {K : Type*} [Field K] [LinearOrder K] [IsStrictOrderedRing K]

/-! ### The matrices -/

omit [LinearOrder K] [IsStrictOrderedRing K] in
theorem formB_2d (f : Elm K) (h2 : f.dim2 = 2) (h3 : f.dim3 = 2) :
    ∃ B, formBmatrix 2 f = .ok B ∧ B.nr = 3 ∧ B.nc = f.nen ∧ ∀ a, 1 ≤ a → a ≤ f.nen →
      B.e 1 a = f.d2N a 1 1 ∧ B.e 2 a = f.d2N a 2 2 ∧ B.e 3 a = 2 * f.d2N a 1 2 := by
  unfold formBmatrix
  rw [if_neg (by simp [h2, h3])]
  simp only [show ¬ (2 : Nat) = 1 by decide, if_false]
  rw [loop_setMany]
  obtain ⟨B, hB, h1, h2, h3⟩ := setMany_fun
    (fun r a => if r = 1 then f.d2N a 1 1 else if r = 2 then f.d2N a 2 2 else f.d2N a 1 2 * 2)
    ((List.range f.nen).flatMap fun k => [(1, k + 1, f.d2N (k + 1) 1 1), (2, k + 1, f.d2N (k + 1) 2 2),
      (3, k + 1, f.d2N (k + 1) 1 2 * 2)]) (DMat.zero (2 * (2 + 1) / 2) f.nen) (by
      intro x hx
      simp only [List.mem_flatMap, List.mem_range] at hx
      obtain ⟨k, hk, hx⟩ := hx
      simp only [List.mem_cons, List.not_mem_nil, or_false] at hx
      rcases hx with rfl | rfl | rfl <;> rfl) (by
      intro x hx
      simp only [List.mem_flatMap, List.mem_range] at hx
      obtain ⟨k, hk, hx⟩ := hx
      simp only [List.mem_cons, List.not_mem_nil, or_false] at hx
      rcases hx with rfl | rfl | rfl <;> refine ⟨?_, ?_, ?_, ?_⟩ <;> simp [DMat.zero] <;> omega)
  refine ⟨B, hB, h1, h2, fun a ha1 ha2 => ?_⟩
  have hin : ∀ r v, (r, v) ∈ [(1, f.d2N a 1 1), (2, f.d2N a 2 2), (3, f.d2N a 1 2 * 2)] →
      ∃ x ∈ (List.range f.nen).flatMap fun k => [((1 : Nat), k + 1, f.d2N (k + 1) 1 1), (2, k + 1, f.d2N (k + 1) 2 2),
      (3, k + 1, f.d2N (k + 1) 1 2 * 2)], x.1 = r ∧ x.2.1 = a := by
    intro r v hr
    refine ⟨(r, a, v), ?_, rfl, rfl⟩
    simp only [List.mem_flatMap, List.mem_range]
    refine ⟨a - 1, by omega, ?_⟩
    rw [show a - 1 + 1 = a by omega]
    simp only [List.mem_cons, List.not_mem_nil, or_false, Prod.mk.injEq] at hr ⊢
    tauto
  rw [h3, h3, h3, if_pos (hin 1 (f.d2N a 1 1) (by simp)), if_pos (hin 2 (f.d2N a 2 2) (by simp)),
    if_pos (hin 3 (f.d2N a 1 2 * 2) (by simp))]
  simp [mul_comm]

omit [LinearOrder K] [IsStrictOrderedRing K] in
theorem formB_1d (f : Elm K) (h2 : f.dim2 = 1) (h3 : f.dim3 = 1) :
    ∃ B, formBmatrix 1 f = .ok B ∧ B.nr = 1 ∧ B.nc = f.nen ∧ ∀ a, 1 ≤ a → a ≤ f.nen → B.e 1 a = f.d2N a 1 1 := by
  unfold formBmatrix
  rw [if_neg (by simp [h2, h3])]
  simp only [if_true]
  rw [loop_setMany]
  obtain ⟨B, hB, h1, h2, h3⟩ := setMany_fun (fun r a => f.d2N a 1 1)
    ((List.range f.nen).flatMap fun k => [(1, k + 1, f.d2N (k + 1) 1 1)]) (DMat.zero (1 * (1 + 1) / 2) f.nen) (by
      intro x hx
      simp only [List.mem_flatMap, List.mem_range] at hx
      obtain ⟨k, hk, hx⟩ := hx
      simp only [List.mem_cons, List.not_mem_nil, or_false] at hx
      rcases hx with rfl; rfl) (by
      intro x hx
      simp only [List.mem_flatMap, List.mem_range] at hx
      obtain ⟨k, hk, hx⟩ := hx
      simp only [List.mem_cons, List.not_mem_nil, or_false] at hx
      rcases hx with rfl; refine ⟨?_, ?_, ?_, ?_⟩ <;> simp [DMat.zero] <;> omega)
  refine ⟨B, hB, h1, h2, fun a ha1 ha2 => ?_⟩
  rw [h3, if_pos]
  refine ⟨(1, a, f.d2N a 1 1), ?_, rfl, rfl⟩
  simp only [List.mem_flatMap, List.mem_range]
  exact ⟨a - 1, by omega, by rw [show a - 1 + 1 = a by omega]; simp⟩

/-- Specification: Young's modulus of a material without a field for it. -/
def youngAt (m : Mat K) (X : Pt K) (age : K) : K :=
  match m.Efunc with
  | some f => f X
  | none => match m.Eaging with
    | some f => f age
    | none => m.Emod

omit [LinearOrder K] [IsStrictOrderedRing K] [Field K] in
theorem young_eq (m : Mat K) (fe : FE K) (X : Pt K) (h : m.Efield = none) : m.young fe X = youngAt m X fe.age := by
  unfold Mat.young youngAt; rw [h]; rfl

omit [LinearOrder K] [IsStrictOrderedRing K] in
theorem plateStiffness_eq (m : Mat K) (X : Pt K) (T age : K) :
    LinIso.getPlateStiffness m X T age = youngAt m X age * T * T * T / (12 - 12 * nuAt m X * nuAt m X) := by
  unfold LinIso.getPlateStiffness LinIso.getStiffness youngAt nuAt; rfl

theorem formC_2d (m : Mat K) (fe : FE K) (X : Pt K) (T : K) (ha : m.axiSymmetry = false) (hn : Admissible m X) :
    ∃ C, formCmatrix m 2 fe X T false = .ok C ∧ C.nr = 3 ∧ C.nc = 3 ∧
      (let a := LinIso.dirA (m.young fe X) (nuAt m X) m.planeStress false * (T * T * T / 12)
       let b := LinIso.dirB (m.young fe X) (nuAt m X) m.planeStress false * (T * T * T / 12)
       let g := m.young fe X / (2 + nuAt m X + nuAt m X) * (T * T * T / 12)
       C.e 1 1 = a ∧ C.e 1 2 = b ∧ C.e 1 3 = 0 ∧ C.e 2 1 = b ∧ C.e 2 2 = a ∧ C.e 2 3 = 0 ∧
       C.e 3 1 = 0 ∧ C.e 3 2 = 0 ∧ C.e 3 3 = g) := by
  obtain ⟨C, hC, h1, h2, h3⟩ := LinIso.cmat_2d (m.young fe X) (nuAt m X) m.planeStress false
  obtain ⟨o, ho, hoC, -⟩ := LinIso.evaluate_eq m 2 (2 * (2 + 1) / 2) (Or.inl rfl) fe X (fun _ => 0) 1 hn (C := C)
    (by rw [ha]; exact hC)
  refine ⟨⟨C.nr, C.nc, fun i j => C.e i j * (T * T * T / 12)⟩, ?_, h1, h2, ?_⟩
  · unfold formCmatrix
    simp only [Bool.false_eq_true, if_false, ho, Res.bind, hoC]
  · have e : ∀ i j : Fin 3, C.e (i.val + 1) (j.val + 1) = C.toM 3 3 i j := fun i j => rfl
    rw [h3] at e
    refine ⟨?_, ?_, ?_, ?_, ?_, ?_, ?_, ?_, ?_⟩
    · exact congrArg (· * (T * T * T / 12)) (e 0 0)
    · exact congrArg (· * (T * T * T / 12)) (e 0 1)
    · exact (congrArg (· * (T * T * T / 12)) (e 0 2)).trans (zero_mul _)
    · exact congrArg (· * (T * T * T / 12)) (e 1 0)
    · exact congrArg (· * (T * T * T / 12)) (e 1 1)
    · exact (congrArg (· * (T * T * T / 12)) (e 1 2)).trans (zero_mul _)
    · exact (congrArg (· * (T * T * T / 12)) (e 2 0)).trans (zero_mul _)
    · exact (congrArg (· * (T * T * T / 12)) (e 2 1)).trans (zero_mul _)
    · exact congrArg (· * (T * T * T / 12)) (e 2 2)

theorem formC_1d (m : Mat K) (fe : FE K) (X : Pt K) (T : K) :
    ∃ C, formCmatrix m 1 fe X T false = .ok C ∧ C.nr = 1 ∧ C.nc = 1 ∧ C.e 1 1 = m.young fe X * (T * T * T / 12) := by
  refine ⟨⟨1, 1, fun i j => (if i = 1 ∧ j = 1 then m.young fe X else 0) * (T * T * T / 12)⟩, ?_, rfl, rfl, ?_⟩
  · simp [formCmatrix, LinIso.evaluate, DMat.set, DMat.zero, Res.bind]
  · simp

/-- The stiffness of version 1 in two dimensions. -/
theorem K1_eq (m : Mat K) (f : Elm K) (X : Pt K) (T : K) (ha : m.axiSymmetry = false) (hn : Admissible m X)
    (h2 : f.dim2 = 2) (h3 : f.dim3 = 2) :
    ∃ k1, stiffness 1 m 2 f X T = .ok k1 ∧ ∀ a b, 1 ≤ a → a ≤ f.nen → 1 ≤ b → b ≤ f.nen →
      (let p := LinIso.dirA (m.young f.fe X) (nuAt m X) m.planeStress false * (T * T * T / 12)
       let q := LinIso.dirB (m.young f.fe X) (nuAt m X) m.planeStress false * (T * T * T / 12)
       let g := m.young f.fe X / (2 + nuAt m X + nuAt m X) * (T * T * T / 12)
       k1 a b = (f.d2N a 1 1 * (p * f.d2N b 1 1 + q * f.d2N b 2 2) + f.d2N a 2 2 * (q * f.d2N b 1 1 + p * f.d2N b 2 2) +
         4 * g * f.d2N a 1 2 * f.d2N b 1 2) * f.dJW) := by
  obtain ⟨B, hB, b1, b2, b3⟩ := formB_2d f h2 h3
  obtain ⟨C, hC, c1, c2, c3⟩ := formC_2d m f.fe X T ha hn
  refine ⟨fun a b => ∑ r ∈ Finset.range B.nr, B.e (r + 1) a *
    ((∑ s ∈ Finset.range C.nc, C.e (r + 1) (s + 1) * B.e (s + 1) b) * f.dJW), ?_, ?_⟩
  · simp only [stiffness, if_true, evalK1, hB, hC, Res.bind]
  · intro a b ha1 ha2 hb1 hb2
    obtain ⟨a1, a2, a3⟩ := b3 a ha1 ha2
    obtain ⟨d1, d2, d3⟩ := b3 b hb1 hb2
    obtain ⟨e1, e2, e3, e4, e5, e6, e7, e8, e9⟩ := c3
    simp only [b1, c2, Finset.sum_range_succ, Finset.sum_range_zero, zero_add, Nat.reduceAdd, a1, a2, a3, d1, d2, d3,
      e1, e2, e3, e4, e5, e6, e7, e8, e9]
    ring

/-- C47: for plane stress material without a field of Young's moduli, the first plate formulation is the combination of the other
two with factors `1 - nu` and `nu`. -/
theorem C47_relation (m : Mat K) (f : Elm K) (X : Pt K) (T : K) (ha : m.axiSymmetry = false) (hp : m.planeStress = true)
    (hf : m.Efield = none) (hn : Admissible m X) (h2 : f.dim2 = 2) (h3 : f.dim3 = 2) :
    ∃ k1 k2 k3, stiffness 1 m 2 f X T = .ok k1 ∧ stiffness 2 m 2 f X T = .ok k2 ∧ stiffness 3 m 2 f X T = .ok k3 ∧
      ∀ a b, 1 ≤ a → a ≤ f.nen → 1 ≤ b → b ≤ f.nen → k1 a b = (1 - nuAt m X) * k2 a b + nuAt m X * k3 a b := by
  obtain ⟨k1, e1, e2⟩ := K1_eq m f X T ha hn h2 h3
  refine ⟨k1, evalK2 2 m 2 f X T, evalK2 3 m 2 f X T, e1, rfl, rfl, fun a b ha1 ha2 hb1 hb2 => ?_⟩
  rw [e2 a b ha1 ha2 hb1 hb2]
  obtain ⟨n0, n1⟩ := hn
  obtain ⟨p1, p2, p3, p4, p5⟩ := LinIso.pos_facts n0 n1
  simp only [evalK2, plateStiffness_eq, young_eq m f.fe X hf, hp, LinIso.dirA, LinIso.dirB]
  simp
  have e : (12 : K) - 12 * nuAt m X * nuAt m X = 12 * (1 - nuAt m X * nuAt m X) := by ring
  have e' : (2 : K) + nuAt m X + nuAt m X = 2 * (1 + nuAt m X) := by ring
  have e'' : (1 : K) - nuAt m X * nuAt m X = (1 - nuAt m X) * (1 + nuAt m X) := by ring
  rw [e, e', e'']
  have q1 := p1.ne'
  have q2 := p2.ne'
  field_simp
  ring

/-- A plate that meets the conditions of `C47_relation`. -/
example : ∃ (m : Mat ℚ) (f : Elm ℚ), m.axiSymmetry = false ∧ m.planeStress = true ∧ m.Efield = none ∧ Admissible m ⟨0, 0, 0⟩ ∧
    f.dim2 = 2 ∧ f.dim3 = 2 ∧ f.nen = 4 :=
  ⟨{ Emod := 12, nu := 1 / 4, planeStress := true }, ⟨4, fun _ => 0, 2, 2, fun _ _ _ => 1, none, 1, ⟨0, 0, 0⟩⟩, rfl, rfl, rfl,
    by constructor <;> norm_num [nuAt], rfl, rfl, rfl⟩

/-- C47: the second and third formulation differ by twice the Gaussian curvature: for the deflection with nodal values `w`, the
difference of twice the strain energies is `2 D (w,xx w,yy - w,xy²)`. -/
theorem C47_gauss (m : Mat K) (f : Elm K) (X : Pt K) (T : K) (w : Nat → K) :
    let wxx := ∑ a ∈ Finset.range f.nen, w (a + 1) * f.d2N (a + 1) 1 1
    let wyy := ∑ a ∈ Finset.range f.nen, w (a + 1) * f.d2N (a + 1) 2 2
    let wxy := ∑ a ∈ Finset.range f.nen, w (a + 1) * f.d2N (a + 1) 1 2
    let D := youngAt m X f.fe.age * T * T * T / (12 - 12 * nuAt m X * nuAt m X)
    ∃ k2 k3, stiffness 2 m 2 f X T = .ok k2 ∧ stiffness 3 m 2 f X T = .ok k3 ∧
      (∑ a ∈ Finset.range f.nen, ∑ b ∈ Finset.range f.nen, w (a + 1) * k2 (a + 1) (b + 1) * w (b + 1)) =
        D * f.dJW * (wxx ^ 2 + wyy ^ 2 + 2 * wxy ^ 2) ∧
      (∑ a ∈ Finset.range f.nen, ∑ b ∈ Finset.range f.nen, w (a + 1) * k3 (a + 1) (b + 1) * w (b + 1)) =
        D * f.dJW * (wxx + wyy) ^ 2 := by
  intro wxx wyy wxy D
  refine ⟨evalK2 2 m 2 f X T, evalK2 3 m 2 f X T, rfl, rfl, ?_, ?_⟩
  · have h : ∀ a b, w (a + 1) * evalK2 2 m 2 f X T (a + 1) (b + 1) * w (b + 1) = D * f.dJW *
        ((w (a + 1) * f.d2N (a + 1) 1 1) * (w (b + 1) * f.d2N (b + 1) 1 1) +
         (w (a + 1) * f.d2N (a + 1) 2 2) * (w (b + 1) * f.d2N (b + 1) 2 2) +
         2 * ((w (a + 1) * f.d2N (a + 1) 1 2) * (w (b + 1) * f.d2N (b + 1) 1 2))) := by
      intro a b
      simp only [evalK2, plateStiffness_eq, D, lt_irrefl, if_false, if_true]
      ring
    simp only [h, ← Finset.mul_sum, Finset.sum_add_distrib, ← Finset.sum_mul]
    ring
  · have h : ∀ a b, w (a + 1) * evalK2 3 m 2 f X T (a + 1) (b + 1) * w (b + 1) = D * f.dJW *
        (((w (a + 1) * f.d2N (a + 1) 1 1) + (w (a + 1) * f.d2N (a + 1) 2 2)) *
          ((w (b + 1) * f.d2N (b + 1) 1 1) + (w (b + 1) * f.d2N (b + 1) 2 2))) := by
      intro a b
      simp only [evalK2, plateStiffness_eq, D, lt_irrefl, if_false, show ¬ (3 : Nat) = 2 by decide]
      ring
    simp only [h, ← Finset.mul_sum, Finset.sum_add_distrib, ← Finset.sum_mul]
    ring

/-- C47: the energy of the first formulation for the deflection with nodal values `w`. -/
theorem C47_energy (m : Mat K) (f : Elm K) (X : Pt K) (T : K) (w : Nat → K) (ha : m.axiSymmetry = false)
    (hp : m.planeStress = true) (hf : m.Efield = none) (hn : Admissible m X) (h2 : f.dim2 = 2) (h3 : f.dim3 = 2) :
    let wxx := ∑ a ∈ Finset.range f.nen, w (a + 1) * f.d2N (a + 1) 1 1
    let wyy := ∑ a ∈ Finset.range f.nen, w (a + 1) * f.d2N (a + 1) 2 2
    let wxy := ∑ a ∈ Finset.range f.nen, w (a + 1) * f.d2N (a + 1) 1 2
    let D := youngAt m X f.fe.age * T * T * T / (12 - 12 * nuAt m X * nuAt m X)
    ∃ k1, stiffness 1 m 2 f X T = .ok k1 ∧
      (∑ a ∈ Finset.range f.nen, ∑ b ∈ Finset.range f.nen, w (a + 1) * k1 (a + 1) (b + 1) * w (b + 1)) =
        D * f.dJW * ((wxx + wyy) ^ 2 - 2 * (1 - nuAt m X) * (wxx * wyy - wxy ^ 2)) := by
  intro wxx wyy wxy D
  obtain ⟨k1, k2, k3, e1, e2, e3, e4⟩ := C47_relation m f X T ha hp hf hn h2 h3
  obtain ⟨k2', k3', e2', e3', q2, q3⟩ := C47_gauss m f X T w
  have i2 : k2' = k2 := Res.ok.inj (e2'.symm.trans e2)
  have i3 : k3' = k3 := Res.ok.inj (e3'.symm.trans e3)
  subst i2 i3
  refine ⟨k1, e1, ?_⟩
  have : ∑ a ∈ Finset.range f.nen, ∑ b ∈ Finset.range f.nen, w (a + 1) * k1 (a + 1) (b + 1) * w (b + 1) =
      (1 - nuAt m X) * (∑ a ∈ Finset.range f.nen, ∑ b ∈ Finset.range f.nen, w (a + 1) * k2' (a + 1) (b + 1) * w (b + 1)) +
      nuAt m X * (∑ a ∈ Finset.range f.nen, ∑ b ∈ Finset.range f.nen, w (a + 1) * k3' (a + 1) (b + 1) * w (b + 1)) := by
    simp only [Finset.mul_sum, ← Finset.sum_add_distrib]
    refine Finset.sum_congr rfl fun a ha => Finset.sum_congr rfl fun b hb => ?_
    rw [e4 (a + 1) (b + 1) (by omega) (by have := Finset.mem_range.1 ha; omega) (by omega)
      (by have := Finset.mem_range.1 hb; omega)]
    ring
  rw [this, q2, q3]
  ring

/-- C47: for a rectangular plate clamped along its edges and with constant stiffness, the three formulations give the same energy
for every deflection. The integrands are those of `C47_energy` and `C47_gauss`; `wx`, `wxx` ... are the derivatives of the
deflection. -/
theorem C47_clamped (a b c d D nu : ℝ) (wx wxx wxy wyy wxyy : ℝ → ℝ → ℝ)
    (h1 : ∀ x y, HasDerivAt (fun t => wx t y) (wxx x y) x) (h2 : ∀ x y, HasDerivAt (fun t => wx x t) (wxy x y) y)
    (h3 : ∀ x y, HasDerivAt (fun t => wxy x t) (wxyy x y) y) (h4 : ∀ x y, HasDerivAt (fun t => wyy t y) (wxyy x y) x)
    (c0 : Continuous (Function.uncurry wx)) (c1 : Continuous (Function.uncurry wxx)) (c2 : Continuous (Function.uncurry wxy))
    (c3 : Continuous (Function.uncurry wyy)) (c4 : Continuous (Function.uncurry wxyy))
    (ba : ∀ y ∈ Set.uIcc c d, wx a y = 0) (bb : ∀ y ∈ Set.uIcc c d, wx b y = 0)
    (bc : ∀ x ∈ Set.uIcc a b, wx x c = 0) (bd : ∀ x ∈ Set.uIcc a b, wx x d = 0) :
    (∫ y in c..d, ∫ x in a..b, D * ((wxx x y + wyy x y) ^ 2 - 2 * (1 - nu) * (wxx x y * wyy x y - wxy x y ^ 2))) =
      (∫ y in c..d, ∫ x in a..b, D * (wxx x y + wyy x y) ^ 2) ∧
    (∫ y in c..d, ∫ x in a..b, D * (wxx x y ^ 2 + wyy x y ^ 2 + 2 * wxy x y ^ 2)) =
      (∫ y in c..d, ∫ x in a..b, D * (wxx x y + wyy x y) ^ 2) := by
  have e := fun q => energy_clamped a b c d D q wx wxx wxy wyy wxyy h1 h2 h3 h4 c0 c1 c2 c3 c4 ba bb bc bd
  constructor
  · rw [← e (-(2 * D * (1 - nu)))]
    congr 1; funext y; congr 1; funext x; ring
  · rw [← e (-(2 * D))]
    congr 1; funext y; congr 1; funext x; ring

/-- The deflection `(x (1-x) y (1-y))²` of the unit square meets the conditions of `C47_clamped`. -/
example : ∃ wx wxx wxy wyy wxyy : ℝ → ℝ → ℝ,
    (∀ x y, HasDerivAt (fun t => (t * (1 - t) * y * (1 - y)) ^ 2) (wx x y) x) ∧
    (∀ x y, HasDerivAt (fun t => wx t y) (wxx x y) x) ∧ (∀ x y, HasDerivAt (fun t => wx x t) (wxy x y) y) ∧
    (∀ x y, HasDerivAt (fun t => wxy x t) (wxyy x y) y) ∧ (∀ x y, HasDerivAt (fun t => wyy t y) (wxyy x y) x) ∧
    (∀ y, wx 0 y = 0 ∧ wx 1 y = 0) ∧ (∀ x, wx x 0 = 0 ∧ wx x 1 = 0) ∧ wxx (1 / 2) (1 / 2) ≠ 0 := by
  have P : ∀ x : ℝ, HasDerivAt (fun t : ℝ => (t * (1 - t)) ^ 2) (2 * (x * (1 - x)) * (1 - 2 * x)) x := by
    intro x
    have := (((hasDerivAt_id x).mul ((hasDerivAt_const x (1:ℝ)).sub (hasDerivAt_id x))).pow 2)
    refine HasDerivAt.congr_deriv this ?_
    simp only [Pi.mul_apply, Pi.sub_apply, id]; push_cast; ring
  have Q : ∀ x : ℝ, HasDerivAt (fun t : ℝ => 2 * (t * (1 - t)) * (1 - 2 * t)) (2 - 12 * x + 12 * x ^ 2) x := by
    intro x
    have := ((((hasDerivAt_id x).mul ((hasDerivAt_const x (1:ℝ)).sub (hasDerivAt_id x))).const_mul 2).mul
      ((hasDerivAt_const x (1:ℝ)).sub ((hasDerivAt_id x).const_mul 2)))
    refine HasDerivAt.congr_deriv this ?_
    simp; ring
  refine ⟨fun x y => 2 * (x * (1 - x)) * (1 - 2 * x) * (y * (1 - y)) ^ 2,
    fun x y => (2 - 12 * x + 12 * x ^ 2) * (y * (1 - y)) ^ 2,
    fun x y => 2 * (x * (1 - x)) * (1 - 2 * x) * (2 * (y * (1 - y)) * (1 - 2 * y)),
    fun x y => (x * (1 - x)) ^ 2 * (2 - 12 * y + 12 * y ^ 2),
    fun x y => 2 * (x * (1 - x)) * (1 - 2 * x) * (2 - 12 * y + 12 * y ^ 2), ?_, ?_, ?_, ?_, ?_, ?_, ?_, ?_⟩
  · intro x y
    have := (P x).mul_const ((y * (1 - y)) ^ 2)
    refine this.congr_of_eventuallyEq (Filter.Eventually.of_forall fun t => ?_)
    simp only; ring
  · exact fun x y => (Q x).mul_const _
  · exact fun x y => (P y).const_mul _
  · exact fun x y => (Q y).const_mul _
  · exact fun x y => (P x).mul_const _
  · intro y; constructor <;> norm_num
  · intro x; constructor <;> norm_num
  · norm_num

/-- C47 fails for beams (`nsd = 1`): the first formulation uses `E t³/12`, the others the plate stiffness. -/
theorem C47_beam (m : Mat K) (f : Elm K) (X : Pt K) (T : K) (hf : m.Efield = none) (h2 : f.dim2 = 1) (h3 : f.dim3 = 1)
    (hnu : nuAt m X ^ 2 ≠ 1) :
    ∃ k1, stiffness 1 m 1 f X T = .ok k1 ∧ ∀ v, v ≠ 1 → ∃ k2, stiffness v m 1 f X T = .ok k2 ∧
      ∀ a b, 1 ≤ a → a ≤ f.nen → 1 ≤ b → b ≤ f.nen →
        k1 a b = youngAt m X f.fe.age * T ^ 3 / 12 * f.d2N a 1 1 * f.d2N b 1 1 * f.dJW ∧
        k1 a b = (1 - nuAt m X ^ 2) * k2 a b := by
  obtain ⟨B, hB, b1, b2, b3⟩ := formB_1d f h2 h3
  obtain ⟨C, hC, c1, c2, c3⟩ := formC_1d m f.fe X T
  refine ⟨fun a b => ∑ r ∈ Finset.range B.nr, B.e (r + 1) a *
    ((∑ s ∈ Finset.range C.nc, C.e (r + 1) (s + 1) * B.e (s + 1) b) * f.dJW), ?_, fun v hv => ⟨evalK2 v m 1 f X T, ?_, ?_⟩⟩
  · simp only [stiffness, if_true, evalK1, hB, hC, Res.bind]
  · simp [stiffness, hv]
  · intro a b ha1 ha2 hb1 hb2
    have e : (1 : K) - nuAt m X ^ 2 ≠ 0 := fun h => hnu (by linear_combination -h)
    have e' : (12 : K) - 12 * nuAt m X * nuAt m X = 12 * (1 - nuAt m X ^ 2) := by ring
    simp only [b1, c2, Finset.sum_range_succ, Finset.sum_range_zero, zero_add, b3 a ha1 ha2, b3 b hb1 hb2, c3, evalK2,
      plateStiffness_eq, young_eq m f.fe X hf, show (1 : Nat) < 2 by decide, if_true, e']
    constructor
    · ring
    · field_simp

/-- C47 fails for beams with `nu ≠ 0`: a material with `E = 12`, `nu = 1/4` and a basis function with unit curvature. -/
theorem C47_beam_violated : ∃ (m : Mat ℚ) (f : Elm ℚ) (k1 k2 k3 : Nat → Nat → ℚ),
    m.planeStress = true ∧ nuAt m ⟨0, 0, 0⟩ = 1 / 4 ∧
    stiffness 1 m 1 f ⟨0, 0, 0⟩ 1 = .ok k1 ∧ stiffness 2 m 1 f ⟨0, 0, 0⟩ 1 = .ok k2 ∧
    stiffness 3 m 1 f ⟨0, 0, 0⟩ 1 = .ok k3 ∧ k1 1 1 ≠ (1 - 1 / 4) * k2 1 1 + 1 / 4 * k3 1 1 := by
  refine ⟨{ Emod := 12, nu := 1 / 4, planeStress := true }, ⟨1, fun _ => 0, 1, 1, fun _ _ _ => 1, none, 1, ⟨0, 0, 0⟩⟩, ?_⟩
  obtain ⟨k1, e1, e2⟩ := C47_beam (K := ℚ) { Emod := 12, nu := 1 / 4, planeStress := true }
    ⟨1, fun _ => 0, 1, 1, fun _ _ _ => 1, none, 1, ⟨0, 0, 0⟩⟩ ⟨0, 0, 0⟩ 1 rfl rfl rfl (by norm_num [nuAt])
  obtain ⟨k2, g2, q2⟩ := e2 2 (by decide)
  obtain ⟨k3, g3, q3⟩ := e2 3 (by decide)
  have q2' := q2 1 1 le_rfl le_rfl le_rfl le_rfl
  have q3' := q3 1 1 le_rfl le_rfl le_rfl le_rfl
  refine ⟨k1, k2, k3, rfl, rfl, e1, g2, g3, ?_⟩
  simp only [nuAt, youngAt] at q2' q3'
  obtain ⟨r1, r2⟩ := q2'
  obtain ⟨r3, r4⟩ := q3'
  intro h
  rw [show k2 1 1 = k1 1 1 / (1 - (1 / 4) ^ 2) by rw [r2]; norm_num,
    show k3 1 1 = k1 1 1 / (1 - (1 / 4) ^ 2) by rw [r4]; norm_num, r1] at h
  norm_num at h

/-- C47 fails for the default material and others in plane strain, here with `E = 12`, `nu = 1/4`. -/
theorem C47_planeStrain_violated : ∃ (m : Mat ℚ) (f : Elm ℚ) (k1 k2 k3 : Nat → Nat → ℚ),
    m.planeStress = false ∧ nuAt m ⟨0, 0, 0⟩ = 1 / 4 ∧
    stiffness 1 m 2 f ⟨0, 0, 0⟩ 1 = .ok k1 ∧ stiffness 2 m 2 f ⟨0, 0, 0⟩ 1 = .ok k2 ∧
    stiffness 3 m 2 f ⟨0, 0, 0⟩ 1 = .ok k3 ∧ k1 1 1 ≠ (1 - 1 / 4) * k2 1 1 + 1 / 4 * k3 1 1 := by
  have ha : Admissible (K := ℚ) { Emod := 12, nu := 1 / 4, planeStress := false } ⟨0, 0, 0⟩ := by
    constructor <;> norm_num [nuAt]
  obtain ⟨k1, e1, e2⟩ := K1_eq (K := ℚ) { Emod := 12, nu := 1 / 4, planeStress := false }
    ⟨1, fun _ => 0, 2, 2, fun _ i j => if i = 1 ∧ j = 1 then 1 else 0, none, 1, ⟨0, 0, 0⟩⟩ ⟨0, 0, 0⟩ 1 rfl ha rfl rfl
  refine ⟨_, _, k1, _, _, rfl, rfl, e1, rfl, rfl, ?_⟩
  rw [e2 1 1 le_rfl le_rfl le_rfl le_rfl]
  norm_num [evalK2, LinIso.getPlateStiffness, LinIso.getStiffness, Mat.young, nuAt, LinIso.dirA, LinIso.dirB]

/-- C47 fails when Young's modulus is given by a field: only the first formulation uses it. -/
theorem C47_field_violated : ∃ (m : Mat ℚ) (f : Elm ℚ) (k1 k2 k3 : Nat → Nat → ℚ),
    m.planeStress = true ∧ m.Efield.isSome = true ∧ nuAt m ⟨0, 0, 0⟩ = 1 / 4 ∧
    stiffness 1 m 2 f ⟨0, 0, 0⟩ 1 = .ok k1 ∧ stiffness 2 m 2 f ⟨0, 0, 0⟩ 1 = .ok k2 ∧
    stiffness 3 m 2 f ⟨0, 0, 0⟩ 1 = .ok k3 ∧ k1 1 1 ≠ (1 - 1 / 4) * k2 1 1 + 1 / 4 * k3 1 1 ∧
    0 < k1 1 1 ∧ k2 1 1 < 0 := by
  have ha : Admissible (K := ℚ) { Efield := some fun _ => 12, Emod := -1, nu := 1 / 4, planeStress := true } ⟨0, 0, 0⟩ := by
    constructor <;> norm_num [nuAt]
  obtain ⟨k1, e1, e2⟩ := K1_eq (K := ℚ) { Efield := some fun _ => 12, Emod := -1, nu := 1 / 4, planeStress := true }
    ⟨1, fun _ => 0, 2, 2, fun _ i j => if i = 1 ∧ j = 1 then 1 else 0, none, 1, ⟨0, 0, 0⟩⟩ ⟨0, 0, 0⟩ 1 rfl ha rfl rfl
  refine ⟨_, _, k1, _, _, rfl, rfl, rfl, e1, rfl, rfl, ?_⟩
  rw [e2 1 1 le_rfl le_rfl le_rfl le_rfl]
  norm_num [evalK2, LinIso.getPlateStiffness, LinIso.getStiffness, Mat.young, nuAt, LinIso.dirA, LinIso.dirB]

/-! ### Section forces -/

/-- The section forces of a two-dimensional plate in plane stress: moments and, with third derivatives, shear forces. -/
theorem evalSol1_2d (m : Mat K) (f : Elm K) (X : Pt K) (T : K) (u : Nat → K) (loc : Option (Nat → Nat → K))
    (ha : m.axiSymmetry = false) (hp : m.planeStress = true) (hf : m.Efield = none) (hn : Admissible m X)
    (h2 : f.dim2 = 2) (h3 : f.dim3 = 2) (h0 : f.nen ≠ 0) :
    let D := youngAt m X f.fe.age * T * T * T / (12 - 12 * nuAt m X * nuAt m X)
    let w := fun i j => ∑ a ∈ Finset.range f.nen, u (a + 1) * f.d2N (a + 1) i j
    let w3 := fun d3 i j k => ∑ a ∈ Finset.range f.nen, u (a + 1) * (d3 : Nat → Nat → Nat → Nat → K) (a + 1) i j k
    let mxx := -D * (w 1 1 + nuAt m X * w 2 2)
    let myy := -D * (w 2 2 + nuAt m X * w 1 1)
    let mxy := -D * (1 - nuAt m X) * w 1 2
    let q := fun d3 d => -D * (w3 d3 1 1 d + w3 d3 2 2 d)
    evalSol1 m 2 f X T f.nen u loc = .ok (
      (match loc with
       | none => [mxx, myy, mxy]
       | some t => [t 1 1 ^ 2 * mxx + t 1 2 ^ 2 * myy + 2 * t 1 1 * t 1 2 * mxy,
           t 2 1 ^ 2 * mxx + t 2 2 ^ 2 * myy + 2 * t 2 1 * t 2 2 * mxy,
           t 1 1 * t 2 1 * mxx + t 1 2 * t 2 2 * myy + (t 1 1 * t 2 2 + t 1 2 * t 2 1) * mxy]) ++
      (match f.d3N with
       | none => []
       | some d3 => match loc with
         | none => [q d3 1, q d3 2]
         | some t => [t 1 1 * q d3 1 + t 2 1 * q d3 2, t 1 2 * q d3 1 + t 2 2 * q d3 2])) := by
  intro D w w3 mxx myy mxy q
  obtain ⟨B, hB, b1, b2, b3⟩ := formB_2d f h2 h3
  obtain ⟨C, hC, c1, c2, c3⟩ := formC_2d m f.fe X T ha hn
  obtain ⟨n0, n1⟩ := hn
  obtain ⟨p1, p2, p3, p4, p5⟩ := LinIso.pos_facts n0 n1
  obtain ⟨e1, e2, e3, e4, e5, e6, e7, e8, e9⟩ := c3
  have q1 := p1.ne'
  have q2 := p2.ne'
  have eD : D = youngAt m X f.fe.age * T * T * T / (12 * ((1 - nuAt m X) * (1 + nuAt m X))) := by
    simp only [D]; congr 1; ring
  have eG : (2 : K) + nuAt m X + nuAt m X = 2 * (1 + nuAt m X) := by ring
  have k1 : B.mulV u 1 = w 1 1 := by
    unfold DMat.mulV; rw [b2]
    refine Finset.sum_congr rfl fun a ha => ?_
    rw [(b3 (a + 1) (by omega) (by have := Finset.mem_range.1 ha; omega)).1, mul_comm]
  have k2 : B.mulV u 2 = w 2 2 := by
    unfold DMat.mulV; rw [b2]
    refine Finset.sum_congr rfl fun a ha => ?_
    rw [(b3 (a + 1) (by omega) (by have := Finset.mem_range.1 ha; omega)).2.1, mul_comm]
  have k3 : B.mulV u 3 = 2 * w 1 2 := by
    unfold DMat.mulV; rw [b2, Finset.mul_sum]
    refine Finset.sum_congr rfl fun a ha => ?_
    rw [(b3 (a + 1) (by omega) (by have := Finset.mem_range.1 ha; omega)).2.2]
    ring
  have m1 : C.mulV (fun r => -(B.mulV u r)) 1 = mxx := by
    simp only [DMat.mulV, c2, Finset.sum_range_succ, Finset.sum_range_zero, zero_add, Nat.reduceAdd, e1, e2, e3] at k1 k2 k3 ⊢
    rw [k1, k2, k3]
    simp only [mxx, eD, young_eq m f.fe X hf, hp, LinIso.dirA, LinIso.dirB]
    simp
    rw [show (1 : K) - nuAt m X * nuAt m X = (1 - nuAt m X) * (1 + nuAt m X) by ring]
    field_simp
    ring
  have m2 : C.mulV (fun r => -(B.mulV u r)) 2 = myy := by
    simp only [DMat.mulV, c2, Finset.sum_range_succ, Finset.sum_range_zero, zero_add, Nat.reduceAdd, e4, e5, e6] at k1 k2 k3 ⊢
    rw [k1, k2, k3]
    simp only [myy, eD, young_eq m f.fe X hf, hp, LinIso.dirA, LinIso.dirB]
    simp
    rw [show (1 : K) - nuAt m X * nuAt m X = (1 - nuAt m X) * (1 + nuAt m X) by ring]
    field_simp
    ring
  have m3 : C.mulV (fun r => -(B.mulV u r)) 3 = mxy := by
    simp only [DMat.mulV, c2, Finset.sum_range_succ, Finset.sum_range_zero, zero_add, Nat.reduceAdd, e7, e8, e9] at k1 k2 k3 ⊢
    rw [k1, k2, k3]
    simp only [mxy, eD, young_eq m f.fe X hf, eG]
    field_simp
    ring
  have hq : ∀ d3 d, shear m 2 f X T d3 u d = q d3 d := by
    intro d3 d
    simp only [shear, plateStiffness_eq, Finset.sum_range_succ, Finset.sum_range_zero, zero_add, Nat.reduceAdd, col, q, w3, D]
    ring
  unfold evalSol1
  rw [if_neg h0, if_neg (by simp)]
  simp only [hB, hC, Res.bind, hq]
  have r2 : List.range (2 * (2 + 1) / 2) = [0, 1, 2] := rfl
  have r2' : List.range 2 = [0, 1] := rfl
  cases loc with
  | none =>
    cases hd : f.d3N with
    | none => simp [r2, m1, m2, m3]
    | some d3 => simp [r2, r2', m1, m2, m3]
  | some t =>
    have t1 : transform 2 t (C.mulV fun r => -(B.mulV u r)) 1 = t 1 1 ^ 2 * mxx + t 1 2 ^ 2 * myy + 2 * t 1 1 * t 1 2 * mxy := by
      simp only [transform, Finset.sum_range_succ, Finset.sum_range_zero]
      simp only [← m1, ← m2, ← m3]; simp; ring
    have t2 : transform 2 t (C.mulV fun r => -(B.mulV u r)) 2 = t 2 1 ^ 2 * mxx + t 2 2 ^ 2 * myy + 2 * t 2 1 * t 2 2 * mxy := by
      simp only [transform, Finset.sum_range_succ, Finset.sum_range_zero]
      simp only [← m1, ← m2, ← m3]; simp; ring
    have t3 : transform 2 t (C.mulV fun r => -(B.mulV u r)) 3 =
        t 1 1 * t 2 1 * mxx + t 1 2 * t 2 2 * myy + (t 1 1 * t 2 2 + t 1 2 * t 2 1) * mxy := by
      simp only [transform, Finset.sum_range_succ, Finset.sum_range_zero]
      simp only [← m1, ← m2, ← m3]; simp; ring
    cases hd : f.d3N with
    | none => simp [r2, t1, t2, t3]
    | some d3 => simp [r2, t1, t2, t3]; constructor <;> ring

theorem sum_deriv (n : Nat) (u : Nat → ℝ) (g g' : Nat → ℝ → ℝ) (x : ℝ) (h : ∀ a, HasDerivAt (g a) (g' a x) x) :
    HasDerivAt (fun t => ∑ a ∈ Finset.range n, u (a + 1) * g (a + 1) t) (∑ a ∈ Finset.range n, u (a + 1) * g' (a + 1) x) x :=
  HasDerivAt.fun_sum fun a _ => (h (a + 1)).const_mul _

/-- C77: for a homogeneous plate in plane stress the shear forces are the divergence of the moments, everywhere and for every
deflection: `q_x = m_xx,x + m_xy,y` and `q_y = m_xy,x + m_yy,y`. `f x y` is the element data at the point `(x, y)`. -/
theorem C77_equilibrium (m : Mat ℝ) (f : ℝ → ℝ → Elm ℝ) (X : ℝ → ℝ → Pt ℝ) (T age : ℝ) (n : Nat) (u : Nat → ℝ)
    (d3 : ℝ → ℝ → Nat → Nat → Nat → Nat → ℝ) (hn0 : n ≠ 0)
    (ha : m.axiSymmetry = false) (hp : m.planeStress = true) (hE : m.Efield = none) (hE2 : m.Efunc = none)
    (hnu : m.nuFunc = none) (h0 : 0 ≤ m.nu) (h1 : m.nu < 1 / 2)
    (hd : ∀ x y, (f x y).dim2 = 2 ∧ (f x y).dim3 = 2 ∧ (f x y).nen = n ∧ (f x y).fe.age = age ∧ (f x y).d3N = some (d3 x y))
    (hx : ∀ x y a i j, HasDerivAt (fun t => (f t y).d2N a i j) (d3 x y a i j 1) x)
    (hy : ∀ x y a i j, HasDerivAt (fun t => (f x t).d2N a i j) (d3 x y a i j 2) y)
    (hs : ∀ x y a, d3 x y a 1 2 2 = d3 x y a 2 2 1 ∧ d3 x y a 1 2 1 = d3 x y a 1 1 2) :
    ∃ mxx myy mxy qx qy : ℝ → ℝ → ℝ,
      (∀ x y, evalSol1 m 2 (f x y) (X x y) T n u none = .ok [mxx x y, myy x y, mxy x y, qx x y, qy x y]) ∧
      ∀ x y, ∃ mxxx mxyx mxyy myyy : ℝ,
        HasDerivAt (fun t => mxx t y) mxxx x ∧ HasDerivAt (fun t => mxy t y) mxyx x ∧
        HasDerivAt (fun t => mxy x t) mxyy y ∧ HasDerivAt (fun t => myy x t) myyy y ∧
        qx x y = mxxx + mxyy ∧ qy x y = mxyx + myyy := by
  have hv : ∀ Y, nuAt m Y = m.nu := fun Y => by simp [nuAt, hnu]
  have hyo : ∀ Y, youngAt m Y age = youngAt m ⟨0, 0, 0⟩ age := fun Y => by simp [youngAt, hE2]
  set D := youngAt m ⟨0, 0, 0⟩ age * T * T * T / (12 - 12 * m.nu * m.nu) with hD
  set w := fun (x y : ℝ) (i j : Nat) => ∑ a ∈ Finset.range n, u (a + 1) * (f x y).d2N (a + 1) i j with hw
  set w3 := fun (x y : ℝ) (i j k : Nat) => ∑ a ∈ Finset.range n, u (a + 1) * d3 x y (a + 1) i j k with hw3
  refine ⟨fun x y => -D * (w x y 1 1 + m.nu * w x y 2 2), fun x y => -D * (w x y 2 2 + m.nu * w x y 1 1),
    fun x y => -D * (1 - m.nu) * w x y 1 2, fun x y => -D * (w3 x y 1 1 1 + w3 x y 2 2 1),
    fun x y => -D * (w3 x y 1 1 2 + w3 x y 2 2 2), ?_, ?_⟩
  · intro x y
    obtain ⟨d1, d2, d4, d5, d6⟩ := hd x y
    have := evalSol1_2d m (f x y) (X x y) T u none ha hp hE ⟨by rw [hv]; exact h0, by rw [hv]; exact h1⟩ d1 d2 (by rw [d4]; exact hn0)
    rw [d4] at this
    rw [this]
    simp only [d5, d6, hv, hyo, List.cons_append, List.nil_append]
    rfl
  · intro x y
    have dx : ∀ i j, HasDerivAt (fun t => w t y i j) (w3 x y i j 1) x := fun i j =>
      sum_deriv n u (fun a t => (f t y).d2N a i j) (fun a t => d3 t y a i j 1) x (fun a => hx x y a i j)
    have dy : ∀ i j, HasDerivAt (fun t => w x t i j) (w3 x y i j 2) y := fun i j =>
      sum_deriv n u (fun a t => (f x t).d2N a i j) (fun a t => d3 x t a i j 2) y (fun a => hy x y a i j)
    have s1 : w3 x y 1 2 2 = w3 x y 2 2 1 := Finset.sum_congr rfl fun a _ => by rw [(hs x y (a + 1)).1]
    have s2 : w3 x y 1 2 1 = w3 x y 1 1 2 := Finset.sum_congr rfl fun a _ => by rw [(hs x y (a + 1)).2]
    refine ⟨_, _, _, _, ((dx 1 1).add ((dx 2 2).const_mul m.nu)).const_mul (-D), (dx 1 2).const_mul (-D * (1 - m.nu)),
      (dy 1 2).const_mul (-D * (1 - m.nu)), ((dy 2 2).add ((dy 1 1).const_mul m.nu)).const_mul (-D), ?_, ?_⟩
    · simp only [s1]; ring
    · simp only [s2]; ring

/-- The cubic deflection `x³ + x y²` with two basis functions meets the conditions of `C77_equilibrium`. -/
example : ∃ (f : ℝ → ℝ → Elm ℝ) (d3 : ℝ → ℝ → Nat → Nat → Nat → Nat → ℝ),
    (∀ x y, (f x y).dim2 = 2 ∧ (f x y).dim3 = 2 ∧ (f x y).nen = 2 ∧ (f x y).fe.age = 0 ∧ (f x y).d3N = some (d3 x y)) ∧
    (∀ x y a i j, HasDerivAt (fun t => (f t y).d2N a i j) (d3 x y a i j 1) x) ∧
    (∀ x y a i j, HasDerivAt (fun t => (f x t).d2N a i j) (d3 x y a i j 2) y) ∧
    (∀ x y a, d3 x y a 1 2 2 = d3 x y a 2 2 1 ∧ d3 x y a 1 2 1 = d3 x y a 1 1 2) ∧
    (f 1 0).d2N 1 1 1 = 6 ∧ (f 0 1).d2N 2 1 2 = 2 := by
  let d2 : ℝ → ℝ → Nat → Nat → Nat → ℝ := fun x y a i j =>
    if a = 1 then (if i = 1 ∧ j = 1 then 6 * x else 0)
    else if i = 2 ∧ j = 2 then 2 * x else if (i = 1 ∧ j = 2) ∨ (i = 2 ∧ j = 1) then 2 * y else 0
  let d3 : ℝ → ℝ → Nat → Nat → Nat → Nat → ℝ := fun x y a i j k =>
    if a = 1 then (if i = 1 ∧ j = 1 ∧ k = 1 then 6 else 0)
    else if i = 2 ∧ j = 2 then (if k = 1 then 2 else 0) else if (i = 1 ∧ j = 2) ∨ (i = 2 ∧ j = 1) then (if k = 2 then 2 else 0) else 0
  have lin : ∀ c x : ℝ, HasDerivAt (fun t => c * t) c x := fun c x => by simpa using (hasDerivAt_id x).const_mul c
  refine ⟨fun x y => ⟨2, fun _ => 0, 2, 2, d2 x y, some (d3 x y), 1, ⟨0, 0, 0⟩⟩, d3, fun x y => ⟨rfl, rfl, rfl, rfl, rfl⟩, ?_, ?_, ?_,
    by simp [d2], by simp [d2]⟩
  · intro x y a i j
    simp only [d2, d3]
    by_cases h1 : a = 1
    · by_cases h2 : i = 1 ∧ j = 1
      · simp [h1, h2, lin]
      · simp only [if_pos h1, if_neg h2, and_true]
        exact hasDerivAt_const x (0 : ℝ)
    · by_cases h2 : i = 2 ∧ j = 2
      · simp [h1, h2, lin]
      · by_cases h3 : (i = 1 ∧ j = 2) ∨ (i = 2 ∧ j = 1) <;> simp only [h1, h2, h3, if_true, if_false] <;>
          simp [hasDerivAt_const]
  · intro x y a i j
    simp only [d2, d3]
    by_cases h1 : a = 1
    · have : ¬ (i = 1 ∧ j = 1 ∧ 2 = 1) := by tauto
      simp only [h1, this, if_true, if_false]; exact hasDerivAt_const _ _
    · by_cases h2 : i = 2 ∧ j = 2
      · simp only [h1, h2, if_true, if_false]; simp [hasDerivAt_const]
      · by_cases h3 : (i = 1 ∧ j = 2) ∨ (i = 2 ∧ j = 1)
        · simp only [h1, h2, h3, if_true, if_false]; exact lin 2 y
        · simp only [h1, h2, h3, if_false]; exact hasDerivAt_const _ _
  · intro x y a
    by_cases h1 : a = 1 <;> simp [d3, h1]

/-- C77: the moments in a local system with orthonormal axes (the rows of `t`): the sum of the normal moments is kept. -/
theorem C77_trace (m : Mat K) (f : Elm K) (X : Pt K) (T : K) (u : Nat → K) (t : Nat → Nat → K) (s s' : List K)
    (ha : m.axiSymmetry = false) (hp : m.planeStress = true) (hf : m.Efield = none) (hn : Admissible m X)
    (h2 : f.dim2 = 2) (h3 : f.dim3 = 2) (h0 : f.nen ≠ 0)
    (t1 : t 1 1 ^ 2 + t 2 1 ^ 2 = 1) (t2 : t 1 2 ^ 2 + t 2 2 ^ 2 = 1) (t3 : t 1 1 * t 1 2 + t 2 1 * t 2 2 = 0)
    (e : evalSol1 m 2 f X T f.nen u none = .ok s) (e' : evalSol1 m 2 f X T f.nen u (some t) = .ok s') :
    s'.getD 0 0 + s'.getD 1 0 = s.getD 0 0 + s.getD 1 0 := by
  rw [evalSol1_2d m f X T u none ha hp hf hn h2 h3 h0] at e
  rw [evalSol1_2d m f X T u (some t) ha hp hf hn h2 h3 h0] at e'
  rw [← Res.ok.inj e, ← Res.ok.inj e']
  simp only [List.cons_append, List.getD_cons_zero, List.getD_cons_succ]
  generalize -(_ : K) * (_ + nuAt m X * _) = a
  generalize -(_ : K) * (_ + nuAt m X * _) = b
  generalize -(_ : K) * (1 - nuAt m X) * _ = c
  linear_combination a * t1 + b * t2 + 2 * c * t3

/-- C77: in a local system the shear forces are multiplied by the transposed matrix (the moments by the matrix itself), so they are
the components of the shear force along the local axes if the matrix is symmetric. -/
theorem C77_local_partial (m : Mat K) (f : Elm K) (X : Pt K) (T : K) (u : Nat → K) (t : Nat → Nat → K) (d3) (s s' : List K)
    (ha : m.axiSymmetry = false) (hp : m.planeStress = true) (hf : m.Efield = none) (hn : Admissible m X)
    (h2 : f.dim2 = 2) (h3 : f.dim3 = 2) (h0 : f.nen ≠ 0) (hd : f.d3N = some d3)
    (e : evalSol1 m 2 f X T f.nen u none = .ok s) (e' : evalSol1 m 2 f X T f.nen u (some t) = .ok s') :
    s'.length = 5 ∧
    s'.getD 3 0 = t 1 1 * s.getD 3 0 + t 2 1 * s.getD 4 0 ∧ s'.getD 4 0 = t 1 2 * s.getD 3 0 + t 2 2 * s.getD 4 0 ∧
    (t 1 2 = t 2 1 →
      s'.getD 3 0 = t 1 1 * s.getD 3 0 + t 1 2 * s.getD 4 0 ∧ s'.getD 4 0 = t 2 1 * s.getD 3 0 + t 2 2 * s.getD 4 0) := by
  rw [evalSol1_2d m f X T u none ha hp hf hn h2 h3 h0] at e
  rw [evalSol1_2d m f X T u (some t) ha hp hf hn h2 h3 h0] at e'
  rw [← Res.ok.inj e, ← Res.ok.inj e', hd]
  simp only [List.cons_append, List.nil_append, List.getD_cons_zero, List.getD_cons_succ, List.length_cons, List.length_nil]
  refine ⟨trivial, trivial, trivial, fun h => ⟨by rw [h], by rw [h]⟩⟩

/-- C77 fails in local systems: with the first local axis along global y, and the second along -x, the shear force along the
second local axis has the wrong sign: it is reported as +12 although the force along -x is -12. -/
theorem C77_local_violated : ∃ (m : Mat ℚ) (f : Elm ℚ) (t : Nat → Nat → ℚ) (s s' : List ℚ),
    (t 1 1 = 0 ∧ t 1 2 = 1 ∧ t 2 1 = -1 ∧ t 2 2 = 0) ∧
    evalSol1 m 2 f ⟨0, 0, 0⟩ 1 1 (fun _ => 1) none = .ok s ∧ evalSol1 m 2 f ⟨0, 0, 0⟩ 1 1 (fun _ => 1) (some t) = .ok s' ∧
    s'.getD 3 0 = s.getD 4 0 - 2 * s.getD 4 0 ∧ s'.getD 4 0 = s.getD 3 0 ∧ s.getD 3 0 = -12 ∧
    s'.getD 4 0 ≠ t 2 1 * s.getD 3 0 + t 2 2 * s.getD 4 0 := by
  have ha : Admissible (K := ℚ) { Emod := 144, nu := 0, planeStress := true } ⟨0, 0, 0⟩ := by constructor <;> norm_num [nuAt]
  let f : Elm ℚ := ⟨1, fun _ => 0, 2, 2, fun _ _ _ => 0, some fun _ i j k => if i = 1 ∧ j = 1 ∧ k = 1 then 1 else 0, 1, ⟨0, 0, 0⟩⟩
  let t : Nat → Nat → ℚ := fun i j => if i = 1 ∧ j = 2 then 1 else if i = 2 ∧ j = 1 then -1 else 0
  have e1 := evalSol1_2d (K := ℚ) { Emod := 144, nu := 0, planeStress := true } f ⟨0, 0, 0⟩ 1 (fun _ => 1) none rfl rfl rfl ha rfl
    rfl (by decide)
  have e2 := evalSol1_2d (K := ℚ) { Emod := 144, nu := 0, planeStress := true } f ⟨0, 0, 0⟩ 1 (fun _ => 1) (some t) rfl rfl rfl ha rfl
    rfl (by decide)
  refine ⟨{ Emod := 144, nu := 0, planeStress := true }, f, t, _, _, by simp [t], e1, e2, ?_⟩
  norm_num [f, t, nuAt, youngAt]

/-- C77 for beams (`nsd = 1`): the shear force and the moment. -/
theorem evalSol1_1d (m : Mat K) (f : Elm K) (X : Pt K) (T : K) (u : Nat → K) (hf : m.Efield = none)
    (h2 : f.dim2 = 1) (h3 : f.dim3 = 1) (h0 : f.nen ≠ 0) (d3) (hd : f.d3N = some d3) :
    evalSol1 m 1 f X T f.nen u none = .ok
      [-(youngAt m X f.fe.age * T ^ 3 / 12) * ∑ a ∈ Finset.range f.nen, u (a + 1) * f.d2N (a + 1) 1 1,
       -(youngAt m X f.fe.age * T ^ 3 / (12 - 12 * nuAt m X * nuAt m X)) * ∑ a ∈ Finset.range f.nen, u (a + 1) * d3 (a + 1) 1 1 1] := by
  obtain ⟨B, hB, b1, b2, b3⟩ := formB_1d f h2 h3
  obtain ⟨C, hC, c1, c2, c3⟩ := formC_1d m f.fe X T
  have k1 : B.mulV u 1 = ∑ a ∈ Finset.range f.nen, u (a + 1) * f.d2N (a + 1) 1 1 := by
    unfold DMat.mulV; rw [b2]
    refine Finset.sum_congr rfl fun a ha => ?_
    rw [b3 (a + 1) (by omega) (by have := Finset.mem_range.1 ha; omega), mul_comm]
  unfold evalSol1
  rw [if_neg h0, if_neg (by simp)]
  simp only [hB, hC, Res.bind, hd]
  have r1 : List.range (1 * (1 + 1) / 2) = [0] := rfl
  have r1' : List.range 1 = [0] := rfl
  have mm : C.mulV (fun r => -(B.mulV u r)) 1 = C.e 1 1 * -(B.mulV u 1) := by
    unfold DMat.mulV; rw [c2]; simp
  simp only [r1, r1', List.map_cons, List.map_nil, Option.map_none, Option.getD_none, Option.map_some, Option.getD_some, zero_add,
    mm, k1, c3, young_eq m f.fe X hf, shear, col, plateStiffness_eq, Finset.sum_range_succ, Finset.sum_range_zero,
    show ¬ (1 : Nat) = 2 by decide, if_false, List.cons_append, List.nil_append, Res.ok.injEq, List.cons.injEq, and_true]
  constructor <;> ring

/-- C77 fails for beams with `nu ≠ 0`: with constant third derivative `w,xxx = 1` the moment changes by `-1` per length, but the shear
force is `-16/15`. -/
theorem C77_beam_violated : ∃ (m : Mat ℝ) (f : ℝ → Elm ℝ) (mom q : ℝ → ℝ), nuAt m ⟨0, 0, 0⟩ = 1 / 4 ∧
    (∀ x, HasDerivAt (fun t => (f t).d2N 1 1 1) 1 x) ∧
    (∀ x, evalSol1 m 1 (f x) ⟨0, 0, 0⟩ 1 1 (fun _ => 1) none = .ok [mom x, q x]) ∧
    (∀ x, HasDerivAt mom (-1) x) ∧ ∀ x, q x = -(16 / 15) := by
  refine ⟨{ Emod := 12, nu := 1 / 4, planeStress := true },
    fun x => ⟨1, fun _ => 0, 1, 1, fun _ _ _ => x, some fun _ _ _ _ => 1, 1, ⟨0, 0, 0⟩⟩, fun x => -x, fun _ => -(16 / 15), rfl,
    fun x => hasDerivAt_id x, fun x => ?_, fun x => (hasDerivAt_id x).neg, fun x => rfl⟩
  rw [evalSol1_1d _ ⟨1, fun _ => 0, 1, 1, fun _ _ _ => x, some fun _ _ _ _ => 1, 1, ⟨0, 0, 0⟩⟩ _ _ _ rfl rfl rfl (by simp) _ rfl]
  norm_num [youngAt, nuAt]

/-- C77 for beams: the shear force times `1 - nu²` is the derivative of the moment; so it is correct for `nu = 0`. -/
theorem C77_beam_partial (m : Mat ℝ) (f : ℝ → Elm ℝ) (X : ℝ → Pt ℝ) (T age : ℝ) (n : Nat) (u : Nat → ℝ)
    (d3 : ℝ → Nat → Nat → Nat → Nat → ℝ) (hn0 : n ≠ 0) (hE : m.Efield = none) (hE2 : m.Efunc = none)
    (hnu : m.nuFunc = none) (h1 : m.nu ^ 2 ≠ 1)
    (hd : ∀ x, (f x).dim2 = 1 ∧ (f x).dim3 = 1 ∧ (f x).nen = n ∧ (f x).fe.age = age ∧ (f x).d3N = some (d3 x))
    (hx : ∀ x a, HasDerivAt (fun t => (f t).d2N a 1 1) (d3 x a 1 1 1) x) :
    ∃ mom q : ℝ → ℝ, (∀ x, evalSol1 m 1 (f x) (X x) T n u none = .ok [mom x, q x]) ∧
      ∀ x, HasDerivAt mom ((1 - m.nu ^ 2) * q x) x := by
  have hv : ∀ Y, nuAt m Y = m.nu := fun Y => by simp [nuAt, hnu]
  have hyo : ∀ Y, youngAt m Y age = youngAt m ⟨0, 0, 0⟩ age := fun Y => by simp [youngAt, hE2]
  refine ⟨fun x => -(youngAt m ⟨0, 0, 0⟩ age * T ^ 3 / 12) * ∑ a ∈ Finset.range n, u (a + 1) * (f x).d2N (a + 1) 1 1,
    fun x => -(youngAt m ⟨0, 0, 0⟩ age * T ^ 3 / (12 - 12 * m.nu * m.nu)) * ∑ a ∈ Finset.range n, u (a + 1) * d3 x (a + 1) 1 1 1,
    fun x => ?_, fun x => ?_⟩
  · obtain ⟨d1, d2, d4, d5, d6⟩ := hd x
    have := evalSol1_1d m (f x) (X x) T u hE d1 d2 (by rw [d4]; exact hn0) _ d6
    rw [d4] at this
    rw [this, d5, hv, hyo]
  · have := (sum_deriv n u (fun a t => (f t).d2N a 1 1) (fun a t => d3 t a 1 1 1) x (fun a => hx x a)).const_mul
      (-(youngAt m ⟨0, 0, 0⟩ age * T ^ 3 / 12))
    refine HasDerivAt.congr_deriv this ?_
    have e : (1 : ℝ) - m.nu ^ 2 ≠ 0 := fun h => h1 (by linear_combination -h)
    have e' : (12 : ℝ) - 12 * m.nu * m.nu = 12 * (1 - m.nu ^ 2) := by ring
    simp only [e']
    field_simp

/-! ### Loads and mass -/

omit [LinearOrder K] [IsStrictOrderedRing K] in
theorem foldl_add (l : List K) (g : K → K) (c : K) : l.foldl (fun p f => p + g f) c = c + (l.map g).sum := by
  induction l generalizing c with
  | nil => simp
  | cons a l ih => simp only [List.foldl_cons, List.map_cons, List.sum_cons, ih]; ring

omit [LinearOrder K] [IsStrictOrderedRing K] in
/-- C78: the load per area is the own weight along the third axis and the sum of the pressures along the normal, or along the third
axis if no normal is given. For the time derivative there is no weight. -/
theorem C78_pressure (rho g T : K) (pres : List K) (n : Nat → K) (nzero grd : Bool) :
    getPressure rho g T pres n nzero grd 3 = (if grd then 0 else rho * g * T) + pres.sum * (if nzero then 1 else n 3) ∧
    ∀ i, i ≠ 3 → getPressure rho g T pres n nzero grd i = pres.sum * (if nzero then 0 else n i) := by
  have e : ∀ (l : List K) (c : K), (l.map fun f => f * c).sum = l.sum * c := fun l c => by
    have := List.sum_map_mul_right l (fun x : K => x) c
    simpa using this
  constructor
  · cases nzero <;> cases grd <;> simp [getPressure, foldl_add _ (fun f => f * n 3), e, foldl_add _ (fun f => f)]
  · intro i hi
    cases nzero <;> simp [getPressure, hi, foldl_add _ (fun f => f * n i), e]

/-- C78: the components of the load vector sum up to the load `p dJW`, which is also what is recorded as the load sum, for plates
(`npv = 1`) and shells (`npv = 3`). -/
theorem C78_resultant (nen : Nat) (N p : Nat → K) (dJW : K) (hN : ∑ a ∈ Finset.range nen, N (a + 1) = 1) :
    let plate := formBodyForce 1 N p dJW false
    let shell := formBodyForce 3 N p dJW false
    (p 1 = 0 → p 2 = 0 → ∑ a ∈ Finset.range nen, plate.1 (a + 1) 1 = p 3 * dJW ∧ plate.2 1 = p 3 * dJW) ∧
    ∀ i, 1 ≤ i → i ≤ 3 → ∑ a ∈ Finset.range nen, shell.1 (a + 1) i = p i * dJW ∧ shell.2 i = p i * dJW := by
  constructor
  · intro p1 p2
    by_cases h : p 3 = 0
    · simp [formBodyForce, p1, p2, h]
    · simp [formBodyForce, p1, p2, h, ← Finset.sum_mul, hN]
  · intro i i1 i2
    by_cases h : p 1 = 0 ∧ p 2 = 0 ∧ p 3 = 0
    · have : p i = 0 := by
        obtain ⟨h1, h2, h3⟩ := h
        interval_cases i <;> assumption
      simp only [formBodyForce, h, and_self, if_true, this]
      simp
    · simp only [formBodyForce, h, if_false, show ¬ (3 : Nat) = 1 by decide, i2, if_true, ← Finset.sum_mul, hN]
      simp

/-- C78: time derivatives of loads enter the load vector in the same way, but not the load sums. -/
theorem C78_time_derivative (npv : Nat) (N p : Nat → K) (dJW : K) (i : Nat) :
    (formBodyForce npv N p dJW true).2 i = 0 ∧ (formBodyForce npv N p dJW true).1 = (formBodyForce npv N p dJW false).1 := by
  unfold formBodyForce
  by_cases h : p 1 = 0 ∧ p 2 = 0 ∧ p 3 = 0
  · simp only [if_pos h]; simp
  · by_cases h1 : npv = 1
    · simp only [if_neg h, if_pos h1]; simp
    · simp only [if_neg h, if_neg h1]; simp

/-- C78: the mass matrix gives the kinetic energy of the mass `rho T` per area moving with the interpolated velocity, and the
total mass in each direction. -/
theorem C78_mass (npv nen : Nat) (rho T dJW : K) (N : Nat → K) (v u : Nat → Nat → K) (hp : npv = 1 ∨ npv = 3) :
    ∑ a ∈ Finset.range nen, ∑ i ∈ Finset.range npv, ∑ b ∈ Finset.range nen, ∑ j ∈ Finset.range npv,
      v (a + 1) (i + 1) * formMassMatrix npv rho T N dJW (a + 1) (i + 1) (b + 1) (j + 1) * u (b + 1) (j + 1) =
    rho * T * dJW * ∑ i ∈ Finset.range npv, (∑ a ∈ Finset.range nen, N (a + 1) * v (a + 1) (i + 1)) *
      ∑ b ∈ Finset.range nen, N (b + 1) * u (b + 1) (i + 1) := by
  have e : ∀ a i b j, i < npv → j < npv → formMassMatrix npv rho T N dJW (a + 1) (i + 1) (b + 1) (j + 1) =
      if i = j then rho * T * dJW * N (a + 1) * N (b + 1) else 0 := by
    intro a i b j hi hj
    unfold formMassMatrix
    by_cases h : rho * T * dJW = 0
    · simp [h]
    · by_cases h1 : npv = 1
      · have : i = j := by omega
        simp only [h, h1, this, if_true, if_false]; ring
      · simp [h, h1]
  rw [Finset.mul_sum, Finset.sum_comm]
  refine Finset.sum_congr rfl fun i hi => ?_
  rw [Finset.sum_mul, Finset.mul_sum]
  refine Finset.sum_congr rfl fun a _ => ?_
  rw [Finset.mul_sum, Finset.mul_sum]
  refine Finset.sum_congr rfl fun b _ => ?_
  rw [Finset.sum_eq_single_of_mem i hi]
  · rw [e a i b i (Finset.mem_range.1 hi) (Finset.mem_range.1 hi), if_pos rfl]; ring
  · intro j hj hij
    rw [e a i b j (Finset.mem_range.1 hi) (Finset.mem_range.1 hj), if_neg (Ne.symm hij)]; ring

omit [LinearOrder K] [IsStrictOrderedRing K] in
/-- C78: the two elements sharing an interface together get the whole line load. -/
theorem C78_lineLoad [CharZero K] (n1 n2 : Nat) (N1 N2 : Nat → K) (pz dJW : K) (h1 : ∑ a ∈ Finset.range n1, N1 (a + 1) = 1)
    (h2 : ∑ a ∈ Finset.range n2, N2 (a + 1) = 1) :
    (∑ a ∈ Finset.range n1, (lineLoad N1 pz dJW).1 (a + 1)) + (∑ a ∈ Finset.range n2, (lineLoad N2 pz dJW).1 (a + 1)) = pz * dJW ∧
    (lineLoad N1 pz dJW).2 + (lineLoad N2 pz dJW).2 = pz * dJW := by
  simp only [lineLoad, ← Finset.sum_mul, h1, h2]
  constructor <;> ring

/-- Basis functions with sum one, and a load in all three directions. -/
example : ∃ (N : Nat → ℚ) (p : Nat → ℚ), ∑ a ∈ Finset.range 3, N (a + 1) = 1 ∧ p 1 ≠ 0 ∧ p 2 ≠ 0 ∧ p 3 ≠ 0 :=
  ⟨fun a => if a = 1 then 1 / 2 else 1 / 4, fun i => i, by norm_num [Finset.sum_range_succ], by norm_num, by norm_num, by norm_num⟩

/-! ### Output fields -/

/-- C79: the number of values computed equals the announced number, and each of them has a name of its own, when shear forces are
computed exactly when they are announced. -/
theorem C79_fields_partial (m : Mat K) (f : Elm K) (X : Pt K) (T : K) (u : Nat → K) (loc : Option (Nat → Nat → K)) (rec : Bool)
    (ha : m.axiSymmetry = false) (hp : m.planeStress = true) (hf : m.Efield = none) (hn : Admissible m X)
    (h2 : f.dim2 = 2) (h3 : f.dim3 = 2) (h0 : f.nen ≠ 0) (hr : f.d3N.isSome = rec) :
    ∃ s, evalSol1 m 2 f X T f.nen u loc = .ok s ∧ s.length = getNoFields 1 2 2 rec := by
  refine ⟨_, evalSol1_2d m f X T u loc ha hp hf hn h2 h3 h0, ?_⟩
  cases loc <;> cases hd : f.d3N <;> simp [hd] at hr <;> subst hr <;> simp [getNoFields]

/-- C79: names of the fields. -/
theorem C79_names :
    (List.range (getNoFields 1 2 2 true)).map (getField2Name 1 2) = ["m_xx", "m_yy", "m_xy", "q_x", "q_y"] ∧
    (List.range (getNoFields 1 2 2 false)).map (getField2Name 1 2) = ["m_xx", "m_yy", "m_xy"] ∧
    (List.range (getNoFields 1 1 2 true)).map (getField2Name 1 1) = ["m_xx", "q_x"] ∧
    (List.range (getNoFields 1 1 2 false)).map (getField2Name 1 1) = ["m_xx"] ∧
    (∀ rec, (List.range (getNoFields 2 2 2 rec)).map (getField2Name 2 2) = ["d2w/dx2", "d2w/dy2", "d2w/dxy"]) ∧
    (∀ rec, (List.range (getNoFields 3 2 2 rec)).map (getField2Name 3 2) = ["d2w/dx2", "d2w/dy2"]) ∧
    (∀ v rec, v = 2 ∨ v = 3 → (List.range (getNoFields v 1 2 rec)).map (getField2Name v 1) = ["d2w/dx2"]) ∧
    (∀ v nsd rec, getNoFields v nsd 1 rec = 1) := by
  refine ⟨by decide, by decide, by decide, by decide, by decide, by decide, ?_, fun v nsd rec => by simp [getNoFields]⟩
  intro v rec hv
  rcases hv with rfl | rfl <;> cases rec <;> decide

omit [LinearOrder K] [IsStrictOrderedRing K] in
/-- C79: the values of the other versions are the second derivatives their names say. -/
theorem C79_derivatives (f : Elm K) (u : Nat → K) (rec : Bool) (h : f.dim2 = 2) :
    let w := fun i j => ∑ a ∈ Finset.range f.nen, u (a + 1) * f.d2N (a + 1) i j
    evalSol2 2 2 f u rec = .ok [w 1 1, w 2 2, w 1 2] ∧ evalSol2 3 2 f u rec = .ok [w 1 1, w 2 2] ∧
    ∀ g : Elm K, g.dim2 = 1 → ∀ v, v = 2 ∨ v = 3 →
      evalSol2 v 1 g u rec = .ok [∑ a ∈ Finset.range g.nen, u (a + 1) * g.d2N (a + 1) 1 1] := by
  have r3 : List.range 3 = [0, 1, 2] := rfl
  have r2 : List.range 2 = [0, 1] := rfl
  have r1 : List.range 1 = [0] := rfl
  refine ⟨?_, ?_, ?_⟩
  · simp [evalSol2, getNoFields, h, r3, col]
  · simp [evalSol2, getNoFields, h, r2, col]
  · intro g hg v hv
    rcases hv with rfl | rfl <;> simp [evalSol2, getNoFields, hg, r1, col]

/-- C79 fails with the option `noshear`: in recovery mode five values are announced, but without third derivatives of the basis
functions only three are computed. -/
theorem C79_fields_violated : ∃ (m : Mat ℚ) (f : Elm ℚ) (s : List ℚ), f.d3N = none ∧
    evalSol1 m 2 f ⟨0, 0, 0⟩ 1 1 (fun _ => 1) none = .ok s ∧ s.length = 3 ∧ getNoFields 1 2 2 true = 5 := by
  have ha : Admissible (K := ℚ) { Emod := 144, nu := 0, planeStress := true } ⟨0, 0, 0⟩ := by constructor <;> norm_num [nuAt]
  let f : Elm ℚ := ⟨1, fun _ => 0, 2, 2, fun _ _ _ => 0, none, 1, ⟨0, 0, 0⟩⟩
  have e1 := evalSol1_2d (K := ℚ) { Emod := 144, nu := 0, planeStress := true } f ⟨0, 0, 0⟩ 1 (fun _ => 1) none rfl rfl rfl ha rfl
    rfl (by decide)
  exact ⟨_, f, _, rfl, e1, rfl, rfl⟩

end Verif.Plate
