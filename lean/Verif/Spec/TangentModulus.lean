/-
Specification of a tangent modulus: the matrix that gives the objective stress rate (independent of
the model).
-/
import Verif.Spec.Plasticity
import Mathlib.Analysis.Calculus.Deriv.Basic
import Mathlib.LinearAlgebra.Matrix.NonsingularInverse
import Mathlib.Data.Matrix.Mul
import Mathlib.LinearAlgebra.Matrix.Notation

namespace Verif.Spec.TangentModulus

abbrev T3 := Matrix (Fin 3) (Fin 3) ℝ

/-- Strain components in the order of the stress components of two-dimensional states without (3) and
with (4) the out-of-plane component, and of three-dimensional states; shear components are doubled. -/
def strains (ns : Nat) (D : T3) : List ℝ :=
  if ns = 3 then [D 0 0, D 1 1, 2 * D 0 1]
  else if ns = 4 then [D 0 0, D 1 1, D 2 2, 2 * D 0 1]
  else [D 0 0, D 1 1, D 2 2, 2 * D 0 1, 2 * D 1 2, 2 * D 2 0]

/-- A matrix, given by its rows, applied to a vector. -/
def apply (C : List (List ℝ)) (v : List ℝ) : List ℝ :=
  C.map fun row => (List.zipWith (· * ·) row v).sum

/-- What the strain components of a two-dimensional state leave out is zero. -/
def Fits (ns : Nat) (D : T3) : Prop :=
  (ns = 3 → D 2 2 = 0) ∧ (ns = 3 ∨ ns = 4 → D 1 2 = 0 ∧ D 2 0 = 0)

/-- `A'` is the derivative of the tensor function `A` at time zero. -/
def Rate (A : ℝ → T3) (A' : T3) : Prop := ∀ i j, HasDerivAt (fun t => A t i j) (A' i j) 0

/-- The rate of strain of a velocity gradient. -/
noncomputable def strainRate (L : T3) : T3 := (1 / 2 : ℝ) • (L + L.transpose)

/-- The convected (Oldroyd) rate of a stress tensor with material rate `R`. -/
def oldroyd (L T R : T3) : T3 := R - L * T - T * L.transpose

/-- A motion through the deformation gradients `F`, with velocity gradient `L` at time zero. `l` and
`N` are the principal values and directions of the trial tensor `(F Fp⁻¹) be (F Fp⁻¹)ᵀ`, in any order,
differentiable at time zero. Different principal values differ by more than `10⁻⁸`. -/
structure Motion (Fp be : T3) (F : ℝ → T3) (L : T3) (l : ℝ → Fin 3 → ℝ) (N : ℝ → T3) : Prop where
  grad : Rate F (L * F 0)
  regular : Fp.det ≠ 0 ∧ (F 0).det ≠ 0
  axes : ∀ t, N t * (N t).transpose = 1
  decomp : ∀ t, Plasticity.tensor (l t) (N t) = F t * Fp⁻¹ * be * (F t * Fp⁻¹).transpose
  smoothN : ∃ N', Rate N N'
  smooth : ∃ l' : Fin 3 → ℝ, ∀ i, HasDerivAt (fun t => l t i) (l' i) 0
  positive : ∀ i, 0 < l 0 i
  gap : ∀ a b, l 0 a = l 0 b ∨ 1 / 10 ^ 8 < |l 0 a - l 0 b|

end Verif.Spec.TangentModulus
