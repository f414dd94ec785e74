/-
Specification of finite strain plasticity in logarithmic principal strains (independent of the
model): the elastic law, the implicit equations of a plastic step, and tensors from principal values.
-/
import Mathlib.Analysis.Real.Sqrt
import Mathlib.Data.Matrix.Mul
import Mathlib.LinearAlgebra.Matrix.Notation

namespace Verif.Spec.Plasticity

/-- Mean value of three principal values. -/
noncomputable def mean (v : Fin 3 → ℝ) : ℝ := (v 0 + v 1 + v 2) / 3

/-- Deviatoric part. -/
noncomputable def dev (v : Fin 3 → ℝ) : Fin 3 → ℝ := fun i => v i - mean v

/-- Euclidean norm. -/
noncomputable def len (v : Fin 3 → ℝ) : ℝ := Real.sqrt (v 0 ^ 2 + v 1 ^ 2 + v 2 ^ 2)

/-- Principal Kirchhoff stresses of Hencky's law for logarithmic elastic strains `e`. -/
noncomputable def hencky (K G : ℝ) (e : Fin 3 → ℝ) : Fin 3 → ℝ :=
  fun i => K * (e 0 + e 1 + e 2) + 2 * G * dev e i

/-- The symmetric tensor with principal values `l` and principal directions in the columns of `N`. -/
def tensor (l : Fin 3 → ℝ) (N : Matrix (Fin 3) (Fin 3) ℝ) : Matrix (Fin 3) (Fin 3) ℝ :=
  N * Matrix.diagonal l * N.transpose

/-- The implicit equations of a plastic step with associated flow, isotropic hardening `sy` (yield
stress as a function of the accumulated plastic strain) and Prager's kinematic hardening with modulus
`H`: the elastic strain `e`, the stress `tau`, the plastic strain `ep'` and the accumulated plastic
strain `a'` follow from the trial strain `eTr` and the previous `ep` and `a`; `nu` is the unit normal
of the final relative stress, and `f` the final value of the yield function. -/
structure Step (K G H : ℝ) (sy : ℝ → ℝ) (eTr ep : Fin 3 → ℝ) (a : ℝ) (g : ℝ) (e tau ep' : Fin 3 → ℝ)
    (a' f : ℝ) : Prop where
  multiplier : 0 ≤ g
  elastic : tau = hencky K G e
  flow : ∃ nu : Fin 3 → ℝ, len nu = 1 ∧ mean nu = 0 ∧ (∀ i, e i = eTr i - g * nu i) ∧
    (∀ i, ep' i = ep i + g * nu i) ∧
    (∀ i, dev (fun j => tau j - 2 / 3 * H * ep' j) i =
      len (dev fun j => tau j - 2 / 3 * H * ep' j) * nu i)
  accumulated : a' = a + Real.sqrt (2 / 3) * g
  yield : f = len (dev fun j => tau j - 2 / 3 * H * ep' j) - Real.sqrt (2 / 3) * sy a'

/-- What is assumed of a routine for principal values: for symmetric tensors it gives orthonormal
directions and the values in descending order. -/
def Principal (prin : Matrix (Fin 3) (Fin 3) ℝ → Option ((Fin 3 → ℝ) × Matrix (Fin 3) (Fin 3) ℝ)) :
    Prop :=
  ∀ b : Matrix (Fin 3) (Fin 3) ℝ, b.transpose = b → ∃ l N, prin b = some (l, N) ∧
    N * N.transpose = 1 ∧ tensor l N = b ∧ l 1 ≤ l 0 ∧ l 2 ≤ l 1

end Verif.Spec.Plasticity
