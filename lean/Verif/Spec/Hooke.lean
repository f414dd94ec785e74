/-
Textbook isotropic linear elasticity, stated with 3×3 tensors and independent of the
Voigt matrices of the code.
-/
import Mathlib.LinearAlgebra.Matrix.Trace
import Mathlib.LinearAlgebra.Matrix.Notation

namespace Verif.Spec

variable {K : Type*} [Field K]

/-- Hooke's law `σ = λ tr(ε) I + 2 μ ε`. -/
def hooke (lam mu : K) (eps : Matrix (Fin 3) (Fin 3) K) : Matrix (Fin 3) (Fin 3) K :=
  (lam * eps.trace) • (1 : Matrix (Fin 3) (Fin 3) K) + (2 * mu) • eps

/-- Strain tensor with components xx, yy, zz and engineering shears xy, yz, xz. -/
def strain (xx yy zz xy yz xz : K) : Matrix (Fin 3) (Fin 3) K :=
  !![xx, xy / 2, xz / 2; xy / 2, yy, yz / 2; xz / 2, yz / 2, zz]

/-- Stress tensor with components xx, yy, zz, xy, yz, xz. -/
def stress (xx yy zz xy yz xz : K) : Matrix (Fin 3) (Fin 3) K :=
  !![xx, xy, xz; xy, yy, yz; xz, yz, zz]

/-- Full contraction `σ : ε`. -/
def ddot (s e : Matrix (Fin 3) (Fin 3) K) : K := ∑ i, ∑ j, s i j * e i j

end Verif.Spec
