/-
Specification of finite strains and of areas in the deformed configuration, independent of the code.
Directions are `1, 2, 3`, nodes are `1..n`.
-/
import Verif.Spec.Continuum

namespace Verif.FiniteSpec

open Verif.ContSpec

variable {K : Type*} [Field K]

/-- The Green-Lagrange strain `E = ½(H + Hᵀ + HᵀH)` of a displacement gradient `H` in `d`
dimensions. -/
def green (d : Nat) (H : Nat → Nat → K) (i j : Nat) : K :=
  1 / 2 * (H i j + H j i + ∑ k ∈ Finset.range d, H (k + 1) i * H (k + 1) j)

/-- Engineering components: normal strains followed by twice the shear strains. -/
def engineering (d : Nat) (E : Nat → Nat → K) (i : Nat) : K :=
  if d = 3 then eng3 E i else eng2 E i

/-- The Green-Lagrange hoop strain of a ring with radius `r` and radial displacement `ur`. -/
def hoopStrain (ur r : K) : K := ur / r + 1 / 2 * (ur / r) ^ 2

/-- Nodal values `u + t v`. -/
def along (u v : Nat → Nat → K) (t : K) (a i : Nat) : K := u a i + t * v a i

/-- The vector product. -/
def cross (a b : Fin 3 → K) : Fin 3 → K :=
  ![a 1 * b 2 - a 2 * b 1, a 2 * b 0 - a 0 * b 2, a 0 * b 1 - a 1 * b 0]

/-- A vector rotated by a right angle (the normal of a line element). -/
def rot (a : Fin 2 → K) : Fin 2 → K := ![a 1, -a 0]

end Verif.FiniteSpec
