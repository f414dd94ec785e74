/-
What the beam properties are about: the work of element matrices and vectors, the kinematics of a rigid arm,
rigid-body motions of the two end points.

The displacements of the two nodes are `u 1 … u 6` and `u 7 … u 12`: three translations followed by three
rotations each.
-/
import Mathlib.Algebra.BigOperators.Fin
import Mathlib.Algebra.Field.Basic

namespace Verif.Beam

variable {K : Type*} [Field K]

/-- `uᵀ A v` for a 12×12 matrix. -/
def form (A : Nat → Nat → K) (u v : Nat → K) : K :=
  ∑ i ∈ Finset.range 12, u (i + 1) * ∑ j ∈ Finset.range 12, A (i + 1) (j + 1) * v (j + 1)

/-- `bᵀ v` for a vector of twelve components. -/
def work (b v : Nat → K) : K := ∑ i ∈ Finset.range 12, b (i + 1) * v (i + 1)

/-- Displacements of the two points at `-e1` and `-e2` from the nodes, rigidly connected to them: the
translation is `t + θ × (-e)`, the rotation is the same. -/
def armed (e1 e2 : Fin 3 → K) (u : Nat → K) : Nat → K
  | 1 => u 1 + (u 6 * e1 1 - u 5 * e1 2)
  | 2 => u 2 + (u 4 * e1 2 - u 6 * e1 0)
  | 3 => u 3 + (u 5 * e1 0 - u 4 * e1 1)
  | 7 => u 7 + (u 12 * e2 1 - u 11 * e2 2)
  | 8 => u 8 + (u 10 * e2 2 - u 12 * e2 0)
  | 9 => u 9 + (u 11 * e2 0 - u 10 * e2 1)
  | k => u k

/-- Displacements of the points at `(0, Sy, Sz)` from the nodes due to the rotation about the beam axis. -/
def centred (Sy Sz : K) (u : Nat → K) : Nat → K
  | 2 => u 2 - u 4 * Sz
  | 3 => u 3 + u 4 * Sy
  | 8 => u 8 - u 10 * Sz
  | 9 => u 9 + u 10 * Sy
  | k => u k

/-- Displacements of the two ends of a beam along the first axis, moving as a rigid body with translation `t` of the
first end and rotation `r`. -/
def rigid (L : K) (t r : Fin 3 → K) : Nat → K
  | 1 => t 0
  | 2 => t 1
  | 3 => t 2
  | 4 => r 0
  | 5 => r 1
  | 6 => r 2
  | 7 => t 0
  | 8 => t 1 + r 2 * L
  | 9 => t 2 - r 1 * L
  | 10 => r 0
  | 11 => r 1
  | 12 => r 2
  | _ => 0

end Verif.Beam
