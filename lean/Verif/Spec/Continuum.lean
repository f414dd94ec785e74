/-
Specification of small strains and rigid motions of a discretised body, independent of the code.
Nodes are `1..n`, directions are `1, 2, 3`.
-/
import Verif.Basic

namespace Verif.ContSpec

variable {K : Type*} [Field K]

/-- The displacement gradient `∂u_i/∂x_j` of the interpolated field, for nodal displacements
`u a i` and shape function gradients `dN(a,j)`. -/
def grad (n : Nat) (u : Nat → Nat → K) (dN : Nat → Nat → K) (i j : Nat) : K :=
  ∑ a ∈ Finset.range n, u (a + 1) i * dN (a + 1) j

/-- The value of the interpolated displacement component. -/
def val (n : Nat) (u : Nat → Nat → K) (N : Nat → K) (i : Nat) : K :=
  ∑ a ∈ Finset.range n, u (a + 1) i * N (a + 1)

/-- Engineering strain in the order xx, yy, zz, xy, yz, xz. -/
def eng3 (H : Nat → Nat → K) : Nat → K
  | 1 => H 1 1
  | 2 => H 2 2
  | 3 => H 3 3
  | 4 => H 1 2 + H 2 1
  | 5 => H 2 3 + H 3 2
  | 6 => H 1 3 + H 3 1
  | _ => 0

/-- Engineering strain in the order xx, yy, xy. -/
def eng2 (H : Nat → Nat → K) : Nat → K
  | 1 => H 1 1
  | 2 => H 2 2
  | 3 => H 1 2 + H 2 1
  | _ => 0

/-- Engineering strain in the order rr, zz, θθ, rz. -/
def engAxi (H : Nat → Nat → K) (hoop : K) : Nat → K
  | 1 => H 1 1
  | 2 => H 2 2
  | 3 => hoop
  | 4 => H 1 2 + H 2 1
  | _ => 0

/-- Infinitesimal rigid motion: translation `c` plus rotation with a skew matrix `W`. -/
structure Rigid (d : Nat) (x u : Nat → Nat → K) : Prop where
  ex : ∃ (c : Nat → K) (W : Nat → Nat → K), (∀ i j, W i j = -W j i) ∧
    (∀ i, W i i = 0) ∧
    ∀ a i, u a i = c i + ∑ k ∈ Finset.range d, W i (k + 1) * x a (k + 1)

/-- The basis reproduces constants and the coordinates (isoparametric completeness), at gradient
level: `Σ_a ∂N_a/∂x_j = 0` and `Σ_a x_{a,i} ∂N_a/∂x_j = δ_ij`. -/
structure Complete (d n : Nat) (x : Nat → Nat → K) (dN : Nat → Nat → K) : Prop where
  const : ∀ j, 1 ≤ j → j ≤ d → ∑ a ∈ Finset.range n, dN (a + 1) j = 0
  lin : ∀ i j, 1 ≤ i → i ≤ d → 1 ≤ j → j ≤ d →
    ∑ a ∈ Finset.range n, x (a + 1) i * dN (a + 1) j = if i = j then 1 else 0

end Verif.ContSpec
