/-
Model of the Fortran routines for the material stiffness matrix: FiniteDeformation/accKM.f, accKMx.f and stiff_TL.f, and of the stiffness and internal force
loops of the tensorial total Lagrangian formulation, FiniteDeformation/NonlinearElasticity.C.

Numbers are elements of a commutative ring. Nodes are natural numbers (the loops over the NENOD nodes treat every pair of nodes once, so the result is
given pair by pair). The element matrix is a function of component and node of the row and of the column, as in the Fortran declaration EKt(nsd,NENOD,nsd,NENOD);
indices are zero-based, so row 0..6 of the matrix D is row 1..7 in the code.
-/
import Mathlib.Algebra.BigOperators.Fin
import Mathlib.Data.Fin.VecNotation
import Mathlib.Algebra.Field.Basic

namespace Verif.FtnStiff

variable {K : Type} [CommRing K]

/-! ### accKM.f and accKMx.f -/

/-- The array BBC in `accKM2D` (FiniteDeformation/accKM.f:24-36) with the axisymmetric term. -/
def bbc2 (axi : Bool) (Nr : Nat → K) (dN : Nat → Fin 2 → K) (D : Fin 7 → Fin 7 → K) (a : Nat) (i : Fin 2) (j : Fin 7) : K :=
  let v := ![dN a 0 * D 0 j + dN a 1 * D 3 j, dN a 0 * D 3 j + dN a 1 * D 1 j]
  if axi ∧ i = 0 then v 0 + Nr a * D 2 j else v i

/-- `accKM2D` (FiniteDeformation/accKM.f:14-64). -/
def accKM2D (axi : Bool) (Nr : Nat → K) (dN : Nat → Fin 2 → K) (D : Fin 7 → Fin 7 → K) (EK : Fin 2 → Nat → Fin 2 → Nat → K) :
    Fin 2 → Nat → Fin 2 → Nat → K := fun i a j b =>
  let B := bbc2 axi Nr dN D a i
  let e := EK i a j b + ![B 0 * dN b 0 + B 3 * dN b 1, B 3 * dN b 0 + B 1 * dN b 1] j
  if axi ∧ j = 0 then e + B 2 * Nr b else e

/-- The array BBC in `accKM3D` (FiniteDeformation/accKM.f:81-91). -/
def bbc3 (dN : Nat → Fin 3 → K) (D : Fin 7 → Fin 7 → K) (a : Nat) (i : Fin 3) (j : Fin 7) : K :=
  ![dN a 0 * D 0 j + dN a 1 * D 3 j + dN a 2 * D 5 j,
    dN a 0 * D 3 j + dN a 1 * D 1 j + dN a 2 * D 4 j,
    dN a 0 * D 5 j + dN a 1 * D 4 j + dN a 2 * D 2 j] i

/-- `accKM3D` (FiniteDeformation/accKM.f:67-144). -/
def accKM3D (dN : Nat → Fin 3 → K) (D : Fin 7 → Fin 7 → K) (EK : Fin 3 → Nat → Fin 3 → Nat → K) : Fin 3 → Nat → Fin 3 → Nat → K := fun i a j b =>
  let B := bbc3 dN D a i
  EK i a j b +
    ![B 0 * dN b 0 + B 3 * dN b 1 + B 5 * dN b 2,
      B 3 * dN b 0 + B 1 * dN b 1 + B 4 * dN b 2,
      B 5 * dN b 0 + B 4 * dN b 1 + B 2 * dN b 2] j

/-- The array BBC in `accKMx2D` (FiniteDeformation/accKMx.f:25-39). -/
def bbcx2 (axi : Bool) (Nr : Nat → K) (dN dNbar : Nat → Fin 2 → K) (D : Fin 7 → Fin 7 → K) (a : Nat) (i : Fin 2) (j : Fin 7) : K :=
  let v := ![dN a 0 * D 0 j + dN a 1 * D 3 j + dNbar a 0 * D 6 j, dN a 0 * D 3 j + dN a 1 * D 1 j + dNbar a 1 * D 6 j]
  if axi ∧ i = 0 then v 0 + Nr a * D 2 j else v i

/-- `accKMx2D` (FiniteDeformation/accKMx.f:14-71). -/
def accKMx2D (axi : Bool) (Nr : Nat → K) (dN dNbar : Nat → Fin 2 → K) (D : Fin 7 → Fin 7 → K) (EK : Fin 2 → Nat → Fin 2 → Nat → K) :
    Fin 2 → Nat → Fin 2 → Nat → K := fun i a j b =>
  let B := bbcx2 axi Nr dN dNbar D a i
  let e := EK i a j b + ![B 0 * dN b 0 + B 3 * dN b 1 + B 6 * dNbar b 0, B 3 * dN b 0 + B 1 * dN b 1 + B 6 * dNbar b 1] j
  if axi ∧ j = 0 then e + B 2 * Nr b else e

/-- The array BBC in `accKMx3D` (FiniteDeformation/accKMx.f:88-101). -/
def bbcx3 (dN dNbar : Nat → Fin 3 → K) (D : Fin 7 → Fin 7 → K) (a : Nat) (i : Fin 3) (j : Fin 7) : K :=
  ![dN a 0 * D 0 j + dN a 1 * D 3 j + dN a 2 * D 5 j + dNbar a 0 * D 6 j,
    dN a 0 * D 3 j + dN a 1 * D 1 j + dN a 2 * D 4 j + dNbar a 1 * D 6 j,
    dN a 0 * D 5 j + dN a 1 * D 4 j + dN a 2 * D 2 j + dNbar a 2 * D 6 j] i

/-- `accKMx3D` (FiniteDeformation/accKMx.f:74-163). -/
def accKMx3D (dN dNbar : Nat → Fin 3 → K) (D : Fin 7 → Fin 7 → K) (EK : Fin 3 → Nat → Fin 3 → Nat → K) : Fin 3 → Nat → Fin 3 → Nat → K :=
  fun i a j b =>
  let B := bbcx3 dN dNbar D a i
  EK i a j b +
    ![B 0 * dN b 0 + B 3 * dN b 1 + B 5 * dN b 2 + B 6 * dNbar b 0,
      B 3 * dN b 0 + B 1 * dN b 1 + B 4 * dN b 2 + B 6 * dNbar b 1,
      B 5 * dN b 0 + B 4 * dN b 1 + B 2 * dN b 2 + B 6 * dNbar b 2] j

/-! ### stiff_TL.f -/

/-- The Voigt index in `stiff_TL2D` (FiniteDeformation/stiff_TL.f:23-42) for a pair in either order. -/
def voigt2 (i j : Fin 2) : Fin 3 := if i = j then ![0, 1] i else 2

/-- The Voigt index in `stiff_TL3D` (FiniteDeformation/stiff_TL.f:79-97): `a = j+2` for `i = 1 < j` and 6 otherwise. -/
def voigt3 (i j : Fin 3) : Fin 6 :=
  if i = j then ![0, 1, 2] i
  else if min i j = 0 then ![0, 3, 4] (max i j)
  else 5

/-- The products in the inner loops of `stiff_TL2D` and `stiff_TL3D` (FiniteDeformation/stiff_TL.f:49-58, 112-121) for Voigt index `v`. -/
def km {d e : Nat} (v : Fin d → Fin d → Fin e) (dN : Nat → Fin d → K) (F : Fin d → Fin d → K) (C : Fin e → Fin e → K) (m : Fin d) (a : Nat) (n : Fin d)
    (b : Nat) : K :=
  ∑ i, ∑ j, ∑ k, ∑ l, dN a i * F m j * C (v i j) (v k l) * F n k * dN b l

/-- The outer loops of all routines in stiff_TL.f (e.g. FiniteDeformation/stiff_TL.f:45-66): the node pairs with a ≤ b are computed, the other ones copied. -/
def spread {d : Nat} (k : Fin d → Nat → Fin d → Nat → K) (w : K) (EK : Fin d → Nat → Fin d → Nat → K) : Fin d → Nat → Fin d → Nat → K :=
  fun m a n b => EK m a n b + (if a ≤ b then k m a n b * w else k n b m a * w)

/-- `stiff_TL2D` (FiniteDeformation/stiff_TL.f:14-69). -/
def stiffTL2D (w : K) (dN : Nat → Fin 2 → K) (F : Fin 2 → Fin 2 → K) (C : Fin 3 → Fin 3 → K) :=
  spread (km voigt2 dN F C) w

/-- `stiff_TL3D` (FiniteDeformation/stiff_TL.f:72-131). -/
def stiffTL3D (w : K) (dN : Nat → Fin 3 → K) (F : Fin 3 → Fin 3 → K) (C : Fin 6 → Fin 6 → K) :=
  spread (km voigt3 dN F C) w

/-- The sums in `stiff_TL2D_isoel` (FiniteDeformation/stiff_TL.f:152-166). -/
def kmIso2 (dN : Nat → Fin 2 → K) (F : Fin 2 → Fin 2 → K) (C1 C2 C3 : K) (m : Fin 2) (a : Nat) (n : Fin 2) (b : Nat) : K :=
  let ek1 := dN a 0 * F m 0 * F n 0 * dN b 0 + dN a 1 * F m 1 * F n 1 * dN b 1
  let ek2 := dN a 0 * F m 0 * F n 1 * dN b 1 + dN a 1 * F m 1 * F n 0 * dN b 0
  let ek3 := dN a 0 * F m 1 * (F n 0 * dN b 1 + F n 1 * dN b 0) + dN a 1 * F m 0 * (F n 1 * dN b 0 + F n 0 * dN b 1)
  ek1 * C1 + ek2 * C2 + ek3 * C3

/-- `stiff_TL2D_isoel` (FiniteDeformation/stiff_TL.f:134-177). -/
def stiffTL2Diso (w : K) (dN : Nat → Fin 2 → K) (F : Fin 2 → Fin 2 → K) (C1 C2 C3 : K) := spread (kmIso2 dN F C1 C2 C3) w

/-- The pairs i < j of the loops in `stiff_TL3D_isoel`. -/
def pairs3 : List (Fin 3 × Fin 3) := [(0, 1), (0, 2), (1, 2)]

/-- The sums in `stiff_TL3D_isoel` (FiniteDeformation/stiff_TL.f:204-218). -/
def kmIso3 (dN : Nat → Fin 3 → K) (F : Fin 3 → Fin 3 → K) (C1 C2 C3 : K) (m : Fin 3) (a : Nat) (n : Fin 3) (b : Nat) : K :=
  let ek1 := ∑ i, dN a i * F m i * F n i * dN b i
  let ek2 := (pairs3.map fun p => dN a p.1 * F m p.1 * F n p.2 * dN b p.2 + dN a p.2 * F m p.2 * F n p.1 * dN b p.1).sum
  let ek3 := (pairs3.map fun p => dN a p.1 * F m p.2 * (F n p.1 * dN b p.2 + F n p.2 * dN b p.1)
    + dN a p.2 * F m p.1 * (F n p.2 * dN b p.1 + F n p.1 * dN b p.2)).sum
  ek1 * C1 + ek2 * C2 + ek3 * C3

/-- `stiff_TL3D_isoel` (FiniteDeformation/stiff_TL.f:180-231). -/
def stiffTL3Diso (w : K) (dN : Nat → Fin 3 → K) (F : Fin 3 → Fin 3 → K) (C1 C2 C3 : K) := spread (kmIso3 dN F C1 C2 C3) w

/-! ### NonlinearElasticity::evalInt -/

/-- The material stiffness in one dimension (FiniteDeformation/NonlinearElasticity.C:134-137). -/
def stiff1D (w : K) (dN : Nat → K) (F C : K) (EK : Nat → Nat → K) : Nat → Nat → K := fun a b => EK a b + dN a * F * C * F * dN b

/-- The choice of routine in three dimensions (FiniteDeformation/NonlinearElasticity.C:120-126). -/
def evalKm3 (full : Bool) (w : K) (dN : Nat → Fin 3 → K) (F : Fin 3 → Fin 3 → K) (C : Fin 6 → Fin 6 → K) :=
  if full then stiffTL3D w dN F C else stiffTL3Diso w dN F (C 0 0) (C 0 1) (C 3 3)

/-- The choice of routine in two dimensions (FiniteDeformation/NonlinearElasticity.C:127-133). -/
def evalKm2 (full : Bool) (w : K) (dN : Nat → Fin 2 → K) (F : Fin 2 → Fin 2 → K) (C : Fin 3 → Fin 3 → K) :=
  if full then stiffTL2D w dN F C else stiffTL2Diso w dN F (C 0 0) (C 0 1) (C 2 2)

/-- The internal forces (FiniteDeformation/NonlinearElasticity.C:169-181): the contribution to component `k` of node `a`. -/
def intForce {d : Nat} (w : K) (dN : Nat → Fin d → K) (F S : Fin d → Fin d → K) (ES : Nat → Fin d → K) : Nat → Fin d → K := fun a k =>
  ES a k + (0 - ∑ i, ∑ j, dN a i * F k j * S i j) * w

end Verif.FtnStiff
