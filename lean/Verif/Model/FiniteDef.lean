/-
Model of the kinematics, the internal forces and the surface loads of the finite deformation
integrands FiniteDeformation/NonlinearElasticityTL.C (total Lagrangian) and
FiniteDeformation/NonlinearElasticityUL.C (updated Lagrangian).

The inverse and determinant of a tensor are those of linear algebra (`Tensor::inverse`,
`Matrix::inverse` and `Tensor::det` of the IFEM library); the inverse of a singular matrix is
reported by the return value zero.
-/
import Verif.Model.Continuum
import Mathlib.LinearAlgebra.Matrix.Adjugate

namespace Verif.Finite

open Verif.Cont

variable {K : Type*} [Field K]

/-- The leading `d × d` part of a one-based tensor. -/
def lead (d : Nat) (F : Nat → Nat → K) : Matrix (Fin d) (Fin d) K := fun i j => F (i + 1) (j + 1)

/-- The inverse of a `d × d` matrix, one-based (zero outside). -/
def inv (d : Nat) (F : Nat → Nat → K) (i j : Nat) : K :=
  if h : 1 ≤ i ∧ i ≤ d ∧ 1 ≤ j ∧ j ≤ d then
    ((lead d F).det)⁻¹ * (lead d F).adjugate ⟨i - 1, by omega⟩ ⟨j - 1, by omega⟩
  else 0

/-- Entry `(i,j)`, `j ≤ i ≤ E.dim()`, of the strain tensor computed from the displacement gradient `H`
(FiniteDeformation/NonlinearElasticityTL.C:254-263 and FiniteDeformation/NonlinearElasticityUL.C:308-317). Note that
`E.dim()` is 2 in axisymmetry, where the component `(3,3)` keeps its initial value zero. -/
def strainE (nsd : Nat) (H : Nat → Nat → K) (i j : Nat) : K :=
  if 1 ≤ i ∧ i ≤ nsd ∧ 1 ≤ j ∧ j ≤ i then
    let Eij := H i j + H j i + ∑ k ∈ Finset.range nsd, H (k + 1) i * H (k + 1) j
    if i = j then 1 / 2 * Eij else Eij
  else 0

/-- The strain vector in the storage order of `SymmTensor`: xx, yy, zz, xy, yz, xz in three
dimensions, xx, yy, xy in two dimensions and rr, zz, hoop, rz in axisymmetry. -/
def strainV (nsd : Nat) (axi : Bool) (H : Nat → Nat → K) (i : Nat) : K :=
  match nsd, axi, i with
  | 3, _, 1 => strainE 3 H 1 1
  | 3, _, 2 => strainE 3 H 2 2
  | 3, _, 3 => strainE 3 H 3 3
  | 3, _, 4 => strainE 3 H 2 1
  | 3, _, 5 => strainE 3 H 3 2
  | 3, _, 6 => strainE 3 H 3 1
  | 2, false, 1 => strainE 2 H 1 1
  | 2, false, 2 => strainE 2 H 2 2
  | 2, false, 3 => strainE 2 H 2 1
  | 2, true, 1 => strainE 2 H 1 1
  | 2, true, 2 => strainE 2 H 2 2
  | 2, true, 3 => strainE 2 H 3 3
  | 2, true, 4 => strainE 2 H 2 1
  | _, _, _ => 0

/-- The deformation gradient after `F += 1.0` and the addition of the hoop term
(FiniteDeformation/NonlinearElasticityTL.C:266-268, FiniteDeformation/NonlinearElasticityUL.C:320-322). -/
def kinF [LinearOrder K] (axi : Bool) (r epsR ur : K) (H : Nat → Nat → K) (i j : Nat) : K :=
  let F1 : K := H i j + (if i = j then 1 else 0)
  if axi = true ∧ r > epsR ∧ i = 3 ∧ j = 3 then F1 + ur / r else F1

/-- Rows and values written to column `a` by the normal strain loop
(FiniteDeformation/NonlinearElasticityTL.C:284-287), `INDEX(j,i) = j+nstrc*(i-1)`. -/
def normalCol (nsd nstrc : Nat) (F : Nat → Nat → K) (dN : DMat K) (a : Nat) :
    List (Nat × Nat × K) :=
  (List.range nsd).flatMap fun i => (List.range nsd).map fun j =>
    (j + 1 + nstrc * i, a, F (i + 1) (j + 1) * dN.e a (j + 1))

/-- Rows and values written to column `a` by the shear strain loop for a single pair of directions
`p`, `q` stored in row `row`. -/
def shearVal (nstrc row p q : Nat) (F : Nat → Nat → K) (dN : DMat K) (a i : Nat) : Nat × Nat × K :=
  (row + nstrc * i, a, F (i + 1) p * dN.e a q + F (i + 1) q * dN.e a p)

/-- The shear strain part (FiniteDeformation/NonlinearElasticityTL.C:290-315) for node `a`. The hoop
term is written to column `i`, where `i` has the value `nsd+1 = 3` after the preceding loop. -/
def shearCol [LinearOrder K] (nsd : Nat) (axi : Bool) (F : Nat → Nat → K) (N : DVec K) (dN : DMat K)
    (r epsR : K) (a : Nat) (B : DMat K) : Res (DMat K) :=
  if nsd = 3 then
    B.setMany <| (List.range 3).flatMap fun i =>
      [shearVal 6 4 1 2 F dN a i, shearVal 6 5 2 3 F dN a i, shearVal 6 6 3 1 F dN a i]
  else if nsd = 2 then
    if axi then
      (B.setMany <| (List.range 2).map fun i => shearVal 4 4 1 2 F dN a i).bind fun B =>
      (N.get a).bind fun n =>
      B.set 3 3 (F 3 3 * (if r ≤ epsR then dN.e a 1 else n / r))
    else
      B.setMany <| (List.range 2).map fun i => shearVal 3 3 1 2 F dN a i
  else .ok B

/-- Formation of the nonlinear B-matrix (FiniteDeformation/NonlinearElasticityTL.C:276-317). -/
def tlB [LinearOrder K] (nsd : Nat) (axi : Bool) (F : Nat → Nat → K) (N : DVec K) (dN : DMat K)
    (r epsR : K) : Res (DMat K) :=
  let nenod := dN.nr
  let nstrc := if axi then 4 else nsd * (nsd + 1) / 2
  (loop (fun a B => B.setMany (normalCol nsd nstrc F dN (a + 1))) nenod
      (DMat.zero (nstrc * nsd) nenod)).bind fun B =>
  (loop (fun a B => shearCol nsd axi F N dN r epsR (a + 1) B) nenod B).bind fun B =>
  .ok (B.reshape nstrc (nsd * nenod))

/-- Result of `kinematics`. -/
structure Kin (K : Type*) where
  B : DMat K
  F : Nat → Nat → K
  E : Nat → K

/-- `NonlinearElasticityTL::kinematics` (FiniteDeformation/NonlinearElasticityTL.C:234-321) with
`formB` set and `E.dim() = nsd`. An empty `eV` means the initial state. -/
def kinTL [LinearOrder K] (nsd : Nat) (axi : Bool) (eV : DVec K) (N : DVec K) (dN : DMat K)
    (r epsR : K) : Res (Kin K) :=
  if eV.n = 0 then
    (if axi then formBaxi N dN r epsR else formB nsd dN).bind fun B =>
      .ok ⟨B, fun i j => if i = j then 1 else 0, fun _ => 0⟩
  else if eV.n ≠ nsd * dN.nr ∨ dN.nc < nsd then .fail
  else
    let H := defGrad nsd axi true N dN r epsR eV.e
    let ur := ∑ a ∈ Finset.range N.n, eV.e (nsd * a + 1) * N.e (a + 1)
    let F := kinF axi r epsR ur H
    (tlB nsd axi F N dN r epsR).bind fun B => .ok ⟨B, F, strainV nsd axi H⟩

/-- The push-forward of the gradients, `dNdx = dNdX * F^-1`
(FiniteDeformation/NonlinearElasticityUL.C:131-132). -/
def pushGrad (nsd : Nat) (F : Nat → Nat → K) (dN : DMat K) : DMat K :=
  ⟨dN.nr, nsd, fun a j => ∑ k ∈ Finset.range nsd, dN.e a (k + 1) * inv nsd F (k + 1) j⟩

/-- What `NonlinearElasticityUL::evalInt` uses at an integration point: strain-displacement matrix
and integration weight. -/
structure UL (K : Type*) where
  B : DMat K
  detJW : K

/-- The kinematic part of `NonlinearElasticityUL::evalInt`
(FiniteDeformation/NonlinearElasticityUL.C:104-158) with a material tangent or an internal force
wanted, for a given deformation gradient `F`, `ur` the radial displacement at the point and
`haveStrains` the outcome of the tolerance test on the strain tensor. `w` is `|J|w` (times
`2*pi*X` in axisymmetry). The return values of `formBmatrix` are ignored in the code; the model
keeps a failure of it as a failure. -/
def ulPoint [LinearOrder K] (nsd : Nat) (axi haveStrains : Bool) (F : Nat → Nat → K) (N : DVec K)
    (dN : DMat K) (X ur epsR w : K) : Res (UL K) :=
  if haveStrains then
    let J0 := (lead nsd F).det
    let J := if axi then J0 * F 3 3 else J0
    if J = 0 then .fail
    else
      let dNdx := pushGrad nsd F dN
      (if axi then formBaxi N dNdx (X + ur) epsR else formB nsd dNdx).bind fun B =>
        .ok ⟨B, w * J⟩
  else
    (if axi then formBaxi N dN X epsR else formB nsd dN).bind fun B => .ok ⟨B, w⟩

/-- The mass matrix and the body force vector at an integration point of the updated Lagrangian
formulation, both with the integration weight of `ulPoint`
(FiniteDeformation/NonlinearElasticityUL.C:175-190). `rho` is `getMassDensity`, `f` the body force
with its zero test `isZero`. -/
def ulInertia [LinearOrder K] (nsd : Nat) (axi haveStrains : Bool) (F : Nat → Nat → K) (N : DVec K)
    (dN : DMat K) (X ur epsR w : K) (EM : DMat K) (L : Loads K) (rho : K) (f : Nat → K)
    (isZero : Bool) : Res (DMat K × Loads K) :=
  (ulPoint nsd axi haveStrains F N dN X ur epsR w).bind fun P =>
  (formMass nsd EM N rho P.detJW).bind fun EM =>
  (formBodyForce nsd L N f isZero P.detJW false).bind fun L => .ok (EM, L)

/-- The same for the total Lagrangian formulation
(FiniteDeformation/NonlinearElasticityTL.C:129-146), where the weight is that of the undeformed
element. -/
def tlInertia [LinearOrder K] (nsd : Nat) (N : DVec K) (w : K) (EM : DMat K) (L : Loads K) (rho : K)
    (f : Nat → K) (isZero : Bool) : Res (DMat K × Loads K) :=
  (formMass nsd EM N rho w).bind fun EM =>
  (formBodyForce nsd L N f isZero w false).bind fun L => .ok (EM, L)

/-- The pull-back of a traction, with `F` already inverted
(FiniteDeformation/NonlinearElasticityTL.C:196-202, FiniteDeformation/NonlinearElasticityUL.C:251-257). -/
def pullBack (nsd : Nat) (J : K) (Fi : Nat → Nat → K) (T : Nat → K) (i : Nat) : K :=
  if 1 ≤ i ∧ i ≤ nsd then ∑ j ∈ Finset.range nsd, J * T (j + 1) * Fi (j + 1) i else 0

/-- The traction and the integration weight used for the load vector by
`NonlinearElasticityTL::evalBou` (FiniteDeformation/NonlinearElasticityTL.C:168-208); `nDF` is the
dimension of the deformation gradient (3 in axisymmetry) and `w` the integration weight. -/
def tlTraction [LinearOrder K] (nsd nDF : Nat) (normalPressure : Bool) (F : Nat → Nat → K)
    (T : Nat → K) (w : K) : Res ((Nat → K) × K) :=
  if normalPressure then
    let J := (lead nDF F).det
    if J ≤ 0 then .fail else .ok (pullBack nsd J (inv nDF F) T, w)
  else .ok (T, w)

/-- The traction and the integration weight used for the load vector by
`NonlinearElasticityUL::evalBou` (FiniteDeformation/NonlinearElasticityUL.C:219-264). -/
def ulTraction [DecidableEq K] (nsd nDF loadOp : Nat) (normalPressure : Bool) (F : Nat → Nat → K)
    (T : Nat → K) (w : K) : Res ((Nat → K) × K) :=
  if loadOp = 1 then
    let J := (lead nDF F).det
    if normalPressure then
      if J = 0 then .fail else .ok (pullBack nsd J (inv nDF F) T, w)
    else .ok (T, w * J)
  else .ok (T, w)

end Verif.Finite
