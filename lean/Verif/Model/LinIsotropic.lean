/-
Model of Elasticity/LinIsotropic.C and Elasticity/IsotropicTextureMat.C.

IFEM assumptions used here: `SymmTensor` stores the Voigt components in the order
{xx}, {xx,yy,xy}, {xx,yy,zz,xy} or {xx,yy,zz,xy,yz,xz}; assigning a 3-vector to a
4-component 2D tensor puts zero in the zz slot; strain tensors hold engineering
shear strains and `innerProd` is the plain product of the Voigt vectors.
-/
import Verif.Basic
import Mathlib.Algebra.Order.Field.Basic
import Mathlib.Algebra.BigOperators.Fin

namespace Verif.LinIso

variable {K : Type*}

/-- The parts of `FiniteElement` used by the materials (parameters u,v and age). -/
structure FE (K : Type*) where
  u : K
  v : K
  age : K

/-- A point in space (`Vec3`). -/
structure Pt (K : Type*) where
  x : K
  y : K
  z : K

/-- Data members of `LinIsotropic` used by the evaluations
(Elasticity/LinIsotropic.h:119-140). A null function pointer is `none`. -/
structure Mat (K : Type*) where
  Efield : Option (FE K → K) := none
  Efunc : Option (Pt K → K) := none
  Eaging : Option (K → K) := none
  Emod : K
  nuFunc : Option (Pt K → K) := none
  nu : K
  planeStress : Bool := false
  axiSymmetry : Bool := false

/-- Young's modulus at a point: field, then function, then aging function, then the
constant (Elasticity/LinIsotropic.C:216-223, repeated at 339-346). -/
def Mat.young (m : Mat K) (fe : FE K) (X : Pt K) : K :=
  match m.Efield with
  | some f => f fe
  | none =>
    match m.Efunc with
    | some f => f X
    | none =>
      match m.Eaging with
      | some f => f fe.age
      | none => m.Emod

/-- `if (nuFunc) const_cast<LinIsotropic*>(this)->nu = (*nuFunc)(X)`: the evaluation
overwrites the stored Poisson's ratio (Elasticity/LinIsotropic.C:225-226, 329-330). -/
def Mat.updNu (m : Mat K) (X : Pt K) : Mat K :=
  match m.nuFunc with
  | some f => { m with nu := f X }
  | none => m

/-- `nst` (Elasticity/LinIsotropic.C:214): number of Voigt components in `C`. -/
def nst (nsd : Nat) (axi : Bool) : Nat :=
  if nsd = 2 ∧ axi = true then 4 else nsd * (nsd + 1) / 2

section
variable [Field K]

/-- The constitutive matrix for `nsd > 1` and an admissible Poisson's ratio
(Elasticity/LinIsotropic.C:247-298). `inv` is the condition `iop < 0`. -/
def cmat (E nu : K) (nsd : Nat) (planeStress axi inv : Bool) : Res (DMat K) := do
  let mut C : DMat K := DMat.zero (nst nsd axi) (nst nsd axi)
  if inv then
    if nsd = 3 ∨ (nsd = 2 ∧ (planeStress = true ∨ axi = true)) then
      C ← C.set 1 1 (1 / E)
      C ← C.set 2 1 (-nu / E)
    else
      C ← C.set 1 1 ((1 - nu * nu) / E)
      C ← C.set 2 1 ((-nu - nu * nu) / E)
  else
    if nsd = 2 ∧ planeStress = true ∧ axi = false then
      C ← C.set 1 1 (E / (1 - nu * nu))
      C ← C.set 2 1 ((← C.get 1 1) * nu)
    else
      let fact := E / ((1 + nu) * (1 - nu - nu))
      C ← C.set 1 1 (fact * (1 - nu))
      C ← C.set 2 1 (fact * nu)
  C ← C.set 1 2 (← C.get 2 1)
  C ← C.set 2 2 (← C.get 1 1)
  let G := E / (2 + nu + nu)
  C ← C.set (nsd + 1) (nsd + 1) (if inv then 1 / G else G)
  if nsd = 2 ∧ axi = true then
    C ← C.set 4 4 (← C.get 3 3)
    C ← C.set 3 1 (← C.get 2 1)
    C ← C.set 3 2 (← C.get 2 1)
    C ← C.set 1 3 (← C.get 2 1)
    C ← C.set 2 3 (← C.get 2 1)
    C ← C.set 3 3 (← C.get 1 1)
  else if nsd > 2 then
    C ← C.set 3 1 (← C.get 2 1)
    C ← C.set 3 2 (← C.get 2 1)
    C ← C.set 1 3 (← C.get 2 1)
    C ← C.set 2 3 (← C.get 2 1)
    C ← C.set 3 3 (← C.get 1 1)
    C ← C.set 5 5 (← C.get 4 4)
    C ← C.set 6 6 (← C.get 4 4)
  return C

/-- Product of the stored matrix with a Voigt vector (`Matrix::multiply`), one-based. -/
def mulVec (C : DMat K) (x : Nat → K) : Nat → K := fun i =>
  ∑ j ∈ Finset.range C.nc, C.e i (j + 1) * x (j + 1)

/-- Output arguments of `evaluate`. `sig` holds the Voigt stresses (one-based) when
`iop > 0`, `sigSize` is the size of the tensor given by the caller, and `U` is set
when `iop = 3`. -/
structure Out (K : Type*) where
  C : DMat K
  sig : Option (Nat → K)
  U : Option K

/-- Assignment of the Voigt vector of length `m` to the caller's stress tensor of
dimension `nsd` and `sigSize` components: the only non-trivial case is a 3-vector
assigned to a 2D tensor with four components (zz slot is set to zero). -/
def assignSig (nsd m sigSize : Nat) (s : Nat → K) : Nat → K :=
  if nsd = 2 ∧ m = 3 ∧ sigSize = 4 then
    fun i => if i = 1 then s 1 else if i = 2 then s 2 else if i = 3 then 0 else
      if i = 4 then s 3 else 0
  else s

/-- Strain energy density `0.5*sigma.innerProd(eps)`: the product of the Voigt vectors
over the components of the strain (`m` components), skipping the zz stress slot of a
4-component plane strain stress tensor. -/
def innerProd (nsd m sigSize : Nat) (sig eps : Nat → K) : K :=
  if nsd = 2 ∧ m = 3 ∧ sigSize = 4 then sig 1 * eps 1 + sig 2 * eps 2 + sig 4 * eps 3
  else ∑ j ∈ Finset.range m, sig (j + 1) * eps (j + 1)

variable [LinearOrder K]

/-- `LinIsotropic::evaluate` (Elasticity/LinIsotropic.C:208-323). Returns the object after
the call (its Poisson's ratio may have been overwritten) and the outcome.
Simplification: the strain tensor has the dimension of the stress tensor (the re-dimensioning
at 304-309 is not modelled). -/
def evaluate (m : Mat K) (nsd sigSize : Nat) (fe : FE K) (X : Pt K) (eps : Nat → K)
    (iop : Int) : Mat K × Res (Out K) :=
  let E := m.young fe X
  let m' := m.updNu X
  let nu := m'.nu
  if nsd = 1 then
    let C0 : DMat K := DMat.zero 1 1
    (m', do
      let C ← C0.set 1 1 (if iop < 0 then 1 / E else E)
      if iop > 0 then
        let s := eps 1 * E
        return ⟨C, some (fun i => if i = 1 then s else 0),
                if iop = 3 then some (1 / 2 * s * eps 1) else none⟩
      else
        return ⟨C, none, none⟩)
  else if nu < 0 ∨ nu ≥ 1 / 2 then
    (m', .fail)
  else
    (m', do
      let C ← cmat E nu nsd m.planeStress m.axiSymmetry (decide (iop < 0))
      if iop > 0 then
        let n := nst nsd m.axiSymmetry
        let s0 := assignSig nsd n sigSize (mulVec C eps)
        let s := if m.planeStress = false ∧ m.axiSymmetry = false ∧ nsd = 2 ∧ sigSize = 4
                 then fun i => if i = 3 then nu * (s0 1 + s0 2) else s0 i
                 else s0
        return ⟨C, some s, if iop = 3 then some (1 / 2 * innerProd nsd n sigSize s eps) else none⟩
      else
        return ⟨C, none, none⟩)

/-- The Lamé parameters `(lambda, mu)` (Elasticity/LinIsotropic.C:326-353). -/
def lame (m : Mat K) (fe : FE K) (X : Pt K) : Mat K × Res (K × K) :=
  let m' := m.updNu X
  let nu := m'.nu
  if nu < 0 ∨ nu ≥ 1 / 2 then (m', .fail)
  else
    let E := m.young fe X
    let mu := 1 / 2 * E / (1 + nu)
    (m', .ok (mu * nu / (1 / 2 - nu), mu))

end

/-- `getStiffness` (Elasticity/LinIsotropic.C:356-359): the field is not consulted. -/
def getStiffness (m : Mat K) (X : Pt K) (age : K) : K :=
  match m.Efunc with
  | some f => f X
  | none => match m.Eaging with
    | some f => f age
    | none => m.Emod

/-- `getPlateStiffness` (Elasticity/LinIsotropic.C:362-368). -/
def getPlateStiffness [Field K] (m : Mat K) (X : Pt K) (t age : K) : K :=
  let E := getStiffness m X age
  let v := match m.nuFunc with
    | some f => f X
    | none => m.nu
  E * t * t * t / (12 - 12 * v * v)

end Verif.LinIso
