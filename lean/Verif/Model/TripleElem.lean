/-
Model of the element with continuous volume change and pressure fields, FiniteDeformation/NonlinearElasticityULMixed.C, in a static nonlinear analysis without body forces: element matrices and vectors of
`evalIntMx`, and the coupled matrix and vector of `getNewtonMatrix` and `getRHSVector` (Model/Mixed.lean). The kinematics are those of the updated Lagrangian element (Model/FDTangent.lean), the projected
constitutive matrix that of Model/Mixed.lean. The accumulation of the material stiffness is the Fortran code of FiniteDeformation/accKM.f.

The element values of the fields are given; `utl::gather` of the IFEM library extracts them (FiniteDeformation/NonlinearElasticityULMixed.C:245-264). As in Model/MixedElem.lean, assignment of a
three-dimensional `SymmTensor` to one for plane or axisymmetric problems is assumed to keep the components of the latter, assignment of a `Tensor` to a larger one to leave the other components zero, and
`Matrix::inverse` to return the determinant (zero for a singular matrix). The material also evaluates the stresses if there are no strains, as NeoHookeMaterial does.
-/
import Verif.Model.MixedElem

namespace Verif.Finite

open Verif.Cont Verif.Mixed

/-- An integration point: first basis, values of the second basis, and material. -/
structure TPt where
  pt : FPt ℝ
  N2 : DVec ℝ
  mat : Mat ℝ

/-- The element matrices and vectors (FiniteDeformation/NonlinearElasticityULMixed.C:46-63). -/
structure TMats where
  uu : DMat ℝ
  ut : DMat ℝ
  up : DMat ℝ
  tt : DMat ℝ
  tp : DMat ℝ
  Ru : DVec ℝ
  Rt : DVec ℝ
  Rp : DVec ℝ

/-- The matrices and vectors allocated by `getLocalIntegral` for interior integration, with `n` and `m` basis functions (FiniteDeformation/NonlinearElasticityULMixed.C:208-237). -/
def TMats.start (nsd n m : Nat) : TMats :=
  ⟨DMat.zero (nsd * n) (nsd * n), DMat.zero (nsd * n) m, DMat.zero (nsd * n) m, DMat.zero m m, DMat.zero m m, DVec.zero (nsd * n), DVec.zero m, DVec.zero m⟩

/-- Row `i` of the array `BBC` in `accKM2D` (FiniteDeformation/accKM.f:28-39). -/
def bbcT2 (axi : Bool) (r : Nat → ℝ) (f D : Nat → Nat → ℝ) (a i j : Nat) : ℝ :=
  if i = 1 then f a 1 * D 1 j + f a 2 * D 4 j + if axi then r a * D 3 j else 0
  else f a 1 * D 4 j + f a 2 * D 2 j

/-- `accKM2D` (FiniteDeformation/accKM.f:15-67), component `i` of node `a` being degree of freedom `2(a-1)+i`. -/
def accKM2D (axi : Bool) (n : Nat) (r : Nat → ℝ) (f D : Nat → Nat → ℝ) (EK : DMat ℝ) : Res (DMat ℝ) :=
  EK.addMany ((List.range n).flatMap fun a => (List.range n).flatMap fun b =>
    let B := bbcT2 axi r f D (a + 1)
    [(2 * a + 1, 2 * b + 1, B 1 1 * f (b + 1) 1 + B 1 4 * f (b + 1) 2),
     (2 * a + 1, 2 * b + 2, B 1 4 * f (b + 1) 1 + B 1 2 * f (b + 1) 2),
     (2 * a + 2, 2 * b + 1, B 2 1 * f (b + 1) 1 + B 2 4 * f (b + 1) 2),
     (2 * a + 2, 2 * b + 2, B 2 4 * f (b + 1) 1 + B 2 2 * f (b + 1) 2)] ++
    if axi then [(2 * a + 1, 2 * b + 1, B 1 3 * r (b + 1)), (2 * a + 2, 2 * b + 1, B 2 3 * r (b + 1))] else [])

/-- Row `i` of the array `BBC` in `accKM3D` (FiniteDeformation/accKM.f:83-93). -/
def bbcT3 (f D : Nat → Nat → ℝ) (a i j : Nat) : ℝ :=
  if i = 1 then f a 1 * D 1 j + f a 2 * D 4 j + f a 3 * D 6 j
  else if i = 2 then f a 1 * D 4 j + f a 2 * D 2 j + f a 3 * D 5 j
  else f a 1 * D 6 j + f a 2 * D 5 j + f a 3 * D 3 j

/-- `accKM3D` (FiniteDeformation/accKM.f:70-145). -/
def accKM3D (n : Nat) (f D : Nat → Nat → ℝ) (EK : DMat ℝ) : Res (DMat ℝ) :=
  EK.addMany ((List.range n).flatMap fun a => (List.range n).flatMap fun b =>
    let B := bbcT3 f D (a + 1)
    [(3 * a + 1, 3 * b + 1, B 1 1 * f (b + 1) 1 + B 1 4 * f (b + 1) 2 + B 1 6 * f (b + 1) 3),
     (3 * a + 1, 3 * b + 2, B 1 4 * f (b + 1) 1 + B 1 2 * f (b + 1) 2 + B 1 5 * f (b + 1) 3),
     (3 * a + 1, 3 * b + 3, B 1 6 * f (b + 1) 1 + B 1 5 * f (b + 1) 2 + B 1 3 * f (b + 1) 3),
     (3 * a + 2, 3 * b + 1, B 2 1 * f (b + 1) 1 + B 2 4 * f (b + 1) 2 + B 2 6 * f (b + 1) 3),
     (3 * a + 2, 3 * b + 2, B 2 4 * f (b + 1) 1 + B 2 2 * f (b + 1) 2 + B 2 5 * f (b + 1) 3),
     (3 * a + 2, 3 * b + 3, B 2 6 * f (b + 1) 1 + B 2 5 * f (b + 1) 2 + B 2 3 * f (b + 1) 3),
     (3 * a + 3, 3 * b + 1, B 3 1 * f (b + 1) 1 + B 3 4 * f (b + 1) 2 + B 3 6 * f (b + 1) 3),
     (3 * a + 3, 3 * b + 2, B 3 4 * f (b + 1) 1 + B 3 2 * f (b + 1) 2 + B 3 5 * f (b + 1) 3),
     (3 * a + 3, 3 * b + 3, B 3 6 * f (b + 1) 1 + B 3 5 * f (b + 1) 2 + B 3 3 * f (b + 1) 3)])

/-- The deformation gradient with the volume ratio replaced (FiniteDeformation/NonlinearElasticityULMixed.C:307-315). -/
noncomputable def tFbar (nsd : Nat) (axi : Bool) (F : Nat → Nat → ℝ) (th : ℝ) (i j : Nat) : ℝ :=
  let nDF := if axi then 3 else nsd
  let r1 := |th / (lead nDF F).det| ^ ((1 : ℝ) / 3)
  if nDF = 2 ∧ i = 3 ∧ j = 3 then r1 else if nDF = 2 ∧ (i = 3 ∨ j = 3) then 0 else r1 * F i j

/-- What is added to the block coupling displacements and volume change (FiniteDeformation/NonlinearElasticityULMixed.C:417-441); `D7` is the last column of the constitutive matrix. -/
noncomputable def utList (nsd : Nat) (axi : Bool) (n m : Nat) (g : Nat → Nat → ℝ) (N : Nat → ℝ) (r : ℝ) (N2 : Nat → ℝ) (D7 : Nat → ℝ) : List (Nat × Nat × ℝ) :=
  (List.range n).flatMap fun a => (List.range m).flatMap fun b =>
    ((List.range nsd).flatMap fun i =>
      (nsd * a + i + 1, b + 1, g (a + 1) (i + 1) * N2 (b + 1) * D7 (i + 1)) ::
      if nsd = 2 then [(nsd * a + i + 1, b + 1, g (a + 1) (3 - (i + 1)) * N2 (b + 1) * D7 4)]
      else if i + 1 < 3 then
        let j := i + 1 + 1
        let k := j % 3 + 1
        [(nsd * a + i + 1, b + 1, g (a + 1) (3 - (i + 1)) * N2 (b + 1) * D7 4), (nsd * a + j, b + 1, g (a + 1) (5 - j) * N2 (b + 1) * D7 5), (nsd * a + k, b + 1, g (a + 1) (4 - k) * N2 (b + 1) * D7 6)]
      else []) ++
    if axi then [(nsd * a + 1, b + 1, N (a + 1) / r * N2 (b + 1) * D7 3)] else []

/-- What is added to the block coupling displacements and pressure (FiniteDeformation/NonlinearElasticityULMixed.C:434-441). -/
noncomputable def upList (nsd : Nat) (axi : Bool) (n m : Nat) (g : Nat → Nat → ℝ) (N : Nat → ℝ) (r : ℝ) (N2 : Nat → ℝ) (w : ℝ) : List (Nat × Nat × ℝ) :=
  (List.range n).flatMap fun a => (List.range m).flatMap fun b =>
    ((List.range nsd).map fun i => (nsd * a + i + 1, b + 1, g (a + 1) (i + 1) * N2 (b + 1) * w)) ++
    if axi then [(nsd * a + 1, b + 1, N (a + 1) / r * N2 (b + 1) * w)] else []

/-- `A.outer_product(N2,N2*c,true)` (FiniteDeformation/NonlinearElasticityULMixed.C:444-445). -/
def outerList (m : Nat) (N2 : Nat → ℝ) (c : ℝ) : List (Nat × Nat × ℝ) :=
  (List.range m).flatMap fun a => (List.range m).map fun b => (a + 1, b + 1, N2 (a + 1) * (N2 (b + 1) * c))

/-- `NonlinearElasticityULMixed::evalIntMx` (FiniteDeformation/NonlinearElasticityULMixed.C:267-468): `eV`, `eT` and `eP` are displacements, volume changes and pressures of the element. The routine fails for a
singular deformation gradient. A vanishing volume change, and a vanishing radius in axisymmetry, make entries infinite, which is not distinguished from other undefined behaviour. -/
noncomputable def tPoint (nsd : Nat) (axi : Bool) (tol epsR : ℝ) (eV eT eP : DVec ℝ) (p : TPt) (M : TMats) : Res TMats :=
  (kinUL nsd axi eV p.pt epsR).bind fun k =>
  let hs := !zeroStrain tol (ncomp nsd axi) k.2
  let th := p.N2.dot eT.e + 1
  let pr := p.N2.dot eP.e
  let w := if axi then 2 * Real.pi * p.pt.X * p.pt.w else p.pt.w
  let r := if axi then p.pt.X + radial nsd eV p.pt.N else 0
  let J := if axi then (lead nsd k.1).det * k.1 3 3 else (lead nsd k.1).det
  if J = 0 then .fail
  else if th = 0 ∨ axi = true ∧ r = 0 then .ub
  else
    let g := pushGrad nsd k.1 p.pt.dN
    let dV := th * w
    let dVup := J * w
    (p.mat (tFbar nsd axi k.1 th) k.2).bind fun cs =>
    let bpres := if hs then (cs.2 1 + cs.2 2 + cs.2 3) / 3 else 0
    let mpres := if hs then pr * J / th else 0
    let sg := mxSigma nsd axi cs.2 bpres mpres
    (if hs then formKG nsd axi M.uu p.pt.N g r (symT nsd axi sg) dV else .ok M.uu).bind fun A =>
    let Nr : DVec ℝ := if axi = true ∧ 0 < r then ⟨p.pt.N.n, fun a => p.pt.N.e a / r⟩ else p.pt.N
    (addVolumetricTerms cs.1.e cs.2 bpres mpres).bind fun D =>
    let D' := fun i j => D.e i j * dV
    (if nsd = 2 then accKM2D axi Nr.n Nr.e g.e D' A else accKM3D p.pt.N.n g.e D' A).bind fun A =>
    let D7 := fun i => D' i 7 / th
    (M.ut.addMany (utList nsd axi p.pt.N.n p.N2.n g.e p.pt.N.e r p.N2.e D7)).bind fun ut =>
    (M.up.addMany (upList nsd axi p.pt.N.n p.N2.n g.e p.pt.N.e r p.N2.e dVup)).bind fun up =>
    (M.tt.addMany (outerList p.N2.n p.N2.e (D' 7 7 / (th * th)))).bind fun tt =>
    (M.tp.addMany (outerList p.N2.n p.N2.e (-w))).bind fun tp =>
    if hs then
      (if axi then formBaxi p.pt.N g r epsR else formB nsd g).bind fun B =>
      if B.nc ≠ M.Ru.n then .fail
      else
        (M.Rt.addMany ((List.range p.N2.n).map fun b => (b + 1, p.N2.e (b + 1) * ((pr - bpres) * w)))).bind fun Rt =>
        (M.Rp.addMany ((List.range p.N2.n).map fun b => (b + 1, p.N2.e (b + 1) * ((th - J) * w)))).bind fun Rp =>
        .ok ⟨A, ut, up, tt, tp, addIntForce M.Ru B sg dV, Rt, Rp⟩
    else .ok ⟨A, ut, up, tt, tp, M.Ru, M.Rt, M.Rp⟩

/-- The integration points of an element in sequence. -/
noncomputable def tPoints (nsd : Nat) (axi : Bool) (tol epsR : ℝ) (eV eT eP : DVec ℝ) : List TPt → TMats → Res TMats
  | [], M => .ok M
  | p :: l, M => (tPoint nsd axi tol epsR eV eT eP p M).bind fun M => tPoints nsd axi tol epsR eV eT eP l M

/-- Coupled matrix and vector of an element with `n` and `m` basis functions: allocation, integration and `getNewtonMatrix`, `getRHSVector`. -/
noncomputable def tElement (nsd : Nat) (axi : Bool) (tol epsR : ℝ) (n m : Nat) (eV eT eP : DVec ℝ) (pts : List TPt) : Res (DMat ℝ × DVec ℝ) :=
  (tPoints nsd axi tol epsR eV eT eP pts (TMats.start nsd n m)).bind fun M =>
  (newton (nsd * n) m ⟨M.uu.e, M.ut.e, M.up.e, M.tt.e, M.tp.e⟩ (DMat.zero (nsd * n + 2 * m) (nsd * n + 2 * m))).bind fun A =>
  (rhs (nsd * n) m true M.Ru.e M.Rt.e M.Rp.e (DVec.zero (nsd * n + 2 * m))).bind fun R => .ok (A, R)

end Verif.Finite
