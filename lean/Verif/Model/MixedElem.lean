/-
Model of the whole mixed element with internal pressure modes, FiniteDeformation/NonlinearElasticityULMX.C, in a static nonlinear analysis without body forces: the data stored by `evalInt`, and the
element matrix and forces formed by `finalizeElement`. The static condensation, the mixed pressure and the projected constitutive matrix are those of Model/Mixed.lean, the geometric stiffness and the
strain-displacement matrices those of Model/Continuum.lean. The accumulation of the material stiffness is the Fortran code of FiniteDeformation/accKMx.f.

The values of the pressure modes (`utl::Pascal` of the IFEM library) are given for each integration point. `SymmTensor::isZero` is assumed to tell whether no component exceeds a tolerance, assignment of a
three-dimensional `SymmTensor` to one for plane or axisymmetric problems to keep the components of the latter, and `Matrix::inverse` to return the determinant (zero for a singular matrix).
As in Model/FDTangent.lean, a material is a function of the deformation gradient and the strains; the strain tensor handed over by this element is empty, here zero.
-/
import Verif.Model.FbarElem
import Verif.Model.Mixed
import Mathlib.Analysis.SpecialFunctions.Trigonometric.Basic

namespace Verif.Finite

open Verif.Cont Verif.Mixed

/-- An integration point: basis functions, values of the pressure modes and material. -/
structure MPt (nPM : Nat) where
  pt : FPt ℝ
  phi : Fin nPM → ℝ
  mat : Mat ℝ

/-- The deformation gradient at an integration point (FiniteDeformation/NonlinearElasticityULMX.C:241-250 and Elasticity/Elasticity.C:508-547). -/
noncomputable def mxGrad (nsd : Nat) (axi : Bool) (epsR : ℝ) (eV : DVec ℝ) (p : FPt ℝ) : Res (Nat → Nat → ℝ) :=
  if eV.n = 0 then .ok fun i j => if i = j then 1 else 0
  else if eV.n ≠ nsd * p.dN.nr ∨ p.dN.nc < nsd then .fail
  else .ok fun i j => if axi = false ∧ nsd = 2 ∧ i = 3 ∧ j = 3 then 1 else defGrad nsd axi false p.N p.dN p.X epsR eV.e i j

/-- What `evalInt` stores for an integration point: deformation gradient, gradients in the deformed configuration, basis functions divided by the radius, and what the condensation uses
(FiniteDeformation/NonlinearElasticityULMX.C:46-58). -/
structure MxData (nPM : Nat) where
  F : Nat → Nat → ℝ
  dN : DMat ℝ
  Nr : DVec ℝ
  pt : Pt ℝ nPM

/-- `NonlinearElasticityULMX::evalInt` (FiniteDeformation/NonlinearElasticityULMX.C:221-301); `eP` are the displacements of the previous step, whose deformation gradient is evaluated and not used. -/
noncomputable def mxEval {nPM : Nat} (nsd : Nat) (axi : Bool) (epsR : ℝ) (eV eP : DVec ℝ) (p : MPt nPM) : Res (MxData nPM) :=
  (mxGrad nsd axi epsR eP p.pt).bind fun _ =>
  (mxGrad nsd axi epsR eV p.pt).bind fun F =>
  let J := if axi then (lead nsd F).det * F 3 3 else (lead nsd F).det
  if J = 0 then .fail
  else
    let dNdx := pushGrad nsd F p.pt.dN
    let Nr := if axi then scaleN p.pt.N (1 / (p.pt.X + radial nsd eV p.pt.N)) else DVec.zero 0
    let w := if axi then 2 * Real.pi * p.pt.X * p.pt.w else p.pt.w
    if nsd = 2 ∨ nsd = 3 then .ok ⟨F, dNdx, Nr, ⟨w, (lead 3 F).det, p.phi, dNdx.e, Nr.e⟩⟩ else .fail

/-- The integration points of an element in sequence. -/
noncomputable def mxAll {nPM : Nat} (nsd : Nat) (axi : Bool) (epsR : ℝ) (eV eP : DVec ℝ) : List (MPt nPM) → Res (List (MxData nPM))
  | [] => .ok []
  | p :: l => (mxEval nsd axi epsR eV eP p).bind fun d => (mxAll nsd axi epsR eV eP l).bind fun ds => .ok (d :: ds)

/-- The constitutive relation for the modified deformation gradient (FiniteDeformation/NonlinearElasticityULMX.C:443-448 and 466-484). -/
noncomputable def mxMats {nPM : Nat} : List (MPt nPM × MxData nPM × ℝ) → Res (List (DMat ℝ × (Nat → ℝ)))
  | [] => .ok []
  | (p, k, th) :: l =>
    (p.mat (fun i j => |th / k.pt.J| ^ ((1 : ℝ) / 3) * k.F i j) fun _ => 0).bind fun cs =>
    (mxMats l).bind fun r => .ok (cs :: r)

/-- Row `i` of the array `BBC` in `accKMx2D` (FiniteDeformation/accKMx.f:30-41). -/
def bbc2 (axi : Bool) (r : Nat → ℝ) (f fb D : Nat → Nat → ℝ) (a i j : Nat) : ℝ :=
  if i = 1 then f a 1 * D 1 j + f a 2 * D 4 j + fb a 1 * D 7 j + if axi then r a * D 3 j else 0
  else f a 1 * D 4 j + f a 2 * D 2 j + fb a 2 * D 7 j

/-- `accKMx2D` (FiniteDeformation/accKMx.f:15-70), component `i` of node `a` being degree of freedom `2(a-1)+i`. -/
def accKMx2D (axi : Bool) (n : Nat) (r : Nat → ℝ) (f fb D : Nat → Nat → ℝ) (EK : DMat ℝ) : Res (DMat ℝ) :=
  EK.addMany ((List.range n).flatMap fun a => (List.range n).flatMap fun b =>
    let B := bbc2 axi r f fb D (a + 1)
    [(2 * a + 1, 2 * b + 1, B 1 1 * f (b + 1) 1 + B 1 4 * f (b + 1) 2 + B 1 7 * fb (b + 1) 1),
     (2 * a + 1, 2 * b + 2, B 1 4 * f (b + 1) 1 + B 1 2 * f (b + 1) 2 + B 1 7 * fb (b + 1) 2),
     (2 * a + 2, 2 * b + 1, B 2 1 * f (b + 1) 1 + B 2 4 * f (b + 1) 2 + B 2 7 * fb (b + 1) 1),
     (2 * a + 2, 2 * b + 2, B 2 4 * f (b + 1) 1 + B 2 2 * f (b + 1) 2 + B 2 7 * fb (b + 1) 2)] ++
    if axi then [(2 * a + 1, 2 * b + 1, B 1 3 * r (b + 1)), (2 * a + 2, 2 * b + 1, B 2 3 * r (b + 1))] else [])

/-- Row `i` of the array `BBC` in `accKMx3D` (FiniteDeformation/accKMx.f:86-99). -/
def bbc3 (f fb D : Nat → Nat → ℝ) (a i j : Nat) : ℝ :=
  if i = 1 then f a 1 * D 1 j + f a 2 * D 4 j + f a 3 * D 6 j + fb a 1 * D 7 j
  else if i = 2 then f a 1 * D 4 j + f a 2 * D 2 j + f a 3 * D 5 j + fb a 2 * D 7 j
  else f a 1 * D 6 j + f a 2 * D 5 j + f a 3 * D 3 j + fb a 3 * D 7 j

/-- `accKMx3D` (FiniteDeformation/accKMx.f:73-164). -/
def accKMx3D (n : Nat) (f fb D : Nat → Nat → ℝ) (EK : DMat ℝ) : Res (DMat ℝ) :=
  EK.addMany ((List.range n).flatMap fun a => (List.range n).flatMap fun b =>
    let B := bbc3 f fb D (a + 1)
    [(3 * a + 1, 3 * b + 1, B 1 1 * f (b + 1) 1 + B 1 4 * f (b + 1) 2 + B 1 6 * f (b + 1) 3 + B 1 7 * fb (b + 1) 1),
     (3 * a + 1, 3 * b + 2, B 1 4 * f (b + 1) 1 + B 1 2 * f (b + 1) 2 + B 1 5 * f (b + 1) 3 + B 1 7 * fb (b + 1) 2),
     (3 * a + 1, 3 * b + 3, B 1 6 * f (b + 1) 1 + B 1 5 * f (b + 1) 2 + B 1 3 * f (b + 1) 3 + B 1 7 * fb (b + 1) 3),
     (3 * a + 2, 3 * b + 1, B 2 1 * f (b + 1) 1 + B 2 4 * f (b + 1) 2 + B 2 6 * f (b + 1) 3 + B 2 7 * fb (b + 1) 1),
     (3 * a + 2, 3 * b + 2, B 2 4 * f (b + 1) 1 + B 2 2 * f (b + 1) 2 + B 2 5 * f (b + 1) 3 + B 2 7 * fb (b + 1) 2),
     (3 * a + 2, 3 * b + 3, B 2 6 * f (b + 1) 1 + B 2 5 * f (b + 1) 2 + B 2 3 * f (b + 1) 3 + B 2 7 * fb (b + 1) 3),
     (3 * a + 3, 3 * b + 1, B 3 1 * f (b + 1) 1 + B 3 4 * f (b + 1) 2 + B 3 6 * f (b + 1) 3 + B 3 7 * fb (b + 1) 1),
     (3 * a + 3, 3 * b + 2, B 3 4 * f (b + 1) 1 + B 3 2 * f (b + 1) 2 + B 3 5 * f (b + 1) 3 + B 3 7 * fb (b + 1) 2),
     (3 * a + 3, 3 * b + 3, B 3 6 * f (b + 1) 1 + B 3 5 * f (b + 1) 2 + B 3 3 * f (b + 1) 3 + B 3 7 * fb (b + 1) 3)])

/-- The components of a three-dimensional stress tensor kept by `SymmTensor Sigma(nsd,axiSymmetry)` (FiniteDeformation/NonlinearElasticityULMX.C:511 and 521). -/
def mxComp (nsd : Nat) (axi : Bool) (s : Nat → ℝ) (i : Nat) : ℝ := if nsd = 2 ∧ axi = false ∧ i = 3 then s 4 else s i

/-- The stress of the mixed formulation: constitutive stress with another mean value (FiniteDeformation/NonlinearElasticityULMX.C:519-521). -/
noncomputable def mxSigma (nsd : Nat) (axi : Bool) (sig : Nat → ℝ) (bpres press : ℝ) : Nat → ℝ :=
  mxComp nsd axi fun i => if i ≤ 3 then sig i + (press - bpres) else sig i

/-- The strain-displacement matrix (FiniteDeformation/NonlinearElasticityULMX.C:553-558). -/
noncomputable def mxB {nPM : Nat} (nsd : Nat) (axi : Bool) (epsR : ℝ) (k : MxData nPM) : Res (DMat ℝ) :=
  if axi then formBaxi k.Nr k.dN 1 epsR else formB nsd k.dN

/-- What an integration point adds to element matrix and forces (FiniteDeformation/NonlinearElasticityULMX.C:512-565): `have` tells whether any point has stresses, `P` is its mixed pressure. -/
noncomputable def mxAdd {nPM : Nat} (nsd : Nat) (axi : Bool) (epsR : ℝ) (have_ : Bool) (k : MxData nPM) (th : ℝ) (gb : Nat → Nat → ℝ) (cs : DMat ℝ × (Nat → ℝ)) (P : ℝ)
    (M : DMat ℝ × DVec ℝ) : Res (DMat ℝ × DVec ℝ) :=
  let press := if have_ then P else 0
  let bpres := if have_ then (cs.2 1 + cs.2 2 + cs.2 3) / 3 else 0
  let sg := mxSigma nsd axi cs.2 bpres press
  let dV := th * k.pt.w
  (if have_ then formKG nsd axi M.1 k.Nr k.dN 1 (symT nsd axi sg) dV else .ok M.1).bind fun A =>
  (addVolumetricTerms cs.1.e cs.2 bpres press).bind fun D =>
  (if nsd = 2 then accKMx2D axi k.dN.nr k.Nr.e k.dN.e gb (fun i j => D.e i j * dV) A else accKMx3D k.dN.nr k.dN.e gb (fun i j => D.e i j * dV) A).bind fun A =>
  if have_ then (mxB nsd axi epsR k).bind fun B => .ok (A, addIntForce M.2 B sg dV) else .ok (A, M.2)

/-- The third loop over the integration points. -/
noncomputable def mxLoop {nPM : Nat} (nsd : Nat) (axi : Bool) (epsR : ℝ) (have_ : Bool) :
    List (MxData nPM × ℝ × (Nat → Nat → ℝ) × (DMat ℝ × (Nat → ℝ)) × ℝ) → DMat ℝ × DVec ℝ → Res (DMat ℝ × DVec ℝ)
  | [], M => .ok M
  | (k, th, gb, cs, P) :: l, M => (mxAdd nsd axi epsR have_ k th gb cs P M).bind fun M => mxLoop nsd axi epsR have_ l M

/-- An element: `evalInt` at the integration points, then `finalizeElement` (FiniteDeformation/NonlinearElasticityULMX.C:311-574). The mean stress of a point is left out of the mixed pressure if its
stresses do not exceed the tolerance. A vanishing volume change makes the gradients infinite, which is not distinguished from other undefined behaviour. -/
noncomputable def mxElement {nPM : Nat} (nsd : Nat) (axi : Bool) (tol epsR : ℝ) (eV eP : DVec ℝ) (pts : List (MPt nPM)) (M : DMat ℝ × DVec ℝ) : Res (DMat ℝ × DVec ℝ) :=
  (mxAll nsd axi epsR eV eP pts).bind fun ks =>
  let cp := ks.map (·.pt)
  (condense axi cp).bind fun C =>
  if (C.theta.any fun t => decide (t = 0)) = true then .ub
  else
    (mxMats (pts.zip (ks.zip C.theta))).bind fun css =>
    let q := css.map fun cs => if zeroStrain tol 6 cs.2 then 0 else (cs.2 1 + cs.2 2 + cs.2 3) / 3
    let P := pressure cp q C.theta
    mxLoop nsd axi epsR (css.any fun cs => !zeroStrain tol 6 cs.2) (ks.zip (C.theta.zip (C.gbar.zip (css.zip P)))) M

end Verif.Finite
