/-
Model of the whole F-bar element, FiniteDeformation/NonlinearElasticityFbar.C, in a static nonlinear analysis: evaluation of the volumetric sampling points (`reducedInt`) and element matrix
and forces of the integration points (`evalInt`). The kinematics are those of the updated Lagrangian element (Model/FDTangent.lean), the tensors A and Q and the gradient operator those of
Model/Fbar.lean. The storage of the sampling points is the subject of C29 and is a list here.

`Tensor::operator=(double)` of the IFEM library is assumed to assign a multiple of the identity, `Matrix::inverse` to return the determinant (zero for a singular matrix). As in
Model/FDTangent.lean, a material is a function of the deformation gradient and the strains; it does not evaluate the stresses if there are no strains.
-/
import Verif.Model.FDTangent
import Verif.Model.Fbar

namespace Verif.Finite

open Verif.Cont

/-- Data of a volumetric sampling point: volume ratio, gradients in the deformed configuration and basis functions divided by the radius (FiniteDeformation/NonlinearElasticityFbar.C:30-37). -/
structure VolPt where
  J : ℝ
  dN : DMat ℝ
  Nr : DVec ℝ

/-- The radial displacement `eV.dot(fe.N,0,nsd)`. -/
noncomputable def radial (nsd : Nat) (eV : DVec ℝ) (N : DVec ℝ) : ℝ := ∑ a ∈ Finset.range N.n, eV.e (nsd * a + 1) * N.e (a + 1)

/-- The basis functions multiplied by a factor. -/
def scaleN (N : DVec ℝ) (c : ℝ) : DVec ℝ := ⟨N.n, fun a => N.e a * c⟩

/-- `NonlinearElasticityFbar::reducedInt` (FiniteDeformation/NonlinearElasticityFbar.C:187-261). -/
noncomputable def reducedInt (nsd : Nat) (axi : Bool) (tol epsR : ℝ) (eV : DVec ℝ) (p : FPt ℝ) : Res VolPt :=
  (kinUL nsd axi eV p epsR).bind fun k =>
  if zeroStrain tol (ncomp nsd axi) k.2 then
    .ok ⟨1, p.dN, if axi = true ∧ 0 < p.X then scaleN p.N (1 / p.X) else DVec.zero 0⟩
  else
    let J := if axi then (lead nsd k.1).det * k.1 3 3 else (lead nsd k.1).det
    if J = 0 then .fail
    else .ok ⟨J, pushGrad nsd k.1 p.dN, if axi = true ∧ 0 < p.X then scaleN p.N (1 / (p.X + radial nsd eV p.N)) else DVec.zero 0⟩

/-- The sampling points of an element in sequence. -/
noncomputable def reducedAll (nsd : Nat) (axi : Bool) (tol epsR : ℝ) (eV : DVec ℝ) : List (FPt ℝ) → Res (List VolPt)
  | [] => .ok []
  | p :: l => (reducedInt nsd axi tol epsR eV p).bind fun d => (reducedAll nsd axi tol epsR eV l).bind fun ds => .ok (d :: ds)

/-- Volume ratio, gradients and basis functions of the volumetric field at an integration point. -/
structure VolFld where
  J : ℝ
  dM : DMat ℝ
  M : DVec ℝ

/-- The volumetric field at an integration point (FiniteDeformation/NonlinearElasticityFbar.C:516-565); `Nbar` are the values of the Lagrange polynomials. A vanishing volume ratio makes the
gradients infinite, which is not distinguished from other undefined behaviour. -/
noncomputable def volField (axi : Bool) (vol : List VolPt) (Nbar : List ℝ) (J r : ℝ) (dNdx : DMat ℝ) (N : DVec ℝ) : Res VolFld :=
  match vol with
  | [] => .ok ⟨J, dNdx, if axi = true ∧ 0 < r then scaleN N (1 / r) else DVec.zero 0⟩
  | [v] => .ok ⟨v.J, v.dN, if axi then v.Nr else DVec.zero 0⟩
  | _ =>
    if vol.length < Nbar.length then .ub
    else
      let z := vol.zip Nbar
      let Jb := (z.map fun v => v.1.J * v.2).sum
      if Jb = 0 then .ub
      else .ok ⟨Jb, ⟨dNdx.nr, dNdx.nc, fun a i => 1 / Jb * (z.map fun v => v.1.J * v.2 * v.1.dN.e a i).sum⟩,
        if axi then ⟨dNdx.nr, fun a => (z.map fun v => v.1.J * v.2 * v.1.Nr.e a).sum / Jb⟩ else DVec.zero 0⟩

/-- `EK += G^T * (A*G')` (FiniteDeformation/NonlinearElasticityFbar.C:650-656). -/
noncomputable def addGAG (EK G A G' : DMat ℝ) : Res (DMat ℝ) :=
  if A.nc = G'.nr ∧ A.nr = G.nr ∧ EK.nr = G.nc ∧ EK.nc = G'.nc then
    .ok ⟨EK.nr, EK.nc, fun i j => EK.e i j + ∑ k ∈ Finset.range G.nr, G.e (k + 1) i * ∑ l ∈ Finset.range G'.nr, A.e (k + 1) (l + 1) * G'.e (l + 1) j⟩
  else .ub

/-- The tangent tensor A (FiniteDeformation/NonlinearElasticityFbar.C:612-619). -/
def fbarA (nsd : Nat) (axi : Bool) (C : Nat → Nat → ℝ) (sig : Nat → ℝ) : Res (DMat ℝ) :=
  if axi then Fbar.amatAx C sig else if nsd = 2 then Fbar.amat2 C sig else Fbar.amat3 C sig

/-- The stiffness matrix of an integration point (FiniteDeformation/NonlinearElasticityFbar.C:606-657); `C` and `sig` include the volume of the point. -/
noncomputable def fbarStiff (nsd : Nat) (axi : Bool) (EK : DMat ℝ) (N : DVec ℝ) (dNdx : DMat ℝ) (r : ℝ) (fld : VolFld) (C : Nat → Nat → ℝ) (sig : Nat → ℝ) : Res (DMat ℝ) :=
  (Fbar.gradOp nsd (if axi then r else -1) N dNdx).bind fun G =>
  (Fbar.gradOp nsd (if axi then 1 else -1) fld.M fld.dM).bind fun Gb =>
  (fbarA nsd axi C sig).bind fun A =>
  (Fbar.qmat nsd (if axi then 3 else nsd) axi A fun i j => sig (if axi then Fbar.vidxA i j else if nsd = 2 then Fbar.vidx2 i j else Fbar.vidx3 i j)).bind fun Q =>
  (addGAG EK G A G).bind fun EK =>
  if Gb.nr = G.nr ∧ Gb.nc = G.nc then addGAG EK G Q ⟨Gb.nr, Gb.nc, fun i j => Gb.e i j - G.e i j⟩ else .ub

/-- The internal forces of an integration point (FiniteDeformation/NonlinearElasticityFbar.C:585-604). -/
noncomputable def fbarForce (nsd : Nat) (axi : Bool) (ES : DVec ℝ) (N : DVec ℝ) (dNdx : DMat ℝ) (r : ℝ) (sig : Nat → ℝ) : Res (DVec ℝ) :=
  ES.addMany ((List.range dNdx.nr).flatMap fun a =>
    (if axi = true ∧ 0 < r then [(nsd * a + 1, -(N.e (a + 1) * sig 3 / r))] else []) ++
    (List.range nsd).map fun i => (nsd * a + i + 1, -∑ j ∈ Finset.range nsd, dNdx.e (a + 1) (j + 1) * symT nsd axi sig (i + 1) (j + 1)))

/-- `NonlinearElasticityFbar::evalInt` (FiniteDeformation/NonlinearElasticityFbar.C:462-669): element matrix and vector after an integration point. -/
noncomputable def fbarPoint (nsd : Nat) (axi : Bool) (tol epsR : ℝ) (vol : List VolPt) (mat : Mat ℝ) (eV : DVec ℝ) (p : FPt ℝ) (Nbar : List ℝ) (M : DMat ℝ × DVec ℝ) : Res (DMat ℝ × DVec ℝ) :=
  (kinUL nsd axi eV p epsR).bind fun k =>
  let hs := !zeroStrain tol (ncomp nsd axi) k.2
  let J := if hs then (if axi then (lead nsd k.1).det * k.1 3 3 else (lead nsd k.1).det) else 1
  if J = 0 then .fail
  else
    let F : Nat → Nat → ℝ := if hs then k.1 else fun i j => if i = j then 1 else 0
    let dNdx := if hs then pushGrad nsd k.1 p.dN else p.dN
    let r := if axi then p.X + radial nsd eV p.N else 0
    (volField axi vol Nbar J r dNdx p.N).bind fun fld =>
    let c := |fld.J / J| ^ ((1 : ℝ) / ((if axi then 3 else nsd : ℕ) : ℝ))
    (mat (fun i j => c * F i j) k.2).bind fun cs =>
    let C := fun i j => cs.1.e i j * (p.w * J)
    let sig := fun i => if hs then cs.2 i * (p.w * J) else 0
    (if hs then fbarForce nsd axi M.2 p.N dNdx r sig else .ok M.2).bind fun ES =>
    (fbarStiff nsd axi M.1 p.N dNdx r fld C sig).bind fun EK =>
    .ok (EK, ES)

/-- The loop over the integration points of an element, each with its material and its values of the Lagrange polynomials. -/
noncomputable def fbarPoints (nsd : Nat) (axi : Bool) (tol epsR : ℝ) (vol : List VolPt) (eV : DVec ℝ) : List (FPt ℝ × Mat ℝ × List ℝ) → DMat ℝ × DVec ℝ → Res (DMat ℝ × DVec ℝ)
  | [], M => .ok M
  | p :: l, M => (fbarPoint nsd axi tol epsR vol p.2.1 eV p.1 p.2.2 M).bind fun M => fbarPoints nsd axi tol epsR vol eV l M

/-- An element: first the sampling points, then the integration points. -/
noncomputable def fbarElement (nsd : Nat) (axi : Bool) (tol epsR : ℝ) (smp : List (FPt ℝ)) (eV : DVec ℝ) (pts : List (FPt ℝ × Mat ℝ × List ℝ)) (M : DMat ℝ × DVec ℝ) : Res (DMat ℝ × DVec ℝ) :=
  (reducedAll nsd axi tol epsR eV smp).bind fun vol => fbarPoints nsd axi tol epsR vol eV pts M

end Verif.Finite
