/-
Model of the norms of the finite deformation elements with volume change fields: the mixed element with internal pressure modes (FiniteDeformation/NonlinearElasticityULMX.C, `ElasticityNormULMX`), the three-field element
(FiniteDeformation/NonlinearElasticityULMixed.C, `ElasticityNormULMixed`) and the F-bar element (FiniteDeformation/NonlinearElasticityFbar.C, `ElasticityNormFbar`). What an integration point adds to the norms is
that of Model/NormUL.lean, the data of the integration points those of Model/MixedElem.lean, Model/TripleElem.lean and Model/FbarElem.lean.

A material returns stresses and strain energy density (`material->evaluate` with `iop` 3). `NormBase::reducedInt` of the IFEM library is assumed to forward to the element. A vanishing determinant of the deformation gradient
makes the modified gradient infinite, which is not distinguished from other undefined behaviour. Norms start at zero.
-/
import Verif.Model.TripleElem
import Verif.Model.NormUL

namespace Verif.Finite

open Verif.Cont Verif.Mixed

/-- A material with strain energy: function of the deformation gradient and the strains. -/
abbrev EMat := (Nat → Nat → ℝ) → (Nat → ℝ) → Res ((Nat → ℝ) × ℝ)

/-- A three-dimensional stress tensor, `SymmTensor Sig(3)` (FiniteDeformation/NonlinearElasticityULMX.C:711, FiniteDeformation/NonlinearElasticityULMixed.C:560). -/
def symSolid (s : Nat → ℝ) : NormUL.Sym ℝ := ⟨3, [s 1, s 2, s 3], [s 4, s 5, s 6]⟩

/-- The stress tensor of the F-bar element, `SymmTensor sigma(nsd,axi||plane strain)` (FiniteDeformation/NonlinearElasticityFbar.C:752); `with33` tells if there is a third normal component in two dimensions. -/
def symFbar (nsd : Nat) (with33 : Bool) (s : Nat → ℝ) : NormUL.Sym ℝ :=
  if nsd = 3 then symSolid s else if with33 then ⟨2, [s 1, s 2, s 3], [s 4]⟩ else ⟨2, [s 1, s 2], [s 3]⟩

/-- `Eps.rightCauchyGreen(F)`, `Eps -= 1.0`, `Eps *= 0.5` (FiniteDeformation/NonlinearElasticityULMX.C:726-728). -/
noncomputable def mxGreen (F : Nat → Nat → ℝ) (k : Nat) : ℝ :=
  let C := fun i j => F 1 i * F 1 j + F 2 i * F 2 j + F 3 i * F 3 j
  if k = 1 then (C 1 1 - 1) * (1 / 2) else if k = 2 then (C 2 2 - 1) * (1 / 2) else if k = 3 then (C 3 3 - 1) * (1 / 2)
  else if k = 4 then C 1 2 * (1 / 2) else if k = 5 then C 2 3 * (1 / 2) else C 1 3 * (1 / 2)

/-- The volume changes at the integration points (FiniteDeformation/NonlinearElasticityULMX.C:661-703). As in Model/Mixed.lean, `utl::invert` is taken to return false for a singular matrix. -/
noncomputable def mxNormTheta {nPM : Nat} (ds : List (MxData nPM)) : Res (List ℝ) :=
  let H := hmat (ds.map (·.pt))
  if H.det = 0 then .fail
  else
    let Hi : Matrix (Fin nPM) (Fin nPM) ℝ := (H.det)⁻¹ • H.adjugate
    if h : nPM = 1 then
      let h1 := (ds.map fun d => (lead 3 d.F).det * d.pt.w).sum
      .ok (ds.map fun _ => h1 * Hi ⟨0, by omega⟩ ⟨0, by omega⟩)
    else
      let Ji := fun i => (ds.map fun d => d.pt.phi i * (lead 3 d.F).det * d.pt.w).sum
      let Hj := fun i => ∑ j, Hi i j * Ji j
      .ok (ds.map fun d => ∑ i, Hj i * d.pt.phi i)

/-- The loop over the integration points (FiniteDeformation/NonlinearElasticityULMX.C:710-745). -/
noncomputable def mxNormPts {nPM : Nat} : List (EMat × MxData nPM × ℝ) → NormUL.Norms ℝ → Res (NormUL.Norms ℝ)
  | [], n => .ok n
  | (em, k, th) :: l, n =>
    (em (fun i j => k.F i j * |th / (lead 3 k.F).det| ^ ((1 : ℝ) / 3)) (mxGreen k.F)).bind fun su =>
    mxNormPts l (NormUL.evalInt n (symSolid su.1) su.2 th k.pt.w)

/-- The norms of a mixed element with internal pressure modes: `evalInt` at the integration points, then `finalizeElement` (FiniteDeformation/NonlinearElasticityULMX.C:615-748). -/
noncomputable def mxNorm {nPM : Nat} (nsd : Nat) (axi : Bool) (epsR : ℝ) (eV eP : DVec ℝ) (pts : List (MPt nPM × EMat)) : Res (NormUL.Norms ℝ) :=
  (mxAll nsd axi epsR eV eP (pts.map (·.1))).bind fun ds =>
  (mxNormTheta ds).bind fun th =>
  mxNormPts ((pts.map (·.2)).zip (ds.zip th)) NormUL.Norms.zero

/-- `ElasticityNormULMixed::evalIntMx` (FiniteDeformation/NonlinearElasticityULMixed.C:526-566). -/
noncomputable def tNormPt (nsd : Nat) (axi : Bool) (epsR : ℝ) (eV eT : DVec ℝ) (p : TPt) (em : EMat) (n : NormUL.Norms ℝ) : Res (NormUL.Norms ℝ) :=
  (kinUL nsd axi eV p.pt epsR).bind fun k =>
  let th := p.N2.dot eT.e + 1
  if (lead (if axi then 3 else nsd) k.1).det = 0 then .ub
  else
    (em (tFbar nsd axi k.1 th) k.2).bind fun su =>
    let w := if axi then 2 * Real.pi * p.pt.X * p.pt.w else p.pt.w
    .ok (NormUL.evalInt n (symSolid su.1) su.2 th w)

/-- The integration points of a three-field element in sequence. -/
noncomputable def tNorm (nsd : Nat) (axi : Bool) (epsR : ℝ) (eV eT : DVec ℝ) : List (TPt × EMat) → NormUL.Norms ℝ → Res (NormUL.Norms ℝ)
  | [], n => .ok n
  | p :: l, n => (tNormPt nsd axi epsR eV eT p.1 p.2 n).bind fun n => tNorm nsd axi epsR eV eT l n

/-- The volume ratio of the sampling points at an integration point (FiniteDeformation/NonlinearElasticityFbar.C:723-744). -/
noncomputable def fbNormJ (vol : List VolPt) (Nbar : List ℝ) (J : ℝ) : Res ℝ :=
  match vol with
  | [] => .ok J
  | [v] => .ok v.J
  | _ => if vol.length < Nbar.length then .ub else .ok ((vol.zip Nbar).map fun v => v.1.J * v.2).sum

/-- `ElasticityNormFbar::evalInt` (FiniteDeformation/NonlinearElasticityFbar.C:708-761). In axisymmetry the strains passed to the material are those of a three-dimensional tensor, which vanish beyond the fourth component;
here they are the four components. -/
noncomputable def fbNormPt (nsd : Nat) (axi ps : Bool) (epsR : ℝ) (vol : List VolPt) (eV : DVec ℝ) (p : FPt ℝ) (em : EMat) (Nbar : List ℝ) (n : NormUL.Norms ℝ) : Res (NormUL.Norms ℝ) :=
  (kinUL nsd axi eV p epsR).bind fun k =>
  let nDF := if axi then 3 else nsd
  let J := (lead nDF k.1).det
  (fbNormJ vol Nbar J).bind fun Jb =>
  if J = 0 then .ub
  else
    (em (fun i j => k.1 i j * |Jb / J| ^ ((1 : ℝ) / (nDF : ℝ))) k.2).bind fun su =>
    let w := if axi then 2 * Real.pi * p.X * p.w else p.w
    .ok (NormUL.evalInt n (symFbar nsd (axi || ps) su.1) su.2 J w)

/-- The integration points of an F-bar element in sequence. -/
noncomputable def fbNormPts (nsd : Nat) (axi ps : Bool) (epsR : ℝ) (vol : List VolPt) (eV : DVec ℝ) : List (FPt ℝ × EMat × List ℝ) → NormUL.Norms ℝ → Res (NormUL.Norms ℝ)
  | [], n => .ok n
  | p :: l, n => (fbNormPt nsd axi ps epsR vol eV p.1 p.2.1 p.2.2 n).bind fun n => fbNormPts nsd axi ps epsR vol eV l n

/-- The norms of an F-bar element: first the sampling points, then the integration points. -/
noncomputable def fbNorm (nsd : Nat) (axi ps : Bool) (tol epsR : ℝ) (smp : List (FPt ℝ)) (eV : DVec ℝ) (pts : List (FPt ℝ × EMat × List ℝ)) : Res (NormUL.Norms ℝ) :=
  (reducedAll nsd axi tol epsR eV smp).bind fun vol => fbNormPts nsd axi ps epsR vol eV pts NormUL.Norms.zero

end Verif.Finite
