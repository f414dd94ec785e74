/-
Model of the energies and norms reported for the total and updated Lagrangian elements: `ElasticityNormUL` (FiniteDeformation/NonlinearElasticityUL.C:354-416), `ElasticityNorm` (Elasticity/Elasticity.C:1103-1172) for the
total Lagrangian elements, and the strain energy densities of the materials (`evaluate` with `iop` 3). What an integration point adds to the norms of updated Lagrangian elements is that of Model/NormUL.lean.

A material that reports divergence (FiniteDeformation/NonlinearElasticityUL.C:373-375) is taken to have failed. External energy, analytical solutions, projections and extraction functions are the subject of Model/Norms.lean.
As in Model/LinIsotropic.lean, `SymmTensor::innerProd` is taken to be the product of the stored components.
-/
import Verif.Model.NormMixed
import Verif.Model.FDStress

namespace Verif.Finite

open Verif.Cont

/-- `LinIsotropic::evaluate` with `iop` 3 (Elasticity/LinIsotropic.C:300-320) and constitutive matrix `D`: stresses and strain energy density. The third normal stress of plane strain is left out: there is no strain for it. -/
noncomputable def linE (D : DMat ℝ) : EMat := fun _ E =>
  let s := fun i => ∑ j ∈ Finset.range D.nc, D.e i (j + 1) * E (j + 1)
  .ok (s, 1 / 2 * ∑ k ∈ Finset.range D.nr, s (k + 1) * E (k + 1))

/-- `LinearMaterial::evaluate` with `iop` 3 (FiniteDeformation/LinearMaterial.C:31-57) around the material `m`: the stresses are pushed forward, the strain energy density is kept. -/
noncomputable def pushE (nsd : Nat) (m : EMat) : EMat := fun F E =>
  (m F E).bind fun su =>
  let J := (lead nsd F).det
  if J = 0 then .fail
  else .ok (fun i => pushStress nsd F su.1 i * (1 / J), su.2)

/-- `NeoHookeMaterial::evaluate` (FiniteDeformation/NeoHookeMaterial.C:93-177) in three dimensions as function of the operation code: the second Piola-Kirchhoff stresses (`iop` 2) are not available. -/
noncomputable def neoOp (mVER iVOL : Nat) (Bmod Smod : ℝ) : OpMat ℝ := fun iop F _ =>
  (NeoHooke.evaluate3 mVER iVOL Bmod Smod (lead 3 F)).bind fun o => if iop = 2 then .fail else .ok (o.C, fun k => o.S.v (k - 1))

/-- `NeoHookeMaterial::evaluate` with `iop` 3 in three dimensions. A vanishing strain energy density is replaced by the product of the strains with the second Piola-Kirchhoff stresses
(FiniteDeformation/NeoHookeMaterial.C:141-165); `Fi.inverse()` returns the determinant of the deformation gradient. -/
noncomputable def neoE (mVER iVOL : Nat) (Bmod Smod : ℝ) : EMat := fun F E =>
  (NeoHooke.evaluate3 mVER iVOL Bmod Smod (lead 3 F)).bind fun o =>
  let s := fun k => o.S.v (k - 1)
  .ok (s, if o.U = 0 then (∑ k ∈ Finset.range 6, pushStress 3 (inv 3 F) s (k + 1) * E (k + 1)) * (lead 3 F).det else o.U)

/-- `ElasticityNormUL::evalInt` (FiniteDeformation/NonlinearElasticityUL.C:354-382). -/
noncomputable def ulNormPt (nsd : Nat) (axi ps : Bool) (epsR : ℝ) (eV : DVec ℝ) (p : FPt ℝ) (em : EMat) (n : NormUL.Norms ℝ) : Res (NormUL.Norms ℝ) :=
  (kinUL nsd axi eV p epsR).bind fun k =>
  (em k.1 k.2).bind fun su =>
  let w := if axi then 2 * Real.pi * p.X * p.w else p.w
  .ok (NormUL.evalInt n (symFbar nsd (axi || ps) su.1) su.2 (lead (if axi then 3 else nsd) k.1).det w)

/-- The integration points of an updated Lagrangian element in sequence. -/
noncomputable def ulNorm (nsd : Nat) (axi ps : Bool) (epsR : ℝ) (eV : DVec ℝ) : List (FPt ℝ × EMat) → NormUL.Norms ℝ → Res (NormUL.Norms ℝ)
  | [], n => .ok n
  | p :: l, n => (ulNormPt nsd axi ps epsR eV p.1 p.2 n).bind fun n => ulNorm nsd axi ps epsR eV l n

/-- Energy norm and volume in `ElasticityNorm::evalInt` (Elasticity/Elasticity.C:1109-1140, 1171-1172), squared: `Cinv` is the inverse constitutive matrix from `formCmat`. Plane problems have three stress components. -/
noncomputable def tlNormPt (nsd : Nat) (epsR : ℝ) (m : OpMat ℝ) (Cinv : DMat ℝ) (eV : DVec ℝ) (p : FPt ℝ) (n : ℝ × ℝ) : Res (ℝ × ℝ) :=
  (stressAt nsd epsR m eV p).bind fun s =>
  .ok (n.1 + (∑ i ∈ Finset.range Cinv.nr, s (i + 1) * ∑ j ∈ Finset.range Cinv.nc, Cinv.e (i + 1) (j + 1) * s (j + 1)) * p.w, n.2 + p.w)

/-- The integration points of a total Lagrangian element in sequence. -/
noncomputable def tlNorm (nsd : Nat) (epsR : ℝ) (eV : DVec ℝ) : List (FPt ℝ × OpMat ℝ × DMat ℝ) → ℝ × ℝ → Res (ℝ × ℝ)
  | [], n => .ok n
  | p :: l, n => (tlNormPt nsd epsR p.2.1 p.2.2 eV p.1 n).bind fun n => tlNorm nsd epsR eV l n

end Verif.Finite
