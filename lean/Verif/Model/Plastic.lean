/-
Model of FiniteDeformation/PlasticMaterial.C: parameters, history handling, yield functions and
energy integral. The return mapping is in Model/ReturnMap.lean.
-/
import Verif.Basic
import Mathlib.Analysis.SpecialFunctions.Pow.Real
import Mathlib.Analysis.SpecialFunctions.Exp
import Mathlib.Analysis.Real.Sqrt
import Mathlib.LinearAlgebra.Matrix.NonsingularInverse

namespace Verif.Plastic

/-! ### Material parameters -/

section moduli
variable {K : Type*} [Field K] [LinearOrder K]

/-- The elastic constants: Young's modulus, Poisson's ratio, bulk and shear modulus. -/
structure Moduli (K : Type*) where
  E : K
  nu : K
  bulk : K
  shear : K

/-- The moduli conversion of the constructor (FiniteDeformation/PlasticMaterial.C:27-51), from the
first two parameters. -/
def moduli (p0 p1 : K) : Moduli K :=
  if p1 > 1 / 2 then
    ⟨9 * p0 * p1 / (3 * p0 + p1), (3 / 2 * p0 - p1) / (3 * p0 + p1), p0, p1⟩
  else if p1 < 1 / 2 then
    ⟨p0, p1, p0 / (3 - 6 * p1), p0 / (2 + 2 * p1)⟩
  else ⟨p0, p1, 0, p0 / 3⟩

/-- The constructor (FiniteDeformation/PlasticMaterial.C:22-54): the parameters are extended to at
least 11, the first two are replaced by `E` and `nu`, and the bulk and shear moduli are inserted at
index 4 and 5. -/
def params (p : List K) : List K :=
  let p := p ++ List.replicate (11 - p.length) 0
  match p with
  | p0 :: p1 :: p2 :: p3 :: l =>
    let m := moduli p0 p1
    m.E :: m.nu :: p2 :: p3 :: m.bulk :: m.shear :: l
  | _ => p

/-- `NeoHookeMaterial::findLameParams` (FiniteDeformation/NeoHookeMaterial.C:62-82): `E` is the
argument (negative: use the member `Emod`), `mver` the material version, `e` and `nu` the members
before the call. -/
def lame (mver : Nat) (E e nu : K) : Moduli K :=
  if nu > 1 / 2 then
    let kappa := if E > 0 then E else e
    ⟨9 * kappa * nu / (3 * kappa + nu), (3 / 2 * kappa - nu) / (3 * kappa + nu), kappa, nu⟩
  else
    let e := if E > 0 then E else e
    let s := 1 / 2 * e / (1 + nu)
    let b := if nu ≥ 1 / 2 then 0 else e / (3 - 6 * nu)
    ⟨e, nu, if mver = 1 ∧ nu < 1 / 2 then b - s * 2 / 3 else b, s⟩

end moduli

/-! ### History variables -/

/-- The member `updated` of a point: not updated, converged or diverged. -/
inductive Flag
  | no | c | d
  deriving DecidableEq, Repr

/-- One material point (FiniteDeformation/PlasticMaterial.h:45-107): history variables of the
current and the previous configuration, the flag, and the previous deformation gradient. `H` is the
type of the history variables, `T` the type of deformation gradients. -/
structure Point (H T : Type*) where
  hc : H
  hp : H
  upd : Flag
  fp : T

/-- The local evaluation: from the previous history, the previous and the current deformation
gradient, and the iteration counter to the current history and the divergence flag, or the history
at an error return. -/
abbrev Law (H T : Type*) := H → T → T → Nat → Bool → (H × Bool) ⊕ H

variable {H T : Type*}

/-- `PlasticPoint` constructor (FiniteDeformation/PlasticMaterial.C:271-280). -/
def newPoint (h0 hz : H) (one : T) : Point H T := ⟨hz, h0, .no, one⟩

/-- `PlasticPoint::updateState` (FiniteDeformation/PlasticMaterial.C:283-301). -/
def updateState (updateVars : Bool) (p : Point H T) : Point H T :=
  if p.upd = .no then p
  else if updateVars then { p with upd := .no, hp := p.hc }
  else { p with upd := .no }

/-- `PlasticPoint::evaluate` (FiniteDeformation/PlasticMaterial.C:304-729), with the local
constitutive update as a parameter: the history is restored from the previous configuration, the
update is made, and the flag is set unless an error is returned. Returns whether the return value
was zero. -/
def pointEval (law : Law H T) (F : T) (it : Nat) (first : Bool) (p : Point H T) :
    Bool × Point H T :=
  match law p.hp p.fp F it first with
  | .inl (h, div) => (!div, { p with hc := h, upd := if div then .d else .c })
  | .inr h => (false, { p with hc := h })

/-- The integration point part of `PlasticMaterial::evaluate` for an existing point
(FiniteDeformation/PlasticMaterial.C:161-169). -/
def itgEval (law : Law H T) (F : T) (it : Nat) (first : Bool) (p : Point H T) :
    Bool × Point H T :=
  pointEval law F it first (if it = 0 ∧ first = false then { p with fp := F } else p)

/-- `PlasticMaterial::initIntegration(prm)` for one point (FiniteDeformation/PlasticMaterial.C:73-100). -/
def initPoint (it : Nat) (first : Bool) (p : Point H T) : Point H T :=
  updateState (!first && it == 0) p

/-- One iteration as seen by one integration point: `initIntegration`, then `evaluate`. -/
def iteration (law : Law H T) (first : Bool) (it : Nat) (F : T) (p : Point H T) : Point H T :=
  (itgEval law F it first (initPoint it first p)).2

/-- The iterations of one attempt to solve a load step, numbered from `it`. -/
def attempt (law : Law H T) (first : Bool) : Nat → List T → Point H T → Point H T
  | _, [], p => p
  | it, F :: l, p => attempt law first (it + 1) l (iteration law first it F p)

/-- A simulation: attempts, the first flag of each telling whether it is in the first load step.
The last attempt of each step is the converged one. -/
def simulate (law : Law H T) : List (Bool × List T) → Point H T → Point H T
  | [], p => p
  | (first, l) :: r, p => simulate law r (attempt law first 0 l p)

/-! The container of integration points. -/

/-- `PlasticMaterial::initIntegration(prm)` (FiniteDeformation/PlasticMaterial.C:73-100): all
existing points. -/
def initAll (it : Nat) (first : Bool) (l : List (Option (Point H T))) :
    List (Option (Point H T)) :=
  l.map (Option.map (initPoint it first))

/-- The integration branch of `PlasticMaterial::evaluate` (FiniteDeformation/PlasticMaterial.C:134-172):
a missing point is created in iteration 0 of the first step only. `none` is the error return before
any evaluation. -/
def evalAt (law : Law H T) (mk : Point H T) (i : Nat) (F : T) (it : Nat) (first : Bool)
    (l : List (Option (Point H T))) : Option (Bool × List (Option (Point H T))) :=
  match l[i]? with
  | none => none
  | some none =>
    if it = 0 ∧ first = true then
      let r := itgEval law F it first mk
      some (r.1, l.set i (some r.2))
    else none
  | some (some p) =>
    let r := itgEval law F it first p
    some (r.1, l.set i (some r.2))

/-- One integration loop: `initIntegration`, then the points in the given order with their
deformation gradients. Stops at the first error return (the integration is aborted), keeping the
points as they are. -/
def evalAll (law : Law H T) (mk : Point H T) (it : Nat) (first : Bool) :
    List (Nat × T) → List (Option (Point H T)) → Option (List (Option (Point H T)))
  | [], l => some l
  | (i, F) :: r, l =>
    match evalAt law mk i F it first l with
    | none => none
    | some (_, l') => evalAll law mk it first r l'

/-- The elastic branch of the local evaluation in matrix form
(FiniteDeformation/PlasticMaterial.C:371-379 and 560-566): the elastic left Cauchy-Green tensor is
carried along with the relative deformation gradient `Fc Fp⁻¹`. The history is that tensor; the
accumulated plastic strain and back stress do not change. Singular deformation gradients give an
error return. -/
noncomputable def elasticLaw {K : Type*} [Field K] [DecidableEq K] {n : Nat} :
    Law (Matrix (Fin n) (Fin n) K) (Matrix (Fin n) (Fin n) K) :=
  fun b fp fc _ _ =>
    if fp.det = 0 ∨ fc.det = 0 then .inr b
    else .inl ((fc * fp⁻¹) * b * (fc * fp⁻¹).transpose, false)

/-! ### Yield functions -/

/-- The output arguments of `yfunc`. -/
structure Yld where
  f1 : ℝ := 0
  f2 : ℝ := 0
  f3 : ℝ := 0
  f11 : ℝ := 0
  f22 : ℝ := 0
  f33 : ℝ := 0
  f12 : ℝ := 0
  f13 : ℝ := 0
  f23 : ℝ := 0
  Ypr : ℝ
  YY : ℝ
  yield : ℝ

/-- The constant `epsZ`. -/
noncomputable def epsZ : ℝ := 1 / 10 ^ 16

/-- `sqrt(2/3)`. -/
noncomputable def s23 : ℝ := Real.sqrt (2 / 3)

/-- The conversion `static_cast<int>`. -/
noncomputable def toInt (x : ℝ) : Int := if 0 ≤ x then ⌊x⌋ else ⌈x⌉

/-- Derivatives common to the criteria depending on `sqrt(2 J2)` (FiniteDeformation/PlasticMaterial.C:782-787). -/
noncomputable def misesD (lIter : Bool) (ss : ℝ) (y : Yld) : Yld :=
  if lIter = true ∧ ss > epsZ then { y with f2 := 1 / ss, f22 := -(1 / ss) ^ 3 } else y

/-- `PlasticPoint::yfunc` (FiniteDeformation/PlasticMaterial.C:732-896). `p` are the material
parameters after construction; reading outside of them is undefined behaviour. `hfn` is the
hardening curve with its derivative, if any. -/
noncomputable def yfunc (p : List ℝ) (hfn : Option ((ℝ → ℝ) × (ℝ → ℝ))) (lIter : Bool)
    (Epp I1 J2 J3 : ℝ) : Res Yld :=
  match p[6]?, p[8]?, p[9]?, p[10]?, p[11]? with
  | some p6, some p8, some p9, some p10, some beta =>
    let Hiso := s23 * p6
    let Y0 := s23 * p9
    let Yinf := s23 * p10
    let YY := Y0 + Hiso * Epp
    let Ypr := 2 / 3 * p6
    let ss := if J2 > 0 then Real.sqrt (2 * J2) else 0
    if toInt p8 = 1 then
      let aa := (Y0 - Yinf) * Real.exp (-beta * Epp)
      let YY := Yinf + aa + Hiso * Epp
      .ok (misesD lIter ss { Ypr := Ypr - s23 * beta * aa, YY := YY, yield := ss - YY })
    else if toInt p8 = 2 then
      let y : Yld := { Ypr := Ypr, YY := YY, yield := ss + 1 / 3 * Yinf * I1 - YY }
      .ok (if lIter then misesD lIter ss { y with f1 := 1 / 3 * Yinf } else y)
    else if toInt p8 = 3 then
      if J2 < epsZ then .ok { Ypr := Ypr, YY := YY, yield := -YY }
      else if lIter then
        let c1 := Real.sqrt (1 / 2)
        let c2 := Real.sqrt (27 / 2) * Yinf
        let J2_1 := 1 / J2
        let J2_12 := Real.sqrt J2_1
        .ok { Ypr := Ypr, YY := YY, yield := ss + c2 * J3 / J2 - YY,
              f2 := c1 * J2_12 - c2 * J3 * (J2_1 * J2_1),
              f3 := c2 * J2_1,
              f22 := -c1 * J2_12 ^ 3 * (1 / 2) + c2 * J3 * J2_1 ^ 3 * 2,
              f23 := -c2 * (J2_1 * J2_1) }
      else .ok { Ypr := Ypr, YY := YY, yield := -YY }
    else if toInt p8 = 4 then
      if Epp < epsZ ∧ -Epp < epsZ then
        .ok (misesD lIter ss
          { Ypr := Ypr + s23 * Yinf * epsZ ^ (beta - 1), YY := Y0, yield := ss - Y0 })
      else
        let YY := Y0 + Yinf * Epp ^ beta + Hiso * Epp
        .ok (misesD lIter ss
          { Ypr := Ypr + s23 * beta * Yinf * Epp ^ (beta - 1), YY := YY, yield := ss - YY })
    else if toInt p8 = 5 then
      match hfn with
      | none => .fail
      | some (h, h') =>
        let YY := s23 * h Epp
        .ok (misesD lIter ss { Ypr := Ypr + 2 / 3 * h' Epp, YY := YY, yield := ss - YY })
    else if toInt p8 = 6 then
      match p[13]?, p[14]? with
      | some p13, some c2 =>
        let q2 := s23 * p13
        let aa := Yinf * Real.exp (-beta * Epp)
        let bb := q2 * Real.exp (-c2 * Epp)
        let YY := Y0 + Yinf + q2 - aa - bb + Hiso * Epp
        .ok (misesD lIter ss
          { Ypr := Ypr + s23 * (beta * aa + c2 * bb), YY := YY, yield := ss - YY })
      | _, _ => .ub
    else .fail
  | _, _, _, _, _ => .ub

/-! ### Strain energy -/

section energy
variable {K : Type*} [Field K]

/-- The path integral data of a point: accumulated energy, previous stress and strain (as
component vectors with shear terms counted so that `ddot` is the sum of products). -/
structure Path (K : Type*) (n : Nat) where
  up : K
  sp : Fin n → K
  ep : Fin n → K

/-- Initial data (FiniteDeformation/PlasticMaterial.C:271-280): the empty tensors count as zero. -/
def path0 {n : Nat} : Path K n := ⟨0, fun _ => 0, fun _ => 0⟩

/-- `PlasticPoint::energyIntegral` (FiniteDeformation/PlasticMaterial.C:899-906), with `ddot` the
double contraction as a bilinear form. -/
def energyIntegral {n : Nat} (ddot : (Fin n → K) → (Fin n → K) → K) (S E : Fin n → K)
    (q : Path K n) : Path K n :=
  ⟨q.up + 1 / 2 * ddot (fun i => S i + q.sp i) (fun i => E i - q.ep i), S, E⟩

/-- The energies returned by `PlasticMaterial::evaluate` with `iop == 3`
(FiniteDeformation/PlasticMaterial.C:194-216) along a history of (J, S, E) with `S = F⁻¹ σ F⁻ᵀ`:
the value returned last. -/
def energyRun {n : Nat} (ddot : (Fin n → K) → (Fin n → K) → K) :
    List (K × (Fin n → K) × (Fin n → K)) → Path K n × K → Path K n × K
  | [], r => r
  | (J, S, E) :: l, r =>
    let q := energyIntegral ddot S E r.1
    energyRun ddot l (q, q.up * J)

/-- The path integral of the external energy in `ElasticityNormUL::evalBou`
(FiniteDeformation/NonlinearElasticityUL.C:440-471) at one boundary point, along a history of
tractions and displacements: `Ux`, `tp`, `up`. Returns the last contribution before weighting. -/
def ulExt {n : Nat} : List ((Fin n → K) × (Fin n → K)) → Path K n → Path K n
  | [], q => q
  | (t, u) :: l, q =>
    ulExt l ⟨q.up + 1 / 2 * ∑ i, (t i + q.sp i) * (u i - q.ep i), t, u⟩

end energy

end Verif.Plastic
