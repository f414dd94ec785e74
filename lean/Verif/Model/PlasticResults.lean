/-
Model of the containers of integration and result points of the plastic material, and of the
quantities reported for them (FiniteDeformation/PlasticMaterial.C).

IFEM assumptions: `TimeDomain(n,f)` has the iteration counter `n` and the first-step flag `f`;
`SymmTensor::vonMises` and `SymmTensor::principal` are parameters; `std::vector::resize` keeps the
leading entries.
-/
import Verif.Model.NeoHooke
import Verif.Model.Plastic

namespace Verif.Plastic

/-- The stress measures of a point (FiniteDeformation/PlasticMaterial.h:131-134): mean stress, von
Mises stress and principal stresses. -/
structure Meas where
  sh : ℝ
  se : ℝ
  prin : Fin 3 → ℝ

/-- `ResultPoint::principalStress` (FiniteDeformation/PlasticMaterial.C:917-923). -/
noncomputable def measures (vm : NeoHooke.Sym ℝ → ℝ) (prn : NeoHooke.Sym ℝ → Fin 3 → ℝ)
    (S : NeoHooke.Sym ℝ) : Meas :=
  ⟨S.trace / (if S.size > 3 then 3 else (S.dim : ℝ)), vm S, prn S⟩

/-- `ResultPoint::getTriax` (FiniteDeformation/PlasticMaterial.C:926-929). -/
noncomputable def triax (m : Meas) : ℝ := if m.se > 0 then m.sh / m.se else 0

/-- `ResultPoint::getLode` (FiniteDeformation/PlasticMaterial.C:932-936). -/
noncomputable def lode (m : Meas) : ℝ :=
  let denom := m.prin 0 - m.prin 2
  if denom > 0 then (2 * m.prin 1 - m.prin 0 - m.prin 2) / denom else 0

/-- The result of the evaluation of a point: history, return value and stress. -/
structure Resp (H : Type*) where
  hc : H
  code : Int
  sig : NeoHooke.Sym ℝ

/-- `PlasticPoint::evaluate` (FiniteDeformation/PlasticMaterial.C:304-729) as a function of the
previous history, the previous and the current deformation gradient, the iteration counter and the
first-step flag. Negative codes are error returns. -/
abbrev SLaw (H T : Type*) := H → T → T → Nat → Bool → Resp H

/-- A point with its stress measures (FiniteDeformation/PlasticMaterial.h:109-134). -/
structure RPoint (H T : Type*) extends Point H T where
  ms : Meas

/-- `PlasticMaterial` (FiniteDeformation/PlasticMaterial.h:201-211): mode, first-step flag, counter of
result points, integration points and result points. -/
structure Mat (H T : Type*) where
  integrating : Bool
  firstStep : Bool
  iP2 : Nat
  itg : List (Option (RPoint H T))
  res : List (RPoint H T)

/-- What the material is made of: the law, the initial and the zero history variables, the unit
gradient, the plastic strain among the history variables, and the library functions for stresses. -/
structure Env (H T : Type*) where
  law : SLaw H T
  h0 : H
  hz : H
  one : T
  epp : H → ℝ
  vm : NeoHooke.Sym ℝ → ℝ
  prn : NeoHooke.Sym ℝ → Fin 3 → ℝ

variable {H T : Type*}

/-- The constructor of `ResultPoint` (FiniteDeformation/PlasticMaterial.C:909-914). -/
def Env.fresh (e : Env H T) : RPoint H T := { newPoint e.h0 e.hz e.one with ms := ⟨0, 0, fun _ => 0⟩ }

/-- Evaluation of a point and its stress measures (FiniteDeformation/PlasticMaterial.C:168-172 and
184-188): the return value and the point afterwards. The flag is set unless there is an error
return. -/
noncomputable def Env.point (e : Env H T) (F : T) (it : Nat) (first : Bool) (p : RPoint H T) :
    Int × RPoint H T :=
  let r := e.law p.hp p.fp F it first
  (r.code, { p with
    hc := r.hc
    upd := if r.code < 0 then p.upd else if r.code > 0 then .d else .c
    ms := measures e.vm e.prn r.sig })

/-- `updateState` of a point with stress measures. -/
def updatePoint (updateVars : Bool) (p : RPoint H T) : RPoint H T :=
  { p with toPoint := updateState updateVars p.toPoint }

/-- `PlasticMaterial::initIntegration(size_t)` (FiniteDeformation/PlasticMaterial.C:73-76). -/
def Mat.resize (n : Nat) (m : Mat H T) : Mat H T :=
  { m with itg := (m.itg ++ List.replicate (n - m.itg.length) none).take n }

/-- `PlasticMaterial::initIntegration(prm)` (FiniteDeformation/PlasticMaterial.C:79-100). -/
def Mat.initIntegration (it : Nat) (first : Bool) (m : Mat H T) : Mat H T :=
  { m with
    integrating := true
    firstStep := first
    itg := m.itg.map (Option.map (updatePoint (!first && it == 0))) }

/-- `PlasticMaterial::initResultPoints` (FiniteDeformation/PlasticMaterial.C:103-123). -/
def Mat.initResultPoints (m : Mat H T) : Mat H T :=
  { m with integrating := false, iP2 := 0, res := m.res.map (updatePoint true) }

/-- `PlasticMaterial::evaluate` (FiniteDeformation/PlasticMaterial.C:126-219) for `iop` 0 and 1: `iGP` is
the index of the integration point, `prm` the iteration counter and first-step flag if given. The
return value and the material afterwards. -/
noncomputable def Mat.evaluate (e : Env H T) (iGP : Nat) (F : T) (prm : Option (Nat × Bool))
    (m : Mat H T) : Bool × Mat H T :=
  if m.integrating then
    let prm := prm.getD (1, m.firstStep)
    match m.itg[iGP]? with
    | none => (false, m)
    | some q =>
      match (match q with
        | some p => some p
        | none => if prm.1 = 0 ∧ prm.2 = true then some e.fresh else none) with
      | none => (false, m)
      | some p =>
        let p := if prm.1 = 0 ∧ prm.2 = false then { p with fp := F } else p
        let r := e.point F prm.1 prm.2 p
        (r.1 == 0, { m with itg := m.itg.set iGP (some r.2) })
  else
    let res := m.res ++ List.replicate (m.iP2 + 1 - m.res.length) e.fresh
    let r := e.point F 1 false (res.getD m.iP2 e.fresh)
    (decide (0 ≤ r.1), { m with iP2 := m.iP2 + 1, res := res.set m.iP2 { r.2 with fp := F } })

/-- `PlasticMaterial::diverged` (FiniteDeformation/PlasticMaterial.C:222-231). -/
def Mat.diverged (iP1 : Nat) (m : Mat H T) : Bool :=
  let dv : Option (RPoint H T) → Bool := fun q =>
    match q with
    | some p => p.upd == .d
    | none => false
  if iP1 > 0 ∧ iP1 - 1 < m.itg.length then dv (m.itg.getD (iP1 - 1) none)
  else m.itg.any dv

/-- The point whose variables are reported (FiniteDeformation/PlasticMaterial.C:236-244). -/
def Mat.current (iP1 : Nat) (m : Mat H T) : Option (RPoint H T) :=
  if m.integrating then (m.itg[iP1]?).join
  else if m.iP2 > 0 then m.res[m.iP2 - 1]? else none

/-- `PlasticMaterial::getInternalVar` (FiniteDeformation/PlasticMaterial.C:234-268). -/
noncomputable def Mat.internalVar (e : Env H T) (idx iP1 : Nat) (m : Mat H T) : ℝ :=
  match m.current iP1 with
  | none => 0
  | some p =>
    match idx with
    | 1 => if p.upd = .d then 0 else e.epp p.hc
    | 2 => p.ms.sh
    | 3 => p.ms.prin 0
    | 4 => p.ms.prin 1
    | 5 => p.ms.prin 2
    | 6 => triax p.ms
    | 7 => lode p.ms
    | _ => 0

/-- The evaluation of one result point and its internal variables, as in `Elasticity::evalSol2`
(Elasticity/Elasticity.C:724-751): the values are pushed only if the evaluation succeeds. -/
noncomputable def Mat.resultPoint (e : Env H T) (iGP : Nat) (F : T) (m : Mat H T) :
    Option (List ℝ) × Mat H T :=
  let r := m.evaluate e iGP F none
  (if r.1 then some ((List.range 7).map fun i => r.2.internalVar e (i + 1) iGP) else none, r.2)

/-- A loop over result points with the given gradients. -/
noncomputable def Mat.resultLoop (e : Env H T) : List (Nat × T) → Mat H T →
    List (Option (List ℝ)) × Mat H T
  | [], m => ([], m)
  | (i, F) :: l, m =>
    let r := m.resultPoint e i F
    let s := Mat.resultLoop e l r.2
    (r.1 :: s.1, s.2)

/-- A result evaluation: `initResultPoints` and the loop (FiniteDeformation/NonlinearElasticityUL.C:83-89). -/
noncomputable def Mat.results (e : Env H T) (l : List (Nat × T)) (m : Mat H T) :
    List (Option (List ℝ)) × Mat H T :=
  m.initResultPoints.resultLoop e l

/-- An integration loop: `initIntegration` and the evaluations of the listed integration points; the
return values. -/
noncomputable def Mat.integrate (e : Env H T) (it : Nat) (first : Bool) (l : List (Nat × T))
    (m : Mat H T) : List Bool × Mat H T :=
  l.foldl (fun s x =>
    let r := s.2.evaluate e x.1 x.2 (some (it, first))
    (s.1 ++ [r.1], r.2)) ([], m.initIntegration it first)

end Verif.Plastic
