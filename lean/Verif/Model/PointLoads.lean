/-
Model of the point loads of the shell and plate simulator (Shell/SIMKLShell.C), of the C1-continuous beam simulator
(Linear/SIMLinElBeamC1.C) and of the bar and beam simulator (Beam/SIMElasticBar.C, Beam/SIMElastic1D.C).

Scalars are elements of a field. The library calls `evalPoint` (the node at a point: positive, zero if there is none, negative if the point can not be
evaluated), `findClosestNode` and `findElementContaining` are given by their results. `diracPoint` calls the integrand's `evalPoint` for the basis functions
at the point with unit weight (`detJxW` = 1) and assembles the element vector. `mySam->assembleSystem(b,P,(node,dof))` adds P to the given degree of freedom.
The load vector is a function of node and local degree of freedom (both one-based), the load sums are a function of the (zero-based) direction.
-/
import Mathlib.Algebra.Field.Basic
import Mathlib.Algebra.BigOperators.Group.Finset.Basic
import Verif.Basic

namespace Verif.PointLoads

variable {K : Type}

/-- `SIMKLShell::PointLoad` (Shell/SIMKLShell.h:38-46): patch, `ldof.first`, `ldof.second`, parameters and the load as function of time with its
derivative. -/
structure Load (K : Type) where
  patch : Nat
  node : Int
  dof : Int
  xi : K × K
  p : K → K
  dp : K → K

/-- Results of the library calls for a point. -/
structure Point where
  imatch : Int
  closest : Int
  element : Int

/-- The choice of node or element in `SIMKLShell::preprocessB` (Shell/SIMKLShell.C:440-447). -/
def locate (pt : Point) (dof : Int) : Int :=
  if pt.imatch ≥ 0 ∧ dof < 0 then pt.element
  else if pt.imatch = 0 ∧ pt.closest > 0 then pt.closest
  else pt.imatch

/-- `SIMKLShell::preprocessB` (Shell/SIMKLShell.C:428-476): the loads with their nodes or elements, and the status. -/
def preprocess (at_ : Load K → Point) (loads : List (Load K)) : List (Load K) × Bool :=
  loads.foldl (fun s l =>
    let n := locate (at_ l) l.dof
    (s.1 ++ [{ l with node := n }], s.2 && decide (n > 0))) ([], true)

/-- Load vector and load sums. -/
structure Acc (K : Type) where
  b : Nat → Nat → K
  sum : Nat → K

section
variable [Field K]

/-- `KirchhoffLove::evalPoint` (Elasticity/KirchhoffLove.C:420-446) and, for `npv` ≤ 3, `ElasticBase::evalPoint` (Elasticity/ElasticBase.C:242-265):
`N` are the basis function values by node, `F` the one-based components of the load; `first` tells that the load vector is the first right-hand side. -/
def evalPoint (npv : Nat) (N : Nat → K) (F : Nat → K) (first : Bool) (s : Acc K) : Acc K where
  b := fun a i => s.b a i + (if 1 ≤ i ∧ i ≤ npv ∧ i ≤ 3 then F i * N a else 0)
  sum := fun i => s.sum i + (if first = true ∧ i < npv ∧ i < 3 then F (i + 1) else 0)

/-- `SIMKLShell::assemblePoint` (Shell/SIMKLShell.C:556-563) and `SIMElastic1D::assemblePoint` (Beam/SIMElastic1D.C:66-72) on an existing patch. The
vector `Fvec` has three components. -/
def assemblePoint (npv : Nat) (N : Nat → K) (f : K) (ldof : Int) (first : Bool) (s : Acc K) : Res (Acc K) :=
  if 1 ≤ ldof ∧ ldof ≤ 3 then .ok (evalPoint npv N (fun i => if (i : Int) = ldof then f else 0) first s) else .ub

/-- `assembleSystem(b,P,(node,dof))` of the library. -/
def addNode (node dof : Nat) (P : K) (b : Nat → Nat → K) : Nat → Nat → K :=
  fun a i => b a i + (if a = node ∧ i = dof then P else 0)

/-- One load in `SIMKLShell::assembleDiscreteTerms` (Shell/SIMKLShell.C:491-502): `N` gives the basis functions at a point of a patch. -/
def shellTerm (npv : Nat) (N : Nat → K × K → Nat → K) (t : K) (s : Acc K) (l : Load K) : Res (Acc K) :=
  if l.dof > 0 then
    .ok ⟨addNode l.node.toNat l.dof.toNat (l.p t) s.b, fun i => s.sum i + (if i = l.dof.toNat - 1 then l.p t else 0)⟩
  else assemblePoint npv (N l.patch l.xi) (l.p t) (-l.dof) true s

/-- The first loop of `SIMKLShell::assembleDiscreteTerms` (Shell/SIMKLShell.C:490-502). -/
def shellTerms (npv : Nat) (N : Nat → K × K → Nat → K) (t : K) (loads : List (Load K)) (s : Acc K) : Res (Acc K) :=
  loads.foldl (fun r l => r.bind fun s => shellTerm npv N t s l) (.ok s)

/-- One load in the second loop (Shell/SIMKLShell.C:511-519). -/
def shellGradTerm (npv : Nat) (N : Nat → K × K → Nat → K) (t : K) (s : Acc K) (l : Load K) : Res (Acc K) :=
  if l.dof > 0 then .ok ⟨addNode l.node.toNat l.dof.toNat (l.dp t) s.b, s.sum⟩
  else assemblePoint npv (N l.patch l.xi) (l.dp t) (-l.dof) false s

/-- The load gradient for the arc-length driver (Shell/SIMKLShell.C:504-519). -/
def shellGrad (npv : Nat) (N : Nat → K × K → Nat → K) (t : K) (loads : List (Load K)) (s : Acc K) : Res (Acc K) :=
  loads.foldl (fun r l => r.bind fun s => shellGradTerm npv N t s l) (.ok s)

/-- The point loads in `SIMKLShell::externalEnergy` (Shell/SIMKLShell.C:529-545): `u` by node and degree of freedom, `S` the nodes of the model; `getSolution`
interpolates the displacement, with `npv` components. -/
def shellEnergy (npv : Nat) (N : Nat → K × K → Nat → K) (S : Finset Nat) (t : K) (u : Nat → Nat → K) (loads : List (Load K)) : K :=
  loads.foldl (fun e l =>
    if l.dof > 0 then e + l.p t * u l.node.toNat l.dof.toNat
    else if l.dof < 0 then
      let ldof := (-l.dof).toNat - 1
      if ldof < npv then e + l.p t * (∑ a ∈ S, N l.patch l.xi a * u a (ldof + 1)) else e
    else e) 0

end

/-- `SIMKLShell::shiftGlobalNums` (Shell/SIMKLShell.C:548-553). -/
def shellShift (nshift : Int) (loads : List (Load K)) : List (Load K) :=
  loads.map fun l => if l.dof > 0 then { l with node := l.node + nshift } else l

/-! ### One-dimensional models -/

/-- `SIMElastic1D::findLoadPoint` (Beam/SIMElastic1D.C:29-63). -/
def findLoadPoint (pt : Point) (onElement : Bool) : Int :=
  let ipt := if pt.imatch ≥ 0 ∧ onElement = true then -pt.element
    else if pt.imatch = 0 ∧ pt.closest > 0 then pt.closest
    else pt.imatch
  let iclose := if pt.imatch ≥ 0 ∧ onElement = true then 0 else if pt.imatch = 0 then pt.closest else 0
  if ipt < 0 ∧ onElement = true then ipt
  else if iclose > 0 then ipt
  else if pt.imatch > 0 then ipt
  else 0

/-- `SIMLinElBeamC1::PointLoad` (Linear/SIMLinElBeamC1.h:83-91). -/
structure BLoad (K : Type) where
  patch : Nat
  inod : Int
  xi : K
  pload : K

section
variable [Field K]

/-- `SIMLinElBeamC1::assembleDiscreteTerms` (Linear/SIMLinElBeamC1.C:342-358) with one degree of freedom per node. -/
def beamTerms (N : Nat → K → Nat → K) (loads : List (BLoad K)) (b : Nat → K) : Nat → K :=
  loads.foldl (fun b l =>
    if l.inod > 0 then fun a => b a + (if a = l.inod.toNat then l.pload else 0)
    else if l.inod < 0 then fun a => b a + l.pload * N l.patch l.xi a
    else b) b

/-- The point loads in `SIMLinElBeamC1::externalEnergy` (Linear/SIMLinElBeamC1.C:361-374). -/
def beamEnergy (N : Nat → K → Nat → K) (S : Finset Nat) (u : Nat → K) (loads : List (BLoad K)) : K :=
  loads.foldl (fun e l =>
    if l.inod > 0 then e + l.pload * u l.inod.toNat
    else if l.inod < 0 then e + l.pload * (∑ a ∈ S, N l.patch l.xi a * u a)
    else e) 0

end

/-- `SIMElasticBar::PointLoad` (Beam/SIMElasticBar.h:96-104), without the function. -/
structure BarLoad (K : Type) where
  inod : Int
  ldof : Int
  xi : K

/-- A `<pointload>` element in `SIMElasticBar::parse` (Beam/SIMElasticBar.C:238-268); `none` when it is not stored. Absent attributes leave the default values. -/
def barParse [Field K] [LinearOrder K] (nf : Nat) (dof : Option Int) (u : Option K) (onElement : Option Bool) (patch : Option Int) :
    Option (BarLoad K) :=
  let ldof := dof.getD 0
  let xi := u.getD (-1)
  if ldof > 0 ∧ ldof ≤ nf ∧ xi ≥ 0 ∧ xi ≤ 1 then
    some ⟨patch.getD 1, if onElement.getD false then -ldof else ldof, xi⟩
  else none

/-- One load in `SIMElasticBar::preprocessB` (Beam/SIMElasticBar.C:392-400): the load and the status; `at_` gives the point for a patch index and a parameter. -/
def barLocate [Field K] [LinearOrder K] (at_ : Int → K → Point) (l : BarLoad K) : BarLoad K × Bool :=
  if l.xi ≥ 0 ∧ l.inod > 0 then
    let f := findLoadPoint (at_ l.inod l.xi) (decide (l.ldof < 0))
    if f > 0 then ({ l with inod := f }, true)
    else if f = 0 then (l, false)
    else (l, true)
  else (l, true)

/-- One load in `SIMElasticBar::assembleDiscreteTerms` (Beam/SIMElasticBar.C:446-459) with value `P` and scaling factor `scl`. -/
def barTerm [Field K] (nf : Nat) (N : Int → K → Nat → K) (P scl : K) (s : Acc K) (l : BarLoad K) : Res (Acc K) :=
  if l.ldof > 0 then
    .ok ⟨addNode l.inod.toNat l.ldof.toNat (P * scl) s.b, fun i => s.sum i + (if i = l.ldof.toNat - 1 then P else 0)⟩
  else assemblePoint nf (N l.inod l.xi) P (-l.ldof) true s

end Verif.PointLoads
