/-
Solution modes, and the element matrix and vector slots used in each of them.

Models Elasticity/ElasticBase.C (setMode, getMode, setIntegrationPrm),
Elasticity/Elasticity.C (getLocalIntegral, evalBou), Elasticity/LinearElasticity.C
(setMode, initLHSbuffers, initElement, evalInt, finalizeElement),
Elasticity/KirchhoffLove.C (setMode, getMode, getLocalIntegral),
FiniteDeformation/NonlinearElasticity{TL,UL,Fbar,ULMixed,ULMX}.C and
NonlinearElasticity.C (setMode, getLocalIntegral, the slots used by evalInt),
Beam/Elastic{Beam,Bar,Cable}.C and Shell/*.C (same functions).

What is modelled is which element matrix `A[i]` and vector `b[i]` is accessed and
how many of them `resize(nA,nB)` has allocated, not the numbers stored in them.
Names given to matrices and vectors for printing are not modelled.
-/
import Verif.Basic

namespace Verif.Modes

/-- `SIM::SolutionMode` of the IFEM library, in the order of the enumeration there.
The order matters where the code compares modes (`mode >= SIM::RHS_ONLY`) and where it
uses the value of STATIC (1) and ARCLEN (2) as a vector count. -/
inductive Mode
  | init | static | arclen | dynamic | vibration | buckling | stiffOnly | massOnly
  | rhsOnly | intForces | recovery | norms
  deriving DecidableEq, Repr

/-- Integer value of a solution mode. -/
def Mode.val : Mode → Nat
  | .init => 0 | .static => 1 | .arclen => 2 | .dynamic => 3 | .vibration => 4
  | .buckling => 5 | .stiffOnly => 6 | .massOnly => 7 | .rhsOnly => 8
  | .intForces => 9 | .recovery => 10 | .norms => 11

/-- Configuration of an integrand: the time integration parameters that influence the
slot tables (`intPrm[2..4]`), the number of consecutive states `nCS`, the number of
solution vectors `nSV`, whether a BDF scheme is active, and the modal-analysis flag. -/
structure Prm (K : Type*) where
  p2 : K
  p3 : K
  p4 : K
  nCS : Nat
  nSV : Nat
  bdf : Bool
  isModal : Bool

/-- Mutable state of an integrand that is governed by the solution mode. Slot indices are
one-based, 0 means unused. `eKm` also stands for `eK` of the plate and shell classes. -/
structure St where
  mode : Mode
  eM : Int
  eKm : Int
  eKg : Int
  eS : Int
  gS : Int
  iS : Int
  dS : Int
  prim : Nat
  formB : Bool
  deriving DecidableEq, Repr

section
variable {K : Type*} [Zero K] [One K] [LinearOrder K]

/-- ElasticBase::setIntegrationPrm (Elasticity/ElasticBase.C:191-209), for indices 2, 3, 4
and 5 (the only ones that influence this model; 0 and 1 are plain parameter values). -/
def setIntegrationPrm [OfNat K 2] (q : Prm K) (i : Nat) (v : K) : Prm K :=
  -- store the value, or create the BDF scheme
  let q1 : Prm K :=
    if i < 5 then
      { q with p2 := if i = 2 then v else q.p2
               p3 := if i = 3 then v else q.p3
               p4 := if i = 4 then v else q.p4 }
    else if q.bdf = false then
      if q.nSV < 4 then { q with bdf := true, nSV := 4, nCS := 4 }
      else { q with bdf := true }
    else q
  if i = 4 ∧ q1.p4 = 1 then { q1 with nSV := q1.nCS * 3 + 2 }
  else if i = 2 ∧ q1.nSV < q1.nCS * 3 ∧ v ≠ 0 then { q1 with nSV := q1.nCS * 3 }
  else if i = 2 ∧ v = 0 then { q1 with nSV := q1.nCS }
  else q1

/-- First half of ElasticBase::setMode (Elasticity/ElasticBase.C:40-128): all slots are
reset to 0, and then the ones belonging to the mode are set. -/
def baseSlots (q : Prm K) (m : Mode) (s : St) : St :=
  let s0 : St := { s with mode := m, eM := 0, eKm := 0, eKg := 0, eS := 0, gS := 0, iS := 0 }
  match m with
  | .arclen =>
    { s0 with gS := 2, eKm := 1, eKg := if 0 < q.p3 then 0 else 1, eS := 1, iS := 1 }
  | .static =>
    { s0 with eKm := 1, eKg := if 0 < q.p3 then 0 else 1, eS := 1, iS := 1 }
  | .dynamic =>
    { s0 with eKm := 3, eKg := if 0 < q.p3 then 0 else if q.p3 < 0 then 4 else 3
              eM := 2, iS := 1, eS := if q.p4 = 1 then 3 else 1 }
  | .buckling => { s0 with eKm := 1, eKg := 2 }
  | .vibration => { s0 with eM := 2, eKm := 1 }
  | .stiffOnly => { s0 with eKm := 1 }
  | .massOnly => { s0 with eM := 1, eS := 1 }
  | .rhsOnly =>
    { s0 with iS := 1
              eM := if q.nCS < q.nSV then 2 else 0
              eKm := if q.nCS < q.nSV then 3 else 0
              eKg := if q.nCS < q.nSV ∧ q.p3 = 0 then 3 else 0
              eS := if q.nCS < q.nSV ∧ q.p4 = 1 then 3 else 1 }
  | .intForces => { s0 with iS := 1 }
  | _ => s0

/-- Second half of ElasticBase::setMode (Elasticity/ElasticBase.C:130-159): the number of
primary solution vectors. -/
def basePrim (q : Prm K) : Mode → Nat
  | .static => q.nSV
  | .arclen => q.nSV
  | .dynamic => q.nSV
  | .norms => if 0 < q.nCS then q.nCS else 1
  | .buckling => 1
  | .intForces => 1
  | .recovery => 1
  | .rhsOnly => if q.nCS < q.nSV then q.nSV else 1
  | _ => 0

/-- ElasticBase::setMode (Elasticity/ElasticBase.C:40-160). -/
def baseSetMode (q : Prm K) (m : Mode) (s : St) : St :=
  { baseSlots q m s with prim := basePrim q m }

/-- The mode actually used in a modal analysis (Elasticity/LinearElasticity.C:75-76):
dynamics needs the right-hand side only. -/
def linEff (q : Prm K) (m : Mode) : Mode :=
  if q.isModal = true ∧ m = .dynamic then .rhsOnly else m

/-- LinearElasticity::setMode (Elasticity/LinearElasticity.C:73-94). The call to
initMaxVals (line 78) is not part of this model. -/
def linSetMode (q : Prm K) (m0 : Mode) (s : St) : St :=
  let m := linEff q m0
  let s1 := baseSetMode q m s
  { s1 with
    dS := if 0 < s1.dS then (if m = .static ∨ m = .norms then 2 else 1) else s1.dS
    eKg := if m = .buckling then s1.eKg else 0
    iS := if m = .static ∨ (q.isModal = true ∧ m = .rhsOnly) then 0 else s1.iS }

/-- NonlinearElasticityUL::setMode (FiniteDeformation/NonlinearElasticityUL.C:50-63) and
NonlinearElasticity::setMode (FiniteDeformation/NonlinearElasticity.C:73-83). -/
def ulSetMode (q : Prm K) (m : Mode) (s : St) : St :=
  let s1 := baseSetMode q (if m = .rhsOnly then .static else m) s
  { s1 with mode := m, prim := if m = .rhsOnly then 1 else s1.prim }

/-- NonlinearElasticityTL::setMode (FiniteDeformation/NonlinearElasticityTL.C:48-72). -/
def tlSetMode (q : Prm K) (m : Mode) (s : St) : St :=
  { ulSetMode q m s with
    formB := m = .arclen ∨ m = .static ∨ m = .dynamic ∨ m = .buckling ∨ m = .rhsOnly }

/-- The mode used to select the slots in KirchhoffLove::setMode
(Elasticity/KirchhoffLove.C:74-78): modal dynamics needs the right-hand side only, and a
right-hand side with Newmark integration needs the dynamic tables. -/
def klEff (q : Prm K) (m : Mode) : Mode :=
  if m = .dynamic ∧ q.isModal = true then .rhsOnly
  else if m = .rhsOnly ∧ q.isModal = false ∧ q.p2 ≠ 0 then .dynamic
  else m

/-- The slot table of KirchhoffLove::setMode (Elasticity/KirchhoffLove.C:80-124), for the
stored mode `stored` and the effective mode `m`. -/
def klTable (stored m : Mode) (s : St) : St :=
  let prim : Nat :=
    if m = .dynamic then 3 else if Mode.val .rhsOnly ≤ m.val then 1 else 0
  let s0 : St := { s with mode := stored, eM := 0, eKm := 0, eKg := 0, eS := 0, gS := 0
                          iS := 0, prim := prim }
  match m with
  | .arclen => { s0 with gS := 2, eKm := 1, eS := 1 }
  | .static => { s0 with eKm := 1, eS := 1 }
  | .dynamic => { s0 with eKm := 3, eM := 2, eS := 1, iS := 1 }
  | .vibration => { s0 with eM := 2, eKm := 1 }
  | .stiffOnly => { s0 with eKm := 1 }
  | .massOnly => { s0 with eM := 1, eS := 1 }
  | .rhsOnly => { s0 with eS := 1, iS := 1 }
  | .intForces => { s0 with iS := 1 }
  | _ => s0

/-- KirchhoffLove::setMode (Elasticity/KirchhoffLove.C:72-125). -/
def klSetMode (q : Prm K) (m : Mode) (s : St) : St :=
  klTable (if m = .dynamic ∧ q.isModal = true then .rhsOnly else m) (klEff q m) s

/-- NLKirchhoffLoveShell::setMode (Shell/NLKirchhoffLoveShell.C:22-30). -/
def nlShellSetMode (q : Prm K) (m : Mode) (s : St) : St :=
  let s1 := klSetMode q m s
  { s1 with
    iS := if m = .static ∨ m = .arclen ∨ m = .rhsOnly then 1 else s1.iS
    prim := if m = .static ∨ m = .arclen ∨ m = .rhsOnly then 1 else s1.prim }

/-- `setLoadGradientMode` (Elasticity/ElasticBase.h): loads are collected in the second
vector. -/
def setLoadGradientMode (s : St) : St := { s with eS := 2 }

/-- LinearElasticity::initLHSbuffers (Elasticity/LinearElasticity.C:97-110). The first
component of the state is the number of buffered element matrices (`myKmats.size()`,
which equals `myMmats.size()`). -/
def initLHSbuffers (nEl : Nat) (x : Nat × St) : Nat × St :=
  if 1 < nEl then (nEl, x.2)
  else if nEl = 0 ∧ 0 < x.1 then
    (x.1, { x.2 with eKm := if 0 < x.2.eKm then -x.2.eKm else x.2.eKm
                     eKg := if 0 < x.2.eKg then -x.2.eKg else x.2.eKg
                     eM := if 0 < x.2.eM then -x.2.eM else x.2.eM })
  else x

/-- ElasticBase::getMode(true) (Elasticity/ElasticBase.C:168-174). -/
def baseSimMode (q : Prm K) (m : Mode) : Mode :=
  if m = .rhsOnly then (if q.nCS < q.nSV then .dynamic else .static) else m

end

/-- Number of element matrices and vectors held by an element container. -/
structure Alloc where
  nA : Nat
  nB : Nat
  deriving DecidableEq, Repr

/-- An access to `A[i]` or `b[i]` (zero-based, as in the code; computed from a one-based
slot index, so it may come out as -1). -/
inductive Slot
  | A (i : Int)
  | b (i : Int)
  deriving DecidableEq, Repr

/-- Access an element of the container; outside the allocated range the behaviour is
undefined (`std::vector::operator[]`). -/
def touch (al : Alloc) : Slot → Res Unit
  | .A i => if 0 ≤ i ∧ i < al.nA then .ok () else .ub
  | .b i => if 0 ≤ i ∧ i < al.nB then .ok () else .ub

/-- Perform a sequence of accesses. -/
def touchAll (al : Alloc) : List Slot → Res Unit
  | [] => .ok ()
  | x :: xs => Res.bind (touch al x) fun _ => touchAll al xs

/-- A conditional piece of an access sequence: `if (c) ...`. -/
def sl (c : Bool) (l : List Slot) : List Slot := if c then l else []

/-- Data-dependent conditions of the element routines: non-zero strains at the point,
temperature field present, dual solution vector gathered, non-zero gravity, positive mass
density, non-zero displacements, eccentric beam ends, non-zero axial force, end moment and
load-correction stiffness of a cable end, pressure field present. -/
structure Dat where
  strains : Bool
  temp : Bool
  dual : Bool
  grav : Bool
  mass : Bool
  dis : Bool
  ecc : Bool
  axial : Bool
  moment : Bool
  lcStif : Bool
  pres : Bool
  deriving DecidableEq, Repr

section
variable {K : Type*} [Zero K] [One K] [LinearOrder K]

/-- Sizes allocated by Elasticity::getLocalIntegral (Elasticity/Elasticity.C:165-242).
`neumann` tells that boundary terms are being assembled. -/
def contAlloc (q : Prm K) (s : St) (neumann : Bool) : Alloc :=
  let dyn : Alloc :=
    ⟨if neumann then 0 else if q.p3 < 0 then 4 else 3,
     if q.p4 = 1 then 3 else if neumann = true ∨ 0 < q.p3 then 1 else 2⟩
  match (if q.bdf = true ∧ s.mode = .static then Mode.dynamic else s.mode) with
  | .static => ⟨if neumann then 0 else 1, if neumann = true ∨ s.dS = 0 then 1 else s.dS.toNat⟩
  | .massOnly => ⟨if neumann then 0 else 1, if neumann = true ∨ s.dS = 0 then 1 else s.dS.toNat⟩
  | .arclen => ⟨if neumann then 0 else 1, 2⟩
  | .dynamic => dyn
  | .vibration => ⟨2, 0⟩
  | .buckling => ⟨2, 0⟩
  | .stiffOnly => ⟨1, 0⟩
  | .rhsOnly => ⟨if q.nCS < q.nSV then dyn.nA else if neumann then 0 else 1,
                 if q.nCS < q.nSV then dyn.nB else 1⟩
  | .intForces => ⟨if neumann then 0 else 1, 1⟩
  | _ => ⟨0, 0⟩

/-- Slots used by LinearElasticity::evalInt (Elasticity/LinearElasticity.C:185-278) and
formInitStrainForces (373-392), and stored by finalizeElement (395-409). -/
def linDomain (s : St) (d : Dat) : List Slot :=
  sl (decide (0 < s.eKm)) [.A (s.eKm - 1)] ++
  sl (decide (0 < s.eKg) && d.strains) [.A (s.eKg - 1)] ++
  sl (decide (0 < s.eM)) [.A (s.eM - 1)] ++
  sl (decide (0 < s.iS) && d.strains) [.b (s.iS - 1)] ++
  sl (decide (0 < s.eS)) ([.b (s.eS - 1)] ++ sl d.temp [.b (s.eS - 1)]) ++
  sl (decide (1 < s.dS) && d.dual) [.b (s.dS - 1)]

/-- Slots written by LinearElasticity::finalizeElement and read back by initElement
(Elasticity/LinearElasticity.C:120-130, 395-409) when the element number is within the
buffers. The mass matrix is restored under the condition `eKm < 0`. -/
def linInitElement (buffered : Bool) (s : St) : List Slot :=
  sl (buffered && decide (s.eKm < 0)) [.A (-s.eKm - 1)] ++
  sl (buffered && decide (s.eKm < 0)) [.A (-s.eM - 1)]

/-- Slots used by the interface term of LinearElasticity::evalInt
(Elasticity/LinearElasticity.C:286-350). For `eKm < 0` there is nothing to do, for
`eKm == 0` an error is returned before any access. -/
def linInterface (s : St) : List Slot := sl (decide (0 < s.eKm)) [.A (s.eKm - 1)]

/-- Slots used by Elasticity::evalBou (Elasticity/Elasticity.C:637-699),
NonlinearElasticityTL::evalBou, NonlinearElasticityUL::evalBou and
KirchhoffLoveShell::evalBou: an error is returned when there is no load vector. -/
def contBou (s : St) : List Slot :=
  sl (decide (s.eS ≠ 0)) ([.b (s.eS - 1)] ++ sl (decide (s.gS ≠ 0)) [.b (s.gS - 1)])

/-- Slots used by NonlinearElasticityTL::evalInt
(FiniteDeformation/NonlinearElasticityTL.C:75-150). -/
def tlDomain (s : St) (d : Dat) : List Slot :=
  sl (decide (s.eKm ≠ 0)) [.A (s.eKm - 1)] ++
  sl (decide (s.eKg ≠ 0) && d.strains) [.A (s.eKg - 1)] ++
  sl (decide (s.eM ≠ 0)) [.A (s.eM - 1)] ++
  sl (decide (s.iS ≠ 0) && d.strains) [.b (s.iS - 1)] ++
  sl (decide (s.eS ≠ 0)) [.b (s.eS - 1)] ++
  sl (decide (s.gS ≠ 0)) [.b (s.gS - 1)]

/-- Slots used by NonlinearElasticityUL::evalInt
(FiniteDeformation/NonlinearElasticityUL.C:92-200). Line 197 adds the load gradient to the
load vector slot `eS`, not to `gS`. -/
def ulDomain (s : St) (d : Dat) : List Slot :=
  sl (decide (s.eKm ≠ 0)) [.A (s.eKm - 1)] ++
  sl (decide (s.eKg ≠ 0) && d.strains) [.A (s.eKg - 1)] ++
  sl (decide (s.eM ≠ 0)) [.A (s.eM - 1)] ++
  sl (decide (s.iS ≠ 0) && d.strains) [.b (s.iS - 1)] ++
  sl (decide (s.eS ≠ 0)) [.b (s.eS - 1)] ++
  sl (decide (s.gS ≠ 0)) [.b (s.eS - 1)]

/-- Slots used by NonlinearElasticity::evalInt
(FiniteDeformation/NonlinearElasticity.C:88-188). -/
def tensorDomain (s : St) (d : Dat) : List Slot :=
  sl (decide (s.eKm ≠ 0)) [.A (s.eKm - 1)] ++
  sl (decide (s.eKg ≠ 0) && d.strains) [.A (s.eKg - 1)] ++
  sl (decide (s.eM ≠ 0)) [.A (s.eM - 1)] ++
  sl (decide (s.iS ≠ 0) && d.strains) [.b (s.iS - 1)] ++
  sl (decide (s.eS ≠ 0)) [.b (s.eS - 1)]

/-- Sizes allocated by NonlinearElasticityFbar::getLocalIntegral
(FiniteDeformation/NonlinearElasticityFbar.C:123-168). -/
def fbarAlloc (s : St) (neumann : Bool) : Alloc :=
  match s.mode with
  | .static => ⟨if neumann then 0 else 1, 1⟩
  | .dynamic => ⟨if neumann then 0 else 2, 1⟩
  | .vibration => ⟨2, 0⟩
  | .buckling => ⟨2, 0⟩
  | .rhsOnly => ⟨if neumann then 0 else 1, 1⟩
  | _ => ⟨0, 0⟩

/-- Slots used by NonlinearElasticityFbar::evalInt
(FiniteDeformation/NonlinearElasticityFbar.C:462-667). -/
def fbarDomain (s : St) (d : Dat) : List Slot :=
  sl (decide (s.iS ≠ 0) && d.strains) [.b (s.iS - 1)] ++
  sl (decide (s.eKm ≠ 0)) [.A (s.eKm - 1)] ++
  sl (decide (s.eM ≠ 0)) [.A (s.eM - 1)] ++
  sl (decide (s.eS ≠ 0)) [.b (s.eS - 1)]

/-- Sizes allocated by NonlinearElasticityULMixed::getLocalIntegral
(FiniteDeformation/NonlinearElasticityULMixed.C:67-70, 207-234): always six matrices
(Kuu, Kut, Kup, Ktt, Ktp, Ktan) and four vectors (Ru, Rt, Rp, Rres). -/
def mixedAlloc : Alloc := ⟨6, 4⟩

/-- Slots used by NonlinearElasticityULMixed::evalIntMx
(FiniteDeformation/NonlinearElasticityULMixed.C:267-468): the geometric stiffness and the
material stiffness are accessed whatever the value of `eKg` and `eKm`. -/
def mixedDomain (s : St) (d : Dat) : List Slot :=
  sl (decide (s.eM ≠ 0)) [.A (s.eM - 1)] ++
  sl (decide (s.eS ≠ 0)) [.b (s.eS - 1)] ++
  sl d.strains [.A (s.eKg - 1)] ++
  [.A (s.eKm - 1), .A 1, .A 2, .A 3, .A 4] ++
  sl d.strains [.b 0, .b 1, .b 2]

/-- Sizes allocated by NonlinearElasticityULMX::getLocalIntegral
(FiniteDeformation/NonlinearElasticityULMX.C:158-196); `none` if no pressure matrix is
defined, in which case initElement fails with an error message. The last matrix is the
pressure matrix. -/
def mxAlloc (s : St) (neumann : Bool) : Option Alloc :=
  match s.mode with
  | .static => some ⟨if neumann then 1 else 2, 1⟩
  | .rhsOnly => some ⟨if neumann then 1 else 2, 1⟩
  | .dynamic => some ⟨if neumann then 1 else 3, 1⟩
  | .recovery => some ⟨1, 0⟩
  | _ => none

/-- Slots of the displacement unknowns used by NonlinearElasticityULMX::evalInt and
finalizeElement (FiniteDeformation/NonlinearElasticityULMX.C:221-301, 311-567). -/
def mxDomain (s : St) (d : Dat) : List Slot :=
  sl (decide (s.eM ≠ 0)) [.A (s.eM - 1)] ++
  sl (decide (s.eS ≠ 0)) [.b (s.eS - 1)] ++
  sl (d.strains && decide (s.eKg ≠ 0)) [.A (s.eKg - 1)] ++
  sl (decide (s.eKm ≠ 0)) [.A (s.eKm - 1)] ++
  sl (decide (s.iS ≠ 0) && d.strains) [.b (s.iS - 1)]

/-- Kind of element matrix container used by the beam element (`myType`,
Beam/ElasticBeam.h). -/
inductive BeamType | std | dyn | hht
  deriving DecidableEq, Repr

/-- Outcome of ElasticBeam::getLocalIntegral (Beam/ElasticBeam.C:197-268): the kind of
container created, its sizes, and the new value of `myType`, given the old one; `none` if
an error message is issued. -/
def beamCreate (q : Prm K) (s : St) (inLocalAxes : Bool) (myType : BeamType) :
    Option (BeamType × Alloc × BeamType) :=
  let kind : Option (BeamType × BeamType) :=
    if baseSimMode q s.mode ≠ .dynamic then some (.std, myType)
    else if 0 < q.p3 then some (.dyn, .dyn)
    else if inLocalAxes = false then some (.hht, .hht)
    else none
  kind.map fun (made, ty) =>
    let dyn : Alloc := ⟨if 0 ≤ q.p3 then 3 else 4, if 0 < q.p3 then 1 else 2⟩
    (made,
     (match s.mode with
      | .static => ⟨1, 1⟩
      | .massOnly => ⟨1, 1⟩
      | .arclen => ⟨1, 2⟩
      | .dynamic => dyn
      | .vibration => ⟨2, 0⟩
      | .buckling => ⟨2, 0⟩
      | .stiffOnly => ⟨1, 0⟩
      | .rhsOnly => if ty = .std then ⟨0, 1⟩ else dyn
      | .intForces => ⟨0, 1⟩
      | _ => ⟨0, 0⟩ : Alloc),
     ty)

/-- Slots used by ElasticBeam::evalInt (Beam/ElasticBeam.C:549-640) and finalizeElement
(716-733). Eccentric ends together with a geometric stiffness are rejected with an error
before any further access, and so is a missing material stiffness in finalizeElement. -/
def beamDomain (s : St) (d : Dat) : List Slot :=
  let intS : Bool := decide (s.iS ≠ 0) && d.dis && !d.ecc
  sl (decide (s.eKm ≠ 0)) [.A (s.eKm - 1)] ++
  sl (!(decide (s.eKg ≠ 0) && d.dis && d.ecc))
   (sl (decide (s.iS ≠ 0)) [.b (s.iS - 1)] ++
    sl intS (sl (decide (s.eKm ≠ 0)) [.A (s.eKm - 1)] ++ [.b (s.iS - 1)]) ++
    sl (decide (s.eKg ≠ 0) && d.dis && !d.ecc && d.axial)
      (if s.eKg = s.eKm then [.A (s.eKm - 1)] else [.A (s.eKg - 1)]) ++
    sl (decide (s.eM ≠ 0)) [.A (s.eM - 1)] ++
    sl (d.grav && decide (0 < s.eS)) [.b (s.eS - 1)] ++
    sl (decide (s.iS ≠ 0) && d.ecc && d.dis && !decide (s.eKm < 1 ∨ s.eKg = s.eKm))
      [.A (s.eKm - 1), .b (s.iS - 1)])

/-- Sizes allocated by ElasticBar::getLocalIntegral (Beam/ElasticBar.C:49-108). -/
def barAlloc (q : Prm K) (s : St) (neumann : Bool) : Alloc :=
  match s.mode with
  | .static => ⟨if neumann then 0 else 1, 1⟩
  | .massOnly => ⟨if neumann then 0 else 1, 1⟩
  | .arclen => ⟨1, 2⟩
  | .dynamic =>
    ⟨if neumann then 0 else if 0 ≤ q.p3 then 3 else 4,
     if 0 < q.p3 then 1 else if q.p4 = 1 then 3 else 2⟩
  | .vibration => ⟨2, 0⟩
  | .buckling => ⟨2, 0⟩
  | .stiffOnly => ⟨1, 0⟩
  | .rhsOnly => ⟨0, 1⟩
  | .intForces => ⟨0, 1⟩
  | _ => ⟨0, 0⟩

/-- Slots used by ElasticBar::evalInt (Beam/ElasticBar.C:206-307). -/
def barDomain (s : St) (d : Dat) : List Slot :=
  sl (decide (s.eKm ≠ 0))
    [.A (s.eKm - 1), .A (if s.eKg ≠ 0 then s.eKg - 1 else s.eKm - 1)] ++
  sl (decide (s.eM ≠ 0)) [.A (s.eM - 1)] ++
  sl (decide (s.eS ≠ 0) && d.grav) [.b (s.eS - 1)] ++
  sl (decide (s.iS ≠ 0)) [.b (s.iS - 1)]

/-- Sizes allocated by ElasticCable::getLocalIntegral (Beam/ElasticCable.C:39-53). -/
def cableAlloc (q : Prm K) (s : St) (neumann : Bool) (d : Dat) : Alloc :=
  let al := barAlloc q s neumann
  if s.mode = .static ∧ neumann = true ∧ d.moment = true then { al with nA := 1 } else al

/-- Slots used by ElasticCable::evalInt (Beam/ElasticCable.C:428-470). -/
def cableDomain (s : St) (d : Dat) : List Slot :=
  sl (decide (s.iS ≠ 0)) [.b (s.iS - 1)] ++
  sl (decide (s.eKm ≠ 0)) [.A (s.eKm - 1)] ++
  sl (decide (s.eKg ≠ 0)) [.A (s.eKg - 1)] ++
  sl d.mass (sl (decide (s.eM ≠ 0)) [.A (s.eM - 1)] ++
    sl (decide (s.eS ≠ 0) && d.grav) [.b (s.eS - 1)])

/-- Slots used by ElasticCable::evalBou (Beam/ElasticCable.C:476-550). An error is returned
when there is no moment field or no load vector. -/
def cableBou (s : St) (d : Dat) : List Slot :=
  sl (d.moment && decide (s.eS ≠ 0))
    ([.b (s.eS - 1)] ++ sl (decide (s.eKg ≠ 0) && d.lcStif) [.A (s.eKg - 1)])

/-- Sizes allocated by KirchhoffLove::getLocalIntegral (Elasticity/KirchhoffLove.C:211-269).
The value of the mode (STATIC = 1, ARCLEN = 2) is used as the number of vectors. -/
def klAlloc (q : Prm K) (s : St) (neumann : Bool) : Alloc :=
  let dyn : Alloc :=
    ⟨if neumann then 0 else if 0 ≤ q.p3 then 3 else 4,
     if neumann = true ∨ 0 < q.p3 then 1 else 2⟩
  match s.mode with
  | .static => ⟨if neumann then 0 else 1, Mode.val .static⟩
  | .arclen => ⟨if neumann then 0 else 1, Mode.val .arclen⟩
  | .massOnly => ⟨if neumann then 0 else 1, 1⟩
  | .dynamic => dyn
  | .vibration => ⟨2, 0⟩
  | .stiffOnly => ⟨1, 0⟩
  | .rhsOnly =>
    if q.isModal = true ∨ q.p2 = 0 then ⟨if neumann then 0 else 1, 1⟩ else dyn
  | _ => ⟨0, 0⟩

/-- Slots used by KirchhoffLovePlate::evalInt and finalizeElement
(Linear/KirchhoffLovePlate.C:118-138, 334-347); `d.dis` tells that an element solution
vector is present. -/
def plateDomain (s : St) (d : Dat) : List Slot :=
  sl (decide (s.eM ≠ 0)) [.A (s.eM - 1)] ++
  sl (decide (s.eS ≠ 0)) [.b (s.eS - 1)] ++
  sl (decide (s.eKm ≠ 0)) [.A (s.eKm - 1)] ++
  sl (decide (s.iS ≠ 0) && decide (s.eKm ≠ 0) && d.dis) [.A (s.eKm - 1), .b (s.iS - 1)]

/-- Slots used by the line load term and by evalBou of the plate
(Linear/KirchhoffLovePlate.C:193-250). -/
def plateBou (s : St) : List Slot := sl (decide (s.eS ≠ 0)) [.b (s.eS - 1)]

/-- Slots used by KirchhoffLoveShell::evalInt (Shell/KirchhoffLoveShell.C:38-60). -/
def shellDomain (s : St) (d : Dat) : List Slot :=
  sl (decide (s.eM ≠ 0)) [.A (s.eM - 1)] ++
  sl (decide (s.eKm ≠ 0)) [.A (s.eKm - 1)] ++
  sl (decide (s.eS ≠ 0)) [.b (s.eS - 1)] ++
  sl (decide (s.gS ≠ 0) && d.pres) [.b (s.gS - 1)]

/-- Slots used by NLKirchhoffLoveShell::evalInt (Shell/NLKirchhoffLoveShell.C:39-79). -/
def nlShellDomain (s : St) (d : Dat) : List Slot :=
  sl (decide (s.eM ≠ 0)) [.A (s.eM - 1)] ++
  sl (decide (s.eKm ≠ 0) && decide (s.iS ≠ 0)) [.A (s.eKm - 1), .b (s.iS - 1)] ++
  sl (decide (s.eKm = 0) && decide (s.iS ≠ 0)) [.b (s.iS - 1)] ++
  sl (decide (s.eS ≠ 0))
    ([.b (s.eS - 1)] ++ sl (decide (s.gS ≠ 0) && d.pres) [.b (s.gS - 1)])

end

/-- ElasticBeam::getLocalAxes (Beam/ElasticBeam.C:291-300): a `static_cast` to the container
kind recorded in `myType`; undefined behaviour if the container is of another kind. -/
def beamAxes (made myType : BeamType) : Res Unit := if made = myType then .ok () else .ub

end Verif.Modes
