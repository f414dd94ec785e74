/-
Model of how the programs select and set up their simulation drivers and what they return: main_NonLinEl.C, main_ShellEl.C, Linear/DynamicDriver.C,
Linear/MultiLoadCaseDriver.C, Linear/ModalDriver.C, and the coupled static solver Linear/SIMmcStatic.C.

The calls of the simulators are given by their outcomes.
-/
import Mathlib.Data.List.Basic
import Verif.Basic

namespace Verif.Programs

/-! ### Drivers -/

/-- The algorithms in the order of the enum (NLargs.h:21). -/
inductive Algor
  | arclen | static | genAlpha | oldHHT | newHHT
deriving DecidableEq, Repr

/-- Position in the enum, used by the comparison `args.algor > STATIC`. -/
def Algor.val : Algor → Nat
  | .arclen => 0 | .static => 1 | .genAlpha => 2 | .oldHHT => 3 | .newHHT => 4

/-- The kinds of simulators. -/
inductive Kind
  | nonlinear | arcLength | newmark | genAlpha | hht | newmarkNL
deriving DecidableEq, Repr

/-- A simulator, its flags, and whether its model is the finite deformation one. -/
structure Driver where
  kind : Kind
  linear : Bool
  adaptive : Bool
  finiteDef : Bool
deriving DecidableEq, Repr

/-- The constructor of the arc-length driver ignores its second argument; the third is the adaptivity flag, default false (Elasticity/ArcLengthDriver.h:35, Elasticity/ArcLengthDriver.C:23-24). -/
def arcLength (_unused : Bool) (adaptive : Bool := false) : Driver := ⟨.arcLength, false, adaptive, true⟩

/-- The simulator of the nonlinear program; `linear` tells whether the first option is the linear formulation (main_NonLinEl.C:369-438). -/
def nonLinEl (algor : Algor) (linear adap : Bool) : Driver :=
  if linear && decide (algor.val > Algor.val .static) then
    (if algor = .genAlpha then ⟨.genAlpha, true, false, false⟩ else ⟨.newmark, true, false, false⟩)
  else match algor with
    | .static => ⟨.nonlinear, linear, adap, true⟩
    | .arclen => arcLength adap
    | .newHHT => ⟨.hht, false, false, true⟩
    | .oldHHT => ⟨.newmarkNL, false, false, true⟩
    | .genAlpha => ⟨.newmarkNL, false, false, true⟩

/-- The simulator of the shell program (main_ShellEl.C:187-199). -/
def shellEl (arclen adap : Bool) : Driver :=
  if arclen then arcLength false adap else ⟨.nonlinear, false, adap, true⟩

/-! ### Projection vectors -/

/-- The programs. -/
inductive Prog
  | nonLinEl | shellEl | dynamic | multiLoadCase | modal
deriving DecidableEq, Repr

/-- Number of projection vectors allocated, for the number of projections asked for (main_NonLinEl.C:128-137, main_ShellEl.C:60, Linear/ModalDriver.C:188;
there is no call of `initProj` in Linear/DynamicDriver.C:23-99 and Linear/MultiLoadCaseDriver.C:22-78). -/
def projVectors (p : Prog) (asked : Nat) : Nat :=
  match p with
  | .nonLinEl => if asked = 0 then 0 else 1
  | .shellEl => asked
  | .modal => asked
  | .dynamic => 0
  | .multiLoadCase => 0

/-- The first use of the projection vectors, `Matrix projs(proSol.front())`, executed in each step if there is a projection (Elasticity/NonlinearDriver.C:322-325,
Elasticity/NewmarkDriver.h:136-140). -/
def firstProjection (p : Prog) (asked : Nat) : Res Unit :=
  if asked = 0 then .ok () else if projVectors p asked = 0 then .ub else .ok ()

/-! ### Exit status -/

/-- A sequence of calls with the status returned at failure; `none` is a call whose result is not looked at. -/
def stages : List (Bool × Option Nat) → Nat
  | [] => 0
  | (ok, code) :: r => match ok, code with
    | false, some c => c
    | _, _ => stages r

/-- Outcomes of the calls of the set-up of a time stepping simulation. -/
structure SetUp where
  read : Bool
  preprocess : Bool
  openVtf : Bool
  equations : Bool
  restart : Bool
  run : Nat

/-- The status of `runSimulator` of the shell program without the check option (main_ShellEl.C:31-104). -/
def runShell (s : SetUp) : Nat :=
  let r := stages [(s.read, some 1), (s.preprocess, some 2), (s.openVtf, some 3), (s.equations, some 3), (s.restart, some 4)]
  if r ≠ 0 then r else s.run

/-- The status of `runSimulator` of the nonlinear program without the check option (main_NonLinEl.C:44-215). -/
def runNonlinear (s : SetUp) : Nat :=
  let r := stages [(s.read, some 1), (s.preprocess, some 2), (s.openVtf, some 4), (s.equations, some 3), (s.restart, some 5)]
  if r ≠ 0 then r else s.run

/-- The status of `dynamicSim` (Linear/DynamicDriver.C:23-99). -/
def runDynamic (s : SetUp) : Nat :=
  let r := stages [(s.read, some 1), (s.preprocess, some 2), (s.openVtf, some 3), (s.equations, some 3), (s.restart, some 4)]
  if r ≠ 0 then r else s.run

/-- The exit status of a main program: the nonlinear program returns the status (main_NonLinEl.C:384-432), the linear one passes it through `terminate` (main_LinEl.C:444-458), and the
shell program discards it (main_ShellEl.C:187-200, end of `main` without return statement). -/
def exitStatus (p : Prog) (s : SetUp) : Nat :=
  match p with
  | .nonLinEl => runNonlinear s
  | .shellEl => let _status := runShell s; 0
  | _ => runDynamic s

/-- Outcomes of the calls of a linear static analysis with one projection, norms and output. -/
structure Static where
  read : Bool
  preprocess : Bool
  assemble : Bool
  solve : Bool
  project : Bool
  norms : Bool
  boundaryForces : Bool
  resultPoints : Bool
  geometry : Bool
  tractions : Bool
  conditions : Bool
  temperature : Bool
  loads : Bool
  internalForces : Bool
  solution : Bool
  projected : Bool
  elementNorms : Bool
  step : Bool
  hdf5 : Bool

/-- The exit status of the linear program in a static analysis with all output (main_LinEl.C:464-465, 484-485, 637-638, 653-654, 661-662, 689-690, 771-772, 811-818, 896-966). -/
def linearStatic (s : Static) : Nat :=
  stages [(s.read, some 1), (s.preprocess, some 2), (s.assemble, some 4), (s.solve, some 5), (s.project, some 6), (s.norms, some 7), (s.boundaryForces, none),
    (s.resultPoints, none), (s.geometry, some 12), (s.tractions, some 13), (s.conditions, some 13), (s.temperature, some 14), (s.loads, some 15),
    (s.internalForces, some 15), (s.solution, some 16), (s.projected, some 17), (s.elementNorms, some 19), (s.step, none), (s.hdf5, none)]

/-! ### The coupled static solver -/

/-- One of the coupled simulators: outcomes of assembly, geometry and result output, the number of geometry blocks it writes. -/
structure Sim where
  assemble : Bool
  geoOk : Bool
  blocks : Nat
  saveOk : Bool

/-- The equation system a simulator is initialised with: its own, or that of the first simulator. -/
inductive Sys
  | own | shared
deriving DecidableEq, Repr

/-- What the coupled solver does. -/
inductive Event
  | init (i : Nat) (s : Sys)
  | assemble (i : Nat)
  | solve
  | geometry (i start : Nat)
  | results (i start : Nat)
  | close
  | detach (i : Nat)
deriving DecidableEq, Repr

/-- The assembly loop (Linear/SIMmcStatic.C:37-50). -/
def assembly : List Sim → Nat → List Event × Bool
  | [], _ => ([], true)
  | s :: r, i =>
    let here := [Event.init i (if i = 0 then .own else .shared), .assemble i]
    if s.assemble then let q := assembly r (i + 1); (here ++ q.1, q.2) else (here, false)

/-- The geometry output with the block counter (Linear/SIMmcStatic.C:84-97): the start blocks of all simulators. -/
def geometry : List Sim → Nat → Nat → List Event × Option (List Nat)
  | [], _, _ => ([], some [])
  | s :: r, i, blk =>
    if s.geoOk then
      let q := geometry r (i + 1) (blk + s.blocks)
      (.geometry i blk :: q.1, q.2.map (blk :: ·))
    else ([.geometry i blk], none)

/-- The result output (Linear/SIMmcStatic.C:99-106). -/
def results : List (Sim × Nat) → Nat → List Event × Bool
  | [], _ => ([], true)
  | (s, start) :: r, i => if s.saveOk then let q := results r (i + 1); (.results i start :: q.1, q.2) else ([.results i start], false)

/-- The whole solution (Linear/SIMmcStatic.C:21-112): the events and the status. All simulators are detached from the VTF object on every way out of the VTF output. -/
def solveStatic (sims : List Sim) (solveOk vtf : Bool) : List Event × Nat :=
  let a := assembly sims 0
  if !a.2 then (a.1, 4)
  else if !solveOk then (a.1 ++ [.solve], 5)
  else if !vtf then (a.1 ++ [.solve], 0)
  else
    let detach := (List.range sims.length).map Event.detach
    let g := geometry sims 0 0
    match g.2 with
    | none => (a.1 ++ [.solve] ++ g.1 ++ detach, 12)
    | some starts =>
      let r := results (sims.zip starts) 0
      if r.2 then (a.1 ++ [.solve] ++ g.1 ++ r.1 ++ [.close] ++ detach, 0)
      else (a.1 ++ [.solve] ++ g.1 ++ r.1 ++ detach, 16)

/-- The names of the fields of the coupled simulators in the HDF5 file: `u1`, `u2`, ... by counting up the second character (Linear/SIMmcStatic.C:27-34). -/
def fieldName (i : Nat) : List Char := ['u', Char.ofNat ('0'.toNat + 1 + i)]

end Verif.Programs
