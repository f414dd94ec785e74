/-
Model of the time stepping loop of the dynamics driver (Elasticity/NewmarkDriver.h) and of its set-up in the linear dynamics, multi-load-case, modal and
nonlinear dynamics programs (Linear/DynamicDriver.C, Linear/MultiLoadCaseDriver.C, Linear/ModalDriver.C, main_NonLinEl.C).

Times are elements of an ordered field. The library is given by its results step by step: the times that `advanceStep` yields, convergence, and success of the output functions;
`params.hasReached(x)` is `x ≤ t` (its tolerance is left out).
-/
import Mathlib.Algebra.Order.Field.Basic
import Verif.Basic

namespace Verif.Newmark

variable {K : Type} [Field K] [LinearOrder K]

/-- What is asked for: projection and the number of allocated projection vectors, VTF output, HDF5 output, restart output. -/
structure Cfg (K : Type) where
  doProject : Bool
  nProj : Nat
  vtf : Bool
  hdf5 : Bool
  restart : Bool
  dtSave : K
  stop : K

/-- What happens in one step: its time and the outcomes of the library calls. -/
structure Step (K : Type) where
  t : K
  conv : Bool
  projOk : Bool
  saveOk : Bool
  glvPOk : Bool
  hdf5Ok : Bool
  gridOk : Bool
  dump : Bool
  serOk : Bool
  writeOk : Bool

/-- State of the loop: return status, number of saved steps, next save time, and what has been written: saved frames and restart data by time. -/
structure St (K : Type) where
  status : Nat
  iStep : Nat
  nextSave : K
  frames : List (Nat × K)
  restarts : List K

/-- The state before the loop (Elasticity/NewmarkDriver.h:103-122). -/
def start (t0 : K) (c : Cfg K) : St K := ⟨0, 0, t0 + c.dtSave, [], []⟩

/-- Output of a step which has reached the save time (Elasticity/NewmarkDriver.h:149-178). -/
def save (c : Cfg K) (s : St K) (x : Step K) : St K :=
  let s1 := if c.vtf then
      (if !x.saveOk then s.status + 11 else if c.doProject && !x.glvPOk then s.status + 14 else s.status)
    else s.status
  let s2 := if c.hdf5 && !x.hdf5Ok then s1 + 15 else s1
  let s3 := if !x.gridOk then s2 + 16 else s2
  { s with
    status := s3
    iStep := s.iStep + 1
    frames := s.frames ++ [(s.iStep + 1, x.t)]
    nextSave := if x.t + c.dtSave > c.stop then c.stop else x.t + c.dtSave }

/-- The restart output of a step (Elasticity/NewmarkDriver.h:180-186). -/
def saveRestart (c : Cfg K) (s : St K) (x : Step K) : St K :=
  if c.restart && x.dump then
    (if x.serOk then (if !x.writeOk then { s with status := s.status + 17 } else { s with restarts := s.restarts ++ [x.t] }) else s)
  else s

/-- One pass of the loop (Elasticity/NewmarkDriver.h:125-187); `proSol.front()` of an empty vector is undefined. -/
def pass (c : Cfg K) (s : St K) (x : Step K) : Res (St K) :=
  if !x.conv then .ok { s with status := 5 }
  else if c.doProject && c.nProj = 0 then .ub
  else
    let s := if c.doProject && !x.projOk then { s with status := s.status + 6 } else s
    let s := if s.nextSave ≤ x.t then save c s x else s
    .ok (saveRestart c s x)

/-- The loop, which is left as soon as the status is not zero. -/
def run (c : Cfg K) : List (Step K) → St K → Res (St K)
  | [], s => .ok s
  | x :: xs, s => if s.status = 0 then (pass c s x).bind (run c xs) else .ok s

/-! ### Set-up -/

/-- The programs using the driver or the stop time option. -/
inductive Prog
  | dynamic
  | multiLoadCase
  | modal
  | modesHistory
deriving DecidableEq

/-- The stop time after the command line has been considered: `time` is the value of option `-time`, initially 1 (Linear/DynamicDriver.C:33-37, Linear/MultiLoadCaseDriver.C:32-34,
Linear/ModalDriver.C:151-152; `modalSim`, Linear/ModalDriver.C:168-230, has no such statement). -/
def stopTime (p : Prog) (time input : K) : K :=
  match p with
  | .dynamic => if time > 1 then time else if time < 0 then -time else input
  | .multiLoadCase => if time > 1 then time else input
  | .modesHistory => if time > 1 then time else input
  | .modal => input

/-- The number of projection vectors: `initProj` is called with the number of projections in `modalSim` (Linear/ModalDriver.C:188) and not at all in `dynamicSim`
(Linear/DynamicDriver.C:22-99). -/
def nProj (p : Prog) (projections : Nat) : Nat :=
  match p with
  | .modal => projections
  | _ => 0

end Verif.Newmark
