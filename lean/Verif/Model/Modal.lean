/-
Modal simulations: the drivers of Linear/ModalDriver.C.

IFEM assumptions. `SIMmodal::assembleModalSystem` with integration parameter beta = 0 gives one equation for each mode, with the eigenvalue as its coefficient and the product of mode and load vector as its right-hand
side; `expandSolution` gives the sum of the modes times the modal solution. `NewmarkSIM::solveStep` calls `predictStep`, assembles and solves the equations once and then calls `checkConvergence`; on convergence it
calls `correctStep`. `TimeStep::increment` gives the steps until the stop time.
-/
import Verif.Model.Vibration

namespace Verif.Modal

variable {K : Type*} [Field K]

/-- `enum SIM::ConvStatus`. -/
inductive Conv | failure | diverged | slow | ok | converged
  deriving DecidableEq, Repr

/-! ### Quasi-static steps -/

/-- The solution of the modal equations for a load vector, without inertia and damping: `setIntegrationPrm(2,0.0)` in Linear/ModalDriver.C:186, and the assembly in Linear/SIMLinElModal.h:66-81. -/
def modalSol (d n : Nat) (ms : List (K × (Nat → Nat → K))) (F : Nat → Nat → K) : List K :=
  ms.map fun m => (∑ a ∈ Finset.range n, ∑ i ∈ Finset.range d, m.2 (a + 1) (i + 1) * F (a + 1) (i + 1)) / m.1

/-- `expandSolution` (Linear/ModalDriver.C:33-39, Linear/SIMLinElModal.h:87-95). -/
def expand (ms : List (K × (Nat → Nat → K))) (q : List K) (a i : Nat) : K := (List.zipWith (fun m c => c * m.2 a i) ms q).sum

/-- What is known about a step of the simulation: outcomes of the library for the dynamic scheme, the solver and the update of the configuration. -/
structure StepIn (K : Type*) where
  F : Nat → Nat → K
  predict : Bool
  conv : Conv
  correct : Bool
  solver : Bool
  update : Bool
  newmark : List K → List K

/-- `ModalDriver::predictStep` (Linear/ModalDriver.C:107-110). -/
def predictStep (qstatic : Bool) (i : StepIn K) : Bool := if qstatic then true else i.predict

/-- `ModalDriver::checkConvergence` (Linear/ModalDriver.C:126-129). -/
def checkConvergence (qstatic : Bool) (i : StepIn K) : Conv := if qstatic then .converged else i.conv

/-- `ModalDriver::correctStep` (Linear/ModalDriver.C:113-123): the outcome and the solution; `linsol` is the solution of the linear system. -/
def correctStep (qstatic : Bool) (i : StepIn K) (linsol sol : List K) : Bool × List K :=
  if qstatic then (i.update, linsol) else (i.correct, i.newmark sol)

/-- One step of the modal solution, with a single iteration: status and modal solution. -/
def step (qstatic : Bool) (d n : Nat) (ms : List (K × (Nat → Nat → K))) (i : StepIn K) (sol : List K) : Conv × List K :=
  if predictStep qstatic i = false ∨ i.solver = false then (.failure, sol)
  else match checkConvergence qstatic i with
    | .converged => let r := correctStep qstatic i (modalSol d n ms i.F) sol; (if r.1 then .converged else .failure, r.2)
    | c => (c, sol)

/-- The steps of a simulation until one does not converge; the expanded solution of every converged step (`realSolutions`, Linear/ModalDriver.C:33-39). -/
def run (qstatic : Bool) (d n : Nat) (ms : List (K × (Nat → Nat → K))) : List (StepIn K) → List K → List (Nat → Nat → K)
  | [], _ => []
  | i :: l, sol => match step qstatic d n ms i sol with
    | (.converged, s) => expand ms s :: run qstatic d n ms l s
    | _ => []

/-! ### Drivers -/

/-- Outcomes met by `modalSim`. -/
structure SimIn where
  xinp : Bool
  read : Bool
  format : Int
  saveModel : Bool
  initSystem : Bool
  restart : Bool
  solve : Int

/-- What `modalSim` does. -/
inductive Act | dump | read | prms | noInertia | initSol (nSol : Nat) | saveModel | initSystem | restart | solve
  deriving DecidableEq, Repr

/-- `modalSim` (Linear/ModalDriver.C:167-222): what it does and what it returns. -/
def modalSim (i : SimIn) (dumpModes qstatic : Bool) : List Act × Int :=
  let a0 := if dumpModes then [Act.dump] else []
  if i.xinp = false then (a0, 1)
  else if i.read = false then (a0 ++ [.read], 1)
  else
    let a1 := a0 ++ [.read, .prms] ++ (if qstatic then [.noInertia] else []) ++ [.initSol (if qstatic then 1 else 3)]
    let a2 := a1 ++ (if i.format ≥ 0 then [.saveModel] else [])
    if i.format ≥ 0 ∧ i.saveModel = false then (a2, 2)
    else if i.initSystem = false then (a2 ++ [.initSystem], 3)
    else if i.restart = false then (a2 ++ [.initSystem, .restart], 4)
    else (a2 ++ [.initSystem, .restart, .solve], i.solve)

/-- A step of the time history of modes: time and the outcomes of solving and saving. -/
structure HistIn (K : Type*) where
  t : K
  conv : Conv
  saveStep : Bool
  saveResults : Bool

/-- The loop of `ModesHistorySIM::solve` (Linear/ModalDriver.C:155-161): saved steps with number and time, and the status. -/
def histLoop : List (HistIn K) → Nat → List (Nat × K) × Int
  | [], _ => ([], 0)
  | i :: l, k =>
    if i.conv ≠ .converged then ([], 5)
    else if i.saveStep = false then ([], 11)
    else if i.saveResults = false then ([(k, i.t)], 13)
    else let r := histLoop l (k + 1); ((k, i.t) :: r.1, r.2)

/-- `ModesHistorySIM::solve` (Linear/ModalDriver.C:138-164). `steps stop` are the steps until the stop time. -/
def histSolve [LinearOrder K] (xinp read preprocess : Bool) (format : Int) (saveModel : Bool) (optTime stop : K) (steps : K → List (HistIn K)) : List (Nat × K) × Int :=
  let st : Int := if xinp ∧ read then 0 else 1
  let st := if st = 0 ∧ preprocess = false then 2 else if st = 0 ∧ format ≥ 0 ∧ saveModel = false then 3 else st
  let stop := if optTime > 1 then optTime else stop
  if st = 0 then histLoop (steps stop) 1 else ([], st)

end Verif.Modal
