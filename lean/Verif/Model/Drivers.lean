/-
Model of the solution drivers: Elasticity/ArcLengthDriver.C, Elasticity/NonlinearDriver.C and the
modal system swapping of Linear/SIMLinElModal.h and Linear/SIMLinKLModal.C.
-/
import Verif.Basic
import Mathlib.Analysis.Real.Sqrt

namespace Verif.Drivers

/-- `SIM::ConvStatus` (IFEM). -/
inductive Conv
  | failure | diverged | ok | slow | converged
  deriving DecidableEq, Repr

/-! ### Arc-length driver -/

/-- `Vector::dot`. -/
noncomputable def dot {n : Nat} (a b : Fin n → ℝ) : ℝ := ∑ i, a i * b i

/-- `Vector::norm2`. -/
noncomputable def norm2 {n : Nat} (a : Fin n → ℝ) : ℝ := Real.sqrt (dot a a)

/-- The load increment of the predictor (Elasticity/ArcLengthDriver.C:92-103). `inc` is `incsol`
of the previous step, `none` when empty. -/
noncomputable def predictor {n : Nat} (beta arclen lg : ℝ) (t : Fin n → ℝ)
    (inc : Option (Fin n → ℝ)) : ℝ :=
  let tn := norm2 t
  let d :=
    if beta < 0 then arclen / Real.sqrt (1 + tn * tn)
    else if 0 < beta then arclen / Real.sqrt (beta * lg * lg + tn * tn)
    else arclen / tn
  match inc with
  | none => d
  | some u => if dot u t < 0 then -d else d

/-- The state of the arc-length iterations: `time.t`, `time.dt`, `incsol`, the accumulated change
of the solution. -/
structure Arc (n : Nat) where
  lam : ℝ
  dlam : ℝ
  inc : Fin n → ℝ
  sol : Fin n → ℝ

/-- The predictor update (Elasticity/ArcLengthDriver.C:105-114): `lin` is the residual
displacement, `t` the tangent displacement. -/
noncomputable def predict {n : Nat} (beta arclen lg : ℝ) (lin t : Fin n → ℝ)
    (inc : Option (Fin n → ℝ)) (lam : ℝ) (sol : Fin n → ℝ) : Arc n :=
  let d := predictor beta arclen lg t inc
  let l := fun i => lin i + d * t i
  ⟨lam + d, d, l, fun i => sol i + l i⟩

/-- The iterative load factor (Elasticity/ArcLengthDriver.C:150-153). -/
noncomputable def corrector {n : Nat} (beta : ℝ) (s : Arc n) (lin t : Fin n → ℝ) : ℝ :=
  if beta < 0 then -dot s.inc lin / (dot s.inc t + s.dlam)
  else -dot t lin / (1 + dot t t)

/-- The corrector update (Elasticity/ArcLengthDriver.C:155-164). -/
noncomputable def correct {n : Nat} (beta : ℝ) (s : Arc n) (lin t : Fin n → ℝ) : Arc n :=
  let d := corrector beta s lin t
  let l := fun i => lin i + d * t i
  ⟨s.lam + d, s.dlam + d, fun i => s.inc i + l i, fun i => s.sol i + l i⟩

section check
variable {K : Type*} [Field K] [LinearOrder K]

/-- Convergence parameters: `rTol`, `aTol`, `divgLim`, `maxIncr`, and `refNopt == ALL`. -/
structure CPrm (K : Type*) where
  rTol : K
  aTol : K
  divg : K
  maxIncr : Nat
  refAll : Bool

/-- The member `refNorm` and the function-static variables of `checkConvergence`. -/
structure CSt (K : Type*) where
  refNorm : K
  convTol : K
  prev : K
  nInc : Nat

/-- The values obtained in one iteration: the norm selected by `iteNorm`, the norm of the
iterative solution, and whether the latter is not a number. -/
structure Nrm (K : Type*) where
  norm : K
  lin : K
  nan : Bool

/-- The initialisation in iteration 0 (Elasticity/ArcLengthDriver.C:220-238) or the scaling in the
later iterations (line 241). Returns the scaled norm. -/
def scale (c : CPrm K) (s : CSt K) (iter : Nat) (x : Nrm K) : K × CSt K :=
  if iter = 0 then
    let ref := if c.refAll = true ∨ |x.norm| > s.refNorm then |x.norm| else s.refNorm
    if ref * c.rTol > c.aTol then
      (x.norm / ref, ⟨ref, c.rTol, x.norm / ref, 0⟩)
    else
      (x.norm, ⟨1, c.aTol, x.norm, 0⟩)
  else (x.norm / s.refNorm, s)

/-- `ArcLengthDriver::checkConvergence` (Elasticity/ArcLengthDriver.C:208-283), without printing.
The factor `0.1` is `1/10`. -/
def check (c : CPrm K) (s : CSt K) (iter : Nat) (x : Nrm K) : Conv × CSt K :=
  if iter = 0 ∧ x.nan = false ∧ x.lin = 0 then (.converged, s)
  else
    let r := scale c s iter x
    let norm := r.1
    let s := r.2
    let st : Conv := if iter > 1 ∧ s.prev > 0 ∧ |norm| > s.prev * (1 / 10) then .slow else .ok
    if |norm| < s.convTol ∧ (iter > 0 ∨ c.refAll = true) then
      (.converged, { s with prev := norm })
    else if x.nan = true then (.diverged, { s with prev := norm })
    else if |norm| ≤ |s.prev| then (st, { s with nInc := 0, prev := norm })
    else
      (if s.nInc + 1 > c.maxIncr ∨ |norm| > c.divg then .diverged else st,
       { s with nInc := s.nInc + 1, prev := norm })

/-- What happens in iteration `i`: the norms seen by `checkConvergence`, whether
`solveLinearizedSystem`, `updateConfiguration` and the assembly succeed (`none`), or the status
returned instead, and whether the norms of a converged solution can be computed. -/
structure Ite (K : Type*) where
  x : Nrm K
  err : Option Conv
  normsOk : Bool

/-- The iteration loop of `ArcLengthDriver::solveStep` (Elasticity/ArcLengthDriver.C:129-178).
Returns the status and the number of convergence checks made. -/
def arcLoop (c : CPrm K) (maxit : Nat) (o : Nat → Ite K) (iter : Nat) (s : CSt K) : Conv × Nat :=
  if iter ≤ maxit then
    match check c s iter (o iter).x with
    | (.converged, _) => (if (o iter).normsOk then .converged else .failure, 1)
    | (.diverged, _) => (.diverged, 1)
    | (_, s') =>
      match (o iter).err with
      | some e => (e, 1)
      | none =>
        let r := arcLoop c maxit o (iter + 1) s'
        (r.1, r.2 + 1)
  else (.diverged, 0)
termination_by maxit + 1 - iter

end check

/-! ### Nonlinear driver -/

section nonlin
variable {K : Type*} [Field K] [LinearOrder K] {S : Type*}

/-- One load step as seen by the driver: the time after `advanceStep`, the first call of
`solveStep` as a function of the start solution, the cut-backs that are possible (new time and
the repeated `solveStep`), and the return code of a failing post-processing task, if any
(`pre` before, `post` during saving). -/
structure StepIn (K S : Type*) where
  t : K
  att : S → Conv × S
  retry : List (K × (S → Conv × S))
  pre : Option Nat
  post : Option Nat

/-- The cut-back loop (Elasticity/NonlinearDriver.C:301-316): on divergence with a possible
cut-back, the time is changed, the current solution is reset to the previous one, and the step is
solved again. Returns status, time, solution and the start solutions of all attempts made here. -/
def cutLoop (prev : S) : List (K × (S → Conv × S)) → Conv → K → S → (Conv × K × S) × List S
  | [], st, t, u => ((st, t, u), [])
  | (t', f) :: l, st, t, u =>
    if st = .diverged then
      let r := cutLoop prev l (f prev).1 t' (f prev).2
      (r.1, prev :: r.2)
    else ((st, t, u), [])

/-- One saved result: time stamp, and (ghost) time and status of the step that produced it, and
the solution. -/
structure Saved (K S : Type*) where
  stamp : K
  time : K
  status : Conv
  sol : S

/-- Driver state: current solution, next time to save at, results saved, and (ghost) the start
solutions of the attempts in each step. -/
structure DSt (K S : Type*) where
  sol : S
  nextSave : K
  out : List (Saved K S)
  starts : List (List S)

/-- One pass of the load incrementation loop (Elasticity/NonlinearDriver.C:274-432), without mesh
adaptation and element activation. `params.hasReached(x)` is `x ≤ t`. Returns the return code if
the loop is left. -/
def stepOnce (dtSave stop : K) (s : DSt K S) (i : StepIn K S) : DSt K S × Option Nat :=
  let tn := i.t
  let a := i.att s.sol
  let r := cutLoop s.sol i.retry a.1 tn a.2
  let st := r.1.1
  let t := r.1.2.1
  let u := r.1.2.2
  let s := { s with sol := u, starts := s.starts ++ [s.sol :: r.2] }
  if st ≠ .converged then (s, some 7)
  else match i.pre with
    | some e => (s, some e)
    | none =>
      if dtSave ≤ 0 ∨ s.nextSave ≤ t then
        match i.post with
        | some e => (s, some e)
        | none =>
          ({ s with
              out := s.out ++ [⟨tn, t, st, u⟩]
              nextSave := if tn + dtSave > stop then stop else tn + dtSave }, none)
      else (s, none)

/-- The load incrementation loop: the steps that `advanceStep` yields. -/
def driver (dtSave stop : K) : List (StepIn K S) → DSt K S → DSt K S × Nat
  | [], s => (s, 0)
  | i :: l, s =>
    match stepOnce dtSave stop s i with
    | (s', some e) => (s', e)
    | (s', none) => driver dtSave stop l s'

/-- The state before the loop (Elasticity/NonlinearDriver.C:237-241). -/
def driver0 (t0 dtSave : K) (u : S) : DSt K S := ⟨u, t0 + dtSave, [], []⟩

end nonlin

/-! ### Modal driver -/

/-- Which system `myEqSys`/`mySam` point to. -/
inductive Sys
  | full | modal
  deriving DecidableEq, Repr

/-- What is done on which system. -/
inductive Ev
  | eigen (s : Sys) | loadAsm (s : Sys) | modalAsm (s : Sys) | solve (s : Sys) | post (s : Sys)
  deriving DecidableEq, Repr

/-- `SIMmodal::swapSystem` (IFEM): exchanges the two systems. -/
def swap : Sys → Sys
  | .full => .modal
  | .modal => .full

/-- `SIMLinElModal::assembleSystem` and `SIMLinKLModal::assembleSystem`
(Linear/SIMLinElModal.h:50-83, Linear/SIMLinKLModal.C:18-50), successful calls. `vib` is the
eigenvalue mode, `it` the iteration counter. The load vector is assembled on the system pointed to
by `myEqSys`. The modal system matrices are always built in the separate modal system object held
by `SIMmodal`, which is the one not pointed to by `myEqSys`. -/
def modalAssemble (vib : Bool) (it : Nat) (s : Sys) : Sys × List Ev :=
  if vib then (s, [.eigen s])
  else if it > 0 then
    let s := swap s
    (swap s, [.modalAsm (swap s)])
  else (swap s, [.loadAsm s, .modalAsm (swap s)])

/-- `expandSolution(mSol,swapBack)` (Linear/SIMLinElModal.h:85-97). -/
def modalExpand (swapBack : Bool) (s : Sys) : Sys := if swapBack then swap s else s

/-- The iterations `it, it+1, ..` of one time step of the Newmark driver (IFEM): assemble, solve. -/
def modalIters (it : Nat) : Nat → Sys → Sys × List Ev
  | 0, s => (s, [])
  | n + 1, s =>
    let a := modalAssemble false it s
    let r := modalIters (it + 1) n a.1
    (r.1, a.2 ++ .solve a.1 :: r.2)

/-- One time step with `n` iterations: the iterations, then the expansion of the modal solution
with the swap back (`ModalDriver::realSolutions`, Linear/ModalDriver.C:33-39), then post-processing. -/
def modalStep (n : Nat) (s : Sys) : Sys × List Ev :=
  let r := modalIters 0 n s
  let s := modalExpand true r.1
  (s, r.2 ++ [.post s])

/-- A simulation: the eigenvalue analysis, then time steps with the given iteration counts. -/
def modalRun : List Nat → Sys → Sys × List Ev
  | [], s => (s, [])
  | n :: l, s =>
    let a := modalStep n s
    let r := modalRun l a.1
    (r.1, a.2 ++ r.2)

end Verif.Drivers
