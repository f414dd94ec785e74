/-
Model of the report of extreme values: allocation (Elasticity/Elasticity.C:1011-1028, Elasticity/SIMElasticity.C:667-674, main_NonLinEl.C:112-119, Elasticity/NonlinearDriver.C:242-249, main_LinEl.C:588-597), the points
which are evaluated in a load step (Elasticity/NonlinearDriver.C:322-428) and the lines printed (Elasticity/Elasticity.C:1030-1062, Elasticity/NonlinearDriver.C:430-440, main_LinEl.C:599-605).

A line is described by the name, the value, the point and the patch; its layout is not modelled. The table of extreme values is that of Model/Norms.lean, the names are those of Model/SolidFields.lean. The points which library
functions evaluate (projection onto the basis, output of results in points, output for visualization) are given.
-/
import Verif.Model.NLDriver
import Verif.Model.SolidFields

namespace Verif.MaxPrint

open Verif.Norms Verif.NLDriver Verif.SolidFields

variable {X K : Type}

/-- A line of the report. -/
structure Line (X K : Type) where
  name : String
  val : K
  pt : X
  patch : Option Nat
deriving DecidableEq

/-- `name.substr(0,16)` (Elasticity/Elasticity.C:1048). -/
def cut (s : String) : String := String.ofList (s.toList.take 16)

/-- The lines of the component with index `i` (Elasticity/Elasticity.C:1041-1061): none if there is no value, or a single one which is zero. -/
def fieldLines [Zero K] [DecidableEq K] (c : Cfg) (t : List (List (PtVal X K))) (i : Nat) : Res (List (Line X K)) :=
  match t[i]? with
  | none => .ub
  | some l =>
    if l.length = 0 then .ok []
    else if l.length = 1 ∧ l.map (·.2) = [0] then .ok []
    else (getField2Name c i none).bind fun n => .ok (l.mapIdx fun p v => ⟨cut n, v.2, v.1, if l.length > 1 then some (p + 1) else none⟩)

/-- Output in sequence. -/
def concat {α : Type} : List (Res (List α)) → Res (List α)
  | [] => .ok []
  | r :: l => r.bind fun a => (concat l).bind fun b => .ok (a ++ b)

/-- `Elasticity::printMaxVals` (Elasticity/Elasticity.C:1030-1062). -/
def printMaxVals [Zero K] [DecidableEq K] (c : Cfg) (t : List (List (PtVal X K))) (comp : Nat) : Res (List (Line X K)) :=
  if comp > t.length then .ok []
  else if comp > 0 then fieldLines c t (comp - 1)
  else concat ((List.range t.length).map (fieldLines c t))

/-- `Elasticity::initMaxVals` (Elasticity/Elasticity.C:1011-1028): the table and the value returned. -/
def initMaxVals [Zero K] (c : Cfg) (x0 : X) (t : List (List (PtVal X K))) (nP : Nat) : List (List (PtVal X K)) × Bool :=
  if t.length > 0 then (resetMax x0 t, nP == 1)
  else if nP > 0 then (allocMax x0 (getNoFields c 2) nP, false)
  else (t, false)

/-- The request for extreme values: on the command line (not, for all patches together, or per patch), and as `print_max` in the input file together with the configuration known when it is read. -/
structure Ask where
  cmd : Option Bool
  input : Option (Cfg × Bool)

/-- What is decided before the first step of a nonlinear analysis of continuum elements in `np` patches: `print_max` in the input file (Elasticity/SIMElasticity.C:667-674), the command line option
(main_NonLinEl.C:112-119) and the options of visualization and projection (Elasticity/NonlinearDriver.C:242-249). The table, and the flags `printMax` and `getMaxVals`. -/
def setup [Zero K] (a : Ask) (c : Cfg) (x0 : X) (np : Nat) (vtf pSolOnly doProject : Bool) : List (List (PtVal X K)) × Bool × Bool :=
  let t : List (List (PtVal X K)) := match a.input with
    | some (c0, pch) => (initMaxVals c0 x0 [] (if pch then np else 1)).1
    | none => []
  let t := match a.cmd with
    | some pch => (initMaxVals c x0 t (if pch then np else 1)).1
    | none => t
  let printMax := a.cmd.isSome
  let getMaxVals := (vtf && !pSolOnly) || doProject
  if getMaxVals && !printMax then
    let r := initMaxVals c x0 t 1
    (r.1, r.2, getMaxVals)
  else (t, printMax, getMaxVals)

/-- The evaluations of the library functions in a step: projection, results in points, visualization, projected results in the visualization points, evaluation of the results without saving them. -/
structure Evals (X K : Type) where
  project : List (Ev X K)
  points : List (Ev X K)
  visual : List (Ev X K)
  projected : List (Ev X K)
  second : List (Ev X K)

/-- What happens with the results of a step (Elasticity/NonlinearDriver.C:322-428): `saved` if the results are saved in this step. The evaluations for other files do not count (lines 401, 417).
The projected results are the first of the projection vectors, of which there is none without projection (main_NonLinEl.C:137). -/
def stepEvents (vtf pSolOnly doProject adap saved getMaxVals : Bool) (e : Evals X K) : Res (List (Ev X K)) :=
  let h := (if doProject then .mode .recovery :: e.project else [])
    ++ (if adap then [.mode .norms] else [])
    ++ .mode .recovery :: e.points
  if saved then .ok (h ++ (if vtf then (if pSolOnly then [] else e.visual) ++ (if doProject then e.projected else []) else []))
  else if getMaxVals then (if doProject then .ok (h ++ e.second ++ e.projected) else .ub)
  else .ok h

/-- The lines printed after a step (Elasticity/NonlinearDriver.C:430-440) by the first process. -/
def report [Zero K] [DecidableEq K] (c : Cfg) (t : List (List (PtVal X K))) (printMax getMaxVals : Bool) : Res (List (Line X K)) :=
  if printMax then printMaxVals c t 0
  else if getMaxVals then
    let id := getNoFields c 3 + 1
    concat [printMaxVals c t id, printMaxVals c t (id + 1), printMaxVals c t (id + 6), printMaxVals c t (id + 7)]
  else .ok []

/-- The lines printed in linear analysis (main_LinEl.C:600-605). -/
def reportLin [Zero K] [DecidableEq K] (c : Cfg) (t : List (List (PtVal X K))) : Res (List (Line X K)) :=
  concat ((List.range (getNoFields c 3 + 1)).map fun j => printMaxVals c t (j + 1))

end Verif.MaxPrint
