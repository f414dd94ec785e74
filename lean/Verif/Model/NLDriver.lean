/-
Model of parts of the nonlinear driver, Elasticity/NonlinearDriver.C: options of the input, initial state, transfer of the solution to a refined mesh, and the
extreme values of each step.
-/
import Verif.Model.Norms

namespace Verif.NLDriver

/-! ### Mesh refinement -/

variable {K : Type}

/-- `SIMbase::injectPatchSolution` of the library: the values of a patch are put at the equations `dofs` of the model. -/
def inject [Zero K] (n : Nat) (g : List K) (l : List K) (dofs : List Nat) : List K :=
  (List.range n).map fun d => match (dofs.zip l).find? (fun q => q.1 = d) with
    | some q => q.2
    | none => g.getD d 0

/-- What the library and the operating system return in `adaptMesh`. -/
structure Refined (K : Type) where
  ierr : Int
  refineOk : Bool
  readOk : Bool
  preprocOk : Bool
  initOk : Bool
  saveOk : Bool
  /-- Solution vectors after `refine`: for each patch the vectors of it, interpolated on the new mesh. -/
  patches : List (List (List K))
  /-- Equation numbers of each patch in the new model, and their total number. -/
  dofs : List (List Nat)
  n : Nat

/-- The members that take part: solution vectors, count of refinements. -/
structure St (K : Type) where
  sol : List (List K)
  aStep : Nat

/-- `soli` (Elasticity/NonlinearDriver.C:497-500). -/
def soli [Zero K] (r : Refined K) (nsol : Nat) : List (List K) :=
  (List.range nsol).map fun i => (r.patches.zip r.dofs).foldl (fun g pd => inject r.n g (pd.1.getD i []) pd.2) (List.replicate r.n 0)

/-- `NonlinearDriver::adaptMesh` (Elasticity/NonlinearDriver.C:459-507). `refine` replaces the solution vectors by those of the patches, one after the other; the vectors of the
new model, `soli`, are a local variable that is not used any further. -/
def adaptMesh [Zero K] (adap : Bool) (format : Int) (r : Refined K) (s : St K) : Bool × St K :=
  if adap = false then (true, s)
  else if r.ierr < 0 then (false, s)
  else if r.ierr = 0 then (true, s)
  else
    let s' : St K := ⟨r.patches.flatten, s.aStep + 1⟩
    if r.refineOk = false ∨ r.readOk = false then (false, s')
    else if r.preprocOk = false then (false, s')
    else if r.initOk = false then (false, s')
    else if format < 0 then (true, s')
    else (r.saveOk, s')

/-! ### Options and the initial state -/

/-- Children of the post-processing tag of the input. -/
inductive Tag
  | direct2nd | saveNewElms0 | skipInit
  /-- Result points, with or without a grid. -/
  | points (grid : Bool)
  | other
  deriving DecidableEq, Repr

/-- `opt.pSolOnly`, `saveE0` and `save0`. -/
structure Opt where
  pSolOnly : Bool
  saveE0 : Bool
  save0 : Bool
  deriving DecidableEq, Repr

/-- `NonlinearDriver::parse` for the post-processing tag (Elasticity/NonlinearDriver.C:91-107). -/
def parseTag (o : Opt) : Tag → Opt
  | .direct2nd => { o with pSolOnly := false }
  | .saveNewElms0 => { o with saveE0 := true }
  | .skipInit => { o with save0 := false }
  | .points true => { o with save0 := false }
  | .points false => o
  | .other => o

/-- Saving of the initial state (Elasticity/NonlinearDriver.C:251-261): return code and the number of the last result step. -/
def saveInit [LT K] [Zero K] [DecidableLT K] (format : Int) (o : Opt) (multi : Bool) (dt : K) (modelOk stepOk : Bool) : Option Nat × Nat :=
  if 0 ≤ format then
    if modelOk = false then (some 4, 0)
    else if o.save0 = true ∧ multi = true ∧ 0 < dt then
      if stepOk = false then (some 4, 1) else (none, 1)
    else (none, 0)
  else (none, 0)

/-! ### Extreme values of each step -/

/-- Formulations by the class they derive from. -/
inductive Form
  | linear | ul | tl
  deriving DecidableEq, Repr

/-- Solution modes in the order of the library type. -/
inductive Mode
  | static | rhsOnly | recovery | norms
  deriving DecidableEq, Repr

/-- Events in the life of an integrand: a change of mode, or the evaluation of the results in a point. -/
inductive Ev (X K : Type)
  | mode (m : Mode)
  | eval (patch : Nat) (x : X) (s : List K)

/-- Does the change of mode reset the extreme values? `LinearElasticity::setMode` (Elasticity/LinearElasticity.C:78-79), `NonlinearElasticityUL::setMode`
(FiniteDeformation/NonlinearElasticityUL.C:52-53); `NonlinearElasticityTL::setMode` (FiniteDeformation/NonlinearElasticityTL.C:48-57) and the base class do not. -/
def resets : Form → Mode → Mode → Bool
  | .linear, cur, m => (m == .recovery || m == .norms) && cur != m
  | .ul, cur, m => m == .recovery && cur != m
  | .tl, _, _ => false

/-- One event: mode and table of extreme values. -/
def step {X : Type} [Field K] [LinearOrder K] (f : Form) (x0 : X) (s : Mode × List (List (Norms.PtVal X K))) : Ev X K → Mode × List (List (Norms.PtVal X K))
  | .mode m => (m, if resets f s.1 m then Norms.resetMax x0 s.2 else s.2)
  | .eval p x v => (s.1, Norms.evalMax p x v s.2)

/-- A history of events. -/
def run {X : Type} [Field K] [LinearOrder K] (f : Form) (x0 : X) (s : Mode × List (List (Norms.PtVal X K))) (h : List (Ev X K)) :
    Mode × List (List (Norms.PtVal X K)) := h.foldl (step f x0) s

end Verif.NLDriver
