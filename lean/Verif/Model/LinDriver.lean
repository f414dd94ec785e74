/-
The driver of linear solid models: Linear/SIMLinEl.h, SIMLinEl2D.C, SIMLinEl3D.C, and the wrapper for coupled solvers Elasticity/SIMElasticityWrap.C.
-/
import Verif.Basic
import Verif.Model.FileNames
import Mathlib.Data.List.Sort

namespace Verif.LinDriver

/-! ### Static condensation -/

/-- Children of the input section of the model. -/
inductive Tag
  | condensation (i : Nat)
  | superelement (id : Option String)
  | other
deriving DecidableEq, Repr

/-- Selection of the superelement (Linear/SIMLinEl.h:292-306): `none` if the section is ignored, otherwise the delayed tag. -/
def select (supSC : String) : List Tag → Option Nat → Option (Option Nat)
  | [], sc => some sc
  | .condensation i :: ts, _ => select supSC ts (some i)
  | .superelement (some id) :: ts, sc => if supSC ≠ "" ∧ id ≠ supSC then none else select supSC ts sc
  | .superelement none :: ts, sc => select supSC ts sc
  | .other :: ts, sc => select supSC ts sc

/-- Name of the recovery file (Linear/SIMLinEl.h:264-272). -/
def recFile (name : List Char) : List Char :=
  match FileNames.lastDot name with
  | some i => name.take i ++ ".rec".toList
  | none => name ++ ".rec".toList

/-- Collection of the retained topology items (Linear/SIMLinEl.h:274-289): items of an undefined set are none. Assumption: `TopEntity` is a set. -/
def retainSet {T : Type} [DecidableEq T] (entity : String → List T) (sets : List String) (old : List T) : List T :=
  sets.foldl (fun s n => s ++ (entity n).filter fun t => decide (t ∉ s)) old

/-- Collection of the retained nodes in `SIMLinEl::preprocessB` (Linear/SIMLinEl.h:339-345): IFEM assumption is that `getTopItemNodes` appends the nodes of an item to the list and returns
false for an invalid one. -/
def collect {T : Type} (nodes : T → Option (List Nat)) : List T → List Nat → List Nat × Bool
  | [], l => (l, true)
  | t :: ts, l =>
    match nodes t with
    | some n => collect nodes ts (l ++ n)
    | none => ((collect nodes ts l).1, false)

/-- `SIMLinEl::preprocessB` (Linear/SIMLinEl.h:334-356): the retained nodes are sorted if all items are valid. -/
def preprocessB {T : Type} (base : Bool) (nodes : T → Option (List Nat)) (items : List T) (old : List Nat) : List Nat × Bool :=
  if base then
    let r := collect nodes items old
    if r.2 then (r.1.mergeSort (fun a b => decide (a ≤ b)), true) else (r.1, false)
  else (old, false)

/-- State of the recovery: contents of the recovery file and the matrix in memory. -/
structure Rec (M : Type) where
  file : Option M
  mem : Option M

/-- `SIMLinEl::staticCondensation` (Linear/SIMLinEl.h:128-140). IFEM assumption: the recovery matrix of the current equation system is written to the file. -/
def condense {M : Type} (R : M) (s : Rec M) : Rec M := { s with file := some R }

/-- `SIMLinEl::recoverInternals` (Linear/SIMLinEl.h:145-151): the matrix used. -/
def recover {M : Type} (s : Rec M) : Option M × Rec M :=
  match s.mem with
  | some R => (some R, s)
  | none => match s.file with
    | some R => (some R, { s with mem := some R })
    | none => (none, s)

/-! ### Reaction forces -/

/-- Printed reactions of `SIMLinEl::solveSystem` (Linear/SIMLinEl.h:87-109): forces by section, only those above the tolerance `small`, and the total. -/
structure Printed (K : Type) where
  single : Option (List K)
  sections : List (Nat × List K)
  total : Option (List K)

/-- `Vector::add`. -/
def vadd {K : Type} [Add K] (a b : List K) : List K := List.zipWith (· + ·) a b

/-- See `Printed`. The list of forces is not empty (Elasticity/SIMElasticity.C:258-260). -/
def printReactions {K : Type} [Add K] (small : List K → Bool) : List (List K) → Printed K
  | [] => ⟨none, [], none⟩
  | [f] => ⟨some f, [], none⟩
  | f :: g :: fs => ⟨none, ((f :: g :: fs).mapIdx fun i r => (i + 1, r)).filter (fun p => !small p.2), some ((g :: fs).foldl vadd f)⟩

/-- `SIMLinEl::solveSystem` (Linear/SIMLinEl.h:71-117): status and if the reactions are printed, for the outcomes of the solver, of the assembly of forces and of `getBoundaryReactions`. -/
def solveSystem (solved : Bool) (idxRHS : Nat) (haveRF forces react : Bool) : Bool × Bool :=
  if !solved then (false, false)
  else if idxRHS > 0 || !haveRF then (true, false)
  else (forces, forces && react)

/-! ### Analytical solutions -/

/-- Analytical solutions of linear solids, with the parameters of the constructors. -/
inductive Ana (K : Type)
  | expression
  | hole (a F0 nu : K) (is3D : Bool)
  | lshape (a F0 nu : K) (is3D : Bool)
  | cants (L H F0 : K) (is3D : Bool)
  | cantm (H M0 : K)
  | curved (u0 a b E : K)
  | pipe (Ri Ro Ti To T0 E nu alpha : K) (is3D polar : Bool)
deriving DecidableEq, Repr

/-- Material data: stiffness, Poisson's ratio, thermal expansion. -/
structure Mat (K : Type) where
  E : K
  nu : K
  alpha : K

section
variable {K : Type} [Zero K]

/-- `parseDimSpecific` for XML input (Linear/SIMLinEl2D.C:78-159, Linear/SIMLinEl3D.C:58-116); `none` for an unknown type. There is no check for a material. -/
def dimXML (is3D : Bool) (mat : Option (Mat K)) (T273 : K) (polar : Bool) (att : String → Option K) (type : String) : Res (Option (Ana K)) :=
  let g := fun n => (att n).getD 0
  if type = "hole" then
    match mat with
    | some m => .ok (some (.hole (g "a") (g "F0") m.nu is3D))
    | none => .ub
  else if type = "lshape" then
    match mat with
    | some m => .ok (some (.lshape (g "a") (g "F0") m.nu is3D))
    | none => .ub
  else if type = "cants" then .ok (some (.cants (g "L") (g "H") (g "F0") is3D))
  else if type = "cantm" ∧ is3D = false then .ok (some (.cantm (g "H") (g "M0")))
  else if type = "curved" ∧ is3D = false then
    match mat with
    | some m => .ok (some (.curved (g "u0") (g "a") (g "b") m.E))
    | none => .ub
  else if type = "pipe" then
    match mat with
    | some m => .ok (some (.pipe (g "Ri") (g "Ro") (g "Ti") (g "To") ((att "Tref").getD T273) m.E m.nu m.alpha is3D polar))
    | none => .ub
  else .ok none

/-- `parseDimSpecific` for text input (Linear/SIMLinEl2D.C:19-75, Linear/SIMLinEl3D.C:19-55), for the keyword in upper case without trailing characters, and the numbers on the rest of the line: the
solution and the remaining numbers. A missing number is a null pointer for `atof`. -/
def dimText (is3D : Bool) (mat : Option (Mat K)) (key : String) (nums : List K) : Res (Option (Ana K) × List K) :=
  if key = "HOLE" then
    match nums, mat with
    | a :: F0 :: r, some m => .ok (some (.hole a F0 m.nu is3D), r)
    | _, _ => .ub
  else if key = "LSHAPE" then
    match nums, mat with
    | a :: F0 :: r, some m => .ok (some (.lshape a F0 m.nu is3D), r)
    | _, _ => .ub
  else if key = "CANTS" then
    match nums with
    | L :: H :: F0 :: r => .ok (some (.cants L H F0 is3D), r)
    | _ => .ub
  else if key = "CANTM" ∧ is3D = false then
    match nums with
    | H :: M0 :: r => .ok (some (.cantm H M0), r)
    | _ => .ub
  else if key = "CURVED" ∧ is3D = false then
    match nums, mat with
    | a :: b :: u0 :: r, some m => .ok (some (.curved u0 a b m.E), r)
    | _, _ => .ub
  else .ok (none, nums)

/-- State of the input: analytical solution, and boundary codes with analytical tractions. -/
structure AnaState (K : Type) where
  sol : Option (Ana K)
  tracs : List Nat

/-- Whether a solution has stresses: expressions only if `exprStress`. -/
def hasStress (exprStress : Bool) : Ana K → Bool
  | .expression => exprStress
  | _ => true

/-- `SIMLinEl::parseAnaSol` for XML input (Linear/SIMLinEl.h:222-254). -/
def parseXML (is3D : Bool) (mat : Option (Mat K)) (T273 : K) (polar exprStress : Bool) (att : String → Option K) (type : String) (code : Nat) (s : AnaState K) : Res (AnaState K) :=
  let fin := fun s : AnaState K => match s.sol with
    | some a => if code > 0 ∧ hasStress exprStress a = true then { s with tracs := code :: s.tracs } else s
    | none => s
  if type = "expression" ∨ type = "fields" then .ok (fin { s with sol := s.sol.or (some .expression) })
  else match dimXML is3D mat T273 polar att type with
    | .ok (some a) => .ok (fin { s with sol := s.sol.or (some a) })
    | .ok none => .ok s
    | .fail => .fail
    | .ub => .ub

/-- `SIMLinEl::parseAnaSol` for text input (Linear/SIMLinEl.h:188-219), for solutions given by a name: the next number after the parameters is the code. -/
def parseText (is3D : Bool) (mat : Option (Mat K)) (toNat : K → Nat) (exprStress : Bool) (key : Option String) (nums : List K) (s : AnaState K) : Res (AnaState K) :=
  match key with
  | none => .ub
  | some key => match dimText is3D mat key nums with
    | .ok (some a, r) =>
      let s := { s with sol := s.sol.or (some a) }
      let code := match r with
        | c :: _ => toNat c
        | [] => 0
      match s.sol with
      | some a => .ok (if code > 0 ∧ hasStress exprStress a = true then { s with tracs := code :: s.tracs } else s)
      | none => .ub
    | .ok (none, _) => .ok s
    | .fail => .fail
    | .ub => .ub

end

/-! ### The wrapper for coupled solvers -/

/-- Contents of a restart file. -/
abbrev Data (D : Type) := String → Option D

/-- Assignment of an entry. -/
def Data.put {D : Type} (d : Data D) (k : String) (v : D) : Data D := fun x => if x = k then some v else d x

/-- State of the solver: name, solution vectors and external energy. -/
structure Sol (V : Type) where
  name : String
  vecs : List V
  ext : V

/-- `saveSolution` (IFEM assumption): vector number i is stored under the name with the number. -/
def saveSolution {V : Type} (key : String → Nat → String) (s : Sol V) (d : Data V) : Data V :=
  (List.range s.vecs.length).foldl (fun d i => match s.vecs[i]? with
    | some v => d.put (key s.name i) v
    | none => d) d

/-- `restoreSolution` (IFEM assumption): all vectors are read, or nothing is. -/
def restoreSolution {V : Type} (key : String → Nat → String) (n : Nat) (name : String) (d : Data V) : Option (List V) :=
  (List.range n).mapM fun i => d (key name i)

/-- `SIMElasticityWrap::serialize` without the basis (Elasticity/SIMElasticityWrap.C:67-76). -/
def serialize {V : Type} (key : String → Nat → String) (s : Sol V) (d : Data V) : Data V :=
  (saveSolution key s d).put "Elasticity::Eext" s.ext

/-- `SIMElasticityWrap::deSerialize` (Elasticity/SIMElasticityWrap.C:79-90). -/
def deSerialize {V : Type} (key : String → Nat → String) (s : Sol V) (d : Data V) : Option (Sol V) :=
  (restoreSolution key s.vecs.length s.name d).map fun v => { s with vecs := v, ext := (d "Elasticity::Eext").getD s.ext }

/-- `SIMElasticityWrap::saveStep` (Elasticity/SIMElasticityWrap.C:53-64): number of the saved state, if the step is saved. -/
def saveStep (format : Int) (saveInc step : Nat) : Res (Option Nat) :=
  if format < 0 then .ok none
  else if saveInc = 0 then .ub
  else if step % saveInc > 0 then .ok none
  else .ok (some (1 + step / saveInc))

/-- `SIMElasticityWrap::advanceStep` (Elasticity/SIMElasticityWrap.C:111-116). IFEM assumption: `pushSolution` copies each vector to the next, and keeps the first. -/
def push {V : Type} : List V → List V
  | [] => []
  | v :: vs => v :: (v :: vs).dropLast

end Verif.LinDriver
