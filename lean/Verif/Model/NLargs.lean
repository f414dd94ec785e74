/-
Model of the formulation settings of the finite deformation program: NLargs.C (command
line and input file), the use of the resulting list in FiniteDeformation/SIMFiniteDefEl.C
and FiniteDeformation/NLoptions.C, and the stop-time/model-check options of
main_NonLinEl.C.

Tokens are lists of characters, as in `Verif.MainLinEl`.
-/
import Verif.Model.MainLinEl

namespace Verif.NLargs

open Verif.MainLinEl (Str eqs pre)

/-- The formulation numbers; FiniteDeformation/NLoptions.h:22-30 and IFEM's SIMenums.h
(`LINEAR` = 1, `NONLINEAR` = 2, `NONE` = 0). -/
def LINEAR : Int := 1
def NONLINEAR : Int := 2
def TOTAL_LAGRANGE : Int := 3
def UPDATED_LAGRANGE : Int := 4
def MIXED_QnPn1 : Int := 5
def MIXED_QnQn1 : Int := 6
def FBAR : Int := 7

/-- `NLargs::setFormulation`; NLargs.C:168-187. -/
def setFormulation (opt : List Int) (form pOrd : Int) : List Int :=
  let opt :=
    if 0 ≤ form then
      match opt with
      | [] => [form]
      | _ :: r => form :: r
    else opt
  if 0 ≤ pOrd then
    match opt with
    | [] => [0, pOrd]
    | [f] => [f, pOrd]
    | f :: _ :: r => f :: pOrd :: r
  else opt

/-- `atoi` on a token starting with a digit: the value of the leading digits. -/
def atoiFrom (acc : Int) : Str → Int
  | [] => acc
  | c :: s => if c.isDigit then atoiFrom (10 * acc + (c.toNat - '0'.toNat : Nat)) s else acc

/-- The order given with a token, after a prefix of `n` characters: minus one if there
is none; NLargs.C:60-61 and 76-77. -/
def orderAfter (n : Nat) (t : Str) : Int :=
  match t.drop n with
  | [] => -1
  | c :: s => if c.isDigit then atoiFrom 0 (c :: s) else -1

/-- The time integration drivers; NLargs.h:22. -/
inductive Algor where
  | arclen | static | genAlpha | oldHHT | newHHT
  deriving DecidableEq, Repr

/-- The settings of the argument class; NLargs.h:44-50, together with the dimension and the
globals set along with it. -/
structure St where
  options : List Int := []
  algor : Algor := .static
  dim : Nat := 3
  planeStrain : Bool := false
  axi : Bool := false
  reduced : Option Bool := none   -- ASMmxBase::Type set to FULL (false) / REDUCED (true)
  deriving DecidableEq, Repr

/-- `NLargs::parseArg`; NLargs.C:24-94.  `none` means that the token is left to
`SIMargsBase::parseArg`.  The print and check flags have no effect on the formulation. -/
def parseArg (t : Str) (s : St) : Option St :=
  let fin (s : St) (form pOrd : Int) : Option St :=
    some { s with options := setFormulation s.options form pOrd }
  if eqs "-printMax" t || eqs "-printMaxPatch" t || pre "-dumpNod" t || eqs "-checkRHS" t
      || eqs "-fixDup" t then fin s (-1) (-1)
  else if pre "-2Dpstra" t then fin { s with dim := 2, planeStrain := true } (-1) (-1)
  else if pre "-2Daxi" t then fin { s with dim := 2, axi := true } (-1) (-1)
  else if eqs "-linear" t then fin s LINEAR (-1)
  else if eqs "-UL" t then fin s UPDATED_LAGRANGE (-1)
  else if pre "-MX" t then fin s MIXED_QnPn1 (orderAfter 3 t)
  else if eqs "-Mixed" t then fin { s with reduced := some false } MIXED_QnQn1 (-1)
  else if eqs "-mixed" t then fin { s with reduced := some true } MIXED_QnQn1 (-1)
  else if pre "-Fbar" t then fin s FBAR (orderAfter 5 t)
  else if eqs "-Tensor" t then fin s NONLINEAR (-1)
  else if eqs "-GA" t then fin { s with algor := .genAlpha } (-1) (-1)
  else if eqs "-oldHHT" t then fin { s with algor := .oldHHT } (-1) (-1)
  else if eqs "-HHT" t then fin { s with algor := .newHHT } (-1) (-1)
  else if eqs "-arclen" t then fin { s with algor := .arclen } (-1) (-1)
  else none

/-- The children of the `formulation` element that matter; NLargs.C:130-163.  Tag names are
compared without regard to case. -/
inductive Child where
  | planeStrain
  | axisymmetric
  | totalLagrange
  | updatedLagrange
  | linear
  /-- `<mixed type="...">order</mixed>`: the number read by `atoi`, if there is a text. -/
  | mixed (order : Option Int) (type : String)
  | other
  deriving DecidableEq, Repr

/-- The local variables of `parseFormulation` and the globals it sets. -/
structure PF where
  form : Int := -1
  pOrd : Int := -1
  planeStrain : Bool
  axi : Bool
  reduced : Option Bool

/-- One child; NLargs.C:131-163. -/
def childStep (dim : Nat) (p : PF) : Child → PF
  | .planeStrain => { p with planeStrain := dim == 2 }
  | .axisymmetric => { p with axi := dim == 2 }
  | .totalLagrange => { p with form := TOTAL_LAGRANGE }
  | .updatedLagrange =>
    if p.form < UPDATED_LAGRANGE then { p with form := UPDATED_LAGRANGE } else p
  | .linear => { p with form := LINEAR }
  | .mixed order type =>
    let p := match order with
      | some n => { p with pOrd := n }
      | none => p
    if type = "Qp/Pp-1" then { p with form := MIXED_QnPn1 }
    else if type = "Qp/Qp-1" then
      { p with form := MIXED_QnQn1, reduced := some (!decide (p.pOrd = 1)) }
    else if type = "Fbar" then { p with form := FBAR }
    else if type = "Tensor" then { p with form := NONLINEAR }
    else p
  | .other => p

/-- `NLargs::parseFormulation`; NLargs.C:124-165. -/
def parseFormulation (cs : List Child) (s : St) : St :=
  let p := cs.foldl (childStep s.dim)
    { planeStrain := s.planeStrain, axi := s.axi, reduced := s.reduced }
  { s with options := setFormulation s.options p.form p.pOrd,
           planeStrain := p.planeStrain, axi := p.axi, reduced := p.reduced }

/-- The top-level elements that matter; NLargs.C:97-121. -/
inductive Elem where
  | finiteDeformation (formulation : Option (List Child))
  | nonlinearSolver (hasArclen : Bool)
  | newmarkSolver (version : String)
  | other

/-- `std::string::find(sub) != npos`. -/
def hasText (sub s : String) : Bool :=
  s.toList.tails.any fun u => sub.toList.isPrefixOf u

/-- `NLargs::parse`; NLargs.C:97-121.  The dimension set by `SIMargsBase::parse` afterwards is
left out. -/
def parse (e : Elem) (s : St) : St :=
  match e with
  | .finiteDeformation (some cs) => parseFormulation cs s
  | .finiteDeformation none => s
  | .nonlinearSolver true => { s with algor := .arclen }
  | .nonlinearSolver false => s
  | .newmarkSolver v =>
    if hasText "alpha" v then { s with algor := .genAlpha }
    else if hasText "old" v then { s with algor := .oldHHT }
    else { s with algor := .newHHT }
  | .other => s

/-! ## Use of the option list -/

/-- The formulation and order used by the model; FiniteDeformation/SIMFiniteDefEl.C:37-39. -/
def nlo (opt : List Int) : Int × Int :=
  (match opt with
   | [] => TOTAL_LAGRANGE
   | f :: _ => f,
   match opt with
   | _ :: p :: _ => p
   | _ => 0)

/-- The integrands; FiniteDeformation/NLoptions.C:24-59. -/
inductive Integrand where
  | fbar (nvp : Int) | ulMixed | ulMX (p : Int) | ul | tl | tensor | linear
  deriving DecidableEq, Repr

/-- `NLoptions::getIntegrand`; FiniteDeformation/NLoptions.C:24-59. -/
def getIntegrand (f : Int × Int) : Option Integrand :=
  if f.1 = FBAR then some (.fbar f.2)
  else if f.1 = MIXED_QnQn1 then some .ulMixed
  else if f.1 = MIXED_QnPn1 then some (.ulMX f.2)
  else if f.1 = UPDATED_LAGRANGE then some .ul
  else if f.1 = TOTAL_LAGRANGE then some .tl
  else if f.1 = NONLINEAR then some .tensor
  else if f.1 = LINEAR then some .linear
  else none

/-! ## The stop time and the model check -/

/-- The part of the option loop of main_NonLinEl.C that sets the stop time;
main_NonLinEl.C:308-311.  `-stopTime` with a value and `-check` write the same variable. -/
inductive TimeOpt where
  | stopTime (t : Int)
  | check
  deriving DecidableEq, Repr

/-- The variable `stopTime` after the options, in order. -/
def stopTime (ts : List TimeOpt) : Int :=
  ts.foldl (fun _ o => match o with
    | .stopTime t => t
    | .check => -1) 0

/-- `runSimulator` saves the model only, and solves nothing, if the stop time is negative;
main_NonLinEl.C:108-110, 209-210. -/
def solves (t : Int) : Bool := !decide (t < 0)

/-- The stop time given to the simulator; main_NonLinEl.C:75-76. -/
def stopTimeUsed (t : Int) : Option Int := if 0 < t then some t else none

end Verif.NLargs
