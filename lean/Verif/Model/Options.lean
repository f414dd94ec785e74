/-
Model of the command lines of the nonlinear and of the shell program (main_NonLinEl.C, main_ShellEl.C), and of the settings derived from them.

The options handled by the library (`SIMoptions::ignoreOldOptions`) and by the class of common arguments (`NLargs::parseArg`, modelled in `NLargs.lean`) are given by a function: it tells if
an argument is such an option and how many further arguments belong to it, which depends on the arguments only, and how the settings change. The conversions `atof`, `atoi` and
`utl::parseIntegers` are given functions. The options `-dbgElm`, which exists in builds without threads only, is left out.
-/
import Mathlib.Algebra.Field.Basic
import Verif.Basic

namespace Verif.Options

/-- A command line argument. -/
abbrev Str := List Char

/-- The functions of the libraries: number of further arguments of a library option, its effect on the settings of type `S`, reading of the input file, conversions. -/
structure Lib (S K : Type) where
  len : Str → List Str → Option Nat
  eff : Str → List Str → S → S
  readXML : Str → S → Option S
  atof : Str → K
  atoi : Str → Int
  ints : Str → List Int

/-- The settings of the programs (main_NonLinEl.C:269-275, main_ShellEl.C:134-139). The two of the shell program only are `arclen` and `adaptiv`. -/
structure Opt (S K : Type) where
  outPrec : Int
  ztol : K
  dtDump : K
  stopTime : K
  ignored : List Int
  off : Fin 3 → K
  free : Bool
  arclen : Bool
  adaptiv : Bool
  lib : S

variable {S K : Type} [Field K]

/-- `isdigit(argv[i+1][0])`. -/
def digit0 (t : Str) : Bool :=
  match t with
  | c :: _ => c.isDigit
  | [] => false

/-- Number of arguments that start with a digit. -/
def countDigits : List Str → Nat
  | [] => 0
  | t :: l => if digit0 t then countDigits l + 1 else 0

/-- An option with one value; at the end of the command line it is no option, `i < argc-1`. -/
def val1 (rest : List Str) (f : Str → Opt S K) : Option (Opt S K × Nat) :=
  match rest with
  | v :: _ => some (f v, 1)
  | [] => none

/-- The option `-dumpInc` with its one or two values (main_NonLinEl.C:288-295). -/
def dumpInc (L : Lib S K) (rest : List Str) (o : Opt S K) : Option (Opt S K × Nat) :=
  match rest with
  | v :: w :: _ => if w = "raw".toList then some ({ o with dtDump := L.atof v * (-1) }, 2) else some ({ o with dtDump := L.atof v }, 1)
  | [v] => some ({ o with dtDump := L.atof v }, 1)
  | [] => none

/-- The tests of the nonlinear program for an argument and those following it: the new settings and the number of further arguments used, `none` if it is not an option
(main_NonLinEl.C:280-317). -/
def stepNL (L : Lib S K) (t : Str) (rest : List Str) (o : Opt S K) : Option (Opt S K × Nat) :=
  match L.len t rest with
  | some n => some ({ o with lib := L.eff t rest o.lib }, n)
  | none =>
    if t = "-outPrec".toList then val1 rest fun v => { o with outPrec := L.atoi v }
    else if t = "-ztol".toList then val1 rest fun v => { o with ztol := L.atof v }
    else if t = "-dumpInc".toList then dumpInc L rest o
    else if t = "-ignore".toList then some ({ o with ignored := o.ignored ++ (rest.take (countDigits rest)).flatMap L.ints }, countDigits rest)
    else if t = "-vox".toList then val1 rest fun v => { o with off := fun j => if j = 0 then L.atof v else o.off j }
    else if t = "-voy".toList then val1 rest fun v => { o with off := fun j => if j = 1 then L.atof v else o.off j }
    else if t = "-voz".toList then val1 rest fun v => { o with off := fun j => if j = 2 then L.atof v else o.off j }
    else if t = "-free".toList then some ({ o with free := true }, 0)
    else if t = "-stopTime".toList then val1 rest fun v => { o with stopTime := L.atof v }
    else if t = "-check".toList then some ({ o with stopTime := -1 }, 0)
    else none

/-- The tests of the shell program (main_ShellEl.C:144-158). -/
def stepSh (L : Lib S K) (t : Str) (rest : List Str) (o : Opt S K) : Option (Opt S K × Nat) :=
  match L.len t rest with
  | some n => some ({ o with lib := L.eff t rest o.lib }, n)
  | none =>
    if t = "-outPrec".toList then val1 rest fun v => { o with outPrec := L.atoi v }
    else if t = "-ztol".toList then val1 rest fun v => { o with ztol := L.atof v }
    else if t = "-arclen".toList then some ({ o with arclen := true }, 0)
    else if "-adap".toList.isPrefixOf t then some ({ o with adaptiv := true }, 0)
    else if t = "-stopTime".toList then val1 rest fun v => { o with stopTime := L.atof v }
    else if t = "-check".toList then some ({ o with stopTime := -1 }, 0)
    else none

/-- The loop when the input file is known: `k` is its position, arguments come with their positions (main_NonLinEl.C:279-325). Unknown options are reported and ignored. -/
def loop2 (step : Str → List Str → Opt S K → Option (Opt S K × Nat)) (k : Nat) : List (Nat × Str) → Opt S K → Opt S K
  | [], o => o
  | (i, t) :: r, o =>
    if i = k then loop2 step k r o
    else match step t (r.map Prod.snd) o with
      | some (o', n) => loop2 step k (r.drop n) o'
      | none => loop2 step k r o
termination_by l => l.length
decreasing_by all_goals (simp; try omega)

/-- The end of the loop: a usage message, failure to read the input file, or a run with the position of the input file and the settings. -/
inductive End (S K : Type)
  | usage
  | error
  | run (k : Nat) (o : Opt S K)

/-- `strcasestr(a,".xinp")`. -/
def isXinp (t : Str) : Bool := decide (".xinp".toList <:+: t.map Char.toLower)

/-- The loop of the nonlinear program while the input file is not known (main_NonLinEl.C:279-325): the first argument which is not an option is the input file. After an XML file the loop starts over. -/
def loop1 (L : Lib S K) (all : List (Nat × Str)) : List (Nat × Str) → Opt S K → End S K
  | [], _ => .usage
  | (i, t) :: r, o =>
    match stepNL L t (r.map Prod.snd) o with
    | some (o', n) => loop1 L all (r.drop n) o'
    | none =>
      if isXinp t then
        match L.readXML t o.lib with
        | none => .error
        | some s => .run i (loop2 (stepNL L) i all { o with lib := s })
      else .run i (loop2 (stepNL L) i r o)
termination_by l => l.length
decreasing_by all_goals (simp; try omega)

/-- The loop of the shell program while the input file is not known (main_ShellEl.C:143-162). -/
def loopSh (L : Lib S K) : List (Nat × Str) → Opt S K → End S K
  | [], _ => .usage
  | (i, t) :: r, o =>
    match stepSh L t (r.map Prod.snd) o with
    | some (o', n) => loopSh L (r.drop n) o'
    | none => .run i (loop2 (stepSh L) i r o)
termination_by l => l.length
decreasing_by all_goals (simp; try omega)

/-- The settings before the loop (main_NonLinEl.C:269-275, main_ShellEl.C:134-139); the offsets of vectors are zero in the library. -/
def init (s : S) : Opt S K := ⟨3, 1 / 100000000, 0, 0, [], fun _ => 0, false, false, false, s⟩

/-- Positions of the arguments. -/
def number (l : List Str) : List (Nat × Str) := l.zipIdx.map fun p => (p.2, p.1)

/-- The command line of the nonlinear program, without the program name. -/
def scanNL (L : Lib S K) (s : S) (args : List Str) : End S K := loop1 L (number args) (number args) (init s)

/-- The command line of the shell program. -/
def scanSh (L : Lib S K) (s : S) (args : List Str) : End S K := loopSh L (number args) (init s)

/-! ### Derived settings -/

/-- The number of digits given to the simulator (main_NonLinEl.C:359-362); `dynamic` tells if the algorithm is a dynamic or arc-length one, `args.algor > STATIC`. -/
def precisionNL (outPrec : Int) (dynamic : Bool) : Int := if outPrec ≠ 3 then outPrec else if dynamic then 0 else outPrec

/-- The kinds of discretization in the order of the library enumeration `ASM::Discretization`, as far as they matter here. -/
inductive Disc
  | lagrange | spectral | spline | splineC1 | lrSpline
  deriving DecidableEq, Repr

/-- Is it less than `ASM::LRSpline`. -/
def Disc.belowLR : Disc → Bool
  | .lrSpline => false
  | _ => true

/-- Is it less than `ASM::Spline`. -/
def Disc.belowSpline : Disc → Bool
  | .lagrange => true
  | .spectral => true
  | _ => false

/-- Discretization and adaptivity of the nonlinear program (main_NonLinEl.C:345-348). -/
def discNL (d : Disc) (adap : Bool) : Disc × Bool :=
  if d = .spline ∧ adap = true then (.lrSpline, adap)
  else if d.belowLR then (d, false)
  else (d, adap)

/-- Discretization and adaptivity of the shell program (main_ShellEl.C:174-175). -/
def discSh (d : Disc) (adap : Bool) : Disc × Bool := if d.belowLR then (if adap then .lrSpline else .splineC1, adap) else (d, adap)

/-- The fields of the result data base: primary solution, velocity, acceleration, and secondary results with the primary solution or projected. -/
inductive OutField
  | primary | velocity | acceleration | secondary | projected | nodeMap | norms | elementMask
  deriving DecidableEq, Repr

/-- The fields written by the nonlinear program (main_NonLinEl.C:121-185): `file` tells if there is an HDF5 file asked for, and `proj` if there is a projection. Assumption on the library:
`dumpHDF5` is false if the name of the file is empty. -/
def hdf5 (d : Disc) (file proj pSolOnly nodeMap norms active dynamic : Bool) : List OutField :=
  if d.belowSpline = true ∨ file = false then []
  else [.primary]
    ++ (if !proj && !pSolOnly then [.secondary] else [])
    ++ (if nodeMap then [.nodeMap] else [])
    ++ (if norms then [.norms] else [])
    ++ (if active then [.elementMask] else [])
    ++ (if dynamic then [.velocity, .acceleration] else [])
    ++ (if proj then [.projected] else [])

/-- What is written when primary solution dumps are asked for (main_NonLinEl.C:91-106): the geometry, and the solution. -/
def dumps {K : Type} [LT K] [DecidableLT K] [Zero K] (dtDump stopTime : K) : Bool × Bool :=
  (decide (dtDump < 0), decide (dtDump < 0) && !decide (stopTime < 0))

/-- Position of the last dot, `find_last_of('.')`. -/
def lastDot (t : Str) : Option Nat :=
  match t with
  | [] => none
  | c :: r =>
    match lastDot r with
    | some n => some (n + 1)
    | none => if c = '.' then some 0 else none

/-- The name of the restart file without its extension (main_ShellEl.C:88-94, the same at main_NonLinEl.C:187-194): with no dot in the input file name the position given to `replace` is
beyond the end, and an exception ends the program. -/
def restartName (infile hdf5 : Str) : Res Str :=
  if hdf5 ≠ [] then .ok (hdf5 ++ "_restart".toList)
  else match lastDot infile with
    | some n => .ok (infile.take n ++ "_restart".toList)
    | none => .fail

/-- End of the token that `strtok(infile,".")` finds: leading dots are skipped, `none` if there is nothing else. -/
def tokenEnd (t : Str) : Option Nat :=
  let p := (t.takeWhile (· = '.')).length
  if p = t.length then none else some (p + ((t.drop p).takeWhile (· ≠ '.')).length)

/-- `strcat(strtok(infile,"."),ext)` in the memory of the input file name, which has room for `cap` characters (main_NonLinEl.C:94 and 102). Writing behind the memory, and a null token, are undefined. -/
def replaceExt (cap : Nat) (t ext : Str) : Res Str :=
  match tokenEnd t with
  | none => .ub
  | some q => if q + ext.length ≤ cap then .ok (t.take q ++ ext) else .ub

/-- The names of the files of primary solution dumps: the geometry file, and the solution file unless only the model is checked (main_NonLinEl.C:91-106). -/
def dumpFiles {K : Type} [LT K] [DecidableLT K] [Zero K] (dtDump stopTime : K) (infile : Str) : Res (List Str) :=
  if (dumps dtDump stopTime).1 then
    (replaceExt infile.length infile ".g2".toList).bind fun g =>
      if (dumps dtDump stopTime).2 then (replaceExt infile.length g ".sol".toList).bind fun f => .ok [g, f]
      else .ok [g]
  else .ok []

end Verif.Options
