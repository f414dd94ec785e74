/-
Model of the option handling and the choice of analysis in the linear elasticity
program (main_LinEl.C, with Elasticity/ElasticityArgs.C).

Command-line tokens are lists of characters.  `strcmp(a,b) == 0` is equality of
tokens and `strncmp(a,p,n) == 0`, with n the length of p, is "p is a prefix of a".
What the IFEM library does with a token (`SIMargsBase::parseArg`,
`SIMoptions::ignoreOldOptions`, `SIMargsBase::readXML`) is a parameter of the
model: it acts on the settings the library owns and on nothing else.
-/
import Verif.Basic

namespace Verif.MainLinEl

/-- A command-line token. -/
abbrev Str := List Char

/-- The settings shared with the IFEM library: `args.dim`, `args.adap`, `args.eig`
(Elasticity/ElasticityArgs.h:22-42, SIMargsBase) and `IFEM::getOptions().eig`. -/
structure LibSt where
  dim : Nat := 3
  adap : Int := 0
  eig : Int := 0
  optEig : Int := 0
  deriving DecidableEq, Repr

/-- The library's part of the option handling (not in this repository).
`arg` is `SIMargsBase::parseArg`: `none` if the token is not recognised.
`old` is `SIMoptions::ignoreOldOptions`: the number of following tokens it uses.
`xml` is `SIMargsBase::readXML` on the input file: `none` on failure. -/
structure Lib where
  arg : Str → LibSt → Option LibSt
  old : Str → List Str → LibSt → Option (Nat × LibSt)
  xml : Str → LibSt → Option LibSt

/-- The settings made by the program itself; main_LinEl.C:110-137.
Only those deciding which analysis is run and on which kind of model are kept;
print precision, tolerances, dump flags and file names for them are left out. -/
structure Opts where
  lib : LibSt := {}
  iop : Nat := 0
  supid : Option Str := none
  KLp : Bool := false
  isC1 : Bool := false
  shell : Bool := false
  planeStrain : Bool := false
  axi : Bool := false
  dual : Bool := false
  dyn : Option Char := none
  mlc : Bool := false
  noProj : Bool := false
  noErr : Bool := false
  deriving DecidableEq, Repr

/-- `!strncmp(a,p,strlen(p))`. -/
def pre (p : String) (a : Str) : Bool := p.toList.isPrefixOf a

/-- `!strcmp(a,s)`. -/
def eqs (s : String) (a : Str) : Bool := a == s.toList

/-- `ElasticityArgs::parseArg`; Elasticity/ElasticityArgs.C:19-33. -/
def parseArg (L : Lib) (t : Str) (s : LibSt) : Option LibSt :=
  match L.arg t s with
  | some s' => some s'
  | none =>
    if eqs "-sup" t then some { s with dim := 4 }
    else if eqs "-1D3D" t then some { s with dim := 13 }
    else if eqs "-1Dsup" t then some { s with dim := 14 }
    else none

/-- The first characters of the following tokens that satisfy a test, as the inner
`while (i < argc-1 && ...)` loops count them; main_LinEl.C:155-156,169-170. -/
def countWhile (p : Str → Bool) : List Str → Nat
  | [] => 0
  | t :: ts => if p t then countWhile p ts + 1 else 0

/-- `argv[i+1][0] != '-'`; the first character of an empty token is the terminating
null character. -/
def noDash (t : Str) : Bool :=
  match t with
  | [] => true
  | c :: _ => c != '-'

/-- `isdigit(argv[i+1][0])`. -/
def digit0 (t : Str) : Bool :=
  match t with
  | [] => false
  | c :: _ => c.isDigit

/-- The letter test of the `-vo` option: `tolower(argv[i][3]) - 'x'` in 0..2;
main_LinEl.C:173-175.  `t` has the prefix `-vo`, so index 3 is inside the token or
its terminating null. -/
def voAxis (t : Str) : Bool :=
  match t[3]? with
  | none => false
  | some c => ['x', 'y', 'z'].contains c.toLower

/-- One pass through the chain of tests for the token `t`, with the tokens `rest`
after it; main_LinEl.C:141-244.  The outcome is the new settings and the number
of following tokens used up, or `none` if no test applies.  Reading beyond the end
of a token is undefined behaviour: line 213 accepts every token starting with the
five characters `-1D2D` and then reads from index seven. -/
def step (L : Lib) (t : Str) (rest : List Str) (o : Opts) : Res (Option (Opts × Nat)) :=
  match parseArg L t o.lib with
  | some s => .ok (some ({ o with lib := s }, 0))
  | none =>
  match L.old t rest o.lib with
  | some (n, s) => .ok (some ({ o with lib := s }, n))
  | none =>
  if eqs "-printMax" t then .ok (some (o, 0))
  else if eqs "-printMaxPatch" t then .ok (some (o, 0))
  else if eqs "-dumpASC" t then .ok (some (o, 0))
  else if eqs "-dumpMatlab" t then .ok (some (o, countWhile noDash rest))
  else if pre "-dumpNod" t then .ok (some (o, 0))
  else if pre "-tracRes" t then .ok (some (o, 0))
  else if eqs "-outPrec" t && !rest.isEmpty then .ok (some (o, 1))
  else if eqs "-ztol" t && !rest.isEmpty then .ok (some (o, 1))
  else if eqs "-time" t && !rest.isEmpty then .ok (some (o, 1))
  else if eqs "-ignore" t then .ok (some (o, countWhile digit0 rest))
  else if pre "-vo" t && !rest.isEmpty then .ok (some (o, if voAxis t then 1 else 0))
  else if pre "-shrink" t && !rest.isEmpty then .ok (some (o, 1))
  else if eqs "-plotSC" t then .ok (some (o, 0))
  else if eqs "-free" t then .ok (some (o, 0))
  else if pre "-staticCond" t then
    match rest with
    | s :: _ => if noDash s then .ok (some ({ o with iop := 9, supid := some s }, 1))
                else .ok (some ({ o with iop := 9 }, 0))
    | [] => .ok (some ({ o with iop := 9 }, 0))
  else if eqs "-check" t then .ok (some ({ o with iop := 100 }, 0))
  else if eqs "-ignoreSol" t then .ok (some ({ o with iop := 200 }, 0))
  else if eqs "-RHSonly" t then .ok (some ({ o with iop := 210 }, 0))
  else if eqs "-checkRHS" t then .ok (some (o, 0))
  else if eqs "-vizRHS" t then .ok (some (o, 0))
  else if eqs "-fixDup" t then .ok (some (o, 0))
  else if eqs "-1DC1" t then
    .ok (some ({ o with lib := { o.lib with dim := 1 }, isC1 := true }, 0))
  else if eqs "-1DKL" t then
    .ok (some ({ o with lib := { o.lib with dim := 1 }, isC1 := true, KLp := true }, 0))
  else if pre "-2DKL" t then
    .ok (some ({ o with lib := { o.lib with dim := 2 }, isC1 := true, KLp := true,
                        shell := pre "shel" (t.drop 5) }, 0))
  else if pre "-1D2D" t then
    if t.length < 7 then .ub
    else .ok (some ({ o with lib := { o.lib with dim := 12 }, isC1 := true, KLp := true,
                             shell := pre "shel" (t.drop 7) }, 0))
  else if pre "-2Dpstra" t then
    .ok (some ({ o with lib := { o.lib with dim := 2 }, planeStrain := true }, 0))
  else if pre "-2Daxi" t then
    .ok (some ({ o with lib := { o.lib with dim := 2 }, axi := true }, 0))
  else if eqs "-strain" t then .ok (some (o, 0))
  else if pre "-noPrin" t then .ok (some (o, 0))
  else if pre "-noP" t then .ok (some ({ o with noProj := true }, 0))
  else if pre "-noE" t then .ok (some ({ o with noErr := true }, 0))
  else if pre "-dualadap" t then
    .ok (some ({ o with lib := { o.lib with adap := -2 }, dual := true }, 0))
  else if pre "-dual" t then .ok (some ({ o with dual := true }, 0))
  else if pre "-dyn" t then .ok (some ({ o with dyn := some 'd' }, 0))
  else if pre "-qstat" t then .ok (some ({ o with dyn := some 's' }, 0))
  else if pre "-mlc" t then .ok (some ({ o with mlc := true }, 0))
  else if eqs "-dumpModes" t then .ok (some (o, 0))
  else .ok none

/-- A token with its position in the argument list; the program compares pointers
(`argv[i] == infile`), which tells equal tokens at different positions apart. -/
abbrev Arg := Nat × Str

/-- The loop over the arguments once the input file is known; main_LinEl.C:141-244
with `infile` set.  The file itself is skipped, unknown tokens are reported and
ignored. -/
def pass2 (L : Lib) (infile : Nat) : List Arg → Opts → Res Opts
  | [], o => .ok o
  | (i, t) :: rest, o =>
    if i = infile then pass2 L infile rest o
    else
      match step L t (rest.map Prod.snd) o with
      | .ok (some (o', n)) => pass2 L infile (rest.drop n) o'
      | .ok none => pass2 L infile rest o
      | .fail => .fail
      | .ub => .ub
  termination_by l => l.length
  decreasing_by all_goals (simp only [List.length_drop, List.length_cons]; omega)

/-- Does the lower-cased token contain the text, `strcasestr(a,s)`. -/
def hasSub (s : String) (t : Str) : Bool :=
  (t.map Char.toLower).tails.any fun u => s.toList.isPrefixOf u

/-- How the option loop ends: with a usage message, an error return or the settings
of a run, and the position of the input file (`none` for the temporary file written
for a single geometry file, main_LinEl.C:258-281). -/
inductive Start where
  | usage
  | error
  | run (infile : Option Nat) (o : Opts)
  deriving DecidableEq

/-- The loop over the arguments while the input file is not known;
main_LinEl.C:141-255 and 283-314.  The first token no test applies to, and which is
not a geometry file, becomes the input file.  If it is an XML file it is read, and
the loop starts over from the first argument. -/
def pass1 (L : Lib) (all : List Arg) : List Arg → Bool → Opts → Res Start
  | [], g2, o => .ok (if g2 then .run none o else .usage)
  | (i, t) :: rest, g2, o =>
    match step L t (rest.map Prod.snd) o with
    | .ok (some (o', n)) => pass1 L all (rest.drop n) g2 o'
    | .ok none =>
      if hasSub ".g2" t then pass1 L all rest true o
      else if hasSub ".xinp" t then
        match L.xml t o.lib with
        | some s => (pass2 L i all { o with lib := s }).bind fun o' => .ok (.run (some i) o')
        | none => .ok .error
      else (pass2 L i rest o).bind fun o' => .ok (.run (some i) o')
    | .fail => .fail
    | .ub => .ub
  termination_by l => l.length
  decreasing_by all_goals (simp only [List.length_drop, List.length_cons]; omega)

/-- The whole option loop on the arguments after the program name. -/
def scan (L : Lib) (args : List Str) : Res Start :=
  let all := args.mapIdx fun i t => (i, t)
  pass1 L all all false {}

/-! ## From the settings to the analysis -/

/-- `args.eig` after main_LinEl.C:332-335. -/
def argEig (s : LibSt) : Int :=
  if s.optEig < 0 then 0 else if 0 < s.optEig then s.optEig else s.eig

/-- A generalised eigenvalue analysis is asked for; main_LinEl.C:337. -/
def genEigVal (s : LibSt) : Bool :=
  let e := argEig s
  3 ≤ e && e ≤ 6 && e != 5

/-- `dynSol` after main_LinEl.C:341. -/
def dynSol (o : Opts) : Option Char := if o.lib.adap ≠ 0 then none else o.dyn

/-- `modalS`; main_LinEl.C:342. -/
def modalS (o : Opts) : Bool := (dynSol o).isSome && 1 < o.lib.dim && genEigVal o.lib

/-- Which model is created; main_LinEl.C:385-431. -/
inductive Mdl where
  | beamC1 | beam | plateBeam | solidBeam | supBeam
  | modalKL | modal2 | modal3 | KL | solid2 | solid3
  deriving DecidableEq, Repr

/-- The choice of model; main_LinEl.C:385-431. -/
def chooseModel (o : Opts) : Mdl :=
  if o.lib.dim = 1 then (if o.KLp then .beamC1 else .beam)
  else if o.lib.dim = 12 ∧ o.KLp then .plateBeam
  else if o.lib.dim = 13 then .solidBeam
  else if o.lib.dim = 14 then .supBeam
  else if modalS o then
    if o.KLp then .modalKL else if o.lib.dim = 2 then .modal2 else .modal3
  else if o.KLp then .KL
  else if o.lib.dim = 2 then .solid2
  else .solid3

/-- Is the multi-dimensional driver `mSim` created; main_LinEl.C:393-417. -/
def isMulti (o : Opts) : Bool :=
  match chooseModel o with
  | .plateBeam | .solidBeam | .supBeam => true
  | _ => false

/-- The assembly modes used by the program. -/
inductive Mode where
  | static | rhsOnly | buckling | stiffOnly | vibration
  deriving DecidableEq, Repr

/-- The numerical work the program can do. -/
inductive Work where
  | dynamics          -- dynamicSim: Newmark time integration
  | loadCases         -- mlcSim: a static solution per load case
  | multiDim          -- SIMmcStatic::solveStatic
  | assemble (m : Mode)
  | dumpSystem        -- the system matrices are written to file
  | solve             -- solveSystem
  | eigenmodes        -- systemModes
  | condense          -- staticCondensation
  | adaptive          -- the adaptive loop
  | modal (quasi : Bool)
  deriving DecidableEq, Repr

/-- `iop` after main_LinEl.C:497-498: the eigenvalue analysis is skipped in restarts of
modal simulations. -/
def iopAfter (o : Opts) (eig : Int) (restart : Bool) : Int :=
  if restart && modalS o then 100 - eig else o.iop

/-- The switch selecting the analysis; main_LinEl.C:628-884.  `eig` is
`model->opt.eig` after the input file is read, `hasA` tells that an adaptive driver
exists.  The projections, norms and printing are left out: they do not assemble or
solve the equation system of the problem. -/
def switchWork (adap : Bool) (iop eig : Int) (hasA : Bool) : List Work :=
  let sel : Int := if adap then 10 else iop + eig
  if sel = 0 ∨ sel = 5 ∨ sel = 200 ∨ sel = 210 then
    [.assemble (if iop = 210 then .rhsOnly else .static)]
    ++ (if 200 ≤ iop then [.dumpSystem] else [.solve])
    ++ (if eig = 0 ∨ 200 ≤ iop then [] else [.assemble .buckling, .eigenmodes])
  else if sel = 1 ∨ sel = 2 then [.assemble .stiffOnly, .eigenmodes]
  else if sel = 9 then [.condense]
  else if sel = 10 then (if hasA then [.adaptive] else [])
  else if sel = 100 then []
  else [.assemble .vibration, .eigenmodes]

/-- All numerical work of a run in which every call succeeds, in order;
main_LinEl.C:458-888.  A failing call ends the program after a prefix of this list. -/
def work (o : Opts) (eig : Int) (restart : Bool) : List Work :=
  if (dynSol o).isSome && !modalS o then [.dynamics]
  else if o.mlc then [.loadCases]
  else if isMulti o then [.multiDim]
  else
    switchWork (o.lib.adap != 0) (iopAfter o eig restart) eig (o.lib.adap != 0)
    ++ (if modalS o then [.modal (dynSol o == some 's')] else [])

/-! ## Padding of nodal vectors -/

/-- One assignment `v[ncmp*i+j] = j < ndim ? v[ndim*i+j] : 0.0` of the lambda function
`expandNodalVec`; main_LinEl.C:582-584.  Indices outside the array are undefined
behaviour. -/
def expandAt {K : Type} [Zero K] (ncmp ndim i j : Nat) (v : List K) : Res (List K) :=
  if ncmp * i + j < v.length then
    if j < ndim then
      match v[ndim * i + j]? with
      | some a => .ok (v.set (ncmp * i + j) a)
      | none => .ub
    else .ok (v.set (ncmp * i + j) 0)
  else .ub

/-- The inner loop over the components `j, j+1, ..., j+n-1`. -/
def expandRow {K : Type} [Zero K] (ncmp ndim i : Nat) : Nat → Nat → List K → Res (List K)
  | 0, _, v => .ok v
  | n + 1, j, v => (expandAt ncmp ndim i j v).bind (expandRow ncmp ndim i n (j + 1))

/-- The outer loop over the nodes `i, i-1, ..., 1`. -/
def expandRows {K : Type} [Zero K] (ncmp ndim : Nat) : Nat → List K → Res (List K)
  | 0, v => .ok v
  | i + 1, v => (expandRow ncmp ndim (i + 1) ncmp 0 v).bind (expandRows ncmp ndim i)

/-- The last loop `v[j] = 0.0` for `ndim ≤ j < ncmp`; main_LinEl.C:585-586. -/
def clearFrom {K : Type} [Zero K] : Nat → Nat → List K → Res (List K)
  | 0, _, v => .ok v
  | n + 1, j, v => if j < v.length then clearFrom n (j + 1) (v.set j 0) else .ub

/-- `expandNodalVec(v,nnod,ncmp)`; main_LinEl.C:577-587.  `resize` keeps the leading
elements and appends zeros.  Division by a zero number of nodes is undefined
behaviour. -/
def expandNodalVec {K : Type} [Zero K] (v : List K) (nnod ncmp : Nat) : Res (List K) :=
  if nnod = 0 then .ub
  else
    let ndim := v.length / nnod
    let v0 := v.take (ncmp * nnod) ++ List.replicate (ncmp * nnod - v.length) 0
    (expandRows ncmp ndim (nnod - 1) v0).bind (clearFrom (ncmp - ndim) ndim)

end Verif.MainLinEl
