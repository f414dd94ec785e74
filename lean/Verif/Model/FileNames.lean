/-
Model of how the programs name their output files after the input file: the ASCII dump files (main_LinEl.C, main_NonLinEl.C), the restart files (main_NonLinEl.C, main_ShellEl.C,
Linear/DynamicDriver.C, Linear/ModalDriver.C) and the superelement file (main_LinEl.C).

A C string in a buffer is its list of characters (without the null character) together with the number of characters which fit in the buffer; the buffer of a command line
argument fits exactly the argument. Writing behind the end of the buffer is undefined behaviour, as is a null pointer argument of `strcat`.
-/
import Verif.Basic

namespace Verif.FileNames

/-- A character buffer: contents and capacity, the null character not counted. -/
structure Buf where
  s : List Char
  cap : Nat
deriving DecidableEq, Repr

/-- The buffer of a command line argument. -/
def argument (s : List Char) : Buf := ⟨s, s.length⟩

/-- `strtok(infile,".")`: the offset of the token, which starts behind all leading dots and ends at the next dot, where a null character is written;
`none` if there is no token (the C library function used in main_LinEl.C:972 and main_NonLinEl.C:94). -/
def strtok (b : Buf) : Option (Nat × Buf) :=
  let lead := (b.s.takeWhile (· = '.')).length
  let token := (b.s.drop lead).takeWhile (· ≠ '.')
  if token = [] then none else some (lead, { b with s := b.s.take (lead + token.length) })

/-- `strcat` of an extension to the token, which is the end of the buffer contents. -/
def strcat (b : Buf) (ext : List Char) : Res Buf :=
  if b.s.length + ext.length ≤ b.cap then .ok { b with s := b.s ++ ext } else .ub

/-- `strcat(strtok(infile,"."),ext)`: the string pointed at by the result, and the new contents of the buffer `infile`. -/
def rename (b : Buf) (ext : List Char) : Res (List Char × Buf) :=
  match strtok b with
  | none => .ub
  | some (k, b1) => (strcat b1 ext).bind fun b2 => .ok (b2.s.drop k, b2)

/-- The dump files of the linear program: the files opened and the names printed, in order (main_LinEl.C:968-1011: the geometry, deformation, solution, eigenvector and
Matlab files, as far as they are asked for). The file opened is the string returned by `strcat`, the name printed is `infile`. -/
def dumpLinear : List (List Char) → Buf → Res (List (List Char × List Char))
  | [], _ => .ok []
  | e :: es, b => (rename b e).bind fun r => (dumpLinear es r.2).bind fun fs => .ok ((r.1, r.2.s) :: fs)

/-- The dump files of the nonlinear program: the files opened, in order (main_NonLinEl.C:91-106: the geometry and solution files). The file opened is `infile`. -/
def dumpNonlinear : List (List Char) → Buf → Res (List (List Char))
  | [], _ => .ok []
  | e :: es, b => (rename b e).bind fun r => (dumpNonlinear es r.2).bind fun fs => .ok (r.2.s :: fs)

/-- Position of the last dot (`std::string::find_last_of('.')`). -/
def lastDot (s : List Char) : Option Nat :=
  match s.reverse.findIdx? (· = '.') with
  | none => none
  | some i => some (s.length - 1 - i)

/-- The name of the restart file, without the extension added by the HDF5 writer: from the name of the HDF5 file if there is one, otherwise from the input file; the function `replace`
throws an exception if the position is `npos` (main_NonLinEl.C:190-194, main_ShellEl.C:87-91, Linear/DynamicDriver.C:87-91, Linear/ModalDriver.C:208-212). -/
def restartName (hdf5 infile : List Char) : Res (List Char) :=
  if hdf5 ≠ [] then .ok (hdf5 ++ "_restart".toList)
  else match lastDot infile with
    | none => .fail
    | some i => .ok (infile.take i ++ "_restart".toList)

/-- The loop of the nonlinear program over the names `base`, `base1`, `base2`, ... until there is no such file (main_NonLinEl.C:195-197). The number of passes is bounded here; the
bound used below is one more than the number of files. -/
def freeName (files : List (List Char)) (base : List Char) : Nat → Nat → List Char → List Char
  | 0, _, cur => cur
  | n + 1, i, cur => if cur ++ ".hdf5".toList ∈ files then freeName files base n (i + 1) (base ++ (toString i).toList) else cur

/-- The restart file written by the nonlinear program (main_NonLinEl.C:188-201). -/
def restartNonlinear (files : List (List Char)) (hdf5 infile : List Char) : Res (List Char) :=
  (restartName hdf5 infile).bind fun b => .ok (freeName files b (files.length + 1) 1 b ++ ".hdf5".toList)

/-- The restart file written by the other programs (main_ShellEl.C:85-95, Linear/DynamicDriver.C:85-95, Linear/ModalDriver.C:206-216). -/
def restartOther (hdf5 infile : List Char) : Res (List Char) := (restartName hdf5 infile).bind fun b => .ok (b ++ ".hdf5".toList)

/-- The name of the superelement file (main_LinEl.C:1014-1018). -/
def supelFile (name : List Char) : List Char := if lastDot name = none then name ++ ".sup".toList else name

/-- The default VTF file when a geometry file is given instead of an input file (main_LinEl.C:278-283). -/
def vtfName (g2file : List Char) : Res (List Char) :=
  match lastDot g2file with
  | none => .fail
  | some i => .ok (g2file.take i ++ ".vtf".toList)

end Verif.FileNames
