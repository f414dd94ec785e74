/-
Model of the print-out of norms and error estimates (Elasticity/SIMElasticity.C:45-78, main_LinEl.C:663-805, Shell/SIMKLShell.C:571-594) and of the decision which of them are evaluated.
The printed text is a list of labels with values. Reading outside of a vector of norms is the result `none`. Divisions by zero print `inf` in the program; in the model they are zero, and
the theorems exclude them.
-/
import Mathlib.Algebra.Field.Defs
import Mathlib.Algebra.BigOperators.Group.List.Basic
import Mathlib.Analysis.Real.Sqrt
import Mathlib.Algebra.Order.Group.Unbundled.Abs
import Verif.Basic

namespace Verif.NormPrint

/-- The printed labels: energy norm of the solution, external energy, exact norm, exact error, relative exact error, L2 norms of beams, recovered and exact section forces with their number,
residual, energy norm of the dual solution, energy norm and error of a recovered solution, jump term, exact error of a recovered solution, effectivity indices, L2 norms. A relative quantity
tells to what it is related. -/
inductive Lab
  | energy | external | exact | error | relError | beamL2 | beamExact | beamError
  | recovered (k : Nat) | exactSec (k : Nat) | residual | relResidual | dual
  | rEnergy | rError | rRel (toExact : Bool) | rRes | rRelRes (toExact : Bool) | jump | relJump (toExact : Bool)
  | xError | xRel | eff | effEx | effRes
  | l2 | l2err | l2rel
  | n | nErr | nRel | m | mErr | mRel
  deriving DecidableEq, Repr

variable {K : Type} [Field K]

/-- `v(i)` of a vector with indices from one. -/
def at1 (v : List K) (i : Nat) : Option K := if i = 0 then none else v[i - 1]?

/-- The residual and jump terms of a recovered solution (Elasticity/SIMElasticity.C:55-64). -/
def resLines (ana : Bool) (g : List K) (rel : K) : Option (List (Lab × K)) :=
  if g.length ≥ (if ana then 8 else 5) then do
    let g5 ← at1 g 5
    if g.length ≥ 9 then do
      let g6 ← at1 g 6
      some [(.rRes, g5), (.rRelRes ana, g5 * rel), (.jump, g6), (.relJump ana, g6 * rel)]
    else some [(.rRes, g5), (.rRelRes ana, g5 * rel)]
  else some []

/-- The exact error of a recovered solution and the effectivity indices (Elasticity/SIMElasticity.C:66-77). -/
def exactLines (g r : List K) (rel : K) : Option (List (Lab × K)) := do
  let res := decide (g.length ≥ 8)
  let ex ← at1 g (g.length - (if res then 2 else 1))
  let g2 ← at1 g 2
  let r4 ← at1 r 4
  if res then do
    let g5 ← at1 g 5
    some [(.xError, ex), (.xRel, ex * rel), (.eff, g2 / r4), (.effEx, (g2 + ex) / r4), (.effRes, (g2 + g5) / r4)]
  else some [(.xError, ex), (.xRel, ex * rel), (.eff, g2 / r4)]

/-- `Elastic::printNorms` (Elasticity/SIMElasticity.C:45-78): `g` are the norms of a recovered solution and `r` those of the solution itself. -/
def printNorms (ana : Bool) (g r : List K) : Option (List (Lab × K)) := do
  let ref ← if ana then at1 r 3 else at1 g 1
  let rel := 100 / ref
  let g1 ← at1 g 1
  let g2 ← at1 g 2
  let l1 ← resLines ana g rel
  let l2 ← if ana then exactLines g r rel else some []
  some ([(.rEnergy, g1), (.rError, g2), (.rRel ana, g2 * rel)] ++ l1 ++ l2)

/-- `SIMbase::getVCPindex` of IFEM as assumed here: the position of the `k`-th value of the section forces, which follow the volume, or zero if there are not so many; with an analytical
solution there are two values for each section force (called in main_LinEl.C:742, 754). -/
def vcpIndex (ana : Bool) (n k : Nat) : Nat :=
  if k = 0 ∨ k > (if ana then 2 * n else n) then 0 else (if ana then 5 else 3) + k

/-- The loop over the further section forces (main_LinEl.C:753-765). -/
def vcpLoop (ana : Bool) (n : Nat) (norm : List K) : Nat → Nat → List (Lab × K)
  | 0, _ => []
  | fuel + 1, i =>
    let s := vcpIndex ana n (i + 1)
    if s ≠ 0 ∧ norm.length ≥ s then
      (if ana = true ∧ (i + 1) % 2 = 0 then Lab.exactSec else Lab.recovered) (if ana then i / 2 + 1 else i + 1) |> fun l =>
        (l, norm.getD (s - 1) 0) :: vcpLoop ana n norm fuel (i + 1)
    else []

/-- The first section force, or the residual of the analytical solution (main_LinEl.C:742-752). -/
def firstVcp [LinearOrder K] (ana : Bool) (n : Nat) (norm : List K) (rel : K) : List (Lab × K) :=
  let s := vcpIndex ana n 1
  if s ≠ 0 ∧ norm.length ≥ s then
    (.recovered 1, norm.getD (s - 1) 0) :: (if ana = true ∧ norm.length ≥ s + 1 then [(.exactSec 1, norm.getD s 0)] else [])
  else if ana = true ∧ norm.length ≥ 6 then [(.residual, norm.getD 4 0), (.relResidual, norm.getD 4 0 * rel)]
  else []

/-- The norms of the solution itself (main_LinEl.C:722-769). `beam` are beams in space, `n` the number of section forces. -/
def mainLines [LinearOrder K] (beam ana : Bool) (n : Nat) (norm : List K) (dual : Option K) : Option (List (Lab × K)) := do
  let n1 ← at1 norm 1
  if beam then
    if norm.length > 2 then do
      let n2 ← at1 norm 2
      let n3 ← at1 norm 3
      some [(.beamL2, n1), (.beamExact, n2), (.beamError, n3)]
    else some [(.beamL2, n1)]
  else do
    let n2 ← at1 norm 2
    let rel := if norm.length > 2 then 100 / norm.getD 2 0 else 0
    some ((.energy, n1) :: (if n2 ≠ 0 then [(.external, n2)] else []) ++
      (if ana = true ∧ norm.length ≥ 4 then [(.exact, norm.getD 2 0), (.error, norm.getD 3 0), (.relError, norm.getD 3 0 * rel)] else []) ++
      firstVcp ana n norm rel ++ vcpLoop ana n norm norm.length (if ana then 2 else 1) ++
      (match dual with
       | some d => [(.dual, d)]
       | none => []))

/-- The L2 norms of a recovered solution (main_LinEl.C:791-795); not for shells. -/
def l2Lines (shell : Bool) (g : List K) : Option (List (Lab × K)) :=
  if shell then some [] else do
    let g3 ← at1 g 3
    let g4 ← at1 g 4
    some [(.l2, g3), (.l2err, g4), (.l2rel, g4 / g3 * 100)]

/-- `utl::trunc`: values below the limit are printed as zero. -/
def trunc [LinearOrder K] (tol v : K) : K := if |v| > tol then v else 0

/-- `SIMKLShell::printNormGroup` for shells (Shell/SIMKLShell.C:580-594). -/
def shellLines [LinearOrder K] (tol : K) (g : List K) : Option (List (Lab × K)) := do
  let g1 ← at1 g 1
  if trunc tol g1 = 0 then some [] else do
    let g2 ← at1 g 2
    let g3 ← at1 g 3
    let g4 ← at1 g 4
    let ln ← if trunc tol g3 > 0 then (at1 g 5).map fun g5 => [(Lab.n, g3), (.nErr, g5), (.nRel, 100 * g5 / g3)] else some []
    let lm ← if trunc tol g4 > 0 then (at1 g 6).map fun g6 => [(Lab.m, g4), (.mErr, g6), (.mRel, 100 * g6 / g4)] else some []
    some ([(.rEnergy, g1), (.rError, g2), (.rRel false, 100 * g2 / g1)] ++ ln ++ lm)

/-! ### Which norms are evaluated -/

/-- Has the model an analytical solution, for solids, plates and beams (Elasticity/SIMElasticity.C:305-308, Linear/SIMLinElKL.C:204-217, Linear/SIMLinElBeamC1.C:391-403). `plate` is the
version of the plate formulation. -/
def haveAna (plate : Option Nat) (sol stress second : Bool) : Bool :=
  match plate with
  | none => sol && stress
  | some v => sol && (if v = 1 then stress else if v > 1 then second else false)

/-- Has the norm integrand the analytical field (Elasticity/Elasticity.C:1068-1075, Linear/KirchhoffLovePlate.C:392-402). -/
def normAna (plate : Option Nat) (sol stress second : Bool) : Bool :=
  match plate with
  | none => if sol && stress then true else false
  | some v => if !sol then false else if v = 1 then stress else second

/-- `getVolumeIndex` (Elasticity/Elasticity.C:1090-1093, Linear/SIMLinElKL.C:220-226). -/
def volumeIndex (plate : Option Nat) (ana : Bool) : Nat :=
  match plate with
  | none => if ana then 5 else 3
  | some _ => if ana then 6 else 3

/-- The flag `noProj` after one projection (main_LinEl.C:667-677): the size of the projected analytical solution, `none` if there is none, and the size of the projected solution. -/
def noProjStep (kl np : Bool) (p : Option Nat × Nat) : Bool :=
  match p.1 with
  | none => np
  | some s => if kl = true ∧ s < p.2 then np else false

/-- The flag `noProj` after the loop over the projections (main_LinEl.C:657-678). The norms of the projected analytical solution are evaluated if it is false (main_LinEl.C:712-718). -/
def noProj (kl : Bool) (l : List (Option Nat × Nat)) : Bool := l.foldl (noProjStep kl) true

/-! ### Error estimate with the dual solution -/

/-- The row of the matrices of element norms which is used (main_LinEl.C:701): counted from one. -/
def dualRow (main : Nat) : Nat := 2 + main

/-- The error estimate (main_LinEl.C:702-708): the element norms `e` of the solution and `f` of the dual solution, of the elements which both have. -/
noncomputable def dualEstimate (e f : List ℝ) : ℝ := Real.sqrt ((List.zipWith (fun a b => (a * b) * (a * b)) e f).sum)

end Verif.NormPrint
