/-
Model of the superelement simulator, Linear/SIMLinElSup.C: reading the finite element models of the superelements, linking them, and writing the result blocks
of primary and secondary solution.

Finite element models and materials are given by numbers or names. The library functions `SIMbase::setPatchMaterial` (activates the material of a patch in the simulator's own
integrand) and the VTF-writer (all writes succeed) are assumed; geometry is not modelled. Superelement names are natural numbers, in the order of the strings.
-/
import Mathlib.Data.List.Basic
import Mathlib.Logic.Function.Basic
import Verif.Basic

namespace Verif.Supel

/-! ### Reading and linking -/

/-- Outcome of one `<elasticity>` block: the map from names to finite element models (numbered by creation), and the models without owner. -/
structure Subs where
  sims : List (Nat × Nat)
  created : Nat
  lost : List Nat

/-- `mySubSim[supId].sim = supEl` on a map ordered by names (Linear/SIMLinElSup.C:55). -/
def insert (k v : Nat) : List (Nat × Nat) → List (Nat × Nat)
  | [] => [(k, v)]
  | p :: ps => if k = p.1 then (k, v) :: ps else if k < p.1 then (k, v) :: p :: ps else p :: insert k v ps

/-- The value of a name. -/
def lookup (k : Nat) : List (Nat × Nat) → Option Nat
  | [] => none
  | p :: ps => if k = p.1 then some p.2 else lookup k ps

/-- `SIMLinElSup::parse` for one `<elasticity>` block (Linear/SIMLinElSup.C:34-59): `id` is the attribute `supId`, `good` tells that all child elements are parsed. A model
overwritten in the map is not deleted. -/
def parse (id : Option Nat) (good : Bool) (s : Subs) : Subs × Bool :=
  match id with
  | none => (s, true)
  | some k =>
    if good then
      ({ sims := insert k s.created s.sims, created := s.created + 1, lost := s.lost ++ (lookup k s.sims).toList }, true)
    else ({ s with created := s.created + 1 }, false)

/-- The link of a superelement to its model in `preprocessB` (Linear/SIMLinElSup.C:64-69). -/
def link (s : Subs) (supId : Nat) : Option Nat := lookup supId s.sims

/-- `SIMLinElSup::getMyProblem` (Linear/SIMLinElSup.C:118-125): the integrand of the first model in the map. -/
def getMyProblem (s : Subs) : Option Nat := s.sims.head?.map Prod.snd

/-! ### Materials in the secondary solution -/

/-- A finite element model: its patches and the material of each patch. -/
structure FE (M : Type) where
  patches : List Nat
  mat : Nat → M

/-- One patch in `SIMLinElSup::writeGlvS2` (Linear/SIMLinElSup.C:249-257): `cur` is the active material of each model's integrand; the result is the material used in the evaluation,
which is done by the integrand `problem`. -/
def evalPatch {M : Type} (fe : Nat → FE M) (problem sim : Nat) (r : (Nat → Option M) × List (Option M)) (patch : Nat) :
    (Nat → Option M) × List (Option M) :=
  let cur := Function.update r.1 sim (some ((fe sim).mat patch))
  (cur, r.2 ++ [cur problem])

/-- One superelement with a model (Linear/SIMLinElSup.C:247-263). -/
def evalSup {M : Type} (fe : Nat → FE M) (problem sim : Nat) (cur : Nat → Option M) : (Nat → Option M) × List (Option M) :=
  (fe sim).patches.foldl (evalPatch fe problem sim) (cur, [])

/-- All superelements in `SIMLinElSup::writeGlvS2` (Linear/SIMLinElSup.C:242-276): the materials used, by superelement; a superelement without a model has none. -/
def evalAll {M : Type} (fe : Nat → FE M) (problem : Nat) (sups : List (Option Nat)) (cur : Nat → Option M) : (Nat → Option M) × List (List (Option M)) :=
  sups.foldl (fun r s =>
    match s with
    | some sim => let e := evalSup fe problem sim r.1; (e.1, r.2 ++ [e.2])
    | none => (r.1, r.2 ++ [[]])) (cur, [])

/-! ### Result blocks -/

/-- A nodal result block written to the file. -/
structure Blk where
  id : Nat
  geom : Nat
  row : Nat
deriving DecidableEq, Repr

/-- Running block counter, block lists by field (`sID`), vector blocks (`vID`), and what has been written. -/
structure Out where
  nBlock : Nat
  sID : List (List Nat)
  vID : List Nat
  log : List Blk
  vlog : List (Nat × Nat)

/-- The body of the loop in `writeFields` (Linear/SIMLinElSup.C:135-141) for the zero-based row `j`. -/
def writeRow (geom : Nat) (s : Out) (j : Nat) : Out :=
  { s with
    nBlock := s.nBlock + 1
    log := s.log ++ [⟨s.nBlock + 1, geom, j⟩]
    sID := if j < s.sID.length then s.sID.modify j (· ++ [s.nBlock + 1]) else s.sID ++ [[s.nBlock + 1]] }

/-- `writeFields` (Linear/SIMLinElSup.C:132-144). -/
def writeFields (rows geom : Nat) (s : Out) : Out := (List.range rows).foldl (writeRow geom) s

/-- The loop over the superelements in `writeGlvS2` (Linear/SIMLinElSup.C:241-277): `rows` are the number of fields by superelement. -/
def writeS2 (startGeo : Nat) (rows : List Nat) (s : Out) : Nat × Out :=
  rows.foldl (fun r n => (r.1 + 1, writeFields n (r.1 + 1) r.2)) (startGeo, s)

/-- Vector output of one superelement (Linear/SIMLinElSup.C:201-205). -/
def writeVec (geom : Nat) (s : Out) : Out :=
  { s with nBlock := s.nBlock + 1, vID := s.vID ++ [s.nBlock + 1], vlog := s.vlog ++ [(s.nBlock + 1, geom)] }

/-- The loop over the superelements in `writeGlvS1` (Linear/SIMLinElSup.C:166-210). -/
def writeS1 (startGeo : Nat) (rows : List Nat) (s : Out) : Nat × Out :=
  rows.foldl (fun r n => (r.1 + 1, writeFields n (r.1 + 1) (writeVec (r.1 + 1) r.2))) (startGeo, s)

end Verif.Supel
