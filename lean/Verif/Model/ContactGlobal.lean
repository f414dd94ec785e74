/-
Model of the assembly of the mortar contact matrices over the whole contact boundary (class `MortarMats` in FiniteDeformation/MortarContact.C) and of the print-out of the contact status.

The nodes of a contact element are given by their numbers in the model: first the nodes of the element (positive for nodes on the contact boundary, negative or zero for the others), then the
master nodes of the rigid body. The sparse matrix `phiA` is modelled as a dense one, and an access outside of its dimensions as undefined. Multipliers, which come after the master
nodes, are not part of the mortar matrices.
-/
import Verif.Model.Contact

namespace Verif.Contact

section assembly

variable {K : Type*} [Field K]

/-- The number of entry `j` of a list of node numbers, if it is positive; the conditions `mnpc[j] > 0` (FiniteDeformation/MortarContact.C:76, 84, 86). -/
def nodeAt (mnpc : List Int) (j : Nat) : Option Nat :=
  match mnpc[j]? with
  | some n => if 0 < n then some n.toNat else none
  | none => none

/-- The constructor of `MortarMats` (FiniteDeformation/MortarContact.C:30-43), for `nNod` nodes without the multipliers, of which `nMast` are master nodes. -/
def mortarZero (nsd nNod nMast : Nat) : GapMats K :=
  ⟨DMat.zero (nsd * nNod) (nNod - nMast), DVec.zero (nNod - nMast), DVec.zero (nNod - nMast)⟩

/-- The additions to the areas or gaps (FiniteDeformation/MortarContact.C:75-80). -/
def vecAdds (mnpc : List Int) (v : DVec K) : List (Nat × K) :=
  (List.range v.n).flatMap fun j => match nodeAt mnpc j with
    | some n => [(n, v.e (j + 1))]
    | none => []

/-- The additions to the matrix `phiA` (FiniteDeformation/MortarContact.C:82-88): the rows of the nodes that are completely inside of the element matrix. -/
def phiAdds (nsd : Nat) (mnpc : List Int) (A : DMat K) : List (Nat × Nat × K) :=
  (List.range A.nc).flatMap fun j => match nodeAt mnpc j with
    | some n => (List.range mnpc.length).flatMap fun i =>
      if nsd * (i + 1) ≤ A.nr then
        match nodeAt mnpc i with
        | some m => (List.range nsd).map fun d => (nsd * (m - 1) + d + 1, n, A.e (nsd * i + d + 1) (j + 1))
        | none => []
      else []
    | none => []

/-- `MortarMats::assemble` (FiniteDeformation/MortarContact.C:61-91) for element matrices of the right number. -/
def assembleElm (nsd : Nat) (m : GapMats K) (mnpc : List Int) (e : GapMats K) : Res (GapMats K) :=
  (m.area.addMany (vecAdds mnpc e.area)).bind fun area =>
  (m.gap.addMany (vecAdds mnpc e.gap)).bind fun gap =>
  (m.phi.addMany (phiAdds nsd mnpc e.phi)).bind fun phi =>
  .ok ⟨phi, area, gap⟩

/-- A contact element: node numbers, number of element nodes and of master nodes, and integration points. -/
structure Elm (K : Type*) where
  mnpc : List Int
  nS : Nat
  nM : Nat
  pts : List (Pt K)

/-- The integration and assembly of all contact elements of a body, in some order. -/
def assembleAll (nsd : Nat) : GapMats K → List (Elm K) → Res (GapMats K)
  | m, [] => .ok m
  | m, e :: l => (gapElement nsd (gapZero nsd e.nS e.nM) e.pts).bind fun em =>
      (assembleElm nsd m e.mnpc em).bind fun m => assembleAll nsd m l

/-- The nodal gaps after `MortarMats::finalize` (FiniteDeformation/MortarContact.C:94-111). -/
def finalGap [LinearOrder K] (m : GapMats K) (n : Nat) : K := nodalGap (m.area.e n) (m.gap.e n)

/-- The gaps of the nodes of an element in `MortarPenalty::initElementBou` (FiniteDeformation/MortarContact.C:417-444): zero for nodes that are not on the contact boundary. -/
def elmGap [LinearOrder K] (m : GapMats K) (mnpc : List Int) (j : Nat) : K :=
  match nodeAt mnpc (j - 1) with
  | some n => penaltyGap (finalGap m n)
  | none => 0

/-- Assembly of the residual of an element into the load vector of the system by the IFEM library, in a model without constraints. -/
def resAdds (nsd : Nat) (mnpc : List Int) (R : DVec K) : List (Nat × K) :=
  (List.range mnpc.length).flatMap fun i =>
    if nsd * (i + 1) ≤ R.n then
      match nodeAt mnpc i with
      | some m => (List.range nsd).map fun d => (nsd * (m - 1) + d + 1, R.e (nsd * i + d + 1))
      | none => []
    else []

/-- The residual of all contact elements in the penalty formulation: element vectors of `MortarPenalty::evalBou` and their assembly. -/
def residualAll [LinearOrder K] (nsd : Nat) (eps : K) (m : GapMats K) : DVec K → List (Elm K) → Res (DVec K)
  | R, [] => .ok R
  | R, e :: l => (penaltyElement nsd eps (elmGap m e.mnpc) (DVec.zero (nsd * (e.nS + e.nM))) e.pts).bind fun r =>
      (R.addMany (resAdds nsd e.mnpc r)).bind fun R => residualAll nsd eps m R l

end assembly

/-! ### Print-out of the contact status -/

/-- The nodes that were active before, marked by `P` (FiniteDeformation/MortarContact.C:352-357, 496-501); node numbers start from one. -/
def statusBefore (old : List Bool) (n : Nat) : Option Char :=
  if old[n - 1]? = some true ∧ 0 < n then some 'P' else none

/-- The loop of `MortarContact::printAdditionalInfo` over the active nodes (FiniteDeformation/MortarContact.C:316-324), from node `n + 1` on. -/
def statusLoop : Nat → List Bool → (Nat → Option Char) → Nat → Option Char
  | _, [], c => c
  | n, false :: l, c => statusLoop (n + 1) l c
  | n, true :: l, c => statusLoop (n + 1) l (fun k => if k = n + 1 then (if c (n + 1) = none then some 'A' else some 'R') else c k)

/-- The message about a node (FiniteDeformation/MortarContact.C:326-335). -/
def statusText : Char → String
  | 'A' => " was activated"
  | 'R' => " remains active"
  | _ => " was deactivated"

/-- `MortarContact::printAdditionalInfo` (FiniteDeformation/MortarContact.C:313-337): what is printed about a node, if anything, for the nodes active before and now. -/
def status (old active : List Bool) (n : Nat) : Option String :=
  (statusLoop 0 active (statusBefore old) n).map statusText

/-- The closest node that is not active (FiniteDeformation/MortarContact.C:367-382): number and gap, where `big` is the largest floating point number. -/
def closest {K : Type*} [Field K] [LinearOrder K] (big : K) (area gap : Nat → K) : Nat → Nat × K
  | 0 => (0, big)
  | n + 1 =>
    let c := closest big area gap n
    if 0 < area (n + 1) ∧ gap (n + 1) ≤ 0 then c
    else if 0 < area (n + 1) ∧ gap (n + 1) < c.2 then (n + 1, gap (n + 1)) else c

/-- The number of active nodes printed (FiniteDeformation/MortarContact.C:387). -/
def activeCount (active : List Bool) : Nat := active.count true

end Verif.Contact
