/-
Model of the rigid and nodal couplings (Elasticity/SIMRigid.C).

A line of the nodal coupling input is a sequence of numbers; a number written without decimal part can be read as an integer and as a real, other
numbers only as a real (the stream extraction of the integer part of "1.5" is not modelled, such a line is taken as ending there). A
`std::map` is a list of key-value pairs in ascending order of the keys. The topology sets, discrete points and patches of the library are given
as functions. `addRigidCpl`, `addNodalCouplings` and `selfInterconnect` are library functions; the model records the calls.
-/
import Verif.Basic

namespace Verif.Rigid

variable {K : Type}

/-- A number in the input. -/
inductive Tok (K : Type)
  | int (n : Int)
  | real (x : K)

/-- `std::map<int,V>::operator[]` followed by an update of the value; a new key starts with the empty value. -/
def update {V : Type} (dflt : V) (f : V → V) (k : Int) : List (Int × V) → List (Int × V)
  | [] => [(k, f dflt)]
  | (j, v) :: m => if k < j then (k, f dflt) :: (j, v) :: m else if k = j then (j, f v) :: m else (j, v) :: update dflt f k m

/-- `std::map<int,V>::find`. -/
def find {V : Type} (k : Int) (m : List (Int × V)) : Option V := (m.find? (fun e => e.1 = k)).map (·.2)

/-- The pairs read by `ss >> master >> weight` (Elasticity/SIMRigid.C:79-84) until the stream fails. -/
def readPairs [IntCast K] : List (Tok K) → List (Int × K)
  | .int m :: .int w :: r => (m, (w : K)) :: readPairs r
  | .int m :: .real w :: r => (m, w) :: readPairs r
  | _ => []

/-- One line of `parseCpl` (Elasticity/SIMRigid.C:76-85): the slave is entered in the map with the first complete pair. -/
def parseLine [IntCast K] (cpl : List (Int × List (Int × K))) : List (Tok K) → List (Int × List (Int × K))
  | .int s :: r => (readPairs r).foldl (fun m p => update [] (· ++ [p]) s m) cpl
  | _ => cpl

/-- `parseCpl` (Elasticity/SIMRigid.C:71-93). -/
def parseCpl [IntCast K] (lines : List (List (Tok K))) (cpl : List (Int × List (Int × K))) : List (Int × List (Int × K)) :=
  lines.foldl parseLine cpl

/-- Members `myCouplings` and `myGeomTols` (Elasticity/SIMRigid.h:58-64). -/
structure Cpl (K : Type) where
  couplings : List (Int × List (Int × List (Int × K)))
  tols : List (Int × K)

/-- A `<coupling>` element: `patch` and `xtol` attributes and its content: the lines of the file, the lines of the text, a file that can not be
opened, or nothing. -/
structure CplTag (K : Type) where
  patch : Option Int
  content : Option (Option (List (List (Tok K))))
  xtol : Option K

/-- `SIMRigid::parseCouplings` (Elasticity/SIMRigid.C:68-128). `content = none` is an element without content, `some none` a file that can not be
opened. -/
def parseCouplings [IntCast K] [Zero K] [LT K] [DecidableLT K] (c : Cpl K) (t : CplTag K) : Cpl K × Bool :=
  let patch := t.patch.getD 1
  match t.content with
  | some (some lines) =>
    ({ couplings := update [] (parseCpl lines) patch c.couplings
       tols := match t.xtol with
         | some x => if x > 0 then update 0 (fun _ => x) patch c.tols else c.tols
         | none => c.tols }, true)
  | _ => (c, false)

/-- `SIMElasticity::clearProperties` (Elasticity/SIMElasticity.C:180-204), called before the input is read again (Elasticity/NonlinearDriver.C:481-483): the
couplings are kept. -/
def clearCouplings (c : Cpl K) : Cpl K := c

/-- The calls of `addGeneralCouplings` for one patch: nodes to connect directly and linear couplings (slave, masters, weights), and the
tolerance, if any. -/
structure PatchCalls (K : Type) where
  patch : Int
  connected : List (Int × Int)
  linear : List (Int × List Int × List K)
  tol : Option K

/-- The loop over the couplings of a patch (Elasticity/SIMRigid.C:174-189). -/
def patchCalls [DecidableEq K] [One K] (tols : List (Int × K)) (patch : Int) (cpl : List (Int × List (Int × K))) : PatchCalls K :=
  let s := cpl.foldl (fun (s : List (Int × Int) × List (Int × List Int × List K)) mpc =>
    match mpc.2 with
    | [(m, w)] => if w = 1 then (s.1 ++ [(mpc.1, m)], s.2) else (s.1, s.2 ++ [(mpc.1, [m], [w])])
    | ms => (s.1, s.2 ++ [(mpc.1, ms.map (·.1), ms.map (·.2))])) ([], [])
  ⟨patch, s.1, s.2, find patch tols⟩

/-- `SIMRigid::addGeneralCouplings` (Elasticity/SIMRigid.C:168-198): the calls made and the status. `connect` is the result of
`selfInterconnect`. -/
def addGeneralCouplings [DecidableEq K] [One K] (hasPatch : Int → Bool) (connect : PatchCalls K → Bool) (c : Cpl K) : List (PatchCalls K) × Bool :=
  c.couplings.foldl (fun s e =>
    if hasPatch e.1 then
      let pc := patchCalls c.tols e.1 e.2
      (s.1 ++ [pc], s.2 && connect pc)
    else s) ([], true)

/-- A topology item (library class `TopItem`). -/
structure TopItem where
  patch : Nat
  item : Int
  idim : Int
  deriving DecidableEq

/-- `SIMRigid::parseRigid` (Elasticity/SIMRigid.C:27-65) for a slave set with unique code `islave` and the items of the master set. The
coordinates of the master point are printed without checking that the point exists. -/
def parseRigid (islave : Int) (ent : List TopItem) (hasPoint : Int → Bool) (masters : List (Int × TopItem)) : Res (List (Int × TopItem)) :=
  if islave = 0 then .fail
  else match ent with
    | [] => .fail
    | [t] =>
      if t.idim > 0 then .fail
      else if t.patch > 0 then .ok (update t (fun _ => t) islave masters)
      else if hasPoint t.item then .ok (update t (fun _ => t) islave masters)
      else .ub
    | _ => .fail

/-- A property with the `RIGID` type: the code, the patch and the local index of the boundary (other members of `Property` are passed on). -/
structure Prop' where
  rigid : Bool
  pindx : Int
  patch : Int
  lindx : Int
  deriving DecidableEq

/-- A call of `addRigidCpl`: the patch, the boundary and the master point. -/
structure RigidCall where
  patch : Int
  lindx : Int
  point : Int
  deriving DecidableEq

/-- `SIMRigid::addRigidMPCs` (Elasticity/SIMRigid.C:131-161): the calls made and the number of new nodes. `addCpl` is the result of `addRigidCpl`
(true when a new master node was made). -/
def addRigidMPCs (masters : List (Int × TopItem)) (hasPoint hasPatch : Int → Bool) (addCpl : List RigidCall → RigidCall → Bool) :
    List Prop' → List RigidCall → Nat → Res (List RigidCall × Nat)
  | [], calls, n => .ok (calls, n)
  | p :: ps, calls, n =>
    if p.rigid then
      match find p.pindx masters with
      | none => .fail
      | some t =>
        if t.patch > 0 then .fail
        else if hasPoint t.item && hasPatch p.patch then
          let c : RigidCall := ⟨p.patch, p.lindx, t.item⟩
          addRigidMPCs masters hasPoint hasPatch addCpl ps (calls ++ [c]) (if addCpl calls c then n + 1 else n)
        else addRigidMPCs masters hasPoint hasPatch addCpl ps calls n
    else addRigidMPCs masters hasPoint hasPatch addCpl ps calls n

end Verif.Rigid
