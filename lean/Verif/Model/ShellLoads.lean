/-
Model of the input of point loads of plates and shells (Shell/SIMKLShell.C), from the tags or lines of the input file to the load vector.

Assumptions on the library: `getAttribute` leaves a value unchanged when the attribute is absent; a `pointload` tag without value is not known to any parser and is ignored. Functions of time are given with their
derivatives. A line of text is the list of its words; converting a missing word is undefined (`Res.ub`).
-/
import Verif.Model.PointLoads

namespace Verif.PointLoads

variable {K : Type}

/-- A point load in the list `myLoads`; the function may be missing (Shell/SIMKLShell.h:38-47). -/
structure Raw (K : Type) where
  patch : Nat
  dof : Int
  xi : K × K
  p : Option ((K → K) × (K → K))

/-- The default constructor (Shell/SIMKLShell.h:46). -/
def Raw.new [Zero K] : Raw K := ⟨0, 1, (0, 0), none⟩

/-- A `pointload` tag: its attributes and, if it has one, its value. -/
structure Tag (K : Type) where
  patch : Option Nat
  xi : Option K
  eta : Option K
  direction : Option Int
  onElement : Option Bool
  value : Option ((K → K) × (K → K))

/-- The branch for point loads in `SIMKLShell::parse` (Shell/SIMKLShell.C:256-288). -/
def readTag [Zero K] (nsd : Nat) (loads : List (Raw K)) (t : Tag K) : List (Raw K) :=
  match t.value with
  | none => loads
  | some f =>
    let l : Raw K := Raw.new
    let l := { l with patch := t.patch.getD l.patch, xi := (t.xi.getD l.xi.1, t.eta.getD l.xi.2) }
    let l := if nsd = 3 then { l with dof := t.direction.getD l.dof } else l
    let l := { l with p := some f }
    let l := if t.onElement.getD false then { l with dof := l.dof * -1 } else l
    loads ++ [l]

/-- All tags of an input file. -/
def readTags [Zero K] (nsd : Nat) (tags : List (Tag K)) : List (Raw K) := tags.foldl (readTag nsd) []

/-- The words of a line of a point load section: patch, two parameters, value and direction. -/
structure Line (K : Type) where
  patch : Nat
  nums : List K
  direction : Option Int

/-- One line of a point load section, stored in an existing load (Shell/SIMKLShell.C:159-170). -/
def readLine [Zero K] (nsd : Nat) (l : Raw K) (w : Line K) : Res (Raw K) :=
  match w.nums with
  | [a, b, v] => .ok { patch := w.patch, xi := (a, b), p := some (fun _ => v, fun _ => 0), dof := if nsd = 3 then w.direction.getD l.dof else l.dof }
  | _ => .ub

/-- The lines of a section are stored in the loads in turn; there may be less lines than loads. -/
def readLines [Zero K] (nsd : Nat) : List (Raw K) → List (Line K) → Res (List (Raw K))
  | [], _ => .ok []
  | l, [] => .ok l
  | l :: ls, w :: ws => (readLine nsd l w).bind fun l' => (readLines nsd ls ws).bind fun r => .ok (l' :: r)

/-- A section of `n` point loads (Shell/SIMKLShell.C:151-172). -/
def readSection [Zero K] (nsd n : Nat) (old : List (Raw K)) (lines : List (Line K)) : Res (List (Raw K)) :=
  readLines nsd (old.take n ++ List.replicate (n - old.length) Raw.new) lines

/-- A load with its function, `f` if it is missing. -/
def Raw.load (f : (K → K) × (K → K)) (l : Raw K) : Load K := ⟨l.patch, 0, l.dof, l.xi, (l.p.getD f).1, (l.p.getD f).2⟩

/-- The load vector: `SIMKLShell::preprocessB` and `SIMKLShell::assembleDiscreteTerms` (Shell/SIMKLShell.C:428-524). The integrand has one unknown per node for plates and three for shells
(Elasticity/KirchhoffLove.C:29). Evaluating a function which is missing is undefined (Shell/SIMKLShell.C:492). -/
def loadVector [Field K] (nsd : Nat) (N : Nat → K × K → Nat → K) (at_ : Nat → K × K → Point) (t : K) (loads : List (Raw K)) : Res (Acc K) :=
  let q := preprocess (fun l => at_ l.patch l.xi) (loads.map (Raw.load (fun _ => 0, fun _ => 0)))
  if q.2 = false then .fail
  else if loads.any (fun l => l.p.isNone) then .ub
  else shellTerms (if nsd < 3 then 1 else 3) N t q.1 ⟨fun _ _ => 0, fun _ => 0⟩

end Verif.PointLoads
