/-
Buffers of the element matrices in linear elasticity (Elasticity/LinearElasticity.C): the stiffness and mass matrices of the elements are stored in one assembly and reused in later ones.

IFEM assumptions: the element matrices of a new container are zero, of the size of the element; a `Matrix` that has just been created is empty; `std::vector::resize` keeps the elements
it had, as far as the new size goes. An element matrix is a value of an arbitrary type with addition, the integral of the element is given.
-/
import Verif.Model.Modes

namespace Verif.Buffers

open Verif.Modes

variable {V : Type*}

/-- The integrals of an element: material stiffness, mass and geometric stiffness. -/
structure Elem (V : Type*) where
  K : V
  M : V
  G : V

/-- `myKmats`, `myMmats` and the state of the integrand (Elasticity/LinearElasticity.h:139-140); an empty matrix is `none`. -/
structure Buf (V : Type*) where
  K : List (Option V) := []
  M : List (Option V) := []
  s : St

/-- `std::vector::resize`. -/
def resize (n : Nat) (l : List (Option V)) : List (Option V) := l.take n ++ List.replicate (n - l.length) none

/-- `LinearElasticity::initLHSbuffers` (Elasticity/LinearElasticity.C:97-110). -/
def initBuffers (nEl : Nat) (b : Buf V) : Buf V :=
  if 1 < nEl then { b with K := resize nEl b.K, M := resize nEl b.M }
  else if nEl = 0 ∧ b.K ≠ [] then
    { b with s := { b.s with
      eKm := if 0 < b.s.eKm then -b.s.eKm else b.s.eKm
      eKg := if 0 < b.s.eKg then -b.s.eKg else b.s.eKg
      eM := if 0 < b.s.eM then -b.s.eM else b.s.eM } }
  else b

/-- Assignment `A[i] = v`; undefined outside the container. -/
def assign (A : List (Option V)) (i : Int) (v : Option V) : Res (List (Option V)) := if 0 ≤ i ∧ i < A.length then .ok (A.set i.toNat v) else .ub

/-- `A[i]`; undefined outside the container. -/
def fetch (A : List (Option V)) (i : Int) : Res (Option V) := if 0 ≤ i ∧ i < A.length then .ok (A.getD i.toNat none) else .ub

/-- Addition of an integral to `A[i]`; an empty matrix has the wrong size. -/
def accum [Add V] (A : List (Option V)) (i : Int) (v : V) : Res (List (Option V)) :=
  (fetch A i).bind fun a => match a with
    | some x => assign A i (some (x + v))
    | none => .fail

/-- The first part of `LinearElasticity::initElement` (Elasticity/LinearElasticity.C:124-131), for the element number `iel`. -/
def restore (b : Buf V) (iel : Int) (A : List (Option V)) : Res (List (Option V)) :=
  if 0 < iel then
    (if (iel - 1).toNat < b.K.length ∧ b.s.eKm < 0 then assign A (-b.s.eKm - 1) (b.K.getD (iel - 1).toNat none) else .ok A).bind fun A =>
    if (iel - 1).toNat < b.M.length ∧ b.s.eKm < 0 then assign A (-b.s.eM - 1) (b.M.getD (iel - 1).toNat none) else .ok A
  else .ok A

/-- The matrices of `LinearElasticity::evalInt` (Elasticity/LinearElasticity.C:218-236) over all integration points; `strains` tells whether there are strains. -/
def integrate [Add V] (s : St) (strains : Bool) (e : Elem V) (A : List (Option V)) : Res (List (Option V)) :=
  (if 0 < s.eKm then accum A (s.eKm - 1) e.K else .ok A).bind fun A =>
  (if 0 < s.eKg ∧ strains = true then accum A (s.eKg - 1) e.G else .ok A).bind fun A =>
  if 0 < s.eM then accum A (s.eM - 1) e.M else .ok A

/-- The first part of `LinearElasticity::finalizeElement` (Elasticity/LinearElasticity.C:399-406). -/
def store (b : Buf V) (iel : Int) (A : List (Option V)) : Res (Buf V) :=
  if 0 < iel then
    (if (iel - 1).toNat < b.K.length ∧ 0 < b.s.eKm then (fetch A (b.s.eKm - 1)).bind fun k => .ok { b with K := b.K.set (iel - 1).toNat k } else .ok b).bind fun b =>
    if (iel - 1).toNat < b.M.length ∧ 0 < b.s.eM then (fetch A (b.s.eM - 1)).bind fun k => .ok { b with M := b.M.set (iel - 1).toNat k } else .ok b
  else .ok b

/-- An element in the assembly, with `nA` zero matrices. -/
def element [Zero V] [Add V] (nA : Nat) (strains : Bool) (b : Buf V) (iel : Int) (e : Elem V) : Res (Buf V × List (Option V)) :=
  (restore b iel (List.replicate nA (some 0))).bind fun A => (integrate b.s strains e A).bind fun A => (store b iel A).bind fun b => .ok (b, A)

/-- An assembly over elements given by their numbers and integrals, with the matrices of each. -/
def assemble [Zero V] [Add V] (nA : Nat) (strains : Bool) : Buf V → List (Int × Elem V) → Res (Buf V × List (List (Option V)))
  | b, [] => .ok (b, [])
  | b, (iel, e) :: l => (element nA strains b iel e).bind fun r => (assemble nA strains r.1 l).bind fun t => .ok (t.1, r.2 :: t.2)

/-- A step in the history of an integrand: change of mode, request for buffers or reuse, assembly. -/
inductive Op
  | mode (m : Mode)
  | buffers (nEl : Nat)
  | assemble (strains : Bool) (els : List Int)

section
variable {K : Type*} [Zero K] [One K] [LinearOrder K]

/-- A history with the integrals `el` of the elements; the matrices of all elements in each assembly are returned. -/
def run [Zero V] [Add V] (q : Prm K) (el : Int → Elem V) : Buf V → List Op → Res (Buf V × List (List (List (Option V))))
  | b, [] => .ok (b, [])
  | b, .mode m :: l => run q el { b with s := linSetMode q m b.s } l
  | b, .buffers n :: l => run q el (initBuffers n b) l
  | b, .assemble strains els :: l =>
    (assemble (contAlloc q b.s false).nA strains b (els.map fun i => (i, el i))).bind fun r => (run q el r.1 l).bind fun t => .ok (t.1, r.2 :: t.2)

end

end Verif.Buffers
