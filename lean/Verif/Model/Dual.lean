/-
Extraction functions and the dual load in linear elasticity: registration (Elasticity/Elasticity.C, Elasticity/SIMElasticity.C), element solution vectors and dual load vector
(Elasticity/LinearElasticity.C) and the strains of the extraction functions in the norms (Elasticity/Elasticity.C).

IFEM assumptions: the nodal values of the extraction functions are the solution vectors after the first one; `utl::gather` collects `npv` values per node and counts the nodes without
values; `initElement1` gathers the first solution vector, if it has values; `SymmTensor::isZero(tol)` tells that no component exceeds `tol` in magnitude; the vectors of an element
start empty. The solution mode is STATIC without buffered element matrices, so the strains of the first solution vector are evaluated at each point.
-/
import Verif.Model.Thermal
import Verif.Model.Modes
import Verif.Model.Norms
import Verif.Model.Continuum

namespace Verif.Dual

open Verif.LinIso Verif.Thermal Verif.Modes

variable {K : Type*}

/-- An extraction function: whether it is a `VecFunc`, and `inDomain`. -/
structure Fun (K : Type*) where
  isVec : Bool := true
  inDomain : Pt K → Bool

/-- Members of `Elasticity` and its bases for the dual problem (Elasticity/Elasticity.h:364-369; Elasticity/Elasticity.C:41-63): a new integrand has none of them. -/
structure Extr (K : Type*) where
  dualRHS : Option (Fun K) := none
  dualFld : List (Fun K) := []
  nSV : Nat := 1
  nCS : Nat := 1
  dS : Nat := 0

/-- `Elasticity::addExtrFunction` (Elasticity/Elasticity.C:147-162). A null pointer is `none`. -/
def addExtr (s : Extr K) (f : Option (Fun K)) : Extr K :=
  match f with
  | some g =>
    if g.isVec then
      { s with
        dualFld := s.dualFld ++ [g]
        dualRHS := match s.dualRHS with
          | some r => some r
          | none => some g
        nSV := 1 + (s.dualFld.length + 1)
        nCS := 1 + (s.dualFld.length + 1)
        dS := 1 }
    else { s with dualFld := [], dualRHS := none }
  | none => { s with dualFld := [], dualRHS := none }

/-- `setDualRHS` (Elasticity/Elasticity.h:72), called by the preprocessing when the simulator has a dual field (Elasticity/SIMElasticity.C:329-330). -/
def setRHS (s : Extr K) (f : Option (Fun K)) : Extr K :=
  match f with
  | some g => { s with dualRHS := some g }
  | none => s

/-- The dual load vector of a solution mode (Elasticity/LinearElasticity.C:83-89). -/
def modeDS (s : Extr K) (m : Mode) : Nat :=
  if 0 < s.dS then (if m = .static ∨ m = .norms then 2 else 1) else s.dS

/-- Whether the elements need their centre (Elasticity/LinearElasticity.C:355). -/
def needsCentre (s : Extr K) : Bool := !s.dualFld.isEmpty

/-! ### Element solution vectors -/

/-- `utl::gather` for zero-based nodes. -/
def gather [Zero K] (npv : Nat) (nodes : List Nat) (v : List K) : Res (List K) :=
  if ∀ n ∈ nodes, npv * n + npv ≤ v.length then .ok (nodes.flatMap fun n => (List.range npv).map fun i => v.getD (npv * n + i) 0)
  else .fail

/-- Number of solution vectors without the empty ones at the end (Elasticity/LinearElasticity.C:133-134). -/
def nsol (sol : List (List K)) : Nat → Nat
  | n + 2 => if (sol.getD (n + 1) []).isEmpty then nsol sol (n + 1) else n + 2
  | n => n

/-- Whether an element takes values of solution vector `i` (Elasticity/LinearElasticity.C:143-147). -/
def haveValues (s : Extr K) (m : Mode) (XC : Pt K) (i : Nat) : Bool :=
  if i = 1 ∧ m = .static then
    match s.dualRHS with
    | some f => f.inDomain XC
    | none => false
  else if 0 < i ∧ Mode.recovery.val ≤ m.val then
    match s.dualFld[i - 1]? with
    | some f => f.inDomain XC
    | none => false
  else true

/-- The loop over the solution vectors (Elasticity/LinearElasticity.C:140-152), from vector `i` on. -/
def initLoop [Zero K] (s : Extr K) (m : Mode) (npv : Nat) (nodes : List Nat) (XC : Pt K) : Nat → List (List K) → Res (List (List K))
  | _, [] => .ok []
  | i, v :: l =>
    (if v.isEmpty then .ok [] else if haveValues s m XC i then gather npv nodes v else .ok []).bind fun e =>
    (initLoop s m npv nodes XC (i + 1) l).bind fun es => .ok (e :: es)

/-- `LinearElasticity::initElement` (Elasticity/LinearElasticity.C:120-159), the solution vectors of an element with centre `XC`. -/
def initElement [Zero K] (s : Extr K) (m : Mode) (npv : Nat) (nodes : List Nat) (XC : Pt K) (sol : List (List K)) : Res (List (List K)) :=
  if nsol sol sol.length ≤ 1 then
    match sol with
    | v :: _ => if v.isEmpty then .ok [[]] else (gather npv nodes v).bind fun e => .ok [e]
    | [] => .ok [[]]
  else initLoop s m npv nodes XC 0 (sol.take (nsol sol sol.length))

/-! ### Dual load -/

/-- An integration point: strain-displacement matrix, element data, coordinates and `detJxW`. -/
structure Pnt (K : Type*) where
  B : DMat K
  fe : FE K
  X : Pt K
  w : K

section
variable [Field K]

/-- An element vector, one-based. -/
def comps (l : List K) (i : Nat) : K := l.getD (i - 1) 0

/-- The volume of an integration point (Elasticity/LinearElasticity.C:216, Elasticity/Elasticity.C:1134-1136). -/
def vol (axi : Bool) (twoPi : K) (p : Pnt K) : K := if axi then twoPi * p.X.x * p.w else p.w

/-- The strains after `Elasticity::kinematics` (Elasticity/Elasticity.C:552-573): without solution vector they are left as they were. -/
def kinem (B : DMat K) (eV : List K) (eps : Nat → K) : Nat → K := if eV.isEmpty then eps else fun i => B.mulV (comps eV) i

variable [LinearOrder K]

/-- The part of `LinearElasticity::evalInt` for the dual load (Elasticity/LinearElasticity.C:195, 258-278), with the load vector `b`. -/
def dualPoint (m : Mat K) (nsd : Nat) (twoPi tol : K) (dS : Nat) (vec : List (List K)) (b : Nat → K) (p : Pnt K) : Res (Nat → K) :=
  if dS ≤ 1 ∨ vec.length ≤ 1 then .ok b
  else
    let n := nst nsd m.axiSymmetry
    let eps := kinem p.B (vec.getD 1 []) (kinem p.B (vec.getD 0 []) fun _ => 0)
    if ∀ i < n, |eps (i + 1)| ≤ tol then .ok b
    else match (evaluate m nsd n p.fe p.X eps 1).2 with
      | .ok o => match o.sig with
        | some s => .ok fun d => b d + ∑ i ∈ Finset.range p.B.nr, p.B.e (i + 1) d * (s (i + 1) * vol m.axiSymmetry twoPi p)
        | none => .fail
      | .fail => .fail
      | .ub => .ub

/-- The dual load vector of an element over its integration points. -/
def dualLoad (m : Mat K) (nsd : Nat) (twoPi tol : K) (dS : Nat) (vec : List (List K)) (ps : List (Pnt K)) : Res (Nat → K) :=
  ps.foldl (fun r p => r.bind fun b => dualPoint m nsd twoPi tol dS vec b p) (.ok fun _ => 0)

/-! ### Norms -/

/-- The strains of the `n` extraction functions (Elasticity/Elasticity.C:1119-1124, 868-890); a vector of the wrong size is an error. -/
def dualStrains (nst n : Nat) (B : DMat K) (vec : List (List K)) : Res (List (List K)) :=
  if ∀ k < n, (vec.getD (k + 1) []).isEmpty ∨ (vec.getD (k + 1) []).length = B.nc then
    .ok ((List.range n).map fun k => if (vec.getD (k + 1) []).isEmpty then [] else (List.range nst).map fun i => B.mulV (comps (vec.getD (k + 1) [])) (i + 1))
  else .fail

/-- The data of an integration point for the norms (Elasticity/Elasticity.C:1103-1136) when stresses are reported: the finite element stress from `evalSol` (771-810) and the strains of the
extraction functions; the rest is given by `d`. -/
def normPoint (m : Mat K) (h : Heat K) (nsd : Nat) (twoPi : K) (nExt : Nat) (vec : List (List K)) (d : Norms.Pt K) (p : Pnt K) : Res (Norms.Pt K) :=
  if vec.isEmpty then .fail
  else if ¬ (vec.getD 0 []).isEmpty ∧ (vec.getD 0 []).length ≠ p.B.nc then .fail
  else
    (recover m h nsd p.fe p.X (kinem p.B (vec.getD 0 []) fun _ => 0)).bind fun s =>
    (dualStrains (nst nsd m.axiSymmetry) nExt p.B vec).bind fun ez =>
    .ok { d with rows := nst nsd m.axiSymmetry, sh := (List.range (sigSize m nsd)).map (fun i => s (i + 1)), epsz := ez, w := vol m.axiSymmetry twoPi p }

/-- The norms of an element over its integration points, each with the other data of the point. -/
def elmNorm (m : Mat K) (h : Heat K) (nsd : Nat) (twoPi : K) (nExt : Nat) (vec : List (List K)) (ps : List (Norms.Pt K × Pnt K)) (nrm : List K) : Res (List K) :=
  ps.foldl (fun r q => r.bind fun a => (normPoint m h nsd twoPi nExt vec q.1 q.2).bind fun d => Norms.elEvalInt false d a) (.ok nrm)

end

end Verif.Dual
