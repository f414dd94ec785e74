/-
The static problem of a whole solid model in linear elasticity: element matrices (Elasticity/LinearElasticity.C), their assembly, and the equations that main_LinEl.C solves.

IFEM assumptions: `SIMbase::assembleSystem` adds each element matrix and vector to the equations of the nodes of the element (direct stiffness method), and `solveSystem` returns a vector that solves the
equations of the free degrees of freedom and has the prescribed values in the others. Constraint equations are not modelled. Nodes and components are counted from one.
-/
import Verif.Model.Continuum
import Verif.Model.LinIsotropic

namespace Verif.Struct

open Verif.Cont

variable {K : Type*} [Field K]

/-- An integration point: gradients of the basis functions, material, point and weight (`fe.dNdX`, `material`, `fe`, `X` and `detJW` in Elasticity/LinearElasticity.C:181-215). -/
structure QPt (K : Type*) where
  dN : DMat K
  mat : LinIso.Mat K
  fe : LinIso.FE K
  X : LinIso.Pt K
  w : K

/-- An element: number of nodes, the global node of each of its nodes, and its integration points. -/
structure Elm (K : Type*) where
  nen : Nat
  node : Nat → Nat
  pts : List (QPt K)

/-- `LinearElasticity::evalInt` in a static analysis without displacements (Elasticity/LinearElasticity.C:181-223): the stiffness matrix after an integration point. The material also evaluates stresses, for zero strains. -/
def evalInt [LinearOrder K] (nsd : Nat) (EK : DMat K) (p : QPt K) : Res (DMat K) :=
  (formB nsd p.dN).bind fun B =>
  (LinIso.evaluate p.mat nsd B.nr p.fe p.X (fun _ => 0) 1).2.bind fun o =>
  .ok (addKm EK B o.C p.w)

/-- The loop over the integration points (Elasticity/LinearElasticity.C:181-223 for each of them). -/
def evalAll [LinearOrder K] (nsd : Nat) : List (QPt K) → DMat K → Res (DMat K)
  | [], EK => .ok EK
  | p :: l, EK => (evalInt nsd EK p).bind fun EK => evalAll nsd l EK

/-- The stiffness matrix of an element, from zero. -/
def elmK [LinearOrder K] (nsd : Nat) (e : Elm K) : Res (DMat K) := evalAll nsd e.pts (DMat.zero (nsd * e.nen) (nsd * e.nen))

/-- The stiffness matrices of all elements; a failure ends the assembly (main_LinEl.C:637-638). -/
def matrices [LinearOrder K] (nsd : Nat) : List (Elm K) → Res (List (Elm K × DMat K))
  | [] => .ok []
  | e :: l => (elmK nsd e).bind fun A => (matrices nsd l).bind fun r => .ok ((e, A) :: r)

/-- The assembled matrix, as result of main_LinEl.C:637: the entry for component `i` of node `a` and component `j` of node `b`. -/
def asmK (nsd : Nat) (es : List (Elm K × DMat K)) (a i b j : Nat) : K :=
  (es.map fun e => ∑ s ∈ Finset.range e.1.nen, ∑ t ∈ Finset.range e.1.nen,
    if e.1.node (s + 1) = a ∧ e.1.node (t + 1) = b then e.2.e (nsd * s + i) (nsd * t + j) else 0).sum

/-- The assembled vector of element vectors. -/
def asmV (nsd : Nat) (es : List (Elm K × DVec K)) (a i : Nat) : K :=
  (es.map fun e => ∑ s ∈ Finset.range e.1.nen, if e.1.node (s + 1) = a then e.2.e (nsd * s + i) else 0).sum

/-- The product of the assembled matrix and a vector of nodal values. -/
def nodal (nsd n : Nat) (Kg : Nat → Nat → Nat → Nat → K) (u : Nat → Nat → K) (a i : Nat) : K :=
  ∑ b ∈ Finset.range n, ∑ j ∈ Finset.range nsd, Kg a i (b + 1) (j + 1) * u (b + 1) (j + 1)

/-- The equations solved in main_LinEl.C:653, for loads `F` and prescribed displacements `g` where `fixed`. -/
structure Solves (nsd n : Nat) (Kg : Nat → Nat → Nat → Nat → K) (F g : Nat → Nat → K) (fixed : Nat → Nat → Prop) (u : Nat → Nat → K) : Prop where
  free : ∀ a i, a < n → i < nsd → ¬ fixed (a + 1) (i + 1) → nodal nsd n Kg u (a + 1) (i + 1) = F (a + 1) (i + 1)
  held : ∀ a i, a < n → i < nsd → fixed (a + 1) (i + 1) → u (a + 1) (i + 1) = g (a + 1) (i + 1)

/-- The forces of the supports: internal forces minus loads (the reaction forces of Linear/SIMLinEl.h:79-84). -/
def reaction (nsd n : Nat) (Kg : Nat → Nat → Nat → Nat → K) (F u : Nat → Nat → K) (a i : Nat) : K := nodal nsd n Kg u a i - F a i

end Verif.Struct
