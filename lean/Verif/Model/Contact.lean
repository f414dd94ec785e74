/-
Model of the mortar contact integrands (FiniteDeformation/MortarContact.C), the rigid bodies
(FiniteDeformation/RigidBody.C) and the numbering of contact multipliers
(FiniteDeformation/SIMContact.C).

Node numbers and vector components are one-based. The equations of node `i` are taken to be the
`npv` numbers `npv*(i-1)+1..npv*i`, i.e. a model without constraints; constraint handling in
`SystemMatrix::assemble` belongs to the IFEM library. The sparse matrix `phiA` is modelled as a
dense one with the same content.
-/
import Verif.Basic
import Mathlib.Analysis.Real.Sqrt
import Mathlib.Data.List.OfFn

namespace Verif.Contact

/-! ### Weighted gaps -/

section point

variable {K : Type*} [Field K]

/-- The data of one integration point of the slave boundary: the values of the slave and master
interpolation functions, the normal vector of the master surface, the gap and `detJxW`. -/
structure Pt (K : Type*) where
  nS : Nat
  nM : Nat
  Ns : Nat → K
  Nm : Nat → K
  nrm : Nat → K
  gap : K
  w : K

/-- The contributions to the matrix `phiA` of an element
(FiniteDeformation/MortarContact.C:165-176). -/
def phiList (npv : Nat) (p : Pt K) : List (Nat × Nat × K) :=
  (List.range p.nS).flatMap fun j => (List.range (p.nS + p.nM)).flatMap fun i =>
    (List.range npv).map fun k =>
      (i * npv + k + 1, j + 1,
        if i + 1 ≤ p.nS then p.nrm (k + 1) * p.w * p.Ns (i + 1) * p.Ns (j + 1)
        else -(p.nrm (k + 1) * p.w * p.Nm (i + 1 - p.nS) * p.Ns (j + 1)))

/-- The element matrices of the weighted gap integrand: `phiA`, `AA` and `gNA`. -/
structure GapMats (K : Type*) where
  phi : DMat K
  area : DVec K
  gap : DVec K

/-- `MortarContact::evalBou` (FiniteDeformation/MortarContact.C:147-183), the normal vector being known. -/
def gapPoint (npv : Nat) (m : GapMats K) (p : Pt K) : Res (GapMats K) :=
  (m.phi.addMany (phiList npv p)).bind fun phi =>
  (m.area.addMany ((List.range p.nS).map fun j => (j + 1, p.Ns (j + 1) * p.w))).bind fun area =>
  (m.gap.addMany ((List.range p.nS).map fun j => (j + 1, p.Ns (j + 1) * (p.gap * p.w)))).bind fun gap =>
  .ok ⟨phi, area, gap⟩

/-- All integration points of an element. -/
def gapElement (npv : Nat) : GapMats K → List (Pt K) → Res (GapMats K)
  | m, [] => .ok m
  | m, p :: l => (gapPoint npv m p).bind fun m => gapElement npv m l

/-- The element matrices before integration (`MortarContact::getLocalIntegral`,
FiniteDeformation/MortarContact.C:121-131). -/
def gapZero (npv nS nM : Nat) : GapMats K := ⟨DMat.zero (npv * (nS + nM)) nS, DVec.zero nS, DVec.zero nS⟩

/-- `MortarMats::finalize` (FiniteDeformation/MortarContact.C:94-111): the nodal gap. -/
def nodalGap [LinearOrder K] (area gap : K) : K := if 0 < area then gap / area else gap

/-! ### Residual and tangent -/

/-- The contributions to the residual vector in `accResAndTangent`
(FiniteDeformation/MortarContact.C:203-213), `lam` being the nodal gaps or pressures. -/
def resList (npv : Nat) (p : Pt K) (lam : Nat → K) (epsW : K) : List (Nat × K) :=
  let pN := (∑ j ∈ Finset.range p.nS, p.Ns (j + 1) * lam (j + 1)) * epsW
  (List.range (p.nS + p.nM)).flatMap fun j => (List.range npv).map fun l =>
    (j * npv + l + 1, pN * p.nrm (l + 1) *
      (if j + 1 ≤ p.nS then -p.Ns (j + 1) else p.Nm (j + 1 - p.nS)))

/-- The contributions to the tangent matrix in `accResAndTangent`
(FiniteDeformation/MortarContact.C:222-234), `Tg` being the geometric stiffness of the body. -/
def tanList (npv : Nat) (p : Pt K) (lam : Nat → K) (epsW : K) (Tg : Nat → Nat → K) :
    List (Nat × Nat × K) :=
  let pN := (∑ j ∈ Finset.range p.nS, p.Ns (j + 1) * lam (j + 1)) * epsW
  let Nn := fun j => if j + 1 ≤ p.nS then p.Ns (j + 1) else p.Nm (j + 1 - p.nS)
  (List.range (p.nS + p.nM)).flatMap fun j => (List.range npv).flatMap fun l =>
    (List.range (p.nS + p.nM)).flatMap fun i => (List.range npv).map fun k =>
      (i * npv + k + 1, j * npv + l + 1, Nn i * Nn j * (Tg (k + 1) (l + 1) * pN))

/-- The nodal gaps of `MortarPenalty::initElementBou` (FiniteDeformation/MortarContact.C:431-444) for
the nodes of the slave boundary. -/
def penaltyGap [LinearOrder K] (gap : K) : K := if 0 < gap then 0 else gap

/-- The residual of an element: `MortarPenalty::evalBou` (FiniteDeformation/MortarContact.C:449-466) at all
integration points. -/
def penaltyElement (npv : Nat) (eps : K) (lam : Nat → K) : DVec K → List (Pt K) → Res (DVec K)
  | R, [] => .ok R
  | R, p :: l => (R.addMany (resList npv p lam (eps * p.w))).bind fun R => penaltyElement npv eps lam R l

/-! ### System matrix -/

/-- The contributions to the system matrix in `assResAndTangent`
(FiniteDeformation/MortarContact.C:239-310): `nnod` nodes, the first `nslv` of which are slave nodes. -/
def sysList [LinearOrder K] (npv nnod nslv : Nat) (eps : K) (area : Nat → K)
    (phi : Nat → Nat → K) (active : List Bool) : List (Nat × Nat × K) :=
  let s := fun a b => ∑ n ∈ Finset.range active.length,
    if active[n]? = some true ∧ 0 < area (n + 1) then
      eps / area (n + 1) * phi a (n + 1) * phi b (n + 1) else 0
  let skip : Nat → Prop := fun i => i + 1 ≤ nslv ∧ area (i + 1) = 0
  if active = [] then []
  else (List.range nnod).flatMap fun i =>
    if skip i then []
    else ((List.range npv).flatMap fun k => (List.range npv).map fun l =>
        (i * npv + k + 1, i * npv + l + 1, s (i * npv + k + 1) (i * npv + l + 1))) ++
      (List.range (nnod - (i + 1))).flatMap fun d =>
        let j := i + 1 + d
        if skip j then []
        else (List.range npv).flatMap fun k => (List.range npv).flatMap fun l =>
          [(i * npv + k + 1, j * npv + l + 1, s (i * npv + k + 1) (j * npv + l + 1)),
           (j * npv + l + 1, i * npv + k + 1, s (i * npv + k + 1) (j * npv + l + 1))]

end point

/-! ### The set of active slave nodes -/

/-- `std::vector<bool>::resize(n,false)`. -/
def resizeB (l : List Bool) (n : Nat) : List Bool :=
  if n ≤ l.length then l.take n else l ++ List.replicate (n - l.length) false

/-- One step of the loop over the slave nodes: node `n + 1` is found in contact or not
(FiniteDeformation/MortarContact.C:368-377 and 523-549). -/
def markStep (cond : Nat → Bool) (n : Nat) (l : List Bool) : List Bool :=
  if cond (n + 1) then (resizeB l (n + 1)).dropLast ++ [true] else l

/-- The loop over `nslv` slave nodes. -/
def markAll (cond : Nat → Bool) : Nat → List Bool → List Bool
  | 0, l => l
  | n + 1, l => markStep cond n (markAll cond n l)

/-- `initIntegration` of the two contact formulations
(FiniteDeformation/MortarContact.C:348-393 and 492-555): `first0` is `prm.first && prm.it == 0`, `old` the
previous content of `activeSlave`. -/
def activate (first0 : Bool) (nslv : Nat) (cond : Nat → Bool) (old : List Bool) : List Bool :=
  markAll cond nslv (if first0 then resizeB old 1 else [])

/-- The condition of the penalty formulation (FiniteDeformation/MortarContact.C:369). -/
def penaltyCond {K : Type*} [Field K] [LinearOrder K] (area gap : Nat → K) (n : Nat) : Bool :=
  decide (0 < area n) && decide (gap n ≤ 0)

/-- The condition of the augmented Lagrangian formulation (FiniteDeformation/MortarContact.C:524-539);
`mult n` tells whether there is a multiplier for the node. -/
def augCond {K : Type*} [Field K] [LinearOrder K] (eps : K) (area gap lam : Nat → K)
    (mult : Nat → Bool) (n : Nat) : Bool :=
  decide (0 < area n) && mult n && decide (lam n + eps * gap n ≤ 0)

/-- `MortarPenalty::hasBoundaryTerms` (FiniteDeformation/MortarContact.C:396-402). -/
def hasBoundaryTerms (active : List Bool) : Bool :=
  match active with
  | [b] => b
  | l => decide (l.length > 1)

/-- Flag of the one-based node `n`. -/
def isActive (active : List Bool) (n : Nat) : Bool := (active[n - 1]?).getD false

/-! ### Augmented Lagrangian -/

section aug

variable {K : Type*} [Field K]

/-- The residual and diagonal tangent of the multiplier of one slave node with positive area
(FiniteDeformation/MortarContact.C:674-690). -/
def multiplierEqn (eps lam gap area : K) (active : Bool) : K × K :=
  if active then (-gap * area, 0) else (lam / eps * area, -area / eps)

/-- The indices and effective pressures of the nodes of an element
(`MortarAugmentedLag::initElementBou`, FiniteDeformation/MortarContact.C:584-606). A node of the element is
`none` if it is not on the slave boundary, else its global number; the result lists the index of the
multiplier (zero if inactive) and the effective pressure. -/
def lagNodes (eps : K) (lam gap : Nat → K) (active : List Bool) :
    Nat → List (Option Nat) → List (Nat × K)
  | _, [] => []
  | nLag, none :: l => (0, 0) :: lagNodes eps lam gap active nLag l
  | nLag, some n :: l =>
    (if isActive active n then (nLag + 1, lam n + eps * gap n) else (0, 0)) ::
      lagNodes eps lam gap active (nLag + 1) l

/-- The contributions to the coupling matrix `Kul`
(FiniteDeformation/MortarContact.C:630-650), `iLag` giving the multiplier index of a node. -/
def kulList (npv : Nat) (p : Pt K) (iLag : Nat → Nat) : List (Nat × Nat × K) :=
  (List.range p.nS).flatMap fun j =>
    if 0 < iLag (j + 1) then
      ((List.range p.nS).flatMap fun i => (List.range npv).map fun k =>
        (i * npv + k + 1, iLag (j + 1), p.nrm (k + 1) * p.Ns (i + 1) * p.Ns (j + 1) * p.w)) ++
      ((List.range p.nM).flatMap fun i => (List.range npv).map fun k =>
        ((p.nS + i) * npv + k + 1, iLag (j + 1),
          -(p.nrm (k + 1) * p.Nm (i + 1) * p.Ns (j + 1) * p.w)))
    else []

/-- The assignments of row `i` in `ALElmMats::getNewtonMatrix` (FiniteDeformation/MortarContact.C:733-745). -/
def newtonRow (ndof nlag : Nat) (Kuu Kul : DMat K) (i : Nat) : List (Nat × Nat × K) :=
  ((List.range ndof).map fun j => (i, j + 1, Kuu.e i (j + 1))) ++
  (List.range nlag).flatMap fun j =>
    [(i, ndof + (j + 1), Kul.e i (j + 1)), (ndof + (j + 1), i, Kul.e i (j + 1))]

/-- `ALElmMats::getNewtonMatrix` (FiniteDeformation/MortarContact.C:724-751), `N0` being the content of the
matrix after `resize`. -/
def newton (Kuu Kul : DMat K) (N0 : Nat → Nat → K) : Res (DMat K) :=
  let ndof := Kuu.nc
  let nlag := Kul.nc
  loop (fun i N => N.setMany (newtonRow ndof nlag Kuu Kul (i + 1))) ndof
    ⟨ndof + nlag, ndof + nlag, N0⟩

end aug

/-! ### Contact multipliers -/

/-- The map from slave nodes to multipliers, and the number of nodes in use. -/
structure Mult where
  map : List (Nat × Nat)
  ngnod : Nat

/-- The multiplier of a slave node, which is added if needed (FiniteDeformation/SIMContact.C:99-103). -/
def assign (m : Mult) (node : Nat) : Mult × Nat :=
  match m.map.lookup node with
  | some l => (m, l)
  | none => (⟨(node, m.ngnod + 1) :: m.map, m.ngnod + 1⟩, m.ngnod + 1)

/-- The slave nodes of an element in sequence (FiniteDeformation/SIMContact.C:94-104). -/
def assignElm : Mult → List Nat → Mult × List Nat
  | m, [] => (m, [])
  | m, n :: l =>
    let r := assign m n
    let s := assignElm r.1 l
    (s.1, r.2 :: s.2)

/-- All contact elements of a sequence of patches (FiniteDeformation/SIMContact.C:83-116); the elements are
given by the global numbers of their slave boundary nodes. -/
def assignAll : Mult → List (List Nat) → Mult × List (List Nat)
  | m, [] => (m, [])
  | m, e :: l =>
    let r := assignElm m e
    let s := assignAll r.1 l
    (s.1, r.2 :: s.2)

/-! ### Rigid bodies -/

/-- Points and vectors. -/
abbrev V3 := Fin 3 → ℝ

def dot (a b : V3) : ℝ := a 0 * b 0 + a 1 * b 1 + a 2 * b 2
noncomputable def len (a : V3) : ℝ := Real.sqrt (dot a a)
def cross (a b : V3) : V3 := ![a 1 * b 2 - a 2 * b 1, a 2 * b 0 - a 0 * b 2, a 0 * b 1 - a 1 * b 0]

/-- Gap, normal vector and weights of the master points. -/
structure Gap where
  gap : ℝ
  nrm : V3
  N : List ℝ

/-- `RigidSphere::evalGap` (FiniteDeformation/RigidBody.C:115-124). -/
noncomputable def sphereGap (c : V3) (R : ℝ) (X : V3) : Gap :=
  let d := X - c
  ⟨len d - R, (len d)⁻¹ • d, [1]⟩

/-- `RigidSphere::geometricStiffness` (FiniteDeformation/RigidBody.C:127-148) away from the centre. -/
noncomputable def sphereTg (c : V3) (X : V3) (i j : Fin 3) : ℝ :=
  let d := X - c
  let n := (len d)⁻¹ • d
  ((if i = j then 1 else 0) - n i * n j) / len d

/-- The axis of a cylinder given by two points (`RigidCylinder::update`,
FiniteDeformation/RigidBody.C:177-195); in two dimensions the axis is the third coordinate axis. -/
noncomputable def cylAxis (x0 x1 : V3) : V3 := (len (x1 - x0))⁻¹ • (x1 - x0)

/-- `RigidCylinder::evalGap` (FiniteDeformation/RigidBody.C:198-215) for a point `x0` and direction `a` of
the axis, in two (`threeD = false`) or three dimensions. -/
noncomputable def cylGap (threeD : Bool) (x0 a : V3) (L R : ℝ) (X : V3) : Gap :=
  let d := X - x0
  let z := dot d a
  let n := d - z • a
  ⟨len n - R, (len n)⁻¹ • n, if threeD then [1 - z / L, z / L] else [1]⟩

/-- `RigidCylinder::geometricStiffness` (FiniteDeformation/RigidBody.C:218-246) away from the axis. -/
noncomputable def cylTg (x0 a : V3) (X : V3) (i j : Fin 3) : ℝ :=
  let d := X - x0
  let z := dot d a
  let n0 := d - z • a
  let n := (len n0)⁻¹ • n0
  ((if i = j then 1 else 0) - a i * a j - n i * n j) / len n0

/-- `RigidPlane::update` (FiniteDeformation/RigidBody.C:269-297): normal vector and area; false if the points
do not span a plane (the tolerance is taken as zero). -/
noncomputable def planeUpdate (threeD : Bool) (x0 x1 x2 : V3) : Option (V3 × ℝ) :=
  let t1 := x1 - x0
  if threeD then
    let n := cross t1 (x2 - x0)
    if len n ≤ 0 then none else some ((len n)⁻¹ • n, len n)
  else if len t1 ≤ 0 then none
    else some (![-((len t1)⁻¹ * t1 1), (len t1)⁻¹ * t1 0, 0], len t1)

/-- `RigidPlane::evalGap` (FiniteDeformation/RigidBody.C:300-327). -/
noncomputable def planeGap (threeD : Bool) (x0 x1 x2 : V3) (n : V3) (area : ℝ) (X : V3) : Gap :=
  let d0 := X - x0
  let gN := dot d0 n
  let d := d0 - gN • n
  ⟨gN, n,
    if threeD then
      let A2 := len (cross d (x1 - x0)) / area
      let A3 := len (cross (x2 - x0) d) / area
      [1 - A2 - A3, A2, A3]
    else
      let xi := len d / area
      [1 - xi, xi]⟩

end Verif.Contact
