/-
Model of the administration of contact bodies: FiniteDeformation/SIMContact.C, and the positions of rigid bodies, FiniteDeformation/RigidBody.C.

Library assumptions: `ASMbase::addXElms` adds the nodes of the array given to it to the patch, after completing the array with new node numbers to the size asked for;
`fix` and `prescribe` register a local node and component of the patch; `findMPC` finds the registration of a global node and component in the patch.
-/
import Verif.Basic

namespace Verif.ContactInput

/-! ### Bodies -/

/-- The tags of rigid bodies. -/
inductive Kind
  | sphere | cylinder | plane
  deriving DecidableEq, Repr

/-- Number of master points (FiniteDeformation/RigidBody.h:104, 186, FiniteDeformation/RigidBody.C:151-155; `getNoNodes`). -/
def nMast (nsd : Nat) : Kind → Nat
  | .sphere => 1
  | .cylinder => nsd - 1
  | .plane => nsd

/-- `nsd` of the body: the constructor of the sphere always has three dimensions (FiniteDeformation/RigidBody.h:104), those of the others the ones of the model (FiniteDeformation/SIMContact.C:151-156). -/
def bodyDim (nsd : Nat) : Kind → Nat
  | .sphere => 3
  | _ => nsd

/-- A patch: its nodes by global number, and the fixed and prescribed components of local nodes (from zero). -/
structure Patch where
  nodes : List Nat
  fixed : List (Nat × Nat)
  presc : List (Nat × Nat)
  deriving DecidableEq, Repr

/-- The model: patches, largest node number, number of functions, and the functions of prescribed movements by patch, node and component (`dMap`). -/
structure W where
  patches : List Patch
  gNod : Nat
  nFun : Nat
  dMap : List ((Nat × Nat × Nat) × Nat)
  deriving DecidableEq, Repr

/-- The array of master nodes is completed with new numbers (`ASMbase::addXElms` of the library). -/
def complete (n g : Nat) (nodes : List Nat) : List Nat := nodes ++ (List.range (n - nodes.length)).map (fun i => g + 1 + i)

/-- `addXElms` for patch `p` (from one); `valid` tells if the item is a boundary of it. -/
def addX (n p : Nat) (w : W) (nodes : List Nat) : W × List Nat :=
  ({ w with
      patches := w.patches.modify (p - 1) (fun q => { q with nodes := q.nodes ++ complete n w.gNod nodes })
      gNod := w.gNod + (n - nodes.length) }, complete n w.gNod nodes)

/-- The loop over the items of a slave set in `addContactElms` (FiniteDeformation/SIMContact.C:53-64): items are patch numbers with a flag for validity. Result: model, master nodes and the patches in
contact. -/
def addItems (n : Nat) : List (Nat × Bool) → W → List Nat → List Nat → Option (W × List Nat × List Nat)
  | [], w, nodes, cs => some (w, nodes, cs)
  | (p, valid) :: l, w, nodes, cs =>
    if 0 < p ∧ p ≤ w.patches.length then
      if valid then addItems n l (addX n p w nodes).1 (addX n p w nodes).2 (cs ++ [p]) else none
    else addItems n l w nodes cs

/-- Children of the tag of a body: the condition of a movement is fixed, or prescribed by a function, for a component. -/
inductive Tag (X : Type)
  | point (x : X)
  | slave (items : Option (List (Nat × Bool)))
  | fix (comp : Nat)
  | move (comp : Nat)
  | other

/-- The state of the loop over the children: model, points so far, node numbers of the body, and patches in contact with it. -/
structure B (X : Type) where
  w : W
  pts : List X
  mlgn : List Nat
  cs : List Nat

/-- Fixing of the last `n` nodes of a patch (FiniteDeformation/SIMContact.C:202-205). -/
def fixLast (n comp : Nat) (q : Patch) : Patch :=
  { q with fixed := q.fixed ++ (List.range n).map fun i => (q.nodes.length - n + i, comp) }

/-- Prescribing the last `n` nodes of a patch (FiniteDeformation/SIMContact.C:202-208). -/
def prescLast (n comp : Nat) (q : Patch) : Patch :=
  { q with presc := q.presc ++ (List.range n).map fun i => (q.nodes.length - n + i, comp) }

/-- `findMPC` (library): is the global node prescribed in the patch? -/
def hasMPC (q : Patch) (node comp : Nat) : Bool := q.presc.any fun r => decide (q.nodes[r.1]? = some node ∧ r.2 = comp)

/-- A child of the tag of a body with `n` master points (FiniteDeformation/SIMContact.C:163-221). -/
def parseTag {X : Type} (n : Nat) (b : B X) : Tag X → Option (B X)
  | .point x => some (if b.pts.length < n then { b with pts := b.pts ++ [x] } else b)
  | .slave none => none
  | .slave (some items) =>
    match addItems n items b.w [] b.cs with
    | none => none
    | some (w, nodes, cs) => some ⟨w, b.pts, nodes ++ b.mlgn.drop nodes.length, cs⟩
  | .fix comp => some { b with w := { b.w with patches := b.cs.foldl (fun ps p => ps.modify (p - 1) (fixLast n comp)) b.w.patches } }
  | .move comp =>
    if 0 < comp ∧ comp ≤ 3 then
      let ps := b.cs.foldl (fun ps p => ps.modify (p - 1) (prescLast n comp)) b.w.patches
      let found := b.cs.flatMap fun p => b.mlgn.filterMap fun node =>
        match ps[p - 1]? with
        | none => none
        | some q => if hasMPC q node comp then some ((p, node, comp), b.w.nFun) else none
      some { b with w := { b.w with patches := ps, nFun := b.w.nFun + 1, dMap := b.w.dMap ++ found } }
    else some b
  | .other => some b

/-- All children of the tag (FiniteDeformation/SIMContact.C:162-222). -/
def parseTags {X : Type} (n : Nat) : List (Tag X) → B X → Option (B X)
  | [], b => some b
  | t :: l, b => match parseTag n b t with
    | none => none
    | some b' => parseTags n l b'

/-- The loop over the tags of a contact definition, for the radii only (FiniteDeformation/SIMContact.C:142-158): the variable keeps its value from one tag to the next. The tag gives a kind, or is unknown,
and a radius or none. -/
def radii {K : Type} : K → List (Option Kind × Option K) → List (Kind × K)
  | _, [] => []
  | R, (k, r) :: l =>
    match k with
    | none => radii (r.getD R) l
    | some k => (k, r.getD R) :: radii (r.getD R) l

/-- `parseContactTag` (FiniteDeformation/SIMContact.C:123-140): a second definition is an error, the formulation is the penalty method if it is named so. -/
inductive Method
  | none | penalty | augmented
  deriving DecidableEq, Repr

/-- The choice of formulation for the attribute in lower case. -/
def parseMethod (cur : Method) (attr : Option String) : Option Method :=
  if cur = .none then some (if attr = some "penalty" then .penalty else .augmented) else none

/-! ### Positions -/

/-- `RigidBody::update` (FiniteDeformation/RigidBody.C:67-88) for one master point with node `n` (from one) and the displacement vector of the model; without the check for the
debug build, a read outside of the vector is undefined. -/
def update {K : Type} [Add K] (nsd n : Nat) (x0 : Fin 3 → K) (displ : List K) : Res (Fin 3 → K) :=
  if displ = List.nil then .ok x0
  else if n = 0 ∨ displ.length < nsd * (n - 1) + nsd then .ub
  else .ok fun j => if h : j.val < nsd then (match displ[nsd * (n - 1) + j.val]? with | some d => x0 j + d | none => x0 j) else x0 j

/-! ### Integrands, reactions and names -/

/-- Integrands of a body in the order of their insertion. -/
inductive Itg
  | mortar (body : Nat) | penalty (body : Nat) | augmented (body : Nat)
  deriving DecidableEq, Repr

/-- `preprocessContact` (FiniteDeformation/SIMContact.C:236-267): the penalty parameters of the bodies. -/
def preprocess {K : Type} [LT K] [Zero K] [DecidableLT K] (m : Method) : List (Nat × K) → Option (List Itg)
  | [] => some []
  | (b, eps) :: l =>
    if 0 < eps then
      match m with
      | .none => none
      | .penalty => (preprocess m l).map fun r => [.mortar b, .penalty b] ++ r
      | .augmented => (preprocess m l).map fun r => [.mortar b, .augmented b] ++ r
    else preprocess m l

/-- Total number of master nodes (FiniteDeformation/SIMContact.C:240-242). -/
def totalMasters (l : List (List Nat)) : Nat := l.foldl (fun n b => n + b.length) 0

/-- Value of a reaction, zero where there is none (FiniteDeformation/SIMContact.C:370-371). -/
def valOf {K : Type} [Zero K] (v : Option (Fin 3 → K)) (k : Fin 3) : K :=
  match v with
  | some v => v k
  | none => 0

/-- The sum of the reactions in the nodes of a body (FiniteDeformation/SIMContact.C:368-372); `react` is `none` for nodes without reactions. -/
def bodyReaction {K : Type} [Zero K] [Add K] (react : Nat → Option (Fin 3 → K)) (nodes : List Nat) : Fin 3 → K :=
  nodes.foldl (fun r n k => r k + valOf (react n) k) (fun _ => 0)

/-- Name of the body with index `i` from zero (FiniteDeformation/SIMContact.C:316-325, 365, 382): the last character is incremented. -/
def bodyName (i : Nat) : List Char := "Rigid Body ".toList ++ [Char.ofNat (49 + i)]

/-- `updateDirichlet` (FiniteDeformation/SIMContact.C:270-275): the prescribed values at a time. -/
def updateDirichlet {T K : Type} (dMap : List ((Nat × Nat × Nat) × Nat)) (f : Nat → Option (T → K)) (t : T) : List ((Nat × Nat × Nat) × K) :=
  dMap.filterMap fun e => match f e.2 with
    | some g => some (e.1, g t)
    | none => none

end Verif.ContactInput
