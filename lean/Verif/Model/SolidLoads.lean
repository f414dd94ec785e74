/-
Loads and materials of solid models: Elasticity/SIMElasticity.C (Neumann conditions, materials, text input of pressures and materials, constraints on master points),
Elasticity/Elasticity.C and .h (tractions, body forces), Elasticity/KirchhoffLove.C and .h, Shell/SIMKLShell.C (tractions of plates and shells).

IFEM assumptions: `SIMbase` assembles the boundary terms property by property, calling `initNeumann` with the index of the property first, and keeps the integrand between assemblies;
`setPropertyType(code,type,index)` acts on the properties with this code which have no type yet.
-/
import Verif.Basic
import Mathlib.Algebra.Field.Basic

namespace Verif.SolidLoads

/-! ### Tractions -/

/-- The traction pointers of an integrand (Elasticity/Elasticity.h:362-363, Elasticity/KirchhoffLove.h:218-219): an explicit traction function of type `V` or an implicit one of type `T`. -/
structure Fld (V T : Type) where
  flux : Option V := none
  trac : Option T := none

section
variable {V T : Type}

/-- `Elasticity::setTraction(TractionFunc*)` (Elasticity/Elasticity.h:66). -/
def setTrac (f : Fld V T) (t : Option T) : Fld V T := { f with trac := t }

/-- `setTraction(VecFunc*)` (Elasticity/Elasticity.h:68, Elasticity/KirchhoffLove.h:87). -/
def setFlux (f : Fld V T) (v : Option V) : Fld V T := { f with flux := v }

/-- `KirchhoffLove::setTraction(TractionFunc*)` (Elasticity/KirchhoffLove.h:85). -/
def setTracKL (_ : Fld V T) (t : Option T) : Fld V T := { flux := none, trac := t }

/-- `SIMElasticity::initNeumann` (Elasticity/SIMElasticity.C:833-849): `vecs` and `tracs` are the functions by property index; `none` on failure. -/
def initNeumann (vecs : Nat → Option V) (tracs : Nat → Option T) (f : Fld V T) (c : Nat) : Option (Fld V T) :=
  match vecs c with
  | some v => some (setFlux f (some v))
  | none => match tracs c with
    | some t => some (setTrac f (some t))
    | none => none

/-- `SIMKLShell::initNeumann` (Shell/SIMKLShell.C:394-410). -/
def initNeumannKL (vecs : Nat → Option V) (tracs : Nat → Option T) (f : Fld V T) (c : Nat) : Option (Fld V T) :=
  match vecs c with
  | some v => some (setFlux f (some v))
  | none => match tracs c with
    | some t => some (setTracKL f (some t))
    | none => none

/-- The function used by `getTraction` (Elasticity/Elasticity.C:269-277, Elasticity/KirchhoffLove.C:272-280), none for a zero traction. -/
def getTraction (f : Fld V T) : Option (V ⊕ T) :=
  match f.flux with
  | some v => some (.inl v)
  | none => match f.trac with
    | some t => some (.inr t)
    | none => none

/-- An assembly: the functions used on the boundaries with the given property indices, in order, and the integrand afterwards; `none` if one of the properties has no function. -/
def assemble (init : Fld V T → Nat → Option (Fld V T)) (f : Fld V T) : List Nat → Option (Fld V T × List (Option (V ⊕ T)))
  | [] => some (f, [])
  | c :: cs => (init f c).bind fun g => (assemble init g cs).map fun r => (r.1, getTraction g :: r.2)

end

/-! ### Body forces and the question whether there are loads -/

section
variable {K : Type*} [Field K] [DecidableEq K] {X : Type}

/-- A component of `Elasticity::getBodyforce` (Elasticity/Elasticity.C:280-292) and of its time derivative; `body` and `bodyDot` are the components of the body force function. -/
def getBodyforce (gravity : K) (density : X → K) (body bodyDot : Option (X → K)) (x : X) (grd : Bool) : K :=
  if grd then
    match bodyDot with
    | some b => b x
    | none => 0
  else
    gravity * density x + (match body with
      | some b => b x
      | none => 0)

/-- `Elasticity::haveLoads` (Elasticity/Elasticity.C:295-306), `x0` is the origin, `gravity` the components. -/
def haveLoads (trac flux body : Bool) (gravity : List K) (density : X → K) (x0 : X) : Bool :=
  trac || flux || body || (gravity.any (· != 0) && density x0 != 0)

/-- `KirchhoffLove::haveLoads` (Elasticity/KirchhoffLove.C:310-327) for type `I`, `B` or `A`. -/
def haveLoadsKL (type : Char) (pres line flux trac : Bool) (gravity : K) (density : Option (X → K)) (x0 : X) : Bool :=
  ((type = 'A' ∨ type = 'I') && (pres || line || (gravity != 0 && (match density with
    | some d => d x0 != 0
    | none => false)))) || ((type = 'A' ∨ type = 'B') && (flux || trac))

end

/-! ### Materials -/

/-- `SIMElasticity::initMaterial` (Elasticity/SIMElasticity.C:809-818): an index which is too large means the last material; the subtraction wraps around for no materials. -/
def initMaterial {M : Type} (mats : List M) (i : Nat) : Res M :=
  let i := if i ≥ mats.length then mats.length - 1 else i
  match mats[i]? with
  | some m => .ok m
  | none => .ub

/-- Property types used here. -/
inductive PT
  | undefined
  | material
  | neumann
  | other
deriving DecidableEq, Repr

/-- A property: type, index and patch. -/
structure Prp where
  pcode : PT
  pindx : Nat
  patch : Nat
  face : Nat := 0
deriving DecidableEq, Repr

/-- `SIMbase::setPropertyType`: `idx` is the new index, if any. -/
def setPropertyType (code : Nat) (t : PT) (idx : Option Nat) (ps : List Prp) : List Prp :=
  ps.map fun p => if p.pindx = code ∧ p.pcode = .undefined then { p with pcode := t, pindx := idx.getD p.pindx } else p

/-- The model data changed by the text input. -/
structure Sim (M P : Type) where
  mats : List M := []
  props : List Prp := []
  tracs : Nat → Option P := fun _ => none

section
variable {M P : Type}

/-- Assignment to a map. -/
def put (f : Nat → Option P) (c : Nat) (p : P) : Nat → Option P := fun d => if d = c then some p else f d

/-- The loop of the keyword `ISOTROPIC` (Elasticity/SIMElasticity.C:486-500): codes and materials. -/
def parseIsotropic (s : Sim M P) : List (Nat × M) → Sim M P
  | [] => s
  | (c, m) :: l => parseIsotropic
      { s with props := if c > 0 then setPropertyType c .material (some s.mats.length) s.props else s.props, mats := s.mats ++ [m] } l

/-- A line of the keyword `PRESSURE` (Elasticity/SIMElasticity.C:529-585): patch, face and pressure. -/
structure PLine (P : Type) where
  patch : Nat
  face : Nat
  load : P

/-- The loop of the keyword `PRESSURE` from line `i` on; `loc` is `getLocalPatchIndex`: `none` for an invalid patch, zero for a patch of another process. -/
def parsePressure (dim : Nat) (loc : Nat → Option Nat) (i : Nat) (s : Sim M P) : List (PLine P) → Option (Sim M P)
  | [] => some s
  | l :: ls =>
    match loc l.patch with
    | none => none
    | some 0 => parsePressure dim loc (i + 1) s ls
    | some (pid + 1) =>
      if l.face < 1 ∨ l.face > 2 * dim then none
      else parsePressure dim loc (i + 1) { s with tracs := put s.tracs (1 + i) l.load, props := s.props ++ [⟨.neumann, 1 + i, pid + 1, l.face⟩] } ls

/-- The loop of the keywords `CONSTANT_PRESSURE` and `LINEAR_PRESSURE` (Elasticity/SIMElasticity.C:621-644): codes and pressures. -/
def parseCodedPressure (s : Sim M P) : List (Nat × P) → Sim M P
  | [] => s
  | (c, p) :: l => parseCodedPressure { s with props := setPropertyType c .neumann none s.props, tracs := put s.tracs c p } l

/-- A line of the keyword `MATERIAL` (Elasticity/SIMElasticity.C:587-609): the patches of a material, `ALL` is `none`. -/
def parseMatPatches (loc : Nat → Option Nat) (idx : Nat) (ps : List Prp) : List (Option Nat) → Option (List Prp)
  | [] => some ps
  | none :: l => parseMatPatches loc idx ps l
  | some p :: l =>
    match loc p with
    | none => none
    | some 0 => parseMatPatches loc idx ps l
    | some (pid + 1) => parseMatPatches loc idx (ps ++ [⟨.material, idx, pid + 1, 0⟩]) l

/-- The keyword `MATERIAL` (Elasticity/SIMElasticity.C:587-609). -/
def parseMaterial (loc : Nat → Option Nat) (s : Sim M P) : List (M × List (Option Nat)) → Option (Sim M P)
  | [] => some s
  | (m, l) :: ls =>
    match parseMatPatches loc s.mats.length s.props l with
    | none => none
    | some ps => parseMaterial loc { s with mats := s.mats ++ [m], props := ps } ls

/-- The function of a Neumann property, looked up by its index. -/
def tracOf (s : Sim M P) (p : Prp) : Option P := s.tracs p.pindx

end

/-- The keyword `GRAVITY` (Elasticity/SIMElasticity.C:502-512): a missing token is a null pointer passed to `atof`. -/
def parseGravity {K : Type*} [Zero K] (dim : Nat) (tokens : List K) : Res (K × K × K) :=
  match tokens with
  | gx :: gy :: l =>
    if dim = 3 then
      match l with
      | gz :: _ => .ok (gx, gy, gz)
      | [] => .ub
    else .ok (gx, gy, 0)
  | _ => .ub

/-! ### Constraints on master points -/

/-- A patch: its number of fields, its extraordinary nodes and the number of fields each was constrained with. -/
structure Patch where
  nf : Nat
  xnodes : List Nat
  fixed : List (Nat × Nat) := []
deriving DecidableEq, Repr

/-- The loop of `SIMElasticity::addConstraint` over the patches (Elasticity/SIMElasticity.C:776-800): `constrainXnode` finds an extraordinary node of the patch. -/
def addConstraint (nsd node : Nat) : List Patch → List Patch × Bool
  | [] => ([], false)
  | p :: ps =>
    let old := p.nf
    let q := { p with nf := nsd * (nsd + 1) / 2 }
    if node ∈ q.xnodes then ({ q with fixed := q.fixed ++ [(node, q.nf)], nf := old } :: ps, true)
    else
      let r := addConstraint nsd node ps
      ({ q with nf := old } :: r.1, r.2)

end Verif.SolidLoads
