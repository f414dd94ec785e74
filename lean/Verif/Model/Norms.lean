/-
Model of the norm integrands: `ElasticityNorm` (Elasticity/Elasticity.C:1096-1350) and
`KirchhoffLovePlateNorm` (Linear/KirchhoffLovePlate.C:403-887), and of the tracking of extreme
values in `Elasticity::evalSol2` (Elasticity/Elasticity.C:722-768).

`utl::vector<Real>` is a list.  The sizes of two vectors in a scalar product or a difference
agree wherever the theorems use them; IFEM's behaviour on different sizes is taken as "the common
part", and no theorem that claims correctness depends on it.
-/
import Verif.Basic

namespace Verif.Norms

variable {K : Type*}

/-- `Vector::dot`. -/
def ldot [Semiring K] (a b : List K) : K := (List.zipWith (· * ·) a b).sum

/-- Difference of two vectors. -/
def lsub [Ring K] (a b : List K) : List K := List.zipWith (· - ·) a b

/-- The norm array `pnorm` with the running index `ip`. -/
structure Acc (K : Type*) where
  ip : Nat
  p : List K

/-- One statement of the norm integrands: `some v` is `pnorm[ip++] += v`, `none` is `ip++`.
Writing beyond the end of the array is undefined behaviour. -/
def Acc.step [Add K] (s : Acc K) : Option K → Res (Acc K)
  | none => .ok ⟨s.ip + 1, s.p⟩
  | some v =>
    if s.ip < s.p.length then .ok ⟨s.ip + 1, s.p.modify s.ip (· + v)⟩ else .ub

/-- A sequence of such statements. -/
def Acc.run [Add K] (s : Acc K) : List (Option K) → Res (Acc K)
  | [] => .ok s
  | o :: l => (s.step o).bind fun t => t.run l

/-! ### Continuum norms -/

/-- Removal of the third of four components (Elasticity/Elasticity.C:1126-1132, 1158-1163):
`sigma(3) = sigma(4); sigma.resize(3)`. -/
def dropZZ (rows : Nat) (s : List K) : List K :=
  if s.length = 4 ∧ rows = 3 then
    match s with
    | [a, b, _, d] => [a, b, d]
    | _ => s
  else s

/-- What `ElasticityNorm::evalInt` sees at one integration point.
`ci` is the product with the matrix returned by `formCmat` (the inverse constitutive matrix, or
the constitutive matrix when strains are wanted), `rows` its dimension. -/
structure Pt (K : Type*) where
  rows : Nat
  ci : List K → List K
  /-- the finite element stress (or strain) from `evalSol` -/
  sh : List K
  /-- the analytical stress field, if there is an analytical solution -/
  ana : Option (List K)
  /-- the dual strain fields of the extraction functions -/
  epsz : List (List K)
  /-- `f*u`, when there are loads -/
  fu : Option K
  /-- `detJW` including the factor `2πr` for axisymmetry -/
  w : K
  /-- nodal values of the projected solutions (`none`: empty vector), and the basis functions -/
  psol : List (Option (List K))
  N : List K
  nrcmp : Nat

/-- `psol.dot(fe.N,j,nrcmp)`: the interpolation of component `j` of a node-major field. -/
def interp [Semiring K] (v N : List K) (j n : Nat) : K :=
  ((List.range N.length).map fun a => N.getD a 0 * v.getD (a * n + j) 0).sum

/-- The projected stress field (Elasticity/Elasticity.C:1195-1198): components `j < nrcmp`,
without `j = 2` for plane strain, as many as the finite element stress has.
Positions of `sigmar` that are not assigned stay zero. -/
def sigmaR [Semiring K] (v N : List K) (nrcmp size : Nat) (ps : Bool) : List K :=
  let js := (List.range nrcmp).filter fun j => !(ps && j == 2)
  let l := (js.map fun j => interp v N j nrcmp).take size
  l ++ List.replicate (size - l.length) 0

/-- The contributions of one non-empty projection (Elasticity/Elasticity.C:1200-1227).
`norm2()` squared is the scalar product of the vector with itself. -/
def prjSteps [Ring K] (strain : Bool) (d : Pt K) (sh sr : List K) (sig : Option (List K)) :
    List (Option K) :=
  let err := lsub sr sh
  let sr' := if strain then d.ci sr else sr
  let err' := if strain then d.ci err else err
  [some (ldot sr (d.ci sr) * d.w), some (ldot err (d.ci err) * d.w),
   some (ldot sr' sr' * d.w), some (ldot err' err' * d.w)] ++
  match sig with
  | none => []
  | some s =>
    let e := lsub s sr'
    [some (ldot e (d.ci e) * d.w), none]

/-- `ElasticityNorm::evalInt` (Elasticity/Elasticity.C:1103-1232): the statements executed on the
norm array, in order. -/
def elSteps [Ring K] (strain : Bool) (d : Pt K) : List (Option K) :=
  let ps := decide (d.sh.length = 4 ∧ d.rows = 3)
  let sh := dropZZ d.rows d.sh
  let sig := d.ana.map (dropZZ d.rows)
  [some (ldot sh (d.ci sh) * d.w), d.fu.map (· * d.w)] ++
  (match sig with
   | none => []
   | some s =>
     let e := lsub s sh
     [some (ldot s (d.ci s) * d.w), some (ldot e (d.ci e) * d.w)]) ++
  [some d.w] ++
  d.epsz.flatMap (fun ez => some (ldot sh ez * d.w) ::
    (match sig with
     | none => []
     | some s => [some (ldot s ez * d.w)])) ++
  d.psol.flatMap fun v => match v with
    | none => []
    | some v => prjSteps strain d sh (sigmaR v d.N d.nrcmp sh.length ps) sig

/-- `ElasticityNorm::evalInt` on the norm array. -/
def elEvalInt [Ring K] (strain : Bool) (d : Pt K) (p : List K) : Res (List K) :=
  ((Acc.mk 0 p).run (elSteps strain d)).bind fun s => .ok s.p

/-- `ElasticityNorm::evalBou` (Elasticity/Elasticity.C:1235-1255). `tu` is `T*u*detJW`. -/
def elEvalBou [Ring K] (haveLoads : Bool) (tu : K) (p : List K) : Res (List K) :=
  if haveLoads then
    if 1 < p.length then .ok (p.modify 1 (· + tu)) else .ub
  else .ok p

/-- `ElasticityNorm::getNoFields` for a main group (`1`) or a non-empty projection group
(Elasticity/Elasticity.C:1273-1286). -/
def elNoFields (ana : Bool) (nExt : Nat) : Nat → Nat
  | 1 => if ana then 5 + 2 * nExt else 3 + nExt
  | _ => if ana then 6 else 4

/-- The loop of `ElasticityNorm::finalizeElement` (Elasticity/Elasticity.C:1264-1267). -/
def elFinLoop [Field K] (fuel ip : Nat) (p : List K) : Res (List K) :=
  match fuel with
  | 0 => .ok p
  | fuel + 1 =>
    if ip + 5 < p.length then
      match p[ip + 1]?, p[3]? with
      | some a, some b => elFinLoop fuel (ip + 6) (p.set (ip + 5) (a / b))
      | _, _ => .ub
    else .ok p

/-- `ElasticityNorm::finalizeElement` (Elasticity/Elasticity.C:1258-1270). The fuel `p.length` is
enough, since every turn advances by six. -/
def elFinalize [Field K] (ana : Bool) (nExt : Nat) (p : List K) : Res (List K) :=
  if ana then elFinLoop p.length (elNoFields true nExt 1) p else .ok p

/-- The table of `ElasticityNorm::getName` for the main group
(Elasticity/Elasticity.C:1297-1307). -/
def elNameU : List String :=
  ["a(u^h,u^h)^0.5", "((f,u^h)+(t,u^h))^0.5", "a(u,u)^0.5", "a(e,e)^0.5, e=u-u^h", "volume",
   "a(u^h,w)", "a(u,w)", "a(z^h,z^h)^0.5", "(E(u)*E(z))^0.5, E(v)=a(e,e), e=v^r-v^h"]

/-- The table for the projections (Elasticity/Elasticity.C:1309-1316). -/
def elNameP : List String :=
  ["a(u^r,u^r)^0.5", "a(e,e)^0.5, e=u^r-u^h", "(u^r,u^r)^0.5", "(e,e)^0.5, e=u^r-u^h",
   "a(e,e)^0.5, e=u-u^r", "effectivity index"]

/-- Reading `s[j-1]` of a name table, with the optional prefix (Elasticity/Elasticity.C:1340-1343). -/
def elPick (t : List String) (j : Nat) (pre : Option String) : Res String :=
  match t[j - 1]? with
  | none => .ub
  | some n => .ok (match pre with
    | none => n
    | some q => q ++ " " ++ n)

/-- `ElasticityNorm::getName` (Elasticity/Elasticity.C:1289-1345). `fail` stands for the name of
the base class (IFEM). -/
def elName (ana : Bool) (nExt i j : Nat) (pre : Option String) : Res String :=
  let nx := if i > 1 then 1 else if i = 1 ∧ ana then nExt * 2 else nExt
  if i = 0 ∨ j = 0 ∨ j > 5 + nx then .fail
  else if i = 1 then
    let nx := if ana then nx / 2 else nx
    let j := if ¬ ana ∧ j > 2 ∧ j < 4 then j + 2 else j
    if j > 5 ∧ nx > 1 then
      let j := j - 5
      .ok (if ¬ ana then "a(u^h,w" ++ toString j ++ ")"
        else if j % 2 = 1 then "a(u^h,w" ++ toString (j / 2 + 1) ++ ")"
        else "a(u,w" ++ toString (j / 2) ++ ")")
    else if j ≤ 2 ∧ (pre.map fun q => q.startsWith "Dual") = some true then
      elPick elNameU (7 + j) none
    else elPick elNameU j pre
  else elPick elNameP j pre

/-! ### Plate norms -/

/-- One projection as the plate norm sees it: empty (skipped), nodal values on the same basis, or
a field with its own basis (values after `resize(nscmp)`).  `res` is the interior residual
`m_ij,ij + p` of the projection. -/
inductive PPrj (K : Type*)
  | skip
  | nodal (m : List K) (res : K)
  | own (m : List K) (res : K)

/-- What `KirchhoffLovePlateNorm::evalInt` sees at one point.
`v1` is `version == 1`; `ci` the product with the inverse constitutive matrix; `nscmp` the number
of moment (or second derivative) components. `pw` is `p*w`. `ana` holds the analytical field
(`anasol` for version 1, `ana2nd` otherwise) and its residual. -/
structure PPt (K : Type*) where
  v1 : Bool
  nscmp : Nat
  ci : List K → List K
  mh : List K
  pw : K
  ana : Option (List K × K)
  h4 : K
  w : K
  prj : List (PPrj K)

/-- `v.push_back(v(3))` for `version > 1` in two dimensions
(Linear/KirchhoffLovePlate.C:445-446, 505, 552-553). -/
def dup3 (v1 : Bool) (nscmp : Nat) (m : List K) : List K :=
  if ¬ v1 ∧ nscmp = 3 then
    match m[2]? with
    | some c => m ++ [c]
    | none => m
  else m

/-- The energy product of the plate norms (Linear/KirchhoffLovePlate.C:454-457). -/
def PPt.en [Ring K] (d : PPt K) (m : List K) : K :=
  if d.v1 then ldot m (d.ci m) else ldot m m

/-- Contributions of one projection with field `mr` (Linear/KirchhoffLovePlate.C:561-654). -/
def pPrjSteps [Ring K] (d : PPt K) (mh mr : List K) (res : K) (m : Option (List K)) :
    List (Option K) :=
  let err := lsub mr mh
  [some (d.en mr * d.w), some (d.en err * d.w),
   some (ldot (mr.take d.nscmp) (mr.take d.nscmp) * d.w),
   some (ldot (err.take d.nscmp) (err.take d.nscmp) * d.w),
   some (d.h4 * res * res * d.w), none] ++
  match m with
  | none => []
  | some m => [some (d.en (lsub m mr) * d.w), none, none]

/-- The loop over the projections (Linear/KirchhoffLovePlate.C:535-655).  The vector `mr` is
declared before the loop: for nodal values only its first `nscmp` entries are overwritten, a field
with its own basis resizes it. -/
def pPrjLoop [Ring K] (d : PPt K) (mh : List K) (m : Option (List K)) :
    List (PPrj K) → List K → List (Option K)
  | [], _ => []
  | .skip :: l, mr => pPrjLoop d mh m l mr
  | .nodal v res :: l, mr =>
    let mr := dup3 d.v1 d.nscmp (v ++ mr.drop d.nscmp)
    pPrjSteps d mh mr res m ++ pPrjLoop d mh m l mr
  | .own v res :: l, _ =>
    let mr := dup3 d.v1 d.nscmp v
    pPrjSteps d mh mr res m ++ pPrjLoop d mh m l mr

/-- `KirchhoffLovePlateNorm::evalInt` (Linear/KirchhoffLovePlate.C:425-665). -/
def plSteps [Ring K] (d : PPt K) : List (Option K) :=
  let mh := dup3 d.v1 d.nscmp d.mh
  let m := d.ana.map fun a => dup3 d.v1 d.nscmp a.1
  [some (d.en mh * d.w), some (d.pw * d.w)] ++
  (match d.ana with
   | none => []
   | some a =>
     let m := dup3 d.v1 d.nscmp a.1
     [some (d.en m * d.w), some (d.en (lsub m mh) * d.w), some (d.h4 * a.2 * a.2 * d.w)]) ++
  [some d.w] ++
  pPrjLoop d mh m d.prj (List.replicate d.nscmp 0)

/-- The call succeeds when the final index is the size of the norm array. -/
def plEvalInt [Ring K] (d : PPt K) (p : List K) : Res (List K) :=
  ((Acc.mk 0 p).run (plSteps d)).bind fun s =>
    if s.ip = p.length then .ok s.p else .fail

/-- `KirchhoffLovePlateNorm::getNoFields` (Linear/KirchhoffLovePlate.C:843-853). -/
def plNoFields (ana : Bool) : Nat → Nat
  | 1 => if ana then 6 else 3
  | _ => if ana then 9 else 6

/-- `pnorm[i] += v`. -/
def bump [Add K] (p : List K) (i : Nat) (v : K) : Res (List K) :=
  if i < p.length then .ok (p.modify i (· + v)) else .ub

/-- Boundary contributions of one projection: `c1` the term of the moment jump
(`nOrder%2`), `c2` the term of the shear jump (`nOrder/2`), when present. -/
def bumpJump [Add K] (p : List K) (ip : Nat) : Option K → Res (List K)
  | none => .ok p
  | some c => (bump p (ip - 1) c).bind fun p => bump p ip c

/-- The loop over the projections of `evalBou` (Linear/KirchhoffLovePlate.C:766-811).
A projection is `none` when `psol` is empty, else its two jump terms. `stress` tells whether
`anasol` is set: line 810 tests `anasol` only. -/
def plBouLoop [Add K] (stress : Bool) : List (Option (Option K × Option K)) → Nat → List K →
    Res (List K)
  | [], _, p => .ok p
  | none :: l, ip, p => plBouLoop stress l ip p
  | some (c1, c2) :: l, ip, p =>
    (bumpJump p (ip + 6) c1).bind fun p =>
    (bumpJump p (ip + 6) c2).bind fun p =>
    plBouLoop stress l (if stress then ip + 6 + 3 else ip + 6) p

/-- `pnorm[i] += v` under a condition. -/
def bumpOpt [Add K] (p : List K) (i : Nat) : Option K → Res (List K)
  | none => .ok p
  | some v => bump p i v

/-- `KirchhoffLovePlateNorm::evalBou` in two dimensions (Linear/KirchhoffLovePlate.C:692-814).
`tw` is the external energy term (with boundary loads), `ja` the two jump terms of the analytical
solution, if any; the pointer set is `anasol` for version 1 and `ana2nd` otherwise. -/
def plEvalBou [Add K] (v1 : Bool) (tw : Option K) (ja : Option (Option K × Option K))
    (prj : List (Option (Option K × Option K))) (p : List K) : Res (List K) :=
  (bumpOpt p 1 tw).bind fun p =>
  (bumpOpt p 4 (ja.bind (·.1))).bind fun p =>
  (bumpOpt p 4 (ja.bind (·.2))).bind fun p =>
  plBouLoop (v1 && ja.isSome) prj (if ja.isSome then 5 else 2) p

/-- The jump term of a projection from its moments `(mxx, myy, mxy)` at a point with outward
normal `(n1,n2)` (Linear/KirchhoffLovePlate.C:777-785): version 1 squares the normal moments,
the other versions do not square. -/
def plJump [Ring K] (v1 : Bool) (m0 m1 m2 n1 n2 : K) : K :=
  if v1 then (m0 * n1 + m2 * n2) * (m0 * n1 + m2 * n2) + (m2 * n1 + m1 * n2) * (m2 * n1 + m1 * n2)
  else m0 * n1 + m1 * n2

/-- The loop of `KirchhoffLovePlateNorm::finalizeElement` (Linear/KirchhoffLovePlate.C:817-834). -/
def plFinLoop [Field K] (fuel ip : Nat) (p : List K) : Res (List K) :=
  match fuel with
  | 0 => .ok p
  | fuel + 1 =>
    if ip < p.length then
      match p[ip - 7]?, p[ip - 4]?, p[3]? with
      | some a, some r, some b =>
        plFinLoop fuel (ip + 9) ((p.set (ip - 1) (a / b)).set ip ((a + r) / b))
      | _, _, _ => .ub
    else .ok p

def plFinalize [Field K] (ana : Bool) (p : List K) : Res (List K) :=
  if ana then plFinLoop p.length 14 p else .ok p

/-- The tables of `KirchhoffLovePlateNorm::getName` (Linear/KirchhoffLovePlate.C:862-881). -/
def plNameU : List String :=
  ["a(w^h,w^h)^0.5", "(p,w^h)^0.5", "a(w,w)^0.5", "a(e,e)^0.5, e=w-w^h", "res(w)^0.5", "area"]

def plNameP : List String :=
  ["a(w^r,w^r)^0.5", "a(e,e)^0.5, e=w^r-w^h", "(w^r,w^r)^0.5", "(e,e)^0.5, e=w^r-w^h",
   "res(w^r)^0.5", "jump(w^r)^0.5", "a(e,e)^0.5, e=w-w^r", "effectivity index^*",
   "effectivity index^RES"]

/-- `KirchhoffLovePlateNorm::getName` (Linear/KirchhoffLovePlate.C:856-887). -/
def plName (ana : Bool) (i j : Nat) (pre : Option String) : Res String :=
  if i = 0 ∨ j = 0 ∨ j > 9 ∨ (i = 1 ∧ j > 6) then .fail
  else
    let j := if ¬ ana ∧ i = 1 ∧ j = 3 then 6 else j
    elPick (if i > 1 then plNameP else plNameU) j pre

/-! ### Extreme values -/

/-- One entry of `maxVal[j]`: the point and the value. -/
abbrev PtVal (X K : Type*) := X × K

/-- `Elasticity::initMaxVals` for an array that is already allocated
(Elasticity/Elasticity.C:1017-1022): all entries are reset to (origin, 0). -/
def resetMax [Zero K] {X : Type*} (x0 : X) (m : List (List (PtVal X K))) :
    List (List (PtVal X K)) := m.map fun l => l.map fun _ => (x0, 0)

/-- `maxVal.resize(nf,PointValues(nP,{Vec3(),0.0}))` (Elasticity/Elasticity.C:1024). -/
def allocMax [Zero K] {X : Type*} (x0 : X) (nf nP : Nat) : List (List (PtVal X K)) :=
  List.replicate nf (List.replicate nP (x0, 0))

/-- The update of one component (Elasticity/Elasticity.C:760-764). `patch` is
`LocalSystem::patch`, zero-based. -/
def updMax [Field K] [LinearOrder K] {X : Type*} (patch : Nat) (x : X) (v : K)
    (l : List (PtVal X K)) : List (PtVal X K) :=
  let pidx := if l.length > 1 then patch else 0
  match l[pidx]? with
  | none => l
  | some old => if |v| > |old.2| then l.set pidx (x, v) else l

/-- The loop over the components (Elasticity/Elasticity.C:758-765): components beyond the shorter
of the two arrays are ignored. -/
def evalMax [Field K] [LinearOrder K] {X : Type*} (patch : Nat) (x : X) (s : List K)
    (m : List (List (PtVal X K))) : List (List (PtVal X K)) :=
  m.mapIdx fun j l => match s[j]? with
    | none => l
    | some v => updMax patch x v l

end Verif.Norms
