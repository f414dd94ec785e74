/-
Model of the element-level operations of Elasticity/Elasticity.C (strain-displacement matrices,
deformation gradient, geometric stiffness, mass matrix, body and surface loads) and of the
stiffness accumulation in Elasticity/LinearElasticity.C.

Element matrices and vectors use one-based checked access.  Nodal shape functions are a `DVec`
of `n` values and their gradients an `n × ncol` `DMat`.
-/
import Verif.Basic
import Mathlib.Algebra.Order.Field.Basic

namespace Verif.Cont

variable {K : Type*} [Field K]

/-- The body of the loop over nodes in `formBmatrix` for each `nsd`
(Elasticity/Elasticity.C:388-434), `INDEX(i,j) = i + nstrc*(j-1)`; `a` is the one-based node. -/
def bcol (nsd : Nat) (dN : DMat K) (a : Nat) (B : DMat K) : Res (DMat K) :=
  match nsd with
  | 1 => (dN.get a 1).bind fun d1 => B.setMany [(1, a, d1)]
  | 2 => (dN.get a 1).bind fun d1 => (dN.get a 2).bind fun d2 =>
      B.setMany [(1 + 3 * (1 - 1), a, d1), (2 + 3 * (2 - 1), a, d2),
                 (3 + 3 * (1 - 1), a, d2), (3 + 3 * (2 - 1), a, d1)]
  | 3 => (dN.get a 1).bind fun d1 => (dN.get a 2).bind fun d2 => (dN.get a 3).bind fun d3 =>
      B.setMany [(1 + 6 * (1 - 1), a, d1), (2 + 6 * (2 - 1), a, d2), (3 + 6 * (3 - 1), a, d3),
                 (4 + 6 * (1 - 1), a, d2), (4 + 6 * (2 - 1), a, d1),
                 (5 + 6 * (2 - 1), a, d3), (5 + 6 * (3 - 1), a, d2),
                 (6 + 6 * (1 - 1), a, d3), (6 + 6 * (3 - 1), a, d1)]
  | _ => .fail

/-- `Elasticity::formBmatrix(Bmat,dNdX)` (Elasticity/Elasticity.C:366-446). -/
def formB (nsd : Nat) (dN : DMat K) : Res (DMat K) :=
  let nenod := dN.nr
  let nstrc := nsd * (nsd + 1) / 2
  let B0 : DMat K := DMat.zero (nstrc * nsd) nenod
  if dN.nc < nsd then .fail
  else if nsd = 1 ∨ nsd = 2 ∨ nsd = 3 then
    (loop (fun i B => bcol nsd dN (i + 1) B) nenod B0).bind fun B =>
      .ok (B.reshape nstrc (nsd * nenod))
  else .fail

/-- Loop body of the axisymmetric `formBmatrix` (Elasticity/Elasticity.C:491-502). -/
def bcolAxi [LinearOrder K] (N : DVec K) (dN : DMat K) (r epsR : K) (a : Nat) (B : DMat K) :
    Res (DMat K) :=
  (dN.get a 1).bind fun d1 => (dN.get a 2).bind fun d2 => (N.get a).bind fun n =>
    B.setMany [(1 + 4 * (1 - 1), a, d1), (2 + 4 * (2 - 1), a, d2),
               (3 + 4 * (1 - 1), a, if r ≤ epsR then d1 else n / r),
               (4 + 4 * (1 - 1), a, d2), (4 + 4 * (2 - 1), a, d1)]

/-- `Elasticity::formBmatrix(Bmat,N,dNdX,r)` (Elasticity/Elasticity.C:464-507). `epsR` is the file
constant `1.0e-16`. -/
def formBaxi [LinearOrder K] (N : DVec K) (dN : DMat K) (r epsR : K) : Res (DMat K) :=
  let nenod := N.n
  let B0 : DMat K := DMat.zero 8 nenod
  if dN.nc < 2 then .fail
  else if r < -epsR then .fail
  else
    (loop (fun i B => bcolAxi N dN r epsR (i + 1) B) nenod B0).bind fun B =>
      .ok (B.reshape 4 (2 * nenod))

/-- The strains `eps = B*eV` of `kinematics` (Elasticity/Elasticity.C:552-573), for a non-empty `eV`. -/
def strains (B : DMat K) (eV : Nat → K) (i : Nat) : K := B.mulV eV i

/-- `formDefGradient` (Elasticity/Elasticity.C:510-549) for a non-empty element displacement vector
of the right size: entry `(i,j)` of `F`. `multiplyMat` treats `eV` as an `nsd × nenod` matrix in
column-major order; `eV.dot(N,0,nsd)` is the dot product with stride `nsd`. -/
def defGrad [LinearOrder K] (nsd : Nat) (axi gradOnly : Bool) (N : DVec K) (dN : DMat K)
    (r epsR : K) (eV : Nat → K) (i j : Nat) : K :=
  let F0 : K := if gradOnly then 0 else if i = j then 1 else 0
  let F1 : K := if 1 ≤ i ∧ i ≤ nsd ∧ 1 ≤ j ∧ j ≤ dN.nc then
      F0 + ∑ a ∈ Finset.range dN.nr, eV (nsd * a + i) * dN.e (a + 1) j
    else F0
  if axi = true ∧ r > epsR ∧ gradOnly = false ∧ i = 3 ∧ j = 3 then
    F1 + (∑ a ∈ Finset.range N.n, eV (nsd * a + 1) * N.e (a + 1)) / r
  else F1

/-- The additions performed by `formKG` (Elasticity/Elasticity.C:584-602), in loop order. -/
def kgList [LinearOrder K] (nsd : Nat) (axi : Bool) (N : DVec K) (dN : DMat K) (r : K)
    (sigma : Nat → Nat → K) (detJW : K) : List (Nat × Nat × K) :=
  let kgrr : K := if axi = true ∧ r > 0 then sigma 3 3 / (r * r) else 0
  (List.range dN.nr).flatMap fun a => (List.range dN.nr).flatMap fun b =>
    let kg := ∑ i ∈ Finset.range nsd, ∑ j ∈ Finset.range nsd,
      dN.e (a + 1) (i + 1) * sigma (i + 1) (j + 1) * dN.e (b + 1) (j + 1)
    (List.range nsd).map (fun i => (nsd * a + i + 1, nsd * b + i + 1, kg * detJW)) ++
    (if kgrr > 0 then
      [(nsd * a + 1, nsd * b + 1, N.e (a + 1) * kgrr * N.e (b + 1) * detJW)]
     else [])

/-- `formKG` (Elasticity/Elasticity.C:576-606). -/
def formKG [LinearOrder K] (nsd : Nat) (axi : Bool) (EM : DMat K) (N : DVec K) (dN : DMat K) (r : K)
    (sigma : Nat → Nat → K) (detJW : K) : Res (DMat K) :=
  EM.addMany (kgList nsd axi N dN r sigma detJW)

/-- `formMassMatrix` (Elasticity/Elasticity.C:609-619); `rho` is the material density at the point. -/
def formMass [DecidableEq K] (nsd : Nat) (EM : DMat K) (N : DVec K) (rho detJW : K) :
    Res (DMat K) :=
  let rhow := rho * detJW
  if rhow = 0 then .ok EM
  else EM.addMany <| (List.range N.n).flatMap fun a => (List.range N.n).flatMap fun b =>
    (List.range nsd).map fun i =>
      (nsd * a + i + 1, nsd * b + i + 1, rhow * N.e (a + 1) * N.e (b + 1))

/-- Load vector and reported resultant (`elMat.b[eS-1]` and `elMat.c`). -/
structure Loads (K : Type*) where
  ES : DVec K
  sumLoad : DVec K

/-- `formBodyForce` (Elasticity/Elasticity.C:622-638). `isZero` is the outcome of `f.isZero()`, a
tolerance test of the IFEM library. -/
def formBodyForce (nsd : Nat) (L : Loads K) (N : DVec K) (f : Nat → K) (isZero : Bool) (detJW : K)
    (grd : Bool) : Res (Loads K) :=
  if isZero then .ok L
  else
    (L.ES.addMany <| (List.range N.n).flatMap fun a => (List.range nsd).map fun i =>
      (nsd * a + i + 1, f (i + 1) * detJW * N.e (a + 1))).bind fun ES =>
    if grd then .ok ⟨ES, L.sumLoad⟩
    else
      (L.sumLoad.addMany <| (List.range (min nsd L.sumLoad.n)).map fun i =>
        (i + 1, f (i + 1) * detJW)).bind fun s => .ok ⟨ES, s⟩

/-- The load part of `evalBou` (Elasticity/Elasticity.C:641-682) for a given traction `T` (after
pull-back). `twoPiR` is `2*pi*X.x`. -/
def evalBou (nsd : Nat) (axi : Bool) (L : Loads K) (N : DVec K) (T : Nat → K) (twoPiR detJxW : K) :
    Res (Loads K) :=
  let detJW := if axi then twoPiR * detJxW else detJxW
  (L.ES.addMany <| (List.range N.n).flatMap fun a => (List.range nsd).map fun i =>
      (nsd * a + i + 1, T (i + 1) * N.e (a + 1) * detJW)).bind fun ES =>
  (L.sumLoad.addMany <| (List.range (min nsd L.sumLoad.n)).map fun i =>
      (i + 1, T (i + 1) * detJxW)).bind fun s => .ok ⟨ES, s⟩

/-- The stiffness contribution of one integration point, `EK += Bᵀ (C B |J|w)`
(Elasticity/LinearElasticity.C:217-223). -/
def addKm (EK : DMat K) (B C : DMat K) (detJW : K) : DMat K :=
  ⟨EK.nr, EK.nc, fun i j => EK.e i j + ∑ k ∈ Finset.range B.nr,
    B.e (k + 1) i * ((∑ l ∈ Finset.range C.nc, C.e (k + 1) (l + 1) * B.e (l + 1) j) * detJW)⟩

/-- Accumulation over the integration points of an element. -/
def stiffness (ndof : Nat) (pts : List (DMat K × DMat K × K)) : DMat K :=
  pts.foldl (fun EK p => addKm EK p.1 p.2.1 p.2.2) (DMat.zero ndof ndof)

/-- The internal force contribution `ES -= Bᵀ σ |J|w` (Elasticity/LinearElasticity.C:236-242). -/
def addIntForce (ES : DVec K) (B : DMat K) (sigma : Nat → K) (detJW : K) : DVec K :=
  ⟨ES.n, fun i => ES.e i + ∑ k ∈ Finset.range B.nr, B.e (k + 1) i * (sigma (k + 1) * -detJW)⟩

end Verif.Cont
