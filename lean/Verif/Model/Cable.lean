/-
Model of the cable element (Beam/ElasticCable.C): local axes, strains and their variations, internal forces and tangent,
end moments.

Vectors have three components, numbered 0, 1, 2. `dN a` and `d2N a` are the first and second derivative of the basis function of
node `a` at the integration point. The tolerance of `Vec3::normalize` is not modelled.
-/
import Verif.Basic
import Verif.Model.Bar
import Mathlib.Algebra.BigOperators.Fin

namespace Verif.Cable

open Verif.Beam (Mat V3)
open Verif.Bar (len unit cross)

/-- Scalar product of two vectors. -/
def dot (a b : V3 ℝ) : ℝ := a 0 * b 0 + a 1 * b 1 + a 2 * b 2

/-! ### Local axes -/

/-- Unit binormal and normal, and their lengths before normalisation. -/
structure Axes where
  B : V3 ℝ
  N : V3 ℝ
  Blen : ℝ
  Nlen : ℝ

/-- The final part of `evalLocalAxes` (Beam/ElasticCable.C:111-113). -/
noncomputable def finish (dX B : V3 ℝ) : Axes :=
  let Bu := unit B
  let N := cross Bu dX
  ⟨Bu, unit N, len B, len N⟩

/-- `evalLocalAxes` (Beam/ElasticCable.C:60-116). For a zero tangent vector the division by its length gives a vector of
not-a-numbers, for which no comparison is true, so that these are returned; this is the outcome `ub`. -/
noncomputable def evalLocalAxes (dX ddX : V3 ℝ) : Res Axes :=
  let B := cross dX ddX
  if len B < 1 / 1000000000000 then
    if dX = 0 then .ub
    else
      let G1 : V3 ℝ := fun i => dX i * (1 / (len dX * len dX))
      let B := cross dX (fun i => ddX i - dot ddX G1 * G1 i)
      if len B < 1 / 10000000000 then
        let B := cross dX ![-dX 1, dX 0, 0]
        if len B < 1 / 10000000000 then
          let B := if |dX 1| < |dX 2| then
              cross dX ![-dX 1 * dX 0, dX 0 * dX 0 + dX 2 * dX 2, -dX 1 * dX 2]
            else ![-dX 2 * dX 0, -dX 2 * dX 1, dX 0 * dX 0 + dX 1 * dX 1]
          if len B < 1 / 10000000000 then .fail else .ok (finish dX B)
        else .ok (finish dX B)
      else .ok (finish dX B)
  else .ok (finish dX B)

/-! ### Variations -/

/-- The permutation symbol as computed in Beam/ElasticCable.C:189 and others. -/
noncomputable def eps (k l i : Fin 3) : ℝ :=
  1 / 2 * (((k : ℕ) : ℝ) - ((l : ℕ) : ℝ)) * (((l : ℕ) : ℝ) - ((i : ℕ) : ℝ)) * (((i : ℕ) : ℝ) - ((k : ℕ) : ℝ))

/-- Column `i` of `db[a]` (Beam/ElasticCable.C:186-195); `n1` and `n2` are the derivatives of basis function `a`. -/
noncomputable def db (dx ddx : V3 ℝ) (n1 n2 : ℝ) (i : Fin 3) : V3 ℝ := fun k =>
  ∑ l : Fin 3, (eps k i l * n1 * ddx l + eps k l i * dx l * n2)

/-- `db_normal[a][i]` and `dn_normal[a][i]` (Beam/ElasticCable.C:197-200, 299-302). -/
def normalPart (u d : V3 ℝ) : ℝ := ∑ k : Fin 3, u k * d k

/-- Column `i` of `db_unit[a]` and `dn_unit[a]` (Beam/ElasticCable.C:202-205, 304-307). -/
noncomputable def dunit (u d : V3 ℝ) (l : ℝ) : V3 ℝ := fun k => (d k - u k * normalPart u d) / l

/-- `ddb[a][b](·,i,j)` (Beam/ElasticCable.C:224-234). -/
noncomputable def ddb (a1 a2 b1 b2 : ℝ) (i j : Fin 3) : V3 ℝ := fun k => eps k j i * a2 * b1 + eps k i j * b2 * a1

/-- `ddb_normal[a][b](i,j)` and `ddn_normal[a][b](i,j)` (Beam/ElasticCable.C:243-251, 343-351): `w` is the vector of length `l`,
`da` and `dc` its two first variations and `dd` the second one. -/
noncomputable def ddnormal (w da dc dd : V3 ℝ) (l : ℝ) : ℝ :=
  ∑ k : Fin 3, (dd k * w k + da k * dc k - w k * da k * w k * dc k / (l * l)) / l

/-- `ddb_unit[a][b](·,i,j)` and `ddn_unit[a][b](·,i,j)` (Beam/ElasticCable.C:260-269, 353-364). -/
noncomputable def ddunit (w da dc dd : V3 ℝ) (pa pc ddn l : ℝ) : V3 ℝ := fun k =>
  dd k / l - da k * pc / (l * l) - dc k * pa / (l * l) - w k * (ddn - pa * pc * 2 / l) / (l * l)

/-- Column `i` of `dn[a]` (Beam/ElasticCable.C:283-297). -/
noncomputable def dn (dx bu dbu : V3 ℝ) (n1 : ℝ) (i : Fin 3) : V3 ℝ := fun k =>
  ∑ l : Fin 3, (eps k l i * bu l * n1 + ∑ o : Fin 3, eps k o l * dbu o * dx l)

/-- `ddn[a][b](·,i,j)` (Beam/ElasticCable.C:326-341). -/
noncomputable def ddn (dx dbua dbuc ddbu : V3 ℝ) (a1 b1 : ℝ) (i j : Fin 3) : V3 ℝ := fun k =>
  ∑ o : Fin 3, ((eps k o j * dbua o * b1 + eps k o i * dbuc o * a1) + ∑ l : Fin 3, eps k o l * ddbu o * dx l)

/-- Derivatives of the basis functions of all nodes. -/
structure Basis where
  dN : Nat → ℝ
  d2N : Nat → ℝ

/-- `db_unit[a](·,i)`. -/
noncomputable def dbu (dx ddx : V3 ℝ) (x : Axes) (f : Basis) (a : Nat) (i : Fin 3) : V3 ℝ :=
  dunit x.B (db dx ddx (f.dN a) (f.d2N a) i) x.Blen

/-- `dn[a](·,i)`. -/
noncomputable def dnc (dx ddx : V3 ℝ) (x : Axes) (f : Basis) (a : Nat) (i : Fin 3) : V3 ℝ :=
  dn dx x.B (dbu dx ddx x f a i) (f.dN a) i

/-- `dn_unit[a](·,i)`. -/
noncomputable def dnu (dx ddx : V3 ℝ) (x : Axes) (f : Basis) (a : Nat) (i : Fin 3) : V3 ℝ :=
  dunit x.N (dnc dx ddx x f a i) x.Nlen

/-- `ddb_unit[a][b](·,i,j)`; `bin` is the binormal before normalisation (Beam/ElasticCable.C:167). -/
noncomputable def ddbu (dx ddx : V3 ℝ) (x : Axes) (f : Basis) (a b : Nat) (i j : Fin 3) : V3 ℝ :=
  let bin : V3 ℝ := fun k => x.B k * x.Blen
  let da := db dx ddx (f.dN a) (f.d2N a) i
  let dc := db dx ddx (f.dN b) (f.d2N b) j
  let dd := ddb (f.dN a) (f.d2N a) (f.dN b) (f.d2N b) i j
  ddunit bin da dc dd (normalPart x.B da) (normalPart x.B dc) (ddnormal bin da dc dd x.Blen) x.Blen

/-- `ddn_unit[a][b](·,i,j)`. -/
noncomputable def ddnu (dx ddx : V3 ℝ) (x : Axes) (f : Basis) (a b : Nat) (i j : Fin 3) : V3 ℝ :=
  let n : V3 ℝ := fun k => x.N k * x.Nlen
  let da := dnc dx ddx x f a i
  let dc := dnc dx ddx x f b j
  let dd := ddn dx (dbu dx ddx x f a i) (dbu dx ddx x f b j) (ddbu dx ddx x f a b i j) (f.dN a) (f.dN b) i j
  ddunit n da dc dd (normalPart x.N da) (normalPart x.N dc) (ddnormal n da dc dd x.Nlen) x.Nlen

/-- The axial strain (Beam/ElasticCable.C:375). -/
noncomputable def strain (dX dx : V3 ℝ) : ℝ := 1 / 2 * (dot dx dx - dot dX dX)

/-- `deps`, component of node `a` and direction `i` (Beam/ElasticCable.C:378-381). -/
def deps (dx : V3 ℝ) (f : Basis) (a : Nat) (i : Fin 3) : ℝ := f.dN a * dx i

/-- `ddeps` (Beam/ElasticCable.C:384-388). -/
def ddeps (f : Basis) (a b : Nat) (i j : Fin 3) : ℝ := if i = j then f.dN a * f.dN b else 0

/-- The curvature (Beam/ElasticCable.C:391). -/
def curvature (ddX N0 ddx n : V3 ℝ) : ℝ := dot ddx n - dot ddX N0

/-- `dkappa` (Beam/ElasticCable.C:394-401). -/
noncomputable def dkappa (dx ddx : V3 ℝ) (x : Axes) (f : Basis) (a : Nat) (i : Fin 3) : ℝ :=
  f.d2N a * x.N i + ∑ k : Fin 3, ddx k * dnu dx ddx x f a i k

/-- `ddkappa` (Beam/ElasticCable.C:404-414). -/
noncomputable def ddkappa (dx ddx : V3 ℝ) (x : Axes) (f : Basis) (a b : Nat) (i j : Fin 3) : ℝ :=
  (f.d2N a * dnu dx ddx x f b j i + f.d2N b * dnu dx ddx x f a i j) + ∑ k : Fin 3, ddx k * ddnu dx ddx x f a b i j k

/-! ### Forces and tangent -/

/-- What an integration point adds to the internal forces and the two stiffness matrices, by node and direction, i.e. to
components `3*(a-1)+i+1` (Beam/ElasticCable.C:423-449). -/
structure Point where
  S : Nat → Fin 3 → ℝ
  Km : Nat → Fin 3 → Nat → Fin 3 → ℝ
  Kg : Nat → Fin 3 → Nat → Fin 3 → ℝ

/-- `EA` or `EI` times the integration weight and the fourth power of the length of the contravariant base vector
(Beam/ElasticCable.C:423-427). -/
noncomputable def weight (E : ℝ) (dX : V3 ℝ) (w : ℝ) : ℝ :=
  let g := 1 / (dX 0 * dX 0 + dX 1 * dX 1 + dX 2 * dX 2)
  E * (g * g * w)

/-- Tangent vector or its derivative in the current configuration (Beam/ElasticCable.C:142-148), `u a i` being the
displacements of the `nen` nodes. -/
def current (nen : Nat) (dX : V3 ℝ) (dN : Nat → ℝ) (u : Nat → V3 ℝ) : V3 ℝ := fun i =>
  dX i + ∑ a ∈ Finset.range nen, dN a * u a i

/-- The contributions for given axes of the initial and current configuration. -/
noncomputable def contributions (EA EI w : ℝ) (dX ddX dx ddx : V3 ℝ) (X x : Axes) (f : Basis) : Point :=
  let e := strain dX dx
  let k := curvature ddX X.N ddx x.N
  let EAw := weight EA dX w
  let EIw := weight EI dX w
  { S := fun a i => deps dx f a i * (-e * EAw) + dkappa dx ddx x f a i * (-k * EIw)
    Km := fun a i b j => deps dx f a i * (deps dx f b j * EAw) + dkappa dx ddx x f a i * (dkappa dx ddx x f b j * EIw)
    Kg := fun a i b j => ddeps f a b i j * (e * EAw) + ddkappa dx ddx x f a b i j * (k * EIw) }

/-- `ElasticCable::evalInt` (Beam/ElasticCable.C:119-449) without mass and gravity, for nodes numbered from zero. -/
noncomputable def evalInt (nen : Nat) (EA EI w : ℝ) (dX ddX : V3 ℝ) (f : Basis) (u : Nat → V3 ℝ) : Res Point :=
  (evalLocalAxes dX ddX).bind fun X =>
  let dx := current nen dX f.dN u
  let ddx := current nen ddX f.d2N u
  (evalLocalAxes dx ddx).bind fun x => .ok (contributions EA EI w dX ddX dx ddx X x f)

/-- What is added to the mass matrix (Beam/ElasticCable.C:451-462) and the gravitation forces (lines 464-471) at a point. -/
noncomputable def massEntry (lineMass w : ℝ) (N : Nat → ℝ) (a : Nat) (i : Fin 3) (b : Nat) (j : Fin 3) : ℝ :=
  if 0 < lineMass then (if i = j then N a * N b * (lineMass * w) else 0) else 0

/-- See `massEntry`. -/
noncomputable def gravityEntry (lineMass w : ℝ) (N : Nat → ℝ) (g : V3 ℝ) (a : Nat) (i : Fin 3) : ℝ :=
  if 0 < lineMass then N a * g i * (lineMass * w) else 0

/-- `ElasticCable::evalSol` (Beam/ElasticCable.C:612-668): axial force and bending moment. -/
noncomputable def evalSol (nen : Nat) (EA EI : ℝ) (dX ddX : V3 ℝ) (f : Basis) (u : Nat → V3 ℝ) : Res (ℝ × ℝ) :=
  (evalLocalAxes dX ddX).bind fun X =>
  let dx := current nen dX f.dN u
  let ddx := current nen ddX f.d2N u
  (evalLocalAxes dx ddx).bind fun x =>
  .ok (EA * (1 / 2) * (dot dx dx - dot dX dX), EI * (dot ddx x.N - dot ddX X.N))

/-! ### End moments -/

/-- The nodes next to and at the end (Beam/ElasticCable.C:492-506), numbered from one, of an element with `n` nodes; with less than
two nodes, one of the two columns `fe.Xn.getColumn` (lines 516-517) does not exist. -/
noncomputable def endNodes (xi : ℝ) (n : Nat) : Res (Nat × Nat) :=
  if xi = -1 then (if n < 2 then .ub else .ok (2, 1))
  else if xi = 1 then (if n < 2 then .ub else .ok (n - 1, n)) else .fail

/-- The numbers `j1, j2, j4, j5` (Beam/ElasticCable.C:508-511). -/
def dofs (npv n1 n2 : Nat) : Nat × Nat × Nat × Nat :=
  (npv * (n1 - 1) + 1, npv * (n1 - 1) + 2, npv * (n2 - 1) + 1, npv * (n2 - 1) + 2)

/-- Forces representing the end moment `M` on the nodes 1 and 2 with distance `dX` (Beam/ElasticCable.C:526-548): added to the
components `j1, j2, j4, j5` of the load vector. -/
noncomputable def couple (xi M : ℝ) (dX : V3 ℝ) : Fin 4 → ℝ :=
  let ds2 := dX 0 * dX 0 + dX 1 * dX 1 + dX 2 * dX 2
  let mn := M / ds2
  let Fx := mn * dX 1
  let Fy := mn * dX 0
  ![xi * Fx, -xi * Fy, -xi * Fx, xi * Fy]

/-- The load correction stiffness (Beam/ElasticCable.C:553-606), rows and columns `j1, j2, j4, j5`. -/
noncomputable def loadStiff (lcStif : Nat) (M : ℝ) (dX : V3 ℝ) : Fin 4 → Fin 4 → ℝ :=
  let ds2 := dX 0 * dX 0 + dX 1 * dX 1 + dX 2 * dX 2
  let mn := M / ds2 / ds2
  let dFxdu1 := mn * 2 * dX 0 * dX 1
  let dFxdv1 := mn * (ds2 - 2 * dX 1 * dX 1)
  let dFxdu2 := -mn * 2 * dX 0 * dX 1
  let dFxdv2 := -mn * (ds2 - 2 * dX 1 * dX 1)
  let dFydu1 := -mn * (ds2 - 2 * dX 0 * dX 0)
  let dFydv1 := -mn * 2 * dX 0 * dX 1
  let dFydu2 := mn * (ds2 - 2 * dX 0 * dX 0)
  let dFydv2 := mn * 2 * dX 0 * dX 1
  if lcStif = 1 then
    ![![dFxdu1, dFxdv1, dFxdu2, dFxdv2],
      ![-dFydu1, -dFydv1, -dFydu2, -dFydv2],
      ![-dFxdu1, -dFxdv1, -dFxdu2, -dFxdv2],
      ![dFydu1, dFydv1, dFydu2, dFydv2]]
  else
    ![![dFxdu1, 1 / 2 * (dFxdv1 - dFydu1), 1 / 2 * (dFxdu2 - dFxdu1), 1 / 2 * (dFxdv2 + dFydu1)],
      ![-(1 / 2 * (dFydu1 - dFxdv1)), -dFydv1, -(1 / 2 * (dFydu2 + dFxdv1)), -(1 / 2 * (dFydv2 - dFydv1))],
      ![-(1 / 2 * (dFxdu1 - dFxdu2)), -(1 / 2 * (dFxdv1 + dFydu2)), -dFxdu2, -(1 / 2 * (dFxdv2 - dFydu2))],
      ![1 / 2 * (dFydu1 + dFxdv2), 1 / 2 * (dFydv1 - dFydv2), 1 / 2 * (dFydu2 - dFxdv2), dFydv2]]

end Verif.Cable
