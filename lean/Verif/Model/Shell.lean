/-
Model of the linear and nonlinear Kirchhoff-Love shell elements (Shell/KirchhoffLoveShell.C, Shell/NLKirchhoffLoveShell.C).

IFEM assumptions: `Vec3(a,b)` is the cross product and `cross(a,b)` assigns it; `normalize` scales to unit length and returns the
length (surfaces with parallel or vanishing tangents give NaN or unscaled vectors; the theorems exclude them); `fe.G` has the
tangents as columns and `fe.H` the second derivatives 11, 22 and 12 of the position; `Vec3 * Matrix` is the row vector product. Two-dimensional
`SymmTensor`s have the components xx, yy, xy; `principal` gives the larger eigenvalue first and `vonMises` the equivalent plane stress.
Nodes are numbered from zero, directions by `Fin 3`.
-/
import Verif.Model.Bar
import Verif.Model.Cable
import Verif.Model.Plate

namespace Verif.Shell

open Verif.Beam (V3)
open Verif.Bar (len unit cross)
open Verif.Cable (dot)
open Verif.LinIso (FE Pt)

/-- Tangents and second derivatives (11, 22, 12) of a surface. -/
structure Geo where
  g1 : V3 ℝ
  g2 : V3 ℝ
  H : Fin 3 → V3 ℝ

/-- Derivatives of the basis functions: first derivatives and second derivatives 11, 22, 12. -/
structure Basis where
  nen : Nat
  dN : Nat → Fin 2 → ℝ
  d2N : Nat → Fin 3 → ℝ

/-- The vector with component `c` in direction `i` (Shell/KirchhoffLoveShell.C:128-130). -/
def single (c : ℝ) (i : Fin 3) : V3 ℝ := fun k => if k = i then c else 0

/-! ### Metrics -/

/-- The unnormalized normal `g3` of `getMetrics` (Shell/KirchhoffLoveShell.C:157-159). -/
def g3 (g1 g2 : V3 ℝ) : V3 ℝ := cross g1 g2

/-- The covariant metric `gab` (Shell/KirchhoffLoveShell.C:161-164). -/
def gab (g1 g2 : V3 ℝ) : Fin 3 → ℝ := ![dot g1 g1, dot g2 g2, dot g1 g2]

/-- The local cartesian axes and the contravariant base vectors (Shell/KirchhoffLoveShell.C:170-180): `e1`, `e2`, `g1_con`, `g2_con`. -/
noncomputable def frame (g1 g2 : V3 ℝ) : V3 ℝ × V3 ℝ × V3 ℝ × V3 ℝ :=
  let m := gab g1 g2
  let inv := 1 / (m 0 * m 1 - m 2 * m 2)
  let c11 := inv * m 1
  let c12 := -inv * m 2
  let c22 := inv * m 0
  let g1con : V3 ℝ := fun k => g1 k * c11 + g2 k * c12
  let g2con : V3 ℝ := fun k => g1 k * c12 + g2 k * c22
  (unit g1, unit g2con, g1con, g2con)

/-- The transformation matrix `T` of `getMetrics` (Shell/KirchhoffLoveShell.C:182-196). -/
noncomputable def tmat (g1 g2 : V3 ℝ) : Fin 3 → Fin 3 → ℝ :=
  let f := frame g1 g2
  let eg11 := dot f.1 f.2.2.1
  let eg12 := dot f.1 f.2.2.2
  let eg21 := dot f.2.1 f.2.2.1
  let eg22 := dot f.2.1 f.2.2.2
  ![![eg11 * eg11, eg12 * eg12, 2 * eg11 * eg12],
    ![eg21 * eg21, eg22 * eg22, 2 * eg21 * eg22],
    ![2 * eg11 * eg21, 2 * eg12 * eg22, 2 * (eg11 * eg22 + eg12 * eg21)]]

/-- `T * v` for three components. -/
def tmul (T : Fin 3 → Fin 3 → ℝ) (v : Fin 3 → ℝ) : Fin 3 → ℝ := fun r => ∑ c, T r c * v c

/-- `n * H` (row vector times matrix). -/
def rowH (n : V3 ℝ) (H : Fin 3 → V3 ℝ) : Fin 3 → ℝ := fun j => dot n (H j)

/-! ### Linear element -/

/-- Variation of the membrane strains (Shell/KirchhoffLoveShell.C:136-138 and Shell/NLKirchhoffLoveShell.C:144-146). -/
noncomputable def dE (g1 g2 : V3 ℝ) (f : Basis) (k : Nat) (d : Fin 3) : Fin 3 → ℝ :=
  ![f.dN k 0 * g1 d, f.dN k 1 * g2 d, 1 / 2 * (f.dN k 0 * g2 d + f.dN k 1 * g1 d)]

/-- Variation of the normal (Shell/KirchhoffLoveShell.C:128-132). -/
noncomputable def dnLin (g1 g2 : V3 ℝ) (f : Basis) (k : Nat) (d : Fin 3) : V3 ℝ :=
  let dg1 := single (f.dN k 0) d
  let dg2 := single (f.dN k 1) d
  let dg3 : V3 ℝ := fun i => cross g1 dg2 i + cross dg1 g2 i
  let l := len (g3 g1 g2)
  fun i => (dg3 i - g3 g1 g2 i * (dot (g3 g1 g2) dg3 / (l * l))) / l

/-- Variation of the curvature (Shell/KirchhoffLoveShell.C:133-142). -/
noncomputable def dKLin (G : Geo) (f : Basis) (k : Nat) (d : Fin 3) : Fin 3 → ℝ := fun j =>
  -f.d2N k j * unit (g3 G.g1 G.g2) d - rowH (dnLin G.g1 G.g2 f k d) G.H j

/-- `KirchhoffLoveShell::formBmatrix` (Shell/KirchhoffLoveShell.C:111-149): membrane and bending matrices. -/
noncomputable def formBmatrix (G : Geo) (f : Basis) : (Fin 3 → Nat → Fin 3 → ℝ) × (Fin 3 → Nat → Fin 3 → ℝ) :=
  let T := tmat G.g1 G.g2
  (fun r k d => tmul T (dE G.g1 G.g2 f k d) r, fun r k d => tmul T (dKLin G f k d) r)

/-- `KirchhoffLoveShell::formDmatrix` (Shell/KirchhoffLoveShell.C:92-108) with thickness `t`. -/
noncomputable def formDmatrix (m : LinIso.Mat ℝ) (fe : FE ℝ) (X : Pt ℝ) (t : ℝ) (invers : Bool) : Res (DMat ℝ × DMat ℝ) :=
  (LinIso.evaluate m 2 3 fe X (fun _ => 0) (if invers then -1 else 1)).2.bind fun o =>
  let fm := t
  let fb := fm * fm * fm / 12
  .ok (⟨o.C.nr, o.C.nc, fun i j => o.C.e i j * (if invers then 1 / fm else fm)⟩,
       ⟨o.C.nr, o.C.nc, fun i j => o.C.e i j * (if invers then 1 / fb else fb)⟩)

/-- Product of a 3×3 constitutive matrix with three components. -/
def dmul (D : DMat ℝ) (v : Fin 3 → ℝ) : Fin 3 → ℝ := fun r => ∑ c : Fin 3, D.e (r + 1) (c + 1) * v c

/-- `KirchhoffLoveShell::evalK` (Shell/KirchhoffLoveShell.C:63-89): what is added to the stiffness matrix. -/
noncomputable def evalK (m : LinIso.Mat ℝ) (fe : FE ℝ) (X : Pt ℝ) (t dJW : ℝ) (G : Geo) (f : Basis) :
    Res (Nat → Fin 3 → Nat → Fin 3 → ℝ) :=
  (formDmatrix m fe X t false).bind fun D =>
  let B := formBmatrix G f
  .ok fun k d l e =>
    (∑ r, B.1 r k d * dmul D.1 (fun s => B.1 s l e) r) * dJW + (∑ r, B.2 r k d * dmul D.2 (fun s => B.2 s l e) r) * dJW

/-- `KirchhoffLoveShell::evalSol` (Shell/KirchhoffLoveShell.C:283-334): membrane forces and moments; `u` are the displacements,
`loc` the transformation if results are wanted in a local system and there is one. -/
noncomputable def resultants (m : LinIso.Mat ℝ) (fe : FE ℝ) (X : Pt ℝ) (t : ℝ) (G : Geo) (f : Basis) (size : Nat) (u : Nat → V3 ℝ)
    (loc : Option (Nat → Nat → ℝ)) : Res ((Fin 3 → ℝ) × (Fin 3 → ℝ)) :=
  if size = 0 then .fail
  else if size ≠ 3 * f.nen then .fail
  else
    let B := formBmatrix G f
    (formDmatrix m fe X t false).bind fun D =>
    let eps : Fin 3 → ℝ := fun r => ∑ k ∈ Finset.range f.nen, ∑ d, B.1 r k d * u k d
    let kappa : Fin 3 → ℝ := fun r => ∑ k ∈ Finset.range f.nen, ∑ d, B.2 r k d * u k d
    let n := dmul D.1 eps
    let mo := dmul D.2 (fun r => -kappa r)
    let tr : (Fin 3 → ℝ) → (Fin 3 → ℝ) := fun v =>
      (loc.map fun T => fun i : Fin 3 => Plate.transform 2 T (fun j => v ⟨(j - 1) % 3, Nat.mod_lt _ (by omega)⟩) (i + 1)).getD v
    .ok (tr n, tr mo)

/-- Larger and smaller eigenvalue of a plane symmetric tensor. -/
noncomputable def principal (s : Fin 3 → ℝ) : ℝ × ℝ :=
  let a := (s 0 + s 1) / 2
  let r := Real.sqrt (((s 0 - s 1) / 2) ^ 2 + s 2 ^ 2)
  (a + r, a - r)

/-- Equivalent stress of a plane stress state. -/
noncomputable def vonMises (s : Fin 3 → ℝ) : ℝ := Real.sqrt (s 0 ^ 2 + s 1 ^ 2 - s 0 * s 1 + 3 * s 2 ^ 2)

/-- One surface in `evalSol` (Shell/KirchhoffLoveShell.C:266-277). -/
noncomputable def surface (t : ℝ) (n m : Fin 3 → ℝ) (isurf : ℝ) : List ℝ :=
  let s : Fin 3 → ℝ := fun i => (n i - isurf * m i * 6 / t) / t
  [s 0, s 1, s 2, (principal s).1, (principal s).2, vonMises s]

/-- `KirchhoffLoveShell::evalSol` (Shell/KirchhoffLoveShell.C:248-280) from membrane forces and moments: all 18 values. -/
noncomputable def output (t : ℝ) (n m : Fin 3 → ℝ) : List ℝ :=
  [n 0, n 1, n 2, m 0, m 1, m 2] ++ surface t n m (-1) ++ surface t n m 1

/-- `getField2Name` without prefix (Shell/KirchhoffLoveShell.C:388-406). -/
def getField2Name (i : Nat) : String :=
  let s := ["n_xx", "n_yy", "n_xy", "m_xx", "m_yy", "m_xy", "sigma_x", "sigma_y", "tau_xy", "sigma_1", "sigma_2", "sigma_m"]
  let name := s.getD (if i < 6 then i else 6 + i % 6) ""
  if i ≥ 12 then "Top " ++ name else if i ≥ 6 then "Bottom " ++ name else name

/-- Scalar product of two vectors with three components. -/
def dot3 (a b : Fin 3 → ℝ) : ℝ := ∑ r, a r * b r

/-- `KirchhoffLoveShellNorm::evalInt` (Shell/KirchhoffLoveShell.C:420-487): what is added to the norms. `p` is the pressure load, `uh`
the displacement in the point and `proj` the projected membrane forces and moments, one pair for each projection. The check of the
number of norms is not modelled. -/
noncomputable def norms (m : LinIso.Mat ℝ) (fe : FE ℝ) (X : Pt ℝ) (t dJW : ℝ) (G : Geo) (f : Basis) (size : Nat) (u : Nat → V3 ℝ)
    (p uh : V3 ℝ) (proj : List ((Fin 3 → ℝ) × (Fin 3 → ℝ))) : Res (List ℝ) :=
  (formDmatrix m fe X t true).bind fun D =>
  (resultants m fe X t G f size u none).bind fun s =>
  .ok ([(dot3 s.1 (dmul D.1 s.1) + dot3 s.2 (dmul D.2 s.2)) * dJW, dot p uh * dJW] ++
    proj.flatMap fun r =>
      let errn := fun i => r.1 i - s.1 i
      let errm := fun i => r.2 i - s.2 i
      [(dot3 r.1 (dmul D.1 r.1) + dot3 r.2 (dmul D.2 r.2)) * dJW, (dot3 errn (dmul D.1 errn) + dot3 errm (dmul D.2 errm)) * dJW,
       dot3 r.1 r.1 * dJW, dot3 r.2 r.2 * dJW, dot3 errn errn * dJW, dot3 errm errm * dJW])

/-- `KirchhoffLoveShellNorm::getName` without prefix (Shell/KirchhoffLoveShell.C:529-552), for norm `j` of group `i`; other names
come from the base class. -/
def normName (i j : Nat) : Option String :=
  if i = 0 ∨ j = 0 ∨ j > 6 ∨ (i = 1 ∧ j > 2) then none
  else if i > 1 then
    some (["a(u^r,u^r)^0.5", "a(e,e)^0.5, e=u^r-u^h", "(n^r,n^r)^0.5", "(m^r,m^r)^0.5", "(e,e)^0.5, e=n^r-n^h",
      "(e,e)^0.5, e=m^r-m^h"].getD (j - 1) "")
  else some (["a(u^h,u^h)^0.5", "(p,u^h)^0.5"].getD (j - 1) "")

/-- `KirchhoffLoveShellNorm::getNoFields` (Shell/KirchhoffLoveShell.C:516-526) for one group of norms; `empty` tells that the projected
solution of a negative group number is missing. -/
def normFields (group : Int) (empty : Bool) : Nat :=
  if group = 1 ∨ group = -1 then 2 else if group > 0 ∨ empty = false then 6 else 0

/-- The traction part of `KirchhoffLoveShell::evalBou` (Shell/KirchhoffLoveShell.C:218-234): what is added to the load of node `a` and
to the sum of the loads. -/
def traction (N : Nat → ℝ) (T : V3 ℝ) (dJW : ℝ) : (Nat → V3 ℝ) × V3 ℝ :=
  (fun a i => T i * N a * dJW, fun i => T i * dJW)

/-! ### Nonlinear element -/

/-- The geometry for nodal positions `x` (Shell/NLKirchhoffLoveShell.C:45-53, 271-278). -/
def deformed (f : Basis) (x : Nat → V3 ℝ) : Geo :=
  ⟨fun i => ∑ k ∈ Finset.range f.nen, x k i * f.dN k 0, fun i => ∑ k ∈ Finset.range f.nen, x k i * f.dN k 1,
   fun j i => ∑ k ∈ Finset.range f.nen, x k i * f.d2N k j⟩

/-- Strains and curvatures referred to the curvilinear system (Shell/NLKirchhoffLoveShell.C:88-116): `G` initial, `g` deformed. -/
noncomputable def strains (G g : Geo) : (Fin 3 → ℝ) × (Fin 3 → ℝ) :=
  (fun j => 1 / 2 * (gab g.g1 g.g2 j - gab G.g1 G.g2 j),
   fun j => rowH (unit (g3 G.g1 G.g2)) G.H j - rowH (unit (g3 g.g1 g.g2)) g.H j)

/-- `dg3` (Shell/NLKirchhoffLoveShell.C:148-153). -/
def dg3 (g1 g2 : V3 ℝ) (f : Basis) (k : Nat) (d : Fin 3) : V3 ℝ :=
  let dg1 := single (f.dN k 0) d
  let dg2 := single (f.dN k 1) d
  ![dg1 1 * g2 2 - dg1 2 * g2 1 + g1 1 * dg2 2 - g1 2 * dg2 1,
    dg1 2 * g2 0 - dg1 0 * g2 2 + g1 2 * dg2 0 - g1 0 * dg2 2,
    dg1 0 * g2 1 - dg1 1 * g2 0 + g1 0 * dg2 1 - g1 1 * dg2 0]

/-- `dn` (Shell/NLKirchhoffLoveShell.C:154-158). -/
noncomputable def dn (g1 g2 : V3 ℝ) (f : Basis) (k : Nat) (d : Fin 3) : V3 ℝ :=
  let l := len (g3 g1 g2)
  let d3 := dg3 g1 g2 f k d
  fun i => d3 i / l - g3 g1 g2 i * (dot (g3 g1 g2) d3 / (l * l * l))

/-- `dK_cu` (Shell/NLKirchhoffLoveShell.C:157-162). -/
noncomputable def dK (g : Geo) (f : Basis) (k : Nat) (d : Fin 3) : Fin 3 → ℝ := fun j =>
  -f.d2N k j * unit (g3 g.g1 g.g2) d - rowH (dn g.g1 g.g2 f k d) g.H j

/-- `ddE_cu` (Shell/NLKirchhoffLoveShell.C:194-200). -/
noncomputable def ddE (f : Basis) (k : Nat) (d : Fin 3) (l : Nat) (e : Fin 3) : Fin 3 → ℝ :=
  if d = e then
    ![f.dN k 0 * f.dN l 0, f.dN k 1 * f.dN l 1, 1 / 2 * (f.dN k 0 * f.dN l 1 + f.dN k 1 * f.dN l 0)]
  else fun _ => 0

/-- `ddg3` (Shell/NLKirchhoffLoveShell.C:203-209), directions counted from zero: component `3 - d - e`. -/
def ddg3 (f : Basis) (k : Nat) (d : Fin 3) (l : Nat) (e : Fin 3) : V3 ℝ := fun i =>
  let ddir : Int := (d.val : Int) - (e.val : Int)
  if (i.val : Int) = 3 - d.val - e.val then
    if ddir = -1 ∨ ddir = 2 then f.dN k 0 * f.dN l 1 - f.dN l 0 * f.dN k 1
    else if ddir = 1 ∨ ddir = -2 then -f.dN k 0 * f.dN l 1 + f.dN l 0 * f.dN k 1
    else 0
  else 0

/-- `ddn` (Shell/NLKirchhoffLoveShell.C:210-213). -/
noncomputable def ddn (g1 g2 : V3 ℝ) (f : Basis) (k : Nat) (d : Fin 3) (l : Nat) (e : Fin 3) : V3 ℝ :=
  let w := g3 g1 g2
  let lg := len w
  let lg3 := lg * lg * lg
  let lg5 := lg3 * lg * lg
  let dr := dg3 g1 g2 f k d
  let ds := dg3 g1 g2 f l e
  let dd := ddg3 f k d l e
  let C := -(dot dd w + dot dr ds) / lg3
  let D := 3 * dot w dr * dot w ds / lg5
  fun i => dd i / lg - (dr i * (dot w ds / lg3) + dot w dr / lg3 * ds i) + (C + D) * w i

/-- `ddK_cu` (Shell/NLKirchhoffLoveShell.C:214-219). -/
noncomputable def ddK (g : Geo) (f : Basis) (k : Nat) (d : Fin 3) (l : Nat) (e : Fin 3) : Fin 3 → ℝ := fun j =>
  -f.d2N k j * dn g.g1 g.g2 f l e d - f.d2N l j * dn g.g1 g.g2 f k d e - rowH (ddn g.g1 g.g2 f k d l e) g.H j

/-- Position of a degree of freedom in the element matrix. -/
def pos (k : Nat) (d : Fin 3) : Nat := 3 * k + d

/-- `NLKirchhoffLoveShell::evalKandS` (Shell/NLKirchhoffLoveShell.C:81-250): what is added to the tangent stiffness matrix and to the
internal force vector. The second variations are computed for the lower triangle only and mirrored. -/
noncomputable def evalKandS (m : LinIso.Mat ℝ) (fe : FE ℝ) (X : Pt ℝ) (t dJW : ℝ) (f : Basis) (G g : Geo) :
    Res ((Nat → Fin 3 → Nat → Fin 3 → ℝ) × (Nat → Fin 3 → ℝ)) :=
  (formDmatrix m fe X t false).bind fun D =>
  let T := tmat G.g1 G.g2
  let N := dmul D.1 (tmul T (strains G g).1)
  let M := dmul D.2 (tmul T (strains G g).2)
  let dEc := fun k d => tmul T (dE g.g1 g.g2 f k d)
  let dKc := fun k d => tmul T (dK g f k d)
  let kem := fun k d l e => ∑ r, N r * tmul T (ddE f k d l e) r
  let keb := fun k d l e => ∑ r, M r * tmul T (ddK g f k d l e) r
  let sym := fun (A : Nat → Fin 3 → Nat → Fin 3 → ℝ) k d l e => if pos l e ≤ pos k d then A k d l e else A l e k d
  .ok (fun k d l e =>
        (sym kem k d l e + ∑ r, dmul D.1 (dEc k d) r * dEc l e r) * dJW +
        (sym keb k d l e + ∑ r, dmul D.2 (dKc k d) r * dKc l e r) * dJW,
       fun k d => -dJW * (∑ r, dEc k d r * N r) + -dJW * (∑ r, dKc k d r * M r))

/-- `NLKirchhoffLoveShell::evalSol` (Shell/NLKirchhoffLoveShell.C:253-317): membrane forces and moments. -/
noncomputable def resultantsNL (m : LinIso.Mat ℝ) (fe : FE ℝ) (X : Pt ℝ) (t : ℝ) (G g : Geo) : Res ((Fin 3 → ℝ) × (Fin 3 → ℝ)) :=
  (formDmatrix m fe X t false).bind fun D =>
  let T := tmat G.g1 G.g2
  let n := unit (g3 g.g1 g.g2)
  let E : Fin 3 → ℝ := fun j => 1 / 2 * (gab g.g1 g.g2 j - gab G.g1 G.g2 j)
  let K : Fin 3 → ℝ := fun j => rowH n G.H j - rowH n g.H j
  .ok (dmul D.1 (tmul T E), dmul D.2 (tmul T K))

end Verif.Shell
