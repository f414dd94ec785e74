/-
Model of the F-bar element (FiniteDeformation/NonlinearElasticityFbar.C): initialisation of the
volumetric sampling points, their evaluation, the modified deformation gradient and the spatial
tangent.

`GaussQuadrature::getCoord(n)` of the IFEM library returns the coordinates of the `n`-point Gauss
rule, or a null pointer if there is no such rule; `Lagrange::computeBasis` returns the values of
the tensor product basis with the given number of points in each direction (a zero number means
that the direction is absent).
-/
import Verif.Basic
import Mathlib.Analysis.SpecialFunctions.Pow.Real
import Mathlib.LinearAlgebra.Matrix.Determinant.Basic

namespace Verif.Fbar

/-- The number of points in each direction, `ceil(pow(nPt,1/nsd)-0.5)`
(FiniteDeformation/NonlinearElasticityFbar.C:56), in exact arithmetic. -/
noncomputable def pbarOf (nsd nPt : Nat) : Int := ⌈(nPt : ℝ) ^ ((1 : ℝ) / nsd) - 1 / 2⌉

/-- Volumetric sampling data: volume ratio and basis function gradients
(FiniteDeformation/NonlinearElasticityFbar.C:30-37; the gradients are left abstract here). -/
structure ElmData (D : Type*) where
  pbar : Int
  scale : ℝ
  iP : Nat
  vol : List D

/-- `FbarElmData::init` (FiniteDeformation/NonlinearElasticityFbar.C:54-70). `gauss n` is the
coordinate table of the `n`-point rule, if any, and `d0` the default data of a sampling point. -/
noncomputable def init {D : Type*} (gauss : Nat → Option (List ℝ)) (d0 : D) (nsd nPt : Nat) :
    Res (ElmData D) :=
  let pbar := pbarOf nsd nPt
  if ((pbar : ℝ) ^ nsd) = (nPt : ℝ) then
    if pbar > 1 then
      match gauss pbar.toNat with
      | none => .ub
      | some x =>
        match x[pbar.toNat - 1]? with
        | none => .ub
        | some c => .ok ⟨pbar, 1 / c, 0, List.replicate nPt d0⟩
    else .ok ⟨pbar, 1, 0, List.replicate nPt d0⟩
  else .fail

/-- Storing the data of the next sampling point in `reducedInt`
(FiniteDeformation/NonlinearElasticityFbar.C:208). -/
def sample {D : Type*} (st : ElmData D) (d : D) : Res (ElmData D) :=
  if st.iP < st.vol.length then .ok { st with vol := st.vol.set st.iP d, iP := st.iP + 1 } else .ub

/-- The sampling points of an element in sequence. -/
def sampleAll {D : Type*} : ElmData D → List D → Res (ElmData D)
  | st, [] => .ok st
  | st, d :: l => (sample st d).bind fun st => sampleAll st l

/-- The number of basis functions evaluated by `Lagrange::computeBasis` at an integration point, and
the extrapolated volume ratio (FiniteDeformation/NonlinearElasticityFbar.C:519-558). `J` gives the
volume ratio of a sampling point, `nbar` the basis function values. -/
def nBasis (nsd : Nat) (pbar : Int) : Nat :=
  let p := pbar.toNat
  let p3 := if nsd > 2 then p else 0
  p * p * (if p3 > 0 then p3 else 1)

def jbarLoop {D : Type*} (J : D → ℝ) (vol : List D) (nbar : Nat → ℝ) : Nat → Res ℝ
  | 0 => .ok 0
  | n + 1 => (jbarLoop J vol nbar n).bind fun s =>
    match vol[n]? with
    | none => .ub
    | some d => .ok (s + J d * nbar n)

def jbar {D : Type*} (J : D → ℝ) (nsd : Nat) (st : ElmData D) (nbar : Nat → ℝ) (Jpt : ℝ) : Res ℝ :=
  match st.vol with
  | [] => .ok Jpt
  | [d] => .ok (J d)
  | _ => jbarLoop J st.vol nbar (nBasis nsd st.pbar)

/-- The modified deformation gradient, `F *= pow(fabs(Jbar/J),1.0/nDF)`
(FiniteDeformation/NonlinearElasticityFbar.C:569; FiniteDeformation/NonlinearElasticityULMX.C:442-443 with `nDF = 3`). -/
noncomputable def fbar (nDF : Nat) (F : Matrix (Fin nDF) (Fin nDF) ℝ) (J Jbar : ℝ) :
    Matrix (Fin nDF) (Fin nDF) ℝ := (|Jbar / J| ^ ((1 : ℝ) / nDF)) • F

variable {K : Type*}

/-- Position of the tensor component `(i,j)` in the storage of `SymmTensor` in three dimensions. -/
def vidx3 : Nat → Nat → Nat
  | 1, 1 => 1 | 2, 2 => 2 | 3, 3 => 3
  | 1, 2 => 4 | 2, 1 => 4
  | 2, 3 => 5 | 3, 2 => 5
  | 1, 3 => 6 | 3, 1 => 6
  | _, _ => 0

/-- Position of the tensor component `(i,j)` in the storage of `SymmTensor` in two dimensions. -/
def vidx2 : Nat → Nat → Nat
  | 1, 1 => 1 | 2, 2 => 2 | 1, 2 => 3 | 2, 1 => 3
  | _, _ => 0

/-- Position of the tensor component `(i,j)` in the storage of `SymmTensor` in axisymmetry. -/
def vidxA : Nat → Nat → Nat
  | 1, 1 => 1 | 2, 2 => 2 | 3, 3 => 3 | 1, 2 => 4 | 2, 1 => 4
  | _, _ => 0

/-- The assignments in `getAmat2D` (FiniteDeformation/NonlinearElasticityFbar.C:294-317). -/
def amat2List [Add K] (C S : Nat → Nat → K) : List (Nat × Nat × K) := [
    (1, 1, C 1 1 + S 1 1), (2, 1, C 3 1), (3, 1, C 3 1 + S 2 1), (4, 1, C 2 1),
    (1, 2, C 1 3), (2, 2, C 3 3 + S 1 1), (3, 2, C 3 3), (4, 2, C 2 3 + S 1 2),
    (1, 3, C 1 3 + S 1 2), (2, 3, C 3 3), (3, 3, C 3 3 + S 2 2), (4, 3, C 2 3),
    (1, 4, C 1 2), (2, 4, C 3 2 + S 2 1), (3, 4, C 3 2), (4, 4, C 2 2 + S 2 2)]

/-- The assignments in `getAmatAx` (FiniteDeformation/NonlinearElasticityFbar.C:325-358). -/
def amatAxList [Add K] (C S : Nat → Nat → K) : List (Nat × Nat × K) := [
    (1, 1, C 1 1 + S 1 1), (2, 1, C 4 1), (3, 1, C 4 1 + S 2 1), (4, 1, C 2 1), (5, 1, C 3 1),
    (1, 2, C 1 4), (2, 2, C 4 4 + S 1 1), (3, 2, C 4 4), (4, 2, C 2 4 + S 1 2), (5, 2, C 3 4),
    (1, 3, C 1 4 + S 1 2), (2, 3, C 4 4), (3, 3, C 4 4 + S 2 2), (4, 3, C 2 4), (5, 3, C 3 4),
    (1, 4, C 1 2), (2, 4, C 4 2 + S 2 1), (3, 4, C 4 2), (4, 4, C 2 2 + S 2 2), (5, 4, C 3 2),
    (1, 5, C 1 3), (2, 5, C 4 3), (3, 5, C 4 3), (4, 5, C 2 3), (5, 5, C 3 3 + S 3 3)]

/-- The assignments in `getAmat3D` (FiniteDeformation/NonlinearElasticityFbar.C:366-459). -/
def amat3List [Add K] (C S : Nat → Nat → K) : List (Nat × Nat × K) := [
    (1, 1, C 1 1 + S 1 1), (2, 1, C 4 1), (3, 1, C 6 1),
    (4, 1, C 4 1 + S 2 1), (5, 1, C 2 1), (6, 1, C 5 1),
    (7, 1, C 6 1 + S 3 1), (8, 1, C 5 1), (9, 1, C 3 1),
    (1, 2, C 1 4), (2, 2, C 4 4 + S 1 1), (3, 2, C 6 4),
    (4, 2, C 4 4), (5, 2, C 2 4 + S 2 1), (6, 2, C 5 4),
    (7, 2, C 6 4), (8, 2, C 5 4 + S 3 1), (9, 2, C 3 4),
    (1, 3, C 1 6), (2, 3, C 4 6), (3, 3, C 6 6 + S 1 1),
    (4, 3, C 4 6), (5, 3, C 2 6), (6, 3, C 5 6 + S 1 2),
    (7, 3, C 6 6), (8, 3, C 5 6), (9, 3, C 3 6 + S 1 2),
    (1, 4, C 1 4 + S 1 2), (2, 4, C 4 4), (3, 4, C 6 4),
    (4, 4, C 4 4 + S 2 2), (5, 4, C 2 4), (6, 4, C 5 4),
    (7, 4, C 6 4 + S 3 2), (8, 4, C 5 4), (9, 4, C 3 4),
    (1, 5, C 1 2), (2, 5, C 4 2 + S 1 2), (3, 5, C 6 2),
    (4, 5, C 4 2), (5, 5, C 2 2 + S 2 2), (6, 5, C 5 2),
    (7, 5, C 6 2), (8, 5, C 5 2 + S 3 2), (9, 5, C 3 2),
    (1, 6, C 1 5), (2, 6, C 4 5), (3, 6, C 6 5 + S 2 1),
    (4, 6, C 4 5), (5, 6, C 2 5), (6, 6, C 5 5 + S 2 2),
    (7, 6, C 6 5), (8, 6, C 5 5), (9, 6, C 3 5 + S 2 3),
    (1, 7, C 1 6 + S 1 3), (2, 7, C 4 6), (3, 7, C 6 6),
    (4, 7, C 4 6 + S 2 3), (5, 7, C 2 6), (6, 7, C 5 6),
    (7, 7, C 6 6 + S 3 3), (8, 7, C 5 6), (9, 7, C 3 6),
    (1, 8, C 1 5), (2, 8, C 4 5 + S 1 3), (3, 8, C 6 5),
    (4, 8, C 4 5), (5, 8, C 2 5 + S 2 3), (6, 8, C 5 5),
    (7, 8, C 6 5), (8, 8, C 5 5 + S 3 3), (9, 8, C 3 5),
    (1, 9, C 1 3), (2, 9, C 4 3), (3, 9, C 6 3 + S 3 1),
    (4, 9, C 4 3), (5, 9, C 2 3), (6, 9, C 5 3 + S 3 2),
    (7, 9, C 6 3), (8, 9, C 5 3), (9, 9, C 3 3 + S 3 3)]

/-- `getAmat2D`, `sig` being the stored stress components. -/
def amat2 [AddMonoid K] (C : Nat → Nat → K) (sig : Nat → K) : Res (DMat K) :=
  (DMat.zero 4 4).setMany (amat2List C fun i j => sig (vidx2 i j))

/-- `getAmatAx`. -/
def amatAx [AddMonoid K] (C : Nat → Nat → K) (sig : Nat → K) : Res (DMat K) :=
  (DMat.zero 5 5).setMany (amatAxList C fun i j => sig (vidxA i j))

/-- `getAmat3D`. -/
def amat3 [AddMonoid K] (C : Nat → Nat → K) (sig : Nat → K) : Res (DMat K) :=
  (DMat.zero 9 9).setMany (amat3List C fun i j => sig (vidx3 i j))

/-- `getGradOperator` (FiniteDeformation/NonlinearElasticityFbar.C:266-286), `nsd` being the number
of columns of `dNdx`; `r ≤ 0` means no hoop row. -/
def gradOp [Field K] [LinearOrder K] (nsd : Nat) (r : K) (N : DVec K) (dNdx : DMat K) :
    Res (DMat K) :=
  let nrg := if 0 < r then nsd * nsd + 1 else nsd * nsd
  loop (fun a G =>
    (G.setMany ((List.range nsd).flatMap fun i => (List.range nsd).map fun j =>
      (nsd * i + j + 1, nsd * a + j + 1, dNdx.e (a + 1) (i + 1)))).bind fun G =>
    if 0 < r then (N.get (a + 1)).bind fun n => G.set (nsd * nsd + 1) (nsd * a + 1) (n / r)
    else .ok G) dNdx.nr (DMat.zero nrg (nsd * dNdx.nr))

/-- The value written to the diagonal columns of row `k` of the tensor `Q`
(FiniteDeformation/NonlinearElasticityFbar.C:628-633); `S i j` is the stress. -/
def qVal [Field K] (nsd nDF : Nat) (axi : Bool) (A : DMat K) (S : Nat → Nat → K) (k : Nat) : K :=
  let i := (k - 1) / nsd + 1
  let j := (k - 1) % nsd + 1
  let q : K := (1 - (nDF : K)) * (if i > nsd then S 3 3 else S i j)
  let q := (List.range nsd).foldl (fun q m => q + A.e k (1 + m * (nsd + 1))) q
  let q := if axi then q + A.e k 5 else q
  q / (nDF : K)

/-- The tensor `Q` (FiniteDeformation/NonlinearElasticityFbar.C:622-638). -/
def qmat [Field K] (nsd nDF : Nat) (axi : Bool) (A : DMat K) (S : Nat → Nat → K) : Res (DMat K) :=
  loop (fun k Q =>
    (Q.setMany ((List.range nsd).map fun m =>
      (k + 1, 1 + m * (nsd + 1), qVal nsd nDF axi A S (k + 1)))).bind fun Q =>
    if axi then Q.set (k + 1) 5 (qVal nsd nDF axi A S (k + 1)) else .ok Q)
    A.nr (DMat.zero A.nr A.nc)

end Verif.Fbar
