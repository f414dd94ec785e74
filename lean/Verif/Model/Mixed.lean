/-
Model of the mixed finite deformation elements: the layout of the coupled element matrix
(FiniteDeformation/NonlinearElasticityULMixed.C), the element-wise condensation of the volume change
and pressure (FiniteDeformation/NonlinearElasticityULMX.C) and the projection of the constitutive
matrix (FiniteDeformation/MixedTanMat.C).
-/
import Verif.Basic
import Mathlib.LinearAlgebra.Matrix.Adjugate
import Mathlib.Data.List.OfFn

namespace Verif.Mixed

variable {K : Type*}

/-! ### Layout of the coupled element matrix -/

/-- The element matrices of `MixedElmMats` (FiniteDeformation/NonlinearElasticityULMixed.C:52-63); their
sizes are those of `getLocalIntegral` (lines 216-226), `n` displacement components and `m` pressure
nodes: `uu` is n×n, `ut` and `up` n×m, `tt` and `tp` m×m. -/
structure Blocks (K : Type*) where
  uu : Nat → Nat → K
  ut : Nat → Nat → K
  up : Nat → Nat → K
  tt : Nat → Nat → K
  tp : Nat → Nat → K

/-- Assignments of row `i` in the first loop of `getNewtonMatrix`
(FiniteDeformation/NonlinearElasticityULMixed.C:108-121). -/
def rowU (n m : Nat) (B : Blocks K) (i : Nat) : List (Nat × Nat × K) :=
  ((List.range n).map fun j => (i, j + 1, B.uu i (j + 1))) ++
  (List.range m).flatMap fun j =>
    let k := n + 2 * (j + 1) - 1
    let l := n + 2 * (j + 1)
    [(i, k, B.ut i (j + 1)), (k, i, B.ut i (j + 1)), (i, l, B.up i (j + 1)), (l, i, B.up i (j + 1))]

/-- Assignments for row `i` in the second loop of `getNewtonMatrix`
(FiniteDeformation/NonlinearElasticityULMixed.C:123-132). -/
def rowT (n m : Nat) (B : Blocks K) (i : Nat) : List (Nat × Nat × K) :=
  (List.range m).flatMap fun j =>
    let ki := n + 2 * i - 1
    let kj := n + 2 * (j + 1) - 1
    let lj := n + 2 * (j + 1)
    [(ki, kj, B.tt i (j + 1)), (ki, lj, B.tp i (j + 1)), (lj, ki, B.tp i (j + 1))]

/-- `MixedElmMats::getNewtonMatrix` (FiniteDeformation/NonlinearElasticityULMixed.C:92-139), `N` being
the previous content of the matrix returned. -/
def newton (n m : Nat) (B : Blocks K) (N : DMat K) : Res (DMat K) :=
  (loop (fun i N => N.setMany (rowU n m B (i + 1))) n N).bind fun N =>
  loop (fun i N => N.setMany (rowT n m B (i + 1))) m N

/-- `MixedElmMats::getRHSVector` (FiniteDeformation/NonlinearElasticityULMixed.C:156-186). -/
def rhs [Zero K] (n m : Nat) (withLHS : Bool) (Ru Rt Rp : Nat → K) (R : DVec K) : Res (DVec K) :=
  (loop (fun i R => DVec.set R (i + 1) (Ru (i + 1))) n R).bind fun R =>
  if withLHS then
    loop (fun i R => (DVec.set R (n + 2 * (i + 1) - 1) (Rt (i + 1))).bind fun R =>
      DVec.set R (n + 2 * (i + 1)) (Rp (i + 1))) m R
  else .ok ⟨R.n, fun i => if i ≤ n then R.e i else 0⟩

/-! ### Element-wise volume change and pressure -/

/-- The data of an integration point used for the static condensation: the weight `detJW`, the
determinant of the deformation gradient, the values of the pressure modes, the spatial gradients
`g a i` and the values `N(a)/r` used in axisymmetry
(FiniteDeformation/NonlinearElasticityULMX.C:262-287). -/
structure Pt (K : Type*) (nPM : Nat) where
  w : K
  J : K
  phi : Fin nPM → K
  g : Nat → Nat → K
  nr : Nat → K

variable [Field K]

/-- The matrix integrated by `evalInt` (FiniteDeformation/NonlinearElasticityULMX.C:289-291). -/
def hmat {nPM : Nat} (pts : List (Pt K nPM)) : Matrix (Fin nPM) (Fin nPM) K :=
  (pts.map fun p => fun i j => p.phi i * (p.phi j * p.w)).sum

/-- The gradient used for the divergence: in axisymmetry `N(a)/r` is added to the radial one
(FiniteDeformation/NonlinearElasticityULMX.C:362-365 and 406-408). -/
def divGrad {nPM : Nat} (axi : Bool) (p : Pt K nPM) (a i : Nat) : K :=
  if axi = true ∧ i = 1 then p.g a i + p.nr a else p.g a i

/-- What is left after the condensation: for each integration point the volume change and the modified
gradients of the basis functions. -/
structure Cond (K : Type*) where
  theta : List K
  gbar : List (Nat → Nat → K)

/-- Step 1 of `finalizeElement` (FiniteDeformation/NonlinearElasticityULMX.C:334-436) for the current
configuration. `utl::invert` of the IFEM library is taken to return false for a singular matrix
and the inverse otherwise. -/
def condense [DecidableEq K] {nPM : Nat} (axi : Bool) (pts : List (Pt K nPM)) : Res (Cond K) :=
  let H := hmat pts
  if H.det = 0 then .fail
  else
    let Hi : Matrix (Fin nPM) (Fin nPM) K := (H.det)⁻¹ • H.adjugate
    if h : nPM = 1 then
      let h1 := (pts.map fun p => p.J * p.w).sum
      let gb := fun a i => (1 / h1) * (pts.map fun p => divGrad axi p a i * (p.J * p.w)).sum
      let i0 : Fin nPM := ⟨0, by omega⟩
      .ok ⟨pts.map fun _ => h1 * Hi i0 i0, pts.map fun _ => gb⟩
    else
      let J1 := fun i => (pts.map fun p => p.phi i * p.J * p.w).sum
      let Gg := fun i a b => (pts.map fun p => divGrad axi p a b * (p.phi i * p.J * p.w)).sum
      let Hj := fun i => ∑ j, Hi i j * J1 j
      let Hg := fun i a b => ∑ j, Gg j a b * Hi i j
      let th := fun p : Pt K nPM => ∑ i, Hj i * p.phi i
      .ok ⟨pts.map th, pts.map fun p a b => ∑ j, Hg j a b * (p.phi j / th p)⟩

/-- The mixed pressure at each integration point (FiniteDeformation/NonlinearElasticityULMX.C:486-519):
`q` gives the mean stress of the integration points, `theta` the volume changes. -/
def pressure {nPM : Nat} (pts : List (Pt K nPM)) (q : List K) (theta : List K) : List K :=
  let H := hmat pts
  let Hi : Matrix (Fin nPM) (Fin nPM) K := (H.det)⁻¹ • H.adjugate
  let Sigm := fun i => ((pts.zip q).map fun x => x.2 * x.1.w * x.1.phi i).sum
  let Hsig := fun i => ∑ j, Hi i j * Sigm j
  (pts.zip theta).map fun x => (∑ i, Hsig i * x.1.phi i) * x.1.J / x.2

/-! ### The projected constitutive matrix -/

/-- One to `n`. -/
def upto (n : Nat) : List Nat := (List.range n).map (· + 1)

/-- Projection of the 6×6 matrix (FiniteDeformation/MixedTanMat.C:46-78). -/
def project (D : DMat K) : Res (DMat K) :=
  (D.setMany ((upto 6).flatMap fun i =>
    [(i, 7, (D.e i 1 + D.e i 2 + D.e i 3) / 3), (7, i, (D.e 1 i + D.e 2 i + D.e 3 i) / 3)])).bind
  fun D => (D.addMany ((upto 6).flatMap fun i => (upto 3).flatMap fun j =>
    [(i, j, -D.e i 7), (j, i, -D.e 7 i)])).bind
  fun D => (D.set 7 7 ((D.e 1 7 + D.e 2 7 + D.e 3 7) / 3)).bind
  fun D => D.addMany ((upto 3).flatMap fun i =>
    [(i, 7, -D.e 7 7), (7, i, -D.e 7 7)] ++ (upto 3).map fun j => (i, j, D.e 7 7))

/-- The stress terms added by `MixedMat::addVolumetricTerms` (FiniteDeformation/MixedTanMat.C:82-114). -/
def stressTerms (D : DMat K) (sigma : Nat → K) (pbar pmix : K) : Res (DMat K) :=
  let sd : Nat → K := fun i => (if i ≤ 3 then sigma i - pbar else sigma i) * (2 / 3)
  let f1 := pmix - pbar * 2 / 3
  let f2 := pbar - pmix
  D.addMany (((upto 3).flatMap fun i => (upto 3).map fun j => (i, j, f1)) ++
    ((upto 3).flatMap fun i => (upto 6).flatMap fun j => [(i, j, -sd j), (j, i, -sd j)]) ++
    ((upto 3).flatMap fun j => [(j, j, 2 * f2), (j + 3, j + 3, f2)]) ++
    ((upto 6).flatMap fun j => [(7, j, sd j), (j, 7, sd j)]) ++ [(7, 7, -(pbar / 3))])

/-- `MixedMat::addVolumetricTerms` (FiniteDeformation/MixedTanMat.C:32-115) for a 6×6 matrix `C`
(`expandRows` and `resize` keep the content). -/
def addVolumetricTerms (C : Nat → Nat → K) (sigma : Nat → K) (pbar pmix : K) : Res (DMat K) :=
  (project ⟨7, 7, fun i j => if i ≤ 6 ∧ j ≤ 6 then C i j else 0⟩).bind fun D =>
  stressTerms D sigma pbar pmix

end Verif.Mixed
