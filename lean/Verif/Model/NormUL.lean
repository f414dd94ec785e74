/-
Norms of finite deformation solutions (FiniteDeformation/NonlinearElasticityUL.C, NonlinearElasticityULMX.C, NonlinearElasticityFbar.C, NonlinearElasticityULMixed.C) and their print-out by the
nonlinear driver (Elasticity/NonlinearDriver.C).
-/
import Verif.Basic
import Mathlib.Algebra.BigOperators.Ring.List
import Mathlib.Data.Matrix.Mul
import Mathlib.Algebra.Field.Basic

namespace Verif.NormUL

section
variable {K : Type} [Field K]

/-- A symmetric tensor: space dimension, normal and shear components. In two dimensions there are two or three normal components. -/
structure Sym (K : Type) where
  dim : Nat
  d : List K
  s : List K

/-- Number of components (`SymmTensor::size`). -/
def Sym.size (S : Sym K) : Nat := S.d.length + S.s.length

/-- `SymmTensor::trace` (IFEM). -/
def Sym.trace (S : Sym K) : K := S.d.sum

/-- `SymmTensor::L2norm(false)` (IFEM): the contraction of the tensor with itself. -/
def Sym.dot (S : Sym K) : K := (S.d.map fun x => x * x).sum + 2 * (S.s.map fun x => x * x).sum

/-- `SymmTensor::operator-=` with a number (IFEM): subtraction from all normal components. -/
def Sym.sub (S : Sym K) (p : K) : Sym K := { S with d := S.d.map (· - p) }

/-- `SymmTensor::vonMises(false)` (IFEM): the square of the von Mises stress. -/
def Sym.vm (S : Sym K) : K :=
  match S.d with
  | [x, y, z] => x * x + y * y + z * z - x * y - y * z - z * x + 3 * (S.s.map fun t => t * t).sum
  | [x, y] => x * x + y * y - x * y + 3 * (S.s.map fun t => t * t).sum
  | _ => 0

/-- The seven squared norms of an element. -/
structure Norms (K : Type) where
  energy : K
  ext : K
  stress : K
  press : K
  dev : K
  vm : K
  vol : K

/-- No contributions. -/
def Norms.zero : Norms K := ⟨0, 0, 0, 0, 0, 0, 0⟩

/-- The pressure in `ElasticityNormUL::evalInt` (FiniteDeformation/NonlinearElasticityUL.C:402). -/
def pressure (S : Sym K) : K := S.trace / ((if S.size = 4 then 3 else S.dim : Nat) : K)

/-- `ElasticityNormUL::evalInt` (FiniteDeformation/NonlinearElasticityUL.C:391-416). -/
def evalInt (n : Norms K) (S : Sym K) (U detF detJW : K) : Norms K :=
  let w := detJW * detF
  let p := pressure S
  { energy := n.energy + U * detJW
    ext := n.ext
    stress := n.stress + S.dot * w
    press := n.press + p * p * w
    dev := n.dev + (S.sub p).dot * w
    vm := n.vm + S.vm * w
    vol := n.vol + w }

/-- An integration point: stress tensor, strain energy density, determinant of the deformation gradient, and volume. -/
structure Pt (K : Type) where
  S : Sym K
  U : K
  J : K
  w : K

/-- The norms of a model: all integration points, starting with no contributions. -/
def total (ps : List (Pt K)) : Norms K := ps.foldl (fun n p => evalInt n p.S p.U p.J p.w) Norms.zero

/-- The volume change at the integration points in the norms of the mixed formulation with internal pressure modes (FiniteDeformation/NonlinearElasticityULMX.C:664-706): `Phi i a` is mode i at point a,
`Hi` the inverse of the matrix of the modes, `J` the determinants and `w` the volumes of the points. -/
def theta {m n : Nat} (Hi : Matrix (Fin m) (Fin m) K) (Phi : Fin m → Fin n → K) (J w : Fin n → K) (a : Fin n) : K :=
  if h : m = 1 then (∑ b, J b * w b) * Hi ⟨0, by omega⟩ ⟨0, by omega⟩
  else ∑ i, (∑ j, Hi i j * ∑ b, Phi j b * J b * w b) * Phi i a

/-- The matrix of the modes (FiniteDeformation/NonlinearElasticityULMX.C:279-290). -/
def modes {m n : Nat} (Phi : Fin m → Fin n → K) (w : Fin n → K) : Matrix (Fin m) (Fin m) K := fun i j => ∑ b, Phi i b * Phi j b * w b

end

/-! ### Print-out -/

/-- Quantities. -/
inductive Q
  | energy
  | external
  | stress
  | pressure
  | deviatoric
  | vonMises
  | volume
  | exact
  | error
deriving DecidableEq, Repr

/-- The quantities computed by `ElasticityNormUL` and its subclasses (FiniteDeformation/NonlinearElasticityUL.C:385-416). -/
def quantitiesUL : List Q := [.energy, .external, .stress, .pressure, .deviatoric, .vonMises, .volume]

/-- The quantities computed by `ElasticityNorm`, for models in total Lagrange formulation and linear models (Elasticity/Elasticity.C:1138-1172), without projections and extraction functions. -/
def quantitiesLin (anasol : Bool) : List Q := if anasol then [.energy, .external, .exact, .error, .volume] else [.energy, .external, .volume]

/-- The labels in `NonlinearDriver::printNorms` (Elasticity/NonlinearDriver.C:174-206) for a number of norms, where `small` tells if the second one is printed as zero. -/
def labels (size : Nat) (small : Bool) : List (Nat × Q) :=
  (if size > 0 then [(1, Q.energy)] else []) ++
  (if size > 1 ∧ small = false then [(2, Q.external)] else []) ++
  (if size > 2 then [(3, Q.stress)] else []) ++
  (if size > 3 then [(4, Q.pressure)] else []) ++
  (if size > 4 then [(5, Q.deviatoric)] else []) ++
  (if size > 5 then [(6, Q.vonMises)] else [])

/-- Whether `NonlinearDriver::solutionNorms` computes the norms (Elasticity/NonlinearDriver.C:115-133): `calcEn` is the energy flag, `adap` mesh adaptation. -/
def computeNorms (msgLevel : Int) (haveSol : Bool) (calcEn : Nat) (adap ok : Bool) : Bool :=
  decide (0 ≤ msgLevel) && haveSol && decide (calcEn ≠ 0) && !adap && ok

/-- The energy flag after the tags of the solver (Elasticity/NonlinearDriver.C:33-42, 81-90): `false` for no energy, `true` for energy squares. -/
def calcEn (adaptive : Bool) (tags : List Bool) : Nat := tags.foldl (fun _ t => if t then 2 else 0) (if adaptive then 0 else 1)

end Verif.NormUL
