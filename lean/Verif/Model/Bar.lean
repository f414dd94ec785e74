/-
Model of the two-noded nonlinear bar element (Beam/ElasticBar.C).

`Vec3::normalize` of the IFEM library is taken to scale a vector to unit length and return its length.  The element
matrices are 6×6 and the vectors have six components (`redim(3*nen)`, Beam/ElasticBar.C:104); all indices used are
constants in that range, so they are modelled as functions of one-based indices.
-/
import Verif.Basic
import Verif.Model.Beam
import Mathlib.Analysis.SpecialFunctions.Log.Basic
import Mathlib.Analysis.Real.Sqrt

namespace Verif.Bar

open Verif.Beam (Mat V3)

/-- Length of a vector. -/
noncomputable def len (d : V3 ℝ) : ℝ := Real.sqrt (d 0 * d 0 + d 1 * d 1 + d 2 * d 2)

/-- The vector after `normalize`. -/
noncomputable def unit (d : V3 ℝ) : V3 ℝ := fun i => d i / len d

/-- `Vec3::cross`. -/
def cross (a b : V3 ℝ) : V3 ℝ :=
  ![a 1 * b 2 - a 2 * b 1, a 2 * b 0 - a 0 * b 2, a 0 * b 1 - a 1 * b 0]

/-- `ElasticBar::getStrain` (Beam/ElasticBar.C:312-322). -/
noncomputable def getStrain (m : Char) (lam : ℝ) : ℝ :=
  if m = 'G' then 1 / 2 * lam * lam - 1 / 2 else if m = 'L' then Real.log lam else lam - 1

/-- The local Y- and Z-axes (Beam/ElasticBar.C:156-177). -/
noncomputable def axes (X : V3 ℝ) : V3 ℝ × V3 ℝ :=
  if |X 2| > |X 1| then
    let Y := unit ![-X 1 * X 0, X 0 * X 0 + X 2 * X 2, -X 1 * X 2]
    (Y, cross X Y)
  else
    let Z := unit ![-X 2 * X 0, -X 2 * X 1, X 0 * X 0 + X 1 * X 1]
    (cross Z X, Z)

/-- Axial force, nominal material and geometric stiffness (Beam/ElasticBar.C:180-197). -/
noncomputable def nominal (m : Char) (withG : Bool) (k L L0 : ℝ) : ℝ × ℝ × ℝ :=
  let lam := L / L0
  let F := k * getStrain m lam
  let Km := k / L0
  let Kg := if withG then F / L else 0
  if m = 'G' then (F * lam, Km * (lam * lam), Kg * lam)
  else if m = 'L' then (F / lam, Km / (lam * lam), Kg / lam)
  else (F, Km, Kg)

/-- Entry of the geometric stiffness (Beam/ElasticBar.C:222-239). -/
def geoEntry (m : Char) (Kg : ℝ) (X Y Z : V3 ℝ) (i j : Fin 3) : ℝ :=
  if m = 'E' then Kg * ((if i = j then 1 else 0) - X i * X j)
  else if m = 'G' then (if i ≠ j then 0 else Kg)
  else if m = 'L' then Kg * ((if i = j then 1 else 0) - 2 * X i * X j)
  else Kg * (Y i * Y j + Z i * Z j)

/-- The matrices and vectors of an element, by their one-based numbers. -/
structure Mats where
  A : Nat → Mat ℝ
  b : Nat → Nat → ℝ

/-- Component of a vector with one-based index, `X[i-1]`. -/
def at1 (f : Fin 3 → ℝ) (i : Nat) : ℝ := f ⟨(i - 1) % 3, Nat.mod_lt _ (by omega)⟩

/-- Same for a matrix. -/
def at2 (f : Fin 3 → Fin 3 → ℝ) (i j : Nat) : ℝ :=
  f ⟨(i - 1) % 3, Nat.mod_lt _ (by omega)⟩ ⟨(j - 1) % 3, Nat.mod_lt _ (by omega)⟩

/-- Assign the leading 3×3 block of matrix `s`. -/
def setLead (A : Nat → Mat ℝ) (s : Nat) (f : Fin 3 → Fin 3 → ℝ) : Nat → Mat ℝ := fun k i j =>
  if k = s ∧ 1 ≤ i ∧ i ≤ 3 ∧ 1 ≤ j ∧ j ≤ 3 then at2 f i j else A k i j

/-- Add to the leading 3×3 block of matrix `s`. -/
def addLead (A : Nat → Mat ℝ) (s : Nat) (f : Fin 3 → Fin 3 → ℝ) : Nat → Mat ℝ := fun k i j =>
  if k = s ∧ 1 ≤ i ∧ i ≤ 3 ∧ 1 ≤ j ∧ j ≤ 3 then A k i j + at2 f i j else A k i j

/-- The loops that assign the other blocks of matrix `s`: the last diagonal block is taken from matrix `s`, the off-diagonal
ones from matrix `o` (Beam/ElasticBar.C:247-261). The leading blocks are not changed. -/
def mirror (A : Nat → Mat ℝ) (s o : Nat) : Nat → Mat ℝ := fun k i j =>
  if k = s then
    if 4 ≤ i ∧ i ≤ 6 ∧ 4 ≤ j ∧ j ≤ 6 then A s (i - 3) (j - 3)
    else if 1 ≤ i ∧ i ≤ 3 ∧ 4 ≤ j ∧ j ≤ 6 then -A o i (j - 3)
    else if 4 ≤ i ∧ i ≤ 6 ∧ 1 ≤ j ∧ j ≤ 3 then -A o (i - 3) j
    else A k i j
  else A k i j

/-- The data of the element: strain measure, axial stiffness, mass per length, mass option, gravity. -/
structure Data where
  measure : Char
  stiffness : ℝ
  lineMass : ℝ
  lumped : Bool
  gravity : V3 ℝ

/-- Numbers of the matrices and vectors, zero if there is none. -/
structure Slots where
  eKm : Nat
  eKg : Nat
  eM : Nat
  eS : Nat
  iS : Nat

/-- The stiffness matrices (Beam/ElasticBar.C:206-262). -/
noncomputable def stiff (p : Data) (s : Slots) (X : V3 ℝ) (L L0 : ℝ) (A : Nat → Mat ℝ) : Nat → Mat ℝ :=
  if s.eKm = 0 then A
  else
    let n := nominal p.measure (s.eKg != 0) p.stiffness L L0
    let Y := if s.eKg ≠ 0 ∧ L ≠ L0 then (axes X).1 else fun _ => 0
    let Z := if s.eKg ≠ 0 ∧ L ≠ L0 then (axes X).2 else fun _ => 0
    let g := if s.eKg = 0 then s.eKm else s.eKg
    let A := setLead A s.eKm (fun i j => n.2.1 * X i * X j)
    let A := if n.2.2 = 0 then A
      else if s.eKg = s.eKm then addLead A g (geoEntry p.measure n.2.2 X Y Z)
      else setLead A g (geoEntry p.measure n.2.2 X Y Z)
    let A := mirror A s.eKm s.eKm
    if n.2.2 ≠ 0 ∧ s.eKg ≠ s.eKm then mirror A g s.eKm else A

/-- The mass matrix (Beam/ElasticBar.C:264-276), `M` being its previous content. -/
noncomputable def massMat (lumped : Bool) (mass : ℝ) (M : Mat ℝ) : Mat ℝ :=
  if lumped then fun i j => if i = j ∧ 1 ≤ i ∧ i ≤ 6 then mass else M i j
  else fun i j => if i = j ∧ 1 ≤ i ∧ i ≤ 6 then mass / 3 * 2 else mass / 3

/-- Gravitation forces (Beam/ElasticBar.C:278-287). -/
noncomputable def gravityForce (mass : ℝ) (g : V3 ℝ) (S : Nat → ℝ) : Nat → ℝ :=
  if g = 0 then S
  else fun i => if 1 ≤ i ∧ i ≤ 6 then mass * at1 g i else S i

/-- Internal forces (Beam/ElasticBar.C:289-303). -/
def internalForce (same : Bool) (F : ℝ) (X : V3 ℝ) (S : Nat → ℝ) : Nat → ℝ := fun i =>
  if 1 ≤ i ∧ i ≤ 3 then (if same then S i + F * at1 X i else F * at1 X i)
  else if 4 ≤ i ∧ i ≤ 6 then (if same then S i - F * at1 X i else -(F * at1 X i))
  else S i

/-- The element matrices and vectors for direction `X`, length `L` and initial length `L0`
(Beam/ElasticBar.C:179-306). The matrix `eM` differs from `eKm` and `eKg`. -/
noncomputable def fill (p : Data) (s : Slots) (X : V3 ℝ) (L L0 : ℝ) (E : Mats) : Mats :=
  let F := (nominal p.measure (s.eKg != 0) p.stiffness L L0).1
  let mass := 1 / 2 * p.lineMass * L0
  let A := stiff p s X L L0 E.A
  let A := if s.eM = 0 then A else Function.update A s.eM (massMat p.lumped mass (A s.eM))
  let b := if s.eS = 0 then E.b else Function.update E.b s.eS (gravityForce mass p.gravity (E.b s.eS))
  let b := if s.iS = 0 then b else Function.update b s.iS (internalForce (s.iS == s.eS) F X (b s.iS))
  ⟨A, b⟩

/-- `ElasticBar::evalInt` (Beam/ElasticBar.C:121-309): `X1` and `X2` are the end points, `U` the end displacements unless the
solution vector is empty. -/
noncomputable def evalInt (p : Data) (s : Slots) (X1 X2 : V3 ℝ) (U : Option (V3 ℝ × V3 ℝ)) (E : Mats) : Res Mats :=
  let d0 : V3 ℝ := X2 - X1
  let L0 := len d0
  if L0 ≤ 1 / 100000000 then .fail
  else
    let d : V3 ℝ := match U with
      | none => d0
      | some u => (X2 + u.2) - (X1 + u.1)
    if len d ≤ 1 / 100000000 then .fail
    else .ok (fill p s (unit d) (len d) L0 E)

/-- The shrinking of a matrix to `npv` unknowns per node in `finalizeElement` (Beam/ElasticBar.C:345-356), as the list of
assignments to the new matrix. -/
def shrink (npv nen : Nat) (A : DMat ℝ) : Res (DMat ℝ) :=
  (DMat.zero (npv * nen) (npv * nen)).setMany
    ((List.range nen).flatMap fun a => (List.range nen).flatMap fun b =>
      (List.range npv).flatMap fun i => (List.range npv).map fun j =>
        (npv * a + (i + 1), npv * b + (j + 1), A.e (3 * a + (i + 1)) (3 * b + (j + 1))))

/-- The shrinking of a vector in place (Beam/ElasticBar.C:358-364). -/
def shrinkV (npv nen : Nat) (v : Nat → ℝ) : Nat → ℝ :=
  ((List.range nen).filter (· ≠ 0)).foldl (fun b a => (List.range npv).foldl (fun b i =>
    Function.update b (npv * a + (i + 1)) (b (3 * a + (i + 1)))) b) v

end Verif.Bar
