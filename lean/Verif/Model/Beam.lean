/-
Model of the two-noded beam and bar elements (Beam/ElasticBeam.C, Beam/ElasticBar.C) and the beam
properties (Beam/BeamProperty.C).

The beam matrices are 12×12 and the bar matrices 6×6 after `resize`; all indices used are constants within
that range, so a matrix is modelled as a function of its one-based indices.
-/
import Mathlib.Algebra.Order.Field.Basic
import Mathlib.Algebra.BigOperators.Fin
import Mathlib.Tactic.Ring

namespace Verif.Beam

section

variable {K : Type*} [Field K]

/-- Entries of a matrix by one-based row and column. -/
abbrev Mat (K : Type*) := Nat → Nat → K

/-- `A(i,j) += v`. -/
def addTo (A : Mat K) (i j : Nat) (v : K) : Mat K := fun r c => if r = i ∧ c = j then A r c + v else A r c

/-- `b(i) += v`. -/
def addToV (b : Nat → K) (i : Nat) (v : K) : Nat → K := fun r => if r = i then b r + v else b r

/-- The indices one to twelve, as visited by the loops. -/
def twelve : List Nat := [1, 2, 3, 4, 5, 6, 7, 8, 9, 10, 11, 12]

/-- A point or vector; components 0, 1 and 2 are x, y and z. -/
abbrev V3 (K : Type*) := Fin 3 → K

/-! ### Transformations -/

/-- `eccTransform` of a vector (Beam/ElasticBeam.C:306-314). -/
def eccVec (b : Nat → K) (e1 e2 : V3 K) : Nat → K :=
  let b := addToV b 4 (e1 2 * b 2 - e1 1 * b 3)
  let b := addToV b 5 (-e1 2 * b 1 + e1 0 * b 3)
  let b := addToV b 6 (e1 1 * b 1 - e1 0 * b 2)
  let b := addToV b 10 (e2 2 * b 8 - e2 1 * b 9)
  let b := addToV b 11 (-e2 2 * b 7 + e2 0 * b 9)
  addToV b 12 (e2 1 * b 7 - e2 0 * b 8)

/-- One pass of the first loop of `eccTransform` of a matrix (Beam/ElasticBeam.C:319-327). -/
def eccRow (e1 e2 : V3 K) (A : Mat K) (j : Nat) : Mat K :=
  let A := addTo A 4 j (e1 2 * A 2 j - e1 1 * A 3 j)
  let A := addTo A 5 j (-e1 2 * A 1 j + e1 0 * A 3 j)
  let A := addTo A 6 j (e1 1 * A 1 j - e1 0 * A 2 j)
  let A := addTo A 10 j (e2 2 * A 8 j - e2 1 * A 9 j)
  let A := addTo A 11 j (-e2 2 * A 7 j + e2 0 * A 9 j)
  addTo A 12 j (e2 1 * A 7 j - e2 0 * A 8 j)

/-- One pass of the second loop of `eccTransform` of a matrix (Beam/ElasticBeam.C:329-337). -/
def eccCol (e1 e2 : V3 K) (A : Mat K) (i : Nat) : Mat K :=
  let A := addTo A i 4 (e1 2 * A i 2 - e1 1 * A i 3)
  let A := addTo A i 5 (-e1 2 * A i 1 + e1 0 * A i 3)
  let A := addTo A i 6 (e1 1 * A i 1 - e1 0 * A i 2)
  let A := addTo A i 10 (e2 2 * A i 8 - e2 1 * A i 9)
  let A := addTo A i 11 (-e2 2 * A i 7 + e2 0 * A i 9)
  addTo A i 12 (e2 1 * A i 7 - e2 0 * A i 8)

/-- `eccTransform` of a matrix (Beam/ElasticBeam.C:317-338). -/
def eccMat (A : Mat K) (e1 e2 : V3 K) : Mat K :=
  twelve.foldl (eccCol e1 e2) (twelve.foldl (eccRow e1 e2) A)

/-- One pass of the first loop of `shearTransform` (Beam/ElasticBeam.C:343-345). -/
def shearRow (Sy Sz : K) (A : Mat K) (j : Nat) : Mat K :=
  let A := addTo A 4 j (Sy * A 3 j - Sz * A 2 j)
  addTo A 10 j (Sy * A 9 j - Sz * A 8 j)

/-- One pass of the second loop of `shearTransform` (Beam/ElasticBeam.C:347-349). -/
def shearCol (Sy Sz : K) (A : Mat K) (i : Nat) : Mat K :=
  let A := addTo A i 4 (A i 3 * Sy - A i 2 * Sz)
  addTo A i 10 (A i 9 * Sy - A i 8 * Sz)

/-- `shearTransform` (Beam/ElasticBeam.C:341-350). -/
def shearMat (A : Mat K) (Sy Sz : K) : Mat K :=
  twelve.foldl (shearCol Sy Sz) (twelve.foldl (shearRow Sy Sz) A)

/-! ### Element matrices -/

/-- Entry of a matrix given by the assignments made after it was set to zero. -/
def entry (l : List (Nat × Nat × K)) (i j : Nat) : K :=
  match l.find? fun x => x.1 == i && x.2.1 == j with
  | some x => x.2.2
  | none => 0

/-- "Lower triangle from symmetry" (Beam/ElasticBeam.C:393-396, 441-444 and 500-503): the upper triangle is not
changed by this loop. -/
def symm (A : Mat K) : Mat K := fun i j => if j < i then A j i else A i j

/-- The upper triangle assigned in `getMaterialStiffness` (Beam/ElasticBeam.C:371-391); each entry is assigned
once. -/
def stiffUpper (L EA GIt EIy EIz Aly Alz : K) : List (Nat × Nat × K) :=
  let L3 := L * L * L
  let k11 := EA / L
  let k22 := 12 * EIy / (L3 + L3 * Aly)
  let k33 := 12 * EIz / (L3 + L3 * Alz)
  let k44 := GIt / L
  let k55 := EIz * (4 + Alz) / (L + L * Alz)
  let k66 := EIy * (4 + Aly) / (L + L * Aly)
  let k35 := -k33 * L * (1 / 2)
  let k26 := k22 * L * (1 / 2)
  [(1, 1, k11), (7, 7, k11), (2, 2, k22), (8, 8, k22), (3, 3, k33), (9, 9, k33),
   (4, 4, k44), (10, 10, k44), (5, 5, k55), (11, 11, k55), (6, 6, k66), (12, 12, k66),
   (3, 5, k35), (3, 11, k35), (2, 6, k26), (2, 12, k26), (1, 7, -k11),
   (6, 8, -k26), (8, 12, -k26), (5, 9, -k35), (9, 11, -k35), (4, 10, -k44),
   (2, 8, -k22), (3, 9, -k33),
   (5, 11, EIz * (2 - Alz) / (L + L * Alz)), (6, 12, EIy * (2 - Aly) / (L + L * Aly))]

/-- The upper triangle assigned in `getGeometricStiffness` (Beam/ElasticBeam.C:419-439); the decimal constants
are read as exact fractions. -/
def geoUpper (N L Aly Alz ItoA : K) : List (Nat × Nat × K) :=
  let L2 := L * L
  let Cy := N / (L * (1 + Aly) * (1 + Aly))
  let Cz := N / (L * (1 + Alz) * (1 + Alz))
  let k22 := Cy * (6 / 5 + Aly * (2 + Aly))
  let k33 := Cz * (6 / 5 + Alz * (2 + Alz))
  let k44 := N * ItoA / L
  let k55 := Cz * L2 * (2 / 5 + Alz * (1 / 2 + 1 / 4 * Alz)) / 3
  let k66 := Cy * L2 * (2 / 5 + Aly * (1 / 2 + 1 / 4 * Aly)) / 3
  let k35 := -Cz * L * (1 / 10)
  let k26 := Cy * L * (1 / 10)
  [(2, 2, k22), (8, 8, k22), (3, 3, k33), (9, 9, k33), (4, 4, k44), (10, 10, k44),
   (5, 5, k55), (11, 11, k55), (6, 6, k66), (12, 12, k66),
   (3, 5, k35), (3, 11, k35), (5, 9, -k35), (9, 11, -k35),
   (2, 6, k26), (2, 12, k26), (6, 8, -k26), (8, 12, -k26),
   (2, 8, -k22), (3, 9, -k33), (4, 10, -k44),
   (5, 11, -Cz * L2 * (1 / 10 + Alz * (1 / 2 + 1 / 4 * Alz)) / 3),
   (6, 12, -Cy * L2 * (1 / 10 + Aly * (1 / 2 + 1 / 4 * Aly)) / 3)]

/-- The upper triangle of the consistent mass matrix (Beam/ElasticBeam.C:476-498). -/
def massUpper (rhoA Ixx Iyy Izz L : K) : List (Nat × Nat × K) :=
  let AM := L * rhoA
  let AM2 := L * AM
  let AM3 := L * AM2
  let m22 := AM * (13 / 10) / (7 / 2) + Izz * (6 / 5) / L
  let m33 := AM * (13 / 10) / (7 / 2) + Iyy * (6 / 5) / L
  let m44 := L * Ixx / 3
  let m55 := AM3 / 105 + Iyy * L * (2 / 5) / 3
  let m66 := AM3 / 105 + Izz * L * (2 / 5) / 3
  let m26 := AM2 * (11 / 10) / 21 + Izz * (1 / 10)
  let m212 := -AM2 * (13 / 10) / 42 + Izz * (1 / 10)
  let m35 := -AM2 * (11 / 10) / 21 - Iyy * (1 / 10)
  let m311 := AM2 * (13 / 10) / 42 - Iyy * (1 / 10)
  [(1, 1, AM / 3), (7, 7, AM / 3), (2, 2, m22), (8, 8, m22), (3, 3, m33), (9, 9, m33),
   (4, 4, m44), (10, 10, m44), (5, 5, m55), (11, 11, m55), (6, 6, m66), (12, 12, m66),
   (1, 7, AM / 6), (2, 6, m26), (2, 8, AM * (9 / 10) / 7 - Izz * (6 / 5) / L), (2, 12, m212),
   (3, 5, m35), (3, 9, AM * (9 / 10) / 7 - Iyy * (6 / 5) / L), (3, 11, m311),
   (4, 10, m44 * (1 / 2)), (5, 9, -m311), (5, 11, -AM3 / 140 - Iyy * L / 30),
   (6, 8, -m212), (6, 12, -AM3 / 140 - Izz * L / 30), (8, 12, -m26), (9, 11, -m35)]

/-- The lumped mass matrix (Beam/ElasticBeam.C:470-475). -/
def massLumped (rhoA Ixx L : K) : List (Nat × Nat × K) :=
  let AM := L * rhoA
  let AM3 := L * (L * AM)
  [(1, 1, 1 / 2 * AM), (2, 2, 1 / 2 * AM), (3, 3, 1 / 2 * AM), (7, 7, 1 / 2 * AM), (8, 8, 1 / 2 * AM),
   (9, 9, 1 / 2 * AM), (4, 4, 1 / 2 * L * Ixx), (10, 10, 1 / 2 * L * Ixx),
   (5, 5, AM3 / 420), (6, 6, AM3 / 420), (11, 11, AM3 / 420), (12, 12, AM3 / 420)]

/-- `getMassMatrix` (Beam/ElasticBeam.C:462-511): `lumped` is the value of `lumpedMass`. -/
def mass (lumped : Int) (rhoA Ixx Iyy Izz L : K) : Mat K :=
  if lumped > 0 then entry (massLumped rhoA Ixx L)
  else if lumped < 0 then symm (entry (massUpper rhoA Ixx 0 0 L))
  else symm (entry (massUpper rhoA Ixx Iyy Izz L))

/-- The gravitation forces `M*g` (Beam/ElasticBeam.C:624-634), `g` in local axes. -/
def gravity (M : Mat K) (g : V3 K) (S : Nat → K) : Nat → K := fun i =>
  S i + (M i 1 * g 0 + M i 2 * g 1 + M i 3 * g 2) + (M i 7 * g 0 + M i 8 * g 1 + M i 9 * g 2)

/-- The special transformation of the rotational part of a lumped mass matrix to global axes
(Beam/ElasticBeam.C:672-681); `k` is 3, 6 and 9. -/
def lumpAxes (T : Fin 3 → Fin 3 → K) (A : Mat K) : Mat K := fun r c =>
  if r = c ∧ 4 ≤ r ∧ r ≤ 12 then
    let k := (r - 1) / 3 * 3
    let i : Fin 3 := ⟨(r - 1) % 3, Nat.mod_lt _ (by omega)⟩
    A (k + 1) (k + 1) * T i 0 * T i 0 + A (k + 2) (k + 2) * T i 1 * T i 1 + A (k + 3) (k + 3) * T i 2 * T i 2
  else A r c

/-- The special eccentricity transformation of a lumped mass matrix (Beam/ElasticBeam.C:705-715). -/
def lumpEcc (A : Mat K) (e1 e2 : V3 K) : Mat K :=
  let A := addTo A 4 4 (A 3 3 * e1 1 * e1 1 + A 2 2 * e1 2 * e1 2)
  let A := addTo A 5 5 (A 3 3 * e1 0 * e1 0 + A 1 1 * e1 2 * e1 2)
  let A := addTo A 6 6 (A 2 2 * e1 0 * e1 0 + A 1 1 * e1 1 * e1 1)
  let A := addTo A 10 10 (A 9 9 * e2 1 * e2 1 + A 8 8 * e2 2 * e2 2)
  let A := addTo A 11 11 (A 9 9 * e2 0 * e2 0 + A 7 7 * e2 2 * e2 2)
  addTo A 12 12 (A 8 8 * e2 0 * e2 0 + A 7 7 * e2 1 * e2 1)

end

section ordered

variable {K : Type*} [Field K] [LinearOrder K]

/-- The adjustment for a shear centre offset (Beam/ElasticBeam.C:398-400 and 446-448). -/
def adjust (A : Mat K) (Sy Sz : K) : Mat K :=
  if |Sy| + |Sz| > 1 / 1000000000000 then shearMat A Sy Sz else A

/-- `getMaterialStiffness` (Beam/ElasticBeam.C:365-406). -/
def stiffness (L EA GIt EIy EIz Aly Alz Sy Sz : K) : Mat K :=
  adjust (symm (entry (stiffUpper L EA GIt EIy EIz Aly Alz))) Sy Sz

/-- `getGeometricStiffness` (Beam/ElasticBeam.C:414-454). -/
def geometric (N L Aly Alz ItoA Sy Sz : K) : Mat K :=
  adjust (symm (entry (geoUpper N L Aly Alz ItoA))) Sy Sz

/-! ### Beam properties -/

/-- `BeamProperty`: constant values and property functions, `none` being a null pointer
(Beam/BeamProperty.h:81-115). -/
structure Prop' (X K : Type*) where
  A : K
  Ix : K
  Iy : K
  Iz : K
  It : K
  Ky : K
  Kz : K
  Sy : K
  Sz : K
  EAf : Option (X → K) := none
  EIyf : Option (X → K) := none
  EIzf : Option (X → K) := none
  GItf : Option (X → K) := none
  rhof : Option (X → K) := none
  Axf : Option (X → K) := none
  Ayf : Option (X → K) := none
  Azf : Option (X → K) := none
  Syf : Option (X → K) := none
  Szf : Option (X → K) := none
  Ixf : Option (X → K) := none
  Iyf : Option (X → K) := none
  Izf : Option (X → K) := none
  CGyf : Option (X → K) := none
  CGzf : Option (X → K) := none

/-- `f ? (*f)(X) : v`. -/
def useF {X K : Type*} (f : Option (X → K)) (x : X) (v : K) : K :=
  match f with
  | some f => f x
  | none => v

/-- `f && b ? (*f)(X) : v`. -/
def useIf {X K : Type*} (f : Option (X → K)) (b : Bool) (x : X) (v : K) : K :=
  if b then useF f x v else v

/-- The properties evaluated at a point. -/
structure Vals (K : Type*) where
  EA : K
  EIy : K
  EIz : K
  GIt : K
  Aly : K
  Alz : K
  ItoA : K
  Sy : K
  Sz : K
  rhoA : K
  CGy : K
  CGz : K
  Ixx : K
  Iyy : K
  Izz : K

/-- `BeamProperty::eval` (Beam/BeamProperty.C:336-367). -/
def eval {X : Type*} (p : Prop' X K) (x : X) (L E G rho : K) (hasGrav hasMass : Bool) : Vals K :=
  let Area := useF p.Axf x p.A
  let EIy := useF p.EIyf x (E * useF p.Iyf x p.Iy)
  let EIz := useF p.EIzf x (E * useF p.Izf x p.Iz)
  let Sy := useF p.Syf x p.Sy
  let Sz := useF p.Szf x p.Sz
  let small : Bool := decide (Sy * Sy + Sz * Sz < 1 / 100000000 * Area)
  { EA := useF p.EAf x (E * Area)
    EIy := EIy
    EIz := EIz
    GIt := useF p.GItf x (G * useF p.Ixf x p.It)
    Aly := 12 * (EIy / (G * L * L)) * useF (p.Ayf.map fun f y => 1 / f y) x (p.Ky / Area)
    Alz := 12 * (EIz / (G * L * L)) * useF (p.Azf.map fun f y => 1 / f y) x (p.Kz / Area)
    ItoA := useF p.Ixf x p.It / Area
    Sy := if small then 0 else Sy
    Sz := if small then 0 else Sz
    rhoA := useIf p.rhof (hasMass || hasGrav) x (rho * Area)
    CGy := useIf p.CGyf (hasMass || hasGrav) x 0
    CGz := useIf p.CGzf (hasMass || hasGrav) x 0
    Ixx := useIf p.Ixf hasMass x (rho * p.Ix)
    Iyy := useIf p.Iyf hasMass x (rho * p.Iy)
    Izz := useIf p.Izf hasMass x (rho * p.Iz) }

/-- The second `BeamProperty::eval` (Beam/BeamProperty.C:370-386): EA, EIy, EIz, GIt, rhoA, Iyy, Izz. -/
def evalShort {X : Type*} (p : Prop' X K) (x : X) (E G rho : K) : K × K × K × K × K × K × K :=
  (useF p.EAf x (E * useF p.Axf x p.A), useF p.EIyf x (E * useF p.Iyf x p.Iy),
   useF p.EIzf x (E * useF p.Izf x p.Iz), useF p.GItf x (G * useF p.Ixf x p.It),
   useF p.rhof x (rho * useF p.Axf x p.A), useF p.Iyf x (rho * useF p.Iyf x p.Iy),
   useF p.Izf x (rho * useF p.Izf x p.Iz))

/-- `BeamProperty::evalRho` (Beam/BeamProperty.C:389-392). -/
def evalRho {X : Type*} (p : Prop' X K) (x : X) (rho : K) : K :=
  useF p.rhof x (rho * useF p.Axf x p.A)

end ordered

end Verif.Beam
