/-
Input of bars, cables and beams: Beam/BeamProperty.C (cross sections, tables in CSV files), Beam/SIMElasticBar.C (materials, tags, rotations), Beam/ElasticBeam.C (loads).

An element is a map from attribute names to numbers. IFEM assumption: `utl::getAttribute` leaves its argument unchanged and returns false if there is no such attribute.
-/
import Verif.Basic
import Mathlib.Analysis.SpecialFunctions.Trigonometric.Basic

namespace Verif.BeamInput

/-- The attributes of an element. -/
abbrev Att := String → Option ℝ

/-- `utl::getAttribute` with the previous value. -/
noncomputable def attr (a : Att) (name : String) (old : ℝ) : ℝ := (a name).getD old

/-- `BeamProperty::parsePipe` (Beam/BeamProperty.C:80-104): area, second moment of area and shear factor. -/
noncomputable def parsePipe (a : Att) : Option (ℝ × ℝ × ℝ) :=
  ((a "R").or ((a "D").map fun D => 1 / 2 * D)).map fun R =>
    let R2 := R * R
    let r2 := match a "t" with
      | some t => (R - t) * (R - t)
      | none => 0
    (Real.pi * (R2 - r2), Real.pi * (R2 * R2 - r2 * r2) * (1 / 4), if r2 > 0 then 2 else 1 / (9 / 10))

/-- Result of `parseBox`: area, second moments of area, torsional constant, shear factors. -/
structure Box where
  A : ℝ
  I1 : ℝ
  I2 : ℝ
  J : ℝ
  K1 : ℝ
  K2 : ℝ

/-- The hollow box (Beam/BeamProperty.C:119-136). -/
noncomputable def hollowBox (H B t1 t2 : ℝ) : Box :=
  let Bi := B - 2 * t2
  let Hi := H - 2 * t1
  let A := B * H - Bi * Hi
  { A := A
    I1 := (B * H * H * H - Bi * Hi * Hi * Hi) / 12
    I2 := (H * B * B * B - Hi * Bi * Bi * Bi) / 12
    J := 2 * t2 * t1 * ((B - t2) * (H - t1)) ^ 2 / (B * t2 + H * t1 - t2 * t2 - t1 * t1)
    K1 := 1 / 2 * A / (Bi * t1)
    K2 := 1 / 2 * A / (Hi * t2) }

/-- The solid rectangle (Beam/BeamProperty.C:137-146), where the sides are exchanged for the torsional constant if the height is larger. -/
noncomputable def solidBox (H B : ℝ) : Box :=
  let b := if H > B then H else B
  let h := if H > B then B else H
  { A := B * H
    I1 := B * H * H * H / 12
    I2 := H * B * B * B / 12
    J := b * h * h * h * (1 - 63 / 100 * (h / b) * (1 - (h / b) ^ 4 / 12)) / 3
    K1 := 12 / 10
    K2 := 12 / 10 }

/-- `BeamProperty::parseBox` (Beam/BeamProperty.C:107-152). -/
noncomputable def parseBox (a : Att) : Option Box :=
  (a "H").map fun H =>
    let B := attr a "B" H
    match (a "t").or (a "t1") with
    | some t1 => hollowBox H B t1 (attr a "t2" t1)
    | none => solidBox H B

/-- The constant data of a cross section (Beam/BeamProperty.h:97-117). -/
structure Sec where
  A : ℝ
  Ix : ℝ
  Iy : ℝ
  Iz : ℝ
  It : ℝ
  Ky : ℝ
  Kz : ℝ
  Sy : ℝ
  Sz : ℝ
  phi : ℝ

/-- The default cross section (Beam/BeamProperty.C:24-32). -/
noncomputable def defSec : Sec := ⟨1 / 10, 2 / 1000, 1 / 1000, 1 / 1000, 2 / 1000, 0, 0, 0, 0, 0⟩

/-- The shape of `BeamProperty::parse` (Beam/BeamProperty.C:157-164). -/
noncomputable def parseShape (a : Att) (s : Sec) : Sec :=
  match parsePipe a with
  | some (A, I, K) => { s with A := A, Iz := I, Kz := K, Ky := K, Iy := I, It := I * 2, Ix := I * 2 }
  | none => match parseBox a with
    | some b => { s with A := b.A, Iy := b.I1, Iz := b.I2, It := b.J, Ky := b.K1, Kz := b.K2, Ix := b.I1 + b.I2 }
    | none => s

/-- The constant part of `BeamProperty::parse` (Beam/BeamProperty.C:155-176). -/
noncomputable def parseSec (a : Att) (s : Sec) : Sec :=
  let s := parseShape a s
  { s with A := attr a "A" s.A, Ix := attr a "Ix" s.Ix, Iy := attr a "Iy" s.Iy, Iz := attr a "Iz" s.Iz, It := attr a "It" s.It
           Sy := attr a "Sy" s.Sy, Sz := attr a "Sz" s.Sz, Ky := attr a "Ky" s.Ky, Kz := attr a "Kz" s.Kz }

/-- `BeamProperty::setConstant` (Beam/BeamProperty.C:65-77). -/
noncomputable def setConstant (v : List ℝ) (s : Sec) : Sec :=
  { A := v[0]?.getD s.A
    Ix := match v[1]?, v[2]? with
      | some y, some z => y + z
      | _, _ => s.Ix
    Iy := v[1]?.getD s.Iy
    Iz := v[2]?.getD s.Iz
    It := v[3]?.getD s.It
    Ky := v[4]?.getD s.Ky
    Kz := v[5]?.getD s.Kz
    Sy := v[6]?.getD s.Sy
    Sz := v[7]?.getD s.Sz
    phi := v[8]?.getD s.phi }

/-! ### Tables in CSV files -/

/-- The tokens of repeated `strtok(…,",")` calls: maximal sequences of other characters. -/
def tokens : List Char → List (List Char)
  | [] => []
  | c :: cs =>
    if c = ',' then tokens cs
    else match cs with
      | [] => [[c]]
      | d :: _ => if d = ',' then [c] :: tokens cs
                  else match tokens cs with
                    | t :: ts => (c :: t) :: ts
                    | [] => [[c]]

/-- A line of the table. -/
structure DataLine (K : Type) where
  descr : List Char
  label : List Char
  unit : List Char
  values : List K

/-- The factors to SI units (Beam/BeamProperty.C:258-274): exponents of ten. -/
def unitExp (u : List Char) : Int :=
  if u = "[cm]".toList then -2
  else if u = "[mm]".toList then -3
  else if u = "[cm2]".toList then -4
  else if u = "[mm2]".toList then -6
  else if u = "[cm3]".toList then -6
  else if u = "[mm3]".toList then -9
  else if u = "[cm4]".toList then -8
  else if u = "[mm4]".toList then -12
  else 0

section
variable {K : Type} [Field K]

/-- Processing of a line (Beam/BeamProperty.C:250-277), which is assumed to fit into the buffer: a character is put in front of the line and taken off the first token again. `substr(1,2)` of an empty unit throws an exception, which
is not caught (`fail`). -/
def readLine (atof : List Char → K) (line : List Char) : Res (DataLine K) :=
  match tokens ('#' :: line) with
  | d :: l :: u :: vs => .ok ⟨d.drop 1, l, u, vs.map fun v => atof v * (10 : K) ^ unitExp u⟩
  | _ => .fail

/-- Reading of all lines (Beam/BeamProperty.C:246-289): the first line with a label is kept. -/
def readLines (atof : List Char → K) (m : List Char → Option (DataLine K)) : List (List Char) → Res (List Char → Option (DataLine K))
  | [] => .ok m
  | x :: xs =>
    match readLine atof x with
    | .ok d => readLines atof (if (m d.label).isNone then (fun l => if l = d.label then some d else m l) else m) xs
    | .fail => .fail
    | .ub => .ub

/-- The values for a label, empty if there are none (Beam/BeamProperty.C:291-301). -/
def getValues (m : List Char → Option (DataLine K)) (key : List Char) : List K :=
  match m key with
  | some d => d.values
  | none => []

/-- The property functions of a table as lists of values (Beam/BeamProperty.C:303-332): abscissas and values by name; `none` if there are no abscissas. -/
def readCSV (atof : List Char → K) (lines : List (List Char)) : Res (Option (List K × (String → List K))) :=
  match readLines atof (fun _ => none) lines with
  | .ok m =>
    if getValues m ['x'] = [] then .ok none
    else .ok (some (getValues m ['x'], fun f =>
      if f = "Ax" then getValues m "Ax".toList
      else if f = "Ay" then getValues m "Ay".toList
      else if f = "Az" then getValues m "Az".toList
      else if f = "Ix" then getValues m "Ix".toList
      else if f = "Iy" then getValues m "Iy".toList
      else if f = "Iz" then getValues m "Iz".toList
      else if f = "Sy" then getValues m "ey".toList
      else if f = "Sz" then getValues m "ez".toList
      else []))
  | .fail => .fail
  | .ub => .ub

end

/-! ### Materials of bars, cables and beams -/

/-- The class of the integrand. -/
inductive Kind
  | bar
  | cable
  | beam
deriving DecidableEq, Repr

/-- The integrand after an element `bar`, `cable` or `beam` (Beam/SIMElasticBar.C:60-83, 133-159): `type` is the attribute in lower case, `old` the integrand of an earlier element;
`none` if the element does not fit to it. -/
def integrand (old : Option Kind) (tag : Kind) (type : Option String) : Option Kind :=
  match old with
  | some k => if tag = .beam then (if k = .beam then some .beam else none) else (if k = .beam then none else some k)
  | none =>
    if tag = .beam then some .beam
    else if type.getD (if tag = .cable then "cable" else "N") = "cable" then some .cable else some .bar

/-- Stiffness and mass of bars and cables: axial and bending stiffness and mass per length. -/
structure BarMat where
  EA : ℝ
  EI : Option ℝ
  rhoA : ℝ

/-- The area before the attribute `A` is read (Beam/SIMElasticBar.C:182-183). -/
noncomputable def pipeA (a : Att) : ℝ :=
  match parsePipe a with
  | some (A, _, _) => A
  | none => 1

/-- The second moment of area before the attribute `I` is read (Beam/SIMElasticBar.C:182-183). -/
noncomputable def pipeI (a : Att) : ℝ :=
  match parsePipe a with
  | some (_, I, _) => I
  | none => 0

/-- The tag `material` of bars and cables (Beam/SIMElasticBar.C:175-207): `tag` tells if the enclosing element is a cable, `k` the class of the integrand, which is taken as a cable without
a check then. -/
noncomputable def barMaterial (tag k : Kind) (a : Att) : Res BarMat :=
  let E := attr a "E" 210000000000
  let rho := attr a "rho" 7850
  let A0 := pipeA a
  let I0 := pipeI a
  let A := match a "EA" with
    | some _ => A0
    | none => attr a "A" A0
  let EA := match a "EA" with
    | some EA => EA
    | none => E * A
  let rhoA := match a "rhoA" with
    | some r => if A > 0 then r else rho * A
    | none => rho * A
  if tag = .cable then
    if k = .cable then
      .ok ⟨EA, some (match a "EI" with
        | some EI => EI
        | none => E * attr a "I" I0), rhoA⟩
    else .ub
  else .ok ⟨EA, none, rhoA⟩

/-- The tag `material` of beams (Beam/SIMElasticBar.C:208-217): moduli and density. -/
noncomputable def beamMaterial (a : Att) : ℝ × ℝ × ℝ :=
  let E := attr a "E" 210000000000
  let G := match a "G" with
    | some G => G
    | none => match a "nu" with
      | some nu => if nu ≥ 0 ∧ nu < 1 / 2 then E / (nu + nu + 2) else 81000000000
      | none => 81000000000
  (E, G, attr a "rho" 7850)

/-- `SIMElasticBar::initMaterial` (Beam/SIMElasticBar.C:347-354): the section in use after the call. -/
def initMaterial {S : Type} (secs : List S) (old : S) (i : Nat) : S := (secs[i]?).getD old

/-- `SIMElasticBar::getPrioritizedTags` (Beam/SIMElasticBar.C:86-103). -/
def prioritizedTags : List String → List String
  | [] => []
  | t :: ts => if t = "geometry" then "beam" :: t :: prioritizedTags ts else t :: prioritizedTags ts

/-- `SIMElasticBar::updateRotations` (Beam/SIMElasticBar.C:485-503) for one patch: what is done with the rotations, `commit` for an empty vector, otherwise the local rotation vector to be
added and if the rotations start from unity. -/
inductive RotUpd
  | none
  | commit
  | add (v : List ℝ) (fromUnity : Bool)

/-- See `RotUpd`. -/
noncomputable def updateRotations (nf : Nat) (incSol : List ℝ) (extract : List ℝ → List ℝ) (alpha : ℝ) : RotUpd :=
  if nf ≠ 6 then .none
  else if incSol = [] then .commit
  else if alpha ≠ 0 ∧ alpha ≠ 1 then .add ((extract incSol).map (· * alpha)) (decide (alpha = 0))
  else .add (extract incSol) (decide (alpha = 0))

/-- `SIMElasticBar::getNodeRotation` (Beam/SIMElasticBar.C:506-516): the rotation in the first patch with the node, or the unit tensor; a patch gives the local index of a node, zero if absent. -/
def getNodeRotation {R : Type} (unit : R) (patches : List ((Nat → Nat) × (Nat → R))) (node : Nat) : R :=
  match patches with
  | [] => unit
  | p :: ps => if p.1 node > 0 then p.2 (p.1 node) else getNodeRotation unit ps node

end Verif.BeamInput
