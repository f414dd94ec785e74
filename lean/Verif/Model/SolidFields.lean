/-
Model of the secondary solution fields of the continuum elements: Elasticity/Elasticity.C, `evalSol`, `evalSol2`, `getNoFields`, `getField1Name`, `getField2Name` and `getPrincipalDir`.

The values at a point are described by what they are: a stress (or strain) component, the von Mises value, a principal value or an internal variable of the material. The
component order of the library class `SymmTensor` is xx, yy, xy in the plane, xx, yy, zz, xy with the normal component, and xx, yy, zz, xy, yz, xz in space. Its function `principal`
may fail; its outcome is given.
-/
import Mathlib.Data.List.Basic
import Verif.Basic

namespace Verif.SolidFields

/-- What the fields depend on: number of dimensions, axial symmetry, material in plane strain, principal values and strains asked for, local system given, the labels of the internal variables. -/
structure Cfg where
  nsd : Nat
  axi : Bool
  planeStrain : Bool
  principal : Bool
  strain : Bool
  locSys : Bool
  labels : List String

/-- A value: a component `(a,b)` of the tensor in global or local axes, the von Mises value, the `k`-th principal value or internal variable (counted from one). -/
inductive Val
  | comp (isLocal : Bool) (a b : Nat)
  | vonMises
  | prin (k : Nat)
  | int (k : Nat)
  | zero
deriving DecidableEq, Repr

/-- The components of `SymmTensor(nsd,with33)` in order. -/
def comps (nsd : Nat) (with33 : Bool) : List (Nat × Nat) :=
  if nsd = 1 then [(0, 0)]
  else if nsd = 2 then (if with33 then [(0, 0), (1, 1), (2, 2), (0, 1)] else [(0, 0), (1, 1), (0, 1)])
  else [(0, 0), (1, 1), (2, 2), (0, 1), (1, 2), (0, 2)]

/-- The principal values added (Elasticity/Elasticity.C:834-840, 859-862). -/
def prins (dim : Nat) : List Val := [.prin 1, .prin 2] ++ (if dim = 3 then [.prin 3] else [])

/-- `Elasticity::evalSol` with a solution vector (Elasticity/Elasticity.C:771-843): `pOk` is the outcome of `principal`. -/
def evalSol (c : Cfg) (toLocal pOk : Bool) : List Val :=
  let loc := toLocal && c.principal && c.locSys
  (comps c.nsd (c.axi || c.planeStrain)).map (fun p => .comp loc p.1 p.2)
    ++ (if toLocal then [.vonMises] else [])
    ++ (if toLocal && c.principal && pOk then prins c.nsd else [])

/-- `Elasticity::evalSol2` (Elasticity/Elasticity.C:722-768) without the maximum values: nothing in a singular point. -/
def evalSol2 (c : Cfg) (singular pOk : Bool) : List Val :=
  if singular then [] else evalSol c true pOk ++ (List.range c.labels.length).map (fun i => .int (i + 1))

/-- `Elasticity::evalSol` of an analytical stress field (Elasticity/Elasticity.C:846-866), whose tensor has `with33`; `resize` adds zeros. -/
def evalAna (c : Cfg) (with33 : Bool) : List Val :=
  (comps c.nsd with33).map (fun p => .comp false p.1 p.2) ++ [.vonMises]
    ++ (if c.principal then List.replicate c.labels.length .zero ++ prins c.nsd else [])

/-- `Elasticity::getNoFields` (Elasticity/Elasticity.C:932-953). -/
def getNoFields (c : Cfg) (fld : Int) : Nat :=
  if fld < 2 then c.nsd
  else
    let nf := c.nsd * (c.nsd + 1) / 2
    let nf := if c.nsd = 2 ∧ (c.axi || c.planeStrain) = true then nf + 1 else nf
    if fld = 2 then nf + 1 + c.labels.length + (if c.principal then c.nsd else 0) else nf

/-- Access to a static table of names. -/
def table (t : List String) (i : Nat) : Res String :=
  match t[i]? with
  | some s => .ok s
  | none => .ub

/-- `Elasticity::getField1Name` (Elasticity/Elasticity.C:956-964); the difference of the unsigned numbers is out of range when it is negative. -/
def getField1Name (c : Cfg) (i : Nat) (pre : Option String) : Res String :=
  let i := if i > c.nsd then 4 else i
  let s := ["u_x", "u_y", "u_z", "u_r", "displacement"]
  match pre with
  | none => table s i
  | some p => if c.axi then (if i ≤ 3 then (table s (3 - i)).bind fun n => .ok (p ++ " " ++ n) else .ub) else (table s i).bind fun n => .ok (p ++ " " ++ n)

/-- `Elasticity::getField2Name` (Elasticity/Elasticity.C:967-1002). The letter `s` of the component is replaced by `e` for strains. -/
def getField2Name (c : Cfg) (i : Nat) (pre : Option String) : Res String :=
  if i ≥ getNoFields c 2 then .ok ""
  else
    let name := match pre with
      | some p => p ++ " "
      | none => ""
    let r := ["_rr", "_zz", "_tt", "_zr"]
    let s := ["_xx", "_yy", "_zz", "_xy", "_yz", "_xz"]
    let nStress := getNoFields c 3
    if c.nsd = 1 then .ok (name ++ "Axial stress")
    else if i = 2 ∧ nStress = 3 then .ok (name ++ "s_xy")
    else if i < nStress then (table (if c.axi then r else s) i).bind fun n => .ok (name ++ (if c.strain then "e" else "s") ++ n)
    else if i = nStress then .ok (name ++ "von Mises " ++ (if c.strain then "strain" else "stress"))
    else if i - nStress ≤ c.labels.length then (table c.labels (i - nStress - 1)).bind fun n => .ok (name ++ n)
    else if i - nStress - c.labels.length ≤ c.nsd then .ok (name ++ "P" ++ toString (i - nStress - c.labels.length))
    else .ok name

/-! ### Principal directions -/

/-- The buffer of principal directions after the evaluation of points (Elasticity/Elasticity.C:726-742): two entries per point, which stay zero in singular points; `d` gives the two
directions of a point. -/
def pDirBuf {V : Type} (zero : V) (pts : List (Bool × V × V)) : List V :=
  pts.foldl (fun b p => b ++ (if p.1 then [zero, zero] else [p.2.1, p.2.2])) []

/-- `Elasticity::getPrincipalDir` (Elasticity/Elasticity.C:908-924): the directions with number `idx` of `nPt` points. -/
def getPrincipalDir {V : Type} (buf : List V) (nPt idx : Nat) : Res (List V) :=
  if idx < 1 ∨ idx > 2 then .fail
  else if buf.length ≠ nPt * 2 then .fail
  else (List.range nPt).foldr (fun i r => match buf[2 * i + idx - 1]? with
    | some v => r.bind fun l => .ok (v :: l)
    | none => .ub) (.ok [])

/-! ### Labels of the materials -/

/-- The labels of a Neo-Hookean material (FiniteDeformation/NeoHookeMaterial.h:68, FiniteDeformation/NeoHookeMaterial.C:364-370). -/
def neoHookeLabels : List String := ["hydrostatic pressure"]

/-- The labels of a plastic material (FiniteDeformation/PlasticMaterial.h:193, FiniteDeformation/PlasticMaterial.C:246-268). -/
def plasticLabels : List String := ["E_pp", "s_h", "s_1", "s_2", "s_3", "T", "L"]

end Verif.SolidFields
