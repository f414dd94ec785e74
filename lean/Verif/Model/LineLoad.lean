/-
Model of the line loads of the Kirchhoff-Love plate: the domain of the load (Shell/SIMKLShell.C, Shell/SIMKLShell.h) and the weight of
the interface integral (Linear/KirchhoffLovePlate.C).

Parameter values are elements of an ordered field. The library visits all elements of a patch and integrates over the element borders
flagged by the mask (1 = west, 2 = east, 4 = south, 8 = north); its quadrature is taken as exact, in the form of a function `G` such that
the integral of the load times a test function over a piece of the line is the difference of `G` at its ends.
-/
import Mathlib.Algebra.Order.Field.Basic
import Mathlib.Algebra.BigOperators.Group.Finset.Basic
import Verif.Basic

namespace Verif.LineLoad

variable {K : Type} [Field K] [LinearOrder K]

/-- Members of `ElmBorderChk` (Shell/SIMKLShell.h:146-151). -/
structure Border (K : Type) where
  umin : K
  umax : K
  vmin : K
  vmax : K

/-- `ElmBorderChk::ElmBorderChk` (Shell/SIMKLShell.C:628-633). -/
def Border.default : Border K := ⟨1 / 2, 1 / 2, 1 / 4, 3 / 4⟩

/-- `ElmBorderChk::setDomainNS` (Shell/SIMKLShell.C:636-641). -/
def setDomainNS (u a b : K) : Border K := ⟨u, u, a, b⟩

/-- `ElmBorderChk::setDomainEW` (Shell/SIMKLShell.C:644-649). -/
def setDomainEW (v a b : K) : Border K := ⟨a, b, v, v⟩

/-- `ElmBorderChk::maskBorder` (Shell/SIMKLShell.C:652-671). -/
def maskBorder (d : Border K) (u0 u1 v0 v1 : K) : Nat :=
  if d.umin = d.umax ∧ v0 ≥ d.vmin ∧ v1 ≤ d.vmax then
    if u0 = d.umin then 1 else if u1 = d.umax then 2 else 0
  else if d.vmin = d.vmax ∧ u0 ≥ d.umin ∧ u1 ≤ d.umax then
    if v0 = d.vmin then 4 else if v1 = d.vmax then 8 else 0
  else 0

/-- `SIMKLShell::LLdomain` (Shell/SIMKLShell.h:54-61). -/
structure LLdomain (K : Type) where
  direction : Nat
  u : K
  first : K
  second : K

/-- The default constructor (Shell/SIMKLShell.h:60). -/
def LLdomain.default : LLdomain K := ⟨0, 0, 0, 0⟩

/-- The attributes of a `<lineload>` element; `none` when absent. -/
structure Attr (K : Type) where
  u : Option K
  v : Option K
  u0 : Option K
  u1 : Option K
  v0 : Option K
  v1 : Option K

/-- The part of `SIMKLShell::parse` that defines the load domain (Shell/SIMKLShell.C:303-321); `getAttribute` leaves the value unchanged
when the attribute is absent. -/
def parseLine (a : Attr K) (d : LLdomain K) : LLdomain K :=
  match a.u with
  | some u => ⟨2, u, a.v0.getD d.first, a.v1.getD d.second⟩
  | none => match a.v with
    | some v => ⟨1, v, a.u0.getD d.first, a.u1.getD d.second⟩
    | none => d

/-- `SIMKLShell::getInterfaceChecker` (Shell/SIMKLShell.C:600-625) for a patch of spline type. -/
def checker (d : LLdomain K) : Border K :=
  if d.direction = 1 then setDomainEW d.u d.first d.second
  else if d.direction = 2 then setDomainNS d.u d.first d.second
  else .default

/-- Contribution of one element to the load: the interface part of `KirchhoffLovePlate::evalInt` (Linear/KirchhoffLovePlate.C:193-219,
weight one half) summed over the flagged border, the integral over the border being the difference of `G`. -/
def elmLoad (d : Border K) (G : K → K) (u0 u1 v0 v1 : K) : K :=
  let k := maskBorder d u0 u1 v0 v1
  if k = 1 ∨ k = 2 then 1 / 2 * (G v1 - G v0)
  else if k = 4 ∨ k = 8 then 1 / 2 * (G u1 - G u0)
  else 0

/-- Sum over the elements of a patch with `m` by `n` elements and grid lines `xs 0 .. xs m`, `ys 0 .. ys n`. -/
def patchLoad (d : Border K) (G : K → K) (m n : Nat) (xs ys : Nat → K) : K :=
  ∑ i ∈ Finset.range m, ∑ j ∈ Finset.range n, elmLoad d G (xs i) (xs (i + 1)) (ys j) (ys (j + 1))

end Verif.LineLoad
