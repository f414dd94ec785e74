/-
Model of the built-in analytical solutions (Linear/AnalyticSolutions.C, Linear/AnalyticSolutions.h).

`hypot` is the square root of the sum of squares and `atan2(y,x)` the argument of the complex number `x + iy`. A stress tensor is the
matrix of its components; in two dimensions the components (1,3) and (2,3) do not exist and are zero here. `SymmTensor::transform` with
a two-dimensional tensor is taken to act on the in-plane components.
-/
import Verif.Model.Bar
import Mathlib.Analysis.SpecialFunctions.Complex.Arg
import Mathlib.Analysis.SpecialFunctions.Trigonometric.Deriv
import Mathlib.Analysis.SpecialFunctions.Log.Base
import Mathlib.Analysis.SpecialFunctions.Pow.Real

namespace Verif.Analytic

open Verif.Beam (V3)

/-- Stress components as a symmetric matrix. -/
abbrev Stress := Fin 3 → Fin 3 → ℝ

/-- The symmetric matrix with the given components xx, yy, zz, xy, xz (the component yz is not used by any solution). -/
def sym (xx yy zz xy xz : ℝ) : Stress := ![![xx, xy, xz], ![xy, yy, 0], ![xz, 0, zz]]

/-- `hypot`. -/
noncomputable def hypot (x y : ℝ) : ℝ := Real.sqrt (x * x + y * y)

/-- `atan2`. -/
noncomputable def atan2 (y x : ℝ) : ℝ := Complex.arg ⟨x, y⟩

/-- `SymmTensor::transform` of in-plane components by a 2x2 matrix with rows `(t11, t12)`, `(t21, t22)`: T·A·Tᵀ. -/
def transform2 (t11 t12 t21 t22 xx yy zz xy : ℝ) : Stress :=
  sym (t11 * (t11 * xx + t12 * xy) + t12 * (t11 * xy + t12 * yy))
    (t21 * (t21 * xx + t22 * xy) + t22 * (t21 * xy + t22 * yy)) zz
    (t11 * (t21 * xx + t22 * xy) + t12 * (t21 * xy + t22 * yy)) 0

/-- `Hole::evaluate` (Linear/AnalyticSolutions.C:27-45). -/
noncomputable def hole (a F0 nu : ℝ) (X : V3 ℝ) : Stress :=
  let R := hypot (X 0) (X 1)
  let th := atan2 (X 1) (X 0)
  let C2 := Real.cos (2 * th)
  let C4 := Real.cos (4 * th)
  let S2 := Real.sin (2 * th)
  let S4 := Real.sin (4 * th)
  let R2 := if R ≤ a then 1 else a * a / (R * R)
  let R4 := if R ≤ a then 1 else R2 * R2
  sym (F0 * (1 - R2 * (3 / 2 * C2 + C4) + 3 / 2 * R4 * C4))
    (F0 * (-R2 * (1 / 2 * C2 - C4) - 3 / 2 * R4 * C4))
    (F0 * nu * (1 - 2 * R2 * C2))
    (F0 * (-R2 * (1 / 2 * S2 + S4) + 3 / 2 * R4 * S4)) 0

/-- `Lshape::evaluate` (Linear/AnalyticSolutions.C:72-108) for exponent `lam` and coefficient `q`; the program has
`lambda = 0.544483737` and `q = 0.543075579`. -/
noncomputable def lshapeWith (lam q a F0 nu : ℝ) (X : V3 ℝ) : Stress :=
  let s := Real.sqrt (1 / 2)
  let lp1 := lam + 1
  let lm1 := lam - 1
  let lm3 := lam - 3
  let tol := a * (1 / 10 ^ 32)
  let x := X 0 * -s + X 1 * -s
  let y := X 0 * s + X 1 * -s
  let r := if hypot x y < tol then tol else hypot x y
  let theta := atan2 y x
  let c0 := F0 * lam * r ^ lm1
  let xx := c0 * ((2 - q * lp1) * Real.cos (lm1 * theta) - lm1 * Real.cos (lm3 * theta))
  let yy := c0 * ((2 + q * lp1) * Real.cos (lm1 * theta) + lm1 * Real.cos (lm3 * theta))
  let xy := c0 * (q * lp1 * Real.sin (lm1 * theta) + lm1 * Real.sin (lm3 * theta))
  transform2 (-s) s (-s) (-s) xx yy (nu * (xx + yy)) xy

/-- `Lshape::evaluate` with the constants of the program (Linear/AnalyticSolutions.C:83-84). -/
noncomputable def lshape (a F0 nu : ℝ) (X : V3 ℝ) : Stress :=
  lshapeWith (544483737 / 10 ^ 9) (543075579 / 10 ^ 9) a F0 nu X

/-- `CanTS::evaluate` (Linear/AnalyticSolutions.C:111-123). -/
noncomputable def canTS (L H F0 : ℝ) (is3D : Bool) (X : V3 ℝ) : Stress :=
  let x := X 0 / L
  let y := (if is3D then X 2 else X 1) / H - 1 / 2
  let I := H * H * H / 12
  let s11 := F0 * L * H / I * (x - 1) * y
  let s1n := F0 * H * H / I * (1 / 2) * (1 / 4 - y * y)
  if is3D then sym s11 0 0 0 s1n else sym s11 0 0 s1n 0

/-- `CanTM::evaluate` (Linear/AnalyticSolutions.C:126-135). -/
noncomputable def canTM (H M0 : ℝ) (is3D : Bool) (X : V3 ℝ) : Stress :=
  let y := (if is3D then X 2 else X 1) / H - 1 / 2
  let I := H * H * H / 12
  sym (M0 * H / I * y) 0 0 0 0

/-- `CurvedBeam::CurvedBeam` and `CurvedBeam::evaluate` (Linear/AnalyticSolutions.C:147-178). -/
noncomputable def curvedBeam (u0 a b E : ℝ) (X : V3 ℝ) : Stress :=
  let PN := -u0 * E / (Real.pi * (a * a + b * b))
  let r := hypot (X 0) (X 1)
  let theta := atan2 (X 1) (X 0)
  let c1 := a * a * b * b / (r * r * r)
  let c2 := (a * a + b * b) / r
  let ct := Real.cos theta
  let st := Real.sin theta
  let s11 := PN * (r + c1 - c2) * st
  let s22 := PN * (3 * r - c1 - c2) * st
  let s12 := PN * (-r - c1 + c2) * ct
  transform2 ct (-st) st ct s11 s22 0 s12

/-- `Pipe::Pipe` and `Pipe::evaluate` (Linear/AnalyticSolutions.C:191-230): radii `ra`, `rb`, temperatures `Ti`, `To`, `T0`. -/
noncomputable def pipe (ra rb Ti To T0 E nu alpha : ℝ) (polar : Bool) (X : V3 ℝ) : Stress :=
  let ratio := rb / ra
  let lnRbRa := Real.log ratio
  let rba2m1 := ratio * ratio - 1
  let C := E * alpha * (To - Ti) * (1 / 2) / (1 - nu * nu)
  let Ea := E * alpha
  let r := hypot (X 0) (X 1)
  let lnRb := Real.log (rb / r)
  let rbr2 := (rb / r) * (rb / r)
  let Temp := Ti + (To - Ti) * Real.log (r / ra) / lnRbRa
  let s11 := C * (lnRb / lnRbRa - (rbr2 - 1) / rba2m1)
  let s22 := C * ((lnRb - 1) / lnRbRa + (rbr2 + 1) / rba2m1)
  let s33 := nu * (s11 + s22) - Ea * (Temp - T0)
  if polar then sym s11 s22 s33 0 0
  else transform2 (X 0 / r) (-(X 1 / r)) (X 1 / r) (X 0 / r) s11 s22 s33 0

/-! ### Plates -/

/-- `ThinPlateSol::ThinPlateSol` (Linear/AnalyticSolutions.C:238-241): plate stiffness. -/
noncomputable def plateD (E nu t : ℝ) : ℝ := E * t * t * t / (12 - 12 * nu * nu)

/-- Members of `NavierPlate` (Linear/AnalyticSolutions.h:300-318) and of its displacement field. -/
structure Navier where
  pz : ℝ
  D : ℝ
  nu : ℝ
  alpha : ℝ
  beta : ℝ
  type : Nat
  xi : ℝ
  eta : ℝ
  c2 : ℝ
  d2 : ℝ
  mxmn : Nat
  inc : Nat

/-- `NavierPlate::NavierPlate` for constant pressure (Linear/AnalyticSolutions.C:253-274; printing left out). -/
noncomputable def navierUniform (a b t E nu P : ℝ) (maxmn : Nat) : Navier :=
  ⟨P, plateD E nu t, nu, Real.pi / a, Real.pi / b, 0, 0, 0, 0, 0, maxmn, 2⟩

/-- `NavierPlate::NavierPlate` for a partial or point load (Linear/AnalyticSolutions.C:277-303; printing left out). -/
noncomputable def navierPartial (a b t E nu P xi eta c d : ℝ) (maxmn : Nat) : Navier :=
  let type := if c = 0 ∨ d = 0 then 1 else 2
  ⟨P, plateD E nu t, nu, Real.pi / a, Real.pi / b, type, xi * a, eta * b, if type = 1 then a else 1 / 2 * c,
    if type = 1 then b else 1 / 2 * d, maxmn, if xi = 1 / 2 ∧ eta = 1 / 2 then 2 else 1⟩

/-- The numbers 1, 1+inc, 1+2 inc, ... up to `n`: the values of a loop `for (int m = 1; m <= n; m += inc)`. -/
def steps (inc n : Nat) : List Nat := (List.range n).filterMap fun k => if k % inc = 0 then some (k + 1) else none

/-- `NavierPlate::Displ::evaluate` (Linear/AnalyticSolutions.C:304-329, number of terms from Linear/AnalyticSolutions.h:238). -/
noncomputable def navierDispl (p : Navier) (x y : ℝ) : ℝ :=
  let mn := if p.type > 0 then p.mxmn else p.mxmn - 1
  let w := ((steps p.inc mn).map fun (m : Nat) => ((steps p.inc mn).map fun (n : Nat) =>
    let am := p.alpha * m
    let bn := p.beta * n
    let abmn := am * am + bn * bn
    if p.type = 0 then Real.sin (am * x) * Real.sin (bn * y) / ((m : ℝ) * n * abmn * abmn)
    else
      let pzmn := Real.sin (am * p.xi) * Real.sin (bn * p.eta) / (abmn * abmn)
      let pzmn := if p.type = 2 then pzmn * (Real.sin (am * p.c2) * Real.sin (bn * p.d2) / ((m : ℝ) * n)) else pzmn
      pzmn * Real.sin (am * x) * Real.sin (bn * y)).sum).sum
  if p.type = 1 then w * (4 * (p.pz / p.D) / (p.c2 * p.d2)) else w * (16 * (p.pz / p.D) / (Real.pi * Real.pi))

/-- `NavierPlate::addTerms` (Linear/AnalyticSolutions.C:333-389): what is added to (Mxx, Myy, Mxy) for derivative code `deriv`. -/
noncomputable def addTerms (p : Navier) (x y : ℝ) (m n : Nat) (deriv : Nat) : Fin 3 → ℝ :=
  let am := p.alpha * m
  let bn := p.beta * n
  let am2 := am * am
  let bn2 := bn * bn
  let dmn := (m : ℝ) * n
  let pzmn :=
    if p.type = 0 then 1 / dmn
    else if p.type = 1 then Real.sin (am * p.xi) * Real.sin (bn * p.eta)
    else if p.type = 2 then Real.sin (am * p.xi) * Real.sin (bn * p.eta) * Real.sin (am * p.c2) * Real.sin (bn * p.d2) / dmn
    else 0
  let pzmn := pzmn / ((am2 + bn2) * (am2 + bn2))
  let nu := p.nu
  let sx := Real.sin (am * x)
  let cx := Real.cos (am * x)
  let sy := Real.sin (bn * y)
  let cy := Real.cos (bn * y)
  match deriv with
  | 0 => ![pzmn * (am2 + nu * bn2) * sx * sy, pzmn * (bn2 + nu * am2) * sx * sy, pzmn * (nu - 1) * am * bn * cx * cy]
  | 1 => ![pzmn * (am2 + nu * bn2) * am * cx * sy, pzmn * (bn2 + nu * am2) * am * cx * sy, pzmn * (1 - nu) * am2 * bn * sx * cy]
  | 2 => ![pzmn * (am2 + nu * bn2) * bn * sx * cy, pzmn * (bn2 + nu * am2) * bn * sx * cy, pzmn * (1 - nu) * am * bn2 * cx * sy]
  | 11 => ![-(pzmn * (am2 + nu * bn2) * am2 * sx * sy), -(pzmn * (bn2 + nu * am2) * am2 * sx * sy),
      pzmn * (1 - nu) * am2 * am * bn * cx * cy]
  | 22 => ![-(pzmn * (am2 + nu * bn2) * bn2 * sx * sy), -(pzmn * (bn2 + nu * am2) * bn2 * sx * sy),
      pzmn * (1 - nu) * am * bn2 * bn * cx * cy]
  | 12 | 21 => ![pzmn * (am2 + nu * bn2) * am * bn * cx * cy, pzmn * (bn2 + nu * am2) * am * bn * cx * cy,
      pzmn * (nu - 1) * am2 * bn2 * sx * sy]
  | _ => 0

/-- `SymmTensor::L2norm` (IFEM) of (Mxx, Myy, Mxy): square root of the sum of the squared components, shear twice. -/
noncomputable def l2norm (M : Fin 3 → ℝ) : ℝ := Real.sqrt (M 0 * M 0 + M 1 * M 1 + 2 * (M 2 * M 2))

/-- The terms added in pass `i` of the loop (Linear/AnalyticSolutions.C:413-418). -/
noncomputable def passTerms (p : Navier) (x y : ℝ) (deriv i : Nat) : Fin 3 → ℝ :=
  ((steps p.inc (i - 1)).map fun j => addTerms p x y i j deriv + addTerms p x y j i deriv).sum + addTerms p x y i i deriv

/-- The loop of `NavierPlate::evaluate` (Linear/AnalyticSolutions.C:410-433) over the remaining passes `is`, with the sum `M` so far
and the norm `prev` at the last check. -/
noncomputable def navierLoop (p : Navier) (x y : ℝ) (deriv : Nat) : List Nat → (Fin 3 → ℝ) → ℝ → Fin 3 → ℝ
  | [], M, _ => M
  | i :: is, M, prev =>
    let M' := M + passTerms p x y deriv i
    let norm := l2norm M'
    if i % 2 = 1 then
      if |norm - prev| < 1 / 10 ^ 8 * norm then M' else navierLoop p x y deriv is M' norm
    else navierLoop p x y deriv is M' prev

/-- `NavierPlate::evaluate` (Linear/AnalyticSolutions.C:397-441, without REVERSED_SUMMATION): the moments (`deriv = 0`) and their
derivatives. -/
noncomputable def navier (p : Navier) (x y : ℝ) (deriv : Nat) : Fin 3 → ℝ :=
  let M := navierLoop p x y deriv (steps p.inc p.mxmn) 0 0
  if p.type = 1 then fun i => M i * (4 * p.pz * (p.alpha / Real.pi) * (p.beta / Real.pi))
  else fun i => M i * (16 * p.pz / (Real.pi * Real.pi))

/-- `log10`. -/
noncomputable def log10 (x : ℝ) : ℝ := Real.logb 10 x

/-- `CircularPlate::Displ` (Linear/AnalyticSolutions.C:471-486) for load `P`, radius `R`, plate stiffness `D`. -/
noncomputable def circDispl (P R D nu x y : ℝ) : ℝ :=
  let U0 := -P * R * R / (16 * Real.pi * D)
  let C0 := (3 + nu) / (1 + nu)
  let rR := hypot x y / R
  let rR := if rR < 1 / 10000 then 1 / 10000 else rR
  let r2 := rR * rR
  U0 * (C0 * (1 - r2) - 2 * r2 * log10 rR)

/-- Moments of `CircularPlate::evaluate` in polar axes (Linear/AnalyticSolutions.C:462-468, 489-497). -/
noncomputable def circPolar (P R nu r : ℝ) : ℝ × ℝ :=
  let M0 := 1 / 4 * P / Real.pi
  let r := if r < 1 / 10000 * R then 1 / 10000 * R else r
  let M11 := M0 * (1 + nu) * log10 (r / R)
  (M11, M11 + M0 * (1 - nu))

/-- `CircularPlate::evaluate` (Linear/AnalyticSolutions.C:489-507). -/
noncomputable def circular (P R nu x y : ℝ) : Stress :=
  let M := circPolar P R nu (hypot x y)
  let r := if hypot x y < 1 / 10000 * R then 1 / 10000 * R else hypot x y
  transform2 (x / r) (-(y / r)) (y / r) (x / r) M.1 M.2 0 0

end Verif.Analytic
