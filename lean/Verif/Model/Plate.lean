/-
Model of the Kirchhoff-Love plate element (Linear/KirchhoffLovePlate.C) and of the loads and the mass matrix it shares with the
shell elements (Elasticity/KirchhoffLove.C).

IFEM assumptions: `getColumn(i,j)` of a three-dimensional array gives the values of all nodes for the last two indices; `outer_product`
adds the products of the components of two vectors; `SymmTensor::transform(T)` is `T*A*T^t` (see the comments at
FiniteDeformation/PlasticMaterial.C:200, 210). Basis functions are numbered from one.
-/
import Verif.Basic
import Verif.Model.LinIsotropic

namespace Verif.Plate

open Verif.LinIso (FE Pt)

variable {K : Type*} [Field K]

/-- What is used of `FiniteElement`: number of nodes, the basis functions with second derivatives and the dimensions of their array,
third derivatives (not always computed), integration weight and the parameters seen by the material. -/
structure Elm (K : Type*) where
  nen : Nat
  N : Nat → K
  dim2 : Nat
  dim3 : Nat
  d2N : Nat → Nat → Nat → K
  d3N : Option (Nat → Nat → Nat → Nat → K)
  dJW : K
  fe : FE K

/-- `KirchhoffLovePlate::formBmatrix` (Linear/KirchhoffLovePlate.C:74-101). -/
def formBmatrix (nsd : Nat) (f : Elm K) : Res (DMat K) :=
  if f.dim2 ≠ nsd ∨ f.dim3 ≠ nsd then .fail
  else loop (fun k B => B.setMany
      (if nsd = 1 then [(1, k + 1, f.d2N (k + 1) 1 1)]
       else [(1, k + 1, f.d2N (k + 1) 1 1), (2, k + 1, f.d2N (k + 1) 2 2), (3, k + 1, f.d2N (k + 1) 1 2 * 2)]))
    f.nen (DMat.zero (nsd * (nsd + 1) / 2) f.nen)

variable [LinearOrder K]

/-- `KirchhoffLovePlate::formCmatrix` (Linear/KirchhoffLovePlate.C:104-115) with thickness `T`. -/
def formCmatrix (m : LinIso.Mat K) (nsd : Nat) (fe : FE K) (X : Pt K) (T : K) (invers : Bool) : Res (DMat K) :=
  (LinIso.evaluate m nsd (nsd * (nsd + 1) / 2) fe X (fun _ => 0) (if invers then -1 else 1)).2.bind fun o =>
  let factor := T * T * T / 12
  .ok ⟨o.C.nr, o.C.nc, fun i j => o.C.e i j * (if invers then 1 / factor else factor)⟩

/-- `KirchhoffLovePlate::evalK1` (Linear/KirchhoffLovePlate.C:141-160): the matrix that is added to `EK`. -/
def evalK1 (m : LinIso.Mat K) (nsd : Nat) (f : Elm K) (X : Pt K) (T : K) : Res (Nat → Nat → K) :=
  (formBmatrix nsd f).bind fun B =>
  (formCmatrix m nsd f.fe X T false).bind fun C =>
  let CB : Nat → Nat → K := fun r b => (∑ s ∈ Finset.range C.nc, C.e r (s + 1) * B.e (s + 1) b) * f.dJW
  .ok fun a b => ∑ r ∈ Finset.range B.nr, B.e (r + 1) a * CB (r + 1) b

/-- `KirchhoffLovePlate::evalK2` (Linear/KirchhoffLovePlate.C:163-190): the matrix that is added to `EK`. -/
def evalK2 (version : Nat) (m : LinIso.Mat K) (nsd : Nat) (f : Elm K) (X : Pt K) (T : K) : Nat → Nat → K :=
  let D := LinIso.getPlateStiffness m X T f.fe.age * f.dJW
  let xx := fun a => f.d2N a 1 1
  let yy := fun a => f.d2N a 2 2
  let xy := fun a => f.d2N a 1 2
  fun a b =>
    if nsd < 2 then xx a * (xx b * D)
    else xx a * (xx b * D) + yy a * (yy b * D) +
      (if version = 2 then xy a * (xy b * D * 2) else xx a * (yy b * D) + yy a * (xx b * D))

/-- The stiffness part of `KirchhoffLovePlate::evalInt` (Linear/KirchhoffLovePlate.C:133-137). -/
def stiffness (version : Nat) (m : LinIso.Mat K) (nsd : Nat) (f : Elm K) (X : Pt K) (T : K) : Res (Nat → Nat → K) :=
  if version = 1 then evalK1 m nsd f X T else .ok (evalK2 version m nsd f X T)

/-- `T*A*T^t` for the upper left part of `T`, as components `xx, yy, xy` or `xx`. -/
def transform (nsd : Nat) (T : Nat → Nat → K) (v : Nat → K) : Nat → K :=
  let A : Nat → Nat → K := fun i j => if i = j then v i else v (nsd + 1)
  let B : Nat → Nat → K := fun i j => ∑ k ∈ Finset.range nsd, ∑ l ∈ Finset.range nsd, T i (k + 1) * A (k + 1) (l + 1) * T j (l + 1)
  fun i => if i ≤ nsd then B i i else B 1 2

/-- Scalar product of the nodal values with a column. -/
def col (nen : Nat) (u : Nat → K) (c : Nat → K) : K := ∑ a ∈ Finset.range nen, u (a + 1) * c (a + 1)

/-- The shear forces (Linear/KirchhoffLovePlate.C:300-304). -/
def shear (m : LinIso.Mat K) (nsd : Nat) (f : Elm K) (X : Pt K) (T : K) (d3N : Nat → Nat → Nat → Nat → K) (u : Nat → K) (d : Nat) : K :=
  (∑ c ∈ Finset.range nsd, col f.nen u (fun a => d3N a (c + 1) (c + 1) d)) * -(LinIso.getPlateStiffness m X T f.fe.age)

/-- `KirchhoffLovePlate::evalSol` for version 1 (Linear/KirchhoffLovePlate.C:258-318): moments followed by shear forces. `loc` is
the transformation matrix if results in a local system are wanted and there is one. `u` has `size` components. -/
def evalSol1 (m : LinIso.Mat K) (nsd : Nat) (f : Elm K) (X : Pt K) (T : K) (size : Nat) (u : Nat → K)
    (loc : Option (Nat → Nat → K)) : Res (List K) :=
  if size = 0 then .fail
  else if size ≠ f.nen then .fail
  else
    (formBmatrix nsd f).bind fun B =>
    (formCmatrix m nsd f.fe X T false).bind fun C =>
    let kappa := fun r => -(B.mulV u r)
    let mom := C.mulV kappa
    let mom' := (loc.map fun t => transform nsd t mom).getD mom
    let s := (List.range (nsd * (nsd + 1) / 2)).map fun i => mom' (i + 1)
    let q := (f.d3N.map fun d3 =>
      let q := shear m nsd f X T d3 u
      let plain := (List.range nsd).map fun i => q (i + 1)
      if nsd = 2 then
        (loc.map fun t => [q 1 * t 1 1 + q 2 * t 2 1, q 1 * t 1 2 + q 2 * t 2 2]).getD plain
      else plain).getD []
    .ok (s ++ q)

/-- `getNoFields` (Linear/KirchhoffLovePlate.C:350-364); `rec` tells that the mode is INIT or at least RECOVERY. -/
def getNoFields (version nsd : Nat) (fld : Int) (rec : Bool) : Nat :=
  if fld < 2 then 1
  else if version > 2 then nsd
  else nsd * (nsd + 1) / 2 + (if version = 1 ∧ rec = true then nsd else 0)

/-- `KirchhoffLovePlate::evalSol` for the other versions (Linear/KirchhoffLovePlate.C:319-327): second derivatives. Writing outside
the vector is undefined. -/
def evalSol2 (version nsd : Nat) (f : Elm K) (u : Nat → K) (rec : Bool) : Res (List K) :=
  let n := getNoFields version nsd 2 rec
  if n < f.dim2 then .ub
  else
    let s : List K := (List.range n).map fun i =>
      if i < f.dim2 then col f.nen u (fun a => f.d2N a (i + 1) (i + 1)) else 0
    .ok (if n > 2 then s.set 2 (col f.nen u (fun a => f.d2N a 1 2)) else s)

/-- `getField2Name` without prefix (Linear/KirchhoffLovePlate.C:376-391). -/
def getField2Name (version nsd i : Nat) : String :=
  let i := if i = 1 ∧ version = 1 ∧ nsd = 1 then 3 else i
  if i ≥ (if version = 1 then 5 else 3) then ""
  else if version = 1 then (["m_xx", "m_yy", "m_xy", "q_x", "q_y"].getD i "")
  else (["d2w/dx2", "d2w/dy2", "d2w/dxy"].getD i "")

/-! ### Loads and mass -/

/-- `KirchhoffLove::getPressure` (Elasticity/KirchhoffLove.C:283-297): components of the load per area. `grd` asks for the time
derivative, whose values are then in `pres`; `rho`, `g` and `T` are density, gravitation constant and thickness. -/
def getPressure (rho g T : K) (pres : List K) (n : Nat → K) (nzero grd : Bool) : Nat → K := fun i =>
  let own : K := if i = 3 ∧ grd = false then rho * g * T else 0
  pres.foldl (fun p f => if nzero then (if i = 3 then p + f else p) else p + f * n i) own

/-- `KirchhoffLove::formBodyForce` (Elasticity/KirchhoffLove.C:329-355): the values added to component `npv*(a-1)+i` of the load
vector (first function), and to component `i` (from one) of the `ns` load sums. -/
def formBodyForce (npv : Nat) (N : Nat → K) (p : Nat → K) (dJW : K) (grd : Bool) : (Nat → Nat → K) × (Nat → K) :=
  if p 1 = 0 ∧ p 2 = 0 ∧ p 3 = 0 then (fun _ _ => 0, fun _ => 0)
  else if npv = 1 then (fun a _ => N a * (p 3 * dJW), fun i => if grd then 0 else if i = 1 then p 3 * dJW else 0)
  else (fun a i => N a * p i * dJW, fun i => if grd then 0 else if i ≤ npv then p i * dJW else 0)

/-- `KirchhoffLove::formMassMatrix` (Elasticity/KirchhoffLove.C:358-371): what is added to entry `npv*(a-1)+i, npv*(b-1)+j`. -/
def formMassMatrix (npv : Nat) (rho T : K) (N : Nat → K) (dJW : K) (a i b j : Nat) : K :=
  let rhow := rho * T * dJW
  if rhow = 0 then 0
  else if npv = 1 then N a * (N b * rhow)
  else if i = j then rhow * N a * N b else 0

/-- The line load (Linear/KirchhoffLovePlate.C:193-219), evaluated once for each of the two elements sharing an interface: load vector
and load sum. -/
def lineLoad (N : Nat → K) (pz dJW : K) : (Nat → K) × K := (fun a => N a * (1 / 2 * pz * dJW), 1 / 2 * pz * dJW)

end Verif.Plate
