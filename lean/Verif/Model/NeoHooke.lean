/-
Model of FiniteDeformation/NeoHookeMaterial.C and FiniteDeformation/LinearMaterial.C.

IFEM assumptions: `SymmTensor` stores {xx,yy,zz,xy,yz,xz} in 3D, {xx,yy,xy} in 2D and {xx,yy,zz,xy}
for a 2D tensor with four components; `trace()` sums the normal components which are stored,
`operator+=(Real)`/`operator-=(Real)` change those components, `operator*=` all components;
`leftCauchyGreen(F)` is `F Fᵀ`, `transform(F)` is `F S Fᵀ`.
-/
import Verif.Basic
import Mathlib.Analysis.SpecialFunctions.Pow.Real
import Mathlib.Analysis.SpecialFunctions.Log.Basic
import Mathlib.LinearAlgebra.Matrix.Determinant.Basic

namespace Verif.NeoHooke

/-- Volumetric energy, pressure and modulus. -/
structure Vol where
  U : ℝ
  Up : ℝ
  Upp : ℝ

/-- `NeoHookeMaterial::volumetricModuli` (FiniteDeformation/NeoHookeMaterial.C:324-361). -/
noncomputable def volumetricModuli (iVOL : Nat) (Bmod J : ℝ) : Vol :=
  match iVOL with
  | 1 => ⟨1 / 4 * Bmod * (J * J - 1 - 2 * Real.log |J|), 1 / 2 * Bmod * (J - 1 / J),
          1 / 2 * Bmod * (1 + 1 / (J * J))⟩
  | 2 => ⟨1 / 2 * Bmod * (J - 1) * (J - 1), Bmod * (J - 1), Bmod⟩
  | 3 => let a := Real.log |J|
         let Up := Bmod * a / J
         ⟨1 / 2 * Bmod * a * a, Up, (Bmod / J - Up) / J⟩
  | 4 => ⟨2 * Bmod * (J - 1 - Real.log |J|), Bmod * (2 - 1 / J), Bmod / (J * J)⟩
  | _ => ⟨0, 0, 0⟩

/-- A symmetric tensor: dimension, number of components, components (zero-based). -/
structure Sym (K : Type*) where
  dim : Nat
  size : Nat
  v : Nat → K

section
variable {K : Type*} [Field K]

/-- The number of stored normal components. -/
def Sym.nrm (S : Sym K) : Nat := if S.size = 4 then 3 else S.dim

/-- `SymmTensor::trace` (IFEM). -/
def Sym.trace (S : Sym K) : K := ∑ i ∈ Finset.range S.nrm, S.v i

/-- `SymmTensor::operator*=` (IFEM). -/
def Sym.scale (S : Sym K) (a : K) : Sym K := { S with v := fun i => S.v i * a }

/-- `SymmTensor::operator+=(Real)` (IFEM). -/
def Sym.shift (S : Sym K) (a : K) : Sym K :=
  { S with v := fun i => if i < S.nrm then S.v i + a else S.v i }

/-- `C *= a` for a dense matrix (IFEM). -/
def scaleM (C : DMat K) (a : K) : DMat K := ⟨C.nr, C.nc, fun i j => C.e i j * a⟩

/-- The loop filling `C` in `NeoHookeMaterial::stdNeoHooke`
(FiniteDeformation/NeoHookeMaterial.C:202-221). -/
def stdC (ndim : Nat) (c1 c2 c3 P : K) (C : DMat K) : Res (DMat K) :=
  loop (fun i C =>
    (C.set (i + 1) (i + 1) c2).bind fun C =>
    (C.set (i + 4) (i + 4) (c1 - P)).bind fun C =>
    loop (fun j C => if j ≠ i then C.set (i + 1) (j + 1) (c3 + P) else .ok C) ndim C) ndim C

/-- The loops changing `C` in `NeoHookeMaterial::modNeoHooke`
(FiniteDeformation/NeoHookeMaterial.C:254-305). `p` are the components of the deviatoric tensor. -/
def modC (ndim : Nat) (Smod J Ic P Cv : K) (p : Nat → K) (C : DMat K) : Res (DMat K) :=
  let c0 := Smod * 2 / 3
  let c1 := Smod * Ic
  let c2 := c1 + c1
  let c3 := c2 / 3
  (loop (fun i C => loop (fun j C =>
    (C.add (i + 1) (j + 1) (-(c0 * p i))).bind fun C =>
    C.add (j + 1) (i + 1) (-(c0 * p i))) ndim C) C.nr C).bind fun C =>
  (loop (fun i C =>
    (C.add (i + 1) (i + 1) c2).bind fun C =>
    (C.add (i + 1 + ndim) (i + 1 + ndim) c1).bind fun C =>
    loop (fun j C => C.add (i + 1) (j + 1) (-c3)) ndim C) ndim C).bind fun C =>
  let C := scaleM C (1 / J)
  let Cv := Cv * J
  loop (fun i C =>
    (C.add (i + 1) (i + 1) (Cv - P)).bind fun C =>
    (if i + 1 + ndim ≤ C.nr then C.add (i + 1 + ndim) (i + 1 + ndim) (-P) else .ok C).bind fun C =>
    loop (fun j C => if j ≠ i then C.add (i + 1) (j + 1) (Cv + P) else .ok C) ndim C) ndim C

end

/-- Tangent, stress and energy. -/
structure Out where
  C : DMat ℝ
  S : Sym ℝ
  U : ℝ

/-- `NeoHookeMaterial::stdNeoHooke` (FiniteDeformation/NeoHookeMaterial.C:194-226). -/
noncomputable def stdNeoHooke (iVOL : Nat) (Bmod Smod J : ℝ) (S : Sym ℝ) (C : DMat ℝ) : Res Out :=
  let v := volumetricModuli iVOL Bmod J
  let c1 := Smod / J
  let c3 := v.Upp * J
  let c2 := c1 + c1 + c3 - v.Up
  let Ic := S.trace
  (stdC S.dim c1 c2 c3 v.Up C).bind fun C =>
  .ok ⟨C, (S.scale c1).shift (v.Up - c1), v.U + Smod * (1 / 2 * Ic - 3 / 2 - Real.log |J|)⟩

/-- `NeoHookeMaterial::modNeoHooke` (FiniteDeformation/NeoHookeMaterial.C:238-310). For negative `J`
the C++ `pow` gives not-a-number; the real power used here is only meaningful for positive `J`. -/
noncomputable def modNeoHooke (iVOL : Nat) (Bmod Smod J : ℝ) (S : Sym ℝ) (C : DMat ℝ) : Res Out :=
  let v := volumetricModuli iVOL Bmod J
  let S := S.scale (J ^ (-2 / 3 : ℝ))
  let Ic := S.trace / 3
  let S := S.shift (-Ic)
  (modC S.dim Smod J Ic v.Up v.Upp S.v C).bind fun C =>
  .ok ⟨C, (S.scale (Smod / J)).shift v.Up, v.U + 3 / 2 * Smod * (Ic - 1)⟩

/-- The body of `NeoHookeMaterial::evaluate` (FiniteDeformation/NeoHookeMaterial.C:93-177) for
`iop` 0, 1 and 3, and constant stiffness: `J` is the determinant of the deformation gradient, `S` its
left Cauchy-Green tensor. `iop` 2 is an error return. -/
noncomputable def evaluate (mVER iVOL : Nat) (Bmod Smod J : ℝ) (S : Sym ℝ) : Res Out :=
  if J = 0 then .fail
  else match mVER with
  | 1 => stdNeoHooke iVOL Bmod Smod J S (DMat.zero S.size S.size)
  | 2 => modNeoHooke iVOL Bmod Smod J S (DMat.zero S.size S.size)
  | _ => .fail

/-- `SymmTensor(3)` of a symmetric matrix. -/
def sym3 {K : Type*} [Field K] (b : Matrix (Fin 3) (Fin 3) K) : Sym K :=
  ⟨3, 6, fun i => match i with
    | 0 => b 0 0 | 1 => b 1 1 | 2 => b 2 2 | 3 => b 0 1 | 4 => b 1 2 | 5 => b 0 2 | _ => 0⟩

/-- `NeoHookeMaterial::evaluate` in three dimensions from the deformation gradient. -/
noncomputable def evaluate3 (mVER iVOL : Nat) (Bmod Smod : ℝ) (F : Matrix (Fin 3) (Fin 3) ℝ) :
    Res Out :=
  evaluate mVER iVOL Bmod Smod F.det (sym3 (F * F.transpose))

/-! ### Push-forward in `LinearMaterial` -/

section push
variable {K : Type*} [Field K]

/-- The index `k%3+1` as zero-based successor of the zero-based `k`. -/
def nxt (k : Nat) : Nat := (k + 1) % 3

/-- The matrix `T` of `LinearMaterial::evaluate` (FiniteDeformation/LinearMaterial.C:63-83), with
zero-based indices: `n` is the number of normal components by the loop bounds, `F i j` the component
(i+1,j+1) of the deformation gradient. -/
def tmat (n : Nat) (F : Nat → Nat → K) (i j : Nat) : K :=
  if i < n then
    if j < n then F j i * F j i
    else 1 / 2 * (F (j - n) i * F (nxt (j - n)) i + F (nxt (j - n)) i * F (j - n) i)
  else
    if j < n then F j (i - n) * F j (nxt (i - n)) + F j (nxt (i - n)) * F j (i - n)
    else 1 / 2 * (F (j - n) (i - n) * F (nxt (j - n)) (nxt (i - n)) +
      F (nxt (j - n)) (i - n) * F (j - n) (nxt (i - n)) +
      F (j - n) (nxt (i - n)) * F (nxt (j - n)) (i - n) +
      F (nxt (j - n)) (nxt (i - n)) * F (j - n) (i - n))

/-- `LinearMaterial::evaluate` (FiniteDeformation/LinearMaterial.C:26-92) for `iop` 1: `C`, `S` are
the tangent and stress of the wrapped material, `Fm` the deformation gradient as matrix (of the
tensor dimension `d`), `n` the dimension of the stress tensor and `m` the number of rows of `C`.
Every index of `F` used is below `d` or the call is undefined. -/
def pushForward {d m : Nat} (n : Nat) (C : Matrix (Fin m) (Fin m) K) (S Fm : Matrix (Fin d) (Fin d) K)
    [DecidableEq K] : Res (Matrix (Fin m) (Fin m) K × Matrix (Fin d) (Fin d) K) :=
  if Fm.det = 0 then .fail
  else if (d < 3 ∧ n + 1 < m) ∨ d < n then .ub
  else
    let F : Nat → Nat → K := fun i j => if h : i < d ∧ j < d then Fm ⟨i, h.1⟩ ⟨j, h.2⟩ else 0
    let T : Matrix (Fin m) (Fin m) K := Matrix.of fun i j => tmat n F i j
    .ok ((1 / Fm.det) • (T.transpose * (C * T)), (1 / Fm.det) • (Fm * S * Fm.transpose))

end push

end Verif.NeoHooke
