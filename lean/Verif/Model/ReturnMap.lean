/-
Model of the local evaluation of the plastic material (FiniteDeformation/PlasticMaterial.C:304-729):
trial state, return mapping, stress, history update and tangent.

Assumptions on the library: `SymmTensor` with six components stores (11, 22, 33, 12, 23, 13);
`transform(T)` is `T b Tᵀ`, where a two-dimensional `T` leaves the third direction alone, so all
deformation gradients are 3 × 3 here; `principal` is a parameter; `utl::solve` solves the linear
system or reports a singular matrix. Arithmetic is exact over the reals. Divisions by zero, which
give infinities or not-a-numbers, are the outcome `ub`.
-/
import Verif.Model.Plastic
import Mathlib.Analysis.SpecialFunctions.Log.Basic
import Mathlib.Data.Matrix.Block

namespace Verif.Plastic

/-- A vector of three principal values. -/
abbrev V3 := Fin 3 → ℝ

/-- A 3 × 3 matrix. -/
abbrev M3 := Matrix (Fin 3) (Fin 3) ℝ

/-- The ten history variables of a point (FiniteDeformation/PlasticMaterial.h:95-98): six components
of the elastic left Cauchy-Green tensor, the accumulated plastic strain and three plastic strains. -/
structure Hist where
  ecg : Fin 6 → ℝ
  epp : ℝ
  epl : V3

/-- The history of a virgin point (FiniteDeformation/PlasticMaterial.C:275-278). -/
def hist0 : Hist := ⟨![1, 1, 1, 0, 0, 0], 0, fun _ => 0⟩

/-- First tensor index of a stored component (FiniteDeformation/PlasticMaterial.C:317). -/
def p1 : Fin 6 → Fin 3 := ![0, 1, 2, 0, 1, 2]

/-- Second tensor index of a stored component (FiniteDeformation/PlasticMaterial.C:318). -/
def p2 : Fin 6 → Fin 3 := ![0, 1, 2, 1, 2, 0]

/-- The tensor of six stored components (library `SymmTensor(RealArray)`,
FiniteDeformation/PlasticMaterial.C:376). -/
def sym6 (v : Fin 6 → ℝ) : M3 := !![v 0, v 3, v 5; v 3, v 1, v 4; v 5, v 4, v 2]

/-- The components of the tensor with principal values `l` and directions in the columns of `n`
(FiniteDeformation/PlasticMaterial.C:582-586 and 619-623). -/
def spectral (l : V3) (n : M3) (i : Fin 6) : ℝ :=
  l 0 * n (p1 i) 0 * n (p2 i) 0 + l 1 * n (p1 i) 1 * n (p2 i) 1 + l 2 * n (p1 i) 2 * n (p2 i) 2

/-- The material constants of the return mapping (FiniteDeformation/PlasticMaterial.C:337-349). -/
structure Par where
  bulk : ℝ
  shear : ℝ
  y0 : ℝ
  hk : ℝ
  istart : Int

/-- Fetching the constants (FiniteDeformation/PlasticMaterial.C:337-349). -/
noncomputable def fetch (p : List ℝ) : Res Par :=
  match p[4]?, p[5]?, p[7]?, p[9]?, p[12]? with
  | some b, some s, some hk, some sy, some st => .ok ⟨b, s, s23 * sy, 2 / 3 * hk, toInt st⟩
  | _, _, _, _, _ => .ub

/-- The flag `state`: whether plastic flow is allowed in this evaluation
(FiniteDeformation/PlasticMaterial.C:345-358). -/
def flowAllowed (istart : Int) (it : Nat) (first : Bool) : Bool :=
  let state := !(it == 0 && istart == 0)
  if first = true ∧ istart > 1 ∧ (it : Int) ≤ istart then false else state

/-- The yield tolerance `dyld` (FiniteDeformation/PlasticMaterial.C:346-355). -/
noncomputable def yieldTol (m : Par) (it : Nat) : ℝ :=
  if it = 0 ∧ m.istart ≠ 0 then 1 / 10 ^ 8 * m.y0 else 0

/-- The convergence tolerance `tolc` (FiniteDeformation/PlasticMaterial.C:310). -/
noncomputable def tolc : ℝ := 1 / 10 ^ 9

/-- The tolerance `tolb` for equal principal stretches (FiniteDeformation/PlasticMaterial.C:309). -/
noncomputable def tolb : ℝ := 1 / 10 ^ 8

/-- Sum of the components of a vector (library `Vec3::sum`). -/
def vsum (v : V3) : ℝ := v 0 + v 1 + v 2

/-- Sum of absolute values (library `Vec3::asum`). -/
def asum (v : V3) : ℝ := |v 0| + |v 1| + |v 2|

/-- The variables of the return mapping: Kirchhoff stress, back stress, multiplier, accumulated
plastic strain, the relative stress with its invariants, elastic strain, flow direction, error
measure, and the second derivatives and hardening slope in the last local matrix. -/
structure RM where
  tau : V3
  alp : V3
  gam : ℝ
  epp : ℝ
  ta : V3
  I1 : ℝ
  J2 : ℝ
  J3 : ℝ
  epsE : V3
  nn : V3
  rerr : ℝ
  fss : M3
  ypr : ℝ

/-- Relative stress, invariants and elastic strains from the deviatoric stress `tt`, the mean stress
`pp` and the back stress (FiniteDeformation/PlasticMaterial.C:413-424, 444-446 and 552-565). The
other variables are passed on. -/
noncomputable def mkRM (m : Par) (tau tt : V3) (pp : ℝ) (alp : V3) (gam epp : ℝ) (nn : V3)
    (rerr : ℝ) (fss : M3) (ypr : ℝ) : RM :=
  let aatr := vsum alp * (1 / 3)
  let ta : V3 := fun i => tt i - alp i + aatr
  let volE := 1 / 3 / m.bulk * pp
  { tau := tau, alp := alp, gam := gam, epp := epp, ta := ta
    I1 := 3 * (pp - aatr)
    J2 := (ta 0 * ta 0 + ta 1 * ta 1 + ta 2 * ta 2) * (1 / 2)
    J3 := (ta 0 * ta 0 * ta 0 + ta 1 * ta 1 * ta 1 + ta 2 * ta 2 * ta 2) * (1 / 3)
    epsE := fun i => 1 / 2 / m.shear * tt i + volE
    nn := nn, rerr := rerr, fss := fss, ypr := ypr }

/-- The trial state (FiniteDeformation/PlasticMaterial.C:391-424, 438-451), from the logarithmic
principal strains and the history. -/
noncomputable def trial (m : Par) (h : Hist) (eps : V3) : RM :=
  let th := vsum eps
  let vol := th * (1 / 3)
  let pp := m.bulk * th
  let tt : V3 := fun i => 2 * m.shear * (eps i - vol)
  mkRM m (fun i => tt i + pp) tt pp (fun i => m.hk * h.epl i) 0 h.epp (fun _ => 0) (1 + tolc)
    (fun _ _ => 0) 0

/-- The flow direction (FiniteDeformation/PlasticMaterial.C:465-467). -/
noncomputable def flowDir (y : Yld) (s : RM) : V3 :=
  fun i => y.f1 - y.f3 * (2 / 3) * s.J2 + (y.f2 + y.f3 * s.ta i) * s.ta i

/-- Second derivatives of the yield function times the multiplier
(FiniteDeformation/PlasticMaterial.C:475-494). -/
noncomputable def flowGrad (y : Yld) (s : RM) : M3 :=
  let f112 := y.f11 - 1 / 3 * y.f2
  let f123 := y.f12 - 2 / 3 * y.f3
  let aa : V3 := fun i => y.f23 * s.ta i + y.f13
  let bb : V3 := fun i => s.ta i * s.ta i - 2 / 3 * s.J2
  fun a b =>
    (f112 + y.f22 * s.ta a * s.ta b + y.f33 * bb a * bb b + f123 * (s.ta b + s.ta a) +
      aa a * bb b + bb a * aa b) * s.gam +
    if a = b then (y.f2 + 2 * y.f3 * s.ta a) * s.gam else 0

/-- The library call `utl::solve`: the solution of a linear system unless the matrix is singular. -/
noncomputable def solve {n : Type} [Fintype n] [DecidableEq n] (A : Matrix n n ℝ) (b : n → ℝ) :
    Option (n → ℝ) :=
  open Classical in if A.det = 0 then none else some (A⁻¹.mulVec b)

/-- The stress block of the local matrix (FiniteDeformation/PlasticMaterial.C:496-501). -/
noncomputable def tresS (m : Par) (fss : M3) : M3 := fun a b =>
  fss a b + (1 / 3 / m.bulk - 1 / 2 / m.shear) * (1 / 3) + if a = b then 1 / 2 / m.shear else 0

/-- The local matrix with isotropic hardening only (FiniteDeformation/PlasticMaterial.C:514-521).
Unknowns: three stresses and the multiplier. -/
noncomputable def tres4 (m : Par) (fss : M3) (nn : V3) (ypr : ℝ) :
    Matrix (Fin 3 ⊕ Unit) (Fin 3 ⊕ Unit) ℝ
  | .inl a, .inl b => tresS m fss a b
  | .inl a, .inr _ => nn a
  | .inr _, .inl b => nn b
  | .inr _, .inr _ => -ypr

/-- The local matrix with kinematic hardening (FiniteDeformation/PlasticMaterial.C:503-512, 520).
Unknowns: three stresses, three back stresses and the multiplier. -/
noncomputable def tres7 (m : Par) (fss : M3) (nn : V3) (ypr : ℝ) :
    Matrix ((Fin 3 ⊕ Fin 3) ⊕ Unit) ((Fin 3 ⊕ Fin 3) ⊕ Unit) ℝ
  | .inl (.inl a), .inl (.inl b) => tresS m fss a b
  | .inl (.inl a), .inl (.inr b) => -fss a b
  | .inl (.inr a), .inl (.inl b) => -fss b a
  | .inl (.inr a), .inl (.inr b) => fss a b + if a = b then 1 / m.hk else 0
  | .inl (.inl a), .inr _ => nn a
  | .inl (.inr a), .inr _ => -nn a
  | .inr _, .inl (.inl b) => nn b
  | .inr _, .inl (.inr b) => -nn b
  | .inr _, .inr _ => -ypr

/-- Solution of the local system for a right-hand side: stress, back stress and multiplier
(FiniteDeformation/PlasticMaterial.C:503-528). Without kinematic hardening there is no back stress
increment. -/
noncomputable def locSolve (m : Par) (fss : M3) (nn : V3) (ypr : ℝ) (r1 r2 : V3) (r3 : ℝ) :
    Option (V3 × V3 × ℝ) :=
  if m.hk > 0 then
    (solve (tres7 m fss nn ypr) (Sum.elim (Sum.elim r1 r2) fun _ => r3)).map fun x =>
      (fun a => x (.inl (.inl a)), fun a => x (.inl (.inr a)), x (.inr ()))
  else
    (solve (tres4 m fss nn ypr) (Sum.elim r1 fun _ => r3)).map fun x =>
      (fun a => x (.inl a), fun _ => 0, x (.inr ()))

/-- One iteration of the return mapping (FiniteDeformation/PlasticMaterial.C:459-566). `tr` is the
trial state, `eps` the logarithmic trial strains, `epp0` the previous accumulated plastic strain. -/
noncomputable def rmStep (m : Par) (yf : ℝ → ℝ → ℝ → ℝ → Res Yld) (eps alpN : V3) (epp0 : ℝ)
    (s : RM) : Res RM :=
  (yf s.epp s.I1 s.J2 s.J3).bind fun y =>
    let nn := flowDir y s
    let hkr := if m.hk > 0 then 1 / m.hk else 0
    let r1 : V3 := fun i => s.epsE i - eps i + s.gam * nn i
    let r2 : V3 := fun i => (alpN i - s.alp i) * hkr + s.gam * nn i
    let rerr := asum r1 / asum eps + (if y.yield < 0 then -y.yield else y.yield) / m.y0
    let fss := flowGrad y s
    match locSolve m fss nn y.Ypr (fun i => -r1 i) (fun i => -r2 i) (-y.yield) with
    | none => .fail
    | some (dt, da, dg) =>
      let tau : V3 := fun i => s.tau i + dt i
      let gam := s.gam + dg
      let pp := vsum tau * (1 / 3)
      .ok (mkRM m tau (fun i => tau i - pp) pp (fun i => s.alp i + da i) gam (epp0 + s23 * gam)
        nn rerr fss y.Ypr)

/-- The iteration loop (FiniteDeformation/PlasticMaterial.C:459): at most the given number of
iterations, as long as the error measure is not below the tolerance. -/
noncomputable def rmLoop (step : RM → Res RM) : Nat → RM → Res RM
  | 0, s => .ok s
  | k + 1, s => if s.rerr ≥ tolc then (step s).bind (rmLoop step k) else .ok s

/-- The number of iterations, `it = 1, …, itmax - 1` (FiniteDeformation/PlasticMaterial.C:308, 459). -/
def maxIter : Nat := 49

/-- Half the principal tangent of a plastic step (FiniteDeformation/PlasticMaterial.C:596-604): the
local system with half a unit vector as right-hand side; column `a` gives the entries `(a, b)` with
`b ≥ a`. -/
noncomputable def plasticTangent (m : Par) (s : RM) : Res M3 :=
  let col (a : Fin 3) := locSolve m s.fss s.nn s.ypr (fun i => if i = a then 1 / 2 else 0)
    (fun _ => 0) 0
  match col 0, col 1, col 2 with
  | some x0, some x1, some x2 =>
    .ok fun a b => (![x0.1, x1.1, x2.1] (min a b)) (max a b)
  | _, _, _ => .fail

/-- Half the principal tangent of an elastic step (FiniteDeformation/PlasticMaterial.C:610-611). -/
noncomputable def elasticTangent (m : Par) : M3 := fun a b =>
  if a = b then 1 / 2 * m.bulk + 2 / 3 * m.shear else 1 / 2 * m.bulk - 1 / 3 * m.shear

/-- The material matrix in the principal axes (FiniteDeformation/PlasticMaterial.C:636-654). The
last three rows are the index pairs 12, 23 and 31. -/
noncomputable def cstm (ll2 tau : V3) (dtde : M3) : Matrix (Fin 6) (Fin 6) ℝ :=
  let sh (a b : Fin 3) : ℝ :=
    let d := ll2 b - ll2 a
    if d > tolb ∨ d < -tolb then (ll2 a * tau b - ll2 b * tau a) / d
    else dtde a a - dtde b a - tau a
  let nrm (b a : Fin 3) : ℝ := 2 * dtde b a - if a = b then 2 * tau a else 0
  !![nrm 0 0, nrm 0 1, nrm 0 2, 0, 0, 0;
     nrm 1 0, nrm 1 1, nrm 1 2, 0, 0, 0;
     nrm 2 0, nrm 2 1, nrm 2 2, 0, 0, 0;
     0, 0, 0, sh 0 1, 0, 0;
     0, 0, 0, 0, sh 1 2, 0;
     0, 0, 0, 0, 0, sh 2 0]

/-- The transformation matrix (FiniteDeformation/PlasticMaterial.C:668-690). -/
noncomputable def tmat (F : M3) : Matrix (Fin 6) (Fin 6) ℝ := fun i j =>
  if i < 3 then
    if j < 3 then F (p1 j) (p1 i) * F (p2 j) (p2 i)
    else (F (p1 j) (p1 i) * F (p2 j) (p2 i) + F (p2 j) (p2 i) * F (p1 j) (p1 i)) * (1 / 2)
  else
    if j < 3 then F (p1 j) (p1 i) * F (p2 j) (p2 i) + F (p2 j) (p2 i) * F (p1 j) (p1 i)
    else (F (p1 j) (p1 i) * F (p2 j) (p2 i) + F (p2 j) (p1 i) * F (p1 j) (p2 i) +
          F (p1 j) (p2 i) * F (p2 j) (p1 i) + F (p2 j) (p2 i) * F (p1 j) (p1 i)) * (1 / 2)

/-- The tangent with all components (FiniteDeformation/PlasticMaterial.C:697-708). -/
noncomputable def tangent6 (ll2 tau : V3) (dtde n : M3) (J : ℝ) : Matrix (Fin 6) (Fin 6) ℝ :=
  (1 / J) • ((tmat n).transpose * (cstm ll2 tau dtde * tmat n))

/-- The components kept for a stress tensor of `ns` components
(FiniteDeformation/PlasticMaterial.C:624-627, 702-716). -/
def kept (ns : Nat) : List (Fin 6) :=
  if ns = 3 then [0, 1, 3] else if ns = 4 then [0, 1, 2, 3] else [0, 1, 2, 3, 4, 5]

/-- The results of the evaluation: new history, stress, tangent and return value. -/
structure Out where
  hist : Hist
  sig : List ℝ
  C : List (List ℝ)
  ierr : Nat

/-- Stress and tangent from the principal values (FiniteDeformation/PlasticMaterial.C:614-727). -/
noncomputable def output (ns : Nat) (ll2 : V3) (n : M3) (J : ℝ) (h : Hist) (tau : V3) (dtde : M3)
    (ierr : Nat) : Out :=
  { hist := h
    sig := (kept ns).map fun i => spectral tau n i / J
    C := (kept ns).map fun i => (kept ns).map fun j => tangent6 ll2 tau dtde n J i j
    ierr := ierr }

/-- The plastic step (FiniteDeformation/PlasticMaterial.C:434-605) for logarithmic strains `eps`.
The elastic left Cauchy-Green tensor and the plastic strains of the history are updated. -/
noncomputable def plasticStep (m : Par) (yf : ℝ → ℝ → ℝ → ℝ → Res Yld) (h : Hist) (eps : V3)
    (n : M3) (it : Nat) : Res (Hist × V3 × M3 × Nat) :=
  if m.bulk = 0 ∨ m.shear = 0 ∨ asum eps = 0 ∨ m.y0 = 0 then .ub
  else
    let s0 := trial m h eps
    (rmLoop (rmStep m yf eps s0.alp h.epp) maxIter s0).bind fun s =>
      let ierr := if s.rerr ≥ tolc ∧ it > 0 then it else 0
      (plasticTangent m s).bind fun dtde =>
        .ok (⟨spectral (fun a => Real.exp (2 * s.epsE a)) n, s.epp,
              fun i => h.epl i + s.gam * s.nn i⟩, s.tau, dtde, ierr)

/-- `PlasticPoint::evaluate` (FiniteDeformation/PlasticMaterial.C:304-729). `prin` is the library
function for principal values and directions, `hp` the history of the previous configuration with
deformation gradient `Fp`, and `Fc` the current gradient. Error returns are `fail`. A principal
stretch that is not positive (its logarithm would be taken) is `ub`. -/
noncomputable def evaluate (p : List ℝ) (hfn : Option ((ℝ → ℝ) × (ℝ → ℝ)))
    (prin : M3 → Option (V3 × M3)) (ns : Nat) (hp : Hist) (Fp Fc : M3) (it : Nat) (first : Bool) :
    Res Out :=
  (fetch p).bind fun m =>
    open Classical in
    if Fp.det = 0 ∨ Fc.det = 0 then .fail
    else
      let fr := Fc * Fp⁻¹
      let be := fr * sym6 hp.ecg * fr.transpose
      match prin be with
      | none => .fail
      | some (ll2, n) =>
        if ll2 0 ≤ 0 ∨ ll2 1 ≤ 0 ∨ ll2 2 ≤ 0 then .ub
        else
          let eps : V3 := fun i => Real.log (Real.sqrt (ll2 i))
          let s0 := trial m hp eps
          (yfunc p hfn false hp.epp s0.I1 s0.J2 s0.J3).bind fun y =>
            if y.yield > -yieldTol m it ∧ flowAllowed m.istart it first = true then
              (plasticStep m (yfunc p hfn true) hp eps n it).bind fun r =>
                .ok (output ns ll2 n Fc.det r.1 r.2.1 r.2.2.1 r.2.2.2)
            else
              .ok (output ns ll2 n Fc.det { hp with ecg := fun i => be (p1 i) (p2 i) } s0.tau
                (elasticTangent m) 0)

end Verif.Plastic
