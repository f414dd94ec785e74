/-
Specification of the norm quantities: what each reported quantity means, in which order the groups
are documented, and how it is labelled.
-/
import Verif.Basic

namespace Verif.Norms.Spec

variable {K : Type*}

/-- The quantities reported by the continuum norms. Functionals are numbered from 0. -/
inductive Qty
  | ahh | ext | auu | aee | vol | ahw (k : Nat) | auw (k : Nat)
  | arr | arh | l2r | l2h | aur | eff
  deriving DecidableEq

/-- The main group: energy, external energy, exact energy and error, volume, functionals. -/
def qMain (ana : Bool) (n : Nat) : List Qty :=
  if ana then
    [.ahh, .ext, .auu, .aee, .vol] ++ (List.range n).flatMap fun k => [.ahw k, .auw k]
  else
    [.ahh, .ext, .vol] ++ (List.range n).map fun k => .ahw k

/-- The group of one projected solution. -/
def qPrj (ana : Bool) : List Qty :=
  [.arr, .arh, .l2r, .l2h] ++ if ana then [.aur, .eff] else []

/-- The printed label of a quantity when `n` functionals are reported. -/
def label (n : Nat) : Qty → String
  | .ahh => "a(u^h,u^h)^0.5"
  | .ext => "((f,u^h)+(t,u^h))^0.5"
  | .auu => "a(u,u)^0.5"
  | .aee => "a(e,e)^0.5, e=u-u^h"
  | .vol => "volume"
  | .ahw k => if n = 1 then "a(u^h,w)" else "a(u^h,w" ++ toString (k + 1) ++ ")"
  | .auw k => if n = 1 then "a(u,w)" else "a(u,w" ++ toString (k + 1) ++ ")"
  | .arr => "a(u^r,u^r)^0.5"
  | .arh => "a(e,e)^0.5, e=u^r-u^h"
  | .l2r => "(u^r,u^r)^0.5"
  | .l2h => "(e,e)^0.5, e=u^r-u^h"
  | .aur => "a(e,e)^0.5, e=u-u^r"
  | .eff => "effectivity index"

/-- Scalar product of two Voigt vectors. -/
def dot [Semiring K] (a b : List K) : K := (List.zipWith (· * ·) a b).sum

/-- The fields at an integration point. All are *stresses*; `comp` maps a stress to its strain.
If strains are reported instead, they are strains and `comp` maps a strain to its stress. -/
structure Fields (K : Type*) where
  comp : List K → List K
  /-- finite element field, exact field, projected field -/
  uh : List K
  u : List K
  ur : List K
  /-- strain of the dual solutions -/
  wk : Nat → List K
  /-- body force times displacement (zero without loads), integration weight -/
  fu : K
  w : K

def diff [Ring K] (a b : List K) : List K := List.zipWith (· - ·) a b

/-- Energy of a field. -/
def Fields.en [Ring K] (f : Fields K) (x : List K) : K := dot x (f.comp x)

/-- What each quantity integrates; `st` gives the stress of a field. -/
def value [Ring K] (f : Fields K) (st : List K → List K) : Qty → K
  | .ahh => f.en f.uh * f.w
  | .ext => f.fu * f.w
  | .auu => f.en f.u * f.w
  | .aee => f.en (diff f.u f.uh) * f.w
  | .vol => f.w
  | .ahw k => dot (st f.uh) (f.wk k) * f.w
  | .auw k => dot (st f.u) (f.wk k) * f.w
  | .arr => f.en f.ur * f.w
  | .arh => f.en (diff f.ur f.uh) * f.w
  | .l2r => dot (st f.ur) (st f.ur) * f.w
  | .l2h => dot (st (diff f.ur f.uh)) (st (diff f.ur f.uh)) * f.w
  | .aur => f.en (diff f.u f.ur) * f.w
  | .eff => 0

end Verif.Norms.Spec

namespace Verif.Norms.Spec

variable {K : Type*}

/-- The quantities reported by the plate norms. -/
inductive PQty
  | ahh | ext | auu | aee | resu | area
  | arr | arh | l2r | l2h | resr | jump | aur | eff1 | eff2
  deriving DecidableEq

def pMain (ana : Bool) : List PQty :=
  [.ahh, .ext] ++ (if ana then [.auu, .aee, .resu] else []) ++ [.area]

def pPrj (ana : Bool) : List PQty :=
  [.arr, .arh, .l2r, .l2h, .resr, .jump] ++ if ana then [.aur, .eff1, .eff2] else []

def plabel : PQty → String
  | .ahh => "a(w^h,w^h)^0.5"
  | .ext => "(p,w^h)^0.5"
  | .auu => "a(w,w)^0.5"
  | .aee => "a(e,e)^0.5, e=w-w^h"
  | .resu => "res(w)^0.5"
  | .area => "area"
  | .arr => "a(w^r,w^r)^0.5"
  | .arh => "a(e,e)^0.5, e=w^r-w^h"
  | .l2r => "(w^r,w^r)^0.5"
  | .l2h => "(e,e)^0.5, e=w^r-w^h"
  | .resr => "res(w^r)^0.5"
  | .jump => "jump(w^r)^0.5"
  | .aur => "a(e,e)^0.5, e=w-w^r"
  | .eff1 => "effectivity index^*"
  | .eff2 => "effectivity index^RES"

/-- Squared Frobenius norm of the symmetric second derivative tensor (w,xx w,yy w,xy), or of the
single component in one dimension. -/
def frob [Semiring K] : List K → K
  | [a] => a * a
  | [a, b, c] => a * a + b * b + 2 * (c * c)
  | _ => 0

/-- Fields of the plate norms at a point: `en` is the energy density of a field. -/
structure PFields (K : Type*) where
  en : List K → K
  mh : List K
  m : List K
  mr : List K
  resm : K
  resr : K
  h4 : K
  pw : K
  w : K

/-- What the domain integrals contribute to each quantity (jumps come from the boundary, the
effectivity indices from the element finalisation). -/
def pvalue [Ring K] (f : PFields K) : PQty → K
  | .ahh => f.en f.mh * f.w
  | .ext => f.pw * f.w
  | .auu => f.en f.m * f.w
  | .aee => f.en (diff f.m f.mh) * f.w
  | .resu => f.h4 * f.resm * f.resm * f.w
  | .area => f.w
  | .arr => f.en f.mr * f.w
  | .arh => f.en (diff f.mr f.mh) * f.w
  | .l2r => dot f.mr f.mr * f.w
  | .l2h => dot (diff f.mr f.mh) (diff f.mr f.mh) * f.w
  | .resr => f.h4 * f.resr * f.resr * f.w
  | .jump => 0
  | .aur => f.en (diff f.m f.mr) * f.w
  | .eff1 => 0
  | .eff2 => 0

end Verif.Norms.Spec
