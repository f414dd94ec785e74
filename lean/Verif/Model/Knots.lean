/-
Model of the graded knot refinement of the C1-continuous beam simulator (Linear/SIMLinElBeamC1.C).

Knot values are rational numbers. All values are dyadic with at most `2 levels` binary digits, so that they are exact in the
floating-point numbers of the program up to level 26. The `while`-like loops carry an explicit bound on the number of passes
and return `none` when it is used up; the properties show that the loops end.
-/
import Mathlib.Data.Rat.Defs
import Mathlib.Algebra.Order.Ring.Rat
import Verif.Basic

namespace Verif.Knots

/-- `std::set<double>::insert`: sorted insertion without duplicates. -/
def ins (x : ℚ) : List ℚ → List ℚ
  | [] => [x]
  | y :: l => if x < y then x :: y :: l else if x = y then y :: l else y :: ins x l

/-- `for (double x = hmax; x < 1.0; x += hmax) knots.insert(x)` (Linear/SIMLinElBeamC1.C:274-275), starting at `x`. -/
def uniformLoop (hmax : ℚ) : Nat → ℚ → List ℚ → Option (List ℚ)
  | 0, _, _ => none
  | n + 1, x, l => if x < 1 then uniformLoop hmax n (x + hmax) (ins x l) else some l

/-- `for (double h = hmax*0.5; h > hmin; h *= 0.5) { knots.insert(0.5-h); knots.insert(0.5+h); }`
(Linear/SIMLinElBeamC1.C:277-281), starting at `h`. -/
def focusLoop (hmin : ℚ) : Nat → ℚ → List ℚ → Option (List ℚ)
  | 0, _, _ => none
  | n + 1, h, l => if h > hmin then focusLoop hmin n (h * (1 / 2)) (ins (1 / 2 + h) (ins (1 / 2 - h) l)) else some l

/-- `SIMLinElBeamC1::parseXi` (Linear/SIMLinElBeamC1.C:258-288): `type` and `levels` are the attributes of the XML element
(levels 0 when absent), `xi` the knots found so far. The bound on the loop passes is `fuel`. -/
def parseXi (fuel : Nat) (type : String) (levels : Int) (xi : List ℚ) : Option (Res (List ℚ)) :=
  if type = "midpoint-focus" then
    if levels < 1 then some .fail
    else
      let hmax : ℚ := (1 / 2) ^ levels.toNat
      let hmin := hmax * hmax
      (uniformLoop hmax fuel hmax []).bind fun k1 =>
        (focusLoop hmin fuel (hmax * (1 / 2)) k1).bind fun k2 => some (.ok (xi ++ k2))
  else some .fail

end Verif.Knots
