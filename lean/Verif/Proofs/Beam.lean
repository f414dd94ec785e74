/-
The transformations of beam matrices written as congruences.
-/
import Verif.Model.Beam
import Verif.Spec.Beam
import Mathlib.Tactic.Ring
import Mathlib.Tactic.FieldSimp

set_option linter.unusedSectionVars false
set_option linter.unusedSimpArgs false

namespace Verif.Beam

variable {K : Type*} [Field K]

/-- A loop changing one column at a time. -/
theorem foldl_col (step : Mat K → Nat → Mat K) (V : (Nat → K) → Nat → K)
    (h : ∀ A j, step A j = fun r c => if c = j then V (fun r => A r j) r else A r c) (l : List Nat) :
    l.Nodup → ∀ A, l.foldl step A = fun r c => if c ∈ l then V (fun r => A r c) r else A r c := by
  induction l with
  | nil => intro _ A; funext r c; simp
  | cons a l ih =>
    intro hn A
    rw [List.nodup_cons] at hn
    rw [List.foldl_cons, ih hn.2, h]
    funext r c
    by_cases hc : c = a
    · subst hc; simp [hn.1]
    · simp [hc]

/-- A loop changing one row at a time. -/
theorem foldl_row (step : Mat K → Nat → Mat K) (V : (Nat → K) → Nat → K)
    (h : ∀ A i, step A i = fun r c => if r = i then V (fun c => A i c) c else A r c) (l : List Nat) :
    l.Nodup → ∀ A, l.foldl step A = fun r c => if r ∈ l then V (fun c => A r c) c else A r c := by
  induction l with
  | nil => intro _ A; funext r c; simp
  | cons a l ih =>
    intro hn A
    rw [List.nodup_cons] at hn
    rw [List.foldl_cons, ih hn.2, h]
    funext r c
    by_cases hc : r = a
    · subst hc; simp [hn.1]
    · simp [hc]

theorem mem_twelve (i : Nat) (h : i < 12) : i + 1 ∈ twelve := by
  have : ∀ i < 12, i + 1 ∈ twelve := by decide
  exact this i h

theorem twelve_nodup : twelve.Nodup := by decide

/-- Two loops, one over the columns and one over the rows, make a congruence. -/
theorem form_congr (rs cs : Mat K → Nat → Mat K) (V : (Nat → K) → Nat → K) (T : (Nat → K) → Nat → K)
    (hr : ∀ A j, rs A j = fun r c => if c = j then V (fun r => A r j) r else A r c)
    (hc : ∀ A i, cs A i = fun r c => if r = i then V (fun c => A i c) c else A r c)
    (hw : ∀ b u, work (V b) u = work b (T u)) (A : Mat K) (u v : Nat → K) :
    form (twelve.foldl cs (twelve.foldl rs A)) u v = form A (T u) (T v) := by
  rw [foldl_row cs V hc twelve twelve_nodup, foldl_col rs V hr twelve twelve_nodup]
  generalize hB : (fun r c => if c ∈ twelve then V (fun r => A r c) r else A r c) = B
  have e1 : form (fun r c => if r ∈ twelve then V (fun c => B r c) c else B r c) u v = form B u (T v) := by
    unfold form
    refine Finset.sum_congr rfl fun i hi => ?_
    simp only [if_pos (mem_twelve i (Finset.mem_range.mp hi))]
    congr 1
    exact hw (fun c => B (i + 1) c) v
  rw [e1]
  have sw : ∀ (A : Mat K) (u v : Nat → K), form A u v
      = ∑ j ∈ Finset.range 12, work (fun r => A r (j + 1)) u * v (j + 1) := by
    intro A u v
    unfold form work
    simp only [Finset.mul_sum, Finset.sum_mul]
    rw [Finset.sum_comm (s := Finset.range 12)]
    refine Finset.sum_congr rfl fun j _ => Finset.sum_congr rfl fun i _ => ?_
    ring
  rw [sw, sw]
  refine Finset.sum_congr rfl fun j hj => ?_
  rw [← hw]
  congr 1
  unfold work
  refine Finset.sum_congr rfl fun i _ => ?_
  rw [← hB]
  simp only [if_pos (mem_twelve j (Finset.mem_range.mp hj))]

theorem eccRow_eq (e1 e2 : V3 K) (A : Mat K) (j : Nat) :
    eccRow e1 e2 A j = fun r c => if c = j then eccVec (fun r => A r j) e1 e2 r else A r c := by
  funext r c
  by_cases hc : c = j
  · subst hc
    simp [eccRow, eccVec, addTo, addToV]
  · simp [eccRow, addTo, hc]

theorem eccCol_eq (e1 e2 : V3 K) (A : Mat K) (i : Nat) :
    eccCol e1 e2 A i = fun r c => if r = i then eccVec (fun c => A i c) e1 e2 c else A r c := by
  funext r c
  by_cases hc : r = i
  · subst hc
    simp [eccCol, eccVec, addTo, addToV]
  · simp [eccCol, addTo, hc]

/-- The vector transformation is the transpose of the rigid-arm kinematics. -/
theorem work_ecc (b u : Nat → K) (e1 e2 : V3 K) : work (eccVec b e1 e2) u = work b (armed e1 e2 u) := by
  simp [work, Finset.sum_range_succ, eccVec, addToV, armed]
  ring

/-- The transformation of a vector for a shear centre offset. -/
def shearVec (b : Nat → K) (Sy Sz : K) : Nat → K :=
  let b := addToV b 4 (Sy * b 3 - Sz * b 2)
  addToV b 10 (Sy * b 9 - Sz * b 8)

theorem shearRow_eq (Sy Sz : K) (A : Mat K) (j : Nat) :
    shearRow Sy Sz A j = fun r c => if c = j then shearVec (fun r => A r j) Sy Sz r else A r c := by
  funext r c
  by_cases hc : c = j
  · subst hc
    simp [shearRow, shearVec, addTo, addToV]
  · simp [shearRow, addTo, hc]

theorem shearCol_eq (Sy Sz : K) (A : Mat K) (i : Nat) :
    shearCol Sy Sz A i = fun r c => if r = i then shearVec (fun c => A i c) Sy Sz c else A r c := by
  funext r c
  by_cases hc : r = i
  · subst hc
    simp [shearCol, shearVec, addTo, addToV, mul_comm]
  · simp [shearCol, addTo, hc]

theorem work_shear (b u : Nat → K) (Sy Sz : K) : work (shearVec b Sy Sz) u = work b (centred Sy Sz u) := by
  simp [work, Finset.sum_range_succ, shearVec, addToV, centred]
  ring

theorem form_shear (A : Mat K) (Sy Sz : K) (u v : Nat → K) :
    form (shearMat A Sy Sz) u v = form A (centred Sy Sz u) (centred Sy Sz v) :=
  form_congr _ _ (fun b => shearVec b Sy Sz) _ (shearRow_eq Sy Sz) (shearCol_eq Sy Sz)
    (fun b u => work_shear b u Sy Sz) A u v

theorem form_ecc (A : Mat K) (e1 e2 : V3 K) (u v : Nat → K) :
    form (eccMat A e1 e2) u v = form A (armed e1 e2 u) (armed e1 e2 v) :=
  form_congr _ _ (fun b => eccVec b e1 e2) _ (eccRow_eq e1 e2) (eccCol_eq e1 e2)
    (fun b u => work_ecc b u e1 e2) A u v

set_option maxHeartbeats 4000000 in
/-- The form of the stiffness matrix. -/
theorem form_stiff [CharZero K] (L EA GIt EIy EIz Aly Alz : K) (hL : L ≠ 0) (hy : 1 + Aly ≠ 0) (hz : 1 + Alz ≠ 0)
    (u v : Nat → K) :
    form (symm (entry (stiffUpper L EA GIt EIy EIz Aly Alz))) u v
    = EA / L * ((u 7 - u 1) * (v 7 - v 1)) + GIt / L * ((u 10 - u 4) * (v 10 - v 4))
    + EIy / L * ((u 12 - u 6) * (v 12 - v 6))
    + 3 * EIy / (L * (1 + Aly)) * ((u 6 + u 12 - 2 * ((u 8 - u 2) / L)) * (v 6 + v 12 - 2 * ((v 8 - v 2) / L)))
    + EIz / L * ((u 11 - u 5) * (v 11 - v 5))
    + 3 * EIz / (L * (1 + Alz)) * ((u 5 + u 11 + 2 * ((u 9 - u 3) / L)) * (v 5 + v 11 + 2 * ((v 9 - v 3) / L))) := by
  have h1 : L * L * L + L * L * L * Aly = L * L * L * (1 + Aly) := by ring
  have h2 : L * L * L + L * L * L * Alz = L * L * L * (1 + Alz) := by ring
  have h3 : L + L * Aly = L * (1 + Aly) := by ring
  have h4 : L + L * Alz = L * (1 + Alz) := by ring
  simp [form, Finset.sum_range_succ, symm, entry, stiffUpper, h1, h2, h3, h4]
  field_simp
  ring

set_option maxHeartbeats 4000000 in
/-- The form of the geometric stiffness matrix. -/
theorem form_geo [CharZero K] (N L Aly Alz ItoA : K) (hL : L ≠ 0) (hy : 1 + Aly ≠ 0) (hz : 1 + Alz ≠ 0)
    (u v : Nat → K) :
    form (symm (entry (geoUpper N L Aly Alz ItoA))) u v
    = N * ItoA / L * ((u 10 - u 4) * (v 10 - v 4))
    + N * L * ((u 8 - u 2) / L * ((v 8 - v 2) / L) + (u 12 - u 6) * (v 12 - v 6) / 12
      + (u 6 + u 12 - 2 * ((u 8 - u 2) / L)) * (v 6 + v 12 - 2 * ((v 8 - v 2) / L)) / (20 * (1 + Aly) ^ 2))
    + N * L * ((u 9 - u 3) / L * ((v 9 - v 3) / L) + (u 11 - u 5) * (v 11 - v 5) / 12
      + (u 5 + u 11 + 2 * ((u 9 - u 3) / L)) * (v 5 + v 11 + 2 * ((v 9 - v 3) / L)) / (20 * (1 + Alz) ^ 2)) := by
  simp [form, Finset.sum_range_succ, symm, entry, geoUpper]
  field_simp
  ring

/-- Integral over a beam of length `L` of the product of two deflections, given by the deflections and slopes at the two
ends: the coefficients of the Legendre polynomials of the cubic Hermite interpolation. -/
def hermite (L w1 t1 w2 t2 x1 s1 x2 s2 : K) : K :=
  L * (((w1 + w2) / 2 + L * (t1 - t2) / 12) * ((x1 + x2) / 2 + L * (s1 - s2) / 12)
    + (3 / 5 * (w2 - w1) - L * (t1 + t2) / 20) * (3 / 5 * (x2 - x1) - L * (s1 + s2) / 20) / 3
    + (L * (t1 - t2) / 12) * (L * (s1 - s2) / 12) / 5
    + ((w1 - w2) / 10 + L * (t1 + t2) / 20) * ((x1 - x2) / 10 + L * (s1 + s2) / 20) / 7)

/-- The same for the slopes. -/
def hermiteSlope (L w1 t1 w2 t2 x1 s1 x2 s2 : K) : K :=
  L * ((w2 - w1) / L * ((x2 - x1) / L) + (t1 - t2) / 2 * ((s1 - s2) / 2) / 3
    + ((w1 - w2) / L + (t1 + t2) / 2) * ((x1 - x2) / L + (s1 + s2) / 2) / 5)

/-- Integral of the product of two linear functions, given by their values at the two ends. -/
def linear (L w1 w2 x1 x2 : K) : K :=
  L * ((w1 + w2) / 2 * ((x1 + x2) / 2) + (w2 - w1) / 2 * ((x2 - x1) / 2) / 3)

set_option maxHeartbeats 4000000 in
/-- The form of the consistent mass matrix. -/
theorem form_mass [CharZero K] (rhoA Ixx Iyy Izz L : K) (hL : L ≠ 0) (u v : Nat → K) :
    form (symm (entry (massUpper rhoA Ixx Iyy Izz L))) u v
    = rhoA * linear L (u 1) (u 7) (v 1) (v 7) + Ixx * linear L (u 4) (u 10) (v 4) (v 10)
    + rhoA * hermite L (u 2) (u 6) (u 8) (u 12) (v 2) (v 6) (v 8) (v 12)
    + Izz * hermiteSlope L (u 2) (u 6) (u 8) (u 12) (v 2) (v 6) (v 8) (v 12)
    + rhoA * hermite L (u 3) (-u 5) (u 9) (-u 11) (v 3) (-v 5) (v 9) (-v 11)
    + Iyy * hermiteSlope L (u 3) (-u 5) (u 9) (-u 11) (v 3) (-v 5) (v 9) (-v 11) := by
  simp [form, Finset.sum_range_succ, symm, entry, massUpper, hermite, hermiteSlope, linear]
  field_simp
  ring

end Verif.Beam
