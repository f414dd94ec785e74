/-
C40: the stiffness matrix of the two-noded beam. C72: its geometric stiffness matrix.
-/
import Verif.Proofs.Beam
import Mathlib.Tactic.Linarith
import Mathlib.Tactic.Positivity
import Mathlib.Tactic.IntervalCases
import Mathlib.Algebra.Order.Ring.Rat

set_option linter.unusedSectionVars false
set_option linter.unusedSimpArgs false
set_option linter.unusedVariables false

namespace Verif.Beam

variable {K : Type*} [Field K] [LinearOrder K] [IsStrictOrderedRing K]

/-- The end displacements that the stiffness is computed from: those of the shear centre, unless its offset is
negligible. -/
def shearPoint (Sy Sz : K) (u : Nat → K) : Nat → K :=
  if |Sy| + |Sz| > 1 / 1000000000000 then centred Sy Sz u else u

theorem form_adjust (A : Mat K) (Sy Sz : K) (u v : Nat → K) :
    form (adjust A Sy Sz) u v = form A (shearPoint Sy Sz u) (shearPoint Sy Sz v) := by
  unfold adjust shearPoint
  split_ifs
  · exact form_shear A Sy Sz u v
  · rfl

/-- Rigid motions of the nodes are rigid motions of the shear centres. -/
theorem shear_rigid (L Sy Sz : K) (t r : Fin 3 → K) :
    ∃ t', ∀ k, 1 ≤ k → k ≤ 12 → shearPoint Sy Sz (rigid L t r) k = rigid L t' r k := by
  unfold shearPoint
  split_ifs
  · refine ⟨![t 0, t 1 - r 0 * Sz, t 2 + r 0 * Sy], fun k h1 h2 => ?_⟩
    interval_cases k <;> simp [centred, rigid] <;> ring
  · exact ⟨t, fun _ _ _ => rfl⟩

/-- The energy of the beam: elongation, twist, and for each plane uniform bending and bending with shear. -/
theorem C40_energy (L EA GIt EIy EIz Aly Alz Sy Sz : K) (hL : 0 < L) (hy : 0 ≤ Aly) (hz : 0 ≤ Alz) (a b : Nat → K) :
    form (stiffness L EA GIt EIy EIz Aly Alz Sy Sz) a b =
      let u := shearPoint Sy Sz a
      let v := shearPoint Sy Sz b
      EA / L * ((u 7 - u 1) * (v 7 - v 1)) + GIt / L * ((u 10 - u 4) * (v 10 - v 4))
      + EIy / L * ((u 12 - u 6) * (v 12 - v 6))
      + 3 * EIy / (L * (1 + Aly)) * ((u 6 + u 12 - 2 * ((u 8 - u 2) / L)) * (v 6 + v 12 - 2 * ((v 8 - v 2) / L)))
      + EIz / L * ((u 11 - u 5) * (v 11 - v 5))
      + 3 * EIz / (L * (1 + Alz)) * ((u 5 + u 11 + 2 * ((u 9 - u 3) / L)) * (v 5 + v 11 + 2 * ((v 9 - v 3) / L))) := by
  unfold stiffness
  rw [form_adjust, form_stiff L EA GIt EIy EIz Aly Alz hL.ne' (by positivity) (by positivity)]

/-- C40: the stiffness matrix is symmetric. -/
theorem C40_symmetric (L EA GIt EIy EIz Aly Alz Sy Sz : K) (hL : 0 < L) (hy : 0 ≤ Aly) (hz : 0 ≤ Alz) (u v : Nat → K) :
    form (stiffness L EA GIt EIy EIz Aly Alz Sy Sz) u v = form (stiffness L EA GIt EIy EIz Aly Alz Sy Sz) v u := by
  rw [C40_energy _ _ _ _ _ _ _ _ _ hL hy hz, C40_energy _ _ _ _ _ _ _ _ _ hL hy hz]
  simp only []
  ring

/-- C40: a rigid-body motion gives no forces. -/
theorem C40_rigid (L EA GIt EIy EIz Aly Alz Sy Sz : K) (hL : 0 < L) (hy : 0 ≤ Aly) (hz : 0 ≤ Alz)
    (t r : Fin 3 → K) (v : Nat → K) :
    form (stiffness L EA GIt EIy EIz Aly Alz Sy Sz) v (rigid L t r) = 0 := by
  rw [C40_energy _ _ _ _ _ _ _ _ _ hL hy hz]
  obtain ⟨t', h⟩ := shear_rigid L Sy Sz t r
  simp only [h 1 (by norm_num) (by norm_num), h 2 (by norm_num) (by norm_num), h 3 (by norm_num) (by norm_num),
    h 4 (by norm_num) (by norm_num), h 5 (by norm_num) (by norm_num), h 6 (by norm_num) (by norm_num),
    h 7 (by norm_num) (by norm_num), h 8 (by norm_num) (by norm_num), h 9 (by norm_num) (by norm_num),
    h 10 (by norm_num) (by norm_num), h 11 (by norm_num) (by norm_num), h 12 (by norm_num) (by norm_num), rigid]
  have := hL.ne'
  field_simp
  ring

/-- C40: the energy is not negative. -/
theorem C40_nonneg (L EA GIt EIy EIz Aly Alz Sy Sz : K) (hL : 0 < L) (hy : 0 ≤ Aly) (hz : 0 ≤ Alz)
    (hEA : 0 ≤ EA) (hGI : 0 ≤ GIt) (hEy : 0 ≤ EIy) (hEz : 0 ≤ EIz) (u : Nat → K) :
    0 ≤ form (stiffness L EA GIt EIy EIz Aly Alz Sy Sz) u u := by
  rw [C40_energy _ _ _ _ _ _ _ _ _ hL hy hz]
  simp only [← sq]
  positivity

/-- C40: only rigid-body motions have no energy. -/
theorem C40_null (L EA GIt EIy EIz Aly Alz Sy Sz : K) (hL : 0 < L) (hy : 0 ≤ Aly) (hz : 0 ≤ Alz)
    (hEA : 0 < EA) (hGI : 0 < GIt) (hEy : 0 < EIy) (hEz : 0 < EIz) (u : Nat → K) :
    form (stiffness L EA GIt EIy EIz Aly Alz Sy Sz) u u = 0 ↔
      ∃ t r, ∀ k, 1 ≤ k → k ≤ 12 → u k = rigid L t r k := by
  constructor
  · intro h
    rw [C40_energy _ _ _ _ _ _ _ _ _ hL hy hz] at h
    simp only [← sq] at h
    generalize hw : shearPoint Sy Sz u = w at h
    have p1 : 0 < EA / L := by positivity
    have p2 : 0 < GIt / L := by positivity
    have p3 : 0 < EIy / L := by positivity
    have p4 : 0 < 3 * EIy / (L * (1 + Aly)) := by positivity
    have p5 : 0 < EIz / L := by positivity
    have p6 : 0 < 3 * EIz / (L * (1 + Alz)) := by positivity
    have q1 := mul_nonneg p1.le (sq_nonneg (w 7 - w 1))
    have q2 := mul_nonneg p2.le (sq_nonneg (w 10 - w 4))
    have q3 := mul_nonneg p3.le (sq_nonneg (w 12 - w 6))
    have q4 := mul_nonneg p4.le (sq_nonneg (w 6 + w 12 - 2 * ((w 8 - w 2) / L)))
    have q5 := mul_nonneg p5.le (sq_nonneg (w 11 - w 5))
    have q6 := mul_nonneg p6.le (sq_nonneg (w 5 + w 11 + 2 * ((w 9 - w 3) / L)))
    have key : ∀ {c x : K}, 0 < c → c * x ^ 2 = 0 → x = 0 := by
      intro c x hc hx
      rcases mul_eq_zero.mp hx with h | h
      · exact absurd h hc.ne'
      · exact pow_eq_zero_iff (two_ne_zero) |>.mp h
    have six : ∀ {a b c d e f : K}, 0 ≤ a → 0 ≤ b → 0 ≤ c → 0 ≤ d → 0 ≤ e → 0 ≤ f → a + b + c + d + e + f = 0 →
        a = 0 ∧ b = 0 ∧ c = 0 ∧ d = 0 ∧ e = 0 ∧ f = 0 := by
      intro a b c d e f h1 h2 h3 h4 h5 h6 h
      refine ⟨?_, ?_, ?_, ?_, ?_, ?_⟩ <;> linarith
    obtain ⟨z1, z2, z3, z4, z5, z6⟩ := six q1 q2 q3 q4 q5 q6 h
    have e1 := key p1 z1
    have e2 := key p2 z2
    have e3 := key p3 z3
    have e4 := key p4 z4
    have e5 := key p5 z5
    have e6 := key p6 z6
    have hLn := hL.ne'
    have e4' : w 8 = w 2 + w 6 * L := by
      have : w 12 = w 6 := by linarith
      rw [this] at e4
      field_simp at e4
      linarith
    have e6' : w 9 = w 3 - w 5 * L := by
      have : w 11 = w 5 := by linarith
      rw [this] at e6
      field_simp at e6
      linarith
    have c : ∀ k, w k = shearPoint Sy Sz u k := fun k => by rw [hw]
    have r4 : w 4 = u 4 ∧ w 10 = u 10 ∧ w 1 = u 1 ∧ w 7 = u 7 ∧ w 5 = u 5 ∧ w 6 = u 6 ∧ w 11 = u 11 ∧ w 12 = u 12
        ∧ ∃ s z, w 2 = u 2 - u 4 * z ∧ w 8 = u 8 - u 10 * z ∧ w 3 = u 3 + u 4 * s ∧ w 9 = u 9 + u 10 * s := by
      simp only [c]
      unfold shearPoint
      split_ifs
      · exact ⟨rfl, rfl, rfl, rfl, rfl, rfl, rfl, rfl, Sy, Sz, rfl, rfl, rfl, rfl⟩
      · exact ⟨rfl, rfl, rfl, rfl, rfl, rfl, rfl, rfl, 0, 0, by ring, by ring, by ring, by ring⟩
    obtain ⟨a4, a10, a1, a7, a5, a6, a11, a12, s, z, b2, b8, b3, b9⟩ := r4
    have t10 : u 10 = u 4 := by rw [← a4, ← a10]; linarith
    refine ⟨![u 1, u 2, u 3], ![u 4, u 5, u 6], fun k h1 h2 => ?_⟩
    rw [b8, b2, a6, t10] at e4'
    rw [b9, b3, a5, t10] at e6'
    interval_cases k <;> simp [rigid]
    · rw [← a1, ← a7]; linarith
    · linarith
    · linarith
    · exact t10
    · rw [← a11, ← a5]; linarith
    · rw [← a12, ← a6]; linarith
  · rintro ⟨t, r, h⟩
    have : form (stiffness L EA GIt EIy EIz Aly Alz Sy Sz) u u
        = form (stiffness L EA GIt EIy EIz Aly Alz Sy Sz) u (rigid L t r) := by
      unfold form
      refine Finset.sum_congr rfl fun i _ => ?_
      congr 1
      refine Finset.sum_congr rfl fun j hj => ?_
      rw [h (j + 1) (by omega) (by have := Finset.mem_range.mp hj; omega)]
    rw [this, C40_rigid _ _ _ _ _ _ _ _ _ hL hy hz]

/-- C72: the form of the geometric stiffness: for each plane the rotation of the chord, uniform bending and bending with
shear. -/
theorem C72_energy (N L Aly Alz ItoA Sy Sz : K) (hL : 0 < L) (hy : 0 ≤ Aly) (hz : 0 ≤ Alz) (a b : Nat → K) :
    form (geometric N L Aly Alz ItoA Sy Sz) a b =
      let u := shearPoint Sy Sz a
      let v := shearPoint Sy Sz b
      N * ItoA / L * ((u 10 - u 4) * (v 10 - v 4))
      + N * L * ((u 8 - u 2) / L * ((v 8 - v 2) / L) + (u 12 - u 6) * (v 12 - v 6) / 12
        + (u 6 + u 12 - 2 * ((u 8 - u 2) / L)) * (v 6 + v 12 - 2 * ((v 8 - v 2) / L)) / (20 * (1 + Aly) ^ 2))
      + N * L * ((u 9 - u 3) / L * ((v 9 - v 3) / L) + (u 11 - u 5) * (v 11 - v 5) / 12
        + (u 5 + u 11 + 2 * ((u 9 - u 3) / L)) * (v 5 + v 11 + 2 * ((v 9 - v 3) / L)) / (20 * (1 + Alz) ^ 2)) := by
  unfold geometric
  rw [form_adjust, form_geo N L Aly Alz ItoA hL.ne' (by positivity) (by positivity)]

/-- C72: the geometric stiffness is symmetric. -/
theorem C72_symmetric (N L Aly Alz ItoA Sy Sz : K) (hL : 0 < L) (hy : 0 ≤ Aly) (hz : 0 ≤ Alz) (u v : Nat → K) :
    form (geometric N L Aly Alz ItoA Sy Sz) u v = form (geometric N L Aly Alz ItoA Sy Sz) v u := by
  rw [C72_energy _ _ _ _ _ _ _ hL hy hz, C72_energy _ _ _ _ _ _ _ hL hy hz]
  simp only []
  ring

/-- C72: for a rigid-body motion the geometric stiffness gives the change of the axial end forces `-N` and `N` turning
with the beam: no force for a translation, and transverse forces `N` times the rotation. -/
theorem C72_rigid (N L Aly Alz ItoA Sy Sz : K) (hL : 0 < L) (hy : 0 ≤ Aly) (hz : 0 ≤ Alz)
    (t r : Fin 3 → K) (b : Nat → K) :
    form (geometric N L Aly Alz ItoA Sy Sz) b (rigid L t r) =
      let v := shearPoint Sy Sz b
      N * r 2 * (v 8 - v 2) - N * r 1 * (v 9 - v 3) := by
  rw [C72_energy _ _ _ _ _ _ _ hL hy hz]
  obtain ⟨t', h⟩ := shear_rigid L Sy Sz t r
  simp only [h 1 (by norm_num) (by norm_num), h 2 (by norm_num) (by norm_num), h 3 (by norm_num) (by norm_num),
    h 4 (by norm_num) (by norm_num), h 5 (by norm_num) (by norm_num), h 6 (by norm_num) (by norm_num),
    h 7 (by norm_num) (by norm_num), h 8 (by norm_num) (by norm_num), h 9 (by norm_num) (by norm_num),
    h 10 (by norm_num) (by norm_num), h 11 (by norm_num) (by norm_num), h 12 (by norm_num) (by norm_num), rigid]
  have := hL.ne'
  have h1 : (1 + Aly) ≠ 0 := by positivity
  have h2 : (1 + Alz) ≠ 0 := by positivity
  field_simp
  ring

/-- C72: in tension the geometric stiffness is not negative. -/
theorem C72_nonneg (N L Aly Alz ItoA Sy Sz : K) (hL : 0 < L) (hy : 0 ≤ Aly) (hz : 0 ≤ Alz)
    (hN : 0 ≤ N) (hI : 0 ≤ ItoA) (u : Nat → K) :
    0 ≤ form (geometric N L Aly Alz ItoA Sy Sz) u u := by
  rw [C72_energy _ _ _ _ _ _ _ hL hy hz]
  simp only [← sq]
  positivity

/-- A tip load `P` on a clamped beam without shear deformation gives the deflection `P L³ / (3 EI)`, here `P = 3`,
`EI = 1`, `L = 1`; the shear centre offset makes no difference without twist. -/
example : form (stiffness (1 : ℚ) 1 1 1 1 0 0 0 0)
    (fun k => if k = 8 then 1 else if k = 12 then 3 / 2 else 0)
    (fun k => if k = 8 then 1 else if k = 12 then 3 / 2 else 0) = 3 := by
  rw [C40_energy _ _ _ _ _ _ _ _ _ (by norm_num) (by norm_num) (by norm_num)]
  simp [shearPoint]
  norm_num

end Verif.Beam
