/-
C50, C81, C82, C83: section forces, surface stresses, norms and edge tractions of Kirchhoff-Love shells.
-/
import Verif.Props.Shell
import Mathlib.Analysis.SpecialFunctions.Integrals.Basic

set_option linter.unusedSectionVars false
set_option linter.unusedSimpArgs false
set_option linter.unusedVariables false
set_option linter.unnecessarySeqFocus false

namespace Verif.Shell

open Verif.Beam (V3)
open Verif.Bar (len unit cross len_sq len_pos unit_sq)
open Verif.Cable (dot)
open Verif.LinIso (FE Pt Mat Admissible nuAt)

/-! ### Section forces and surface stresses -/

theorem resultants_eq (m : Mat ℝ) (fe : FE ℝ) (X : Pt ℝ) (t : ℝ) (G : Geo) (f : Basis) (u : Nat → V3 ℝ) (ha : m.axiSymmetry = false)
    (hn : Admissible m X) (h0 : f.nen ≠ 0) :
    resultants m fe X t G f (3 * f.nen) u none = .ok
      (fun r => t * hooke (m.young fe X) (nuAt m X) m.planeStress (strainOf (formBmatrix G f).1 f.nen u) r,
       fun r => -(t ^ 3 / 12) * hooke (m.young fe X) (nuAt m X) m.planeStress (strainOf (formBmatrix G f).2 f.nen u) r) := by
  obtain ⟨D, hD, hv⟩ := formD_eq m fe X t ha hn
  unfold resultants
  rw [if_neg (by omega), if_neg (by omega)]
  simp only [hD, Res.bind, Option.map_none, Option.getD_none, (hv _).1, (hv _).2]
  congr 2
  funext r
  have : ∀ w, hooke (m.young fe X) (nuAt m X) m.planeStress (fun r => -w r) r =
      -hooke (m.young fe X) (nuAt m X) m.planeStress w r := by
    intro w
    cases m.planeStress <;> fin_cases r <;> simp [hooke] <;> ring
  have h := this (strainOf (formBmatrix G f).2 f.nen u)
  simp only [strainOf] at h ⊢
  rw [h]; ring

/-- C50: the stresses varying linearly from the bottom surface values (components 7-9 of the output) to the top surface values
(components 13-15) have the membrane forces (1-3) as resultants over the thickness, and the moments (4-6) as moments, with the sign
convention that a positive moment compresses the top surface. -/
theorem C50_equivalent (t : ℝ) (ht : 0 < t) (n m : Fin 3 → ℝ) (i : Fin 3) :
    let o := output t n m
    let sigma : ℝ → ℝ := fun z => (o.getD (6 + i) 0 + o.getD (12 + i) 0) / 2 + z / t * (o.getD (12 + i) 0 - o.getD (6 + i) 0)
    o.length = 18 ∧ o.getD i 0 = n i ∧ o.getD (3 + i) 0 = m i ∧
    sigma (-t / 2) = o.getD (6 + i) 0 ∧ sigma (t / 2) = o.getD (12 + i) 0 ∧
    (∫ z in (-t / 2)..(t / 2), sigma z) = n i ∧ (∫ z in (-t / 2)..(t / 2), -z * sigma z) = m i := by
  have h0 : ∀ a b : ℝ, (∫ z in (-t / 2)..(t / 2), ((a + b) / 2 + z / t * (b - a))) = t * ((a + b) / 2) := by
    intro a b
    rw [intervalIntegral.integral_eq_sub_of_hasDerivAt (f := fun z => (a + b) / 2 * z + z ^ 2 / (2 * t) * (b - a))]
    · field_simp; ring
    · intro x _
      have h := ((hasDerivAt_id x).const_mul ((a + b) / 2)).add ((((hasDerivAt_id x).pow 2).div_const (2 * t)).mul_const (b - a))
      refine HasDerivAt.congr_deriv h ?_
      simp only [id]; push_cast; field_simp
    · apply Continuous.intervalIntegrable; fun_prop
  have h1 : ∀ a b : ℝ, (∫ z in (-t / 2)..(t / 2), -z * ((a + b) / 2 + z / t * (b - a))) = -(t ^ 2 / 12 * (b - a)) := by
    intro a b
    rw [intervalIntegral.integral_eq_sub_of_hasDerivAt (f := fun z => -((a + b) / 4) * z ^ 2 - z ^ 3 / (3 * t) * (b - a))]
    · field_simp; ring
    · intro x _
      have h := (((hasDerivAt_id x).pow 2).const_mul (-((a + b) / 4))).sub ((((hasDerivAt_id x).pow 3).div_const (3 * t)).mul_const (b - a))
      refine HasDerivAt.congr_deriv h ?_
      simp; field_simp; ring
    · apply Continuous.intervalIntegrable; fun_prop
  intro o sigma
  have e1 : o.getD (6 + i) 0 = (n i - -1 * m i * 6 / t) / t := by fin_cases i <;> simp [o, output, surface]
  have e2 : o.getD (12 + i) 0 = (n i - 1 * m i * 6 / t) / t := by fin_cases i <;> simp [o, output, surface]
  refine ⟨by simp [o, output, surface], by fin_cases i <;> simp [o, output], by fin_cases i <;> simp [o, output], ?_, ?_, ?_, ?_⟩
  · simp only [sigma]; field_simp; ring
  · simp only [sigma]; field_simp; ring
  · simp only [sigma]; rw [h0, e1, e2]; field_simp; ring
  · simp only [sigma]; rw [h1, e1, e2]; field_simp; ring

/-- C50: the linear shell's bottom and top surface stresses follow by Hooke's law from the strains at these surfaces, the membrane
strain minus or plus half the thickness times the curvature strain. -/
theorem C50_linear (m : Mat ℝ) (fe : FE ℝ) (X : Pt ℝ) (t : ℝ) (ht : 0 < t) (G : Geo) (f : Basis) (u : Nat → V3 ℝ)
    (ha : m.axiSymmetry = false) (hn : Admissible m X) (h0 : f.nen ≠ 0) :
    ∃ n mo, resultants m fe X t G f (3 * f.nen) u none = .ok (n, mo) ∧
      ∀ i : Fin 3,
        let eps : Fin 3 → ℝ := fun r => ∑ k ∈ Finset.range f.nen, ∑ d, (formBmatrix G f).1 r k d * u k d
        let kap : Fin 3 → ℝ := fun r => ∑ k ∈ Finset.range f.nen, ∑ d, (formBmatrix G f).2 r k d * u k d
        (output t n mo).getD (6 + i) 0 = hooke (m.young fe X) (nuAt m X) m.planeStress (fun r => eps r - t / 2 * kap r) i ∧
        (output t n mo).getD (12 + i) 0 = hooke (m.young fe X) (nuAt m X) m.planeStress (fun r => eps r + t / 2 * kap r) i := by
  refine ⟨_, _, resultants_eq m fe X t G f u ha hn h0, ?_⟩
  intro i eps kap
  have he : strainOf (formBmatrix G f).1 f.nen u = eps := rfl
  have hk : strainOf (formBmatrix G f).2 f.nen u = kap := rfl
  rw [he, hk]
  have lin : ∀ c : ℝ, hooke (m.young fe X) (nuAt m X) m.planeStress (fun r => eps r + c * kap r) i =
      hooke (m.young fe X) (nuAt m X) m.planeStress eps i + c * hooke (m.young fe X) (nuAt m X) m.planeStress kap i := by
    intro c
    cases m.planeStress <;> fin_cases i <;> simp [hooke] <;> ring
  have hs : (fun r => eps r - t / 2 * kap r) = fun r => eps r + -(t / 2) * kap r := by funext r; ring
  rw [hs, lin, lin]
  generalize hooke (m.young fe X) (nuAt m X) m.planeStress eps = a
  generalize hooke (m.young fe X) (nuAt m X) m.planeStress kap = b
  constructor <;> fin_cases i <;> simp [output, surface] <;> field_simp <;> ring

example : Admissible (K := ℝ) { Emod := 12, nu := 1 / 4, planeStress := true } ⟨0, 0, 0⟩ ∧ wf.nen ≠ 0 := by
  constructor
  · constructor <;> norm_num [nuAt]
  · simp [wf]

/-- C50: the principal values and the equivalent stress on both surfaces (`k = 6` and `k = 12`) belong to the stresses given before
them. -/
theorem C50_principal (t : ℝ) (n m : Fin 3 → ℝ) (k : Nat) (hk : k = 6 ∨ k = 12) :
    let o := output t n m
    let sx := o.getD k 0; let sy := o.getD (k + 1) 0; let sxy := o.getD (k + 2) 0
    let s1 := o.getD (k + 3) 0; let s2 := o.getD (k + 4) 0; let sm := o.getD (k + 5) 0
    s2 ≤ s1 ∧ s1 + s2 = sx + sy ∧ s1 * s2 = sx * sy - sxy ^ 2 ∧ 0 ≤ sm ∧ sm ^ 2 = s1 ^ 2 - s1 * s2 + s2 ^ 2 := by
  have main : ∀ s : Fin 3 → ℝ, (principal s).2 ≤ (principal s).1 ∧ (principal s).1 + (principal s).2 = s 0 + s 1 ∧
      (principal s).1 * (principal s).2 = s 0 * s 1 - s 2 ^ 2 ∧ 0 ≤ vonMises s ∧
      vonMises s ^ 2 = (principal s).1 ^ 2 - (principal s).1 * (principal s).2 + (principal s).2 ^ 2 := by
    intro s
    have h1 := Real.sq_sqrt (show 0 ≤ ((s 0 - s 1) / 2) ^ 2 + s 2 ^ 2 by positivity)
    have h2 := Real.sqrt_nonneg (((s 0 - s 1) / 2) ^ 2 + s 2 ^ 2)
    have h3 : 0 ≤ s 0 ^ 2 + s 1 ^ 2 - s 0 * s 1 + 3 * s 2 ^ 2 := by nlinarith [sq_nonneg (s 0 - s 1), sq_nonneg (s 0), sq_nonneg (s 1)]
    have h4 := Real.sq_sqrt h3
    simp only [principal, vonMises]
    refine ⟨by linarith, by ring, by linear_combination -h1, Real.sqrt_nonneg _, by rw [h4]; linear_combination -3 * h1⟩
  rcases hk with rfl | rfl
  · simpa [output, surface] using main (fun i => (n i - -1 * m i * 6 / t) / t)
  · simpa [output, surface] using main (fun i => (n i - 1 * m i * 6 / t) / t)

/-- C50: the names of the output components. -/
theorem C50_names : (List.range 18).map getField2Name =
    ["n_xx", "n_yy", "n_xy", "m_xx", "m_yy", "m_xy",
     "Bottom sigma_x", "Bottom sigma_y", "Bottom tau_xy", "Bottom sigma_1", "Bottom sigma_2", "Bottom sigma_m",
     "Top sigma_x", "Top sigma_y", "Top tau_xy", "Top sigma_1", "Top sigma_2", "Top sigma_m"] := by
  decide +kernel

/-! ### Local systems -/

theorem resultants_local (m : Mat ℝ) (fe : FE ℝ) (X : Pt ℝ) (t : ℝ) (G : Geo) (f : Basis) (size : Nat) (u : Nat → V3 ℝ)
    (T : Nat → Nat → ℝ) (n mo : Fin 3 → ℝ) (h : resultants m fe X t G f size u none = .ok (n, mo)) :
    resultants m fe X t G f size u (some T) = .ok
      (![T 1 1 ^ 2 * n 0 + T 1 2 ^ 2 * n 1 + 2 * T 1 1 * T 1 2 * n 2, T 2 1 ^ 2 * n 0 + T 2 2 ^ 2 * n 1 + 2 * T 2 1 * T 2 2 * n 2,
         T 1 1 * T 2 1 * n 0 + T 1 2 * T 2 2 * n 1 + (T 1 1 * T 2 2 + T 1 2 * T 2 1) * n 2],
       ![T 1 1 ^ 2 * mo 0 + T 1 2 ^ 2 * mo 1 + 2 * T 1 1 * T 1 2 * mo 2, T 2 1 ^ 2 * mo 0 + T 2 2 ^ 2 * mo 1 + 2 * T 2 1 * T 2 2 * mo 2,
         T 1 1 * T 2 1 * mo 0 + T 1 2 * T 2 2 * mo 1 + (T 1 1 * T 2 2 + T 1 2 * T 2 1) * mo 2]) := by
  unfold resultants at h ⊢
  by_cases h1 : size = 0
  · rw [if_pos h1] at h; cases h
  rw [if_neg h1] at h ⊢
  by_cases h2 : size ≠ 3 * f.nen
  · rw [if_pos h2] at h; cases h
  rw [if_neg h2] at h ⊢
  cases hD : formDmatrix m fe X t false with
  | ub => rw [hD] at h; cases h
  | fail => rw [hD] at h; cases h
  | ok D =>
    rw [hD] at h
    simp only [Res.bind, Option.map_none, Option.getD_none, Res.ok.injEq, Prod.mk.injEq] at h
    simp only [Res.bind, Option.map_some, Option.getD_some, Res.ok.injEq, h.1, h.2]
    congr 1 <;> (funext i; fin_cases i <;> simp [Plate.transform, Finset.sum_range_succ] <;> ring)

/-- C81, for local systems whose first two axes have an orthonormal part in the plane of the first two directions: the invariants of
membrane forces and moments are kept. -/
theorem C81_local_partial (m : Mat ℝ) (fe : FE ℝ) (X : Pt ℝ) (t : ℝ) (G : Geo) (f : Basis) (size : Nat) (u : Nat → V3 ℝ)
    (T : Nat → Nat → ℝ) (n mo n' mo' : Fin 3 → ℝ) (h : resultants m fe X t G f size u none = .ok (n, mo))
    (h' : resultants m fe X t G f size u (some T) = .ok (n', mo'))
    (o1 : T 1 1 ^ 2 + T 1 2 ^ 2 = 1) (o2 : T 2 1 ^ 2 + T 2 2 ^ 2 = 1) (o3 : T 1 1 * T 2 1 + T 1 2 * T 2 2 = 0) :
    n' 0 + n' 1 = n 0 + n 1 ∧ n' 0 * n' 1 - n' 2 ^ 2 = n 0 * n 1 - n 2 ^ 2 ∧
    mo' 0 + mo' 1 = mo 0 + mo 1 ∧ mo' 0 * mo' 1 - mo' 2 ^ 2 = mo 0 * mo 1 - mo 2 ^ 2 := by
  rw [resultants_local m fe X t G f size u T n mo h, Res.ok.injEq, Prod.mk.injEq] at h'
  obtain ⟨rfl, rfl⟩ := h'
  generalize T 1 1 = a at *
  generalize T 1 2 = b at *
  generalize T 2 1 = c at *
  generalize T 2 2 = d at *
  have k1 : a ^ 2 = d ^ 2 := by linear_combination -a ^ 2 * o2 + d ^ 2 * o1 + (a * c - b * d) * o3
  have c1 : a ^ 2 + c ^ 2 = 1 := by linear_combination o2 + k1
  have c2 : b ^ 2 + d ^ 2 = 1 := by linear_combination o1 - k1
  have c3 : a * b + c * d = 0 := by linear_combination -a * b * o2 - c * d * o1 + (b * c + a * d) * o3
  have dt : (a * d - b * c) ^ 2 = 1 := by linear_combination (c ^ 2 + d ^ 2) * o1 + o2 - (a * c + b * d) * o3
  have tr : ∀ w : Fin 3 → ℝ, a ^ 2 * w 0 + b ^ 2 * w 1 + 2 * a * b * w 2 + (c ^ 2 * w 0 + d ^ 2 * w 1 + 2 * c * d * w 2) = w 0 + w 1 := by
    intro w; linear_combination w 0 * c1 + w 1 * c2 + 2 * w 2 * c3
  have de : ∀ w : Fin 3 → ℝ, (a ^ 2 * w 0 + b ^ 2 * w 1 + 2 * a * b * w 2) * (c ^ 2 * w 0 + d ^ 2 * w 1 + 2 * c * d * w 2) -
      (a * c * w 0 + b * d * w 1 + (a * d + b * c) * w 2) ^ 2 = w 0 * w 1 - w 2 ^ 2 := by
    intro w; linear_combination (w 0 * w 1 - w 2 ^ 2) * dt
  exact ⟨tr n, de n, tr mo, de mo⟩

/-- The transformation matrix of the standard tangents. -/
theorem tmat_std : tmat ![1, 0, 0] ![0, 1, 0] = ![![1, 0, 0], ![0, 1, 0], ![0, 0, 2]] := by
  obtain ⟨p, q, r, hp, hr, e1, e2, n1, n2, n3, hT⟩ := axes (g1 := ![1, 0, 0]) (g2 := ![0, 1, 0]) (len_pos (by simp [cross]))
  rw [e2] at n2 n3
  simp [dot] at n1 n2 n3
  subst n3
  have hp1 : p = 1 := by nlinarith
  have hr1 : r = 1 := by nlinarith
  subst hp1; subst hr1
  rw [hT]
  simp

/-- C81 fails for shells in a cylinder: the local system for the cylindrical part of a cylinder with a hemispherical end has the axis
of the cylinder (-z) as the first direction. In every point of it and for every solution, the first membrane force and the shear
force are reported as zero, although in the tangent plane of the shell they may have any value, so that a state with the membrane
force 12 only is reported as being free of forces. -/
theorem C81_local_violated :
    (∀ (x : V3 ℝ) (hh : ℝ) (m : Mat ℝ) (fe : FE ℝ) (X : Pt ℝ) (t : ℝ) (G : Geo) (f : Basis) (size : Nat) (u : Nat → V3 ℝ)
      (n mo n' mo' : Fin 3 → ℝ), resultants m fe X t G f size u none = .ok (n, mo) →
      resultants m fe X t G f size u
        (some fun i j => LocalCS.cylinderSphere hh 1 x ⟨(i - 1) % 3, Nat.mod_lt _ (by omega)⟩ ⟨(j - 1) % 3, Nat.mod_lt _ (by omega)⟩) =
        .ok (n', mo') → n' 0 = 0 ∧ n' 2 = 0 ∧ mo' 0 = 0 ∧ mo' 2 = 0) ∧
    ∃ (m : Mat ℝ) (u : Nat → V3 ℝ) (n mo n' mo' : Fin 3 → ℝ),
      resultants m ⟨0, 0, 0⟩ ⟨0, 0, 0⟩ 1 wG wf 12 u none = .ok (n, mo) ∧
      resultants m ⟨0, 0, 0⟩ ⟨0, 0, 0⟩ 1 wG wf 12 u
        (some fun i j => LocalCS.cylinderSphere 0 1 ![1, 0, 0] ⟨(i - 1) % 3, Nat.mod_lt _ (by omega)⟩
          ⟨(j - 1) % 3, Nat.mod_lt _ (by omega)⟩) = .ok (n', mo') ∧
      n = ![12, 0, 0] ∧ n' = ![0, 0, 0] ∧ n' 0 + n' 1 ≠ n 0 + n 1 := by
  constructor
  · intro x hh m fe X t G f size u n mo n' mo' h h'
    rw [resultants_local m fe X t G f size u _ n mo h, Res.ok.injEq, Prod.mk.injEq] at h'
    obtain ⟨rfl, rfl⟩ := h'
    simp [LocalCS.cylinderSphere]
  · have hn : Admissible (K := ℝ) { Emod := 12, nu := 0, planeStress := true } ⟨0, 0, 0⟩ := by constructor <;> norm_num [nuAt]
    have e := resultants_eq { Emod := 12, nu := 0, planeStress := true } ⟨0, 0, 0⟩ ⟨0, 0, 0⟩ 1 wG wf
      (fun k => if k = 1 then ![1, 0, 0] else ![0, 0, 0]) rfl hn (by simp [wf])
    have es : ∀ r, strainOf (formBmatrix wG wf).1 wf.nen (fun k => if k = 1 then ![1, 0, 0] else ![0, 0, 0]) r = ![1, 0, 0] r := by
      intro r
      simp only [strainOf, formBmatrix]
      rw [tmul_sum]
      have hT : tmat wG.g1 wG.g2 = ![![1, 0, 0], ![0, 1, 0], ![0, 0, 2]] := tmat_std
      rw [hT]
      fin_cases r <;> simp [tmul, Fin.sum_univ_three, wf, Finset.sum_range_succ, dE, wG]
    have hs : strainOf (formBmatrix wG wf).1 wf.nen (fun k => if k = 1 then ![1, 0, 0] else ![0, 0, 0]) = ![1, 0, 0] := funext es
    rw [hs] at e
    refine ⟨{ Emod := 12, nu := 0, planeStress := true }, fun k => if k = 1 then ![1, 0, 0] else ![0, 0, 0], _, _, _, _, e,
      resultants_local _ _ _ _ _ _ _ _ _ _ _ e, ?_, ?_, ?_⟩
    · funext i; fin_cases i <;> simp [hooke, Mat.young, nuAt]
    · funext i; fin_cases i <;> simp [hooke, Mat.young, nuAt, LocalCS.cylinderSphere]
    · simp [hooke, Mat.young, nuAt, LocalCS.cylinderSphere]

example : ∃ (T : Nat → Nat → ℝ) (n mo n' mo' : Fin 3 → ℝ), T 1 1 ^ 2 + T 1 2 ^ 2 = 1 ∧ T 2 1 ^ 2 + T 2 2 ^ 2 = 1 ∧
    T 1 1 * T 2 1 + T 1 2 * T 2 2 = 0 ∧ T 1 1 = 0 ∧
    resultants { Emod := 12, nu := 0, planeStress := true } ⟨0, 0, 0⟩ ⟨0, 0, 0⟩ 1 wG wf 12 (fun _ => ![0, 0, 0]) none = .ok (n, mo) ∧
    resultants { Emod := 12, nu := 0, planeStress := true } ⟨0, 0, 0⟩ ⟨0, 0, 0⟩ 1 wG wf 12 (fun _ => ![0, 0, 0]) (some T) =
      .ok (n', mo') := by
  have hn : Admissible (K := ℝ) { Emod := 12, nu := 0, planeStress := true } ⟨0, 0, 0⟩ := by constructor <;> norm_num [nuAt]
  have e := resultants_eq { Emod := 12, nu := 0, planeStress := true } ⟨0, 0, 0⟩ ⟨0, 0, 0⟩ 1 wG wf (fun _ => ![0, 0, 0]) rfl hn
    (by simp [wf])
  exact ⟨fun i j => if i = 1 ∧ j = 2 then 1 else if i = 2 ∧ j = 1 then -1 else 0, _, _, _, _, by simp, by simp, by simp, by simp, e,
    resultants_local _ _ _ _ _ _ _ _ _ _ _ e⟩

/-! ### Norms -/

/-- Specification: the strains for given stresses, the inverse of Hooke's law. -/
noncomputable def compliance (E nu : ℝ) (planeStress : Bool) (s : Fin 3 → ℝ) : Fin 3 → ℝ :=
  if planeStress then ![(s 0 - nu * s 1) / E, (s 1 - nu * s 0) / E, 2 * (1 + nu) / E * s 2]
  else ![(1 + nu) / E * ((1 - nu) * s 0 - nu * s 1), (1 + nu) / E * ((1 - nu) * s 1 - nu * s 0), 2 * (1 + nu) / E * s 2]

theorem compliance_hooke (E nu : ℝ) (ps : Bool) (hE : E ≠ 0) (h0 : 0 ≤ nu) (h1 : nu < 1 / 2) (e : Fin 3 → ℝ) :
    compliance E nu ps (hooke E nu ps e) = e := by
  obtain ⟨p1, p2, p3, p4, p5⟩ := LinIso.pos_facts h0 h1
  have q1 := p1.ne'
  have q3 : 1 - 2 * nu ≠ 0 := by intro h; linarith
  have q4 : 1 - nu * 2 ≠ 0 := by intro h; linarith
  have q5 : 1 - nu ^ 2 ≠ 0 := by rw [pow_two]; exact p5.ne'
  funext r
  cases ps <;> fin_cases r <;> simp [compliance, hooke] <;> field_simp <;> ring

theorem formD_inv (m : Mat ℝ) (fe : FE ℝ) (X : Pt ℝ) (t : ℝ) (ht : 0 < t) (ha : m.axiSymmetry = false) (hn : Admissible m X)
    (hE : m.young fe X ≠ 0) :
    ∃ D, formDmatrix m fe X t true = .ok D ∧
      ∀ v, dmul D.1 v = (fun r => 1 / t * compliance (m.young fe X) (nuAt m X) m.planeStress v r) ∧
        dmul D.2 v = (fun r => 12 / t ^ 3 * compliance (m.young fe X) (nuAt m X) m.planeStress v r) := by
  obtain ⟨C, hC, h1, h2, h3⟩ := LinIso.cmat_2d (m.young fe X) (nuAt m X) m.planeStress true
  obtain ⟨o, ho, hoC, -⟩ := LinIso.evaluate_eq m 2 3 (Or.inl rfl) fe X (fun _ => 0) (-1) hn (C := C) (by rw [ha]; exact hC)
  refine ⟨(⟨C.nr, C.nc, fun i j => C.e i j * (1 / t)⟩, ⟨C.nr, C.nc, fun i j => C.e i j * (1 / (t * t * t / 12))⟩), ?_, ?_⟩
  · unfold formDmatrix
    simp only [if_true, ho, Res.bind, hoC]
  · intro v
    have e : ∀ i j : Fin 3, C.e (i.val + 1) (j.val + 1) = C.toM 3 3 i j := fun i j => rfl
    rw [h3] at e
    obtain ⟨p1, p2, p3, p4, p5⟩ := LinIso.pos_facts hn.1 hn.2
    have p4' : 2 + nuAt m X + nuAt m X ≠ 0 := p4.ne'
    constructor
    · funext r
      simp only [dmul, e, Fin.sum_univ_three, compliance, LinIso.dirA, LinIso.dirB, LinIso.shG]
      cases m.planeStress <;> fin_cases r <;> simp <;> field_simp <;> ring
    · funext r
      simp only [dmul, e, Fin.sum_univ_three, compliance, LinIso.dirA, LinIso.dirB, LinIso.shG]
      cases m.planeStress <;> fin_cases r <;> simp <;> field_simp <;> ring

/-- C82: the first norm is what the stiffness matrix gives for the displacements, i.e. twice the strain energy; the second is the work
of the pressure. -/
theorem C82_energy (m : Mat ℝ) (fe : FE ℝ) (X : Pt ℝ) (t dJW : ℝ) (ht : 0 < t) (G : Geo) (f : Basis) (u : Nat → V3 ℝ) (p uh : V3 ℝ)
    (proj : List ((Fin 3 → ℝ) × (Fin 3 → ℝ))) (ha : m.axiSymmetry = false) (hn : Admissible m X) (hE : m.young fe X ≠ 0)
    (h0 : f.nen ≠ 0) :
    ∃ k l, evalK m fe X t dJW G f = .ok k ∧ norms m fe X t dJW G f (3 * f.nen) u p uh proj = .ok l ∧
      l.length = 2 + 6 * proj.length ∧
      l.getD 0 0 = (∑ a ∈ Finset.range f.nen, ∑ d, ∑ b ∈ Finset.range f.nen, ∑ e, u a d * k a d b e * u b e) ∧
      l.getD 1 0 = (p 0 * uh 0 + p 1 * uh 1 + p 2 * uh 2) * dJW := by
  obtain ⟨k, hk, -, hq⟩ := C48_energy m fe X t dJW G f ha hn
  obtain ⟨D, hD, hv⟩ := formD_inv m fe X t ht ha hn hE
  have hr := resultants_eq m fe X t G f u ha hn h0
  refine ⟨k, _, hk, by unfold norms; rw [hD, hr]; rfl, ?_, ?_, ?_⟩
  · simp only [List.length_append, List.length_cons, List.length_nil, List.length_flatMap]
    simp [List.map_const', List.sum_replicate, mul_comm]
  · rw [hq u u]
    simp only [List.cons_append, List.getD_cons_zero, (hv _).1, (hv _).2]
    have c1 : ∀ (c : ℝ) (w : Fin 3 → ℝ), compliance (m.young fe X) (nuAt m X) m.planeStress (fun r => c * w r) =
        fun r => c * compliance (m.young fe X) (nuAt m X) m.planeStress w r := by
      intro c w
      funext r
      cases m.planeStress <;> fin_cases r <;> simp [compliance] <;> ring
    rw [c1, c1, compliance_hooke _ _ _ hE hn.1 hn.2, compliance_hooke _ _ _ hE hn.1 hn.2]
    simp only [dot3, Fin.sum_univ_three]
    have := ht.ne'
    field_simp
  · simp [dot]

/-- C82: the norms of each projected solution: energy norm of the projected forces and moments, energy norm of the difference to the
finite element solution (both by Hooke's law), and square sums of projected forces, moments, and of both differences. -/
theorem C82_projection (m : Mat ℝ) (fe : FE ℝ) (X : Pt ℝ) (t dJW : ℝ) (ht : 0 < t) (G : Geo) (f : Basis) (size : Nat) (u : Nat → V3 ℝ)
    (p uh : V3 ℝ) (proj : List ((Fin 3 → ℝ) × (Fin 3 → ℝ))) (ha : m.axiSymmetry = false) (hn : Admissible m X)
    (hE : m.young fe X ≠ 0) (n mo : Fin 3 → ℝ) (hr : resultants m fe X t G f size u none = .ok (n, mo)) (i : Nat)
    (r : (Fin 3 → ℝ) × (Fin 3 → ℝ)) (hi : proj[i]? = some r) :
    let S := compliance (m.young fe X) (nuAt m X) m.planeStress
    let en : (Fin 3 → ℝ) → (Fin 3 → ℝ) → ℝ := fun a b => (∑ c, a c * S a c) / t + (∑ c, b c * S b c) * 12 / t ^ 3
    ∃ l, norms m fe X t dJW G f size u p uh proj = .ok l ∧
      l.getD (2 + 6 * i) 0 = en r.1 r.2 * dJW ∧
      l.getD (2 + 6 * i + 1) 0 = en (fun c => r.1 c - n c) (fun c => r.2 c - mo c) * dJW ∧
      l.getD (2 + 6 * i + 2) 0 = (∑ c, r.1 c ^ 2) * dJW ∧ l.getD (2 + 6 * i + 3) 0 = (∑ c, r.2 c ^ 2) * dJW ∧
      l.getD (2 + 6 * i + 4) 0 = (∑ c, (r.1 c - n c) ^ 2) * dJW ∧ l.getD (2 + 6 * i + 5) 0 = (∑ c, (r.2 c - mo c) ^ 2) * dJW := by
  obtain ⟨D, hD, hv⟩ := formD_inv m fe X t ht ha hn hE
  intro S en
  refine ⟨_, by unfold norms; rw [hD, hr]; rfl, ?_⟩
  have block : ∀ (F : (Fin 3 → ℝ) × (Fin 3 → ℝ) → List ℝ) (hF : ∀ r, (F r).length = 6) (q : List ((Fin 3 → ℝ) × (Fin 3 → ℝ))) (i : Nat) (r)
      (hi : q[i]? = some r) (j : Nat) (hj : j < 6), (q.flatMap F).getD (6 * i + j) 0 = (F r).getD j 0 := by
    intro F hF q
    induction q with
    | nil => intro i r hi; simp at hi
    | cons b q ih =>
      intro i r hi j hj
      cases i with
      | zero =>
        simp at hi
        subst hi
        simp only [List.flatMap_cons, Nat.mul_zero, Nat.zero_add, List.getD_eq_getElem?_getD]
        rw [List.getElem?_append_left (by rw [hF]; exact hj)]
      | succ i =>
        simp only [List.getElem?_cons_succ] at hi
        rw [← ih i r hi j hj]
        simp only [List.flatMap_cons, List.getD_eq_getElem?_getD]
        rw [List.getElem?_append_right (by rw [hF]; omega), hF]
        congr 2; omega
  have go : ∀ (a b : ℝ) (q : List ℝ) (j : Nat), ([a, b] ++ q).getD (2 + 6 * i + j) 0 = q.getD (6 * i + j) 0 := by
    intro a b q j
    rw [show 2 + 6 * i + j = (6 * i + j) + 1 + 1 by omega]
    rfl
  have go0 : ∀ (a b : ℝ) (q : List ℝ), ([a, b] ++ q).getD (2 + 6 * i) 0 = q.getD (6 * i + 0) 0 := fun a b q => go a b q 0
  rw [go0, go, go, go, go, go, block _ (by intro r; rfl) proj i r hi 0 (by omega), block _ (by intro r; rfl) proj i r hi 1 (by omega),
    block _ (by intro r; rfl) proj i r hi 2 (by omega), block _ (by intro r; rfl) proj i r hi 3 (by omega),
    block _ (by intro r; rfl) proj i r hi 4 (by omega), block _ (by intro r; rfl) proj i r hi 5 (by omega)]
  simp only [List.getD_cons_zero, List.getD_cons_succ, (hv _).1, (hv _).2, en, dot3, Fin.sum_univ_three]
  refine ⟨?_, ?_, ?_, ?_, ?_, ?_⟩ <;> (try simp only [S]) <;> ring

/-- C82: each norm has the name of what it contains, and the announced number of norms per group is what is computed. -/
theorem C82_names : [1, 2].map (fun j => (normName 1 j).getD "?") = ["a(u^h,u^h)^0.5", "(p,u^h)^0.5"] ∧
    (∀ i ≥ 2, [1, 2, 3, 4, 5, 6].map (fun j => (normName i j).getD "?") =
      ["a(u^r,u^r)^0.5", "a(e,e)^0.5, e=u^r-u^h", "(n^r,n^r)^0.5", "(m^r,m^r)^0.5", "(e,e)^0.5, e=n^r-n^h", "(e,e)^0.5, e=m^r-m^h"]) ∧
    (∀ e, normFields 1 e = 2) ∧ ∀ g ≥ 2, ∀ e, normFields g e = 6 := by
  refine ⟨by decide +kernel, ?_, ?_, ?_⟩
  · intro i hi
    have h0 : i ≠ 0 := by omega
    have h1 : i ≠ 1 := by omega
    have h2 : i > 1 := by omega
    simp [normName, h0, h1, h2]
  · intro e; simp [normFields]
  · intro g hg e
    have : ¬ (g = 1 ∨ g = -1) := by omega
    simp [normFields, this, show g > 0 by omega]

/-! ### Edge tractions -/

/-- C83: the nodal loads of an edge traction do the work of the traction, and add up to its resultant, which is also the reported sum of
loads. -/
theorem C83_traction (n : Nat) (N : Nat → ℝ) (T : V3 ℝ) (dJW : ℝ) (v : Nat → V3 ℝ) :
    (∑ a ∈ Finset.range n, ∑ i, (traction N T dJW).1 a i * v a i) = (∑ i, T i * ∑ a ∈ Finset.range n, N a * v a i) * dJW ∧
    (∑ a ∈ Finset.range n, N a = 1 → ∀ i, ∑ a ∈ Finset.range n, (traction N T dJW).1 a i = T i * dJW ∧
      (traction N T dJW).2 i = T i * dJW) := by
  constructor
  · simp only [traction, Fin.sum_univ_three, Finset.mul_sum, Finset.sum_mul, ← Finset.sum_add_distrib]
    refine Finset.sum_congr rfl fun k _ => ?_
    ring
  · intro h i
    refine ⟨?_, rfl⟩
    simp only [traction]
    rw [← Finset.sum_mul, ← Finset.mul_sum, h, mul_one]

example : ∑ a ∈ Finset.range 2, (fun a => if a = 0 then (1 / 4 : ℝ) else 3 / 4) a = 1 := by norm_num [Finset.sum_range_succ]

end Verif.Shell
