/-
Property C97: thermal strains.
-/
import Verif.Model.Thermal
import Verif.Props.LinIsotropic

set_option linter.unusedSectionVars false
set_option linter.unusedSimpArgs false
set_option linter.unusedVariables false

namespace Verif.Thermal

open Verif.LinIso Verif.Spec

variable {K : Type*} [Field K] [LinearOrder K] [IsStrictOrderedRing K]

/-- **C97**: the thermal strain is the expansion coefficient at the temperature of the point times the difference to the initial temperature there (zero if there is none), and zero without a
temperature field. -/
theorem C97_strain (h : Heat K) (X : Pt K) :
    (h.temp = none → getThermalStrain h X = 0) ∧
    (∀ T, h.temp = some T → h.temp0 = none → h.Afunc = none → getThermalStrain h X = h.alpha * T X) ∧
    (∀ T T0, h.temp = some T → h.temp0 = some T0 → h.Afunc = none → getThermalStrain h X = h.alpha * (T X - T0 X)) ∧
    (∀ T T0 a, h.temp = some T → h.temp0 = some T0 → h.Afunc = some a → getThermalStrain h X = a (T X) * (T X - T0 X)) := by
  refine ⟨?_, ?_, ?_, ?_⟩
  · intro h1; simp [getThermalStrain, h1]
  · intro T h1 h2 h3; simp [getThermalStrain, h1, h2, h3, getThermalExpansion]
  · intro T T0 h1 h2 h3; simp [getThermalStrain, h1, h2, h3, getThermalExpansion]
  · intro T T0 a h1 h2 h3; simp [getThermalStrain, h1, h2, h3, getThermalExpansion]

/-- The last element with content among those with a tag. -/
def lastOf {F : Type*} (tag : String) (l : List (String × Option F)) : Option F := (l.filterMap fun e => if e.1 = tag then e.2 else none).getLast?

/-- **C97**: the temperature and the initial temperature are those of the last elements with content. -/
theorem C97_parse (h : Heat K) (l : List (String × Option (Pt K → K))) :
    (l.foldl (fun h e => parse h e.1 e.2) h).temp = (lastOf "temperature" l).or h.temp ∧
    (l.foldl (fun h e => parse h e.1 e.2) h).temp0 = (lastOf "initialtemperature" l).or h.temp0 ∧
    (l.foldl (fun h e => parse h e.1 e.2) h).alpha = h.alpha ∧ (l.foldl (fun h e => parse h e.1 e.2) h).Afunc = h.Afunc := by
  induction l using List.reverseRecOn with
  | nil => simp [lastOf]
  | append_singleton l e ih =>
    obtain ⟨t, v⟩ := e
    rw [List.foldl_append, List.foldl_cons, List.foldl_nil]
    obtain ⟨i1, i2, i3, i4⟩ := ih
    generalize l.foldl (fun h e => parse h e.1 e.2) h = g at i1 i2 i3 i4 ⊢
    by_cases h1 : t = "initialtemperature"
    · subst h1
      cases v <;> simp [parse, lastOf, List.filterMap_append] <;> simp [lastOf] at i1 i2 <;> simp [i1, i2, i3, i4]
    · by_cases h2 : t = "temperature"
      · subst h2
        cases v <;> simp [parse, lastOf, List.filterMap_append] <;> simp [lastOf] at i1 i2 <;> simp [i1, i2, i3, i4]
      · simp [parse, lastOf, List.filterMap_append, h1, h2]
        simp [lastOf] at i1 i2
        simp [i1, i2, i3, i4]

/-! ### Stress recovery -/

theorem recover_eq (m : Mat K) (h : Heat K) (nsd : Nat) (fe : FE K) (X : Pt K) (eps : Nat → K) (s : Nat → K)
    (hs : sigOf (evaluate m nsd (sigSize m nsd) fe X (subDiag nsd m.axiSymmetry eps (getThermalStrain h X)) 1) = some s) :
    recover m h nsd fe X eps = .ok (if nsd = 2 ∧ m.planeStress = false then fun i => if i = 3 then s 3 - getStiffness m X 0 * getThermalStrain h X else s i else s) := by
  have he : (if getThermalStrain h X ≠ 0 then subDiag nsd m.axiSymmetry eps (getThermalStrain h X) else eps) = subDiag nsd m.axiSymmetry eps (getThermalStrain h X) := by
    split_ifs with hz
    · rfl
    · push Not at hz
      funext i; simp [subDiag, hz]
  unfold recover
  simp only [he]
  unfold sigOf at hs
  revert hs
  cases (evaluate m nsd (sigSize m nsd) fe X (subDiag nsd m.axiSymmetry eps (getThermalStrain h X)) 1).2 with
  | fail => simp
  | ub => simp
  | ok o =>
    intro hs
    simp only at hs ⊢
    rw [hs]
    simp only
    by_cases hz : getThermalStrain h X = 0
    · rw [if_neg (by simp [hz])]
      split_ifs
      · congr 1; funext i; by_cases hi : i = 3 <;> simp [hi, hz]
      · rfl
    · simp only [ne_eq, hz, not_false_eq_true, true_and]

/-- **C97, three dimensions**: the stress is Hooke's law for the strain minus the thermal strain in each direction. -/
theorem C97_stress_3d (m : Mat K) (h : Heat K) (fe : FE K) (X : Pt K) (eps : Nat → K) (hnu : Admissible m X) :
    ∃ lam mu s, (lame m fe X).2 = .ok (lam, mu) ∧ recover m h 3 fe X eps = .ok s ∧
      stress (s 1) (s 2) (s 3) (s 4) (s 5) (s 6) = hooke lam mu (strain (eps 1) (eps 2) (eps 3) (eps 4) (eps 5) (eps 6) - getThermalStrain h X • 1) := by
  obtain ⟨lam, mu, s, h1, h2, h3⟩ := C04_hooke_3d m fe X (sigSize m 3) (subDiag 3 m.axiSymmetry eps (getThermalStrain h X)) 1 (by decide) hnu
  refine ⟨lam, mu, s, h1, ?_, ?_⟩
  · rw [recover_eq m h 3 fe X eps s h2, if_neg (by simp)]
  · rw [h3]
    congr 1
    ext i j; fin_cases i <;> fin_cases j <;> simp [strain, subDiag, nDiag]

/-- **C97, axial symmetry**: the same with the hoop strain in the third direction, for a material which is not set to plane strain. -/
theorem C97_stress_axi (m : Mat K) (h : Heat K) (fe : FE K) (X : Pt K) (eps : Nat → K) (hnu : Admissible m X) (hax : m.axiSymmetry = true) (hp : m.planeStress = true) :
    ∃ lam mu s, (lame m fe X).2 = .ok (lam, mu) ∧ recover m h 2 fe X eps = .ok s ∧
      stress (s 1) (s 2) (s 3) (s 4) 0 0 = hooke lam mu (strain (eps 1) (eps 2) (eps 3) (eps 4) 0 0 - getThermalStrain h X • 1) := by
  obtain ⟨lam, mu, s, h1, h2, h3⟩ := C04_hooke_axi m fe X (sigSize m 2) (subDiag 2 m.axiSymmetry eps (getThermalStrain h X)) 1 (by decide) hnu hax
  refine ⟨lam, mu, s, h1, ?_, ?_⟩
  · rw [recover_eq m h 2 fe X eps s h2, if_neg (by simp [hp])]
  · rw [h3]
    congr 1
    ext i j; fin_cases i <;> fin_cases j <;> simp [strain, subDiag, nDiag, hax]

/-- **C97** does not hold in axial symmetry for a material set to plane strain: the thermal stress is subtracted once more from the hoop stress. -/
theorem C97_stress_axi_violated (m : Mat K) (h : Heat K) (fe : FE K) (X : Pt K) (eps : Nat → K) (hnu : Admissible m X) (hax : m.axiSymmetry = true) (hp : m.planeStress = false) :
    ∃ lam mu s, (lame m fe X).2 = .ok (lam, mu) ∧ recover m h 2 fe X eps = .ok s ∧
      stress (s 1) (s 2) (s 3 + getStiffness m X 0 * getThermalStrain h X) (s 4) 0 0 = hooke lam mu (strain (eps 1) (eps 2) (eps 3) (eps 4) 0 0 - getThermalStrain h X • 1) := by
  obtain ⟨lam, mu, s, h1, h2, h3⟩ := C04_hooke_axi m fe X (sigSize m 2) (subDiag 2 m.axiSymmetry eps (getThermalStrain h X)) 1 (by decide) hnu hax
  refine ⟨lam, mu, _, h1, recover_eq m h 2 fe X eps s h2, ?_⟩
  rw [if_pos ⟨rfl, hp⟩]
  simp only [show (1 : Nat) ≠ 3 by decide, show (2 : Nat) ≠ 3 by decide, show (4 : Nat) ≠ 3 by decide, if_true, if_false, sub_add_cancel]
  rw [h3]
  congr 1
  ext i j; fin_cases i <;> fin_cases j <;> simp [strain, subDiag, nDiag, hax]

/-- **C97, plane stress**: the in-plane stresses are those of the state without transverse stress. -/
theorem C97_stress_plane_stress (m : Mat K) (h : Heat K) (fe : FE K) (X : Pt K) (eps : Nat → K) (hE : m.young fe X ≠ 0) (hnu : Admissible m X) (hax : m.axiSymmetry = false)
    (hp : m.planeStress = true) :
    ∃ lam mu s ezz, (lame m fe X).2 = .ok (lam, mu) ∧ recover m h 2 fe X eps = .ok s ∧
      stress (s 1) (s 2) 0 (s 3) 0 0 = hooke lam mu (strain (eps 1) (eps 2) ezz (eps 3) 0 0 - getThermalStrain h X • 1) := by
  have hsz : sigSize m 2 = 3 := by simp [sigSize, hax, hp]
  obtain ⟨lam, mu, s, h1, h2, ezz, h3, -⟩ := C04_hooke_plane_stress m fe X (sigSize m 2) hsz (subDiag 2 m.axiSymmetry eps (getThermalStrain h X)) 1 hE (by decide) hnu hax hp
  refine ⟨lam, mu, s, ezz + getThermalStrain h X, h1, ?_, ?_⟩
  · rw [recover_eq m h 2 fe X eps s h2, if_neg (by simp [hp])]
  · rw [h3]
    congr 1
    ext i j; fin_cases i <;> fin_cases j <;> simp [strain, subDiag, nDiag, hax]

/-- **C97** does not hold in plane strain: as the thermal strain is not subtracted in the direction without displacement, the in-plane normal stresses miss the part `λ ε_T` and the
transverse one a part `2 ν λ ε_T`. (Only without Poisson's effect the stresses are right.) -/
theorem C97_stress_plane_strain_violated (m : Mat K) (h : Heat K) (fe : FE K) (X : Pt K) (eps : Nat → K) (hnu : Admissible m X) (hax : m.axiSymmetry = false) (hp : m.planeStress = false)
    (hE : getStiffness m X 0 = m.young fe X) :
    ∃ lam mu s, (lame m fe X).2 = .ok (lam, mu) ∧ recover m h 2 fe X eps = .ok s ∧
      stress (s 1) (s 2) (s 3) (s 4) 0 0 = hooke lam mu (strain (eps 1) (eps 2) 0 (eps 3) 0 0 - getThermalStrain h X • 1)
        + stress (lam * getThermalStrain h X) (lam * getThermalStrain h X) (2 * nuAt m X * lam * getThermalStrain h X) 0 0 0 := by
  have hsz : sigSize m 2 = 4 := by simp [sigSize, hax, hp]
  obtain ⟨lam, mu, s, h1, h2, h3⟩ := C04_hooke_plane_strain m fe X (subDiag 2 m.axiSymmetry eps (getThermalStrain h X)) 1 (by decide) hnu hax hp
  refine ⟨lam, mu, _, h1, recover_eq m h 2 fe X eps s (by rw [hsz]; exact h2), ?_⟩
  rw [if_pos ⟨rfl, hp⟩]
  simp only [show (1 : Nat) ≠ 3 by decide, show (2 : Nat) ≠ 3 by decide, show (4 : Nat) ≠ 3 by decide, if_true, if_false]
  have hl := lame_eq m fe X hnu
  rw [h1] at hl
  obtain ⟨hl1, hl2⟩ := Prod.mk.inj (Res.ok.inj hl)
  obtain ⟨a, b, c, d, e⟩ := pos_facts hnu.1 hnu.2
  have k2 : (1 : K) / 2 - nuAt m X ≠ 0 := by intro h; linarith
  have kE : getStiffness m X 0 = 2 * mu * (1 + nuAt m X) := by rw [hE, hl2]; field_simp
  have kl : lam * (1 / 2 - nuAt m X) = mu * nuAt m X := by rw [hl1, hl2]; exact div_mul_cancel₀ _ k2
  have e11 := congrFun (congrFun h3 0) 0
  have e22 := congrFun (congrFun h3 1) 1
  have e33 := congrFun (congrFun h3 2) 2
  have e12 := congrFun (congrFun h3 0) 1
  simp [stress, hooke, strain, subDiag, nDiag, hax, Matrix.trace, Fin.sum_univ_succ] at e11 e22 e33 e12
  rw [e11, e22, e33, e12, kE]
  clear e11 e22 e33 e12 h3 hl hl1 hl2 kE
  generalize getThermalStrain h X = t at *
  generalize nuAt m X = nu at *
  ext i j; fin_cases i <;> fin_cases j <;> simp [stress, hooke, strain, Matrix.trace, Fin.sum_univ_succ] <;> first | ring1 | linear_combination (2 * t) * kl

/-- **C97** does not hold in plane strain with a stiffness which depends on the age: the transverse stress is corrected with the stiffness at age zero. -/
theorem C97_age_violated : ∃ (m : Mat ℚ) (fe : FE ℚ), m.young fe ⟨0, 0, 0⟩ = 2 ∧ getStiffness m ⟨0, 0, 0⟩ 0 = 1 ∧
    ∃ s, recover m { temp := some fun _ => 1, alpha := 1 } 2 fe ⟨0, 0, 0⟩ (fun i => if i ≤ 2 then 1 else 0) = .ok s ∧ s 3 = -1 := by
  refine ⟨{ Eaging := some fun a => 1 + a, Emod := 7, nu := 0 }, ⟨0, 0, 1⟩, by norm_num [Mat.young], by norm_num [getStiffness], ?_⟩
  obtain ⟨lam, mu, s, -, h2, h3⟩ := C04_hooke_plane_strain ({ Eaging := some fun a => 1 + a, Emod := 7, nu := 0 } : Mat ℚ) ⟨0, 0, 1⟩ ⟨0, 0, 0⟩
    (subDiag 2 false (fun i => if i ≤ 2 then 1 else 0) (getThermalStrain { temp := some fun _ => 1, alpha := 1 } ⟨0, 0, 0⟩)) 1 (by decide) (by norm_num [Admissible, nuAt]) rfl rfl
  refine ⟨_, recover_eq _ _ 2 _ _ _ s h2, ?_⟩
  have e33 := congrFun (congrFun h3 2) 2
  simp [stress, hooke, strain, subDiag, nDiag, Matrix.trace, Fin.sum_univ_succ, getThermalStrain, getThermalExpansion] at e33
  simp [e33, getStiffness, getThermalStrain, getThermalExpansion]

/-- **C97, one dimension**. -/
theorem C97_stress_1d (m : Mat K) (h : Heat K) (fe : FE K) (X : Pt K) (eps : Nat → K) :
    ∃ s, recover m h 1 fe X eps = .ok s ∧ s 1 = m.young fe X * (eps 1 - getThermalStrain h X) := by
  refine ⟨_, recover_eq m h 1 fe X eps _ (by simp [sigOf, evaluate, DMat.set, DMat.zero]; rfl), ?_⟩
  simp [subDiag, nDiag, mul_comm]

/-! ### Loads -/

theorem mulVec_smul (C : DMat K) (x : Nat → K) (w : K) (i : Nat) : mulVec C (fun j => x j * w) i = mulVec C x i * w := by
  simp only [mulVec, Finset.sum_mul]
  exact Finset.sum_congr rfl fun j _ => by ring

theorem diag_smul (nsd : Nat) (axi : Bool) (e w : K) : diag nsd axi (e * w) = fun j => diag nsd axi e j * w := by
  funext j; simp [diag]

/-- **C97**: the load vector receives, for the active load vector and with a temperature, the integral of `Bᵀ C` times the thermal strain in each direction; otherwise nothing. -/
theorem C97_load (h : Heat K) (es : Int) (b : Nat → K) (B : Nat → Nat → K) (C : DMat K) (nsd : Nat) (axi : Bool) (X : Pt K) (w : K) :
    (es ≤ 0 ∨ h.temp = none → formInitStrainForces h es b B C nsd axi X w = .ok b) ∧
    (0 < es → h.temp ≠ none → C.nc = nst nsd axi → ∃ b', formInitStrainForces h es b B C nsd axi X w = .ok b' ∧
      ∀ d, b' d = b d + w * ∑ i ∈ Finset.range C.nr, B (i + 1) d * ∑ j ∈ Finset.range C.nc, C.e (i + 1) (j + 1) * (if j + 1 ≤ nDiag nsd axi then getThermalStrain h X else 0)) := by
  constructor
  · intro h1
    unfold formInitStrainForces
    rw [if_pos (by rcases h1 with h1 | h1 <;> simp [h1])]
  · intro h1 h2 h3
    have h4 : ¬ (es ≤ 0 ∨ h.temp.isNone = true) := by
      rintro (h | h)
      · omega
      · exact h2 (by simpa using h)
    have e : formInitStrainForces h es b B C nsd axi X w
        = .ok fun d => b d + ∑ i ∈ Finset.range C.nr, B (i + 1) d * mulVec C (diag nsd axi (getThermalStrain h X * w)) (i + 1) := by
      unfold formInitStrainForces
      rw [if_neg h4, if_neg (by simpa using h3)]
    refine ⟨_, e, ?_⟩
    · intro d
      simp only [diag_smul, mulVec_smul]
      rw [Finset.mul_sum]
      congr 1
      refine Finset.sum_congr rfl fun i _ => ?_
      simp only [mulVec, diag]
      have : ∀ j, (1 ≤ j + 1 ∧ j + 1 ≤ nDiag nsd axi) ↔ j + 1 ≤ nDiag nsd axi := fun j => by omega
      simp only [this]
      ring

/-- **C97**: together with the internal forces, the load of the temperature gives the resultant of the stresses of strain minus thermal strain. -/
theorem C97_residual (h : Heat K) (es : Int) (b : Nat → K) (B : Nat → Nat → K) (C : DMat K) (nsd : Nat) (axi : Bool) (X : Pt K) (w : K) (eps : Nat → K)
    (h1 : 0 < es) (h2 : h.temp ≠ none) (h3 : C.nc = nst nsd axi) :
    ∃ b', formInitStrainForces h es (internalForces b B C.nr (mulVec C eps) w) B C nsd axi X w = .ok b' ∧
      ∀ d, b' d = b d - w * ∑ i ∈ Finset.range C.nr, B (i + 1) d * mulVec C (subDiag nsd axi eps (getThermalStrain h X)) (i + 1) := by
  obtain ⟨b', hb, hd⟩ := (C97_load h es (internalForces b B C.nr (mulVec C eps) w) B C nsd axi X w).2 h1 h2 h3
  refine ⟨b', hb, fun d => ?_⟩
  rw [hd d]
  have e1 : ∀ i, mulVec C (subDiag nsd axi eps (getThermalStrain h X)) (i + 1) = mulVec C eps (i + 1)
      - ∑ j ∈ Finset.range C.nc, C.e (i + 1) (j + 1) * (if j + 1 ≤ nDiag nsd axi then getThermalStrain h X else 0) := by
    intro i
    simp only [mulVec, ← Finset.sum_sub_distrib]
    refine Finset.sum_congr rfl fun j _ => ?_
    simp only [subDiag]
    by_cases hj : j + 1 ≤ nDiag nsd axi
    · simp [hj]; ring
    · simp [hj]
  simp only [e1, internalForces, mul_sub, Finset.sum_sub_distrib]
  have e2 : ∑ i ∈ Finset.range C.nr, B (i + 1) d * (mulVec C eps (i + 1) * -w) = -(w * ∑ i ∈ Finset.range C.nr, B (i + 1) d * mulVec C eps (i + 1)) := by
    rw [Finset.mul_sum, ← Finset.sum_neg_distrib]
    exact Finset.sum_congr rfl fun i _ => by ring
  rw [e2]
  ring

theorem elmLoad_snoc (h : Heat K) (es : Int) (nsd : Nat) (axi : Bool) (ps : List (GP K)) (p : GP K) :
    elmLoad h es nsd axi (ps ++ [p]) = (elmLoad h es nsd axi ps).bind fun b => formInitStrainForces h es b p.B p.C nsd axi p.X p.w := by
  simp [elmLoad, List.foldl_append]

theorem elmStiffness_snoc (ps : List (GP K)) (p : GP K) : elmStiffness (ps ++ [p]) = addStiffness (elmStiffness ps) p.B p.C p.w := by
  simp [elmStiffness, List.foldl_append]

/-- **C97**: a displacement whose strains are the thermal strains, in all integration points of an element, is in equilibrium with the load of the temperature: the free thermal expansion
is a solution of the element equations. -/
theorem C97_free (h : Heat K) (es : Int) (nsd : Nat) (axi : Bool) (ps : List (GP K)) (nd : Nat) (u : Nat → K) (h1 : 0 < es) (h2 : h.temp ≠ none)
    (hC : ∀ p ∈ ps, p.C.nc = nst nsd axi)
    (hu : ∀ p ∈ ps, ∀ j, 1 ≤ j → j ≤ p.C.nc → ∑ f ∈ Finset.range nd, p.B j f * u f = if j ≤ nDiag nsd axi then getThermalStrain h p.X else 0) :
    ∃ b, elmLoad h es nsd axi ps = .ok b ∧ ∀ d, b d = ∑ f ∈ Finset.range nd, elmStiffness ps d f * u f := by
  induction ps using List.reverseRecOn with
  | nil => exact ⟨_, rfl, fun d => by simp [elmStiffness]⟩
  | append_singleton ps p ih =>
    obtain ⟨b, hb, hd⟩ := ih (fun q hq => hC q (by simp [hq])) (fun q hq => hu q (by simp [hq]))
    obtain ⟨b', hb', hd'⟩ := (C97_load h es b p.B p.C nsd axi p.X p.w).2 h1 h2 (hC p (by simp))
    refine ⟨b', by rw [elmLoad_snoc, hb]; exact hb', fun d => ?_⟩
    rw [hd' d, hd d, elmStiffness_snoc]
    simp only [addStiffness, add_mul, Finset.sum_add_distrib]
    congr 1
    have hp := hu p (by simp)
    calc p.w * ∑ i ∈ Finset.range p.C.nr, p.B (i + 1) d * ∑ j ∈ Finset.range p.C.nc, p.C.e (i + 1) (j + 1) * (if j + 1 ≤ nDiag nsd axi then getThermalStrain h p.X else 0)
        = ∑ i ∈ Finset.range p.C.nr, ∑ j ∈ Finset.range p.C.nc, ∑ f ∈ Finset.range nd, p.w * (p.B (i + 1) d * (p.C.e (i + 1) (j + 1) * (p.B (j + 1) f * u f))) := by
          rw [Finset.mul_sum]
          refine Finset.sum_congr rfl fun i _ => ?_
          rw [Finset.mul_sum, Finset.mul_sum]
          refine Finset.sum_congr rfl fun j hj => ?_
          rw [← hp (j + 1) (by omega) (by have := Finset.mem_range.1 hj; omega), Finset.mul_sum, Finset.mul_sum, Finset.mul_sum]
      _ = ∑ f ∈ Finset.range nd, (∑ i ∈ Finset.range p.C.nr, p.B (i + 1) d * ((∑ j ∈ Finset.range p.C.nc, p.C.e (i + 1) (j + 1) * p.B (j + 1) f) * p.w)) * u f := by
          have : ∀ i, ∑ j ∈ Finset.range p.C.nc, ∑ f ∈ Finset.range nd, p.w * (p.B (i + 1) d * (p.C.e (i + 1) (j + 1) * (p.B (j + 1) f * u f)))
              = ∑ f ∈ Finset.range nd, ∑ j ∈ Finset.range p.C.nc, p.w * (p.B (i + 1) d * (p.C.e (i + 1) (j + 1) * (p.B (j + 1) f * u f))) := fun i => Finset.sum_comm
          simp only [this]
          rw [Finset.sum_comm]
          refine Finset.sum_congr rfl fun f _ => ?_
          rw [Finset.sum_mul]
          refine Finset.sum_congr rfl fun i _ => ?_
          rw [Finset.sum_mul, Finset.mul_sum, Finset.sum_mul]
          exact Finset.sum_congr rfl fun j _ => by ring

/-! ### Concrete cases -/

example : ∃ (m : Mat ℚ), Admissible m ⟨1, 0, 0⟩ ∧ m.axiSymmetry = true ∧ m.planeStress = true ∧ m.young ⟨0, 0, 0⟩ ⟨1, 0, 0⟩ ≠ 0 :=
  ⟨{ Emod := 205, nu := 3 / 10, planeStress := true, axiSymmetry := true }, by norm_num [Admissible, nuAt], rfl, rfl, by norm_num [Mat.young]⟩

/-- A plane strain state for which the stresses are wrong. -/
example : ∃ (m : Mat ℚ), Admissible m ⟨1, 0, 0⟩ ∧ m.axiSymmetry = false ∧ m.planeStress = false ∧ getStiffness m ⟨1, 0, 0⟩ 0 = m.young ⟨0, 0, 0⟩ ⟨1, 0, 0⟩ ∧
    ∃ lam mu, (lame m ⟨0, 0, 0⟩ ⟨1, 0, 0⟩).2 = .ok (lam, mu) ∧ lam * getThermalStrain ({ temp := some fun X => X.x, alpha := 1 / 100 } : Heat ℚ) ⟨1, 0, 0⟩ ≠ 0 :=
  ⟨{ Emod := 5 / 2, nu := 1 / 4 }, by norm_num [Admissible, nuAt], rfl, rfl, by norm_num [Mat.young, getStiffness], _, _,
    lame_eq _ _ _ (by norm_num [Admissible, nuAt]), by norm_num [Mat.young, nuAt, getThermalStrain, getThermalExpansion]⟩

/-- A bar element of length 2 with one point: displacements 0 and `2 ε_T`. -/
example : ∃ b, elmLoad ({ temp := some fun _ => 10, temp0 := some fun _ => 7, alpha := 1 } : Heat ℚ) 1 1 false
    [⟨fun _ f => if f = 0 then -1 / 2 else 1 / 2, ⟨1, 1, fun _ _ => 4⟩, ⟨0, 0, 0⟩, 2⟩] = .ok b ∧ b 0 = -12 ∧ b 1 = 12 := by
  refine ⟨_, rfl, ?_, ?_⟩ <;> norm_num [mulVec, diag, nDiag, getThermalStrain, getThermalExpansion]

end Verif.Thermal
