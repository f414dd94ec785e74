/-
C43: beam properties given as constant functions. C73: the second moments of area used for stiffness and inertia.
-/
import Verif.Proofs.Beam
import Mathlib.Tactic.Linarith
import Mathlib.Tactic.Positivity
import Mathlib.Tactic.NormNum
import Mathlib.Tactic.LinearCombination
import Mathlib.Algebra.Order.Ring.Rat

set_option linter.unusedSectionVars false
set_option linter.unusedSimpArgs false
set_option linter.unusedVariables false

namespace Verif.Beam

variable {X K : Type*} [Field K] [LinearOrder K] [IsStrictOrderedRing K]

/-- A property function, if given, has everywhere the value `v`. -/
def Always (f : Option (X → K)) (v : K) : Prop := ∀ g, f = some g → ∀ x, g x = v

theorem useF_always {f : Option (X → K)} {v : K} (h : Always f v) (x : X) : useF f x v = v := by
  unfold useF
  cases f with
  | none => rfl
  | some g => exact h g rfl x

theorem useIf_always {f : Option (X → K)} {v : K} (h : Always f v) (b : Bool) (x : X) : useIf f b x v = v := by
  unfold useIf
  split_ifs
  · exact useF_always h x
  · rfl

/-- The same constants without any functions. -/
def constants (p : Prop' X K) : Prop' X K := ⟨p.A, p.Ix, p.Iy, p.Iz, p.It, p.Ky, p.Kz, p.Sy, p.Sz,
  none, none, none, none, none, none, none, none, none, none, none, none, none, none, none⟩

/-- All functions given are constant and equal to what follows from the constant properties. The function for `Ix` is
used as torsional constant. -/
structure SameAsConstants (p : Prop' X K) (E G rho : K) : Prop where
  EA : Always p.EAf (E * p.A)
  EIy : Always p.EIyf (E * p.Iy)
  EIz : Always p.EIzf (E * p.Iz)
  GIt : Always p.GItf (G * p.It)
  rho : Always p.rhof (rho * p.A)
  Ax : Always p.Axf p.A
  Ay : ∀ g, p.Ayf = some g → ∀ x, 1 / g x = p.Ky / p.A
  Az : ∀ g, p.Azf = some g → ∀ x, 1 / g x = p.Kz / p.A
  Sy : Always p.Syf p.Sy
  Sz : Always p.Szf p.Sz
  Ix : Always p.Ixf p.It
  Iy : Always p.Iyf p.Iy
  Iz : Always p.Izf p.Iz
  CGy : Always p.CGyf 0
  CGz : Always p.CGzf 0

/-- C43: stiffness, mass per length and offsets are the same as for constant properties. Missing: the rotary inertia,
see `C43_inertia_partial` and `C43_inertia_violated`, and a function for `Ix` that differs from the torsional constant,
see `C43_torsion_violated`. -/
theorem C43_stiffness_partial (p : Prop' X K) (x : X) (L E G rho : K) (hasGrav hasMass : Bool)
    (h : SameAsConstants p E G rho) :
    let a := eval p x L E G rho hasGrav hasMass
    let b := eval (constants p) x L E G rho hasGrav hasMass
    a.EA = b.EA ∧ a.EIy = b.EIy ∧ a.EIz = b.EIz ∧ a.GIt = b.GIt ∧ a.Aly = b.Aly ∧ a.Alz = b.Alz ∧
    a.ItoA = b.ItoA ∧ a.Sy = b.Sy ∧ a.Sz = b.Sz ∧ a.rhoA = b.rhoA ∧ a.CGy = b.CGy ∧ a.CGz = b.CGz := by
  have hay : useF (p.Ayf.map fun f y => 1 / f y) x (p.Ky / p.A) = p.Ky / p.A := by
    refine useF_always (fun g hg y => ?_) x
    obtain ⟨f, hf, rfl⟩ := Option.map_eq_some_iff.mp hg
    exact h.Ay f hf y
  have haz : useF (p.Azf.map fun f y => 1 / f y) x (p.Kz / p.A) = p.Kz / p.A := by
    refine useF_always (fun g hg y => ?_) x
    obtain ⟨f, hf, rfl⟩ := Option.map_eq_some_iff.mp hg
    exact h.Az f hf y
  simp only [eval, constants, useF_always h.Ax, useF_always h.Iy, useF_always h.EIy, useF_always h.Iz,
    useF_always h.EIz, useF_always h.EA, useF_always h.Ix, useF_always h.GIt, useF_always h.Sy, useF_always h.Sz,
    useIf_always h.rho, useIf_always h.CGy, useIf_always h.CGz, hay, haz]
  refine ⟨rfl, rfl, rfl, rfl, rfl, rfl, rfl, rfl, rfl, ?_, ?_, ?_⟩ <;> simp [useIf, useF]

/-- C43: the rotary inertia is the same as for constant properties if no functions are given for the second moments, or if
no mass matrix is wanted. -/
theorem C43_inertia_partial (p : Prop' X K) (x : X) (L E G rho : K) (hasGrav hasMass : Bool)
    (h : hasMass = false ∨ p.Ixf = none ∧ p.Iyf = none ∧ p.Izf = none) :
    (eval p x L E G rho hasGrav hasMass).Ixx = rho * p.Ix ∧ (eval p x L E G rho hasGrav hasMass).Iyy = rho * p.Iy ∧
    (eval p x L E G rho hasGrav hasMass).Izz = rho * p.Iz := by
  rcases h with h | ⟨h1, h2, h3⟩
  · subst h; exact ⟨rfl, rfl, rfl⟩
  · simp only [eval, h1, h2, h3, useIf, useF]
    simp

/-- C43 is violated for the rotary inertia: a function that is equal to the constant `Iy` gives the inertia `Iy`
instead of `rho * Iy`. -/
theorem C43_inertia_violated (L E G rho A Ix Iy Iz It Ky Kz Sy Sz : K) (hI : Iy ≠ 0) (hr : rho ≠ 1) :
    let p : Prop' Unit K := { A, Ix, Iy, Iz, It, Ky, Kz, Sy, Sz, Iyf := some fun _ => Iy }
    SameAsConstants p E G rho ∧
    (eval p () L E G rho false true).Iyy ≠ (eval (constants p) () L E G rho false true).Iyy := by
  intro p
  constructor
  · constructor <;> intro g hg <;> simp [p] at hg
    subst hg; intro _; rfl
  · simp only [eval, constants, p, useIf, useF]
    intro h
    simp only [if_true] at h
    have : (rho - 1) * Iy = 0 := by rw [sub_mul, one_mul, ← h, sub_self]
    rcases mul_eq_zero.mp this with h | h
    · exact hr (sub_eq_zero.mp h)
    · exact hI h

/-- C43 is violated for torsion: a function that is equal to the constant `Ix` replaces the torsional constant. -/
theorem C43_torsion_violated (L E G rho A Ix Iy Iz It Ky Kz Sy Sz : K) (hI : Ix ≠ It) (hG : G ≠ 0) :
    let p : Prop' Unit K := { A, Ix, Iy, Iz, It, Ky, Kz, Sy, Sz, Ixf := some fun _ => Ix }
    (eval p () L E G rho false true).GIt ≠ (eval (constants p) () L E G rho false true).GIt := by
  intro p
  simp only [eval, constants, p, useIf, useF]
  intro h
  exact hI (mul_left_cancel₀ hG h)

/-- C43: the second form of the evaluation and the line mass agree with the first one and with the constants, except for the
rotary inertia. -/
theorem C43_short_partial (p : Prop' X K) (x : X) (E G rho : K) (h : SameAsConstants p E G rho) :
    let a := evalShort p x E G rho
    a.1 = E * p.A ∧ a.2.1 = E * p.Iy ∧ a.2.2.1 = E * p.Iz ∧ a.2.2.2.1 = G * p.It ∧ a.2.2.2.2.1 = rho * p.A ∧
    evalRho p x rho = rho * p.A ∧
    (p.Iyf = none → a.2.2.2.2.2.1 = rho * p.Iy) ∧ (p.Izf = none → a.2.2.2.2.2.2 = rho * p.Iz) := by
  simp only [evalShort, evalRho, useF_always h.Ax, useF_always h.Iy, useF_always h.EIy, useF_always h.Iz,
    useF_always h.EIz, useF_always h.EA, useF_always h.Ix, useF_always h.GIt, useF_always h.rho]
  refine ⟨trivial, trivial, trivial, trivial, trivial, trivial, fun h => ?_, fun h => ?_⟩ <;> rw [h] <;> rfl

/-- C43 is violated for the rotary inertia of the second form. -/
theorem C43_short_violated (E G rho A Ix Iy Iz It Ky Kz Sy Sz : K) (hI : Iy ≠ 0) (hr : rho ≠ 1) :
    let p : Prop' Unit K := { A, Ix, Iy, Iz, It, Ky, Kz, Sy, Sz, Iyf := some fun _ => Iy }
    (evalShort p () E G rho).2.2.2.2.2.1 ≠ (evalShort (constants p) () E G rho).2.2.2.2.2.1 := by
  intro p
  simp only [evalShort, constants, p, useF]
  intro h
  have : (rho - 1) * Iy = 0 := by rw [sub_mul, one_mul, ← h, sub_self]
  rcases mul_eq_zero.mp this with h | h
  · exact hr (sub_eq_zero.mp h)
  · exact hI h

/-- A property with constant functions. -/
example :
    let p : Prop' Unit ℚ := ⟨2, 3, 1, 2, 3, 1, 1, 0, 0, some (fun _ => 20), none, none, none, none, none,
      some (fun _ => 2), none, none, none, none, none, none, none, none⟩
    SameAsConstants p 10 4 7 := by
  intro p
  constructor <;> intro g hg <;> simp [p] at hg
  · subst hg; intro _; norm_num [p]
  · subst hg; intro _; norm_num [p]

/-! ### Second moments of area -/

/-- Pure bending in the plane of the second axis: opposite rotations about the third axis at the two ends. -/
def bendZ : Nat → K := fun k => if k = 6 then 1 else if k = 12 then -1 else 0

/-- C73: for equal second moments there is one value `I` such that bending stiffness and rotary inertia of pure bending
with curvature `2 / L` are `E I (2 / L)² L` and `rho I L / 3`. Missing: different second moments, see `C73_violated`. -/
theorem C73_partial (p : Prop' X K) (x : X) (L E G rho : K) (hL : 0 < L) (hI : p.Iy = p.Iz)
    (h1 : p.EIyf = none) (h2 : p.Iyf = none) (h4 : p.Izf = none)
    (hy : 0 ≤ (eval p x L E G rho false true).Aly) (hz : 0 ≤ (eval p x L E G rho false true).Alz) :
    let c := eval p x L E G rho false true
    ∃ I, form (symm (entry (stiffUpper L c.EA c.GIt c.EIy c.EIz c.Aly c.Alz))) bendZ bendZ = E * I * (2 / L) ^ 2 * L ∧
      form (mass 0 c.rhoA c.Ixx c.Iyy c.Izz L) bendZ bendZ - form (mass 0 c.rhoA c.Ixx 0 0 L) bendZ bendZ
        = rho * I * L / 3 := by
  intro c
  refine ⟨p.Iy, ?_, ?_⟩
  · rw [form_stiff _ _ _ _ _ _ _ hL.ne' (by positivity) (by positivity)]
    simp only [bendZ, c, eval, h1, h2, useF]
    have := hL.ne'
    norm_num
    field_simp
    ring
  · have m0 : ∀ a b c d : K, mass 0 a b c d L = symm (entry (massUpper a b c d L)) := by intros; simp [mass]
    rw [m0, m0, form_mass _ _ _ _ _ hL.ne', form_mass _ _ _ _ _ hL.ne']
    have e : c.Izz = rho * p.Iz := by simp [c, eval, h4, useIf, useF]
    rw [e, ← hI]
    unfold hermiteSlope
    simp only [bendZ]
    have := hL.ne'
    norm_num
    field_simp

/-- C73 is violated: with different second moments, the bending stiffness in the plane of the second axis is computed from
`Iy`, the rotary inertia in the same plane from `Iz`. -/
theorem C73_violated (L E G rho A Ix Iy Iz It Ky Kz Sy Sz : K) (hL : 0 < L) (hE : E ≠ 0) (hr : rho ≠ 0) (hI : Iy ≠ Iz)
    (hy : 0 ≤ (eval (X := Unit) { A, Ix, Iy, Iz, It, Ky, Kz, Sy, Sz } () L E G rho false true).Aly)
    (hz : 0 ≤ (eval (X := Unit) { A, Ix, Iy, Iz, It, Ky, Kz, Sy, Sz } () L E G rho false true).Alz) :
    let c := eval (X := Unit) { A, Ix, Iy, Iz, It, Ky, Kz, Sy, Sz } () L E G rho false true
    ¬ ∃ I, form (symm (entry (stiffUpper L c.EA c.GIt c.EIy c.EIz c.Aly c.Alz))) bendZ bendZ = E * I * (2 / L) ^ 2 * L ∧
      form (mass 0 c.rhoA c.Ixx c.Iyy c.Izz L) bendZ bendZ - form (mass 0 c.rhoA c.Ixx 0 0 L) bendZ bendZ
        = rho * I * L / 3 := by
  intro c
  rintro ⟨I, e1, e2⟩
  have hLn := hL.ne'
  have s : form (symm (entry (stiffUpper L c.EA c.GIt c.EIy c.EIz c.Aly c.Alz))) bendZ bendZ
      = E * Iy * (2 / L) ^ 2 * L := by
    rw [form_stiff _ _ _ _ _ _ _ hL.ne' (by positivity) (by positivity)]
    simp only [bendZ, c, eval, useF]
    norm_num
    field_simp
    ring
  have m : form (mass 0 c.rhoA c.Ixx c.Iyy c.Izz L) bendZ bendZ - form (mass 0 c.rhoA c.Ixx 0 0 L) bendZ bendZ
      = rho * Iz * L / 3 := by
    have m0 : ∀ a b c d : K, mass 0 a b c d L = symm (entry (massUpper a b c d L)) := by intros; simp [mass]
    rw [m0, m0, form_mass _ _ _ _ _ hL.ne', form_mass _ _ _ _ _ hL.ne']
    have e : c.Izz = rho * Iz := by simp [c, eval, useIf, useF]
    rw [e]
    unfold hermiteSlope
    simp only [bendZ]
    norm_num
    field_simp
  rw [s] at e1
  rw [m] at e2
  have i1 : Iy = I := by
    field_simp at e1
    linarith
  have i2 : Iz = I := by
    field_simp at e2
    linarith
  exact hI (i1.trans i2.symm)

/-- The hypotheses of the two theorems can be met. -/
example : 0 ≤ (eval (X := Unit) { A := (1 : ℚ), Ix := 3, Iy := 1, Iz := 2, It := 3, Ky := 1, Kz := 1, Sy := 0, Sz := 0 }
    () 2 10 4 7 false true).Aly := by
  norm_num [eval, useF]

end Verif.Beam
