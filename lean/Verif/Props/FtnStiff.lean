/-
Property C90: the material stiffness routines integrate B^T D B.
-/
import Mathlib.Tactic.Ring
import Mathlib.Tactic.NormNum
import Mathlib.Tactic.FinCases
import Mathlib.Algebra.Order.Ring.Rat
import Mathlib.Algebra.BigOperators.Ring.Finset
import Verif.Model.FtnStiff

set_option linter.unusedSectionVars false
set_option linter.unusedSimpArgs false
set_option linter.unusedVariables false
set_option linter.unusedTactic false
set_option linter.unreachableTactic false

namespace Verif.FtnStiff

variable {K : Type} [CommRing K]

/-! ### Specification -/

/-- Strain-displacement matrix of a node in the plane: the strains xx, yy, zz (hoop), xy, none, none and the averaged volume strain, by component. -/
def B2 (Nr : K) (g gbar : Fin 2 → K) : Fin 7 → Fin 2 → K :=
  ![![g 0, 0], ![0, g 1], ![Nr, 0], ![g 1, g 0], ![0, 0], ![0, 0], ![gbar 0, gbar 1]]

/-- Strain-displacement matrix of a node in space: the strains xx, yy, zz, xy, yz, zx and the averaged volume strain, by component. -/
def B3 (g gbar : Fin 3 → K) : Fin 7 → Fin 3 → K :=
  ![![g 0, 0, 0], ![0, g 1, 0], ![0, 0, g 2], ![g 1, g 0, 0], ![0, g 2, g 1], ![g 2, 0, g 0], ![gbar 0, gbar 1, gbar 2]]

/-- The quadratic form with left and right strain vectors. -/
def quad {e : Nat} (D : Fin e → Fin e → K) (x y : Fin e → K) : K := ∑ p, ∑ q, x p * D p q * y q

/-- Variation of the Green-Lagrange strain xx, yy, 2 xy for unit movement of a node with gradient `g` in direction `m`. -/
def E2 (F : Fin 2 → Fin 2 → K) (g : Fin 2 → K) (m : Fin 2) : Fin 3 → K :=
  ![F m 0 * g 0, F m 1 * g 1, F m 0 * g 1 + F m 1 * g 0]

/-- Variation of the Green-Lagrange strain xx, yy, zz, 2 xy, 2 yz, 2 zx. -/
def E3 (F : Fin 3 → Fin 3 → K) (g : Fin 3 → K) (m : Fin 3) : Fin 6 → K :=
  ![F m 0 * g 0, F m 1 * g 1, F m 2 * g 2, F m 0 * g 1 + F m 1 * g 0, F m 1 * g 2 + F m 2 * g 1, F m 2 * g 0 + F m 0 * g 2]

/-- Isotropic stiffness in the plane. -/
def iso2 (C1 C2 C3 : K) : Fin 3 → Fin 3 → K := ![![C1, C2, 0], ![C2, C1, 0], ![0, 0, C3]]

/-- Isotropic stiffness in space. -/
def iso3 (C1 C2 C3 : K) : Fin 6 → Fin 6 → K :=
  ![![C1, C2, C2, 0, 0, 0], ![C2, C1, C2, 0, 0, 0], ![C2, C2, C1, 0, 0, 0], ![0, 0, 0, C3, 0, 0], ![0, 0, 0, 0, C3, 0], ![0, 0, 0, 0, 0, C3]]

theorem quad_symm {e : Nat} {D : Fin e → Fin e → K} (h : ∀ p q, D p q = D q p) (x y : Fin e → K) : quad D x y = quad D y x := by
  unfold quad
  rw [Finset.sum_comm]
  refine Finset.sum_congr rfl fun p _ => Finset.sum_congr rfl fun q _ => ?_
  rw [h q p]; ring

/-! ### accKM and accKMx -/

/-- **C90**: the plane routine adds B^T D B, with the hoop strain in axisymmetry. -/
theorem C90_plane (axi : Bool) (Nr : Nat → K) (dN : Nat → Fin 2 → K) (D : Fin 7 → Fin 7 → K) (EK : Fin 2 → Nat → Fin 2 → Nat → K) (i : Fin 2) (a : Nat)
    (j : Fin 2) (b : Nat) :
    accKM2D axi Nr dN D EK i a j b = EK i a j b +
      quad D (fun p => B2 (if axi then Nr a else 0) (dN a) (fun _ => 0) p i) (fun q => B2 (if axi then Nr b else 0) (dN b) (fun _ => 0) q j) := by
  unfold accKM2D bbc2 quad B2
  cases axi <;> fin_cases i <;> fin_cases j <;> simp [Fin.sum_univ_succ] <;> ring

/-- **C90**: the solid routine adds B^T D B. -/
theorem C90_solid (dN : Nat → Fin 3 → K) (D : Fin 7 → Fin 7 → K) (EK : Fin 3 → Nat → Fin 3 → Nat → K) (i : Fin 3) (a : Nat) (j : Fin 3) (b : Nat) :
    accKM3D dN D EK i a j b = EK i a j b + quad D (fun p => B3 (dN a) (fun _ => 0) p i) (fun q => B3 (dN b) (fun _ => 0) q j) := by
  unfold accKM3D bbc3 quad B3
  fin_cases i <;> fin_cases j <;> simp [Fin.sum_univ_succ] <;> ring

/-- **C90**: the plane routine for the mixed formulation adds B^T D B with the averaged volume strain. -/
theorem C90_plane_mixed (axi : Bool) (Nr : Nat → K) (dN dNbar : Nat → Fin 2 → K) (D : Fin 7 → Fin 7 → K) (EK : Fin 2 → Nat → Fin 2 → Nat → K) (i : Fin 2)
    (a : Nat) (j : Fin 2) (b : Nat) :
    accKMx2D axi Nr dN dNbar D EK i a j b = EK i a j b +
      quad D (fun p => B2 (if axi then Nr a else 0) (dN a) (dNbar a) p i) (fun q => B2 (if axi then Nr b else 0) (dN b) (dNbar b) q j) := by
  unfold accKMx2D bbcx2 quad B2
  cases axi <;> fin_cases i <;> fin_cases j <;> simp [Fin.sum_univ_succ] <;> ring

/-- **C90**: the solid routine for the mixed formulation adds B^T D B with the averaged volume strain. -/
theorem C90_solid_mixed (dN dNbar : Nat → Fin 3 → K) (D : Fin 7 → Fin 7 → K) (EK : Fin 3 → Nat → Fin 3 → Nat → K) (i : Fin 3) (a : Nat) (j : Fin 3) (b : Nat) :
    accKMx3D dN dNbar D EK i a j b = EK i a j b + quad D (fun p => B3 (dN a) (dNbar a) p i) (fun q => B3 (dN b) (dNbar b) q j) := by
  unfold accKMx3D bbcx3 quad B3
  fin_cases i <;> fin_cases j <;> simp [Fin.sum_univ_succ] <;> ring

/-- **C90**: a symmetric element matrix stays symmetric for a symmetric constitutive matrix. -/
theorem C90_symmetric (axi : Bool) (Nr : Nat → K) (dN dNbar : Nat → Fin 2 → K) (gN gNbar : Nat → Fin 3 → K) (D : Fin 7 → Fin 7 → K)
    (hD : ∀ p q, D p q = D q p) (EK2 : Fin 2 → Nat → Fin 2 → Nat → K) (h2 : ∀ i a j b, EK2 i a j b = EK2 j b i a) (EK3 : Fin 3 → Nat → Fin 3 → Nat → K)
    (h3 : ∀ i a j b, EK3 i a j b = EK3 j b i a) :
    (∀ i a j b, accKM2D axi Nr dN D EK2 i a j b = accKM2D axi Nr dN D EK2 j b i a) ∧
    (∀ i a j b, accKMx2D axi Nr dN dNbar D EK2 i a j b = accKMx2D axi Nr dN dNbar D EK2 j b i a) ∧
    (∀ i a j b, accKM3D gN D EK3 i a j b = accKM3D gN D EK3 j b i a) ∧
    (∀ i a j b, accKMx3D gN gNbar D EK3 i a j b = accKMx3D gN gNbar D EK3 j b i a) := by
  refine ⟨fun i a j b => ?_, fun i a j b => ?_, fun i a j b => ?_, fun i a j b => ?_⟩
  · rw [C90_plane, C90_plane, h2, quad_symm hD]
  · rw [C90_plane_mixed, C90_plane_mixed, h2, quad_symm hD]
  · rw [C90_solid, C90_solid, h3, quad_symm hD]
  · rw [C90_solid_mixed, C90_solid_mixed, h3, quad_symm hD]

example : ∃ D : Fin 7 → Fin 7 → ℚ, (∀ p q, D p q = D q p) ∧ D 0 1 ≠ D 0 0 := ⟨fun p q => if p = q then 2 else 1, by decide +kernel⟩

/-! ### stiff_TL -/

theorem km2_eq (dN : Nat → Fin 2 → K) (F : Fin 2 → Fin 2 → K) (C : Fin 3 → Fin 3 → K) (m : Fin 2) (a : Nat) (n : Fin 2) (b : Nat) :
    km voigt2 dN F C m a n b = quad C (E2 F (dN a) m) (E2 F (dN b) n) := by
  unfold km quad E2 voigt2
  simp [Fin.sum_univ_succ]; ring

theorem spread_quad {d e : Nat} (k : Fin d → Nat → Fin d → Nat → K) (w : K) (EK : Fin d → Nat → Fin d → Nat → K) (C : Fin e → Fin e → K)
    (hC : ∀ p q, C p q = C q p) (x : Fin d → Nat → Fin e → K) (hk : ∀ m a n b, k m a n b = quad C (x m a) (x n b)) (m : Fin d) (a : Nat) (n : Fin d) (b : Nat) :
    spread k w EK m a n b = EK m a n b + quad C (x m a) (x n b) * w := by
  unfold spread
  by_cases h : a ≤ b
  · rw [if_pos h, hk]
  · rw [if_neg h, hk, quad_symm hC]

/-- **C90**: the total Lagrangian routine in the plane adds the second variation of the strain energy for any symmetric constitutive matrix. -/
theorem C90_tl_plane (w : K) (dN : Nat → Fin 2 → K) (F : Fin 2 → Fin 2 → K) (C : Fin 3 → Fin 3 → K) (hC : ∀ p q, C p q = C q p)
    (EK : Fin 2 → Nat → Fin 2 → Nat → K) (m : Fin 2) (a : Nat) (n : Fin 2) (b : Nat) :
    stiffTL2D w dN F C EK m a n b = EK m a n b + quad C (E2 F (dN a) m) (E2 F (dN b) n) * w :=
  spread_quad _ w EK C hC (fun m a => E2 F (dN a) m) (fun m a n b => km2_eq dN F C m a n b) m a n b

/-- The shears yz and zx exchanged. -/
def swap56 : Fin 6 → Fin 6 := ![0, 1, 2, 3, 5, 4]

theorem contract3 (f g : Fin 3 → K) (T : Fin 6 → K) : ∑ i, ∑ j, f i * g j * T (voigt3 i j) =
    ∑ p, (![f 0 * g 0, f 1 * g 1, f 2 * g 2, f 0 * g 1 + f 1 * g 0, f 1 * g 2 + f 2 * g 1, f 2 * g 0 + f 0 * g 2] : Fin 6 → K) p * T (swap56 p) := by
  have h0 : ∀ i j : Fin 3, voigt3 i j = (![![0, 3, 4], ![3, 1, 5], ![4, 5, 2]] : Fin 3 → Fin 3 → Fin 6) i j := by decide
  simp only [h0, swap56, Fin.sum_univ_three, Fin.sum_univ_six]
  simp only [Matrix.cons_val]
  ring

theorem quad_eq {e : Nat} (D : Fin e → Fin e → K) (x y : Fin e → K) : quad D x y = ∑ p, x p * ∑ q, y q * D p q := by
  unfold quad
  refine Finset.sum_congr rfl fun p _ => ?_
  rw [Finset.mul_sum]
  exact Finset.sum_congr rfl fun q _ => by ring

theorem km_eq {d e : Nat} (v : Fin d → Fin d → Fin e) (dN : Nat → Fin d → K) (F : Fin d → Fin d → K) (C : Fin e → Fin e → K) (m : Fin d) (a : Nat) (n : Fin d)
    (b : Nat) : km v dN F C m a n b = ∑ i, ∑ j, dN a i * F m j * ∑ k, ∑ l, F n k * dN b l * C (v i j) (v k l) := by
  unfold km
  refine Finset.sum_congr rfl fun i _ => Finset.sum_congr rfl fun j _ => ?_
  rw [Finset.mul_sum]
  refine Finset.sum_congr rfl fun k _ => ?_
  rw [Finset.mul_sum]
  exact Finset.sum_congr rfl fun l _ => by ring

theorem km3_eq (dN : Nat → Fin 3 → K) (F : Fin 3 → Fin 3 → K) (C : Fin 6 → Fin 6 → K) (m : Fin 3) (a : Nat) (n : Fin 3) (b : Nat) :
    km voigt3 dN F C m a n b = quad (fun p q => C (swap56 p) (swap56 q)) (E3 F (dN a) m) (E3 F (dN b) n) := by
  have e1 : ∀ i j, (∑ k, ∑ l, F n k * dN b l * C (voigt3 i j) (voigt3 k l)) = ∑ q, E3 F (dN b) n q * C (voigt3 i j) (swap56 q) := by
    intro i j
    rw [contract3 (F n) (dN b) (fun q => C (voigt3 i j) q)]
    rfl
  rw [km_eq, quad_eq]
  simp only [e1]
  rw [contract3 (dN a) (F m) (fun p => ∑ q, E3 F (dN b) n q * C p (swap56 q))]
  refine Finset.sum_congr rfl fun p _ => ?_
  congr 1
  fin_cases p <;> simp only [E3, Matrix.cons_val, Fin.mk_one, Fin.zero_eta, Fin.reduceFinMk] <;> ring

/-- **C90** (partial): the total Lagrangian routine in space adds the second variation of the strain energy if the constitutive matrix does not change when the shears yz and zx are
exchanged. -/
theorem C90_tl_solid_partial (w : K) (dN : Nat → Fin 3 → K) (F : Fin 3 → Fin 3 → K) (C : Fin 6 → Fin 6 → K) (hC : ∀ p q, C p q = C q p)
    (hs : ∀ p q, C (swap56 p) (swap56 q) = C p q) (EK : Fin 3 → Nat → Fin 3 → Nat → K) (m : Fin 3) (a : Nat) (n : Fin 3) (b : Nat) :
    stiffTL3D w dN F C EK m a n b = EK m a n b + quad C (E3 F (dN a) m) (E3 F (dN b) n) * w := by
  refine spread_quad _ w EK C hC (fun m a => E3 F (dN a) m) (fun m a n b => ?_) m a n b
  rw [km3_eq]
  congr 1
  funext p q; exact hs p q

example : (∀ p q, iso3 (3 : ℚ) 1 1 p q = iso3 (3 : ℚ) 1 1 q p) ∧ ∀ p q, iso3 (3 : ℚ) 1 1 (swap56 p) (swap56 q) = iso3 (3 : ℚ) 1 1 p q := by
  decide +kernel

/-- **C90** does not hold for the total Lagrangian routine in space with a general matrix: it takes the fifth stress for zx and the sixth for yz, the reverse of the order in all other
code. Witness: a unit shear stiffness in yz only is seen by a motion with shear zx. -/
theorem C90_tl_solid_violated : ∃ (dN : Nat → Fin 3 → ℚ) (F : Fin 3 → Fin 3 → ℚ) (C : Fin 6 → Fin 6 → ℚ), (∀ p q, C p q = C q p) ∧
    stiffTL3D 1 dN F C (fun _ _ _ _ => 0) 0 1 0 1 = 1 ∧ quad C (E3 F (dN 1) 0) (E3 F (dN 1) 0) = 0 := by
  refine ⟨fun _ => ![0, 0, 1], fun i j => if i = j then 1 else 0, fun p q => if p = 4 ∧ q = 4 then 1 else 0, ?_, ?_, ?_⟩
  · decide
  · have e : stiffTL3D (1 : ℚ) (fun _ => ![0, 0, 1]) (fun i j => if i = j then 1 else 0) (fun p q => if p = 4 ∧ q = 4 then 1 else 0) (fun _ _ _ _ => 0) 0 1 0 1 =
        0 + km voigt3 (fun _ => ![0, 0, 1]) (fun i j => if i = j then 1 else 0) (fun p q => if p = 4 ∧ q = 4 then 1 else 0) 0 1 0 1 * 1 := rfl
    rw [e, km3_eq]
    unfold quad E3 swap56
    simp [Fin.sum_univ_six]
  · unfold quad E3
    simp [Fin.sum_univ_six]

theorem quad_iso3 (C1 C2 C3 : K) (x y : Fin 6 → K) : quad (iso3 C1 C2 C3) x y =
    (x 0 * y 0 + x 1 * y 1 + x 2 * y 2) * C1 + (x 0 * y 1 + x 1 * y 0 + x 0 * y 2 + x 2 * y 0 + x 1 * y 2 + x 2 * y 1) * C2
    + (x 3 * y 3 + x 4 * y 4 + x 5 * y 5) * C3 := by
  unfold quad iso3
  simp only [Fin.sum_univ_six, Matrix.cons_val, mul_zero, zero_mul, add_zero, zero_add]
  ring

/-- **C90**: the routines for isotropic materials add the second variation of the strain energy. -/
theorem C90_iso (w : K) (g2 : Nat → Fin 2 → K) (F2 : Fin 2 → Fin 2 → K) (g3 : Nat → Fin 3 → K) (F3 : Fin 3 → Fin 3 → K) (C1 C2 C3 : K)
    (EK2 : Fin 2 → Nat → Fin 2 → Nat → K) (EK3 : Fin 3 → Nat → Fin 3 → Nat → K) :
    (∀ m a n b, stiffTL2Diso w g2 F2 C1 C2 C3 EK2 m a n b = EK2 m a n b + quad (iso2 C1 C2 C3) (E2 F2 (g2 a) m) (E2 F2 (g2 b) n) * w) ∧
    (∀ m a n b, stiffTL3Diso w g3 F3 C1 C2 C3 EK3 m a n b = EK3 m a n b + quad (iso3 C1 C2 C3) (E3 F3 (g3 a) m) (E3 F3 (g3 b) n) * w) := by
  refine ⟨fun m a n b => ?_, fun m a n b => ?_⟩
  · refine spread_quad _ w EK2 _ ?_ (fun m a => E2 F2 (g2 a) m) (fun m a n b => ?_) m a n b
    · intro p q; fin_cases p <;> fin_cases q <;> rfl
    · unfold kmIso2 quad E2 iso2
      generalize g2 a = g; generalize g2 b = h; generalize F2 m = f; generalize F2 n = f'
      simp [Fin.sum_univ_succ]; ring
  · refine spread_quad _ w EK3 _ ?_ (fun m a => E3 F3 (g3 a) m) (fun m a n b => ?_) m a n b
    · intro p q; fin_cases p <;> fin_cases q <;> rfl
    · rw [quad_iso3]
      unfold kmIso3 E3 pairs3
      generalize g3 a = g; generalize g3 b = h; generalize F3 m = f; generalize F3 n = f'
      simp only [Matrix.cons_val, Fin.sum_univ_three, List.map_cons, List.map_nil, List.sum_cons, List.sum_nil]
      ring

theorem iso3_swap (C1 C2 C3 : K) (p q : Fin 6) : iso3 C1 C2 C3 (swap56 p) (swap56 q) = iso3 C1 C2 C3 p q := by
  fin_cases p <;> fin_cases q <;> simp only [iso3, swap56, Fin.mk_one, Fin.zero_eta, Fin.reduceFinMk, Matrix.cons_val]

/-- **C90** (partial): the element of the tensorial total Lagrangian formulation, which always uses the isotropic routines, has the stiffness of the constitutive matrix when this is
isotropic. -/
theorem C90_element_partial (full : Bool) (w : K) (g2 : Nat → Fin 2 → K) (F2 : Fin 2 → Fin 2 → K) (g3 : Nat → Fin 3 → K) (F3 : Fin 3 → Fin 3 → K) (C1 C2 C3 : K)
    (EK2 : Fin 2 → Nat → Fin 2 → Nat → K) (EK3 : Fin 3 → Nat → Fin 3 → Nat → K) :
    (∀ m a n b, evalKm2 full w g2 F2 (iso2 C1 C2 C3) EK2 m a n b = EK2 m a n b + quad (iso2 C1 C2 C3) (E2 F2 (g2 a) m) (E2 F2 (g2 b) n) * w) ∧
    (∀ m a n b, evalKm3 full w g3 F3 (iso3 C1 C2 C3) EK3 m a n b = EK3 m a n b + quad (iso3 C1 C2 C3) (E3 F3 (g3 a) m) (E3 F3 (g3 b) n) * w) := by
  have s2 : ∀ p q, iso2 C1 C2 C3 p q = iso2 C1 C2 C3 q p := by intro p q; fin_cases p <;> fin_cases q <;> rfl
  have s3 : ∀ p q, iso3 C1 C2 C3 p q = iso3 C1 C2 C3 q p := by intro p q; fin_cases p <;> fin_cases q <;> rfl
  have s4 := iso3_swap C1 C2 C3
  cases full
  · have e2 : evalKm2 false w g2 F2 (iso2 C1 C2 C3) EK2 = stiffTL2Diso w g2 F2 C1 C2 C3 EK2 := by unfold evalKm2; rw [if_neg Bool.false_ne_true]; rfl
    have e3 : evalKm3 false w g3 F3 (iso3 C1 C2 C3) EK3 = stiffTL3Diso w g3 F3 C1 C2 C3 EK3 := by unfold evalKm3; rw [if_neg Bool.false_ne_true]; rfl
    rw [e2, e3]
    exact C90_iso w g2 F2 g3 F3 C1 C2 C3 EK2 EK3
  · have e2 : evalKm2 true w g2 F2 (iso2 C1 C2 C3) EK2 = stiffTL2D w g2 F2 (iso2 C1 C2 C3) EK2 := by unfold evalKm2; rw [if_pos rfl]
    have e3 : evalKm3 true w g3 F3 (iso3 C1 C2 C3) EK3 = stiffTL3D w g3 F3 (iso3 C1 C2 C3) EK3 := by unfold evalKm3; rw [if_pos rfl]
    rw [e2, e3]
    exact ⟨fun m a n b => C90_tl_plane w g2 F2 _ s2 EK2 m a n b, fun m a n b => C90_tl_solid_partial w g3 F3 _ s3 s4 EK3 m a n b⟩

/-- **C90** does not hold for the tensorial total Lagrangian element with an anisotropic material: the stiffness in the second direction is taken from the first. -/
theorem C90_element_violated : ∃ (dN : Nat → Fin 2 → ℚ) (F : Fin 2 → Fin 2 → ℚ) (C : Fin 3 → Fin 3 → ℚ), (∀ p q, C p q = C q p) ∧
    evalKm2 false 1 dN F C (fun _ _ _ _ => 0) 1 1 1 1 ≠ quad C (E2 F (dN 1) 1) (E2 F (dN 1) 1) := by
  refine ⟨fun _ => ![0, 1], fun i j => if i = j then 1 else 0, ![![1, 0, 0], ![0, 2, 0], ![0, 0, 1]], ?_, ?_⟩
  · decide +kernel
  · decide +kernel

/-- **C90** does not hold in one dimension: the weight of the integration point is missing. -/
theorem C90_one_violated : ∃ (w : ℚ) (dN : Nat → ℚ) (F C : ℚ), stiff1D w dN F C (fun _ _ => 0) 1 1 ≠ (F * dN 1) * C * (F * dN 1) * w :=
  ⟨2, fun _ => 1, 1, 1, by decide +kernel⟩

/-- **C90**: the internal forces of the tensorial total Lagrangian element are the stresses times the variation of the strain. -/
theorem C90_force (w : K) (g2 : Nat → Fin 2 → K) (F2 S2 : Fin 2 → Fin 2 → K) (h2 : ∀ i j, S2 i j = S2 j i) (g3 : Nat → Fin 3 → K) (F3 S3 : Fin 3 → Fin 3 → K)
    (h3 : ∀ i j, S3 i j = S3 j i) (ES2 : Nat → Fin 2 → K) (ES3 : Nat → Fin 3 → K) :
    (∀ a k, intForce w g2 F2 S2 ES2 a k = ES2 a k - (∑ p, E2 F2 (g2 a) k p * ![S2 0 0, S2 1 1, S2 0 1] p) * w) ∧
    (∀ a k, intForce w g3 F3 S3 ES3 a k = ES3 a k - (∑ p, E3 F3 (g3 a) k p * ![S3 0 0, S3 1 1, S3 2 2, S3 0 1, S3 1 2, S3 2 0] p) * w) := by
  refine ⟨fun a k => ?_, fun a k => ?_⟩
  · unfold intForce E2
    simp [Fin.sum_univ_succ, h2 1 0]; ring
  · unfold intForce E3
    generalize g3 a = g; generalize F3 k = f
    simp [Fin.sum_univ_succ, h3 1 0, h3 2 1, h3 0 2]; ring

example : ∃ S : Fin 2 → Fin 2 → ℚ, (∀ i j, S i j = S j i) ∧ S 0 1 = 3 := ⟨![![1, 3], ![3, 2]], by decide +kernel⟩

/-- **C90**: one dimension, up to the missing weight. -/
theorem C90_one_partial (dN : Nat → K) (F C : K) (EK : Nat → Nat → K) (a b : Nat) :
    stiff1D 1 dN F C EK a b = EK a b + (F * dN a) * C * (F * dN b) * 1 := by unfold stiff1D; ring

end Verif.FtnStiff
