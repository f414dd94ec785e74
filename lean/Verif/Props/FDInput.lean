/-
Property C95: the materials of finite deformation problems are those of the input.
-/
import Mathlib.Tactic.Linarith
import Mathlib.Tactic.NormNum
import Mathlib.Tactic.Ring
import Mathlib.Algebra.Order.Ring.Rat
import Mathlib.Data.Rat.Floor
import Verif.Model.FDInput
import Verif.Props.Plastic

set_option linter.unusedSectionVars false
set_option linter.unusedSimpArgs false
set_option linter.unusedVariables false

namespace Verif.FDInput

variable {K : Type} [Field K]

/-! ### Isotropic materials -/

/-- **C95**: the text and XML formats give the same isotropic material for the same data: in updated Lagrange formulations, the hyperelastic material of the version given, or the linear one
(wrapped for use with finite deformations) if no version is given. -/
theorem C95_iso (s : Setting) (ver : Option Int) : (isoText s ver : Mat K) = isoXml s ver ∧
    (∀ v : Int, 0 ≤ v → 4 ≤ s.form → (isoXml s (some v) : Mat K) = .neoHooke v) ∧
    (4 ≤ s.form → (isoXml s none : Mat K) = .linear (if s.dim = 2 then .linIso (!s.planeStrain) s.axi else .linIso3)) ∧
    (s.form < 4 → (isoXml s none : Mat K) = if s.dim = 2 then .linIso (!s.planeStrain) s.axi else .linIso3) := by
  refine ⟨?_, ?_, ?_, ?_⟩
  · unfold isoText isoXml UL
    simp only
    by_cases h1 : s.form ≥ 4
    · by_cases h2 : ver.getD (-1) ≥ 0
      · have h3 : ¬ (ver.getD (-1) < 0) := by omega
        simp [h1, h2, h3, isLinear]
      · have h3 : ver.getD (-1) < 0 := by omega
        by_cases h4 : s.dim = 2 <;> simp [h1, h2, h3, h4, isLinear]
    · simp [h1]
  · intro v hv hf
    simp [isoXml, UL, hv, hf, isLinear]
  · intro hf
    by_cases h4 : s.dim = 2 <;> simp [isoXml, UL, hf, h4, isLinear]
  · intro hf
    have : ¬ (4 ≤ s.form) := by omega
    by_cases h4 : s.dim = 2 <;> simp [isoXml, UL, this, h4, isLinear]

/-- **C95** does not hold for material versions in total Lagrange formulations: the version is ignored and the material is linear. -/
theorem C95_version_violated (s : Setting) (h : s.form < 4) (v : Int) : (isoXml s (some v) : Mat K) = isoXml s none := by
  have : ¬ (4 ≤ s.form) := by omega
  simp [isoXml, UL, this]

example : (isoXml ⟨3, 3, false, false⟩ (some 1) : Mat ℚ) = .linIso3 ∧ formulation [] = (3, 0) := ⟨rfl, rfl⟩

/-- **C95**: the formulation and the order are the first two options; the default is the total Lagrange formulation. -/
theorem C95_formulation (f p : Int) (r : List Int) : formulation (f :: p :: r) = (f, p) ∧ formulation [f] = (f, 0) ∧ formulation [] = (3, 0) := ⟨rfl, rfl, rfl⟩

/-! ### Plastic materials -/

theorem put_eq (attr : String → Option K) (n : String) (i : Nat) (p : List K) : put attr n i p = p.set i ((attr n).getD (p.getD i 0)) := by
  unfold put
  cases attr n with
  | none =>
    simp only [Option.getD_none]
    apply List.ext_getElem?
    intro j
    by_cases h : i = j
    · subst h
      by_cases hl : i < p.length
      · simp [hl]
      · simp [hl]
    · simp [List.getElem?_set_ne h]
  | some v => rfl

/-- The value of the last of the given attributes that is there, or zero. -/
def pick (attr : String → Option K) : List String → K
  | [] => 0
  | n :: r => (attr n).getD (pick attr r)

theorem childNumbers_hardening {F : Type} (atof : List Char → K) (l : List (PChild F)) (h : ∀ c ∈ l, ∃ f, c = .hardening f) : childNumbers atof l = [] := by
  induction l with
  | nil => rfl
  | cons c l ih =>
    obtain ⟨f, rfl⟩ := h c (by simp)
    exact ih fun c hc => h c (by simp [hc])

/-- The parameters by the attributes alone. -/
def common (attr : String → Option K) : List K :=
  [pick attr ["E", "Emod", "Bmod"], pick attr ["nu", "Smod"], 0, pick attr ["rho"], pick attr ["Hiso"], pick attr ["Hkin"], pick attr ["yield"],
   pick attr ["Y0"], pick attr ["Yinf"], pick attr ["beta"], pick attr ["istrt"]]

theorem plasticXml_eq {F : Type} (toInt : K → Int) (atof : List Char → K) (e : PElem K F) (h : ∀ c ∈ e.children, ∃ f, c = .hardening f) :
    plasticXml toInt atof e =
      if toInt (pick e.attr ["yield"]) = 4 then
        [pick e.attr ["E", "Emod", "Bmod"], pick e.attr ["nu", "Smod"], 0, pick e.attr ["rho"], pick e.attr ["Hiso"], pick e.attr ["Hkin"], pick e.attr ["yield"],
         pick e.attr ["A", "Y0"], pick e.attr ["B", "Yinf"], pick e.attr ["n", "beta"], pick e.attr ["istrt"]]
      else if toInt (pick e.attr ["yield"]) = 6 then
        [pick e.attr ["E", "Emod", "Bmod"], pick e.attr ["nu", "Smod"], 0, pick e.attr ["rho"], pick e.attr ["Hiso"], pick e.attr ["Hkin"], pick e.attr ["yield"],
         pick e.attr ["Y0"], pick e.attr ["Q1", "Yinf"], pick e.attr ["C1", "beta"], pick e.attr ["istrt"], pick e.attr ["Q2"], pick e.attr ["C2"]]
      else common e.attr := by
  unfold plasticXml
  rw [childNumbers_hardening atof e.children h]
  have h0 : extend 11 ([] : List K) = [0, 0, 0, 0, 0, 0, 0, 0, 0, 0, 0] := rfl
  rw [h0]
  simp only [put_eq, List.set_cons_zero, List.set_cons_succ, List.getD_cons_zero, List.getD_cons_succ, extend]
  by_cases h4 : toInt ((e.attr "yield").getD 0) = 4
  · rw [if_pos h4, if_pos (show toInt (pick e.attr ["yield"]) = 4 from h4)]; rfl
  · rw [if_neg h4, if_neg (show ¬ toInt (pick e.attr ["yield"]) = 4 from h4)]
    by_cases h6 : toInt ((e.attr "yield").getD 0) = 6
    · rw [if_pos h6, if_pos (show toInt (pick e.attr ["yield"]) = 6 from h6)]; rfl
    · rw [if_neg h6, if_neg (show ¬ toInt (pick e.attr ["yield"]) = 6 from h6)]; rfl

section moduli
variable [LinearOrder K] [IsStrictOrderedRing K]
open Verif.Plastic (params moduli)

/-- **C95**: with parameters given as attributes, the material gets them at the places where the plasticity algorithm reads them: Young's modulus and Poisson's ratio, density,
hardening moduli, the type of the yield function, and its parameters. -/
theorem C95_plastic_partial {F : Type} (toInt : K → Int) (atof : List Char → K) (e : PElem K F) (h : ∀ c ∈ e.children, ∃ f, c = .hardening f) (E nu rho Hiso Hkin y Y0 Yinf beta : K)
    (hE : e.attr "E" = some E) (hnu : e.attr "nu" = some nu) (hr : e.attr "rho" = some rho) (hi : e.attr "Hiso" = some Hiso) (hk : e.attr "Hkin" = some Hkin)
    (hy : e.attr "yield" = some y) (h7 : e.attr "Y0" = some Y0) (h8 : e.attr "Yinf" = some Yinf) (h9 : e.attr "beta" = some beta) (h4 : toInt y ≠ 4) (h6 : toInt y ≠ 6)
    (hlt : nu < 1 / 2) :
    ∃ is, params (plasticXml toInt atof e) =
      [E, nu, 0, rho, E / (3 - 6 * nu), E / (2 + 2 * nu), Hiso, Hkin, y, Y0, Yinf, beta, is] := by
  have h5 : ¬ (nu > 1 / 2) := not_lt.2 hlt.le
  have hm : moduli E nu = ⟨E, nu, E / (3 - 6 * nu), E / (2 + 2 * nu)⟩ := by unfold moduli; rw [if_neg h5, if_pos hlt]
  refine ⟨pick e.attr ["istrt"], ?_⟩
  rw [plasticXml_eq toInt atof e h]
  have hyy : pick e.attr ["yield"] = y := by simp [pick, hy]
  rw [hyy, if_neg h4, if_neg h6]
  simp [common, pick, hE, hnu, hr, hi, hk, hy, h7, h8, h9, params, hm]

/-- **C95**: likewise for power law hardening, `Y0 = A`, `Yinf = B` and `beta = n`. -/
theorem C95_power {F : Type} (toInt : K → Int) (atof : List Char → K) (e : PElem K F) (h : ∀ c ∈ e.children, ∃ f, c = .hardening f) (y A B n : K)
    (hy : e.attr "yield" = some y) (hA : e.attr "A" = some A) (hB : e.attr "B" = some B) (hn : e.attr "n" = some n) (h4 : toInt y = 4) :
    (params (plasticXml toInt atof e))[8]? = some y ∧ (params (plasticXml toInt atof e))[9]? = some A ∧ (params (plasticXml toInt atof e))[10]? = some B ∧
      (params (plasticXml toInt atof e))[11]? = some n := by
  rw [plasticXml_eq toInt atof e h]
  have hyy : pick e.attr ["yield"] = y := by simp [pick, hy]
  rw [hyy, if_pos h4]
  simp [pick, hA, hB, hn, params]

/-- **C95**: for Voce hardening with two terms, all of `Q1`, `C1`, `Q2` and `C2` are found where the yield function reads them; nothing is read outside of the parameters. -/
theorem C95_voce {F : Type} (toInt : K → Int) (atof : List Char → K) (e : PElem K F) (h : ∀ c ∈ e.children, ∃ f, c = .hardening f) (y Y0 Q1 C1 Q2 C2 : K)
    (hy : e.attr "yield" = some y) (h0 : e.attr "Y0" = some Y0) (hQ1 : e.attr "Q1" = some Q1) (hC1 : e.attr "C1" = some C1) (hQ2 : e.attr "Q2" = some Q2) (hC2 : e.attr "C2" = some C2)
    (h6 : toInt y = 6) :
    (params (plasticXml toInt atof e))[8]? = some y ∧ (params (plasticXml toInt atof e))[9]? = some Y0 ∧ (params (plasticXml toInt atof e))[10]? = some Q1 ∧
      (params (plasticXml toInt atof e))[11]? = some C1 ∧ (params (plasticXml toInt atof e))[13]? = some Q2 ∧ (params (plasticXml toInt atof e))[14]? = some C2 := by
  rw [plasticXml_eq toInt atof e h]
  have hyy : pick e.attr ["yield"] = y := by simp [pick, hy]
  rw [hyy, if_neg (by omega), if_pos h6]
  simp [pick, h0, hQ1, hC1, hQ2, hC2, params]

/-- **C95** does not hold for Young's modulus with a shear modulus: given `Emod` and `Smod` greater than one half, the elastic modulus is used as a bulk modulus. -/
theorem C95_moduli_violated {F : Type} (toInt : K → Int) (atof : List Char → K) (e : PElem K F) (h : ∀ c ∈ e.children, ∃ f, c = .hardening f) (E G : K)
    (hE : e.attr "E" = some E) (hS : e.attr "Smod" = some G) (hnu : e.attr "nu" = none) (hG : 1 / 2 < G) :
    (params (plasticXml toInt atof e))[4]? = some E ∧ (params (plasticXml toInt atof e))[0]? = some (9 * E * G / (3 * E + G)) := by
  have hl : (plasticXml toInt atof e)[0]? = some E ∧ (plasticXml toInt atof e)[1]? = some G := by
    rw [plasticXml_eq toInt atof e h]
    by_cases h4 : toInt (pick e.attr ["yield"]) = 4
    · rw [if_pos h4]; simp [pick, hE, hS, hnu]
    · rw [if_neg h4]
      by_cases h6 : toInt (pick e.attr ["yield"]) = 6
      · rw [if_pos h6]; simp [pick, hE, hS, hnu]
      · rw [if_neg h6]; simp [common, pick, hE, hS, hnu]
  obtain ⟨-, p0, p1, h0, h1, e0, -, -, -, e4, -, -⟩ := Verif.Plastic.C20_params (plasticXml toInt atof e)
  rw [List.getElem?_append_left (by have := hl.1; rw [List.getElem?_eq_some_iff] at this; exact this.1), hl.1] at h0
  rw [List.getElem?_append_left (by have := hl.2; rw [List.getElem?_eq_some_iff] at this; exact this.1), hl.2] at h1
  obtain rfl := Option.some.inj h0
  obtain rfl := Option.some.inj h1
  rw [e0, e4]
  have hm : moduli E G = ⟨9 * E * G / (3 * E + G), (3 / 2 * E - G) / (3 * E + G), E, G⟩ := by unfold moduli; rw [if_pos hG]
  rw [hm]
  exact ⟨rfl, rfl⟩

end moduli

/-- **C95** does not hold for numbers given as the text of the XML element: they are not read. -/
theorem C95_text_violated {F : Type} (toInt : K → Int) (atof : List Char → K) (e : PElem K F) (t : List K) :
    plasticXml toInt atof { e with text := t } = plasticXml toInt atof e := rfl

/-- **C95** does not hold for other child elements: each one adds the value of its name, which is zero for names that do not look like numbers, to the parameters. -/
theorem C95_child_violated {F : Type} (toInt : K → Int) (atof : List Char → K) (attr : String → Option K) (hatof : ∀ n, atof n = 0) (ha : ∀ n, attr n = none) (ht : toInt 0 = 0)
    (names : List (List Char)) (hn : 11 ≤ names.length) (text : List K) :
    plasticXml toInt atof (⟨attr, names.map .other, text⟩ : PElem K F) = List.replicate names.length 0 := by
  have hc : ∀ l : List (List Char), childNumbers (F := F) atof (l.map .other) = List.replicate l.length 0 := by
    intro l
    induction l with
    | nil => rfl
    | cons a l ih => simp [childNumbers, hatof, ih, List.replicate_succ]
  unfold plasticXml
  simp only [hc]
  have he : extend 11 (List.replicate names.length (0 : K)) = List.replicate names.length 0 := by
    simp [extend, Nat.sub_eq_zero_of_le hn]
  have hp : ∀ n i (p : List K), put attr n i p = p := fun n i p => by simp [put, ha]
  rw [he]
  simp only [hp]
  have hd : (List.replicate names.length (0 : K)).getD 6 0 = 0 := by
    rw [List.getD_eq_getElem?_getD, List.getElem?_replicate]; split_ifs <;> rfl
  rw [hd, ht]
  simp

/-- **C95**: of several hardening curves, the last one with contents is used. -/
theorem C95_hardening {F : Type} (l : List (PChild F)) (f : F) (names : List (List Char)) : hardening (l ++ .hardening (some f) :: names.map .other) = some f := by
  have : ∀ (ns : List (List Char)) (o : Option F), (ns.map (PChild.other (F := F))).foldl (fun h c => match c with
    | .hardening (some f) => some f
    | _ => h) o = o := by
    intro ns
    induction ns with
    | nil => intro o; rfl
    | cons a ns ih => intro o; exact ih o
  unfold hardening
  rw [List.foldl_append, List.foldl_cons]
  exact this names _

/-- **C95** does not hold for Voce hardening with two terms in the text format: with fewer than 13 numbers, the yield function reads outside of the parameters. -/
theorem C95_voce_text_violated (numbers : List ℝ) (hn : numbers.length < 13) (y : ℝ) (hy : numbers[6]? = some y) (h6 : Verif.Plastic.toInt y = 6)
    (hfn : Option ((ℝ → ℝ) × (ℝ → ℝ))) (lIter : Bool) (Epp I1 J2 J3 : ℝ) :
    Verif.Plastic.yfunc (Verif.Plastic.params (plasticText numbers)) hfn lIter Epp I1 J2 J3 = .ub := by
  obtain ⟨hl, p0, p1, h0, h1, -, -, -, -, -, -, hk⟩ := Verif.Plastic.C20_params numbers
  have h8 : (Verif.Plastic.params numbers)[8]? = some y := by
    rw [hk 6 (by omega), List.getElem?_append_left (by rw [List.getElem?_eq_some_iff] at hy; exact hy.1), hy]
  have h14 : (Verif.Plastic.params numbers)[14]? = none := by
    rw [List.getElem?_eq_none_iff, hl]; omega
  have hs : ∀ k, k < 13 → ∃ v, (Verif.Plastic.params numbers)[k]? = some v := fun k hk => by
    rw [← Option.isSome_iff_exists]; simp [hl]; omega
  obtain ⟨v6, e6⟩ := hs 6 (by omega)
  obtain ⟨v9, e9⟩ := hs 9 (by omega)
  obtain ⟨v10, e10⟩ := hs 10 (by omega)
  obtain ⟨v11, e11⟩ := hs 11 (by omega)
  unfold Verif.Plastic.yfunc plasticText
  rw [e6, h8, e9, e10, e11]
  simp only [h6]
  norm_num
  cases (Verif.Plastic.params numbers)[13]? <;> simp [h14]

/-! ### Lists of materials -/

/-- The codes and materials of a list of XML elements. -/
def xmats : List (XChild K) → List (Int × Mat K)
  | [] => []
  | .mat c m :: r => (c, m) :: xmats r
  | _ :: r => xmats r

/-- The properties of materials with codes, with the indices starting at `n`. -/
def propsFrom : Nat → List (Int × Mat K) → List (Int × Nat)
  | _, [] => []
  | n, x :: r => if x.1 > 0 then (x.1, n) :: propsFrom (n + 1) r else propsFrom (n + 1) r

theorem mem_propsFrom (l : List (Int × Mat K)) (n : Nat) (c : Int) (i : Nat) : (c, i) ∈ propsFrom n l ↔ 0 < c ∧ n ≤ i ∧ ∃ m, l[i - n]? = some (c, m) := by
  induction l generalizing n with
  | nil => simp [propsFrom]
  | cons x l ih =>
    have key : (c, i) ∈ propsFrom (n + 1) l ↔ 0 < c ∧ n < i ∧ ∃ m, (x :: l)[i - n]? = some (c, m) := by
      rw [ih]
      constructor
      · rintro ⟨h1, h2, h3⟩
        refine ⟨h1, h2, ?_⟩
        have : i - n = i - (n + 1) + 1 := by omega
        rw [this]; simpa using h3
      · rintro ⟨h1, h2, h3⟩
        refine ⟨h1, h2, ?_⟩
        have : i - n = i - (n + 1) + 1 := by omega
        rw [this] at h3; simpa using h3
    unfold propsFrom
    split_ifs with hx
    · rw [List.mem_cons, key]
      constructor
      · rintro (h | ⟨h1, h2, h3⟩)
        · obtain ⟨rfl, rfl⟩ := Prod.mk.inj h
          exact ⟨hx, le_refl _, x.2, by simp⟩
        · exact ⟨h1, h2.le, h3⟩
      · rintro ⟨h1, h2, m, h3⟩
        rcases Nat.eq_or_lt_of_le h2 with rfl | h2
        · left; simp at h3; rw [h3]
        · exact Or.inr ⟨h1, h2, m, h3⟩
    · rw [key]
      constructor
      · rintro ⟨h1, h2, h3⟩; exact ⟨h1, h2.le, h3⟩
      · rintro ⟨h1, h2, m, h3⟩
        refine ⟨h1, ?_, m, h3⟩
        rcases Nat.eq_or_lt_of_le h2 with rfl | h2
        · exfalso; simp at h3; rw [h3] at hx; exact hx h1
        · exact h2

theorem foldl_addText (l : List (Int × Mat K)) (a : Input K × Option Nat) :
    (l.foldl addText a).1.mats = a.1.mats ++ l.map Prod.snd ∧ (l.foldl addText a).1.props = a.1.props ++ propsFrom a.1.mats.length l ∧
    (l.foldl addText a).1.default = a.1.default := by
  induction l generalizing a with
  | nil => simp [propsFrom]
  | cons x l ih =>
    obtain ⟨h1, h2, h3⟩ := ih (addText a x)
    rw [List.foldl_cons, h1, h2, h3]
    refine ⟨by simp [addText], ?_, rfl⟩
    by_cases hx : x.1 > 0 <;> simp [addText, propsFrom, hx]

theorem xmlLoop_ok (l : List (XChild K)) (a : Input K × Option Nat) (hok : ∀ b, XChild.contact b ∈ l → b = true) :
    (xmlLoop l a).1.mats = a.1.mats ++ (xmats l).map Prod.snd ∧ (xmlLoop l a).1.props = a.1.props ++ propsFrom a.1.mats.length (xmats l) ∧
    (xmlLoop l a).1.default = a.1.default ∧ (xmlLoop l a).2.1 = a.2.or ((xmats l).head?.map fun _ => a.1.mats.length) ∧ (xmlLoop l a).2.2 = true := by
  induction l generalizing a with
  | nil => simp [xmlLoop, xmats, propsFrom]
  | cons c l ih =>
    have hok' : ∀ b, XChild.contact b ∈ l → b = true := fun b hb => hok b (by simp [hb])
    cases c with
    | mat c m =>
      obtain ⟨h1, h2, h3, h4, h5⟩ := ih _ hok'
      rw [xmlLoop, h1, h2, h3, h4, h5]
      refine ⟨by simp [xmats], ?_, rfl, ?_, rfl⟩
      · by_cases hx : c > 0 <;> simp [xmats, propsFrom, hx]
      · rcases a with ⟨a, d⟩
        cases d <;> simp [xmats]
    | contact b =>
      obtain rfl := hok b (by simp)
      simpa [xmlLoop, xmats] using ih a hok'
    | other => simpa [xmlLoop, xmats] using ih a hok'

/-- **C95**: reading a block in either format adds its materials in order, and each material with a positive code gets a property with its index; earlier materials and properties stay. -/
theorem C95_materials (l : List (Int × Mat K)) (x : List (XChild K)) (hok : ∀ b, XChild.contact b ∈ x → b = true) (a : Input K) :
    ((parseText l a).mats = a.mats ++ l.map Prod.snd ∧
      ∀ c i, (c, i) ∈ (parseText l a).props ↔ (c, i) ∈ a.props ∨ (0 < c ∧ a.mats.length ≤ i ∧ ∃ m, l[i - a.mats.length]? = some (c, m))) ∧
    ((parseXml x a).1.mats = a.mats ++ (xmats x).map Prod.snd ∧ (parseXml x a).2 = true ∧
      ∀ c i, (c, i) ∈ (parseXml x a).1.props ↔ (c, i) ∈ a.props ∨ (0 < c ∧ a.mats.length ≤ i ∧ ∃ m, (xmats x)[i - a.mats.length]? = some (c, m))) := by
  constructor
  · obtain ⟨h1, h2, -⟩ := foldl_addText l (a, none)
    have e1 : (parseText l a).mats = (l.foldl addText (a, none)).1.mats := by unfold parseText; simp only; split <;> rfl
    have e2 : (parseText l a).props = (l.foldl addText (a, none)).1.props := by unfold parseText; simp only; split <;> rfl
    rw [e1, e2, h1, h2]
    exact ⟨rfl, fun c i => by rw [List.mem_append, mem_propsFrom]⟩
  · obtain ⟨h1, h2, -, -, h5⟩ := xmlLoop_ok x (a, none) hok
    have e1 : (parseXml x a).1.mats = (xmlLoop x (a, none)).1.mats := by unfold parseXml; simp only [h5, if_true]; split <;> rfl
    have e2 : (parseXml x a).1.props = (xmlLoop x (a, none)).1.props := by unfold parseXml; simp only [h5, if_true]; split <;> rfl
    have e3 : (parseXml x a).2 = true := by unfold parseXml; simp only [h5, if_true]
    rw [e1, e2, e3, h1, h2]
    exact ⟨rfl, rfl, fun c i => by rw [List.mem_append, mem_propsFrom]⟩

theorem foldl_default (l : List (Int × Mat K)) (a : Input K × Option Nat) :
    (l.foldl addText a).2 = if ∃ x ∈ l, x.1 = 0 then (l.foldl addText a).2 else (if a.2 = none ∧ l ≠ [] then some a.1.mats.length else a.2) := by
  induction l generalizing a with
  | nil => simp
  | cons x l ih =>
    split_ifs with h1 h2
    · rfl
    · have hx : x.1 ≠ 0 := fun h => h1 ⟨x, by simp, h⟩
      have hl : ¬ ∃ y ∈ l, y.1 = 0 := fun ⟨y, hy, h⟩ => h1 ⟨y, by simp [hy], h⟩
      rw [List.foldl_cons, ih, if_neg hl]
      simp [addText, h2.1]
    · have hx : x.1 ≠ 0 := fun h => h1 ⟨x, by simp, h⟩
      have hl : ¬ ∃ y ∈ l, y.1 = 0 := fun ⟨y, hy, h⟩ => h1 ⟨y, by simp [hy], h⟩
      have h2' : a.2 ≠ none := fun h => h2 ⟨h, by simp⟩
      rw [List.foldl_cons, ih, if_neg hl]
      simp [addText, h2', hx]

/-- **C95**: in the text format, the default material is the last one with code zero, or the first one of the block if there is none; an empty block leaves the default as it is. -/
theorem C95_default_text (l : List (Int × Mat K)) (a : Input K) :
    (∀ l₁ m l₂, l = l₁ ++ (0, m) :: l₂ → (∀ x ∈ l₂, x.1 ≠ 0) → (parseText l a).default = some (a.mats.length + l₁.length)) ∧
    ((∀ x ∈ l, x.1 ≠ 0) → l ≠ [] → (parseText l a).default = some a.mats.length) ∧ (l = [] → (parseText l a).default = a.default) := by
  refine ⟨?_, ?_, ?_⟩
  · rintro l₁ m l₂ rfl h2
    have e : ((l₁ ++ (0, m) :: l₂).foldl addText (a, none)).2 = some (a.mats.length + l₁.length) := by
      rw [List.foldl_append, List.foldl_cons, foldl_default, if_neg (by rintro ⟨x, hx, h⟩; exact h2 x hx h)]
      obtain ⟨h1, -, -⟩ := foldl_addText l₁ (a, none)
      simp [addText, h1]
    unfold parseText
    simp only [e]
  · intro h hl
    have e : (l.foldl addText (a, none)).2 = some a.mats.length := by
      rw [foldl_default, if_neg (by rintro ⟨x, hx, h'⟩; exact h x hx h')]; simp [hl]
    unfold parseText
    simp only [e]
  · rintro rfl; rfl

/-- **C95**: in the XML format, the default material is the first one of the element; without materials the default stays as it is. -/
theorem C95_default_xml (x : List (XChild K)) (hok : ∀ b, XChild.contact b ∈ x → b = true) (a : Input K) :
    (xmats x ≠ [] → (parseXml x a).1.default = some a.mats.length) ∧ (xmats x = [] → (parseXml x a).1.default = a.default) := by
  obtain ⟨-, -, h3, h4, h5⟩ := xmlLoop_ok x (a, none) hok
  unfold parseXml
  simp only [h5, if_true]
  constructor
  · intro h
    obtain ⟨y, ys, e⟩ := List.exists_cons_of_ne_nil h
    rw [e] at h4
    simp [h4]
  · intro h
    rw [h] at h4
    simp [h4, h3]

/-- **C95** does not hold for the default material across formats: the same two materials, the second with code zero, give different defaults. -/
theorem C95_default_violated (m₁ m₂ : Mat K) (a : Input K) :
    (parseText [(1, m₁), (0, m₂)] a).default = some (a.mats.length + 1) ∧ (parseXml [.mat 1 m₁, .mat 0 m₂] a).1.default = some a.mats.length := by
  constructor
  · exact (C95_default_text _ a).1 [(1, m₁)] m₂ [] rfl (by simp)
  · exact (C95_default_xml _ (by simp) a).1 (by simp [xmats])

/-- **C95** does not hold for failing contact definitions: the materials read before are kept but no default is set. -/
theorem C95_contact_violated (m : Mat K) (a : Input K) : parseXml [.mat 0 m, .contact false] a = ({ a with mats := a.mats ++ [m] }, false) := by
  simp [parseXml, xmlLoop]

/-! ### Preprocessing -/

/-- **C95**: the number of element parameters is the largest of those of the materials. -/
theorem C95_parameters (l : List Nat) : (∀ n ∈ l, n ≤ noElParameters l) ∧ (l = [] ∧ noElParameters l = 0 ∨ noElParameters l ∈ l) := by
  have h : ∀ (l : List Nat) (a : Nat), (a ≤ l.foldl max a ∧ ∀ n ∈ l, n ≤ l.foldl max a) ∧ (l.foldl max a = a ∨ l.foldl max a ∈ l) := by
    intro l
    induction l with
    | nil => intro a; simp
    | cons x l ih =>
      intro a
      obtain ⟨⟨h1, h2⟩, h3⟩ := ih (max a x)
      rw [List.foldl_cons]
      refine ⟨⟨le_trans (le_max_left _ _) h1, fun n hn => ?_⟩, ?_⟩
      · rcases List.mem_cons.1 hn with rfl | hn
        · exact le_trans (le_max_right _ _) h1
        · exact h2 n hn
      · rcases h3 with h3 | h3
        · rcases max_choice a x with h | h
          · left; rw [h3, h]
          · right; rw [h3, h]; simp
        · right; exact List.mem_cons_of_mem _ h3
  obtain ⟨⟨-, h2⟩, h3⟩ := h l 0
  refine ⟨h2, ?_⟩
  cases l with
  | nil => exact Or.inl ⟨rfl, rfl⟩
  | cons x l =>
    right
    rcases h3 with h3 | h3
    · have := h2 x (by simp)
      have hx : x = 0 := by omega
      unfold noElParameters
      rw [h3, hx]; simp
    · exact h3

/-- **C95**: with a history-dependent material, only the projection using integration point values is accepted; otherwise any projection is. -/
theorem C95_projection (mats : List (Mat K)) (project : List Bool) :
    projectionOk mats project = true ↔ (∃ p, Mat.plastic p ∈ mats) → ∀ m ∈ project, m = true := by
  unfold projectionOk
  have h : mats.any isHistory = true ↔ ∃ p, Mat.plastic p ∈ mats := by
    rw [List.any_eq_true]
    constructor
    · rintro ⟨m, hm, h⟩
      cases m <;> simp [isHistory] at h
      exact ⟨_, hm⟩
    · rintro ⟨p, hp⟩; exact ⟨_, hp, rfl⟩
  by_cases hh : mats.any isHistory = true
  · rw [if_pos hh]
    have := h.1 hh
    simp [this]
  · rw [if_neg hh]
    exact ⟨fun _ h' => absurd (h.2 h') hh, fun _ => rfl⟩

/-! ### Concrete cases -/

/-- Truncation of a rational number. -/
def truncQ (x : ℚ) : Int := if 0 ≤ x then ⌊x⌋ else ⌈x⌉

/-- A plastic material with Voce hardening given by attributes. -/
def exAttr : String → Option ℚ := fun n =>
  if n = "E" then some 200 else if n = "nu" then some (3/10) else if n = "yield" then some 6 else if n = "Y0" then some 4 else if n = "Q1" then some 7
  else if n = "C1" then some 8 else if n = "Q2" then some 9 else if n = "C2" then some 11 else none

example : ∃ (e : PElem ℚ Unit), (∀ c ∈ e.children, ∃ f, c = .hardening f) ∧ e.attr "yield" = some 6 ∧ e.attr "Y0" = some 4 ∧ e.attr "Q1" = some 7 ∧ e.attr "C1" = some 8 ∧
    e.attr "Q2" = some 9 ∧ e.attr "C2" = some 11 ∧ truncQ 6 = 6 :=
  ⟨⟨exAttr, [.hardening none], [1, 2]⟩, by simp, by decide +kernel, by decide +kernel, by decide +kernel, by decide +kernel, by decide +kernel, by decide +kernel, by decide +kernel⟩

example : plasticXml truncQ (fun _ => 0) (⟨exAttr, [], []⟩ : PElem ℚ Unit) = [200, 3/10, 0, 0, 0, 0, 6, 4, 7, 8, 0, 9, 11] := by decide +kernel

example : ([210, 0.3, 0, 0, 0, 0, 6] : List ℝ).length < 13 ∧ ([210, 0.3, 0, 0, 0, 0, 6] : List ℝ)[6]? = some 6 ∧ Verif.Plastic.toInt (6 : ℝ) = 6 := by
  refine ⟨by simp, by simp, ?_⟩
  unfold Verif.Plastic.toInt
  norm_num

example : projectionOk [.linIso3, .plastic ([1, 2] : List ℚ)] [true, false] = false ∧ projectionOk [(.linIso3 : Mat ℚ)] [true, false] = true := ⟨rfl, rfl⟩

end Verif.FDInput
