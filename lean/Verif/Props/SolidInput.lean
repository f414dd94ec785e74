/-
C131: Materials and data of a solid model are those written in the input.
-/
import Verif.Model.SolidInput
import Mathlib.Tactic.Linarith
import Mathlib.Tactic.NormNum
import Mathlib.Data.Rat.Cast.Order

namespace Verif.SolidInput

open Verif.LinIso (Pt FE Mat evaluate)

variable {K : Type} [Field K] [LinearOrder K] [IsStrictOrderedRing K] {F : Type}

/-! ### Materials -/

theorem childStep_const (lib : Lib K) (first : Option Child) (m : Iso K) (c : Child) :
    let r := childStep lib first m c
    r.Emod = m.Emod ∧ r.nu = m.nu ∧ r.rho = m.rho ∧ r.alpha = m.alpha ∧ r.heatcapacity = m.heatcapacity ∧ r.conductivity = m.conductivity ∧ r.planeStress = m.planeStress ∧ r.axiSymmetry = m.axiSymmetry := by
  unfold childStep
  dsimp only
  split_ifs <;> exact ⟨rfl, rfl, rfl, rfl, rfl, rfl, rfl, rfl⟩

theorem fold_const (lib : Lib K) (first : Option Child) (cs : List Child) (m : Iso K) :
    let r := cs.foldl (childStep lib first) m
    r.Emod = m.Emod ∧ r.nu = m.nu ∧ r.rho = m.rho ∧ r.alpha = m.alpha ∧ r.heatcapacity = m.heatcapacity ∧ r.conductivity = m.conductivity ∧ r.planeStress = m.planeStress ∧ r.axiSymmetry = m.axiSymmetry := by
  induction cs generalizing m with
  | nil => exact ⟨rfl, rfl, rfl, rfl, rfl, rfl, rfl, rfl⟩
  | cons c cs ih =>
    obtain ⟨a1, a2, a3, a4, a5, a6, a7, a8⟩ := ih (childStep lib first m c)
    obtain ⟨b1, b2, b3, b4, b5, b6, b7, b8⟩ := childStep_const lib first m c
    exact ⟨a1.trans b1, a2.trans b2, a3.trans b3, a4.trans b4, a5.trans b5, a6.trans b6, a7.trans b7, a8.trans b8⟩

theorem defaultE_nonneg (ps ax : Bool) : (0 : K) ≤ (defaultIso (K := K) ps ax).Emod := by
  simp only [defaultIso]
  norm_num

/-- The constants of a material are the attributes given, otherwise the values for steel. -/
theorem C131_constants (lib : Lib K) (ps ax : Bool) (e : Elem K) :
    let m := parseIso lib (defaultIso ps ax) e
    m.Emod = (e.att "E").getD 205000000000 ∧ m.nu = (e.att "nu").getD (29 / 100) ∧ m.rho = (e.att "rho").getD 7850 ∧ m.alpha = (e.att "alpha").getD (12 / 100000000) ∧
      m.heatcapacity = (e.att "cp").getD 1 ∧ m.conductivity = (e.att "kappa").getD 1 ∧ m.planeStress = ps ∧ m.axiSymmetry = ax := by
  obtain ⟨a1, a2, a3, a4, a5, a6, a7, a8⟩ := fold_const lib e.children.head? e.children (attributes (defaultIso ps ax) e.att)
  refine ⟨a1.trans ?_, a2, a3, a4, a5, a6, a7, a8⟩
  simp only [attributes, if_pos (defaultE_nonneg (K := K) ps ax)]
  rfl

/-- The function of space that a child gives for a property. -/
def givenSpace (lib : Lib K) (c : Child) (tag : String) : Option (Pt K → K) := if c.tag = tag then c.text.bind fun t => lib.real t c.type else none

/-- The function of one variable that a child gives for a property. -/
def givenScalar (lib : Lib K) (c : Child) (tag : String) : Option (K → K) := if c.tag = tag then c.text.bind fun t => lib.time t c.type else none

theorem parse_single (lib : Lib K) (ps ax : Bool) (a : String → Option K) (c : Child) (hE : 0 ≤ (a "E").getD 205000000000) :
    let m := parseIso lib (defaultIso ps ax) ⟨a, [c]⟩
    (m.Efunc = if c.aging = some true then none else givenSpace lib c "stiffness") ∧ (m.Eaging = if c.aging = some true then givenScalar lib c "stiffness" else none) ∧ m.nuFunc = givenSpace lib c "poisson" ∧
      m.rhoFunc = givenSpace lib c "density" ∧ m.Afunc = givenScalar lib c "thermalexpansion" ∧ m.Cpfunc = givenScalar lib c "heatcapacity" ∧ m.condFunc = givenScalar lib c "conductivity" := by
  have h0 : (0 : K) ≤ (attributes (defaultIso ps ax) a).Emod := by
    simp only [attributes, if_pos (defaultE_nonneg (K := K) ps ax)]
    exact hE
  have hn : (attributes (defaultIso (K := K) ps ax) a).Efunc.isNone = true := rfl
  simp only [parseIso, List.foldl_cons, List.foldl_nil, List.head?_cons, childStep, spatialFunc, scalarFunc, Option.bind_some, givenSpace, givenScalar, h0, hn, and_self, if_true]
  by_cases h1 : c.tag = "stiffness"
  · by_cases hg : c.aging = some true
    · simp only [h1, hg, if_true]
      refine ⟨rfl, trivial, ?_, ?_, ?_, ?_, ?_⟩ <;> rw [if_neg (by decide)] <;> rfl
    · simp only [h1, hg, if_true, if_false]
      refine ⟨trivial, rfl, ?_, ?_, ?_, ?_, ?_⟩ <;> rw [if_neg (by decide)] <;> rfl
  · simp only [h1, if_false, ite_self]
    by_cases h2 : c.tag = "poisson"
    · simp only [h2, if_true]
      refine ⟨rfl, rfl, trivial, ?_, ?_, ?_, ?_⟩ <;> rw [if_neg (by decide)] <;> rfl
    · by_cases h3 : c.tag = "density"
      · simp only [h3, if_true]
        refine ⟨rfl, rfl, ?_, rfl, ?_, ?_, ?_⟩ <;> rw [if_neg (by decide)] <;> rfl
      · by_cases h4 : c.tag = "thermalexpansion"
        · simp only [h4, if_true]
          refine ⟨rfl, rfl, ?_, ?_, rfl, ?_, ?_⟩ <;> rw [if_neg (by decide)] <;> rfl
        · by_cases h5 : c.tag = "heatcapacity"
          · simp only [h5, if_true]
            refine ⟨rfl, rfl, ?_, ?_, ?_, rfl, ?_⟩ <;> rw [if_neg (by decide)] <;> rfl
          · by_cases h6 : c.tag = "conductivity"
            · simp only [h6, if_true]
              refine ⟨rfl, rfl, ?_, ?_, ?_, ?_, rfl⟩ <;> rw [if_neg (by decide)] <;> rfl
            · simp only [h2, h3, h4, h5, h6, if_false]
              exact ⟨rfl, rfl, rfl, rfl, rfl, rfl, rfl⟩

/-- A material with at most one property function: at every point and temperature the properties are the function where it is given and the constants otherwise. -/
theorem C131_material_partial (lib : Lib K) (ps ax : Bool) (a : String → Option K) (cs : List Child) (hcs : cs = [] ∨ ∃ c, cs = [c]) (hE : 0 ≤ (a "E").getD 205000000000) (X : Pt K) (fe : FE K) (T : K) :
    let m := parseIso lib (defaultIso ps ax) ⟨a, cs⟩
    let sp := fun tag => (cs.head?.bind fun c => givenSpace lib c tag).map fun f => f X
    let sc := fun tag x => (cs.head?.bind fun c => givenScalar lib c tag).map fun f : K → K => f x
    let aging := cs.head?.bind fun c => c.aging
    m.toMat.young fe X = (if aging = some true then sc "stiffness" fe.age else sp "stiffness").getD ((a "E").getD 205000000000) ∧ getPoissonRatio m X = (sp "poisson").getD ((a "nu").getD (29 / 100)) ∧
      getMassDensity m X = (sp "density").getD ((a "rho").getD 7850) ∧ getThermalExpansion m T = (sc "thermalexpansion" T).getD ((a "alpha").getD (12 / 100000000)) ∧
      getHeatCapacity m T = (sc "heatcapacity" T).getD ((a "cp").getD 1) ∧ getThermalConductivity m T = (sc "conductivity" T).getD ((a "kappa").getD 1) := by
  obtain ⟨k1, k2, k3, k4, k5, k6, -, -⟩ := C131_constants lib ps ax ⟨a, cs⟩
  dsimp only at k1 k2 k3 k4 k5 k6
  dsimp only
  rcases hcs with h | ⟨c, h⟩
  · subst h
    simp only [Mat.young, Iso.toMat, getPoissonRatio, getMassDensity, getThermalExpansion, getHeatCapacity, getThermalConductivity, k1, k2, k3, k4, k5, k6]
    exact ⟨rfl, rfl, rfl, rfl, rfl, rfl⟩
  · subst h
    obtain ⟨h1, h2, h3, h4, h5, h6, h7⟩ := parse_single lib ps ax a c hE
    simp only [Mat.young, Iso.toMat, getPoissonRatio, getMassDensity, getThermalExpansion, getHeatCapacity, getThermalConductivity, k1, k2, k3, k4, k5, k6, h1, h2, h3, h4, h5, h6, h7, List.head?_cons, Option.bind_some]
    refine ⟨?_, ?_, ?_, ?_, ?_, ?_⟩
    · by_cases hg : c.aging = some true
      · simp only [hg, if_true]
        cases givenScalar lib c "stiffness" <;> rfl
      · simp only [hg, if_false]
        cases givenSpace lib c "stiffness" <;> rfl
    · cases givenSpace lib c "poisson" <;> rfl
    · cases givenSpace lib c "density" <;> rfl
    · cases givenScalar lib c "thermalexpansion" <;> rfl
    · cases givenScalar lib c "heatcapacity" <;> rfl
    · cases givenScalar lib c "conductivity" <;> rfl

/-- In a material with several property functions all functions are read from the first child element: Poisson's ratio and the density are the function given for the stiffness. -/
theorem C131_functions_violated (lib : Lib K) (ps ax : Bool) (a : String → Option K) (t1 t2 t3 : String) (f : Pt K → K) (hf : lib.real t1 "" = some f) (X : Pt K) :
    let m := parseIso lib (defaultIso ps ax) ⟨a, [{ tag := "stiffness", text := some t1 }, { tag := "poisson", text := some t2 }, { tag := "density", text := some t3 }]⟩
    getPoissonRatio m X = f X ∧ getMassDensity m X = f X := by
  have e1 : ("poisson" = "stiffness") = False := by simp
  have e2 : ("density" = "stiffness") = False := by simp
  have e3 : ("density" = "poisson") = False := by simp
  simp only [parseIso, List.foldl_cons, List.foldl_nil, List.head?_cons, childStep, spatialFunc, Option.bind_some, hf, e1, e2, e3, if_true, if_false, getPoissonRatio, getMassDensity]
  exact ⟨trivial, trivial⟩

/-- Two functions of the input, and the consequence for a typical modulus: the material is rejected at every point although Poisson's ratio is 3/10 in the input. -/
theorem C131_rejected_violated : ∃ (lib : Lib ℚ) (e : Elem ℚ), lib.real "0.3" "" = some (fun _ => 3 / 10) ∧ { tag := "poisson", text := some "0.3" : Child } ∈ e.children ∧
    ∀ fe X eps iop, (evaluate (parseIso lib (defaultIso false false) e).toMat 3 6 fe X eps iop).2 = .fail := by
  refine ⟨⟨fun t _ => if t = "0.3" then some (fun _ => 3 / 10) else some (fun _ => 210), fun _ _ => none⟩,
    ⟨fun _ => none, [{ tag := "stiffness", text := some "210" }, { tag := "poisson", text := some "0.3" }]⟩, rfl, by simp, ?_⟩
  intro fe X eps iop
  have e1 : ("poisson" = "stiffness") = False := by simp
  have e2 : ("210" = "0.3") = False := by simp
  simp only [evaluate, Mat.updNu, Iso.toMat, parseIso, List.foldl_cons, List.foldl_nil, List.head?_cons, childStep, spatialFunc, Option.bind_some, e1, e2, if_true, if_false]
  norm_num

/-! ### The context element -/

/-- The plane strain option given with a material. -/
def strainOf : Tag K F → Option Bool
  | .isotropic _ ps _ => ps
  | .texture _ ps _ => ps
  | _ => none

/-- Is it a material. -/
def isMat : Tag K F → Bool
  | .isotropic .. => true
  | .texture .. => true
  | _ => false

/-- The body force that acts: it has a function and a positive code. -/
def bodyOf : Tag K F → Option (Int × F)
  | .bodyforce sc c (some (some f)) => if sc ≠ 0 then (if sc > 0 then some (sc, f) else none) else (c.bind fun c => if c > 0 then some (c, f) else none)
  | _ => none

/-- The stabilisation parameter. -/
def gammaOf : Tag K F → Option K
  | .stabilization g => g
  | _ => none

/-- The supported local system. -/
def locOf : Tag K F → Option (LocSys K)
  | .localsystem (some t) H => if t = "cylindricz" then some .cylindricZ else if t = "cylinder+sphere" then some (.cylinderSphere (H.getD 0)) else none
  | _ => none

/-- The status of the parsers of other elements. -/
def okOf : Tag K F → Bool
  | .other ok => ok
  | _ => true

/-- Not a texture material in a domain that is no unit square. -/
def DomainOk : Tag K F → Prop
  | .texture _ _ d => d = true
  | _ => True

/-- The last element for which something is given. -/
def lastSome {A B : Type} (sel : A → Option B) (l : List A) : Option B := (l.filterMap sel).getLast?

theorem lastSome_getD {A B : Type} (sel : A → Option B) (a : A) (l : List A) (d : B) : (lastSome sel (a :: l)).getD d = (lastSome sel l).getD ((sel a).getD d) := by
  unfold lastSome
  cases h : sel a with
  | none => simp [List.filterMap_cons, h]
  | some b =>
    simp only [List.filterMap_cons, h]
    rcases e : l.filterMap sel with _ | ⟨c, cs⟩
    · simp
    · rw [List.getLast?_cons_cons]
      cases h' : (c :: cs).getLast? with
      | none => simp at h'
      | some w => rfl

theorem lastSome_or {A B : Type} (sel : A → Option B) (a : A) (l : List A) (d : Option B) : (lastSome sel (a :: l)).or d = (lastSome sel l).or ((sel a).or d) := by
  unfold lastSome
  cases h : sel a with
  | none => simp [List.filterMap_cons, h]
  | some b =>
    simp only [List.filterMap_cons, h]
    rcases e : l.filterMap sel with _ | ⟨c, cs⟩
    · simp
    · rw [List.getLast?_cons_cons]
      cases h' : (c :: cs).getLast? with
      | none => simp at h'
      | some w => rfl

/-- The material of an element, for the plane strain option in force. -/
def matOf (lib : Lib K) (nsd : Nat) (ax strain : Bool) : Tag K F → Option (AnyMat K)
  | .isotropic _ _ e => some (.iso (parseIso lib (defaultIso (decide (nsd = 2) && !strain) ax) e))
  | .texture .. => some (.texture (decide (nsd = 2) && !strain) ax)
  | _ => none

/-- The code of a material. -/
def codeOf : Tag K F → Int
  | .isotropic c _ _ => c
  | .texture c _ _ => c
  | _ => 0

theorem newPlaneStress_eq (nsd : Nat) (b : Bool) : newPlaneStress nsd b = (decide (nsd = 2) && !b) := by
  unfold newPlaneStress
  by_cases h : nsd = 2 <;> simp [h]

theorem step_ok (lib : Lib K) (nsd : Nat) (ax : Bool) (s : St K F) (t : Tag K F) (h : DomainOk t) :
    ∃ s', step lib nsd ax s t = (s', okOf t, true) ∧ s'.planeStrain = (strainOf t).getD s.planeStrain ∧ s'.bodies = s.bodies ++ (bodyOf t).toList ∧ s'.gamma = (gammaOf t).getD s.gamma ∧ s'.locSys = (locOf t).or s.locSys ∧
      s'.mats = s.mats ++ (matOf lib nsd ax ((strainOf t).getD s.planeStrain) t).toList ∧ s'.codes = s.codes ++ (if isMat t then [(codeOf t, s.mats.length)] else []) := by
  cases t with
  | isotropic c ps e =>
    refine ⟨_, rfl, rfl, (List.append_nil _).symm, rfl, rfl, ?_, rfl⟩
    simp only [newPlaneStress_eq]
    rfl
  | texture c ps d =>
    have hd : d = true := h
    subst hd
    refine ⟨_, rfl, rfl, (List.append_nil _).symm, rfl, rfl, ?_, rfl⟩
    simp only [newPlaneStress_eq]
    rfl
  | bodyforce sc c f =>
    rcases f with _ | _ | f
    · exact ⟨s, rfl, rfl, (List.append_nil _).symm, rfl, rfl, (List.append_nil _).symm, (List.append_nil _).symm⟩
    · exact ⟨s, rfl, rfl, (List.append_nil _).symm, rfl, rfl, (List.append_nil _).symm, (List.append_nil _).symm⟩
    · simp only [step, bodyOf]
      by_cases h0 : sc = 0
      · subst h0
        rcases c with _ | c
        · refine ⟨s, by simp [okOf], rfl, (List.append_nil _).symm, rfl, rfl, (List.append_nil _).symm, (List.append_nil _).symm⟩
        · by_cases hc : c > 0
          · refine ⟨{ s with bodies := s.bodies ++ [(c, f)] }, by simp [okOf, hc], rfl, by simp [hc], rfl, rfl, (List.append_nil _).symm, (List.append_nil _).symm⟩
          · refine ⟨s, by simp [okOf, hc], rfl, by simp [hc], rfl, rfl, (List.append_nil _).symm, (List.append_nil _).symm⟩
      · by_cases hc : sc > 0
        · refine ⟨{ s with bodies := s.bodies ++ [(sc, f)] }, by simp [okOf, hc, h0], rfl, by simp [hc, h0], rfl, rfl, (List.append_nil _).symm, (List.append_nil _).symm⟩
        · refine ⟨s, by simp [okOf, hc, h0], rfl, by simp [hc, h0], rfl, rfl, (List.append_nil _).symm, (List.append_nil _).symm⟩
  | stabilization g => exact ⟨_, rfl, rfl, (List.append_nil _).symm, rfl, rfl, (List.append_nil _).symm, (List.append_nil _).symm⟩
  | localsystem t H =>
    refine ⟨_, rfl, rfl, (List.append_nil _).symm, rfl, ?_, (List.append_nil _).symm, (List.append_nil _).symm⟩
    cases t with
    | none => rfl
    | some t =>
      simp only [parseLocalSystem, locOf]
      split_ifs <;> rfl
  | other ok => exact ⟨_, rfl, rfl, (List.append_nil _).symm, rfl, rfl, (List.append_nil _).symm, (List.append_nil _).symm⟩

/-- What is read from the context element: the status is that of all parsers, body forces are kept in the order of the input, stabilisation, local system and plane strain option are those given last. -/
theorem C131_solid (lib : Lib K) (nsd : Nat) (ax : Bool) (ts : List (Tag K F)) (s : St K F) (ok : Bool) (h : ∀ t ∈ ts, DomainOk t) :
    let r := parse lib nsd ax ts s ok
    r.2 = (ok && ts.all okOf) ∧ r.1.planeStrain = (lastSome strainOf ts).getD s.planeStrain ∧ r.1.bodies = s.bodies ++ ts.filterMap bodyOf ∧ r.1.gamma = (lastSome gammaOf ts).getD s.gamma ∧
      r.1.locSys = (lastSome locOf ts).or s.locSys := by
  induction ts generalizing s ok with
  | nil => exact ⟨by simp [parse], rfl, (List.append_nil _).symm, rfl, rfl⟩
  | cons t ts ih =>
    obtain ⟨s1, e, a1, a2, a3, a4, -, -⟩ := step_ok lib nsd ax s t (h t List.mem_cons_self)
    obtain ⟨b1, b2, b3, b4, b5⟩ := ih s1 (ok && okOf t) fun t' ht' => h t' (List.mem_cons_of_mem _ ht')
    simp only [parse, e]
    refine ⟨?_, ?_, ?_, ?_, ?_⟩
    · rw [b1, List.all_cons, Bool.and_assoc]
    · rw [b2, a1, lastSome_getD]
    · rw [b3, a2, List.append_assoc]
      refine congrArg _ ?_
      rw [List.filterMap_cons]
      cases bodyOf t <;> rfl
    · rw [b4, a3, lastSome_getD]
    · rw [b5, a4, lastSome_or]

theorem parse_append (lib : Lib K) (nsd : Nat) (ax : Bool) (ts us : List (Tag K F)) (s : St K F) (ok : Bool) (h : ∀ t ∈ ts, DomainOk t) :
    parse lib nsd ax (ts ++ us) s ok = parse lib nsd ax us (parse lib nsd ax ts s ok).1 (parse lib nsd ax ts s ok).2 := by
  induction ts generalizing s ok with
  | nil => rfl
  | cons t ts ih =>
    obtain ⟨s1, e, -⟩ := step_ok lib nsd ax s t (h t List.mem_cons_self)
    simp only [List.cons_append, parse, e]
    exact ih s1 _ fun t' ht' => h t' (List.mem_cons_of_mem _ ht')

theorem parse_mats (lib : Lib K) (nsd : Nat) (ax : Bool) (ts : List (Tag K F)) (s : St K F) (ok : Bool) (h : ∀ t ∈ ts, DomainOk t) :
    ∃ ms cs, (parse lib nsd ax ts s ok).1.mats = s.mats ++ ms ∧ (parse lib nsd ax ts s ok).1.codes = s.codes ++ cs ∧ ms.length = (ts.filter isMat).length := by
  induction ts generalizing s ok with
  | nil => exact ⟨[], [], (List.append_nil _).symm, (List.append_nil _).symm, rfl⟩
  | cons t ts ih =>
    obtain ⟨s1, e, -, -, -, -, a5, a6⟩ := step_ok lib nsd ax s t (h t List.mem_cons_self)
    obtain ⟨ms, cs, b1, b2, b3⟩ := ih s1 (ok && okOf t) fun t' ht' => h t' (List.mem_cons_of_mem _ ht')
    simp only [parse, e]
    refine ⟨_, _, by rw [b1, a5, List.append_assoc], by rw [b2, a6, List.append_assoc], ?_⟩
    cases t <;> simp [matOf, isMat, List.filter_cons, b3] <;> omega

/-- Each material element gives a material, registered for its code under its number in the order of the input; a two-dimensional material is in plane strain exactly if the option given last up to it says so. -/
theorem C131_materials (lib : Lib K) (nsd : Nat) (ax : Bool) (pre post : List (Tag K F)) (code : Int) (ps : Option Bool) (e : Elem K) (s : St K F) (ok : Bool)
    (h : ∀ t ∈ pre ++ post, DomainOk t) :
    let r := (parse lib nsd ax (pre ++ .isotropic code ps e :: post) s ok).1
    let n := s.mats.length + (pre.filter isMat).length
    let strain := ps.getD ((lastSome strainOf pre).getD s.planeStrain)
    r.mats[n]? = some (.iso (parseIso lib (defaultIso (decide (nsd = 2) && !strain) ax) e)) ∧ (code, n) ∈ r.codes := by
  have hpre : ∀ t ∈ pre, DomainOk t := fun t ht => h t (List.mem_append_left _ ht)
  have hpost : ∀ t ∈ post, DomainOk t := fun t ht => h t (List.mem_append_right _ ht)
  dsimp only
  rw [parse_append lib nsd ax pre _ s ok hpre]
  obtain ⟨ms, cs, b1, b2, b3⟩ := parse_mats lib nsd ax pre s ok hpre
  obtain ⟨-, c2, -, -, -⟩ := C131_solid lib nsd ax pre s ok hpre
  generalize hs1 : (parse lib nsd ax pre s ok).1 = s1 at b1 b2 c2
  obtain ⟨s2, e2, -, -, -, -, a5, a6⟩ := step_ok lib nsd ax s1 (.isotropic code ps e) trivial
  simp only [parse, e2]
  obtain ⟨ms', cs', d1, d2, -⟩ := parse_mats lib nsd ax post s2 ((parse lib nsd ax pre s ok).2 && okOf (.isotropic code ps e : Tag K F)) hpost
  rw [d1, d2, a5, a6, b1]
  have hl : s.mats.length + (pre.filter isMat).length = (s.mats ++ ms).length := by rw [List.length_append, b3]
  rw [hl]
  constructor
  · rw [List.append_assoc _ _ ms', List.getElem?_append_right (le_refl _), Nat.sub_self]
    simp only [matOf, strainOf, Option.toList_some, List.cons_append, List.getElem?_cons_zero, c2]
  · simp [isMat, codeOf]

/-- A texture material in a domain that is not the unit square ends the reading with an error. -/
theorem C131_domain (lib : Lib K) (nsd : Nat) (ax : Bool) (pre post : List (Tag K F)) (code : Int) (ps : Option Bool) (s : St K F) (ok : Bool) (h : ∀ t ∈ pre, DomainOk t) :
    (parse lib nsd ax (pre ++ .texture code ps false :: post) s ok).2 = false := by
  rw [parse_append lib nsd ax pre _ s ok h]
  rfl

theorem reread_rel (lib : Lib K) (nsd : Nat) (ax : Bool) (ts : List (Tag K F)) (s t : St K F) (ok : Bool) (h : ∀ t ∈ ts, DomainOk t) (h1 : s.planeStrain = t.planeStrain) (h2 : s.mats = t.mats) (h3 : s.codes = t.codes) :
    (parse lib nsd ax ts s ok).1.mats = (parse lib nsd ax ts t ok).1.mats ∧ (parse lib nsd ax ts s ok).1.codes = (parse lib nsd ax ts t ok).1.codes := by
  induction ts generalizing s t ok with
  | nil => exact ⟨h2, h3⟩
  | cons u us ih =>
    obtain ⟨s1, e, a1, -, -, -, a5, a6⟩ := step_ok lib nsd ax s u (h u List.mem_cons_self)
    obtain ⟨t1, f, b1, -, -, -, b5, b6⟩ := step_ok lib nsd ax t u (h u List.mem_cons_self)
    simp only [parse, e, f]
    exact ih s1 t1 _ (fun t' ht' => h t' (List.mem_cons_of_mem _ ht')) (by rw [a1, b1, h1]) (by rw [a5, b5, h1, h2]) (by rw [a6, b6, h2, h3])

/-- Reading the input again after `clearProperties` gives the same model if the plane strain option is the same in the end as it was in the beginning. -/
theorem C131_reread_partial (lib : Lib K) (nsd : Nat) (ax : Bool) (ts : List (Tag K F)) (s : St K F) (hs : s.mats = [] ∧ s.codes = [] ∧ s.bodies = []) (h : ∀ t ∈ ts, DomainOk t)
    (hp : (lastSome strainOf ts).getD s.planeStrain = s.planeStrain) :
    parse lib nsd ax ts (clear (parse lib nsd ax ts s true).1) true = parse lib nsd ax ts s true := by
  obtain ⟨b1, b2, b3, b4, b5⟩ := C131_solid lib nsd ax ts s true h
  obtain ⟨c1, c2, c3, c4, c5⟩ := C131_solid lib nsd ax ts (clear (parse lib nsd ax ts s true).1) true h
  have hc : (clear (parse lib nsd ax ts s true).1).planeStrain = s.planeStrain := b2.trans hp
  obtain ⟨d1, d2⟩ := reread_rel lib nsd ax ts (clear (parse lib nsd ax ts s true).1) s true h hc hs.1.symm hs.2.1.symm
  refine Prod.ext ?_ (c1.trans b1.symm)
  have e2 : (parse lib nsd ax ts (clear (parse lib nsd ax ts s true).1) true).1.planeStrain = (parse lib nsd ax ts s true).1.planeStrain := by rw [c2, b2, hc]
  have e3 : (parse lib nsd ax ts (clear (parse lib nsd ax ts s true).1) true).1.bodies = (parse lib nsd ax ts s true).1.bodies := by rw [c3, b3, hs.2.2]; rfl
  have e4 : (parse lib nsd ax ts (clear (parse lib nsd ax ts s true).1) true).1.gamma = (parse lib nsd ax ts s true).1.gamma := by
    rw [c4]
    change _ = (parse lib nsd ax ts s true).1.gamma
    have : (clear (parse lib nsd ax ts s true).1).gamma = (parse lib nsd ax ts s true).1.gamma := rfl
    rw [this, b4]
    cases lastSome gammaOf ts <;> rfl
  have e5 : (parse lib nsd ax ts (clear (parse lib nsd ax ts s true).1) true).1.locSys = (parse lib nsd ax ts s true).1.locSys := by
    rw [c5]
    have : (clear (parse lib nsd ax ts s true).1).locSys = (parse lib nsd ax ts s true).1.locSys := rfl
    rw [this, b5]
    cases lastSome locOf ts <;> rfl
  generalize (parse lib nsd ax ts (clear (parse lib nsd ax ts s true).1) true).1 = x at *
  generalize (parse lib nsd ax ts s true).1 = y at *
  obtain ⟨x1, x2, x3, x4, x5, x6⟩ := x
  obtain ⟨y1, y2, y3, y4, y5, y6⟩ := y
  simp only at d1 d2 e2 e3 e4 e5
  subst d1 d2 e2 e3 e4 e5
  rfl

/-- Two materials of which the second one has the option plane strain: the first material is in plane stress when the input is read, and in plane strain when it is read again in an adaptive simulation. -/
theorem C131_reread_violated (lib : Lib K) (e : Elem K) (s : St K F) (hs : s.mats = [] ∧ s.planeStrain = false) :
    let ts : List (Tag K F) := [.isotropic 1 none e, .isotropic 2 (some true) e]
    let first := parse lib 2 false ts s true
    let again := parse lib 2 false ts (clear first.1) true
    first.1.mats = [.iso (parseIso lib (defaultIso true false) e), .iso (parseIso lib (defaultIso false false) e)] ∧
      again.1.mats = [.iso (parseIso lib (defaultIso false false) e), .iso (parseIso lib (defaultIso false false) e)] := by
  simp only [parse, step, hs.1, hs.2, clear, newPlaneStress]
  exact ⟨rfl, rfl⟩

/-- A body force without set and code is ignored and the input is accepted. -/
theorem C131_bodyforce_violated (lib : Lib K) (nsd : Nat) (ax : Bool) (s : St K F) (f : F) : parse lib nsd ax [.bodyforce 0 none (some (some f))] s true = (s, true) := by
  simp [parse, step]

/-- An unknown local system is ignored and the input is accepted. -/
theorem C131_local_violated (lib : Lib K) (nsd : Nat) (ax : Bool) (s : St K F) : parse lib nsd ax [.localsystem (some "spherical") none] s true = (s, true) := by
  simp [parse, step, parseLocalSystem]

/-- A line gives the same local system as an element with the same data; an unknown name is reported. -/
theorem C131_local (atof : List Char → K) (old : Option (LocSys K)) (rest : List Char) :
    parseLocalLine atof old ("cylindricz".toList ++ rest) = (parseLocalSystem old (some "cylindricz") none, true) ∧
    parseLocalLine atof old ("cylinder+sphere".toList ++ rest) = (parseLocalSystem old (some "cylinder+sphere") (some (atof rest)), true) ∧
    (∀ line, ¬ "cylindricz".toList <+: line → ¬ "cylinder+sphere".toList <+: line → parseLocalLine atof old line = (old, false)) := by
  refine ⟨?_, ?_, ?_⟩
  · rw [parseLocalLine, if_pos (List.prefix_append _ _)]
    rfl
  · have hn : ¬ "cylindricz".toList <+: "cylinder+sphere".toList ++ rest := by
      rintro ⟨w, hw⟩
      have h8 := congrArg (fun l => l[7]?) hw
      have : "cylindricz".toList = ['c', 'y', 'l', 'i', 'n', 'd', 'r', 'i', 'c', 'z'] := by decide
      have h2 : "cylinder+sphere".toList = ['c', 'y', 'l', 'i', 'n', 'd', 'e', 'r', '+', 's', 'p', 'h', 'e', 'r', 'e'] := by decide
      rw [this, h2] at h8
      simp at h8
    rw [parseLocalLine, if_neg hn, if_pos (List.prefix_append _ _)]
    have : ("cylinder+sphere".toList ++ rest).drop 15 = rest := by
      have hl : "cylinder+sphere".toList.length = 15 := by decide
      rw [← hl, List.drop_left]
    rw [this]
    rfl
  · intro line h1 h2
    rw [parseLocalLine, if_neg h1, if_neg h2]

/-- A model with two materials, a body force and a local system meets the hypotheses; the second material has number one. -/
example : let ts : List (Tag ℚ Nat) := [.isotropic 1 none ⟨fun _ => none, []⟩, .bodyforce 0 (some 5) (some (some 7)), .localsystem (some "cylindricz") none, .isotropic 4 (some true) ⟨fun n => if n = "E" then some 9 else none, []⟩]
    let r := parse ⟨fun _ _ => none, fun _ _ => none⟩ 2 false ts ⟨false, [], [], [], 1, none⟩ true
    r.2 = true ∧ r.1.bodies = [(5, 7)] ∧ r.1.codes = [(1, 0), (4, 1)] ∧ r.1.planeStrain = true := by
  decide +kernel

/-- A single density function. -/
example : ∃ (lib : Lib ℚ), getMassDensity (parseIso lib (defaultIso false false) ⟨fun _ => none, [{ tag := "density", text := some "5" }]⟩) ⟨0, 0, 0⟩ = 5 := by
  refine ⟨⟨fun _ _ => some fun _ => 5, fun _ _ => none⟩, ?_⟩
  obtain ⟨-, -, h, -⟩ := C131_material_partial (K := ℚ) ⟨fun _ _ => some fun _ => 5, fun _ _ => none⟩ false false (fun _ => none) [{ tag := "density", text := some "5" }] (Or.inr ⟨_, rfl⟩)
    (by norm_num) ⟨0, 0, 0⟩ ⟨0, 0, 0⟩ 0
  rw [h]
  rfl

end Verif.SolidInput
