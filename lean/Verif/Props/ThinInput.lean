/-
Properties C106 and C107: beam and plate models and analytical plate solutions are those of the input.
-/
import Mathlib.Algebra.Order.Ring.Rat
import Mathlib.Tactic.Common
import Mathlib.Tactic.NormNum
import Verif.Model.ThinInput

set_option linter.unusedSectionVars false
set_option linter.unusedSimpArgs false
set_option linter.unusedVariables false

namespace Verif.ThinInput

variable {K : Type}

/-! ### Materials -/

/-- The materials of the simulator are those of a list of definitions. -/
def Parsed (l : List (Int × (Mat K × K))) (s : Sim K) : Prop :=
  s.mVec = l.map (·.2.1) ∧ s.tVec = l.map (·.2.2) ∧ (∀ e ∈ s.codes, e.2 < l.length) ∧
  ∀ i e, l[i]? = some e → 0 < e.1 → (∀ j e', i < j → l[j]? = some e' → e'.1 ≠ e.1) → indexOf s.codes e.1 = some i

theorem indexOf_snoc (codes : List (Int × Nat)) (c d : Int) (n : Nat) : indexOf (codes ++ [(c, n)]) d = if c = d then some n else indexOf codes d := by
  unfold indexOf
  by_cases h : c = d
  · simp [h]
  · simp [h]

theorem parsed_addMat (l : List (Int × (Mat K × K))) (s : Sim K) (h : Parsed l s) (c : Int) (m : Mat K × K) : Parsed (l ++ [(c, m)]) (addMat s c m) := by
  obtain ⟨h1, h2, h3, h4⟩ := h
  have hlen : s.mVec.length = l.length := by rw [h1]; simp
  refine ⟨by simp [addMat, h1], by simp [addMat, h2], ?_, ?_⟩
  · intro e he
    simp only [addMat] at he
    split at he
    · rw [List.mem_append, List.mem_singleton] at he
      rcases he with he | rfl
      · have := h3 e he; simp; omega
      · simp [hlen]
    · have := h3 e he; simp; omega
  · intro i e he hc hlast
    rw [List.getElem?_append] at he
    split at he
    · rename_i hi
      have hne : c ≠ e.1 := hlast l.length (c, m) hi (by simp)
      have hr : indexOf s.codes e.1 = some i := by
        refine h4 i e he hc fun j e' hj he' => hlast j e' hj ?_
        rw [List.getElem?_append_left (by have := (List.getElem?_eq_some_iff.1 he').1; omega)]
        exact he'
      simp only [addMat]
      split
      · rw [indexOf_snoc, if_neg hne, hr]
      · exact hr
    · rename_i hi
      have hi2 : i - l.length = 0 := by
        by_contra hh
        rw [List.getElem?_eq_none (by simp; omega)] at he
        cases he
      rw [hi2] at he
      obtain rfl : (c, m) = e := Option.some.inj he
      have hil : i = l.length := by omega
      simp only [addMat, if_pos (show c > 0 from hc)]
      rw [indexOf_snoc, if_pos rfl, hlen, hil]

theorem parsed_setFront [Zero K] [DecidableEq K] (l : List (Int × (Mat K × K))) (s : Sim K) (h : Parsed l s) : Parsed l (setFront s) := h

theorem parsed_matLines (f : List K → Res (Mat K × K)) (g : List K → Mat K × K) (ls : List (Int × List K)) (hok : ∀ l ∈ ls, f l.2 = .ok (g l.2)) (done : List (Int × (Mat K × K)))
    (s : Sim K) (h : Parsed done s) : ∃ s', matLines f ls.length ls s = .ok s' ∧ Parsed (done ++ ls.map fun l => (l.1, g l.2)) s' := by
  induction ls generalizing done s with
  | nil => exact ⟨s, rfl, by simpa using h⟩
  | cons l ls ih =>
    obtain ⟨s', e, p⟩ := ih (fun l hl => hok l (by simp [hl])) _ _ (parsed_addMat done s h l.1 (g l.2))
    refine ⟨s', ?_, by simpa using p⟩
    rw [List.length_cons, matLines, hok l (by simp)]
    exact e

theorem parsed_tags [Zero K] [DecidableEq K] (l done : List (Int × (Mat K × K))) (s : Sim K) (h : Parsed done s) : Parsed (done ++ l) (matTags l s) := by
  induction l generalizing done s with
  | nil => simpa [matTags] using h
  | cons e l ih =>
    have := ih _ _ (parsed_setFront _ _ (parsed_addMat done s h e.1 e.2))
    simpa [matTags] using this

theorem enter_parsed [Zero K] [DecidableEq K] (l : List (Int × (Mat K × K))) (s : Sim K) (h : Parsed l s) (c : Int) : ∃ s', enterRegion s c = .ok s' ∧ Parsed l s' := by
  unfold enterRegion
  cases hi : indexOf s.codes c with
  | none => exact ⟨s, rfl, h⟩
  | some i =>
    obtain ⟨h1, h2, h3, h4⟩ := h
    have hil : i < l.length := by
      unfold indexOf at hi
      cases hf : s.codes.reverse.find? (fun e => e.1 == c) with
      | none => simp [hf] at hi
      | some e =>
        simp only [hf, Option.map_some, Option.some.injEq] at hi
        have := List.mem_of_find?_eq_some hf
        rw [List.mem_reverse] at this
        rw [← hi]; exact h3 e this
    have hm : s.mVec.length = l.length := by rw [h1]; simp
    refine ⟨{ s with cur := some (l[i].2.1), thick := if l[i].2.2 ≠ 0 then l[i].2.2 else s.thick }, ?_, h1, h2, h3, h4⟩
    unfold initMaterial
    have hn : ¬ i ≥ s.mVec.length := by omega
    simp only [if_neg hn]
    have e1 : s.mVec[i]? = some l[i].2.1 := by rw [h1]; simp [hil]
    have e2 : s.tVec[i]? = some l[i].2.2 := by rw [h2]; simp [hil]
    rw [e1, e2]

theorem regions_parsed [Zero K] [DecidableEq K] (l : List (Int × (Mat K × K))) (cs : List Int) (s : Sim K) (h : Parsed l s) : ∃ s', enterRegions cs s = .ok s' ∧ Parsed l s' := by
  induction cs generalizing s with
  | nil => exact ⟨s, rfl, h⟩
  | cons c cs ih =>
    obtain ⟨s1, e1, p1⟩ := enter_parsed l s h c
    obtain ⟨s2, e2, p2⟩ := ih s1 p1
    exact ⟨s2, by rw [enterRegions, e1]; exact e2, p2⟩

theorem enter_value [Zero K] [DecidableEq K] (l : List (Int × (Mat K × K))) (s : Sim K) (h : Parsed l s) (i : Nat) (e : Int × (Mat K × K)) (he : l[i]? = some e) (hc : 0 < e.1)
    (hlast : ∀ j e', i < j → l[j]? = some e' → e'.1 ≠ e.1) :
    ∃ s', enterRegion s e.1 = .ok s' ∧ s'.cur = some e.2.1 ∧ s'.thick = if e.2.2 ≠ 0 then e.2.2 else s.thick := by
  obtain ⟨h1, h2, h3, h4⟩ := h
  obtain ⟨hil, hi⟩ := List.getElem?_eq_some_iff.1 he
  refine ⟨{ s with cur := some e.2.1, thick := if e.2.2 ≠ 0 then e.2.2 else s.thick }, ?_, rfl, rfl⟩
  unfold enterRegion
  rw [h4 i e he hc hlast]
  simp only [initMaterial]
  have hm : s.mVec.length = l.length := by rw [h1]; simp
  have hn : ¬ i ≥ s.mVec.length := by omega
  rw [if_neg hn]
  have e1 : s.mVec[i]? = some e.2.1 := by rw [h1]; simp [he]
  have e2 : s.tVec[i]? = some e.2.2 := by rw [h2]; simp [he]
  rw [e1, e2]

/-- C106, partial: in a model from tags a region has the material and the thickness, if not zero, which are given last for its code, whichever regions were integrated before. -/
theorem C106_region_partial [Zero K] [DecidableEq K] (t0 : K) (l : List (Int × (Mat K × K))) (i : Nat) (e : Int × (Mat K × K)) (he : l[i]? = some e) (hc : 0 < e.1)
    (hlast : ∀ j e', i < j → l[j]? = some e' → e'.1 ≠ e.1) (ht : e.2.2 ≠ 0) (before : List Int) :
    ∃ s1 s2, enterRegions before (matTags l ⟨[], [], [], none, t0⟩) = .ok s1 ∧ enterRegion s1 e.1 = .ok s2 ∧ s2.cur = some e.2.1 ∧ s2.thick = e.2.2 := by
  have hp : Parsed l (matTags l (⟨[], [], [], none, t0⟩ : Sim K)) := by
    have := parsed_tags l [] (⟨[], [], [], none, t0⟩ : Sim K) ⟨rfl, rfl, by simp, by simp⟩
    simpa using this
  obtain ⟨s1, e1, p1⟩ := regions_parsed l before _ hp
  obtain ⟨s2, e2, c2, t2⟩ := enter_value l s1 p1 i e he hc hlast
  exact ⟨s1, s2, e1, e2, c2, by rw [t2, if_pos ht]⟩

/-- C106, partial: the same for a model from text; `g` are the values of the lines. -/
theorem C106_text_region_partial [Zero K] [DecidableEq K] (t0 : K) (f : List K → Res (Mat K × K)) (g : List K → Mat K × K) (ls : List (Int × List K))
    (hok : ∀ l ∈ ls, f l.2 = .ok (g l.2)) (i : Nat) (l : Int × List K) (hl : ls[i]? = some l) (hc : 0 < l.1) (hlast : ∀ j l', i < j → ls[j]? = some l' → l'.1 ≠ l.1)
    (ht : (g l.2).2 ≠ 0) (before : List Int) :
    ∃ s s1 s2, matSection f ls.length ls ⟨[], [], [], none, t0⟩ = .ok s ∧ enterRegions before s = .ok s1 ∧ enterRegion s1 l.1 = .ok s2 ∧
      s2.cur = some (g l.2).1 ∧ s2.thick = (g l.2).2 := by
  obtain ⟨s', e', p'⟩ := parsed_matLines f g ls hok [] (⟨[], [], [], none, t0⟩ : Sim K) ⟨rfl, rfl, by simp, by simp⟩
  rw [List.nil_append] at p'
  obtain ⟨s1, e1, p1⟩ := regions_parsed _ before _ (parsed_setFront _ _ p')
  obtain ⟨s2, e2, c2, t2⟩ := enter_value _ s1 p1 i (l.1, g l.2) (by simp [hl]) hc (by
    intro j e'' hj he''
    rw [List.getElem?_map] at he''
    cases hq : ls[j]? with
    | none => simp [hq] at he''
    | some q =>
      simp only [hq, Option.map_some, Option.some.injEq] at he''
      rw [← he'']
      exact hlast j q hj hq)
  exact ⟨_, s1, s2, by rw [matSection, e'], e1, e2, c2, by rw [t2, if_pos ht]⟩

/-- C106: the values of a line of text, in the order modulus, (Poisson's ratio,) density, thickness; the density and the thickness are zero when missing. -/
theorem C106_line [Zero K] (E nu rho t : K) (r : List K) :
    beamLine (E :: rho :: t :: r) = .ok (⟨E, 0, rho⟩, t) ∧ beamLine [E, rho] = .ok (⟨E, 0, rho⟩, 0) ∧ beamLine [E] = .ok (⟨E, 0, 0⟩, 0) ∧
    plateLine (E :: nu :: rho :: t :: r) = .ok (⟨E, nu, rho⟩, t) ∧ plateLine [E, nu, rho] = .ok (⟨E, nu, rho⟩, 0) ∧ plateLine [E, nu] = .ok (⟨E, nu, 0⟩, 0) :=
  ⟨rfl, rfl, rfl, rfl, rfl, rfl⟩

/-- C106 fails for lines which are too short: a null pointer is converted. -/
theorem C106_short_line_violated [Zero K] (E : K) : beamLine ([] : List K) = .ub ∧ plateLine ([] : List K) = .ub ∧ plateLine [E] = .ub := ⟨rfl, rfl, rfl⟩

/-- C106: the default of a model is the first material, with its thickness if not zero. -/
theorem C106_default [Zero K] [DecidableEq K] (t0 : K) (e : Int × (Mat K × K)) (l : List (Int × (Mat K × K))) :
    (matTags (e :: l) ⟨[], [], [], none, t0⟩).cur = some e.2.1 ∧ (matTags (e :: l) ⟨[], [], [], none, t0⟩).thick = if e.2.2 ≠ 0 then e.2.2 else t0 := by
  have key : ∀ (l : List (Int × (Mat K × K))) (s : Sim K), s.mVec.head? = some e.2.1 → s.tVec.head? = some e.2.2 → s.cur = some e.2.1 →
      s.thick = (if e.2.2 ≠ 0 then e.2.2 else t0) →
      (matTags l s).cur = some e.2.1 ∧ (matTags l s).thick = if e.2.2 ≠ 0 then e.2.2 else t0 := by
    intro l
    induction l with
    | nil => intro s _ _ h1 h2; exact ⟨h1, h2⟩
    | cons x l ih =>
      intro s h1 h2 h3 h4
      rw [matTags, List.foldl_cons]
      have a1 : (s.mVec ++ [x.2.1]).head? = some e.2.1 := by rw [List.head?_append, h1]; rfl
      have a2 : (s.tVec ++ [x.2.2]).head? = some e.2.2 := by rw [List.head?_append, h2]; rfl
      refine ih _ a1 a2 ?_ ?_
      · simp only [setFront, addMat, a1]
      · simp only [setFront, addMat, a2, h4]
        split <;> rfl
  rw [matTags, List.foldl_cons]
  exact key l _ rfl rfl rfl rfl

/-- C106 fails for a thickness of zero, which is what a line without thickness has: the region has the thickness of the one before it. -/
theorem C106_thickness_violated (m : Mat ℚ) (t0 : ℚ) :
    (∃ s, enterRegions [1, 3] (matTags [(1, m, 1), (2, m, 2), (3, m, 0)] ⟨[], [], [], none, t0⟩) = .ok s ∧ s.thick = 1) ∧
    (∃ s, enterRegions [2, 3] (matTags [(1, m, 1), (2, m, 2), (3, m, 0)] ⟨[], [], [], none, t0⟩) = .ok s ∧ s.thick = 2) := by
  refine ⟨⟨_, rfl, ?_⟩, ⟨_, rfl, ?_⟩⟩ <;> simp [setFront, addMat, matTags]

/-- C106: a line with all values and a tag with the same attributes define the same material. -/
theorem C106_formats [Zero K] (dE drho dt E rho t : K) : beamLine [E, rho, t] = .ok (beamXml dE drho dt (some E) (some rho) (some t)) := rfl

/-- C106 fails for a material without density: it has none in text input and the default in tags. -/
theorem C106_density_violated [Zero K] (dE drho dt E t : K) (h : drho ≠ 0) : beamLine [E] = .ok (⟨E, 0, 0⟩, 0) ∧ (beamXml dE drho dt (some E) none (some t)).1.rho = drho ∧
    (beamXml dE drho dt (some E) none (some t)).1.rho ≠ 0 := ⟨rfl, rfl, h⟩

/-- C106 fails without materials: memory outside of the arrays is read. -/
theorem C106_no_material_violated [Zero K] [DecidableEq K] (t0 : K) (i : Nat) : initMaterial (⟨[], [], [], none, t0⟩ : Sim K) i = .ub := by
  simp [initMaterial]

example : ([(1, (⟨1, 0, 1⟩ : Mat ℚ), 2), (5, ⟨2, 0, 1⟩, 3)] : List (Int × (Mat ℚ × ℚ)))[1]? = some (5, ⟨2, 0, 1⟩, 3) ∧ (0 : Int) < 5 ∧ (3 : ℚ) ≠ 0 := ⟨rfl, by decide, by norm_num⟩

/-! ### Loads -/

/-- C106, partial: a section of point loads with all its lines defines these loads. -/
theorem C106_loads_partial [Zero K] [One K] [Neg K] (lines : List (Load K)) : loadSection lines.length lines [] = lines := by
  simp [loadSection, resize]

/-- C106 fails for two sections: the loads of the first one are lost. In a file which ends too early there are zero loads outside of the beam. -/
theorem C106_loads_violated [Zero K] [One K] [Neg K] (l1 l2 : List (Load K)) (h : l1.length = l2.length) :
    loadSection l2.length l2 (loadSection l1.length l1 []) = l2 ∧ loadSection (l1.length + 1) l1 [] = l1 ++ [⟨1, -1, 0⟩] := by
  constructor
  · rw [C106_loads_partial]
    simp [loadSection, resize, h]
  · simp [loadSection, resize, Load.new, Nat.add_sub_cancel_left]

/-- C106: all loads given by tags are kept in order. -/
theorem C106_load_tags (l old : List (Load K)) : l.foldl (fun o t => loadTag t o) old = old ++ l := by
  induction l generalizing old with
  | nil => simp
  | cons t l ih => rw [List.foldl_cons, ih, loadTag]; simp

theorem pres_fold {F : Type} (l : List (Int × F)) (h : (l.map Prod.fst).Nodup) (p : Pres F) :
    (∀ c, (l.foldl (fun p t => presLine p t.1 t.2) p).fn c = match l.find? (fun t => t.1 == c) with | some t => some t.2 | none => p.fn c) ∧
    ∀ c, c ∈ (l.foldl (fun p t => presLine p t.1 t.2) p).body ↔ c ∈ p.body ∨ (0 < c ∧ c ∈ l.map Prod.fst) := by
  induction l generalizing p with
  | nil => exact ⟨fun c => rfl, fun c => by simp⟩
  | cons t l ih =>
    rw [List.map_cons, List.nodup_cons] at h
    obtain ⟨h1, h2⟩ := ih h.2 (presLine p t.1 t.2)
    constructor
    · intro c
      rw [List.foldl_cons, h1, List.find?_cons]
      by_cases hc : t.1 = c
      · have : l.find? (fun t => t.1 == c) = none := by
          rw [List.find?_eq_none]
          intro x hx hxc
          simp only [beq_iff_eq] at hxc
          exact h.1 (List.mem_map.2 ⟨x, hx, by rw [hxc, hc]⟩)
        rw [this]
        simp [hc, presLine]
      · have hb : (t.1 == c) = false := by simpa using hc
        simp only [hb]
        cases l.find? (fun t => t.1 == c) with
        | some x => rfl
        | none => simp [presLine, Ne.symm hc]
    · intro c
      rw [List.foldl_cons, h2, List.map_cons, List.mem_cons, presLine]
      simp only
      split
      · rename_i hp
        rw [List.mem_append, List.mem_singleton]
        constructor
        · rintro ((a | rfl) | ⟨a, b⟩)
          · exact Or.inl a
          · exact Or.inr ⟨hp, Or.inl rfl⟩
          · exact Or.inr ⟨a, Or.inr b⟩
        · rintro (a | ⟨a, rfl | b⟩)
          · exact Or.inl (Or.inl a)
          · exact Or.inl (Or.inr rfl)
          · exact Or.inr ⟨a, b⟩
      · rename_i hp
        constructor
        · rintro (a | ⟨a, b⟩)
          · exact Or.inl a
          · exact Or.inr ⟨a, Or.inr b⟩
        · rintro (a | ⟨a, rfl | b⟩)
          · exact Or.inl a
          · exact absurd a hp
          · exact Or.inr ⟨a, b⟩

/-- C106, partial: the pressures acting on a patch are those of text input with code zero and with the codes of the patch. -/
theorem C106_pressure_partial {F : Type} (l : List (Int × F)) (h : (l.map Prod.fst).Nodup) (codes : List Int) (hc : ∀ c ∈ codes, 0 < c) (f : F) :
    f ∈ initBodyLoad (l.foldl (fun p t => presLine p t.1 t.2) ⟨fun _ => none, []⟩) codes ↔ ∃ c, (c, f) ∈ l ∧ (c = 0 ∨ c ∈ codes) := by
  obtain ⟨h1, h2⟩ := pres_fold l h ⟨fun _ => none, []⟩
  have key : ∀ c, f ∈ ((l.foldl (fun p t => presLine p t.1 t.2) (⟨fun _ => none, []⟩ : Pres F)).fn c).toList ↔ (c, f) ∈ l := by
    intro c
    rw [h1 c]
    cases hf : l.find? (fun t => t.1 == c) with
    | none =>
      simp only [Option.toList_none, List.not_mem_nil, false_iff]
      intro hm
      have := List.find?_eq_none.1 hf _ hm
      simp at this
    | some t =>
      have hm := List.mem_of_find?_eq_some hf
      have he : t.1 = c := by simpa using List.find?_some hf
      simp only [Option.toList_some, List.mem_singleton]
      constructor
      · rintro rfl; rw [← he]; exact hm
      · intro hm2
        have : (c, f) = t := by
          have := List.inj_on_of_nodup_map h hm2 hm (by simp [he])
          exact this
        rw [← this]
  unfold initBodyLoad
  rw [List.mem_append, key 0, List.mem_flatMap]
  constructor
  · rintro (a | ⟨c, hcm, hf⟩)
    · exact ⟨0, a, Or.inl rfl⟩
    · split at hf
      · exact ⟨c, (key c).1 hf, Or.inr hcm⟩
      · cases hf
  · rintro ⟨c, hm, rfl | hcm⟩
    · exact Or.inl hm
    · refine Or.inr ⟨c, hcm, ?_⟩
      have : c ∈ (l.foldl (fun p t => presLine p t.1 t.2) (⟨fun _ => none, []⟩ : Pres F)).body := (h2 c).2 (Or.inr ⟨hc c hcm, List.mem_map.2 ⟨_, hm, rfl⟩⟩)
      rw [if_pos (by simpa using this)]
      exact (key c).2 hm

/-- C106 fails for a pressure tag without set and code: nothing acts. With a code it is as in text input. -/
theorem C106_pressure_violated {F : Type} (p : Pres F) (f : F) : presTag p 0 f = p ∧ f ∈ initBodyLoad (presLine p 0 f) [] ∧ ∀ c > 0, presTag p c f = presLine p c f := by
  refine ⟨by simp [presTag], by simp [initBodyLoad, presLine], fun c hc => ?_⟩
  simp [presTag, presLine, if_pos hc]

/-! ### Analytical plate solutions -/

/-- C107, partial: with a material defined before, the first definition of a plate solution is used, with the properties of the material, and later ones are ignored. The load is a
pressure unless a position with two non-zero coordinates is given, and there it is a point load unless two non-zero extensions are given. -/
theorem C107_tag_partial (p : Plate) (x : Attr) (id : Nat) :
    (∀ ty s, anaTag (some p) ty x id (some s) = .ok (some s)) ∧
    (x.xi = 0 ∨ x.eta = 0 → anaTag (some p) "navierplate" x id none = .ok (some (.navier (Analytic.navierUniform x.a x.b p.t p.E p.nu x.pz x.nTerm)))) ∧
    (x.xi ≠ 0 → x.eta ≠ 0 → ∃ n, anaTag (some p) "navierplate" x id none = .ok (some (.navier n)) ∧ n.xi = x.xi * x.a ∧ n.eta = x.eta * x.b ∧ n.pz = x.pz ∧
      n.alpha = Real.pi / x.a ∧ n.beta = Real.pi / x.b ∧ n.nu = p.nu ∧ n.D = p.E * p.t * p.t * p.t / (12 - 12 * p.nu * p.nu) ∧ n.mxmn = x.nTerm ∧
      (x.c = 0 ∨ x.d = 0 → n.type = 1) ∧ (x.c ≠ 0 → x.d ≠ 0 → n.type = 2 ∧ n.c2 = 1 / 2 * x.c ∧ n.d2 = 1 / 2 * x.d)) ∧
    anaTag (some p) "circularplate" x id none = .ok (some (.circular x.R p.t p.E p.nu x.P)) ∧
    (∀ pl, anaTag pl "expression" x id none = .ok (some (.expression id))) ∧
    (∀ pl ty old, ty ≠ "navierplate" → ty ≠ "circularplate" → ty ≠ "expression" → anaTag pl ty x id old = .ok old) := by
  refine ⟨?_, ?_, ?_, ?_, ?_, ?_⟩
  · intro ty s
    unfold anaTag
    split
    · rfl
    · split
      · rfl
      · split <;> rfl
  · intro h
    have : ¬ (x.xi ≠ 0 ∧ x.eta ≠ 0) := by tauto
    simp only [anaTag, if_true, if_neg this]
  · intro h1 h2
    by_cases hcd : x.c ≠ 0 ∧ x.d ≠ 0
    · refine ⟨Analytic.navierPartial x.a x.b p.t p.E p.nu x.pz x.xi x.eta x.c x.d x.nTerm, ?_, rfl, rfl, rfl, rfl, rfl, rfl, rfl, rfl, ?_, ?_⟩
      · simp only [anaTag, if_true, if_pos (And.intro h1 h2), if_pos hcd]
      · intro h; tauto
      · intro _ _
        have : ¬ (x.c = 0 ∨ x.d = 0) := by tauto
        simp [Analytic.navierPartial, this]
    · refine ⟨Analytic.navierPartial x.a x.b p.t p.E p.nu x.pz x.xi x.eta 0 0 x.nTerm, ?_, rfl, rfl, rfl, rfl, rfl, rfl, rfl, rfl, ?_, ?_⟩
      · simp only [anaTag, if_true, if_pos (And.intro h1 h2), if_neg hcd]
      · intro _; simp [Analytic.navierPartial]
      · intro a b; exact absurd ⟨a, b⟩ hcd
  · simp only [anaTag, String.reduceEq, if_true, if_false]
  · intro pl; simp only [anaTag, String.reduceEq, if_true, if_false]
  · intro pl ty old h1 h2 h3
    simp only [anaTag, if_neg h1, if_neg h2, if_neg h3]

/-- C107 fails when the solution is given before the material: a null pointer is used. -/
theorem C107_order_violated (x : Attr) (id : Nat) (old : Option Sol) (l : List ℝ) : anaTag none "navierplate" x id old = .ub ∧ anaTag none "circularplate" x id old = .ub ∧ anaLine none l old = .ub := by
  refine ⟨by simp only [anaTag, if_true], by simp only [anaTag, String.reduceEq, if_true, if_false], ?_⟩
  rcases l with _ | ⟨a, _ | ⟨b, _ | ⟨c, r⟩⟩⟩ <;> rfl

/-- C107: text input with a position away from the edges gives the same solution as a tag with the same values. -/
theorem C107_text_partial (p : Plate) (a b pz xi eta c d : ℝ) (id : Nat) (hx : xi ≠ 0) (he : eta ≠ 0) (hc : c ≠ 0) (hd : d ≠ 0) :
    anaLine (some p) [a, b, pz] none = anaTag (some p) "navierplate" { a := a, b := b, pz := pz } id none ∧
    anaLine (some p) [a, b, pz, xi, eta] none = anaTag (some p) "navierplate" { a := a, b := b, pz := pz, xi := xi, eta := eta } id none ∧
    anaLine (some p) [a, b, pz, xi, eta, c, d] none = anaTag (some p) "navierplate" { a := a, b := b, pz := pz, xi := xi, eta := eta, c := c, d := d } id none := by
  refine ⟨?_, ?_, ?_⟩ <;> simp [anaLine, anaTag, hx, he, hc, hd]

/-- C107 fails for a position on an edge: text input takes it as a point load, a tag as a pressure on the whole plate. -/
theorem C107_edge_violated (p : Plate) (a b pz eta : ℝ) (id : Nat) :
    ∃ n n', anaLine (some p) [a, b, pz, 0, eta] none = .ok (some (.navier n)) ∧ anaTag (some p) "navierplate" { a := a, b := b, pz := pz, xi := 0, eta := eta } id none = .ok (some (.navier n')) ∧
      n.type = 1 ∧ n'.type = 0 := by
  refine ⟨_, _, rfl, (C107_tag_partial p { a := a, b := b, pz := pz, xi := 0, eta := eta } id).2.1 (Or.inl rfl), ?_, rfl⟩
  simp [Analytic.navierPartial]

/-- C107 fails for text with half a position or half an extension, and with less than three numbers. -/
theorem C107_short_violated (p : Plate) (a b pz xi eta c : ℝ) (old : Option Sol) : anaLine (some p) [a, b, pz, xi] old = .ub ∧ anaLine (some p) [a, b, pz, xi, eta, c] old = .ub ∧
    anaLine (some p) [a, b] old = .ub := ⟨rfl, rfl, rfl⟩

example : (1 / 2 : ℝ) ≠ 0 := by norm_num

end Verif.ThinInput
