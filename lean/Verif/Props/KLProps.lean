/-
C86: every region of a plate or shell has the thickness and material given for it.
C87: every patch carries the pressures given for it.
C88: reading the input again leaves no reference to released objects.
-/
import Verif.Model.KLProps
import Verif.Props.Rigid
import Mathlib.Tactic.NormNum
import Mathlib.Data.Rat.Defs
set_option linter.unusedSectionVars false
set_option linter.unusedSimpArgs false
set_option linter.unusedVariables false

namespace Verif.KLProps

open Verif.Rigid (update find find_update sorted_update Sorted)

section
variable {K : Type} [Zero K] [DecidableEq K]

/-- A material of the input. -/
structure Mat (K : Type) where
  code : Int
  t : K
  mat : Nat
  func : Option Nat

/-- The materials of the input, in order. -/
def mats (tags : List (Tag K)) : List (Mat K) := tags.filterMap fun
  | .isotropic c t m f => some ⟨c, t, m, f⟩
  | _ => none

/-- The thickness given with a material. -/
def Mat.thick (m : Mat K) : Thick K := match m.func with
  | some f => .func f
  | none => .const m.t

theorem mats_append (l : List (Tag K)) (x : Tag K) : mats (l ++ [x]) = mats l ++ (match x with
    | .isotropic c t m f => [⟨c, t, m, f⟩]
    | _ => []) := by
  unfold mats
  rw [List.filterMap_append]
  cases x <;> rfl

theorem parse_append (s : Sim K) (l : List (Tag K)) (x : Tag K) : parse s (l ++ [x]) = parseTag (parse s l) x := by
  simp [parse]

theorem parse_vecs (s : Sim K) (hm : s.mVec = []) (ht : s.tVec = []) (tags : List (Tag K)) :
    (parse s tags).mVec = (mats tags).map (·.mat) ∧ (parse s tags).tVec = (mats tags).map (·.t) := by
  induction tags using List.reverseRecOn with
  | nil => simp [parse, mats, hm, ht]
  | append_singleton l x ih =>
    rw [parse_append, mats_append]
    obtain ⟨h1, h2⟩ := ih
    generalize parse s l = s1 at *
    cases x with
    | isotropic c t m f =>
      cases f <;> simp [parseTag, h1, h2]
    | lineload c f =>
      simp only [parseTag]
      split_ifs <;> simp [h1, h2]
    | pressure c f =>
      simp only [parseTag]
      split_ifs <;> simp [h1, h2]

theorem parse_tFunc (s : Sim K) (hf : s.tFunc = []) (tags : List (Tag K))
    (hc : ∀ (j : Nat) m, (mats tags)[j]? = some m → m.func ≠ none → m.code = (j : Int)) :
    Sorted (parse s tags).tFunc ∧ ∀ i : Nat, find (i : Int) (parse s tags).tFunc = ((mats tags)[i]?).bind (·.func) := by
  induction tags using List.reverseRecOn with
  | nil =>
    simp only [parse, List.foldl_nil, hf, mats, List.filterMap_nil]
    exact ⟨by simp [Sorted], fun i => by simp [find]⟩
  | append_singleton l x ih =>
    rw [parse_append, mats_append] at *
    have ih := ih (fun j m hj hn => hc j m (by
      have : j < (mats l).length := by
        by_contra hh
        rw [List.getElem?_eq_none (by omega)] at hj
        cases hj
      rw [List.getElem?_append_left this]
      exact hj) hn)
    obtain ⟨h1, h2⟩ := ih
    generalize parse s l = s1 at *
    cases x with
    | isotropic c t m f =>
      cases f with
      | none =>
        simp only [parseTag]
        refine ⟨h1, fun i => ?_⟩
        rw [h2 i]
        by_cases hi : i < (mats l).length
        · rw [List.getElem?_append_left hi]
        · by_cases hi' : i = (mats l).length
          · subst hi'; simp
          · rw [List.getElem?_eq_none (by omega), List.getElem?_eq_none (by simp; omega)]
      | some f =>
        have hcode : c = ((mats l).length : Int) := by
          have := hc (mats l).length ⟨c, t, m, some f⟩ (by simp) (by simp)
          exact this
        simp only [parseTag]
        refine ⟨sorted_update _ _ _ h1, fun i => ?_⟩
        rw [find_update _ _ _ _ h1, h2 i, hcode]
        by_cases hi : i < (mats l).length
        · rw [List.getElem?_append_left hi, if_neg (by omega)]
        · by_cases hi' : i = (mats l).length
          · subst hi'; simp
          · rw [if_neg (by omega), List.getElem?_eq_none (by omega), List.getElem?_eq_none (by simp; omega)]
    | lineload c f =>
      simp only [parseTag]
      split_ifs <;> simpa using ⟨h1, h2⟩
    | pressure c f =>
      simp only [parseTag]
      split_ifs <;> simpa using ⟨h1, h2⟩

/-- C86: when every material with a thickness function has its own position in the input as property code, and every other material has a thickness, then
initialising the i-th material gives its material object and its thickness, whatever was initialised before. -/
theorem C86_thickness_partial (s : Sim K) (hm : s.mVec = []) (ht : s.tVec = []) (hf : s.tFunc = []) (tags : List (Tag K))
    (hc : ∀ (j : Nat) m, (mats tags)[j]? = some m → m.func ≠ none → m.code = (j : Int)) {i : Nat} {m : Mat K} (hi : (mats tags)[i]? = some m)
    (hz : m.func = none → m.t ≠ 0) (k : KL K) :
    ∃ s', initMaterial { parse s tags with klp := k } i = .ok s' ∧ s'.klp.mat = some m.mat ∧ s'.klp.thick = m.thick ∧
      s'.klp.pres = k.pres ∧ s'.klp.lin = k.lin ∧ s'.live = (parse s tags).live := by
  obtain ⟨h1, h2⟩ := parse_vecs s hm ht tags
  obtain ⟨-, h3⟩ := parse_tFunc s hf tags hc
  have hlt : i < (mats tags).length := by
    by_contra hh
    rw [List.getElem?_eq_none (by omega)] at hi
    cases hi
  unfold initMaterial
  have hne : ((mats tags).map (·.mat)).isEmpty = false := by
    cases hml : mats tags with
    | nil => rw [hml] at hlt; simp at hlt
    | cons a l => rfl
  simp only [h1, h2, hne, Bool.false_eq_true, if_false, List.length_map]
  have hge : ¬ (i ≥ (mats tags).length) := by omega
  simp only [hge, if_false, List.getElem?_map, hi, Option.map_some, h3, Option.bind_some]
  cases hfun : m.func with
  | some f => exact ⟨_, rfl, rfl, by simp [Mat.thick, hfun], rfl, rfl, rfl⟩
  | none =>
    simp only
    rw [if_pos (hz hfun)]
    exact ⟨_, rfl, rfl, by simp [Mat.thick, hfun], rfl, rfl, rfl⟩

/-- C86: an index beyond the last material selects the last material. -/
theorem C86_last (s : Sim K) (hne : s.mVec ≠ []) {i : Nat} (hi : s.mVec.length ≤ i) :
    initMaterial s i = initMaterial s (s.mVec.length - 1) := by
  unfold initMaterial
  have hpos : 0 < s.mVec.length := List.length_pos_iff.2 hne
  have h1 : ¬ (s.mVec.length - 1 ≥ s.mVec.length) := by omega
  simp only [ge_iff_le, hi, if_true]
  rw [if_neg (c := s.mVec.length ≤ s.mVec.length - 1) h1]

/-- C86 (default): for regions without a material property the integrand has the first material of the input. -/
theorem C86_default (s : Sim K) (hm : s.mVec = []) (hk : s.klp.mat = none) (tags : List (Tag K)) :
    (parse s tags).klp.mat = (tags.filterMap fun t => match t with
      | .isotropic _ _ m _ => some m
      | _ => none).head? := by
  have hmm : ∀ l : List (Tag K), (parse s l).mVec = l.filterMap fun t => match t with
      | .isotropic _ _ m _ => some m
      | _ => none := by
    intro l
    induction l using List.reverseRecOn with
    | nil => simpa [parse] using hm
    | append_singleton l x ih =>
      rw [parse_append, List.filterMap_append, ← ih]
      generalize parse s l = s1
      cases x with
      | isotropic c t m f => cases f <;> simp [parseTag]
      | lineload c f => simp only [parseTag]; split_ifs <;> simp
      | pressure c f => simp only [parseTag]; split_ifs <;> simp
  induction tags using List.reverseRecOn with
  | nil => simpa [parse] using hk
  | append_singleton l x ih =>
    rw [← hmm] at ih ⊢
    rw [parse_append]
    generalize parse s l = s1 at *
    cases x with
    | isotropic c t m f =>
      cases f with
      | some f => simp only [parseTag]; split_ifs <;> rfl
      | none =>
        simp only [parseTag]
        split
        · split_ifs <;> rfl
        · rfl
    | lineload c f => simp only [parseTag]; split_ifs <;> exact ih
    | pressure c f =>
      simp only [parseTag]
      split_ifs
      · exact ih
      · simpa [setPressure] using ih
      · exact ih

end

/-- The simulator before any input: default thickness 0.1 (Elasticity/KirchhoffLove.C:33-34). -/
def start : Sim ℚ := ⟨⟨none, .const (1 / 10), [], none⟩, [], [], [], [], fun _ => false⟩

example : ∃ tags : List (Tag ℚ), (∀ (j : Nat) m, (mats tags)[j]? = some m → m.func ≠ none → m.code = (j : Int)) ∧ (mats tags).length = 2 := by
  refine ⟨[.isotropic 0 0 10 (some 11), .isotropic 7 (1 / 5) 20 none], ?_, rfl⟩
  intro j m hj hn
  match j with
  | 0 => simp [mats] at hj; subst hj; rfl
  | 1 => simp [mats] at hj; subst hj; simp at hn
  | j + 2 => simp [mats] at hj

/-- C86 (violation): two materials with thickness functions, given for the sets with codes 5 and 6: the second region gets the thickness function of the first.
With a constant thickness given for the set with code 6 instead, the first region gets that thickness when it is assembled after the second. With code
1 for the first, the constant thickness of the second is replaced by the function of the first. -/
theorem C86_thickness_violated :
    (∃ s', initMaterial (parse start [.isotropic 5 0 10 (some 11), .isotropic 6 0 20 (some 21)]) 1 = .ok s' ∧ s'.klp.mat = some 20 ∧
      s'.klp.thick = .func 11) ∧
    (∃ s' s'', initMaterial (parse start [.isotropic 5 0 10 (some 11), .isotropic 6 2 20 none]) 1 = .ok s' ∧
      initMaterial s' 0 = .ok s'' ∧ s''.klp.mat = some 10 ∧ s''.klp.thick = .const 2) ∧
    (∃ s', initMaterial (parse start [.isotropic 1 0 10 (some 11), .isotropic 6 2 20 none]) 1 = .ok s' ∧ s'.klp.mat = some 20 ∧
      s'.klp.thick = .func 11) := by
  refine ⟨⟨_, rfl, rfl, rfl⟩, ⟨_, _, rfl, rfl, rfl, rfl⟩, ⟨_, rfl, rfl, rfl⟩⟩

example : (parse start [.pressure 3 7, .isotropic 5 0 10 none, .isotropic 6 2 20 none]).klp.mat = some 10 := C86_default start rfl rfl _

/-- C86 (violation): without any material the initialisation reads outside the arrays. -/
theorem C86_no_material_violated (i : Nat) : initMaterial start i = .ub := rfl

/-! ### Pressures -/

section
variable {K : Type} [Zero K] [DecidableEq K]

/-- C87 (patches): after initialising a patch the pressures are the one with code zero and those of the body load properties of the patch, in the order
of the properties, whatever patch was initialised before; nothing else changes. -/
theorem C87_patch (s : Sim K) (props : List BodyLoad) (patch : Nat) :
    (initBodyLoad s props patch).klp.pres = (find 0 s.scalars).toList ++
      props.filterMap (fun p => if p.patch = patch then find p.code s.scalars else none) ∧
    (initBodyLoad s props patch).klp.thick = s.klp.thick ∧ (initBodyLoad s props patch).klp.lin = s.klp.lin ∧
    (initBodyLoad s props patch).klp.mat = s.klp.mat ∧ (initBodyLoad s props patch).scalars = s.scalars := by
  have key : ∀ (ps : List BodyLoad) (k : KL K),
      (ps.foldl (bodyStep s.scalars patch) k).pres =
        k.pres ++ ps.filterMap (fun p => if p.patch = patch then find p.code s.scalars else none) ∧
      (ps.foldl (bodyStep s.scalars patch) k).thick = k.thick ∧ (ps.foldl (bodyStep s.scalars patch) k).lin = k.lin ∧
      (ps.foldl (bodyStep s.scalars patch) k).mat = k.mat := by
    intro ps
    induction ps with
    | nil => intro k; simp
    | cons p ps ih =>
      intro k
      simp only [List.foldl_cons]
      obtain ⟨h1, h2, h3, h4⟩ := ih (bodyStep s.scalars patch k p)
      rw [h1, h2, h3, h4]
      by_cases hp : p.patch = patch
      · cases hfi : find p.code s.scalars with
        | none => simp [bodyStep, hp, hfi, List.filterMap_cons]
        | some f => simp [bodyStep, hp, hfi, List.filterMap_cons, setPressure]
      · simp [bodyStep, hp, List.filterMap_cons]
  unfold initBodyLoad
  cases h0 : find 0 s.scalars with
  | none =>
    obtain ⟨h1, h2, h3, h4⟩ := key props { s.klp with pres := [] }
    exact ⟨by simpa using h1, h2, h3, h4, rfl⟩
  | some f =>
    obtain ⟨h1, h2, h3, h4⟩ := key props (setPressure { s.klp with pres := [] } f)
    exact ⟨by simpa [setPressure] using h1, h2, h3, h4, rfl⟩

/-- Code and function of the loads of the input with a valid code. -/
def loads (tags : List (Tag K)) : List (Int × Nat) := tags.filterMap fun
  | .lineload c f => if c > 0 then some (c, f) else none
  | .pressure c f => if c > 0 then some (c, f) else none
  | _ => none

/-- C87 (input): when all loads have different codes, the function found for a code is that of the load with this code; there is none for code zero. -/
theorem C87_input (s : Sim K) (hs : s.scalars = []) (tags : List (Tag K)) (hd : (loads tags).Pairwise (fun a b => a.1 ≠ b.1)) :
    find 0 (parse s tags).scalars = none ∧ ∀ c f, find c (parse s tags).scalars = some f ↔ (c, f) ∈ loads tags := by
  suffices h : Sorted (parse s tags).scalars ∧ find 0 (parse s tags).scalars = none ∧
      ∀ c f, find c (parse s tags).scalars = some f ↔ (c, f) ∈ loads tags from h.2
  induction tags using List.reverseRecOn with
  | nil =>
    simp only [parse, List.foldl_nil, hs, loads, List.filterMap_nil]
    exact ⟨by simp [Sorted], rfl, fun c f => by simp [find]⟩
  | append_singleton l x ih =>
    have hl : loads (l ++ [x]) = loads l ++ loads [x] := by unfold loads; rw [List.filterMap_append]
    rw [hl] at hd ⊢
    rw [List.pairwise_append] at hd
    obtain ⟨hd1, -, hd2⟩ := hd
    obtain ⟨h1, h2, h3⟩ := ih hd1
    rw [parse_append]
    generalize parse s l = s1 at *
    have main : ∀ c f, c > 0 → (∀ a ∈ loads l, a.1 ≠ c) →
        Sorted (update 0 (fun _ => f) c s1.scalars) ∧ find 0 (update 0 (fun _ => f) c s1.scalars) = none ∧
        ∀ c' f', find c' (update 0 (fun _ => f) c s1.scalars) = some f' ↔ (c', f') ∈ loads l ++ [(c, f)] := by
      intro c f hc hn
      refine ⟨sorted_update _ _ _ h1, ?_, ?_⟩
      · rw [find_update _ _ _ _ h1, if_neg (by omega), h2]
      · intro c' f'
        rw [find_update _ _ _ _ h1, List.mem_append, List.mem_singleton, Prod.mk.injEq]
        by_cases hcc : c' = c
        · subst hcc
          simp only [if_true, Option.some.injEq, true_and]
          constructor
          · intro h; exact Or.inr h.symm
          · rintro (h | h)
            · exact absurd rfl (hn _ h)
            · exact h.symm
        · rw [if_neg hcc, h3]
          simp [hcc]
    cases x with
    | isotropic c t m f =>
      have : (parseTag s1 (.isotropic c t m f)).scalars = s1.scalars := by cases f <;> rfl
      have e : loads [Tag.isotropic (K := K) c t m f] = [] := by simp [loads]
      rw [this, e, List.append_nil]
      exact ⟨h1, h2, h3⟩
    | lineload c f =>
      by_cases hc : c > 0
      · have e : loads [Tag.lineload (K := K) c f] = [(c, f)] := by simp [loads, hc]
        have : (parseTag s1 (.lineload c f)).scalars = update 0 (fun _ => f) c s1.scalars := by simp [parseTag, hc]
        rw [this, e]
        exact main c f hc (fun a ha => hd2 a ha (c, f) (by rw [e]; simp))
      · have e : loads [Tag.lineload (K := K) c f] = [] := by simp [loads, hc]
        have : (parseTag s1 (.lineload c f)).scalars = s1.scalars := by simp [parseTag, hc]
        rw [this, e, List.append_nil]
        exact ⟨h1, h2, h3⟩
    | pressure c f =>
      by_cases hc : c > 0
      · have e : loads [Tag.pressure (K := K) c f] = [(c, f)] := by simp [loads, hc]
        have : (parseTag s1 (.pressure c f)).scalars = update 0 (fun _ => f) c s1.scalars := by simp [parseTag, hc]
        rw [this, e]
        exact main c f hc (fun a ha => hd2 a ha (c, f) (by rw [e]; simp))
      · have e : loads [Tag.pressure (K := K) c f] = [] := by simp [loads, hc]
        have : (parseTag s1 (.pressure c f)).scalars = s1.scalars := by simp [parseTag, hc]
        rw [this, e, List.append_nil]
        exact ⟨h1, h2, h3⟩

end

/-- Two pressures on different sets, of which patch 2 is in both. -/
example : (initBodyLoad (parse start [.pressure 1 10, .pressure 2 20]) [⟨1, 1⟩, ⟨1, 2⟩, ⟨2, 2⟩] 2).klp.pres = [10, 20] := rfl

/-- C87 (violation): of two pressures given with the same code only the last one acts. -/
theorem C87_same_code_violated :
    (initBodyLoad (parse start [.pressure 1 10, .pressure 1 20]) [⟨1, 1⟩] 1).klp.pres = [20] := rfl

/-! ### Reading the input again -/

section
variable {K : Type} [Zero K] [DecidableEq K]

/-- Every object the integrand refers to is live. -/
def Safe (s : Sim K) : Prop :=
  (∀ m, s.klp.mat = some m → s.live m = true) ∧ (∀ f, s.klp.thick = .func f → s.live f = true) ∧
  (∀ f, s.klp.lin = some f → s.live f = true) ∧ ∀ f ∈ s.klp.pres, s.live f = true

theorem live_mono (s : Sim K) (tags : List (Tag K)) (a : Nat) (h : s.live a = true) : (parse s tags).live a = true := by
  induction tags using List.reverseRecOn with
  | nil => exact h
  | append_singleton l x ih =>
    rw [parse_append]
    generalize parse s l = s1 at *
    cases x with
    | isotropic c t m f => cases f <;> simp [parseTag, alloc, ih]
    | lineload c f => simp only [parseTag]; split_ifs <;> simp [alloc, ih]
    | pressure c f => simp only [parseTag]; split_ifs <;> simp [alloc, ih]

theorem parse_live (s : Sim K) (tags : List (Tag K)) (x : Tag K) (hx : x ∈ tags) :
    match x with
    | .isotropic _ _ m f => (parse s tags).live m = true ∧ ∀ g, f = some g → (parse s tags).live g = true
    | .lineload c f => c > 0 → (parse s tags).live f = true
    | .pressure c f => c > 0 → (parse s tags).live f = true := by
  obtain ⟨l, r, rfl⟩ := List.append_of_mem hx
  have e : parse s (l ++ x :: r) = parse (parseTag (parse s l) x) r := by simp [parse]
  rw [e]
  generalize parse s l = s1
  cases x with
  | isotropic c t m f =>
    refine ⟨live_mono _ _ _ ?_, fun g hg => live_mono _ _ _ ?_⟩
    · cases f <;> simp [parseTag, alloc]
    · subst hg; simp [parseTag, alloc]
  | lineload c f => intro hc; exact live_mono _ _ _ (by simp [parseTag, alloc, hc])
  | pressure c f => intro hc; exact live_mono _ _ _ (by simp [parseTag, alloc, hc])

theorem parse_pres (s : Sim K) (tags : List (Tag K)) (h : ∀ f ∈ s.klp.pres, s.live f = true) :
    ∀ f ∈ (parse s tags).klp.pres, (parse s tags).live f = true := by
  induction tags using List.reverseRecOn with
  | nil => exact h
  | append_singleton l x ih =>
    rw [parse_append]
    generalize parse s l = s1 at *
    cases x with
    | isotropic c t m f =>
      intro g hg
      cases f with
      | none =>
        have : g ∈ s1.klp.pres := by
          revert hg
          simp only [parseTag]
          split <;> (try split_ifs) <;> exact id
        simp [parseTag, alloc, ih g this]
      | some f =>
        have : g ∈ s1.klp.pres := by
          revert hg
          simp only [parseTag]
          split_ifs <;> exact id
        simp [parseTag, alloc, ih g this]
    | lineload c f =>
      simp only [parseTag]
      split_ifs
      · intro g hg; simp [alloc, ih g hg]
      · exact ih
    | pressure c f =>
      simp only [parseTag]
      split_ifs with h1 h2
      · intro g hg; simp [alloc, ih g hg]
      · intro g hg
        simp only [setPressure, List.mem_append, List.mem_singleton] at hg
        rcases hg with hg | hg
        · simp [alloc, ih g hg]
        · simp [alloc, hg]
      · exact ih

theorem parse_lin (s : Sim K) (tags : List (Tag K)) :
    (∃ c f, c > 0 ∧ Tag.lineload c f ∈ tags ∧ (parse s tags).klp.lin = some f) ∨
    ((∀ c f, Tag.lineload c f ∈ tags → ¬ c > 0) ∧ (parse s tags).klp.lin = s.klp.lin) := by
  induction tags using List.reverseRecOn with
  | nil => right; exact ⟨by simp, rfl⟩
  | append_singleton l x ih =>
    rw [parse_append]
    generalize parse s l = s1 at *
    have keep : (parseTag s1 x).klp.lin = s1.klp.lin → (∀ c f, x = Tag.lineload c f → ¬ c > 0) →
        (∃ c f, c > 0 ∧ Tag.lineload c f ∈ l ++ [x] ∧ (parseTag s1 x).klp.lin = some f) ∨
        ((∀ c f, Tag.lineload c f ∈ l ++ [x] → ¬ c > 0) ∧ (parseTag s1 x).klp.lin = s.klp.lin) := by
      intro hk hno
      rw [hk]
      rcases ih with ⟨c, f, h1, h2, h3⟩ | ⟨h1, h2⟩
      · exact Or.inl ⟨c, f, h1, List.mem_append_left _ h2, h3⟩
      · refine Or.inr ⟨?_, h2⟩
        intro c f hm
        rcases List.mem_append.1 hm with hm | hm
        · exact h1 c f hm
        · exact hno c f (List.mem_singleton.1 hm).symm
    cases x with
    | isotropic c t m f =>
      refine keep ?_ (by intro c f h; cases h)
      cases f with
      | none => simp only [parseTag]; split <;> (try split_ifs) <;> rfl
      | some f => simp only [parseTag]; split_ifs <;> rfl
    | lineload c f =>
      by_cases hc : c > 0
      · exact Or.inl ⟨c, f, hc, by simp, by simp [parseTag, hc]⟩
      · refine keep (by simp [parseTag, hc]) ?_
        intro c' f' h; cases h; exact hc
    | pressure c f =>
      refine keep ?_ (by intro c f h; cases h)
      simp only [parseTag]
      split_ifs <;> rfl

/-- C88: when the properties are cleared and the input is read again, and the codes of the materials with thickness functions are their positions in the
input and other materials have a thickness, then after initialising any material the integrand only refers to live objects. A line load that was there
before must be there again. -/
theorem C88_reread_partial (s : Sim K) (tags : List (Tag K))
    (hc : ∀ (j : Nat) m, (mats tags)[j]? = some m → m.func ≠ none → m.code = (j : Int)) (hz : ∀ m ∈ mats tags, m.func = none → m.t ≠ 0)
    (hlin : s.klp.lin = none ∨ ∃ c f, c > 0 ∧ Tag.lineload c f ∈ tags) {i : Nat} (hi : i < (mats tags).length) :
    ∃ s', initMaterial (parse (clearProperties s) tags) i = .ok s' ∧ Safe s' := by
  obtain ⟨m, hm⟩ : ∃ m, (mats tags)[i]? = some m := ⟨_, List.getElem?_eq_getElem hi⟩
  have hmem : m ∈ mats tags := List.mem_of_getElem? hm
  obtain ⟨s', h1, h2, h3, h4, h5, h6⟩ := C86_thickness_partial (clearProperties s) rfl rfl rfl tags hc hm (hz m hmem)
    (parse (clearProperties s) tags).klp
  refine ⟨s', h1, ?_⟩
  have hin : Tag.isotropic m.code m.t m.mat m.func ∈ tags := by
    unfold mats at hmem
    obtain ⟨x, hx, he⟩ := List.mem_filterMap.1 hmem
    cases x with
    | isotropic c t mm f => simp only [Option.some.injEq] at he; subst he; exact hx
    | lineload c f => cases he
    | pressure c f => cases he
  have hl := parse_live (clearProperties s) tags _ hin
  simp only at hl
  unfold Safe
  rw [h2, h3, h4, h5, h6]
  refine ⟨?_, ?_, ?_, ?_⟩
  · intro a ha; cases ha; exact hl.1
  · intro f hf
    refine hl.2 f ?_
    unfold Mat.thick at hf
    cases hfun : m.func with
    | none => rw [hfun] at hf; cases hf
    | some g => rw [hfun] at hf; cases hf; rfl
  · intro f hf
    rcases parse_lin (clearProperties s) tags with ⟨c, g, hc', hg, he⟩ | ⟨hno, he⟩
    · rw [he] at hf; cases hf
      exact parse_live (clearProperties s) tags _ hg hc'
    · rcases hlin with h | ⟨c, g, hc', hg⟩
      · rw [he] at hf
        have : (clearProperties s).klp.lin = s.klp.lin := rfl
        rw [this, h] at hf
        cases hf
      · exact absurd hc' (hno c g hg)
  · exact parse_pres (clearProperties s) tags (by simp [clearProperties])

end

/-- C88 (violation): a thickness function given for the set with code 5: after the input is read again, as the adaptive solution does, the integrand still refers to the
function of the first reading, which has been deleted. -/
theorem C88_reread_violated :
    ∃ s', initMaterial (parse (clearProperties (parse start [.isotropic 5 0 10 (some 11)])) [.isotropic 5 0 20 (some 21)]) 0 = .ok s' ∧
      s'.klp.thick = .func 11 ∧ s'.live 11 = false := ⟨_, rfl, rfl, rfl⟩

/-- C88 (violation): after clearing the properties of a model with a line load the integrand refers to the deleted function. -/
theorem C88_clear_violated :
    let s := clearProperties (parse start [.lineload 1 30])
    s.klp.lin = some 30 ∧ s.live 30 = false := ⟨rfl, rfl⟩

end Verif.KLProps
