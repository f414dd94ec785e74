/-
C100: static condensation, reaction forces and analytical solutions of linear solid models. C101: restart and output of elasticity solvers in coupled simulations.
-/
import Verif.Model.LinDriver
import Verif.Props.FileNames
import Mathlib.Tactic.Linarith

set_option linter.unusedSectionVars false
set_option linter.unusedSimpArgs false
set_option linter.unusedVariables false

namespace Verif.LinDriver

/-! ### Static condensation -/

/-- C100: with a selected superelement a section is ignored exactly if it belongs to another one; otherwise the last condensation tag of the section is used, if any. -/
theorem C100_select (sup : String) (ts : List Tag) (sc : Option Nat) :
    (select sup ts sc = none ↔ sup ≠ "" ∧ ∃ id, Tag.superelement (some id) ∈ ts ∧ id ≠ sup) ∧
    ∀ r, select sup ts sc = some r → r = ((ts.filterMap fun t => match t with | .condensation i => some i | _ => none).getLast?).or sc := by
  induction ts generalizing sc with
  | nil => simp [select]
  | cons t ts ih =>
    cases t with
    | condensation i =>
      obtain ⟨h1, h2⟩ := ih (some i)
      refine ⟨?_, ?_⟩
      · rw [select, h1]; simp
      · intro r h
        rw [select] at h
        rw [h2 r h, List.filterMap_cons]
        simp only
        cases hl : (ts.filterMap fun t => match t with | .condensation i => some i | _ => none) with
        | nil => simp
        | cons a l => simp [List.getLast?_cons_cons, List.getLast?_eq_getLast_of_ne_nil]
    | superelement o =>
      cases o with
      | none =>
        obtain ⟨h1, h2⟩ := ih sc
        refine ⟨?_, ?_⟩
        · rw [select, h1]; simp
        · intro r h
          rw [select] at h
          rw [h2 r h]; simp
      | some id =>
        obtain ⟨h1, h2⟩ := ih sc
        by_cases hc : sup ≠ "" ∧ id ≠ sup
        · refine ⟨?_, ?_⟩
          · rw [select, if_pos hc]
            simp only [true_iff]
            exact ⟨hc.1, id, by simp, hc.2⟩
          · intro r h
            rw [select, if_pos hc] at h
            cases h
        · refine ⟨?_, ?_⟩
          · rw [select, if_neg hc, h1]
            constructor
            · rintro ⟨a, i, hi, hn⟩
              exact ⟨a, i, List.mem_cons_of_mem _ hi, hn⟩
            · rintro ⟨a, i, hi, hn⟩
              refine ⟨a, i, ?_, hn⟩
              rcases List.mem_cons.mp hi with e | e
              · injection e with e
                injection e with e
                exact absurd ⟨a, e ▸ hn⟩ hc
              · exact e
          · intro r h
            rw [select, if_neg hc] at h
            rw [h2 r h]; simp
    | other =>
      obtain ⟨h1, h2⟩ := ih sc
      refine ⟨?_, ?_⟩
      · rw [select, h1]; simp
      · intro r h
        rw [select] at h
        rw [h2 r h]; simp

example : select "s1" [.superelement (some "s1"), .condensation 7, .other] none = some (some 7) ∧ select "s2" [.superelement (some "s1"), .condensation 7] none = none := by
  decide

/-- C100, partial: the recovery file has the name of the superelement file with the extension exchanged, or added if there is no dot in the path. -/
theorem C100_recovery_file_partial (base ext : List Char) (he : '.' ∉ ext) (n : List Char) (hn : '.' ∉ n) :
    recFile (base ++ '.' :: ext) = base ++ ".rec".toList ∧ recFile n = n ++ ".rec".toList := by
  refine ⟨?_, ?_⟩
  · rw [recFile, FileNames.lastDot_some base ext he]; simp
  · rw [recFile, (FileNames.lastDot_none n).mpr hn]

/-- C100 fails for names without extension in directories with a dot: the name of the directory is cut, and all files of the parent directory get the same recovery file. -/
theorem C100_recovery_file_violated (dir : List Char) (n : List Char) (hn : '.' ∉ n) :
    recFile ("../".toList ++ n) = "..rec".toList ∧ recFile ("./".toList ++ n) = ".rec".toList := by
  have h1 : ("../".toList ++ n) = ['.'] ++ '.' :: ('/' :: n) := rfl
  have h2 : ("./".toList ++ n) = [] ++ '.' :: ('/' :: n) := rfl
  have hs : '.' ∉ ('/' :: n) := by
    intro h
    rcases List.mem_cons.mp h with h | h
    · exact absurd h (by decide)
    · exact hn h
  refine ⟨?_, ?_⟩
  · rw [h1, recFile, FileNames.lastDot_some _ _ hs]; rfl
  · rw [h2, recFile, FileNames.lastDot_some _ _ hs]; rfl

theorem retainSet_mem {T : Type} [DecidableEq T] (entity : String → List T) (sets : List String) (old : List T) (t : T) :
    t ∈ retainSet entity sets old ↔ t ∈ old ∨ ∃ n ∈ sets, t ∈ entity n := by
  unfold retainSet
  induction sets generalizing old with
  | nil => simp
  | cons n sets ih =>
    rw [List.foldl_cons, ih]
    simp only [List.mem_append, List.mem_filter, decide_eq_true_eq, List.mem_cons]
    constructor
    · rintro ((h | ⟨h, _⟩) | ⟨m, hm, h⟩)
      · exact Or.inl h
      · exact Or.inr ⟨n, Or.inl rfl, h⟩
      · exact Or.inr ⟨m, Or.inr hm, h⟩
    · rintro (h | ⟨m, rfl | hm, h⟩)
      · exact Or.inl (Or.inl h)
      · by_cases ho : t ∈ old
        · exact Or.inl (Or.inl ho)
        · exact Or.inl (Or.inr ⟨h, ho⟩)
      · exact Or.inr ⟨m, hm, h⟩

theorem collect_spec {T : Type} (nodes : T → Option (List Nat)) : ∀ (items : List T) (l : List Nat),
    ((collect nodes items l).2 = true ↔ ∀ t ∈ items, (nodes t).isSome) ∧ (collect nodes items l).1 = l ++ items.flatMap fun t => (nodes t).getD []
  | [], l => by simp [collect]
  | t :: ts, l => by
    cases hn : nodes t with
    | none =>
      obtain ⟨h1, h2⟩ := collect_spec nodes ts l
      rw [collect, hn]
      refine ⟨by simp [hn], ?_⟩
      simp only
      rw [h2]; simp [hn]
    | some n =>
      obtain ⟨h1, h2⟩ := collect_spec nodes ts (l ++ n)
      rw [collect, hn]
      refine ⟨?_, ?_⟩
      · simp only; rw [h1]; simp [hn]
      · simp only; rw [h2]; simp [hn]

/-- C100, partial: if all retained sets are valid, the retained nodes are those on the topology items of the retained sets, in ascending order; otherwise the preprocessing fails. -/
theorem C100_retained_partial {T : Type} [DecidableEq T] (entity : String → List T) (sets : List String) (nodes : T → Option (List Nat)) :
    let r := preprocessB true nodes (retainSet entity sets []) []
    ((∃ s ∈ sets, ∃ t ∈ entity s, nodes t = none) → r.2 = false) ∧
    ((∀ s ∈ sets, ∀ t ∈ entity s, nodes t ≠ none) → r.2 = true ∧ r.1.Pairwise (· ≤ ·) ∧ ∀ n, n ∈ r.1 ↔ ∃ s ∈ sets, ∃ t ∈ entity s, ∃ l, nodes t = some l ∧ n ∈ l) := by
  intro r
  obtain ⟨c1, c2⟩ := collect_spec nodes (retainSet entity sets []) []
  have hr : r = (let r := collect nodes (retainSet entity sets []) []
      if r.2 then (r.1.mergeSort (fun a b => decide (a ≤ b)), true) else (r.1, false)) := rfl
  refine ⟨?_, ?_⟩
  · rintro ⟨s, hs, t, ht, hn⟩
    have : ¬ (collect nodes (retainSet entity sets []) []).2 = true := by
      rw [c1]
      intro h
      have := h t ((retainSet_mem entity sets [] t).mpr (Or.inr ⟨s, hs, ht⟩))
      simp [hn] at this
    rw [hr]; simp only; rw [if_neg this]
  · intro h
    have : (collect nodes (retainSet entity sets []) []).2 = true := by
      rw [c1]
      intro t ht
      rcases (retainSet_mem entity sets [] t).mp ht with h0 | ⟨s, hs, ht⟩
      · cases h0
      · exact Option.isSome_iff_ne_none.mpr (h s hs t ht)
    rw [hr]; simp only; rw [if_pos this]
    refine ⟨rfl, ?_, ?_⟩
    · have := List.pairwise_mergeSort (le := fun a b : Nat => decide (a ≤ b)) (by intro a b c h1 h2; simp only [decide_eq_true_eq] at *; omega)
        (by intro a b; simp only [Bool.or_eq_true, decide_eq_true_eq]; omega) (collect nodes (retainSet entity sets []) []).1
      exact this.imp (by intro a b h; simpa using h)
    · intro n
      simp only
      rw [List.mem_mergeSort, c2]
      simp only [List.nil_append, List.mem_flatMap, retainSet_mem, List.not_mem_nil, false_or]
      constructor
      · rintro ⟨t, ⟨s, hs, ht⟩, hn⟩
        cases hl : nodes t with
        | none => simp [hl] at hn
        | some l => exact ⟨s, hs, t, ht, l, hl, by simpa [hl] using hn⟩
      · rintro ⟨s, hs, t, ht, l, hl, hn⟩
        exact ⟨t, ⟨s, hs, ht⟩, by simpa [hl] using hn⟩

/-- C100 fails for items with common nodes, which are retained twice, and for a second preprocessing of the model, after which all nodes are. -/
theorem C100_retained_violated {T : Type} (nodes : T → Option (List Nat)) (t u : T) (n : Nat) (ht : nodes t = some [n]) (hu : nodes u = some [n]) :
    preprocessB true nodes [t, u] [] = ([n, n], true) ∧ preprocessB true nodes [t] (preprocessB true nodes [t] []).1 = ([n, n], true) := by
  have h : ∀ a : Nat, ([a, a].mergeSort fun x y => decide (x ≤ y)) = [a, a] := by
    intro a
    exact List.mergeSort_of_pairwise (by simp)
  have h1 : ∀ a : Nat, ([a].mergeSort fun x y => decide (x ≤ y)) = [a] := by
    intro a
    exact List.mergeSort_of_pairwise (by simp)
  refine ⟨?_, ?_⟩
  · simp [preprocessB, collect, ht, hu, h]
  · simp [preprocessB, collect, ht, h, h1]

/-- C100, partial: internal displacements are recovered with the matrix of the last condensation as long as none have been recovered before. -/
theorem C100_recovery_partial {M : Type} (s : Rec M) (R : M) (h : s.mem = none) :
    (recover (condense R s)).1 = some R ∧ (s.file = none → (recover s).1 = none) := by
  refine ⟨by simp [recover, condense, h], fun h' => by simp [recover, h, h']⟩

/-- C100 fails for a condensation after a recovery: the matrix in memory is never replaced. -/
theorem C100_recovery_violated {M : Type} (s : Rec M) (R R' : M) (h : s.mem = none) :
    (recover (condense R' (recover (condense R s)).2)).1 = some R := by
  simp [recover, condense, h]

/-! ### Reaction forces -/

theorem foldl_vadd_get {K : Type} [AddCommMonoid K] : ∀ (fs : List (List K)) (f : List K) (j : Nat), j < f.length → (∀ g ∈ fs, g.length = f.length) →
    (fs.foldl vadd f)[j]? = some (f[j]?.getD 0 + (fs.map fun g => g[j]?.getD 0).sum)
  | [], f, j, hj, _ => by simp [hj]
  | g :: fs, f, j, hj, h => by
    have hg : g.length = f.length := h g (by simp)
    have hl : (vadd f g).length = f.length := by simp [vadd, hg]
    rw [List.foldl_cons, foldl_vadd_get fs (vadd f g) j (by omega) (fun x hx => by rw [hl]; exact h x (List.mem_cons_of_mem _ hx))]
    have hj' : j < g.length := by omega
    simp only [vadd, List.getElem?_zipWith, List.getElem?_eq_getElem hj, List.getElem?_eq_getElem hj', Option.getD_some, List.map_cons, List.sum_cons]
    rw [add_assoc]

/-- C100: the total reaction is the sum of the reactions of all sections, component by component, printed or not, and the sections are printed with their own numbers. -/
theorem C100_reactions {K : Type} [AddCommMonoid K] (small : List K → Bool) (f g : List K) (fs : List (List K)) (n : Nat) (h : ∀ x ∈ f :: g :: fs, x.length = n) :
    ∃ t, (printReactions small (f :: g :: fs)).total = some t ∧ (∀ j < n, t[j]? = some (((f :: g :: fs).map fun x => x[j]?.getD 0).sum)) ∧
      ∀ (i : Nat) r, (i, r) ∈ (printReactions small (f :: g :: fs)).sections ↔ i ≥ 1 ∧ (f :: g :: fs)[i - 1]? = some r ∧ small r = false := by
  have hf : f.length = n := h f (by simp)
  refine ⟨_, rfl, ?_, ?_⟩
  · intro j hj
    rw [foldl_vadd_get (g :: fs) f j (by omega) (fun x hx => by rw [hf]; exact h x (List.mem_cons_of_mem _ hx))]
    rfl
  · intro i r
    simp only [printReactions, List.mem_filter, List.mem_mapIdx, Bool.not_eq_true']
    constructor
    · rintro ⟨⟨k, hk, e⟩, hs⟩
      injection e with e1 e2
      subst e1; subst e2
      refine ⟨by omega, ?_, hs⟩
      simp only [Nat.add_sub_cancel]
      exact List.getElem?_eq_getElem hk
    · rintro ⟨hi, hg, hs⟩
      obtain ⟨hk, he⟩ := List.getElem?_eq_some_iff.mp hg
      exact ⟨⟨i - 1, hk, by rw [he]; congr 1; omega⟩, hs⟩

/-- C100: a single section is printed as such. -/
theorem C100_reaction {K : Type} [Add K] (small : List K → Bool) (f : List K) : printReactions small [f] = ⟨some f, [], none⟩ := rfl

example : (printReactions (fun f => decide (f = [0, 0])) [[1, 2], [0, 0], [3, 4]] : Printed ℤ).sections = [(1, [1, 2]), (3, [3, 4])] := by decide

/-- C100: the solution succeeds exactly if the equations are solved, and the reactions assembled if there are any for the first load case; reactions are printed only then. -/
theorem C100_solve (solved : Bool) (idx : Nat) (haveRF forces react : Bool) :
    ((solveSystem solved idx haveRF forces react).1 = true ↔ solved = true ∧ (idx = 0 → haveRF = true → forces = true)) ∧
    ((solveSystem solved idx haveRF forces react).2 = true ↔ solved = true ∧ idx = 0 ∧ haveRF = true ∧ forces = true ∧ react = true) := by
  cases idx <;> revert solved haveRF forces react <;> simp [solveSystem]

/-! ### Analytical solutions -/

section
variable {K : Type} [Zero K]

/-- C100: both input formats give the same solution for the same parameters, with the data of the material. -/
theorem C100_formats (is3D : Bool) (m : Mat K) (T : K) (polar : Bool) (att : String → Option K) (a b L H F0 M0 u0 : K) (r : List K)
    (ha : att "a" = some a) (hb : att "b" = some b) (hL : att "L" = some L) (hH : att "H" = some H) (hF : att "F0" = some F0) (hM : att "M0" = some M0)
    (hu : att "u0" = some u0) :
    dimXML is3D (some m) T polar att "hole" = .ok (some (.hole a F0 m.nu is3D)) ∧ dimText is3D (some m) "HOLE" (a :: F0 :: r) = .ok (some (.hole a F0 m.nu is3D), r) ∧
    dimXML is3D (some m) T polar att "lshape" = .ok (some (.lshape a F0 m.nu is3D)) ∧
    dimText is3D (some m) "LSHAPE" (a :: F0 :: r) = .ok (some (.lshape a F0 m.nu is3D), r) ∧
    dimXML is3D (some m) T polar att "cants" = .ok (some (.cants L H F0 is3D)) ∧ dimText is3D (some m) "CANTS" (L :: H :: F0 :: r) = .ok (some (.cants L H F0 is3D), r) ∧
    dimXML false (some m) T polar att "cantm" = .ok (some (.cantm H M0)) ∧ dimText false (some m) "CANTM" (H :: M0 :: r) = .ok (some (.cantm H M0), r) ∧
    dimXML false (some m) T polar att "curved" = .ok (some (.curved u0 a b m.E)) ∧ dimText false (some m) "CURVED" (a :: b :: u0 :: r) = .ok (some (.curved u0 a b m.E), r) := by
  refine ⟨?_, ?_, ?_, ?_, ?_, ?_, ?_, ?_, ?_, ?_⟩ <;> simp [dimXML, dimText, ha, hb, hL, hH, hF, hM, hu]

/-- C100: the pipe has the radii and temperatures of the input, and the data of the material; the reference temperature is 273 if not given. -/
theorem C100_pipe (is3D : Bool) (m : Mat K) (T Ri Ro Ti To : K) (polar : Bool) (att : String → Option K)
    (h1 : att "Ri" = some Ri) (h2 : att "Ro" = some Ro) (h3 : att "Ti" = some Ti) (h4 : att "To" = some To) :
    dimXML is3D (some m) T polar att "pipe" = .ok (some (.pipe Ri Ro Ti To ((att "Tref").getD T) m.E m.nu m.alpha is3D polar)) := by
  simp [dimXML, h1, h2, h3, h4]

/-- C100: an unknown type changes nothing, and neither do the plane solutions in three dimensions. -/
theorem C100_unknown (is3D : Bool) (mat : Option (Mat K)) (T : K) (polar ex : Bool) (att : String → Option K) (type : String) (code : Nat) (s : AnaState K)
    (h : type ∉ ["expression", "fields", "hole", "lshape", "cants", "pipe"]) (h' : (type ≠ "cantm" ∧ type ≠ "curved") ∨ is3D = true) :
    parseXML is3D mat T polar ex att type code s = .ok s := by
  simp only [List.mem_cons, List.not_mem_nil, or_false, not_or] at h
  obtain ⟨n1, n2, n3, n4, n5, n6⟩ := h
  have e : dimXML is3D mat T polar att type = .ok none := by
    simp only [dimXML]
    rw [if_neg n3, if_neg n4, if_neg n5, if_neg, if_neg, if_neg n6]
    · rintro ⟨e, e'⟩; rcases h' with h | h
      · exact h.2 e
      · simp [h] at e'
    · rintro ⟨e, e'⟩; rcases h' with h | h
      · exact h.1 e
      · simp [h] at e'
  unfold parseXML
  simp only
  rw [if_neg (by tauto), e]

/-- C100: the first analytical solution is kept, and a positive code gets the tractions of this solution if it has stresses; this holds for every solution by name in XML input. -/
theorem C100_first (is3D : Bool) (mat : Option (Mat K)) (T : K) (polar ex : Bool) (att : String → Option K) (type : String) (code : Nat) (s : AnaState K) (a : Ana K)
    (hd : dimXML is3D mat T polar att type = .ok (some a)) (ht : type ≠ "expression" ∧ type ≠ "fields") :
    ∃ s', parseXML is3D mat T polar ex att type code s = .ok s' ∧
      s'.sol = some (s.sol.getD a) ∧ (code > 0 ∧ (s.sol.getD a = .expression → ex = true) → s'.tracs = code :: s.tracs) ∧ (¬ (code > 0 ∧ (s.sol.getD a = .expression → ex = true)) → s'.tracs = s.tracs) := by
  unfold parseXML
  simp only
  rw [if_neg (by tauto), hd]
  refine ⟨_, rfl, ?_, ?_⟩
  · cases hs : s.sol <;> simp only [Option.none_or, Option.some_or, Option.getD_none, Option.getD_some] <;> split_ifs <;> rfl
  · have key : ∀ b : Ana K, (hasStress ex b = true ↔ (b = .expression → ex = true)) := by
      intro b; cases b <;> simp [hasStress]
    cases hs : s.sol with
    | none =>
      simp only [Option.none_or, Option.getD_none, ← key]
      exact ⟨fun h => by rw [if_pos h], fun h => by rw [if_neg h]⟩
    | some b =>
      simp only [Option.some_or, Option.getD_some, ← key]
      exact ⟨fun h => by rw [if_pos h], fun h => by rw [if_neg h]⟩

/-- C100: in the text format the number after the parameters is the code, with the same effect. -/
theorem C100_text (is3D : Bool) (mat : Option (Mat K)) (toNat : K → Nat) (ex : Bool) (key : String) (nums : List K) (c : K) (r : List K) (a : Ana K) (s : AnaState K)
    (hd : dimText is3D mat key nums = .ok (some a, c :: r)) :
    ∃ s', parseText is3D mat toNat ex (some key) nums s = .ok s' ∧
      s'.sol = some (s.sol.getD a) ∧ (toNat c > 0 ∧ (s.sol.getD a = .expression → ex = true) → s'.tracs = toNat c :: s.tracs) ∧ (¬ (toNat c > 0 ∧ (s.sol.getD a = .expression → ex = true)) → s'.tracs = s.tracs) := by
  have key' : ∀ b : Ana K, (hasStress ex b = true ↔ (b = .expression → ex = true)) := by
    intro b; cases b <;> simp [hasStress]
  unfold parseText
  simp only [hd]
  cases hs : s.sol with
  | none =>
    simp only [Option.none_or, Option.getD_none, ← key']
    refine ⟨_, rfl, ?_, fun h => by rw [if_pos h], fun h => by rw [if_neg h]⟩
    split_ifs <;> rfl
  | some b =>
    simp only [Option.some_or, Option.getD_some, ← key']
    refine ⟨_, rfl, ?_, fun h => by rw [if_pos h], fun h => by rw [if_neg h]⟩
    split_ifs <;> rfl

/-- C100 fails for solutions that depend on the material if they are given before it, and for missing parameters in the text format: null pointers are used. -/
theorem C100_anasol_violated (is3D : Bool) (T : K) (polar ex : Bool) (att : String → Option K) (code : Nat) (s : AnaState K) (mat : Option (Mat K)) (toNat : K → Nat) (a : K) :
    parseXML is3D (none : Option (Mat K)) T polar ex att "hole" code s = .ub ∧ parseXML is3D (none : Option (Mat K)) T polar ex att "pipe" code s = .ub ∧
    parseXML false (none : Option (Mat K)) T polar ex att "curved" code s = .ub ∧
    parseText is3D mat toNat ex (some "HOLE") [a] s = .ub ∧ parseText is3D mat toNat ex none [] s = .ub := by
  refine ⟨?_, ?_, ?_, ?_, rfl⟩ <;> simp [parseXML, dimXML, parseText, dimText]

end

/-! ### The wrapper for coupled solvers -/

theorem saveSolution_get {V : Type} (key : String → Nat → String) (hk : ∀ n i m j, key n i = key m j → n = m ∧ i = j) (s : Sol V) (d : Data V) :
    (∀ i, i < s.vecs.length → saveSolution key s d (key s.name i) = s.vecs[i]?) ∧ ∀ x, (∀ i, x ≠ key s.name i) → saveSolution key s d x = d x := by
  have gen : ∀ n, n ≤ s.vecs.length →
      (∀ i, i < n → ((List.range n).foldl (fun d i => match s.vecs[i]? with | some v => Data.put d (key s.name i) v | none => d) d) (key s.name i) = s.vecs[i]?) ∧
      ∀ x, (∀ i, x ≠ key s.name i) → ((List.range n).foldl (fun d i => match s.vecs[i]? with | some v => Data.put d (key s.name i) v | none => d) d) x = d x := by
    intro n
    induction n with
    | zero => intro _; exact ⟨fun i h => absurd h (Nat.not_lt_zero i), fun x _ => rfl⟩
    | succ n ih =>
      intro hn
      obtain ⟨h1, h2⟩ := ih (by omega)
      have hv : s.vecs[n]? = some s.vecs[n] := List.getElem?_eq_getElem (by omega)
      rw [List.range_succ, List.foldl_append]
      simp only [List.foldl_cons, List.foldl_nil, hv]
      refine ⟨?_, ?_⟩
      · intro i hi
        by_cases e : i = n
        · subst e; simp [Data.put, hv]
        · have : key s.name i ≠ key s.name n := fun h => e (hk _ _ _ _ h).2
          simp only [Data.put, if_neg this]
          exact h1 i (by omega)
      · intro x hx
        simp only [Data.put, if_neg (hx n)]
        exact h2 x hx
  exact gen _ (le_refl _)

theorem mapM_range {V : Type} (l : List V) (f : Nat → Option V) (h : ∀ i, i < l.length → f i = l[i]?) : (List.range l.length).mapM f = some l := by
  induction l using List.reverseRecOn with
  | nil => rfl
  | append_singleton l v ih =>
    have e1 : (List.range l.length).mapM f = some l := ih (by
      intro i hi
      rw [h i (by simp; omega), List.getElem?_append_left hi])
    have e2 : f l.length = some v := by rw [h l.length (by simp)]; simp
    rw [List.length_append, List.length_singleton, List.range_succ, List.mapM_append, e1]
    simp [e2]

theorem mapM_none {A V : Type} (f : A → Option V) : ∀ (l : List A) (x : A), x ∈ l → f x = none → l.mapM f = none
  | [], x, h, _ => by cases h
  | y :: l, x, h, hx => by
    rw [List.mapM_cons]
    by_cases e : y = x
    · subst e; rw [hx]; rfl
    · have hm : x ∈ l := by
        rcases List.mem_cons.mp h with h | h
        · exact absurd h.symm e
        · exact h
      rw [mapM_none f l x hm hx]
      cases f y <;> rfl

/-- C101, partial: a state written to a restart file by a single elasticity solver is restored from it, into a solver with the same name and number of vectors. -/
theorem C101_restart_partial {V : Type} (key : String → Nat → String) (hk : ∀ n i m j, key n i = key m j → n = m ∧ i = j) (he : ∀ n i, key n i ≠ "Elasticity::Eext")
    (s t : Sol V) (d : Data V) (hn : t.name = s.name) (hl : t.vecs.length = s.vecs.length) :
    deSerialize key t (serialize key s d) = some s := by
  obtain ⟨h1, h2⟩ := saveSolution_get key hk s d
  have e : restoreSolution key t.vecs.length t.name (serialize key s d) = some s.vecs := by
    rw [restoreSolution, hl, hn]
    apply mapM_range
    intro i hi
    rw [serialize, Data.put, if_neg (he _ _)]
    exact h1 i hi
  have e2 : serialize key s d "Elasticity::Eext" = some s.ext := by simp [serialize, Data.put]
  rw [deSerialize, e, e2]
  cases s; cases t; simp only at hn; subst hn
  rfl

/-- C101: a file without the solution is not accepted, and one without the energy keeps the current energy. -/
theorem C101_missing {V : Type} (key : String → Nat → String) (t : Sol V) (d : Data V) :
    ((∃ i, i < t.vecs.length ∧ d (key t.name i) = none) → deSerialize key t d = none) ∧
    (d "Elasticity::Eext" = none → ∀ s, deSerialize key t d = some s → s.ext = t.ext) := by
  refine ⟨?_, ?_⟩
  · rintro ⟨i, hi, hd⟩
    have : restoreSolution key t.vecs.length t.name d = none := by
      rw [restoreSolution]
      exact mapM_none _ _ i (by simpa using hi) hd
    rw [deSerialize, this]; rfl
  · intro h s hs
    rw [deSerialize, h] at hs
    cases hr : restoreSolution key t.vecs.length t.name d with
    | none => rw [hr] at hs; cases hs
    | some v =>
      rw [hr] at hs
      simp only [Option.map_some, Option.some.injEq] at hs
      rw [← hs]; rfl

/-- C101 fails for two elasticity solvers in a simulation: the external energy is not stored under the name of the solver, and the first one gets that of the second. -/
theorem C101_restart_violated {V : Type} (key : String → Nat → String) (hk : ∀ n i m j, key n i = key m j → n = m ∧ i = j) (he : ∀ n i, key n i ≠ "Elasticity::Eext")
    (s t : Sol V) (d : Data V) (hn : t.name ≠ s.name) :
    deSerialize key s (serialize key t (serialize key s d)) = some { s with ext := t.ext } := by
  obtain ⟨h1, h2⟩ := saveSolution_get key hk s d
  obtain ⟨g1, g2⟩ := saveSolution_get key hk t (serialize key s d)
  have e : restoreSolution key s.vecs.length s.name (serialize key t (serialize key s d)) = some s.vecs := by
    rw [restoreSolution]
    apply mapM_range
    intro i hi
    rw [serialize, Data.put, if_neg (he _ _), g2 _ (fun j h => hn (hk _ _ _ _ h).1.symm), serialize, Data.put, if_neg (he _ _)]
    exact h1 i hi
  have e2 : serialize key t (serialize key s d) "Elasticity::Eext" = some t.ext := by simp [serialize, Data.put]
  rw [deSerialize, e, e2]
  rfl

/-- Names with numbers as used by the library are of this kind. -/
example : ∀ n i, (fun (n : String) (i : Nat) => n ++ "/" ++ toString i) n i ≠ "Elasticity::Eext" := by
  intro n i h
  have h := congrArg String.toList h
  simp only [String.toList_append] at h
  have : '/' ∈ "Elasticity::Eext".toList := by rw [← h]; simp
  exact absurd this (by decide)

/-- C101, partial: with a positive save increment exactly the multiples are saved, with consecutive numbers, and nothing without an output format. -/
theorem C101_save_partial (format : Int) (inc step k : Nat) (hf : 0 ≤ format) (hi : 0 < inc) :
    (saveStep format inc step = .ok (some (k + 1)) ↔ step = k * inc) ∧ (saveStep format inc step = .ok none ↔ ¬ inc ∣ step) ∧ saveStep (-1) inc step = .ok none := by
  have h0 : ¬ format < 0 := by omega
  have h1 : ¬ inc = 0 := by omega
  refine ⟨?_, ?_, rfl⟩
  · rw [saveStep, if_neg h0, if_neg h1]
    by_cases h : step % inc > 0
    · rw [if_pos h]
      constructor
      · intro e; cases e
      · rintro rfl; simp at h
    · rw [if_neg h]
      have hm : step % inc = 0 := by omega
      have hd := Nat.div_add_mod step inc
      constructor
      · intro e
        injection e with e; injection e with e
        have : step / inc = k := by omega
        rw [this, hm, Nat.mul_comm] at hd; omega
      · intro e
        have : step / inc = k := by rw [e]; exact Nat.mul_div_cancel k hi
        rw [this, Nat.add_comm]
  · rw [saveStep, if_neg h0, if_neg h1, Nat.dvd_iff_mod_eq_zero]
    by_cases h : step % inc > 0
    · rw [if_pos h]; simp; omega
    · rw [if_neg h]; simp; omega

/-- C101 fails for a save increment of zero, by which is divided. -/
theorem C101_save_violated (format : Int) (step : Nat) (hf : 0 ≤ format) : saveStep format 0 step = .ub := by
  rw [saveStep, if_neg (by omega), if_pos rfl]

/-- C101: advancing the step keeps the current solution as first guess and moves the earlier ones one place. -/
theorem C101_advance {V : Type} (l : List V) :
    (push l).length = l.length ∧ (push l)[0]? = l[0]? ∧ ∀ i, i + 1 < l.length → (push l)[i + 1]? = l[i]? := by
  cases l with
  | nil => simp [push]
  | cons v vs =>
    refine ⟨by simp [push], rfl, ?_⟩
    intro i hi
    simp only [push, List.getElem?_cons_succ]
    rw [List.getElem?_dropLast]
    rw [if_pos (by simpa using hi)]

end Verif.LinDriver
