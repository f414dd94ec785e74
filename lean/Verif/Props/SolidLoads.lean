/-
Property C98: loads and materials of solid models act where the input puts them.
-/
import Verif.Model.SolidLoads
import Mathlib.Tactic.Ring
import Mathlib.Tactic.Linarith

set_option linter.unusedSectionVars false
set_option linter.unusedSimpArgs false
set_option linter.unusedVariables false

namespace Verif.SolidLoads

section
variable {V T : Type}

/-- The function given in the input for a boundary: an explicit traction, or else an implicit one. -/
def own (vecs : Nat → Option V) (tracs : Nat → Option T) (c : Nat) : Option (V ⊕ T) :=
  match vecs c with
  | some v => some (.inl v)
  | none => (tracs c).map .inr

/-- The last explicit traction among a list of boundaries, or the given one. -/
def lastVec (vecs : Nat → Option V) (v : Option V) (cs : List Nat) : Option V := ((cs.filterMap vecs).getLast?).or v

theorem lastVec_cons_some (vecs : Nat → Option V) (v w : Option V) (c : Nat) (x : V) (cs : List Nat) (h : vecs c = some x) :
    lastVec vecs v (c :: cs) = lastVec vecs (some x) cs := by
  unfold lastVec
  rw [List.filterMap_cons, h]
  cases hl : cs.filterMap vecs with
  | nil => simp
  | cons a l =>
    have : (x :: a :: l).getLast? = (a :: l).getLast? := by simp [List.getLast?_cons]
    simp only [this]
    have : ((a :: l).getLast?).isSome := by simp [List.getLast?_cons]
    obtain ⟨y, hy⟩ := Option.isSome_iff_exists.1 this
    rw [hy]; rfl

theorem lastVec_cons_none (vecs : Nat → Option V) (v : Option V) (c : Nat) (cs : List Nat) (h : vecs c = none) :
    lastVec vecs v (c :: cs) = lastVec vecs v cs := by
  unfold lastVec
  rw [List.filterMap_cons, h]

/-- **C98** (what happens): on each boundary of a solid model with an explicit traction this one is used; on one with an implicit traction the explicit traction of the last boundary which
had one, if there was any, and only otherwise its own. -/
theorem C98_used (vecs : Nat → Option V) (tracs : Nat → Option T) (f : Fld V T) (cs : List Nat) (h : ∀ c ∈ cs, own vecs tracs c ≠ none) :
    ∃ g used, assemble (initNeumann vecs tracs) f cs = some (g, used) ∧ g.flux = lastVec vecs f.flux cs ∧ used.length = cs.length ∧
      ∀ k (hk : k < cs.length), used[k]? = some (match vecs cs[k], lastVec vecs f.flux (cs.take k) with
        | some v, _ => some (.inl v)
        | none, some v => some (.inl v)
        | none, none => (tracs cs[k]).map .inr) := by
  induction cs generalizing f with
  | nil => exact ⟨f, [], rfl, by simp [lastVec], rfl, by simp⟩
  | cons c cs ih =>
    have hc := h c (by simp)
    have hcs : ∀ d ∈ cs, own vecs tracs d ≠ none := fun d hd => h d (by simp [hd])
    cases hv : vecs c with
    | some v =>
      obtain ⟨g, used, h1, h2, h3, h4⟩ := ih (setFlux f (some v)) hcs
      refine ⟨g, some (.inl v) :: used, ?_, ?_, by simp [h3], ?_⟩
      · simp [assemble, initNeumann, hv, h1, getTraction, setFlux]
        simpa [setFlux] using h1
      · rw [h2, lastVec_cons_some vecs f.flux none c v cs hv]; rfl
      · intro k hk
        cases k with
        | zero => simp [hv]
        | succ k =>
          have := h4 k (by simpa using hk)
          simp only [List.getElem?_cons_succ, List.getElem_cons_succ, List.take_succ_cons]
          rw [this, lastVec_cons_some vecs f.flux none c v _ hv]; rfl
    | none =>
      cases ht : tracs c with
      | none => simp [own, hv, ht] at hc
      | some t =>
        obtain ⟨g, used, h1, h2, h3, h4⟩ := ih (setTrac f (some t)) hcs
        refine ⟨g, getTraction (setTrac f (some t)) :: used, ?_, ?_, by simp [h3], ?_⟩
        · simp [assemble, initNeumann, hv, ht, h1]
        · rw [h2, lastVec_cons_none vecs f.flux c cs hv]; rfl
        · intro k hk
          cases k with
          | zero => cases hf : f.flux <;> simp [hv, ht, lastVec, getTraction, setTrac, hf]
          | succ k =>
            have := h4 k (by simpa using hk)
            simp only [List.getElem?_cons_succ, List.getElem_cons_succ, List.take_succ_cons]
            rw [this, lastVec_cons_none vecs f.flux c _ hv]; rfl

theorem lastVec_none (vecs : Nat → Option V) (cs : List Nat) (h : ∀ c ∈ cs, vecs c = none) (v : Option V) : lastVec vecs v cs = v := by
  have : cs.filterMap vecs = [] := by
    rw [List.filterMap_eq_nil_iff]; exact h
  simp [lastVec, this]

/-- **C98**: in the first assembly of a solid model each boundary gets its own traction, if all boundaries with implicit tractions (such as pressures) come before those with explicit ones.
This includes models with only one of the two kinds. -/
theorem C98_traction_partial (vecs : Nat → Option V) (tracs : Nat → Option T) (f : Fld V T) (hf : f.flux = none) (ts vs : List Nat)
    (ht : ∀ c ∈ ts, vecs c = none ∧ tracs c ≠ none) (hv : ∀ c ∈ vs, vecs c ≠ none) :
    ∃ g, assemble (initNeumann vecs tracs) f (ts ++ vs) = some (g, (ts ++ vs).map (own vecs tracs)) := by
  obtain ⟨g, used, h1, -, h3, h4⟩ := C98_used vecs tracs f (ts ++ vs) (by
    intro c hc
    rcases List.mem_append.1 hc with hc | hc
    · obtain ⟨h1, h2⟩ := ht c hc
      unfold own; rw [h1]
      cases h : tracs c
      · exact absurd h h2
      · simp
    · have := hv c hc
      unfold own
      cases h : vecs c
      · exact absurd h this
      · simp)
  refine ⟨g, ?_⟩
  rw [h1]
  congr 2
  apply List.ext_getElem?
  intro k
  by_cases hk : k < (ts ++ vs).length
  · rw [h4 k hk, List.getElem?_map, List.getElem?_eq_getElem hk]
    simp only [Option.map_some]
    congr 1
    unfold own
    cases hw : vecs (ts ++ vs)[k] with
    | some v => rfl
    | none =>
      have hkt : k < ts.length := by
        by_contra hn
        have : (ts ++ vs)[k] ∈ vs := by
          rw [List.getElem_append_right (by omega)]
          exact List.getElem_mem _
        exact hv _ this hw
      have e : (ts ++ vs).take k = ts.take k := by rw [List.take_append_of_le_length (by omega)]
      have e2 : lastVec vecs f.flux ((ts ++ vs).take k) = none := by
        rw [e, lastVec_none vecs _ (fun c hc => (ht c (List.mem_of_mem_take hc)).1), hf]
      rw [e2]
  · rw [List.getElem?_eq_none (by omega), List.getElem?_eq_none (by simpa using hk)]

/-- **C98** does not hold for a boundary with an implicit traction, such as a pressure, after one with an explicit traction: the explicit traction of the other boundary acts on it. -/
theorem C98_traction_violated (vecs : Nat → Option V) (tracs : Nat → Option T) (f : Fld V T) (v t : Nat) (x : V) (y : T) (hx : vecs v = some x) (hy : vecs t = none) (hz : tracs t = some y) :
    ∃ g, assemble (initNeumann vecs tracs) f [v, t] = some (g, [some (.inl x), some (.inl x)]) ∧ own vecs tracs t = some (.inr y) := by
  refine ⟨⟨some x, some y⟩, ?_, ?_⟩
  · simp [assemble, initNeumann, hx, hy, hz, getTraction, setFlux, setTrac]
  · simp [own, hy, hz]

/-- **C98** does not hold in the second and all further assemblies, for any order: what acted on a boundary with an implicit traction in the first one is replaced by the explicit traction
of the last boundary with such. -/
theorem C98_again_violated (vecs : Nat → Option V) (tracs : Nat → Option T) (t v : Nat) (x : V) (y : T) (hx : vecs v = some x) (hy : vecs t = none) (hz : tracs t = some y) :
    ∃ g h, assemble (initNeumann vecs tracs) {} [t, v] = some (g, [some (.inr y), some (.inl x)]) ∧
      assemble (initNeumann vecs tracs) g [t, v] = some (h, [some (.inl x), some (.inl x)]) := by
  refine ⟨⟨some x, some y⟩, ⟨some x, some y⟩, ?_, ?_⟩ <;> simp [assemble, initNeumann, hx, hy, hz, getTraction, setFlux, setTrac]

/-- **C98**: in plates and shells each boundary gets its own traction in every assembly. -/
theorem C98_shell (vecs : Nat → Option V) (tracs : Nat → Option T) (f : Fld V T) (cs : List Nat) (h : ∀ c ∈ cs, own vecs tracs c ≠ none) :
    ∃ g, assemble (initNeumannKL vecs tracs) f cs = some (g, cs.map (own vecs tracs)) := by
  induction cs generalizing f with
  | nil => exact ⟨f, rfl⟩
  | cons c cs ih =>
    have hc := h c (by simp)
    have hcs : ∀ d ∈ cs, own vecs tracs d ≠ none := fun d hd => h d (by simp [hd])
    cases hv : vecs c with
    | some v =>
      obtain ⟨g, h1⟩ := ih (setFlux f (some v)) hcs
      refine ⟨g, ?_⟩
      simp only [assemble, initNeumannKL, hv, Option.bind_some, h1, Option.map_some, List.map_cons, own]
      rfl
    | none =>
      cases ht : tracs c with
      | none => simp [own, hv, ht] at hc
      | some t =>
        obtain ⟨g, h1⟩ := ih (setTracKL f (some t)) hcs
        refine ⟨g, ?_⟩
        simp only [assemble, initNeumannKL, hv, ht, Option.bind_some, h1, Option.map_some, List.map_cons, own]
        rfl

/-- **C98**: a boundary without a function is reported, for solids, plates and shells. -/
theorem C98_missing (vecs : Nat → Option V) (tracs : Nat → Option T) (f : Fld V T) (cs : List Nat) (c : Nat) (hc : c ∈ cs) (h : own vecs tracs c = none) :
    assemble (initNeumann vecs tracs) f cs = none ∧ assemble (initNeumannKL vecs tracs) f cs = none := by
  have h1 : vecs c = none := by
    unfold own at h
    cases hv : vecs c with
    | none => rfl
    | some v => simp [hv] at h
  have h2 : tracs c = none := by
    unfold own at h; rw [h1] at h; simpa using h
  induction cs generalizing f with
  | nil => simp at hc
  | cons d cs ih =>
    rcases List.mem_cons.1 hc with rfl | hc
    · simp [assemble, initNeumann, initNeumannKL, h1, h2]
    · have ih1 := fun f => (ih f hc).1
      have ih2 := fun f => (ih f hc).2
      simp [assemble, ih1, ih2]

end

/-! ### Body forces -/

section
variable {K : Type*} [Field K] [LinearOrder K] [IsStrictOrderedRing K] {X : Type}

/-- **C98**: the body force is gravity times density plus the body force function of the patch, and its time derivative is the one of this function. -/
theorem C98_bodyforce (gravity : K) (density : X → K) (b bDot : X → K) (x : X) :
    getBodyforce gravity density (some b) (some bDot) x false = gravity * density x + b x ∧ getBodyforce gravity density none none x false = gravity * density x ∧
    getBodyforce gravity density (some b) (some bDot) x true = bDot x ∧ getBodyforce gravity density none none x true = 0 := by
  simp [getBodyforce]

/-- **C98**: a model with tractions or body force functions is taken as loaded, and a model taken as unloaded has no gravity loads if its density is constant. -/
theorem C98_loads_partial (trac flux body : Bool) (gravity : List K) (density : X → K) (x0 : X) :
    (trac = true ∨ flux = true ∨ body = true → haveLoads trac flux body gravity density x0 = true) ∧
    (haveLoads trac flux body gravity density x0 = false → (∀ x y, density x = density y) → trac = false ∧ flux = false ∧ body = false ∧ ∀ g ∈ gravity, ∀ x, g * density x = 0) := by
  constructor
  · rintro (h | h | h) <;> simp [haveLoads, h]
  · intro h hd
    simp only [haveLoads, Bool.or_eq_false_iff, Bool.and_eq_false_iff] at h
    obtain ⟨⟨⟨h1, h2⟩, h3⟩, h4⟩ := h
    refine ⟨h1, h2, h3, ?_⟩
    intro g hg x
    rcases h4 with h4 | h4
    · rw [List.any_eq_false] at h4
      have := h4 g hg
      simp at this
      simp [this]
    · simp at h4
      rw [hd x x0, h4, mul_zero]

/-- **C98** does not hold for densities which vanish in the origin: the model is taken as unloaded, so that the external energy is not integrated. -/
theorem C98_loads_violated (gravity : K) (density : X → K) (x0 : X) (h : density x0 = 0) : haveLoads false false false [0, gravity] density x0 = false := by
  simp [haveLoads, h]

/-- **C98** for plates and shells: pressures, line loads and boundary tractions are seen. -/
theorem C98_shell_loads_partial (pres line flux trac : Bool) (gravity : K) (density : Option (X → K)) (x0 : X) :
    (haveLoadsKL 'I' pres line flux trac gravity density x0 = true ↔ pres = true ∨ line = true ∨ (gravity ≠ 0 ∧ ∃ d, density = some d ∧ d x0 ≠ 0)) ∧
    (haveLoadsKL 'B' pres line flux trac gravity density x0 = true ↔ flux = true ∨ trac = true) ∧
    (haveLoadsKL 'A' pres line flux trac gravity density x0 = (haveLoadsKL 'I' pres line flux trac gravity density x0 || haveLoadsKL 'B' pres line flux trac gravity density x0)) := by
  refine ⟨?_, ?_, ?_⟩
  · cases density <;> simp [haveLoadsKL, or_assoc]
  · simp [haveLoadsKL]
  · simp [haveLoadsKL]

/-- **C98** does not hold for plates and shells with a density which vanishes in the origin: the gravity load is not seen. -/
theorem C98_shell_loads_violated (gravity : K) (d : X → K) (x0 : X) (h : d x0 = 0) : haveLoadsKL 'A' false false false false gravity (some d) x0 = false := by
  simp [haveLoadsKL, h]

end

/-! ### Materials -/

/-- **C98**: an index selects its material, and one which is too large the last one. -/
theorem C98_material {M : Type} (mats : List M) (i : Nat) (m : M) :
    (mats[i]? = some m → initMaterial mats i = .ok m) ∧ (mats.length ≤ i → mats.getLast? = some m → initMaterial mats i = .ok m) := by
  constructor
  · intro h
    have hi : ¬ (i ≥ mats.length) := by
      intro hn
      rw [List.getElem?_eq_none hn] at h
      simp at h
    simp [initMaterial, hi, h]
  · intro h hl
    rw [List.getLast?_eq_getElem?] at hl
    simp [initMaterial, h, hl]

/-- **C98** does not hold without materials: memory outside of the list is accessed. -/
theorem C98_material_violated {M : Type} (i : Nat) : initMaterial ([] : List M) i = .ub := by simp [initMaterial]

section
variable {M P : Type}

theorem parseIsotropic_mats (s : Sim M P) (l : List (Nat × M)) : (parseIsotropic s l).mats = s.mats ++ l.map Prod.snd ∧ (parseIsotropic s l).tracs = s.tracs := by
  induction l generalizing s with
  | nil => simp [parseIsotropic]
  | cons a l ih => simp [parseIsotropic, ih]

theorem spt_other (code : Nat) (t : PT) (idx : Option Nat) (ps : List Prp) (k : Nat) (p : Prp) (h : ps[k]? = some p) (hc : p.pindx ≠ code ∨ p.pcode ≠ .undefined) :
    (setPropertyType code t idx ps)[k]? = some p := by
  simp only [setPropertyType, List.getElem?_map, h, Option.map_some]
  rw [if_neg (by tauto)]

theorem parseIsotropic_keep (s : Sim M P) (l : List (Nat × M)) (k : Nat) (p : Prp) (h : s.props[k]? = some p) (hc : p.pcode ≠ .undefined ∨ ∀ c ∈ l.map Prod.fst, c = 0 ∨ p.pindx ≠ c) :
    (parseIsotropic s l).props[k]? = some p := by
  induction l generalizing s with
  | nil => exact h
  | cons a l ih =>
    obtain ⟨c, m⟩ := a
    rw [parseIsotropic]
    apply ih
    · by_cases h0 : c > 0
      · simp only [h0, if_true]
        apply spt_other _ _ _ _ _ _ h
        rcases hc with hc | hc
        · exact Or.inr hc
        · rcases hc c (by simp) with h' | h'
          · omega
          · exact Or.inl h'
      · simp only [h0, if_false]; exact h
    · rcases hc with hc | hc
      · exact Or.inl hc
      · exact Or.inr fun d hd => hc d (by simp at hd ⊢; tauto)

/-- **C98**: each patch whose property has the code of a material gets the first material with this code; the material of a patch is found under the index of its property. Other
properties keep their types. -/
theorem C98_isotropic (s : Sim M P) (l : List (Nat × M)) (k : Nat) (p : Prp) (h : s.props[k]? = some p) (hu : p.pcode = .undefined) (hp : 0 < p.pindx) :
    ((∀ e ∈ l, e.1 ≠ p.pindx) → (parseIsotropic s l).props[k]? = some p) ∧
    (∀ l1 l2 m, l = l1 ++ (p.pindx, m) :: l2 → (∀ e ∈ l1, e.1 ≠ p.pindx) →
      ∃ q, (parseIsotropic s l).props[k]? = some q ∧ q.pcode = .material ∧ q.patch = p.patch ∧ initMaterial (parseIsotropic s l).mats q.pindx = .ok m) := by
  constructor
  · intro hl
    apply parseIsotropic_keep s l k p h
    right
    intro c hc
    obtain ⟨e, he, rfl⟩ := List.mem_map.1 hc
    exact Or.inr fun hh => hl e he hh.symm
  · intro l1 l2 m hl hl1
    subst hl
    have split : ∀ (s : Sim M P) (a b : List (Nat × M)), parseIsotropic s (a ++ b) = parseIsotropic (parseIsotropic s a) b := by
      intro s a b
      induction a generalizing s with
      | nil => rfl
      | cons x a ih => simp [parseIsotropic, ih]
    have hk : (parseIsotropic s l1).props[k]? = some p := by
      apply parseIsotropic_keep s l1 k p h
      right
      intro c hc
      obtain ⟨e, he, rfl⟩ := List.mem_map.1 hc
      exact Or.inr fun hh => hl1 e he hh.symm
    rw [split]
    generalize hs1 : parseIsotropic s l1 = s1 at hk ⊢
    refine ⟨{ p with pcode := .material, pindx := s1.mats.length }, ?_, rfl, rfl, ?_⟩
    · rw [parseIsotropic]
      apply parseIsotropic_keep
      · simp only [gt_iff_lt, hp, if_true, setPropertyType, List.getElem?_map, hk, Option.map_some]
        simp [hu]
      · exact Or.inl (by simp)
    · apply (C98_material _ _ m).1
      rw [(parseIsotropic_mats s1 _).1]
      simp

/-- **C98**: in the format with explicit patches, each patch listed has a property which refers to its material. -/
theorem C98_mat_patches (loc : Nat → Option Nat) (idx : Nat) (ps : List Prp) (l : List (Option Nat)) (qs : List Prp) (h : parseMatPatches loc idx ps l = some qs) :
    qs = ps ++ (l.filterMap fun o => o.bind fun p => (loc p).bind fun pid => if pid = 0 then none else some ⟨.material, idx, pid, 0⟩) := by
  induction l generalizing ps with
  | nil => simp [parseMatPatches] at h; simp [h]
  | cons o l ih =>
    cases o with
    | none =>
      rw [parseMatPatches] at h
      simpa using ih ps h
    | some p =>
      rw [parseMatPatches] at h
      cases hl : loc p with
      | none => simp [hl] at h
      | some pid =>
        cases pid with
        | zero =>
          simp only [hl] at h
          rw [ih ps h]
          simp [hl]
        | succ pid =>
          simp only [hl] at h
          rw [ih _ h]
          simp [hl]

/-- **C98**: the materials in this format are stored in order and the properties added for the `j`-th of them refer to it. -/
theorem C98_mat_input (loc : Nat → Option Nat) (s : Sim M P) (l : List (M × List (Option Nat))) (s' : Sim M P) (h : parseMaterial loc s l = some s') :
    s'.mats = s.mats ++ l.map Prod.fst ∧ (∀ p ∈ s.props, p ∈ s'.props) ∧
    ∀ (j : Nat) (m : M) (ps : List (Option Nat)), l[j]? = some (m, ps) → ∀ p pid, some p ∈ ps → loc p = some pid → 0 < pid →
      ∃ q ∈ s'.props, q.pcode = .material ∧ q.patch = pid ∧ initMaterial s'.mats q.pindx = .ok m := by
  induction l generalizing s with
  | nil =>
    simp [parseMaterial] at h
    subst h
    simp
  | cons a l ih =>
    obtain ⟨m, ps⟩ := a
    rw [parseMaterial] at h
    cases hq : parseMatPatches loc s.mats.length s.props ps with
    | none => simp [hq] at h
    | some qs =>
      simp only [hq] at h
      obtain ⟨i1, i2, i3⟩ := ih _ h
      have e := C98_mat_patches loc _ _ _ _ hq
      refine ⟨by rw [i1]; simp, fun p hp => i2 p (by rw [e]; simp [hp]), ?_⟩
      intro j m' ps' hj p pid hp hloc hpos
      cases j with
      | zero =>
        simp at hj
        obtain ⟨rfl, rfl⟩ := hj
        refine ⟨⟨.material, s.mats.length, pid, 0⟩, i2 _ ?_, rfl, rfl, ?_⟩
        · simp only
          rw [e]
          apply List.mem_append_right
          rw [List.mem_filterMap]
          exact ⟨some p, hp, by simp [hloc]; omega⟩
        · apply (C98_material _ _ m).1
          rw [i1]
          simp
      | succ j => exact i3 j m' ps' (by simpa using hj) p pid hp hloc hpos

/-! ### Pressures in the text format -/

theorem parsePressure_tracs (dim : Nat) (loc : Nat → Option Nat) (i : Nat) (s : Sim M P) (ls : List (PLine P)) (s' : Sim M P) (h : parsePressure dim loc i s ls = some s') :
    ∀ c, c < 1 + i → s'.tracs c = s.tracs c := by
  induction ls generalizing i s with
  | nil => simp [parsePressure] at h; simp [h]
  | cons l ls ih =>
    intro c hc
    rw [parsePressure] at h
    split at h
    · simp at h
    · exact ih _ _ h c (by omega)
    · split_ifs at h with hf
      rw [ih _ _ h c (by omega)]
      simp [put, show c ≠ 1 + i by omega]

theorem parsePressure_props (dim : Nat) (loc : Nat → Option Nat) (i : Nat) (s : Sim M P) (ls : List (PLine P)) (s' : Sim M P) (h : parsePressure dim loc i s ls = some s') :
    ∃ new, s'.props = s.props ++ new := by
  induction ls generalizing i s with
  | nil => simp [parsePressure] at h; exact ⟨[], by simp [h]⟩
  | cons l ls ih =>
    rw [parsePressure] at h
    split at h
    · simp at h
    · exact ih _ _ h
    · split_ifs at h with hf
      obtain ⟨new, hn⟩ := ih _ _ h
      exact ⟨[_] ++ new, by rw [hn]; simp only [List.append_assoc]; rfl⟩

/-- **C98**: after reading a section of pressures on patch faces each of them acts on its own patch and face, with its own pressure function. -/
theorem C98_pressure_partial (dim : Nat) (loc : Nat → Option Nat) (i : Nat) (s : Sim M P) (ls : List (PLine P)) (s' : Sim M P) (h : parsePressure dim loc i s ls = some s') :
    ∀ l ∈ ls, ∀ pid, loc l.patch = some pid → 0 < pid → 1 ≤ l.face ∧ l.face ≤ 2 * dim ∧
      ∃ p ∈ s'.props, p.pcode = .neumann ∧ p.patch = pid ∧ p.face = l.face ∧ tracOf s' p = some l.load := by
  induction ls generalizing i s with
  | nil => simp
  | cons l ls ih =>
    intro l' hl' pid hpid hpos
    have h0 := h
    rw [parsePressure] at h
    rcases List.mem_cons.1 hl' with rfl | hl'
    · split at h
      · simp at h
      · rename_i hz; rw [hpid] at hz; simp at hz; omega
      · rename_i q hz
        rw [hpid] at hz
        split_ifs at h with hf
        push Not at hf
        obtain ⟨new, hn⟩ := parsePressure_props _ _ _ _ _ _ h
        refine ⟨hf.1, hf.2, ⟨.neumann, 1 + i, q + 1, l'.face⟩, ?_, rfl, ?_, rfl, ?_⟩
        · rw [hn]; simp
        · exact (Option.some.inj hz).symm
        · simp only [tracOf]
          rw [parsePressure_tracs _ _ _ _ _ _ h _ (by omega)]
          simp [put]
    · split at h
      · simp at h
      · exact ih _ _ h l' hl' pid hpid hpos
      · split_ifs at h with hf
        exact ih _ _ h l' hl' pid hpid hpos

/-- **C98** does not hold for a second section of pressures: its first pressure also replaces the first one of the first section. -/
theorem C98_pressure_violated (dim : Nat) (hd : 0 < dim) (a b : P) :
    ∃ s1 s2 : Sim M P, parsePressure dim some 0 {} [⟨1, 1, a⟩] = some s1 ∧ parsePressure dim some 0 s1 [⟨2, 2, b⟩] = some s2 ∧
      s2.props.map (fun p => (p.patch, p.face, tracOf s2 p)) = [(1, 1, some b), (2, 2, some b)] := by
  have h1 : ¬ ((1 : Nat) < 1 ∨ 1 > 2 * dim) := by omega
  have h2 : ¬ ((2 : Nat) < 1 ∨ 2 > 2 * dim) := by omega
  refine ⟨⟨[], [⟨.neumann, 1, 1, 1⟩], put (fun _ => none) 1 a⟩, ⟨[], [⟨.neumann, 1, 1, 1⟩, ⟨.neumann, 1, 2, 2⟩], put (put (fun _ => none) 1 a) 1 b⟩, ?_, ?_, ?_⟩
  · simp [parsePressure, h1]; omega
  · simp [parsePressure]; omega
  · simp [tracOf, put]

theorem parseCoded_keep (s : Sim M P) (l : List (Nat × P)) (c : Nat) (h : ∀ e ∈ l, e.1 ≠ c) : (parseCodedPressure s l).tracs c = s.tracs c := by
  induction l generalizing s with
  | nil => rfl
  | cons a l ih =>
    obtain ⟨d, p⟩ := a
    rw [parseCodedPressure, ih _ fun e he => h e (by simp [he])]
    have : c ≠ d := fun hh => h (d, p) (by simp) hh.symm
    simp [put, this]

theorem parseCoded_props (s : Sim M P) (l : List (Nat × P)) (k : Nat) (p : Prp) (h : s.props[k]? = some p) (hp : p.pcode = .neumann) : (parseCodedPressure s l).props[k]? = some p := by
  induction l generalizing s with
  | nil => exact h
  | cons a l ih =>
    rw [parseCodedPressure]
    exact ih _ (spt_other _ _ _ _ _ _ h (Or.inr (by simp [hp])))

/-- **C98**: with pressures by code, the boundaries with a code become Neumann boundaries and get the last pressure given for their code. -/
theorem C98_coded_pressure (s : Sim M P) (l1 l2 : List (Nat × P)) (c : Nat) (x : P) (h2 : ∀ e ∈ l2, e.1 ≠ c) (k : Nat) (p : Prp) (hk : s.props[k]? = some p) (hu : p.pcode = .undefined)
    (hc : p.pindx = c) :
    ∃ q, (parseCodedPressure s (l1 ++ (c, x) :: l2)).props[k]? = some q ∧ q.pcode = .neumann ∧ q.patch = p.patch ∧ q.face = p.face ∧
      tracOf (parseCodedPressure s (l1 ++ (c, x) :: l2)) q = some x := by
  have split : ∀ (s : Sim M P) (a b : List (Nat × P)), parseCodedPressure s (a ++ b) = parseCodedPressure (parseCodedPressure s a) b := by
    intro s a b
    induction a generalizing s with
    | nil => rfl
    | cons y a ih => simp [parseCodedPressure, ih]
  have main : ∀ (l1 : List (Nat × P)) (s : Sim M P), (s.props[k]? = some p ∨ s.props[k]? = some { p with pcode := .neumann }) →
      ((parseCodedPressure s l1).props[k]? = some p ∨ (parseCodedPressure s l1).props[k]? = some { p with pcode := .neumann }) := by
    intro l1
    induction l1 with
    | nil => intro s h; exact h
    | cons a l1 ih =>
      intro s h
      obtain ⟨d, y⟩ := a
      rw [parseCodedPressure]
      apply ih
      rcases h with h | h
      · by_cases hd : p.pindx = d
        · right; simp [setPropertyType, h, hd, hu]
        · left; exact spt_other _ _ _ _ _ _ h (Or.inl hd)
      · right; exact spt_other _ _ _ _ _ _ h (Or.inr (by simp))
  rw [split]
  have h1 := main l1 s (Or.inl hk)
  generalize parseCodedPressure s l1 = s1 at h1 ⊢
  rw [parseCodedPressure]
  refine ⟨{ p with pcode := .neumann }, ?_, rfl, rfl, rfl, ?_⟩
  · apply parseCoded_props
    · rcases h1 with h1 | h1
      · simp [setPropertyType, h1, hc, hu]
      · exact spt_other _ _ _ _ _ _ h1 (Or.inr (by simp))
    · rfl
  · simp only [tracOf]
    rw [hc, parseCoded_keep _ _ _ h2]
    simp [put]

end

/-- **C98**: the gravity vector has the components given, in three and two dimensions. -/
theorem C98_gravity_partial {K : Type*} [Zero K] (gx gy gz : K) (l : List K) :
    parseGravity 3 (gx :: gy :: gz :: l) = .ok (gx, gy, gz) ∧ parseGravity 2 (gx :: gy :: l) = .ok (gx, gy, 0) := ⟨rfl, rfl⟩

/-- **C98** does not hold for a gravity vector with too few components: a null pointer is read. -/
theorem C98_gravity_violated {K : Type*} [Zero K] (gx gy : K) : parseGravity 3 [gx, gy] = .ub ∧ parseGravity 2 [gx] = .ub := ⟨rfl, rfl⟩

/-! ### Master points -/

/-- **C98**: a constraint on a master point is put, with its rotations, on the first patch which has the node, the number of fields of all patches is the same afterwards, and it is
reported if no patch has the node. -/
theorem C98_master (nsd node : Nat) (ps : List Patch) :
    ((addConstraint nsd node ps).2 = true ↔ ∃ p ∈ ps, node ∈ p.xnodes) ∧ (addConstraint nsd node ps).1.map Patch.nf = ps.map Patch.nf ∧
    (∀ a p b, ps = a ++ p :: b → (∀ q ∈ a, node ∉ q.xnodes) → node ∈ p.xnodes →
      (addConstraint nsd node ps).1 = a ++ { p with fixed := p.fixed ++ [(node, nsd * (nsd + 1) / 2)] } :: b) := by
  refine ⟨?_, ?_, ?_⟩
  · induction ps with
    | nil => simp [addConstraint]
    | cons p ps ih =>
      by_cases h : node ∈ p.xnodes
      · simp [addConstraint, h]
      · simp [addConstraint, h, ih]
  · induction ps with
    | nil => rfl
    | cons p ps ih =>
      by_cases h : node ∈ p.xnodes
      · simp [addConstraint, h]
      · simp [addConstraint, h, ih]
  · intro a p b hps ha hp
    subst hps
    induction a with
    | nil => simp [addConstraint, hp]
    | cons q a ih =>
      have hq := ha q (by simp)
      rw [List.cons_append, addConstraint]
      simp only [hq, if_false]
      rw [ih fun r hr => ha r (by simp [hr])]
      rfl

/-! ### Concrete cases -/

/-- An explicit traction on boundary 3 and a pressure on boundary 5. -/
example : own (fun c => if c = 3 then some "traction" else none) (fun c => if c = 5 then some "pressure" else none) 5 = some (.inr "pressure") ∧
    (assemble (initNeumann (fun c => if c = 3 then some "traction" else none) (fun c => if c = 5 then some "pressure" else none)) {} [3, 5]).map Prod.snd
      = some [some (.inl "traction"), some (.inl "traction")] := ⟨rfl, rfl⟩

example : (parseIsotropic (⟨[], [⟨.undefined, 7, 1, 0⟩, ⟨.undefined, 9, 2, 0⟩], fun _ => none⟩ : Sim String Nat) [(7, "steel"), (9, "concrete")]).props
    = [⟨.material, 0, 1, 0⟩, ⟨.material, 1, 2, 0⟩] := rfl

example : addConstraint 3 20 [⟨3, [], []⟩, ⟨3, [20], []⟩] = ([⟨3, [], []⟩, ⟨3, [20], [(20, 6)]⟩], true) := rfl

end Verif.SolidLoads
