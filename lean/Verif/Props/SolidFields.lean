/-
Property C96: the output fields of solids match their names and number.
-/
import Mathlib.Tactic.Linarith
import Mathlib.Tactic.IntervalCases
import Verif.Model.SolidFields

set_option linter.unusedSectionVars false
set_option linter.unusedSimpArgs false
set_option linter.unusedVariables false

namespace Verif.SolidFields

/-- The name of a tensor component: by the directions x, y, z, or by r, z, t (circumferential) in axial symmetry, with the letter e for strains and s for stresses. -/
def compName (axi strain : Bool) (a b : Nat) : String :=
  (if strain then "e" else "s") ++
    (if axi then (if a = 0 ∧ b = 0 then "_rr" else if a = 1 ∧ b = 1 then "_zz" else if a = 2 ∧ b = 2 then "_tt" else "_zr")
    else (if a = 0 ∧ b = 0 then "_xx" else if a = 1 ∧ b = 1 then "_yy" else if a = 2 ∧ b = 2 then "_zz"
      else if a = 0 ∧ b = 1 then "_xy" else if a = 1 ∧ b = 2 then "_yz" else "_xz"))

/-- The name a value should have. -/
def properName (c : Cfg) : Val → String
  | .comp _ a b => compName c.axi c.strain a b
  | .vonMises => if c.strain then "von Mises strain" else "von Mises stress"
  | .prin k => "P" ++ toString k
  | .int k => c.labels.getD (k - 1) ""
  | .zero => ""

/-- The prefix of a name. -/
def prefixed (pre : Option String) (n : String) : String := match pre with
  | some p => p ++ " " ++ n
  | none => n

/-- A plane or solid problem. -/
def Regular (c : Cfg) : Prop := c.nsd = 2 ∨ (c.nsd = 3 ∧ c.axi = false)

/-- **C96**: as many values are computed as are announced, in all regular points of plane and solid problems when the principal values can be found. -/
theorem C96_number (c : Cfg) (h : Regular c) (pOk : Bool) (hp : c.principal = true → pOk = true) : (evalSol2 c false pOk).length = getNoFields c 2 := by
  obtain ⟨nsd, axi, ps, pr, st, ls, lab⟩ := c
  simp only at hp
  rcases h with h | ⟨h, h'⟩ <;> simp only at h <;> (try simp only at h') <;> subst h
  · cases pr <;> (first | obtain rfl := hp rfl | skip) <;> cases axi <;> cases ps <;> simp [evalSol2, evalSol, comps, prins, getNoFields] <;> omega
  · subst h'
    cases pr <;> (first | obtain rfl := hp rfl | skip) <;> cases ps <;> simp [evalSol2, evalSol, comps, prins, getNoFields] <;> omega

/-- **C96**: a point has either all values or, if it is singular, none. -/
theorem C96_singular (c : Cfg) (h : Regular c) (singular pOk : Bool) (hp : c.principal = true → pOk = true) :
    (evalSol2 c singular pOk).length = if singular then 0 else getNoFields c 2 := by
  cases singular with
  | true => simp [evalSol2]
  | false => simpa using C96_number c h pOk hp

theorem noFields3 (c : Cfg) (h : Regular c) : getNoFields c 3 = (comps c.nsd (c.axi || c.planeStrain)).length ∧ 3 ≤ getNoFields c 3 ∧ getNoFields c 3 ≤ 6 ∧
    getNoFields c 2 = getNoFields c 3 + 1 + c.labels.length + (if c.principal then c.nsd else 0) := by
  obtain ⟨nsd, axi, ps, pr, st, ls, lab⟩ := c
  rcases h with h | ⟨h, h'⟩ <;> simp only at h <;> (try simp only at h') <;> subst h
  · cases axi <;> cases ps <;> simp [comps, getNoFields]
  · subst h'
    cases ps <;> simp [comps, getNoFields]

theorem name_comp (c : Cfg) (h : Regular c) (hs : c.strain = true → getNoFields c 3 ≠ 3) (pre : Option String) (i : Nat) (p : Nat × Nat)
    (hp : (comps c.nsd (c.axi || c.planeStrain))[i]? = some p) (l : Bool) :
    getField2Name c i pre = .ok (prefixed pre (properName c (.comp l p.1 p.2))) := by
  obtain ⟨h3, h4, h5, h6⟩ := noFields3 c h
  have hi : i < getNoFields c 3 := by
    rw [h3]; rw [List.getElem?_eq_some_iff] at hp; exact hp.1
  have h2 : ¬ (i ≥ getNoFields c 2) := by omega
  obtain ⟨nsd, axi, ps, pr, st, ls, lab⟩ := c
  unfold getField2Name
  rw [if_neg h2]
  rcases h with h | ⟨h, h'⟩ <;> simp only at h <;> (try simp only at h') <;> subst h
  · cases axi <;> cases ps <;> simp [comps] at hp h3 <;> rw [h3] at hi <;> interval_cases i <;> simp at hp <;> subst hp <;>
      (cases st <;> cases pre <;> simp [h3, table, properName, compName, prefixed, Res.bind, String.append_assoc] at hs ⊢)
  · subst h'
    cases ps <;> simp [comps] at hp h3 <;> rw [h3] at hi <;> interval_cases i <;> simp at hp <;> subst hp <;>
      (cases st <;> cases pre <;> simp [h3, table, properName, compName, prefixed, Res.bind, String.append_assoc])

theorem name_vm (c : Cfg) (h : Regular c) (pre : Option String) :
    getField2Name c (getNoFields c 3) pre = .ok (prefixed pre (properName c .vonMises)) := by
  obtain ⟨h3, h4, h5, h6⟩ := noFields3 c h
  have h1 : c.nsd ≠ 1 := by rcases h with h | h <;> omega
  have h2 : ¬ (getNoFields c 3 = 2 ∧ getNoFields c 3 = 3) := by omega
  unfold getField2Name
  rw [if_neg (by omega), if_neg h1, if_neg h2, if_neg (lt_irrefl _), if_pos rfl]
  cases pre <;> cases hs : c.strain <;> simp [properName, prefixed, hs, String.append_assoc]

theorem name_int (c : Cfg) (h : Regular c) (pre : Option String) (k : Nat) (hk : 1 ≤ k) (hk' : k ≤ c.labels.length) :
    getField2Name c (getNoFields c 3 + k) pre = .ok (prefixed pre (properName c (.int k))) := by
  obtain ⟨h3, h4, h5, h6⟩ := noFields3 c h
  have h1 : c.nsd ≠ 1 := by rcases h with h | h <;> omega
  have h2 : ¬ (getNoFields c 3 + k = 2 ∧ getNoFields c 3 = 3) := by omega
  have hl : k - 1 < c.labels.length := by omega
  unfold getField2Name
  rw [if_neg (by omega), if_neg h1, if_neg h2, if_neg (by omega), if_neg (by omega), if_pos (by omega)]
  have e : getNoFields c 3 + k - getNoFields c 3 - 1 = k - 1 := by omega
  rw [e]
  cases pre <;> simp [table, properName, prefixed, hl, Res.bind, String.append_assoc]

theorem name_prin (c : Cfg) (h : Regular c) (hp : c.principal = true) (pre : Option String) (k : Nat) (hk : 1 ≤ k) (hk' : k ≤ c.nsd) :
    getField2Name c (getNoFields c 3 + c.labels.length + k) pre = .ok (prefixed pre (properName c (.prin k))) := by
  obtain ⟨h3, h4, h5, h6⟩ := noFields3 c h
  rw [hp] at h6
  simp only [if_true] at h6
  have h1 : c.nsd ≠ 1 := by rcases h with h | h <;> omega
  have h2 : ¬ (getNoFields c 3 + c.labels.length + k = 2 ∧ getNoFields c 3 = 3) := by omega
  unfold getField2Name
  rw [if_neg (by omega), if_neg h1, if_neg h2, if_neg (by omega), if_neg (by omega), if_neg (by omega), if_pos (by omega)]
  have e : getNoFields c 3 + c.labels.length + k - getNoFields c 3 - c.labels.length = k := by omega
  rw [e]
  cases pre with
  | none => simp [properName, prefixed]
  | some p => simp only [properName, prefixed, String.append_assoc]

theorem prins_get (c : Cfg) (h : Regular c) (j : Nat) (v : Val) (hj : (prins c.nsd)[j]? = some v) : v = .prin (j + 1) ∧ j + 1 ≤ c.nsd := by
  have hl : j < (prins c.nsd).length := (List.getElem?_eq_some_iff.1 hj).1
  rcases h with h | ⟨h, -⟩ <;> rw [h] at hj hl ⊢ <;> simp [prins] at hl <;> interval_cases j <;> simp [prins] at hj <;> subst hj <;> simp

theorem range_get {n i a : Nat} (h : (List.range n)[i]? = some a) : i < n ∧ i = a := by
  have hl := (List.getElem?_eq_some_iff.1 h).1
  rw [List.length_range] at hl
  rw [List.getElem?_range hl] at h
  exact ⟨hl, Option.some.inj h⟩

theorem vals_get (c : Cfg) (h : Regular c) (pOk : Bool) (i : Nat) (v : Val) (hi : (evalSol2 c false pOk)[i]? = some v) :
    (∃ p l, (comps c.nsd (c.axi || c.planeStrain))[i]? = some p ∧ v = .comp l p.1 p.2) ∨ (i = getNoFields c 3 ∧ v = .vonMises) ∨
    (getNoFields c 3 < i ∧ ((c.principal && pOk) = true ∧ (prins c.nsd)[i - getNoFields c 3 - 1]? = some v ∨
      (let m := if (c.principal && pOk) = true then (prins c.nsd).length else 0
       getNoFields c 3 + m < i ∧ i - getNoFields c 3 - m ≤ c.labels.length ∧ v = .int (i - getNoFields c 3 - m)))) := by
  obtain ⟨h3, h4, h5, h6⟩ := noFields3 c h
  simp only [evalSol2, evalSol, Bool.false_eq_true, if_false, Bool.true_and, if_true] at hi
  rw [List.append_assoc, List.append_assoc] at hi
  by_cases h1 : i < getNoFields c 3
  · left
    rw [List.getElem?_append_left (by simp; omega)] at hi
    simp only [List.getElem?_map, Option.map_eq_some_iff] at hi
    obtain ⟨p, hp, rfl⟩ := hi
    exact ⟨p, _, hp, rfl⟩
  · right
    rw [List.getElem?_append_right (by simp; omega), List.length_map, ← h3] at hi
    by_cases h2 : i = getNoFields c 3
    · left
      subst h2
      simp at hi
      exact ⟨rfl, hi.symm⟩
    · right
      refine ⟨by omega, ?_⟩
      rw [List.getElem?_append_right (by simp; omega)] at hi
      simp only [List.length_singleton] at hi
      by_cases hc : (c.principal && pOk) = true
      · rw [if_pos hc] at hi
        by_cases hl : i - getNoFields c 3 - 1 < (prins c.nsd).length
        · left
          rw [List.getElem?_append_left hl] at hi
          exact ⟨hc, hi⟩
        · right
          rw [if_pos hc]
          rw [List.getElem?_append_right (by omega)] at hi
          simp only [List.getElem?_map, Option.map_eq_some_iff] at hi
          obtain ⟨a, ha, rfl⟩ := hi
          obtain ⟨ha, rfl⟩ := range_get ha
          refine ⟨by omega, by omega, ?_⟩
          congr 1; omega
      · right
        rw [if_neg hc] at hi ⊢
        simp only [List.nil_append, List.getElem?_map, Option.map_eq_some_iff] at hi
        obtain ⟨a, ha, rfl⟩ := hi
        obtain ⟨ha, rfl⟩ := range_get ha
        refine ⟨by omega, by omega, ?_⟩
        congr 1; omega

/-- **C96**: every value computed in a point has the name of its quantity, with any prefix, for plane and solid problems: for materials without internal variables or without principal
values; and strains not in plane stress. -/
theorem C96_names_partial (c : Cfg) (h : Regular c) (hs : c.strain = true → c.nsd = 2 → (c.axi || c.planeStrain) = true) (hp : c.principal = true → c.labels = []) (pOk : Bool)
    (pre : Option String) (i : Nat) (v : Val) (hi : (evalSol2 c false pOk)[i]? = some v) :
    getField2Name c i pre = .ok (prefixed pre (properName c v)) := by
  obtain ⟨h3, h4, h5, h6⟩ := noFields3 c h
  rcases vals_get c h pOk i v hi with ⟨p, l, hp', rfl⟩ | ⟨rfl, rfl⟩ | ⟨h1, h2⟩
  · refine name_comp c h (fun hst => ?_) pre i p hp' l
    rw [h3]
    rcases h with h | ⟨h, -⟩
    · rw [h, hs hst h]; simp [comps]
    · rw [h]; simp [comps]
  · exact name_vm c h pre
  · rcases h2 with ⟨hc, h2⟩ | ⟨h2, h2', rfl⟩
    · obtain ⟨hv, hn⟩ := prins_get c h _ v h2
      have hpp : c.principal = true := by cases hh : c.principal <;> simp [hh] at hc ⊢
      have hl := hp hpp
      subst hv
      have := name_prin c h hpp pre (i - getNoFields c 3 - 1 + 1) (by omega) hn
      rw [hl] at this
      convert this using 2
      simp; omega
    · by_cases hc : (c.principal && pOk) = true
      · rw [if_pos hc] at h2 h2' ⊢
        have hpp : c.principal = true := by cases hh : c.principal <;> simp [hh] at hc ⊢
        rw [hp hpp] at h2'
        simp at h2'
        omega
      · rw [if_neg hc] at h2 h2' ⊢
        have := name_int c h pre (i - getNoFields c 3 - 0) (by omega) h2'
        convert this using 2
        omega

/-- **C96** does not hold for principal values with materials that have internal variables: all of them are written under the wrong names. The first principal value is named like the
first internal variable, which is named like the following one, or like the first principal value. -/
theorem C96_order_violated (c : Cfg) (h : Regular c) (hp : c.principal = true) (l : String) (ls : List String) (hl : c.labels = l :: ls) (pre : Option String) :
    (evalSol2 c false true)[getNoFields c 3 + 1]? = some (.prin 1) ∧ getField2Name c (getNoFields c 3 + 1) pre = .ok (prefixed pre l) ∧
    (∃ i, (evalSol2 c false true)[i]? = some (.int c.labels.length) ∧ getField2Name c i pre = .ok (prefixed pre ("P" ++ toString c.nsd))) := by
  obtain ⟨h3, h4, h5, h6⟩ := noFields3 c h
  have hlen : (prins c.nsd).length = c.nsd := by rcases h with h | ⟨h, -⟩ <;> rw [h] <;> simp [prins]
  have hv : evalSol2 c false true = ((comps c.nsd (c.axi || c.planeStrain)).map fun p => Val.comp c.locSys p.1 p.2) ++ ([.vonMises] ++ (prins c.nsd ++
      (List.range c.labels.length).map fun i => Val.int (i + 1))) := by
    simp [evalSol2, evalSol, hp, List.append_assoc]
  refine ⟨?_, ?_, getNoFields c 3 + c.labels.length + c.nsd, ?_, ?_⟩
  · rw [hv, List.getElem?_append_right (by simp; omega), List.getElem?_append_right (by simp; omega), List.getElem?_append_left (by simp; rcases h with h | ⟨h, -⟩ <;> omega)]
    simp [h3, prins]
  · have := name_int c h pre 1 (le_refl _) (by rw [hl]; simp)
    rw [this]
    simp [properName, hl]
  · have hp : 0 < c.labels.length := by rw [hl]; simp
    rw [hv, List.getElem?_append_right (by simp; omega), List.getElem?_append_right (by simp; omega), List.getElem?_append_right (by simp; omega)]
    simp only [List.length_map, ← h3, List.length_singleton, hlen, List.getElem?_map, Option.map_eq_some_iff]
    refine ⟨c.labels.length - 1, ?_, by congr 1; omega⟩
    rw [List.getElem?_range (by omega)]
    congr 1; omega
  · exact name_prin c h hp pre c.nsd (by rcases h with h | ⟨h, -⟩ <;> omega) (le_refl _)

/-- **C96** does not hold for strains in plane stress: the shear strain is named like a stress. -/
theorem C96_strain_violated (c : Cfg) (h : c.nsd = 2) (hp : (c.axi || c.planeStrain) = false) (hs : c.strain = true) (pOk : Bool) :
    (∃ l, (evalSol2 c false pOk)[2]? = some (.comp l 0 1)) ∧ getField2Name c 2 none = .ok "s_xy" ∧ getField2Name c 1 none = .ok "e_yy" := by
  obtain ⟨nsd, axi, ps, pr, st, ls, lab⟩ := c
  simp only at h hp hs
  subst h hs
  cases axi <;> cases ps <;> simp at hp
  refine ⟨⟨pr && ls, ?_⟩, ?_, ?_⟩
  · simp [evalSol2, evalSol, comps]
  · unfold getField2Name
    rw [if_neg (by simp [getNoFields]; omega)]
    simp [getNoFields]
  · unfold getField2Name
    rw [if_neg (by simp [getNoFields]; omega)]
    simp [getNoFields, table, Res.bind]

/-- **C96** does not hold in one dimension: all fields have the same name, the von Mises value and the internal variables as well. -/
theorem C96_axial_violated (c : Cfg) (h : c.nsd = 1) (i : Nat) (hi : i < getNoFields c 2) : getField2Name c i none = .ok "Axial stress" := by
  unfold getField2Name
  rw [if_neg (by omega), if_pos h]
  simp

/-- **C96** does not hold if the principal values of a point can not be found: the values are fewer than announced, and internal variables move to other places than in other points. -/
theorem C96_failing_violated (c : Cfg) (h : Regular c) (hp : c.principal = true) :
    (evalSol2 c false false).length + c.nsd = getNoFields c 2 := by
  have := C96_number c h true (fun _ => rfl)
  rw [← this]
  have hlen : (prins c.nsd).length = c.nsd := by rcases h with h | ⟨h, -⟩ <;> rw [h] <;> simp [prins]
  simp [evalSol2, evalSol, hp, hlen]
  omega

/-- **C96**: the values of an analytical solution with as many components as the stress of the model are in the order of the names: components, von Mises value, a zero for each internal
variable, principal values. -/
theorem C96_exact (c : Cfg) (h : Regular c) (hs : c.strain = false) (pre : Option String) (i : Nat) (v : Val) (hi : (evalAna c (c.axi || c.planeStrain))[i]? = some v) (hz : v ≠ .zero) :
    getField2Name c i pre = .ok (prefixed pre (properName c v)) := by
  obtain ⟨h3, h4, h5, h6⟩ := noFields3 c h
  unfold evalAna at hi
  rw [List.append_assoc] at hi
  by_cases h1 : i < getNoFields c 3
  · rw [List.getElem?_append_left (by simp; omega)] at hi
    simp only [List.getElem?_map, Option.map_eq_some_iff] at hi
    obtain ⟨p, hp, rfl⟩ := hi
    exact name_comp c h (by simp [hs]) pre i p hp false
  · rw [List.getElem?_append_right (by simp; omega), List.length_map, ← h3] at hi
    by_cases h2 : i = getNoFields c 3
    · subst h2
      simp at hi
      subst hi
      exact name_vm c h pre
    · rw [List.getElem?_append_right (by simp; omega)] at hi
      simp only [List.length_singleton] at hi
      by_cases hc : c.principal = true
      · rw [if_pos hc] at hi
        by_cases hl : i - getNoFields c 3 - 1 < c.labels.length
        · rw [List.getElem?_append_left (by simpa using hl), List.getElem?_replicate] at hi
          rw [if_pos hl] at hi
          exact absurd (Option.some.inj hi).symm hz
        · rw [List.getElem?_append_right (by simp; omega)] at hi
          obtain ⟨rfl, hn⟩ := prins_get c h _ v hi
          have := name_prin c h hc pre (i - getNoFields c 3 - 1 - (List.replicate c.labels.length Val.zero).length + 1) (by omega) hn
          convert this using 2
          simp; omega
      · rw [if_neg hc] at hi
        simp at hi

/-- **C96** does not hold for the comparison with an analytical solution, for a material with internal variables: the first principal value of the computed solution is at the place of a
zero of the analytical one. -/
theorem C96_exact_violated (c : Cfg) (h : Regular c) (hp : c.principal = true) (l : String) (ls : List String) (hl : c.labels = l :: ls) :
    (evalSol2 c false true)[getNoFields c 3 + 1]? = some (.prin 1) ∧ (evalAna c (c.axi || c.planeStrain))[getNoFields c 3 + 1]? = some .zero := by
  obtain ⟨h3, h4, h5, h6⟩ := noFields3 c h
  refine ⟨(C96_order_violated c h hp l ls hl none).1, ?_⟩
  unfold evalAna
  rw [List.append_assoc, List.getElem?_append_right (by simp; omega), List.length_map, ← h3, List.getElem?_append_right (by simp), if_pos hp, hl]
  simp [List.replicate_succ]

/-- **C96**: with principal values, the components are given in the local system if there is one. -/
theorem C96_local_partial (c : Cfg) (hp : c.principal = true) (pOk l : Bool) (a b : Nat) (h : Val.comp l a b ∈ evalSol2 c false pOk) : l = c.locSys := by
  unfold evalSol2 evalSol at h
  rw [if_neg (by simp), hp] at h
  simp only [List.mem_append, List.mem_map] at h
  rcases h with ((⟨p, -, h⟩ | h) | h) | ⟨p, -, h⟩
  · injection h with h _ _
    simpa using h.symm
  · simp at h
  · cases pOk <;> simp [prins] at h
  · cases h

/-- **C96** does not hold for local systems without principal values: the components are global ones. -/
theorem C96_local_violated (c : Cfg) (hp : c.principal = false) (pOk l : Bool) (a b : Nat) (h : Val.comp l a b ∈ evalSol2 c false pOk) : l = false := by
  unfold evalSol2 evalSol at h
  rw [if_neg (by simp), hp] at h
  simp only [List.mem_append, List.mem_map] at h
  rcases h with ((⟨p, -, h⟩ | h) | h) | ⟨p, -, h⟩
  · injection h with h _ _
    simpa using h.symm
  · simp at h
  · simp at h
  · cases h

/-- **C96**: the displacement components have different names of the global directions; in axial symmetry only together with a prefix. -/
theorem C96_displacement_partial (c : Cfg) (h : Regular c) (p : String) :
    (c.axi = false → ∀ i n, ["u_x", "u_y", "u_z"][i]? = some n → i < c.nsd → getField1Name c i none = .ok n ∧ getField1Name c i (some p) = .ok (p ++ " " ++ n)) ∧
    (c.axi = true → getField1Name c 0 (some p) = .ok (p ++ " " ++ "u_r") ∧ getField1Name c 1 (some p) = .ok (p ++ " " ++ "u_z")) ∧
    (∀ i, c.nsd < i → getField1Name c i none = .ok "displacement") := by
  refine ⟨?_, ?_, ?_⟩
  · intro ha i n hn hi
    have h3 : c.nsd ≤ 3 := by rcases h with h | ⟨h, -⟩ <;> omega
    have hle : ¬ (i > c.nsd) := by omega
    have : i < 3 := by omega
    simp only [getField1Name, ha, if_neg hle]
    interval_cases i <;> simp at hn <;> subst hn <;> simp [table, Res.bind]
  · intro ha
    have h2 : c.nsd = 2 := by
      rcases h with h | ⟨h, h'⟩
      · exact h
      · rw [h'] at ha; simp at ha
    simp [getField1Name, ha, h2, table, Res.bind]
  · intro i hi
    simp [getField1Name, hi, table]

/-- **C96** does not hold for displacements in axial symmetry: without a prefix the components are named after Cartesian directions, and the name of the whole vector with a prefix is read
outside of the table. -/
theorem C96_displacement_violated (c : Cfg) (h : c.nsd = 2) (ha : c.axi = true) (p : String) (i : Nat) (hi : 2 < i) :
    getField1Name c 0 none = .ok "u_x" ∧ getField1Name c 1 none = .ok "u_y" ∧ getField1Name c i (some p) = .ub := by
  simp [getField1Name, h, ha, hi, table]

/-- The materials. -/
def allLabels : List (List String) := [[], neoHookeLabels, plasticLabels]

/-- **C96**: all fields of a plane or solid problem have different names, for the linear, hyperelastic and plastic materials. -/
theorem C96_distinct (nsd : Nat) (axi ps pr st ls : Bool) (lab : List String) (hl : lab ∈ allLabels) (h : Regular ⟨nsd, axi, ps, pr, st, ls, lab⟩)
    (i j : Nat) (hi : i < getNoFields ⟨nsd, axi, ps, pr, st, ls, lab⟩ 2) (hj : j < getNoFields ⟨nsd, axi, ps, pr, st, ls, lab⟩ 2)
    (hij : getField2Name ⟨nsd, axi, ps, pr, st, ls, lab⟩ i none = getField2Name ⟨nsd, axi, ps, pr, st, ls, lab⟩ j none) : i = j := by
  have key : ∀ nsd ∈ [2, 3], ∀ axi ps pr st ls : Bool, ∀ lab ∈ allLabels,
      ∀ i ∈ List.range (getNoFields ⟨nsd, axi, ps, pr, st, ls, lab⟩ 2), ∀ j ∈ List.range (getNoFields ⟨nsd, axi, ps, pr, st, ls, lab⟩ 2),
      (nsd = 3 → axi = false) → getField2Name ⟨nsd, axi, ps, pr, st, ls, lab⟩ i none = getField2Name ⟨nsd, axi, ps, pr, st, ls, lab⟩ j none → i = j := by decide +kernel
  have hn : nsd ∈ [2, 3] ∧ (nsd = 3 → axi = false) := by
    rcases h with h | ⟨h, h'⟩ <;> simp only at h <;> subst h
    · simp
    · simp only at h'; simp [h']
  exact key nsd hn.1 axi ps pr st ls lab hl i (List.mem_range.2 hi) j (List.mem_range.2 hj) hn.2 hij

/-! ### Principal directions -/

theorem foldr_ok {V : Type} (buf : List V) (idx : Nat) (g : Nat → V) (l : List Nat) (h : ∀ i ∈ l, buf[2 * i + idx - 1]? = some (g i)) :
    l.foldr (fun i r => match buf[2 * i + idx - 1]? with
      | some v => Res.bind r fun l => .ok (v :: l)
      | none => .ub) (.ok []) = .ok (l.map g) := by
  induction l with
  | nil => rfl
  | cons a l ih =>
    rw [List.foldr_cons, ih fun i hi => h i (by simp [hi]), h a (by simp)]
    rfl

theorem pDirBuf_eq {V : Type} (zero : V) (pts : List (Bool × V × V)) :
    pDirBuf zero pts = (pts.map fun p => if p.1 then [zero, zero] else [p.2.1, p.2.2]).flatten := by
  have : ∀ (l : List (Bool × V × V)) (b : List V), l.foldl (fun b p => b ++ (if p.1 then [zero, zero] else [p.2.1, p.2.2])) b
      = b ++ (l.map fun p => if p.1 then [zero, zero] else [p.2.1, p.2.2]).flatten := by
    intro l
    induction l with
    | nil => simp
    | cons a l ih => intro b; rw [List.foldl_cons, ih]; simp
  have h := this pts []
  rw [List.nil_append] at h
  exact h

theorem pDirBuf_get {V : Type} (zero : V) (pts : List (Bool × V × V)) (i : Nat) (p : Bool × V × V) (h : pts[i]? = some p) :
    (pDirBuf zero pts)[2 * i]? = some (if p.1 then zero else p.2.1) ∧ (pDirBuf zero pts)[2 * i + 1]? = some (if p.1 then zero else p.2.2) := by
  rw [pDirBuf_eq]
  induction pts generalizing i with
  | nil => simp at h
  | cons a l ih =>
    cases i with
    | zero =>
      simp at h; subst h
      obtain ⟨b, x, y⟩ := a
      cases b <;> simp
    | succ i =>
      obtain ⟨h1, h2⟩ := ih i (by simpa using h)
      have e1 : 2 * (i + 1) = 2 * i + 2 := by ring
      rw [e1]
      have hl : ((if a.1 then [zero, zero] else [a.2.1, a.2.2]) : List V).length = 2 := by cases a.1 <;> rfl
      simp only [List.map_cons, List.flatten_cons]
      constructor
      · rw [List.getElem?_append_right (by omega), hl]; simpa using h1
      · rw [List.getElem?_append_right (by omega), hl]
        have : 2 * i + 2 + 1 - 2 = 2 * i + 1 := by omega
        rw [this]; exact h2

/-- **C96**: the principal directions extracted for a number of points are those of these points, in order: the first or the second one, and zero in singular points. Directions with
other numbers, or of another number of points, are refused. -/
theorem C96_directions {V : Type} (zero : V) (pts : List (Bool × V × V)) :
    getPrincipalDir (pDirBuf zero pts) pts.length 1 = .ok (pts.map fun p => if p.1 then zero else p.2.1) ∧
    getPrincipalDir (pDirBuf zero pts) pts.length 2 = .ok (pts.map fun p => if p.1 then zero else p.2.2) ∧
    (∀ n, n ≠ pts.length → ∀ idx, getPrincipalDir (pDirBuf zero pts) n idx = .fail) ∧
    (∀ n idx, idx ≠ 1 → idx ≠ 2 → getPrincipalDir (pDirBuf zero pts) n idx = .fail) := by
  have hlen : (pDirBuf zero pts).length = pts.length * 2 := by
    rw [pDirBuf_eq]
    induction pts with
    | nil => rfl
    | cons a l ih =>
      simp only [List.map_cons, List.flatten_cons, List.length_append, ih, List.length_cons]
      cases a.1 <;> simp <;> omega
  have main : ∀ (idx : Nat) (g : Bool × V × V → V), (∀ i p, pts[i]? = some p → (pDirBuf zero pts)[2 * i + idx - 1]? = some (g p)) → ¬ (idx < 1 ∨ idx > 2) →
      getPrincipalDir (pDirBuf zero pts) pts.length idx = .ok (pts.map g) := by
    intro idx g hg hidx
    unfold getPrincipalDir
    rw [if_neg hidx, if_neg (by simp [hlen])]
    cases pts with
    | nil => rfl
    | cons p0 ps =>
      refine (foldr_ok _ _ (fun i => g ((p0 :: ps).getD i p0)) _ ?_).trans ?_
      rotate_left
      · congr 1
        apply List.ext_getElem?
        intro j
        by_cases hj : j < (p0 :: ps).length
        · rw [List.getElem?_map, List.getElem?_range hj, List.getElem?_map, List.getElem?_eq_getElem hj]
          simp [List.getD_eq_getElem?_getD, List.getElem?_eq_getElem hj]
        · rw [List.getElem?_eq_none (by simpa using hj), List.getElem?_eq_none (by simpa using hj)]
      · intro i hi
        have hi' : i < (p0 :: ps).length := List.mem_range.1 hi
        apply hg
        rw [List.getD_eq_getElem?_getD, List.getElem?_eq_getElem hi']
        rfl
  refine ⟨?_, ?_, ?_, ?_⟩
  · exact main 1 _ (fun i p hp => by simpa using (pDirBuf_get zero pts i p hp).1) (by omega)
  · exact main 2 _ (fun i p hp => by simpa using (pDirBuf_get zero pts i p hp).2) (by omega)
  · intro n hn idx
    unfold getPrincipalDir
    split_ifs with h1 h2
    · rfl
    · rfl
    · rw [hlen] at h2; omega
  · intro n idx h1 h2
    unfold getPrincipalDir
    rw [if_pos (by omega)]

/-! ### Concrete cases -/

example : Regular ⟨2, false, true, true, false, true, plasticLabels⟩ ∧
    evalSol2 ⟨2, false, true, true, false, true, neoHookeLabels⟩ false true =
      [.comp true 0 0, .comp true 1 1, .comp true 2 2, .comp true 0 1, .vonMises, .prin 1, .prin 2, .int 1] ∧
    (List.range 8).map (fun i => getField2Name ⟨2, false, true, true, false, true, neoHookeLabels⟩ i none) =
      [.ok "s_xx", .ok "s_yy", .ok "s_zz", .ok "s_xy", .ok "von Mises stress", .ok "hydrostatic pressure", .ok "P1", .ok "P2"] :=
  ⟨Or.inl rfl, rfl, by decide +kernel⟩

example : getPrincipalDir (pDirBuf 0 [(false, 1, 2), (true, 7, 8), (false, 3, 4)]) 3 2 = .ok [2, 0, 4] := rfl

end Verif.SolidFields
