/-
C35 and C36: the set of active slave nodes of the two contact formulations, over all histories.
-/
import Verif.Model.Contact
import Mathlib.Tactic.Linarith
import Mathlib.Tactic.NormNum

set_option linter.unusedSectionVars false
set_option linter.unnecessarySeqFocus false
set_option linter.unusedSimpArgs false
set_option linter.unusedVariables false

namespace Verif.Contact

theorem resizeB_length (l : List Bool) (n : Nat) : (resizeB l n).length = n := by
  unfold resizeB
  split_ifs with h
  · simp [h]
  · simp; omega

theorem resizeB_get (l : List Bool) (n i : Nat) (hl : l.length ≤ n) :
    (resizeB l n)[i]? = some true ↔ l[i]? = some true := by
  unfold resizeB
  split_ifs with h
  · rw [List.take_of_length_le hl]
  · rw [List.getElem?_append]
    split_ifs with hi
    · rfl
    · rw [List.getElem?_replicate, List.getElem?_eq_none (by omega : l.length ≤ i)]
      split_ifs <;> simp

theorem markStep_spec (cond : Nat → Bool) (n : Nat) (l : List Bool) (hl : l.length ≤ n + 1)
    (hlast : l[n]? = some true → cond (n + 1) = true ∨ n = 0) :
    (markStep cond n l).length ≤ n + 1 ∧ ∀ i, (markStep cond n l)[i]? = some true ↔
      (i = n ∧ cond (n + 1) = true) ∨ l[i]? = some true := by
  unfold markStep
  by_cases hc : cond (n + 1)
  · rw [if_pos hc]
    have hlen := resizeB_length l (n + 1)
    refine ⟨by simp [hlen], fun i => ?_⟩
    rw [List.getElem?_append]
    simp only [List.length_dropLast, hlen, Nat.add_sub_cancel]
    by_cases hi : i < n
    · rw [if_pos hi, List.getElem?_dropLast, hlen, if_pos (by omega), resizeB_get l _ _ hl]
      constructor
      · intro h; exact Or.inr h
      · rintro (⟨h, -⟩ | h)
        · omega
        · exact h
    · rw [if_neg hi]
      by_cases hin : i = n
      · subst hin; simp [hc]
      · rw [List.getElem?_eq_none (by simp; omega), List.getElem?_eq_none (by omega : l.length ≤ i)]
        simp [hin]
  · rw [if_neg hc]
    refine ⟨hl, fun i => ?_⟩
    simp [hc]

theorem markAll_spec (cond : Nat → Bool) (n : Nat) (s : List Bool) (hs : s.length ≤ 1) :
    (markAll cond n s).length ≤ max 1 n ∧ ∀ i, (markAll cond n s)[i]? = some true ↔
      (i < n ∧ cond (i + 1) = true) ∨ s[i]? = some true := by
  induction n with
  | zero => exact ⟨by simp [markAll]; omega, fun i => by simp [markAll]⟩
  | succ n ih =>
    obtain ⟨h1, h2⟩ := ih
    have hb : (markAll cond n s).length ≤ n + 1 := by omega
    obtain ⟨g1, g2⟩ := markStep_spec cond n (markAll cond n s) hb (fun h => by
      by_cases hn : n = 0
      · exact Or.inr hn
      · exfalso
        rw [List.getElem?_eq_none (by omega)] at h
        simp at h)
    refine ⟨by show (markStep cond n (markAll cond n s)).length ≤ _; omega, fun i => ?_⟩
    show (markStep cond n (markAll cond n s))[i]? = some true ↔ _
    rw [g2, h2]
    constructor
    · rintro (⟨rfl, h⟩ | ⟨h, h'⟩ | h)
      · exact Or.inl ⟨by omega, h⟩
      · exact Or.inl ⟨by omega, h'⟩
      · exact Or.inr h
    · rintro (⟨h, h'⟩ | h)
      · by_cases hi : i = n
        · subst hi; exact Or.inl ⟨rfl, h'⟩
        · exact Or.inr (Or.inl ⟨by omega, h'⟩)
      · exact Or.inr (Or.inr h)

theorem start_spec (first0 : Bool) (old : List Bool) :
    (if first0 then resizeB old 1 else []).length ≤ 1 ∧
    ∀ i, (if first0 then resizeB old 1 else [])[i]? = some true ↔
      first0 = true ∧ i = 0 ∧ old[0]? = some true := by
  cases first0 with
  | false => simp
  | true =>
    simp only [if_true, true_and]
    refine ⟨by rw [resizeB_length], fun i => ?_⟩
    cases old with
    | nil => cases i with
      | zero => simp [resizeB]
      | succ i => simp [resizeB]
    | cons b l => cases i with
      | zero => simp [resizeB]
      | succ i => simp [resizeB]

/-- What the code computes, for every previous state: a node is active if it meets the condition, and the
first node also if it was active before a call for the first iteration of the first step. -/
theorem activate_spec (first0 : Bool) (nslv : Nat) (cond : Nat → Bool) (old : List Bool) (i : Nat) :
    (activate first0 nslv cond old)[i]? = some true ↔
      (i < nslv ∧ cond (i + 1) = true) ∨ (first0 = true ∧ i = 0 ∧ old[0]? = some true) := by
  obtain ⟨s1, s2⟩ := start_spec first0 old
  rw [activate, (markAll_spec cond nslv _ s1).2, s2]

variable {K : Type*} [Field K] [LinearOrder K]

/-- C35, active nodes: a slave node `i + 1` is active exactly if it has a positive area and its gap is
closed. Not covered: a call for the first iteration of the first step when the first node was active
before, see `C35_active_violated`. -/
theorem C35_active_partial (first0 : Bool) (nslv : Nat) (area gap : Nat → K) (old : List Bool)
    (h : first0 = false ∨ old[0]? ≠ some true) (i : Nat) :
    (activate first0 nslv (penaltyCond area gap) old)[i]? = some true ↔
      i < nslv ∧ 0 < area (i + 1) ∧ gap (i + 1) ≤ 0 := by
  rw [activate_spec]
  simp only [penaltyCond, Bool.and_eq_true, decide_eq_true_eq]
  constructor
  · rintro (h' | ⟨h1, -, h2⟩)
    · exact h'
    · rcases h with h | h
      · rw [h] at h1; simp at h1
      · exact absurd h2 h
  · intro h'; exact Or.inl h'

/-- The states of the contact integrand over a sequence of calls: flag, areas and gaps. -/
def penaltyHistory (nslv : Nat) : List Bool → List (Bool × (Nat → K) × (Nat → K)) → List Bool
  | s, [] => s
  | s, c :: l => penaltyHistory nslv (activate c.1 nslv (penaltyCond c.2.1 c.2.2) s) l

/-- C35, histories: starting from the initial state, for any sequence of calls of which at most the first
is for the first iteration of the first step, the active nodes after the last call are those with a
closed gap in that call. -/
theorem C35_history_partial (nslv : Nat) (calls : List (Bool × (Nat → K) × (Nat → K)))
    (first0 : Bool) (area gap : Nat → K)
    (h : first0 = true → calls = []) (i : Nat) :
    (penaltyHistory nslv [] (calls ++ [(first0, area, gap)]))[i]? = some true ↔
      i < nslv ∧ 0 < area (i + 1) ∧ gap (i + 1) ≤ 0 := by
  have e : ∀ (s : List Bool), penaltyHistory nslv s (calls ++ [(first0, area, gap)])
      = activate first0 nslv (penaltyCond area gap) (penaltyHistory nslv s calls) := by
    induction calls with
    | nil => intro s; rfl
    | cons c l ih =>
      intro s
      cases first0 with
      | false => exact ih (by simp) _
      | true => exact absurd (h rfl) (by simp)
  rw [e]
  refine C35_active_partial first0 nslv area gap _ ?_ i
  cases first0 with
  | false => exact Or.inl rfl
  | true => right; rw [h rfl]; simp [penaltyHistory]

/-- C35 is violated: when the first iteration of the first step is repeated, the first slave node stays
active although its gap has opened. -/
theorem C35_active_violated : ∃ (calls : List (Bool × (Nat → ℚ) × (Nat → ℚ))),
    (penaltyHistory 1 [] calls)[0]? = some true ∧
    ∃ c, calls.getLast? = some c ∧ 0 < c.2.2 1 :=
  ⟨[(true, fun _ => 1, fun _ => -1), (true, fun _ => 1, fun _ => 1)], by
    simp only [penaltyHistory]
    rw [activate_spec]
    right
    refine ⟨rfl, rfl, ?_⟩
    rw [activate_spec]
    left
    refine ⟨by norm_num, ?_⟩
    simp [penaltyCond], _, rfl, by norm_num⟩

theorem markAll_last (cond : Nat → Bool) (n : Nat) (s : List Bool) (hs : s.length ≤ 1) :
    (markAll cond n s).length ≤ 1 ∨ (markAll cond n s).getLast? = some true := by
  induction n with
  | zero => exact Or.inl hs
  | succ n ih =>
    show (markStep cond n (markAll cond n s)).length ≤ 1 ∨ (markStep cond n (markAll cond n s)).getLast? = _
    unfold markStep
    split_ifs with hc
    · exact Or.inr (by simp)
    · exact ih

/-- C35: the boundary of the body is integrated exactly when there is an active slave node. -/
theorem C35_boundary (first0 : Bool) (nslv : Nat) (cond : Nat → Bool) (old : List Bool) :
    hasBoundaryTerms (activate first0 nslv cond old) = true ↔
      ∃ i : Nat, (activate first0 nslv cond old)[i]? = some true := by
  have h := markAll_last cond nslv (if first0 then resizeB old 1 else []) (start_spec first0 old).1
  rw [← activate] at h
  generalize activate first0 nslv cond old = l at h
  match l, h with
  | [], _ => simp [hasBoundaryTerms]
  | [b], _ =>
    simp only [hasBoundaryTerms]
    constructor
    · intro h; exact ⟨0, by simp [h]⟩
    · rintro ⟨i, hi⟩
      cases i with
      | zero => simpa using hi
      | succ i => simp at hi
  | a :: b :: l, h =>
    simp only [hasBoundaryTerms, List.length_cons, gt_iff_lt, decide_eq_true_eq]
    constructor
    · intro _
      rcases h with h | h
      · simp at h
      · rw [List.getLast?_eq_getElem?] at h
        exact ⟨_, h⟩
    · intro _; omega

/-- C36, active nodes: a slave node with a multiplier and positive area is active exactly if the augmented
pressure is not positive. Not covered: the case of `C36_active_violated`. -/
theorem C36_active_partial (first0 : Bool) (nslv : Nat) (eps : K) (area gap lam : Nat → K)
    (mult : Nat → Bool) (old : List Bool) (h : first0 = false ∨ old[0]? ≠ some true) (i : Nat) :
    (activate first0 nslv (augCond eps area gap lam mult) old)[i]? = some true ↔
      i < nslv ∧ 0 < area (i + 1) ∧ mult (i + 1) = true ∧ lam (i + 1) + eps * gap (i + 1) ≤ 0 := by
  rw [activate_spec]
  simp only [augCond, Bool.and_eq_true, decide_eq_true_eq, and_assoc]
  constructor
  · rintro (h' | ⟨h1, -, h2⟩)
    · exact h'
    · rcases h with h | h
      · rw [h] at h1; simp at h1
      · exact absurd h2 h
  · intro h'; exact Or.inl h'

/-- C36 is violated in the same way as C35: the first node stays active when the first iteration of the
first step is repeated, although the augmented pressure is tensile. -/
theorem C36_active_violated : ∃ (gap1 gap2 lam1 lam2 : Nat → ℚ),
    0 < lam2 1 + 1 * gap2 1 ∧
    (activate true 1 (augCond 1 (fun _ => 1) gap2 lam2 fun _ => true)
      (activate true 1 (augCond 1 (fun _ => 1) gap1 lam1 fun _ => true) []))[0]? = some true :=
  ⟨fun _ => -1, fun _ => 1, fun _ => 0, fun _ => 0, by norm_num, by
    rw [activate_spec]
    right
    refine ⟨rfl, rfl, ?_⟩
    rw [activate_spec]
    left
    refine ⟨by norm_num, ?_⟩
    simp [augCond]⟩

/-- The hypotheses can be met by a state with a previous active node and a second one now closing. -/
example : (activate false 3 (penaltyCond (fun _ => (1 : ℚ)) fun n => if n = 2 then -1 else 1) [true]) = [false, true] := by
  decide +kernel

end Verif.Contact
