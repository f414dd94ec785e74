/-
C57: the midpoint-focused refinement yields a valid, symmetric set of knots.
-/
import Verif.Model.Knots
import Mathlib.Tactic.Ring
import Mathlib.Tactic.Linarith
import Mathlib.Tactic.FieldSimp
import Mathlib.Tactic.NormNum
import Mathlib.Tactic.Positivity
import Mathlib.Data.List.Pairwise
set_option linter.unusedSectionVars false
set_option linter.unusedSimpArgs false
set_option linter.unusedVariables false

namespace Verif.Knots

theorem mem_ins (x y : ℚ) (l : List ℚ) : y ∈ ins x l ↔ y = x ∨ y ∈ l := by
  induction l with
  | nil => simp [ins]
  | cons z l ih =>
    unfold ins
    split_ifs with h1 h2
    · simp
    · subst h2; simp
    · simp only [List.mem_cons, ih]; tauto

theorem sorted_ins (x : ℚ) {l : List ℚ} (h : l.Pairwise (· < ·)) : (ins x l).Pairwise (· < ·) := by
  induction l with
  | nil => simp [ins]
  | cons z l ih =>
    unfold ins
    rw [List.pairwise_cons] at h
    split_ifs with h1 h2
    · rw [List.pairwise_cons]
      refine ⟨?_, List.pairwise_cons.2 h⟩
      intro y hy
      rcases List.mem_cons.1 hy with rfl | hy
      · exact h1
      · exact lt_trans h1 (h.1 y hy)
    · exact List.pairwise_cons.2 h
    · rw [List.pairwise_cons]
      refine ⟨?_, ih h.2⟩
      intro y hy
      rcases (mem_ins _ _ _).1 hy with rfl | hy
      · exact lt_of_le_of_ne (not_lt.1 h1) (Ne.symm h2)
      · exact h.1 y hy

theorem uniform_run (L : Nat) : ∀ (n k : Nat) (l : List ℚ), 2 ^ L ≤ k + n → l.Pairwise (· < ·) →
    ∃ r, uniformLoop ((1 / 2) ^ L) (n + 1) (k * (1 / 2) ^ L) l = some r ∧ r.Pairwise (· < ·) ∧
      ∀ x, x ∈ r ↔ x ∈ l ∨ ∃ j : Nat, k ≤ j ∧ j < 2 ^ L ∧ x = j * (1 / 2) ^ L := by
  have hp : (2 : ℚ) ^ L * (1 / 2) ^ L = 1 := by rw [← mul_pow]; norm_num
  have hpos : (0 : ℚ) < (1 / 2) ^ L := by positivity
  have hlt : ∀ k : Nat, ((k : ℚ) * (1 / 2) ^ L < 1 ↔ k < 2 ^ L) := by
    intro k
    have : (k : ℚ) * (1 / 2) ^ L < (2 : ℚ) ^ L * (1 / 2) ^ L ↔ k < 2 ^ L := by
      rw [mul_lt_mul_iff_left₀ hpos]
      exact_mod_cast Iff.rfl
    rwa [hp] at this
  intro n
  induction n with
  | zero =>
    intro k l hn hl
    unfold uniformLoop
    rw [if_neg (fun hc => by have := (hlt k).1 hc; omega)]
    refine ⟨l, rfl, hl, fun x => ⟨Or.inl, ?_⟩⟩
    rintro (h1 | ⟨j, h1, h2, h3⟩)
    · exact h1
    · omega
  | succ n ih =>
    intro k l hn hl
    unfold uniformLoop
    by_cases h : k < 2 ^ L
    · rw [if_pos ((hlt k).2 h)]
      obtain ⟨r, e, hs, hm⟩ := ih (k + 1) (ins (k * (1 / 2) ^ L) l) (by omega) (sorted_ins _ hl)
      refine ⟨r, ?_, hs, ?_⟩
      · rw [← e]; congr 1; push_cast; ring
      · intro x
        rw [hm, mem_ins]
        constructor
        · rintro ((rfl | h1) | ⟨j, h1, h2, h3⟩)
          · exact Or.inr ⟨k, le_refl _, h, rfl⟩
          · exact Or.inl h1
          · exact Or.inr ⟨j, by omega, h2, h3⟩
        · rintro (h1 | ⟨j, h1, h2, h3⟩)
          · exact Or.inl (Or.inr h1)
          · rcases Nat.eq_or_lt_of_le h1 with rfl | h1
            · exact Or.inl (Or.inl h3)
            · exact Or.inr ⟨j, h1, h2, h3⟩
    · rw [if_neg (fun hc => h ((hlt k).1 hc))]
      refine ⟨l, rfl, hl, fun x => ⟨Or.inl, ?_⟩⟩
      rintro (h1 | ⟨j, h1, h2, h3⟩)
      · exact h1
      · omega

theorem focus_run (M : Nat) : ∀ (n k : Nat) (l : List ℚ), M ≤ k + n → l.Pairwise (· < ·) →
    ∃ r, focusLoop ((1 / 2) ^ M) (n + 1) ((1 / 2) ^ k) l = some r ∧ r.Pairwise (· < ·) ∧
      ∀ x, x ∈ r ↔ x ∈ l ∨ ∃ j : Nat, k ≤ j ∧ j < M ∧ (x = 1 / 2 - (1 / 2) ^ j ∨ x = 1 / 2 + (1 / 2) ^ j) := by
  have hlt : ∀ k : Nat, (((1 : ℚ) / 2) ^ k > (1 / 2) ^ M ↔ k < M) := by
    intro k
    constructor
    · intro h
      by_contra hc
      exact absurd (pow_le_pow_of_le_one (by norm_num) (by norm_num) (not_lt.1 hc)) (not_le.2 h)
    · intro h
      exact pow_lt_pow_right_of_lt_one₀ (by norm_num) (by norm_num) h
  intro n
  induction n with
  | zero =>
    intro k l hn hl
    unfold focusLoop
    rw [if_neg (fun hc => by have := (hlt k).1 hc; omega)]
    refine ⟨l, rfl, hl, fun x => ⟨Or.inl, ?_⟩⟩
    rintro (h1 | ⟨j, h1, h2, h3⟩)
    · exact h1
    · omega
  | succ n ih =>
    intro k l hn hl
    unfold focusLoop
    by_cases h : k < M
    · rw [if_pos ((hlt k).2 h)]
      obtain ⟨r, e, hs, hm⟩ := ih (k + 1) (ins (1 / 2 + (1 / 2) ^ k) (ins (1 / 2 - (1 / 2) ^ k) l)) (by omega) (sorted_ins _ (sorted_ins _ hl))
      refine ⟨r, ?_, hs, ?_⟩
      · rw [← e, pow_succ]
      · intro x
        rw [hm, mem_ins, mem_ins]
        constructor
        · rintro ((h1 | h1 | h1) | ⟨j, h1, h2, h3⟩)
          · exact Or.inr ⟨k, le_refl _, h, Or.inr h1⟩
          · exact Or.inr ⟨k, le_refl _, h, Or.inl h1⟩
          · exact Or.inl h1
          · exact Or.inr ⟨j, by omega, h2, h3⟩
        · rintro (h1 | ⟨j, h1, h2, h3⟩)
          · exact Or.inl (Or.inr (Or.inr h1))
          · rcases Nat.eq_or_lt_of_le h1 with rfl | h1
            · rcases h3 with h3 | h3
              · exact Or.inl (Or.inr (Or.inl h3))
              · exact Or.inl (Or.inl h3)
            · exact Or.inr ⟨j, h1, h2, h3⟩
    · rw [if_neg (fun hc => h ((hlt k).1 hc))]
      refine ⟨l, rfl, hl, fun x => ⟨Or.inl, ?_⟩⟩
      rintro (h1 | ⟨j, h1, h2, h3⟩)
      · exact h1
      · omega

/-- C57: for every level `L ≥ 1` the refinement ends and adds, behind the knots found before, exactly the uniform knots `j/2^L` and the
graded knots `1/2 ± 2^-j` with `L < j < 2L`, in strictly increasing order. -/
theorem C57_knots {L : Nat} (hL : 1 ≤ L) {fuel : Nat} (hf : 2 ^ L ≤ fuel) (xi : List ℚ) :
    ∃ ks, parseXi fuel "midpoint-focus" L xi = some (.ok (xi ++ ks)) ∧ ks.Pairwise (· < ·) ∧
      ∀ x, x ∈ ks ↔ (∃ j : Nat, 1 ≤ j ∧ j < 2 ^ L ∧ x = j / 2 ^ L) ∨
        ∃ j : Nat, L < j ∧ j < 2 * L ∧ (x = 1 / 2 - 1 / 2 ^ j ∨ x = 1 / 2 + 1 / 2 ^ j) := by
  have hLp : L < 2 ^ L := Nat.lt_two_pow_self
  obtain ⟨f, rfl⟩ : ∃ f, fuel = f + 1 := ⟨fuel - 1, by omega⟩
  obtain ⟨r1, e1, s1, m1⟩ := uniform_run L f 1 [] (by omega) List.Pairwise.nil
  obtain ⟨r2, e2, s2, m2⟩ := focus_run (2 * L) f (L + 1) r1 (by omega) s1
  refine ⟨r2, ?_, s2, ?_⟩
  · unfold parseXi
    have h1 : ¬ ((L : Int) < 1) := by omega
    have h2 : ((L : Int)).toNat = L := by simp
    simp only [if_true, h1, if_false, h2]
    rw [Nat.cast_one, one_mul] at e1
    rw [e1]
    simp only [Option.bind]
    have h3 : ((1 : ℚ) / 2) ^ L * (1 / 2) ^ L = (1 / 2) ^ (2 * L) := by rw [two_mul, pow_add]
    have h4 : ((1 : ℚ) / 2) ^ L * (1 / 2) = (1 / 2) ^ (L + 1) := by rw [pow_succ]
    rw [h3, h4, e2]
  · intro x
    have hd : ∀ j : Nat, ((1 : ℚ) / 2) ^ j = 1 / 2 ^ j := fun j => by rw [div_pow, one_pow]
    rw [m2, m1]
    simp only [hd, mul_one_div, List.not_mem_nil, false_or]
    constructor
    · rintro (h | ⟨j, h1, h2, h3⟩)
      · exact Or.inl h
      · exact Or.inr ⟨j, by omega, h2, h3⟩
    · rintro (h | ⟨j, h1, h2, h3⟩)
      · exact Or.inl h
      · exact Or.inr ⟨j, by omega, h2, h3⟩

theorem half_pow_lt {j : Nat} (h : 1 < j) : (0 : ℚ) < 1 / 2 ^ j ∧ (1 : ℚ) / 2 ^ j < 1 / 2 := by
  refine ⟨by positivity, ?_⟩
  have h1 : (2 : ℚ) ^ 1 < 2 ^ j := pow_lt_pow_right₀ (by norm_num) h
  exact one_div_lt_one_div_of_lt (by norm_num) (by simpa using h1)

/-- C57: for every level the added knots are strictly increasing, lie inside (0,1) and are symmetric about the midpoint, which is one
of them; earlier knots are kept. -/
theorem C57_valid {L : Nat} (hL : 1 ≤ L) {fuel : Nat} (hf : 2 ^ L ≤ fuel) (xi : List ℚ) :
    ∃ ks, parseXi fuel "midpoint-focus" L xi = some (.ok (xi ++ ks)) ∧ ks.Pairwise (· < ·) ∧ (∀ x ∈ ks, 0 < x ∧ x < 1) ∧
      (∀ x, x ∈ ks ↔ 1 - x ∈ ks) ∧ (1 / 2 : ℚ) ∈ ks := by
  obtain ⟨ks, e, s, m⟩ := C57_knots hL hf xi
  have hp : (0 : ℚ) < 2 ^ L := by positivity
  have sym : ∀ x, x ∈ ks → 1 - x ∈ ks := by
    intro x hx
    rw [m] at hx ⊢
    rcases hx with ⟨j, h1, h2, rfl⟩ | ⟨j, h1, h2, h3⟩
    · left
      refine ⟨2 ^ L - j, by omega, by omega, ?_⟩
      rw [Nat.cast_sub h2.le]
      push_cast
      field_simp
    · right
      refine ⟨j, h1, h2, ?_⟩
      rcases h3 with rfl | rfl
      · right; ring
      · left; ring
  refine ⟨ks, e, s, ?_, ?_, ?_⟩
  · intro x hx
    rw [m] at hx
    rcases hx with ⟨j, h1, h2, rfl⟩ | ⟨j, h1, h2, h3⟩
    · have a1 : (1 : ℚ) ≤ j := by exact_mod_cast h1
      have a2 : (j : ℚ) < 2 ^ L := by exact_mod_cast h2
      exact ⟨div_pos (by linarith) hp, (div_lt_one hp).2 a2⟩
    · obtain ⟨a1, a2⟩ := half_pow_lt (j := j) (by omega)
      rcases h3 with rfl | rfl <;> constructor <;> linarith
  · intro x
    refine ⟨sym x, fun h => ?_⟩
    have := sym _ h
    rwa [sub_sub_cancel] at this
  · rw [m]
    left
    refine ⟨2 ^ (L - 1), Nat.one_le_two_pow, Nat.pow_lt_pow_right (by omega) (by omega), ?_⟩
    obtain ⟨k, rfl⟩ : ∃ k, L = k + 1 := ⟨L - 1, by omega⟩
    simp only [Nat.add_sub_cancel, pow_succ]
    push_cast
    field_simp

/-- C57: the element next to the midpoint has the size `2·4^-L` for `L ≥ 2` (twice the value the program prints as the smallest size),
and no two knots are closer to each other than that to the midpoint. -/
theorem C57_finest {L : Nat} (hL : 2 ≤ L) {fuel : Nat} (hf : 2 ^ L ≤ fuel) (xi : List ℚ) :
    ∃ ks, parseXi fuel "midpoint-focus" L xi = some (.ok (xi ++ ks)) ∧ (1 / 2 + 2 / 4 ^ L : ℚ) ∈ ks ∧
      ∀ x ∈ ks, x ≠ 1 / 2 → 2 / 4 ^ L ≤ |x - 1 / 2| := by
  obtain ⟨ks, e, s, m⟩ := C57_knots (by omega) hf xi
  have h4 : ∀ j, j + 1 = 2 * L → (1 : ℚ) / 2 ^ j = 2 / 4 ^ L := by
    intro j hj
    have : (4 : ℚ) ^ L = 2 ^ j * 2 := by
      rw [show (4 : ℚ) = 2 ^ 2 by norm_num, ← pow_mul, ← hj, pow_succ]
    rw [this]; field_simp
  have hle : ∀ j, j < 2 * L → (2 : ℚ) / 4 ^ L ≤ 1 / 2 ^ j := by
    intro j hj
    rw [← h4 (2 * L - 1) (by omega)]
    exact one_div_le_one_div_of_le (by positivity) (pow_le_pow_right₀ (by norm_num) (by omega))
  refine ⟨ks, e, ?_, ?_⟩
  · rw [m]
    right
    exact ⟨2 * L - 1, by omega, by omega, Or.inr (by rw [h4 _ (by omega)])⟩
  · intro x hx hne
    rw [m] at hx
    rcases hx with ⟨j, h1, h2, rfl⟩ | ⟨j, h1, h2, h3⟩
    · refine le_trans (hle L (by omega)) ?_
      obtain ⟨k, rfl⟩ : ∃ k, L = k + 1 := ⟨L - 1, by omega⟩
      have hj : j ≠ 2 ^ k := by
        rintro rfl
        apply hne
        rw [pow_succ]; push_cast; field_simp
      have e1 : (j : ℚ) / 2 ^ (k + 1) - 1 / 2 = ((j : ℚ) - 2 ^ k) / 2 ^ (k + 1) := by
        rw [pow_succ]; field_simp
      rw [e1, abs_div, abs_of_pos (by positivity : (0 : ℚ) < 2 ^ (k + 1))]
      gcongr
      rcases Nat.lt_or_gt_of_ne hj with h | h
      · have : ((j : ℚ)) + 1 ≤ 2 ^ k := by exact_mod_cast h
        rw [abs_of_neg (by linarith)]; linarith
      · have : ((2 : ℚ)) ^ k + 1 ≤ j := by exact_mod_cast h
        rw [abs_of_pos (by linarith)]; linarith
    · refine le_trans (hle j h2) ?_
      have : (0 : ℚ) < 1 / 2 ^ j := by positivity
      rcases h3 with rfl | rfl
      · rw [show (1 / 2 - 1 / 2 ^ j - 1 / 2 : ℚ) = -(1 / 2 ^ j) by ring, abs_neg, abs_of_pos this]
      · rw [show (1 / 2 + 1 / 2 ^ j - 1 / 2 : ℚ) = 1 / 2 ^ j by ring, abs_of_pos this]

/-- C57: any other refinement type and any level below one is reported as an error, whatever the bound on the loops. -/
theorem C57_rejects (fuel : Nat) (type : String) (levels : Int) (xi : List ℚ) (h : type ≠ "midpoint-focus" ∨ levels < 1) :
    parseXi fuel type levels xi = some .fail := by
  unfold parseXi
  rcases h with h | h
  · rw [if_neg h]
  · by_cases h' : type = "midpoint-focus"
    · rw [if_pos h', if_pos h]
    · rw [if_neg h']

example : parseXi 4 "midpoint-focus" 2 [] = some (.ok [1 / 4, 3 / 8, 1 / 2, 5 / 8, 3 / 4]) := by decide +kernel

end Verif.Knots
