/-
Auxiliary facts about the norm accumulator and lists.
-/
import Verif.Model.Norms
import Mathlib.Tactic.Ring
import Mathlib.Tactic.SplitIfs
import Mathlib.Tactic.Linarith

namespace Verif.Norms

variable {K : Type*}

/-- Reading an entry (zero outside the array; all uses are inside). -/
def at' [Zero K] (p : List K) (i : Nat) : K := p.getD i 0

theorem at'_modify [AddMonoid K] (p : List K) (i j : Nat) (v : K) (h : i < p.length) :
    at' (p.modify i (· + v)) j = at' p j + if j = i then v else 0 := by
  unfold at'
  simp only [List.getD_eq_getElem?_getD, List.getElem?_modify]
  by_cases e : i = j
  · subst e
    simp [List.getElem?_eq_getElem h]
  · have e' : ¬ j = i := fun h => e h.symm
    simp only [e, if_false, e', add_zero]
    cases p[j]? <;> simp

theorem run_ok [AddMonoid K] (l : List (Option K)) : ∀ (ip : Nat) (p : List K),
    ip + l.length ≤ p.length →
    ∃ p', (Acc.mk ip p).run l = .ok ⟨ip + l.length, p'⟩ ∧ p'.length = p.length ∧
      ∀ i, at' p' i = at' p i +
        (if ip ≤ i ∧ i < ip + l.length then ((l.getD (i - ip) none).getD 0) else 0) := by
  induction l with
  | nil =>
    intro ip p _
    refine ⟨p, rfl, rfl, fun i => ?_⟩
    rw [if_neg]
    · simp
    · simp only [List.length_nil]; omega
  | cons o l ih =>
    intro ip p h
    simp only [List.length_cons] at h
    cases o with
    | none =>
      obtain ⟨p', e, hl, hv⟩ := ih (ip + 1) p (by omega)
      refine ⟨p', ?_, hl, fun i => ?_⟩
      · simp only [Acc.run, Acc.step, Res.bind, e, List.length_cons]
        congr 2; omega
      · rw [hv i]; congr 1
        simp only [List.length_cons]
        by_cases h1 : i = ip
        · subst h1; simp
        · by_cases h2 : ip + 1 ≤ i ∧ i < ip + 1 + l.length
          · rw [if_pos h2, if_pos (by omega), show i - ip = (i - (ip + 1)) + 1 by omega]; simp
          · rw [if_neg h2, if_neg (by omega)]
    | some v =>
      have hip : ip < p.length := by omega
      obtain ⟨p', e, hl, hv⟩ := ih (ip + 1) (p.modify ip (· + v)) (by
        rw [List.length_modify]; omega)
      refine ⟨p', ?_, by rw [hl, List.length_modify], fun i => ?_⟩
      · simp only [Acc.run, Acc.step, if_pos hip, Res.bind, e, List.length_cons]
        congr 2; omega
      · rw [hv i, at'_modify _ _ _ _ hip, add_assoc]; congr 1
        simp only [List.length_cons]
        by_cases h1 : i = ip
        · subst h1; rw [if_pos rfl, if_neg (by omega), if_pos (by omega)]; simp
        · rw [if_neg h1, zero_add]
          by_cases h2 : ip + 1 ≤ i ∧ i < ip + 1 + l.length
          · rw [if_pos h2, if_pos (by omega), show i - ip = (i - (ip + 1)) + 1 by omega]; simp
          · rw [if_neg h2, if_neg (by omega)]

theorem flatMap_len {α β : Type*} (c : Nat) (f : α → List β) (l : List α)
    (h : ∀ a ∈ l, (f a).length = c) : (l.flatMap f).length = l.length * c := by
  induction l with
  | nil => simp
  | cons a l ih =>
    rw [List.flatMap_cons, List.length_append, h a (by simp),
      ih (fun b hb => h b (by simp [hb])), List.length_cons]
    ring

theorem flatMap_get {α β : Type*} (c : Nat) (f : α → List β) (l : List α)
    (h : ∀ a ∈ l, (f a).length = c) (k j : Nat) (a : α) (hk : l[k]? = some a) (hj : j < c) :
    (l.flatMap f)[k * c + j]? = (f a)[j]? := by
  induction l generalizing k with
  | nil => simp at hk
  | cons b l ih =>
    rw [List.flatMap_cons]
    cases k with
    | zero =>
      simp only [List.getElem?_cons_zero, Option.some.injEq] at hk
      subst hk
      rw [List.getElem?_append_left (by rw [h b (by simp)]; omega)]
      simp
    | succ k =>
      rw [List.getElem?_cons_succ] at hk
      have hb := h b (by simp)
      rw [List.getElem?_append_right (by rw [hb]; nlinarith), hb,
        show (k + 1) * c + j - c = k * c + j by rw [Nat.succ_mul]; omega]
      exact ih (fun x hx => h x (by simp [hx])) k hk

end Verif.Norms
