/- Helper lemmas for the finite deformation integrands. -/
import Verif.Model.FiniteDef
import Verif.Proofs.Continuum
import Verif.Spec.Continuum

set_option linter.unusedSectionVars false
set_option linter.unnecessarySeqFocus false
set_option linter.unusedSimpArgs false

namespace Verif.Finite

open Verif.Cont Verif.ContSpec

variable {K : Type*} [Field K]

/-- The value at row `r` of a column holding `z` there, after the assignments `l` to that column. -/
def ovr (l : List (Nat × Nat × K)) (r : Nat) (z : K) : K :=
  l.foldl (fun acc x => if r = x.1 then x.2.2 else acc) z

theorem foldl_ovr (l : List (Nat × Nat × K)) (c : Nat) (hl : ∀ x ∈ l, x.2.1 = c)
    (e : Nat → Nat → K) (a b : Nat) :
    l.foldl (fun e x => fun a b => if a = x.1 ∧ b = x.2.1 then x.2.2 else e a b) e a b
      = if b = c then ovr l a (e a b) else e a b := by
  induction l generalizing e with
  | nil => simp [ovr]
  | cons x l ih =>
    rw [List.foldl_cons, ih (fun y hy => hl y (by simp [hy]))]
    have hx : x.2.1 = c := hl x (by simp)
    by_cases hb : b = c
    · rw [if_pos hb, if_pos hb]
      simp only [ovr, List.foldl_cons, hx, hb, and_true]
    · rw [if_neg hb, if_neg hb]
      simp only [hx, hb, and_false, if_false]

/-- A loop that fills one column after the other. -/
theorem colLoop (f : Nat → List (Nat × Nat × K)) (B0 : DMat K)
    (h : ∀ a, 1 ≤ a → a ≤ B0.nc → ∀ x ∈ f a, 1 ≤ x.1 ∧ x.1 ≤ B0.nr ∧ x.2.1 = a) :
    ∃ B, loop (fun a B => B.setMany (f (a + 1))) B0.nc B0 = .ok B ∧ B.nr = B0.nr ∧ B.nc = B0.nc ∧
      ∀ r c, B.e r c = if 1 ≤ c ∧ c ≤ B0.nc then ovr (f c) r (B0.e r c) else B0.e r c := by
  refine loop_inv (fun a B => B.setMany (f (a + 1)))
    (fun k B => B.nr = B0.nr ∧ B.nc = B0.nc ∧ ∀ r c, B.e r c =
      if 1 ≤ c ∧ c ≤ k then ovr (f c) r (B0.e r c) else B0.e r c) B0.nc B0
    ⟨rfl, rfl, fun r c => by rw [if_neg (by omega)]⟩ ?_
  rintro k B hk ⟨h1, h2, h3⟩
  have hin := h (k + 1) (by omega) (by omega)
  have e := DMat.setMany_ok (l := f (k + 1)) (A := B) (fun x hx => by
    obtain ⟨p, q, s⟩ := hin x hx
    exact ⟨p, by rw [h1]; exact q, by omega, by omega⟩)
  refine ⟨_, e, h1, h2, fun r c => ?_⟩
  show List.foldl _ B.e (f (k + 1)) r c = _
  rw [foldl_ovr (f (k + 1)) (k + 1) (fun x hx => (hin x hx).2.2)]
  by_cases hc : c = k + 1
  · subst hc
    rw [if_pos rfl, if_pos (by omega), h3, if_neg (by omega)]
  · rw [if_neg hc, h3]
    by_cases hh : 1 ≤ c ∧ c ≤ k
    · rw [if_pos hh, if_pos (by omega)]
    · rw [if_neg hh, if_neg (by omega)]

theorem tlB_3 [LinearOrder K] (F : Nat → Nat → K) (N : DVec K) (dN : DMat K) (r epsR : K) :
    ∃ B, tlB 3 false F N dN r epsR = .ok B ∧ B.nr = 6 ∧ B.nc = 3 * dN.nr ∧
      ∀ i j a, 1 ≤ i → i ≤ 6 → j < 3 → a < dN.nr → B.e i (3 * a + j + 1)
        = eng3 (fun p q => F (j + 1) p * dN.e (a + 1) q) i := by
  obtain ⟨B1, hB1, r1, c1, e1⟩ := colLoop (normalCol 3 6 F dN) (DMat.zero 18 dN.nr) (by
    intro a h1 h2 x hx
    simp only [normalCol, List.range, List.range.loop, List.flatMap_cons, List.flatMap_nil,
      List.map_cons, List.map_nil] at hx
    fin_cases hx <;> exact ⟨by simp, by simp [DMat.zero], rfl⟩)
  obtain ⟨B2, hB2, r2, c2, e2⟩ := colLoop (fun a => (List.range 3).flatMap fun i =>
      [shearVal 6 4 1 2 F dN a i, shearVal 6 5 2 3 F dN a i, shearVal 6 6 3 1 F dN a i]) B1 (by
    intro a h1 h2 x hx
    simp only [List.range, List.range.loop, List.flatMap_cons, List.flatMap_nil] at hx
    rw [r1]
    fin_cases hx <;> exact ⟨by simp [shearVal], by simp [DMat.zero, shearVal], rfl⟩)
  refine ⟨B2.reshape 6 (3 * dN.nr), ?_, rfl, rfl, ?_⟩
  · unfold tlB
    change (loop (fun a B => B.setMany (normalCol 3 6 F dN (a + 1))) dN.nr
      (DMat.zero 18 dN.nr)).bind (fun B =>
        (loop (fun a B => shearCol 3 false F N dN r epsR (a + 1) B) dN.nr B).bind fun B =>
          .ok (B.reshape 6 (3 * dN.nr))) = _
    rw [show loop (fun a B => B.setMany (normalCol 3 6 F dN (a + 1))) dN.nr (DMat.zero 18 dN.nr)
      = .ok B1 from hB1]
    rw [show ∀ f, (Res.ok B1).bind f = f B1 from fun _ => rfl]
    rw [c1] at hB2
    rw [show loop (fun a B => shearCol 3 false F N dN r epsR (a + 1) B) dN.nr B1 = .ok B2 from hB2]
    rfl
  · intro i j a hi1 hi2 hj ha
    simp only [DMat.reshape]
    rw [r2, r1]
    have f1 : (i - 1 + 6 * (3 * a + j + 1 - 1)) % 18 + 1 = i + 6 * j := by omega
    have f2 : (i - 1 + 6 * (3 * a + j + 1 - 1)) / 18 + 1 = a + 1 := by omega
    change B2.e ((i - 1 + 6 * (3 * a + j + 1 - 1)) % 18 + 1)
      ((i - 1 + 6 * (3 * a + j + 1 - 1)) / 18 + 1) = _
    have c1' : B1.nc = dN.nr := c1
    rw [f1, f2, e2, if_pos (show 1 ≤ a + 1 ∧ a + 1 ≤ B1.nc by omega), e1, ← c1,
      if_pos (show 1 ≤ a + 1 ∧ a + 1 ≤ B1.nc by omega)]
    interval_cases i <;> interval_cases j <;> first | rfl | exact add_comm _ _

theorem tlB_2 [LinearOrder K] (F : Nat → Nat → K) (N : DVec K) (dN : DMat K) (r epsR : K) :
    ∃ B, tlB 2 false F N dN r epsR = .ok B ∧ B.nr = 3 ∧ B.nc = 2 * dN.nr ∧
      ∀ i j a, 1 ≤ i → i ≤ 3 → j < 2 → a < dN.nr → B.e i (2 * a + j + 1)
        = eng2 (fun p q => F (j + 1) p * dN.e (a + 1) q) i := by
  obtain ⟨B1, hB1, r1, c1, e1⟩ := colLoop (normalCol 2 3 F dN) (DMat.zero 6 dN.nr) (by
    intro a h1 h2 x hx
    simp only [normalCol, List.range, List.range.loop, List.flatMap_cons, List.flatMap_nil,
      List.map_cons, List.map_nil] at hx
    fin_cases hx <;> exact ⟨by simp, by simp [DMat.zero], rfl⟩)
  obtain ⟨B2, hB2, r2, c2, e2⟩ := colLoop (fun a => (List.range 2).map fun i =>
      shearVal 3 3 1 2 F dN a i) B1 (by
    intro a h1 h2 x hx
    simp only [List.range, List.range.loop, List.map_cons, List.map_nil] at hx
    rw [r1]
    fin_cases hx <;> exact ⟨by simp [shearVal], by simp [DMat.zero, shearVal], rfl⟩)
  refine ⟨B2.reshape 3 (2 * dN.nr), ?_, rfl, rfl, ?_⟩
  · unfold tlB
    change (loop (fun a B => B.setMany (normalCol 2 3 F dN (a + 1))) dN.nr
      (DMat.zero 6 dN.nr)).bind (fun B =>
        (loop (fun a B => shearCol 2 false F N dN r epsR (a + 1) B) dN.nr B).bind fun B =>
          .ok (B.reshape 3 (2 * dN.nr))) = _
    rw [show loop (fun a B => B.setMany (normalCol 2 3 F dN (a + 1))) dN.nr (DMat.zero 6 dN.nr)
      = .ok B1 from hB1]
    rw [show ∀ f, (Res.ok B1).bind f = f B1 from fun _ => rfl]
    rw [c1] at hB2
    rw [show loop (fun a B => shearCol 2 false F N dN r epsR (a + 1) B) dN.nr B1 = .ok B2 from hB2]
    rfl
  · intro i j a hi1 hi2 hj ha
    simp only [DMat.reshape]
    rw [r2, r1]
    have f1 : (i - 1 + 3 * (2 * a + j + 1 - 1)) % 6 + 1 = i + 3 * j := by omega
    have f2 : (i - 1 + 3 * (2 * a + j + 1 - 1)) / 6 + 1 = a + 1 := by omega
    change B2.e ((i - 1 + 3 * (2 * a + j + 1 - 1)) % 6 + 1)
      ((i - 1 + 3 * (2 * a + j + 1 - 1)) / 6 + 1) = _
    have c1' : B1.nc = dN.nr := c1
    rw [f1, f2, e2, if_pos (show 1 ≤ a + 1 ∧ a + 1 ≤ B1.nc by omega), e1, ← c1,
      if_pos (show 1 ≤ a + 1 ∧ a + 1 ≤ B1.nc by omega)]
    interval_cases i <;> interval_cases j <;> first | rfl | exact add_comm _ _

/-- The last value written to the hoop row. -/
def hoopVal [LinearOrder K] (F : Nat → Nat → K) (N : DVec K) (dN : DMat K) (r epsR : K) (a : Nat) :
    K := F 3 3 * (if r ≤ epsR then dN.e a 1 else N.e a / r)

theorem tlB_axi [LinearOrder K] (F : Nat → Nat → K) (N : DVec K) (dN : DMat K) (r epsR : K)
    (hN : N.n = dN.nr) (h3 : 3 ≤ dN.nr) :
    ∃ B, tlB 2 true F N dN r epsR = .ok B ∧ B.nr = 4 ∧ B.nc = 2 * dN.nr ∧
      ∀ i j a, 1 ≤ i → i ≤ 4 → j < 2 → a < dN.nr → B.e i (2 * a + j + 1)
        = if i = 3 then (if j = 0 ∧ a = 2 then hoopVal F N dN r epsR dN.nr else 0)
          else engAxi (fun p q => F (j + 1) p * dN.e (a + 1) q) 0 i := by
  obtain ⟨B1, hB1, r1, c1, e1⟩ := colLoop (normalCol 2 4 F dN) (DMat.zero 8 dN.nr) (by
    intro a h1 h2 x hx
    simp only [normalCol, List.range, List.range.loop, List.flatMap_cons, List.flatMap_nil,
      List.map_cons, List.map_nil] at hx
    fin_cases hx <;> exact ⟨by simp, by simp [DMat.zero], rfl⟩)
  simp only [DMat.zero] at r1 c1
  have key := loop_inv (fun a B => shearCol 2 true F N dN r epsR (a + 1) B)
    (fun k B => B.nr = 8 ∧ B.nc = dN.nr ∧ ∀ p c, B.e p c =
      if p = 3 ∧ c = 3 ∧ 1 ≤ k then hoopVal F N dN r epsR k
      else if 1 ≤ c ∧ c ≤ k then ovr ((List.range 2).map fun i => shearVal 4 4 1 2 F dN c i) p (B1.e p c)
      else B1.e p c) dN.nr B1
    ⟨r1, c1, fun p c => by rw [if_neg (by omega), if_neg (by omega)]⟩ (by
    rintro k ⟨m, n, e⟩ hk ⟨h1, h2, h3'⟩
    simp only at h1 h2 h3'
    subst h1 h2
    have hin : ∀ x ∈ (List.range 2).map (fun i => shearVal 4 4 1 2 F dN (k + 1) i),
        1 ≤ x.1 ∧ x.1 ≤ 8 ∧ x.2.1 = k + 1 := by
      intro x hx
      simp only [List.range, List.range.loop, List.map_cons, List.map_nil] at hx
      fin_cases hx <;> exact ⟨by simp [shearVal], by simp [shearVal], rfl⟩
    have es := DMat.setMany_ok (l := (List.range 2).map fun i => shearVal 4 4 1 2 F dN (k + 1) i)
      (A := ⟨8, dN.nr, e⟩) (fun x hx => by
        obtain ⟨p, q, s⟩ := hin x hx
        exact ⟨p, q, by omega, by show x.2.1 ≤ dN.nr; omega⟩)
    have hg : N.get (k + 1) = .ok (N.e (k + 1)) := if_pos (by omega)
    simp only [shearCol, show ¬ (2 = 3) by decide, if_false, if_true]
    rw [es]
    rw [show ∀ (M : DMat K) (f : DMat K → Res (DMat K)), (Res.ok M).bind f = f M from fun _ _ => rfl, hg]
    rw [show ∀ (x : K) (f : K → Res (DMat K)), (Res.ok x).bind f = f x from fun _ _ => rfl]
    rw [DMat.set_ok (A := ⟨8, dN.nr, _⟩) (i := 3) (j := 3) (inside_mk (m := 8) (by omega) (by omega) (by omega) h3)]
    refine ⟨_, rfl, rfl, rfl, fun p c => ?_⟩
    beta_reduce
    show (if p = 3 ∧ c = 3 then _ else List.foldl _ e _ p c) = _
    by_cases hpc : p = 3 ∧ c = 3
    · rw [if_pos hpc, if_pos (show p = 3 ∧ c = 3 ∧ 1 ≤ k + 1 by omega)]; rfl
    · have hpk : ∀ m, ¬ (p = 3 ∧ c = 3 ∧ 1 ≤ m) := fun m h => hpc ⟨h.1, h.2.1⟩
      rw [if_neg hpc, if_neg (hpk (k + 1)), foldl_ovr _ (k + 1) (fun x hx => (hin x hx).2.2), h3',
        if_neg (hpk k)]
      by_cases hc : c = k + 1
      · subst hc
        rw [if_pos rfl, if_pos (show 1 ≤ k + 1 ∧ k + 1 ≤ k + 1 by omega),
          if_neg (show ¬ (1 ≤ k + 1 ∧ k + 1 ≤ k) by omega)]
      · rw [if_neg hc]
        by_cases hh : 1 ≤ c ∧ c ≤ k
        · rw [if_pos hh, if_pos (show 1 ≤ c ∧ c ≤ k + 1 by omega)]
        · rw [if_neg hh, if_neg (show ¬ (1 ≤ c ∧ c ≤ k + 1) by omega)])
  obtain ⟨B2, hB2, r2, c2, e2⟩ := key
  refine ⟨B2.reshape 4 (2 * dN.nr), ?_, rfl, rfl, ?_⟩
  · unfold tlB
    change (loop (fun a B => B.setMany (normalCol 2 4 F dN (a + 1))) dN.nr
      (DMat.zero 8 dN.nr)).bind (fun B =>
        (loop (fun a B => shearCol 2 true F N dN r epsR (a + 1) B) dN.nr B).bind fun B =>
          .ok (B.reshape 4 (2 * dN.nr))) = _
    rw [show loop (fun a B => B.setMany (normalCol 2 4 F dN (a + 1))) dN.nr (DMat.zero 8 dN.nr)
      = .ok B1 from hB1]
    rw [show ∀ f, (Res.ok B1).bind f = f B1 from fun _ => rfl, hB2]
    rfl
  · intro i j a hi1 hi2 hj ha
    simp only [DMat.reshape]
    rw [r2]
    have f1 : (i - 1 + 4 * (2 * a + j + 1 - 1)) % 8 + 1 = i + 4 * j := by omega
    have f2 : (i - 1 + 4 * (2 * a + j + 1 - 1)) / 8 + 1 = a + 1 := by omega
    rw [f1, f2, e2]
    by_cases hh : i = 3
    · rw [if_pos hh]
      subst hh
      by_cases hj2 : j = 0 ∧ a = 2
      · rw [if_pos hj2, if_pos (by omega)]
      · rw [if_neg hj2, if_neg (by omega), if_pos (show 1 ≤ a + 1 ∧ a + 1 ≤ dN.nr by omega), e1,
          if_pos (show 1 ≤ a + 1 ∧ a + 1 ≤ (DMat.zero 8 dN.nr : DMat K).nc from ⟨by omega, ha⟩)]
        interval_cases j <;> rfl
    · rw [if_neg hh, if_neg (by omega), if_pos (show 1 ≤ a + 1 ∧ a + 1 ≤ dN.nr by omega), e1,
        if_pos (show 1 ≤ a + 1 ∧ a + 1 ≤ (DMat.zero 8 dN.nr : DMat K).nc from ⟨by omega, ha⟩)]
      interval_cases i <;> first | exact absurd rfl hh | (interval_cases j <;> first | rfl | exact add_comm _ _)

end Verif.Finite
