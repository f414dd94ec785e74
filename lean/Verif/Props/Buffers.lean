/-
C126: reuse of the element matrices of linear elasticity.
-/
import Verif.Model.Buffers
import Mathlib.Tactic.SplitIfs
import Mathlib.Data.Rat.Defs
import Mathlib.Algebra.Order.Ring.Rat
import Mathlib.Algebra.Group.Int.Defs

namespace Verif.Buffers

open Verif.Modes

/-! ### Specification -/

section
variable {K : Type*} [Zero K] [One K] [LinearOrder K] {V : Type*}

/-- The matrices of an element in a mode: the stiffness, mass and geometric stiffness in their places, and zero in the other ones. -/
def fill [Zero V] (nA : Nat) (k m g : Int) (strains : Bool) (e : Elem V) : List (Option V) :=
  (List.range nA).map fun i : Nat => some (if (i : Int) + 1 = k then e.K else if (i : Int) + 1 = m then e.M else if (i : Int) + 1 = g ∧ strains = true then e.G else 0)

/-- An integrand without any history. -/
def fresh : St := ⟨.init, 0, 0, 0, 0, 0, 0, 0, 0, false⟩

/-- The matrices of an element which are computed in mode `m`. -/
def want [Zero V] (q : Prm K) (m : Mode) (strains : Bool) (e : Elem V) : List (Option V) :=
  fill (contAlloc q (linSetMode q m fresh) false).nA (linSetMode q m fresh).eKm (linSetMode q m fresh).eM (linSetMode q m fresh).eKg strains e

/-- The matrices in each assembly of a history when nothing is reused. -/
def plain [Zero V] (q : Prm K) (el : Int → Elem V) : Mode → List Op → List (List (List (Option V)))
  | _, [] => []
  | _, .mode m :: l => plain q el m l
  | m, .buffers _ :: l => plain q el m l
  | m, .assemble strains els :: l => els.map (fun i => want q m strains (el i)) :: plain q el m l

/-- Whether there is a stiffness matrix. -/
def needsK (q : Prm K) (m : Mode) : Prop :=
  m = .static ∨ m = .arclen ∨ m = .buckling ∨ m = .vibration ∨ m = .stiffOnly ∨ (m = .dynamic ∧ q.isModal = false) ∨ ((m = .dynamic ∨ m = .rhsOnly) ∧ q.nCS < q.nSV)

/-- Whether there is a mass matrix. -/
def needsM (q : Prm K) (m : Mode) : Prop :=
  m = .vibration ∨ m = .massOnly ∨ (m = .dynamic ∧ q.isModal = false) ∨ ((m = .dynamic ∨ m = .rhsOnly) ∧ q.nCS < q.nSV)

/-- The histories where matrices are reused properly: `n` is the number of buffers, `k` and `d` are the elements with a buffered stiffness and mass, `m` is the mode and `r` tells that matrices
are reused. A request for reuse comes in a mode with both matrices or none of them, and elements get their matrices from the buffers after they have been stored there. -/
def Proper (q : Prm K) : Nat → Set Int → Set Int → Mode → Bool → List Op → Prop
  | _, _, _, _, _, [] => True
  | n, k, d, _, _, .mode m :: l => Proper q n k d m false l
  | n, k, d, m, r, .buffers p :: l =>
    if 1 < p then Proper q p {i ∈ k | i ≤ p} {i ∈ d | i ≤ p} m r l
    else if p = 0 ∧ n ≠ 0 then (needsK q m ↔ needsM q m) ∧ Proper q n k d m true l
    else Proper q n k d m r l
  | n, k, d, m, r, .assemble _ els :: l =>
    if r = true then (needsK q m → ∀ i ∈ els, i ∈ k ∧ i ∈ d) ∧ Proper q n k d m r l
    else Proper q n (k ∪ {i | needsK q m ∧ i ∈ els ∧ 1 ≤ i ∧ i ≤ n}) (d ∪ {i | needsM q m ∧ i ∈ els ∧ 1 ≤ i ∧ i ≤ n}) m r l

/-! ### Proofs -/

theorem slots_of (q : Prm K) (m : Mode) (s : St) :
    (linSetMode q m s).eKm = (linSetMode q m fresh).eKm ∧ (linSetMode q m s).eM = (linSetMode q m fresh).eM ∧ (linSetMode q m s).eKg = (linSetMode q m fresh).eKg ∧
      (linSetMode q m s).mode = (linSetMode q m fresh).mode := by
  unfold linSetMode baseSetMode baseSlots
  cases linEff q m <;> simp

theorem alloc_of (q : Prm K) (s t : St) (h : s.mode = t.mode) : (contAlloc q s false).nA = (contAlloc q t false).nA := by
  unfold contAlloc
  rw [h]
  cases q.bdf <;> cases t.mode <;> simp

/-- The places of the matrices. -/
theorem places (q : Prm K) (m : Mode) : let t := linSetMode q m fresh
    0 ≤ t.eKm ∧ 0 ≤ t.eM ∧ 0 ≤ t.eKg ∧ t.eKm ≤ (contAlloc q t false).nA ∧ t.eM ≤ (contAlloc q t false).nA ∧ t.eKg ≤ (contAlloc q t false).nA ∧
      (needsK q m ↔ t.eKm ≠ 0) ∧ (needsM q m ↔ t.eM ≠ 0) ∧ (t.eKm ≠ 0 → t.eM ≠ t.eKm) ∧ (t.eM ≠ 0 → t.eKg = 0) ∧ (t.eKg ≠ 0 → t.eKm ≠ 0 ∧ t.eKg ≠ t.eKm) := by
  rcases q with ⟨p2, p3, p4, nCS, nSV, bdf, isModal⟩
  by_cases h : nCS < nSV <;> rcases lt_trichotomy p3 0 with h3 | h3 | h3 <;> [have h3' := h3.not_gt; skip; have h3' := h3.not_gt; have h3' := h3.not_gt; skip; have h3' := h3.not_gt] <;>
    cases isModal <;> cases bdf <;> cases m <;> simp [linSetMode, linEff, baseSetMode, baseSlots, contAlloc, needsK, needsM, fresh, h, h3] <;> (try simp [*])

theorem fetch_map (n : Nat) (f : Nat → Option V) (i : Int) (h0 : 0 ≤ i) (h1 : i < n) : fetch ((List.range n).map f) i = .ok (f i.toNat) := by
  unfold fetch
  rw [if_pos ⟨h0, by simpa using h1⟩, List.getD_eq_getElem?_getD, List.getElem?_map, List.getElem?_range (by omega)]
  rfl

theorem assign_map (n : Nat) (f : Nat → Option V) (i : Int) (v : Option V) (h0 : 0 ≤ i) (h1 : i < n) :
    assign ((List.range n).map f) i v = .ok ((List.range n).map (Function.update f i.toNat v)) := by
  unfold assign
  rw [if_pos ⟨h0, by simpa using h1⟩]
  congr 1
  apply List.ext_getElem
  · simp
  · intro j hj _
    rw [List.getElem_set, List.getElem_map, List.getElem_map, List.getElem_range, Function.update_apply]
    by_cases h : i.toNat = j
    · rw [if_pos h, if_pos h.symm]
    · rw [if_neg h, if_neg fun e => h e.symm]

theorem replicate_map [Zero V] (n : Nat) : List.replicate n (some (0 : V)) = (List.range n).map fun _ => some 0 := by
  rw [List.map_const', List.length_range]

/-- Negated places, after a request for reuse. -/
def neg (t : St) : St := { t with eKm := -t.eKm, eKg := -t.eKg, eM := -t.eM }

theorem accum_map [Add V] (n : Nat) (f : Nat → Option V) (i : Int) (x v : V) (h0 : 0 ≤ i) (h1 : i < n) (hf : f i.toNat = some x) :
    accum ((List.range n).map f) i v = .ok ((List.range n).map (Function.update f i.toNat (some (x + v)))) := by
  unfold accum
  rw [fetch_map n f i h0 h1, hf]
  exact assign_map n f i _ h0 h1

/-- Integration with distinct places. -/
theorem integrate_fill [AddZeroClass V] (n : Nat) (s : St) (strains : Bool) (e : Elem V) (a : 0 ≤ s.eKm ∧ s.eKm ≤ n) (b : 0 ≤ s.eM ∧ s.eM ≤ n) (c : 0 ≤ s.eKg ∧ s.eKg ≤ n)
    (h1 : s.eKm ≠ 0 → s.eM ≠ s.eKm) (h2 : s.eM ≠ 0 → s.eKg = 0) (h3 : s.eKg ≠ 0 → s.eKg ≠ s.eKm) :
    integrate s strains e (List.replicate n (some 0)) = .ok (fill n s.eKm s.eM s.eKg strains e) := by
  unfold integrate
  rw [replicate_map]
  have fin : ∀ f g : Nat → Option V, (∀ i < n, f i = g i) → (List.range n).map f = (List.range n).map g := fun f g h => List.map_congr_left fun i hi => h i (List.mem_range.1 hi)
  unfold fill
  by_cases k : s.eKm = 0
  · have k' : ¬ 0 < s.eKm := by omega
    rw [if_neg k']
    simp only [Res.bind]
    by_cases g : s.eKg = 0
    · have g' : ¬ (0 < s.eKg ∧ strains = true) := by omega
      rw [if_neg g']
      simp only [Res.bind]
      by_cases m : s.eM = 0
      · rw [if_neg (by omega)]
        congr 1
        apply fin
        intro i _
        rw [if_neg (by omega), if_neg (by omega), if_neg (by omega)]
      · rw [if_pos (by omega), accum_map n _ _ 0 _ (by omega) (by omega) rfl]
        congr 1
        apply fin
        intro i _
        rw [Function.update_apply, if_neg (by omega : ¬ (i : Int) + 1 = s.eKm), zero_add]
        by_cases hi : (i : Int) + 1 = s.eM
        · rw [if_pos (by omega), if_pos hi]
        · rw [if_neg (by omega), if_neg hi, if_neg (by omega)]
    · have m : s.eM = 0 := by by_contra m; exact g (h2 m)
      have m' : ¬ 0 < s.eM := by omega
      simp only [if_neg m']
      by_cases hs : strains = true
      · rw [if_pos ⟨by omega, hs⟩, accum_map n _ _ 0 _ (by omega) (by omega) rfl]
        simp only [Res.bind]
        congr 1
        apply fin
        intro i _
        rw [Function.update_apply, if_neg (by omega : ¬ (i : Int) + 1 = s.eKm), if_neg (by omega : ¬ (i : Int) + 1 = s.eM), zero_add]
        by_cases hi : (i : Int) + 1 = s.eKg
        · rw [if_pos (by omega), if_pos ⟨hi, hs⟩]
        · rw [if_neg (by omega), if_neg fun h => hi h.1]
      · rw [if_neg fun h => hs h.2]
        simp only [Res.bind]
        congr 1
        apply fin
        intro i _
        rw [if_neg (by omega), if_neg (by omega), if_neg fun h => hs h.2]
  · have k1 := h1 k
    rw [if_pos (by omega : 0 < s.eKm), accum_map n _ _ 0 _ (by omega) (by omega) rfl]
    simp only [Res.bind, zero_add]
    by_cases g : s.eKg = 0
    · have g' : ¬ (0 < s.eKg ∧ strains = true) := by omega
      rw [if_neg g']
      simp only
      by_cases m : s.eM = 0
      · rw [if_neg (by omega)]
        congr 1
        apply fin
        intro i _
        rw [Function.update_apply]
        by_cases hi : (i : Int) + 1 = s.eKm
        · rw [if_pos (by omega), if_pos hi]
        · rw [if_neg (by omega), if_neg hi, if_neg (by omega), if_neg (by omega)]
      · rw [if_pos (by omega), accum_map n _ _ 0 _ (by omega) (by omega) (by rw [Function.update_apply, if_neg (by omega)])]
        congr 1
        apply fin
        intro i _
        rw [Function.update_apply, Function.update_apply, zero_add]
        by_cases hi : (i : Int) + 1 = s.eM
        · rw [if_pos (by omega), if_neg (by omega), if_pos hi]
        · rw [if_neg (by omega), if_neg hi]
          by_cases hi : (i : Int) + 1 = s.eKm
          · rw [if_pos (by omega), if_pos hi]
          · rw [if_neg (by omega), if_neg hi, if_neg (by omega)]
    · have m : s.eM = 0 := by by_contra m; exact g (h2 m)
      have g1 := h3 g
      have m' : ¬ 0 < s.eM := by omega
      simp only [if_neg m']
      by_cases hs : strains = true
      · rw [if_pos ⟨by omega, hs⟩, accum_map n _ _ 0 _ (by omega) (by omega) (by rw [Function.update_apply, if_neg (by omega)])]
        simp only
        congr 1
        apply fin
        intro i _
        rw [Function.update_apply, Function.update_apply, zero_add]
        by_cases hi : (i : Int) + 1 = s.eKg
        · rw [if_pos (by omega), if_neg (by omega), if_neg (by omega), if_pos ⟨hi, hs⟩]
        · rw [if_neg (by omega)]
          by_cases hi' : (i : Int) + 1 = s.eKm
          · rw [if_pos (by omega), if_pos hi']
          · rw [if_neg (by omega), if_neg hi', if_neg (by omega), if_neg fun h => hi h.1]
      · rw [if_neg fun h => hs h.2]
        simp only
        congr 1
        apply fin
        intro i _
        rw [Function.update_apply]
        by_cases hi' : (i : Int) + 1 = s.eKm
        · rw [if_pos (by omega), if_pos hi']
        · rw [if_neg (by omega), if_neg hi', if_neg (by omega), if_neg fun h => hs h.2]

theorem fetch_fill [Zero V] (n : Nat) (k m g : Int) (strains : Bool) (e : Elem V) (i : Int) (h0 : 0 < i) (h1 : i ≤ n) : fetch (fill n k m g strains e) (i - 1)
    = .ok (some (if i = k then e.K else if i = m then e.M else if i = g ∧ strains = true then e.G else 0)) := by
  unfold fill
  rw [fetch_map n _ _ (by omega) (by omega)]
  have : (((i - 1).toNat : Nat) : Int) + 1 = i := by omega
  simp only [this]

/-- The buffers hold the matrices of the elements `k` and `d`. -/
structure Holds (el : Int → Elem V) (n : Nat) (k d : Set Int) (b : Buf V) : Prop where
  lenK : b.K.length = n
  lenM : b.M.length = n
  rangeK : ∀ i ∈ k, 1 ≤ i ∧ i ≤ n
  rangeM : ∀ i ∈ d, 1 ≤ i ∧ i ≤ n
  getK : ∀ i ∈ k, b.K.getD (i - 1).toNat none = some (el i).K
  getM : ∀ i ∈ d, b.M.getD (i - 1).toNat none = some (el i).M

theorem getD_set (l : List (Option V)) (i j : Nat) (v : Option V) (h : i < l.length) : (l.set i v).getD j none = if i = j then v else l.getD j none := by
  rw [List.getD_eq_getElem?_getD, List.getD_eq_getElem?_getD, List.getElem?_set]
  by_cases hij : i = j
  · subst hij
    simp [h]
  · simp [hij]

/-- An element whose matrices are computed. -/
theorem element_plain [AddZeroClass V] (q : Prm K) (m : Mode) (el : Int → Elem V) (n : Nat) (k d : Set Int) (b : Buf V) (hb : Holds el n k d b) (s0 : St) (hs : b.s = linSetMode q m s0)
    (strains : Bool) (i : Int) :
    ∃ b', element (contAlloc q b.s false).nA strains b i (el i) = .ok (b', want q m strains (el i)) ∧ b'.s = b.s ∧
      Holds el n (k ∪ {j | needsK q m ∧ j = i ∧ 1 ≤ j ∧ j ≤ n}) (d ∪ {j | needsM q m ∧ j = i ∧ 1 ≤ j ∧ j ≤ n}) b' := by
  obtain ⟨p1, p2, p3, p4, p5, p6, p7, p8, p9, p10, p11⟩ := places q m
  obtain ⟨q1, q2, q3, q4⟩ := slots_of q m s0
  rw [← hs] at q1 q2 q3 q4
  have hA := alloc_of q b.s (linSetMode q m fresh) q4
  have w : want q m strains (el i) = fill (contAlloc q b.s false).nA b.s.eKm b.s.eM b.s.eKg strains (el i) := by rw [hA, q1, q2, q3]; rfl
  rw [w]
  simp only [← hA, ← q1, ← q2, ← q3] at p1 p2 p3 p4 p5 p6 p7 p8 p9 p10 p11
  clear w hA
  generalize (contAlloc q b.s false).nA = nA at *
  have hr : restore b i (List.replicate nA (some 0)) = .ok (List.replicate nA (some 0)) := by
    unfold restore
    simp [show ¬ b.s.eKm < 0 by omega]
  have hi := integrate_fill nA b.s strains (el i) ⟨p1, p4⟩ ⟨p2, p5⟩ ⟨p3, p6⟩ p9 p10 (fun h => (p11 h).2)
  unfold element
  rw [hr]
  simp only [Res.bind]
  rw [hi]
  simp only
  unfold store
  by_cases h0 : 0 < i
  · rw [if_pos h0]
    obtain ⟨b1, e1, s1, m1, t1⟩ : ∃ b1 : Buf V, (if (i - 1).toNat < b.K.length ∧ 0 < b.s.eKm then (fetch (fill nA b.s.eKm b.s.eM b.s.eKg strains (el i)) (b.s.eKm - 1)).bind fun x =>
        .ok { b with K := b.K.set (i - 1).toNat x } else .ok b) = Res.ok b1 ∧ b1.s = b.s ∧ b1.M = b.M ∧ b1.K.length = n ∧
          ∀ j ∈ k ∪ {j | needsK q m ∧ j = i ∧ 1 ≤ j ∧ j ≤ n}, b1.K.getD (j - 1).toNat none = some (el j).K := by
      by_cases hk : (i - 1).toNat < b.K.length ∧ 0 < b.s.eKm
      · rw [if_pos hk, fetch_fill _ _ _ _ _ _ _ hk.2 p4, if_pos rfl]
        refine ⟨_, rfl, rfl, rfl, by simp [hb.lenK], ?_⟩
        intro j hj
        simp only
        rw [getD_set _ _ _ _ hk.1]
        by_cases hij : (i - 1).toNat = (j - 1).toNat
        · have : j = i := by
            rcases hj with hj | hj
            · have := hb.rangeK j hj; omega
            · exact hj.2.1
          rw [if_pos hij, this]
        · rw [if_neg hij]
          rcases hj with hj | hj
          · exact hb.getK j hj
          · exact absurd (by rw [hj.2.1]) hij
      · rw [if_neg hk]
        refine ⟨b, rfl, rfl, rfl, hb.lenK, ?_⟩
        rintro j (hj | hj)
        · exact hb.getK j hj
        · exact absurd ⟨by have := hj.2; have := hb.lenK; omega, by have := p7.1 hj.1; omega⟩ hk
    rw [e1]
    simp only [Res.bind]
    rw [m1, s1]
    have t2 : (∀ j ∈ k ∪ {j | needsK q m ∧ j = i ∧ 1 ≤ j ∧ j ≤ (n : Int)}, 1 ≤ j ∧ j ≤ n) ∧ ∀ j ∈ d ∪ {j | needsM q m ∧ j = i ∧ 1 ≤ j ∧ j ≤ (n : Int)}, 1 ≤ j ∧ j ≤ n :=
      ⟨fun j hj => hj.elim (hb.rangeK j) fun h => h.2.2, fun j hj => hj.elim (hb.rangeM j) fun h => h.2.2⟩
    by_cases hm : (i - 1).toNat < b.M.length ∧ 0 < b.s.eM
    · rw [if_pos hm, fetch_fill _ _ _ _ _ _ _ hm.2 p5, if_neg (by have := p9; omega), if_pos rfl]
      refine ⟨_, rfl, rfl, t1.1, by simp [hb.lenM], t2.1, t2.2, t1.2, ?_⟩
      intro j hj
      simp only
      rw [getD_set _ _ _ _ hm.1]
      by_cases hij : (i - 1).toNat = (j - 1).toNat
      · have : j = i := by have := t2.2 j hj; omega
        rw [if_pos hij, this]
      · rw [if_neg hij]
        rcases hj with hj | hj
        · exact hb.getM j hj
        · exact absurd (by rw [hj.2.1]) hij
    · rw [if_neg hm]
      refine ⟨_, rfl, s1, t1.1, by rw [m1, hb.lenM], t2.1, t2.2, t1.2, ?_⟩
      rw [m1]
      rintro j (hj | hj)
      · exact hb.getM j hj
      · exact absurd ⟨by have := hj.2; have := hb.lenM; omega, by have := p8.1 hj.1; omega⟩ hm
  · rw [if_neg h0]
    refine ⟨b, rfl, rfl, hb.lenK, hb.lenM, fun j hj => hj.elim (hb.rangeK j) fun h => h.2.2, fun j hj => hj.elim (hb.rangeM j) fun h => h.2.2, ?_, ?_⟩
    · rintro j (hj | hj)
      · exact hb.getK j hj
      · exact absurd hj.2 (by omega)
    · rintro j (hj | hj)
      · exact hb.getM j hj
      · exact absurd hj.2 (by omega)

/-- An element whose matrices are reused. -/
theorem element_reuse [AddZeroClass V] (q : Prm K) (m : Mode) (el : Int → Elem V) (n : Nat) (k d : Set Int) (b : Buf V) (hb : Holds el n k d b) (s0 : St) (hs : b.s = neg (linSetMode q m s0))
    (hm : needsK q m ↔ needsM q m) (strains : Bool) (i : Int) (hi : needsK q m → i ∈ k ∧ i ∈ d) :
    element (contAlloc q b.s false).nA strains b i (el i) = .ok (b, want q m strains (el i)) := by
  obtain ⟨p1, p2, p3, p4, p5, p6, p7, p8, p9, p10, p11⟩ := places q m
  obtain ⟨q1, q2, q3, q4⟩ := slots_of q m s0
  have hA := alloc_of q b.s (linSetMode q m fresh) (by rw [hs]; exact q4)
  have w : want q m strains (el i) = fill (contAlloc q b.s false).nA (linSetMode q m fresh).eKm (linSetMode q m fresh).eM (linSetMode q m fresh).eKg strains (el i) := by rw [hA]; rfl
  rw [w]
  have r1 : b.s.eKm = -(linSetMode q m fresh).eKm := by rw [hs, ← q1]; rfl
  have r2 : b.s.eM = -(linSetMode q m fresh).eM := by rw [hs, ← q2]; rfl
  have r3 : b.s.eKg = -(linSetMode q m fresh).eKg := by rw [hs, ← q3]; rfl
  simp only [← hA] at p4 p5 p6
  clear w hA q1 q2 q3 q4 hs
  generalize (contAlloc q b.s false).nA = nA at *
  generalize (linSetMode q m fresh).eKm = a1 at *
  generalize (linSetMode q m fresh).eM = a2 at *
  generalize (linSetMode q m fresh).eKg = a3 at *
  have hI : ∀ A, integrate b.s strains (el i) A = .ok A := by
    intro A
    unfold integrate
    simp only [if_neg (show ¬ 0 < b.s.eKm by omega), if_neg (show ¬ (0 < b.s.eKg ∧ strains = true) by omega), if_neg (show ¬ 0 < b.s.eM by omega), Res.bind]
  have hS : ∀ A, store b i A = .ok b := by
    intro A
    unfold store
    simp only [if_neg (show ¬ ((i - 1).toNat < b.K.length ∧ 0 < b.s.eKm) by omega), if_neg (show ¬ ((i - 1).toNat < b.M.length ∧ 0 < b.s.eM) by omega), Res.bind, ite_self]
  unfold element
  simp only [hI, hS]
  have fin : ∀ f g : Nat → Option V, (∀ i < nA, f i = g i) → (List.range nA).map f = (List.range nA).map g := fun f g h => List.map_congr_left fun i hi => h i (List.mem_range.1 hi)
  by_cases hk : needsK q m
  · obtain ⟨i1, i2⟩ := hi hk
    have k1 := p7.1 hk
    have k2 := p8.1 (hm.1 hk)
    have := hb.rangeK i i1
    have := hb.lenK
    have := hb.lenM
    unfold restore
    rw [replicate_map, if_pos (by omega), if_pos (by omega), hb.getK i i1, assign_map nA _ _ _ (by omega) (by omega)]
    simp only [Res.bind]
    rw [if_pos (by omega), hb.getM i i2, assign_map nA _ _ _ (by omega) (by omega)]
    simp only
    congr 2
    unfold fill
    apply fin
    intro j _
    rw [Function.update_apply, Function.update_apply]
    have := p9 k1
    by_cases h2 : (j : Int) + 1 = a2
    · rw [if_pos (by omega), if_neg (by omega), if_pos h2]
    · rw [if_neg (by omega), if_neg h2]
      by_cases h1 : (j : Int) + 1 = a1
      · rw [if_pos (by omega), if_pos h1]
      · rw [if_neg (by omega), if_neg h1, if_neg (by omega)]
  · have k1 : a1 = 0 := by by_contra h; exact hk (p7.2 h)
    have k2 : a2 = 0 := by by_contra h; exact hk (hm.2 (p8.2 h))
    have k3 : a3 = 0 := by by_contra h; exact (p11 h).1 k1
    have hr : restore b i (List.replicate nA (some 0)) = .ok (List.replicate nA (some 0)) := by
      unfold restore
      simp only [if_neg (show ¬ ((i - 1).toNat < b.K.length ∧ b.s.eKm < 0) by omega), if_neg (show ¬ ((i - 1).toNat < b.M.length ∧ b.s.eKm < 0) by omega), Res.bind, ite_self]
    rw [hr, replicate_map]
    simp only [Res.bind]
    congr 2
    unfold fill
    apply fin
    intro j _
    rw [if_neg (by omega), if_neg (by omega), if_neg (by omega)]

theorem assemble_plain [AddZeroClass V] (q : Prm K) (m : Mode) (el : Int → Elem V) (n : Nat) (strains : Bool) (s0 : St) : ∀ (els : List Int) (k d : Set Int) (b : Buf V), Holds el n k d b →
    b.s = linSetMode q m s0 → ∃ b', assemble (contAlloc q b.s false).nA strains b (els.map fun i => (i, el i)) = .ok (b', els.map fun i => want q m strains (el i)) ∧ b'.s = b.s ∧
      Holds el n (k ∪ {i | needsK q m ∧ i ∈ els ∧ 1 ≤ i ∧ i ≤ n}) (d ∪ {i | needsM q m ∧ i ∈ els ∧ 1 ≤ i ∧ i ≤ n}) b'
  | [], k, d, b, hb, _ => ⟨b, rfl, rfl, by simpa using hb⟩
  | i :: els, k, d, b, hb, hs => by
    obtain ⟨b1, e1, s1, h1⟩ := element_plain q m el n k d b hb s0 hs strains i
    obtain ⟨b2, e2, s2, h2⟩ := assemble_plain q m el n strains s0 els _ _ b1 h1 (by rw [s1, hs])
    refine ⟨b2, ?_, by rw [s2, s1], ?_⟩
    · rw [List.map_cons, assemble, e1]
      simp only [Res.bind]
      rw [← s1, e2]
      rfl
    · have a : ∀ (P : Prop) (k : Set Int), k ∪ {j | P ∧ j = i ∧ 1 ≤ j ∧ j ≤ (n : Int)} ∪ {j | P ∧ j ∈ els ∧ 1 ≤ j ∧ j ≤ (n : Int)} = k ∪ {j | P ∧ j ∈ i :: els ∧ 1 ≤ j ∧ j ≤ (n : Int)} := by
        intro P k
        ext j
        simp only [Set.mem_union, Set.mem_setOf_eq, List.mem_cons]
        tauto
      rwa [a, a] at h2

theorem assemble_reuse [AddZeroClass V] (q : Prm K) (m : Mode) (el : Int → Elem V) (n : Nat) (strains : Bool) (s0 : St) (hm : needsK q m ↔ needsM q m) (k d : Set Int) (b : Buf V)
    (hb : Holds el n k d b) (hs : b.s = neg (linSetMode q m s0)) : ∀ els : List Int, (needsK q m → ∀ i ∈ els, i ∈ k ∧ i ∈ d) →
    assemble (contAlloc q b.s false).nA strains b (els.map fun i => (i, el i)) = .ok (b, els.map fun i => want q m strains (el i))
  | [], _ => rfl
  | i :: els, h => by
    have e1 := element_reuse q m el n k d b hb s0 hs hm strains i fun x => h x i (by simp)
    have e2 := assemble_reuse q m el n strains s0 hm k d b hb hs els fun x j hj => h x j (by simp [hj])
    rw [List.map_cons, assemble, e1]
    simp only [Res.bind]
    rw [e2]
    rfl

theorem resize_length (n : Nat) (l : List (Option V)) : (resize n l).length = n := by
  simp [resize]
  omega

theorem resize_get (n : Nat) (l : List (Option V)) (i : Nat) (h : i < n) (hl : i < l.length) : (resize n l).getD i none = l.getD i none := by
  unfold resize
  rw [List.getD_eq_getElem?_getD, List.getD_eq_getElem?_getD, List.getElem?_append_left (by simp; omega), List.getElem?_take, if_pos h]

theorem run_proper [AddZeroClass V] (q : Prm K) (el : Int → Elem V) : ∀ (ops : List Op) (n : Nat) (k d : Set Int) (m : Mode) (r : Bool) (b : Buf V) (s0 : St), Holds el n k d b →
    b.s = (if r then neg (linSetMode q m s0) else linSetMode q m s0) → (r = true → (needsK q m ↔ needsM q m)) → Proper q n k d m r ops → ∃ b', run q el b ops = .ok (b', plain q el m ops)
  | [], _, _, _, _, _, b, _, _, _, _, _ => ⟨b, rfl⟩
  | .mode m' :: l, n, k, d, m, r, b, s0, hb, hs, hr, h => by
    obtain ⟨b', e⟩ := run_proper q el l n k d m' false { b with s := linSetMode q m' b.s } b.s ⟨hb.lenK, hb.lenM, hb.rangeK, hb.rangeM, hb.getK, hb.getM⟩ rfl (by simp) h
    exact ⟨b', by rw [run, e, plain]⟩
  | .buffers p :: l, n, k, d, m, r, b, s0, hb, hs, hr, h => by
    rw [Proper] at h
    rw [run, plain]
    by_cases hp : 1 < p
    · rw [if_pos hp] at h
      refine run_proper q el l p _ _ m r _ s0 ?_ ?_ hr h
      · rw [initBuffers, if_pos hp]
        refine ⟨resize_length _ _, resize_length _ _, fun i hi => ⟨(hb.rangeK i hi.1).1, hi.2⟩, fun i hi => ⟨(hb.rangeM i hi.1).1, hi.2⟩, fun i hi => ?_, fun i hi => ?_⟩
        · have := hb.rangeK i hi.1
          have h2 : i ≤ p := hi.2
          have := hb.lenK
          simp only
          rw [resize_get _ _ _ (by omega) (by omega)]
          exact hb.getK i hi.1
        · have := hb.rangeM i hi.1
          have h2 : i ≤ p := hi.2
          have := hb.lenM
          simp only
          rw [resize_get _ _ _ (by omega) (by omega)]
          exact hb.getM i hi.1
      · rw [initBuffers, if_pos hp]
        exact hs
    · rw [if_neg hp] at h
      by_cases h0 : p = 0 ∧ n ≠ 0
      · rw [if_pos h0] at h
        have hne : b.K ≠ [] := fun e => h0.2 (by rw [← hb.lenK, e]; rfl)
        refine run_proper q el l n k d m true _ s0 ?_ ?_ (fun _ => h.1) h.2
        · rw [initBuffers, if_neg hp, if_pos ⟨h0.1, hne⟩]
          exact ⟨hb.lenK, hb.lenM, hb.rangeK, hb.rangeM, hb.getK, hb.getM⟩
        · rw [initBuffers, if_neg hp, if_pos ⟨h0.1, hne⟩]
          obtain ⟨p1, p2, p3, _⟩ := places q m
          obtain ⟨q1, q2, q3, _⟩ := slots_of q m s0
          rw [← q1] at p1
          rw [← q2] at p2
          rw [← q3] at p3
          have f : ∀ x : Int, 0 ≤ x → (if 0 < x then -x else x) = -x := fun x hx => by split_ifs <;> omega
          have g : ∀ x : Int, 0 ≤ x → (if 0 < -x then - -x else -x) = -x := fun x hx => if_neg (by omega)
          cases r
          · rw [hs]
            simp only [Bool.false_eq_true, if_false, if_true, neg, f _ p1, f _ p2, f _ p3]
          · rw [hs]
            simp only [if_true, neg, g _ p1, g _ p2, g _ p3]
      · rw [if_neg h0] at h
        have : initBuffers p b = b := by
          rw [initBuffers, if_neg hp, if_neg]
          rintro ⟨a, c⟩
          exact h0 ⟨a, fun e => c (List.length_eq_zero_iff.1 (by rw [hb.lenK, e]))⟩
        rw [this]
        exact run_proper q el l n k d m r b s0 hb hs hr h
  | .assemble strains els :: l, n, k, d, m, r, b, s0, hb, hs, hr, h => by
    rw [Proper] at h
    rw [run, plain]
    cases r
    · obtain ⟨b1, e1, s1, h1⟩ := assemble_plain q m el n strains s0 els k d b hb hs
      obtain ⟨b2, e2⟩ := run_proper q el l n _ _ m false b1 s0 h1 (by rw [s1, hs]) hr h
      refine ⟨b2, ?_⟩
      rw [e1]
      simp only [Res.bind]
      rw [e2]
    · rw [if_pos rfl] at h
      have e1 := assemble_reuse q m el n strains s0 (hr rfl) k d b hb hs els h.1
      obtain ⟨b2, e2⟩ := run_proper q el l n _ _ m true b s0 hb hs hr h.2
      refine ⟨b2, ?_⟩
      rw [e1]
      simp only [Res.bind]
      rw [e2]

/-- **C126**: in all histories of an integrand of linear elasticity where matrices are reused properly, each assembly gives the elements the matrices that are computed in the mode, as if there
were no buffers. Missing: requests for reuse in modes which have only one of the matrices; see `C126_stiffness_violated` and `C126_mass_violated`. -/
theorem C126_reuse_partial [AddZeroClass V] (q : Prm K) (el : Int → Elem V) (m : Mode) (s : St) (ops : List Op) (h : Proper q 0 ∅ ∅ m false ops) :
    ∃ b, run q el ⟨[], [], linSetMode q m s⟩ ops = .ok (b, plain q el m ops) :=
  run_proper q el ops 0 ∅ ∅ m false _ s ⟨rfl, rfl, by simp, by simp, by simp, by simp⟩ rfl (by simp) h

/-- **C126**: the matrices computed are the stiffness in its place, the mass in another one and zero in the remaining ones, in linear dynamics. -/
theorem C126_dynamic [Zero V] (q : Prm K) (hm : q.isModal = false) (hp : 0 < q.p3) (strains : Bool) (e : Elem V) : want q .dynamic strains e = [some 0, some e.M, some e.K] ∧
    want q .vibration strains e = [some e.K, some e.M] ∧ want q .stiffOnly strains e = [some e.K] ∧ want q .massOnly strains e = [some e.M] ∧
    want q .buckling strains e = [some e.K, some (if strains = true then e.G else 0)] := by
  have := hp.not_gt
  refine ⟨?_, ?_, ?_, ?_, ?_⟩ <;> cases strains <;> simp [want, fill, linSetMode, linEff, baseSetMode, baseSlots, contAlloc, hm, hp, this, List.range_succ] <;> cases q.bdf <;> simp [List.range_succ]

/-- **C126**: the time steps of a linear dynamic analysis of elements `1, ..., n` in any order, where all matrices are computed in the first step and reused in the other ones. -/
theorem C126_steps [AddZeroClass V] (q : Prm K) (hm : q.isModal = false) (hp : 0 < q.p3) (el : Int → Elem V) (s : St) (n : Nat) (hn : 1 < n) (els : List Int) (h : ∀ i ∈ els, 1 ≤ i ∧ i ≤ n) (strains : Bool) :
    ∀ steps : List (List Int), (∀ l ∈ steps, ∀ i ∈ l, i ∈ els) → ∃ b, run q el ⟨[], [], linSetMode q .dynamic s⟩
      ([.buffers n, .assemble strains els] ++ steps.flatMap fun l => [.mode .dynamic, .buffers 0, .assemble strains l]) =
      .ok (b, (els :: steps).map fun l => l.map fun i => [some 0, some (el i).M, some (el i).K]) := by
  intro steps hs
  have hP : ∀ (k d : Set Int) (r : Bool) (steps : List (List Int)), (∀ l ∈ steps, ∀ i ∈ l, i ∈ k ∧ i ∈ d) →
      Proper q n k d .dynamic r (steps.flatMap fun l => [.mode .dynamic, .buffers 0, .assemble strains l]) := by
    intro k d r steps
    induction steps generalizing r with
    | nil => intro _; trivial
    | cons l steps ih =>
      intro hl
      rw [List.flatMap_cons]
      simp only [List.cons_append, List.nil_append, Proper]
      rw [if_neg (by omega), if_pos ⟨trivial, by omega⟩, if_pos trivial]
      exact ⟨by simp [needsK, needsM, hm], fun _ => hl l (by simp), ih true fun l' h' => hl l' (by simp [h'])⟩
  have hK : needsK q .dynamic := by simp [needsK, hm]
  have hM : needsM q .dynamic := by simp [needsM, hm]
  obtain ⟨b, e⟩ := C126_reuse_partial q el .dynamic s ([.buffers n, .assemble strains els] ++ steps.flatMap fun l => [.mode .dynamic, .buffers 0, .assemble strains l]) (by
    simp only [List.cons_append, List.nil_append, Proper]
    rw [if_pos hn, if_neg (by simp)]
    exact hP _ _ _ _ fun l hl i hi => ⟨Or.inr ⟨hK, hs l hl i hi, h i (hs l hl i hi)⟩, Or.inr ⟨hM, hs l hl i hi, h i (hs l hl i hi)⟩⟩)
  refine ⟨b, ?_⟩
  rw [e]
  have hw : ∀ e : Elem V, want q .dynamic strains e = [some 0, some e.M, some e.K] := fun e => (C126_dynamic q hm hp strains e).1
  have hp : ∀ steps : List (List Int), plain q el .dynamic (steps.flatMap fun l => [.mode .dynamic, .buffers 0, .assemble strains l])
      = steps.map fun l => l.map fun i => [some 0, some (el i).M, some (el i).K] := by
    intro steps
    induction steps with
    | nil => rfl
    | cons l steps ih =>
      rw [List.flatMap_cons]
      simp only [List.cons_append, List.nil_append, plain, hw, ih, List.map_cons]
  simp only [List.cons_append, List.nil_append, plain, hw, hp, List.map_cons]

/-- Storing of an element, followed by a request for reuse. -/
theorem stored [AddZeroClass V] (q : Prm K) (m : Mode) (el : Int → Elem V) (s : St) (n : Nat) (hn : 1 < n) (strains : Bool) (l : List Op) :
    ∃ b, b.K.length = n ∧ b.M.length = n ∧ b.s = neg (linSetMode q m s) ∧ (needsM q m → b.M.getD 0 none = some (el 1).M) ∧
      run q el ⟨[], [], linSetMode q m s⟩ ([.buffers n, .assemble strains [1], .buffers 0] ++ l) = (run q el b l).bind fun t => .ok (t.1, [want q m strains (el 1)] :: t.2) := by
  have hb : Holds el n ∅ ∅ (initBuffers n ⟨[], [], linSetMode q m s⟩ : Buf V) := by
    rw [initBuffers, if_pos hn]
    exact ⟨resize_length _ _, resize_length _ _, by simp, by simp, by simp, by simp⟩
  have hs : (initBuffers n ⟨[], [], linSetMode q m s⟩ : Buf V).s = linSetMode q m s := by rw [initBuffers, if_pos hn]
  obtain ⟨b1, e1, s1, h1⟩ := assemble_plain q m el n strains s [1] ∅ ∅ _ hb hs
  rw [hs] at s1
  have hne : b1.K ≠ [] := fun e => by have := h1.lenK; rw [e] at this; simp at this; omega
  refine ⟨initBuffers 0 b1, ?_, ?_, ?_, ?_, ?_⟩
  · rw [initBuffers, if_neg (by omega), if_pos ⟨rfl, hne⟩]; exact h1.lenK
  · rw [initBuffers, if_neg (by omega), if_pos ⟨rfl, hne⟩]; exact h1.lenM
  · rw [initBuffers, if_neg (by omega), if_pos ⟨rfl, hne⟩]
    obtain ⟨p1, p2, p3, _⟩ := places q m
    obtain ⟨q1, q2, q3, _⟩ := slots_of q m s
    rw [← q1] at p1
    rw [← q2] at p2
    rw [← q3] at p3
    have f : ∀ x : Int, 0 ≤ x → (if 0 < x then -x else x) = -x := fun x hx => by split_ifs <;> omega
    rw [s1]
    simp only [neg, f _ p1, f _ p2, f _ p3]
  · intro hM
    rw [initBuffers, if_neg (by omega), if_pos ⟨rfl, hne⟩]
    exact h1.getM 1 (Or.inr ⟨hM, by simp, by omega, by omega⟩)
  · simp only [List.cons_append, List.nil_append, run]
    rw [e1]
    simp only [Res.bind, List.map_cons, List.map_nil]

/-- **C126** does not hold in modes without mass matrix: after a request for reuse, the element assigns to a matrix before the first one. -/
theorem C126_stiffness_violated [AddZeroClass V] (q : Prm K) (m : Mode) (h : m = .static ∨ m = .arclen ∨ m = .stiffOnly ∨ m = .buckling) (el : Int → Elem V) (s : St) (n : Nat) (hn : 1 < n) (strains : Bool) :
    run q el ⟨[], [], linSetMode q m s⟩ [.buffers n, .assemble strains [1], .buffers 0, .assemble strains [1]] = .ub := by
  obtain ⟨b, h1, h2, h3, _, h5⟩ := stored q m el s n hn strains [.assemble strains [1]]
  simp only [List.cons_append, List.nil_append] at h5
  rw [h5]
  obtain ⟨p1, p2, p3, p4, p5, p6, p7, p8, _⟩ := places q m
  obtain ⟨q1, q2, q3, q4⟩ := slots_of q m s
  have hK : needsK q m := by rcases h with rfl | rfl | rfl | rfl <;> simp [needsK]
  have hM : ¬ needsM q m := by rcases h with rfl | rfl | rfl | rfl <;> simp [needsM]
  have k1 := p7.1 hK
  have k2 : (linSetMode q m fresh).eM = 0 := by by_contra h; exact hM (p8.2 h)
  have r1 : b.s.eKm = -(linSetMode q m fresh).eKm := by rw [h3, ← q1]; rfl
  have r2 : b.s.eM = 0 := by rw [h3]; simp only [neg]; omega
  have hA := alloc_of q b.s (linSetMode q m fresh) (by rw [h3]; exact q4)
  have this : ∀ A, restore b 1 ((List.range (contAlloc q b.s false).nA).map A) = .ub := by
    intro A
    unfold restore
    rw [if_pos (by omega), if_pos ⟨by simp; omega, by omega⟩, assign_map _ _ _ _ (by omega) (by omega)]
    simp only [Res.bind]
    rw [if_pos ⟨by simp; omega, by omega⟩, assign, if_neg (by omega)]
  have hr : restore b 1 (List.replicate (contAlloc q b.s false).nA (some (0 : V))) = .ub := by
    rw [replicate_map]
    exact this _
  simp only [run, List.map_cons, List.map_nil, assemble, element]
  rw [hr]
  rfl

/-- **C126** does not hold for the mass matrix: after a request for reuse, the mass matrices of the elements are zero, although they have been stored. -/
theorem C126_mass_violated [AddZeroClass V] (q : Prm K) (el : Int → Elem V) (s : St) (n : Nat) (hn : 1 < n) (strains : Bool) :
    ∃ b, run q el ⟨[], [], linSetMode q .massOnly s⟩ [.buffers n, .assemble strains [1], .buffers 0, .assemble strains [1]] = .ok (b, [[[some (el 1).M]], [[some 0]]]) ∧
      b.M.getD 0 none = some (el 1).M := by
  obtain ⟨b, h1, h2, h3, h4, h5⟩ := stored q .massOnly el s n hn strains [.assemble strains [1]]
  simp only [List.cons_append, List.nil_append] at h5
  refine ⟨b, ?_, h4 (by simp [needsM])⟩
  rw [h5]
  have w : want q .massOnly strains (el 1) = [some (el 1).M] := by
    cases hb : q.bdf <;> simp [want, fill, linSetMode, linEff, baseSetMode, baseSlots, contAlloc, List.range_succ, hb]
  have r1 : b.s.eKm = 0 := by rw [h3]; simp [neg, linSetMode, linEff, baseSetMode, baseSlots]
  have r2 : b.s.eM = -1 := by rw [h3]; simp [neg, linSetMode, linEff, baseSetMode, baseSlots]
  have r3 : b.s.eKg = 0 := by rw [h3]; simp [neg, linSetMode, linEff, baseSetMode, baseSlots]
  have r4 : (contAlloc q b.s false).nA = 1 := by
    rw [alloc_of q b.s (linSetMode q .massOnly fresh) (by rw [h3]; exact (slots_of q .massOnly s).2.2.2)]
    cases hb : q.bdf <;> simp [linSetMode, linEff, baseSetMode, baseSlots, contAlloc, hb]
  simp [run, assemble, element, restore, integrate, store, r1, r2, r3, r4, w]

end

/-- A concrete history: two elements, dynamics with two steps of reuse, a vibration analysis in between. -/
example : Proper (⟨0, 1, 0, 1, 3, false, false⟩ : Prm ℚ) 0 ∅ ∅ .dynamic false
    [.buffers 2, .assemble true [1, 2], .buffers 0, .assemble true [2, 1], .mode .vibration, .assemble true [1, 2], .mode .dynamic, .buffers 0, .assemble false [1, 2]] := by
  simp [Proper, needsK, needsM]

end Verif.Buffers
