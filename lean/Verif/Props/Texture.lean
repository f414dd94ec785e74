/-
Properties C05 and C65: the texture material.
-/
import Verif.Model.Texture
import Mathlib.Tactic.Linarith
import Mathlib.Tactic.NormNum
import Mathlib.Tactic.Positivity
import Mathlib.Tactic.NormNum.Inv
import Mathlib.Data.Rat.Floor

set_option linter.unusedSectionVars false

namespace Verif.Texture

section keys
variable {K : Type*} [LinearOrder K] {M : Type*}

theorem keyLt_trans {a b c : K × K} (h : keyLt a b) (h' : keyLt b c) : keyLt a c := by
  rcases h with h | ⟨h1, h2⟩ <;> rcases h' with h' | ⟨h1', h2'⟩
  · exact Or.inl (h.trans h')
  · exact Or.inl (h1' ▸ h)
  · exact Or.inl (h1 ▸ h')
  · exact Or.inr ⟨h1.trans h1', h2.trans h2'⟩

theorem keyLt_irrefl (a : K × K) : ¬ keyLt a a := by
  rintro (h | ⟨_, h⟩) <;> exact lt_irrefl _ h

theorem keyLt_tri {a b : K × K} (h : ¬ keyLt a b) (h' : ¬ keyLt b a) : a = b := by
  unfold keyLt at h h'
  push Not at h h'
  have e1 : a.1 = b.1 := le_antisymm h'.1 h.1
  exact Prod.ext e1 (le_antisymm (h'.2 e1.symm) (h.2 e1))

/-- The map is stored in strictly increasing key order. -/
def Sorted (l : List ((K × K) × M)) : Prop := l.Pairwise (fun a b => keyLt a.1 b.1)

theorem mem_mapInsert {k : K × K} {m : M} {l : List ((K × K) × M)} {x : (K × K) × M}
    (h : x ∈ mapInsert k m l) : x.1 = k ∨ x ∈ l := by
  induction l with
  | nil => simp [mapInsert] at h; left; rw [h]
  | cons y ys ih =>
    obtain ⟨k', m'⟩ := y
    simp only [mapInsert] at h
    split_ifs at h with h1 h2
    · simp at h; rcases h with h | h | h
      · left; rw [h]
      · right; simp [h]
      · right; simp [h]
    · simp at h; rcases h with h | h
      · right; simp [h]
      · rcases ih h with h | h
        · exact Or.inl h
        · right; simp [h]
    · simp at h; rcases h with h | h
      · left; rw [h]; exact (keyLt_tri h1 h2).symm
      · right; simp [h]

theorem mapInsert_sorted {k : K × K} {m : M} {l : List ((K × K) × M)} (h : Sorted l) :
    Sorted (mapInsert k m l) := by
  induction l with
  | nil => simp [mapInsert, Sorted]
  | cons y ys ih =>
    obtain ⟨k', m'⟩ := y
    unfold Sorted at h ih ⊢
    rw [List.pairwise_cons] at h
    simp only [mapInsert]
    split_ifs with h1 h2
    · rw [List.pairwise_cons, List.pairwise_cons]
      refine ⟨?_, h⟩
      intro a ha
      rcases List.mem_cons.mp ha with rfl | ha
      · exact h1
      · exact keyLt_trans h1 (h.1 a ha)
    · rw [List.pairwise_cons]
      refine ⟨fun a ha => ?_, ih h.2⟩
      rcases mem_mapInsert ha with e | ha
      · rw [e]; exact h2
      · exact h.1 a ha
    · rw [List.pairwise_cons]
      exact ⟨h.1, h.2⟩

theorem find_spec {I : K} {l : List ((K × K) × M)} (hs : Sorted l) (m : M) :
    (l.find? (fun a => decide (inRange I a.1))).map (·.2) = some m ↔
      ∃ k, (k, m) ∈ l ∧ inRange I k ∧ ∀ k' m', (k', m') ∈ l → inRange I k' → ¬ keyLt k' k := by
  induction l with
  | nil => simp
  | cons y ys ih =>
    obtain ⟨k0, m0⟩ := y
    unfold Sorted at hs ih
    rw [List.pairwise_cons] at hs
    by_cases h0 : inRange I k0
    · rw [List.find?_cons_of_pos (by simpa using h0)]
      constructor
      · intro h
        have : m0 = m := by simpa using h
        subst this
        refine ⟨k0, by simp, h0, fun k' m' hm _ => ?_⟩
        rcases List.mem_cons.mp hm with e | hm
        · have : k' = k0 := congrArg Prod.fst e
          rw [this]; exact keyLt_irrefl _
        · exact fun hlt => keyLt_irrefl _ (keyLt_trans hlt (hs.1 _ hm))
      · rintro ⟨k, hm, hr, hmin⟩
        rcases List.mem_cons.mp hm with e | hm
        · obtain ⟨-, rfl⟩ := Prod.mk.inj e; rfl
        · exact absurd (hs.1 _ hm) (hmin k0 m0 (by simp) h0)
    · rw [List.find?_cons_of_neg (by simpa using h0), ih hs.2]
      constructor
      · rintro ⟨k, hm, hr, hmin⟩
        refine ⟨k, List.mem_cons_of_mem _ hm, hr, fun k' m' h' hr' => ?_⟩
        rcases List.mem_cons.mp h' with e | h'
        · exact absurd ((Prod.mk.inj e).1 ▸ hr') h0
        · exact hmin k' m' h' hr'
      · rintro ⟨k, hm, hr, hmin⟩
        rcases List.mem_cons.mp hm with e | hm
        · exact absurd ((Prod.mk.inj e).1 ▸ hr) h0
        · exact ⟨k, hm, hr, fun k' m' h' => hmin k' m' (List.mem_cons_of_mem _ h')⟩

end keys

section lookup
variable {K : Type*} [Field K] [LinearOrder K] [IsStrictOrderedRing K] [FloorRing K] {M : Type*}

/-- The image is a `w × h` table (what `parse` creates at line 35). -/
def Rect (tex : List (List K)) (w h : Nat) : Prop :=
  tex.length = w ∧ ∀ row ∈ tex, row.length = h

/-- The map of materials is what some sequence of `materials[range] = mat` assignments creates. -/
def Built (mats : List ((K × K) × M)) : Prop :=
  ∃ ops : List ((K × K) × M), mats = ops.foldl (fun l o => mapInsert o.1 o.2 l) []

theorem built_sorted {mats : List ((K × K) × M)} (h : Built mats) : Sorted mats := by
  obtain ⟨ops, rfl⟩ := h
  have : ∀ l : List ((K × K) × M), Sorted l →
      Sorted (ops.foldl (fun l o => mapInsert o.1 o.2 l) l) := by
    induction ops with
    | nil => intro l h; exact h
    | cons o os ih => intro l h; exact ih _ (mapInsert_sorted h)
  exact this [] List.Pairwise.nil

theorem toInt_unit {u : K} {n : Nat} (hn : 0 < n) (hb : n < 2 ^ 31) (h0 : 0 ≤ u) (h1 : u ≤ 1) :
    ∃ i : Nat, toInt (u * (((n : Int) - 1 : Int) : K)) = .ok (i : Int) ∧ i < n ∧
      (i : K) ≤ u * ((n : K) - 1) ∧ u * ((n : K) - 1) < i + 1 := by
  have e : (((n : Int) - 1 : Int) : K) = (n : K) - 1 := by push_cast; ring
  have hn1 : (1 : K) ≤ n := by exact_mod_cast hn
  have hx0 : 0 ≤ u * ((n : K) - 1) := mul_nonneg h0 (by linarith)
  have hx1 : u * ((n : K) - 1) ≤ (n : K) - 1 := by nlinarith
  have hf0 : 0 ≤ ⌊u * ((n : K) - 1)⌋ := Int.floor_nonneg.mpr hx0
  have hf1 : ⌊u * ((n : K) - 1)⌋ < n := by
    rw [Int.floor_lt]; push_cast; linarith
  refine ⟨⌊u * ((n : K) - 1)⌋.toNat, ?_, by omega, ?_, ?_⟩
  · rw [e]; unfold toInt
    simp only [if_pos hx0]
    rw [Int.toNat_of_nonneg hf0, if_pos]
    constructor
    · omega
    · have : (n : Int) < 2 ^ 31 := by exact_mod_cast hb
      omega
  · have : ((⌊u * ((n : K) - 1)⌋.toNat : Int) : K) = ⌊u * ((n : K) - 1)⌋ := by
      rw [Int.toNat_of_nonneg hf0]
    rw [show ((⌊u * ((n : K) - 1)⌋.toNat : Nat) : K) = ((⌊u * ((n : K) - 1)⌋.toNat : Int) : K) by
      push_cast; rfl, this]
    exact Int.floor_le _
  · rw [show ((⌊u * ((n : K) - 1)⌋.toNat : Nat) : K) = ((⌊u * ((n : K) - 1)⌋.toNat : Int) : K) by
      push_cast; rfl, Int.toNat_of_nonneg hf0]
    exact Int.lt_floor_add_one _

/-- **C05.** For a point of the parameter domain `[0,1]²` the lookup reads exactly one pixel `(i,j)`,
inside the image and such that the point lies in the pixel's cell, and it returns material `m` exactly
when `m` has the smallest key among the materials whose interval contains the pixel value.
It returns none exactly when no interval contains the value. -/
theorem C05_lookup (tex : List (List K)) (w h : Nat) (hw : 0 < w) (hh : 0 < h)
    (hwb : w < 2 ^ 31) (hhb : h < 2 ^ 31) (hr : Rect tex w h)
    (mats : List ((K × K) × M)) (hm : Built mats) (u v : K)
    (hu : 0 ≤ u ∧ u ≤ 1) (hv : 0 ≤ v ∧ v ≤ 1) :
    ∃ (i j : Nat) (hi : i < tex.length) (hj : j < tex[i].length) (r : Option M),
      (i : K) ≤ u * ((w : K) - 1) ∧ u * ((w : K) - 1) < i + 1 ∧
      (j : K) ≤ v * ((h : K) - 1) ∧ v * ((h : K) - 1) < j + 1 ∧
      findMaterial tex mats u v = .ok r ∧
      (∀ m, r = some m ↔ ∃ k, (k, m) ∈ mats ∧ (k.1 ≤ tex[i][j] ∧ tex[i][j] ≤ k.2) ∧
        ∀ k' m', (k', m') ∈ mats → (k'.1 ≤ tex[i][j] ∧ tex[i][j] ≤ k'.2) →
          ¬ (k'.1 < k.1 ∨ (k'.1 = k.1 ∧ k'.2 < k.2))) ∧
      (r = none ↔ ∀ k m, (k, m) ∈ mats → ¬ (k.1 ≤ tex[i][j] ∧ tex[i][j] ≤ k.2)) := by
  obtain ⟨hlen, hrow⟩ := hr
  obtain ⟨front, rest, rfl⟩ : ∃ f r, tex = f :: r := by
    cases tex with
    | nil => simp at hlen; omega
    | cons f r => exact ⟨f, r, rfl⟩
  obtain ⟨i, hi1, hi2, hi3, hi4⟩ := toInt_unit (n := w) hw hwb hu.1 hu.2
  obtain ⟨j, hj1, hj2, hj3, hj4⟩ := toInt_unit (n := h) hh hhb hv.1 hv.2
  have hi : i < (front :: rest).length := by omega
  have hrl : (front :: rest)[i].length = h := hrow _ (List.getElem_mem hi)
  have hj : j < (front :: rest)[i].length := by omega
  refine ⟨i, j, hi, hj, (mats.find? (fun a => decide (inRange ((front :: rest)[i][j]) a.1))).map (·.2),
    hi3, hi4, hj3, hj4, ?_, find_spec (built_sorted hm), ?_⟩
  · have hf : front.length = h := hrow _ (by simp)
    unfold findMaterial
    simp only [hlen, hf, hi1, hj1, Res.bind]
    rw [if_neg (by omega)]
    simp only [Int.toNat_natCast, List.getElem?_eq_getElem hi, List.getElem?_eq_getElem hj]
  · simp only [Option.map_eq_none_iff, List.find?_eq_none, decide_eq_true_eq, Prod.forall]
    exact Iff.rfl

/-- The hypotheses of `C05_lookup` are met by a 2×2 image with two overlapping ranges. -/
example : Rect ([[0, 1 / 2], [1 / 4, 1]] : List (List ℚ)) 2 2 ∧
    Built (mapInsert ((0 : ℚ), (1 / 2 : ℚ)) "a" (mapInsert (1 / 4, 1) "b" [])) :=
  ⟨⟨rfl, by simp⟩, ⟨[((1 / 4, 1), "b"), ((0, 1 / 2), "a")], rfl⟩⟩

/-- **C05 (no out-of-range read).** Whatever the parameters, the lookup never reads outside the image;
the only undefined behaviour is a parameter so large that the pixel index is not an `int`. -/
theorem C05_no_ub (tex : List (List K)) (w h : Nat) (hr : Rect tex w h)
    (mats : List ((K × K) × M)) (u v : K)
    (hu : (toInt (u * (((w : Int) - 1 : Int) : K))).isUB = false)
    (hv : (toInt (v * (((h : Int) - 1 : Int) : K))).isUB = false) :
    (findMaterial tex mats u v).isUB = false := by
  obtain ⟨hlen, hrow⟩ := hr
  cases htex : tex with
  | nil => rfl
  | cons front rest =>
    have hf : front.length = h := hrow _ (by simp [htex])
    have hl : (front :: rest).length = w := by rw [← htex, hlen]
    unfold findMaterial
    simp only [hl, hf]
    cases hi : toInt (u * (((w : Int) - 1 : Int) : K)) with
    | ub => rw [hi] at hu; simp at hu
    | fail => rfl
    | ok i =>
      cases hj : toInt (v * (((h : Int) - 1 : Int) : K)) with
      | ub => rw [hj] at hv; simp at hv
      | fail => rfl
      | ok j =>
        simp only [Res.bind]
        split_ifs with hc
        · rfl
        · push Not at hc
          obtain ⟨c1, c2, c3, c4⟩ := hc
          have b1 : i.toNat < (front :: rest).length := by rw [hl]; omega
          rw [List.getElem?_eq_getElem b1]
          simp only []
          have b2 : (front :: rest)[i.toNat].length = h := by
            apply hrow; rw [htex]; exact List.getElem_mem b1
          rw [List.getElem?_eq_getElem (by rw [b2]; omega)]
          rfl

/-- **C05 (forwarding).** When no material matches, the evaluation fails; otherwise it is the
evaluation of the material found. -/
theorem C05_lame (tex : List (List K)) (mats : List ((K × K) × LinIso.Mat K)) (fe : LinIso.FE K)
    (X : LinIso.Pt K) (r : Option (LinIso.Mat K)) (h : findMaterial tex mats fe.u fe.v = .ok r) :
    lame tex mats fe X = (match r with | none => .fail | some m => (LinIso.lame m fe X).2) := by
  unfold lame; cases r <;> simp only [h]

end lookup

section image
variable {K : Type*} [Field K]

/-- Specification: channel `c` of the pixel in column `i`, row `j` of a row-major image. -/
def pixelSpec (data : List Nat) (w nch i j c : Nat) : K :=
  ((data.getD ((j * w + i) * nch + c) 0 : Nat) : K) / 255

/-- The pixels read so far: those before position `p` in row-major channel order. -/
def ReadUpTo (data : List Nat) (w h nch p : Nat) (s : Img K) : Prop :=
  s.ptr = p ∧ ∀ i j c, i < w → j < h → c < nch → (j * w + i) * nch + c < p →
    s.px i j c = pixelSpec data w nch i j c

theorem pos_inj {w nch i j c i' j' c' : Nat} (hi : i < w) (hi' : i' < w) (hc : c < nch)
    (hc' : c' < nch) (h : (j * w + i) * nch + c = (j' * w + i') * nch + c') :
    i = i' ∧ j = j' ∧ c = c' := by
  have hn : 0 < nch := by omega
  have hw : 0 < w := by omega
  have e1 : ((j * w + i) * nch + c) / nch = j * w + i := by
    rw [Nat.add_comm, Nat.add_mul_div_right _ _ hn, Nat.div_eq_of_lt hc]; omega
  have e2 : ((j' * w + i') * nch + c') / nch = j' * w + i' := by
    rw [Nat.add_comm, Nat.add_mul_div_right _ _ hn, Nat.div_eq_of_lt hc']; omega
  have e : j * w + i = j' * w + i' := by rw [← e1, ← e2, h]
  have f1 : (j * w + i) / w = j := by
    rw [Nat.add_comm, Nat.add_mul_div_right _ _ hw, Nat.div_eq_of_lt hi]; omega
  have f2 : (j' * w + i') / w = j' := by
    rw [Nat.add_comm, Nat.add_mul_div_right _ _ hw, Nat.div_eq_of_lt hi']; omega
  have ej : j = j' := by rw [← f1, ← f2, e]
  subst ej
  have ei : i = i' := by omega
  subst ei
  exact ⟨rfl, rfl, by omega⟩

/-- **C05 (image).** For an image of `w × h` pixels with up to four channels and a buffer of the right
size, reading it involves no out-of-range access, and every pixel channel of the table is the
byte of the row-major image buffer divided by 255. -/
theorem C05_image (data : List Nat) (w h nch : Nat) (hc : nch ≤ 4) (hd : data.length = h * w * nch) :
    ∃ s : Img K, readImage data w h nch = .ok s ∧
      ∀ i j c, i < w → j < h → c < nch → s.px i j c = pixelSpec data w nch i j c := by
  have key : ∃ s : Img K, readImage data w h nch = .ok s ∧
      ReadUpTo data w h nch (h * w * nch) s := by
    unfold readImage
    have := loop_inv (S := Img K)
      (fun j => loop (fun i => loop (fun c => readOne data w h i j c) nch) w)
      (fun j s => ReadUpTo data w h nch (j * w * nch) s) h ⟨fun _ _ _ => 0, 0⟩
      ⟨by simp, fun i j c _ _ _ hp => by omega⟩ ?_
    · exact this
    intro j s hj hs
    have := loop_inv (S := Img K)
      (fun i => loop (fun c => readOne data w h i j c) nch)
      (fun i s => ReadUpTo data w h nch ((j * w + i) * nch) s) w s (by simpa using hs) ?_
    · obtain ⟨s', e, p⟩ := this
      exact ⟨s', e, by rw [Nat.succ_mul]; exact p⟩
    intro i s hi hs
    have := loop_inv (S := Img K)
      (fun c => readOne data w h i j c)
      (fun c s => ReadUpTo data w h nch ((j * w + i) * nch + c) s) nch s (by simpa using hs) ?_
    · obtain ⟨s', e, p⟩ := this
      refine ⟨s', e, ?_⟩
      rw [← Nat.add_assoc, Nat.succ_mul]; exact p
    intro c s hc' hs
    obtain ⟨hp, hpx⟩ := hs
    have hlt : (j * w + i) * nch + c < data.length := by
      rw [hd]
      have h1 : j * w + i + 1 ≤ h * w := by
        calc j * w + i + 1 ≤ j * w + w := by omega
          _ = (j + 1) * w := by rw [Nat.succ_mul]
          _ ≤ h * w := Nat.mul_le_mul_right _ hj
      calc (j * w + i) * nch + c < (j * w + i) * nch + nch := by omega
        _ = (j * w + i + 1) * nch := by rw [Nat.succ_mul]
        _ ≤ h * w * nch := Nat.mul_le_mul_right _ h1
    unfold readOne
    rw [if_pos ⟨hi, hj, by omega⟩, hp, List.getElem?_eq_getElem hlt]
    refine ⟨_, rfl, rfl, ?_⟩
    intro i' j' c' hi' hj' hc'' hlt'
    show (if i' = i ∧ j' = j ∧ c' = c then _ else s.px i' j' c') = _
    by_cases he : i' = i ∧ j' = j ∧ c' = c
    · rw [if_pos he]
      obtain ⟨rfl, rfl, rfl⟩ := he
      unfold pixelSpec
      rw [List.getD_eq_getElem?_getD, List.getElem?_eq_getElem hlt]; rfl
    · rw [if_neg he]
      apply hpx i' j' c' hi' hj' hc''
      rcases Nat.lt_or_ge ((j' * w + i') * nch + c') ((j * w + i) * nch + c) with h | h
      · exact h
      · exact absurd (pos_inj hi' hi hc'' hc' (by omega)) he
  obtain ⟨s, e, hs⟩ := key
  refine ⟨s, e, fun i j c hi hj hc' => hs.2 i j c hi hj hc' ?_⟩
  have h1 : j * w + i + 1 ≤ h * w := by
    calc j * w + i + 1 ≤ j * w + w := by omega
      _ = (j + 1) * w := by rw [Nat.succ_mul]
      _ ≤ h * w := Nat.mul_le_mul_right _ hj
  calc (j * w + i) * nch + c < (j * w + i) * nch + nch := by omega
    _ = (j * w + i + 1) * nch := by rw [Nat.succ_mul]
    _ ≤ h * w * nch := Nat.mul_le_mul_right _ h1

example : ∃ data : List Nat, data.length = 2 * 3 * 4 ∧ (4 : Nat) ≤ 4 :=
  ⟨List.replicate 24 17, by simp, le_refl _⟩

end image

/-! ### C65: lifetime of the function objects -/

section ownership

/-- **C65 violated (lifetime).** A texture with a single range whose stiffness is a function: after
parsing, the function object is already deleted, and the first lookup is undefined behaviour. -/
theorem C65_dangling_violated :
    ∃ h m, parse (K := ℚ) ⟨1, 0, none⟩ [{ min := some 0, max := some 1, stiffness := true }]
        = .ok (h, m) ∧ h.live = [] ∧ (∃ o, ((0, 1), o) ∈ m ∧ (callE h o).isUB = true) ∧
      (lookup (1 / 2) h m).isUB = true := by
  refine ⟨⟨1, []⟩, [((0, 1), ⟨1, 0, some 0⟩)], by rfl, rfl, ⟨⟨1, 0, some 0⟩, by simp, by rfl⟩, by rfl⟩

/-- **C65 violated (own function).** Two ranges with a stiffness function each end up sharing the first
one: the second function is never created. -/
theorem C65_shared_violated :
    let (_, _, m) := parseRanges (K := ℚ)
      [{ min := some 0, max := some (1 / 2), stiffness := true },
       { min := some (1 / 2), max := some 1, stiffness := true }] (0, 0) ⟨1, 0, none⟩ ⟨0, []⟩ []
    m = [((0, 1 / 2), ⟨1, 0, some 0⟩), ((1 / 2, 1), ⟨1, 0, some 0⟩)] := by
  decide +kernel

variable {K : Type*} [Field K] [LinearOrder K]

theorem parseRanges_none (rs : List (RangeElem K)) (hrs : ∀ r ∈ rs, r.stiffness = false)
    (range : K × K) (mat : Obj K) (hm : mat.Efunc = none) (h : Heap) (m : List ((K × K) × Obj K))
    (hmm : ∀ x ∈ m, x.2.Efunc = none) :
    (parseRanges rs range mat h m).1.Efunc = none ∧ (parseRanges rs range mat h m).2.1 = h ∧
      ∀ x ∈ (parseRanges rs range mat h m).2.2, x.2.Efunc = none := by
  induction rs generalizing range mat m with
  | nil => exact ⟨hm, rfl, hmm⟩
  | cons r rs ih =>
    have hr := hrs r (by simp)
    have hp : (mat.parse h r).1.Efunc = none ∧ (mat.parse h r).2 = h := by
      unfold Obj.parse
      simp only [hr, Bool.false_eq_true, false_and, if_false, and_true]
      split_ifs <;> exact hm
    simp only [parseRanges]
    have := ih (fun r hr => hrs r (by simp [hr])) (r.min.getD range.1, r.max.getD range.2)
      (mat.parse h r).1 hp.1 (mapInsert (r.min.getD range.1, r.max.getD range.2) (mat.parse h r).1 m) ?_
    · rw [hp.2]; exact this
    · generalize (mat.parse h r).1 = o at hp
      generalize (r.min.getD range.1, r.max.getD range.2) = k
      clear ih
      induction m with
      | nil => simp [mapInsert]; exact hp.1
      | cons y ys ih2 =>
        obtain ⟨k', o'⟩ := y
        intro x hx
        simp only [mapInsert] at hx
        split_ifs at hx
        · rcases List.mem_cons.mp hx with rfl | hx
          · exact hp.1
          · exact hmm x hx
        · rcases List.mem_cons.mp hx with rfl | hx
          · exact hmm _ (by simp)
          · exact ih2 (fun x hx => hmm x (by simp [hx])) x hx
        · rcases List.mem_cons.mp hx with rfl | hx
          · exact hp.1
          · exact hmm x (by simp [hx])

/-- **C65, partial** (missing: ranges with property functions). When every range is given by constants
only, parsing and any number of lookups, in any order, are free of undefined behaviour and the
lookup returns the first entry whose interval contains the value. -/
theorem C65_constants_partial (dflt : Obj K) (hd : dflt.Efunc = none) (rs : List (RangeElem K))
    (hrs : ∀ r ∈ rs, r.stiffness = false) :
    ∃ h m, parse dflt rs = .ok (h, m) ∧
      ∀ I : K, ∃ r, lookup I h m = .ok (h, r) ∧
        r = (m.find? (fun a => decide (a.1.1 ≤ I ∧ I ≤ a.1.2))).map (·.2) ∧
        ∀ o, r = some o → (callE h o) = .ok () := by
  obtain ⟨h1, h2, h3⟩ := parseRanges_none rs hrs (0, 0) dflt hd ⟨0, []⟩ [] (by simp)
  refine ⟨⟨0, []⟩, (parseRanges rs (0, 0) dflt ⟨0, []⟩ []).2.2, ?_, ?_⟩
  · unfold parse
    simp only [h1, h2, Heap.delete]
  · intro I
    generalize (parseRanges rs (0, 0) dflt ⟨0, []⟩ []).2.2 = m at h3
    induction m with
    | nil => exact ⟨none, rfl, rfl, by simp⟩
    | cons y ys ih =>
      obtain ⟨k, o⟩ := y
      have ho : o.Efunc = none := h3 (k, o) (by simp)
      by_cases hk : inRange I k
      · refine ⟨some o, ?_, ?_, ?_⟩
        · simp only [lookup, ho, Heap.delete, if_pos hk]
        · rw [List.find?_cons_of_pos (by simpa [inRange] using hk)]; rfl
        · intro o' e; cases e; simp only [callE, ho]
      · obtain ⟨r, e1, e2, e3⟩ := ih (fun x hx => h3 x (by simp [hx]))
        refine ⟨r, ?_, ?_, e3⟩
        · simp only [lookup, ho, Heap.delete, if_neg hk, e1]
        · rw [List.find?_cons_of_neg (by simpa [inRange] using hk)]; exact e2

example : ∀ r ∈ ([{ min := some 0, max := some 1, E := some 7 }] : List (RangeElem ℚ)),
    r.stiffness = false := by simp

end ownership

end Verif.Texture
