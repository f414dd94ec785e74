/-
Properties C14 (continuum norms), C15 (plate norms) and C16 (extreme values).
-/
import Verif.Proofs.Norms
import Verif.Spec.Norms
import Mathlib.Tactic.NormNum
import Mathlib.Tactic.IntervalCases
import Mathlib.Algebra.BigOperators.Group.List.Basic

set_option linter.unusedSectionVars false
set_option linter.unusedSimpArgs false
set_option linter.unusedVariables false

namespace Verif.Norms

open Spec

variable {K : Type*}

/-! ### C14 -/

/-- The in-plane components: for plane strain the zz component is the third of four and is left
out; all other stress vectors are kept. -/
theorem C14_plane_strain (a b c d : K) (s : List K) (rows : Nat) :
    dropZZ 3 [a, b, c, d] = [a, b, d] ∧
    (¬ (s.length = 4 ∧ rows = 3) → dropZZ rows s = s) := by
  refine ⟨rfl, fun h => ?_⟩
  unfold dropZZ
  rw [if_neg h]

/-- The projected stress has as many components as the finite element stress, and component `k` is
the interpolation of nodal component `k` (`k+1` past the zz component for plane strain). -/
theorem C14_projected [Ring K] (v N : List K) (n size k : Nat) (ps : Bool)
    (hn : size + (if ps then 1 else 0) ≤ n) (h3 : ps = true → 2 ≤ size) (hk : k < size) :
    (sigmaR v N n size ps).length = size ∧
    (sigmaR v N n size ps)[k]? =
      some (interp v N (if ps = true ∧ 2 ≤ k then k + 1 else k) n) := by
  cases ps with
  | false =>
    simp only [Bool.false_eq_true, if_false, add_zero] at hn
    have hf : (List.range n).filter (fun j => !(false && j == 2)) = List.range n := by
      simp
    have hl : (((List.range n).map fun j => interp v N j n).take size).length = size := by
      simp; omega
    unfold sigmaR
    simp only [hf, hl, Nat.sub_self, List.replicate_zero, List.append_nil, Bool.false_eq_true,
      false_and, if_false]
    refine ⟨trivial, ?_⟩
    rw [List.getElem?_take_of_lt hk, List.getElem?_map, List.getElem?_range (by omega)]
    rfl
  | true =>
    simp only [if_true] at hn
    have h3 := h3 rfl
    obtain ⟨m, rfl⟩ : ∃ m, n = 3 + m := ⟨n - 3, by omega⟩
    have hf : (List.range (3 + m)).filter (fun j => !(true && j == 2)) =
        [0, 1] ++ (List.range m).map (fun j => 3 + j) := by
      rw [List.range_add, List.filter_append, (List.filter_eq_self (l := List.map (fun x => 3 + x) (List.range m))).2]
      · rfl
      · intro a ha
        simp only [List.mem_map, List.mem_range] at ha
        obtain ⟨b, _, rfl⟩ := ha
        simp; omega
    have hl : ((([0, 1] ++ (List.range m).map (fun j => 3 + j)).map
        fun j => interp v N j (3 + m)).take size).length = size := by
      simp; omega
    unfold sigmaR
    simp only [hf, hl, Nat.sub_self, List.replicate_zero, List.append_nil]
    refine ⟨trivial, ?_⟩
    rw [List.getElem?_take_of_lt hk, List.getElem?_map]
    by_cases h2 : 2 ≤ k
    · rw [if_pos ⟨trivial, h2⟩, List.getElem?_append_right (by simpa using h2),
        List.getElem?_map, List.getElem?_range (by simp; omega)]
      simp only [List.length_cons, List.length_nil, Option.map_some]
      rw [show 3 + (k - (0 + 1 + 1)) = k + 1 by omega]
    · rw [if_neg (by simp [h2])]
      have : k = 0 ∨ k = 1 := by omega
      rcases this with rfl | rfl <;> rfl

example : sigmaR [(1 : ℚ), 2, 3, 4] [1] 4 3 true = [1, 2, 4] := by
  simp [sigmaR, interp, List.range_succ]

/-- The non-empty projections. -/
def nonEmpty (l : List (Option (List K))) : List (List K) := l.filterMap id

/-- The fields of the specification at a point, for the projection with nodal values `v`. -/
def fields [Ring K] (d : Pt K) (v : List K) : Fields K where
  comp := d.ci
  uh := dropZZ d.rows d.sh
  u := dropZZ d.rows (d.ana.getD [])
  ur := sigmaR v d.N d.nrcmp (dropZZ d.rows d.sh).length (decide (d.sh.length = 4 ∧ d.rows = 3))
  wk := fun k => d.epsz.getD k []
  fu := d.fu.getD 0
  w := d.w

/-- The stress of a field: itself, or (strains reported) the constitutive matrix times it. -/
def stress (strain : Bool) (d : Pt K) (x : List K) : List K := if strain then d.ci x else x

theorem qMain_length (ana : Bool) (n : Nat) : (qMain ana n).length = elNoFields ana n 1 := by
  unfold qMain elNoFields
  cases ana
  · simp; omega
  · have := flatMap_len 2 (fun k : Nat => [Qty.ahw k, Qty.auw k]) (List.range n) (by simp)
    simp only [if_true, List.length_append, this, List.length_range, List.length_cons,
      List.length_nil]
    omega

theorem qPrj_length (ana : Bool) (i : Nat) (h : 2 ≤ i) (n : Nat) :
    (qPrj ana).length = elNoFields ana n i := by
  unfold qPrj elNoFields
  match i, h with
  | i + 2, _ => cases ana <;> simp

/-- Each quantity occurs once in its group, so distinct quantities have distinct slots. -/
theorem C14_distinct (ana : Bool) (n : Nat) : (qMain ana n).Nodup ∧ (qPrj ana).Nodup := by
  refine ⟨?_, by cases ana <;> decide⟩
  unfold qMain
  cases ana
  · simp only [Bool.false_eq_true, if_false]
    rw [List.nodup_append]
    refine ⟨by decide, ?_, ?_⟩
    · exact List.Nodup.map (fun a b h => by simpa using h) List.nodup_range
    · intro a ha b hb
      simp only [List.mem_map] at hb
      obtain ⟨k, _, rfl⟩ := hb
      simp only [List.mem_cons, List.not_mem_nil, or_false] at ha
      rcases ha with rfl | rfl | rfl <;> simp
  · simp only [if_true]
    rw [List.nodup_append]
    refine ⟨by decide, ?_, ?_⟩
    · rw [List.nodup_flatMap]
      refine ⟨fun k _ => by simp, ?_⟩
      refine List.Pairwise.imp ?_ (List.nodup_range (n := n))
      intro a b hab
      simp only [Function.onFun, List.disjoint_cons_left, List.mem_cons, Qty.ahw.injEq,
        Qty.auw.injEq, reduceCtorEq, List.not_mem_nil, List.disjoint_nil_left, or_false]
      exact ⟨hab, by simpa using hab⟩
    · intro a ha b hb
      simp only [List.mem_flatMap, List.mem_cons, List.not_mem_nil, or_false] at hb
      obtain ⟨k, _, rfl | rfl⟩ := hb <;>
      · simp only [List.mem_cons, List.not_mem_nil, or_false] at ha
        rcases ha with rfl | rfl | rfl | rfl | rfl <;> simp

theorem flatMap_range {α β : Type*} (l : List α) (dflt : α) (f : α → List β) :
    l.flatMap f = (List.range l.length).flatMap fun k => f (l.getD k dflt) := by
  induction l using List.reverseRecOn with
  | nil => simp
  | append_singleton l a ih =>
    rw [List.flatMap_append, ih, List.length_append, List.length_singleton,
      List.range_succ, List.flatMap_append]
    congr 1
    · simp only [List.flatMap_def]; congr 1
      apply List.map_congr_left
      intro k hk
      rw [List.mem_range] at hk
      simp [List.getD_eq_getElem?_getD, List.getElem?_append_left hk]
    · simp

/-- The statements executed are, in order, those of the main group and of each non-empty
projection. -/
theorem elSteps_eq [Ring K] (strain : Bool) (d : Pt K)
    (hs : strain = true → d.ana = none ∧ d.epsz = []) :
    (elSteps strain d).map (fun o => o.getD 0) =
      ((qMain d.ana.isSome d.epsz.length).map (value (fields d []) (stress strain d))) ++
      (nonEmpty d.psol).flatMap fun v =>
        (qPrj d.ana.isSome).map (value (fields d v) (stress strain d)) := by
  unfold elSteps
  rw [List.map_append]
  congr 1
  · -- main group
    rw [flatMap_range d.epsz []]
    cases ha : d.ana with
    | none =>
      simp only [Option.map_none, List.append_nil, qMain, Option.isSome_none, Bool.false_eq_true,
        if_false, List.map_append, List.map_cons, List.map_nil, List.map_map]
      rw [show ∀ g : Nat → List (Option K), (List.range d.epsz.length).flatMap g = _ from
        fun _ => rfl]
      have : ((List.range d.epsz.length).flatMap fun k =>
          [some (ldot (dropZZ d.rows d.sh) (d.epsz.getD k []) * d.w)]) =
          (List.range d.epsz.length).map fun k =>
            some (ldot (dropZZ d.rows d.sh) (d.epsz.getD k []) * d.w) := by
        rw [List.flatMap_def]
        induction (List.range d.epsz.length) with
        | nil => rfl
        | cons x l ih => rw [List.map_cons, List.flatten_cons, ih]; rfl
      rw [this, List.map_map]
      simp only [List.cons_append, List.nil_append, List.cons.injEq]
      refine ⟨rfl, ?_, rfl, ?_⟩
      · cases hf : d.fu <;> simp [value, fields, hf]
      · apply List.map_congr_left
        intro k hk
        have : strain = false := by
          cases strain
          · rfl
          · rw [(hs rfl).2] at hk; simp at hk
        subst this
        rfl
    | some a =>
      have hstr : strain = false := by
        cases strain
        · rfl
        · rw [(hs rfl).1] at ha; simp at ha
      subst hstr
      simp only [Option.map_some, qMain, Option.isSome_some, if_true, List.map_append,
        List.map_cons, List.map_nil, List.map_flatMap]
      simp only [List.cons_append, List.nil_append, List.cons.injEq]
      refine ⟨rfl, ?_, ?_, ?_, rfl, ?_⟩
      · cases hf : d.fu <;> simp [value, fields, hf]
      · simp only [value, fields, ha]; rfl
      · simp only [value, fields, ha]; rfl
      · simp only [value, fields, ha]; rfl
  · unfold nonEmpty
    induction d.psol with
    | nil => rfl
    | cons v l ih =>
      rw [List.flatMap_cons, List.map_append, ih]
      cases v with
      | none => simp
      | some v =>
        simp only [List.filterMap_cons, id, List.flatMap_cons]
        congr 1
        cases ha : d.ana with
        | none =>
          simp only [Option.map_none, prjSteps, qPrj, Option.isSome_none]
          rfl
        | some a =>
          have hstr : strain = false := by
            cases strain
            · rfl
            · rw [(hs rfl).1] at ha; simp at ha
          subst hstr
          simp only [Option.map_some, prjSteps, qPrj, Option.isSome_some, value, fields, ha]
          rfl

/-- C14: at every integration point, the declared number of slots is exactly filled: slot `j` of
the main group receives the `j`-th main quantity and slot `j` of the `k`-th non-empty projection
the `j`-th projection quantity; the call neither fails nor leaves the array.
Missing: with strains reported instead of stresses it is only stated without analytical solution
and without functionals; see `C14_strain_violated`. -/
theorem C14_slots_partial [Ring K] (strain : Bool) (d : Pt K) (p : List K)
    (hs : strain = true → d.ana = none ∧ d.epsz = [])
    (hp : p.length = elNoFields d.ana.isSome d.epsz.length 1 +
      (nonEmpty d.psol).length * elNoFields d.ana.isSome d.epsz.length 2) :
    ∃ p', elEvalInt strain d p = .ok p' ∧ p'.length = p.length ∧
      (∀ j q, (qMain d.ana.isSome d.epsz.length)[j]? = some q →
        at' p' j = at' p j + value (fields d []) (stress strain d) q) ∧
      (∀ k v j q, (nonEmpty d.psol)[k]? = some v → (qPrj d.ana.isSome)[j]? = some q →
        at' p' (elNoFields d.ana.isSome d.epsz.length 1 +
            k * elNoFields d.ana.isSome d.epsz.length 2 + j) =
          at' p (elNoFields d.ana.isSome d.epsz.length 1 +
            k * elNoFields d.ana.isSome d.epsz.length 2 + j) +
            value (fields d v) (stress strain d) q) := by
  have hq := qMain_length d.ana.isSome d.epsz.length
  have hq2 := qPrj_length d.ana.isSome 2 (le_refl _) d.epsz.length
  have he := elSteps_eq strain d hs
  have hfl := flatMap_len (elNoFields d.ana.isSome d.epsz.length 2)
    (fun v => (qPrj d.ana.isSome).map (value (fields d v) (stress strain d)))
    (nonEmpty d.psol) (fun v _ => by rw [List.length_map, hq2])
  have hlen : (elSteps strain d).length = p.length := by
    have := congrArg List.length he
    rw [List.length_map, List.length_append, List.length_map, hq, hfl] at this
    rw [this, hp]
  obtain ⟨p', e, hl, hv⟩ := run_ok (elSteps strain d) 0 p (by omega)
  have hget : ∀ i, i < p.length → ((elSteps strain d).getD i none).getD 0 =
      ((elSteps strain d).map fun o => o.getD 0).getD i 0 := by
    intro i hi
    simp only [List.getD_eq_getElem?_getD, List.getElem?_map]
    rw [List.getElem?_eq_getElem (by omega)]
    simp
  refine ⟨p', by simp only [elEvalInt, e, Res.bind], hl, ?_, ?_⟩
  · intro j q hj
    have hjl : j < (qMain d.ana.isSome d.epsz.length).length :=
      (List.getElem?_eq_some_iff.1 hj).1
    rw [hv j, if_pos (by omega), Nat.sub_zero, hget j (by omega), he,
      List.getD_eq_getElem?_getD, List.getElem?_append_left (by rw [List.length_map]; exact hjl),
      List.getElem?_map, hj]
    rfl
  · intro k v j q hk hj
    have hjl : j < (qPrj d.ana.isSome).length := (List.getElem?_eq_some_iff.1 hj).1
    have hkl : k < (nonEmpty d.psol).length := (List.getElem?_eq_some_iff.1 hk).1
    rw [hq2] at hjl
    have hkj : k * elNoFields d.ana.isSome d.epsz.length 2 + j <
        (nonEmpty d.psol).length * elNoFields d.ana.isSome d.epsz.length 2 := by
      calc _ < (k + 1) * elNoFields d.ana.isSome d.epsz.length 2 := by rw [Nat.succ_mul]; omega
        _ ≤ _ := Nat.mul_le_mul_right _ hkl
    rw [hv, if_pos (by omega), Nat.sub_zero, hget _ (by omega), he,
      List.getD_eq_getElem?_getD, List.getElem?_append_right (by rw [List.length_map]; omega),
      List.length_map, hq, show ∀ a b c : Nat, a + b + c - a = b + c by intros; omega,
      flatMap_get _ _ _ (fun v _ => by rw [List.length_map, hq2]) k j v hk hjl,
      List.getElem?_map, hj]
    rfl

/-- Integration over a list of points: the array is the initial one plus the sum of the point
contributions, slot by slot (main group). -/
theorem C14_integral [Ring K] (pts : List (Pt K)) (ana : Bool) (n m : Nat)
    (hpt : ∀ d ∈ pts, d.ana.isSome = ana ∧ d.epsz.length = n ∧ (nonEmpty d.psol).length = m)
    (p : List K) (hp : p.length = elNoFields ana n 1 + m * elNoFields ana n 2) :
    ∃ p', pts.foldlM (m := Res) (fun p d => elEvalInt false d p) p = .ok p' ∧
      p'.length = p.length ∧
      (∀ j q, (qMain ana n)[j]? = some q → at' p' j = at' p j +
        (pts.map fun d => value (fields d []) (stress false d) q).sum) ∧
      (∀ k j q, k < m → (qPrj ana)[j]? = some q →
        at' p' (elNoFields ana n 1 + k * elNoFields ana n 2 + j) =
        at' p (elNoFields ana n 1 + k * elNoFields ana n 2 + j) +
        (pts.map fun d => value (fields d ((nonEmpty d.psol).getD k [])) (stress false d) q).sum) := by
  induction pts generalizing p with
  | nil => exact ⟨p, rfl, rfl, by simp, by simp⟩
  | cons d l ih =>
    obtain ⟨h1, h2, h3⟩ := hpt d (by simp)
    subst h1 h2 h3
    obtain ⟨p1, e1, l1, m1, q1⟩ := C14_slots_partial false d p (by simp) hp
    obtain ⟨p2, e2, l2, m2, q2⟩ := ih (fun x hx => hpt x (by simp [hx])) p1 (by rw [l1, hp])
    refine ⟨p2, ?_, by rw [l2, l1], ?_, ?_⟩
    · rw [List.foldlM_cons, e1]; exact e2
    · intro j q hj
      rw [m2 j q hj, m1 j q hj, List.map_cons, List.sum_cons, add_assoc]
    · intro k j q hk hj
      have hk' : (nonEmpty d.psol)[k]? = some ((nonEmpty d.psol).getD k []) := by
        rw [List.getD_eq_getElem?_getD, List.getElem?_eq_getElem hk]; rfl
      rw [q2 k j q hk hj, q1 k _ j q hk' hj, List.map_cons, List.sum_cons, add_assoc]

/-- With strains reported, the error of the projection relative to the analytical solution is not
the energy of the difference: a strain is subtracted from a stress (here with the constitutive
matrix `2`). -/
theorem C14_strain_violated :
    let d : Pt ℚ := {
      rows := 1, ci := (fun l => l.map (2 * ·)), sh := [1], ana := some [1],
      epsz := [], fu := none, w := 1, psol := [some [1]], N := [1], nrcmp := 1 }
    ∃ p', elEvalInt true d (List.replicate 11 0) = .ok p' ∧
      (qPrj true)[4]? = some .aur ∧ at' p' (5 + 4) = 2 ∧
      value (fields d [1]) (stress true d) .aur = 0 := by
  refine ⟨_, rfl, rfl, ?_, ?_⟩ <;>
  norm_num [at', value, fields, Fields.en, diff, dot, dropZZ, sigmaR, interp, elSteps, prjSteps,
    ldot, lsub, List.range_succ]

/-- With strains reported, a functional `a(u^h,w)` is integrated as strain times strain. -/
theorem C14_strain_functional_violated :
    let d : Pt ℚ := {
      rows := 1, ci := (fun l => l.map (2 * ·)), sh := [1], ana := none,
      epsz := [[1]], fu := none, w := 1, psol := [], N := [1], nrcmp := 1 }
    ∃ p', elEvalInt true d (List.replicate 4 0) = .ok p' ∧
      (qMain false 1)[3]? = some (.ahw 0) ∧ at' p' 3 = 1 ∧
      value (fields d []) (stress true d) (.ahw 0) = 2 := by
  refine ⟨_, rfl, rfl, ?_, ?_⟩ <;>
  norm_num [at', value, fields, Fields.en, diff, dot, dropZZ, sigmaR, interp, elSteps, prjSteps,
    ldot, lsub, List.range_succ, stress]

example : ∃ (d : Pt ℚ) (p : List ℚ), d.ana.isSome = true ∧ d.epsz.length = 2 ∧
    (nonEmpty d.psol).length = 1 ∧ d.psol.length = 2 ∧
    p.length = elNoFields d.ana.isSome d.epsz.length 1 +
      (nonEmpty d.psol).length * elNoFields d.ana.isSome d.epsz.length 2 :=
  ⟨{ rows := 3, ci := id, sh := [1, 2, 3, 4], ana := some [1, 2, 3, 4], epsz := [[1, 2, 3], [1, 1, 1]],
     fu := some 1, w := 1, psol := [none, some [1, 2, 3, 4]], N := [1], nrcmp := 4 },
   List.replicate 15 0, rfl, rfl, rfl, rfl, rfl⟩

/-- The external energy of the boundary loads goes to the same slot as that of the body loads. -/
theorem C14_boundary [Ring K] (tu : K) (p : List K) (ana : Bool) (n : Nat)
    (hp : elNoFields ana n 1 ≤ p.length) :
    (qMain ana n)[1]? = some .ext ∧
    ∃ p', elEvalBou true tu p = .ok p' ∧ p'.length = p.length ∧
      at' p' 1 = at' p 1 + tu ∧ ∀ i, i ≠ 1 → at' p' i = at' p i := by
  have h1 : 1 < p.length := by
    have : 3 ≤ elNoFields ana n 1 := by unfold elNoFields; cases ana <;> simp <;> omega
    omega
  refine ⟨by unfold qMain; cases ana <;> rfl,
    p.modify 1 (· + tu), by simp only [elEvalBou, if_pos h1, if_true], by simp, ?_, ?_⟩
  · rw [at'_modify _ _ _ _ h1, if_pos rfl]
  · intro i hi; rw [at'_modify _ _ _ _ h1, if_neg hi, add_zero]

theorem elFinLoop_ok [Field K] (m : Nat) : ∀ (fuel ip : Nat) (p : List K), m ≤ fuel → 4 ≤ ip →
    p.length = ip + m * 6 →
    ∃ p', elFinLoop fuel ip p = .ok p' ∧ p'.length = p.length ∧
      (∀ k, k < m → at' p' (ip + k * 6 + 5) = at' p (ip + k * 6 + 1) / at' p 3) ∧
      ∀ i, (∀ k, k < m → i ≠ ip + k * 6 + 5) → at' p' i = at' p i := by
  induction m with
  | zero =>
    intro fuel ip p _ _ hl
    refine ⟨p, ?_, rfl, by omega, fun _ _ => rfl⟩
    cases fuel with
    | zero => rfl
    | succ f => simp only [elFinLoop]; rw [if_neg (by omega)]
  | succ m ih =>
    intro fuel ip p hf hip hl
    obtain ⟨fuel, rfl⟩ : ∃ f, fuel = f + 1 := ⟨fuel - 1, by omega⟩
    have a1 : p[ip + 1]? = some (at' p (ip + 1)) := by
      unfold at'; rw [List.getD_eq_getElem?_getD, List.getElem?_eq_getElem (by omega)]; rfl
    have a3 : p[3]? = some (at' p 3) := by
      unfold at'; rw [List.getD_eq_getElem?_getD, List.getElem?_eq_getElem (by omega)]; rfl
    have hset : ∀ v i, at' (p.set (ip + 5) v) i = if i = ip + 5 then v else at' p i := by
      intro v i
      unfold at'
      simp only [List.getD_eq_getElem?_getD, List.getElem?_set]
      by_cases h : ip + 5 = i
      · subst h; simp [show ip + 5 < p.length by omega]
      · rw [if_neg h, if_neg (fun h' => h h'.symm)]
    obtain ⟨p', e, l', h1, h2⟩ := ih fuel (ip + 6) (p.set (ip + 5) (at' p (ip + 1) / at' p 3))
      (by omega) (by omega) (by rw [List.length_set]; omega)
    refine ⟨p', ?_, by rw [l', List.length_set], ?_, ?_⟩
    · simp only [elFinLoop]
      rw [if_pos (by omega), a1, a3]
      exact e
    · intro k hk
      cases k with
      | zero =>
        rw [h2 _ (by intro k _; omega), hset, if_pos (by omega)]
      | succ k =>
        have := h1 k (by omega)
        rw [show ip + (k + 1) * 6 + 5 = ip + 6 + k * 6 + 5 by omega, this, hset, hset,
          if_neg (by omega), if_neg (by omega),
          show ip + 6 + k * 6 + 1 = ip + (k + 1) * 6 + 1 by omega]
    · intro i hi
      rw [h2 i (by intro k hk; have := hi (k + 1) (by omega); omega), hset,
        if_neg (by have := hi 0 (by omega); omega)]

/-- C14: after integration, exactly the slot reserved for the effectivity index of each projection
is set, to the energy of `u^r-u^h` over that of `u-u^h`. -/
theorem C14_effectivity [Field K] (n m : Nat) (p : List K)
    (hp : p.length = elNoFields true n 1 + m * elNoFields true n 2) :
    (qPrj true)[5]? = some .eff ∧ (qPrj true)[1]? = some .arh ∧ (qMain true n)[3]? = some .aee ∧
    ∃ p', elFinalize true n p = .ok p' ∧ p'.length = p.length ∧
      (∀ k, k < m → at' p' (elNoFields true n 1 + k * 6 + 5) =
        at' p (elNoFields true n 1 + k * 6 + 1) / at' p 3) ∧
      ∀ i, (∀ k, k < m → i ≠ elNoFields true n 1 + k * 6 + 5) → at' p' i = at' p i := by
  refine ⟨rfl, rfl, rfl, ?_⟩
  obtain ⟨p', e, h⟩ := elFinLoop_ok m p.length (elNoFields true n 1) p
    (by rw [hp]; simp [elNoFields]; omega) (by simp [elNoFields]; omega)
    (by rw [hp]; simp [elNoFields])
  exact ⟨p', by simp only [elFinalize, if_true, e], h⟩

/-- C14: with an analytical solution every slot of the main group is printed under the name of
the quantity in it, for any number of functionals. -/
theorem C14_names (n j : Nat) (q : Qty) (h : (qMain true n)[j]? = some q) :
    elName true n 1 (j + 1) none = .ok (label n q) := by
  have hj : j < (qMain true n).length := (List.getElem?_eq_some_iff.1 h).1
  rw [qMain_length] at hj
  simp only [elNoFields, if_true] at hj
  by_cases h5 : j < 5
  · have : (qMain true n)[j]? = [Qty.ahh, .ext, .auu, .aee, .vol][j]? := by
      unfold qMain
      rw [if_pos rfl, List.getElem?_append_left (by simpa using h5)]
    rw [this] at h
    interval_cases j <;> simp only [List.getElem?_cons_zero, List.getElem?_cons_succ,
      Option.some.injEq] at h <;> subst h <;>
    · unfold elName
      simp [elPick, elNameU, label]
      try omega
  · obtain ⟨i, rfl⟩ : ∃ i, j = 5 + i := ⟨j - 5, by omega⟩
    have hq : (qMain true n)[5 + i]? =
        ((List.range n).flatMap fun k => [Qty.ahw k, Qty.auw k])[i]? := by
      unfold qMain
      rw [if_pos rfl, List.getElem?_append_right (by simp)]
      simp
    have hi : i = i / 2 * 2 + i % 2 := by omega
    rw [hq, hi, flatMap_get 2 _ _ (by simp) (i / 2) (i % 2) (i / 2)
      (List.getElem?_range (by omega)) (by omega)] at h
    unfold elName
    simp only [gt_iff_lt, show ¬ 1 < 1 by omega, if_false, if_true, and_self, and_true]
    rw [if_neg (by omega)]
    simp only [not_true_eq_false, false_and, if_false]
    have hn2 : n * 2 / 2 = n := by omega
    rw [hn2]
    by_cases hn : 1 < n
    · rw [if_pos ⟨by omega, hn⟩, show 5 + i + 1 - 5 = i + 1 by omega]
      rcases Nat.mod_two_eq_zero_or_one i with e | e
      · rw [e] at h
        simp only [List.getElem?_cons_zero, Option.some.injEq] at h
        subst h
        rw [if_pos (by omega), show (i + 1) / 2 + 1 = i / 2 + 1 by omega]
        simp only [label]
        rw [if_neg (by omega)]
      · rw [e] at h
        simp only [List.getElem?_cons_zero, List.getElem?_cons_succ, Option.some.injEq] at h
        subst h
        rw [if_neg (by omega), show (i + 1) / 2 = i / 2 + 1 by omega]
        simp only [label]
        rw [if_neg (by omega)]
    · have hn1 : n = 1 := by omega
      subst hn1
      have : i = 0 ∨ i = 1 := by omega
      rcases this with rfl | rfl <;> simp at h <;> subst h <;>
        simp [elPick, elNameU, label]

/-- C14: projections are printed under the right names, with and without analytical solution. -/
theorem C14_names_projection (ana : Bool) (n i j : Nat) (hi : 2 ≤ i) (q : Qty)
    (h : (qPrj ana)[j]? = some q) (pre : String) :
    elName ana n i (j + 1) none = .ok (label n q) ∧
    elName ana n i (j + 1) (some pre) = .ok (pre ++ " " ++ label n q) := by
  have hj : j < (qPrj ana).length := (List.getElem?_eq_some_iff.1 h).1
  have hl : (qPrj ana).length ≤ 6 := by cases ana <;> decide
  have h1 : i > 1 := by omega
  have h0 : ¬ i = 0 := by omega
  have h1' : ¬ i = 1 := by omega
  have hj6 : ¬ j + 1 > 5 + 1 := by omega
  have hj0 : ¬ j + 1 = 0 := by omega
  unfold elName
  simp only [h1, h0, h1', hj6, hj0, if_true, if_false, or_self]
  have : j < 6 := by omega
  cases ana <;> (interval_cases j) <;> simp [qPrj] at h <;> subst h <;>
    simp [elPick, elNameP, label]

/-- Without analytical solution, the first three names are right.
Missing: the functionals, see `C14_names_violated`. -/
theorem C14_names_partial (n j : Nat) (q : Qty) (hj : j < 3) (h : (qMain false n)[j]? = some q) :
    elName false n 1 (j + 1) none = .ok (label n q) := by
  have : (qMain false n)[j]? = [Qty.ahh, .ext, .vol][j]? := by
    unfold qMain
    rw [if_neg (by simp), List.getElem?_append_left (by simpa using hj)]
  rw [this] at h
  interval_cases j <;> simp only [List.getElem?_cons_zero, List.getElem?_cons_succ,
      Option.some.injEq] at h <;> subst h <;>
    · unfold elName
      simp [elPick, elNameU, label]
      try omega

theorem wname_inj (a b : Nat) (h : "a(u^h,w" ++ toString a ++ ")" = "a(u^h,w" ++ toString b ++ ")") :
    a = b := by
  have := congrArg String.toList h
  simp only [String.toList_append, List.append_cancel_right_eq, List.append_cancel_left_eq] at this
  rw [Nat.toString_eq_ofList_toDigits, Nat.toString_eq_ofList_toDigits, String.toList_ofList,
    String.toList_ofList] at this
  have := congrArg (fun l => Nat.ofDigitChars 10 l 0) this
  simpa [Nat.ofDigitChars_ten_toDigits] using this

/-- Without analytical solution, *every* functional is printed under a wrong name. -/
theorem C14_names_violated (n k : Nat) (hk : k < n) :
    (qMain false n)[3 + k]? = some (.ahw k) ∧
    elName false n 1 (3 + k + 1) none ≠ .ok (label n (.ahw k)) := by
  constructor
  · unfold qMain
    rw [if_neg (by simp), List.getElem?_append_right (by simp)]
    simp [hk]
  · unfold elName
    simp only [gt_iff_lt, show ¬ 1 < 1 by omega, if_false, if_true, Bool.false_eq_true, and_false,
      not_false_eq_true, true_and]
    rw [if_neg (by omega), if_neg (show ¬ (2 < 3 + k + 1 ∧ 3 + k + 1 < 4) by omega)]
    by_cases h2 : 2 ≤ k
    · rw [if_pos ⟨by omega, by omega⟩]
      simp only [label]
      rw [if_neg (by omega)]
      intro h
      have := wname_inj _ _ (Res.ok.inj h)
      omega
    · rw [if_neg (by omega), if_neg (by simp)]
      have : k = 0 ∨ k = 1 := by omega
      have hne : ∀ (x y : String), x.toList.getLast? ≠ y.toList.getLast? →
          (Res.ok x : Res String) ≠ .ok y := by
        intro x y h e; apply h; rw [Res.ok.inj e]
      rcases this with rfl | rfl
      · simp only [label, elPick, elNameU]
        apply hne
        split_ifs
        · decide
        · rw [String.toList_append, List.getLast?_append]; decide
      · simp only [label, elPick, elNameU]
        apply hne
        rw [if_neg (by omega)]
        rw [String.toList_append, List.getLast?_append]; decide

example : elName false 3 1 6 none = .ok "a(u^h,w1)" ∧ label 3 (.ahw 2) = "a(u^h,w3)" := by
  decide +kernel

end Verif.Norms
