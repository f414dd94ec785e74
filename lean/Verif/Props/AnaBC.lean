/-
C58: analytical boundary conditions are resolved, and functions of the analytical solution are never handed to the library for deletion.
-/
import Verif.Model.AnaBC
import Mathlib.Data.Fin.VecNotation
import Mathlib.Tactic.FinCases
set_option linter.unusedSectionVars false
set_option linter.unusedSimpArgs false
set_option linter.unusedVariables false

namespace Verif.AnaBC

/-! ### Specification -/

/-- The kind of condition a code stands for: deflection below 100, rotation about one axis from 100, about the other from 200. -/
def kind (c : Nat) : Fin 3 := if 200 ≤ c then 2 else if 100 ≤ c then 1 else 0

/-- The field of the analytical solution that belongs to a kind of condition. -/
def field (sol : PlateSol) : Fin 3 → Option Nat := ![sol.w, sol.thetaX, sol.thetaY]

/-- The first code of a kind among the analytical conditions of the model. -/
def firstCode (k : Fin 3) : List Property → Option Nat
  | [] => none
  | p :: l => if p.pcode = .anasol ∧ p.pindx ≠ 0 ∧ kind p.pindx.natAbs = k then some p.pindx.natAbs else firstCode k l

/-- What should become of a condition when only one code of each kind can be served. -/
def resolved (sol : PlateSol) (all : List Property) (p : Property) : Property :=
  if p.pcode = .anasol ∧ p.pindx ≠ 0 then
    if (field sol (kind p.pindx.natAbs)).isSome ∧ firstCode (kind p.pindx.natAbs) all = some p.pindx.natAbs then ⟨.inhom, p.pindx⟩
    else ⟨.undefined, p.pindx⟩
  else p

/-- No function of the analytical solution is in the map. -/
def NoSol (m : Nat → Option Fun) : Prop := ∀ c n, m c ≠ some (.sol n)

/-! ### The loop -/

def codeOf (s : St) : Fin 3 → Nat := ![s.a0, s.a1, s.a2]

/-- The code served for a kind in the end. -/
def eff (sol : PlateSol) (s : St) (k : Fin 3) (l : List Property) : Option Nat :=
  if codeOf s k ≠ 0 then some (codeOf s k) else if (field sol k).isSome then firstCode k l else none

structure Good (sol : PlateSol) (s : St) : Prop where
  fld : ∀ k, codeOf s k ≠ 0 → (field sol k).isSome
  knd : ∀ k, codeOf s k ≠ 0 → kind (codeOf s k) = k

theorem firstCode_kind {k : Fin 3} {l : List Property} {c : Nat} (h : firstCode k l = some c) : kind c = k ∧ c ≠ 0 := by
  induction l with
  | nil => cases h
  | cons p l ih =>
    unfold firstCode at h
    split_ifs at h with hp
    · obtain rfl := Option.some.inj h
      exact ⟨hp.2.2, by have := hp.2.1; omega⟩
    · exact ih h

theorem resolve_step (sol : PlateSol) (p : Property) (s : St) (hp : p.pcode = .anasol) (hi : p.pindx ≠ 0) :
    let c := p.pindx.natAbs
    let k := kind c
    (codeOf s k = c → resolve sol p s = (⟨.inhom, p.pindx⟩, s)) ∧
    (codeOf s k ≠ c → codeOf s k = 0 → ∀ f, field sol k = some f → ∃ s', resolve sol p s = (⟨.inhom, p.pindx⟩, s') ∧
      s'.scalars = put s.scalars c (some (.sol f)) ∧ codeOf s' k = c ∧ ∀ j, j ≠ k → codeOf s' j = codeOf s j) ∧
    (codeOf s k ≠ c → (codeOf s k ≠ 0 ∨ field sol k = none) → resolve sol p s = (⟨.undefined, p.pindx⟩, s)) := by
  intro c k
  have hc : 0 < c := by simp only [c]; omega
  have hc' : p.pindx.natAbs = c := rfl
  have hkk : k = kind c := rfl
  unfold resolve
  rw [if_pos hp]
  simp only [hc']
  clear_value k c
  by_cases h2 : 200 ≤ c
  · have hk : k = 2 := by simp only [hkk, kind, if_pos h2]
    simp only [show c ≥ 200 from h2, if_true, hk]
    have e : codeOf s 2 = s.a2 := rfl
    have e' : field sol 2 = sol.thetaY := rfl
    rw [e, e']
    refine ⟨?_, ?_, ?_⟩
    · intro h; rw [if_pos h]
    · intro h h0 f hf
      rw [if_neg h, h0, hf]
      refine ⟨_, rfl, rfl, rfl, ?_⟩
      intro j hj
      fin_cases j
      · rfl
      · rfl
      · exact absurd rfl hj
    · intro h h0
      rw [if_neg h]
      rcases h0 with h0 | h0
      · cases ha : s.a2 with
        | zero => exact absurd ha h0
        | succ n => rfl
      · rw [h0]
        cases s.a2 <;> rfl
  · by_cases h1 : 100 ≤ c
    · have hk : k = 1 := by simp only [hkk, kind, if_neg h2, if_pos h1]
      have e0 : ¬ c ≥ 200 := h2
      simp only [e0, if_false, show c ≥ 100 from h1, if_true, hk]
      have e : codeOf s 1 = s.a1 := rfl
      have e' : field sol 1 = sol.thetaX := rfl
      rw [e, e']
      refine ⟨?_, ?_, ?_⟩
      · intro h; rw [if_pos h]
      · intro h h0 f hf
        rw [if_neg h, h0, hf]
        refine ⟨_, rfl, rfl, rfl, ?_⟩
        intro j hj
        fin_cases j
        · rfl
        · exact absurd rfl hj
        · rfl
      · intro h h0
        rw [if_neg h]
        rcases h0 with h0 | h0
        · cases ha : s.a1 with
          | zero => exact absurd ha h0
          | succ n => rfl
        · rw [h0]
          cases s.a1 <;> rfl
    · have hk : k = 0 := by simp only [hkk, kind, if_neg h2, if_neg h1]
      have e0 : ¬ c ≥ 200 := h2
      have e1 : ¬ c ≥ 100 := h1
      simp only [e0, e1, if_false, show c > 0 from hc, if_true, hk]
      have e : codeOf s 0 = s.a0 := rfl
      have e' : field sol 0 = sol.w := rfl
      rw [e, e']
      refine ⟨?_, ?_, ?_⟩
      · intro h; rw [if_pos h]
      · intro h h0 f hf
        rw [if_neg h, h0, hf]
        refine ⟨_, rfl, rfl, rfl, ?_⟩
        intro j hj
        fin_cases j
        · exact absurd rfl hj
        · rfl
        · rfl
      · intro h h0
        rw [if_neg h]
        rcases h0 with h0 | h0
        · cases ha : s.a0 with
          | zero => exact absurd ha h0
          | succ n => rfl
        · rw [h0]
          cases s.a0 <;> rfl

theorem resolve_skip (sol : PlateSol) (p : Property) (s : St) (h : ¬ (p.pcode = .anasol ∧ p.pindx ≠ 0)) : resolve sol p s = (p, s) := by
  unfold resolve
  by_cases h1 : p.pcode = .anasol
  · have h0 : p.pindx = 0 := by
      by_contra hne
      exact h ⟨h1, hne⟩
    rw [if_pos h1, h0]
    rfl
  · rw [if_neg h1]

theorem loop_run (sol : PlateSol) : ∀ (l : List Property) (s : St), Good sol s →
    (resolveAll sol l s).1 = l.map (fun p => if p.pcode = .anasol ∧ p.pindx ≠ 0 then
      (if eff sol s (kind p.pindx.natAbs) l = some p.pindx.natAbs then ⟨.inhom, p.pindx⟩ else ⟨.undefined, p.pindx⟩) else p) ∧
    (∀ c, (resolveAll sol l s).2.scalars c =
      if codeOf s (kind c) = 0 ∧ eff sol s (kind c) l = some c then (field sol (kind c)).map Fun.sol else s.scalars c) ∧
    (∀ k, codeOf (resolveAll sol l s).2 k = (eff sol s k l).getD 0) := by
  intro l
  induction l with
  | nil =>
    intro s hs
    refine ⟨rfl, ?_, ?_⟩
    · intro c
      unfold eff firstCode
      by_cases h : codeOf s (kind c) = 0
      · simp [h, resolveAll]
      · simp [h, resolveAll]
    · intro k
      unfold eff firstCode
      by_cases h : codeOf s k = 0
      · simp [h, resolveAll]
      · simp [h, resolveAll]
  | cons p l ih =>
    intro s hs
    by_cases hp : p.pcode = .anasol ∧ p.pindx ≠ 0
    · obtain ⟨r1, r2, r3⟩ := resolve_step sol p s hp.1 hp.2
      generalize hc : p.pindx.natAbs = c at *
      have hc0 : c ≠ 0 := by rw [← hc]; have := hp.2; omega
      have hfirst : ∀ k, firstCode k (p :: l) = if kind c = k then some c else firstCode k l := by
        intro k
        rw [firstCode, hc]
        by_cases hk : kind c = k
        · rw [if_pos ⟨hp.1, hp.2, hk⟩, if_pos hk]
        · rw [if_neg (fun h => hk h.2.2), if_neg hk]
      by_cases h1 : codeOf s (kind c) = c
      · have e := r1 h1
        obtain ⟨i1, i2, i3⟩ := ih s hs
        have heff : ∀ k, eff sol s k (p :: l) = eff sol s k l := by
          intro k
          unfold eff
          by_cases h0 : codeOf s k ≠ 0
          · rw [if_pos h0, if_pos h0]
          · rw [if_neg h0, if_neg h0, hfirst]
            have : kind c ≠ k := by rintro rfl; rw [h1] at h0; exact h0 hc0
            rw [if_neg this]
        have hself : eff sol s (kind c) l = some c := by
          unfold eff
          rw [if_pos (by rw [h1]; exact hc0), h1]
        refine ⟨?_, ?_, ?_⟩
        · simp only [resolveAll, e, List.map_cons, if_pos hp, hc, heff, hself, if_true]
          rw [i1]
        · intro d
          simp only [resolveAll, e, heff, i2]
        · intro k
          simp only [resolveAll, e, heff, i3]
      · by_cases h0 : codeOf s (kind c) = 0
        · cases hf : field sol (kind c) with
          | none =>
            have e := r3 h1 (Or.inr hf)
            obtain ⟨i1, i2, i3⟩ := ih s hs
            have heff : ∀ k, eff sol s k (p :: l) = eff sol s k l := by
              intro k
              unfold eff
              by_cases h0 : codeOf s k ≠ 0
              · rw [if_pos h0, if_pos h0]
              · rw [if_neg h0, if_neg h0, hfirst]
                by_cases hk : kind c = k
                · rw [← hk, hf]; rfl
                · rw [if_neg hk]
            have hself : eff sol s (kind c) l ≠ some c := by
              unfold eff
              rw [if_neg (by rw [h0]; simp), hf]
              simp
            refine ⟨?_, ?_, ?_⟩
            · simp only [resolveAll, e, List.map_cons, if_pos hp, hc, heff, hself, if_false]
              rw [i1]
            · intro d
              simp only [resolveAll, e, heff, i2]
            · intro k
              simp only [resolveAll, e, heff, i3]
          | some f =>
            obtain ⟨s', e, hsc, hk1, hk2⟩ := r2 h1 h0 f hf
            have hs' : Good sol s' := by
              constructor
              · intro k hk
                by_cases hkc : k = kind c
                · rw [hkc, hf]; rfl
                · rw [hk2 k hkc] at hk; exact hs.fld k hk
              · intro k hk
                by_cases hkc : k = kind c
                · rw [hkc, hk1]
                · rw [hk2 k hkc] at hk ⊢; exact hs.knd k hk
            obtain ⟨i1, i2, i3⟩ := ih s' hs'
            have heff : ∀ k, eff sol s k (p :: l) = eff sol s' k l := by
              intro k
              unfold eff
              by_cases hkc : k = kind c
              · rw [hkc, hk1, h0, hfirst, hf]
                simp [hc0]
              · have hn : ¬ kind c = k := fun h => hkc h.symm
                rw [hk2 k hkc, hfirst k, if_neg hn]
            have hself : eff sol s' (kind c) l = some c := by
              unfold eff
              rw [hk1, if_pos hc0]
            refine ⟨?_, ?_, ?_⟩
            · simp only [resolveAll, e, List.map_cons, if_pos hp, hc, heff, hself, if_true]
              rw [i1]
            · intro d
              simp only [resolveAll, e, heff, i2]
              by_cases hdc : d = c
              · subst hdc
                rw [hk1, h0, hself, hf, hsc]
                simp [hc0, put]
              · by_cases hkd : kind d = kind c
                · rw [hkd, hk1, h0, hself, hsc]
                  have : ¬ (some c = some d) := fun h => hdc (Option.some.inj h).symm
                  simp [hc0, this, put, hdc]
                · rw [hk2 _ hkd, hsc]
                  simp [put, hdc]
            · intro k
              simp only [resolveAll, e, heff, i3]
        · have e := r3 h1 (Or.inl h0)
          obtain ⟨i1, i2, i3⟩ := ih s hs
          have heff : ∀ k, eff sol s k (p :: l) = eff sol s k l := by
            intro k
            unfold eff
            by_cases h0' : codeOf s k ≠ 0
            · rw [if_pos h0', if_pos h0']
            · rw [if_neg h0', if_neg h0', hfirst]
              have : kind c ≠ k := by rintro rfl; exact h0' h0
              rw [if_neg this]
          have hself : eff sol s (kind c) l ≠ some c := by
            unfold eff
            rw [if_pos h0]
            intro h; exact h1 (Option.some.inj h)
          refine ⟨?_, ?_, ?_⟩
          · simp only [resolveAll, e, List.map_cons, if_pos hp, hc, heff, hself, if_false]
            rw [i1]
          · intro d
            simp only [resolveAll, e, heff, i2]
          · intro k
            simp only [resolveAll, e, heff, i3]
    · have e := resolve_skip sol p s hp
      obtain ⟨i1, i2, i3⟩ := ih s hs
      have heff : ∀ k, eff sol s k (p :: l) = eff sol s k l := by
        intro k
        unfold eff
        have hn : ¬ (p.pcode = .anasol ∧ p.pindx ≠ 0 ∧ kind p.pindx.natAbs = k) := fun h => hp ⟨h.1, h.2.1⟩
        rw [firstCode, if_neg hn]
      refine ⟨?_, ?_, ?_⟩
      · simp only [resolveAll, e, List.map_cons, if_neg hp, heff]
        rw [i1]
      · intro d
        simp only [resolveAll, e, heff, i2]
      · intro k
        simp only [resolveAll, e, heff, i3]

theorem good_start (sol : PlateSol) (m : Nat → Option Fun) : Good sol ⟨0, 0, 0, m⟩ := by
  have : ∀ k, codeOf ⟨0, 0, 0, m⟩ k = 0 := by intro k; fin_cases k <;> rfl
  exact ⟨fun k h => absurd (this k) h, fun k h => absurd (this k) h⟩

theorem eff_start (sol : PlateSol) (m : Nat → Option Fun) (k : Fin 3) (l : List Property) :
    eff sol ⟨0, 0, 0, m⟩ k l = if (field sol k).isSome then firstCode k l else none := by
  have : codeOf ⟨0, 0, 0, m⟩ k = 0 := by fin_cases k <;> rfl
  unfold eff
  rw [this]
  simp

/-! ### Properties -/

/-- C58 (exact result): of each kind of condition the first code is served if the solution has the field of that kind, and exactly the
conditions with that code become inhomogeneous conditions; the map gets the field of the kind under that code and is otherwise unchanged. -/
theorem C58_exact (sol : PlateSol) (props : List Property) (m : Nat → Option Fun) :
    let r := preprocessA (some sol) props ⟨0, 0, 0, m⟩
    r.1 = props.map (resolved sol props) ∧
    ∀ c, r.2.scalars c = if (field sol (kind c)).isSome ∧ firstCode (kind c) props = some c then (field sol (kind c)).map Fun.sol else m c := by
  intro r
  obtain ⟨h1, h2, h3⟩ := loop_run sol props ⟨0, 0, 0, m⟩ (good_start sol m)
  have hk : ∀ k, codeOf ⟨0, 0, 0, m⟩ k = 0 := by intro k; fin_cases k <;> rfl
  refine ⟨?_, ?_⟩
  · refine h1.trans ?_
    refine List.map_congr_left ?_
    intro p _
    unfold resolved
    simp only [eff_start]
    by_cases hp : p.pcode = .anasol ∧ p.pindx ≠ 0
    · rw [if_pos hp, if_pos hp]
      by_cases hf : (field sol (kind p.pindx.natAbs)).isSome
      · simp [hf]
      · simp [hf]
    · rw [if_neg hp, if_neg hp]
  · intro c
    refine (h2 c).trans ?_
    rw [hk, eff_start]
    by_cases hf : (field sol (kind c)).isSome
    · simp [hf]
    · simp [hf]

/-- C58 (partial): with a built-in plate solution no condition with a non-zero code is left unresolved, and every condition that became
inhomogeneous finds under its code the field of its kind. Missing: a zero code, other types of analytical solutions, and second codes
of a kind, which are dropped (see the `violated` theorems). -/
theorem C58_resolved_partial (sol : PlateSol) (props : List Property) (m : Nat → Option Fun) :
    let r := preprocessA (some sol) props ⟨0, 0, 0, m⟩
    (∀ q ∈ r.1, q.pcode = .anasol → q.pindx = 0) ∧
    (∀ (i : Nat) (p q : Property), props[i]? = some p → r.1[i]? = some q → q.pindx = p.pindx ∧
      (p.pcode ≠ .anasol → q = p) ∧
      (p.pcode = .anasol → q.pcode = .inhom → ∃ f, field sol (kind p.pindx.natAbs) = some f ∧ r.2.scalars p.pindx.natAbs = some (.sol f))) := by
  intro r
  obtain ⟨h1, h2⟩ := C58_exact sol props m
  have key : ∀ p, (resolved sol props p).pcode = .anasol → (resolved sol props p).pindx = 0 := by
    intro p h
    unfold resolved at h ⊢
    split_ifs at h ⊢ with a b
    by_contra hne
    exact a ⟨h, hne⟩
  refine ⟨?_, ?_⟩
  · intro q hq
    rw [show r.1 = _ from h1, List.mem_map] at hq
    obtain ⟨p, _, rfl⟩ := hq
    exact key p
  · intro i p q hp hq
    rw [show r.1 = _ from h1, List.getElem?_map, hp] at hq
    obtain rfl := Option.some.inj hq
    refine ⟨?_, ?_, ?_⟩
    · unfold resolved; split_ifs <;> rfl
    · intro hn
      unfold resolved
      rw [if_neg (fun h => hn h.1)]
    · intro ha hi
      unfold resolved at hi
      split_ifs at hi with a b
      · obtain ⟨b1, b2⟩ := b
        obtain ⟨f, hf⟩ := Option.isSome_iff_exists.1 b1
        refine ⟨f, hf, ?_⟩
        rw [show r.2.scalars _ = _ from h2 _, if_pos ⟨b1, b2⟩, hf]
        rfl
      · rw [ha] at hi; cases hi

/-- C58: when every kind of condition in the model has a field and only one code is used per kind, every condition is resolved. -/
theorem C58_complete_partial (sol : PlateSol) (props : List Property) (m : Nat → Option Fun)
    (hz : ∀ p ∈ props, p.pcode = .anasol → p.pindx ≠ 0)
    (hf : ∀ p ∈ props, p.pcode = .anasol → (field sol (kind p.pindx.natAbs)).isSome)
    (h1 : ∀ p ∈ props, ∀ q ∈ props, p.pcode = .anasol → q.pcode = .anasol → kind p.pindx.natAbs = kind q.pindx.natAbs →
      p.pindx.natAbs = q.pindx.natAbs) :
    (preprocessA (some sol) props ⟨0, 0, 0, m⟩).1 = props.map fun p => if p.pcode = .anasol then ⟨.inhom, p.pindx⟩ else p := by
  rw [(C58_exact sol props m).1]
  refine List.map_congr_left ?_
  intro p hp
  unfold resolved
  by_cases ha : p.pcode = .anasol
  · rw [if_pos ⟨ha, hz p hp ha⟩, if_pos ha, if_pos]
    refine ⟨hf p hp ha, ?_⟩
    have hmem : ∃ q ∈ props, q.pcode = .anasol ∧ kind q.pindx.natAbs = kind p.pindx.natAbs ∧
        firstCode (kind p.pindx.natAbs) props = some q.pindx.natAbs := by
      clear hf h1
      induction props with
      | nil => cases hp
      | cons a l ih =>
        unfold firstCode
        by_cases hc : a.pcode = .anasol ∧ a.pindx ≠ 0 ∧ kind a.pindx.natAbs = kind p.pindx.natAbs
        · rw [if_pos hc]
          exact ⟨a, List.mem_cons_self, hc.1, hc.2.2, rfl⟩
        · rw [if_neg hc]
          rcases List.mem_cons.1 hp with rfl | hl
          · exact absurd ⟨ha, hz p hp ha, rfl⟩ hc
          · obtain ⟨q, hq, h⟩ := ih (fun q hq => hz q (List.mem_cons_of_mem _ hq)) hl
            exact ⟨q, List.mem_cons_of_mem _ hq, h⟩
    obtain ⟨q, hq, qa, qk, e⟩ := hmem
    rw [e, h1 q hq p hp qa ha qk]
  · rw [if_neg (fun h => ha h.1), if_neg ha]

example : ∃ (sol : PlateSol) (props : List Property), (∀ p ∈ props, p.pcode = .anasol → p.pindx ≠ 0) ∧
    (∀ p ∈ props, p.pcode = .anasol → (field sol (kind p.pindx.natAbs)).isSome) ∧
    (preprocessA (some sol) props ⟨0, 0, 0, fun _ => none⟩).1 = [⟨.inhom, 3⟩, ⟨.other 1, 3⟩, ⟨.inhom, -3⟩] :=
  ⟨⟨some 0, none, none⟩, [⟨.anasol, 3⟩, ⟨.other 1, 3⟩, ⟨.anasol, -3⟩], by decide, by decide, by decide⟩

/-- C58 (violation): conditions are left unresolved when the solution is given by expressions or is missing, and when the code is zero; a
second deflection code is dropped although the solution has the deflection; rotations are dropped with both built-in plate solutions,
which have no rotation fields. -/
theorem C58_resolved_violated :
    (∃ props m, ⟨.anasol, 1⟩ ∈ (preprocessA none props ⟨0, 0, 0, m⟩).1) ∧
    (∃ sol props m, ⟨.anasol, 0⟩ ∈ (preprocessA (some sol) props ⟨0, 0, 0, m⟩).1) ∧
    (∃ sol m, sol.w = some 0 ∧ (preprocessA (some sol) [⟨.anasol, 1⟩, ⟨.anasol, 2⟩] ⟨0, 0, 0, m⟩).1 = [⟨.inhom, 1⟩, ⟨.undefined, 2⟩]) ∧
    (∃ w m, (preprocessA (some ⟨w, none, none⟩) [⟨.anasol, 101⟩, ⟨.anasol, 201⟩] ⟨0, 0, 0, m⟩).1 = [⟨.undefined, 101⟩, ⟨.undefined, 201⟩]) :=
  ⟨⟨[⟨.anasol, 1⟩], fun _ => none, by decide⟩, ⟨⟨some 0, none, none⟩, [⟨.anasol, 0⟩], fun _ => none, by decide⟩,
    ⟨⟨some 0, none, none⟩, fun _ => none, rfl, by decide⟩, ⟨some 0, fun _ => none, by decide⟩⟩

theorem put_apply (s : Nat → Option Fun) (c : Nat) (f : Option Fun) (d : Nat) : put s c f d = if d = c then f else s d := rfl

theorem erase_apply (a : Nat) (s : Nat → Option Fun) (d : Nat) : eraseCode a s d = if a ≠ 0 ∧ d = a then none else s d := by
  unfold eraseCode
  by_cases h : a > 0
  · rw [if_pos h, put_apply]
    have : a ≠ 0 := by omega
    simp [this]
  · rw [if_neg h]
    have : a = 0 := by omega
    simp [this]

/-- C58 (ownership): whatever conditions the model has, no function of the analytical solution is in the map when the library deletes the
functions, neither in the destructor nor when the properties are cleared; functions of other codes stay there and are released; and
clearing leaves the state of a new simulator, so that the properties can be processed again. -/
theorem C58_no_double_release (sol : Option PlateSol) (props : List Property) (m : Nat → Option Fun) (hm : NoSol m) :
    let s := (preprocessA sol props ⟨0, 0, 0, m⟩).2
    NoSol (destroy s) ∧ NoSol (clearProperties s).1 ∧ (clearProperties s).1 = destroy s ∧ (clearProperties s).2 = ⟨0, 0, 0, fun _ => none⟩ ∧
    (∀ c, (∀ k sol', sol = some sol' → (field sol' k).isSome → firstCode k props ≠ some c) → destroy s c = m c) := by
  intro s
  cases sol with
  | none =>
    have hs : s = ⟨0, 0, 0, m⟩ := rfl
    have hd : destroy s = m := by rw [hs]; rfl
    refine ⟨by rw [hd]; exact hm, ?_, rfl, rfl, fun c _ => by rw [hd]⟩
    show NoSol (destroy s)
    rw [hd]; exact hm
  | some sol =>
    obtain ⟨-, h2, h3⟩ := loop_run sol props ⟨0, 0, 0, m⟩ (good_start sol m)
    have hk : ∀ k, codeOf ⟨0, 0, 0, m⟩ k = 0 := by intro k; fin_cases k <;> rfl
    have hs : s = (resolveAll sol props ⟨0, 0, 0, m⟩).2 := rfl
    have hD : ∀ c, destroy s c = if ∃ k, codeOf s k ≠ 0 ∧ c = codeOf s k then none else s.scalars c := by
      intro c
      unfold destroy
      rw [erase_apply, erase_apply, erase_apply]
      by_cases h : ∃ k, codeOf s k ≠ 0 ∧ c = codeOf s k
      · rw [if_pos h]
        obtain ⟨k, hk0, hkc⟩ := h
        fin_cases k
        · have a : s.a0 ≠ 0 ∧ c = s.a0 := ⟨hk0, hkc⟩
          rw [if_pos a]; split_ifs <;> rfl
        · have a : s.a1 ≠ 0 ∧ c = s.a1 := ⟨hk0, hkc⟩
          rw [if_pos a]; split_ifs <;> rfl
        · have a : s.a2 ≠ 0 ∧ c = s.a2 := ⟨hk0, hkc⟩
          rw [if_pos a]
      · have n2 : ¬ (s.a2 ≠ 0 ∧ c = s.a2) := fun a => h ⟨2, a⟩
        have n1 : ¬ (s.a1 ≠ 0 ∧ c = s.a1) := fun a => h ⟨1, a⟩
        have n0 : ¬ (s.a0 ≠ 0 ∧ c = s.a0) := fun a => h ⟨0, a⟩
        rw [if_neg h, if_neg n2, if_neg n1, if_neg n0]
    have hcode : ∀ k, codeOf s k = ((if (field sol k).isSome then firstCode k props else none).getD 0) := by
      intro k
      rw [hs, h3, eff_start]
    have hsc : ∀ c, s.scalars c = if (field sol (kind c)).isSome ∧ firstCode (kind c) props = some c then
        (field sol (kind c)).map Fun.sol else m c := by
      intro c
      rw [hs, h2, hk, eff_start]
      by_cases hf : (field sol (kind c)).isSome <;> simp [hf]
    have hno : NoSol (destroy s) := by
      intro c n
      rw [hD]
      split_ifs with h
      · simp
      · rw [hsc]
        split_ifs with h'
        · exfalso
          obtain ⟨h', h''⟩ := h'
          apply h
          have hc := hcode (kind c)
          rw [if_pos h'] at hc
          rw [h''] at hc
          have := (firstCode_kind h'').2
          exact ⟨kind c, by rw [hc]; exact this, by rw [hc]; rfl⟩
        · exact hm c n
    refine ⟨hno, hno, rfl, rfl, ?_⟩
    intro c hc
    have hne : ∀ k, ¬ (codeOf s k ≠ 0 ∧ c = codeOf s k) := by
      rintro k ⟨a, b⟩
      rw [hcode] at a b
      by_cases hf : (field sol k).isSome
      · rw [if_pos hf] at a b
        cases hfc : firstCode k props with
        | none => rw [hfc] at a; exact a rfl
        | some d =>
          rw [hfc] at b
          simp only [Option.getD_some] at b
          exact hc k sol rfl hf (by rw [hfc, b])
      · rw [if_neg hf] at a; exact a rfl
    rw [hD, if_neg (fun ⟨k, h⟩ => hne k h), hsc]
    split_ifs with h'
    · exact absurd h'.2 (hc (kind c) sol rfl h'.1)
    · rfl

/-- C58 (violation of the release part): a function parsed from the input under the code that is later used for an analytical condition is
overwritten in the map and never released. -/
theorem C58_release_violated : ∃ sol props m n, NoSol m ∧ m 1 = some (.own n) ∧
    ∀ c, destroy (preprocessA (some sol) props ⟨0, 0, 0, m⟩).2 c ≠ some (.own n) := by
  refine ⟨⟨some 0, none, none⟩, [⟨.anasol, 1⟩], put (fun _ => none) 1 (some (.own 7)), 7, ?_, rfl, ?_⟩
  · intro c n
    rw [put_apply]
    split_ifs <;> simp
  · intro c
    have e : (preprocessA (some ⟨some 0, none, none⟩) [⟨.anasol, 1⟩] ⟨0, 0, 0, put (fun _ => none) 1 (some (.own 7))⟩).2 =
        ⟨1, 0, 0, put (put (fun _ => none) 1 (some (.own 7))) 1 (some (.sol 0))⟩ := rfl
    rw [e]
    unfold destroy
    simp only [erase_apply, put_apply]
    by_cases h : c = 1 <;> simp [h]

example : NoSol (put (fun _ => none) 5 (some (.own 1))) := by
  intro c n
  rw [put_apply]
  split_ifs <;> simp

end Verif.AnaBC
