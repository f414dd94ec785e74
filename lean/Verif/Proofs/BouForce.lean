/- Helper lemmas on the integration of boundary forces. -/
import Mathlib.Tactic.FieldSimp
import Mathlib.Tactic.IntervalCases
import Verif.Model.BouForce
import Verif.Proofs.Basic
import Verif.Proofs.Continuum

set_option linter.unusedSectionVars false
set_option linter.unusedSimpArgs false
set_option linter.unusedVariables false

namespace Verif.BouForce

open Verif

variable {K : Type} [Field K]

theorem dot_single (b : DVec K) (k : Nat) (hk : k < b.n) : b.dot (fun i => if i = k + 1 then 1 else 0) = b.e (k + 1) := by
  unfold DVec.dot
  rw [Finset.sum_eq_single k]
  · simp
  · intro a _ ha; simp [ha]
  · intro h; exact absurd (Finset.mem_range.mpr hk) h

theorem zero_dot' (n : Nat) (x : Nat → K) : (DVec.zero n : DVec K).dot x = 0 := by
  unfold DVec.dot DVec.zero; simp

/-- Work of the torque part. -/
def torqueDot (nsd : Nat) (T x : Nat → K) : K :=
  if nsd = 2 then x 3 * T 2 else ∑ i ∈ Finset.range nsd, x (nsd + i + 1) * T i

theorem evalForce_some (nsd : Nat) (X0 : Nat → K) (b : DVec K) (th X : Nat → K) (w : K)
    (hn : b.n = getNoComps false true nsd) :
    ∃ b', evalForce nsd (some X0) b th X w = .ok b' ∧ b'.n = b.n ∧ ∀ x,
      b'.dot x = b.dot x + ((∑ i ∈ Finset.range nsd, x (i + 1) * (th i * w))
        + torqueDot nsd (fun i => cross (fun i => X i - X0 i) th i * w) x) := by
  unfold getNoComps at hn
  simp only [Bool.false_eq_true, if_false, if_true] at hn
  have hge : nsd ≤ b.n := by rw [hn]; split_ifs <;> omega
  obtain ⟨b1, e1, n1, d1⟩ := DVec.addMany_ok (A := b) (l := (List.range nsd).map fun i => (i + 1, th i * w))
    (by intro x hx; obtain ⟨i, hi, rfl⟩ := List.mem_map.mp hx; have := List.mem_range.mp hi; simp only []; omega)
  unfold evalForce
  rw [e1]
  simp only [Res.bind]
  by_cases h2 : nsd = 2
  · subst h2
    rw [if_pos rfl]
    simp only [if_true] at hn
    obtain ⟨b2, e2, n2, d2⟩ := DVec.dot_add (A := b1) (i := 3) (by omega) (cross (fun i => X i - X0 i) th 2 * w)
    refine ⟨b2, e2, n2.trans n1, fun x => ?_⟩
    rw [d2, d1, List.map_map, sum_list_range]
    simp only [torqueDot, if_true, Function.comp]
    ring
  · rw [if_neg h2]
    simp only [h2, if_false] at hn
    obtain ⟨b2, e2, n2, d2⟩ := DVec.addMany_ok (A := b1)
      (l := (List.range nsd).map fun i => (nsd + i + 1, cross (fun i => X i - X0 i) th i * w))
      (by intro x hx; obtain ⟨i, hi, rfl⟩ := List.mem_map.mp hx; have := List.mem_range.mp hi; simp only []; omega)
    refine ⟨b2, e2, n2.trans n1, fun x => ?_⟩
    rw [d2, d1, List.map_map, List.map_map, sum_list_range, sum_list_range]
    simp only [torqueDot, h2, if_false, Function.comp]
    ring

theorem evalForce_none (nsd : Nat) (b : DVec K) (th X : Nat → K) (w : K) (hn : b.n = getNoComps false false nsd) :
    ∃ b', evalForce nsd none b th X w = .ok b' ∧ b'.n = b.n ∧ ∀ x,
      b'.dot x = b.dot x + ∑ i ∈ Finset.range nsd, x (i + 1) * (th i * w) := by
  unfold getNoComps at hn
  simp only [Bool.false_eq_true, if_false] at hn
  obtain ⟨b1, e1, n1, d1⟩ := DVec.addMany_ok (A := b) (l := (List.range nsd).map fun i => (i + 1, th i * w))
    (by intro x hx; obtain ⟨i, hi, rfl⟩ := List.mem_map.mp hx; have := List.mem_range.mp hi; simp only []; omega)
  unfold evalForce
  rw [e1]
  simp only [Res.bind]
  refine ⟨b1, rfl, n1, fun x => ?_⟩
  rw [d1, List.map_map, sum_list_range]
  rfl

/-- Accumulation of additive contributions. -/
theorem acc_dot {α : Type} (f : DVec K → α → Res (DVec K)) (g : α → (Nat → K) → K) (n : Nat) (l : List α) (b : DVec K)
    (hb : b.n = n) (h : ∀ b p, b.n = n → p ∈ l → ∃ b', f b p = .ok b' ∧ b'.n = b.n ∧ ∀ x, b'.dot x = b.dot x + g p x) :
    ∃ b' : DVec K, l.foldl (fun (r : Res (DVec K)) p => r.bind fun b => f b p) (.ok b) = .ok b' ∧ b'.n = n ∧
      ∀ x, b'.dot x = b.dot x + (l.map fun p => g p x).sum := by
  induction l generalizing b with
  | nil => exact ⟨b, rfl, hb, by simp⟩
  | cons p l ih =>
    obtain ⟨b1, e1, n1, d1⟩ := h b p hb (by simp)
    obtain ⟨b2, e2, n2, d2⟩ := ih b1 (n1.trans hb) (fun b q hq hm => h b q hq (by simp [hm]))
    refine ⟨b2, ?_, n2, fun x => ?_⟩
    · rw [List.foldl_cons]
      show List.foldl _ (f b p) l = _
      rw [e1]; exact e2
    · rw [d2, d1]; simp [add_assoc]

theorem resultants_some (s : Bool) (nsd : Nat) (X0 : Nat → K) (pts : List (Pnt K)) :
    ∃ b, resultants s nsd (some X0) pts = .ok b ∧ b.n = getNoComps false true nsd ∧ ∀ x,
      b.dot x = (pts.map fun p => (∑ i ∈ Finset.range nsd, x (i + 1) * (traction s p i * p.w))
        + torqueDot nsd (fun i => cross (fun i => p.X i - X0 i) (traction s p) i * p.w) x).sum := by
  obtain ⟨b, e, n, d⟩ := acc_dot (fun b p => evalForce nsd (some X0) b (traction s p) p.X p.w) _
    (getNoComps false true nsd) pts (DVec.zero (getNoComps false true nsd)) rfl
    (fun b p hb _ => evalForce_some nsd X0 b (traction s p) p.X p.w hb)
  refine ⟨b, e, n, fun x => ?_⟩
  rw [d, zero_dot', zero_add]

theorem resultants_none (s : Bool) (nsd : Nat) (pts : List (Pnt K)) :
    ∃ b, resultants s nsd none pts = .ok b ∧ b.n = getNoComps false false nsd ∧ ∀ x,
      b.dot x = (pts.map fun p => ∑ i ∈ Finset.range nsd, x (i + 1) * (traction s p i * p.w)).sum := by
  obtain ⟨b, e, n, d⟩ := acc_dot (fun b p => evalForce nsd none b (traction s p) p.X p.w) _
    (getNoComps false false nsd) pts (DVec.zero (getNoComps false false nsd)) rfl
    (fun b p hb _ => evalForce_none nsd b (traction s p) p.X p.w hb)
  refine ⟨b, e, n, fun x => ?_⟩
  rw [d, zero_dot', zero_add]

theorem evalNodal_ok (nsd nen : Nat) (b : DVec K) (th : Nat → K) (N : DVec K) (w : K) (hb : b.n = nsd * nen) (hN : N.n = nen) :
    ∃ b', evalNodal nsd b th N w = .ok b' ∧ b'.n = b.n ∧ ∀ x,
      b'.dot x = b.dot x + ∑ a ∈ Finset.range nen, ∑ i ∈ Finset.range nsd, x (nsd * a + i + 1) * (th i * N.e (a + 1) * w) := by
  unfold evalNodal
  obtain ⟨b1, e1, n1, d1⟩ := DVec.addMany_ok (A := b)
    (l := (List.range N.n).flatMap fun a => (List.range nsd).map fun d => (nsd * a + d + 1, th d * N.e (a + 1) * w))
    (by
      intro x hx
      obtain ⟨a, ha, hx⟩ := List.mem_flatMap.mp hx
      obtain ⟨i, hi, rfl⟩ := List.mem_map.mp hx
      have h1 := List.mem_range.mp ha
      have h2 := List.mem_range.mp hi
      have := Cont.dof_lt (n := nen) (hN ▸ h1) h2
      simp only []; omega)
  refine ⟨b1, e1, n1, fun x => ?_⟩
  rw [d1, sum_flatMap, sum_list_range, hN]
  refine congrArg₂ (· + ·) rfl (Finset.sum_congr rfl fun a _ => ?_)
  rw [List.map_map, sum_list_range]
  rfl

theorem nodalForces_ok (s : Bool) (nsd nen : Nat) (pts : List (Pnt K)) (hN : ∀ p ∈ pts, p.N.n = nen) :
    ∃ b, nodalForces s nsd nen pts = .ok b ∧ b.n = nsd * nen ∧ ∀ x,
      b.dot x = (pts.map fun p => ∑ a ∈ Finset.range nen, ∑ i ∈ Finset.range nsd,
        x (nsd * a + i + 1) * (traction s p i * p.N.e (a + 1) * p.w)).sum := by
  obtain ⟨b, e, n, d⟩ := acc_dot (fun b p => evalNodal nsd b (traction s p) p.N p.w) _
    (nsd * nen) pts (DVec.zero (nsd * nen)) rfl
    (fun b p hb hm => evalNodal_ok nsd nen b (traction s p) p.N p.w hb (hN p hm))
  refine ⟨b, e, n, fun x => ?_⟩
  rw [d, zero_dot', zero_add]

theorem sumUp_ok {α : Type} (n : Nat) (f : α → Res (DVec K)) (g : α → (Nat → K) → K) (l : List α)
    (h : ∀ a ∈ l, ∃ b, f a = .ok b ∧ b.n = n ∧ ∀ x, b.dot x = g a x) :
    ∃ b, sumUp n (l.map f) = .ok b ∧ b.n = n ∧ ∀ x, b.dot x = (l.map fun a => g a x).sum := by
  induction l with
  | nil => exact ⟨DVec.zero n, rfl, rfl, fun x => by rw [zero_dot']; rfl⟩
  | cons a l ih =>
    obtain ⟨b1, e1, n1, d1⟩ := h a (by simp)
    obtain ⟨b2, e2, n2, d2⟩ := ih (fun a hm => h a (by simp [hm]))
    refine ⟨⟨n, fun i => b1.e i + b2.e i⟩, ?_, rfl, fun x => ?_⟩
    · rw [List.map_cons]
      show (f a).bind _ = _
      rw [e1]; simp only [Res.bind]; rw [e2]
    · rw [List.map_cons, List.sum_cons, ← d1, ← d2]
      unfold DVec.dot
      rw [n1, n2, ← Finset.sum_add_distrib]
      exact Finset.sum_congr rfl fun i _ => by simp only []; ring

end Verif.BouForce
