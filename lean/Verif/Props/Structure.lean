/- Property C132: the static solution of a whole solid model in linear elasticity. -/
import Verif.Model.Structure
import Verif.Props.Continuum
import Verif.Props.LinIsotropic
import Verif.Props.Objectivity
import Mathlib.LinearAlgebra.FiniteDimensional.Basic
import Mathlib.LinearAlgebra.Dimension.Finrank

set_option linter.unusedSectionVars false
set_option linter.unnecessarySeqFocus false
set_option linter.unusedSimpArgs false

namespace Verif.Struct

open Verif.Cont ContSpec

variable {K : Type*} [Field K]

/-- Hooke's law for the components xx, yy, zz, xy, yz, xz (or xx, yy, xy) with engineering shear strains, from Lamé's constants; in plane stress the first of them is reduced. -/
def hooke (d : Nat) (ps : Bool) (E nu : K) (k l : Nat) : K :=
  let lam := if d = 2 ∧ ps = true then E * nu / (1 - nu ^ 2) else E * nu / ((1 + nu) * (1 - 2 * nu))
  let mu := E / (2 * (1 + nu))
  if k = l then (if k ≤ d then lam + 2 * mu else mu) else if k ≤ d ∧ l ≤ d then lam else 0

/-- The strains of a displacement field `u` of an element, at an integration point. -/
def strain (d : Nat) (p : QPt K) (u : Nat → Nat → K) : Nat → K :=
  if d = 2 then eng2 (grad p.dN.nr u p.dN.e) else eng3 (grad p.dN.nr u p.dN.e)

/-- The nodal values of the nodes of an element. -/
def loc (e : Elm K) (u : Nat → Nat → K) : Nat → Nat → K := fun s i => u (e.node s) i

/-- The stresses at an integration point. -/
def stress [LinearOrder K] (d : Nat) (p : QPt K) (u : Nat → Nat → K) (k : Nat) : K :=
  ∑ l ∈ Finset.range (d * (d + 1) / 2), hooke d p.mat.planeStress (p.mat.young p.fe p.X) (LinIso.nuAt p.mat p.X) k (l + 1) * strain d p u (l + 1)

/-- The work of the stresses of `u` in the strains of `v`, in the whole body. -/
def work [LinearOrder K] (d : Nat) (es : List (Elm K)) (v u : Nat → Nat → K) : K :=
  (es.map fun e => (e.pts.map fun p => p.w * ∑ k ∈ Finset.range (d * (d + 1) / 2), strain d p (loc e v) (k + 1) * stress d p (loc e u) (k + 1)).sum).sum

/-- A model of `n` nodes with coordinates `x`: the elements connect these nodes, the gradients are those of a basis that represents constants and the coordinates, and material data and weights are admissible. -/
structure Sound [LinearOrder K] (d n : Nat) (x : Nat → Nat → K) (es : List (Elm K)) : Prop where
  dim : d = 2 ∨ d = 3
  nodes : ∀ e ∈ es, ∀ s, s < e.nen → 1 ≤ e.node (s + 1) ∧ e.node (s + 1) ≤ n
  size : ∀ e ∈ es, ∀ p ∈ e.pts, p.dN.nr = e.nen ∧ d ≤ p.dN.nc
  complete : ∀ e ∈ es, ∀ p ∈ e.pts, Complete d e.nen (loc e x) p.dN.e
  material : ∀ e ∈ es, ∀ p ∈ e.pts, 0 < p.mat.young p.fe p.X ∧ 0 ≤ LinIso.nuAt p.mat p.X ∧ LinIso.nuAt p.mat p.X < 1 / 2 ∧ p.mat.axiSymmetry = false
  weight : ∀ e ∈ es, ∀ p ∈ e.pts, 0 < p.w

section
variable [LinearOrder K] [IsStrictOrderedRing K]

theorem law_eq (d : Nat) (hd : d = 2 ∨ d = 3) (m : LinIso.Mat K) (fe : LinIso.FE K) (X : LinIso.Pt K) (sz : Nat) (eps : Nat → K) (hE : 0 < m.young fe X) (h0 : 0 ≤ LinIso.nuAt m X)
    (h1 : LinIso.nuAt m X < 1 / 2) (ha : m.axiSymmetry = false) :
    ∃ o, (LinIso.evaluate m d sz fe X eps 1).2 = .ok o ∧ o.C.nr = d * (d + 1) / 2 ∧ o.C.nc = d * (d + 1) / 2 ∧ ∀ k l, k < d * (d + 1) / 2 → l < d * (d + 1) / 2 →
      o.C.e (k + 1) (l + 1) = hooke d m.planeStress (m.young fe X) (LinIso.nuAt m X) (k + 1) (l + 1) := by
  generalize hE' : m.young fe X = E at *
  generalize hn' : LinIso.nuAt m X = nu at *
  have p1 : (1 + nu) ≠ 0 := by linarith
  have p2 : (1 - nu - nu) ≠ 0 := by intro h; linarith
  have p3 : (1 - 2 * nu) ≠ 0 := by intro h; linarith
  have p4 : (1 - nu) ≠ 0 := by intro h; linarith
  have p5 : (2 + nu + nu) ≠ 0 := by intro h; linarith
  have p6 : (1 - nu * nu) ≠ 0 := by rw [show 1 - nu * nu = (1 + nu) * (1 - nu) by ring]; exact mul_ne_zero p1 p4
  have p7 : (1 - nu ^ 2) ≠ 0 := by rw [show 1 - nu ^ 2 = (1 + nu) * (1 - nu) by ring]; exact mul_ne_zero p1 p4
  have q1 : E / ((1 + nu) * (1 - nu - nu)) * (1 - nu) = E * nu / ((1 + nu) * (1 - 2 * nu)) + 2 * (E / (2 * (1 + nu))) := by
    rw [show 1 - nu - nu = 1 - 2 * nu by ring, div_mul_eq_mul_div, div_add' _ _ _ (mul_ne_zero p1 p3)]
    refine congrArg (· / _) ?_
    field_simp; ring
  have q2 : E / ((1 + nu) * (1 - nu - nu)) * nu = E * nu / ((1 + nu) * (1 - 2 * nu)) := by
    rw [show 1 - nu - nu = 1 - 2 * nu by ring]; field_simp
  have q3 : E / (2 + nu + nu) = E / (2 * (1 + nu)) := by rw [show 2 + nu + nu = 2 * (1 + nu) by ring]
  have q4 : E / (1 - nu * nu) = E * nu / (1 - nu ^ 2) + 2 * (E / (2 * (1 + nu))) := by
    rw [show 1 - nu * nu = (1 + nu) * (1 - nu) by ring, show 1 - nu ^ 2 = (1 + nu) * (1 - nu) by ring]; field_simp; ring
  have q5 : E / (1 - nu * nu) * nu = E * nu / (1 - nu ^ 2) := by
    rw [show 1 - nu * nu = 1 - nu ^ 2 by ring]; field_simp
  rcases hd with rfl | rfl
  · obtain ⟨C, c1, c2, c3, c4⟩ := LinIso.cmat_2d E nu m.planeStress false
    obtain ⟨o, o1, o2, -⟩ := LinIso.evaluate_eq m 2 sz (Or.inl rfl) fe X eps 1 (by unfold LinIso.Admissible; rw [hn']; exact ⟨h0, h1⟩) (C := C) (by rw [hE', hn', ha]; exact c1)
    refine ⟨o, o1, by rw [o2, c2], by rw [o2, c3], fun k l hk hl => ?_⟩
    rw [o2]
    have := congrFun (congrFun c4 ⟨k, hk⟩) ⟨l, hl⟩
    simp only [DMat.toM] at this
    rw [this]
    simp only [LinIso.dirA, LinIso.dirB, LinIso.shG, q1, q2, q3, q5]
    rw [q4]
    cases m.planeStress <;> (have hk : k < 3 := hk; have hl : l < 3 := hl; interval_cases k <;> interval_cases l <;> simp [hooke])
  · obtain ⟨C, c1, c2, c3, c4⟩ := LinIso.cmat_3d E nu m.planeStress m.axiSymmetry false
    obtain ⟨o, o1, o2, -⟩ := LinIso.evaluate_eq m 3 sz (Or.inr rfl) fe X eps 1 (by unfold LinIso.Admissible; rw [hn']; exact ⟨h0, h1⟩) (C := C) (by rw [hE', hn']; exact c1)
    refine ⟨o, o1, by rw [o2, c2], by rw [o2, c3], fun k l hk hl => ?_⟩
    rw [o2]
    have := congrFun (congrFun c4 ⟨k, hk⟩) ⟨l, hl⟩
    simp only [DMat.toM] at this
    rw [this]
    simp only [LinIso.volA, LinIso.volB, LinIso.shG, q1, q2, q3]
    have hk : k < 6 := hk
    have hl : l < 6 := hl
    interval_cases k <;> interval_cases l <;> simp [hooke] <;> rfl

theorem hooke_symm (d : Nat) (ps : Bool) (E nu : K) (k l : Nat) : hooke d ps E nu k l = hooke d ps E nu l k := by
  unfold hooke
  by_cases h : k = l
  · subst h; rfl
  · simp only [if_neg h, if_neg (Ne.symm h), and_comm]

/-- The energy of a strain is at least `mu` times the sum of squares. -/
theorem hooke_pos (d : Nat) (hd : d = 2 ∨ d = 3) (ps : Bool) (E nu : K) (hE : 0 < E) (h0 : 0 ≤ nu) (h1 : nu < 1 / 2) (e : Nat → K) :
    E / (2 * (1 + nu)) * ∑ k ∈ Finset.range (d * (d + 1) / 2), e (k + 1) ^ 2 ≤
      ∑ k ∈ Finset.range (d * (d + 1) / 2), e (k + 1) * ∑ l ∈ Finset.range (d * (d + 1) / 2), hooke d ps E nu (k + 1) (l + 1) * e (l + 1) := by
  have hmu : 0 < E / (2 * (1 + nu)) := div_pos hE (by linarith)
  have l1 : 0 ≤ E * nu / (1 - nu ^ 2) := div_nonneg (mul_nonneg hE.le h0) (by nlinarith)
  have l2 : 0 ≤ E * nu / ((1 + nu) * (1 - 2 * nu)) := div_nonneg (mul_nonneg hE.le h0) (mul_nonneg (by linarith) (by linarith))
  generalize hm : E / (2 * (1 + nu)) = mu at *
  obtain ⟨lam, hl, hlam⟩ : ∃ lam, (if d = 2 ∧ ps = true then E * nu / (1 - nu ^ 2) else E * nu / ((1 + nu) * (1 - 2 * nu))) = lam ∧ 0 ≤ lam := by
    refine ⟨_, rfl, ?_⟩; split_ifs <;> assumption
  unfold hooke
  simp only [hl, hm]
  rcases hd with rfl | rfl
  · simp [Finset.sum_range_succ]
    nlinarith [mul_nonneg hlam (sq_nonneg (e 1 + e 2)), mul_nonneg hmu.le (sq_nonneg (e 1)), mul_nonneg hmu.le (sq_nonneg (e 2))]
  · simp [Finset.sum_range_succ]
    nlinarith [mul_nonneg hlam (sq_nonneg (e 1 + e 2 + e 3)), mul_nonneg hmu.le (sq_nonneg (e 1)), mul_nonneg hmu.le (sq_nonneg (e 2)), mul_nonneg hmu.le (sq_nonneg (e 3))]

end

theorem sB_eq (d : Nat) (hd : d = 2 ∨ d = 3) (p : QPt K) (hc : d ≤ p.dN.nc) : ∃ B, formB d p.dN = .ok B ∧ B.nr = d * (d + 1) / 2 ∧ B.nc = d * p.dN.nr ∧
    ∀ u k, k < d * (d + 1) / 2 → B.mulV (dofVec d u) (k + 1) = strain d p u (k + 1) := by
  rcases hd with rfl | rfl
  · obtain ⟨B, h1, h2, h3, h4⟩ := C06_strain_2d p.dN hc
    exact ⟨B, h1, h2, h3, fun u k hk => (h4 u (k + 1) (by omega) (by omega)).trans (by simp [strain])⟩
  · obtain ⟨B, h1, h2, h3, h4⟩ := C06_strain_3d p.dN hc
    exact ⟨B, h1, h2, h3, fun u k hk => (h4 u (k + 1) (by omega) (by omega)).trans (by simp [strain])⟩

section
variable [LinearOrder K] [IsStrictOrderedRing K]

theorem evalAll_bil (d n : Nat) (x : Nat → Nat → K) (es : List (Elm K)) (h : Sound d n x es) (e : Elm K) (he : e ∈ es) (pts : List (QPt K)) (hp : ∀ p ∈ pts, p ∈ e.pts) :
    ∀ EK : DMat K, EK.nr = d * e.nen → EK.nc = d * e.nen → ∃ A, evalAll d pts EK = .ok A ∧ A.nr = d * e.nen ∧ A.nc = d * e.nen ∧ ∀ v u,
      A.bil (dofVec d v) (dofVec d u) = EK.bil (dofVec d v) (dofVec d u) + (pts.map fun p => p.w * ∑ k ∈ Finset.range (d * (d + 1) / 2), strain d p v (k + 1) * stress d p u (k + 1)).sum := by
  induction pts with
  | nil => exact fun EK h1 h2 => ⟨EK, rfl, h1, h2, fun v u => by simp⟩
  | cons p l ih =>
    intro EK h1 h2
    have hpe := hp p (by simp)
    obtain ⟨B, b1, b2, b3, b4⟩ := sB_eq d h.dim p (h.size e he p hpe).2
    obtain ⟨m1, m2, m3, m4⟩ := h.material e he p hpe
    obtain ⟨o, o1, o2, o3, o4⟩ := law_eq d h.dim p.mat p.fe p.X B.nr (fun _ => 0) m1 m2 m3 m4
    have hs : B.nc = d * e.nen := by rw [b3, (h.size e he p hpe).1]
    obtain ⟨A, a1, a2, a3, a4⟩ := ih (fun q hq => hp q (by simp [hq])) (addKm EK B o.C p.w) h1 h2
    refine ⟨A, ?_, a2, a3, fun v u => ?_⟩
    · simp only [evalAll, evalInt, b1, Res.bind, o1]
      exact a1
    · rw [a4, addKm_bil EK B o.C p.w (h1.trans hs.symm) (h2.trans hs.symm) (by rw [o3, b2]), List.map_cons, List.sum_cons, add_assoc]
      refine congrArg (EK.bil (dofVec d v) (dofVec d u) + ·) (congrArg (· + _) (congrArg (p.w * ·) ?_))
      rw [b2]
      refine Finset.sum_congr rfl fun k hk => ?_
      rw [stress, Finset.mul_sum]
      refine Finset.sum_congr rfl fun l hl => ?_
      rw [b4 _ _ (Finset.mem_range.mp hk), b4 _ _ (Finset.mem_range.mp hl), o4 _ _ (Finset.mem_range.mp hk) (Finset.mem_range.mp hl), mul_assoc]

theorem pick (n m : Nat) (h1 : 1 ≤ m) (h2 : m ≤ n) (f : Nat → K) : ∑ a ∈ Finset.range n, (if m = a + 1 then f (a + 1) else 0) = f m := by
  obtain ⟨m, rfl⟩ : ∃ k, m = k + 1 := ⟨m - 1, by omega⟩
  simp only [Nat.add_right_cancel_iff]
  rw [Finset.sum_ite_eq, if_pos (Finset.mem_range.mpr (by omega))]

/-- The internal forces of one element at the nodes of the model. -/
theorem one_nodal (d n : Nat) (e : Elm K) (A : DMat K) (hn : ∀ s, s < e.nen → 1 ≤ e.node (s + 1) ∧ e.node (s + 1) ≤ n) (u : Nat → Nat → K) (a i : Nat) :
    ∑ b ∈ Finset.range n, ∑ j ∈ Finset.range d, (∑ s ∈ Finset.range e.nen, ∑ t ∈ Finset.range e.nen,
      if e.node (s + 1) = a ∧ e.node (t + 1) = b + 1 then A.e (d * s + i) (d * t + (j + 1)) else 0) * u (b + 1) (j + 1) =
    ∑ s ∈ Finset.range e.nen, if e.node (s + 1) = a then ∑ t ∈ Finset.range e.nen, ∑ j ∈ Finset.range d, A.e (d * s + i) (d * t + (j + 1)) * loc e u (t + 1) (j + 1) else 0 := by
  simp only [Finset.sum_mul]
  rw [show (∑ b ∈ Finset.range n, ∑ j ∈ Finset.range d, ∑ s ∈ Finset.range e.nen, ∑ t ∈ Finset.range e.nen,
      (if e.node (s + 1) = a ∧ e.node (t + 1) = b + 1 then A.e (d * s + i) (d * t + (j + 1)) else 0) * u (b + 1) (j + 1)) =
    ∑ s ∈ Finset.range e.nen, ∑ t ∈ Finset.range e.nen, ∑ j ∈ Finset.range d, ∑ b ∈ Finset.range n,
      (if e.node (s + 1) = a ∧ e.node (t + 1) = b + 1 then A.e (d * s + i) (d * t + (j + 1)) else 0) * u (b + 1) (j + 1) from ?_]
  · refine Finset.sum_congr rfl fun s _ => ?_
    by_cases h : e.node (s + 1) = a
    · rw [if_pos h]
      refine Finset.sum_congr rfl fun t ht => Finset.sum_congr rfl fun j _ => ?_
      have ht := hn t (Finset.mem_range.mp ht)
      refine Eq.trans (Finset.sum_congr rfl fun b _ => ?_) (pick n (e.node (t + 1)) ht.1 ht.2 (fun b => A.e (d * s + i) (d * t + (j + 1)) * u b (j + 1)))
      by_cases hb : e.node (t + 1) = b + 1
      · rw [if_pos ⟨h, hb⟩, if_pos hb]
      · rw [if_neg (fun c => hb c.2), if_neg hb, zero_mul]
    · rw [if_neg h]
      refine Finset.sum_eq_zero fun t _ => Finset.sum_eq_zero fun j _ => Finset.sum_eq_zero fun b _ => ?_
      rw [if_neg (fun c => h c.1), zero_mul]
  · simp only [Finset.sum_comm (s := Finset.range d) (t := Finset.range e.nen)]
    rw [Finset.sum_comm]
    refine Finset.sum_congr rfl fun s _ => ?_
    rw [Finset.sum_comm]
    refine Finset.sum_congr rfl fun t _ => ?_
    rw [Finset.sum_comm]

/-- Sums over the nodes of the model of a vector assembled from one element. -/
theorem one_sum (d n : Nat) (e : Elm K) (hn : ∀ s, s < e.nen → 1 ≤ e.node (s + 1) ∧ e.node (s + 1) ≤ n) (v : Nat → Nat → K) (g : Nat → Nat → K) :
    ∑ a ∈ Finset.range n, ∑ i ∈ Finset.range d, v (a + 1) (i + 1) * (∑ s ∈ Finset.range e.nen, if e.node (s + 1) = a + 1 then g s i else 0) =
    ∑ s ∈ Finset.range e.nen, ∑ i ∈ Finset.range d, loc e v (s + 1) (i + 1) * g s i := by
  simp only [Finset.mul_sum]
  simp only [Finset.sum_comm (s := Finset.range d) (t := Finset.range e.nen)]
  rw [Finset.sum_comm]
  refine Finset.sum_congr rfl fun s hs => ?_
  rw [Finset.sum_comm]
  refine Finset.sum_congr rfl fun i _ => ?_
  have hs := hn s (Finset.mem_range.mp hs)
  refine Eq.trans (Finset.sum_congr rfl fun a _ => ?_) (pick n (e.node (s + 1)) hs.1 hs.2 (fun a => v a (i + 1) * g s i))
  by_cases h : e.node (s + 1) = a + 1
  · rw [if_pos h, if_pos h]
  · rw [if_neg h, if_neg h, mul_zero]

theorem virtual_work_bil (d n : Nat) (ms : List (Elm K × DMat K)) (hn : ∀ e ∈ ms, ∀ s, s < e.1.nen → 1 ≤ e.1.node (s + 1) ∧ e.1.node (s + 1) ≤ n)
    (hs : ∀ e ∈ ms, e.2.nr = d * e.1.nen ∧ e.2.nc = d * e.1.nen) (v u : Nat → Nat → K) :
    ∑ a ∈ Finset.range n, ∑ i ∈ Finset.range d, v (a + 1) (i + 1) * nodal d n (asmK d ms) u (a + 1) (i + 1) =
      (ms.map fun e => e.2.bil (dofVec d (loc e.1 v)) (dofVec d (loc e.1 u))).sum := by
  induction ms with
  | nil => simp [nodal, asmK]
  | cons e l ih =>
    have hsplit : ∀ a i, nodal d n (asmK d (e :: l)) u a i = (∑ b ∈ Finset.range n, ∑ j ∈ Finset.range d, (∑ s ∈ Finset.range e.1.nen, ∑ t ∈ Finset.range e.1.nen,
        if e.1.node (s + 1) = a ∧ e.1.node (t + 1) = b + 1 then e.2.e (d * s + i) (d * t + (j + 1)) else 0) * u (b + 1) (j + 1)) + nodal d n (asmK d l) u a i := by
      intro a i
      simp only [nodal, asmK, List.map_cons, List.sum_cons, add_mul, Finset.sum_add_distrib]
    simp only [hsplit, mul_add, Finset.sum_add_distrib]
    rw [ih (fun e he => hn e (by simp [he])) (fun e he => hs e (by simp [he])), List.map_cons, List.sum_cons]
    refine congrArg (· + _) ?_
    simp only [one_nodal d n e.1 e.2 (hn e (by simp)) u]
    rw [one_sum d n e.1 (hn e (by simp)) v (fun s i => ∑ t ∈ Finset.range e.1.nen, ∑ j ∈ Finset.range d, e.2.e (d * s + (i + 1)) (d * t + (j + 1)) * loc e.1 u (t + 1) (j + 1)),
      bil_dof d e.1.nen e.2 (hs e (by simp)).1 (hs e (by simp)).2]
    simp only [Finset.mul_sum, mul_assoc, add_assoc]

theorem matrices_ok (d n : Nat) (x : Nat → Nat → K) (es : List (Elm K)) (h : Sound d n x es) (l : List (Elm K)) (hl : ∀ e ∈ l, e ∈ es) :
    ∃ ms, matrices d l = .ok ms ∧ (∀ e ∈ ms, e.1 ∈ es ∧ e.2.nr = d * e.1.nen ∧ e.2.nc = d * e.1.nen) ∧
      ∀ v u, (ms.map fun e => e.2.bil (dofVec d (loc e.1 v)) (dofVec d (loc e.1 u))).sum = work d l v u := by
  induction l with
  | nil => exact ⟨[], rfl, by simp, fun v u => by simp [work]⟩
  | cons e l ih =>
    obtain ⟨ms, h1, h2, h3⟩ := ih fun e he => hl e (by simp [he])
    obtain ⟨A, a1, a2, a3, a4⟩ := evalAll_bil d n x es h e (hl e (by simp)) e.pts (fun p hp => hp) (DMat.zero (d * e.nen) (d * e.nen)) rfl rfl
    refine ⟨(e, A) :: ms, ?_, fun q hq => ?_, fun v u => ?_⟩
    · simp only [matrices, elmK, a1, Res.bind, h1]
    · rcases List.mem_cons.mp hq with rfl | hq
      · exact ⟨hl _ (by simp), a2, a3⟩
      · exact h2 q hq
    · rw [List.map_cons, List.sum_cons, h3, a4]
      simp only [work, List.map_cons, List.sum_cons]
      have : (DMat.zero (d * e.nen) (d * e.nen) : DMat K).bil (dofVec d (loc e v)) (dofVec d (loc e u)) = 0 := by simp [DMat.bil, DMat.zero]
      rw [this, zero_add]

/-- C132 (virtual work): the assembly of a sound model succeeds, and the internal forces of displacements `u` are those of the principle of virtual work: their work in any displacements `v` is the
integral over all elements of the strains of `v` times the stresses that Hooke's law gives for `u`. -/
theorem C132_virtual_work (d n : Nat) (x : Nat → Nat → K) (es : List (Elm K)) (h : Sound d n x es) :
    ∃ ms, matrices d es = .ok ms ∧ ∀ v u, ∑ a ∈ Finset.range n, ∑ i ∈ Finset.range d, v (a + 1) (i + 1) * nodal d n (asmK d ms) u (a + 1) (i + 1) = work d es v u := by
  obtain ⟨ms, h1, h2, h3⟩ := matrices_ok d n x es h es fun _ he => he
  exact ⟨ms, h1, fun v u => (virtual_work_bil d n ms (fun e he => h.nodes e.1 (h2 e he).1) (fun e he => (h2 e he).2) v u).trans (h3 v u)⟩

theorem work_symm (d : Nat) (es : List (Elm K)) (v u : Nat → Nat → K) : work d es v u = work d es u v := by
  unfold work
  refine congrArg List.sum (List.map_congr_left fun e _ => congrArg List.sum (List.map_congr_left fun p _ => congrArg (p.w * ·) ?_))
  simp only [stress, Finset.mul_sum]
  rw [Finset.sum_comm]
  refine Finset.sum_congr rfl fun k _ => Finset.sum_congr rfl fun l _ => ?_
  rw [hooke_symm]; ring

theorem list_sum_nonneg (l : List K) (h : ∀ a ∈ l, 0 ≤ a) : 0 ≤ l.sum := by
  induction l with
  | nil => simp
  | cons a l ih => rw [List.sum_cons]; exact add_nonneg (h a (by simp)) (ih fun b hb => h b (by simp [hb]))

theorem list_sum_zero (l : List K) (h : ∀ a ∈ l, 0 ≤ a) (hs : l.sum = 0) : ∀ a ∈ l, a = 0 := by
  induction l with
  | nil => simp
  | cons a l ih =>
    rw [List.sum_cons] at hs
    have h1 := h a (by simp)
    have h2 := list_sum_nonneg l fun b hb => h b (by simp [hb])
    intro b hb
    rcases List.mem_cons.mp hb with rfl | hb
    · linarith
    · exact ih (fun b hb => h b (by simp [hb])) (by linarith) b hb

theorem pt_pos (d n : Nat) (x : Nat → Nat → K) (es : List (Elm K)) (h : Sound d n x es) (e : Elm K) (he : e ∈ es) (p : QPt K) (hp : p ∈ e.pts) (u : Nat → Nat → K) :
    0 ≤ p.w * ∑ k ∈ Finset.range (d * (d + 1) / 2), strain d p (loc e u) (k + 1) * stress d p (loc e u) (k + 1) ∧
    (p.w * ∑ k ∈ Finset.range (d * (d + 1) / 2), strain d p (loc e u) (k + 1) * stress d p (loc e u) (k + 1) = 0 → ∀ k, k < d * (d + 1) / 2 → strain d p (loc e u) (k + 1) = 0) := by
  obtain ⟨m1, m2, m3, -⟩ := h.material e he p hp
  have hw := h.weight e he p hp
  have hmu : 0 < p.mat.young p.fe p.X / (2 * (1 + LinIso.nuAt p.mat p.X)) := div_pos m1 (by linarith)
  have hh := hooke_pos d h.dim p.mat.planeStress _ _ m1 m2 m3 (strain d p (loc e u))
  have hsq : 0 ≤ ∑ k ∈ Finset.range (d * (d + 1) / 2), strain d p (loc e u) (k + 1) ^ 2 := Finset.sum_nonneg fun k _ => sq_nonneg _
  unfold stress
  refine ⟨mul_nonneg hw.le (le_trans (mul_nonneg hmu.le hsq) hh), fun h0 => ?_⟩
  have h0 := (mul_eq_zero.mp h0).resolve_left hw.ne'
  rw [h0] at hh
  have hz : ∑ k ∈ Finset.range (d * (d + 1) / 2), strain d p (loc e u) (k + 1) ^ 2 = 0 := le_antisymm (by
    by_contra hc; push Not at hc; exact absurd (mul_pos hmu hc) (not_lt.mpr hh)) hsq
  intro k hk
  have := (Finset.sum_eq_zero_iff_of_nonneg fun k _ => sq_nonneg _).mp hz k (Finset.mem_range.mpr hk)
  exact pow_eq_zero_iff (two_ne_zero) |>.mp this

theorem work_nonneg (d n : Nat) (x : Nat → Nat → K) (es : List (Elm K)) (h : Sound d n x es) (u : Nat → Nat → K) : 0 ≤ work d es u u ∧
    (work d es u u = 0 → ∀ e ∈ es, ∀ p ∈ e.pts, ∀ k, k < d * (d + 1) / 2 → strain d p (loc e u) (k + 1) = 0) := by
  have hin : ∀ e ∈ es, ∀ a ∈ e.pts.map fun p => p.w * ∑ k ∈ Finset.range (d * (d + 1) / 2), strain d p (loc e u) (k + 1) * stress d p (loc e u) (k + 1), 0 ≤ a := by
    intro e he a ha
    obtain ⟨p, hp, rfl⟩ := List.mem_map.mp ha
    exact (pt_pos d n x es h e he p hp u).1
  have hout : ∀ a ∈ es.map fun e => (e.pts.map fun p => p.w * ∑ k ∈ Finset.range (d * (d + 1) / 2), strain d p (loc e u) (k + 1) * stress d p (loc e u) (k + 1)).sum, 0 ≤ a := by
    intro a ha
    obtain ⟨e, he, rfl⟩ := List.mem_map.mp ha
    exact list_sum_nonneg _ (hin e he)
  refine ⟨list_sum_nonneg _ hout, fun h0 e he p hp => ?_⟩
  have h1 := list_sum_zero _ hout h0 _ (List.mem_map.mpr ⟨e, he, rfl⟩)
  exact (pt_pos d n x es h e he p hp u).2 (list_sum_zero _ (hin e he) h1 _ (List.mem_map.mpr ⟨p, hp, rfl⟩))

theorem strain_lin (d : Nat) (p : QPt K) (u v : Nat → Nat → K) (c : K) (k : Nat) : strain d p (fun a i => u a i + c * v a i) k = strain d p u k + c * strain d p v k := by
  have hg : ∀ i j, grad p.dN.nr (fun a i => u a i + c * v a i) p.dN.e i j = grad p.dN.nr u p.dN.e i j + c * grad p.dN.nr v p.dN.e i j := by
    intro i j
    simp only [grad, Finset.mul_sum, ← Finset.sum_add_distrib]
    exact Finset.sum_congr rfl fun _ _ => by ring
  unfold strain
  split_ifs
  · unfold eng2; split <;> (try simp only [hg]) <;> ring
  · unfold eng3; split <;> (try simp only [hg]) <;> ring

theorem work_lin (d : Nat) (es : List (Elm K)) (v u z : Nat → Nat → K) (c : K) : work d es v (fun a i => u a i + c * z a i) = work d es v u + c * work d es v z := by
  have hs : ∀ (p : QPt K) (e : Elm K) k, stress d p (loc e fun a i => u a i + c * z a i) k = stress d p (loc e u) k + c * stress d p (loc e z) k := by
    intro p e k
    simp only [stress, Finset.mul_sum, ← Finset.sum_add_distrib]
    refine Finset.sum_congr rfl fun l _ => ?_
    have := strain_lin d p (loc e u) (loc e z) c (l + 1)
    change _ * strain d p (fun a i => loc e u a i + c * loc e z a i) (l + 1) = _
    rw [this]; ring
  unfold work
  rw [← List.sum_map_mul_left, ← List.sum_map_add]
  refine congrArg List.sum (List.map_congr_left fun e _ => ?_)
  rw [← List.sum_map_mul_left, ← List.sum_map_add]
  refine congrArg List.sum (List.map_congr_left fun p _ => ?_)
  simp only [hs, mul_add, Finset.sum_add_distrib, Finset.mul_sum]
  refine congrArg (_ + ·) (Finset.sum_congr rfl fun k _ => by ring)

/-- Displacements that strain no integration point have no work. -/
theorem work_rigid (d n : Nat) (x : Nat → Nat → K) (es : List (Elm K)) (h : Sound d n x es) (r u : Nat → Nat → K) (hr : Rigid d x r) : work d es r u = 0 := by
  have hz : ∀ e ∈ es, ∀ p ∈ e.pts, ∀ k, k < d * (d + 1) / 2 → strain d p (loc e r) (k + 1) = 0 := by
    intro e he p hp k hk
    have hr' : Rigid d (loc e x) (loc e r) := by
      obtain ⟨c, W, w1, w2, w3⟩ := hr.ex
      exact ⟨c, W, w1, w2, fun a i => w3 _ _⟩
    have hc := h.complete e he p hp
    rw [← (h.size e he p hp).1] at hc
    obtain ⟨B, b1, b2, b3, b4⟩ := sB_eq d h.dim p (h.size e he p hp).2
    rw [← b4 _ _ hk]
    rcases h.dim with rfl | rfl
    · obtain ⟨B', b1', b2'⟩ := C06_rigid_2d p.dN (loc e x) (loc e r) (h.size e he p hp).2 hc hr'
      rw [b1] at b1'; cases b1'
      exact b2' (k + 1) (by omega) (by omega)
    · obtain ⟨B', b1', b2'⟩ := C06_rigid_3d p.dN (loc e x) (loc e r) (h.size e he p hp).2 hc hr'
      rw [b1] at b1'; cases b1'
      exact b2' (k + 1) (by omega) (by omega)
  unfold work
  refine List.sum_eq_zero fun a ha => ?_
  obtain ⟨e, he, rfl⟩ := List.mem_map.mp ha
  refine List.sum_eq_zero fun b hb => ?_
  obtain ⟨p, hp, rfl⟩ := List.mem_map.mp hb
  rw [Finset.sum_eq_zero fun k hk => by rw [hz e he p hp k (Finset.mem_range.mp hk), zero_mul], mul_zero]

/-- C132 (balance): for every solution, the support forces act only where displacements are prescribed, and together with the loads they are in equilibrium: in every direction, and for moments about any point. -/
theorem C132_balance (d n : Nat) (x : Nat → Nat → K) (es : List (Elm K)) (h : Sound d n x es) (F g : Nat → Nat → K) (fixed : Nat → Nat → Prop) :
    ∃ ms, matrices d es = .ok ms ∧ ∀ u, Solves d n (asmK d ms) F g fixed u →
      (∀ a i, a < n → i < d → ¬ fixed (a + 1) (i + 1) → reaction d n (asmK d ms) F u (a + 1) (i + 1) = 0) ∧
      (∀ i, 1 ≤ i → i ≤ d → ∑ a ∈ Finset.range n, (reaction d n (asmK d ms) F u (a + 1) i + F (a + 1) i) = 0) ∧
      ∀ (c : Nat → K) i j, 1 ≤ i → i ≤ d → 1 ≤ j → j ≤ d → ∑ a ∈ Finset.range n, ((x (a + 1) i - c i) * (reaction d n (asmK d ms) F u (a + 1) j + F (a + 1) j) -
        (x (a + 1) j - c j) * (reaction d n (asmK d ms) F u (a + 1) i + F (a + 1) i)) = 0 := by
  obtain ⟨ms, h1, h2⟩ := C132_virtual_work d n x es h
  refine ⟨ms, h1, fun u hu => ⟨fun a i ha hi hf => by rw [reaction, hu.free a i ha hi hf, sub_self], ?_, ?_⟩⟩
  · intro i i1 i2
    have hr : Rigid d x (fun _ k => if k = i then 1 else 0) := ⟨fun k => if k = i then 1 else 0, fun _ _ => 0, by simp, by simp, by simp⟩
    have := (h2 _ u).trans (work_rigid d n x es h _ u hr)
    rw [← this]
    refine Finset.sum_congr rfl fun a _ => ?_
    obtain ⟨i, rfl⟩ : ∃ k, i = k + 1 := ⟨i - 1, by omega⟩
    simp only [reaction, sub_add_cancel, Nat.add_right_cancel_iff, ite_mul, one_mul, zero_mul]
    rw [Finset.sum_ite_eq', if_pos (Finset.mem_range.mpr (by omega))]
  · intro c i j i1 i2 j1 j2
    by_cases hij : i = j
    · subst hij
      exact Finset.sum_eq_zero fun a _ => by ring
    have hr : Rigid d x (fun a k => (if k = j then x a i - c i else 0) - (if k = i then x a j - c j else 0)) := by
      refine ⟨fun k => (if k = j then - c i else 0) - (if k = i then - c j else 0), fun p q => if p = j ∧ q = i then 1 else if p = i ∧ q = j then -1 else 0, ?_, ?_, ?_⟩
      · intro p q
        by_cases p1 : p = i <;> by_cases p2 : p = j <;> by_cases q1 : q = i <;> by_cases q2 : q = j <;> simp_all
      · intro p
        by_cases p1 : p = i <;> by_cases p2 : p = j <;> simp_all
      · intro a k
        obtain ⟨i, rfl⟩ : ∃ k, i = k + 1 := ⟨i - 1, by omega⟩
        obtain ⟨j, rfl⟩ : ∃ k, j = k + 1 := ⟨j - 1, by omega⟩
        have hi : i ∈ Finset.range d := Finset.mem_range.mpr (by omega)
        have hj : j ∈ Finset.range d := Finset.mem_range.mpr (by omega)
        by_cases k1 : k = i + 1
        · subst k1
          have hne : ¬ (i = j) := fun hh => hij (by rw [hh])
          simp [hne, hj, ite_mul, Finset.sum_ite_eq']
          ring
        · by_cases k2 : k = j + 1
          · subst k2
            have hne : ¬ (j = i) := fun hh => hij (by rw [hh])
            simp [hne, hi, ite_mul, Finset.sum_ite_eq']
            ring
          · simp [k1, k2]
    have := (h2 _ u).trans (work_rigid d n x es h _ u hr)
    rw [← this]
    refine Finset.sum_congr rfl fun a _ => ?_
    obtain ⟨i, rfl⟩ : ∃ k, i = k + 1 := ⟨i - 1, by omega⟩
    obtain ⟨j, rfl⟩ : ∃ k, j = k + 1 := ⟨j - 1, by omega⟩
    simp only [reaction, sub_add_cancel, sub_mul, ite_mul, zero_mul, Finset.sum_sub_distrib, Nat.add_right_cancel_iff]
    rw [Finset.sum_ite_eq', if_pos (Finset.mem_range.mpr (by omega)), Finset.sum_ite_eq', if_pos (Finset.mem_range.mpr (by omega))]

/-- The work of the nodal forces `F` in the displacements `u`. -/
def dotN (d n : Nat) (F u : Nat → Nat → K) : K := ∑ a ∈ Finset.range n, ∑ i ∈ Finset.range d, F (a + 1) (i + 1) * u (a + 1) (i + 1)

theorem solves_test (d n : Nat) (Kg : Nat → Nat → Nat → Nat → K) (F g : Nat → Nat → K) (fixed : Nat → Nat → Prop) (u v : Nat → Nat → K) (hu : Solves d n Kg F g fixed u)
    (hv : ∀ a i, a < n → i < d → fixed (a + 1) (i + 1) → v (a + 1) (i + 1) = 0) :
    ∑ a ∈ Finset.range n, ∑ i ∈ Finset.range d, v (a + 1) (i + 1) * nodal d n Kg u (a + 1) (i + 1) = dotN d n F v := by
  classical
  unfold dotN
  refine Finset.sum_congr rfl fun a ha => Finset.sum_congr rfl fun i hi => ?_
  by_cases hf : fixed (a + 1) (i + 1)
  · rw [hv a i (Finset.mem_range.mp ha) (Finset.mem_range.mp hi) hf]; ring
  · rw [hu.free a i (Finset.mem_range.mp ha) (Finset.mem_range.mp hi) hf]; ring

/-- C132 (energy): with supports that do not move, the loads do twice as much work as is stored in the body. -/
theorem C132_clapeyron (d n : Nat) (x : Nat → Nat → K) (es : List (Elm K)) (h : Sound d n x es) (F : Nat → Nat → K) (fixed : Nat → Nat → Prop) :
    ∃ ms, matrices d es = .ok ms ∧ ∀ u, Solves d n (asmK d ms) F (fun _ _ => 0) fixed u → dotN d n F u = work d es u u ∧ 0 ≤ dotN d n F u := by
  obtain ⟨ms, h1, h2⟩ := C132_virtual_work d n x es h
  refine ⟨ms, h1, fun u hu => ?_⟩
  have := (solves_test d n (asmK d ms) F _ fixed u u hu fun a i ha hi hf => hu.held a i ha hi hf).symm.trans (h2 u u)
  exact ⟨this, this ▸ (work_nonneg d n x es h u).1⟩

/-- C132 (reciprocity): the work of the loads of one load case in the displacements of another is the same when the cases are exchanged. -/
theorem C132_reciprocity (d n : Nat) (x : Nat → Nat → K) (es : List (Elm K)) (h : Sound d n x es) (F F' : Nat → Nat → K) (fixed : Nat → Nat → Prop) :
    ∃ ms, matrices d es = .ok ms ∧ ∀ u u', Solves d n (asmK d ms) F (fun _ _ => 0) fixed u → Solves d n (asmK d ms) F' (fun _ _ => 0) fixed u' → dotN d n F u' = dotN d n F' u := by
  obtain ⟨ms, h1, h2⟩ := C132_virtual_work d n x es h
  refine ⟨ms, h1, fun u u' hu hu' => ?_⟩
  rw [← solves_test d n (asmK d ms) F _ fixed u u' hu fun a i ha hi hf => hu'.held a i ha hi hf,
    ← solves_test d n (asmK d ms) F' _ fixed u' u hu' fun a i ha hi hf => hu.held a i ha hi hf, h2, h2, work_symm]

/-- C132 (minimum): among all displacements with the prescribed values, a solution has the least potential energy; another has the same only if it gives the same strains everywhere. -/
theorem C132_minimum (d n : Nat) (x : Nat → Nat → K) (es : List (Elm K)) (h : Sound d n x es) (F g : Nat → Nat → K) (fixed : Nat → Nat → Prop) :
    ∃ ms, matrices d es = .ok ms ∧ ∀ u v, Solves d n (asmK d ms) F g fixed u → (∀ a i, a < n → i < d → fixed (a + 1) (i + 1) → v (a + 1) (i + 1) = g (a + 1) (i + 1)) →
      1 / 2 * work d es u u - dotN d n F u ≤ 1 / 2 * work d es v v - dotN d n F v ∧
      (1 / 2 * work d es u u - dotN d n F u = 1 / 2 * work d es v v - dotN d n F v →
        ∀ e ∈ es, ∀ p ∈ e.pts, ∀ k, k < d * (d + 1) / 2 → strain d p (loc e v) (k + 1) = strain d p (loc e u) (k + 1)) := by
  obtain ⟨ms, h1, h2⟩ := C132_virtual_work d n x es h
  refine ⟨ms, h1, fun u v hu hv => ?_⟩
  obtain ⟨z, hz⟩ : ∃ z : Nat → Nat → K, z = fun a i => v a i + -1 * u a i := ⟨_, rfl⟩
  have hvz : v = fun a i => u a i + 1 * z a i := by subst hz; funext a i; ring
  have e1 := (solves_test d n (asmK d ms) F g fixed u z hu fun a i ha hi hf => by rw [hz]; show v _ _ + -1 * u _ _ = 0; rw [hv a i ha hi hf, hu.held a i ha hi hf]; ring).symm.trans (h2 z u)
  have e2 : dotN d n F v = dotN d n F u + dotN d n F z := by
    rw [hvz]; unfold dotN
    simp only [← Finset.sum_add_distrib]
    exact Finset.sum_congr rfl fun a _ => Finset.sum_congr rfl fun i _ => by ring
  have e3 : work d es v v = work d es u u + 2 * work d es z u + work d es z z := by
    have q1 := work_lin d es v u z 1
    rw [← hvz] at q1
    have q2 := work_lin d es u u z 1
    have q3 := work_lin d es z u z 1
    rw [← hvz] at q2 q3
    rw [q1, work_symm d es v u, work_symm d es v z, q2, q3, work_symm d es u z]; ring
  obtain ⟨w1, w2⟩ := work_nonneg d n x es h z
  have e4 : 1 / 2 * work d es v v - dotN d n F v - (1 / 2 * work d es u u - dotN d n F u) = 1 / 2 * work d es z z := by rw [e2, e3, e1]; ring
  refine ⟨by linarith, fun heq e he p hp k hk => ?_⟩
  have := w2 (by linarith) e he p hp k hk
  have q := strain_lin d p (loc e u) (loc e z) 1 (k + 1)
  rw [this] at q
  have hl : (fun a i => loc e u a i + 1 * loc e z a i) = loc e v := by rw [hvz]; rfl
  rw [hl] at q
  rw [q]; ring

/-- C132 (uniqueness): two solutions of the same problem give the same strains everywhere, and so the same stresses. -/
theorem C132_unique_strains (d n : Nat) (x : Nat → Nat → K) (es : List (Elm K)) (h : Sound d n x es) (F g : Nat → Nat → K) (fixed : Nat → Nat → Prop) :
    ∃ ms, matrices d es = .ok ms ∧ ∀ u v, Solves d n (asmK d ms) F g fixed u → Solves d n (asmK d ms) F g fixed v →
      ∀ e ∈ es, ∀ p ∈ e.pts, ∀ k, k < d * (d + 1) / 2 → strain d p (loc e v) (k + 1) = strain d p (loc e u) (k + 1) ∧ stress d p (loc e v) (k + 1) = stress d p (loc e u) (k + 1) := by
  obtain ⟨ms, h1, h2⟩ := C132_minimum d n x es h F g fixed
  refine ⟨ms, h1, fun u v hu hv => ?_⟩
  have := (h2 u v hu hv.held).2 (le_antisymm (h2 u v hu hv.held).1 (h2 v u hv hu.held).1)
  refine fun e he p hp k hk => ⟨this e he p hp k hk, ?_⟩
  unfold stress
  exact Finset.sum_congr rfl fun l hl => by rw [this e he p hp l (Finset.mem_range.mp hl)]

/-- Equations whose matrix is definite on the displacements that the supports admit have exactly one solution. -/
theorem exactly_one (d n : Nat) (Kg : Nat → Nat → Nat → Nat → K) (F g : Nat → Nat → K) (fixed : Nat → Nat → Prop)
    (hdef : ∀ v : Nat → Nat → K, (∀ a i, a < n → i < d → fixed (a + 1) (i + 1) → v (a + 1) (i + 1) = 0) →
      ∑ a ∈ Finset.range n, ∑ i ∈ Finset.range d, v (a + 1) (i + 1) * nodal d n Kg v (a + 1) (i + 1) = 0 → ∀ a i, a < n → i < d → v (a + 1) (i + 1) = 0) :
    ∃ u, Solves d n Kg F g fixed u ∧ ∀ v, Solves d n Kg F g fixed v → ∀ a i, a < n → i < d → v (a + 1) (i + 1) = u (a + 1) (i + 1) := by
  classical
  let S := {p : Fin n × Fin d // ¬ fixed (p.1.val + 1) (p.2.val + 1)}
  let ext : (S → K) → Nat → Nat → K := fun y a i => if hh : ∃ s : S, a = s.1.1.val + 1 ∧ i = s.1.2.val + 1 then y hh.choose else 0
  have ext_eq : ∀ y (s : S), ext y (s.1.1.val + 1) (s.1.2.val + 1) = y s := by
    intro y s
    have hh : ∃ t : S, s.1.1.val + 1 = t.1.1.val + 1 ∧ s.1.2.val + 1 = t.1.2.val + 1 := ⟨s, rfl, rfl⟩
    simp only [ext, dif_pos hh]
    refine congrArg y ?_
    have := hh.choose_spec
    exact Subtype.ext (Prod.ext (Fin.ext (by omega)) (Fin.ext (by omega)))
  have ext_fix : ∀ y a i, fixed (a + 1) (i + 1) → ext y (a + 1) (i + 1) = 0 := by
    intro y a i hf
    simp only [ext]
    rw [dif_neg]
    rintro ⟨s, e1, e2⟩
    have e1 : a = s.1.1.val := by omega
    have e2 : i = s.1.2.val := by omega
    subst e1 e2
    exact s.2 hf
  have ext_lin : ∀ y z c, ext (y + c • z) = fun a i => ext y a i + c * ext z a i := by
    intro y z c
    funext a i
    simp only [ext]
    split_ifs <;> simp
  have nod_lin : ∀ (y z : Nat → Nat → K) c a i, nodal d n Kg (fun a i => y a i + c * z a i) a i = nodal d n Kg y a i + c * nodal d n Kg z a i := by
    intro y z c a i
    simp only [nodal, Finset.mul_sum, ← Finset.sum_add_distrib]
    exact Finset.sum_congr rfl fun _ _ => Finset.sum_congr rfl fun _ _ => by ring
  have ext0 : ext 0 = fun _ _ => 0 := by
    funext a i; simp only [ext]; split_ifs <;> simp
  let T : (S → K) →ₗ[K] (S → K) :=
    { toFun := fun y s => nodal d n Kg (ext y) (s.1.1.val + 1) (s.1.2.val + 1)
      map_add' := fun y z => by
        have := ext_lin y z 1
        rw [one_smul] at this
        funext s
        show nodal d n Kg (ext (y + z)) _ _ = _
        rw [this, nod_lin, one_mul]; rfl
      map_smul' := fun c z => by
        have := ext_lin 0 z c
        rw [zero_add] at this
        funext s
        show nodal d n Kg (ext (c • z)) _ _ = _
        rw [this, nod_lin, ext0]
        simp [nodal] }
  have hinj : Function.Injective T := by
    rw [← LinearMap.ker_eq_bot, LinearMap.ker_eq_bot']
    intro y hy
    have hw : ∑ a ∈ Finset.range n, ∑ i ∈ Finset.range d, ext y (a + 1) (i + 1) * nodal d n Kg (ext y) (a + 1) (i + 1) = 0 := by
      refine Finset.sum_eq_zero fun a ha => Finset.sum_eq_zero fun i hi => ?_
      by_cases hf : fixed (a + 1) (i + 1)
      · rw [ext_fix y a i hf, zero_mul]
      · have : nodal d n Kg (ext y) (a + 1) (i + 1) = 0 := congrFun hy ⟨(⟨a, Finset.mem_range.mp ha⟩, ⟨i, Finset.mem_range.mp hi⟩), hf⟩
        rw [this, mul_zero]
    have := hdef (ext y) (fun a i _ _ hf => ext_fix y a i hf) hw
    funext s
    rw [← ext_eq y s, this _ _ s.1.1.isLt s.1.2.isLt]; rfl
  have hsur : Function.Surjective T := LinearMap.injective_iff_surjective.mp hinj
  obtain ⟨g0, hg0⟩ : ∃ g0 : Nat → Nat → K, g0 = fun a i => if fixed a i then g a i else 0 := ⟨_, rfl⟩
  obtain ⟨y, hy⟩ := hsur fun s => F (s.1.1.val + 1) (s.1.2.val + 1) - nodal d n Kg g0 (s.1.1.val + 1) (s.1.2.val + 1)
  have hu : Solves d n Kg F g fixed (fun a i => g0 a i + 1 * ext y a i) := by
    refine ⟨fun a i ha hi hf => ?_, fun a i ha hi hf => ?_⟩
    · have : nodal d n Kg (ext y) (a + 1) (i + 1) = F (a + 1) (i + 1) - nodal d n Kg g0 (a + 1) (i + 1) := congrFun hy ⟨(⟨a, ha⟩, ⟨i, hi⟩), hf⟩
      rw [nod_lin, this]; ring
    · show g0 (a + 1) (i + 1) + 1 * ext y (a + 1) (i + 1) = _
      rw [ext_fix y a i hf, hg0]
      simp [hf]
  refine ⟨_, hu, fun v hv a i ha hi => ?_⟩
  obtain ⟨u, hue⟩ : ∃ u : Nat → Nat → K, u = fun a i => g0 a i + 1 * ext y a i := ⟨_, rfl⟩
  rw [← hue] at hu
  rw [← show u (a + 1) (i + 1) = g0 (a + 1) (i + 1) + 1 * ext y (a + 1) (i + 1) by rw [hue]]
  have hz := hdef (fun a i => v a i + -1 * u a i) (fun a i ha hi hf => by rw [hv.held a i ha hi hf, hu.held a i ha hi hf]; ring) (Finset.sum_eq_zero fun a ha => Finset.sum_eq_zero fun i hi => by
    by_cases hf : fixed (a + 1) (i + 1)
    · rw [hv.held a i (Finset.mem_range.mp ha) (Finset.mem_range.mp hi) hf, hu.held a i (Finset.mem_range.mp ha) (Finset.mem_range.mp hi) hf]; ring
    · rw [nod_lin, hv.free a i (Finset.mem_range.mp ha) (Finset.mem_range.mp hi) hf, hu.free a i (Finset.mem_range.mp ha) (Finset.mem_range.mp hi) hf]; ring)
  have hq : v (a + 1) (i + 1) + -1 * u (a + 1) (i + 1) = 0 := hz a i ha hi
  linear_combination hq

/-- C132 (existence): if the supports admit no motion without strains, then for all loads and prescribed displacements there is a solution, and only one. -/
theorem C132_exists (d n : Nat) (x : Nat → Nat → K) (es : List (Elm K)) (h : Sound d n x es) (F g : Nat → Nat → K) (fixed : Nat → Nat → Prop)
    (hsup : ∀ v : Nat → Nat → K, (∀ a i, a < n → i < d → fixed (a + 1) (i + 1) → v (a + 1) (i + 1) = 0) →
      (∀ e ∈ es, ∀ p ∈ e.pts, ∀ k, k < d * (d + 1) / 2 → strain d p (loc e v) (k + 1) = 0) → ∀ a i, a < n → i < d → v (a + 1) (i + 1) = 0) :
    ∃ ms, matrices d es = .ok ms ∧ ∃ u, Solves d n (asmK d ms) F g fixed u ∧ ∀ v, Solves d n (asmK d ms) F g fixed v → ∀ a i, a < n → i < d → v (a + 1) (i + 1) = u (a + 1) (i + 1) := by
  obtain ⟨ms, h1, h2⟩ := C132_virtual_work d n x es h
  refine ⟨ms, h1, exactly_one d n (asmK d ms) F g fixed fun v hv hz => ?_⟩
  rw [h2] at hz
  exact hsup v hv ((work_nonneg d n x es h v).2 hz)

/-- Sums over the nodes of an assembled vector. -/
theorem asmV_sum (d n : Nat) (fs : List (Elm K × DVec K)) (hn : ∀ e ∈ fs, ∀ s, s < e.1.nen → 1 ≤ e.1.node (s + 1) ∧ e.1.node (s + 1) ≤ n) (v : Nat → Nat → K) :
    ∑ a ∈ Finset.range n, ∑ i ∈ Finset.range d, v (a + 1) (i + 1) * asmV d fs (a + 1) (i + 1) =
      (fs.map fun e => ∑ s ∈ Finset.range e.1.nen, ∑ i ∈ Finset.range d, loc e.1 v (s + 1) (i + 1) * e.2.e (d * s + (i + 1))).sum := by
  induction fs with
  | nil => simp [asmV]
  | cons e l ih =>
    have hsplit : ∀ a i, asmV d (e :: l) a i = (∑ s ∈ Finset.range e.1.nen, if e.1.node (s + 1) = a then e.2.e (d * s + i) else 0) + asmV d l a i := by
      intro a i; simp only [asmV, List.map_cons, List.sum_cons]
    simp only [hsplit, mul_add, Finset.sum_add_distrib]
    rw [ih fun e he => hn e (by simp [he]), one_sum d n e.1 (hn e (by simp)) v (fun s i => e.2.e (d * s + (i + 1))), List.map_cons, List.sum_cons]

theorem dir_sum (d i : Nat) (h1 : 1 ≤ i) (h2 : i ≤ d) (f : Nat → K) : ∑ k ∈ Finset.range d, (if k + 1 = i then 1 else 0) * f (k + 1) = f i := by
  obtain ⟨i, rfl⟩ : ∃ k, i = k + 1 := ⟨i - 1, by omega⟩
  simp only [Nat.add_right_cancel_iff, ite_mul, one_mul, zero_mul]
  rw [Finset.sum_ite_eq', if_pos (Finset.mem_range.mpr (by omega))]

theorem loads_size (d n : Nat) (evs : List (LoadEv K)) (hn : ∀ ev ∈ evs, ev.N.n = n) (hN : ∀ ev ∈ evs, ∑ a ∈ Finset.range n, ev.N.e (a + 1) = 1) (L : Loads K) (hL : loads d n false evs = .ok L) :
    L.ES.n = d * n ∧ ∀ i, 1 ≤ i → i ≤ d → nodalSum d L.ES i = L.sumLoad.e i := by
  have gen : ∀ evs : List (LoadEv K), (∀ ev ∈ evs, ev.N.n = n) → (∀ ev ∈ evs, ∑ a ∈ Finset.range n, ev.N.e (a + 1) = 1) → ∀ L0 : Loads K, L0.ES.n = d * n → L0.sumLoad.n = d →
      (∀ i, 1 ≤ i → i ≤ d → nodalSum d L0.ES i = L0.sumLoad.e i) →
      ∃ L', evs.foldl (fun R ev => R.bind fun L => applyLoad d false L ev) (Res.ok L0) = .ok L' ∧ L'.ES.n = d * n ∧ ∀ i, 1 ≤ i → i ≤ d → nodalSum d L'.ES i = L'.sumLoad.e i := by
    intro evs
    induction evs with
    | nil => exact fun _ _ L0 h1 _ h3 => ⟨L0, rfl, h1, h3⟩
    | cons ev l ih =>
      intro hn hN L0 h1 h2 h3
      obtain ⟨L', e1, e2, e3, e4⟩ := applyLoad_ok d n false L0 ev (hn ev (by simp)) (hN ev (by simp)) (by simp) h1 h2 h3
      obtain ⟨L2, e5⟩ := ih (fun e he => hn e (by simp [he])) (fun e he => hN e (by simp [he])) L' e2 e3 e4
      refine ⟨L2, ?_, e5.2⟩
      rw [List.foldl_cons]
      exact (congrArg (fun r => l.foldl (fun R ev => R.bind fun L => applyLoad d false L ev) r) (show (Res.ok L0).bind (fun L => applyLoad d false L ev) = Res.ok L' from e1)).trans e5.1
  obtain ⟨L', e1, e2, e3⟩ := gen evs hn hN ⟨DVec.zero (d * n), DVec.zero d⟩ rfl rfl (by intro i _ _; simp [nodalSum, DVec.dot, DVec.zero])
  unfold loads at hL
  rw [e1] at hL
  cases hL
  exact ⟨e2, e3⟩

/-- C132 (reported loads): with body forces and tractions as the only loads, in each direction the support forces of a solution and the sums of the loads that the elements report add up to zero. -/
theorem C132_reported (d n : Nat) (x : Nat → Nat → K) (es : List (Elm K)) (h : Sound d n x es) (g : Nat → Nat → K) (fixed : Nat → Nat → Prop) (ls : List (Elm K × Loads K))
    (hls : ∀ l ∈ ls, l.1 ∈ es ∧ ∃ evs, loads d l.1.nen false evs = .ok l.2 ∧ (∀ ev ∈ evs, ev.N.n = l.1.nen) ∧ ∀ ev ∈ evs, ∑ a ∈ Finset.range l.1.nen, ev.N.e (a + 1) = 1) :
    ∃ ms, matrices d es = .ok ms ∧ ∀ u, Solves d n (asmK d ms) (asmV d (ls.map fun l => (l.1, l.2.ES))) g fixed u → ∀ i, 1 ≤ i → i ≤ d →
      ∑ a ∈ Finset.range n, reaction d n (asmK d ms) (asmV d (ls.map fun l => (l.1, l.2.ES))) u (a + 1) i + (ls.map fun l => l.2.sumLoad.e i).sum = 0 := by
  obtain ⟨ms, h1, h2⟩ := C132_balance d n x es h (asmV d (ls.map fun l => (l.1, l.2.ES))) g fixed
  refine ⟨ms, h1, fun u hu i i1 i2 => ?_⟩
  have hb := (h2 u hu).2.1 i i1 i2
  rw [Finset.sum_add_distrib] at hb
  rw [← hb]
  refine congrArg (_ + ·) ?_
  have hs := asmV_sum d n (ls.map fun l => (l.1, l.2.ES)) (fun e he => by
    obtain ⟨l, hl, rfl⟩ := List.mem_map.mp he
    exact h.nodes l.1 (hls l hl).1) (fun _ k => if k = i then 1 else 0)
  simp only [loc] at hs
  rw [Finset.sum_congr rfl fun a _ => dir_sum d i i1 i2 (fun k => asmV d (ls.map fun l => (l.1, l.2.ES)) (a + 1) k)] at hs
  rw [hs, List.map_map]
  refine congrArg List.sum (List.map_congr_left fun l hl => ?_)
  obtain ⟨-, evs, e1, e2, e3⟩ := hls l hl
  obtain ⟨s1, s2⟩ := loads_size d l.1.nen evs e2 e3 l.2 e1
  rw [← s2 i i1 i2]
  simp only [Function.comp, nodalSum, DVec.dot, s1]
  rw [sum_range_mul]
  refine Finset.sum_congr rfl fun s _ => Finset.sum_congr rfl fun k hk => ?_
  rw [dofVec_eq _ _ _ _ (Finset.mem_range.mp hk), add_assoc, mul_comm]

end

/-- Forces in equilibrium at the positions `y`: no resultant, and no moment about any point. -/
def InBalance (d n : Nat) (y : Nat → Nat → ℝ) (R : Nat → Nat → ℝ) : Prop :=
  (∀ i, 1 ≤ i → i ≤ d → ∑ a ∈ Finset.range n, R (a + 1) i = 0) ∧
  ∀ (c : Nat → ℝ) i j, 1 ≤ i → i ≤ d → 1 ≤ j → j ≤ d → ∑ a ∈ Finset.range n, ((y (a + 1) i - c i) * R (a + 1) j - (y (a + 1) j - c j) * R (a + 1) i) = 0

theorem asmV_balance (d n : Nat) (y : Nat → Nat → ℝ) (fs : List (Elm ℝ × DVec ℝ)) (hn : ∀ e ∈ fs, ∀ s, s < e.1.nen → 1 ≤ e.1.node (s + 1) ∧ e.1.node (s + 1) ≤ n)
    (hb : ∀ e ∈ fs, Finite.Balanced d e.1.nen (loc e.1 y) e.2) : InBalance d n y (asmV d fs) := by
  have dirs : ∀ (w : Nat → ℝ) i, 1 ≤ i → i ≤ d → ∑ a ∈ Finset.range n, w (a + 1) * asmV d fs (a + 1) i =
      (fs.map fun e => ∑ s ∈ Finset.range e.1.nen, w (e.1.node (s + 1)) * e.2.e (d * s + i)).sum := by
    intro w i i1 i2
    have hs := asmV_sum d n fs hn (fun a k => if k = i then w a else 0)
    have e1 : ∀ (c : ℝ) (f : Nat → ℝ), ∑ k ∈ Finset.range d, (if k + 1 = i then c else 0) * f (k + 1) = c * f i := by
      intro c f
      rw [← dir_sum d i i1 i2 f, Finset.mul_sum]
      refine Finset.sum_congr rfl fun k _ => ?_
      by_cases hk : k + 1 = i <;> simp [hk]
    rw [Finset.sum_congr rfl fun a _ => e1 (w (a + 1)) (fun k => asmV d fs (a + 1) k)] at hs
    rw [hs]
    refine congrArg List.sum (List.map_congr_left fun e _ => Finset.sum_congr rfl fun s _ => ?_)
    exact e1 (w (e.1.node (s + 1))) (fun k => e.2.e (d * s + k))
  have tot : ∀ i, 1 ≤ i → i ≤ d → ∑ a ∈ Finset.range n, asmV d fs (a + 1) i = 0 := by
    intro i i1 i2
    have := dirs (fun _ => 1) i i1 i2
    simp only [one_mul] at this
    rw [this]
    refine List.sum_eq_zero fun b hb' => ?_
    obtain ⟨e, he, rfl⟩ := List.mem_map.mp hb'
    exact (hb e he).1 i i1 i2
  refine ⟨tot, fun c i j i1 i2 j1 j2 => ?_⟩
  have h0 : ∑ a ∈ Finset.range n, (y (a + 1) i * asmV d fs (a + 1) j - y (a + 1) j * asmV d fs (a + 1) i) = 0 := by
    rw [Finset.sum_sub_distrib, dirs (fun a => y a i) j j1 j2, dirs (fun a => y a j) i i1 i2]
    have : ∀ l : List (Elm ℝ × DVec ℝ), (∀ e ∈ l, e ∈ fs) → (l.map fun e => ∑ s ∈ Finset.range e.1.nen, y (e.1.node (s + 1)) i * e.2.e (d * s + j)).sum -
        (l.map fun e => ∑ s ∈ Finset.range e.1.nen, y (e.1.node (s + 1)) j * e.2.e (d * s + i)).sum = 0 := by
      intro l
      induction l with
      | nil => simp
      | cons e l ih =>
        intro hl
        have q := (hb e (hl e (by simp))).2 i j i1 i2 j1 j2
        have r := ih fun e he => hl e (by simp [he])
        rw [Finset.sum_sub_distrib] at q
        simp only [List.map_cons, List.sum_cons]
        simp only [loc] at q
        linarith
    exact this fs fun _ he => he
  have h1 := tot i i1 i2
  have h2 := tot j j1 j2
  have : ∀ a, (y (a + 1) i - c i) * asmV d fs (a + 1) j - (y (a + 1) j - c j) * asmV d fs (a + 1) i =
      (y (a + 1) i * asmV d fs (a + 1) j - y (a + 1) j * asmV d fs (a + 1) i) - c i * asmV d fs (a + 1) j + c j * asmV d fs (a + 1) i := fun a => by ring
  simp only [this, Finset.sum_add_distrib, Finset.sum_sub_distrib (f := fun a => y (a + 1) i * asmV d fs (a + 1) j - y (a + 1) j * asmV d fs (a + 1) i), ← Finset.mul_sum, h0, h1, h2]
  ring

/-- C132 (large deformations): in a total Lagrangian analysis, in any state of deformation, the forces needed at the nodes besides the loads `F` to balance the internal forces (in a converged state: the support
forces) are in equilibrium with the loads in the deformed configuration, for moments about any point. -/
theorem C132_large (d : Nat) (hd : d = 2 ∨ d = 3) (n : Nat) (tol epsR : ℝ) (X u : Nat → Nat → ℝ) (es : List (Elm ℝ × List (Finite.FPt ℝ × Finite.Mat ℝ)))
    (hn : ∀ e ∈ es, 0 < e.1.nen ∧ ∀ s, s < e.1.nen → 1 ≤ e.1.node (s + 1) ∧ e.1.node (s + 1) ≤ n)
    (hp : ∀ e ∈ es, ∀ p ∈ e.2, Finite.Iso d e.1.nen (loc e.1 X) p.1 ∧
      ∃ C S, p.2 (Finite.defF d (grad e.1.nen (loc e.1 u) p.1.dN.e)) (Finite.greenV d (grad e.1.nen (loc e.1 u) p.1.dN.e)) = .ok (C, S) ∧ C.nc = d * (d + 1) / 2) :
    ∃ fs : List (Elm ℝ × DVec ℝ), List.Forall₂ (fun e f => f.1 = e.1 ∧ ∃ A, Finite.tlElement d false tol epsR ⟨d * e.1.nen, dofVec d (loc e.1 u)⟩ e.2
        (DMat.zero (d * e.1.nen) (d * e.1.nen), DVec.zero (d * e.1.nen)) = .ok (A, f.2)) es fs ∧
      ∀ F R : Nat → Nat → ℝ, (∀ a i, F a i + R a i + asmV d fs a i = 0) → InBalance d n (fun a i => X a i + u a i) (fun a i => F a i + R a i) := by
  have key : ∃ fs : List (Elm ℝ × DVec ℝ), List.Forall₂ (fun e f => f.1 = e.1 ∧ ∃ A, Finite.tlElement d false tol epsR ⟨d * e.1.nen, dofVec d (loc e.1 u)⟩ e.2
        (DMat.zero (d * e.1.nen) (d * e.1.nen), DVec.zero (d * e.1.nen)) = .ok (A, f.2)) es fs ∧
      ∀ f ∈ fs, (∃ e ∈ es, f.1 = e.1) ∧ Finite.Balanced d f.1.nen (loc f.1 fun a i => X a i + u a i) f.2 := by
    induction es with
    | nil => exact ⟨[], List.Forall₂.nil, by simp⟩
    | cons e l ih =>
      obtain ⟨fs, f1, f2⟩ := ih (fun e he => hn e (by simp [he])) (fun e he => hp e (by simp [he]))
      obtain ⟨A, f, a1, -, a3⟩ := Finite.C122_total_balance d hd e.1.nen (hn e (by simp)).1 tol epsR e.2 (loc e.1 X) (loc e.1 u) (hp e (by simp))
      refine ⟨(e.1, f) :: fs, List.Forall₂.cons ⟨rfl, A, a1⟩ f1, fun q hq => ?_⟩
      rcases List.mem_cons.mp hq with rfl | hq
      · exact ⟨⟨e, by simp, rfl⟩, a3⟩
      · obtain ⟨⟨e', he', e2⟩, q2⟩ := f2 q hq
        exact ⟨⟨e', by simp [he'], e2⟩, q2⟩
  obtain ⟨fs, f1, f2⟩ := key
  refine ⟨fs, f1, fun F R hR => ?_⟩
  have hb := asmV_balance d n (fun a i => X a i + u a i) fs (fun f hf => by
    obtain ⟨⟨e, he, e2⟩, -⟩ := f2 f hf
    rw [e2]; exact (hn e he).2) fun f hf => (f2 f hf).2
  have hR' : ∀ a i, F a i + R a i = - asmV d fs a i := fun a i => by linarith [hR a i]
  refine ⟨fun i i1 i2 => ?_, fun c i j i1 i2 j1 j2 => ?_⟩
  · simp only [hR', Finset.sum_neg_distrib, hb.1 i i1 i2, neg_zero]
  · simp only [hR']
    rw [← neg_zero, ← hb.2 c i j i1 i2 j1 j2, ← Finset.sum_neg_distrib]
    exact Finset.sum_congr rfl fun a _ => by ring

/-! ### An example: a square of two triangles -/

/-- Nodes 1–4 in (0,0), (1,0), (0,1), (1,1). -/
def sqX (a i : Nat) : ℚ := if i = 1 then (if a = 2 ∨ a = 4 then 1 else 0) else if i = 2 then (if a = 3 ∨ a = 4 then 1 else 0) else 0

def sqMat : LinIso.Mat ℚ := { Emod := 205, nu := 3 / 10 }

/-- Constant strain triangles with nodes 1, 2, 3 and 4, 3, 2. -/
def sqElms : List (Elm ℚ) :=
  [⟨3, fun s => s, [⟨⟨3, 2, fun a j => if a = 1 then -1 else if a = j + 1 then 1 else 0⟩, sqMat, ⟨0, 0, 0⟩, ⟨0, 0, 0⟩, 1 / 2⟩]⟩,
   ⟨3, fun s => 5 - s, [⟨⟨3, 2, fun a j => if a = 1 then 1 else if a = j + 1 then -1 else 0⟩, sqMat, ⟨0, 0, 0⟩, ⟨0, 0, 0⟩, 1 / 2⟩]⟩]

theorem sq_sound : Sound 2 4 sqX sqElms := by
  refine ⟨Or.inl rfl, ?_, ?_, ?_, ?_, ?_⟩
  · intro e he s hs
    simp only [sqElms, List.mem_cons, List.not_mem_nil, or_false] at he
    rcases he with rfl | rfl <;> (change s < 3 at hs; constructor <;> dsimp only <;> omega)
  · intro e he p hp
    simp only [sqElms, List.mem_cons, List.not_mem_nil, or_false] at he
    rcases he with rfl | rfl <;> (simp only [List.mem_cons, List.not_mem_nil, or_false] at hp; subst hp; exact ⟨rfl, le_refl _⟩)
  · intro e he p hp
    simp only [sqElms, List.mem_cons, List.not_mem_nil, or_false] at he
    rcases he with rfl | rfl <;>
      (simp only [List.mem_cons, List.not_mem_nil, or_false] at hp; subst hp
       refine ⟨fun j h1 h2 => ?_, fun i j h1 h2 h3 h4 => ?_⟩
       · interval_cases j <;> simp [Finset.sum_range_succ]
       · interval_cases i <;> interval_cases j <;> simp [Finset.sum_range_succ, loc, sqX])
  · intro e he p hp
    simp only [sqElms, List.mem_cons, List.not_mem_nil, or_false] at he
    rcases he with rfl | rfl <;>
      (simp only [List.mem_cons, List.not_mem_nil, or_false] at hp; subst hp; norm_num [sqMat, LinIso.Mat.young, LinIso.nuAt])
  · intro e he p hp
    simp only [sqElms, List.mem_cons, List.not_mem_nil, or_false] at he
    rcases he with rfl | rfl <;>
      (simp only [List.mem_cons, List.not_mem_nil, or_false] at hp; subst hp; norm_num)

/-- Node 1 is held, and node 2 in the second direction. -/
def sqFix (a i : Nat) : Prop := a = 1 ∨ (a = 2 ∧ i = 2)

/-- The supports of the example admit no motion without strains; so by C132_exists every load gives exactly one solution. -/
theorem sq_supported (v : Nat → Nat → ℚ) (hv : ∀ a i, a < 4 → i < 2 → sqFix (a + 1) (i + 1) → v (a + 1) (i + 1) = 0)
    (hs : ∀ e ∈ sqElms, ∀ p ∈ e.pts, ∀ k, k < 2 * (2 + 1) / 2 → strain 2 p (loc e v) (k + 1) = 0) : ∀ a i, a < 4 → i < 2 → v (a + 1) (i + 1) = 0 := by
  have f1 := hv 0 0 (by omega) (by omega) (Or.inl rfl)
  have f2 := hv 0 1 (by omega) (by omega) (Or.inl rfl)
  have f3 := hv 1 1 (by omega) (by omega) (Or.inr ⟨rfl, rfl⟩)
  have a := fun k hk => hs _ (List.mem_cons_self ..) _ (List.mem_cons_self ..) k hk
  have b := fun k hk => hs _ (List.mem_cons_of_mem _ (List.mem_cons_self ..)) _ (List.mem_cons_self ..) k hk
  have a1 := a 0 (by decide)
  have a2 := a 1 (by decide)
  have a3 := a 2 (by decide)
  have b1 := b 0 (by decide)
  have b2 := b 1 (by decide)
  have b3 := b 2 (by decide)
  simp [strain, eng2, grad, Finset.sum_range_succ, loc] at a1 a2 a3 b1 b2 b3 f1 f2 f3
  intro a i ha hi
  interval_cases a <;> interval_cases i <;> simp <;> linarith

example (F g : Nat → Nat → ℚ) : ∃ ms, matrices 2 sqElms = .ok ms ∧ ∃ u, Solves 2 4 (asmK 2 ms) F g sqFix u ∧
    ∀ v, Solves 2 4 (asmK 2 ms) F g sqFix v → ∀ a i, a < 4 → i < 2 → v (a + 1) (i + 1) = u (a + 1) (i + 1) :=
  C132_exists 2 4 sqX sqElms sq_sound F g sqFix sq_supported

/-- The example of C132_reported: a body force in the first element. -/
example : ∃ L, loads 2 3 false [.body ⟨3, fun _ => 1 / 3⟩ (fun i => if i = 2 then (-10 : ℚ) else 0) false (1 / 2)] = .ok L ∧ L.sumLoad.e 2 = -5 ∧
    ∑ a ∈ Finset.range 3, (⟨3, fun _ => 1 / 3⟩ : DVec ℚ).e (a + 1) = 1 := by
  refine ⟨_, rfl, ?_, ?_⟩
  · norm_num [DVec.zero]
  · norm_num

/-- The hypotheses of C132_large hold for a stretched triangle. -/
example : ∃ fs : List (Elm ℝ × DVec ℝ), List.Forall₂ (fun e f => f.1 = e.1 ∧ ∃ A, Finite.tlElement 2 false 0 0 ⟨2 * e.1.nen, dofVec 2 (loc e.1 (Finite.stretch 1))⟩ e.2
      (DMat.zero (2 * e.1.nen) (2 * e.1.nen), DVec.zero (2 * e.1.nen)) = .ok (A, f.2)) [(⟨3, fun s => s, []⟩, [(Finite.triangle, Finite.linOp Finite.plane1 1)])] fs ∧
    ∀ F R : Nat → Nat → ℝ, (∀ a i, F a i + R a i + asmV 2 fs a i = 0) → InBalance 2 3 (fun a i => Finite.corner a i + Finite.stretch 1 a i) (fun a i => F a i + R a i) :=
  C132_large 2 (.inl rfl) 3 0 0 Finite.corner (Finite.stretch 1) [(⟨3, fun s => s, []⟩, [(Finite.triangle, Finite.linOp Finite.plane1 1)])]
    (fun e he => by obtain rfl := List.mem_singleton.mp he; exact ⟨by decide, fun s hs => ⟨Nat.succ_pos s, hs⟩⟩)
    fun e he p hp => by
      obtain rfl := List.mem_singleton.mp he
      obtain rfl := List.mem_singleton.mp hp
      exact ⟨Finite.triangle_iso, _, _, rfl, rfl⟩

end Verif.Struct
