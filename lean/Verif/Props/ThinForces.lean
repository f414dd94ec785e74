/-
C129: balance of the internal forces of shells, plates, cables and bars, and how they turn with the structure.
-/
import Verif.Props.NLShell
import Verif.Props.Plate
import Mathlib.LinearAlgebra.Matrix.NonsingularInverse

set_option linter.unusedSectionVars false
set_option linter.unusedSimpArgs false
set_option linter.unusedVariables false
set_option linter.unnecessarySeqFocus false

namespace Verif.Shell

open Verif.Beam (V3)
open Verif.Bar (len unit cross len_sq len_pos unit_sq)
open Verif.Cable (dot)
open Verif.LinIso (FE Pt Mat Admissible nuAt)

/-! ### Balance of the shell forces -/

theorem dn_lin (g1 g2 : V3 ℝ) (f : Basis) (k : Nat) (d : Fin 3) : dn g1 g2 f k d = dnLin g1 g2 f k d := by
  have h3 : (fun i => cross g1 (single (f.dN k 1) d) i + cross (single (f.dN k 0) d) g2 i) = dg3 g1 g2 f k d := by
    funext i; rw [dg3_eq]; ring
  funext i
  simp only [dn, dnLin, h3]
  rw [show cross g1 (single (f.dN k 1) d) i + cross (single (f.dN k 0) d) g2 i = dg3 g1 g2 f k d i from congrFun h3 i]
  ring

theorem dK_lin (g : Geo) (f : Basis) (k : Nat) (d : Fin 3) : dK g f k d = dKLin g f k d := by
  funext j; simp only [dK, dKLin, dn_lin]

/-- Translation and infinitesimal rotation of the nodes change neither strains nor curvatures. -/
theorem virtual (G : Geo) (f : Basis) (x : Nat → V3 ℝ) (h1 : ∀ c, ∑ k ∈ Finset.range f.nen, f.dN k c = 0)
    (h2 : ∀ j, ∑ k ∈ Finset.range f.nen, f.d2N k j = 0)
    (e1 : ∀ i, ∑ k ∈ Finset.range f.nen, f.dN k 0 * x k i = G.g1 i)
    (e2 : ∀ i, ∑ k ∈ Finset.range f.nen, f.dN k 1 * x k i = G.g2 i)
    (eH : ∀ j i, ∑ k ∈ Finset.range f.nen, f.d2N k j * x k i = G.H j i)
    (c om : V3 ℝ) (j : Fin 3) :
    (∑ k ∈ Finset.range f.nen, ∑ d, dE G.g1 G.g2 f k d j * (c d + cross om (x k) d)) = 0 ∧
    (∑ k ∈ Finset.range f.nen, ∑ d, dKLin G f k d j * (c d + cross om (x k) d)) = 0 := by
  obtain ⟨u, hu⟩ : ∃ u : Nat → V3 ℝ, u = fun k d => c d + cross om (x k) d := ⟨_, rfl⟩
  have gen : ∀ (w : Nat → ℝ) (v : V3 ℝ), (∑ k ∈ Finset.range f.nen, w k = 0) →
      (∀ i, ∑ k ∈ Finset.range f.nen, w k * x k i = v i) → (fun i => ∑ k ∈ Finset.range f.nen, w k * u k i) = cross om v := by
    intro w v hw hv
    funext i
    simp only [hu]
    fin_cases i <;> simp [cross, ← hv, mul_add, mul_sub, Finset.sum_add_distrib, Finset.mul_sum, ← Finset.sum_mul, hw,
      Finset.sum_sub_distrib, mul_left_comm]
  have t1 : d1 f u 0 = cross om G.g1 := gen _ _ (h1 0) e1
  have t2 : d1 f u 1 = cross om G.g2 := gen _ _ (h1 1) e2
  have t3 : ∀ j, d2 f u j = cross om (G.H j) := fun j => gen _ _ (h2 j) (eH j)
  have hE := dE_sum G.g1 G.g2 f u j
  have hK := dK_sum G f u j
  rw [t1, t2] at hE
  rw [t1, t2, t3] at hK
  have z1 : ∀ a : V3 ℝ, dot a (cross om a) = 0 := by intro a; simp [dot, cross]; ring
  have z2 : ∀ a b : V3 ℝ, dot b (cross om a) + dot a (cross om b) = 0 := by intro a b; simp [dot, cross]; ring
  have z3 : ∀ k, cross G.g1 (cross om G.g2) k + cross (cross om G.g1) G.g2 k = cross om (cross G.g1 G.g2) k := by
    intro k; fin_cases k <;> simp [cross] <;> ring
  have z4 : dnOf G.g1 G.g2 (cross om G.g1) (cross om G.g2) = fun k => cross om (cross G.g1 G.g2) k / len (cross G.g1 G.g2) := by
    funext k
    simp only [dnOf, z3]
    have : dot (cross G.g1 G.g2) (fun k => cross om (cross G.g1 G.g2) k) = 0 := z1 _
    rw [this]; ring
  subst hu
  refine ⟨hE.trans ?_, hK.trans ?_⟩
  · fin_cases j <;> simp [z1, z2]
  · rw [z4]
    simp [dot, unit, cross]
    ring

/-- The work of the forces on such motions vanishes. -/
theorem no_work (m : Mat ℝ) (fe : FE ℝ) (X : Pt ℝ) (t dJW : ℝ) (f : Basis) (G : Geo) (x : Nat → V3 ℝ)
    (h1 : ∀ c, ∑ k ∈ Finset.range f.nen, f.dN k c = 0) (h2 : ∀ j, ∑ k ∈ Finset.range f.nen, f.d2N k j = 0)
    (T : Fin 3 → Fin 3 → ℝ) (a b : Fin 3 → ℝ) (c om : V3 ℝ) :
    (∑ k ∈ Finset.range f.nen, ∑ d, (-dJW * (t * dot3 (tmul T (dE (deformed f x).g1 (deformed f x).g2 f k d)) a) +
         -dJW * (t ^ 3 / 12 * dot3 (tmul T (dK (deformed f x) f k d)) b)) * (c d + cross om (x k) d)) = 0 := by
  have hv := fun j => virtual (deformed f x) f x h1 h2 (fun i => by simp only [deformed, mul_comm]) (fun i => by simp only [deformed, mul_comm])
    (fun j i => by simp only [deformed, mul_comm]) c om j
  have e : ∀ (F : Nat → Fin 3 → Fin 3 → ℝ) (a : Fin 3 → ℝ) (u : Nat → V3 ℝ), (∀ j, (∑ k ∈ Finset.range f.nen, ∑ d, F k d j * u k d) = 0) →
      (∑ k ∈ Finset.range f.nen, ∑ d, dot3 (tmul T (F k d)) a * u k d) = 0 := by
    intro F a u hF
    have : (∑ k ∈ Finset.range f.nen, ∑ d, dot3 (tmul T (F k d)) a * u k d) =
        ∑ r, a r * ∑ k ∈ Finset.range f.nen, ∑ d, tmul T (F k d) r * u k d := by
      simp only [dot3, Finset.sum_mul, Finset.mul_sum]
      rw [Finset.sum_comm (s := (Finset.univ : Finset (Fin 3))) (t := Finset.range f.nen)]
      refine Finset.sum_congr rfl fun k _ => ?_
      rw [Finset.sum_comm]
      refine Finset.sum_congr rfl fun d _ => Finset.sum_congr rfl fun r _ => by ring
    rw [this]
    simp only [tmul_sum, hF]
    simp [tmul]
  have q1 := e (fun k d => dE (deformed f x).g1 (deformed f x).g2 f k d) a (fun k d => c d + cross om (x k) d) fun j => (hv j).1
  have q2 := e (fun k d => dK (deformed f x) f k d) b (fun k d => c d + cross om (x k) d) fun j => by
    simp only [dK_lin]; exact (hv j).2
  have : ∀ k, (∑ d, (-dJW * (t * dot3 (tmul T (dE (deformed f x).g1 (deformed f x).g2 f k d)) a) +
         -dJW * (t ^ 3 / 12 * dot3 (tmul T (dK (deformed f x) f k d)) b)) * (c d + cross om (x k) d)) =
      -dJW * t * (∑ d, dot3 (tmul T (dE (deformed f x).g1 (deformed f x).g2 f k d)) a * (c d + cross om (x k) d)) +
      -dJW * (t ^ 3 / 12) * (∑ d, dot3 (tmul T (dK (deformed f x) f k d)) b * (c d + cross om (x k) d)) := by
    intro k
    rw [Finset.mul_sum, Finset.mul_sum, ← Finset.sum_add_distrib]
    exact Finset.sum_congr rfl fun d _ => by ring
  simp only [this]
  rw [Finset.sum_add_distrib, ← Finset.mul_sum, ← Finset.mul_sum, q1, q2]
  ring

/-- Forces without work on rigid-body motions have no resultant and no moment. -/
theorem balanced (n : Nat) (x S : Nat → V3 ℝ) (h : ∀ c om : V3 ℝ, (∑ k ∈ Finset.range n, ∑ d, S k d * (c d + cross om (x k) d)) = 0)
    (i : Fin 3) : (∑ k ∈ Finset.range n, S k i) = 0 ∧ (∑ k ∈ Finset.range n, cross (x k) (S k) i) = 0 := by
  have z : ∀ (v : V3 ℝ) d, cross 0 v d = 0 := by intro v d; fin_cases d <;> simp [cross]
  constructor
  · have := h (fun d => if d = i then 1 else 0) 0
    rw [← this]
    refine Finset.sum_congr rfl fun k _ => ?_
    simp only [z, add_zero]
    simp
  · have := h 0 (fun d => if d = i then 1 else 0)
    rw [← this]
    refine Finset.sum_congr rfl fun k _ => ?_
    fin_cases i <;> simp [cross, Fin.sum_univ_three] <;> ring

/-- C129: the internal forces of the nonlinear shell in any position `x` of the nodes have no resultant and no moment, i.e. they
are in balance with the loads as those of the deformed shell. -/
theorem C129_shell_balance (m : Mat ℝ) (fe : FE ℝ) (X : Pt ℝ) (t dJW : ℝ) (f : Basis) (G : Geo) (x : Nat → V3 ℝ)
    (ha : m.axiSymmetry = false) (hn : Admissible m X)
    (h1 : ∀ c, ∑ k ∈ Finset.range f.nen, f.dN k c = 0) (h2 : ∀ j, ∑ k ∈ Finset.range f.nen, f.d2N k j = 0) :
    ∃ K S, evalKandS m fe X t dJW f G (deformed f x) = .ok (K, S) ∧ ∀ i,
      (∑ k ∈ Finset.range f.nen, S k i) = 0 ∧
      (∑ k ∈ Finset.range f.nen, ![x k 1 * S k 2 - x k 2 * S k 1, x k 2 * S k 0 - x k 0 * S k 2, x k 0 * S k 1 - x k 1 * S k 0] i) = 0 := by
  refine ⟨_, _, evalKandS_eq m fe X t dJW f G (deformed f x) ha hn, fun i => ?_⟩
  exact balanced f.nen x _ (fun c om => no_work m fe X t dJW f G x h1 h2 _ _ _ c om) i

/-- C129: the forces of the linear shell for any displacements `v` have no resultant and no moment about the initial positions `x`
of the nodes. -/
theorem C129_shell_linear (m : Mat ℝ) (fe : FE ℝ) (X : Pt ℝ) (t dJW : ℝ) (G : Geo) (f : Basis) (x : Nat → V3 ℝ)
    (ha : m.axiSymmetry = false) (hn : Admissible m X) (h : 0 < len (cross G.g1 G.g2))
    (h1 : ∀ c, ∑ k ∈ Finset.range f.nen, f.dN k c = 0) (h2 : ∀ j, ∑ k ∈ Finset.range f.nen, f.d2N k j = 0)
    (e1 : ∀ i, ∑ k ∈ Finset.range f.nen, f.dN k 0 * x k i = G.g1 i)
    (e2 : ∀ i, ∑ k ∈ Finset.range f.nen, f.dN k 1 * x k i = G.g2 i)
    (eH : ∀ j i, ∑ k ∈ Finset.range f.nen, f.d2N k j * x k i = G.H j i) :
    ∃ K, evalK m fe X t dJW G f = .ok K ∧ ∀ (v S : Nat → V3 ℝ),
      (∀ k d, S k d = ∑ l ∈ Finset.range f.nen, ∑ e, K k d l e * v l e) → ∀ i,
      (∑ k ∈ Finset.range f.nen, S k i) = 0 ∧
      (∑ k ∈ Finset.range f.nen, ![x k 1 * S k 2 - x k 2 * S k 1, x k 2 * S k 0 - x k 0 * S k 2, x k 0 * S k 1 - x k 1 * S k 0] i) = 0 := by
  obtain ⟨K, hK, -, hq⟩ := C48_energy m fe X t dJW G f ha hn
  refine ⟨K, hK, fun v S hS i => balanced f.nen x S (fun c om => ?_) i⟩
  have hr := C48_rigid G f x h h1 h2 e1 e2 eH c om (fun k => ![c 0 + (om 1 * x k 2 - om 2 * x k 1), c 1 + (om 2 * x k 0 - om 0 * x k 2),
      c 2 + (om 0 * x k 1 - om 1 * x k 0)]) (fun _ => rfl)
  have hw := hq (fun k => ![c 0 + (om 1 * x k 2 - om 2 * x k 1), c 1 + (om 2 * x k 0 - om 0 * x k 2),
      c 2 + (om 0 * x k 1 - om 1 * x k 0)]) v
  have z1 : strainOf (formBmatrix G f).1 f.nen (fun k => ![c 0 + (om 1 * x k 2 - om 2 * x k 1), c 1 + (om 2 * x k 0 - om 0 * x k 2),
      c 2 + (om 0 * x k 1 - om 1 * x k 0)]) = 0 := funext fun r => (hr r).1
  have z2 : strainOf (formBmatrix G f).2 f.nen (fun k => ![c 0 + (om 1 * x k 2 - om 2 * x k 1), c 1 + (om 2 * x k 0 - om 0 * x k 2),
      c 2 + (om 0 * x k 1 - om 1 * x k 0)]) = 0 := funext fun r => (hr r).2
  have z3 : ∀ w, dot3 0 w = 0 := by intro w; simp [dot3]
  rw [z1, z2, z3, z3, mul_zero, mul_zero, add_zero, mul_zero] at hw
  rw [← hw]
  refine Finset.sum_congr rfl fun k _ => Finset.sum_congr rfl fun d _ => ?_
  rw [hS, Finset.sum_mul]
  refine Finset.sum_congr rfl fun l _ => ?_
  rw [Finset.sum_mul]
  refine Finset.sum_congr rfl fun e _ => ?_
  have : c d + cross om (x k) d = (![c 0 + (om 1 * x k 2 - om 2 * x k 1), c 1 + (om 2 * x k 0 - om 0 * x k 2),
      c 2 + (om 0 * x k 1 - om 1 * x k 0)] : V3 ℝ) d := by fin_cases d <;> simp [cross]
  rw [this]; ring

/-! ### Turning -/

/-- Rows are orthonormal too. -/
theorem rows {r : Fin 3 → V3 ℝ} (h : Rotation r) (i j : Fin 3) : (∑ a, r a i * r a j) = if i = j then 1 else 0 := by
  obtain ⟨h1, h2, h3, h4, h5, h6, -⟩ := h
  have hm : (Matrix.of fun a i => r a i) * (Matrix.of fun a i => r a i).transpose = 1 := by
    ext a b
    simp only [Matrix.mul_apply, Matrix.transpose_apply, Matrix.of_apply, Fin.sum_univ_three]
    simp only [dot] at h1 h2 h3 h4 h5 h6
    fin_cases a <;> fin_cases b <;> simp [Matrix.one_apply] <;> linarith
  have hm' := mul_eq_one_comm.1 hm
  have := congrFun (congrFun hm' i) j
  simpa [Matrix.mul_apply, Matrix.one_apply] using this

/-- The unit vector in direction `d`, turned. -/
theorem single_rot {r : Fin 3 → V3 ℝ} (h : Rotation r) (c : ℝ) (d : Fin 3) : single c d = rot r (fun a => c * r a d) := by
  funext i
  have := rows h i d
  rw [Fin.sum_univ_three] at this
  simp only [single, rot]
  have e : r 0 i * (c * r 0 d) + r 1 i * (c * r 1 d) + r 2 i * (c * r 2 d) = c * (r 0 i * r 0 d + r 1 i * r 1 d + r 2 i * r 2 d) := by ring
  rw [e, this]; simp

theorem rot_add (r : Fin 3 → V3 ℝ) (a b : V3 ℝ) (i : Fin 3) : rot r a i + rot r b i = rot r (fun i => a i + b i) i := by
  simp only [rot]; ring

theorem dg3_rot {r : Fin 3 → V3 ℝ} (h : Rotation r) (g1 g2 : V3 ℝ) (f : Basis) (k : Nat) (d : Fin 3) :
    dg3 (rot r g1) (rot r g2) f k d = rot r (fun i => ∑ a, r a d * dg3 g1 g2 f k a i) := by
  funext i
  rw [dg3_eq, single_rot h, single_rot h, rot_cross h, rot_cross h, rot_add]
  simp only [rot, dg3_eq]
  congr 1
  congr 1
  all_goals
    congr 1
    simp [cross, single, Fin.sum_univ_three]
    ring

theorem ddg3_rot {r : Fin 3 → V3 ℝ} (h : Rotation r) (f : Basis) (k l : Nat) (d e : Fin 3) :
    ddg3 f k d l e = rot r (fun i => ∑ a, ∑ b, r a d * r b e * ddg3 f k a l b i) := by
  funext i
  rw [ddg3_eq, single_rot h, single_rot h, single_rot h, single_rot h, rot_cross h, rot_cross h, rot_add]
  simp only [rot, ddg3_eq]
  congr 1
  congr 1
  all_goals
    congr 1
    simp [cross, single, Fin.sum_univ_three]
    ring

theorem dot_sum (w : V3 ℝ) (c : Fin 3 → ℝ) (F : Fin 3 → V3 ℝ) : dot w (fun i => ∑ a, c a * F a i) = ∑ a, c a * dot w (F a) := by
  simp only [dot, Fin.sum_univ_three]; ring

theorem dot_sum2 (w : V3 ℝ) (c : Fin 3 → Fin 3 → ℝ) (F : Fin 3 → Fin 3 → V3 ℝ) :
    dot w (fun i => ∑ a, ∑ b, c a b * F a b i) = ∑ a, ∑ b, c a b * dot w (F a b) := by
  simp only [dot, Fin.sum_univ_three]; ring

theorem dot_sums (c e : Fin 3 → ℝ) (F H : Fin 3 → V3 ℝ) :
    dot (fun i => ∑ a, c a * F a i) (fun i => ∑ a, e a * H a i) = ∑ a, ∑ b, c a * e b * dot (F a) (H b) := by
  simp only [dot, Fin.sum_univ_three]; ring

theorem g3_rot {r : Fin 3 → V3 ℝ} (h : Rotation r) (g1 g2 : V3 ℝ) : g3 (rot r g1) (rot r g2) = rot r (g3 g1 g2) := rot_cross h g1 g2

theorem dn_rot {r : Fin 3 → V3 ℝ} (h : Rotation r) (g1 g2 : V3 ℝ) (f : Basis) (k : Nat) (d : Fin 3) :
    dn (rot r g1) (rot r g2) f k d = rot r (fun i => ∑ a, r a d * dn g1 g2 f k a i) := by
  funext i
  simp only [dn, g3_rot h, dg3_rot h, rot_len h, rot_dot h, dot_sum]
  simp only [rot, Fin.sum_univ_three]
  ring

theorem ddn_rot {r : Fin 3 → V3 ℝ} (h : Rotation r) (g1 g2 : V3 ℝ) (f : Basis) (k l : Nat) (d e : Fin 3) :
    ddn (rot r g1) (rot r g2) f k d l e = rot r (fun i => ∑ a, ∑ b, r a d * r b e * ddn g1 g2 f k a l b i) := by
  funext i
  have h1 := dg3_rot h g1 g2 f k d
  have h2 := dg3_rot h g1 g2 f l e
  have h3 := ddg3_rot h f k l d e
  obtain ⟨w, hw⟩ : ∃ w, w = g3 g1 g2 := ⟨_, rfl⟩
  simp only [ddn, g3_rot h, rot_len h, ← hw]
  rw [h1, h2, h3]
  rw [dot_comm (rot r _) (rot r w)]
  simp only [rot_dot h, dot_sums]
  simp only [dot_sum, dot_sum2]
  have ex : ∀ a b, dot (ddg3 f k a l b) w = dot w (ddg3 f k a l b) := fun a b => dot_comm _ _
  simp only [ex]
  generalize len w = L
  obtain ⟨P, hP⟩ : ∃ P : Fin 3 → ℝ, P = fun a => dot w (dg3 g1 g2 f k a) := ⟨_, rfl⟩
  obtain ⟨Q, hQ⟩ : ∃ Q : Fin 3 → ℝ, Q = fun a => dot w (dg3 g1 g2 f l a) := ⟨_, rfl⟩
  obtain ⟨R, hR⟩ : ∃ R : Fin 3 → Fin 3 → ℝ, R = fun a b => dot w (ddg3 f k a l b) := ⟨_, rfl⟩
  obtain ⟨U, hU⟩ : ∃ U : Fin 3 → Fin 3 → ℝ, U = fun a b => dot (dg3 g1 g2 f k a) (dg3 g1 g2 f l b) := ⟨_, rfl⟩
  have p : ∀ a, dot w (dg3 g1 g2 f k a) = P a := fun a => by rw [hP]
  have q : ∀ a, dot w (dg3 g1 g2 f l a) = Q a := fun a => by rw [hQ]
  have s : ∀ a b, dot w (ddg3 f k a l b) = R a b := fun a b => by rw [hR]
  have u : ∀ a b, dot (dg3 g1 g2 f k a) (dg3 g1 g2 f l b) = U a b := fun a b => by rw [hU]
  simp only [p, q, s, u]
  -- each term separately
  have key : ∀ j : Fin 3, (∑ a, ∑ b, r a d * r b e * (ddg3 f k a l b j / L - (dg3 g1 g2 f k a j * (Q b / (L * L * L)) +
        P a / (L * L * L) * dg3 g1 g2 f l b j) + (-(R a b + U a b) / (L * L * L) + 3 * P a * Q b / (L * L * L * L * L)) * w j)) =
      (∑ a, ∑ b, r a d * r b e * ddg3 f k a l b j) / L -
        ((∑ a, r a d * dg3 g1 g2 f k a j) * ((∑ b, r b e * Q b) / (L * L * L)) +
          (∑ a, r a d * P a) / (L * L * L) * (∑ b, r b e * dg3 g1 g2 f l b j)) +
        (-((∑ a, ∑ b, r a d * r b e * R a b) + ∑ a, ∑ b, r a d * r b e * U a b) / (L * L * L) +
          3 * (∑ a, r a d * P a) * (∑ b, r b e * Q b) / (L * L * L * L * L)) * w j := by
    intro j
    simp only [Fin.sum_univ_three]
    ring
  simp only [rot, key]
  ring

theorem dE_rot (r : Fin 3 → V3 ℝ) (g1 g2 : V3 ℝ) (f : Basis) (k : Nat) (d : Fin 3) :
    dE (rot r g1) (rot r g2) f k d = fun j => ∑ a, r a d * dE g1 g2 f k a j := by
  funext j
  fin_cases j <;> simp [dE, rot, Fin.sum_univ_three] <;> ring

theorem dK_rot {r : Fin 3 → V3 ℝ} (h : Rotation r) (g : Geo) (f : Basis) (k : Nat) (d : Fin 3) :
    dK ⟨rot r g.g1, rot r g.g2, fun j => rot r (g.H j)⟩ f k d = fun j => ∑ a, r a d * dK g f k a j := by
  funext j
  simp only [dK, rowH, g3_rot h, rot_unit h, dn_rot h, rot_dot h]
  rw [dot_comm, dot_sum]
  have : ∀ a, dot (dn g.g1 g.g2 f k a) (g.H j) = dot (g.H j) (dn g.g1 g.g2 f k a) := fun a => dot_comm _ _
  simp only [this, rot, Fin.sum_univ_three]
  ring

theorem ddE_rot {r : Fin 3 → V3 ℝ} (h : Rotation r) (f : Basis) (k l : Nat) (d e : Fin 3) :
    ddE f k d l e = fun j => ∑ a, ∑ b, r a d * r b e * ddE f k a l b j := by
  funext j
  obtain ⟨M, hM⟩ : ∃ M : Fin 3 → ℝ, M = ![f.dN k 0 * f.dN l 0, f.dN k 1 * f.dN l 1, 1 / 2 * (f.dN k 0 * f.dN l 1 + f.dN k 1 * f.dN l 0)] :=
    ⟨_, rfl⟩
  have e1 : ∀ d e, ddE f k d l e j = (if d = e then 1 else 0) * M j := by
    intro d e
    by_cases hd : d = e
    · simp [ddE, hd, hM]
    · simp [ddE, hd]
  simp only [e1]
  rw [← rows h d e]
  simp [Fin.sum_univ_three]
  ring

theorem ddK_rot {r : Fin 3 → V3 ℝ} (h : Rotation r) (g : Geo) (f : Basis) (k l : Nat) (d e : Fin 3) :
    ddK ⟨rot r g.g1, rot r g.g2, fun j => rot r (g.H j)⟩ f k d l e = fun j => ∑ a, ∑ b, r a d * r b e * ddK g f k a l b j := by
  funext j
  simp only [ddK, rowH, dn_rot h, ddn_rot h, rot_dot h]
  rw [dot_comm, dot_sum2]
  have : ∀ a b, dot (ddn g.g1 g.g2 f k a l b) (g.H j) = dot (g.H j) (ddn g.g1 g.g2 f k a l b) := fun a b => dot_comm _ _
  simp only [this, rot, Fin.sum_univ_three]
  ring

theorem dot3_sum (T : Fin 3 → Fin 3 → ℝ) (c : Fin 3 → ℝ) (F : Fin 3 → Fin 3 → ℝ) (v : Fin 3 → ℝ) :
    dot3 (tmul T (fun j => ∑ a, c a * F a j)) v = ∑ a, c a * dot3 (tmul T (F a)) v := by
  simp only [dot3, tmul, Fin.sum_univ_three]; ring

theorem dot3_sum2 (T : Fin 3 → Fin 3 → ℝ) (c : Fin 3 → Fin 3 → ℝ) (F : Fin 3 → Fin 3 → Fin 3 → ℝ) (v : Fin 3 → ℝ) :
    dot3 v (tmul T (fun j => ∑ a, ∑ b, c a b * F a b j)) = ∑ a, ∑ b, c a b * dot3 v (tmul T (F a b)) := by
  simp only [dot3, tmul, Finset.mul_sum]
  simp only [Fin.sum_univ_three]; ring

theorem tmul_lin (T : Fin 3 → Fin 3 → ℝ) (c : Fin 3 → ℝ) (F : Fin 3 → Fin 3 → ℝ) :
    tmul T (fun j => ∑ a, c a * F a j) = fun s => ∑ a, c a * tmul T (F a) s := by
  funext s
  simp only [tmul, Fin.sum_univ_three]; ring

theorem hooke_sum (E nu : ℝ) (ps : Bool) (c : Fin 3 → ℝ) (F : Fin 3 → Fin 3 → ℝ) :
    hooke E nu ps (fun s => ∑ a, c a * F a s) = fun s => ∑ a, c a * hooke E nu ps (F a) s := by
  funext s
  cases ps <;> fin_cases s <;> simp [hooke, Fin.sum_univ_three] <;> ring

theorem dot3_sums (c e : Fin 3 → ℝ) (F H : Fin 3 → Fin 3 → ℝ) :
    dot3 (fun s => ∑ a, c a * F a s) (fun s => ∑ b, e b * H b s) = ∑ a, ∑ b, c a * e b * dot3 (F a) (H b) := by
  simp only [dot3, Fin.sum_univ_three]; ring

theorem green_rot {r : Fin 3 → V3 ℝ} (h : Rotation r) (G g : Geo) :
    green G ⟨rot r g.g1, rot r g.g2, fun j => rot r (g.H j)⟩ = green G g := by
  simp only [green, rot_dot h]

theorem bend_rot {r : Fin 3 → V3 ℝ} (h : Rotation r) (G g : Geo) :
    bend G ⟨rot r g.g1, rot r g.g2, fun j => rot r (g.H j)⟩ = bend G g := by
  funext j
  have : (fun i => cross (rot r g.g1) (rot r g.g2) i / len (cross (rot r g.g1) (rot r g.g2))) = rot r (unit (cross g.g1 g.g2)) := by
    rw [← rot_unit h, rot_cross h]; rfl
  simp only [bend, this, rot_dot h]
  rfl

/-- C129: for the shell moved from the positions `x` of the nodes by a rigid-body motion with arbitrarily large rotation, the
internal forces and the tangent stiffness are the ones in the positions `x`, turned by that rotation. -/
theorem C129_shell_turn (m : Mat ℝ) (fe : FE ℝ) (X : Pt ℝ) (t dJW : ℝ) (f : Basis) (G : Geo) (x : Nat → V3 ℝ) (r : Fin 3 → V3 ℝ) (c : V3 ℝ)
    (ha : m.axiSymmetry = false) (hn : Admissible m X) (hr : Rotation r)
    (h1 : ∀ c, ∑ k ∈ Finset.range f.nen, f.dN k c = 0) (h2 : ∀ j, ∑ k ∈ Finset.range f.nen, f.d2N k j = 0) :
    ∃ K S K' S', evalKandS m fe X t dJW f G (deformed f x) = .ok (K, S) ∧
      evalKandS m fe X t dJW f G (deformed f (fun k i => c i + rot r (x k) i)) = .ok (K', S') ∧
      (∀ k d, S' k d = ∑ a, r a d * S k a) ∧
      ∀ k d l e, K' k d l e = ∑ a, ∑ b, r a d * r b e * K k a l b := by
  refine ⟨_, _, _, _, evalKandS_eq m fe X t dJW f G (deformed f x) ha hn, evalKandS_eq m fe X t dJW f G _ ha hn, ?_, ?_⟩
  · intro k d
    rw [deformed_rot f x r c h1 h2]
    simp only [green_rot hr, bend_rot hr, dE_rot, dK_rot hr, dot3_sum]
    simp only [Fin.sum_univ_three]
    ring
  · intro k d l e
    have s1 : ∀ (v : Fin 3 → ℝ) k d l e, (if pos l e ≤ pos k d then dot3 v (tmul (tmat G.g1 G.g2) (ddE f k d l e)) else
        dot3 v (tmul (tmat G.g1 G.g2) (ddE f l e k d))) = dot3 v (tmul (tmat G.g1 G.g2) (ddE f k d l e)) := by
      intro v k d l e; rw [ddE_symm f l k e d, ite_self]
    have s2 : ∀ (v : Fin 3 → ℝ) g k d l e, (if pos l e ≤ pos k d then dot3 v (tmul (tmat G.g1 G.g2) (ddK g f k d l e)) else
        dot3 v (tmul (tmat G.g1 G.g2) (ddK g f l e k d))) = dot3 v (tmul (tmat G.g1 G.g2) (ddK g f k d l e)) := by
      intro v g k d l e; rw [ddK_symm g f l k e d, ite_self]
    rw [deformed_rot f x r c h1 h2]
    simp only [s1, s2]
    rw [ddE_rot hr f k l d e]
    simp only [green_rot hr, bend_rot hr, dE_rot, dK_rot hr, ddK_rot hr, dot3_sum2, tmul_lin, hooke_sum, dot3_sums]
    simp only [← Finset.mul_sum, ← Finset.sum_mul, mul_add, add_mul, Finset.sum_add_distrib]
    simp only [Finset.mul_sum, Finset.sum_mul, ← Finset.sum_add_distrib]
    refine Finset.sum_congr rfl fun a _ => Finset.sum_congr rfl fun b _ => ?_
    ring

/-- A curved element and a quarter turn meet the hypotheses. -/
example (m : Mat ℝ) (fe : FE ℝ) (X : Pt ℝ) (t dJW : ℝ) (c : V3 ℝ) (ha : m.axiSymmetry = false) (hn : Admissible m X) :
    ∃ K S K' S', evalKandS m fe X t dJW wf wG (deformed wf wx) = .ok (K, S) ∧
      evalKandS m fe X t dJW wf wG (deformed wf (fun k i => c i + rot quarter (wx k) i)) = .ok (K', S') ∧
      (∀ k, S' k 1 = -S k 2) ∧ ∀ k, S' k 2 = S k 1 := by
  obtain ⟨K, S, K', S', e1, e2, e3, -⟩ := C129_shell_turn m fe X t dJW wf wG wx quarter c ha hn quarter_rot
    (by intro c; fin_cases c <;> simp [wf, Finset.sum_range_succ]) (by intro c; fin_cases c <;> simp [wf, Finset.sum_range_succ])
  refine ⟨K, S, K', S', e1, e2, fun k => ?_, fun k => ?_⟩ <;> rw [e3] <;> simp [quarter, Fin.sum_univ_three]

end Verif.Shell

/-! ### Bars -/

namespace Verif.Bar

open Verif.Beam (Mat V3)
open Verif.Shell (rot Rotation rot_len rot_unit rows quarter quarter_rot)

/-- The leading block is a multiple of the projection on the axis plus a multiple of the unit matrix, which depend on the length. -/
theorem lead_form (m : Char) (k L0 l : ℝ) (h0 : 0 < L0) (hl : 0 < l) : ∃ al be : ℝ, ∀ d, len d = l → ∀ i j,
    lead m k L0 d i j = al * (unit d i * unit d j) + be * (if i = j then 1 else 0) := by
  by_cases hG : m = 'G'
  · subst hG
    refine ⟨(nominal 'G' true k l L0).2.1, (nominal 'G' true k l L0).2.2, fun d hd i j => ?_⟩
    simp only [lead, geoEntry, hd, show ('G' : Char) ≠ 'E' by decide, if_false, if_true]
    by_cases hij : i = j <;> simp [hij] <;> ring
  by_cases hE : m = 'E'
  · subst hE
    refine ⟨(nominal 'E' true k l L0).2.1 - (nominal 'E' true k l L0).2.2, (nominal 'E' true k l L0).2.2, fun d hd i j => ?_⟩
    simp only [lead, geoEntry, hd, if_true]
    ring
  by_cases hL : m = 'L'
  · subst hL
    refine ⟨(nominal 'L' true k l L0).2.1 - 2 * (nominal 'L' true k l L0).2.2, (nominal 'L' true k l L0).2.2, fun d hd i j => ?_⟩
    simp only [lead, geoEntry, hd, show ('L' : Char) ≠ 'E' by decide, show ('L' : Char) ≠ 'G' by decide, if_false, if_true]
    ring
  · refine ⟨(nominal m true k l L0).2.1 - (nominal m true k l L0).2.2, (nominal m true k l L0).2.2, fun d hd i j => ?_⟩
    simp only [lead, geoEntry, hd, if_neg hG, if_neg hE, if_neg hL]
    by_cases hll : l = L0
    · have : (nominal m true k l L0).2.2 = 0 := by
        simp only [nominal, getStrain, if_neg hG, if_neg hL, if_true, hll]
        rw [div_self h0.ne']; simp
      rw [this]; ring
    · rw [if_pos hll, if_pos hll, axes_proj _ (unit_sq d (by rw [hd]; exact hl))]
      ring

theorem at1_lo (v : V3 ℝ) (i : Fin 3) : at1 v (i + 1) = v i := by
  fin_cases i <;> rfl

theorem at1_hi (v : V3 ℝ) (i : Fin 3) : at1 v (i + 4) = v i := by
  fin_cases i <;> rfl

theorem at2_any (f : Fin 3 → Fin 3 → ℝ) (i j : Fin 3) (p q : Fin 2) : at2 f (3 * p + i + 1) (3 * q + j + 1) = f i j := by
  fin_cases i <;> fin_cases j <;> fin_cases p <;> fin_cases q <;> rfl

/-- C129: a bar moved by a rigid-body motion from the displaced position has the same end forces and the same tangent stiffness,
turned by the rotation, whatever the strain measure. `u1'` and `u2'` are the displacements after that motion. -/
theorem C129_bar_turn (p : Data) (s : Slots) (X1 X2 u1 u2 u1' u2' c : V3 ℝ) (r : Fin 3 → V3 ℝ) (hr : Rotation r) (E : Mats)
    (h0 : 1 / 100000000 < len (X2 - X1)) (h : 1 / 100000000 < len ((X2 + u2) - (X1 + u1)))
    (h1 : ∀ i, X1 i + u1' i = c i + rot r (fun i => X1 i + u1 i) i) (h2 : ∀ i, X2 i + u2' i = c i + rot r (fun i => X2 i + u2 i) i)
    (hm : s.eKm ≠ 0) (hg : s.eKg = s.eKm) (hM : s.eM ≠ s.eKm) (hs : s.iS ≠ 0) (he : s.iS ≠ s.eS) :
    ∃ E' E'', evalInt p s X1 X2 (some (u1, u2)) E = .ok E' ∧ evalInt p s X1 X2 (some (u1', u2')) E = .ok E'' ∧
      (∀ i : Fin 3, E''.b s.iS (i + 1) = ∑ a : Fin 3, r a i * E'.b s.iS (a + 1) ∧
        E''.b s.iS (i + 4) = ∑ a : Fin 3, r a i * E'.b s.iS (a + 4)) ∧
      ∀ (i j : Fin 3) (v w : Fin 2), E''.A s.eKm (3 * v + i + 1) (3 * w + j + 1) =
        ∑ a : Fin 3, ∑ b : Fin 3, r a i * r b j * E'.A s.eKm (3 * v + a + 1) (3 * w + b + 1) := by
  have hd : diff X1 X2 u1' u2' = rot r (diff X1 X2 u1 u2) := by
    funext i
    simp only [diff, Pi.add_apply, Pi.sub_apply, h1, h2, rot]
    ring
  have hl : len (diff X1 X2 u1' u2') = len (diff X1 X2 u1 u2) := by rw [hd, rot_len hr]
  have hu : unit (diff X1 X2 u1' u2') = rot r (unit (diff X1 X2 u1 u2)) := by rw [hd, rot_unit hr]
  have hp0 : 0 < len (X2 - X1) := lt_trans (by norm_num) h0
  have hp : 0 < len (diff X1 X2 u1 u2) := lt_trans (by norm_num) h
  refine ⟨_, _, evalInt_ok p s X1 X2 u1 u2 E h0 h, evalInt_ok p s X1 X2 u1' u2' E h0 (by rw [hl]; exact h), fun i => ?_, fun i j v w => ?_⟩
  · obtain ⟨c', hc0, hc⟩ := fill_b p s (len (X2 - X1)) E hs
    have hz := hc0 he
    have lo : ∀ (X : V3 ℝ) (L : ℝ) (i : Fin 3), (fill p s X L (len (X2 - X1)) E).b s.iS (i + 1) =
        (nominal p.measure (s.eKg != 0) p.stiffness L (len (X2 - X1))).1 * X i := by
      intro X L i
      rw [hc X L _ (by omega) (by omega), at1_lo, hz, if_pos (by omega)]; simp
    have hi : ∀ (X : V3 ℝ) (L : ℝ) (i : Fin 3), (fill p s X L (len (X2 - X1)) E).b s.iS (i + 4) =
        -((nominal p.measure (s.eKg != 0) p.stiffness L (len (X2 - X1))).1 * X i) := by
      intro X L i
      rw [hc X L _ (by omega) (by omega), at1_hi, hz, if_neg (by omega)]; simp
    simp only [lo, hi, hl, hu, rot, Fin.sum_univ_three]
    constructor <;> ring
  · obtain ⟨al, be, hlead⟩ := lead_form p.measure p.stiffness (len (X2 - X1)) _ hp0 hp
    have ent : ∀ (d : V3 ℝ) (i j : Fin 3), len d = len (diff X1 X2 u1 u2) →
        (fill p s (unit d) (len d) (len (X2 - X1)) E).A s.eKm (3 * v + i + 1) (3 * w + j + 1) =
        (if 3 * v.val + i.val + 1 ≤ 3 ↔ 3 * w.val + j.val + 1 ≤ 3 then 1 else -1) * (al * (unit d i * unit d j) + be * (if i = j then 1 else 0)) := by
      intro d i j hdl
      rw [fill_A _ _ _ _ _ _ _ hM, stiff_entry p s d _ _ hm hg _ _ (by omega) (by omega) (by omega) (by omega), at2_any, hlead d hdl]
    have sg : ∀ i j : Fin 3, (if 3 * v.val + i.val + 1 ≤ 3 ↔ 3 * w.val + j.val + 1 ≤ 3 then (1 : ℝ) else -1) = if v = w then 1 else -1 := by
      intro i j
      fin_cases i <;> fin_cases j <;> fin_cases v <;> fin_cases w <;> simp
    rw [ent _ i j hl]
    simp only [ent _ _ _ rfl, sg, hu]
    rw [← rows hr i j]
    simp [rot, Fin.sum_univ_three]
    ring

/-- A stretched bar and a quarter turn. -/
example : ∃ X1 X2 u1 u2 u1' u2' : V3 ℝ, 1 / 100000000 < len (X2 - X1) ∧ 1 / 100000000 < len ((X2 + u2) - (X1 + u1)) ∧
    (∀ i, X1 i + u1' i = (0 : V3 ℝ) i + rot quarter (fun i => X1 i + u1 i) i) ∧
    (∀ i, X2 i + u2' i = (0 : V3 ℝ) i + rot quarter (fun i => X2 i + u2 i) i) ∧ Rotation quarter ∧ u2' 2 = 1 := by
  have l1 : len (![0, 1, 0] - ![0, 0, 0] : V3 ℝ) = 1 := by simp [len]
  have l2 : len ((![0, 1, 0] + ![0, 0, 0]) - (![0, 0, 0] + ![0, 0, 0]) : V3 ℝ) = 1 := by simp [len]
  refine ⟨![0, 0, 0], ![0, 1, 0], ![0, 0, 0], ![0, 0, 0], ![0, 0, 0], ![0, -1, 1], by rw [l1]; norm_num, by rw [l2]; norm_num, ?_, ?_,
    quarter_rot, rfl⟩ <;> intro i <;> fin_cases i <;> simp [rot, quarter]

end Verif.Bar

/-! ### Cables -/

namespace Verif.Cable

open Verif.Beam (Mat V3)
open Verif.Bar (len unit cross len_sq len_pos unit_sq)
open Verif.Shell (rot Rotation rot_len rot_unit rot_dot rot_cross rows single_rot balanced quarter quarter_rot)

/-- Change of the curvature for changes `D1` and `D2` of the tangent and its derivative. -/
noncomputable def kapOf (dx ddx : V3 ℝ) (x : Axes) (D1 D2 : V3 ℝ) : ℝ :=
  dot x.N D2 + dot ddx (dunit x.N (fun k => cross x.B D1 k +
    cross (dunit x.B (fun k => cross D1 ddx k + cross dx D2 k) x.Blen) dx k) x.Nlen)

theorem kap_node (dx ddx : V3 ℝ) (x : Axes) (f : Basis) (a : Nat) (v : V3 ℝ) :
    (∑ i, dkappa dx ddx x f a i * v i) = kapOf dx ddx x (fun i => f.dN a * v i) (fun i => f.d2N a * v i) := by
  have e1 : ∀ i, dbu dx ddx x f a i = dunit x.B (fun k => cross (single (f.dN a) i) ddx k + cross dx (single (f.d2N a) i) k) x.Blen := by
    intro i; simp only [dbu]; congr 1; funext k; exact db_eq _ _ _ _ _ _
  have e2 : ∀ i, dnu dx ddx x f a i = dunit x.N (fun k => cross x.B (single (f.dN a) i) k +
      cross (dunit x.B (fun k => cross (single (f.dN a) i) ddx k + cross dx (single (f.d2N a) i) k) x.Blen) dx k) x.Nlen := by
    intro i; simp only [dnu]; congr 1; funext k; simp only [dnc, dn_eq, e1]
  simp only [dkappa, e2, kapOf]
  generalize x.Blen = lb
  generalize x.Nlen = ln
  simp [dunit, normalPart, Fin.sum_univ_three, cross, single, dot]
  ring

theorem kap_add (dx ddx : V3 ℝ) (x : Axes) (D1 D2 F1 F2 : V3 ℝ) :
    kapOf dx ddx x D1 D2 + kapOf dx ddx x F1 F2 = kapOf dx ddx x (fun i => D1 i + F1 i) (fun i => D2 i + F2 i) := by
  simp [kapOf, dunit, normalPart, Fin.sum_univ_three, cross, dot]
  ring

theorem kap_sum (dx ddx : V3 ℝ) (x : Axes) (n : Nat) (D F : Nat → V3 ℝ) :
    (∑ a ∈ Finset.range n, kapOf dx ddx x (D a) (F a)) =
      kapOf dx ddx x (fun i => ∑ a ∈ Finset.range n, D a i) (fun i => ∑ a ∈ Finset.range n, F a i) := by
  induction n with
  | zero => simp [kapOf, dunit, normalPart, Fin.sum_univ_three, cross, dot]
  | succ n ih =>
    rw [Finset.sum_range_succ, ih, kap_add]
    simp only [Finset.sum_range_succ]

theorem dot_turn (om a : V3 ℝ) : dot a (cross om a) = 0 := by simp [dot, cross]; ring

theorem dot_turn2 (om a b : V3 ℝ) : dot b (cross om a) + dot a (cross om b) = 0 := by simp [dot, cross]; ring

/-- The change of a unit vector turned with the vector it belongs to. -/
theorem dunit_turn (om w : V3 ℝ) (h : 0 < len w) : dunit (unit w) (cross om w) (len w) = cross om (unit w) := by
  have z : normalPart (unit w) (cross om w) = 0 := by
    have : normalPart (unit w) (cross om w) = dot w (cross om w) / len w := by
      simp only [normalPart, unit, dot, Fin.sum_univ_three]; ring
    rw [this, dot_turn, zero_div]
  funext k
  simp only [dunit, z]
  fin_cases k <;> simp [cross, unit] <;> ring

/-- An infinitesimal rotation does not change the curvature. -/
theorem kap_turn (dx ddx om : V3 ℝ) (h : 0 < len (cross dx ddx)) :
    kapOf dx ddx (ax dx ddx) (cross om dx) (cross om ddx) = 0 := by
  have e1 : (fun k => cross (cross om dx) ddx k + cross dx (cross om ddx) k) = cross om (cross dx ddx) := by
    funext k; fin_cases k <;> simp [cross] <;> ring
  have e2 : dunit (ax dx ddx).B (cross om (cross dx ddx)) (ax dx ddx).Blen = cross om (ax dx ddx).B := dunit_turn om _ h
  have e3 : (fun k => cross (ax dx ddx).B (cross om dx) k + cross (cross om (ax dx ddx).B) dx k) = cross om (cross (ax dx ddx).B dx) := by
    funext k; fin_cases k <;> simp [cross] <;> ring
  have e4 : dunit (ax dx ddx).N (cross om (cross (ax dx ddx).B dx)) (ax dx ddx).Nlen = cross om (ax dx ddx).N :=
    dunit_turn om _ (normal_len dx ddx h)
  simp only [kapOf, e1, e2, e3, e4]
  exact dot_turn2 _ _ _

theorem deps_sum (dx : V3 ℝ) (f : Basis) (n : Nat) (u : Nat → V3 ℝ) :
    (∑ a ∈ Finset.range n, ∑ i, deps dx f a i * u a i) = dot dx (fun i => ∑ a ∈ Finset.range n, f.dN a * u a i) := by
  simp only [dot, Finset.mul_sum, ← Finset.sum_add_distrib, deps, Fin.sum_univ_three]
  exact Finset.sum_congr rfl fun a _ => by ring

/-- The derivatives of a rigid-body motion. -/
theorem rigid_field (n : Nat) (w : Nat → ℝ) (x : Nat → V3 ℝ) (v c om : V3 ℝ) (hw : ∑ a ∈ Finset.range n, w a = 0)
    (hv : ∀ i, v i = ∑ a ∈ Finset.range n, w a * x a i) :
    (fun i => ∑ a ∈ Finset.range n, w a * (c i + cross om (x a) i)) = cross om v := by
  funext i
  fin_cases i <;> simp [cross, hv, mul_add, mul_sub, Finset.sum_add_distrib, Finset.mul_sum, ← Finset.sum_mul, hw,
      Finset.sum_sub_distrib, mul_left_comm]

/-- The current tangent is that of the current positions. -/
theorem current_pos (n : Nat) (dX : V3 ℝ) (w : Nat → ℝ) (X u : Nat → V3 ℝ) (hX : ∀ i, dX i = ∑ a ∈ Finset.range n, w a * X a i) (i : Fin 3) :
    current n dX w u i = ∑ a ∈ Finset.range n, w a * (X a i + u a i) := by
  simp only [current, hX, mul_add, Finset.sum_add_distrib]

/-- C129: the internal forces of a curved cable have no resultant and no moment about the current positions of the nodes. -/
theorem C129_cable_balance (nen : Nat) (EA EI w : ℝ) (dX ddX : V3 ℝ) (f : Basis) (Xn u : Nat → V3 ℝ) (A : Axes)
    (hN : ∑ a ∈ Finset.range nen, f.dN a = 0) (hN2 : ∑ a ∈ Finset.range nen, f.d2N a = 0)
    (hX : ∀ i, dX i = ∑ a ∈ Finset.range nen, f.dN a * Xn a i) (hX2 : ∀ i, ddX i = ∑ a ∈ Finset.range nen, f.d2N a * Xn a i)
    (hA : evalLocalAxes dX ddX = .ok A) (x : Nat → V3 ℝ) (hx : x = fun a i => Xn a i + u a i)
    (hc : 1 / 1000000000000 ≤ len (cross (fun i => ∑ a ∈ Finset.range nen, f.dN a * x a i) (fun i => ∑ a ∈ Finset.range nen, f.d2N a * x a i))) :
    ∃ p, evalInt nen EA EI w dX ddX f u = .ok p ∧ ∀ i, (∑ a ∈ Finset.range nen, p.S a i) = 0 ∧
      (∑ a ∈ Finset.range nen, ![x a 1 * p.S a 2 - x a 2 * p.S a 1, x a 2 * p.S a 0 - x a 0 * p.S a 2,
        x a 0 * p.S a 1 - x a 1 * p.S a 0] i) = 0 := by
  have d1 : current nen dX f.dN u = fun i => ∑ a ∈ Finset.range nen, f.dN a * x a i := by
    funext i; rw [current_pos nen dX f.dN Xn u hX, hx]
  have d2 : current nen ddX f.d2N u = fun i => ∑ a ∈ Finset.range nen, f.d2N a * x a i := by
    funext i; rw [current_pos nen ddX f.d2N Xn u hX2, hx]
  obtain ⟨dx, hdx⟩ : ∃ dx, dx = current nen dX f.dN u := ⟨_, rfl⟩
  obtain ⟨ddx, hddx⟩ : ∃ ddx, ddx = current nen ddX f.d2N u := ⟨_, rfl⟩
  rw [← d1, ← d2, ← hdx, ← hddx] at hc
  have h : 0 < len (cross dx ddx) := lt_of_lt_of_le (by norm_num) hc
  refine ⟨contributions EA EI w dX ddX dx ddx A (ax dx ddx) f, ?_, fun i => ?_⟩
  · simp only [evalInt, hA, Res.bind, ← hdx, ← hddx, axes_ok dx ddx hc]
  · refine balanced nen x _ (fun c om => ?_) i
    have t1 := rigid_field nen f.dN x dx c om hN (fun i => by rw [hdx, d1])
    have t2 := rigid_field nen f.d2N x ddx c om hN2 (fun i => by rw [hddx, d2])
    have q1 : (∑ a ∈ Finset.range nen, ∑ i, deps dx f a i * (c i + cross om (x a) i)) = 0 := by
      rw [deps_sum, t1, dot_turn]
    have q2 : (∑ a ∈ Finset.range nen, ∑ i, dkappa dx ddx (ax dx ddx) f a i * (c i + cross om (x a) i)) = 0 := by
      have := fun a => kap_node dx ddx (ax dx ddx) f a (fun i => c i + cross om (x a) i)
      simp only [this]
      rw [kap_sum, t1, t2, kap_turn dx ddx om h]
    obtain ⟨al, hal⟩ : ∃ al, al = -strain dX dx * weight EA dX w := ⟨_, rfl⟩
    obtain ⟨be, hbe⟩ : ∃ be, be = -curvature ddX A.N ddx (ax dx ddx).N * weight EI dX w := ⟨_, rfl⟩
    have : ∀ a, (∑ i, (contributions EA EI w dX ddX dx ddx A (ax dx ddx) f).S a i * (c i + cross om (x a) i)) =
        al * (∑ i, deps dx f a i * (c i + cross om (x a) i)) + be * (∑ i, dkappa dx ddx (ax dx ddx) f a i * (c i + cross om (x a) i)) := by
      intro a
      rw [Finset.mul_sum, Finset.mul_sum, ← Finset.sum_add_distrib]
      refine Finset.sum_congr rfl fun i _ => ?_
      simp only [contributions, ← hal, ← hbe]
      ring
    simp only [this]
    rw [Finset.sum_add_distrib, ← Finset.mul_sum, ← Finset.mul_sum, q1, q2]
    ring

/-- A curved element. -/
def tf : Basis := ⟨fun a => if a = 0 then -1 else if a = 1 then 1 else 0, fun a => if a = 0 then -1 else if a = 2 then 1 else 0⟩
def tX : Nat → V3 ℝ := fun a => if a = 1 then ![1, 0, 0] else if a = 2 then ![0, 1, 0] else ![0, 0, 0]

theorem t_cross : cross ![1, 0, 0] ![0, 1, 0] = ![0, 0, 1] := by funext i; fin_cases i <;> simp [cross]

theorem t_len : len (cross ![1, 0, 0] ![0, 1, 0]) = 1 := by rw [t_cross]; simp [len]

example : ∃ (dX ddX : V3 ℝ) (A : Axes), ∑ a ∈ Finset.range 3, tf.dN a = 0 ∧ ∑ a ∈ Finset.range 3, tf.d2N a = 0 ∧
    (∀ i, dX i = ∑ a ∈ Finset.range 3, tf.dN a * tX a i) ∧ (∀ i, ddX i = ∑ a ∈ Finset.range 3, tf.d2N a * tX a i) ∧
    evalLocalAxes dX ddX = .ok A ∧
    1 / 1000000000000 ≤ len (cross (fun i => ∑ a ∈ Finset.range 3, tf.dN a * (tX a i + 0)) (fun i => ∑ a ∈ Finset.range 3, tf.d2N a * (tX a i + 0))) := by
  refine ⟨![1, 0, 0], ![0, 1, 0], _, by simp [tf, Finset.sum_range_succ], by simp [tf, Finset.sum_range_succ], ?_, ?_,
    axes_ok _ _ (by rw [t_len]; norm_num), ?_⟩
  · intro i; fin_cases i <;> simp [tf, tX, Finset.sum_range_succ]
  · intro i; fin_cases i <;> simp [tf, tX, Finset.sum_range_succ]
  · have e1 : (fun i => ∑ a ∈ Finset.range 3, tf.dN a * (tX a i + 0)) = ![1, 0, 0] := by
      funext i; fin_cases i <;> simp [tf, tX, Finset.sum_range_succ]
    have e2 : (fun i => ∑ a ∈ Finset.range 3, tf.d2N a * (tX a i + 0)) = ![0, 1, 0] := by
      funext i; fin_cases i <;> simp [tf, tX, Finset.sum_range_succ]
    rw [e1, e2, t_len]; norm_num

/-- C129: the same holds for a straight cable that remains straight, for which the binormal is chosen by the program. -/
theorem C129_cable_straight (nen : Nat) (EA EI w : ℝ) (dX ddX : V3 ℝ) (f : Basis) (Xn u : Nat → V3 ℝ) (p : Point) (al be : ℝ)
    (hN : ∑ a ∈ Finset.range nen, f.dN a = 0)
    (hX : ∀ i, dX i = ∑ a ∈ Finset.range nen, f.dN a * Xn a i)
    (hp : evalInt nen EA EI w dX ddX f u = .ok p) (x : Nat → V3 ℝ) (hx : x = fun a i => Xn a i + u a i)
    (s1 : ∀ i, ddX i = al * dX i) (s2 : ∀ i, ddX i + ∑ a ∈ Finset.range nen, f.d2N a * u a i = be * (dX i + ∑ a ∈ Finset.range nen, f.dN a * u a i))
    (i : Fin 3) : (∑ a ∈ Finset.range nen, p.S a i) = 0 ∧
      (∑ a ∈ Finset.range nen, ![x a 1 * p.S a 2 - x a 2 * p.S a 1, x a 2 * p.S a 0 - x a 0 * p.S a 2,
        x a 0 * p.S a 1 - x a 1 * p.S a 0] i) = 0 := by
  obtain ⟨dx, hdx⟩ : ∃ dx, dx = current nen dX f.dN u := ⟨_, rfl⟩
  obtain ⟨ddx, hddx⟩ : ∃ ddx, ddx = current nen ddX f.d2N u := ⟨_, rfl⟩
  have d1 : dx = fun i => ∑ a ∈ Finset.range nen, f.dN a * x a i := by
    funext i; rw [hdx, current_pos nen dX f.dN Xn u hX, hx]
  have hs : ∀ i, ddx i = be * dx i := by intro i; rw [hddx, hdx]; exact s2 i
  unfold evalInt at hp
  cases hA : evalLocalAxes dX ddX with
  | fail => rw [hA] at hp; cases hp
  | ub => rw [hA] at hp; cases hp
  | ok A =>
    rw [hA] at hp
    simp only [Res.bind, ← hdx, ← hddx] at hp
    cases hB : evalLocalAxes dx ddx with
    | fail => rw [hB] at hp; cases hp
    | ub => rw [hB] at hp; cases hp
    | ok B =>
      rw [hB] at hp
      simp only at hp
      have hp' := Res.ok.inj hp
      have k0 : curvature ddX A.N ddx B.N = 0 := by
        have z1 := (C75_axes dX ddX A hA).2.2.2.2.1
        have z2 := (C75_axes dx ddx B hB).2.2.2.2.1
        have e1 : dot ddX A.N = al * dot dX A.N := by simp only [dot, s1]; ring
        have e2 : dot ddx B.N = be * dot dx B.N := by simp only [dot, hs]; ring
        rw [curvature, e1, e2, z1, z2]; ring
      refine balanced nen x _ (fun c om => ?_) i
      have t1 := rigid_field nen f.dN x dx c om hN (fun i => by rw [d1])
      have q1 : (∑ a ∈ Finset.range nen, ∑ i, deps dx f a i * (c i + cross om (x a) i)) = 0 := by
        rw [deps_sum, t1, dot_turn]
      have : ∀ a, (∑ i, p.S a i * (c i + cross om (x a) i)) =
          (-strain dX dx * weight EA dX w) * (∑ i, deps dx f a i * (c i + cross om (x a) i)) := by
        intro a
        rw [Finset.mul_sum]
        refine Finset.sum_congr rfl fun i _ => ?_
        rw [← hp']
        simp only [contributions, k0]
        ring
      simp only [this]
      rw [← Finset.mul_sum, q1, mul_zero]

/-- A stretched straight element is an example. -/
example : ∃ (f : Basis) (Xn u : Nat → V3 ℝ) (p : Point), ∑ a ∈ Finset.range 2, f.dN a = 0 ∧
    (∀ i, (![1, 0, 0] : V3 ℝ) i = ∑ a ∈ Finset.range 2, f.dN a * Xn a i) ∧ evalInt 2 1 1 1 ![1, 0, 0] ![0, 0, 0] f u = .ok p ∧
    (∀ i, (![0, 0, 0] : V3 ℝ) i = 0 * (![1, 0, 0] : V3 ℝ) i) ∧
    ∀ i, (![0, 0, 0] : V3 ℝ) i + ∑ a ∈ Finset.range 2, f.d2N a * u a i = 0 * ((![1, 0, 0] : V3 ℝ) i + ∑ a ∈ Finset.range 2, f.dN a * u a i) := by
  have l1 : len (![1, 0, 0] : V3 ℝ) = 1 := by simp [len]
  have l2 : len (![2, 0, 0] : V3 ℝ) = 2 := len_eq (by norm_num) (by simp)
  obtain ⟨A, hA⟩ := C75_found ![1, 0, 0] ![0, 0, 0] (by rw [l1]; norm_num)
  obtain ⟨B, hB⟩ := C75_found ![2, 0, 0] ![0, 0, 0] (by rw [l2]; norm_num)
  refine ⟨⟨fun a => if a = 0 then -1 else 1, fun _ => 0⟩, fun a => if a = 0 then ![0, 0, 0] else ![1, 0, 0],
    fun a => if a = 0 then ![0, 0, 0] else ![1, 0, 0], contributions 1 1 1 ![1, 0, 0] ![0, 0, 0] ![2, 0, 0] ![0, 0, 0] A B
      ⟨fun a => if a = 0 then -1 else 1, fun _ => 0⟩, ?_, ?_, ?_, ?_, ?_⟩
  · simp [Finset.sum_range_succ]
  · intro i; fin_cases i <;> simp [Finset.sum_range_succ]
  · have e1 : current 2 ![1, 0, 0] (fun a => if a = 0 then (-1 : ℝ) else 1) (fun a => if a = 0 then ![0, 0, 0] else ![1, 0, 0]) = ![2, 0, 0] := by
      funext i; fin_cases i <;> simp [current, Finset.sum_range_succ]; norm_num
    have e2 : current 2 ![0, 0, 0] (fun _ => (0 : ℝ)) (fun a => if a = 0 then ![0, 0, 0] else ![1, 0, 0]) = ![0, 0, 0] := by
      funext i; fin_cases i <;> simp [current, Finset.sum_range_succ]
    simp only [evalInt, hA, Res.bind, e1, e2, hB]
  · intro i; fin_cases i <;> simp
  · intro i; fin_cases i <;> simp

theorem dunit_rot {r : Fin 3 → V3 ℝ} (h : Rotation r) (u d : V3 ℝ) (l : ℝ) : dunit (rot r u) (rot r d) l = rot r (dunit u d l) := by
  have e : ∀ u d, normalPart u d = dot u d := by intro u d; simp [normalPart, dot, Fin.sum_univ_three]
  funext k
  simp only [dunit, e, rot_dot h]
  simp only [rot, dunit, e]; ring

theorem rot_plus (r : Fin 3 → V3 ℝ) (a b : V3 ℝ) : (fun k => rot r a k + rot r b k) = rot r (fun k => a k + b k) := by
  funext k; simp only [rot]; ring

theorem kap_rot {r : Fin 3 → V3 ℝ} (h : Rotation r) (dx ddx : V3 ℝ) (x : Axes) (D1 D2 : V3 ℝ) :
    kapOf (rot r dx) (rot r ddx) ⟨rot r x.B, rot r x.N, x.Blen, x.Nlen⟩ (rot r D1) (rot r D2) = kapOf dx ddx x D1 D2 := by
  simp only [kapOf, rot_cross h, rot_plus, dunit_rot h, rot_dot h]

theorem ax_rot {r : Fin 3 → V3 ℝ} (h : Rotation r) (dx ddx : V3 ℝ) :
    ax (rot r dx) (rot r ddx) = ⟨rot r (ax dx ddx).B, rot r (ax dx ddx).N, (ax dx ddx).Blen, (ax dx ddx).Nlen⟩ := by
  simp only [ax, finish, rot_cross h, rot_unit h, rot_len h]

theorem dkappa_rot {r : Fin 3 → V3 ℝ} (h : Rotation r) (dx ddx : V3 ℝ) (x : Axes) (f : Basis) (a : Nat) (d : Fin 3) :
    dkappa (rot r dx) (rot r ddx) ⟨rot r x.B, rot r x.N, x.Blen, x.Nlen⟩ f a d = ∑ b, r b d * dkappa dx ddx x f a b := by
  have e1 := kap_node (rot r dx) (rot r ddx) ⟨rot r x.B, rot r x.N, x.Blen, x.Nlen⟩ f a (fun i => if i = d then 1 else 0)
  have e2 : ∀ c : ℝ, (fun i => c * (if i = d then (1 : ℝ) else 0)) = rot r (fun b => c * r b d) := by
    intro c
    rw [← single_rot h c d]
    funext i; simp [Shell.single]
  rw [e2, e2, kap_rot h, ← kap_node] at e1
  have e3 : (∑ i, dkappa (rot r dx) (rot r ddx) ⟨rot r x.B, rot r x.N, x.Blen, x.Nlen⟩ f a i * (if i = d then (1 : ℝ) else 0)) =
      dkappa (rot r dx) (rot r ddx) ⟨rot r x.B, rot r x.N, x.Blen, x.Nlen⟩ f a d := by simp
  rw [← e3, e1]
  exact Finset.sum_congr rfl fun b _ => by ring

/-- C129: for a curved cable moved by a rigid-body motion from the displaced position, the internal forces and the material
stiffness are turned by the rotation. `u'` are the displacements after that motion. What is missing: the geometric stiffness,
see `C45_tangent_violated`. -/
theorem C129_cable_turn (nen : Nat) (EA EI w : ℝ) (dX ddX : V3 ℝ) (f : Basis) (Xn u u' : Nat → V3 ℝ) (A : Axes) (c : V3 ℝ)
    (r : Fin 3 → V3 ℝ) (hr : Rotation r)
    (hN : ∑ a ∈ Finset.range nen, f.dN a = 0) (hN2 : ∑ a ∈ Finset.range nen, f.d2N a = 0)
    (hX : ∀ i, dX i = ∑ a ∈ Finset.range nen, f.dN a * Xn a i) (hX2 : ∀ i, ddX i = ∑ a ∈ Finset.range nen, f.d2N a * Xn a i)
    (hA : evalLocalAxes dX ddX = .ok A) (x : Nat → V3 ℝ) (hx : x = fun a i => Xn a i + u a i)
    (hu' : ∀ a i, Xn a i + u' a i = c i + rot r (x a) i)
    (hc : 1 / 1000000000000 ≤ len (cross (fun i => ∑ a ∈ Finset.range nen, f.dN a * x a i) (fun i => ∑ a ∈ Finset.range nen, f.d2N a * x a i))) :
    ∃ p q, evalInt nen EA EI w dX ddX f u = .ok p ∧ evalInt nen EA EI w dX ddX f u' = .ok q ∧
      (∀ a d, q.S a d = ∑ b, r b d * p.S a b) ∧
      ∀ a d b e, q.Km a d b e = ∑ i, ∑ j, r i d * r j e * p.Km a i b j := by
  have d1 : current nen dX f.dN u = fun i => ∑ a ∈ Finset.range nen, f.dN a * x a i := by
    funext i; rw [current_pos nen dX f.dN Xn u hX, hx]
  have d2 : current nen ddX f.d2N u = fun i => ∑ a ∈ Finset.range nen, f.d2N a * x a i := by
    funext i; rw [current_pos nen ddX f.d2N Xn u hX2, hx]
  obtain ⟨dx, hdx⟩ : ∃ dx, dx = current nen dX f.dN u := ⟨_, rfl⟩
  obtain ⟨ddx, hddx⟩ : ∃ ddx, ddx = current nen ddX f.d2N u := ⟨_, rfl⟩
  have gen : ∀ v : Nat → ℝ, ∑ a ∈ Finset.range nen, v a = 0 → (fun i => ∑ a ∈ Finset.range nen, v a * (c i + rot r (x a) i)) =
      rot r (fun i => ∑ a ∈ Finset.range nen, v a * x a i) := by
    intro v hv
    funext i
    simp only [mul_add, Finset.sum_add_distrib, ← Finset.sum_mul, hv, zero_mul, zero_add]
    simp only [rot, Finset.mul_sum, ← Finset.sum_add_distrib]
    exact Finset.sum_congr rfl fun a _ => by ring
  have e1 : current nen dX f.dN u' = rot r dx := by
    rw [hdx, d1, ← gen f.dN hN]
    funext i; rw [current_pos nen dX f.dN Xn u' hX]; simp only [hu']
  have e2 : current nen ddX f.d2N u' = rot r ddx := by
    rw [hddx, d2, ← gen f.d2N hN2]
    funext i; rw [current_pos nen ddX f.d2N Xn u' hX2]; simp only [hu']
  rw [← d1, ← d2, ← hdx, ← hddx] at hc
  refine ⟨contributions EA EI w dX ddX dx ddx A (ax dx ddx) f, contributions EA EI w dX ddX (rot r dx) (rot r ddx) A
    (ax (rot r dx) (rot r ddx)) f, ?_, ?_, ?_, ?_⟩
  · simp only [evalInt, hA, Res.bind, ← hdx, ← hddx, axes_ok dx ddx hc]
  · simp only [evalInt, hA, Res.bind, e1, e2, axes_ok (rot r dx) (rot r ddx) (by rw [rot_cross hr, rot_len hr]; exact hc)]
  · intro a d
    simp only [contributions, ax_rot hr, dkappa_rot hr, strain, curvature, rot_dot hr, deps]
    simp only [rot, Fin.sum_univ_three]
    ring
  · intro a d b e
    simp only [contributions, ax_rot hr, dkappa_rot hr, deps]
    simp only [rot, Fin.sum_univ_three]
    ring

end Verif.Cable

/-! ### Plates -/

namespace Verif.Plate

open Verif.LinIso (FE Pt Mat Admissible nuAt)

variable {K : Type*} [Field K] [LinearOrder K] [IsStrictOrderedRing K]

/-- The stiffness of a plate by second derivatives and moments. -/
theorem stiff_form (v : Nat) (m : Mat K) (f : Elm K) (X : Pt K) (T : K) (ha : m.axiSymmetry = false) (hn : Admissible m X)
    (h2 : f.dim2 = 2) (h3 : f.dim3 = 2) :
    ∃ k, stiffness v m 2 f X T = .ok k ∧ ∃ p q g : K, ∀ a b, 1 ≤ a → a ≤ f.nen → 1 ≤ b → b ≤ f.nen →
      k a b = f.d2N a 1 1 * (p * f.d2N b 1 1 + q * f.d2N b 2 2) + f.d2N a 2 2 * (q * f.d2N b 1 1 + p * f.d2N b 2 2) +
        f.d2N a 1 2 * (g * f.d2N b 1 2) := by
  by_cases hv : v = 1
  · subst hv
    obtain ⟨k1, e1, e2⟩ := K1_eq m f X T ha hn h2 h3
    refine ⟨k1, e1, LinIso.dirA (m.young f.fe X) (nuAt m X) m.planeStress false * (T * T * T / 12) * f.dJW,
      LinIso.dirB (m.young f.fe X) (nuAt m X) m.planeStress false * (T * T * T / 12) * f.dJW,
      4 * (m.young f.fe X / (2 + nuAt m X + nuAt m X) * (T * T * T / 12)) * f.dJW, fun a b a1 a2 b1 b2 => ?_⟩
    rw [e2 a b a1 a2 b1 b2]
    ring
  · refine ⟨evalK2 v m 2 f X T, by simp only [stiffness, if_neg hv], LinIso.getPlateStiffness m X T f.fe.age * f.dJW,
      if v = 2 then 0 else LinIso.getPlateStiffness m X T f.fe.age * f.dJW,
      if v = 2 then LinIso.getPlateStiffness m X T f.fe.age * f.dJW * 2 else 0, fun a b a1 a2 b1 b2 => ?_⟩
    by_cases hv2 : v = 2 <;> simp [evalK2, hv2] <;> ring

/-- C129: the forces of a plate for any nodal deflections `w`, in each of the three formulations, have no resultant and no moments about the
coordinate axes, and a rigid deflection causes no forces. `x` and `y` are the coordinates of the nodes, the second derivatives of which vanish. -/
theorem C129_plate (v : Nat) (m : Mat K) (f : Elm K) (X : Pt K) (T : K) (ha : m.axiSymmetry = false) (hn : Admissible m X)
    (h2 : f.dim2 = 2) (h3 : f.dim3 = 2) (x y : Nat → K)
    (n1 : ∀ i j, ∑ a ∈ Finset.range f.nen, f.d2N (a + 1) i j = 0)
    (nx : ∀ i j, ∑ a ∈ Finset.range f.nen, f.d2N (a + 1) i j * x (a + 1) = 0)
    (ny : ∀ i j, ∑ a ∈ Finset.range f.nen, f.d2N (a + 1) i j * y (a + 1) = 0) :
    ∃ k, stiffness v m 2 f X T = .ok k ∧
      (∀ w F : Nat → K, (∀ a, F a = ∑ b ∈ Finset.range f.nen, k a (b + 1) * w (b + 1)) →
        ∑ a ∈ Finset.range f.nen, F (a + 1) = 0 ∧ ∑ a ∈ Finset.range f.nen, x (a + 1) * F (a + 1) = 0 ∧
        ∑ a ∈ Finset.range f.nen, y (a + 1) * F (a + 1) = 0) ∧
      ∀ c0 cx cy : K, ∀ a, 1 ≤ a → a ≤ f.nen →
        ∑ b ∈ Finset.range f.nen, k a (b + 1) * (c0 + cx * x (b + 1) + cy * y (b + 1)) = 0 := by
  obtain ⟨k, hk, p, q, g, e⟩ := stiff_form v m f X T ha hn h2 h3
  have hw : ∀ z : Nat → K, (∀ i j, ∑ a ∈ Finset.range f.nen, f.d2N (a + 1) i j * z (a + 1) = 0) →
      (∀ b, 1 ≤ b → b ≤ f.nen → ∑ a ∈ Finset.range f.nen, z (a + 1) * k (a + 1) b = 0) ∧
      ∀ a, 1 ≤ a → a ≤ f.nen → ∑ b ∈ Finset.range f.nen, k a (b + 1) * z (b + 1) = 0 := by
    intro z hz
    constructor
    · intro b b1 b2
      have : ∀ a ∈ Finset.range f.nen, z (a + 1) * k (a + 1) b =
          f.d2N (a + 1) 1 1 * z (a + 1) * (p * f.d2N b 1 1 + q * f.d2N b 2 2) +
          f.d2N (a + 1) 2 2 * z (a + 1) * (q * f.d2N b 1 1 + p * f.d2N b 2 2) + f.d2N (a + 1) 1 2 * z (a + 1) * (g * f.d2N b 1 2) := by
        intro a ha
        rw [e (a + 1) b (by omega) (by have := Finset.mem_range.1 ha; omega) b1 b2]; ring
      rw [Finset.sum_congr rfl this, Finset.sum_add_distrib, Finset.sum_add_distrib, ← Finset.sum_mul, ← Finset.sum_mul, ← Finset.sum_mul,
        hz, hz, hz]
      ring
    · intro a a1 a2
      have : ∀ b ∈ Finset.range f.nen, k a (b + 1) * z (b + 1) =
          (f.d2N a 1 1 * p + f.d2N a 2 2 * q) * (f.d2N (b + 1) 1 1 * z (b + 1)) +
          (f.d2N a 1 1 * q + f.d2N a 2 2 * p) * (f.d2N (b + 1) 2 2 * z (b + 1)) + f.d2N a 1 2 * g * (f.d2N (b + 1) 1 2 * z (b + 1)) := by
        intro b hb
        rw [e a (b + 1) a1 a2 (by omega) (by have := Finset.mem_range.1 hb; omega)]; ring
      rw [Finset.sum_congr rfl this, Finset.sum_add_distrib, Finset.sum_add_distrib, ← Finset.mul_sum, ← Finset.mul_sum, ← Finset.mul_sum,
        hz, hz, hz]
      ring
  have h1 := hw (fun _ => 1) (fun i j => by simpa using n1 i j)
  have hx := hw x nx
  have hy := hw y ny
  refine ⟨k, hk, fun w F hF => ?_, fun c0 cx cy a a1 a2 => ?_⟩
  · have gen : ∀ z : Nat → K, (∀ b, 1 ≤ b → b ≤ f.nen → ∑ a ∈ Finset.range f.nen, z (a + 1) * k (a + 1) b = 0) →
        ∑ a ∈ Finset.range f.nen, z (a + 1) * F (a + 1) = 0 := by
      intro z hz
      simp only [hF, Finset.mul_sum]
      rw [Finset.sum_comm]
      refine Finset.sum_eq_zero fun b hb => ?_
      have := hz (b + 1) (by omega) (by have := Finset.mem_range.1 hb; omega)
      simp only [← mul_assoc, ← Finset.sum_mul, this, zero_mul]
    refine ⟨?_, gen x hx.1, gen y hy.1⟩
    have := gen (fun _ => 1) h1.1
    simpa using this
  · have r1 := h1.2 a a1 a2
    have r2 := hx.2 a a1 a2
    have r3 := hy.2 a a1 a2
    have : ∀ b, k a (b + 1) * (c0 + cx * x (b + 1) + cy * y (b + 1)) =
        c0 * (k a (b + 1) * 1) + cx * (k a (b + 1) * x (b + 1)) + cy * (k a (b + 1) * y (b + 1)) := by intro b; ring
    simp only [this, Finset.sum_add_distrib, ← Finset.mul_sum, r1, r2, r3]
    ring

/-- Four nodes with the functions `1-s-t-s^2`, `s`, `t`, `s^2` and the coordinates `x = s`, `y = t` meet the hypotheses. -/
example : let f : Elm ℚ := ⟨4, fun _ => 0, 2, 2, fun a i j => if i = 1 ∧ j = 1 then (if a = 1 then -2 else if a = 4 then 2 else 0) else 0, none, 1, ⟨0, 0, 0⟩⟩
    (∀ i j, ∑ a ∈ Finset.range f.nen, f.d2N (a + 1) i j = 0) ∧
    (∀ i j, ∑ a ∈ Finset.range f.nen, f.d2N (a + 1) i j * (if a + 1 = 2 then 1 else 0) = 0) ∧
    (∀ i j, ∑ a ∈ Finset.range f.nen, f.d2N (a + 1) i j * (if a + 1 = 3 then 1 else 0) = 0) ∧ f.d2N 4 1 1 = 2 := by
  refine ⟨fun i j => ?_, fun i j => ?_, fun i j => ?_, by norm_num⟩ <;> by_cases h : i = 1 ∧ j = 1 <;> simp [Finset.sum_range_succ, h]

end Verif.Plate
