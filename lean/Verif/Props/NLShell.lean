/-
C49: the nonlinear Kirchhoff-Love shell.
-/
import Verif.Props.ShellStress

set_option linter.unusedSectionVars false
set_option linter.unusedSimpArgs false
set_option linter.unusedVariables false
set_option linter.unnecessarySeqFocus false

namespace Verif.Shell

open Verif.Beam (V3)
open Verif.Bar (len unit cross len_sq len_pos unit_sq)
open Verif.Cable (dot cross_var unit_var dunit_var dunit ddunit normalPart ddlen)
open Verif.LinIso (FE Pt Mat Admissible nuAt)

/-- Specification: the nodal positions `x` with component `d` of node `k` changed by `s`. -/
def push (x : Nat → V3 ℝ) (k : Nat) (d : Fin 3) (s : ℝ) : Nat → V3 ℝ := fun c i => x c i + if c = k ∧ i = d then s else 0

theorem push_zero (x : Nat → V3 ℝ) (k : Nat) (d : Fin 3) : push x k d 0 = x := by
  funext c i; simp [push]

theorem sum_push (n : Nat) (w : Nat → ℝ) (x : Nat → V3 ℝ) (k : Nat) (hk : k < n) (d i : Fin 3) (s : ℝ) :
    (∑ c ∈ Finset.range n, push x k d s c i * w c) = (∑ c ∈ Finset.range n, x c i * w c) + s * single (w k) d i := by
  simp only [push, add_mul, Finset.sum_add_distrib]
  congr 1
  rw [Finset.sum_eq_single k]
  · by_cases h : i = d <;> simp [single, h]
  · intro b _ hb; simp [hb]
  · intro h; simp at h; omega

section Var

variable {f : Basis} {x : Nat → V3 ℝ} {k l : Nat} {d e : Fin 3}

theorem g1_var (hl : l < f.nen) (i : Fin 3) : HasDerivAt (fun s => (deformed f (push x l e s)).g1 i) (single (f.dN l 0) e i) 0 := by
  have : ∀ s, (deformed f (push x l e s)).g1 i = (deformed f x).g1 i + s * single (f.dN l 0) e i := fun s => sum_push _ _ _ _ hl _ _ _
  simp only [this]
  simpa using ((hasDerivAt_id (0 : ℝ)).mul_const (single (f.dN l 0) e i)).const_add ((deformed f x).g1 i)

theorem g2_var (hl : l < f.nen) (i : Fin 3) : HasDerivAt (fun s => (deformed f (push x l e s)).g2 i) (single (f.dN l 1) e i) 0 := by
  have : ∀ s, (deformed f (push x l e s)).g2 i = (deformed f x).g2 i + s * single (f.dN l 1) e i := fun s => sum_push _ _ _ _ hl _ _ _
  simp only [this]
  simpa using ((hasDerivAt_id (0 : ℝ)).mul_const (single (f.dN l 1) e i)).const_add ((deformed f x).g2 i)

theorem H_var (hl : l < f.nen) (j i : Fin 3) : HasDerivAt (fun s => (deformed f (push x l e s)).H j i) (single (f.d2N l j) e i) 0 := by
  have : ∀ s, (deformed f (push x l e s)).H j i = (deformed f x).H j i + s * single (f.d2N l j) e i := fun s => sum_push _ _ _ _ hl _ _ _
  simp only [this]
  simpa using ((hasDerivAt_id (0 : ℝ)).mul_const (single (f.d2N l j) e i)).const_add ((deformed f x).H j i)

theorem dg3_eq (g1 g2 : V3 ℝ) (f : Basis) (k : Nat) (d i : Fin 3) :
    dg3 g1 g2 f k d i = cross (single (f.dN k 0) d) g2 i + cross g1 (single (f.dN k 1) d) i := by
  fin_cases i <;> simp [dg3, cross] <;> ring

theorem ddg3_eq (f : Basis) (k l : Nat) (d e i : Fin 3) :
    ddg3 f k d l e i = cross (single (f.dN k 0) d) (single (f.dN l 1) e) i + cross (single (f.dN l 0) e) (single (f.dN k 1) d) i := by
  fin_cases d <;> fin_cases e <;> fin_cases i <;> simp [ddg3, cross, single] <;> ring

theorem g3_var (hl : l < f.nen) (i : Fin 3) :
    HasDerivAt (fun s => g3 (deformed f (push x l e s)).g1 (deformed f (push x l e s)).g2 i)
      (dg3 (deformed f x).g1 (deformed f x).g2 f l e i) 0 := by
  have h := cross_var (fun i => g1_var (f := f) (x := x) (e := e) hl i) (fun i => g2_var (f := f) (x := x) (e := e) hl i) i
  rw [push_zero] at h
  rw [dg3_eq]
  exact h

theorem dg3_var (hl : l < f.nen) (i : Fin 3) :
    HasDerivAt (fun s => dg3 (deformed f (push x l e s)).g1 (deformed f (push x l e s)).g2 f k d i) (ddg3 f k d l e i) 0 := by
  have c : ∀ v : V3 ℝ, ∀ i, HasDerivAt (fun _ : ℝ => v i) 0 (0 : ℝ) := fun v i => hasDerivAt_const _ _
  have h := (cross_var (a := fun _ => single (f.dN k 0) d) (a' := fun _ => 0) (c _) (fun i => g2_var (f := f) (x := x) (e := e) hl i) i).add
    (cross_var (b := fun _ => single (f.dN k 1) d) (b' := fun _ => 0) (fun i => g1_var (f := f) (x := x) (e := e) hl i) (c _) i)
  simp only [dg3_eq]
  refine HasDerivAt.congr_deriv h ?_
  rw [ddg3_eq]
  have z1 : ∀ (v : V3 ℝ), cross (fun _ => 0) v i = 0 := by intro v; fin_cases i <;> simp [cross]
  have z2 : ∀ (v : V3 ℝ), cross v (fun _ => 0) i = 0 := by intro v; fin_cases i <;> simp [cross]
  rw [z1, z2]; ring

theorem dn_eq (g1 g2 : V3 ℝ) (f : Basis) (k : Nat) (d i : Fin 3) (h : 0 < len (g3 g1 g2)) :
    dn g1 g2 f k d i = dunit (unit (g3 g1 g2)) (dg3 g1 g2 f k d) (len (g3 g1 g2)) i := by
  simp only [dn, dunit, normalPart, unit, dot, Fin.sum_univ_three]
  field_simp

theorem n_var (hl : l < f.nen) (h : 0 < len (g3 (deformed f x).g1 (deformed f x).g2)) (i : Fin 3) :
    HasDerivAt (fun s => unit (g3 (deformed f (push x l e s)).g1 (deformed f (push x l e s)).g2) i)
      (dn (deformed f x).g1 (deformed f x).g2 f l e i) 0 := by
  have hv := unit_var (fun i => g3_var (f := f) (x := x) (e := e) hl i) (by rw [push_zero]; exact h) i
  rw [push_zero] at hv
  rw [dn_eq _ _ _ _ _ _ h]
  exact hv

theorem dn_var (hl : l < f.nen) (h : 0 < len (g3 (deformed f x).g1 (deformed f x).g2)) (i : Fin 3) :
    HasDerivAt (fun s => dn (deformed f (push x l e s)).g1 (deformed f (push x l e s)).g2 f k d i)
      (ddn (deformed f x).g1 (deformed f x).g2 f k d l e i) 0 := by
  have hv := dunit_var (fun i => g3_var (f := f) (x := x) (e := e) hl i) (fun i => dg3_var (f := f) (x := x) (e := e) (k := k) (d := d) hl i)
    (by rw [push_zero]; exact h) i
  rw [push_zero] at hv
  -- the normal stays nonzero nearby
  have hc : ContinuousAt (fun s => len (g3 (deformed f (push x l e s)).g1 (deformed f (push x l e s)).g2)) 0 :=
    (Cable.len_var (fun i => g3_var (f := f) (x := x) (e := e) hl i) (by rw [push_zero]; exact h)).continuousAt
  have hev : ∀ᶠ s in nhds (0 : ℝ), 0 < len (g3 (deformed f (push x l e s)).g1 (deformed f (push x l e s)).g2) := by
    refine hc.eventually (lt_mem_nhds ?_)
    simp only [push_zero]; exact h
  refine HasDerivAt.congr_deriv (hv.congr_of_eventuallyEq ?_) ?_
  · filter_upwards [hev] with s hs
    exact dn_eq _ _ _ _ _ _ hs
  · simp only [ddn, ddunit, ddlen, normalPart, unit, dot, Fin.sum_univ_three]
    generalize len (g3 (deformed f x).g1 (deformed f x).g2) = L at *
    have := h.ne'
    field_simp
    ring

/-- Derivative of the scalar product. -/
theorem dot_var {a b : ℝ → V3 ℝ} {a' b' : V3 ℝ} {t : ℝ} (ha : ∀ k, HasDerivAt (fun s => a s k) (a' k) t)
    (hb : ∀ k, HasDerivAt (fun s => b s k) (b' k) t) :
    HasDerivAt (fun s => dot (a s) (b s)) (dot a' (b t) + dot (a t) b') t := by
  refine HasDerivAt.congr_deriv ((((ha 0).mul (hb 0)).add ((ha 1).mul (hb 1))).add ((ha 2).mul (hb 2))) ?_
  simp only [dot]; ring

theorem dot_single (v : V3 ℝ) (c : ℝ) (e : Fin 3) : dot v (single c e) = c * v e := by
  fin_cases e <;> simp [dot, single] <;> ring

theorem dot_single' (v : V3 ℝ) (c : ℝ) (e : Fin 3) : dot (single c e) v = c * v e := by
  fin_cases e <;> simp [dot, single]

/-- C49: the strain variations are the derivatives of strains and curvatures with respect to the nodal positions. -/
theorem C49_first (G : Geo) (hl : l < f.nen) (h : 0 < len (cross (deformed f x).g1 (deformed f x).g2)) (j : Fin 3) :
    HasDerivAt (fun s => (strains G (deformed f (push x l e s))).1 j) (dE (deformed f x).g1 (deformed f x).g2 f l e j) 0 ∧
    HasDerivAt (fun s => (strains G (deformed f (push x l e s))).2 j) (dK (deformed f x) f l e j) 0 := by
  constructor
  · have a := dot_var (fun i => g1_var (f := f) (x := x) (e := e) hl i) (fun i => g1_var (f := f) (x := x) (e := e) hl i)
    have b := dot_var (fun i => g2_var (f := f) (x := x) (e := e) hl i) (fun i => g2_var (f := f) (x := x) (e := e) hl i)
    have c := dot_var (fun i => g1_var (f := f) (x := x) (e := e) hl i) (fun i => g2_var (f := f) (x := x) (e := e) hl i)
    rw [push_zero] at a b c
    simp only [dot_single, dot_single'] at a b c
    fin_cases j
    · refine HasDerivAt.congr_deriv ((a.sub_const (dot G.g1 G.g1)).const_mul (1 / 2)) ?_
      simp [dE]; ring
    · refine HasDerivAt.congr_deriv ((b.sub_const (dot G.g2 G.g2)).const_mul (1 / 2)) ?_
      simp [dE]; ring
    · refine HasDerivAt.congr_deriv ((c.sub_const (dot G.g1 G.g2)).const_mul (1 / 2)) ?_
      simp [dE]
  · have a := dot_var (fun i => n_var (f := f) (x := x) (e := e) hl h i) (fun i => H_var (f := f) (x := x) (e := e) hl j i)
    rw [push_zero] at a
    refine HasDerivAt.congr_deriv (a.const_sub (rowH (unit (g3 G.g1 G.g2)) G.H j)) ?_
    simp only [dK, rowH, dot_single]
    ring

/-- C49: the second strain variations are the derivatives of the first ones. -/
theorem C49_second (hl : l < f.nen) (h : 0 < len (cross (deformed f x).g1 (deformed f x).g2)) (j : Fin 3) :
    HasDerivAt (fun s => dE (deformed f (push x l e s)).g1 (deformed f (push x l e s)).g2 f k d j) (ddE f k d l e j) 0 ∧
    HasDerivAt (fun s => dK (deformed f (push x l e s)) f k d j) (ddK (deformed f x) f k d l e j) 0 := by
  constructor
  · have a := g1_var (f := f) (x := x) (e := e) hl d
    have b := g2_var (f := f) (x := x) (e := e) hl d
    fin_cases j
    · refine HasDerivAt.congr_deriv (a.const_mul (f.dN k 0)) ?_
      by_cases hd : d = e <;> simp [ddE, single, hd]
    · refine HasDerivAt.congr_deriv (b.const_mul (f.dN k 1)) ?_
      by_cases hd : d = e <;> simp [ddE, single, hd]
    · refine HasDerivAt.congr_deriv (((b.const_mul (f.dN k 0)).add (a.const_mul (f.dN k 1))).const_mul (1 / 2)) ?_
      by_cases hd : d = e <;> simp [ddE, single, hd]
  · have a := dot_var (fun i => dn_var (f := f) (x := x) (e := e) (k := k) (d := d) hl h i)
      (fun i => H_var (f := f) (x := x) (e := e) hl j i)
    rw [push_zero] at a
    have b := (n_var (f := f) (x := x) (e := e) hl h d).const_mul (-f.d2N k j)
    refine HasDerivAt.congr_deriv (b.sub a) ?_
    simp only [ddK, rowH, dot_single]
    ring

end Var

/-- Specification: Green's strains of the surface with respect to the initial surface `G`. -/
noncomputable def green (G g : Geo) : Fin 3 → ℝ :=
  ![(dot g.g1 g.g1 - dot G.g1 G.g1) / 2, (dot g.g2 g.g2 - dot G.g2 G.g2) / 2, (dot g.g1 g.g2 - dot G.g1 G.g2) / 2]

/-- Specification: change of the normal curvatures. -/
noncomputable def bend (G g : Geo) : Fin 3 → ℝ := fun j =>
  dot (fun i => cross G.g1 G.g2 i / len (cross G.g1 G.g2)) (G.H j) - dot (fun i => cross g.g1 g.g2 i / len (cross g.g1 g.g2)) (g.H j)

theorem strains_eq (G g : Geo) : strains G g = (green G g, bend G g) := by
  ext j
  · fin_cases j <;> simp [strains, green, gab] <;> ring
  · rfl

/-- Specification: strain energy of the shell, weight `dJW`. -/
noncomputable def energy (E nu : ℝ) (ps : Bool) (t dJW : ℝ) (G g : Geo) : ℝ :=
  let e := tmul (tmat G.g1 G.g2) (green G g)
  let k := tmul (tmat G.g1 G.g2) (bend G g)
  dJW / 2 * (t * dot3 e (hooke E nu ps e) + t ^ 3 / 12 * dot3 k (hooke E nu ps k))

theorem tmul_var (T : Fin 3 → Fin 3 → ℝ) {v : ℝ → Fin 3 → ℝ} {v' : Fin 3 → ℝ} {t : ℝ} (h : ∀ k, HasDerivAt (fun s => v s k) (v' k) t)
    (r : Fin 3) : HasDerivAt (fun s => tmul T (v s) r) (tmul T v' r) t := by
  simp only [tmul, Fin.sum_univ_three]
  exact (((h 0).const_mul _).add ((h 1).const_mul _)).add ((h 2).const_mul _)

theorem hooke_var (E nu : ℝ) (ps : Bool) {v : ℝ → Fin 3 → ℝ} {v' : Fin 3 → ℝ} {t : ℝ} (h : ∀ k, HasDerivAt (fun s => v s k) (v' k) t)
    (r : Fin 3) : HasDerivAt (fun s => hooke E nu ps (v s) r) (hooke E nu ps v' r) t := by
  cases ps
  · fin_cases r
    · exact (((h 0).const_mul _).add ((h 1).const_mul _)).const_mul _
    · exact (((h 0).const_mul _).add ((h 1).const_mul _)).const_mul _
    · exact (h 2).const_mul _
  · fin_cases r
    · exact ((h 0).add ((h 1).const_mul _)).const_mul _
    · exact (((h 0).const_mul _).add (h 1)).const_mul _
    · exact (h 2).const_mul _

theorem dot3_var {a b : ℝ → Fin 3 → ℝ} {a' b' : Fin 3 → ℝ} {t : ℝ} (ha : ∀ k, HasDerivAt (fun s => a s k) (a' k) t)
    (hb : ∀ k, HasDerivAt (fun s => b s k) (b' k) t) :
    HasDerivAt (fun s => dot3 (a s) (b s)) (dot3 a' (b t) + dot3 (a t) b') t := by
  simp only [dot3, Fin.sum_univ_three]
  refine HasDerivAt.congr_deriv ((((ha 0).mul (hb 0)).add ((ha 1).mul (hb 1))).add ((ha 2).mul (hb 2))) ?_
  ring

/-- What `evalKandS` computes. -/
theorem evalKandS_eq (m : Mat ℝ) (fe : FE ℝ) (X : Pt ℝ) (t dJW : ℝ) (f : Basis) (G g : Geo) (ha : m.axiSymmetry = false)
    (hn : Admissible m X) :
    let Hk := hooke (m.young fe X) (nuAt m X) m.planeStress
    let T := tmat G.g1 G.g2
    let e := tmul T (green G g)
    let c := tmul T (bend G g)
    let kem := fun k d l e' => dot3 (fun r => t * Hk e r) (tmul T (ddE f k d l e'))
    let keb := fun k d l e' => dot3 (fun r => t ^ 3 / 12 * Hk c r) (tmul T (ddK g f k d l e'))
    evalKandS m fe X t dJW f G g = .ok
      (fun k d l e' =>
        ((if pos l e' ≤ pos k d then kem k d l e' else kem l e' k d) +
          t * dot3 (Hk (tmul T (dE g.g1 g.g2 f k d))) (tmul T (dE g.g1 g.g2 f l e'))) * dJW +
        ((if pos l e' ≤ pos k d then keb k d l e' else keb l e' k d) +
          t ^ 3 / 12 * dot3 (Hk (tmul T (dK g f k d))) (tmul T (dK g f l e'))) * dJW,
       fun k d => -dJW * (t * dot3 (tmul T (dE g.g1 g.g2 f k d)) (Hk e)) +
         -dJW * (t ^ 3 / 12 * dot3 (tmul T (dK g f k d)) (Hk c))) := by
  intro Hk T e c kem keb
  obtain ⟨D, hD, hv⟩ := formD_eq m fe X t ha hn
  unfold evalKandS
  rw [hD, strains_eq]
  simp only [Res.bind, (hv _).1, (hv _).2]
  congr 2
  · funext k d l e'
    simp only [kem, keb, Hk, T, dot3, Fin.sum_univ_three, e, c]
    ring
  · funext k d
    simp only [Hk, T, dot3, Fin.sum_univ_three, e, c]
    ring

/-- C49: the internal forces are the derivatives of the strain energy with respect to the nodal positions. The program adds their negative
to the residual. -/
theorem C49_forces (m : Mat ℝ) (fe : FE ℝ) (X : Pt ℝ) (t dJW : ℝ) (f : Basis) (G : Geo) (x : Nat → V3 ℝ) (ha : m.axiSymmetry = false)
    (hn : Admissible m X) (h : 0 < len (cross (deformed f x).g1 (deformed f x).g2)) :
    ∃ K S, evalKandS m fe X t dJW f G (deformed f x) = .ok (K, S) ∧ ∀ k < f.nen, ∀ d,
      HasDerivAt (fun s => energy (m.young fe X) (nuAt m X) m.planeStress t dJW G (deformed f (push x k d s))) (-S k d) 0 := by
  refine ⟨_, _, evalKandS_eq m fe X t dJW f G (deformed f x) ha hn, fun k hk d => ?_⟩
  have h1 : ∀ j, HasDerivAt (fun s => green G (deformed f (push x k d s)) j) (dE (deformed f x).g1 (deformed f x).g2 f k d j) 0 := by
    intro j
    have := (C49_first (e := d) G hk h j).1
    simpa only [strains_eq] using this
  have h2 : ∀ j, HasDerivAt (fun s => bend G (deformed f (push x k d s)) j) (dK (deformed f x) f k d j) 0 := by
    intro j
    have := (C49_first (e := d) G hk h j).2
    simpa only [strains_eq] using this
  have a1 := tmul_var (tmat G.g1 G.g2) h1
  have a2 := tmul_var (tmat G.g1 G.g2) h2
  have b1 := dot3_var a1 (hooke_var (m.young fe X) (nuAt m X) m.planeStress a1)
  have b2 := dot3_var a2 (hooke_var (m.young fe X) (nuAt m X) m.planeStress a2)
  rw [push_zero] at b1 b2
  refine HasDerivAt.congr_deriv (((b1.const_mul t).add (b2.const_mul (t ^ 3 / 12))).const_mul (dJW / 2)) ?_
  rw [hooke_symm _ _ _ (tmul (tmat G.g1 G.g2) (green G (deformed f x))), hooke_symm _ _ _ (tmul (tmat G.g1 G.g2) (bend G (deformed f x)))]
  ring

/-- The second variations are symmetric. -/
theorem ddE_symm (f : Basis) (k l : Nat) (d e : Fin 3) : ddE f k d l e = ddE f l e k d := by
  funext j
  by_cases hd : d = e
  · subst hd
    fin_cases j <;> simp [ddE] <;> ring
  · simp [ddE, hd, Ne.symm hd, eq_comm]

theorem ddn_symm (g1 g2 : V3 ℝ) (f : Basis) (k l : Nat) (d e : Fin 3) : ddn g1 g2 f k d l e = ddn g1 g2 f l e k d := by
  have hs : ddg3 f k d l e = ddg3 f l e k d := by
    funext i; rw [ddg3_eq, ddg3_eq]; ring
  funext i
  simp only [ddn, hs, dot]
  ring

theorem ddK_symm (g : Geo) (f : Basis) (k l : Nat) (d e : Fin 3) : ddK g f k d l e = ddK g f l e k d := by
  funext j
  simp only [ddK, ddn_symm g.g1 g.g2 f k l d e]
  ring

/-- C49: the tangent stiffness matrix is symmetric, and is the derivative of the internal forces. -/
theorem C49_tangent (m : Mat ℝ) (fe : FE ℝ) (X : Pt ℝ) (t dJW : ℝ) (f : Basis) (G : Geo) (ha : m.axiSymmetry = false)
    (hn : Admissible m X) :
    ∃ F : (Nat → V3 ℝ) → (Nat → Fin 3 → Nat → Fin 3 → ℝ) × (Nat → Fin 3 → ℝ),
      (∀ x, evalKandS m fe X t dJW f G (deformed f x) = .ok (F x)) ∧
      ∀ x, 0 < len (cross (deformed f x).g1 (deformed f x).g2) → ∀ k d l e, k < f.nen → l < f.nen →
        (F x).1 k d l e = (F x).1 l e k d ∧
        HasDerivAt (fun s => -(F (push x l e s)).2 k d) ((F x).1 k d l e) 0 := by
  refine ⟨fun x => _, fun x => evalKandS_eq m fe X t dJW f G (deformed f x) ha hn, fun x h k d l e hk hl => ?_⟩
  have s1 : ∀ (v : Fin 3 → ℝ) k d l e, (if pos l e ≤ pos k d then dot3 v (tmul (tmat G.g1 G.g2) (ddE f k d l e)) else
      dot3 v (tmul (tmat G.g1 G.g2) (ddE f l e k d))) = dot3 v (tmul (tmat G.g1 G.g2) (ddE f k d l e)) := by
    intro v k d l e; rw [ddE_symm f l k e d, ite_self]
  have s2 : ∀ (v : Fin 3 → ℝ) g k d l e, (if pos l e ≤ pos k d then dot3 v (tmul (tmat G.g1 G.g2) (ddK g f k d l e)) else
      dot3 v (tmul (tmat G.g1 G.g2) (ddK g f l e k d))) = dot3 v (tmul (tmat G.g1 G.g2) (ddK g f k d l e)) := by
    intro v g k d l e; rw [ddK_symm g f l k e d, ite_self]
  have dc : ∀ a b : Fin 3 → ℝ, dot3 a b = dot3 b a := by intro a b; simp only [dot3, mul_comm]
  simp only [s1, s2]
  constructor
  · rw [ddE_symm f k l d e, ddK_symm (deformed f x) f k l d e]
    rw [dc (hooke _ _ _ (tmul _ (dE _ _ f k d))), hooke_symm, dc _ (hooke _ _ _ (tmul _ (dE _ _ f l e))),
      dc (hooke _ _ _ (tmul _ (dK _ f k d))), hooke_symm _ _ _ (tmul _ (dK _ f l e)), dc _ (hooke _ _ _ (tmul _ (dK _ f l e)))]
  · have h1 : ∀ j, HasDerivAt (fun s => green G (deformed f (push x l e s)) j) (dE (deformed f x).g1 (deformed f x).g2 f l e j) 0 := by
      intro j
      have := (C49_first (e := e) G hl h j).1
      simpa only [strains_eq] using this
    have h2 : ∀ j, HasDerivAt (fun s => bend G (deformed f (push x l e s)) j) (dK (deformed f x) f l e j) 0 := by
      intro j
      have := (C49_first (e := e) G hl h j).2
      simpa only [strains_eq] using this
    have h3 := fun j => (C49_second (k := k) (d := d) (e := e) hl h j).1
    have h4 := fun j => (C49_second (k := k) (d := d) (e := e) hl h j).2
    have b1 := dot3_var (tmul_var (tmat G.g1 G.g2) h3) (hooke_var (m.young fe X) (nuAt m X) m.planeStress (tmul_var (tmat G.g1 G.g2) h1))
    have b2 := dot3_var (tmul_var (tmat G.g1 G.g2) h4) (hooke_var (m.young fe X) (nuAt m X) m.planeStress (tmul_var (tmat G.g1 G.g2) h2))
    rw [push_zero] at b1 b2
    refine HasDerivAt.congr_deriv (((b1.const_mul t).const_mul (-dJW)).add ((b2.const_mul (t ^ 3 / 12)).const_mul (-dJW))).neg ?_
    rw [hooke_symm _ _ _ (tmul (tmat G.g1 G.g2) (dE _ _ f k d)), hooke_symm _ _ _ (tmul (tmat G.g1 G.g2) (dK _ f k d))]
    simp only [dot3, Fin.sum_univ_three]
    ring

/-- A curved element with distinct tangents meets the hypotheses of the theorems above, for every admissible material. -/
example : (0 : Nat) < wf.nen ∧ 0 < len (cross (deformed wf wx).g1 (deformed wf wx).g2) ∧
    Admissible (K := ℝ) { Emod := 12, nu := 3 / 10, planeStress := true } ⟨0, 0, 0⟩ ∧
    (deformed wf wx).H 0 ≠ 0 :=
  ⟨by simp [wf], len_pos (by simp [deformed, wf, wx, cross, Finset.sum_range_succ]), by constructor <;> norm_num [nuAt], fun h => by
    have := congrFun h 2
    simp [deformed, wf, wx, Finset.sum_range_succ] at this⟩

/-! ### Rigid motions -/

/-- Specification: the vector with the components of `v` in the system `r`. -/
def rot (r : Fin 3 → V3 ℝ) (v : V3 ℝ) : V3 ℝ := fun i => r 0 i * v 0 + r 1 i * v 1 + r 2 i * v 2

/-- Specification: `r` is orthonormal and right-handed, so that `rot r` is a rotation. -/
def Rotation (r : Fin 3 → V3 ℝ) : Prop :=
  dot (r 0) (r 0) = 1 ∧ dot (r 1) (r 1) = 1 ∧ dot (r 2) (r 2) = 1 ∧ dot (r 0) (r 1) = 0 ∧ dot (r 0) (r 2) = 0 ∧ dot (r 1) (r 2) = 0 ∧
  cross (r 0) (r 1) = r 2 ∧ cross (r 1) (r 2) = r 0 ∧ cross (r 2) (r 0) = r 1

theorem rot_dot {r : Fin 3 → V3 ℝ} (h : Rotation r) (a b : V3 ℝ) : dot (rot r a) (rot r b) = dot a b := by
  obtain ⟨h1, h2, h3, h4, h5, h6, -⟩ := h
  simp only [dot, rot] at *
  linear_combination a 0 * b 0 * h1 + a 1 * b 1 * h2 + a 2 * b 2 * h3 + (a 0 * b 1 + a 1 * b 0) * h4 + (a 0 * b 2 + a 2 * b 0) * h5 +
    (a 1 * b 2 + a 2 * b 1) * h6

theorem rot_cross {r : Fin 3 → V3 ℝ} (h : Rotation r) (a b : V3 ℝ) : cross (rot r a) (rot r b) = rot r (cross a b) := by
  obtain ⟨-, -, -, -, -, -, h7, h8, h9⟩ := h
  funext i
  have e7 := congrFun h7 i
  have e8 := congrFun h8 i
  have e9 := congrFun h9 i
  fin_cases i <;> simp [cross, rot] at e7 e8 e9 ⊢ <;>
    linear_combination (a 0 * b 1 - a 1 * b 0) * e7 + (a 1 * b 2 - a 2 * b 1) * e8 + (a 2 * b 0 - a 0 * b 2) * e9

theorem rot_len {r : Fin 3 → V3 ℝ} (h : Rotation r) (a : V3 ℝ) : len (rot r a) = len a := by
  have := rot_dot h a a
  simp only [dot] at this
  unfold len
  rw [this]

theorem rot_unit {r : Fin 3 → V3 ℝ} (h : Rotation r) (a : V3 ℝ) : unit (rot r a) = rot r (unit a) := by
  funext i; simp only [unit, rot_len h, rot]; ring

/-- The surface moved as a rigid body. -/
theorem deformed_rot (f : Basis) (x : Nat → V3 ℝ) (r : Fin 3 → V3 ℝ) (c : V3 ℝ)
    (h1 : ∀ c, ∑ k ∈ Finset.range f.nen, f.dN k c = 0) (h2 : ∀ j, ∑ k ∈ Finset.range f.nen, f.d2N k j = 0) :
    deformed f (fun k i => c i + rot r (x k) i) =
      ⟨rot r (deformed f x).g1, rot r (deformed f x).g2, fun j => rot r ((deformed f x).H j)⟩ := by
  have gen : ∀ (w : Nat → ℝ), (∑ k ∈ Finset.range f.nen, w k = 0) → ∀ i,
      (∑ k ∈ Finset.range f.nen, (c i + rot r (x k) i) * w k) = rot r (fun i => ∑ k ∈ Finset.range f.nen, x k i * w k) i := by
    intro w hw i
    have : (∑ k ∈ Finset.range f.nen, (c i + rot r (x k) i) * w k) =
        c i * (∑ k ∈ Finset.range f.nen, w k) + ∑ k ∈ Finset.range f.nen, rot r (x k) i * w k := by
      rw [Finset.mul_sum, ← Finset.sum_add_distrib]
      exact Finset.sum_congr rfl fun k _ => by ring
    rw [this, hw, mul_zero, zero_add]
    simp only [rot, Finset.mul_sum, ← Finset.sum_add_distrib]
    exact Finset.sum_congr rfl fun k _ => by ring
  unfold deformed
  congr 1
  · funext i; exact gen _ (h1 0) i
  · funext i; exact gen _ (h1 1) i
  · funext j i; exact gen _ (h2 j) i

/-- C49: a rigid-body motion with arbitrarily large rotation causes no strains and no internal forces. The initial surface is given by the
nodal positions `x`. -/
theorem C49_rigid (m : Mat ℝ) (fe : FE ℝ) (X : Pt ℝ) (t dJW : ℝ) (f : Basis) (x : Nat → V3 ℝ) (r : Fin 3 → V3 ℝ) (c : V3 ℝ)
    (ha : m.axiSymmetry = false) (hn : Admissible m X) (hr : Rotation r)
    (h1 : ∀ c, ∑ k ∈ Finset.range f.nen, f.dN k c = 0) (h2 : ∀ j, ∑ k ∈ Finset.range f.nen, f.d2N k j = 0) :
    ∃ K S, evalKandS m fe X t dJW f (deformed f x) (deformed f (fun k i => c i + rot r (x k) i)) = .ok (K, S) ∧
      (∀ k d, S k d = 0) ∧
      ∀ j, (strains (deformed f x) (deformed f (fun k i => c i + rot r (x k) i))).1 j = 0 ∧
        (strains (deformed f x) (deformed f (fun k i => c i + rot r (x k) i))).2 j = 0 := by
  have e1 : green (deformed f x) (deformed f (fun k i => c i + rot r (x k) i)) = 0 := by
    rw [deformed_rot f x r c h1 h2]
    funext j; fin_cases j <;> simp [green, rot_dot hr]
  have e2 : bend (deformed f x) (deformed f (fun k i => c i + rot r (x k) i)) = 0 := by
    rw [deformed_rot f x r c h1 h2]
    funext j
    have : (fun i => cross (rot r (deformed f x).g1) (rot r (deformed f x).g2) i / len (cross (rot r (deformed f x).g1)
        (rot r (deformed f x).g2))) = rot r (unit (cross (deformed f x).g1 (deformed f x).g2)) := by
      rw [← rot_unit hr, rot_cross hr]; rfl
    simp only [bend, this, rot_dot hr]
    exact sub_self _
  refine ⟨_, _, evalKandS_eq m fe X t dJW f _ _ ha hn, ?_, ?_⟩
  · intro k d
    have z : tmul (tmat (deformed f x).g1 (deformed f x).g2) 0 = 0 := by funext r; simp [tmul]
    have z2 : hooke (m.young fe X) (nuAt m X) m.planeStress 0 = 0 := by
      funext r; cases m.planeStress <;> fin_cases r <;> simp [hooke]
    simp only [e1, e2, z, z2, dot3]
    simp
  · intro j
    rw [strains_eq]
    exact ⟨congrFun e1 j, congrFun e2 j⟩

/-- Quarter turn about the first axis. -/
def quarter : Fin 3 → V3 ℝ := ![![1, 0, 0], ![0, 0, 1], ![0, -1, 0]]

theorem quarter_rot : Rotation quarter := by
  refine ⟨?_, ?_, ?_, ?_, ?_, ?_, ?_, ?_, ?_⟩ <;> first | (simp [quarter, dot]; done) | (funext i; fin_cases i <;> simp [quarter, cross])

example : Rotation quarter ∧ (∀ c, ∑ k ∈ Finset.range wf.nen, wf.dN k c = 0) ∧ (∀ j, ∑ k ∈ Finset.range wf.nen, wf.d2N k j = 0) ∧
    0 < len (cross (deformed wf wx).g1 (deformed wf wx).g2) :=
  ⟨quarter_rot, by intro c; fin_cases c <;> simp [wf, Finset.sum_range_succ], by intro c; fin_cases c <;> simp [wf, Finset.sum_range_succ],
    len_pos (by simp [deformed, wf, wx, cross, Finset.sum_range_succ])⟩

/-! ### Recovered section forces -/

theorem resultantsNL_eq (m : Mat ℝ) (fe : FE ℝ) (X : Pt ℝ) (t : ℝ) (G g : Geo) (ha : m.axiSymmetry = false) (hn : Admissible m X) :
    resultantsNL m fe X t G g = .ok
      (fun r => t * hooke (m.young fe X) (nuAt m X) m.planeStress (tmul (tmat G.g1 G.g2) (green G g)) r,
       fun r => t ^ 3 / 12 * hooke (m.young fe X) (nuAt m X) m.planeStress (tmul (tmat G.g1 G.g2)
         (fun j => dot (unit (cross g.g1 g.g2)) (G.H j) - dot (unit (cross g.g1 g.g2)) (g.H j))) r) := by
  obtain ⟨D, hD, hv⟩ := formD_eq m fe X t ha hn
  have e : (fun j => 1 / 2 * (gab g.g1 g.g2 j - gab G.g1 G.g2 j)) = green G g := congrArg Prod.fst (strains_eq G g)
  unfold resultantsNL
  rw [hD]
  simp only [Res.bind, (hv _).1, (hv _).2, e]
  rfl

/-- C49 for recovered section forces: they are those of the strains and curvatures, if the normal of the deformed shell is the initial
one. What is missing: see `C49_recovery_violated`. -/
theorem C49_recovery_partial (m : Mat ℝ) (fe : FE ℝ) (X : Pt ℝ) (t : ℝ) (G g : Geo) (ha : m.axiSymmetry = false)
    (hn : Admissible m X) (hnorm : unit (cross g.g1 g.g2) = unit (cross G.g1 G.g2)) :
    ∃ n mo, resultantsNL m fe X t G g = .ok (n, mo) ∧
      (∀ i, n i = t * hooke (m.young fe X) (nuAt m X) m.planeStress (tmul (tmat G.g1 G.g2) (green G g)) i) ∧
      ∀ i, mo i = t ^ 3 / 12 * hooke (m.young fe X) (nuAt m X) m.planeStress (tmul (tmat G.g1 G.g2) (bend G g)) i := by
  refine ⟨_, _, resultantsNL_eq m fe X t G g ha hn, fun i => rfl, fun i => ?_⟩
  rw [hnorm]
  congr 4
  funext j
  simp only [bend]
  have : (fun i => cross g.g1 g.g2 i / len (cross g.g1 g.g2)) = unit (cross G.g1 G.g2) := hnorm
  rw [this]; rfl

theorem wG_eq : deformed wf wx = wG := by
  unfold deformed wG
  congr 1
  · funext i; fin_cases i <;> simp [wf, wx, Finset.sum_range_succ]
  · funext i; fin_cases i <;> simp [wf, wx, Finset.sum_range_succ]
  · funext j i; fin_cases j <;> fin_cases i <;> simp [wf, wx, Finset.sum_range_succ]

theorem unit_z : unit (cross ![1, 0, 0] ![0, 1, 0]) = ![0, 0, 1] := by
  have : cross (![1, 0, 0] : V3 ℝ) ![0, 1, 0] = ![0, 0, 1] := by funext i; fin_cases i <;> simp [cross]
  rw [this]
  have hl : len (![0, 0, 1] : V3 ℝ) = 1 := Cable.len_eq (by norm_num) (by simp)
  funext i; fin_cases i <;> simp [unit, hl]

/-- C49 fails for recovered section forces: after a rigid rotation of a curved shell by a quarter turn about the first axis,
moments are reported, although the strains, curvatures and internal forces of the element vanish (`C49_rigid`). -/
theorem C49_recovery_violated :
    ∃ (m : Mat ℝ) (f : Basis) (x : Nat → V3 ℝ) (r : Fin 3 → V3 ℝ) (n mo : Fin 3 → ℝ), Rotation r ∧ Admissible m ⟨0, 0, 0⟩ ∧
      resultantsNL m ⟨0, 0, 0⟩ ⟨0, 0, 0⟩ 1 (deformed f x) (deformed f (fun k i => rot r (x k) i)) = .ok (n, mo) ∧
      (∀ j, (strains (deformed f x) (deformed f (fun k i => rot r (x k) i))).1 j = 0 ∧
        (strains (deformed f x) (deformed f (fun k i => rot r (x k) i))).2 j = 0) ∧
      n = 0 ∧ mo 0 = -2 := by
  have hn : Admissible (K := ℝ) { Emod := 12, nu := 0, planeStress := true } ⟨0, 0, 0⟩ := by constructor <;> norm_num [nuAt]
  have a1 : ∀ c, ∑ k ∈ Finset.range wf.nen, wf.dN k c = 0 := by intro c; fin_cases c <;> simp [wf, Finset.sum_range_succ]
  have a2 : ∀ j, ∑ k ∈ Finset.range wf.nen, wf.d2N k j = 0 := by intro c; fin_cases c <;> simp [wf, Finset.sum_range_succ]
  obtain ⟨K, S, -, -, hs⟩ := C49_rigid { Emod := 12, nu := 0, planeStress := true } ⟨0, 0, 0⟩ ⟨0, 0, 0⟩ 1 1 wf wx quarter 0 rfl hn
    quarter_rot a1 a2
  simp only [Pi.zero_apply, zero_add] at hs
  have hd := deformed_rot wf wx quarter 0 a1 a2
  simp only [Pi.zero_apply, zero_add] at hd
  refine ⟨{ Emod := 12, nu := 0, planeStress := true }, wf, wx, quarter, _, _, quarter_rot, hn, resultantsNL_eq _ _ _ _ _ _ rfl hn, hs, ?_, ?_⟩
  · have : green (deformed wf wx) (deformed wf (fun k i => rot quarter (wx k) i)) = 0 := by
      funext j
      have := (hs j).1
      rw [strains_eq] at this; exact this
    rw [this]
    funext i
    fin_cases i <;> simp [hooke, tmul]
  · have e1 : unit (cross (rot quarter (deformed wf wx).g1) (rot quarter (deformed wf wx).g2)) = ![0, -1, 0] := by
      rw [rot_cross quarter_rot, rot_unit quarter_rot, wG_eq]
      have : unit (cross wG.g1 wG.g2) = ![0, 0, 1] := unit_z
      rw [this]
      funext i; fin_cases i <;> simp [rot, quarter]
    rw [hd]
    simp only [e1]
    rw [wG_eq]
    have hT : tmat wG.g1 wG.g2 = ![![1, 0, 0], ![0, 1, 0], ![0, 0, 2]] := tmat_std
    rw [hT]
    simp [hooke, tmul, Fin.sum_univ_three, wG, dot, rot, quarter, Mat.young, nuAt]

/-- C50 for the nonlinear shell: the surface stresses are those at the opposite surfaces. With unchanged normal, the stresses
reported for the bottom are by Hooke's law those of the strain plus half the thickness times the curvature change, and the stresses
reported for the top are those of the strain minus half the thickness times it. -/
theorem C50_nonlinear_partial (m : Mat ℝ) (fe : FE ℝ) (X : Pt ℝ) (t : ℝ) (ht : 0 < t) (G g : Geo) (ha : m.axiSymmetry = false)
    (hn : Admissible m X) (hnorm : unit (cross g.g1 g.g2) = unit (cross G.g1 G.g2)) :
    ∃ n mo, resultantsNL m fe X t G g = .ok (n, mo) ∧ ∀ i : Fin 3,
      let T := tmat G.g1 G.g2
      (output t n mo).getD (6 + i) 0 = hooke (m.young fe X) (nuAt m X) m.planeStress
        (fun r => tmul T (green G g) r + t / 2 * tmul T (bend G g) r) i ∧
      (output t n mo).getD (12 + i) 0 = hooke (m.young fe X) (nuAt m X) m.planeStress
        (fun r => tmul T (green G g) r - t / 2 * tmul T (bend G g) r) i := by
  obtain ⟨n, mo, h, h1, h2⟩ := C49_recovery_partial m fe X t G g ha hn hnorm
  refine ⟨n, mo, h, fun i => ?_⟩
  intro T
  have lin : ∀ c : ℝ, hooke (m.young fe X) (nuAt m X) m.planeStress (fun r => tmul T (green G g) r + c * tmul T (bend G g) r) i =
      hooke (m.young fe X) (nuAt m X) m.planeStress (tmul T (green G g)) i +
        c * hooke (m.young fe X) (nuAt m X) m.planeStress (tmul T (bend G g)) i := by
    intro c
    cases m.planeStress <;> fin_cases i <;> simp [hooke] <;> ring
  have hs : (fun r => tmul T (green G g) r - t / 2 * tmul T (bend G g) r) =
      fun r => tmul T (green G g) r + -(t / 2) * tmul T (bend G g) r := by funext r; ring
  rw [hs, lin, lin]
  have e1 : (output t n mo).getD (6 + i) 0 = (n i - -1 * mo i * 6 / t) / t := by fin_cases i <;> simp [output, surface]
  have e2 : (output t n mo).getD (12 + i) 0 = (n i - 1 * mo i * 6 / t) / t := by fin_cases i <;> simp [output, surface]
  rw [e1, e2, h1, h2]
  have := ht.ne'
  constructor <;> field_simp <;> ring

/-- The plane shell and the same shell bent in the first direction. -/
def flat : Geo := ⟨![1, 0, 0], ![0, 1, 0], fun _ => ![0, 0, 0]⟩

/-- C50 fails for the nonlinear shell: a plane shell is bent such that the side of the positive normal gets shorter. By Hooke's law the
stress at this side, the top (components 13-18 of the output, named "Top"), is -12; reported for it is +12, and -12 for the bottom. -/
theorem C50_nonlinear_violated :
    ∃ (m : Mat ℝ) (n mo : Fin 3 → ℝ), Admissible m ⟨0, 0, 0⟩ ∧ resultantsNL m ⟨0, 0, 0⟩ ⟨0, 0, 0⟩ 1 flat wG = .ok (n, mo) ∧
      unit (cross wG.g1 wG.g2) = unit (cross flat.g1 flat.g2) ∧
      hooke (m.young ⟨0, 0, 0⟩ ⟨0, 0, 0⟩) (nuAt m ⟨0, 0, 0⟩) m.planeStress
        (fun r => tmul (tmat flat.g1 flat.g2) (green flat wG) r + 1 / 2 * tmul (tmat flat.g1 flat.g2) (bend flat wG) r) 0 = -12 ∧
      (output 1 n mo).getD 12 0 = 12 ∧ (output 1 n mo).getD 6 0 = -12 := by
  have hn : Admissible (K := ℝ) { Emod := 12, nu := 0, planeStress := true } ⟨0, 0, 0⟩ := by constructor <;> norm_num [nuAt]
  obtain ⟨n, mo, h, hs⟩ := C50_nonlinear_partial { Emod := 12, nu := 0, planeStress := true } ⟨0, 0, 0⟩ ⟨0, 0, 0⟩ 1 one_pos flat wG rfl hn
    rfl
  have hT : tmat flat.g1 flat.g2 = ![![1, 0, 0], ![0, 1, 0], ![0, 0, 2]] := tmat_std
  have hg : green flat wG = 0 := by funext j; fin_cases j <;> simp [green, flat, wG, dot]
  have hb : bend flat wG = ![-2, 0, 0] := by
    have u1 : (fun i => cross flat.g1 flat.g2 i / len (cross flat.g1 flat.g2)) = ![0, 0, 1] := unit_z
    have u2 : (fun i => cross wG.g1 wG.g2 i / len (cross wG.g1 wG.g2)) = ![0, 0, 1] := unit_z
    funext j
    simp only [bend, u1, u2]
    fin_cases j <;> simp [flat, wG, dot]
  have hs0 := hs 0
  simp only [hT, hg, hb] at hs0
  refine ⟨_, n, mo, hn, h, rfl, ?_, ?_, ?_⟩
  · simp only [hT, hg, hb]
    simp [hooke, tmul, Fin.sum_univ_three, Mat.young, nuAt]
  · have := hs0.2
    simp [hooke, tmul, Fin.sum_univ_three, Mat.young, nuAt] at this ⊢
    exact this
  · have := hs0.1
    simp [hooke, tmul, Fin.sum_univ_three, Mat.young, nuAt] at this ⊢
    exact this

end Verif.Shell
