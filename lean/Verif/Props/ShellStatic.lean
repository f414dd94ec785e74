/- Property C138: the static solution and the free vibrations of a whole linear shell model. -/
import Verif.Model.ShellStatic
import Verif.Props.ThinForces
import Verif.Props.Vibration

set_option linter.unusedSectionVars false
set_option linter.unnecessarySeqFocus false
set_option linter.unusedSimpArgs false

namespace Verif.ShellStatic

open Verif.Beam (V3)
open Verif.Bar (len unit cross)
open Verif.Shell (Geo Basis strainOf dot3 hooke)
open Verif.Struct (nodal Solves reaction asmK asmV dotN Mode Free)

/-! ### Specification -/

/-- The displacements of the nodes of an element, numbered from zero. -/
def disp (e : Elm) (u : Nat → Nat → ℝ) : Nat → V3 ℝ := fun a d => u (e.node (a + 1)) (d + 1)

/-- The membrane strains and the changes of curvature in the local axes of the surface, at an integration point of an element (see C48 and C80 for the two matrices). -/
noncomputable def membrane (e : Elm) (p : QPt) (u : Nat → Nat → ℝ) : Fin 3 → ℝ := fun r => ∑ a ∈ Finset.range e.nen, ∑ d : Fin 3, (Shell.formBmatrix p.G p.f).1 r a d * u (e.node (a + 1)) (d + 1)
noncomputable def bending (e : Elm) (p : QPt) (u : Nat → Nat → ℝ) : Fin 3 → ℝ := fun r => ∑ a ∈ Finset.range e.nen, ∑ d : Fin 3, (Shell.formBmatrix p.G p.f).2 r a d * u (e.node (a + 1)) (d + 1)

/-- Hooke's law in a point. -/
noncomputable def law (p : QPt) (s : Fin 3 → ℝ) : Fin 3 → ℝ := hooke (p.mat.young p.fe p.X) (LinIso.nuAt p.mat p.X) p.mat.planeStress s

/-- The work of the forces and moments of `u` in the strains and curvatures of `v`, in the whole shell. -/
noncomputable def work (es : List Elm) (v u : Nat → Nat → ℝ) : ℝ :=
  (es.map fun e => (e.pts.map fun p => p.dJW * (p.T * ∑ r, membrane e p v r * law p (membrane e p u) r + p.T ^ 3 / 12 * ∑ r, bending e p v r * law p (bending e p u) r)).sum).sum

/-- The displacement at an integration point of an element. -/
noncomputable def shift (e : Elm) (p : QPt) (u : Nat → Nat → ℝ) (i : Nat) : ℝ := ∑ a ∈ Finset.range e.nen, p.N (a + 1) * u (e.node (a + 1)) i

/-- The integral of mass per area times the product of two displacements. -/
noncomputable def kin (es : List Elm) (v u : Nat → Nat → ℝ) : ℝ :=
  (es.map fun e => (e.pts.map fun p => p.rho * p.T * p.dJW * ∑ i ∈ Finset.range 3, shift e p v (i + 1) * shift e p u (i + 1)).sum).sum

/-- The load per area: own weight in the third direction, pressures in the direction of the normal of the surface. -/
noncomputable def load (p : QPt) (i : Fin 3) : ℝ := (if i = 2 then p.rho * p.g * p.T else 0) + p.pres.sum * (cross p.G.g1 p.G.g2 i / len (cross p.G.g1 p.G.g2))

/-- The integral of the load. -/
noncomputable def loads (es : List Elm) (i : Fin 3) : ℝ := (es.map fun e => (e.pts.map fun p => load p i * p.dJW).sum).sum

/-- A shell model of `n` nodes with positions `x`: the elements connect these nodes, the surface is that of the nodes, with a basis that represents constants, material data, thickness and weights are admissible. -/
structure Sound (n : Nat) (x : Nat → V3 ℝ) (es : List Elm) : Prop where
  nodes : ∀ e ∈ es, ∀ s, s < e.nen → 1 ≤ e.node (s + 1) ∧ e.node (s + 1) ≤ n
  size : ∀ e ∈ es, ∀ p ∈ e.pts, p.f.nen = e.nen
  unity : ∀ e ∈ es, ∀ p ∈ e.pts, ∑ a ∈ Finset.range e.nen, p.N (a + 1) = 1
  first : ∀ e ∈ es, ∀ p ∈ e.pts, ∀ c, ∑ a ∈ Finset.range e.nen, p.f.dN a c = 0
  second : ∀ e ∈ es, ∀ p ∈ e.pts, ∀ j, ∑ a ∈ Finset.range e.nen, p.f.d2N a j = 0
  tangent1 : ∀ e ∈ es, ∀ p ∈ e.pts, ∀ i, ∑ a ∈ Finset.range e.nen, p.f.dN a 0 * x (e.node (a + 1)) i = p.G.g1 i
  tangent2 : ∀ e ∈ es, ∀ p ∈ e.pts, ∀ i, ∑ a ∈ Finset.range e.nen, p.f.dN a 1 * x (e.node (a + 1)) i = p.G.g2 i
  hessian : ∀ e ∈ es, ∀ p ∈ e.pts, ∀ j i, ∑ a ∈ Finset.range e.nen, p.f.d2N a j * x (e.node (a + 1)) i = p.G.H j i
  regular : ∀ e ∈ es, ∀ p ∈ e.pts, 0 < len (cross p.G.g1 p.G.g2)
  material : ∀ e ∈ es, ∀ p ∈ e.pts, 0 < p.mat.young p.fe p.X ∧ 0 ≤ LinIso.nuAt p.mat p.X ∧ LinIso.nuAt p.mat p.X < 1 / 2 ∧ p.mat.axiSymmetry = false
  thick : ∀ e ∈ es, ∀ p ∈ e.pts, 0 < p.T
  weight : ∀ e ∈ es, ∀ p ∈ e.pts, 0 < p.dJW

/-! ### Proofs -/

theorem nodeOf_eq (a i : Nat) (hi : i < 3) : nodeOf (3 * a + i + 1) = a := by unfold nodeOf; omega
theorem dirOf_eq (a i : Nat) (hi : i < 3) : dirOf (3 * a + i + 1) = ⟨i, hi⟩ := by unfold dirOf; ext; show (3 * a + i + 1 - 1) % 3 = i; omega

/-- The form of an element matrix given by nodes and directions. -/
theorem bil_blocks (nen : Nat) (k : Nat → Fin 3 → Nat → Fin 3 → ℝ) (e : Elm) (he : e.nen = nen) (v u : Nat → Nat → ℝ) :
    (⟨3 * nen, 3 * nen, fun r c => k (nodeOf r) (dirOf r) (nodeOf c) (dirOf c)⟩ : DMat ℝ).bil (dofVec 3 (Struct.loc e.conn v)) (dofVec 3 (Struct.loc e.conn u)) =
      ∑ a ∈ Finset.range nen, ∑ d : Fin 3, ∑ b ∈ Finset.range nen, ∑ c : Fin 3, v (e.node (a + 1)) (d + 1) * k a d b c * u (e.node (b + 1)) (c + 1) := by
  rw [Cont.bil_dof 3 nen _ rfl rfl]
  refine Finset.sum_congr rfl fun a _ => ?_
  rw [Finset.sum_range]
  refine Finset.sum_congr rfl fun d _ => Finset.sum_congr rfl fun b _ => ?_
  rw [Finset.sum_range]
  refine Finset.sum_congr rfl fun c _ => ?_
  simp only [nodeOf_eq _ _ d.isLt, dirOf_eq _ _ d.isLt, nodeOf_eq _ _ c.isLt, dirOf_eq _ _ c.isLt]
  rfl

theorem bil_sum (A : DMat ℝ) (m : Nat) (k : Nat → Nat → ℝ) (h1 : A.nr = m) (h2 : A.nc = m) (f g : Nat → ℝ) :
    (⟨A.nr, A.nc, fun r c => A.e r c + k r c⟩ : DMat ℝ).bil f g = A.bil f g + (⟨m, m, k⟩ : DMat ℝ).bil f g := by
  simp only [DMat.bil, h1, h2, mul_add, add_mul, Finset.sum_add_distrib]

theorem formS (p : QPt) (a : Nat) (i : Fin 3) : (Plate.formBodyForce 3 p.N (Plate.getPressure p.rho p.g p.T p.pres (shellNormal p.G) false false) p.dJW false).1 a (i + 1) = p.N a * load p i * p.dJW ∧
    (Plate.formBodyForce 3 p.N (Plate.getPressure p.rho p.g p.T p.pres (shellNormal p.G) false false) p.dJW false).2 (i + 1) = load p i * p.dJW := by
  obtain ⟨e3, e1⟩ := Plate.C78_pressure p.rho p.g p.T p.pres (shellNormal p.G) false false
  have hl : ∀ i : Fin 3, Plate.getPressure p.rho p.g p.T p.pres (shellNormal p.G) false false (i + 1) = load p i := by
    intro i
    have hd : dirOf (i.val + 1) = i := by fin_cases i <;> rfl
    by_cases h : i = 2
    · subst h
      have : ((2 : Fin 3) : Nat) + 1 = 3 := rfl
      rw [this, e3]
      simp only [load, shellNormal, unit, if_true, Bool.false_eq_true, if_false]
      have : dirOf 3 = 2 := rfl
      rw [this]
    · rw [e1 (i + 1) (fun hh => h (by ext; show i.val = 2; omega))]
      simp only [load, shellNormal, unit, if_neg h, Bool.false_eq_true, if_false, hd, zero_add]
  have l1 := hl 0
  have l2 := hl 1
  have l3 := hl 2
  simp only [Fin.val_zero, Fin.val_one, Fin.val_two, zero_add, Nat.reduceAdd] at l1 l2 l3
  simp only [Plate.formBodyForce, l1, l2, l3]
  by_cases h : load p 0 = 0 ∧ load p 1 = 0 ∧ load p 2 = 0
  · have : load p i = 0 := by fin_cases i; exacts [h.1, h.2.1, h.2.2]
    simp only [if_pos h, this, mul_zero, zero_mul, and_self]
  · simp only [if_neg h, Nat.reduceEqDiff, if_false, Bool.false_eq_true, hl]
    exact ⟨trivial, by rw [if_pos (by omega)]⟩

theorem formM (p : QPt) (a b : Nat) (i j : Fin 3) : Plate.formMassMatrix 3 p.rho p.T p.N p.dJW a (i + 1) b (j + 1) = if i = j then p.rho * p.T * p.dJW * (p.N a * p.N b) else 0 := by
  have hij : (i.val + 1 = j.val + 1) ↔ i = j := by rw [Nat.add_right_cancel_iff, Fin.val_inj]
  simp only [Plate.formMassMatrix, Nat.reduceEqDiff, if_false, hij]
  by_cases h : p.rho * p.T * p.dJW = 0
  · simp [h]
  · simp only [if_neg h]
    by_cases hh : i = j
    · simp only [if_pos hh]; ring
    · simp only [if_neg hh]

theorem evalK_form (p : QPt) (e : Elm) (hs : p.f.nen = e.nen) (hm : 0 < p.mat.young p.fe p.X ∧ 0 ≤ LinIso.nuAt p.mat p.X ∧ LinIso.nuAt p.mat p.X < 1 / 2 ∧ p.mat.axiSymmetry = false) :
    ∃ k, Shell.evalK p.mat p.fe p.X p.T p.dJW p.G p.f = .ok k ∧ ∀ v u : Nat → Nat → ℝ,
      ∑ a ∈ Finset.range e.nen, ∑ d : Fin 3, ∑ b ∈ Finset.range e.nen, ∑ c : Fin 3, v (e.node (a + 1)) (d + 1) * k a d b c * u (e.node (b + 1)) (c + 1) =
        p.dJW * (p.T * ∑ r, membrane e p v r * law p (membrane e p u) r + p.T ^ 3 / 12 * ∑ r, bending e p v r * law p (bending e p u) r) := by
  obtain ⟨k, k1, -, k2⟩ := Shell.C48_energy p.mat p.fe p.X p.T p.dJW p.G p.f hm.2.2.2 ⟨hm.2.1, hm.2.2.1⟩
  refine ⟨k, k1, fun v u => ?_⟩
  have := k2 (disp e v) (disp e u)
  rw [hs] at this
  exact this

theorem evalAll_ok (n : Nat) (x : Nat → V3 ℝ) (es : List Elm) (h : Sound n x es) (e : Elm) (he : e ∈ es) (pts : List QPt) (hp : ∀ p ∈ pts, p ∈ e.pts) :
    ∀ A : Mats, A.EM.nr = 3 * e.nen → A.EM.nc = 3 * e.nen → A.EK.nr = 3 * e.nen → A.EK.nc = 3 * e.nen →
      ∃ B, evalAll pts A = .ok B ∧ B.EM.nr = 3 * e.nen ∧ B.EM.nc = 3 * e.nen ∧ B.EK.nr = 3 * e.nen ∧ B.EK.nc = 3 * e.nen ∧
        (∀ v u, B.EK.bil (dofVec 3 (Struct.loc e.conn v)) (dofVec 3 (Struct.loc e.conn u)) = A.EK.bil (dofVec 3 (Struct.loc e.conn v)) (dofVec 3 (Struct.loc e.conn u)) +
          (pts.map fun p => p.dJW * (p.T * ∑ r, membrane e p v r * law p (membrane e p u) r + p.T ^ 3 / 12 * ∑ r, bending e p v r * law p (bending e p u) r)).sum) ∧
        (∀ v u, B.EM.bil (dofVec 3 (Struct.loc e.conn v)) (dofVec 3 (Struct.loc e.conn u)) = A.EM.bil (dofVec 3 (Struct.loc e.conn v)) (dofVec 3 (Struct.loc e.conn u)) +
          (pts.map fun p => p.rho * p.T * p.dJW * ∑ i ∈ Finset.range 3, shift e p v (i + 1) * shift e p u (i + 1)).sum) ∧
        (∀ v : Nat → Nat → ℝ, ∑ s ∈ Finset.range e.nen, ∑ i ∈ Finset.range 3, v (e.node (s + 1)) (i + 1) * B.ES.e (3 * s + (i + 1)) =
          ∑ s ∈ Finset.range e.nen, ∑ i ∈ Finset.range 3, v (e.node (s + 1)) (i + 1) * A.ES.e (3 * s + (i + 1)) + (pts.map fun p => ∑ i : Fin 3, shift e p v (i + 1) * (load p i * p.dJW)).sum) ∧
        ∀ i : Fin 3, B.sum (i + 1) = A.sum (i + 1) + (pts.map fun p => load p i * p.dJW).sum := by
  induction pts with
  | nil => exact fun A h1 h2 h3 h4 => ⟨A, rfl, h1, h2, h3, h4, fun v u => by simp, fun v u => by simp, fun v => by simp, by simp⟩
  | cons p l ih =>
    intro A h1 h2 h3 h4
    have hpe := hp p (by simp)
    obtain ⟨k, k1, k2⟩ := evalK_form p e (h.size e he p hpe) (h.material e he p hpe)
    obtain ⟨A1, hA1⟩ : ∃ A1 : Mats, A1 = ⟨⟨A.EM.nr, A.EM.nc, fun r c => A.EM.e r c + (if dirOf r = dirOf c then p.rho * p.T * p.dJW * (p.N (nodeOf r + 1) * p.N (nodeOf c + 1)) else 0)⟩,
      ⟨A.EK.nr, A.EK.nc, fun r c => A.EK.e r c + k (nodeOf r) (dirOf r) (nodeOf c) (dirOf c)⟩, ⟨A.ES.n, fun r => A.ES.e r + p.N (nodeOf r + 1) * load p (dirOf r) * p.dJW⟩,
      fun i => A.sum i + (Plate.formBodyForce 3 p.N (Plate.getPressure p.rho p.g p.T p.pres (shellNormal p.G) false false) p.dJW false).2 i⟩ := ⟨_, rfl⟩
    have hev : evalInt A p = .ok A1 := by
      simp only [evalInt, k1, hA1, formM, (formS p _ _).1]
    obtain ⟨B, b1, b2, b3, b4, b5, b6, b7, b8, b9⟩ := ih (fun q hq => hp q (by simp [hq])) A1 (by rw [hA1]; exact h1) (by rw [hA1]; exact h2) (by rw [hA1]; exact h3) (by rw [hA1]; exact h4)
    refine ⟨B, by simp only [evalAll, hev, Res.bind]; exact b1, b2, b3, b4, b5, fun v u => ?_, fun v u => ?_, fun v => ?_, fun i => ?_⟩
    · rw [b6, List.map_cons, List.sum_cons, ← add_assoc]
      refine congrArg (· + _) ?_
      rw [hA1]
      refine (bil_sum A.EK (3 * e.nen) (fun r c => k (nodeOf r) (dirOf r) (nodeOf c) (dirOf c)) h3 h4 _ _).trans ?_
      rw [bil_blocks e.nen k e rfl, k2]
    · rw [b7, List.map_cons, List.sum_cons, ← add_assoc]
      refine congrArg (· + _) ?_
      rw [hA1]
      refine (bil_sum A.EM (3 * e.nen) (fun r c => if dirOf r = dirOf c then p.rho * p.T * p.dJW * (p.N (nodeOf r + 1) * p.N (nodeOf c + 1)) else 0) h1 h2 _ _).trans ?_
      rw [bil_blocks e.nen (fun a d b c => if d = c then p.rho * p.T * p.dJW * (p.N (a + 1) * p.N (b + 1)) else 0) e rfl]
      refine congrArg (_ + ·) ?_
      simp only [mul_ite, ite_mul, mul_zero, zero_mul, Finset.sum_ite_eq, Finset.mem_univ, if_true, shift]
      rw [Finset.sum_comm, Finset.sum_range (n := 3), Finset.mul_sum]
      refine Finset.sum_congr rfl fun d _ => ?_
      rw [Finset.sum_mul_sum, Finset.mul_sum]
      refine Finset.sum_congr rfl fun a _ => ?_
      rw [Finset.mul_sum]
      exact Finset.sum_congr rfl fun b _ => by ring
    · rw [b8, List.map_cons, List.sum_cons, ← add_assoc]
      refine congrArg (· + _) ?_
      simp only [hA1, mul_add, Finset.sum_add_distrib]
      refine congrArg (_ + ·) ?_
      simp only [shift, Finset.sum_mul]
      rw [Finset.sum_comm (s := Finset.univ)]
      refine Finset.sum_congr rfl fun a _ => ?_
      rw [Finset.sum_range]
      refine Finset.sum_congr rfl fun d _ => ?_
      have hn := nodeOf_eq a d d.isLt
      have hd := dirOf_eq a d d.isLt
      rw [add_assoc] at hn hd
      rw [hn, hd]; ring
    · rw [b9, List.map_cons, List.sum_cons, hA1]
      show A.sum (i + 1) + _ + _ = _
      rw [(formS p 0 i).2, add_assoc]

theorem matrices_ok (n : Nat) (x : Nat → V3 ℝ) (es : List Elm) (h : Sound n x es) (l : List Elm) (hl : ∀ e ∈ l, e ∈ es) :
    ∃ r, matrices l = .ok r ∧ (∀ e ∈ r, e.1 ∈ es ∧ e.2.EM.nr = 3 * e.1.nen ∧ e.2.EM.nc = 3 * e.1.nen ∧ e.2.EK.nr = 3 * e.1.nen ∧ e.2.EK.nc = 3 * e.1.nen) ∧
      (∀ v u, (r.map fun e => e.2.EK.bil (dofVec 3 (Struct.loc e.1.conn v)) (dofVec 3 (Struct.loc e.1.conn u))).sum = work l v u) ∧
      (∀ v u, (r.map fun e => e.2.EM.bil (dofVec 3 (Struct.loc e.1.conn v)) (dofVec 3 (Struct.loc e.1.conn u))).sum = kin l v u) ∧
      (∀ v : Nat → Nat → ℝ, (r.map fun e => ∑ s ∈ Finset.range e.1.nen, ∑ i ∈ Finset.range 3, v (e.1.node (s + 1)) (i + 1) * e.2.ES.e (3 * s + (i + 1))).sum =
        (l.map fun e => (e.pts.map fun p => ∑ i : Fin 3, shift e p v (i + 1) * (load p i * p.dJW)).sum).sum) ∧
      ∀ i : Fin 3, (r.map fun e => e.2.sum (i + 1)).sum = loads l i := by
  induction l with
  | nil => exact ⟨[], rfl, by simp, fun v u => by simp [work], fun v u => by simp [kin], fun v => by simp, by simp [loads]⟩
  | cons e l ih =>
    obtain ⟨r, h1, h2, h3, h4, h5, h6⟩ := ih fun e he => hl e (by simp [he])
    have he := hl e (by simp)
    obtain ⟨B, b1, b2, b3, b4, b5, b6, b7, b8, b9⟩ := evalAll_ok n x es h e he e.pts (fun p hp => hp)
      ⟨DMat.zero (3 * e.nen) (3 * e.nen), DMat.zero (3 * e.nen) (3 * e.nen), DVec.zero (3 * e.nen), fun _ => 0⟩ rfl rfl rfl rfl
    have z : ∀ f g : Nat → ℝ, (DMat.zero (3 * e.nen) (3 * e.nen) : DMat ℝ).bil f g = 0 := fun f g => by simp [DMat.bil, DMat.zero]
    refine ⟨(e, B) :: r, by simp only [matrices, b1, Res.bind, h1], fun q hq => ?_, fun v u => ?_, fun v u => ?_, fun v => ?_, fun i => ?_⟩
    · rcases List.mem_cons.mp hq with rfl | hq
      · exact ⟨he, b2, b3, b4, b5⟩
      · exact h2 q hq
    · rw [List.map_cons, List.sum_cons, h3, b6, z, zero_add]; simp only [work, List.map_cons, List.sum_cons]
    · rw [List.map_cons, List.sum_cons, h4, b7, z, zero_add]; simp only [kin, List.map_cons, List.sum_cons]
    · rw [List.map_cons, List.sum_cons, h5, b8]; simp [DVec.zero]
    · rw [List.map_cons, List.sum_cons, h6, b9]; simp [loads]

/-- C138 (virtual work): for admissible materials the assembly succeeds; the forces of the assembled stiffness do the work of the membrane forces in the membrane strains and of the moments in the curvatures,
those of the mass matrix the work of the inertia, and the assembled loads that of own weight and pressures; the sums of the loads are their integrals. -/
theorem C138_virtual_work (n : Nat) (x : Nat → V3 ℝ) (es : List Elm) (h : Sound n x es) : ∃ r, matrices es = .ok r ∧
    (∀ v u, ∑ a ∈ Finset.range n, ∑ i ∈ Finset.range 3, v (a + 1) (i + 1) * nodal 3 n (stiff r) u (a + 1) (i + 1) = work es v u) ∧
    (∀ v u, ∑ a ∈ Finset.range n, ∑ i ∈ Finset.range 3, v (a + 1) (i + 1) * nodal 3 n (massM r) u (a + 1) (i + 1) = kin es v u) ∧
    (∀ v, ∑ a ∈ Finset.range n, ∑ i ∈ Finset.range 3, v (a + 1) (i + 1) * loadV r (a + 1) (i + 1) =
      (es.map fun e => (e.pts.map fun p => ∑ i : Fin 3, shift e p v (i + 1) * (load p i * p.dJW)).sum).sum) ∧
    ∀ i : Fin 3, (r.map fun e => e.2.sum (i + 1)).sum = loads es i := by
  obtain ⟨r, h1, h2, h3, h4, h5, h6⟩ := matrices_ok n x es h es fun _ he => he
  refine ⟨r, h1, fun v w => ?_, fun v w => ?_, fun v => ?_, h6⟩
  · have := Struct.virtual_work_bil 3 n (r.map fun e => (e.1.conn, e.2.EK)) (fun e he => by
      obtain ⟨q, hq, rfl⟩ := List.mem_map.mp he
      exact h.nodes q.1 (h2 q hq).1) (fun e he => by
      obtain ⟨q, hq, rfl⟩ := List.mem_map.mp he
      exact ⟨(h2 q hq).2.2.2.1, (h2 q hq).2.2.2.2⟩) v w
    rw [← h3, stiff, this, List.map_map]; rfl
  · have := Struct.virtual_work_bil 3 n (r.map fun e => (e.1.conn, e.2.EM)) (fun e he => by
      obtain ⟨q, hq, rfl⟩ := List.mem_map.mp he
      exact h.nodes q.1 (h2 q hq).1) (fun e he => by
      obtain ⟨q, hq, rfl⟩ := List.mem_map.mp he
      exact ⟨(h2 q hq).2.1, (h2 q hq).2.2.1⟩) v w
    rw [← h4, massM, this, List.map_map]; rfl
  · have := Struct.asmV_sum 3 n (r.map fun e => (e.1.conn, e.2.ES)) (fun e he => by
      obtain ⟨q, hq, rfl⟩ := List.mem_map.mp he
      exact h.nodes q.1 (h2 q hq).1) v
    rw [← h5, loadV, this, List.map_map]; rfl

theorem law_symm (p : QPt) (a b : Fin 3 → ℝ) : ∑ r, a r * law p b r = ∑ r, b r * law p a r := Shell.hooke_symm _ _ _ a b

theorem law_lin (p : QPt) (a b : Fin 3 → ℝ) (c : ℝ) (r : Fin 3) : law p (fun r => a r + c * b r) r = law p a r + c * law p b r := by
  unfold law hooke
  by_cases h : p.mat.planeStress = true
  · rw [if_pos h, if_pos h, if_pos h]; fin_cases r <;> simp <;> ring
  · rw [if_neg h, if_neg h, if_neg h]; fin_cases r <;> simp <;> ring

theorem work_symm (es : List Elm) (v u : Nat → Nat → ℝ) : work es v u = work es u v := by
  unfold work; simp only [law_symm _ (membrane _ _ v), law_symm _ (bending _ _ v)]

theorem kin_symm (es : List Elm) (v u : Nat → Nat → ℝ) : kin es v u = kin es u v := by
  unfold kin; simp only [mul_comm (shift _ _ v _)]

theorem membrane_lin (e : Elm) (p : QPt) (u z : Nat → Nat → ℝ) (c : ℝ) : membrane e p (fun a k => u a k + c * z a k) = fun r => membrane e p u r + c * membrane e p z r := by
  funext r
  simp only [membrane, mul_add, Finset.sum_add_distrib, Finset.mul_sum]
  exact congrArg (_ + ·) (Finset.sum_congr rfl fun _ _ => Finset.sum_congr rfl fun _ _ => by ring)

theorem bending_lin (e : Elm) (p : QPt) (u z : Nat → Nat → ℝ) (c : ℝ) : bending e p (fun a k => u a k + c * z a k) = fun r => bending e p u r + c * bending e p z r := by
  funext r
  simp only [bending, mul_add, Finset.sum_add_distrib, Finset.mul_sum]
  exact congrArg (_ + ·) (Finset.sum_congr rfl fun _ _ => Finset.sum_congr rfl fun _ _ => by ring)

theorem work_lin (es : List Elm) (v u z : Nat → Nat → ℝ) (c : ℝ) : work es v (fun a i => u a i + c * z a i) = work es v u + c * work es v z := by
  have hd : ∀ (e : Elm) (p : QPt), p.dJW * (p.T * ∑ r, membrane e p v r * law p (membrane e p (fun a i => u a i + c * z a i)) r + p.T ^ 3 / 12 * ∑ r, bending e p v r * law p (bending e p (fun a i => u a i + c * z a i)) r) =
      p.dJW * (p.T * ∑ r, membrane e p v r * law p (membrane e p u) r + p.T ^ 3 / 12 * ∑ r, bending e p v r * law p (bending e p u) r) +
      c * (p.dJW * (p.T * ∑ r, membrane e p v r * law p (membrane e p z) r + p.T ^ 3 / 12 * ∑ r, bending e p v r * law p (bending e p z) r)) := by
    intro e p
    simp only [membrane_lin, bending_lin, law_lin, Fin.sum_univ_three]; ring
  simp only [work, hd, List.sum_map_add, List.sum_map_mul_left]

theorem point_nonneg (n : Nat) (x : Nat → V3 ℝ) (es : List Elm) (h : Sound n x es) (e : Elm) (he : e ∈ es) (p : QPt) (hp : p ∈ e.pts) (u : Nat → Nat → ℝ) :
    0 ≤ p.dJW * (p.T * ∑ r, membrane e p u r * law p (membrane e p u) r + p.T ^ 3 / 12 * ∑ r, bending e p u r * law p (bending e p u) r) ∧
    (p.dJW * (p.T * ∑ r, membrane e p u r * law p (membrane e p u) r + p.T ^ 3 / 12 * ∑ r, bending e p u r * law p (bending e p u) r) = 0 → membrane e p u = 0 ∧ bending e p u = 0) := by
  obtain ⟨hE, h0, h1, -⟩ := h.material e he p hp
  have hT := h.thick e he p hp
  have hw := h.weight e he p hp
  have nn : ∀ w : Fin 3 → ℝ, 0 ≤ ∑ r, w r * law p w r ∧ (∑ r, w r * law p w r = 0 → w = 0) := by
    intro w
    by_cases hw : w = 0
    · subst hw; simp
    · have := Shell.hooke_pos (p.mat.young p.fe p.X) (LinIso.nuAt p.mat p.X) p.mat.planeStress hE h0 h1 w hw
      have h2 : 0 < ∑ r, w r * law p w r := this
      exact ⟨h2.le, fun hz => absurd hz h2.ne'⟩
  obtain ⟨a1, a2⟩ := nn (membrane e p u)
  obtain ⟨b1, b2⟩ := nn (bending e p u)
  refine ⟨by positivity, fun hz => ?_⟩
  have hz := (mul_eq_zero.mp hz).resolve_left hw.ne'
  have c1 := mul_nonneg hT.le a1
  have c2 := mul_nonneg (show 0 ≤ p.T ^ 3 / 12 by positivity) b1
  exact ⟨a2 ((mul_eq_zero.mp (by linarith : p.T * ∑ r, membrane e p u r * law p (membrane e p u) r = 0)).resolve_left hT.ne'),
    b2 ((mul_eq_zero.mp (by linarith : p.T ^ 3 / 12 * ∑ r, bending e p u r * law p (bending e p u) r = 0)).resolve_left (by positivity))⟩

theorem work_nonneg (n : Nat) (x : Nat → V3 ℝ) (es : List Elm) (h : Sound n x es) (u : Nat → Nat → ℝ) :
    0 ≤ work es u u ∧ (work es u u = 0 → ∀ e ∈ es, ∀ p ∈ e.pts, membrane e p u = 0 ∧ bending e p u = 0) := by
  have hin : ∀ e ∈ es, ∀ a ∈ e.pts.map fun p => p.dJW * (p.T * ∑ r, membrane e p u r * law p (membrane e p u) r + p.T ^ 3 / 12 * ∑ r, bending e p u r * law p (bending e p u) r), 0 ≤ a := by
    intro e he a ha
    obtain ⟨p, hp, rfl⟩ := List.mem_map.mp ha
    exact (point_nonneg n x es h e he p hp u).1
  have hout : ∀ a ∈ es.map fun e => (e.pts.map fun p => p.dJW * (p.T * ∑ r, membrane e p u r * law p (membrane e p u) r + p.T ^ 3 / 12 * ∑ r, bending e p u r * law p (bending e p u) r)).sum, 0 ≤ a := by
    intro a ha
    obtain ⟨e, he, rfl⟩ := List.mem_map.mp ha
    exact Struct.list_sum_nonneg _ (hin e he)
  refine ⟨Struct.list_sum_nonneg _ hout, fun hz e he p hp => ?_⟩
  have h1 := Struct.list_sum_zero _ hout hz _ (List.mem_map.mpr ⟨e, he, rfl⟩)
  have h2 := Struct.list_sum_zero _ (hin e he) h1 _ (List.mem_map.mpr ⟨p, hp, rfl⟩)
  exact (point_nonneg n x es h e he p hp u).2 h2

/-- The displacements of a rigid body. -/
def rigid (x : Nat → V3 ℝ) (c om : V3 ℝ) (a : Nat) : Nat → ℝ
  | 1 => c 0 + (om 1 * x a 2 - om 2 * x a 1)
  | 2 => c 1 + (om 2 * x a 0 - om 0 * x a 2)
  | 3 => c 2 + (om 0 * x a 1 - om 1 * x a 0)
  | _ => 0

theorem rigid_eq (x : Nat → V3 ℝ) (c om : V3 ℝ) (a : Nat) (d : Fin 3) : rigid x c om a (d + 1) = c d + cross om (x a) d := by
  fin_cases d <;> simp [rigid, cross]

theorem work_rigid (n : Nat) (x : Nat → V3 ℝ) (es : List Elm) (h : Sound n x es) (c om : V3 ℝ) (u : Nat → Nat → ℝ) : work es (rigid x c om) u = 0 := by
  unfold work
  refine List.sum_eq_zero fun a ha => ?_
  obtain ⟨e, he, rfl⟩ := List.mem_map.mp ha
  refine List.sum_eq_zero fun b hb => ?_
  obtain ⟨p, hp, rfl⟩ := List.mem_map.mp hb
  have hs := h.size e he p hp
  have hr := Shell.C48_rigid p.G p.f (fun k => x (e.node (k + 1))) (h.regular e he p hp) (by rw [hs]; exact h.first e he p hp) (by rw [hs]; exact h.second e he p hp)
    (by rw [hs]; exact h.tangent1 e he p hp) (by rw [hs]; exact h.tangent2 e he p hp) (by rw [hs]; exact h.hessian e he p hp) c om (disp e (rigid x c om))
    (fun k => by funext d; fin_cases d <;> simp [disp, rigid])
  rw [hs] at hr
  have z1 : membrane e p (rigid x c om) = 0 := funext fun r => (hr r).1
  have z2 : bending e p (rigid x c om) = 0 := funext fun r => (hr r).2
  simp [z1, z2]

/-- C138 (balance): there are no forces of supports at free degrees of freedom; the forces of the supports and the loads have no resultant, and no moment about any point. -/
theorem C138_balance (n : Nat) (x : Nat → V3 ℝ) (es : List Elm) (h : Sound n x es) (F g : Nat → Nat → ℝ) (fixed : Nat → Nat → Prop) :
    ∃ r, matrices es = .ok r ∧ ∀ u, Solves 3 n (stiff r) F g fixed u →
      (∀ a i, a < n → i < 3 → ¬ fixed (a + 1) (i + 1) → reaction 3 n (stiff r) F u (a + 1) (i + 1) = 0) ∧
      ∀ R : Nat → V3 ℝ, (∀ a (i : Fin 3), R a i = reaction 3 n (stiff r) F u (a + 1) (i + 1) + F (a + 1) (i + 1)) → ∀ (o : V3 ℝ) (i : Fin 3),
        (∑ a ∈ Finset.range n, R a i) = 0 ∧
        (∑ a ∈ Finset.range n, ![(x (a + 1) 1 - o 1) * R a 2 - (x (a + 1) 2 - o 2) * R a 1, (x (a + 1) 2 - o 2) * R a 0 - (x (a + 1) 0 - o 0) * R a 2,
          (x (a + 1) 0 - o 0) * R a 1 - (x (a + 1) 1 - o 1) * R a 0] i) = 0 := by
  obtain ⟨r, h1, h2, -⟩ := C138_virtual_work n x es h
  refine ⟨r, h1, fun u hu => ⟨fun a i ha hi hf => by rw [reaction, hu.free a i ha hi hf, sub_self], fun R hR o i => ?_⟩⟩
  have key := Shell.balanced n (fun a i => x (a + 1) i - o i) R (fun c om => by
    rw [← work_rigid n x es h (fun i => c i - cross om o i) om u, ← h2]
    refine Finset.sum_congr rfl fun a _ => ?_
    rw [Finset.sum_range]
    refine Finset.sum_congr rfl fun d _ => ?_
    rw [rigid_eq, hR, reaction, sub_add_cancel]
    fin_cases d <;> simp [cross] <;> ring) i
  refine ⟨key.1, key.2 ▸ ?_⟩
  exact Finset.sum_congr rfl fun a _ => by fin_cases i <;> simp [cross]

/-- C138 (reported loads): loaded by own weight and pressures, the forces of the supports are opposite to the reported sums of the loads, which are the integrals of own weight in the third direction and of the
pressures along the normals. -/
theorem C138_reported (n : Nat) (x : Nat → V3 ℝ) (es : List Elm) (h : Sound n x es) (g : Nat → Nat → ℝ) (fixed : Nat → Nat → Prop) :
    ∃ r, matrices es = .ok r ∧ ∀ i : Fin 3, (r.map fun e => e.2.sum (i + 1)).sum = loads es i ∧ ∀ u, Solves 3 n (stiff r) (loadV r) g fixed u →
      ∑ a ∈ Finset.range n, reaction 3 n (stiff r) (loadV r) u (a + 1) (i + 1) + (r.map fun e => e.2.sum (i + 1)).sum = 0 := by
  obtain ⟨r, h1, h2, -, h4, h5⟩ := C138_virtual_work n x es h
  refine ⟨r, h1, fun i => ⟨h5 i, fun u hu => ?_⟩⟩
  have hrig := work_rigid n x es h (fun d => if d = i then 1 else 0) 0 u
  rw [← h2] at hrig
  have hl := h4 (rigid x (fun d => if d = i then 1 else 0) 0)
  have hr : ∀ a (d : Fin 3), rigid x (fun d => if d = i then 1 else 0) 0 a (d + 1) = if d = i then 1 else 0 := by
    intro a d; rw [rigid_eq]; fin_cases d <;> simp [cross]
  have hpick : ∀ f : Nat → ℝ, ∀ a, ∑ d ∈ Finset.range 3, rigid x (fun d => if d = i then 1 else 0) 0 a (d + 1) * f d = f i := by
    intro f a
    rw [Finset.sum_range]
    simp only [hr, ite_mul, one_mul, zero_mul, Finset.sum_ite_eq', Finset.mem_univ, if_true]
  simp only [hpick (fun d => nodal 3 n (stiff r) u _ (d + 1))] at hrig
  simp only [hpick (fun d => loadV r _ (d + 1))] at hl
  have hs : ∀ e ∈ es, ∀ p ∈ e.pts, ∀ d : Fin 3, shift e p (rigid x (fun d => if d = i then 1 else 0) 0) (d + 1) = if d = i then 1 else 0 := by
    intro e he p hp d
    simp only [shift, hr, mul_ite, mul_one, mul_zero]
    by_cases hd : d = i
    · simp only [if_pos hd]; exact h.unity e he p hp
    · simp only [if_neg hd]; simp
  have hl2 : (es.map fun e => (e.pts.map fun p => ∑ d : Fin 3, shift e p (rigid x (fun d => if d = i then 1 else 0) 0) (d + 1) * (load p d * p.dJW)).sum).sum = loads es i := by
    unfold loads
    refine congrArg List.sum (List.map_congr_left fun e he => congrArg List.sum (List.map_congr_left fun p hp => ?_))
    simp only [hs e he p hp, ite_mul, one_mul, zero_mul, Finset.sum_ite_eq', Finset.mem_univ, if_true]
  rw [h5, ← hl2, ← hl, ← hrig, ← Finset.sum_add_distrib]
  exact Finset.sum_congr rfl fun a _ => by rw [reaction]; ring

/-- C138 (reciprocity): the work of the loads of one load case in the displacements of another is the same when the cases are exchanged. -/
theorem C138_reciprocity (n : Nat) (x : Nat → V3 ℝ) (es : List Elm) (h : Sound n x es) (F F' : Nat → Nat → ℝ) (fixed : Nat → Nat → Prop) :
    ∃ r, matrices es = .ok r ∧ ∀ u u', Solves 3 n (stiff r) F (fun _ _ => 0) fixed u → Solves 3 n (stiff r) F' (fun _ _ => 0) fixed u' →
      ∑ a ∈ Finset.range n, ∑ i ∈ Finset.range 3, F (a + 1) (i + 1) * u' (a + 1) (i + 1) = ∑ a ∈ Finset.range n, ∑ i ∈ Finset.range 3, F' (a + 1) (i + 1) * u (a + 1) (i + 1) := by
  obtain ⟨r, h1, h2, -⟩ := C138_virtual_work n x es h
  refine ⟨r, h1, fun u u' hu hu' => ?_⟩
  have t := Struct.solves_test 3 n (stiff r) F _ fixed u u' hu hu'.held
  have t' := Struct.solves_test 3 n (stiff r) F' _ fixed u' u hu' hu.held
  simp only [dotN] at t t'
  rw [← t, ← t', h2, h2, work_symm]

/-- C138 (minimum): among all displacements with the prescribed values, a solution has the least potential energy; others with the same energy have the same strains and curvatures. -/
theorem C138_minimum (n : Nat) (x : Nat → V3 ℝ) (es : List Elm) (h : Sound n x es) (F g : Nat → Nat → ℝ) (fixed : Nat → Nat → Prop) :
    ∃ r, matrices es = .ok r ∧ ∀ u v, Solves 3 n (stiff r) F g fixed u → (∀ a i, a < n → i < 3 → fixed (a + 1) (i + 1) → v (a + 1) (i + 1) = g (a + 1) (i + 1)) →
      1 / 2 * work es u u - dotN 3 n F u ≤ 1 / 2 * work es v v - dotN 3 n F v ∧
      (1 / 2 * work es u u - dotN 3 n F u = 1 / 2 * work es v v - dotN 3 n F v → ∀ e ∈ es, ∀ p ∈ e.pts, membrane e p v = membrane e p u ∧ bending e p v = bending e p u) := by
  obtain ⟨r, h1, h2, -⟩ := C138_virtual_work n x es h
  refine ⟨r, h1, fun u v hu hv => ?_⟩
  obtain ⟨z, hz⟩ : ∃ z : Nat → Nat → ℝ, z = fun a i => v a i + -1 * u a i := ⟨_, rfl⟩
  have hvz : v = fun a i => u a i + 1 * z a i := by subst hz; funext a i; ring
  have t := Struct.solves_test 3 n (stiff r) F g fixed u z hu fun a i ha hi hf => by
    rw [hz]; show v _ _ + -1 * u _ _ = 0
    rw [hv a i ha hi hf, hu.held a i ha hi hf]; ring
  rw [h2] at t
  have e2 : dotN 3 n F v = dotN 3 n F u + dotN 3 n F z := by
    rw [hvz]; unfold dotN; simp only [← Finset.sum_add_distrib]
    exact Finset.sum_congr rfl fun a _ => Finset.sum_congr rfl fun i _ => by ring
  have e3 : work es v v = work es u u + 2 * work es z u + work es z z := by
    have s1 : work es v v = work es v u + 1 * work es v z := by
      conv_lhs => rw [show work es v v = work es v (fun a i => u a i + 1 * z a i) from by rw [← hvz]]
      rw [work_lin]
    have s2 : ∀ q, work es v q = work es u q + 1 * work es z q := by
      intro q
      rw [work_symm es v q, hvz, work_lin, work_symm es q u, work_symm es q z]
    rw [s1, s2, s2, work_symm es u z]; ring
  obtain ⟨p1, p2⟩ := work_nonneg n x es h z
  rw [e2, e3, ← t]
  refine ⟨by linarith, fun hh e he p hp => ?_⟩
  obtain ⟨m1, m2⟩ := p2 (by linarith) e he p hp
  rw [hvz, membrane_lin, bending_lin]
  constructor
  · funext r; rw [m1]; simp
  · funext r; rw [m2]; simp

/-- C138 (exactly one solution): if the supports admit no displacements without strains and curvatures other than zero, there is exactly one solution for all loads and prescribed displacements. -/
theorem C138_exists (n : Nat) (x : Nat → V3 ℝ) (es : List Elm) (h : Sound n x es) (F g : Nat → Nat → ℝ) (fixed : Nat → Nat → Prop)
    (hsup : ∀ v : Nat → Nat → ℝ, (∀ a i, a < n → i < 3 → fixed (a + 1) (i + 1) → v (a + 1) (i + 1) = 0) → (∀ e ∈ es, ∀ p ∈ e.pts, membrane e p v = 0 ∧ bending e p v = 0) →
      ∀ a i, a < n → i < 3 → v (a + 1) (i + 1) = 0) :
    ∃ r, matrices es = .ok r ∧ ∃ u, Solves 3 n (stiff r) F g fixed u ∧ ∀ v, Solves 3 n (stiff r) F g fixed v → ∀ a i, a < n → i < 3 → v (a + 1) (i + 1) = u (a + 1) (i + 1) := by
  obtain ⟨r, h1, h2, -⟩ := C138_virtual_work n x es h
  refine ⟨r, h1, Struct.exactly_one 3 n (stiff r) F g fixed fun v hv hz => ?_⟩
  rw [h2] at hz
  exact hsup v hv ((work_nonneg n x es h v).2 hz)

theorem kin_nonneg (es : List Elm) (hp : ∀ e ∈ es, ∀ p ∈ e.pts, 0 ≤ p.rho ∧ 0 < p.T ∧ 0 < p.dJW) (w : Nat → Nat → ℝ) : 0 ≤ kin es w w := by
  unfold kin
  refine Struct.list_sum_nonneg _ fun a ha => ?_
  obtain ⟨e, he, rfl⟩ := List.mem_map.mp ha
  refine Struct.list_sum_nonneg _ fun a ha => ?_
  obtain ⟨p, hpp, rfl⟩ := List.mem_map.mp ha
  obtain ⟨r0, r1, r2⟩ := hp e he p hpp
  exact mul_nonneg (mul_nonneg (mul_nonneg r0 r1.le) r2.le) (Finset.sum_nonneg fun i _ => mul_self_nonneg _)

/-- C138 (free vibrations): if all admissible displacements other than zero move mass, there are as many modes as free degrees of freedom, with squares of frequencies that are not negative, orthogonal with respect
to the mass, and all admissible displacements are their combinations; the lowest frequency is the least quotient of energies. -/
theorem C138_modes (n : Nat) (x : Nat → V3 ℝ) (es : List Elm) (h : Sound n x es) (fixed : Nat → Nat → Prop) (hr : ∀ e ∈ es, ∀ p ∈ e.pts, 0 ≤ p.rho)
    (hpos : ∀ v : Nat → Nat → ℝ, (∀ a i, a < n → i < 3 → fixed (a + 1) (i + 1) → v (a + 1) (i + 1) = 0) → kin es v v = 0 → ∀ a i, a < n → i < 3 → v (a + 1) (i + 1) = 0) :
    ∃ r, matrices es = .ok r ∧ ∃ (_ : Fintype (Free 3 n fixed)) (_ : DecidableEq (Free 3 n fixed)) (lam : Free 3 n fixed → ℝ) (phi : Free 3 n fixed → Nat → Nat → ℝ),
      (∀ s, Mode 3 n (stiff r) (massM r) fixed (lam s) (phi s) ∧ 0 ≤ lam s) ∧ (∀ s t, kin es (phi s) (phi t) = if s = t then 1 else 0) ∧
      ∀ v, (∀ a i, a < n → i < 3 → fixed (a + 1) (i + 1) → v (a + 1) (i + 1) = 0) →
        (∀ a i, a < n → i < 3 → v (a + 1) (i + 1) = ∑ s, kin es (phi s) v * phi s (a + 1) (i + 1)) ∧
        work es v v = ∑ s, lam s * kin es (phi s) v ^ 2 ∧ ∀ low, (∀ s, low ≤ lam s) → low * kin es v v ≤ work es v v := by
  obtain ⟨r, h1, h2, h3, -⟩ := C138_virtual_work n x es h
  obtain ⟨f1, f2, lam, phi, m1, m2, m3⟩ := Struct.exists_modes 3 n (stiff r) (massM r) (work es) (kin es) h2 h3 (work_symm es) (kin_symm es) fixed
    (fun v => kin_nonneg es (fun e he p hp => ⟨hr e he p hp, h.thick e he p hp, h.weight e he p hp⟩) v) hpos
  refine ⟨r, h1, f1, f2, lam, phi, fun s => ⟨m1 s, ?_⟩, m2, fun v hv => ?_⟩
  · have t := Struct.mode_test 3 n _ _ fixed (lam s) (phi s) (phi s) (m1 s) (m1 s).held
    rw [h2, h3, m2, if_pos rfl, mul_one] at t
    rw [← t]; exact (work_nonneg n x es h (phi s)).1
  · obtain ⟨v1, v2, -, v4⟩ := m3 v hv
    exact ⟨v1, v2, v4⟩

/-- A material the constitutive law rejects leaves the stiffness of an element as it is. -/
theorem evalAll_rejected (pts : List QPt) (hp : ∀ p ∈ pts, ¬ (0 ≤ LinIso.nuAt p.mat p.X ∧ LinIso.nuAt p.mat p.X < 1 / 2)) : ∀ A : Mats, ∃ B, evalAll pts A = .ok B ∧ B.EK = A.EK := by
  induction pts with
  | nil => exact fun A => ⟨A, rfl, rfl⟩
  | cons p l ih =>
    intro A
    have hf : Shell.evalK p.mat p.fe p.X p.T p.dJW p.G p.f = .fail := by
      have := (LinIso.C03_rejects p.mat 2 3 (by omega) p.fe p.X (fun _ => 0) 1).1.mpr ⟨by omega, hp p (by simp)⟩
      simp only [Shell.evalK, Shell.formDmatrix, Bool.false_eq_true, if_false, this, Res.bind]
    obtain ⟨A1, a1, a2⟩ : ∃ A1, evalInt A p = .ok A1 ∧ A1.EK = A.EK := by simp only [evalInt, hf]; exact ⟨_, rfl, rfl⟩
    obtain ⟨B, b1, b2⟩ := ih (fun q hq => hp q (by simp [hq])) A1
    exact ⟨B, by simp only [evalAll, a1, Res.bind]; exact b1, b2.trans a2⟩

theorem matrices_rejected (es : List Elm) (h : ∀ e ∈ es, ∀ p ∈ e.pts, ¬ (0 ≤ LinIso.nuAt p.mat p.X ∧ LinIso.nuAt p.mat p.X < 1 / 2)) :
    ∃ r, matrices es = .ok r ∧ ∀ e ∈ r, e.2.EK = DMat.zero (3 * e.1.nen) (3 * e.1.nen) := by
  induction es with
  | nil => exact ⟨[], rfl, by simp⟩
  | cons e l ih =>
    obtain ⟨r, r1, r2⟩ := ih fun e he => h e (by simp [he])
    obtain ⟨B, b1, b2⟩ := evalAll_rejected e.pts (h e (by simp)) ⟨DMat.zero (3 * e.nen) (3 * e.nen), DMat.zero (3 * e.nen) (3 * e.nen), DVec.zero (3 * e.nen), fun _ => 0⟩
    refine ⟨(e, B) :: r, by simp only [matrices, b1, Res.bind, r1], fun q hq => ?_⟩
    rcases List.mem_cons.mp hq with rfl | hq
    · exact b2
    · exact r2 q hq

/-- C138 (rejected materials, violated): a shell whose material is rejected by the constitutive law (Poisson's ratio outside of [0,1/2)) is assembled without failure, and has no stiffness at all, since
`KirchhoffLoveShell::evalInt` (Shell/KirchhoffLoveShell.C:48-49) does not use the result of `evalK`. The equations then have no solution unless the free degrees of freedom have no loads. -/
theorem C138_material_violated (n : Nat) (es : List Elm) (h : ∀ e ∈ es, ∀ p ∈ e.pts, ¬ (0 ≤ LinIso.nuAt p.mat p.X ∧ LinIso.nuAt p.mat p.X < 1 / 2)) :
    ∃ r, matrices es = .ok r ∧ (∀ u a i, nodal 3 n (stiff r) u a i = 0) ∧
      ∀ (F g : Nat → Nat → ℝ) (fixed : Nat → Nat → Prop) (a i : Nat), a < n → i < 3 → ¬ fixed (a + 1) (i + 1) → F (a + 1) (i + 1) ≠ 0 → ¬ ∃ u, Solves 3 n (stiff r) F g fixed u := by
  obtain ⟨r, r1, r2⟩ := matrices_rejected es h
  have hz : ∀ u a i, nodal 3 n (stiff r) u a i = 0 := by
    intro u a i
    have : ∀ a i b j, stiff r a i b j = 0 := by
      intro a i b j
      unfold stiff Struct.asmK
      refine List.sum_eq_zero fun w hw => ?_
      obtain ⟨e, he, rfl⟩ := List.mem_map.mp hw
      obtain ⟨q, hq, rfl⟩ := List.mem_map.mp he
      simp [r2 q hq, DMat.zero]
    simp [nodal, this]
  refine ⟨r, r1, hz, fun F g fixed a i ha hi hf hF ⟨u, hu⟩ => hF ?_⟩
  rw [← hu.free a i ha hi hf, hz]

/-! ### A parabolic shell of four nodes -/

/-- One element with one point: the surface `(x, y, x²)` at the origin, under pressure and own weight. -/
noncomputable def dome (nu : ℝ) : Elm := ⟨4, fun s => s, [⟨Shell.wG, Shell.wf, fun a => if a = 1 then 1 else 0, { Emod := 12, nu := nu, planeStress := true }, ⟨0, 0, 0⟩, ⟨0, 0, 0⟩, 1, 1, 3, 10, [2]⟩]⟩

/-- Its nodes. -/
def dx (a : Nat) : V3 ℝ := Shell.wx (a - 1)

theorem dome_sound : Sound 4 dx [dome (1 / 4)] := by
  refine ⟨?_, ?_, ?_, ?_, ?_, ?_, ?_, ?_, ?_, ?_, ?_, ?_⟩ <;> intro e he <;> obtain rfl := List.mem_singleton.mp he
  · intro s hs
    have : s < 4 := hs
    simp only [dome]; omega
  all_goals intro p hp; obtain rfl := List.mem_singleton.mp hp
  · rfl
  · norm_num [dome, Finset.sum_range_succ]
  · intro c; fin_cases c <;> simp [dome, Shell.wf, Finset.sum_range_succ]
  · intro c; fin_cases c <;> simp [dome, Shell.wf, Finset.sum_range_succ]
  · intro c; fin_cases c <;> simp [dome, dx, Shell.wf, Shell.wG, Shell.wx, Finset.sum_range_succ]
  · intro c; fin_cases c <;> simp [dome, dx, Shell.wf, Shell.wG, Shell.wx, Finset.sum_range_succ]
  · intro j c; fin_cases j <;> fin_cases c <;> simp [dome, dx, Shell.wf, Shell.wG, Shell.wx, Finset.sum_range_succ]
  · exact Bar.len_pos (by simp [Shell.wG, cross])
  · refine ⟨?_, ?_, ?_, rfl⟩
    · norm_num [LinIso.Mat.young]
    · norm_num [LinIso.nuAt]
    · norm_num [LinIso.nuAt]
  · norm_num
  · norm_num

/-- Own weight and pressure act upwards in that point. -/
example : loads [dome (1 / 4)] 2 = 32 ∧ loads [dome (1 / 4)] 0 = 0 := by
  have hl : len (![0, 0, 1] : V3 ℝ) = 1 := by simp [len, Bar.len, Fin.sum_univ_three]
  have hc : cross Shell.wG.g1 Shell.wG.g2 = ![0, 0, 1] := by funext i; fin_cases i <;> simp [cross, Shell.wG]
  constructor
  · norm_num [loads, load, dome, hc, hl, show (![0, 0, 1] : V3 ℝ) 2 = 1 from rfl]
  · simp [loads, load, dome, hc, hl, show ¬ (0 : Fin 3) = 2 by decide]

/-- The hypothesis of `C138_exists` if only the second node can move, along the curved line: this is a membrane strain. -/
example (F : Nat → Nat → ℝ) : ∃ r, matrices [dome (1 / 4)] = .ok r ∧ ∃ u, Solves 3 4 (stiff r) F (fun _ _ => 0) (fun a i => ¬ (a = 2 ∧ i = 1)) u := by
  obtain ⟨r, r1, u, hu, -⟩ := C138_exists 4 dx [dome (1 / 4)] dome_sound F (fun _ _ => 0) (fun a i => ¬ (a = 2 ∧ i = 1)) (fun v hv hz a i ha hi => by
    by_cases h : a + 1 = 2 ∧ i + 1 = 1
    · obtain ⟨h1, h2⟩ := h
      rw [h1, h2]
      have hm := congrFun (hz _ (List.mem_singleton.mpr rfl) _ (List.mem_singleton.mpr rfl)).1 0
      have v0 : ∀ a i, a < 4 → i < 3 → (a + 1 = 2 → i + 1 ≠ 1) → v (a + 1) (i + 1) = 0 := fun a i ha hi h => hv a i ha hi fun hh => h hh.1 hh.2
      have e1 := v0 0 0; have e2 := v0 0 1; have e3 := v0 0 2; have e4 := v0 1 1; have e5 := v0 1 2; have e6 := v0 2 0; have e7 := v0 2 1; have e8 := v0 2 2; have e9 := v0 3 0; have e10 := v0 3 1; have e11 := v0 3 2
      norm_num at e1 e2 e3 e4 e5 e6 e7 e8 e9 e10 e11
      simp [membrane, dome, Finset.sum_range_succ, Fin.sum_univ_three, e1, e2, e3, e4, e5, e6, e7, e8, e9, e10, e11, Shell.formBmatrix, Shell.tmul, Shell.dE, Shell.wf, Shell.wG, Shell.tmat, Shell.frame, Shell.gab,
        Cable.dot, unit, len, Bar.len] at hm
      exact hm
    · exact hv a i ha hi h)
  exact ⟨r, r1, u, hu⟩

/-- Its mass does not move in all displacements: the hypotheses of `C138_modes` hold if all nodes but the first are held. -/
example : ∃ r, matrices [dome (1 / 4)] = .ok r ∧ ∃ (_ : Fintype (Free 3 4 fun a _ => a ≠ 1)) (_ : DecidableEq (Free 3 4 fun a _ => a ≠ 1)) (lam : Free 3 4 (fun a _ => a ≠ 1) → ℝ) (phi : Free 3 4 (fun a _ => a ≠ 1) → Nat → Nat → ℝ),
    ∀ s, Mode 3 4 (stiff r) (massM r) (fun a _ => a ≠ 1) (lam s) (phi s) ∧ 0 ≤ lam s := by
  obtain ⟨r, r1, f1, f2, lam, phi, m1, -⟩ := C138_modes 4 dx [dome (1 / 4)] dome_sound (fun a _ => a ≠ 1)
    (by intro e he; obtain rfl := List.mem_singleton.mp he; intro p hp; obtain rfl := List.mem_singleton.mp hp; norm_num)
    (fun v hv hz a i ha hi => by
      by_cases h : a = 0
      · subst h
        simp [kin, shift, dome, Finset.sum_range_succ] at hz
        have h1 := mul_self_nonneg (v 1 1)
        have h2 := mul_self_nonneg (v 1 2)
        have h3 := mul_self_nonneg (v 1 3)
        have z1 : v 1 1 = 0 := mul_self_eq_zero.mp (by linarith)
        have z2 : v 1 2 = 0 := mul_self_eq_zero.mp (by linarith)
        have z3 : v 1 3 = 0 := mul_self_eq_zero.mp (by linarith)
        interval_cases i <;> assumption
      · exact hv a i ha hi (by omega))
  exact ⟨r, r1, f1, f2, lam, phi, m1⟩

/-- With Poisson's ratio 3/5 the assembly succeeds, and a load in a free direction has no solution. -/
example : ∃ r, matrices [dome (3 / 5)] = .ok r ∧ ¬ ∃ u, Solves 3 4 (stiff r) (fun _ _ => 1) (fun _ _ => 0) (fun a _ => a ≠ 1) u := by
  obtain ⟨r, r1, -, r3⟩ := C138_material_violated 4 [dome (3 / 5)] (by
    intro e he; obtain rfl := List.mem_singleton.mp he; intro p hp; obtain rfl := List.mem_singleton.mp hp
    norm_num [LinIso.nuAt])
  exact ⟨r, r1, r3 _ _ _ 0 0 (by omega) (by omega) (by simp) (by norm_num)⟩

end Verif.ShellStatic
