/- Property C137: the static solution and the free vibrations of a whole plate model. -/
import Verif.Model.PlateStatic
import Verif.Props.Plate
import Verif.Props.Vibration

set_option linter.unusedSectionVars false
set_option linter.unnecessarySeqFocus false
set_option linter.unusedSimpArgs false

namespace Verif.PlateStatic

open Verif.Struct (nodal Solves reaction asmK asmV dotN Mode Free)

variable {K : Type*} [Field K]

/-! ### Specification -/

/-- The second derivative in the directions `i` and `j` of the deflection, at an integration point of an element. -/
def curv (e : Elm K) (p : QPt K) (w : Nat → Nat → K) (i j : Nat) : K := ∑ a ∈ Finset.range e.nen, p.f.d2N (a + 1) i j * w (e.node (a + 1)) 1

/-- The deflection at an integration point of an element. -/
def defl (e : Elm K) (p : QPt K) (w : Nat → Nat → K) : K := ∑ a ∈ Finset.range e.nen, p.f.N (a + 1) * w (e.node (a + 1)) 1

/-- The coupling of the two bending moments: Poisson's ratio in the first formulation, none in the second, complete in the third. -/
def coupling (version : Nat) (nu : K) : K := if version = 1 then nu else if version = 2 then 0 else 1

/-- The plate stiffness `E t³ / (12 (1 - nu²))`. -/
def rigidity (p : QPt K) : K := p.mat.young p.f.fe p.X * p.T ^ 3 / (12 * (1 - LinIso.nuAt p.mat p.X ^ 2))

/-- The work of the moments of the deflection `w` in the curvatures of the deflection `v`, at an integration point: bending in the directions of both axes, and twisting. -/
def density (version : Nat) (e : Elm K) (p : QPt K) (v w : Nat → Nat → K) : K :=
  rigidity p * ((curv e p v 1 1 * (curv e p w 1 1 + coupling version (LinIso.nuAt p.mat p.X) * curv e p w 2 2)) +
    (curv e p v 2 2 * (curv e p w 2 2 + coupling version (LinIso.nuAt p.mat p.X) * curv e p w 1 1)) +
    2 * (curv e p v 1 2 * ((1 - coupling version (LinIso.nuAt p.mat p.X)) * curv e p w 1 2)))

/-- The work of the moments of `w` in the curvatures of `v`, in the whole plate. -/
def work (version : Nat) (es : List (Elm K)) (v w : Nat → Nat → K) : K :=
  (es.map fun e => (e.pts.map fun p => p.f.dJW * density version e p v w).sum).sum

/-- The integral of mass per area times the product of two deflections. -/
def kin (es : List (Elm K)) (v w : Nat → Nat → K) : K :=
  (es.map fun e => (e.pts.map fun p => p.rho * p.T * p.f.dJW * (defl e p v * defl e p w)).sum).sum

/-- The integral of a function times the load per area: own weight and pressures. -/
def loads (es : List (Elm K)) (f : Elm K → QPt K → K) : K :=
  (es.map fun e => (e.pts.map fun p => f e p * ((p.rho * p.g * p.T + p.pres.sum) * p.f.dJW)).sum).sum

/-- A plate model of `n` nodes with coordinates `x` and `y`: the elements connect these nodes, the basis represents constants and the coordinates, material data, thickness and weights are admissible. -/
structure Sound [LinearOrder K] (n : Nat) (x y : Nat → K) (es : List (Elm K)) : Prop where
  nodes : ∀ e ∈ es, ∀ s, s < e.nen → 1 ≤ e.node (s + 1) ∧ e.node (s + 1) ≤ n
  size : ∀ e ∈ es, ∀ p ∈ e.pts, p.f.nen = e.nen ∧ p.f.dim2 = 2 ∧ p.f.dim3 = 2
  unity : ∀ e ∈ es, ∀ p ∈ e.pts, ∑ a ∈ Finset.range e.nen, p.f.N (a + 1) = 1
  complete : ∀ e ∈ es, ∀ p ∈ e.pts, ∀ i j, (∑ a ∈ Finset.range e.nen, p.f.d2N (a + 1) i j = 0) ∧
    (∑ a ∈ Finset.range e.nen, p.f.d2N (a + 1) i j * x (e.node (a + 1)) = 0) ∧ ∑ a ∈ Finset.range e.nen, p.f.d2N (a + 1) i j * y (e.node (a + 1)) = 0
  material : ∀ e ∈ es, ∀ p ∈ e.pts, 0 < p.mat.young p.f.fe p.X ∧ 0 ≤ LinIso.nuAt p.mat p.X ∧ LinIso.nuAt p.mat p.X < 1 / 2 ∧
    p.mat.axiSymmetry = false ∧ p.mat.planeStress = true ∧ p.mat.Efield = none
  thick : ∀ e ∈ es, ∀ p ∈ e.pts, 0 < p.T
  weight : ∀ e ∈ es, ∀ p ∈ e.pts, 0 < p.f.dJW

/-! ### Proofs -/

section
variable [LinearOrder K] [IsStrictOrderedRing K]

theorem prod_form (n : Nat) (x y P R : Nat → K) (c : K) :
    ∑ a ∈ Finset.range n, ∑ b ∈ Finset.range n, x (a + 1) * (c * (P (a + 1) * R (b + 1))) * y (b + 1) =
      c * ((∑ a ∈ Finset.range n, P (a + 1) * x (a + 1)) * ∑ b ∈ Finset.range n, R (b + 1) * y (b + 1)) := by
  rw [Finset.sum_mul_sum, Finset.mul_sum]
  refine Finset.sum_congr rfl fun a _ => ?_
  rw [Finset.mul_sum]
  exact Finset.sum_congr rfl fun b _ => by ring

/-- The stiffness at a point, in all formulations. -/
theorem stiffness_eq (version : Nat) (p : QPt K) (h2 : p.f.dim2 = 2) (h3 : p.f.dim3 = 2) (hm : 0 < p.mat.young p.f.fe p.X ∧ 0 ≤ LinIso.nuAt p.mat p.X ∧ LinIso.nuAt p.mat p.X < 1 / 2 ∧
    p.mat.axiSymmetry = false ∧ p.mat.planeStress = true ∧ p.mat.Efield = none) :
    ∃ k, Plate.stiffness version p.mat 2 p.f p.X p.T = .ok k ∧ ∀ a b, 1 ≤ a → a ≤ p.f.nen → 1 ≤ b → b ≤ p.f.nen →
      k a b = rigidity p * p.f.dJW * (p.f.d2N a 1 1 * p.f.d2N b 1 1) + rigidity p * p.f.dJW * (p.f.d2N a 2 2 * p.f.d2N b 2 2) +
        rigidity p * p.f.dJW * coupling version (LinIso.nuAt p.mat p.X) * (p.f.d2N a 1 1 * p.f.d2N b 2 2) +
        rigidity p * p.f.dJW * coupling version (LinIso.nuAt p.mat p.X) * (p.f.d2N a 2 2 * p.f.d2N b 1 1) +
        rigidity p * p.f.dJW * (2 * (1 - coupling version (LinIso.nuAt p.mat p.X))) * (p.f.d2N a 1 2 * p.f.d2N b 1 2) := by
  obtain ⟨hE, h0, h1, ha, hp, hf⟩ := hm
  have n1 : (1 : K) + LinIso.nuAt p.mat p.X ≠ 0 := by positivity
  have n2 : (1 : K) - LinIso.nuAt p.mat p.X ≠ 0 := by
    have : (0 : K) < 1 - LinIso.nuAt p.mat p.X := by linarith
    exact this.ne'
  have n3 : (1 : K) - LinIso.nuAt p.mat p.X ^ 2 ≠ 0 := by
    have : (1 : K) - LinIso.nuAt p.mat p.X ^ 2 = (1 - LinIso.nuAt p.mat p.X) * (1 + LinIso.nuAt p.mat p.X) := by ring
    rw [this]; exact mul_ne_zero n2 n1
  by_cases hv : version = 1
  · subst hv
    obtain ⟨k, e1, e2⟩ := Plate.K1_eq p.mat p.f p.X p.T ha ⟨h0, h1⟩ h2 h3
    refine ⟨k, e1, fun a b a1 a2 b1 b2 => ?_⟩
    rw [e2 a b a1 a2 b1 b2]
    have e3 : (2 : K) + LinIso.nuAt p.mat p.X + LinIso.nuAt p.mat p.X = 2 * (1 + LinIso.nuAt p.mat p.X) := by ring
    simp only [hp, LinIso.dirA, LinIso.dirB, coupling, rigidity, if_true, Bool.false_eq_true, if_false, e3]
    have e4 : (1 : K) - LinIso.nuAt p.mat p.X * LinIso.nuAt p.mat p.X = (1 - LinIso.nuAt p.mat p.X) * (1 + LinIso.nuAt p.mat p.X) := by ring
    have e5 : (1 : K) - LinIso.nuAt p.mat p.X ^ 2 = (1 - LinIso.nuAt p.mat p.X) * (1 + LinIso.nuAt p.mat p.X) := by ring
    simp only [e4, e5]
    field_simp
    ring
  · refine ⟨Plate.evalK2 version p.mat 2 p.f p.X p.T, by simp only [Plate.stiffness, if_neg hv], fun a b a1 a2 b1 b2 => ?_⟩
    have hD : LinIso.getPlateStiffness p.mat p.X p.T p.f.fe.age = rigidity p := by
      rw [Plate.plateStiffness_eq, rigidity, Plate.young_eq p.mat p.f.fe p.X hf]
      congr 1 <;> ring
    simp only [Plate.evalK2, hD, coupling, if_neg hv]
    by_cases h2 : version = 2
    · simp [h2]; ring
    · simp [h2]; ring

theorem formS (p : QPt K) (a : Nat) : (Plate.formBodyForce 1 p.f.N (Plate.getPressure p.rho p.g p.T p.pres (fun _ => 0) true false) p.f.dJW false).1 a 1 =
      p.f.N a * ((p.rho * p.g * p.T + p.pres.sum) * p.f.dJW) ∧
    (Plate.formBodyForce 1 p.f.N (Plate.getPressure p.rho p.g p.T p.pres (fun _ => 0) true false) p.f.dJW false).2 1 = (p.rho * p.g * p.T + p.pres.sum) * p.f.dJW := by
  obtain ⟨e3, e1⟩ := Plate.C78_pressure p.rho p.g p.T p.pres (fun _ => 0) true false
  have e1' := e1 1 (by decide)
  have e2' := e1 2 (by decide)
  simp only [if_true, mul_zero, mul_one, Bool.false_eq_true, if_false] at e3 e1' e2'
  simp only [Plate.formBodyForce, e1', e2', e3, true_and]
  by_cases h : p.rho * p.g * p.T + p.pres.sum = 0
  · simp [h]
  · simp [h]

theorem formM (p : QPt K) (a b : Nat) : Plate.formMassMatrix 1 p.rho p.T p.f.N p.f.dJW a 1 b 1 = p.rho * p.T * p.f.dJW * (p.f.N a * p.f.N b) := by
  simp only [Plate.formMassMatrix]
  by_cases h : p.rho * p.T * p.f.dJW = 0
  · rw [if_pos h, h, zero_mul]
  · rw [if_neg h, if_pos trivial]; ring

theorem dof1 (e : Elm K) (u : Nat → Nat → K) (a : Nat) : dofVec 1 (Struct.loc e.conn u) (a + 1) = u (e.node (a + 1)) 1 := by
  simp [dofVec, Struct.loc, Elm.conn, Nat.mod_one]

theorem evalAll_ok (version n : Nat) (x y : Nat → K) (es : List (Elm K)) (h : Sound n x y es) (e : Elm K) (he : e ∈ es) (pts : List (QPt K)) (hp : ∀ p ∈ pts, p ∈ e.pts) :
    ∀ A : Mats K, A.EM.nr = e.nen → A.EM.nc = e.nen → A.EK.nr = e.nen → A.EK.nc = e.nen →
      ∃ B, evalAll version pts A = .ok B ∧ B.EM.nr = e.nen ∧ B.EM.nc = e.nen ∧ B.EK.nr = e.nen ∧ B.EK.nc = e.nen ∧
        (∀ v u, B.EK.bil (dofVec 1 (Struct.loc e.conn v)) (dofVec 1 (Struct.loc e.conn u)) = A.EK.bil (dofVec 1 (Struct.loc e.conn v)) (dofVec 1 (Struct.loc e.conn u)) +
          (pts.map fun p => p.f.dJW * density version e p v u).sum) ∧
        (∀ v u, B.EM.bil (dofVec 1 (Struct.loc e.conn v)) (dofVec 1 (Struct.loc e.conn u)) = A.EM.bil (dofVec 1 (Struct.loc e.conn v)) (dofVec 1 (Struct.loc e.conn u)) +
          (pts.map fun p => p.rho * p.T * p.f.dJW * (defl e p v * defl e p u)).sum) ∧
        (∀ v, ∑ s ∈ Finset.range e.nen, v (e.node (s + 1)) 1 * B.ES.e (s + 1) = ∑ s ∈ Finset.range e.nen, v (e.node (s + 1)) 1 * A.ES.e (s + 1) +
          (pts.map fun p => defl e p v * ((p.rho * p.g * p.T + p.pres.sum) * p.f.dJW)).sum) ∧
        B.sum = A.sum + (pts.map fun p => (p.rho * p.g * p.T + p.pres.sum) * p.f.dJW).sum := by
  induction pts with
  | nil => exact fun A h1 h2 h3 h4 => ⟨A, rfl, h1, h2, h3, h4, fun v u => by simp, fun v u => by simp, fun v => by simp, by simp⟩
  | cons p l ih =>
    intro A h1 h2 h3 h4
    have hpe := hp p (by simp)
    obtain ⟨s1, s2, s3⟩ := h.size e he p hpe
    obtain ⟨k, k1, k2⟩ := stiffness_eq version p s2 s3 (h.material e he p hpe)
    rw [s1] at k2
    obtain ⟨A1, hA1⟩ : ∃ A1 : Mats K, A1 = ⟨⟨A.EM.nr, A.EM.nc, fun a b => A.EM.e a b + p.rho * p.T * p.f.dJW * (p.f.N a * p.f.N b)⟩,
      ⟨A.EK.nr, A.EK.nc, fun a b => A.EK.e a b + k a b⟩, ⟨A.ES.n, fun a => A.ES.e a + p.f.N a * ((p.rho * p.g * p.T + p.pres.sum) * p.f.dJW)⟩,
      A.sum + (p.rho * p.g * p.T + p.pres.sum) * p.f.dJW⟩ := ⟨_, rfl⟩
    have hev : evalInt version A p = .ok A1 := by
      simp only [evalInt, k1, Res.bind, hA1, formM, (formS p _).1, (formS p 0).2]
    obtain ⟨B, b1, b2, b3, b4, b5, b6, b7, b8, b9⟩ := ih (fun q hq => hp q (by simp [hq])) A1 (by rw [hA1]; exact h1) (by rw [hA1]; exact h2) (by rw [hA1]; exact h3) (by rw [hA1]; exact h4)
    refine ⟨B, by simp only [evalAll, hev, Res.bind]; exact b1, b2, b3, b4, b5, fun v u => ?_, fun v u => ?_, fun v => ?_, ?_⟩
    · rw [b6, List.map_cons, List.sum_cons, ← add_assoc]
      refine congrArg (· + _) ?_
      simp only [hA1, DMat.bil, h3, h4, dof1, mul_add, add_mul, Finset.sum_add_distrib]
      refine congrArg (_ + ·) ?_
      have : ∀ a ∈ Finset.range e.nen, ∀ b ∈ Finset.range e.nen, v (e.node (a + 1)) 1 * k (a + 1) (b + 1) * u (e.node (b + 1)) 1 = _ :=
        fun a ha b hb => by rw [k2 (a + 1) (b + 1) (by omega) (by have := Finset.mem_range.mp ha; omega) (by omega) (by have := Finset.mem_range.mp hb; omega)]
      rw [Finset.sum_congr rfl fun a ha => Finset.sum_congr rfl fun b hb => this a ha b hb]
      simp only [mul_add, add_mul, Finset.sum_add_distrib]
      have pf := fun P R c => prod_form e.nen (fun a => v (e.node a) 1) (fun a => u (e.node a) 1) P R c
      simp only [pf (fun a => p.f.d2N a 1 1) (fun a => p.f.d2N a 1 1), pf (fun a => p.f.d2N a 2 2) (fun a => p.f.d2N a 2 2), pf (fun a => p.f.d2N a 1 1) (fun a => p.f.d2N a 2 2),
        pf (fun a => p.f.d2N a 2 2) (fun a => p.f.d2N a 1 1), pf (fun a => p.f.d2N a 1 2) (fun a => p.f.d2N a 1 2)]
      simp only [density, curv]
      ring
    · rw [b7, List.map_cons, List.sum_cons, ← add_assoc]
      refine congrArg (· + _) ?_
      simp only [hA1, DMat.bil, h1, h2, dof1, mul_add, add_mul, Finset.sum_add_distrib]
      refine congrArg (_ + ·) ?_
      exact prod_form e.nen (fun a => v (e.node a) 1) (fun a => u (e.node a) 1) p.f.N p.f.N _
    · rw [b8, List.map_cons, List.sum_cons, ← add_assoc]
      refine congrArg (· + _) ?_
      simp only [hA1, mul_add, Finset.sum_add_distrib]
      refine congrArg (_ + ·) ?_
      simp only [defl, Finset.sum_mul]
      exact Finset.sum_congr rfl fun a _ => by ring
    · rw [b9, List.map_cons, List.sum_cons, hA1, add_assoc]

theorem matrices_ok (version n : Nat) (x y : Nat → K) (es : List (Elm K)) (h : Sound n x y es) (l : List (Elm K)) (hl : ∀ e ∈ l, e ∈ es) :
    ∃ r, matrices version l = .ok r ∧ (∀ e ∈ r, e.1 ∈ es ∧ e.2.EM.nr = e.1.nen ∧ e.2.EM.nc = e.1.nen ∧ e.2.EK.nr = e.1.nen ∧ e.2.EK.nc = e.1.nen) ∧
      (∀ v u, (r.map fun e => e.2.EK.bil (dofVec 1 (Struct.loc e.1.conn v)) (dofVec 1 (Struct.loc e.1.conn u))).sum = work version l v u) ∧
      (∀ v u, (r.map fun e => e.2.EM.bil (dofVec 1 (Struct.loc e.1.conn v)) (dofVec 1 (Struct.loc e.1.conn u))).sum = kin l v u) ∧
      (∀ v, (r.map fun e => ∑ s ∈ Finset.range e.1.nen, v (e.1.node (s + 1)) 1 * e.2.ES.e (s + 1)).sum = loads l fun e p => defl e p v) ∧
      (r.map fun e => e.2.sum).sum = loads l fun _ _ => 1 := by
  induction l with
  | nil => exact ⟨[], rfl, by simp, fun v u => by simp [work], fun v u => by simp [kin], fun v => by simp [loads], by simp [loads]⟩
  | cons e l ih =>
    obtain ⟨r, h1, h2, h3, h4, h5, h6⟩ := ih fun e he => hl e (by simp [he])
    have he := hl e (by simp)
    obtain ⟨B, b1, b2, b3, b4, b5, b6, b7, b8, b9⟩ := evalAll_ok version n x y es h e he e.pts (fun p hp => hp) ⟨DMat.zero e.nen e.nen, DMat.zero e.nen e.nen, DVec.zero e.nen, 0⟩ rfl rfl rfl rfl
    have z : ∀ f g : Nat → K, (DMat.zero e.nen e.nen : DMat K).bil f g = 0 := fun f g => by simp [DMat.bil, DMat.zero]
    refine ⟨(e, B) :: r, by simp only [matrices, b1, Res.bind, h1], fun q hq => ?_, fun v u => ?_, fun v u => ?_, fun v => ?_, ?_⟩
    · rcases List.mem_cons.mp hq with rfl | hq
      · exact ⟨he, b2, b3, b4, b5⟩
      · exact h2 q hq
    · rw [List.map_cons, List.sum_cons, h3, b6, z, zero_add]; simp only [work, List.map_cons, List.sum_cons]
    · rw [List.map_cons, List.sum_cons, h4, b7, z, zero_add]; simp only [kin, List.map_cons, List.sum_cons]
    · rw [List.map_cons, List.sum_cons, h5, b8]; simp [loads, DVec.zero]
    · rw [List.map_cons, List.sum_cons, h6, b9]; simp [loads]

/-- C137 (virtual work): the assembly succeeds; the forces of the assembled stiffness do the work of the moments in the curvatures, those of the mass matrix the work of the inertia, and the assembled loads
the work of own weight and pressures; the sum of the loads is their integral. -/
theorem C137_virtual_work (version n : Nat) (x y : Nat → K) (es : List (Elm K)) (h : Sound n x y es) : ∃ r, matrices version es = .ok r ∧
    (∀ v w, ∑ a ∈ Finset.range n, v (a + 1) 1 * nodal 1 n (stiff r) w (a + 1) 1 = work version es v w) ∧
    (∀ v w, ∑ a ∈ Finset.range n, v (a + 1) 1 * nodal 1 n (massM r) w (a + 1) 1 = kin es v w) ∧
    (∀ v, ∑ a ∈ Finset.range n, v (a + 1) 1 * loadV r (a + 1) 1 = loads es fun e p => defl e p v) ∧
    (r.map fun e => e.2.sum).sum = loads es fun _ _ => 1 := by
  obtain ⟨r, h1, h2, h3, h4, h5, h6⟩ := matrices_ok version n x y es h es fun _ he => he
  refine ⟨r, h1, fun v w => ?_, fun v w => ?_, fun v => ?_, h6⟩
  · have := Struct.virtual_work_bil 1 n (r.map fun e => (e.1.conn, e.2.EK)) (fun e he => by
      obtain ⟨q, hq, rfl⟩ := List.mem_map.mp he
      exact h.nodes q.1 (h2 q hq).1) (fun e he => by
      obtain ⟨q, hq, rfl⟩ := List.mem_map.mp he
      obtain ⟨-, -, -, g1, g2⟩ := h2 q hq
      simp only [Elm.conn, one_mul, g1, g2, and_self]) v w
    simp only [Finset.sum_range_one, zero_add] at this
    rw [← h3, stiff, this, List.map_map]; rfl
  · have := Struct.virtual_work_bil 1 n (r.map fun e => (e.1.conn, e.2.EM)) (fun e he => by
      obtain ⟨q, hq, rfl⟩ := List.mem_map.mp he
      exact h.nodes q.1 (h2 q hq).1) (fun e he => by
      obtain ⟨q, hq, rfl⟩ := List.mem_map.mp he
      obtain ⟨-, g1, g2, -, -⟩ := h2 q hq
      simp only [Elm.conn, one_mul, g1, g2, and_self]) v w
    simp only [Finset.sum_range_one, zero_add] at this
    rw [← h4, massM, this, List.map_map]; rfl
  · have := Struct.asmV_sum 1 n (r.map fun e => (e.1.conn, e.2.ES)) (fun e he => by
      obtain ⟨q, hq, rfl⟩ := List.mem_map.mp he
      exact h.nodes q.1 (h2 q hq).1) v
    simp only [Finset.sum_range_one, zero_add, one_mul] at this
    rw [← h5, loadV, this, List.map_map]; rfl

theorem density_symm (version : Nat) (e : Elm K) (p : QPt K) (v w : Nat → Nat → K) : density version e p v w = density version e p w v := by
  unfold density; ring

theorem work_symm (version : Nat) (es : List (Elm K)) (v w : Nat → Nat → K) : work version es v w = work version es w v := by
  unfold work; simp only [density_symm version _ _ v w]

theorem kin_symm (es : List (Elm K)) (v w : Nat → Nat → K) : kin es v w = kin es w v := by
  unfold kin; simp only [mul_comm (defl _ _ v)]

theorem curv_lin (e : Elm K) (p : QPt K) (u z : Nat → Nat → K) (c : K) (i j : Nat) : curv e p (fun a k => u a k + c * z a k) i j = curv e p u i j + c * curv e p z i j := by
  simp only [curv, mul_add, Finset.sum_add_distrib, Finset.mul_sum]
  exact congrArg (_ + ·) (Finset.sum_congr rfl fun _ _ => by ring)

theorem work_lin (version : Nat) (es : List (Elm K)) (v u z : Nat → Nat → K) (c : K) : work version es v (fun a i => u a i + c * z a i) = work version es v u + c * work version es v z := by
  have hd : ∀ (e : Elm K) (p : QPt K), p.f.dJW * density version e p v (fun a i => u a i + c * z a i) = p.f.dJW * density version e p v u + c * (p.f.dJW * density version e p v z) := by
    intro e p; simp only [density, curv_lin]; ring
  simp only [work, hd, List.sum_map_add, List.sum_map_mul_left]

theorem rigidity_pos (n : Nat) (x y : Nat → K) (es : List (Elm K)) (h : Sound n x y es) (e : Elm K) (he : e ∈ es) (p : QPt K) (hp : p ∈ e.pts) : 0 < rigidity p := by
  obtain ⟨hE, h0, h1, -⟩ := h.material e he p hp
  have hT := h.thick e he p hp
  have : (0 : K) < 1 - LinIso.nuAt p.mat p.X ^ 2 := by nlinarith
  unfold rigidity; positivity

theorem coupling_bound (version : Nat) (nu : K) (h0 : 0 ≤ nu) (h1 : nu < 1 / 2) : 0 ≤ coupling version nu ∧ coupling version nu ≤ 1 ∧ ((version = 1 ∨ version = 2) → coupling version nu < 1) := by
  unfold coupling
  by_cases hv : version = 1
  · simp only [if_pos hv]; exact ⟨h0, by linarith, fun _ => by linarith⟩
  · by_cases h2 : version = 2
    · simp [hv, h2]
    · simp [hv, h2]

theorem density_nonneg (version n : Nat) (x y : Nat → K) (es : List (Elm K)) (h : Sound n x y es) (e : Elm K) (he : e ∈ es) (p : QPt K) (hp : p ∈ e.pts) (w : Nat → Nat → K) :
    0 ≤ p.f.dJW * density version e p w w ∧ (p.f.dJW * density version e p w w = 0 → curv e p w 1 1 + curv e p w 2 2 = 0 ∨ coupling version (LinIso.nuAt p.mat p.X) = 0) ∧
      (p.f.dJW * density version e p w w = 0 → (version = 1 ∨ version = 2) → curv e p w 1 1 = 0 ∧ curv e p w 2 2 = 0 ∧ curv e p w 1 2 = 0) := by
  obtain ⟨hE, h0, h1, -⟩ := h.material e he p hp
  have hD := rigidity_pos n x y es h e he p hp
  have hw := h.weight e he p hp
  obtain ⟨c0, c1, c2⟩ := coupling_bound version _ h0 h1
  obtain ⟨c, hc⟩ : ∃ c, c = coupling version (LinIso.nuAt p.mat p.X) := ⟨_, rfl⟩
  obtain ⟨A, hA⟩ : ∃ A, A = curv e p w 1 1 := ⟨_, rfl⟩
  obtain ⟨B, hB⟩ : ∃ B, B = curv e p w 2 2 := ⟨_, rfl⟩
  obtain ⟨C, hC⟩ : ∃ C, C = curv e p w 1 2 := ⟨_, rfl⟩
  have e1 : p.f.dJW * density version e p w w = p.f.dJW * rigidity p * ((1 - c) * (A ^ 2 + B ^ 2 + 2 * C ^ 2) + c * (A + B) ^ 2) := by
    simp only [density, hc, hA, hB, hC]; ring
  rw [← hc] at c0 c1 c2
  rw [e1, ← hc, ← hA, ← hB, ← hC]
  have hk : 0 < p.f.dJW * rigidity p := mul_pos hw hD
  have t1 : 0 ≤ (1 - c) * (A ^ 2 + B ^ 2 + 2 * C ^ 2) := mul_nonneg (by linarith) (by positivity)
  have t2 : 0 ≤ c * (A + B) ^ 2 := mul_nonneg c0 (sq_nonneg _)
  refine ⟨mul_nonneg hk.le (add_nonneg t1 t2), fun hz => ?_, fun hz hv => ?_⟩
  · have := (mul_eq_zero.mp hz).resolve_left hk.ne'
    have h2 : c * (A + B) ^ 2 = 0 := by linarith
    rcases mul_eq_zero.mp h2 with h | h
    · exact Or.inr h
    · exact Or.inl (pow_eq_zero_iff (by norm_num) |>.mp h)
  · have := (mul_eq_zero.mp hz).resolve_left hk.ne'
    have h2 : (1 - c) * (A ^ 2 + B ^ 2 + 2 * C ^ 2) = 0 := by linarith
    have h3 := (mul_eq_zero.mp h2).resolve_left (by linarith [c2 hv])
    have a1 := sq_nonneg A
    have a2 := sq_nonneg B
    have a3 := sq_nonneg C
    exact ⟨pow_eq_zero_iff (two_ne_zero) |>.mp (by linarith : A ^ 2 = 0), pow_eq_zero_iff (two_ne_zero) |>.mp (by linarith : B ^ 2 = 0), pow_eq_zero_iff (two_ne_zero) |>.mp (by linarith : C ^ 2 = 0)⟩

/-- A plate without curvatures has no energy and conversely; in the third formulation only the sum of the two curvatures counts. -/
def Flat (version : Nat) (es : List (Elm K)) (w : Nat → Nat → K) : Prop :=
  ∀ e ∈ es, ∀ p ∈ e.pts, if version = 1 ∨ version = 2 then curv e p w 1 1 = 0 ∧ curv e p w 2 2 = 0 ∧ curv e p w 1 2 = 0 else curv e p w 1 1 + curv e p w 2 2 = 0

theorem work_nonneg (version n : Nat) (x y : Nat → K) (es : List (Elm K)) (h : Sound n x y es) (w : Nat → Nat → K) : 0 ≤ work version es w w ∧ (work version es w w = 0 ↔ Flat version es w) := by
  have hin : ∀ e ∈ es, ∀ a ∈ e.pts.map fun p => p.f.dJW * density version e p w w, 0 ≤ a := by
    intro e he a ha
    obtain ⟨p, hp, rfl⟩ := List.mem_map.mp ha
    exact (density_nonneg version n x y es h e he p hp w).1
  have hout : ∀ a ∈ es.map fun e => (e.pts.map fun p => p.f.dJW * density version e p w w).sum, 0 ≤ a := by
    intro a ha
    obtain ⟨e, he, rfl⟩ := List.mem_map.mp ha
    exact Struct.list_sum_nonneg _ (hin e he)
  refine ⟨Struct.list_sum_nonneg _ hout, fun hz e he p hp => ?_, fun hf => ?_⟩
  · have h1 := Struct.list_sum_zero _ hout hz _ (List.mem_map.mpr ⟨e, he, rfl⟩)
    have h2 := Struct.list_sum_zero _ (hin e he) h1 _ (List.mem_map.mpr ⟨p, hp, rfl⟩)
    obtain ⟨-, d1, d2⟩ := density_nonneg version n x y es h e he p hp w
    by_cases hv : version = 1 ∨ version = 2
    · rw [if_pos hv]; exact d2 h2 hv
    · rw [if_neg hv]
      refine (d1 h2).resolve_right ?_
      simp only [not_or] at hv
      simp [coupling, hv]
  · unfold work
    refine List.sum_eq_zero fun a ha => ?_
    obtain ⟨e, he, rfl⟩ := List.mem_map.mp ha
    refine List.sum_eq_zero fun b hb => ?_
    obtain ⟨p, hp, rfl⟩ := List.mem_map.mp hb
    have := hf e he p hp
    by_cases hv : version = 1 ∨ version = 2
    · rw [if_pos hv] at this
      simp [density, this.1, this.2.1, this.2.2]
    · rw [if_neg hv] at this
      simp only [not_or] at hv
      have hb : curv e p w 2 2 = -curv e p w 1 1 := by linear_combination this
      simp [density, coupling, hv.1, hv.2, hb]

theorem work_flat (version n : Nat) (x y : Nat → K) (es : List (Elm K)) (h : Sound n x y es) (c0 cx cy : K) (v w : Nat → Nat → K) (hv : ∀ a, v a 1 = c0 + cx * x a + cy * y a) : work version es v w = 0 := by
  unfold work
  refine List.sum_eq_zero fun a ha => ?_
  obtain ⟨e, he, rfl⟩ := List.mem_map.mp ha
  refine List.sum_eq_zero fun b hb => ?_
  obtain ⟨p, hp, rfl⟩ := List.mem_map.mp hb
  have hz : ∀ i j, curv e p v i j = 0 := by
    intro i j
    obtain ⟨e1, e2, e3⟩ := h.complete e he p hp i j
    simp only [curv, hv]
    have : ∀ a ∈ Finset.range e.nen, p.f.d2N (a + 1) i j * (c0 + cx * x (e.node (a + 1)) + cy * y (e.node (a + 1))) =
        c0 * p.f.d2N (a + 1) i j + cx * (p.f.d2N (a + 1) i j * x (e.node (a + 1))) + cy * (p.f.d2N (a + 1) i j * y (e.node (a + 1))) := fun a _ => by ring
    rw [Finset.sum_congr rfl this, Finset.sum_add_distrib, Finset.sum_add_distrib, ← Finset.mul_sum, ← Finset.mul_sum, ← Finset.mul_sum, e1, e2, e3]
    ring
  simp [density, hz]

/-- C137 (balance): there are no forces of supports at free nodes; the forces of the supports balance the nodal forces, and their moments about every axis in the plane balance those of the nodal forces.
This holds in all formulations. -/
theorem C137_balance (version n : Nat) (x y : Nat → K) (es : List (Elm K)) (h : Sound n x y es) (F g : Nat → Nat → K) (fixed : Nat → Nat → Prop) :
    ∃ r, matrices version es = .ok r ∧ ∀ w, Solves 1 n (stiff r) F g fixed w →
      (∀ a, a < n → ¬ fixed (a + 1) 1 → reaction 1 n (stiff r) F w (a + 1) 1 = 0) ∧
      ∀ c0 cx cy : K, ∑ a ∈ Finset.range n, (c0 + cx * x (a + 1) + cy * y (a + 1)) * (reaction 1 n (stiff r) F w (a + 1) 1 + F (a + 1) 1) = 0 := by
  obtain ⟨r, h1, h2, -⟩ := C137_virtual_work version n x y es h
  refine ⟨r, h1, fun w hw => ⟨fun a ha hf => by rw [reaction, hw.free a 0 ha (by decide) hf, sub_self], fun c0 cx cy => ?_⟩⟩
  rw [← work_flat version n x y es h c0 cx cy (fun a _ => c0 + cx * x a + cy * y a) w fun _ => rfl, ← h2]
  refine Finset.sum_congr rfl fun a _ => ?_
  rw [reaction, sub_add_cancel]

/-- C137 (reported loads): loaded by own weight and pressures, the forces of the supports are opposite to the reported sum of the loads, which is the integral of the loads; and their moments are opposite to
those of the distributed loads. -/
theorem C137_reported (version n : Nat) (x y : Nat → K) (es : List (Elm K)) (h : Sound n x y es) (g : Nat → Nat → K) (fixed : Nat → Nat → Prop) :
    ∃ r, matrices version es = .ok r ∧ (r.map fun e => e.2.sum).sum = loads es (fun _ _ => 1) ∧ ∀ w, Solves 1 n (stiff r) (loadV r) g fixed w →
      ∑ a ∈ Finset.range n, reaction 1 n (stiff r) (loadV r) w (a + 1) 1 + (r.map fun e => e.2.sum).sum = 0 ∧
      ∑ a ∈ Finset.range n, x (a + 1) * reaction 1 n (stiff r) (loadV r) w (a + 1) 1 + loads es (fun e p => ∑ a ∈ Finset.range e.nen, p.f.N (a + 1) * x (e.node (a + 1))) = 0 ∧
      ∑ a ∈ Finset.range n, y (a + 1) * reaction 1 n (stiff r) (loadV r) w (a + 1) 1 + loads es (fun e p => ∑ a ∈ Finset.range e.nen, p.f.N (a + 1) * y (e.node (a + 1))) = 0 := by
  obtain ⟨r, h1, h2, -, h4, h5⟩ := C137_virtual_work version n x y es h
  refine ⟨r, h1, h5, fun w hw => ?_⟩
  have key : ∀ z : Nat → K, (∃ c0 cx cy : K, ∀ a, z a = c0 + cx * x a + cy * y a) →
      ∑ a ∈ Finset.range n, z (a + 1) * reaction 1 n (stiff r) (loadV r) w (a + 1) 1 + loads es (fun e p => ∑ a ∈ Finset.range e.nen, p.f.N (a + 1) * z (e.node (a + 1))) = 0 := by
    rintro z ⟨c0, cx, cy, hz⟩
    have e1 := h4 fun a _ => z a
    have e2 := (h2 (fun a _ => z a) w).trans (work_flat version n x y es h c0 cx cy (fun a _ => z a) w hz)
    have e3 : loads es (fun e p => defl e p fun a _ => z a) = loads es (fun e p => ∑ a ∈ Finset.range e.nen, p.f.N (a + 1) * z (e.node (a + 1))) := rfl
    rw [← e3, ← e1, ← e2, ← Finset.sum_add_distrib]
    refine Finset.sum_congr rfl fun a _ => ?_
    rw [reaction]; ring
  refine ⟨?_, key x ⟨0, 1, 0, fun a => by ring⟩, key y ⟨0, 0, 1, fun a => by ring⟩⟩
  have := key (fun _ => 1) ⟨1, 0, 0, fun a => by ring⟩
  rw [h5, ← this]
  refine congrArg₂ (· + ·) (Finset.sum_congr rfl fun a _ => (one_mul _).symm) ?_
  unfold loads
  refine congrArg List.sum (List.map_congr_left fun e he => congrArg List.sum (List.map_congr_left fun p hp => ?_))
  simp only [mul_one, h.unity e he p hp]

/-- C137 (reciprocity): the work of the loads of one load case in the deflections of another is the same when the cases are exchanged. -/
theorem C137_reciprocity (version n : Nat) (x y : Nat → K) (es : List (Elm K)) (h : Sound n x y es) (F F' : Nat → Nat → K) (fixed : Nat → Nat → Prop) :
    ∃ r, matrices version es = .ok r ∧ ∀ w w', Solves 1 n (stiff r) F (fun _ _ => 0) fixed w → Solves 1 n (stiff r) F' (fun _ _ => 0) fixed w' →
      ∑ a ∈ Finset.range n, F (a + 1) 1 * w' (a + 1) 1 = ∑ a ∈ Finset.range n, F' (a + 1) 1 * w (a + 1) 1 := by
  obtain ⟨r, h1, h2, -⟩ := C137_virtual_work version n x y es h
  refine ⟨r, h1, fun w w' hw hw' => ?_⟩
  have t := Struct.solves_test 1 n (stiff r) F _ fixed w w' hw hw'.held
  have t' := Struct.solves_test 1 n (stiff r) F' _ fixed w' w hw' hw.held
  simp only [dotN, Finset.sum_range_one, zero_add] at t t'
  rw [← t, ← t', h2, h2, work_symm]

/-- C137 (minimum): among all deflections with the prescribed values, a solution has the least potential energy; another deflection has the same only if it differs by a deflection without curvatures
(in the third formulation: without sum of curvatures). -/
theorem C137_minimum (version n : Nat) (x y : Nat → K) (es : List (Elm K)) (h : Sound n x y es) (F g : Nat → Nat → K) (fixed : Nat → Nat → Prop) :
    ∃ r, matrices version es = .ok r ∧ ∀ w v, Solves 1 n (stiff r) F g fixed w → (∀ a, a < n → fixed (a + 1) 1 → v (a + 1) 1 = g (a + 1) 1) →
      1 / 2 * work version es w w - ∑ a ∈ Finset.range n, F (a + 1) 1 * w (a + 1) 1 ≤ 1 / 2 * work version es v v - ∑ a ∈ Finset.range n, F (a + 1) 1 * v (a + 1) 1 ∧
      (1 / 2 * work version es w w - ∑ a ∈ Finset.range n, F (a + 1) 1 * w (a + 1) 1 = 1 / 2 * work version es v v - ∑ a ∈ Finset.range n, F (a + 1) 1 * v (a + 1) 1 ↔
        ∀ e ∈ es, ∀ p ∈ e.pts, if version = 1 ∨ version = 2 then curv e p v 1 1 = curv e p w 1 1 ∧ curv e p v 2 2 = curv e p w 2 2 ∧ curv e p v 1 2 = curv e p w 1 2
          else curv e p v 1 1 + curv e p v 2 2 = curv e p w 1 1 + curv e p w 2 2) := by
  obtain ⟨r, h1, h2, -⟩ := C137_virtual_work version n x y es h
  refine ⟨r, h1, fun w v hw hv => ?_⟩
  obtain ⟨z, hz⟩ : ∃ z : Nat → Nat → K, z = fun a i => v a i + -1 * w a i := ⟨_, rfl⟩
  have hvz : v = fun a i => w a i + 1 * z a i := by subst hz; funext a i; ring
  have t := Struct.solves_test 1 n (stiff r) F g fixed w z hw fun a i ha hi hf => by
    obtain rfl : i = 0 := by omega
    rw [hz]; show v _ _ + -1 * w _ _ = 0
    rw [hv a ha hf, hw.held a 0 ha hi hf]; ring
  simp only [dotN, Finset.sum_range_one, zero_add] at t
  rw [h2] at t
  have e2 : ∑ a ∈ Finset.range n, F (a + 1) 1 * v (a + 1) 1 = ∑ a ∈ Finset.range n, F (a + 1) 1 * w (a + 1) 1 + ∑ a ∈ Finset.range n, F (a + 1) 1 * z (a + 1) 1 := by
    rw [hvz, ← Finset.sum_add_distrib]; exact Finset.sum_congr rfl fun a _ => by ring
  have e3 : work version es v v = work version es w w + 2 * work version es z w + work version es z z := by
    have s1 : work version es v v = work version es v w + 1 * work version es v z := by
      conv_lhs => rw [show work version es v v = work version es v (fun a i => w a i + 1 * z a i) from by rw [← hvz]]
      rw [work_lin]
    have s2 : ∀ q, work version es v q = work version es w q + 1 * work version es z q := by
      intro q
      rw [work_symm version es v q, hvz, work_lin, work_symm version es q w, work_symm version es q z]
    rw [s1, s2, s2, work_symm version es w z]; ring
  obtain ⟨p1, p2⟩ := work_nonneg version n x y es h z
  have hfl : Flat version es z ↔ ∀ e ∈ es, ∀ p ∈ e.pts, if version = 1 ∨ version = 2 then curv e p v 1 1 = curv e p w 1 1 ∧ curv e p v 2 2 = curv e p w 2 2 ∧ curv e p v 1 2 = curv e p w 1 2
          else curv e p v 1 1 + curv e p v 2 2 = curv e p w 1 1 + curv e p w 2 2 := by
    have hc : ∀ (e : Elm K) (p : QPt K) i j, curv e p z i j = curv e p v i j - curv e p w i j := fun e p i j => by rw [hz, curv_lin]; ring
    unfold Flat
    refine forall₄_congr fun e _ p _ => ?_
    by_cases hv : version = 1 ∨ version = 2
    · simp only [if_pos hv, hc, sub_eq_zero]
    · simp only [if_neg hv, hc]
      constructor
      · intro hh; linear_combination hh
      · intro hh; linear_combination hh
  rw [e2, e3, ← t, ← hfl, ← p2]
  constructor
  · linarith
  · constructor
    · intro hh; linarith
    · intro hh; rw [hh]; ring

/-- C137 (exactly one solution): if the supports admit no deflection without curvatures (in the third formulation: without sum of curvatures), then for all loads and prescribed deflections there is exactly
one solution. -/
theorem C137_exists (version n : Nat) (x y : Nat → K) (es : List (Elm K)) (h : Sound n x y es) (F g : Nat → Nat → K) (fixed : Nat → Nat → Prop)
    (hsup : ∀ v : Nat → Nat → K, (∀ a, a < n → fixed (a + 1) 1 → v (a + 1) 1 = 0) →
      (∀ e ∈ es, ∀ p ∈ e.pts, if version = 1 ∨ version = 2 then curv e p v 1 1 = 0 ∧ curv e p v 2 2 = 0 ∧ curv e p v 1 2 = 0 else curv e p v 1 1 + curv e p v 2 2 = 0) → ∀ a, a < n → v (a + 1) 1 = 0) :
    ∃ r, matrices version es = .ok r ∧ ∃ w, Solves 1 n (stiff r) F g fixed w ∧ ∀ v, Solves 1 n (stiff r) F g fixed v → ∀ a, a < n → v (a + 1) 1 = w (a + 1) 1 := by
  obtain ⟨r, h1, h2, -⟩ := C137_virtual_work version n x y es h
  have := Struct.exactly_one 1 n (stiff r) F g fixed fun v hv hz a i ha hi => by
    simp only [Finset.sum_range_one, zero_add] at hz
    rw [h2] at hz
    obtain rfl : i = 0 := by omega
    exact hsup v (fun a ha hf => hv a 0 ha (by decide) hf) ((work_nonneg version n x y es h v).2.mp hz) a ha
  obtain ⟨w, w1, w2⟩ := this
  exact ⟨r, h1, w, w1, fun v hv a ha => w2 v hv a 0 ha (by decide)⟩

/-- C137 (never more than the supports ask for): conversely, if the supports admit a deflection that is not zero and has no curvatures (third formulation: no sum of curvatures), then adding it to a solution gives
another one, and there is no solution at all unless the loads do no work in it. -/
theorem C137_loose (version n : Nat) (x y : Nat → K) (es : List (Elm K)) (h : Sound n x y es) (F g : Nat → Nat → K) (fixed : Nat → Nat → Prop) (z : Nat → Nat → K)
    (hz : ∀ a, a < n → fixed (a + 1) 1 → z (a + 1) 1 = 0)
    (hf : ∀ e ∈ es, ∀ p ∈ e.pts, if version = 1 ∨ version = 2 then curv e p z 1 1 = 0 ∧ curv e p z 2 2 = 0 ∧ curv e p z 1 2 = 0 else curv e p z 1 1 + curv e p z 2 2 = 0) :
    ∃ r, matrices version es = .ok r ∧ ∀ w, Solves 1 n (stiff r) F g fixed w →
      ∑ a ∈ Finset.range n, F (a + 1) 1 * z (a + 1) 1 = 0 ∧ ∀ c : K, Solves 1 n (stiff r) F g fixed (fun a i => w a i + c * z a i) := by
  obtain ⟨r, h1, h2, -⟩ := C137_virtual_work version n x y es h
  have hw0 : ∀ v, work version es v z = 0 := by
    intro v
    unfold work
    refine List.sum_eq_zero fun a ha => ?_
    obtain ⟨e, he, rfl⟩ := List.mem_map.mp ha
    refine List.sum_eq_zero fun b hb => ?_
    obtain ⟨p, hp, rfl⟩ := List.mem_map.mp hb
    have := hf e he p hp
    by_cases hv : version = 1 ∨ version = 2
    · rw [if_pos hv] at this
      simp [density, this.1, this.2.1, this.2.2]
    · rw [if_neg hv] at this
      simp only [not_or] at hv
      have hb : curv e p z 2 2 = -curv e p z 1 1 := by linear_combination this
      simp [density, coupling, hv.1, hv.2, hb]
  have hn0 : ∀ a, a < n → nodal 1 n (stiff r) z (a + 1) 1 = 0 := by
    intro a ha
    rw [← hw0 (fun b _ => if b = a + 1 then 1 else 0), ← h2]
    rw [Finset.sum_eq_single a]
    · simp
    · intro b _ hb; simp [hb]
    · intro hn; exact absurd (Finset.mem_range.mpr ha) hn
  refine ⟨r, h1, fun w hw => ⟨?_, fun c => ⟨fun a i ha hi hfr => ?_, fun a i ha hi hfx => ?_⟩⟩⟩
  · have t := Struct.solves_test 1 n (stiff r) F g fixed w z hw fun a i ha hi hf => by
      obtain rfl : i = 0 := by omega
      exact hz a ha hf
    simp only [dotN, Finset.sum_range_one, zero_add] at t
    rw [← t, h2, work_symm, hw0]
  · obtain rfl : i = 0 := by omega
    have : nodal 1 n (stiff r) (fun a i => w a i + c * z a i) (a + 1) 1 = nodal 1 n (stiff r) w (a + 1) 1 + c * nodal 1 n (stiff r) z (a + 1) 1 := by
      simp only [nodal, Finset.sum_range_one, mul_add, Finset.sum_add_distrib, Finset.mul_sum]
      exact congrArg (_ + ·) (Finset.sum_congr rfl fun _ _ => by ring)
    rw [zero_add, this, hn0 a ha, mul_zero, add_zero]
    exact hw.free a 0 ha (by decide) hfr
  · obtain rfl : i = 0 := by omega
    show w (a + 1) (0 + 1) + c * z (a + 1) (0 + 1) = _
    rw [hw.held a 0 ha (by decide) hfx, hz a ha hfx, mul_zero, add_zero]

theorem kin_nonneg (es : List (Elm K)) (hp : ∀ e ∈ es, ∀ p ∈ e.pts, 0 ≤ p.rho ∧ 0 < p.T ∧ 0 < p.f.dJW) (w : Nat → Nat → K) : 0 ≤ kin es w w := by
  unfold kin
  refine Struct.list_sum_nonneg _ fun a ha => ?_
  obtain ⟨e, he, rfl⟩ := List.mem_map.mp ha
  refine Struct.list_sum_nonneg _ fun a ha => ?_
  obtain ⟨p, hpp, rfl⟩ := List.mem_map.mp ha
  obtain ⟨r0, r1, r2⟩ := hp e he p hpp
  exact mul_nonneg (mul_nonneg (mul_nonneg r0 r1.le) r2.le) (mul_self_nonneg _)

end

/-- C137 (free vibrations): if every admissible deflection other than zero moves mass, there are as many modes as free nodes, all with squares of frequencies that are not negative, orthogonal with respect to the
mass, and every admissible deflection is their combination; the lowest frequency is the least quotient of bending energy and kinetic energy. -/
theorem C137_modes (version n : Nat) (x y : Nat → ℝ) (es : List (Elm ℝ)) (h : Sound n x y es) (fixed : Nat → Nat → Prop) (hr : ∀ e ∈ es, ∀ p ∈ e.pts, 0 ≤ p.rho)
    (hpos : ∀ v : Nat → Nat → ℝ, (∀ a i, a < n → i < 1 → fixed (a + 1) (i + 1) → v (a + 1) (i + 1) = 0) → kin es v v = 0 → ∀ a i, a < n → i < 1 → v (a + 1) (i + 1) = 0) :
    ∃ r, matrices version es = .ok r ∧ ∃ (_ : Fintype (Free 1 n fixed)) (_ : DecidableEq (Free 1 n fixed)) (lam : Free 1 n fixed → ℝ) (phi : Free 1 n fixed → Nat → Nat → ℝ),
      (∀ s, Mode 1 n (stiff r) (massM r) fixed (lam s) (phi s) ∧ 0 ≤ lam s) ∧ (∀ s t, kin es (phi s) (phi t) = if s = t then 1 else 0) ∧
      ∀ v, (∀ a i, a < n → i < 1 → fixed (a + 1) (i + 1) → v (a + 1) (i + 1) = 0) →
        (∀ a, a < n → v (a + 1) 1 = ∑ s, kin es (phi s) v * phi s (a + 1) 1) ∧
        work version es v v = ∑ s, lam s * kin es (phi s) v ^ 2 ∧ ∀ low, (∀ s, low ≤ lam s) → low * kin es v v ≤ work version es v v := by
  obtain ⟨r, h1, h2, h3, -⟩ := C137_virtual_work version n x y es h
  obtain ⟨f1, f2, lam, phi, m1, m2, m3⟩ := Struct.exists_modes 1 n (stiff r) (massM r) (work version es) (kin es)
    (fun v u => by simp only [Finset.sum_range_one, zero_add]; exact h2 v u) (fun v u => by simp only [Finset.sum_range_one, zero_add]; exact h3 v u) (work_symm version es) (kin_symm es) fixed
    (fun v => kin_nonneg es (fun e he p hp => ⟨hr e he p hp, h.thick e he p hp, h.weight e he p hp⟩) v) hpos
  refine ⟨r, h1, f1, f2, lam, phi, fun s => ⟨m1 s, ?_⟩, m2, fun v hv => ?_⟩
  · have t := Struct.mode_test 1 n _ _ fixed (lam s) (phi s) (phi s) (m1 s) (m1 s).held
    simp only [Finset.sum_range_one, zero_add] at t
    rw [h2, h3, m2, if_pos rfl, mul_one] at t
    rw [← t]; exact (work_nonneg version n x y es h (phi s)).1
  · obtain ⟨v1, v2, -, v4⟩ := m3 v hv
    exact ⟨fun a ha => v1 a 0 ha (by decide), v2, v4⟩

/-! ### A square plate -/

/-- A bilinear square of side one, with one integration point, a thickness of one and a load. -/
def square : Elm K := ⟨4, fun s => s, [⟨⟨4, fun _ => 1 / 4, 2, 2, fun a i j => if i ≠ j then (if a = 1 ∨ a = 3 then 1 else -1) else 0, none, 1, ⟨0, 0, 0⟩⟩,
  { Emod := 12, nu := 1 / 4, planeStress := true }, ⟨0, 0, 0⟩, 1, 1, 10, [2]⟩]⟩

/-- Coordinates of the corners. -/
def sx (a : Nat) : K := if a = 2 ∨ a = 3 then 1 else 0
def sy (a : Nat) : K := if a = 3 ∨ a = 4 then 1 else 0

theorem square_sound [LinearOrder K] [IsStrictOrderedRing K] : Sound 4 (sx : Nat → K) sy [square] := by
  refine ⟨?_, ?_, ?_, ?_, ?_, ?_, ?_⟩ <;> intro e he <;> obtain rfl := List.mem_singleton.mp he
  · intro s hs
    have : s < 4 := hs
    simp only [square]; omega
  all_goals intro p hp; obtain rfl := List.mem_singleton.mp hp
  · exact ⟨rfl, rfl, rfl⟩
  · norm_num [square, Finset.sum_range_succ]
  · intro i j
    by_cases h : i = j
    · subst h; simp
    · simp [square, Finset.sum_range_succ, h, sx, sy]
  · refine ⟨?_, ?_, ?_, rfl, rfl, rfl⟩
    · norm_num [LinIso.Mat.young]
    · norm_num [LinIso.nuAt]
    · norm_num [LinIso.nuAt]
  · norm_num
  · norm_num

/-- A deflected corner. -/
example : work 1 [(square : Elm ℚ)] (fun a _ => if a = 4 then 1 else 0) (fun a _ => if a = 4 then 1 else 0) = 8 / 5 ∧ loads [(square : Elm ℚ)] (fun _ _ => 1) = 12 := by
  constructor
  · norm_num [work, density, rigidity, curv, coupling, square, Finset.sum_range_succ, LinIso.Mat.young, LinIso.nuAt]
  · norm_num [loads, square]

/-- The hypotheses of the free vibrations hold for the square with three corners held. -/
example : Sound 4 (sx : Nat → ℝ) sy [square] ∧ (∀ e ∈ [(square : Elm ℝ)], ∀ p ∈ e.pts, 0 ≤ p.rho) ∧
    ∀ v : Nat → Nat → ℝ, (∀ a i, a < 4 → i < 1 → a + 1 ≤ 3 → v (a + 1) (i + 1) = 0) → kin [square] v v = 0 → ∀ a i, a < 4 → i < 1 → v (a + 1) (i + 1) = 0 := by
  refine ⟨square_sound, fun e he p hp => ?_, fun v h0 hk a i ha hi => ?_⟩
  · obtain rfl := List.mem_singleton.mp he
    obtain rfl := List.mem_singleton.mp hp
    norm_num
  · obtain rfl : i = 0 := by omega
    have e0 := h0 0 0 (by decide) (by decide) (by decide)
    have e1 := h0 1 0 (by decide) (by decide) (by decide)
    have e2 := h0 2 0 (by decide) (by decide) (by decide)
    simp only [zero_add, Nat.reduceAdd] at e0 e1 e2
    simp [kin, defl, square, Finset.sum_range_succ, e0, e1, e2] at hk
    interval_cases a <;> simp_all

/-- C137 (formulations): three corners of a square plate held, which admits no rigid deflection, but lets the plate twist. The first two formulations have exactly one solution for all loads. The third has no stiffness
against twisting: for a load on the free corner there is no solution. -/
theorem C137_twist : ∃ (n : Nat) (x y : Nat → ℚ) (es : List (Elm ℚ)) (fixed : Nat → Nat → Prop), Sound n x y es ∧
    (∀ c0 cx cy : ℚ, (∀ a, a < n → fixed (a + 1) 1 → c0 + cx * x (a + 1) + cy * y (a + 1) = 0) → c0 = 0 ∧ cx = 0 ∧ cy = 0) ∧
    (∀ version, version = 1 ∨ version = 2 → ∀ F g : Nat → Nat → ℚ, ∃ r, matrices version es = .ok r ∧
      ∃ w, Solves 1 n (stiff r) F g fixed w ∧ ∀ v, Solves 1 n (stiff r) F g fixed v → ∀ a, a < n → v (a + 1) 1 = w (a + 1) 1) ∧
    ∃ F : Nat → Nat → ℚ, ∃ r, matrices 3 es = .ok r ∧ ¬ ∃ w, Solves 1 n (stiff r) F (fun _ _ => 0) fixed w := by
  refine ⟨4, sx, sy, [square], fun a _ => a ≤ 3, square_sound, fun c0 cx cy h => ?_, fun version hv F g => ?_, fun a _ => if a = 4 then 1 else 0, ?_⟩
  · have h1 := h 0 (by decide) (by decide)
    have h2 := h 1 (by decide) (by decide)
    have h3 := h 2 (by decide) (by decide)
    norm_num [sx, sy] at h1 h2 h3
    exact ⟨h1, by linarith, by linarith⟩
  · refine C137_exists (K := ℚ) version 4 sx sy [square] square_sound F g _ fun v h0 hc => ?_
    have e0 := h0 0 (by decide) (by decide)
    have e1 := h0 1 (by decide) (by decide)
    have e2 := h0 2 (by decide) (by decide)
    have := hc square (by simp) _ (List.mem_singleton.mpr rfl)
    rw [if_pos hv] at this
    have t := this.2.2
    simp [curv, square, Finset.sum_range_succ] at t e0 e1 e2
    intro a ha
    interval_cases a <;> simp_all
  · obtain ⟨r, h1, h2⟩ := C137_loose (K := ℚ) 3 4 sx sy [square] square_sound (fun a _ => if a = 4 then 1 else 0) (fun _ _ => 0) (fun a _ => a ≤ 3) (fun a _ => if a = 4 then 1 else 0)
      (fun a _ hf => if_neg (by omega)) (fun e he p hp => by
        obtain rfl := List.mem_singleton.mp he
        obtain rfl := List.mem_singleton.mp hp
        simp [curv])
    refine ⟨r, h1, fun ⟨w, hw⟩ => ?_⟩
    have := (h2 w hw).1
    simp [Finset.sum_range_succ] at this

end Verif.PlateStatic
