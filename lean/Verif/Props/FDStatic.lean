/- Property C140: equilibrium of models with large deformations. -/
import Verif.Model.FDStatic
import Verif.Props.FDEnergy
import Verif.Props.Vibration

set_option linter.unusedVariables false

namespace Verif.Finite

open Verif.Cont Verif.ContSpec Verif.FiniteSpec Verif.Fbar Verif.Struct Filter Topology

/-! ### Specification -/

/-- The displacements at the nodes of an element. -/
def FElm.at (e : FElm) (u : Nat → Nat → ℝ) : Nat → Nat → ℝ := fun s i => u (e.node s) i

/-- The nodes of the elements are nodes of the model. -/
def Nodes (n : Nat) (es : List FElm) : Prop := ∀ e ∈ es, 0 < e.nen ∧ ∀ s, s < e.nen → 1 ≤ e.node (s + 1) ∧ e.node (s + 1) ≤ n

/-- An isoparametric element whose material can be evaluated in the state `u`; where the formulation needs it, volume ratios are not zero. -/
def Ready (d : Nat) (tol : ℝ) (X u : Nat → Nat → ℝ) (e : FElm) : Prop :=
  match e.kind with
  | .total pts => ∀ p ∈ pts, Iso d e.nen (e.at X) p.1 ∧ ∃ C S, p.2 (defF d (grad e.nen (e.at u) p.1.dN.e)) (greenV d (grad e.nen (e.at u) p.1.dN.e)) = .ok (C, S) ∧ C.nc = d * (d + 1) / 2
  | .updated pts => ∀ p ∈ pts, Iso d e.nen (e.at X) p.1 ∧ ratio d (grad e.nen (e.at u) p.1.dN.e) ≠ 0 ∧
      ∃ C S, p.2 (defF d (grad e.nen (e.at u) p.1.dN.e)) (greenV d (grad e.nen (e.at u) p.1.dN.e)) = .ok (C, S)
  | .fbar smp pts => FbOk d e.nen tol (e.at X) smp pts (e.at u) ∧
      ∃ (c : Mat ℝ → (Nat → Nat → ℝ) → DMat ℝ) (sig : Mat ℝ → (Nat → Nat → ℝ) → Nat → ℝ), ∀ p ∈ pts, ∀ F E, (lead d F).det ≠ 0 → p.2.1 F E = .ok (c p.2.1 F, sig p.2.1 F)

/-- The material does not depend on the orientation of the deformed element: for total Lagrangian elements its stresses depend on the strains only, for the others it is objective. -/
def Neutral (d : Nat) (u : Nat → Nat → ℝ) (e : FElm) : Prop :=
  match e.kind with
  | .total pts => ∀ p ∈ pts, ∀ F F', p.2 F (greenV d (grad e.nen (e.at u) p.1.dN.e)) = p.2 F' (greenV d (grad e.nen (e.at u) p.1.dN.e))
  | .updated pts => ∀ p ∈ pts, Objective d p.2
  | .fbar _ pts => ∀ p ∈ pts, Objective d p.2.1

/-- A total or updated Lagrangian element whose material accepts the undeformed state, in all orientations. -/
def Rests (d : Nat) (X : Nat → Nat → ℝ) (e : FElm) : Prop :=
  match e.kind with
  | .total pts => ∀ p ∈ pts, Iso d e.nen (e.at X) p.1 ∧ ∀ F, ∃ C S, p.2 F (fun _ => 0) = .ok (C, S) ∧ C.nc = d * (d + 1) / 2
  | .updated pts => ∀ p ∈ pts, Iso d e.nen (e.at X) p.1 ∧ ∀ F, ∃ C S, p.2 F (fun _ => 0) = .ok (C, S)
  | .fbar _ _ => False

/-- A total or updated Lagrangian element whose material tangent is the derivative of the stresses (C112), strained above the tolerance of the code. -/
def Smooth (d : Nat) (tol : ℝ) (u : Nat → Nat → ℝ) (e : FElm) : Prop :=
  match e.kind with
  | .total pts => ∀ p ∈ pts, p.1.dN.nr = e.nen ∧ p.1.dN.nc = d ∧ (∃ S C, Hyper d p.2 S C) ∧
      ((∃ i, 1 ≤ i ∧ i ≤ d * (d + 1) / 2 ∧ tol < |greenV d (grad e.nen (e.at u) p.1.dN.e) i|) ∨ tol = 0)
  | .updated pts => ∀ p ∈ pts, p.1.dN.nr = e.nen ∧ p.1.dN.nc = d ∧ (∃ S C sig c, Spatial d p.2 S C sig c) ∧ (lead d (defF d (grad e.nen (e.at u) p.1.dN.e))).det ≠ 0 ∧
      ((∃ i, 1 ≤ i ∧ i ≤ d * (d + 1) / 2 ∧ tol < |greenV d (grad e.nen (e.at u) p.1.dN.e) i|) ∨ (tol = 0 ∧ ∀ i j, i < d → j < d → grad e.nen (e.at u) p.1.dN.e (i + 1) (j + 1) = 0))
  | .fbar _ _ => False

/-! ### Assembly -/

theorem assemble_ok (d : Nat) (tol epsR : ℝ) (u : Nat → Nat → ℝ) (es : List FElm) (A : FElm → DMat ℝ) (f : FElm → DVec ℝ) (h : ∀ e ∈ es, e.eval d tol epsR u = .ok (A e, f e)) :
    assemble d tol epsR u es = .ok (es.map fun e => (e, A e, f e)) := by
  induction es with
  | nil => rfl
  | cons e l ih => simp only [assemble, h e (by simp), Res.bind, ih fun e he => h e (by simp [he]), List.map_cons]

instance : Inhabited (DMat ℝ) := ⟨DMat.zero 0 0⟩
instance : Inhabited (DVec ℝ) := ⟨DVec.zero 0⟩

theorem assemble_pick (d : Nat) (tol epsR : ℝ) (u : Nat → Nat → ℝ) (es : List FElm) (R : FElm → DMat ℝ → DVec ℝ → Prop) (h : ∀ e ∈ es, ∃ A f, e.eval d tol epsR u = .ok (A, f) ∧ R e A f) :
    ∃ (A : FElm → DMat ℝ) (f : FElm → DVec ℝ), assemble d tol epsR u es = .ok (es.map fun e => (e, A e, f e)) ∧ ∀ e ∈ es, e.eval d tol epsR u = .ok (A e, f e) ∧ R e (A e) (f e) := by
  obtain ⟨A, f, hA⟩ := pick2 es (fun e A f => e.eval d tol epsR u = .ok (A, f) ∧ R e A f) h
  exact ⟨A, f, assemble_ok d tol epsR u es A f fun e he => (hA e he).1, hA⟩

theorem eval_balanced (d : Nat) (hd : d = 2 ∨ d = 3) (tol epsR : ℝ) (X u : Nat → Nat → ℝ) (e : FElm) (hn : 0 < e.nen) (h : Ready d tol X u e) :
    ∃ A f, e.eval d tol epsR u = .ok (A, f) ∧ Balanced d e.nen (fun s i => X (e.node s) i + u (e.node s) i) f := by
  obtain ⟨nen, node, kind⟩ := e
  cases kind with
  | total pts =>
    obtain ⟨A, f, h1, -, h2⟩ := C122_total_balance d hd nen hn tol epsR pts _ _ h
    exact ⟨A, f, h1, h2⟩
  | updated pts =>
    obtain ⟨A, f, h1, -, h2⟩ := C122_updated_balance d hd nen hn tol epsR pts _ _ h
    exact ⟨A, f, h1, h2⟩
  | fbar smp pts =>
    obtain ⟨ho, c, sig, hm⟩ := h
    obtain ⟨A, f, h1, -, h2⟩ := C122_fbar_balance d hd nen hn tol epsR _ smp pts _ ho c sig hm
    exact ⟨A, f, h1, h2⟩

/-- C140 (balance): in every converged state of a model with large deformations, in each of the three formulations, there are no support forces at free degrees of freedom, and support forces (minus the residual) and
loads have no resultant and, in the deformed configuration, no moment about any point. -/
theorem C140_balance (d : Nat) (hd : d = 2 ∨ d = 3) (n : Nat) (tol epsR : ℝ) (X : Nat → Nat → ℝ) (es : List FElm) (hn : Nodes n es) (F g : Nat → Nat → ℝ) (fixed : Nat → Nat → Prop) (u : Nat → Nat → ℝ)
    (h : ∀ e ∈ es, Ready d tol X u e) (hu : Converged d n tol epsR es F g fixed u) : ∃ r, assemble d tol epsR u es = .ok r ∧
      (∀ a i, a < n → i < d → ¬ fixed (a + 1) (i + 1) → -residual d F r (a + 1) (i + 1) = 0) ∧
      (∀ i, 1 ≤ i → i ≤ d → ∑ a ∈ Finset.range n, (-residual d F r (a + 1) i + F (a + 1) i) = 0) ∧
      ∀ (c : Nat → ℝ) i j, 1 ≤ i → i ≤ d → 1 ≤ j → j ≤ d → ∑ a ∈ Finset.range n, ((X (a + 1) i + u (a + 1) i - c i) * (-residual d F r (a + 1) j + F (a + 1) j) -
        (X (a + 1) j + u (a + 1) j - c j) * (-residual d F r (a + 1) i + F (a + 1) i)) = 0 := by
  obtain ⟨r, hr, h1, -⟩ := hu
  obtain ⟨A, f, e1, e2⟩ := assemble_pick d tol epsR u es _ fun e he => eval_balanced d hd tol epsR X u e (hn e he).1 (h e he)
  rw [hr] at e1; cases e1
  refine ⟨_, hr, fun a i ha hi hf => by rw [h1 a i ha hi hf, neg_zero], ?_⟩
  have hb := asmV_balance d n (fun a i => X a i + u a i) ((es.map fun e => (e, A e, f e)).map fun e => (e.1.conn, e.2.2)) (fun q hq => by
    simp only [List.map_map, List.mem_map] at hq
    obtain ⟨e, he, rfl⟩ := hq
    exact (hn e he).2) (fun q hq => by
    simp only [List.map_map, List.mem_map] at hq
    obtain ⟨e, he, rfl⟩ := hq
    exact (e2 e he).2)
  have hres : ∀ a i, -residual d F (es.map fun e => (e, A e, f e)) a i + F a i = -asmV d ((es.map fun e => (e, A e, f e)).map fun e => (e.1.conn, e.2.2)) a i := fun a i => by unfold residual; ring
  simp only [hres]
  refine ⟨fun i i1 i2 => by rw [Finset.sum_neg_distrib, hb.1 i i1 i2, neg_zero], fun c i j i1 i2 j1 j2 => ?_⟩
  have := hb.2 c i j i1 i2 j1 j2
  rw [← neg_zero, ← this, ← Finset.sum_neg_distrib]
  exact Finset.sum_congr rfl fun a _ => by ring

/-! ### Rotations -/

theorem eval_turned (d : Nat) (hd : d = 2 ∨ d = 3) (tol epsR : ℝ) (X u u' Q : Nat → Nat → ℝ) (c : Nat → ℝ) (hQ : Rot d Q) (n : Nat) (ht : Turned d n Q c (fun a i => X a i + u a i) (fun a i => X a i + u' a i)) (e : FElm)
    (hn : 0 < e.nen ∧ ∀ s, s < e.nen → 1 ≤ e.node (s + 1) ∧ e.node (s + 1) ≤ n) (h : Ready d tol X u e) (hm : Neutral d u e) :
    ∃ A f A' f', e.eval d tol epsR u = .ok (A, f) ∧ e.eval d tol epsR u' = .ok (A', f') ∧ TurnedForce d e.nen Q f f' := by
  have ht' : Turned d e.nen Q c (fun a i => e.at X a i + e.at u a i) (fun a i => e.at X a i + e.at u' a i) := by
    intro s i hs hi
    obtain ⟨h1, h2⟩ := hn.2 s hs
    have := ht (e.node (s + 1) - 1) i (by omega) hi
    rw [Nat.sub_add_cancel h1] at this
    exact this
  obtain ⟨nen, node, kind⟩ := e
  cases kind with
  | total pts =>
    obtain ⟨A, f, A', f', h1, h2, h3, -⟩ := C122_total_turn d hd nen hn.1 tol epsR pts _ _ _ Q c hQ ht' fun p hp => by
      obtain ⟨q1, C, S, q2, q3⟩ := h p hp
      exact ⟨q1, C, S, fun F => (hm p hp F _).trans q2, q3⟩
    exact ⟨A, f, A', f', h1, h2, h3⟩
  | updated pts =>
    obtain ⟨A, f, A', f', h1, h2, h3⟩ := C122_updated_turn d hd nen hn.1 tol epsR pts _ _ _ Q c hQ ht' fun p hp => by
      obtain ⟨q1, q2, q3⟩ := h p hp
      exact ⟨q1, q2, hm p hp, q3⟩
    exact ⟨A, f, A', f', h1, h2, h3⟩
  | fbar smp pts =>
    obtain ⟨ho, cc, sig, hc⟩ := h
    obtain ⟨A, f, A', f', h1, h2, h3⟩ := C122_fbar_turn d hd nen hn.1 tol epsR _ smp pts _ _ Q c hQ ht' ho cc sig fun p hp => ⟨hc p hp, hm p hp⟩
    exact ⟨A, f, A', f', h1, h2, h3⟩

theorem pick4 {α β γ : Type} [Inhabited β] [Inhabited γ] (pts : List α) (R : α → β → γ → β → γ → Prop) (h : ∀ p ∈ pts, ∃ b c b' c', R p b c b' c') :
    ∃ (B : α → β) (C : α → γ) (B' : α → β) (C' : α → γ), ∀ p ∈ pts, R p (B p) (C p) (B' p) (C' p) := by
  obtain ⟨B, C, h1⟩ := pick2 pts (fun p b c => ∃ b' c', R p b c b' c') h
  obtain ⟨B', C', h2⟩ := pick2 pts (fun p b' c' => R p (B p) (C p) b' c') h1
  exact ⟨B, C, B', C', h2⟩

/-- C140 (orientation): if the nodes of a deformed model are turned and moved together, and the loads are turned with them, the residual is turned with them too: a converged state becomes a converged state (supports hold
nodes in all directions), with support forces that are turned. -/
theorem C140_turn (d : Nat) (hd : d = 2 ∨ d = 3) (n : Nat) (tol epsR : ℝ) (X : Nat → Nat → ℝ) (es : List FElm) (hn : Nodes n es) (u u' Q : Nat → Nat → ℝ) (c : Nat → ℝ) (hQ : Rot d Q)
    (ht : Turned d n Q c (fun a i => X a i + u a i) (fun a i => X a i + u' a i)) (h : ∀ e ∈ es, Ready d tol X u e ∧ Neutral d u e) (F F' : Nat → Nat → ℝ)
    (hF : ∀ a i, a < n → i < d → F' (a + 1) (i + 1) = ∑ k ∈ Finset.range d, Q (i + 1) (k + 1) * F (a + 1) (k + 1)) :
    (∃ r r', assemble d tol epsR u es = .ok r ∧ assemble d tol epsR u' es = .ok r' ∧
      ∀ a i, a < n → i < d → residual d F' r' (a + 1) (i + 1) = ∑ k ∈ Finset.range d, Q (i + 1) (k + 1) * residual d F r (a + 1) (k + 1)) ∧
    ∀ held : Nat → Prop, Converged d n tol epsR es F u (fun a _ => held a) u → Converged d n tol epsR es F' u' (fun a _ => held a) u' := by
  obtain ⟨A, f, A', f', hev⟩ := pick4 es (fun e A f A' f' => e.eval d tol epsR u = .ok (A, f) ∧ e.eval d tol epsR u' = .ok (A', f') ∧ TurnedForce d e.nen Q f f')
    fun e he => eval_turned d hd tol epsR X u u' Q c hQ n ht e (hn e he) (h e he).1 (h e he).2
  have hr := assemble_ok d tol epsR u es A f fun e he => (hev e he).1
  have hr' := assemble_ok d tol epsR u' es A' f' fun e he => (hev e he).2.1
  have hres : ∀ a i, a < n → i < d → residual d F' (es.map fun e => (e, A' e, f' e)) (a + 1) (i + 1) = ∑ k ∈ Finset.range d, Q (i + 1) (k + 1) * residual d F (es.map fun e => (e, A e, f e)) (a + 1) (k + 1) := by
    intro a i ha hi
    unfold residual
    simp only [mul_add, Finset.sum_add_distrib]
    rw [hF a i ha hi]
    congr 1
    unfold asmV
    simp only [List.map_map]
    have : ∀ l : List FElm, (∀ e ∈ l, e ∈ es) → (l.map ((fun e : Struct.Elm ℝ × DVec ℝ => ∑ s ∈ Finset.range e.1.nen, if e.1.node (s + 1) = a + 1 then e.2.e (d * s + (i + 1)) else 0) ∘
          (fun e : FElm × DMat ℝ × DVec ℝ => (e.1.conn, e.2.2)) ∘ fun e => (e, A' e, f' e))).sum =
        ∑ k ∈ Finset.range d, Q (i + 1) (k + 1) * (l.map ((fun e : Struct.Elm ℝ × DVec ℝ => ∑ s ∈ Finset.range e.1.nen, if e.1.node (s + 1) = a + 1 then e.2.e (d * s + (k + 1)) else 0) ∘
          (fun e : FElm × DMat ℝ × DVec ℝ => (e.1.conn, e.2.2)) ∘ fun e => (e, A e, f e))).sum := by
      intro l
      induction l with
      | nil => simp
      | cons e l ih =>
        intro hl
        simp only [List.map_cons, List.sum_cons, mul_add, Finset.sum_add_distrib]
        rw [ih fun e he => hl e (by simp [he])]
        congr 1
        simp only [Function.comp, FElm.conn, Finset.mul_sum]
        rw [Finset.sum_comm]
        refine Finset.sum_congr rfl fun s hs => ?_
        by_cases hc : e.node (s + 1) = a + 1
        · show (if e.node (s + 1) = a + 1 then (f' e).e (d * s + (i + 1)) else 0) = ∑ k ∈ Finset.range d, Q (i + 1) (k + 1) * (if e.node (s + 1) = a + 1 then (f e).e (d * s + (k + 1)) else 0)
          simp only [hc, if_true]
          exact (hev e (hl e (by simp))).2.2 s i (Finset.mem_range.mp hs) hi
        · show (if e.node (s + 1) = a + 1 then (f' e).e (d * s + (i + 1)) else 0) = ∑ k ∈ Finset.range d, Q (i + 1) (k + 1) * (if e.node (s + 1) = a + 1 then (f e).e (d * s + (k + 1)) else 0)
          simp only [hc, if_false, mul_zero, Finset.sum_const_zero]
    exact this es fun _ he => he
  refine ⟨⟨_, _, hr, hr', hres⟩, fun held hc => ?_⟩
  obtain ⟨r, h1, h2, -⟩ := hc
  rw [hr] at h1; cases h1
  refine ⟨_, hr', fun a i ha hi hf => ?_, fun _ _ _ _ _ => rfl⟩
  rw [hres a i ha hi]
  exact Finset.sum_eq_zero fun k hk => by rw [h2 a k ha (Finset.mem_range.mp hk) hf, mul_zero]

/-- C140 (rigid motions): a model of total or updated Lagrangian elements that is turned and moved without deformation, however far, is in a converged state without loads and without support forces. Missing: F-bar
elements. -/
theorem C140_rigid_partial (d : Nat) (hd : d = 2 ∨ d = 3) (n : Nat) (tol epsR : ℝ) (htol : 0 ≤ tol) (X : Nat → Nat → ℝ) (es : List FElm) (hn : Nodes n es) (u Q : Nat → Nat → ℝ) (c : Nat → ℝ) (hQ : Rot d Q)
    (ht : Turned d n Q c X (fun a i => X a i + u a i)) (h : ∀ e ∈ es, Rests d X e) :
    (∃ r, assemble d tol epsR u es = .ok r ∧ ∀ a i, i < d → residual d (fun _ _ => 0) r a (i + 1) = 0) ∧ ∀ fixed, Converged d n tol epsR es (fun _ _ => 0) u fixed u := by
  obtain ⟨A, f, e1, e2⟩ := assemble_pick d tol epsR u es (fun e A f => ∀ a i, a < e.nen → i < d → f.e (d * a + i + 1) = 0) fun e he => by
    have ht' : Turned d e.nen Q c (e.at X) (fun a i => e.at X a i + e.at u a i) := by
      intro s i hs hi
      obtain ⟨h1, h2⟩ := (hn e he).2 s hs
      have := ht (e.node (s + 1) - 1) i (by omega) hi
      rw [Nat.sub_add_cancel h1] at this
      exact this
    have hr := h e he
    have hn := (hn e he).1
    obtain ⟨nen, node, kind⟩ := e
    cases kind with
    | total pts => exact C122_total_rigid d hd nen hn tol epsR htol pts _ _ Q c hQ ht' fun p hp => ⟨(hr p hp).1, (hr p hp).2 _⟩
    | updated pts => exact C122_updated_rigid d hd nen hn tol epsR htol pts _ _ Q c hQ ht' fun p hp => ⟨(hr p hp).1, (hr p hp).2 _⟩
    | fbar smp pts => exact hr.elim
  have hz : ∀ a i, i < d → residual d (fun _ _ => 0) (es.map fun e => (e, A e, f e)) a (i + 1) = 0 := by
    intro a i hi
    unfold residual asmV
    rw [zero_add]
    refine List.sum_eq_zero fun b hb => ?_
    simp only [List.map_map, List.mem_map, Function.comp] at hb
    obtain ⟨e, he, rfl⟩ := hb
    refine Finset.sum_eq_zero fun s hs => ?_
    split_ifs
    · exact (e2 e he).2 s i (Finset.mem_range.mp hs) hi
    · rfl
  exact ⟨⟨_, e1, hz⟩, fun fixed => ⟨_, e1, fun a i _ hi _ => hz (a + 1) i hi, fun _ _ _ _ _ => rfl⟩⟩

/-! ### Tangent and iterations -/

theorem good_sizes (d n : Nat) (step) (u v : Nat → Nat → ℝ) (h : Good d n step u v) :
    ∃ (A : DMat ℝ) (f : ℝ → DVec ℝ), step u (DMat.zero (d * n) (d * n), DVec.zero (d * n)) = .ok (A, f 0) ∧ Deriv d n v A f ∧
      ∀ᶠ t in 𝓝 (0 : ℝ), ∃ A', step (along u v t) (DMat.zero (d * n) (d * n), DVec.zero (d * n)) = .ok (A', f t) := by
  obtain ⟨A, f, e, hd, ht⟩ := h (DMat.zero (d * n) (d * n)) (fun _ => DVec.zero (d * n)) ⟨rfl, rfl, fun _ => rfl, fun x => by
    simp only [zero_bil, zero_dot, neg_zero]; exact hasDerivAt_const _ _⟩
  refine ⟨A, f, e, hd, ?_⟩
  filter_upwards [ht] with t ht
  obtain ⟨B, hB, -, -⟩ := ht (DMat.zero (d * n) (d * n)) rfl rfl
  exact ⟨B, hB⟩

theorem eval_smooth (d : Nat) (hd : d = 2 ∨ d = 3) (tol epsR : ℝ) (u v : Nat → Nat → ℝ) (e : FElm) (hn : 0 < e.nen) (h : Smooth d tol u e) :
    ∃ (A : DMat ℝ) (f : ℝ → DVec ℝ), e.eval d tol epsR u = .ok (A, f 0) ∧ Deriv d e.nen (e.at v) A f ∧ ∀ᶠ t in 𝓝 (0 : ℝ), ∃ A', e.eval d tol epsR (along u v t) = .ok (A', f t) := by
  obtain ⟨nen, node, kind⟩ := e
  cases kind with
  | total pts =>
    obtain ⟨A, f, h1, h2, h3⟩ := good_sizes d nen _ (FElm.at ⟨nen, node, .total pts⟩ u) (FElm.at ⟨nen, node, .total pts⟩ v)
      (good_all d nen _ _ (pts.map fun p u M => tlPoint d false tol epsR p.2 ⟨d * nen, dofVec d u⟩ p.1 M) fun s hs => by
        obtain ⟨p, hp', rfl⟩ := List.mem_map.mp hs
        obtain ⟨h1, h2, ⟨S, C, h3⟩, h4⟩ := h p hp'
        exact tl_good d hd nen hn tol epsR p.1 p.2 S C h3 h1 h2 _ _ h4)
    simp only [← tlElement_run] at h1 h3
    exact ⟨A, f, h1, h2, h3⟩
  | updated pts =>
    obtain ⟨A, f, h1, h2, h3⟩ := good_sizes d nen _ (FElm.at ⟨nen, node, .updated pts⟩ u) (FElm.at ⟨nen, node, .updated pts⟩ v)
      (good_all d nen _ _ (pts.map fun p u M => ulEval d false tol epsR p.2 ⟨d * nen, dofVec d u⟩ p.1 M) fun s hs => by
        obtain ⟨p, hp', rfl⟩ := List.mem_map.mp hs
        obtain ⟨h1, h2, ⟨S, C, sig, c, h3⟩, h4, h5⟩ := h p hp'
        exact ul_good d hd nen hn tol epsR p.1 p.2 S C sig c h3 h1 h2 _ _ h4 h5)
    simp only [← ulElement_run] at h1 h3
    exact ⟨A, f, h1, h2, h3⟩
  | fbar smp pts => exact h.elim

theorem asmV_unit (d n : Nat) (V : Nat → Nat → ℝ) (a i : Nat) (ha : a < n) (hi : i < d) :
    ∑ b ∈ Finset.range n, ∑ j ∈ Finset.range d, (if b + 1 = a + 1 ∧ j + 1 = i + 1 then (1 : ℝ) else 0) * V (b + 1) (j + 1) = V (a + 1) (i + 1) := by
  rw [Finset.sum_eq_single a, Finset.sum_eq_single i]
  · simp
  · intro j _ hj; simp [hj]
  · intro hk; exact absurd (Finset.mem_range.mpr hi) hk
  · intro b _ hb; simp [hb]
  · intro hk; exact absurd (Finset.mem_range.mpr ha) hk

theorem asmV_dot (d n : Nat) (es : List FElm) (hn : Nodes n es) (A : FElm → DMat ℝ) (f : FElm → DVec ℝ) (hf : ∀ e ∈ es, (f e).n = d * e.nen) (x : Nat → Nat → ℝ) :
    ∑ a ∈ Finset.range n, ∑ i ∈ Finset.range d, x (a + 1) (i + 1) * asmV d ((es.map fun e => (e, A e, f e)).map fun e => (e.1.conn, e.2.2)) (a + 1) (i + 1) =
      (es.map fun e => (f e).dot (dofVec d (e.at x))).sum := by
  rw [asmV_sum d n _ (fun q hq => by
    simp only [List.map_map, List.mem_map] at hq
    obtain ⟨e, he, rfl⟩ := hq
    exact (hn e he).2)]
  rw [List.map_map, List.map_map]
  refine congrArg List.sum (List.map_congr_left fun e he => ?_)
  rw [dot_nodes d e.nen (f e) (hf e he)]
  rfl

theorem eventually_list {α : Type} (l : List α) (P : α → ℝ → Prop) (h : ∀ e ∈ l, ∀ᶠ t in 𝓝 (0 : ℝ), P e t) : ∀ᶠ t in 𝓝 (0 : ℝ), ∀ e ∈ l, P e t := by
  induction l with
  | nil => simp
  | cons e l ih =>
    filter_upwards [h e (by simp), ih fun e he => h e (by simp [he])] with t h1 h2 e' he'
    rcases List.mem_cons.mp he' with rfl | h'
    · exact h1
    · exact h2 e' h'

theorem list_neg {α : Type} (l : List α) (f : α → ℝ) : (l.map fun e => -f e).sum = -(l.map f).sum := by
  induction l with
  | nil => simp
  | cons e l ih => simp only [List.map_cons, List.sum_cons, ih]; ring

theorem deriv_list {α : Type} (l : List α) (f : α → ℝ → ℝ) (f' : α → ℝ) (h : ∀ e ∈ l, HasDerivAt (f e) (f' e) 0) : HasDerivAt (fun t => (l.map fun e => f e t).sum) (l.map f').sum 0 := by
  induction l with
  | nil => simpa using hasDerivAt_const (0 : ℝ) (0 : ℝ)
  | cons e l ih =>
    simp only [List.map_cons, List.sum_cons]
    exact (h e (by simp)).add (ih fun e he => h e (by simp [he]))

/-- C140 (tangent): the assembled matrix is the derivative of the internal forces of the whole model with respect to the nodal displacements: along every line `u + t v` each component of the residual has the derivative
`-K v`. Missing: points that are turned without strain in updated Lagrangian elements (C112), F-bar elements (C113). -/
theorem C140_tangent_partial (d : Nat) (hd : d = 2 ∨ d = 3) (n : Nat) (tol epsR : ℝ) (es : List FElm) (hn : Nodes n es) (F u v : Nat → Nat → ℝ) (h : ∀ e ∈ es, Smooth d tol u e) :
    ∃ r, assemble d tol epsR u es = .ok r ∧ ∃ R : ℝ → Nat → Nat → ℝ, R 0 = residual d F r ∧ (∀ᶠ t in 𝓝 (0 : ℝ), ∃ r', assemble d tol epsR (along u v t) es = .ok r' ∧ residual d F r' = R t) ∧
      ∀ a i, a < n → i < d → HasDerivAt (fun t => R t (a + 1) (i + 1)) (-nodal d n (tangent d r) v (a + 1) (i + 1)) 0 := by
  have : Inhabited (ℝ → DVec ℝ) := ⟨fun _ => DVec.zero 0⟩
  obtain ⟨A, f, hA⟩ := pick2 es (fun e A f => e.eval d tol epsR u = .ok (A, f 0) ∧ Deriv d e.nen (e.at v) A f ∧ ∀ᶠ t in 𝓝 (0 : ℝ), ∃ A', e.eval d tol epsR (along u v t) = .ok (A', f t))
    fun e he => eval_smooth d hd tol epsR u v e (hn e he).1 (h e he)
  refine ⟨_, assemble_ok d tol epsR u es A (fun e => f e 0) fun e he => (hA e he).1, fun t => residual d F (es.map fun e => (e, A e, f e t)), rfl, ?_, fun a i ha hi => ?_⟩
  · filter_upwards [eventually_list es _ fun e he => (hA e he).2.2] with t ht
    obtain ⟨A', f', e1, e2⟩ := assemble_pick d tol epsR (along u v t) es (fun e _ g => g = f e t) fun e he => by
      obtain ⟨A', h'⟩ := ht e he
      exact ⟨A', f e t, h', rfl⟩
    refine ⟨_, e1, ?_⟩
    funext a i
    unfold residual
    simp only [List.map_map]
    congr 2
    exact List.map_congr_left fun e he => by simp only [Function.comp]; rw [(e2 e he).2]
  · obtain ⟨x, hx⟩ : ∃ x : Nat → Nat → ℝ, x = fun b j => if b = a + 1 ∧ j = i + 1 then 1 else 0 := ⟨_, rfl⟩
    have e1 : ∀ t, residual d F (es.map fun e => (e, A e, f e t)) (a + 1) (i + 1) = F (a + 1) (i + 1) + (es.map fun e => (f e t).dot (dofVec d (e.at x))).sum := by
      intro t
      unfold residual
      rw [← asmV_unit d n (asmV d _) a i ha hi, ← asmV_dot d n es hn A (fun e => f e t) (fun e he => (hA e he).2.1.n t) x, hx]
    have e2 : nodal d n (tangent d (es.map fun e => (e, A e, f e 0))) v (a + 1) (i + 1) = (es.map fun e => (A e).bil (dofVec d (e.at x)) (dofVec d (e.at v))).sum := by
      rw [← nodal_unit d n _ v a i ha hi]
      have := virtual_work_bil d n ((es.map fun e => (e, A e, f e 0)).map fun e => (e.1.conn, e.2.1)) (fun q hq => by
        simp only [List.map_map, List.mem_map] at hq
        obtain ⟨e, he, rfl⟩ := hq
        exact (hn e he).2) (fun q hq => by
        simp only [List.map_map, List.mem_map] at hq
        obtain ⟨e, he, rfl⟩ := hq
        exact ⟨(hA e he).2.1.nr, (hA e he).2.1.nc⟩) x v
      refine Eq.trans ?_ (this.trans ?_)
      · rw [hx]; rfl
      · rw [List.map_map, List.map_map]; rfl
    simp only [e1, e2]
    have := (deriv_list es (fun e t => (f e t).dot (dofVec d (e.at x))) (fun e => -(A e).bil (dofVec d (e.at x)) (dofVec d (e.at v))) fun e he => (hA e he).2.1.deriv (e.at x)).const_add (F (a + 1) (i + 1))
    refine this.congr_deriv ?_
    rw [list_neg]

/-- C140 (iterations): a state is converged exactly if an iteration from it may leave it as it is, and only the converged states are unchanged by an iteration. From any other state, the iteration moves along a line on which
the residual at the free degrees of freedom decreases: its rate of change is minus the residual itself. -/
theorem C140_iterate_partial (d : Nat) (hd : d = 2 ∨ d = 3) (n : Nat) (tol epsR : ℝ) (es : List FElm) (hn : Nodes n es) (F g : Nat → Nat → ℝ) (fixed : Nat → Nat → Prop) (u : Nat → Nat → ℝ) :
    (Converged d n tol epsR es F g fixed u ↔ Iterate d n tol epsR es F g fixed u u) ∧
    ∀ u', (∀ e ∈ es, Smooth d tol u e) → Iterate d n tol epsR es F g fixed u u' → ∃ R : ℝ → Nat → Nat → ℝ,
      (∀ᶠ t in 𝓝 (0 : ℝ), ∃ r, assemble d tol epsR (fun a i => u a i + t * (u' a i - u a i)) es = .ok r ∧ residual d F r = R t) ∧
      ∀ a i, a < n → i < d → ¬ fixed (a + 1) (i + 1) → HasDerivAt (fun t => R t (a + 1) (i + 1)) (-R 0 (a + 1) (i + 1)) 0 := by
  refine ⟨⟨fun ⟨r, h1, h2, h3⟩ => ⟨r, h1, ⟨fun a i ha hi hf => ?_, fun a i ha hi hf => ?_⟩⟩, fun ⟨r, h1, h2⟩ => ⟨r, h1, fun a i ha hi hf => ?_, fun a i ha hi hf => ?_⟩⟩, fun u' hs ⟨r, h1, h2⟩ => ?_⟩
  · rw [h2 a i ha hi hf]; simp [nodal]
  · have := h3 a i ha hi hf
    linarith
  · have := h2.free a i ha hi hf
    rw [← this]; simp [nodal]
  · have := h2.held a i ha hi hf
    linarith
  · obtain ⟨r', e1, R, e2, e3, e4⟩ := C140_tangent_partial d hd n tol epsR es hn F u (fun a i => u' a i - u a i) hs
    rw [h1] at e1; cases e1
    refine ⟨R, e3, fun a i ha hi hf => ?_⟩
    have := e4 a i ha hi
    rwa [h2.free a i ha hi hf, ← e2] at this

/-! ### Energy -/

/-- C140 (energy): for updated Lagrangian elements of materials with a strain energy function (as in C123), the rate of the reported energy minus the work of the loads is minus the work of the residual, in every direction;
the residual vanishes at the free degrees of freedom exactly in states in which this potential is stationary for all admissible changes of the displacements. -/
theorem C140_stationary (d : Nat) (hd : d = 2 ∨ d = 3) (n : Nat) (ps : Bool) (tol epsR : ℝ) (es : List (Struct.Elm ℝ × List (FPt ℝ × Mat ℝ × EMat))) (F u : Nat → Nat → ℝ) (fixed : Nat → Nat → Prop)
    (hn : ∀ e ∈ es, 0 < e.1.nen ∧ ∀ s, s < e.1.nen → 1 ≤ e.1.node (s + 1) ∧ e.1.node (s + 1) ≤ n)
    (c : FPt ℝ × Mat ℝ × EMat → (Nat → Nat → ℝ) → DMat ℝ) (sig s : FPt ℝ × Mat ℝ × EMat → (Nat → Nat → ℝ) → Nat → ℝ) (W : FPt ℝ × Mat ℝ × EMat → (Nat → Nat → ℝ) → ℝ)
    (hp : ∀ e ∈ es, ∀ p ∈ e.2, p.1.dN.nr = e.1.nen ∧ p.1.dN.nc = d ∧ ratio d (grad e.1.nen (loc e.1 u) p.1.dN.e) ≠ 0 ∧
      (∀ F E, (lead d F).det ≠ 0 → p.2.1 F E = .ok (c p F, sig p F) ∧ p.2.2 F E = .ok (s p F, W p F)) ∧ EnergyD d (W p) (sig p) ∧
      ((∀ i, 1 ≤ i → i ≤ d * (d + 1) / 2 → |greenV d (grad e.1.nen (loc e.1 u) p.1.dN.e) i| ≤ tol) → ∀ i j, i < d → j < d → symT d false (sig p (defF d (grad e.1.nen (loc e.1 u) p.1.dN.e))) (i + 1) (j + 1) = 0)) :
    ∃ r, assemble d tol epsR u (es.map fun e => ⟨e.1.nen, e.1.node, .updated (e.2.map fun p => (p.1, p.2.1))⟩) = .ok r ∧
      (∀ x : Nat → Nat → ℝ, ∃ E : ℝ → ℝ, (∀ᶠ t in 𝓝 (0 : ℝ), energyAll d ps epsR (fun a i => u a i + t * x a i) (es.map fun e => (e.1, e.2.map fun p => (p.1, p.2.2))) = .ok (E t)) ∧
        HasDerivAt (fun t => E t - dotN d n F fun a i => u a i + t * x a i) (-dotN d n (residual d F r) x) 0) ∧
      ((∀ a i, a < n → i < d → ¬ fixed (a + 1) (i + 1) → residual d F r (a + 1) (i + 1) = 0) ↔
        ∀ x : Nat → Nat → ℝ, (∀ a i, a < n → i < d → fixed (a + 1) (i + 1) → x (a + 1) (i + 1) = 0) →
          ∃ E : ℝ → ℝ, (∀ᶠ t in 𝓝 (0 : ℝ), energyAll d ps epsR (fun a i => u a i + t * x a i) (es.map fun e => (e.1, e.2.map fun p => (p.1, p.2.2))) = .ok (E t)) ∧
            HasDerivAt (fun t => E t - dotN d n F fun a i => u a i + t * x a i) 0 0) := by
  have key : ∀ x : Nat → Nat → ℝ, ∀ e ∈ es, ∃ (A : DMat ℝ) (f : DVec ℝ) (N : ℝ → NormUL.Norms ℝ),
      (FElm.eval d tol epsR u ⟨e.1.nen, e.1.node, .updated (e.2.map fun p => (p.1, p.2.1))⟩ = .ok (A, f) ∧ f.n = d * e.1.nen) ∧
      (∀ᶠ t in 𝓝 (0 : ℝ), ulNorm d false ps epsR ⟨d * e.1.nen, dofVec d fun a i => loc e.1 u a i + t * loc e.1 x a i⟩ (e.2.map fun p => (p.1, p.2.2)) NormUL.Norms.zero = .ok (N t)) ∧
      HasDerivAt (fun t => (N t).energy) (-f.dot (dofVec d (loc e.1 x))) 0 := by
    intro x e he
    obtain ⟨A, f, N, e1, e2, e3⟩ := C123_updated_potential d hd e.1.nen (hn e he).1 ps tol epsR e.2 (loc e.1 u) (loc e.1 x) c sig s W (hp e he)
    obtain ⟨A', f', k1, k2⟩ := ul_element d hd e.1.nen (hn e he).1 tol epsR (e.2.map fun p => (p.1, p.2.1)) (loc e.1 u) (fun q => outC (q.2 (defF d (grad e.1.nen (loc e.1 u) q.1.dN.e)) (greenV d (grad e.1.nen (loc e.1 u) q.1.dN.e))))
      (fun q => outS (q.2 (defF d (grad e.1.nen (loc e.1 u) q.1.dN.e)) (greenV d (grad e.1.nen (loc e.1 u) q.1.dN.e)))) fun q hq => by
        obtain ⟨p, hpm, rfl⟩ := List.mem_map.mp hq
        obtain ⟨a1, a2, a3, a4, -, -⟩ := hp e he p hpm
        refine ⟨a1, a2, a3, ?_⟩
        simp only [(a4 _ _ a3).1, outC, outS]
    rw [k1] at e1; cases e1
    exact ⟨A, f, N, ⟨k1, k2.1⟩, e2, e3⟩
  obtain ⟨A, f, hA⟩ := pick2 es (fun e A f => FElm.eval d tol epsR u ⟨e.1.nen, e.1.node, .updated (e.2.map fun p => (p.1, p.2.1))⟩ = .ok (A, f) ∧ f.n = d * e.1.nen)
    fun e he => by obtain ⟨A, f, -, h, -⟩ := key (fun _ _ => 0) e he; exact ⟨A, f, h⟩
  obtain ⟨r, hr⟩ : ∃ r, r = es.map fun e => ((⟨e.1.nen, e.1.node, .updated (e.2.map fun p => (p.1, p.2.1))⟩ : FElm), A e, f e) := ⟨_, rfl⟩
  have has : assemble d tol epsR u (es.map fun e => ⟨e.1.nen, e.1.node, .updated (e.2.map fun p => (p.1, p.2.1))⟩) = .ok r := by
    rw [hr]
    clear hr key hp hn
    induction es with
    | nil => rfl
    | cons e l ih => simp only [List.map_cons, assemble, (hA e (by simp)).1, Res.bind, ih fun e he => hA e (by simp [he])]
  have hrate : ∀ x : Nat → Nat → ℝ, ∃ E : ℝ → ℝ, (∀ᶠ t in 𝓝 (0 : ℝ), energyAll d ps epsR (fun a i => u a i + t * x a i) (es.map fun e => (e.1, e.2.map fun p => (p.1, p.2.2))) = .ok (E t)) ∧
        HasDerivAt (fun t => E t - dotN d n F fun a i => u a i + t * x a i) (-dotN d n (residual d F r) x) 0 := by
    intro x
    have : ∀ e ∈ es, ∃ N : ℝ → NormUL.Norms ℝ, (∀ᶠ t in 𝓝 (0 : ℝ), ulNorm d false ps epsR ⟨d * e.1.nen, dofVec d fun a i => loc e.1 u a i + t * loc e.1 x a i⟩ (e.2.map fun p => (p.1, p.2.2)) NormUL.Norms.zero = .ok (N t)) ∧
        HasDerivAt (fun t => (N t).energy) (-(f e).dot (dofVec d (loc e.1 x))) 0 := by
      intro e he
      obtain ⟨A', f', N, ⟨k1, -⟩, k2, k3⟩ := key x e he
      rw [(hA e he).1] at k1; cases k1
      exact ⟨N, k2, k3⟩
    have hinh : Inhabited (ℝ → NormUL.Norms ℝ) := ⟨fun _ => NormUL.Norms.zero⟩
    obtain ⟨N, -, hN⟩ := pick2 (β := ℝ → NormUL.Norms ℝ) (γ := ℝ → NormUL.Norms ℝ) es (fun e N _ => (∀ᶠ t in 𝓝 (0 : ℝ), ulNorm d false ps epsR ⟨d * e.1.nen, dofVec d fun a i => loc e.1 u a i + t * loc e.1 x a i⟩ (e.2.map fun p => (p.1, p.2.2)) NormUL.Norms.zero = .ok (N t)) ∧
        HasDerivAt (fun t => (N t).energy) (-(f e).dot (dofVec d (loc e.1 x))) 0) fun e he => by
      obtain ⟨N, h1, h2⟩ := this e he
      exact ⟨N, N, h1, h2⟩
    refine ⟨fun t => (es.map fun e => (N e t).energy).sum, ?_, ?_⟩
    · filter_upwards [eventually_list es _ fun e he => (hN e he).1] with t ht
      clear hN this has hr hA key hp hn
      induction es with
      | nil => rfl
      | cons e l ih =>
        have h1 := ht e (by simp)
        simp only [loc] at h1
        simp only [List.map_cons, energyAll, h1, Res.bind, ih fun e he => ht e (by simp [he]), List.sum_cons]
    · have h1 := deriv_list es (fun e t => (N e t).energy) (fun e => -(f e).dot (dofVec d (loc e.1 x))) fun e he => (hN e he).2
      have h2 : HasDerivAt (fun t : ℝ => dotN d n F fun a i => u a i + t * x a i) (dotN d n F x) 0 := by
        unfold dotN
        refine HasDerivAt.fun_sum fun a _ => HasDerivAt.fun_sum fun i _ => ?_
        have := (((hasDerivAt_id (0 : ℝ)).mul_const (x (a + 1) (i + 1))).const_add (u (a + 1) (i + 1))).const_mul (F (a + 1) (i + 1))
        simpa using this
      refine (h1.sub h2).congr_deriv ?_
      have h3 : dotN d n (residual d F r) x = dotN d n F x + (es.map fun e => (f e).dot (dofVec d (loc e.1 x))).sum := by
        unfold dotN residual
        simp only [add_mul, Finset.sum_add_distrib]
        congr 1
        have := asmV_sum d n (r.map fun e => (e.1.conn, e.2.2)) (fun q hq => by
          rw [hr] at hq
          simp only [List.map_map, List.mem_map] at hq
          obtain ⟨e, he, rfl⟩ := hq
          exact (hn e he).2) x
        simp only [mul_comm (asmV _ _ _ _)]
        rw [this, hr, List.map_map, List.map_map]
        refine congrArg List.sum (List.map_congr_left fun e he => ?_)
        rw [dot_nodes d e.1.nen (f e) (hA e he).2]
        rfl
      rw [h3, list_neg]
      ring
  refine ⟨r, has, hrate, fun h x hx => ?_, fun h a i ha hi hf => ?_⟩
  · obtain ⟨E, h1, h2⟩ := hrate x
    refine ⟨E, h1, h2.congr_deriv ?_⟩
    rw [neg_eq_zero]
    unfold dotN
    refine Finset.sum_eq_zero fun a ha => Finset.sum_eq_zero fun i hi => ?_
    by_cases hf : fixed (a + 1) (i + 1)
    · rw [hx a i (Finset.mem_range.mp ha) (Finset.mem_range.mp hi) hf, mul_zero]
    · rw [h a i (Finset.mem_range.mp ha) (Finset.mem_range.mp hi) hf, zero_mul]
  · obtain ⟨x, hx⟩ : ∃ x : Nat → Nat → ℝ, x = fun b j => if b = a + 1 ∧ j = i + 1 then 1 else 0 := ⟨_, rfl⟩
    obtain ⟨E, h1, h2⟩ := h x fun b j _ _ hbj => by
      rw [hx]
      refine if_neg fun hc => hf ?_
      rwa [hc.1, hc.2] at hbj
    obtain ⟨E', k1, k2⟩ := hrate x
    have heq : (fun t => E t - dotN d n F fun a i => u a i + t * x a i) =ᶠ[𝓝 0] (fun t => E' t - dotN d n F fun a i => u a i + t * x a i) := by
      filter_upwards [h1, k1] with t q1 q2
      rw [q1] at q2
      rw [Res.ok.inj q2]
    have := (h2.congr_of_eventuallyEq heq.symm).unique k2
    have hd2 : dotN d n (residual d F r) x = residual d F r (a + 1) (i + 1) := by
      rw [← asmV_unit d n (residual d F r) a i ha hi, hx]
      unfold dotN
      exact Finset.sum_congr rfl fun b _ => Finset.sum_congr rfl fun j _ => mul_comm _ _
    rw [hd2] at this
    linarith

/-! ### Examples -/

/-- Models of one triangle. -/
noncomputable def tlTri : FElm := ⟨3, id, .total [(triangle, linOp plane1 1)]⟩
noncomputable def ulTri : FElm := ⟨3, id, .updated [(triangle, ulOp (pushOp 2 (linOp plane1)))]⟩
noncomputable def fbTri : FElm := ⟨3, id, .fbar [triangle] [(triangle, (fun F _ => .ok (hookeC 1 F, hooke2 1 F)), [1])]⟩

theorem tri_nodes : Nodes 3 [tlTri, ulTri, fbTri] := by
  intro e he
  simp only [List.mem_cons, List.not_mem_nil, or_false] at he
  rcases he with rfl | rfl | rfl <;> exact ⟨by simp [tlTri, ulTri, fbTri], fun s hs => ⟨by simp [tlTri, ulTri, fbTri], hs⟩⟩

theorem tri_ready : ∀ e ∈ [tlTri, ulTri, fbTri], Ready 2 0 corner (stretch 1) e ∧ Neutral 2 (stretch 1) e := by
  intro e he
  simp only [List.mem_cons, List.not_mem_nil, or_false] at he
  rcases he with rfl | rfl | rfl
  · refine ⟨fun p hp => ?_, fun p hp => ?_⟩ <;> obtain rfl := List.mem_singleton.mp hp
    · exact ⟨triangle_iso, _, _, rfl, rfl⟩
    · exact fun _ _ => rfl
  · refine ⟨fun p hp => ?_, fun p hp => ?_⟩ <;> obtain rfl := List.mem_singleton.mp hp
    · exact ⟨triangle_iso, carry_ok.1, carry_ok.2⟩
    · exact C122_linear_objective 2 (.inl rfl) _
  · refine ⟨⟨stretch_fb 1 one_pos, fun _ => hookeC 1, fun _ => hooke2 1, fun p hp => ?_⟩, fun p hp => ?_⟩ <;> obtain rfl := List.mem_singleton.mp hp
    · exact fun _ _ _ => rfl
    · exact hooke2_objective 1

/-- The stretched triangles, held at two corners and pulled at the third one by the forces it needs, are in a converged state; so they are when they are turned by a quarter turn, moved, and pulled in the turned direction. -/
example : ∃ F F', Converged 2 3 0 0 [tlTri, ulTri, fbTri] F (stretch 1) (fun a _ => a ≠ 2) (stretch 1) ∧ Converged 2 3 0 0 [tlTri, ulTri, fbTri] F' (carried 1) (fun a _ => a ≠ 2) (carried 1) ∧ (∀ a i, a ≠ 2 → F a i = 0) := by
  obtain ⟨⟨r, r', h1, -, -⟩, -⟩ := C140_turn 2 (.inl rfl) 3 0 0 corner [tlTri, ulTri, fbTri] tri_nodes (stretch 1) (carried 1) quarter (fun _ => 5) quarter_rot (carried_turned 1) tri_ready (fun _ _ => 0) (fun _ _ => 0) (by simp)
  obtain ⟨F, hF⟩ : ∃ F : Nat → Nat → ℝ, F = fun a i => if a = 2 then -residual 2 (fun _ _ => 0) r a i else 0 := ⟨_, rfl⟩
  have hc : Converged 2 3 0 0 [tlTri, ulTri, fbTri] F (stretch 1) (fun a _ => a ≠ 2) (stretch 1) := by
    refine ⟨r, h1, fun a i ha hi hf => ?_, fun _ _ _ _ _ => rfl⟩
    push Not at hf
    simp [hF, residual, hf]
  obtain ⟨F', hF'⟩ : ∃ F' : Nat → Nat → ℝ, F' = fun a i => ∑ k ∈ Finset.range 2, quarter i (k + 1) * F a (k + 1) := ⟨_, rfl⟩
  exact ⟨F, F', hc, (C140_turn 2 (.inl rfl) 3 0 0 corner _ tri_nodes (stretch 1) (carried 1) quarter (fun _ => 5) quarter_rot (carried_turned 1) tri_ready F F' (by simp [hF'])).2 _ hc, fun a i ha => by simp [hF, ha]⟩

/-- The undeformed triangle turned by a quarter turn is in equilibrium. -/
example : Converged 2 3 0 0 [tlTri] (fun _ _ => 0) (carried 0) (fun _ _ => False) (carried 0) :=
  (C140_rigid_partial 2 (.inl rfl) 3 0 0 le_rfl corner [tlTri] (fun e he => tri_nodes e (by simp_all)) (carried 0) quarter (fun _ => 5) quarter_rot (fun k i hk hi => by simpa [stretch] using carried_turned 0 k i hk hi)
    fun e he => by
      obtain rfl := List.mem_singleton.mp he
      intro p hp
      obtain rfl := List.mem_singleton.mp hp
      exact ⟨triangle_iso, fun F => ⟨_, _, rfl, rfl⟩⟩).2 _

/-- The stretched triangle has a derivative of its forces. -/
example : Smooth 2 (1 / 10) (stretch 1) ⟨3, id, .total [(triangle, fun _ E => .ok (⟨3, 3, fun i j => if i = j then 1 else 0⟩, fun i => ∑ j ∈ Finset.range (2 * (2 + 1) / 2), (if i = j + 1 then 1 else 0) * E (j + 1)))]⟩ := by
  intro p hp
  obtain rfl := List.mem_singleton.mp hp
  refine ⟨rfl, rfl, ⟨_, _, C112_linear 2 (.inl rfl) ⟨3, 3, fun i j => if i = j then 1 else 0⟩ rfl⟩, .inl ⟨1, le_refl _, by norm_num, ?_⟩⟩
  have := (stretch_green 1).1
  show (1 / 10 : ℝ) < |greenV 2 (grad 3 (stretch 1) triangle.dN.e) 1|
  rw [this]; norm_num

/-- The potential of the stretched triangle, held at two corners, is stationary exactly for the loads in balance with its internal forces. -/
example (F : Nat → Nat → ℝ) : ∃ r, assemble 2 0 0 (stretch 1) [⟨3, id, .updated [(triangle, fun F _ => .ok (hookeC 1 F, hooke2 1 F))]⟩] = .ok r ∧
    ∀ x : Nat → Nat → ℝ, ∃ E : ℝ → ℝ, HasDerivAt (fun t => E t - dotN 2 3 F fun a i => stretch 1 a i + t * x a i) (-dotN 2 3 (residual 2 F r) x) 0 := by
  obtain ⟨r, h1, h2, -⟩ := C140_stationary 2 (.inl rfl) 3 true 0 0 [(⟨3, id, []⟩, [(triangle, (fun F _ => .ok (hookeC 1 F, hooke2 1 F)), fun F _ => .ok (hooke2 1 F, hookeW 1 F))])] F (stretch 1) (fun a _ => a ≠ 2)
    (fun e he => by obtain rfl := List.mem_singleton.mp he; exact ⟨by simp, fun s hs => ⟨by simp, hs⟩⟩) (fun _ => hookeC 1) (fun _ => hooke2 1) (fun _ => hooke2 1) (fun _ => hookeW 1) fun e he p hp => by
      obtain rfl := List.mem_singleton.mp he
      obtain rfl := List.mem_singleton.mp hp
      exact ⟨rfl, rfl, (stretched 1 one_pos).1, fun F E _ => ⟨rfl, rfl⟩, hookeW_ok 1, fun h => absurd (h 1 (by omega) (by omega)) (not_le.mpr (abs_pos.mpr (stretched 1 one_pos).2.ne'))⟩
  refine ⟨r, h1, fun x => ?_⟩
  obtain ⟨E, -, h3⟩ := h2 x
  exact ⟨E, h3⟩

end Verif.Finite
