/-
C33 (the element-wise volume change of the mixed formulation) and C70 (the condensed pressure does the
same work as the constitutive pressure on the averaged volume change).
-/
import Verif.Model.Mixed
import Mathlib.LinearAlgebra.Matrix.NonsingularInverse
import Mathlib.Tactic.Linarith
import Mathlib.Tactic.NormNum
import Mathlib.Tactic.Ring
import Mathlib.Tactic.FieldSimp
import Mathlib.Tactic.FinCases

set_option linter.unusedSectionVars false
set_option linter.unnecessarySeqFocus false
set_option linter.unusedSimpArgs false
set_option linter.unusedVariables false

namespace Verif.Mixed

variable {K : Type*} [Field K] [DecidableEq K] {nPM : Nat}

/-- Sum over the integration points. -/
def total (pts : List (Pt K nPM)) (f : Pt K nPM → K) : K := (pts.map f).sum

theorem total_add (pts : List (Pt K nPM)) (f g : Pt K nPM → K) :
    total pts (fun p => f p + g p) = total pts f + total pts g := by
  induction pts with
  | nil => simp [total]
  | cons p l ih =>
    simp only [total, List.map_cons, List.sum_cons] at ih ⊢
    rw [ih]; ring

theorem total_mul (pts : List (Pt K nPM)) (c : K) (f : Pt K nPM → K) :
    total pts (fun p => c * f p) = c * total pts f := by
  induction pts with
  | nil => simp [total]
  | cons p l ih =>
    simp only [total, List.map_cons, List.sum_cons] at ih ⊢
    rw [ih]; ring

theorem total_sum {ι : Type*} (s : Finset ι) (pts : List (Pt K nPM)) (f : ι → Pt K nPM → K) :
    total pts (fun p => ∑ i ∈ s, f i p) = ∑ i ∈ s, total pts (f i) := by
  classical
  induction s using Finset.induction_on with
  | empty =>
    simp only [Finset.sum_empty]
    have := total_mul pts (0 : K) (fun _ => 0)
    simpa using this
  | insert a s ha ih =>
    simp only [Finset.sum_insert ha]
    rw [total_add, ih]

theorem total_congr (pts : List (Pt K nPM)) (f g : Pt K nPM → K) (h : ∀ p ∈ pts, f p = g p) :
    total pts f = total pts g := by
  unfold total
  rw [List.map_congr_left h]

theorem hmat_apply (pts : List (Pt K nPM)) (i j : Fin nPM) :
    hmat pts i j = total pts fun p => p.phi i * (p.phi j * p.w) := by
  unfold hmat total
  induction pts with
  | nil => rfl
  | cons p l ih =>
    simp only [List.map_cons, List.sum_cons]
    rw [← ih]; rfl

theorem hmat_symm (pts : List (Pt K nPM)) (i j : Fin nPM) : hmat pts i j = hmat pts j i := by
  rw [hmat_apply, hmat_apply]
  exact total_congr _ _ _ fun p _ => by ring

/-- The inverse used by the model. -/
def hinv (pts : List (Pt K nPM)) : Matrix (Fin nPM) (Fin nPM) K :=
  ((hmat pts).det)⁻¹ • (hmat pts).adjugate

theorem mul_hinv (pts : List (Pt K nPM)) (h : (hmat pts).det ≠ 0) : hmat pts * hinv pts = 1 := by
  unfold hinv
  rw [Matrix.mul_smul, Matrix.mul_adjugate, smul_smul, inv_mul_cancel₀ h, one_smul]

theorem hinv_mul (pts : List (Pt K nPM)) (h : (hmat pts).det ≠ 0) : hinv pts * hmat pts = 1 := by
  unfold hinv
  rw [Matrix.smul_mul, Matrix.adjugate_mul, smul_smul, inv_mul_cancel₀ h, one_smul]

theorem hinv_symm (pts : List (Pt K nPM)) (h : (hmat pts).det ≠ 0) (i j : Fin nPM) :
    hinv pts i j = hinv pts j i := by
  have hs : (hmat pts).transpose = hmat pts := by
    ext a b; exact hmat_symm pts b a
  have e : (hinv pts).transpose = hinv pts := by
    have h1 : (hinv pts).transpose * hmat pts = 1 := by
      have := congrArg Matrix.transpose (mul_hinv pts h)
      rwa [Matrix.transpose_mul, Matrix.transpose_one, hs] at this
    calc (hinv pts).transpose = (hinv pts).transpose * (hmat pts * hinv pts) := by
          rw [mul_hinv pts h, Matrix.mul_one]
      _ = hinv pts := by rw [← Matrix.mul_assoc, h1, Matrix.one_mul]
  exact congrFun (congrFun e j) i

/-- The least squares projection of a quantity `f` on the modes, at a point with mode values `phi`. -/
def proj (pts : List (Pt K nPM)) (f : Pt K nPM → K) (phi : Fin nPM → K) : K :=
  ∑ i, (∑ j, hinv pts i j * total pts fun p => p.phi j * f p * p.w) * phi i

theorem proj_moment (pts : List (Pt K nPM)) (h : (hmat pts).det ≠ 0) (f : Pt K nPM → K)
    (k : Fin nPM) : (total pts fun p => proj pts f p.phi * p.w * p.phi k)
      = total pts fun p => f p * p.w * p.phi k := by
  have e1 : (total pts fun p => proj pts f p.phi * p.w * p.phi k)
      = ∑ i, (∑ j, hinv pts i j * total pts fun p => p.phi j * f p * p.w) * hmat pts i k := by
    simp only [proj]
    rw [show (fun p : Pt K nPM => (∑ i, (∑ j, hinv pts i j * total pts fun p => p.phi j * f p * p.w)
      * p.phi i) * p.w * p.phi k) = fun p => ∑ i, (∑ j, hinv pts i j *
      total pts fun p => p.phi j * f p * p.w) * (p.phi i * (p.phi k * p.w)) from by
        funext p
        rw [Finset.sum_mul, Finset.sum_mul]
        exact Finset.sum_congr rfl fun i _ => by ring]
    rw [total_sum]
    refine Finset.sum_congr rfl fun i _ => ?_
    rw [total_mul, hmat_apply]
  rw [e1]
  have e2 : ∑ i, (∑ j, hinv pts i j * total pts fun p => p.phi j * f p * p.w) * hmat pts i k
      = ∑ j, (∑ i, hmat pts k i * hinv pts i j) * total pts fun p => p.phi j * f p * p.w := by
    simp only [Finset.sum_mul]
    rw [Finset.sum_comm]
    refine Finset.sum_congr rfl fun j _ => Finset.sum_congr rfl fun i _ => ?_
    rw [hmat_symm pts i k]; ring
  rw [e2]
  have e3 : ∀ j, ∑ i, hmat pts k i * hinv pts i j = if k = j then 1 else 0 := by
    intro j
    have := congrFun (congrFun (mul_hinv pts h) k) j
    rwa [Matrix.mul_apply, Matrix.one_apply] at this
  simp only [e3, ite_mul, one_mul, zero_mul, Finset.sum_ite_eq, Finset.mem_univ, if_true]
  exact total_congr _ _ _ fun p _ => by ring

theorem proj_span (pts : List (Pt K nPM)) (h : (hmat pts).det ≠ 0) (c : Fin nPM → K)
    (f : Pt K nPM → K) (hf : ∀ p ∈ pts, f p = ∑ i, c i * p.phi i) (phi : Fin nPM → K) :
    proj pts f phi = ∑ i, c i * phi i := by
  unfold proj
  have e1 : ∀ j, (total pts fun p => p.phi j * f p * p.w) = ∑ i, hmat pts j i * c i := by
    intro j
    rw [total_congr pts _ (fun p => ∑ i, c i * (p.phi j * (p.phi i * p.w))) (fun p hp => by
      rw [hf p hp, Finset.mul_sum, Finset.sum_mul]
      exact Finset.sum_congr rfl fun i _ => by ring), total_sum]
    refine Finset.sum_congr rfl fun i _ => ?_
    rw [total_mul, hmat_apply]; ring
  have e2 : ∀ i, ∑ j, hinv pts i j * ∑ l, hmat pts j l * c l = c i := by
    intro i
    have : ∑ j, hinv pts i j * ∑ l, hmat pts j l * c l
        = ∑ l, (∑ j, hinv pts i j * hmat pts j l) * c l := by
      simp only [Finset.mul_sum, Finset.sum_mul]
      rw [Finset.sum_comm]
      exact Finset.sum_congr rfl fun l _ => Finset.sum_congr rfl fun j _ => by ring
    rw [this]
    have e3 : ∀ l, ∑ j, hinv pts i j * hmat pts j l = if i = l then 1 else 0 := by
      intro l
      have := congrFun (congrFun (hinv_mul pts h) i) l
      rwa [Matrix.mul_apply, Matrix.one_apply] at this
    simp only [e3, ite_mul, one_mul, zero_mul, Finset.sum_ite_eq, Finset.mem_univ, if_true]
  refine Finset.sum_congr rfl fun i _ => ?_
  simp only [e1, e2]

theorem zip_total (pts : List (Pt K nPM)) (F : Pt K nPM → K) (f : K → Pt K nPM → K) :
    (((pts.map F).zip pts).map fun x => f x.1 x.2).sum = total pts fun p => f (F p) p := by
  unfold total
  induction pts with
  | nil => rfl
  | cons p l ih => simp only [List.map_cons, List.zip_cons_cons, List.sum_cons, ih]

theorem zip_map_self {α β : Type*} (l : List α) (f : α → β) :
    l.zip (l.map f) = l.map fun x => (x, f x) := by
  induction l with
  | nil => rfl
  | cons a l ih => simp only [List.map_cons, List.zip_cons_cons, ih]

theorem zip_map_self' {α β : Type*} (l : List α) (f : α → β) :
    (l.map f).zip l = l.map fun x => (f x, x) := by
  induction l with
  | nil => rfl
  | cons a l ih => simp only [List.map_cons, List.zip_cons_cons, ih]

theorem proj_adjoint (pts : List (Pt K nPM)) (h : (hmat pts).det ≠ 0) (f g : Pt K nPM → K) :
    (total pts fun p => proj pts f p.phi * g p * p.w)
      = total pts fun p => f p * proj pts g p.phi * p.w := by
  have key : ∀ f g : Pt K nPM → K, (total pts fun p => proj pts f p.phi * g p * p.w)
      = ∑ i, ∑ j, hinv pts i j * (total pts fun p => p.phi j * f p * p.w)
        * total pts fun p => p.phi i * g p * p.w := by
    intro f g
    rw [total_congr pts (fun p => proj pts f p.phi * g p * p.w) (fun p => ∑ i, (∑ j, hinv pts i j *
      total pts fun p => p.phi j * f p * p.w) * (p.phi i * g p * p.w)) (fun p _ => by
        unfold proj
        rw [Finset.sum_mul, Finset.sum_mul]
        exact Finset.sum_congr rfl fun i _ => by ring), total_sum]
    refine Finset.sum_congr rfl fun i _ => ?_
    rw [total_mul, Finset.sum_mul]
  rw [key, total_congr pts (fun p => f p * proj pts g p.phi * p.w)
    (fun p => proj pts g p.phi * f p * p.w) (fun p _ => by ring), key, Finset.sum_comm]
  refine Finset.sum_congr rfl fun i _ => Finset.sum_congr rfl fun j _ => ?_
  rw [hinv_symm pts h i j]; ring

theorem proj_add (pts : List (Pt K nPM)) (f g : Pt K nPM → K) (phi : Fin nPM → K) :
    proj pts (fun p => f p + g p) phi = proj pts f phi + proj pts g phi := by
  unfold proj
  rw [← Finset.sum_add_distrib]
  refine Finset.sum_congr rfl fun i _ => ?_
  rw [← add_mul, ← Finset.sum_add_distrib]
  congr 1
  refine Finset.sum_congr rfl fun j _ => ?_
  rw [← mul_add, ← total_add]
  congr 1
  exact total_congr _ _ _ fun p _ => by ring

theorem proj_mul (pts : List (Pt K nPM)) (c : K) (f : Pt K nPM → K) (phi : Fin nPM → K) :
    proj pts (fun p => c * f p) phi = c * proj pts f phi := by
  unfold proj
  rw [Finset.mul_sum]
  refine Finset.sum_congr rfl fun i _ => ?_
  rw [← mul_assoc, Finset.mul_sum]
  congr 1
  refine Finset.sum_congr rfl fun j _ => ?_
  rw [mul_left_comm c, ← total_mul pts c]
  congr 1
  exact total_congr _ _ _ fun p _ => by ring

theorem proj_sum {ι : Type*} (s : Finset ι) (pts : List (Pt K nPM)) (f : ι → Pt K nPM → K)
    (phi : Fin nPM → K) :
    proj pts (fun p => ∑ i ∈ s, f i p) phi = ∑ i ∈ s, proj pts (f i) phi := by
  classical
  induction s using Finset.induction_on with
  | empty =>
    simp only [Finset.sum_empty]
    have := proj_mul pts (0 : K) (fun _ => 0) phi
    simpa using this
  | insert a s ha ih =>
    simp only [Finset.sum_insert ha]
    rw [proj_add, ih]

theorem proj_congr (pts : List (Pt K nPM)) (f g : Pt K nPM → K) (h : ∀ p ∈ pts, f p = g p)
    (phi : Fin nPM → K) : proj pts f phi = proj pts g phi := by
  unfold proj
  refine Finset.sum_congr rfl fun i _ => ?_
  congr 1
  refine Finset.sum_congr rfl fun j _ => ?_
  congr 1
  exact total_congr _ _ _ fun p hp => by rw [h p hp]

/-- The first mode is the constant one, as given by `utl::Pascal` of the IFEM library. -/
def FirstIsOne (hn : 1 ≤ nPM) (pts : List (Pt K nPM)) : Prop := ∀ p ∈ pts, p.phi ⟨0, hn⟩ = 1

/-- The volume changes of the model are the projections of the determinants, and the gradients times the
volume changes are the projections of the gradients times the determinants. -/
theorem condense_eq (axi : Bool) (hn : 1 ≤ nPM) (pts : List (Pt K nPM))
    (h1 : FirstIsOne hn pts) (h : (hmat pts).det ≠ 0) :
    ∃ C, condense axi pts = .ok C ∧ C.theta = (pts.map fun p => proj pts (·.J) p.phi) ∧
      ∃ G : Pt K nPM → Nat → Nat → K, C.gbar = pts.map G ∧
        ((∀ p ∈ pts, proj pts (·.J) p.phi ≠ 0) → ∀ p ∈ pts, ∀ a b, proj pts (·.J) p.phi * G p a b
          = proj pts (fun q => divGrad axi q a b * q.J) p.phi) := by
  unfold condense
  simp only [if_neg h]
  by_cases hn1 : nPM = 1
  · rw [dif_pos hn1]
    subst hn1
    have h1' : ∀ p ∈ pts, p.phi 0 = 1 := h1
    have key : ∀ (f : Pt K 1 → K), ∀ p ∈ pts, proj pts f p.phi
        = (total pts fun q => f q * q.w) * hinv pts 0 0 := by
      intro f p hp
      simp only [proj, Fin.sum_univ_one, Fin.isValue]
      rw [h1' p hp, mul_one, mul_comm]
      congr 1
      exact total_congr _ _ _ fun q hq => by rw [h1' q hq]; ring
    refine ⟨_, rfl, ?_, _, rfl, ?_⟩
    · simp only
      refine List.map_congr_left fun p hp => ?_
      rw [key _ p hp]; rfl
    · intro ht p hp a b
      have hJ := ht p hp
      rw [key _ p hp] at hJ ⊢
      rw [key _ p hp]
      have hne : (total pts fun q => q.J * q.w) ≠ 0 := left_ne_zero_of_mul hJ
      show (total pts fun q => q.J * q.w) * hinv pts 0 0
        * (1 / (total pts fun q => q.J * q.w) * total pts fun q => divGrad axi q a b * (q.J * q.w)) = _
      rw [total_congr pts (fun q => divGrad axi q a b * q.J * q.w)
        (fun q => divGrad axi q a b * (q.J * q.w)) fun q _ => by ring]
      field_simp
  · rw [dif_neg hn1]
    refine ⟨_, rfl, rfl, _, rfl, ?_⟩
    intro ht p hp a b
    have hJ := ht p hp
    have e1 : ∀ j, (∑ l, (total pts fun q => divGrad axi q a b * (q.phi l * q.J * q.w)) * hinv pts j l)
        * (p.phi j / proj pts (·.J) p.phi) = (∑ l, hinv pts j l * total pts fun q =>
          q.phi l * (divGrad axi q a b * q.J) * q.w) * p.phi j / proj pts (·.J) p.phi := by
      intro j
      rw [mul_div_assoc]
      congr 1
      refine Finset.sum_congr rfl fun l _ => ?_
      rw [mul_comm]
      congr 1
      exact total_congr _ _ _ fun q _ => by ring
    show proj pts (·.J) p.phi * ∑ j, (∑ l, (total pts fun q => divGrad axi q a b
      * (q.phi l * q.J * q.w)) * hinv pts j l) * (p.phi j / proj pts (·.J) p.phi) = _
    simp only [e1]
    rw [Finset.mul_sum]
    unfold proj at hJ ⊢
    refine Finset.sum_congr rfl fun j _ => ?_
    field_simp

theorem condense_theta (axi : Bool) (hn : 1 ≤ nPM) (pts : List (Pt K nPM))
    (h1 : FirstIsOne hn pts) (h : (hmat pts).det ≠ 0) :
    ∃ C, condense axi pts = .ok C ∧ C.theta = pts.map fun p => proj pts (·.J) p.phi := by
  obtain ⟨C, e, t, -⟩ := condense_eq axi hn pts h1 h
  exact ⟨C, e, t⟩

/-- C33: for every number of integration points and pressure modes, the averaged volume changes integrate
to the deformed volume of the element. -/
theorem C33_volume (axi : Bool) (hn : 1 ≤ nPM) (pts : List (Pt K nPM))
    (h1 : FirstIsOne hn pts) (h : (hmat pts).det ≠ 0) :
    ∃ C, condense axi pts = .ok C ∧ C.theta.length = pts.length ∧
      ((C.theta.zip pts).map fun x => x.1 * x.2.w).sum = (pts.map fun p => p.J * p.w).sum := by
  obtain ⟨C, e, ht⟩ := condense_theta axi hn pts h1 h
  refine ⟨C, e, by rw [ht]; simp, ?_⟩
  have := proj_moment pts h (·.J) ⟨0, hn⟩
  rw [total_congr pts _ (fun p => proj pts (·.J) p.phi * p.w) (fun p hp => by rw [h1 p hp, mul_one]),
    total_congr pts (fun p => p.J * p.w * p.phi ⟨0, hn⟩) (fun p => p.J * p.w)
      (fun p hp => by rw [h1 p hp, mul_one])] at this
  rw [ht]
  refine Eq.trans ?_ this
  exact zip_total pts (fun p => proj pts (·.J) p.phi) (fun t p => t * p.w)

/-- C33, all moments: the averaged volume changes have the same integral against every pressure mode as
the pointwise ones. -/
theorem C33_moments (axi : Bool) (hn : 1 ≤ nPM) (pts : List (Pt K nPM))
    (h1 : FirstIsOne hn pts) (h : (hmat pts).det ≠ 0) (k : Fin nPM) :
    ∃ C, condense axi pts = .ok C ∧
      ((C.theta.zip pts).map fun x => x.1 * x.2.w * x.2.phi k).sum
        = (pts.map fun p => p.J * p.w * p.phi k).sum := by
  obtain ⟨C, e, ht⟩ := condense_theta axi hn pts h1 h
  refine ⟨C, e, ?_⟩
  have := proj_moment pts h (·.J) k
  rw [ht]
  refine Eq.trans ?_ this
  exact zip_total pts (fun p => proj pts (·.J) p.phi) (fun t p => t * p.w * p.phi k)

/-- C33: a volume change that is a combination of the pressure modes is reproduced at every integration
point; in particular a constant one. -/
theorem C33_reproduced (axi : Bool) (hn : 1 ≤ nPM) (pts : List (Pt K nPM))
    (h1 : FirstIsOne hn pts) (h : (hmat pts).det ≠ 0) (c : Fin nPM → K)
    (hc : ∀ p ∈ pts, p.J = ∑ i, c i * p.phi i) :
    ∃ C, condense axi pts = .ok C ∧ C.theta = pts.map fun p => p.J := by
  obtain ⟨C, e, ht⟩ := condense_theta axi hn pts h1 h
  refine ⟨C, e, ?_⟩
  rw [ht]
  exact List.map_congr_left fun p hp => by rw [proj_span pts h c (·.J) hc, hc p hp]

theorem C33_constant (axi : Bool) (hn : 1 ≤ nPM) (pts : List (Pt K nPM))
    (h1 : FirstIsOne hn pts) (h : (hmat pts).det ≠ 0) (J : K) (hJ : ∀ p ∈ pts, p.J = J) :
    ∃ C, condense axi pts = .ok C ∧ ∀ t ∈ C.theta, t = J := by
  obtain ⟨C, e, ht⟩ := C33_reproduced axi hn pts h1 h (fun i => if i = ⟨0, hn⟩ then J else 0)
    (fun p hp => by
      simp only [ite_mul, zero_mul, Finset.sum_ite_eq', Finset.mem_univ, if_true]
      rw [h1 p hp, hJ p hp, mul_one])
  refine ⟨C, e, fun t h => ?_⟩
  rw [ht, List.mem_map] at h
  obtain ⟨p, hp, rfl⟩ := h
  exact hJ p hp

/-- C33: the element is rejected exactly when the mode matrix is singular, and there is no undefined
behaviour. -/
theorem C33_reject (axi : Bool) (pts : List (Pt K nPM)) :
    (condense axi pts = .fail ↔ (hmat pts).det = 0) ∧ condense axi pts ≠ .ub := by
  unfold condense
  simp only
  by_cases h : (hmat pts).det = 0
  · rw [if_pos h]; simp [h]
  · rw [if_neg h]
    by_cases hn : nPM = 1
    · rw [dif_pos hn]; simp [h]
    · rw [dif_neg hn]; simp [h]

/-- Divergence of the nodal displacements `u` (node `a < n`, component `1..d`) for gradients `g`. -/
def divg (n d : Nat) (g : Nat → Nat → K) (u : Nat → Nat → K) : K :=
  ∑ a ∈ Finset.range n, ∑ i ∈ Finset.range d, g (a + 1) (i + 1) * u (a + 1) (i + 1)

/-- The divergence at an integration point, with the hoop strain in axisymmetry. -/
def pointDiv (axi : Bool) (n d : Nat) (p : Pt K nPM) (u : Nat → Nat → K) : K :=
  divg n d p.g u + if axi then ∑ a ∈ Finset.range n, p.nr (a + 1) * u (a + 1) 1 else 0

theorem divGrad_div (axi : Bool) (n d : Nat) (hd : 1 ≤ d) (p : Pt K nPM) (u : Nat → Nat → K) :
    divg n d (divGrad axi p) u = pointDiv axi n d p u := by
  unfold divg pointDiv divg
  cases axi with
  | false => simp [divGrad]
  | true =>
    rw [if_pos rfl, ← Finset.sum_add_distrib]
    refine Finset.sum_congr rfl fun a _ => ?_
    obtain ⟨d, rfl⟩ : ∃ e, d = e + 1 := ⟨d - 1, by omega⟩
    rw [Finset.sum_range_succ', Finset.sum_range_succ' (n := d)]
    have e1 : ∀ i, divGrad true p (a + 1) (i + 1 + 1) = p.g (a + 1) (i + 1 + 1) := by
      intro i; unfold divGrad; rw [if_neg (by omega)]
    have e2 : divGrad true p (a + 1) (0 + 1) = p.g (a + 1) (0 + 1) + p.nr (a + 1) := by
      unfold divGrad; rw [if_pos ⟨rfl, rfl⟩]
    simp only [e1]
    rw [e2]
    ring

theorem div_proj (axi : Bool) (n d : Nat) (hd : 1 ≤ d) (pts : List (Pt K nPM)) (u : Nat → Nat → K)
    (phi : Fin nPM → K) :
    divg n d (fun a b => proj pts (fun q => divGrad axi q a b * q.J) phi) u
      = proj pts (fun p => p.J * pointDiv axi n d p u) phi := by
  have : ∀ a b, proj pts (fun q => divGrad axi q a b * q.J) phi * u a b
      = proj pts (fun q => u a b * (divGrad axi q a b * q.J)) phi := by
    intro a b; rw [proj_mul]; ring
  unfold divg
  simp only [this, ← proj_sum]
  refine proj_congr _ _ _ (fun p _ => ?_) phi
  rw [← divGrad_div axi n d hd p u]
  unfold divg
  simp only [Finset.mul_sum]
  exact Finset.sum_congr rfl fun a _ => Finset.sum_congr rfl fun b _ => by ring

/-- C33, gradients: the modified gradients give the rate of the averaged volume change, i.e. the averaged
volume change of the rates `J div u` of the pointwise volume changes, for every displacement `u`. -/
theorem C33_gradient (axi : Bool) (hn : 1 ≤ nPM) (pts : List (Pt K nPM))
    (h1 : FirstIsOne hn pts) (h : (hmat pts).det ≠ 0) (n d : Nat) (hd : 1 ≤ d) (u : Nat → Nat → K)
    (ht : ∀ p ∈ pts, proj pts (·.J) p.phi ≠ 0) :
    ∃ C C', condense axi pts = .ok C ∧
      condense axi (pts.map fun p => { p with J := p.J * pointDiv axi n d p u }) = .ok C' ∧
      ((C.theta.zip C.gbar).map fun x => x.1 * divg n d x.2 u) = C'.theta := by
  have hm : hmat (pts.map fun p => { p with J := p.J * pointDiv axi n d p u }) = hmat pts := by
    unfold hmat; rw [List.map_map]; rfl
  have hi : hinv (pts.map fun p => { p with J := p.J * pointDiv axi n d p u }) = hinv pts := by
    unfold hinv; rw [hm]
  obtain ⟨C', e', ht'⟩ := condense_theta axi hn
    (pts.map fun p => { p with J := p.J * pointDiv axi n d p u }) (by
      intro p hp
      rw [List.mem_map] at hp
      obtain ⟨q, hq, rfl⟩ := hp
      exact h1 q hq) (by rw [hm]; exact h)
  obtain ⟨C, e, htC, G, hG, hg⟩ := condense_eq axi hn pts h1 h
  refine ⟨C, C', e, e', ?_⟩
  rw [ht', List.map_map]
  have hp' : ∀ phi, proj (pts.map fun p => { p with J := p.J * pointDiv axi n d p u }) (·.J) phi
      = proj pts (fun p => p.J * pointDiv axi n d p u) phi := by
    intro phi
    unfold proj
    rw [hi]
    refine Finset.sum_congr rfl fun i _ => ?_
    congr 1
    refine Finset.sum_congr rfl fun j _ => ?_
    congr 1
    unfold total
    rw [List.map_map]; rfl
  rw [htC, hG, List.zip_map', List.map_map]
  refine List.map_congr_left fun p hp => ?_
  simp only [Function.comp]
  rw [hp', ← div_proj axi n d hd]
  unfold divg
  simp only [Finset.mul_sum]
  refine Finset.sum_congr rfl fun a _ => Finset.sum_congr rfl fun b _ => ?_
  rw [← hg ht p hp]; ring

/-- C70: the virtual work of the mixed pressure over the deformed volume `theta w` with the pointwise
divergence equals that of the mean stress `q` of the material over the same volume with the divergence
formed from the modified gradients, for every displacement `u`. -/
theorem C70_work (axi : Bool) (hn : 1 ≤ nPM) (pts : List (Pt K nPM))
    (h1 : FirstIsOne hn pts) (h : (hmat pts).det ≠ 0) (q : Pt K nPM → K)
    (n d : Nat) (hd : 1 ≤ d) (u : Nat → Nat → K)
    (ht : ∀ p ∈ pts, proj pts (·.J) p.phi ≠ 0) :
    ∃ C, condense axi pts = .ok C ∧
      (((pressure pts (pts.map q) C.theta).zip (C.theta.zip pts)).map fun x =>
        x.1 * (x.2.1 * x.2.2.w) * pointDiv axi n d x.2.2 u).sum
      = (((pts.map q).zip ((C.theta.zip C.gbar).zip pts)).map fun x =>
        x.1 * (x.2.1.1 * x.2.2.w) * divg n d x.2.1.2 u).sum := by
  obtain ⟨C, e, htC, G, hG, hg⟩ := condense_eq axi hn pts h1 h
  refine ⟨C, e, ?_⟩
  have hS : ∀ i, (((pts.zip (pts.map q)).map fun x => x.2 * x.1.w * x.1.phi i).sum
      = total pts fun p => p.phi i * q p * p.w) := by
    intro i
    rw [zip_map_self, List.map_map]
    exact total_congr pts (fun p => q p * p.w * p.phi i) _ fun p _ => by ring
  have hP : pressure pts (pts.map q) C.theta
      = pts.map fun p => proj pts q p.phi * p.J / proj pts (·.J) p.phi := by
    unfold pressure
    simp only [hS]
    rw [htC, zip_map_self, List.map_map]
    rfl
  rw [hP, htC, hG, List.zip_map', zip_map_self', zip_map_self', List.zip_map', List.zip_map',
    List.map_map, List.map_map]
  show (total pts fun p => proj pts q p.phi * p.J / proj pts (·.J) p.phi *
      (proj pts (·.J) p.phi * p.w) * pointDiv axi n d p u)
    = total pts fun p => q p * (proj pts (·.J) p.phi * p.w) * divg n d (G p) u
  have e1 : (total pts fun p => proj pts q p.phi * p.J / proj pts (·.J) p.phi *
      (proj pts (·.J) p.phi * p.w) * pointDiv axi n d p u)
      = total pts fun p => proj pts q p.phi * (p.J * pointDiv axi n d p u) * p.w :=
    total_congr _ _ _ fun p hp => by
      have := ht p hp
      field_simp
  rw [e1, proj_adjoint pts h q fun p => p.J * pointDiv axi n d p u]
  refine total_congr _ _ _ fun p hp => ?_
  rw [← div_proj axi n d hd]
  have : divg n d (fun a b => proj pts (fun q => divGrad axi q a b * q.J) p.phi) u
      = proj pts (·.J) p.phi * divg n d (G p) u := by
    unfold divg
    simp only [Finset.mul_sum]
    refine Finset.sum_congr rfl fun a _ => Finset.sum_congr rfl fun b _ => ?_
    rw [← hg ht p hp]; ring
  rw [this]; ring

/-! ### The hypotheses can be met -/

/-- Two integration points, the modes `1` and `x`, and different volume changes. -/
def demo : List (Pt ℚ 2) :=
  [⟨1, 2, ![1, -1], fun a _ => a, fun a => a⟩, ⟨1, 3, ![1, 1], fun a b => a - b, fun a => 2 * a⟩]

theorem demo_det : (hmat demo).det = 4 := by
  rw [Matrix.det_fin_two]
  simp only [hmat_apply, total, demo, List.map_cons, List.map_nil, List.sum_cons, List.sum_nil]
  norm_num

example : FirstIsOne (by norm_num) demo ∧ (hmat demo).det ≠ 0 ∧
    (∀ p ∈ demo, proj demo (·.J) p.phi ≠ 0) ∧ ∃ c : Fin 2 → ℚ, ∀ p ∈ demo, p.J = ∑ i, c i * p.phi i := by
  have hc : ∀ p ∈ demo, p.J = ∑ i, (![5/2, 1/2] : Fin 2 → ℚ) i * p.phi i := by
    intro p hp
    simp only [demo, List.mem_cons, List.not_mem_nil, or_false] at hp
    rcases hp with rfl | rfl <;> simp [Fin.sum_univ_two] <;> norm_num
  have hd : (hmat demo).det ≠ 0 := by rw [demo_det]; norm_num
  refine ⟨?_, hd, ?_, _, hc⟩
  · intro p hp
    simp only [demo, List.mem_cons, List.not_mem_nil, or_false] at hp
    rcases hp with rfl | rfl <;> rfl
  · intro p hp
    rw [proj_span demo hd _ (·.J) hc, ← hc p hp]
    simp only [demo, List.mem_cons, List.not_mem_nil, or_false] at hp
    rcases hp with rfl | rfl <;> norm_num

/-- One mode, two points with different volume changes. -/
example : ∃ pts : List (Pt ℚ 1), FirstIsOne le_rfl pts ∧ (hmat pts).det ≠ 0 ∧ pts.length = 2 := by
  refine ⟨[⟨1, 2, fun _ => 1, fun a _ => a, fun a => a⟩, ⟨2, 3, fun _ => 1, fun a _ => a, fun a => a⟩],
    ?_, ?_, rfl⟩
  · intro p hp
    simp only [List.mem_cons, List.not_mem_nil, or_false] at hp
    rcases hp with rfl | rfl <;> rfl
  · rw [Matrix.det_fin_one, hmat_apply]
    simp only [total, List.map_cons, List.map_nil, List.sum_cons, List.sum_nil]
    norm_num

end Verif.Mixed
