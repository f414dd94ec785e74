/-
C102: the norms of nonlinear simulations are those they are named after.
-/
import Verif.Model.NormUL
import Mathlib.Algebra.BigOperators.Ring.Finset
import Mathlib.Algebra.CharZero.Defs
import Mathlib.Tactic.FieldSimp
import Mathlib.Tactic.Ring
import Mathlib.Tactic.NormNum
import Mathlib.Tactic.LinearCombination

set_option linter.unusedSectionVars false
set_option linter.unusedSimpArgs false
set_option linter.unusedVariables false

namespace Verif.NormUL

section
variable {K : Type} [Field K] [CharZero K]

/-- The stress tensors of the formulations: solids, plane strain or axial symmetry. -/
inductive Full : Sym K → Prop
  | solid (x y z a b c : K) : Full ⟨3, [x, y, z], [a, b, c]⟩
  | plane (x y z a : K) : Full ⟨2, [x, y, z], [a]⟩

/-- Plane stress. -/
inductive PlaneStress : Sym K → Prop
  | mk (x y a : K) : PlaneStress ⟨2, [x, y], [a]⟩

theorem foldl_gen (ps : List (Pt K)) (n : Norms K) :
    ps.foldl (fun n p => evalInt n p.S p.U p.J p.w) n =
    { energy := n.energy + (ps.map fun p => p.U * p.w).sum
      ext := n.ext
      stress := n.stress + (ps.map fun p => p.S.dot * (p.w * p.J)).sum
      press := n.press + (ps.map fun p => pressure p.S * pressure p.S * (p.w * p.J)).sum
      dev := n.dev + (ps.map fun p => (p.S.sub (pressure p.S)).dot * (p.w * p.J)).sum
      vm := n.vm + (ps.map fun p => p.S.vm * (p.w * p.J)).sum
      vol := n.vol + (ps.map fun p => p.w * p.J).sum } := by
  induction ps generalizing n with
  | nil => simp
  | cons p ps ih =>
    rw [List.foldl_cons, ih]
    simp only [evalInt, List.map_cons, List.sum_cons, add_assoc]

theorem sum_lin (ps : List (Pt K)) (f g h : Pt K → K) (c : K) (hp : ∀ p ∈ ps, f p = g p + c * h p) :
    (ps.map f).sum = (ps.map g).sum + c * (ps.map h).sum := by
  induction ps with
  | nil => simp
  | cons p ps ih =>
    simp only [List.map_cons, List.sum_cons]
    rw [ih (fun q hq => hp q (List.mem_cons_of_mem _ hq)), hp p (by simp)]
    ring

/-- C102: the energy is the integral of the strain energy density over the initial volume, and the volume that of the determinant, the deformed volume. -/
theorem C102_energy (ps : List (Pt K)) : (total ps).energy = (ps.map fun p => p.U * p.w).sum ∧ (total ps).vol = (ps.map fun p => p.J * p.w).sum := by
  rw [total, foldl_gen]
  simp only [Norms.zero, zero_add, true_and]
  congr 1
  exact List.map_congr_left (fun p _ => mul_comm _ _)

/-- C102: the stress norm is the integral of the contraction of the stresses over the deformed volume. -/
theorem C102_stress (ps : List (Pt K)) :
    (total ps).stress = (ps.map fun p => ((p.S.d.map fun x => x ^ 2).sum + 2 * (p.S.s.map fun x => x ^ 2).sum) * (p.J * p.w)).sum := by
  rw [total, foldl_gen]
  simp only [Norms.zero, zero_add]
  congr 1
  refine List.map_congr_left (fun p _ => ?_)
  simp only [Sym.dot, pow_two, mul_comm p.J]

/-- C102: the squared stress norm is the sum of the deviatoric and three times the pressure norm, for solids, plane strain and axial symmetry, and the pressure is a third of the trace. -/
theorem C102_split (ps : List (Pt K)) (h : ∀ p ∈ ps, Full p.S) :
    (total ps).stress = (total ps).dev + 3 * (total ps).press ∧
    (total ps).press = (ps.map fun p => (p.S.d.sum / 3) ^ 2 * (p.J * p.w)).sum := by
  have e : ∀ p ∈ ps, pressure p.S = p.S.d.sum / 3 := by
    intro p hp
    have := h p hp
    revert this
    generalize p.S = S
    intro hS
    cases hS <;> simp [pressure, Sym.size, Sym.trace]
  rw [total, foldl_gen]
  simp only [Norms.zero, zero_add]
  refine ⟨?_, ?_⟩
  · apply sum_lin
    intro p hp
    rw [e p hp]
    have := h p hp
    revert this
    generalize p.S = S
    intro hS
    cases hS <;> simp [Sym.dot, Sym.sub] <;> ring
  · congr 1
    refine List.map_congr_left (fun p hp => ?_)
    rw [e p hp, pow_two, mul_comm p.J]

/-- C102, partial: the squared von Mises norm is three halves of the deviatoric one, for solids, plane strain and axial symmetry. -/
theorem C102_von_mises_partial (ps : List (Pt K)) (h : ∀ p ∈ ps, Full p.S) : (total ps).vm = 3 / 2 * (total ps).dev := by
  rw [total, foldl_gen]
  simp only [Norms.zero, zero_add]
  have := sum_lin ps (fun p => p.S.vm * (p.w * p.J)) (fun _ => 0) (fun p => (p.S.sub (pressure p.S)).dot * (p.w * p.J)) (3 / 2) (by
    intro p hp
    have := h p hp
    revert this
    generalize p.S = S
    intro hS
    cases hS <;> simp [pressure, Sym.size, Sym.trace, Sym.dot, Sym.sub, Sym.vm] <;> ring)
  rw [this]
  simp

/-- C102 fails for plane stress: the pressure is half of the trace, not a third as printed, and the deviatoric norm misses the out-of-plane part. -/
theorem C102_plane_stress_violated (ps : List (Pt K)) (h : ∀ p ∈ ps, PlaneStress p.S) :
    (total ps).stress = (total ps).dev + 2 * (total ps).press ∧ (total ps).press = (ps.map fun p => (p.S.d.sum / 2) ^ 2 * (p.J * p.w)).sum ∧
    (total ps).vm = 3 / 2 * (total ps).dev + (total ps).press := by
  have e : ∀ p ∈ ps, pressure p.S = p.S.d.sum / 2 := by
    intro p hp
    have := h p hp
    revert this
    generalize p.S = S
    intro hS
    cases hS; simp [pressure, Sym.size, Sym.trace]
  rw [total, foldl_gen]
  simp only [Norms.zero, zero_add]
  refine ⟨?_, ?_, ?_⟩
  · apply sum_lin
    intro p hp
    rw [e p hp]
    have := h p hp
    revert this
    generalize p.S = S
    intro hS
    cases hS; simp [Sym.dot, Sym.sub]; ring
  · congr 1
    refine List.map_congr_left (fun p hp => ?_)
    rw [e p hp, pow_two, mul_comm p.J]
  · have := sum_lin ps (fun p => p.S.vm * (p.w * p.J)) (fun p => 3 / 2 * ((p.S.sub (pressure p.S)).dot * (p.w * p.J))) (fun p => pressure p.S * pressure p.S * (p.w * p.J)) 1 (by
      intro p hp
      rw [e p hp]
      have := h p hp
      revert this
      generalize p.S = S
      intro hS
      cases hS; simp [Sym.dot, Sym.sub, Sym.vm]; ring)
    rw [this, List.sum_map_mul_left, one_mul]

example : Full (⟨3, [100, 20, -5], [3, 0, 1]⟩ : Sym ℚ) ∧ PlaneStress (⟨2, [100, 20], [3]⟩ : Sym ℚ) := ⟨.solid .., .mk ..⟩

/-- C102: in the mixed formulation with internal modes, of which one is constant, the integral of the volume change field is the deformed volume. -/
theorem C102_mixed_volume {m n : Nat} (Hi : Matrix (Fin m) (Fin m) K) (Phi : Fin m → Fin n → K) (J w : Fin n → K) (i0 : Fin m) (h1 : ∀ a, Phi i0 a = 1)
    (hH : modes Phi w * Hi = 1) : ∑ a, theta Hi Phi J w a * w a = ∑ a, J a * w a := by
  have gen : ∑ a, (∑ i, (∑ j, Hi i j * ∑ b, Phi j b * J b * w b) * Phi i a) * w a = ∑ a, J a * w a := by
    have e1 : ∀ i, ∑ a, Phi i a * w a = modes Phi w i0 i := by
      intro i
      refine Finset.sum_congr rfl (fun a _ => ?_)
      rw [h1 a, one_mul]
    calc ∑ a, (∑ i, (∑ j, Hi i j * ∑ b, Phi j b * J b * w b) * Phi i a) * w a
        = ∑ a, ∑ i, (∑ j, Hi i j * ∑ b, Phi j b * J b * w b) * (Phi i a * w a) := by
          refine Finset.sum_congr rfl (fun a _ => ?_)
          rw [Finset.sum_mul]
          exact Finset.sum_congr rfl (fun i _ => by ring)
      _ = ∑ i, (∑ j, Hi i j * ∑ b, Phi j b * J b * w b) * modes Phi w i0 i := by
          rw [Finset.sum_comm]
          refine Finset.sum_congr rfl (fun i _ => ?_)
          rw [← Finset.mul_sum, e1 i]
      _ = ∑ i, ∑ j, (modes Phi w i0 i * Hi i j) * ∑ b, Phi j b * J b * w b := by
          refine Finset.sum_congr rfl (fun i _ => ?_)
          rw [Finset.sum_mul]
          exact Finset.sum_congr rfl (fun j _ => by ring)
      _ = ∑ j, ((modes Phi w * Hi) i0 j) * ∑ b, Phi j b * J b * w b := by
          rw [Finset.sum_comm]
          refine Finset.sum_congr rfl (fun j _ => ?_)
          rw [Matrix.mul_apply, Finset.sum_mul]
      _ = ∑ b, Phi i0 b * J b * w b := by
          rw [hH, Finset.sum_eq_single i0]
          · rw [Matrix.one_apply_eq, one_mul]
          · intro j _ hj; rw [Matrix.one_apply_ne (Ne.symm hj), zero_mul]
          · intro h; exact absurd (Finset.mem_univ _) h
      _ = ∑ a, J a * w a := Finset.sum_congr rfl (fun a _ => by rw [h1 a, one_mul])
  by_cases hm : m = 1
  · subst hm
    have hu : ∀ i : Fin 1, i = 0 := fun i => Subsingleton.elim _ _
    have h0 : ∀ a, Phi 0 a = 1 := fun a => by rw [← hu i0]; exact h1 a
    rw [← gen]
    refine Finset.sum_congr rfl (fun a _ => ?_)
    rw [theta, dif_pos rfl]
    simp only [Fin.sum_univ_one, h0, one_mul, mul_one]
    congr 1
    rw [mul_comm]
    rfl
  · rw [← gen]
    refine Finset.sum_congr rfl (fun a _ => ?_)
    rw [theta, dif_neg hm]

example : modes (fun (_ : Fin 1) (_ : Fin 2) => (1 : ℚ)) (fun _ => 1 / 4) * (Matrix.of fun _ _ => 2) = 1 := by
  ext i j
  rw [Subsingleton.elim i 0, Subsingleton.elim j 0]
  simp [modes, Matrix.mul_apply]
  norm_num

end

/-! ### Print-out -/

/-- C102, partial: the labels printed for solutions in the updated Lagrange formulations are those of the quantities. -/
theorem C102_labels_partial (small : Bool) : (labels 7 small).all (fun p => decide (p.1 ≥ 1 ∧ quantitiesUL[p.1 - 1]? = some p.2)) = true ∧
    (labels 7 small).map Prod.fst = if small then [1, 3, 4, 5, 6] else [1, 2, 3, 4, 5, 6] := by
  cases small <;> decide

/-- C102 fails for models in total Lagrange formulation: the volume is printed as stress norm; with an analytical solution the exact energy is printed as stress norm, the error as pressure
norm, and the volume as deviatoric stress norm. -/
theorem C102_labels_violated (small : Bool) :
    ((3, Q.stress) ∈ labels (quantitiesLin false).length small ∧ (quantitiesLin false)[2]? = some .volume) ∧
    ((3, Q.stress) ∈ labels (quantitiesLin true).length small ∧ (quantitiesLin true)[2]? = some .exact) ∧
    ((4, Q.pressure) ∈ labels (quantitiesLin true).length small ∧ (quantitiesLin true)[3]? = some .error) ∧
    ((5, Q.deviatoric) ∈ labels (quantitiesLin true).length small ∧ (quantitiesLin true)[4]? = some .volume) := by
  cases small <;> decide

/-- C102: norms are computed for every solution unless the output is switched off, energies are not asked for, or the mesh is adapted. -/
theorem C102_compute (msgLevel : Int) (haveSol adap : Bool) (tags : List Bool) :
    computeNorms msgLevel haveSol (calcEn adap tags) adap true = true ↔ 0 ≤ msgLevel ∧ haveSol = true ∧ adap = false ∧ tags.getLast? ≠ some false := by
  have e : calcEn false tags ≠ 0 ↔ tags.getLast? ≠ some false := by
    induction tags using List.reverseRecOn with
    | nil => simp [calcEn]
    | append_singleton l t ih =>
      simp only [calcEn, List.foldl_append, List.foldl_cons, List.foldl_nil, List.getLast?_append, List.getLast?_singleton, Option.some_or]
      cases t <;> simp
  cases adap
  · simp only [computeNorms, Bool.and_eq_true, decide_eq_true_eq, e, Bool.not_false, and_true, true_and, and_assoc]
  · simp [computeNorms]

/-- C102: the energy flag is that of the last tag; without tags the norms are printed, except in adaptive models. -/
theorem C102_flag (adap : Bool) (tags : List Bool) (t : Bool) :
    calcEn true [] = 0 ∧ calcEn false [] = 1 ∧ calcEn adap (tags ++ [t]) = if t then 2 else 0 := by
  simp [calcEn]

end Verif.NormUL
