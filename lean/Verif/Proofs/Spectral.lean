/- The generalised eigenvalue problem of two symmetric matrices, one of them positive definite. -/
import Mathlib.Analysis.Matrix.Spectrum
import Mathlib.Analysis.Matrix.PosDef

namespace Verif.Spectral

open Matrix

variable {S : Type*} [Fintype S] [DecidableEq S]

theorem diagonalise (A : Matrix S S ℝ) (hA : A.transpose = A) : ∃ (U : Matrix S S ℝ) (d : S → ℝ), U.transpose * U = 1 ∧ U.transpose * A * U = diagonal d := by
  have h : A.IsHermitian := by rw [IsHermitian, conjTranspose_eq_transpose_of_trivial, hA]
  refine ⟨h.eigenvectorUnitary, h.eigenvalues, ?_, ?_⟩
  · have := Unitary.coe_star_mul_self h.eigenvectorUnitary
    rwa [star_eq_conjTranspose, conjTranspose_eq_transpose_of_trivial] at this
  · have := h.conjStarAlgAut_star_eigenvectorUnitary
    rw [Unitary.conjStarAlgAut_star_apply, star_eq_conjTranspose, conjTranspose_eq_transpose_of_trivial] at this
    exact this

theorem generalised (A M : Matrix S S ℝ) (hA : A.transpose = A) (hM : M.transpose = M) (hpos : ∀ x : S → ℝ, x ≠ 0 → 0 < x ⬝ᵥ (M *ᵥ x)) :
    ∃ (P : Matrix S S ℝ) (lam : S → ℝ), P.transpose * M * P = 1 ∧ A * P = M * P * diagonal lam ∧ P * (P.transpose * M) = 1 := by
  obtain ⟨U, d, hU, hd⟩ := diagonalise M hM
  have hdpos : ∀ s, 0 < d s := by
    intro s
    have h1 : d s = (U *ᵥ Pi.single s 1) ⬝ᵥ (M *ᵥ (U *ᵥ Pi.single s 1)) := by
      have : d s = (U.transpose * M * U) s s := by rw [hd, diagonal_apply_eq]
      rw [this, mul_assoc, mulVec_mulVec, mulVec_single_one, mulVec_single_one, mul_apply]
      rfl
    rw [h1]
    refine hpos _ fun h0 => ?_
    have : U.transpose *ᵥ (U *ᵥ Pi.single s 1) = (Pi.single s 1 : S → ℝ) := by rw [mulVec_mulVec, hU, one_mulVec]
    rw [h0, mulVec_zero] at this
    have := congrFun this s
    simp at this
  obtain ⟨Q, hQ⟩ : ∃ Q, Q = U * diagonal fun s => (Real.sqrt (d s))⁻¹ := ⟨_, rfl⟩
  have hQM : Q.transpose * M * Q = 1 := by
    rw [hQ, transpose_mul, diagonal_transpose]
    rw [show diagonal (fun s => (Real.sqrt (d s))⁻¹) * U.transpose * M * (U * diagonal fun s => (Real.sqrt (d s))⁻¹) =
      diagonal (fun s => (Real.sqrt (d s))⁻¹) * (U.transpose * M * U) * diagonal fun s => (Real.sqrt (d s))⁻¹ by simp only [mul_assoc], hd, diagonal_mul_diagonal, diagonal_mul_diagonal, ← diagonal_one]
    refine congrArg diagonal (funext fun s => ?_)
    have h := Real.mul_self_sqrt (hdpos s).le
    have h' : Real.sqrt (d s) ≠ 0 := (Real.sqrt_pos.mpr (hdpos s)).ne'
    field_simp
    rw [pow_two, h]
  obtain ⟨V, e, hV, he⟩ := diagonalise (Q.transpose * A * Q) (by rw [transpose_mul, transpose_mul, transpose_transpose, hA, mul_assoc])
  have h1 : (Q * V).transpose * M * (Q * V) = 1 := by
    rw [transpose_mul, show V.transpose * Q.transpose * M * (Q * V) = V.transpose * (Q.transpose * M * Q) * V by simp only [mul_assoc], hQM, mul_one, hV]
  have h2 : (Q * V).transpose * A * (Q * V) = diagonal e := by
    rw [transpose_mul, show V.transpose * Q.transpose * A * (Q * V) = V.transpose * (Q.transpose * A * Q) * V by simp only [mul_assoc], he]
  have h3 : M * (Q * V) * (Q * V).transpose = 1 := mul_eq_one_comm.mp (by rw [← mul_assoc]; exact h1)
  refine ⟨Q * V, e, h1, ?_, mul_eq_one_comm.mp h1⟩
  rw [← h2, show M * (Q * V) * ((Q * V).transpose * A * (Q * V)) = (M * (Q * V) * (Q * V).transpose) * (A * (Q * V)) by simp only [mul_assoc], h3, one_mul]

end Verif.Spectral
