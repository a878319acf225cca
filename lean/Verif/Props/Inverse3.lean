import Verif.Model.Inverse3
import Mathlib.LinearAlgebra.Matrix.NonsingularInverse
import Mathlib.Algebra.CharZero.Defs
import Mathlib.Tactic.FieldSimp
import Mathlib.Algebra.BigOperators.Field
import Mathlib.Tactic.FinCases
import Mathlib.Tactic.LinearCombination
import Mathlib.Algebra.Field.Rat

/-! # Inverses of three by three matrices (C106) -/

namespace Feyn
variable {F : Type} [Field F]

private theorem dot_det (A : Matrix (Fin 3) (Fin 3) F) (i : Fin 3) : pyDot (pyAdjoint A) A i = A.det := by
  rw [Matrix.det_fin_three]
  have e1 : (-1 : Fin 3) = 2 := rfl
  have e2 : (-2 : Fin 3) = 1 := rfl
  fin_cases i <;> simp [pyDot, pyAdjoint, cross_apply, Fin.sum_univ_three, e1, e2] <;> ring

private theorem adjoint_mul (A : Matrix (Fin 3) (Fin 3) F) (i j : Fin 3) : ∑ k, A i k * pyAdjoint A j k = if i = j then A.det else 0 := by
  rw [Matrix.det_fin_three]
  have e1 : (-1 : Fin 3) = 2 := rfl
  have e2 : (-2 : Fin 3) = 1 := rfl
  fin_cases i <;> fin_cases j <;> simp [pyAdjoint, cross_apply, Fin.sum_univ_three, e1, e2] <;> ring

/-- **C106.** The inverse of a matrix with a determinant different from zero is found, from both sides, and no other one is an inverse. -/
theorem C106_inverse [CharZero F] [DecidableEq F] {A : Matrix (Fin 3) (Fin 3) F} (h : A.det ≠ 0) : ∃ B, pyInverse3 A = some B ∧ A * B = 1 ∧ B * A = 1 ∧ ∀ C, A * C = 1 → C = B := by
  have hs : (∑ i, pyDot (pyAdjoint A) A i) / 3 = A.det := by
    simp only [dot_det, Fin.sum_univ_three]
    have : (3 : F) ≠ 0 := by exact_mod_cast (by norm_num : (3 : ℕ) ≠ 0)
    field_simp
    ring
  have h1 : A * (Matrix.of fun i j => pyAdjoint A j i / A.det) = 1 := by
    ext i j
    rw [Matrix.mul_apply]
    simp only [Matrix.of_apply]
    have := adjoint_mul A i j
    simp only [← mul_div_assoc, ← Finset.sum_div, this, Matrix.one_apply]
    split
    · exact div_self h
    · exact zero_div _
  refine ⟨_, ?_, h1, mul_eq_one_comm.1 h1, fun C hC => ?_⟩
  · simp only [pyInverse3, pyInverseTranspose, hs, if_neg h]
    rfl
  · have := congrArg (fun X => (Matrix.of fun i j => pyAdjoint A j i / A.det) * X) hC
    simp only [← Matrix.mul_assoc, mul_eq_one_comm.1 h1, Matrix.one_mul, Matrix.mul_one] at this
    exact this

/-- **C106.** The function divides by zero exactly if the matrix has no inverse. -/
theorem C106_singular [CharZero F] [DecidableEq F] (A : Matrix (Fin 3) (Fin 3) F) : pyInverse3 A = none ↔ ¬ ∃ B, A * B = 1 := by
  by_cases h : A.det = 0
  · refine ⟨fun _ => ?_, fun _ => ?_⟩
    · rintro ⟨B, hB⟩
      have := congrArg Matrix.det hB
      rw [Matrix.det_mul, h, zero_mul, Matrix.det_one] at this
      exact zero_ne_one this
    · simp only [pyInverse3, pyInverseTranspose, dot_det, h, Finset.sum_const_zero, zero_div, if_pos]
      rfl
  · obtain ⟨B, h1, h2, -, -⟩ := C106_inverse h
    constructor
    · intro h'
      rw [h1] at h'
      cases h'
    · intro h'
      exact absurd ⟨B, h2⟩ h'

/-- A matrix that is not symmetric, with determinant -3. -/
example : (!![1, 2, 3; 4, 5, 6; 7, 8, 10] : Matrix (Fin 3) (Fin 3) ℚ).det = -3 := by
  rw [Matrix.det_fin_three]; simp; norm_num

end Feyn
