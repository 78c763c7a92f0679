import Verif.RT.Model
import Mathlib.LinearAlgebra.Matrix.Determinant.Basic
import Mathlib.LinearAlgebra.Matrix.NonsingularInverse
import Mathlib.LinearAlgebra.Matrix.SchurComplement
import Mathlib.Tactic.Ring
import Mathlib.Tactic.FieldSimp
import Mathlib.Tactic.LinearCombination
import Mathlib.Tactic.NoncommRing

/-! Helper lemmas for the reflection/transmission recursion. -/

namespace GRT.RT

variable {K : Type*} [Field K] [DecidableEq K]

omit [DecidableEq K] in
@[simp] theorem mul_eq (A B : Mat2 K) : mul A B = A * B := by
  ext i j; fin_cases i <;> fin_cases j <;> simp [mul, Matrix.mul_apply, Fin.sum_univ_two]

omit [DecidableEq K] in
@[simp] theorem add_eq (A B : Mat2 K) : add A B = A + B := by
  ext i j; fin_cases i <;> fin_cases j <;> simp [add]

omit [DecidableEq K] in
@[simp] theorem oneSub_eq (A : Mat2 K) : oneSub A = 1 - A := by
  ext i j; fin_cases i <;> fin_cases j <;> simp [oneSub]

omit [DecidableEq K] in
theorem eye_eq : (!![1, 0; 0, 1] : Mat2 K) = 1 := by
  ext i j; fin_cases i <;> fin_cases j <;> simp

theorem inv_none {A : Mat2 K} : inv A = none ↔ A.det = 0 := by
  simp [inv, Matrix.det_fin_two]

theorem inv_eq {A : Mat2 K} (h : A.det ≠ 0) : inv A = some A⁻¹ := by
  rw [Matrix.inv_def, Matrix.adjugate_fin_two, Ring.inverse_eq_inv']
  have h' := h
  rw [Matrix.det_fin_two] at h'
  simp only [inv, h', if_false, Matrix.det_fin_two, Option.some.injEq]
  ext i j; fin_cases i <;> fin_cases j <;> simp [mul_comm]

theorem inv_some {A B : Mat2 K} (h : inv A = some B) : A.det ≠ 0 ∧ B = A⁻¹ := by
  by_cases hd : A.det = 0
  · rw [inv_none.2 hd] at h; cases h
  · rw [inv_eq hd] at h; exact ⟨hd, (Option.some.inj h).symm⟩

omit [DecidableEq K] in
theorem det_comm (A B : Mat2 K) : (1 - A * B).det = (1 - B * A).det := by
  simp [Matrix.det_fin_two, Matrix.mul_apply, Fin.sum_univ_two]; ring

omit [DecidableEq K] in
theorem mul_inv' {A : Mat2 K} (h : A.det ≠ 0) : A * A⁻¹ = 1 :=
  Matrix.mul_nonsing_inv _ (isUnit_iff_ne_zero.2 h)

omit [DecidableEq K] in
theorem inv_mul' {A : Mat2 K} (h : A.det ≠ 0) : A⁻¹ * A = 1 :=
  Matrix.nonsing_inv_mul _ (isUnit_iff_ne_zero.2 h)

end GRT.RT
