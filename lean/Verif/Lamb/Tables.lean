import Verif.Lamb.Lamb1
import Mathlib.Algebra.BigOperators.Fin
import Mathlib.Tactic.LinearCombination
import Mathlib.Tactic.FieldSimp

/-! The tables of `ckim_P` and `ckim_S1` are the numerators of the P and S parts of the plane-wave response. -/

namespace GRT.Lamb

open Complex Finset

/-- The polynomial with coefficients `c`. -/
noncomputable def poly (c : ℕ → ℂ) (x : ℂ) : ℂ := ∑ m ∈ range 10, c m * x ^ m

/-- P part of the response before division by `σ`, in the azimuths' independent pieces: `u`, `v` the vertical slownesses, `p2`, `q` the others. -/
noncomputable def pM (q p2 u v : ℂ) : ℕ → ℂ
  | 1 => 2 * v * q ^ 2
  | 2 => -2 * v * p2
  | 3 => 2 * q * u * v
  | 4 => q * (1 - 2 * (q ^ 2 - p2))
  | 5 => u * (1 - 2 * (q ^ 2 - p2))
  | _ => 0

/-- S part, times `v`. -/
noncomputable def sN (q p2 u v : ℂ) : ℕ → ℂ
  | 0 => v * v * (1 - 2 * (q ^ 2 - p2))
  | 1 => (1 - 2 * (q ^ 2 - p2) - 4 * u * v) * p2
  | 2 => -(1 - 2 * (q ^ 2 - p2) - 4 * u * v) * q ^ 2
  | 3 => -v * q * (1 - 2 * (q ^ 2 - p2))
  | 4 => -2 * q * u * v * v
  | 5 => 2 * u * v * (q ^ 2 - p2)
  | _ => 0

theorem tableP (nu az t : ℝ) (x e : ℂ) (he : e * e = (mkVars nu az).kpkp - x * x) (e0 : e ≠ 0) (i : ℕ) (hi : i < 6) :
    I * x * pM (-t) (t * t - (mkVars nu az).kk - x * x) (I * x) e i *
      ((1 - 2 * ((mkVars nu az).kk + x * x)) ^ 2 - 4 * (I * x) * e * ((mkVars nu az).kk + x * x)) =
      poly (ckimP1 (mkVars nu az) t i) x + poly (ckimP2 (mkVars nu az) t i) x / e := by
  have h1 : (mkVars nu az).h1 = 2 * (mkVars nu az).kk - 1 := rfl
  have h2 : (mkVars nu az).h2 = (mkVars nu az).kk * (1 - (mkVars nu az).kk) := rfl
  have h3 : (mkVars nu az).h3 = (1 - (mkVars nu az).kk) * (2 * (mkVars nu az).kk - 1) * (2 * (mkVars nu az).kk - 1) := rfl
  have h4 : (mkVars nu az).b3 = 3 * (1 - (mkVars nu az).kk) - 1 := rfl
  have h5 : (mkVars nu az).b6 = 6 * (1 - (mkVars nu az).kk) - 1 := rfl
  have h6 : (mkVars nu az).c = 6 * ((mkVars nu az).kk * (1 - (mkVars nu az).kk)) - 1 := rfl
  have h7 : (mkVars nu az).kpkp = 1 - (mkVars nu az).kk := rfl
  rw [h7] at he
  unfold poly
  simp only [sum_range_succ, sum_range_zero]
  generalize hV : mkVars nu az = V at *
  have hI : I * I = -1 := I_mul_I
  push_cast at he
  interval_cases i <;> simp only [ckimP1, ckimP2, pM, h1, h2, h3, h4, h5, h6] <;> push_cast
  · simp
  all_goals
    rw [← sub_eq_zero]
    field_simp
    generalize (V.kk : ℂ) = k at *
    generalize (t : ℂ) = t at *
    generalize I = I at *
    ring_nf
    have hI2 : I ^ 2 = -1 := by rw [← hI]; ring
    have hI3 : I ^ 3 = -I := by rw [pow_succ, hI2]; ring
    have e2 : e ^ 2 = 1 - k - x ^ 2 := by rw [sq, he]; ring
    have e3 : e ^ 3 = e * (1 - k - x ^ 2) := by rw [pow_succ, e2]; ring
    simp only [hI2, hI3, e2, e3]
    ring

theorem tableS (nu az t : ℝ) (x e : ℂ) (he : e * e = (mkVars nu az).kpkp + x * x) (e0 : e ≠ 0) (i : ℕ) (hi : i < 6) :
    sN (-t) (t * t - 1 - x * x) (I * e) (I * x) i *
      ((1 - 2 * (1 + x * x)) ^ 2 - 4 * (I * e) * (I * x) * (1 + x * x)) =
      poly (ckimS1 (mkVars nu az) t i) x + poly (ckimS2 (mkVars nu az) t i) x / e := by
  have h7 : (mkVars nu az).kpkp = 1 - (mkVars nu az).kk := rfl
  unfold poly
  simp only [sum_range_succ, sum_range_zero]
  generalize hV : mkVars nu az = V at *
  rw [h7] at he
  have hI : I * I = -1 := I_mul_I
  push_cast at he
  interval_cases i <;> simp only [ckimS1, ckimS2, sN, h7] <;> push_cast
  all_goals
    rw [← sub_eq_zero]
    field_simp
    generalize (V.kk : ℂ) = k at *
    generalize (t : ℂ) = t at *
    generalize I = I at *
    ring_nf
    have hI2 : I ^ 2 = -1 := by rw [← hI]; ring
    have hI3 : I ^ 3 = -I := by rw [pow_succ, hI2]; ring
    have hI4 : I ^ 4 = 1 := by rw [pow_succ, hI3]; linear_combination -hI
    have hI5 : I ^ 5 = I := by rw [pow_succ, hI4]; ring
    have e2 : e ^ 2 = 1 - k + x ^ 2 := by rw [sq, he]
                                          ring
    have e3 : e ^ 3 = e * (1 - k + x ^ 2) := by rw [pow_succ, e2]; ring
    have e4 : e ^ 4 = (1 - k + x ^ 2) ^ 2 := by rw [← e2]; ring
    simp only [hI2, hI3, hI4, hI5, e2, e3, e4]
    ring

end GRT.Lamb
