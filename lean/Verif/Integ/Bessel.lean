import Mathlib.Analysis.SpecialFunctions.Integrals.Basic
import Mathlib.Analysis.Calculus.ParametricIntervalIntegral

/-!
Bessel functions of integer order.  The code calls `j0`, `j1` and `jn(2, ·)` of the C library
(pygrt/C_extension/src/common/bessel.c 13-17); they are modelled by the Bessel functions themselves.
-/

namespace GRT.Integ

open Real MeasureTheory Filter Topology

/-- Bessel function of the first kind (Bessel's integral). -/
noncomputable def J (n : ℤ) (x : ℝ) : ℝ := (1 / (2 * π)) * ∫ t in (0 : ℝ)..(2 * π), cos (n * t - x * sin t)

theorem cont_arg (n : ℤ) (x : ℝ) : Continuous fun t : ℝ => n * t - x * sin t := by fun_prop

theorem int_cos (n : ℤ) (x : ℝ) : IntervalIntegrable (fun t : ℝ => cos (n * t - x * sin t)) volume 0 (2 * π) :=
  (continuous_cos.comp (cont_arg n x)).intervalIntegrable _ _

theorem sin_int_two_pi (n : ℤ) : sin (n * (2 * π)) = 0 := by
  have := sin_int_mul_pi (n * 2)
  push_cast at this
  rw [← this]; ring_nf

theorem cos_shift (n : ℤ) (x t : ℝ) : cos (((n - 1 : ℤ) : ℝ) * t - x * sin t) = cos (n * t - x * sin t) * cos t + sin (n * t - x * sin t) * sin t ∧
    cos (((n + 1 : ℤ) : ℝ) * t - x * sin t) = cos (n * t - x * sin t) * cos t - sin (n * t - x * sin t) * sin t := by
  push_cast
  have e1 : ((n : ℝ) - 1) * t - x * sin t = (n * t - x * sin t) - t := by ring
  have e2 : ((n : ℝ) + 1) * t - x * sin t = (n * t - x * sin t) + t := by ring
  rw [e1, e2, cos_sub (n * t - x * sin t) t, cos_add (n * t - x * sin t) t]
  exact ⟨rfl, rfl⟩

/-- `Jₙ' = (Jₙ₋₁ - Jₙ₊₁)/2`. -/
theorem J_hasDerivAt (n : ℤ) (x : ℝ) : HasDerivAt (J n) ((J (n - 1) x - J (n + 1) x) / 2) x := by
  have key := intervalIntegral.hasDerivAt_integral_of_dominated_loc_of_deriv_le (μ := volume) (a := 0) (b := 2 * π)
    (F := fun y t => cos (n * t - y * sin t)) (F' := fun y t => sin (n * t - y * sin t) * sin t) (x₀ := x)
    (s := Set.univ) (bound := fun _ => 1) Filter.univ_mem
    (Eventually.of_forall fun y => ((continuous_cos.comp (cont_arg n y)).aestronglyMeasurable))
    ((continuous_cos.comp (cont_arg n x)).intervalIntegrable _ _)
    (((continuous_sin.comp (cont_arg n x)).mul continuous_sin).aestronglyMeasurable)
    (Eventually.of_forall fun t _ y _ => by
      rw [norm_mul, norm_eq_abs, norm_eq_abs]
      exact mul_le_one₀ (abs_sin_le_one _) (abs_nonneg _) (abs_sin_le_one _))
    (by simp)
    (Eventually.of_forall fun t _ y _ => by
      have h1 : HasDerivAt (fun y : ℝ => n * t - y * sin t) (-(1 * sin t)) y :=
        ((hasDerivAt_id y).mul_const (sin t)).const_sub _
      have h2 := h1.cos
      refine h2.congr_deriv ?_
      ring)
  have h := key.2.const_mul (1 / (2 * π))
  have e : 1 / (2 * π) * ∫ t in (0 : ℝ)..(2 * π), sin (n * t - x * sin t) * sin t = (J (n - 1) x - J (n + 1) x) / 2 := by
    unfold J
    rw [← mul_sub, ← intervalIntegral.integral_sub (int_cos (n - 1) x) (int_cos (n + 1) x), mul_div_assoc,
      ← intervalIntegral.integral_div]
    congr 1
    apply intervalIntegral.integral_congr
    intro t _
    simp only [(cos_shift n x t).1, (cos_shift n x t).2]
    ring
  rw [← e]
  exact h

/-- `Jₙ₋₁ + Jₙ₊₁ = 2n/x Jₙ`. -/
theorem J_rec (n : ℤ) (x : ℝ) : x * (J (n - 1) x + J (n + 1) x) = 2 * n * J n x := by
  have h1 : ∫ t in (0 : ℝ)..(2 * π), cos (n * t - x * sin t) * (n - x * cos t) = 0 := by
    rw [intervalIntegral.integral_eq_sub_of_hasDerivAt (f := fun t => sin (n * t - x * sin t))]
    · have : (n : ℝ) * (2 * π) - x * sin (2 * π) = n * (2 * π) := by rw [sin_two_pi]; ring
      rw [this, sin_zero]
      simp only [mul_zero, sub_self, sin_zero, sub_zero]
      exact sin_int_two_pi n
    · intro t _
      have h : HasDerivAt (fun t : ℝ => n * t - x * sin t) (n * 1 - x * cos t) t :=
        ((hasDerivAt_id t).const_mul (n : ℝ)).sub ((hasDerivAt_sin t).const_mul x)
      have := h.sin
      rwa [mul_one] at this
    · apply Continuous.intervalIntegrable
      exact (continuous_cos.comp (cont_arg n x)).mul (by fun_prop)
  have h2 : ∀ t : ℝ, cos (n * t - x * sin t) * (n - x * cos t) =
      n * cos (n * t - x * sin t) - x / 2 * (cos (((n - 1 : ℤ) : ℝ) * t - x * sin t) + cos (((n + 1 : ℤ) : ℝ) * t - x * sin t)) := by
    intro t
    rw [(cos_shift n x t).1, (cos_shift n x t).2]
    ring
  simp only [h2] at h1
  have i0 := int_cos n x
  have i1 := int_cos (n - 1) x
  have i2 := int_cos (n + 1) x
  rw [intervalIntegral.integral_sub (i0.const_mul _) ((i1.add i2).const_mul _), intervalIntegral.integral_const_mul,
    intervalIntegral.integral_const_mul] at h1
  have h3 : ∫ t in (0 : ℝ)..(2 * π), (cos (((n - 1 : ℤ) : ℝ) * t - x * sin t) + cos (((n + 1 : ℤ) : ℝ) * t - x * sin t)) =
      (∫ t in (0 : ℝ)..(2 * π), cos (((n - 1 : ℤ) : ℝ) * t - x * sin t)) +
      ∫ t in (0 : ℝ)..(2 * π), cos (((n + 1 : ℤ) : ℝ) * t - x * sin t) := intervalIntegral.integral_add i1 i2
  rw [h3] at h1
  unfold J
  linear_combination (-2 / (2 * π)) * h1

theorem J_zero (n : ℤ) : J n 0 = if n = 0 then 1 else 0 := by
  unfold J
  split
  · rename_i h
    subst h
    simp
    field_simp
  · rename_i h
    have hn : (n : ℝ) ≠ 0 := by exact_mod_cast h
    have : ∫ t in (0 : ℝ)..(2 * π), cos (n * t - 0 * sin t) = 0 := by
      have e : ∀ t : ℝ, cos (n * t - 0 * sin t) = cos (n * t) := by intro t; ring_nf
      simp only [e]
      rw [intervalIntegral.integral_comp_mul_left (fun t => cos t) hn, integral_cos]
      rw [sin_int_two_pi]
      simp
    rw [this, mul_zero]

theorem J_neg_one (x : ℝ) : J (-1) x = -J 1 x := by
  by_cases hx : x = 0
  · subst hx
    rw [J_zero, J_zero]
    norm_num
  · have := J_rec 0 x
    simp only [zero_sub, zero_add, Int.cast_zero, mul_zero, zero_mul] at this
    have := (mul_eq_zero.1 this).resolve_left hx
    linarith

theorem J_abs_le_one (n : ℤ) (x : ℝ) : |J n x| ≤ 1 := by
  unfold J
  have h : ‖∫ t in (0 : ℝ)..(2 * π), cos (n * t - x * sin t)‖ ≤ 1 * |2 * π - 0| :=
    intervalIntegral.norm_integral_le_of_norm_le_const fun t _ => by rw [norm_eq_abs]; exact abs_cos_le_one _
  rw [abs_mul]
  rw [norm_eq_abs, sub_zero, one_mul] at h
  have hp : 0 < 2 * π := by positivity
  rw [abs_of_pos (by positivity : 0 < 1 / (2 * π))]
  rw [abs_of_pos hp] at h
  calc 1 / (2 * π) * _ ≤ 1 / (2 * π) * (2 * π) := by gcongr
    _ = 1 := by field_simp

theorem J_continuous (n : ℤ) : Continuous (J n) :=
  continuous_iff_continuousAt.2 fun x => (J_hasDerivAt n x).continuousAt

/-- Derivatives as in `grt_besselp012`. -/
theorem J0_deriv (x : ℝ) : HasDerivAt (J 0) (-J 1 x) x := by
  have h := J_hasDerivAt 0 x
  rw [zero_sub, zero_add, J_neg_one] at h
  convert h using 1
  ring

theorem J1_deriv (x : ℝ) (hx : x ≠ 0) : HasDerivAt (J 1) (J 0 x - 1 / x * J 1 x) x := by
  have h := J_hasDerivAt 1 x
  have r := J_rec 1 x
  norm_num at h r
  convert h using 1
  field_simp
  linear_combination r

theorem J2_deriv (x : ℝ) (hx : x ≠ 0) : HasDerivAt (J 2) (J 1 x - 2 / x * J 2 x) x := by
  have h := J_hasDerivAt 2 x
  have r := J_rec 2 x
  norm_num at h r
  convert h using 1
  field_simp
  linear_combination r

/-! ### Behaviour at the origin -/

theorem J_div_tendsto (n : ℤ) (hn : n ≠ 0) :
    Tendsto (fun x => J n x / x) (𝓝[≠] 0) (𝓝 ((J (n - 1) 0 - J (n + 1) 0) / 2)) := by
  have h := (J_hasDerivAt n 0).tendsto_slope_zero
  refine h.congr' ?_
  filter_upwards with x
  rw [zero_add, J_zero n, if_neg hn, sub_zero, smul_eq_mul, div_eq_inv_mul]

theorem J1_div_tendsto : Tendsto (fun x => J 1 x / x) (𝓝[≠] 0) (𝓝 (1 / 2)) := by
  have := J_div_tendsto 1 (by norm_num)
  simpa [J_zero] using this

theorem J2_div_tendsto : Tendsto (fun x => J 2 x / x) (𝓝[≠] 0) (𝓝 0) := by
  have := J_div_tendsto 2 (by norm_num)
  simpa [J_zero] using this

theorem J3_div_tendsto : Tendsto (fun x => J 3 x / x) (𝓝[≠] 0) (𝓝 0) := by
  have := J_div_tendsto 3 (by norm_num)
  simpa [J_zero] using this

theorem J2_div_sq_tendsto : Tendsto (fun x => J 2 x / x ^ 2) (𝓝[≠] 0) (𝓝 (1 / 8)) := by
  have h := (J1_div_tendsto.add J3_div_tendsto).div_const 4
  rw [show ((1 / 2 + 0) / 4 : ℝ) = 1 / 8 by norm_num] at h
  refine h.congr' ?_
  filter_upwards [self_mem_nhdsWithin] with x hx
  have hx : x ≠ 0 := hx
  have r := J_rec 2 x
  norm_num at r
  field_simp
  linear_combination r

end GRT.Integ
