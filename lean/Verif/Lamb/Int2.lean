import Verif.Lamb.Int

/-! The definite integrals over a quarter turn. -/

namespace GRT.Lamb

open Complex Set

theorem slit_one_add {z : ℂ} (h : z ∈ slitPlane) {r : ℝ} (hr : 0 ≤ r) : 1 + z * r ∈ slitPlane := by
  rcases hr.eq_or_lt with rfl | hr
  · simp
  rw [mem_slitPlane_iff] at h ⊢
  rcases h with h | h
  · left; simp; have := mul_pos h hr; linarith
  · right; simp; exact ⟨h, hr.ne'⟩

theorem slit_inv {z : ℂ} (h : z ∈ slitPlane) : 1 / z ∈ slitPlane := by
  apply slit_of_mul
  rw [mem_slitPlane_iff] at h ⊢
  simpa using h

theorem csqrt_inv {z : ℂ} (h : z ∈ slitPlane) : csqrt (1 / z) = 1 / csqrt z := by
  have h0 := csqrt_ne (slitPlane_ne_zero h)
  have hp := csqrt_re_pos h
  apply csqrt_unique
  · rw [div_mul_div_comm, csqrt_mul_self]; norm_num
  · rw [one_div, Complex.inv_re]
    exact div_pos hp (Complex.normSq_pos.mpr h0)

/-- `∫ dθ/(A cos²θ + B sin²θ)` over a quarter turn. -/
theorem int_quarter {A B : ℂ} (hA : A ≠ 0) (hB : B ≠ 0) (h : B / A ∈ slitPlane) :
    ∫ θ in 0..Real.pi / 2, 1 / (A * (Real.cos θ : ℂ) ^ 2 + B * (Real.sin θ : ℂ) ^ 2) = Real.pi / 2 / B * csqrt (B / A) := by
  set ζ := csqrt (B / A) with hζ
  have z2 : ζ * ζ = B / A := csqrt_mul_self _
  have z0 : ζ ≠ 0 := csqrt_ne (div_ne_zero hB hA)
  have zr : 0 < ζ.re := csqrt_re_pos h
  have pi4 : 0 < Real.pi / 4 := by have := Real.pi_pos; positivity
  have hpi : Real.pi / 4 ≤ Real.pi / 2 := by have := Real.pi_pos; linarith
  have eAB : A * (ζ * ζ) = B := by rw [z2]; field_simp
  have hden : ∀ θ : ℝ, A * (Real.cos θ : ℂ) ^ 2 + B * (Real.sin θ : ℂ) ^ 2 ≠ 0 := by
    intro θ hθ
    have h1 := Real.sin_sq_add_cos_sq θ
    by_cases hc : Real.cos θ = 0
    · have : (Real.sin θ : ℂ) ^ 2 = 1 := by
        rw [hc] at h1
        have : Real.sin θ ^ 2 = 1 := by linarith
        exact_mod_cast this
      rw [hc, this] at hθ
      simp at hθ; exact hB hθ
    · have hc' : (Real.cos θ : ℂ) ≠ 0 := by exact_mod_cast hc
      have := slit_one_add h (r := Real.sin θ ^ 2 / Real.cos θ ^ 2) (by positivity)
      apply slitPlane_ne_zero this
      rw [ofReal_div, ofReal_pow, ofReal_pow]
      field_simp
      linear_combination hθ
  have hcont : Continuous fun θ : ℝ => 1 / (A * (Real.cos θ : ℂ) ^ 2 + B * (Real.sin θ : ℂ) ^ 2) := by
    refine continuous_const.div ?_ hden
    exact (continuous_const.mul ((continuous_ofReal.comp Real.continuous_cos).pow 2)).add
      (continuous_const.mul ((continuous_ofReal.comp Real.continuous_sin).pow 2))
  rw [← intervalIntegral.integral_add_adjacent_intervals (hcont.intervalIntegrable 0 (Real.pi / 4))
    (hcont.intervalIntegrable (Real.pi / 4) (Real.pi / 2))]
  have i1 : ∫ θ in 0..Real.pi / 4, 1 / (A * (Real.cos θ : ℂ) ^ 2 + B * (Real.sin θ : ℂ) ^ 2) = arctan ζ / (A * ζ) := by
    have := int_carctan (ζ := ζ) (w := fun θ => Real.tan θ) (w' := fun θ => 1 / Real.cos θ ^ 2) (u := 0) (v := Real.pi / 4)
      (f := fun θ => A * ζ * (1 / (A * (Real.cos θ : ℂ) ^ 2 + B * (Real.sin θ : ℂ) ^ 2))) pi4.le ?_ ?_ ?_ ?_
    · rw [intervalIntegral.integral_const_mul] at this
      simp only [Real.tan_pi_div_four, Real.tan_zero, ofReal_one, ofReal_zero, mul_one, mul_zero, carctan_zero, sub_zero] at this
      rw [eq_div_iff (mul_ne_zero hA z0), ← this]; ring
    · intro θ hθ
      apply Real.hasDerivAt_tan
      exact (Real.cos_pos_of_mem_Ioo ⟨by linarith [hθ.1], by linarith [hθ.2]⟩).ne'
    · intro θ hθ
      have := slit_one_add h (r := Real.tan θ * Real.tan θ) (mul_self_nonneg _)
      rw [← z2] at this
      convert this using 2
      push_cast; ring
    · intro θ hθ
      have hc : (Real.cos θ : ℂ) ≠ 0 := by
        exact_mod_cast (Real.cos_pos_of_mem_Ioo ⟨by linarith [hθ.1], by linarith [hθ.2]⟩).ne'
      have := hden θ
      have hs : 1 + ζ * (Real.tan θ : ℝ) * (ζ * (Real.tan θ : ℝ)) =
          (A * (Real.cos θ : ℂ) ^ 2 + B * (Real.sin θ : ℂ) ^ 2) / (A * (Real.cos θ : ℂ) ^ 2) := by
        rw [Real.tan_eq_sin_div_cos, ofReal_div]
        rw [← eAB]; field_simp
      rw [hs]; push_cast
      push_cast at this hc
      field_simp
    · exact (hcont.const_mul _).continuousOn
  have i2 : ∫ θ in Real.pi / 4..Real.pi / 2, 1 / (A * (Real.cos θ : ℂ) ^ 2 + B * (Real.sin θ : ℂ) ^ 2) = arctan (1 / ζ) / (A * ζ) := by
    have := int_carctan (ζ := 1 / ζ) (w := fun θ => Real.cos θ / Real.sin θ) (w' := fun θ => -1 / Real.sin θ ^ 2)
      (u := Real.pi / 4) (v := Real.pi / 2)
      (f := fun θ => -(A * ζ) * (1 / (A * (Real.cos θ : ℂ) ^ 2 + B * (Real.sin θ : ℂ) ^ 2))) hpi ?_ ?_ ?_ ?_
    · rw [intervalIntegral.integral_const_mul] at this
      have h2 : (√2 : ℝ) / 2 ≠ 0 := by positivity
      simp only [Real.cos_pi_div_two, Real.sin_pi_div_two, Real.cos_pi_div_four, Real.sin_pi_div_four, zero_div, ofReal_zero,
        mul_zero, carctan_zero, div_self h2, ofReal_one, mul_one] at this
      rw [eq_div_iff (mul_ne_zero hA z0)]; linear_combination -this
    · intro θ hθ
      have hs : Real.sin θ ≠ 0 := (Real.sin_pos_of_pos_of_lt_pi (by linarith [hθ.1]) (by linarith [hθ.2])).ne'
      refine ((Real.hasDerivAt_cos θ).div (Real.hasDerivAt_sin θ) hs).congr_deriv ?_
      rw [show -Real.sin θ * Real.sin θ - Real.cos θ * Real.cos θ = -1 by linarith [Real.sin_sq_add_cos_sq θ]]
    · intro θ hθ
      have := slit_one_add (slit_inv h) (r := (Real.cos θ / Real.sin θ) * (Real.cos θ / Real.sin θ)) (mul_self_nonneg _)
      rw [← z2] at this
      convert this using 2
      push_cast; field_simp
    · intro θ hθ
      have hs : (Real.sin θ : ℂ) ≠ 0 := by
        exact_mod_cast (Real.sin_pos_of_pos_of_lt_pi (by linarith [hθ.1]) (by linarith [hθ.2])).ne'
      have := hden θ
      have hs' : 1 + 1 / ζ * (Real.cos θ / Real.sin θ : ℝ) * (1 / ζ * (Real.cos θ / Real.sin θ : ℝ)) =
          (A * (Real.cos θ : ℂ) ^ 2 + B * (Real.sin θ : ℂ) ^ 2) / (B * (Real.sin θ : ℂ) ^ 2) := by
        push_cast
        push_cast at hs
        rw [← eAB]; field_simp; ring
      rw [hs']; push_cast
      push_cast at this hs
      rw [← eAB] at this ⊢
      field_simp
    · exact (hcont.const_mul _).continuousOn
  rw [i1, i2, ← add_div, carctan_inv zr, ← eAB]
  field_simp

/-- The integrals with `x = β cos θ` over `√(K² + x²)`. -/
theorem int_V1 {β K : ℝ} (hβ : 0 < β) (hK : 0 < K) {c ζ : ℂ} (hc : Off c 0 (β ^ 2)) (z0 : ζ ≠ 0)
    (hz : ζ * ζ * ((β ^ 2 : ℝ) - c) = -((K ^ 2 : ℝ) + c)) :
    ∫ θ in 0..Real.pi / 2, ((β * Real.cos θ / √(K ^ 2 + β ^ 2 * Real.cos θ ^ 2) : ℝ) : ℂ) / ((β ^ 2 * Real.cos θ ^ 2 : ℝ) - c) =
      1 / (((β ^ 2 : ℝ) - c) * ζ) * arctan (ζ * (β / K : ℝ)) := by
  have pi2 : 0 ≤ Real.pi / 2 := by have := Real.pi_pos; positivity
  have hr : ∀ θ : ℝ, 0 < K ^ 2 + β ^ 2 * Real.cos θ ^ 2 := fun θ => by positivity
  have hX : ∀ θ : ℝ, 0 ≤ β ^ 2 * Real.cos θ ^ 2 ∧ β ^ 2 * Real.cos θ ^ 2 ≤ β ^ 2 := fun θ =>
    ⟨by positivity, by have := Real.cos_sq_le_one θ; nlinarith [sq_nonneg β]⟩
  have b0 : ((β ^ 2 : ℝ) : ℂ) - c ≠ 0 := hc.sub_ne (by positivity) le_rfl
  have hone : ∀ θ : ℝ, 1 + ζ * ((β * Real.sin θ / √(K ^ 2 + β ^ 2 * Real.cos θ ^ 2) : ℝ) : ℂ) *
      (ζ * ((β * Real.sin θ / √(K ^ 2 + β ^ 2 * Real.cos θ ^ 2) : ℝ) : ℂ)) =
      ((β ^ 2 * Real.cos θ ^ 2 : ℝ) - c) / ((β ^ 2 : ℝ) - c) * ((K ^ 2 + β ^ 2) / (K ^ 2 + β ^ 2 * Real.cos θ ^ 2) : ℝ) := by
    intro θ
    have e1 : ζ * ((β * Real.sin θ / √(K ^ 2 + β ^ 2 * Real.cos θ ^ 2) : ℝ) : ℂ) *
      (ζ * ((β * Real.sin θ / √(K ^ 2 + β ^ 2 * Real.cos θ ^ 2) : ℝ) : ℂ)) =
      ζ * ζ * ((β ^ 2 * Real.sin θ ^ 2 / (K ^ 2 + β ^ 2 * Real.cos θ ^ 2) : ℝ) : ℂ) := by
      rw [mul_mul_mul_comm, ← ofReal_mul, div_mul_div_comm, Real.mul_self_sqrt (hr θ).le]
      congr 2; ring
    have e2 : ζ * ζ = -((K ^ 2 : ℝ) + c) / ((β ^ 2 : ℝ) - c) := by rw [eq_div_iff b0, hz]
    have r0 : ((K ^ 2 + β ^ 2 * Real.cos θ ^ 2 : ℝ) : ℂ) ≠ 0 := by exact_mod_cast (hr θ).ne'
    rw [e1, e2, Real.sin_sq]
    rw [ofReal_div, ofReal_div]
    field_simp
    push_cast
    ring
  have hcont : Continuous fun θ : ℝ =>
      ((β * Real.cos θ / √(K ^ 2 + β ^ 2 * Real.cos θ ^ 2) : ℝ) : ℂ) / ((β ^ 2 * Real.cos θ ^ 2 : ℝ) - c) := by
    refine (continuous_ofReal.comp ?_).div ?_ (fun θ => hc.sub_ne (hX θ).1 (hX θ).2)
    · refine Continuous.div (by fun_prop) (by fun_prop) (fun θ => (Real.sqrt_pos.mpr (hr θ)).ne')
    · exact (continuous_ofReal.comp (by fun_prop)).sub continuous_const
  have := int_carctan (ζ := ζ) (w := fun θ => β * Real.sin θ / √(K ^ 2 + β ^ 2 * Real.cos θ ^ 2))
    (w' := fun θ => β * Real.cos θ * (K ^ 2 + β ^ 2) / (√(K ^ 2 + β ^ 2 * Real.cos θ ^ 2) * (K ^ 2 + β ^ 2 * Real.cos θ ^ 2)))
    (u := 0) (v := Real.pi / 2)
    (f := fun θ => ((β ^ 2 : ℝ) - c) * ζ * (((β * Real.cos θ / √(K ^ 2 + β ^ 2 * Real.cos θ ^ 2) : ℝ) : ℂ) /
      ((β ^ 2 * Real.cos θ ^ 2 : ℝ) - c))) pi2 ?_ ?_ ?_ (hcont.const_mul _).continuousOn
  · rw [intervalIntegral.integral_const_mul] at this
    have hs : √(K ^ 2 + β ^ 2 * (0 : ℝ) ^ 2) = K := by
      rw [show K ^ 2 + β ^ 2 * (0 : ℝ) ^ 2 = K ^ 2 by ring]; exact Real.sqrt_sq hK.le
    simp only [Real.sin_pi_div_two, Real.cos_pi_div_two, Real.sin_zero, mul_one, mul_zero, zero_div, ofReal_zero, carctan_zero, sub_zero,
      hs] at this
    rw [← this]
    field_simp
  · intro θ _
    have hq := Real.sqrt_pos.mpr (hr θ)
    have d1 : HasDerivAt (fun θ => K ^ 2 + β ^ 2 * Real.cos θ ^ 2) (β ^ 2 * (2 * Real.cos θ * -Real.sin θ)) θ := by
      have := (((Real.hasDerivAt_cos θ).pow 2).const_mul (β ^ 2)).const_add (K ^ 2)
      refine this.congr_deriv ?_; simp
    have d2 := ((Real.hasDerivAt_sin θ).const_mul β).div (d1.sqrt (hr θ).ne') hq.ne'
    refine d2.congr_deriv ?_
    have hs := Real.sin_sq_add_cos_sq θ
    have e1 : K ^ 2 + β ^ 2 * Real.cos θ ^ 2 = √(K ^ 2 + β ^ 2 * Real.cos θ ^ 2) * √(K ^ 2 + β ^ 2 * Real.cos θ ^ 2) :=
      (Real.mul_self_sqrt (hr θ).le).symm
    set R := √(K ^ 2 + β ^ 2 * Real.cos θ ^ 2) with hR
    rw [show K ^ 2 + β ^ 2 = R * R + β ^ 2 * Real.sin θ ^ 2 by rw [← e1]; linear_combination (-β ^ 2) * hs, e1]
    field_simp
    ring
  · intro θ _
    rw [hone θ]
    have h1 := hc.div (hX θ).1 (hX θ).2 (by positivity : (0 : ℝ) ≤ β ^ 2) le_rfl
    have h2 : 0 < (K ^ 2 + β ^ 2) / (K ^ 2 + β ^ 2 * Real.cos θ ^ 2) := div_pos (by positivity) (hr θ)
    rw [mem_slitPlane_iff] at h1 ⊢
    rw [re_mul_ofReal, im_mul_ofReal]
    rcases h1 with h1 | h1
    · left; exact mul_pos h1 h2
    · right; exact mul_ne_zero h1 h2.ne'
  · intro θ _
    rw [hone θ]
    have x0 := hc.sub_ne (hX θ).1 (hX θ).2
    have r0 : ((K ^ 2 + β ^ 2 * Real.cos θ ^ 2 : ℝ) : ℂ) ≠ 0 := by exact_mod_cast (hr θ).ne'
    have s0 : ((√(K ^ 2 + β ^ 2 * Real.cos θ ^ 2) : ℝ) : ℂ) ≠ 0 := by exact_mod_cast (Real.sqrt_pos.mpr (hr θ)).ne'
    have k0 : ((K ^ 2 + β ^ 2 : ℝ) : ℂ) ≠ 0 := by exact_mod_cast (by positivity : K ^ 2 + β ^ 2 ≠ 0)
    rw [ofReal_div, ofReal_div, ofReal_div, ofReal_mul (√_), ofReal_mul _ (K ^ 2 + β ^ 2)]
    field_simp

end GRT.Lamb
