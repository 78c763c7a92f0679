import Verif.Lamb.EllG

/-! The integral of the third kind with nearly equal arguments. -/

namespace GRT.Ell

open Complex Set MeasureTheory Filter GRT.Lamb

theorem csqrt_norm (z : ℂ) : ‖csqrt z‖ = √‖z‖ := by
  rw [eq_comm, Real.sqrt_eq_iff_mul_self_eq (norm_nonneg _) (norm_nonneg _), ← norm_mul, csqrt_mul_self]

theorem five_deriv {ρ t : ℝ} (h : 0 < t + ρ) : HasDerivAt (fun t => -(2 / 3) / ((t + ρ) * √(t + ρ))) (1 / ((t + ρ) ^ 2 * √(t + ρ))) t := by
  have d1 := sqrt_shift ρ t h
  have d0 := (hasDerivAt_id t).add_const ρ
  have p := Real.sqrt_pos.2 h
  have := (hasDerivAt_const t (-(2 / 3 : ℝ))).div (d0.mul d1) (mul_pos h p).ne'
  refine this.congr_deriv ?_
  have q := Real.mul_self_sqrt h.le
  simp only [Pi.mul_apply, id]
  generalize √(t + ρ) = s at *
  rw [← q]
  field_simp
  ring

theorem five_int {ρ : ℝ} (h : 0 < ρ) : IntegrableOn (fun t => 1 / ((t + ρ) ^ 2 * √(t + ρ))) (Ioi 0) ∧
    ∫ t in Ioi (0 : ℝ), 1 / ((t + ρ) ^ 2 * √(t + ρ)) = 2 / 3 / (ρ * √ρ) := by
  have hd : ∀ t ∈ Ioi (0 : ℝ), HasDerivAt (fun t => -(2 / 3) / ((t + ρ) * √(t + ρ))) (1 / ((t + ρ) ^ 2 * √(t + ρ))) t :=
    fun t ht => five_deriv (by have : (0 : ℝ) < t := ht; linarith)
  have h0 : ∀ t ∈ Ioi (0 : ℝ), 0 ≤ 1 / ((t + ρ) ^ 2 * √(t + ρ)) := fun t ht => by positivity
  have hc := (five_deriv (ρ := ρ) (t := 0) (by linarith)).continuousAt.continuousWithinAt (s := Ici 0)
  have hl : Tendsto (fun t : ℝ => -(2 / 3) / ((t + ρ) * √(t + ρ))) atTop (nhds 0) := by
    apply tendsto_const_nhds.div_atTop
    have h1 : Tendsto (fun t : ℝ => t + ρ) atTop atTop := tendsto_atTop_add_const_right _ _ tendsto_id
    exact h1.atTop_mul_atTop₀ (Real.tendsto_sqrt_atTop.comp h1)
  refine ⟨integrableOn_Ioi_deriv_of_nonneg hc hd h0 hl, ?_⟩
  rw [integral_Ioi_of_hasDerivAt_of_nonneg hc hd h0 hl]
  rw [zero_add]; ring

theorem three_deriv {ρ t : ℝ} (h : 0 < t + ρ) : HasDerivAt (fun t => -2 / √(t + ρ)) (1 / (√(t + ρ) * √(t + ρ) * √(t + ρ))) t := by
  have d1 := sqrt_shift ρ t h
  have p := Real.sqrt_pos.2 h
  have := (hasDerivAt_const t (-2 : ℝ)).div d1 p.ne'
  refine this.congr_deriv ?_
  field_simp
  ring

theorem three_int {ρ : ℝ} (h : 0 < ρ) : IntegrableOn (fun t => 1 / (√(t + ρ) * √(t + ρ) * √(t + ρ))) (Ioi 0) ∧
    ∫ t in Ioi (0 : ℝ), 1 / (√(t + ρ) * √(t + ρ) * √(t + ρ)) = 2 / √ρ := by
  have hd : ∀ t ∈ Ioi (0 : ℝ), HasDerivAt (fun t => -2 / √(t + ρ)) (1 / (√(t + ρ) * √(t + ρ) * √(t + ρ))) t :=
    fun t ht => three_deriv (by have : (0 : ℝ) < t := ht; linarith)
  have h0 : ∀ t ∈ Ioi (0 : ℝ), 0 ≤ 1 / (√(t + ρ) * √(t + ρ) * √(t + ρ)) := fun t ht => by positivity
  have hc := (three_deriv (ρ := ρ) (t := 0) (by linarith)).continuousAt.continuousWithinAt (s := Ici 0)
  have hl : Tendsto (fun t : ℝ => -2 / √(t + ρ)) atTop (nhds 0) := by
    apply tendsto_const_nhds.div_atTop
    have h1 : Tendsto (fun t : ℝ => t + ρ) atTop atTop := tendsto_atTop_add_const_right _ _ tendsto_id
    exact Real.tendsto_sqrt_atTop.comp h1
  refine ⟨integrableOn_Ioi_deriv_of_nonneg hc hd h0 hl, ?_⟩
  rw [integral_Ioi_of_hasDerivAt_of_nonneg hc hd h0 hl]
  rw [zero_add]; ring

/-- The integral of the first kind is at least the value with all arguments replaced by a larger one. -/
theorem Args.f_ge {x y z M : ℝ} (h : Args x y z) (hx : x ≤ M) (hy : y ≤ M) (hz : z ≤ M) : 2 / √M ≤ fInt x y z := by
  have M0 : 0 < M := h.y0.trans_le hy
  obtain ⟨i, e⟩ := three_int M0
  rw [← e]
  unfold fInt
  apply setIntegral_mono_on i h.integrable measurableSet_Ioi
  intro t ht
  apply one_div_le_one_div_of_le (h.den_pos ht)
  unfold den
  have := Real.sqrt_le_sqrt (show t + x ≤ t + M by linarith)
  have := Real.sqrt_le_sqrt (show t + y ≤ t + M by linarith)
  have := Real.sqrt_le_sqrt (show t + z ≤ t + M by linarith)
  gcongr

theorem re_add_le (A : ℂ) (t : ℝ) : t + A.re ≤ ‖(t : ℂ) + A‖ := by
  have := Complex.re_le_norm ((t : ℂ) + A)
  simpa using this

theorem slit_add {A : ℂ} (hA : 0 < A.re) {t : ℝ} (ht : 0 ≤ t) : (t : ℂ) + A ∈ slitPlane := by
  rw [mem_slitPlane_iff]; left; simp; linarith

theorem five_le {A : ℂ} (hA : 0 < A.re) {t : ℝ} (ht : 0 ≤ t) :
    ‖1 / (((t : ℂ) + A) ^ 2 * csqrt (t + A))‖ ≤ 1 / ((t + A.re) ^ 2 * √(t + A.re)) := by
  rw [norm_div, norm_one, norm_mul, norm_pow, csqrt_norm]
  have h1 := re_add_le A t
  have h2 : 0 < t + A.re := by linarith
  have h3 := Real.sqrt_le_sqrt h1
  have h4 := Real.sqrt_pos.2 h2
  apply one_div_le_one_div_of_le (by positivity)
  gcongr

theorem five_cont {A : ℂ} (hA : 0 < A.re) : ContinuousOn (fun t : ℝ => 1 / (((t : ℂ) + A) ^ 2 * csqrt (t + A))) (Ioi 0) := by
  intro t ht
  have t0 : (0 : ℝ) < t := ht
  have hs := slit_add hA t0.le
  have n0 := slitPlane_ne_zero hs
  apply ContinuousAt.continuousWithinAt
  refine ContinuousAt.div (f := fun _ => 1) (g := fun t : ℝ => ((t : ℂ) + A) ^ 2 * csqrt (t + A)) continuousAt_const ?_
    (mul_ne_zero (pow_ne_zero 2 n0) (csqrt_ne n0))
  refine ContinuousAt.mul (by fun_prop) ?_
  exact ContinuousAt.comp (f := fun t : ℝ => (t : ℂ) + A) (hasDerivAt_csqrt hs).continuousAt (by fun_prop)

theorem five_integrable {A : ℂ} (hA : 0 < A.re) : IntegrableOn (fun t : ℝ => 1 / (((t : ℂ) + A) ^ 2 * csqrt (t + A))) (Ioi 0) := by
  refine Integrable.mono' (five_int hA).1 ((five_cont hA).aestronglyMeasurable measurableSet_Ioi) ?_
  refine (ae_restrict_mem measurableSet_Ioi).mono fun t ht => ?_
  exact five_le hA (le_of_lt ht)

theorem five_cint {A : ℂ} (hA : 0 < A.re) : ∫ t in Ioi (0 : ℝ), 1 / (((t : ℂ) + A) ^ 2 * csqrt (t + A)) = 2 / 3 / (A * csqrt A) := by
  have hd : ∀ t : ℝ, 0 ≤ t → HasDerivAt (fun t : ℝ => -(2 / 3) / (((t : ℂ) + A) * csqrt (t + A))) (1 / (((t : ℂ) + A) ^ 2 * csqrt (t + A))) t := by
    intro t ht
    have hs := slit_add hA ht
    have n0 := slitPlane_ne_zero hs
    have q0 := csqrt_ne n0
    have dσ : HasDerivAt (fun σ : ℝ => (σ : ℂ) + A) 1 t := ((hasDerivAt_id t).ofReal_comp).add_const A
    have dq : HasDerivAt (fun σ : ℝ => csqrt (σ + A)) (1 / (2 * csqrt (t + A)) * 1) t :=
      HasDerivAt.comp (h := fun σ : ℝ => (σ : ℂ) + A) (h₂ := csqrt) t (hasDerivAt_csqrt hs) dσ
    have := (hasDerivAt_const t (-(2 / 3 : ℂ))).div (dσ.mul dq) (mul_ne_zero n0 q0)
    refine this.congr_deriv ?_
    have qq := csqrt_mul_self ((t : ℂ) + A)
    simp only [Pi.mul_apply]
    generalize csqrt ((t : ℂ) + A) = q at *
    rw [← qq]
    field_simp
    ring
  have hl : Tendsto (fun t : ℝ => -(2 / 3) / (((t : ℂ) + A) * csqrt (t + A))) atTop (nhds 0) := by
    rw [tendsto_zero_iff_norm_tendsto_zero]
    refine squeeze_zero' (Eventually.of_forall fun t => norm_nonneg _) (g := fun t : ℝ => 1 / t) ?_ (tendsto_const_nhds.div_atTop tendsto_id)
    filter_upwards [eventually_ge_atTop (1 : ℝ)] with t t1
    rw [norm_div, norm_mul, csqrt_norm]
    have h1 := re_add_le A t
    have h2 : 1 ≤ √‖(t : ℂ) + A‖ := by rw [Real.one_le_sqrt]; linarith
    refine div_le_div₀ zero_le_one (by norm_num) (by linarith) ?_
    calc t = t * 1 := (mul_one t).symm
      _ ≤ _ := by gcongr; linarith
  have := integral_Ioi_of_hasDerivAt_of_tendsto (hd 0 le_rfl).continuousAt.continuousWithinAt (fun t ht => hd t (le_of_lt ht)) (five_integrable hA) hl
  rw [this, ofReal_zero, zero_add, zero_sub]
  ring

/-- The product of the deviations. -/
theorem prod_near {X Y Z P r : ℂ} (hX : ‖X‖ ≤ 0.001) (hY : ‖Y‖ ≤ 0.001) (hZ : ‖Z‖ ≤ 0.001) (hP : X + Y + Z + 2 * P = 0) (hr : ‖r‖ ≤ 1) :
    ‖(1 - X * r) * (1 - Y * r) * (1 - Z * r) * (1 - P * r) ^ 2 - 1‖ ≤ 1 / 10 ^ 5 := by
  have eP : P = -(X + Y + Z) / 2 := by linear_combination hP / 2
  have nP : ‖P‖ ≤ 0.0015 := by
    rw [eP, norm_div, norm_neg, Complex.norm_ofNat]
    have := norm_add_le (X + Y) Z
    have := norm_add_le X Y
    norm_num at *
    linarith
  have nX := norm_nonneg X
  have nY := norm_nonneg Y
  have nZ := norm_nonneg Z
  have nP0 := norm_nonneg P
  have nr := norm_nonneg r
  have e : (1 - X * r) * (1 - Y * r) * (1 - Z * r) * (1 - P * r) ^ 2 - 1 =
      r ^ 2 * (X * Y + Y * Z + X * Z - 3 * P ^ 2 - r * (X * Y * Z + 2 * P * (X * Y + Y * Z + X * Z) - 2 * P ^ 3) +
        r ^ 2 * (2 * P * (X * Y * Z) + P ^ 2 * (X * Y + Y * Z + X * Z)) - r ^ 3 * (P ^ 2 * (X * Y * Z))) := by
    have : X = -Y - Z - 2 * P := by linear_combination hP
    rw [this]; ring
  have hXY : ‖X * Y‖ ≤ 1 / 10 ^ 6 := by
    rw [norm_mul]; exact (mul_le_mul hX hY nY (by norm_num)).trans (by norm_num)
  have hYZ : ‖Y * Z‖ ≤ 1 / 10 ^ 6 := by
    rw [norm_mul]; exact (mul_le_mul hY hZ nZ (by norm_num)).trans (by norm_num)
  have hXZ : ‖X * Z‖ ≤ 1 / 10 ^ 6 := by
    rw [norm_mul]; exact (mul_le_mul hX hZ nZ (by norm_num)).trans (by norm_num)
  have hS2 : ‖X * Y + Y * Z + X * Z‖ ≤ 3 / 10 ^ 6 := by
    have := norm_add_le (X * Y + Y * Z) (X * Z)
    have := norm_add_le (X * Y) (Y * Z)
    linarith
  have hS3 : ‖X * Y * Z‖ ≤ 1 / 10 ^ 9 := by
    rw [norm_mul]; exact (mul_le_mul hXY hZ nZ (by norm_num)).trans (by norm_num)
  have hP2 : ‖P ^ 2‖ ≤ 2.25 / 10 ^ 6 := by
    rw [norm_pow]; exact (pow_le_pow_left₀ nP0 nP 2).trans (by norm_num)
  have hP3 : ‖P ^ 3‖ ≤ 4 / 10 ^ 9 := by
    rw [norm_pow]; exact (pow_le_pow_left₀ nP0 nP 3).trans (by norm_num)
  have r2 : ‖r ^ 2‖ ≤ 1 := by rw [norm_pow]; exact pow_le_one₀ nr hr
  have r3 : ‖r ^ 3‖ ≤ 1 := by rw [norm_pow]; exact pow_le_one₀ nr hr
  generalize X * Y + Y * Z + X * Z = S2 at *
  generalize X * Y * Z = S3 at *
  rw [e, norm_mul]
  have t1 : ‖S2 - 3 * P ^ 2‖ ≤ 9.75 / 10 ^ 6 := by
    have := norm_sub_le S2 (3 * P ^ 2)
    rw [norm_mul, Complex.norm_ofNat] at this
    norm_num at *
    linarith
  have t2 : ‖r * (S3 + 2 * P * S2 - 2 * P ^ 3)‖ ≤ 2 / 10 ^ 8 := by
    have h1 := norm_sub_le (S3 + 2 * P * S2) (2 * P ^ 3)
    have h2 := norm_add_le S3 (2 * P * S2)
    rw [norm_mul, Complex.norm_ofNat] at h1
    rw [norm_mul, norm_mul, Complex.norm_ofNat] at h2
    have h3 : ‖P‖ * ‖S2‖ ≤ 0.0015 * (3 / 10 ^ 6) := by gcongr
    rw [norm_mul]
    calc _ ≤ 1 * ‖S3 + 2 * P * S2 - 2 * P ^ 3‖ := by gcongr
      _ ≤ _ := by norm_num at *; linarith
  have t3 : ‖r ^ 2 * (2 * P * S3 + P ^ 2 * S2)‖ ≤ 1 / 10 ^ 8 := by
    have h1 := norm_add_le (2 * P * S3) (P ^ 2 * S2)
    rw [norm_mul, norm_mul, norm_mul (P ^ 2), Complex.norm_ofNat] at h1
    have h3 : ‖P‖ * ‖S3‖ ≤ 0.0015 * (1 / 10 ^ 9) := by gcongr
    have h4 : ‖P ^ 2‖ * ‖S2‖ ≤ 2.25 / 10 ^ 6 * (3 / 10 ^ 6) := by gcongr
    rw [norm_mul]
    calc _ ≤ 1 * ‖2 * P * S3 + P ^ 2 * S2‖ := by gcongr
      _ ≤ _ := by norm_num at *; linarith
  have t4 : ‖r ^ 3 * (P ^ 2 * S3)‖ ≤ 1 / 10 ^ 8 := by
    have h4 : ‖P ^ 2‖ * ‖S3‖ ≤ 2.25 / 10 ^ 6 * (1 / 10 ^ 9) := by gcongr
    rw [norm_mul, norm_mul]
    calc _ ≤ 1 * (‖P ^ 2‖ * ‖S3‖) := by gcongr
      _ ≤ _ := by norm_num at *; linarith
  have u1 := norm_sub_le (S2 - 3 * P ^ 2 - r * (S3 + 2 * P * S2 - 2 * P ^ 3) + r ^ 2 * (2 * P * S3 + P ^ 2 * S2)) (r ^ 3 * (P ^ 2 * S3))
  have u2 := norm_add_le (S2 - 3 * P ^ 2 - r * (S3 + 2 * P * S2 - 2 * P ^ 3)) (r ^ 2 * (2 * P * S3 + P ^ 2 * S2))
  have u3 := norm_sub_le (S2 - 3 * P ^ 2) (r * (S3 + 2 * P * S2 - 2 * P ^ 3))
  calc _ ≤ 1 * ‖S2 - 3 * P ^ 2 - r * (S3 + 2 * P * S2 - 2 * P ^ 3) + r ^ 2 * (2 * P * S3 + P ^ 2 * S2) - r ^ 3 * (P ^ 2 * S3)‖ := by gcongr
    _ ≤ _ := by norm_num at *; linarith

/-- A root of a number near one. -/
theorem root_near {s : ℂ} (h1 : ‖s - 1‖ ≤ 0.01) (h2 : ‖s * s - 1‖ ≤ 1 / 10 ^ 5) : ‖1 / s - 1‖ ≤ 5.2 / 10 ^ 6 := by
  have a1 : 0.99 ≤ ‖s‖ := by
    have := norm_sub_norm_le (1 : ℂ) (1 - s)
    rw [norm_one, norm_sub_rev, sub_sub_cancel] at this
    linarith
  have a2 : 1.99 ≤ ‖s + 1‖ := by
    have := norm_sub_norm_le (2 : ℂ) (1 - s)
    rw [Complex.norm_ofNat, norm_sub_rev 1 s, show (2 : ℂ) - (1 - s) = s + 1 by ring] at this
    linarith
  have s0 : s ≠ 0 := by rw [← norm_pos_iff]; linarith
  rw [show s * s - 1 = (s - 1) * (s + 1) by ring, norm_mul] at h2
  rw [show 1 / s - 1 = -(s - 1) / s by field_simp; ring, norm_div, norm_neg, div_le_iff₀ (by linarith)]
  norm_num at *
  nlinarith [norm_nonneg (s - 1)]

end GRT.Ell
