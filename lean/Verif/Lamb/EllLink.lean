import Verif.Lamb.EllLoop
import Mathlib.Analysis.SpecialFunctions.Trigonometric.ArctanDeriv

/-! Legendre's complete integrals and the integrals over the half line. -/

namespace GRT.Ell

open Complex Set MeasureTheory Filter GRT.Lamb

/-- Specification: the complete elliptic integral of the first kind with parameter `m`. -/
noncomputable def ellipticK (m : ℝ) : ℝ := ∫ θ in (0 : ℝ)..(Real.pi / 2), 1 / √(1 - m * Real.sin θ ^ 2)

/-- Specification: the complete elliptic integral of the third kind with characteristic `n` and parameter `m`. -/
noncomputable def ellipticPi (n : ℂ) (m : ℝ) : ℂ := ∫ θ in (0 : ℝ)..(Real.pi / 2), 1 / ((1 - n * (Real.sin θ : ℂ) ^ 2) * (√(1 - m * Real.sin θ ^ 2) : ℝ))

theorem cot_image : (fun θ : ℝ => (Real.cos θ / Real.sin θ) ^ 2) '' Ioo 0 (Real.pi / 2) = Ioi 0 := by
  apply Subset.antisymm
  · rintro _ ⟨θ, ⟨h1, h2⟩, rfl⟩
    have hs := Real.sin_pos_of_pos_of_lt_pi h1 (by linarith [Real.pi_pos])
    have hc := Real.cos_pos_of_mem_Ioo ⟨by linarith, h2⟩
    show 0 < (Real.cos θ / Real.sin θ) ^ 2
    positivity
  · intro t ht
    have t0 : (0 : ℝ) < t := ht
    have s0 := Real.sqrt_pos.2 t0
    refine ⟨Real.arctan (1 / √t), ⟨Real.arctan_pos.2 (by positivity), Real.arctan_lt_pi_div_two _⟩, ?_⟩
    have := Real.tan_arctan (1 / √t)
    rw [Real.tan_eq_sin_div_cos] at this
    dsimp only
    rw [← inv_div, this, one_div, inv_inv, Real.sq_sqrt t0.le]

theorem cot_inj : InjOn (fun θ : ℝ => (Real.cos θ / Real.sin θ) ^ 2) (Ioo 0 (Real.pi / 2)) := by
  rintro a ⟨a1, a2⟩ b ⟨b1, b2⟩ h
  dsimp only at h
  have hsa := Real.sin_pos_of_pos_of_lt_pi a1 (by linarith [Real.pi_pos])
  have hca := Real.cos_pos_of_mem_Ioo (x := a) ⟨by linarith, a2⟩
  have hsb := Real.sin_pos_of_pos_of_lt_pi b1 (by linarith [Real.pi_pos])
  have hcb := Real.cos_pos_of_mem_Ioo (x := b) ⟨by linarith, b2⟩
  have h2 := (pow_left_inj₀ (by positivity) (by positivity) two_ne_zero).1 h
  apply Real.injOn_tan ⟨by linarith, a2⟩ ⟨by linarith, b2⟩
  rw [Real.tan_eq_sin_div_cos, Real.tan_eq_sin_div_cos, ← inv_div, h2, inv_div]

theorem cot_sub {m : ℝ} (m0 : 0 < m) (m1 : m < 1) {E : Type*} [NormedAddCommGroup E] [NormedSpace ℝ E] (g : ℝ → E) :
    ∫ t in Ioi (0 : ℝ), (1 / den 0 (1 - m) 1 t) • g t =
      ∫ θ in (0 : ℝ)..(Real.pi / 2), (2 / √(1 - m * Real.sin θ ^ 2)) • g ((Real.cos θ / Real.sin θ) ^ 2) := by
  rw [intervalIntegral.integral_of_le (by positivity), integral_Ioc_eq_integral_Ioo]
  have hd : ∀ θ ∈ Ioo 0 (Real.pi / 2), HasDerivWithinAt (fun θ : ℝ => (Real.cos θ / Real.sin θ) ^ 2) (-2 * Real.cos θ / Real.sin θ ^ 3) (Ioo 0 (Real.pi / 2)) θ := by
    rintro θ ⟨h1, h2⟩
    have hs := Real.sin_pos_of_pos_of_lt_pi h1 (by linarith [Real.pi_pos])
    have := (((Real.hasDerivAt_cos θ).div (Real.hasDerivAt_sin θ) hs.ne').pow 2).hasDerivWithinAt (s := Ioo 0 (Real.pi / 2))
    refine this.congr_deriv ?_
    have e := Real.sin_sq_add_cos_sq θ
    simp only [Pi.div_apply]
    norm_num
    field_simp
    linear_combination (-Real.cos θ) * e
  conv_lhs => rw [← cot_image]
  rw [integral_image_eq_integral_abs_deriv_smul measurableSet_Ioo hd cot_inj]
  apply setIntegral_congr_fun measurableSet_Ioo
  rintro θ ⟨h1, h2⟩
  have hs := Real.sin_pos_of_pos_of_lt_pi h1 (by linarith [Real.pi_pos])
  have hc := Real.cos_pos_of_mem_Ioo (x := θ) ⟨by linarith, h2⟩
  have e := Real.sin_sq_add_cos_sq θ
  dsimp only
  rw [smul_smul]
  congr 1
  have hq : 0 < 1 - m * Real.sin θ ^ 2 := by
    have : Real.sin θ ^ 2 ≤ 1 := by nlinarith [sq_nonneg (Real.cos θ)]
    nlinarith
  have r1 : √((Real.cos θ / Real.sin θ) ^ 2 + 0) = Real.cos θ / Real.sin θ := by
    rw [add_zero, Real.sqrt_sq (by positivity)]
  have r2 : √((Real.cos θ / Real.sin θ) ^ 2 + (1 - m)) = √(1 - m * Real.sin θ ^ 2) / Real.sin θ := by
    have : (Real.cos θ / Real.sin θ) ^ 2 + (1 - m) = (1 - m * Real.sin θ ^ 2) / Real.sin θ ^ 2 := by
      field_simp
      linear_combination e
    rw [this, Real.sqrt_div hq.le, Real.sqrt_sq hs.le]
  have r3 : √((Real.cos θ / Real.sin θ) ^ 2 + 1) = 1 / Real.sin θ := by
    have : (Real.cos θ / Real.sin θ) ^ 2 + 1 = (1 / Real.sin θ) ^ 2 := by
      field_simp
      linear_combination e
    rw [this, Real.sqrt_sq (by positivity)]
  unfold den
  rw [r1, r2, r3, show -2 * Real.cos θ / Real.sin θ ^ 3 = -(2 * Real.cos θ / Real.sin θ ^ 3) by ring, abs_neg, abs_of_pos (by positivity)]
  have := Real.sqrt_pos.2 hq
  field_simp

theorem args_of {m : ℝ} (m1 : m < 1) : Args 0 (1 - m) 1 := ⟨le_rfl, by linarith, one_pos⟩

theorem K_eq {m : ℝ} (m0 : 0 < m) (m1 : m < 1) : fInt 0 (1 - m) 1 = 2 * ellipticK m := by
  have := cot_sub m0 m1 (fun _ => (1 : ℝ))
  simp only [smul_eq_mul, mul_one] at this
  unfold fInt ellipticK
  rw [this, ← intervalIntegral.integral_const_mul]
  congr 1
  funext θ
  ring

/-- The difference of the third and the first integral. -/
theorem Pi_eq {m : ℝ} (m0 : 0 < m) (m1 : m < 1) {n : ℂ} {δ : ℝ} (hδ : Away (1 - n) δ) :
    ellipticPi n m - ellipticK m = n / 2 * jInt 0 (1 - m) 1 (1 - n) := by
  have := cot_sub m0 m1 (fun t : ℝ => 1 / ((t : ℂ) + (1 - n)))
  simp only [real_smul] at this
  unfold jInt
  rw [this]
  have hsin : ∀ θ, Real.sin θ ^ 2 ≤ 1 := fun θ => by nlinarith [Real.sin_sq_add_cos_sq θ, sq_nonneg (Real.cos θ)]
  have hq : ∀ θ, 0 < 1 - m * Real.sin θ ^ 2 := fun θ => by nlinarith [hsin θ]
  have hn : ∀ θ, 1 - n * (Real.sin θ : ℂ) ^ 2 ≠ 0 := by
    intro θ hc
    rcases eq_or_ne (Real.sin θ) 0 with h0 | h0
    · rw [h0] at hc; simp at hc
    have hp : 0 < Real.sin θ ^ 2 := by positivity
    have h1 : 0 ≤ 1 / Real.sin θ ^ 2 - 1 := by
      rw [sub_nonneg, le_div_iff₀ hp]; linarith [hsin θ]
    apply hδ.ne h1
    have h0' : (Real.sin θ : ℂ) ≠ 0 := by exact_mod_cast h0
    rw [ofReal_sub, ofReal_div, ofReal_one, ofReal_pow]
    field_simp
    linear_combination hc
  have c1 : Continuous fun θ : ℝ => 1 / ((1 - n * (Real.sin θ : ℂ) ^ 2) * (√(1 - m * Real.sin θ ^ 2) : ℝ)) := by
    apply continuous_const.div (by fun_prop)
    intro θ
    refine mul_ne_zero (hn θ) ?_
    exact_mod_cast (Real.sqrt_pos.2 (hq θ)).ne'
  have c2 : Continuous fun θ : ℝ => ((1 / √(1 - m * Real.sin θ ^ 2) : ℝ) : ℂ) := by
    apply continuous_ofReal.comp
    exact continuous_const.div (by fun_prop) (fun θ => (Real.sqrt_pos.2 (hq θ)).ne')
  unfold ellipticPi ellipticK
  rw [← intervalIntegral.integral_ofReal, ← intervalIntegral.integral_sub (c1.intervalIntegrable _ _) (c2.intervalIntegrable _ _),
    ← intervalIntegral.integral_const_mul]
  apply intervalIntegral.integral_congr_ae
  refine Eventually.of_forall fun θ hθ => ?_
  rw [uIoc_of_le (by positivity)] at hθ
  have hs : Real.sin θ ≠ 0 := (Real.sin_pos_of_pos_of_lt_pi hθ.1 (by linarith [Real.pi_pos, hθ.2])).ne'
  have hs' : (Real.sin θ : ℂ) ≠ 0 := by exact_mod_cast hs
  have e : (Real.sin θ : ℂ) ^ 2 + (Real.cos θ : ℂ) ^ 2 = 1 := by exact_mod_cast Real.sin_sq_add_cos_sq θ
  have hr : ((√(1 - m * Real.sin θ ^ 2) : ℝ) : ℂ) ≠ 0 := by exact_mod_cast (Real.sqrt_pos.2 (hq θ)).ne'
  have e2 : (((Real.cos θ / Real.sin θ) ^ 2 : ℝ) : ℂ) + (1 - n) = (1 - n * (Real.sin θ : ℂ) ^ 2) / (Real.sin θ : ℂ) ^ 2 := by
    have : (((Real.cos θ / Real.sin θ) ^ 2 : ℝ) : ℂ) = ((Real.cos θ : ℝ) : ℂ) ^ 2 / ((Real.sin θ : ℝ) : ℂ) ^ 2 := by
      rw [ofReal_pow, ofReal_div, div_pow]
    rw [this]
    field_simp
    linear_combination e
  rw [e2]
  have hnθ := hn θ
  have e3 : ((1 / √(1 - m * Real.sin θ ^ 2) : ℝ) : ℂ) = 1 / ((√(1 - m * Real.sin θ ^ 2) : ℝ) : ℂ) := by rw [ofReal_div, ofReal_one]
  have e4 : ((2 / √(1 - m * Real.sin θ ^ 2) : ℝ) : ℂ) = 2 / ((√(1 - m * Real.sin θ ^ 2) : ℝ) : ℂ) := by rw [ofReal_div, ofReal_ofNat]
  rw [e3, e4]
  generalize ((√(1 - m * Real.sin θ ^ 2) : ℝ) : ℂ) = R at *
  generalize ((Real.sin θ : ℝ) : ℂ) = S at *
  generalize hW : 1 - n * S ^ 2 = W at *
  field_simp
  linear_combination hW

end GRT.Ell
