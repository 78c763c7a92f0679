import Verif.Lamb.Ellip
import Verif.Lamb.EllT

/-! `grt_ellipticRF` with two equal arguments. -/

namespace GRT.Lamb

open Complex Set

theorem csqrt_near {z : ℂ} (h : 1 + z ∈ slitPlane) : ‖csqrt (1 + z) - 1‖ ≤ ‖z‖ := by
  set k := csqrt (1 + z)
  have kk : k * k = 1 + z := csqrt_mul_self _
  have kr : 0 < k.re := csqrt_re_pos h
  have h1 : 1 ≤ ‖k + 1‖ := by
    have := Complex.abs_re_le_norm (k + 1)
    have h2 : (k + 1).re = k.re + 1 := by simp
    rw [h2, abs_of_pos (by linarith)] at this
    linarith
  have h3 : (k - 1) * (k + 1) = z := by linear_combination kk
  rw [← h3, norm_mul]
  nlinarith [norm_nonneg (k - 1)]

theorem slit_small {z : ℂ} (h : ‖z‖ < 1) : 1 + z ∈ slitPlane := by
  rw [mem_slitPlane_iff]
  left
  have := Complex.abs_re_le_norm z
  have := neg_abs_le z.re
  simp; linarith

theorem tInt_series {Y : ℂ} (hY : ‖Y‖ < 1 / 4) :
    tInt (-3 * Y / (1 + 2 * Y)) / csqrt (1 + 2 * Y) = ∫ u in (0 : ℝ)..1, 1 / (csqrt (1 + 2 * Y * (u : ℂ) ^ 2) * (1 - Y * (u : ℂ) ^ 2)) := by
  rcases eq_or_ne Y 0 with rfl | hY0
  · have : csqrt 1 = 1 := csqrt_unique (by simp) (by simp)
    simp [tInt_zero, this]
  set c := csqrt (-3 * Y) with hc
  have c0 : c ≠ 0 := csqrt_ne (by simp [hY0])
  have cc : c * c = -3 * Y := csqrt_mul_self _
  have small : ∀ W : ℂ, ‖W‖ < 1 / 4 → 1 + 2 * W ∈ slitPlane ∧ 1 - W ≠ 0 ∧ 1 + -3 * W / (1 + 2 * W) ∈ slitPlane := by
    intro W hW
    have h2 : ‖2 * W‖ < 1 := by rw [norm_mul, Complex.norm_ofNat]; linarith
    have s1 := slit_small h2
    have s2 : 1 + 2 * W ≠ 0 := slitPlane_ne_zero s1
    refine ⟨s1, ?_, ?_⟩
    · have := slitPlane_ne_zero (slit_small (z := -W) (by rw [norm_neg]; linarith))
      rwa [← sub_eq_add_neg] at this
    · have e : 1 + -3 * W / (1 + 2 * W) = (1 - W) / (1 + 2 * W) := by
        rw [eq_div_iff s2, add_mul, div_mul_cancel₀ _ s2]; ring
      rw [e]
      apply slit_of_mul
      rw [mem_slitPlane_iff]
      left
      have hr := Complex.abs_re_le_norm W
      have hi := Complex.abs_im_le_norm W
      have hr' := abs_lt.1 (hr.trans_lt hW)
      have hi' := abs_lt.1 (hi.trans_lt hW)
      simp
      nlinarith [hr'.1, hr'.2, hi'.1, hi'.2, mul_pos (sub_pos.2 hr'.2) (sub_pos.2 hr'.2), mul_pos (sub_pos.2 hi'.2) (sub_pos.2 hi'.1)]
  have hu : ∀ u ∈ uIcc (0 : ℝ) 1, ‖Y * (u : ℂ) ^ 2‖ < 1 / 4 := by
    intro u hu
    rw [uIcc_of_le zero_le_one] at hu
    rw [norm_mul, norm_pow, Complex.norm_real, Real.norm_eq_abs, abs_of_nonneg hu.1]
    have : u ^ 2 ≤ 1 := by nlinarith [hu.1, hu.2]
    nlinarith [norm_nonneg Y]
  have hd : ∀ σ ∈ uIcc (0 : ℝ) 1, HasDerivAt (fun σ : ℝ => arctan (c * (σ / csqrt (1 + 2 * Y * (σ : ℂ) ^ 2))) / c)
      (1 / (csqrt (1 + 2 * Y * (σ : ℂ) ^ 2) * (1 - Y * (σ : ℂ) ^ 2))) σ := by
    intro σ hσ
    obtain ⟨s1, s2, s3⟩ := small _ (hu σ hσ)
    have ea : 1 + 2 * Y * (σ : ℂ) ^ 2 = 1 + 2 * (Y * (σ : ℂ) ^ 2) := by ring
    rw [← ea] at s1 s3
    set k := csqrt (1 + 2 * Y * (σ : ℂ) ^ 2) with hk
    have kk : k * k = 1 + 2 * Y * (σ : ℂ) ^ 2 := csqrt_mul_self _
    have k0 : k ≠ 0 := csqrt_ne (slitPlane_ne_zero s1)
    have dσ : HasDerivAt (fun σ : ℝ => (σ : ℂ)) 1 σ := (hasDerivAt_id σ).ofReal_comp
    have d2 : HasDerivAt (fun σ : ℝ => csqrt (1 + 2 * Y * (σ : ℂ) ^ 2)) (1 / (2 * k) * (2 * Y * (2 * σ))) σ := by
      have d3 : HasDerivAt (fun σ : ℝ => 1 + 2 * Y * (σ : ℂ) ^ 2) (2 * Y * (2 * σ)) σ := by
        have := ((dσ.pow 2).const_mul (2 * Y)).const_add 1
        refine this.congr_deriv ?_
        simp
      exact (hasDerivAt_csqrt s1).comp σ d3
    have d4 := (dσ.div d2 k0).const_mul c
    have e4 : c * (σ / k) * (c * (σ / k)) = -3 * (Y * (σ : ℂ) ^ 2) / (1 + 2 * Y * (σ : ℂ) ^ 2) := by
      rw [← kk, show c * (σ / k) * (c * (σ / k)) = c * c * (σ : ℂ) ^ 2 / (k * k) by field_simp, cc]
      ring
    have hs2 : 1 + c * (σ / k) * (c * (σ / k)) ∈ slitPlane := by rw [e4]; exact s3
    have d5 := ((hasDerivAt_carctan hs2).comp σ d4).div_const c
    refine d5.congr_deriv ?_
    have e5 : 1 + c * (σ / k) * (c * (σ / k)) = (1 - Y * (σ : ℂ) ^ 2) / (k * k) := by
      rw [e4, ← kk]
      field_simp
      linear_combination kk
    rw [e5]
    have e6 : (1 * k - (σ : ℂ) * (1 / (2 * k) * (2 * Y * (2 * σ)))) / k ^ 2 = 1 / (k * k * k) := by
      field_simp
      linear_combination kk
    rw [e6]
    field_simp
  have hcont : ContinuousOn (fun σ : ℝ => 1 / (csqrt (1 + 2 * Y * (σ : ℂ) ^ 2) * (1 - Y * (σ : ℂ) ^ 2))) (uIcc 0 1) := by
    intro σ hσ
    obtain ⟨s1, s2, s3⟩ := small _ (hu σ hσ)
    have ea : 1 + 2 * Y * (σ : ℂ) ^ 2 = 1 + 2 * (Y * (σ : ℂ) ^ 2) := by ring
    rw [← ea] at s1
    apply ContinuousAt.continuousWithinAt
    refine ContinuousAt.div (f := fun _ => 1) (g := fun σ : ℝ => csqrt (1 + 2 * Y * (σ : ℂ) ^ 2) * (1 - Y * (σ : ℂ) ^ 2)) continuousAt_const ?_
      (mul_ne_zero (csqrt_ne (slitPlane_ne_zero s1)) s2)
    refine ContinuousAt.mul ?_ (by fun_prop)
    exact ContinuousAt.comp (f := fun σ : ℝ => 1 + 2 * Y * (σ : ℂ) ^ 2) (hasDerivAt_csqrt s1).continuousAt (by fun_prop)
  rw [intervalIntegral.integral_eq_sub_of_hasDerivAt hd hcont.intervalIntegrable]
  obtain ⟨s1, s2, s3⟩ := small _ hY
  have k0 : csqrt (1 + 2 * Y) ≠ 0 := csqrt_ne (slitPlane_ne_zero s1)
  simp only [ofReal_one, one_pow, mul_one, ofReal_zero, zero_div, mul_zero, carctan_zero, sub_zero]
  rw [tInt_of (c := c * (1 / csqrt (1 + 2 * Y))) _ (mul_ne_zero c0 (one_div_ne_zero k0)) s3]
  · field_simp
  · rw [show c * (1 / csqrt (1 + 2 * Y)) * (c * (1 / csqrt (1 + 2 * Y))) = c * c / (csqrt (1 + 2 * Y) * csqrt (1 + 2 * Y)) by field_simp,
      cc, csqrt_mul_self]

theorem series_point {W : ℂ} (hW : ‖W‖ < 0.001) :
    ‖1 / (csqrt (1 + 2 * W) * (1 - W)) - (1 + 3 / 2 * W ^ 2 - W ^ 3 + 27 / 8 * W ^ 4 - 9 / 2 * W ^ 5)‖ ≤ 3 / 10 ^ 17 := by
  have n0 := norm_nonneg W
  have h2W : ‖2 * W‖ ≤ 0.002 := by rw [norm_mul, Complex.norm_ofNat]; linarith
  have s1 := slit_small (z := 2 * W) (by linarith)
  set k := csqrt (1 + 2 * W) with hk
  have kk : k * k = 1 + 2 * W := csqrt_mul_self _
  have k1 : ‖k - 1‖ ≤ 0.002 := (csqrt_near s1).trans h2W
  set s := k * (1 - W) with hs
  set w : ℂ := -3 * W ^ 2 + 2 * W ^ 3 with hw
  have ss : s * s = 1 + w := by rw [hs, hw]; linear_combination (1 - W) ^ 2 * kk
  have s1' : ‖s - 1‖ ≤ 0.01 := by
    have e : s - 1 = (k - 1) - (k - 1) * W - W := by rw [hs]; ring
    rw [e]
    have := norm_sub_le ((k - 1) - (k - 1) * W) W
    have := norm_sub_le (k - 1) ((k - 1) * W)
    rw [norm_mul] at this
    nlinarith [norm_nonneg (k - 1)]
  have wn : ‖w‖ ≤ 3.002 / 10 ^ 6 := by
    have := norm_add_le (-3 * W ^ 2) (2 * W ^ 3)
    rw [norm_mul, norm_mul, norm_pow, norm_pow, norm_neg, Complex.norm_ofNat, Complex.norm_ofNat] at this
    have a2 : ‖W‖ ^ 2 ≤ 0.001 ^ 2 := pow_le_pow_left₀ n0 hW.le 2
    have a3 : ‖W‖ ^ 3 ≤ 0.001 ^ 3 := pow_le_pow_left₀ n0 hW.le 3
    rw [← hw] at this
    norm_num at a2 a3 ⊢
    linarith
  have wn0 := norm_nonneg w
  set q : ℂ := 1 - w / 2 + 3 / 8 * w ^ 2 with hq
  have q1 : ‖q - 1‖ ≤ 0.01 := by
    have e : q - 1 = w * (-1 / 2 + 3 / 8 * w) := by rw [hq]; ring
    rw [e, norm_mul]
    have : ‖(-1 / 2 + 3 / 8 * w : ℂ)‖ ≤ 1 := by
      have := norm_add_le (-1 / 2 : ℂ) (3 / 8 * w)
      rw [norm_mul] at this
      norm_num at this
      have hh : (3 / 8 : ℝ) * ‖w‖ ≤ 1 / 2 := by linarith
      linarith
    nlinarith [norm_nonneg (-1 / 2 + 3 / 8 * w : ℂ)]
  have sn : 0.99 ≤ ‖s‖ := by
    have := norm_sub_norm_le (1 : ℂ) (1 - s)
    rw [norm_one, norm_sub_rev, sub_sub_cancel] at this
    linarith
  have s0 : s ≠ 0 := by rw [← norm_pos_iff]; linarith
  have qs : 1.9 ≤ ‖1 + q * s‖ := by
    have e : 1 + q * s = 2 - (-((q - 1) * (s - 1)) - (q - 1) - (s - 1)) := by ring
    rw [e]
    have h1 := norm_sub_norm_le (2 : ℂ) (-((q - 1) * (s - 1)) - (q - 1) - (s - 1))
    have h2 := norm_sub_le (-((q - 1) * (s - 1)) - (q - 1)) (s - 1)
    have h3 := norm_sub_le (-((q - 1) * (s - 1))) (q - 1)
    rw [norm_neg, norm_mul] at h3
    rw [Complex.norm_ofNat] at h1
    nlinarith [norm_nonneg (q - 1), norm_nonneg (s - 1)]
  have qs0 : 1 + q * s ≠ 0 := by rw [← norm_pos_iff]; linarith
  have e1 : 1 / s - q = -(w ^ 3 * (5 / 8 - 15 / 64 * w + 9 / 64 * w ^ 2)) / (s * (1 + q * s)) := by
    rw [eq_div_iff (mul_ne_zero s0 qs0)]
    have : (1 / s - q) * (s * (1 + q * s)) = 1 - q ^ 2 * (s * s) := by field_simp; ring
    rw [this, ss, hq]; ring
  have e2 : 1 / s - (1 + 3 / 2 * W ^ 2 - W ^ 3 + 27 / 8 * W ^ 4 - 9 / 2 * W ^ 5) = (1 / s - q) + 3 / 2 * W ^ 6 := by rw [hq, hw]; ring
  rw [e2, e1]
  refine (norm_add_le _ _).trans ?_
  clear_value s w q
  rw [norm_div, norm_neg, norm_mul, norm_mul s, norm_mul, norm_pow, norm_pow]
  have b1 : ‖(5 / 8 - 15 / 64 * w + 9 / 64 * w ^ 2 : ℂ)‖ ≤ 1 := by
    have h1 := norm_add_le (5 / 8 - 15 / 64 * w : ℂ) (9 / 64 * w ^ 2)
    have h2 := norm_sub_le (5 / 8 : ℂ) (15 / 64 * w)
    rw [norm_mul, norm_pow] at h1
    rw [norm_mul] at h2
    norm_num at h1 h2
    nlinarith
  have b2 : ‖w‖ ^ 3 ≤ (3.002 / 10 ^ 6) ^ 3 := pow_le_pow_left₀ wn0 wn 3
  have b3 : ‖W‖ ^ 6 ≤ 0.001 ^ 6 := pow_le_pow_left₀ n0 hW.le 6
  have b4 : 1.8 ≤ ‖s‖ * ‖1 + q * s‖ := by nlinarith
  have b5 : ‖w‖ ^ 3 * ‖(5 / 8 - 15 / 64 * w + 9 / 64 * w ^ 2 : ℂ)‖ / (‖s‖ * ‖1 + q * s‖) ≤ (3.002 / 10 ^ 6) ^ 3 / 1.8 := by
    apply div_le_div₀ (by positivity) _ (by norm_num) b4
    calc _ ≤ ‖w‖ ^ 3 * 1 := by gcongr
      _ ≤ _ := by linarith
  norm_num at b3 b5 ⊢
  linarith

theorem series_int {Y : ℂ} (hY : ‖Y‖ < 0.001) :
    ‖tInt (-3 * Y / (1 + 2 * Y)) / csqrt (1 + 2 * Y) - (1 + 3 / 10 * Y ^ 2 - 1 / 7 * Y ^ 3 + 3 / 8 * Y ^ 4 - 9 / 22 * Y ^ 5)‖ ≤ 3 / 10 ^ 17 := by
  have hi : (∫ u in (0 : ℝ)..1, (1 + 3 / 2 * Y ^ 2 * (u : ℂ) ^ 4 - Y ^ 3 * (u : ℂ) ^ 6 + 27 / 8 * Y ^ 4 * (u : ℂ) ^ 8 - 9 / 2 * Y ^ 5 * (u : ℂ) ^ 10)) =
      1 + 3 / 10 * Y ^ 2 - 1 / 7 * Y ^ 3 + 3 / 8 * Y ^ 4 - 9 / 22 * Y ^ 5 := by
    have hd : ∀ u ∈ uIcc (0 : ℝ) 1, HasDerivAt (fun u : ℝ => (u : ℂ) + 3 / 10 * Y ^ 2 * (u : ℂ) ^ 5 - 1 / 7 * Y ^ 3 * (u : ℂ) ^ 7 + 3 / 8 * Y ^ 4 * (u : ℂ) ^ 9
        - 9 / 22 * Y ^ 5 * (u : ℂ) ^ 11) (1 + 3 / 2 * Y ^ 2 * (u : ℂ) ^ 4 - Y ^ 3 * (u : ℂ) ^ 6 + 27 / 8 * Y ^ 4 * (u : ℂ) ^ 8 - 9 / 2 * Y ^ 5 * (u : ℂ) ^ 10) u := by
      intro u _
      have dσ : HasDerivAt (fun σ : ℝ => (σ : ℂ)) 1 u := (hasDerivAt_id u).ofReal_comp
      have := (((dσ.add ((dσ.pow 5).const_mul (3 / 10 * Y ^ 2))).sub ((dσ.pow 7).const_mul (1 / 7 * Y ^ 3))).add
        ((dσ.pow 9).const_mul (3 / 8 * Y ^ 4))).sub ((dσ.pow 11).const_mul (9 / 22 * Y ^ 5))
      refine this.congr_deriv ?_
      push_cast
      ring
    rw [intervalIntegral.integral_eq_sub_of_hasDerivAt hd (Continuous.intervalIntegrable (by fun_prop) _ _)]
    simp
  have hc := tInt_series (Y := Y) (by norm_num at hY ⊢; linarith)
  rw [hc, ← hi, ← intervalIntegral.integral_sub]
  · have := intervalIntegral.norm_integral_le_of_norm_le_const (a := (0 : ℝ)) (b := 1) (C := 3 / 10 ^ 17)
      (f := fun u : ℝ => 1 / (csqrt (1 + 2 * Y * (u : ℂ) ^ 2) * (1 - Y * (u : ℂ) ^ 2)) -
        (1 + 3 / 2 * Y ^ 2 * (u : ℂ) ^ 4 - Y ^ 3 * (u : ℂ) ^ 6 + 27 / 8 * Y ^ 4 * (u : ℂ) ^ 8 - 9 / 2 * Y ^ 5 * (u : ℂ) ^ 10)) ?_
    · simpa using this
    · intro u hu
      rw [uIoc_of_le zero_le_one] at hu
      have hW : ‖Y * (u : ℂ) ^ 2‖ < 0.001 := by
        rw [norm_mul, norm_pow, Complex.norm_real, Real.norm_eq_abs, abs_of_nonneg hu.1.le]
        have : u ^ 2 ≤ 1 := by nlinarith [hu.1, hu.2]
        nlinarith [norm_nonneg Y]
      have := series_point hW
      refine le_of_eq_of_le ?_ this
      beta_reduce
      congr 1
      rw [show 2 * Y * (u : ℂ) ^ 2 = 2 * (Y * (u : ℂ) ^ 2) by ring]
      ring
  · apply ContinuousOn.intervalIntegrable
    intro σ hσ
    rw [uIcc_of_le zero_le_one] at hσ
    have hW : ‖Y * (σ : ℂ) ^ 2‖ < 0.001 := by
      rw [norm_mul, norm_pow, Complex.norm_real, Real.norm_eq_abs, abs_of_nonneg hσ.1]
      have : σ ^ 2 ≤ 1 := by nlinarith [hσ.1, hσ.2]
      nlinarith [norm_nonneg Y]
    have s1 : 1 + 2 * Y * (σ : ℂ) ^ 2 ∈ slitPlane := by
      apply slit_small; rw [mul_assoc, norm_mul, Complex.norm_ofNat]; norm_num at hW ⊢; linarith
    have s2 : 1 - Y * (σ : ℂ) ^ 2 ≠ 0 := by
      have := slitPlane_ne_zero (slit_small (z := -(Y * (σ : ℂ) ^ 2)) (by rw [norm_neg]; norm_num at hW ⊢; linarith))
      rwa [← sub_eq_add_neg] at this
    apply ContinuousAt.continuousWithinAt
    refine ContinuousAt.div (f := fun _ => 1) (g := fun σ : ℝ => csqrt (1 + 2 * Y * (σ : ℂ) ^ 2) * (1 - Y * (σ : ℂ) ^ 2)) continuousAt_const ?_
      (mul_ne_zero (csqrt_ne (slitPlane_ne_zero s1)) s2)
    refine ContinuousAt.mul ?_ (by fun_prop)
    exact ContinuousAt.comp (f := fun σ : ℝ => 1 + 2 * Y * (σ : ℂ) ^ 2) (hasDerivAt_csqrt s1).continuousAt (by fun_prop)
  · exact Continuous.intervalIntegrable (by fun_prop) _ _

/-- Half of Carlson's `∫ dt/(√(t+x)(t+y))`. -/
noncomputable def rcVal (x y : ℂ) : ℂ := tInt (y / x - 1) / csqrt x

theorem root_sector {x : ℂ} (h : 0 < x.re) : |(csqrt x).im| < (csqrt x).re := by
  have hx : x ∈ slitPlane := mem_slitPlane_iff.2 (Or.inl h)
  have h1 := csqrt_re_pos hx
  have h2 := congrArg Complex.re (csqrt_mul_self x)
  rw [mul_re] at h2
  exact abs_lt_of_sq_lt_sq (by nlinarith) h1.le

theorem sector_sq {a b : ℂ} (ha : |a.im| < a.re) (hb : |b.im| < b.re) : 0 < (a * b).re := by
  rw [mul_re]
  have h1 := abs_nonneg a.im
  have h2 := abs_nonneg b.im
  have : a.im * b.im ≤ |a.im| * |b.im| := by rw [← abs_mul]; exact le_abs_self _
  nlinarith

theorem sector_add {a b : ℂ} (ha : |a.im| < a.re) (hb : |b.im| < b.re) : |((a + b) / 2).im| < ((a + b) / 2).re := by
  have e1 : ((a + b) / 2).im = (a.im + b.im) / 2 := by simp
  have e2 : ((a + b) / 2).re = (a.re + b.re) / 2 := by simp
  rw [e1, e2, abs_div, abs_two]
  have := abs_add_le a.im b.im
  linarith

theorem root_mul_re {u v : ℂ} (hu : |u.im| < u.re) (hv : |v.im| < v.re) {c : ℝ} (h0 : 0 ≤ c) (hcu : c ≤ u.re) (hcv : c ≤ v.re) :
    c ≤ (csqrt (u * v)).re := by
  have hp := sector_sq hu hv
  have hs : u * v ∈ slitPlane := mem_slitPlane_iff.2 (Or.inl hp)
  set r := csqrt (u * v) with hr
  have rr : r * r = u * v := csqrt_mul_self _
  have rp : 0 < r.re := csqrt_re_pos hs
  have h1 := congrArg Complex.re rr
  have h2 : ‖r‖ ^ 2 = ‖u * (starRingEnd ℂ) v‖ := by
    rw [norm_mul, RCLike.norm_conj, ← norm_mul, ← rr, norm_mul]; ring
  have h3 : ‖r‖ ^ 2 = r.re ^ 2 + r.im ^ 2 := by rw [← Complex.normSq_eq_norm_sq, Complex.normSq_apply]; ring
  have h4 := Complex.re_le_norm (u * (starRingEnd ℂ) v)
  rw [← h2, h3] at h4
  simp only [mul_re, conj_re, conj_im] at h1 h4
  apply le_of_sq_le_sq _ rp.le
  nlinarith

/-- One round. -/
theorem rf_step {x y : ℂ} (hx : 0 < x.re) (hy : 0 < y.re) :
    quarter (lamOf x y y) x = (csqrt x + csqrt y) / 2 * ((csqrt x + csqrt y) / 2) ∧
    quarter (lamOf x y y) y = csqrt y * ((csqrt x + csqrt y) / 2) ∧
    csqrt (quarter (lamOf x y y) x) = (csqrt x + csqrt y) / 2 ∧
    0 < (quarter (lamOf x y y) x).re ∧ 0 < (quarter (lamOf x y y) y).re ∧
    rcVal (quarter (lamOf x y y) x) (quarter (lamOf x y y) y) = rcVal x y := by
  have sa := root_sector hx
  have sb := root_sector hy
  have aa : csqrt x * csqrt x = x := csqrt_mul_self x
  have bb : csqrt y * csqrt y = y := csqrt_mul_self y
  set a := csqrt x with ha
  set b := csqrt y with hb
  have sab := sector_add sa sb
  have e1 : quarter (lamOf x y y) x = (a + b) / 2 * ((a + b) / 2) := by
    unfold quarter lamOf
    rw [← ha, ← hb]
    norm_num
    linear_combination -(1 / 4) * aa
  have e2 : quarter (lamOf x y y) y = b * ((a + b) / 2) := by
    unfold quarter lamOf
    rw [← ha, ← hb]
    norm_num
    linear_combination -(1 / 4) * bb
  have p1 : 0 < ((a + b) / 2).re := (abs_nonneg _).trans_lt sab
  have e3 : csqrt (quarter (lamOf x y y) x) = (a + b) / 2 := csqrt_unique e1.symm p1
  refine ⟨e1, e2, e3, by rw [e1]; exact sector_sq sab sab, by rw [e2]; exact sector_sq sb sab, ?_⟩
  have ap : 0 < a.re := (abs_nonneg _).trans_lt sa
  have bp : 0 < b.re := (abs_nonneg _).trans_lt sb
  have a0 : a ≠ 0 := by intro h; rw [h] at ap; simp at ap
  have ab0 : a + b ≠ 0 := by intro h; have := congrArg Complex.re h; simp at this; linarith
  have x0 : x ≠ 0 := by rw [← aa]; exact mul_ne_zero a0 a0
  unfold rcVal
  rw [e3, e1, e2, ← ha]
  have yx : y / x ∈ slitPlane := by
    apply slit_of_mul
    rw [← aa, ← bb]
    have h : b * b * (starRingEnd ℂ) (a * a) = b * (starRingEnd ℂ) a * (b * (starRingEnd ℂ) a) := by rw [map_mul]; ring
    rw [h]
    set t := b * (starRingEnd ℂ) a with ht
    have ht' : 0 < t.re := by rw [ht]; exact sector_sq sb (by simpa using sa)
    rw [mem_slitPlane_iff]
    by_contra hc
    push Not at hc
    simp only [mul_re, mul_im] at hc
    have : t.im = 0 := by
      have : t.re * t.im = 0 := by linarith [hc.2]
      exact (mul_eq_zero.mp this).resolve_left ht'.ne'
    rw [this] at hc
    nlinarith [hc.1]
  have hr : csqrt (1 + (y / x - 1)) = b / a := by
    rw [add_sub_cancel]
    apply csqrt_unique
    · rw [div_mul_div_comm, aa, bb]
    · have : b / a = b * (starRingEnd ℂ) a / (Complex.normSq a : ℂ) := by
        rw [Complex.normSq_eq_conj_mul_self]
        have : (starRingEnd ℂ) a ≠ 0 := by simpa using a0
        field_simp
      rw [this, Complex.div_ofReal_re]
      exact div_pos (sector_sq sb (by simpa using sa)) (Complex.normSq_pos.2 a0)
  rw [tInt_half (e := y / x - 1) (by rw [add_sub_cancel]; exact yx), hr]
  have e5 : b * ((a + b) / 2) / ((a + b) / 2 * ((a + b) / 2)) - 1 = (b / a - 1) / (b / a + 1) := by
    have : b / a + 1 ≠ 0 := by
      rw [div_add_one a0, add_comm]; exact div_ne_zero ab0 a0
    have h2 : b + a ≠ 0 := by rwa [add_comm]
    field_simp
    ring
  rw [e5]
  field_simp

/-- The series at the end. -/
theorem rf_end {x y : ℂ} (hx : 0 < x.re) (hy : 0 < y.re) (h : ‖dev ((x + y + y) / 3) y‖ < 0.001) :
    ‖rfEnd ((x + y + y) / 3) x y y - rcVal x y‖ ≤ 4 / 10 ^ 17 * ‖rcVal x y‖ := by
  set A := (x + y + y) / 3 with hA
  have Ar : 0 < A.re := by
    have : A.re = (x.re + y.re + y.re) / 3 := by rw [hA]; simp
    rw [this]; linarith
  have A0 : A ≠ 0 := by intro h; rw [h] at Ar; simp at Ar
  set Y := dev A y with hY
  have ey : y = A * (1 - Y) := by rw [hY]; unfold dev; field_simp; ring
  have ex : x = A * (1 + 2 * Y) := by
    have : x = 3 * A - y - y := by rw [hA]; ring
    rw [this, ey]; ring
  have eX : dev A x = -2 * Y := by rw [ex]; unfold dev; field_simp; ring
  have n2 : ‖2 * Y‖ ≤ 0.002 := by rw [norm_mul, Complex.norm_ofNat]; linarith
  have s1 : 1 + 2 * Y ∈ slitPlane := slit_small (by linarith)
  have k1 := (csqrt_near s1).trans n2
  have hI := series_int h
  have sA := root_sector Ar
  have αα : csqrt A * csqrt A = A := csqrt_mul_self A
  set α := csqrt A with hα
  have α0 : α ≠ 0 := csqrt_ne A0
  set k := csqrt (1 + 2 * Y) with hk
  have kk : k * k = 1 + 2 * Y := csqrt_mul_self _
  have k0 : k ≠ 0 := csqrt_ne (slitPlane_ne_zero s1)
  have ecx : csqrt x = α * k := by
    apply csqrt_unique
    · rw [ex]; linear_combination k * k * αα + A * kk
    · have r1 := abs_le.1 ((Complex.abs_re_le_norm (k - 1)).trans k1)
      have r2 := (Complex.abs_im_le_norm (k - 1)).trans k1
      simp at r1 r2
      apply sector_sq sA
      norm_num at r1 r2 ⊢
      linarith [r1.1]
  have ev : rcVal x y = tInt (-3 * Y / (1 + 2 * Y)) / k / α := by
    unfold rcVal
    have : y / x - 1 = -3 * Y / (1 + 2 * Y) := by
      have h2 := slitPlane_ne_zero s1
      rw [ex, ey, mul_div_mul_left _ _ A0, div_sub_one h2]
      congr 1; ring
    rw [this, ecx]
    field_simp
  have er : rfEnd A x y y = (1 + 3 / 10 * Y ^ 2 - 1 / 7 * Y ^ 3 + 3 / 8 * Y ^ 4 - 9 / 22 * Y ^ 5) / α := by
    unfold rfEnd
    simp only [← hY, eX, ← hα]
    congr 1
    norm_num
    ring
  rw [er, ev]
  set h0 := tInt (-3 * Y / (1 + 2 * Y)) / k with hh0
  set S : ℂ := 1 + 3 / 10 * Y ^ 2 - 1 / 7 * Y ^ 3 + 3 / 8 * Y ^ 4 - 9 / 22 * Y ^ 5 with hS
  rw [← sub_div, norm_div, norm_div, norm_sub_rev]
  have hn : 0.99 ≤ ‖h0‖ := by
    have e : S = 1 + Y * (3 / 10 * Y - 1 / 7 * Y ^ 2 + 3 / 8 * Y ^ 3 - 9 / 22 * Y ^ 4) := by rw [hS]; ring
    have b0 := norm_nonneg Y
    have b2 : ‖Y‖ ^ 2 ≤ 1 := pow_le_one₀ b0 (by linarith)
    have b3 : ‖Y‖ ^ 3 ≤ 1 := pow_le_one₀ b0 (by linarith)
    have b4 : ‖Y‖ ^ 4 ≤ 1 := pow_le_one₀ b0 (by linarith)
    have hB : ‖(3 / 10 * Y - 1 / 7 * Y ^ 2 + 3 / 8 * Y ^ 3 - 9 / 22 * Y ^ 4 : ℂ)‖ ≤ 2 := by
      have g1 := norm_sub_le (3 / 10 * Y - 1 / 7 * Y ^ 2 + 3 / 8 * Y ^ 3 : ℂ) (9 / 22 * Y ^ 4)
      have g2 := norm_add_le (3 / 10 * Y - 1 / 7 * Y ^ 2 : ℂ) (3 / 8 * Y ^ 3)
      have g3 := norm_sub_le (3 / 10 * Y : ℂ) (1 / 7 * Y ^ 2)
      have f1 : ‖(9 / 22 * Y ^ 4 : ℂ)‖ ≤ 1 / 2 := by rw [norm_mul, norm_pow]; norm_num; linarith
      have f2 : ‖(3 / 8 * Y ^ 3 : ℂ)‖ ≤ 1 / 2 := by rw [norm_mul, norm_pow]; norm_num; linarith
      have f3 : ‖(1 / 7 * Y ^ 2 : ℂ)‖ ≤ 1 / 2 := by rw [norm_mul, norm_pow]; norm_num; linarith
      have f4 : ‖(3 / 10 * Y : ℂ)‖ ≤ 1 / 2 := by rw [norm_mul]; norm_num; linarith
      linarith
    have h1 : ‖S - 1‖ ≤ 0.002 := by
      rw [e, add_sub_cancel_left, norm_mul]
      nlinarith [norm_nonneg (3 / 10 * Y - 1 / 7 * Y ^ 2 + 3 / 8 * Y ^ 3 - 9 / 22 * Y ^ 4 : ℂ)]
    have h2 := norm_sub_norm_le (1 : ℂ) (1 - h0)
    rw [sub_sub_cancel, norm_one] at h2
    have h3 : ‖1 - h0‖ ≤ ‖h0 - S‖ + ‖S - 1‖ := by
      rw [norm_sub_rev]
      have : h0 - 1 = (h0 - S) + (S - 1) := by ring
      rw [this]; exact norm_add_le _ _
    norm_num at hI h1 ⊢
    linarith
  have an : 0 < ‖α‖ := norm_pos_iff.2 α0
  rw [← mul_div_assoc]
  gcongr
  refine hI.trans ?_
  norm_num at hn ⊢
  linarith

/-- The loop. -/
theorem rf_loop (k : ℕ) : ∀ (x y : ℂ), 0 < x.re → 0 < y.re → ∀ c : ℝ, 0 < c → c ≤ (csqrt x).re → c ≤ (csqrt y).re →
    ‖y - x‖ < 4 ^ k * (0.001 * c ^ 2) → ∃ r, ellRF k x y y = some r ∧ ‖r - rcVal x y‖ ≤ 4 / 10 ^ 17 * ‖rcVal x y‖ := by
  induction k with
  | zero =>
    intro x y hx hy c c0 ca cb hd
    have Ar : 0 < ((x + y + y) / 3).re := by
      have : ((x + y + y) / 3).re = (x.re + y.re + y.re) / 3 := by simp
      rw [this]; linarith
    have A0 : (x + y + y) / 3 ≠ 0 := by intro h; rw [h] at Ar; simp at Ar
    refine ⟨_, ?_, rf_end hx hy ?_⟩
    · unfold ellRF
      simp only [if_neg A0]
    · rw [pow_zero, one_mul] at hd
      have e : dev ((x + y + y) / 3) y = (x - y) / (3 * ((x + y + y) / 3)) := by
        have e0 : x - y = 3 * ((x + y + y) / 3) - 3 * y := by ring
        rw [e0]
        generalize (x + y + y) / 3 = A at A0
        unfold dev; field_simp; ring
      have hn : c ^ 2 ≤ ‖x‖ := by
        rw [← csqrt_mul_self x, norm_mul]
        have := (Complex.abs_re_le_norm (csqrt x))
        have h2 : c ≤ ‖csqrt x‖ := ca.trans ((le_abs_self _).trans this)
        nlinarith
      have e2 : 3 * ((x + y + y) / 3) = 3 * x - 2 * (x - y) := by ring
      have h3 : 3 * ‖x‖ - 2 * ‖x - y‖ ≤ ‖3 * ((x + y + y) / 3)‖ := by
        rw [e2]
        have := norm_sub_norm_le (3 * x) (2 * (x - y))
        rw [norm_mul, norm_mul, Complex.norm_ofNat, Complex.norm_ofNat] at this
        exact this
      rw [norm_sub_rev] at hd
      have h4 : 0 < ‖3 * ((x + y + y) / 3)‖ := norm_pos_iff.2 (mul_ne_zero (by norm_num) A0)
      rw [e, norm_div, div_lt_iff₀ h4]
      nlinarith
  | succ k ih =>
    intro x y hx hy c c0 ca cb hd
    have Ar : 0 < ((x + y + y) / 3).re := by
      have : ((x + y + y) / 3).re = (x.re + y.re + y.re) / 3 := by simp
      rw [this]; linarith
    have A0 : (x + y + y) / 3 ≠ 0 := by intro h; rw [h] at Ar; simp at Ar
    unfold ellRF
    simp only [if_neg A0]
    split
    · rename_i ht
      exact ⟨_, rfl, rf_end hx hy ((le_max_right _ _).trans_lt ht)⟩
    · obtain ⟨e1, e2, e3, p1, p2, ev⟩ := rf_step hx hy
      rw [← ev]
      apply ih _ _ p1 p2 c c0
      · rw [e3]; simp; linarith
      · rw [e2]
        apply root_mul_re (root_sector hy) (sector_add (root_sector hx) (root_sector hy)) c0.le cb
        simp; linarith
      · have : quarter (lamOf x y y) y - quarter (lamOf x y y) x = (y - x) / 4 := by unfold quarter; norm_num; ring
        rw [this, norm_div, Complex.norm_ofNat]
        rw [pow_succ] at hd
        linarith

/-- The call in `grt_ellipticRJ`. -/
theorem rf_one {e : ℂ} (h : 0 < (1 + e).re) (he : ‖e‖ ≤ 1) (hs : 2000 < 4 ^ 9999 * ‖1 + e‖) :
    ∃ r, ellRF 9999 1 (1 + e) (1 + e) = some r ∧ ‖r - tInt e‖ ≤ 4 / 10 ^ 17 * ‖tInt e‖ := by
  have c1 : csqrt 1 = 1 := csqrt_unique (by simp) (by simp)
  have ev : rcVal 1 (1 + e) = tInt e := by unfold rcVal; rw [c1]; simp
  rw [← ev]
  have hz : 1 + e ∈ slitPlane := mem_slitPlane_iff.2 (Or.inl h)
  have rp := csqrt_re_pos hz
  set r := csqrt (1 + e) with hr
  have rr : r * r = 1 + e := csqrt_mul_self _
  have h1 : ‖1 + e‖ = r.re ^ 2 + r.im ^ 2 := by
    rw [← rr, norm_mul, ← pow_two, ← Complex.normSq_eq_norm_sq, Complex.normSq_apply]; ring
  have h2 : (1 + e).re = r.re ^ 2 - r.im ^ 2 := by rw [← rr, mul_re]; ring
  have h3 : ‖1 + e‖ ≤ 2 := by
    have := norm_add_le (1 : ℂ) e
    rw [norm_one] at this; linarith
  have h4 : ‖1 + e‖ / 2 ≤ r.re ^ 2 := by linarith
  have h0 : 0 < ‖1 + e‖ := norm_pos_iff.2 (slitPlane_ne_zero hz)
  refine rf_loop 9999 1 (1 + e) (by simp) h (√(‖1 + e‖ / 2)) (Real.sqrt_pos.2 (by linarith)) ?_ ?_ ?_
  · rw [c1]
    simp only [one_re]
    exact Real.sqrt_le_iff.2 ⟨by norm_num, by linarith⟩
  · rw [← hr]
    exact Real.sqrt_le_iff.2 ⟨rp.le, h4⟩
  · rw [Real.sq_sqrt (by linarith), add_sub_cancel_left]
    generalize (4 : ℝ) ^ 9999 = N at hs ⊢
    norm_num at he ⊢
    linarith

end GRT.Lamb
