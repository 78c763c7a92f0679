import Verif.Lamb.PhaseS3
import Mathlib.MeasureTheory.Integral.IntervalIntegral.FundThmCalculus
import Mathlib.Analysis.SpecialFunctions.Log.Deriv
import Mathlib.Analysis.SpecialFunctions.Sqrt

/-! Principal values, for the times after the Rayleigh arrival. -/

namespace GRT.Lamb

open Set Filter Topology MeasureTheory

/-- The integral of `F` over `a..b` with the pole `c` left out symmetrically. -/
def HasPV (F : ℝ → ℝ) (a c b v : ℝ) : Prop :=
  (∀ᶠ δ in 𝓝[>] (0 : ℝ), IntervalIntegrable F volume a (c - δ) ∧ IntervalIntegrable F volume (c + δ) b) ∧
    Tendsto (fun δ => (∫ p in a..c - δ, F p) + ∫ p in c + δ..b, F p) (𝓝[>] 0) (𝓝 v)

section

variable {F G : ℝ → ℝ} {a c b d v w : ℝ}

theorem HasPV.add (hF : HasPV F a c b v) (hG : HasPV G a c b w) : HasPV (fun p => F p + G p) a c b (v + w) := by
  refine ⟨?_, ?_⟩
  · filter_upwards [hF.1, hG.1] with δ h1 h2
    exact ⟨h1.1.add h2.1, h1.2.add h2.2⟩
  · refine (hF.2.add hG.2).congr' ?_
    filter_upwards [hF.1, hG.1] with δ h1 h2
    rw [intervalIntegral.integral_add h1.1 h2.1, intervalIntegral.integral_add h1.2 h2.2]
    ring

theorem HasPV.const_mul (hF : HasPV F a c b v) (k : ℝ) : HasPV (fun p => k * F p) a c b (k * v) := by
  refine ⟨?_, ?_⟩
  · filter_upwards [hF.1] with δ h1
    exact ⟨h1.1.const_mul k, h1.2.const_mul k⟩
  · refine (hF.2.const_mul k).congr (fun δ => ?_)
    simp only [intervalIntegral.integral_const_mul]
    ring

theorem small (h : 0 < d) : ∀ᶠ δ in 𝓝[>] (0 : ℝ), 0 < δ ∧ δ < d := by
  filter_upwards [self_mem_nhdsWithin, nhdsWithin_le_nhds (Iio_mem_nhds h)] with δ h1 h2
  exact ⟨h1, h2⟩

theorem shift_tendsto (s c : ℝ) : Tendsto (fun δ : ℝ => c + s * δ) (𝓝[>] 0) (𝓝 c) := by
  have : ContinuousAt (fun δ : ℝ => c + s * δ) 0 := by fun_prop
  have h := this.tendsto
  simp only [mul_zero, add_zero] at h
  exact h.mono_left nhdsWithin_le_nhds

theorem HasPV.of_integrable (hac : a < c) (hcb : c < b) (h : IntervalIntegrable F volume a b) : HasPV F a c b (∫ p in a..b, F p) := by
  have hab : a ≤ b := (hac.trans hcb).le
  refine ⟨?_, ?_⟩
  · filter_upwards [small (sub_pos.mpr hac), small (sub_pos.mpr hcb)] with δ h1 h2
    constructor
    · refine h.mono_set ?_
      rw [uIcc_of_le (by linarith), uIcc_of_le hab]
      exact Icc_subset_Icc_right (by linarith)
    · refine h.mono_set ?_
      rw [uIcc_of_le (by linarith), uIcc_of_le hab]
      exact Icc_subset_Icc_left (by linarith)
  · have hm : uIcc a b ∈ 𝓝 c := by rw [uIcc_of_le hab]; exact Icc_mem_nhds hac hcb
    have c1 := (intervalIntegral.continuousOn_primitive_interval' h left_mem_uIcc).continuousAt hm
    have c2 := (intervalIntegral.continuousOn_primitive_interval' h right_mem_uIcc).continuousAt hm
    have t1 := c1.tendsto.comp (shift_tendsto (-1) c)
    have t2 := (c2.tendsto.comp (shift_tendsto 1 c)).neg
    have ia : IntervalIntegrable F volume a c := h.mono_set (by rw [uIcc_of_le hac.le, uIcc_of_le hab]; exact Icc_subset_Icc_right hcb.le)
    have ib : IntervalIntegrable F volume c b := h.mono_set (by rw [uIcc_of_le hcb.le, uIcc_of_le hab]; exact Icc_subset_Icc_left hac.le)
    rw [← intervalIntegral.integral_add_adjacent_intervals ia ib, intervalIntegral.integral_symm b c]
    refine (t1.add t2).congr (fun δ => ?_)
    simp only [Function.comp]
    rw [intervalIntegral.integral_symm b, show c + -1 * δ = c - δ by ring, show c + 1 * δ = c + δ by ring]

theorem int_congr_Ioo (h : a ≤ b) (hF : ∀ p ∈ Ioo a b, F p = G p) :
    ∫ p in a..b, F p = ∫ p in a..b, G p ∧ (IntervalIntegrable G volume a b → IntervalIntegrable F volume a b) := by
  constructor
  · rw [intervalIntegral.integral_of_le h, intervalIntegral.integral_of_le h, integral_Ioc_eq_integral_Ioo, integral_Ioc_eq_integral_Ioo]
    exact setIntegral_congr_fun measurableSet_Ioo hF
  · rw [intervalIntegrable_iff_integrableOn_Ioo_of_le h, intervalIntegrable_iff_integrableOn_Ioo_of_le h]
    exact fun hG => (integrableOn_congr_fun hF measurableSet_Ioo).mpr hG

theorem HasPV.congr (hG : HasPV G a c b v) (hac : a < c) (hcb : c < b) (h : ∀ p ∈ Ioo a b, p ≠ c → F p = G p) : HasPV F a c b v := by
  have key : ∀ᶠ δ in 𝓝[>] (0 : ℝ), (∀ p ∈ Ioo a (c - δ), F p = G p) ∧ (∀ p ∈ Ioo (c + δ) b, F p = G p) ∧ a ≤ c - δ ∧ c + δ ≤ b := by
    filter_upwards [small (sub_pos.mpr hac), small (sub_pos.mpr hcb)] with δ h1 h2
    refine ⟨fun p hp => h p ⟨hp.1, by linarith [hp.2]⟩ (by linarith [hp.2, h1.1] : p < c).ne,
      fun p hp => h p ⟨by linarith [hp.1], hp.2⟩ (by linarith [hp.1, h1.1] : c < p).ne', by linarith, by linarith⟩
  refine ⟨?_, ?_⟩
  · filter_upwards [hG.1, key] with δ h1 h2
    exact ⟨(int_congr_Ioo h2.2.2.1 h2.1).2 h1.1, (int_congr_Ioo h2.2.2.2 h2.2.1).2 h1.2⟩
  · refine hG.2.congr' ?_
    filter_upwards [key] with δ h2
    rw [(int_congr_Ioo h2.2.2.1 h2.1).1, (int_congr_Ioo h2.2.2.2 h2.2.1).1]

theorem HasPV.extend (hF : HasPV F a c b v) (h : IntervalIntegrable F volume b d) : HasPV F a c d (v + ∫ p in b..d, F p) := by
  refine ⟨?_, ?_⟩
  · filter_upwards [hF.1] with δ h1
    exact ⟨h1.1, h1.2.trans h⟩
  · refine (hF.2.add_const (∫ p in b..d, F p)).congr' ?_
    filter_upwards [hF.1] with δ h1
    rw [← intervalIntegral.integral_add_adjacent_intervals h1.2 h]
    ring

end

section base

variable {A q b : ℝ}

/-- The antiderivative. -/
noncomputable def primV (A q p : ℝ) : ℝ :=
  1 / (2 * q * √(A - q * q)) * (Real.log (q * √(A - p * p) + √(A - q * q) * p) - Real.log (q * √(A - p * p) - √(A - q * q) * p))

theorem prim_ne (hq : 0 < q) (hqA : q * q < A) {p : ℝ} (hp0 : 0 ≤ p) (hp : p * p ≤ A) (hpq : p ≠ q) :
    q * √(A - p * p) + √(A - q * q) * p ≠ 0 ∧ q * √(A - p * p) - √(A - q * q) * p ≠ 0 := by
  have hD : 0 < √(A - q * q) := Real.sqrt_pos.mpr (by linarith)
  have hDD := Real.mul_self_sqrt (by linarith : 0 ≤ A - q * q)
  have hss := Real.mul_self_sqrt (by linarith : 0 ≤ A - p * p)
  have hs := Real.sqrt_nonneg (A - p * p)
  generalize √(A - q * q) = D at *
  generalize √(A - p * p) = s at *
  have hA : 0 < A := by nlinarith
  have hpp : p * p ≠ q * q := by
    intro h; apply hpq; nlinarith [mul_self_eq_mul_self_iff.mp h]
  have hm : (q * s + D * p) * (q * s - D * p) = A * (q * q - p * p) := by linear_combination q * q * hss - p * p * hDD
  have : (q * s + D * p) * (q * s - D * p) ≠ 0 := by
    rw [hm]; exact mul_ne_zero hA.ne' (by intro h; apply hpp; linarith)
  exact mul_ne_zero_iff.mp this

theorem prim_deriv (hq : 0 < q) (hqA : q * q < A) {p : ℝ} (hp0 : 0 ≤ p) (hp : p * p < A) (hpq : p ≠ q) :
    HasDerivAt (primV A q) (1 / (√(A - p * p) * (q * q - p * p))) p := by
  obtain ⟨n1, n2⟩ := prim_ne hq hqA hp0 hp.le hpq
  have hs : HasDerivAt (fun p : ℝ => √(A - p * p)) (-(p + p) / (2 * √(A - p * p))) p := by
    refine HasDerivAt.sqrt ?_ (by linarith)
    have := ((hasDerivAt_id p).mul (hasDerivAt_id p)).const_sub A
    simpa using this
  have hD0 : 0 < √(A - q * q) := Real.sqrt_pos.mpr (by linarith)
  have hDD := Real.mul_self_sqrt (by linarith : 0 ≤ A - q * q)
  have hss := Real.mul_self_sqrt (by linarith : 0 ≤ A - p * p)
  have hs0 : 0 < √(A - p * p) := Real.sqrt_pos.mpr (by linarith)
  have g1 := ((hs.const_mul q).add ((hasDerivAt_id p).const_mul √(A - q * q))).log n1
  have g2 := ((hs.const_mul q).sub ((hasDerivAt_id p).const_mul √(A - q * q))).log n2
  have := (g1.sub g2).const_mul (1 / (2 * q * √(A - q * q)))
  refine this.congr_deriv ?_
  simp only [id, Pi.add_apply, Pi.sub_apply]
  clear this g1 g2 hs
  generalize √(A - q * q) = D at *
  generalize √(A - p * p) = s at *
  have hA : 0 < A := by nlinarith
  have hpp : q * q - p * p ≠ 0 := by
    intro h
    apply hpq; nlinarith [mul_self_eq_mul_self_iff.mp (sub_eq_zero.mp h)]
  have hm : (q * s + D * p) * (q * s - D * p) = A * (q * q - p * p) := by linear_combination q * q * hss - p * p * hDD
  have e1 : (q * (-(p + p) / (2 * s)) + D * 1) / (q * s + D * p) - (q * (-(p + p) / (2 * s)) - D * 1) / (q * s - D * p) =
      2 * q * D * A / (s * ((q * s + D * p) * (q * s - D * p))) := by
    have e2 : q * (-(p + p) / (2 * s)) + D * 1 = (D * s - q * p) / s := by field_simp; ring
    have e3 : q * (-(p + p) / (2 * s)) - D * 1 = (-(D * s) - q * p) / s := by field_simp; ring
    rw [e2, e3, div_div, div_div, div_sub_div _ _ (mul_ne_zero hs0.ne' n1) (mul_ne_zero hs0.ne' n2), div_eq_div_iff
      (mul_ne_zero (mul_ne_zero hs0.ne' n1) (mul_ne_zero hs0.ne' n2)) (mul_ne_zero hs0.ne' (mul_ne_zero n1 n2))]
    linear_combination 2 * q * D * s ^ 2 * ((q * s + D * p) * (q * s - D * p)) * hss
  rw [e1, hm]
  field_simp

theorem prim_cont (hq : 0 < q) (hqA : q * q < A) {p : ℝ} (hp0 : 0 ≤ p) (hp : p * p ≤ A) (hpq : p ≠ q) : ContinuousAt (primV A q) p := by
  obtain ⟨n1, n2⟩ := prim_ne hq hqA hp0 hp hpq
  unfold primV
  refine continuousAt_const.mul (ContinuousAt.sub (ContinuousAt.log ?_ n1) (ContinuousAt.log ?_ n2)) <;> fun_prop

theorem prim_jump (hq : 0 < q) (hqA : q * q < A) : Tendsto (fun δ => primV A q (q - δ) - primV A q (q + δ)) (𝓝[>] 0) (𝓝 0) := by
  have hD0 : 0 < √(A - q * q) := Real.sqrt_pos.mpr (by linarith)
  have hDD := Real.mul_self_sqrt (by linarith : 0 ≤ A - q * q)
  set h : ℝ → ℝ := fun p => q * √(A - p * p) - √(A - q * q) * p with hh
  have hs : HasDerivAt (fun p : ℝ => √(A - p * p)) (-(q + q) / (2 * √(A - q * q))) q := by
    refine HasDerivAt.sqrt ?_ (by linarith)
    have := ((hasDerivAt_id q).mul (hasDerivAt_id q)).const_sub A
    simpa using this
  have hd : HasDerivAt h (-(A / √(A - q * q))) q := by
    have := (hs.const_mul q).sub ((hasDerivAt_id q).const_mul √(A - q * q))
    refine this.congr_deriv ?_
    generalize √(A - q * q) = D at *
    have hA : A = D * D + q * q := by linarith
    rw [hA]
    field_simp
    ring
  have hA : 0 < A := by nlinarith
  have hd0 : -(A / √(A - q * q)) ≠ 0 := neg_ne_zero.mpr (by positivity)
  have hq0 : h q = 0 := by simp only [hh]; ring
  have hsl := hasDerivAt_iff_tendsto_slope.mp hd
  have toR : Tendsto (fun δ : ℝ => q + δ) (𝓝[>] 0) (𝓝[≠] q) := by
    refine tendsto_nhdsWithin_iff.mpr ⟨by simpa using shift_tendsto 1 q, ?_⟩
    filter_upwards [self_mem_nhdsWithin] with δ (hδ : 0 < δ)
    simp [hδ.ne']
  have toL : Tendsto (fun δ : ℝ => q - δ) (𝓝[>] 0) (𝓝[≠] q) := by
    refine tendsto_nhdsWithin_iff.mpr ⟨by simpa [sub_eq_add_neg] using shift_tendsto (-1) q, ?_⟩
    filter_upwards [self_mem_nhdsWithin] with δ (hδ : 0 < δ)
    simp [hδ.ne']
  have r1 := ((Real.continuousAt_log hd0).tendsto.comp (hsl.comp toL))
  have r2 := ((Real.continuousAt_log hd0).tendsto.comp (hsl.comp toR))
  have g0 : q * √(A - q * q) + √(A - q * q) * q ≠ 0 := by positivity
  have gc : ContinuousAt (fun p : ℝ => Real.log (q * √(A - p * p) + √(A - q * q) * p)) q := ContinuousAt.log (by fun_prop) g0
  have s1 := gc.tendsto.comp (toL.mono_right nhdsWithin_le_nhds)
  have s2 := gc.tendsto.comp (toR.mono_right nhdsWithin_le_nhds)
  have := ((s1.sub s2).sub (r1.sub r2)).const_mul (1 / (2 * q * √(A - q * q)))
  simp only [sub_self, mul_zero] at this
  refine this.congr' ?_
  have hev : ∀ᶠ δ in 𝓝[>] (0 : ℝ), 0 < δ ∧ δ < q ∧ (q + δ) * (q + δ) < A := by
    have hc : ContinuousAt (fun δ : ℝ => (q + δ) * (q + δ)) 0 := by fun_prop
    have := hc.eventually_lt_const (by simpa using hqA : (fun δ : ℝ => (q + δ) * (q + δ)) 0 < A)
    filter_upwards [small hq, nhdsWithin_le_nhds this] with δ h1 h2
    exact ⟨h1.1, h1.2, h2⟩
  filter_upwards [hev] with δ ⟨h1, h2, h3⟩
  have n1 : h (q - δ) ≠ 0 := (prim_ne hq hqA (by linarith) (by nlinarith) (by linarith : q - δ < q).ne).2
  have n2 : h (q + δ) ≠ 0 := (prim_ne hq hqA (by linarith) h3.le (by linarith : q < q + δ).ne').2
  have l1 : Real.log (slope h q (q - δ)) = Real.log (h (q - δ)) - Real.log δ := by
    rw [slope_def_field, hq0, sub_zero, show q - δ - q = -δ by ring, div_neg, Real.log_neg_eq_log, Real.log_div n1 h1.ne']
  have l2 : Real.log (slope h q (q + δ)) = Real.log (h (q + δ)) - Real.log δ := by
    rw [slope_def_field, hq0, sub_zero, show q + δ - q = δ by ring, Real.log_div n2 h1.ne']
  simp only [Function.comp, l1, l2]
  unfold primV
  simp only [hh]
  ring

theorem pv_base (hq : 0 < q) (hqb : q < b) (hbA : b * b ≤ A) : HasPV (fun p => 1 / (√(A - p * p) * (q * q - p * p))) 0 q b
    (1 / (2 * q * √(A - q * q)) * Real.log |(q * √(A - b * b) + √(A - q * q) * b) / (q * √(A - b * b) - √(A - q * q) * b)|) := by
  have hqA : q * q < A := by nlinarith
  have left : ∀ δ, 0 < δ → δ < q → IntervalIntegrable (fun p => 1 / (√(A - p * p) * (q * q - p * p))) volume 0 (q - δ) ∧
      ∫ p in 0..q - δ, 1 / (√(A - p * p) * (q * q - p * p)) = primV A q (q - δ) - primV A q 0 := by
    intro δ h1 h2
    have hc : ContinuousOn (primV A q) (Icc 0 (q - δ)) := fun p hp =>
      (prim_cont hq hqA hp.1 (by nlinarith [hp.1, hp.2]) (by linarith [hp.2] : p < q).ne).continuousWithinAt
    have hd : ∀ p ∈ Ioo 0 (q - δ), HasDerivAt (primV A q) (1 / (√(A - p * p) * (q * q - p * p))) p := fun p hp =>
      prim_deriv hq hqA hp.1.le (by nlinarith [hp.1, hp.2]) (by linarith [hp.2] : p < q).ne
    have hi : IntervalIntegrable (fun p => 1 / (√(A - p * p) * (q * q - p * p))) volume 0 (q - δ) := by
      refine intervalIntegral.intervalIntegrable_deriv_of_nonneg (g := primV A q) ?_ ?_ ?_
      · rwa [uIcc_of_le (by linarith)]
      · rwa [min_eq_left (by linarith), max_eq_right (by linarith)]
      · intro p hp
        rw [min_eq_left (by linarith), max_eq_right (by linarith)] at hp
        have : 0 ≤ q * q - p * p := by nlinarith [hp.1, hp.2]
        positivity
    exact ⟨hi, intervalIntegral.integral_eq_sub_of_hasDerivAt_of_le (by linarith) hc hd hi⟩
  have right : ∀ δ, 0 < δ → δ < b - q → IntervalIntegrable (fun p => 1 / (√(A - p * p) * (q * q - p * p))) volume (q + δ) b ∧
      ∫ p in q + δ..b, 1 / (√(A - p * p) * (q * q - p * p)) = primV A q b - primV A q (q + δ) := by
    intro δ h1 h2
    have hc : ContinuousOn (primV A q) (Icc (q + δ) b) := fun p hp =>
      (prim_cont hq hqA (by linarith [hp.1]) (by nlinarith [hp.1, hp.2]) (by linarith [hp.1] : q < p).ne').continuousWithinAt
    have hd : ∀ p ∈ Ioo (q + δ) b, HasDerivAt (primV A q) (1 / (√(A - p * p) * (q * q - p * p))) p := fun p hp =>
      prim_deriv hq hqA (by linarith [hp.1]) (by nlinarith [hp.1, hp.2]) (by linarith [hp.1] : q < p).ne'
    have hi : IntervalIntegrable (fun p => 1 / (√(A - p * p) * (q * q - p * p))) volume (q + δ) b := by
      have : IntervalIntegrable (fun p => -(1 / (√(A - p * p) * (q * q - p * p)))) volume (q + δ) b := by
        refine intervalIntegral.intervalIntegrable_deriv_of_nonneg (g := fun p => -primV A q p) ?_ ?_ ?_
        · rw [uIcc_of_le (by linarith)]; exact hc.neg
        · rw [min_eq_left (by linarith), max_eq_right (by linarith)]; exact fun p hp => (hd p hp).neg
        · intro p hp
          rw [min_eq_left (by linarith), max_eq_right (by linarith)] at hp
          have : 0 ≤ p * p - q * q := by nlinarith [hp.1, hp.2]
          rw [← one_div_neg_eq_neg_one_div, show -(√(A - p * p) * (q * q - p * p)) = √(A - p * p) * (p * p - q * q) by ring]
          positivity
      have h := this.neg
      refine h.congr (fun p _ => ?_)
      simp
    exact ⟨hi, intervalIntegral.integral_eq_sub_of_hasDerivAt_of_le (by linarith) hc hd hi⟩
  refine ⟨?_, ?_⟩
  · filter_upwards [small hq, small (sub_pos.mpr hqb)] with δ h1 h2
    exact ⟨(left δ h1.1 h1.2).1, (right δ h2.1 h2.2).1⟩
  · have hb0 : 0 < b := hq.trans hqb
    obtain ⟨n1, n2⟩ := prim_ne hq hqA hb0.le hbA hqb.ne'
    have hv : primV A q b = 1 / (2 * q * √(A - q * q)) * Real.log |(q * √(A - b * b) + √(A - q * q) * b) / (q * √(A - b * b) - √(A - q * q) * b)| := by
      rw [Real.log_abs, Real.log_div n1 n2]; rfl
    have h0 : primV A q 0 = 0 := by simp [primV]
    have := (prim_jump hq hqA).add_const (primV A q b)
    rw [zero_add] at this
    rw [← hv]
    refine this.congr' ?_
    filter_upwards [small hq, small (sub_pos.mpr hqb)] with δ h1 h2
    rw [(left δ h1.1 h1.2).2, (right δ h2.1 h2.2).2, h0]
    ring

/-- Nothing, over the whole quarter. -/
theorem pv_base_zero (hq : 0 < q) (hqb : q < b) : HasPV (fun p => 1 / (√(b * b - p * p) * (q * q - p * p))) 0 q b 0 := by
  have h := pv_base hq hqb le_rfl
  have hD : 0 < √(b * b - q * q) * b := mul_pos (Real.sqrt_pos.mpr (by nlinarith)) (by linarith)
  have e : (q * √(b * b - b * b) + √(b * b - q * q) * b) / (q * √(b * b - b * b) - √(b * b - q * q) * b) = -1 := by
    rw [sub_self, Real.sqrt_zero, mul_zero, zero_add, zero_sub, div_neg, div_self hD.ne']
  rw [e] at h
  simpa using h

end base

end GRT.Lamb
