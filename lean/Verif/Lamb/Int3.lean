import Verif.Lamb.Int2

/-! More definite integrals, the elliptic ones, and changes of variable. -/

namespace GRT.Lamb

open Complex Set

theorem hasDerivAt_w {β K : ℝ} (hK : 0 < K) (θ : ℝ) :
    HasDerivAt (fun θ => β * Real.sin θ / √(K ^ 2 + β ^ 2 * Real.cos θ ^ 2))
      (β * Real.cos θ * (K ^ 2 + β ^ 2) / (√(K ^ 2 + β ^ 2 * Real.cos θ ^ 2) * (K ^ 2 + β ^ 2 * Real.cos θ ^ 2))) θ := by
  have hr : ∀ θ : ℝ, 0 < K ^ 2 + β ^ 2 * Real.cos θ ^ 2 := fun θ => by positivity
  have hq := Real.sqrt_pos.mpr (hr θ)
  have d1 : HasDerivAt (fun θ => K ^ 2 + β ^ 2 * Real.cos θ ^ 2) (β ^ 2 * (2 * Real.cos θ * -Real.sin θ)) θ := by
    have := (((Real.hasDerivAt_cos θ).pow 2).const_mul (β ^ 2)).const_add (K ^ 2)
    refine this.congr_deriv ?_; simp
  have d2 := ((Real.hasDerivAt_sin θ).const_mul β).div (d1.sqrt (hr θ).ne') hq.ne'
  refine d2.congr_deriv ?_
  have hs := Real.sin_sq_add_cos_sq θ
  have e1 : K ^ 2 + β ^ 2 * Real.cos θ ^ 2 = √(K ^ 2 + β ^ 2 * Real.cos θ ^ 2) * √(K ^ 2 + β ^ 2 * Real.cos θ ^ 2) :=
    (Real.mul_self_sqrt (hr θ).le).symm
  set R := √(K ^ 2 + β ^ 2 * Real.cos θ ^ 2) with hR
  rw [show K ^ 2 + β ^ 2 = R * R + β ^ 2 * Real.sin θ ^ 2 by rw [← e1]; linear_combination (-β ^ 2) * hs, e1]
  field_simp
  ring

theorem cont_V {β K : ℝ} (hK : 0 < K) : Continuous fun θ => β * Real.cos θ / √(K ^ 2 + β ^ 2 * Real.cos θ ^ 2) :=
  Continuous.div (by fun_prop) (by fun_prop) (fun θ => (Real.sqrt_pos.mpr (by positivity)).ne')

theorem hasDerivAt_arctan_w {β K : ℝ} (hK : 0 < K) (θ : ℝ) :
    HasDerivAt (fun θ => Real.arctan (β * Real.sin θ / √(K ^ 2 + β ^ 2 * Real.cos θ ^ 2)))
      (β * Real.cos θ / √(K ^ 2 + β ^ 2 * Real.cos θ ^ 2)) θ := by
  refine ((hasDerivAt_w (β := β) hK θ).arctan).congr_deriv ?_
  have hr : 0 < K ^ 2 + β ^ 2 * Real.cos θ ^ 2 := by positivity
  have hq := Real.sqrt_pos.mpr hr
  have e : 1 + (β * Real.sin θ / √(K ^ 2 + β ^ 2 * Real.cos θ ^ 2)) ^ 2 = (K ^ 2 + β ^ 2) / (K ^ 2 + β ^ 2 * Real.cos θ ^ 2) := by
    rw [div_pow, Real.sq_sqrt hr.le]
    field_simp
    linear_combination β ^ 2 * Real.sin_sq_add_cos_sq θ
  rw [e]
  have : 0 < K ^ 2 + β ^ 2 := by positivity
  field_simp

theorem int_V4 {β K : ℝ} (hK : 0 < K) :
    ∫ θ in 0..Real.pi / 2, β * Real.cos θ / √(K ^ 2 + β ^ 2 * Real.cos θ ^ 2) = Real.arctan (β / K) := by
  rw [intervalIntegral.integral_eq_sub_of_hasDerivAt (fun θ _ => hasDerivAt_arctan_w hK θ) ((cont_V hK).intervalIntegrable _ _)]
  have hs : √(K ^ 2 + β ^ 2 * (0 : ℝ) ^ 2) = K := by
    rw [show K ^ 2 + β ^ 2 * (0 : ℝ) ^ 2 = K ^ 2 by ring]; exact Real.sqrt_sq hK.le
  simp only [Real.sin_pi_div_two, Real.cos_pi_div_two, Real.sin_zero, mul_one, mul_zero, zero_div, hs, Real.arctan_zero, sub_zero]

theorem int_V6 {β K : ℝ} (hK : 0 < K) :
    ∫ θ in 0..Real.pi / 2, β * Real.cos θ / √(K ^ 2 + β ^ 2 * Real.cos θ ^ 2) * (β ^ 2 * Real.cos θ ^ 2) =
      0.5 * (β * K + (β ^ 2 - K ^ 2) * Real.arctan (β / K)) := by
  have hd : ∀ θ, HasDerivAt (fun θ => 0.5 * (β * Real.sin θ * √(K ^ 2 + β ^ 2 * Real.cos θ ^ 2) +
      (β ^ 2 - K ^ 2) * Real.arctan (β * Real.sin θ / √(K ^ 2 + β ^ 2 * Real.cos θ ^ 2))))
      (β * Real.cos θ / √(K ^ 2 + β ^ 2 * Real.cos θ ^ 2) * (β ^ 2 * Real.cos θ ^ 2)) θ := by
    intro θ
    have hr : 0 < K ^ 2 + β ^ 2 * Real.cos θ ^ 2 := by positivity
    have hq := Real.sqrt_pos.mpr hr
    have d1 : HasDerivAt (fun θ => K ^ 2 + β ^ 2 * Real.cos θ ^ 2) (β ^ 2 * (2 * Real.cos θ * -Real.sin θ)) θ := by
      have := (((Real.hasDerivAt_cos θ).pow 2).const_mul (β ^ 2)).const_add (K ^ 2)
      refine this.congr_deriv ?_; simp
    have d2 := ((((Real.hasDerivAt_sin θ).const_mul β).mul (d1.sqrt hr.ne')).add
      ((hasDerivAt_arctan_w (β := β) hK θ).const_mul (β ^ 2 - K ^ 2))).const_mul 0.5
    refine d2.congr_deriv ?_
    have e1 : √(K ^ 2 + β ^ 2 * Real.cos θ ^ 2) * √(K ^ 2 + β ^ 2 * Real.cos θ ^ 2) = K ^ 2 + β ^ 2 * Real.cos θ ^ 2 :=
      (Real.mul_self_sqrt hr.le)
    have hs := Real.sin_sq_add_cos_sq θ
    set R := √(K ^ 2 + β ^ 2 * Real.cos θ ^ 2) with hR
    field_simp
    linear_combination (β * Real.cos θ / 2) * e1 - β ^ 3 * Real.cos θ / 2 * hs
  have hc : Continuous fun θ => β * Real.cos θ / √(K ^ 2 + β ^ 2 * Real.cos θ ^ 2) * (β ^ 2 * Real.cos θ ^ 2) :=
    (cont_V hK).mul (by fun_prop)
  rw [intervalIntegral.integral_eq_sub_of_hasDerivAt (fun θ _ => hd θ) (hc.intervalIntegrable _ _)]
  have hs : √(K ^ 2 + β ^ 2 * (0 : ℝ) ^ 2) = K := by
    rw [show K ^ 2 + β ^ 2 * (0 : ℝ) ^ 2 = K ^ 2 by ring]; exact Real.sqrt_sq hK.le
  simp only [Real.sin_pi_div_two, Real.cos_pi_div_two, Real.sin_zero, mul_one, mul_zero, zero_mul, zero_div, hs, Real.arctan_zero, sub_zero,
    add_zero]

/-- What the functions of elliptic.c approximate: the complete elliptic integrals; the last line is elliptic.c 227-228. -/
structure Ell.Exact (L : Ell) : Prop where
  K : ∀ m : ℝ, 0 ≤ m → m < 1 → L.K m = ∫ θ in 0..Real.pi / 2, 1 / √(1 - m * Real.sin θ ^ 2)
  E : ∀ m : ℝ, 0 ≤ m → m < 1 → L.E m = ∫ θ in 0..Real.pi / 2, √(1 - m * Real.sin θ ^ 2)
  Pi : ∀ (n : ℂ) (m : ℝ), 0 ≤ m → m < 1 → (n.im ≠ 0 ∨ n.re < 1) →
    L.Pi n m = ∫ θ in 0..Real.pi / 2, ((1 / √(1 - m * Real.sin θ ^ 2) : ℝ) : ℂ) / (1 - n * (Real.sin θ : ℂ) ^ 2)
  Pi_gt : ∀ n m : ℝ, 0 < m → m < 1 → 1 < n → L.Pi n m = L.K m - L.Pi ((m / n : ℝ) : ℂ) m

theorem ell_pos {A B : ℝ} (hB : 0 ≤ B) (h : B < A) (θ : ℝ) : 0 < A - B * Real.sin θ ^ 2 := by
  have := Real.sin_sq_le_one θ
  nlinarith [sq_nonneg (Real.sin θ)]

theorem ell_sqrt {A B : ℝ} (hB : 0 ≤ B) (h : B < A) (θ : ℝ) : √(A - B * Real.sin θ ^ 2) = √A * √(1 - B / A * Real.sin θ ^ 2) := by
  have hA : 0 < A := by linarith
  rw [← Real.sqrt_mul hA.le]
  congr 1
  field_simp

theorem ell_cont {A B : ℝ} (hB : 0 ≤ B) (h : B < A) : Continuous fun θ => 1 / √(A - B * Real.sin θ ^ 2) :=
  Continuous.div (by fun_prop) (by fun_prop) (fun θ => (Real.sqrt_pos.mpr (ell_pos hB h θ)).ne')

theorem Ell.Exact.intK {L : Ell} (hL : L.Exact) {A B : ℝ} (hB : 0 ≤ B) (h : B < A) :
    ∫ θ in 0..Real.pi / 2, 1 / √(A - B * Real.sin θ ^ 2) = 1 / √A * L.K (B / A) := by
  have hA : 0 < A := by linarith
  rw [hL.K _ (by positivity) (by rw [div_lt_one hA]; exact h), ← intervalIntegral.integral_const_mul]
  apply intervalIntegral.integral_congr
  intro θ _
  simp only [ell_sqrt hB h θ]
  rw [one_div_mul_one_div]

theorem Ell.Exact.intE {L : Ell} (hL : L.Exact) {A B : ℝ} (hB : 0 ≤ B) (h : B < A) :
    ∫ θ in 0..Real.pi / 2, √(A - B * Real.sin θ ^ 2) = √A * L.E (B / A) := by
  have hA : 0 < A := by linarith
  rw [hL.E _ (by positivity) (by rw [div_lt_one hA]; exact h), ← intervalIntegral.integral_const_mul]
  apply intervalIntegral.integral_congr
  intro θ _
  simp only [ell_sqrt hB h θ]

/-- `∫ (p + q (A − B sin²)) / √(A − B sin²)`. -/
theorem Ell.Exact.intKE {L : Ell} (hL : L.Exact) {A B : ℝ} (hB : 0 ≤ B) (h : B < A) (p q : ℝ) :
    ∫ θ in 0..Real.pi / 2, 1 / √(A - B * Real.sin θ ^ 2) * (p + q * (A - B * Real.sin θ ^ 2)) =
      p * (1 / √A * L.K (B / A)) + q * (√A * L.E (B / A)) := by
  rw [← hL.intK hB h, ← hL.intE hB h, ← intervalIntegral.integral_const_mul, ← intervalIntegral.integral_const_mul,
    ← intervalIntegral.integral_add]
  · apply intervalIntegral.integral_congr
    intro θ _
    have h1 := ell_pos hB h θ
    have h2 := Real.sqrt_pos.mpr h1
    have h3 := Real.mul_self_sqrt h1.le
    dsimp only
    field_simp
    linear_combination (-q) * h3
  · exact ((ell_cont hB h).const_mul p).intervalIntegrable _ _
  · exact (Continuous.const_mul (by fun_prop) q).intervalIntegrable _ _

theorem Ell.Exact.intPi {L : Ell} (hL : L.Exact) {A B : ℝ} (hB : 0 ≤ B) (h : B < A) {C : ℂ} {D : ℝ} (hC : C ≠ 0)
    (hn : ((D : ℂ) / C).im ≠ 0 ∨ ((D : ℂ) / C).re < 1) :
    ∫ θ in 0..Real.pi / 2, ((1 / √(A - B * Real.sin θ ^ 2) : ℝ) : ℂ) / (C - D * (Real.sin θ : ℂ) ^ 2) =
      1 / (√A * C) * L.Pi (D / C) (B / A) := by
  have hA : 0 < A := by linarith
  rw [hL.Pi _ _ (by positivity) (by rw [div_lt_one hA]; exact h) hn, ← intervalIntegral.integral_const_mul]
  apply intervalIntegral.integral_congr
  intro θ _
  have s0 : ((√A : ℝ) : ℂ) ≠ 0 := by exact_mod_cast (Real.sqrt_pos.mpr hA).ne'
  have e : C - D * (Real.sin θ : ℂ) ^ 2 = C * (1 - D / C * (Real.sin θ : ℂ) ^ 2) := by field_simp
  simp only [ell_sqrt hB h θ]
  rw [e, ofReal_div, ofReal_mul, ofReal_div, div_div, div_div, div_mul_div_comm]
  congr 1
  · push_cast; ring
  · ring

theorem Ell.Exact.conjPi {L : Ell} (hL : L.Exact) {n : ℂ} {m : ℝ} (h0 : 0 ≤ m) (h1 : m < 1) (hn : n.im ≠ 0 ∨ n.re < 1) :
    (starRingEnd ℂ) (L.Pi n m) = L.Pi ((starRingEnd ℂ) n) m := by
  rw [hL.Pi _ _ h0 h1 hn, hL.Pi _ _ h0 h1 (by simpa using hn), ← intervalIntegral.intervalIntegral_conj]
  apply intervalIntegral.integral_congr
  intro θ _
  simp only [map_div₀, map_sub, map_one, map_mul, map_pow, conj_ofReal]

theorem Ell.Exact.conjPi_gt {L : Ell} (hL : L.Exact) {n m : ℝ} (h0 : 0 < m) (h1 : m < 1) (hn : 1 < n) :
    (starRingEnd ℂ) (L.Pi n m) = L.Pi n m := by
  have h : m / n < 1 := by rw [div_lt_one (by linarith)]; linarith
  rw [hL.Pi_gt n m h0 h1 hn, map_sub, conj_ofReal, hL.conjPi h0.le h1 (by right; rwa [ofReal_re]), conj_ofReal]

/-- Change of variable over a quarter turn; no integrability is assumed. -/
theorem cov {φ φ' : ℝ → ℝ} {lo hi : ℝ} (hlh : lo ≤ hi) (him : φ '' Ioo 0 (Real.pi / 2) = Ioo lo hi) (hinj : InjOn φ (Ioo 0 (Real.pi / 2)))
    (hd : ∀ θ ∈ Ioo 0 (Real.pi / 2), HasDerivAt φ (φ' θ) θ) (F : ℝ → ℝ) :
    ∫ p in lo..hi, F p = ∫ θ in 0..Real.pi / 2, |φ' θ| * F (φ θ) := by
  have hp : (0 : ℝ) ≤ Real.pi / 2 := by have := Real.pi_pos; positivity
  rw [intervalIntegral.integral_of_le hlh, intervalIntegral.integral_of_le hp, MeasureTheory.integral_Ioc_eq_integral_Ioo,
    MeasureTheory.integral_Ioc_eq_integral_Ioo, ← him]
  exact MeasureTheory.integral_image_eq_integral_abs_deriv_smul measurableSet_Ioo (fun x hx => (hd x hx).hasDerivWithinAt) hinj F

theorem cov_int {φ φ' : ℝ → ℝ} {lo hi : ℝ} (hlh : lo ≤ hi) (him : φ '' Ioo 0 (Real.pi / 2) = Ioo lo hi) (hinj : InjOn φ (Ioo 0 (Real.pi / 2)))
    (hd : ∀ θ ∈ Ioo 0 (Real.pi / 2), HasDerivAt φ (φ' θ) θ) (F : ℝ → ℝ) :
    IntervalIntegrable F MeasureTheory.volume lo hi ↔
      IntervalIntegrable (fun θ => |φ' θ| * F (φ θ)) MeasureTheory.volume 0 (Real.pi / 2) := by
  have hp : (0 : ℝ) ≤ Real.pi / 2 := by have := Real.pi_pos; positivity
  rw [intervalIntegrable_iff_integrableOn_Ioo_of_le hlh, intervalIntegrable_iff_integrableOn_Ioo_of_le hp, ← him]
  exact MeasureTheory.integrableOn_image_iff_integrableOn_abs_deriv_smul measurableSet_Ioo (fun x hx => (hd x hx).hasDerivWithinAt) hinj F

/-- With a given integrand on the other side. -/
theorem cov' {φ φ' : ℝ → ℝ} {lo hi : ℝ} (hlh : lo ≤ hi) (him : φ '' Ioo 0 (Real.pi / 2) = Ioo lo hi) (hinj : InjOn φ (Ioo 0 (Real.pi / 2)))
    (hd : ∀ θ ∈ Ioo 0 (Real.pi / 2), HasDerivAt φ (φ' θ) θ) (F G : ℝ → ℝ) (hG : Continuous G)
    (hFG : ∀ θ ∈ Ioo 0 (Real.pi / 2), |φ' θ| * F (φ θ) = G θ) :
    ∫ p in lo..hi, F p = ∫ θ in 0..Real.pi / 2, G θ ∧ IntervalIntegrable F MeasureTheory.volume lo hi := by
  have hp : (0 : ℝ) ≤ Real.pi / 2 := by have := Real.pi_pos; positivity
  constructor
  · rw [cov hlh him hinj hd F, intervalIntegral.integral_of_le hp, intervalIntegral.integral_of_le hp,
      MeasureTheory.integral_Ioc_eq_integral_Ioo, MeasureTheory.integral_Ioc_eq_integral_Ioo]
    exact MeasureTheory.setIntegral_congr_fun measurableSet_Ioo hFG
  · rw [cov_int hlh him hinj hd F, intervalIntegrable_iff_integrableOn_Ioo_of_le hp]
    have := (intervalIntegrable_iff_integrableOn_Ioo_of_le hp).mp (hG.intervalIntegrable (μ := MeasureTheory.volume) 0 (Real.pi / 2))
    exact this.congr_fun (fun θ hθ => (hFG θ hθ).symm) measurableSet_Ioo

theorem image_of_anti {φ : ℝ → ℝ} {lo hi : ℝ} (hc : Continuous φ) (h0 : φ 0 = hi) (h1 : φ (Real.pi / 2) = lo)
    (hm : StrictAntiOn φ (Icc 0 (Real.pi / 2))) :
    φ '' Ioo 0 (Real.pi / 2) = Ioo lo hi ∧ InjOn φ (Ioo 0 (Real.pi / 2)) := by
  have hp : (0 : ℝ) ≤ Real.pi / 2 := by have := Real.pi_pos; positivity
  refine ⟨?_, hm.injOn.mono Ioo_subset_Icc_self⟩
  apply subset_antisymm
  · rintro _ ⟨θ, hθ, rfl⟩
    rw [← h0, ← h1]
    exact ⟨hm ⟨hθ.1.le, hθ.2.le⟩ ⟨hp, le_rfl⟩ hθ.2, hm ⟨le_rfl, hp⟩ ⟨hθ.1.le, hθ.2.le⟩ hθ.1⟩
  · rw [← h0, ← h1]
    exact intermediate_value_Ioo' hp hc.continuousOn

theorem image_of_mono {φ : ℝ → ℝ} {lo hi : ℝ} (hc : Continuous φ) (h0 : φ 0 = lo) (h1 : φ (Real.pi / 2) = hi)
    (hm : StrictMonoOn φ (Icc 0 (Real.pi / 2))) :
    φ '' Ioo 0 (Real.pi / 2) = Ioo lo hi ∧ InjOn φ (Ioo 0 (Real.pi / 2)) := by
  have hp : (0 : ℝ) ≤ Real.pi / 2 := by have := Real.pi_pos; positivity
  refine ⟨?_, hm.injOn.mono Ioo_subset_Icc_self⟩
  apply subset_antisymm
  · rintro _ ⟨θ, hθ, rfl⟩
    rw [← h0, ← h1]
    exact ⟨hm ⟨le_rfl, hp⟩ ⟨hθ.1.le, hθ.2.le⟩ hθ.1, hm ⟨hθ.1.le, hθ.2.le⟩ ⟨hp, le_rfl⟩ hθ.2⟩
  · rw [← h0, ← h1]
    exact intermediate_value_Ioo hp hc.continuousOn

theorem strictMono_sin_sq : StrictMonoOn (fun θ => Real.sin θ ^ 2) (Icc 0 (Real.pi / 2)) := by
  intro x hx y hy hxy
  have h1 : Real.sin x < Real.sin y := Real.sin_lt_sin_of_lt_of_le_pi_div_two (by linarith [hx.1, Real.pi_pos]) hy.2 hxy
  have h2 : 0 ≤ Real.sin x := Real.sin_nonneg_of_nonneg_of_le_pi hx.1 (by linarith [hx.2, Real.pi_pos])
  show Real.sin x ^ 2 < Real.sin y ^ 2
  nlinarith

theorem quarter_pos {θ : ℝ} (h : θ ∈ Ioo 0 (Real.pi / 2)) : 0 < Real.sin θ ∧ 0 < Real.cos θ :=
  ⟨Real.sin_pos_of_pos_of_lt_pi h.1 (by linarith [h.2, Real.pi_pos]), Real.cos_pos_of_mem_Ioo ⟨by linarith [h.1, Real.pi_pos], h.2⟩⟩

/-- `p = a cos θ`. -/
theorem cov_cos {a : ℝ} (ha : 0 < a) (F G : ℝ → ℝ) (hG : Continuous G)
    (hFG : ∀ θ ∈ Ioo 0 (Real.pi / 2), a * Real.sin θ * F (a * Real.cos θ) = G θ) :
    ∫ p in 0..a, F p = ∫ θ in 0..Real.pi / 2, G θ ∧ IntervalIntegrable F MeasureTheory.volume 0 a := by
  have him := image_of_anti (φ := fun θ => a * Real.cos θ) (lo := 0) (hi := a) (by fun_prop) (by simp) (by simp) (by
    intro x hx y hy hxy
    exact mul_lt_mul_of_pos_left (Real.strictAntiOn_cos ⟨hx.1, by linarith [hx.2, Real.pi_pos]⟩ ⟨hy.1, by linarith [hy.2, Real.pi_pos]⟩ hxy) ha)
  refine cov' ha.le him.1 him.2 (φ' := fun θ => a * -Real.sin θ) (fun θ _ => (Real.hasDerivAt_cos θ).const_mul a) F G hG ?_
  intro θ hθ
  have := (quarter_pos hθ).1
  rw [← hFG θ hθ, mul_neg, abs_neg, abs_of_pos (mul_pos ha this)]

/-- `p = b sin θ`. -/
theorem cov_sin {a : ℝ} (ha : 0 < a) (F G : ℝ → ℝ) (hG : Continuous G)
    (hFG : ∀ θ ∈ Ioo 0 (Real.pi / 2), a * Real.cos θ * F (a * Real.sin θ) = G θ) :
    ∫ p in 0..a, F p = ∫ θ in 0..Real.pi / 2, G θ ∧ IntervalIntegrable F MeasureTheory.volume 0 a := by
  have him := image_of_mono (φ := fun θ => a * Real.sin θ) (lo := 0) (hi := a) (by fun_prop) (by simp) (by simp) (by
    intro x hx y hy hxy
    exact mul_lt_mul_of_pos_left (Real.strictMonoOn_sin ⟨by linarith [hx.1, Real.pi_pos], hx.2⟩ ⟨by linarith [hy.1, Real.pi_pos], hy.2⟩ hxy) ha)
  refine cov' ha.le him.1 him.2 (φ' := fun θ => a * Real.cos θ) (fun θ _ => (Real.hasDerivAt_sin θ).const_mul a) F G hG ?_
  intro θ hθ
  have := (quarter_pos hθ).2
  rw [← hFG θ hθ, abs_of_pos (mul_pos ha this)]

/-- `p = √(a² − k² sin²θ)`, from `√(a² − k²)` to `a`. -/
theorem cov_ell {b a k : ℝ} (hb : 0 < b) (ha : 0 < a) (hk : 0 < k) (hab : a ^ 2 = b ^ 2 + k ^ 2) (F G : ℝ → ℝ) (hG : Continuous G)
    (hFG : ∀ θ ∈ Ioo 0 (Real.pi / 2),
      k ^ 2 * Real.sin θ * Real.cos θ / √(a ^ 2 - k ^ 2 * Real.sin θ ^ 2) * F (√(a ^ 2 - k ^ 2 * Real.sin θ ^ 2)) = G θ) :
    ∫ p in b..a, F p = ∫ θ in 0..Real.pi / 2, G θ ∧ IntervalIntegrable F MeasureTheory.volume b a := by
  have hlt : k ^ 2 < a ^ 2 := by nlinarith
  have hpos := ell_pos (sq_nonneg k) hlt
  have him := image_of_anti (φ := fun θ => √(a ^ 2 - k ^ 2 * Real.sin θ ^ 2)) (lo := b) (hi := a) (by fun_prop)
    (by simp [ha.le]) (by rw [Real.sin_pi_div_two, hab]; ring_nf; exact Real.sqrt_sq hb.le) (by
    intro x hx y hy hxy
    apply Real.sqrt_lt_sqrt (hpos y).le
    have h1 : Real.sin x ^ 2 < Real.sin y ^ 2 := strictMono_sin_sq hx hy hxy
    have := mul_lt_mul_of_pos_left h1 (by positivity : 0 < k ^ 2)
    linarith)
  refine cov' (by nlinarith) him.1 him.2 (φ' := fun θ => -(k ^ 2 * Real.sin θ * Real.cos θ / √(a ^ 2 - k ^ 2 * Real.sin θ ^ 2))) ?_ F G hG ?_
  · intro θ _
    have d1 : HasDerivAt (fun θ => a ^ 2 - k ^ 2 * Real.sin θ ^ 2) (-(k ^ 2 * (2 * Real.sin θ * Real.cos θ))) θ := by
      have := (((Real.hasDerivAt_sin θ).pow 2).const_mul (k ^ 2)).const_sub (a ^ 2)
      refine this.congr_deriv ?_; simp
    refine (d1.sqrt (hpos θ).ne').congr_deriv ?_
    have := Real.sqrt_pos.mpr (hpos θ)
    field_simp
  · intro θ hθ
    obtain ⟨h1, h2⟩ := quarter_pos hθ
    have := Real.sqrt_pos.mpr (hpos θ)
    rw [← hFG θ hθ, abs_neg, abs_of_pos (by positivity)]

end GRT.Lamb
