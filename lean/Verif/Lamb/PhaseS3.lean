import Verif.Lamb.PhaseS2

namespace GRT.Lamb

open Complex Set

local notation "cj" => starRingEnd ℂ

variable {nu az t : ℝ}

local notation "V" => mkVars nu az

theorem int_cos2 : ∫ θ in 0..Real.pi / 2, Real.cos θ ^ 2 = Real.pi / 4 := by
  rw [integral_cos_sq]
  simp
  ring

/-- `∫ 1/(A cos² − c)`. -/
theorem int_U2c {A : ℝ} {c : ℂ} (hA : 0 < A) (hc : Off c 0 A) :
    ∫ θ in 0..Real.pi / 2, 1 / (((A * Real.cos θ ^ 2 : ℝ) : ℂ) - c) = -0.5 * Real.pi / c * csqrt (c / (c - A)) := by
  have c0 : c ≠ 0 := by
    have := hc.ne (X := 0) le_rfl hA.le
    intro h; apply this; simp [h]
  have cA : (A : ℂ) - c ≠ 0 := hc.sub_ne hA.le le_rfl
  have hs := hc.div (X := 0) (Y := A) le_rfl hA.le hA.le le_rfl
  rw [ofReal_zero, zero_sub] at hs
  have := int_quarter (A := A - c) (B := -c) cA (neg_ne_zero.mpr c0) hs
  rw [show c / (c - A) = -c / (A - c) by rw [← neg_div_neg_eq]; congr 1; ring,
    show -0.5 * Real.pi / c = Real.pi / 2 / -c by rw [div_neg]; ring, ← this]
  apply intervalIntegral.integral_congr
  intro θ _
  simp only
  rw [ofReal_mul, ofReal_pow, cos_sq_c]
  congr 1; ring


set_option maxHeartbeats 4000000 in
theorem phaseS1 {L : Ell} (hL : L.Exact) (h0 : 0 < nu) (h1 : nu < 1 / 2) (ha' : Apart (V).ys) (ht1 : 1 < t) (hk : t * t < (V).kpakpa)
    {i : ℕ} (hi : i < 6) :
    ∫ p in 0..√(t * t - 1), fS (V).kk t i p =
        (buildRaw 1 (V).kpkp (V).ysp (ckimS1 V t i) (ckimS2 V t i) (uS1 V t) (vS1 L V t)).re ∧
      IntervalIntegrable (fS (V).kk t i) MeasureTheory.volume 0 √(t * t - 1) := by
  have ha := apart_ysp ha'
  have hkr := kk_pos (az := az) h0 h1
  have hA : 0 < t * t - (V).kk := by nlinarith
  have hB : 0 < t * t - 1 := by nlinarith
  have hkp := kp_pos (az := az) h0 h1
  have hkp2 := kp_sq (az := az) h0 h1
  have hkk := kpkp_eq (nu := nu) (az := az)
  have hkpkp : 0 < (V).kpkp := by rw [← hkp2]; positivity
  have hoff := off_ysp (az := az) h0 h1 (hi := t * t - 1) (by linarith)
  have hoff0 : ∀ r, Off ((V).ysp r) 0 (t * t - 1) := fun r => (hoff r).mono (by linarith) le_rfl
  have hb0 := Real.sqrt_pos.mpr hB
  have hbb := Real.mul_self_sqrt hB.le
  have hbb2 : √(t * t - 1) ^ 2 = t * t - 1 := Real.sq_sqrt hB.le
  have hconj := conj_ysp (az := az) h0 h1
  have hX2 : ∀ θ : ℝ, 0 ≤ (t * t - 1) * Real.cos θ ^ 2 ∧ (t * t - 1) * Real.cos θ ^ 2 ≤ t * t - 1 := by
    intro θ
    exact ⟨by positivity, by have := Real.cos_sq_le_one θ; nlinarith⟩
  have hX : ∀ θ : ℝ, √(t * t - 1) * Real.cos θ * (√(t * t - 1) * Real.cos θ) = (t * t - 1) * Real.cos θ ^ 2 := by
    intro θ
    linear_combination Real.cos θ ^ 2 * hbb
  have loc : ∀ θ ∈ Ioo 0 (Real.pi / 2), _ := fun θ hθ =>
    have hq := quarter_pos hθ
    have hsc := Real.sin_sq_add_cos_sq θ
    have hpos : 0 < (V).kp ^ 2 + √(t * t - 1) ^ 2 * Real.cos θ ^ 2 := by positivity
    fS_imag (az := az) h0 h1 (x := √(t * t - 1) * Real.cos θ) (e := √((V).kp ^ 2 + √(t * t - 1) ^ 2 * Real.cos θ ^ 2))
      (p := √(t * t - 1) * Real.sin θ) (t := t) (i := i) (mul_pos hb0 hq.2) (Real.sqrt_pos.mpr hpos)
      (by linear_combination (Real.sin θ ^ 2 + Real.cos θ ^ 2) * hbb + (t * t - 1) * hsc)
      (by rw [Real.mul_self_sqrt hpos.le, hkp2]; ring)
      (by rw [hX]; exact den_S1_ne h0 h1 hk (hX2 θ).1 (hX2 θ).2)
  have hne : ∀ (r : Fin 3) (θ : ℝ), (((t * t - 1) * Real.cos θ ^ 2 : ℝ) : ℂ) ≠ (V).ysp r * ((1 : ℝ) : ℂ) := fun r θ => by
    rw [ofReal_one, mul_one]; exact (hoff0 r).ne (hX2 θ).1 (hX2 θ).2
  rw [buildRaw_eq _ _ _ _ _ _ _ (nine_zero V t i).2.1 0]
  rcases diag_or_side hi with hd | hd
  · obtain ⟨a, b, c, e⟩ := class_S1_diag V t hd
    rw [b, c, grp_zero, grp_zero]
    have hU := grp_parts 1 (V).kpkp (V).ysp (evens (ckimS1 V t i)) (uS1 V t 2) (uS1 V t 3 ((V).ysp 2)) (uS1 V t 5 ((V).ysp 2))
      (fun _ => 1) (fun θ => (t * t - 1) * Real.cos θ ^ 2) (Real.pi / 2) (Or.inl rfl) hkpkp.ne' ha (by fun_prop) (by fun_prop) hne
      (by
        intro r
        have hc : ¬(((V).ysp r).im = 0 ∧ ((V).ysp r).re < t * t - 1 ∧ ((V).ysp r).re > 0) := by
          rintro ⟨i1, i2, i3⟩
          rcases hoff0 r with h | h | h
          · exact h i1
          · linarith
          · linarith
        simp only [uS1, if_neg hc, ofReal_one, mul_one]
        rw [int_U2c hB (hoff0 r)])
      (by simp [uS1]; ring)
      (by
        rw [intervalIntegral.integral_congr (g := fun θ : ℝ => (((t * t - 1) * Real.cos θ ^ 2 : ℝ) : ℂ)) (fun θ _ => by simp),
          intervalIntegral.integral_ofReal, intervalIntegral.integral_const_mul, int_cos2]
        simp only [uS1]
        push_cast; ring)
    have hg : Continuous fun θ : ℝ => √(t * t - 1) * Real.cos θ / √((V).kp ^ 2 + √(t * t - 1) ^ 2 * Real.cos θ ^ 2) := cont_V hkp
    have hW := grp_parts 1 (V).kpkp (V).ysp (odds (ckimS2 V t i)) (vS1 L V t 1) (vS1 L V t 4 ((V).ysp 2)) (vS1 L V t 6 ((V).ysp 2))
      (fun θ => √(t * t - 1) * Real.cos θ / √((V).kp ^ 2 + √(t * t - 1) ^ 2 * Real.cos θ ^ 2)) (fun θ => (t * t - 1) * Real.cos θ ^ 2)
      (Real.pi / 2) (Or.inl rfl) hkpkp.ne' ha hg (by fun_prop) hne
      (by
        intro r
        have hc : ¬(((V).ysp r).im = 0 ∧ ((V).ysp r).re > -(V).kpkp ∧ ((V).ysp r).re < t * t - 1) := by
          rintro ⟨i1, i2, i3⟩
          rcases hoff r with h | h | h
          · exact h i1
          · linarith
          · linarith
        have cA := (hoff r).sub_ne (X := t * t - 1) (by linarith) le_rfl
        have cB := (hoff r).sub_ne (X := -(V).kpkp) le_rfl (by linarith)
        have cB' : ((V).kpkp : ℂ) + (V).ysp r ≠ 0 := by intro h; apply cB; push_cast; linear_combination -h
        have s1 := csqrt_ne cA
        have s2 := csqrt_ne cB'
        have q1 := csqrt_mul_self ((t * t - 1 : ℝ) - (V).ysp r)
        have q2 := csqrt_mul_self (((V).kpkp : ℂ) + (V).ysp r)
        have hI : I * I = -1 := I_mul_I
        have hI0 := I_ne_zero
        have hv := int_V1 (β := √(t * t - 1)) (K := (V).kp) hb0 hkp (c := (V).ysp r)
          (ζ := csqrt ((V).kpkp + (V).ysp r) / (I * csqrt ((t * t - 1 : ℝ) - (V).ysp r))) (by rw [hbb2]; exact hoff0 r)
          (div_ne_zero s2 (mul_ne_zero hI0 s1))
          (by
            rw [hbb2, hkp2]
            generalize csqrt ((V).kpkp + (V).ysp r) = s at *
            generalize csqrt ((t * t - 1 : ℝ) - (V).ysp r) = s' at *
            rw [← q1, ← q2, div_mul_div_comm, div_mul_eq_mul_div, div_eq_iff (by positivity)]
            linear_combination s * s * s' * s' * hI)
        rw [hbb2] at hv
        rw [hbb2]
        simp only [vS1, if_neg hc, ofReal_one, mul_one]
        rw [hv]
        congr 1
        · generalize csqrt ((V).kpkp + (V).ysp r) = s at *
          generalize csqrt ((t * t - 1 : ℝ) - (V).ysp r) = s' at *
          rw [← q1]
          field_simp
        · congr 1
          push_cast
          have : ((V).kp : ℂ) ≠ 0 := by exact_mod_cast hkp.ne'
          generalize csqrt ((V).kpkp + (V).ysp r) = s at *
          rw [div_mul_div_comm]
          congr 1 <;> ring)
      (by
        have := int_V4 (β := √(t * t - 1)) hkp
        rw [intervalIntegral.integral_ofReal, this]
        simp only [vS1])
      (by
        have := int_V6 (β := √(t * t - 1)) hkp
        rw [hbb2] at this ⊢
        rw [intervalIntegral.integral_congr (g := fun θ : ℝ => ((√(t * t - 1) * Real.cos θ / √((V).kp ^ 2 + (t * t - 1) * Real.cos θ ^ 2) *
          ((t * t - 1) * Real.cos θ ^ 2) : ℝ) : ℂ)) (fun θ _ => by simp only; rw [← ofReal_mul]), intervalIntegral.integral_ofReal, this, hkp2]
        simp only [vS1])
    have c1 : Continuous fun θ : ℝ => (1 : ℝ) * (quart (evens (ckimS1 V t i)) (((t * t - 1) * Real.cos θ ^ 2 : ℝ) : ℂ) /
        den 1 (V).kpkp (V).ysp (((t * t - 1) * Real.cos θ ^ 2 : ℝ) : ℂ)).re := continuous_const.mul (continuous_re.comp hU.2.2)
    have c2 : Continuous fun θ : ℝ => √(t * t - 1) * Real.cos θ / √((V).kp ^ 2 + √(t * t - 1) ^ 2 * Real.cos θ ^ 2) *
        (quart (odds (ckimS2 V t i)) (((t * t - 1) * Real.cos θ ^ 2 : ℝ) : ℂ) /
        den 1 (V).kpkp (V).ysp (((t * t - 1) * Real.cos θ ^ 2 : ℝ) : ℂ)).re := hg.mul (continuous_re.comp hW.2.2)
    rw [add_zero, zero_add, add_re, hU.1, hW.1, ← intervalIntegral.integral_add (c1.intervalIntegrable _ _) (c2.intervalIntegrable _ _)]
    refine cov_sin hb0 _ _ (c1.add c2) (fun θ hθ => ?_)
    have hq := quarter_pos hθ
    rw [(loc θ hθ).1 hd, hX, mul_add, wq (mul_pos hb0 hq.2).ne']
    simp only [one_mul]
    congr 1
    ring
  · obtain ⟨a, b, c, e⟩ := class_S1_side V t hd
    rw [a, e, grp_zero, grp_zero]
    have hdead := grp_imag (sgn := 1) (kpkp := (V).kpkp) (w := uS1 V t 1) (w3 := uS1 V t 4 ((V).ysp 2)) (w5 := 0) hconj
      (fun r => conj_uS11 V hB.le (hoff0 r)) (by simp only [uS1, conj_ofReal]) (by simp) b
    have hdead2 := grp_imag (sgn := 1) (kpkp := (V).kpkp) (w := vS1 L V t 2) (w3 := vS1 L V t 3 ((V).ysp 2)) (w5 := vS1 L V t 5 ((V).ysp 2)) hconj
      (by
        intro r
        have := hL.conjPi (n := (t * t - 1 : ℝ) / ((t * t - 1 : ℝ) - (V).ysp r)) (m := (t * t - 1) / (t * t - (V).kk)) (by positivity)
          (by rw [div_lt_one hA]; linarith) (off_ratio2 (hoff0 r) hB.le (by linarith))
        simp only [vS1, mul_assoc, csqrt_mul_self, map_mul, map_div₀, map_one, conj_ofReal, map_sub, this])
      (by simp only [vS1, map_mul, map_div₀, map_one, conj_ofReal]) (by simp only [vS1, map_sub, map_mul, map_div₀, conj_ofReal]) c
    rw [zero_add, add_zero, add_re, hdead, hdead2, zero_add]
    have hz : ∀ p ∈ Ioo 0 √(t * t - 1), fS (V).kk t i p = 0 := fun p hp => by
      obtain ⟨ψ, hψ, rfl⟩ : ∃ ψ ∈ Ioo 0 (Real.pi / 2), √(t * t - 1) * Real.sin ψ = p := by
        refine ⟨Real.arcsin (p / √(t * t - 1)), ⟨?_, ?_⟩, ?_⟩
        · rw [Real.arcsin_pos]; exact div_pos hp.1 hb0
        · rw [Real.arcsin_lt_pi_div_two, div_lt_one hb0]; exact hp.2
        · rw [Real.sin_arcsin (by have := div_pos hp.1 hb0; linarith) (by rw [div_le_one hb0]; exact hp.2.le)]
          exact wq hb0.ne'
      exact (loc ψ hψ).2 hd
    exact zero_Ioo hb0.le hz

theorem wq5 {k s c R Q : ℝ} (hk : k ≠ 0) (hs : s ≠ 0) : k ^ 2 * s * c / R * (-Q / (k * s)) = -(k * c / R * Q) := by
  rw [div_mul_div_comm, div_mul_eq_mul_div, ← neg_div, ← mul_div_mul_right _ R (mul_ne_zero hk hs)]
  congr 1
  ring


/-- The logarithm that `V_S2(1)` uses for real places between 0 and `b²` is the other formula. -/
theorem artanh_log {y : ℝ} (h0 : 0 < y) (h1 : y < 1) : -I * arctan (I * y) = 0.5 * (Real.log ((1 + y) / (1 - y)) : ℝ) := by
  have hI : I * I = -1 := I_mul_I
  unfold arctan
  have e : (1 + I * (y : ℂ) * I) / (1 - I * y * I) = (((1 - y) / (1 + y) : ℝ) : ℂ) := by
    push_cast
    congr 1
    · linear_combination (y : ℂ) * hI
    · linear_combination -(y : ℂ) * hI
  have hp : 0 < (1 - y) / (1 + y) := div_pos (by linarith) (by linarith)
  rw [e, ← ofReal_log hp.le, show (1 - y) / (1 + y) = ((1 + y) / (1 - y))⁻¹ by rw [inv_div], Real.log_inv]
  push_cast
  linear_combination (-(1 / 2 : ℂ) * (Real.log ((1 + y) / (1 - y)) : ℝ)) * hI

open Classical in
theorem vS21_eq (L : Ell) {W : Vars} {t : ℝ} (h1 : 1 < t) (hk0 : 0 < W.kpkp) (hkp : W.kp = √W.kpkp) {c : ℂ} (hc : Off c (-W.kpkp) 0) :
    vS2 L W t 1 c = -I / (csqrt ((t * t - 1 : ℝ) - c) * csqrt (W.kpkp + c)) *
      arctan (I * W.kp * csqrt ((t * t - 1 : ℝ) - c) / (√(t * t - 1) * csqrt (W.kpkp + c))) := by
  simp only [vS2]
  split_ifs with h
  swap
  · rfl
  obtain ⟨i1, i2, i3⟩ := h
  have i4 : 0 < c.re := by
    rcases hc with h | h | h
    · exact absurd i1 h
    · linarith
    · exact h
  have hB : 0 < t * t - 1 := by nlinarith
  have hb0 := Real.sqrt_pos.mpr hB
  have e1 : csqrt (((t * t - 1 : ℝ) : ℂ) - c) = (√(t * t - 1 - c.re) : ℝ) := by
    rw [real_of_im i1, ← ofReal_sub, csqrt_real (by linarith)]; simp
  have e2 : csqrt ((W.kpkp : ℂ) + c) = (√(W.kpkp + c.re) : ℝ) := by
    rw [real_of_im i1, ← ofReal_add, csqrt_real (by linarith)]; simp
  rw [e1, e2]
  have p1 : 0 < √(t * t - 1 - c.re) := Real.sqrt_pos.mpr (by linarith)
  have p2 : 0 < √(W.kpkp + c.re) := Real.sqrt_pos.mpr (by linarith)
  have p3 : 0 < W.kp := by rw [hkp]; exact Real.sqrt_pos.mpr hk0
  have q1 := Real.mul_self_sqrt (by linarith : 0 ≤ t * t - 1 - c.re)
  have q2 := Real.mul_self_sqrt (by linarith : 0 ≤ W.kpkp + c.re)
  have q3 : W.kp * W.kp = W.kpkp := by rw [hkp]; exact Real.mul_self_sqrt hk0.le
  have q4 := Real.mul_self_sqrt hB.le
  generalize √(t * t - 1 - c.re) = x at *
  generalize √(W.kpkp + c.re) = e at *
  generalize √(t * t - 1) = b at *
  generalize W.kp = k at *
  have hlt : k * x < b * e := by
    have hsq : (k * x) * (k * x) < (b * e) * (b * e) := by
      have e1 : (k * x) * (k * x) = W.kpkp * (t * t - 1 - c.re) := by rw [← q1, ← q3]; ring
      have e2 : (b * e) * (b * e) = (t * t - 1) * (W.kpkp + c.re) := by rw [← q2, ← q4]; ring
      rw [e1, e2]
      have := mul_pos hB i4
      have := mul_pos hk0 i4
      nlinarith
    exact lt_of_mul_self_lt_mul_self₀ (by positivity) hsq
  have hy := artanh_log (y := k * x / (b * e)) (by positivity) (by rw [div_lt_one (by positivity)]; exact hlt)
  have ea : I * (k : ℂ) * x / (b * e) = I * ((k * x / (b * e) : ℝ) : ℂ) := by push_cast; ring
  rw [ea, show -I / ((x : ℂ) * e) * arctan (I * ((k * x / (b * e) : ℝ) : ℂ)) = 1 / ((x : ℂ) * e) * (-I * arctan (I * ((k * x / (b * e) : ℝ) : ℂ))) by ring, hy]
  have el : ‖((k : ℂ) * x + b * e) / (k * x - b * e)‖ = (1 + k * x / (b * e)) / (1 - k * x / (b * e)) := by
    rw [show ((k : ℂ) * x + b * e) / (k * x - b * e) = (((k * x + b * e) / (k * x - b * e) : ℝ) : ℂ) by push_cast; rfl, Complex.norm_real, Real.norm_eq_abs]
    have hd : k * x - b * e < 0 := by linarith
    rw [abs_div, abs_of_pos (by positivity), abs_of_neg hd]
    have hbe : b * e ≠ 0 := by positivity
    have h2 : b * e - k * x ≠ 0 := by linarith
    rw [show -(k * x - b * e) = b * e - k * x by ring]
    rw [div_eq_div_iff h2 (by rw [sub_ne_zero]; intro hh; rw [eq_comm, div_eq_iff hbe] at hh; linarith)]
    field_simp
    ring
  rw [el]
  ring

set_option maxHeartbeats 4000000 in
theorem phaseS2 {L : Ell} (hL : L.Exact) (h0 : 0 < nu) (h1 : nu < 1 / 2) (ha' : Apart (V).ys) (ht1 : 1 < t) (hk : t * t ≠ (V).kpakpa)
    {i : ℕ} (hi : i < 6) :
    ∫ p in √(t * t - 1)..√(t * t - (V).kk), fS (V).kk t i p =
        -(buildRaw (-1) (V).kpkp (V).ysp (turnC (ckimS1 V t) i) (turnC (ckimS2 V t) i) (uS2 V t) (vS2 L V t)).im ∧
      IntervalIntegrable (fS (V).kk t i) MeasureTheory.volume √(t * t - 1) √(t * t - (V).kk) := by
  have ha := apart_ysp ha'
  have hkr := kk_pos (az := az) h0 h1
  have hA : 0 < t * t - (V).kk := by nlinarith
  have hB : 0 < t * t - 1 := by nlinarith
  have hkp := kp_pos (az := az) h0 h1
  have hkp2 := kp_sq (az := az) h0 h1
  have hkk := kpkp_eq (nu := nu) (az := az)
  have hkpkp : 0 < (V).kpkp := by rw [← hkp2]; positivity
  have hAk : (V).kpkp < t * t - (V).kk := by rw [hkk]; nlinarith
  have hoff := off_ysp' (az := az) h0 h1
  have hnb : ∀ r, ((t * t - 1 : ℝ) : ℂ) ≠ (V).ysp r := by
    intro r
    by_cases hlt : t * t < (V).kpakpa
    · exact (off_ysp (az := az) h0 h1 (hi := t * t - 1) (by linarith) r).ne (by nlinarith) le_rfl
    · obtain ⟨-, e2, hr⟩ := ys_facts (az := az) h0 h1
      have hpos : 0 < t * t - 1 + (V).kpkp := by have := kp_pos (az := az) h0 h1; have := kp_sq (az := az) h0 h1; nlinarith
      have hy2 : ((t * t - 1 : ℝ) : ℂ) ≠ (V).ysp 2 := by
        rw [ysp_eq, e2, ← ofReal_sub, Ne, ofReal_inj]
        have := kpkp_eq (nu := nu) (az := az)
        intro h; apply hk; linarith
      have h01 : ∀ q, ((V).ys q).im ≠ 0 ∨ ((V).ys q).re < 0 → ((t * t - 1 : ℝ) : ℂ) ≠ (V).ysp q := by
        intro q hq h
        rw [ysp_eq] at h
        have h2 : (V).ys q = ((t * t - 1 + (V).kpkp : ℝ) : ℂ) := by push_cast at h ⊢; linear_combination -h
        rw [h2, ofReal_im, ofReal_re] at hq
        rcases hq with hq | hq
        · exact hq rfl
        · linarith
      rcases hr with ⟨x, w, hw, a0, a1⟩ | ⟨x0, x1, a0, a1, b0, b1⟩
      · have g0 := h01 0 (by left; rw [a0]; simpa using hw)
        have g1 := h01 1 (by left; rw [a1]; simpa using hw)
        fin_cases r
        exacts [g0, g1, hy2]
      · have g0 := h01 0 (by right; rw [a0]; simpa using b0)
        have g1 := h01 1 (by right; rw [a1]; simpa using b1)
        fin_cases r
        exacts [g0, g1, hy2]
  have ha0 := Real.sqrt_pos.mpr hA
  have haa := Real.mul_self_sqrt hA.le
  have hb0 := Real.sqrt_pos.mpr hB
  have hbb := Real.mul_self_sqrt hB.le
  have hbb2 : √(t * t - 1) ^ 2 = t * t - 1 := Real.sq_sqrt hB.le
  have hconj := conj_ysp (az := az) h0 h1
  have hX2 : ∀ θ : ℝ, 0 ≤ (V).kpkp * Real.cos θ ^ 2 ∧ (V).kpkp * Real.cos θ ^ 2 ≤ (V).kpkp := by
    intro θ
    exact ⟨by positivity, by have := Real.cos_sq_le_one θ; nlinarith⟩
  have hX : ∀ θ : ℝ, (V).kp * Real.cos θ * ((V).kp * Real.cos θ) = (V).kpkp * Real.cos θ ^ 2 := by
    intro θ
    rw [← hkp2]; ring
  have hne : ∀ (r : Fin 3) (θ : ℝ), (((V).kpkp * Real.cos θ ^ 2 : ℝ) : ℂ) ≠ (V).ysp r * ((-1 : ℝ) : ℂ) := fun r θ =>
    ne_of_off_neg (hoff r) (hX2 θ).1 (hX2 θ).2
  have e1 : ∀ θ : ℝ, √(t * t - (V).kk) ^ 2 - (V).kp ^ 2 * Real.sin θ ^ 2 = t * t - 1 + (V).kpkp * Real.cos θ ^ 2 := by
    intro θ
    rw [pow_two √(t * t - (V).kk), haa, hkp2, Real.cos_sq', hkk]; ring
  have loc : ∀ θ ∈ Ioo 0 (Real.pi / 2), _ := fun θ hθ =>
    have hq := quarter_pos hθ
    have hsc := Real.sin_sq_add_cos_sq θ
    have hpos : 0 ≤ t * t - 1 + (V).kpkp * Real.cos θ ^ 2 := by positivity
    fS_real (az := az) h0 h1 (y := (V).kp * Real.cos θ) (e := (V).kp * Real.sin θ)
      (p := √(t * t - 1 + (V).kpkp * Real.cos θ ^ 2)) (t := t) (i := i) (mul_pos hkp hq.2) (mul_pos hkp hq.1)
      (by rw [Real.mul_self_sqrt hpos, hX])
      (by rw [hX, ← hkp2]; linear_combination (V).kp ^ 2 * hsc)
      (by rw [hX]; exact den_S2_ne h0 h1 (hX2 θ).1 (hX2 θ).2)
  rw [buildRaw_eq _ _ _ _ _ _ _ (nine_zero V t i).2.2 0]
  rcases diag_or_side hi with hd | hd
  · obtain ⟨a, b, c, e⟩ := class_S2_diag V t hd
    rw [b, c, grp_zero, grp_zero]
    have hdead := grp_real (sgn := -1) (kpkp := (V).kpkp) (w := uS2 V t 2) (w3 := uS2 V t 3 ((V).ysp 2)) (w5 := uS2 V t 5 ((V).ysp 2)) hconj
      (fun r => conj_uS22 ht1 hkk hkpkp kp_eq (hoff r) (hnb r))
      (by simp only [uS2, conj_ofReal]) (by simp only [uS2, conj_ofReal]) a
    have hg : Continuous fun θ : ℝ => (V).kp * Real.cos θ / √(√(t * t - 1) ^ 2 + (V).kp ^ 2 * Real.cos θ ^ 2) := cont_V hb0
    rw [hkp2, hbb2] at hg
    have hW := grp_parts (-1) (V).kpkp (V).ysp (odds (turnC (ckimS2 V t) i)) (vS2 L V t 1) (vS2 L V t 4 ((V).ysp 2)) (vS2 L V t 6 ((V).ysp 2))
      (fun θ => (V).kp * Real.cos θ / √(t * t - 1 + (V).kpkp * Real.cos θ ^ 2)) (fun θ => (V).kpkp * Real.cos θ ^ 2) (Real.pi / 2) (Or.inr rfl)
      hkpkp.ne' ha hg (by fun_prop) hne
      (by
        intro r
        have cA := sub_ne_zero.mpr (hnb r)
        have cB := (hoff r).sub_ne (X := -(V).kpkp) le_rfl (by linarith)
        have cB' : ((V).kpkp : ℂ) + (V).ysp r ≠ 0 := by intro h; apply cB; push_cast; linear_combination -h
        have s1 := csqrt_ne cA
        have s2 := csqrt_ne cB'
        have q1 := csqrt_mul_self ((t * t - 1 : ℝ) - (V).ysp r)
        have q2 := csqrt_mul_self (((V).kpkp : ℂ) + (V).ysp r)
        have hI : I * I = -1 := I_mul_I
        have hI0 := I_ne_zero
        have hv := int_V1 (β := (V).kp) (K := √(t * t - 1)) hkp hb0 (c := -(V).ysp r)
          (ζ := I * csqrt ((t * t - 1 : ℝ) - (V).ysp r) / csqrt ((V).kpkp + (V).ysp r))
          (by have := (hoff r).neg; rw [neg_zero, neg_neg] at this; rw [hkp2]; exact this)
          (div_ne_zero (mul_ne_zero hI0 s1) s2)
          (by
            rw [hbb2, hkp2, sub_neg_eq_add, ← sub_eq_add_neg]
            generalize csqrt ((V).kpkp + (V).ysp r) = s at *
            generalize csqrt ((t * t - 1 : ℝ) - (V).ysp r) = s' at *
            rw [← q1, ← q2, div_mul_div_comm, div_mul_eq_mul_div, div_eq_iff (mul_ne_zero s2 s2)]
            linear_combination s * s * s' * s' * hI)
        rw [hbb2, hkp2, sub_neg_eq_add] at hv
        rw [vS21_eq L ht1 hkpkp kp_eq (hoff r)]
        simp only [ofReal_neg, ofReal_one, mul_neg, mul_one, sub_neg_eq_add] at hv ⊢
        rw [hv]
        congr 1
        · generalize csqrt ((V).kpkp + (V).ysp r) = s at *
          generalize csqrt ((t * t - 1 : ℝ) - (V).ysp r) = s' at *
          rw [← q2, div_eq_div_iff (mul_ne_zero s1 s2) (mul_ne_zero (mul_ne_zero s2 s2) (div_ne_zero (mul_ne_zero hI0 s1) s2)), mul_div_assoc',
            mul_div_assoc', div_eq_iff s2]
          linear_combination -(s * s * s' * hI)
        · congr 1
          push_cast
          rw [div_mul_div_comm]
          congr 1 <;> ring)
      (by
        have := int_V4 (β := (V).kp) hb0
        rw [hkp2, hbb2] at this
        rw [intervalIntegral.integral_ofReal, this]
        simp only [vS2])
      (by
        have := int_V6 (β := (V).kp) hb0
        rw [hkp2, hbb2] at this
        rw [intervalIntegral.integral_congr (g := fun θ : ℝ => (((V).kp * Real.cos θ / √(t * t - 1 + (V).kpkp * Real.cos θ ^ 2) *
          ((V).kpkp * Real.cos θ ^ 2) : ℝ) : ℂ)) (fun θ _ => by simp only; rw [← ofReal_mul]), intervalIntegral.integral_ofReal, this]
        simp only [vS2, mul_comm (V).kp])
    rw [add_zero, zero_add, add_im, hdead, zero_add, hW.2.1, ← intervalIntegral.integral_neg]
    refine cov_ell hb0 ha0 hkp (by rw [pow_two √_, haa, hbb2, hkp2, hkk]; ring) _ _ ((hg.mul (continuous_im.comp hW.2.2)).neg) (fun θ hθ => ?_)
    have hq := quarter_pos hθ
    rw [e1, (loc θ hθ).1 hd, hX, wq5 hkp.ne' hq.1.ne']
  · obtain ⟨a, b, c, e⟩ := class_S2_side V t hd
    rw [a, e, grp_zero, grp_zero]
    have hdead := grp_real (sgn := -1) (kpkp := (V).kpkp) (w := uS2 V t 1) (w3 := uS2 V t 4 ((V).ysp 2)) (w5 := 0) hconj
      (fun r => conj_uS21 ht1 hkk hkpkp (hoff r)) (by simp only [uS2, conj_ofReal]) (by simp) b
    have hg : Continuous fun θ : ℝ => 1 / √((t * t - (V).kk) - (V).kpkp * Real.sin θ ^ 2) := ell_cont hkpkp.le hAk
    have hW := grp_parts (-1) (V).kpkp (V).ysp (evens (turnC (ckimS2 V t) i)) (vS2 L V t 2) (vS2 L V t 3 ((V).ysp 2)) (vS2 L V t 5 ((V).ysp 2))
      (fun θ => 1 / √((t * t - (V).kk) - (V).kpkp * Real.sin θ ^ 2))
      (fun θ => (V).kpkp * Real.cos θ ^ 2) (Real.pi / 2) (Or.inr rfl) hkpkp.ne' ha hg (by fun_prop) hne
      (by
        intro r
        have e1 : (V).ysp r - (-(V).kpkp : ℝ) = (V).kpkp + (V).ysp r := by push_cast; ring
        have c0 : ((V).kpkp : ℂ) + (V).ysp r ≠ 0 := by
          have := (hoff r).sub_ne (X := -(V).kpkp) le_rfl (by linarith)
          rw [← e1]; intro h; apply this; linear_combination -h
        have hr := off_ratio1 (hoff r) (D := (V).kpkp) hkpkp.le (by linarith)
        rw [e1] at hr
        have := hL.intPi hkpkp.le hAk c0 hr
        simp only [vS2, csqrt_mul_self, mul_assoc]
        rw [← this]
        apply intervalIntegral.integral_congr
        intro θ _
        simp only
        rw [ofReal_mul (V).kpkp, ofReal_pow, cos_sq_c]
        congr 1
        push_cast; ring)
      (by
        rw [intervalIntegral.integral_ofReal, hL.intK hkpkp.le hAk]
        simp only [vS2]
        push_cast; ring)
      (by
        have h := hL.intKE hkpkp.le hAk (-(t * t - 1)) 1
        rw [intervalIntegral.integral_congr (g := fun θ : ℝ => ((1 / √((t * t - (V).kk) - (V).kpkp * Real.sin θ ^ 2) *
          (-(t * t - 1) + 1 * ((t * t - (V).kk) - (V).kpkp * Real.sin θ ^ 2)) : ℝ) : ℂ)) (fun θ _ => by
            simp only; rw [← ofReal_mul, Real.cos_sq']; congr 2; rw [hkk]; ring), intervalIntegral.integral_ofReal, h]
        simp only [vS2]
        push_cast
        ring)
    rw [zero_add, add_zero, add_im, hdead, zero_add, hW.2.1, ← intervalIntegral.integral_neg]
    refine cov_ell hb0 ha0 hkp (by rw [pow_two √_, haa, hbb2, hkp2, hkk]; ring) _ _ ((hg.mul (continuous_im.comp hW.2.2)).neg) (fun θ hθ => ?_)
    have hq := quarter_pos hθ
    rw [e1, (loc θ hθ).2 hd, hX, mul_comm ((V).kp * Real.cos θ) ((V).kp * Real.sin θ), wq4 hkp.ne' hq.1.ne' hq.2.ne',
      show t * t - 1 + (V).kpkp * Real.cos θ ^ 2 = t * t - (V).kk - (V).kpkp * Real.sin θ ^ 2 by rw [Real.cos_sq', hkk]; ring, mul_neg]

end GRT.Lamb
