import Verif.Lamb.PhaseP

namespace GRT.Lamb

open Complex Set

local notation "cj" => starRingEnd ℂ

variable {nu az t : ℝ}

local notation "V" => mkVars nu az

/-- `∫ 1/(A sin² − c)` as in case 2 of `U_P` and `U_S1`. -/
theorem int_U2 {A : ℝ} {c : ℂ} (hA : 0 < A) (hc : Off c 0 A) :
    ∫ θ in 0..Real.pi / 2, 1 / (((A * Real.sin θ ^ 2 : ℝ) : ℂ) - c) = -0.5 * Real.pi / c * csqrt (c / (c - A)) := by
  have c0 : c ≠ 0 := by
    have := hc.ne (X := 0) le_rfl hA.le
    intro h; apply this; simp [h]
  have cA : (A : ℂ) - c ≠ 0 := hc.sub_ne hA.le le_rfl
  have cA' : c - (A : ℂ) ≠ 0 := by intro h; apply cA; linear_combination -h
  have hs := hc.div (X := A) (Y := 0) hA.le le_rfl le_rfl hA.le
  rw [ofReal_zero, zero_sub] at hs
  have := int_quarter (A := -c) (B := A - c) (neg_ne_zero.mpr c0) cA hs
  have e1 : ∀ θ : ℝ, 1 / (((A * Real.sin θ ^ 2 : ℝ) : ℂ) - c) = 1 / (-c * (Real.cos θ : ℂ) ^ 2 + (A - c) * (Real.sin θ : ℂ) ^ 2) := by
    intro θ
    have h : (Real.cos θ : ℂ) ^ 2 = 1 - (Real.sin θ : ℂ) ^ 2 := by
      rw [← ofReal_pow, ← ofReal_pow, Real.cos_sq', ofReal_sub, ofReal_one, ofReal_pow]
    rw [h, ofReal_mul, ofReal_pow]
    congr 1; ring
  simp only [e1]
  rw [this]
  have hi := csqrt_inv hs
  have e2 : c / (c - A) = 1 / ((A - c) / -c) := by field_simp; ring
  rw [e2, hi]
  have hsq := csqrt_mul_self ((A - c) / -c)
  have s0 : csqrt ((A - c) / -c) ≠ 0 := csqrt_ne (div_ne_zero cA (neg_ne_zero.mpr c0))
  generalize csqrt ((A - c) / -c) = s at *
  rw [eq_div_iff (neg_ne_zero.mpr c0)] at hsq
  rw [← hsq]
  field_simp
  norm_num

theorem wq {x q : ℝ} (h : x ≠ 0) : x * (q / x) = q := by field_simp

theorem wq2 {x y q : ℝ} (h : x ≠ 0) : x * (q / (x * y)) = 1 / y * q := by
  rw [one_div_mul_eq_div]; field_simp

theorem int_sin2 : ∫ θ in 0..Real.pi / 2, Real.sin θ ^ 2 = Real.pi / 4 := by
  rw [integral_sin_sq]
  simp
  ring

theorem den_P_ne (h0 : 0 < nu) (h1 : nu < 1 / 2) (hk : t * t < (V).kpakpa) {X : ℝ} (hX0 : 0 ≤ X) (hX : X ≤ t * t - (V).kk) :
    den 1 (V).kpkp (V).ys (X : ℂ) ≠ 0 := by
  have hkp := kp_pos (az := az) h0 h1
  have hkp2 := kp_sq (az := az) h0 h1
  refine den_ne one_ne_zero (by rw [← hkp2]; positivity) (fun r => ?_)
  rw [ofReal_one, mul_one]
  exact (off_ys h0 h1 (hi := t * t - (V).kk) (by linarith) r).ne hX0 hX

/-- The group that carries the real part on the diagonal. -/
theorem grpU_P (h0 : 0 < nu) (h1 : nu < 1 / 2) (ha : Apart (V).ys) (htk : (V).kk < t * t) (hk : t * t < (V).kpakpa) (e : Fin 5 → ℂ) :
    (grp 1 (V).kpkp (V).ys e (uP V t 2) (uP V t 3 ((V).ys 2)) (uP V t 5 ((V).ys 2))).re =
      ∫ θ in 0..Real.pi / 2, (quart e (((t * t - (V).kk) * Real.sin θ ^ 2 : ℝ) : ℂ) / den 1 (V).kpkp (V).ys (((t * t - (V).kk) * Real.sin θ ^ 2 : ℝ) : ℂ)).re ∧
    Continuous fun θ : ℝ => quart e (((t * t - (V).kk) * Real.sin θ ^ 2 : ℝ) : ℂ) / den 1 (V).kpkp (V).ys (((t * t - (V).kk) * Real.sin θ ^ 2 : ℝ) : ℂ) := by
  have hA : 0 < t * t - (V).kk := by linarith
  have hkp := kp_pos (az := az) h0 h1
  have hkp2 := kp_sq (az := az) h0 h1
  have hoff := off_ys (az := az) h0 h1 (hi := t * t - (V).kk) (by linarith)
  have := grp_parts 1 (V).kpkp (V).ys e (uP V t 2) (uP V t 3 ((V).ys 2)) (uP V t 5 ((V).ys 2)) (fun _ => 1)
    (fun θ => (t * t - (V).kk) * Real.sin θ ^ 2) (Real.pi / 2) (Or.inl rfl) (by rw [← hkp2]; positivity) ha (by fun_prop) (by fun_prop)
    (by
      intro r θ
      rw [ofReal_one, mul_one]
      exact (hoff r).ne (by positivity) (by have := Real.sin_sq_le_one θ; nlinarith))
    (by
      intro r
      have hc : ¬(((V).ys r).im = 0 ∧ ((V).ys r).re < t * t - (V).kk ∧ ((V).ys r).re > 0) := by
        rintro ⟨i1, i2, i3⟩
        rcases hoff r with h | h | h
        · exact h i1
        · linarith
        · linarith
      simp only [uP, if_neg hc, ofReal_one, mul_one]
      rw [int_U2 hA (hoff r)])
    (by simp [uP]; ring)
    (by
      rw [intervalIntegral.integral_congr (g := fun θ : ℝ => (((t * t - (V).kk) * Real.sin θ ^ 2 : ℝ) : ℂ)) (fun θ _ => by simp),
        intervalIntegral.integral_ofReal, intervalIntegral.integral_const_mul, int_sin2]
      simp only [uP]
      push_cast; ring)
  exact ⟨by simpa using this.1, this.2.2⟩

theorem phaseP_lt {L : Ell} (hL : L.Exact) (h0 : 0 < nu) (h1 : nu < 1 / 2) (ha : Apart (V).ys) (htk : (V).kk < t * t) (ht0 : 0 < t) (ht1 : t < 1)
    {i : ℕ} (hi : i < 6) :
    ∫ p in 0..√(t * t - (V).kk), fP (V).kk t i p =
        (buildRaw 1 (V).kpkp (V).ys (ckimP1 V t i) (ckimP2 V t i) (uP V t) (vP L V t)).re ∧
      IntervalIntegrable (fP (V).kk t i) MeasureTheory.volume 0 √(t * t - (V).kk) := by
  have hk1 := (ys_facts (az := az) h0 h1).1
  have hk : t * t < (V).kpakpa := by nlinarith
  have hA : 0 < t * t - (V).kk := by linarith
  have hkp := kp_pos (az := az) h0 h1
  have hkp2 := kp_sq (az := az) h0 h1
  have hkk := kpkp_eq (nu := nu) (az := az)
  have hAk : t * t - (V).kk < (V).kpkp := by rw [hkk]; nlinarith
  have hoff := off_ys (az := az) h0 h1 (hi := t * t - (V).kk) (by linarith)
  have ha0 := Real.sqrt_pos.mpr hA
  have haa := Real.mul_self_sqrt hA.le
  have hconj := conj_ys (az := az) h0 h1
  have hsqk : √(V).kpkp = (V).kp := by rw [← hkp2]; exact Real.sqrt_sq hkp.le
  -- the path
  have path : ∀ θ ∈ Ioo 0 (Real.pi / 2), 0 < √(t * t - (V).kk) * Real.sin θ ∧
      √(t * t - (V).kk) * Real.cos θ * (√(t * t - (V).kk) * Real.cos θ) =
        t * t - (V).kk - √(t * t - (V).kk) * Real.sin θ * (√(t * t - (V).kk) * Real.sin θ) ∧
      √(t * t - (V).kk) * Real.sin θ * (√(t * t - (V).kk) * Real.sin θ) = (t * t - (V).kk) * Real.sin θ ^ 2 ∧
      0 < (V).kpkp - (t * t - (V).kk) * Real.sin θ ^ 2 := by
    intro θ hθ
    have hs := quarter_pos hθ
    have hsc := Real.sin_sq_add_cos_sq θ
    have h2 := Real.sin_sq_le_one θ
    refine ⟨mul_pos ha0 hs.1, ?_, ?_, by nlinarith⟩
    · linear_combination (Real.cos θ ^ 2 + Real.sin θ ^ 2) * haa + (t * t - (V).kk) * hsc
    · linear_combination Real.sin θ ^ 2 * haa
  have dne : ∀ θ : ℝ, den 1 (V).kpkp (V).ys (((t * t - (V).kk) * Real.sin θ ^ 2 : ℝ) : ℂ) ≠ 0 := fun θ =>
    den_P_ne h0 h1 hk (by positivity) (by have := Real.sin_sq_le_one θ; nlinarith)
  have loc : ∀ θ ∈ Ioo 0 (Real.pi / 2), _ := fun θ hθ =>
    fP_real (az := az) h0 h1 (x := √(t * t - (V).kk) * Real.sin θ) (y := √((V).kpkp - (t * t - (V).kk) * Real.sin θ ^ 2))
      (p := √(t * t - (V).kk) * Real.cos θ) (t := t) (i := i) (path θ hθ).1 (Real.sqrt_pos.mpr (path θ hθ).2.2.2) (path θ hθ).2.1
      (by rw [Real.mul_self_sqrt (path θ hθ).2.2.2.le, (path θ hθ).2.2.1]) (by rw [(path θ hθ).2.2.1]; exact dne θ)
  rw [buildRaw_eq _ _ _ _ _ _ _ (nine_zero V t i).1 0]
  rcases diag_or_side hi with hd | hd
  · obtain ⟨a, b, c, e⟩ := class_P_diag V t hd
    rw [b, c, grp_zero, grp_zero]
    have hdead := grp_imag (sgn := 1) (kpkp := (V).kpkp) (w := vP L V t 1) (w3 := vP L V t 4 ((V).ys 2)) (w5 := vP L V t 6 ((V).ys 2)) hconj
      (fun r => conj_vP1 L htk ht1 ht0 hkk kp_eq ((off_ys h0 h1 (hi := (V).kpkp) (by linarith) r)))
      (by simp only [vP, if_neg ht1.le.not_gt, map_mul, conj_ofReal, half_conj])
      (by simp only [vP, if_neg ht1.le.not_gt, map_mul, conj_ofReal, half_conj, map_sub, map_add]; norm_num [map_div₀, map_ofNat]) e
    have hU := grpU_P h0 h1 ha htk hk (evens (ckimP1 V t i))
    rw [add_zero, zero_add, add_re, hdead, add_zero, hU.1]
    refine cov_cos ha0 _ _ (continuous_re.comp hU.2) (fun θ hθ => ?_)
    have hp := path θ hθ
    rw [(loc θ hθ).1 hd, hp.2.2.1]
    exact wq hp.1.ne'
  · obtain ⟨a, b, c, e⟩ := class_P_side V t hd
    rw [a, e, grp_zero, grp_zero]
    have hdead := grp_imag (sgn := 1) (kpkp := (V).kpkp) (w := uP V t 1) (w3 := uP V t 4 ((V).ys 2)) (w5 := 0) hconj
      (fun r => conj_uP1 V hA.le (hoff r)) (by simp only [uP, conj_ofReal]) (by simp) b
    have hg : Continuous fun θ : ℝ => 1 / √((V).kpkp - (t * t - (V).kk) * Real.sin θ ^ 2) := ell_cont hA.le hAk
    have hW := grp_parts 1 (V).kpkp (V).ys (evens (ckimP2 V t i)) (vP L V t 2) (vP L V t 3 ((V).ys 2)) (vP L V t 5 ((V).ys 2))
      (fun θ => 1 / √((V).kpkp - (t * t - (V).kk) * Real.sin θ ^ 2))
      (fun θ => (t * t - (V).kk) * Real.sin θ ^ 2) (Real.pi / 2) (Or.inl rfl) (by rw [← hkp2]; positivity) ha hg (by fun_prop)
      (by
        intro r θ
        rw [ofReal_one, mul_one]
        exact (hoff r).ne (by positivity) (by have := Real.sin_sq_le_one θ; nlinarith))
      (by
        intro r
        have c0 : (V).ys r ≠ 0 := by
          have := (hoff r).ne (X := 0) le_rfl hA.le
          intro h; apply this; simp [h]
        have hr := off_ratio1 (hoff r) hA.le (by linarith)
        rw [ofReal_zero, sub_zero] at hr
        have := hL.intPi hA.le hAk c0 hr
        simp only [vP, if_neg ht1.le.not_gt, ofReal_one, mul_one]
        rw [neg_div, neg_mul]
        rw [hsqk] at this
        rw [← this, ← intervalIntegral.integral_neg]
        apply intervalIntegral.integral_congr
        intro θ _
        simp only
        rw [← div_neg]
        congr 1
        push_cast; ring)
      (by
        rw [intervalIntegral.integral_ofReal, hL.intK hA.le hAk, hsqk]
        simp only [vP, if_neg ht1.le.not_gt]
        push_cast; ring)
      (by
        have h := hL.intKE hA.le hAk (V).kpkp (-1)
        rw [intervalIntegral.integral_congr (g := fun θ : ℝ => ((1 / √((V).kpkp - (t * t - (V).kk) * Real.sin θ ^ 2) *
          ((V).kpkp + -1 * ((V).kpkp - (t * t - (V).kk) * Real.sin θ ^ 2)) : ℝ) : ℂ)) (fun θ _ => by
            simp only; rw [← ofReal_mul]; congr 2; ring), intervalIntegral.integral_ofReal, h, hsqk]
        simp only [vP, if_neg ht1.le.not_gt]
        have k0 : ((V).kp : ℂ) ≠ 0 := by exact_mod_cast hkp.ne'
        have k2 : ((V).kpkp : ℂ) = (V).kp ^ 2 := by rw [← hkp2]; push_cast; ring
        push_cast
        rw [k2]
        field_simp
        ring)
    rw [zero_add, add_zero, add_re, hdead, zero_add, hW.1]
    refine cov_cos ha0 _ _ (hg.mul (continuous_re.comp hW.2.2)) (fun θ hθ => ?_)
    have hp := path θ hθ
    rw [(loc θ hθ).2 hd, hp.2.2.1]
    exact wq2 hp.1.ne'

end GRT.Lamb
