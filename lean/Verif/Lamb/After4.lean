import Verif.Lamb.After3
import Verif.Lamb.PhaseS3

/-! The first S part after the Rayleigh arrival. -/

namespace GRT.Lamb

open Complex Set

local notation "cj" => starRingEnd ℂ

variable {nu az t : ℝ}

local notation "V" => mkVars nu az

theorem conj_patch' {w : ℂ → ℂ} {ys : Fin 3 → ℂ} {y : ℝ} (hy : ys 2 = y) (h2 : cj (w (ys 2)) = w (ys 2))
    (h01 : ∀ r ≠ (2 : Fin 3), cj (w (ys r)) = w (cj (ys r))) (r : Fin 3) : cj (w (ys r)) = w (cj (ys r)) := by
  by_cases hr : r = 2
  · rw [hr, h2, hy, conj_ofReal]
  · exact h01 r hr

open Classical in
theorem uS11_real (W : Vars) {c : ℝ} (h2 : c < t * t - 1) : cj (uS1 W t 1 c) = uS1 W t 1 c := by
  have hc : ((c : ℂ).im = 0 ∧ (c : ℂ).re < t * t - 1) := ⟨ofReal_im c, by rwa [ofReal_re]⟩
  simp only [uS1, if_pos hc]
  have e1 : csqrt (((t * t - 1 : ℝ) : ℂ) - c) = (√(t * t - 1 - c) : ℝ) := by rw [← ofReal_sub, csqrt_real (by linarith)]
  rw [e1]
  simp only [map_mul, map_div₀, conj_ofReal, half_conj]

open Classical in
theorem uS12_zero (W : Vars) {c : ℝ} (h0 : 0 < c) (h2 : c < t * t - 1) : uS1 W t 2 c = 0 := by
  have hc : ((c : ℂ).im = 0 ∧ (c : ℂ).re < t * t - 1 ∧ (c : ℂ).re > 0) := ⟨ofReal_im c, by rwa [ofReal_re], by rwa [ofReal_re]⟩
  simp only [uS1, if_pos hc]

open Classical in
theorem vS11_log (L : Ell) (W : Vars) {c : ℝ} (h0 : 0 < W.kpkp) (h1 : 0 < c) (h2 : c < t * t - 1) :
    vS1 L W t 1 c = ((1 / (2 * √(t * t - 1 - c) * √(W.kpkp + c)) *
      Real.log |(√(t * t - 1 - c) * W.kp + √(W.kpkp + c) * √(t * t - 1)) / (√(t * t - 1 - c) * W.kp - √(W.kpkp + c) * √(t * t - 1))| : ℝ) : ℂ) := by
  have hc : (c : ℂ).im = 0 ∧ (c : ℂ).re > -W.kpkp ∧ (c : ℂ).re < t * t - 1 := ⟨ofReal_im c, by rw [ofReal_re]; linarith, by rwa [ofReal_re]⟩
  simp only [vS1, if_pos hc]
  have e1 : csqrt (((t * t - 1 : ℝ) : ℂ) - c) = (√(t * t - 1 - c) : ℝ) := by rw [← ofReal_sub, csqrt_real (by linarith)]
  have e2 : csqrt ((W.kpkp : ℂ) + c) = (√(W.kpkp + c) : ℝ) := by rw [← ofReal_add, csqrt_real (by linarith)]
  rw [e1, e2]
  simp only [← ofReal_mul, ← ofReal_add, ← ofReal_sub, ← ofReal_div, norm_real, Real.norm_eq_abs]
  rw [show (0.5 : ℂ) = ((0.5 : ℝ) : ℂ) by norm_num, ← ofReal_div, ← ofReal_mul]
  congr 2
  · rw [mul_assoc, div_mul_eq_div_div 1 2, show (1 : ℝ) / 2 = 0.5 by norm_num]
  · congr 2; ring_nf

set_option maxHeartbeats 4000000 in
theorem phaseS1_after {L : Ell} (hL : L.Exact) (h0 : 0 < nu) (h1 : nu < 1 / 2) (ha' : Apart (V).ys) (hk : (V).kpakpa < t * t)
    {i : ℕ} (hi : i < 6) :
    HasPV (fS (V).kk t i) 0 √(t * t - (V).kpakpa) √(t * t - 1)
        (buildRaw 1 (V).kpkp (V).ysp (ckimS1 V t i) (ckimS2 V t i) (uS1 V t) (vS1 L V t)).re := by
  have ha := apart_ysp ha'
  have hkr := kk_pos (az := az) h0 h1
  obtain ⟨hka1, hy2, -⟩ := ys_facts (az := az) h0 h1
  have hA : 0 < t * t - (V).kk := by nlinarith
  have hB : 0 < t * t - 1 := by nlinarith
  have hkp := kp_pos (az := az) h0 h1
  have hkp2 := kp_sq (az := az) h0 h1
  have hkk := kpkp_eq (nu := nu) (az := az)
  have hkpkp : 0 < (V).kpkp := by rw [← hkp2]; positivity
  have hyp : (V).ysp 2 = (((V).kpakpa - 1 : ℝ) : ℂ) := by
    rw [ysp_eq, hy2, ← ofReal_sub, hkk]; congr 1; ring
  have hoff : ∀ r ≠ (2 : Fin 3), Off ((V).ysp r) (-(V).kpkp) (t * t - 1) := fun r hr => off_ysp01 h0 h1 _ hr
  have hoff0 : ∀ r ≠ (2 : Fin 3), Off ((V).ysp r) 0 (t * t - 1) := fun r hr => (hoff r hr).mono (by linarith) le_rfl
  have hb0 := Real.sqrt_pos.mpr hB
  have hbb := Real.mul_self_sqrt hB.le
  have hbb2 : √(t * t - 1) ^ 2 = t * t - 1 := Real.sq_sqrt hB.le
  have hconj := conj_ysp (az := az) h0 h1
  obtain ⟨hq0, hqq⟩ := pole_pos (az := az) hk
  have hqb : √(t * t - (V).kpakpa) < √(t * t - 1) := Real.sqrt_lt_sqrt (by linarith) (by linarith)
  have hqe : √(t * t - 1 - ((V).kpakpa - 1)) = √(t * t - (V).kpakpa) := by congr 1; ring
  generalize √(t * t - (V).kpakpa) = q at *
  have hpq : ∀ p : ℝ, 0 < p → p ≠ q → p * p ≠ q * q := by
    intro p hp hne h
    exact hne ((mul_self_inj hp.le hq0.le).mp h)
  have hX2 : ∀ θ : ℝ, 0 ≤ (t * t - 1) * Real.cos θ ^ 2 ∧ (t * t - 1) * Real.cos θ ^ 2 ≤ t * t - 1 := by
    intro θ
    exact ⟨by positivity, by have := Real.cos_sq_le_one θ; nlinarith⟩
  have low : ∀ p ∈ Ioo 0 √(t * t - 1), p ≠ q → _ := fun p hp hne =>
    have hp2 : p * p < t * t - 1 := by nlinarith [hp.1, hp.2]
    have hx : 0 < t * t - 1 - p * p := by linarith
    have he : 0 < t * t - (V).kk - p * p := by linarith
    fS_imag (az := az) h0 h1 (x := √(t * t - 1 - p * p)) (e := √(t * t - (V).kk - p * p))
      (p := p) (t := t) (i := i) (Real.sqrt_pos.mpr hx) (Real.sqrt_pos.mpr he)
      (by rw [Real.mul_self_sqrt hx.le]; ring)
      (by rw [Real.mul_self_sqrt he.le, Real.mul_self_sqrt hx.le, hkk]; ring)
      (by rw [Real.mul_self_sqrt hx.le]; exact (reg_S h0 h1 ha 0 hqq (hpq p hp.1 hne) (by linarith)).1)
  have hne : ∀ r ≠ (2 : Fin 3), ∀ θ : ℝ, (((t * t - 1) * Real.cos θ ^ 2 : ℝ) : ℂ) ≠ (V).ysp r := fun r hr θ =>
    (hoff0 r hr).ne (hX2 θ).1 (hX2 θ).2
  rw [buildRaw_eq _ _ _ _ _ _ _ (nine_zero V t i).2.1 0]
  rcases diag_or_side hi with hd | hd
  · obtain ⟨a, b, c, e⟩ := class_S1_diag V t hd
    rw [b, c, grp_zero, grp_zero]
    have hU := grp_reg (V).kpkp (V).ysp (evens (ckimS1 V t i)) (uS1 V t 2) (uS1 V t 3 ((V).ysp 2)) (uS1 V t 5 ((V).ysp 2))
      (fun _ => 1) (fun θ => (t * t - 1) * Real.cos θ ^ 2) (Real.pi / 2) (by fun_prop) (by fun_prop) hne
      (by
        intro r hr
        have hc : ¬(((V).ysp r).im = 0 ∧ ((V).ysp r).re < t * t - 1 ∧ ((V).ysp r).re > 0) := by
          rintro ⟨i1, i2, i3⟩
          rcases hoff0 r hr with h | h | h
          · exact h i1
          · linarith
          · linarith
        simp only [uS1, if_neg hc, ofReal_one]
        rw [int_U2c hB (hoff0 r hr)])
      (by simp [uS1]; ring)
      (by
        rw [intervalIntegral.integral_congr (g := fun θ : ℝ => (((t * t - 1) * Real.cos θ ^ 2 : ℝ) : ℂ)) (fun θ _ => by simp),
          intervalIntegral.integral_ofReal, intervalIntegral.integral_const_mul, int_cos2]
        simp only [uS1]
        push_cast; ring)
    have hU2 : uS1 V t 2 ((V).ysp 2) = 0 := by rw [hyp]; exact uS12_zero V (by linarith) (by linarith)
    rw [hU2, mul_zero, zero_re, zero_im, add_zero] at hU
    have hg : Continuous fun θ : ℝ => √(t * t - 1) * Real.cos θ / √((V).kp ^ 2 + √(t * t - 1) ^ 2 * Real.cos θ ^ 2) := cont_V hkp
    have hW := grp_reg (V).kpkp (V).ysp (odds (ckimS2 V t i)) (vS1 L V t 1) (vS1 L V t 4 ((V).ysp 2)) (vS1 L V t 6 ((V).ysp 2))
      (fun θ => √(t * t - 1) * Real.cos θ / √((V).kp ^ 2 + √(t * t - 1) ^ 2 * Real.cos θ ^ 2)) (fun θ => (t * t - 1) * Real.cos θ ^ 2)
      (Real.pi / 2) hg (by fun_prop) hne
      (by
        intro r hr
        have hc : ¬(((V).ysp r).im = 0 ∧ ((V).ysp r).re > -(V).kpkp ∧ ((V).ysp r).re < t * t - 1) := by
          rintro ⟨i1, i2, i3⟩
          rcases hoff r hr with h | h | h
          · exact h i1
          · linarith
          · linarith
        have cA := (hoff r hr).sub_ne (X := t * t - 1) (by linarith) le_rfl
        have cB := (hoff r hr).sub_ne (X := -(V).kpkp) le_rfl (by linarith)
        have cB' : ((V).kpkp : ℂ) + (V).ysp r ≠ 0 := by intro h; apply cB; push_cast; linear_combination -h
        have s1 := csqrt_ne cA
        have s2 := csqrt_ne cB'
        have q1 := csqrt_mul_self ((t * t - 1 : ℝ) - (V).ysp r)
        have q2 := csqrt_mul_self (((V).kpkp : ℂ) + (V).ysp r)
        have hI : I * I = -1 := I_mul_I
        have hI0 := I_ne_zero
        have hv := int_V1 (β := √(t * t - 1)) (K := (V).kp) hb0 hkp (c := (V).ysp r)
          (ζ := csqrt ((V).kpkp + (V).ysp r) / (I * csqrt ((t * t - 1 : ℝ) - (V).ysp r))) (by rw [hbb2]; exact hoff0 r hr)
          (div_ne_zero s2 (mul_ne_zero hI0 s1))
          (by
            rw [hbb2, hkp2]
            generalize csqrt ((V).kpkp + (V).ysp r) = s at *
            generalize csqrt ((t * t - 1 : ℝ) - (V).ysp r) = s' at *
            rw [← q1, ← q2, div_mul_div_comm, div_mul_eq_mul_div, div_eq_iff (by positivity)]
            linear_combination s * s * s' * s' * hI)
        rw [hbb2] at hv
        rw [hbb2]
        simp only [vS1, if_neg hc]
        rw [hv]
        congr 1
        · generalize csqrt ((V).kpkp + (V).ysp r) = s at *
          generalize csqrt ((t * t - 1 : ℝ) - (V).ysp r) = s' at *
          rw [← q1]
          field_simp
        · congr 1
          push_cast
          have : ((V).kp : ℂ) ≠ 0 := by exact_mod_cast hkp.ne'
          generalize csqrt ((V).kpkp + (V).ysp r) = s at *
          rw [div_mul_div_comm]
          congr 1 <;> ring)
      (by
        have := int_V4 (β := √(t * t - 1)) hkp
        rw [intervalIntegral.integral_ofReal, this]
        simp only [vS1])
      (by
        have := int_V6 (β := √(t * t - 1)) hkp
        rw [hbb2] at this ⊢
        rw [intervalIntegral.integral_congr (g := fun θ : ℝ => ((√(t * t - 1) * Real.cos θ / √((V).kp ^ 2 + (t * t - 1) * Real.cos θ ^ 2) *
          ((t * t - 1) * Real.cos θ ^ 2) : ℝ) : ℂ)) (fun θ _ => by simp only; rw [← ofReal_mul]), intervalIntegral.integral_ofReal, this, hkp2]
        simp only [vS1])
    rw [hyp, vS11_log L V hkpkp (by linarith) (by linarith), hqe, ← hyp, re_mul_ofReal] at hW
    rw [add_zero, zero_add, add_re, hU.1, hW.1]
    set E := evens (ckimS1 V t i)
    set O := odds (ckimS2 V t i)
    have hXs : ∀ θ : ℝ, t * t - 1 - √(t * t - 1) * Real.sin θ * (√(t * t - 1) * Real.sin θ) = (t * t - 1) * Real.cos θ ^ 2 := by
      intro θ
      have hsc := Real.sin_sq_add_cos_sq θ
      linear_combination -Real.sin θ ^ 2 * hbb - (t * t - 1) * hsc
    have r1 := cov_sin hb0 (fun p => (regQ (V).kpkp (V).ysp E ((t * t - 1 - p * p : ℝ) : ℂ)).re / √(t * t - 1 - p * p))
      (fun θ => 1 * (regQ (V).kpkp (V).ysp E (((t * t - 1) * Real.cos θ ^ 2 : ℝ) : ℂ)).re)
      (continuous_const.mul (continuous_re.comp hU.2.2)) (fun θ hθ => by
        have hq := quarter_pos hθ
        have hsc := Real.sin_sq_add_cos_sq θ
        rw [sqrt_path hb0 hbb hq.2 (by linarith), wq (mul_pos hb0 hq.2).ne', hXs, one_mul])
    have p1 := pv_base_zero hq0 hqb
    rw [hbb] at p1
    have P1 := (HasPV.of_integrable hq0 hqb r1.2).add (p1.const_mul (resQ (V).kpkp (V).ysp E).re)
    rw [r1.1, mul_zero, add_zero] at P1
    have r2 := cov_sin hb0 (fun p => (regQ (V).kpkp (V).ysp O ((t * t - 1 - p * p : ℝ) : ℂ)).re / √(t * t - (V).kk - p * p))
      (fun θ => √(t * t - 1) * Real.cos θ / √((V).kp ^ 2 + √(t * t - 1) ^ 2 * Real.cos θ ^ 2) * (regQ (V).kpkp (V).ysp O (((t * t - 1) * Real.cos θ ^ 2 : ℝ) : ℂ)).re)
      (hg.mul (continuous_re.comp hW.2.2)) (fun θ hθ => by
        have e1 : t * t - (V).kk - √(t * t - 1) * Real.sin θ * (√(t * t - 1) * Real.sin θ) = (V).kp ^ 2 + √(t * t - 1) ^ 2 * Real.cos θ ^ 2 := by
          have := hXs θ
          rw [hkp2, hbb2, hkk]
          linarith
        rw [e1, hXs]
        ring)
    have p2 := pv_base (A := t * t - (V).kk) hq0 hqb (by rw [hbb]; linarith)
    have P2 := (HasPV.of_integrable hq0 hqb r2.2).add (p2.const_mul (resQ (V).kpkp (V).ysp O).re)
    rw [r2.1, hbb, hqq, show t * t - (V).kk - (t * t - 1) = (V).kpkp by rw [hkk]; ring,
      show t * t - (V).kk - (t * t - (V).kpakpa) = (V).kpkp + ((V).kpakpa - 1) by rw [hkk]; ring, ← kp_eq] at P2
    have parts : ∀ (e : Fin 5 → ℂ) (p : ℝ), 0 < p → p ≠ q → p * p < t * t - 1 →
        (quart e ((t * t - 1 - p * p : ℝ) : ℂ) / den 1 (V).kpkp (V).ysp ((t * t - 1 - p * p : ℝ) : ℂ)).re =
          (regQ (V).kpkp (V).ysp e ((t * t - 1 - p * p : ℝ) : ℂ)).re + 1 / (q * q - p * p) * (resQ (V).kpkp (V).ysp e).re := by
      intro e p hp hne hpa
      have := (reg_S h0 h1 ha e hqq (hpq p hp hne) hpa.le).2
      rw [this, add_re, re_ofReal_mul]
    have P4 := P1.add P2
    rw [← add_assoc] at P4 ⊢
    refine P4.congr hq0 hqb (fun p hp hne => ?_)
    have hpb : p * p < t * t - 1 := by nlinarith [hp.1, hp.2]
    have hx : 0 < t * t - 1 - p * p := by linarith
    rw [(low p hp hne).1 hd, Real.mul_self_sqrt hx.le, parts E p hp.1 hne hpb, parts O p hp.1 hne hpb]
    simp only [hqq, one_div, mul_inv]
    ring
  · obtain ⟨a, b, c, e⟩ := class_S1_side V t hd
    rw [a, e, grp_zero, grp_zero]
    have hdead := grp_imag (sgn := 1) (kpkp := (V).kpkp) (w := uS1 V t 1) (w3 := uS1 V t 4 ((V).ysp 2)) (w5 := 0) hconj
      (conj_patch' hyp (by rw [hyp]; exact uS11_real V (by linarith)) (fun r hr => conj_uS11 V hB.le (hoff0 r hr)))
      (by simp only [uS1, conj_ofReal]) (by simp) b
    have hdead2 := grp_imag (sgn := 1) (kpkp := (V).kpkp) (w := vS1 L V t 2) (w3 := vS1 L V t 3 ((V).ysp 2)) (w5 := vS1 L V t 5 ((V).ysp 2)) hconj
      (conj_patch' (w := vS1 L V t 2) hyp
        (by
          have := hL.conjPi_gt (n := (t * t - 1) / (t * t - 1 - ((V).kpakpa - 1))) (m := (t * t - 1) / (t * t - (V).kk)) (by positivity)
            (by rw [div_lt_one hA]; linarith) (by rw [lt_div_iff₀ (by linarith)]; linarith)
          simp only [vS1, mul_assoc, csqrt_mul_self]
          rw [hyp, ← ofReal_sub, ← ofReal_div, map_mul, this, ← ofReal_mul, ← ofReal_one, ← ofReal_div, conj_ofReal])
        (by
          intro r hr
          have := hL.conjPi (n := (t * t - 1 : ℝ) / ((t * t - 1 : ℝ) - (V).ysp r)) (m := (t * t - 1) / (t * t - (V).kk)) (by positivity)
            (by rw [div_lt_one hA]; linarith) (off_ratio2 (hoff0 r hr) hB.le (by linarith))
          simp only [vS1, mul_assoc, csqrt_mul_self, map_mul, map_div₀, map_one, conj_ofReal, map_sub, this]))
      (by simp only [vS1, map_mul, map_div₀, map_one, conj_ofReal]) (by simp only [vS1, map_sub, map_mul, map_div₀, conj_ofReal]) c
    rw [zero_add, add_zero, add_re, hdead, hdead2, zero_add]
    have := HasPV.of_integrable (F := fun _ => 0) hq0 hqb (by simp)
    rw [intervalIntegral.integral_zero] at this
    exact this.congr hq0 hqb (fun p hp hne => (low p hp hne).2 hd)

end GRT.Lamb
