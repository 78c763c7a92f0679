import Verif.Lamb.PhaseS

namespace GRT.Lamb

open Complex Set

local notation "cj" => starRingEnd ℂ

variable {nu az t : ℝ}

local notation "V" => mkVars nu az

theorem cos_sq_c (θ : ℝ) : (Real.cos θ : ℂ) ^ 2 = 1 - (Real.sin θ : ℂ) ^ 2 := by
  rw [← ofReal_pow, ← ofReal_pow, Real.cos_sq', ofReal_sub, ofReal_one, ofReal_pow]

theorem ne_of_off_neg {c : ℂ} {k X : ℝ} (h : Off c (-k) 0) (h0 : 0 ≤ X) (hX : X ≤ k) : (X : ℂ) ≠ c * ((-1 : ℝ) : ℂ) := by
  have := h.neg.ne (X := X) (by simpa using h0) (by simpa using hX)
  simpa using this

set_option maxHeartbeats 4000000 in
theorem phaseS_lt {L : Ell} (hL : L.Exact) (h0 : 0 < nu) (h1 : nu < 1 / 2) (ha' : Apart (V).ys) (htk : (V).kk < t * t) (ht0 : 0 < t) (ht1 : t < 1)
    {i : ℕ} (hi : i < 6) :
    ∫ p in 0..√(t * t - (V).kk), fS (V).kk t i p =
        -(buildRaw (-1) (V).kpkp (V).ysp (turnC (ckimS1 V t) i) (turnC (ckimS2 V t) i) (uSP V t) (vSP L V t)).im ∧
      IntervalIntegrable (fS (V).kk t i) MeasureTheory.volume 0 √(t * t - (V).kk) := by
  have ha := apart_ysp ha'
  have hA : 0 < t * t - (V).kk := by linarith
  have hkp := kp_pos (az := az) h0 h1
  have hkp2 := kp_sq (az := az) h0 h1
  have hkk := kpkp_eq (nu := nu) (az := az)
  have hkpkp : 0 < (V).kpkp := by rw [← hkp2]; positivity
  have hAk : t * t - (V).kk < (V).kpkp := by rw [hkk]; nlinarith
  have hoff := off_ysp' (az := az) h0 h1
  have hoff' : ∀ r, Off ((V).ysp r) (-(V).kpkp) (t * t - 1) := fun r => (hoff r).mono le_rfl (by nlinarith)
  have ha0 := Real.sqrt_pos.mpr hA
  have haa := Real.mul_self_sqrt hA.le
  have hconj := conj_ysp (az := az) h0 h1
  have hsqk : √(V).kpkp = (V).kp := by rw [← hkp2]; exact Real.sqrt_sq hkp.le
  have hX2 : ∀ ψ : ℝ, 0 < (V).kpkp - (t * t - (V).kk) * Real.sin ψ ^ 2 ∧ (V).kpkp - (t * t - (V).kk) * Real.sin ψ ^ 2 ≤ (V).kpkp := by
    intro ψ
    exact ⟨ell_pos hA.le hAk ψ, by have := sq_nonneg (Real.sin ψ); nlinarith⟩
  have loc : ∀ θ ∈ Ioo 0 (Real.pi / 2), _ := fun θ hθ =>
    have hq := quarter_pos hθ
    have hsc := Real.sin_sq_add_cos_sq θ
    fS_real (az := az) h0 h1 (e := √(t * t - (V).kk) * Real.sin θ) (y := √((V).kpkp - (t * t - (V).kk) * Real.sin θ ^ 2))
      (p := √(t * t - (V).kk) * Real.cos θ) (t := t) (i := i) (Real.sqrt_pos.mpr (hX2 θ).1) (mul_pos ha0 hq.1)
      (by
        rw [Real.mul_self_sqrt (hX2 θ).1.le, hkk]
        linear_combination Real.cos θ ^ 2 * haa + (t * t - (V).kk) * hsc)
      (by rw [Real.mul_self_sqrt (hX2 θ).1.le]; linear_combination Real.sin θ ^ 2 * haa)
      (by rw [Real.mul_self_sqrt (hX2 θ).1.le]; exact den_S2_ne h0 h1 (hX2 θ).1.le (hX2 θ).2)
  have hne : ∀ (r : Fin 3) (ψ : ℝ), (((V).kpkp - (t * t - (V).kk) * Real.sin ψ ^ 2 : ℝ) : ℂ) ≠ (V).ysp r * ((-1 : ℝ) : ℂ) := fun r ψ =>
    ne_of_off_neg (hoff r) (hX2 ψ).1.le (hX2 ψ).2
  rw [buildRaw_eq _ _ _ _ _ _ _ (nine_zero V t i).2.2 0]
  rcases diag_or_side hi with hd | hd
  · obtain ⟨a, b, c, e⟩ := class_S2_diag V t hd
    rw [b, c, grp_zero, grp_zero]
    have hdead := grp_real (sgn := -1) (kpkp := (V).kpkp) (w := uSP V t 2) (w3 := uSP V t 3 ((V).ysp 2)) (w5 := uSP V t 5 ((V).ysp 2)) hconj
      (fun r => conj_uSP2 htk ht1 ht0 hkk kp_eq (hoff' r))
      (by simp only [uSP, conj_ofReal]) (by simp only [uSP, conj_ofReal]) a
    have hW := grp_parts (-1) (V).kpkp (V).ysp (odds (turnC (ckimS2 V t) i)) (vSP L V t 1) (vSP L V t 4 ((V).ysp 2)) (vSP L V t 6 ((V).ysp 2))
      (fun _ => 1) (fun ψ => (V).kpkp - (t * t - (V).kk) * Real.sin ψ ^ 2) (Real.pi / 2) (Or.inr rfl) hkpkp.ne' ha (by fun_prop) (by fun_prop)
      hne
      (by
        intro r
        have hc : ¬(((V).ysp r).im = 0 ∧ ((V).ysp r).re > -(V).kpkp ∧ ((V).ysp r).re < t * t - 1) := by
          rintro ⟨i1, i2, i3⟩
          rcases hoff' r with h | h | h
          · exact h i1
          · linarith
          · linarith
        have hkb : -(V).kpkp ≤ t * t - 1 := by rw [hkk]; nlinarith
        have cA := (hoff' r).sub_ne (X := -(V).kpkp) le_rfl hkb
        have cB := (hoff' r).sub_ne (X := t * t - 1) hkb le_rfl
        have hsl := (hoff' r).div (X := t * t - 1) (Y := -(V).kpkp) hkb le_rfl le_rfl hkb
        have e1 : (V).ysp r + (V).kpkp = -((-(V).kpkp : ℝ) - (V).ysp r) := by push_cast; ring
        have e2 : (V).ysp r - (t * t - 1 : ℝ) = -((t * t - 1 : ℝ) - (V).ysp r) := by ring
        have hq := int_quarter (A := (V).ysp r + (V).kpkp) (B := (V).ysp r - (t * t - 1 : ℝ)) (by rw [e1]; exact neg_ne_zero.mpr cA)
          (by rw [e2]; exact neg_ne_zero.mpr cB) (by rw [e1, e2, neg_div_neg_eq]; exact hsl)
        simp only [vSP, if_neg hc]
        rw [← hq]
        apply intervalIntegral.integral_congr
        intro θ _
        simp only
        rw [cos_sq_c, hkk, ofReal_one]
        congr 1
        simp only [ofReal_sub, ofReal_mul, ofReal_pow, ofReal_one, ofReal_neg]; ring)
      (by simp [vSP])
      (by
        rw [intervalIntegral.integral_congr (g := fun ψ : ℝ => (((V).kpkp - (t * t - (V).kk) * Real.sin ψ ^ 2 : ℝ) : ℂ))
          (fun ψ _ => by simp only; rw [← ofReal_mul]; congr 1; ring), intervalIntegral.integral_ofReal,
          intervalIntegral.integral_sub (by simp) (Continuous.intervalIntegrable (by fun_prop) _ _), intervalIntegral.integral_const_mul, int_sin2]
        simp only [intervalIntegral.integral_const, smul_eq_mul, sub_zero, vSP]
        congr 1
        rw [hkk]; ring)
    rw [add_zero, zero_add, add_im, hdead, zero_add, hW.2.1, ← intervalIntegral.integral_neg]
    refine cov_cos ha0 _ _ ((continuous_const.mul (continuous_im.comp hW.2.2)).neg) (fun θ hθ => ?_)
    have hq := quarter_pos hθ
    rw [(loc θ hθ).1 hd, Real.mul_self_sqrt (hX2 θ).1.le, wq (mul_pos ha0 hq.1).ne']
    simp
  · obtain ⟨a, b, c, e⟩ := class_S2_side V t hd
    rw [a, e, grp_zero, grp_zero]
    have hdead := grp_real (sgn := -1) (kpkp := (V).kpkp) (w := uSP V t 1) (w3 := uSP V t 4 ((V).ysp 2)) (w5 := 0) hconj
      (fun r => conj_uSP1 htk ht1 ht0 hkk (hoff' r)) (by simp only [uSP, conj_ofReal]) (by simp) b
    have hg : Continuous fun θ : ℝ => 1 / √((V).kpkp - (t * t - (V).kk) * Real.sin θ ^ 2) := ell_cont hA.le hAk
    have hW := grp_parts (-1) (V).kpkp (V).ysp (evens (turnC (ckimS2 V t) i)) (vSP L V t 2) (vSP L V t 3 ((V).ysp 2)) (vSP L V t 5 ((V).ysp 2))
      (fun θ => 1 / √((V).kpkp - (t * t - (V).kk) * Real.sin θ ^ 2))
      (fun ψ => (V).kpkp - (t * t - (V).kk) * Real.sin ψ ^ 2) (Real.pi / 2) (Or.inr rfl) hkpkp.ne' ha hg (by fun_prop) hne
      (by
        intro r
        have e1 : (V).ysp r - (-(V).kpkp : ℝ) = (V).kpkp + (V).ysp r := by push_cast; ring
        have c0 : ((V).kpkp : ℂ) + (V).ysp r ≠ 0 := by
          have := (hoff r).sub_ne (X := -(V).kpkp) le_rfl (by linarith)
          rw [← e1]; intro h; apply this; linear_combination -h
        have hr := off_ratio1 (hoff r) (D := t * t - (V).kk) hA.le (by linarith)
        rw [e1] at hr
        have := hL.intPi hA.le hAk c0 hr
        rw [hsqk] at this
        simp only [vSP, csqrt_mul_self, mul_assoc]
        rw [← this]
        apply intervalIntegral.integral_congr
        intro θ _
        simp only
        congr 1
        push_cast; ring)
      (by
        rw [intervalIntegral.integral_ofReal, hL.intK hA.le hAk, hsqk]
        simp only [vSP]
        push_cast; ring)
      (by
        have h := hL.intKE hA.le hAk 0 1
        rw [intervalIntegral.integral_congr (g := fun θ : ℝ => ((1 / √((V).kpkp - (t * t - (V).kk) * Real.sin θ ^ 2) *
          (0 + 1 * ((V).kpkp - (t * t - (V).kk) * Real.sin θ ^ 2)) : ℝ) : ℂ)) (fun θ _ => by
            simp only; rw [← ofReal_mul]; congr 2; ring), intervalIntegral.integral_ofReal, h, hsqk]
        simp only [vSP]
        push_cast
        ring)
    rw [zero_add, add_zero, add_im, hdead, zero_add, hW.2.1, ← intervalIntegral.integral_neg]
    refine cov_cos ha0 _ _ ((hg.mul (continuous_im.comp hW.2.2)).neg) (fun θ hθ => ?_)
    have hq := quarter_pos hθ
    rw [(loc θ hθ).2 hd, mul_comm √((V).kpkp - _) (√(t * t - (V).kk) * _), wq2 (mul_pos ha0 hq.1).ne', Real.mul_self_sqrt (hX2 θ).1.le, mul_neg]

end GRT.Lamb
