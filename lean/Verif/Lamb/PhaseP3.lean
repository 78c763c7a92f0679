import Verif.Lamb.PhaseP2

namespace GRT.Lamb

open Complex Set

local notation "cj" => starRingEnd ℂ

variable {nu az t : ℝ}

local notation "V" => mkVars nu az

/-- Sum of a part over the whole path and a part over its beginning. -/
theorem two_parts {F F1 : ℝ → ℝ} {a b I1 I2 : ℝ} (h1 : ∫ p in 0..a, F1 p = I1 ∧ IntervalIntegrable F1 MeasureTheory.volume 0 a)
    (h2 : ∫ p in 0..b, (F p - F1 p) = I2 ∧ IntervalIntegrable (fun p => F p - F1 p) MeasureTheory.volume 0 b) (hba : b ≤ a)
    (h3 : ∀ p ∈ Ioo b a, F p - F1 p = 0) :
    ∫ p in 0..a, F p = I1 + I2 ∧ IntervalIntegrable F MeasureTheory.volume 0 a := by
  have hz := zero_Ioo hba h3
  have hi := h2.2.trans hz.2
  have e : F = fun p => F1 p + (F p - F1 p) := by funext p; ring
  constructor
  · rw [e, intervalIntegral.integral_add h1.2 hi, h1.1, ← intervalIntegral.integral_add_adjacent_intervals h2.2 hz.2, h2.1, hz.1, add_zero]
  · rw [e]; exact h1.2.add hi

theorem sqrt_path {A a s c : ℝ} (ha : 0 < a) (haa : a * a = A) (hs : 0 < s) (hsc : s ^ 2 + c ^ 2 = 1) : √(A - a * c * (a * c)) = a * s := by
  rw [show A - a * c * (a * c) = a * s * (a * s) by
    linear_combination -(s ^ 2 + c ^ 2) * haa + (s ^ 2 + c ^ 2 - 1 + (1 - (s ^ 2 + c ^ 2))) * A - A * hsc + (c ^ 2 * haa + s ^ 2 * haa) * 0]
  exact Real.sqrt_mul_self (by positivity)

theorem wq4 {k s c R Q : ℝ} (hk : k ≠ 0) (hs : s ≠ 0) (hc : c ≠ 0) : k ^ 2 * s * c / R * (Q / (k * s * (k * c))) = 1 / R * Q := by
  rw [one_div_mul_eq_div]; field_simp

set_option maxHeartbeats 4000000 in
theorem phaseP_gt {L : Ell} (hL : L.Exact) (h0 : 0 < nu) (h1 : nu < 1 / 2) (ha : Apart (V).ys) (ht1 : 1 < t) (hk : t * t < (V).kpakpa)
    {i : ℕ} (hi : i < 6) :
    ∫ p in 0..√(t * t - (V).kk), fP (V).kk t i p =
        (buildRaw 1 (V).kpkp (V).ys (ckimP1 V t i) (ckimP2 V t i) (uP V t) (vP L V t)).re ∧
      IntervalIntegrable (fP (V).kk t i) MeasureTheory.volume 0 √(t * t - (V).kk) := by
  have hkr := kk_pos (az := az) h0 h1
  have htk : (V).kk < t * t := by nlinarith
  have hA : 0 < t * t - (V).kk := by linarith
  have hB : 0 < t * t - 1 := by nlinarith
  have hkp := kp_pos (az := az) h0 h1
  have hkp2 := kp_sq (az := az) h0 h1
  have hkk := kpkp_eq (nu := nu) (az := az)
  have hkpkp : 0 < (V).kpkp := by rw [← hkp2]; positivity
  have hAk : (V).kpkp < t * t - (V).kk := by rw [hkk]; nlinarith
  have hoff := off_ys (az := az) h0 h1 (hi := t * t - (V).kk) (by linarith)
  have ha0 := Real.sqrt_pos.mpr hA
  have haa := Real.mul_self_sqrt hA.le
  have hb0 := Real.sqrt_pos.mpr hB
  have hbb := Real.mul_self_sqrt hB.le
  have hba : √(t * t - 1) ≤ √(t * t - (V).kk) := Real.sqrt_le_sqrt (by linarith)
  have hconj := conj_ys (az := az) h0 h1
  have dne : ∀ X : ℝ, 0 ≤ X → X ≤ t * t - (V).kk → den 1 (V).kpkp (V).ys (X : ℂ) ≠ 0 := fun X => den_P_ne h0 h1 hk
  rw [buildRaw_eq _ _ _ _ _ _ _ (nine_zero V t i).1 0]
  -- below and above b
  have low : ∀ ψ ∈ Ioo 0 (Real.pi / 2), _ := fun ψ hψ =>
    have hq := quarter_pos hψ
    have hs2 := Real.sin_sq_le_one ψ
    have hsc := Real.sin_sq_add_cos_sq ψ
    have hp : 0 < t * t - (V).kk - √(t * t - 1) * Real.sin ψ * (√(t * t - 1) * Real.sin ψ) := by
      rw [show √(t * t - 1) * Real.sin ψ * (√(t * t - 1) * Real.sin ψ) = (t * t - 1) * Real.sin ψ ^ 2 by linear_combination Real.sin ψ ^ 2 * hbb]
      nlinarith
    fP_imag (az := az) h0 h1 (x := √(t * t - (V).kk - √(t * t - 1) * Real.sin ψ * (√(t * t - 1) * Real.sin ψ))) (y := √(t * t - 1) * Real.cos ψ)
      (p := √(t * t - 1) * Real.sin ψ) (t := t) (i := i) (Real.sqrt_pos.mpr hp) (mul_pos hb0 hq.2)
      (by rw [Real.mul_self_sqrt hp.le]; ring)
      (by rw [Real.mul_self_sqrt hp.le, hkk]; linear_combination (Real.sin ψ ^ 2 + Real.cos ψ ^ 2) * hbb + (t * t - 1) * hsc)
      (by rw [Real.mul_self_sqrt hp.le]; exact dne _ hp.le (by nlinarith [mul_self_nonneg (√(t * t - 1) * Real.sin ψ)]))
  have high : ∀ p ∈ Ioo √(t * t - 1) √(t * t - (V).kk), _ := fun p hp =>
    have hp0 : 0 < p := lt_trans hb0 hp.1
    have hx : 0 < t * t - (V).kk - p * p := by nlinarith [hp.2]
    have hy : 0 < p * p - (t * t - 1) := by nlinarith [hp.1]
    fP_real (az := az) h0 h1 (x := √(t * t - (V).kk - p * p)) (y := √(p * p - (t * t - 1))) (p := p) (t := t) (i := i)
      (Real.sqrt_pos.mpr hx) (Real.sqrt_pos.mpr hy) (by rw [Real.mul_self_sqrt hx.le]; ring)
      (by rw [Real.mul_self_sqrt hx.le, Real.mul_self_sqrt hy.le, hkk]; ring)
      (by rw [Real.mul_self_sqrt hx.le]; exact dne _ hx.le (by nlinarith [mul_self_nonneg p]))
  rcases diag_or_side hi with hd | hd
  · obtain ⟨a, b, c, e⟩ := class_P_diag V t hd
    rw [b, c, grp_zero, grp_zero]
    have hU := grpU_P h0 h1 ha htk hk (evens (ckimP1 V t i))
    have hsp := grp_split 1 (V).kpkp (V).ys (odds (ckimP2 V t i)) (vP L V t 1) (vP1dead V t)
      (fun c => -(Real.pi / 2 / (csqrt ((t * t - (V).kk : ℝ) - c) * csqrt ((V).kpkp - c)))) (vP L V t 4 ((V).ys 2))
      (0.5 * (Real.log ((√(t * t - (V).kk) + (V).kp) / (√(t * t - (V).kk) - (V).kp)) : ℝ)) (-(Real.pi / 2))
      (vP L V t 6 ((V).ys 2)) (0.25 * ((V).kpkp + (t * t - (V).kk : ℝ)) * (Real.log ((√(t * t - (V).kk) + (V).kp) / (√(t * t - (V).kk) - (V).kp)) : ℝ) -
        0.5 * (V).kp * √(t * t - (V).kk)) (-(Real.pi / 4 * ((V).kpkp + (t * t - (V).kk : ℝ))))
      (fun r => vP1_split L V ht1 _) (by simp only [vP, if_pos ht1]; ring) (by simp only [vP, if_pos ht1]; ring)
    have hdead := grp_imag (sgn := 1) (kpkp := (V).kpkp) (w := vP1dead V t)
      (w3 := 0.5 * (Real.log ((√(t * t - (V).kk) + (V).kp) / (√(t * t - (V).kk) - (V).kp)) : ℝ))
      (w5 := 0.25 * ((V).kpkp + (t * t - (V).kk : ℝ)) * (Real.log ((√(t * t - (V).kk) + (V).kp) / (√(t * t - (V).kk) - (V).kp)) : ℝ) -
        0.5 * (V).kp * √(t * t - (V).kk)) hconj
      (fun r => conj_vP1dead ht1 hkk hkpkp kp_eq (hoff r))
      (by simp only [map_mul, conj_ofReal, half_conj])
      (by simp only [map_mul, conj_ofReal, half_conj, map_sub, map_add]; norm_num [map_div₀, map_ofNat]) e
    have hX : ∀ ψ : ℝ, t * t - (V).kk - √(t * t - 1) * Real.sin ψ * (√(t * t - 1) * Real.sin ψ) = t * t - (V).kk - (t * t - 1) * Real.sin ψ ^ 2 := by
      intro ψ
      linear_combination -Real.sin ψ ^ 2 * hbb
    have hX2 : ∀ ψ : ℝ, 0 ≤ t * t - (V).kk - (t * t - 1) * Real.sin ψ ^ 2 ∧ t * t - (V).kk - (t * t - 1) * Real.sin ψ ^ 2 ≤ t * t - (V).kk := by
      intro ψ
      have := Real.sin_sq_le_one ψ
      have := sq_nonneg (Real.sin ψ)
      constructor <;> nlinarith
    have hW := grp_parts 1 (V).kpkp (V).ys (odds (ckimP2 V t i))
      (fun c => -(Real.pi / 2 / (csqrt ((t * t - (V).kk : ℝ) - c) * csqrt ((V).kpkp - c)))) (-(Real.pi / 2)) (-(Real.pi / 4 * ((V).kpkp + (t * t - (V).kk : ℝ))))
      (fun _ => -1) (fun ψ => t * t - (V).kk - (t * t - 1) * Real.sin ψ ^ 2) (Real.pi / 2) (Or.inl rfl) hkpkp.ne' ha (by fun_prop) (by fun_prop)
      (by
        intro r ψ
        rw [ofReal_one, mul_one]
        exact (hoff r).ne (hX2 ψ).1 (hX2 ψ).2)
      (by
        intro r
        have cA : ((t * t - (V).kk : ℝ) : ℂ) - (V).ys r ≠ 0 := (hoff r).sub_ne hA.le le_rfl
        have cB : (((V).kpkp : ℝ) : ℂ) - (V).ys r ≠ 0 := (hoff r).sub_ne hkpkp.le hAk.le
        have hq := int_quarter cA cB ((hoff r).div hkpkp.le hAk.le hA.le le_rfl)
        rw [csqrt_div_off (hoff r) hkpkp.le hAk.le hA.le le_rfl] at hq
        have hsq := csqrt_mul_self (((V).kpkp : ℝ) - (V).ys r)
        have s1 := csqrt_ne cA
        have s2 := csqrt_ne cB
        simp only [ofReal_one, mul_one]
        rw [show (Real.pi : ℂ) / 2 / (csqrt ((t * t - (V).kk : ℝ) - (V).ys r) * csqrt ((V).kpkp - (V).ys r)) =
          Real.pi / 2 / ((V).kpkp - (V).ys r) * (csqrt ((V).kpkp - (V).ys r) / csqrt ((t * t - (V).kk : ℝ) - (V).ys r)) by
            generalize csqrt (((V).kpkp : ℝ) - (V).ys r) = s at *
            rw [← hsq]; field_simp, ← hq, ← intervalIntegral.integral_neg]
        apply intervalIntegral.integral_congr
        intro θ _
        simp only
        have h : (Real.cos θ : ℂ) ^ 2 = 1 - (Real.sin θ : ℂ) ^ 2 := by
          rw [← ofReal_pow, ← ofReal_pow, Real.cos_sq', ofReal_sub, ofReal_one, ofReal_pow]
        rw [h, ← neg_div, ofReal_neg, ofReal_one, hkk]
        congr 1
        simp only [ofReal_sub, ofReal_mul, ofReal_pow, ofReal_one]; ring)
      (by simp)
      (by
        rw [intervalIntegral.integral_congr (g := fun ψ : ℝ => ((-(t * t - (V).kk) + (t * t - 1) * Real.sin ψ ^ 2 : ℝ) : ℂ))
          (fun ψ _ => by simp only; rw [← ofReal_mul]; congr 1; ring), intervalIntegral.integral_ofReal,
          intervalIntegral.integral_add (by simp) (Continuous.intervalIntegrable (by fun_prop) _ _), intervalIntegral.integral_const_mul, int_sin2, hkk]
        simp only [intervalIntegral.integral_const, smul_eq_mul, sub_zero]
        push_cast; ring)
    rw [add_zero, zero_add, hsp, add_re, add_re, hdead, zero_add, I_mul_re, hU.1, hW.2.1]
    refine two_parts (F1 := fun p => (quart (evens (ckimP1 V t i)) ((t * t - (V).kk - p * p : ℝ) : ℂ) /
      den 1 (V).kpkp (V).ys ((t * t - (V).kk - p * p : ℝ) : ℂ)).re / √(t * t - (V).kk - p * p)) (b := √(t * t - 1)) ?_ ?_ hba ?_
    · refine cov_cos ha0 _ _ (continuous_re.comp hU.2) (fun θ hθ => ?_)
      have hq := quarter_pos hθ
      have hsc := Real.sin_sq_add_cos_sq θ
      rw [sqrt_path ha0 haa hq.1 hsc, wq (mul_pos ha0 hq.1).ne',
        show t * t - (V).kk - √(t * t - (V).kk) * Real.cos θ * (√(t * t - (V).kk) * Real.cos θ) = (t * t - (V).kk) * Real.sin θ ^ 2 by
          linear_combination -Real.cos θ ^ 2 * haa - (t * t - (V).kk) * hsc]
    · rw [← intervalIntegral.integral_neg]
      refine cov_sin hb0 _ _ ((continuous_const.mul (continuous_im.comp hW.2.2)).neg) (fun ψ hψ => ?_)
      have hq := quarter_pos hψ
      have hp : 0 ≤ t * t - (V).kk - √(t * t - 1) * Real.sin ψ * (√(t * t - 1) * Real.sin ψ) := by rw [hX]; exact (hX2 ψ).1
      rw [(low ψ hψ).1 hd, Real.mul_self_sqrt hp, add_sub_cancel_left, wq (mul_pos hb0 hq.2).ne', hX]
      simp
    · intro p hp
      have hp0 : 0 < p := lt_trans hb0 hp.1
      have hx : 0 < t * t - (V).kk - p * p := by nlinarith [hp.2]
      rw [(high p hp).1 hd, Real.mul_self_sqrt hx.le, sub_self]
  · obtain ⟨a, b, c, e⟩ := class_P_side V t hd
    rw [a, e, grp_zero, grp_zero]
    have hdead := grp_imag (sgn := 1) (kpkp := (V).kpkp) (w := uP V t 1) (w3 := uP V t 4 ((V).ys 2)) (w5 := 0) hconj
      (fun r => conj_uP1 V hA.le (hoff r)) (by simp only [uP, conj_ofReal]) (by simp) b
    have hsp := grp_split 1 (V).kpkp (V).ys (evens (ckimP2 V t i)) (vP L V t 2)
      (fun c => -1 / (√(t * t - (V).kk) * c) * L.Pi ((V).kpkp / c) ((V).kpkp / (t * t - (V).kk)))
      (fun c => -1 / (√(t * t - (V).kk) * ((t * t - (V).kk : ℝ) - c)) * L.Pi ((t * t - 1 : ℝ) / ((t * t - (V).kk : ℝ) - c)) ((t * t - 1) / (t * t - (V).kk)))
      (vP L V t 3 ((V).ys 2)) (1 / √(t * t - (V).kk) * L.K ((V).kpkp / (t * t - (V).kk))) (-(1 / √(t * t - (V).kk) * L.K ((t * t - 1) / (t * t - (V).kk))))
      (vP L V t 5 ((V).ys 2)) (-√(t * t - (V).kk) * (L.E ((V).kpkp / (t * t - (V).kk)) - L.K ((V).kpkp / (t * t - (V).kk))))
      (-√(t * t - (V).kk) * L.E ((t * t - 1) / (t * t - (V).kk)))
      (by
        intro r
        have c0 : (V).ys r ≠ 0 := by
          have := (hoff r).ne (X := 0) le_rfl hA.le
          intro h; apply this; simp [h]
        have cA : ((t * t - (V).kk : ℝ) : ℂ) - (V).ys r ≠ 0 := (hoff r).sub_ne hA.le le_rfl
        have a0 : ((√(t * t - (V).kk) : ℝ) : ℂ) ≠ 0 := by exact_mod_cast ha0.ne'
        simp only [vP, if_pos ht1, csqrt_mul_self]
        generalize ((√(t * t - (V).kk) : ℝ) : ℂ) = A at *
        generalize ((t * t - (V).kk : ℝ) : ℂ) - (V).ys r = B at *
        generalize L.Pi _ _ = P1
        generalize L.Pi _ _ = P2
        field_simp
        ring)
      (by simp only [vP, if_pos ht1]; ring) (by simp only [vP, if_pos ht1]; ring)
    have hdead2 := grp_real (sgn := 1) (kpkp := (V).kpkp) (e := evens (ckimP2 V t i))
      (w := fun c => -1 / (√(t * t - (V).kk) * ((t * t - (V).kk : ℝ) - c)) * L.Pi ((t * t - 1 : ℝ) / ((t * t - (V).kk : ℝ) - c)) ((t * t - 1) / (t * t - (V).kk)))
      (w3 := (-(1 / √(t * t - (V).kk) * L.K ((t * t - 1) / (t * t - (V).kk))))) (w5 := (-√(t * t - (V).kk) * L.E ((t * t - 1) / (t * t - (V).kk)))) hconj
      (by
        intro r
        have := hL.conjPi (n := (t * t - 1 : ℝ) / ((t * t - (V).kk : ℝ) - (V).ys r)) (m := (t * t - 1) / (t * t - (V).kk)) (by positivity)
          (by rw [div_lt_one hA]; linarith) (off_ratio2 (hoff r) hB.le (by linarith))
        simp only [map_mul, map_div₀, map_neg, map_one, conj_ofReal, map_sub, this])
      (by simp only [map_neg, map_mul, map_div₀, map_one, conj_ofReal]) (by simp only [map_neg, map_mul, conj_ofReal]) c
    have hg : Continuous fun θ : ℝ => 1 / √((t * t - (V).kk) - (V).kpkp * Real.sin θ ^ 2) := ell_cont hkpkp.le hAk
    have hW := grp_parts 1 (V).kpkp (V).ys (evens (ckimP2 V t i))
      (fun c => -1 / (√(t * t - (V).kk) * c) * L.Pi ((V).kpkp / c) ((V).kpkp / (t * t - (V).kk)))
      (1 / √(t * t - (V).kk) * L.K ((V).kpkp / (t * t - (V).kk)))
      (-√(t * t - (V).kk) * (L.E ((V).kpkp / (t * t - (V).kk)) - L.K ((V).kpkp / (t * t - (V).kk))))
      (fun θ => 1 / √((t * t - (V).kk) - (V).kpkp * Real.sin θ ^ 2))
      (fun θ => (V).kpkp * Real.sin θ ^ 2) (Real.pi / 2) (Or.inl rfl) hkpkp.ne' ha hg (by fun_prop)
      (by
        intro r θ
        rw [ofReal_one, mul_one]
        exact (hoff r).ne (by positivity) (by have := Real.sin_sq_le_one θ; nlinarith))
      (by
        intro r
        have c0 : (V).ys r ≠ 0 := by
          have := (hoff r).ne (X := 0) le_rfl hA.le
          intro h; apply this; simp [h]
        have hr := off_ratio1 (hoff r) hkpkp.le (by linarith)
        rw [ofReal_zero, sub_zero] at hr
        have := hL.intPi hkpkp.le hAk c0 hr
        simp only [ofReal_one, mul_one]
        rw [neg_div, neg_mul]
        rw [← this, ← intervalIntegral.integral_neg]
        apply intervalIntegral.integral_congr
        intro θ _
        simp only
        rw [← div_neg]
        congr 1
        push_cast; ring)
      (by
        rw [intervalIntegral.integral_ofReal, hL.intK hkpkp.le hAk]
        push_cast; ring)
      (by
        have h := hL.intKE hkpkp.le hAk (t * t - (V).kk) (-1)
        rw [intervalIntegral.integral_congr (g := fun θ : ℝ => ((1 / √((t * t - (V).kk) - (V).kpkp * Real.sin θ ^ 2) *
          ((t * t - (V).kk) + -1 * ((t * t - (V).kk) - (V).kpkp * Real.sin θ ^ 2)) : ℝ) : ℂ)) (fun θ _ => by
            simp only; rw [← ofReal_mul]; congr 2; ring), intervalIntegral.integral_ofReal, h]
        have k2 : (t * t - (V).kk) * (1 / √(t * t - (V).kk)) = √(t * t - (V).kk) := by
          rw [mul_one_div, div_eq_iff ha0.ne']; exact haa.symm
        rw [← mul_assoc, k2]
        push_cast
        ring)
    rw [zero_add, add_zero, add_re, hdead, zero_add, hsp, add_re, I_mul_re, hdead2, neg_zero, add_zero, hW.1]
    have hz := zero_Ioo (F := fP (V).kk t i) hb0.le (fun p hp => by
      obtain ⟨ψ, hψ, rfl⟩ : ∃ ψ ∈ Ioo 0 (Real.pi / 2), √(t * t - 1) * Real.sin ψ = p := by
        refine ⟨Real.arcsin (p / √(t * t - 1)), ⟨?_, ?_⟩, ?_⟩
        · rw [Real.arcsin_pos]; exact div_pos hp.1 hb0
        · rw [Real.arcsin_lt_pi_div_two, div_lt_one hb0]; exact hp.2
        · rw [Real.sin_arcsin (by have := div_pos hp.1 hb0; linarith) (by rw [div_le_one hb0]; exact hp.2.le)]
          exact wq hb0.ne'
      exact (low ψ hψ).2 hd)
    have hc := cov_ell (b := √(t * t - 1)) (a := √(t * t - (V).kk)) (k := (V).kp) hb0 ha0 hkp
      (by rw [pow_two, pow_two, haa, hbb, hkp2, hkk]; ring) (fP (V).kk t i) _ (hg.mul (continuous_re.comp hW.2.2)) (fun θ hθ => by
        have hq := quarter_pos hθ
        have hsc := Real.sin_sq_add_cos_sq θ
        have e1 : √(t * t - (V).kk) ^ 2 - (V).kp ^ 2 * Real.sin θ ^ 2 = t * t - (V).kk - (V).kpkp * Real.sin θ ^ 2 := by
          rw [pow_two √(t * t - (V).kk), haa, hkp2]
        rw [e1]
        have hpp : 0 < t * t - (V).kk - (V).kpkp * Real.sin θ ^ 2 := ell_pos hkpkp.le hAk θ
        have hr := Real.sqrt_pos.mpr hpp
        have hrr := Real.mul_self_sqrt hpp.le
        have hrange : √(t * t - (V).kk - (V).kpkp * Real.sin θ ^ 2) ∈ Ioo √(t * t - 1) √(t * t - (V).kk) := by
          constructor
          · apply Real.sqrt_lt_sqrt hB.le
            have : 0 < (V).kpkp * Real.cos θ ^ 2 := by have := hq.2; positivity
            nlinarith
          · apply Real.sqrt_lt_sqrt hpp.le
            have : 0 < (V).kpkp * Real.sin θ ^ 2 := by have := hq.1; positivity
            linarith
        rw [(high _ hrange).2 hd, hrr]
        have ex : t * t - (V).kk - (t * t - (V).kk - (V).kpkp * Real.sin θ ^ 2) = (V).kp * Real.sin θ * ((V).kp * Real.sin θ) := by
          rw [← hkp2]; ring
        have ey : t * t - (V).kk - (V).kpkp * Real.sin θ ^ 2 - (t * t - 1) = (V).kp * Real.cos θ * ((V).kp * Real.cos θ) := by
          rw [show t * t - (V).kk - (V).kpkp * Real.sin θ ^ 2 - (t * t - 1) = (V).kpkp * (1 - Real.sin θ ^ 2) by rw [hkk]; ring, ← hkp2]
          linear_combination -(V).kp ^ 2 * hsc
        have hks : 0 < (V).kp * Real.sin θ := mul_pos hkp hq.1
        have hkc : 0 < (V).kp * Real.cos θ := mul_pos hkp hq.2
        rw [ex, ey, Real.sqrt_mul_self hks.le, Real.sqrt_mul_self hkc.le,
          show (V).kp * Real.sin θ * ((V).kp * Real.sin θ) = (V).kpkp * Real.sin θ ^ 2 by rw [← hkp2]; ring]
        exact wq4 hkp.ne' hq.1.ne' hq.2.ne')
    refine ⟨?_, hz.2.trans hc.2⟩
    rw [← intervalIntegral.integral_add_adjacent_intervals hz.2 hc.2, hz.1, zero_add, hc.1]
    rfl

end GRT.Lamb
