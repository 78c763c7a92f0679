import Verif.Lamb.After2

/-! The P part after the Rayleigh arrival. -/

namespace GRT.Lamb

open Complex Set

local notation "cj" => starRingEnd ℂ

variable {nu az t : ℝ}

local notation "V" => mkVars nu az

theorem arctan_path {b p : ℝ} (hb0 : 0 < b) (hp : p ∈ Ioo 0 b) : ∃ ψ ∈ Ioo 0 (Real.pi / 2), b * Real.sin ψ = p := by
  refine ⟨Real.arcsin (p / b), ⟨?_, ?_⟩, ?_⟩
  · rw [Real.arcsin_pos]; exact div_pos hp.1 hb0
  · rw [Real.arcsin_lt_pi_div_two, div_lt_one hb0]; exact hp.2
  · rw [Real.sin_arcsin (by have := div_pos hp.1 hb0; linarith) (by rw [div_le_one hb0]; exact hp.2.le)]
    exact wq hb0.ne'

open Classical in
/-- `V_P(1)` at the third root is real. -/
theorem vP1_real (L : Ell) (W : Vars) (ht1 : 1 < t) {c : ℝ} (h1 : W.kpkp < c) (h2 : c < t * t - W.kk) : cj (vP L W t 1 c) = vP L W t 1 c := by
  have hc : ¬((c : ℂ).im = 0 ∧ ((c : ℂ).re > t * t - W.kk ∨ (c : ℂ).re < W.kpkp)) := by
    rintro ⟨-, h | h⟩ <;> rw [ofReal_re] at h <;> linarith
  simp only [vP, if_pos ht1, if_neg hc]
  have e1 : csqrt (((t * t - W.kk : ℝ) : ℂ) - c) = (√(t * t - W.kk - c) : ℝ) := by rw [← ofReal_sub, csqrt_real (by linarith)]
  have e2 : csqrt ((W.kpkp : ℂ) - c) = I * (√(c - W.kpkp) : ℝ) := by
    rw [← ofReal_sub, show W.kpkp - c = -(c - W.kpkp) by ring, csqrt_neg_real (by linarith)]
  have p2 : (√(c - W.kpkp) : ℂ) ≠ 0 := by exact_mod_cast (Real.sqrt_pos.mpr (by linarith)).ne'
  rw [e1, e2]
  have hI := I_ne_zero
  have e3 : I * (W.kp : ℂ) * (√(t * t - W.kk - c) : ℝ) / ((√(t * t - W.kk) : ℝ) * (I * (√(c - W.kpkp) : ℝ))) =
      ((W.kp * √(t * t - W.kk - c) / (√(t * t - W.kk) * √(c - W.kpkp)) : ℝ) : ℂ) := by
    push_cast
    rw [show I * (W.kp : ℂ) * (√(t * t - W.kk - c) : ℝ) = I * (W.kp * (√(t * t - W.kk - c) : ℝ)) by ring,
      show (√(t * t - W.kk) : ℂ) * (I * √(c - W.kpkp)) = I * (√(t * t - W.kk) * √(c - W.kpkp)) by ring, mul_div_mul_left _ _ hI]
  have e4 : -I / ((√(t * t - W.kk - c) : ℝ) * (I * (√(c - W.kpkp) : ℝ)) : ℂ) = ((-1 / (√(t * t - W.kk - c) * √(c - W.kpkp)) : ℝ) : ℂ) := by
    push_cast
    rw [show ((√(t * t - W.kk - c) : ℝ) : ℂ) * (I * (√(c - W.kpkp) : ℝ)) = I * ((√(t * t - W.kk - c) : ℝ) * (√(c - W.kpkp) : ℝ)) by ring,
      show -I = I * -1 by ring, mul_div_mul_left _ _ hI]
  rw [e3, e4, ← ofReal_arctan]
  simp only [map_mul, map_add, conj_ofReal, half_conj]

open Classical in
theorem uP1_real (W : Vars) {c : ℝ} (h2 : c < t * t - W.kk) : cj (uP W t 1 c) = uP W t 1 c := by
  have hc : ((c : ℂ).im = 0 ∧ (c : ℂ).re < t * t - W.kk) := ⟨ofReal_im c, by rwa [ofReal_re]⟩
  simp only [uP, if_pos hc]
  have e1 : csqrt (((t * t - W.kk : ℝ) : ℂ) - c) = (√(t * t - W.kk - c) : ℝ) := by rw [← ofReal_sub, csqrt_real (by linarith)]
  rw [e1]
  simp only [map_mul, map_div₀, conj_ofReal, half_conj]

open Classical in
theorem uP2_zero (W : Vars) {c : ℝ} (h0 : 0 < c) (h2 : c < t * t - W.kk) : uP W t 2 c = 0 := by
  have hc : ((c : ℂ).im = 0 ∧ (c : ℂ).re < t * t - W.kk ∧ (c : ℂ).re > 0) := ⟨ofReal_im c, by rwa [ofReal_re], by rwa [ofReal_re]⟩
  simp only [uP, if_pos hc]

open Classical in
set_option maxHeartbeats 4000000 in
theorem phaseP_after {L : Ell} (hL : L.Exact) (h0 : 0 < nu) (h1 : nu < 1 / 2) (ha : Apart (V).ys) (ht1 : 1 < t) (hk : (V).kpakpa < t * t)
    {i : ℕ} (hi : i < 6) :
    HasPV (fP (V).kk t i) 0 √(t * t - (V).kpakpa) √(t * t - (V).kk)
        (buildRaw 1 (V).kpkp (V).ys (ckimP1 V t i) (ckimP2 V t i) (uP V t) (vP L V t)).re := by
  have hkr := kk_pos (az := az) h0 h1
  obtain ⟨hka1, hy2, -⟩ := ys_facts (az := az) h0 h1
  have htk : (V).kk < t * t := by nlinarith
  have hA : 0 < t * t - (V).kk := by linarith
  have hB : 0 < t * t - 1 := by nlinarith
  have hkp := kp_pos (az := az) h0 h1
  have hkp2 := kp_sq (az := az) h0 h1
  have hkk := kpkp_eq (nu := nu) (az := az)
  have hkpkp : 0 < (V).kpkp := by rw [← hkp2]; positivity
  have hAk : (V).kpkp < t * t - (V).kk := by rw [hkk]; nlinarith
  have hoff : ∀ r ≠ (2 : Fin 3), Off ((V).ys r) 0 (t * t - (V).kk) := fun r hr => off_ys01 h0 h1 _ hr
  have ha0 := Real.sqrt_pos.mpr hA
  have haa := Real.mul_self_sqrt hA.le
  have hb0 := Real.sqrt_pos.mpr hB
  have hbb := Real.mul_self_sqrt hB.le
  have hba : √(t * t - 1) ≤ √(t * t - (V).kk) := Real.sqrt_le_sqrt (by linarith)
  have hconj := conj_ys (az := az) h0 h1
  obtain ⟨hq0, hqq⟩ := pole_pos (az := az) hk
  have hqb : √(t * t - (V).kpakpa) < √(t * t - 1) := Real.sqrt_lt_sqrt (by linarith) (by linarith)
  generalize √(t * t - (V).kpakpa) = q at *
  have hqa : q < √(t * t - (V).kk) := lt_of_lt_of_le hqb hba
  have hpq : ∀ p : ℝ, 0 < p → p ≠ q → p * p ≠ q * q := by
    intro p hp hne h
    exact hne ((mul_self_inj hp.le hq0.le).mp h)
  rw [buildRaw_eq _ _ _ _ _ _ _ (nine_zero V t i).1 0]
  -- below and above b
  have low : ∀ p ∈ Ioo 0 √(t * t - 1), p ≠ q → _ := fun p hp hne =>
    have hp2 : p * p < t * t - 1 := by nlinarith [hp.1, hp.2]
    have hx : 0 < t * t - (V).kk - p * p := by linarith
    have hy : 0 < t * t - 1 - p * p := by linarith
    fP_imag (az := az) h0 h1 (x := √(t * t - (V).kk - p * p)) (y := √(t * t - 1 - p * p)) (p := p) (t := t) (i := i)
      (Real.sqrt_pos.mpr hx) (Real.sqrt_pos.mpr hy) (by rw [Real.mul_self_sqrt hx.le]; ring)
      (by rw [Real.mul_self_sqrt hx.le, Real.mul_self_sqrt hy.le, hkk]; ring)
      (by rw [Real.mul_self_sqrt hx.le]; exact (reg_P h0 h1 ha 0 hqq (hpq p hp.1 hne) (by linarith)).1)
  have high : ∀ p ∈ Ioo √(t * t - 1) √(t * t - (V).kk), _ := fun p hp =>
    have hp0 : 0 < p := lt_trans hb0 hp.1
    have hx : 0 < t * t - (V).kk - p * p := by nlinarith [hp.2]
    have hy : 0 < p * p - (t * t - 1) := by nlinarith [hp.1]
    fP_real (az := az) h0 h1 (x := √(t * t - (V).kk - p * p)) (y := √(p * p - (t * t - 1))) (p := p) (t := t) (i := i)
      (Real.sqrt_pos.mpr hx) (Real.sqrt_pos.mpr hy) (by rw [Real.mul_self_sqrt hx.le]; ring)
      (by rw [Real.mul_self_sqrt hx.le, Real.mul_self_sqrt hy.le, hkk]; ring)
      (by rw [Real.mul_self_sqrt hx.le]; exact (reg_P h0 h1 ha 0 hqq (hpq p hp0 (hqb.trans hp.1).ne') (by linarith)).1)
  rcases diag_or_side hi with hd | hd
  · obtain ⟨a, b, c, e⟩ := class_P_diag V t hd
    rw [b, c, grp_zero, grp_zero]
    have hU := grp_reg (V).kpkp (V).ys (evens (ckimP1 V t i)) (uP V t 2) (uP V t 3 ((V).ys 2)) (uP V t 5 ((V).ys 2)) (fun _ => 1)
      (fun θ => (t * t - (V).kk) * Real.sin θ ^ 2) (Real.pi / 2) (by fun_prop) (by fun_prop)
      (by
        intro r hr θ
        exact (hoff r hr).ne (by positivity) (by have := Real.sin_sq_le_one θ; nlinarith))
      (by
        intro r hr
        have hc : ¬(((V).ys r).im = 0 ∧ ((V).ys r).re < t * t - (V).kk ∧ ((V).ys r).re > 0) := by
          rintro ⟨i1, i2, i3⟩
          rcases hoff r hr with h | h | h
          · exact h i1
          · linarith
          · linarith
        simp only [uP, if_neg hc, ofReal_one]
        rw [int_U2 hA (hoff r hr)])
      (by simp [uP]; ring)
      (by
        rw [intervalIntegral.integral_congr (g := fun θ : ℝ => (((t * t - (V).kk) * Real.sin θ ^ 2 : ℝ) : ℂ)) (fun θ _ => by simp),
          intervalIntegral.integral_ofReal, intervalIntegral.integral_const_mul, int_sin2]
        simp only [uP]
        push_cast; ring)
    have hU2 : uP V t 2 ((V).ys 2) = 0 := by rw [hy2]; exact uP2_zero V (by linarith) (by linarith)
    rw [hU2, mul_zero, zero_re, zero_im] at hU
    have hsp := grp_split 1 (V).kpkp (V).ys (odds (ckimP2 V t i)) (vP L V t 1)
      (fun c => if c = (V).ys 2 then vP L V t 1 c else vP1dead V t c)
      (fun c => if c = (V).ys 2 then 0 else -(Real.pi / 2 / (csqrt ((t * t - (V).kk : ℝ) - c) * csqrt ((V).kpkp - c)))) (vP L V t 4 ((V).ys 2))
      (0.5 * (Real.log ((√(t * t - (V).kk) + (V).kp) / (√(t * t - (V).kk) - (V).kp)) : ℝ)) (-(Real.pi / 2))
      (vP L V t 6 ((V).ys 2)) (0.25 * ((V).kpkp + (t * t - (V).kk : ℝ)) * (Real.log ((√(t * t - (V).kk) + (V).kp) / (√(t * t - (V).kk) - (V).kp)) : ℝ) -
        0.5 * (V).kp * √(t * t - (V).kk)) (-(Real.pi / 4 * ((V).kpkp + (t * t - (V).kk : ℝ))))
      (fun r => by
        by_cases h : (V).ys r = (V).ys 2
        · simp only [if_pos h, mul_zero, add_zero]
        · simp only [if_neg h]; exact vP1_split L V ht1 _) (by simp only [vP, if_pos ht1]; ring) (by simp only [vP, if_pos ht1]; ring)
    have hdead := grp_imag (sgn := 1) (kpkp := (V).kpkp) (w := fun c => if c = (V).ys 2 then vP L V t 1 c else vP1dead V t c)
      (w3 := 0.5 * (Real.log ((√(t * t - (V).kk) + (V).kp) / (√(t * t - (V).kk) - (V).kp)) : ℝ))
      (w5 := 0.25 * ((V).kpkp + (t * t - (V).kk : ℝ)) * (Real.log ((√(t * t - (V).kk) + (V).kp) / (√(t * t - (V).kk) - (V).kp)) : ℝ) -
        0.5 * (V).kp * √(t * t - (V).kk)) hconj
      (conj_patch (w := fun c => if c = (V).ys 2 then vP L V t 1 c else vP1dead V t c) h0 h1 ha (by
          simp only [if_true]
          rw [hy2]; exact vP1_real L V ht1 (by rw [hkk]; linarith) (by linarith)) (fun r hr => by
          have hne : (V).ys r ≠ (V).ys 2 := by
            fin_cases r
            exacts [ha.2.1, ha.2.2, absurd rfl hr]
          simp only [if_neg hne, if_neg (conj_ys_ne h0 h1 hne)]
          exact conj_vP1dead ht1 hkk hkpkp kp_eq (hoff r hr)))
      (by simp only [map_mul, conj_ofReal, half_conj])
      (by simp only [map_mul, conj_ofReal, half_conj, map_sub, map_add]; norm_num [map_div₀, map_ofNat]) e
    have hX : ∀ ψ : ℝ, t * t - (V).kk - √(t * t - 1) * Real.sin ψ * (√(t * t - 1) * Real.sin ψ) = t * t - (V).kk - (t * t - 1) * Real.sin ψ ^ 2 := by
      intro ψ
      linear_combination -Real.sin ψ ^ 2 * hbb
    have hX2 : ∀ ψ : ℝ, 0 ≤ t * t - (V).kk - (t * t - 1) * Real.sin ψ ^ 2 ∧ t * t - (V).kk - (t * t - 1) * Real.sin ψ ^ 2 ≤ t * t - (V).kk := by
      intro ψ
      have := Real.sin_sq_le_one ψ
      have := sq_nonneg (Real.sin ψ)
      constructor <;> nlinarith
    have hW := grp_reg (V).kpkp (V).ys (odds (ckimP2 V t i))
      (fun c => if c = (V).ys 2 then 0 else -(Real.pi / 2 / (csqrt ((t * t - (V).kk : ℝ) - c) * csqrt ((V).kpkp - c)))) (-(Real.pi / 2))
      (-(Real.pi / 4 * ((V).kpkp + (t * t - (V).kk : ℝ))))
      (fun _ => -1) (fun ψ => t * t - (V).kk - (t * t - 1) * Real.sin ψ ^ 2) (Real.pi / 2) (by fun_prop) (by fun_prop)
      (fun r hr ψ => (hoff r hr).ne (hX2 ψ).1 (hX2 ψ).2)
      (by
        intro r hr
        have hne : (V).ys r ≠ (V).ys 2 := by
          fin_cases r
          exacts [ha.2.1, ha.2.2, absurd rfl hr]
        have cA : ((t * t - (V).kk : ℝ) : ℂ) - (V).ys r ≠ 0 := (hoff r hr).sub_ne hA.le le_rfl
        have cB : (((V).kpkp : ℝ) : ℂ) - (V).ys r ≠ 0 := (hoff r hr).sub_ne hkpkp.le hAk.le
        have hq := int_quarter cA cB ((hoff r hr).div hkpkp.le hAk.le hA.le le_rfl)
        rw [csqrt_div_off (hoff r hr) hkpkp.le hAk.le hA.le le_rfl] at hq
        have hsq := csqrt_mul_self (((V).kpkp : ℝ) - (V).ys r)
        have s1 := csqrt_ne cA
        have s2 := csqrt_ne cB
        simp only [if_neg hne]
        rw [show (Real.pi : ℂ) / 2 / (csqrt ((t * t - (V).kk : ℝ) - (V).ys r) * csqrt ((V).kpkp - (V).ys r)) =
          Real.pi / 2 / ((V).kpkp - (V).ys r) * (csqrt ((V).kpkp - (V).ys r) / csqrt ((t * t - (V).kk : ℝ) - (V).ys r)) by
            generalize csqrt (((V).kpkp : ℝ) - (V).ys r) = s at *
            rw [← hsq]; field_simp, ← hq, ← intervalIntegral.integral_neg]
        apply intervalIntegral.integral_congr
        intro θ _
        simp only
        have h : (Real.cos θ : ℂ) ^ 2 = 1 - (Real.sin θ : ℂ) ^ 2 := by
          rw [← ofReal_pow, ← ofReal_pow, Real.cos_sq', ofReal_sub, ofReal_one, ofReal_pow]
        rw [h, ← neg_div, ofReal_neg, ofReal_one, hkk]
        congr 1
        simp only [ofReal_sub, ofReal_mul, ofReal_pow, ofReal_one]; ring)
      (by simp)
      (by
        rw [intervalIntegral.integral_congr (g := fun ψ : ℝ => ((-(t * t - (V).kk) + (t * t - 1) * Real.sin ψ ^ 2 : ℝ) : ℂ))
          (fun ψ _ => by simp only; rw [← ofReal_mul]; congr 1; ring), intervalIntegral.integral_ofReal,
          intervalIntegral.integral_add (by simp) (Continuous.intervalIntegrable (by fun_prop) _ _), intervalIntegral.integral_const_mul, int_sin2, hkk]
        simp only [intervalIntegral.integral_const, smul_eq_mul, sub_zero]
        push_cast; ring)
    simp only [if_true, mul_zero, zero_re, zero_im, add_zero] at hW
    rw [add_zero, zero_add, hsp, add_re, add_re, hdead, zero_add, I_mul_re, hU.1, hW.2.1, add_zero]
    -- the first part, over the whole path
    set E := evens (ckimP1 V t i)
    set O := odds (ckimP2 V t i)
    have r1 := cov_cos ha0 (fun p => (regQ (V).kpkp (V).ys E ((t * t - (V).kk - p * p : ℝ) : ℂ)).re / √(t * t - (V).kk - p * p))
      (fun θ => 1 * (regQ (V).kpkp (V).ys E (((t * t - (V).kk) * Real.sin θ ^ 2 : ℝ) : ℂ)).re)
      (continuous_const.mul (continuous_re.comp hU.2.2)) (fun θ hθ => by
        have hq := quarter_pos hθ
        have hsc := Real.sin_sq_add_cos_sq θ
        rw [sqrt_path ha0 haa hq.1 hsc, wq (mul_pos ha0 hq.1).ne', one_mul,
          show t * t - (V).kk - √(t * t - (V).kk) * Real.cos θ * (√(t * t - (V).kk) * Real.cos θ) = (t * t - (V).kk) * Real.sin θ ^ 2 by
            linear_combination -Real.cos θ ^ 2 * haa - (t * t - (V).kk) * hsc])
    have p1 := pv_base_zero hq0 hqa
    rw [haa] at p1
    have P1 := (HasPV.of_integrable hq0 hqa r1.2).add (p1.const_mul (resQ (V).kpkp (V).ys E).re)
    rw [r1.1, mul_zero, add_zero] at P1
    -- the second, over its beginning
    have r2 := cov_sin hb0 (fun p => (regQ (V).kpkp (V).ys O ((t * t - (V).kk - p * p : ℝ) : ℂ)).im / √(t * t - 1 - p * p))
      (fun ψ => -(-1 * (regQ (V).kpkp (V).ys O ((t * t - (V).kk - (t * t - 1) * Real.sin ψ ^ 2 : ℝ) : ℂ)).im))
      ((continuous_const.mul (continuous_im.comp hW.2.2)).neg) (fun ψ hψ => by
        have hq := quarter_pos hψ
        have hsc := Real.sin_sq_add_cos_sq ψ
        rw [sqrt_path hb0 hbb hq.2 (by linarith), wq (mul_pos hb0 hq.2).ne', hX]
        ring)
    have p2 := pv_base_zero hq0 hqb
    rw [hbb] at p2
    have P2 := (HasPV.of_integrable hq0 hqb r2.2).add (p2.const_mul (resQ (V).kpkp (V).ys O).im)
    rw [r2.1, mul_zero, add_zero, intervalIntegral.integral_neg] at P2
    have parts : ∀ (e : Fin 5 → ℂ) (p : ℝ), 0 < p → p ≠ q → p * p < t * t - (V).kk →
        (quart e ((t * t - (V).kk - p * p : ℝ) : ℂ) / den 1 (V).kpkp (V).ys ((t * t - (V).kk - p * p : ℝ) : ℂ)).re =
          (regQ (V).kpkp (V).ys e ((t * t - (V).kk - p * p : ℝ) : ℂ)).re + 1 / (q * q - p * p) * (resQ (V).kpkp (V).ys e).re ∧
        (quart e ((t * t - (V).kk - p * p : ℝ) : ℂ) / den 1 (V).kpkp (V).ys ((t * t - (V).kk - p * p : ℝ) : ℂ)).im =
          (regQ (V).kpkp (V).ys e ((t * t - (V).kk - p * p : ℝ) : ℂ)).im + 1 / (q * q - p * p) * (resQ (V).kpkp (V).ys e).im := by
      intro e p hp hne hpa
      have := (reg_P h0 h1 ha e hqq (hpq p hp hne) hpa.le).2
      rw [this, add_re, add_im, re_ofReal_mul, im_ofReal_mul]
      exact ⟨rfl, rfl⟩
    set F1 : ℝ → ℝ := fun p => (regQ (V).kpkp (V).ys E ((t * t - (V).kk - p * p : ℝ) : ℂ)).re / √(t * t - (V).kk - p * p) +
      (resQ (V).kpkp (V).ys E).re * (1 / (√(t * t - (V).kk - p * p) * (q * q - p * p))) with hF1
    have eF1 : ∀ p, 0 < p → p ≠ q → p * p < t * t - (V).kk → F1 p =
        (quart E ((t * t - (V).kk - p * p : ℝ) : ℂ) / den 1 (V).kpkp (V).ys ((t * t - (V).kk - p * p : ℝ) : ℂ)).re / √(t * t - (V).kk - p * p) := by
      intro p hp hne hpa
      rw [(parts E p hp hne hpa).1, hF1]
      simp only
      rw [one_div_mul_eq_div, add_div, div_div, mul_one_div]
      congr 2
      ring
    have P3 : HasPV (fun p => fP (V).kk t i p - F1 p) 0 q √(t * t - 1)
        (-∫ ψ in 0..Real.pi / 2, -1 * (regQ (V).kpkp (V).ys O ((t * t - (V).kk - (t * t - 1) * Real.sin ψ ^ 2 : ℝ) : ℂ)).im) := by
      refine P2.congr hq0 hqb (fun p hp hne => ?_)
      have hpb : p * p < t * t - 1 := by nlinarith [hp.1, hp.2]
      have hx : 0 < t * t - (V).kk - p * p := by linarith
      rw [(low p hp hne).1 hd, Real.mul_self_sqrt hx.le, eF1 p hp.1 hne (by linarith), add_sub_cancel_left, (parts O p hp.1 hne (by linarith)).2]
      rw [one_div_mul_eq_div, add_div, div_div, mul_one_div]
      congr 2
      ring
    have hz := zero_Ioo (F := fun p => fP (V).kk t i p - F1 p) hba (fun p hp => by
      have hp0 : 0 < p := lt_trans hb0 hp.1
      have hx : 0 < t * t - (V).kk - p * p := by nlinarith [hp.2]
      rw [(high p hp).1 hd, Real.mul_self_sqrt hx.le, eF1 p hp0 (hqb.trans hp.1).ne' (by linarith), sub_self])
    have P4 := P1.add (P3.extend hz.2)
    rw [hz.1, add_zero] at P4
    refine P4.congr hq0 hqa (fun p hp hne => ?_)
    simp only [hF1]
    ring
  · obtain ⟨a, b, c, e⟩ := class_P_side V t hd
    rw [a, e, grp_zero, grp_zero]
    have hreal : cj ((V).ys 2) = (V).ys 2 := by rw [hy2, conj_ofReal]
    have hdead := grp_imag (sgn := 1) (kpkp := (V).kpkp) (w := uP V t 1) (w3 := uP V t 4 ((V).ys 2)) (w5 := 0) hconj
      (conj_patch h0 h1 ha (by rw [hy2]; exact uP1_real V (by linarith)) (fun r hr => conj_uP1 V hA.le (hoff r hr)))
      (by simp only [uP, conj_ofReal]) (by simp) b
    have hsp := grp_split 1 (V).kpkp (V).ys (evens (ckimP2 V t i)) (vP L V t 2)
      (fun c => -1 / (√(t * t - (V).kk) * c) * L.Pi ((V).kpkp / c) ((V).kpkp / (t * t - (V).kk)))
      (fun c => -1 / (√(t * t - (V).kk) * ((t * t - (V).kk : ℝ) - c)) * L.Pi ((t * t - 1 : ℝ) / ((t * t - (V).kk : ℝ) - c)) ((t * t - 1) / (t * t - (V).kk)))
      (vP L V t 3 ((V).ys 2)) (1 / √(t * t - (V).kk) * L.K ((V).kpkp / (t * t - (V).kk))) (-(1 / √(t * t - (V).kk) * L.K ((t * t - 1) / (t * t - (V).kk))))
      (vP L V t 5 ((V).ys 2)) (-√(t * t - (V).kk) * (L.E ((V).kpkp / (t * t - (V).kk)) - L.K ((V).kpkp / (t * t - (V).kk))))
      (-√(t * t - (V).kk) * L.E ((t * t - 1) / (t * t - (V).kk)))
      (by
        intro r
        have hcc : (V).ys r ≠ 0 ∧ ((t * t - (V).kk : ℝ) : ℂ) - (V).ys r ≠ 0 := by
          by_cases hr : r = 2
          · rw [hr, hy2, ← ofReal_sub]
            constructor
            · rw [Ne, ofReal_eq_zero]; linarith
            · rw [Ne, ofReal_eq_zero]; linarith
          · refine ⟨?_, (hoff r hr).sub_ne hA.le le_rfl⟩
            have := (hoff r hr).ne (X := 0) le_rfl hA.le
            intro h; apply this; simp [h]
        obtain ⟨c0, cA⟩ := hcc
        have a0 : ((√(t * t - (V).kk) : ℝ) : ℂ) ≠ 0 := by exact_mod_cast ha0.ne'
        simp only [vP, if_pos ht1, csqrt_mul_self]
        generalize ((√(t * t - (V).kk) : ℝ) : ℂ) = A at *
        generalize ((t * t - (V).kk : ℝ) : ℂ) - (V).ys r = B at *
        generalize L.Pi _ _ = P1
        generalize L.Pi _ _ = P2
        field_simp
        ring)
      (by simp only [vP, if_pos ht1]; ring) (by simp only [vP, if_pos ht1]; ring)
    have hdead2 := grp_real (sgn := 1) (kpkp := (V).kpkp) (e := evens (ckimP2 V t i))
      (w := fun c => -1 / (√(t * t - (V).kk) * ((t * t - (V).kk : ℝ) - c)) * L.Pi ((t * t - 1 : ℝ) / ((t * t - (V).kk : ℝ) - c)) ((t * t - 1) / (t * t - (V).kk)))
      (w3 := (-(1 / √(t * t - (V).kk) * L.K ((t * t - 1) / (t * t - (V).kk))))) (w5 := (-√(t * t - (V).kk) * L.E ((t * t - 1) / (t * t - (V).kk)))) hconj
      (conj_patch (w := fun c => -1 / (√(t * t - (V).kk) * ((t * t - (V).kk : ℝ) - c)) *
          L.Pi ((t * t - 1 : ℝ) / ((t * t - (V).kk : ℝ) - c)) ((t * t - 1) / (t * t - (V).kk))) h0 h1 ha
        (by
          have := hL.conjPi_gt (n := (t * t - 1) / (t * t - (V).kk - ((V).kpakpa - (V).kk))) (m := (t * t - 1) / (t * t - (V).kk)) (by positivity)
            (by rw [div_lt_one hA]; linarith) (by rw [lt_div_iff₀ (by linarith)]; linarith)
          simp only [hy2, ← ofReal_sub, ← ofReal_div, map_mul, map_div₀, map_neg, map_one, conj_ofReal, this])
        (by
          intro r hr
          have := hL.conjPi (n := (t * t - 1 : ℝ) / ((t * t - (V).kk : ℝ) - (V).ys r)) (m := (t * t - 1) / (t * t - (V).kk)) (by positivity)
            (by rw [div_lt_one hA]; linarith) (off_ratio2 (hoff r hr) hB.le (by linarith))
          simp only [map_mul, map_div₀, map_neg, map_one, conj_ofReal, map_sub, this]))
      (by simp only [map_neg, map_mul, map_div₀, map_one, conj_ofReal]) (by simp only [map_neg, map_mul, conj_ofReal]) c
    have hoffk : ∀ r, Off ((V).ys r) 0 (V).kpkp := off_ys h0 h1 (by rw [hkk]; linarith)
    have hg : Continuous fun θ : ℝ => 1 / √((t * t - (V).kk) - (V).kpkp * Real.sin θ ^ 2) := ell_cont hkpkp.le hAk
    have hW := grp_parts 1 (V).kpkp (V).ys (evens (ckimP2 V t i))
      (fun c => -1 / (√(t * t - (V).kk) * c) * L.Pi ((V).kpkp / c) ((V).kpkp / (t * t - (V).kk)))
      (1 / √(t * t - (V).kk) * L.K ((V).kpkp / (t * t - (V).kk)))
      (-√(t * t - (V).kk) * (L.E ((V).kpkp / (t * t - (V).kk)) - L.K ((V).kpkp / (t * t - (V).kk))))
      (fun θ => 1 / √((t * t - (V).kk) - (V).kpkp * Real.sin θ ^ 2))
      (fun θ => (V).kpkp * Real.sin θ ^ 2) (Real.pi / 2) (Or.inl rfl) hkpkp.ne' ha hg (by fun_prop)
      (by
        intro r θ
        rw [ofReal_one, mul_one]
        exact (hoffk r).ne (by positivity) (by have := Real.sin_sq_le_one θ; nlinarith))
      (by
        intro r
        have c0 : (V).ys r ≠ 0 := by
          have := (hoffk r).ne (X := 0) le_rfl hkpkp.le
          intro h; apply this; simp [h]
        have hr := off_ratio1 (hoffk r) hkpkp.le (by linarith)
        rw [ofReal_zero, sub_zero] at hr
        have := hL.intPi hkpkp.le hAk c0 hr
        simp only [ofReal_one, mul_one]
        rw [neg_div, neg_mul]
        rw [← this, ← intervalIntegral.integral_neg]
        apply intervalIntegral.integral_congr
        intro θ _
        simp only
        rw [← div_neg]
        congr 1
        push_cast; ring)
      (by
        rw [intervalIntegral.integral_ofReal, hL.intK hkpkp.le hAk]
        push_cast; ring)
      (by
        have h := hL.intKE hkpkp.le hAk (t * t - (V).kk) (-1)
        rw [intervalIntegral.integral_congr (g := fun θ : ℝ => ((1 / √((t * t - (V).kk) - (V).kpkp * Real.sin θ ^ 2) *
          ((t * t - (V).kk) + -1 * ((t * t - (V).kk) - (V).kpkp * Real.sin θ ^ 2)) : ℝ) : ℂ)) (fun θ _ => by
            simp only; rw [← ofReal_mul]; congr 2; ring), intervalIntegral.integral_ofReal, h]
        have k2 : (t * t - (V).kk) * (1 / √(t * t - (V).kk)) = √(t * t - (V).kk) := by
          rw [mul_one_div, div_eq_iff ha0.ne']; exact haa.symm
        rw [← mul_assoc, k2]
        push_cast
        ring)
    rw [zero_add, add_zero, add_re, hdead, zero_add, hsp, add_re, I_mul_re, hdead2, neg_zero, add_zero, hW.1]
    have hz : HasPV (fP (V).kk t i) 0 q √(t * t - 1) 0 := by
      have := HasPV.of_integrable (F := fun _ => 0) hq0 hqb (by simp)
      rw [intervalIntegral.integral_zero] at this
      exact this.congr hq0 hqb (fun p hp hne => (low p hp hne).2 hd)
    have hc := cov_ell (b := √(t * t - 1)) (a := √(t * t - (V).kk)) (k := (V).kp) hb0 ha0 hkp
      (by rw [pow_two, pow_two, haa, hbb, hkp2, hkk]; ring) (fP (V).kk t i) _ (hg.mul (continuous_re.comp hW.2.2)) (fun θ hθ => by
        have hq := quarter_pos hθ
        have hsc := Real.sin_sq_add_cos_sq θ
        have e1 : √(t * t - (V).kk) ^ 2 - (V).kp ^ 2 * Real.sin θ ^ 2 = t * t - (V).kk - (V).kpkp * Real.sin θ ^ 2 := by
          rw [pow_two √(t * t - (V).kk), haa, hkp2]
        rw [e1]
        have hpp : 0 < t * t - (V).kk - (V).kpkp * Real.sin θ ^ 2 := ell_pos hkpkp.le hAk θ
        have hr := Real.sqrt_pos.mpr hpp
        have hrr := Real.mul_self_sqrt hpp.le
        have hrange : √(t * t - (V).kk - (V).kpkp * Real.sin θ ^ 2) ∈ Ioo √(t * t - 1) √(t * t - (V).kk) := by
          constructor
          · apply Real.sqrt_lt_sqrt hB.le
            have : 0 < (V).kpkp * Real.cos θ ^ 2 := by have := hq.2; positivity
            nlinarith
          · apply Real.sqrt_lt_sqrt hpp.le
            have : 0 < (V).kpkp * Real.sin θ ^ 2 := by have := hq.1; positivity
            linarith
        rw [(high _ hrange).2 hd, hrr]
        have ex : t * t - (V).kk - (t * t - (V).kk - (V).kpkp * Real.sin θ ^ 2) = (V).kp * Real.sin θ * ((V).kp * Real.sin θ) := by
          rw [← hkp2]; ring
        have ey : t * t - (V).kk - (V).kpkp * Real.sin θ ^ 2 - (t * t - 1) = (V).kp * Real.cos θ * ((V).kp * Real.cos θ) := by
          rw [show t * t - (V).kk - (V).kpkp * Real.sin θ ^ 2 - (t * t - 1) = (V).kpkp * (1 - Real.sin θ ^ 2) by rw [hkk]; ring, ← hkp2]
          linear_combination -(V).kp ^ 2 * hsc
        have hks : 0 < (V).kp * Real.sin θ := mul_pos hkp hq.1
        have hkc : 0 < (V).kp * Real.cos θ := mul_pos hkp hq.2
        rw [ex, ey, Real.sqrt_mul_self hks.le, Real.sqrt_mul_self hkc.le,
          show (V).kp * Real.sin θ * ((V).kp * Real.sin θ) = (V).kpkp * Real.sin θ ^ 2 by rw [← hkp2]; ring]
        exact wq4 hkp.ne' hq.1.ne' hq.2.ne')
    have := hz.extend hc.2
    rw [zero_add, hc.1] at this
    exact this

end GRT.Lamb
