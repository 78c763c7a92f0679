import Verif.Lamb.After5
import Verif.Lamb.RootsProp

/-! C106: what the Lamb solver prints is the response of the half-space. -/

namespace GRT.Lamb

open Complex Set

variable {nu az t : ℝ}

local notation "V" => mkVars nu az

theorem kk_is {al be : ℝ} (h1 : nu < 1 / 2) (hal : 0 < al) (hnu : nu = (al ^ 2 - 2 * be ^ 2) / (2 * (al ^ 2 - be ^ 2))) (hd : al ^ 2 - be ^ 2 ≠ 0) :
    (V).kk = be ^ 2 / al ^ 2 := by
  show 0.5 * (1 - 2 * nu) / (1 - nu) = _
  have h : 1 - nu ≠ 0 := by linarith
  have e : nu * (2 * (al ^ 2 - be ^ 2)) = al ^ 2 - 2 * be ^ 2 := by rw [hnu, div_mul_cancel₀ _ (by simpa using hd)]
  rw [div_eq_div_iff h (by positivity)]
  linear_combination (-1 / 2) * e

/-- The Rayleigh function has no zero where the denominator of the program has none. -/
theorem sig_ne (h1 : nu < 1 / 2) {p : ℝ} (hd : den 1 (V).kpkp (V).ys ((t * t - (V).kk - p * p : ℝ) : ℂ) ≠ 0) : sigAt (V).kk t p ≠ 0 := by
  rw [den_P h1] at hd
  intro hs
  apply hd
  have hu := csqrt_mul_self (((V).kk - (t * t - p * p) : ℝ) : ℂ)
  have hv := csqrt_mul_self ((1 - (t * t - p * p) : ℝ) : ℂ)
  change uAt (V).kk t p * uAt (V).kk t p = _ at hu
  change vAt t p * vAt t p = _ at hv
  unfold sigAt at hs
  have hkk : ((V).kpkp : ℂ) = 1 - (V).kk := by rw [kpkp_eq]; push_cast; ring
  rw [hkk]
  push_cast at *
  generalize ((V).kk : ℂ) = k at *
  generalize uAt (V).kk t p = u at *
  generalize vAt t p = v at *
  linear_combination ((1 - 2 * ((t : ℂ) * t - p * p)) ^ 2 - 4 * u * v * (t * t - p * p)) * hs +
    16 * ((t : ℂ) * t - p * p) ^ 2 * (v * v * hu + (k - (t * t - p * p)) * hv)

/-- The integrand. -/
theorem halves_real {phi p : ℝ} {G : ℂ → Fin 3 → Fin 3 → ℂ} (h0 : 0 < nu) (h1 : nu < 1 / 2) (hG : Spec.AlongContour (V).kk phi t G)
    (hp : p * p ≠ t * t - 1) (hd : den 1 (V).kpkp (V).ys ((t * t - (V).kk - p * p : ℝ) : ℂ) ≠ 0) (i j : Fin 3) :
    -(Spec.halves G i j p).im = mix (Real.sin phi) (Real.cos phi) (fun n => fP (V).kk t n p + fS (V).kk t n p) i j := by
  have hkr := kk_pos (az := az) h0 h1
  have hsg := sig_ne (az := az) h1 hd
  have hv0 : vAt t p ≠ 0 := by
    refine csqrt_ne ?_
    rw [Ne, ofReal_eq_zero]
    intro h; apply hp; linarith
  have hsg' := hsg
  rw [sigAt_eq, uAt_eq, vAt_eq] at hsg'
  rw [vAt_eq] at hv0
  rw [halves_eq hG hkr.1.ne' (by linarith [hkr.2]) hv0 hsg', mix_im, ← mix_neg]
  refine mix_congr (fun n _ => ?_) i j
  unfold fP fS
  rw [add_div, add_im, neg_add, sigAt_eq, uAt_eq, vAt_eq, div_div]
  push_cast
  rfl

/-- What the solver adds up for the time `t`. -/
noncomputable def lambSum (L : Ell) (W : Vars) (t : ℝ) (i j : Fin 3) : ℝ :=
  buildP L W t i j + buildS1 L W t i j + buildS2SP L W t i j + buildR W t i j

theorem lambSum_mix {L : Ell} (htk : (V).k < t) (i j : Fin 3) :
    lambSum L V t i j = mix (V).sf (V).cf (fun n =>
      (buildRaw 1 (V).kpkp (V).ys (ckimP1 V t n) (ckimP2 V t n) (uP V t) (vP L V t)).re +
      (if t < 1 then 0 else (buildRaw 1 (V).kpkp (V).ysp (ckimS1 V t n) (ckimS2 V t n) (uS1 V t) (vS1 L V t)).re) +
      (if t < 1 then -(buildRaw (-1) (V).kpkp (V).ysp (turnC (ckimS1 V t) n) (turnC (ckimS2 V t) n) (uSP V t) (vSP L V t)).im
        else -(buildRaw (-1) (V).kpkp (V).ysp (turnC (ckimS1 V t) n) (turnC (ckimS2 V t) n) (uS2 V t) (vS2 L V t)).im)) i j + buildR V t i j := by
  simp only [lambSum, buildP, buildS1, buildS2SP, if_neg htk.le.not_gt, buildRaw_mix, mix_re, mix_im]
  rw [mix_add, mix_add]
  by_cases h : t < 1
  · simp only [if_pos h]
    rw [mix_neg]
    congr 2
    rw [show mix (V).sf (V).cf (fun _ => (0 : ℝ)) i j = 0 by fin_cases i <;> fin_cases j <;> simp [mix]]
  · simp only [if_neg h]
    rw [mix_neg]

/-- Before the Rayleigh arrival. -/
theorem sum_before {L : Ell} (hL : L.Exact) (h0 : 0 < nu) (h1 : nu < 1 / 2) (ha : Apart (V).ys) (htk : (V).k < t) (ht1 : t ≠ 1) (hk : t < (V).kpa)
    {G : ℂ → Fin 3 → Fin 3 → ℂ} (hG : Spec.AlongContour (V).kk (az * (Real.pi / 180)) t G) (i j : Fin 3) :
    Spec.Straight (Spec.halves G i j) √(t * t - (V).kk) (lambSum L V t i j) := by
  have hkdef : (V).k = √(V).kk := rfl
  have hkpa : (V).kpa = √(V).kpakpa := rfl
  have t0 : 0 < t := lt_of_le_of_lt (by rw [hkdef]; positivity) htk
  have htk2 : (V).kk < t * t := by
    rw [hkdef, Real.sqrt_lt' t0] at htk; nlinarith
  have hk2 : t * t < (V).kpakpa := by
    rw [hkpa, Real.lt_sqrt t0.le] at hk; nlinarith
  have hsum : ∀ n < 6, ∫ p in 0..√(t * t - (V).kk), (fP (V).kk t n p + fS (V).kk t n p) =
      (buildRaw 1 (V).kpkp (V).ys (ckimP1 V t n) (ckimP2 V t n) (uP V t) (vP L V t)).re +
      (if t < 1 then 0 else (buildRaw 1 (V).kpkp (V).ysp (ckimS1 V t n) (ckimS2 V t n) (uS1 V t) (vS1 L V t)).re) +
      (if t < 1 then -(buildRaw (-1) (V).kpkp (V).ysp (turnC (ckimS1 V t) n) (turnC (ckimS2 V t) n) (uSP V t) (vSP L V t)).im
        else -(buildRaw (-1) (V).kpkp (V).ysp (turnC (ckimS1 V t) n) (turnC (ckimS2 V t) n) (uS2 V t) (vS2 L V t)).im) ∧
      IntervalIntegrable (fun p => fP (V).kk t n p + fS (V).kk t n p) MeasureTheory.volume 0 √(t * t - (V).kk) := by
    intro n hn
    rcases lt_or_gt_of_ne ht1 with h | h
    · have a := phaseP_lt hL h0 h1 ha htk2 t0 h hn
      have b := phaseS_lt hL h0 h1 ha htk2 t0 h hn
      refine ⟨?_, a.2.add b.2⟩
      rw [intervalIntegral.integral_add a.2 b.2, a.1, b.1, if_pos h, if_pos h, add_zero]
    · have a := phaseP_gt hL h0 h1 ha h hk2 hn
      have b := phaseS1 hL h0 h1 ha h hk2 hn
      have c := phaseS2 hL h0 h1 ha h hk2.ne hn
      refine ⟨?_, a.2.add (b.2.trans c.2)⟩
      rw [intervalIntegral.integral_add a.2 (b.2.trans c.2), a.1, ← intervalIntegral.integral_add_adjacent_intervals b.2 c.2, b.1, c.1,
        if_neg h.le.not_gt, if_neg h.le.not_gt, add_assoc]
  have hR : buildR V t i j = 0 := by simp only [buildR, if_pos hk]
  have hA : 0 < t * t - (V).kk := by linarith
  have hle : (0 : ℝ) ≤ √(t * t - (V).kk) := Real.sqrt_nonneg _
  have hb : ∀ᵐ p : ℝ, p ≠ √(t * t - 1) := by
    rw [MeasureTheory.ae_iff]; simp
  have hae : ∀ᵐ p : ℝ, p ∈ Set.uIoc 0 √(t * t - (V).kk) →
      mix (Real.sin (az * (Real.pi / 180))) (Real.cos (az * (Real.pi / 180))) (fun n => fP (V).kk t n p + fS (V).kk t n p) i j = -(Spec.halves G i j p).im := by
    have hb2 : ∀ᵐ p : ℝ, p ≠ √(t * t - (V).kk) := by
      rw [MeasureTheory.ae_iff]; simp
    filter_upwards [hb, hb2] with p hpb hpa hp
    rw [uIoc_of_le hle] at hp
    have hp2 : p * p < t * t - (V).kk := by
      have := (Real.lt_sqrt hp.1.le).mp (lt_of_le_of_ne hp.2 hpa)
      nlinarith
    have hpn : p * p ≠ t * t - 1 := by
      intro h; apply hpb; rw [← h, Real.sqrt_mul_self hp.1.le]
    exact (halves_real h0 h1 hG hpn (den_P_ne (az := az) h0 h1 hk2 (X := t * t - (V).kk - p * p) (by linarith)
      (by nlinarith [mul_self_nonneg p])) i j).symm
  constructor
  · refine IntervalIntegrable.congr_ae ?_ ((MeasureTheory.ae_restrict_iff' measurableSet_uIoc).mpr hae)
    exact mix_integrable (fun n hn => (hsum n hn).2) i j
  · rw [← intervalIntegral.integral_congr_ae hae, mix_integral (fun n hn => (hsum n hn).2), lambSum_mix htk, hR, add_zero]
    exact mix_congr (fun n hn => (hsum n hn).1) i j

theorem rayleigh_eq (h0 : 0 < nu) (h1 : nu < 1 / 2) :
    (1 - 2 * (V).kpakpa) ^ 4 = 16 * (V).kpakpa ^ 2 * ((V).kpakpa - (V).kk) * ((V).kpakpa - 1) := by
  have h := ys_prod (az := az) h1 ((V).ys 2)
  rw [sub_self, mul_zero, mul_zero, (ys_facts (az := az) h0 h1).2.1, kpkp_eq] at h
  have h' : (1 - 2 * ((V).kk + ((V).kpakpa - (V).kk))) ^ 4 + 16 * ((V).kpakpa - (V).kk) * ((1 - (V).kk) - ((V).kpakpa - (V).kk)) *
      ((V).kk + ((V).kpakpa - (V).kk)) ^ 2 = 0 := by
    have := h.symm
    exact_mod_cast this
  linear_combination h'

theorem kpakpa_gt (h0 : 0 < nu) (h1 : nu < 1 / 2) : 1.01 < (V).kpakpa := by
  have h := rayleigh_eq (az := az) h0 h1
  have hk := (ys_facts (az := az) h0 h1).1
  have hkr := kk_pos (az := az) h0 h1
  generalize (V).kpakpa = y at *
  by_contra hc
  push Not at hc
  have e1 : 1 ≤ (1 - 2 * y) ^ 4 := by
    have : 1 ≤ (1 - 2 * y) ^ 2 := by nlinarith
    have e : (1 - 2 * y) ^ 4 = ((1 - 2 * y) ^ 2) ^ 2 := by ring
    rw [e]; nlinarith
  have e2 : y ^ 2 ≤ 1.1 := by nlinarith
  have e3 : (y - (V).kk) * (y - 1) ≤ 0.02 := by nlinarith
  have e4 : 0 ≤ (y - (V).kk) * (y - 1) := mul_nonneg (by linarith) (by linarith)
  have : 16 * y ^ 2 * (y - (V).kk) * (y - 1) = 16 * (y ^ 2 * ((y - (V).kk) * (y - 1))) := by ring
  have : y ^ 2 * ((y - (V).kk) * (y - 1)) ≤ 1.1 * 0.02 := mul_le_mul e2 e3 e4 (by norm_num)
  linarith

/-- After the Rayleigh arrival. -/
theorem sum_after {L : Ell} (hL : L.Exact) (h0 : 0 < nu) (h1 : nu < 1 / 2) (ha : Apart (V).ys) (hk : (V).kpa < t)
    {G : ℂ → Fin 3 → Fin 3 → ℂ} (hG : Spec.AlongContour (V).kk (az * (Real.pi / 180)) t G) (i j : Fin 3) :
    Spec.Indented (Spec.halves G i j) √(t * t - (V).kpakpa) √(t * t - (V).kk) (lambSum L V t i j) := by
  have hkr := kk_pos (az := az) h0 h1
  have hkpa : (V).kpa = √(V).kpakpa := rfl
  have hk1 := (ys_facts (az := az) h0 h1).1
  have t0 : 0 < t := lt_of_le_of_lt (by rw [hkpa]; positivity) hk
  have hk2 : (V).kpakpa < t * t := by
    rw [hkpa, Real.sqrt_lt' t0] at hk; nlinarith
  have ht1 : 1 < t := by nlinarith
  have htk : (V).k < t := by
    show √(V).kk < t
    rw [Real.sqrt_lt' t0]; nlinarith
  obtain ⟨hq0, hqq⟩ := pole_pos (az := az) hk2
  have hqb : √(t * t - (V).kpakpa) < √(t * t - 1) := Real.sqrt_lt_sqrt (by linarith) (by linarith)
  have hba : √(t * t - 1) < √(t * t - (V).kk) := Real.sqrt_lt_sqrt (by nlinarith) (by linarith)
  have hsum : ∀ n < 6, HasPV (fun p => fP (V).kk t n p + fS (V).kk t n p) 0 √(t * t - (V).kpakpa) √(t * t - (V).kk)
      ((buildRaw 1 (V).kpkp (V).ys (ckimP1 V t n) (ckimP2 V t n) (uP V t) (vP L V t)).re +
      (if t < 1 then 0 else (buildRaw 1 (V).kpkp (V).ysp (ckimS1 V t n) (ckimS2 V t n) (uS1 V t) (vS1 L V t)).re) +
      (if t < 1 then -(buildRaw (-1) (V).kpkp (V).ysp (turnC (ckimS1 V t) n) (turnC (ckimS2 V t) n) (uSP V t) (vSP L V t)).im
        else -(buildRaw (-1) (V).kpkp (V).ysp (turnC (ckimS1 V t) n) (turnC (ckimS2 V t) n) (uS2 V t) (vS2 L V t)).im)) := by
    intro n hn
    have a := phaseP_after hL h0 h1 ha ht1 hk2 hn
    have b := phaseS1_after hL h0 h1 ha hk2 hn
    have c := phaseS2 hL h0 h1 ha ht1 hk2.ne' hn
    have := a.add (b.extend c.2)
    rw [c.1, ← add_assoc] at this
    rw [if_neg ht1.le.not_gt, if_neg ht1.le.not_gt]
    exact this
  have hpv := HasPV.mix (sf := Real.sin (az * (Real.pi / 180))) (cf := Real.cos (az * (Real.pi / 180))) hsum i j
  have hA : 0 < (V).kpakpa - (V).kk := by linarith
  have hB : 0 < (V).kpakpa - 1 := by linarith
  have haa := Real.mul_self_sqrt hA.le
  have hbb := Real.mul_self_sqrt hB.le
  have ha0 := Real.sqrt_pos.mpr hA
  have hb0 := Real.sqrt_pos.mpr hB
  have hlt : √((V).kpakpa - 1) < √((V).kpakpa - (V).kk) := Real.sqrt_lt_sqrt hB.le (by linarith)
  have hz : (1 - 2 * (V).kpakpa) ^ 2 = 4 * (V).kpakpa * √((V).kpakpa - (V).kk) * √((V).kpakpa - 1) := by
    have h4 := rayleigh_eq (az := az) h0 h1
    refine (sq_eq_sq₀ (by positivity) (by positivity)).mp ?_
    generalize √((V).kpakpa - (V).kk) = a at *
    generalize √((V).kpakpa - 1) = b at *
    rw [show ((1 - 2 * (V).kpakpa) ^ 2) ^ 2 = (1 - 2 * (V).kpakpa) ^ 4 by ring, h4, ← haa, ← hbb]
    ring
  obtain ⟨R2, hR2⟩ : ∃ R2, R2 = 2 * (1 - 2 * (V).kpakpa) * √((V).kpakpa - (V).kk) * √((V).kpakpa - 1) +
      2 * √((V).kpakpa - (V).kk) * √((V).kpakpa - (V).kk) * √((V).kpakpa - 1) * √((V).kpakpa - 1) +
      (V).kpakpa * (√((V).kpakpa - (V).kk) * √((V).kpakpa - (V).kk) + √((V).kpakpa - 1) * √((V).kpakpa - 1)) := ⟨_, rfl⟩
  have hR : 0 < R2 := by
    rw [hR2]
    generalize √((V).kpakpa - (V).kk) = a at *
    generalize √((V).kpakpa - 1) = b at *
    have e1 : 0 ≤ (V).kpakpa * ((a - b) * (a - b)) := mul_nonneg (by linarith) (mul_self_nonneg _)
    have e2 : 0 < a * b * b * (a - b) := by have := sub_pos.mpr hlt; positivity
    have e3 : a * b * (V).kpakpa = a * b * (b * b + 1) := by rw [hbb]; ring
    nlinarith
  choose K hK1 hK2 hK3 using fun n => residue (kk := (V).kk) (t := t) (q := √(t * t - (V).kpakpa)) (y := (V).kpakpa) ha0 hb0 hq0 hqq haa hbb hz hR2 hR n
  have harc := arc_tendsto (h := Spec.halves G i j) (K := fun z => mix (Real.sin (az * (Real.pi / 180)) : ℂ) (Real.cos (az * (Real.pi / 180))) (fun n => K n z) i j)
    (q := √(t * t - (V).kpakpa))
    (by
      filter_upwards [hK1 0, hK1 1, hK1 2, hK1 3, hK1 4, hK1 5] with z c0 c1 c2 c3 c4 c5
      fin_cases i <;> fin_cases j <;> simp only [mix, Matrix.cons_val, Fin.zero_eta, Fin.mk_one, Fin.reduceFinMk] <;> fun_prop)
    (by
      filter_upwards [hK2 0, hK2 1, hK2 2, hK2 3, hK2 4, hK2 5] with z c0 c1 c2 c3 c4 c5 him
      rw [halves_eq hG hkr.1.ne' (by linarith [hkr.2]) (c0 him).1 (c0 him).2.1, mix_mul]
      refine mix_congr (fun n hn => ?_) i j
      interval_cases n
      exacts [(c0 him).2.2, (c1 him).2.2, (c2 him).2.2, (c3 him).2.2, (c4 him).2.2, (c5 him).2.2])
  have hval : Real.pi * (mix (Real.sin (az * (Real.pi / 180)) : ℂ) (Real.cos (az * (Real.pi / 180))) (fun n => K n √(t * t - (V).kpakpa)) i j).re =
      buildR V t i j := by
    have hu := (uCont_deriv (k := (V).kk) (t := t) (q := √(t * t - (V).kpakpa)) ha0 (by rw [hqq, haa]; ring)).1
    have hv := (uCont_deriv (k := 1) (t := t) (q := √(t * t - (V).kpakpa)) hb0 (by rw [hqq, hbb]; ring)).1
    have hres : (V).raylR = ((1 - 2 * (V).kpakpa) * √((V).kpakpa - (V).kk) * √((V).kpakpa - 1) +
        2 * √((V).kpakpa - (V).kk) * √((V).kpakpa - (V).kk) * √((V).kpakpa - 1) * √((V).kpakpa - 1)) / R2 := by rw [hR2]; rfl
    have hQ : (V).raylQ = ![![0, 0, Real.cos (az * (Real.pi / 180))], ![0, 0, Real.sin (az * (Real.pi / 180))],
      ![-Real.cos (az * (Real.pi / 180)), -Real.sin (az * (Real.pi / 180)), 0]] := rfl
    have hnum : ∀ n < 6, (K n √(t * t - (V).kpakpa)).re = if n = 3 then t * (V).raylR / (4 * √(t * t - (V).kpakpa)) else
        if n = 4 then -(t * (V).raylR / (4 * √(t * t - (V).kpakpa))) else 0 := by
      intro n hn
      rw [hK3, re_mul_ofReal, hres]
      unfold nCont
      rw [hu, hv, ← ofReal_mul, hqq]
      clear hpv harc hK1 hK2 hK3
      generalize √(t * t - (V).kpakpa) = q at *
      generalize √((V).kpakpa - (V).kk) = a at *
      generalize √((V).kpakpa - 1) = b at *
      have hIb : I * (b : ℂ) ≠ 0 := mul_ne_zero I_ne_zero (by exact_mod_cast hb0.ne')
      have hq2 : ((-t : ℝ) : ℂ) ^ 2 - ((t * t - (V).kpakpa : ℝ) : ℂ) = ((V).kpakpa : ℝ) := by push_cast; ring
      rw [← ofReal_neg]
      have hIab : I * (a : ℂ) * (I * b) = ((-(a * b) : ℝ) : ℂ) := by
        have hI : I * I = -1 := I_mul_I
        push_cast
        linear_combination (a : ℂ) * b * hI
      have hbc : (b : ℂ) ≠ 0 := by exact_mod_cast hb0.ne'
      have hI : I * I = -1 := I_mul_I
      have hI0 := I_ne_zero
      have imag : ∀ {w : ℂ} (x : ℝ), w = I * x → w.re = 0 := by
        intro w x h
        rw [h]; simp
      interval_cases n <;> simp only [pM, sN, hq2]
      · rw [imag (b * (1 - 2 * (V).kpakpa)) (by rw [mul_assoc (I * (b : ℂ)), mul_div_cancel_left₀ _ hIb]; push_cast; ring)]
        simp
      · rw [imag (2 * b * t ^ 2 - (1 - 2 * (V).kpakpa + 4 * a * b) * (t * t - (V).kpakpa) / b) (by
          rw [div_eq_iff_mul_eq hIb |>.mpr (?_ : -I * ((1 - 2 * (V).kpakpa + 4 * a * b) * (t * t - (V).kpakpa) / b : ℝ) * (I * b) = _)]
          · push_cast; ring
          · push_cast
            field_simp
            have hI2 : I ^ 2 = -1 := by rw [pow_two, hI]
            rw [hI2]
            ring)]
        simp
      · rw [imag (-2 * b * (t * t - (V).kpakpa) + (1 - 2 * (V).kpakpa + 4 * a * b) * t ^ 2 / b) (by
          rw [div_eq_iff_mul_eq hIb |>.mpr (?_ : I * ((1 - 2 * (V).kpakpa + 4 * a * b) * t ^ 2 / b : ℝ) * (I * b) = _)]
          · push_cast; ring
          · push_cast
            field_simp
            have hI2 : I ^ 2 = -1 := by rw [pow_two, hI]
            rw [hI2]
            ring)]
        simp
      · have : 2 * ((-t : ℝ) : ℂ) * (I * a) * (I * b) + -(I * (b : ℂ)) * ((-t : ℝ) : ℂ) * (1 - 2 * ((V).kpakpa : ℂ)) / (I * b) =
            ((t * ((1 - 2 * (V).kpakpa) + 2 * a * b) : ℝ) : ℂ) := by
          rw [show -(I * (b : ℂ)) * ((-t : ℝ) : ℂ) * (1 - 2 * ((V).kpakpa : ℂ)) = (I * b) * (-((-t : ℝ) : ℂ) * (1 - 2 * ((V).kpakpa : ℂ))) by ring,
            mul_div_cancel_left₀ _ hIb]
          push_cast
          linear_combination -2 * (t : ℂ) * a * b * hI
        rw [this, ofReal_re, if_pos trivial]
        field_simp
      · have : ((-t : ℝ) : ℂ) * (1 - 2 * ((V).kpakpa : ℂ)) + -2 * ((-t : ℝ) : ℂ) * (I * a) * (I * b) * (I * b) / (I * b) =
            ((-(t * ((1 - 2 * (V).kpakpa) + 2 * a * b)) : ℝ) : ℂ) := by
          rw [mul_div_cancel_right₀ _ hIb]
          push_cast
          linear_combination 2 * (t : ℂ) * a * b * hI
        rw [this, ofReal_re, if_neg (by decide), if_pos trivial]
        field_simp
      · rw [imag (a * (1 - 2 * (V).kpakpa) + 2 * a * (V).kpakpa) (by
          rw [show 2 * (I * (a : ℂ)) * (I * b) * ((V).kpakpa : ℂ) = (I * b) * (2 * (I * a) * ((V).kpakpa : ℂ)) by ring, mul_div_cancel_left₀ _ hIb]
          push_cast; ring)]
        simp
    rw [mix_re, mix_congr hnum]
    simp only [buildR, if_neg hk.le.not_gt, hQ]
    fin_cases i <;> fin_cases j <;> simp [mix] <;> ring
  have hcong := hpv.congr_ae' (G := fun p : ℝ => -(Spec.halves G i j p).im) hq0 (hqb.trans hba) (by
    have hb : ∀ᵐ p : ℝ, p ≠ √(t * t - 1) := by
      rw [MeasureTheory.ae_iff]; simp
    filter_upwards [hb] with p hpb hp hpq
    have hp2 : p * p < t * t - (V).kk := by
      have := (Real.lt_sqrt hp.1.le).mp hp.2
      nlinarith
    have hpn : p * p ≠ t * t - 1 := by
      intro h; apply hpb; rw [← h, Real.sqrt_mul_self hp.1.le]
    refine (halves_real h0 h1 hG hpn (reg_P h0 h1 ha 0 hqq ?_ (by linarith)).1 i j).symm
    intro h; exact hpq ((mul_self_inj hp.1.le hq0.le).mp h))
  refine ⟨?_, ?_⟩
  · filter_upwards [hcong.1, harc.1] with δ e1 e2
    exact ⟨e1.1, e2, e1.2⟩
  · rw [lambSum_mix htk]
    have := hcong.2.add harc.2
    rw [hval] at this
    refine this.congr (fun δ => ?_)
    ring

/-- Speeds `al` of P, `be` of S and `v` of Rayleigh waves.  `Exact`: the elliptic integrals are not approximated.  What the solver returns
for one of its times, as a multiple of the S travel time: nothing before the P arrival; then the integral over the contour of the compliance
of the half-space, in every component and azimuth.  The arrivals of P, S and Rayleigh waves are moved by at most `1e-8`, given that
the second time is after the first. -/
theorem C106_lamb {L : Ell} (hL : L.Exact) {al be v nu : ℝ} (hal : 0 < al) (hbe : 0 < be)
    (hnu : nu = (al ^ 2 - 2 * be ^ 2) / (2 * (al ^ 2 - be ^ 2))) (hv : IsRayleighSpeed al be v) {ts : List ℝ} {az : ℝ}
    {us : List (Fin 3 → Fin 3 → ℝ)} (h : solveLamb1 L nu ts az = .done us) (hts : ∀ x y, ts[0]? = some x → ts[1]? = some y → x < y) :
    us.length = ts.length ∧ ∀ (n : ℕ) (h1 : n < ts.length) (h2 : n < us.length),
      (ts[n] < be / al → ∀ i j, us[n] i j = 0) ∧
      (be / al ≤ ts[n] → ∃ T : ℝ, (if ts[n] = be / al ∨ ts[n] = 1 ∨ ts[n] = be / v then ts[n] < T ∧ T ≤ ts[n] + 1e-8 else T = ts[n]) ∧
        ∀ G, Spec.AlongContour (be ^ 2 / al ^ 2) (az * (Real.pi / 180)) T G → ∀ i j, Spec.Response (be ^ 2 / al ^ 2) (be / v) T G i j (us[n] i j)) := by
  unfold solveLamb1 at h
  split at h
  · exact absurd h (by simp)
  rename_i hr
  push Not at hr
  have h0 : 0 < nu := hr.1
  have h1 : nu < 1 / 2 := by have := hr.2; norm_num at this ⊢; exact this
  split at h
  swap
  · exact absurd h (by simp)
  rename_i t0 t1 rest
  simp only at h
  split at h
  · exact absurd h (by simp)
  rename_i hap
  push Not at hap
  have hd : al ^ 2 - be ^ 2 ≠ 0 := by
    intro hc; rw [hc] at hnu; simp at hnu; linarith
  have hkk := kk_is (az := az) h1 hal hnu hd
  have hka : (mkVars nu az).k = be / al := by
    show √(mkVars nu az).kk = _
    rw [hkk, ← div_pow, Real.sqrt_sq (by positivity)]
  have hray := (C105_rayleigh az h0 h1 hal hbe hnu v).mp hv
  have hkv : (mkVars nu az).kpa = be / v := by
    have : (mkVars nu az).kpa ≠ 0 := by linarith [hray.2]
    rw [hray.1]; field_simp
  have hk1 : (mkVars nu az).k < 0.8 := by
    show √(mkVars nu az).kk < 0.8
    rw [Real.sqrt_lt' (by norm_num)]
    have := (kk_pos (az := az) h0 h1).2; linarith
  have hgt := kpakpa_gt (az := az) h0 h1
  have hkpa : 1 + 1e-8 < (mkVars nu az).kpa := by
    show _ < √(mkVars nu az).kpakpa
    rw [Real.lt_sqrt (by norm_num)]
    norm_num at hgt ⊢
    linarith
  have hkpa2 : (mkVars nu az).kpa ^ 2 = (mkVars nu az).kpakpa := by
    show √(mkVars nu az).kpakpa ^ 2 = _
    exact Real.sq_sqrt (by linarith)
  have heps : 0 < min 1e-8 ((t1 - t0) * 1e-5) := by
    have := hts t0 t1 rfl rfl
    exact lt_min (by norm_num) (mul_pos (by linarith) (by norm_num))
  have heps2 : min 1e-8 ((t1 - t0) * 1e-5) ≤ 1e-8 := min_le_left _ _
  have hus : us = (t0 :: t1 :: rest).map (lambAt L (mkVars nu az) (min 1e-8 ((t1 - t0) * 1e-5))) := (Ended.done.inj h).symm
  subst hus
  refine ⟨by simp, fun n hn1 hn2 => ?_⟩
  rw [List.getElem_map]
  generalize (t0 :: t1 :: rest)[n] = t
  generalize min 1e-8 ((t1 - t0) * 1e-5) = eps at *
  rw [← hka, ← hkv, ← hkk]
  constructor
  · intro ht i j
    have hne : ¬(t = 1 ∨ t = (mkVars nu az).k ∨ t = (mkVars nu az).kpa) := by
      rintro (h | h | h) <;> linarith [hray.2]
    have a1 : t < 1 := by linarith
    have a2 : t < (mkVars nu az).kpa := by linarith [hray.2]
    simp only [lambAt, if_neg hne, buildP, buildS1, buildS2SP, buildR, if_pos ht, if_pos a1, if_pos a2, add_zero]
  · intro ht
    have core : ∀ T : ℝ, (mkVars nu az).k < T → T ≠ 1 → T ≠ (mkVars nu az).kpa → ∀ G, Spec.AlongContour (mkVars nu az).kk (az * (Real.pi / 180)) T G →
        ∀ i j, Spec.Response (mkVars nu az).kk (mkVars nu az).kpa T G i j (lambSum L (mkVars nu az) T i j) := by
      intro T c1 c2 c3 G hG i j
      unfold Spec.Response
      rw [hkpa2, pow_two]
      split
      · rename_i c4
        exact sum_before hL h0 h1 ⟨hap.1, hap.2.1, hap.2.2⟩ c1 c2 c4 hG i j
      · rename_i c4
        exact sum_after hL h0 h1 ⟨hap.1, hap.2.1, hap.2.2⟩ (lt_of_le_of_ne (not_lt.mp c4) (Ne.symm c3)) hG i j
    by_cases hne : t = 1 ∨ t = (mkVars nu az).k ∨ t = (mkVars nu az).kpa
    · refine ⟨t + eps, ?_, ?_⟩
      · rw [if_pos (by tauto)]
        exact ⟨by linarith, by linarith⟩
      · have hl : ∀ i j, lambAt L (mkVars nu az) eps t i j = lambSum L (mkVars nu az) (t + eps) i j := by
          intro i j
          simp only [lambAt, if_pos hne, lambSum]
        simp only [hl]
        norm_num at hk1 hkpa heps2
        refine core _ (by linarith) ?_ ?_
        · rcases hne with h | h | h
          · linarith
          · exact ne_of_lt (by linarith)
          · exact ne_of_gt (by linarith)
        · rcases hne with h | h | h
          · exact ne_of_lt (by linarith)
          · exact ne_of_lt (by linarith)
          · exact ne_of_gt (by linarith)
    · refine ⟨t, ?_, ?_⟩
      · rw [if_neg (by tauto)]
      · have hl : ∀ i j, lambAt L (mkVars nu az) eps t i j = lambSum L (mkVars nu az) t i j := by
          intro i j
          simp only [lambAt, if_neg hne, lambSum]
        simp only [hl]
        push Not at hne
        exact core _ (lt_of_le_of_ne ht (Ne.symm hne.2.1)) hne.1 hne.2.2

open Classical in
/-- Exact elliptic integrals. -/
noncomputable def exactEll : Ell where
  K m := ∫ θ in 0..Real.pi / 2, 1 / √(1 - m * Real.sin θ ^ 2)
  E m := ∫ θ in 0..Real.pi / 2, √(1 - m * Real.sin θ ^ 2)
  Pi n m :=
    let P (n : ℂ) : ℂ := ∫ θ in 0..Real.pi / 2, ((1 / √(1 - m * Real.sin θ ^ 2) : ℝ) : ℂ) / (1 - n * (Real.sin θ : ℂ) ^ 2)
    if n.im = 0 ∧ 1 < n.re then (∫ θ in 0..Real.pi / 2, 1 / √(1 - m * Real.sin θ ^ 2) : ℝ) - P (m / n) else P n

theorem exactEll_exact : exactEll.Exact := by
  refine ⟨fun _ _ _ => rfl, fun _ _ _ => rfl, fun n m h0 h1 hn => ?_, fun n m h0 h1 hn => ?_⟩
  · have : ¬(n.im = 0 ∧ 1 < n.re) := by rintro ⟨a, b⟩; rcases hn with h | h; exacts [h a, by linarith]
    simp only [exactEll, if_neg this]
  · have h2 : m / n < 1 := by rw [div_lt_one (by linarith)]; linarith
    have c1 : ((n : ℂ).im = 0 ∧ 1 < (n : ℂ).re) := ⟨ofReal_im n, by rwa [ofReal_re]⟩
    have c2 : ¬(((m : ℂ) / n).im = 0 ∧ 1 < ((m : ℂ) / n).re) := by rw [← ofReal_div]; rintro ⟨-, b⟩; rw [ofReal_re] at b; linarith
    simp only [exactEll, if_pos c1, if_neg c2, ofReal_div]

theorem apart_quarter (az : ℝ) : Apart (mkVars 0.25 az).ys := by
  have hk : (mkVars 0.25 az).kk = 1 / 3 := by show (0.5 * (1 - 2 * 0.25) / (1 - 0.25) : ℝ) = 1 / 3; norm_num
  have hkp : (mkVars 0.25 az).kpkp = 2 / 3 := by rw [kpkp_eq, hk]; norm_num
  obtain ⟨h1, h2, h3⟩ := ys_facts (nu := 0.25) (az := az) (by norm_num) (by norm_num)
  rw [hk] at h2
  rcases h3 with ⟨x, w, hw, e0, e1⟩ | ⟨x0, x1, e0, e1, n0, n1⟩
  · refine ⟨fun h => ?_, fun h => ?_, fun h => ?_⟩
    · rw [e0, e1] at h; have := congrArg Complex.im h; simp at this; apply hw; linarith
    · rw [e0, h2] at h; have := congrArg Complex.im h; simp at this; exact hw this
    · rw [e1, h2] at h; have := congrArg Complex.im h; simp at this; exact hw this
  · have hp := fun X : ℝ => ys_prod (nu := 0.25) (az := az) (by norm_num) (X : ℂ)
    rw [e0, e1, h2, hk, hkp] at hp
    set y := (mkVars 0.25 az).kpakpa - 1 / 3
    have hp' : ∀ X : ℝ, -16 * (2 / 3) * ((X - x0) * (X - x1) * (X - y)) = (1 - 2 * (1 / 3 + X)) ^ 4 + 16 * X * (2 / 3 - X) * (1 / 3 + X) ^ 2 := by
      intro X
      have := hp X
      exact_mod_cast this
    have y0 : 0 < y := by simp only [y]; linarith
    refine ⟨fun h => ?_, fun h => ?_, fun h => ?_⟩
    · rw [e0, e1, ofReal_inj] at h
      subst h
      have a := hp' (-1 / 12)
      have b := hp' 0
      have c := hp' 1
      have hx : x0 = -1 / 12 := by
        have : (-1 / 12 - x0) * (-1 / 12 - x0) * (-1 / 12 - y) = 0 := by linarith
        rcases mul_eq_zero.mp this with h | h
        · have := mul_self_eq_zero.mp h; linarith
        · linarith
      rw [hx] at b c
      norm_num at b c
      linarith
    · rw [e0, h2, ofReal_inj] at h; linarith
    · rw [e1, h2, ofReal_inj] at h; linarith

open Classical in
/-- There always is a `G`. -/
theorem along_exists (kk phi t : ℝ) : ∃ G, Spec.AlongContour kk phi t G := by
  refine ⟨fun p => if h : ∃ G', Spec.IsCompliance kk (Spec.contour phi t p).1 (Spec.contour phi t p).2 G' then h.choose else 0, fun p h => ?_⟩
  simp only [dif_pos h]
  exact h.choose_spec

/-- The hypotheses are met: in a Poisson solid (`al = √3`, `be = 1`, `nu = 1/4`) at azimuth 30°, the solver returns results for the times
0.3 (before P), 0.8 (P to S), 1 (the S arrival), 1.05 (S to Rayleigh) and 2 (after Rayleigh). -/
example : IsRayleighSpeed (√3) 1 (√(2 - 2 / √3)) ∧ (0.25 : ℝ) = (√3 ^ 2 - 2 * 1 ^ 2) / (2 * (√3 ^ 2 - 1 ^ 2)) ∧
    (∃ us, solveLamb1 exactEll 0.25 [0.3, 0.8, 1, 1.05, 2] 30 = .done us) ∧
    (0.3 : ℝ) < 1 / √3 ∧ 1 / √3 < (0.8 : ℝ) ∧ (1.05 : ℝ) < 1 / √(2 - 2 / √3) ∧ 1 / √(2 - 2 / √3) < (2 : ℝ) := by
  have s : √3 * √3 = 3 := Real.mul_self_sqrt (by norm_num)
  have s0 : 0 < √(3 : ℝ) := by positivity
  have s1 : (1.73 : ℝ) < √3 := by rw [Real.lt_sqrt (by norm_num)]; norm_num
  have s2 : √3 < (1.733 : ℝ) := by rw [Real.sqrt_lt' (by norm_num)]; norm_num
  have e : 2 / √3 = 2 * √3 / 3 := by field_simp; nlinarith
  have hp : (0 : ℝ) < 2 - 2 * √3 / 3 := by nlinarith
  have hray : IsRayleighSpeed (√3) 1 (√(2 - 2 / √3)) := by
    rw [e]
    refine ⟨by positivity, ?_, ?_⟩
    · rw [Real.sqrt_lt' (by norm_num)]; nlinarith
    · rw [Real.sq_sqrt hp.le, Real.sq_sqrt (by norm_num), mul_assoc, ← Real.sqrt_mul (by nlinarith)]
      have : (1 - (2 - 2 * √3 / 3) / 3) * (1 - (2 - 2 * √3 / 3) / 1 ^ 2) = (1 / 3) ^ 2 := by
        linear_combination (4 / 27) * s
      rw [this, Real.sqrt_sq (by norm_num)]
      linear_combination (4 / 9) * s
  have hnu : (0.25 : ℝ) = (√3 ^ 2 - 2 * 1 ^ 2) / (2 * (√3 ^ 2 - 1 ^ 2)) := by rw [Real.sq_sqrt (by norm_num)]; norm_num
  have hl : (1.05 : ℝ) < 1 / √(2 - 2 / √3) := by
    rw [e, lt_div_iff₀ (Real.sqrt_pos.mpr hp)]
    have : √(2 - 2 * √3 / 3) < 0.93 := by rw [Real.sqrt_lt' (by norm_num)]; nlinarith
    linarith
  have hl2 : 1 / √(2 - 2 / √3) < (2 : ℝ) := by
    rw [e, div_lt_iff₀ (Real.sqrt_pos.mpr hp)]
    have : (0.6 : ℝ) < √(2 - 2 * √3 / 3) := by rw [Real.lt_sqrt (by norm_num)]; nlinarith
    linarith
  refine ⟨hray, hnu, ?_, ?_, ?_, hl, hl2⟩
  · have ha := apart_quarter 30
    unfold solveLamb1
    rw [if_neg (by norm_num)]
    simp only
    rw [if_neg (by rintro (h | h | h); exacts [ha.1 h, ha.2.1 h, ha.2.2 h])]
    exact ⟨_, rfl⟩
  · rw [lt_div_iff₀ s0]; nlinarith
  · rw [div_lt_iff₀ s0]; nlinarith

end GRT.Lamb
