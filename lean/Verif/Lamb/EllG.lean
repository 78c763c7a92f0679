import Verif.Lamb.EllDup

/-! The difference made by one duplication of the integral of the third kind, in closed form. -/

namespace GRT.Ell

open Complex Set MeasureTheory Filter GRT.Lamb

theorem norm_sub_le_add {q : ℂ} {a : ℝ} (hq : 0 < q.re) (ha : 0 ≤ a) : ‖q - a‖ ≤ ‖q + a‖ := by
  rw [← Real.sqrt_sq (norm_nonneg (q - a)), ← Real.sqrt_sq (norm_nonneg (q + a)), ← Complex.normSq_eq_norm_sq, ← Complex.normSq_eq_norm_sq]
  apply Real.sqrt_le_sqrt
  simp only [Complex.normSq_apply, sub_re, add_re, sub_im, add_im, ofReal_re, ofReal_im]
  nlinarith [mul_nonneg hq.le ha]

theorem norm_sub_lt_add {q : ℂ} {a : ℝ} (hq : 0 < q.re) (ha : 0 < a) : ‖q - a‖ < ‖q + a‖ := by
  rw [← Real.sqrt_sq (norm_nonneg (q - a)), ← Real.sqrt_sq (norm_nonneg (q + a)), ← Complex.normSq_eq_norm_sq, ← Complex.normSq_eq_norm_sq]
  apply Real.sqrt_lt_sqrt (Complex.normSq_nonneg _)
  simp only [Complex.normSq_apply, sub_re, add_re, sub_im, add_im, ofReal_re, ofReal_im]
  nlinarith [mul_pos hq ha]

theorem le_norm_add {q : ℂ} {a : ℝ} (hq : 0 < q.re) : a < ‖q + a‖ := by
  have := Complex.re_le_norm (q + a)
  simp at this
  linarith

theorem add_ne {q : ℂ} {a : ℝ} (hq : 0 < q.re) (ha : 0 ≤ a) : q + a ≠ 0 := by
  rw [← norm_pos_iff]
  exact ha.trans_lt (le_norm_add hq)

/-- The quotient `e` lies in the unit disc. -/
theorem e_lt {q : ℂ} {a b c : ℝ} (hq : 0 < q.re) (ha : 0 ≤ a) (hb : 0 ≤ b) (hc : 0 < c) :
    ‖(q * q - a * a) * (q * q - b * b) * (q * q - c * c) / ((q + a) * (q + b) * (q + c) * ((q + a) * (q + b) * (q + c)))‖ < 1 := by
  have a0 := add_ne hq ha
  have b0 := add_ne hq hb
  have c0 := add_ne hq hc.le
  have e : (q * q - a * a) * (q * q - b * b) * (q * q - c * c) / ((q + a) * (q + b) * (q + c) * ((q + a) * (q + b) * (q + c))) =
      (q - a) / (q + a) * ((q - b) / (q + b)) * ((q - c) / (q + c)) := by
    field_simp
    ring
  rw [e, norm_mul, norm_mul, norm_div, norm_div, norm_div]
  have h1 : ‖q - a‖ / ‖q + a‖ ≤ 1 := div_le_one_of_le₀ (norm_sub_le_add hq ha) (norm_nonneg _)
  have h2 : ‖q - b‖ / ‖q + b‖ ≤ 1 := div_le_one_of_le₀ (norm_sub_le_add hq hb) (norm_nonneg _)
  have h3 : ‖q - c‖ / ‖q + c‖ < 1 := (div_lt_one (norm_pos_iff.2 c0)).2 (norm_sub_lt_add hq hc)
  have h1' : 0 ≤ ‖q - a‖ / ‖q + a‖ := by positivity
  have h2' : 0 ≤ ‖q - b‖ / ‖q + b‖ := by positivity
  have h3' : 0 ≤ ‖q - c‖ / ‖q + c‖ := by positivity
  calc _ ≤ 1 * 1 * (‖q - c‖ / ‖q + c‖) := by gcongr
    _ < 1 := by linarith

theorem tInt_le {e : ℂ} (he : ‖e‖ ≤ 1 / 2) : ‖tInt e‖ ≤ 2 := by
  unfold tInt
  have := intervalIntegral.norm_integral_le_of_norm_le_const (a := (0 : ℝ)) (b := 1) (C := 2)
    (f := fun u : ℝ => 1 / (1 + e * (u : ℂ) ^ 2)) ?_
  · simpa using this
  · intro u hu
    rw [uIoc_of_le zero_le_one] at hu
    have h1 : ‖e * (u : ℂ) ^ 2‖ ≤ 1 / 2 := by
      rw [norm_mul, norm_pow, Complex.norm_real, Real.norm_eq_abs, abs_of_pos hu.1]
      have : u ^ 2 ≤ 1 := by nlinarith [hu.1, hu.2]
      nlinarith [norm_nonneg e]
    have h2 : 1 / 2 ≤ ‖1 + e * (u : ℂ) ^ 2‖ := by
      have := norm_sub_norm_le (1 : ℂ) (-(e * (u : ℂ) ^ 2))
      rw [norm_one, norm_neg, sub_neg_eq_add] at this
      linarith
    rw [norm_div, norm_one, div_le_iff₀ (by linarith)]
    linarith

/-- `d` with `t` added to the arguments. -/
noncomputable def dT (x y z : ℝ) (p : ℂ) (t : ℝ) : ℂ :=
  (csqrt (t + p) + (√(t + x) : ℝ)) * (csqrt (t + p) + (√(t + y) : ℝ)) * (csqrt (t + p) + (√(t + z) : ℝ))

/-- The numerator of `e`. -/
noncomputable def pT (x y z : ℝ) (p : ℂ) : ℂ := (p - x) * (p - y) * (p - z)

theorem Args.pT_eq {x y z : ℝ} (h : Args x y z) (p : ℂ) {t : ℝ} (ht : 0 ≤ t) :
    pT x y z p = (csqrt (t + p) * csqrt (t + p) - (√(t + x) : ℝ) * (√(t + x) : ℝ)) * (csqrt (t + p) * csqrt (t + p) - (√(t + y) : ℝ) * (√(t + y) : ℝ)) *
      (csqrt (t + p) * csqrt (t + p) - (√(t + z) : ℝ) * (√(t + z) : ℝ)) := by
  have hx := h.x0; have hy := h.y0; have hz := h.z0
  rw [csqrt_mul_self, ← ofReal_mul, ← ofReal_mul, ← ofReal_mul, Real.mul_self_sqrt (by linarith), Real.mul_self_sqrt (by linarith),
    Real.mul_self_sqrt (by linarith)]
  unfold pT
  push_cast
  ring

theorem Args.e_small {x y z : ℝ} (h : Args x y z) {p : ℂ} {δ : ℝ} (hp : Away p δ) {t : ℝ} (ht : 0 ≤ t) :
    ‖pT x y z p / (dT x y z p t * dT x y z p t)‖ < 1 := by
  rw [h.pT_eq p ht]
  have hz := h.z0
  exact e_lt (csqrt_re_pos (hp.slit ht)) (Real.sqrt_nonneg _) (Real.sqrt_nonneg _) (Real.sqrt_pos.2 (by linarith))

theorem Args.dT_ne {x y z : ℝ} (_ : Args x y z) {p : ℂ} {δ : ℝ} (hp : Away p δ) {t : ℝ} (ht : 0 ≤ t) : dT x y z p t ≠ 0 := by
  have hq := csqrt_re_pos (hp.slit ht)
  exact mul_ne_zero (mul_ne_zero (add_ne hq (Real.sqrt_nonneg _)) (add_ne hq (Real.sqrt_nonneg _))) (add_ne hq (Real.sqrt_nonneg _))

/-- The antiderivative. -/
noncomputable def gT (x y z : ℝ) (p : ℂ) (t : ℝ) : ℂ := tInt (pT x y z p / (dT x y z p t * dT x y z p t)) / dT x y z p t

theorem Args.dT_sum {x y z : ℝ} (h : Args x y z) {p : ℂ} {t : ℝ} (ht : 0 ≤ t) :
    dT x y z p t * dT x y z p t + pT x y z p = 2 * csqrt (t + p) * (((t + lamT x y z t : ℝ) : ℂ) + p) * dT x y z p t := by
  have e2 : ((t + lamT x y z t : ℝ) : ℂ) + p = csqrt (t + p) * csqrt (t + p) + lamT x y z t := by
    rw [csqrt_mul_self]; push_cast; ring
  rw [h.pT_eq p ht, e2]
  unfold dT lamT
  push_cast
  ring

theorem Args.g_deriv {x y z : ℝ} (h : Args x y z) {p : ℂ} {δ : ℝ} (hp : Away p δ) {t : ℝ} (ht : 0 < t) :
    HasDerivAt (gT x y z p) (-(1 / 4) * (((1 / den x y z t : ℝ) : ℂ) * (1 / (t + p) - 1 / (((t + lamT x y z t : ℝ) : ℂ) + p)))) t := by
  have hx := h.x0; have hy := h.y0; have hz := h.z0
  have hs := hp.slit ht.le
  have d1 := (sqrt_shift x t (by linarith)).ofReal_comp
  have d2 := (sqrt_shift y t (by linarith)).ofReal_comp
  have d3 := (sqrt_shift z t (by linarith)).ofReal_comp
  have dσ : HasDerivAt (fun σ : ℝ => (σ : ℂ) + p) 1 t := ((hasDerivAt_id t).ofReal_comp).add_const p
  have dq : HasDerivAt (fun σ : ℝ => csqrt (σ + p)) (1 / (2 * csqrt (t + p)) * 1) t :=
    HasDerivAt.comp (h := fun σ : ℝ => (σ : ℂ) + p) (h₂ := csqrt) t (hasDerivAt_csqrt hs) dσ
  have dd := (((dq.add d1).mul (dq.add d2)).mul (dq.add d3))
  have hd : HasDerivAt (dT x y z p) _ t := dd
  have hw := hasDerivAt_tw (h.dT_ne hp ht.le) (slit_small (h.e_small hp ht.le))
  have hG : HasDerivAt (gT x y z p) _ t := hw.comp t hd
  refine hG.congr_deriv ?_
  rw [h.dT_sum ht.le]
  have q0 : csqrt (t + p) ≠ 0 := csqrt_ne (slitPlane_ne_zero hs)
  have qq := csqrt_mul_self ((t : ℂ) + p)
  have hl : ((t + lamT x y z t : ℝ) : ℂ) + p = csqrt (t + p) * csqrt (t + p) + lamT x y z t := by
    rw [qq]; push_cast; ring
  have hl0 := hp.ne (t := t + lamT x y z t) (by have := lamT_nonneg x y z t; linarith)
  rw [hl] at hl0 ⊢
  have n1 := h.dT_ne hp ht.le
  have p1 := Real.sqrt_pos.2 (show 0 < t + x by linarith)
  have p2 := Real.sqrt_pos.2 (show 0 < t + y by linarith)
  have p3 := Real.sqrt_pos.2 (show 0 < t + z by linarith)
  have hq := csqrt_re_pos hs
  have f1 := add_ne hq p1.le
  have f2 := add_ne hq p2.le
  have f3 := add_ne hq p3.le
  simp only [Pi.add_apply, Pi.mul_apply]
  unfold den dT lamT at *
  clear dd hd hw hG d1 d2 d3 dq dσ hl hs
  generalize csqrt ((t : ℂ) + p) = q at *
  rw [← qq]
  have c1 : ((√(t + x) : ℝ) : ℂ) ≠ 0 := by exact_mod_cast p1.ne'
  have c2 : ((√(t + y) : ℝ) : ℂ) ≠ 0 := by exact_mod_cast p2.ne'
  have c3 : ((√(t + z) : ℝ) : ℂ) ≠ 0 := by exact_mod_cast p3.ne'
  push_cast at *
  generalize ((√(t + x) : ℝ) : ℂ) = a at *
  generalize ((√(t + y) : ℝ) : ℂ) = b at *
  generalize ((√(t + z) : ℝ) : ℂ) = c at *
  have e : (1 / (2 * q) * 1 + 1 / (2 * a)) * (q + b) * (q + c) + (q + a) * (1 / (2 * q) * 1 + 1 / (2 * b)) * (q + c) +
      (q + a) * (q + b) * (1 / (2 * q) * 1 + 1 / (2 * c)) = (q + a) * (q + b) * (q + c) * (a * b + a * c + b * c) / (2 * q * a * b * c) := by
    field_simp
    ring
  have e3 : (1 / (q * q) - 1 / (q * q + (a * b + a * c + b * c))) = (a * b + a * c + b * c) / (q * q * (q * q + (a * b + a * c + b * c))) := by
    rw [div_sub_div _ _ (mul_ne_zero q0 q0) hl0]
    congr 1; ring
  rw [e3]
  trans -1 / (2 * q * (q * q + (a * b + a * c + b * c)) * ((q + a) * (q + b) * (q + c))) *
    ((q + a) * (q + b) * (q + c) * (a * b + a * c + b * c) / (2 * q * a * b * c))
  · rw [← e]; ring
  · generalize q * q + (a * b + a * c + b * c) = L at *
    field_simp
    ring

theorem Args.g_cont {x y z : ℝ} (h : Args x y z) {p : ℂ} {δ : ℝ} (hp : Away p δ) : ContinuousAt (gT x y z p) 0 := by
  have hs := hp.slit le_rfl
  have hq : ContinuousAt (fun t : ℝ => csqrt (t + p)) 0 :=
    ContinuousAt.comp (f := fun t : ℝ => (t : ℂ) + p) (hasDerivAt_csqrt hs).continuousAt (by fun_prop)
  have hd : ContinuousAt (dT x y z p) 0 := by
    unfold dT
    refine ContinuousAt.mul (ContinuousAt.mul (hq.add ?_) (hq.add ?_)) (hq.add ?_) <;> fun_prop
  have hw := (hasDerivAt_tw (h.dT_ne hp le_rfl) (slit_small (h.e_small hp le_rfl))).continuousAt
  exact ContinuousAt.comp (f := dT x y z p) hw hd

theorem Args.g_lim {x y z : ℝ} (h : Args x y z) {p : ℂ} {δ : ℝ} (hp : Away p δ) : Tendsto (gT x y z p) atTop (nhds 0) := by
  have hx := h.x0; have hy := h.y0; have hz := h.z0
  rw [tendsto_zero_iff_norm_tendsto_zero]
  refine squeeze_zero' (Eventually.of_forall fun t => norm_nonneg _) (g := fun t : ℝ => 2 / t) ?_ (tendsto_const_nhds.div_atTop tendsto_id)
  filter_upwards [eventually_ge_atTop (1 : ℝ), eventually_ge_atTop (2 * ‖pT x y z p‖)] with t t1 tP
  have hq := csqrt_re_pos (hp.slit (t := t) (by linarith))
  have hs1 : 1 ≤ √t := by rw [Real.one_le_sqrt]; exact t1
  have b1 : √t ≤ ‖csqrt (t + p) + (√(t + x) : ℝ)‖ := (Real.sqrt_le_sqrt (by linarith)).trans (le_norm_add hq).le
  have b2 : √t ≤ ‖csqrt (t + p) + (√(t + y) : ℝ)‖ := (Real.sqrt_le_sqrt (by linarith)).trans (le_norm_add hq).le
  have b3 : √t ≤ ‖csqrt (t + p) + (√(t + z) : ℝ)‖ := (Real.sqrt_le_sqrt (by linarith)).trans (le_norm_add hq).le
  have ss := Real.mul_self_sqrt (show 0 ≤ t by linarith)
  have hd : t ≤ ‖dT x y z p t‖ := by
    unfold dT
    rw [norm_mul, norm_mul]
    calc t = √t * √t * 1 := by rw [ss, mul_one]
      _ ≤ _ := by gcongr; exact hs1.trans b3
  have he : ‖pT x y z p / (dT x y z p t * dT x y z p t)‖ ≤ 1 / 2 := by
    rw [norm_div, norm_mul, div_le_iff₀ (mul_pos (by linarith) (by linarith))]
    nlinarith [norm_nonneg (pT x y z p)]
  unfold gT
  rw [norm_div]
  exact div_le_div₀ (by norm_num) (tInt_le he) (by linarith) hd

theorem Args.g_val {x y z : ℝ} (h : Args x y z) {p : ℂ} {δ : ℝ} (hp : Away p δ) :
    ∫ t in Ioi (0 : ℝ), ((1 / den x y z t : ℝ) : ℂ) * (1 / (t + p) - 1 / (((t + lamT x y z t : ℝ) : ℂ) + p)) = 4 * gT x y z p 0 := by
  have hl := lamT_cont x y z
  have hn := lamT_nonneg x y z
  have hi : IntegrableOn (fun t : ℝ => ((1 / den x y z t : ℝ) : ℂ) * (1 / (t + p) - 1 / (((t + lamT x y z t : ℝ) : ℂ) + p))) (Ioi 0) := by
    refine h.integrable_j (C := 1 / δ + 1 / δ) ?_ ?_
    · exact (hp.cont (f := fun t => t) continuous_id (fun t ht => ht.le)).sub
        (hp.cont (f := fun t => t + lamT x y z t) (by fun_prop) (fun t ht => by have := hn t; linarith))
    · intro t ht
      have t0 : (0 : ℝ) < t := ht
      exact (norm_sub_le _ _).trans (add_le_add (hp.inv_le t0.le) (hp.inv_le (by have := hn t; linarith)))
  have := integral_Ioi_of_hasDerivAt_of_tendsto (h.g_cont hp).continuousWithinAt (fun t ht => h.g_deriv hp ht) (hi.const_mul _) (h.g_lim hp)
  rw [integral_const_mul] at this
  linear_combination -4 * this

/-- One duplication of the integral of the third kind. -/
theorem Args.j_step {x y z : ℝ} (h : Args x y z) {p : ℂ} {δ : ℝ} (hp : Away p δ) :
    jInt x y z p = 1 / 4 * jInt ((x + lamT x y z 0) / 4) ((y + lamT x y z 0) / 4) ((z + lamT x y z 0) / 4) ((p + lamT x y z 0) / 4) + 4 * gT x y z p 0 := by
  have := h.j_dup hp
  rw [h.g_val hp] at this
  linear_combination this

theorem Args.g_le {x y z : ℝ} (h : Args x y z) {p : ℂ} {δ : ℝ} (hp : Away p δ) : ‖gT x y z p 0‖ ≤ fInt x y z / (2 * δ) := by
  have := h.j_diff_le hp
  have hδ := hp.pos
  rw [h.g_val hp, norm_mul, Complex.norm_ofNat] at this
  rw [le_div_iff₀ (by positivity)]
  have e : 2 / δ * fInt x y z * δ = 2 * fInt x y z := by field_simp
  have := mul_le_mul_of_nonneg_right this hδ.le
  rw [e] at this
  linarith

end GRT.Ell
