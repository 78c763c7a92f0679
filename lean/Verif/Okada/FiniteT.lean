import Verif.Okada.FiniteD
import Mathlib.Analysis.SpecialFunctions.Complex.LogDeriv
import Mathlib.Analysis.SpecialFunctions.Complex.Arctan
import Mathlib.Analysis.Calculus.Deriv.Comp

/-! The arctangent in `ai4`, okada.c 814-818, continued across `xi = 0`. -/

namespace GRT.Okada

/-- Numerator of the argument of the arctangent. -/
noncomputable def tN (s c x e q : ℝ) : ℝ := e * (√(x * x + q * q) + q * c) + √(x * x + q * q) * (rr x e q + √(x * x + q * q)) * s

/-- Denominator of the argument of the arctangent. -/
noncomputable def tM (c x e q : ℝ) : ℝ := x * (rr x e q + √(x * x + q * q)) * c

/-- Twice the arctangent, without its jump at `xi = 0`. -/
noncomputable def th (s c x e q : ℝ) : ℝ := 2 * (Complex.log (⟨tN s c x e q, -tM c x e q⟩ : ℂ)).im

/-- What the derivative of `th` adds to the terms that appear in the code; a function of `xi` and `q`. -/
noncomputable def thX (s c x q a w : ℝ) : ℝ := (q * a - x * w) * (s * (√(x * x + q * q))⁻¹ * (√(x * x + q * q) + q * c)⁻¹ - (x * x + q * q)⁻¹)

variable {x e q : ℝ → ℝ} {a b w t : ℝ}

theorem sX_pos {x q : ℝ} (h0 : q ≠ 0) : 0 < √(x * x + q * q) :=
  Real.sqrt_pos.2 (by nlinarith [mul_self_nonneg x, mul_self_pos.2 h0])

theorem sXq_pos {s c x q : ℝ} (tr : s * s + c * c = 1) (hs : s ≠ 0) (h0 : q ≠ 0) : 0 < √(x * x + q * q) + q * c := by
  have h1 : √((q * c) ^ 2) < √(x * x + q * q) := by
    refine Real.sqrt_lt_sqrt (sq_nonneg _) ?_
    have h2 := mul_pos (mul_self_pos.2 hs) (mul_self_pos.2 h0)
    have : (q * c) ^ 2 = q * q - s * s * (q * q) := by linear_combination q * q * tr
    rw [this]
    nlinarith [mul_self_nonneg x]
  rw [Real.sqrt_sq_eq_abs] at h1
  have := (abs_lt.1 h1).1
  linarith

theorem tNM {s c x e q : ℝ} (tr : s * s + c * c = 1) : tN s c x e q * tN s c x e q + tM c x e q * tM c x e q =
    2 * √(x * x + q * q) * (rr x e q + √(x * x + q * q)) * (√(x * x + q * q) + q * c) * (rr x e q + (e * s - q * c)) := by
  have h1 : √(x * x + q * q) * √(x * x + q * q) = x * x + q * q :=
    Real.mul_self_sqrt (by nlinarith [mul_self_nonneg x, mul_self_nonneg q])
  have h2 := rr_rel x e q
  unfold tN tM
  generalize √(x * x + q * q) = X at *
  generalize rr x e q = R at *
  grind

theorem arg_der {N M : ℝ → ℝ} {N' M' t : ℝ} (hN : HasDerivAt N N' t) (hM : HasDerivAt M M' t) (sl : (⟨N t, M t⟩ : ℂ) ∈ Complex.slitPlane) :
    HasDerivAt (fun t => (Complex.log (⟨N t, M t⟩ : ℂ)).im) ((M' * N t - N' * M t) / (N t * N t + M t * M t)) t := by
  have hz : HasDerivAt (fun t => (⟨N t, M t⟩ : ℂ)) (⟨N', M'⟩ : ℂ) t := by
    have := (hN.ofReal_comp).fun_add ((hM.ofReal_comp).mul_const Complex.I)
    simpa only [← Complex.mk_eq_add_mul_I] using this
  have := Complex.imCLM.hasFDerivAt.comp_hasDerivAt t (hz.clog_real sl)
  refine this.congr_deriv ?_
  rw [Complex.imCLM_apply, Complex.div_im, Complex.normSq_mk]
  ring

theorem Curve.th {s c : ℝ} (tr : s * s + c * c = 1) (hs : s ≠ 0) (h : Curve x e q a b w t) (h0 : q t ≠ 0)
    (h1 : 0 < Okada.rr (x t) (e t) (q t) + (e t * s - q t * c)) (h2 : x t = 0 → 0 < tN s c (x t) (e t) (q t)) (hc : c ≠ 0) :
    HasDerivAt (fun t => th s c (x t) (e t) (q t))
      (((q t * Okada.rho (x t) (e t) (q t) * Okada.bt (x t) (e t) (q t)) -
          (e t * c + q t * s) * (Okada.rho (x t) (e t) (q t) * Okada.tq s c (x t) (e t) (q t))) * a +
        c * x t * (Okada.rho (x t) (e t) (q t) * Okada.tq s c (x t) (e t) (q t)) * b +
        (s * x t * (Okada.rho (x t) (e t) (q t) * Okada.tq s c (x t) (e t) (q t)) -
          x t * (Okada.rho (x t) (e t) (q t) * Okada.bt (x t) (e t) (q t))) * w + thX s c (x t) (q t) a w) t := by
  have pX : 0 < √(x t * x t + q t * q t) := sX_pos h0
  have pR := rr_pos (x := x t) (e := e t) h0
  have pC := sXq_pos (x := x t) tr hs h0
  have hX : HasDerivAt (fun t => √(x t * x t + q t * q t)) ((x t * a + q t * w) * (√(x t * x t + q t * q t))⁻¹) t := by
    refine (((h.hx.fun_mul h.hx).fun_add (h.hq.fun_mul h.hq)).sqrt
      (by nlinarith [mul_self_nonneg (x t), mul_self_pos.2 h0])).congr_deriv ?_
    field_simp
    ring
  have hR := h.rr h0
  have hN := (h.he.fun_mul (hX.fun_add (h.hq.fun_mul (hasDerivAt_const t c)))).fun_add
    ((hX.fun_mul (hR.fun_add hX)).fun_mul (hasDerivAt_const t s))
  have hM := ((h.hx.fun_mul (hR.fun_add hX)).fun_mul (hasDerivAt_const t c)).fun_neg
  have sl : (⟨tN s c (x t) (e t) (q t), -tM c (x t) (e t) (q t)⟩ : ℂ) ∈ Complex.slitPlane := by
    rw [Complex.mem_slitPlane_iff]
    by_cases hx : x t = 0
    · exact Or.inl (h2 hx)
    · refine Or.inr (neg_ne_zero.2 (mul_ne_zero (mul_ne_zero hx ?_) hc))
      linarith
  have := (arg_der hN hM sl).const_mul 2
  refine this.congr_deriv ?_
  have e1 : Okada.rho (x t) (e t) (q t) = (Okada.rr (x t) (e t) (q t))⁻¹ := rfl
  have nm := tNM (x := x t) (e := e t) (q := q t) tr
  have hb := (bt_pos (x := x t) (e := e t) h0).ne'
  have hr := rr_rel (x t) (e t) (q t)
  have hx2 : √(x t * x t + q t * q t) * √(x t * x t + q t * q t) = x t * x t + q t * q t :=
    Real.mul_self_sqrt (by nlinarith [mul_self_nonneg (x t), mul_self_nonneg (q t)])
  rw [e1]
  unfold Okada.tq Okada.bt thX
  have dn : tN s c (x t) (e t) (q t) * tN s c (x t) (e t) (q t) + -tM c (x t) (e t) (q t) * -tM c (x t) (e t) (q t) =
    2 * √(x t * x t + q t * q t) * (Okada.rr (x t) (e t) (q t) + √(x t * x t + q t * q t)) * (√(x t * x t + q t * q t) + q t * c) *
      (Okada.rr (x t) (e t) (q t) + (e t * s - q t * c)) := by rw [← nm]; ring
  change 2 * (_ / (tN s c (x t) (e t) (q t) * tN s c (x t) (e t) (q t) + -tM c (x t) (e t) (q t) * -tM c (x t) (e t) (q t))) = _
  rw [dn]
  clear this dn nm e1 hN hM hX hR sl h h2
  generalize √(x t * x t + q t * q t) = X at *
  generalize Okada.rr (x t) (e t) (q t) = R at *
  generalize x t = ξ at *
  generalize e t = η at *
  generalize q t = ζ at *
  rw [← hx2]
  have p4 : R + X ≠ 0 := by linarith
  have p1 := h1.ne'
  have p2 := pC.ne'
  have p3 := pX.ne'
  have p5 := pR.ne'
  field_simp
  clear pX pR pC p1 p2 p3 p4 p5 h0 h1 hb hs hc
  grind

theorem tN_pos {s c e q : ℝ} (tr : s * s + c * c = 1) (hs : 0 < s) (h0 : q ≠ 0) (hd : 0 ≤ e * s - q * c) : 0 < tN s c 0 e q := by
  have p1 := sXq_pos (x := 0) tr hs.ne' h0
  have p2 := sX_pos (x := 0) h0
  have p3 := rr_pos (x := 0) (e := e) h0
  have g := (rr_gt (x := 0) (e := e) h0).2
  unfold tN
  rcases le_or_gt 0 e with he | he
  · have := mul_nonneg he p1.le
    have := mul_pos (mul_pos p2 (add_pos p3 p2)) hs
    linarith
  · have eX : √(0 * 0 + q * q) = |q| := by rw [zero_mul, zero_add, Real.sqrt_mul_self_eq_abs]
    rw [eX] at *
    rw [abs_of_neg he] at g
    have hc := abs_mul q c
    have h1 : |q| * |c| = -(q * c) := by
      rw [← hc, abs_of_neg]
      nlinarith
    have sc : 1 ≤ s + |c| := by
      have : |c| * |c| = c * c := abs_mul_abs_self c
      nlinarith [mul_nonneg hs.le (abs_nonneg c), abs_nonneg c]
    have h2 : 0 < |q| := abs_pos.2 h0
    have h3 : e * (|q| + q * c) + |q| * (rr 0 e q + |q|) * s = |q| * ((rr 0 e q + |q|) * s + e * (1 - |c|)) := by
      linear_combination e * h1
    rw [h3]
    refine mul_pos h2 ?_
    have h4 : 0 < (rr 0 e q + e) * s := mul_pos (by linarith) hs
    have h5 : 0 ≤ -e * (s + |c| - 1) := mul_nonneg (by linarith) (by linarith)
    have h6 : 0 < |q| * s := mul_pos h2 hs
    nlinarith

theorem arg_neg {N M : ℝ} (h : M < 0) : Complex.arg ⟨N, -M⟩ = Real.pi / 2 + Real.arctan (N / M) := by
  have hp := Real.cos_arctan_pos (N / M)
  have ht := Real.tan_arctan (N / M)
  have i1 := Real.arctan_lt_pi_div_two (N / M)
  have i2 := Real.neg_pi_div_two_lt_arctan (N / M)
  rw [Real.tan_eq_sin_div_cos, div_eq_div_iff hp.ne' h.ne] at ht
  have r : 0 < -M / Real.cos (Real.arctan (N / M)) := div_pos (by linarith) hp
  have key := Complex.arg_mul_cos_add_sin_mul_I r (θ := Real.pi / 2 + Real.arctan (N / M)) ⟨by linarith [Real.pi_pos], by linarith⟩
  refine Eq.trans (congrArg Complex.arg ?_) key
  rw [← Complex.ofReal_cos, ← Complex.ofReal_sin, add_comm (Real.pi / 2), Real.cos_add_pi_div_two, Real.sin_add_pi_div_two]
  clear key r i1 i2
  generalize Real.cos (Real.arctan (N / M)) = C at *
  generalize Real.sin (Real.arctan (N / M)) = S at *
  apply Complex.ext
  · rw [Complex.re_ofReal_mul, Complex.add_re, Complex.re_ofReal_mul, Complex.ofReal_re, Complex.I_re]
    field_simp
    linarith
  · rw [Complex.im_ofReal_mul, Complex.add_im, Complex.im_ofReal_mul, Complex.ofReal_im, Complex.I_im]
    field_simp
    try ring

theorem arg_pos {N M : ℝ} (h : 0 < M) : Complex.arg ⟨N, -M⟩ = Real.arctan (N / M) - Real.pi / 2 := by
  have hp := Real.cos_arctan_pos (N / M)
  have ht := Real.tan_arctan (N / M)
  have i1 := Real.arctan_lt_pi_div_two (N / M)
  have i2 := Real.neg_pi_div_two_lt_arctan (N / M)
  rw [Real.tan_eq_sin_div_cos, div_eq_div_iff hp.ne' h.ne'] at ht
  have r : 0 < M / Real.cos (Real.arctan (N / M)) := div_pos h hp
  have key := Complex.arg_mul_cos_add_sin_mul_I r (θ := Real.arctan (N / M) - Real.pi / 2) ⟨by linarith, by linarith [Real.pi_pos]⟩
  refine Eq.trans (congrArg Complex.arg ?_) key
  rw [← Complex.ofReal_cos, ← Complex.ofReal_sin, Real.cos_sub_pi_div_two, Real.sin_sub_pi_div_two]
  clear key r i1 i2
  generalize Real.cos (Real.arctan (N / M)) = C at *
  generalize Real.sin (Real.arctan (N / M)) = S at *
  apply Complex.ext
  · rw [Complex.re_ofReal_mul, Complex.add_re, Complex.re_ofReal_mul, Complex.ofReal_re, Complex.I_re]
    field_simp
    linarith
  · rw [Complex.im_ofReal_mul, Complex.add_im, Complex.im_ofReal_mul, Complex.ofReal_im, Complex.I_im]
    field_simp
    try ring

/-- The code's arctangent is the continued one plus a jump that depends only on the side of the corner. -/
theorem atan_th {s c x e q : ℝ} (hc : c ≠ 0) (h0 : q ≠ 0) (h2 : x = 0 → 0 < tN s c x e q) :
    (if x = 0 then 0 else 2 * Real.arctan (tN s c x e q / tM c x e q)) = th s c x e q + Real.pi * SignType.sign (x * c) := by
  unfold th
  rw [Complex.log_im]
  split
  · rename_i hx
    have := h2 hx
    have m : tM c x e q = 0 := by simp [tM, hx]
    rw [m, hx]
    rw [hx] at this
    rw [show (⟨tN s c 0 e q, -0⟩ : ℂ) = ((tN s c 0 e q : ℝ) : ℂ) by apply Complex.ext <;> simp, Complex.arg_ofReal_of_nonneg this.le]
    simp
  · rename_i hx
    have p : 0 < rr x e q + √(x * x + q * q) := add_pos (rr_pos h0) (sX_pos h0)
    have e1 : tM c x e q = x * c * (rr x e q + √(x * x + q * q)) := by unfold tM; ring
    generalize tN s c x e q = N
    rcases lt_or_gt_of_ne (mul_ne_zero hx hc) with h | h
    · have m : tM c x e q < 0 := by rw [e1]; exact mul_neg_of_neg_of_pos h p
      rw [sign_neg h]
      generalize tM c x e q = M at *
      rw [arg_neg m]
      simp
      ring
    · have m : 0 < tM c x e q := by rw [e1]; exact mul_pos h p
      rw [sign_pos h]
      generalize tM c x e q = M at *
      rw [arg_pos m]
      simp
      ring

end GRT.Okada
