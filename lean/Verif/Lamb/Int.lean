import Verif.Lamb.Lamb1
import Mathlib.Analysis.SpecialFunctions.Integrals.Basic
import Mathlib.MeasureTheory.Function.JacobianOneDim
import Mathlib.Analysis.SpecialFunctions.Trigonometric.ArctanDeriv
import Mathlib.Analysis.SpecialFunctions.Complex.LogDeriv
import Mathlib.Tactic.LinearCombination
import Mathlib.Tactic.FieldSimp

/-! The integrals behind the closed forms of lamb1.c. -/

namespace GRT.Lamb

open Complex Set

/-! Principal square root. -/

theorem csqrt_mul_self (z : ℂ) : csqrt z * csqrt z = z := by
  unfold csqrt
  rcases eq_or_ne z 0 with rfl | h
  · simp
  · rw [← Complex.cpow_add _ _ h]; norm_num

theorem csqrt_ne {z : ℂ} (h : z ≠ 0) : csqrt z ≠ 0 := by
  intro h'; apply h; rw [← csqrt_mul_self z, h', mul_zero]

theorem csqrt_real {x : ℝ} (h : 0 ≤ x) : csqrt x = (√x : ℝ) := by
  unfold csqrt
  rw [Real.sqrt_eq_rpow, Complex.ofReal_cpow h]
  norm_num

theorem csqrt_re_pos {z : ℂ} (h : z ∈ slitPlane) : 0 < (csqrt z).re := by
  have h0 : z ≠ 0 := slitPlane_ne_zero h
  unfold csqrt
  rw [cpow_def_of_ne_zero h0, Complex.exp_re]
  apply mul_pos (Real.exp_pos _)
  have e : (Complex.log z * (1 / 2)).im = z.arg / 2 := by
    have : (1 / 2 : ℂ) = ((1 / 2 : ℝ) : ℂ) := by norm_num
    rw [this, Complex.im_mul_ofReal, Complex.log_im]; ring
  rw [e]
  apply Real.cos_pos_of_mem_Ioo
  have := Complex.arg_le_pi z
  have := Complex.neg_pi_lt_arg z
  have h3 := (mem_slitPlane_iff_arg.mp h).1
  have : z.arg < Real.pi := lt_of_le_of_ne (Complex.arg_le_pi z) h3
  constructor <;> linarith

theorem csqrt_unique {z w : ℂ} (h : w * w = z) (hw : 0 < w.re) : csqrt z = w := by
  have h0 : w ≠ 0 := by rintro rfl; simp at hw
  have hz : z ∈ slitPlane := by
    rw [← h, mem_slitPlane_iff]
    by_contra hc
    push Not at hc
    obtain ⟨h1, h2⟩ := hc
    simp only [mul_re, mul_im] at h1 h2
    have : w.im = 0 := by
      have : w.re * w.im = 0 := by linarith
      exact (mul_eq_zero.mp this).resolve_left hw.ne'
    rw [this] at h1
    nlinarith
  have h1 := csqrt_mul_self z
  have h2 := csqrt_re_pos hz
  have : (csqrt z - w) * (csqrt z + w) = 0 := by linear_combination h1 - h
  rcases mul_eq_zero.mp this with h3 | h3
  · exact sub_eq_zero.mp h3
  · exfalso
    have := congrArg Complex.re h3
    simp at this
    linarith

theorem csqrt_neg_real {x : ℝ} (h : 0 ≤ x) : csqrt ((-x : ℝ) : ℂ) = I * (√x : ℝ) := by
  rcases h.eq_or_lt with rfl | h
  · simp [csqrt]
  unfold csqrt
  rw [cpow_def_of_ne_zero (by exact_mod_cast (neg_lt_zero.mpr h).ne), Complex.log, Complex.arg_ofReal_of_neg (neg_lt_zero.mpr h)]
  rw [show (‖((-x : ℝ) : ℂ)‖) = x by simp [abs_of_pos h]]
  rw [add_mul, Complex.exp_add]
  have e1 : ((Real.pi : ℝ) : ℂ) * I * (1 / 2) = (Real.pi / 2 : ℂ) * I := by ring
  rw [e1, Complex.exp_pi_div_two_mul_I]
  have e2 : ((Real.log x : ℝ) : ℂ) * (1 / 2) = ((Real.log x * (1 / 2) : ℝ) : ℂ) := by push_cast; ring
  rw [e2, ← Complex.ofReal_exp, mul_comm]
  congr 2
  rw [Real.sqrt_eq_rpow, Real.rpow_def_of_pos h]

/-- `c` is off the real interval. -/
def Off (c : ℂ) (lo hi : ℝ) : Prop := c.im ≠ 0 ∨ c.re < lo ∨ hi < c.re

theorem Off.ne {c : ℂ} {lo hi X : ℝ} (h : Off c lo hi) (h1 : lo ≤ X) (h2 : X ≤ hi) : (X : ℂ) ≠ c := by
  rintro rfl
  rcases h with h | h | h
  · exact h (ofReal_im X)
  · rw [ofReal_re] at h; linarith
  · rw [ofReal_re] at h; linarith

theorem Off.sub_ne {c : ℂ} {lo hi X : ℝ} (h : Off c lo hi) (h1 : lo ≤ X) (h2 : X ≤ hi) : (X : ℂ) - c ≠ 0 := sub_ne_zero.mpr (h.ne h1 h2)

theorem slit_of_mul {z w : ℂ} (h : z * (starRingEnd ℂ) w ∈ slitPlane) : z / w ∈ slitPlane := by
  have hw : w ≠ 0 := by rintro rfl; simp at h
  have hn : 0 < Complex.normSq w := Complex.normSq_pos.mpr hw
  have : z / w = ((Complex.normSq w)⁻¹ : ℝ) * (z * (starRingEnd ℂ) w) := by
    rw [div_eq_mul_inv, Complex.inv_def]; push_cast; ring
  rw [this]
  have hp : 0 < (Complex.normSq w)⁻¹ := inv_pos.mpr hn
  rw [mem_slitPlane_iff] at h ⊢
  rw [re_ofReal_mul, im_ofReal_mul]
  rcases h with h | h
  · left; positivity
  · right; exact mul_ne_zero hp.ne' h

theorem Off.div {c : ℂ} {lo hi X Y : ℝ} (h : Off c lo hi) (h1 : lo ≤ X) (h2 : X ≤ hi) (h3 : lo ≤ Y) (h4 : Y ≤ hi) :
    ((X : ℂ) - c) / (Y - c) ∈ slitPlane := by
  apply slit_of_mul
  rw [mem_slitPlane_iff]
  simp only [map_sub, conj_ofReal, mul_re, mul_im, sub_re, sub_im, ofReal_re, ofReal_im, conj_re, conj_im]
  by_cases hc : c.im = 0
  · left
    rw [hc]
    rcases h with h | h | h
    · exact absurd hc h
    · have := mul_pos (by linarith : 0 < X - c.re) (by linarith : 0 < Y - c.re); nlinarith
    · have := mul_pos (by linarith : 0 < c.re - X) (by linarith : 0 < c.re - Y); nlinarith
  · by_cases hXY : X = Y
    · left; rw [hXY]
      have := mul_self_pos.mpr hc
      nlinarith [mul_self_nonneg (Y - c.re)]
    · right
      have : (X - c.re) * (0 - -c.im) + (0 - c.im) * (Y - c.re) = (X - Y) * c.im := by ring
      rw [this]
      exact mul_ne_zero (sub_ne_zero.mpr hXY) hc

theorem csqrt_quot {A B : ℂ} (hA : A ≠ 0) (h : 0 < (csqrt B / csqrt A).re) : csqrt (B / A) = csqrt B / csqrt A := by
  apply csqrt_unique _ h
  rw [div_mul_div_comm, csqrt_mul_self, csqrt_mul_self]

theorem csqrt_div_off {c : ℂ} {lo hi X Y : ℝ} (h : Off c lo hi) (h1 : lo ≤ X) (h2 : X ≤ hi) (h3 : lo ≤ Y) (h4 : Y ≤ hi) :
    csqrt (((X : ℂ) - c) / (Y - c)) = csqrt (X - c) / csqrt (Y - c) := by
  apply csqrt_quot (h.sub_ne h3 h4)
  by_cases hc : c.im = 0
  · have ec : c = (c.re : ℂ) := by apply Complex.ext <;> simp [hc]
    rw [ec]
    rcases h with h | h | h
    · exact absurd hc h
    · have a1 : 0 < X - c.re := by linarith
      have a2 : 0 < Y - c.re := by linarith
      rw [← ofReal_sub, ← ofReal_sub, csqrt_real a1.le, csqrt_real a2.le, ← ofReal_div, ofReal_re]
      positivity
    · have a1 : 0 < c.re - X := by linarith
      have a2 : 0 < c.re - Y := by linarith
      rw [← ofReal_sub, ← ofReal_sub, show X - c.re = -(c.re - X) by ring, show Y - c.re = -(c.re - Y) by ring,
        csqrt_neg_real a1.le, csqrt_neg_real a2.le, mul_div_mul_left _ _ I_ne_zero, ← ofReal_div, ofReal_re]
      positivity
  · have n1 : ((X : ℂ) - c).im ≠ 0 := by simpa using hc
    have n2 : ((Y : ℂ) - c).im ≠ 0 := by simpa using hc
    have p1 := csqrt_re_pos (mem_slitPlane_iff.mpr (Or.inr n1))
    have p2 := csqrt_re_pos (mem_slitPlane_iff.mpr (Or.inr n2))
    have q1 := congrArg Complex.im (csqrt_mul_self ((X : ℂ) - c))
    have q2 := congrArg Complex.im (csqrt_mul_self ((Y : ℂ) - c))
    simp only [mul_im, sub_im, ofReal_im, zero_sub] at q1 q2
    set u := csqrt ((X : ℂ) - c)
    set v := csqrt ((Y : ℂ) - c)
    have : 0 < u.re * v.re + u.im * v.im := by
      have e : 4 * (u.re * v.re) * (u.im * v.im) = c.im * c.im := by
        linear_combination (v.re * v.im + v.im * v.re) * q1 + (-c.im) * q2
      have h5 : 0 < u.im * v.im := by
        have := mul_pos p1 p2
        have := mul_self_pos.mpr hc
        by_contra hn
        push Not at hn
        nlinarith
      positivity
    have v0 : 0 < Complex.normSq v := Complex.normSq_pos.mpr (by intro h; rw [h] at p2; simp at p2)
    rw [div_re]
    rw [← add_div]
    positivity

/-! Arc tangent. -/

theorem arctan_slit {z : ℂ} (h : 1 + z * z ∈ slitPlane) : 1 - z * I ≠ 0 ∧ (1 + z * I) / (1 - z * I) ∈ slitPlane := by
  have hI : I * I = -1 := I_mul_I
  have h1 : 1 - z * I ≠ 0 := by
    intro h1
    have : z = -I := by
      have : z * (I * I) = I := by linear_combination -I * h1
      rw [hI] at this; linear_combination -this
    rw [this] at h
    apply slitPlane_ne_zero h
    linear_combination hI
  refine ⟨h1, ?_⟩
  by_contra hc
  rw [mem_slitPlane_iff] at hc
  push Not at hc
  obtain ⟨hr, hi⟩ := hc
  obtain ⟨r, hr', er⟩ : ∃ r : ℝ, r ≤ 0 ∧ (1 + z * I) / (1 - z * I) = r := ⟨_, hr, by apply Complex.ext <;> simp [hi]⟩
  rw [div_eq_iff h1] at er
  have hr1 : (r : ℂ) + 1 ≠ 0 := by
    intro h2
    have : (r : ℂ) = -1 := by linear_combination h2
    rw [this] at er
    have : (2 : ℂ) = 0 := by linear_combination er
    norm_num at this
  have e1 : 1 + z * z = ((4 * r / (r + 1) ^ 2 : ℝ) : ℂ) := by
    have : z * I * (r + 1) = r - 1 := by linear_combination er
    have e2 : z * z * (r + 1) ^ 2 = -(r - 1) ^ 2 := by
      linear_combination (-1 * (z * I * (r + 1) + (r - 1))) * this + (z * z * (r + 1) ^ 2) * hI
    push_cast
    rw [eq_div_iff (pow_ne_zero 2 hr1)]
    linear_combination e2
  rw [e1, mem_slitPlane_iff, ofReal_re, ofReal_im] at h
  rcases h with h | h
  · have : 4 * r / (r + 1) ^ 2 ≤ 0 := div_nonpos_of_nonpos_of_nonneg (by linarith) (by positivity)
    linarith
  · exact h rfl

theorem hasDerivAt_carctan {z : ℂ} (h : 1 + z * z ∈ slitPlane) : HasDerivAt arctan (1 / (1 + z * z)) z := by
  obtain ⟨h1, h2⟩ := arctan_slit h
  have hI : I * I = -1 := I_mul_I
  have d1 : HasDerivAt (fun z : ℂ => 1 + z * I) I z := by
    simpa using (((hasDerivAt_id z).mul_const I).const_add 1)
  have d2 : HasDerivAt (fun z : ℂ => 1 - z * I) (-I) z := by
    simpa using (((hasDerivAt_id z).mul_const I).const_sub 1)
  have d3 := ((d1.div d2 h1).clog h2).const_mul (-I / 2)
  refine d3.congr_deriv ?_
  have h0 := slitPlane_ne_zero h
  have e : 1 + z * z = (1 + z * I) * (1 - z * I) := by linear_combination z * z * hI
  have h3 : 1 + z * I ≠ 0 := by intro h3; apply h0; rw [e, h3, zero_mul]
  rw [e]
  simp only [Pi.div_apply]
  have e2 : I * (1 - z * I) - (1 + z * I) * -I = 2 * I := by ring
  rw [e2, div_div, show (1 - z * I) ^ 2 * ((1 + z * I) / (1 - z * I)) = (1 + z * I) * (1 - z * I) by field_simp,
    show -I / 2 * (2 * I / ((1 + z * I) * (1 - z * I))) = -(I * I) / ((1 + z * I) * (1 - z * I)) by ring, hI, neg_neg]

/-- Integral of `1/(1+ζ²w²) ζ w'`. -/
theorem int_carctan {ζ : ℂ} {w w' : ℝ → ℝ} {u v : ℝ} {f : ℝ → ℂ} (huv : u ≤ v) (hw : ∀ θ ∈ Icc u v, HasDerivAt w (w' θ) θ)
    (hs : ∀ θ ∈ Icc u v, 1 + ζ * w θ * (ζ * w θ) ∈ slitPlane)
    (hf : ∀ θ ∈ Icc u v, f θ = ζ * w' θ / (1 + ζ * w θ * (ζ * w θ))) (hc : ContinuousOn f (Icc u v)) :
    ∫ θ in u..v, f θ = arctan (ζ * w v) - arctan (ζ * w u) := by
  have : ∀ θ ∈ uIcc u v, HasDerivAt (fun θ => arctan (ζ * w θ)) (f θ) θ := by
    intro θ hθ
    rw [uIcc_of_le huv] at hθ
    have d1 : HasDerivAt (fun θ => ζ * (w θ : ℂ)) (ζ * w' θ) θ := ((hw θ hθ).ofReal_comp).const_mul ζ
    have := (hasDerivAt_carctan (hs θ hθ)).comp θ d1
    refine this.congr_deriv ?_
    rw [hf θ hθ]; ring
  rw [intervalIntegral.integral_eq_sub_of_hasDerivAt this]
  rw [← uIcc_of_le huv] at hc
  exact hc.intervalIntegrable

theorem carctan_zero : arctan 0 = 0 := by unfold arctan; simp

/-- Reflection. -/
theorem carctan_inv {z : ℂ} (h : 0 < z.re) : arctan z + arctan (1 / z) = Real.pi / 2 := by
  have hI : I * I = -1 := I_mul_I
  have hz : z ≠ 0 := by rintro rfl; simp at h
  have h1 : 1 - z * I ≠ 0 := by
    intro h1
    have := congrArg Complex.im h1
    simp at this; linarith
  have h2 : 1 + z * I ≠ 0 := by
    intro h1
    have := congrArg Complex.im h1
    simp at this; linarith
  set w := (1 + z * I) / (1 - z * I) with hw
  have hwi : 0 < w.im := by
    rw [hw, div_im, ← sub_div]
    apply div_pos _ (Complex.normSq_pos.mpr h1)
    simp
    nlinarith
  have e : (1 + 1 / z * I) / (1 - 1 / z * I) = (-w)⁻¹ := by
    have h3 : z - I ≠ 0 := by
      intro h3; have := congrArg Complex.re h3; simp at this; linarith
    have h4 : 1 - 1 / z * I ≠ 0 := by
      intro h4; apply h3; field_simp at h4; linear_combination h4
    rw [hw]
    field_simp
    linear_combination (2 * z) * hI
  unfold arctan
  rw [← hw, e]
  have hn : (-w).arg ≠ Real.pi := by
    have : (-w).im < 0 := by simpa using hwi
    rw [Complex.arg_of_im_neg this]
    have := Real.arccos_nonneg ((-w).re / ‖-w‖)
    have := Real.pi_pos
    linarith
  rw [Complex.log_inv _ hn]
  have : Complex.log (-w) = Complex.log w - Real.pi * I := by
    unfold Complex.log
    rw [norm_neg, Complex.arg_neg_eq_arg_sub_pi_of_im_pos hwi]
    push_cast; ring
  rw [this]
  linear_combination (-(Real.pi : ℂ) / 2) * hI

end GRT.Lamb
