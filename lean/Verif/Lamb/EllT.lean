import Verif.Lamb.Int2
import Mathlib.Analysis.SpecialFunctions.Pow.Deriv

/-! Carlson's degenerate integral `∫₀¹ du/(1 + e u²)`: derivative, halving, series. -/

namespace GRT.Lamb

open Complex Set

/-- `∫₀¹ du/(1 + e u²)`. -/
noncomputable def tInt (e : ℂ) : ℂ := ∫ u in (0 : ℝ)..1, 1 / (1 + e * (u : ℂ) ^ 2)

theorem slit_seg {e : ℂ} (h : 1 + e ∈ slitPlane) {s : ℝ} (h0 : 0 ≤ s) (h1 : s ≤ 1) : 1 + e * s ∈ slitPlane := by
  rcases h0.eq_or_lt with rfl | h0
  · simp
  rw [mem_slitPlane_iff] at h ⊢
  rcases h with h | h
  · left; simp at h ⊢; nlinarith
  · right; simp at h ⊢; exact ⟨h, h0.ne'⟩

theorem slit_sq {c : ℂ} (h : 1 + c * c ∈ slitPlane) {u : ℝ} (hu : u ∈ Icc (0 : ℝ) 1) : 1 + c * u * (c * u) ∈ slitPlane := by
  have := slit_seg h (s := u ^ 2) (by positivity) (by have := hu.1; have := hu.2; nlinarith)
  convert this using 1
  push_cast; ring

theorem tInt_arctan {c : ℂ} (h : 1 + c * c ∈ slitPlane) : c * tInt (c * c) = arctan c := by
  unfold tInt
  rw [← intervalIntegral.integral_const_mul]
  have := int_carctan (ζ := c) (w := fun u => u) (w' := fun _ => 1) (u := 0) (v := 1) (f := fun u => c * (1 / (1 + c * c * (u : ℂ) ^ 2)))
    zero_le_one (fun θ _ => hasDerivAt_id θ) (fun θ hθ => slit_sq h hθ) (fun θ hθ => by simp; ring) ?_
  · rw [this]; simp [carctan_zero]
  · apply ContinuousOn.mul continuousOn_const
    apply ContinuousOn.div continuousOn_const
    · fun_prop
    · intro u hu
      have := slitPlane_ne_zero (slit_sq h hu)
      convert this using 1; ring

theorem tInt_zero : tInt 0 = 1 := by unfold tInt; simp

theorem tInt_of {e c : ℂ} (hc : c * c = e) (c0 : c ≠ 0) (h : 1 + e ∈ slitPlane) : tInt e = arctan c / c := by
  subst hc
  rw [eq_div_iff c0, mul_comm]; exact tInt_arctan h

theorem hasDerivAt_csqrt {z : ℂ} (h : z ∈ slitPlane) : HasDerivAt csqrt (1 / (2 * csqrt z)) z := by
  have h0 := slitPlane_ne_zero h
  have := (hasDerivAt_id z).cpow_const (c := (1 / 2 : ℂ)) h
  refine this.congr_deriv ?_
  have hs := csqrt_ne h0
  have hm := csqrt_mul_self z
  simp only [id, mul_one]
  rw [Complex.cpow_sub _ _ h0, cpow_one]
  show 1 / 2 * (csqrt z / z) = _
  have : csqrt z / z = 1 / csqrt z := by rw [div_eq_div_iff h0 hs]; rw [hm]; ring
  rw [this]; field_simp

theorem hasDerivAt_tw {P w : ℂ} (hw : w ≠ 0) (h : 1 + P / (w * w) ∈ slitPlane) :
    HasDerivAt (fun w => tInt (P / (w * w)) / w) (-1 / (w * w + P)) w := by
  rcases eq_or_ne P 0 with rfl | hP
  · simp only [zero_div, tInt_zero, add_zero]
    have := hasDerivAt_inv hw
    simp only [one_div]
    refine this.congr_deriv ?_
    field_simp
  · set c := csqrt P with hc
    have c0 : c ≠ 0 := csqrt_ne hP
    have cc : c * c = P := csqrt_mul_self P
    have ev : ∀ᶠ v in nhds w, 1 + P / (v * v) ∈ slitPlane ∧ v ≠ 0 := by
      apply Filter.Eventually.and
      · have hcont : ContinuousAt (fun v => 1 + P / (v * v)) w :=
          continuousAt_const.add (continuousAt_const.div (continuousAt_id.mul continuousAt_id) (mul_ne_zero hw hw))
        exact hcont.eventually (isOpen_slitPlane.mem_nhds h)
      · exact continuousAt_id.eventually_ne hw
    have e1 : (fun w => tInt (P / (w * w)) / w) =ᶠ[nhds w] fun v => arctan (c / v) / c := by
      filter_upwards [ev] with v hv
      rw [tInt_of (c := c / v) (by rw [div_mul_div_comm, cc]) (div_ne_zero c0 hv.2) hv.1]
      have := hv.2
      field_simp
    refine HasDerivAt.congr_of_eventuallyEq ?_ e1
    have d1 : HasDerivAt (fun v : ℂ => c / v) (c * (-(w ^ 2)⁻¹)) w := by
      simp only [div_eq_mul_inv]
      exact (hasDerivAt_inv hw).const_mul c
    have hs : 1 + c / w * (c / w) ∈ slitPlane := by rw [div_mul_div_comm, cc]; exact h
    have d2 := ((hasDerivAt_carctan hs).comp w d1).div_const c
    refine d2.congr_deriv ?_
    have h1 := slitPlane_ne_zero hs
    have e3 : 1 + c / w * (c / w) = (w * w + P) / (w * w) := by
      rw [div_mul_div_comm, cc, add_div, div_self (mul_ne_zero hw hw)]
    have h2 : w * w + P ≠ 0 := by
      intro h2; apply h1; rw [e3, h2, zero_div]
    rw [e3]
    field_simp

/-- Halving the angle. -/
theorem tInt_half {e : ℂ} (h : 1 + e ∈ slitPlane) :
    tInt e = 2 / (1 + csqrt (1 + e)) * tInt ((csqrt (1 + e) - 1) / (csqrt (1 + e) + 1)) := by
  rcases eq_or_ne e 0 with rfl | he
  · have : csqrt (1 + 0) = 1 := csqrt_unique (by simp) (by simp)
    rw [this]; norm_num
  set c := csqrt e with hc
  have c0 : c ≠ 0 := csqrt_ne he
  have cc : c * c = e := csqrt_mul_self e
  have key : ∀ r : ℂ, 0 < r.re → 1 + (r - 1) / (r + 1) ∈ slitPlane ∧ 1 + r ≠ 0 ∧ r ≠ 0 := by
    intro r hr
    have r0 : r ≠ 0 := by rintro rfl; simp at hr
    have r1 : 1 + r ≠ 0 := by intro h'; have := congrArg Complex.re h'; simp at this; linarith
    have r1' : r + 1 ≠ 0 := by rwa [add_comm]
    refine ⟨?_, r1, r0⟩
    have : 1 + (r - 1) / (r + 1) = 2 * r / (r + 1) := by field_simp; ring
    rw [this]
    apply slit_of_mul
    rw [mem_slitPlane_iff]
    left
    simp
    nlinarith [mul_self_nonneg r.im, mul_self_nonneg r.re]
  have hsl : ∀ σ ∈ uIcc (0 : ℝ) 1, 1 + e * (σ : ℂ) ^ 2 ∈ slitPlane := by
    intro σ hσ
    rw [uIcc_of_le zero_le_one] at hσ
    have := slit_sq (c := c) (by rw [cc]; exact h) hσ
    convert this using 1
    rw [← cc]; ring
  have hd : ∀ σ ∈ uIcc (0 : ℝ) 1,
      HasDerivAt (fun σ : ℝ => arctan (c * σ) - 2 * arctan (c * (σ / (1 + csqrt (1 + e * (σ : ℂ) ^ 2))))) 0 σ := by
    intro σ hσ
    have hs := hsl σ hσ
    set r := csqrt (1 + e * (σ : ℂ) ^ 2) with hr
    obtain ⟨k1, k2, k3⟩ := key r (csqrt_re_pos hs)
    have rr : r * r = 1 + e * (σ : ℂ) ^ 2 := csqrt_mul_self _
    have dσ : HasDerivAt (fun σ : ℝ => (σ : ℂ)) 1 σ := (hasDerivAt_id σ).ofReal_comp
    have d0 : HasDerivAt (fun σ : ℝ => c * (σ : ℂ)) c σ := by simpa using dσ.const_mul c
    have hs' : 1 + c * σ * (c * σ) ∈ slitPlane := by convert hs using 1; rw [← cc]; ring
    have d1 := (hasDerivAt_carctan hs').comp σ d0
    have d2 : HasDerivAt (fun σ : ℝ => csqrt (1 + e * (σ : ℂ) ^ 2)) (1 / (2 * r) * (e * (2 * σ))) σ := by
      have d3 : HasDerivAt (fun σ : ℝ => 1 + e * (σ : ℂ) ^ 2) (e * (2 * σ)) σ := by
        have := ((dσ.pow 2).const_mul e).const_add 1
        refine this.congr_deriv ?_
        simp
      exact (hasDerivAt_csqrt hs).comp σ d3
    have d4 := (dσ.div (d2.const_add 1) k2).const_mul c
    have e4 : c * (σ / (1 + r)) * (c * (σ / (1 + r))) = (r - 1) / (r + 1) := by
      have k2' : r + 1 ≠ 0 := by rwa [add_comm]
      have : c * (σ / (1 + r)) * (c * (σ / (1 + r))) = e * (σ : ℂ) ^ 2 / ((1 + r) * (1 + r)) := by rw [← cc]; field_simp
      rw [this, show e * (σ : ℂ) ^ 2 = (r - 1) * (r + 1) by linear_combination -rr]
      field_simp
      ring
    have hs2 : 1 + c * (σ / (1 + r)) * (c * (σ / (1 + r))) ∈ slitPlane := by rw [e4]; exact k1
    have d5 := (hasDerivAt_carctan hs2).comp σ d4
    refine (d1.sub (d5.const_mul 2)).congr_deriv ?_
    have n1 := slitPlane_ne_zero hs'
    have n2 := slitPlane_ne_zero hs2
    rw [e4] at n2 ⊢
    have k2' : r + 1 ≠ 0 := by rwa [add_comm]
    have e5 : 1 + c * σ * (c * σ) = r * r := by rw [rr, ← cc]; ring
    have e6 : 1 + (r - 1) / (r + 1) = 2 * r / (r + 1) := by field_simp; ring
    rw [e5, e6]
    have e7 : e * (σ : ℂ) * σ = r * r - 1 := by rw [rr]; ring
    have e8 : (1 * (1 + r) - (σ : ℂ) * (1 / (2 * r) * (e * (2 * σ)))) / (1 + r) ^ 2 = 1 / (r * (1 + r)) := by
      field_simp
      linear_combination -e7
    rw [e8]
    field_simp
    ring
  have hI := intervalIntegral.integral_eq_sub_of_hasDerivAt hd intervalIntegrable_const
  simp only [intervalIntegral.integral_zero, ofReal_one, one_pow, mul_one, ofReal_zero, mul_zero, zero_div, carctan_zero, sub_zero] at hI
  set r := csqrt (1 + e) with hr
  obtain ⟨k1, k2, k3⟩ := key r (csqrt_re_pos h)
  have rr : r * r = 1 + e := csqrt_mul_self _
  have k2' : r + 1 ≠ 0 := by rwa [add_comm]
  rw [tInt_of cc c0 h, tInt_of (c := c / (1 + r)) _ (div_ne_zero c0 k2) k1]
  · rw [show arctan c = 2 * arctan (c * (1 / (1 + r))) by linear_combination -hI, mul_one_div]
    field_simp
  · rw [div_mul_div_comm, cc, show e = (r - 1) * (r + 1) by linear_combination -rr]
    field_simp
    ring

end GRT.Lamb
