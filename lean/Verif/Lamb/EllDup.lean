import Verif.Lamb.EllRF
import Mathlib.MeasureTheory.Integral.IntegralEqImproper

/-! Carlson's duplication for the integrals of the first and third kind. -/

namespace GRT.Ell

open Complex Set MeasureTheory Filter GRT.Lamb

/-- `√(t+x) √(t+y) √(t+z)`. -/
noncomputable def den (x y z t : ℝ) : ℝ := √(t + x) * √(t + y) * √(t + z)

/-- `∫ dt/√((t+x)(t+y)(t+z))`, twice Carlson's integral of the first kind. -/
noncomputable def fInt (x y z : ℝ) : ℝ := ∫ t in Ioi (0 : ℝ), 1 / den x y z t

/-- `∫ dt/((t+p)√((t+x)(t+y)(t+z)))`, two thirds of Carlson's integral of the third kind. -/
noncomputable def jInt (x y z : ℝ) (p : ℂ) : ℂ := ∫ t in Ioi (0 : ℝ), ((1 / den x y z t : ℝ) : ℂ) * (1 / (t + p))

/-- Real arguments as in the loop: the first may be zero. -/
structure Args (x y z : ℝ) : Prop where
  x0 : 0 ≤ x
  y0 : 0 < y
  z0 : 0 < z

theorem Args.den_pos {x y z : ℝ} (h : Args x y z) {t : ℝ} (ht : 0 < t) : 0 < den x y z t := by
  have := h.x0; have := h.y0; have := h.z0
  unfold den
  have := Real.sqrt_pos.2 (show 0 < t + x by linarith)
  have := Real.sqrt_pos.2 (show 0 < t + y by linarith)
  have := Real.sqrt_pos.2 (show 0 < t + z by linarith)
  positivity

theorem base_integrable : IntegrableOn (fun t : ℝ => 1 / (√t * (t + 1))) (Ioi 0) := by
  have hd : ∀ t ∈ Ioi (0 : ℝ), HasDerivAt (fun t => 2 * Real.arctan √t) (1 / (√t * (t + 1))) t := by
    intro t ht
    have h0 : √t ≠ 0 := (Real.sqrt_pos.2 ht).ne'
    have := (((Real.hasDerivAt_sqrt (ne_of_gt ht)).arctan)).const_mul 2
    refine this.congr_deriv ?_
    rw [Real.sq_sqrt (le_of_lt ht)]
    have : 1 + t ≠ 0 := by have : (0 : ℝ) < t := ht; linarith
    have h2 : t + 1 ≠ 0 := by rwa [add_comm]
    field_simp
    ring
  refine integrableOn_Ioi_deriv_of_nonneg (l := 2 * (Real.pi / 2)) ?_ hd ?_ ?_
  · exact (Continuous.continuousWithinAt (by fun_prop))
  · intro t ht
    have : (0 : ℝ) < t := ht
    positivity
  · apply Tendsto.const_mul
    exact (Real.tendsto_arctan_atTop.mono_right nhdsWithin_le_nhds).comp Real.tendsto_sqrt_atTop

theorem den_cont (x y z : ℝ) : Continuous (den x y z) := by unfold den; fun_prop

theorem Args.integrable {x y z : ℝ} (h : Args x y z) : IntegrableOn (fun t => 1 / den x y z t) (Ioi 0) := by
  set κ := min (min y z) 1 with hκ
  have k0 : 0 < κ := lt_min (lt_min h.y0 h.z0) one_pos
  have ky : κ ≤ y := (min_le_left _ _).trans (min_le_left _ _)
  have kz : κ ≤ z := (min_le_left _ _).trans (min_le_right _ _)
  have k1 : κ ≤ 1 := min_le_right _ _
  refine Integrable.mono' (base_integrable.const_mul (1 / κ)) ?_ ?_
  · apply ContinuousOn.aestronglyMeasurable _ measurableSet_Ioi
    exact continuousOn_const.div (den_cont x y z).continuousOn (fun t ht => (h.den_pos ht).ne')
  · refine (ae_restrict_mem measurableSet_Ioi).mono fun t ht => ?_
    have t0 : (0 : ℝ) < t := ht
    have hp := h.den_pos t0
    rw [Real.norm_eq_abs, abs_of_pos (by positivity), one_div_mul_one_div]
    apply one_div_le_one_div_of_le (by positivity)
    unfold den
    have a1 : √t ≤ √(t + x) := Real.sqrt_le_sqrt (by have := h.x0; linarith)
    have a2 : κ * (t + 1) ≤ √(t + y) * √(t + z) := by
      rw [← Real.sqrt_mul (by have := h.y0; linarith)]
      apply Real.le_sqrt_of_sq_le
      have b1 : κ * (t + 1) ≤ t + y := by nlinarith
      have b2 : κ * (t + 1) ≤ t + z := by nlinarith
      have b3 : 0 ≤ κ * (t + 1) := by positivity
      nlinarith
    calc κ * (√t * (t + 1)) = √t * (κ * (t + 1)) := by ring
      _ ≤ √(t + x) * (√(t + y) * √(t + z)) := by gcongr
      _ = _ := by ring

/-- `λ` with `t` added to the arguments. -/
noncomputable def lamT (x y z t : ℝ) : ℝ := √(t + x) * √(t + y) + √(t + x) * √(t + z) + √(t + y) * √(t + z)

theorem lamT_nonneg (x y z t : ℝ) : 0 ≤ lamT x y z t := by unfold lamT; positivity

theorem lamT_mono (x y z : ℝ) : Monotone (lamT x y z) := by
  intro s t h
  unfold lamT
  have h1 : √(s + x) ≤ √(t + x) := Real.sqrt_le_sqrt (by linarith)
  have h2 : √(s + y) ≤ √(t + y) := Real.sqrt_le_sqrt (by linarith)
  have h3 : √(s + z) ≤ √(t + z) := Real.sqrt_le_sqrt (by linarith)
  gcongr

theorem lamT_cont (x y z : ℝ) : Continuous (lamT x y z) := by unfold lamT; fun_prop

/-- The change of variable of the duplication. -/
noncomputable def dupMap (x y z t : ℝ) : ℝ := (t + lamT x y z t - lamT x y z 0) / 4

theorem dupMap_strict (x y z : ℝ) : StrictMono (dupMap x y z) := by
  intro s t h
  have := lamT_mono x y z h.le
  unfold dupMap
  linarith

theorem dupMap_image (x y z : ℝ) : dupMap x y z '' Ioi 0 = Ioi 0 := by
  have h0 : dupMap x y z 0 = 0 := by unfold dupMap; ring
  apply Subset.antisymm
  · rintro _ ⟨t, ht, rfl⟩
    show 0 < dupMap x y z t
    rw [← h0]
    exact dupMap_strict x y z ht
  · intro v hv
    have v0 : (0 : ℝ) < v := hv
    have hc : ContinuousOn (dupMap x y z) (Icc 0 (4 * v)) := by
      have := lamT_cont x y z
      unfold dupMap
      exact Continuous.continuousOn (by fun_prop)
    have h4 : v ≤ dupMap x y z (4 * v) := by
      have := lamT_mono x y z (show (0 : ℝ) ≤ 4 * v by linarith)
      unfold dupMap
      linarith
    obtain ⟨t, ht, he⟩ := intermediate_value_Icc (by linarith) hc (show v ∈ Icc (dupMap x y z 0) (dupMap x y z (4 * v)) from ⟨by rw [h0]; linarith, h4⟩)
    refine ⟨t, ?_, he⟩
    rcases ht.1.eq_or_lt with h | h
    · rw [← h, h0] at he; linarith
    · exact h

theorem sqrt_shift (x t : ℝ) (h : 0 < t + x) : HasDerivAt (fun t => √(t + x)) (1 / (2 * √(t + x))) t := by
  have := ((hasDerivAt_id t).add_const x).sqrt h.ne'
  simpa using this

theorem Args.dup_aux {x y z : ℝ} (h : Args x y z) {E : Type*} [NormedAddCommGroup E] [NormedSpace ℝ E] (g : ℝ → E) :
    ∫ u in Ioi (0 : ℝ), (1 / den ((x + lamT x y z 0) / 4) ((y + lamT x y z 0) / 4) ((z + lamT x y z 0) / 4) u) • g u =
      ∫ t in Ioi (0 : ℝ), (1 / den x y z t) • g (dupMap x y z t) := by
  have hx := h.x0; have hy := h.y0; have hz := h.z0
  have hd : ∀ t ∈ Ioi (0 : ℝ), HasDerivWithinAt (dupMap x y z)
      ((√(t + x) + √(t + y)) * (√(t + y) + √(t + z)) * (√(t + z) + √(t + x)) / (8 * den x y z t)) (Ioi 0) t := by
    intro t ht
    have t0 : (0 : ℝ) < t := ht
    have d1 := sqrt_shift x t (by linarith)
    have d2 := sqrt_shift y t (by linarith)
    have d3 := sqrt_shift z t (by linarith)
    have p1 := Real.sqrt_pos.2 (show 0 < t + x by linarith)
    have p2 := Real.sqrt_pos.2 (show 0 < t + y by linarith)
    have p3 := Real.sqrt_pos.2 (show 0 < t + z by linarith)
    have := ((((hasDerivAt_id t).add (((d1.mul d2).add (d1.mul d3)).add (d2.mul d3))).sub_const (lamT x y z 0)).div_const 4).hasDerivWithinAt (s := Ioi 0)
    refine this.congr_deriv ?_
    unfold den
    field_simp
    ring
  conv_lhs => rw [← dupMap_image x y z]
  rw [integral_image_eq_integral_abs_deriv_smul measurableSet_Ioi hd (dupMap_strict x y z).injective.injOn]
  apply setIntegral_congr_fun measurableSet_Ioi
  intro t ht
  have t0 : (0 : ℝ) < t := ht
  have p1 := Real.sqrt_pos.2 (show 0 < t + x by linarith)
  have p2 := Real.sqrt_pos.2 (show 0 < t + y by linarith)
  have p3 := Real.sqrt_pos.2 (show 0 < t + z by linarith)
  have q1 := Real.mul_self_sqrt (show 0 ≤ t + x by linarith)
  have q2 := Real.mul_self_sqrt (show 0 ≤ t + y by linarith)
  have q3 := Real.mul_self_sqrt (show 0 ≤ t + z by linarith)
  have hden : den ((x + lamT x y z 0) / 4) ((y + lamT x y z 0) / 4) ((z + lamT x y z 0) / 4) (dupMap x y z t) =
      (√(t + x) + √(t + y)) * (√(t + y) + √(t + z)) * (√(t + z) + √(t + x)) / 8 := by
    have e1 : dupMap x y z t + (x + lamT x y z 0) / 4 = (t + x + lamT x y z t) / 4 := by unfold dupMap; ring
    have e2 : dupMap x y z t + (y + lamT x y z 0) / 4 = (t + y + lamT x y z t) / 4 := by unfold dupMap; ring
    have e3 : dupMap x y z t + (z + lamT x y z 0) / 4 = (t + z + lamT x y z t) / 4 := by unfold dupMap; ring
    unfold den
    rw [e1, e2, e3]
    unfold lamT
    set a := √(t + x)
    set b := √(t + y)
    set c := √(t + z)
    rw [← q1, ← q2, ← q3, ← Real.sqrt_mul (by positivity), ← Real.sqrt_mul (by positivity)]
    rw [show (a * a + (a * b + a * c + b * c)) / 4 * ((b * b + (a * b + a * c + b * c)) / 4) * ((c * c + (a * b + a * c + b * c)) / 4) =
      ((a + b) * (b + c) * (c + a) / 8) ^ 2 by ring]
    exact Real.sqrt_sq (by positivity)
  dsimp only
  rw [hden, smul_smul]
  congr 1
  have hp := h.den_pos t0
  rw [abs_of_pos (by positivity)]
  field_simp

theorem Args.next {x y z : ℝ} (h : Args x y z) : Args ((x + lamT x y z 0) / 4) ((y + lamT x y z 0) / 4) ((z + lamT x y z 0) / 4) := by
  have := lamT_nonneg x y z 0
  have := h.x0; have := h.y0; have := h.z0
  constructor <;> linarith

theorem Args.f_dup {x y z : ℝ} (h : Args x y z) :
    fInt ((x + lamT x y z 0) / 4) ((y + lamT x y z 0) / 4) ((z + lamT x y z 0) / 4) = fInt x y z := by
  have := h.dup_aux (fun _ => (1 : ℝ))
  unfold fInt
  simpa only [smul_eq_mul, mul_one] using this

/-- A distance kept from the negative axis. -/
structure Away (p : ℂ) (δ : ℝ) : Prop where
  pos : 0 < δ
  far : ∀ t : ℝ, 0 ≤ t → δ ≤ ‖(t : ℂ) + p‖

theorem Away.slit {p : ℂ} {δ : ℝ} (h : Away p δ) {t : ℝ} (ht : 0 ≤ t) : (t : ℂ) + p ∈ slitPlane := by
  rw [mem_slitPlane_iff]
  by_contra hc
  push Not at hc
  obtain ⟨h1, h2⟩ := hc
  have e : (t : ℂ) + p = (((t : ℂ) + p).re : ℂ) := by
    apply Complex.ext
    · simp
    · rw [h2, ofReal_im]
  have := h.far (t - ((t : ℂ) + p).re) (by linarith)
  rw [show (((t - ((t : ℂ) + p).re : ℝ) : ℂ)) + p = ((t : ℂ) + p) - (((t : ℂ) + p).re : ℂ) by push_cast; ring, ← e, sub_self, norm_zero] at this
  linarith [h.pos]

theorem Away.ne {p : ℂ} {δ : ℝ} (h : Away p δ) {t : ℝ} (ht : 0 ≤ t) : (t : ℂ) + p ≠ 0 := slitPlane_ne_zero (h.slit ht)

theorem Args.integrable_j {x y z : ℝ} (h : Args x y z) {g : ℝ → ℂ} {C : ℝ} (hc : ContinuousOn g (Ioi 0)) (hb : ∀ t ∈ Ioi (0 : ℝ), ‖g t‖ ≤ C) :
    IntegrableOn (fun t => ((1 / den x y z t : ℝ) : ℂ) * g t) (Ioi 0) := by
  refine Integrable.mono' (h.integrable.const_mul C) ?_ ?_
  · apply ContinuousOn.aestronglyMeasurable _ measurableSet_Ioi
    apply ContinuousOn.mul _ hc
    apply continuous_ofReal.comp_continuousOn
    exact continuousOn_const.div (den_cont x y z).continuousOn (fun t ht => (h.den_pos ht).ne')
  · refine (ae_restrict_mem measurableSet_Ioi).mono fun t ht => ?_
    have hp := h.den_pos ht
    rw [norm_mul, Complex.norm_real, Real.norm_eq_abs, abs_of_pos (by positivity), mul_comm]
    gcongr
    exact hb t ht

theorem Away.inv_le {p : ℂ} {δ : ℝ} (h : Away p δ) {t : ℝ} (ht : 0 ≤ t) : ‖1 / ((t : ℂ) + p)‖ ≤ 1 / δ := by
  rw [norm_div, norm_one]
  exact one_div_le_one_div_of_le h.pos (h.far t ht)

theorem Away.cont {p : ℂ} {δ : ℝ} (h : Away p δ) {f : ℝ → ℝ} (hf : Continuous f) (h0 : ∀ t, 0 < t → 0 ≤ f t) :
    ContinuousOn (fun t : ℝ => 1 / ((f t : ℂ) + p)) (Ioi 0) := by
  apply continuousOn_const.div
  · exact (Continuous.continuousOn (by fun_prop))
  · intro t ht; exact h.ne (h0 t ht)

/-- The difference made by one duplication, as an integral. -/
theorem Args.j_dup {x y z : ℝ} (h : Args x y z) {p : ℂ} {δ : ℝ} (hp : Away p δ) :
    jInt x y z p - 1 / 4 * jInt ((x + lamT x y z 0) / 4) ((y + lamT x y z 0) / 4) ((z + lamT x y z 0) / 4) ((p + lamT x y z 0) / 4) =
      ∫ t in Ioi (0 : ℝ), ((1 / den x y z t : ℝ) : ℂ) * (1 / (t + p) - 1 / (((t + lamT x y z t : ℝ) : ℂ) + p)) := by
  have hl := lamT_cont x y z
  have hn := lamT_nonneg x y z
  have e := h.dup_aux (fun u : ℝ => 1 / ((u : ℂ) + (p + lamT x y z 0) / 4))
  have e2 : jInt ((x + lamT x y z 0) / 4) ((y + lamT x y z 0) / 4) ((z + lamT x y z 0) / 4) ((p + lamT x y z 0) / 4) =
      ∫ t in Ioi (0 : ℝ), ((1 / den x y z t : ℝ) : ℂ) * (4 * (1 / (((t + lamT x y z t : ℝ) : ℂ) + p))) := by
    unfold jInt
    simp only [real_smul] at e
    rw [e]
    apply setIntegral_congr_fun measurableSet_Ioi
    intro t ht
    have h1 := hp.ne (t := t + lamT x y z t) (by have := hn t; have : (0 : ℝ) < t := ht; linarith)
    have : ((dupMap x y z t : ℝ) : ℂ) + (p + lamT x y z 0) / 4 = (((t + lamT x y z t : ℝ) : ℂ) + p) / 4 := by
      unfold dupMap; push_cast; ring
    dsimp only
    rw [this]
    congr 1
    field_simp
  have i1 := h.integrable_j (hp.cont (f := fun t => t) continuous_id (fun t ht => ht.le)) (fun t ht => hp.inv_le (le_of_lt ht))
  have i2 := h.integrable_j (hp.cont (f := fun t => t + lamT x y z t) (by fun_prop) (fun t ht => by have := hn t; linarith))
    (fun t ht => hp.inv_le (by have := hn t; have : (0 : ℝ) < t := ht; linarith))
  rw [e2, ← integral_const_mul]
  unfold jInt
  rw [← integral_sub]
  · apply setIntegral_congr_fun measurableSet_Ioi
    intro t _
    dsimp only
    ring
  · exact i1
  · have : (fun t : ℝ => (1 / 4 : ℂ) * (((1 / den x y z t : ℝ) : ℂ) * (4 * (1 / (((t + lamT x y z t : ℝ) : ℂ) + p))))) =
        fun t : ℝ => ((1 / den x y z t : ℝ) : ℂ) * (1 / (((t + lamT x y z t : ℝ) : ℂ) + p)) := by
      funext t; ring
    rw [this]
    exact i2

/-- Its size. -/
theorem Args.j_diff_le {x y z : ℝ} (h : Args x y z) {p : ℂ} {δ : ℝ} (hp : Away p δ) :
    ‖∫ t in Ioi (0 : ℝ), ((1 / den x y z t : ℝ) : ℂ) * (1 / (t + p) - 1 / (((t + lamT x y z t : ℝ) : ℂ) + p))‖ ≤ 2 / δ * fInt x y z := by
  have hn := lamT_nonneg x y z
  unfold fInt
  rw [← integral_const_mul]
  apply norm_integral_le_of_norm_le (h.integrable.const_mul _)
  refine (ae_restrict_mem measurableSet_Ioi).mono fun t ht => ?_
  have t0 : (0 : ℝ) < t := ht
  have hd := h.den_pos t0
  rw [norm_mul, Complex.norm_real, Real.norm_eq_abs, abs_of_pos (by positivity), mul_comm]
  gcongr
  have := norm_sub_le (1 / ((t : ℂ) + p)) (1 / (((t + lamT x y z t : ℝ) : ℂ) + p))
  have := hp.inv_le t0.le
  have := hp.inv_le (t := t + lamT x y z t) (by have := hn t; linarith)
  have : 2 / δ = 1 / δ + 1 / δ := by ring
  linarith

theorem Away.next {p : ℂ} {δ : ℝ} (h : Away p δ) {l : ℝ} (hl : 0 ≤ l) : Away ((p + l) / 4) (δ / 4) := by
  refine ⟨by have := h.pos; positivity, fun t ht => ?_⟩
  have := h.far (4 * t + l) (by positivity)
  rw [show (t : ℂ) + (p + l) / 4 = (((4 * t + l : ℝ) : ℂ) + p) / 4 by push_cast; ring, norm_div, Complex.norm_ofNat]
  linarith

end GRT.Ell
