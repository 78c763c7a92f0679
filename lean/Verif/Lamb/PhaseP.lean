import Verif.Lamb.Classes

/-! The P part: the closed forms are the integral of the plane-wave response. -/

namespace GRT.Lamb

open Complex Set

local notation "cj" => starRingEnd ℂ

theorem re_im_integral {f : ℝ → ℂ} {a b : ℝ} (hf : Continuous f) :
    (∫ θ in a..b, f θ).re = ∫ θ in a..b, (f θ).re ∧ (∫ θ in a..b, f θ).im = ∫ θ in a..b, (f θ).im :=
  ⟨(reCLM.intervalIntegral_comp_comm (hf.intervalIntegrable a b)).symm, (imCLM.intervalIntegral_comp_comm (hf.intervalIntegrable a b)).symm⟩

/-- Real and imaginary parts of `grp_integral`, for a real weight and path. -/
theorem grp_parts (sgn kpkp : ℝ) (ys : Fin 3 → ℂ) (e : Fin 5 → ℂ) (w : ℂ → ℂ) (w3 w5 : ℂ) (g : ℝ → ℝ) (X : ℝ → ℝ) (u : ℝ)
    (hs : sgn = 1 ∨ sgn = -1) (hk : kpkp ≠ 0) (ha : Apart ys) (hg : Continuous g) (hX : Continuous X)
    (hne : ∀ r θ, (X θ : ℂ) ≠ ys r * sgn) (hw : ∀ r, w (ys r) = ∫ θ in 0..u, (g θ : ℂ) / (X θ - ys r * sgn)) (h3 : w3 = ∫ θ in 0..u, (g θ : ℂ))
    (h5 : w5 = ∫ θ in 0..u, (g θ : ℂ) * X θ) :
    (grp sgn kpkp ys e w w3 w5).re = ∫ θ in 0..u, g θ * (quart e (X θ) / den sgn kpkp ys (X θ)).re ∧
    (grp sgn kpkp ys e w w3 w5).im = ∫ θ in 0..u, g θ * (quart e (X θ) / den sgn kpkp ys (X θ)).im ∧
    Continuous (fun θ => quart e (X θ) / den sgn kpkp ys (X θ)) := by
  have hs0 : sgn ≠ 0 := by rcases hs with rfl | rfl <;> norm_num
  have hc : Continuous (fun θ => quart e (X θ) / den sgn kpkp ys (X θ)) := by
    apply Continuous.div
    · unfold quart; fun_prop
    · unfold den; fun_prop
    · intro θ; exact den_ne hs0 hk (fun r => hne r θ)
  have := grp_integral sgn kpkp ys e w w3 w5 (fun θ => (g θ : ℂ)) (fun θ => (X θ : ℂ)) u hs hk ha (by fun_prop) (by fun_prop) hne hw h3 h5
  have hi := re_im_integral (a := 0) (b := u) (f := fun θ => (g θ : ℂ) * (quart e (X θ) / den sgn kpkp ys (X θ))) (by fun_prop)
  rw [this, hi.1, hi.2]
  refine ⟨?_, ?_, hc⟩
  · simp only [re_ofReal_mul]
  · simp only [im_ofReal_mul]

theorem Cre.ex {e : Fin 5 → ℂ} (he : Cre e) (X : ℝ) : ∃ q : ℝ, quart e X = q := ⟨_, (conj_eq_iff_re.mp (quart_re he X)).symm⟩

theorem Cim.ex {e : Fin 5 → ℂ} (he : Cim e) (X : ℝ) : ∃ q : ℝ, quart e X = I * q := by
  have h := quart_im he X
  refine ⟨(quart e X).im, ?_⟩
  apply Complex.ext
  · have := congrArg Complex.re h
    simp at this ⊢
    linarith
  · simp

theorem den_ex {sgn kpkp : ℝ} {ys : Fin 3 → ℂ} (hy : ConjRoots ys) (X : ℝ) : ∃ d : ℝ, den sgn kpkp ys X = d :=
  ⟨_, (conj_eq_iff_re.mp (den_conj hy X)).symm⟩

theorem off_ratio1 {c : ℂ} {lo hi D : ℝ} (h : Off c lo hi) (h0 : 0 ≤ D) (hD : D ≤ hi - lo) :
    (((D : ℝ) : ℂ) / (c - lo)).im ≠ 0 ∨ (((D : ℝ) : ℂ) / (c - lo)).re < 1 := by
  by_cases hc : c.im = 0
  · right
    rw [real_of_im hc, ← ofReal_sub, ← ofReal_div, ofReal_re]
    rcases h with h | h | h
    · exact absurd hc h
    · have : c.re - lo < 0 := by linarith
      have := div_nonpos_of_nonneg_of_nonpos h0 this.le
      linarith
    · rw [div_lt_one (by linarith)]; linarith
  · by_cases hD0 : D = 0
    · right; simp [hD0]
    · left
      rw [div_im]
      simp only [ofReal_im, ofReal_re, sub_im, sub_zero, zero_mul, zero_div, zero_sub, neg_ne_zero]
      have : normSq (c - lo) ≠ 0 := by
        rw [Ne, map_eq_zero]
        intro h; apply hc
        have := congrArg Complex.im h
        simpa using this
      positivity

theorem off_ratio2 {c : ℂ} {lo hi D : ℝ} (h : Off c lo hi) (h0 : 0 ≤ D) (hD : D ≤ hi - lo) :
    (((D : ℝ) : ℂ) / (hi - c)).im ≠ 0 ∨ (((D : ℝ) : ℂ) / (hi - c)).re < 1 := by
  by_cases hc : c.im = 0
  · right
    rw [real_of_im hc, ← ofReal_sub, ← ofReal_div, ofReal_re]
    rcases h with h | h | h
    · exact absurd hc h
    · rw [div_lt_one (by linarith)]; linarith
    · have : hi - c.re < 0 := by linarith
      have := div_nonpos_of_nonneg_of_nonpos h0 this.le
      linarith
  · by_cases hD0 : D = 0
    · right; simp [hD0]
    · left
      rw [div_im]
      simp only [ofReal_im, ofReal_re, sub_im, zero_sub, zero_mul, zero_div, neg_ne_zero, mul_neg, neg_div, neg_neg]
      have : normSq (hi - c) ≠ 0 := by
        rw [Ne, map_eq_zero]
        intro h; apply hc
        have := congrArg Complex.im h
        simpa using this
      positivity

theorem zero_Ioo {F : ℝ → ℝ} {b a : ℝ} (h : b ≤ a) (hF : ∀ p ∈ Ioo b a, F p = 0) :
    ∫ p in b..a, F p = 0 ∧ IntervalIntegrable F MeasureTheory.volume b a := by
  constructor
  · rw [intervalIntegral.integral_of_le h, MeasureTheory.integral_Ioc_eq_integral_Ioo,
      MeasureTheory.setIntegral_congr_fun (g := fun _ => (0 : ℝ)) measurableSet_Ioo hF]
    simp
  · rw [intervalIntegrable_iff_integrableOn_Ioo_of_le h]
    exact (MeasureTheory.integrableOn_congr_fun (g := fun _ => (0 : ℝ)) hF measurableSet_Ioo).mpr (MeasureTheory.integrable_zero _ _ _)

/-- The vertical slownesses at horizontal slowness `t² − p²`. -/
noncomputable def uAt (kk t p : ℝ) : ℂ := csqrt ((kk - (t * t - p * p) : ℝ) : ℂ)

noncomputable def vAt (t p : ℝ) : ℂ := csqrt ((1 - (t * t - p * p) : ℝ) : ℂ)

/-- The Rayleigh function. -/
noncomputable def sigAt (kk t p : ℝ) : ℂ := (1 - 2 * ((t * t - p * p : ℝ) : ℂ)) ^ 2 + 4 * uAt kk t p * vAt t p * ((t * t - p * p : ℝ) : ℂ)

/-- The integrands. -/
noncomputable def fP (kk t : ℝ) (i : ℕ) (p : ℝ) : ℝ := -(pM (-t) ((p * p : ℝ) : ℂ) (uAt kk t p) (vAt t p) i / sigAt kk t p).im

noncomputable def fS (kk t : ℝ) (i : ℕ) (p : ℝ) : ℝ :=
  -(sN (-t) ((p * p : ℝ) : ℂ) (uAt kk t p) (vAt t p) i / (vAt t p * sigAt kk t p)).im

section

variable {nu az t : ℝ}

local notation "V" => mkVars nu az

/-- The P integrand over the table's polynomials. -/
theorem fP_eq (h1 : nu < 1 / 2) {x p : ℝ} {e : ℂ} (hx : 0 < x) (hp : p * p = t * t - (V).kk - x * x) (he : e * e = (V).kpkp - ((x * x : ℝ) : ℂ))
    (hv : vAt t p = e) (e0 : e ≠ 0) (hd : den 1 (V).kpkp (V).ys ((x * x : ℝ) : ℂ) ≠ 0) {i : ℕ} (hi : i < 6) :
    fP (V).kk t i p = ((poly (ckimP1 V t i) x + poly (ckimP2 V t i) x / e) / den 1 (V).kpkp (V).ys ((x * x : ℝ) : ℂ)).re / x := by
  have hu : uAt (V).kk t p = I * x := by
    unfold uAt
    rw [show (V).kk - (t * t - p * p) = -(x * x) by linarith, csqrt_neg_real (by positivity), Real.sqrt_mul_self hx.le]
  have hs : t * t - p * p = (V).kk + x * x := by linarith
  have hI : I * I = -1 := I_mul_I
  have x0 : (x : ℂ) ≠ 0 := by exact_mod_cast hx.ne'
  have ht := tableP nu az t x e (by rw [he]; push_cast; ring) e0 i hi
  have hdd := den_P (az := az) h1 ((x * x : ℝ) : ℂ)
  rw [hdd] at hd ⊢
  unfold fP sigAt
  rw [hu, hv, hs, hp]
  push_cast at ht hd he ⊢
  rw [← ht]
  generalize pM _ _ _ _ i = P
  generalize ((V).kk : ℂ) = k at *
  generalize ((V).kpkp : ℂ) = kp at *
  have hf : (1 - 2 * (k + (x : ℂ) * x)) ^ 4 + 16 * (x * x) * (kp - x * x) * (k + x * x) ^ 2 =
      ((1 - 2 * (k + (x : ℂ) * x)) ^ 2 + 4 * (I * x) * e * (k + x * x)) * ((1 - 2 * (k + (x : ℂ) * x)) ^ 2 - 4 * (I * x) * e * (k + x * x)) := by
    rw [← he]
    linear_combination 16 * (x * x) * (e * e) * (k + x * x) ^ 2 * hI
  rw [hf] at hd ⊢
  obtain ⟨d1, d2⟩ := mul_ne_zero_iff.mp hd
  generalize (1 - 2 * (k + (x : ℂ) * x)) ^ 2 + 4 * (I * x) * e * (k + x * x) = S at *
  generalize (1 - 2 * (k + (x : ℂ) * x)) ^ 2 - 4 * (I * x) * e * (k + x * x) = S' at *
  have : I * x * P * S' / (S * S') = I * x * (P / S) := by field_simp
  rw [this, mul_comm I (x : ℂ), mul_assoc, re_ofReal_mul, I_mul_re]
  field_simp

/-- Where both vertical slownesses are known: a real S slowness. -/
theorem fP_real (h0 : 0 < nu) (h1 : nu < 1 / 2) {x y p : ℝ} (hx : 0 < x) (hy : 0 < y) (hp : p * p = t * t - (V).kk - x * x)
    (hxy : y * y = (V).kpkp - x * x) (hd : den 1 (V).kpkp (V).ys ((x * x : ℝ) : ℂ) ≠ 0) {i : ℕ} :
    (Diag i → fP (V).kk t i p = (quart (evens (ckimP1 V t i)) ((x * x : ℝ) : ℂ) / den 1 (V).kpkp (V).ys ((x * x : ℝ) : ℂ)).re / x) ∧
    (Side i → fP (V).kk t i p = (quart (evens (ckimP2 V t i)) ((x * x : ℝ) : ℂ) / den 1 (V).kpkp (V).ys ((x * x : ℝ) : ℂ)).re / (x * y)) := by
  have hv : vAt t p = (y : ℂ) := by
    unfold vAt
    have := kpkp_eq (nu := nu) (az := az)
    rw [show 1 - (t * t - p * p) = y * y by linarith, csqrt_real (by positivity), Real.sqrt_mul_self hy.le]
  have y0 : (y : ℂ) ≠ 0 := by exact_mod_cast hy.ne'
  obtain ⟨d, hdr⟩ := den_ex (sgn := 1) (kpkp := (V).kpkp) (conj_ys (az := az) h0 h1) (x * x)
  have he : (y : ℂ) * y = (V).kpkp - ((x * x : ℝ) : ℂ) := by exact_mod_cast hxy
  have key := fun (hi : i < 6) => fP_eq h1 hx hp he hv y0 hd hi
  rw [hdr] at hd key ⊢
  have d0 : d ≠ 0 := by exact_mod_cast hd
  constructor <;> intro hi
  · obtain ⟨a, b, c, e⟩ := class_P_diag V t hi
    rw [key (by unfold Diag at hi; omega), poly_split, poly_split, b, c, quart_zero, ← ofReal_mul]
    obtain ⟨q, hq⟩ := a.ex (x * x)
    obtain ⟨r, hr⟩ := e.ex (x * x)
    rw [hq, hr, show ((q : ℂ) + x * 0 + (0 + x * (I * r)) / y) / d = ((q / d : ℝ) : ℂ) + ((x * r / y / d : ℝ) : ℂ) * I by
      push_cast; ring, ← ofReal_div]
    simp
  · obtain ⟨a, b, c, e⟩ := class_P_side V t hi
    rw [key (by unfold Side at hi; omega), poly_split, poly_split, a, e, quart_zero, ← ofReal_mul]
    obtain ⟨q, hq⟩ := c.ex (x * x)
    obtain ⟨r, hr⟩ := b.ex (x * x)
    rw [hq, hr, show ((0 : ℂ) + x * (I * r) + (q + x * 0) / y) / d = ((q / d / y : ℝ) : ℂ) + ((x * r / d : ℝ) : ℂ) * I by
      push_cast; ring, ← ofReal_div]
    simp
    field_simp

/-- An imaginary S slowness. -/
theorem fP_imag (h0 : 0 < nu) (h1 : nu < 1 / 2) {x y p : ℝ} (hx : 0 < x) (hy : 0 < y) (hp : p * p = t * t - (V).kk - x * x)
    (hxy : y * y = x * x - (V).kpkp) (hd : den 1 (V).kpkp (V).ys ((x * x : ℝ) : ℂ) ≠ 0) {i : ℕ} :
    (Diag i → fP (V).kk t i p = (quart (evens (ckimP1 V t i)) ((x * x : ℝ) : ℂ) / den 1 (V).kpkp (V).ys ((x * x : ℝ) : ℂ)).re / x +
      (quart (odds (ckimP2 V t i)) ((x * x : ℝ) : ℂ) / den 1 (V).kpkp (V).ys ((x * x : ℝ) : ℂ)).im / y) ∧
    (Side i → fP (V).kk t i p = 0) := by
  have hv : vAt t p = I * (y : ℂ) := by
    unfold vAt
    have := kpkp_eq (nu := nu) (az := az)
    rw [show 1 - (t * t - p * p) = -(y * y) by linarith, csqrt_neg_real (by positivity), Real.sqrt_mul_self hy.le]
  have y0 : I * (y : ℂ) ≠ 0 := mul_ne_zero I_ne_zero (by exact_mod_cast hy.ne')
  have hy0 : (y : ℂ) ≠ 0 := by exact_mod_cast hy.ne'
  obtain ⟨d, hdr⟩ := den_ex (sgn := 1) (kpkp := (V).kpkp) (conj_ys (az := az) h0 h1) (x * x)
  have hI : I * I = -1 := I_mul_I
  have he : (I * (y : ℂ)) * (I * y) = (V).kpkp - ((x * x : ℝ) : ℂ) := by
    have : (y : ℂ) * y = ((x * x : ℝ) : ℂ) - (V).kpkp := by exact_mod_cast hxy
    linear_combination (y : ℂ) * y * hI - this
  have key := fun (hi : i < 6) => fP_eq h1 hx hp he hv y0 hd hi
  rw [hdr] at hd key ⊢
  have d0 : (d : ℂ) ≠ 0 := hd
  constructor <;> intro hi
  · obtain ⟨a, b, c, e⟩ := class_P_diag V t hi
    rw [key (by unfold Diag at hi; omega), poly_split, poly_split, b, c, quart_zero, ← ofReal_mul]
    obtain ⟨q, hq⟩ := a.ex (x * x)
    obtain ⟨r, hr⟩ := e.ex (x * x)
    have e1 : ((q : ℂ) + x * 0 + (0 + x * (I * r)) / (I * y)) / d = ((q / d + x * r / y / d : ℝ) : ℂ) := by
      have := I_ne_zero
      push_cast; field_simp; ring
    have e2 : I * (r : ℂ) / d = ((r / d : ℝ) : ℂ) * I := by push_cast; ring
    rw [hq, hr, e1, e2, ← ofReal_div]
    simp
    field_simp
  · obtain ⟨a, b, c, e⟩ := class_P_side V t hi
    rw [key (by unfold Side at hi; omega), poly_split, poly_split, a, e, quart_zero, ← ofReal_mul]
    obtain ⟨q, hq⟩ := c.ex (x * x)
    obtain ⟨r, hr⟩ := b.ex (x * x)
    have e1 : ((0 : ℂ) + x * (I * r) + (q + x * 0) / (I * y)) / d = ((x * r / d - q / y / d : ℝ) : ℂ) * I := by
      have := I_ne_zero
      push_cast; field_simp
      linear_combination (q : ℂ) * hI
    rw [hq, hr, e1]
    simp

end

end GRT.Lamb
