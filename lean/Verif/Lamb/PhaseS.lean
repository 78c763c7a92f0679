import Verif.Lamb.PhaseP3

/-! The S part. -/

namespace GRT.Lamb

open Complex Set

local notation "cj" => starRingEnd ℂ

theorem Off.neg {c : ℂ} {lo hi : ℝ} (h : Off c lo hi) : Off (-c) (-hi) (-lo) := by
  rcases h with h | h | h
  · left; simpa using h
  · right; right; simpa using h
  · right; left; simpa using h

variable {nu az t : ℝ}

local notation "V" => mkVars nu az

/-- Imaginary S slowness `I x`. -/
theorem fS_imag (h0 : 0 < nu) (h1 : nu < 1 / 2) {x e p : ℝ} (hx : 0 < x) (he : 0 < e) (hp : p * p = t * t - 1 - x * x)
    (hxe : e * e = (V).kpkp + x * x) (hd : den 1 (V).kpkp (V).ysp ((x * x : ℝ) : ℂ) ≠ 0) {i : ℕ} :
    (Diag i → fS (V).kk t i p = (quart (evens (ckimS1 V t i)) ((x * x : ℝ) : ℂ) / den 1 (V).kpkp (V).ysp ((x * x : ℝ) : ℂ)).re / x +
      (quart (odds (ckimS2 V t i)) ((x * x : ℝ) : ℂ) / den 1 (V).kpkp (V).ysp ((x * x : ℝ) : ℂ)).re / e) ∧
    (Side i → fS (V).kk t i p = 0) := by
  have hkk := kpkp_eq (nu := nu) (az := az)
  have hu : uAt (V).kk t p = I * e := by
    unfold uAt
    rw [show (V).kk - (t * t - p * p) = -(e * e) by linarith, csqrt_neg_real (by positivity), Real.sqrt_mul_self he.le]
  have hv : vAt t p = I * x := by
    unfold vAt
    rw [show 1 - (t * t - p * p) = -(x * x) by linarith, csqrt_neg_real (by positivity), Real.sqrt_mul_self hx.le]
  have hs : t * t - p * p = 1 + x * x := by linarith
  have hI : I * I = -1 := I_mul_I
  have x0 : (x : ℂ) ≠ 0 := by exact_mod_cast hx.ne'
  have e0 : (e : ℂ) ≠ 0 := by exact_mod_cast he.ne'
  have hxe' : (e : ℂ) * e = (V).kpkp + x * x := by exact_mod_cast hxe
  have key : i < 6 → fS (V).kk t i p =
      ((poly (ckimS1 V t i) x + poly (ckimS2 V t i) x / e) / den 1 (V).kpkp (V).ysp ((x * x : ℝ) : ℂ)).re / x := by
    intro hi
    have ht := tableS nu az t x e hxe' e0 i hi
    have hdd := den_S1 (az := az) h1 ((x * x : ℝ) : ℂ)
    rw [hdd] at hd ⊢
    unfold fS sigAt
    rw [hu, hv, hs, hp]
    push_cast at ht hd ⊢
    rw [← ht]
    generalize sN _ _ _ _ i = P
    have hf : (1 + 2 * ((x : ℂ) * x)) ^ 4 - 16 * (x * x) * ((V).kpkp + x * x) * (1 + x * x) ^ 2 =
        ((1 - 2 * (1 + (x : ℂ) * x)) ^ 2 + 4 * (I * e) * (I * x) * (1 + x * x)) * ((1 - 2 * (1 + (x : ℂ) * x)) ^ 2 - 4 * (I * e) * (I * x) * (1 + x * x)) := by
      rw [← hxe']
      linear_combination 16 * (x * x) * (e * e) * (1 + (x : ℂ) * x) ^ 2 * (I * I - 1) * hI
    rw [hf] at hd ⊢
    obtain ⟨d1, d2⟩ := mul_ne_zero_iff.mp hd
    generalize (1 - 2 * (1 + (x : ℂ) * x)) ^ 2 + 4 * (I * e) * (I * x) * (1 + x * x) = S at *
    generalize (1 - 2 * (1 + (x : ℂ) * x)) ^ 2 - 4 * (I * e) * (I * x) * (1 + x * x) = S' at *
    have e1 : P * S' / (S * S') = P / S := by field_simp
    have e2 : P / (I * x * S) = ((1 / x : ℝ) : ℂ) * (-I * (P / S)) := by
      have := I_ne_zero
      push_cast; field_simp
      linear_combination P * hI
    rw [e1, e2, im_ofReal_mul, neg_mul, neg_im, I_mul_im]
    ring
  obtain ⟨d, hdr⟩ := den_ex (sgn := 1) (kpkp := (V).kpkp) (conj_ysp (az := az) h0 h1) (x * x)
  rw [hdr] at hd key ⊢
  have d0 : (d : ℂ) ≠ 0 := hd
  constructor <;> intro hi
  · obtain ⟨a, b, c, f⟩ := class_S1_diag V t hi
    rw [key (by unfold Diag at hi; omega), poly_split, poly_split, b, c, quart_zero, ← ofReal_mul]
    obtain ⟨q, hq⟩ := a.ex (x * x)
    obtain ⟨r, hr⟩ := f.ex (x * x)
    rw [hq, hr, show ((q : ℂ) + x * 0 + (0 + x * r) / e) / d = ((q / d + x * r / e / d : ℝ) : ℂ) by push_cast; ring,
      ← ofReal_div, ← ofReal_div, ofReal_re, ofReal_re, ofReal_re]
    field_simp
  · obtain ⟨a, b, c, f⟩ := class_S1_side V t hi
    rw [key (by unfold Side at hi; omega), poly_split, poly_split, a, f, quart_zero, ← ofReal_mul]
    obtain ⟨q, hq⟩ := b.ex (x * x)
    obtain ⟨r, hr⟩ := c.ex (x * x)
    rw [hq, hr, show ((0 : ℂ) + x * (I * q) + (I * r + x * 0) / e) / d = ((x * q / d + r / e / d : ℝ) : ℂ) * I by push_cast; ring]
    simp

/-- Real S slowness `y`. -/
theorem fS_real (h0 : 0 < nu) (h1 : nu < 1 / 2) {y e p : ℝ} (hy : 0 < y) (he : 0 < e) (hp : p * p = t * t - 1 + y * y)
    (hye : e * e = (V).kpkp - y * y) (hd : den (-1) (V).kpkp (V).ysp ((y * y : ℝ) : ℂ) ≠ 0) {i : ℕ} :
    (Diag i → fS (V).kk t i p =
      -(quart (odds (turnC (ckimS2 V t) i)) ((y * y : ℝ) : ℂ) / den (-1) (V).kpkp (V).ysp ((y * y : ℝ) : ℂ)).im / e) ∧
    (Side i → fS (V).kk t i p =
      -(quart (evens (turnC (ckimS2 V t) i)) ((y * y : ℝ) : ℂ) / den (-1) (V).kpkp (V).ysp ((y * y : ℝ) : ℂ)).im / (y * e)) := by
  have hkk := kpkp_eq (nu := nu) (az := az)
  have hu : uAt (V).kk t p = I * e := by
    unfold uAt
    rw [show (V).kk - (t * t - p * p) = -(e * e) by linarith, csqrt_neg_real (by positivity), Real.sqrt_mul_self he.le]
  have hv : vAt t p = y := by
    unfold vAt
    rw [show 1 - (t * t - p * p) = y * y by linarith, csqrt_real (by positivity), Real.sqrt_mul_self hy.le]
  have hs : t * t - p * p = 1 - y * y := by linarith
  have hI : I * I = -1 := I_mul_I
  have y0 : (y : ℂ) ≠ 0 := by exact_mod_cast hy.ne'
  have e0 : (e : ℂ) ≠ 0 := by exact_mod_cast he.ne'
  have hye' : (e : ℂ) * e = (V).kpkp - y * y := by exact_mod_cast hye
  have key : i < 6 → fS (V).kk t i p =
      -((poly (turnC (ckimS1 V t) i) y + poly (turnC (ckimS2 V t) i) y / e) / den (-1) (V).kpkp (V).ysp ((y * y : ℝ) : ℂ)).im / y := by
    intro hi
    have ht := tableS nu az t (-I * y) e (by rw [hye']; linear_combination -(y : ℂ) * y * hI) e0 i hi
    rw [show -I * (y : ℂ) * (-I * y) = -(y * y) by linear_combination (y : ℂ) * y * hI,
      show I * (-I * (y : ℂ)) = y by linear_combination -(y : ℂ) * hI] at ht
    have hdd := den_S2 (az := az) h1 ((y * y : ℝ) : ℂ)
    rw [hdd] at hd ⊢
    unfold fS sigAt
    rw [hu, hv, hs, hp, turn_poly, turn_poly]
    push_cast at ht hd ⊢
    rw [show (t : ℂ) * t - 1 - -((y : ℂ) * y) = t * t - 1 + y * y by ring, show (1 : ℂ) + -((y : ℂ) * y) = 1 - y * y by ring] at ht
    rw [← ht]
    generalize sN _ _ _ _ i = P
    have hf : (1 - 2 * ((y : ℂ) * y)) ^ 4 + 16 * (y * y) * ((V).kpkp - y * y) * (1 - y * y) ^ 2 =
        ((1 - 2 * (1 - (y : ℂ) * y)) ^ 2 + 4 * (I * e) * y * (1 - y * y)) * ((1 - 2 * (1 - (y : ℂ) * y)) ^ 2 - 4 * (I * e) * y * (1 - y * y)) := by
      rw [← hye']
      linear_combination 16 * (y * y) * (e * e) * (1 - (y : ℂ) * y) ^ 2 * hI
    rw [hf] at hd ⊢
    obtain ⟨d1, d2⟩ := mul_ne_zero_iff.mp hd
    generalize (1 - 2 * (1 - (y : ℂ) * y)) ^ 2 + 4 * (I * e) * y * (1 - y * y) = S at *
    generalize (1 - 2 * (1 - (y : ℂ) * y)) ^ 2 - 4 * (I * e) * y * (1 - y * y) = S' at *
    have e1 : P * S' / (S * S') = P / S := by field_simp
    have e2 : P / (y * S) = ((1 / y : ℝ) : ℂ) * (P / S) := by push_cast; field_simp
    rw [e1, e2, im_ofReal_mul]
    ring
  obtain ⟨d, hdr⟩ := den_ex (sgn := -1) (kpkp := (V).kpkp) (conj_ysp (az := az) h0 h1) (y * y)
  rw [hdr] at hd key ⊢
  have d0 : (d : ℂ) ≠ 0 := hd
  constructor <;> intro hi
  · obtain ⟨a, b, c, f⟩ := class_S2_diag V t hi
    rw [key (by unfold Diag at hi; omega), poly_split, poly_split, b, c, quart_zero, ← ofReal_mul]
    obtain ⟨q, hq⟩ := a.ex (y * y)
    obtain ⟨r, hr⟩ := f.ex (y * y)
    have e2 : I * (r : ℂ) / d = ((r / d : ℝ) : ℂ) * I := by push_cast; ring
    rw [hq, hr, show ((q : ℂ) + y * 0 + (0 + y * (I * r)) / e) / d = ((q / d : ℝ) : ℂ) + ((y * r / e / d : ℝ) : ℂ) * I by push_cast; ring, e2]
    rw [add_im, im_ofReal_mul, im_ofReal_mul, ofReal_im, I_im]
    field_simp
    ring
  · obtain ⟨a, b, c, f⟩ := class_S2_side V t hi
    rw [key (by unfold Side at hi; omega), poly_split, poly_split, a, f, quart_zero, ← ofReal_mul]
    obtain ⟨q, hq⟩ := b.ex (y * y)
    obtain ⟨r, hr⟩ := c.ex (y * y)
    have e2 : I * (r : ℂ) / d = ((r / d : ℝ) : ℂ) * I := by push_cast; ring
    rw [hq, hr, show ((0 : ℂ) + y * q + (I * r + y * 0) / e) / d = ((y * q / d : ℝ) : ℂ) + ((r / e / d : ℝ) : ℂ) * I by push_cast; ring, e2]
    rw [add_im, im_ofReal_mul, im_ofReal_mul, ofReal_im, I_im]
    field_simp
    ring

theorem off_ysp' (h0 : 0 < nu) (h1 : nu < 1 / 2) (r : Fin 3) : Off ((V).ysp r) (-(V).kpkp) 0 :=
  off_ysp h0 h1 (by have := (ys_facts (az := az) h0 h1).1; linarith) r

theorem den_S2_ne (h0 : 0 < nu) (h1 : nu < 1 / 2) {X : ℝ} (hX0 : 0 ≤ X) (hX : X ≤ (V).kpkp) : den (-1) (V).kpkp (V).ysp (X : ℂ) ≠ 0 := by
  have hkp := kp_pos (az := az) h0 h1
  have hkp2 := kp_sq (az := az) h0 h1
  refine den_ne (by norm_num) (by rw [← hkp2]; positivity) (fun r => ?_)
  have := (off_ysp' (az := az) h0 h1 r).neg.ne (X := X) (by simpa using hX0) (by simpa using hX)
  simpa using this

theorem den_S1_ne (h0 : 0 < nu) (h1 : nu < 1 / 2) (hk : t * t < (V).kpakpa) {X : ℝ} (hX0 : 0 ≤ X) (hX : X ≤ t * t - 1) :
    den 1 (V).kpkp (V).ysp (X : ℂ) ≠ 0 := by
  have hkp := kp_pos (az := az) h0 h1
  have hkp2 := kp_sq (az := az) h0 h1
  refine den_ne one_ne_zero (by rw [← hkp2]; positivity) (fun r => ?_)
  rw [ofReal_one, mul_one]
  exact (off_ysp h0 h1 (hi := t * t - 1) (by linarith) r).ne (by rw [← hkp2]; nlinarith) hX

end GRT.Lamb
