import Verif.Lamb.PhaseS3
import Verif.Lamb.Spec

/-! From the pieces to the components. -/

namespace GRT.Lamb

open Complex Set

/-- The components out of the pieces, as `Cmat` does. -/
def mix {R : Type*} [CommRing R] (sf cf : R) (T : ℕ → R) (i j : Fin 3) : R :=
  (![![T 0 + T 1 * cf * cf + T 2 * sf * sf, (T 1 - T 2) * sf * cf, T 3 * cf],
     ![(T 1 - T 2) * sf * cf, T 0 + T 1 * sf * sf + T 2 * cf * cf, T 3 * sf],
     ![T 4 * cf, T 4 * sf, T 5]] : Fin 3 → Fin 3 → R) i j

theorem mix_congr {R : Type*} [CommRing R] {sf cf : R} {T T' : ℕ → R} (h : ∀ n < 6, T n = T' n) (i j : Fin 3) :
    mix sf cf T i j = mix sf cf T' i j := by
  unfold mix
  rw [h 0 (by norm_num), h 1 (by norm_num), h 2 (by norm_num), h 3 (by norm_num), h 4 (by norm_num), h 5 (by norm_num)]

theorem mix_re (sf cf : ℝ) (T : ℕ → ℂ) (i j : Fin 3) : (mix (sf : ℂ) cf T i j).re = mix sf cf (fun n => (T n).re) i j := by
  fin_cases i <;> fin_cases j <;> simp [mix]

theorem mix_im (sf cf : ℝ) (T : ℕ → ℂ) (i j : Fin 3) : (mix (sf : ℂ) cf T i j).im = mix sf cf (fun n => (T n).im) i j := by
  fin_cases i <;> fin_cases j <;> simp [mix]

theorem mix_add {R : Type*} [CommRing R] (sf cf : R) (T T' : ℕ → R) (i j : Fin 3) :
    mix sf cf (fun n => T n + T' n) i j = mix sf cf T i j + mix sf cf T' i j := by
  fin_cases i <;> fin_cases j <;> simp [mix] <;> ring

theorem mix_neg {R : Type*} [CommRing R] (sf cf : R) (T : ℕ → R) (i j : Fin 3) :
    mix sf cf (fun n => -T n) i j = -mix sf cf T i j := by
  fin_cases i <;> fin_cases j <;> simp [mix] <;> ring

theorem mix_integral {sf cf a b : ℝ} {f : ℕ → ℝ → ℝ} (hf : ∀ n < 6, IntervalIntegrable (f n) MeasureTheory.volume a b) (i j : Fin 3) :
    ∫ p in a..b, mix sf cf (fun n => f n p) i j = mix sf cf (fun n => ∫ p in a..b, f n p) i j := by
  have h0 := hf 0 (by norm_num)
  have h1 := hf 1 (by norm_num)
  have h2 := hf 2 (by norm_num)
  have h3 := hf 3 (by norm_num)
  have h4 := hf 4 (by norm_num)
  have d1 : ∀ c d : ℝ, ∫ p in a..b, (f 0 p + f 1 p * c * c + f 2 p * d * d) =
      (∫ p in a..b, f 0 p) + (∫ p in a..b, f 1 p) * c * c + (∫ p in a..b, f 2 p) * d * d := by
    intro c d
    rw [intervalIntegral.integral_add (h0.add ((h1.mul_const c).mul_const c)) ((h2.mul_const d).mul_const d),
      intervalIntegral.integral_add h0 ((h1.mul_const c).mul_const c)]
    simp only [intervalIntegral.integral_mul_const]
  have d2 : ∫ p in a..b, (f 1 p - f 2 p) * sf * cf = ((∫ p in a..b, f 1 p) - ∫ p in a..b, f 2 p) * sf * cf := by
    simp only [intervalIntegral.integral_mul_const]
    rw [intervalIntegral.integral_sub h1 h2]
  fin_cases i <;> fin_cases j <;> simp only [mix, Matrix.cons_val, Fin.zero_eta, Fin.mk_one, Fin.reduceFinMk, d1, d2, intervalIntegral.integral_mul_const]

theorem mix_mul {R : Type*} [CommRing R] (sf cf : R) (T : ℕ → R) (x : R) (i j : Fin 3) :
    mix sf cf T i j * x = mix sf cf (fun n => T n * x) i j := by
  fin_cases i <;> fin_cases j <;> simp [mix] <;> ring

theorem mix_integrable {sf cf a b : ℝ} {f : ℕ → ℝ → ℝ} (hf : ∀ n < 6, IntervalIntegrable (f n) MeasureTheory.volume a b) (i j : Fin 3) :
    IntervalIntegrable (fun p => mix sf cf (fun n => f n p) i j) MeasureTheory.volume a b := by
  have h0 := hf 0 (by norm_num)
  have h1 := hf 1 (by norm_num)
  have h2 := hf 2 (by norm_num)
  have h3 := hf 3 (by norm_num)
  have h4 := hf 4 (by norm_num)
  have h5 := hf 5 (by norm_num)
  have d : ∀ c d : ℝ, IntervalIntegrable (fun p => f 0 p + f 1 p * c * c + f 2 p * d * d) MeasureTheory.volume a b := fun c d =>
    (h0.add ((h1.mul_const c).mul_const c)).add ((h2.mul_const d).mul_const d)
  have e : IntervalIntegrable (fun p => (f 1 p - f 2 p) * sf * cf) MeasureTheory.volume a b := ((h1.sub h2).mul_const sf).mul_const cf
  fin_cases i <;> fin_cases j <;> simp only [mix, Matrix.cons_val, Fin.zero_eta, Fin.mk_one, Fin.reduceFinMk]
  exacts [d _ _, e, h3.mul_const _, e, d _ _, h3.mul_const _, h4.mul_const _, h4.mul_const _, h5]

theorem cmat_mix (V : Vars) (ck : ℕ → ℕ → ℂ) (i j : Fin 3) (m : ℕ) : cmat V ck i j m = mix (V.sf : ℂ) V.cf (fun n => ck n m) i j := rfl

theorem buildRaw_mix (sgn kpkp : ℝ) (ys : Fin 3 → ℂ) (V : Vars) (c1 c2 : ℕ → ℕ → ℂ) (U W : ℕ → ℂ → ℂ) (i j : Fin 3) :
    buildRaw sgn kpkp ys (cmat V c1 i j) (cmat V c2 i j) U W =
      mix (V.sf : ℂ) V.cf (fun n => buildRaw sgn kpkp ys (c1 n) (c2 n) U W) i j := by
  have lin : ∀ x y z w : ℂ, ∀ a b c : ℕ, buildRaw sgn kpkp ys (fun m => c1 a m * x + c1 b m * y + c1 c m * z) (fun m => c2 a m * x + c2 b m * y + c2 c m * z) U W =
      buildRaw sgn kpkp ys (c1 a) (c2 a) U W * x + buildRaw sgn kpkp ys (c1 b) (c2 b) U W * y + buildRaw sgn kpkp ys (c1 c) (c2 c) U W * z := by
    intro x y z w a b c
    simp only [buildRaw, evalpoly2]
    ring
  have e0 : ∀ (x y z : ℂ) (a b c : ℕ) (k1 k2 : ℕ → ℂ), (∀ m, k1 m = c1 a m * x + c1 b m * y + c1 c m * z) → (∀ m, k2 m = c2 a m * x + c2 b m * y + c2 c m * z) →
      buildRaw sgn kpkp ys k1 k2 U W =
      buildRaw sgn kpkp ys (c1 a) (c2 a) U W * x + buildRaw sgn kpkp ys (c1 b) (c2 b) U W * y + buildRaw sgn kpkp ys (c1 c) (c2 c) U W * z := by
    intro x y z a b c k1 k2 h1 h2
    rw [← lin x y z 0 a b c, funext h1, funext h2]
  have p : ∀ (x y z : ℂ) (a b c : ℕ) (i j : Fin 3), (∀ T : ℕ → ℂ, mix (V.sf : ℂ) V.cf T i j = T a * x + T b * y + T c * z) →
      buildRaw sgn kpkp ys (cmat V c1 i j) (cmat V c2 i j) U W = mix (V.sf : ℂ) V.cf (fun n => buildRaw sgn kpkp ys (c1 n) (c2 n) U W) i j := by
    intro x y z a b c i j h
    rw [h]
    exact e0 x y z a b c _ _ (fun m => by rw [cmat_mix, h]) (fun m => by rw [cmat_mix, h])
  fin_cases i <;> fin_cases j
  · exact p 1 (V.cf * V.cf) (V.sf * V.sf) 0 1 2 _ _ (fun T => by simp [mix]; ring)
  · exact p (V.sf * V.cf) (-(V.sf * V.cf)) 0 1 2 0 _ _ (fun T => by simp [mix]; ring)
  · exact p V.cf 0 0 3 0 0 _ _ (fun T => by simp [mix])
  · exact p (V.sf * V.cf) (-(V.sf * V.cf)) 0 1 2 0 _ _ (fun T => by simp [mix]; ring)
  · exact p 1 (V.sf * V.sf) (V.cf * V.cf) 0 1 2 _ _ (fun T => by simp [mix]; ring)
  · exact p V.sf 0 0 3 0 0 _ _ (fun T => by simp [mix])
  · exact p V.cf 0 0 4 0 0 _ _ (fun T => by simp [mix])
  · exact p V.sf 0 0 4 0 0 _ _ (fun T => by simp [mix])
  · exact p 1 0 0 5 0 0 _ _ (fun T => by simp [mix])

theorem contour_sq (phi t : ℝ) (p : ℂ) : (Spec.contour phi t p).1 ^ 2 + (Spec.contour phi t p).2 ^ 2 = t * t - p * p := by
  have hsc : (Real.sin phi : ℂ) ^ 2 + (Real.cos phi : ℂ) ^ 2 = 1 := by exact_mod_cast Real.sin_sq_add_cos_sq phi
  have hI : I * I = -1 := I_mul_I
  simp only [Spec.contour]
  linear_combination ((t : ℂ) * t - p * p) * hsc + (p : ℂ) ^ 2 * ((Real.sin phi : ℂ) ^ 2 + (Real.cos phi : ℂ) ^ 2) * hI

/-- The Rayleigh function, given the vertical slownesses. -/
noncomputable def sigC (t : ℝ) (p u v : ℂ) : ℂ := (1 - 2 * (t * t - p * p)) ^ 2 + 4 * u * v * (t * t - p * p)

/-- The two halves of the contour together. -/
theorem comp_mix (phi t : ℝ) (p u v : ℂ) (v0 : v ≠ 0) (i j : Fin 3) :
    (Spec.comp (Spec.contour phi t p).1 (Spec.contour phi t p).2 u v i j + Spec.comp (Spec.contour phi t (-p)).1 (Spec.contour phi t (-p)).2 u v i j) / 2 =
      mix (Real.sin phi : ℂ) (Real.cos phi) (fun n => (pM (-t) (p * p) u v n + sN (-t) (p * p) u v n / v) / sigC t p u v) i j := by
  have hsc : (Real.sin phi : ℂ) ^ 2 + (Real.cos phi : ℂ) ^ 2 = 1 := by exact_mod_cast Real.sin_sq_add_cos_sq phi
  have hI : I * I = -1 := I_mul_I
  have hs' := contour_sq phi t (-p)
  rw [neg_mul_neg] at hs'
  simp only [Spec.comp, contour_sq phi t p, hs', sigC]
  simp only [Spec.contour]
  generalize (Real.sin phi : ℂ) = s at *
  generalize (Real.cos phi : ℂ) = c at *
  generalize hσ : (1 - 2 * ((t : ℂ) * t - p * p)) ^ 2 + 4 * u * v * (t * t - p * p) = σ
  simp only [div_eq_mul_inv]
  have hv : v * v⁻¹ = 1 := mul_inv_cancel₀ v0
  generalize v⁻¹ = v' at *
  generalize σ⁻¹ = w at *
  clear hs'
  fin_cases i <;> fin_cases j <;> simp only [mix, pM, sN, Matrix.cons_val, Fin.zero_eta, Fin.mk_one, Fin.reduceFinMk] <;> grind

/-- The vertical slownesses beside the contour. -/
noncomputable def uC (kk t : ℝ) (p : ℂ) : ℂ := csqrt (kk - (t * t - p * p))

theorem uAt_eq (kk t p : ℝ) : uAt kk t p = uC kk t p := by unfold uAt uC; push_cast; rfl

theorem vAt_eq (t p : ℝ) : vAt t p = uC 1 t p := by unfold vAt uC; push_cast; rfl

theorem sigAt_eq (kk t p : ℝ) : sigAt kk t p = sigC t p (uAt kk t p) (vAt t p) := by unfold sigAt sigC; push_cast; rfl

/-- What the compliance is, wherever there is one. -/
theorem halves_eq {kk phi t : ℝ} {G : ℂ → Fin 3 → Fin 3 → ℂ} (hG : Spec.AlongContour kk phi t G) (hk0 : kk ≠ 0) (hk1 : kk ≠ 1) {p : ℂ}
    (hv : uC 1 t p ≠ 0) (hs : sigC t p (uC kk t p) (uC 1 t p) ≠ 0) (i j : Fin 3) :
    Spec.halves G i j p = mix (Real.sin phi : ℂ) (Real.cos phi) (fun n => (pM (-t) (p * p) (uC kk t p) (uC 1 t p) n +
      sN (-t) (p * p) (uC kk t p) (uC 1 t p) n / uC 1 t p) / sigC t p (uC kk t p) (uC 1 t p)) i j := by
  have one : ∀ p : ℂ, uC 1 t p ≠ 0 → sigC t p (uC kk t p) (uC 1 t p) ≠ 0 →
      G p i j = Spec.comp (Spec.contour phi t p).1 (Spec.contour phi t p).2 (uC kk t p) (uC 1 t p) i j := by
    intro p hv hs
    have h2 := contour_sq phi t p
    have hu : Spec.root ((kk : ℂ) - ((Spec.contour phi t p).1 ^ 2 + (Spec.contour phi t p).2 ^ 2)) = uC kk t p := by rw [h2]; rfl
    have hv' : Spec.root ((1 : ℂ) - ((Spec.contour phi t p).1 ^ 2 + (Spec.contour phi t p).2 ^ 2)) = uC 1 t p := by rw [h2, ← ofReal_one]; rfl
    have hk0' : (kk : ℂ) ≠ 0 := by exact_mod_cast hk0
    have hk1' : (kk : ℂ) ≠ 1 := by exact_mod_cast hk1
    have q1 : uC kk t p * uC kk t p = kk - ((Spec.contour phi t p).1 ^ 2 + (Spec.contour phi t p).2 ^ 2) := by rw [h2]; exact csqrt_mul_self _
    have q2 : uC 1 t p * uC 1 t p = 1 - ((Spec.contour phi t p).1 ^ 2 + (Spec.contour phi t p).2 ^ 2) := by
      rw [h2, ← ofReal_one]; exact csqrt_mul_self _
    have q3 : (1 - 2 * ((Spec.contour phi t p).1 ^ 2 + (Spec.contour phi t p).2 ^ 2)) ^ 2 +
        4 * uC kk t p * uC 1 t p * ((Spec.contour phi t p).1 ^ 2 + (Spec.contour phi t p).2 ^ 2) ≠ 0 := by rw [h2]; exact hs
    have hex : Spec.IsCompliance kk (Spec.contour phi t p).1 (Spec.contour phi t p).2
        (Spec.comp (Spec.contour phi t p).1 (Spec.contour phi t p).2 (uC kk t p) (uC 1 t p)) := by
      intro j
      have := Spec.comp_responds hk0' hk1' q1 q2 hv q3 (fun i => if i = j then 1 else 0)
      rw [hu, hv']
      convert this using 2
      fin_cases j <;> simp
    have hj := hG p ⟨_, hex⟩ j
    rw [hu, hv'] at hj
    have := Spec.responds_unique hk0' hk1' q1 q2 hv q3 hj i
    rw [this]
    fin_cases j <;> simp
  have hev : ∀ k, uC k t (-p) = uC k t p := by intro k; unfold uC; rw [neg_mul_neg]
  have hsv : sigC t (-p) (uC kk t (-p)) (uC 1 t (-p)) ≠ 0 := by
    rw [hev, hev]; unfold sigC; rw [neg_mul_neg]; exact hs
  unfold Spec.halves
  rw [one p hv hs, one (-p) (by rw [hev]; exact hv) hsv, hev, hev, comp_mix _ _ _ _ _ hv]

end GRT.Lamb
