import Verif.Lamb.EllTail

/-! The series at the end of `grt_ellipticRJ`. -/

namespace GRT.Ell

open Complex Set MeasureTheory Filter GRT.Lamb

theorem mul_near {u v : ℂ} {a b : ℝ} (hu : ‖u - 1‖ ≤ a) (hv : ‖v - 1‖ ≤ b) : ‖u * v - 1‖ ≤ a + b + a * b := by
  have e : u * v - 1 = (u - 1) + (v - 1) + (u - 1) * (v - 1) := by ring
  rw [e]
  have h1 := norm_add_le ((u - 1) + (v - 1)) ((u - 1) * (v - 1))
  have h2 := norm_add_le (u - 1) (v - 1)
  rw [norm_mul] at h1
  have := mul_le_mul hu hv (norm_nonneg _) ((norm_nonneg _).trans hu)
  linarith

theorem re_div_pos {β : ℂ} (hβ : 0 < β.re) {a : ℝ} (ha : 0 < a) : 0 < ((a : ℂ) / β).re := by
  have β0 : β ≠ 0 := by intro h; rw [h] at hβ; simp at hβ
  rw [Complex.div_re]
  have := Complex.normSq_pos.2 β0
  simp
  positivity

theorem dev_eq {A x : ℂ} (hA : A ≠ 0) : x = A * (1 - dev A x) := by unfold dev; field_simp; ring

/-- A root of a positive number, divided by the root at the mean. -/
theorem root_quot {A : ℂ} (hA : 0 < A.re) {x : ℝ} (hx : 0 < x) (hd : ‖dev A x‖ < 0.001) {t : ℝ} (ht : 0 ≤ t) :
    (√(t + x) : ℝ) / csqrt (t + A) * ((√(t + x) : ℝ) / csqrt (t + A)) = 1 - dev A x * (A / (t + A)) ∧
    ‖((√(t + x) : ℝ) : ℂ) / csqrt (t + A) - 1‖ ≤ 0.001 := by
  have A0 : A ≠ 0 := by intro h; rw [h] at hA; simp at hA
  have hs := slit_add hA ht
  have n0 := slitPlane_ne_zero hs
  have hr : ‖A / (t + A)‖ ≤ 1 := by
    rw [norm_div]
    apply div_le_one_of_le₀ _ (norm_nonneg _)
    rw [← Real.sqrt_sq (norm_nonneg A), ← Real.sqrt_sq (norm_nonneg ((t : ℂ) + A)), ← Complex.normSq_eq_norm_sq, ← Complex.normSq_eq_norm_sq]
    apply Real.sqrt_le_sqrt
    simp only [Complex.normSq_apply, add_re, add_im, ofReal_re, ofReal_im]
    nlinarith [mul_nonneg ht hA.le]
  have e1 : ((√(t + x) : ℝ) : ℂ) / csqrt (t + A) * ((√(t + x) : ℝ) / csqrt (t + A)) = 1 - dev A x * (A / (t + A)) := by
    rw [div_mul_div_comm, csqrt_mul_self, ← ofReal_mul, Real.mul_self_sqrt (by linarith)]
    rw [div_eq_iff n0, sub_mul, mul_assoc, div_mul_cancel₀ _ n0]
    push_cast
    linear_combination dev_eq (x := (x : ℂ)) A0
  refine ⟨e1, ?_⟩
  have h2 : ‖-(dev A x * (A / (t + A)))‖ ≤ 0.001 := by
    rw [norm_neg, norm_mul]
    nlinarith [norm_nonneg (dev A x), norm_nonneg (A / (t + A))]
  have h3 := slit_small (z := -(dev A x * (A / (t + A)))) (by norm_num at *; linarith)
  have h4 := csqrt_near h3
  have h5 : csqrt (1 + -(dev A x * (A / (t + A)))) = (√(t + x) : ℝ) / csqrt (t + A) := by
    apply csqrt_unique
    · rw [e1]; ring
    · exact re_div_pos (csqrt_re_pos hs) (Real.sqrt_pos.2 (by linarith))
  rw [h5] at h4
  exact h4.trans h2

theorem mean_re {A : ℂ} {z : ℝ} (A0 : A ≠ 0) (hz : 0 < z) (hd : ‖dev A z‖ < 0.001) : 0.998 * ‖A‖ ≤ A.re ∧ 0 < A.re ∧ z ≤ 1.001 * ‖A‖ := by
  have e := dev_eq (A := A) (x := (z : ℂ)) A0
  have hn : 0 < ‖A‖ := norm_pos_iff.2 A0
  have e2 : A - z = A * dev A z := by linear_combination -e
  have h1 : ‖A - z‖ ≤ 0.001 * ‖A‖ := by rw [e2, norm_mul]; nlinarith
  have h2 := norm_sub_norm_le A (A - z)
  rw [sub_sub_cancel, Complex.norm_real, Real.norm_eq_abs, abs_of_pos hz] at h2
  have h3 := Complex.abs_re_le_norm (A - z)
  have h4 := abs_le.1 (h3.trans h1)
  simp at h4
  have h5 := norm_sub_norm_le (z : ℂ) (z - A)
  rw [sub_sub_cancel, norm_sub_rev, Complex.norm_real, Real.norm_eq_abs, abs_of_pos hz] at h5
  norm_num at *
  refine ⟨by linarith, by linarith, by linarith⟩

theorem j_near {x y z : ℝ} (hx : 0 < x) (hy : 0 < y) (hz : 0 < z) {p A : ℂ} {δ : ℝ} (hp : Away p δ) (hA : A = (x + y + z + 2 * p) * 0.2) (A0 : A ≠ 0)
    (dx : ‖dev A x‖ < 0.001) (dy : ‖dev A y‖ < 0.001) (dz : ‖dev A z‖ < 0.001) :
    ‖3 / 2 * jInt x y z p - 1 / (A * csqrt A)‖ ≤ 5.4 / 10 ^ 6 / (‖A‖ * √‖A‖) := by
  obtain ⟨r1, r2, -⟩ := mean_re A0 hz dz
  have args : Args x y z := ⟨hx.le, hy, hz⟩
  have hn : 0 < ‖A‖ := norm_pos_iff.2 A0
  have ij := args.integrable_j (hp.cont (f := fun t => t) continuous_id (fun t ht => ht.le)) (fun t ht => hp.inv_le (le_of_lt ht))
  have hsum : dev A x + dev A y + dev A z + 2 * dev A p = 0 := by
    unfold dev
    have : x + y + z + 2 * p = 5 * A := by rw [hA]; norm_num; ring
    field_simp
    linear_combination -this
  have hpt : ∀ t ∈ Ioi (0 : ℝ), ‖((1 / den x y z t : ℝ) : ℂ) * (1 / (t + p)) - 1 / (((t : ℂ) + A) ^ 2 * csqrt (t + A))‖ ≤
      5.2 / 10 ^ 6 * (1 / ((t + A.re) ^ 2 * √(t + A.re))) := by
    intro t ht
    have t0 : (0 : ℝ) < t := ht
    obtain ⟨a1, b1⟩ := root_quot r2 hx dx t0.le
    obtain ⟨a2, b2⟩ := root_quot r2 hy dy t0.le
    obtain ⟨a3, b3⟩ := root_quot r2 hz dz t0.le
    have hs := slit_add r2 t0.le
    have n0 := slitPlane_ne_zero hs
    have q0 := csqrt_ne n0
    have hr : ‖A / (t + A)‖ ≤ 1 := by
      rw [norm_div]
      apply div_le_one_of_le₀ _ (norm_nonneg _)
      rw [← Real.sqrt_sq (norm_nonneg A), ← Real.sqrt_sq (norm_nonneg ((t : ℂ) + A)), ← Complex.normSq_eq_norm_sq, ← Complex.normSq_eq_norm_sq]
      apply Real.sqrt_le_sqrt
      simp only [Complex.normSq_apply, add_re, add_im, ofReal_re, ofReal_im]
      nlinarith [mul_nonneg t0.le r2.le]
    have e4 : (t + p) / (t + A) = 1 - dev A p * (A / (t + A)) := by
      rw [div_eq_iff n0, sub_mul, mul_assoc, div_mul_cancel₀ _ n0]
      linear_combination dev_eq (x := p) A0
    have nP : ‖dev A p‖ ≤ 0.0015 := by
      have : dev A p = -(dev A x + dev A y + dev A z) / 2 := by linear_combination hsum / 2
      rw [this, norm_div, norm_neg, Complex.norm_ofNat]
      have := norm_add_le (dev A x + dev A y) (dev A z)
      have := norm_add_le (dev A x) (dev A y)
      norm_num at *
      linarith
    have b4 : ‖((t : ℂ) + p) / (t + A) - 1‖ ≤ 0.0015 := by
      rw [e4, show 1 - dev A p * (A / (t + A)) - 1 = -(dev A p * (A / (t + A))) by ring, norm_neg, norm_mul]
      nlinarith [norm_nonneg (dev A p), norm_nonneg (A / (t + A))]
    have hprod := prod_near dx.le dy.le dz.le hsum hr
    rw [← a1, ← a2, ← a3, ← e4] at hprod
    have hden := args.den_pos t0
    have p1 := Real.sqrt_pos.2 (show 0 < t + x by linarith)
    have p2 := Real.sqrt_pos.2 (show 0 < t + y by linarith)
    have p3 := Real.sqrt_pos.2 (show 0 < t + z by linarith)
    have tp := hp.ne t0.le
    have qq := csqrt_mul_self ((t : ℂ) + A)
    have f5 := five_le r2 t0.le
    set s := ((√(t + x) : ℝ) : ℂ) / csqrt (t + A) * (((√(t + y) : ℝ) : ℂ) / csqrt (t + A)) * (((√(t + z) : ℝ) : ℂ) / csqrt (t + A)) *
      ((t + p) / (t + A)) with hsdef
    have s1 : ‖s - 1‖ ≤ 0.01 := by
      have := mul_near (mul_near (mul_near b1 b2) b3) b4
      refine this.trans (by norm_num)
    have s2 : ‖s * s - 1‖ ≤ 1 / 10 ^ 5 := by
      refine le_of_eq_of_le ?_ hprod
      congr 1
      rw [hsdef]; ring
    have s3 := root_near s1 s2
    have c1 : ((√(t + x) : ℝ) : ℂ) ≠ 0 := by exact_mod_cast p1.ne'
    have c2 : ((√(t + y) : ℝ) : ℂ) ≠ 0 := by exact_mod_cast p2.ne'
    have c3 : ((√(t + z) : ℝ) : ℂ) ≠ 0 := by exact_mod_cast p3.ne'
    have es : ((1 / den x y z t : ℝ) : ℂ) * (1 / (t + p)) = 1 / s * (1 / (((t : ℂ) + A) ^ 2 * csqrt (t + A))) := by
      rw [hsdef]
      unfold den
      push_cast
      generalize csqrt ((t : ℂ) + A) = q at *
      rw [← qq] at *
      field_simp
    rw [es, show 1 / s * (1 / (((t : ℂ) + A) ^ 2 * csqrt (t + A))) - 1 / (((t : ℂ) + A) ^ 2 * csqrt (t + A)) =
      (1 / s - 1) * (1 / (((t : ℂ) + A) ^ 2 * csqrt (t + A))) by ring, norm_mul]
    exact mul_le_mul s3 f5 (norm_nonneg _) (by norm_num)
  have i5 := five_integrable r2
  obtain ⟨i6, e6⟩ := five_int r2
  have hb := norm_integral_le_of_norm_le (i6.const_mul (5.2 / 10 ^ 6)) ((ae_restrict_mem measurableSet_Ioi).mono hpt)
  rw [integral_sub ij i5, five_cint r2, integral_const_mul, e6] at hb
  have hJ : ∫ t in Ioi (0 : ℝ), ((1 / den x y z t : ℝ) : ℂ) * (1 / (t + p)) = jInt x y z p := rfl
  rw [hJ] at hb
  have e7 : 3 / 2 * jInt x y z p - 1 / (A * csqrt A) = 3 / 2 * (jInt x y z p - 2 / 3 / (A * csqrt A)) := by ring
  rw [e7, norm_mul]
  have h32 : ‖(3 / 2 : ℂ)‖ = 3 / 2 := by norm_num
  rw [h32]
  have sq : 0.998 * √‖A‖ ≤ √A.re := by
    apply Real.le_sqrt_of_sq_le
    rw [mul_pow, Real.sq_sqrt hn.le]
    norm_num at *
    nlinarith
  have sp : 0 < √‖A‖ := Real.sqrt_pos.2 hn
  have hm : 0.996 * (‖A‖ * √‖A‖) ≤ A.re * √A.re := by
    calc 0.996 * (‖A‖ * √‖A‖) ≤ (0.998 * ‖A‖) * (0.998 * √‖A‖) := by nlinarith [mul_pos hn sp]
      _ ≤ _ := by gcongr
  have hpos : 0 < A.re * √A.re := mul_pos r2 (Real.sqrt_pos.2 r2)
  have hpos2 : 0 < ‖A‖ * √‖A‖ := mul_pos hn sp
  calc 3 / 2 * ‖jInt x y z p - 2 / 3 / (A * csqrt A)‖ ≤ 3 / 2 * (5.2 / 10 ^ 6 * (2 / 3 / (A.re * √A.re))) := by gcongr
    _ = 5.2 / 10 ^ 6 / (A.re * √A.re) := by ring
    _ ≤ 5.4 / 10 ^ 6 / (‖A‖ * √‖A‖) := by
      rw [div_le_div_iff₀ hpos hpos2]
      norm_num at *
      nlinarith

theorem norm_mul_small {a b : ℂ} {c d e : ℝ} (ha : ‖a‖ ≤ c) (hb : ‖b‖ ≤ d) (h : c * d ≤ e) : ‖a * b‖ ≤ e := by
  rw [norm_mul]
  exact (mul_le_mul ha hb (norm_nonneg _) ((norm_nonneg _).trans ha)).trans h

theorem norm_add_small {a b : ℂ} {c d e : ℝ} (ha : ‖a‖ ≤ c) (hb : ‖b‖ ≤ d) (h : c + d ≤ e) : ‖a + b‖ ≤ e :=
  (norm_add_le a b).trans ((add_le_add ha hb).trans h)

theorem norm_sub_small {a b : ℂ} {c d e : ℝ} (ha : ‖a‖ ≤ c) (hb : ‖b‖ ≤ d) (h : c + d ≤ e) : ‖a - b‖ ≤ e :=
  (norm_sub_le a b).trans ((add_le_add ha hb).trans h)

/-- The series of the code, with its deviations from Carlson's series, is near one. -/
theorem rj_series {X Y Z : ℂ} (hX : ‖X‖ ≤ 0.001) (hY : ‖Y‖ ≤ 0.001) (hZ : ‖Z‖ ≤ 0.001) :
    let PPP := Z * Z * Z
    let E2 := X * Y + Y * Z + X * Z - 3 * Z * Z
    let E3 := X * Y * Z + 3 * E2 * Z + 4 * PPP
    let E4 := (2 * X * Y * Z + E2 * Z + 3 * PPP) * Z
    let E5 := X * Y * Z * Z * Z
    ‖1 - 3 / 14 * E2 + 1 / 6 * E3 + 9 / 88 * E2 * E2 - 3 / 22 * E4 - 9 / 52 * E2 * E3 + 3 / 26 * E5 - 1‖ ≤ 2 / 10 ^ 6 := by
  intro PPP E2 E3 E4 E5
  have n3 : ‖(3 : ℂ)‖ ≤ 3 := by simp
  have n4 : ‖(4 : ℂ)‖ ≤ 4 := by simp
  have n2 : ‖(2 : ℂ)‖ ≤ 2 := by simp
  have hXY : ‖X * Y‖ ≤ 1 / 10 ^ 6 := norm_mul_small hX hY (by norm_num)
  have hYZ : ‖Y * Z‖ ≤ 1 / 10 ^ 6 := norm_mul_small hY hZ (by norm_num)
  have hXZ : ‖X * Z‖ ≤ 1 / 10 ^ 6 := norm_mul_small hX hZ (by norm_num)
  have hXYZ : ‖X * Y * Z‖ ≤ 1 / 10 ^ 9 := norm_mul_small hXY hZ (by norm_num)
  have hZZ : ‖Z * Z‖ ≤ 1 / 10 ^ 6 := norm_mul_small hZ hZ (by norm_num)
  have hPPP : ‖PPP‖ ≤ 1 / 10 ^ 9 := norm_mul_small hZZ hZ (by norm_num)
  have h3ZZ : ‖3 * Z * Z‖ ≤ 3 / 10 ^ 6 := norm_mul_small (norm_mul_small n3 hZ le_rfl) hZ (by norm_num)
  have hE2 : ‖E2‖ ≤ 6 / 10 ^ 6 := norm_sub_small (norm_add_small (norm_add_small hXY hYZ le_rfl) hXZ le_rfl) h3ZZ (by norm_num)
  have hE3 : ‖E3‖ ≤ 1 / 10 ^ 7 :=
    norm_add_small (norm_add_small hXYZ (norm_mul_small (norm_mul_small n3 hE2 le_rfl) hZ le_rfl) le_rfl) (norm_mul_small n4 hPPP le_rfl) (by norm_num)
  have h2XYZ : ‖2 * X * Y * Z‖ ≤ 2 / 10 ^ 9 := norm_mul_small (norm_mul_small (norm_mul_small n2 hX le_rfl) hY le_rfl) hZ (by norm_num)
  have hE4 : ‖E4‖ ≤ 1 / 10 ^ 9 :=
    norm_mul_small (norm_add_small (norm_add_small h2XYZ (norm_mul_small hE2 hZ le_rfl) le_rfl) (norm_mul_small n3 hPPP le_rfl) le_rfl) hZ (by norm_num)
  have hE5 : ‖E5‖ ≤ 1 / 10 ^ 9 := norm_mul_small (norm_mul_small hXYZ hZ le_rfl) hZ (by norm_num)
  clear_value PPP E2 E3 E4 E5
  have m1 : ‖(3 / 14 * E2 : ℂ)‖ ≤ 1.3 / 10 ^ 6 := norm_mul_small (c := 3 / 14) (by norm_num) hE2 (by norm_num)
  have m2 : ‖(1 / 6 * E3 : ℂ)‖ ≤ 1 / 10 ^ 7 := norm_mul_small (c := 1 / 6) (by norm_num) hE3 (by norm_num)
  have m3 : ‖(9 / 88 * E2 * E2 : ℂ)‖ ≤ 1 / 10 ^ 9 := norm_mul_small (norm_mul_small (c := 9 / 88) (by norm_num) hE2 le_rfl) hE2 (by norm_num)
  have m4 : ‖(3 / 22 * E4 : ℂ)‖ ≤ 1 / 10 ^ 9 := norm_mul_small (c := 3 / 22) (by norm_num) hE4 (by norm_num)
  have m5 : ‖(9 / 52 * E2 * E3 : ℂ)‖ ≤ 1 / 10 ^ 9 := norm_mul_small (norm_mul_small (c := 9 / 52) (by norm_num) hE2 le_rfl) hE3 (by norm_num)
  have m6 : ‖(3 / 26 * E5 : ℂ)‖ ≤ 1 / 10 ^ 9 := norm_mul_small (c := 3 / 26) (by norm_num) hE5 (by norm_num)
  rw [show (1 - 3 / 14 * E2 + 1 / 6 * E3 + 9 / 88 * E2 * E2 - 3 / 22 * E4 - 9 / 52 * E2 * E3 + 3 / 26 * E5 - 1 : ℂ) =
    1 / 6 * E3 - 3 / 14 * E2 + 9 / 88 * E2 * E2 - 3 / 22 * E4 - 9 / 52 * E2 * E3 + 3 / 26 * E5 by ring]
  exact norm_add_small (norm_sub_small (norm_sub_small (norm_add_small (norm_sub_small m2 m1 le_rfl) m3 le_rfl) m4 le_rfl) m5 le_rfl) m6 (by norm_num)

/-- What the loop returns when the deviations are small. -/
theorem rj_end {x y z : ℝ} (hx : 0 < x) (hy : 0 < y) (hz : 0 < z) {p A : ℂ} {δ : ℝ} (hp : Away p δ) (hA : A = (x + y + z + 2 * p) * 0.2) (A0 : A ≠ 0)
    (dx : ‖dev A x‖ < 0.001) (dy : ‖dev A y‖ < 0.001) (dz : ‖dev A z‖ < 0.001) (sum1 : ℂ) {pow4 : ℝ} (h4 : 0 ≤ pow4) :
    ‖rjEnd A x y z sum1 pow4 - (pow4 * (3 / 2 * jInt x y z p) + 6 * sum1)‖ ≤ pow4 * (7.4 / 10 ^ 6 / (‖A‖ * √‖A‖)) := by
  have h1 := j_near hx hy hz hp hA A0 dx dy dz
  have h2 := rj_series dx.le dy.le dz.le
  dsimp only at h2
  unfold rjEnd
  dsimp only
  set S := 1 - 3 / 14 * (dev A x * dev A y + dev A y * dev A z + dev A x * dev A z - 3 * dev A z * dev A z) + _ + _ - _ - _ + _ with hS
  have αn : ‖A * csqrt A‖ = ‖A‖ * √‖A‖ := by rw [norm_mul, csqrt_norm]
  have hn : 0 < ‖A‖ * √‖A‖ := by
    have : 0 < ‖A‖ := norm_pos_iff.2 A0
    have := Real.sqrt_pos.2 this
    positivity
  have e : S / (A * csqrt A) * pow4 + 6 * sum1 - (pow4 * (3 / 2 * jInt x y z p) + 6 * sum1) =
      pow4 * ((S - 1) / (A * csqrt A) - (3 / 2 * jInt x y z p - 1 / (A * csqrt A))) := by ring
  rw [e, norm_mul, Complex.norm_real, Real.norm_eq_abs, abs_of_nonneg h4]
  gcongr
  refine (norm_sub_le _ _).trans ?_
  rw [norm_div, αn]
  calc _ ≤ 2 / 10 ^ 6 / (‖A‖ * √‖A‖) + 5.4 / 10 ^ 6 / (‖A‖ * √‖A‖) := by gcongr
    _ = _ := by rw [← add_div]; norm_num

end GRT.Ell
