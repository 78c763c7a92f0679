import Verif.Lamb.EllLink

/-! C111: the complete elliptic integral of the third kind. -/

namespace GRT.Ell

open Complex Set MeasureTheory Filter GRT.Lamb

theorem pow_cond : 8000 * ((2 : ℝ) ^ 1026) ^ 2 < 4 ^ 9999 * (1 / 2 ^ 2702) ^ 2 := by
  have h1 : (8000 : ℝ) < 2 ^ 13 := by norm_num
  have h2 : (0 : ℝ) < 2 ^ 1026 := by apply pow_pos; norm_num
  have h3 : (0 : ℝ) < 2 ^ 2702 := by apply pow_pos; norm_num
  have h4 : (4 : ℝ) ^ 9999 = 2 ^ 13 * (2 ^ 1026) ^ 2 * (2 ^ 2702) ^ 2 * 2 ^ 12529 := by
    rw [show (4 : ℝ) = 2 ^ 2 by norm_num, ← pow_mul, ← pow_mul, ← pow_mul, ← pow_add, ← pow_add, ← pow_add]
  have h5 : (1 : ℝ) ≤ 2 ^ 12529 := one_le_pow₀ (by norm_num)
  rw [h4]
  generalize (2 : ℝ) ^ 1026 = a at *
  generalize (2 : ℝ) ^ 2702 = b at *
  generalize (2 : ℝ) ^ 12529 = c at *
  have e : 2 ^ 13 * a ^ 2 * b ^ 2 * c * (1 / b) ^ 2 = 2 ^ 13 * a ^ 2 * c := by field_simp
  rw [e]
  calc 8000 * a ^ 2 < 2 ^ 13 * a ^ 2 := by gcongr
    _ = 2 ^ 13 * a ^ 2 * 1 := by ring
    _ ≤ _ := by gcongr

theorem f_nonneg {x y z : ℝ} (h : Args x y z) : 0 ≤ fInt x y z := by
  unfold fInt
  apply setIntegral_nonneg measurableSet_Ioi
  intro t ht
  have := h.den_pos ht
  positivity

theorem rj_abs {N κ d η Δ : ℝ} {j : ℕ} (hj : j ≤ 800) (N1 : 1 ≤ N) (κ0 : 0 < κ) (η0 : 0 < η) (hηd : η * 4 ^ j ≤ d / 4) (hΔN : Δ * 4 ^ j = 2 * N)
    (hΔκ : Δ < 0.0009 * (κ / 4)) (hη : 8000 * (2 * N) ^ 2 < 4 ^ 9999 * η ^ 2)
    {m : ℝ} (m0 : 0 < m) (hm : κ ^ 2 ≤ 1 - m) {n : ℂ} (hn : ‖n‖ ≤ N) {δ : ℝ} (hp : Away (1 - n) δ) (hδ : d ≤ δ) :
    ∃ r, ellRJ 9999 0 ((1 - m : ℝ) : ℂ) 1 (1 - n) 0 1 = some r ∧
      ‖n‖ / 3 * ‖r - 3 / 2 * jInt 0 (1 - m) 1 (1 - n)‖ ≤ ellipticK m * (2 / 10 ^ 8 + 1 / 10 ^ 13 * (‖n‖ / δ)) := by
  have q0 : 0 < κ ^ 2 := by positivity
  have m1 : m < 1 := by linarith
  have args := args_of m1
  have δ0 := hp.pos
  have hpn : ‖1 - n‖ ≤ 2 * N := by
    have := norm_sub_le 1 n
    rw [norm_one] at this
    linarith
  have M1 : 1 ≤ 2 * N := by linarith
  set l := lamT 0 (1 - m) 1 0 with hl
  have l1 : √(1 - m) ≤ l := by rw [hl]; unfold lamT; simp
  have l3 : l ≤ 1 := by
    have e : l = √(1 - m) := by rw [hl]; unfold lamT; simp
    rw [e, Real.sqrt_le_one]; linarith
  have sp : 0 < √(1 - m) := Real.sqrt_pos.2 (by linarith)
  have sl : κ ≤ √(1 - m) := Real.le_sqrt_of_sq_le hm
  have far : η * 4 ^ j ≤ δ / 4 := by linarith
  have hηδ : 8000 * (2 * N) ^ 2 < 4 ^ 9999 * δ ^ 2 := by
    have h3 : η ≤ δ := by
      have h4 : (1 : ℝ) ≤ 4 ^ j := one_le_pow₀ (by norm_num)
      nlinarith
    refine hη.trans_le ?_
    have hT : (0 : ℝ) < 4 ^ 9999 := by apply pow_pos; norm_num
    generalize (4 : ℝ) ^ 9999 = T at *
    gcongr
  set A : ℂ := (((0 : ℝ) : ℂ) + ((1 - m : ℝ) : ℂ) + ((1 : ℝ) : ℂ) + 2 * (1 - n)) * 0.2 with hA
  have A0 : A ≠ 0 := mean_ne args hp
  have eA : 5 * A = 4 - m - 2 * n := by rw [hA]; push_cast; norm_num; ring
  have nA : ‖A‖ ≤ 1 + ‖n‖ := by
    have h1 : ‖5 * A‖ = 5 * ‖A‖ := by rw [norm_mul, Complex.norm_ofNat]
    have h2 := norm_sub_le ((4 : ℂ) - m) (2 * n)
    have h3 := norm_sub_le (4 : ℂ) (m : ℂ)
    rw [norm_mul, Complex.norm_ofNat] at h2
    rw [Complex.norm_ofNat, Complex.norm_real, Real.norm_eq_abs, abs_of_pos m0] at h3
    rw [eA] at h1
    have := norm_nonneg n
    linarith
  have ht : ¬ max (max (max ‖dev A ((0 : ℝ) : ℂ)‖ ‖dev A ((1 - m : ℝ) : ℂ)‖) ‖dev A ((1 : ℝ) : ℂ)‖) ‖dev A ((1 : ℝ) : ℂ)‖ < 0.001 := by
    have : dev A ((0 : ℝ) : ℂ) = 1 := by unfold dev; rw [ofReal_zero, add_zero, div_self A0]; norm_num
    rw [this, norm_one]
    intro hc
    have := (le_max_left (1 : ℝ) ‖dev A ((1 - m : ℝ) : ℂ)‖).trans ((le_max_left _ _).trans ((le_max_left _ _).trans hc.le))
    norm_num at this
  obtain ⟨s, h1, h2⟩ := args.rj_step hp (by linarith) (by linarith) (by linarith) hpn hηδ 9998 0 zero_le_one ht
  set U := max ‖A - ((0 : ℝ) : ℂ)‖ ‖A - ((1 : ℝ) : ℂ)‖ with hU
  have U1 : ‖A‖ ≤ U := by
    have := le_max_left ‖A - ((0 : ℝ) : ℂ)‖ ‖A - ((1 : ℝ) : ℂ)‖
    rw [ofReal_zero, sub_zero] at this
    rw [hU, ofReal_zero, sub_zero]; exact this
  have U2 : 1 / 2 ≤ U := by
    have h3 := le_max_right ‖A - ((0 : ℝ) : ℂ)‖ ‖A - ((1 : ℝ) : ℂ)‖
    rw [← hU, ofReal_one] at h3
    have h4 := norm_sub_le A (A - 1)
    rw [sub_sub_cancel, norm_one] at h4
    linarith
  have U0 : 0 < U := by linarith
  have nU : ‖n‖ ≤ 6.5 * U := by
    have h3 : ‖2 * n‖ = 2 * ‖n‖ := by rw [norm_mul, Complex.norm_ofNat]
    have h5 : 2 * n = (4 - m) - 5 * A := by rw [eA]; ring
    have h6 := norm_sub_le ((4 : ℂ) - m) (5 * A)
    rw [← h5, h3, norm_mul, Complex.norm_ofNat, show ((4 : ℂ) - m) = ((4 - m : ℝ) : ℂ) by push_cast; rfl, Complex.norm_real, Real.norm_eq_abs,
      abs_of_pos (by linarith)] at h6
    norm_num
    linarith
  have key : ∀ w : ℝ, ((((0 + l) / 4 : ℝ) : ℂ) + (((1 - m + l) / 4 : ℝ) : ℂ) + (((1 + l) / 4 : ℝ) : ℂ) + 2 * ((1 - n + l) / 4)) * 0.2 - (((w + l) / 4 : ℝ) : ℂ) =
      (A - w) / 4 := by
    intro w; rw [hA]; push_cast; norm_num; ring
  have kn : ∀ w : ℝ, ‖((((0 + l) / 4 : ℝ) : ℂ) + (((1 - m + l) / 4 : ℝ) : ℂ) + (((1 + l) / 4 : ℝ) : ℂ) + 2 * ((1 - n + l) / 4)) * 0.2 - (((w + l) / 4 : ℝ) : ℂ)‖ =
      ‖A - w‖ / 4 := by
    intro w; rw [key, norm_div, Complex.norm_ofNat]
  have hΔ : ∀ w : ℝ, 0 ≤ w → w ≤ 1 → ‖A - w‖ / 4 ≤ Δ * 4 ^ j := by
    intro w w0 w1
    have h3 := norm_sub_le A w
    rw [Complex.norm_real, Real.norm_eq_abs, abs_of_nonneg w0] at h3
    rw [hΔN]
    linarith
  have st : State (√(1 - m) / 4) (2 * N) η Δ (1 / δ) U (fInt 0 (1 - m) 1) j ((0 + l) / 4) ((1 - m + l) / 4) ((1 + l) / 4)
      ((1 - n + l) / 4) (δ / 4) (1 * 0.25) := by
    refine ⟨by linarith, by linarith, by linarith, by linarith, by linarith, by linarith, ?_, hp.next (sp.le.trans l1), far, ?_, ?_, ?_, by norm_num, ?_, ?_, ?_⟩
    · rw [norm_div, Complex.norm_ofNat]
      have := norm_add_le (1 - n) (l : ℂ)
      rw [Complex.norm_real, Real.norm_eq_abs, abs_of_nonneg (sp.le.trans l1)] at this
      linarith
    · rw [kn]; exact hΔ 0 le_rfl zero_le_one
    · rw [kn]; exact hΔ (1 - m) (by linarith) (by linarith)
    · rw [kn]; exact hΔ 1 zero_le_one le_rfl
    · have : δ / 4 * (1 / δ) = 1 / 4 := by field_simp
      rw [this]; norm_num
    · rw [kn, kn, max_div_div_right (by norm_num), ← hU]
      have : (1 : ℝ) * 0.25 * U = U / 4 := by norm_num; ring
      rw [this]
    · exact args.f_dup
  have hΔμ : Δ < 0.0009 * (√(1 - m) / 4) := hΔκ.trans_le (by gcongr)
  obtain ⟨r, h3, h4⟩ := rj_loop (by positivity) U0 η0 (by positivity) hΔμ hη j 9998 _ _ _ _ _ _ s (by omega) st
  have h5 := h1.trans h3
  rw [ofReal_zero, ofReal_one] at h5
  refine ⟨r, h5, ?_⟩
  have hF := f_nonneg args
  rw [args.j_step hp, ← hl]
  generalize jInt ((0 + l) / 4) ((1 - m + l) / 4) ((1 + l) / 4) ((1 - n + l) / 4) = J at *
  have e : r - 3 / 2 * (1 / 4 * J + 4 * gT 0 (1 - m) 1 (1 - n) 0) =
      (r - (((1 * 0.25 : ℝ) : ℂ) * (3 / 2 * J) + 6 * s)) + 6 * (s - (0 + ((1 : ℝ) : ℂ) * gT 0 (1 - m) 1 (1 - n) 0)) := by
    push_cast; norm_num; ring
  have h6 : ‖r - 3 / 2 * (1 / 4 * J + 4 * gT 0 (1 - m) 1 (1 - n) 0)‖ ≤ 3.8 / 10 ^ 9 * (fInt 0 (1 - m) 1 / U) + 1 / 10 ^ 13 * (fInt 0 (1 - m) 1 / δ) := by
    rw [e]
    refine (norm_add_le _ _).trans ((add_le_add h4 h2).trans ?_)
    have h7 : 0 ≤ fInt 0 (1 - m) 1 / δ := by positivity
    have h8 : (j : ℝ) ≤ 800 := by exact_mod_cast hj
    rw [mul_one_div, mul_one]
    have h9 : j * (1.2 / 10 ^ 16 * (fInt 0 (1 - m) 1 / δ)) ≤ 800 * (1.2 / 10 ^ 16 * (fInt 0 (1 - m) 1 / δ)) := by gcongr
    norm_num at h9 ⊢
    linarith
  rw [K_eq m0 m1] at h6 hF
  have nn := norm_nonneg n
  have K0 : 0 ≤ ellipticK m := by linarith
  calc _ ≤ ‖n‖ / 3 * (3.8 / 10 ^ 9 * (2 * ellipticK m / U) + 1 / 10 ^ 13 * (2 * ellipticK m / δ)) := by gcongr
    _ = ellipticK m * (7.6 / 3 / 10 ^ 9 * (‖n‖ / U) + 2 / 3 / 10 ^ 13 * (‖n‖ / δ)) := by norm_num; ring
    _ ≤ ellipticK m * (7.6 / 3 / 10 ^ 9 * 6.5 + 1 / 10 ^ 13 * (‖n‖ / δ)) := by
      gcongr
      · rw [div_le_iff₀ U0]; exact nU
      · norm_num
    _ ≤ _ := by gcongr; norm_num

theorem rj_main {m : ℝ} (m0 : 0 < m) (hm : 1 / 2 ^ 1000 ≤ 1 - m) {n : ℂ} (hn : ‖n‖ ≤ 2 ^ 1025) {δ : ℝ} (hp : Away (1 - n) δ) (hδ : 1 / 2 ^ 1100 ≤ δ) :
    ∃ r, ellRJ 9999 0 ((1 - m : ℝ) : ℂ) 1 (1 - n) 0 1 = some r ∧
      ‖n‖ / 3 * ‖r - 3 / 2 * jInt 0 (1 - m) 1 (1 - n)‖ ≤ ellipticK m * (2 / 10 ^ 8 + 1 / 10 ^ 13 * (‖n‖ / δ)) := by
  have pos : ∀ k : ℕ, (0 : ℝ) < 2 ^ k := fun k => pow_pos (by norm_num) k
  have four : (4 : ℝ) ^ 800 = 2 ^ 1600 := by rw [show (4 : ℝ) = 2 ^ 2 by norm_num, ← pow_mul]
  refine rj_abs (N := 2 ^ 1025) (κ := 1 / 2 ^ 500) (d := 1 / 2 ^ 1100) (η := 1 / 2 ^ 2702) (Δ := 1 / 2 ^ 574) (j := 800) le_rfl
    (one_le_pow₀ (by norm_num)) (one_div_pos.2 (pos _)) (one_div_pos.2 (pos _)) ?_ ?_ ?_ ?_ m0 ?_ hn hp hδ
  · rw [four, show (2 : ℝ) ^ 2702 = 2 ^ 1100 * 2 ^ 1600 * 4 by rw [show (4 : ℝ) = 2 ^ 2 by norm_num, ← pow_add, ← pow_add]]
    have h1 := pos 1100
    have h2 := pos 1600
    generalize (2 : ℝ) ^ 1100 = a at *
    generalize (2 : ℝ) ^ 1600 = b at *
    apply le_of_eq
    field_simp
  · rw [four, show (2 : ℝ) ^ 1600 = 2 ^ 574 * (2 * 2 ^ 1025) by rw [← pow_succ', ← pow_add]]
    have h1 := pos 574
    generalize (2 : ℝ) ^ 574 = a at *
    generalize (2 : ℝ) ^ 1025 = b at *
    field_simp
  · rw [show (2 : ℝ) ^ 574 = 2 ^ 500 * 2 ^ 74 by rw [← pow_add]]
    have h1 := pos 500
    generalize (2 : ℝ) ^ 500 = a at *
    rw [show (0.0009 : ℝ) * (1 / a / 4) = 0.0009 / 4 / a by ring, div_lt_div_iff₀ (by positivity) h1]
    norm_num
    linarith
  · rw [← pow_succ']
    exact pow_cond
  · rw [div_pow, one_pow, ← pow_mul]
    exact hm

theorem away_of {n : ℂ} {δ : ℝ} (hδ : 0 < δ) (h : ∀ s : ℝ, 1 ≤ s → δ ≤ ‖n - s‖) : Away (1 - n) δ := by
  refine ⟨hδ, fun t ht => ?_⟩
  have := h (1 + t) (by linarith)
  rw [norm_sub_rev] at this
  rw [show (t : ℂ) + (1 - n) = ((1 + t : ℝ) : ℂ) - n by push_cast; ring]
  exact this

/-- C111: for a characteristic away from the cut, what `grt_ellipticPi` adds to its value of the first integral is the difference of
the third and the first integral, up to `2e-8` and a term that grows when the characteristic comes close to the cut, both relative to
the first integral. The bounds on the sizes hold for all double-precision arguments with `m < 1`. -/
theorem C111_pi {m : ℝ} (m0 : 0 < m) (hm : 1 / 2 ^ 1000 ≤ 1 - m) {n : ℂ} (hn : ‖n‖ ≤ 2 ^ 1025) {δ : ℝ} (hδ : 1 / 2 ^ 1100 ≤ δ)
    (hs : ∀ s : ℝ, 1 ≤ s → δ ≤ ‖n - s‖) :
    ∃ v, ellPi n m = some v ∧
      ‖(v - ellK m) - (ellipticPi n m - ellipticK m)‖ ≤ ellipticK m * (2 / 10 ^ 8 + 1 / 10 ^ 13 * (‖n‖ / δ)) := by
  have q0 : (0 : ℝ) < 1 / 2 ^ 1000 := by apply one_div_pos.2; apply pow_pos; norm_num
  have q1 : (0 : ℝ) < 1 / 2 ^ 1100 := by apply one_div_pos.2; apply pow_pos; norm_num
  have δ0 : 0 < δ := q1.trans_le hδ
  have hp := away_of δ0 hs
  obtain ⟨r, h1, h2⟩ := rj_main m0 hm hn hp hδ
  have c1 : ¬ (m ≤ 0 ∨ 1 ≤ m) := by push Not; exact ⟨m0, by linarith⟩
  have c2 : ¬ (n.im = 0 ∧ 1 < n.re) := by
    rintro ⟨h3, h4⟩
    have := hs n.re h4.le
    have e : n - n.re = 0 := by apply Complex.ext <;> simp [h3]
    rw [e, norm_zero] at this
    linarith
  refine ⟨ellK m + n / 3 * r, ?_, ?_⟩
  · unfold ellPi
    dsimp only
    rw [if_neg c1, if_neg c2, h1, Option.map_some]
  · rw [Pi_eq m0 (by linarith) hp]
    have e : ellK m + n / 3 * r - ellK m - n / 2 * jInt 0 (1 - m) 1 (1 - n) = n / 3 * (r - 3 / 2 * jInt 0 (1 - m) 1 (1 - n)) := by ring
    rw [e, norm_mul, norm_div, Complex.norm_ofNat]
    exact h2

/-- C111 on the cut: for a real characteristic above one the function gives `K(m) - Π(m/n, m)`, which is the principal value. -/
theorem C111_cut {m : ℝ} (m0 : 0 < m) (hm : 1 / 2 ^ 1000 ≤ 1 - m) {n : ℝ} (hn : 1 < n) :
    ∃ v, ellPi n m = some v ∧
      ‖v - (ellipticK m - ellipticPi ((m / n : ℝ) : ℂ) m)‖ ≤ ellipticK m * (2 / 10 ^ 8 + 1 / 10 ^ 13 * (m / n / (1 - m))) := by
  have q0 : (0 : ℝ) < 1 / 2 ^ 1000 := by apply one_div_pos.2; apply pow_pos; norm_num
  have h11 : (1 / 2 ^ 1100 : ℝ) ≤ 1 / 2 ^ 1000 := by
    apply one_div_le_one_div_of_le (by apply pow_pos; norm_num)
    exact pow_le_pow_right₀ (by norm_num) (by norm_num)
  have n0 : 0 < n := by linarith
  have hmn : m / n ≤ m := div_le_self m0.le hn.le
  have hmn0 : 0 < m / n := by positivity
  have hs : ∀ s : ℝ, 1 ≤ s → 1 - m ≤ ‖((m / n : ℝ) : ℂ) - s‖ := by
    intro s hs
    rw [← ofReal_sub, Complex.norm_real, Real.norm_eq_abs, abs_of_neg (by linarith)]
    linarith
  have hp := away_of (by linarith) hs
  have hnn : ‖((m / n : ℝ) : ℂ)‖ = m / n := by rw [Complex.norm_real, Real.norm_eq_abs, abs_of_pos hmn0]
  have hb : ‖((m / n : ℝ) : ℂ)‖ ≤ 2 ^ 1025 := by
    rw [hnn]
    exact (show m / n ≤ 1 by linarith).trans (one_le_pow₀ (by norm_num))
  obtain ⟨r, h1, h2⟩ := rj_main m0 hm hb hp (h11.trans hm)
  have c1 : ¬ (m ≤ 0 ∨ 1 ≤ m) := by push Not; exact ⟨m0, by linarith⟩
  refine ⟨ellK m - (ellK m + ((m / n : ℝ) : ℂ) / 3 * r), ?_, ?_⟩
  · unfold ellPi
    dsimp only
    rw [if_neg c1, if_pos ⟨ofReal_im n, by simpa using hn⟩, ← ofReal_div, h1]
    rfl
  · rw [hnn] at h2
    have e : (ellK m : ℂ) - (ellK m + ((m / n : ℝ) : ℂ) / 3 * r) - (ellipticK m - ellipticPi ((m / n : ℝ) : ℂ) m) =
        -(((m / n : ℝ) : ℂ) / 3 * (r - 3 / 2 * jInt 0 (1 - m) 1 (1 - ((m / n : ℝ) : ℂ)))) := by
      have := Pi_eq m0 (by linarith) hp
      linear_combination this
    rw [e, norm_neg, norm_mul, norm_div, Complex.norm_ofNat, hnn]
    exact h2

open Classical in
/-- C111: at the end of the cut the function divides by zero. -/
theorem C111_one {m : ℝ} (m0 : 0 < m) (m1 : m < 1) : ellPi 1 m = none := by
  have c1 : ¬ (m ≤ 0 ∨ 1 ≤ m) := by push Not; exact ⟨m0, m1⟩
  have c2 : ¬ ((1 : ℂ).im = 0 ∧ 1 < (1 : ℂ).re) := by simp
  have A0 : (0 + ((1 - m : ℝ) : ℂ) + 1 + 2 * (1 - 1)) * 0.2 ≠ (0 : ℂ) := by
    have : ((2 - m : ℝ) : ℂ) ≠ 0 := by
      have : 2 - m ≠ 0 := by linarith
      exact_mod_cast this
    intro hc
    apply this
    push_cast at hc ⊢
    norm_num at hc
    linear_combination hc
  unfold ellPi
  dsimp only
  rw [if_neg c1, if_neg c2, ellRJ]
  dsimp only
  rw [if_neg A0, if_neg, if_pos]
  · rfl
  · unfold dmOf
    rw [sub_self, show csqrt 0 = 0 by simpa using csqrt_real (x := 0) le_rfl]
    simp
  · generalize (0 + ((1 - m : ℝ) : ℂ) + 1 + 2 * (1 - 1)) * 0.2 = A at *
    have : dev A 0 = 1 := by unfold dev; rw [add_zero, div_self A0]; norm_num
    rw [this, norm_one]
    intro hc
    have := (le_max_left (1 : ℝ) ‖dev A ((1 - m : ℝ) : ℂ)‖).trans ((le_max_left _ _).trans ((le_max_left _ _).trans hc.le))
    norm_num at this

/-- A case of C111: an imaginary characteristic. -/
example : ∃ v, ellPi I (1 / 2) = some v ∧
    ‖(v - ellK (1 / 2)) - (ellipticPi I (1 / 2) - ellipticK (1 / 2))‖ ≤ ellipticK (1 / 2) * (3 / 10 ^ 8) := by
  obtain ⟨v, h1, h2⟩ := C111_pi (m := 1 / 2) (by norm_num) (by
      have h : (2 : ℝ) ≤ 2 ^ 1000 := by
        calc (2 : ℝ) = 2 ^ 1 := by norm_num
          _ ≤ 2 ^ 1000 := pow_le_pow_right₀ (by norm_num) (by omega)
      refine (one_div_le_one_div_of_le (by norm_num) h).trans (by norm_num)) (n := I) (by rw [norm_I]; exact one_le_pow₀ (by norm_num)) (δ := 1) (by
      have h : (1 : ℝ) ≤ 2 ^ 1100 := one_le_pow₀ (by norm_num)
      exact (one_div_le_one_div_of_le (by norm_num) h).trans (by norm_num)) (by
      intro s hs
      have := Complex.abs_re_le_norm (I - s)
      simp at this
      have := le_abs_self s
      linarith)
  refine ⟨v, h1, h2.trans ?_⟩
  rw [norm_I]
  have hK : 0 ≤ ellipticK (1 / 2) := by
    have := f_nonneg (args_of (m := 1 / 2) (by norm_num))
    rw [K_eq (by norm_num) (by norm_num)] at this
    linarith
  gcongr
  norm_num

end GRT.Ell
