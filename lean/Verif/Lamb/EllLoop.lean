import Verif.Lamb.EllEnd

/-! The loop of `grt_ellipticRJ`. -/

namespace GRT.Ell

open Complex Set MeasureTheory Filter GRT.Lamb

theorem Args.lamOf_eq {x y z : ℝ} (h : Args x y z) : lamOf x y z = (lamT x y z 0 : ℝ) := by
  unfold lamOf lamT
  rw [csqrt_real h.x0, csqrt_real h.y0.le, csqrt_real h.z0.le]
  simp only [zero_add]
  push_cast
  ring

theorem quarter_real (l x : ℝ) : quarter (l : ℂ) (x : ℂ) = (((x + l) / 4 : ℝ) : ℂ) := by
  unfold quarter; push_cast; norm_num; ring

theorem quarter_complex (l : ℝ) (p : ℂ) : quarter (l : ℂ) p = (p + l) / 4 := by
  unfold quarter; norm_num; ring

theorem Args.dm_eq {x y z : ℝ} (h : Args x y z) (p : ℂ) : dmOf x y z p = dT x y z p 0 := by
  unfold dmOf dT
  rw [csqrt_real h.x0, csqrt_real h.y0.le, csqrt_real h.z0.le]
  simp only [zero_add, ofReal_zero]

theorem Args.em_eq {x y z : ℝ} (h : Args x y z) (p : ℂ) : emOf x y z p = pT x y z p / (dT x y z p 0 * dT x y z p 0) := by
  unfold emOf pT
  rw [h.dm_eq]

/-- The argument of the inner function stays away from zero. -/
theorem Args.one_e {x y z M : ℝ} (h : Args x y z) {p : ℂ} {δ : ℝ} (hp : Away p δ) (hx : x ≤ M) (hy : y ≤ M) (hz : z ≤ M) (hM : ‖p‖ ≤ M) :
    (δ / M) ^ 2 / 4 ≤ ‖1 + pT x y z p / (dT x y z p 0 * dT x y z p 0)‖ := by
  have M0 : 0 < M := h.y0.trans_le hy
  have d0 := h.dT_ne hp le_rfl
  have hδ := hp.pos
  have e : 1 + pT x y z p / (dT x y z p 0 * dT x y z p 0) = 2 * csqrt ((0 : ℝ) + p) * (((0 + lamT x y z 0 : ℝ) : ℂ) + p) / dT x y z p 0 := by
    have := h.dT_sum (p := p) (t := 0) le_rfl
    rw [one_add_div (mul_ne_zero d0 d0), this, mul_div_mul_right _ _ d0]
  have f1 := hp.far (0 + lamT x y z 0) (by have := lamT_nonneg x y z 0; linarith)
  have f0 : δ ≤ ‖p‖ := by have := hp.far 0 le_rfl; simpa using this
  have hsM : √‖p‖ ≤ √M := Real.sqrt_le_sqrt hM
  have hsδ : √δ ≤ √‖p‖ := Real.sqrt_le_sqrt f0
  have qn : ‖csqrt ((0 : ℝ) + p)‖ = √‖p‖ := by rw [csqrt_norm]; simp
  have fac : ∀ w : ℝ, w ≤ M → ‖csqrt ((0 : ℝ) + p) + (√(0 + w) : ℝ)‖ ≤ 2 * √M := by
    intro w hw
    have h1 := norm_add_le (csqrt ((0 : ℝ) + p)) ((√(0 + w) : ℝ) : ℂ)
    rw [qn, Complex.norm_real, Real.norm_eq_abs, abs_of_nonneg (Real.sqrt_nonneg _), zero_add] at h1
    have := Real.sqrt_le_sqrt hw
    rw [zero_add]
    linarith
  have dn : ‖dT x y z p 0‖ ≤ 2 * √M * (2 * √M) * (2 * √M) := by
    unfold dT
    rw [norm_mul, norm_mul]
    exact mul_le_mul (mul_le_mul (fac x hx) (fac y hy) (norm_nonneg _) (by positivity)) (fac z hz) (norm_nonneg _) (by positivity)
  have dp : 0 < ‖dT x y z p 0‖ := norm_pos_iff.2 d0
  rw [e, norm_div, norm_mul, norm_mul, Complex.norm_ofNat, qn, le_div_iff₀ dp]
  have sM := Real.mul_self_sqrt M0.le
  have sδ := Real.mul_self_sqrt hδ.le
  have sM0 := Real.sqrt_pos.2 M0
  have sδ0 := Real.sqrt_pos.2 hδ
  have hle : √δ ≤ √M := hsδ.trans hsM
  calc (δ / M) ^ 2 / 4 * ‖dT x y z p 0‖ ≤ (δ / M) ^ 2 / 4 * (2 * √M * (2 * √M) * (2 * √M)) := by gcongr
    _ = 2 * (√δ * (√δ / √M)) * δ := by
      rw [← sM, ← sδ]
      simp only [Real.sqrt_mul_self sM0.le, Real.sqrt_mul_self sδ0.le]
      field_simp
      ring
    _ ≤ 2 * (√δ * 1) * δ := by
      gcongr
      exact div_le_one_of_le₀ hle sM0.le
    _ ≤ 2 * √‖p‖ * ‖((0 + lamT x y z 0 : ℝ) : ℂ) + p‖ := by rw [mul_one]; gcongr

theorem mean_ne {x y z : ℝ} (h : Args x y z) {p : ℂ} {δ : ℝ} (hp : Away p δ) : (x + y + z + 2 * p) * 0.2 ≠ (0 : ℂ) := by
  have hx := h.x0; have hy := h.y0; have hz := h.z0
  have := hp.ne (t := (x + y + z) / 2) (by linarith)
  intro hc
  apply this
  push_cast
  norm_num at hc
  linear_combination hc / 2

open Classical in
/-- One round. -/
theorem Args.rj_step {x y z M : ℝ} (h : Args x y z) {p : ℂ} {δ : ℝ} (hp : Away p δ) (hx : x ≤ M) (hy : y ≤ M) (hz : z ≤ M) (hM : ‖p‖ ≤ M)
    (hη : 8000 * M ^ 2 < 4 ^ 9999 * δ ^ 2) (k : ℕ) (sum1 : ℂ) {pow4 : ℝ} (h4 : 0 ≤ pow4)
    (ht : ¬ max (max (max ‖dev ((x + y + z + 2 * p) * 0.2) x‖ ‖dev ((x + y + z + 2 * p) * 0.2) y‖) ‖dev ((x + y + z + 2 * p) * 0.2) z‖)
      ‖dev ((x + y + z + 2 * p) * 0.2) z‖ < 0.001) :
    ∃ s, ellRJ (k + 1) x y z p sum1 pow4 = ellRJ k (((x + lamT x y z 0) / 4 : ℝ) : ℂ) (((y + lamT x y z 0) / 4 : ℝ) : ℂ)
        (((z + lamT x y z 0) / 4 : ℝ) : ℂ) ((p + lamT x y z 0) / 4) s (pow4 * 0.25) ∧
      ‖6 * (s - (sum1 + pow4 * gT x y z p 0))‖ ≤ 1.2 / 10 ^ 16 * pow4 * (fInt x y z / δ) := by
  have M0 : 0 < M := h.y0.trans_le hy
  have hδ := hp.pos
  have d0 := h.dT_ne hp le_rfl
  have e1 := h.e_small hp le_rfl
  have e2 := h.one_e hp hx hy hz hM
  set e := pT x y z p / (dT x y z p 0 * dT x y z p 0) with he
  have hre : 0 < (1 + e).re := by
    have := Complex.abs_re_le_norm e
    have := neg_abs_le e.re
    simp; linarith
  have hs : 2000 < 4 ^ 9999 * ‖1 + e‖ := by
    have hT : (0 : ℝ) < 4 ^ 9999 := by apply pow_pos; norm_num
    generalize (4 : ℝ) ^ 9999 = T at *
    have h1 : T * ((δ / M) ^ 2 / 4) ≤ T * ‖1 + e‖ := by gcongr
    have h2 : 2000 < T * ((δ / M) ^ 2 / 4) := by
      rw [div_pow, div_div, mul_div_assoc', lt_div_iff₀ (by positivity)]
      linarith
    linarith
  obtain ⟨r, hr, hb⟩ := rf_one hre e1.le hs
  refine ⟨sum1 + r / dT x y z p 0 * pow4, ?_, ?_⟩
  · rw [ellRJ]
    dsimp only
    rw [if_neg (mean_ne h hp), if_neg ht, h.dm_eq, if_neg d0, h.em_eq, ← he, hr, Option.bind_some, h.lamOf_eq, quarter_real, quarter_real, quarter_real,
      quarter_complex]
  · have eg : gT x y z p 0 = tInt e / dT x y z p 0 := by unfold gT; rw [he]
    have e5 : 6 * (sum1 + r / dT x y z p 0 * pow4 - (sum1 + pow4 * gT x y z p 0)) = 6 * pow4 * ((r - tInt e) / dT x y z p 0) := by
      rw [eg]; ring
    have hg := h.g_le hp
    rw [eg, norm_div] at hg
    rw [e5, norm_mul, norm_mul, Complex.norm_ofNat, Complex.norm_real, Real.norm_eq_abs, abs_of_nonneg h4, norm_div]
    have dn : 0 < ‖dT x y z p 0‖ := norm_pos_iff.2 d0
    have : ‖r - tInt e‖ / ‖dT x y z p 0‖ ≤ 4 / 10 ^ 17 * (fInt x y z / (2 * δ)) := by
      calc _ ≤ 4 / 10 ^ 17 * ‖tInt e‖ / ‖dT x y z p 0‖ := by gcongr
        _ = 4 / 10 ^ 17 * (‖tInt e‖ / ‖dT x y z p 0‖) := by ring
        _ ≤ _ := by gcongr
    calc _ ≤ 6 * pow4 * (4 / 10 ^ 17 * (fInt x y z / (2 * δ))) := by gcongr
      _ = _ := by norm_num; ring

theorem rj_stop {x y z p : ℂ} {A : ℂ} (hA : A = (x + y + z + 2 * p) * 0.2) (A0 : A ≠ 0)
    (ht : max (max (max ‖dev A x‖ ‖dev A y‖) ‖dev A z‖) ‖dev A z‖ < 0.001) (k : ℕ) (sum1 : ℂ) (pow4 : ℝ) :
    ellRJ k x y z p sum1 pow4 = some (rjEnd A x y z sum1 pow4) := by
  subst hA
  cases k with
  | zero => rw [ellRJ]; rw [if_neg A0, if_pos ht]
  | succ k => rw [ellRJ]; rw [if_neg A0, if_pos ht]

theorem dev_norm {A x : ℂ} (A0 : A ≠ 0) : ‖A - x‖ = ‖A‖ * ‖dev A x‖ := by
  rw [← norm_mul]; congr 1; linear_combination -(dev_eq (x := x) A0)

/-- The state of the loop after its first round. -/
structure State (μ M η Δ B U F : ℝ) (j : ℕ) (x y z : ℝ) (p : ℂ) (δ pow4 : ℝ) : Prop where
  x0 : μ ≤ x
  y0 : μ ≤ y
  z0 : μ ≤ z
  x1 : x ≤ M
  y1 : y ≤ M
  z1 : z ≤ M
  p1 : ‖p‖ ≤ M
  away : Away p δ
  far : η * 4 ^ j ≤ δ
  dx : ‖(x + y + z + 2 * p) * 0.2 - x‖ ≤ Δ * 4 ^ j
  dy : ‖(x + y + z + 2 * p) * 0.2 - y‖ ≤ Δ * 4 ^ j
  dz : ‖(x + y + z + 2 * p) * 0.2 - z‖ ≤ Δ * 4 ^ j
  pow0 : 0 ≤ pow4
  pow1 : pow4 ≤ δ * B
  pow2 : pow4 * U ≤ max ‖(x + y + z + 2 * p) * 0.2 - x‖ ‖(x + y + z + 2 * p) * 0.2 - z‖
  f : fInt x y z = F

theorem State.end_le {μ M η Δ B U F : ℝ} {j : ℕ} {x y z : ℝ} {p : ℂ} {δ pow4 : ℝ} (s : State μ M η Δ B U F j x y z p δ pow4) (hμ : 0 < μ) (hU : 0 < U)
    {A : ℂ} (hA : A = (x + y + z + 2 * p) * 0.2) (ht : max (max (max ‖dev A x‖ ‖dev A y‖) ‖dev A z‖) ‖dev A z‖ < 0.001) (k : ℕ) (sum1 : ℂ) :
    ∃ r, ellRJ k x y z p sum1 pow4 = some r ∧ ‖r - (pow4 * (3 / 2 * jInt x y z p) + 6 * sum1)‖ ≤ 3.8 / 10 ^ 9 * (F / U) := by
  have hx : 0 < x := hμ.trans_le s.x0
  have hy : 0 < y := hμ.trans_le s.y0
  have hz : 0 < z := hμ.trans_le s.z0
  have args : Args x y z := ⟨hx.le, hy, hz⟩
  have A0 : A ≠ 0 := by rw [hA]; exact mean_ne args s.away
  refine ⟨_, rj_stop hA A0 ht k sum1 pow4, ?_⟩
  obtain ⟨ht1, -⟩ := max_lt_iff.1 ht
  obtain ⟨ht2, tz⟩ := max_lt_iff.1 ht1
  obtain ⟨tx, ty⟩ := max_lt_iff.1 ht2
  have hn : 0 < ‖A‖ := norm_pos_iff.2 A0
  have sn := Real.sqrt_pos.2 hn
  refine (rj_end hx hy hz s.away hA A0 tx ty tz sum1 s.pow0).trans ?_
  have b1 := s.pow2
  rw [← hA, dev_norm A0, dev_norm A0] at b1
  have b2 : pow4 * U ≤ ‖A‖ * 0.001 := b1.trans (max_le (by gcongr) (by gcongr))
  have fg := args.f_ge (mean_re A0 hx tx).2.2 (mean_re A0 hy ty).2.2 (mean_re A0 hz tz).2.2
  rw [s.f] at fg
  have s1 : √(1.001 * ‖A‖) ≤ 1.001 * √‖A‖ := by
    rw [Real.sqrt_le_iff]
    refine ⟨by positivity, ?_⟩
    rw [mul_pow, Real.sq_sqrt hn.le]
    norm_num
    nlinarith
  have s0 : 0 < √(1.001 * ‖A‖) := Real.sqrt_pos.2 (by positivity)
  have f2 : 2 / (1.001 * √‖A‖) ≤ F := le_trans (by gcongr) fg
  have f3 : 1 / √‖A‖ ≤ 0.501 * F := by
    have : 1 / √‖A‖ = 1.001 / 2 * (2 / (1.001 * √‖A‖)) := by field_simp
    rw [this]
    have : 0 ≤ F := le_trans (by positivity) f2
    calc _ ≤ 1.001 / 2 * F := by gcongr
      _ ≤ _ := by norm_num; linarith
  calc pow4 * (7.4 / 10 ^ 6 / (‖A‖ * √‖A‖)) = pow4 * U * (7.4 / 10 ^ 6 / (‖A‖ * √‖A‖)) / U := by field_simp
    _ ≤ ‖A‖ * 0.001 * (7.4 / 10 ^ 6 / (‖A‖ * √‖A‖)) / U := by gcongr
    _ = 7.4 / 10 ^ 9 * (1 / √‖A‖) / U := by field_simp; norm_num
    _ ≤ 7.4 / 10 ^ 9 * (0.501 * F) / U := by gcongr
    _ = 7.4 / 10 ^ 9 * 0.501 * (F / U) := by ring
    _ ≤ _ := by
      have : 0 ≤ F := le_trans (by positivity) f2
      gcongr
      norm_num

theorem State.next {μ M η Δ B U F : ℝ} {j : ℕ} {x y z : ℝ} {p : ℂ} {δ pow4 : ℝ} (s : State μ M η Δ B U F (j + 1) x y z p δ pow4) (hμ : 0 < μ) :
    State μ M η Δ B U F j ((x + lamT x y z 0) / 4) ((y + lamT x y z 0) / 4) ((z + lamT x y z 0) / 4) ((p + lamT x y z 0) / 4) (δ / 4) (pow4 * 0.25) := by
  have hx : 0 < x := hμ.trans_le s.x0
  have hy : 0 < y := hμ.trans_le s.y0
  have hz : 0 < z := hμ.trans_le s.z0
  have args : Args x y z := ⟨hx.le, hy, hz⟩
  have M0 : 0 ≤ M := hx.le.trans s.x1
  have l1 : 3 * μ ≤ lamT x y z 0 := by
    have a := Real.sqrt_le_sqrt s.x0
    have b := Real.sqrt_le_sqrt s.y0
    have c := Real.sqrt_le_sqrt s.z0
    have q := Real.mul_self_sqrt hμ.le
    have q0 := Real.sqrt_nonneg μ
    unfold lamT
    simp only [zero_add]
    nlinarith [mul_le_mul a b q0 (q0.trans a), mul_le_mul a c q0 (q0.trans a), mul_le_mul b c q0 (q0.trans b)]
  have l2 : lamT x y z 0 ≤ 3 * M := by
    have a := Real.sqrt_le_sqrt s.x1
    have b := Real.sqrt_le_sqrt s.y1
    have c := Real.sqrt_le_sqrt s.z1
    have q := Real.mul_self_sqrt M0
    have q0 := Real.sqrt_nonneg M
    unfold lamT
    simp only [zero_add]
    nlinarith [mul_le_mul a b (Real.sqrt_nonneg y) q0, mul_le_mul a c (Real.sqrt_nonneg z) q0, mul_le_mul b c (Real.sqrt_nonneg z) q0]
  have l0 := lamT_nonneg x y z 0
  set l := lamT x y z 0 with hl
  have key : ∀ w : ℝ, ((((x + l) / 4 : ℝ) : ℂ) + (((y + l) / 4 : ℝ) : ℂ) + (((z + l) / 4 : ℝ) : ℂ) + 2 * ((p + l) / 4)) * 0.2 - (((w + l) / 4 : ℝ) : ℂ) =
      ((x + y + z + 2 * p) * 0.2 - w) / 4 := by
    intro w; push_cast; norm_num; ring
  have kn : ∀ w : ℝ, ‖((((x + l) / 4 : ℝ) : ℂ) + (((y + l) / 4 : ℝ) : ℂ) + (((z + l) / 4 : ℝ) : ℂ) + 2 * ((p + l) / 4)) * 0.2 - (((w + l) / 4 : ℝ) : ℂ)‖ =
      ‖(x + y + z + 2 * p) * 0.2 - w‖ / 4 := by
    intro w; rw [key, norm_div, Complex.norm_ofNat]
  have p4 : (4 : ℝ) ^ (j + 1) = 4 * 4 ^ j := by rw [pow_succ]; ring
  have f1 := s.far
  have f2 := s.dx
  have f3 := s.dy
  have f4 := s.dz
  have f5 := s.pow2
  have f6 := s.pow1
  rw [p4] at f1 f2 f3 f4
  have hx0 := s.x0; have hy0 := s.y0; have hz0 := s.z0
  have hx1 := s.x1; have hy1 := s.y1; have hz1 := s.z1
  refine ⟨by linarith, by linarith, by linarith, by linarith, by linarith, by linarith, ?_, s.away.next l0, by linarith, ?_, ?_, ?_, ?_, ?_, ?_, ?_⟩
  · rw [norm_div, Complex.norm_ofNat]
    have := norm_add_le p (l : ℂ)
    rw [Complex.norm_real, Real.norm_eq_abs, abs_of_nonneg l0] at this
    have := s.p1
    linarith
  · rw [kn]; linarith
  · rw [kn]; linarith
  · rw [kn]; linarith
  · have := s.pow0; positivity
  · norm_num; linarith
  · rw [kn, kn]
    rw [show max (‖(x + y + z + 2 * p) * 0.2 - x‖ / 4) (‖(x + y + z + 2 * p) * 0.2 - z‖ / 4) =
      max ‖(x + y + z + 2 * p) * 0.2 - x‖ ‖(x + y + z + 2 * p) * 0.2 - z‖ / 4 from (max_div_div_right (by norm_num) _ _)]
    rw [show pow4 * 0.25 * U = pow4 * U / 4 by norm_num; ring]
    linarith
  · rw [hl, args.f_dup]; exact s.f

open Classical in
theorem rj_loop {μ M η Δ B U F : ℝ} (hμ : 0 < μ) (hU : 0 < U) (hη0 : 0 < η) (hB : 0 ≤ B) (hΔ : Δ < 0.0009 * μ) (hη : 8000 * M ^ 2 < 4 ^ 9999 * η ^ 2) (j : ℕ) :
    ∀ (k : ℕ) (x y z : ℝ) (p : ℂ) (δ pow4 : ℝ) (sum1 : ℂ), j ≤ k → State μ M η Δ B U F j x y z p δ pow4 →
      ∃ r, ellRJ k x y z p sum1 pow4 = some r ∧
        ‖r - (pow4 * (3 / 2 * jInt x y z p) + 6 * sum1)‖ ≤ 3.8 / 10 ^ 9 * (F / U) + j * (1.2 / 10 ^ 16 * (F * B)) := by
  induction j with
  | zero =>
    intro k x y z p δ pow4 sum1 _ s
    have hz : 0 < z := hμ.trans_le s.z0
    have args : Args x y z := ⟨hμ.le.trans s.x0, hμ.trans_le s.y0, hz⟩
    have A0 := mean_ne args s.away
    have f2 := s.dx
    have f3 := s.dy
    have f4 := s.dz
    set A := (x + y + z + 2 * p) * 0.2 with hA
    rw [pow_zero, mul_one] at f2 f3 f4
    have hn : 0.9991 * μ ≤ ‖A‖ := by
      have := norm_sub_norm_le (z : ℂ) (z - A)
      rw [sub_sub_cancel, norm_sub_rev, Complex.norm_real, Real.norm_eq_abs, abs_of_pos hz] at this
      have := s.z0
      norm_num at *
      linarith
    have hp : 0 < ‖A‖ := norm_pos_iff.2 A0
    have aux : ∀ w : ℝ, ‖A - w‖ ≤ Δ → ‖dev A w‖ < 0.001 := by
      intro w hw
      rw [dev_norm A0] at hw
      by_contra hc
      push Not at hc
      have : ‖A‖ * 0.001 ≤ ‖A‖ * ‖dev A w‖ := by gcongr
      norm_num at *
      linarith
    have ht : max (max (max ‖dev A x‖ ‖dev A y‖) ‖dev A z‖) ‖dev A z‖ < 0.001 :=
      max_lt (max_lt (max_lt (aux x f2) (aux y f3)) (aux z f4)) (aux z f4)
    obtain ⟨r, h1, h2⟩ := s.end_le hμ hU hA ht k sum1
    exact ⟨r, h1, by simpa using h2⟩
  | succ j ih =>
    intro k x y z p δ pow4 sum1 hk s
    obtain ⟨k, rfl⟩ : ∃ k', k = k' + 1 := ⟨k - 1, by omega⟩
    have hz : 0 < z := hμ.trans_le s.z0
    have args : Args x y z := ⟨hμ.le.trans s.x0, hμ.trans_le s.y0, hz⟩
    have hδ := s.away.pos
    have F0 : 0 ≤ F := by
      rw [← s.f]
      unfold fInt
      apply setIntegral_nonneg measurableSet_Ioi
      intro t ht
      have := args.den_pos ht
      positivity
    have t0 : 0 ≤ 1.2 / 10 ^ 16 * (F * B) := by positivity
    by_cases ht : max (max (max ‖dev ((x + y + z + 2 * p) * 0.2) x‖ ‖dev ((x + y + z + 2 * p) * 0.2) y‖) ‖dev ((x + y + z + 2 * p) * 0.2) z‖)
      ‖dev ((x + y + z + 2 * p) * 0.2) z‖ < 0.001
    · obtain ⟨r, h1, h2⟩ := s.end_le hμ hU rfl ht (k + 1) sum1
      refine ⟨r, h1, h2.trans ?_⟩
      have : 0 ≤ ((j + 1 : ℕ) : ℝ) * (1.2 / 10 ^ 16 * (F * B)) := by positivity
      linarith
    · have hη' : 8000 * M ^ 2 < 4 ^ 9999 * δ ^ 2 := by
        have hT : (0 : ℝ) < 4 ^ 9999 := by apply pow_pos; norm_num
        generalize (4 : ℝ) ^ 9999 = T at *
        have h1 : η ≤ δ := by
          have := s.far
          have : (1 : ℝ) ≤ 4 ^ (j + 1) := one_le_pow₀ (by norm_num)
          nlinarith
        refine hη.trans_le ?_
        gcongr
      obtain ⟨s', h1, h2⟩ := args.rj_step s.away s.x1 s.y1 s.z1 s.p1 hη' k sum1 s.pow0 ht
      obtain ⟨r, h3, h4⟩ := ih k _ _ _ _ _ _ s' (by omega) (s.next hμ)
      refine ⟨r, h1.trans h3, ?_⟩
      rw [args.j_step s.away]
      have h5 : 1.2 / 10 ^ 16 * pow4 * (fInt x y z / δ) ≤ 1.2 / 10 ^ 16 * (F * B) := by
        rw [s.f, show 1.2 / 10 ^ 16 * pow4 * (F / δ) = 1.2 / 10 ^ 16 * (F * (pow4 / δ)) by ring]
        gcongr
        rw [div_le_iff₀ hδ, mul_comm]
        exact s.pow1
      generalize jInt ((x + lamT x y z 0) / 4) ((y + lamT x y z 0) / 4) ((z + lamT x y z 0) / 4) ((p + lamT x y z 0) / 4) = J at *
      have e : r - (pow4 * (3 / 2 * (1 / 4 * J + 4 * gT x y z p 0)) + 6 * sum1) =
          (r - (((pow4 * 0.25 : ℝ) : ℂ) * (3 / 2 * J) + 6 * s')) + 6 * (s' - (sum1 + pow4 * gT x y z p 0)) := by
        push_cast; norm_num; ring
      rw [e]
      refine (norm_add_le _ _).trans ?_
      push_cast at h4 ⊢
      linarith

end GRT.Ell
