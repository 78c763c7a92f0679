import Verif.KernelProg.Props
import Verif.Kernel.Blank

/-! The records of `grt kernel` and the band of frequencies of the run (C114). -/

namespace GRT.KernelProg

open GRT.Model1D GRT.Kernel GRT.Layer GRT.RT Complex

open Classical in
set_option maxHeartbeats 1000000 in
/-- The kernel in a full space, receiver and source between the only three layers: the SH part of the dip-slip row. -/
theorem kernel_full {I : DynIn ℂ} (h1 : I.nlay = 3) (h2 : I.isrc = 2) (h3 : I.ircv = 1) (h4 : I.ircvup = true) (h5 : I.atZero = false)
    (h6 : I.top = .half) (hx : (I.lay 2).xa ≠ 0 ∧ (I.lay 2).xb ≠ 0) (hl : (I.lay 1).liquid = false) (s : Store ℂ) (st : Bool) :
    ∃ r, kernel (dynEnv I) s st = .ok r ∧ r.done = true ∧ (r.g.u .DS).v = I.k * I.exb 1 * ((I.lay 2).cbcb * I.k) := by
  have hsrc : ∀ t, ∃ S, srcRow I.k (I.lay 2) t = .ok S := by
    intro t; unfold srcRow; rw [if_neg (by push Not; exact hx)]; exact ⟨_, rfl⟩
  simp [kernel, grtMatrix, loop, body, layerM, accum, Res.bind, Env.maxidx, Env.imax, Env.imin, dynEnv, h1, h2, h3, h4, h5, h6, check, bounds,
    callTop, recRU, recRU_PSV, recRU_SH, Store.set, resetM, putP, putS, getP, getS, delayPSV, delaySH, RT.mul, oneSub, RT.inv, RT.add,
    buildQWV, srcAll, srcRow, hx.1, hx.2, zeroDS, constructQWV, revSH, hl]

/-! ### A full space with attenuation of S waves -/

/-- Velocities 6 and 3.5 km/s, density 2.7 g/cm³, `Qs = q`, no attenuation of P waves. -/
noncomputable def rock (q : ℝ) : Med ℝ := ⟨6, 3.5, 2.7, 0, q⟩

/-- The layers after insertion of source and receiver, both at 5 km. -/
noncomputable def space (q : ℝ) : Mod1d ℝ := ⟨[⟨5, rock q⟩, ⟨0, rock q⟩, ⟨10 ^ 30, rock q⟩], 2, 1, true, 5, 5, true⟩

/-- `grt kernel -D5/5 -Bh -F1/<f2>/1 -C3/4/1`. -/
noncomputable def runTo (q f2 : ℝ) : Args := ⟨[⟨0, rock q⟩], 5, 5, .half, .half, 1, f2, 1, none, .three 3 4 1, false⟩

theorem space_read (q : ℝ) : readMod1d [⟨0, rock q⟩] 5 5 = .ok (space q) := by
  norm_num [readMod1d, run, step, insertOne, setLast, onLiquid, space, rock]

theorem start_run (q : ℝ) {n : ℕ} (hn : 2 ≤ n) (hn' : n < 2 ^ 64) :
    start (4/5) (runTo q n) = .ok ⟨space q, .half, .half, false, ⟨samples 1 1 n, 4/5⟩, samples 3 1 2⟩ := by
  have hn2 : (2 : ℝ) ≤ n := by exact_mod_cast hn
  have hF : parseF 1 n 1 none (4/5) = .ok ⟨samples 1 1 n, 4/5⟩ := by
    unfold parseF
    have e : max (max (1 : ℝ) 1) n = n := by rw [max_self, max_eq_right]; linarith
    have hz : (0 : ℤ) ≤ n ∧ (n : ℤ) < 2 ^ 64 := ⟨by positivity, by exact_mod_cast hn'⟩
    rw [if_neg (by norm_num), if_neg (by push Not; constructor <;> linarith), if_neg (by push Not; linarith)]
    simp only [e, Option.any_none, Bool.false_eq_true, if_false]
    rw [max_self (1 : ℝ)]
    have hfl : ⌊((n : ℝ) - 1) / 1⌋ + 1 = n := by
      rw [div_one, Int.floor_sub_one, Int.floor_natCast]; ring
    have hc : count 1 n 1 = .ok n := by
      unfold count toSize
      rw [if_neg one_ne_zero, hfl, if_pos hz, Int.toNat_natCast]
    rw [hc]
    simp only [Option.getD_none]
    rw [if_neg (by omega)]
  have hC : parseC (.three 3 4 1) = .ok (.list (samples 3 1 2)) := by
    have hc : count 3 4 1 = .ok 2 := by
      unfold count toSize
      have : ⌊((4 : ℝ) - 3) / 1⌋ = 1 := by norm_num
      rw [if_neg one_ne_zero, this]
      rfl
    unfold parseC
    dsimp only
    rw [if_neg (by norm_num), if_neg (by norm_num), hc]
  unfold start runTo
  simp only
  rw [if_neg (by norm_num), hF, hC]
  simp only [space_read]
  rw [if_neg (by simp [boundaryAccepted])]
  rfl

/-- The reference frequency of the run is its last frequency. -/
theorem ref_run (q : ℝ) {n : ℕ} (hn : 2 ≤ n) (e : Bool) :
    (⟨space q, .half, .half, e, ⟨samples 1 1 n, 4/5⟩, samples 3 1 2⟩ : Job).omgref = 2 * Real.pi * n := by
  unfold Job.omgref
  have : (samples (1:ℝ) 1 n).length = n := by simp [samples]
  simp only [this]
  rw [getD_samples _ _ _ _ (by omega)]
  have : ((n - 1 : ℕ) : ℝ) = n - 1 := by rw [Nat.cast_sub (by omega)]; simp
  rw [this]; ring

/-- The first complex frequency of the run. -/
noncomputable def w1 : ℂ := 2 * Real.pi - I * (4 / 5 * Real.pi)

theorem omega_run (q : ℝ) {n : ℕ} (hn : 2 ≤ n) (e : Bool) :
    (⟨space q, .half, .half, e, ⟨samples 1 1 n, 4/5⟩, samples 3 1 2⟩ : Job).omega 1 = w1 := by
  unfold Job.omega Job.wI w1
  simp only
  rw [getD_samples _ _ _ _ (by omega), getD_samples _ _ _ _ (by omega)]
  push_cast
  ring

theorem w1_eq : w1 = ((2 * Real.pi : ℝ) : ℂ) - I * ((4 / 5 * Real.pi : ℝ) : ℂ) := by unfold w1; push_cast; ring
theorem w1_re : w1.re = 2 * Real.pi := by rw [w1_eq]; simp only [sub_re, ofReal_re, mul_re, I_re, I_im, ofReal_im]; ring
theorem w1_im : w1.im = -(4 / 5 * Real.pi) := by rw [w1_eq]; simp only [sub_im, ofReal_re, mul_im, I_re, I_im, ofReal_im]; ring

/-- The attenuation factor of S waves at the first frequency, for the run to `n` hertz. -/
noncomputable def att (q : ℝ) (n : ℕ) : ℂ := atn false q (2 * Real.pi * n : ℝ) w1

theorem att_eq (n : ℕ) : att 100 n = attenuationLaw (1/100) (2 * Real.pi * n : ℝ) w1 := by
  unfold att atn qinv; norm_num

theorem att_diff {n m : ℕ} (hn : 0 < n) (hm : 0 < m) : att 100 n - att 100 m = ((1/100 / Real.pi * (Real.log m - Real.log n) : ℝ) : ℂ) := by
  have hp := Real.pi_pos
  have hw : w1 ≠ 0 := by intro h; have := w1_re; rw [h] at this; simp at this
  have e : ∀ k : ℕ, 0 < k → Complex.log (w1 / ((2 * Real.pi * k : ℝ) : ℂ)) = -((Real.log (2 * Real.pi * k) : ℝ) : ℂ) + Complex.log w1 := by
    intro k hk
    have hk' : (0 : ℝ) < k := by exact_mod_cast hk
    have : w1 / ((2 * Real.pi * k : ℝ) : ℂ) = (((2 * Real.pi * k)⁻¹ : ℝ) : ℂ) * w1 := by push_cast; rw [div_eq_inv_mul]
    rw [this, Complex.log_ofReal_mul (by positivity) hw, Real.log_inv]
    push_cast; ring
  have hl : ∀ k : ℕ, 0 < k → Real.log (2 * Real.pi * k) = Real.log (2 * Real.pi) + Real.log k := by
    intro k hk
    rw [Real.log_mul (by positivity) (by exact_mod_cast hk.ne')]
  rw [att_eq, att_eq]
  unfold attenuationLaw
  rw [e n hn, e m hm, hl n hn, hl m hm]
  push_cast
  ring

theorem att_im {n : ℕ} (hn : 0 < n) : 0 < (att 100 n).im := by
  rw [att_eq]
  have hp := Real.pi_pos
  have hn' : (0 : ℝ) < n := by exact_mod_cast hn
  exact law_im (by norm_num) (by positivity) (by rw [w1_re]; positivity)

/-- Runs to different frequencies have S waves of different speed at the same frequency. -/
theorem att_sq_ne {n m : ℕ} (hn : 0 < n) (hm : 0 < m) (hne : n ≠ m) : att 100 n ^ 2 ≠ att 100 m ^ 2 := by
  intro h
  rcases sq_eq_sq_iff_eq_or_eq_neg.1 h with h | h
  · have d := att_diff hn hm
    rw [h, sub_self] at d
    have d' : (1/100 / Real.pi * (Real.log m - Real.log n) : ℝ) = 0 := by exact_mod_cast d.symm
    have hp := Real.pi_pos
    have hl : Real.log m = Real.log n := by
      rcases mul_eq_zero.1 d' with q | q
      · exact absurd q (by positivity)
      · linarith
    have hm' : (0 : ℝ) < m := by exact_mod_cast hm
    have hn' : (0 : ℝ) < n := by exact_mod_cast hn
    have := Real.log_injOn_pos hm' hn' hl
    exact hne (by exact_mod_cast this.symm)
  · have a := att_im hn
    have b := att_im hm
    rw [h, neg_im] at a
    linarith

/-- The real part of the factor is positive in runs to at most `e^100` hertz; a million is enough here. -/
theorem att_re {n : ℕ} (hn : 0 < n) (hn' : n ≤ 100) : 0 < (att 100 n).re := by
  have hp := Real.pi_pos
  have hp3 := Real.two_le_pi
  have h1 : (1 : ℝ) ≤ n := by exact_mod_cast hn
  have h2 : (n : ℝ) ≤ 100 := by exact_mod_cast hn'
  have hre : (att 100 n).re = 1 + 1/100 / Real.pi * Real.log ‖w1 / ((2 * Real.pi * n : ℝ) : ℂ)‖ := by
    rw [att_eq]
    unfold attenuationLaw
    have a : ((1/100 : ℝ) : ℂ) / (Real.pi : ℂ) = ((1/100 / Real.pi : ℝ) : ℂ) := by push_cast; rfl
    rw [a]
    have b : (0.5 : ℂ) * ((1/100 : ℝ) : ℂ) = ((0.5 * (1/100) : ℝ) : ℂ) := by push_cast; norm_num
    rw [b]
    simp only [add_re, one_re, re_ofReal_mul, log_re, I_re, mul_zero, add_zero]
  have hnorm : 1 / n ≤ ‖w1 / ((2 * Real.pi * n : ℝ) : ℂ)‖ := by
    rw [norm_div, Complex.norm_real, Real.norm_of_nonneg (by positivity), div_le_div_iff₀ (by positivity) (by positivity)]
    have : |w1.re| ≤ ‖w1‖ := Complex.abs_re_le_norm w1
    rw [w1_re, abs_of_pos (by positivity)] at this
    nlinarith
  have hlog : -(99 : ℝ) ≤ Real.log ‖w1 / ((2 * Real.pi * n : ℝ) : ℂ)‖ := by
    have hpos : 0 < 1 / (n : ℝ) := by positivity
    refine le_trans ?_ (Real.log_le_log hpos hnorm)
    have := Real.one_sub_inv_le_log_of_pos hpos
    rw [one_div, inv_inv] at this
    rw [one_div]
    linarith
  rw [hre]
  have : 1/100 / Real.pi * (-99) ≤ 1/100 / Real.pi * Real.log ‖w1 / ((2 * Real.pi * n : ℝ) : ℂ)‖ := mul_le_mul_of_nonneg_left hlog (by positivity)
  have h3 : 1/100 / Real.pi * (-99) > -1 := by
    rw [gt_iff_lt, div_mul_eq_mul_div, lt_div_iff₀ hp]; linarith
  linarith


/-- The medium is the same in all three layers. -/
theorem space_at (q : ℝ) {i : ℕ} (hi : i < 3) : ((space q).at i).m = rock q := by
  interval_cases i <;> rfl

/-- Wave parameters of the full space in the run to `n` hertz, at the first frequency and phase velocity. -/
theorem space_lay (q : ℝ) (n : ℕ) (c : ℂ) {i : ℕ} (hi : i < 3) :
    stateLay (space q) (2 * Real.pi * n : ℝ) w1 c i = stateLayOf ⟨0, rock q⟩ (2 * Real.pi * n : ℝ) w1 c := by
  rw [stateLay_eq (by norm_num) (by norm_num) (space_read q)]
  unfold stateLayOf
  rw [space_at q hi]

theorem sqrt_ne {z : ℂ} (h : z ≠ 1) (h' : z ≠ -1) : csqrt (1 - z * z) ≠ 0 := by
  intro h0
  have := csqrt_mul (1 - z * z)
  rw [h0] at this
  have e : (1 - z) * (1 + z) = 0 := by linear_combination -this
  rcases mul_eq_zero.1 e with q | q
  · exact h (by linear_combination -q)
  · exact h' (by linear_combination q)

/-- A downgoing ratio: `x·w1` with `x > 0` is no multiple of a factor in the closed upper quarter plane. -/
theorem ratio_ne {x v : ℝ} (hx : 0 < x) (hv : 0 < v) {a : ℂ} (h1 : 0 < a.re) (h2 : 0 ≤ a.im) :
    (x : ℂ) * w1 / (v * a) ≠ 1 ∧ (x : ℂ) * w1 / (v * a) ≠ -1 := by
  have hp := Real.pi_pos
  have ha : (v : ℂ) * a ≠ 0 := by
    refine mul_ne_zero (by exact_mod_cast hv.ne') ?_
    intro h; rw [h] at h1; simp at h1
  constructor <;> intro h <;> rw [div_eq_iff ha] at h
  · have := congrArg Complex.im h
    rw [one_mul, im_ofReal_mul, im_ofReal_mul, w1_im] at this
    have a1 : 0 ≤ v * a.im := by positivity
    have a2 : 0 < x * (4 / 5 * Real.pi) := by positivity
    linarith
  · have := congrArg Complex.re h
    rw [neg_one_mul, neg_re, re_ofReal_mul, re_ofReal_mul, w1_re] at this
    have a1 : 0 < v * a.re := by positivity
    have a2 : 0 < x * (2 * Real.pi) := by positivity
    linarith

/-- The wavenumber of the first record. -/
noncomputable def k1 : ℝ := 2 * Real.pi * 1 / 3

open Classical in
/-- The first record of the first file of the run to `n` hertz. -/
theorem kernel_run {q : ℝ} {n : ℕ} (hn : 0 < (att q n).re) (hn' : 0 ≤ (att q n).im) (s : Store ℂ) (k : ℝ) (hk : 0 < k) :
    ∃ r, kernel (dynEnv (kernelIn (space q) .half .half (2 * Real.pi * n : ℝ) w1 k)) s true = .ok r ∧ r.done = true ∧
      (r.g.u .DS).v = w1 ^ 2 / (3.5 * att q n) ^ 2 := by
  have hp := Real.pi_pos
  have hkc : (k : ℂ) ≠ 0 := by exact_mod_cast hk.ne'
  have hlay := fun i (hi : i < 3) => space_lay q n (w1 / k) hi
  have hdiv : w1 / (k : ℂ) = ((k⁻¹ : ℝ) : ℂ) * w1 := by push_cast; rw [div_eq_inv_mul]
  have hvb : ((rock q).vb : ℝ) = 3.5 := rfl
  have hb := ratio_ne (inv_pos.2 hk) (show (0:ℝ) < 3.5 by norm_num) hn hn'
  have ha := ratio_ne (inv_pos.2 hk) (show (0:ℝ) < 6 by norm_num) (a := 1) (by simp) (by simp)
  have hvb0 : ¬ (3.5 : ℝ) = 0 := by norm_num
  have eb : (stateLayOf ⟨0, rock q⟩ (2 * Real.pi * n : ℝ) w1 (w1 / k)).cbcb = (((k⁻¹ : ℝ) : ℂ) * w1 / ((3.5 : ℝ) * att q n)) * (((k⁻¹ : ℝ) : ℂ) * w1 / ((3.5 : ℝ) * att q n)) := by
    simp only [stateLayOf, rock, hvb0, decide_false, Bool.false_eq_true, if_false, hdiv]
    rfl
  have exb : (stateLayOf ⟨0, rock q⟩ (2 * Real.pi * n : ℝ) w1 (w1 / k)).xb ≠ 0 := by
    have := sqrt_ne hb.1 hb.2
    unfold att at this
    simpa only [stateLayOf, rock, hvb0, decide_false, Bool.false_eq_true, if_false, hdiv] using this
  have exa : (stateLayOf ⟨0, rock q⟩ (2 * Real.pi * n : ℝ) w1 (w1 / k)).xa ≠ 0 := by
    have := sqrt_ne ha.1 ha.2
    have e1 : atn false 0 (2 * Real.pi * n : ℝ) w1 = 1 := by simp [atn, qinv]
    simpa only [stateLayOf, rock, e1, hdiv] using this
  obtain ⟨r, h1, h2, h3⟩ := kernel_full (I := kernelIn (space q) .half .half (2 * Real.pi * n : ℝ) w1 k) rfl rfl rfl rfl
    (by simp [kernelIn, space]) rfl
    (by
      show (stateLay (space q) _ w1 (w1 / k) 2).xa ≠ 0 ∧ (stateLay (space q) _ w1 (w1 / k) 2).xb ≠ 0
      rw [hlay 2 (by norm_num)]; exact ⟨exa, exb⟩)
    (by
      show (stateLay (space q) _ w1 (w1 / k) 1).liquid = false
      rw [hlay 1 (by norm_num)]; simp only [stateLayOf, rock, hvb0, decide_false]) s true
  refine ⟨r, h1, h2, ?_⟩
  rw [h3]
  show (k : ℂ) * exp (-(k : ℂ) * (((space q).at 1).h : ℝ) * _) * ((stateLay (space q) _ w1 (w1 / k) 2).cbcb * k) = _
  rw [hlay 2 (by norm_num), eb]
  have : (((space q).at 1).h : ℂ) = 0 := by simp [space, Mod1d.at]
  rw [this]
  have hatt : att q n ≠ 0 := by intro h; have := hn; rw [h] at this; simp at this
  simp only [mul_zero, zero_mul, exp_zero, mul_one]
  push_cast
  field_simp

/-- The dip-slip SH value in the first record of the first file. -/
noncomputable def dsValue (q : ℝ) (n : ℕ) : ℂ := w1 ^ 2 / (3.5 * att q n) ^ 2 * (-((1 / (4 * Real.pi * 2.7) : ℝ) : ℂ) / (w1 * w1))

/-- The run to `n` hertz writes two records in the file of 1 hertz; the first belongs to 3 km/s, no inversion failed, and its SH value for
the dip-slip source depends on `n` as shown. -/
theorem file_run {q : ℝ} {n : ℕ} (hn : 2 ≤ n) (hn1 : n < 2 ^ 64) (ha : 0 < (att q n).re) (hn' : 0 ≤ (att q n).im) : ∃ J r1 r2, start (4/5) (runTo q n) = .ok J ∧ J.f.freqs.length = n ∧ J.f.freqs.getD 0 0 = 1 ∧
    J.file 0 = .ok [r1, r2] ∧ r1.c = 3 ∧ r1.done = true ∧ r2.done = true ∧ (r1.rows .DS).v = dsValue q n := by
  have hp := Real.pi_pos
  have h0 := start_run q hn hn1
  obtain ⟨q1, h1, h2, h3⟩ := kernel_run ha hn' freshStore (2 * Real.pi * 1 / 3) (by positivity)
  obtain ⟨q2, g1, g2, g3⟩ := kernel_run ha hn' q1.store (2 * Real.pi * 1 / 4) (by positivity)
  have hfr : (samples (1:ℝ) 1 n).getD 0 0 = 1 := by rw [getD_samples _ _ _ _ (by omega)]; simp
  have hcs : samples (3:ℝ) 1 2 = [3, 4] := by norm_num [samples, List.range_succ]
  have er := ref_run q hn false
  have eo := omega_run q hn false
  rw [hcs] at er eo h0
  have hfile : (⟨space q, .half, .half, false, ⟨samples 1 1 n, 4/5⟩, [3, 4]⟩ : Job).file 0 =
      .ok [⟨3, fun t => scale (-(((⟨space q, .half, .half, false, ⟨samples 1 1 n, 4/5⟩, [3, 4]⟩ : Job).fac : ℝ) : ℂ) / (w1 * w1)) (q1.g.u t), true⟩,
        ⟨4, fun t => scale (-(((⟨space q, .half, .half, false, ⟨samples 1 1 n, 4/5⟩, [3, 4]⟩ : Job).fac : ℝ) : ℂ) / (w1 * w1)) (q2.g.u t), true⟩] := by
    unfold Job.file
    simp only [hfr]
    simp only [phaseLoop]
    rw [er, eo, h1]
    simp only
    rw [g1]
    simp only [h2, g2]
    rfl
  refine ⟨_, _, _, h0, by simp [samples], hfr, hfile, rfl, rfl, rfl, ?_⟩
  show (q1.g.u .DS).v * _ = _
  rw [h3]
  rfl

/-! ### The band -/

/-- The value of one record of a run: the row of source `t` in record `ic` of the file of frequency number `iw`. -/
noncomputable def valueOf (zeta0 : ℝ) (A : Args) (iw ic : ℕ) (t : Src) : Option (ℝ × Row ℂ) :=
  match start zeta0 A with
  | .ok J => match J.file iw with
    | .ok recs => (recs[ic]?).map fun r => (r.c, r.rows t)
    | _ => none
  | _ => none

/-- C114 fails as soon as a layer has a quality factor: the reference frequency of the attenuation law is the last frequency of the run, so
in a full space with `Qs = 100` two runs that differ only in the upper end of the band (any two ends from 2 to 100 hertz) give different values for
the same frequency (1 hertz), the same phase velocity (3 km/s) and the same damping. -/
theorem C114_violated {n m : ℕ} (hn : 2 ≤ n) (hn' : n ≤ 100) (hm : 2 ≤ m) (hm' : m ≤ 100) (hne : n ≠ m) :
    freqOf (runTo 100 n) 0 = freqOf (runTo 100 m) 0 ∧ omegaOf (4/5) (runTo 100 n) 0 = omegaOf (4/5) (runTo 100 m) 0 ∧
    ∃ a b, valueOf (4/5) (runTo 100 n) 0 0 .DS = some (3, a) ∧ valueOf (4/5) (runTo 100 m) 0 0 .DS = some (3, b) ∧ a.v ≠ b.v := by
  have hp := Real.pi_pos
  refine ⟨rfl, rfl, ?_⟩
  obtain ⟨J, r1, r2, a1, a2, a3, a4, a5, a6, a7, a8⟩ := file_run hn (by omega) (att_re (by omega) hn') (att_im (by omega)).le
  obtain ⟨J', r1', r2', b1, b2, b3, b4, b5, b6, b7, b8⟩ := file_run hm (by omega) (att_re (by omega) hm') (att_im (by omega)).le
  refine ⟨r1.rows .DS, r1'.rows .DS, ?_, ?_, ?_⟩
  · simp [valueOf, a1, a4, a5]
  · simp [valueOf, b1, b4, b5]
  · rw [a8, b8]
    unfold dsValue
    have hw : w1 ≠ 0 := by intro h; have := w1_re; rw [h] at this; simp at this
    have hc : -((1 / (4 * Real.pi * 2.7) : ℝ) : ℂ) / (w1 * w1) ≠ 0 := by
      refine div_ne_zero (neg_ne_zero.2 ?_) (mul_ne_zero hw hw)
      have : (1 / (4 * Real.pi * 2.7) : ℝ) ≠ 0 := by positivity
      exact_mod_cast this
    intro h
    have h' := mul_right_cancel₀ hc h
    have an : att 100 n ≠ 0 := by intro h; have := att_im (n := n) (by omega); rw [h] at this; simp at this
    have am : att 100 m ≠ 0 := by intro h; have := att_im (n := m) (by omega); rw [h] at this; simp at this
    have h35 : (3.5 : ℂ) ≠ 0 := by norm_num
    rw [div_eq_div_iff (pow_ne_zero 2 (mul_ne_zero h35 an)) (pow_ne_zero 2 (mul_ne_zero h35 am))] at h'
    have h2 := mul_left_cancel₀ (pow_ne_zero 2 hw) h'
    rw [mul_pow, mul_pow] at h2
    exact att_sq_ne (by omega) (by omega) hne (mul_left_cancel₀ (pow_ne_zero 2 h35) h2).symm

open Classical in
/-- The kernel that `grt_integ_grn_spec` integrates at frequency number `iw` (`grt greenfn`): reference frequency `2π·freqs[nf2]`, grn.c 78, complex
frequency grn.c 111-112; `nf2` is the last frequency of the band (`-H`), grt_greenfn.c 901-908. -/
noncomputable def greenKernel (m : Mod1d ℝ) (top bot : Bound) (freqs : ℕ → ℝ) (wI : ℝ) (nf2 iw : ℕ) (k : ℝ) (s : Store ℂ) : Out (Kern ℂ) :=
  kernel (dynEnv (kernelIn m top bot (2 * Real.pi * freqs nf2 : ℝ) ((2 * Real.pi * freqs iw : ℝ) - I * wI) k)) s true

/-- The same in `grt greenfn`: with a time window of one second the kernel at 1 hertz depends on where the band ends, at every wavenumber. -/
theorem C114_violated_greenfn {n m : ℕ} (hn : 1 ≤ n) (hn' : n ≤ 100) (hm : 1 ≤ m) (hm' : m ≤ 100) (hne : n ≠ m) {k : ℝ} (hk : 0 < k) (s : Store ℂ) :
    ∃ a b, greenKernel (space 100) .half .half (fun i => i) (4 / 5 * Real.pi) n 1 k s = .ok a ∧
      greenKernel (space 100) .half .half (fun i => i) (4 / 5 * Real.pi) m 1 k s = .ok b ∧ a.done = true ∧ b.done = true ∧
      (a.g.u .DS).v ≠ (b.g.u .DS).v := by
  have hp := Real.pi_pos
  have hw : ((2 * Real.pi * ((1 : ℕ) : ℝ) : ℝ) : ℂ) - I * ((4 / 5 * Real.pi : ℝ) : ℂ) = w1 := by unfold w1; push_cast; ring
  obtain ⟨a, a1, a2, a3⟩ := kernel_run (att_re (n := n) (by omega) hn') (att_im (by omega)).le s k hk
  obtain ⟨b, b1, b2, b3⟩ := kernel_run (att_re (n := m) (by omega) hm') (att_im (by omega)).le s k hk
  refine ⟨a, b, ?_, ?_, a2, b2, ?_⟩
  · unfold greenKernel; rw [hw]; exact a1
  · unfold greenKernel; rw [hw]; exact b1
  · rw [a3, b3]
    intro h
    have hw0 : w1 ≠ 0 := by intro h; have := w1_re; rw [h] at this; simp at this
    have an : att 100 n ≠ 0 := by intro h; have := att_im (n := n) (by omega); rw [h] at this; simp at this
    have am : att 100 m ≠ 0 := by intro h; have := att_im (n := m) (by omega); rw [h] at this; simp at this
    have h35 : (3.5 : ℂ) ≠ 0 := by norm_num
    rw [div_eq_div_iff (pow_ne_zero 2 (mul_ne_zero h35 an)) (pow_ne_zero 2 (mul_ne_zero h35 am))] at h
    have h2 := mul_left_cancel₀ (pow_ne_zero 2 hw0) h
    rw [mul_pow, mul_pow] at h2
    exact att_sq_ne (by omega) (by omega) hne (mul_left_cancel₀ (pow_ne_zero 2 h35) h2).symm

/-- Without attenuation the wave parameters do not depend on the reference frequency. -/
theorem kernelIn_elastic {m : Mod1d ℝ} (hq : ∀ l ∈ m.lays, l.m.qa ≤ 0 ∧ l.m.qb ≤ 0) (top bot : Bound) (r r' w : ℂ) (k : ℝ) :
    kernelIn m top bot r w k = kernelIn m top bot r' w k := by
  have hat : ∀ i, (m.at i).m.qa ≤ 0 ∧ (m.at i).m.qb ≤ 0 := by
    intro i
    unfold Mod1d.at
    rcases h : m.lays[i]? with _ | l
    · simp [dummy]
    · exact hq l (List.mem_of_getElem? h)
  have h1 : ∀ q : ℝ, q ≤ 0 → ∀ r, atn false q r w = 1 := by
    intro q hq r
    simp [atn, qinv, not_lt.2 hq]
  have h2 : ∀ i c, stateLay m r w c i = stateLay m r' w c i := by
    intro i c
    have h3 : ∀ i, stateLayOf (m.at i) r w c = stateLayOf (m.at i) r' w c := by
      intro i
      unfold stateLayOf
      rw [h1 _ (hat i).1 r, h1 _ (hat i).2 r, h1 _ (hat i).1 r', h1 _ (hat i).2 r']
    induction i with
    | zero => exact h3 0
    | succ i ih => simp only [stateLay, ih, h3]
  have h4 : stateLay m r w (w / k) = stateLay m r' w (w / k) := funext fun i => h2 i _
  unfold kernelIn
  rw [h4]

open Classical in
/-- With both depths zero the dip-slip row is blank. -/
theorem kernel_blank {E : Kernel.Env ℂ} {s : Store ℂ} {st : Bool} {q : Kern ℂ} (h : kernel E s st = .ok q) (hz : E.atZero = true) :
    q.g.u .DS = ⟨0, 0⟩ ∧ q.g.uz .DS = ⟨0, 0⟩ := by
  rw [C58_only_DS] at h
  unfold outMap at h
  split at h
  · cases h
  · cases h
  · injection h with h
    subst h
    simp [zeroDS, hz]

/-- C114 without attenuation: two accepted runs on the same model, with the same boundaries, step, damping and output, give the same values
for a frequency and a phase velocity they have in common, wherever their bands end, as long as no inversion failed there and the boundary
reflections exist.  Missing: layers with attenuation, see `C114_violated`. -/
theorem C114_partial {zeta0 : ℝ} {A B : Args} (hAB : B.arr = A.arr ∧ B.zs = A.zs ∧ B.zr = A.zr ∧ B.top = A.top ∧ B.bot = A.bot ∧ B.df = A.df ∧
      B.w = A.w ∧ B.e = A.e)
    {J J' : Job} (h : start zeta0 A = .ok J) (h' : start zeta0 B = .ok J') (hva : ∀ l ∈ A.arr, l.m.va ≠ 0 ∧ l.m.rho ≠ 0)
    (hq : ∀ l ∈ J.m.lays, l.m.qa ≤ 0 ∧ l.m.qb ≤ 0)
    {iw iw' : ℕ} (hi : iw < J.f.freqs.length) (hi' : iw' < J'.f.freqs.length) (hfreq : freqOf A iw = freqOf B iw')
    {recs recs' : List Rec} (hf : J.file iw = .ok recs) (hf' : J'.file iw' = .ok recs')
    {r r' : Rec} (hr : r ∈ recs) (hr' : r' ∈ recs') (hc : r.c = r'.c) (hd : r.done = true) (hd' : r'.done = true)
    (ht : ∃ R, (dynEnv (kernelIn J.m A.top A.bot 1 (omegaOf zeta0 A iw) (2 * Real.pi * freqOf A iw / r.c))).topP = .ok R)
    (hb : max J.m.isrc J.m.ircv + 1 < J.m.lays.length →
      ∃ R, (dynEnv (kernelIn J.m A.top A.bot 1 (omegaOf zeta0 A iw) (2 * Real.pi * freqOf A iw / r.c))).botP = .ok R)
    (t : Src) : r.rows t = r'.rows t := by
  obtain ⟨e1, e2, e3, e4, e5, e6, e7, e8⟩ := hAB
  obtain ⟨x1, x2, x3, x4, x5⟩ := omega_eq h hi
  obtain ⟨y1, y2, y3, y4, y5⟩ := omega_eq h' hi'
  obtain ⟨hs, hz, hF, hm, -, -, et, eb, ee⟩ := start_ok h
  obtain ⟨hs', hz', hF', hm', -, -, et', eb', ee'⟩ := start_ok h'
  have hmm : J'.m = J.m := by
    rw [e1, e2, e3, hm] at hm'
    injection hm' with q
    exact q.symm
  have hom : omegaOf zeta0 B iw' = omegaOf zeta0 A iw := by
    unfold omegaOf; rw [← hfreq, e6, e7]
  unfold Job.file at hf hf'
  rw [x1] at hf
  rw [y1] at hf'
  obtain ⟨s, q, k1, k2, k3⟩ := (phaseLoop_get J _ _ _ hf).2 r hr
  obtain ⟨s', q', k1', k2', k3'⟩ := (phaseLoop_get J' _ _ _ hf').2 r' hr'
  rw [y2, hom, hmm, et', eb', e4, e5, ← hfreq, ← hc, kernelIn_elastic hq _ _ _ 1] at k1'
  rw [x2, et, eb, kernelIn_elastic hq _ _ _ 1] at k1
  have hre : 0 < (omegaOf zeta0 A iw).re := by
    have e : omegaOf zeta0 A iw = ((2 * Real.pi * freqOf A iw : ℝ) : ℂ) - I * ((A.w.getD zeta0 * Real.pi * A.df : ℝ) : ℂ) := by
      unfold omegaOf; push_cast; ring
    rw [e]
    simp only [Complex.sub_re, Complex.ofReal_re, Complex.mul_re, Complex.I_re, Complex.I_im, Complex.ofReal_im]
    have := Real.pi_pos
    have : 0 < 2 * Real.pi * freqOf A iw := by positivity
    linarith
  have hn : NonZero J.m (1 : ℝ) (omegaOf zeta0 A iw) := fun i _ => ⟨atn_ne _ one_pos hre, atn_ne _ one_pos hre⟩
  rw [ofReal_one] at hn
  obtain ⟨-, hw⟩ := kernelIn_ok hs hz hm hva A.top A.bot hn (2 * Real.pi * freqOf A iw / r.c)
  have key : ∀ t, q.g.u t = q'.g.u t ∧ q.g.uz t = q'.g.uz t := by
    intro t
    by_cases hds : (dynEnv (kernelIn J.m A.top A.bot 1 (omegaOf zeta0 A iw) (2 * Real.pi * freqOf A iw / r.c))).atZero = false ∨ t ≠ .DS
    · obtain ⟨S, a1, ⟨d, u, a2⟩, a3⟩ := C57_kernel (dyn_good _) hw (dyn_reads _) ht hb k1 (k2 ▸ hd) t hds
      obtain ⟨S', b1, -, b3⟩ := C57_kernel (dyn_good _) hw (dyn_reads _) ht hb k1' (k2' ▸ hd') t hds
      rw [a1] at b1
      injection b1 with b1
      subst b1
      exact ⟨(a3 d u a2).1.trans (b3 d u a2).1.symm, (a3 d u a2).2.trans (b3 d u a2).2.symm⟩
    · push Not at hds
      simp only [ne_eq, Bool.not_eq_false] at hds
      obtain ⟨hz0, rfl⟩ := hds
      have a := kernel_blank k1 hz0
      have b := kernel_blank k1' hz0
      exact ⟨a.1.trans b.1.symm, a.2.trans b.2.symm⟩
  have hfac : J'.fac = J.fac := by unfold Job.fac; rw [hmm]
  rw [k3 t, k3' t, x2, y2, hom, hfac, ee, ee', e8, (key t).1, (key t).2]

/-- The hypotheses of `C112_records` and of its records: the full space, run to 3 hertz. -/
example : ∃ J r1 r2, start (4/5) (runTo 100 3) = .ok J ∧ (∀ l ∈ (runTo 100 3).arr, l.m.va ≠ 0 ∧ l.m.rho ≠ 0) ∧ 0 < J.f.freqs.length ∧
    J.file 0 = .ok [r1, r2] ∧ r1.done = true ∧ r2.done = true := by
  obtain ⟨J, r1, r2, a1, a2, a3, a4, a5, a6, a7, a8⟩ := file_run (q := 100) (n := 3) (by norm_num) (by norm_num) (att_re (by norm_num) (by norm_num)) (att_im (by norm_num)).le
  refine ⟨J, r1, r2, by exact_mod_cast a1, ?_, by omega, a4, a6, a7⟩
  intro l hl
  simp only [runTo, List.mem_singleton] at hl
  subst hl
  norm_num [rock]

/-- The hypotheses of `C114_partial`: the full space without attenuation, runs to 2 and to 3 hertz, the frequency 1 hertz. -/
example : ∃ J J' r1 r2 r1' r2', start (4/5) (runTo 0 2) = .ok J ∧ start (4/5) (runTo 0 3) = .ok J' ∧ (∀ l ∈ J.m.lays, l.m.qa ≤ 0 ∧ l.m.qb ≤ 0) ∧
    freqOf (runTo 0 2) 0 = freqOf (runTo 0 3) 0 ∧ J.file 0 = .ok [r1, r2] ∧ J'.file 0 = .ok [r1', r2'] ∧ r1.c = r1'.c ∧
    r1.done = true ∧ r1'.done = true := by
  have h1 : ∀ n, att 0 n = 1 := fun n => by simp [att, atn, qinv]
  have h0 := start_run 0 (n := 2) (by norm_num) (by norm_num)
  obtain ⟨J, r1, r2, a1, a2, a3, a4, a5, a6, a7, a8⟩ := file_run (q := 0) (n := 2) (by norm_num) (by norm_num) (by simp [h1]) (by simp [h1])
  obtain ⟨J', r1', r2', b1, b2, b3, b4, b5, b6, b7, b8⟩ := file_run (q := 0) (n := 3) (by norm_num) (by norm_num) (by simp [h1]) (by simp [h1])
  refine ⟨J, J', r1, r2, r1', r2', by exact_mod_cast a1, by exact_mod_cast b1, ?_, rfl, a4, b4, by rw [a5, b5], a6, b6⟩
  rw [a1] at h0
  injection h0 with h0
  subst h0
  intro l hl
  simp only [space, List.mem_cons, List.not_mem_nil, or_false] at hl
  rcases hl with rfl | rfl | rfl <;> simp [rock]

end GRT.KernelProg
