import Verif.Integ.Bessel
import Mathlib.Analysis.SpecialFunctions.Gaussian.GaussianIntegral

/-!
Laplace integrals of Bessel functions, and their limits as the damping vanishes (Abel integrals). Mathematics
only; used to state what the direct convergence tables (pygrt/C_extension/src/integral/dcm.c) have to hold.
-/

open Real MeasureTheory Set Filter Topology

namespace GRT.Integ

/-- `∫ kᵖ e^{-sk} Jₙ(k) dk` over the half line. -/
noncomputable def lap (p : ℕ) (n : ℤ) (s : ℝ) : ℝ := ∫ k in Ioi (0 : ℝ), k ^ p * exp (-s * k) * J n k

theorem pow_exp_int (p : ℕ) {s : ℝ} (hs : 0 < s) : IntegrableOn (fun k : ℝ => k ^ p * exp (-s * k)) (Ioi 0) := by
  have h := integrableOn_rpow_mul_exp_neg_mul_rpow (p := 1) (s := p) (b := s) (by
    have : (0 : ℝ) ≤ p := Nat.cast_nonneg p
    linarith) one_pos hs
  refine h.congr_fun (fun k _ => ?_) measurableSet_Ioi
  simp [rpow_natCast]

theorem lap_cont (p : ℕ) (n : ℤ) (s : ℝ) : Continuous fun k : ℝ => k ^ p * exp (-s * k) * J n k := by
  have := J_continuous n
  fun_prop

theorem lap_int (p : ℕ) (n : ℤ) {s : ℝ} (hs : 0 < s) : IntegrableOn (fun k : ℝ => k ^ p * exp (-s * k) * J n k) (Ioi 0) := by
  refine (pow_exp_int p hs).mono' (lap_cont p n s).aestronglyMeasurable ?_
  refine (ae_restrict_iff' measurableSet_Ioi).2 (Eventually.of_forall fun k hk => ?_)
  have h1 : (0 : ℝ) ≤ k ^ p * exp (-s * k) := mul_nonneg (pow_nonneg (le_of_lt hk) _) (exp_pos _).le
  rw [norm_mul, norm_of_nonneg h1, norm_eq_abs]
  exact mul_le_of_le_one_right h1 (J_abs_le_one n k)

/-- Bounded for fixed damping, whatever the order. -/
theorem lap_le (n : ℤ) {s : ℝ} (hs : 0 < s) : |lap 0 n s| ≤ ∫ k in Ioi (0 : ℝ), exp (-s * k) := by
  unfold lap
  rw [← norm_eq_abs]
  refine norm_integral_le_of_norm_le (by simpa [IntegrableOn] using pow_exp_int 0 hs) ?_
  refine Eventually.of_forall fun k => ?_
  rw [pow_zero, one_mul, norm_mul, norm_of_nonneg (exp_pos _).le, norm_eq_abs]
  exact mul_le_of_le_one_right (exp_pos _).le (J_abs_le_one n k)

/-- Integration by parts. -/
theorem lap_rec (n : ℤ) {s : ℝ} (hs : 0 < s) :
    s * lap 0 n s = (if n = 0 then 1 else 0) + (lap 0 (n - 1) s - lap 0 (n + 1) s) / 2 := by
  have hd : ∀ k ∈ Ici (0 : ℝ), HasDerivAt (fun k => exp (-s * k) * J n k)
      (-s * (k ^ 0 * exp (-s * k) * J n k) + (1 / 2) * (k ^ 0 * exp (-s * k) * J (n - 1) k) -
        (1 / 2) * (k ^ 0 * exp (-s * k) * J (n + 1) k)) k := by
    intro k _
    have h1 : HasDerivAt (fun k : ℝ => exp (-s * k)) (exp (-s * k) * -s) k := by
      simpa using ((hasDerivAt_id k).const_mul (-s)).exp
    refine (h1.mul (J_hasDerivAt n k)).congr_deriv ?_
    ring
  have hi : IntegrableOn (fun k : ℝ => -s * (k ^ 0 * exp (-s * k) * J n k) + (1 / 2) * (k ^ 0 * exp (-s * k) * J (n - 1) k) -
        (1 / 2) * (k ^ 0 * exp (-s * k) * J (n + 1) k)) (Ioi 0) :=
    (((lap_int 0 n hs).const_mul _).add ((lap_int 0 (n - 1) hs).const_mul _)).sub ((lap_int 0 (n + 1) hs).const_mul _)
  have hl : Tendsto (fun k => exp (-s * k) * J n k) atTop (𝓝 0) := by
    have h0 : Tendsto (fun k : ℝ => exp (-s * k)) atTop (𝓝 0) :=
      tendsto_exp_atBot.comp (tendsto_id.const_mul_atTop_of_neg (by linarith))
    refine squeeze_zero_norm (fun k => ?_) h0
    rw [norm_mul, norm_of_nonneg (exp_pos _).le, norm_eq_abs]
    exact mul_le_of_le_one_right (exp_pos _).le (J_abs_le_one n k)
  have h := integral_Ioi_of_hasDerivAt_of_tendsto' hd hi hl
  have hi1 : IntegrableOn (fun k : ℝ => -s * (k ^ 0 * exp (-s * k) * J n k) + (1 / 2) * (k ^ 0 * exp (-s * k) * J (n - 1) k)) (Ioi 0) :=
    ((lap_int 0 n hs).const_mul _).add ((lap_int 0 (n - 1) hs).const_mul _)
  rw [integral_sub hi1 ((lap_int 0 (n + 1) hs).const_mul _),
    integral_add ((lap_int 0 n hs).const_mul _) ((lap_int 0 (n - 1) hs).const_mul _),
    integral_const_mul, integral_const_mul, integral_const_mul] at h
  rw [J_zero] at h
  simp only [mul_zero, exp_zero, one_mul] at h
  unfold lap
  linarith

/-- The root of `a² + 2sa = 1` in the unit interval. -/
noncomputable def root (s : ℝ) : ℝ := √(s ^ 2 + 1) - s

theorem sqrt_pos' (s : ℝ) : 0 < √(s ^ 2 + 1) := sqrt_pos.2 (by positivity)
theorem sqrt_sq' (s : ℝ) : √(s ^ 2 + 1) ^ 2 = s ^ 2 + 1 := sq_sqrt (by positivity)

theorem root_pos (s : ℝ) : 0 < root s := by
  unfold root
  have := sqrt_sq' s
  have := sqrt_pos' s
  by_contra hc
  nlinarith

theorem root_eq (s : ℝ) : root s ^ 2 + 2 * s * root s = 1 := by
  unfold root
  have := sqrt_sq' s
  nlinarith

theorem root_lt (s : ℝ) (hs : 0 < s) : root s < 1 := by
  have := root_eq s
  have := root_pos s
  nlinarith [mul_pos hs this]

/-- The difference `L_{n+1} - a L_n` would grow geometrically, and is therefore nought. -/
theorem lap_ratio_aux {s : ℝ} (hs : 0 < s) (n : ℕ) :
    lap 0 (n + 1) s - root s * lap 0 n s = (-(1 / root s)) ^ n * (lap 0 1 s - root s * lap 0 0 s) := by
  induction n with
  | zero => simp
  | succ n ih =>
    have h := lap_rec ((n : ℤ) + 1) hs
    rw [if_neg (by omega)] at h
    have e := root_eq s
    have hp := (root_pos s).ne'
    rw [pow_succ, mul_right_comm, ← ih]
    push_cast
    rw [show (n : ℤ) + 1 - 1 = n by ring] at h
    field_simp
    linear_combination (2 * root s) * h - lap 0 ((n : ℤ) + 1) s * e

theorem lap_one {s : ℝ} (hs : 0 < s) : lap 0 1 s = root s * lap 0 0 s := by
  by_contra hne
  have hE : 0 < |lap 0 1 s - root s * lap 0 0 s| := abs_pos.2 (sub_ne_zero.2 hne)
  set B := ∫ k in Ioi (0 : ℝ), exp (-s * k)
  have hb : ∀ n : ℕ, (1 / root s) ^ n * |lap 0 1 s - root s * lap 0 0 s| ≤ 2 * B := by
    intro n
    have h := congrArg abs (lap_ratio_aux hs n)
    rw [abs_mul, abs_pow, abs_neg, abs_of_pos (one_div_pos.2 (root_pos s))] at h
    rw [← h]
    have h1 := lap_le ((n : ℤ) + 1) hs
    have h2 := lap_le (n : ℤ) hs
    have h3 := root_lt s hs
    have h4 := root_pos s
    calc |lap 0 ((n : ℤ) + 1) s - root s * lap 0 n s| ≤ |lap 0 ((n : ℤ) + 1) s| + |root s * lap 0 n s| := abs_sub _ _
      _ ≤ B + B := by
        rw [abs_mul, abs_of_pos h4]
        have := abs_nonneg (lap 0 n s)
        nlinarith
      _ = 2 * B := by ring
  have h1 : 1 < 1 / root s := by rw [lt_div_iff₀ (root_pos s), one_mul]; exact root_lt s hs
  obtain ⟨n, hn⟩ := pow_unbounded_of_one_lt (2 * B / |lap 0 1 s - root s * lap 0 0 s|) h1
  rw [div_lt_iff₀ hE] at hn
  exact absurd (hb n) (not_le.2 hn)

theorem lap_neg_one (s : ℝ) : lap 0 (-1) s = -lap 0 1 s := by
  unfold lap
  rw [← integral_neg]
  congr 1
  funext k
  rw [J_neg_one]
  ring

theorem lap_closed {s : ℝ} (hs : 0 < s) (n : ℕ) : lap 0 n s = root s ^ n / √(s ^ 2 + 1) := by
  have h0 : lap 0 0 s = 1 / √(s ^ 2 + 1) := by
    have h := lap_rec 0 hs
    rw [if_pos rfl, zero_sub, zero_add, lap_neg_one, lap_one hs] at h
    rw [eq_div_iff (sqrt_pos' s).ne']
    have e : √(s ^ 2 + 1) = root s + s := by unfold root; ring
    rw [e]
    linarith
  induction n with
  | zero => simpa using h0
  | succ n ih =>
    have h := lap_ratio_aux hs n
    rw [lap_one hs, sub_self, mul_zero, sub_eq_zero] at h
    push_cast
    rw [h, ih]
    ring

/-- Differentiation under the integral. -/
theorem lap_deriv (p : ℕ) (n : ℤ) {s : ℝ} (hs : 0 < s) : HasDerivAt (lap p n) (-lap (p + 1) n s) s := by
  have h := hasDerivAt_integral_of_dominated_loc_of_deriv_le (μ := volume.restrict (Ioi (0 : ℝ)))
    (F := fun s k => k ^ p * exp (-s * k) * J n k) (F' := fun s k => -(k ^ (p + 1) * exp (-s * k) * J n k))
    (bound := fun k => k ^ (p + 1) * exp (-(s / 2) * k)) (s := Ioi (s / 2)) (x₀ := s)
    (Ioi_mem_nhds (by linarith)) (Eventually.of_forall fun x => (lap_cont p n x).aestronglyMeasurable)
    (lap_int p n hs) (lap_cont (p + 1) n s).neg.aestronglyMeasurable
    ((ae_restrict_iff' measurableSet_Ioi).2 (Eventually.of_forall fun k hk x hx => ?_))
    (pow_exp_int (p + 1) (by linarith))
    (Eventually.of_forall fun k x _ => ?_)
  · refine h.2.congr_deriv ?_
    rw [integral_neg]
    rfl
  · have hk' : (0 : ℝ) < k := hk
    have hx' : s / 2 < x := hx
    have h1 : (0 : ℝ) ≤ k ^ (p + 1) * exp (-x * k) := mul_nonneg (pow_nonneg hk'.le _) (exp_pos _).le
    rw [norm_neg, norm_mul, norm_of_nonneg h1, norm_eq_abs]
    refine (mul_le_of_le_one_right h1 (J_abs_le_one n k)).trans (mul_le_mul_of_nonneg_left ?_ (pow_nonneg hk'.le _))
    exact exp_le_exp.2 (by nlinarith)
  · have h1 : HasDerivAt (fun x : ℝ => exp (-x * k)) (exp (-x * k) * (-1 * k)) x :=
      ((hasDerivAt_neg x).mul_const k).exp
    refine ((h1.const_mul (k ^ p)).mul_const (J n k)).congr_deriv ?_
    ring

theorem sqrt_deriv (s : ℝ) : HasDerivAt (fun s : ℝ => √(s ^ 2 + 1)) (s / √(s ^ 2 + 1)) s := by
  have h := ((hasDerivAt_pow 2 s).add_const 1).sqrt (by positivity)
  refine h.congr_deriv ?_
  have := (sqrt_pos' s).ne'
  field_simp
  norm_num

theorem root_deriv (s : ℝ) : HasDerivAt root (-root s / √(s ^ 2 + 1)) s := by
  refine ((sqrt_deriv s).sub (hasDerivAt_id s)).congr_deriv ?_
  have := (sqrt_pos' s).ne'
  unfold root
  field_simp
  ring

theorem root_pow_deriv (n : ℕ) (s : ℝ) : HasDerivAt (fun s => root s ^ n) (-(n * root s ^ n) / √(s ^ 2 + 1)) s := by
  refine ((root_deriv s).pow n).congr_deriv ?_
  cases n with
  | zero => simp
  | succ n => rw [Nat.add_sub_cancel, pow_succ]; ring

theorem lap_closed1 {s : ℝ} (hs : 0 < s) (n : ℕ) :
    lap 1 n s = root s ^ n * (n / (s ^ 2 + 1) + s / √(s ^ 2 + 1) ^ 3) := by
  have h1 := lap_deriv 0 n hs
  have h2 : HasDerivAt (lap 0 n) (-(root s ^ n * (n / (s ^ 2 + 1) + s / √(s ^ 2 + 1) ^ 3))) s := by
    have hq : HasDerivAt (fun s => root s ^ n / √(s ^ 2 + 1)) (-(root s ^ n * (n / (s ^ 2 + 1) + s / √(s ^ 2 + 1) ^ 3))) s := by
      refine ((root_pow_deriv n s).div (sqrt_deriv s) (sqrt_pos' s).ne').congr_deriv ?_
      rw [← sqrt_sq' s]
      have := (sqrt_pos' s).ne'
      rw [sqrt_sq (sqrt_pos' s).le]
      field_simp
      ring
    refine hq.congr_of_eventuallyEq ?_
    filter_upwards [Ioi_mem_nhds hs] with x hx using lap_closed hx n
  have := h1.unique h2
  simp only [zero_add] at this
  linarith

theorem lap_closed2 {s : ℝ} (hs : 0 < s) (n : ℕ) :
    lap 2 n s = root s ^ n * (n / √(s ^ 2 + 1) * (n / (s ^ 2 + 1) + s / √(s ^ 2 + 1) ^ 3) +
      (2 * n * s / (s ^ 2 + 1) ^ 2 - 1 / √(s ^ 2 + 1) ^ 3 + 3 * s ^ 2 / √(s ^ 2 + 1) ^ 5)) := by
  have h1 := lap_deriv 1 n hs
  set c := root s ^ n * (n / √(s ^ 2 + 1) * (n / (s ^ 2 + 1) + s / √(s ^ 2 + 1) ^ 3) +
      (2 * n * s / (s ^ 2 + 1) ^ 2 - 1 / √(s ^ 2 + 1) ^ 3 + 3 * s ^ 2 / √(s ^ 2 + 1) ^ 5)) with hc
  have h2 : HasDerivAt (lap 1 n) (-c) s := by
    have hq : HasDerivAt (fun s => root s ^ n * (n / (s ^ 2 + 1) + s / √(s ^ 2 + 1) ^ 3)) (-c) s := by
      have ha : HasDerivAt (fun s : ℝ => n / (s ^ 2 + 1)) (-(n * (2 * s)) / (s ^ 2 + 1) ^ 2) s := by
        refine ((hasDerivAt_const s (n : ℝ)).div ((hasDerivAt_pow 2 s).add_const 1) (by positivity)).congr_deriv ?_
        norm_num
      have hb : HasDerivAt (fun s : ℝ => s / √(s ^ 2 + 1) ^ 3) (1 / √(s ^ 2 + 1) ^ 3 - 3 * s ^ 2 / √(s ^ 2 + 1) ^ 5) s := by
        have := (sqrt_pos' s).ne'
        refine ((hasDerivAt_id s).div ((sqrt_deriv s).pow 3) (pow_ne_zero 3 this)).congr_deriv ?_
        simp only [id, Pi.pow_apply]
        field_simp
        norm_num
        ring
      refine ((root_pow_deriv n s).mul (ha.add hb)).congr_deriv ?_
      rw [hc]
      simp only [Pi.add_apply]
      ring
    refine hq.congr_of_eventuallyEq ?_
    filter_upwards [Ioi_mem_nhds hs] with x hx using lap_closed1 hx n
  have := h1.unique h2
  simp only [Nat.reduceAdd] at this
  linarith

/-- The Abel integral of `f` over the half line is `L`. -/
def Abel (f : ℝ → ℝ) (L : ℝ) : Prop := Tendsto (fun s : ℝ => ∫ k in Ioi (0 : ℝ), exp (-s * k) * f k) (𝓝[>] 0) (𝓝 L)

theorem root_cont : Continuous root := by unfold root; fun_prop

theorem abel_unit (p n : ℕ) (g : ℝ → ℝ) (hg : Continuous g) (h : ∀ s, 0 < s → lap p n s = g s) :
    Tendsto (lap p n) (𝓝[>] 0) (𝓝 (g 0)) :=
  (hg.tendsto 0 |>.mono_left nhdsWithin_le_nhds).congr' (by
    filter_upwards [self_mem_nhdsWithin] with s hs using (h s hs).symm)

theorem lap0_lim (n : ℕ) : Tendsto (lap 0 n) (𝓝[>] 0) (𝓝 1) := by
  have := abel_unit 0 n (fun s => root s ^ n / √(s ^ 2 + 1)) ((root_cont.pow n).div (by fun_prop) fun s => (sqrt_pos' s).ne')
    (fun s hs => lap_closed hs n)
  simpa [root] using this

theorem lap1_lim (n : ℕ) : Tendsto (lap 1 n) (𝓝[>] 0) (𝓝 n) := by
  have := abel_unit 1 n (fun s => root s ^ n * (n / (s ^ 2 + 1) + s / √(s ^ 2 + 1) ^ 3))
    ((root_cont.pow n).mul ((continuous_const.div (by fun_prop) fun s => by positivity).add
      (continuous_id.div (by fun_prop) fun s => pow_ne_zero 3 (sqrt_pos' s).ne')))
    (fun s hs => lap_closed1 hs n)
  simpa [root] using this

theorem lap2_lim (n : ℕ) : Tendsto (lap 2 n) (𝓝[>] 0) (𝓝 ((n : ℝ) ^ 2 - 1)) := by
  have := abel_unit 2 n _
    ((root_cont.pow n).mul (((continuous_const.div (by fun_prop) fun s => (sqrt_pos' s).ne').mul
      ((continuous_const.div (by fun_prop) fun s => by positivity).add
      (continuous_id.div (by fun_prop) fun s => pow_ne_zero 3 (sqrt_pos' s).ne'))).add
      (((Continuous.div (f := fun s : ℝ => 2 * (n : ℝ) * s) (by fun_prop) (by fun_prop) fun s => by positivity).sub
        (continuous_const.div (by fun_prop) fun s => pow_ne_zero 3 (sqrt_pos' s).ne')).add
        (Continuous.div (f := fun s : ℝ => 3 * s ^ 2) (by fun_prop) (by fun_prop) fun s => pow_ne_zero 5 (sqrt_pos' s).ne'))))
    (fun s hs => lap_closed2 hs n)
  simpa [root, sq, sub_eq_add_neg] using this

/-- Change of scale. -/
theorem abel_scale (p n : ℕ) (r : ℝ) (hr : 0 < r) (L : ℝ) (h : Tendsto (lap p n) (𝓝[>] 0) (𝓝 L)) :
    Abel (fun k => k ^ p * J n (k * r)) (L / r ^ (p + 1)) := by
  unfold Abel
  have hs : Tendsto (fun s : ℝ => s / r) (𝓝[>] 0) (𝓝[>] 0) := by
    refine tendsto_nhdsWithin_of_tendsto_nhds_of_eventually_within _ ?_ ?_
    · have : Tendsto (fun s : ℝ => s / r) (𝓝 0) (𝓝 (0 / r)) := (continuous_id.div_const r).tendsto 0
      rw [zero_div] at this
      exact this.mono_left nhdsWithin_le_nhds
    · filter_upwards [self_mem_nhdsWithin] with s hs using div_pos hs hr
  have := (h.comp hs).div_const (r ^ (p + 1))
  refine this.congr fun s => ?_
  have hc := integral_comp_mul_left_Ioi (fun x => x ^ p * exp (-(s / r) * x) * J n x) 0 hr
  rw [mul_zero, smul_eq_mul] at hc
  rw [Function.comp, show lap p n (s / r) = r * ∫ x in Ioi (0 : ℝ), (r * x) ^ p * exp (-(s / r) * (r * x)) * J n (r * x) by
    rw [hc, ← mul_assoc, mul_inv_cancel₀ hr.ne', one_mul]; rfl]
  rw [mul_comm r, mul_div_assoc, ← integral_mul_const]
  congr 1
  funext x
  rw [show -(s / r) * (r * x) = -s * x by field_simp, mul_comm r x]
  field_simp
  rw [mul_pow]
  ring

theorem abel_J (n : ℕ) (r : ℝ) (hr : 0 < r) : Abel (fun k => J n (k * r)) (1 / r) := by
  simpa using abel_scale 0 n r hr 1 (lap0_lim n)

theorem abel_kJ (n : ℕ) (r : ℝ) (hr : 0 < r) : Abel (fun k => k * J n (k * r)) (n / r ^ 2) := by
  simpa using abel_scale 1 n r hr n (lap1_lim n)

theorem abel_kkJ (n : ℕ) (r : ℝ) (hr : 0 < r) : Abel (fun k => k ^ 2 * J n (k * r)) ((n ^ 2 - 1) / r ^ 3) :=
  abel_scale 2 n r hr _ (lap2_lim n)

end GRT.Integ
