import Verif.Lamb.After4
import Verif.Lamb.Assemble
import Mathlib.Analysis.Calculus.DSlope
import Mathlib.Analysis.SpecialFunctions.Pow.Deriv

/-! The half circle around the Rayleigh pole. -/

namespace GRT.Lamb

open Complex Set Filter Topology MeasureTheory

theorem arc_sub (q δ φ : ℝ) : I * δ * exp (-(φ * I)) = -I * (Spec.arc q δ φ - q) := by unfold Spec.arc; ring

theorem arc_norm {q δ φ : ℝ} (h : 0 ≤ δ) : ‖Spec.arc q δ φ - q‖ = δ := by
  unfold Spec.arc
  rw [show (q : ℂ) - δ * exp (-(φ * I)) - q = -(δ * exp (-(φ * I))) by ring, norm_neg, norm_mul, show -((φ : ℂ) * I) = ((-φ : ℝ) : ℂ) * I by push_cast; ring,
    norm_exp_ofReal_mul_I, mul_one, norm_real, Real.norm_eq_abs, abs_of_nonneg h]

theorem arc_im {q δ φ : ℝ} (h : 0 < δ) (hφ : φ ∈ Ioo 0 Real.pi) : 0 < (Spec.arc q δ φ).im := by
  unfold Spec.arc
  have : -((φ : ℂ) * I) = ((-φ : ℝ) : ℂ) * I := by push_cast; ring
  rw [this, exp_mul_I, ← ofReal_cos, ← ofReal_sin]
  simp
  exact mul_pos h (Real.sin_pos_of_pos_of_lt_pi hφ.1 hφ.2)

/-- The integral over a vanishing half circle is half the residue. -/
theorem arc_tendsto {h K : ℂ → ℂ} {q : ℝ} (hK : ∀ᶠ z in 𝓝 (q : ℂ), ContinuousAt K z) (he : ∀ᶠ z in 𝓝 (q : ℂ), 0 < z.im → h z * (z - q) = K z) :
    (∀ᶠ δ in 𝓝[>] (0 : ℝ), IntervalIntegrable (Spec.onArc h q δ) volume 0 Real.pi) ∧
      Tendsto (fun δ => ∫ φ in 0..Real.pi, Spec.onArc h q δ φ) (𝓝[>] 0) (𝓝 (Real.pi * (K q).re)) := by
  obtain ⟨r, hr, hb⟩ := Metric.eventually_nhds_iff.mp (hK.and he)
  have hmem : ∀ δ : ℝ, 0 ≤ δ → δ < r → ∀ φ, dist (Spec.arc q δ φ) (q : ℂ) < r := by
    intro δ h0 h1 φ
    rw [dist_eq_norm, arc_norm h0]; exact h1
  have hcont : ∀ δ : ℝ, 0 ≤ δ → δ < r → Continuous fun φ => (K (Spec.arc q δ φ)).re := by
    intro δ h0 h1
    refine continuous_re.comp (continuous_iff_continuousAt.mpr fun φ => ?_)
    refine ContinuousAt.comp (g := K) (hb (hmem δ h0 h1 φ)).1 ?_
    unfold Spec.arc
    fun_prop
  have key : ∀ δ : ℝ, 0 < δ → δ < r → ∀ φ ∈ Ioo 0 Real.pi, Spec.onArc h q δ φ = (K (Spec.arc q δ φ)).re := by
    intro δ h0 h1 φ hφ
    have := (hb (hmem δ h0.le h1 φ)).2 (arc_im h0 hφ)
    unfold Spec.onArc
    rw [arc_sub, show h (Spec.arc q δ φ) * (-I * (Spec.arc q δ φ - q)) = -I * (h (Spec.arc q δ φ) * (Spec.arc q δ φ - q)) by ring, this]
    simp
  refine ⟨?_, ?_⟩
  · filter_upwards [small hr] with δ hδ
    exact (int_congr_Ioo Real.pi_pos.le (key δ hδ.1 hδ.2)).2 ((hcont δ hδ.1.le hδ.2).intervalIntegrable _ _)
  · rw [Metric.tendsto_nhds]
    intro ε hε
    have hKq := (hb (show dist (q : ℂ) q < r by rw [dist_self]; exact hr)).1
    have hre : ContinuousAt (fun z => (K z).re) (q : ℂ) := continuous_re.continuousAt.comp hKq
    obtain ⟨r', hr', hb'⟩ := Metric.continuousAt_iff.mp hre (ε / 5) (by linarith)
    filter_upwards [small hr, small hr'] with δ h1 h2
    rw [(int_congr_Ioo Real.pi_pos.le (key δ h1.1 h1.2)).1]
    have e : (∫ φ in 0..Real.pi, (K (Spec.arc q δ φ)).re) - Real.pi * (K q).re = ∫ φ in 0..Real.pi, ((K (Spec.arc q δ φ)).re - (K q).re) := by
      rw [intervalIntegral.integral_sub ((hcont δ h1.1.le h1.2).intervalIntegrable _ _) (by simp), intervalIntegral.integral_const]
      simp
    rw [Real.dist_eq, e]
    have := intervalIntegral.norm_integral_le_of_norm_le_const (a := 0) (b := Real.pi) (C := ε / 5) (f := fun φ => (K (Spec.arc q δ φ)).re - (K q).re)
      (fun φ _ => by
        have := hb' (show dist (Spec.arc q δ φ) (q : ℂ) < r' by rw [dist_eq_norm, arc_norm h1.1.le]; exact h2.2)
        rw [Real.dist_eq] at this
        exact this.le)
    rw [Real.norm_eq_abs, sub_zero, abs_of_pos Real.pi_pos] at this
    have h4 := Real.pi_le_four
    have : ε / 5 * Real.pi < ε := by nlinarith
    linarith

/-- Above the negative axis the root is `i` times the root of the opposite. -/
theorem csqrt_above {w : ℂ} (h : 0 < w.im) : csqrt w = I * csqrt (-w) := by
  have hs : -w ∈ slitPlane := by rw [mem_slitPlane_iff]; right; simp; exact h.ne'
  have hre := csqrt_re_pos hs
  have hm := csqrt_mul_self (-w)
  refine csqrt_unique ?_ ?_
  · have hI : I * I = -1 := I_mul_I
    linear_combination csqrt (-w) * csqrt (-w) * hI - hm
  · have him := congrArg Complex.im hm
    rw [mul_im, neg_im] at him
    simp only [mul_re, I_re, I_im, zero_mul, one_mul, zero_sub]
    nlinarith

theorem csqrt_deriv {z : ℂ} (h : z ∈ slitPlane) : HasDerivAt csqrt (1 / (2 * csqrt z)) z := by
  have hz : z ≠ 0 := slitPlane_ne_zero h
  have h1 := csqrt_mul_self z
  unfold csqrt at h1
  have h2 := csqrt_ne hz
  unfold csqrt at h2
  have : HasDerivAt (fun x : ℂ => x ^ (1 / 2 : ℂ)) (1 / 2 * z ^ (1 / 2 - 1 : ℂ) * 1) z := (hasDerivAt_id z).cpow_const (c := (1 / 2 : ℂ)) h
  refine this.congr_deriv ?_
  unfold csqrt
  rw [cpow_sub _ _ hz, cpow_one]
  generalize z ^ (1 / 2 : ℂ) = s at *
  rw [← h1]
  field_simp

/-- The vertical slownesses continued through the real axis. -/
noncomputable def uCont (k t : ℝ) (z : ℂ) : ℂ := I * csqrt (t * t - z * z - k)

theorem uC_cont {k t : ℝ} {z : ℂ} (h1 : 0 < z.re) (h2 : 0 < z.im) : uC k t z = uCont k t z := by
  unfold uC uCont
  rw [csqrt_above (by simp; nlinarith)]
  congr 2; ring

theorem uCont_deriv {k t q a : ℝ} (ha : 0 < a) (h : t * t - q * q - k = a * a) :
    uCont k t q = I * a ∧ HasDerivAt (uCont k t) (I * (1 / (2 * a) * (-(2 * q)))) (q : ℂ) ∧ ∀ᶠ z in 𝓝 (q : ℂ), ContinuousAt (uCont k t) z := by
  have e : (t : ℂ) * t - q * q - k = ((a * a : ℝ) : ℂ) := by rw [← h]; push_cast; ring
  have hs : (t : ℂ) * t - q * q - k ∈ slitPlane := by rw [e, ofReal_mem_slitPlane]; positivity
  have hv : csqrt ((t : ℂ) * t - q * q - k) = a := by rw [e, csqrt_real (by positivity), Real.sqrt_mul_self ha.le]
  refine ⟨by unfold uCont; rw [hv], ?_, ?_⟩
  · have h1 : HasDerivAt (fun z : ℂ => (t : ℂ) * t - z * z - k) (-(2 * q)) (q : ℂ) := by
      have := (((hasDerivAt_id (q : ℂ)).mul (hasDerivAt_id (q : ℂ))).const_sub ((t : ℂ) * t)).sub_const (k : ℂ)
      exact this.congr_deriv (by simp only [id]; ring)
    have h2 := ((csqrt_deriv hs).comp (q : ℂ) h1).const_mul I
    rw [hv] at h2
    exact h2
  · have : ContinuousAt (fun z : ℂ => (t : ℂ) * t - z * z - k) (q : ℂ) := by fun_prop
    filter_upwards [this.eventually_mem (isOpen_slitPlane.mem_nhds hs)] with z hz
    unfold uCont
    refine continuousAt_const.mul (ContinuousAt.comp (g := csqrt) (csqrt_deriv hz).continuousAt (by fun_prop))

/-- `σ` continued. -/
noncomputable def sCont (kk t : ℝ) (z : ℂ) : ℂ := sigC t z (uCont kk t z) (uCont 1 t z)

/-- The numerators continued. -/
noncomputable def nCont (kk t : ℝ) (n : ℕ) (z : ℂ) : ℂ :=
  pM (-t) (z * z) (uCont kk t z) (uCont 1 t z) n + sN (-t) (z * z) (uCont kk t z) (uCont 1 t z) n / uCont 1 t z

theorem pM_cont {q : ℂ} {n : ℕ} {u v p2 : ℂ → ℂ} {z : ℂ} (hp : ContinuousAt p2 z) (hu : ContinuousAt u z) (hv : ContinuousAt v z) :
    ContinuousAt (fun z => pM q (p2 z) (u z) (v z) n) z := by
  rcases n with _ | _ | _ | _ | _ | _ | n <;> simp only [pM] <;> fun_prop

theorem sN_cont {q : ℂ} {n : ℕ} {u v p2 : ℂ → ℂ} {z : ℂ} (hp : ContinuousAt p2 z) (hu : ContinuousAt u z) (hv : ContinuousAt v z) :
    ContinuousAt (fun z => sN q (p2 z) (u z) (v z) n) z := by
  rcases n with _ | _ | _ | _ | _ | _ | n <;> simp only [sN] <;> fun_prop

/-- The residue. -/
theorem residue {kk t q a b y : ℝ} (ha : 0 < a) (hb : 0 < b) (hq : 0 < q) (hqy : q * q = t * t - y) (hay : a * a = y - kk) (hby : b * b = y - 1)
    (hz : (1 - 2 * y) ^ 2 = 4 * y * a * b) {R2 : ℝ} (hR2 : R2 = 2 * (1 - 2 * y) * a * b + 2 * a * a * b * b + y * (a * a + b * b)) (hR : 0 < R2) (n : ℕ) :
    ∃ K : ℂ → ℂ, (∀ᶠ z in 𝓝 (q : ℂ), ContinuousAt K z) ∧ (∀ᶠ z in 𝓝 (q : ℂ), 0 < z.im → uC 1 t z ≠ 0 ∧ sigC t z (uC kk t z) (uC 1 t z) ≠ 0 ∧
        (pM (-t) (z * z) (uC kk t z) (uC 1 t z) n + sN (-t) (z * z) (uC kk t z) (uC 1 t z) n / uC 1 t z) / sigC t z (uC kk t z) (uC 1 t z) * (z - q) = K z) ∧
      K q = nCont kk t n q * (a * b / (4 * q * R2) : ℝ) := by
  obtain ⟨u1, u2, u3⟩ := uCont_deriv (k := kk) (t := t) (q := q) ha (by rw [hqy, hay]; ring)
  obtain ⟨v1, v2, v3⟩ := uCont_deriv (k := 1) (t := t) (q := q) hb (by rw [hqy, hby]; ring)
  have hI : I * I = -1 := I_mul_I
  have hyc : (t : ℂ) * t - q * q = y := by
    have : (((t * t - q * q : ℝ)) : ℂ) = (y : ℝ) := by rw [hqy]; ring_nf
    exact_mod_cast this
  have hs0 : sCont kk t q = 0 := by
    unfold sCont sigC
    rw [u1, v1, hyc]
    have : (((1 - 2 * y) ^ 2 : ℝ) : ℂ) = ((4 * y * a * b : ℝ) : ℂ) := by rw [hz]
    push_cast at this
    linear_combination this + 4 * (a : ℂ) * b * y * hI
  have hac : (a : ℂ) ≠ 0 := by exact_mod_cast ha.ne'
  have hbc : (b : ℂ) ≠ 0 := by exact_mod_cast hb.ne'
  have hqc : (q : ℂ) ≠ 0 := by exact_mod_cast hq.ne'
  have hRc : (R2 : ℂ) ≠ 0 := by exact_mod_cast hR.ne'
  have hd : HasDerivAt (sCont kk t) ((4 * q * R2 / (a * b) : ℝ) : ℂ) (q : ℂ) := by
    have h1 : HasDerivAt (fun z : ℂ => (t : ℂ) * t - z * z) (-(2 * q)) (q : ℂ) := by
      have := ((hasDerivAt_id (q : ℂ)).mul (hasDerivAt_id (q : ℂ))).const_sub ((t : ℂ) * t)
      exact this.congr_deriv (by simp only [id]; ring)
    have h2 := (((h1.const_mul (2 : ℂ)).const_sub 1).pow 2).add ((((u2.const_mul 4)).mul v2).mul h1)
    have h3 : HasDerivAt (sCont kk t) _ (q : ℂ) := h2
    refine h3.congr_deriv ?_
    simp only [Pi.mul_apply]
    simp only [u1, v1, hyc]
    rw [hR2]
    push_cast
    field_simp
    have hI2 : I ^ 2 = -1 := by rw [pow_two, hI]
    simp only [hI2]
    ring
  have hdv : dslope (sCont kk t) q q = ((4 * q * R2 / (a * b) : ℝ) : ℂ) := by rw [dslope_same, hd.deriv]
  have hdn : dslope (sCont kk t) q q ≠ 0 := by
    rw [hdv, Ne, ofReal_eq_zero]; positivity
  have hdc : ContinuousAt (dslope (sCont kk t) (q : ℂ)) (q : ℂ) := continuousAt_dslope_same.mpr hd.differentiableAt
  have hsc : ∀ᶠ z in 𝓝 (q : ℂ), ContinuousAt (sCont kk t) z := by
    filter_upwards [u3, v3] with z h1 h2
    unfold sCont sigC
    fun_prop
  have hv0 : ∀ᶠ z in 𝓝 (q : ℂ), uCont 1 t z ≠ 0 := by
    refine (v2.continuousAt).eventually_ne ?_
    rw [v1]; exact mul_ne_zero I_ne_zero hbc
  have hd0 : ∀ᶠ z in 𝓝 (q : ℂ), dslope (sCont kk t) q z ≠ 0 := hdc.eventually_ne hdn
  refine ⟨fun z => nCont kk t n z / dslope (sCont kk t) q z, ?_, ?_, ?_⟩
  · filter_upwards [u3, v3, hsc, hv0, hd0] with z c1 c2 c3 c4 c5
    refine ContinuousAt.div ?_ ?_ c5
    · unfold nCont
      exact (pM_cont (by fun_prop) c1 c2).add ((sN_cont (by fun_prop) c1 c2).div c2 c4)
    · by_cases h : z = q
      · rw [h]; exact hdc
      · exact (continuousAt_dslope_of_ne h).mpr c3
  · have hre : ∀ᶠ z in 𝓝 (q : ℂ), 0 < z.re := continuous_re.continuousAt.eventually (lt_mem_nhds (by rw [ofReal_re]; exact hq))
    filter_upwards [hv0, hd0, hre] with z c1 c2 c3 him
    have hzq : z ≠ q := by intro h; rw [h, ofReal_im] at him; exact lt_irrefl _ him
    have hzq' := sub_ne_zero.mpr hzq
    rw [uC_cont c3 him, uC_cont c3 him]
    have hsig : sigC t z (uCont kk t z) (uCont 1 t z) = (z - q) * dslope (sCont kk t) q z := by
      have := sub_smul_dslope (sCont kk t) (q : ℂ) z
      rw [hs0, sub_zero, smul_eq_mul] at this
      exact this.symm
    rw [hsig]
    refine ⟨c1, mul_ne_zero hzq' c2, ?_⟩
    show nCont kk t n z / _ * _ = _
    field_simp
  · simp only
    rw [hdv]
    push_cast
    field_simp

theorem HasPV.congr_ae' {F G : ℝ → ℝ} {a c b v : ℝ} (hac : a < c) (hcb : c < b) (hF : HasPV F a c b v)
    (h : ∀ᵐ p : ℝ, p ∈ Ioo a b → p ≠ c → F p = G p) : HasPV G a c b v := by
  have hb : ∀ᵐ p : ℝ, p ≠ b := by rw [ae_iff]; simp
  have key : ∀ᶠ δ in 𝓝[>] (0 : ℝ), (∀ᵐ p : ℝ, p ∈ uIoc a (c - δ) → F p = G p) ∧ ∀ᵐ p : ℝ, p ∈ uIoc (c + δ) b → F p = G p := by
    filter_upwards [small (sub_pos.mpr hac), small (sub_pos.mpr hcb)] with δ h1 h2
    rw [uIoc_of_le (by linarith), uIoc_of_le (by linarith)]
    constructor
    · filter_upwards [h] with p hp hm
      exact hp ⟨hm.1, by linarith [hm.2]⟩ (by linarith [hm.2])
    · filter_upwards [h, hb] with p hp hpb hm
      exact hp ⟨by linarith [hm.1], lt_of_le_of_ne hm.2 hpb⟩ (by linarith [hm.1])
  refine ⟨?_, ?_⟩
  · filter_upwards [hF.1, key] with δ h1 h2
    exact ⟨h1.1.congr_ae ((ae_restrict_iff' measurableSet_uIoc).mpr h2.1), h1.2.congr_ae ((ae_restrict_iff' measurableSet_uIoc).mpr h2.2)⟩
  · refine hF.2.congr' ?_
    filter_upwards [key] with δ h2
    rw [intervalIntegral.integral_congr_ae h2.1, intervalIntegral.integral_congr_ae h2.2]

theorem HasPV.mix {sf cf a c b : ℝ} {f : ℕ → ℝ → ℝ} {w : ℕ → ℝ} (h : ∀ n < 6, HasPV (f n) a c b (w n)) (i j : Fin 3) :
    HasPV (fun p => mix sf cf (fun n => f n p) i j) a c b (mix sf cf w i j) := by
  have h0 := h 0 (by norm_num)
  have h1 := h 1 (by norm_num)
  have h2 := h 2 (by norm_num)
  have h3 := h 3 (by norm_num)
  have h4 := h 4 (by norm_num)
  have h5 := h 5 (by norm_num)
  have ext : ∀ {F G : ℝ → ℝ} {v v' : ℝ}, HasPV F a c b v → (∀ p, F p = G p) → v = v' → HasPV G a c b v' := by
    intro F G v v' hF hG hv
    rw [← hv, ← funext hG]; exact hF
  have d : ∀ x y : ℝ, HasPV (fun p => f 0 p + f 1 p * x * x + f 2 p * y * y) a c b (w 0 + w 1 * x * x + w 2 * y * y) := fun x y =>
    ext ((h0.add (h1.const_mul (x * x))).add (h2.const_mul (y * y))) (fun p => by ring) (by ring)
  have e : HasPV (fun p => (f 1 p - f 2 p) * sf * cf) a c b ((w 1 - w 2) * sf * cf) :=
    ext ((h1.const_mul (sf * cf)).add (h2.const_mul (-(sf * cf)))) (fun p => by ring) (by ring)
  have g : ∀ (n : ℕ) (x : ℝ), HasPV (f n) a c b (w n) → HasPV (fun p => f n p * x) a c b (w n * x) := fun n x hn =>
    ext (hn.const_mul x) (fun p => by ring) (by ring)
  fin_cases i <;> fin_cases j <;> simp only [GRT.Lamb.mix, Matrix.cons_val, Fin.zero_eta, Fin.mk_one, Fin.reduceFinMk]
  exacts [d _ _, e, g 3 _ h3, e, d _ _, g 3 _ h3, g 4 _ h4, g 4 _ h4, h5]

end GRT.Lamb
