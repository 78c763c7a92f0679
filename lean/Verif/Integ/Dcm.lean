import Verif.Integ.Abel
import Verif.Integ.Pk

/-!
Direct convergence: the asymptotic part of the kernel is subtracted from the integrand at every wavenumber and
its integral over the half line is added at the end
(pygrt/C_extension/src/integral/k_integ.c 65-82, dcm.c 15-88, integ_process.c 85-134).
-/

open Real MeasureTheory Set Filter Topology

namespace GRT.Integ

/-- `GRT_SRC_M_INDEX_IS_FORCE`, include/grt/common/const.h 178. -/
def isForce (i : Fin 6) : Bool := i == 1 || i == 2

/-- `scale` of `grt_int_dcm_revision`, k_integ.c 68-75. -/
noncomputable def revScale (kmax k : ℝ) (i : Fin 6) : ℝ := if isForce i then kmax / k else 1
/-- `zscale` of `grt_int_dcm_revision`, k_integ.c 68-75. -/
noncomputable def revZScale (kmax k : ℝ) (i : Fin 6) : ℝ := if isForce i then 1 else k / kmax

/-- `grt_int_dcm_revision` for `QWV`, k_integ.c 77. -/
noncomputable def revision (kmax k : ℝ) (Q Qm : Chnl) : Chnl := fun i c => Q i c - Qm i c * revScale kmax k i
/-- `grt_int_dcm_revision` for `QWVz`, k_integ.c 78-80. -/
noncomputable def revisionZ (kmax k : ℝ) (Q Qm : Chnl) : Chnl := fun i c => Q i c - Qm i c * revZScale kmax k i

/-- `_correct_Wm`, dcm.c 15-32, for one source of order `m`. -/
noncomputable def correctWm (m : Fin 3) (co near : Fin 3 → ℝ) (keep : Bool) (q : Fin 3 → ℂ) (coef : ℝ) (s : Fin 4 → ℂ) : Fin 4 → ℂ :=
  match m with
  | 0 => ![s 0 + -coef * q 0 * co 1, s 1, s 2 + coef * q 1 * co 0, s 3]
  | 1 => ![s 0 + coef * q 0 * co 0, if keep then s 1 + -1 * coef * (q 0 + q 2) * near 1 else s 1,
      s 2 + coef * q 1 * co 1, s 3 + -coef * q 2 * co 0]
  | 2 => ![s 0 + coef * q 0 * co 1, if keep then s 1 + -2 * coef * (q 0 + q 2) * near 2 else s 1,
      s 2 + coef * q 1 * co 2, s 3 + -coef * q 2 * co 1]

/-- `force_coefs`, dcm.c 48. -/
noncomputable def forceC (c dk : ℝ) : Fin 3 → ℝ := ![c - 1 / 2 * dk, c, c]
/-- `force_coefs_near`, dcm.c 51. -/
noncomputable def forceN (c dk : ℝ) : Fin 3 → ℝ := ![0, c - 1 / 4 * dk, 1 / 2 * c]
/-- `force_coefs_z`, dcm.c 53. -/
noncomputable def forceCz (c2 : ℝ) : Fin 3 → ℝ := ![0, c2, 2 * c2]
/-- `force_coefs_z_near`, dcm.c 54. -/
noncomputable def forceNz (c2 : ℝ) : Fin 3 → ℝ := ![0, c2, c2]
/-- `force_coefs_r`, dcm.c 56. -/
noncomputable def forceCr (c2 : ℝ) : Fin 3 → ℝ := ![-c2, -c2, -c2]
/-- `force_coefs_r_near`, dcm.c 57. -/
noncomputable def forceNr (c2 : ℝ) : Fin 3 → ℝ := ![0, -c2, -(1 / 2) * c2]
/-- `couple_coefs`, dcm.c 61. -/
noncomputable def coupleC (c2 : ℝ) : Fin 3 → ℝ := ![0, c2, 2 * c2]
/-- `couple_coefs_near`, dcm.c 62. -/
noncomputable def coupleN (c2 : ℝ) : Fin 3 → ℝ := ![0, c2, c2]
/-- `couple_coefs_z`, dcm.c 64. -/
noncomputable def coupleCz (c3 : ℝ) : Fin 3 → ℝ := ![-1 * c3, 0, 3 * c3]
/-- `couple_coefs_z_near`, dcm.c 65. -/
noncomputable def coupleNz (c3 : ℝ) : Fin 3 → ℝ := ![0, c3, 2 * c3]
/-- `couple_coefs_r`, dcm.c 67. -/
noncomputable def coupleCr (c3 : ℝ) : Fin 3 → ℝ := ![0, -2 * c3, -4 * c3]
/-- `couple_coefs_r_near`, dcm.c 68. -/
noncomputable def coupleNr (c3 : ℝ) : Fin 3 → ℝ := ![0, -2 * c3, -2 * c3]

/-- The three sums of one distance. -/
structure Sums where
  u : Grid
  z : Grid
  r : Grid

open Classical in
/-- `grt_dcm_correction` for one distance, dcm.c 36-87. -/
noncomputable def dcmCorrection (r dk kcut : ℝ) (keep upar : Bool) (Qm Qzm : Chnl) (s : Sums) : Sums :=
  if zeroDist r then s else
  let c := 1 / r
  let c2 := c * c
  let c3 := c2 * c
  { u := fun i => if isForce i then correctWm (order i) (forceC c dk) (forceN c dk) keep (Qm i) (kcut / dk) (s.u i)
      else correctWm (order i) (coupleC c2) (coupleN c2) keep (Qm i) (1 / dk) (s.u i)
    z := fun i => if upar then
        if isForce i then correctWm (order i) (forceCz c2) (forceNz c2) keep (Qzm i) (1 / dk) (s.z i)
        else correctWm (order i) (coupleCz c3) (coupleNz c3) keep (Qzm i) (1 / kcut / dk) (s.z i)
      else s.z i
    r := fun i => if upar then
        if isForce i then correctWm (order i) (forceCr c2) (forceNr c2) keep (Qm i) (kcut / dk) (s.r i)
        else correctWm (order i) (coupleCr c3) (coupleNr c3) keep (Qm i) (1 / dk) (s.r i)
      else s.r i }

/-! ### Specification -/

/-- Abel integral of a complex function over the half line: the damped integrals converge, and have a limit. -/
def AbelC (f : ℝ → ℂ) (L : ℂ) : Prop :=
  (∀ s : ℝ, 0 < s → IntegrableOn (fun k : ℝ => (exp (-s * k) : ℂ) * f k) (Ioi 0)) ∧
    Tendsto (fun s : ℝ => ∫ k in Ioi (0 : ℝ), (exp (-s * k) : ℂ) * f k) (𝓝[>] 0) (𝓝 L)

/-- Adding `a` to a sum over the wavenumbers `dk, 2dk, …` makes up for the removal of `f` from the integrand: a step times
`a` is the integral of `f` over the half line, less the half step at zero which a sum starting at `dk` does not have. -/
def Restores (dk : ℝ) (f : ℝ → ℂ) (a : ℂ) : Prop :=
  ∃ L z : ℂ, AbelC f L ∧ Tendsto f (𝓝[>] 0) (𝓝 z) ∧ dk * a = L - dk / 2 * z

/-! ### Integrals with their values at zero -/

/-- Abel integral and value at zero of a real function. -/
def RZ (f : ℝ → ℝ) (L z : ℝ) : Prop :=
  (∀ s : ℝ, 0 < s → IntegrableOn (fun k : ℝ => exp (-s * k) * f k) (Ioi 0)) ∧ Abel f L ∧ Tendsto f (𝓝[>] 0) (𝓝 z)

theorem RZ.congr {f g : ℝ → ℝ} {L z : ℝ} (h : RZ f L z) (e : ∀ k, 0 < k → g k = f k) : RZ g L z := by
  refine ⟨fun s hs => (h.1 s hs).congr_fun (fun k hk => by rw [e k hk]) measurableSet_Ioi, ?_, ?_⟩
  · refine h.2.1.congr fun s => setIntegral_congr_fun measurableSet_Ioi fun k hk => by rw [e k hk]
  · refine h.2.2.congr' ?_
    filter_upwards [self_mem_nhdsWithin] with k hk using (e k hk).symm

theorem RZ.mul {f : ℝ → ℝ} {L z : ℝ} (h : RZ f L z) (c : ℝ) : RZ (fun k => c * f k) (c * L) (c * z) := by
  refine ⟨fun s hs => IntegrableOn.congr_fun (Integrable.const_mul (h.1 s hs) c) (fun k _ => by ring) measurableSet_Ioi, ?_, h.2.2.const_mul c⟩
  refine (h.2.1.const_mul c).congr fun s => ?_
  rw [← integral_const_mul]
  congr 1
  funext k
  ring

theorem RZ.add {f g : ℝ → ℝ} {L L' z z' : ℝ} (h : RZ f L z) (h' : RZ g L' z') : RZ (fun k => f k + g k) (L + L') (z + z') := by
  refine ⟨fun s hs => ((h.1 s hs).add (h'.1 s hs)).congr_fun (fun k _ => by simp only [Pi.add_apply]; ring) measurableSet_Ioi,
    ?_, h.2.2.add h'.2.2⟩
  refine (h.2.1.add h'.2.1).congr' ?_
  filter_upwards [self_mem_nhdsWithin] with s hs
  rw [← integral_add (h.1 s hs) (h'.1 s hs)]
  congr 1
  funext k
  ring

theorem RZ.restores {f : ℝ → ℝ} {L z : ℝ} (h : RZ f L z) (q a : ℂ) (dk : ℝ) (g : ℝ → ℂ) (e : ∀ k, 0 < k → g k = q * f k)
    (ha : dk * a = q * (L - dk / 2 * z : ℝ)) : Restores dk g a := by
  have hi : ∀ s : ℝ, 0 < s → IntegrableOn (fun k : ℝ => (((exp (-s * k) * f k : ℝ)) : ℂ)) (Ioi 0) := fun s hs => (h.1 s hs).ofReal
  refine ⟨q * L, q * z, ⟨fun s hs => ?_, ?_⟩, ?_, ?_⟩
  · refine IntegrableOn.congr_fun (Integrable.const_mul (hi s hs) q) (fun k hk => ?_) measurableSet_Ioi
    simp only [e k hk]
    push_cast
    ring
  · have := ((Complex.continuous_ofReal.tendsto _).comp h.2.1).const_mul q
    refine this.congr fun s => ?_
    simp only [Function.comp]
    rw [← integral_complex_ofReal, ← integral_const_mul]
    refine setIntegral_congr_fun measurableSet_Ioi fun k hk => ?_
    simp only [e k hk]
    push_cast
    ring
  · have := ((Complex.continuous_ofReal.tendsto _).comp h.2.2).const_mul q
    refine this.congr' ?_
    filter_upwards [self_mem_nhdsWithin] with k hk using (e k hk).symm
  · rw [ha]
    push_cast
    ring

theorem rz_pow (p n : ℕ) (r : ℝ) (hr : 0 < r) (L : ℝ) (h : Tendsto (lap p n) (𝓝[>] 0) (𝓝 L)) :
    RZ (fun k => k ^ p * J n (k * r)) (L / r ^ (p + 1)) (0 ^ p * J n 0) := by
  have hc : Continuous fun k : ℝ => k ^ p * J n (k * r) := by
    have := J_continuous n
    fun_prop
  refine ⟨fun s hs => ?_, abel_scale p n r hr L h, ?_⟩
  · refine (pow_exp_int p hs).mono' (Continuous.aestronglyMeasurable (by fun_prop)) ?_
    refine (ae_restrict_iff' measurableSet_Ioi).2 (Eventually.of_forall fun k hk => ?_)
    have h1 : (0 : ℝ) ≤ k ^ p * exp (-s * k) := mul_nonneg (pow_nonneg (le_of_lt hk) _) (exp_pos _).le
    rw [← mul_assoc, mul_comm (exp _), norm_mul, norm_of_nonneg h1, norm_eq_abs]
    exact mul_le_of_le_one_right h1 (J_abs_le_one _ _)
  · have := hc.tendsto 0
    simp only [zero_mul] at this
    exact this.mono_left nhdsWithin_le_nhds

theorem rz0 (n : ℕ) (r : ℝ) (hr : 0 < r) : RZ (fun k => J n (k * r)) (1 / r) (if n = 0 then 1 else 0) := by
  have := rz_pow 0 n r hr 1 (lap0_lim n)
  simpa [J_zero] using this

theorem rz1 (n : ℕ) (r : ℝ) (hr : 0 < r) : RZ (fun k => k * J n (k * r)) (n / r ^ 2) 0 := by
  have := rz_pow 1 n r hr n (lap1_lim n)
  simpa using this

theorem rz2 (n : ℕ) (r : ℝ) (hr : 0 < r) : RZ (fun k => k ^ 2 * J n (k * r)) ((n ^ 2 - 1) / r ^ 3) 0 := by
  have := rz_pow 2 n r hr _ (lap2_lim n)
  simpa using this

theorem rzd1 (r : ℝ) (hr : 0 < r) : RZ (fun k => J 1 (k * r) / (k * r)) (1 / r) (1 / 2) := by
  have := ((rz0 0 r hr).add (rz0 2 r hr)).mul (1 / 2)
  rw [show (1 : ℝ) / 2 * (1 / r + 1 / r) = 1 / r by ring] at this
  norm_num at this
  refine RZ.congr (by simpa using this) fun k hk => ?_
  have e := J_rec 1 (k * r)
  have hx : k * r ≠ 0 := by positivity
  norm_num at e ⊢
  generalize k * r = x at *
  field_simp
  linarith

theorem rzd2 (r : ℝ) (hr : 0 < r) : RZ (fun k => J 2 (k * r) / (k * r)) (1 / 2 / r) 0 := by
  have := ((rz0 1 r hr).add (rz0 3 r hr)).mul (1 / 4)
  rw [show (1 : ℝ) / 4 * (1 / r + 1 / r) = 1 / 2 / r by ring] at this
  norm_num at this
  refine RZ.congr (by simpa using this) fun k hk => ?_
  have e := J_rec 2 (k * r)
  have hx : k * r ≠ 0 := by positivity
  norm_num at e ⊢
  generalize k * r = x at *
  field_simp
  linarith

/-- A function whose integral and value at zero make up the coefficient `c`, times `K`. -/
def Tab (dk K : ℝ) (f : ℝ → ℝ) (c : ℝ) : Prop := ∃ L z, RZ f (K * L) (K * z) ∧ c = L - dk / 2 * z

theorem tab_mk {dk K : ℝ} {f g : ℝ → ℝ} {c L z : ℝ} (h : RZ f L z) (hc : c = L - dk / 2 * z) (e : ∀ k, 0 < k → g k = K * f k) :
    Tab dk K g c := ⟨L, z, (h.mul K).congr e, hc⟩

theorem entry_restores (m : Fin 3) (dk K coef : ℝ) (hK : dk * coef = K) (bj jc : ℝ → Fin 3 → ℝ) (sc : ℝ → ℝ) (co near : Fin 3 → ℝ)
    (hb : ∀ m, Tab dk K (fun k => sc k * bj k m) (co m)) (hj : ∀ m, m ≠ 0 → Tab dk K (fun k => sc k * jc k m) (near m))
    (Q : ℝ → Fin 3 → ℂ) (q : Fin 3 → ℂ) (s : Fin 4 → ℂ) (v : Fin 4) :
    Restores dk (fun k => pkEntry (bj k) (jc k) m (Q k) 0 v - pkEntry (bj k) (jc k) m (fun c => Q k c - q c * sc k) 0 v)
      (correctWm m co near true q coef s v - s v) := by
  have one : ∀ (f : ℝ → ℝ) (c : ℝ) (a : ℂ) (x : ℂ) (g : ℝ → ℂ), Tab dk K f c → (∀ k, g k = a * f k) → x = coef * a * c →
      Restores dk g x := by
    intro f c a x g ⟨L, z, h, hc⟩ hg hx
    refine h.restores a x dk g (fun k _ => hg k) ?_
    rw [hx, hc, ← hK]
    push_cast
    ring
  have zero : ∀ (g : ℝ → ℂ) (x : ℂ), (∀ k, g k = 0) → x = 0 → Restores dk g x := by
    intro g x hg hx
    obtain ⟨L, z, h, hc⟩ := hb 0
    refine h.restores 0 x dk g (fun k _ => by rw [hg, zero_mul]) (by rw [hx]; simp)
  match m with
  | 0 =>
    fin_cases v
    · exact one _ _ (-q 0) _ _ (hb 1) (fun k => by simp [pkEntry]; ring) (by simp [correctWm])
    · exact zero _ _ (fun k => by simp [pkEntry]) (by simp [correctWm])
    · exact one _ _ (q 1) _ _ (hb 0) (fun k => by simp [pkEntry]; ring) (by simp [correctWm])
    · exact zero _ _ (fun k => by simp [pkEntry]) (by simp [correctWm])
  | 1 =>
    fin_cases v
    · exact one _ _ (q 0) _ _ (hb 0) (fun k => by simp [pkEntry]; ring) (by simp [correctWm])
    · exact one _ _ (-(q 0 + q 2)) _ _ (hj 1 (by decide)) (fun k => by simp [pkEntry]; ring) (by simp [correctWm]; ring)
    · exact one _ _ (q 1) _ _ (hb 1) (fun k => by simp [pkEntry]; ring) (by simp [correctWm])
    · exact one _ _ (-q 2) _ _ (hb 0) (fun k => by simp [pkEntry]; ring) (by simp [correctWm])
  | 2 =>
    fin_cases v
    · exact one _ _ (q 0) _ _ (hb 1) (fun k => by simp [pkEntry]; ring) (by simp [correctWm])
    · exact one _ _ (-2 * (q 0 + q 2)) _ _ (hj 2 (by decide)) (fun k => by simp [pkEntry]; ring) (by simp [correctWm]; ring_nf; simp)
    · exact one _ _ (q 1) _ _ (hb 2) (fun k => by simp [pkEntry]; ring) (by simp [correctWm])
    · exact one _ _ (-q 2) _ _ (hb 1) (fun k => by simp [pkEntry]; ring) (by simp [correctWm])

theorem bjmk_far {k r : ℝ} (hr : 1 / 10 ^ 8 < r) (m : Fin 3) : bjmk k r false m = bessel (k * r) m * k := by
  have hz : ¬ zeroDist r := not_le.2 hr
  simp [bjmk, hz]
theorem bjmk_far' {k r : ℝ} (hr : 1 / 10 ^ 8 < r) (m : Fin 3) : bjmk k r true m = besselp (k * r) (bessel (k * r)) m * (k * k) := by
  have hz : ¬ zeroDist r := not_le.2 hr
  simp [bjmk, hz]
theorem jmcoef_far {k r : ℝ} (hr : 1 / 10 ^ 8 < r) (m : Fin 3) : jmcoef k r false m = (bessel (k * r) m * (1 / (k * r))) * k := by
  have hz : ¬ zeroDist r := not_le.2 hr
  simp [jmcoef, hz]
theorem jmcoef_far' {k r : ℝ} (hr : 1 / 10 ^ 8 < r) (m : Fin 3) : jmcoef k r true m =
    (1 / (k * r) * (-(1 / (k * r)) * bessel (k * r) m + besselp (k * r) (bessel (k * r)) m)) * (k * k) := by
  have hz : ¬ zeroDist r := not_le.2 hr
  unfold jmcoef
  rw [if_neg hz]
  rfl

/-- `Tab` of the Bessel terms, with scale `K/k` (forces), `1` or `k/K'` (couples). -/
theorem tab_bj (r dk K : ℝ) (hr : 1 / 10 ^ 8 < r) (m : Fin 3) :
    Tab dk K (fun k => K / k * bjmk k r false m) (forceC (1 / r) dk m) ∧
    Tab dk 1 (fun k => 1 * bjmk k r false m) (forceCz (1 / r * (1 / r)) m) ∧
    Tab dk K (fun k => K * k * bjmk k r false m) (coupleCz (1 / r * (1 / r) * (1 / r)) m) := by
  have hr0 : 0 < r := lt_trans (by norm_num) hr
  simp only [bjmk_far hr]
  refine ⟨?_, ?_, ?_⟩
  · fin_cases m
    · exact tab_mk (rz0 0 r hr0) (by simp [forceC]; ring) fun k hk => by simp [bessel]; field_simp
    · exact tab_mk (rz0 1 r hr0) (by simp [forceC]) fun k hk => by simp [bessel]; field_simp
    · exact tab_mk (rz0 2 r hr0) (by simp [forceC]) fun k hk => by simp [bessel]; field_simp
  · fin_cases m
    · exact tab_mk (rz1 0 r hr0) (by simp [forceCz]) fun k hk => by simp [bessel]; ring
    · exact tab_mk (rz1 1 r hr0) (by simp [forceCz]; ring) fun k hk => by simp [bessel]; ring
    · exact tab_mk (rz1 2 r hr0) (by simp [forceCz]; ring) fun k hk => by simp [bessel]; ring
  · fin_cases m
    · exact tab_mk (rz2 0 r hr0) (by simp [coupleCz]; ring) fun k hk => by simp [bessel]; ring
    · exact tab_mk (rz2 1 r hr0) (by simp [coupleCz]) fun k hk => by simp [bessel]; ring
    · exact tab_mk (rz2 2 r hr0) (by simp [coupleCz]; ring) fun k hk => by simp [bessel]; ring

theorem tab_jc (r dk K : ℝ) (hr : 1 / 10 ^ 8 < r) (m : Fin 3) (hm : m ≠ 0) :
    Tab dk K (fun k => K / k * jmcoef k r false m) (forceN (1 / r) dk m) ∧
    Tab dk 1 (fun k => 1 * jmcoef k r false m) (forceNz (1 / r * (1 / r)) m) ∧
    Tab dk K (fun k => K * k * jmcoef k r false m) (coupleNz (1 / r * (1 / r) * (1 / r)) m) := by
  have hr0 : 0 < r := lt_trans (by norm_num) hr
  simp only [jmcoef_far hr]
  refine ⟨?_, ?_, ?_⟩
  · fin_cases m
    · exact absurd rfl hm
    · exact tab_mk (rzd1 r hr0) (by simp [forceN]; ring) fun k hk => by simp [bessel]; field_simp
    · exact tab_mk (rzd2 r hr0) (by simp [forceN]; ring) fun k hk => by simp [bessel]; field_simp
  · fin_cases m
    · exact absurd rfl hm
    · exact tab_mk ((rz0 1 r hr0).mul (1 / r)) (by simp [forceNz]) fun k hk => by simp [bessel]; field_simp
    · exact tab_mk ((rz0 2 r hr0).mul (1 / r)) (by simp [forceNz]) fun k hk => by simp [bessel]; field_simp
  · fin_cases m
    · exact absurd rfl hm
    · exact tab_mk ((rz1 1 r hr0).mul (1 / r)) (by simp [coupleNz]; field_simp) fun k hk => by simp [bessel]; field_simp
    · exact tab_mk ((rz1 2 r hr0).mul (1 / r)) (by simp [coupleNz]; field_simp) fun k hk => by simp [bessel]; field_simp

theorem tab_bjr (r dk K : ℝ) (hr : 1 / 10 ^ 8 < r) (m : Fin 3) :
    Tab dk K (fun k => K / k * bjmk k r true m) (forceCr (1 / r * (1 / r)) m) ∧
    Tab dk 1 (fun k => 1 * bjmk k r true m) (coupleCr (1 / r * (1 / r) * (1 / r)) m) := by
  have hr0 : 0 < r := lt_trans (by norm_num) hr
  simp only [bjmk_far' hr]
  refine ⟨?_, ?_⟩
  · fin_cases m
    · exact tab_mk ((rz1 1 r hr0).mul (-1)) (by simp [forceCr]; ring) fun k hk => by simp [bessel, besselp]; field_simp
    · exact tab_mk ((rz1 0 r hr0).add ((rz0 1 r hr0).mul (-(1 / r)))) (by simp [forceCr]) fun k hk => by
        simp [bessel, besselp]; field_simp; ring
    · exact tab_mk ((rz1 1 r hr0).add ((rz0 2 r hr0).mul (-(2 / r)))) (by simp [forceCr]; field_simp; ring) fun k hk => by
        simp [bessel, besselp]; field_simp; ring
  · fin_cases m
    · exact tab_mk ((rz2 1 r hr0).mul (-1)) (by simp [coupleCr]) fun k hk => by simp [bessel, besselp]; ring
    · exact tab_mk ((rz2 0 r hr0).add ((rz1 1 r hr0).mul (-(1 / r)))) (by simp [coupleCr]; field_simp; ring) fun k hk => by
        simp [bessel, besselp]; field_simp; ring
    · exact tab_mk ((rz2 1 r hr0).add ((rz1 2 r hr0).mul (-(2 / r)))) (by simp [coupleCr]; field_simp; ring) fun k hk => by
        simp [bessel, besselp]; field_simp; ring

theorem tab_jcr (r dk K : ℝ) (hr : 1 / 10 ^ 8 < r) (m : Fin 3) (hm : m ≠ 0) :
    Tab dk K (fun k => K / k * jmcoef k r true m) (forceNr (1 / r * (1 / r)) m) ∧
    Tab dk 1 (fun k => 1 * jmcoef k r true m) (coupleNr (1 / r * (1 / r) * (1 / r)) m) := by
  have hr0 : 0 < r := lt_trans (by norm_num) hr
  simp only [jmcoef_far' hr]
  refine ⟨?_, ?_⟩
  · fin_cases m
    · exact absurd rfl hm
    · exact tab_mk (((rz0 0 r hr0).mul (1 / r)).add ((rzd1 r hr0).mul (-(2 / r)))) (by simp [forceNr]; field_simp; ring) fun k hk => by
        simp [bessel, besselp]; field_simp; ring
    · exact tab_mk (((rz0 1 r hr0).mul (1 / r)).add ((rzd2 r hr0).mul (-(3 / r)))) (by simp [forceNr]; field_simp; ring) fun k hk => by
        simp [bessel, besselp]; field_simp; ring
  · fin_cases m
    · exact absurd rfl hm
    · exact tab_mk (((rz1 0 r hr0).mul (1 / r)).add ((rz0 1 r hr0).mul (-(2 / r ^ 2)))) (by simp [coupleNr]; field_simp) fun k hk => by
        simp [bessel, besselp]; field_simp; ring
    · exact tab_mk (((rz1 1 r hr0).mul (1 / r)).add ((rz0 2 r hr0).mul (-(3 / r ^ 2)))) (by simp [coupleNr]; field_simp; ring) fun k hk => by
        simp [bessel, besselp]; field_simp; ring

theorem intPk_entry (k r : ℝ) (uir : Bool) (Q : Chnl) (i : Fin 6) :
    intPk k r Q uir 0 i = pkEntry (bjmk k r uir) (jmcoef k r uir) (order i) (Q i) 0 := rfl

theorem revision_i {kc k : ℝ} {Q Qm : Chnl} {i : Fin 6} {x : ℝ} (h : revScale kc k i = x) :
    revision kc k Q Qm i = fun c => Q i c - Qm i c * x := by
  funext c
  rw [← h]
  rfl

theorem revisionZ_i {kc k : ℝ} {Q Qm : Chnl} {i : Fin 6} {x : ℝ} (h : revZScale kc k i = x) :
    revisionZ kc k Q Qm i = fun c => Q i c - Qm i c * x := by
  funext c
  rw [← h]
  rfl

/-- C65 (without Filon integration): beyond zero distance, whatever the kernel `Q` and its value `Qm` at the upper limit `kc`,
for every source and every one of the four sums, what is added at the end to the sums of the displacement and of both
derivatives makes up for what was removed from the respective integrand at each wavenumber.
Missing for the full statement: combined with Filon integration this fails, see below. -/
theorem C65_restored_partial (r dk kc : ℝ) (hr : 1 / 10 ^ 8 < r) (hdk : 0 < dk) (hkc : 0 < kc) (Q Qz : ℝ → Chnl) (Qm Qzm : Chnl)
    (s : Sums) (i : Fin 6) (v : Fin 4) :
    Restores dk (fun k => intPk k r (Q k) false 0 i v - intPk k r (revision kc k (Q k) Qm) false 0 i v)
      ((dcmCorrection r dk kc true true Qm Qzm s).u i v - s.u i v) ∧
    Restores dk (fun k => intPk k r (Qz k) false 0 i v - intPk k r (revisionZ kc k (Qz k) Qzm) false 0 i v)
      ((dcmCorrection r dk kc true true Qm Qzm s).z i v - s.z i v) ∧
    Restores dk (fun k => intPk k r (Q k) true 0 i v - intPk k r (revision kc k (Q k) Qm) true 0 i v)
      ((dcmCorrection r dk kc true true Qm Qzm s).r i v - s.r i v) := by
  have hz : ¬ zeroDist r := not_le.2 hr
  have h1 : dk * (kc / dk) = kc := by field_simp
  have h2 : dk * (1 / dk) = 1 := by field_simp
  have h3 : dk * (1 / kc / dk) = 1 / kc := by field_simp
  have c2 : coupleC (1 / r * (1 / r)) = forceCz (1 / r * (1 / r)) := rfl
  have n2 : coupleN (1 / r * (1 / r)) = forceNz (1 / r * (1 / r)) := rfl
  unfold dcmCorrection
  rw [if_neg hz]
  simp only [intPk_entry, if_true]
  by_cases hf : isForce i = true
  · have r1 : ∀ k, revScale kc k i = kc / k := fun k => by simp [revScale, hf]
    have r2 : ∀ k, revZScale kc k i = 1 := fun k => by simp [revZScale, hf]
    simp only [hf, if_true, fun k => revision_i (Q := Q k) (Qm := Qm) (r1 k), fun k => revisionZ_i (Q := Qz k) (Qm := Qzm) (r2 k)]
    refine ⟨?_, ?_, ?_⟩
    · exact entry_restores (order i) dk kc (kc / dk) h1 (fun k => bjmk k r false) (fun k => jmcoef k r false) (fun k => kc / k) _ _
        (fun m => (tab_bj r dk kc hr m).1) (fun m hm => (tab_jc r dk kc hr m hm).1) (fun k => Q k i) (Qm i) (s.u i) v
    · exact entry_restores (order i) dk 1 (1 / dk) h2 (fun k => bjmk k r false) (fun k => jmcoef k r false) (fun _ => 1) _ _
        (fun m => (tab_bj r dk 1 hr m).2.1) (fun m hm => (tab_jc r dk 1 hr m hm).2.1) (fun k => Qz k i) (Qzm i) (s.z i) v
    · exact entry_restores (order i) dk kc (kc / dk) h1 (fun k => bjmk k r true) (fun k => jmcoef k r true) (fun k => kc / k) _ _
        (fun m => (tab_bjr r dk kc hr m).1) (fun m hm => (tab_jcr r dk kc hr m hm).1) (fun k => Q k i) (Qm i) (s.r i) v
  · have r1 : ∀ k, revScale kc k i = 1 := fun k => by simp [revScale, hf]
    have r2 : ∀ k, revZScale kc k i = 1 / kc * k := fun k => by simp [revZScale, hf]; ring
    simp only [hf, if_false, Bool.false_eq_true, fun k => revision_i (Q := Q k) (Qm := Qm) (r1 k),
      fun k => revisionZ_i (Q := Qz k) (Qm := Qzm) (r2 k)]
    refine ⟨?_, ?_, ?_⟩
    · rw [c2, n2]
      exact entry_restores (order i) dk 1 (1 / dk) h2 (fun k => bjmk k r false) (fun k => jmcoef k r false) (fun _ => 1) _ _
        (fun m => (tab_bj r dk 1 hr m).2.1) (fun m hm => (tab_jc r dk 1 hr m hm).2.1) (fun k => Q k i) (Qm i) (s.u i) v
    · exact entry_restores (order i) dk (1 / kc) (1 / kc / dk) h3 (fun k => bjmk k r false) (fun k => jmcoef k r false)
        (fun k => 1 / kc * k) _ _ (fun m => (tab_bj r dk (1 / kc) hr m).2.2) (fun m hm => (tab_jc r dk (1 / kc) hr m hm).2.2)
        (fun k => Qz k i) (Qzm i) (s.z i) v
    · exact entry_restores (order i) dk 1 (1 / dk) h2 (fun k => bjmk k r true) (fun k => jmcoef k r true) (fun _ => 1) _ _
        (fun m => (tab_bjr r dk 1 hr m).2) (fun m hm => (tab_jcr r dk 1 hr m hm).2) (fun k => Q k i) (Qm i) (s.r i) v

/-- A case: a horizontal force at one kilometre, step one tenth. -/
example (s : Sums) : Restores (1 / 10)
    (fun k => intPk k 1 (fun _ _ => 1 + k) false 0 2 1 - intPk k 1 (revision 20 k (fun _ _ => 1 + k) fun _ _ => 21) false 0 2 1)
    ((dcmCorrection 1 (1 / 10) 20 true true (fun _ _ => 21) 0 s).u 2 1 - s.u 2 1) :=
  (C65_restored_partial 1 (1 / 10) 20 (by norm_num) (by norm_num) (by norm_num) (fun k _ _ => 1 + k) 0 (fun _ _ => 21) 0 s 2 1).1

/-- On the axis nothing is added; there the integrator uses the kernel before subtraction (dwm.c 80, 106, 115). -/
theorem C65_axis (r dk kc : ℝ) (hr : r ≤ 1 / 10 ^ 8) (keep upar : Bool) (Qm Qzm : Chnl) (s : Sums) :
    dcmCorrection r dk kc keep upar Qm Qzm s = s := if_pos hr

/-- Without derivatives their sums are left alone. -/
theorem C65_no_derivatives (r dk kc : ℝ) (keep : Bool) (Qm Qzm : Chnl) (s : Sums) :
    (dcmCorrection r dk kc keep false Qm Qzm s).z = s.z ∧ (dcmCorrection r dk kc keep false Qm Qzm s).r = s.r := by
  unfold dcmCorrection
  split <;> constructor <;> rfl

/-- Restoring determines the amount. -/
theorem Restores.unique {dk : ℝ} (hdk : dk ≠ 0) {f : ℝ → ℂ} {a b : ℂ} (ha : Restores dk f a) (hb : Restores dk f b) : a = b := by
  obtain ⟨L, z, h1, h2, h3⟩ := ha
  obtain ⟨L', z', h1', h2', h3'⟩ := hb
  have e1 := tendsto_nhds_unique h1.2 h1'.2
  have e2 := tendsto_nhds_unique h2 h2'
  rw [e1, e2, ← h3'] at h3
  exact mul_left_cancel₀ (Complex.ofReal_ne_zero.2 hdk) h3

/-- Upper limit of the discrete part, integ_process.c 85-91: it is also the limit handed to the subtraction there (line 105) and
to the final addition (line 133), while the Filon parts subtract with `kmax` (lines 112, 120). -/
noncomputable def discreteLimit (filon : Bool) (kcut kmax : ℝ) : ℝ := if filon then min kcut kmax else kmax

/-- The kernel of a couple that equals its limit at every wavenumber is subtracted entirely, whatever the limit passed. -/
theorem revision_const (kl k : ℝ) (Qm : Chnl) (i : Fin 6) (hi : isForce i = false) : revision kl k Qm Qm i = 0 := by
  funext c
  simp [revision, revScale, hi]

/-- C65 violated with Filon integration, near-field sums: take a kernel that does not depend on the wavenumber and a couple of
order one or two. Nothing of it is left to either integrator, and the final addition (`keep_nearfield` false) adds nothing to
the near-field sum, although the integral of the near-field term is not zero. -/
theorem C65_filon_near_violated (r dk kcut kmax : ℝ) (hr : 1 / 10 ^ 8 < r) (hdk : 0 < dk) (hkc : 0 < kcut) (hkm : 0 < kmax)
    (Qm Qzm : Chnl) (i : Fin 6) (hi : i = 4 ∨ i = 5) (hq : Qm i 0 + Qm i 2 ≠ 0) (s : Sums) :
    (∀ kl k, revision kl k Qm Qm i = 0) ∧
    (dcmCorrection r dk (discreteLimit true kcut kmax) (!true) true Qm Qzm s).u i 1 = s.u i 1 ∧
    ¬ Restores dk (fun k => intPk k r Qm false 0 i 1) 0 := by
  have hf : isForce i = false := by rcases hi with h | h <;> subst h <;> rfl
  have hz : ¬ zeroDist r := not_le.2 hr
  have hr0 : 0 < r := lt_trans (by norm_num) hr
  refine ⟨fun kl k => revision_const kl k Qm i hf, ?_, fun hc => ?_⟩
  · unfold dcmCorrection
    rw [if_neg hz]
    simp only [hf, Bool.false_eq_true, if_false]
    rcases hi with h | h <;> subst h <;> rfl
  · have h := (C65_restored_partial r dk kcut hr hdk hkc (fun _ => Qm) 0 Qm Qzm s i 1).1
    have e : ∀ k : ℝ, intPk k r (revision kcut k Qm Qm) false 0 i 1 = 0 := by
      intro k
      rw [intPk_entry, revision_const kcut k Qm i hf]
      rcases hi with h | h <;> subst h <;> simp [pkEntry, order]
    simp only [e, sub_zero] at h
    have := Restores.unique hdk.ne' hc h
    unfold dcmCorrection at this
    rw [if_neg hz] at this
    simp only [hf, Bool.false_eq_true, if_false] at this
    have hc2 : ((1 / r * (1 / r) : ℝ) : ℂ) ≠ 0 := Complex.ofReal_ne_zero.2 (by positivity)
    have hd : ((1 / dk : ℝ) : ℂ) ≠ 0 := Complex.ofReal_ne_zero.2 (by positivity)
    rcases hi with h | h <;> subst h
    · have e2 : (0 : ℂ) = -1 * ((1 / dk : ℝ) : ℂ) * (Qm 4 0 + Qm 4 2) * ((1 / r * (1 / r) : ℝ) : ℂ) := by
        refine this.trans ?_
        show s.u 4 1 + -1 * ((1 / dk : ℝ) : ℂ) * (Qm 4 0 + Qm 4 2) * ((1 / r * (1 / r) : ℝ) : ℂ) - s.u 4 1 = _
        ring
      exact mul_ne_zero (mul_ne_zero (mul_ne_zero (by norm_num) hd) hq) hc2 e2.symm
    · have e2 : (0 : ℂ) = -2 * ((1 / dk : ℝ) : ℂ) * (Qm 5 0 + Qm 5 2) * ((1 / r * (1 / r) : ℝ) : ℂ) := by
        refine this.trans ?_
        show s.u 5 1 + -2 * ((1 / dk : ℝ) : ℂ) * (Qm 5 0 + Qm 5 2) * ((1 / r * (1 / r) : ℝ) : ℂ) - s.u 5 1 = _
        ring
      exact mul_ne_zero (mul_ne_zero (mul_ne_zero (by norm_num) hd) hq) hc2 e2.symm

example : ¬ Restores (1 / 10) (fun k => intPk k 50 (fun _ _ => 1) false 0 4 1) 0 :=
  (C65_filon_near_violated 50 (1 / 10) 2 20 (by norm_num) (by norm_num) (by norm_num) (by norm_num) (fun _ _ => 1) 0 4 (Or.inl rfl)
    (by norm_num) ⟨0, 0, 0⟩).2.2

/-- C65 violated with Filon integration, forces: take a vertical force whose kernel falls off as `kmax/k` exactly, so that the
Filon part is left with nothing. The discrete part has subtracted `kcut/k` instead, and the discrete sum with the final addition
does not give the integral, whenever the discrete part ends before the first quarter wave or so. -/
theorem C65_filon_force_violated (r dk kcut kmax : ℝ) (n : ℕ) (hr : 1 / 10 ^ 8 < r) (hdk : 0 < dk) (hkc : 0 < kcut) (hkm : kcut < kmax)
    (hn : n * dk < 1 / r - dk / 2) (Qm : Chnl) (hq : Qm 1 1 ≠ 0) :
    (∀ k, revision kmax k (fun i c => Qm i c * (kmax / k : ℝ)) Qm 1 = 0) ∧
    ¬ Restores dk (fun k => intPk k r (fun i c => Qm i c * (kmax / k : ℝ)) false 0 1 2)
      (∑ j ∈ Finset.range n, intPk ((j + 1) * dk) r
          (revision (discreteLimit true kcut kmax) ((j + 1) * dk) (fun i c => Qm i c * (kmax / ((j + 1) * dk) : ℝ)) Qm) false 0 1 2 +
        (dcmCorrection r dk (discreteLimit true kcut kmax) (!true) true Qm 0 ⟨0, 0, 0⟩).u 1 2) := by
  have hz : ¬ zeroDist r := not_le.2 hr
  have hr0 : 0 < r := lt_trans (by norm_num) hr
  have hl : discreteLimit true kcut kmax = kcut := by simp [discreteLimit, hkm.le]
  have hf : isForce 1 = true := rfl
  have e0 : ∀ k, revision kmax k (fun i c => Qm i c * (kmax / k : ℝ)) Qm 1 = 0 := fun k => by
    funext c
    simp [revision, revScale, hf]
  refine ⟨e0, fun hc => ?_⟩
  have h := (C65_restored_partial r dk kmax hr hdk (hkc.trans hkm) (fun k i c => Qm i c * (kmax / k : ℝ)) 0 Qm 0 ⟨0, 0, 0⟩ 1 2).1
  have e : ∀ k : ℝ, intPk k r (revision kmax k (fun i c => Qm i c * (kmax / k : ℝ)) Qm) false 0 1 2 = 0 := by
    intro k
    rw [intPk_entry, e0 k]
    simp [pkEntry, order]
  simp only [e, sub_zero] at h
  have hu := Restores.unique hdk.ne' hc h
  rw [hl] at hu
  have c1 : ∀ (kc : ℝ) (keep : Bool), (dcmCorrection r dk kc keep true Qm 0 ⟨0, 0, 0⟩).u 1 2 =
      ((kc / dk : ℝ) : ℂ) * Qm 1 1 * ((1 / r - 1 / 2 * dk : ℝ) : ℂ) := by
    intro kc keep
    unfold dcmCorrection
    rw [if_neg hz]
    show (0 : ℂ) + _ = _
    rw [zero_add]
    rfl
  have s1 : ∀ j : ℕ, intPk ((j + 1) * dk) r
      (revision kcut ((j + 1) * dk) (fun i c => Qm i c * (kmax / ((j + 1) * dk) : ℝ)) Qm) false 0 1 2 =
      Qm 1 1 * ((kmax - kcut : ℝ) : ℂ) * ((J 0 ((j + 1) * dk * r) : ℝ) : ℂ) := by
    intro j
    have hk : ((j : ℝ) + 1) * dk ≠ 0 := by positivity
    rw [intPk_entry]
    show (Qm 1 1 * ((kmax / ((j + 1) * dk) : ℝ) : ℂ) - Qm 1 1 * ((revScale kcut ((j + 1) * dk) 1 : ℝ) : ℂ)) * ((bjmk ((j + 1) * dk) r false 0 : ℝ) : ℂ) = _
    rw [bjmk_far hr, show revScale kcut (((j : ℝ) + 1) * dk) 1 = kcut / ((j + 1) * dk) from rfl]
    have : bessel (((j : ℝ) + 1) * dk * r) 0 = J 0 ((j + 1) * dk * r) := rfl
    rw [this]
    have hk' : ((((j : ℝ) + 1) * dk : ℝ) : ℂ) ≠ 0 := Complex.ofReal_ne_zero.2 hk
    generalize ((j : ℝ) + 1) * dk = k at *
    push_cast
    field_simp
  simp only [s1] at hu
  rw [c1, c1, ← Finset.mul_sum] at hu
  have hS : (((∑ j ∈ Finset.range n, J 0 ((j + 1) * dk * r)) * dk : ℝ) : ℂ) = ((1 / r - 1 / 2 * dk : ℝ) : ℂ) := by
    have hne : Qm 1 1 * ((kmax - kcut : ℝ) : ℂ) ≠ 0 := mul_ne_zero hq (Complex.ofReal_ne_zero.2 (by linarith))
    apply mul_left_cancel₀ hne
    have hd : (dk : ℂ) ≠ 0 := Complex.ofReal_ne_zero.2 hdk.ne'
    rw [Complex.ofReal_mul, Complex.ofReal_sum]
    simp only [Complex.ofReal_div, Pi.zero_apply, sub_zero] at hu
    generalize ∑ j ∈ Finset.range n, ((J 0 ((j + 1) * dk * r) : ℝ) : ℂ) = S at *
    generalize ((1 / r - 1 / 2 * dk : ℝ) : ℂ) = X at *
    have hu2 := congrArg (fun x => (dk : ℂ) * x) hu
    rw [show (dk : ℂ) * (kmax / dk * Qm 1 1 * X) = kmax * Qm 1 1 * X by field_simp,
      show (dk : ℂ) * (Qm 1 1 * ((kmax - kcut : ℝ) : ℂ) * S + kcut / dk * Qm 1 1 * X) =
        Qm 1 1 * ((kmax - kcut : ℝ) : ℂ) * S * dk + kcut * Qm 1 1 * X by field_simp] at hu2
    push_cast at hu2 ⊢
    linear_combination hu2
  rw [Complex.ofReal_inj] at hS
  have hb : ∑ j ∈ Finset.range n, J 0 ((j + 1) * dk * r) ≤ n := by
    calc ∑ j ∈ Finset.range n, J 0 ((j + 1) * dk * r) ≤ ∑ j ∈ Finset.range n, (1 : ℝ) :=
        Finset.sum_le_sum fun j _ => (le_abs_self _).trans (J_abs_le_one _ _)
      _ = n := by simp
  nlinarith

example := C65_filon_force_violated 1 (1 / 100) (1 / 2) 20 51 (by norm_num) (by norm_num) (by norm_num) (by norm_num) (by norm_num)
    (fun _ _ => 1) (by norm_num)

end GRT.Integ
