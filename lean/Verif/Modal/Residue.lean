import Verif.Modal.Variation

/-! The residue of the SH response of a layered half-space at a Love mode, from the equation of motion alone. -/

set_option linter.unusedSectionVars false

namespace GRT.Modal

open GRT.RT GRT.Layer GRT.Kernel Filter Complex MeasureTheory Topology

/-- The SH motion of layers `0 .. n-1` (the last one the half-space) excited at depth `h` below the top of layer `js`: `up i` is the
field of layer `i` above the source, `low i` the one below it (they differ only in layer `js`).  Across the source displacement and
traction jump by `J`. -/
structure ForcedSH (n : ℕ) (liq : ℕ → Bool) (m : ℕ → Medium ℂ) (thk : ℕ → ℝ) (k om : ℂ) (js : ℕ) (h : ℝ) (J : SHS ℂ)
    (up low : ℕ → ℝ → SHS ℂ) : Prop where
  same : ∀ i, i ≠ js → low i = up i
  motion : ∀ y, y = up ∨ y = low → ∀ i, i < n → liq i = false → ∀ z,
    HasDerivAt (fun z => (y i z).v) ((y i z).t / (m i).mu) z ∧
    HasDerivAt (fun z => (y i z).t) ((m i).mu * k^2 * (y i z).v - (m i).rho * om^2 * (y i z).v) z
  liquid : ∀ y, y = up ∨ y = low → ∀ i, i < n → liq i = true → ∀ z, (y i z).v = 0 ∧ (y i z).t = 0
  free : (up 0 0).t = 0
  contact : ∀ i, i + 1 < n → (low i (thk i)).t = (up (i+1) 0).t ∧
    (liq i = false → liq (i+1) = false → (low i (thk i)).v = (up (i+1) 0).v)
  jump : (low js h).v - (up js h).v = J.v ∧ (low js h).t - (up js h).t = J.t
  decay : Tendsto (fun z : ℝ => (low (n-1) z).v) atTop (nhds 0)

/-- A sum of an upgoing and a downgoing wave with vertical wavenumber `q`. -/
noncomputable def wav (mu q A B : ℂ) (z : ℝ) : SHS ℂ :=
  ⟨A * exp (q * z) + B * exp (-(q * z)), mu * q * (A * exp (q * z) - B * exp (-(q * z)))⟩

theorem wav_general {mu q : ℂ} (hm : mu ≠ 0) (hq0 : q ≠ 0) {y : ℝ → SHS ℂ}
    (hy : ∀ z, HasDerivAt (fun z => (y z).v) ((y z).t / mu) z ∧ HasDerivAt (fun z => (y z).t) (mu * q^2 * (y z).v) z) :
    ∀ z, y z = wav mu q (((y 0).v + (y 0).t / (mu * q)) / 2) (((y 0).v - (y 0).t / (mu * q)) / 2) z := by
  have hE : ∀ (a : ℂ) (z : ℝ), HasDerivAt (fun z : ℝ => exp (a * z)) (a * exp (a * z)) z := by
    intro a z
    have := hasDerivAt_four a 0 1 0 0 0 z
    simpa using this
  have P : ∀ z, (((y z).v + (y z).t / (mu * q)) * exp (-q * z)) = (y 0).v + (y 0).t / (mu * q) := by
    intro z
    have hd : ∀ z : ℝ, HasDerivAt (fun z : ℝ => ((y z).v + (y z).t / (mu * q)) * exp (-q * z)) 0 z := by
      intro z
      have := (((hy z).1.add ((hy z).2.div_const (mu * q))).mul (hE (-q) z))
      refine this.congr_deriv ?_
      simp only [Pi.add_apply]
      field_simp
      ring
    have := is_const_of_deriv_eq_zero (f := fun z : ℝ => ((y z).v + (y z).t / (mu * q)) * exp (-q * z))
      (fun z => (hd z).differentiableAt) (fun z => (hd z).deriv) z 0
    simpa using this
  have Q : ∀ z, (((y z).v - (y z).t / (mu * q)) * exp (q * z)) = (y 0).v - (y 0).t / (mu * q) := by
    intro z
    have hd : ∀ z : ℝ, HasDerivAt (fun z : ℝ => ((y z).v - (y z).t / (mu * q)) * exp (q * z)) 0 z := by
      intro z
      have := (((hy z).1.sub ((hy z).2.div_const (mu * q))).mul (hE q z))
      refine this.congr_deriv ?_
      simp only [Pi.sub_apply]
      field_simp
      ring
    have := is_const_of_deriv_eq_zero (f := fun z : ℝ => ((y z).v - (y z).t / (mu * q)) * exp (q * z))
      (fun z => (hd z).differentiableAt) (fun z => (hd z).deriv) z 0
    simpa using this
  intro z
  have p := P z
  have r := Q z
  have ee : exp (-q * z) * exp (q * z) = 1 := by rw [← Complex.exp_add]; simp
  have p' : (y z).v + (y z).t / (mu * q) = ((y 0).v + (y 0).t / (mu * q)) * exp (q * z) := by
    rw [← p]; linear_combination -((y z).v + (y z).t / (mu * q)) * ee
  have r' : (y z).v - (y z).t / (mu * q) = ((y 0).v - (y 0).t / (mu * q)) * exp (-q * z) := by
    rw [← r]; linear_combination -((y z).v - (y z).t / (mu * q)) * ee
  have en : exp (-q * z) = exp (-(q * z)) := by rw [neg_mul]
  rw [en] at r'
  set A := (y 0).v + (y 0).t / (mu * q)
  set B := (y 0).v - (y 0).t / (mu * q)
  have hv : (y z).v = (wav mu q (A / 2) (B / 2) z).v := by
    simp only [wav]
    linear_combination 1/2 * p' + 1/2 * r'
  have ht : (y z).t = (wav mu q (A / 2) (B / 2) z).t := by
    have h2 : 2 * ((y z).t / (mu * q)) = A * exp (q * z) - B * exp (-(q * z)) := by
      linear_combination p' - r'
    have h3 : (y z).t = mu * q * ((y z).t / (mu * q)) := by field_simp
    rw [h3]
    simp only [wav]
    linear_combination mu * q / 2 * h2
  cases hz : y z
  cases hw : wav mu q (A / 2) (B / 2) z
  rw [hz, hw] at hv ht
  simp only at hv ht
  rw [hv, ht]

/-- Vertical wavenumbers can be chosen continuously. -/
theorem root_near {ι : Type*} {l : Filter ι} {s : ι → ℂ} {q0 : ℂ} (h0 : q0 ≠ 0) (hs : Tendsto s l (𝓝 (q0 ^ 2))) :
    ∃ q : ι → ℂ, (∀ i, q i ^ 2 = s i) ∧ Tendsto q l (𝓝 q0) := by
  refine ⟨fun i => q0 * (s i / q0 ^ 2) ^ ((1:ℂ)/2), fun i => ?_, ?_⟩
  · rw [mul_pow, sq ((s i / q0^2) ^ ((1:ℂ)/2)), half_sq]
    field_simp
  · have h1 : Tendsto (fun i => s i / q0 ^ 2) l (𝓝 1) := by
      have := hs.div_const (q0 ^ 2)
      rwa [div_self (pow_ne_zero 2 h0)] at this
    have h2 : ContinuousAt (fun x : ℂ => x ^ ((1:ℂ)/2)) 1 := by
      refine ContinuousAt.cpow continuousAt_id continuousAt_const ?_
      simp
    have h3 := (h2.tendsto.comp h1).const_mul q0
    simpa [Function.comp_def] using h3

theorem wav_deriv {mu q A B : ℂ} (hm : mu ≠ 0) (z : ℝ) :
    HasDerivAt (fun z => (wav mu q A B z).v) ((wav mu q A B z).t / mu) z ∧
    HasDerivAt (fun z => (wav mu q A B z).t) (mu * q^2 * (wav mu q A B z).v) z := by
  have hE : ∀ (a : ℂ) (z : ℝ), HasDerivAt (fun z : ℝ => exp (a * z)) (a * exp (a * z)) z := by
    intro a z
    have := hasDerivAt_four a 0 1 0 0 0 z
    simpa using this
  have h1 := hE q z
  have h2 := hE (-q) z
  simp only [neg_mul] at h2
  constructor
  · refine ((h1.const_mul A).add (h2.const_mul B)).congr_deriv ?_
    simp only [wav]
    field_simp
    ring
  · refine (((h1.const_mul A).sub (h2.const_mul B)).const_mul (mu * q)).congr_deriv ?_
    simp only [wav]
    ring

/-- Two sums of waves that agree at one depth agree. -/
theorem wav_unique {mu q A B A' B' : ℂ} (hm : mu ≠ 0) (hq : q ≠ 0) {h : ℝ} (e : wav mu q A B h = wav mu q A' B' h) : A = A' ∧ B = B' := by
  simp only [wav, SHS.mk.injEq] at e
  obtain ⟨e1, e2⟩ := e
  have e3 := mul_left_cancel₀ (mul_ne_zero hm hq) e2
  have a : A * exp (q * h) = A' * exp (q * h) := by linear_combination 1/2 * e1 + 1/2 * e3
  have b : B * exp (-(q * h)) = B' * exp (-(q * h)) := by linear_combination 1/2 * e1 - 1/2 * e3
  exact ⟨mul_right_cancel₀ (exp_ne_zero _) a, mul_right_cancel₀ (exp_ne_zero _) b⟩

theorem wav_noup {mu q A B : ℂ} (h : 0 < q.re) (ht : Tendsto (fun z : ℝ => (wav mu q A B z).v) atTop (nhds 0)) : A = 0 := by
  have e := tendsto_exp_neg h
  have a := ht.mul e
  have b : Tendsto (fun z : ℝ => A + B * (exp (-(q * z)) * exp (-(q * z)))) atTop
      (nhds (A + B * (0 * 0))) := tendsto_const_nhds.add ((e.mul e).const_mul _)
  have c : (fun z : ℝ => (wav mu q A B z).v * exp (-(q * z))) = fun z : ℝ => A + B * (exp (-(q * z)) * exp (-(q * z))) := by
    funext z
    have ee : exp (q * z) * exp (-(q * z)) = 1 := by rw [← Complex.exp_add]; simp
    simp only [wav]
    linear_combination A * ee
  rw [c] at a
  have := tendsto_nhds_unique a b
  simpa using this.symm

/-- Overlap of the field excited at depth `c` of layer `i` with `g`. -/
noncomputable def cutInt (n : ℕ) (thk : ℕ → ℝ) (c : ℝ) (f g : ℝ → ℂ) (i : ℕ) : ℂ :=
  (∫ z in (0:ℝ)..c, f z) + if i + 1 < n then ∫ z in c..thk i, g z else ∫ z in Set.Ioi c, g z

/-- Reciprocity between a free wave and a forced motion of the same medium. -/
theorem weakJ {n : ℕ} {liq : ℕ → Bool} {m : ℕ → Medium ℂ} {thk : ℕ → ℝ} {k k0 om : ℂ} {js : ℕ} {h : ℝ} {J : SHS ℂ}
    {up low y0 : ℕ → ℝ → SHS ℂ} (hn : 1 ≤ n) (h0 : LoveField n liq m thk k0 om y0) (d0 : Decays n y0)
    (hf : ForcedSH n liq m thk k om js h J up low) (dl : Decays n low) (hm : ∀ i, i < n → liq i = false → (m i).mu ≠ 0)
    (hjs : js < n) (hh : 0 ≤ h) :
    ∑ i ∈ Finset.range n, (m i).mu * (k^2 - k0^2) * cutInt n thk (if i = js then h else 0) (fun z => (up i z).v * (y0 i z).v)
      (fun z => (low i z).v * (y0 i z).v) i = J.v * (y0 js h).t - J.t * (y0 js h).v := by
  set W : (ℕ → ℝ → SHS ℂ) → ℕ → ℝ → ℂ := fun y i z => (y i z).t * (y0 i z).v - (y0 i z).t * (y i z).v with hW
  set c : ℕ → ℝ := fun i => if i = js then h else 0 with hc
  have c0 : ∀ i, 0 ≤ c i := by intro i; simp only [hc]; split <;> simp [hh]
  have cont : ∀ y, y = up ∨ y = low → ∀ i, i < n → Continuous (fun z => (y i z).v) ∧ Continuous (fun z => (y i z).t) := by
    intro y hy i hi
    cases e : liq i
    · exact ⟨continuous_iff_continuousAt.2 fun z => (hf.motion y hy i hi e z).1.continuousAt,
        continuous_iff_continuousAt.2 fun z => (hf.motion y hy i hi e z).2.continuousAt⟩
    · have := hf.liquid y hy i hi e
      exact ⟨by simpa [fun z => (this z).1] using continuous_const, by simpa [fun z => (this z).2] using continuous_const⟩
  have lay : ∀ y, y = up ∨ y = low → ∀ i, i < n → liq i = false → ∀ z,
      HasDerivAt (W y i) ((m i).mu * (k^2 - k0^2) * ((y i z).v * (y0 i z).v)) z := by
    intro y hy i hi e z
    have a := hf.motion y hy i hi e z
    have b := h0.motion i hi e z
    refine ((a.2.mul b.1).sub (b.2.mul a.1)).congr_deriv ?_
    ring
  have fin : ∀ y, y = up ∨ y = low → ∀ i, i < n → ∀ a b : ℝ,
      (m i).mu * (k^2 - k0^2) * ∫ z in a..b, (y i z).v * (y0 i z).v = W y i b - W y i a := by
    intro y hy i hi a b
    cases e : liq i
    · rw [← intervalIntegral.integral_const_mul]
      refine intervalIntegral.integral_eq_sub_of_hasDerivAt (fun z _ => lay y hy i hi e z) ?_
      have C : Continuous fun z => (m i).mu * (k^2 - k0^2) * ((y i z).v * (y0 i z).v) :=
        continuous_const.mul ((cont y hy i hi).1.mul (h0.cont hi).1)
      exact C.intervalIntegrable _ _
    · have z0 := h0.liquid i hi e
      simp [hW, fun z => (z0 z).1, fun z => (z0 z).2]
  have half : (m (n-1)).mu * (k^2 - k0^2) * ∫ z in Set.Ioi (c (n-1)), (low (n-1) z).v * (y0 (n-1) z).v = 0 - W low (n-1) (c (n-1)) := by
    obtain ⟨q1, A1, B1, r1, f1⟩ := dl
    obtain ⟨q2, A2, B2, r2, f2⟩ := d0
    cases e : liq (n-1)
    · have I1 : IntegrableOn (fun z => (low (n-1) z).v * (y0 (n-1) z).v) (Set.Ioi (c (n-1))) := by
        simp only [f1, f2]; exact (exp_half r1 r2 A1 A2).1.mono_set (Set.Ioi_subset_Ioi (c0 _))
      rw [← integral_const_mul]
      refine integral_Ioi_of_hasDerivAt_of_tendsto (lay low (Or.inr rfl) (n-1) (by omega) e _).continuousAt.continuousWithinAt
        (fun z _ => lay low (Or.inr rfl) (n-1) (by omega) e z) (I1.const_mul _) ?_
      simp only [hW, f1, f2]
      have := (((tendsto_exp_neg r1).const_mul B1).mul ((tendsto_exp_neg r2).const_mul A2)).sub
        (((tendsto_exp_neg r2).const_mul B2).mul ((tendsto_exp_neg r1).const_mul A1))
      simpa using this
    · have z0 := h0.liquid (n-1) (by omega) e
      simp [hW, fun z => (z0 z).1, fun z => (z0 z).2]
  have joint : ∀ i, i + 1 < n → W low i (thk i) = W up (i+1) 0 := by
    intro i hi
    obtain ⟨c1, c2⟩ := hf.contact i hi
    obtain ⟨c3, c4⟩ := h0.contact i hi
    simp only [hW]
    cases e1 : liq i
    · cases e2 : liq (i+1)
      · rw [c1, c2 e1 e2, c3, c4 e1 e2]
      · rw [c1, c3, (hf.liquid up (Or.inl rfl) (i+1) hi e2 0).2, (h0.liquid (i+1) hi e2 0).2]; ring
    · rw [← c1, ← c3, (hf.liquid low (Or.inr rfl) i (by omega) e1 (thk i)).2, (h0.liquid i (by omega) e1 (thk i)).2]; ring
  have cut : ∀ i, i < n → W up i (c i) - W low i (c i) = if i = js then J.v * (y0 js h).t - J.t * (y0 js h).v else 0 := by
    intro i hi
    split
    · rename_i e
      subst e
      simp only [hW, hc, if_true]
      linear_combination (y0 i h).t * hf.jump.1 - (y0 i h).v * hf.jump.2
    · rename_i e
      simp only [hW]
      rw [hf.same i e]
      ring
  have term : ∀ i, i < n → (m i).mu * (k^2 - k0^2) * cutInt n thk (c i) (fun z => (up i z).v * (y0 i z).v)
      (fun z => (low i z).v * (y0 i z).v) i = (if i = js then J.v * (y0 js h).t - J.t * (y0 js h).v else 0) +
        ((if i + 1 < n then W up (i+1) 0 else 0) - W up i 0) := by
    intro i hi
    rw [cutInt, mul_add, fin up (Or.inl rfl) i hi, ← cut i hi]
    split
    · rename_i q
      rw [fin low (Or.inr rfl) i hi, joint i q]
      ring
    · rename_i q
      have : i = n - 1 := by omega
      subst this
      rw [half]
      ring
  rw [Finset.sum_congr rfl fun i hi => term i (Finset.mem_range.1 hi), Finset.sum_add_distrib, Finset.sum_ite_eq' (Finset.range n) js,
    if_pos (Finset.mem_range.2 hjs)]
  have tel : ∀ r, r < n → ∑ i ∈ Finset.range (r+1), ((if i + 1 < n then W up (i+1) 0 else 0) - W up i 0) =
      (if r + 1 < n then W up (r+1) 0 else 0) - W up 0 0 := by
    intro r
    induction r with
    | zero => intro _; simp
    | succ r ih =>
      intro hr
      rw [Finset.sum_range_succ, ih (by omega), if_pos hr]
      ring
  have t := tel (n-1) (by omega)
  rw [show n - 1 + 1 = n by omega, if_neg (by omega)] at t
  rw [t]
  simp only [hW]
  rw [hf.free, h0.free]
  ring

theorem lim_int {ι : Type*} {l : Filter ι} {a : ℝ → ℂ} (ha : Continuous a) {s A B q : ι → ℂ} {A0 B0 q0 mu : ℂ}
    (hA : Tendsto (fun x => s x * A x) l (𝓝 A0)) (hB : Tendsto (fun x => s x * B x) l (𝓝 B0)) (hq : Tendsto q l (𝓝 q0)) (T1 T2 : ℝ) :
    Tendsto (fun x => s x * ∫ z in T1..T2, (wav mu (q x) (A x) (B x) z).v * a z) l (𝓝 (∫ z in T1..T2, (wav mu q0 A0 B0 z).v * a z)) := by
  set F : ℂ → ℂ := fun w => ∫ z in T1..T2, a z * exp (w * z) with hF
  have cF : Continuous F := by
    refine intervalIntegral.continuous_parametric_intervalIntegral_of_continuous' ?_ T1 T2
    fun_prop
  have e : ∀ q A B : ℂ, (∫ z in T1..T2, (wav mu q A B z).v * a z) = A * F q + B * F (-q) := by
    intro q A B
    simp only [hF, wav]
    rw [← intervalIntegral.integral_const_mul, ← intervalIntegral.integral_const_mul, ← intervalIntegral.integral_add]
    · congr 1; funext z
      rw [show -q * (z:ℂ) = -(q * z) by ring]; ring
    · exact Continuous.intervalIntegrable (by fun_prop) _ _
    · exact Continuous.intervalIntegrable (by fun_prop) _ _
  simp only [e]
  have h1 := hA.mul ((cF.tendsto q0).comp hq)
  have h2 := hB.mul ((cF.tendsto (-q0)).comp hq.neg)
  refine (h1.add h2).congr fun x => ?_
  simp only [Function.comp_apply]
  ring

theorem exp_tail {q1 q2 : ℂ} (h1 : 0 < q1.re) (h2 : 0 < q2.re) (A B : ℂ) {c : ℝ} :
    ∫ z in Set.Ioi c, A * exp (-(q1 * z)) * (B * exp (-(q2 * z))) = A * B * exp (-(q1 + q2) * c) / (q1 + q2) := by
  have hr : (-(q1 + q2)).re < 0 := by simp; linarith
  have e : (fun z : ℝ => A * exp (-(q1 * z)) * (B * exp (-(q2 * z)))) = fun z : ℝ => A * B * exp (-(q1 + q2) * z) := by
    funext z
    rw [show -(q1 + q2) * (z:ℂ) = -(q1 * z) + -(q2 * z) by ring, Complex.exp_add]
    ring
  rw [e, integral_const_mul, integral_exp_mul_complex_Ioi hr]
  rw [neg_div_neg_eq, mul_div_assoc]

/-- The residue of the response at a free wave.  `kk` are wavenumbers tending to the wavenumber `k0` of the free wave `y0`; `up`, `low`
the motions excited at these wavenumbers; displacement and traction at the tops of the layers have at most a simple pole.  Then the
residue is the free wave times `(J.v t0 - J.t v0) / (2 k0 ∫ μ v0²)`. -/
theorem residue_SH {n : ℕ} {liq : ℕ → Bool} {m : ℕ → Medium ℂ} {thk : ℕ → ℝ} {k0 om : ℂ} {js : ℕ} {h : ℝ} {y0 : ℕ → ℝ → SHS ℂ}
    {q0 : ℕ → ℂ} (hn : 1 ≤ n) (h0 : LoveField n liq m thk k0 om y0) (d0 : Decays n y0)
    (huniq : ∀ y, LoveField n liq m thk k0 om y → ∃ a : ℂ, ∀ i, i < n → ∀ z, y i z = ⟨a * (y0 i z).v, a * (y0 i z).t⟩)
    (hm : ∀ i, i < n → liq i = false → (m i).mu ≠ 0) (hq0 : ∀ i, i < n → liq i = false → q0 i ≠ 0)
    (hqq : ∀ i, i < n → liq i = false → (m i).mu * q0 i ^ 2 = (m i).mu * k0 ^ 2 - (m i).rho * om ^ 2)
    (htrap : liq (n-1) = false → 0 < (q0 (n-1)).re) (hjs : js < n) (hsol : liq js = false) (hh : 0 ≤ h)
    {ι : Type*} {l : Filter ι} [l.NeBot] {kk : ι → ℂ} (hk : Tendsto kk l (𝓝 k0)) {J : ι → SHS ℂ} {Jv Jt : ℂ}
    (hJv : Tendsto (fun x => (J x).v) l (𝓝 Jv)) (hJt : Tendsto (fun x => (J x).t) l (𝓝 Jt))
    {up low : ι → ℕ → ℝ → SHS ℂ} (hf : ∀ x, ForcedSH n liq m thk (kk x) om js h (J x) (up x) (low x))
    (pole : ∀ y, y = up ∨ y = low → ∀ i, i < n → ∃ a b, Tendsto (fun x => (kk x - k0) * (y x i 0).v) l (𝓝 a) ∧
      Tendsto (fun x => (kk x - k0) * (y x i 0).t) l (𝓝 b))
    (hN : 2 * k0 * ∑ i ∈ Finset.range n, (m i).mu * layInt n thk (fun i z => (y0 i z).v ^ 2) i ≠ 0) :
    ∀ y, y = up ∨ y = low → ∀ i, i < n → ∀ z, Tendsto (fun x => (kk x - k0) * (y x i z).v) l
      (𝓝 ((y0 i z).v * (Jv * (y0 js h).t - Jt * (y0 js h).v) /
        (2 * k0 * ∑ i ∈ Finset.range n, (m i).mu * layInt n thk (fun i z => (y0 i z).v ^ 2) i))) := by
  have hs : Tendsto (fun x => kk x - k0) l (𝓝 0) := by simpa using hk.sub_const k0
  -- vertical wavenumbers
  have hq : ∀ i, ∃ q : ι → ℂ, i < n → liq i = false → (∀ x, (m i).mu * q x ^ 2 = (m i).mu * kk x ^ 2 - (m i).rho * om ^ 2) ∧
      Tendsto q l (𝓝 (q0 i)) := by
    intro i
    by_cases c : i < n ∧ liq i = false
    · obtain ⟨c1, c2⟩ := c
      have hmu := hm i c1 c2
      have t : Tendsto (fun x => kk x ^ 2 - (m i).rho * om ^ 2 / (m i).mu) l (𝓝 (q0 i ^ 2)) := by
        have := (hk.pow 2).sub_const ((m i).rho * om ^ 2 / (m i).mu)
        have e : k0 ^ 2 - (m i).rho * om ^ 2 / (m i).mu = q0 i ^ 2 := by
          have := hqq i c1 c2
          field_simp
          linear_combination -this
        rwa [e] at this
      obtain ⟨q, h1, h2⟩ := root_near (hq0 i c1 c2) t
      refine ⟨q, fun _ _ => ⟨fun x => ?_, h2⟩⟩
      rw [h1]
      field_simp
    · exact ⟨fun _ => 0, fun a b => absurd ⟨a, b⟩ c⟩
  choose q hqp using hq
  -- amplitudes
  set amp : (ι → ℕ → ℝ → SHS ℂ) → ℂ → ℕ → ι → ℂ := fun y s i x => ((y x i 0).v + s * (y x i 0).t / ((m i).mu * q i x)) / 2 with hamp
  have qne : ∀ i, i < n → liq i = false → ∀ᶠ x in l, q i x ≠ 0 := fun i hi e =>
    (hqp i hi e).2.eventually_ne (hq0 i hi e)
  have form : ∀ y, y = up ∨ y = low → ∀ i, i < n → liq i = false → ∀ᶠ x in l, ∀ z,
      y x i z = wav (m i).mu (q i x) (amp y 1 i x) (amp y (-1) i x) z := by
    intro y hy i hi e
    filter_upwards [qne i hi e] with x hx z
    have mo := (hf x).motion (y x) (by rcases hy with rfl | rfl; exact Or.inl rfl; exact Or.inr rfl) i hi e
    have := wav_general (hm i hi e) hx (y := y x i) (fun z => ⟨(mo z).1, by
      rw [(hqp i hi e).1 x, sub_mul]; exact (mo z).2⟩) z
    rw [this]
    simp only [hamp]
    congr 1 <;> ring
  have limA : ∀ y, y = up ∨ y = low → ∀ s i, i < n → liq i = false → ∃ a, Tendsto (fun x => (kk x - k0) * amp y s i x) l (𝓝 a) := by
    intro y hy s i hi e
    obtain ⟨a, b, ha, hb⟩ := pole y hy i hi
    refine ⟨(a + s * b / ((m i).mu * q0 i)) / 2, ?_⟩
    have := (ha.add ((hb.const_mul s).div ((hqp i hi e).2.const_mul (m i).mu) (mul_ne_zero (hm i hi e) (hq0 i hi e)))).div_const 2
    refine this.congr fun x => ?_
    simp only [hamp, Pi.div_apply]
    ring
  have limA' : ∀ (y : ι → ℕ → ℝ → SHS ℂ) (s : ℂ) (i : ℕ), ∃ a, (y = up ∨ y = low) → i < n → liq i = false →
      Tendsto (fun x => (kk x - k0) * amp y s i x) l (𝓝 a) := by
    intro y s i
    by_cases c : (y = up ∨ y = low) ∧ i < n ∧ liq i = false
    · obtain ⟨a, ha⟩ := limA y c.1 s i c.2.1 c.2.2
      exact ⟨a, fun _ _ _ => ha⟩
    · exact ⟨0, fun a b d => absurd ⟨a, b, d⟩ c⟩
  choose A hA using limA'
  set R : (ι → ℕ → ℝ → SHS ℂ) → ℕ → ℝ → SHS ℂ := fun y i z => if liq i = true then ⟨0, 0⟩ else wav (m i).mu (q0 i) (A y 1 i) (A y (-1) i) z with hR
  have limR : ∀ y, y = up ∨ y = low → ∀ i, i < n → ∀ z, Tendsto (fun x => (kk x - k0) * (y x i z).v) l (𝓝 (R y i z).v) ∧
      Tendsto (fun x => (kk x - k0) * (y x i z).t) l (𝓝 (R y i z).t) := by
    intro y hy i hi z
    cases e : liq i
    · have qt := (hqp i hi e).2
      have e1 : Tendsto (fun x => exp (q i x * z)) l (𝓝 (exp (q0 i * z))) := (continuous_exp.tendsto _).comp (qt.mul_const _)
      have e2 : Tendsto (fun x => exp (-(q i x * z))) l (𝓝 (exp (-(q0 i * z)))) := (continuous_exp.tendsto _).comp (qt.mul_const _).neg
      have a1 := hA y 1 i hy hi e
      have a2 := hA y (-1) i hy hi e
      simp only [hR, e, Bool.false_eq_true, if_false, wav]
      constructor
      · refine ((a1.mul e1).add (a2.mul e2)).congr' ?_
        filter_upwards [form y hy i hi e] with x hx
        rw [hx z]; simp only [wav]; ring
      · refine ((qt.const_mul (m i).mu).mul ((a1.mul e1).sub (a2.mul e2))).congr' ?_
        filter_upwards [form y hy i hi e] with x hx
        rw [hx z]; simp only [wav]; ring
    · have z0 := fun x => (hf x).liquid (y x) (by rcases hy with rfl | rfl; exact Or.inl rfl; exact Or.inr rfl) i hi e z
      simp only [hR, e, if_true, fun x => (z0 x).1, fun x => (z0 x).2, mul_zero]
      exact ⟨tendsto_const_nhds, tendsto_const_nhds⟩
  -- the residues above and below the source are the same wave
  have same : ∀ i, i < n → R low i = R up i := by
    intro i hi
    by_cases c : i = js
    · subst c
      have a := limR up (Or.inl rfl) i hi h
      have b := limR low (Or.inr rfl) i hi h
      have v : (R low i h).v = (R up i h).v := by
        have := b.1.sub a.1
        have t : Tendsto (fun x => (kk x - k0) * (J x).v) l (𝓝 (0 * Jv)) := hs.mul hJv
        have := tendsto_nhds_unique (this.congr fun x => by rw [← mul_sub, (hf x).jump.1]) t
        linear_combination this
      have t : (R low i h).t = (R up i h).t := by
        have := b.2.sub a.2
        have t : Tendsto (fun x => (kk x - k0) * (J x).t) l (𝓝 (0 * Jt)) := hs.mul hJt
        have := tendsto_nhds_unique (this.congr fun x => by rw [← mul_sub, (hf x).jump.2]) t
        linear_combination this
      simp only [hR, hsol, Bool.false_eq_true, if_false] at v t
      have w : wav (m i).mu (q0 i) (A low 1 i) (A low (-1) i) h = wav (m i).mu (q0 i) (A up 1 i) (A up (-1) i) h := by
        cases h1 : wav (m i).mu (q0 i) (A low 1 i) (A low (-1) i) h
        cases h2 : wav (m i).mu (q0 i) (A up 1 i) (A up (-1) i) h
        rw [h1, h2] at v t
        simp only at v t
        rw [v, t]
      obtain ⟨w1, w2⟩ := wav_unique (hm i hi hsol) (hq0 i hi hsol) w
      funext z
      simp only [hR, hsol, Bool.false_eq_true, if_false, w1, w2]
    · funext z
      have a := limR up (Or.inl rfl) i hi z
      have b := limR low (Or.inr rfl) i hi z
      have e : ∀ x, low x i z = up x i z := fun x => by rw [(hf x).same i c]
      simp only [e] at b
      have v := tendsto_nhds_unique b.1 a.1
      have t := tendsto_nhds_unique b.2 a.2
      cases h1 : R low i z
      cases h2 : R up i z
      rw [h1, h2] at v t
      simp only at v t
      rw [v, t]
  -- no upgoing wave in the half-space
  have noup : liq (n-1) = false → (∀ᶠ x in l, amp low 1 (n-1) x = 0 ∧ 0 < (q (n-1) x).re) := by
    intro e
    have pos : ∀ᶠ x in l, 0 < (q (n-1) x).re :=
      ((continuous_re.tendsto _).comp (hqp (n-1) (by omega) e).2).eventually (lt_mem_nhds (htrap e))
    filter_upwards [form low (Or.inr rfl) (n-1) (by omega) e, pos] with x hx hp
    have d := (hf x).decay
    simp only [hx] at d
    exact ⟨wav_noup hp d, hp⟩
  have A0 : liq (n-1) = false → A low 1 (n-1) = 0 := by
    intro e
    have a := hA low 1 (n-1) (Or.inr rfl) (by omega) e
    refine tendsto_nhds_unique a (tendsto_const_nhds.congr' ?_)
    filter_upwards [noup e] with x hx
    rw [hx.1, mul_zero]
  -- the residue is a free wave
  have RL : LoveField n liq m thk k0 om (R low) := by
    refine ⟨?_, ?_, ?_, ?_, ?_⟩
    · intro i hi e z
      have := wav_deriv (mu := (m i).mu) (q := q0 i) (A := A low 1 i) (B := A low (-1) i) (hm i hi e) z
      simp only [hR, e, Bool.false_eq_true, if_false]
      refine ⟨this.1, ?_⟩
      rw [← sub_mul, ← hqq i hi e]
      exact this.2
    · intro i hi e z
      simp [hR, e]
    · rw [same 0 (by omega)]
      have a := (limR up (Or.inl rfl) 0 (by omega) 0).2
      refine tendsto_nhds_unique a (tendsto_const_nhds.congr fun x => ?_)
      rw [(hf x).free, mul_zero]
    · intro i hi
      have a := limR low (Or.inr rfl) i (by omega) (thk i)
      have b := limR up (Or.inl rfl) (i+1) hi 0
      rw [← same (i+1) hi] at b
      refine ⟨tendsto_nhds_unique a.2 (b.2.congr fun x => by rw [((hf x).contact i hi).1]), fun e1 e2 =>
        tendsto_nhds_unique a.1 (b.1.congr fun x => by rw [((hf x).contact i hi).2 e1 e2])⟩
    · cases e : liq (n-1)
      · simp only [hR, e, Bool.false_eq_true, if_false, wav, A0 e, zero_mul, zero_add]
        simpa using (tendsto_exp_neg (htrap e)).const_mul (A low (-1) (n-1))
      · simp only [hR, e, if_true]
        exact tendsto_const_nhds
  obtain ⟨a, ha⟩ := huniq _ RL
  -- its size
  have key : 2 * k0 * a * ∑ i ∈ Finset.range n, (m i).mu * layInt n thk (fun i z => (y0 i z).v ^ 2) i =
      Jv * (y0 js h).t - Jt * (y0 js h).v := by
    set c : ℕ → ℝ := fun i => if i = js then h else 0 with hc
    have ov : ∀ i, i < n → Tendsto (fun x => (kk x - k0) * cutInt n thk (c i) (fun z => (up x i z).v * (y0 i z).v)
        (fun z => (low x i z).v * (y0 i z).v) i) l (𝓝 (a * layInt n thk (fun i z => (y0 i z).v ^ 2) i)) := by
      intro i hi
      have cy := (h0.cont hi).1
      cases e : liq i
      · have tgt : a * layInt n thk (fun i z => (y0 i z).v ^ 2) i = cutInt n thk (c i) (fun z => (R up i z).v * (y0 i z).v)
            (fun z => (R low i z).v * (y0 i z).v) i := by
          have c0 : 0 ≤ c i := by simp only [hc]; split <;> simp [hh]
          rw [← same i hi]
          simp only [cutInt, ha i hi]
          have C : Continuous fun z => a * (y0 i z).v * (y0 i z).v := (continuous_const.mul cy).mul cy
          rw [layInt]
          split
          · rw [intervalIntegral.integral_add_adjacent_intervals (C.intervalIntegrable _ _) (C.intervalIntegrable _ _),
              ← intervalIntegral.integral_const_mul]
            congr 1; funext z; ring
          · rename_i hl
            have ei : i = n - 1 := by omega
            obtain ⟨q2, A2, B2, r2, f2⟩ := d0
            have I1 : IntegrableOn (fun z => a * (y0 i z).v * (y0 i z).v) (Set.Ioi 0) := by
              rw [ei]
              simp only [f2, ← mul_assoc a]
              exact (exp_half r2 r2 (a * A2) A2).1
            rw [intervalIntegral.integral_interval_add_Ioi I1 (I1.mono_set (Set.Ioi_subset_Ioi c0)), ← integral_const_mul]
            congr 1; funext z; ring
        rw [tgt]
        have u1 := lim_int (mu := (m i).mu) cy (hA up 1 i (Or.inl rfl) hi e) (hA up (-1) i (Or.inl rfl) hi e) (hqp i hi e).2 0 (c i)
        simp only [cutInt, hR, e, Bool.false_eq_true, if_false]
        split
        · have u2 := lim_int (mu := (m i).mu) cy (hA low 1 i (Or.inr rfl) hi e) (hA low (-1) i (Or.inr rfl) hi e) (hqp i hi e).2 (c i) (thk i)
          refine (u1.add u2).congr' ?_
          filter_upwards [form up (Or.inl rfl) i hi e, form low (Or.inr rfl) i hi e] with x h1 h2
          simp only [h1, h2]
          ring
        · rename_i hl
          have ei : i = n - 1 := by omega
          subst ei
          obtain ⟨q2, A2, B2, r2, f2⟩ := d0
          have u2 : Tendsto (fun x => (kk x - k0) * ∫ z in Set.Ioi (c (n-1)), (low x (n-1) z).v * (y0 (n-1) z).v) l
              (𝓝 (∫ z in Set.Ioi (c (n-1)), (wav (m (n-1)).mu (q0 (n-1)) (A low 1 (n-1)) (A low (-1) (n-1)) z).v * (y0 (n-1) z).v)) := by
            simp only [wav, A0 e, zero_mul, zero_add, f2]
            rw [exp_tail (htrap e) r2]
            have qt := (hqp (n-1) hi e).2
            have den : q0 (n-1) + q2 ≠ 0 := by
              intro h0
              have h1 := congrArg Complex.re h0
              simp only [add_re, zero_re] at h1
              have := htrap e
              linarith
            have e1 : Tendsto (fun x => exp (-(q (n-1) x + q2) * c (n-1))) l (𝓝 (exp (-(q0 (n-1) + q2) * c (n-1)))) :=
              (continuous_exp.tendsto _).comp ((qt.add_const q2).neg.mul_const _)
            refine ((((hA low (-1) (n-1) (Or.inr rfl) hi e).mul_const A2).mul e1).div (qt.add_const q2) den).congr' ?_
            filter_upwards [form low (Or.inr rfl) (n-1) hi e, noup e] with x h1 h2
            simp only [h1, wav, h2.1, zero_mul, zero_add]
            rw [exp_tail h2.2 r2]
            simp only [Pi.div_apply]
            ring
          refine (u1.add u2).congr' ?_
          filter_upwards [form up (Or.inl rfl) (n-1) hi e] with x h1
          simp only [h1]
          ring
      · have z0 := h0.liquid i hi e
        simp only [cutInt, layInt, fun z => (z0 z).1]
        simp
    have lhs : Tendsto (fun x => (kk x + k0) * ∑ i ∈ Finset.range n, (m i).mu * ((kk x - k0) * cutInt n thk (c i) (fun z => (up x i z).v * (y0 i z).v)
        (fun z => (low x i z).v * (y0 i z).v) i)) l (𝓝 ((k0 + k0) * ∑ i ∈ Finset.range n, (m i).mu * (a * layInt n thk (fun i z => (y0 i z).v ^ 2) i))) :=
      (hk.add_const k0).mul (tendsto_finsetSum _ fun i hi => (ov i (Finset.mem_range.1 hi)).const_mul _)
    have rhs : Tendsto (fun x => (J x).v * (y0 js h).t - (J x).t * (y0 js h).v) l (𝓝 (Jv * (y0 js h).t - Jt * (y0 js h).v)) :=
      (hJv.mul_const _).sub (hJt.mul_const _)
    have dl : ∀ᶠ x in l, Decays n (low x) := by
      cases e : liq (n-1)
      · filter_upwards [form low (Or.inr rfl) (n-1) (by omega) e, noup e] with x h1 h2
        refine ⟨q (n-1) x, amp low (-1) (n-1) x, -((m (n-1)).mu * q (n-1) x * amp low (-1) (n-1) x), h2.2, fun z => ?_⟩
        rw [h1, h2.1]
        simp only [wav, SHS.mk.injEq]
        constructor <;> ring
      · refine Eventually.of_forall fun x => ⟨1, 0, 0, by simp, fun z => ?_⟩
        have := (hf x).liquid (low x) (Or.inr rfl) (n-1) (by omega) e z
        cases h1 : low x (n-1) z
        rw [h1] at this
        simp only at this
        simp [this.1, this.2]
    have eq := tendsto_nhds_unique_of_eventuallyEq lhs rhs (by
      filter_upwards [dl] with x hx
      rw [← weakJ hn h0 d0 (hf x) hx hm hjs hh, Finset.mul_sum]
      refine Finset.sum_congr rfl fun i _ => ?_
      ring)
    rw [← eq, Finset.mul_sum, Finset.mul_sum]
    refine Finset.sum_congr rfl fun i _ => ?_
    ring
  have hN' : ∑ i ∈ Finset.range n, (m i).mu * layInt n thk (fun i z => (y0 i z).v ^ 2) i ≠ 0 := right_ne_zero_of_mul hN
  have av : a = (Jv * (y0 js h).t - Jt * (y0 js h).v) / (2 * k0 * ∑ i ∈ Finset.range n, (m i).mu * layInt n thk (fun i z => (y0 i z).v ^ 2) i) := by
    rw [eq_div_iff hN, ← key]; ring
  intro y hy i hi z
  have := (limR y hy i hi z).1
  have e : (R y i z).v = (y0 i z).v * (Jv * (y0 js h).t - Jt * (y0 js h).v) /
      (2 * k0 * ∑ i ∈ Finset.range n, (m i).mu * layInt n thk (fun i z => (y0 i z).v ^ 2) i) := by
    have : R y i = R low i := by
      rcases hy with rfl | rfl
      · exact (same i hi).symm
      · rfl
    rw [this, ha i hi z, av]
    ring
  rwa [e] at this

end GRT.Modal
