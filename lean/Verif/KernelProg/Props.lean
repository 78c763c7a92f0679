import Verif.KernelProg.Model
import Mathlib.Analysis.SpecialFunctions.Complex.Log
import Mathlib.Tactic.NormNum.Ineq

/-! What the records of `grt kernel` mean (C112). -/

namespace GRT.KernelProg

open GRT.Model1D GRT.Kernel GRT.Layer GRT.RT Complex

/-- The attenuation factor of a positive quality factor, at a frequency in the right half plane, lies in the upper half plane. -/
theorem law_im {q : ℝ} (hq : 0 < q) {ref : ℝ} (hr : 0 < ref) {w : ℂ} (hw : 0 < w.re) : 0 < (attenuationLaw q ref w).im := by
  have e : w / (ref : ℂ) = ((ref⁻¹ : ℝ) : ℂ) * w := by push_cast; rw [div_eq_inv_mul]
  have harg : |(w / (ref : ℂ)).arg| < Real.pi / 2 := by
    rw [Complex.abs_arg_lt_pi_div_two_iff]
    left
    rw [e, Complex.re_ofReal_mul]
    exact mul_pos (inv_pos.2 hr) hw
  have h1 := (abs_lt.1 harg).1
  have him : (attenuationLaw q ref w).im = q / Real.pi * (w / (ref : ℂ)).arg + 0.5 * q := by
    unfold attenuationLaw
    have a : (q : ℂ) / (Real.pi : ℂ) = ((q / Real.pi : ℝ) : ℂ) := by push_cast; rfl
    rw [a]
    have b : (0.5 : ℂ) * (q : ℂ) = ((0.5 * q : ℝ) : ℂ) := by push_cast; norm_num
    rw [b]
    simp [Complex.add_im, Complex.im_ofReal_mul, Complex.log_im]
  rw [him]
  have hp := Real.pi_pos
  have : q / Real.pi * (-(Real.pi / 2)) < q / Real.pi * (w / (ref : ℂ)).arg := mul_lt_mul_of_pos_left h1 (by positivity)
  have h2 : q / Real.pi * (-(Real.pi / 2)) = - (0.5 * q) := by field_simp; norm_num
  linarith

/-- No attenuation factor vanishes at such a frequency. -/
theorem atn_ne (q : ℝ) {ref : ℝ} (hr : 0 < ref) {w : ℂ} (hw : 0 < w.re) : atn false q ref w ≠ 0 := by
  unfold atn
  simp only [Bool.false_eq_true, if_false]
  split
  · rename_i h
    intro h0
    have := law_im h hr hw
    rw [h0] at this
    simp at this
  · exact one_ne_zero

theorem getD_samples (a d : ℝ) (n i : ℕ) (h : i < n) : (samples a d n).getD i 0 = a + d * i := by
  rw [List.getD_eq_getElem?_getD, List.getElem?_eq_getElem (by simpa [samples] using h)]
  simp [samples]

/-- What `-F` leaves when it is accepted. -/
theorem parseF_ok {f1 f2 df zeta0 : ℝ} {w : Option ℝ} {F : FOpt} (h : parseF f1 f2 df w zeta0 = .ok F) :
    0 < df ∧ 0 ≤ f1 ∧ 0 < f2 ∧ f1 ≤ f2 ∧ F.zeta = w.getD zeta0 ∧ (∀ z, w = some z → 0 < z) ∧
    ∃ n : ℕ, 2 ≤ n ∧ F.freqs = samples (max f1 df) df n ∧ (n : ℤ) = ⌊(max (max f1 df) f2 - max f1 df) / df⌋ + 1 := by
  unfold parseF at h
  split at h
  · cases h
  rename_i h1
  split at h
  · cases h
  rename_i h2
  split at h
  · cases h
  rename_i h3
  dsimp only at h
  split at h
  · cases h
  rename_i h4
  push Not at h1 h2 h3
  unfold count toSize at h
  rw [if_neg h1.ne'] at h
  split at h
  · cases h
  · cases h
  rename_i n hn
  split at hn
  swap
  · cases hn
  rename_i hz
  injection hn with hn
  split at h
  · cases h
  rename_i hn2
  injection h with h
  subst h
  refine ⟨h1, h2.1, h2.2, h3, rfl, ?_, n, by omega, rfl, ?_⟩
  · rintro z rfl
    simpa using h4
  · have := Int.toNat_of_nonneg hz.1
    rw [hn] at this
    exact this

/-- What `start` accepts. -/
theorem start_ok {zeta0 : ℝ} {A : Args} {J : Job} (h : start zeta0 A = .ok J) :
    0 ≤ A.zs ∧ 0 ≤ A.zr ∧ parseF A.f1 A.f2 A.df A.w zeta0 = .ok J.f ∧ readMod1d A.arr A.zs A.zr = .ok J.m ∧
    boundaryAccepted J.m (A.bot == .half) = true ∧ (∃ c, parseC A.c = .ok c ∧ velocities J.m c = .ok J.cs) ∧
    J.top = A.top ∧ J.bot = A.bot ∧ J.e = A.e := by
  unfold start at h
  split at h
  · cases h
  rename_i h0
  push Not at h0
  split at h <;> try cases h
  rename_i f c hf hc
  split at h
  · cases h
  rename_i m hm
  split at h
  · cases h
  rename_i hb
  split at h
  · cases h
  · cases h
  rename_i cs hcs
  injection h with h
  subst h
  exact ⟨h0.1, h0.2, hf, hm, by simpa using hb, ⟨c, hc, hcs⟩, rfl, rfl, rfl⟩

open Classical in
/-- One record of the loop over phase velocities: it comes from a call of the kernel with some contents of the matrices. -/
theorem phaseLoop_get (J : Job) (freq : ℝ) (cs : List ℝ) (s : Store ℂ) {recs : List Rec} (h : phaseLoop J freq cs s = .ok recs) :
    recs.map (·.c) = cs ∧ ∀ r ∈ recs, ∃ s' q, kernel (dynEnv (kernelIn J.m J.top J.bot J.omgref (J.omega freq) (2 * Real.pi * freq / r.c))) s' true = .ok q ∧
      r.done = q.done ∧ ∀ t, r.rows t = scale (-(J.fac : ℂ) / (J.omega freq * J.omega freq)) (if J.e then q.g.uz t else q.g.u t) := by
  induction cs generalizing s recs with
  | nil =>
    simp only [phaseLoop] at h
    injection h with h
    subst h
    simp
  | cons c cs ih =>
    simp only [phaseLoop] at h
    split at h
    · cases h
    · cases h
    rename_i q hq
    split at h
    · cases h
    · cases h
    rename_i rest hrest
    injection h with h
    subst h
    obtain ⟨i1, i2⟩ := ih q.store hrest
    refine ⟨by simp [i1], ?_⟩
    intro r hr
    rcases List.mem_cons.1 hr with rfl | hr
    · exact ⟨s, q, hq, rfl, fun t => rfl⟩
    · exact i2 r hr

/-- Specification: frequency number `iw` of a run. -/
noncomputable def freqOf (A : Args) (iw : ℕ) : ℝ := max A.f1 A.df + A.df * iw

/-- Specification: the complex frequency, damped with `ζπΔf`. -/
noncomputable def omegaOf (zeta0 : ℝ) (A : Args) (iw : ℕ) : ℂ := 2 * Real.pi * freqOf A iw - I * (A.w.getD zeta0 * Real.pi * A.df)

theorem omega_eq {zeta0 : ℝ} {A : Args} {J : Job} (h : start zeta0 A = .ok J) {iw : ℕ} (hi : iw < J.f.freqs.length) :
    J.f.freqs.getD iw 0 = freqOf A iw ∧ J.omega (freqOf A iw) = omegaOf zeta0 A iw ∧
    J.omgref = 2 * Real.pi * freqOf A (J.f.freqs.length - 1) ∧ 0 < freqOf A iw ∧ 0 < freqOf A (J.f.freqs.length - 1) := by
  obtain ⟨-, -, hF, -⟩ := start_ok h
  obtain ⟨hd, h1, h2, h3, hz, -, n, hn, hfr, -⟩ := parseF_ok hF
  have hl : J.f.freqs.length = n := by rw [hfr]; simp [samples]
  have hpos : ∀ i, 0 < freqOf A i := fun i => by
    have : 0 < max A.f1 A.df := lt_max_of_lt_right hd
    unfold freqOf; positivity
  refine ⟨?_, ?_, ?_, hpos _, hpos _⟩
  · rw [hfr, getD_samples _ _ _ _ (hl ▸ hi)]; rfl
  · unfold Job.omega Job.wI omegaOf
    rw [hfr, getD_samples _ _ _ _ (by omega), getD_samples _ _ _ _ (by omega), hz]
    push_cast
    ring
  · unfold Job.omgref
    rw [hl, hfr, getD_samples _ _ _ _ (by omega)]; rfl

/-- The depths asked for are kept in the model. -/
theorem readMod1d_depths {arr : List (FLay ℝ)} {zs zr : ℝ} {m : Mod1d ℝ} (h : readMod1d arr zs zr = .ok m) :
    m.depsrc = zs ∧ m.deprcv = zr := by
  unfold readMod1d at h
  dsimp only at h
  split at h
  · cases h
  split at h
  · cases h
  split at h
  · cases h
  rename_i st0 _
  generalize (if decide (zr ≤ zs) = true then st0.imax else st0.imin) = a at h
  generalize (if decide (zr ≤ zs) = true then st0.imin else st0.imax) = b at h
  by_cases c1 : onLiquid st0.lays b = true
  · rw [if_pos c1] at h; cases h
  rw [if_neg c1] at h
  by_cases c2 : onLiquid st0.lays a = true
  · rw [if_pos c2] at h; cases h
  rw [if_neg c2] at h
  injection h with h
  rw [← h]
  exact ⟨rfl, rfl⟩

/-- C112: the file of frequency number `iw` holds one record for every phase velocity of the list, in order; and a record for which no
inversion failed holds, for every source, `-1/(4πρω²)` times the displacement at the receiver depth (with `-e`: times its derivative with
depth) of a field of the anelastic medium excited by that source, at the complex frequency `ω = 2πf - iζπΔf` and the wavenumber `2πf/c`. -/
theorem C112_records {zeta0 : ℝ} {A : Args} {J : Job} (h : start zeta0 A = .ok J)
    (hva : ∀ l ∈ A.arr, l.m.va ≠ 0 ∧ l.m.rho ≠ 0) {iw : ℕ} (hi : iw < J.f.freqs.length) {recs : List Rec} (hf : J.file iw = .ok recs) :
    recs.map (·.c) = J.cs ∧
    ∀ r ∈ recs, r.done = true →
      let f := freqOf A iw
      let ω := omegaOf zeta0 A iw
      let ref : ℝ := 2 * Real.pi * freqOf A (J.f.freqs.length - 1)
      let In := kernelIn J.m A.top A.bot ref ω (2 * Real.pi * f / r.c)
      let med := fun i => anelastic (J.m.at i) ref ω
      (∃ R, (dynEnv In).topP = .ok R) → (max J.m.isrc J.m.ircv + 1 < J.m.lays.length → ∃ R, (dynEnv In).botP = .ok R) →
      ∀ t, (¬ (A.zs = 0 ∧ A.zr = 0) ∨ t ≠ .DS) →
        let g := -(1 : ℂ) / (4 * Real.pi * (J.m.at J.m.isrc).m.rho * ω ^ 2)
        ∃ d u, DynField In (fun i => (J.m.at i).h) med t d u ∧
          (A.e = false → (r.rows t).qw 0 = g * (fieldAt In med d u J.m.ircv 0).q ∧ (r.rows t).qw 1 = g * (fieldAt In med d u J.m.ircv 0).w ∧
            (r.rows t).v = g * if (J.m.at J.m.ircv).m.vb = 0 then 0 else (fieldSH In med d u J.m.ircv 0).v) ∧
          (A.e = true → HasDerivAt (fun z : ℝ => g * (fieldAt In med d u J.m.ircv z).q) ((r.rows t).qw 0) 0 ∧
            HasDerivAt (fun z : ℝ => g * (fieldAt In med d u J.m.ircv z).w) ((r.rows t).qw 1) 0 ∧
            HasDerivAt (fun z : ℝ => g * if (J.m.at J.m.ircv).m.vb = 0 then 0 else (fieldSH In med d u J.m.ircv z).v) ((r.rows t).v) 0) := by
  obtain ⟨hfreq, hom, href, hp, hp'⟩ := omega_eq h hi
  obtain ⟨hs, hr, hF, hm, -, -, et, eb, ee⟩ := start_ok h
  obtain ⟨hd, -⟩ := parseF_ok hF
  unfold Job.file at hf
  rw [hfreq] at hf
  obtain ⟨hc, hall⟩ := phaseLoop_get J _ _ _ hf
  refine ⟨hc, ?_⟩
  intro r hrm hdone f ω ref In med ht hb t hz g
  obtain ⟨s', q, hk, hdn, hrow⟩ := hall r hrm
  rw [et, eb, href, hom] at hk
  have hre : 0 < (omegaOf zeta0 A iw).re := by
    have e : omegaOf zeta0 A iw = ((2 * Real.pi * freqOf A iw : ℝ) : ℂ) - I * ((A.w.getD zeta0 * Real.pi * A.df : ℝ) : ℂ) := by
      unfold omegaOf; push_cast; ring
    rw [e]
    simp only [Complex.sub_re, Complex.ofReal_re, Complex.mul_re, Complex.I_re, Complex.I_im, Complex.ofReal_im]
    have := Real.pi_pos
    have : 0 < 2 * Real.pi * freqOf A iw := by positivity
    linarith
  have href0 : 0 < ref := by have := Real.pi_pos; positivity
  have hn : NonZero J.m ref ω := fun i _ => ⟨atn_ne _ href0 hre, atn_ne _ href0 hre⟩
  obtain ⟨h1, h2⟩ := kernelIn_ok hs hr hm hva A.top A.bot hn (2 * Real.pi * f / r.c)
  have hat : In.atZero = false ∨ t ≠ .DS := by
    rcases hz with hz | hz
    · left
      obtain ⟨e1, e2⟩ := readMod1d_depths hm
      show decide (J.m.depsrc = 0 ∧ J.m.deprcv = 0) = false
      rw [e1, e2]; simpa using hz
    · exact .inr hz
  obtain ⟨d, u, f1, f2, f3, f4, f5, f6, f7⟩ := C57_dynamic_field h1 h2 ht hb hk (hdn ▸ hdone) t hat
  have hg : -(J.fac : ℂ) / (J.omega f * J.omega f) = g := by
    show -(J.fac : ℂ) / (J.omega (freqOf A iw) * J.omega (freqOf A iw)) = _
    rw [hom]
    simp only [Job.fac, g, ω]
    push_cast
    rw [neg_div, neg_div, div_div, pow_two]
  have hliq : (In.lay J.m.ircv).liquid = decide ((J.m.at J.m.ircv).m.vb = 0) := by
    show (stateLay J.m ref ω _ J.m.ircv).liquid = _
    rw [stateLay_eq hs hr hm]
    rfl
  have hrow' := hrow t
  have hg' : -(J.fac : ℂ) / (J.omega (freqOf A iw) * J.omega (freqOf A iw)) = g := hg
  rw [hg', ee] at hrow'
  refine ⟨d, u, f1, ?_, ?_⟩
  · intro e
    rw [e] at hrow'
    simp only [Bool.false_eq_true, if_false] at hrow'
    rw [hrow']
    refine ⟨?_, ?_, ?_⟩
    · show (q.g.u t).qw 0 * g = _
      rw [f2]; exact mul_comm _ _
    · show (q.g.u t).qw 1 * g = _
      rw [f3]; exact mul_comm _ _
    · show (q.g.u t).v * g = _
      by_cases hv : (J.m.at J.m.ircv).m.vb = 0
      · rw [if_pos hv, (f7 (by rw [show In.ircv = J.m.ircv from rfl, hliq]; simpa using hv)).1]; simp
      · rw [if_neg hv, (f6 (by rw [show In.ircv = J.m.ircv from rfl, hliq]; simpa using hv)).1]; exact mul_comm _ _
  · intro e
    rw [e] at hrow'
    simp only [if_true] at hrow'
    rw [hrow']
    refine ⟨?_, ?_, ?_⟩
    · show HasDerivAt _ ((q.g.uz t).qw 0 * g) 0
      rw [mul_comm]; exact f4.const_mul g
    · show HasDerivAt _ ((q.g.uz t).qw 1 * g) 0
      rw [mul_comm]; exact f5.const_mul g
    · show HasDerivAt _ ((q.g.uz t).v * g) 0
      rw [mul_comm]
      by_cases hv : (J.m.at J.m.ircv).m.vb = 0
      · simp only [if_pos hv]
        rw [(f7 (by rw [show In.ircv = J.m.ircv from rfl, hliq]; simpa using hv)).2]
        simpa using hasDerivAt_const (0 : ℝ) (0 : ℂ)
      · simp only [if_neg hv]
        exact ((f6 (by rw [show In.ircv = J.m.ircv from rfl, hliq]; simpa using hv)).2).const_mul g

end GRT.KernelProg
