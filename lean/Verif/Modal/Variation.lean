import Verif.Modal.Branch
import Verif.Modal.Energy
import Mathlib.Analysis.Calculus.ParametricIntervalIntegral
import Mathlib.Analysis.SpecialFunctions.Sqrt

/-! Group velocity and phase-velocity sensitivities of Love modes: the numbers computed from the energy integrals are derivatives of the
dispersion relation.  C80, C81. -/

set_option linter.unusedSectionVars false

namespace GRT.Modal

open GRT.RT GRT.Layer GRT.Kernel Filter Complex MeasureTheory Topology

/-- `grt_get_group_velocity` for Love waves, grt_eigenfn.c 428-443. -/
noncomputable def groupL (omega k : ℝ) (egy : ℂ × ℂ × ℂ) : ℝ :=
  (egy.2.1 / (((omega / k : ℝ) : ℂ) * egy.1)).re

/-- `phase_sensitivity_numerator_single_layer_Love` (energy.c 279-292) and the division by `Vb/c`, `ρ/c` (energy.c 515-525): the
sensitivities of one thin layer to S velocity and density before the common factor. -/
noncomputable def sensNum (I : ModeIn ℂ) (omega : ℝ) (vb : ℕ → ℂ) (p : ℕ × (ℂ × ℂ)) : ℂ × ℂ :=
  if (I.lay p.1).liquid then (0, 0) else
    let Kmu := (I.lay p.1).mu * (I.k * I.k * p.2.1 + p.2.2)
    let Krho := - (I.lay p.1).rho * (omega : ℂ) ^ 2 * p.2.1
    (2 * Kmu / (vb p.1 / I.c), (Kmu + Krho) / ((I.lay p.1).rho / I.c))

/-- Phase-velocity sensitivities of the thin layers, energy.c 515-540; `none` is the error raised if the common factor is zero. -/
noncomputable def sensL (I : ModeIn ℂ) (omega : ℝ) (vb : ℕ → ℂ) (l : List (ℕ × (ℂ × ℂ))) : Option (List (ℕ × (ℂ × ℂ))) :=
  let dom := 4 * I.k ^ 2 * (egyL I l).2.1
  open Classical in
  if dom = 0 then none else some (l.map fun p => (p.1, ((sensNum I omega vb p).1 / dom, (sensNum I omega vb p).2 / dom)))

/-! ### Integrals over one layer -/

/-- The part of `depthInt` of one layer. -/
noncomputable def layInt (n : ℕ) (thk : ℕ → ℝ) (f : ℕ → ℝ → ℂ) (i : ℕ) : ℂ :=
  if i + 1 < n then ∫ z in (0:ℝ)..thk i, f i z else ∫ z in Set.Ioi (0:ℝ), f i z

theorem depthInt_sum {n : ℕ} (hn : 1 ≤ n) (thk : ℕ → ℝ) (f : ℕ → ℝ → ℂ) :
    depthInt n thk f = ∑ i ∈ Finset.range n, layInt n thk f i := by
  obtain ⟨r, rfl⟩ : ∃ r, n = r + 1 := ⟨n - 1, by omega⟩
  rw [Finset.sum_range_succ, depthInt]
  simp only [Nat.add_sub_cancel]
  congr 1
  · refine Finset.sum_congr rfl fun i hi => ?_
    have := Finset.mem_range.1 hi
    rw [layInt, if_pos (by omega)]
  · rw [layInt, if_neg (by omega)]

theorem layInt_weight (n : ℕ) (thk : ℕ → ℝ) (w : ℕ → ℂ) (f : ℕ → ℝ → ℂ) (i : ℕ) :
    layInt n thk (fun i z => w i * f i z) i = w i * layInt n thk f i := by
  unfold layInt
  split
  · exact intervalIntegral.integral_const_mul _ _
  · exact integral_const_mul _ _

theorem depthInt_weight {n : ℕ} (hn : 1 ≤ n) (thk : ℕ → ℝ) (w : ℕ → ℂ) (f : ℕ → ℝ → ℂ) :
    depthInt n thk (fun i z => w i * f i z) = ∑ i ∈ Finset.range n, w i * layInt n thk f i := by
  rw [depthInt_sum hn]
  exact Finset.sum_congr rfl fun i _ => layInt_weight _ _ _ _ _

/-- A field that in the half-space is a multiple of one decaying wave. -/
def Decays (n : ℕ) (y : ℕ → ℝ → SHS ℂ) : Prop :=
  ∃ q A B : ℂ, 0 < q.re ∧ ∀ z, y (n-1) z = ⟨A * exp (-(q * z)), B * exp (-(q * z))⟩

theorem LoveField.cont {n : ℕ} {liq : ℕ → Bool} {m : ℕ → Medium ℂ} {thk : ℕ → ℝ} {k om : ℂ} {y : ℕ → ℝ → SHS ℂ}
    (h : LoveField n liq m thk k om y) {i : ℕ} (hi : i < n) :
    Continuous (fun z => (y i z).v) ∧ Continuous (fun z => (y i z).t) := by
  cases e : liq i
  · exact ⟨continuous_iff_continuousAt.2 fun z => (h.motion i hi e z).1.continuousAt,
      continuous_iff_continuousAt.2 fun z => (h.motion i hi e z).2.continuousAt⟩
  · have := h.liquid i hi e
    exact ⟨by simpa [fun z => (this z).1] using continuous_const, by simpa [fun z => (this z).2] using continuous_const⟩

theorem exp_half {q1 q2 : ℂ} (h1 : 0 < q1.re) (h2 : 0 < q2.re) (A B : ℂ) :
    IntegrableOn (fun z : ℝ => A * exp (-(q1 * z)) * (B * exp (-(q2 * z)))) (Set.Ioi 0) ∧
    ∫ z in Set.Ioi (0:ℝ), A * exp (-(q1 * z)) * (B * exp (-(q2 * z))) = A * B / (q1 + q2) := by
  have hr : (-(q1 + q2)).re < 0 := by simp; linarith
  have e : (fun z : ℝ => A * exp (-(q1 * z)) * (B * exp (-(q2 * z)))) = fun z : ℝ => A * B * exp (-(q1 + q2) * z) := by
    funext z
    rw [show -(q1 + q2) * (z:ℂ) = -(q1 * z) + -(q2 * z) by ring, Complex.exp_add]
    ring
  rw [e]
  refine ⟨(integrableOn_exp_mul_complex_Ioi hr 0).const_mul _, ?_⟩
  rw [integral_const_mul, integral_exp_mul_complex_Ioi hr]
  simp only [ofReal_zero, mul_zero, Complex.exp_zero]
  rw [neg_div_neg_eq, mul_one_div]

/-- The reciprocity behind both results: two free SH waves of the same layering, of possibly different media, frequencies and
wavenumbers. -/
theorem weak {n : ℕ} {liq : ℕ → Bool} {m1 m2 : ℕ → Medium ℂ} {thk : ℕ → ℝ} {k1 k2 om1 om2 : ℂ} {y1 y2 : ℕ → ℝ → SHS ℂ} (hn : 1 ≤ n)
    (h1 : LoveField n liq m1 thk k1 om1 y1) (h2 : LoveField n liq m2 thk k2 om2 y2) (d1 : Decays n y1) (d2 : Decays n y2) :
    ∑ i ∈ Finset.range n, (((m1 i).mu * k1^2 - (m1 i).rho * om1^2) * layInt n thk (fun i z => (y1 i z).v * (y2 i z).v) i +
      1 / (m2 i).mu * layInt n thk (fun i z => (y1 i z).t * (y2 i z).t) i) = 0 := by
  set P : ℕ → ℝ → ℂ := fun i z => (y1 i z).t * (y2 i z).v with hP
  -- each layer
  have lay : ∀ i, i < n → liq i = false → ∀ z, HasDerivAt (P i) (((m1 i).mu * k1^2 - (m1 i).rho * om1^2) * ((y1 i z).v * (y2 i z).v) +
      1 / (m2 i).mu * ((y1 i z).t * (y2 i z).t)) z := by
    intro i hi e z
    refine ((h1.motion i hi e z).2.mul (h2.motion i hi e z).1).congr_deriv ?_
    ring
  have step : ∀ i, i + 1 < n → ((m1 i).mu * k1^2 - (m1 i).rho * om1^2) * layInt n thk (fun i z => (y1 i z).v * (y2 i z).v) i +
      1 / (m2 i).mu * layInt n thk (fun i z => (y1 i z).t * (y2 i z).t) i = P i (thk i) - P i 0 := by
    intro i hi
    obtain ⟨a1, b1⟩ := h1.cont (i := i) (by omega)
    obtain ⟨a2, b2⟩ := h2.cont (i := i) (by omega)
    rw [layInt, layInt, if_pos hi, if_pos hi]
    cases e : liq i
    · have C1 : Continuous fun z => ((m1 i).mu * k1^2 - (m1 i).rho * om1^2) * ((y1 i z).v * (y2 i z).v) :=
        continuous_const.mul (a1.mul a2)
      have C2 : Continuous fun z => 1 / (m2 i).mu * ((y1 i z).t * (y2 i z).t) := continuous_const.mul (b1.mul b2)
      rw [← intervalIntegral.integral_const_mul, ← intervalIntegral.integral_const_mul,
        ← intervalIntegral.integral_add (C1.intervalIntegrable _ _) (C2.intervalIntegrable _ _)]
      exact intervalIntegral.integral_eq_sub_of_hasDerivAt (fun z _ => lay i (by omega) e z) ((C1.add C2).intervalIntegrable _ _)
    · have z1 := h1.liquid i (by omega) e
      simp [hP, fun z => (z1 z).1, fun z => (z1 z).2]
  have half : ((m1 (n-1)).mu * k1^2 - (m1 (n-1)).rho * om1^2) * layInt n thk (fun i z => (y1 i z).v * (y2 i z).v) (n-1) +
      1 / (m2 (n-1)).mu * layInt n thk (fun i z => (y1 i z).t * (y2 i z).t) (n-1) = 0 - P (n-1) 0 := by
    rw [layInt, layInt, if_neg (by omega), if_neg (by omega)]
    obtain ⟨q1, A1, B1, r1, f1⟩ := d1
    obtain ⟨q2, A2, B2, r2, f2⟩ := d2
    cases e : liq (n-1)
    · have I1 : IntegrableOn (fun z => (y1 (n-1) z).v * (y2 (n-1) z).v) (Set.Ioi 0) := by
        simp only [f1, f2]; exact (exp_half r1 r2 A1 A2).1
      have I2 : IntegrableOn (fun z => (y1 (n-1) z).t * (y2 (n-1) z).t) (Set.Ioi 0) := by
        simp only [f1, f2]; exact (exp_half r1 r2 B1 B2).1
      rw [← integral_const_mul, ← integral_const_mul, ← integral_add (I1.const_mul _) (I2.const_mul _)]
      refine integral_Ioi_of_hasDerivAt_of_tendsto (lay (n-1) (by omega) e 0).continuousAt.continuousWithinAt
        (fun z _ => lay (n-1) (by omega) e z) ((I1.const_mul _).add (I2.const_mul _)) ?_
      simp only [hP, f1, f2]
      have := ((tendsto_exp_neg r1).const_mul B1).mul ((tendsto_exp_neg r2).const_mul A2)
      simpa using this
    · have z1 := h1.liquid (n-1) (by omega) e
      simp [hP, fun z => (z1 z).1, fun z => (z1 z).2]
  have joint : ∀ i, i + 1 < n → P i (thk i) = P (i+1) 0 := by
    intro i hi
    obtain ⟨c1, c2⟩ := h1.contact i hi
    simp only [hP]
    cases e1 : liq i
    · cases e2 : liq (i+1)
      · rw [c1, (h2.contact i hi).2 e1 e2]
      · rw [c1, (h1.liquid (i+1) hi e2 0).2]; ring
    · rw [← c1, (h1.liquid i (by omega) e1 (thk i)).2]; ring
  obtain ⟨r, rfl⟩ : ∃ r, n = r + 1 := ⟨n - 1, by omega⟩
  rw [Finset.sum_range_succ]
  simp only [Nat.add_sub_cancel] at half
  rw [half, Finset.sum_congr rfl fun i hi => (step i (by have := Finset.mem_range.1 hi; omega)).trans
    (by rw [joint i (by have := Finset.mem_range.1 hi; omega)]), Finset.sum_range_sub (fun i => P i 0)]
  simp only [hP]
  rw [h1.free]
  ring

/-! ### Overlaps vary continuously along a branch -/

theorem cont_int {a : ℝ → ℂ} (ha : Continuous a) {u d q : ℝ → ℂ} {s0 : ℝ} (hu : ContinuousAt u s0) (hd : ContinuousAt d s0)
    (hq : ContinuousAt q s0) (T : ℝ) :
    ContinuousAt (fun s => ∫ z in (0:ℝ)..T, a z * (u s * exp (q s * z) + d s * exp (-(q s * z)))) s0 := by
  set F : ℂ → ℂ := fun w => ∫ z in (0:ℝ)..T, a z * exp (w * z) with hF
  have cF : Continuous F := by
    refine intervalIntegral.continuous_parametric_intervalIntegral_of_continuous' ?_ 0 T
    fun_prop
  have e : (fun s => ∫ z in (0:ℝ)..T, a z * (u s * exp (q s * z) + d s * exp (-(q s * z)))) =
      fun s => u s * F (q s) + d s * F (-(q s)) := by
    funext s
    simp only [hF]
    rw [← intervalIntegral.integral_const_mul, ← intervalIntegral.integral_const_mul, ← intervalIntegral.integral_add]
    · congr 1; funext z
      rw [show -(q s) * (z:ℂ) = -(q s * z) by ring]; ring
    · exact Continuous.intervalIntegrable (by fun_prop) _ _
    · exact Continuous.intervalIntegrable (by fun_prop) _ _
  rw [e]
  exact (hu.mul (cF.continuousAt.comp hq)).add (hd.mul (cF.continuousAt.comp hq.neg))

variable {n : ℕ} {liq : ℕ → Bool} {I : ℝ → ModeIn ℂ} {S : ℝ → ℕ → SH ℂ} {m : ℝ → ℕ → Medium ℂ} {thk : ℕ → ℝ} {iref : ℕ}
  {pot : ℝ → ℂ × ℂ} {U : Set ℝ} {s0 : ℝ}

theorem Branch.decays (B : Branch n liq I S m thk iref pot U s0) {s : ℝ} (hs : s ∈ U) :
    Decays n (loveOut (I s) (S s) thk iref (pot s)) := by
  have hn := B.hi
  obtain ⟨-, M, Z, L⟩ := B.mode hs
  cases e : liq (n-1)
  · have tr := (B.desc s hs).trapped
    rw [B.nlay s hs, B.liquid s hs] at tr
    refine ⟨(I s).k * ((I s).lay (n-1)).xb, (I s).k * (potDown (I s) (S s) iref (pot s) (n-1)).2,
      -((m s (n-1)).mu * ((I s).k * ((I s).k * ((I s).lay (n-1)).xb * (potDown (I s) (S s) iref (pot s) (n-1)).2))), tr e, fun z => ?_⟩
    rw [M (n-1) (by omega), Z]
    simp only [shField, shState, zero_mul, zero_add, zero_sub, SHS.mk.injEq]
    constructor <;> ring
  · refine ⟨1, 0, 0, by simp, fun z => ?_⟩
    rw [M (n-1) (by omega), L (n-1) (by omega) e]
    simp [shField, shState]

theorem Branch.over (B : Branch n liq I S m thk iref pot U s0) {i : ℕ} (hi : i < n) :
    ContinuousAt (fun s => layInt n thk (fun i z => (loveOut (I s0) (S s0) thk iref (pot s0) i z).v *
      (loveOut (I s) (S s) thk iref (pot s) i z).v) i) s0 ∧
    ContinuousAt (fun s => layInt n thk (fun i z => (loveOut (I s0) (S s0) thk iref (pot s0) i z).t *
      (loveOut (I s) (S s) thk iref (pot s) i z).t) i) s0 := by
  have hn := B.hi
  have p := B.down hi
  have hk := B.contk
  have hx := B.contxb i hi
  have hm := B.contmu i hi
  obtain ⟨c1, c2⟩ := (B.mode B.mem).1.cont hi
  by_cases h : i + 1 < n
  · simp only [layInt, if_pos h]
    constructor
    · refine B.via (fun s hs => ?_) (cont_int c1 (hk.mul p.fst) (hk.mul p.snd) (hk.mul hx) (thk i))
      refine intervalIntegral.integral_congr fun z _ => ?_
      rw [(B.mode hs).2.1 i hi z]
      simp only [shField, shState, Pi.mul_apply]
      ring
    · refine B.via (fun s hs => ?_) (cont_int c2 ((hm.mul (hk.mul (hk.mul hx))).mul p.fst)
        (((hm.mul (hk.mul (hk.mul hx))).mul p.snd).neg) (hk.mul hx) (thk i))
      refine intervalIntegral.integral_congr fun z _ => ?_
      rw [(B.mode hs).2.1 i hi z]
      simp only [shField, shState, Pi.mul_apply, Pi.neg_apply]
      ring
  · have ei : i = n - 1 := by omega
    subst ei
    simp only [layInt, if_neg h]
    cases e : liq (n-1)
    · have tr := fun s hs => (B.desc s hs).trapped
      obtain ⟨q, A, C, r, f⟩ := B.decays B.mem
      have den : q + (I s0).k * ((I s0).lay (n-1)).xb ≠ 0 := by
        have := tr s0 B.mem
        rw [B.nlay s0 B.mem, B.liquid s0 B.mem] at this
        have := this e
        intro h0
        have h1 := congrArg Complex.re h0
        simp only [add_re, zero_re] at h1
        linarith
      have form : ∀ s ∈ U, ∀ z, loveOut (I s) (S s) thk iref (pot s) (n-1) z =
          ⟨((I s).k * (potDown (I s) (S s) iref (pot s) (n-1)).2) * exp (-((I s).k * ((I s).lay (n-1)).xb * z)),
           -((m s (n-1)).mu * ((I s).k * ((I s).k * ((I s).lay (n-1)).xb)) * (potDown (I s) (S s) iref (pot s) (n-1)).2) *
            exp (-((I s).k * ((I s).lay (n-1)).xb * z))⟩ := by
        intro s hs z
        rw [(B.mode hs).2.1 (n-1) hi, (B.mode hs).2.2.1]
        simp only [shField, shState, zero_mul, zero_add, zero_sub, SHS.mk.injEq]
        constructor <;> ring
      have tr' : ∀ s ∈ U, 0 < ((I s).k * ((I s).lay (n-1)).xb).re := by
        intro s hs
        have := tr s hs
        rw [B.nlay s hs, B.liquid s hs] at this
        exact this e
      constructor
      · refine B.via (fun s hs => ?_) ((continuousAt_const (y := A).mul (hk.mul p.snd)).div₀ (continuousAt_const (y := q).add (hk.mul hx)) den)
        simp only [f, form s hs]
        exact (exp_half r (tr' s hs) _ _).2
      · refine B.via (fun s hs => ?_) ((continuousAt_const (y := C).mul ((hm.mul (hk.mul (hk.mul hx))).mul p.snd).neg).div₀
          (continuousAt_const (y := q).add (hk.mul hx)) den)
        simp only [f, form s hs]
        exact (exp_half r (tr' s hs) _ _).2
    · have z1 := (B.mode B.mem).1.liquid (n-1) hi e
      simp only [fun z => (z1 z).1, fun z => (z1 z).2, zero_mul, integral_zero]
      exact ⟨continuousAt_const, continuousAt_const⟩

/-! ### Derivatives -/

theorem cara {f g : ℝ → ℂ} {s0 : ℝ} (h : ∀ᶠ s in 𝓝 s0, f s - f s0 = (s - s0) * g s) (hg : ContinuousAt g s0) :
    HasDerivAt f (g s0) s0 := by
  rw [hasDerivAt_iff_tendsto_slope]
  have h1 : Tendsto g (𝓝[≠] s0) (𝓝 (g s0)) := hg.tendsto.mono_left nhdsWithin_le_nhds
  refine h1.congr' ?_
  filter_upwards [h.filter_mono nhdsWithin_le_nhds, self_mem_nhdsWithin] with s hs hne
  have hne' : ((s:ℂ) - s0) ≠ 0 := by
    rw [← ofReal_sub]
    exact_mod_cast sub_ne_zero.2 hne
  rw [slope_def_module, hs, Complex.real_smul]
  push_cast
  rw [← mul_assoc, inv_mul_cancel₀ hne', one_mul]

theorem sqrtd {c : ℝ → ℝ} {D : ℂ} {s0 : ℝ} (pos : ∀ᶠ s in 𝓝 s0, 0 < c s) (h : HasDerivAt (fun s => ((c s : ℝ) : ℂ) ^ 2) D s0) :
    HasDerivAt c (D / (2 * c s0)).re s0 ∧ HasDerivAt (fun s => ((c s : ℝ) : ℂ)) (D / (2 * c s0)) s0 := by
  have p0 := pos.self_of_nhds
  have h1 : HasDerivAt (fun s => c s ^ 2) D.re s0 := by
    have := Complex.reCLM.hasFDerivAt.comp_hasDerivAt s0 h
    refine this.congr_of_eventuallyEq (Eventually.of_forall fun s => ?_)
    simp only [Function.comp_apply, reCLM_apply, ← ofReal_pow, ofReal_re]
  have h2 : HasDerivAt c (D.re / (2 * c s0)) s0 := by
    have := h1.sqrt (by positivity)
    rw [Real.sqrt_sq p0.le] at this
    refine this.congr_of_eventuallyEq ?_
    filter_upwards [pos] with s hs
    rw [Real.sqrt_sq hs.le]
  have h3 := h2.ofReal_comp
  have h4 := h3.pow 2
  have hc0 : (c s0 : ℂ) ≠ 0 := by exact_mod_cast p0.ne'
  have e := h.unique h4
  have e' : D / (2 * c s0) = ((D.re / (2 * c s0) : ℝ) : ℂ) := by
    rw [e]
    push_cast
    field_simp
    simp
  rw [e']
  refine ⟨?_, h3⟩
  rw [ofReal_re]
  exact h2

/-- C80: along a Love branch of a model the group velocity computed by the program is the derivative of the angular frequency with
respect to the wavenumber. -/
theorem C80_group {om : ℝ → ℝ} {m : ℕ → Medium ℂ} {k0 : ℝ} (B : Branch n liq I S (fun _ => m) thk iref pot U k0)
    (hk : ∀ s ∈ U, (I s).k = s) (hc : ∀ s ∈ U, (I s).c * s = om s) (hpos : ∀ s ∈ U, 0 < om s)
    {dep : ℕ → ℝ} (hdep : ∀ i, dep (i+1) = dep i + thk i) (hthk : ∀ i, i + 1 < n → 0 < thk i) (cdz : ℝ) (hcz : 0 ≤ cdz)
    (hfine : ∀ i, i + 1 < n → cdz * (1 / 100000) ≤ thk i) (fuel : ℕ) (hf : 1 ≤ fuel)
    (egy : ℂ × ℂ × ℂ) (hegy : egy = egyL (I k0) (thinL (I k0) thk dep (potUp (I k0) (S k0) iref (pot k0))
      (potDown (I k0) (S k0) iref (pot k0)) (thinLayers n thk dep cdz fuel))) (h1 : egy.1 ≠ 0) :
    HasDerivAt om (groupL (om k0) k0 egy) k0 := by
  have hn : 1 ≤ n := by have := B.hi; omega
  have N := B.nlay k0 B.mem
  set y := fun s => loveOut (I s) (S s) thk iref (pot s) with hy
  set V : ℕ → ℝ → ℂ := fun i s => layInt n thk (fun i z => (y k0 i z).v * (y s i z).v) i with hV
  set T : ℕ → ℝ → ℂ := fun i s => layInt n thk (fun i z => (y k0 i z).t * (y s i z).t) i with hT
  set Jm : ℝ → ℂ := fun s => ∑ i ∈ Finset.range n, (m i).mu * V i s with hJm
  set Jr : ℝ → ℂ := fun s => ∑ i ∈ Finset.range n, (m i).rho * V i s with hJr
  have cV : ∀ i ∈ Finset.range n, ContinuousAt (V i) k0 := fun i hi => (B.over (Finset.mem_range.1 hi)).1
  have cJm : ContinuousAt Jm k0 := tendsto_finsetSum _ fun i hi => continuousAt_const.mul (cV i hi)
  have cJr : ContinuousAt Jr k0 := tendsto_finsetSum _ fun i hi => continuousAt_const.mul (cV i hi)
  have E := C78_love (B.desc k0 B.mem) (iref := iref) (pot := pot k0) (by omega) hdep (by rw [N]; exact hthk) cdz hcz
    (by rw [N]; exact hfine) fuel hf
  rw [N, ← hegy] at E
  have e1 : egy.1 = 1/2 * Jr k0 := by
    rw [E]
    dsimp only
    have := depthInt_weight hn thk (fun i => 1/2 * (m i).rho) (fun i z => (y k0 i z).v ^ 2)
    rw [this, hJr, Finset.mul_sum]
    refine Finset.sum_congr rfl fun i _ => ?_
    simp only [hV, sq, mul_assoc]
  have e2 : egy.2.1 = 1/2 * Jm k0 := by
    rw [E]
    dsimp only
    have := depthInt_weight hn thk (fun i => 1/2 * (m i).mu) (fun i z => (y k0 i z).v ^ 2)
    rw [this, hJm, Finset.mul_sum]
    refine Finset.sum_congr rfl fun i _ => ?_
    simp only [hV, sq, mul_assoc]
  have hJ0 : Jr k0 ≠ 0 := by intro h; rw [e1, h] at h1; simp at h1
  have key : ∀ s ∈ U, ((s:ℂ)^2 - k0^2) * Jm s = ((om s:ℂ)^2 - (om k0:ℂ)^2) * Jr s := by
    intro s hs
    have a0 := (B.mode B.mem).1
    have as := (B.mode hs).1
    rw [hk _ B.mem, hc _ B.mem] at a0
    rw [hk _ hs, hc _ hs] at as
    have w1 := weak hn a0 as (B.decays B.mem) (B.decays hs)
    have w2 := weak hn as a0 (B.decays hs) (B.decays B.mem)
    have sw1 : (fun i z => (y s i z).v * (y k0 i z).v) = fun i z => (y k0 i z).v * (y s i z).v := by funext i z; ring
    have sw2 : (fun i z => (y s i z).t * (y k0 i z).t) = fun i z => (y k0 i z).t * (y s i z).t := by funext i z; ring
    rw [sw1, sw2] at w2
    have w3 := sub_eq_zero.2 (w2.trans w1.symm)
    rw [← Finset.sum_sub_distrib] at w3
    rw [← sub_eq_zero]
    simp only [hJm, hJr, Finset.mul_sum]
    rw [← Finset.sum_sub_distrib, ← w3]
    refine Finset.sum_congr rfl fun i _ => ?_
    simp only [hV]
    ring
  have sq : HasDerivAt (fun s => ((om s : ℝ) : ℂ) ^ 2) ((k0 + k0) * Jm k0 / Jr k0) k0 := by
    refine cara (g := fun s => ((s:ℂ) + k0) * Jm s / Jr s) ?_ ?_
    · filter_upwards [B.nbhd, cJr.eventually_ne hJ0] with s hs hne
      field_simp
      linear_combination -(key s hs)
    · exact (((Complex.continuous_ofReal.continuousAt).add continuousAt_const).mul cJm).div₀ cJr hJ0
  have D := (sqrtd (Filter.eventually_of_mem B.nbhd hpos) sq).1
  refine D.congr_deriv ?_
  unfold groupL
  congr 1
  rw [e1, e2]
  have o0 : (om k0 : ℂ) ≠ 0 := by exact_mod_cast (hpos k0 B.mem).ne'
  have kk : (k0:ℂ) ≠ 0 := by rw [← hk _ B.mem]; exact (B.desc k0 B.mem).k0
  push_cast
  field_simp
  ring

/-- C81: let the S velocities and densities of the layers depend on a parameter, the frequency stay fixed, and follow a Love mode.
The phase velocity changes at the rate given by the sensitivities of the thin layers. -/
theorem C81_sens {om : ℝ} {c : ℝ → ℝ} (B : Branch n liq I S m thk iref pot U s0)
    (hc : ∀ s ∈ U, (I s).c = c s) (hk : ∀ s ∈ U, (I s).c * (I s).k = om) (hpos : ∀ s ∈ U, 0 < c s)
    {vb rho : ℝ → ℕ → ℝ} {dvb drho : ℕ → ℝ} (hm : ∀ s ∈ U, ∀ i, i < n → (m s i).mu = rho s i * (vb s i : ℂ) ^ 2 ∧ (m s i).rho = rho s i)
    (hvb : ∀ i, i < n → HasDerivAt (fun s => vb s i) (dvb i) s0) (hrho : ∀ i, i < n → HasDerivAt (fun s => rho s i) (drho i) s0)
    {dep : ℕ → ℝ} (hdep : ∀ i, dep (i+1) = dep i + thk i) (hthk : ∀ i, i + 1 < n → 0 < thk i) (cdz : ℝ) (hcz : 0 ≤ cdz)
    (hfine : ∀ i, i + 1 < n → cdz * (1 / 100000) ≤ thk i) (fuel : ℕ) (hf : 1 ≤ fuel) {ks : List (ℕ × (ℂ × ℂ))}
    (hks : sensL (I s0) om (fun i => (vb s0 i : ℂ)) (thinL (I s0) thk dep (potUp (I s0) (S s0) iref (pot s0))
      (potDown (I s0) (S s0) iref (pot s0)) (thinLayers n thk dep cdz fuel)) = some ks) :
    HasDerivAt (fun s => (c s : ℂ)) ((ks.map fun p => p.2.1 * (dvb p.1 : ℂ) + p.2.2 * (drho p.1 : ℂ)).sum) s0 := by
  have hn : 1 ≤ n := by have := B.hi; omega
  have N := B.nlay s0 B.mem
  set y := fun s => loveOut (I s) (S s) thk iref (pot s) with hy
  set V : ℕ → ℝ → ℂ := fun i s => layInt n thk (fun i z => (y s0 i z).v * (y s i z).v) i with hV
  set T : ℕ → ℝ → ℂ := fun i s => layInt n thk (fun i z => (y s0 i z).t * (y s i z).t) i with hT
  set J : ℝ → ℂ := fun s => ∑ i ∈ Finset.range n, (m s i).mu * V i s with hJ
  -- differences of the media
  have dmu : ∀ i, i < n → HasDerivAt (fun s => (m s i).mu) ((drho i : ℂ) * (vb s0 i : ℂ) ^ 2 + rho s0 i * (2 * vb s0 i * dvb i)) s0 := by
    intro i hi
    have a := (hrho i hi).ofReal_comp.mul ((hvb i hi).ofReal_comp.pow 2)
    refine (a.congr_deriv ?_).congr_of_eventuallyEq (Filter.eventually_of_mem B.nbhd fun s hs => (hm s hs i hi).1)
    simp
  have drh : ∀ i, i < n → HasDerivAt (fun s => (m s i).rho) (drho i : ℂ) s0 := by
    intro i hi
    exact (hrho i hi).ofReal_comp.congr_of_eventuallyEq (Filter.eventually_of_mem B.nbhd fun s hs => (hm s hs i hi).2)
  set a : ℕ → ℝ → ℂ := fun i => dslope (fun s => (m s i).mu) s0 with ha
  set b : ℕ → ℝ → ℂ := fun i => dslope (fun s => (m s i).rho) s0 with hb
  have ca : ∀ i, i < n → ContinuousAt (a i) s0 := fun i hi => continuousAt_dslope_same.2 (dmu i hi).differentiableAt
  have cb : ∀ i, i < n → ContinuousAt (b i) s0 := fun i hi => continuousAt_dslope_same.2 (drh i hi).differentiableAt
  have ea : ∀ (i : ℕ) (s : ℝ), ((s:ℂ) - s0) * a i s = (m s i).mu - (m s0 i).mu := by
    intro i s
    have := sub_smul_dslope (fun s => (m s i).mu) s0 s
    rw [Complex.real_smul] at this
    push_cast at this
    exact this
  have eb : ∀ (i : ℕ) (s : ℝ), ((s:ℂ) - s0) * b i s = (m s i).rho - (m s0 i).rho := by
    intro i s
    have := sub_smul_dslope (fun s => (m s i).rho) s0 s
    rw [Complex.real_smul] at this
    push_cast at this
    exact this
  have cV : ∀ i, i < n → ContinuousAt (V i) s0 := fun i hi => (B.over hi).1
  have cT : ∀ i, i < n → ContinuousAt (T i) s0 := fun i hi => (B.over hi).2
  have cJ : ContinuousAt J s0 := tendsto_finsetSum _ fun i hi => (B.contmu i (Finset.mem_range.1 hi)).mul (cV i (Finset.mem_range.1 hi))
  -- solid or liquid
  have fit : ∀ s ∈ U, ∀ i, i < n → Fits (I s).c ((I s).lay i) (m s i) := fun s hs i hi => (B.desc s hs).fits i (by rw [B.nlay s hs]; exact hi)
  have sol : ∀ s ∈ U, ∀ i, i < n → liq i = false → (m s i).mu ≠ 0 := fun s hs i hi e =>
    ((fit s hs i hi).sol (by rw [B.liquid s hs, e])).1
  have liqd : ∀ s ∈ U, ∀ i, i < n → liq i = true → (m s i).mu = 0 := fun s hs i hi e =>
    (fit s hs i hi).liq (by rw [B.liquid s hs, e])
  set G : ℝ → ℂ := fun s => ∑ i ∈ Finset.range n, ((a i s * (I s0).k ^ 2 - b i s * om ^ 2) * V i s +
    (if liq i then 0 else a i s / ((m s0 i).mu * (m s i).mu) * T i s)) with hG
  have cG : ContinuousAt G s0 := by
    refine tendsto_finsetSum _ fun i hi => ?_
    have hi := Finset.mem_range.1 hi
    have p1 := (((ca i hi).mul (continuousAt_const (y := (I s0).k ^ 2))).sub ((cb i hi).mul (continuousAt_const (y := (om:ℂ)^2)))).mul (cV i hi)
    cases e : liq i
    · have s1 := sol s0 B.mem i hi e
      simp only [Bool.false_eq_true, if_false]
      exact p1.add (((ca i hi).div₀ (continuousAt_const.mul (B.contmu i hi)) (mul_ne_zero s1 s1)).mul (cT i hi))
    · simp only [if_true]
      exact p1.add continuousAt_const
  have key : ∀ s ∈ U, ((I s).k ^ 2 - (I s0).k ^ 2) * J s + (s - s0) * G s = 0 := by
    intro s hs
    have a0 := (B.mode B.mem).1
    have as := (B.mode hs).1
    rw [hk _ B.mem] at a0
    rw [hk _ hs] at as
    have w1 := weak hn a0 as (B.decays B.mem) (B.decays hs)
    have w2 := weak hn as a0 (B.decays hs) (B.decays B.mem)
    have sw1 : (fun i z => (y s i z).v * (y s0 i z).v) = fun i z => (y s0 i z).v * (y s i z).v := by funext i z; ring
    have sw2 : (fun i z => (y s i z).t * (y s0 i z).t) = fun i z => (y s0 i z).t * (y s i z).t := by funext i z; ring
    rw [sw1, sw2] at w2
    have w3 := sub_eq_zero.2 (w2.trans w1.symm)
    rw [← Finset.sum_sub_distrib] at w3
    simp only [hJ, hG, Finset.mul_sum]
    rw [← Finset.sum_add_distrib]
    refine Eq.trans ?_ w3
    refine Finset.sum_congr rfl fun i hi => ?_
    have hi := Finset.mem_range.1 hi
    have q1 := ea i s
    have q2 := eb i s
    change ((I s).k ^ 2 - (I s0).k ^ 2) * ((m s i).mu * V i s) + _ =
      ((m s i).mu * (I s).k ^ 2 - (m s i).rho * (om:ℂ) ^ 2) * V i s + 1 / (m s0 i).mu * T i s -
      (((m s0 i).mu * (I s0).k ^ 2 - (m s0 i).rho * (om:ℂ) ^ 2) * V i s + 1 / (m s i).mu * T i s)
    cases e : liq i
    · have s1 := sol s0 B.mem i hi e
      have s2 := sol s hs i hi e
      simp only [Bool.false_eq_true, if_false]
      have q3 : ((s:ℂ) - s0) * (a i s / ((m s0 i).mu * (m s i).mu)) = 1 / (m s0 i).mu - 1 / (m s i).mu := by
        rw [← mul_div_assoc, q1]; field_simp
      linear_combination ((I s0).k ^ 2 * V i s) * q1 - (om:ℂ) ^ 2 * V i s * q2 + T i s * q3
    · simp only [if_true, liqd s hs i hi e, liqd s0 B.mem i hi e, div_zero]
      rw [liqd s hs i hi e, liqd s0 B.mem i hi e] at q1
      linear_combination ((I s0).k ^ 2 * V i s) * q1 - (om:ℂ) ^ 2 * V i s * q2
  -- the sensitivities
  unfold sensL at hks
  dsimp only at hks
  split at hks
  · cases hks
  rename_i hdom
  injection hks with hks
  have E := C78_love (B.desc s0 B.mem) (iref := iref) (pot := pot s0) (by omega) hdep (by rw [N]; exact hthk) cdz hcz
    (by rw [N]; exact hfine) fuel hf
  have A := fun w => thin_all (B.desc s0 B.mem) (iref := iref) (pot := pot s0) (by omega) hdep (by rw [N]; exact hthk) cdz hcz
    (by rw [N]; exact hfine) fuel hf w
  rw [N] at E
  simp only [N] at A
  set l := thinL (I s0) thk dep (potUp (I s0) (S s0) iref (pot s0)) (potDown (I s0) (S s0) iref (pot s0)) (thinLayers n thk dep cdz fuel) with hl
  have e2 : (egyL (I s0) l).2.1 = 1/2 * J s0 := by
    rw [E]
    dsimp only
    have := depthInt_weight hn thk (fun i => 1/2 * (m s0 i).mu) (fun i z => (y s0 i z).v ^ 2)
    rw [this, hJ, Finset.mul_sum]
    refine Finset.sum_congr rfl fun i _ => ?_
    simp only [hV, sq, mul_assoc]
  have k0 : (I s0).k ≠ 0 := (B.desc s0 B.mem).k0
  have hJ0 : J s0 ≠ 0 := by intro h; apply hdom; rw [e2, h]; ring
  have ksq : HasDerivAt (fun s => ((c s : ℝ) : ℂ) ^ 2) (om ^ 2 / ((I s0).k ^ 2 * (I s0).k ^ 2) * (G s0 / J s0)) s0 := by
    refine cara (g := fun s => om ^ 2 / ((I s).k ^ 2 * (I s0).k ^ 2) * (G s / J s)) ?_ ?_
    · filter_upwards [B.nbhd, cJ.eventually_ne hJ0] with s hs hne
      have ks0 : (I s).k ≠ 0 := (B.desc s hs).k0
      have r1 : (c s : ℂ) = om / (I s).k := by rw [eq_div_iff ks0, ← hc s hs, hk s hs]
      have r2 : (c s0 : ℂ) = om / (I s0).k := by rw [eq_div_iff k0, ← hc s0 B.mem, hk s0 B.mem]
      have r3 : ((s:ℂ) - s0) * (G s / J s) = (I s0).k ^ 2 - (I s).k ^ 2 := by
        rw [← mul_div_assoc, div_eq_iff hne]; linear_combination key s hs
      rw [r1, r2, show ((s:ℂ) - s0) * (om ^ 2 / ((I s).k ^ 2 * (I s0).k ^ 2) * (G s / J s)) =
        om ^ 2 / ((I s).k ^ 2 * (I s0).k ^ 2) * (((s:ℂ) - s0) * (G s / J s)) by ring, r3]
      field_simp
    · exact (continuousAt_const.div₀ ((B.contk.pow 2).mul continuousAt_const) (mul_ne_zero (pow_ne_zero 2 k0) (pow_ne_zero 2 k0))).mul
        (cG.div₀ cJ hJ0)
  refine (sqrtd (Filter.eventually_of_mem B.nbhd hpos) ksq).2.congr_deriv ?_
  -- both sides as sums over layers
  set dom := 4 * (I s0).k ^ 2 * (egyL (I s0) l).2.1 with hdm
  set w2 : ℕ → ℂ := fun i => if liq i then 0 else
    (2 * ((I s0).lay i).mu / (vb s0 i / (I s0).c) * dvb i + ((I s0).lay i).mu / (((I s0).lay i).rho / (I s0).c) * drho i) / dom with hw2
  set w1 : ℕ → ℂ := fun i => if liq i then 0 else (I s0).k * (I s0).k * w2 i -
    ((I s0).lay i).rho * (om:ℂ) ^ 2 / (((I s0).lay i).rho / (I s0).c) * drho i / dom with hw1
  have hnum : (ks.map fun p => p.2.1 * (dvb p.1 : ℂ) + p.2.2 * (drho p.1 : ℂ)).sum =
      (l.map fun p => w1 p.1 * p.2.1).sum + (l.map fun p => w2 p.1 * p.2.2).sum := by
    rw [← hks, List.map_map, ← List.sum_map_add]
    congr 1
    refine List.map_congr_left fun p _ => ?_
    simp only [Function.comp_apply, sensNum, B.liquid s0 B.mem, hw1, hw2]
    cases liq p.1
    · simp only [Bool.false_eq_true, if_false]
      ring
    · simp
  rw [hnum, (A w1).1, (A w2).2, depthInt_weight hn thk w1 (fun i z => (y s0 i z).v ^ 2),
    depthInt_weight hn thk w2 (fun i z => ((y s0 i z).t / ((I s0).lay i).mu) ^ 2), ← Finset.sum_add_distrib]
  have hc0 : (c s0 : ℂ) ≠ 0 := by exact_mod_cast (hpos s0 B.mem).ne'
  have r2 : (om:ℂ) = c s0 * (I s0).k := by rw [← hc s0 B.mem, hk s0 B.mem]
  rw [show (om:ℂ) ^ 2 / ((I s0).k ^ 2 * (I s0).k ^ 2) * (G s0 / J s0) / (2 * c s0) = (c s0 / dom) * G s0 by
    rw [hdm, e2, r2]; field_simp; ring]
  simp only [hG, Finset.mul_sum]
  refine Finset.sum_congr rfl fun i hi => ?_
  have hi := Finset.mem_range.1 hi
  have v1 : layInt n thk (fun i z => (y s0 i z).v ^ 2) i = V i s0 := by simp only [hV, sq]
  have t1 : layInt n thk (fun i z => ((y s0 i z).t / ((I s0).lay i).mu) ^ 2) i = 1 / ((I s0).lay i).mu ^ 2 * T i s0 := by
    have := layInt_weight n thk (fun i => 1 / ((I s0).lay i).mu ^ 2) (fun i z => (y s0 i z).t * (y s0 i z).t) i
    rw [hT]
    dsimp only
    rw [← this]
    congr 1
    funext j z
    ring
  rw [v1, t1]
  have F := fit s0 B.mem i hi
  have M := hm s0 B.mem i hi
  have a0 : a i s0 = (drho i : ℂ) * (vb s0 i : ℂ) ^ 2 + rho s0 i * (2 * vb s0 i * dvb i) := by
    simp only [ha]; rw [dslope_same]; exact (dmu i hi).deriv
  have b0 : b i s0 = drho i := by
    simp only [hb]; rw [dslope_same]; exact (drh i hi).deriv
  cases e : liq i
  · have s1 := sol s0 B.mem i hi e
    have ρ0 := F.rho0
    simp only [hw1, hw2, e, Bool.false_eq_true, if_false]
    rw [F.mu, F.rho, a0, b0, M.1, M.2, hc s0 B.mem, r2]
    rw [M.1] at s1
    rw [M.2] at ρ0
    have v0 : (vb s0 i : ℂ) ≠ 0 := by intro h; apply s1; rw [h]; ring
    field_simp
    ring
  · have V0 : V i s0 = 0 := by
      have z1 := (B.mode B.mem).1.liquid i hi e
      have : ∀ z, (y s0 i z).v = 0 := fun z => (z1 z).1
      simp only [hV, layInt, this]
      simp
    simp only [hw1, hw2, e, if_true, V0]
    ring

/-! ### A solid plate of thickness `π` on a liquid half-space: the first overtone, `ω² = β² (k² + 1)` -/

/-- The plate has S velocity `b`, the wavenumber is `k`; densities and the modulus of the liquid are 1. -/
noncomputable def plate (b k : ℝ) : ModeIn ℂ where
  nlay := 2
  k := k
  c := (b * √(k^2 + 1) / k : ℝ)
  lay := fun i => if i = 0
    then ⟨false, 1, (b:ℂ)^2, (1 - ((k:ℂ)^2 + 1) / (3 * k^2)) ^ ((1:ℂ)/2), Complex.I / k, ((k:ℂ)^2 + 1) / (3 * k^2), ((k:ℂ)^2 + 1) / k^2⟩
    else ⟨true, 1, 0, (1 - (b:ℂ)^2 * (k^2 + 1) / k^2) ^ ((1:ℂ)/2), 1, (b:ℂ)^2 * (k^2 + 1) / k^2, 0⟩
  exa := fun _ => 1
  exb := fun i => exp (-((k:ℂ) * (Complex.I / k) * (Real.pi : ℝ)))

noncomputable def plateM (b : ℝ) : ℕ → Medium ℂ := fun i => if i = 0 then ⟨1, (b:ℂ)^2, (b:ℂ)^2⟩ else ⟨1, 1, 0⟩

def plateS : ℕ → SH ℂ := fun _ => { RDL := 1, RUL := 0, TDL := 0, TUL := 0 }

theorem plate_exp {b k : ℝ} (hk : 0 < k) : (plate b k).exb 0 = -1 := by
  have : (k:ℂ) ≠ 0 := by exact_mod_cast hk.ne'
  simp only [plate]
  rw [show -((k:ℂ) * (Complex.I / k) * (Real.pi : ℝ)) = -(Real.pi * Complex.I) by field_simp, Complex.exp_neg, Complex.exp_pi_mul_I]
  norm_num

theorem half_sq (x : ℂ) : x ^ ((1:ℂ)/2) * x ^ ((1:ℂ)/2) = x := by
  rw [← sq, one_div]
  exact_mod_cast Complex.cpow_nat_inv_pow x (n := 2) (by norm_num)

theorem plate_desc {b k : ℝ} (hb : 0 < b) (hk : 0 < k) : Describes (plate b k) plateS (plateM b) (fun _ => Real.pi) := by
  have k0 : (k:ℂ) ≠ 0 := by exact_mod_cast hk.ne'
  have b0 : (b:ℂ) ≠ 0 := by exact_mod_cast hb.ne'
  have hc : (plate b k).c * (plate b k).c = (b:ℂ)^2 * (k^2 + 1) / k^2 := by
    have h := Real.sq_sqrt (show 0 ≤ k^2 + 1 by positivity)
    simp only [plate]
    rw [← ofReal_mul, show b * √(k^2+1) / k * (b * √(k^2+1) / k) = b^2 * √(k^2+1)^2 / k^2 by ring, h]
    push_cast
    ring
  refine ⟨k0, ?_, ?_, ?_, ?_, ?_⟩
  · intro i _
    by_cases e : i = 0
    · subst e
      refine ⟨rfl, one_ne_zero, rfl, half_sq _, ?_, ?_, ?_, ?_⟩
      · simp only [plate, if_true]
        have := Complex.I_mul_I
        field_simp
        linear_combination this
      · rw [hc]
        simp only [plate, plateM, if_true]
        field_simp
        ring
      · intro h; simp [plate] at h
      · intro _
        rw [hc]
        simp only [plate, plateM, if_true]
        exact ⟨pow_ne_zero 2 b0, by ring⟩
    · refine ⟨by simp [plate, plateM, e], by simp [plateM, e], by simp [plate, plateM, e], ?_, ?_, ?_, ?_, ?_⟩
      · simp only [plate, if_neg e]; exact half_sq _
      · simp [plate, e]
      · rw [hc]; simp [plate, plateM, e]
      · simp [plateM, e]
      · simp [plate, e]
  · intro i _ h
    by_cases e : i = 0
    · simp [plate, e, k0]
    · simp [plate, e] at h
  · intro i hi
    have : i = 0 := by simp only [plate] at hi; omega
    subst this
    simp [plate]
  · intro i hi
    have : i = 0 := by simp only [plate] at hi; omega
    subst this
    simp [plate, plateS, rtSH, lsSH]
  · intro h
    simp [plate] at h

theorem plate_ok (b k : ℝ) : AllOkL (plate b k) plateS := by
  intro i hi
  have : i = 0 := by simp only [plate] at hi; omega
  subst this
  simp [allFR, allRL, plate, frArr, rlArr, capTopL, capBotL, recRU_SH, recRD_SH, resetM, Store.set]

theorem plate_sec {b k : ℝ} (hk : 0 < k) : loveSecular (plate b k) plateS 0 = some (0, (1, 1)) := by
  have h := plate_exp (b := b) hk
  have hl : loveLoop (plate b k) plateS 0 ((plate b k).nlay - 2) = some (resetM, resetM) := rfl
  have hn : (plate b k).nlay - 2 = 0 := rfl
  have hq : ((plate b k).lay 0).liquid = false := rfl
  simp only [loveSecular, loveMats, hl, Option.bind_some]
  simp [capTopL, capBotL, recRU_SH, recRD_SH, resetM, Store.set, topL, botL, freeBoundSH, putS, plateS, hn, hq, h]

theorem plate_branch {b k : ℝ → ℝ} {U : Set ℝ} {s0 : ℝ} (hU : U ∈ 𝓝 s0) (hb : ∀ s ∈ U, 0 < b s) (hk : ∀ s ∈ U, 0 < k s)
    (cb : ContinuousAt b s0) (ck : ContinuousAt k s0) :
    Branch 2 (fun i => decide (i ≠ 0)) (fun s => plate (b s) (k s)) (fun _ => plateS) (fun s => plateM (b s)) (fun _ => Real.pi) 0
      (fun _ => (1, 1)) U s0 where
  nbhd := hU
  nlay := fun _ _ => rfl
  liquid := fun s _ i => by by_cases e : i = 0 <;> simp [plate, e]
  desc := fun s hs => plate_desc (hb s hs) (hk s hs)
  ok := fun s _ => plate_ok _ _
  zero := fun s hs => plate_sec (hk s hs)
  hi := by decide
  solid := by decide
  contk := by
    simp only [plate]
    exact (Complex.continuous_ofReal.continuousAt).comp ck
  contmu := by
    intro i _
    by_cases e : i = 0
    · simp only [plateM, if_pos e]
      exact ((Complex.continuous_ofReal.continuousAt).comp cb).pow 2
    · simp only [plateM, if_neg e]
      exact continuousAt_const
  contxb := by
    intro i _
    by_cases e : i = 0
    · simp only [plate, if_pos e]
      exact continuousAt_const.div₀ ((Complex.continuous_ofReal.continuousAt).comp ck)
        (by exact_mod_cast (hk s0 (mem_of_mem_nhds hU)).ne')
    · simp only [plate, if_neg e]
      exact continuousAt_const

/-- The program's energy integrals of the plate. -/
theorem plate_egy {b k : ℝ} (hk : 0 < k) : egyL (plate b k) (thinL (plate b k) (fun _ => Real.pi) (fun i => i * Real.pi)
    (potUp (plate b k) plateS 0 (1, 1)) (potDown (plate b k) plateS 0 (1, 1)) (thinLayers 2 (fun _ => Real.pi) (fun i => i * Real.pi) 0 1)) =
    ((Real.pi:ℂ) * (k:ℂ)^2, (Real.pi:ℂ) * (b:ℂ)^2 * (k:ℂ)^2, (Real.pi:ℂ) * (b:ℂ)^2 * (k:ℂ)^2) := by
  have hp := Real.pi_pos
  have k0 : (k:ℂ) ≠ 0 := by exact_mod_cast hk.ne'
  have ht : thinLayers 2 (fun _ => Real.pi) (fun i => i * Real.pi) 0 1 = [(0, 0), (1, Real.pi)] := by
    simp [thinLayers, tops, List.range_succ, hp, abs_of_pos hp]
    norm_num
  have hd : potDown (plate b k) plateS 0 (1, 1) 0 = (1, 1) := rfl
  have hu : potUp (plate b k) plateS 0 (1, 1) 1 = (-1, -1) := by
    have h := plate_exp (b := b) hk
    have q0 : ((plate b k).lay 0).liquid = false := rfl
    have q1 : ((plate b k).lay 1).liquid = true := rfl
    have q2 : (plate b k).nlay = 2 := rfl
    simp [potUp, upDownL, q0, q1, q2, h, hd, plateS]
  have l0 : ((plate b k).lay 0).liquid = false := rfl
  have l1 : ((plate b k).lay 1).liquid = true := rfl
  have ex : exp (-((k:ℂ) * Real.pi * (Complex.I / k))) = -1 := by
    have := plate_exp (b := b) hk
    simp only [plate] at this
    rw [← this]
    congr 1
    ring
  rw [ht]
  simp only [thinL, l0, l1, hd, hu, egyL, List.map_cons, List.map_nil, List.sum_cons, List.sum_nil, Bool.false_eq_true, if_false, if_true]
  have e1 : ((plate b k).lay 0).xb = Complex.I / k := rfl
  have e2 : (plate b k).k = k := rfl
  have e3 : ((plate b k).lay 0).rho = 1 := rfl
  have e4 : ((plate b k).lay 0).mu = (b:ℂ)^2 := rfl
  rw [e1, e2, e3, e4]
  have hI := Complex.I_mul_I
  simp [subL, typL, ex, hp.le]
  refine ⟨by ring, by ring, ?_⟩
  field_simp
  linear_combination -2 * (b:ℂ)^2 * hI

/-- The hypotheses of `C80_group` are met: the plate with S velocity 1; the group velocity is `k/√(k²+1)`. -/
example (k0 : ℝ) (h0 : 0 < k0) : HasDerivAt (fun k => √(k^2 + 1)) (k0 / √(k0^2 + 1)) k0 := by
  have hU : Set.Ioi (0:ℝ) ∈ 𝓝 k0 := Ioi_mem_nhds h0
  have B := plate_branch (b := fun _ => 1) (k := fun s => s) hU (fun _ _ => one_pos) (fun _ hs => hs) continuousAt_const continuousAt_id
  have hp := Real.pi_pos
  have := C80_group (om := fun k => √(k^2 + 1)) (m := plateM 1) B (fun _ _ => rfl) (fun s hs => by
      have hs : 0 < s := hs
      simp only [plate]
      rw [← ofReal_mul]
      congr 1
      field_simp) (fun s _ => by positivity)
    (dep := fun i => i * Real.pi) (fun i => by push_cast; ring) (fun _ _ => hp) 0 le_rfl (fun _ _ => by simpa using hp.le) 1 le_rfl _ rfl
    (by
      rw [plate_egy h0]
      have : (k0:ℂ) ≠ 0 := by exact_mod_cast h0.ne'
      have : (Real.pi:ℂ) ≠ 0 := by exact_mod_cast hp.ne'
      simp [*])
  rw [plate_egy h0] at this
  refine this.congr_deriv ?_
  unfold groupL
  dsimp only
  have e : (Real.pi * (1:ℝ)^2 * k0^2 : ℂ) / (((√(k0^2+1) / k0 : ℝ):ℂ) * (Real.pi * k0^2)) = ((k0 / √(k0^2+1) : ℝ) : ℂ) := by
    push_cast
    have : (k0:ℂ) ≠ 0 := by exact_mod_cast h0.ne'
    have : (Real.pi:ℂ) ≠ 0 := by exact_mod_cast hp.ne'
    have : ((√(k0^2+1) : ℝ) : ℂ) ≠ 0 := by exact_mod_cast (show 0 < √(k0^2+1) by positivity).ne'
    field_simp
  rw [e, ofReal_re]

/-- The hypotheses of `C81_sens` are met: the S velocity of the plate is varied about 1 at frequency `ω = 2`. -/
example : ∃ ks, sensL (plate 1 (√3)) 2 (fun i => ((if i = 0 then 1 else 0 : ℝ) : ℂ)) (thinL (plate 1 (√3)) (fun _ => Real.pi) (fun i => i * Real.pi)
      (potUp (plate 1 (√3)) plateS 0 (1, 1)) (potDown (plate 1 (√3)) plateS 0 (1, 1))
      (thinLayers 2 (fun _ => Real.pi) (fun i => i * Real.pi) 0 1)) = some ks ∧
    HasDerivAt (fun s : ℝ => ((2 / √(4 / s^2 - 1) : ℝ) : ℂ))
      ((ks.map fun p => p.2.1 * ((if p.1 = 0 then 1 else 0 : ℝ) : ℂ) + p.2.2 * ((0:ℝ) : ℂ)).sum) 1 := by
  have hp := Real.pi_pos
  have h3 : (0:ℝ) < √3 := by positivity
  set kk : ℝ → ℝ := fun s => √(4 / s^2 - 1) with hkk
  have k1 : kk 1 = √3 := by simp only [hkk]; norm_num
  set U : Set ℝ := Set.Ioo 0 2 with hU
  have posi : ∀ s ∈ U, 0 < 4 / s^2 - 1 := by
    intro s hs
    have h1 : 0 < s := hs.1
    have h2 : s < 2 := hs.2
    rw [sub_pos, lt_div_iff₀ (by positivity)]
    nlinarith
  have nb : U ∈ 𝓝 (1:ℝ) := Ioo_mem_nhds (by norm_num) (by norm_num)
  have B := plate_branch (b := fun s => s) (k := kk) nb (fun _ hs => hs.1) (fun s hs => Real.sqrt_pos.2 (posi s hs)) continuousAt_id
    ((((continuousAt_const.div₀ (continuousAt_id.pow 2) (by norm_num)).sub continuousAt_const)).sqrt)
  have cs : ∀ s ∈ U, s * √(kk s ^ 2 + 1) / kk s = 2 / kk s := by
    intro s hs
    have h1 : 0 < s := hs.1
    have : kk s ^ 2 + 1 = (2 / s) ^ 2 := by
      simp only [hkk]
      rw [Real.sq_sqrt (posi s hs).le]; ring
    rw [this, Real.sqrt_sq (by positivity)]
    field_simp
  have egy := plate_egy (b := 1) h3
  have dom : (4 * (plate 1 (√3)).k ^ 2 * (egyL (plate 1 (√3)) (thinL (plate 1 (√3)) (fun _ => Real.pi) (fun i => i * Real.pi)
      (potUp (plate 1 (√3)) plateS 0 (1, 1)) (potDown (plate 1 (√3)) plateS 0 (1, 1))
      (thinLayers 2 (fun _ => Real.pi) (fun i => i * Real.pi) 0 1))).2.1) ≠ 0 := by
    rw [egy]
    have : ((√3 : ℝ) : ℂ) ≠ 0 := by exact_mod_cast h3.ne'
    have : (Real.pi:ℂ) ≠ 0 := by exact_mod_cast hp.ne'
    simp [plate, *]
  have hs : ∃ ks, sensL (plate 1 (√3)) 2 (fun i => ((if i = 0 then 1 else 0 : ℝ) : ℂ)) (thinL (plate 1 (√3)) (fun _ => Real.pi) (fun i => i * Real.pi)
      (potUp (plate 1 (√3)) plateS 0 (1, 1)) (potDown (plate 1 (√3)) plateS 0 (1, 1))
      (thinLayers 2 (fun _ => Real.pi) (fun i => i * Real.pi) 0 1)) = some ks := by
    unfold sensL
    dsimp only
    rw [if_neg dom]
    exact ⟨_, rfl⟩
  obtain ⟨ks, hks⟩ := hs
  refine ⟨ks, hks, ?_⟩
  refine C81_sens (om := 2) (c := fun s => 2 / kk s) B (fun s hs => ?_) (fun s hs => ?_) (fun s hs => ?_)
    (vb := fun s i => if i = 0 then s else 0) (rho := fun _ _ => 1) (dvb := fun i => if i = 0 then 1 else 0) (drho := fun _ => 0) ?_ ?_ ?_
    (dep := fun i => i * Real.pi) (fun i => by push_cast; ring) (fun _ _ => hp) 0 le_rfl (fun _ _ => by simpa using hp.le) 1 le_rfl
    (by rw [k1]; exact hks)
  · simp only [plate]; rw [cs s hs]
  · have : 0 < kk s := Real.sqrt_pos.2 (posi s hs)
    simp only [plate]
    rw [cs s hs, ← ofReal_mul]
    congr 1
    field_simp
  · have : 0 < kk s := Real.sqrt_pos.2 (posi s hs)
    positivity
  · intro s _ i _
    by_cases e : i = 0 <;> simp [plateM, e]
  · intro i _
    by_cases e : i = 0
    · simpa [e] using hasDerivAt_id' (1:ℝ)
    · simpa [e] using hasDerivAt_const (1:ℝ) (0:ℝ)
  · intro i _
    exact hasDerivAt_const _ _

end GRT.Modal
