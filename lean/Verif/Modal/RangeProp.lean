import Verif.Modal.Range

/-!
# C120: the theorem
-/

namespace GRT.Modal

open GRT.Layer Filter Complex

/-- A model as read from a file: layers with positive velocities and densities, no shear waves in liquids. -/
structure LayersOk (n : ℕ) (lay : ℕ → MLay) (rho : ℕ → ℝ) : Prop where
  some : 1 ≤ n
  thk : ∀ i, i < n → 0 ≤ (lay i).thk
  rho : ∀ i, i < n → 0 < rho i
  vb : ∀ i, i < n → (lay i).liquid = false → 0 < (lay i).vb
  va : ∀ i, i < n → (lay i).liquid = true → (lay i).vb = 0 ∧ 0 < (lay i).va

/-- A free Love wave of real velocity and wavenumber that is not zero. -/
structure LoveWave (n : ℕ) (lay : ℕ → MLay) (rho : ℕ → ℝ) (k c : ℝ) (y : ℕ → ℝ → SHS ℂ) : Prop where
  k0 : 0 < k
  c0 : 0 < c
  field : LoveField n (fun i => (lay i).liquid) (fun i => mediumOf (lay i) (rho i)) (fun i => (lay i).thk) k ((c : ℂ) * k) y
  ne : ∃ i z, i < n ∧ (y i z).v ≠ 0

section

variable {n : ℕ} {lay : ℕ → MLay} {rho : ℕ → ℝ} {k c : ℝ} {y : ℕ → ℝ → SHS ℂ}

/-- The equations in a solid layer with real coefficients. -/
theorem LoveWave.ode (W : LoveWave n lay rho k c y) {i : ℕ} (hi : i < n) (hl : (lay i).liquid = false) (z : ℝ) :
    HasDerivAt (fun z => (y i z).v) ((y i z).t / ((rho i * (lay i).vb ^ 2 : ℝ) : ℂ)) z ∧
    HasDerivAt (fun z => (y i z).t) (((rho i * k ^ 2 * ((lay i).vb ^ 2 - c ^ 2) : ℝ) : ℂ) * (y i z).v) z := by
  obtain ⟨h1, h2⟩ := W.field.motion i hi hl z
  refine ⟨h1, h2.congr_deriv ?_⟩
  unfold mediumOf
  push_cast
  ring

/-- A wave that is zero in the half-space is zero, when no liquid lies under a solid. -/
theorem LoveWave.zero_up (W : LoveWave n lay rho k c y) (hs : ∀ i, i + 1 < n → (lay i).liquid = false → (lay (i + 1)).liquid = false)
    (hz : ∀ z, (y (n - 1) z).v = 0 ∧ (y (n - 1) z).t = 0) : False := by
  have : ∀ d i, i + d = n - 1 → i < n → ∀ z, (y i z).v = 0 ∧ (y i z).t = 0 := by
    intro d
    induction d with
    | zero =>
      intro i hi _
      rw [show i = n - 1 by omega]
      exact hz
    | succ d ih =>
      intro i hi hin
      have h1 := ih (i + 1) (by omega) (by omega) 0
      cases hl : (lay i).liquid with
      | true => exact W.field.liquid i hin hl
      | false =>
        have hc := W.field.contact i (by omega)
        exact ode_zero (W.ode hin hl) ((hc.2 hl (hs i (by omega) hl)).trans h1.1) (hc.1.trans h1.2)
  obtain ⟨i, z, hi, h⟩ := W.ne
  exact h (this (n - 1 - i) i (by omega) hi z).1

/-- No flux of energy is directed upwards, when the wave is not faster than any shear wave. -/
theorem LoveWave.flux (W : LoveWave n lay rho k c y) (M : LayersOk n lay rho) (hc : ∀ i, i < n → (lay i).liquid = false → c ≤ (lay i).vb) :
    ∀ i, i < n → 0 ≤ (y i 0).v.re * (y i 0).t.re + (y i 0).v.im * (y i 0).t.im := by
  intro i
  induction i with
  | zero =>
    intro _
    rw [W.field.free]
    simp
  | succ i ih =>
    intro hi
    have hct := W.field.contact i hi
    cases hl : (lay i).liquid with
    | true =>
      rw [← hct.1, (W.field.liquid i (by omega) hl _).2]
      simp
    | false =>
      cases hl' : (lay (i + 1)).liquid with
      | true =>
        rw [(W.field.liquid (i + 1) hi hl' _).2]
        simp
      | false =>
        rw [← hct.1, ← hct.2 hl hl']
        have h1 : (0 : ℝ) < rho i * (lay i).vb ^ 2 := mul_pos (M.rho i (by omega)) (pow_pos (M.vb i (by omega) hl) 2)
        have h2 : 0 ≤ rho i * k ^ 2 * ((lay i).vb ^ 2 - c ^ 2) := by
          have := M.rho i (by omega)
          have := hc i (by omega) hl
          have := W.c0
          have : 0 ≤ (lay i).vb ^ 2 - c ^ 2 := by nlinarith
          positivity
        exact (ih (by omega)).trans (flux_mono (W.ode (by omega) hl) h1 h2 (M.thk i (by omega)))

/-- **C120**: every Love wave of a model in which no liquid lies under a solid is faster than the lower and slower than the upper end of the velocities
searched without `-X`. -/
theorem C120_love (M : LayersOk n lay rho) (hh : (lay (n - 1)).liquid = false)
    (hs : ∀ i, i + 1 < n → (lay i).liquid = false → (lay (i + 1)).liquid = false) (W : LoveWave n lay rho k c y) :
    ∃ cmin cmax, searchRange n lay = some (cmin, cmax) ∧ cmin < c ∧ c < cmax := by
  have hn : n - 1 < n := by have := M.some; omega
  have hvb := M.vb _ hn hh
  have hmu : (0 : ℝ) < rho (n - 1) * (lay (n - 1)).vb ^ 2 := mul_pos (M.rho _ hn) (pow_pos hvb 2)
  set vbmin := (List.range n).foldl (fun v i => min v (slow (lay i))) 9.9e30 with hvm
  have hlow : vbmin < c := by
    by_contra hn'
    push Not at hn'
    have hc : ∀ i, i < n → (lay i).liquid = false → c ≤ (lay i).vb := by
      intro i hi hl
      refine hn'.trans (((foldl_min_le (fun i => slow (lay i)) (List.range n) 9.9e30).2 i (by simpa using hi)).trans ?_)
      unfold slow
      rw [if_pos (M.vb i hi hl)]
    refine W.zero_up hs (decay_zero (W.ode hn hh) hmu ?_ (W.flux M hc _ hn) W.field.decay)
    have := M.rho _ hn
    have := hc _ hn hh
    have := W.c0
    have : 0 ≤ (lay (n - 1)).vb ^ 2 - c ^ 2 := by nlinarith
    positivity
  have hhigh : c < (lay (n - 1)).vb := by
    by_contra hn'
    push Not at hn'
    refine W.zero_up hs (travel_zero (W.ode hn hh) hmu ?_ W.field.decay)
    have h1 := M.rho _ hn
    have h2 : (lay (n - 1)).vb ^ 2 - c ^ 2 ≤ 0 := by nlinarith
    exact mul_nonpos_of_nonneg_of_nonpos (by positivity) h2
  refine ⟨vbmin, (lay (n - 1)).vb, ?_, hlow, hhigh⟩
  unfold searchRange
  simp only
  rw [if_neg (show ¬ ∃ i, i < n - 1 ∧ (lay i).liquid = false ∧ (lay (i + 1)).liquid = true from ?_), if_neg hvb.ne', ← hvm, if_neg (by push Not; linarith)]
  rintro ⟨i, h1, h2, h3⟩
  rw [hs i (by omega) h2] at h3
  exact absurd h3 (by simp)

/-- A model refused for its velocities has no Love waves. -/
theorem C120_refused (M : LayersOk n lay rho) (hh : (lay (n - 1)).liquid = false)
    (hs : ∀ i, i + 1 < n → (lay i).liquid = false → (lay (i + 1)).liquid = false) (hr : searchRange n lay = none) :
    ¬ ∃ k c y, LoveWave n lay rho k c y := by
  rintro ⟨k, c, y, W⟩
  obtain ⟨a, b, h, -⟩ := C120_love M hh hs W
  rw [hr] at h
  exact absurd h (by simp)

end

/-- **C120** is violated where a liquid lies under a solid, as with ice on deep water: when shear waves are faster in the plate than sound in the liquid, no
Love wave of the plate is in the velocities searched. -/
theorem C120_violated {ice water : MLay} {rho : ℕ → ℝ} (hi : ice.liquid = false) (hw : water.liquid = true) (ht : 0 < ice.thk) (h0 : 0 < ice.vb) (h1 : water.vb = 0)
    (h3 : water.va ≤ ice.vb) (hr : 0 < rho 0) :
    (∀ k c y, LoveWave 2 (fun i => if i = 0 then ice else water) rho k c y → ∀ cmin cmax, searchRange 2 (fun i => if i = 0 then ice else water) = some (cmin, cmax) → cmax ≤ c) ∧
    ∀ k, 0 < k → ∃ c y, LoveWave 2 (fun i => if i = 0 then ice else water) rho k c y := by
  constructor
  · intro k c y W cmin cmax hsr
    have hmax : cmax = water.va := by
      unfold searchRange at hsr
      simp only [show (2 - 1 : ℕ) = 1 from rfl, one_ne_zero, if_false, h1, if_true] at hsr
      by_cases hc : water.va ≤ if ∃ i, i < 1 ∧ (if i = 0 then ice else water).liquid = false ∧ (if i + 1 = 0 then ice else water).liquid = true then
          (List.range 2).foldl (fun v i => min v (slow (if i = 0 then ice else water))) 9.9e30 * 1e-3
        else (List.range 2).foldl (fun v i => min v (slow (if i = 0 then ice else water))) 9.9e30
      · rw [if_pos hc] at hsr
        exact absurd hsr (by simp)
      · rw [if_neg hc] at hsr
        simp only [Option.some.injEq, Prod.mk.injEq] at hsr
        exact hsr.2.symm
    rw [hmax]
    refine h3.trans ?_
    by_contra hn
    push Not at hn
    have hmu : (0 : ℝ) < rho 0 * ice.vb ^ 2 := by positivity
    have hc0 := W.c0
    have hk := W.k0
    have hpos : 0 < ice.vb ^ 2 - c ^ 2 := by nlinarith
    have ode := W.ode (i := 0) (by omega) (by simpa using hi)
    simp only [if_true] at ode
    have hmono := flux_mono ode hmu (by positivity)
    have hbot : (y 0 ice.thk).t = 0 := by
      have := (W.field.contact 0 (by omega)).1
      simp only [if_true] at this
      rw [this]
      exact (W.field.liquid 1 (by omega) (by simpa using hw) 0).2
    -- the flux is zero at both sides of the plate, hence inside
    have hzero : ∀ z, 0 ≤ z → z ≤ ice.thk → (y 0 z).v.re * (y 0 z).t.re + (y 0 z).v.im * (y 0 z).t.im = 0 := by
      intro z a b
      have e1 := hmono a
      have e2 := hmono b
      simp only [W.field.free, hbot, zero_re, zero_im, mul_zero, add_zero] at e1 e2
      linarith
    have hd := flux_deriv ode (ice.thk / 2)
    have hd0 : HasDerivAt (fun z => (y 0 z).v.re * (y 0 z).t.re + (y 0 z).v.im * (y 0 z).t.im) 0 (ice.thk / 2) := by
      refine (hasDerivAt_const (ice.thk / 2) (0 : ℝ)).congr_of_eventuallyEq ?_
      filter_upwards [Ioo_mem_nhds (show 0 < ice.thk / 2 by linarith) (show ice.thk / 2 < ice.thk by linarith)] with z hz
      exact hzero z hz.1.le hz.2.le
    have he := hd.unique hd0
    have g1 := normSq_nonneg (y 0 (ice.thk / 2)).t
    have g2 := normSq_nonneg (y 0 (ice.thk / 2)).v
    have g3 : 0 ≤ normSq (y 0 (ice.thk / 2)).t / (rho 0 * ice.vb ^ 2) := by positivity
    have g4 : 0 ≤ rho 0 * k ^ 2 * (ice.vb ^ 2 - c ^ 2) * normSq (y 0 (ice.thk / 2)).v := by positivity
    have v0 : (y 0 (ice.thk / 2)).v = 0 := by
      have : rho 0 * k ^ 2 * (ice.vb ^ 2 - c ^ 2) * normSq (y 0 (ice.thk / 2)).v = 0 := by linarith
      rcases mul_eq_zero.1 this with q | q
      · exact absurd q (by positivity)
      · exact normSq_eq_zero.1 q
    have t0 : (y 0 (ice.thk / 2)).t = 0 := by
      have : normSq (y 0 (ice.thk / 2)).t / (rho 0 * ice.vb ^ 2) = 0 := by linarith
      rcases div_eq_zero_iff.1 this with q | q
      · exact normSq_eq_zero.1 q
      · exact absurd q hmu.ne'
    have all := ode_zero ode v0 t0
    obtain ⟨i, z, hi2, hne⟩ := W.ne
    have : i = 0 ∨ i = 1 := by omega
    rcases this with rfl | rfl
    · exact hne (all z).1
    · exact hne (W.field.liquid 1 (by omega) (by simpa using hw) z).1
  · intro k hk
    refine ⟨ice.vb, fun i _ => if i = 0 then ⟨1, 0⟩ else ⟨0, 0⟩, hk, h0, ?_, 0, 0, by omega, by simp⟩
    refine ⟨?_, ?_, by simp, ?_, ?_⟩
    · intro i hi2 hl z
      have : i = 0 := by
        by_contra hne
        simp only [if_neg hne, hw] at hl
        exact absurd hl (by simp)
      subst this
      simp only [if_true]
      refine ⟨(hasDerivAt_const z (1 : ℂ)).congr_deriv (by simp), (hasDerivAt_const z (0 : ℂ)).congr_deriv ?_⟩
      unfold mediumOf
      push_cast
      ring
    · intro i hi2 hl z
      have : i ≠ 0 := by
        rintro rfl
        simp only [if_true, hi] at hl
        exact absurd hl (by simp)
      simp [this]
    · intro i hi2
      have : i = 0 := by omega
      subst this
      simp [hw]
    · simp

/-! ### Cases -/

/-- A layer on a half-space. -/
noncomputable def exLay (i : ℕ) : MLay := if i = 0 then ⟨2, 1, Real.pi / 4, false⟩ else ⟨4, 2, 0, false⟩

noncomputable def exRho (i : ℕ) : ℝ := if i = 0 then 1 else √2 / 4

theorem exLay_ok : LayersOk 2 exLay exRho := by
  refine ⟨by norm_num, ?_, ?_, ?_, ?_⟩
  · intro i _
    unfold exLay
    split_ifs
    · exact (div_pos Real.pi_pos (by norm_num)).le
    · exact le_rfl
  · intro i _
    unfold exRho
    split_ifs <;> positivity
  · intro i _ _
    unfold exLay
    split_ifs <;> norm_num
  · intro i _ h
    unfold exLay at h
    split_ifs at h

/-- The Love wave of velocity √2 and wavenumber 1. -/
noncomputable def exWave (i : ℕ) (z : ℝ) : SHS ℂ :=
  if i = 0 then ⟨(Real.cos z : ℝ), (-Real.sin z : ℝ)⟩
  else ⟨(√2 / 2 * Real.exp (-(√2 / 2) * z) : ℝ), (-(√2 / 2 * Real.exp (-(√2 / 2) * z)) : ℝ)⟩

theorem exWave_love : LoveWave 2 exLay exRho 1 (√2) exWave := by
  have s2 : √2 * √2 = (2 : ℝ) := Real.mul_self_sqrt (by norm_num)
  have s2c : ((√2 : ℝ) : ℂ) * (√2 : ℝ) = 2 := by exact_mod_cast s2
  have hexp : ∀ z : ℝ, HasDerivAt (fun z : ℝ => √2 / 2 * Real.exp (-(√2 / 2) * z)) (√2 / 2 * (Real.exp (-(√2 / 2) * z) * -(√2 / 2))) z := by
    intro z
    have := ((hasDerivAt_id z).const_mul (-(√2 / 2))).exp.const_mul (√2 / 2)
    simpa using this
  refine ⟨one_pos, by positivity, ⟨?_, ?_, ?_, ?_, ?_⟩, 0, 0, by norm_num, by simp [exWave]⟩
  · intro i hi _ z
    have : i = 0 ∨ i = 1 := by omega
    rcases this with rfl | rfl
    · simp only [exWave, exLay, exRho, mediumOf, if_true]
      refine ⟨(Real.hasDerivAt_cos z).ofReal_comp.congr_deriv (by push_cast; ring), (Real.hasDerivAt_sin z).neg.ofReal_comp.congr_deriv ?_⟩
      push_cast
      linear_combination (Complex.cos z) * s2c
    · simp only [exWave, exLay, exRho, mediumOf, one_ne_zero, if_false]
      refine ⟨(hexp z).ofReal_comp.congr_deriv ?_, (hexp z).neg.ofReal_comp.congr_deriv ?_⟩
      · rw [eq_div_iff (by
          have : (√2 / 4 * 2 ^ 2 : ℝ) ≠ 0 := by positivity
          exact_mod_cast this)]
        push_cast
        linear_combination (-(1 / 4) * ((√2 : ℝ) : ℂ) * Complex.exp (-(((√2 : ℝ) : ℂ) / 2) * z)) * s2c
      · push_cast
        linear_combination (1 / 8 * ((√2 : ℝ) : ℂ) ^ 2 * Complex.exp (-(((√2 : ℝ) : ℂ) / 2) * z)) * s2c
  · intro i _ h
    simp only [exLay] at h
    split_ifs at h
  · simp [exWave]
  · intro i hi
    have : i = 0 := by omega
    subst this
    simp [exWave, exLay]
  · have h1 : Tendsto (fun z : ℝ => √2 / 2 * Real.exp (-(√2 / 2) * z)) atTop (nhds (√2 / 2 * 0)) := by
      apply Tendsto.const_mul
      apply Real.tendsto_exp_atBot.comp
      exact tendsto_id.const_mul_atTop_of_neg (by
        have : 0 < √2 := by positivity
        linarith)
    rw [mul_zero] at h1
    have := (continuous_ofReal.tendsto 0).comp h1
    simpa [exWave, Function.comp_def] using this

/-- The wave is found in the range 1 to 2. -/
example : ∃ cmin cmax, searchRange 2 exLay = some (cmin, cmax) ∧ cmin < √2 ∧ √2 < cmax :=
  C120_love exLay_ok (by simp [exLay]) (by intro i _ _; simp only [exLay]; split_ifs <;> rfl) exWave_love

/-- A half-space alone is refused, and has no Love waves. -/
example : ¬ ∃ k c y, LoveWave 1 (fun _ => ⟨6, 3, 0, false⟩) (fun _ => 3) k c y := by
  apply C120_refused ⟨le_rfl, by simp, by simp, by simp, by simp⟩ (by simp) (by simp)
  unfold searchRange slow
  norm_num

/-- Ice on deep water: shear waves of 1.9 km/s, sound of 1.45 km/s. -/
example : ∃ c y, LoveWave 2 (fun i => if i = 0 then ⟨3.8, 1.9, 0.003, false⟩ else ⟨1.45, 0, 0, true⟩) (fun _ => 1) 10 c y :=
  (C120_violated (ice := ⟨3.8, 1.9, 0.003, false⟩) (water := ⟨1.45, 0, 0, true⟩) (rho := fun _ => 1) rfl rfl (by norm_num) (by norm_num) rfl (by norm_num) (by norm_num)).2
    10 (by norm_num)

end GRT.Modal
