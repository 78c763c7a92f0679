import Verif.Integ.Pk
import Mathlib.MeasureTheory.Integral.IntervalIntegral.FundThmCalculus
import Mathlib.Analysis.Complex.RealDeriv

/-!
Quadratic interpolation and its integral against the far-field form of the Bessel functions
(pygrt/C_extension/src/integral/quadratic.c 20-57, k_integ.c 198-275).
-/

open Real MeasureTheory Set

namespace GRT.Integ

/-- Coefficients `a`, `b`, `c` of `grt_quad_term`, quadratic.c 20-41. -/
noncomputable def quadTerm (x : Fin 3 → ℝ) (f : Fin 3 → ℂ) : ℂ × ℂ × ℂ :=
  let w := fun i => x i * x i
  let d : ℂ := (((x 0 - x 1) * (x 1 - x 2) * (x 2 - x 0) : ℝ) : ℂ)
  (-(f 0 * (x 1 - x 2 : ℝ) + f 1 * (x 2 - x 0 : ℝ) + f 2 * (x 0 - x 1 : ℝ)) / d,
   (f 0 * (w 1 - w 2 : ℝ) + f 1 * (w 2 - w 0 : ℝ) + f 2 * (w 0 - w 1 : ℝ)) / d,
   -(f 0 * x 1 * x 2 * (x 1 - x 2 : ℝ) + f 1 * x 2 * x 0 * (x 2 - x 0 : ℝ) + f 2 * x 0 * x 1 * (x 0 - x 1 : ℝ)) / d)

/-- `grt_quad_eval`, quadratic.c 45-48. -/
noncomputable def quadEval (x : ℝ) (q : ℂ × ℂ × ℂ) : ℂ := q.1 * x * x + q.2.1 * x + q.2.2

/-- `grt_quad_integral`, quadratic.c 51-57. -/
noncomputable def quadIntegral (x1 x2 : ℝ) (q : ℂ × ℂ × ℂ) : ℂ :=
  q.1 / 3 * (x2 * x2 * x2 - x1 * x1 * x1 : ℝ) + q.2.1 / 2 * (x2 * x2 - x1 * x1 : ℝ) + q.2.2 * (x2 - x1 : ℝ)

/-- `interg_quad_cos`, k_integ.c 198-233; `kodr` is 1 in the derivative form and 0 otherwise. -/
noncomputable def quadCos (q : ℂ × ℂ × ℂ) (n : ℕ) (r k1 k2 : ℝ) (kodr : Bool) : ℂ :=
  let a := q.1
  let b := q.2.1
  let c := q.2.2
  let phi := (2 * n + 1) / 4 * π
  let s1 : ℝ := sin (k1 * r - phi)
  let c1 : ℝ := cos (k1 * r - phi)
  let s2 : ℝ := sin (k2 * r - phi)
  let c2 : ℝ := cos (k2 * r - phi)
  if kodr then
    6 * a * (c1 - c2) / (r * r * r * r)
      + (-a * (k1 * k1 * k1) * s1 + a * (k2 * k2 * k2) * s2 - b * (k1 * k1) * s1 + b * (k2 * k2) * s2 - c * k1 * s1 + c * k2 * s2) / r
      + (-3 * a * (k1 * k1) * c1 + 3 * a * (k2 * k2) * c2 - 2 * b * k1 * c1 + 2 * b * k2 * c2 - c * c1 + c * c2) / (r * r)
      + 2 * (3 * a * k1 * s1 - 3 * a * k2 * s2 + b * s1 - b * s2) / (r * r * r)
  else
    2 * a * (s1 - s2) / (r * r * r)
      + (-a * k1 * k1 * s1 + a * k2 * k2 * s2 - b * k1 * s1 + b * k2 * s2 - c * s1 + c * s2) / r
      + (-2 * a * k1 * c1 + 2 * a * k2 * c2 - b * c1 + b * c2) / (r * r)

/-- Quadratics fitted to `sqrt(k) F` for one source and channel, k_integ.c 248-258. -/
noncomputable def saFit (k3 : Fin 3 → ℝ) (Q3 : Fin 3 → Chnl) (uir : Bool) (i : Fin 6) (c : Fin 3) : ℂ × ℂ × ℂ :=
  if order i = 0 ∧ c = 2 then (0, 0, 0)
  else quadTerm k3 fun d => Q3 d i c * (√(k3 d) : ℝ) * (if uir then -1 else 1)

/-- `grt_int_Pk_sa_filon`, k_integ.c 237-275. -/
noncomputable def intPkSa (k3 : Fin 3 → ℝ) (r : ℝ) (Q3 : Fin 3 → Chnl) (uir : Bool) (old : Grid) : Grid := fun i =>
  let g := fun c (n : ℕ) => quadCos (saFit k3 Q3 uir i c) (n + if uir then 1 else 0) r (k3 0) (k3 2) uir
  match order i with
  | 0 => ![-g 0 1, old i 1, g 1 0, old i 3]
  | 1 => ![g 0 0, 0, g 1 1, -g 2 0]
  | 2 => ![g 0 1, 0, g 1 2, -g 2 1]

/-! ### Specification -/

/-- Far-field form of the Bessel function of order `n`, without the factor `sqrt(2/(πx))`. -/
noncomputable def far (n : ℕ) (x : ℝ) : ℝ := cos (x - (2 * n + 1) * π / 4)

/-- Its derivative with respect to the distance at wavenumber `k`, if `d` is set. -/
noncomputable def farD (n : ℕ) (d : Bool) (k r : ℝ) : ℝ := if d then deriv (fun r => far n (k * r)) r else far n (k * r)

/-- The far-field integrals of a source of order `m`: factor, channel and Bessel order of each of the four integrals. -/
def farTable (m : Fin 3) (v : Fin 4) : ℤ × Fin 3 × ℕ :=
  match m, v with
  | 0, 0 => (-1, 0, 1)
  | 0, 2 => (1, 1, 0)
  | 1, 0 => (1, 0, 0)
  | 1, 2 => (1, 1, 1)
  | 1, 3 => (-1, 2, 0)
  | 2, 0 => (1, 0, 1)
  | 2, 2 => (1, 1, 2)
  | 2, 3 => (-1, 2, 1)
  | _, _ => (0, 0, 0)

/-- Amplitude of one far-field integral at wavenumber `k`: `sqrt(k)` times the channel. -/
noncomputable def amp (i : Fin 6) (v : Fin 4) (k : ℝ) (Q : Chnl) : ℂ :=
  (farTable (order i) v).1 * Q i (farTable (order i) v).2.1 * (√k : ℝ)

/-- Bessel order of one far-field integral. -/
def ford (i : Fin 6) (v : Fin 4) : ℕ := (farTable (order i) v).2.2

/-- The integrals in the table are those of the exact integrand (`pkEntry` in `intPk`), with the Bessel functions replaced by
`b` and the near-field entry left out. -/
theorem farTable_pk (b : ℕ → ℝ) (m : Fin 3) (f : Fin 3 → ℂ) (v : Fin 4) :
    pkEntry (fun n => b n) 0 m f 0 v = (farTable m v).1 * f (farTable m v).2.1 * b (farTable m v).2.2 := by
  fin_cases m <;> fin_cases v <;> simp [pkEntry, farTable]

/-- The function is a polynomial of degree at most two on `[a, b]`. -/
def QuadOn (L : ℝ → ℂ) (a b : ℝ) : Prop := ∃ p q s : ℂ, ∀ k ∈ Icc a b, L k = p * k ^ 2 + q * k + s

/-! ### Exactness -/

/-- C40: the fitted quadratic takes the sample values at the samples. -/
theorem C40_quad_interpolates (x : Fin 3 → ℝ) (f : Fin 3 → ℂ) (h01 : x 0 ≠ x 1) (h12 : x 1 ≠ x 2) (h20 : x 2 ≠ x 0) (i : Fin 3) :
    quadEval (x i) (quadTerm x f) = f i := by
  have a : ((x 0 : ℂ) - x 1) ≠ 0 := by exact_mod_cast sub_ne_zero.2 h01
  have b : ((x 1 : ℂ) - x 2) ≠ 0 := by exact_mod_cast sub_ne_zero.2 h12
  have c : ((x 2 : ℂ) - x 0) ≠ 0 := by exact_mod_cast sub_ne_zero.2 h20
  unfold quadEval quadTerm
  push_cast
  fin_cases i <;> simp only [Fin.zero_eta, Fin.mk_one, Fin.reduceFinMk] <;> field_simp <;> ring

/-- … and no other polynomial of degree at most two does. -/
theorem C40_quad_unique (x : Fin 3 → ℝ) (h01 : x 0 ≠ x 1) (h12 : x 1 ≠ x 2) (h20 : x 2 ≠ x 0) (p q s : ℂ) (k : ℝ) :
    quadEval k (quadTerm x fun i => p * x i ^ 2 + q * x i + s) = p * k ^ 2 + q * k + s := by
  have a : ((x 0 : ℂ) - x 1) ≠ 0 := by exact_mod_cast sub_ne_zero.2 h01
  have b : ((x 1 : ℂ) - x 2) ≠ 0 := by exact_mod_cast sub_ne_zero.2 h12
  have c : ((x 2 : ℂ) - x 0) ≠ 0 := by exact_mod_cast sub_ne_zero.2 h20
  unfold quadEval quadTerm
  push_cast
  field_simp
  ring

example : quadEval 3 (quadTerm ![1, 2, 4] ![5, 7, Complex.I]) ≠ 0 := by
  have : quadEval 3 (quadTerm ![1, 2, 4] ![5, 7, Complex.I]) = 16 / 3 + Complex.I / 3 := by
    simp [quadEval, quadTerm]
    ring
  rw [this]
  intro h
  have := congrArg Complex.re h
  norm_num at this

/-- C40: `grt_quad_integral` is the integral of the quadratic. -/
theorem C40_quad_integral (x1 x2 : ℝ) (q : ℂ × ℂ × ℂ) : quadIntegral x1 x2 q = ∫ k in x1..x2, quadEval k q := by
  have hd : ∀ k ∈ uIcc x1 x2, HasDerivAt (fun k : ℝ => q.1 / 3 * (k : ℂ) ^ 3 + q.2.1 / 2 * (k : ℂ) ^ 2 + q.2.2 * k) (quadEval k q) k := by
    intro k _
    have h1 : HasDerivAt (fun z : ℂ => q.1 / 3 * z ^ 3 + q.2.1 / 2 * z ^ 2 + q.2.2 * z) (quadEval k q) (k : ℂ) := by
      refine ((((hasDerivAt_pow 3 (k : ℂ)).const_mul (q.1 / 3)).add ((hasDerivAt_pow 2 (k : ℂ)).const_mul (q.2.1 / 2))).add
        ((hasDerivAt_id (k : ℂ)).const_mul q.2.2)).congr_deriv ?_
      unfold quadEval
      push_cast
      ring
    exact h1.comp_ofReal
  rw [intervalIntegral.integral_eq_sub_of_hasDerivAt hd]
  · unfold quadIntegral
    push_cast
    ring
  · apply Continuous.intervalIntegrable
    unfold quadEval
    fun_prop

/-- C40: `interg_quad_cos` is the integral of the quadratic, times the wavenumber in the derivative form, against the cosine. -/
theorem C40_quad_cos (q : ℂ × ℂ × ℂ) (n : ℕ) (r k1 k2 : ℝ) (hr : r ≠ 0) (kodr : Bool) :
    quadCos q n r k1 k2 kodr = ∫ k in k1..k2, quadEval k q * (if kodr then (k : ℂ) else 1) * (far n (k * r) : ℝ) := by
  obtain ⟨a, b, c⟩ := q
  have hrc : (r : ℂ) ≠ 0 := by exact_mod_cast hr
  set phi : ℝ := (2 * n + 1) / 4 * π with hphi
  have efar : ∀ k : ℝ, far n (k * r) = cos (k * r - phi) := fun k => by
    unfold far
    rw [hphi]
    ring_nf
  have ds : ∀ k : ℝ, HasDerivAt (fun k : ℝ => ((sin (k * r - phi) : ℝ) : ℂ)) ((cos (k * r - phi) * r : ℝ) : ℂ) k := fun k => by
    refine HasDerivAt.ofReal_comp ?_
    exact ((hasDerivAt_sin _).comp k (((hasDerivAt_id k).mul_const r).sub_const phi)).congr_deriv (by simp)
  have dc : ∀ k : ℝ, HasDerivAt (fun k : ℝ => ((cos (k * r - phi) : ℝ) : ℂ)) ((-sin (k * r - phi) * r : ℝ) : ℂ) k := fun k => by
    refine HasDerivAt.ofReal_comp ?_
    exact ((hasDerivAt_cos _).comp k (((hasDerivAt_id k).mul_const r).sub_const phi)).congr_deriv (by simp)
  have dp : ∀ k : ℝ, HasDerivAt (fun k : ℝ => (k : ℂ)) 1 k := fun k => (hasDerivAt_id (k : ℂ)).comp_ofReal
  simp only [efar]
  cases kodr
  · simp only [Bool.false_eq_true, if_false, mul_one]
    have hd : ∀ k ∈ uIcc k1 k2, HasDerivAt (fun k : ℝ => (-2 * a / r ^ 3 + (a * k * k + b * k + c) / r) * ((sin (k * r - phi) : ℝ) : ℂ) +
        (2 * a * k + b) / r ^ 2 * ((cos (k * r - phi) : ℝ) : ℂ)) (quadEval k (a, b, c) * ((cos (k * r - phi) : ℝ) : ℂ)) k := by
      intro k _
      have h1 := ((((((dp k).const_mul a).mul (dp k)).add ((dp k).const_mul b)).add_const c).div_const (r : ℂ)).const_add (-2 * a / r ^ 3)
      have h2 := (((dp k).const_mul (2 * a)).add_const b).div_const ((r : ℂ) ^ 2)
      refine ((h1.mul (ds k)).add (h2.mul (dc k))).congr_deriv ?_
      unfold quadEval
      push_cast
      simp only [Pi.mul_apply, Pi.add_apply]
      field_simp
      ring
    rw [intervalIntegral.integral_eq_sub_of_hasDerivAt hd]
    · unfold quadCos
      simp only [Bool.false_eq_true, if_false, ← hphi]
      generalize ((sin (k1 * r - phi) : ℝ) : ℂ) = s1
      generalize ((sin (k2 * r - phi) : ℝ) : ℂ) = s2
      generalize ((cos (k1 * r - phi) : ℝ) : ℂ) = c1
      generalize ((cos (k2 * r - phi) : ℝ) : ℂ) = c2
      field_simp
      ring
    · apply Continuous.intervalIntegrable
      unfold quadEval
      fun_prop
  · simp only [if_true]
    have hd : ∀ k ∈ uIcc k1 k2, HasDerivAt (fun k : ℝ =>
        ((a * k * k * k + b * k * k + c * k) / r - (6 * a * k + 2 * b) / r ^ 3) * ((sin (k * r - phi) : ℝ) : ℂ) +
        ((3 * a * k * k + 2 * b * k + c) / r ^ 2 - 6 * a / r ^ 4) * ((cos (k * r - phi) : ℝ) : ℂ))
        (quadEval k (a, b, c) * k * ((cos (k * r - phi) : ℝ) : ℂ)) k := by
      intro k _
      have h1 := ((((((dp k).const_mul a).mul (dp k)).mul (dp k)).add ((((dp k).const_mul b)).mul (dp k))).add
        ((dp k).const_mul c)).div_const (r : ℂ) |>.sub ((((dp k).const_mul (6 * a)).add_const (2 * b)).div_const ((r : ℂ) ^ 3))
      have h2 := ((((((dp k).const_mul (3 * a)).mul (dp k)).add ((dp k).const_mul (2 * b))).add_const c).div_const ((r : ℂ) ^ 2)).sub_const
        (6 * a / r ^ 4)
      refine ((h1.mul (ds k)).add (h2.mul (dc k))).congr_deriv ?_
      unfold quadEval
      push_cast
      simp only [Pi.mul_apply, Pi.add_apply, Pi.sub_apply]
      field_simp
      ring
    rw [intervalIntegral.integral_eq_sub_of_hasDerivAt hd]
    · unfold quadCos
      simp only [if_true, ← hphi]
      generalize ((sin (k1 * r - phi) : ℝ) : ℂ) = s1
      generalize ((sin (k2 * r - phi) : ℝ) : ℂ) = s2
      generalize ((cos (k1 * r - phi) : ℝ) : ℂ) = c1
      generalize ((cos (k2 * r - phi) : ℝ) : ℂ) = c2
      field_simp
      ring
    · apply Continuous.intervalIntegrable
      unfold quadEval
      fun_prop

theorem far_deriv (n : ℕ) (k r : ℝ) : HasDerivAt (fun r => far n (k * r)) (-k * far (n + 1) (k * r)) r := by
  unfold far
  refine ((hasDerivAt_cos _).comp r (((hasDerivAt_id r).const_mul k).sub_const _)).congr_deriv ?_
  rw [show k * r - (2 * ((n + 1 : ℕ) : ℝ) + 1) * π / 4 = k * r - (2 * n + 1) * π / 4 - π / 2 by push_cast; ring, cos_sub_pi_div_two]
  simp
  ring

theorem farD_eq (n : ℕ) (d : Bool) (k r : ℝ) : farD n d k r = if d then -k * far (n + 1) (k * r) else far n (k * r) := by
  cases d
  · rfl
  · exact (far_deriv n k r).deriv

/-- C40: on one interval the three-point rule integrates, for every source and integral, the quadratic through the samples of the
amplitude against the far-field form of the Bessel function, or its derivative with respect to distance. -/
theorem C40_three_point (k3 : Fin 3 → ℝ) (h01 : k3 0 < k3 1) (h12 : k3 1 < k3 2) (r : ℝ) (hr : r ≠ 0) (Q3 : Fin 3 → Chnl) (uir : Bool)
    (i : Fin 6) (v : Fin 4) (L : ℝ → ℂ) (hq : QuadOn L (k3 0) (k3 2)) (hL : ∀ d, L (k3 d) = amp i v (k3 d) (Q3 d)) :
    intPkSa k3 r Q3 uir 0 i v = ∫ k in (k3 0)..(k3 2), L k * (farD (ford i v) uir k r : ℝ) := by
  obtain ⟨p, q, s, hps⟩ := hq
  have e01 := h01.ne
  have e12 := h12.ne
  have e20 := (h01.trans h12).ne'
  have h02 := (h01.trans h12).le
  have mem : ∀ d, k3 d ∈ Icc (k3 0) (k3 2) := by
    intro d
    fin_cases d
    · exact ⟨le_rfl, h02⟩
    · exact ⟨h01.le, h12.le⟩
    · exact ⟨h02, le_rfl⟩
  -- the general statement for one channel and order
  have key : ∀ (σ : ℂ) (c : Fin 3) (n : ℕ), (∀ d, L (k3 d) = σ * Q3 d i c * (√(k3 d) : ℝ)) → ¬ (order i = 0 ∧ c = 2) →
      ∀ τ : ℂ, τ * τ = 1 → σ = τ →
      τ * quadCos (saFit k3 Q3 uir i c) (n + if uir then 1 else 0) r (k3 0) (k3 2) uir =
        ∫ k in (k3 0)..(k3 2), L k * (farD n uir k r : ℝ) := by
    intro σ c n hσ hc τ hτ hστ
    subst hστ
    rw [C40_quad_cos _ _ r _ _ hr, ← intervalIntegral.integral_const_mul]
    refine intervalIntegral.integral_congr fun k hk => ?_
    rw [uIcc_of_le h02] at hk
    set t : ℂ := if uir then -1 else 1 with ht
    have hfit : quadEval k (saFit k3 Q3 uir i c) = σ * t * L k := by
      unfold saFit
      rw [if_neg hc]
      have : (fun d => Q3 d i c * (√(k3 d) : ℝ) * (if uir then -1 else 1)) =
          fun d => (σ * t * p) * k3 d ^ 2 + (σ * t * q) * k3 d + σ * t * s := by
        funext d
        have := hps _ (mem d)
        rw [hσ d] at this
        calc Q3 d i c * (√(k3 d) : ℝ) * (if uir then -1 else 1) = σ * t * (σ * Q3 d i c * (√(k3 d) : ℝ)) := by
              rw [← ht, show σ * t * (σ * Q3 d i c * (√(k3 d) : ℝ)) = (σ * σ) * (Q3 d i c * (√(k3 d) : ℝ) * t) by ring, hτ, one_mul]
          _ = _ := by
              rw [this]
              ring
      rw [this, C40_quad_unique k3 e01 e12 e20, hps k hk]
      ring
    rw [hfit, farD_eq]
    have : σ * (σ * t * L k * (if uir then (k : ℂ) else 1) * (far (n + if uir then 1 else 0) (k * r) : ℝ)) =
        (σ * σ) * (t * L k * (if uir then (k : ℂ) else 1) * (far (n + if uir then 1 else 0) (k * r) : ℝ)) := by ring
    rw [this, hτ, one_mul, ht]
    cases uir
    · simp
    · simp
      ring
  -- integrals that are identically zero
  have zero : ∀ n, (∀ d, L (k3 d) = 0) → (0 : ℂ) = ∫ k in (k3 0)..(k3 2), L k * (farD n uir k r : ℝ) := by
    intro n h0
    have hz : ∀ k ∈ Icc (k3 0) (k3 2), L k = 0 := by
      intro k hk
      have e := C40_quad_unique k3 e01 e12 e20 p q s k
      have : (fun d => p * k3 d ^ 2 + q * k3 d + s) = fun _ => (0 : ℂ) := by
        funext d
        rw [← hps _ (mem d), h0 d]
      rw [this] at e
      rw [hps k hk, ← e]
      simp [quadEval, quadTerm]
    symm
    rw [show (0 : ℂ) = ∫ k in (k3 0)..(k3 2), (0 : ℂ) by simp]
    refine intervalIntegral.integral_congr fun k hk => ?_
    rw [uIcc_of_le h02] at hk
    simp [hz k hk]
  unfold amp at hL
  unfold ford intPkSa
  have no0 : ∀ c : Fin 3, c ≠ 2 → ¬ (order i = 0 ∧ c = 2) := fun c hc h => hc h.2
  match ho : order i, v with
  | 0, 0 => simpa [ho, farTable] using key (-1) 0 1 (fun d => by simpa [ho, farTable] using hL d) (no0 _ (by decide)) (-1) (by norm_num) rfl
  | 0, 1 => simpa [ho, farTable] using zero 0 (fun d => by simpa [ho, farTable] using hL d)
  | 0, 2 => simpa [ho, farTable] using key 1 1 0 (fun d => by simpa [ho, farTable] using hL d) (no0 _ (by decide)) 1 (by norm_num) rfl
  | 0, 3 => simpa [ho, farTable] using zero 0 (fun d => by simpa [ho, farTable] using hL d)
  | 1, 0 => simpa [ho, farTable] using key 1 0 0 (fun d => by simpa [ho, farTable] using hL d) (no0 _ (by decide)) 1 (by norm_num) rfl
  | 1, 1 => simpa [ho, farTable] using zero 0 (fun d => by simpa [ho, farTable] using hL d)
  | 1, 2 => simpa [ho, farTable] using key 1 1 1 (fun d => by simpa [ho, farTable] using hL d) (no0 _ (by decide)) 1 (by norm_num) rfl
  | 1, 3 => simpa [ho, farTable] using key (-1) 2 0 (fun d => by simpa [ho, farTable] using hL d) (by simp [ho]) (-1) (by norm_num) rfl
  | 2, 0 => simpa [ho, farTable] using key 1 0 1 (fun d => by simpa [ho, farTable] using hL d) (no0 _ (by decide)) 1 (by norm_num) rfl
  | 2, 1 => simpa [ho, farTable] using zero 0 (fun d => by simpa [ho, farTable] using hL d)
  | 2, 2 => simpa [ho, farTable] using key 1 1 2 (fun d => by simpa [ho, farTable] using hL d) (no0 _ (by decide)) 1 (by norm_num) rfl
  | 2, 3 => simpa [ho, farTable] using key (-1) 2 1 (fun d => by simpa [ho, farTable] using hL d) (by simp [ho]) (-1) (by norm_num) rfl

/-- A case of the theorem: a horizontal force whose radial channel is `sqrt(k)`, so that the amplitude is `k`. -/
example : intPkSa ![1, 2, 3] 50 (fun d _ _ => ((√(![1, 2, 3] d : ℝ) : ℝ) : ℂ)) true 0 2 0 =
    ∫ k in (1 : ℝ)..3, (k : ℂ) * (farD 0 true k 50 : ℝ) := by
  refine C40_three_point ![1, 2, 3] (by norm_num) (show (2 : ℝ) < 3 by norm_num) 50 (by norm_num) _ true 2 0 (fun k => k) ⟨0, 1, 0, by simp⟩ fun d => ?_
  have h : ∀ x : ℝ, 0 ≤ x → ((√x : ℝ) : ℂ) * ((√x : ℝ) : ℂ) = (x : ℂ) := fun x hx => by
    rw [← Complex.ofReal_mul, mul_self_sqrt hx]
  have hx : (0 : ℝ) ≤ (![1, 2, 3] : Fin 3 → ℝ) d := by fin_cases d <;> norm_num
  simp only [amp, order, farTable]
  simp only [Matrix.cons_val]
  rw [Int.cast_one, one_mul, h _ hx]

end GRT.Integ
