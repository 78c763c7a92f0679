import Verif.Freq.Fft
import Mathlib.Algebra.Field.GeomSum
import Mathlib.Analysis.SpecialFunctions.Exp

/-!
From a spectrum to the samples of a trace (`write_one_to_sac`, pygrt/C_extension/src/dynamic/grnspec.c 49-95), C56, and the option for
denser sampling (`-N…+n`, dynamic/grt_greenfn.c 1018), C69. Exact arithmetic; the conversion of the samples to single precision is left out,
and the start time is the one stored in the header.
-/

namespace GRT.Freq

open Complex Finset

/-! ### Model -/

/-- A coefficient multiplied by a factor once per step, grnspec.c 68-71, 89-92. -/
def accum {A : Type*} [Mul A] (c f : A) : ℕ → A
  | 0 => c
  | n + 1 => accum c f n * f

/-- The settings of the transform (`GRT_FFTW_HOLDER`, myfftw.c 14-49). -/
structure Holder where
  nt : ℕ
  dt : ℝ
  nfv : ℕ
  df : ℝ

/-- The spectrum handed to the library, grnspec.c 60-71: the array is zeroed, then its valid part filled with the shifted values. -/
noncomputable def shifted (H : Holder) (b : ℝ) (sgn : ℝ) (grn : ℕ → ℂ) (i : ℕ) : ℂ :=
  if i < H.nfv then grn i * accum (sgn : ℂ) (exp (I * (2 * Real.pi) * H.df * b)) i else 0

/-- The samples written, grnspec.c 83-92 (`skip` = `skipImagComps`). -/
noncomputable def trace (H : Holder) (b wI : ℝ) (sgn : ℝ) (skip : Bool) (grn : ℕ → ℂ) (j : ℕ) : ℝ :=
  (c2r H.nt (shifted H b sgn grn) j).re *
    accum (if skip then H.df else H.df * Real.exp (b * wI)) (if skip then 1 else Real.exp (wI * H.dt)) j

/-- The transform set up by `compute_greenfn_one`, grt_greenfn.c 981, 1018: `n` = `upsample_n`, `nf = nt/2 + 1` (grt_greenfn.c 880). -/
noncomputable def holder (nt : ℕ) (dt : ℝ) (n : ℕ) : Holder := ⟨nt * n, dt / n, nt / 2 + 1, 1 / (nt * dt)⟩

/-! ### Specification -/

/-- The spectrum, at the complex frequency `2πk/(nt dt) − i wI`, of samples at the times `b + l·dt`. -/
noncomputable def spectrum (nt : ℕ) (dt b wI : ℝ) (x : ℕ → ℝ) (k : ℕ) : ℂ :=
  dt * ∑ l ∈ range nt, x l * exp (-(I * (2 * Real.pi * (k / (nt * dt)) - I * wI) * (b + l * dt)))

/-- The signal at time `t` of a spectrum sampled at `k·df` for `k = 0 … nt/2`: the real Fourier series, the term at half the sampling rate
counted once. -/
noncomputable def series (nt : ℕ) (df wI : ℝ) (grn : ℕ → ℂ) (t : ℝ) : ℝ :=
  Real.exp (wI * t) * df * ((grn 0).re + ∑ k ∈ Ico 1 (nt / 2 + 1),
    (if 2 * k = nt then 1 else 2) * (grn k * exp (2 * Real.pi * I * (k * df) * t)).re)

/-! ### C56 -/

theorem accum_eq {A : Type*} [CommMonoid A] (c f : A) (n : ℕ) : accum c f n = c * f ^ n := by
  induction n with
  | zero => simp [accum]
  | succ n ih => rw [accum, ih, pow_succ, mul_assoc]

theorem damping (df b wI dt : ℝ) (j : ℕ) : accum (df * Real.exp (b * wI)) (Real.exp (wI * dt)) j = df * Real.exp (wI * (b + j * dt)) := by
  rw [accum_eq, ← Real.exp_nat_mul, mul_assoc, ← Real.exp_add]
  congr 2
  ring

theorem shifted_eq (H : Holder) (b sgn : ℝ) (grn : ℕ → ℂ) (k : ℕ) (hk : k < H.nfv) :
    shifted H b sgn grn k = (sgn : ℂ) * (grn k * exp (2 * Real.pi * I * (k * H.df) * b)) := by
  unfold shifted
  rw [if_pos hk, accum_eq, ← exp_nat_mul]
  have : (k : ℂ) * (I * (2 * Real.pi) * H.df * b) = 2 * Real.pi * I * (k * H.df) * b := by ring
  rw [this]
  ring

theorem re_smul (s : ℝ) (z : ℂ) : ((s : ℂ) * z).re = s * z.re := by simp

/-- The traces are the Fourier series of the spectrum at the times of the samples, with the sign asked for. -/
theorem C56_series (nt : ℕ) (hn : 0 < nt) (dt : ℝ) (hdt : 0 < dt) (b wI sgn : ℝ) (grn : ℕ → ℂ) (j : ℕ) :
    trace (holder nt dt 1) b wI sgn false grn j = sgn * series nt (1 / (nt * dt)) wI grn (b + j * dt) := by
  unfold trace
  have hnt : (holder nt dt 1).nt = nt := by simp [holder]
  have hdt' : (holder nt dt 1).dt = dt := by simp [holder]
  rw [hnt, hdt', c2r_real nt hn, ofReal_re]
  simp only [Bool.false_eq_true, if_false]
  rw [damping]
  unfold series
  have hdf : (holder nt dt 1).df = 1 / (nt * dt) := rfl
  have hnf : (holder nt dt 1).nfv = nt / 2 + 1 := rfl
  have hn0 : (nt : ℂ) ≠ 0 := by exact_mod_cast hn.ne'
  have hd0 : (dt : ℂ) ≠ 0 := by exact_mod_cast hdt.ne'
  rw [hdf]
  have key : ∀ k, k < nt / 2 + 1 → shifted (holder nt dt 1) b sgn grn k * exp (2 * Real.pi * I * (k * j / nt)) =
      (sgn : ℂ) * (grn k * exp (2 * Real.pi * I * (k * ((1 / (nt * dt) : ℝ) : ℂ)) * ((b + j * dt : ℝ) : ℂ))) := by
    intro k hk
    rw [shifted_eq _ _ _ _ _ (by rw [hnf]; exact hk), hdf, mul_assoc, mul_assoc, ← exp_add]
    congr 3
    push_cast
    field_simp
  have h0 : (shifted (holder nt dt 1) b sgn grn 0).re = sgn * (grn 0).re := by
    rw [shifted_eq _ _ _ _ _ (by rw [hnf]; omega)]
    simp
  rw [h0]
  have hs : ∑ k ∈ Ico 1 ((nt + 1) / 2), 2 * (shifted (holder nt dt 1) b sgn grn k * exp (2 * Real.pi * I * (k * j / nt))).re +
      (if nt % 2 = 0 then (shifted (holder nt dt 1) b sgn grn (nt / 2)).re * (-1) ^ j else 0) =
      sgn * ∑ k ∈ Ico 1 (nt / 2 + 1), (if 2 * k = nt then 1 else 2) *
        (grn k * exp (2 * Real.pi * I * (k * ((1 / (nt * dt) : ℝ) : ℂ)) * ((b + j * dt : ℝ) : ℂ))).re := by
    have hlow : ∑ k ∈ Ico 1 ((nt + 1) / 2), 2 * (shifted (holder nt dt 1) b sgn grn k * exp (2 * Real.pi * I * (k * j / nt))).re =
        sgn * ∑ k ∈ Ico 1 ((nt + 1) / 2), (if 2 * k = nt then 1 else 2) *
        (grn k * exp (2 * Real.pi * I * (k * ((1 / (nt * dt) : ℝ) : ℂ)) * ((b + j * dt : ℝ) : ℂ))).re := by
      rw [mul_sum]
      refine sum_congr rfl fun k hk => ?_
      rw [mem_Ico] at hk
      rw [key k (by omega), re_smul, if_neg (show ¬ 2 * k = nt by omega)]
      ring
    rw [hlow]
    by_cases h : nt % 2 = 0
    · have e1 : (nt + 1) / 2 = nt / 2 := by omega
      rw [if_pos h, e1, sum_Ico_succ_top (show 1 ≤ nt / 2 by omega), if_pos (show 2 * (nt / 2) = nt by omega), mul_add]
      congr 1
      rw [one_mul, ← re_smul, ← key (nt / 2) (by omega)]
      have e : (nt : ℂ) = 2 * ((nt / 2 : ℕ) : ℂ) := by
        have : nt = 2 * (nt / 2) := by omega
        exact_mod_cast this
      have h3 : ((nt / 2 : ℕ) : ℂ) ≠ 0 := by
        have : nt / 2 ≠ 0 := by omega
        exact_mod_cast this
      have : 2 * Real.pi * I * (((nt / 2 : ℕ) : ℂ) * j / nt) = j * (Real.pi * I) := by
        rw [e]; field_simp
      rw [this, exp_nat_mul, exp_pi_mul_I]
      have e2 : ((-1 : ℂ)) ^ j = (((-1 : ℝ) ^ j : ℝ) : ℂ) := by push_cast; rfl
      rw [e2, re_mul_ofReal]
    · have e1 : (nt + 1) / 2 = nt / 2 + 1 := by omega
      rw [if_neg h, e1, add_zero]
  have := congrArg (fun z => (sgn * (grn 0).re + z) * (1 / (nt * dt) * Real.exp (wI * (b + j * dt)))) hs
  rw [← add_assoc] at this
  rw [this]
  ring

/-- A case: constant spectrum, four samples at half a second, start at 1 s, damping 2. -/
example : trace (holder 4 (1 / 2) 1) 1 2 (-1) false (fun _ => 1) 0 = -1 * series 4 (1 / 2) 2 (fun _ => 1) 1 := by
  have := C56_series 4 (by norm_num) (1 / 2) (by norm_num) 1 2 (-1) (fun _ => 1) 0
  norm_num at this ⊢
  exact this

/-! ### C56: the transform undone -/

theorem dft_orth (nt : ℕ) (hn : 0 < nt) (l j : ℕ) (hl : l < nt) (hj : j < nt) :
    ∑ k ∈ range nt, exp (2 * Real.pi * I * (k * j / nt)) * exp (-(2 * Real.pi * I * (k * l / nt))) = if l = j then (nt : ℂ) else 0 := by
  have hn0 : (nt : ℂ) ≠ 0 := by exact_mod_cast hn.ne'
  set z := exp (2 * Real.pi * I * (((j : ℤ) - (l : ℤ) : ℤ) : ℂ) / nt) with hz
  have e : ∀ k ∈ range nt, exp (2 * Real.pi * I * (k * j / nt)) * exp (-(2 * Real.pi * I * (k * l / nt))) = z ^ k := by
    intro k _
    rw [hz, ← exp_add, ← exp_nat_mul]
    congr 1
    push_cast
    ring
  rw [sum_congr rfl e]
  split
  · rename_i h
    subst h
    simp [hz]
  · rename_i h
    have h1 : z ≠ 1 := by
      rw [hz]
      intro hc
      rw [exp_eq_one_iff] at hc
      obtain ⟨m, hm⟩ := hc
      have hpi : (2 * Real.pi * I : ℂ) ≠ 0 := two_pi_I_ne_zero
      have : ((((j : ℤ) - (l : ℤ) : ℤ) : ℂ)) = ((m * nt : ℤ) : ℂ) := by
        have h2 : (2 * Real.pi * I : ℂ) * (((j : ℤ) - (l : ℤ) : ℤ) : ℂ) = 2 * Real.pi * I * ((m * nt : ℤ) : ℂ) := by
          rw [div_eq_iff hn0] at hm
          rw [hm]
          push_cast
          ring
        exact mul_left_cancel₀ hpi h2
      have h3 : (j : ℤ) - l = m * nt := by exact_mod_cast this
      have h4 : (m * nt : ℤ) < nt := by omega
      have h5 : -(nt : ℤ) < m * nt := by omega
      have h6 : m < 1 := by nlinarith
      have h7 : -1 < m := by nlinarith
      have : m = 0 := by omega
      subst this
      omega
    have hpow : z ^ nt = 1 := by
      rw [hz, ← exp_nat_mul, exp_eq_one_iff]
      refine ⟨(j : ℤ) - l, ?_⟩
      push_cast
      field_simp
    rw [geom_sum_eq h1, hpow]
    simp

theorem spectrum_shift (nt : ℕ) (hn : 0 < nt) (dt : ℝ) (hdt : 0 < dt) (b wI : ℝ) (x : ℕ → ℝ) (k : ℕ) :
    spectrum nt dt b wI x k * exp (2 * Real.pi * I * (k * ((1 / (nt * dt) : ℝ) : ℂ)) * b) =
      ∑ l ∈ range nt, ((dt * (x l * Real.exp (-(wI * (b + l * dt)))) : ℝ) : ℂ) * exp (-(2 * Real.pi * I * (k * l / nt))) := by
  have hn0 : (nt : ℂ) ≠ 0 := by exact_mod_cast hn.ne'
  have hd0 : (dt : ℂ) ≠ 0 := by exact_mod_cast hdt.ne'
  unfold spectrum
  rw [mul_assoc, sum_mul, mul_sum]
  refine sum_congr rfl fun l _ => ?_
  push_cast
  rw [mul_assoc (x l : ℂ), ← exp_add, mul_assoc (dt : ℂ), mul_assoc (x l : ℂ), ← exp_add]
  congr 3
  have hI : I * I = -1 := I_mul_I
  have e : (k : ℂ) * l / nt = k / (nt * dt) * (l * dt) := by field_simp
  rw [e]
  linear_combination ((wI : ℂ) * (b + l * dt)) * hI

/-- The traces undo the transform: from the spectrum of any samples at the complex frequencies used, the samples come back, with the sign
asked for. -/
theorem C56_inverse (nt : ℕ) (hn : 0 < nt) (dt : ℝ) (hdt : 0 < dt) (b wI sgn : ℝ) (x : ℕ → ℝ) (j : ℕ) (hj : j < nt) :
    trace (holder nt dt 1) b wI sgn false (spectrum nt dt b wI x) j = sgn * x j := by
  unfold trace
  have hnt : (holder nt dt 1).nt = nt := by simp [holder]
  have hdt' : (holder nt dt 1).dt = dt := by simp [holder]
  have hdf : (holder nt dt 1).df = 1 / (nt * dt) := rfl
  have hnf : (holder nt dt 1).nfv = nt / 2 + 1 := rfl
  have hn0 : (nt : ℂ) ≠ 0 := by exact_mod_cast hn.ne'
  rw [hnt, hdt', hdf]
  simp only [Bool.false_eq_true, if_false]
  rw [damping]
  set y : ℕ → ℝ := fun l => dt * (x l * Real.exp (-(wI * (b + l * dt)))) with hy
  set D : ℕ → ℂ := fun k => ∑ l ∈ range nt, ((y l : ℝ) : ℂ) * exp (-(2 * Real.pi * I * (k * l / nt))) with hD
  have hW : ∀ k, k < nt / 2 + 1 → shifted (holder nt dt 1) b sgn (spectrum nt dt b wI x) k = (sgn : ℂ) * D k := by
    intro k hk
    rw [shifted_eq _ _ _ _ _ (by rw [hnf]; exact hk), hdf, spectrum_shift nt hn dt hdt]
  have hconj : ∀ k l : ℕ, (starRingEnd ℂ) (exp (-(2 * Real.pi * I * (k * l / nt)))) = exp (2 * Real.pi * I * (k * l / nt)) := by
    intro k l
    rw [← exp_conj]
    congr 1
    simp [map_ofNat]
  have hmir : ∀ k, k ≤ nt → (starRingEnd ℂ) (D k) = D (nt - k) := by
    intro k hk
    rw [hD]
    simp only [map_sum, map_mul, conj_ofReal, hconj]
    refine sum_congr rfl fun l _ => ?_
    congr 1
    rw [Nat.cast_sub hk]
    have : (-(2 * Real.pi * I * (((nt : ℂ) - k) * l / nt))) = 2 * Real.pi * I * (k * l / nt) + ((-(l : ℤ) : ℤ) : ℂ) * (2 * Real.pi * I) := by
      push_cast
      field_simp
      ring
    rw [this, exp_add, exp_int_mul_two_pi_mul_I, mul_one]
  have hherm : ∀ k ∈ range nt, hermitian nt (shifted (holder nt dt 1) b sgn (spectrum nt dt b wI x)) k = (sgn : ℂ) * D k := by
    intro k hk
    rw [mem_range] at hk
    unfold hermitian
    split
    · rename_i h
      rw [hW k (by omega), re_smul]
      have hreal : (starRingEnd ℂ) (D k) = D k := by
        rcases h with h | h
        · subst h
          rw [hmir 0 (by omega), hD]
          refine sum_congr rfl fun l _ => ?_
          congr 1
          have : (-(2 * Real.pi * I * (((nt - 0 : ℕ) : ℂ) * l / nt))) = ((-(l : ℤ) : ℤ) : ℂ) * (2 * Real.pi * I) := by
            rw [Nat.sub_zero]
            push_cast
            field_simp
          rw [this, exp_int_mul_two_pi_mul_I]
          simp
        · rw [hmir k (by omega)]
          congr 1
          omega
      rw [conj_eq_iff_re] at hreal
      push_cast
      rw [hreal]
    · split
      · rw [hW k (by omega)]
      · rw [hW (nt - k) (by omega), map_mul, conj_ofReal, hmir (nt - k) (by omega)]
        congr 2
        omega
  have hc : c2r nt (shifted (holder nt dt 1) b sgn (spectrum nt dt b wI x)) j = ((sgn * (nt * y j) : ℝ) : ℂ) := by
    unfold c2r
    rw [sum_congr rfl fun k hk => by rw [hherm k hk]]
    have h1 : ∀ k ∈ range nt, (sgn : ℂ) * D k * exp (2 * Real.pi * I * (k * j / nt)) =
        ∑ l ∈ range nt, (sgn : ℂ) * y l * (exp (2 * Real.pi * I * (k * j / nt)) * exp (-(2 * Real.pi * I * (k * l / nt)))) := by
      intro k _
      rw [hD]
      simp only
      rw [mul_sum, sum_mul]
      refine sum_congr rfl fun l _ => ?_
      ring
    rw [sum_congr rfl h1, sum_comm]
    have h2 : ∀ l ∈ range nt, ∑ k ∈ range nt, (sgn : ℂ) * y l * (exp (2 * Real.pi * I * (k * j / nt)) *
        exp (-(2 * Real.pi * I * (k * l / nt)))) = if l = j then (sgn : ℂ) * y j * nt else 0 := by
      intro l hl
      rw [mem_range] at hl
      rw [← mul_sum, dft_orth nt hn l j hl hj]
      split
      · rename_i h
        rw [h]
      · simp
    rw [sum_congr rfl h2, sum_ite_eq' (range nt) j, if_pos (mem_range.2 hj)]
    push_cast
    ring
  rw [hc, ofReal_re, hy]
  simp only
  have hexp : Real.exp (-(wI * (b + j * dt))) * Real.exp (wI * (b + j * dt)) = 1 := by
    rw [← Real.exp_add]
    simp
  have hnr : (nt : ℝ) ≠ 0 := by exact_mod_cast hn.ne'
  have hd0 : dt ≠ 0 := hdt.ne'
  rw [show sgn * (nt * (dt * (x j * Real.exp (-(wI * (b + j * dt)))))) * (1 / (nt * dt) * Real.exp (wI * (b + j * dt))) =
    sgn * x j * (Real.exp (-(wI * (b + j * dt))) * Real.exp (wI * (b + j * dt))) by field_simp, hexp, mul_one]

/-- A case: three samples, start at −1 s, damping 1/2, sign reversed. -/
example : trace (holder 3 2 1) (-1) (1 / 2) (-1) false (spectrum 3 2 (-1) (1 / 2) fun l => (l : ℝ) + 1) 2 = -3 := by
  rw [C56_inverse 3 (by norm_num) 2 (by norm_num) _ _ _ _ 2 (by norm_num)]
  norm_num

/-- With the removal of the damping switched off the trace is that of the damped samples. -/
theorem C56_skip (H : Holder) (b wI sgn : ℝ) (grn : ℕ → ℂ) (j : ℕ) :
    trace H b wI sgn false grn j = Real.exp (wI * (b + j * H.dt)) * trace H b wI sgn true grn j := by
  unfold trace
  simp only [Bool.false_eq_true, if_false, if_true]
  rw [damping, accum_eq, one_pow]
  ring

/-! ### C69 -/

/-- The series over the bins of the original length, all but bin zero counted twice: what denser sampling gives. -/
theorem trace_dense (nt n : ℕ) (hn : 0 < nt) (h2 : 2 ≤ n) (dt : ℝ) (hdt : 0 < dt) (b wI sgn : ℝ) (grn : ℕ → ℂ) (j : ℕ) :
    trace (holder nt dt n) b wI sgn false grn j = sgn * (Real.exp (wI * (b + j * (dt / n))) * (1 / (nt * dt)) * ((grn 0).re +
      ∑ k ∈ Ico 1 (nt / 2 + 1), 2 * (grn k * exp (2 * Real.pi * I * (k * ((1 / (nt * dt) : ℝ) : ℂ)) * ((b + j * (dt / n) : ℝ) : ℂ))).re)) := by
  unfold trace
  have hnt : (holder nt dt n).nt = nt * n := rfl
  have hdt' : (holder nt dt n).dt = dt / n := rfl
  have hdf : (holder nt dt n).df = 1 / (nt * dt) := rfl
  have hnf : (holder nt dt n).nfv = nt / 2 + 1 := rfl
  have hn0 : (nt : ℂ) ≠ 0 := by exact_mod_cast hn.ne'
  have hm0 : (n : ℂ) ≠ 0 := by
    have : n ≠ 0 := by omega
    exact_mod_cast this
  have hd0 : (dt : ℂ) ≠ 0 := by exact_mod_cast hdt.ne'
  have hbig : nt / 2 + 1 ≤ (nt * n + 1) / 2 := by
    have : nt * 2 ≤ nt * n := Nat.mul_le_mul_left _ h2
    omega
  have hpad : padded (nt / 2 + 1) (shifted (holder nt dt n) b sgn grn) = shifted (holder nt dt n) b sgn grn := by
    funext k
    unfold padded
    split
    · rfl
    · rename_i h
      unfold shifted
      rw [if_neg (by rw [hnf]; exact h)]
  rw [hnt, hdt', ← hpad, c2r_padded (nt * n) (nt / 2 + 1) (by omega) hbig, ofReal_re]
  simp only [Bool.false_eq_true, if_false]
  rw [damping, hdf]
  have h0 : (shifted (holder nt dt n) b sgn grn 0).re = sgn * (grn 0).re := by
    rw [shifted_eq _ _ _ _ _ (by rw [hnf]; omega)]
    simp
  have hs : ∑ k ∈ Ico 1 (nt / 2 + 1), 2 * (shifted (holder nt dt n) b sgn grn k * exp (2 * Real.pi * I * (k * j / ((nt * n : ℕ) : ℂ)))).re =
      sgn * ∑ k ∈ Ico 1 (nt / 2 + 1), 2 * (grn k * exp (2 * Real.pi * I * (k * ((1 / (nt * dt) : ℝ) : ℂ)) * ((b + j * (dt / n) : ℝ) : ℂ))).re := by
    rw [mul_sum]
    refine sum_congr rfl fun k hk => ?_
    rw [mem_Ico] at hk
    rw [shifted_eq _ _ _ _ _ (by rw [hnf]; exact hk.2), hdf, mul_assoc, mul_assoc, ← exp_add, re_smul]
    have : 2 * Real.pi * I * (k * ((1 / (nt * dt) : ℝ) : ℂ)) * b + 2 * Real.pi * I * (k * j / ((nt * n : ℕ) : ℂ)) =
        2 * Real.pi * I * (k * ((1 / (nt * dt) : ℝ) : ℂ)) * ((b + j * (dt / n) : ℝ) : ℂ) := by
      push_cast
      field_simp
    rw [this]
    ring
  rw [h0, hs]
  ring

/-- With denser sampling, the trace at the times of the original samples, for every length: it exceeds the original by the term at half the
original sampling rate, which is counted twice. -/
theorem C69_difference (nt n : ℕ) (hn : 0 < nt) (h2 : 2 ≤ n) (dt : ℝ) (hdt : 0 < dt) (b wI sgn : ℝ) (grn : ℕ → ℂ) (j : ℕ) :
    trace (holder nt dt n) b wI sgn false grn (j * n) - trace (holder nt dt 1) b wI sgn false grn j =
      if nt % 2 = 0 then sgn * (Real.exp (wI * (b + j * dt)) * (1 / (nt * dt)) * ((-1) ^ j * (grn (nt / 2) * exp (I * (Real.pi * b / dt))).re))
      else 0 := by
  have hm0 : (n : ℝ) ≠ 0 := by
    have : n ≠ 0 := by omega
    exact_mod_cast this
  have ht : b + ((j * n : ℕ) : ℝ) * (dt / n) = b + j * dt := by
    push_cast
    field_simp
  rw [trace_dense nt n hn h2 dt hdt, C56_series nt hn dt hdt, ht]
  unfold series
  by_cases h : nt % 2 = 0
  · rw [if_pos h]
    have hlow : ∀ k ∈ Ico 1 (nt / 2), ((if 2 * k = nt then 1 else 2 : ℝ) *
        (grn k * exp (2 * Real.pi * I * (k * ((1 / (nt * dt) : ℝ) : ℂ)) * ((b + j * dt : ℝ) : ℂ))).re) =
        2 * (grn k * exp (2 * Real.pi * I * (k * ((1 / (nt * dt) : ℝ) : ℂ)) * ((b + j * dt : ℝ) : ℂ))).re := by
      intro k hk
      rw [mem_Ico] at hk
      rw [if_neg (by omega)]
    rw [sum_Ico_succ_top (show 1 ≤ nt / 2 by omega), sum_Ico_succ_top (show 1 ≤ nt / 2 by omega), sum_congr rfl hlow,
      if_pos (show 2 * (nt / 2) = nt by omega)]
    have hN : (grn (nt / 2) * exp (2 * Real.pi * I * ((nt / 2 : ℕ) * ((1 / (nt * dt) : ℝ) : ℂ)) * ((b + j * dt : ℝ) : ℂ))).re =
        (-1) ^ j * (grn (nt / 2) * exp (I * (Real.pi * b / dt))).re := by
      have e : (nt : ℂ) = 2 * ((nt / 2 : ℕ) : ℂ) := by
        have : nt = 2 * (nt / 2) := by omega
        exact_mod_cast this
      have h3 : ((nt / 2 : ℕ) : ℂ) ≠ 0 := by
        have : nt / 2 ≠ 0 := by omega
        exact_mod_cast this
      have hd0 : (dt : ℂ) ≠ 0 := by exact_mod_cast hdt.ne'
      have e3 : 2 * Real.pi * I * ((nt / 2 : ℕ) * ((1 / (nt * dt) : ℝ) : ℂ)) * ((b + j * dt : ℝ) : ℂ) =
          I * (Real.pi * b / dt) + j * (Real.pi * I) := by
        push_cast
        rw [e]
        field_simp
      rw [e3, exp_add, exp_nat_mul, exp_pi_mul_I, ← mul_assoc]
      have e2 : ((-1 : ℂ)) ^ j = (((-1 : ℝ) ^ j : ℝ) : ℂ) := by push_cast; rfl
      rw [e2, re_mul_ofReal]
      ring
    rw [hN]
    ring
  · rw [if_neg h, ← mul_sub, ← mul_sub]
    have : ∀ k ∈ Ico 1 (nt / 2 + 1), ((if 2 * k = nt then 1 else 2 : ℝ) *
        (grn k * exp (2 * Real.pi * I * (k * ((1 / (nt * dt) : ℝ) : ℂ)) * ((b + j * dt : ℝ) : ℂ))).re) =
        2 * (grn k * exp (2 * Real.pi * I * (k * ((1 / (nt * dt) : ℝ) : ℂ)) * ((b + j * dt : ℝ) : ℂ))).re := by
      intro k _
      rw [if_neg (by omega)]
    rw [sum_congr rfl this, sub_self, mul_zero, mul_zero]

/-- Denser sampling keeps the original samples if the length is odd or the spectrum vanishes at half the sampling rate. (Missing: an even
length with a value there, `C69_even_violated`.) -/
theorem C69_partial (nt n : ℕ) (hn : 0 < nt) (h2 : 1 ≤ n) (dt : ℝ) (hdt : 0 < dt) (b wI sgn : ℝ) (grn : ℕ → ℂ) (j : ℕ)
    (h : nt % 2 = 1 ∨ grn (nt / 2) = 0) :
    trace (holder nt dt n) b wI sgn false grn (j * n) = trace (holder nt dt 1) b wI sgn false grn j := by
  rcases Nat.lt_or_ge n 2 with h1 | h1
  · have : n = 1 := by omega
    subst this
    rw [mul_one]
  · rw [← sub_eq_zero, C69_difference nt n hn h1 dt hdt]
    rcases h with h | h
    · rw [if_neg (by omega)]
    · rw [h]
      simp

example : trace (holder 3 1 4) 0 1 1 false (fun k => (k : ℂ) + I) (2 * 4) = trace (holder 3 1 1) 0 1 1 false (fun k => (k : ℂ) + I) 2 :=
  C69_partial 3 4 (by norm_num) (by norm_num) 1 (by norm_num) 0 1 1 _ 2 (Or.inl rfl)

/-- C69 violated: four samples at 1 s of an impulse at the origin; sampled twice as densely, the value at the origin is 5/4 instead of 1. -/
theorem C69_even_violated : (∀ k, spectrum 4 1 0 0 (fun l => if l = 0 then 1 else 0) k = 1)
    ∧ trace (holder 4 1 1) 0 0 1 false (fun _ => 1) 0 = 1 ∧ trace (holder 4 1 2) 0 0 1 false (fun _ => 1) 0 = 5 / 4 := by
  have h1 : trace (holder 4 1 1) 0 0 1 false (fun _ => 1) 0 = 1 := by
    rw [C56_series 4 (by norm_num) 1 (by norm_num)]
    simp [series, show Ico 1 3 = {1, 2} from rfl]
    norm_num
  refine ⟨fun k => ?_, h1, ?_⟩
  · simp [spectrum, sum_range_succ]
  · have := C69_difference 4 2 (by norm_num) le_rfl 1 (by norm_num) 0 0 1 (fun _ => 1) 0
    rw [zero_mul, h1] at this
    norm_num at this
    linarith

end GRT.Freq
