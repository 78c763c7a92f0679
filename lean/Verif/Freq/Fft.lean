import Mathlib.RingTheory.RootsOfUnity.Complex
import Mathlib.Algebra.BigOperators.Intervals
import Mathlib.Tactic.NormNum

/-!
Inverse transforms: the one done by the library (`fftw_plan_dft_c2r_1d`, taken at its documentation) and the direct sum
(`grt_naive_inverse_transform_double`, pygrt/C_extension/src/common/myfftw.c 71-97), and C49. Exact arithmetic.
-/

namespace GRT.Freq

open Complex Finset

/-- The spectrum of a real sequence of length `nt` of which the bins `0 … nt/2` are given: the other half are the conjugates, and of
the bins that are their own mirror images only the real parts count. -/
noncomputable def hermitian (nt : ℕ) (W : ℕ → ℂ) (k : ℕ) : ℂ :=
  if k = 0 ∨ 2 * k = nt then ((W k).re : ℂ) else if 2 * k < nt then W k else (starRingEnd ℂ) (W (nt - k))

/-- What the library computes (not normalised), myfftw.c 46-51 and grnspec.c 75: the inverse discrete transform of the Hermitian
spectrum. The values are real (`c2r_real`). -/
noncomputable def c2r (nt : ℕ) (W : ℕ → ℂ) (j : ℕ) : ℂ := ∑ k ∈ range nt, hermitian nt W k * exp (2 * Real.pi * I * (k * j / nt))

/-- `grt_naive_inverse_transform_double`, myfftw.c 71-97: sample `i`, with `nf = nt/2 + 1`; `none` for no valid bins, where
`nf_valid - 1` wraps around and the loop leaves the array. -/
noncomputable def naive (nt : ℕ) (dt : ℝ) (nfv : ℕ) (df f0 : ℝ) (W : ℕ → ℂ) (i : ℕ) : Option ℝ :=
  if nfv = 0 then none else
  let t := i * dt
  let a := if f0 = 0 then (W 0).re else 0
  let b := ∑ k ∈ Ico 1 (nfv - 1), 2 * (W k * exp (I * (2 * Real.pi) * ((k * df + f0 : ℝ) : ℂ) * (t : ℂ))).re
  let f := df * (nfv - 1 : ℕ) + f0
  let c := if nt / 2 + 1 = nfv then
      if nt % 2 = 0 then ((((W (nfv - 1)).re : ℝ) : ℂ) * exp (I * (2 * Real.pi) * (f : ℂ) * (t : ℂ))).re
      else 2 * (W (nfv - 1) * exp (I * (2 * Real.pi) * (f : ℂ) * (t : ℂ))).re
    else 0
  some (a + b + c)

/-! ### The library transform as a real sum -/

/-- A spectrum with all bins from `n` on set to zero. -/
def padded (n : ℕ) (W : ℕ → ℂ) (k : ℕ) : ℂ := if k < n then W k else 0

theorem exp_mirror (nt k j : ℕ) (hn : 0 < nt) (hk : k ≤ nt) :
    exp (2 * Real.pi * I * (((nt - k : ℕ) : ℂ) * j / nt)) = (starRingEnd ℂ) (exp (2 * Real.pi * I * (k * j / nt))) := by
  rw [← exp_conj]
  have h : (nt : ℂ) ≠ 0 := by exact_mod_cast hn.ne'
  have e : (starRingEnd ℂ) (2 * Real.pi * I * (k * j / nt)) = -(2 * Real.pi * I * (k * j / nt)) := by
    simp [map_ofNat]
  rw [e, Nat.cast_sub hk]
  have : 2 * Real.pi * I * ((nt - k : ℂ) * j / nt) = -(2 * Real.pi * I * (k * j / nt)) + j * (2 * Real.pi * I) := by
    field_simp
    ring
  rw [this, exp_add, exp_nat_mul_two_pi_mul_I, mul_one]

/-- A sum over all bins of an even function is twice that over the lower half, plus the two special bins. -/
theorem sum_fold (nt : ℕ) (hn : 0 < nt) (g : ℕ → ℂ) :
    ∑ k ∈ range nt, g k = g 0 + ∑ k ∈ Ico 1 ((nt + 1) / 2), (g k + g (nt - k)) + if nt % 2 = 0 then g (nt / 2) else 0 := by
  rw [sum_range_eq_add_Ico _ hn]
  have hsplit : ∑ k ∈ Ico 1 nt, g k = ∑ k ∈ Ico 1 ((nt + 1) / 2), g k + ∑ k ∈ Ico ((nt + 1) / 2) nt, g k := by
    rw [sum_Ico_consecutive _ _ _]
    · omega
    · omega
  have hup : ∑ k ∈ Ico 1 ((nt + 1) / 2), g (nt - k) = ∑ k ∈ Ico (nt / 2 + 1) nt, g k := by
    rw [sum_Ico_reflect g 1 (show (nt + 1) / 2 ≤ nt + 1 by omega)]
    congr 1
    congr 1 <;> omega
  rw [hsplit, sum_add_distrib, hup]
  by_cases h : nt % 2 = 0
  · have e1 : (nt + 1) / 2 = nt / 2 := by omega
    rw [if_pos h, e1, sum_eq_sum_Ico_succ_bot (show nt / 2 < nt by omega)]
    ring
  · have e1 : (nt + 1) / 2 = nt / 2 + 1 := by omega
    rw [if_neg h, e1]
    ring

theorem add_conj_two (z : ℂ) : z + (starRingEnd ℂ) z = ((2 * z.re : ℝ) : ℂ) := by
  rw [add_conj]

/-- The library transform in real terms: bin zero once, the bins below the middle twice, the middle one (for an even length) once with an
alternating sign. -/
theorem c2r_real (nt : ℕ) (hn : 0 < nt) (W : ℕ → ℂ) (j : ℕ) :
    c2r nt W j = (((W 0).re + ∑ k ∈ Ico 1 ((nt + 1) / 2), 2 * (W k * exp (2 * Real.pi * I * (k * j / nt))).re +
      if nt % 2 = 0 then (W (nt / 2)).re * (-1) ^ j else 0 : ℝ) : ℂ) := by
  unfold c2r
  rw [sum_fold nt hn]
  push_cast
  congr 1
  · congr 1
    · simp [hermitian]
    · refine sum_congr rfl fun k hk => ?_
      rw [mem_Ico] at hk
      have h1 : hermitian nt W k = W k := by
        unfold hermitian
        rw [if_neg (by omega), if_pos (by omega)]
      have h2 : hermitian nt W (nt - k) = (starRingEnd ℂ) (W k) := by
        unfold hermitian
        rw [if_neg (by omega), if_neg (by omega)]
        congr 2
        omega
      rw [h1, h2, exp_mirror nt k j hn (by omega), ← map_mul, add_conj_two]
      push_cast
      rfl
  · split
    · rename_i h
      rcases Nat.eq_zero_or_pos (nt / 2) with h0 | h0
      · omega
      have h1 : hermitian nt W (nt / 2) = ((W (nt / 2)).re : ℂ) := by
        unfold hermitian
        rw [if_pos (by omega)]
      have h2 : exp (2 * Real.pi * I * (((nt / 2 : ℕ) : ℂ) * j / nt)) = (-1) ^ j := by
        have e : (nt : ℂ) = 2 * ((nt / 2 : ℕ) : ℂ) := by
          have : nt = 2 * (nt / 2) := by omega
          exact_mod_cast this
        have h3 : ((nt / 2 : ℕ) : ℂ) ≠ 0 := by exact_mod_cast h0.ne'
        rw [e]
        have : 2 * Real.pi * I * (((nt / 2 : ℕ) : ℂ) * j / (2 * ((nt / 2 : ℕ) : ℂ))) = j * (Real.pi * I) := by
          field_simp
        rw [this, exp_nat_mul, exp_pi_mul_I]
      rw [h1, h2]
      push_cast
      rfl
    · simp

/-! ### C49 -/

theorem phase_eq (nt : ℕ) (dt df : ℝ) (hn : 0 < nt) (hdf : df * (nt * dt) = 1) (k i : ℕ) :
    I * (2 * Real.pi) * ((k * df + 0 : ℝ) : ℂ) * ((i * dt : ℝ) : ℂ) = 2 * Real.pi * I * (k * i / nt) := by
  have h : (nt : ℂ) ≠ 0 := by exact_mod_cast hn.ne'
  have e : (df : ℂ) * dt = 1 / nt := by
    rw [eq_div_iff h]
    have : df * dt * nt = 1 := by linarith [hdf]
    exact_mod_cast this
  push_cast
  calc I * (2 * Real.pi) * (k * df + 0) * (i * dt) = 2 * Real.pi * I * (k * i * (df * dt)) := by ring
    _ = 2 * Real.pi * I * (k * i / nt) := by rw [e]; ring

/-- The direct sum with all bins valid is the library transform, for every length but one. (Missing: fewer valid bins,
`C49_last_bin_violated`; a single sample, `C49_single_violated`.) -/
theorem C49_full_partial (nt : ℕ) (hn : 2 ≤ nt) (dt df : ℝ) (hdf : df * (nt * dt) = 1) (W : ℕ → ℂ) (i : ℕ) :
    ∃ x, naive nt dt (nt / 2 + 1) df 0 W i = some x ∧ (x : ℂ) = c2r nt W i := by
  unfold naive
  rw [if_neg (by omega)]
  refine ⟨_, rfl, ?_⟩
  rw [c2r_real nt (by omega)]
  congr 1
  simp only [if_true, Nat.add_sub_cancel]
  have hph := phase_eq nt dt df (by omega) hdf
  have hlast : (I * (2 * Real.pi) * ((df * ((nt / 2 : ℕ) : ℝ) + 0 : ℝ) : ℂ) * ((i * dt : ℝ) : ℂ)) = 2 * Real.pi * I * (((nt / 2 : ℕ) : ℂ) * i / nt) := by
    rw [← hph, mul_comm df]
  simp only [hph, hlast]
  by_cases h : nt % 2 = 0
  · have e1 : (nt + 1) / 2 = nt / 2 := by omega
    rw [if_pos h, if_pos h, e1]
    congr 1
    have e : (nt : ℂ) = 2 * ((nt / 2 : ℕ) : ℂ) := by
      have : nt = 2 * (nt / 2) := by omega
      exact_mod_cast this
    have h3 : ((nt / 2 : ℕ) : ℂ) ≠ 0 := by
      have : nt / 2 ≠ 0 := by omega
      exact_mod_cast this
    have : 2 * Real.pi * I * (((nt / 2 : ℕ) : ℂ) * i / nt) = i * (Real.pi * I) := by
      rw [e]; field_simp
    rw [this, exp_nat_mul, exp_pi_mul_I]
    have e2 : ((-1 : ℂ)) ^ i = (((-1 : ℝ) ^ i : ℝ) : ℂ) := by push_cast; rfl
    rw [e2, ← ofReal_mul, ofReal_re]
  · have e1 : (nt + 1) / 2 = nt / 2 + 1 := by omega
    rw [if_neg h, if_neg h, e1, sum_Ico_succ_top (by omega)]
    ring

/-- A case: four samples at 1 s. -/
example : ∃ x, naive 4 1 3 (1 / 4) 0 (fun k => (k : ℂ) + I) 1 = some x ∧ (x : ℂ) = c2r 4 (fun k => (k : ℂ) + I) 1 :=
  C49_full_partial 4 (by norm_num) 1 (1 / 4) (by norm_num) _ 1

theorem c2r_padded (nt n : ℕ) (hn : 1 ≤ n) (h : n ≤ (nt + 1) / 2) (W : ℕ → ℂ) (j : ℕ) :
    c2r nt (padded n W) j = (((W 0).re + ∑ k ∈ Ico 1 n, 2 * (W k * exp (2 * Real.pi * I * (k * j / nt))).re : ℝ) : ℂ) := by
  rw [c2r_real nt (by omega)]
  congr 1
  have e1 : ∑ k ∈ Ico 1 ((nt + 1) / 2), 2 * (padded n W k * exp (2 * Real.pi * I * (k * j / nt))).re =
      ∑ k ∈ Ico 1 n, 2 * (W k * exp (2 * Real.pi * I * (k * j / nt))).re := by
    rw [← sum_Ico_consecutive _ hn h]
    have : ∑ k ∈ Ico n ((nt + 1) / 2), 2 * (padded n W k * exp (2 * Real.pi * I * (k * j / nt))).re = 0 := by
      refine sum_eq_zero fun k hk => ?_
      rw [mem_Ico] at hk
      simp [padded, not_lt.2 hk.1]
    rw [this, add_zero]
    refine sum_congr rfl fun k hk => ?_
    rw [mem_Ico] at hk
    simp [padded, hk.2]
  have e2 : padded n W 0 = W 0 := by simp [padded]; omega
  rw [e1, e2]
  split
  · have : padded n W (nt / 2) = 0 := by
      unfold padded
      rw [if_neg (by omega)]
    rw [this]; simp
  · simp

/-- C49 violated with fewer valid bins than there are: the direct sum is the transform of the spectrum padded with zeros but without the
last valid bin, so it falls short by the contribution of that bin. -/
theorem C49_last_bin_violated (nt nfv : ℕ) (h1 : 2 ≤ nfv) (h2 : nfv ≤ nt / 2) (dt df : ℝ) (hdf : df * (nt * dt) = 1) (W : ℕ → ℂ) (i : ℕ) :
    ∃ x, naive nt dt nfv df 0 W i = some x ∧ (x : ℂ) = c2r nt (padded (nfv - 1) W) i ∧
      c2r nt (padded nfv W) i - x = ((2 * (W (nfv - 1) * exp (2 * Real.pi * I * ((nfv - 1 : ℕ) * i / nt))).re : ℝ) : ℂ) := by
  unfold naive
  rw [if_neg (by omega)]
  refine ⟨_, rfl, ?_⟩
  rw [c2r_padded nt (nfv - 1) (by omega) (by omega), c2r_padded nt nfv (by omega) (by omega), if_neg (show ¬ nt / 2 + 1 = nfv by omega)]
  have hph := phase_eq nt dt df (by omega) hdf
  simp only [hph, if_true]
  simp only [add_zero]
  refine ⟨trivial, ?_⟩
  obtain ⟨m, rfl⟩ : ∃ m, nfv = m + 2 := ⟨nfv - 2, by omega⟩
  rw [show m + 2 - 1 = m + 1 from rfl, show m + 2 = (m + 1) + 1 from rfl, sum_Ico_succ_top (show 1 ≤ m + 1 by omega)]
  push_cast
  ring

/-- A case: eight samples, three valid bins, all one: at sample 0 the sum is 3, the transform 5. -/
example : naive 8 1 3 (1 / 8) 0 (fun _ => 1) 0 = some 3 ∧ c2r 8 (padded 3 fun _ => 1) 0 = 5 := by
  constructor
  · simp [naive, show Ico 1 2 = {1} from rfl]
    norm_num
  · rw [c2r_padded 8 3 (by norm_num) (by norm_num)]
    simp [show Ico 1 3 = {1, 2} from rfl]
    norm_num

/-- With the single valid bin zero the direct sum is right. -/
theorem C49_constant_partial (nt : ℕ) (hn : 2 ≤ nt) (dt df : ℝ) (W : ℕ → ℂ) (i : ℕ) :
    ∃ x, naive nt dt 1 df 0 W i = some x ∧ (x : ℂ) = c2r nt (padded 1 W) i := by
  unfold naive
  rw [if_neg (by omega)]
  refine ⟨_, rfl, ?_⟩
  rw [c2r_padded nt 1 le_rfl (by omega), if_neg (show ¬ nt / 2 + 1 = 1 by omega)]
  simp

/-- C49 violated for a single sample: bin zero is counted three times. -/
theorem C49_single_violated (dt df : ℝ) (W : ℕ → ℂ) : naive 1 dt 1 df 0 W 0 = some (3 * (W 0).re) ∧ c2r 1 W 0 = (W 0).re := by
  constructor
  · simp [naive]
    ring
  · simp [c2r, hermitian]

/-- C49 violated with a first frequency other than zero (`f0`): bin zero is left out altogether, so the samples do not depend on it. -/
theorem C49_offset_violated (nt nfv : ℕ) (h : 2 ≤ nfv) (dt df f0 : ℝ) (h0 : f0 ≠ 0) (W : ℕ → ℂ) (w : ℂ) (i : ℕ) :
    naive nt dt nfv df f0 (Function.update W 0 w) i = naive nt dt nfv df f0 W i := by
  have hl : Function.update W 0 w (nfv - 1) = W (nfv - 1) := Function.update_of_ne (by omega) _ _
  have hs : ∀ k ∈ Ico 1 (nfv - 1), 2 * (Function.update W 0 w k * exp (I * (2 * Real.pi) * ((k * df + f0 : ℝ) : ℂ) * ((i * dt : ℝ) : ℂ))).re =
      2 * (W k * exp (I * (2 * Real.pi) * ((k * df + f0 : ℝ) : ℂ) * ((i * dt : ℝ) : ℂ))).re := by
    intro k hk
    rw [mem_Ico] at hk
    rw [Function.update_of_ne (by omega)]
  simp only [naive, if_neg h0, hl, sum_congr rfl hs]

/-- A case: the only non-zero bin is the first, at 1 Hz; every sample is zero. -/
example : naive 4 1 3 (1 / 4) 1 (fun k => if k = 0 then 1 else 0) 0 = some 0 := by
  simp [naive, show Ico 1 2 = {1} from rfl]

/-- With no valid bin the loop leaves the array. -/
theorem C49_empty_violated (nt : ℕ) (dt df f0 : ℝ) (W : ℕ → ℂ) (i : ℕ) : naive nt dt 0 df f0 W i = none := by
  simp [naive]

end GRT.Freq
