import Mathlib.Analysis.SpecialFunctions.Trigonometric.Basic
import Mathlib.Algebra.Order.Floor.Semiring
import Mathlib.Analysis.Real.Pi.Bounds
import Mathlib.Order.Interval.Finset.Nat

/-!
Frequencies that are computed: the grid and the band chosen by the user (`prepare_grn_spec`, dynamic/grt_greenfn.c 838-945) and
the leading frequencies left out (`grt_integ_grn_spec`, dynamic/grn.c 63-254). Exact arithmetic; all paths are below
pygrt/C_extension/src.
-/

namespace GRT.Freq

open Real

/-- Number of frequencies, grt_greenfn.c 893: `nt / 2 + 1`. -/
def nfreq (nt : ℕ) : ℕ := nt / 2 + 1

/-- Frequency interval, grt_greenfn.c 872, 894. -/
noncomputable def dfreq (nt : ℕ) (dt : ℝ) : ℝ := 1 / (nt * dt)

/-- `freqs[i]`, grt_greenfn.c 895-898. -/
noncomputable def grid (nt : ℕ) (dt : ℝ) (i : ℕ) : ℝ := i * dfreq nt dt

open Classical in
/-- First index of the band, grt_greenfn.c 900, 902-904. -/
noncomputable def lower (nt : ℕ) (dt freq1 : ℝ) : ℕ := if 0 < freq1 then min ⌈freq1 / dfreq nt dt⌉₊ (nfreq nt - 1) else 0

open Classical in
/-- Last index of the band, grt_greenfn.c 901, 905-908. -/
noncomputable def upper (nt : ℕ) (dt freq1 freq2 : ℝ) : ℕ :=
  max (lower nt dt freq1) (if 0 < freq2 then min ⌊freq2 / dfreq nt dt⌋₊ (nfreq nt - 1) else nfreq nt - 1)

/-- Complex frequency, grn.c 92, 114. -/
noncomputable def omega (f wI : ℝ) : ℂ := (f * (2 * π) : ℝ) - wI * Complex.I

open Classical in
/-- The loop over leading frequencies, grn.c 91-100. -/
noncomputable def skip (freqs : ℕ → ℝ) (wI : ℝ) (nf2 i : ℕ) : ℕ :=
  if i ≤ nf2 then
    if 1 / 10 ≤ ‖omega (freqs i) wI‖ then i else skip freqs wI nf2 (i + 1)
  else i
termination_by nf2 + 1 - i

/-- Index of the first frequency computed, grn.c 89-102; `none` is the error "NO VALID FREQUENCIES". -/
noncomputable def firstValid (freqs : ℕ → ℝ) (wI : ℝ) (keepAll : Bool) (nf1 nf2 : ℕ) : Option ℕ :=
  let v := if keepAll then nf1 else skip freqs wI nf2 nf1
  if nf2 < v then none else some v

/-- Indices the frequency loop runs over, grn.c 110: `for(iw = nf1_valid; iw <= nf2; ++iw)`. -/
def loopRange (v nf2 : ℕ) : List ℕ := List.range' v (nf2 + 1 - v)

/-! ### Specification -/

/-- A frequency is high enough to be computed. -/
def HighEnough (f wI : ℝ) : Prop := 1 / 10 ≤ √((2 * π * f) ^ 2 + wI ^ 2)

theorem norm_omega (f wI : ℝ) : ‖omega f wI‖ = √((2 * π * f) ^ 2 + wI ^ 2) := by
  unfold omega
  rw [Complex.norm_def, Complex.normSq_apply]
  congr 1
  simp
  ring

theorem skip_spec (freqs : ℕ → ℝ) (wI : ℝ) (nf2 i : ℕ) :
    i ≤ skip freqs wI nf2 i ∧ (∀ j, i ≤ j → j < skip freqs wI nf2 i → j ≤ nf2 ∧ ¬ HighEnough (freqs j) wI) ∧
    (skip freqs wI nf2 i ≤ nf2 → HighEnough (freqs (skip freqs wI nf2 i)) wI) := by
  induction h : nf2 + 1 - i generalizing i with
  | zero =>
    rw [skip, if_neg (by omega)]
    exact ⟨le_rfl, fun j h1 h2 => by omega, fun h => by omega⟩
  | succ n ih =>
    rw [skip, if_pos (by omega)]
    split
    · rename_i h1
      rw [norm_omega] at h1
      exact ⟨le_rfl, fun j h1 h2 => by omega, fun _ => h1⟩
    · rename_i h1
      rw [norm_omega] at h1
      obtain ⟨h2, h3, h4⟩ := ih (i + 1) (by omega)
      refine ⟨by omega, fun j h5 h6 => ?_, h4⟩
      rcases Nat.eq_or_lt_of_le h5 with h7 | h7
      · subst h7; exact ⟨by omega, h1⟩
      · exact h3 j h7 h6

/-- For every list of frequencies, whatever its order: what is left out is a prefix of the band, all of it below the threshold; the
loop starts at a frequency that reaches it and runs over all the rest of the band, once each and in order; there is an error
exactly when no frequency of the band reaches it. With the option that keeps all frequencies nothing is left out. -/
theorem C47_prefix (freqs : ℕ → ℝ) (wI : ℝ) (nf1 nf2 : ℕ) (h12 : nf1 ≤ nf2) :
    firstValid freqs wI true nf1 nf2 = some nf1 ∧
    (firstValid freqs wI false nf1 nf2 = none ↔ ∀ i, nf1 ≤ i → i ≤ nf2 → ¬ HighEnough (freqs i) wI) ∧
    (∀ v, firstValid freqs wI false nf1 nf2 = some v →
      nf1 ≤ v ∧ v ≤ nf2 ∧ HighEnough (freqs v) wI ∧ ∀ i, nf1 ≤ i → i < v → ¬ HighEnough (freqs i) wI) ∧
    (∀ v, v ≤ nf2 → (loopRange v nf2).Nodup ∧ (loopRange v nf2).Pairwise (· < ·) ∧ ∀ i, i ∈ loopRange v nf2 ↔ v ≤ i ∧ i ≤ nf2) := by
  obtain ⟨h1, h2, h3⟩ := skip_spec freqs wI nf2 nf1
  refine ⟨?_, ?_, ?_, fun v hv => ⟨List.nodup_range' , List.pairwise_lt_range', fun i => ?_⟩⟩
  · simp [firstValid, h12]
  · unfold firstValid
    simp only [Bool.false_eq_true, if_false]
    split
    · rename_i h4
      exact iff_of_true rfl fun i h5 h6 => (h2 i h5 (by omega)).2
    · rename_i h4
      exact iff_of_false (by simp) fun h => h _ h1 (by omega) (h3 (by omega))
  · intro v h
    unfold firstValid at h
    simp only [Bool.false_eq_true, if_false] at h
    split at h
    · exact absurd h (by simp)
    · rename_i h4
      injection h with h
      subst h
      exact ⟨h1, by omega, h3 (by omega), fun i h5 h6 => (h2 i h5 h6).2⟩
  · rw [loopRange, List.mem_range'_1]
    omega

theorem highEnough_mono {f g wI : ℝ} (hf : 0 ≤ f) (hfg : f ≤ g) (h : HighEnough f wI) : HighEnough g wI := by
  unfold HighEnough at *
  refine h.trans (Real.sqrt_le_sqrt ?_)
  have : (2 * π * f) ^ 2 ≤ (2 * π * g) ^ 2 := by
    have : 2 * π * f ≤ 2 * π * g := mul_le_mul_of_nonneg_left hfg (by positivity)
    exact pow_le_pow_left₀ (by positivity) this 2
  linarith

/-- For frequencies in rising order (such as the grid, `grid_rising`) the loop computes exactly the frequencies of the band that
reach the threshold. -/
theorem C47_rising (freqs : ℕ → ℝ) (wI : ℝ) (nf1 nf2 : ℕ) (h12 : nf1 ≤ nf2) (h0 : ∀ i, 0 ≤ freqs i) (hm : Monotone freqs)
    (v : ℕ) (h : firstValid freqs wI false nf1 nf2 = some v) (i : ℕ) :
    i ∈ loopRange v nf2 ↔ nf1 ≤ i ∧ i ≤ nf2 ∧ HighEnough (freqs i) wI := by
  obtain ⟨-, -, h3, h4⟩ := C47_prefix freqs wI nf1 nf2 h12
  obtain ⟨h5, h6, h7, h8⟩ := h3 v h
  rw [(h4 v h6).2.2 i]
  constructor
  · rintro ⟨h9, h10⟩
    exact ⟨by omega, h10, highEnough_mono (h0 v) (hm h9) h7⟩
  · rintro ⟨h9, h10, h11⟩
    refine ⟨?_, h10⟩
    by_contra hc
    exact h8 i h9 (by omega) h11

theorem dfreq_pos {nt : ℕ} {dt : ℝ} (hn : 0 < nt) (hd : 0 < dt) : 0 < dfreq nt dt := by
  unfold dfreq
  have : (0 : ℝ) < nt := by exact_mod_cast hn
  positivity

theorem grid_rising {nt : ℕ} {dt : ℝ} (hn : 0 < nt) (hd : 0 < dt) : (∀ i, 0 ≤ grid nt dt i) ∧ Monotone (grid nt dt) := by
  have := dfreq_pos hn hd
  refine ⟨fun i => by unfold grid; positivity, fun i j h => ?_⟩
  unfold grid
  have : (i : ℝ) ≤ j := by exact_mod_cast h
  gcongr

/-- A case: 200 s of record, no damping: the frequencies 0, 0.005, 0.01 and 0.015 Hz are left out, 0.02 Hz is the first one. -/
example : firstValid (grid 200 1) 0 false 0 100 = some 4 := by
  have hl : ∀ i : ℕ, i ≤ 3 → ¬ 1 / 10 ≤ ‖omega (grid 200 1 i) 0‖ := by
    intro i hi
    rw [norm_omega]
    have h1 : (i : ℝ) ≤ 3 := by exact_mod_cast hi
    have : √((2 * π * grid 200 1 i) ^ 2 + 0 ^ 2) = 2 * π * grid 200 1 i := by
      rw [zero_pow two_ne_zero, add_zero, Real.sqrt_sq]
      unfold grid dfreq; positivity
    rw [this]
    unfold grid dfreq
    push Not
    have := Real.pi_lt_d2
    have := Real.pi_pos
    norm_num
    nlinarith
  have hh : 1 / 10 ≤ ‖omega (grid 200 1 4) 0‖ := by
    rw [norm_omega, zero_pow two_ne_zero, add_zero, Real.sqrt_sq (by unfold grid dfreq; positivity)]
    unfold grid dfreq
    have := Real.pi_gt_three
    norm_num
    linarith
  have e : skip (grid 200 1) 0 100 0 = 4 := by
    rw [skip, if_pos (by norm_num), if_neg (hl 0 (by norm_num)), skip, if_pos (by norm_num), if_neg (hl 1 (by norm_num)), skip,
      if_pos (by norm_num), if_neg (hl 2 (by norm_num)), skip, if_pos (by norm_num), if_neg (hl 3 (by norm_num)), skip,
      if_pos (by norm_num), if_pos hh]
  simp [firstValid, e]

/-! ### The band -/

/-- A frequency of the grid belongs to the band asked for; a bound that is not positive is no bound. -/
def InBand (freq1 freq2 f : ℝ) : Prop := (0 < freq1 → freq1 ≤ f) ∧ (0 < freq2 → f ≤ freq2)

theorem lower_le (nt : ℕ) (dt freq1 : ℝ) : lower nt dt freq1 ≤ nfreq nt - 1 := by
  unfold lower; split
  · exact min_le_right _ _
  · exact Nat.zero_le _

theorem upper_le (nt : ℕ) (dt freq1 freq2 : ℝ) : upper nt dt freq1 freq2 ≤ nfreq nt - 1 := by
  unfold upper
  refine max_le (lower_le _ _ _) ?_
  split
  · exact min_le_right _ _
  · exact le_rfl

/-- The indices never leave the arrays, and there is always at least one. -/
theorem C68_defined (nt : ℕ) (dt freq1 freq2 : ℝ) :
    lower nt dt freq1 ≤ upper nt dt freq1 freq2 ∧ upper nt dt freq1 freq2 < nfreq nt :=
  ⟨le_max_left _ _, by have := upper_le nt dt freq1 freq2; unfold nfreq at *; omega⟩

theorem lower_iff {nt : ℕ} {dt : ℝ} (hn : 0 < nt) (hd : 0 < dt) (freq1 : ℝ) (i j : ℕ) (hi : i < nfreq nt) (hj : j < nfreq nt)
    (hb : 0 < freq1 → freq1 ≤ grid nt dt j) : lower nt dt freq1 ≤ i ↔ (0 < freq1 → freq1 ≤ grid nt dt i) := by
  have hf := dfreq_pos hn hd
  have key : ∀ l : ℕ, ⌈freq1 / dfreq nt dt⌉₊ ≤ l ↔ freq1 ≤ grid nt dt l := fun l => by
    rw [Nat.ceil_le, div_le_iff₀ hf]; rfl
  unfold lower
  split
  · rename_i h
    have h1 := (key j).2 (hb h)
    rw [min_eq_left (by omega), key]
    exact ⟨fun h _ => h, fun h' => h' h⟩
  · rename_i h
    exact iff_of_true (Nat.zero_le _) fun h' => absurd h' h

theorem upper_iff {nt : ℕ} {dt : ℝ} (hn : 0 < nt) (hd : 0 < dt) (freq1 freq2 : ℝ) (i j : ℕ) (hi : i < nfreq nt) (hj : j < nfreq nt)
    (hb : InBand freq1 freq2 (grid nt dt j)) : i ≤ upper nt dt freq1 freq2 ↔ (0 < freq2 → grid nt dt i ≤ freq2) := by
  have hf := dfreq_pos hn hd
  have key : ∀ l : ℕ, 0 < freq2 → (l ≤ ⌊freq2 / dfreq nt dt⌋₊ ↔ grid nt dt l ≤ freq2) := fun l h => by
    rw [Nat.le_floor_iff (by positivity), le_div_iff₀ hf]; rfl
  have hlj : lower nt dt freq1 ≤ j := (lower_iff hn hd freq1 j j hj hj hb.1).2 hb.1
  unfold upper
  split
  · rename_i h
    have h1 := (key j h).2 (hb.2 h)
    rw [le_max_iff, le_min_iff, key i h]
    constructor
    · rintro (h2 | ⟨h2, -⟩) -
      · exact (key i h).1 (by omega)
      · exact h2
    · intro h2
      exact Or.inr ⟨h2 h, by omega⟩
  · rename_i h
    exact iff_of_true (le_max_of_le_right (by omega)) fun h' => absurd h' h

/-- Band of frequencies: if at least one frequency of the grid lies in the band asked for, the band computed consists of exactly the
frequencies of the grid that lie in it. (Missing: the band without a frequency of the grid, `C68_between_violated` and
`C68_above_violated`.) -/
theorem C68_band_partial (nt : ℕ) (dt freq1 freq2 : ℝ) (hn : 0 < nt) (hd : 0 < dt) (j : ℕ) (hj : j < nfreq nt)
    (hb : InBand freq1 freq2 (grid nt dt j)) (i : ℕ) (hi : i < nfreq nt) :
    lower nt dt freq1 ≤ i ∧ i ≤ upper nt dt freq1 freq2 ↔ InBand freq1 freq2 (grid nt dt i) := by
  rw [lower_iff hn hd freq1 i j hi hj hb.1, upper_iff hn hd freq1 freq2 i j hi hj hb]
  rfl

/-- A case: 100 points at 1 s, band 0.095 to 0.125 Hz: the frequencies 0.1, 0.11 and 0.12 Hz. -/
example : lower 100 1 (95 / 1000) = 10 ∧ upper 100 1 (95 / 1000) (125 / 1000) = 12 := by
  have e : lower 100 1 (95 / 1000) = 10 := by
    unfold lower dfreq nfreq
    rw [if_pos (by norm_num)]
    have : ⌈(95 / 1000 : ℝ) / (1 / ((100 : ℕ) * 1))⌉₊ = 10 := by
      rw [Nat.ceil_eq_iff (by norm_num)]; norm_num
    rw [this]; rfl
  refine ⟨e, ?_⟩
  unfold upper
  rw [e]
  unfold dfreq nfreq
  rw [if_pos (by norm_num)]
  have : ⌊(125 / 1000 : ℝ) / (1 / ((100 : ℕ) * 1))⌋₊ = 12 := by
    rw [Nat.floor_eq_iff (by norm_num)]; norm_num
  rw [this]; rfl

/-- If the band lies between two neighbouring frequencies of the grid, the upper one is computed though it is above the band. -/
theorem C68_between_violated (nt : ℕ) (dt freq1 freq2 : ℝ) (hn : 0 < nt) (hd : 0 < dt) (m : ℕ) (hm : m + 1 < nfreq nt)
    (h1 : grid nt dt m < freq1) (h12 : freq1 ≤ freq2) (h2 : freq2 < grid nt dt (m + 1)) :
    lower nt dt freq1 = m + 1 ∧ upper nt dt freq1 freq2 = m + 1 ∧ ¬ InBand freq1 freq2 (grid nt dt (m + 1)) := by
  have hf := dfreq_pos hn hd
  have hp : 0 < freq1 := ((grid_rising hn hd).1 m).trans_lt h1
  have hp2 : 0 < freq2 := hp.trans_le h12
  have e1 : ⌈freq1 / dfreq nt dt⌉₊ = m + 1 := by
    rw [Nat.ceil_eq_iff (by omega), lt_div_iff₀ hf, div_le_iff₀ hf]
    exact ⟨by simpa [grid] using h1, by have := h12.trans h2.le; simpa [grid] using this⟩
  have e2 : ⌊freq2 / dfreq nt dt⌋₊ = m := by
    rw [Nat.floor_eq_iff (by positivity), le_div_iff₀ hf, div_lt_iff₀ hf]
    exact ⟨(h1.trans_le h12).le, by simpa [grid] using h2⟩
  have el : lower nt dt freq1 = m + 1 := by
    unfold lower
    rw [if_pos hp, e1]; omega
  refine ⟨el, ?_, fun h => absurd (h.2 hp2) (not_le.2 h2)⟩
  unfold upper
  rw [el, if_pos hp2, e2]; omega

/-- If the band lies above the highest frequency of the grid, that frequency is computed though it is below the band. -/
theorem C68_above_violated (nt : ℕ) (dt freq1 freq2 : ℝ) (hn : 0 < nt) (hd : 0 < dt) (h1 : grid nt dt (nfreq nt - 1) < freq1) :
    lower nt dt freq1 = nfreq nt - 1 ∧ upper nt dt freq1 freq2 = nfreq nt - 1 ∧
      ¬ InBand freq1 freq2 (grid nt dt (nfreq nt - 1)) := by
  have hf := dfreq_pos hn hd
  have hp : 0 < freq1 := ((grid_rising hn hd).1 _).trans_lt h1
  have el : lower nt dt freq1 = nfreq nt - 1 := by
    unfold lower
    rw [if_pos hp]
    refine min_eq_right ?_
    have : nfreq nt - 1 < ⌈freq1 / dfreq nt dt⌉₊ := by
      rw [Nat.lt_ceil, lt_div_iff₀ hf]; exact h1
    omega
  refine ⟨el, le_antisymm (upper_le _ _ _ _) (el ▸ le_max_left _ _), fun h => absurd (h.1 hp) (not_le.2 h1)⟩

/-- Cases: 100 points at 1 s: band 0.101 to 0.109 Hz computes 0.11 Hz; band 0.7 to 0.8 Hz computes 0.5 Hz. -/
example : lower 100 1 (101 / 1000) = 11 ∧ upper 100 1 (101 / 1000) (109 / 1000) = 11 := by
  have := C68_between_violated 100 1 (101 / 1000) (109 / 1000) (by norm_num) (by norm_num) 10 (by decide)
    (by norm_num [grid, dfreq]) (by norm_num) (by norm_num [grid, dfreq])
  exact ⟨this.1, this.2.1⟩
example : lower 100 1 (7 / 10) = 50 ∧ upper 100 1 (7 / 10) (8 / 10) = 50 := by
  have := C68_above_violated 100 1 (7 / 10) (8 / 10) (by norm_num) (by norm_num) (by norm_num [grid, dfreq, nfreq])
  exact ⟨this.1, this.2.1⟩

end GRT.Freq
