import Verif.Signals.Wave

/-!
C133: `gen_triangle_wave` (pygrt/signals.py 25-35) and `gen_trap_wave` (signals.py 59-81), which hand their times to
`grt_get_trap_wave` (pygrt/C_extension/src/dynamic/signals.c 221-284, modelled in Verif.Signals.Model).  Times are real numbers; their
rounding to `float` (`c_float`, signals.py 71-73) is left out.
-/

namespace GRT.Python.Triangle

open GRT.Signals

/-- `gen_trap_wave`, signals.py 59-81: the samples. -/
noncomputable def genTrap (t1 t2 t3 dt : ℝ) : Option (List ℝ) :=
  match trapWave dt t1 t2 t3 with
  | .ok arr _ => some arr
  | _ => none

/-- `gen_triangle_wave`, signals.py 25-35. -/
noncomputable def genTriangle (vlen dt : ℝ) : Option (List ℝ) := genTrap (vlen / 2) (vlen / 2) vlen dt

/-- Specification: the triangle of height one between `0` and `L`, with its top in the middle. -/
noncomputable def tent (L s : ℝ) : ℝ := 1 - |2 * s / L - 1|

theorem trapWave_times (dt T T3 : ℝ) (arr : List ℝ) (t1 t2 t3 : ℝ) (h : trapWave dt T T T3 = .ok arr (t1, t2, t3)) :
    t1 = ((steps dt T : ℝ) + 1) * dt ∧ t2 = t1 ∧ t3 = t1 + ((steps dt (T3 - t1) : ℝ) + 1) * dt := by
  unfold trapWave at h
  simp only [if_true] at h
  split at h
  · simp at h
  · split at h
    · simp at h
    · simp only [TF.ok.injEq, Prod.mk.injEq] at h
      obtain ⟨-, rfl, rfl, rfl⟩ := h
      refine ⟨by push_cast; ring, rfl, by push_cast; ring⟩

theorem steps_grid (dt : ℝ) (hdt : 0 < dt) (k : ℕ) : steps dt (k * dt) = k - 1 := by
  have : ⌊(k : ℝ) * dt / dt⌋ = k := by rw [mul_div_cancel_right₀ _ hdt.ne', Int.floor_natCast]
  unfold steps
  dsimp only
  rw [this, if_pos]
  simp

theorem steps_half (dt : ℝ) (hdt : 2 / 1000000 < dt) (k : ℕ) : steps dt ((2 * k + 1) * dt / 2) = k := by
  have h0 : 0 < dt := by linarith
  have e : (2 * (k : ℝ) + 1) * dt / 2 / dt = k + 1 / 2 := by field_simp
  have : ⌊(2 * (k : ℝ) + 1) * dt / 2 / dt⌋ = k := by
    rw [e, Int.floor_eq_iff]
    push_cast
    constructor <;> linarith
  unfold steps
  dsimp only
  rw [this, if_neg]
  push_cast
  rw [not_le, abs_of_nonneg (by linarith)]
  linarith

/-- C133 for a length of an even number of intervals: one sample per interval from `0` to the length, each on the triangle. -/
theorem C133_even (dt : ℝ) (hdt : 0 < dt) (k : ℕ) (hk : 1 ≤ k) :
    genTriangle ((2 * k : ℕ) * dt) dt = some ((List.range (2 * k + 1)).map fun i : ℕ => tent ((2 * k : ℕ) * dt) (i * dt)) := by
  have hk' : (1 : ℝ) ≤ k := by exact_mod_cast hk
  have hL : ((2 * k : ℕ) : ℝ) * dt / 2 = k * dt := by push_cast; ring
  obtain ⟨arr, t1, t2, t3, h, -, -, -, -, -, -, hl, hv⟩ := C35_trapezoid dt (k * dt) (k * dt) ((2 * k : ℕ) * dt) hdt (by positivity) le_rfl
    (by push_cast; nlinarith)
  obtain ⟨e1, e2, e3⟩ := trapWave_times dt _ _ arr t1 t2 t3 h
  rw [steps_grid dt hdt k] at e1
  have e1' : t1 = k * dt := by rw [e1]; push_cast; ring
  rw [e1', show ((2 * k : ℕ) : ℝ) * dt - k * dt = k * dt by push_cast; ring, steps_grid dt hdt k] at e3
  have e3' : t3 = 2 * k * dt := by rw [e3]; push_cast; ring
  have hlen : arr.length = 2 * k + 1 := by
    rw [e3'] at hl
    have : ((2 * k + 1 : ℕ) : ℝ) * dt = arr.length * dt := by rw [← hl]; push_cast; ring
    exact_mod_cast (mul_right_cancel₀ hdt.ne' this).symm
  unfold genTriangle genTrap
  rw [hL, h]
  simp only [Option.some.injEq]
  refine List.ext_getElem (by simp [hlen]) fun i h1 h2 => ?_
  rw [← List.getD_eq_getElem arr 0 h1, hv i h1, e2, e1', e3', List.getElem_map, List.getElem_range]
  unfold trapezoid tent
  have hkd : (k : ℝ) * dt ≠ 0 := by positivity
  have hq : 2 * ((i : ℝ) * dt) / (((2 * k : ℕ) : ℝ) * dt) = i / k := by push_cast; field_simp
  rw [hq]
  have hk0 : (0 : ℝ) < k := by linarith
  split
  · rename_i hlt
    have hik : (i : ℝ) < k := lt_of_mul_lt_mul_right hlt hdt.le
    rw [abs_of_nonpos (by rw [sub_nonpos, div_le_one hk0]; exact hik.le)]
    field_simp
    ring
  · rename_i hge
    have hik : (k : ℝ) ≤ i := le_of_mul_le_mul_right (not_lt.1 hge) hdt
    rw [abs_of_nonneg (by rw [sub_nonneg, le_div_iff₀ hk0]; linarith)]
    split
    · rename_i hle
      have : (i : ℝ) = k := le_antisymm (le_of_mul_le_mul_right hle hdt) hik
      rw [this, div_self hk0.ne']; ring
    · have : (2 * (k : ℝ) * dt - k * dt) ≠ 0 := by
        have : (0 : ℝ) < k * dt := by positivity
        intro hc; linarith
      rw [show 2 * (k : ℝ) * dt - k * dt = k * dt by ring]
      field_simp
      ring

/-- C133 for every length above the tolerance: samples between 0 and 1, one of them 1, the first 0. -/
theorem C133_partial (vlen dt : ℝ) (hdt : 0 < dt) (h : 2 / 1000000 < vlen) :
    ∃ arr, genTriangle vlen dt = some arr ∧ (∀ v ∈ arr, 0 ≤ v ∧ v ≤ 1) ∧ 1 ∈ arr ∧ arr.getD 0 0 = 0 := by
  obtain ⟨arr, ts, h1, h2, h3⟩ := C35_trapezoid_peak dt (vlen / 2) (vlen / 2) vlen hdt (by linarith) le_rfl (by linarith)
  obtain ⟨arr', ts', h4, h5⟩ := C35_trapezoid_start dt (vlen / 2) (vlen / 2) vlen hdt (by linarith) le_rfl (by linarith)
  rw [h1] at h4
  simp only [TF.ok.injEq] at h4
  obtain ⟨rfl, -⟩ := h4
  exact ⟨arr, by unfold genTriangle genTrap; rw [h1], h2, h3, h5⟩

/-- C133 fails for every length of an odd number of intervals: the rise takes one interval more than the fall, so the samples are not the
same read backwards; for a length of one interval there is no fall and the last sample is 1. -/
theorem C133_violated (dt : ℝ) (hdt : 2 / 1000000 < dt) (k : ℕ) :
    ∃ arr, genTriangle ((2 * k + 1) * dt) dt = some arr ∧ arr.length = 2 * k + 2 ∧ (∀ i ≤ k, arr.getD i 0 = i / (k + 1)) ∧
      arr.getD (k + 1) 0 = 1 ∧ arr ≠ arr.reverse ∧ (k = 0 → arr = [0, 1]) := by
  have h0 : 0 < dt := by linarith
  have hk0 : (0 : ℝ) ≤ k := by positivity
  obtain ⟨arr, t1, t2, t3, h, -, -, -, -, -, -, hl, hv⟩ := C35_trapezoid dt ((2 * k + 1) * dt / 2) ((2 * k + 1) * dt / 2) ((2 * k + 1) * dt) h0
    (by positivity) le_rfl (by nlinarith)
  obtain ⟨e1, e2, e3⟩ := trapWave_times dt _ _ arr t1 t2 t3 h
  rw [steps_half dt hdt k] at e1
  have e1' : t1 = (k + 1) * dt := by rw [e1]; push_cast; ring
  rw [e1', show (2 * (k : ℝ) + 1) * dt - (k + 1) * dt = k * dt by ring, steps_grid dt h0 k] at e3
  have e3' : t3 = (2 * k + 1) * dt := by rw [e3]; push_cast; ring
  have hlen : arr.length = 2 * k + 2 := by
    rw [e3'] at hl
    have : ((2 * k + 2 : ℕ) : ℝ) * dt = arr.length * dt := by rw [← hl]; push_cast; ring
    exact_mod_cast (mul_right_cancel₀ h0.ne' this).symm
  have hrise : ∀ i ≤ k, arr.getD i 0 = i / (k + 1) := by
    intro i hi
    have hi' : (i : ℝ) ≤ k := by exact_mod_cast hi
    rw [hv i (by omega), e1', trapezoid, if_pos (by nlinarith)]
    field_simp
  have htop : arr.getD (k + 1) 0 = 1 := by
    rw [hv (k + 1) (by omega), e2, e1', trapezoid, if_neg (by push_cast; exact lt_irrefl _), if_pos (by push_cast; exact le_rfl)]
  refine ⟨arr, by unfold genTriangle genTrap; rw [h], hlen, hrise, htop, ?_, ?_⟩
  · intro hrev
    have h1 : arr.getD k 0 = arr.getD (k + 1) 0 := by
      conv_lhs => rw [hrev]
      rw [List.getD_eq_getElem _ _ (by simp; omega), List.getElem_reverse, ← List.getD_eq_getElem _ 0]
      congr 1
      omega
    rw [hrise k le_rfl, htop, div_eq_one_iff_eq (by positivity)] at h1
    linarith
  · rintro rfl
    match arr, hlen, hrise, htop with
    | [a, b], _, h1, h2 =>
      have := h1 0 le_rfl
      simp only [List.getD_cons_zero, CharP.cast_eq_zero, zero_div, zero_add, List.getD_cons_succ] at this h2
      rw [this, h2]

/-- A case of `C133_even`: 0.4 s at intervals of 0.1 s. -/
example : genTriangle ((2 * 2 : ℕ) * (1 / 10)) (1 / 10) = some ((List.range 5).map fun i : ℕ => tent ((2 * 2 : ℕ) * (1 / 10)) (i * (1 / 10))) :=
  C133_even (1 / 10) (by norm_num) 2 (by norm_num)

/-- A case of `C133_partial`: 0.25 s at intervals of 0.1 s. -/
example : ∃ arr, genTriangle (1 / 4) (1 / 10) = some arr ∧ (∀ v ∈ arr, 0 ≤ v ∧ v ≤ 1) ∧ 1 ∈ arr ∧ arr.getD 0 0 = 0 :=
  C133_partial (1 / 4) (1 / 10) (by norm_num) (by norm_num)

/-- A case of `C133_violated`: 0.1 s at intervals of 0.1 s gives a step. -/
example : ∃ arr, genTriangle ((2 * (0 : ℕ) + 1) * (1 / 10)) (1 / 10) = some arr ∧ arr = [0, 1] := by
  obtain ⟨arr, h, -, -, -, -, h1⟩ := C133_violated (1 / 10) (by norm_num) 0
  exact ⟨arr, h, h1 rfl⟩

end GRT.Python.Triangle
