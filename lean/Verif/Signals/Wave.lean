import Verif.Signals.Model
import Mathlib.Data.List.GetD
import Mathlib.Tactic.Linarith
import Mathlib.Tactic.Ring
import Mathlib.Tactic.NormNum
import Mathlib.Tactic.FieldSimp
import Mathlib.Tactic.Positivity

/-! C35: time functions. -/

set_option linter.unusedSectionVars false

namespace GRT.Signals

/-! ### Specification -/

/-- The trapezoid with corners at `0`, `t1`, `t2`, `t3`. -/
noncomputable def trapezoid (t1 t2 t3 s : ℝ) : ℝ := if s < t1 then s / t1 else if s ≤ t2 then 1 else (t3 - s) / (t3 - t2)

/-- The parabola with zeros at `0` and `T` and height one. -/
noncomputable def parabola (T s : ℝ) : ℝ := 4 * (s / T) * (1 - s / T)

/-- The Ricker wavelet of dominant frequency `f0` centred at `1 / f0`. -/
noncomputable def ricker (f0 s : ℝ) : ℝ :=
  (1 - 2 * (Real.pi * f0 * (s - 1 / f0)) ^ 2) * Real.exp (-(Real.pi * f0 * (s - 1 / f0)) ^ 2)

/-- `s` is the requested time `T` moved to the sampling grid: down by at most the tolerance or up by at most one interval. -/
def Rounded (dt T s : ℝ) : Prop := (∃ k : ℕ, s = k * dt) ∧ T - 1 / 1000000 ≤ s ∧ s ≤ T + dt

/-! ### Filling arrays -/

theorem fill_spec (f : ℕ → ℝ) (a : ℕ) (arr : List ℝ) : ∀ m, a + m ≤ arr.length →
    ∃ arr', fill f (a : ℤ) m arr = some arr' ∧ arr'.length = arr.length ∧
      ∀ i, arr'.getD i 0 = if a ≤ i ∧ i < a + m then f (i - a) else arr.getD i 0 := by
  intro m
  induction m with
  | zero => intro _; exact ⟨arr, rfl, rfl, fun i => by rw [if_neg (by omega)]⟩
  | succ m ih =>
    intro h
    obtain ⟨arr', h1, h2, h3⟩ := ih (by omega)
    unfold fill
    rw [h1]
    dsimp only
    rw [if_pos (by omega)]
    refine ⟨_, rfl, by simp [h2], fun i => ?_⟩
    have hn : ((a : ℤ) + m).toNat = a + m := by omega
    rw [hn]
    by_cases hi : i = a + m
    · subst hi
      rw [List.getD_eq_getElem _ _ (by simp; omega), if_pos (by omega)]
      simp
    · have : (arr'.set (a + m) (f m)).getD i 0 = arr'.getD i 0 := by
        rw [List.getD_eq_getElem?_getD, List.getD_eq_getElem?_getD, List.getElem?_set_ne (fun h => hi h.symm)]
      rw [this, h3]
      by_cases hc : a ≤ i ∧ i < a + m
      · rw [if_pos hc, if_pos (by omega)]
      · rw [if_neg hc, if_neg (by omega)]

/-! ### Rounding to the grid -/

theorem steps_bounds (dt t : ℝ) (hdt : 0 < dt) :
    t - 1 / 1000000 ≤ ((steps dt t : ℝ) + 1) * dt ∧ ((steps dt t : ℝ) + 1) * dt ≤ t + dt := by
  have h1 : (⌊t / dt⌋ : ℝ) * dt ≤ t := by
    have := Int.floor_le (t / dt); rwa [le_div_iff₀ hdt] at this
  have h2 : t < ((⌊t / dt⌋ : ℝ) + 1) * dt := by
    have := Int.lt_floor_add_one (t / dt); rwa [div_lt_iff₀ hdt] at this
  unfold steps
  dsimp only
  split
  · rename_i h
    have := (abs_le.1 h).2
    push_cast; constructor <;> nlinarith
  · constructor <;> nlinarith

/-- The rounded time is never a whole interval and the tolerance above the requested one, and is on the grid exactly when it
was within the tolerance of it. -/
theorem steps_next (dt t t' : ℝ) (hdt : 0 < dt) (htt : t ≤ t') : -1 ≤ steps dt (t' - ((steps dt t : ℝ) + 1) * dt) := by
  have h1 : (⌊t / dt⌋ : ℝ) * dt ≤ t := by
    have := Int.floor_le (t / dt); rwa [le_div_iff₀ hdt] at this
  by_cases h : |t - (⌊t / dt⌋ : ℝ) * dt| ≤ 1 / 1000000
  · have e : steps dt t = ⌊t / dt⌋ - 1 := by unfold steps; dsimp only; rw [if_pos h]
    rw [e]; push_cast
    have h0 : 0 ≤ ⌊(t' - ((⌊t / dt⌋ : ℝ) - 1 + 1) * dt) / dt⌋ := by
      rw [Int.floor_nonneg]; apply div_nonneg _ hdt.le; nlinarith
    unfold steps; dsimp only; split <;> omega
  · have e : steps dt t = ⌊t / dt⌋ := by unfold steps; dsimp only; rw [if_neg h]
    rw [e]
    rw [abs_of_nonneg (by linarith), not_le] at h
    set u := t' - ((⌊t / dt⌋ : ℝ) + 1) * dt with hu
    have hu1 : 1 / 1000000 < u + dt := by rw [hu]; nlinarith
    have h0 : -1 ≤ ⌊u / dt⌋ := by
      rw [Int.le_floor]; push_cast; rw [le_div_iff₀ hdt]; linarith
    rcases lt_or_eq_of_le h0 with hlt | heq
    · unfold steps; dsimp only; split <;> omega
    · unfold steps; dsimp only; rw [← heq, if_neg]
      push_cast
      rw [not_le, abs_of_nonneg (by linarith)]; linarith

theorem steps_nonneg (dt t : ℝ) (hdt : 0 < dt) (ht : 0 ≤ t) : -1 ≤ steps dt t := by
  have h0 : 0 ≤ ⌊t / dt⌋ := by rw [Int.floor_nonneg]; positivity
  unfold steps; dsimp only; split <;> omega

/-! ### C35 -/

/-- C35: for all parameters that the option check accepts, the trapezoid (triangle, ramp) is generated without leaving the array; its
corners are the requested ones moved to the grid, and every sample lies on the trapezoid with those corners. -/
theorem C35_trapezoid (dt T1 T2 T3 : ℝ) (hdt : 0 < dt) (h0 : 0 ≤ T1) (h12 : T1 ≤ T2) (h23 : T2 < T3) :
    ∃ arr t1 t2 t3, trapWave dt T1 T2 T3 = .ok arr (t1, t2, t3) ∧
      Rounded dt T1 t1 ∧ Rounded dt T2 t2 ∧ Rounded dt T3 t3 ∧ t1 ≤ t2 ∧ t2 ≤ t3 ∧ (T1 = T2 → t1 = t2) ∧
      t3 + dt = arr.length * dt ∧ ∀ n < arr.length, arr.getD n 0 = trapezoid t1 t2 t3 (n * dt) := by
  have b1 := steps_bounds dt T1 hdt
  have p1 := steps_nonneg dt T1 hdt h0
  obtain ⟨k1, hk1⟩ : ∃ k1 : ℕ, steps dt T1 = k1 - 1 := ⟨(steps dt T1 + 1).toNat, by omega⟩
  have e1 : (steps dt T1 : ℝ) + 1 = k1 := by rw [hk1]; push_cast; ring
  rw [e1] at b1
  -- second corner
  obtain ⟨k2, hk2, b2, htri⟩ : ∃ k2 : ℕ, (if T1 = T2 then (1 : ℤ) else steps dt (T2 - k1 * dt) + 2) = k2 + 1 ∧
      (T2 - 1 / 1000000 ≤ (k1 + k2) * dt ∧ ((k1 : ℝ) + k2) * dt ≤ T2 + dt) ∧ (T1 = T2 → k2 = 0) := by
    by_cases ht : T1 = T2
    · refine ⟨0, by rw [if_pos ht]; rfl, ?_, fun _ => rfl⟩
      rw [← ht]; simpa using b1
    · have q := steps_next dt T1 T2 hdt h12
      rw [e1] at q
      have b := steps_bounds dt (T2 - k1 * dt) hdt
      obtain ⟨k2, hk2⟩ : ∃ k2 : ℕ, steps dt (T2 - k1 * dt) = k2 - 1 := ⟨(steps dt (T2 - k1 * dt) + 1).toNat, by omega⟩
      refine ⟨k2, by rw [if_neg ht, hk2]; ring, ?_, fun h => absurd h ht⟩
      rw [hk2] at b
      push_cast at b
      constructor <;> nlinarith [b.1, b.2]
  have q3 : -1 ≤ steps dt (T3 - ((k1 : ℝ) + k2) * dt) := by
    by_cases ht : T1 = T2
    · have := htri ht
      subst this
      have := steps_next dt T1 T3 hdt (by linarith)
      rw [e1] at this
      simpa using this
    · have := steps_next dt (T2 - k1 * dt) (T3 - k1 * dt) hdt (by linarith)
      rw [if_neg ht] at hk2
      have e2 : (steps dt (T2 - k1 * dt) : ℝ) + 1 = k2 := by
        have : steps dt (T2 - k1 * dt) = k2 - 1 := by omega
        rw [this]; push_cast; ring
      rw [e2] at this
      rwa [show T3 - k1 * dt - k2 * dt = T3 - ((k1 : ℝ) + k2) * dt by ring] at this
  have b3 := steps_bounds dt (T3 - ((k1 : ℝ) + k2) * dt) hdt
  obtain ⟨k3, hk3⟩ : ∃ k3 : ℕ, steps dt (T3 - ((k1 : ℝ) + k2) * dt) = k3 - 1 :=
    ⟨(steps dt (T3 - ((k1 : ℝ) + k2) * dt) + 1).toNat, by omega⟩
  rw [hk3] at b3
  push_cast at b3
  have hn1 : steps dt T1 + 2 = ((k1 + 1 : ℕ) : ℤ) := by rw [hk1]; push_cast; ring
  have ht1 : (((k1 + 1 : ℕ) : ℤ) : ℝ) - 1 = k1 := by push_cast; ring
  have hn3 : steps dt (T3 - ((k1 : ℝ) + k2) * dt) + 2 = ((k3 + 1 : ℕ) : ℤ) := by rw [hk3]; push_cast; ring
  have ht3 : (((k3 + 1 : ℕ) : ℤ) : ℝ) - 1 = k3 := by push_cast; ring
  have ht2 : (if T1 = T2 then (k1 : ℝ) * dt else k1 * dt + ((k2 + 1 : ℤ) - 1) * dt) = (k1 + k2) * dt := by
    split
    · rename_i h; rw [htri h]; push_cast; ring
    · push_cast; ring
  set N := k1 + k2 + k3 + 1 with hN
  obtain ⟨a1, f1, l1, v1⟩ := fill_spec (fun j => j * (1 / (k1 : ℝ))) 0 (List.replicate N 0) (k1 + 1) (by simp; omega)
  obtain ⟨a2, f2, l2, v2⟩ := fill_spec (fun _ => 1) k1 a1 (k2 + 1) (by rw [l1]; simp; omega)
  obtain ⟨a3, f3, l3, v3⟩ := fill_spec (fun j => 1 - j * (1 / (k3 : ℝ))) (k1 + k2) a2 (k3 + 1) (by rw [l2, l1]; simp; omega)
  have hlen : a3.length = N := by rw [l3, l2, l1]; simp
  refine ⟨a3, k1 * dt, (k1 + k2) * dt, (k1 + k2 + k3) * dt, ?_, ⟨⟨k1, rfl⟩, b1⟩, ⟨⟨k1 + k2, by push_cast; ring⟩, b2⟩,
    ⟨⟨k1 + k2 + k3, by push_cast; ring⟩, by nlinarith [b3.1, b3.2], by nlinarith [b3.1, b3.2]⟩, by nlinarith [(Nat.cast_nonneg k2 : (0:ℝ) ≤ k2)],
    by nlinarith [(Nat.cast_nonneg k3 : (0:ℝ) ≤ k3)], fun h => by rw [htri h]; simp, by rw [hlen, hN]; push_cast; ring, ?_⟩
  · unfold trapWave
    dsimp only
    rw [hn1, ht1]
    have hkk : (if T1 = T2 then (1 : ℤ) else steps dt (T2 - k1 * dt) + 2) = ((k2 : ℤ) + 1) := hk2
    rw [hkk]
    push_cast at ht2
    push_cast
    have r3 : ((steps dt (T3 - ((k1 : ℝ) + k2) * dt) : ℤ) : ℝ) + 2 - 1 = k3 := by rw [hk3]; push_cast; ring
    rw [ht2, r3, hn3]
    rw [if_neg (by omega)]
    have i1 : ((k1 : ℤ) + 1).toNat = k1 + 1 := by omega
    have i2 : ((k2 : ℤ) + 1).toNat = k2 + 1 := by omega
    have i4 : (((k3 + 1 : ℕ) : ℤ)).toNat = k3 + 1 := by omega
    have i3 : ((k1 : ℤ) + 1 + (k2 + 1) + ((k3 + 1 : ℕ) : ℤ) - 2).toNat = N := by omega
    have i5 : (k1 : ℤ) + 1 + (k2 + 1) - 2 = ((k1 + k2 : ℕ) : ℤ) := by push_cast; ring
    have i6 : (k1 : ℤ) + 1 - 1 = (k1 : ℤ) := by ring
    simp only [i1, i2, i3, i4, i5, i6]
    simp only [Nat.cast_zero] at f1
    rw [f1]
    simp only [Option.bind_some, f2, f3]
    congr 1
    simp only [Prod.mk.injEq, true_and]
    ring
  · intro n hn
    rw [v3, v2, v1]
    rw [hlen] at hn
    unfold trapezoid
    simp only [mul_lt_mul_iff_of_pos_right hdt, mul_le_mul_iff_of_pos_right hdt]
    have c1 : ((n : ℝ) < k1) ↔ n < k1 := Nat.cast_lt
    have c2 : ((n : ℝ) ≤ k1 + k2) ↔ n ≤ k1 + k2 := by exact_mod_cast Iff.rfl
    by_cases g1 : n < k1
    · rw [if_neg (by omega), if_neg (by omega), if_pos (by omega), if_pos (c1.2 g1)]
      have : (0 : ℝ) < k1 := by exact_mod_cast (by omega : 0 < k1)
      simp; field_simp
    · rw [if_neg (fun h => g1 (c1.1 h))]
      by_cases g2 : n < k1 + k2
      · rw [if_neg (by omega), if_pos (by omega), if_pos (c2.2 (by omega))]
      · rw [if_pos (by omega)]
        by_cases g3 : n = k1 + k2
        · rw [if_pos (c2.2 (by omega)), g3]; simp
        · rw [if_neg (fun h => g3 (by have := c2.1 h; omega))]
          have hk3' : (0 : ℝ) < k3 := by exact_mod_cast (by omega : 0 < k3)
          rw [Nat.cast_sub (by omega)]
          push_cast
          rw [show ((k1 : ℝ) + k2 + k3) * dt - (k1 + k2) * dt = k3 * dt by ring]
          field_simp; ring

theorem trapezoid_range {t1 t2 t3 s : ℝ} (h1 : t1 ≤ t2) (h2 : t2 ≤ t3) (hs : 0 ≤ s) (h3 : s ≤ t3) :
    0 ≤ trapezoid t1 t2 t3 s ∧ trapezoid t1 t2 t3 s ≤ 1 := by
  unfold trapezoid
  split
  · rename_i h
    exact ⟨div_nonneg hs (by linarith), by rw [div_le_one (by linarith)]; exact h.le⟩
  · split
    · constructor <;> norm_num
    · rename_i h
      exact ⟨div_nonneg (by linarith) (by linarith), by rw [div_le_one (by linarith)]; linarith⟩

/-- C35: the trapezoid stays within 0 and 1 and reaches 1. -/
theorem C35_trapezoid_peak (dt T1 T2 T3 : ℝ) (hdt : 0 < dt) (h0 : 0 ≤ T1) (h12 : T1 ≤ T2) (h23 : T2 < T3) :
    ∃ arr ts, trapWave dt T1 T2 T3 = .ok arr ts ∧ (∀ v ∈ arr, 0 ≤ v ∧ v ≤ 1) ∧ 1 ∈ arr := by
  obtain ⟨arr, t1, t2, t3, h, r1, r2, r3, o1, o2, _, hl, hv⟩ := C35_trapezoid dt T1 T2 T3 hdt h0 h12 h23
  have hnl : ∀ n < arr.length, (n : ℝ) * dt ≤ t3 := by
    intro n hn
    have : (n : ℝ) + 1 ≤ arr.length := by exact_mod_cast hn
    nlinarith
  refine ⟨arr, _, h, ?_, ?_⟩
  · intro v hv'
    obtain ⟨n, hn, rfl⟩ := List.getElem_of_mem hv'
    rw [← List.getD_eq_getElem arr 0 hn, hv n hn]
    exact trapezoid_range o1 o2 (by positivity) (hnl n hn)
  · obtain ⟨k, hk⟩ := r1.1
    have hkn : k < arr.length := by
      have : (k : ℝ) * dt < arr.length * dt := by rw [← hl]; linarith
      exact_mod_cast (mul_lt_mul_iff_of_pos_right hdt).1 this
    have e := hv k hkn
    rw [← hk, trapezoid, if_neg (lt_irrefl _), if_pos o1, List.getD_eq_getElem _ _ hkn] at e
    rw [← e]; exact List.getElem_mem _

/-- C35: the trapezoid starts at zero unless the requested rise is instantaneous (within the tolerance). -/
theorem C35_trapezoid_start (dt T1 T2 T3 : ℝ) (hdt : 0 < dt) (h0 : 1 / 1000000 < T1) (h12 : T1 ≤ T2) (h23 : T2 < T3) :
    ∃ arr ts, trapWave dt T1 T2 T3 = .ok arr ts ∧ arr.getD 0 0 = 0 := by
  obtain ⟨arr, t1, t2, t3, h, r1, _, _, o1, o2, _, hl, hv⟩ := C35_trapezoid dt T1 T2 T3 hdt (by linarith) h12 h23
  refine ⟨arr, _, h, ?_⟩
  have hp : 0 < t1 := by linarith [r1.2.1]
  have hlen : 0 < arr.length := by
    have : 0 < (arr.length : ℝ) * dt := by rw [← hl]; linarith
    exact_mod_cast pos_of_mul_pos_left this hdt.le
  rw [hv 0 hlen, trapezoid, if_pos (by simpa using hp)]
  simp

/-- C35: the trapezoid ends at zero if the requested fall lasts longer than one interval. -/
theorem C35_trapezoid_end_partial (dt T1 T2 T3 : ℝ) (hdt : 0 < dt) (h0 : 0 ≤ T1) (h12 : T1 ≤ T2) (h23 : T2 + dt + 1 / 1000000 < T3) :
    ∃ arr ts, trapWave dt T1 T2 T3 = .ok arr ts ∧ arr.getD (arr.length - 1) 0 = 0 := by
  obtain ⟨arr, t1, t2, t3, h, r1, r2, r3, o1, o2, _, hl, hv⟩ := C35_trapezoid dt T1 T2 T3 hdt h0 h12 (by linarith)
  refine ⟨arr, _, h, ?_⟩
  have hlt : t2 < t3 := by linarith [r3.2.1, r2.2.2]
  have ht : 0 ≤ t1 := by obtain ⟨k, hk⟩ := r1.1; rw [hk]; positivity
  have hlen : 0 < arr.length := by
    have : 0 < (arr.length : ℝ) * dt := by rw [← hl]; linarith
    exact_mod_cast pos_of_mul_pos_left this hdt.le
  have e : ((arr.length - 1 : ℕ) : ℝ) * dt = t3 := by
    rw [Nat.cast_sub hlen]; push_cast; linarith
  rw [hv _ (by omega), e, trapezoid, if_neg (by linarith), if_neg (by linarith)]
  simp

/-- C35 fails for short falls: accepted parameters whose samples end at full height. The sampling interval is 0.1 s, the corners
0.05, 0.12 and 0.15 s; the plateau is rounded up to 0.2 s, past the requested end. -/
theorem C35_violated : trapWave (1/10) (5/100) (12/100) (15/100) = .ok [0, 1, 1] (1/10, 2/10, 2/10) := by
  have s1 : steps (1/10) (5/100) = 0 := by
    have : ⌊(5/100 : ℝ) / (1/10)⌋ = 0 := by rw [Int.floor_eq_iff]; norm_num
    unfold steps; rw [this]; rw [if_neg]; norm_num [abs_le]
  have s2 : steps (1/10) (2/100) = 0 := by
    have : ⌊(2/100 : ℝ) / (1/10)⌋ = 0 := by rw [Int.floor_eq_iff]; norm_num
    unfold steps; rw [this]; rw [if_neg]; norm_num [abs_le]
  have s3 : steps (1/10) (-5/100) = -1 := by
    have : ⌊(-5/100 : ℝ) / (1/10)⌋ = -1 := by rw [Int.floor_eq_iff]; norm_num
    unfold steps; rw [this]; rw [if_neg]; norm_num [abs_le]
  unfold trapWave
  rw [s1]
  norm_num at s2 s3 ⊢
  norm_num [s2, s3]
  rw [show Int.toNat 2 = 2 from rfl, show Int.toNat 3 = 3 from rfl]
  norm_num [fill, List.replicate_succ]
  rfl

/-! ### Parabola -/

/-- C35: for every accepted length except one below the tolerance, and unless the length is refused as too short, the samples lie on the
parabola over the requested length moved to the grid. -/
theorem C35_parabola (dt T : ℝ) (hdt : 0 < dt) (hT : 1 / 1000000 < T) :
    parabolaWave dt T = .error ∧ T ≤ dt + 1 / 1000000 ∨
    ∃ arr t, parabolaWave dt T = .ok arr t ∧ Rounded dt T t ∧ t + dt = arr.length * dt ∧ 3 ≤ arr.length ∧
      ∀ n < arr.length, arr.getD n 0 = parabola t (n * dt) := by
  have hfl : 0 ≤ ⌊T / dt⌋ := by rw [Int.floor_nonneg]; exact div_nonneg (by linarith) hdt.le
  have hb := steps_bounds dt T hdt
  by_cases hz : steps dt T = 0
  · left
    refine ⟨by unfold parabolaWave; rw [if_pos hz], ?_⟩
    rw [hz] at hb; push_cast at hb; linarith [hb.1]
  · right
    have hs : 1 ≤ steps dt T := by
      have h1 := steps_nonneg dt T hdt (by linarith)
      rcases lt_or_eq_of_le h1 with h | h
      · omega
      · rw [← h] at hb; push_cast at hb; linarith [hb.1]
    obtain ⟨k, hk⟩ : ∃ k : ℕ, steps dt T = (k : ℤ) + 1 := ⟨(steps dt T - 1).toNat, by omega⟩
    have hn : steps dt T + 2 = ((k + 3 : ℕ) : ℤ) := by rw [hk]; push_cast; ring
    obtain ⟨a, f1, l1, v1⟩ := fill_spec (fun n => 1 - (n * (1 / ((((k + 3 : ℕ) : ℤ) : ℝ) - 1)) - 1/2) * (n * (1 / ((((k + 3 : ℕ) : ℤ) : ℝ) - 1)) - 1/2) * 4)
      0 (List.replicate (k + 3) 0) (k + 3) (by simp)
    have hlen : a.length = k + 3 := by rw [l1]; simp
    rw [hk] at hb; push_cast at hb
    refine ⟨a, (k + 2) * dt, ?_, ⟨⟨k + 2, by push_cast; ring⟩, by nlinarith [hb.1], by nlinarith [hb.2]⟩, by rw [hlen]; push_cast; ring, by omega, ?_⟩
    · unfold parabolaWave
      dsimp only
      rw [if_neg hz, hn, if_neg (by omega)]
      have i1 : (((k + 3 : ℕ) : ℤ)).toNat = k + 3 := by omega
      rw [i1]
      have f1' := f1
      simp only [Nat.cast_zero] at f1'
      rw [f1']
      dsimp only
      congr 1
      push_cast; ring
    · intro n hn'
      rw [v1, if_pos (by omega)]
      unfold parabola
      push_cast
      have : (0 : ℝ) < k + 2 := by positivity
      rw [show (k : ℝ) + 3 - 1 = k + 2 by ring]
      simp only [Nat.sub_zero]
      field_simp
      ring

/-- C35: the parabola is symmetric, within 0 and 1 and zero at both ends. -/
theorem C35_parabola_shape (T s : ℝ) (hT : 0 < T) (hs : 0 ≤ s) (h : s ≤ T) :
    0 ≤ parabola T s ∧ parabola T s ≤ 1 ∧ parabola T (T - s) = parabola T s ∧ parabola T 0 = 0 ∧ parabola T T = 0 ∧ parabola T (T / 2) = 1 := by
  have h1 : 0 ≤ s / T := div_nonneg hs hT.le
  have h2 : s / T ≤ 1 := (div_le_one hT).2 h
  unfold parabola
  refine ⟨by nlinarith, by nlinarith [sq_nonneg (2 * (s / T) - 1)], ?_, by simp, by field_simp; ring, by field_simp; norm_num⟩
  rw [sub_div, div_self hT.ne']; ring

/-- C35 fails for parabolas shorter than the tolerance: a length is accepted and yields one sample, zero. -/
theorem C35_parabola_violated : parabolaWave (1/10) (1/1000000) = .ok [0] 0 := by
  have s1 : steps (1/10) (1/1000000) = -1 := by
    have : ⌊(1/1000000 : ℝ) / (1/10)⌋ = 0 := by rw [Int.floor_eq_iff]; norm_num
    unfold steps; rw [this]; rw [if_pos] <;> norm_num
  unfold parabolaWave
  rw [s1]
  norm_num [fill, List.replicate_succ, List.set]

/-- C35 fails for the height: with an even number of samples the peak falls between two of them. -/
theorem C35_parabola_peak_violated : parabolaWave 1 3 = .ok [0, 8/9, 8/9, 0] 3 := by
  have s1 : steps 1 3 = 2 := by
    have : ⌊(3 : ℝ) / 1⌋ = 3 := by norm_num
    unfold steps; rw [this]; rw [if_pos] <;> norm_num
  unfold parabolaWave
  rw [s1]
  norm_num
  rw [show Int.toNat 4 = 4 from rfl]
  norm_num [fill, List.replicate_succ]
  rfl

/-! ### Ricker wavelet -/

/-- C35: for every frequency below half the sampling rate the samples are those of the wavelet, over at least the requested two
periods less one interval; higher frequencies are refused. -/
theorem C35_ricker (dt f0 : ℝ) (hdt : 0 < dt) (hf : 0 < f0) :
    (rickerWave dt f0 = .error ↔ 1 / (2 * f0) ≤ dt) ∧
    (dt < 1 / (2 * f0) → ∃ arr, rickerWave dt f0 = .ok arr () ∧ 6 ≤ arr.length ∧ Even arr.length ∧
      2 / f0 < arr.length * dt ∧ arr.length * dt ≤ 2 / f0 + 2 * dt ∧ ∀ n < arr.length, arr.getD n 0 = ricker f0 (n * dt)) := by
  have hiff : 1 / dt ≤ 2 * f0 ↔ 1 / (2 * f0) ≤ dt := by
    rw [div_le_iff₀ hdt, div_le_iff₀ (by linarith), mul_comm]
  have hok : dt < 1 / (2 * f0) → ∃ arr, rickerWave dt f0 = .ok arr () ∧ 6 ≤ arr.length ∧ Even arr.length ∧
      2 / f0 < arr.length * dt ∧ arr.length * dt ≤ 2 / f0 + 2 * dt ∧ ∀ n < arr.length, arr.getD n 0 = ricker f0 (n * dt) := by
    intro hlt
    have h2 : 2 * dt < 1 / f0 := by
      rw [lt_div_iff₀ (by linarith)] at hlt; rw [lt_div_iff₀ hf]; linarith
    have hfl : (2 : ℤ) ≤ ⌊1 / f0 / dt⌋ := by
      rw [Int.le_floor]; push_cast; rw [le_div_iff₀ hdt]; exact h2.le
    obtain ⟨k, hk⟩ : ∃ k : ℕ, ⌊1 / f0 / dt⌋ = (k : ℤ) := ⟨⌊1 / f0 / dt⌋.toNat, by omega⟩
    have hle : (k : ℝ) * dt ≤ 1 / f0 := by
      have := Int.floor_le (1 / f0 / dt); rw [hk, le_div_iff₀ hdt] at this; exact_mod_cast this
    have hgt : 1 / f0 < ((k : ℝ) + 1) * dt := by
      have := Int.lt_floor_add_one (1 / f0 / dt); rw [hk, div_lt_iff₀ hdt] at this; exact_mod_cast this
    obtain ⟨a, f1, l1, v1⟩ := fill_spec (fun i =>
          let a := Real.pi * Real.pi * (f0 * f0) * (i * dt - 1 / f0) * (i * dt - 1 / f0)
          (1 - 2 * a) * Real.exp (-a)) 0 (List.replicate ((k + 1) * 2) 0) ((k + 1) * 2) (by simp)
    have hlen : a.length = (k + 1) * 2 := by rw [l1]; simp
    have h22 : 2 / f0 = 2 * (1 / f0) := by ring
    refine ⟨a, ?_, by omega, ⟨k + 1, by omega⟩, by rw [hlen, h22]; push_cast; linarith, by rw [hlen, h22]; push_cast; linarith, ?_⟩
    · unfold rickerWave
      rw [if_neg (by rw [hiff]; linarith)]
      dsimp only
      rw [hk, if_neg (by omega), show (((k : ℤ) + 1) * 2).toNat = (k + 1) * 2 by omega]
      simp only [Nat.cast_zero] at f1
      rw [f1]
    · intro n hn
      rw [v1, if_pos (by omega)]
      unfold ricker
      dsimp only
      simp only [Nat.sub_zero]
      have : Real.pi * Real.pi * (f0 * f0) * (n * dt - 1 / f0) * (n * dt - 1 / f0) = (Real.pi * f0 * (n * dt - 1 / f0)) ^ 2 := by ring
      rw [this]
  refine ⟨⟨fun h => ?_, fun h => ?_⟩, hok⟩
  · by_contra hc
    rw [not_le] at hc
    obtain ⟨arr, h2, _⟩ := hok hc
    rw [h] at h2; cases h2
  · unfold rickerWave; rw [if_pos (hiff.2 h)]

/-- C35: the wavelet has height one at its centre, is symmetric about it and nowhere exceeds one in size. -/
theorem C35_ricker_shape (f0 s : ℝ) :
    ricker f0 (1 / f0) = 1 ∧ ricker f0 (1 / f0 + s) = ricker f0 (1 / f0 - s) ∧ |ricker f0 s| ≤ 1 := by
  refine ⟨by simp [ricker], ?_, ?_⟩
  · unfold ricker
    have : (Real.pi * f0 * (1 / f0 + s - 1 / f0)) ^ 2 = (Real.pi * f0 * (1 / f0 - s - 1 / f0)) ^ 2 := by ring
    rw [this]
  · unfold ricker
    have ha := sq_nonneg (Real.pi * f0 * (s - 1 / f0))
    generalize (Real.pi * f0 * (s - 1 / f0)) ^ 2 = a at *
    rw [abs_mul, abs_of_pos (Real.exp_pos _), Real.exp_neg, ← div_eq_mul_inv, div_le_one (Real.exp_pos _), abs_le]
    have := Real.quadratic_le_exp_of_nonneg ha
    constructor <;> nlinarith [sq_nonneg (a - 1)]

/-- Parameters meeting the hypotheses: corners at 1, 2 and 4 s with an interval of 0.3 s; a wavelet of 1 Hz sampled at 10 Hz. -/
example : (0 : ℝ) < 3/10 ∧ (0 : ℝ) ≤ 1 ∧ (1 : ℝ) ≤ 2 ∧ (2 : ℝ) + 3/10 + 1 / 1000000 < 4 ∧ (1/10 : ℝ) < 1 / (2 * 1) := by norm_num

end GRT.Signals
