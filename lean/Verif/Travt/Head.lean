import Mathlib.Tactic.IntervalCases
import Verif.Travt.File

/-! C62: head waves.  The loops over refracting layers end at the first refractor whose critical ray is
slower than the time found so far, so that faster refractors beyond it are missed. -/

namespace GRT.Travt

open GRT.Model1D Finset

/-- Time of the critical ray of refractor `m` down to it and back, without the run along it. -/
noncomputable def legs (thk vel : ℕ → ℝ) (one two : Finset ℕ) (m : ℕ) : ℝ :=
  critT thk vel (vel m) one + 2 * critT thk vel (vel m) two

/-- Distance at which the head wave of refractor `m` begins. -/
noncomputable def critDist (thk vel : ℕ → ℝ) (one two : Finset ℕ) (m : ℕ) : ℝ :=
  critX thk vel (vel m) one + 2 * critX thk vel (vel m) two

/-- Refractor `m` does not end the loop: its legs take no longer than `r`, and no layer of the legs has its
velocity. -/
def Harmless (thk vel : ℕ → ℝ) (one two : Finset ℕ) (vmax r : ℝ) (m : ℕ) : Prop :=
  thk m = 0 ∨ vel m ≤ vmax ∨ (∀ i, i ∈ one ∨ i ∈ two → thk i ≠ 0 → vel i ≠ vel m) ∧ legs thk vel one two m ≤ r

theorem down_head {thk vel : ℕ → ℝ} {vmin vmax dist : ℝ} {imin imax : ℕ} (hv : ∀ i, 0 < vel i) (hh : ∀ i, 0 ≤ thk i)
    (hi : imin ≤ imax) (hmm : vmin ≤ vmax) (k n : ℕ) (hk : imax ≤ k) (t : ℝ) {m : ℕ} (hm : k ≤ m) (hmn : m < k + n)
    (h0 : thk m ≠ 0) (h1 : vmax < vel m) (hs : ∀ i, imin ≤ i → i < m → vel i < vel m)
    (hX : critDist thk vel (Ico imin imax) (Ico imax m) m ≤ dist)
    (hb : ∀ j, k ≤ j → j < m → Harmless thk vel (Ico imin imax) (Ico imax j) vmax (down thk vel vmin vmax dist imin imax k n t) j)
    {u : ℝ} (hu : Path thk vel (Ico imin imax) (Ico imax m) m dist u) :
    down thk vel vmin vmax dist imin imax k n t ≤ u := by
  induction n generalizing t k with
  | zero => omega
  | succ n ih =>
    have sp := refract_spec (thk := thk) (vel := vel) (vmin := vmin) (vmax := vmax) (dist := dist) (travt := t) (m := k)
      (a := imax) (b := k) hv hh hi (by omega) hmm
    simp only [down] at hb ⊢
    generalize refract thk vel vmin vmax dist imin imax k imax k t = r at sp hb ⊢
    obtain ⟨-, sp2, sp3⟩ := sp
    rcases Nat.lt_or_ge k m with hlt | hge
    · have hcont : r.2 = true := by
        by_contra hf
        have hf : r.2 = false := by simpa using hf
        obtain ⟨q1, q2, q3, q4⟩ := sp3 hf
        have hb := hb k le_rfl hlt
        rw [hf] at hb
        simp only [Bool.false_eq_true, if_false] at hb
        rcases hb with hb | hb | ⟨hb1, hb2⟩
        · exact q1 hb
        · linarith
        · rcases q4 with ⟨i, i1, i2, i3⟩ | q4
          · exact hb1 i (by simpa only [mem_Ico] using i1) i3 i2
          · unfold legs at hb2; rw [q3] at hb2; linarith
      rw [hcont] at hb ⊢
      simp only [if_true] at hb ⊢
      exact ih (k + 1) (by omega) r.1 hlt (by omega) (fun j j1 j2 => hb j (by omega) j2)
    · obtain rfl : k = m := by omega
      have hr : r.1 ≤ u := by
        refine (sp2 h0 h1 ?_ hX).trans (crit_le hv ?_ hu)
        · rintro i (⟨a, b⟩ | ⟨a, b⟩)
          · exact hs i a (by omega)
          · exact hs i (by omega) b
        · rintro i (h | h)
          · rw [mem_Ico] at h; exact hs i h.1 (by omega)
          · rw [mem_Ico] at h; exact hs i (by omega) h.2
      split
      · exact (down_spec hv hh hi hmm _ _ (by omega) _).1.trans hr
      · exact hr

theorem up_head {thk vel : ℕ → ℝ} {vmin vmax dist : ℝ} {imin imax : ℕ} (hv : ∀ i, 0 < vel i) (hh : ∀ i, 0 ≤ thk i)
    (hi : imin ≤ imax) (hmm : vmin ≤ vmax) (k : ℕ) (hk : k ≤ imin) (t : ℝ) {m : ℕ} (hm : m < k)
    (h0 : thk m ≠ 0) (h1 : vmax < vel m) (hs : ∀ i, m < i → i < imax → vel i < vel m)
    (hX : critDist thk vel (Ico imin imax) (Ico (m + 1) imin) m ≤ dist)
    (hb : ∀ j, m < j → j < k → Harmless thk vel (Ico imin imax) (Ico (j + 1) imin) vmax (up thk vel vmin vmax dist imin imax k t) j)
    {u : ℝ} (hu : Path thk vel (Ico imin imax) (Ico (m + 1) imin) m dist u) :
    up thk vel vmin vmax dist imin imax k t ≤ u := by
  induction k generalizing t with
  | zero => omega
  | succ k ih =>
    have sp := refract_spec (thk := thk) (vel := vel) (vmin := vmin) (vmax := vmax) (dist := dist) (travt := t) (m := k)
      (a := k + 1) (b := imin) hv hh hi (by omega) hmm
    simp only [up] at hb ⊢
    generalize refract thk vel vmin vmax dist imin imax k (k + 1) imin t = r at sp hb ⊢
    obtain ⟨-, sp2, sp3⟩ := sp
    rcases Nat.lt_or_ge m k with hlt | hge
    · have hcont : r.2 = true := by
        by_contra hf
        have hf : r.2 = false := by simpa using hf
        obtain ⟨q1, q2, q3, q4⟩ := sp3 hf
        have hb := hb k hlt (by omega)
        rw [hf] at hb
        simp only [Bool.false_eq_true, if_false] at hb
        rcases hb with hb | hb | ⟨hb1, hb2⟩
        · exact q1 hb
        · linarith
        · rcases q4 with ⟨i, i1, i2, i3⟩ | q4
          · exact hb1 i (by simpa only [mem_Ico] using i1) i3 i2
          · unfold legs at hb2; rw [q3] at hb2; linarith
      rw [hcont] at hb ⊢
      simp only [if_true] at hb ⊢
      exact ih (by omega) r.1 hlt (fun j j1 j2 => hb j j1 (by omega))
    · obtain rfl : k = m := by omega
      have hr : r.1 ≤ u := by
        refine (sp2 h0 h1 ?_ hX).trans (crit_le hv ?_ hu)
        · rintro i (⟨a, b⟩ | ⟨a, b⟩)
          · exact hs i (by omega) b
          · exact hs i (by omega) (by omega)
        · rintro i (h | h)
          · rw [mem_Ico] at h; exact hs i (by omega) h.2
          · rw [mem_Ico] at h; exact hs i (by omega) (by omega)
      split
      · exact (up_spec hv hh hi hmm _ (by omega) _).1.trans hr
      · exact hr

/-- C62, partial: the reported time is at most that of the head wave along a layer `m` below both interfaces, or of
any other path along it, if `m` is faster than everything above it from the upper interface on, the distance is
beyond the critical one, and no layer between the lower interface and `m` ends the loop.
Missing: the last condition, without which the statement is false (`C62_violated`). -/
theorem C62_down_partial {thk vel0 : ℕ → ℝ} {nlay isrc ircv : ℕ} {dist : ℝ} (S : Stack thk vel0 nlay isrc ircv)
    (hc : Carries vel0 isrc ircv) {m : ℕ} :
    let vel := fun i => fixVel (vel0 i)
    let imin := min isrc ircv
    let imax := max isrc ircv
    let r := travt1d thk vel0 nlay isrc ircv dist
    imax < m → m < nlay → thk m ≠ 0 → (∀ i, imin ≤ i → i < m → vel i < vel m) →
    critDist thk vel (Ico imin imax) (Ico imax m) m ≤ dist →
    (∀ j, imax < j → j < m → Harmless thk vel (Ico imin imax) (Ico imax j) (max (vel isrc) (vel ircv)) r j) →
    ∀ u, Path thk vel (Ico imin imax) (Ico imax m) m dist u → r ≤ u := by
  intro vel imin imax r m1 m2 m3 m4 m5 m6 u hu
  have hv : ∀ i, 0 < vel i := fun i => fixVel_pos _
  have h1 : max (vel isrc) (vel ircv) < vel m :=
    max_lt (m4 _ (min_le_left _ _) (lt_of_le_of_lt (le_max_left _ _) m1)) (m4 _ (min_le_right _ _) (lt_of_le_of_lt (le_max_right _ _) m1))
  have hr := travt1d_eq (thk := thk) (nlay := nlay) (dist := dist) hc
  simp only [r] at m6 ⊢
  rw [hr] at m6 ⊢
  exact down_head hv S.nonneg min_le_max min_le_max _ _ (by omega) _ m1 (by omega) m3 h1 m4 m5 (fun j j1 j2 => m6 j j1 j2) hu

/-- C62, partial: the same for a layer above both interfaces; the layer of index 0 has to have a thickness. -/
theorem C62_up_partial {thk vel0 : ℕ → ℝ} {nlay isrc ircv : ℕ} {dist : ℝ} (S : Stack thk vel0 nlay isrc ircv)
    (hc : Carries vel0 isrc ircv) (hthk : 0 < thk 0) {m : ℕ} :
    let vel := fun i => fixVel (vel0 i)
    let imin := min isrc ircv
    let imax := max isrc ircv
    let vmin := min (vel isrc) (vel ircv)
    let vmax := max (vel isrc) (vel ircv)
    let r := travt1d thk vel0 nlay isrc ircv dist
    m < imin → thk m ≠ 0 → (∀ i, m < i → i ≤ imax → vel i < vel m) →
    critDist thk vel (Ico imin imax) (Ico (m + 1) imin) m ≤ dist →
    (∀ j, m < j → j < imin → Harmless thk vel (Ico imin imax) (Ico (j + 1) imin) vmax r j) →
    ∀ u, Path thk vel (Ico imin imax) (Ico (m + 1) imin) m dist u → r ≤ u := by
  intro vel imin imax vmin vmax r m1 m3 m4 m5 m6 u hu
  have hv : ∀ i, 0 < vel i := fun i => fixVel_pos _
  have h1 : vmax < vel m :=
    max_lt (m4 _ (lt_of_lt_of_le m1 (min_le_left _ _)) (le_max_left _ _)) (m4 _ (lt_of_lt_of_le m1 (min_le_right _ _)) (le_max_right _ _))
  have hr := travt1d_eq (thk := thk) (nlay := nlay) (dist := dist) hc
  rw [if_pos hthk] at hr
  have hle : r ≤ up thk vel vmin vmax dist imin imax imin (direct thk vel isrc ircv dist) := by
    rw [show r = _ from hr]
    exact (down_spec hv S.nonneg min_le_max min_le_max _ _ (by omega) _).1
  refine hle.trans (up_head hv S.nonneg min_le_max min_le_max _ le_rfl _ m1 m3 h1 (fun i i1 i2 => m4 i i1 i2.le) m5 (fun j j1 j2 => ?_) hu)
  rcases m6 j j1 j2 with h | h | ⟨h, h'⟩
  · exact .inl h
  · exact .inr (.inl h)
  · exact .inr (.inr ⟨h, h'.trans hle⟩)

/-! ### A missed head wave -/

/-- 11 km at 3 km/s, 1 km at 3.02 km/s, half-space at 5 km/s. -/
noncomputable def missFile : List (FLay ℝ) :=
  [⟨11, ⟨3, 2, 1, 1, 1⟩⟩, ⟨1, ⟨151 / 50, 2, 1, 1, 1⟩⟩, ⟨0, ⟨5, 2, 1, 1, 1⟩⟩]

/-- The file loaded for a source at 10 km and a receiver at the surface. -/
noncomputable def missMod : Mod1d ℝ :=
  ⟨[⟨0, ⟨3, 2, 1, 1, 1⟩⟩, ⟨10, ⟨3, 2, 1, 1, 1⟩⟩, ⟨1, ⟨3, 2, 1, 1, 1⟩⟩, ⟨1, ⟨151 / 50, 2, 1, 1, 1⟩⟩,
    ⟨10 + 10 ^ 30, ⟨5, 2, 1, 1, 1⟩⟩], 2, 1, true, 10, 0, true⟩

theorem miss_read : readMod1d missFile 10 0 = .ok missMod := by
  simp only [readMod1d, missFile, missMod, setLast, run, step, insertOne, onLiquid]
  norm_num
  exact fun h => absurd h (by simp)

noncomputable def missVel : ℕ → ℝ := fun i => fixVel (velOf (·.va) missMod.lays i)

theorem missVel_val : missVel 1 = 3 ∧ missVel 2 = 3 ∧ missVel 3 = 151 / 50 ∧ missVel 4 = 5 := by
  simp only [missVel, missMod, velOf, fixVel]
  norm_num

theorem missThk_val : thkOf missMod.lays 0 = 0 ∧ thkOf missMod.lays 1 = 10 ∧ thkOf missMod.lays 2 = 1 ∧ thkOf missMod.lays 3 = 1 := by
  simp only [missMod, thkOf]
  norm_num

/-- C62 fails: with the source 10 km deep and 50 km away the reported time is that of the direct wave, over 16 s,
while a wave along the half-space takes less than 14 s.  The critical ray of the thin layer at 3.02 km/s takes
longer than the direct wave, and the loop ends there. -/
theorem C62_violated : ∃ (arr : List (FLay ℝ)) (zs zr dist r u : ℝ) (md : Mod1d ℝ) (m : ℕ),
    0 ≤ zs ∧ 0 ≤ zr ∧ 0 ≤ dist ∧ fromFile (·.va) arr zs zr dist = .ok r ∧ readMod1d arr zs zr = .ok md ∧
    max md.isrc md.ircv < m ∧ m < md.lays.length ∧
    Path (thkOf md.lays) (velOf (·.va) md.lays) (Ico (min md.isrc md.ircv) (max md.isrc md.ircv)) (Ico (max md.isrc md.ircv) m) m dist u ∧
    u < 14 ∧ 16 < r := by
  obtain ⟨v1, v2, v3, v4⟩ := missVel_val
  obtain ⟨t0, t1, t2, t3⟩ := missThk_val
  refine ⟨missFile, 10, 0, 50, Real.sqrt 2600 / 3, 25 / 6 + 5 / 6 + 100 / 151 + 41 / 5, missMod, 4, by norm_num, by norm_num, by norm_num, ?_,
    miss_read, ?_, ?_, ?_, by norm_num, ?_⟩
  · rw [fromFile_eq, miss_read]
    simp only [Except.map]
    congr 1
    have hc : Carries (velOf (·.va) missMod.lays) missMod.isrc missMod.ircv := by
      intro i i1 i2
      change 1 ≤ i at i1
      change i ≤ 2 at i2
      interval_cases i <;> simp [velOf, missMod]
    rw [travt1d_eq hc, t0, if_neg (lt_irrefl _)]
    change down (thkOf missMod.lays) missVel (min (missVel 2) (missVel 1)) (max (missVel 2) (missVel 1)) 50 1 2 3 2
      (direct (thkOf missMod.lays) missVel 2 1 50) = _
    have hdir : direct (thkOf missMod.lays) missVel 2 1 50 = Real.sqrt 2600 / 3 := by
      unfold direct
      dsimp only
      rw [if_pos (by norm_num)]
      simp only [sum_range_succ, sum_range_zero, t0, t1, v2]
      norm_num
    have href : refract (thkOf missMod.lays) missVel 3 3 50 1 2 3 2 3 (Real.sqrt 2600 / 3) = (Real.sqrt 2600 / 3, false) := by
      unfold refract
      dsimp only
      rw [if_neg (by rw [t3]; norm_num), if_neg (by rw [v3]; norm_num), if_neg (by rw [v3]; norm_num)]
      have hover : leg (thkOf missMod.lays) missVel (missVel 3) (Real.sqrt 2600 / 3) 50 1 1 (2 - 1) (.ok 0 0) = .over := by
        simp only [leg, hop, Nat.add_zero, v1, v3, t1]
        have e : |1 - 1 / (151 / 50 : ℝ) * (1 / (151 / 50)) * 3 * 3| = 301 / 22801 := by
          rw [abs_of_pos (by norm_num)]; norm_num
        rw [e]
        have hpos : 0 < Real.sqrt (301 / 22801) := Real.sqrt_pos.2 (by norm_num)
        rw [if_neg (by norm_num), if_neg hpos.ne', if_pos]
        rw [gt_iff_lt, zero_add, one_mul, div_lt_div_iff₀ (by norm_num) (by positivity)]
        have : Real.sqrt 2600 * Real.sqrt (301 / 22801) < 10 := by
          rw [← Real.sqrt_mul (by norm_num)]
          rw [Real.sqrt_lt' (by norm_num)]
          norm_num
        linarith
      rw [hover]
      rw [(leg_stop 2 (3 - 2)).2]
    rw [hdir, v1, v2, min_self, max_self]
    simp only [down]
    rw [href]
    simp
  · change max 2 1 < 4; norm_num
  · simp [missMod]
  · change Path (thkOf missMod.lays) (velOf (·.va) missMod.lays) (Ico 1 2) (Ico 2 4) 4 50 _
    have w : ∀ i, velOf (·.va) missMod.lays i = missVel i ∨ 4 < i := by
      intro i
      by_cases hi : 4 < i
      · exact .inr hi
      · left
        have : i ≤ 4 := by omega
        interval_cases i <;> simp only [missVel, velOf, missMod, fixVel] <;> norm_num
    have w1 := (w 1).resolve_right (by norm_num)
    have w2 := (w 2).resolve_right (by norm_num)
    have w3 := (w 3).resolve_right (by norm_num)
    have w4 := (w 4).resolve_right (by norm_num)
    refine ⟨fun _ => 15 / 2, fun i => if i = 2 then 3 / 4 else 0, fun i => if i = 2 then 3 / 4 else 0, 41, by norm_num, ?_, ?_⟩
    · rw [show Ico 1 2 = {1} from rfl, show Ico 2 4 = {2, 3} from rfl]
      simp
      norm_num
    · have s1 : Real.sqrt (10 ^ 2 + (15 / 2) ^ 2) = 25 / 2 := by
        rw [show (10 ^ 2 + (15 / 2) ^ 2 : ℝ) = (25 / 2) ^ 2 by norm_num, Real.sqrt_sq (by norm_num)]
      have s2 : Real.sqrt (1 ^ 2 + (3 / 4) ^ 2) = 5 / 4 := by
        rw [show (1 ^ 2 + (3 / 4) ^ 2 : ℝ) = (5 / 4) ^ 2 by norm_num, Real.sqrt_sq (by norm_num)]
      have s3 : Real.sqrt (1 ^ 2 + 0 ^ 2) = 1 := by norm_num
      unfold crossTime
      rw [show Ico 1 2 = {1} from rfl, show Ico 2 4 = {2, 3} from rfl]
      rw [sum_singleton, sum_pair (by norm_num), w1, w2, w3, w4, v1, v2, v3, v4, t1, t2, t3]
      dsimp only
      rw [if_pos rfl, if_neg (by norm_num), s1, s2, s3]
      norm_num
  · rw [lt_div_iff₀ (by norm_num)]
    exact Real.lt_sqrt_of_sq_lt (by norm_num)

/-! ### Cases meeting the hypotheses -/

/-- C30, C31: the file above loads, source and receiver are not at one depth, and the wave propagates. -/
example : Stack (thkOf missMod.lays) (velOf (·.va) missMod.lays) missMod.lays.length missMod.isrc missMod.ircv ∧
    Carries (velOf (·.va) missMod.lays) missMod.isrc missMod.ircv ∧ missMod.isrc ≠ missMod.ircv := by
  refine ⟨C31_reader _ (by norm_num) (by norm_num) miss_read, ?_, by simp [missMod]⟩
  intro i i1 i2
  change 1 ≤ i at i1
  change i ≤ 2 at i2
  interval_cases i <;> simp [velOf, missMod]

/-- C62: 11 km at 3 km/s over a half-space at 5 km/s, source at 10 km, receiver at the surface, distance 50 km: the
hypotheses hold for the half-space. -/
example : ∃ (arr : List (FLay ℝ)) (md : Mod1d ℝ), readMod1d arr 10 0 = .ok md ∧
    max md.isrc md.ircv < 3 ∧ 3 < md.lays.length ∧ thkOf md.lays 3 ≠ 0 ∧
    (∀ i, min md.isrc md.ircv ≤ i → i < 3 → fixVel (velOf (·.va) md.lays i) < fixVel (velOf (·.va) md.lays 3)) ∧
    critDist (thkOf md.lays) (fun i => fixVel (velOf (·.va) md.lays i)) (Ico (min md.isrc md.ircv) (max md.isrc md.ircv))
      (Ico (max md.isrc md.ircv) 3) 3 ≤ 50 ∧ ¬ ∃ j, max md.isrc md.ircv < j ∧ j < 3 := by
  refine ⟨[⟨11, ⟨3, 2, 1, 1, 1⟩⟩, ⟨0, ⟨5, 2, 1, 1, 1⟩⟩], ⟨[⟨0, ⟨3, 2, 1, 1, 1⟩⟩, ⟨10, ⟨3, 2, 1, 1, 1⟩⟩, ⟨1, ⟨3, 2, 1, 1, 1⟩⟩,
    ⟨10 + 10 ^ 30, ⟨5, 2, 1, 1, 1⟩⟩], 2, 1, true, 10, 0, true⟩, ?_, by norm_num, by norm_num, ?_, ?_, ?_, ?_⟩
  · simp only [readMod1d, setLast, run, step, insertOne, onLiquid]
    norm_num
    exact fun h => absurd h (by simp)
  · simp only [thkOf]; norm_num
  · intro i i1 i2
    change 1 ≤ i at i1
    interval_cases i <;> simp only [velOf, fixVel] <;> norm_num
  · change critDist _ _ (Ico 1 2) (Ico 2 3) 3 ≤ 50
    rw [show Ico 1 2 = {1} from rfl, show Ico 2 3 = {2} from rfl]
    simp only [critDist, critX, sum_singleton]
    generalize hl : [(⟨0, ⟨3, 2, 1, 1, 1⟩⟩ : FLay ℝ), ⟨10, ⟨3, 2, 1, 1, 1⟩⟩, ⟨1, ⟨3, 2, 1, 1, 1⟩⟩, ⟨10 + 10 ^ 30, ⟨5, 2, 1, 1, 1⟩⟩] = l
    have e1 : thkOf l 1 = 10 := by rw [← hl]; rfl
    have e2 : thkOf l 2 = 1 := by rw [← hl]; rfl
    have e3 : fixVel (velOf (·.va) l 1) = 3 := by rw [← hl]; simp [velOf, fixVel]
    have e4 : fixVel (velOf (·.va) l 2) = 3 := by rw [← hl]; simp [velOf, fixVel]
    have e5 : fixVel (velOf (·.va) l 3) = 5 := by rw [← hl]; simp [velOf, fixVel]
    rw [e1, e2, e3, e4, e5]
    have e : Real.sqrt |(1 : ℝ) - 1 / 5 * (1 / 5) * 3 * 3| = 4 / 5 := by
      rw [abs_of_pos (by norm_num), show (1 : ℝ) - 1 / 5 * (1 / 5) * 3 * 3 = (4 / 5) ^ 2 by norm_num, Real.sqrt_sq (by norm_num)]
    rw [e]
    norm_num
  · rintro ⟨j, j1, j2⟩
    change 2 < j at j1
    omega

end GRT.Travt
