import Verif.Travt.Lemmas
import Verif.Model1D.Props

/-! C30, C31, C62 for `grt_compute_travt1d`. -/

namespace GRT.Travt

open Finset

/-- The limiting slowness is the slowness of one of the layers. -/
theorem pmax0_mem {thk vel : ℕ → ℝ} {v : ℝ} {a : ℕ} (n : ℕ) :
    pmax0 thk vel v a n = 1 / v ∨ ∃ i, a ≤ i ∧ i < a + n ∧ pmax0 thk vel v a n = 1 / vel i := by
  induction n with
  | zero => exact .inl rfl
  | succ n ih =>
    simp only [pmax0]
    have ih' : pmax0 thk vel v a n = 1 / v ∨ ∃ i, a ≤ i ∧ i < a + (n + 1) ∧ pmax0 thk vel v a n = 1 / vel i :=
      ih.imp id fun ⟨i, h1, h2, h3⟩ => ⟨i, h1, by omega, h3⟩
    split
    · exact ih'
    · split
      · exact .inr ⟨a + n, by omega, by omega, rfl⟩
      · exact ih'

/-- The larger of the two velocities, travt.c 44. -/
theorem vmax_eq (u w : ℝ) : (if u < w then w else u) = max u w := by
  split
  · rename_i h; rw [max_eq_right h.le]
  · rename_i h; rw [max_eq_left (not_lt.1 h)]

theorem vmin_eq (u w : ℝ) : (if u < w then u else w) = min u w := by
  split
  · rename_i h; rw [min_eq_left h.le]
  · rename_i h; rw [min_eq_right (not_lt.1 h)]

/-- How close the shooting loop gets: a distance within a metre, or a slowness `p` in an interval of relative
width `2⁻⁴⁹` whose ends bracket the distance (the upper end may be grazing incidence in some layer). -/
def Resolved (thk vel : ℕ → ℝ) (a b : ℕ) (vmax dist p : ℝ) : Prop :=
  |rayX thk vel a b p - dist| < 1 / 1000 ∨
    ∃ q r, 0 ≤ q ∧ q < p ∧ p < r ∧ r - q ≤ 1 / vmax / 2 ^ 49 ∧ rayX thk vel a b q ≤ dist ∧
      ((∃ i, a ≤ i ∧ i ≤ b ∧ r = 1 / vel i) ∨ dist < rayX thk vel a b r)

theorem direct_spec {thk vel : ℕ → ℝ} {isrc ircv : ℕ} {dist : ℝ} (hv : ∀ i, 0 < vel i) (hh : ∀ i, 0 ≤ thk i) (hne : isrc ≠ ircv)
    (hadj : max isrc ircv - min isrc ircv = 1 → vel isrc = vel ircv)
    (hz : ∀ i, min isrc ircv ≤ i → i < max isrc ircv → thk i = 0 → vel i ≤ max (vel isrc) (vel ircv)) (hd : 0 ≤ dist) :
    let T := direct thk vel isrc ircv dist
    let imin := min isrc ircv
    let imax := max isrc ircv
    DirectPath thk vel (Ico imin imax) dist T ∧ (∀ t, DirectPath thk vel (Ico imin imax) dist t → T ≤ t) ∨
    ∃ p, 0 ≤ p ∧ p ≤ 1 / max (vel isrc) (vel ircv) ∧ Resolved thk vel imin imax (max (vel isrc) (vel ircv)) dist p ∧
      DirectPath thk vel (Ico imin imax) (rayX thk vel imin imax p) T ∧
      ∀ t, DirectPath thk vel (Ico imin imax) dist t → T ≤ t + p * (rayX thk vel imin imax p - dist) := by
  intro T imin imax
  by_cases h1 : imax - imin = 1
  · left
    have e : imax = imin + 1 := by omega
    have hI : Ico imin imax = {imin} := by rw [e]; ext i; simp
    have hdep : |(∑ i ∈ range isrc, thk i) - ∑ i ∈ range ircv, thk i| = thk imin := by
      rcases Nat.lt_or_gt_of_ne hne with h | h
      · have a1 : imin = isrc := min_eq_left h.le
        have a2 : imax = ircv := max_eq_right h.le
        rw [← a1, ← a2, e, sum_range_succ, abs_sub_comm, add_sub_cancel_left, abs_of_nonneg (hh _)]
      · have a1 : imin = ircv := min_eq_right h.le
        have a2 : imax = isrc := max_eq_left h.le
        rw [← a1, ← a2, e, sum_range_succ, add_sub_cancel_left, abs_of_nonneg (hh _)]
    have hvel : vel isrc = vel imin := by
      rcases le_total isrc ircv with h | h
      · rw [show imin = isrc from min_eq_left h]
      · rw [show imin = ircv from min_eq_right h]; exact hadj h1
    have hT : T = Real.sqrt (dist ^ 2 + thk imin ^ 2) / vel imin := by
      simp only [T, direct]
      rw [if_pos h1, hdep, hvel]
    have hx : ∀ x : ℕ → ℝ, ∑ i ∈ Ico imin imax, x i = dist → T = crossTime thk vel (Ico imin imax) x := by
      intro x hx
      rw [hI, sum_singleton] at hx
      rw [hT, crossTime, hI, sum_singleton, hx, add_comm]
    refine ⟨⟨fun _ => dist, by rw [hI, sum_singleton], hx _ (by rw [hI, sum_singleton])⟩, ?_⟩
    · rintro t ⟨x, hs, rfl⟩
      exact (hx x hs).le
  · right
    set V := max (vel isrc) (vel ircv) with hV
    have hVpos : 0 < V := lt_max_of_lt_left (hv isrc)
    set b := pmax0 thk vel V imin (imax + 1 - imin) with hb
    have himin : imin ≤ imax := min_le_max
    have hbpos : 0 < b := pmax0_pos hv hVpos _ _
    obtain ⟨b1, b2⟩ := pmax0_le (thk := thk) (vel := vel) (v := V) imin (imax + 1 - imin)
    obtain ⟨s1, s2, s3⟩ := shoot_spec (rayX thk vel imin imax) dist 49 hbpos
    set p := shoot (rayX thk vel imin imax) dist 49 0 b with hp
    have hT : T = rayT thk vel imin imax p := by
      simp only [T, direct]
      rw [if_neg h1, vmax_eq]
    have hlt : ∀ i, imin ≤ i → i < imax → thk i ≠ 0 → p * vel i < 1 := by
      intro i i1 i2 i3
      have h := b2 i i1 (by omega) i3
      rw [← lt_div_iff₀ (hv i)]
      exact s2.trans_le h
    have hbound : p ≤ 1 / V := s2.le.trans b1
    refine ⟨p, s1.le, hbound, ?_, hT ▸ rayT_eq hv s1.le hh hlt, ?_⟩
    · refine s3.imp id ?_
      rintro ⟨q, r, q1, q2, q3, q4, q5, q6, q7⟩
      refine ⟨q, r, q1, q2, q3, ?_, ?_, ?_⟩
      · rw [q5, sub_zero]; gcongr
      · rcases q6 with rfl | q6
        · have : rayX thk vel imin imax 0 = 0 := by
            unfold rayX
            apply sum_eq_zero
            intro i _
            simp
          rw [this]; exact hd
        · exact q6.le
      · refine q7.imp (fun h => ?_) id
        subst h
        rcases pmax0_mem (thk := thk) (vel := vel) (v := V) (a := imin) (imax + 1 - imin) with h | ⟨i, i1, i2, i3⟩
        · rcases le_total (vel isrc) (vel ircv) with h' | h'
          · refine ⟨ircv, min_le_right _ _, le_max_right _ _, ?_⟩
            rw [hb, h, hV, max_eq_right h']
          · refine ⟨isrc, min_le_left _ _, le_max_left _ _, ?_⟩
            rw [hb, h, hV, max_eq_left h']
        · exact ⟨i, i1, by omega, i3⟩
    · rintro t ⟨x, hs, rfl⟩
      rw [hT, ← hs]
      refine rayT_le hv s1.le hlt (fun i i1 i2 => ?_) x
      by_cases h0 : thk i = 0
      · rw [← le_div_iff₀ (hv i)]
        exact hbound.trans (one_div_le_one_div_of_le (hv i) (hz i i1 i2 h0))
      · exact (hlt i i1 i2 h0).le

theorem up_spec {thk vel : ℕ → ℝ} {vmin vmax dist : ℝ} {imin imax : ℕ} (hv : ∀ i, 0 < vel i) (hh : ∀ i, 0 ≤ thk i)
    (hi : imin ≤ imax) (hmm : vmin ≤ vmax) (k : ℕ) (hk : k ≤ imin) (t : ℝ) :
    up thk vel vmin vmax dist imin imax k t ≤ t ∧
    (up thk vel vmin vmax dist imin imax k t = t ∨ ∃ m, m < k ∧ thk m ≠ 0 ∧
      Path thk vel (Ico imin imax) (Ico (m + 1) imin) m dist (up thk vel vmin vmax dist imin imax k t)) := by
  induction k generalizing t with
  | zero => exact ⟨le_rfl, .inl rfl⟩
  | succ k ih =>
    simp only [up]
    have sp := (refract_spec (thk := thk) (vel := vel) (vmin := vmin) (vmax := vmax) (dist := dist) (travt := t) (m := k)
      (a := k + 1) (b := imin) hv hh hi (by omega) hmm).1
    generalize refract thk vel vmin vmax dist imin imax k (k + 1) imin t = r at sp
    have h1 : r.1 ≤ t := by rcases sp with h | h; exacts [h.le, h.1.le]
    have h2 : r.1 = t ∨ thk k ≠ 0 ∧ Path thk vel (Ico imin imax) (Ico (k + 1) imin) k dist r.1 := by
      rcases sp with h | ⟨-, -, h0, hs, hX, h⟩
      · exact .inl h
      · refine .inr ⟨h0, ?_⟩
        rw [h]
        exact crit_path hv hh (fun i hi => hs i (by simpa only [mem_Ico] using hi)) hX
    split
    · obtain ⟨i1, i2⟩ := ih (by omega) r.1
      refine ⟨i1.trans h1, ?_⟩
      rcases i2 with i2 | ⟨m, m1, m2⟩
      · rw [i2]
        exact h2.imp id fun h => ⟨k, by omega, h⟩
      · exact .inr ⟨m, by omega, m2⟩
    · exact ⟨h1, h2.imp id fun h => ⟨k, by omega, h⟩⟩

theorem down_spec {thk vel : ℕ → ℝ} {vmin vmax dist : ℝ} {imin imax : ℕ} (hv : ∀ i, 0 < vel i) (hh : ∀ i, 0 ≤ thk i)
    (hi : imin ≤ imax) (hmm : vmin ≤ vmax) (k n : ℕ) (hk : imax ≤ k) (t : ℝ) :
    down thk vel vmin vmax dist imin imax k n t ≤ t ∧
    (down thk vel vmin vmax dist imin imax k n t = t ∨ ∃ m, k ≤ m ∧ m < k + n ∧ thk m ≠ 0 ∧
      Path thk vel (Ico imin imax) (Ico imax m) m dist (down thk vel vmin vmax dist imin imax k n t)) := by
  induction n generalizing t k with
  | zero => exact ⟨le_rfl, .inl rfl⟩
  | succ n ih =>
    simp only [down]
    have sp := (refract_spec (thk := thk) (vel := vel) (vmin := vmin) (vmax := vmax) (dist := dist) (travt := t) (m := k)
      (a := imax) (b := k) hv hh hi (by omega) hmm).1
    generalize refract thk vel vmin vmax dist imin imax k imax k t = r at sp
    have h1 : r.1 ≤ t := by rcases sp with h | h; exacts [h.le, h.1.le]
    have h2 : r.1 = t ∨ thk k ≠ 0 ∧ Path thk vel (Ico imin imax) (Ico imax k) k dist r.1 := by
      rcases sp with h | ⟨-, -, h0, hs, hX, h⟩
      · exact .inl h
      · refine .inr ⟨h0, ?_⟩
        rw [h]
        exact crit_path hv hh (fun i hi => hs i (by simpa only [mem_Ico] using hi)) hX
    split
    · obtain ⟨i1, i2⟩ := ih (k + 1) (by omega) r.1
      refine ⟨i1.trans h1, ?_⟩
      rcases i2 with i2 | ⟨m, m1, m2, m3⟩
      · rw [i2]
        exact h2.imp id fun h => ⟨k, by omega, by omega, h⟩
      · exact .inr ⟨m, by omega, by omega, m3⟩
    · exact ⟨h1, h2.imp id fun h => ⟨k, by omega, by omega, h⟩⟩

/-- A layer stack with two marked interfaces as the reader of model files builds it (`C31_reader`): distinct
interfaces inside the stack, thicknesses not negative, equal velocities below two adjacent interfaces, and a layer
without thickness between the interfaces is not faster than the medium at the interfaces. -/
structure Stack (thk vel0 : ℕ → ℝ) (nlay isrc ircv : ℕ) : Prop where
  ne : isrc ≠ ircv
  src : isrc < nlay
  rcv : ircv < nlay
  nonneg : ∀ i, 0 ≤ thk i
  adj : max isrc ircv - min isrc ircv = 1 → vel0 isrc = vel0 ircv
  zero : ∀ i, min isrc ircv ≤ i → i < max isrc ircv → thk i = 0 → vel0 i = vel0 isrc ∨ vel0 i = vel0 ircv

/-- The wave propagates between the interfaces. -/
def Carries (vel0 : ℕ → ℝ) (isrc ircv : ℕ) : Prop := ∀ i, min isrc ircv ≤ i → i ≤ max isrc ircv → vel0 i ≠ 0

theorem travt1d_eq {thk vel0 : ℕ → ℝ} {nlay isrc ircv : ℕ} {dist : ℝ} (hc : Carries vel0 isrc ircv) :
    travt1d thk vel0 nlay isrc ircv dist =
      down thk (fun i => fixVel (vel0 i)) (min (fixVel (vel0 isrc)) (fixVel (vel0 ircv))) (max (fixVel (vel0 isrc)) (fixVel (vel0 ircv)))
        dist (min isrc ircv) (max isrc ircv) (max isrc ircv + 1) (nlay - (max isrc ircv + 1))
        (if thk 0 > 0 then
          up thk (fun i => fixVel (vel0 i)) (min (fixVel (vel0 isrc)) (fixVel (vel0 ircv))) (max (fixVel (vel0 isrc)) (fixVel (vel0 ircv)))
            dist (min isrc ircv) (max isrc ircv) (min isrc ircv) (direct thk (fun i => fixVel (vel0 i)) isrc ircv dist)
         else direct thk (fun i => fixVel (vel0 i)) isrc ircv dist) := by
  unfold travt1d
  dsimp only
  rw [if_neg, vmax_eq, vmin_eq]
  rintro ⟨i, hi, h0⟩
  rw [mem_Icc] at hi
  exact hc i hi.1 hi.2 h0

theorem Stack.adj' {thk vel0 : ℕ → ℝ} {nlay isrc ircv : ℕ} (S : Stack thk vel0 nlay isrc ircv)
    (h : max isrc ircv - min isrc ircv = 1) : fixVel (vel0 isrc) = fixVel (vel0 ircv) := by rw [S.adj h]

theorem Stack.zero' {thk vel0 : ℕ → ℝ} {nlay isrc ircv : ℕ} (S : Stack thk vel0 nlay isrc ircv) (i : ℕ)
    (i1 : min isrc ircv ≤ i) (i2 : i < max isrc ircv) (i3 : thk i = 0) :
    fixVel (vel0 i) ≤ max (fixVel (vel0 isrc)) (fixVel (vel0 ircv)) := by
  rcases S.zero i i1 i2 i3 with h | h
  · rw [h]; exact le_max_left _ _
  · rw [h]; exact le_max_right _ _

/-- C31: the reported time is at most the time of any path through the layers between the two interfaces
(Fermat), up to the miss `e` of the shooting loop: the time the wave takes over one metre, or, where fifty
bisections are not enough, over the miss of a slowness resolved to `2⁻⁴⁹`. -/
theorem C31_direct {thk vel0 : ℕ → ℝ} {nlay isrc ircv : ℕ} {dist : ℝ} (S : Stack thk vel0 nlay isrc ircv)
    (hc : Carries vel0 isrc ircv) (hd : 0 ≤ dist) :
    let vel := fun i => fixVel (vel0 i)
    let vmax := max (vel isrc) (vel ircv)
    let X := rayX thk vel (min isrc ircv) (max isrc ircv)
    ∃ e, (∀ t, DirectPath thk vel (Ico (min isrc ircv) (max isrc ircv)) dist t → travt1d thk vel0 nlay isrc ircv dist ≤ t + e) ∧
      (e ≤ 1 / 1000 / vmax ∨
        ∃ p q, 0 ≤ q ∧ q < p ∧ p ≤ 1 / vmax ∧ p - q ≤ 1 / vmax / 2 ^ 49 ∧ X q ≤ dist ∧ e = p * (X p - dist)) := by
  intro vel vmax X
  have hv : ∀ i, 0 < vel i := fun i => fixVel_pos _
  have hVpos : 0 < vmax := lt_max_of_lt_left (hv isrc)
  have hmm : min (vel isrc) (vel ircv) ≤ max (vel isrc) (vel ircv) := min_le_max
  have hle : travt1d thk vel0 nlay isrc ircv dist ≤ direct thk vel isrc ircv dist := by
    rw [travt1d_eq hc]
    refine (down_spec hv S.nonneg min_le_max hmm _ _ (by omega) _).1.trans ?_
    split
    · exact (up_spec hv S.nonneg min_le_max hmm _ le_rfl _).1
    · exact le_rfl
  rcases direct_spec hv S.nonneg S.ne S.adj' S.zero' hd with ⟨-, h⟩ | ⟨p, p1, p2, p3, -, p4⟩
  · refine ⟨0, fun t ht => ?_, .inl (by positivity)⟩
    rw [add_zero]
    exact hle.trans (h t ht)
  · refine ⟨p * (X p - dist), fun t ht => hle.trans (p4 t ht), ?_⟩
    rcases p3 with h | ⟨q, r, q1, q2, q3, q4, q5, -⟩
    · left
      have h := (abs_lt.1 h).2
      calc p * (X p - dist) ≤ p * (1 / 1000) := by gcongr
        _ ≤ 1 / vmax * (1 / 1000) := by gcongr
        _ = _ := by ring
    · exact .inr ⟨p, q, q1, q2, p2, by linarith, q5, rfl⟩

/-- C31: the reported time is the time of a path: through the layers between the interfaces, ending at the
distance up to the miss of the shooting loop, or along a faster layer above or below, ending at the distance. -/
theorem C31_attained {thk vel0 : ℕ → ℝ} {nlay isrc ircv : ℕ} {dist : ℝ} (S : Stack thk vel0 nlay isrc ircv)
    (hc : Carries vel0 isrc ircv) (hd : 0 ≤ dist) :
    let vel := fun i => fixVel (vel0 i)
    let imin := min isrc ircv
    let imax := max isrc ircv
    let r := travt1d thk vel0 nlay isrc ircv dist
    DirectPath thk vel (Ico imin imax) dist r ∨
    (∃ p, 0 ≤ p ∧ Resolved thk vel imin imax (max (vel isrc) (vel ircv)) dist p ∧
      DirectPath thk vel (Ico imin imax) (rayX thk vel imin imax p) r) ∨
    (∃ m, m < imin ∧ thk m ≠ 0 ∧ Path thk vel (Ico imin imax) (Ico (m + 1) imin) m dist r) ∨
    (∃ m, imax < m ∧ m < nlay ∧ thk m ≠ 0 ∧ Path thk vel (Ico imin imax) (Ico imax m) m dist r) := by
  intro vel imin imax r
  have hv : ∀ i, 0 < vel i := fun i => fixVel_pos _
  have hmm : min (vel isrc) (vel ircv) ≤ max (vel isrc) (vel ircv) := min_le_max
  have hlt : imax < nlay := max_lt S.src S.rcv
  have hr := travt1d_eq (thk := thk) (nlay := nlay) (dist := dist) hc
  have hdir : DirectPath thk vel (Ico imin imax) dist (direct thk vel isrc ircv dist) ∨
    (∃ p, 0 ≤ p ∧ Resolved thk vel imin imax (max (vel isrc) (vel ircv)) dist p ∧
      DirectPath thk vel (Ico imin imax) (rayX thk vel imin imax p) (direct thk vel isrc ircv dist)) := by
    rcases direct_spec hv S.nonneg S.ne S.adj' S.zero' hd with ⟨h, -⟩ | ⟨p, p1, p2, p3, p4, -⟩
    · exact .inl h
    · exact .inr ⟨p, p1, p3, p4⟩
  have hup : ∀ u, u = (if thk 0 > 0 then
          up thk vel (min (vel isrc) (vel ircv)) (max (vel isrc) (vel ircv)) dist imin imax imin (direct thk vel isrc ircv dist)
         else direct thk vel isrc ircv dist) → u = direct thk vel isrc ircv dist ∨
      ∃ m, m < imin ∧ thk m ≠ 0 ∧ Path thk vel (Ico imin imax) (Ico (m + 1) imin) m dist u := by
    rintro u rfl
    split
    · exact (up_spec hv S.nonneg min_le_max hmm _ le_rfl _).2
    · exact .inl rfl
  have hfin : ∀ u, (u = direct thk vel isrc ircv dist ∨
      ∃ m, m < imin ∧ thk m ≠ 0 ∧ Path thk vel (Ico imin imax) (Ico (m + 1) imin) m dist u) → r = u →
    DirectPath thk vel (Ico imin imax) dist r ∨
    (∃ p, 0 ≤ p ∧ Resolved thk vel imin imax (max (vel isrc) (vel ircv)) dist p ∧
      DirectPath thk vel (Ico imin imax) (rayX thk vel imin imax p) r) ∨
    (∃ m, m < imin ∧ thk m ≠ 0 ∧ Path thk vel (Ico imin imax) (Ico (m + 1) imin) m dist r) ∨
    (∃ m, imax < m ∧ m < nlay ∧ thk m ≠ 0 ∧ Path thk vel (Ico imin imax) (Ico imax m) m dist r) := by
    rintro u hu h
    rw [h]
    rcases hu with rfl | hu
    · rcases hdir with hdir | hdir
      · exact .inl hdir
      · exact .inr (.inl hdir)
    · exact .inr (.inr (.inl hu))
  have hdown := (down_spec (thk := thk) (vel := vel) (dist := dist) hv S.nonneg (min_le_max : imin ≤ imax) hmm (imax + 1) (nlay - (imax + 1)) (by omega)
    (if thk 0 > 0 then
          up thk vel (min (vel isrc) (vel ircv)) (max (vel isrc) (vel ircv)) dist imin imax imin (direct thk vel isrc ircv dist)
         else direct thk vel isrc ircv dist)).2
  rcases hdown with h | ⟨m, m1, m2, m3, m4⟩
  · exact hfin _ (hup _ rfl) (hr.trans h)
  · refine .inr (.inr (.inr ⟨m, by omega, by omega, m3, ?_⟩))
    rw [show r = _ from hr]
    exact m4

theorem path_nonneg {thk vel : ℕ → ℝ} (hv : ∀ i, 0 < vel i) {one two : Finset ℕ} {m : ℕ} {dist t : ℝ}
    (h : Path thk vel one two m dist t) : 0 ≤ t := by
  obtain ⟨x, y, z, L, hL, -, rfl⟩ := h
  have key : ∀ (s : Finset ℕ) (x : ℕ → ℝ), 0 ≤ crossTime thk vel s x := fun s x =>
    sum_nonneg fun i _ => by have := hv i; positivity
  have := key one x; have := key two y; have := key two z; have := div_nonneg hL (hv m).le
  linarith

/-- C31: the marker `-12345` is returned exactly when the wave type does not propagate in some layer from the
one below the upper interface to the one below the lower interface; every other result is a time. -/
theorem C31_marker {thk vel0 : ℕ → ℝ} {nlay isrc ircv : ℕ} {dist : ℝ} (S : Stack thk vel0 nlay isrc ircv) (hd : 0 ≤ dist) :
    (travt1d thk vel0 nlay isrc ircv dist = -12345 ↔ ¬ Carries vel0 isrc ircv) ∧
    (Carries vel0 isrc ircv → 0 ≤ travt1d thk vel0 nlay isrc ircv dist) := by
  have h2 : Carries vel0 isrc ircv → 0 ≤ travt1d thk vel0 nlay isrc ircv dist := by
    intro hc
    have hv : ∀ i, 0 < (fun i => fixVel (vel0 i)) i := fun i => fixVel_pos _
    have key : ∀ d t, DirectPath thk (fun i => fixVel (vel0 i)) (Ico (min isrc ircv) (max isrc ircv)) d t → 0 ≤ t := by
      rintro d t ⟨x, -, rfl⟩
      exact sum_nonneg fun i _ => by have := hv i; positivity
    rcases C31_attained S hc hd with h | ⟨p, -, -, h⟩ | ⟨m, -, -, h⟩ | ⟨m, -, -, -, h⟩
    · exact key _ _ h
    · exact key _ _ h
    · exact path_nonneg hv h
    · exact path_nonneg hv h
  refine ⟨⟨fun h hc => ?_, fun h => ?_⟩, h2⟩
  · have := h2 hc; rw [h] at this; norm_num at this
  · unfold travt1d
    rw [if_pos]
    simp only [Carries, not_forall, not_not] at h
    obtain ⟨i, i1, i2, i3⟩ := h
    exact ⟨i, mem_Icc.2 ⟨i1, i2⟩, i3⟩

/-- C30: exchanging the interfaces does not change the result, whatever the stack, if adjacent interfaces lie in
one medium. -/
theorem C30_exchange {thk vel0 : ℕ → ℝ} {nlay isrc ircv : ℕ} {dist : ℝ}
    (hadj : max isrc ircv - min isrc ircv = 1 → vel0 isrc = vel0 ircv) :
    travt1d thk vel0 nlay isrc ircv dist = travt1d thk vel0 nlay ircv isrc dist := by
  unfold travt1d direct
  dsimp only
  rw [vmax_eq, vmin_eq, vmax_eq, vmin_eq, max_comm ircv isrc, min_comm ircv isrc, max_comm (fixVel (vel0 ircv)),
    min_comm (fixVel (vel0 ircv)), abs_sub_comm (∑ i ∈ range ircv, thk i)]
  by_cases h : max isrc ircv - min isrc ircv = 1
  · rw [if_pos h, if_pos h, hadj h]
  · rw [if_neg h, if_neg h]

end GRT.Travt
