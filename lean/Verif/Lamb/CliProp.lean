import Verif.Lamb.Cli
import Verif.Lamb.LambProp

/-!
C107: `grt lamb1` refuses what its manual refuses and otherwise prints one result for every time of the list it was asked for.
-/

namespace GRT.Lamb

theorem nt_ge {o : Opts} (h : ¬o.bad) : 1 ≤ o.nt := by
  unfold Opts.bad at h
  push Not at h
  have : 0 ≤ ⌊(o.t2 - o.t1) / o.dt⌋ := Int.floor_nonneg.mpr (div_nonneg (by linarith [h.2.2.2.1]) h.2.2.1.le)
  unfold Opts.nt
  omega

theorem times_iff {o : Opts} (h : ¬o.bad) (k : ℕ) : k < o.times.length ↔ o.t1 + k * o.dt ≤ o.t2 := by
  have hn := nt_ge h
  unfold Opts.bad at h
  push Not at h
  have hd := h.2.2.1
  have e : k < o.times.length ↔ (k : ℤ) ≤ ⌊(o.t2 - o.t1) / o.dt⌋ := by
    unfold Opts.times
    rw [List.length_map, List.length_range]
    unfold Opts.nt at hn ⊢
    omega
  rw [e, Int.le_floor, le_div_iff₀ hd]
  push_cast
  constructor <;> intro <;> linarith

/-- The program stops with an error for exactly the numbers outside the ranges of the manual.  For others, when the list has a second time
that is not past `t2`, fits an `int`, and the three roots of the Rayleigh cubic differ, it returns one result for each time `t1 + k dt`
that is not past `t2`, and for no other; before the P arrival the result is zero, and from then on it is what the integral over the
contour gives at that time (just after it, for the time of an arrival).

Partial: a list of one time (`C107_violated_single`), a Poisson's ratio with equal roots, and rounding (`C107_violated_rounding`). -/
theorem C107_program_partial {L : Ell} (hL : L.Exact) (o : Opts) :
    (lamb1Main L o = .error ↔ ¬(0 < o.nu ∧ o.nu < 1 / 2 ∧ 0 ≤ o.t1 ∧ o.t1 ≤ o.t2 ∧ 0 < o.dt ∧ 0 ≤ o.azimuth ∧ o.azimuth ≤ 360)) ∧
    (lamb1Main L o ≠ .error → o.t1 + o.dt ≤ o.t2 → (o.t2 - o.t1) / o.dt < 2147483647 → Apart (mkVars o.nu o.azimuth).ys →
      ∃ us, lamb1Main L o = .done us ∧ (∀ k : ℕ, k < us.length ↔ o.t1 + k * o.dt ≤ o.t2) ∧
        ∀ al be v : ℝ, 0 < al → 0 < be → o.nu = (al ^ 2 - 2 * be ^ 2) / (2 * (al ^ 2 - be ^ 2)) → IsRayleighSpeed al be v →
          ∀ (k : ℕ) (hk : k < us.length),
            (o.t1 + k * o.dt < be / al → ∀ i j, us[k] i j = 0) ∧
            (be / al ≤ o.t1 + k * o.dt →
              ∃ T : ℝ, (if o.t1 + k * o.dt = be / al ∨ o.t1 + k * o.dt = 1 ∨ o.t1 + k * o.dt = be / v then
                  o.t1 + k * o.dt < T ∧ T ≤ o.t1 + k * o.dt + 1e-8 else T = o.t1 + k * o.dt) ∧
                ∀ G, Spec.AlongContour (be ^ 2 / al ^ 2) (o.azimuth * (Real.pi / 180)) T G →
                  ∀ i j, Spec.Response (be ^ 2 / al ^ 2) (be / v) T G i j (us[k] i j))) := by
  have hb : o.bad ↔ ¬(0 < o.nu ∧ o.nu < 1 / 2 ∧ 0 ≤ o.t1 ∧ o.t1 ≤ o.t2 ∧ 0 < o.dt ∧ 0 ≤ o.azimuth ∧ o.azimuth ≤ 360) := by
    unfold Opts.bad
    rw [← not_iff_not, not_not]
    push Not
    norm_num
    constructor
    · rintro ⟨⟨a, b⟩, ⟨c, d⟩, e, f, g, h⟩; exact ⟨a, b, c, f, e, g, h⟩
    · rintro ⟨a, b, c, f, e, g, h⟩; exact ⟨⟨a, b⟩, ⟨c, by linarith⟩, e, f, g, h⟩
  have he : lamb1Main L o = .error ↔ o.bad := by
    unfold lamb1Main
    split
    · rename_i h; exact ⟨fun _ => h, fun _ => rfl⟩
    · rename_i h
      refine ⟨fun h2 => ?_, fun h2 => absurd h2 h⟩
      split at h2
      · exact absurd h2 (by simp)
      · unfold solveLamb1 at h2
        rw [if_neg (fun hc => h (Or.inl hc))] at h2
        split at h2
        · simp only at h2
          split at h2 <;> exact absurd h2 (by simp)
        · exact absurd h2 (by simp)
  refine ⟨he.trans hb, fun hne h2 hI hap => ?_⟩
  rw [Ne, he] at hne
  have hlen : 1 < o.times.length := (times_iff hne 1).mpr (by push_cast; linarith)
  have hnt : ¬2147483647 < o.nt := by
    unfold Opts.nt
    have : ⌊(o.t2 - o.t1) / o.dt⌋ < 2147483647 := Int.floor_lt.mpr (by push_cast; exact hI)
    omega
  have hr : ∃ us, lamb1Main L o = .done us ∧ solveLamb1 L o.nu o.times o.azimuth = .done us := by
    unfold lamb1Main
    rw [if_neg hne, if_neg hnt]
    unfold solveLamb1
    rw [if_neg (fun hc => hne (Or.inl hc))]
    split
    · simp only
      rw [if_neg (by rintro (h | h | h); exacts [hap.1 h, hap.2.1 h, hap.2.2 h])]
      exact ⟨_, rfl, rfl⟩
    · rename_i hx
      exfalso
      match ho : o.times, hlen with
      | a :: b :: r, _ => exact hx a b r ho
  obtain ⟨us, hu, hs⟩ := hr
  have hul : us.length = o.times.length := by
    unfold solveLamb1 at hs
    split at hs
    · exact absurd hs (by simp)
    split at hs
    · simp only at hs
      split at hs
      · exact absurd hs (by simp)
      · rename_i ht _; rw [← Ended.done.inj hs, ht, List.length_map]
    · exact absurd hs (by simp)
  refine ⟨us, hu, fun k => by rw [hul]; exact times_iff hne k, fun al be v hal hbe hnu hv k hk => ?_⟩
  have hinc : ∀ x y, o.times[0]? = some x → o.times[1]? = some y → x < y := by
    intro x y hx hy
    have hdt : 0 < o.dt := by
      have := hne; rw [hb, not_not] at this; exact this.2.2.2.2.1
    rw [List.getElem?_eq_some_iff] at hx hy
    obtain ⟨_, hx⟩ := hx
    obtain ⟨_, hy⟩ := hy
    have ht : ∀ (k : ℕ) (hk : k < o.times.length), o.times[k] = o.t1 + k * o.dt := by
      intro k hk
      have : o.times = List.map (fun i : ℕ => o.t1 + o.dt * i) (List.range o.nt.toNat) := rfl
      simp only [this, List.getElem_map, List.getElem_range]
      ring
    rw [← hx, ← hy, ht, ht]
    push_cast
    linarith
  have := (C106_lamb hL hal hbe hnu hv hs hinc).2 k (by rw [← hul]; exact hk) hk
  have ht : o.times[k]'(by rw [← hul]; exact hk) = o.t1 + k * o.dt := by
    unfold Opts.times
    rw [List.getElem_map, List.getElem_range]
    ring
  rw [ht] at this
  exact this

/-- The hypotheses are met: the example of the manual, `grt lamb1 -P0.25 -T0/2/1e-3 -A30`. -/
example : lamb1Main exactEll ⟨0.25, 0, 2, 1e-3, 30⟩ ≠ .error ∧ (0 : ℝ) + 1e-3 ≤ 2 ∧ ((2 : ℝ) - 0) / 1e-3 < 2147483647 ∧
    Apart (mkVars 0.25 30).ys := by
  refine ⟨?_, by norm_num, by norm_num, apart_quarter 30⟩
  rw [Ne, (C107_program_partial exactEll_exact _).1]
  norm_num

/-- A list with a single time is accepted, and the solver reads a second one. -/
theorem C107_violated_single (L : Ell) (o : Opts) (h : 0 < o.nu ∧ o.nu < 1 / 2 ∧ 0 ≤ o.t1 ∧ o.t1 ≤ o.t2 ∧ 0 < o.dt ∧ 0 ≤ o.azimuth ∧ o.azimuth ≤ 360)
    (hs : o.t2 < o.t1 + o.dt) : lamb1Main L o = .undef := by
  have hb : ¬o.bad := by
    obtain ⟨a, b, c, d, e, f, g⟩ := h
    unfold Opts.bad
    push Not
    norm_num
    exact ⟨⟨a, b⟩, ⟨c, by linarith⟩, e, d, f, g⟩
  have h1 : ¬1 < o.times.length := by rw [times_iff hb]; push_cast; linarith
  unfold lamb1Main
  rw [if_neg hb]
  split
  · rfl
  · unfold solveLamb1
    rw [if_neg (fun hc => hb (Or.inl hc))]
    split
    · rename_i ht; rw [ht] at h1; simp at h1
    · rfl

example : lamb1Main exactEll ⟨0.25, 1, 1, 0.1, 0⟩ = .undef := C107_violated_single _ _ (by norm_num) (by norm_num)

/-- `-T0/0.3/0.1`: the end time is one of the list, but `0.3 / 0.1` is less than 3 in `double`, and three times are computed, not four. -/
theorem C107_violated_rounding : ntDbl 0 0.3 0.1 = 3 ∧ (0 : ℚ) + 3 * 0.1 ≤ 0.3 := by
  refine ⟨by decide +kernel, by norm_num⟩

end GRT.Lamb
