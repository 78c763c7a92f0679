import Verif.Travt.Lemmas

/-! Begin time and arrival marks of mode-sum traces, `pygrt/C_extension/src/modal/grt_modsum.c` 453-582.  C85. -/

namespace GRT.Modal

open GRT.Travt

/-! ### Model -/

/-- Unset floats of a new SAC header, sacio.c_ 44-57 (`sac_null`), copied by `new_sac_head`. -/
def sacNull : ℝ := -12345

/-- Layer of a depth, grt_modsum.c 461-466: `k` steps of the loop remain, `i` is the candidate. -/
noncomputable def locateFrom (dep : ℕ → ℝ) (d : ℝ) : ℕ → ℕ → ℕ
  | 0, i => i
  | k + 1, i => if dep (i + 1) ≥ d then i else locateFrom dep d k (i + 1)

noncomputable def locate (dep : ℕ → ℝ) (n : ℕ) (d : ℝ) : ℕ := locateFrom dep d (n - 1) 0

/-- Argument of `-E`, grt_modsum.c 337-355. -/
structure Delay where
  refP : Bool
  t0 : ℝ
  v0 : ℝ

/-- Begin time of the trace at distance `dist`, grt_modsum.c 570-581.  `sac` is the header made at line 535, whose `t0` is not yet set. -/
noncomputable def beginTime (E : Delay) (dist zs zr : ℝ) : ℝ :=
  if E.refP = false then E.t0 + (if E.v0 > 0 then √(dist ^ 2 + (zr - zs) ^ 2) / E.v0 else 0)
  else E.t0 + sacNull

/-- Mark written to `t0` (`vel = Va`) or `t1` (`vel = Vb`) of the header, grt_modsum.c 567-568 and grnspec.c 116-119. -/
noncomputable def mark (thk dep vel : ℕ → ℝ) (n : ℕ) (zs zr dist : ℝ) : ℝ := travt1d thk vel n (locate dep n zs) (locate dep n zr) dist

/-! ### C85 -/

/-- C85, part: without `p` the trace begins `t0` after the origin time, or `t0` after a wave of velocity `v0` has run straight from source
to receiver.  Missing: `-Ep` and the marks, see below. -/
theorem C85_begin_partial (E : Delay) (h : E.refP = false) (dist zs zr : ℝ) :
    (E.v0 = 0 → beginTime E dist zs zr = E.t0) ∧
    (0 < E.v0 → (beginTime E dist zs zr - E.t0) * E.v0 = √(dist ^ 2 + (zr - zs) ^ 2)) := by
  unfold beginTime
  rw [if_pos h]
  constructor
  · intro e; simp [e]
  · intro e
    rw [if_pos e]
    field_simp
    ring

example : beginTime ⟨false, -2, 5⟩ 3 4 0 = -1 := by
  have := (C85_begin_partial ⟨false, -2, 5⟩ rfl 3 4 0).2 (by norm_num)
  rw [show (3:ℝ)^2 + (0 - 4)^2 = 5^2 by norm_num, Real.sqrt_sq (by norm_num)] at this
  dsimp only at this
  linarith

/-- C85 violated: with `-Ep<t0>` the trace should begin `t0` before the P wave marked in the header; it begins more than three hours before
the origin time, whatever the model, the depths and the distance. -/
theorem C85_begin_violated (thk dep va : ℕ → ℝ) (n : ℕ) (E : Delay) (h : E.refP = true) (ht : E.t0 < 0) (dist zs zr : ℝ)
    (hm : 0 ≤ mark thk dep va n zs zr dist) :
    beginTime E dist zs zr < -12345 ∧ beginTime E dist zs zr ≠ E.t0 + mark thk dep va n zs zr dist := by
  unfold beginTime
  rw [if_neg (by simp [h])]
  unfold sacNull
  constructor
  · linarith
  · intro e; linarith

theorem leg_nonneg {thk vel : ℕ → ℝ} (ht : ∀ i, 0 ≤ thk i) (hv : ∀ i, 0 < vel i) {v travt dist w : ℝ} (hw : 0 ≤ w) (a : ℕ) :
    ∀ (n : ℕ) (l : Leg), (∀ s x, l = .ok s x → 0 ≤ s) → ∀ s x, leg thk vel v travt dist w a n l = .ok s x → 0 ≤ s := by
  intro n
  induction n with
  | zero => intro l hl s x h; exact hl s x h
  | succ n ih =>
    intro l hl s x h
    have ih := ih l hl
    simp only [leg] at h
    cases e : leg thk vel v travt dist w a n l with
    | bad => rw [e] at h; simp [hop] at h
    | «over» => rw [e] at h; simp [hop] at h
    | ok s' x' =>
      have h0 := ih s' x' e
      rw [e] at h
      unfold hop at h
      dsimp only at h
      split at h
      · cases h
      split at h
      · split at h <;> cases h
      split at h
      · cases h
      split at h
      · cases h
      injection h with h1 h2
      rw [← h1]
      have := ht (a + n)
      have := hv (a + n)
      positivity

theorem refract_zero {thk vel : ℕ → ℝ} (ht : ∀ i, 0 ≤ thk i) (hv : ∀ i, 0 < vel i) (vmin vmax dist : ℝ) (imin imax m a b : ℕ) :
    (refract thk vel vmin vmax dist imin imax m a b 0).1 = 0 := by
  unfold refract
  split
  · rfl
  dsimp only
  split
  · rfl
  split
  · rfl
  split
  · rfl
  · rfl
  · rename_i s x e
    have hs := leg_nonneg ht hv (by norm_num) a (b - a) _ (leg_nonneg ht hv (by norm_num) imin (imax - imin) _
      (fun s x h => by injection h with h1 h2; rw [← h1])) s x e
    split
    · rename_i hx
      have : 0 ≤ s + (dist - x) / vel m := by
        have := hv m
        have : 0 ≤ dist - x := by linarith
        positivity
      rw [if_neg (by linarith)]
    · rfl

theorem up_zero {thk vel : ℕ → ℝ} (ht : ∀ i, 0 ≤ thk i) (hv : ∀ i, 0 < vel i) (vmin vmax dist : ℝ) (imin imax : ℕ) :
    ∀ k, up thk vel vmin vmax dist imin imax k 0 = 0 := by
  intro k
  induction k with
  | zero => rfl
  | succ k ih =>
    simp only [up]
    rw [refract_zero ht hv]
    split
    · exact ih
    · rfl

theorem down_zero {thk vel : ℕ → ℝ} (ht : ∀ i, 0 ≤ thk i) (hv : ∀ i, 0 < vel i) (vmin vmax dist : ℝ) (imin imax : ℕ) :
    ∀ n m, down thk vel vmin vmax dist imin imax m n 0 = 0 := by
  intro n
  induction n with
  | zero => intro m; rfl
  | succ n ih =>
    intro m
    simp only [down]
    rw [refract_zero ht hv]
    split
    · exact ih _
    · rfl

/-- C85 violated: the arrivals are computed between the tops of the layers of source and receiver.  If these are one layer, the mark is at
the origin time, however far apart source and receiver are. -/
theorem C85_mark_violated {thk dep vel : ℕ → ℝ} {n : ℕ} {zs zr : ℝ} (ht : ∀ i, 0 ≤ thk i) (same : locate dep n zs = locate dep n zr)
    (hv : vel (locate dep n zs) ≠ 0) (dist : ℝ) : mark thk dep vel n zs zr dist = 0 := by
  have fv : ∀ i, 0 < fixVel (vel i) := by
    intro i
    unfold fixVel
    split
    · norm_num
    · rename_i h; push Not at h; exact h
  unfold mark travt1d
  rw [← same]
  dsimp only
  rw [if_neg (by simpa using hv)]
  have d0 : direct thk (fun i => fixVel (vel i)) (locate dep n zs) (locate dep n zs) dist = 0 := by
    unfold direct rayT
    simp
  simp only [d0, up_zero ht fv, ite_self, down_zero ht fv]

/-- The same for any depths in one layer: the mark knows the layers only. -/
theorem C85_depth_violated {thk dep vel : ℕ → ℝ} {n : ℕ} {zs zr zs' zr' : ℝ} (h1 : locate dep n zs = locate dep n zs')
    (h2 : locate dep n zr = locate dep n zr') (dist : ℝ) : mark thk dep vel n zs zr dist = mark thk dep vel n zs' zr' dist := by
  unfold mark
  rw [h1, h2]

theorem locate_first {dep : ℕ → ℝ} {n : ℕ} (hn : 2 ≤ n) {d : ℝ} (h : d ≤ dep 1) : locate dep n d = 0 := by
  unfold locate
  obtain ⟨m, rfl⟩ : ∃ m, n = m + 2 := ⟨n - 2, by omega⟩
  simp [locateFrom, h]

/-- A crust of 30 km with P velocity 6 km/s: source at 10 km, receiver at the surface 240 km away.  The P wave needs 40 s at least (the
mantle has 8 km/s, and the way is 240 km); it is marked at 0, and with `-Ep-5` the trace begins at -12350 s. -/
example : mark (fun i => if i = 0 then 30 else 1000) (fun i => if i = 0 then 0 else 30) (fun i => if i = 0 then 6 else 8) 2 10 0 240 = 0 ∧
    beginTime ⟨true, -5, 0⟩ 240 10 0 < -12345 := by
  have l : ∀ d : ℝ, d ≤ 30 → locate (fun i => if i = 0 then (0:ℝ) else 30) 2 d = 0 := fun d hd => locate_first le_rfl (by simpa using hd)
  have m0 := C85_mark_violated (thk := fun i => if i = 0 then (30:ℝ) else 1000) (dep := fun i => if i = 0 then 0 else 30)
    (vel := fun i => if i = 0 then 6 else 8) (n := 2) (zs := 10) (zr := 0) (fun i => by split <;> norm_num)
    (by rw [l 10 (by norm_num), l 0 (by norm_num)]) (by rw [l 10 (by norm_num)]; norm_num) 240
  refine ⟨m0, ?_⟩
  exact (C85_begin_violated (fun i => if i = 0 then (30:ℝ) else 1000) (fun i => if i = 0 then 0 else 30) (fun i => if i = 0 then 6 else 8) 2
    ⟨true, -5, 0⟩ rfl (by norm_num) 240 10 0 m0.ge).1

end GRT.Modal
