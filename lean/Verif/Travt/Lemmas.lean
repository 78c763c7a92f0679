import Mathlib.Tactic.Ring
import Mathlib.Tactic.Linarith
import Mathlib.Tactic.FieldSimp
import Mathlib.Tactic.Positivity
import Verif.Travt.Model

/-! Rays through a layer stack: specification of travel time along arbitrary paths, and the facts about the
loops of `grt_compute_travt1d` that the properties need. -/

namespace GRT.Travt

open Finset

/-! ### Specification -/

/-- Time of a path crossing each layer of `s` once along a straight segment, with horizontal offset `x i`. -/
noncomputable def crossTime (thk vel : ℕ → ℝ) (s : Finset ℕ) (x : ℕ → ℝ) : ℝ :=
  ∑ i ∈ s, Real.sqrt (thk i ^ 2 + x i ^ 2) / vel i

/-- `t` is the time of a path from the source to the receiver at distance `dist` that crosses the layers of
`one` once, those of `two` down and up again, and runs a length `L` along layer `m`. -/
def Path (thk vel : ℕ → ℝ) (one two : Finset ℕ) (m : ℕ) (dist t : ℝ) : Prop :=
  ∃ (x y z : ℕ → ℝ) (L : ℝ), 0 ≤ L ∧ ∑ i ∈ one, x i + ∑ i ∈ two, y i + ∑ i ∈ two, z i + L = dist ∧
    t = crossTime thk vel one x + crossTime thk vel two y + crossTime thk vel two z + L / vel m

/-- `t` is the time of a path from the source to the receiver at distance `dist` that crosses the layers of
`one` once. -/
def DirectPath (thk vel : ℕ → ℝ) (one : Finset ℕ) (dist t : ℝ) : Prop :=
  ∃ x : ℕ → ℝ, ∑ i ∈ one, x i = dist ∧ t = crossTime thk vel one x

/-! ### One layer -/

/-- Fermat's principle in one layer: the Snell ray of slowness `p` against any other segment. -/
theorem fermat {h x v p c : ℝ} (hv : 0 < v) (hc : 0 < c) (hcp : c ^ 2 = 1 - (p * v) ^ 2) :
    h / (v * c) ≤ Real.sqrt (h ^ 2 + x ^ 2) / v + p * (h * (p * v) / c - x) := by
  have key : h * c + p * v * x ≤ Real.sqrt (h ^ 2 + x ^ 2) := by
    apply Real.le_sqrt_of_sq_le
    have : h ^ 2 + x ^ 2 - (h * c + p * v * x) ^ 2 = (h * (p * v) - x * c) ^ 2 := by
      have h1 : (p * v) ^ 2 = 1 - c ^ 2 := by linarith
      have : h ^ 2 + x ^ 2 - (h * c + p * v * x) ^ 2 - (h * (p * v) - x * c) ^ 2
          = (h ^ 2 + x ^ 2) * (1 - (c ^ 2 + (p * v) ^ 2)) := by ring
      rw [h1] at this
      linarith
    nlinarith [sq_nonneg (h * (p * v) - x * c)]
  have e : h / (v * c) = (h * c + p * v * x) / v + p * (h * (p * v) / c - x) := by
    field_simp
    have : (1 : ℝ) = c ^ 2 + (p * v) ^ 2 := by linarith
    calc h = h * 1 := by ring
      _ = h * (c ^ 2 + (p * v) ^ 2) := by rw [← this]
      _ = _ := by ring
  rw [e]
  gcongr

/-- The Snell ray of slowness `p` is itself a segment. -/
theorem snell {h v p c : ℝ} (hh : 0 ≤ h) (hv : 0 < v) (hc : 0 < c) (hcp : c ^ 2 = 1 - (p * v) ^ 2) :
    Real.sqrt (h ^ 2 + (h * (p * v) / c) ^ 2) / v = h / (v * c) := by
  have : h ^ 2 + (h * (p * v) / c) ^ 2 = (h / c) ^ 2 := by
    field_simp
    have : (p * v) ^ 2 = 1 - c ^ 2 := by linarith
    calc h ^ 2 * (c ^ 2 + p ^ 2 * v ^ 2) = h ^ 2 * (c ^ 2 + (p * v) ^ 2) := by ring
      _ = _ := by rw [this]; ring
  rw [this, Real.sqrt_sq (by positivity)]
  field_simp

/-- Cosine used in the shooting loop. -/
theorem cosS {p v : ℝ} (h0 : 0 ≤ p * v) (h1 : p * v < 1) :
    0 < Real.sqrt (1 - (p * v) * (p * v)) ∧ Real.sqrt (1 - (p * v) * (p * v)) ^ 2 = 1 - (p * v) ^ 2 := by
  have : 0 < 1 - (p * v) * (p * v) := by nlinarith
  exact ⟨Real.sqrt_pos.2 this, by rw [Real.sq_sqrt this.le]; ring⟩

/-- Cosine used for refractions. -/
theorem cosR {u v : ℝ} (hu : 0 < u) (huv : u < v) :
    0 < Real.sqrt |1 - 1 / v * (1 / v) * u * u| ∧
      Real.sqrt |1 - 1 / v * (1 / v) * u * u| ^ 2 = 1 - (1 / v * u) ^ 2 := by
  have hv : 0 < v := hu.trans huv
  have h1 : 1 / v * u < 1 := by rw [one_div, inv_mul_lt_iff₀ hv]; linarith
  have h0 : 0 ≤ 1 / v * u := by positivity
  have e : 1 - 1 / v * (1 / v) * u * u = 1 - (1 / v * u) * (1 / v * u) := by ring
  have h2 : 0 < 1 - (1 / v * u) * (1 / v * u) := by nlinarith
  rw [e, abs_of_pos h2]
  exact ⟨Real.sqrt_pos.2 h2, by rw [Real.sq_sqrt h2.le]; ring⟩

/-! ### The shooting loop -/

theorem fixVel_pos (v : ℝ) : 0 < fixVel v := by
  unfold fixVel; split
  · norm_num
  · linarith

theorem pmax0_pos {thk vel : ℕ → ℝ} (hv : ∀ i, 0 < vel i) {v : ℝ} (h : 0 < v) (a n : ℕ) : 0 < pmax0 thk vel v a n := by
  induction n with
  | zero => simp only [pmax0]; positivity
  | succ n ih =>
    simp only [pmax0]
    have := hv (a + n)
    split
    · exact ih
    · split
      · positivity
      · exact ih

theorem pmax0_le {thk vel : ℕ → ℝ} {v : ℝ} (a n : ℕ) :
    pmax0 thk vel v a n ≤ 1 / v ∧ ∀ i, a ≤ i → i < a + n → thk i ≠ 0 → pmax0 thk vel v a n ≤ 1 / vel i := by
  induction n with
  | zero => exact ⟨le_rfl, fun i h1 h2 => by omega⟩
  | succ n ih =>
    obtain ⟨i1, i2⟩ := ih
    have key : pmax0 thk vel v a (n + 1) ≤ pmax0 thk vel v a n := by
      simp only [pmax0]
      split
      · exact le_rfl
      · split
        · rename_i h; exact h.le
        · exact le_rfl
    refine ⟨key.trans i1, fun i h1 h2 h3 => ?_⟩
    rcases Nat.lt_or_ge i (a + n) with h | h
    · exact key.trans (i2 i h1 h h3)
    · obtain rfl : i = a + n := by omega
      simp only [pmax0]
      rw [if_neg h3]
      split
      · exact le_rfl
      · rename_i h; exact not_lt.1 h

/-- Where the shooting loop ends: within a metre of the distance, or inside an interval of `2⁻ⁿ` of the
initial width whose ends still bracket the distance. -/
theorem shoot_spec (X : ℝ → ℝ) (dist : ℝ) (n : ℕ) {a b : ℝ} (hab : a < b) :
    a < shoot X dist n a b ∧ shoot X dist n a b < b ∧
      (|X (shoot X dist n a b) - dist| < 1 / 1000 ∨
        ∃ q r, a ≤ q ∧ q < shoot X dist n a b ∧ shoot X dist n a b < r ∧ r ≤ b ∧ r - q = (b - a) / 2 ^ n ∧
          (q = a ∨ X q < dist) ∧ (r = b ∨ dist < X r)) := by
  induction n generalizing a b with
  | zero =>
    simp only [shoot]
    refine ⟨by linarith, by linarith, .inr ⟨a, b, le_rfl, by linarith, by linarith, le_rfl, by simp, .inl rfl, .inl rfl⟩⟩
  | succ n ih =>
    simp only [shoot]
    have h1 : a < (a + b) / 2 := by linarith
    have h2 : (a + b) / 2 < b := by linarith
    split
    · rename_i hx
      split
      · rename_i hd; exact ⟨h1, h2, .inl hd⟩
      · obtain ⟨i1, i2, i3⟩ := ih h2
        refine ⟨h1.trans i1, i2, i3.imp id ?_⟩
        rintro ⟨q, r, q1, q2, q3, q4, q5, q6, q7⟩
        refine ⟨q, r, h1.le.trans q1, q2, q3, q4, by rw [q5, pow_succ]; field_simp; ring, .inr ?_, q7⟩
        rcases q6 with rfl | q6
        · exact hx
        · exact q6
    · split
      · rename_i hx
        split
        · rename_i hd; exact ⟨h1, h2, .inl hd⟩
        · obtain ⟨i1, i2, i3⟩ := ih h1
          refine ⟨i1, i2.trans h2, i3.imp id ?_⟩
          rintro ⟨q, r, q1, q2, q3, q4, q5, q6, q7⟩
          refine ⟨q, r, q1, q2, q3, q4.trans h2.le, by rw [q5, pow_succ]; field_simp; ring, q6, .inr ?_⟩
          rcases q7 with rfl | q7
          · exact hx
          · exact q7
      · rename_i g1 g2
        refine ⟨h1, h2, .inl ?_⟩
        rw [show X ((a + b) / 2) = dist from le_antisymm (not_lt.1 g2) (not_lt.1 g1)]
        norm_num

theorem rayT_le {thk vel : ℕ → ℝ} {a b : ℕ} {p : ℝ} (hv : ∀ i, 0 < vel i) (hp : 0 ≤ p)
    (hlt : ∀ i, a ≤ i → i < b → thk i ≠ 0 → p * vel i < 1) (hle : ∀ i, a ≤ i → i < b → p * vel i ≤ 1) (x : ℕ → ℝ) :
    rayT thk vel a b p ≤ crossTime thk vel (Ico a b) x + p * (rayX thk vel a b p - ∑ i ∈ Ico a b, x i) := by
  unfold rayT rayX crossTime
  rw [← sum_sub_distrib, mul_sum, ← sum_add_distrib]
  apply sum_le_sum
  intro i hi
  rw [mem_Ico] at hi
  have hvi := hv i
  by_cases h0 : thk i = 0
  · simp only [h0, if_true]
    have e : Real.sqrt (0 ^ 2 + x i ^ 2) = |x i| := by rw [← Real.sqrt_sq_eq_abs]; congr 1; ring
    rw [e]
    have h1 : p * x i ≤ |x i| / vel i := by
      rw [le_div_iff₀ hvi]
      calc p * x i * vel i = (p * vel i) * x i := by ring
        _ ≤ (p * vel i) * |x i| := by gcongr; exact le_abs_self _
        _ ≤ 1 * |x i| := by gcongr; exact hle i hi.1 hi.2
        _ = |x i| := one_mul _
    linarith
  · rw [if_neg h0, if_neg h0]
    obtain ⟨c1, c2⟩ := cosS (by positivity) (hlt i hi.1 hi.2 h0)
    exact fermat hvi c1 c2

theorem rayT_eq {thk vel : ℕ → ℝ} {a b : ℕ} {p : ℝ} (hv : ∀ i, 0 < vel i) (hp : 0 ≤ p) (hh : ∀ i, 0 ≤ thk i)
    (hlt : ∀ i, a ≤ i → i < b → thk i ≠ 0 → p * vel i < 1) :
    DirectPath thk vel (Ico a b) (rayX thk vel a b p) (rayT thk vel a b p) := by
  refine ⟨fun i => if thk i = 0 then 0 else thk i * (p * vel i) / Real.sqrt (1 - (p * vel i) * (p * vel i)), rfl, ?_⟩
  unfold rayT crossTime
  apply sum_congr rfl
  intro i hi
  rw [mem_Ico] at hi
  have hvi := hv i
  by_cases h0 : thk i = 0
  · simp [h0]
  · simp only [if_neg h0]
    obtain ⟨c1, c2⟩ := cosS (by positivity) (hlt i hi.1 hi.2 h0)
    exact (snell (hh i) hvi c1 c2).symm

theorem rayT_nonneg {thk vel : ℕ → ℝ} {a b : ℕ} {p : ℝ} (hv : ∀ i, 0 < vel i) (hh : ∀ i, 0 ≤ thk i) : 0 ≤ rayT thk vel a b p := by
  unfold rayT
  apply sum_nonneg
  intro i _
  have := hv i
  have := hh i
  split
  · exact le_rfl
  · positivity

/-! ### Refractions -/

/-- Time and offset of the critical ray over `[a, a+n)`. -/
noncomputable def critT (thk vel : ℕ → ℝ) (v : ℝ) (s : Finset ℕ) : ℝ :=
  ∑ i ∈ s, thk i / (vel i * Real.sqrt |1 - 1 / v * (1 / v) * vel i * vel i|)

noncomputable def critX (thk vel : ℕ → ℝ) (v : ℝ) (s : Finset ℕ) : ℝ :=
  ∑ i ∈ s, thk i * (1 / v * vel i) / Real.sqrt |1 - 1 / v * (1 / v) * vel i * vel i|

theorem critT_nonneg {thk vel : ℕ → ℝ} {v : ℝ} {s : Finset ℕ} (hv : ∀ i, 0 < vel i) (hh : ∀ i, 0 ≤ thk i) : 0 ≤ critT thk vel v s :=
  sum_nonneg fun i _ => by have := hv i; have := hh i; positivity

theorem critX_nonneg {thk vel : ℕ → ℝ} {v : ℝ} {s : Finset ℕ} (h : 0 < v) (hv : ∀ i, 0 < vel i) (hh : ∀ i, 0 ≤ thk i) : 0 ≤ critX thk vel v s :=
  sum_nonneg fun i _ => by have := hv i; have := hh i; positivity

/-- What a leg yields, over `[a, a+n)` with weight `w`, from sums `t0`, `x0`. -/
theorem leg_spec {thk vel : ℕ → ℝ} {v travt dist w t0 x0 : ℝ} (hw : 0 ≤ w) (hv : ∀ i, 0 < vel i) (hh : ∀ i, 0 ≤ thk i)
    (h : 0 < v) (a n : ℕ) :
    match leg thk vel v travt dist w a n (.ok t0 x0) with
    | .ok t x => t = t0 + w * critT thk vel v (Ico a (a + n)) ∧ x = x0 + w * critX thk vel v (Ico a (a + n)) ∧
        (∀ i, a ≤ i → i < a + n → vel i < v)
    | .bad => (∃ i, a ≤ i ∧ i < a + n ∧ v ≤ vel i) ∨ dist < x0 + w * critX thk vel v (Ico a (a + n))
    | .over => (∃ i, a ≤ i ∧ i < a + n ∧ vel i = v ∧ thk i ≠ 0) ∨ travt < t0 + w * critT thk vel v (Ico a (a + n)) := by
  induction n with
  | zero =>
    simp only [leg]
    exact ⟨by simp [critT], by simp [critX], fun i h1 h2 => by omega⟩
  | succ n ih =>
    simp only [leg]
    have sT : critT thk vel v (Ico a (a + (n + 1))) = critT thk vel v (Ico a (a + n)) +
        thk (a + n) / (vel (a + n) * Real.sqrt |1 - 1 / v * (1 / v) * vel (a + n) * vel (a + n)|) := by
      unfold critT; rw [← add_assoc, sum_Ico_succ_top (by omega)]
    have sX : critX thk vel v (Ico a (a + (n + 1))) = critX thk vel v (Ico a (a + n)) +
        thk (a + n) * (1 / v * vel (a + n)) / Real.sqrt |1 - 1 / v * (1 / v) * vel (a + n) * vel (a + n)| := by
      unfold critX; rw [← add_assoc, sum_Ico_succ_top (by omega)]
    have hvi := hv (a + n)
    have hhi := hh (a + n)
    have pT : 0 ≤ thk (a + n) / (vel (a + n) * Real.sqrt |1 - 1 / v * (1 / v) * vel (a + n) * vel (a + n)|) := by positivity
    have pX : 0 ≤ thk (a + n) * (1 / v * vel (a + n)) / Real.sqrt |1 - 1 / v * (1 / v) * vel (a + n) * vel (a + n)| := by positivity
    rw [sT, sX]
    generalize hl : leg thk vel v travt dist w a n (.ok t0 x0) = l at ih ⊢
    clear hl
    cases l with
    | bad =>
      rcases ih with ⟨i, i1, i2, i3⟩ | ih
      · exact .inl ⟨i, i1, by omega, i3⟩
      · exact .inr (by nlinarith)
    | over =>
      rcases ih with ⟨i, i1, i2, i3⟩ | ih
      · exact .inl ⟨i, i1, by omega, i3⟩
      · exact .inr (by nlinarith)
    | ok t x =>
      obtain ⟨e1, e2, e3⟩ := ih
      simp only [hop]
      by_cases hgt : vel (a + n) > v
      · rw [if_pos hgt]; exact .inl ⟨a + n, by omega, by omega, hgt.le⟩
      rw [if_neg hgt]
      by_cases hc : Real.sqrt |1 - 1 / v * (1 / v) * vel (a + n) * vel (a + n)| = 0
      · rw [if_pos hc]
        have heq : vel (a + n) = v := by
          by_contra hne
          have := (cosR hvi (lt_of_le_of_ne (not_lt.1 hgt) hne)).1
          linarith
        by_cases h0 : thk (a + n) = 0
        · rw [if_pos h0]; exact .inl ⟨a + n, by omega, by omega, heq.ge⟩
        · rw [if_neg h0]; exact .inl ⟨a + n, by omega, by omega, heq, h0⟩
      rw [if_neg hc]
      have hlt : vel (a + n) < v := by
        refine lt_of_le_of_ne (not_lt.1 hgt) fun heq => hc ?_
        rw [heq, show 1 - 1 / v * (1 / v) * v * v = 0 by field_simp; ring]
        simp
      have f1 : w * thk (a + n) / (vel (a + n) * Real.sqrt |1 - 1 / v * (1 / v) * vel (a + n) * vel (a + n)|) =
          w * (thk (a + n) / (vel (a + n) * Real.sqrt |1 - 1 / v * (1 / v) * vel (a + n) * vel (a + n)|)) := by ring
      have f2 : w * thk (a + n) * (1 / v) * vel (a + n) / Real.sqrt |1 - 1 / v * (1 / v) * vel (a + n) * vel (a + n)| =
          w * (thk (a + n) * (1 / v * vel (a + n)) / Real.sqrt |1 - 1 / v * (1 / v) * vel (a + n) * vel (a + n)|) := by ring
      rw [f1, f2]
      generalize thk (a + n) / (vel (a + n) * Real.sqrt |1 - 1 / v * (1 / v) * vel (a + n) * vel (a + n)|) = dT at *
      generalize thk (a + n) * (1 / v * vel (a + n)) / Real.sqrt |1 - 1 / v * (1 / v) * vel (a + n) * vel (a + n)| = dX at *
      by_cases ho : t + w * dT > travt
      · rw [if_pos ho]; exact .inr (by rw [e1] at ho; linarith)
      · rw [if_neg ho]
        by_cases ho2 : x + w * dX > dist
        · rw [if_pos ho2]; exact .inr (by rw [e2] at ho2; linarith)
        · rw [if_neg ho2]
          refine ⟨by rw [e1]; ring, by rw [e2]; ring, fun i i1 i2 => ?_⟩
          rcases Nat.lt_or_ge i (a + n) with hi | hi
          · exact e3 i i1 hi
          · obtain rfl : i = a + n := by omega
            exact hlt

theorem leg_stop {thk vel : ℕ → ℝ} {v travt dist w : ℝ} (a n : ℕ) :
    leg thk vel v travt dist w a n .bad = .bad ∧ leg thk vel v travt dist w a n .over = .over := by
  induction n with
  | zero => exact ⟨rfl, rfl⟩
  | succ n ih => simp [leg, ih.1, ih.2, hop]

/-- What one refractor does to the travel time. -/
theorem refract_spec {thk vel : ℕ → ℝ} {vmin vmax dist travt : ℝ} {imin imax m a b : ℕ} (hv : ∀ i, 0 < vel i) (hh : ∀ i, 0 ≤ thk i)
    (hi : imin ≤ imax) (hab : a ≤ b) (hmm : vmin ≤ vmax) :
    let r := refract thk vel vmin vmax dist imin imax m a b travt
    let T := critT thk vel (vel m) (Ico imin imax) + 2 * critT thk vel (vel m) (Ico a b)
    let X := critX thk vel (vel m) (Ico imin imax) + 2 * critX thk vel (vel m) (Ico a b)
    let slow := ∀ i, (imin ≤ i ∧ i < imax) ∨ (a ≤ i ∧ i < b) → vel i < vel m
    (r.1 = travt ∨ r.1 < travt ∧ r.2 = true ∧ thk m ≠ 0 ∧ slow ∧ X ≤ dist ∧ r.1 = T + (dist - X) / vel m) ∧
    (thk m ≠ 0 → vmax < vel m → slow → X ≤ dist → r.1 ≤ T + (dist - X) / vel m) ∧
    (r.2 = false → thk m ≠ 0 ∧ vmax < vel m ∧ r.1 = travt ∧
      ((∃ i, ((imin ≤ i ∧ i < imax) ∨ (a ≤ i ∧ i < b)) ∧ vel i = vel m ∧ thk i ≠ 0) ∨ travt < T)) := by
  intro r T X slow
  have hvm := hv m
  by_cases h0 : thk m = 0
  · have : r = (travt, true) := by simp only [r, refract]; rw [if_pos h0]
    rw [this]
    exact ⟨.inl rfl, fun h => absurd h0 h, fun h => by cases h⟩
  by_cases h1 : vmin ≥ vel m
  · have : r = (travt, true) := by simp only [r, refract]; rw [if_neg h0, if_pos h1]
    rw [this]
    exact ⟨.inl rfl, fun _ h => by linarith, fun h => by cases h⟩
  by_cases h2 : vmax ≥ vel m
  · have : r = (travt, true) := by simp only [r, refract]; rw [if_neg h0, if_neg h1, if_pos h2]
    rw [this]
    exact ⟨.inl rfl, fun _ h => by linarith, fun h => by cases h⟩
  have s1 := leg_spec (thk := thk) (vel := vel) (travt := travt) (dist := dist) (w := 1) (t0 := 0) (x0 := 0) (by norm_num) hv hh hvm imin (imax - imin)
  rw [show imin + (imax - imin) = imax by omega] at s1
  have hr : r = match leg thk vel (vel m) travt dist 2 a (b - a) (leg thk vel (vel m) travt dist 1 imin (imax - imin) (.ok 0 0)) with
      | .over => (travt, false)
      | .bad => (travt, true)
      | .ok sumt sumx =>
        if dist ≥ sumx then
          if sumt + (dist - sumx) / vel m < travt then (sumt + (dist - sumx) / vel m, true) else (travt, true)
        else (travt, true) := by
    change refract thk vel vmin vmax dist imin imax m a b travt = _
    unfold refract
    dsimp only
    rw [if_neg h0, if_neg h1, if_neg h2]
    rfl
  have cT := critT_nonneg (v := vel m) (s := Ico a b) hv hh
  have cX := critX_nonneg (s := Ico a b) hvm hv hh
  generalize hl1 : leg thk vel (vel m) travt dist 1 imin (imax - imin) (.ok 0 0) = l1 at s1 hr
  cases l1 with
  | bad =>
    rw [(leg_stop a (b - a)).1] at hr
    rw [hr]
    refine ⟨.inl rfl, fun _ _ hs hX => ?_, fun h => by cases h⟩
    rcases s1 with ⟨i, i1, i2, i3⟩ | s1
    · exact absurd (hs i (.inl ⟨i1, i2⟩)) (not_lt.2 i3)
    · simp only [X] at hX; linarith
  | over =>
    rw [(leg_stop a (b - a)).2] at hr
    rw [hr]
    refine ⟨.inl rfl, fun _ _ hs hX => ?_, fun _ => ⟨h0, not_le.1 h2, rfl, ?_⟩⟩
    · rcases s1 with ⟨i, i1, i2, i3, -⟩ | s1
      · exact absurd (hs i (.inl ⟨i1, i2⟩)) (by rw [i3]; exact lt_irrefl _)
      · have : 0 ≤ (dist - X) / vel m := div_nonneg (by linarith) hvm.le
        simp only [T]; linarith
    · rcases s1 with ⟨i, i1, i2, i3⟩ | s1
      · exact .inl ⟨i, .inl ⟨i1, i2⟩, i3⟩
      · exact .inr (by simp only [T]; linarith)
  | ok t x =>
    obtain ⟨e1, e2, e3⟩ := s1
    have s2 := leg_spec (thk := thk) (vel := vel) (travt := travt) (dist := dist) (w := 2) (t0 := t) (x0 := x) (by norm_num) hv hh hvm a (b - a)
    rw [show a + (b - a) = b by omega] at s2
    have eT : t + 2 * critT thk vel (vel m) (Ico a b) = T := by simp only [T]; rw [e1]; ring
    have eX : x + 2 * critX thk vel (vel m) (Ico a b) = X := by simp only [X]; rw [e2]; ring
    rw [eT, eX] at s2
    generalize hl2 : leg thk vel (vel m) travt dist 2 a (b - a) (.ok t x) = l2 at s2 hr
    cases l2 with
    | bad =>
      rw [hr]
      refine ⟨.inl rfl, fun _ _ hs hX => ?_, fun h => by cases h⟩
      rcases s2 with ⟨i, i1, i2, i3⟩ | s2
      · exact absurd (hs i (.inr ⟨i1, i2⟩)) (not_lt.2 i3)
      · linarith
    | over =>
      rw [hr]
      refine ⟨.inl rfl, fun _ _ hs hX => ?_, fun _ => ⟨h0, not_le.1 h2, rfl, ?_⟩⟩
      · rcases s2 with ⟨i, i1, i2, i3, -⟩ | s2
        · exact absurd (hs i (.inr ⟨i1, i2⟩)) (by rw [i3]; exact lt_irrefl _)
        · have : 0 ≤ (dist - X) / vel m := div_nonneg (by linarith) hvm.le
          linarith
      · rcases s2 with ⟨i, i1, i2, i3⟩ | s2
        · exact .inl ⟨i, .inr ⟨i1, i2⟩, i3⟩
        · exact .inr s2
    | ok t' x' =>
      obtain ⟨g1, g2, g3⟩ := s2
      subst g1; subst g2
      have hslow : slow := by
        rintro i (⟨i1, i2⟩ | ⟨i1, i2⟩)
        · exact e3 i i1 i2
        · exact g3 i i1 i2
      dsimp only at hr
      by_cases hd : dist ≥ X
      · rw [if_pos hd] at hr
        by_cases hlt : T + (dist - X) / vel m < travt
        · rw [if_pos hlt] at hr
          rw [hr]
          exact ⟨.inr ⟨hlt, rfl, h0, hslow, hd, rfl⟩, fun _ _ _ _ => le_rfl, fun h => by cases h⟩
        · rw [if_neg hlt] at hr
          rw [hr]
          exact ⟨.inl rfl, fun _ _ _ _ => not_lt.1 hlt, fun h => by cases h⟩
      · rw [if_neg hd] at hr
        rw [hr]
        exact ⟨.inl rfl, fun _ _ _ h => absurd h hd, fun h => by cases h⟩

/-- The critical ray against any other path along the refractor. -/
theorem crit_le {thk vel : ℕ → ℝ} {m : ℕ} {one two : Finset ℕ} {dist t : ℝ} (hv : ∀ i, 0 < vel i)
    (hs : ∀ i, i ∈ one ∨ i ∈ two → vel i < vel m) (hp : Path thk vel one two m dist t) :
    critT thk vel (vel m) one + 2 * critT thk vel (vel m) two +
      (dist - (critX thk vel (vel m) one + 2 * critX thk vel (vel m) two)) / vel m ≤ t := by
  obtain ⟨x, y, z, L, hL, hd, rfl⟩ := hp
  have hvm := hv m
  have key : ∀ s : Finset ℕ, (∀ i ∈ s, vel i < vel m) → ∀ x : ℕ → ℝ,
      critT thk vel (vel m) s ≤ crossTime thk vel s x + 1 / vel m * (critX thk vel (vel m) s - ∑ i ∈ s, x i) := by
    intro s hs x
    unfold critT critX crossTime
    rw [← sum_sub_distrib, mul_sum, ← sum_add_distrib]
    apply sum_le_sum
    intro i hi
    obtain ⟨c1, c2⟩ := cosR (hv i) (hs i hi)
    exact fermat (hv i) c1 c2
  have k1 := key one (fun i hi => hs i (.inl hi)) x
  have k2 := key two (fun i hi => hs i (.inr hi)) y
  have k3 := key two (fun i hi => hs i (.inr hi)) z
  have e : L = dist - ∑ i ∈ one, x i - ∑ i ∈ two, y i - ∑ i ∈ two, z i := by linarith
  rw [e]
  have e2 : ∀ u : ℝ, u / vel m = 1 / vel m * u := fun u => by ring
  rw [e2 (dist - (critX thk vel (vel m) one + _)), e2 (dist - _ - _ - _)]
  linarith

/-- The critical ray is a path. -/
theorem crit_path {thk vel : ℕ → ℝ} {m : ℕ} {one two : Finset ℕ} {dist : ℝ} (hv : ∀ i, 0 < vel i) (hh : ∀ i, 0 ≤ thk i)
    (hs : ∀ i, i ∈ one ∨ i ∈ two → vel i < vel m)
    (hX : critX thk vel (vel m) one + 2 * critX thk vel (vel m) two ≤ dist) :
    Path thk vel one two m dist (critT thk vel (vel m) one + 2 * critT thk vel (vel m) two +
      (dist - (critX thk vel (vel m) one + 2 * critX thk vel (vel m) two)) / vel m) := by
  have key : ∀ s : Finset ℕ, (∀ i ∈ s, vel i < vel m) →
      crossTime thk vel s (fun i => thk i * (1 / vel m * vel i) / Real.sqrt |1 - 1 / vel m * (1 / vel m) * vel i * vel i|)
        = critT thk vel (vel m) s := by
    intro s hs
    unfold critT crossTime
    refine sum_congr rfl fun i hi => ?_
    obtain ⟨c1, c2⟩ := cosR (hv i) (hs i hi)
    exact snell (hh i) (hv i) c1 c2
  let f : ℕ → ℝ := fun i => thk i * (1 / vel m * vel i) / Real.sqrt |1 - 1 / vel m * (1 / vel m) * vel i * vel i|
  refine ⟨f, f, f, _, sub_nonneg.2 hX, ?_, ?_⟩
  rotate_left
  · rw [key one (fun i hi => hs i (.inl hi)), key two (fun i hi => hs i (.inr hi))]; ring
  · change critX thk vel (vel m) one + critX thk vel (vel m) two + critX thk vel (vel m) two + _ = dist
    ring

end GRT.Travt
