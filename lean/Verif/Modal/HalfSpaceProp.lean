import Verif.Modal.HalfSpace
import Mathlib.Analysis.SpecialFunctions.Sqrt
import Mathlib.Topology.Order.IntermediateValue

/-!
# C118: the estimate of the Rayleigh velocity is the Rayleigh velocity
-/

namespace GRT.Modal.HalfSpace

open Real

/-- Rayleigh's equation: the velocity of the surface wave of a half-space. -/
structure IsRayleigh (vp vs c : ℝ) : Prop where
  pos : 0 < c
  lt : c < vs
  eq : (2 - (c / vs) ^ 2) ^ 2 = 4 * √(1 - (c / vs) ^ 2) * √(1 - (c / vp) ^ 2)

/-- The cubic whose root is the square of the velocity over that of shear waves. -/
noncomputable def cub (ξ x : ℝ) : ℝ := x ^ 3 - 8 * x ^ 2 + 8 * (3 - 2 * ξ) * x - 16 * (1 - ξ)

theorem gval_eq (ξ η : ℝ) : gval ξ η = cub ξ (η ^ 2) := by unfold gval cub; ring

theorem cub_lt {ξ x y : ℝ} (h : ξ ≤ 1 / 2) (hx : 0 < x ∧ x < 1) (hy : 0 ≤ y ∧ y ≤ 1) (h1 : cub ξ y < cub ξ x) : y < x := by
  by_contra hn
  push Not at hn
  have e : cub ξ y - cub ξ x = (y - x) * (x ^ 2 + x * y + y ^ 2 - 8 * (x + y) + 8 * (3 - 2 * ξ)) := by unfold cub; ring
  have : 0 ≤ (x ^ 2 + x * y + y ^ 2 - 8 * (x + y) + 8 * (3 - 2 * ξ)) := by nlinarith [mul_pos hx.1 hx.1, mul_nonneg hx.1.le hy.1, mul_nonneg hy.1 hy.1]
  nlinarith [mul_nonneg (sub_nonneg.2 hn) this]

theorem cub_gt {ξ x y : ℝ} (h : ξ ≤ 1 / 2) (hx : 0 < x ∧ x < 1) (hy : 0 ≤ y ∧ y ≤ 1) (h1 : cub ξ x < cub ξ y) : x < y := by
  by_contra hn
  push Not at hn
  have e : cub ξ x - cub ξ y = (x - y) * (x ^ 2 + x * y + y ^ 2 - 8 * (x + y) + 8 * (3 - 2 * ξ)) := by unfold cub; ring
  have : 0 ≤ (x ^ 2 + x * y + y ^ 2 - 8 * (x + y) + 8 * (3 - 2 * ξ)) := by nlinarith [mul_pos hx.1 hx.1, mul_nonneg hx.1.le hy.1, mul_nonneg hy.1 hy.1]
  nlinarith [mul_nonneg (sub_nonneg.2 hn) this]

/-- Rayleigh's equation is that of the cubic. -/
theorem rayleigh_iff {vp vs c : ℝ} (h0 : 0 < vs) (h1 : vs < vp) :
    IsRayleigh vp vs c ↔ 0 < c ∧ c < vs ∧ cub ((vs / vp) ^ 2) ((c / vs) ^ 2) = 0 := by
  have hvp : 0 < vp := h0.trans h1
  set ξ := (vs / vp) ^ 2 with hξ
  have hξ1 : ξ < 1 := by
    rw [hξ, sq_lt_one_iff₀ (by positivity), div_lt_one hvp]; exact h1
  have hξ0 : 0 < ξ := by positivity
  have key : ∀ c : ℝ, 0 < c → c < vs → ((2 - (c / vs) ^ 2) ^ 2 = 4 * √(1 - (c / vs) ^ 2) * √(1 - (c / vp) ^ 2) ↔ cub ξ ((c / vs) ^ 2) = 0) := by
    intro c hc hlt
    have e : (c / vp) ^ 2 = ξ * (c / vs) ^ 2 := by rw [hξ]; field_simp
    rw [e]
    have hx0 : 0 < (c / vs) ^ 2 := by positivity
    have hx1 : (c / vs) ^ 2 < 1 := by rw [sq_lt_one_iff₀ (by positivity), div_lt_one h0]; exact hlt
    generalize (c / vs) ^ 2 = x at hx0 hx1
    have a1 : 0 ≤ 1 - x := by linarith
    have a2 : 0 ≤ 1 - ξ * x := by nlinarith
    have s1 := Real.sq_sqrt a1
    have s2 := Real.sq_sqrt a2
    have p1 := Real.sqrt_nonneg (1 - x)
    have p2 := Real.sqrt_nonneg (1 - ξ * x)
    have id : ((2 - x) ^ 2) ^ 2 - (4 * √(1 - x) * √(1 - ξ * x)) ^ 2 = x * cub ξ x := by
      have : (4 * √(1 - x) * √(1 - ξ * x)) ^ 2 = 16 * (√(1 - x) ^ 2) * (√(1 - ξ * x) ^ 2) := by ring
      rw [this, s1, s2]; unfold cub; ring
    constructor
    · intro h
      rw [h, sub_self] at id
      rcases mul_eq_zero.1 id.symm with q | q
      · exact absurd q hx0.ne'
      · exact q
    · intro h
      rw [h, mul_zero, sub_eq_zero] at id
      exact (pow_left_inj₀ (by positivity) (by positivity) two_ne_zero).1 id
  constructor
  · intro h
    exact ⟨h.pos, h.lt, (key c h.pos h.lt).1 h.eq⟩
  · rintro ⟨a, b, d⟩
    exact ⟨a, b, (key c a b).2 d⟩

/-- There is one Rayleigh velocity, when Poisson's ratio is not negative. -/
theorem rayleigh_exists {vp vs : ℝ} (h0 : 0 < vs) (h1 : vs < vp) : ∃ c, IsRayleigh vp vs c := by
  have hvp : 0 < vp := h0.trans h1
  have hξ1 : (vs / vp) ^ 2 < 1 := by
    rw [sq_lt_one_iff₀ (by positivity), div_lt_one hvp]; exact h1
  have hc : ContinuousOn (fun x => cub ((vs / vp) ^ 2) (x ^ 2)) (Set.Icc 0 1) := by
    unfold cub
    exact Continuous.continuousOn (by fun_prop)
  have hm : (0 : ℝ) ∈ Set.Ioo (cub ((vs / vp) ^ 2) (0 ^ 2)) (cub ((vs / vp) ^ 2) (1 ^ 2)) := by
    constructor
    · unfold cub; nlinarith
    · unfold cub; nlinarith
  obtain ⟨η, ⟨ha, hb⟩, he⟩ := intermediate_value_Ioo zero_le_one hc hm
  refine ⟨η * vs, (rayleigh_iff h0 h1).2 ⟨by positivity, by nlinarith, ?_⟩⟩
  rw [mul_div_assoc, div_self h0.ne', mul_one]
  exact he

/-- What remains after a step of the iteration is of second order. -/
theorem step_err {ξ ρ η : ℝ} (hρ : gval ξ ρ = 0) (hd : gder ξ η ≠ 0) :
    ρ - (η - gval ξ η / gder ξ η) = (ρ - η) ^ 2 *
      (8 * (3 * η ^ 2 + 2 * η * ρ + ρ ^ 2) - (5 * η ^ 4 + 4 * η ^ 3 * ρ + 3 * η ^ 2 * ρ ^ 2 + 2 * η * ρ ^ 3 + ρ ^ 4) - 8 * (3 - 2 * ξ)) / gder ξ η := by
  rw [eq_div_iff hd, sub_sub_eq_add_sub, sub_mul, add_mul, div_mul_cancel₀ _ hd]
  rw [show gval ξ η = gval ξ η - gval ξ ρ by rw [hρ, sub_zero]]
  unfold gder gval
  ring

/-- The iteration near the root: with a bound `K` on the factor of the error. -/
theorem newton_conv {ξ ρ K δ δ' : ℝ} (hK : 0 < K) (hδ : K * δ ^ 2 ≤ δ') (hδ' : δ' ≤ δ) (h2 : K * δ ≤ 1 / 2)
    (hd : ∀ η, ρ - δ ≤ η → η ≤ ρ + δ' → 1e-10 ≤ |gder ξ η|)
    (hs : ∀ η, ρ - δ ≤ η → η ≤ ρ + δ' → |ρ - (η - gval ξ η / gder ξ η)| ≤ K * (ρ - η) ^ 2) :
    ∀ (n : ℕ) (t η : ℝ), ρ - δ ≤ η → η ≤ ρ + δ' → K * |ρ - η| ≤ t →
      |ρ - newton ξ n η| ≤ 2e-8 ∨ K * |ρ - newton ξ n η| ≤ t ^ (2 ^ n) := by
  intro n
  induction n with
  | zero =>
    intro t η _ _ h
    right
    simpa [newton] using h
  | succ n ih =>
    intro t η h3 h4 h
    have hd' := hd η h3 h4
    have hs' := hs η h3 h4
    have hab : |ρ - η| ≤ δ := by
      rw [abs_le]; constructor <;> linarith
    have habs : (ρ - η) ^ 2 = |ρ - η| ^ 2 := (sq_abs _).symm
    rw [newton, if_neg (not_lt.2 hd')]
    split_ifs with hc
    · left
      have q1 : |ρ - η| ≤ |ρ - (η - gval ξ η / gder ξ η)| + |η - gval ξ η / gder ξ η - η| := by
        calc |ρ - η| = |(ρ - (η - gval ξ η / gder ξ η)) + (η - gval ξ η / gder ξ η - η)| := by congr 1; ring
          _ ≤ _ := abs_add_le _ _
      have q2 : K * (ρ - η) ^ 2 ≤ |ρ - η| / 2 := by
        rw [habs]
        have := abs_nonneg (ρ - η)
        nlinarith [mul_le_mul_of_nonneg_left hab hK.le]
      norm_num at hc hs' q1 q2 ⊢
      linarith
    · have ht : 0 ≤ K * |ρ - η| := by positivity
      have q3 : K * |ρ - (η - gval ξ η / gder ξ η)| ≤ t ^ 2 := by
        calc K * |ρ - (η - gval ξ η / gder ξ η)| ≤ K * (K * (ρ - η) ^ 2) := mul_le_mul_of_nonneg_left hs' hK.le
          _ = (K * |ρ - η|) ^ 2 := by rw [habs]; ring
          _ ≤ t ^ 2 := pow_le_pow_left₀ ht h 2
      have q4 : |ρ - (η - gval ξ η / gder ξ η)| ≤ δ' := by
        refine hs'.trans (le_trans ?_ hδ)
        rw [habs]
        exact mul_le_mul_of_nonneg_left (pow_le_pow_left₀ (abs_nonneg _) hab 2) hK.le
      rw [abs_le] at q4
      have := ih (t ^ 2) (η - gval ξ η / gder ξ η) (by linarith) (by linarith) q3
      rwa [← pow_mul, ← pow_succ'] at this

/-- The iteration ends within 2e-8 of the root when it is started near it. -/
theorem newton_close {ξ ρ K δ δ' : ℝ} (hK : 1 ≤ K) (hδ : K * δ ^ 2 ≤ δ') (hδ' : δ' ≤ δ) (h2 : K * δ ≤ 1 / 2)
    (hd : ∀ η, ρ - δ ≤ η → η ≤ ρ + δ' → 1e-10 ≤ |gder ξ η|)
    (hs : ∀ η, ρ - δ ≤ η → η ≤ ρ + δ' → |ρ - (η - gval ξ η / gder ξ η)| ≤ K * (ρ - η) ^ 2)
    {n : ℕ} (hn : 8 ≤ n) {η : ℝ} (h3 : ρ - δ ≤ η) (h4 : η ≤ ρ + δ') : |ρ - newton ξ n η| ≤ 2e-8 := by
  have hab : |ρ - η| ≤ δ := by
    rw [abs_le]; constructor <;> linarith
  rcases newton_conv (by linarith) hδ hδ' h2 hd hs n (1 / 2) η h3 h4 ((mul_le_mul_of_nonneg_left hab (by linarith)).trans h2) with h | h
  · exact h
  · have a : |ρ - newton ξ n η| ≤ K * |ρ - newton ξ n η| := le_mul_of_one_le_left (abs_nonneg _) hK
    have b : ((1 : ℝ) / 2) ^ (2 ^ n) ≤ (1 / 2) ^ (2 ^ 8) := by
      apply pow_le_pow_of_le_one (by norm_num) (by norm_num)
      exact Nat.pow_le_pow_right (by norm_num) hn
    have c : ((1 : ℝ) / 2) ^ (2 ^ 8) ≤ 2e-8 := by norm_num
    linarith

/-- The bound on the error of a step from bounds on the derivative and on the factor of second order. -/
theorem step_bound {ξ ρ η m M : ℝ} (hρ : gval ξ ρ = 0) (hm : 0 < m) (hd : m ≤ gder ξ η)
    (h1 : 8 * (3 * η ^ 2 + 2 * η * ρ + ρ ^ 2) - (5 * η ^ 4 + 4 * η ^ 3 * ρ + 3 * η ^ 2 * ρ ^ 2 + 2 * η * ρ ^ 3 + ρ ^ 4) - 8 * (3 - 2 * ξ) ≤ M)
    (h2 : -M ≤ 8 * (3 * η ^ 2 + 2 * η * ρ + ρ ^ 2) - (5 * η ^ 4 + 4 * η ^ 3 * ρ + 3 * η ^ 2 * ρ ^ 2 + 2 * η * ρ ^ 3 + ρ ^ 4) - 8 * (3 - 2 * ξ)) :
    |ρ - (η - gval ξ η / gder ξ η)| ≤ M / m * (ρ - η) ^ 2 := by
  have hp : 0 < gder ξ η := hm.trans_le hd
  rw [step_err hρ hp.ne', abs_div, abs_mul, abs_of_nonneg (sq_nonneg (ρ - η)), abs_of_pos hp, div_mul_eq_mul_div, mul_comm M]
  have hM : 0 ≤ M := by linarith
  exact div_le_div₀ (by positivity) (mul_le_mul_of_nonneg_left (abs_le.2 ⟨h2, h1⟩) (sq_nonneg _)) hm hd

/-- Started at 0.9: `Vp > √6 Vs`. -/
theorem close_high {ξ ρ : ℝ} (h0 : 0 ≤ ξ) (h1 : ξ < 1 / 6) (r0 : 0 < ρ) (r1 : ρ < 1) (hρ : gval ξ ρ = 0) :
    |ρ - newton ξ 10 (etaStart ξ)| ≤ 2e-8 := by
  have hs : etaStart ξ = 0.9 := by
    unfold etaStart
    rw [if_neg]
    push Not
    linarith
  have hx : (0 : ℝ) < ρ ^ 2 ∧ ρ ^ 2 < 1 := ⟨by positivity, by nlinarith⟩
  rw [gval_eq] at hρ
  have r2 : 0.9 < ρ := by
    have := cub_lt (ξ := ξ) (x := ρ ^ 2) (y := 0.81) (by linarith) hx (by norm_num) (by rw [hρ]; unfold cub; norm_num; linarith)
    norm_num at this ⊢
    nlinarith
  rw [← gval_eq] at hρ
  have bd : ∀ η, ρ - 0.1 ≤ η → η ≤ ρ + 0.1 → 13 ≤ gder ξ η := by
    intro η q1 q2
    norm_num at r2 q1 q2
    have : 4 / 5 ≤ η := by linarith
    have : η ≤ 11 / 10 := by linarith
    have e2 : η ^ 2 ≤ 121 / 100 := by nlinarith
    have : 25 / 2 ≤ 6 * η ^ 4 - 32 * η ^ 2 + 16 * (3 - 2 * ξ) := by nlinarith
    unfold gder
    by_cases q : η ≤ 1
    · have e3 : η ^ 2 ≤ 1 := by nlinarith
      have : 16.5 ≤ 6 * η ^ 4 - 32 * η ^ 2 + 16 * (3 - 2 * ξ) := by nlinarith
      norm_num at this
      nlinarith
    · nlinarith
  rw [hs]
  refine newton_close (K := 27 / 13) (δ := 0.1) (δ' := 0.1) (by norm_num) (by norm_num) (by norm_num) (by norm_num) ?_ ?_ (by norm_num)
    (by norm_num; linarith) (by norm_num at r2 ⊢; linarith)
  · intro η q1 q2
    refine le_trans ?_ ((bd η q1 q2).trans (le_abs_self _))
    norm_num
  · intro η q1 q2
    refine step_bound hρ (by norm_num) (bd η q1 q2) ?_ ?_
    all_goals
      norm_num at r2 q1 q2
      have a1 : 4 / 5 ≤ η := by linarith
      have a2 : η ≤ 11 / 10 := by linarith
      have t1 : η ^ 2 ≤ 121 / 100 := by nlinarith
      have t0 : 16 / 25 ≤ η ^ 2 := by nlinarith
      have s1 : ρ ^ 2 ≤ 1 := by nlinarith
      have s0 : 81 / 100 ≤ ρ ^ 2 := by nlinarith
      have w1 : η * ρ ≤ 11 / 10 := by nlinarith
      have w0 : 18 / 25 ≤ η * ρ := by nlinarith
      have e : 8 * (3 * η ^ 2 + 2 * η * ρ + ρ ^ 2) - (5 * η ^ 4 + 4 * η ^ 3 * ρ + 3 * η ^ 2 * ρ ^ 2 + 2 * η * ρ ^ 3 + ρ ^ 4) - 8 * (3 - 2 * ξ) =
        η ^ 2 * (24 - 5 * η ^ 2 - 3 * ρ ^ 2) + η * ρ * (16 - 2 * ρ ^ 2 - 4 * η ^ 2) + ρ ^ 2 * (8 - ρ ^ 2) - 8 * (3 - 2 * ξ) := by ring
      rw [e]
      generalize η * ρ = w at *
      generalize η ^ 2 = t at *
      generalize ρ ^ 2 = r at *
      nlinarith [mul_nonneg (sub_nonneg.2 t0) (sub_nonneg.2 t1), mul_nonneg (sub_nonneg.2 s0) (sub_nonneg.2 s1),
        mul_nonneg (sub_nonneg.2 t0) (sub_nonneg.2 s0), mul_nonneg (sub_nonneg.2 t1) (sub_nonneg.2 s1),
        mul_nonneg (sub_nonneg.2 w0) (sub_nonneg.2 s0), mul_nonneg (sub_nonneg.2 w0) (sub_nonneg.2 t0),
        mul_nonneg (sub_nonneg.2 w0) (sub_nonneg.2 s1), mul_nonneg (sub_nonneg.2 w0) (sub_nonneg.2 t1)]

/-- The first step of the iteration, when Vp is between √2 and 2 times Vs. -/
theorem first_low {p : ℝ} (ha : 1039 / 1000 ≤ p) (hp : p ≤ 1273 / 1000) {ξ : ℝ} (hξ : ξ = ((16 - 200 / 27 * p ^ 2) ^ 2 + 32) / 192) :
    4 ≤ gder ξ p ∧ 0.52 ≤ p - gval ξ p / gder ξ p ∧ p - gval ξ p / gder ξ p ≤ 0.79 := by
  have hb : ∀ i j : ℕ, 0 ≤ (p - 1039 / 1000) ^ i * (1273 / 1000 - p) ^ j := fun i j =>
    mul_nonneg (pow_nonneg (sub_nonneg.2 ha) _) (pow_nonneg (sub_nonneg.2 hp) _)
  have h1 : 4 ≤ gder ξ p := by
    rw [hξ]; unfold gder
    linarith [hb 0 5, hb 1 4, hb 2 3, hb 3 2, hb 4 1, hb 5 0]
  have h2 : gval ξ p ≤ (p - 52 / 100) * gder ξ p := by
    rw [hξ]; unfold gder gval
    linarith [hb 0 6, hb 1 5, hb 2 4, hb 3 3, hb 4 2, hb 5 1, hb 6 0]
  have h3 : (p - 79 / 100) * gder ξ p ≤ gval ξ p := by
    rw [hξ]; unfold gder gval
    linarith [hb 0 6, hb 1 5, hb 2 4, hb 3 3, hb 4 2, hb 5 1, hb 6 0]
  have h0 : 0 < gder ξ p := by linarith
  rw [← div_le_iff₀ h0] at h2
  rw [← le_div_iff₀ h0] at h3
  refine ⟨h1, ?_, ?_⟩ <;> norm_num <;> linarith

/-- The first step of the iteration, when Vp is a little smaller than √6 times Vs. -/
theorem first_bad {p : ℝ} (ha : 1446 / 1000 ≤ p) (hp : p ≤ 147 / 100) {ξ : ℝ} (hξ : ξ = ((16 - 200 / 27 * p ^ 2) ^ 2 + 32) / 192) :
    2 ≤ gder ξ p ∧ -1.05 ≤ p - gval ξ p / gder ξ p ∧ p - gval ξ p / gder ξ p ≤ -0.45 := by
  have hb : ∀ i j : ℕ, 0 ≤ (p - 1446 / 1000) ^ i * (147 / 100 - p) ^ j := fun i j =>
    mul_nonneg (pow_nonneg (sub_nonneg.2 ha) _) (pow_nonneg (sub_nonneg.2 hp) _)
  have h1 : 2 ≤ gder ξ p := by
    rw [hξ]; unfold gder
    linarith [hb 0 5, hb 1 4, hb 2 3, hb 3 2, hb 4 1, hb 5 0]
  have h2 : gval ξ p ≤ (p + 105 / 100) * gder ξ p := by
    rw [hξ]; unfold gder gval
    linarith [hb 0 6, hb 1 5, hb 2 4, hb 3 3, hb 4 2, hb 5 1, hb 6 0]
  have h3 : (p + 45 / 100) * gder ξ p ≤ gval ξ p := by
    rw [hξ]; unfold gder gval
    linarith [hb 0 6, hb 1 5, hb 2 4, hb 3 3, hb 4 2, hb 5 1, hb 6 0]
  have h0 : 0 < gder ξ p := by linarith
  rw [← div_le_iff₀ h0] at h2
  rw [← le_div_iff₀ h0] at h3
  refine ⟨h1, ?_, ?_⟩ <;> norm_num <;> linarith

/-- The later steps stay where they are. -/
theorem step_inv {ξ s : ℝ} (h0 : 1 / 6 ≤ ξ) (h1 : ξ ≤ 168 / 1000) (ha : 45 / 100 ≤ s) (hs : s ≤ 105 / 100) :
    45 / 100 ≤ s - gval ξ s / gder ξ s ∧ s - gval ξ s / gder ξ s ≤ 105 / 100 := by
  have hb : ∀ i j : ℕ, 0 ≤ (s - 45 / 100) ^ i * (105 / 100 - s) ^ j * (ξ - 1 / 6) := fun i j =>
    mul_nonneg (mul_nonneg (pow_nonneg (sub_nonneg.2 ha) _) (pow_nonneg (sub_nonneg.2 hs) _)) (sub_nonneg.2 h0)
  have hc : ∀ i j : ℕ, 0 ≤ (s - 45 / 100) ^ i * (105 / 100 - s) ^ j * (168 / 1000 - ξ) := fun i j =>
    mul_nonneg (mul_nonneg (pow_nonneg (sub_nonneg.2 ha) _) (pow_nonneg (sub_nonneg.2 hs) _)) (sub_nonneg.2 h1)
  have hp : ∀ i j : ℕ, 0 ≤ (s - 45 / 100) ^ i * (105 / 100 - s) ^ j := fun i j =>
    mul_nonneg (pow_nonneg (sub_nonneg.2 ha) _) (pow_nonneg (sub_nonneg.2 hs) _)
  have k1 : 1 ≤ gder ξ s := by
    unfold gder
    linarith [hb 0 5, hb 1 4, hb 2 3, hb 3 2, hb 4 1, hb 5 0, hc 0 5, hc 1 4, hc 2 3, hc 3 2, hc 4 1, hc 5 0, hp 0 5, hp 1 4, hp 2 3, hp 3 2, hp 4 1, hp 5 0]
  have k2 : gval ξ s ≤ (s - 45 / 100) * gder ξ s := by
    unfold gder gval
    linarith [hb 0 6, hb 1 5, hb 2 4, hb 3 3, hb 4 2, hb 5 1, hb 6 0, hc 0 6, hc 1 5, hc 2 4, hc 3 3, hc 4 2, hc 5 1, hc 6 0, hp 0 6, hp 1 5, hp 2 4, hp 3 3, hp 4 2, hp 5 1, hp 6 0]
  have k3 : (s - 105 / 100) * gder ξ s ≤ gval ξ s := by
    unfold gder gval
    linarith [hb 0 6, hb 1 5, hb 2 4, hb 3 3, hb 4 2, hb 5 1, hb 6 0, hc 0 6, hc 1 5, hc 2 4, hc 3 3, hc 4 2, hc 5 1, hc 6 0, hp 0 6, hp 1 5, hp 2 4, hp 3 3, hp 4 2, hp 5 1, hp 6 0]
  have k0 : 0 < gder ξ s := by linarith
  rw [← div_le_iff₀ k0] at k2
  rw [← le_div_iff₀ k0] at k3
  constructor <;> linarith

theorem gval_neg (ξ η : ℝ) : gval ξ (-η) = gval ξ η := by unfold gval; ring
theorem gder_neg (ξ η : ℝ) : gder ξ (-η) = -gder ξ η := by unfold gder; ring

theorem newton_neg {ξ : ℝ} (h0 : 1 / 6 ≤ ξ) (h1 : ξ ≤ 168 / 1000) (n : ℕ) : ∀ η, -1.05 ≤ η → η ≤ -0.45 → newton ξ n η ≤ -0.45 := by
  induction n with
  | zero => intro η _ h; exact h
  | succ n ih =>
    intro η q1 q2
    have := step_inv h0 h1 (s := -η) (by norm_num at q2 ⊢; linarith) (by norm_num at q1 ⊢; linarith)
    rw [gval_neg, gder_neg, div_neg] at this
    rw [newton]
    split_ifs
    · exact q2
    · exact q2
    · apply ih <;> norm_num <;> linarith [this.1, this.2]

/-- The start as the variable of the iteration. -/
theorem start_eq {ξ : ℝ} (h0 : 1 / 6 ≤ ξ) (h1 : ξ < 3 / 4) :
    0 ≤ etaStart ξ ∧ ∃ q, 0 ≤ q ∧ q ^ 2 = 192 * ξ - 32 ∧ etaStart ξ ^ 2 = 27 / 200 * (16 - q) ∧ ξ = ((16 - 200 / 27 * etaStart ξ ^ 2) ^ 2 + 32) / 192 := by
  have e : etaStart ξ = √((16 - √(192 * ξ - 32)) / 6) * 0.9 := by
    unfold etaStart
    rw [if_pos (by norm_num; linarith)]
    congr 4
    · ring_nf
    · norm_num
  have hq := Real.sq_sqrt (show 0 ≤ 192 * ξ - 32 by linarith)
  have hq0 := Real.sqrt_nonneg (192 * ξ - 32)
  have hq1 : √(192 * ξ - 32) ≤ 11 := by nlinarith
  have e2 : etaStart ξ ^ 2 = 27 / 200 * (16 - √(192 * ξ - 32)) := by
    rw [e, mul_pow, Real.sq_sqrt (by linarith)]; ring
  refine ⟨by rw [e]; positivity, _, hq0, hq, e2, ?_⟩
  rw [e2]
  have : (16 - 200 / 27 * (27 / 200 * (16 - √(192 * ξ - 32)))) = √(192 * ξ - 32) := by ring
  rw [this, hq]; ring

/-- The result for `√6 > Vp/Vs ≥ 2.44`. -/
theorem newton_bad {ξ : ℝ} (h0 : 1 / 6 ≤ ξ) (h1 : ξ ≤ 168 / 1000) : newton ξ 10 (etaStart ξ) ≤ -0.45 := by
  obtain ⟨p0, q, q0, q2, e, hξ⟩ := start_eq h0 (by linarith)
  generalize etaStart ξ = p at *
  have q3 : q ≤ 51 / 100 := by nlinarith
  have a1 : 1446 / 1000 ≤ p := by nlinarith
  have a2 : p ≤ 147 / 100 := by nlinarith
  obtain ⟨b1, b2, b3⟩ := first_bad a1 a2 hξ
  rw [newton, if_neg (by rw [abs_of_pos (by linarith)]; push Not; refine le_trans ?_ b1; norm_num), if_neg]
  · exact newton_neg h0 h1 9 _ b2 b3
  · push Not
    refine le_trans ?_ (neg_le_abs _)
    norm_num at b3 ⊢
    linarith

/-- Bounds on the factor of second order from bounds on `η`. -/
theorem second {ξ ρ η a b L M : ℝ} (h0 : 1 / 4 ≤ ξ) (h1 : ξ ≤ 1 / 2) (r0 : 87 / 100 ≤ ρ) (r1 : ρ ≤ 934 / 1000) (ha : 0 ≤ a) (hb : b ≤ 1)
    (e0 : a ≤ η) (e1 : η ≤ b) (hL : L ≤ a ^ 2 * (24 - 5 * a ^ 2 - 3 * 0.873) + a * 0.87 * (16 - 2 * 0.873 - 4 * b ^ 2) + 5.47 - 20)
    (hM : b ^ 2 * (24 - 5 * b ^ 2 - 3 * 0.756) + b * 0.934 * (16 - 2 * 0.756 - 4 * a ^ 2) + 6.23 - 16 ≤ M) :
    L ≤ 8 * (3 * η ^ 2 + 2 * η * ρ + ρ ^ 2) - (5 * η ^ 4 + 4 * η ^ 3 * ρ + 3 * η ^ 2 * ρ ^ 2 + 2 * η * ρ ^ 3 + ρ ^ 4) - 8 * (3 - 2 * ξ) ∧
    8 * (3 * η ^ 2 + 2 * η * ρ + ρ ^ 2) - (5 * η ^ 4 + 4 * η ^ 3 * ρ + 3 * η ^ 2 * ρ ^ 2 + 2 * η * ρ ^ 3 + ρ ^ 4) - 8 * (3 - 2 * ξ) ≤ M := by
  have e : 8 * (3 * η ^ 2 + 2 * η * ρ + ρ ^ 2) - (5 * η ^ 4 + 4 * η ^ 3 * ρ + 3 * η ^ 2 * ρ ^ 2 + 2 * η * ρ ^ 3 + ρ ^ 4) - 8 * (3 - 2 * ξ) =
    η ^ 2 * (24 - 5 * η ^ 2 - 3 * ρ ^ 2) + η * ρ * (16 - 2 * ρ ^ 2 - 4 * η ^ 2) + ρ ^ 2 * (8 - ρ ^ 2) - 8 * (3 - 2 * ξ) := by ring
  rw [e]
  have t0 : a ^ 2 ≤ η ^ 2 := pow_le_pow_left₀ ha e0 2
  have t1 : η ^ 2 ≤ b ^ 2 := pow_le_pow_left₀ (ha.trans e0) e1 2
  have b0 : 0 ≤ b := by linarith
  have tb : b ^ 2 ≤ 1 := by nlinarith
  have s0 : 0.756 ≤ ρ ^ 2 := by norm_num; nlinarith
  have s1 : ρ ^ 2 ≤ 0.873 := by norm_num; nlinarith
  have w0 : a * 0.87 ≤ η * ρ := mul_le_mul e0 (by norm_num; linarith) (by norm_num) (by linarith)
  have w1 : η * ρ ≤ b * 0.934 := mul_le_mul e1 (by norm_num; linarith) (by linarith) b0
  have z0 : 0 ≤ a * 0.87 := by positivity
  have ta : 0 ≤ a ^ 2 := by positivity
  generalize η * ρ = w at *
  generalize η ^ 2 = t at *
  generalize ρ ^ 2 = r at *
  generalize a ^ 2 = x at *
  generalize b ^ 2 = y at *
  generalize a * 0.87 = u at *
  generalize b * 0.934 = v at *
  norm_num at s0 s1 hL hM
  have c1 : x * (24 - 5 * x - 3 * (873 / 1000)) ≤ t * (24 - 5 * t - 3 * r) := by
    nlinarith [mul_nonneg (ta.trans t0) (sub_nonneg.2 s1), mul_nonneg (sub_nonneg.2 t0) (show 0 ≤ 21.381 - 5 * (t + x) by norm_num; linarith)]
  have c2 : t * (24 - 5 * t - 3 * r) ≤ y * (24 - 5 * y - 3 * (189 / 250)) := by
    nlinarith [mul_nonneg (ta.trans t0) (sub_nonneg.2 s0), mul_nonneg (sub_nonneg.2 t1) (show 0 ≤ 21.732 - 5 * (t + y) by norm_num; linarith)]
  have c3 : u * (16 - 2 * (873 / 1000) - 4 * y) ≤ w * (16 - 2 * r - 4 * t) :=
    mul_le_mul w0 (by linarith) (by linarith) (by linarith)
  have c4 : w * (16 - 2 * r - 4 * t) ≤ v * (16 - 2 * (189 / 250) - 4 * x) :=
    mul_le_mul w1 (by linarith) (by linarith) (by linarith)
  have c5 : 5.47 ≤ r * (8 - r) := by norm_num; nlinarith
  have c6 : r * (8 - r) ≤ 6.23 := by norm_num; nlinarith
  norm_num at c5 c6
  constructor <;> linarith

theorem der_low {ξ η : ℝ} (h1 : ξ ≤ 1 / 2) (h0 : 0 ≤ η) {m : ℝ} (h : m ≤ η * (6 * η ^ 4 - 32 * η ^ 2 + 32)) : m ≤ gder ξ η := by
  refine h.trans ?_
  unfold gder
  exact mul_le_mul_of_nonneg_left (by linarith) h0

/-- The second step of the iteration, when Vp is between √2 and 2 times Vs. -/
theorem second_low {ξ ρ η : ℝ} (h0 : 1 / 4 ≤ ξ) (h1 : ξ ≤ 1 / 2) (r0 : 87 / 100 ≤ ρ) (r1 : ρ ≤ 934 / 1000) (hρ : gval ξ ρ = 0)
    (e0 : 52 / 100 ≤ η) (e1 : η ≤ 79 / 100) :
    10 ≤ gder ξ η ∧ -0.06 ≤ ρ - (η - gval ξ η / gder ξ η) ∧ ρ - (η - gval ξ η / gder ξ η) ≤ 0.12 ∧ η + 0.01 ≤ η - gval ξ η / gder ξ η := by
  have fin : ∀ d L M : ℝ, 10 ≤ d → d ≤ gder ξ η → L ≤ 0 → 0 ≤ M → L ≤ 8 * (3 * η ^ 2 + 2 * η * ρ + ρ ^ 2) - (5 * η ^ 4 + 4 * η ^ 3 * ρ + 3 * η ^ 2 * ρ ^ 2 + 2 * η * ρ ^ 3 + ρ ^ 4) - 8 * (3 - 2 * ξ) → 8 * (3 * η ^ 2 + 2 * η * ρ + ρ ^ 2) - (5 * η ^ 4 + 4 * η ^ 3 * ρ + 3 * η ^ 2 * ρ ^ 2 + 2 * η * ρ ^ 3 + ρ ^ 4) - 8 * (3 - 2 * ξ) ≤ M →
      -0.06 * d ≤ (ρ - η) ^ 2 * L → (ρ - η) ^ 2 * M ≤ 0.12 * d → (ρ - η) * M ≤ 0.5 * d →
      10 ≤ gder ξ η ∧ -0.06 ≤ ρ - (η - gval ξ η / gder ξ η) ∧ ρ - (η - gval ξ η / gder ξ η) ≤ 0.12 ∧ η + 0.01 ≤ η - gval ξ η / gder ξ η := by
    intro d L M hd hdg hL hM q1 q2 q3 q4 q5
    have hp : 0 < gder ξ η := by linarith
    have es := step_err hρ hp.ne'
    generalize 8 * (3 * η ^ 2 + 2 * η * ρ + ρ ^ 2) - (5 * η ^ 4 + 4 * η ^ 3 * ρ + 3 * η ^ 2 * ρ ^ 2 + 2 * η * ρ ^ 3 + ρ ^ 4) - 8 * (3 - 2 * ξ) = X at *
    have z : 0 ≤ (ρ - η) ^ 2 := sq_nonneg _
    have k1 : -0.06 ≤ (ρ - η) ^ 2 * X / gder ξ η := by
      rw [le_div_iff₀ hp]
      norm_num at q3 ⊢
      nlinarith [mul_le_mul_of_nonneg_left q1 z]
    have k2 : (ρ - η) ^ 2 * X / gder ξ η ≤ 0.12 := by
      rw [div_le_iff₀ hp]
      norm_num at q4 ⊢
      nlinarith [mul_le_mul_of_nonneg_left q2 z]
    have k3 : (ρ - η) ^ 2 * X / gder ξ η ≤ (ρ - η) / 2 := by
      rw [div_le_iff₀ hp]
      norm_num at q5 ⊢
      have : 0 ≤ ρ - η := by linarith
      nlinarith [mul_le_mul_of_nonneg_left q2 z, mul_le_mul_of_nonneg_left q5 this]
    rw [← es] at k1 k2 k3
    refine ⟨by linarith, k1, k2, ?_⟩
    norm_num
    linarith
  have sq1 : (ρ - η) ^ 2 ≤ (0.414 : ℝ) ^ 2 := pow_le_pow_left₀ (by linarith) (by norm_num; linarith) 2
  rcases le_total η (65 / 100) with q | q
  · have hd : 12 ≤ gder ξ η := by
      apply der_low h1 (by linarith)
      have hb : ∀ i j : ℕ, 0 ≤ (η - 52 / 100) ^ i * (65 / 100 - η) ^ j := fun i j =>
        mul_nonneg (pow_nonneg (sub_nonneg.2 e0) _) (pow_nonneg (sub_nonneg.2 q) _)
      linarith [hb 0 5, hb 1 4, hb 2 3, hb 3 2, hb 4 1, hb 5 0]
    obtain ⟨f1, f2⟩ := second (L := -3.6) (M := 6.8) h0 h1 r0 r1 (a := 52 / 100) (b := 65 / 100) (by norm_num) (by norm_num) e0 q (by norm_num) (by norm_num)
    refine fin 12 _ _ (by norm_num) hd (by norm_num) (by norm_num) f1 f2 ?_ ?_ ?_ <;> norm_num at sq1 ⊢ <;> linarith
  · have hd : 11 ≤ gder ξ η := by
      apply der_low h1 (by linarith)
      have hb : ∀ i j : ℕ, 0 ≤ (η - 65 / 100) ^ i * (79 / 100 - η) ^ j := fun i j =>
        mul_nonneg (pow_nonneg (sub_nonneg.2 q) _) (pow_nonneg (sub_nonneg.2 e1) _)
      linarith [hb 0 5, hb 1 4, hb 2 3, hb 3 2, hb 4 1, hb 5 0]
    have sq2 : (ρ - η) ^ 2 ≤ (0.284 : ℝ) ^ 2 := pow_le_pow_left₀ (by linarith) (by norm_num; linarith) 2
    obtain ⟨f1, f2⟩ := second (L := -1) (M := 11.6) h0 h1 r0 r1 (a := 65 / 100) (b := 79 / 100) (by norm_num) (by norm_num) q e1 (by norm_num) (by norm_num)
    refine fin 11 _ _ (by norm_num) hd (by norm_num) (by norm_num) f1 f2 ?_ ?_ ?_ <;> norm_num at sq2 ⊢ <;> linarith

/-- Started near the maximum of the cubic: Vp between √2 and 2 times Vs. -/
theorem close_low {ξ ρ : ℝ} (h0 : 1 / 4 ≤ ξ) (h1 : ξ ≤ 1 / 2) (r0 : 0 < ρ) (r1 : ρ < 1) (hρ : gval ξ ρ = 0) :
    |ρ - newton ξ 10 (etaStart ξ)| ≤ 2e-8 := by
  have hx : (0 : ℝ) < ρ ^ 2 ∧ ρ ^ 2 < 1 := ⟨by positivity, by nlinarith⟩
  have c0 := hρ
  rw [gval_eq] at c0
  have r2 : 87 / 100 ≤ ρ := by
    have := cub_lt (ξ := ξ) (x := ρ ^ 2) (y := (87 / 100) ^ 2) h1 hx (by norm_num) (by rw [c0]; unfold cub; norm_num; linarith)
    exact (lt_of_pow_lt_pow_left₀ 2 r0.le this).le
  have r3 : ρ ≤ 934 / 1000 := by
    have := cub_gt (ξ := ξ) (x := ρ ^ 2) (y := (934 / 1000) ^ 2) h1 hx (by norm_num) (by rw [c0]; unfold cub; norm_num; linarith)
    exact (lt_of_pow_lt_pow_left₀ 2 (by norm_num) this).le
  obtain ⟨p0, q, q0, q2, e, hξ⟩ := start_eq (by linarith) (by linarith : ξ < 3 / 4)
  generalize etaStart ξ = p at *
  have q3 : q ≤ 8 := by nlinarith
  have q4 : 4 ≤ q := by nlinarith
  have a1 : 1039 / 1000 ≤ p := by nlinarith
  have a2 : p ≤ 1273 / 1000 := by nlinarith
  obtain ⟨b1, b2, b3⟩ := first_low a1 a2 hξ
  rw [newton, if_neg (by rw [abs_of_pos (by linarith)]; push Not; refine le_trans ?_ b1; norm_num), if_neg]
  swap
  · push Not
    refine le_trans ?_ (neg_le_abs _)
    norm_num at b3 ⊢
    linarith
  generalize p - gval ξ p / gder ξ p = η at b2 b3
  norm_num at b2 b3
  obtain ⟨d1, d2, d3, d4⟩ := second_low h0 h1 r2 r3 hρ (by linarith) b3
  rw [newton, if_neg (by rw [abs_of_pos (by linarith)]; push Not; refine le_trans ?_ d1; norm_num), if_neg]
  swap
  · push Not
    refine le_trans ?_ (le_abs_self _)
    norm_num at d4 ⊢
    linarith
  generalize η - gval ξ η / gder ξ η = ν at d2 d3
  have bd : ∀ η, ρ - 0.12 ≤ η → η ≤ ρ + 0.06 → 6 ≤ gder ξ η := by
    intro η q1 q2
    norm_num at q1 q2
    have x0 : 75 / 100 ≤ η := by linarith
    have x1 : η ≤ 994 / 1000 := by linarith
    apply der_low h1 (by linarith)
    have hb : ∀ i j : ℕ, 0 ≤ (η - 75 / 100) ^ i * (994 / 1000 - η) ^ j := fun i j =>
      mul_nonneg (pow_nonneg (sub_nonneg.2 x0) _) (pow_nonneg (sub_nonneg.2 x1) _)
    linarith [hb 0 5, hb 1 4, hb 2 3, hb 3 2, hb 4 1, hb 5 0]
  refine newton_close (K := 18.6 / 6) (δ := 0.12) (δ' := 0.06) (by norm_num) (by norm_num) (by norm_num) (by norm_num) ?_ ?_ le_rfl
    (by linarith) (by linarith)
  · intro η q1 q2
    refine le_trans ?_ ((bd η q1 q2).trans (le_abs_self _))
    norm_num
  · intro η q1 q2
    have b := bd η q1 q2
    norm_num at q1 q2
    obtain ⟨f1, f2⟩ := second (η := η) (L := -18.6) (M := 18.6) h0 h1 r2 r3 (a := 75 / 100) (b := 994 / 1000) (by norm_num) (by norm_num) (by linarith)
      (by linarith) (by norm_num) (by norm_num)
    exact step_bound hρ (by norm_num) b f2 f1

/-- **C118** (in part): the estimate is within 2e-8 Vs of the one Rayleigh velocity of the half-space, when Vp is between √2 and 2 times Vs, or
above √6 times.  What is missing is false: see `C118_violated`. -/
theorem C118_partial {vp vs : ℝ} (h0 : 0 < vs) (h : √2 * vs ≤ vp ∧ vp ≤ 2 * vs ∨ √6 * vs < vp) :
    ∃ c, (∀ d, IsRayleigh vp vs d ↔ d = c) ∧ |croot vp vs - c| ≤ 2e-8 * vs := by
  have s2 := Real.sq_sqrt (show (0 : ℝ) ≤ 2 by norm_num)
  have s6 := Real.sq_sqrt (show (0 : ℝ) ≤ 6 by norm_num)
  have n2 := Real.sqrt_nonneg 2
  have n6 := Real.sqrt_nonneg 6
  have hlt : vs < vp := by
    rcases h with ⟨a, -⟩ | a
    · have : 1 < √2 := by nlinarith
      nlinarith
    · have : 1 < √6 := by nlinarith
      nlinarith
  have hvp : 0 < vp := h0.trans hlt
  have hξ : (vs / vp) ^ 2 * vp ^ 2 = vs ^ 2 := by field_simp
  have hξ0 : 0 ≤ (vs / vp) ^ 2 := by positivity
  have hv2 : 0 < vp ^ 2 := by positivity
  have hle : (vs / vp) ^ 2 ≤ 1 / 2 := by
    rw [div_pow, div_le_iff₀ hv2]
    rcases h with ⟨a, -⟩ | a
    · have := pow_le_pow_left₀ (by positivity) a 2
      rw [mul_pow, s2] at this; linarith
    · have := pow_le_pow_left₀ (by positivity) a.le 2
      rw [mul_pow, s6] at this; nlinarith
  have near : ∀ c, IsRayleigh vp vs c → |croot vp vs - c| ≤ 2e-8 * vs := by
    intro c hc
    obtain ⟨c0, c1, c2⟩ := (rayleigh_iff h0 hlt).1 hc
    have ρ0 : 0 < c / vs := by positivity
    have ρ1 : c / vs < 1 := (div_lt_one h0).2 c1
    rw [← gval_eq] at c2
    have key : |c / vs - newton ((vs / vp) ^ 2) 10 (etaStart ((vs / vp) ^ 2))| ≤ 2e-8 := by
      rcases h with ⟨-, b⟩ | a
      · refine close_low ?_ hle ρ0 ρ1 c2
        rw [div_pow, le_div_iff₀ hv2]
        nlinarith
      · refine close_high hξ0 ?_ ρ0 ρ1 c2
        have := pow_lt_pow_left₀ a (by positivity) two_ne_zero
        rw [mul_pow, s6] at this
        rw [div_pow, div_lt_iff₀ hv2]; linarith
    have e : croot vp vs - c = -((c / vs - newton ((vs / vp) ^ 2) 10 (etaStart ((vs / vp) ^ 2))) * vs) := by
      rw [sub_mul, div_mul_cancel₀ _ h0.ne']; unfold croot; ring
    rw [e, abs_neg, abs_mul, abs_of_pos h0]
    exact mul_le_mul_of_nonneg_right key h0.le
  obtain ⟨c, hc⟩ := rayleigh_exists h0 hlt
  refine ⟨c, fun d => ⟨fun hd => ?_, fun q => q ▸ hc⟩, near c hc⟩
  obtain ⟨c0, c1, c2⟩ := (rayleigh_iff h0 hlt).1 hc
  obtain ⟨d0, d1, d2⟩ := (rayleigh_iff h0 hlt).1 hd
  have uc : 0 < (c / vs) ^ 2 ∧ (c / vs) ^ 2 < 1 := ⟨by positivity, by rw [sq_lt_one_iff₀ (by positivity), div_lt_one h0]; exact c1⟩
  have ud : 0 < (d / vs) ^ 2 ∧ (d / vs) ^ 2 < 1 := ⟨by positivity, by rw [sq_lt_one_iff₀ (by positivity), div_lt_one h0]; exact d1⟩
  have e : (d / vs) ^ 2 = (c / vs) ^ 2 := by
    generalize (c / vs) ^ 2 = x at *
    generalize (d / vs) ^ 2 = y at *
    generalize (vs / vp) ^ 2 = ξ at *
    have e : (y - x) * (x ^ 2 + x * y + y ^ 2 - 8 * (x + y) + 8 * (3 - 2 * ξ)) = 0 := by
      have : cub ξ y - cub ξ x = 0 := by rw [c2, d2, sub_zero]
      rw [← this]; unfold cub; ring
    rcases mul_eq_zero.1 e with q | q
    · linarith
    · nlinarith [mul_pos uc.1 uc.1, mul_pos uc.1 ud.1, mul_pos ud.1 ud.1]
  have := (pow_left_inj₀ (by positivity) (by positivity) two_ne_zero).1 e
  field_simp at this
  exact this

/-- Granite: Vp 5.8 km/s, Vs 3.4 km/s. -/
example : ∃ c, (∀ d, IsRayleigh 5.8 3.4 d ↔ d = c) ∧ |croot 5.8 3.4 - c| ≤ 2e-8 * 3.4 := by
  apply C118_partial (by norm_num)
  left
  have s2 := Real.sq_sqrt (show (0 : ℝ) ≤ 2 by norm_num)
  have : √2 < 1.42 := by
    rw [Real.sqrt_lt' (by norm_num)]; norm_num
  norm_num at this ⊢
  linarith

/-- **C118** is violated: when Vp is between 2.44 and √6 times Vs (Poisson's ratio just below 0.4, as in soft sediments) the iteration runs
to the mirror image of the root, and the velocity from which the search starts is negative. -/
theorem C118_violated {vp vs : ℝ} (h0 : 0 < vs) (h1 : 2.44 * vs ≤ vp) (h2 : vp ≤ √6 * vs) : croot vp vs ≤ -0.45 * vs := by
  have s6 := Real.sq_sqrt (show (0 : ℝ) ≤ 6 by norm_num)
  have n6 := Real.sqrt_nonneg 6
  norm_num at h1
  have hvp : 0 < vp := by linarith
  have hv2 : 0 < vp ^ 2 := by positivity
  unfold croot
  refine mul_le_mul_of_nonneg_right (newton_bad ?_ ?_) h0.le
  · have := pow_le_pow_left₀ hvp.le h2 2
    rw [mul_pow, s6] at this
    rw [div_pow, le_div_iff₀ hv2]; linarith
  · rw [div_pow, div_le_iff₀ hv2]
    nlinarith

/-- While there is a Rayleigh wave, which the estimate misses by more than Vs/2. -/
theorem C118_violated_far {vp vs : ℝ} (h0 : 0 < vs) (h1 : 2.44 * vs ≤ vp) (h2 : vp ≤ √6 * vs) :
    ∃ c, IsRayleigh vp vs c ∧ c - croot vp vs > 0.45 * vs := by
  obtain ⟨c, hc⟩ := rayleigh_exists h0 (by norm_num at h1; linarith : vs < vp)
  refine ⟨c, hc, ?_⟩
  have := C118_violated h0 h1 h2
  have := hc.pos
  norm_num at *
  linarith

/-- A clay: Vp 1.22 km/s, Vs 0.5 km/s. -/
example : croot 1.22 0.5 < 0 := by
  have := C118_violated (vp := 1.22) (vs := 0.5) (by norm_num) (by norm_num) (by
    have : (2.44 : ℝ) ≤ √6 := by
      rw [Real.le_sqrt' (by norm_num)]; norm_num
    norm_num at this ⊢
    linarith)
  norm_num at *
  linarith

end GRT.Modal.HalfSpace
