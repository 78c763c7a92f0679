import Verif.Okada.PointF
import Mathlib.Topology.Order.Compact
import Mathlib.Topology.Algebra.Order.LiminfLimsup
import Mathlib.Topology.MetricSpace.ProperSpace.Real

/-! Okada point sources: the displacement falls off with the square of the distance. -/

namespace GRT.Okada

theorem rr_scale {t : ℝ} (ht : 0 < t) (x y d : ℝ) : rr (t * x) (t * y) (t * d) = t * rr x y d := by
  unfold rr
  rw [show t * x * (t * x) + t * y * (t * y) + t * d * (t * d) = t ^ 2 * (x * x + y * y + d * d) by ring, Real.sqrt_mul (by positivity),
    Real.sqrt_sq ht.le]

theorem rho_scale {t : ℝ} (ht : 0 < t) (x y d : ℝ) : rho (t * x) (t * y) (t * d) = t⁻¹ * rho x y d := by
  have e := rr_scale ht x y d
  unfold rr at e
  rw [rho, e, mul_inv, rho]

theorem tau_scale {t : ℝ} (ht : 0 < t) (x y d : ℝ) : tau (t * x) (t * y) (t * d) = t⁻¹ * tau x y d := by
  rw [tau, rr_scale ht, ← mul_add, mul_inv, tau]

/-- A function of degree -2 that is continuous on a cone is bounded by a multiple of one over the square of the distance. -/
theorem cone_bound (K : ℝ → ℝ → Prop) (kc : IsClosed {q : ℝ × ℝ | K q.1 q.2}) (ks : ∀ t d z, 0 < t → K d z → K (t * d) (t * z))
    (kb : ∀ d z, K d z → |z| ≤ |d|) (f : ℝ → ℝ → ℝ → ℝ → ℝ)
    (hf : ContinuousOn (fun q : ℝ × ℝ × ℝ × ℝ => f q.1 q.2.1 q.2.2.1 q.2.2.2)
      {q | q.1 * q.1 + q.2.1 * q.2.1 + q.2.2.1 * q.2.2.1 = 1 ∧ K q.2.2.1 q.2.2.2})
    (hs : ∀ t x y d z, 0 < t → f (t * x) (t * y) (t * d) (t * z) = t⁻¹ * t⁻¹ * f x y d z) :
    ∃ C, ∀ x y d z, x * x + y * y + d * d ≠ 0 → K d z → |f x y d z| ≤ C * (rho x y d * rho x y d) := by
  have hc : IsCompact {q : ℝ × ℝ × ℝ × ℝ | q.1 * q.1 + q.2.1 * q.2.1 + q.2.2.1 * q.2.2.1 = 1 ∧ K q.2.2.1 q.2.2.2} := by
    refine IsCompact.of_isClosed_subset (isCompact_Icc (a := ((-1, -1, -1, -1) : ℝ × ℝ × ℝ × ℝ)) (b := (1, 1, 1, 1))) ?_ ?_
    · refine IsClosed.and (isClosed_eq (by fun_prop) (by fun_prop)) ?_
      exact kc.preimage (f := fun q : ℝ × ℝ × ℝ × ℝ => (q.2.2.1, q.2.2.2)) (by fun_prop)
    · rintro ⟨x, y, d, z⟩ ⟨h1, h2⟩
      dsimp only at h1 h2
      have a1 : |x| ≤ 1 := abs_le_one_iff_mul_self_le_one.2 (by nlinarith [mul_self_nonneg y, mul_self_nonneg d])
      have a2 : |y| ≤ 1 := abs_le_one_iff_mul_self_le_one.2 (by nlinarith [mul_self_nonneg x, mul_self_nonneg d])
      have a3 : |d| ≤ 1 := abs_le_one_iff_mul_self_le_one.2 (by nlinarith [mul_self_nonneg y, mul_self_nonneg x])
      have a4 : |z| ≤ 1 := (kb d z h2).trans a3
      rw [abs_le] at a1 a2 a3 a4
      exact ⟨⟨a1.1, a2.1, a3.1, a4.1⟩, ⟨a1.2, a2.2, a3.2, a4.2⟩⟩
  obtain ⟨C, hC⟩ := hc.exists_bound_of_continuousOn hf
  refine ⟨C, fun x y d z h k => ?_⟩
  have p : 0 < x * x + y * y + d * d := lt_of_le_of_ne
    (by nlinarith [mul_self_nonneg x, mul_self_nonneg y, mul_self_nonneg d]) h.symm
  have t0 : 0 < rho x y d := inv_pos.2 (Real.sqrt_pos.2 p)
  have e := rho_rel h
  have b := hC (rho x y d * x, rho x y d * y, rho x y d * d, rho x y d * z) ⟨by linear_combination e, ks _ _ _ t0 k⟩
  dsimp only at b
  rw [hs _ _ _ _ _ t0, Real.norm_eq_abs, abs_mul, abs_of_pos (by positivity)] at b
  generalize rho x y d = ρ at *
  have : |f x y d z| = ρ⁻¹ * ρ⁻¹ * |f x y d z| * (ρ * ρ) := by field_simp
  rw [this]
  exact mul_le_mul_of_nonneg_right b (by positivity)

/-- Shows continuity of sums and products. -/
macro "hcont" : tactic => `(tactic|
  repeat (first
    | exact continuousOn_const
    | with_reducible assumption
    | with_reducible apply ContinuousOn.fun_add
    | with_reducible apply ContinuousOn.fun_sub
    | with_reducible apply ContinuousOn.fun_neg
    | apply ContinuousOn.fun_mul))

theorem rr_cont : Continuous (fun q : ℝ × ℝ × ℝ × ℝ => rr q.1 q.2.1 q.2.2.1) := by
  unfold rr
  fun_prop

theorem rho_cont (K : ℝ → ℝ → Prop) : ContinuousOn (fun q : ℝ × ℝ × ℝ × ℝ => rho q.1 q.2.1 q.2.2.1)
    {q | q.1 * q.1 + q.2.1 * q.2.1 + q.2.2.1 * q.2.2.1 = 1 ∧ K q.2.2.1 q.2.2.2} := by
  refine rr_cont.continuousOn.inv₀ ?_
  rintro ⟨x, y, d, z⟩ ⟨h1, -⟩
  dsimp only at h1 ⊢
  simp [rr, h1]

theorem tau_cont (K : ℝ → ℝ → Prop) (kp : ∀ d z, K d z → 0 ≤ d) : ContinuousOn (fun q : ℝ × ℝ × ℝ × ℝ => tau q.1 q.2.1 q.2.2.1)
    {q | q.1 * q.1 + q.2.1 * q.2.1 + q.2.2.1 * q.2.2.1 = 1 ∧ K q.2.2.1 q.2.2.2} := by
  refine (rr_cont.continuousOn.add (by fun_prop)).inv₀ ?_
  rintro ⟨x, y, d, z⟩ ⟨h1, h2⟩
  have := kp d z h2
  dsimp only [Pi.add_apply] at h1 ⊢
  simp only [rr, h1, Real.sqrt_one]
  positivity

theorem realDec_1_0 (al sd cd : ℝ) : ∃ C, ∀ x y d : ℝ, x * x + y * y + d * d ≠ 0 →
    |(UA0_1 (medOf al sd cd) (ptOf (medOf al sd cd) x y d)).u0| ≤ C * (rho x y d * rho x y d) := by
  refine (cone_bound (fun _ z => z = 0) (isClosed_eq continuous_snd continuous_const) (fun t d z _ h => by rw [h, mul_zero]) (fun d z h => by rw [h, abs_zero]; exact abs_nonneg d)
    (fun x y d _ => (UA0_1 (medOf al sd cd) (ptOf (medOf al sd cd) x y d)).u0) ?_ ?_).imp (fun C hC x y d h => hC x y d 0 h rfl)
  · simp only [UA0_1, ptOf, medOf, div_eq_mul_inv, mul_inv, rho_sq, rho_def]
    try simp only [rr_def, tau_def]
    have r := rho_cont (fun _ z => z = 0)
    skip
    have s := (rr_cont).continuousOn (s := {q | q.1 * q.1 + q.2.1 * q.2.1 + q.2.2.1 * q.2.2.1 = 1 ∧ q.2.2.2 = 0})
    have v1 : ContinuousOn (fun q : ℝ × ℝ × ℝ × ℝ => q.1) {q | q.1 * q.1 + q.2.1 * q.2.1 + q.2.2.1 * q.2.2.1 = 1 ∧ q.2.2.2 = 0} := by fun_prop
    have v2 : ContinuousOn (fun q : ℝ × ℝ × ℝ × ℝ => q.2.1) {q | q.1 * q.1 + q.2.1 * q.2.1 + q.2.2.1 * q.2.2.1 = 1 ∧ q.2.2.2 = 0} := by fun_prop
    have v3 : ContinuousOn (fun q : ℝ × ℝ × ℝ × ℝ => q.2.2.1) {q | q.1 * q.1 + q.2.1 * q.2.1 + q.2.2.1 * q.2.2.1 = 1 ∧ q.2.2.2 = 0} := by fun_prop
    have v4 : ContinuousOn (fun q : ℝ × ℝ × ℝ × ℝ => q.2.2.2) {q | q.1 * q.1 + q.2.1 * q.2.1 + q.2.2.1 * q.2.2.1 = 1 ∧ q.2.2.2 = 0} := by fun_prop
    hcont
  · intro t x y d z ht
    have e := mul_inv_cancel₀ ht.ne'
    simp only [UA0_1, ptOf, medOf, div_eq_mul_inv, mul_inv, rho_sq, rho_def]
    try simp only [rr_def, tau_def]
    simp only [rr_scale ht, rho_scale ht, tau_scale ht]
    generalize t⁻¹ = ti at *
    generalize rho x y d = ρ
    generalize rr x y d = r
    generalize tau x y d = τ
    grind

theorem realDec_1_1 (al sd cd : ℝ) : ∃ C, ∀ x y d : ℝ, x * x + y * y + d * d ≠ 0 →
    |(UA0_1 (medOf al sd cd) (ptOf (medOf al sd cd) x y d)).u1| ≤ C * (rho x y d * rho x y d) := by
  refine (cone_bound (fun _ z => z = 0) (isClosed_eq continuous_snd continuous_const) (fun t d z _ h => by rw [h, mul_zero]) (fun d z h => by rw [h, abs_zero]; exact abs_nonneg d)
    (fun x y d _ => (UA0_1 (medOf al sd cd) (ptOf (medOf al sd cd) x y d)).u1) ?_ ?_).imp (fun C hC x y d h => hC x y d 0 h rfl)
  · simp only [UA0_1, ptOf, medOf, div_eq_mul_inv, mul_inv, rho_sq, rho_def]
    try simp only [rr_def, tau_def]
    have r := rho_cont (fun _ z => z = 0)
    skip
    have s := (rr_cont).continuousOn (s := {q | q.1 * q.1 + q.2.1 * q.2.1 + q.2.2.1 * q.2.2.1 = 1 ∧ q.2.2.2 = 0})
    have v1 : ContinuousOn (fun q : ℝ × ℝ × ℝ × ℝ => q.1) {q | q.1 * q.1 + q.2.1 * q.2.1 + q.2.2.1 * q.2.2.1 = 1 ∧ q.2.2.2 = 0} := by fun_prop
    have v2 : ContinuousOn (fun q : ℝ × ℝ × ℝ × ℝ => q.2.1) {q | q.1 * q.1 + q.2.1 * q.2.1 + q.2.2.1 * q.2.2.1 = 1 ∧ q.2.2.2 = 0} := by fun_prop
    have v3 : ContinuousOn (fun q : ℝ × ℝ × ℝ × ℝ => q.2.2.1) {q | q.1 * q.1 + q.2.1 * q.2.1 + q.2.2.1 * q.2.2.1 = 1 ∧ q.2.2.2 = 0} := by fun_prop
    have v4 : ContinuousOn (fun q : ℝ × ℝ × ℝ × ℝ => q.2.2.2) {q | q.1 * q.1 + q.2.1 * q.2.1 + q.2.2.1 * q.2.2.1 = 1 ∧ q.2.2.2 = 0} := by fun_prop
    hcont
  · intro t x y d z ht
    have e := mul_inv_cancel₀ ht.ne'
    simp only [UA0_1, ptOf, medOf, div_eq_mul_inv, mul_inv, rho_sq, rho_def]
    try simp only [rr_def, tau_def]
    simp only [rr_scale ht, rho_scale ht, tau_scale ht]
    generalize t⁻¹ = ti at *
    generalize rho x y d = ρ
    generalize rr x y d = r
    generalize tau x y d = τ
    grind

theorem realDec_1_2 (al sd cd : ℝ) : ∃ C, ∀ x y d : ℝ, x * x + y * y + d * d ≠ 0 →
    |(UA0_1 (medOf al sd cd) (ptOf (medOf al sd cd) x y d)).u2| ≤ C * (rho x y d * rho x y d) := by
  refine (cone_bound (fun _ z => z = 0) (isClosed_eq continuous_snd continuous_const) (fun t d z _ h => by rw [h, mul_zero]) (fun d z h => by rw [h, abs_zero]; exact abs_nonneg d)
    (fun x y d _ => (UA0_1 (medOf al sd cd) (ptOf (medOf al sd cd) x y d)).u2) ?_ ?_).imp (fun C hC x y d h => hC x y d 0 h rfl)
  · simp only [UA0_1, ptOf, medOf, div_eq_mul_inv, mul_inv, rho_sq, rho_def]
    try simp only [rr_def, tau_def]
    have r := rho_cont (fun _ z => z = 0)
    skip
    have s := (rr_cont).continuousOn (s := {q | q.1 * q.1 + q.2.1 * q.2.1 + q.2.2.1 * q.2.2.1 = 1 ∧ q.2.2.2 = 0})
    have v1 : ContinuousOn (fun q : ℝ × ℝ × ℝ × ℝ => q.1) {q | q.1 * q.1 + q.2.1 * q.2.1 + q.2.2.1 * q.2.2.1 = 1 ∧ q.2.2.2 = 0} := by fun_prop
    have v2 : ContinuousOn (fun q : ℝ × ℝ × ℝ × ℝ => q.2.1) {q | q.1 * q.1 + q.2.1 * q.2.1 + q.2.2.1 * q.2.2.1 = 1 ∧ q.2.2.2 = 0} := by fun_prop
    have v3 : ContinuousOn (fun q : ℝ × ℝ × ℝ × ℝ => q.2.2.1) {q | q.1 * q.1 + q.2.1 * q.2.1 + q.2.2.1 * q.2.2.1 = 1 ∧ q.2.2.2 = 0} := by fun_prop
    have v4 : ContinuousOn (fun q : ℝ × ℝ × ℝ × ℝ => q.2.2.2) {q | q.1 * q.1 + q.2.1 * q.2.1 + q.2.2.1 * q.2.2.1 = 1 ∧ q.2.2.2 = 0} := by fun_prop
    hcont
  · intro t x y d z ht
    have e := mul_inv_cancel₀ ht.ne'
    simp only [UA0_1, ptOf, medOf, div_eq_mul_inv, mul_inv, rho_sq, rho_def]
    try simp only [rr_def, tau_def]
    simp only [rr_scale ht, rho_scale ht, tau_scale ht]
    generalize t⁻¹ = ti at *
    generalize rho x y d = ρ
    generalize rr x y d = r
    generalize tau x y d = τ
    grind

theorem realDec_2_0 (al sd cd : ℝ) : ∃ C, ∀ x y d : ℝ, x * x + y * y + d * d ≠ 0 →
    |(UA0_2 (medOf al sd cd) (ptOf (medOf al sd cd) x y d)).u0| ≤ C * (rho x y d * rho x y d) := by
  refine (cone_bound (fun _ z => z = 0) (isClosed_eq continuous_snd continuous_const) (fun t d z _ h => by rw [h, mul_zero]) (fun d z h => by rw [h, abs_zero]; exact abs_nonneg d)
    (fun x y d _ => (UA0_2 (medOf al sd cd) (ptOf (medOf al sd cd) x y d)).u0) ?_ ?_).imp (fun C hC x y d h => hC x y d 0 h rfl)
  · simp only [UA0_2, ptOf, medOf, div_eq_mul_inv, mul_inv, rho_sq, rho_def]
    try simp only [rr_def, tau_def]
    have r := rho_cont (fun _ z => z = 0)
    skip
    have s := (rr_cont).continuousOn (s := {q | q.1 * q.1 + q.2.1 * q.2.1 + q.2.2.1 * q.2.2.1 = 1 ∧ q.2.2.2 = 0})
    have v1 : ContinuousOn (fun q : ℝ × ℝ × ℝ × ℝ => q.1) {q | q.1 * q.1 + q.2.1 * q.2.1 + q.2.2.1 * q.2.2.1 = 1 ∧ q.2.2.2 = 0} := by fun_prop
    have v2 : ContinuousOn (fun q : ℝ × ℝ × ℝ × ℝ => q.2.1) {q | q.1 * q.1 + q.2.1 * q.2.1 + q.2.2.1 * q.2.2.1 = 1 ∧ q.2.2.2 = 0} := by fun_prop
    have v3 : ContinuousOn (fun q : ℝ × ℝ × ℝ × ℝ => q.2.2.1) {q | q.1 * q.1 + q.2.1 * q.2.1 + q.2.2.1 * q.2.2.1 = 1 ∧ q.2.2.2 = 0} := by fun_prop
    have v4 : ContinuousOn (fun q : ℝ × ℝ × ℝ × ℝ => q.2.2.2) {q | q.1 * q.1 + q.2.1 * q.2.1 + q.2.2.1 * q.2.2.1 = 1 ∧ q.2.2.2 = 0} := by fun_prop
    hcont
  · intro t x y d z ht
    have e := mul_inv_cancel₀ ht.ne'
    simp only [UA0_2, ptOf, medOf, div_eq_mul_inv, mul_inv, rho_sq, rho_def]
    try simp only [rr_def, tau_def]
    simp only [rr_scale ht, rho_scale ht, tau_scale ht]
    generalize t⁻¹ = ti at *
    generalize rho x y d = ρ
    generalize rr x y d = r
    generalize tau x y d = τ
    grind

theorem realDec_2_1 (al sd cd : ℝ) : ∃ C, ∀ x y d : ℝ, x * x + y * y + d * d ≠ 0 →
    |(UA0_2 (medOf al sd cd) (ptOf (medOf al sd cd) x y d)).u1| ≤ C * (rho x y d * rho x y d) := by
  refine (cone_bound (fun _ z => z = 0) (isClosed_eq continuous_snd continuous_const) (fun t d z _ h => by rw [h, mul_zero]) (fun d z h => by rw [h, abs_zero]; exact abs_nonneg d)
    (fun x y d _ => (UA0_2 (medOf al sd cd) (ptOf (medOf al sd cd) x y d)).u1) ?_ ?_).imp (fun C hC x y d h => hC x y d 0 h rfl)
  · simp only [UA0_2, ptOf, medOf, div_eq_mul_inv, mul_inv, rho_sq, rho_def]
    try simp only [rr_def, tau_def]
    have r := rho_cont (fun _ z => z = 0)
    skip
    have s := (rr_cont).continuousOn (s := {q | q.1 * q.1 + q.2.1 * q.2.1 + q.2.2.1 * q.2.2.1 = 1 ∧ q.2.2.2 = 0})
    have v1 : ContinuousOn (fun q : ℝ × ℝ × ℝ × ℝ => q.1) {q | q.1 * q.1 + q.2.1 * q.2.1 + q.2.2.1 * q.2.2.1 = 1 ∧ q.2.2.2 = 0} := by fun_prop
    have v2 : ContinuousOn (fun q : ℝ × ℝ × ℝ × ℝ => q.2.1) {q | q.1 * q.1 + q.2.1 * q.2.1 + q.2.2.1 * q.2.2.1 = 1 ∧ q.2.2.2 = 0} := by fun_prop
    have v3 : ContinuousOn (fun q : ℝ × ℝ × ℝ × ℝ => q.2.2.1) {q | q.1 * q.1 + q.2.1 * q.2.1 + q.2.2.1 * q.2.2.1 = 1 ∧ q.2.2.2 = 0} := by fun_prop
    have v4 : ContinuousOn (fun q : ℝ × ℝ × ℝ × ℝ => q.2.2.2) {q | q.1 * q.1 + q.2.1 * q.2.1 + q.2.2.1 * q.2.2.1 = 1 ∧ q.2.2.2 = 0} := by fun_prop
    hcont
  · intro t x y d z ht
    have e := mul_inv_cancel₀ ht.ne'
    simp only [UA0_2, ptOf, medOf, div_eq_mul_inv, mul_inv, rho_sq, rho_def]
    try simp only [rr_def, tau_def]
    simp only [rr_scale ht, rho_scale ht, tau_scale ht]
    generalize t⁻¹ = ti at *
    generalize rho x y d = ρ
    generalize rr x y d = r
    generalize tau x y d = τ
    grind

theorem realDec_2_2 (al sd cd : ℝ) : ∃ C, ∀ x y d : ℝ, x * x + y * y + d * d ≠ 0 →
    |(UA0_2 (medOf al sd cd) (ptOf (medOf al sd cd) x y d)).u2| ≤ C * (rho x y d * rho x y d) := by
  refine (cone_bound (fun _ z => z = 0) (isClosed_eq continuous_snd continuous_const) (fun t d z _ h => by rw [h, mul_zero]) (fun d z h => by rw [h, abs_zero]; exact abs_nonneg d)
    (fun x y d _ => (UA0_2 (medOf al sd cd) (ptOf (medOf al sd cd) x y d)).u2) ?_ ?_).imp (fun C hC x y d h => hC x y d 0 h rfl)
  · simp only [UA0_2, ptOf, medOf, div_eq_mul_inv, mul_inv, rho_sq, rho_def]
    try simp only [rr_def, tau_def]
    have r := rho_cont (fun _ z => z = 0)
    skip
    have s := (rr_cont).continuousOn (s := {q | q.1 * q.1 + q.2.1 * q.2.1 + q.2.2.1 * q.2.2.1 = 1 ∧ q.2.2.2 = 0})
    have v1 : ContinuousOn (fun q : ℝ × ℝ × ℝ × ℝ => q.1) {q | q.1 * q.1 + q.2.1 * q.2.1 + q.2.2.1 * q.2.2.1 = 1 ∧ q.2.2.2 = 0} := by fun_prop
    have v2 : ContinuousOn (fun q : ℝ × ℝ × ℝ × ℝ => q.2.1) {q | q.1 * q.1 + q.2.1 * q.2.1 + q.2.2.1 * q.2.2.1 = 1 ∧ q.2.2.2 = 0} := by fun_prop
    have v3 : ContinuousOn (fun q : ℝ × ℝ × ℝ × ℝ => q.2.2.1) {q | q.1 * q.1 + q.2.1 * q.2.1 + q.2.2.1 * q.2.2.1 = 1 ∧ q.2.2.2 = 0} := by fun_prop
    have v4 : ContinuousOn (fun q : ℝ × ℝ × ℝ × ℝ => q.2.2.2) {q | q.1 * q.1 + q.2.1 * q.2.1 + q.2.2.1 * q.2.2.1 = 1 ∧ q.2.2.2 = 0} := by fun_prop
    hcont
  · intro t x y d z ht
    have e := mul_inv_cancel₀ ht.ne'
    simp only [UA0_2, ptOf, medOf, div_eq_mul_inv, mul_inv, rho_sq, rho_def]
    try simp only [rr_def, tau_def]
    simp only [rr_scale ht, rho_scale ht, tau_scale ht]
    generalize t⁻¹ = ti at *
    generalize rho x y d = ρ
    generalize rr x y d = r
    generalize tau x y d = τ
    grind

theorem realDec_3_0 (al sd cd : ℝ) : ∃ C, ∀ x y d : ℝ, x * x + y * y + d * d ≠ 0 →
    |(UA0_3 (medOf al sd cd) (ptOf (medOf al sd cd) x y d)).u0| ≤ C * (rho x y d * rho x y d) := by
  refine (cone_bound (fun _ z => z = 0) (isClosed_eq continuous_snd continuous_const) (fun t d z _ h => by rw [h, mul_zero]) (fun d z h => by rw [h, abs_zero]; exact abs_nonneg d)
    (fun x y d _ => (UA0_3 (medOf al sd cd) (ptOf (medOf al sd cd) x y d)).u0) ?_ ?_).imp (fun C hC x y d h => hC x y d 0 h rfl)
  · simp only [UA0_3, ptOf, medOf, div_eq_mul_inv, mul_inv, rho_sq, rho_def]
    try simp only [rr_def, tau_def]
    have r := rho_cont (fun _ z => z = 0)
    skip
    have s := (rr_cont).continuousOn (s := {q | q.1 * q.1 + q.2.1 * q.2.1 + q.2.2.1 * q.2.2.1 = 1 ∧ q.2.2.2 = 0})
    have v1 : ContinuousOn (fun q : ℝ × ℝ × ℝ × ℝ => q.1) {q | q.1 * q.1 + q.2.1 * q.2.1 + q.2.2.1 * q.2.2.1 = 1 ∧ q.2.2.2 = 0} := by fun_prop
    have v2 : ContinuousOn (fun q : ℝ × ℝ × ℝ × ℝ => q.2.1) {q | q.1 * q.1 + q.2.1 * q.2.1 + q.2.2.1 * q.2.2.1 = 1 ∧ q.2.2.2 = 0} := by fun_prop
    have v3 : ContinuousOn (fun q : ℝ × ℝ × ℝ × ℝ => q.2.2.1) {q | q.1 * q.1 + q.2.1 * q.2.1 + q.2.2.1 * q.2.2.1 = 1 ∧ q.2.2.2 = 0} := by fun_prop
    have v4 : ContinuousOn (fun q : ℝ × ℝ × ℝ × ℝ => q.2.2.2) {q | q.1 * q.1 + q.2.1 * q.2.1 + q.2.2.1 * q.2.2.1 = 1 ∧ q.2.2.2 = 0} := by fun_prop
    hcont
  · intro t x y d z ht
    have e := mul_inv_cancel₀ ht.ne'
    simp only [UA0_3, ptOf, medOf, div_eq_mul_inv, mul_inv, rho_sq, rho_def]
    try simp only [rr_def, tau_def]
    simp only [rr_scale ht, rho_scale ht, tau_scale ht]
    generalize t⁻¹ = ti at *
    generalize rho x y d = ρ
    generalize rr x y d = r
    generalize tau x y d = τ
    grind

theorem realDec_3_1 (al sd cd : ℝ) : ∃ C, ∀ x y d : ℝ, x * x + y * y + d * d ≠ 0 →
    |(UA0_3 (medOf al sd cd) (ptOf (medOf al sd cd) x y d)).u1| ≤ C * (rho x y d * rho x y d) := by
  refine (cone_bound (fun _ z => z = 0) (isClosed_eq continuous_snd continuous_const) (fun t d z _ h => by rw [h, mul_zero]) (fun d z h => by rw [h, abs_zero]; exact abs_nonneg d)
    (fun x y d _ => (UA0_3 (medOf al sd cd) (ptOf (medOf al sd cd) x y d)).u1) ?_ ?_).imp (fun C hC x y d h => hC x y d 0 h rfl)
  · simp only [UA0_3, ptOf, medOf, div_eq_mul_inv, mul_inv, rho_sq, rho_def]
    try simp only [rr_def, tau_def]
    have r := rho_cont (fun _ z => z = 0)
    skip
    have s := (rr_cont).continuousOn (s := {q | q.1 * q.1 + q.2.1 * q.2.1 + q.2.2.1 * q.2.2.1 = 1 ∧ q.2.2.2 = 0})
    have v1 : ContinuousOn (fun q : ℝ × ℝ × ℝ × ℝ => q.1) {q | q.1 * q.1 + q.2.1 * q.2.1 + q.2.2.1 * q.2.2.1 = 1 ∧ q.2.2.2 = 0} := by fun_prop
    have v2 : ContinuousOn (fun q : ℝ × ℝ × ℝ × ℝ => q.2.1) {q | q.1 * q.1 + q.2.1 * q.2.1 + q.2.2.1 * q.2.2.1 = 1 ∧ q.2.2.2 = 0} := by fun_prop
    have v3 : ContinuousOn (fun q : ℝ × ℝ × ℝ × ℝ => q.2.2.1) {q | q.1 * q.1 + q.2.1 * q.2.1 + q.2.2.1 * q.2.2.1 = 1 ∧ q.2.2.2 = 0} := by fun_prop
    have v4 : ContinuousOn (fun q : ℝ × ℝ × ℝ × ℝ => q.2.2.2) {q | q.1 * q.1 + q.2.1 * q.2.1 + q.2.2.1 * q.2.2.1 = 1 ∧ q.2.2.2 = 0} := by fun_prop
    hcont
  · intro t x y d z ht
    have e := mul_inv_cancel₀ ht.ne'
    simp only [UA0_3, ptOf, medOf, div_eq_mul_inv, mul_inv, rho_sq, rho_def]
    try simp only [rr_def, tau_def]
    simp only [rr_scale ht, rho_scale ht, tau_scale ht]
    generalize t⁻¹ = ti at *
    generalize rho x y d = ρ
    generalize rr x y d = r
    generalize tau x y d = τ
    grind

theorem realDec_3_2 (al sd cd : ℝ) : ∃ C, ∀ x y d : ℝ, x * x + y * y + d * d ≠ 0 →
    |(UA0_3 (medOf al sd cd) (ptOf (medOf al sd cd) x y d)).u2| ≤ C * (rho x y d * rho x y d) := by
  refine (cone_bound (fun _ z => z = 0) (isClosed_eq continuous_snd continuous_const) (fun t d z _ h => by rw [h, mul_zero]) (fun d z h => by rw [h, abs_zero]; exact abs_nonneg d)
    (fun x y d _ => (UA0_3 (medOf al sd cd) (ptOf (medOf al sd cd) x y d)).u2) ?_ ?_).imp (fun C hC x y d h => hC x y d 0 h rfl)
  · simp only [UA0_3, ptOf, medOf, div_eq_mul_inv, mul_inv, rho_sq, rho_def]
    try simp only [rr_def, tau_def]
    have r := rho_cont (fun _ z => z = 0)
    skip
    have s := (rr_cont).continuousOn (s := {q | q.1 * q.1 + q.2.1 * q.2.1 + q.2.2.1 * q.2.2.1 = 1 ∧ q.2.2.2 = 0})
    have v1 : ContinuousOn (fun q : ℝ × ℝ × ℝ × ℝ => q.1) {q | q.1 * q.1 + q.2.1 * q.2.1 + q.2.2.1 * q.2.2.1 = 1 ∧ q.2.2.2 = 0} := by fun_prop
    have v2 : ContinuousOn (fun q : ℝ × ℝ × ℝ × ℝ => q.2.1) {q | q.1 * q.1 + q.2.1 * q.2.1 + q.2.2.1 * q.2.2.1 = 1 ∧ q.2.2.2 = 0} := by fun_prop
    have v3 : ContinuousOn (fun q : ℝ × ℝ × ℝ × ℝ => q.2.2.1) {q | q.1 * q.1 + q.2.1 * q.2.1 + q.2.2.1 * q.2.2.1 = 1 ∧ q.2.2.2 = 0} := by fun_prop
    have v4 : ContinuousOn (fun q : ℝ × ℝ × ℝ × ℝ => q.2.2.2) {q | q.1 * q.1 + q.2.1 * q.2.1 + q.2.2.1 * q.2.2.1 = 1 ∧ q.2.2.2 = 0} := by fun_prop
    hcont
  · intro t x y d z ht
    have e := mul_inv_cancel₀ ht.ne'
    simp only [UA0_3, ptOf, medOf, div_eq_mul_inv, mul_inv, rho_sq, rho_def]
    try simp only [rr_def, tau_def]
    simp only [rr_scale ht, rho_scale ht, tau_scale ht]
    generalize t⁻¹ = ti at *
    generalize rho x y d = ρ
    generalize rr x y d = r
    generalize tau x y d = τ
    grind

theorem realDec_4_0 (al sd cd : ℝ) : ∃ C, ∀ x y d : ℝ, x * x + y * y + d * d ≠ 0 →
    |(UA0_4 (medOf al sd cd) (ptOf (medOf al sd cd) x y d)).u0| ≤ C * (rho x y d * rho x y d) := by
  refine (cone_bound (fun _ z => z = 0) (isClosed_eq continuous_snd continuous_const) (fun t d z _ h => by rw [h, mul_zero]) (fun d z h => by rw [h, abs_zero]; exact abs_nonneg d)
    (fun x y d _ => (UA0_4 (medOf al sd cd) (ptOf (medOf al sd cd) x y d)).u0) ?_ ?_).imp (fun C hC x y d h => hC x y d 0 h rfl)
  · simp only [UA0_4, ptOf, medOf, div_eq_mul_inv, mul_inv, rho_sq, rho_def]
    try simp only [rr_def, tau_def]
    have r := rho_cont (fun _ z => z = 0)
    skip
    have s := (rr_cont).continuousOn (s := {q | q.1 * q.1 + q.2.1 * q.2.1 + q.2.2.1 * q.2.2.1 = 1 ∧ q.2.2.2 = 0})
    have v1 : ContinuousOn (fun q : ℝ × ℝ × ℝ × ℝ => q.1) {q | q.1 * q.1 + q.2.1 * q.2.1 + q.2.2.1 * q.2.2.1 = 1 ∧ q.2.2.2 = 0} := by fun_prop
    have v2 : ContinuousOn (fun q : ℝ × ℝ × ℝ × ℝ => q.2.1) {q | q.1 * q.1 + q.2.1 * q.2.1 + q.2.2.1 * q.2.2.1 = 1 ∧ q.2.2.2 = 0} := by fun_prop
    have v3 : ContinuousOn (fun q : ℝ × ℝ × ℝ × ℝ => q.2.2.1) {q | q.1 * q.1 + q.2.1 * q.2.1 + q.2.2.1 * q.2.2.1 = 1 ∧ q.2.2.2 = 0} := by fun_prop
    have v4 : ContinuousOn (fun q : ℝ × ℝ × ℝ × ℝ => q.2.2.2) {q | q.1 * q.1 + q.2.1 * q.2.1 + q.2.2.1 * q.2.2.1 = 1 ∧ q.2.2.2 = 0} := by fun_prop
    hcont
  · intro t x y d z ht
    have e := mul_inv_cancel₀ ht.ne'
    simp only [UA0_4, ptOf, medOf, div_eq_mul_inv, mul_inv, rho_sq, rho_def]
    try simp only [rr_def, tau_def]
    simp only [rr_scale ht, rho_scale ht, tau_scale ht]
    generalize t⁻¹ = ti at *
    generalize rho x y d = ρ
    generalize rr x y d = r
    generalize tau x y d = τ
    grind

theorem realDec_4_1 (al sd cd : ℝ) : ∃ C, ∀ x y d : ℝ, x * x + y * y + d * d ≠ 0 →
    |(UA0_4 (medOf al sd cd) (ptOf (medOf al sd cd) x y d)).u1| ≤ C * (rho x y d * rho x y d) := by
  refine (cone_bound (fun _ z => z = 0) (isClosed_eq continuous_snd continuous_const) (fun t d z _ h => by rw [h, mul_zero]) (fun d z h => by rw [h, abs_zero]; exact abs_nonneg d)
    (fun x y d _ => (UA0_4 (medOf al sd cd) (ptOf (medOf al sd cd) x y d)).u1) ?_ ?_).imp (fun C hC x y d h => hC x y d 0 h rfl)
  · simp only [UA0_4, ptOf, medOf, div_eq_mul_inv, mul_inv, rho_sq, rho_def]
    try simp only [rr_def, tau_def]
    have r := rho_cont (fun _ z => z = 0)
    skip
    have s := (rr_cont).continuousOn (s := {q | q.1 * q.1 + q.2.1 * q.2.1 + q.2.2.1 * q.2.2.1 = 1 ∧ q.2.2.2 = 0})
    have v1 : ContinuousOn (fun q : ℝ × ℝ × ℝ × ℝ => q.1) {q | q.1 * q.1 + q.2.1 * q.2.1 + q.2.2.1 * q.2.2.1 = 1 ∧ q.2.2.2 = 0} := by fun_prop
    have v2 : ContinuousOn (fun q : ℝ × ℝ × ℝ × ℝ => q.2.1) {q | q.1 * q.1 + q.2.1 * q.2.1 + q.2.2.1 * q.2.2.1 = 1 ∧ q.2.2.2 = 0} := by fun_prop
    have v3 : ContinuousOn (fun q : ℝ × ℝ × ℝ × ℝ => q.2.2.1) {q | q.1 * q.1 + q.2.1 * q.2.1 + q.2.2.1 * q.2.2.1 = 1 ∧ q.2.2.2 = 0} := by fun_prop
    have v4 : ContinuousOn (fun q : ℝ × ℝ × ℝ × ℝ => q.2.2.2) {q | q.1 * q.1 + q.2.1 * q.2.1 + q.2.2.1 * q.2.2.1 = 1 ∧ q.2.2.2 = 0} := by fun_prop
    hcont
  · intro t x y d z ht
    have e := mul_inv_cancel₀ ht.ne'
    simp only [UA0_4, ptOf, medOf, div_eq_mul_inv, mul_inv, rho_sq, rho_def]
    try simp only [rr_def, tau_def]
    simp only [rr_scale ht, rho_scale ht, tau_scale ht]
    generalize t⁻¹ = ti at *
    generalize rho x y d = ρ
    generalize rr x y d = r
    generalize tau x y d = τ
    grind

theorem realDec_4_2 (al sd cd : ℝ) : ∃ C, ∀ x y d : ℝ, x * x + y * y + d * d ≠ 0 →
    |(UA0_4 (medOf al sd cd) (ptOf (medOf al sd cd) x y d)).u2| ≤ C * (rho x y d * rho x y d) := by
  refine (cone_bound (fun _ z => z = 0) (isClosed_eq continuous_snd continuous_const) (fun t d z _ h => by rw [h, mul_zero]) (fun d z h => by rw [h, abs_zero]; exact abs_nonneg d)
    (fun x y d _ => (UA0_4 (medOf al sd cd) (ptOf (medOf al sd cd) x y d)).u2) ?_ ?_).imp (fun C hC x y d h => hC x y d 0 h rfl)
  · simp only [UA0_4, ptOf, medOf, div_eq_mul_inv, mul_inv, rho_sq, rho_def]
    try simp only [rr_def, tau_def]
    have r := rho_cont (fun _ z => z = 0)
    skip
    have s := (rr_cont).continuousOn (s := {q | q.1 * q.1 + q.2.1 * q.2.1 + q.2.2.1 * q.2.2.1 = 1 ∧ q.2.2.2 = 0})
    have v1 : ContinuousOn (fun q : ℝ × ℝ × ℝ × ℝ => q.1) {q | q.1 * q.1 + q.2.1 * q.2.1 + q.2.2.1 * q.2.2.1 = 1 ∧ q.2.2.2 = 0} := by fun_prop
    have v2 : ContinuousOn (fun q : ℝ × ℝ × ℝ × ℝ => q.2.1) {q | q.1 * q.1 + q.2.1 * q.2.1 + q.2.2.1 * q.2.2.1 = 1 ∧ q.2.2.2 = 0} := by fun_prop
    have v3 : ContinuousOn (fun q : ℝ × ℝ × ℝ × ℝ => q.2.2.1) {q | q.1 * q.1 + q.2.1 * q.2.1 + q.2.2.1 * q.2.2.1 = 1 ∧ q.2.2.2 = 0} := by fun_prop
    have v4 : ContinuousOn (fun q : ℝ × ℝ × ℝ × ℝ => q.2.2.2) {q | q.1 * q.1 + q.2.1 * q.2.1 + q.2.2.1 * q.2.2.1 = 1 ∧ q.2.2.2 = 0} := by fun_prop
    hcont
  · intro t x y d z ht
    have e := mul_inv_cancel₀ ht.ne'
    simp only [UA0_4, ptOf, medOf, div_eq_mul_inv, mul_inv, rho_sq, rho_def]
    try simp only [rr_def, tau_def]
    simp only [rr_scale ht, rho_scale ht, tau_scale ht]
    generalize t⁻¹ = ti at *
    generalize rho x y d = ρ
    generalize rr x y d = r
    generalize tau x y d = τ
    grind

theorem imgDec_1_0 (al sd cd : ℝ) : ∃ C, ∀ x y d z : ℝ, x * x + y * y + d * d ≠ 0 → 0 ≤ d → |z| ≤ d →
    |(imgSum z (UA0_1 (medOf al sd cd) (ptOf (medOf al sd cd) x y d)) (UB0_1 (medOf al sd cd) (ptOf (medOf al sd cd) x y d) z) (UC0_1 (medOf al sd cd) (ptOf (medOf al sd cd) x y d) z)).u0| ≤
      C * (rho x y d * rho x y d) := by
  refine (cone_bound (fun d z => 0 ≤ d ∧ |z| ≤ d) (IsClosed.and (isClosed_le continuous_const continuous_fst) (isClosed_le continuous_snd.abs continuous_fst))
    (fun t d z ht h => ⟨mul_nonneg ht.le h.1, by rw [abs_mul, abs_of_pos ht]; exact mul_le_mul_of_nonneg_left h.2 ht.le⟩)
    (fun d z h => h.2.trans (le_abs_self d))
    (fun x y d z => (imgSum z (UA0_1 (medOf al sd cd) (ptOf (medOf al sd cd) x y d)) (UB0_1 (medOf al sd cd) (ptOf (medOf al sd cd) x y d) z) (UC0_1 (medOf al sd cd) (ptOf (medOf al sd cd) x y d) z)).u0) ?_ ?_).imp (fun C hC x y d z h h1 h2 => hC x y d z h ⟨h1, h2⟩)
  · simp only [imgSum, UA0_1, UB0_1, UC0_1, ptOf, medOf, div_eq_mul_inv, mul_inv, rho_sq, rho_def]
    try simp only [rr_def, tau_def]
    have r := rho_cont (fun d z => 0 ≤ d ∧ |z| ≤ d)
    have t := tau_cont (fun d z => 0 ≤ d ∧ |z| ≤ d) (fun _ _ h => h.1)
    have s := (rr_cont).continuousOn (s := {q | q.1 * q.1 + q.2.1 * q.2.1 + q.2.2.1 * q.2.2.1 = 1 ∧ 0 ≤ q.2.2.1 ∧ |q.2.2.2| ≤ q.2.2.1})
    have v1 : ContinuousOn (fun q : ℝ × ℝ × ℝ × ℝ => q.1) {q | q.1 * q.1 + q.2.1 * q.2.1 + q.2.2.1 * q.2.2.1 = 1 ∧ 0 ≤ q.2.2.1 ∧ |q.2.2.2| ≤ q.2.2.1} := by fun_prop
    have v2 : ContinuousOn (fun q : ℝ × ℝ × ℝ × ℝ => q.2.1) {q | q.1 * q.1 + q.2.1 * q.2.1 + q.2.2.1 * q.2.2.1 = 1 ∧ 0 ≤ q.2.2.1 ∧ |q.2.2.2| ≤ q.2.2.1} := by fun_prop
    have v3 : ContinuousOn (fun q : ℝ × ℝ × ℝ × ℝ => q.2.2.1) {q | q.1 * q.1 + q.2.1 * q.2.1 + q.2.2.1 * q.2.2.1 = 1 ∧ 0 ≤ q.2.2.1 ∧ |q.2.2.2| ≤ q.2.2.1} := by fun_prop
    have v4 : ContinuousOn (fun q : ℝ × ℝ × ℝ × ℝ => q.2.2.2) {q | q.1 * q.1 + q.2.1 * q.2.1 + q.2.2.1 * q.2.2.1 = 1 ∧ 0 ≤ q.2.2.1 ∧ |q.2.2.2| ≤ q.2.2.1} := by fun_prop
    hcont
  · intro t x y d z ht
    have e := mul_inv_cancel₀ ht.ne'
    simp only [imgSum, UA0_1, UB0_1, UC0_1, ptOf, medOf, div_eq_mul_inv, mul_inv, rho_sq, rho_def]
    try simp only [rr_def, tau_def]
    simp only [rr_scale ht, rho_scale ht, tau_scale ht]
    generalize t⁻¹ = ti at *
    generalize rho x y d = ρ
    generalize rr x y d = r
    generalize tau x y d = τ
    grind

theorem imgDec_1_1 (al sd cd : ℝ) : ∃ C, ∀ x y d z : ℝ, x * x + y * y + d * d ≠ 0 → 0 ≤ d → |z| ≤ d →
    |(imgSum z (UA0_1 (medOf al sd cd) (ptOf (medOf al sd cd) x y d)) (UB0_1 (medOf al sd cd) (ptOf (medOf al sd cd) x y d) z) (UC0_1 (medOf al sd cd) (ptOf (medOf al sd cd) x y d) z)).u1| ≤
      C * (rho x y d * rho x y d) := by
  refine (cone_bound (fun d z => 0 ≤ d ∧ |z| ≤ d) (IsClosed.and (isClosed_le continuous_const continuous_fst) (isClosed_le continuous_snd.abs continuous_fst))
    (fun t d z ht h => ⟨mul_nonneg ht.le h.1, by rw [abs_mul, abs_of_pos ht]; exact mul_le_mul_of_nonneg_left h.2 ht.le⟩)
    (fun d z h => h.2.trans (le_abs_self d))
    (fun x y d z => (imgSum z (UA0_1 (medOf al sd cd) (ptOf (medOf al sd cd) x y d)) (UB0_1 (medOf al sd cd) (ptOf (medOf al sd cd) x y d) z) (UC0_1 (medOf al sd cd) (ptOf (medOf al sd cd) x y d) z)).u1) ?_ ?_).imp (fun C hC x y d z h h1 h2 => hC x y d z h ⟨h1, h2⟩)
  · simp only [imgSum, UA0_1, UB0_1, UC0_1, ptOf, medOf, div_eq_mul_inv, mul_inv, rho_sq, rho_def]
    try simp only [rr_def, tau_def]
    have r := rho_cont (fun d z => 0 ≤ d ∧ |z| ≤ d)
    have t := tau_cont (fun d z => 0 ≤ d ∧ |z| ≤ d) (fun _ _ h => h.1)
    have s := (rr_cont).continuousOn (s := {q | q.1 * q.1 + q.2.1 * q.2.1 + q.2.2.1 * q.2.2.1 = 1 ∧ 0 ≤ q.2.2.1 ∧ |q.2.2.2| ≤ q.2.2.1})
    have v1 : ContinuousOn (fun q : ℝ × ℝ × ℝ × ℝ => q.1) {q | q.1 * q.1 + q.2.1 * q.2.1 + q.2.2.1 * q.2.2.1 = 1 ∧ 0 ≤ q.2.2.1 ∧ |q.2.2.2| ≤ q.2.2.1} := by fun_prop
    have v2 : ContinuousOn (fun q : ℝ × ℝ × ℝ × ℝ => q.2.1) {q | q.1 * q.1 + q.2.1 * q.2.1 + q.2.2.1 * q.2.2.1 = 1 ∧ 0 ≤ q.2.2.1 ∧ |q.2.2.2| ≤ q.2.2.1} := by fun_prop
    have v3 : ContinuousOn (fun q : ℝ × ℝ × ℝ × ℝ => q.2.2.1) {q | q.1 * q.1 + q.2.1 * q.2.1 + q.2.2.1 * q.2.2.1 = 1 ∧ 0 ≤ q.2.2.1 ∧ |q.2.2.2| ≤ q.2.2.1} := by fun_prop
    have v4 : ContinuousOn (fun q : ℝ × ℝ × ℝ × ℝ => q.2.2.2) {q | q.1 * q.1 + q.2.1 * q.2.1 + q.2.2.1 * q.2.2.1 = 1 ∧ 0 ≤ q.2.2.1 ∧ |q.2.2.2| ≤ q.2.2.1} := by fun_prop
    hcont
  · intro t x y d z ht
    have e := mul_inv_cancel₀ ht.ne'
    simp only [imgSum, UA0_1, UB0_1, UC0_1, ptOf, medOf, div_eq_mul_inv, mul_inv, rho_sq, rho_def]
    try simp only [rr_def, tau_def]
    simp only [rr_scale ht, rho_scale ht, tau_scale ht]
    generalize t⁻¹ = ti at *
    generalize rho x y d = ρ
    generalize rr x y d = r
    generalize tau x y d = τ
    grind

theorem imgDec_1_2 (al sd cd : ℝ) : ∃ C, ∀ x y d z : ℝ, x * x + y * y + d * d ≠ 0 → 0 ≤ d → |z| ≤ d →
    |(imgSum z (UA0_1 (medOf al sd cd) (ptOf (medOf al sd cd) x y d)) (UB0_1 (medOf al sd cd) (ptOf (medOf al sd cd) x y d) z) (UC0_1 (medOf al sd cd) (ptOf (medOf al sd cd) x y d) z)).u2| ≤
      C * (rho x y d * rho x y d) := by
  refine (cone_bound (fun d z => 0 ≤ d ∧ |z| ≤ d) (IsClosed.and (isClosed_le continuous_const continuous_fst) (isClosed_le continuous_snd.abs continuous_fst))
    (fun t d z ht h => ⟨mul_nonneg ht.le h.1, by rw [abs_mul, abs_of_pos ht]; exact mul_le_mul_of_nonneg_left h.2 ht.le⟩)
    (fun d z h => h.2.trans (le_abs_self d))
    (fun x y d z => (imgSum z (UA0_1 (medOf al sd cd) (ptOf (medOf al sd cd) x y d)) (UB0_1 (medOf al sd cd) (ptOf (medOf al sd cd) x y d) z) (UC0_1 (medOf al sd cd) (ptOf (medOf al sd cd) x y d) z)).u2) ?_ ?_).imp (fun C hC x y d z h h1 h2 => hC x y d z h ⟨h1, h2⟩)
  · simp only [imgSum, UA0_1, UB0_1, UC0_1, ptOf, medOf, div_eq_mul_inv, mul_inv, rho_sq, rho_def]
    try simp only [rr_def, tau_def]
    have r := rho_cont (fun d z => 0 ≤ d ∧ |z| ≤ d)
    have t := tau_cont (fun d z => 0 ≤ d ∧ |z| ≤ d) (fun _ _ h => h.1)
    have s := (rr_cont).continuousOn (s := {q | q.1 * q.1 + q.2.1 * q.2.1 + q.2.2.1 * q.2.2.1 = 1 ∧ 0 ≤ q.2.2.1 ∧ |q.2.2.2| ≤ q.2.2.1})
    have v1 : ContinuousOn (fun q : ℝ × ℝ × ℝ × ℝ => q.1) {q | q.1 * q.1 + q.2.1 * q.2.1 + q.2.2.1 * q.2.2.1 = 1 ∧ 0 ≤ q.2.2.1 ∧ |q.2.2.2| ≤ q.2.2.1} := by fun_prop
    have v2 : ContinuousOn (fun q : ℝ × ℝ × ℝ × ℝ => q.2.1) {q | q.1 * q.1 + q.2.1 * q.2.1 + q.2.2.1 * q.2.2.1 = 1 ∧ 0 ≤ q.2.2.1 ∧ |q.2.2.2| ≤ q.2.2.1} := by fun_prop
    have v3 : ContinuousOn (fun q : ℝ × ℝ × ℝ × ℝ => q.2.2.1) {q | q.1 * q.1 + q.2.1 * q.2.1 + q.2.2.1 * q.2.2.1 = 1 ∧ 0 ≤ q.2.2.1 ∧ |q.2.2.2| ≤ q.2.2.1} := by fun_prop
    have v4 : ContinuousOn (fun q : ℝ × ℝ × ℝ × ℝ => q.2.2.2) {q | q.1 * q.1 + q.2.1 * q.2.1 + q.2.2.1 * q.2.2.1 = 1 ∧ 0 ≤ q.2.2.1 ∧ |q.2.2.2| ≤ q.2.2.1} := by fun_prop
    hcont
  · intro t x y d z ht
    have e := mul_inv_cancel₀ ht.ne'
    simp only [imgSum, UA0_1, UB0_1, UC0_1, ptOf, medOf, div_eq_mul_inv, mul_inv, rho_sq, rho_def]
    try simp only [rr_def, tau_def]
    simp only [rr_scale ht, rho_scale ht, tau_scale ht]
    generalize t⁻¹ = ti at *
    generalize rho x y d = ρ
    generalize rr x y d = r
    generalize tau x y d = τ
    grind

theorem imgDec_2_0 (al sd cd : ℝ) : ∃ C, ∀ x y d z : ℝ, x * x + y * y + d * d ≠ 0 → 0 ≤ d → |z| ≤ d →
    |(imgSum z (UA0_2 (medOf al sd cd) (ptOf (medOf al sd cd) x y d)) (UB0_2 (medOf al sd cd) (ptOf (medOf al sd cd) x y d) z) (UC0_2 (medOf al sd cd) (ptOf (medOf al sd cd) x y d) z)).u0| ≤
      C * (rho x y d * rho x y d) := by
  refine (cone_bound (fun d z => 0 ≤ d ∧ |z| ≤ d) (IsClosed.and (isClosed_le continuous_const continuous_fst) (isClosed_le continuous_snd.abs continuous_fst))
    (fun t d z ht h => ⟨mul_nonneg ht.le h.1, by rw [abs_mul, abs_of_pos ht]; exact mul_le_mul_of_nonneg_left h.2 ht.le⟩)
    (fun d z h => h.2.trans (le_abs_self d))
    (fun x y d z => (imgSum z (UA0_2 (medOf al sd cd) (ptOf (medOf al sd cd) x y d)) (UB0_2 (medOf al sd cd) (ptOf (medOf al sd cd) x y d) z) (UC0_2 (medOf al sd cd) (ptOf (medOf al sd cd) x y d) z)).u0) ?_ ?_).imp (fun C hC x y d z h h1 h2 => hC x y d z h ⟨h1, h2⟩)
  · simp only [imgSum, UA0_2, UB0_2, UC0_2, ptOf, medOf, div_eq_mul_inv, mul_inv, rho_sq, rho_def]
    try simp only [rr_def, tau_def]
    have r := rho_cont (fun d z => 0 ≤ d ∧ |z| ≤ d)
    have t := tau_cont (fun d z => 0 ≤ d ∧ |z| ≤ d) (fun _ _ h => h.1)
    have s := (rr_cont).continuousOn (s := {q | q.1 * q.1 + q.2.1 * q.2.1 + q.2.2.1 * q.2.2.1 = 1 ∧ 0 ≤ q.2.2.1 ∧ |q.2.2.2| ≤ q.2.2.1})
    have v1 : ContinuousOn (fun q : ℝ × ℝ × ℝ × ℝ => q.1) {q | q.1 * q.1 + q.2.1 * q.2.1 + q.2.2.1 * q.2.2.1 = 1 ∧ 0 ≤ q.2.2.1 ∧ |q.2.2.2| ≤ q.2.2.1} := by fun_prop
    have v2 : ContinuousOn (fun q : ℝ × ℝ × ℝ × ℝ => q.2.1) {q | q.1 * q.1 + q.2.1 * q.2.1 + q.2.2.1 * q.2.2.1 = 1 ∧ 0 ≤ q.2.2.1 ∧ |q.2.2.2| ≤ q.2.2.1} := by fun_prop
    have v3 : ContinuousOn (fun q : ℝ × ℝ × ℝ × ℝ => q.2.2.1) {q | q.1 * q.1 + q.2.1 * q.2.1 + q.2.2.1 * q.2.2.1 = 1 ∧ 0 ≤ q.2.2.1 ∧ |q.2.2.2| ≤ q.2.2.1} := by fun_prop
    have v4 : ContinuousOn (fun q : ℝ × ℝ × ℝ × ℝ => q.2.2.2) {q | q.1 * q.1 + q.2.1 * q.2.1 + q.2.2.1 * q.2.2.1 = 1 ∧ 0 ≤ q.2.2.1 ∧ |q.2.2.2| ≤ q.2.2.1} := by fun_prop
    hcont
  · intro t x y d z ht
    have e := mul_inv_cancel₀ ht.ne'
    simp only [imgSum, UA0_2, UB0_2, UC0_2, ptOf, medOf, div_eq_mul_inv, mul_inv, rho_sq, rho_def]
    try simp only [rr_def, tau_def]
    simp only [rr_scale ht, rho_scale ht, tau_scale ht]
    generalize t⁻¹ = ti at *
    generalize rho x y d = ρ
    generalize rr x y d = r
    generalize tau x y d = τ
    grind

theorem imgDec_2_1 (al sd cd : ℝ) : ∃ C, ∀ x y d z : ℝ, x * x + y * y + d * d ≠ 0 → 0 ≤ d → |z| ≤ d →
    |(imgSum z (UA0_2 (medOf al sd cd) (ptOf (medOf al sd cd) x y d)) (UB0_2 (medOf al sd cd) (ptOf (medOf al sd cd) x y d) z) (UC0_2 (medOf al sd cd) (ptOf (medOf al sd cd) x y d) z)).u1| ≤
      C * (rho x y d * rho x y d) := by
  refine (cone_bound (fun d z => 0 ≤ d ∧ |z| ≤ d) (IsClosed.and (isClosed_le continuous_const continuous_fst) (isClosed_le continuous_snd.abs continuous_fst))
    (fun t d z ht h => ⟨mul_nonneg ht.le h.1, by rw [abs_mul, abs_of_pos ht]; exact mul_le_mul_of_nonneg_left h.2 ht.le⟩)
    (fun d z h => h.2.trans (le_abs_self d))
    (fun x y d z => (imgSum z (UA0_2 (medOf al sd cd) (ptOf (medOf al sd cd) x y d)) (UB0_2 (medOf al sd cd) (ptOf (medOf al sd cd) x y d) z) (UC0_2 (medOf al sd cd) (ptOf (medOf al sd cd) x y d) z)).u1) ?_ ?_).imp (fun C hC x y d z h h1 h2 => hC x y d z h ⟨h1, h2⟩)
  · simp only [imgSum, UA0_2, UB0_2, UC0_2, ptOf, medOf, div_eq_mul_inv, mul_inv, rho_sq, rho_def]
    try simp only [rr_def, tau_def]
    have r := rho_cont (fun d z => 0 ≤ d ∧ |z| ≤ d)
    have t := tau_cont (fun d z => 0 ≤ d ∧ |z| ≤ d) (fun _ _ h => h.1)
    have s := (rr_cont).continuousOn (s := {q | q.1 * q.1 + q.2.1 * q.2.1 + q.2.2.1 * q.2.2.1 = 1 ∧ 0 ≤ q.2.2.1 ∧ |q.2.2.2| ≤ q.2.2.1})
    have v1 : ContinuousOn (fun q : ℝ × ℝ × ℝ × ℝ => q.1) {q | q.1 * q.1 + q.2.1 * q.2.1 + q.2.2.1 * q.2.2.1 = 1 ∧ 0 ≤ q.2.2.1 ∧ |q.2.2.2| ≤ q.2.2.1} := by fun_prop
    have v2 : ContinuousOn (fun q : ℝ × ℝ × ℝ × ℝ => q.2.1) {q | q.1 * q.1 + q.2.1 * q.2.1 + q.2.2.1 * q.2.2.1 = 1 ∧ 0 ≤ q.2.2.1 ∧ |q.2.2.2| ≤ q.2.2.1} := by fun_prop
    have v3 : ContinuousOn (fun q : ℝ × ℝ × ℝ × ℝ => q.2.2.1) {q | q.1 * q.1 + q.2.1 * q.2.1 + q.2.2.1 * q.2.2.1 = 1 ∧ 0 ≤ q.2.2.1 ∧ |q.2.2.2| ≤ q.2.2.1} := by fun_prop
    have v4 : ContinuousOn (fun q : ℝ × ℝ × ℝ × ℝ => q.2.2.2) {q | q.1 * q.1 + q.2.1 * q.2.1 + q.2.2.1 * q.2.2.1 = 1 ∧ 0 ≤ q.2.2.1 ∧ |q.2.2.2| ≤ q.2.2.1} := by fun_prop
    hcont
  · intro t x y d z ht
    have e := mul_inv_cancel₀ ht.ne'
    simp only [imgSum, UA0_2, UB0_2, UC0_2, ptOf, medOf, div_eq_mul_inv, mul_inv, rho_sq, rho_def]
    try simp only [rr_def, tau_def]
    simp only [rr_scale ht, rho_scale ht, tau_scale ht]
    generalize t⁻¹ = ti at *
    generalize rho x y d = ρ
    generalize rr x y d = r
    generalize tau x y d = τ
    grind

theorem imgDec_2_2 (al sd cd : ℝ) : ∃ C, ∀ x y d z : ℝ, x * x + y * y + d * d ≠ 0 → 0 ≤ d → |z| ≤ d →
    |(imgSum z (UA0_2 (medOf al sd cd) (ptOf (medOf al sd cd) x y d)) (UB0_2 (medOf al sd cd) (ptOf (medOf al sd cd) x y d) z) (UC0_2 (medOf al sd cd) (ptOf (medOf al sd cd) x y d) z)).u2| ≤
      C * (rho x y d * rho x y d) := by
  refine (cone_bound (fun d z => 0 ≤ d ∧ |z| ≤ d) (IsClosed.and (isClosed_le continuous_const continuous_fst) (isClosed_le continuous_snd.abs continuous_fst))
    (fun t d z ht h => ⟨mul_nonneg ht.le h.1, by rw [abs_mul, abs_of_pos ht]; exact mul_le_mul_of_nonneg_left h.2 ht.le⟩)
    (fun d z h => h.2.trans (le_abs_self d))
    (fun x y d z => (imgSum z (UA0_2 (medOf al sd cd) (ptOf (medOf al sd cd) x y d)) (UB0_2 (medOf al sd cd) (ptOf (medOf al sd cd) x y d) z) (UC0_2 (medOf al sd cd) (ptOf (medOf al sd cd) x y d) z)).u2) ?_ ?_).imp (fun C hC x y d z h h1 h2 => hC x y d z h ⟨h1, h2⟩)
  · simp only [imgSum, UA0_2, UB0_2, UC0_2, ptOf, medOf, div_eq_mul_inv, mul_inv, rho_sq, rho_def]
    try simp only [rr_def, tau_def]
    have r := rho_cont (fun d z => 0 ≤ d ∧ |z| ≤ d)
    have t := tau_cont (fun d z => 0 ≤ d ∧ |z| ≤ d) (fun _ _ h => h.1)
    have s := (rr_cont).continuousOn (s := {q | q.1 * q.1 + q.2.1 * q.2.1 + q.2.2.1 * q.2.2.1 = 1 ∧ 0 ≤ q.2.2.1 ∧ |q.2.2.2| ≤ q.2.2.1})
    have v1 : ContinuousOn (fun q : ℝ × ℝ × ℝ × ℝ => q.1) {q | q.1 * q.1 + q.2.1 * q.2.1 + q.2.2.1 * q.2.2.1 = 1 ∧ 0 ≤ q.2.2.1 ∧ |q.2.2.2| ≤ q.2.2.1} := by fun_prop
    have v2 : ContinuousOn (fun q : ℝ × ℝ × ℝ × ℝ => q.2.1) {q | q.1 * q.1 + q.2.1 * q.2.1 + q.2.2.1 * q.2.2.1 = 1 ∧ 0 ≤ q.2.2.1 ∧ |q.2.2.2| ≤ q.2.2.1} := by fun_prop
    have v3 : ContinuousOn (fun q : ℝ × ℝ × ℝ × ℝ => q.2.2.1) {q | q.1 * q.1 + q.2.1 * q.2.1 + q.2.2.1 * q.2.2.1 = 1 ∧ 0 ≤ q.2.2.1 ∧ |q.2.2.2| ≤ q.2.2.1} := by fun_prop
    have v4 : ContinuousOn (fun q : ℝ × ℝ × ℝ × ℝ => q.2.2.2) {q | q.1 * q.1 + q.2.1 * q.2.1 + q.2.2.1 * q.2.2.1 = 1 ∧ 0 ≤ q.2.2.1 ∧ |q.2.2.2| ≤ q.2.2.1} := by fun_prop
    hcont
  · intro t x y d z ht
    have e := mul_inv_cancel₀ ht.ne'
    simp only [imgSum, UA0_2, UB0_2, UC0_2, ptOf, medOf, div_eq_mul_inv, mul_inv, rho_sq, rho_def]
    try simp only [rr_def, tau_def]
    simp only [rr_scale ht, rho_scale ht, tau_scale ht]
    generalize t⁻¹ = ti at *
    generalize rho x y d = ρ
    generalize rr x y d = r
    generalize tau x y d = τ
    grind

theorem imgDec_3_0 (al sd cd : ℝ) : ∃ C, ∀ x y d z : ℝ, x * x + y * y + d * d ≠ 0 → 0 ≤ d → |z| ≤ d →
    |(imgSum z (UA0_3 (medOf al sd cd) (ptOf (medOf al sd cd) x y d)) (UB0_3 (medOf al sd cd) (ptOf (medOf al sd cd) x y d) z) (UC0_3 (medOf al sd cd) (ptOf (medOf al sd cd) x y d) z)).u0| ≤
      C * (rho x y d * rho x y d) := by
  refine (cone_bound (fun d z => 0 ≤ d ∧ |z| ≤ d) (IsClosed.and (isClosed_le continuous_const continuous_fst) (isClosed_le continuous_snd.abs continuous_fst))
    (fun t d z ht h => ⟨mul_nonneg ht.le h.1, by rw [abs_mul, abs_of_pos ht]; exact mul_le_mul_of_nonneg_left h.2 ht.le⟩)
    (fun d z h => h.2.trans (le_abs_self d))
    (fun x y d z => (imgSum z (UA0_3 (medOf al sd cd) (ptOf (medOf al sd cd) x y d)) (UB0_3 (medOf al sd cd) (ptOf (medOf al sd cd) x y d) z) (UC0_3 (medOf al sd cd) (ptOf (medOf al sd cd) x y d) z)).u0) ?_ ?_).imp (fun C hC x y d z h h1 h2 => hC x y d z h ⟨h1, h2⟩)
  · simp only [imgSum, UA0_3, UB0_3, UC0_3, ptOf, medOf, div_eq_mul_inv, mul_inv, rho_sq, rho_def]
    try simp only [rr_def, tau_def]
    have r := rho_cont (fun d z => 0 ≤ d ∧ |z| ≤ d)
    have t := tau_cont (fun d z => 0 ≤ d ∧ |z| ≤ d) (fun _ _ h => h.1)
    have s := (rr_cont).continuousOn (s := {q | q.1 * q.1 + q.2.1 * q.2.1 + q.2.2.1 * q.2.2.1 = 1 ∧ 0 ≤ q.2.2.1 ∧ |q.2.2.2| ≤ q.2.2.1})
    have v1 : ContinuousOn (fun q : ℝ × ℝ × ℝ × ℝ => q.1) {q | q.1 * q.1 + q.2.1 * q.2.1 + q.2.2.1 * q.2.2.1 = 1 ∧ 0 ≤ q.2.2.1 ∧ |q.2.2.2| ≤ q.2.2.1} := by fun_prop
    have v2 : ContinuousOn (fun q : ℝ × ℝ × ℝ × ℝ => q.2.1) {q | q.1 * q.1 + q.2.1 * q.2.1 + q.2.2.1 * q.2.2.1 = 1 ∧ 0 ≤ q.2.2.1 ∧ |q.2.2.2| ≤ q.2.2.1} := by fun_prop
    have v3 : ContinuousOn (fun q : ℝ × ℝ × ℝ × ℝ => q.2.2.1) {q | q.1 * q.1 + q.2.1 * q.2.1 + q.2.2.1 * q.2.2.1 = 1 ∧ 0 ≤ q.2.2.1 ∧ |q.2.2.2| ≤ q.2.2.1} := by fun_prop
    have v4 : ContinuousOn (fun q : ℝ × ℝ × ℝ × ℝ => q.2.2.2) {q | q.1 * q.1 + q.2.1 * q.2.1 + q.2.2.1 * q.2.2.1 = 1 ∧ 0 ≤ q.2.2.1 ∧ |q.2.2.2| ≤ q.2.2.1} := by fun_prop
    hcont
  · intro t x y d z ht
    have e := mul_inv_cancel₀ ht.ne'
    simp only [imgSum, UA0_3, UB0_3, UC0_3, ptOf, medOf, div_eq_mul_inv, mul_inv, rho_sq, rho_def]
    try simp only [rr_def, tau_def]
    simp only [rr_scale ht, rho_scale ht, tau_scale ht]
    generalize t⁻¹ = ti at *
    generalize rho x y d = ρ
    generalize rr x y d = r
    generalize tau x y d = τ
    grind

theorem imgDec_3_1 (al sd cd : ℝ) : ∃ C, ∀ x y d z : ℝ, x * x + y * y + d * d ≠ 0 → 0 ≤ d → |z| ≤ d →
    |(imgSum z (UA0_3 (medOf al sd cd) (ptOf (medOf al sd cd) x y d)) (UB0_3 (medOf al sd cd) (ptOf (medOf al sd cd) x y d) z) (UC0_3 (medOf al sd cd) (ptOf (medOf al sd cd) x y d) z)).u1| ≤
      C * (rho x y d * rho x y d) := by
  refine (cone_bound (fun d z => 0 ≤ d ∧ |z| ≤ d) (IsClosed.and (isClosed_le continuous_const continuous_fst) (isClosed_le continuous_snd.abs continuous_fst))
    (fun t d z ht h => ⟨mul_nonneg ht.le h.1, by rw [abs_mul, abs_of_pos ht]; exact mul_le_mul_of_nonneg_left h.2 ht.le⟩)
    (fun d z h => h.2.trans (le_abs_self d))
    (fun x y d z => (imgSum z (UA0_3 (medOf al sd cd) (ptOf (medOf al sd cd) x y d)) (UB0_3 (medOf al sd cd) (ptOf (medOf al sd cd) x y d) z) (UC0_3 (medOf al sd cd) (ptOf (medOf al sd cd) x y d) z)).u1) ?_ ?_).imp (fun C hC x y d z h h1 h2 => hC x y d z h ⟨h1, h2⟩)
  · simp only [imgSum, UA0_3, UB0_3, UC0_3, ptOf, medOf, div_eq_mul_inv, mul_inv, rho_sq, rho_def]
    try simp only [rr_def, tau_def]
    have r := rho_cont (fun d z => 0 ≤ d ∧ |z| ≤ d)
    have t := tau_cont (fun d z => 0 ≤ d ∧ |z| ≤ d) (fun _ _ h => h.1)
    have s := (rr_cont).continuousOn (s := {q | q.1 * q.1 + q.2.1 * q.2.1 + q.2.2.1 * q.2.2.1 = 1 ∧ 0 ≤ q.2.2.1 ∧ |q.2.2.2| ≤ q.2.2.1})
    have v1 : ContinuousOn (fun q : ℝ × ℝ × ℝ × ℝ => q.1) {q | q.1 * q.1 + q.2.1 * q.2.1 + q.2.2.1 * q.2.2.1 = 1 ∧ 0 ≤ q.2.2.1 ∧ |q.2.2.2| ≤ q.2.2.1} := by fun_prop
    have v2 : ContinuousOn (fun q : ℝ × ℝ × ℝ × ℝ => q.2.1) {q | q.1 * q.1 + q.2.1 * q.2.1 + q.2.2.1 * q.2.2.1 = 1 ∧ 0 ≤ q.2.2.1 ∧ |q.2.2.2| ≤ q.2.2.1} := by fun_prop
    have v3 : ContinuousOn (fun q : ℝ × ℝ × ℝ × ℝ => q.2.2.1) {q | q.1 * q.1 + q.2.1 * q.2.1 + q.2.2.1 * q.2.2.1 = 1 ∧ 0 ≤ q.2.2.1 ∧ |q.2.2.2| ≤ q.2.2.1} := by fun_prop
    have v4 : ContinuousOn (fun q : ℝ × ℝ × ℝ × ℝ => q.2.2.2) {q | q.1 * q.1 + q.2.1 * q.2.1 + q.2.2.1 * q.2.2.1 = 1 ∧ 0 ≤ q.2.2.1 ∧ |q.2.2.2| ≤ q.2.2.1} := by fun_prop
    hcont
  · intro t x y d z ht
    have e := mul_inv_cancel₀ ht.ne'
    simp only [imgSum, UA0_3, UB0_3, UC0_3, ptOf, medOf, div_eq_mul_inv, mul_inv, rho_sq, rho_def]
    try simp only [rr_def, tau_def]
    simp only [rr_scale ht, rho_scale ht, tau_scale ht]
    generalize t⁻¹ = ti at *
    generalize rho x y d = ρ
    generalize rr x y d = r
    generalize tau x y d = τ
    grind

theorem imgDec_3_2 (al sd cd : ℝ) : ∃ C, ∀ x y d z : ℝ, x * x + y * y + d * d ≠ 0 → 0 ≤ d → |z| ≤ d →
    |(imgSum z (UA0_3 (medOf al sd cd) (ptOf (medOf al sd cd) x y d)) (UB0_3 (medOf al sd cd) (ptOf (medOf al sd cd) x y d) z) (UC0_3 (medOf al sd cd) (ptOf (medOf al sd cd) x y d) z)).u2| ≤
      C * (rho x y d * rho x y d) := by
  refine (cone_bound (fun d z => 0 ≤ d ∧ |z| ≤ d) (IsClosed.and (isClosed_le continuous_const continuous_fst) (isClosed_le continuous_snd.abs continuous_fst))
    (fun t d z ht h => ⟨mul_nonneg ht.le h.1, by rw [abs_mul, abs_of_pos ht]; exact mul_le_mul_of_nonneg_left h.2 ht.le⟩)
    (fun d z h => h.2.trans (le_abs_self d))
    (fun x y d z => (imgSum z (UA0_3 (medOf al sd cd) (ptOf (medOf al sd cd) x y d)) (UB0_3 (medOf al sd cd) (ptOf (medOf al sd cd) x y d) z) (UC0_3 (medOf al sd cd) (ptOf (medOf al sd cd) x y d) z)).u2) ?_ ?_).imp (fun C hC x y d z h h1 h2 => hC x y d z h ⟨h1, h2⟩)
  · simp only [imgSum, UA0_3, UB0_3, UC0_3, ptOf, medOf, div_eq_mul_inv, mul_inv, rho_sq, rho_def]
    try simp only [rr_def, tau_def]
    have r := rho_cont (fun d z => 0 ≤ d ∧ |z| ≤ d)
    have t := tau_cont (fun d z => 0 ≤ d ∧ |z| ≤ d) (fun _ _ h => h.1)
    have s := (rr_cont).continuousOn (s := {q | q.1 * q.1 + q.2.1 * q.2.1 + q.2.2.1 * q.2.2.1 = 1 ∧ 0 ≤ q.2.2.1 ∧ |q.2.2.2| ≤ q.2.2.1})
    have v1 : ContinuousOn (fun q : ℝ × ℝ × ℝ × ℝ => q.1) {q | q.1 * q.1 + q.2.1 * q.2.1 + q.2.2.1 * q.2.2.1 = 1 ∧ 0 ≤ q.2.2.1 ∧ |q.2.2.2| ≤ q.2.2.1} := by fun_prop
    have v2 : ContinuousOn (fun q : ℝ × ℝ × ℝ × ℝ => q.2.1) {q | q.1 * q.1 + q.2.1 * q.2.1 + q.2.2.1 * q.2.2.1 = 1 ∧ 0 ≤ q.2.2.1 ∧ |q.2.2.2| ≤ q.2.2.1} := by fun_prop
    have v3 : ContinuousOn (fun q : ℝ × ℝ × ℝ × ℝ => q.2.2.1) {q | q.1 * q.1 + q.2.1 * q.2.1 + q.2.2.1 * q.2.2.1 = 1 ∧ 0 ≤ q.2.2.1 ∧ |q.2.2.2| ≤ q.2.2.1} := by fun_prop
    have v4 : ContinuousOn (fun q : ℝ × ℝ × ℝ × ℝ => q.2.2.2) {q | q.1 * q.1 + q.2.1 * q.2.1 + q.2.2.1 * q.2.2.1 = 1 ∧ 0 ≤ q.2.2.1 ∧ |q.2.2.2| ≤ q.2.2.1} := by fun_prop
    hcont
  · intro t x y d z ht
    have e := mul_inv_cancel₀ ht.ne'
    simp only [imgSum, UA0_3, UB0_3, UC0_3, ptOf, medOf, div_eq_mul_inv, mul_inv, rho_sq, rho_def]
    try simp only [rr_def, tau_def]
    simp only [rr_scale ht, rho_scale ht, tau_scale ht]
    generalize t⁻¹ = ti at *
    generalize rho x y d = ρ
    generalize rr x y d = r
    generalize tau x y d = τ
    grind

theorem imgDec_4_0 (al sd cd : ℝ) : ∃ C, ∀ x y d z : ℝ, x * x + y * y + d * d ≠ 0 → 0 ≤ d → |z| ≤ d →
    |(imgSum z (UA0_4 (medOf al sd cd) (ptOf (medOf al sd cd) x y d)) (UB0_4 (medOf al sd cd) (ptOf (medOf al sd cd) x y d) z) (UC0_4 (medOf al sd cd) (ptOf (medOf al sd cd) x y d) z)).u0| ≤
      C * (rho x y d * rho x y d) := by
  refine (cone_bound (fun d z => 0 ≤ d ∧ |z| ≤ d) (IsClosed.and (isClosed_le continuous_const continuous_fst) (isClosed_le continuous_snd.abs continuous_fst))
    (fun t d z ht h => ⟨mul_nonneg ht.le h.1, by rw [abs_mul, abs_of_pos ht]; exact mul_le_mul_of_nonneg_left h.2 ht.le⟩)
    (fun d z h => h.2.trans (le_abs_self d))
    (fun x y d z => (imgSum z (UA0_4 (medOf al sd cd) (ptOf (medOf al sd cd) x y d)) (UB0_4 (medOf al sd cd) (ptOf (medOf al sd cd) x y d) z) (UC0_4 (medOf al sd cd) (ptOf (medOf al sd cd) x y d) z)).u0) ?_ ?_).imp (fun C hC x y d z h h1 h2 => hC x y d z h ⟨h1, h2⟩)
  · simp only [imgSum, UA0_4, UB0_4, UC0_4, ptOf, medOf, div_eq_mul_inv, mul_inv, rho_sq, rho_def]
    try simp only [rr_def, tau_def]
    have r := rho_cont (fun d z => 0 ≤ d ∧ |z| ≤ d)
    have t := tau_cont (fun d z => 0 ≤ d ∧ |z| ≤ d) (fun _ _ h => h.1)
    have s := (rr_cont).continuousOn (s := {q | q.1 * q.1 + q.2.1 * q.2.1 + q.2.2.1 * q.2.2.1 = 1 ∧ 0 ≤ q.2.2.1 ∧ |q.2.2.2| ≤ q.2.2.1})
    have v1 : ContinuousOn (fun q : ℝ × ℝ × ℝ × ℝ => q.1) {q | q.1 * q.1 + q.2.1 * q.2.1 + q.2.2.1 * q.2.2.1 = 1 ∧ 0 ≤ q.2.2.1 ∧ |q.2.2.2| ≤ q.2.2.1} := by fun_prop
    have v2 : ContinuousOn (fun q : ℝ × ℝ × ℝ × ℝ => q.2.1) {q | q.1 * q.1 + q.2.1 * q.2.1 + q.2.2.1 * q.2.2.1 = 1 ∧ 0 ≤ q.2.2.1 ∧ |q.2.2.2| ≤ q.2.2.1} := by fun_prop
    have v3 : ContinuousOn (fun q : ℝ × ℝ × ℝ × ℝ => q.2.2.1) {q | q.1 * q.1 + q.2.1 * q.2.1 + q.2.2.1 * q.2.2.1 = 1 ∧ 0 ≤ q.2.2.1 ∧ |q.2.2.2| ≤ q.2.2.1} := by fun_prop
    have v4 : ContinuousOn (fun q : ℝ × ℝ × ℝ × ℝ => q.2.2.2) {q | q.1 * q.1 + q.2.1 * q.2.1 + q.2.2.1 * q.2.2.1 = 1 ∧ 0 ≤ q.2.2.1 ∧ |q.2.2.2| ≤ q.2.2.1} := by fun_prop
    hcont
  · intro t x y d z ht
    have e := mul_inv_cancel₀ ht.ne'
    simp only [imgSum, UA0_4, UB0_4, UC0_4, ptOf, medOf, div_eq_mul_inv, mul_inv, rho_sq, rho_def]
    try simp only [rr_def, tau_def]
    simp only [rr_scale ht, rho_scale ht, tau_scale ht]
    generalize t⁻¹ = ti at *
    generalize rho x y d = ρ
    generalize rr x y d = r
    generalize tau x y d = τ
    grind

theorem imgDec_4_1 (al sd cd : ℝ) : ∃ C, ∀ x y d z : ℝ, x * x + y * y + d * d ≠ 0 → 0 ≤ d → |z| ≤ d →
    |(imgSum z (UA0_4 (medOf al sd cd) (ptOf (medOf al sd cd) x y d)) (UB0_4 (medOf al sd cd) (ptOf (medOf al sd cd) x y d) z) (UC0_4 (medOf al sd cd) (ptOf (medOf al sd cd) x y d) z)).u1| ≤
      C * (rho x y d * rho x y d) := by
  refine (cone_bound (fun d z => 0 ≤ d ∧ |z| ≤ d) (IsClosed.and (isClosed_le continuous_const continuous_fst) (isClosed_le continuous_snd.abs continuous_fst))
    (fun t d z ht h => ⟨mul_nonneg ht.le h.1, by rw [abs_mul, abs_of_pos ht]; exact mul_le_mul_of_nonneg_left h.2 ht.le⟩)
    (fun d z h => h.2.trans (le_abs_self d))
    (fun x y d z => (imgSum z (UA0_4 (medOf al sd cd) (ptOf (medOf al sd cd) x y d)) (UB0_4 (medOf al sd cd) (ptOf (medOf al sd cd) x y d) z) (UC0_4 (medOf al sd cd) (ptOf (medOf al sd cd) x y d) z)).u1) ?_ ?_).imp (fun C hC x y d z h h1 h2 => hC x y d z h ⟨h1, h2⟩)
  · simp only [imgSum, UA0_4, UB0_4, UC0_4, ptOf, medOf, div_eq_mul_inv, mul_inv, rho_sq, rho_def]
    try simp only [rr_def, tau_def]
    have r := rho_cont (fun d z => 0 ≤ d ∧ |z| ≤ d)
    have t := tau_cont (fun d z => 0 ≤ d ∧ |z| ≤ d) (fun _ _ h => h.1)
    have s := (rr_cont).continuousOn (s := {q | q.1 * q.1 + q.2.1 * q.2.1 + q.2.2.1 * q.2.2.1 = 1 ∧ 0 ≤ q.2.2.1 ∧ |q.2.2.2| ≤ q.2.2.1})
    have v1 : ContinuousOn (fun q : ℝ × ℝ × ℝ × ℝ => q.1) {q | q.1 * q.1 + q.2.1 * q.2.1 + q.2.2.1 * q.2.2.1 = 1 ∧ 0 ≤ q.2.2.1 ∧ |q.2.2.2| ≤ q.2.2.1} := by fun_prop
    have v2 : ContinuousOn (fun q : ℝ × ℝ × ℝ × ℝ => q.2.1) {q | q.1 * q.1 + q.2.1 * q.2.1 + q.2.2.1 * q.2.2.1 = 1 ∧ 0 ≤ q.2.2.1 ∧ |q.2.2.2| ≤ q.2.2.1} := by fun_prop
    have v3 : ContinuousOn (fun q : ℝ × ℝ × ℝ × ℝ => q.2.2.1) {q | q.1 * q.1 + q.2.1 * q.2.1 + q.2.2.1 * q.2.2.1 = 1 ∧ 0 ≤ q.2.2.1 ∧ |q.2.2.2| ≤ q.2.2.1} := by fun_prop
    have v4 : ContinuousOn (fun q : ℝ × ℝ × ℝ × ℝ => q.2.2.2) {q | q.1 * q.1 + q.2.1 * q.2.1 + q.2.2.1 * q.2.2.1 = 1 ∧ 0 ≤ q.2.2.1 ∧ |q.2.2.2| ≤ q.2.2.1} := by fun_prop
    hcont
  · intro t x y d z ht
    have e := mul_inv_cancel₀ ht.ne'
    simp only [imgSum, UA0_4, UB0_4, UC0_4, ptOf, medOf, div_eq_mul_inv, mul_inv, rho_sq, rho_def]
    try simp only [rr_def, tau_def]
    simp only [rr_scale ht, rho_scale ht, tau_scale ht]
    generalize t⁻¹ = ti at *
    generalize rho x y d = ρ
    generalize rr x y d = r
    generalize tau x y d = τ
    grind

theorem imgDec_4_2 (al sd cd : ℝ) : ∃ C, ∀ x y d z : ℝ, x * x + y * y + d * d ≠ 0 → 0 ≤ d → |z| ≤ d →
    |(imgSum z (UA0_4 (medOf al sd cd) (ptOf (medOf al sd cd) x y d)) (UB0_4 (medOf al sd cd) (ptOf (medOf al sd cd) x y d) z) (UC0_4 (medOf al sd cd) (ptOf (medOf al sd cd) x y d) z)).u2| ≤
      C * (rho x y d * rho x y d) := by
  refine (cone_bound (fun d z => 0 ≤ d ∧ |z| ≤ d) (IsClosed.and (isClosed_le continuous_const continuous_fst) (isClosed_le continuous_snd.abs continuous_fst))
    (fun t d z ht h => ⟨mul_nonneg ht.le h.1, by rw [abs_mul, abs_of_pos ht]; exact mul_le_mul_of_nonneg_left h.2 ht.le⟩)
    (fun d z h => h.2.trans (le_abs_self d))
    (fun x y d z => (imgSum z (UA0_4 (medOf al sd cd) (ptOf (medOf al sd cd) x y d)) (UB0_4 (medOf al sd cd) (ptOf (medOf al sd cd) x y d) z) (UC0_4 (medOf al sd cd) (ptOf (medOf al sd cd) x y d) z)).u2) ?_ ?_).imp (fun C hC x y d z h h1 h2 => hC x y d z h ⟨h1, h2⟩)
  · simp only [imgSum, UA0_4, UB0_4, UC0_4, ptOf, medOf, div_eq_mul_inv, mul_inv, rho_sq, rho_def]
    try simp only [rr_def, tau_def]
    have r := rho_cont (fun d z => 0 ≤ d ∧ |z| ≤ d)
    have t := tau_cont (fun d z => 0 ≤ d ∧ |z| ≤ d) (fun _ _ h => h.1)
    have s := (rr_cont).continuousOn (s := {q | q.1 * q.1 + q.2.1 * q.2.1 + q.2.2.1 * q.2.2.1 = 1 ∧ 0 ≤ q.2.2.1 ∧ |q.2.2.2| ≤ q.2.2.1})
    have v1 : ContinuousOn (fun q : ℝ × ℝ × ℝ × ℝ => q.1) {q | q.1 * q.1 + q.2.1 * q.2.1 + q.2.2.1 * q.2.2.1 = 1 ∧ 0 ≤ q.2.2.1 ∧ |q.2.2.2| ≤ q.2.2.1} := by fun_prop
    have v2 : ContinuousOn (fun q : ℝ × ℝ × ℝ × ℝ => q.2.1) {q | q.1 * q.1 + q.2.1 * q.2.1 + q.2.2.1 * q.2.2.1 = 1 ∧ 0 ≤ q.2.2.1 ∧ |q.2.2.2| ≤ q.2.2.1} := by fun_prop
    have v3 : ContinuousOn (fun q : ℝ × ℝ × ℝ × ℝ => q.2.2.1) {q | q.1 * q.1 + q.2.1 * q.2.1 + q.2.2.1 * q.2.2.1 = 1 ∧ 0 ≤ q.2.2.1 ∧ |q.2.2.2| ≤ q.2.2.1} := by fun_prop
    have v4 : ContinuousOn (fun q : ℝ × ℝ × ℝ × ℝ => q.2.2.2) {q | q.1 * q.1 + q.2.1 * q.2.1 + q.2.2.1 * q.2.2.1 = 1 ∧ 0 ≤ q.2.2.1 ∧ |q.2.2.2| ≤ q.2.2.1} := by fun_prop
    hcont
  · intro t x y d z ht
    have e := mul_inv_cancel₀ ht.ne'
    simp only [imgSum, UA0_4, UB0_4, UC0_4, ptOf, medOf, div_eq_mul_inv, mul_inv, rho_sq, rho_def]
    try simp only [rr_def, tau_def]
    simp only [rr_scale ht, rho_scale ht, tau_scale ht]
    generalize t⁻¹ = ti at *
    generalize rho x y d = ρ
    generalize rr x y d = r
    generalize tau x y d = τ
    grind

end GRT.Okada
