import Verif.Lamb.Roots
import Verif.Lamb.Lamb1
import Mathlib.Tactic.LinearCombination
import Mathlib.Tactic.FieldSimp

/-! C105: the roots that the Lamb solver computes are the roots of the Rayleigh equation. -/

namespace GRT.Lamb

open Complex

/-- The classical Rayleigh equation for the speed `v` over a half-space with speeds `al`, `be`. -/
def IsRayleighSpeed (al be v : ℝ) : Prop :=
  0 < v ∧ v < be ∧ (2 - v ^ 2 / be ^ 2) ^ 2 = 4 * √(1 - v ^ 2 / al ^ 2) * √(1 - v ^ 2 / be ^ 2)

/-- `_roots3` gives all roots of the cubic, with multiplicity. -/
theorem C105_roots (a b c : ℝ) (y : ℂ) :
    (y - roots3 a b c 0) * (y - roots3 a b c 1) * (y - roots3 a b c 2) = y ^ 3 + a * y ^ 2 + b * y + c := roots3_prod a b c y

theorem kk_range {nu : ℝ} (h0 : 0 < nu) (h1 : nu < 1 / 2) :
    0 < 0.5 * (1 - 2 * nu) / (1 - nu) ∧ 0.5 * (1 - 2 * nu) / (1 - nu) < 1 / 2 := by
  have : 0 < 1 - nu := by linarith
  constructor
  · apply div_pos _ this; nlinarith
  · rw [div_lt_iff₀ this]; nlinarith

theorem ray_unique {m y x : ℝ} (h0 : 0 < m) (h1 : m < 1 / 2) (hy : rayleigh2 m 2 = y)
    (hr : (∃ x w : ℝ, w ≠ 0 ∧ rayleigh2 m 0 = x + I * w ∧ rayleigh2 m 1 = x - I * w) ∨
      ∃ x0 x1 : ℝ, rayleigh2 m 0 = x0 ∧ rayleigh2 m 1 = x1 ∧ 0 < x0 ∧ x0 < m ∧ 0 < x1 ∧ x1 < m)
    (hx : 1 < x) (he : (2 * x - 1) ^ 4 = 16 * x ^ 2 * (x - m) * (x - 1)) : x = y := by
  have hp := roots3_prod (0.5 * (2 * m - 3) / (1 - m)) (0.5 / (1 - m)) (-0.0625 / (1 - m)) x
  have hq := ray_poly (m := m) (by linarith) x
  have hz : x ^ 3 + 0.5 * (2 * m - 3) / (1 - m) * x ^ 2 + 0.5 / (1 - m) * x + -0.0625 / (1 - m) = 0 := by
    have : (16 * (1 - m)) ≠ 0 := by nlinarith
    apply (mul_eq_zero.mp _).resolve_left this
    rw [hq, he]; ring
  have hz' := congrArg (fun r : ℝ => (r : ℂ)) hz
  push_cast at hz' hp
  rw [hz'] at hp
  change ((x : ℂ) - rayleigh2 m 0) * (x - rayleigh2 m 1) * (x - rayleigh2 m 2) = 0 at hp
  rcases mul_eq_zero.mp hp with hp | hp
  · exfalso
    rcases hr with ⟨u, w, hw, e0, e1⟩ | ⟨x0, x1, e0, e1, a0, b0, a1, b1⟩
    · rcases mul_eq_zero.mp hp with hp | hp
      · rw [e0] at hp; have := congrArg Complex.im hp; simp at this; exact hw this
      · rw [e1] at hp; have := congrArg Complex.im hp; simp at this; exact hw this
    · rcases mul_eq_zero.mp hp with hp | hp
      · rw [e0] at hp; have := congrArg Complex.re hp; simp at this; linarith
      · rw [e1] at hp; have := congrArg Complex.re hp; simp at this; linarith
  · rw [hy] at hp; have := congrArg Complex.re hp; simp at this; linarith

/-- With `al` the P and `be` the S speed of any medium of Poisson's ratio `nu`, the Rayleigh arrival `kpa` that the solver computes is at
`be / v` for the one Rayleigh speed `v`. -/
theorem C105_rayleigh {nu al be : ℝ} (az : ℝ) (h0 : 0 < nu) (h1 : nu < 1 / 2) (hal : 0 < al) (hbe : 0 < be)
    (hnu : nu = (al ^ 2 - 2 * be ^ 2) / (2 * (al ^ 2 - be ^ 2))) (v : ℝ) :
    IsRayleighSpeed al be v ↔ v = be / (mkVars nu az).kpa ∧ 1 < (mkVars nu az).kpa := by
  obtain ⟨k0, k1⟩ := kk_range h0 h1
  obtain ⟨y, ey, y1, hr⟩ := ray_roots k0 k1
  set m := 0.5 * (1 - 2 * nu) / (1 - nu) with hm
  have hkpa : (mkVars nu az).kpa = √y := by
    show √(rayleigh2 m 2).re = √y
    rw [ey]; simp
  have hd : al ^ 2 - be ^ 2 ≠ 0 := by
    intro hc; rw [hc] at hnu; simp at hnu; linarith
  have hmm : m = be ^ 2 / al ^ 2 := by
    rw [hm, hnu]
    have : 1 - (al ^ 2 - 2 * be ^ 2) / (2 * (al ^ 2 - be ^ 2)) ≠ 0 := by rw [← hnu]; linarith
    have e : 1 - (al ^ 2 - 2 * be ^ 2) / (2 * (al ^ 2 - be ^ 2)) = al ^ 2 / (2 * (al ^ 2 - be ^ 2)) := by
      field_simp; ring
    rw [e, div_eq_div_iff (by positivity) (by positivity)]
    field_simp
    ring
  have sy : 1 < √y := by rw [Real.lt_sqrt (by norm_num)]; simpa using y1
  rw [hkpa]
  have key : ∀ x : ℝ, 1 < x → ((2 - 1 / x) ^ 2 = 4 * √(1 - m / x) * √(1 - 1 / x) ↔ x = y) := by
    intro x hx
    have x0 : 0 < x := by linarith
    have p1 : 0 ≤ 1 - m / x := by
      have : m / x < 1 := by rw [div_lt_one x0]; linarith
      linarith
    have p2 : 0 ≤ 1 - 1 / x := by
      have : 1 / x < 1 := by rw [div_lt_one x0]; linarith
      linarith
    have hsq : (2 - 1 / x) ^ 2 = 4 * √(1 - m / x) * √(1 - 1 / x) ↔ (2 * x - 1) ^ 4 = 16 * x ^ 2 * (x - m) * (x - 1) := by
      rw [← pow_left_inj₀ (by positivity) (by positivity) (n := 2) (by norm_num)]
      have e1 : (4 * √(1 - m / x) * √(1 - 1 / x)) ^ 2 = 16 * (1 - m / x) * (1 - 1 / x) := by
        rw [mul_pow, mul_pow, Real.sq_sqrt p1, Real.sq_sqrt p2]; ring
      rw [e1]
      have e2 : ((2 - 1 / x) ^ 2) ^ 2 - 16 * (1 - m / x) * (1 - 1 / x) = ((2 * x - 1) ^ 4 - 16 * x ^ 2 * (x - m) * (x - 1)) / x ^ 4 := by
        field_simp
      rw [← sub_eq_zero, e2, div_eq_zero_iff, ← sub_eq_zero (a := (2 * x - 1) ^ 4)]
      simp [x0.ne']
    rw [hsq]
    constructor
    · exact fun h => ray_unique k0 k1 ey hr hx h
    · rintro rfl
      have hp := roots3_prod (0.5 * (2 * m - 3) / (1 - m)) (0.5 / (1 - m)) (-0.0625 / (1 - m)) x
      change ((x : ℂ) - rayleigh2 m 0) * (x - rayleigh2 m 1) * (x - rayleigh2 m 2) = _ at hp
      rw [ey, sub_self, mul_zero] at hp
      have hz : x ^ 3 + 0.5 * (2 * m - 3) / (1 - m) * x ^ 2 + 0.5 / (1 - m) * x + -0.0625 / (1 - m) = 0 := by
        exact_mod_cast hp.symm
      have hq := ray_poly (m := m) (by linarith) x
      rw [hz] at hq
      linarith
  have tr : ∀ w : ℝ, 0 < w → w < be → (IsRayleighSpeed al be w ↔ (be / w) ^ 2 = y) := by
    intro w w0 w1
    have hx : 1 < (be / w) ^ 2 := by
      have : 1 < be / w := by rw [lt_div_iff₀ w0]; linarith
      nlinarith
    rw [← key _ hx]
    have e1 : 1 / (be / w) ^ 2 = w ^ 2 / be ^ 2 := by field_simp
    have e2 : m / (be / w) ^ 2 = w ^ 2 / al ^ 2 := by rw [hmm]; field_simp
    rw [e1, e2]
    exact ⟨fun h => h.2.2, fun h => ⟨w0, w1, h⟩⟩
  have sy0 : 0 < √y := by linarith
  constructor
  · intro h
    refine ⟨?_, sy⟩
    have := (tr v h.1 h.2.1).mp h
    have hv : be / v = √y := by rw [← this, Real.sqrt_sq (div_pos hbe h.1).le]
    have hv0 := h.1
    rw [← hv]; field_simp
  · rintro ⟨rfl, -⟩
    refine (tr _ (div_pos hbe sy0) (div_lt_self hbe sy)).mpr ?_
    have : be / (be / √y) = √y := by field_simp
    rw [this, Real.sq_sqrt (by linarith)]

/-- A Poisson solid: `al = √3`, `be = 1`, `nu = 1/4`. -/
example : ∃ v, IsRayleighSpeed (√3) 1 v ∧ v = 1 / (mkVars 0.25 30).kpa := by
  have h := C105_rayleigh (nu := 0.25) (al := √3) (be := 1) 30 (by norm_num) (by norm_num) (by positivity) (by norm_num)
    (by rw [Real.sq_sqrt (by norm_num)]; norm_num)
  have hk : 1 < (mkVars 0.25 30).kpa := by
    obtain ⟨k0, k1⟩ := kk_range (nu := 0.25) (by norm_num) (by norm_num)
    obtain ⟨y, ey, y1, -⟩ := ray_roots k0 k1
    show 1 < √(rayleigh2 _ 2).re
    rw [ey, Real.lt_sqrt (by norm_num)]
    simpa using y1
  exact ⟨_, (h _).mpr ⟨rfl, hk⟩, rfl⟩

/-- And the value: the speed squared is `2 - 2/√3`. -/
example : IsRayleighSpeed (√3) 1 (√(2 - 2 / √3)) := by
  have s : √3 * √3 = 3 := Real.mul_self_sqrt (by norm_num)
  have s0 : 0 < √(3 : ℝ) := by positivity
  have s1 : (1.7 : ℝ) < √3 := by rw [Real.lt_sqrt (by norm_num)]; norm_num
  have s2 : √3 < (1.8 : ℝ) := by rw [Real.sqrt_lt' (by norm_num)]; norm_num
  have e : 2 / √3 = 2 * √3 / 3 := by field_simp; nlinarith
  rw [e]
  have hp : (0 : ℝ) < 2 - 2 * √3 / 3 := by nlinarith
  refine ⟨by positivity, ?_, ?_⟩
  · rw [Real.sqrt_lt' (by norm_num)]; nlinarith
  · rw [Real.sq_sqrt hp.le, Real.sq_sqrt (by norm_num), mul_assoc, ← Real.sqrt_mul (by nlinarith)]
    have : (1 - (2 - 2 * √3 / 3) / 3) * (1 - (2 - 2 * √3 / 3) / 1 ^ 2) = (1 / 3) ^ 2 := by
      linear_combination (4 / 27) * s
    rw [this, Real.sqrt_sq (by norm_num)]
    linear_combination (4 / 9) * s

end GRT.Lamb
