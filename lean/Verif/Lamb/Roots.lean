import Verif.Lamb.Util
import Mathlib.Algebra.QuadraticDiscriminant
import Mathlib.Tactic.LinearCombination
import Mathlib.Tactic.FieldSimp

/-! The roots of the cubic of lamb_util.c. -/

namespace GRT.Lamb

open Complex

/-- How the roots of a real cubic with distinct roots lie: one real and two conjugate, or three real. -/
theorem roots3_trig (a b c : ℝ) (hQ : 0 < (a * a - 3 * b) / 9)
    (hR : (2 * a * a * a - 9 * a * b + 27 * c) / 54 * ((2 * a * a * a - 9 * a * b + 27 * c) / 54) <
      (a * a - 3 * b) / 9 * ((a * a - 3 * b) / 9) * ((a * a - 3 * b) / 9)) :
    ∃ x0 x1 x2 : ℝ, roots3 a b c = ![(x0 : ℂ), (x1 : ℂ), (x2 : ℂ)] ∧ x0 + x1 + x2 = -a ∧ x0 * x1 + x0 * x2 + x1 * x2 = b ∧
      x0 * x1 * x2 = -c ∧ x0 < x1 ∧ x1 < x2 := by
  set Q := (a * a - 3 * b) / 9 with hQd
  set R := (2 * a * a * a - 9 * a * b + 27 * c) / 54 with hRd
  have hb : b = (a * a - 9 * Q) / 3 := by rw [hQd]; ring
  have hc : c = (54 * R - 2 * a * a * a + 9 * a * b) / 27 := by rw [hRd]; ring
  set q := √Q with hq
  have q2 : q * q = Q := Real.mul_self_sqrt hQ.le
  have qp : 0 < q := Real.sqrt_pos.2 hQ
  have q3 : √(Q * Q * Q) = q * q * q := by
    rw [show Q * Q * Q = (q * q * q) * (q * q * q) by rw [← q2]; ring]
    exact Real.sqrt_mul_self (by positivity)
  have hlt : |R| < q * q * q := by
    rw [abs_lt]
    have e : Q * Q * Q = (q * q * q) * (q * q * q) := by rw [← q2]; ring
    have p : 0 < q * q * q := by positivity
    constructor <;> nlinarith
  obtain ⟨h1, h2⟩ := abs_lt.1 hlt
  have p : 0 < q * q * q := by positivity
  set th := Real.arccos (R / (q * q * q)) with hth
  have ct : Real.cos th = R / (q * q * q) := by
    apply Real.cos_arccos
    · rw [le_div_iff₀ p]; linarith
    · rw [div_le_one p]; linarith
  have t0 : 0 < th := Real.arccos_pos.2 (by rw [div_lt_one p]; exact h2)
  have t1 : th < Real.pi := by
    refine lt_of_le_of_ne (Real.arccos_le_pi _) fun h => ?_
    have : Real.cos th = -1 := by rw [show th = Real.pi from h, Real.cos_pi]
    rw [ct, div_eq_iff p.ne'] at this
    linarith
  set cc := Real.cos (th / 3) with hcc
  set ss := Real.sin (th / 3) with hss
  have one : ss ^ 2 + cc ^ 2 = 1 := Real.sin_sq_add_cos_sq _
  have c3 : Real.cos th = 4 * cc ^ 3 - 3 * cc := by
    rw [hcc, ← Real.cos_three_mul]; congr 1; ring
  have s3 : √3 * √3 = (3 : ℝ) := Real.mul_self_sqrt (by norm_num)
  have cp : Real.cos (Real.pi * 2 / 3) = -(1 / 2) := by
    rw [show Real.pi * 2 / 3 = Real.pi - Real.pi / 3 by ring, Real.cos_pi_sub, Real.cos_pi_div_three]
  have sp : Real.sin (Real.pi * 2 / 3) = √3 / 2 := by
    rw [show Real.pi * 2 / 3 = Real.pi - Real.pi / 3 by ring, Real.sin_pi_sub, Real.sin_pi_div_three]
  have e1 : Real.cos ((th - Real.pi * 2) / 3) = -cc / 2 + √3 / 2 * ss := by
    rw [sub_div, Real.cos_sub, cp, sp]; ring
  have e2 : Real.cos ((th + Real.pi * 2) / 3) = -cc / 2 - √3 / 2 * ss := by
    rw [add_div, Real.cos_add, cp, sp]; ring
  have r3 : R = (4 * cc ^ 3 - 3 * cc) * (q * q * q) := by
    rw [← c3, ct, div_mul_cancel₀ _ p.ne']
  have sspos : 0 < ss := Real.sin_pos_of_pos_of_lt_pi (by linarith) (by linarith [Real.pi_pos])
  have cpos : 1 / 2 < cc := by
    rw [← Real.cos_pi_div_three]
    exact Real.cos_lt_cos_of_nonneg_of_le_pi (by linarith) (by linarith [Real.pi_pos]) (by linarith)
  have s3p : 0 < (√3 : ℝ) := Real.sqrt_pos.2 (by norm_num)
  -- sin < √3 cos, as the angle is below π/3
  have slt : ss < √3 * cc := by
    have := Real.sin_lt_sin_of_lt_of_le_pi_div_two (x := th / 3) (y := Real.pi / 3) (by linarith [Real.pi_pos]) (by linarith [Real.pi_pos])
      (by linarith)
    rw [Real.sin_pi_div_three] at this
    nlinarith
  refine ⟨-2 * q * cc - a / 3, -2 * q * (-cc / 2 + √3 / 2 * ss) - a / 3, -2 * q * (-cc / 2 - √3 / 2 * ss) - a / 3, ?_, by ring, ?_, ?_, ?_, ?_⟩
  · unfold roots3
    dsimp only
    rw [if_pos ⟨hQ, hR⟩, q3, ← hth, e1, e2]
  · rw [hb]
    have : -3 * q * q * (ss ^ 2 + cc ^ 2) + a * a / 3 = (a * a - 9 * Q) / 3 := by rw [one, ← q2]; ring
    rw [← this]
    linear_combination (-q * q * ss ^ 2) * s3
  · rw [hc, hb, r3, ← q2]
    have o : ss ^ 2 = 1 - cc ^ 2 := by linarith
    linear_combination ((2 * q * cc + a / 3) * (q * q * ss ^ 2)) * s3 + (6 * q * q * q * cc + a * q * q) * o
  · have h := mul_pos (mul_pos qp s3p) (by linarith : (0 : ℝ) < √3 * cc - ss)
    have e : q * √3 * (√3 * cc - ss) = 3 * q * cc - q * √3 * ss := by linear_combination (q * cc) * s3
    linarith
  · have h := mul_pos qp (mul_pos s3p sspos)
    linarith

theorem roots3_card (a b c : ℝ) (h : ¬(0 < (a * a - 3 * b) / 9 ∧
    (2 * a * a * a - 9 * a * b + 27 * c) / 54 * ((2 * a * a * a - 9 * a * b + 27 * c) / 54) <
      (a * a - 3 * b) / 9 * ((a * a - 3 * b) / 9) * ((a * a - 3 * b) / 9))) :
    ∃ x w y : ℝ, roots3 a b c = ![(x : ℂ) + I * w, (x : ℂ) - I * w, (y : ℂ)] ∧ 2 * x + y = -a ∧ x * x + w * w + 2 * x * y = b ∧
      (x * x + w * w) * y = -c := by
  set Q := (a * a - 3 * b) / 9 with hQd
  set R := (2 * a * a * a - 9 * a * b + 27 * c) / 54 with hRd
  have hb : b = (a * a - 9 * Q) / 3 := by rw [hQd]; ring
  have hc : c = (54 * R - 2 * a * a * a + 9 * a * b) / 27 := by rw [hRd]; ring
  have hD : 0 ≤ R * R - Q * Q * Q := by
    by_cases hq : 0 < Q
    · have : ¬R * R < Q * Q * Q := fun k => h ⟨hq, k⟩
      linarith
    · have : Q * Q * Q ≤ 0 := mul_nonpos_of_nonneg_of_nonpos (mul_self_nonneg Q) (not_lt.1 hq)
      nlinarith [mul_self_nonneg R]
  set D := √(R * R - Q * Q * Q) with hDd
  have D2 : D * D = R * R - Q * Q * Q := Real.mul_self_sqrt hD
  have D0 : 0 ≤ D := Real.sqrt_nonneg _
  set A0 := (|R| + D) ^ ((1 : ℝ) / 3) with hA0
  have base : 0 ≤ |R| + D := by positivity
  have A03 : A0 ^ 3 = |R| + D := by
    rw [hA0, ← Real.rpow_natCast, ← Real.rpow_mul base]
    norm_num
  set A := if R > 0 then -A0 else A0 with hA
  set B := if A ≠ 0 then Q / A else 0 with hB
  have T : A ^ 3 * A ^ 3 + 2 * R * A ^ 3 + Q * Q * Q = 0 := by
    rcases lt_or_ge 0 R with hr | hr
    · rw [hA, if_pos hr, show (-A0) ^ 3 = -A0 ^ 3 by ring, A03, abs_of_pos hr]
      linear_combination D2
    · rw [hA, if_neg (not_lt.2 hr), A03, abs_of_nonpos hr]
      linear_combination D2
  have AB : A * B = Q := by
    by_cases a0 : A = 0
    · rw [a0, zero_mul]
      rw [a0] at T
      have : Q * Q * Q = 0 := by linarith
      exact (by simpa using this : Q = 0).symm
    · rw [hB, if_pos a0, mul_div_cancel₀ _ a0]
  have sum : A ^ 3 + B ^ 3 = -2 * R := by
    by_cases a0 : A = 0
    · have b0 : B = 0 := by rw [hB, if_neg (by simpa using a0)]
      have : A0 = 0 := by
        rw [hA] at a0
        split at a0 <;> linarith
      rw [this] at A03
      have r0 : |R| = 0 := by have := abs_nonneg R; norm_num at A03; linarith
      rw [a0, b0, abs_eq_zero.1 r0]; norm_num
    · have h3 : A ^ 3 ≠ 0 := pow_ne_zero 3 a0
      apply mul_left_cancel₀ h3
      have : A ^ 3 * B ^ 3 = Q * Q * Q := by rw [← AB]; ring
      linear_combination T + this
  have s3 : √3 * √3 = (3 : ℝ) := Real.mul_self_sqrt (by norm_num)
  refine ⟨-0.5 * (A + B) - a / 3, √3 / 2 * (A - B), A + B - a / 3, ?_, by ring, ?_, ?_⟩
  · unfold roots3
    dsimp only
    rw [if_neg h]
    funext i
    fin_cases i
    · simp only [Matrix.cons_val_zero, Fin.zero_eta]
      push_cast
      rw [← hDd, ← hA0, ← hA, ← hB]
      ring
    · simp only [Matrix.cons_val_one, Fin.mk_one]
      push_cast
      rw [← hDd, ← hA0, ← hA, ← hB]
      ring
    · rfl
  · rw [hb, ← AB]
    linear_combination ((A - B) ^ 2 / 4) * s3
  · rw [hc, hb, ← AB]
    linear_combination ((A - B) ^ 2 / 4 * (A + B - a / 3)) * s3 + sum

/-- The polynomial whose roots are computed. -/
theorem roots3_prod (a b c : ℝ) (y : ℂ) :
    (y - roots3 a b c 0) * (y - roots3 a b c 1) * (y - roots3 a b c 2) = y ^ 3 + a * y ^ 2 + b * y + c := by
  by_cases h : 0 < (a * a - 3 * b) / 9 ∧ (2 * a * a * a - 9 * a * b + 27 * c) / 54 * ((2 * a * a * a - 9 * a * b + 27 * c) / 54) <
      (a * a - 3 * b) / 9 * ((a * a - 3 * b) / 9) * ((a * a - 3 * b) / 9)
  · obtain ⟨x0, x1, x2, e, h1, h2, h3, -, -⟩ := roots3_trig a b c h.1 h.2
    rw [e]
    simp only [Matrix.cons_val_zero, Matrix.cons_val_one, Matrix.cons_val]
    have ha : (a : ℂ) = -(x0 + x1 + x2) := by exact_mod_cast (by linarith : a = -(x0 + x1 + x2))
    have hb : (b : ℂ) = x0 * x1 + x0 * x2 + x1 * x2 := by exact_mod_cast h2.symm
    have hc : (c : ℂ) = -(x0 * x1 * x2) := by exact_mod_cast (by linarith : c = -(x0 * x1 * x2))
    rw [ha, hb, hc]
    ring
  · obtain ⟨x, w, z, e, h1, h2, h3⟩ := roots3_card a b c h
    rw [e]
    simp only [Matrix.cons_val_zero, Matrix.cons_val_one, Matrix.cons_val]
    have ha : (a : ℂ) = -(2 * x + z) := by exact_mod_cast (by linarith : a = -(2 * x + z))
    have hb : (b : ℂ) = x * x + w * w + 2 * x * z := by exact_mod_cast h2.symm
    have hc : (c : ℂ) = -((x * x + w * w) * z) := by exact_mod_cast (by linarith : c = -((x * x + w * w) * z))
    rw [ha, hb, hc]
    linear_combination (-(w : ℂ) ^ 2 * (y - z)) * I_sq

/-- The roots move with the polynomial. -/
theorem roots3_shift (a b c m : ℝ) (i : Fin 3) :
    roots3 (a + 3 * m) (b + 2 * a * m + 3 * m * m) (c + b * m + a * m * m + m * m * m) i = roots3 a b c i - m := by
  have eQ : ((a + 3 * m) * (a + 3 * m) - 3 * (b + 2 * a * m + 3 * m * m)) / 9 = (a * a - 3 * b) / 9 := by ring
  have eR : (2 * (a + 3 * m) * (a + 3 * m) * (a + 3 * m) - 9 * (a + 3 * m) * (b + 2 * a * m + 3 * m * m) +
      27 * (c + b * m + a * m * m + m * m * m)) / 54 = (2 * a * a * a - 9 * a * b + 27 * c) / 54 := by ring
  unfold roots3
  dsimp only
  rw [eQ, eR]
  split
  · fin_cases i <;> simp <;> ring
  · fin_cases i <;> simp <;> ring

/-- The cubic and Rayleigh's equation. -/
theorem ray_poly {m : ℝ} (hm : m < 1) (x : ℝ) :
    16 * (1 - m) * (x ^ 3 + 0.5 * (2 * m - 3) / (1 - m) * x ^ 2 + 0.5 / (1 - m) * x + -0.0625 / (1 - m)) =
      -((2 * x - 1) ^ 4 - 16 * x ^ 2 * (x - m) * (x - 1)) := by
  have : 1 - m ≠ 0 := by linarith
  field_simp
  ring

/-- How the roots of Rayleigh's cubic lie. -/
theorem ray_roots {m : ℝ} (h0 : 0 < m) (h1 : m < 1 / 2) :
    ∃ y : ℝ, rayleigh2 m 2 = y ∧ 1 < y ∧ ((∃ x w : ℝ, w ≠ 0 ∧ rayleigh2 m 0 = x + I * w ∧ rayleigh2 m 1 = x - I * w) ∨
      ∃ x0 x1 : ℝ, rayleigh2 m 0 = x0 ∧ rayleigh2 m 1 = x1 ∧ 0 < x0 ∧ x0 < m ∧ 0 < x1 ∧ x1 < m) := by
  set a := 0.5 * (2 * m - 3) / (1 - m) with ha
  set b := 0.5 / (1 - m) with hb
  set c := -0.0625 / (1 - m) with hc
  have m1 : 0 < 1 - m := by linarith
  have pol : ∀ x : ℝ, 16 * (1 - m) * (x ^ 3 + a * x ^ 2 + b * x + c) = -((2 * x - 1) ^ 4 - 16 * x ^ 2 * (x - m) * (x - 1)) :=
    ray_poly (by linarith)
  have cb : -c < 1 / 8 := by
    rw [hc, neg_div, neg_neg, div_lt_iff₀ m1]
    norm_num
    linarith
  have neg : ∀ x : ℝ, x ≤ 0 ∨ (m ≤ x ∧ x ≤ 1) → x ^ 3 + a * x ^ 2 + b * x + c < 0 := by
    intro x hx
    rcases hx with hx | ⟨hx, hx'⟩
    · have a0 : a < 0 := by rw [ha]; exact div_neg_of_neg_of_pos (by linarith) m1
      have b0 : 0 < b := by rw [hb]; exact div_pos (by norm_num) m1
      have c0 : c < 0 := by rw [hc]; exact div_neg_of_neg_of_pos (by norm_num) m1
      have e1 : x ^ 3 ≤ 0 := by nlinarith [sq_nonneg x]
      have e2 : a * x ^ 2 ≤ 0 := by nlinarith [sq_nonneg x]
      have e3 : b * x ≤ 0 := by nlinarith
      linarith
    · have h := pol x
      have : 0 < (2 * x - 1) ^ 4 - 16 * x ^ 2 * (x - m) * (x - 1) := by
        have g : 0 ≤ 16 * x ^ 2 * ((x - m) * (1 - x)) := by
          have := mul_nonneg (by linarith : 0 ≤ x - m) (by linarith : 0 ≤ 1 - x)
          positivity
        have f : 0 ≤ (2 * x - 1) ^ 4 := by positivity
        rcases eq_or_ne (2 * x - 1) 0 with hz | hz
        · have x12 : x = 1 / 2 := by linarith
          rw [x12]
          norm_num
          linarith
        · have : 0 < (2 * x - 1) ^ 4 := by positivity
          linarith
      rw [← not_le]
      intro hh
      have := mul_nonneg (by linarith : (0 : ℝ) ≤ 16 * (1 - m)) hh
      linarith
  have one := neg 1 (Or.inr ⟨by linarith, le_refl _⟩)
  have out : ∀ x : ℝ, x ^ 3 + a * x ^ 2 + b * x + c = 0 → (0 < x ∧ x < m) ∨ 1 < x := by
    intro x hx
    by_contra hcon
    push Not at hcon
    have : x ≤ 0 ∨ (m ≤ x ∧ x ≤ 1) := by
      by_cases hx0 : x ≤ 0
      · exact Or.inl hx0
      · exact Or.inr ⟨hcon.1 (not_le.1 hx0), hcon.2⟩
    exact absurd hx (neg x this).ne
  have r2 : rayleigh2 m = roots3 a b c := rfl
  by_cases h : 0 < (a * a - 3 * b) / 9 ∧ (2 * a * a * a - 9 * a * b + 27 * c) / 54 * ((2 * a * a * a - 9 * a * b + 27 * c) / 54) <
      (a * a - 3 * b) / 9 * ((a * a - 3 * b) / 9) * ((a * a - 3 * b) / 9)
  · obtain ⟨x0, x1, x2, e, s1, s2, s3, l1, l2⟩ := roots3_trig a b c h.1 h.2
    have fac : ∀ x : ℝ, x ^ 3 + a * x ^ 2 + b * x + c = (x - x0) * (x - x1) * (x - x2) := by
      intro x
      linear_combination x ^ 2 * s1 - x * s2 + s3
    have o0 := out x0 (by rw [fac]; ring)
    have o1 := out x1 (by rw [fac]; ring)
    have o2 := out x2 (by rw [fac]; ring)
    rw [fac] at one
    have p0 : 0 < x0 ∧ x0 < m := by
      rcases o0 with o0 | o0
      · exact o0
      · exfalso
        have a1 : 1 < x1 := by linarith
        have a2 : 1 < x2 := by linarith
        have : 1 < x0 * x1 := by nlinarith
        have : 1 < x0 * x1 * x2 := by nlinarith
        linarith
    have p1 : 0 < x1 ∧ x1 < m := by
      rcases o1 with o1 | o1
      · exact o1
      · exfalso
        have a2 : 1 < x2 := by linarith
        have := mul_pos (mul_pos (by linarith [p0.2] : 0 < 1 - x0) (by linarith : 0 < x1 - 1)) (by linarith : 0 < x2 - 1)
        nlinarith
    have p2 : 1 < x2 := by
      rcases o2 with o2 | o2
      · exfalso
        have := mul_pos (mul_pos (by linarith [p0.2] : 0 < 1 - x0) (by linarith [p1.2] : 0 < 1 - x1)) (by linarith [o2.2] : 0 < 1 - x2)
        linarith
      · exact o2
    rw [r2, e]
    exact ⟨x2, rfl, p2, Or.inr ⟨x0, x1, rfl, rfl, p0.1, p0.2, p1.1, p1.2⟩⟩
  · obtain ⟨x, w, y, e, s1, s2, s3⟩ := roots3_card a b c h
    have fac : ∀ z : ℝ, z ^ 3 + a * z ^ 2 + b * z + c = ((z - x) ^ 2 + w ^ 2) * (z - y) := by
      intro z
      linear_combination z ^ 2 * s1 - z * s2 + s3
    rw [fac] at one
    have y1 : 1 < y := by
      by_contra hy
      have : 0 ≤ ((1 - x) ^ 2 + w ^ 2) * (1 - y) := mul_nonneg (by positivity) (by linarith)
      linarith
    rw [r2, e]
    refine ⟨y, rfl, y1, ?_⟩
    by_cases hw : w = 0
    · right
      rcases out x (by rw [fac, hw]; ring) with o | o
      · exact ⟨x, x, by simp [hw], by simp [hw], o.1, o.2, o.1, o.2⟩
      · exfalso
        have : 1 < x * x + w * w := by nlinarith [mul_self_nonneg w]
        have : 1 < (x * x + w * w) * y := by nlinarith
        linarith
    · exact Or.inl ⟨x, w, hw, rfl, rfl⟩

/-- The two cubics have the same roots. -/
theorem ray_shift {nu : ℝ} (h1 : nu < 1 / 2) (i : Fin 3) :
    rayleigh1 nu i = rayleigh2 (0.5 * (1 - 2 * nu) / (1 - nu)) i - ((0.5 * (1 - 2 * nu) / (1 - nu) : ℝ) : ℂ) := by
  have hn : 1 - nu ≠ 0 := by linarith
  have e : 1 - 0.5 * (1 - 2 * nu) / (1 - nu) = 0.5 / (1 - nu) := by
    field_simp
    ring
  unfold rayleigh2
  rw [← roots3_shift, e]
  unfold rayleigh1
  congr 1 <;> field_simp <;> ring

end GRT.Lamb
