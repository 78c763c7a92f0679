import Verif.Lamb.Tables
import Mathlib.MeasureTheory.Integral.IntervalIntegral.Basic

/-! `build_raw` as four sums over the roots, each the partial fractions of a quotient of polynomials. -/

namespace GRT.Lamb

open Complex Finset

local notation "cj" => starRingEnd ℂ

/-- The polynomial of degree 4. -/
noncomputable def quart (e : Fin 5 → ℂ) (y : ℂ) : ℂ := e 0 + e 1 * y + e 2 * y ^ 2 + e 3 * y ^ 3 + e 4 * y ^ 4

/-- One of the four sums in `build_raw`. -/
noncomputable def grp (sgn kpkp : ℝ) (ys : Fin 3 → ℂ) (e : Fin 5 → ℂ) (w : ℂ → ℂ) (w3 w5 : ℂ) : ℂ :=
  let y : Fin 3 → ℂ := fun r => ys r * sgn
  let d := delta sgn kpkp y
  let f : ℂ := -1 / (16 * kpkp) * sgn
  quart e (y 0) / d 0 * w (ys 0) + quart e (y 1) / d 1 * w (ys 1) + quart e (y 2) / d 2 * w (ys 2) +
    f * (e 3 + (y 0 + y 1 + y 2) * e 4) * w3 + f * e 4 * w5

def evens (c : ℕ → ℂ) : Fin 5 → ℂ := ![c 0, c 2, c 4, c 6, c 8]

def odds (c : ℕ → ℂ) : Fin 5 → ℂ := ![c 1, c 3, c 5, c 7, c 9]

theorem buildRaw_eq (sgn kpkp : ℝ) (ys : Fin 3 → ℂ) (c1 c2 : ℕ → ℂ) (U W : ℕ → ℂ → ℂ) (h9 : c1 9 = 0) (w5 : ℂ) :
    buildRaw sgn kpkp ys c1 c2 U W =
      grp sgn kpkp ys (evens c1) (U 2) (U 3 (ys 2)) (U 5 (ys 2)) + grp sgn kpkp ys (odds c1) (U 1) (U 4 (ys 2)) w5 +
      (grp sgn kpkp ys (evens c2) (W 2) (W 3 (ys 2)) (W 5 (ys 2)) + grp sgn kpkp ys (odds c2) (W 1) (W 4 (ys 2)) (W 6 (ys 2))) := by
  unfold buildRaw grp
  simp only [quart, evens, odds, evalpoly2, Matrix.cons_val, h9]
  ring

theorem poly_split (c : ℕ → ℂ) (x : ℂ) : poly c x = quart (evens c) (x * x) + x * quart (odds c) (x * x) := by
  unfold poly
  simp only [sum_range_succ, sum_range_zero, quart, evens, odds, Matrix.cons_val]
  ring

/-- The denominator. -/
noncomputable def den (sgn kpkp : ℝ) (ys : Fin 3 → ℂ) (X : ℂ) : ℂ := -16 * sgn * kpkp * ((X - ys 0 * sgn) * (X - ys 1 * sgn) * (X - ys 2 * sgn))

/-- The roots differ. -/
def Apart (ys : Fin 3 → ℂ) : Prop := ys 0 ≠ ys 1 ∧ ys 0 ≠ ys 2 ∧ ys 1 ≠ ys 2

theorem partial_fractions (sgn kpkp : ℝ) (ys : Fin 3 → ℂ) (e : Fin 5 → ℂ) (X : ℂ) (hs : sgn = 1 ∨ sgn = -1) (hk : kpkp ≠ 0)
    (ha : Apart ys) (h0 : X ≠ ys 0 * sgn) (h1 : X ≠ ys 1 * sgn) (h2 : X ≠ ys 2 * sgn) :
    quart e X / den sgn kpkp ys X = quart e (ys 0 * sgn) / delta sgn kpkp (fun r => ys r * sgn) 0 * (1 / (X - ys 0 * sgn)) +
      quart e (ys 1 * sgn) / delta sgn kpkp (fun r => ys r * sgn) 1 * (1 / (X - ys 1 * sgn)) +
      quart e (ys 2 * sgn) / delta sgn kpkp (fun r => ys r * sgn) 2 * (1 / (X - ys 2 * sgn)) +
      -1 / (16 * kpkp) * sgn * (e 3 + (ys 0 * sgn + ys 1 * sgn + ys 2 * sgn) * e 4) + -1 / (16 * kpkp) * sgn * e 4 * X := by
  obtain ⟨a1, a2, a3⟩ := ha
  have s0 : (sgn : ℂ) ≠ 0 := by rcases hs with h | h <;> rw [h] <;> norm_num
  have ss : (sgn : ℂ) * sgn = 1 := by rcases hs with h | h <;> rw [h] <;> norm_num
  have k0 : (kpkp : ℂ) ≠ 0 := by exact_mod_cast hk
  have b1 : ys 0 * sgn - ys 1 * sgn ≠ 0 := by rw [← sub_mul]; exact mul_ne_zero (sub_ne_zero.mpr a1) s0
  have b2 : ys 0 * sgn - ys 2 * sgn ≠ 0 := by rw [← sub_mul]; exact mul_ne_zero (sub_ne_zero.mpr a2) s0
  have b3 : ys 1 * sgn - ys 2 * sgn ≠ 0 := by rw [← sub_mul]; exact mul_ne_zero (sub_ne_zero.mpr a3) s0
  have b4 : ys 1 * sgn - ys 0 * sgn ≠ 0 := by rw [← neg_sub]; exact neg_ne_zero.mpr b1
  have b5 : ys 2 * sgn - ys 0 * sgn ≠ 0 := by rw [← neg_sub]; exact neg_ne_zero.mpr b2
  have b6 : ys 2 * sgn - ys 1 * sgn ≠ 0 := by rw [← neg_sub]; exact neg_ne_zero.mpr b3
  have c0 := sub_ne_zero.mpr h0
  have c1 := sub_ne_zero.mpr h1
  have c2 := sub_ne_zero.mpr h2
  have ef : -1 / (16 * (kpkp : ℂ)) * sgn = 1 / (-16 * sgn * kpkp) := by
    field_simp
    linear_combination -ss
  rw [ef]
  simp only [delta, den, quart, Matrix.cons_val]
  generalize ys 0 * (sgn : ℂ) = u at *
  generalize ys 1 * (sgn : ℂ) = v at *
  generalize ys 2 * (sgn : ℂ) = w at *
  have g0 : (-16 * (sgn : ℂ) * kpkp) ≠ 0 := by
    refine mul_ne_zero (mul_ne_zero (by norm_num) s0) k0
  generalize (-16 * (sgn : ℂ) * kpkp) = g at *
  have e1 : v - u = -(u - v) := by ring
  have e2 : w - u = -(u - w) := by ring
  have e3 : w - v = -(v - w) := by ring
  rw [e1, e2, e3]
  field_simp
  ring

theorem grp_integral (sgn kpkp : ℝ) (ys : Fin 3 → ℂ) (e : Fin 5 → ℂ) (w : ℂ → ℂ) (w3 w5 : ℂ) (g : ℝ → ℂ) (X : ℝ → ℂ) (u : ℝ)
    (hs : sgn = 1 ∨ sgn = -1) (hk : kpkp ≠ 0) (ha : Apart ys) (hg : Continuous g) (hX : Continuous X)
    (hne : ∀ r θ, X θ ≠ ys r * sgn) (hw : ∀ r, w (ys r) = ∫ θ in 0..u, g θ / (X θ - ys r * sgn)) (h3 : w3 = ∫ θ in 0..u, g θ)
    (h5 : w5 = ∫ θ in 0..u, g θ * X θ) :
    grp sgn kpkp ys e w w3 w5 = ∫ θ in 0..u, g θ * (quart e (X θ) / den sgn kpkp ys (X θ)) := by
  have hc : ∀ r, Continuous fun θ => g θ / (X θ - ys r * sgn) := fun r =>
    hg.div (hX.sub continuous_const) fun θ => sub_ne_zero.mpr (hne r θ)
  have hcX : Continuous fun θ => g θ * X θ := hg.mul hX
  have hi : ∀ {f : ℝ → ℂ}, Continuous f → IntervalIntegrable f MeasureTheory.volume 0 u := fun h => h.intervalIntegrable _ _
  have : ∀ θ, g θ * (quart e (X θ) / den sgn kpkp ys (X θ)) =
      quart e (ys 0 * sgn) / delta sgn kpkp (fun r => ys r * sgn) 0 * (g θ / (X θ - ys 0 * sgn)) +
      quart e (ys 1 * sgn) / delta sgn kpkp (fun r => ys r * sgn) 1 * (g θ / (X θ - ys 1 * sgn)) +
      quart e (ys 2 * sgn) / delta sgn kpkp (fun r => ys r * sgn) 2 * (g θ / (X θ - ys 2 * sgn)) +
      -1 / (16 * kpkp) * sgn * (e 3 + (ys 0 * sgn + ys 1 * sgn + ys 2 * sgn) * e 4) * g θ +
      -1 / (16 * kpkp) * sgn * e 4 * (g θ * X θ) := by
    intro θ
    rw [partial_fractions sgn kpkp ys e (X θ) hs hk ha (hne 0 θ) (hne 1 θ) (hne 2 θ)]
    ring
  simp only [this]
  rw [intervalIntegral.integral_add, intervalIntegral.integral_add, intervalIntegral.integral_add, intervalIntegral.integral_add]
  · simp only [intervalIntegral.integral_const_mul]
    rw [← hw, ← hw, ← hw, ← h3, ← h5]
    unfold grp
    ring
  all_goals
    first
    | exact hi ((hc 0).const_mul _)
    | exact hi ((hc 1).const_mul _)
    | exact hi ((hc 2).const_mul _)
    | exact hi (hg.const_mul _)
    | exact hi (hcX.const_mul _)
    | exact hi (((hc 0).const_mul _).add ((hc 1).const_mul _))
    | exact hi ((((hc 0).const_mul _).add ((hc 1).const_mul _)).add ((hc 2).const_mul _))
    | exact hi (((((hc 0).const_mul _).add ((hc 1).const_mul _)).add ((hc 2).const_mul _)).add (hg.const_mul _))

/-- The roots are real, or two of them conjugate and the last real. -/
def ConjRoots (ys : Fin 3 → ℂ) : Prop :=
  (∀ r, cj (ys r) = ys r) ∨ (cj (ys 0) = ys 1 ∧ cj (ys 1) = ys 0 ∧ cj (ys 2) = ys 2)

theorem conj_quart (e : Fin 5 → ℂ) (y : ℂ) : cj (quart e y) = quart (fun n => cj (e n)) (cj y) := by
  simp only [quart, map_add, map_mul, map_pow]

theorem conj_grp (sgn kpkp : ℝ) (ys : Fin 3 → ℂ) (e : Fin 5 → ℂ) (w : ℂ → ℂ) (w3 w5 : ℂ) (hy : ConjRoots ys)
    (hw : ∀ r, cj (w (ys r)) = w (cj (ys r))) :
    cj (grp sgn kpkp ys e w w3 w5) = grp sgn kpkp ys (fun n => cj (e n)) w (cj w3) (cj w5) := by
  unfold grp
  simp only [delta, Matrix.cons_val, map_add, map_mul, map_div₀, map_sub, map_neg, map_ofNat, map_one, conj_quart, hw, conj_ofReal]
  rcases hy with h | ⟨h0, h1, h2⟩
  · simp only [h]
  · simp only [h0, h1, h2]
    ring

theorem grp_real {sgn kpkp : ℝ} {ys : Fin 3 → ℂ} {e : Fin 5 → ℂ} {w : ℂ → ℂ} {w3 w5 : ℂ} (hy : ConjRoots ys)
    (hw : ∀ r, cj (w (ys r)) = w (cj (ys r))) (h3 : cj w3 = w3) (h5 : cj w5 = w5) (he : ∀ n, cj (e n) = e n) :
    (grp sgn kpkp ys e w w3 w5).im = 0 := by
  have h := conj_grp sgn kpkp ys e w w3 w5 hy hw
  rw [h3, h5] at h
  simp only [he] at h
  exact conj_eq_iff_im.mp h

theorem grp_neg (sgn kpkp : ℝ) (ys : Fin 3 → ℂ) (e : Fin 5 → ℂ) (w : ℂ → ℂ) (w3 w5 : ℂ) :
    grp sgn kpkp ys (fun n => -e n) w w3 w5 = -grp sgn kpkp ys e w w3 w5 := by
  unfold grp
  simp only [quart]
  ring

theorem grp_imag {sgn kpkp : ℝ} {ys : Fin 3 → ℂ} {e : Fin 5 → ℂ} {w : ℂ → ℂ} {w3 w5 : ℂ} (hy : ConjRoots ys)
    (hw : ∀ r, cj (w (ys r)) = w (cj (ys r))) (h3 : cj w3 = w3) (h5 : cj w5 = w5) (he : ∀ n, cj (e n) = -e n) :
    (grp sgn kpkp ys e w w3 w5).re = 0 := by
  have h := conj_grp sgn kpkp ys e w w3 w5 hy hw
  rw [h3, h5] at h
  simp only [he] at h
  rw [grp_neg] at h
  have := congrArg Complex.re h
  simp at this
  linarith

/-- The sums are linear in the integrals; with two parts, the second times `I`. -/
theorem grp_split (sgn kpkp : ℝ) (ys : Fin 3 → ℂ) (e : Fin 5 → ℂ) (w w' w'' : ℂ → ℂ) (w3 w3' w3'' w5 w5' w5'' : ℂ)
    (hw : ∀ r, w (ys r) = w' (ys r) + I * w'' (ys r)) (h3 : w3 = w3' + I * w3'') (h5 : w5 = w5' + I * w5'') :
    grp sgn kpkp ys e w w3 w5 = grp sgn kpkp ys e w' w3' w5' + I * grp sgn kpkp ys e w'' w3'' w5'' := by
  unfold grp
  simp only [hw, h3, h5]
  ring

end GRT.Lamb
