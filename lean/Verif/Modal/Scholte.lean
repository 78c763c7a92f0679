import Verif.Modal.HalfSpace
import Mathlib.Analysis.SpecialFunctions.Sqrt
import Mathlib.Topology.Order.IntermediateValue

/-!
# C119: the estimate of the velocity of the interface wave between a liquid and a solid

`grt_halfspace_Scholte_croot` (`modal/root.c` 594-650) adds to the starting velocities of the search the velocity of the wave along the interface of
two half-spaces, and 0.95 of it, for every interface between a liquid and a solid layer (`root.c` 702-722).  The arithmetic is that of the real numbers.
-/

namespace GRT.Modal.HalfSpace

open Real

/-- `__stoneley_func` (`root.c` 594-604). -/
noncomputable def stoneley (x ξp ξf γ : ℝ) : ℝ :=
  let a := √(1 - x)
  let p := √(1 - ξp * x)
  let f := √(1 - ξf * x)
  (2 - x) * (2 - x) - 4 * a * p + γ * (x * x) * p / f

/-- The bisection (`root.c` 632-644) with `n` passes left: the bounds and the last point. -/
noncomputable def bisect (f : ℝ → ℝ) (fhigh : ℝ) : ℕ → ℝ → ℝ → ℝ → ℝ × ℝ × ℝ
  | 0, low, high, mid => (low, high, mid)
  | n + 1, low, high, _ =>
    let mid := (low + high) * 0.5
    let low' := if f mid * fhigh < 0 then mid else low
    let high' := if f mid * fhigh < 0 then high else mid
    if high' - low' < 1e-12 then (low', high', mid) else bisect f fhigh n low' high' mid

/-- The estimate (`root.c` 607-650): `vp`, `vs` and `rhos` are of the solid, `vf` and `rhof` of the liquid.  The variable `mid` has no value before the loop,
which sets it in its first pass. -/
noncomputable def scholte (vp vs vf rhof rhos : ℝ) : ℝ :=
  let ξp := (vs / vp) * (vs / vp)
  let ξf := (vs / vf) * (vs / vf)
  let γ := rhof / rhos
  let limit := if vf < vs then vf else vs
  let low := 0.001
  let high := (limit / vs) * (1 - 1e-14)
  let f := fun η => stoneley (η * η) ξp ξf γ
  let r := bisect f (f high) 40 low high 0
  (if |r.2.2 - r.1| < 1e-8 then r.2.1 else r.2.2) * vs

/-- The equation of Scholte: the velocity of the wave along the plane between a half-space of liquid and a half-space of solid. -/
structure IsScholte (vp vs vf rhof rhos c : ℝ) : Prop where
  pos : 0 < c
  lt_solid : c < vs
  lt_liquid : c < vf
  eq : (2 - (c / vs) ^ 2) ^ 2 - 4 * √(1 - (c / vs) ^ 2) * √(1 - (c / vp) ^ 2) +
    rhof / rhos * (c / vs) ^ 4 * (√(1 - (c / vp) ^ 2) / √(1 - (c / vf) ^ 2)) = 0

/-- The bisection keeps the signs at its ends, halves the interval, and ends at one of its ends. -/
theorem bisect_spec (f : ℝ → ℝ) (fh : ℝ) (hfh : 0 < fh) (a b : ℝ) :
    ∀ (n : ℕ) (low high mid : ℝ), a ≤ low → low < high → high ≤ b → f low < 0 → 0 ≤ f high → high - low < 1e-12 * 2 ^ n → mid = low ∨ mid = high ∨ n ≠ 0 →
      ∃ l h m, bisect f fh n low high mid = (l, h, m) ∧ a ≤ l ∧ l < h ∧ h ≤ b ∧ f l < 0 ∧ 0 ≤ f h ∧ h - l < 1e-12 ∧ (m = l ∨ m = h) := by
  intro n
  induction n with
  | zero =>
    intro low high mid h1 h2 h3 h4 h5 h6 h7
    refine ⟨low, high, mid, rfl, h1, h2, h3, h4, h5, by simpa using h6, ?_⟩
    rcases h7 with h | h | h
    · exact Or.inl h
    · exact Or.inr h
    · exact absurd rfl h
  | succ n ih =>
    intro low high mid h1 h2 h3 h4 h5 h6 _
    have e : (low + high) * 0.5 = (low + high) / 2 := by norm_num; ring
    rw [bisect]
    simp only [e]
    rw [pow_succ] at h6
    by_cases hc : f ((low + high) / 2) * fh < 0
    · simp only [if_pos hc]
      have hs : f ((low + high) / 2) < 0 := by
        by_contra hn
        push Not at hn
        exact absurd hc (not_lt.2 (mul_nonneg hn hfh.le))
      split_ifs with hw
      · exact ⟨_, _, _, rfl, by linarith, by linarith, h3, hs, h5, hw, Or.inl rfl⟩
      · exact ih _ _ _ (by linarith) (by linarith) h3 hs h5 (by linarith) (Or.inl rfl)
    · simp only [if_neg hc]
      have hs : 0 ≤ f ((low + high) / 2) := by
        by_contra hn
        push Not at hn
        exact hc (mul_neg_of_neg_of_pos hn hfh)
      split_ifs with hw
      · exact ⟨_, _, _, rfl, h1, by linarith, by linarith, h4, hs, hw, Or.inr rfl⟩
      · exact ih _ _ _ h1 (by linarith) (by linarith) h4 hs (by linarith) (Or.inr (Or.inl rfl))

theorem sqrt_ge_lin {x : ℝ} (h0 : 0 ≤ x) (h1 : x ≤ 1 / 2) : 1 - x / 2 - x ^ 2 / 2 ≤ √(1 - x) := by
  apply Real.le_sqrt_of_sq_le
  nlinarith [mul_nonneg h0 h0, mul_nonneg (mul_nonneg h0 h0) h0, mul_nonneg (mul_nonneg h0 h0) (sub_nonneg.2 h1)]

/-- The sign at the lower end. -/
theorem stoneley_low {ξp ξf γ : ℝ} (p0 : 0 ≤ ξp) (p1 : ξp ≤ 3 / 4) (f1 : ξf ≤ 10000) (g0 : 0 ≤ γ) (g1 : γ ≤ 1000) :
    stoneley (0.001 * 0.001) ξp ξf γ < 0 := by
  have hx : (0.001 * 0.001 : ℝ) = 1 / 1000000 := by norm_num
  unfold stoneley
  simp only [hx]
  have a := sqrt_ge_lin (x := 1 / 1000000) (by norm_num) (by norm_num)
  have b := sqrt_ge_lin (x := ξp * (1 / 1000000)) (by positivity) (by linarith)
  have b' : √(1 - ξp * (1 / 1000000)) ≤ 1 := Real.sqrt_le_one.2 (by linarith [mul_nonneg p0 (by norm_num : (0 : ℝ) ≤ 1 / 1000000)])
  have c : (1 / 2 : ℝ) ≤ √(1 - ξf * (1 / 1000000)) := Real.le_sqrt_of_sq_le (by linarith)
  have d : γ * (1 / 1000000 * (1 / 1000000)) * √(1 - ξp * (1 / 1000000)) / √(1 - ξf * (1 / 1000000)) ≤ 2 / 1000000000 := by
    rw [div_le_iff₀ (by linarith)]
    have : γ * (1 / 1000000 * (1 / 1000000)) * √(1 - ξp * (1 / 1000000)) ≤ 1000 * (1 / 1000000 * (1 / 1000000)) * 1 :=
      mul_le_mul (by linarith) b' (Real.sqrt_nonneg _) (by norm_num)
    linarith
  have b2 : 1 - ξp / 2000000 - 1 / 2000000000000 ≤ √(1 - ξp * (1 / 1000000)) := by
    refine le_trans ?_ b
    have : ξp ^ 2 ≤ 1 := by nlinarith
    linarith
  have m := mul_le_mul a b2 (by linarith) (Real.sqrt_nonneg _)
  generalize √(1 - ξp * (1 / 1000000)) = P at *
  generalize √(1 - 1 / 1000000) = A at *
  nlinarith

theorem amgm {a b : ℝ} (ha : 0 ≤ a) (hb : 0 ≤ b) : 2 * (√a * √b) ≤ a + b := by
  nlinarith [Real.sq_sqrt ha, Real.sq_sqrt hb, sq_nonneg (√a - √b)]

/-- The sign at the upper end, where the liquid is slower than shear waves. -/
theorem stoneley_slow {ξp γ e : ℝ} (e0 : 0 < e) (e1 : e ≤ 1) (h : 1 / 10000 ≤ e ^ 2) (p0 : 0 ≤ ξp) (p1 : ξp ≤ 3 / 4) (g0 : 1 / 100 ≤ γ) :
    0 < stoneley (e * (1 - 1e-14) * (e * (1 - 1e-14))) ξp (1 / e * (1 / e)) γ := by
  set x := e * (1 - 1e-14) * (e * (1 - 1e-14)) with hx
  have hx' : x = e ^ 2 * (1 - 1e-14) ^ 2 := by rw [hx]; ring
  have k0 : (0.99 : ℝ) ≤ (1 - 1e-14) ^ 2 := by norm_num
  have k1 : (1 - 1e-14 : ℝ) ^ 2 ≤ 1 := by norm_num
  have x0 : 0.99 / 10000 ≤ x := by
    rw [hx']
    norm_num at k0 ⊢
    nlinarith
  have x1 : x ≤ 1 := by
    rw [hx']
    nlinarith [sq_nonneg e]
  have xp : 0 < x := by norm_num at x0; linarith
  have hF : 1 - 1 / e * (1 / e) * x = 1 - (1 - 1e-14) ^ 2 := by
    rw [hx]
    field_simp
  unfold stoneley
  simp only [hF]
  have F0 : 0 < √(1 - (1 - 1e-14 : ℝ) ^ 2) := Real.sqrt_pos.2 (by norm_num)
  have F1 : √(1 - (1 - 1e-14 : ℝ) ^ 2) ≤ 1.5e-7 := by
    rw [Real.sqrt_le_left (by norm_num)]; norm_num
  have px : ξp * x ≤ 3 / 4 := by nlinarith
  have P0 : 1 / 2 ≤ √(1 - ξp * x) := Real.le_sqrt_of_sq_le (by linarith)
  have R := amgm (a := 1 - x) (b := 1 - ξp * x) (by linarith) (by linarith)
  have L : 3 * x < γ * (x * x) * √(1 - ξp * x) / √(1 - (1 - 1e-14 : ℝ) ^ 2) := by
    rw [lt_div_iff₀ F0]
    have l1 : 1 / 100 * (x * x) * (1 / 2) ≤ γ * (x * x) * √(1 - ξp * x) :=
      mul_le_mul (mul_le_mul_of_nonneg_right g0 (by positivity)) P0 (by norm_num) (by positivity)
    have l2 : 3 * x * √(1 - (1 - 1e-14 : ℝ) ^ 2) ≤ 3 * x * 1.5e-7 := mul_le_mul_of_nonneg_left F1 (by linarith)
    refine l2.trans_lt (lt_of_lt_of_le ?_ l1)
    norm_num at x0 ⊢
    nlinarith
  nlinarith [mul_nonneg p0 xp.le, sq_nonneg x]

/-- The sign at the upper end, where the liquid is not slower than shear waves. -/
theorem stoneley_fast {ξp ξf γ : ℝ} (p0 : 0 ≤ ξp) (g0 : 0 ≤ γ) :
    0 < stoneley (1 * (1 - 1e-14) * (1 * (1 - 1e-14))) ξp ξf γ := by
  generalize hx : (1 * (1 - 1e-14) * (1 * (1 - 1e-14)) : ℝ) = x
  have x0 : 0 ≤ x := by rw [← hx]; norm_num
  have x1 : x ≤ 1 := by rw [← hx]; norm_num
  unfold stoneley
  have A : √(1 - x) ≤ 1.5e-7 := by
    rw [Real.sqrt_le_left (by norm_num), ← hx]; norm_num
  have P : √(1 - ξp * x) ≤ 1 := Real.sqrt_le_one.2 (by nlinarith [mul_nonneg p0 x0])
  have L : 0 ≤ γ * (x * x) * √(1 - ξp * x) / √(1 - ξf * x) := by positivity
  have m : √(1 - x) * √(1 - ξp * x) ≤ 1.5e-7 * 1 := mul_le_mul A P (Real.sqrt_nonneg _) (by norm_num)
  norm_num at m
  nlinarith

/-- **C119**: the estimate is a velocity of Scholte waves, not too small, and too large by less than 1e-12 Vs.  The parameters are those of any liquid and
solid: shear waves slower than √3/2 Vp, and contrasts of less than a hundred. -/
theorem C119_scholte {vp vs vf rhof rhos : ℝ} (hs : 0 < vs) (hp : 4 * vs ^ 2 ≤ 3 * vp ^ 2) (hp0 : 0 < vp) (hf : vs ≤ 100 * vf)
    (hr : 0 < rhos) (h1 : rhos ≤ 100 * rhof) (h2 : rhof ≤ 1000 * rhos) :
    ∃ c, IsScholte vp vs vf rhof rhos c ∧ c ≤ scholte vp vs vf rhof rhos ∧ scholte vp vs vf rhof rhos < c + 1e-12 * vs := by
  have hvf : 0 < vf := by linarith
  have g0 : 1 / 100 ≤ rhof / rhos := by rw [le_div_iff₀ hr]; linarith
  have g1 : rhof / rhos ≤ 1000 := by rw [div_le_iff₀ hr]; linarith
  have p0 : 0 ≤ vs / vp * (vs / vp) := by positivity
  have p1 : vs / vp * (vs / vp) ≤ 3 / 4 := by
    rw [div_mul_div_comm, div_le_iff₀ (by positivity)]; nlinarith
  have f1 : vs / vf * (vs / vf) ≤ 10000 := by
    rw [div_mul_div_comm, div_le_iff₀ (by positivity)]; nlinarith
  have p2 : vs < vp := by nlinarith
  set lim := (if vf < vs then vf else vs) / vs with hlim
  have l0 : 1 / 100 ≤ lim := by
    rw [hlim, le_div_iff₀ hs]; split_ifs <;> linarith
  have l1 : lim ≤ 1 := by
    rw [hlim, div_le_one hs]; split_ifs <;> linarith
  have l2 : lim * vs ≤ vf ∧ lim * vs ≤ vs := by
    rw [hlim, div_mul_cancel₀ _ hs.ne']; split_ifs <;> constructor <;> linarith
  set f : ℝ → ℝ := fun η => stoneley (η * η) (vs / vp * (vs / vp)) (vs / vf * (vs / vf)) (rhof / rhos) with hf'
  have flow : f 0.001 < 0 := stoneley_low p0 p1 f1 (by linarith) g1
  have fhigh : 0 < f (lim * (1 - 1e-14)) := by
    rw [hf']
    by_cases hc : vf < vs
    · have e : lim = vf / vs := by rw [hlim, if_pos hc]
      have e2 : vs / vf * (vs / vf) = 1 / lim * (1 / lim) := by rw [e]; field_simp
      simp only [e2]
      exact stoneley_slow (by linarith) l1 (by nlinarith) p0 p1 g0
    · have e : lim = 1 := by rw [hlim, if_neg hc, div_self hs.ne']
      simp only [e]
      exact stoneley_fast p0 (by linarith)
  have lb : (0.001 : ℝ) < lim * (1 - 1e-14) := by norm_num; linarith
  have ub : lim * (1 - 1e-14) ≤ 1 := by
    have : lim * (1 - 1e-14) ≤ 1 * 1 := mul_le_mul l1 (by norm_num) (by norm_num) (by norm_num)
    linarith
  obtain ⟨l, h, m, e, a1, a2, a3, a4, a5, a6, a7⟩ := bisect_spec f _ fhigh 0.001 (lim * (1 - 1e-14)) 40 0.001 (lim * (1 - 1e-14)) 0 le_rfl lb le_rfl flow fhigh.le
    (by norm_num; linarith) (by norm_num)
  have hval : scholte vp vs vf rhof rhos = h * vs := by
    unfold scholte
    simp only [← hlim]
    change (if |(bisect f (f (lim * (1 - 1e-14))) 40 0.001 (lim * (1 - 1e-14)) 0).2.2 - (bisect f (f (lim * (1 - 1e-14))) 40 0.001 (lim * (1 - 1e-14)) 0).1| < 1e-8
      then (bisect f (f (lim * (1 - 1e-14))) 40 0.001 (lim * (1 - 1e-14)) 0).2.1
      else (bisect f (f (lim * (1 - 1e-14))) 40 0.001 (lim * (1 - 1e-14)) 0).2.2) * vs = h * vs
    rw [e]
    split_ifs with hc
    · rfl
    · rcases a7 with rfl | rfl
      · exfalso; apply hc; norm_num
      · rfl
  have l3 : ∀ η, 0.001 ≤ η → η ≤ h → 0 < η ∧ η * vs < vs ∧ η * vs < vf := by
    intro η q1 q2
    have q0 : 0 < η := by norm_num at q1; linarith
    have q3 : η < lim := by
      refine (q2.trans a3).trans_lt ?_
      norm_num
      linarith
    have := mul_lt_mul_of_pos_right q3 hs
    exact ⟨q0, by linarith, by linarith⟩
  have cont : ContinuousOn f (Set.Icc l h) := by
    rw [hf']
    unfold stoneley
    simp only
    apply ContinuousOn.add
    · exact Continuous.continuousOn (by fun_prop)
    · apply ContinuousOn.div
      · exact Continuous.continuousOn (by fun_prop)
      · exact Continuous.continuousOn (by fun_prop)
      · intro η hη
        obtain ⟨q0, -, q1⟩ := l3 η (a1.trans hη.1) hη.2
        apply ne_of_gt
        rw [Real.sqrt_pos]
        have : vs / vf * (vs / vf) * (η * η) = (η * vs / vf) ^ 2 := by ring
        rw [this, sub_pos, sq_lt_one_iff₀ (by positivity), div_lt_one hvf]
        exact q1
  obtain ⟨η, ⟨q1, q2⟩, q3⟩ := intermediate_value_Icc a2.le cont ⟨a4.le, a5⟩
  obtain ⟨t0, t1, t2⟩ := l3 η (a1.trans q1) q2
  refine ⟨η * vs, ⟨by positivity, t1, t2, ?_⟩, ?_, ?_⟩
  · rw [← q3, hf']
    unfold stoneley
    have e1 : η * vs / vs = η := by field_simp
    have e2 : (η * vs / vp) ^ 2 = vs / vp * (vs / vp) * (η * η) := by ring
    have e3 : (η * vs / vf) ^ 2 = vs / vf * (vs / vf) * (η * η) := by ring
    rw [e1, e2, e3]
    ring_nf
  · rw [hval]
    exact mul_le_mul_of_nonneg_right q2 hs.le
  · rw [hval, ← add_mul]
    exact mul_lt_mul_of_pos_right (by linarith) hs

/-- The sea floor: water over rock. -/
example : ∃ c, IsScholte 4 2 1.5 1 2.2 c ∧ c ≤ scholte 4 2 1.5 1 2.2 ∧ scholte 4 2 1.5 1 2.2 < c + 1e-12 * 2 :=
  C119_scholte (by norm_num) (by norm_num) (by norm_num) (by norm_num) (by norm_num) (by norm_num) (by norm_num)

end GRT.Modal.HalfSpace
