import Verif.Lamb.After1

/-! The sums over the roots when the path runs over the third root. -/

namespace GRT.Lamb

open Complex Set

local notation "cj" => starRingEnd ℂ

/-- The quotient without its pole at the third root. -/
noncomputable def regQ (kpkp : ℝ) (ys : Fin 3 → ℂ) (e : Fin 5 → ℂ) (X : ℂ) : ℂ :=
  quart e (ys 0 * (1 : ℝ)) / delta 1 kpkp (fun r => ys r * (1 : ℝ)) 0 * (1 / (X - ys 0 * (1 : ℝ))) +
    quart e (ys 1 * (1 : ℝ)) / delta 1 kpkp (fun r => ys r * (1 : ℝ)) 1 * (1 / (X - ys 1 * (1 : ℝ))) +
    -1 / (16 * kpkp) * (1 : ℝ) * (e 3 + (ys 0 * (1 : ℝ) + ys 1 * (1 : ℝ) + ys 2 * (1 : ℝ)) * e 4) + -1 / (16 * kpkp) * (1 : ℝ) * e 4 * X

/-- Its residue there. -/
noncomputable def resQ (kpkp : ℝ) (ys : Fin 3 → ℂ) (e : Fin 5 → ℂ) : ℂ :=
  quart e (ys 2 * (1 : ℝ)) / delta 1 kpkp (fun r => ys r * (1 : ℝ)) 2

theorem reg_eq (kpkp : ℝ) (ys : Fin 3 → ℂ) (e : Fin 5 → ℂ) (X : ℂ) (hk : kpkp ≠ 0) (ha : Apart ys) (h : ∀ r, X ≠ ys r) :
    quart e X / den 1 kpkp ys X = regQ kpkp ys e X + resQ kpkp ys e * (1 / (X - ys 2)) := by
  rw [partial_fractions 1 kpkp ys e X (Or.inl rfl) hk ha (by simpa using h 0) (by simpa using h 1) (by simpa using h 2)]
  unfold regQ resQ
  rw [ofReal_one, mul_one]
  ring

theorem resQ_conj {kpkp : ℝ} {ys : Fin 3 → ℂ} (hy : ConjRoots ys) (e : Fin 5 → ℂ) :
    cj (resQ kpkp ys e) = resQ kpkp ys (fun n => cj (e n)) := by
  have h2 : cj (ys 2) = ys 2 := by rcases hy with h | ⟨-, -, h⟩; exacts [h 2, h]
  unfold resQ
  rw [map_div₀, conj_quart]
  simp only [delta, Matrix.cons_val, map_mul, map_sub, map_neg, map_ofNat, conj_ofReal, h2]
  rcases hy with h | ⟨a, b, -⟩
  · simp only [h]
  · rw [a, b]; congr 1; ring

theorem grp_reg (kpkp : ℝ) (ys : Fin 3 → ℂ) (e : Fin 5 → ℂ) (w : ℂ → ℂ) (w3 w5 : ℂ) (g : ℝ → ℝ) (X : ℝ → ℝ) (u : ℝ)
    (hg : Continuous g) (hX : Continuous X) (hne : ∀ r ≠ (2 : Fin 3), ∀ θ, (X θ : ℂ) ≠ ys r)
    (hw : ∀ r ≠ (2 : Fin 3), w (ys r) = ∫ θ in 0..u, (g θ : ℂ) / (X θ - ys r)) (h3 : w3 = ∫ θ in 0..u, (g θ : ℂ))
    (h5 : w5 = ∫ θ in 0..u, (g θ : ℂ) * X θ) :
    (grp 1 kpkp ys e w w3 w5).re = (∫ θ in 0..u, g θ * (regQ kpkp ys e (X θ)).re) + (resQ kpkp ys e * w (ys 2)).re ∧
    (grp 1 kpkp ys e w w3 w5).im = (∫ θ in 0..u, g θ * (regQ kpkp ys e (X θ)).im) + (resQ kpkp ys e * w (ys 2)).im ∧
    Continuous fun θ => regQ kpkp ys e (X θ) := by
  have hc : ∀ r ≠ (2 : Fin 3), Continuous fun θ => (g θ : ℂ) / (X θ - ys r) := fun r hr =>
    (by fun_prop : Continuous fun θ => (g θ : ℂ)).div (by fun_prop) fun θ => sub_ne_zero.mpr (hne r hr θ)
  have hc' : ∀ r ≠ (2 : Fin 3), Continuous fun θ => 1 / ((X θ : ℂ) - ys r) := fun r hr =>
    continuous_const.div (by fun_prop) fun θ => sub_ne_zero.mpr (hne r hr θ)
  have c0 := hc 0 (by decide)
  have c1 := hc 1 (by decide)
  have d0 := hc' 0 (by decide)
  have d1 := hc' 1 (by decide)
  have hcont : Continuous fun θ => regQ kpkp ys e (X θ) := by
    unfold regQ
    simp only [ofReal_one, mul_one]
    fun_prop
  have key : grp 1 kpkp ys e w w3 w5 = (∫ θ in 0..u, (g θ : ℂ) * regQ kpkp ys e (X θ)) + resQ kpkp ys e * w (ys 2) := by
    have hi : ∀ {f : ℝ → ℂ}, Continuous f → IntervalIntegrable f MeasureTheory.volume 0 u := fun h => h.intervalIntegrable _ _
    have : ∀ θ, (g θ : ℂ) * regQ kpkp ys e (X θ) =
        quart e (ys 0 * (1 : ℝ)) / delta 1 kpkp (fun r => ys r * (1 : ℝ)) 0 * ((g θ : ℂ) / (X θ - ys 0)) +
        quart e (ys 1 * (1 : ℝ)) / delta 1 kpkp (fun r => ys r * (1 : ℝ)) 1 * ((g θ : ℂ) / (X θ - ys 1)) +
        -1 / (16 * kpkp) * (1 : ℝ) * (e 3 + (ys 0 * (1 : ℝ) + ys 1 * (1 : ℝ) + ys 2 * (1 : ℝ)) * e 4) * g θ +
        -1 / (16 * kpkp) * (1 : ℝ) * e 4 * ((g θ : ℂ) * X θ) := by
      intro θ
      unfold regQ
      rw [ofReal_one]
      simp only [mul_one]
      ring
    simp only [this]
    have cg : Continuous fun θ => (g θ : ℂ) := by fun_prop
    have cX : Continuous fun θ => (g θ : ℂ) * X θ := by fun_prop
    rw [intervalIntegral.integral_add (hi (by fun_prop)) (hi (by fun_prop)), intervalIntegral.integral_add (hi (by fun_prop)) (hi (by fun_prop)),
      intervalIntegral.integral_add (hi (by fun_prop)) (hi (by fun_prop))]
    simp only [intervalIntegral.integral_const_mul]
    rw [← hw 0 (by decide), ← hw 1 (by decide), ← h3, ← h5]
    unfold grp resQ
    ring
  have hi := re_im_integral (a := 0) (b := u) (f := fun θ => (g θ : ℂ) * regQ kpkp ys e (X θ)) (by fun_prop)
  refine ⟨?_, ?_, hcont⟩
  · rw [key, add_re, hi.1]; simp only [re_ofReal_mul]
  · rw [key, add_im, hi.2]; simp only [im_ofReal_mul]

section

variable {nu az t : ℝ}

local notation "V" => mkVars nu az

theorem off_ys01 (h0 : 0 < nu) (h1 : nu < 1 / 2) (hi : ℝ) {r : Fin 3} (hr : r ≠ 2) : Off ((V).ys r) 0 hi := by
  obtain ⟨-, -, h⟩ := ys_facts (az := az) h0 h1
  rcases h with ⟨x, w, hw, a0, a1⟩ | ⟨x0, x1, a0, a1, b0, b1⟩
  · fin_cases r
    · left; show ((V).ys 0).im ≠ 0; rw [a0]; simpa using hw
    · left; show ((V).ys 1).im ≠ 0; rw [a1]; simpa using hw
    · exact absurd rfl hr
  · fin_cases r
    · right; left; show ((V).ys 0).re < 0; rw [a0]; simpa using b0
    · right; left; show ((V).ys 1).re < 0; rw [a1]; simpa using b1
    · exact absurd rfl hr

theorem off_ysp01 (h0 : 0 < nu) (h1 : nu < 1 / 2) (hi : ℝ) {r : Fin 3} (hr : r ≠ 2) : Off ((V).ysp r) (-(V).kpkp) hi := by
  have := off_ys01 (az := az) h0 h1 (hi + (V).kpkp) hr
  rw [ysp_eq]
  rcases this with h | h | h
  · left; simpa using h
  · right; left; rw [sub_re, ofReal_re]; linarith
  · right; right; rw [sub_re, ofReal_re]; linarith

theorem conj_ys_ne (h0 : 0 < nu) (h1 : nu < 1 / 2) {c : ℂ} (hc : c ≠ (V).ys 2) : cj c ≠ (V).ys 2 := by
  intro h
  apply hc
  rw [← conj_conj c, h, (ys_facts (az := az) h0 h1).2.1, conj_ofReal]

/-- A function of the roots with another value at the third. -/
theorem conj_patch (h0 : 0 < nu) (h1 : nu < 1 / 2) (ha : Apart (V).ys) {w : ℂ → ℂ} (h2 : cj (w ((V).ys 2)) = w ((V).ys 2))
    (h01 : ∀ r ≠ (2 : Fin 3), cj (w ((V).ys r)) = w (cj ((V).ys r))) (r : Fin 3) : cj (w ((V).ys r)) = w (cj ((V).ys r)) := by
  by_cases hr : r = 2
  · rw [hr, h2, (ys_facts (az := az) h0 h1).2.1, conj_ofReal]
  · exact h01 r hr

theorem pole_pos (h : (V).kpakpa < t * t) : 0 < √(t * t - (V).kpakpa) ∧ √(t * t - (V).kpakpa) * √(t * t - (V).kpakpa) = t * t - (V).kpakpa :=
  ⟨Real.sqrt_pos.mpr (by linarith), Real.mul_self_sqrt (by linarith)⟩

/-- Off the pole the quotient is that without it and the pole. -/
theorem reg_P (h0 : 0 < nu) (h1 : nu < 1 / 2) (ha : Apart (V).ys) (e : Fin 5 → ℂ) {q p : ℝ} (hqq : q * q = t * t - (V).kpakpa) (hpq : p * p ≠ q * q)
    (hp : p * p ≤ t * t - (V).kk) :
    den 1 (V).kpkp (V).ys ((t * t - (V).kk - p * p : ℝ) : ℂ) ≠ 0 ∧
    quart e ((t * t - (V).kk - p * p : ℝ) : ℂ) / den 1 (V).kpkp (V).ys ((t * t - (V).kk - p * p : ℝ) : ℂ) =
      regQ (V).kpkp (V).ys e ((t * t - (V).kk - p * p : ℝ) : ℂ) + ((1 / (q * q - p * p) : ℝ) : ℂ) * resQ (V).kpkp (V).ys e := by
  have hkp := kp_pos (az := az) h0 h1
  have hkp2 := kp_sq (az := az) h0 h1
  have hk0 : (V).kpkp ≠ 0 := by rw [← hkp2]; positivity
  have h2 := (ys_facts (az := az) h0 h1).2.1
  have hX : ∀ r, ((t * t - (V).kk - p * p : ℝ) : ℂ) ≠ (V).ys r := by
    intro r
    by_cases hr : r = 2
    · rw [hr, h2, Ne, ofReal_inj]
      intro h; apply hpq; linarith
    · exact (off_ys01 h0 h1 (t * t - (V).kk) hr).ne (by linarith) (by nlinarith [mul_self_nonneg p])
  refine ⟨den_ne one_ne_zero hk0 (fun r => by rw [ofReal_one, mul_one]; exact hX r), ?_⟩
  rw [reg_eq _ _ _ _ hk0 ha hX, h2, ← ofReal_sub, show t * t - (V).kk - p * p - ((V).kpakpa - (V).kk) = q * q - p * p by rw [hqq]; ring]
  push_cast
  ring

theorem reg_S (h0 : 0 < nu) (h1 : nu < 1 / 2) (ha : Apart (V).ysp) (e : Fin 5 → ℂ) {q p : ℝ} (hqq : q * q = t * t - (V).kpakpa) (hpq : p * p ≠ q * q)
    (hp : p * p ≤ t * t - 1) :
    den 1 (V).kpkp (V).ysp ((t * t - 1 - p * p : ℝ) : ℂ) ≠ 0 ∧
    quart e ((t * t - 1 - p * p : ℝ) : ℂ) / den 1 (V).kpkp (V).ysp ((t * t - 1 - p * p : ℝ) : ℂ) =
      regQ (V).kpkp (V).ysp e ((t * t - 1 - p * p : ℝ) : ℂ) + ((1 / (q * q - p * p) : ℝ) : ℂ) * resQ (V).kpkp (V).ysp e := by
  have hkp := kp_pos (az := az) h0 h1
  have hkp2 := kp_sq (az := az) h0 h1
  have hk0 : (V).kpkp ≠ 0 := by rw [← hkp2]; positivity
  have hkpos : 0 < (V).kpkp := by rw [← hkp2]; positivity
  have h2 : (V).ysp 2 = (((V).kpakpa - 1 : ℝ) : ℂ) := by
    rw [ysp_eq, (ys_facts (az := az) h0 h1).2.1, ← ofReal_sub, kpkp_eq]; congr 1; ring
  have hX : ∀ r, ((t * t - 1 - p * p : ℝ) : ℂ) ≠ (V).ysp r := by
    intro r
    by_cases hr : r = 2
    · rw [hr, h2, Ne, ofReal_inj]
      intro h; apply hpq; linarith
    · exact (off_ysp01 h0 h1 (t * t - 1) hr).ne (by linarith) (by nlinarith [mul_self_nonneg p])
  refine ⟨den_ne one_ne_zero hk0 (fun r => by rw [ofReal_one, mul_one]; exact hX r), ?_⟩
  rw [reg_eq _ _ _ _ hk0 ha hX, h2, ← ofReal_sub, show t * t - 1 - p * p - ((V).kpakpa - 1) = q * q - p * p by rw [hqq]; ring]
  push_cast
  ring

end

end GRT.Lamb
