import Verif.Lamb.RootsProp
import Verif.Lamb.Groups
import Verif.Lamb.Int3

/-! Where the roots lie, and what the denominators are. -/

namespace GRT.Lamb

open Complex Set

variable {nu az : ℝ}

theorem kk_pos (h0 : 0 < nu) (h1 : nu < 1 / 2) : 0 < (mkVars nu az).kk ∧ (mkVars nu az).kk < 1 / 2 := kk_range h0 h1

theorem kpkp_eq : (mkVars nu az).kpkp = 1 - (mkVars nu az).kk := rfl

theorem kp_eq : (mkVars nu az).kp = √(mkVars nu az).kpkp := rfl

theorem kp_pos (h0 : 0 < nu) (h1 : nu < 1 / 2) : 0 < (mkVars nu az).kp := by
  rw [kp_eq, kpkp_eq]
  exact Real.sqrt_pos.mpr (by linarith [(kk_pos (az := az) h0 h1).2])

theorem kp_sq (h0 : 0 < nu) (h1 : nu < 1 / 2) : (mkVars nu az).kp ^ 2 = (mkVars nu az).kpkp := by
  rw [kp_eq, kpkp_eq]
  exact Real.sq_sqrt (by linarith [(kk_pos (az := az) h0 h1).2])

/-- The third root is real and right of all arrivals; the others are not real or negative. -/
theorem ys_facts (h0 : 0 < nu) (h1 : nu < 1 / 2) :
    1 < (mkVars nu az).kpakpa ∧ (mkVars nu az).ys 2 = ((mkVars nu az).kpakpa - (mkVars nu az).kk : ℝ) ∧
      ((∃ x w : ℝ, w ≠ 0 ∧ (mkVars nu az).ys 0 = x + I * w ∧ (mkVars nu az).ys 1 = x - I * w) ∨
        ∃ x0 x1 : ℝ, (mkVars nu az).ys 0 = x0 ∧ (mkVars nu az).ys 1 = x1 ∧ x0 < 0 ∧ x1 < 0) := by
  obtain ⟨k0, k1⟩ := kk_range h0 h1
  obtain ⟨y, ey, y1, hr⟩ := ray_roots k0 k1
  have e0 := ray_shift h1 0
  have e1 := ray_shift h1 1
  have e2 := ray_shift h1 2
  set m := 0.5 * (1 - 2 * nu) / (1 - nu) with hm
  have hkp : (mkVars nu az).kpakpa = y := by
    show (rayleigh2 m 2).re = y
    rw [ey, ofReal_re]
  have hkk : (mkVars nu az).kk = m := rfl
  refine ⟨by rw [hkp]; exact y1, ?_, ?_⟩
  · show rayleigh1 nu 2 = _
    rw [e2, ey, hkp, hkk, ofReal_sub]
  · rcases hr with ⟨x, w, hw, a0, a1⟩ | ⟨x0, x1, a0, a1, -, b0, -, b1⟩
    · left
      refine ⟨x - m, w, hw, ?_, ?_⟩
      · show rayleigh1 nu 0 = _
        rw [e0, a0]; push_cast; ring
      · show rayleigh1 nu 1 = _
        rw [e1, a1]; push_cast; ring
    · right
      refine ⟨x0 - m, x1 - m, ?_, ?_, by linarith, by linarith⟩
      · show rayleigh1 nu 0 = _
        rw [e0, a0]; push_cast; ring
      · show rayleigh1 nu 1 = _
        rw [e1, a1]; push_cast; ring

theorem ysp_eq (r : Fin 3) : (mkVars nu az).ysp r = (mkVars nu az).ys r - (mkVars nu az).kpkp := rfl

theorem conj_ys (h0 : 0 < nu) (h1 : nu < 1 / 2) : ConjRoots (mkVars nu az).ys := by
  obtain ⟨-, e2, h⟩ := ys_facts (az := az) h0 h1
  rcases h with ⟨x, w, -, a0, a1⟩ | ⟨x0, x1, a0, a1, -, -⟩
  · right
    rw [a0, a1, e2]
    simp [sub_eq_add_neg]
  · left
    intro r
    fin_cases r
    · show _ = (mkVars nu az).ys 0; simp only [Fin.zero_eta, a0, conj_ofReal]
    · show _ = (mkVars nu az).ys 1; simp only [Fin.mk_one, a1, conj_ofReal]
    · show (starRingEnd ℂ) ((mkVars nu az).ys 2) = (mkVars nu az).ys 2; rw [e2, conj_ofReal]

theorem conj_ysp (h0 : 0 < nu) (h1 : nu < 1 / 2) : ConjRoots (mkVars nu az).ysp := by
  rcases conj_ys (az := az) h0 h1 with h | ⟨a, b, c⟩
  · left; intro r; rw [ysp_eq, map_sub, h, conj_ofReal]
  · right; simp only [ysp_eq, map_sub, a, b, c, conj_ofReal, and_self]

theorem off_ys (h0 : 0 < nu) (h1 : nu < 1 / 2) {hi : ℝ} (h : hi < (mkVars nu az).kpakpa - (mkVars nu az).kk) (r : Fin 3) :
    Off ((mkVars nu az).ys r) 0 hi := by
  obtain ⟨-, e2, hr⟩ := ys_facts (az := az) h0 h1
  have o2 : Off ((mkVars nu az).ys 2) 0 hi := by
    right; right; rw [e2, ofReal_re]; exact h
  rcases hr with ⟨x, w, hw, a0, a1⟩ | ⟨x0, x1, a0, a1, b0, b1⟩
  · have o0 : Off ((mkVars nu az).ys 0) 0 hi := by left; rw [a0]; simpa using hw
    have o1 : Off ((mkVars nu az).ys 1) 0 hi := by left; rw [a1]; simpa using hw
    fin_cases r
    exacts [o0, o1, o2]
  · have o0 : Off ((mkVars nu az).ys 0) 0 hi := by right; left; rw [a0]; simpa using b0
    have o1 : Off ((mkVars nu az).ys 1) 0 hi := by right; left; rw [a1]; simpa using b1
    fin_cases r
    exacts [o0, o1, o2]

theorem off_ysp (h0 : 0 < nu) (h1 : nu < 1 / 2) {hi : ℝ} (h : hi < (mkVars nu az).kpakpa - 1) (r : Fin 3) :
    Off ((mkVars nu az).ysp r) (-(mkVars nu az).kpkp) hi := by
  have := off_ys (az := az) h0 h1 (hi := hi + (mkVars nu az).kpkp) (by rw [kpkp_eq]; linarith) r
  rw [ysp_eq]
  rcases this with h | h | h
  · left; simpa using h
  · right; left; rw [sub_re, ofReal_re]; linarith
  · right; right; rw [sub_re, ofReal_re]; linarith

theorem Off.mono {c : ℂ} {lo hi lo' hi' : ℝ} (h : Off c lo hi) (h1 : lo ≤ lo') (h2 : hi' ≤ hi) : Off c lo' hi' := by
  rcases h with h | h | h
  · exact Or.inl h
  · exact Or.inr (Or.inl (by linarith))
  · exact Or.inr (Or.inr (by linarith))

theorem apart_ysp (h : Apart (mkVars nu az).ys) : Apart (mkVars nu az).ysp := by
  obtain ⟨a, b, c⟩ := h
  simp only [Apart, ysp_eq]
  refine ⟨fun h => a ?_, fun h => b ?_, fun h => c ?_⟩ <;> exact sub_left_injective h

theorem ys_prod (h1 : nu < 1 / 2) (X : ℂ) :
    -16 * ((mkVars nu az).kpkp : ℂ) * ((X - (mkVars nu az).ys 0) * (X - (mkVars nu az).ys 1) * (X - (mkVars nu az).ys 2)) =
      (1 - 2 * ((mkVars nu az).kk + X)) ^ 4 + 16 * X * ((mkVars nu az).kpkp - X) * ((mkVars nu az).kk + X) ^ 2 := by
  have e0 := ray_shift h1 0
  have e1 := ray_shift h1 1
  have e2 := ray_shift h1 2
  have k1 : 0.5 * (1 - 2 * nu) / (1 - nu) < 1 := by
    have : 0 < 1 - nu := by linarith
    rw [div_lt_one this]; linarith
  show -16 * (((1 - 0.5 * (1 - 2 * nu) / (1 - nu) : ℝ)) : ℂ) * ((X - rayleigh1 nu 0) * (X - rayleigh1 nu 1) * (X - rayleigh1 nu 2)) =
    (1 - 2 * (((0.5 * (1 - 2 * nu) / (1 - nu) : ℝ) : ℂ) + X)) ^ 4 +
    16 * X * (((1 - 0.5 * (1 - 2 * nu) / (1 - nu) : ℝ)) - X) * (((0.5 * (1 - 2 * nu) / (1 - nu) : ℝ) : ℂ) + X) ^ 2
  rw [e0, e1, e2]
  generalize 0.5 * (1 - 2 * nu) / (1 - nu) = m at *
  have m0 : (1 : ℂ) - m ≠ 0 := by
    intro h
    have := congrArg Complex.re h
    simp at this; linarith
  have hp := roots3_prod (0.5 * (2 * m - 3) / (1 - m)) (0.5 / (1 - m)) (-0.0625 / (1 - m)) (X + m)
  change (X + m - rayleigh2 m 0) * (X + m - rayleigh2 m 1) * (X + m - rayleigh2 m 2) = _ at hp
  rw [show X - (rayleigh2 m 0 - (m : ℂ)) = X + m - rayleigh2 m 0 by ring, show X - (rayleigh2 m 1 - (m : ℂ)) = X + m - rayleigh2 m 1 by ring,
    show X - (rayleigh2 m 2 - (m : ℂ)) = X + m - rayleigh2 m 2 by ring, hp]
  push_cast
  field_simp
  ring

theorem den_P (h1 : nu < 1 / 2) (X : ℂ) : den 1 (mkVars nu az).kpkp (mkVars nu az).ys X =
    (1 - 2 * ((mkVars nu az).kk + X)) ^ 4 + 16 * X * ((mkVars nu az).kpkp - X) * ((mkVars nu az).kk + X) ^ 2 := by
  rw [← ys_prod h1, den]
  push_cast
  ring

theorem den_S1 (h1 : nu < 1 / 2) (X : ℂ) : den 1 (mkVars nu az).kpkp (mkVars nu az).ysp X =
    (1 + 2 * X) ^ 4 - 16 * X * ((mkVars nu az).kpkp + X) * (1 + X) ^ 2 := by
  have := ys_prod (az := az) h1 (X + (mkVars nu az).kpkp)
  have e : ((mkVars nu az).kk : ℂ) = 1 - (mkVars nu az).kpkp := by rw [kpkp_eq]; push_cast; ring
  rw [e] at this
  rw [den]
  simp only [ysp_eq]
  push_cast
  linear_combination this

theorem den_S2 (h1 : nu < 1 / 2) (X : ℂ) : den (-1) (mkVars nu az).kpkp (mkVars nu az).ysp X =
    (1 - 2 * X) ^ 4 + 16 * X * ((mkVars nu az).kpkp - X) * (1 - X) ^ 2 := by
  have := ys_prod (az := az) h1 (-X + (mkVars nu az).kpkp)
  have e : ((mkVars nu az).kk : ℂ) = 1 - (mkVars nu az).kpkp := by rw [kpkp_eq]; push_cast; ring
  rw [e] at this
  rw [den]
  simp only [ysp_eq]
  push_cast
  linear_combination this

theorem den_ne {sgn kpkp : ℝ} {ys : Fin 3 → ℂ} (hs : sgn ≠ 0) (hk : kpkp ≠ 0) {X : ℂ} (h : ∀ r, X ≠ ys r * sgn) : den sgn kpkp ys X ≠ 0 := by
  have a : (sgn : ℂ) ≠ 0 := by exact_mod_cast hs
  have b : (kpkp : ℂ) ≠ 0 := by exact_mod_cast hk
  unfold den
  refine mul_ne_zero (mul_ne_zero (mul_ne_zero (by norm_num) a) b) (mul_ne_zero (mul_ne_zero ?_ ?_) ?_) <;>
    exact sub_ne_zero.mpr (h _)

/-- The denominators are real at real places. -/
theorem den_conj {sgn kpkp : ℝ} {ys : Fin 3 → ℂ} (hy : ConjRoots ys) (X : ℝ) : (starRingEnd ℂ) (den sgn kpkp ys X) = den sgn kpkp ys X := by
  unfold den
  simp only [map_mul, map_sub, map_neg, map_ofNat, conj_ofReal]
  rcases hy with h | ⟨a, b, c⟩
  · simp only [h]
  · rw [a, b, c]; ring

end GRT.Lamb
