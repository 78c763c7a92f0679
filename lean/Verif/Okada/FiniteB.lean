import Verif.Okada.FiniteA

/-! The derivatives among the results of `UB`. -/

namespace GRT.Okada

variable {x e q : ℝ → ℝ} {a b w t : ℝ}

/-- `ai4` of `UB` without its jump at `xi = 0`; for a vertical fault it has none. -/
noncomputable def i4S (c : Med) (xi et q : ℝ) : ℝ :=
  if c.cd ≠ 0 then 1 / c.cdcd * (xi / (rr xi et q + (et * c.sd - q * c.cd)) * c.sdcd + th c.sd c.cd xi et q)
  else xi * (et * c.cd + q * c.sd) / ((rr xi et q + (et * c.sd - q * c.cd)) * (rr xi et q + (et * c.sd - q * c.cd))) / 2

theorem linR {s c : ℝ} (tr : s * s + c * c = 1) {F : ℝ → ℝ → ℝ → ℝ} (h : ∀ a b w, F a b w = a * F 1 0 0 + b * F 0 1 0 + w * F 0 0 1)
    (h1 : F 1 0 0 = 0) (h2 : F 0 c s = 0) (h3 : F 0 s (-c) = 0) (a b w : ℝ) : F a b w = 0 := by
  have k2 := h 0 c s
  have k3 := h 0 s (-c)
  rw [h2] at k2
  rw [h3] at k3
  rw [h, h1]
  linear_combination -(b * c + w * s) * k2 - (b * s - w * c) * k3 - (b * F 0 1 0 + w * F 0 0 1) * tr

theorem linK {F : ℝ → ℝ} (h : ∀ K, F K = F 0 + K * (F 1 - F 0)) (h1 : F 0 = 0) (h2 : F 1 - F 0 = 0) (K : ℝ) :
    F K = 0 := by rw [h, h2, h1]; ring

theorem rho_eq (x e q : ℝ) : rho x e q = (rr x e q)⁻¹ := rfl
theorem sg_eq (x e q : ℝ) : sg x e q = (rr x e q + x)⁻¹ := rfl
theorem bt_eq (x e q : ℝ) : bt x e q = (rr x e q + e)⁻¹ := rfl
theorem tq_eq (s c x e q : ℝ) : tq s c x e q = (rr x e q + (e * s - q * c))⁻¹ := rfl

set_option maxRecDepth 1000000

set_option hygiene false in
/-- Splits off the part with `(1 - alpha) / alpha` and closes both. -/
macro "alg_sub" : tactic => `(tactic| (
  revert K
  refine linK ?_ ?_ ?_
  · intro K
    ring1
  · clear hη hζ hv e6
    simp only [mul_zero, zero_mul, mul_one, one_mul, add_zero, zero_add, sub_zero, zero_sub, neg_zero]
    clear f1 f2 f3 f4 i1 i2 i3 i4
    grind
  · clear e1 e2 e3 e4 e5
    first
    | ring1
    | skip
      ring_nf
      try simp only [f1, f2, f3, f4]
      clear f1 f2 f3 f4
      try field_simp
      clear i1 i2 i3 i4
      subst hv hη hζ
      try grind))

theorem UB_1_0g {al sd cd : ℝ} (tr : sd * sd + cd * cd = 1) (hc : cd ≠ 0) (hs : sd ≠ 0) (h : Curve x e q a b w t) (h0 : q t ≠ 0)
    (h1 : 0 < Okada.rr (x t) (e t) (q t) + (e t * sd - q t * cd)) (h2 : x t = 0 → 0 < tN sd cd (x t) (e t) (q t)) :
    let U := fun t => UB_1a (medOf al sd cd) (corS (medOf al sd cd) (x t) (e t) (q t)) (i4S (medOf al sd cd) (x t) (e t) (q t))
    HasDerivAt (fun t => (U t).u0) (rate sd cd a b w (U t).u3 (U t).u6 (U t).u9 + -1 * (ttX (x t) (q t) a w + ttX (e t) (q t) b w) + (1 - al) / al * (sd * sd) / (cd * cd) * thX sd cd (x t) (q t) a w) t := by
  simp only [UB_1a, i4S, corS, medOf, rate, if_pos hc, div_eq_mul_inv, mul_inv, rr_inv, sg_inv, bt_inv, tq_inv, rho_sq]
  have r1 := h.rho h0
  have r2 := h.rr h0
  have r3 := h.sg h0
  have r4 := h.bt h0
  have r5 := h.tt h0
  simp only [div_eq_mul_inv, mul_inv, rr_inv] at r5
  have r7 := h.le h0
  have r8 := h.tq h0 h1.ne'
  have r9 := h.ld h0 h1.ne'
  have r10 := h.th tr hs h0 h1 h2 hc
  have e1 := rho_rel (ne3 (x := x t) (e := e t) h0)
  have e2 := rr_rho (ne3 (x := x t) (e := e t) h0)
  have e3 := rr_rel (x t) (e t) (q t)
  have e4 := sg_rel (x := x t) (e := e t) h0
  have e5 := bt_rel (x := x t) (e := e t) h0
  have f1 := rho_eq (x t) (e t) (q t)
  have f2 := sg_eq (x t) (e t) (q t)
  have f3 := bt_eq (x t) (e t) (q t)
  have f4 := tq_eq sd cd (x t) (e t) (q t)
  have i1 := (rr_pos (x := x t) (e := e t) h0).ne'
  have i2 := (sg_pos (x := x t) (e := e t) h0).ne'
  have i3 := (bt_pos (x := x t) (e := e t) h0).ne'
  have i4 := h1.ne'
  obtain ⟨g1, g2, g3⟩ := h
  apply HasDerivAt.congr_deriv
  · hderiv
  · clear r1 r2 r3 r4 r5 r7 r8 r9 r10 g1 g2 g3 h0 h1 hs h2
    generalize al⁻¹ = ι at *
    generalize thX _ _ _ _ _ _ = ϑ
    generalize ttX _ _ _ _ + ttX _ _ _ _ = μ
    generalize x t = ξ at *
    generalize e t = η at *
    generalize q t = ζ at *
    generalize Okada.rho _ _ _ = ρ at *
    generalize Okada.sg _ _ _ = σ at *
    generalize Okada.bt _ _ _ = β at *
    generalize Okada.tq _ _ _ _ _ = τ at *
    generalize Okada.rr _ _ _ = r at *
    obtain ⟨u, hu⟩ : ∃ u, u = r + (η * sd - ζ * cd) := ⟨_, rfl⟩
    obtain ⟨Y, hY⟩ : ∃ Y, Y = η * cd + ζ * sd := ⟨_, rfl⟩
    obtain ⟨v, hv⟩ : ∃ v, v = r + η := ⟨_, rfl⟩
    rw [← hu] at f4 i4
    rw [← hv] at f3 i3
    have hη : η = Y * cd + (u - r) * sd := by rw [hu, hY]; linear_combination -η * tr
    have hζ : ζ = Y * sd - (u - r) * cd := by rw [hu, hY]; linear_combination -ζ * tr
    have e6 : ξ ^ 2 = 2 * u * r - u ^ 2 - Y ^ 2 := by
      rw [hu, hY]; linear_combination -e3 + (η ^ 2 + ζ ^ 2) * tr
    clear hu hY
    generalize hK : (1 - al) * ι = K
    rw [← sub_eq_zero]
    generalize a = A
    generalize b = B
    generalize w = W
    clear hK
    revert A B W
    refine linR tr ?_ ?_ ?_ ?_
    · intros
      ring
    · alg_sub
    · alg_sub
    · alg_sub

theorem UB_1_1g {al sd cd : ℝ} (tr : sd * sd + cd * cd = 1) (hc : cd ≠ 0) (h : Curve x e q a b w t) (h0 : q t ≠ 0)
    (h1 : 0 < Okada.rr (x t) (e t) (q t) + (e t * sd - q t * cd)) :
    let U := fun t => UB_1a (medOf al sd cd) (corS (medOf al sd cd) (x t) (e t) (q t)) (i4S (medOf al sd cd) (x t) (e t) (q t))
    HasDerivAt (fun t => (U t).u1) (rate sd cd a b w (U t).u4 (U t).u7 (U t).u10) t := by
  simp only [UB_1a, i4S, corS, medOf, rate, if_pos hc, div_eq_mul_inv, mul_inv, rr_inv, sg_inv, bt_inv, tq_inv, rho_sq]
  have r1 := h.rho h0
  have r2 := h.rr h0
  have r3 := h.sg h0
  have r4 := h.bt h0
  have r5 := h.tt h0
  simp only [div_eq_mul_inv, mul_inv, rr_inv] at r5
  have r7 := h.le h0
  have r8 := h.tq h0 h1.ne'
  have r9 := h.ld h0 h1.ne'
  have e1 := rho_rel (ne3 (x := x t) (e := e t) h0)
  have e2 := rr_rho (ne3 (x := x t) (e := e t) h0)
  have e3 := rr_rel (x t) (e t) (q t)
  have e4 := sg_rel (x := x t) (e := e t) h0
  have e5 := bt_rel (x := x t) (e := e t) h0
  have f1 := rho_eq (x t) (e t) (q t)
  have f2 := sg_eq (x t) (e t) (q t)
  have f3 := bt_eq (x t) (e t) (q t)
  have f4 := tq_eq sd cd (x t) (e t) (q t)
  have i1 := (rr_pos (x := x t) (e := e t) h0).ne'
  have i2 := (sg_pos (x := x t) (e := e t) h0).ne'
  have i3 := (bt_pos (x := x t) (e := e t) h0).ne'
  have i4 := h1.ne'
  obtain ⟨g1, g2, g3⟩ := h
  apply HasDerivAt.congr_deriv
  · hderiv
  · clear r1 r2 r3 r4 r5 r7 r8 r9 g1 g2 g3 h0 h1
    generalize al⁻¹ = ι at *
    generalize x t = ξ at *
    generalize e t = η at *
    generalize q t = ζ at *
    generalize Okada.rho _ _ _ = ρ at *
    generalize Okada.sg _ _ _ = σ at *
    generalize Okada.bt _ _ _ = β at *
    generalize Okada.tq _ _ _ _ _ = τ at *
    generalize Okada.rr _ _ _ = r at *
    obtain ⟨u, hu⟩ : ∃ u, u = r + (η * sd - ζ * cd) := ⟨_, rfl⟩
    obtain ⟨Y, hY⟩ : ∃ Y, Y = η * cd + ζ * sd := ⟨_, rfl⟩
    obtain ⟨v, hv⟩ : ∃ v, v = r + η := ⟨_, rfl⟩
    rw [← hu] at f4 i4
    rw [← hv] at f3 i3
    have hη : η = Y * cd + (u - r) * sd := by rw [hu, hY]; linear_combination -η * tr
    have hζ : ζ = Y * sd - (u - r) * cd := by rw [hu, hY]; linear_combination -ζ * tr
    have e6 : ξ ^ 2 = 2 * u * r - u ^ 2 - Y ^ 2 := by
      rw [hu, hY]; linear_combination -e3 + (η ^ 2 + ζ ^ 2) * tr
    clear hu hY
    generalize hK : (1 - al) * ι = K
    rw [← sub_eq_zero]
    generalize a = A
    generalize b = B
    generalize w = W
    clear hK
    revert A B W
    refine linR tr ?_ ?_ ?_ ?_
    · intros
      ring
    · alg_sub
    · alg_sub
    · alg_sub

theorem UB_1_2g {al sd cd : ℝ} (tr : sd * sd + cd * cd = 1) (hc : cd ≠ 0) (h : Curve x e q a b w t) (h0 : q t ≠ 0)
    (h1 : 0 < Okada.rr (x t) (e t) (q t) + (e t * sd - q t * cd)) :
    let U := fun t => UB_1a (medOf al sd cd) (corS (medOf al sd cd) (x t) (e t) (q t)) (i4S (medOf al sd cd) (x t) (e t) (q t))
    HasDerivAt (fun t => (U t).u2) (rate sd cd a b w (U t).u5 (U t).u8 (U t).u11) t := by
  simp only [UB_1a, i4S, corS, medOf, rate, if_pos hc, div_eq_mul_inv, mul_inv, rr_inv, sg_inv, bt_inv, tq_inv, rho_sq]
  have r1 := h.rho h0
  have r2 := h.rr h0
  have r3 := h.sg h0
  have r4 := h.bt h0
  have r5 := h.tt h0
  simp only [div_eq_mul_inv, mul_inv, rr_inv] at r5
  have r7 := h.le h0
  have r8 := h.tq h0 h1.ne'
  have r9 := h.ld h0 h1.ne'
  have e1 := rho_rel (ne3 (x := x t) (e := e t) h0)
  have e2 := rr_rho (ne3 (x := x t) (e := e t) h0)
  have e3 := rr_rel (x t) (e t) (q t)
  have e4 := sg_rel (x := x t) (e := e t) h0
  have e5 := bt_rel (x := x t) (e := e t) h0
  have f1 := rho_eq (x t) (e t) (q t)
  have f2 := sg_eq (x t) (e t) (q t)
  have f3 := bt_eq (x t) (e t) (q t)
  have f4 := tq_eq sd cd (x t) (e t) (q t)
  have i1 := (rr_pos (x := x t) (e := e t) h0).ne'
  have i2 := (sg_pos (x := x t) (e := e t) h0).ne'
  have i3 := (bt_pos (x := x t) (e := e t) h0).ne'
  have i4 := h1.ne'
  obtain ⟨g1, g2, g3⟩ := h
  apply HasDerivAt.congr_deriv
  · hderiv
  · clear r1 r2 r3 r4 r5 r7 r8 r9 g1 g2 g3 h0 h1
    generalize al⁻¹ = ι at *
    generalize x t = ξ at *
    generalize e t = η at *
    generalize q t = ζ at *
    generalize Okada.rho _ _ _ = ρ at *
    generalize Okada.sg _ _ _ = σ at *
    generalize Okada.bt _ _ _ = β at *
    generalize Okada.tq _ _ _ _ _ = τ at *
    generalize Okada.rr _ _ _ = r at *
    obtain ⟨u, hu⟩ : ∃ u, u = r + (η * sd - ζ * cd) := ⟨_, rfl⟩
    obtain ⟨Y, hY⟩ : ∃ Y, Y = η * cd + ζ * sd := ⟨_, rfl⟩
    obtain ⟨v, hv⟩ : ∃ v, v = r + η := ⟨_, rfl⟩
    rw [← hu] at f4 i4
    rw [← hv] at f3 i3
    have hη : η = Y * cd + (u - r) * sd := by rw [hu, hY]; linear_combination -η * tr
    have hζ : ζ = Y * sd - (u - r) * cd := by rw [hu, hY]; linear_combination -ζ * tr
    have e6 : ξ ^ 2 = 2 * u * r - u ^ 2 - Y ^ 2 := by
      rw [hu, hY]; linear_combination -e3 + (η ^ 2 + ζ ^ 2) * tr
    clear hu hY
    generalize hK : (1 - al) * ι = K
    rw [← sub_eq_zero]
    generalize a = A
    generalize b = B
    generalize w = W
    clear hK
    revert A B W
    refine linR tr ?_ ?_ ?_ ?_
    · intros
      ring
    · alg_sub
    · alg_sub
    · alg_sub

theorem UB_2_0g {al sd cd : ℝ} (tr : sd * sd + cd * cd = 1) (hc : cd ≠ 0) (h : Curve x e q a b w t) (h0 : q t ≠ 0)
    (h1 : 0 < Okada.rr (x t) (e t) (q t) + (e t * sd - q t * cd)) :
    let U := fun t => UB_2a (medOf al sd cd) (corS (medOf al sd cd) (x t) (e t) (q t)) (i4S (medOf al sd cd) (x t) (e t) (q t))
    HasDerivAt (fun t => (U t).u0) (rate sd cd a b w (U t).u3 (U t).u6 (U t).u9) t := by
  simp only [UB_2a, i4S, corS, medOf, rate, if_pos hc, div_eq_mul_inv, mul_inv, rr_inv, sg_inv, bt_inv, tq_inv, rho_sq]
  have r1 := h.rho h0
  have r2 := h.rr h0
  have r3 := h.sg h0
  have r4 := h.bt h0
  have r5 := h.tt h0
  simp only [div_eq_mul_inv, mul_inv, rr_inv] at r5
  have r7 := h.le h0
  have r8 := h.tq h0 h1.ne'
  have r9 := h.ld h0 h1.ne'
  have e1 := rho_rel (ne3 (x := x t) (e := e t) h0)
  have e2 := rr_rho (ne3 (x := x t) (e := e t) h0)
  have e3 := rr_rel (x t) (e t) (q t)
  have e4 := sg_rel (x := x t) (e := e t) h0
  have e5 := bt_rel (x := x t) (e := e t) h0
  have f1 := rho_eq (x t) (e t) (q t)
  have f2 := sg_eq (x t) (e t) (q t)
  have f3 := bt_eq (x t) (e t) (q t)
  have f4 := tq_eq sd cd (x t) (e t) (q t)
  have i1 := (rr_pos (x := x t) (e := e t) h0).ne'
  have i2 := (sg_pos (x := x t) (e := e t) h0).ne'
  have i3 := (bt_pos (x := x t) (e := e t) h0).ne'
  have i4 := h1.ne'
  obtain ⟨g1, g2, g3⟩ := h
  apply HasDerivAt.congr_deriv
  · hderiv
  · clear r1 r2 r3 r4 r5 r7 r8 r9 g1 g2 g3 h0 h1
    generalize al⁻¹ = ι at *
    generalize x t = ξ at *
    generalize e t = η at *
    generalize q t = ζ at *
    generalize Okada.rho _ _ _ = ρ at *
    generalize Okada.sg _ _ _ = σ at *
    generalize Okada.bt _ _ _ = β at *
    generalize Okada.tq _ _ _ _ _ = τ at *
    generalize Okada.rr _ _ _ = r at *
    obtain ⟨u, hu⟩ : ∃ u, u = r + (η * sd - ζ * cd) := ⟨_, rfl⟩
    obtain ⟨Y, hY⟩ : ∃ Y, Y = η * cd + ζ * sd := ⟨_, rfl⟩
    obtain ⟨v, hv⟩ : ∃ v, v = r + η := ⟨_, rfl⟩
    rw [← hu] at f4 i4
    rw [← hv] at f3 i3
    have hη : η = Y * cd + (u - r) * sd := by rw [hu, hY]; linear_combination -η * tr
    have hζ : ζ = Y * sd - (u - r) * cd := by rw [hu, hY]; linear_combination -ζ * tr
    have e6 : ξ ^ 2 = 2 * u * r - u ^ 2 - Y ^ 2 := by
      rw [hu, hY]; linear_combination -e3 + (η ^ 2 + ζ ^ 2) * tr
    clear hu hY
    generalize hK : (1 - al) * ι = K
    rw [← sub_eq_zero]
    generalize a = A
    generalize b = B
    generalize w = W
    clear hK
    revert A B W
    refine linR tr ?_ ?_ ?_ ?_
    · intros
      ring
    · alg_sub
    · alg_sub
    · alg_sub

theorem UB_2_1g {al sd cd : ℝ} (tr : sd * sd + cd * cd = 1) (hc : cd ≠ 0) (h : Curve x e q a b w t) (h0 : q t ≠ 0)
    (h1 : 0 < Okada.rr (x t) (e t) (q t) + (e t * sd - q t * cd)) :
    let U := fun t => UB_2a (medOf al sd cd) (corS (medOf al sd cd) (x t) (e t) (q t)) (i4S (medOf al sd cd) (x t) (e t) (q t))
    HasDerivAt (fun t => (U t).u1) (rate sd cd a b w (U t).u4 (U t).u7 (U t).u10 + -1 * (ttX (x t) (q t) a w + ttX (e t) (q t) b w)) t := by
  simp only [UB_2a, i4S, corS, medOf, rate, if_pos hc, div_eq_mul_inv, mul_inv, rr_inv, sg_inv, bt_inv, tq_inv, rho_sq]
  have r1 := h.rho h0
  have r2 := h.rr h0
  have r3 := h.sg h0
  have r4 := h.bt h0
  have r5 := h.tt h0
  simp only [div_eq_mul_inv, mul_inv, rr_inv] at r5
  have r7 := h.le h0
  have r8 := h.tq h0 h1.ne'
  have r9 := h.ld h0 h1.ne'
  have e1 := rho_rel (ne3 (x := x t) (e := e t) h0)
  have e2 := rr_rho (ne3 (x := x t) (e := e t) h0)
  have e3 := rr_rel (x t) (e t) (q t)
  have e4 := sg_rel (x := x t) (e := e t) h0
  have e5 := bt_rel (x := x t) (e := e t) h0
  have f1 := rho_eq (x t) (e t) (q t)
  have f2 := sg_eq (x t) (e t) (q t)
  have f3 := bt_eq (x t) (e t) (q t)
  have f4 := tq_eq sd cd (x t) (e t) (q t)
  have i1 := (rr_pos (x := x t) (e := e t) h0).ne'
  have i2 := (sg_pos (x := x t) (e := e t) h0).ne'
  have i3 := (bt_pos (x := x t) (e := e t) h0).ne'
  have i4 := h1.ne'
  obtain ⟨g1, g2, g3⟩ := h
  apply HasDerivAt.congr_deriv
  · hderiv
  · clear r1 r2 r3 r4 r5 r7 r8 r9 g1 g2 g3 h0 h1
    generalize al⁻¹ = ι at *
    generalize ttX _ _ _ _ + ttX _ _ _ _ = μ
    generalize x t = ξ at *
    generalize e t = η at *
    generalize q t = ζ at *
    generalize Okada.rho _ _ _ = ρ at *
    generalize Okada.sg _ _ _ = σ at *
    generalize Okada.bt _ _ _ = β at *
    generalize Okada.tq _ _ _ _ _ = τ at *
    generalize Okada.rr _ _ _ = r at *
    obtain ⟨u, hu⟩ : ∃ u, u = r + (η * sd - ζ * cd) := ⟨_, rfl⟩
    obtain ⟨Y, hY⟩ : ∃ Y, Y = η * cd + ζ * sd := ⟨_, rfl⟩
    obtain ⟨v, hv⟩ : ∃ v, v = r + η := ⟨_, rfl⟩
    rw [← hu] at f4 i4
    rw [← hv] at f3 i3
    have hη : η = Y * cd + (u - r) * sd := by rw [hu, hY]; linear_combination -η * tr
    have hζ : ζ = Y * sd - (u - r) * cd := by rw [hu, hY]; linear_combination -ζ * tr
    have e6 : ξ ^ 2 = 2 * u * r - u ^ 2 - Y ^ 2 := by
      rw [hu, hY]; linear_combination -e3 + (η ^ 2 + ζ ^ 2) * tr
    clear hu hY
    generalize hK : (1 - al) * ι = K
    rw [← sub_eq_zero]
    generalize a = A
    generalize b = B
    generalize w = W
    clear hK
    revert A B W
    refine linR tr ?_ ?_ ?_ ?_
    · intros
      ring
    · alg_sub
    · alg_sub
    · alg_sub

theorem UB_2_2g {al sd cd : ℝ} (tr : sd * sd + cd * cd = 1) (hc : cd ≠ 0) (hs : sd ≠ 0) (h : Curve x e q a b w t) (h0 : q t ≠ 0)
    (h1 : 0 < Okada.rr (x t) (e t) (q t) + (e t * sd - q t * cd)) (h2 : x t = 0 → 0 < tN sd cd (x t) (e t) (q t)) :
    let U := fun t => UB_2a (medOf al sd cd) (corS (medOf al sd cd) (x t) (e t) (q t)) (i4S (medOf al sd cd) (x t) (e t) (q t))
    HasDerivAt (fun t => (U t).u2) (rate sd cd a b w (U t).u5 (U t).u8 (U t).u11 + (1 - al) / al * (sd * cd) / (cd * cd) * thX sd cd (x t) (q t) a w) t := by
  simp only [UB_2a, i4S, corS, medOf, rate, if_pos hc, div_eq_mul_inv, mul_inv, rr_inv, sg_inv, bt_inv, tq_inv, rho_sq]
  have r1 := h.rho h0
  have r2 := h.rr h0
  have r3 := h.sg h0
  have r4 := h.bt h0
  have r5 := h.tt h0
  simp only [div_eq_mul_inv, mul_inv, rr_inv] at r5
  have r7 := h.le h0
  have r8 := h.tq h0 h1.ne'
  have r9 := h.ld h0 h1.ne'
  have r10 := h.th tr hs h0 h1 h2 hc
  have e1 := rho_rel (ne3 (x := x t) (e := e t) h0)
  have e2 := rr_rho (ne3 (x := x t) (e := e t) h0)
  have e3 := rr_rel (x t) (e t) (q t)
  have e4 := sg_rel (x := x t) (e := e t) h0
  have e5 := bt_rel (x := x t) (e := e t) h0
  have f1 := rho_eq (x t) (e t) (q t)
  have f2 := sg_eq (x t) (e t) (q t)
  have f3 := bt_eq (x t) (e t) (q t)
  have f4 := tq_eq sd cd (x t) (e t) (q t)
  have i1 := (rr_pos (x := x t) (e := e t) h0).ne'
  have i2 := (sg_pos (x := x t) (e := e t) h0).ne'
  have i3 := (bt_pos (x := x t) (e := e t) h0).ne'
  have i4 := h1.ne'
  obtain ⟨g1, g2, g3⟩ := h
  apply HasDerivAt.congr_deriv
  · hderiv
  · clear r1 r2 r3 r4 r5 r7 r8 r9 r10 g1 g2 g3 h0 h1 hs h2
    generalize al⁻¹ = ι at *
    generalize thX _ _ _ _ _ _ = ϑ
    generalize x t = ξ at *
    generalize e t = η at *
    generalize q t = ζ at *
    generalize Okada.rho _ _ _ = ρ at *
    generalize Okada.sg _ _ _ = σ at *
    generalize Okada.bt _ _ _ = β at *
    generalize Okada.tq _ _ _ _ _ = τ at *
    generalize Okada.rr _ _ _ = r at *
    obtain ⟨u, hu⟩ : ∃ u, u = r + (η * sd - ζ * cd) := ⟨_, rfl⟩
    obtain ⟨Y, hY⟩ : ∃ Y, Y = η * cd + ζ * sd := ⟨_, rfl⟩
    obtain ⟨v, hv⟩ : ∃ v, v = r + η := ⟨_, rfl⟩
    rw [← hu] at f4 i4
    rw [← hv] at f3 i3
    have hη : η = Y * cd + (u - r) * sd := by rw [hu, hY]; linear_combination -η * tr
    have hζ : ζ = Y * sd - (u - r) * cd := by rw [hu, hY]; linear_combination -ζ * tr
    have e6 : ξ ^ 2 = 2 * u * r - u ^ 2 - Y ^ 2 := by
      rw [hu, hY]; linear_combination -e3 + (η ^ 2 + ζ ^ 2) * tr
    clear hu hY
    generalize hK : (1 - al) * ι = K
    rw [← sub_eq_zero]
    generalize a = A
    generalize b = B
    generalize w = W
    clear hK
    revert A B W
    refine linR tr ?_ ?_ ?_ ?_
    · intros
      ring
    · alg_sub
    · alg_sub
    · alg_sub

theorem UB_3_0g {al sd cd : ℝ} (tr : sd * sd + cd * cd = 1) (hc : cd ≠ 0) (h : Curve x e q a b w t) (h0 : q t ≠ 0)
    (h1 : 0 < Okada.rr (x t) (e t) (q t) + (e t * sd - q t * cd)) :
    let U := fun t => UB_3a (medOf al sd cd) (corS (medOf al sd cd) (x t) (e t) (q t)) (i4S (medOf al sd cd) (x t) (e t) (q t))
    HasDerivAt (fun t => (U t).u0) (rate sd cd a b w (U t).u3 (U t).u6 (U t).u9) t := by
  simp only [UB_3a, i4S, corS, medOf, rate, if_pos hc, div_eq_mul_inv, mul_inv, rr_inv, sg_inv, bt_inv, tq_inv, rho_sq]
  have r1 := h.rho h0
  have r2 := h.rr h0
  have r3 := h.sg h0
  have r4 := h.bt h0
  have r5 := h.tt h0
  simp only [div_eq_mul_inv, mul_inv, rr_inv] at r5
  have r7 := h.le h0
  have r8 := h.tq h0 h1.ne'
  have r9 := h.ld h0 h1.ne'
  have e1 := rho_rel (ne3 (x := x t) (e := e t) h0)
  have e2 := rr_rho (ne3 (x := x t) (e := e t) h0)
  have e3 := rr_rel (x t) (e t) (q t)
  have e4 := sg_rel (x := x t) (e := e t) h0
  have e5 := bt_rel (x := x t) (e := e t) h0
  have f1 := rho_eq (x t) (e t) (q t)
  have f2 := sg_eq (x t) (e t) (q t)
  have f3 := bt_eq (x t) (e t) (q t)
  have f4 := tq_eq sd cd (x t) (e t) (q t)
  have i1 := (rr_pos (x := x t) (e := e t) h0).ne'
  have i2 := (sg_pos (x := x t) (e := e t) h0).ne'
  have i3 := (bt_pos (x := x t) (e := e t) h0).ne'
  have i4 := h1.ne'
  obtain ⟨g1, g2, g3⟩ := h
  apply HasDerivAt.congr_deriv
  · hderiv
  · clear r1 r2 r3 r4 r5 r7 r8 r9 g1 g2 g3 h0 h1
    generalize al⁻¹ = ι at *
    generalize x t = ξ at *
    generalize e t = η at *
    generalize q t = ζ at *
    generalize Okada.rho _ _ _ = ρ at *
    generalize Okada.sg _ _ _ = σ at *
    generalize Okada.bt _ _ _ = β at *
    generalize Okada.tq _ _ _ _ _ = τ at *
    generalize Okada.rr _ _ _ = r at *
    obtain ⟨u, hu⟩ : ∃ u, u = r + (η * sd - ζ * cd) := ⟨_, rfl⟩
    obtain ⟨Y, hY⟩ : ∃ Y, Y = η * cd + ζ * sd := ⟨_, rfl⟩
    obtain ⟨v, hv⟩ : ∃ v, v = r + η := ⟨_, rfl⟩
    rw [← hu] at f4 i4
    rw [← hv] at f3 i3
    have hη : η = Y * cd + (u - r) * sd := by rw [hu, hY]; linear_combination -η * tr
    have hζ : ζ = Y * sd - (u - r) * cd := by rw [hu, hY]; linear_combination -ζ * tr
    have e6 : ξ ^ 2 = 2 * u * r - u ^ 2 - Y ^ 2 := by
      rw [hu, hY]; linear_combination -e3 + (η ^ 2 + ζ ^ 2) * tr
    clear hu hY
    generalize hK : (1 - al) * ι = K
    rw [← sub_eq_zero]
    generalize a = A
    generalize b = B
    generalize w = W
    clear hK
    revert A B W
    refine linR tr ?_ ?_ ?_ ?_
    · intros
      ring
    · alg_sub
    · alg_sub
    · alg_sub

theorem UB_3_1g {al sd cd : ℝ} (tr : sd * sd + cd * cd = 1) (hc : cd ≠ 0) (h : Curve x e q a b w t) (h0 : q t ≠ 0)
    (h1 : 0 < Okada.rr (x t) (e t) (q t) + (e t * sd - q t * cd)) :
    let U := fun t => UB_3a (medOf al sd cd) (corS (medOf al sd cd) (x t) (e t) (q t)) (i4S (medOf al sd cd) (x t) (e t) (q t))
    HasDerivAt (fun t => (U t).u1) (rate sd cd a b w (U t).u4 (U t).u7 (U t).u10) t := by
  simp only [UB_3a, i4S, corS, medOf, rate, if_pos hc, div_eq_mul_inv, mul_inv, rr_inv, sg_inv, bt_inv, tq_inv, rho_sq]
  have r1 := h.rho h0
  have r2 := h.rr h0
  have r3 := h.sg h0
  have r4 := h.bt h0
  have r5 := h.tt h0
  simp only [div_eq_mul_inv, mul_inv, rr_inv] at r5
  have r7 := h.le h0
  have r8 := h.tq h0 h1.ne'
  have r9 := h.ld h0 h1.ne'
  have e1 := rho_rel (ne3 (x := x t) (e := e t) h0)
  have e2 := rr_rho (ne3 (x := x t) (e := e t) h0)
  have e3 := rr_rel (x t) (e t) (q t)
  have e4 := sg_rel (x := x t) (e := e t) h0
  have e5 := bt_rel (x := x t) (e := e t) h0
  have f1 := rho_eq (x t) (e t) (q t)
  have f2 := sg_eq (x t) (e t) (q t)
  have f3 := bt_eq (x t) (e t) (q t)
  have f4 := tq_eq sd cd (x t) (e t) (q t)
  have i1 := (rr_pos (x := x t) (e := e t) h0).ne'
  have i2 := (sg_pos (x := x t) (e := e t) h0).ne'
  have i3 := (bt_pos (x := x t) (e := e t) h0).ne'
  have i4 := h1.ne'
  obtain ⟨g1, g2, g3⟩ := h
  apply HasDerivAt.congr_deriv
  · hderiv
  · clear r1 r2 r3 r4 r5 r7 r8 r9 g1 g2 g3 h0 h1
    generalize al⁻¹ = ι at *
    generalize x t = ξ at *
    generalize e t = η at *
    generalize q t = ζ at *
    generalize Okada.rho _ _ _ = ρ at *
    generalize Okada.sg _ _ _ = σ at *
    generalize Okada.bt _ _ _ = β at *
    generalize Okada.tq _ _ _ _ _ = τ at *
    generalize Okada.rr _ _ _ = r at *
    obtain ⟨u, hu⟩ : ∃ u, u = r + (η * sd - ζ * cd) := ⟨_, rfl⟩
    obtain ⟨Y, hY⟩ : ∃ Y, Y = η * cd + ζ * sd := ⟨_, rfl⟩
    obtain ⟨v, hv⟩ : ∃ v, v = r + η := ⟨_, rfl⟩
    rw [← hu] at f4 i4
    rw [← hv] at f3 i3
    have hη : η = Y * cd + (u - r) * sd := by rw [hu, hY]; linear_combination -η * tr
    have hζ : ζ = Y * sd - (u - r) * cd := by rw [hu, hY]; linear_combination -ζ * tr
    have e6 : ξ ^ 2 = 2 * u * r - u ^ 2 - Y ^ 2 := by
      rw [hu, hY]; linear_combination -e3 + (η ^ 2 + ζ ^ 2) * tr
    clear hu hY
    generalize hK : (1 - al) * ι = K
    rw [← sub_eq_zero]
    generalize a = A
    generalize b = B
    generalize w = W
    clear hK
    revert A B W
    refine linR tr ?_ ?_ ?_ ?_
    · intros
      ring
    · alg_sub
    · alg_sub
    · alg_sub

theorem UB_3_2g {al sd cd : ℝ} (tr : sd * sd + cd * cd = 1) (hc : cd ≠ 0) (hs : sd ≠ 0) (h : Curve x e q a b w t) (h0 : q t ≠ 0)
    (h1 : 0 < Okada.rr (x t) (e t) (q t) + (e t * sd - q t * cd)) (h2 : x t = 0 → 0 < tN sd cd (x t) (e t) (q t)) :
    let U := fun t => UB_3a (medOf al sd cd) (corS (medOf al sd cd) (x t) (e t) (q t)) (i4S (medOf al sd cd) (x t) (e t) (q t))
    HasDerivAt (fun t => (U t).u2) (rate sd cd a b w (U t).u5 (U t).u8 (U t).u11 + -1 * (ttX (x t) (q t) a w + ttX (e t) (q t) b w) + -((1 - al) / al * (sd * sd) / (cd * cd)) * thX sd cd (x t) (q t) a w) t := by
  simp only [UB_3a, i4S, corS, medOf, rate, if_pos hc, div_eq_mul_inv, mul_inv, rr_inv, sg_inv, bt_inv, tq_inv, rho_sq]
  have r1 := h.rho h0
  have r2 := h.rr h0
  have r3 := h.sg h0
  have r4 := h.bt h0
  have r5 := h.tt h0
  simp only [div_eq_mul_inv, mul_inv, rr_inv] at r5
  have r7 := h.le h0
  have r8 := h.tq h0 h1.ne'
  have r9 := h.ld h0 h1.ne'
  have r10 := h.th tr hs h0 h1 h2 hc
  have e1 := rho_rel (ne3 (x := x t) (e := e t) h0)
  have e2 := rr_rho (ne3 (x := x t) (e := e t) h0)
  have e3 := rr_rel (x t) (e t) (q t)
  have e4 := sg_rel (x := x t) (e := e t) h0
  have e5 := bt_rel (x := x t) (e := e t) h0
  have f1 := rho_eq (x t) (e t) (q t)
  have f2 := sg_eq (x t) (e t) (q t)
  have f3 := bt_eq (x t) (e t) (q t)
  have f4 := tq_eq sd cd (x t) (e t) (q t)
  have i1 := (rr_pos (x := x t) (e := e t) h0).ne'
  have i2 := (sg_pos (x := x t) (e := e t) h0).ne'
  have i3 := (bt_pos (x := x t) (e := e t) h0).ne'
  have i4 := h1.ne'
  obtain ⟨g1, g2, g3⟩ := h
  apply HasDerivAt.congr_deriv
  · hderiv
  · clear r1 r2 r3 r4 r5 r7 r8 r9 r10 g1 g2 g3 h0 h1 hs h2
    generalize al⁻¹ = ι at *
    generalize thX _ _ _ _ _ _ = ϑ
    generalize ttX _ _ _ _ + ttX _ _ _ _ = μ
    generalize x t = ξ at *
    generalize e t = η at *
    generalize q t = ζ at *
    generalize Okada.rho _ _ _ = ρ at *
    generalize Okada.sg _ _ _ = σ at *
    generalize Okada.bt _ _ _ = β at *
    generalize Okada.tq _ _ _ _ _ = τ at *
    generalize Okada.rr _ _ _ = r at *
    obtain ⟨u, hu⟩ : ∃ u, u = r + (η * sd - ζ * cd) := ⟨_, rfl⟩
    obtain ⟨Y, hY⟩ : ∃ Y, Y = η * cd + ζ * sd := ⟨_, rfl⟩
    obtain ⟨v, hv⟩ : ∃ v, v = r + η := ⟨_, rfl⟩
    rw [← hu] at f4 i4
    rw [← hv] at f3 i3
    have hη : η = Y * cd + (u - r) * sd := by rw [hu, hY]; linear_combination -η * tr
    have hζ : ζ = Y * sd - (u - r) * cd := by rw [hu, hY]; linear_combination -ζ * tr
    have e6 : ξ ^ 2 = 2 * u * r - u ^ 2 - Y ^ 2 := by
      rw [hu, hY]; linear_combination -e3 + (η ^ 2 + ζ ^ 2) * tr
    clear hu hY
    generalize hK : (1 - al) * ι = K
    rw [← sub_eq_zero]
    generalize a = A
    generalize b = B
    generalize w = W
    clear hK
    revert A B W
    refine linR tr ?_ ?_ ?_ ?_
    · intros
      ring
    · alg_sub
    · alg_sub
    · alg_sub

theorem UB_1_0v {al sd : ℝ} (s1 : sd = 1) (h : Curve x e q a b w t) (h0 : q t ≠ 0)
    (h1 : 0 < Okada.rr (x t) (e t) (q t) + (e t * sd - q t * 0)) :
    let U := fun t => UB_1a (medOf al sd 0) (corS (medOf al sd 0) (x t) (e t) (q t)) (i4S (medOf al sd 0) (x t) (e t) (q t))
    HasDerivAt (fun t => (U t).u0) (rate sd 0 a b w (U t).u3 (U t).u6 (U t).u9 + -1 * (ttX (x t) (q t) a w + ttX (e t) (q t) b w)) t := by
  have tr : sd * sd = 1 := by rw [s1]; norm_num
  simp only [UB_1a, i4S, corS, medOf, rate, ne_eq, not_true_eq_false, if_false, div_eq_mul_inv, mul_inv, rr_inv, sg_inv, bt_inv, tq_inv, rho_sq]
  have r1 := h.rho h0
  have r2 := h.rr h0
  have r3 := h.sg h0
  have r4 := h.bt h0
  have r5 := h.tt h0
  simp only [div_eq_mul_inv, mul_inv, rr_inv] at r5
  have r7 := h.le h0
  have r8 := h.tq h0 h1.ne'
  have r9 := h.ld h0 h1.ne'
  have e1 := rho_rel (ne3 (x := x t) (e := e t) h0)
  have e2 := rr_rho (ne3 (x := x t) (e := e t) h0)
  have e3 := rr_rel (x t) (e t) (q t)
  have e4 := sg_rel (x := x t) (e := e t) h0
  have e5 := bt_rel (x := x t) (e := e t) h0
  have f1 := rho_eq (x t) (e t) (q t)
  have f2 := sg_eq (x t) (e t) (q t)
  have f3 := bt_eq (x t) (e t) (q t)
  have f4 := tq_eq sd 0 (x t) (e t) (q t)
  have i1 := (rr_pos (x := x t) (e := e t) h0).ne'
  have i2 := (sg_pos (x := x t) (e := e t) h0).ne'
  have i3 := (bt_pos (x := x t) (e := e t) h0).ne'
  have i4 := h1.ne'
  obtain ⟨g1, g2, g3⟩ := h
  apply HasDerivAt.congr_deriv
  · hderiv
  · clear r1 r2 r3 r4 r5 r7 r8 r9 g1 g2 g3 h0 h1
    generalize al⁻¹ = ι at *
    generalize ttX _ _ _ _ + ttX _ _ _ _ = μ
    generalize x t = ξ at *
    generalize e t = η at *
    generalize q t = ζ at *
    generalize Okada.rho _ _ _ = ρ at *
    generalize Okada.sg _ _ _ = σ at *
    generalize Okada.bt _ _ _ = β at *
    generalize Okada.tq _ _ _ _ _ = τ at *
    generalize Okada.rr _ _ _ = r at *
    obtain ⟨u, hu⟩ : ∃ u, u = r + (η * sd - ζ * 0) := ⟨_, rfl⟩
    obtain ⟨Y, hY⟩ : ∃ Y, Y = η * 0 + ζ * sd := ⟨_, rfl⟩
    obtain ⟨v, hv⟩ : ∃ v, v = r + η := ⟨_, rfl⟩
    rw [← hu] at f4 i4
    rw [← hv] at f3 i3
    have hη : η = Y * 0 + (u - r) * sd := by rw [hu, hY]; linear_combination -η * tr
    have hζ : ζ = Y * sd - (u - r) * 0 := by rw [hu, hY]; linear_combination -ζ * tr
    have e6 : ξ ^ 2 = 2 * u * r - u ^ 2 - Y ^ 2 := by
      rw [hu, hY]; linear_combination -e3 + (η ^ 2 + ζ ^ 2) * tr
    clear hu hY
    generalize hK : (1 - al) * ι = K
    rw [← sub_eq_zero]
    generalize a = A
    generalize b = B
    generalize w = W
    clear hK
    revert A B W
    refine linR (c := 0) (by rw [tr]; norm_num) ?_ ?_ ?_ ?_
    · intros
      ring
    · alg_sub
    · alg_sub
    · alg_sub

theorem UB_1_1v {al sd : ℝ} (s1 : sd = 1) (h : Curve x e q a b w t) (h0 : q t ≠ 0)
    (h1 : 0 < Okada.rr (x t) (e t) (q t) + (e t * sd - q t * 0)) :
    let U := fun t => UB_1a (medOf al sd 0) (corS (medOf al sd 0) (x t) (e t) (q t)) (i4S (medOf al sd 0) (x t) (e t) (q t))
    HasDerivAt (fun t => (U t).u1) (rate sd 0 a b w (U t).u4 (U t).u7 (U t).u10) t := by
  have tr : sd * sd = 1 := by rw [s1]; norm_num
  simp only [UB_1a, i4S, corS, medOf, rate, ne_eq, not_true_eq_false, if_false, div_eq_mul_inv, mul_inv, rr_inv, sg_inv, bt_inv, tq_inv, rho_sq]
  have r1 := h.rho h0
  have r2 := h.rr h0
  have r3 := h.sg h0
  have r4 := h.bt h0
  have r5 := h.tt h0
  simp only [div_eq_mul_inv, mul_inv, rr_inv] at r5
  have r7 := h.le h0
  have r8 := h.tq h0 h1.ne'
  have r9 := h.ld h0 h1.ne'
  have e1 := rho_rel (ne3 (x := x t) (e := e t) h0)
  have e2 := rr_rho (ne3 (x := x t) (e := e t) h0)
  have e3 := rr_rel (x t) (e t) (q t)
  have e4 := sg_rel (x := x t) (e := e t) h0
  have e5 := bt_rel (x := x t) (e := e t) h0
  have f1 := rho_eq (x t) (e t) (q t)
  have f2 := sg_eq (x t) (e t) (q t)
  have f3 := bt_eq (x t) (e t) (q t)
  have f4 := tq_eq sd 0 (x t) (e t) (q t)
  have i1 := (rr_pos (x := x t) (e := e t) h0).ne'
  have i2 := (sg_pos (x := x t) (e := e t) h0).ne'
  have i3 := (bt_pos (x := x t) (e := e t) h0).ne'
  have i4 := h1.ne'
  obtain ⟨g1, g2, g3⟩ := h
  apply HasDerivAt.congr_deriv
  · hderiv
  · clear r1 r2 r3 r4 r5 r7 r8 r9 g1 g2 g3 h0 h1
    generalize al⁻¹ = ι at *
    generalize x t = ξ at *
    generalize e t = η at *
    generalize q t = ζ at *
    generalize Okada.rho _ _ _ = ρ at *
    generalize Okada.sg _ _ _ = σ at *
    generalize Okada.bt _ _ _ = β at *
    generalize Okada.tq _ _ _ _ _ = τ at *
    generalize Okada.rr _ _ _ = r at *
    obtain ⟨u, hu⟩ : ∃ u, u = r + (η * sd - ζ * 0) := ⟨_, rfl⟩
    obtain ⟨Y, hY⟩ : ∃ Y, Y = η * 0 + ζ * sd := ⟨_, rfl⟩
    obtain ⟨v, hv⟩ : ∃ v, v = r + η := ⟨_, rfl⟩
    rw [← hu] at f4 i4
    rw [← hv] at f3 i3
    have hη : η = Y * 0 + (u - r) * sd := by rw [hu, hY]; linear_combination -η * tr
    have hζ : ζ = Y * sd - (u - r) * 0 := by rw [hu, hY]; linear_combination -ζ * tr
    have e6 : ξ ^ 2 = 2 * u * r - u ^ 2 - Y ^ 2 := by
      rw [hu, hY]; linear_combination -e3 + (η ^ 2 + ζ ^ 2) * tr
    clear hu hY
    generalize hK : (1 - al) * ι = K
    rw [← sub_eq_zero]
    generalize a = A
    generalize b = B
    generalize w = W
    clear hK
    revert A B W
    refine linR (c := 0) (by rw [tr]; norm_num) ?_ ?_ ?_ ?_
    · intros
      ring
    · alg_sub
    · alg_sub
    · alg_sub

theorem UB_1_2v {al sd : ℝ} (s1 : sd = 1) (h : Curve x e q a b w t) (h0 : q t ≠ 0)
    (h1 : 0 < Okada.rr (x t) (e t) (q t) + (e t * sd - q t * 0)) :
    let U := fun t => UB_1a (medOf al sd 0) (corS (medOf al sd 0) (x t) (e t) (q t)) (i4S (medOf al sd 0) (x t) (e t) (q t))
    HasDerivAt (fun t => (U t).u2) (rate sd 0 a b w (U t).u5 (U t).u8 (U t).u11) t := by
  have tr : sd * sd = 1 := by rw [s1]; norm_num
  simp only [UB_1a, i4S, corS, medOf, rate, ne_eq, not_true_eq_false, if_false, div_eq_mul_inv, mul_inv, rr_inv, sg_inv, bt_inv, tq_inv, rho_sq]
  have r1 := h.rho h0
  have r2 := h.rr h0
  have r3 := h.sg h0
  have r4 := h.bt h0
  have r5 := h.tt h0
  simp only [div_eq_mul_inv, mul_inv, rr_inv] at r5
  have r7 := h.le h0
  have r8 := h.tq h0 h1.ne'
  have r9 := h.ld h0 h1.ne'
  have e1 := rho_rel (ne3 (x := x t) (e := e t) h0)
  have e2 := rr_rho (ne3 (x := x t) (e := e t) h0)
  have e3 := rr_rel (x t) (e t) (q t)
  have e4 := sg_rel (x := x t) (e := e t) h0
  have e5 := bt_rel (x := x t) (e := e t) h0
  have f1 := rho_eq (x t) (e t) (q t)
  have f2 := sg_eq (x t) (e t) (q t)
  have f3 := bt_eq (x t) (e t) (q t)
  have f4 := tq_eq sd 0 (x t) (e t) (q t)
  have i1 := (rr_pos (x := x t) (e := e t) h0).ne'
  have i2 := (sg_pos (x := x t) (e := e t) h0).ne'
  have i3 := (bt_pos (x := x t) (e := e t) h0).ne'
  have i4 := h1.ne'
  obtain ⟨g1, g2, g3⟩ := h
  apply HasDerivAt.congr_deriv
  · hderiv
  · clear r1 r2 r3 r4 r5 r7 r8 r9 g1 g2 g3 h0 h1
    generalize al⁻¹ = ι at *
    generalize x t = ξ at *
    generalize e t = η at *
    generalize q t = ζ at *
    generalize Okada.rho _ _ _ = ρ at *
    generalize Okada.sg _ _ _ = σ at *
    generalize Okada.bt _ _ _ = β at *
    generalize Okada.tq _ _ _ _ _ = τ at *
    generalize Okada.rr _ _ _ = r at *
    obtain ⟨u, hu⟩ : ∃ u, u = r + (η * sd - ζ * 0) := ⟨_, rfl⟩
    obtain ⟨Y, hY⟩ : ∃ Y, Y = η * 0 + ζ * sd := ⟨_, rfl⟩
    obtain ⟨v, hv⟩ : ∃ v, v = r + η := ⟨_, rfl⟩
    rw [← hu] at f4 i4
    rw [← hv] at f3 i3
    have hη : η = Y * 0 + (u - r) * sd := by rw [hu, hY]; linear_combination -η * tr
    have hζ : ζ = Y * sd - (u - r) * 0 := by rw [hu, hY]; linear_combination -ζ * tr
    have e6 : ξ ^ 2 = 2 * u * r - u ^ 2 - Y ^ 2 := by
      rw [hu, hY]; linear_combination -e3 + (η ^ 2 + ζ ^ 2) * tr
    clear hu hY
    generalize hK : (1 - al) * ι = K
    rw [← sub_eq_zero]
    generalize a = A
    generalize b = B
    generalize w = W
    clear hK
    revert A B W
    refine linR (c := 0) (by rw [tr]; norm_num) ?_ ?_ ?_ ?_
    · intros
      ring
    · alg_sub
    · alg_sub
    · alg_sub

theorem UB_2_0v {al sd : ℝ} (s1 : sd = 1) (h : Curve x e q a b w t) (h0 : q t ≠ 0)
    (h1 : 0 < Okada.rr (x t) (e t) (q t) + (e t * sd - q t * 0)) :
    let U := fun t => UB_2a (medOf al sd 0) (corS (medOf al sd 0) (x t) (e t) (q t)) (i4S (medOf al sd 0) (x t) (e t) (q t))
    HasDerivAt (fun t => (U t).u0) (rate sd 0 a b w (U t).u3 (U t).u6 (U t).u9) t := by
  have tr : sd * sd = 1 := by rw [s1]; norm_num
  simp only [UB_2a, i4S, corS, medOf, rate, ne_eq, not_true_eq_false, if_false, div_eq_mul_inv, mul_inv, rr_inv, sg_inv, bt_inv, tq_inv, rho_sq]
  have r1 := h.rho h0
  have r2 := h.rr h0
  have r3 := h.sg h0
  have r4 := h.bt h0
  have r5 := h.tt h0
  simp only [div_eq_mul_inv, mul_inv, rr_inv] at r5
  have r7 := h.le h0
  have r8 := h.tq h0 h1.ne'
  have r9 := h.ld h0 h1.ne'
  have e1 := rho_rel (ne3 (x := x t) (e := e t) h0)
  have e2 := rr_rho (ne3 (x := x t) (e := e t) h0)
  have e3 := rr_rel (x t) (e t) (q t)
  have e4 := sg_rel (x := x t) (e := e t) h0
  have e5 := bt_rel (x := x t) (e := e t) h0
  have f1 := rho_eq (x t) (e t) (q t)
  have f2 := sg_eq (x t) (e t) (q t)
  have f3 := bt_eq (x t) (e t) (q t)
  have f4 := tq_eq sd 0 (x t) (e t) (q t)
  have i1 := (rr_pos (x := x t) (e := e t) h0).ne'
  have i2 := (sg_pos (x := x t) (e := e t) h0).ne'
  have i3 := (bt_pos (x := x t) (e := e t) h0).ne'
  have i4 := h1.ne'
  obtain ⟨g1, g2, g3⟩ := h
  apply HasDerivAt.congr_deriv
  · hderiv
  · clear r1 r2 r3 r4 r5 r7 r8 r9 g1 g2 g3 h0 h1
    generalize al⁻¹ = ι at *
    generalize x t = ξ at *
    generalize e t = η at *
    generalize q t = ζ at *
    generalize Okada.rho _ _ _ = ρ at *
    generalize Okada.sg _ _ _ = σ at *
    generalize Okada.bt _ _ _ = β at *
    generalize Okada.tq _ _ _ _ _ = τ at *
    generalize Okada.rr _ _ _ = r at *
    obtain ⟨u, hu⟩ : ∃ u, u = r + (η * sd - ζ * 0) := ⟨_, rfl⟩
    obtain ⟨Y, hY⟩ : ∃ Y, Y = η * 0 + ζ * sd := ⟨_, rfl⟩
    obtain ⟨v, hv⟩ : ∃ v, v = r + η := ⟨_, rfl⟩
    rw [← hu] at f4 i4
    rw [← hv] at f3 i3
    have hη : η = Y * 0 + (u - r) * sd := by rw [hu, hY]; linear_combination -η * tr
    have hζ : ζ = Y * sd - (u - r) * 0 := by rw [hu, hY]; linear_combination -ζ * tr
    have e6 : ξ ^ 2 = 2 * u * r - u ^ 2 - Y ^ 2 := by
      rw [hu, hY]; linear_combination -e3 + (η ^ 2 + ζ ^ 2) * tr
    clear hu hY
    generalize hK : (1 - al) * ι = K
    rw [← sub_eq_zero]
    generalize a = A
    generalize b = B
    generalize w = W
    clear hK
    revert A B W
    refine linR (c := 0) (by rw [tr]; norm_num) ?_ ?_ ?_ ?_
    · intros
      ring
    · alg_sub
    · alg_sub
    · alg_sub

theorem UB_2_1v {al sd : ℝ} (s1 : sd = 1) (h : Curve x e q a b w t) (h0 : q t ≠ 0)
    (h1 : 0 < Okada.rr (x t) (e t) (q t) + (e t * sd - q t * 0)) :
    let U := fun t => UB_2a (medOf al sd 0) (corS (medOf al sd 0) (x t) (e t) (q t)) (i4S (medOf al sd 0) (x t) (e t) (q t))
    HasDerivAt (fun t => (U t).u1) (rate sd 0 a b w (U t).u4 (U t).u7 (U t).u10 + -1 * (ttX (x t) (q t) a w + ttX (e t) (q t) b w)) t := by
  have tr : sd * sd = 1 := by rw [s1]; norm_num
  simp only [UB_2a, i4S, corS, medOf, rate, ne_eq, not_true_eq_false, if_false, div_eq_mul_inv, mul_inv, rr_inv, sg_inv, bt_inv, tq_inv, rho_sq]
  have r1 := h.rho h0
  have r2 := h.rr h0
  have r3 := h.sg h0
  have r4 := h.bt h0
  have r5 := h.tt h0
  simp only [div_eq_mul_inv, mul_inv, rr_inv] at r5
  have r7 := h.le h0
  have r8 := h.tq h0 h1.ne'
  have r9 := h.ld h0 h1.ne'
  have e1 := rho_rel (ne3 (x := x t) (e := e t) h0)
  have e2 := rr_rho (ne3 (x := x t) (e := e t) h0)
  have e3 := rr_rel (x t) (e t) (q t)
  have e4 := sg_rel (x := x t) (e := e t) h0
  have e5 := bt_rel (x := x t) (e := e t) h0
  have f1 := rho_eq (x t) (e t) (q t)
  have f2 := sg_eq (x t) (e t) (q t)
  have f3 := bt_eq (x t) (e t) (q t)
  have f4 := tq_eq sd 0 (x t) (e t) (q t)
  have i1 := (rr_pos (x := x t) (e := e t) h0).ne'
  have i2 := (sg_pos (x := x t) (e := e t) h0).ne'
  have i3 := (bt_pos (x := x t) (e := e t) h0).ne'
  have i4 := h1.ne'
  obtain ⟨g1, g2, g3⟩ := h
  apply HasDerivAt.congr_deriv
  · hderiv
  · clear r1 r2 r3 r4 r5 r7 r8 r9 g1 g2 g3 h0 h1
    generalize al⁻¹ = ι at *
    generalize ttX _ _ _ _ + ttX _ _ _ _ = μ
    generalize x t = ξ at *
    generalize e t = η at *
    generalize q t = ζ at *
    generalize Okada.rho _ _ _ = ρ at *
    generalize Okada.sg _ _ _ = σ at *
    generalize Okada.bt _ _ _ = β at *
    generalize Okada.tq _ _ _ _ _ = τ at *
    generalize Okada.rr _ _ _ = r at *
    obtain ⟨u, hu⟩ : ∃ u, u = r + (η * sd - ζ * 0) := ⟨_, rfl⟩
    obtain ⟨Y, hY⟩ : ∃ Y, Y = η * 0 + ζ * sd := ⟨_, rfl⟩
    obtain ⟨v, hv⟩ : ∃ v, v = r + η := ⟨_, rfl⟩
    rw [← hu] at f4 i4
    rw [← hv] at f3 i3
    have hη : η = Y * 0 + (u - r) * sd := by rw [hu, hY]; linear_combination -η * tr
    have hζ : ζ = Y * sd - (u - r) * 0 := by rw [hu, hY]; linear_combination -ζ * tr
    have e6 : ξ ^ 2 = 2 * u * r - u ^ 2 - Y ^ 2 := by
      rw [hu, hY]; linear_combination -e3 + (η ^ 2 + ζ ^ 2) * tr
    clear hu hY
    generalize hK : (1 - al) * ι = K
    rw [← sub_eq_zero]
    generalize a = A
    generalize b = B
    generalize w = W
    clear hK
    revert A B W
    refine linR (c := 0) (by rw [tr]; norm_num) ?_ ?_ ?_ ?_
    · intros
      ring
    · alg_sub
    · alg_sub
    · alg_sub

theorem UB_2_2v {al sd : ℝ} (s1 : sd = 1) (h : Curve x e q a b w t) (h0 : q t ≠ 0)
    (h1 : 0 < Okada.rr (x t) (e t) (q t) + (e t * sd - q t * 0)) :
    let U := fun t => UB_2a (medOf al sd 0) (corS (medOf al sd 0) (x t) (e t) (q t)) (i4S (medOf al sd 0) (x t) (e t) (q t))
    HasDerivAt (fun t => (U t).u2) (rate sd 0 a b w (U t).u5 (U t).u8 (U t).u11) t := by
  have tr : sd * sd = 1 := by rw [s1]; norm_num
  simp only [UB_2a, i4S, corS, medOf, rate, ne_eq, not_true_eq_false, if_false, div_eq_mul_inv, mul_inv, rr_inv, sg_inv, bt_inv, tq_inv, rho_sq]
  have r1 := h.rho h0
  have r2 := h.rr h0
  have r3 := h.sg h0
  have r4 := h.bt h0
  have r5 := h.tt h0
  simp only [div_eq_mul_inv, mul_inv, rr_inv] at r5
  have r7 := h.le h0
  have r8 := h.tq h0 h1.ne'
  have r9 := h.ld h0 h1.ne'
  have e1 := rho_rel (ne3 (x := x t) (e := e t) h0)
  have e2 := rr_rho (ne3 (x := x t) (e := e t) h0)
  have e3 := rr_rel (x t) (e t) (q t)
  have e4 := sg_rel (x := x t) (e := e t) h0
  have e5 := bt_rel (x := x t) (e := e t) h0
  have f1 := rho_eq (x t) (e t) (q t)
  have f2 := sg_eq (x t) (e t) (q t)
  have f3 := bt_eq (x t) (e t) (q t)
  have f4 := tq_eq sd 0 (x t) (e t) (q t)
  have i1 := (rr_pos (x := x t) (e := e t) h0).ne'
  have i2 := (sg_pos (x := x t) (e := e t) h0).ne'
  have i3 := (bt_pos (x := x t) (e := e t) h0).ne'
  have i4 := h1.ne'
  obtain ⟨g1, g2, g3⟩ := h
  apply HasDerivAt.congr_deriv
  · hderiv
  · clear r1 r2 r3 r4 r5 r7 r8 r9 g1 g2 g3 h0 h1
    generalize al⁻¹ = ι at *
    generalize x t = ξ at *
    generalize e t = η at *
    generalize q t = ζ at *
    generalize Okada.rho _ _ _ = ρ at *
    generalize Okada.sg _ _ _ = σ at *
    generalize Okada.bt _ _ _ = β at *
    generalize Okada.tq _ _ _ _ _ = τ at *
    generalize Okada.rr _ _ _ = r at *
    obtain ⟨u, hu⟩ : ∃ u, u = r + (η * sd - ζ * 0) := ⟨_, rfl⟩
    obtain ⟨Y, hY⟩ : ∃ Y, Y = η * 0 + ζ * sd := ⟨_, rfl⟩
    obtain ⟨v, hv⟩ : ∃ v, v = r + η := ⟨_, rfl⟩
    rw [← hu] at f4 i4
    rw [← hv] at f3 i3
    have hη : η = Y * 0 + (u - r) * sd := by rw [hu, hY]; linear_combination -η * tr
    have hζ : ζ = Y * sd - (u - r) * 0 := by rw [hu, hY]; linear_combination -ζ * tr
    have e6 : ξ ^ 2 = 2 * u * r - u ^ 2 - Y ^ 2 := by
      rw [hu, hY]; linear_combination -e3 + (η ^ 2 + ζ ^ 2) * tr
    clear hu hY
    generalize hK : (1 - al) * ι = K
    rw [← sub_eq_zero]
    generalize a = A
    generalize b = B
    generalize w = W
    clear hK
    revert A B W
    refine linR (c := 0) (by rw [tr]; norm_num) ?_ ?_ ?_ ?_
    · intros
      ring
    · alg_sub
    · alg_sub
    · alg_sub

theorem UB_3_0v {al sd : ℝ} (s1 : sd = 1) (h : Curve x e q a b w t) (h0 : q t ≠ 0)
    (h1 : 0 < Okada.rr (x t) (e t) (q t) + (e t * sd - q t * 0)) :
    let U := fun t => UB_3a (medOf al sd 0) (corS (medOf al sd 0) (x t) (e t) (q t)) (i4S (medOf al sd 0) (x t) (e t) (q t))
    HasDerivAt (fun t => (U t).u0) (rate sd 0 a b w (U t).u3 (U t).u6 (U t).u9) t := by
  have tr : sd * sd = 1 := by rw [s1]; norm_num
  simp only [UB_3a, i4S, corS, medOf, rate, ne_eq, not_true_eq_false, if_false, div_eq_mul_inv, mul_inv, rr_inv, sg_inv, bt_inv, tq_inv, rho_sq]
  have r1 := h.rho h0
  have r2 := h.rr h0
  have r3 := h.sg h0
  have r4 := h.bt h0
  have r5 := h.tt h0
  simp only [div_eq_mul_inv, mul_inv, rr_inv] at r5
  have r7 := h.le h0
  have r8 := h.tq h0 h1.ne'
  have r9 := h.ld h0 h1.ne'
  have e1 := rho_rel (ne3 (x := x t) (e := e t) h0)
  have e2 := rr_rho (ne3 (x := x t) (e := e t) h0)
  have e3 := rr_rel (x t) (e t) (q t)
  have e4 := sg_rel (x := x t) (e := e t) h0
  have e5 := bt_rel (x := x t) (e := e t) h0
  have f1 := rho_eq (x t) (e t) (q t)
  have f2 := sg_eq (x t) (e t) (q t)
  have f3 := bt_eq (x t) (e t) (q t)
  have f4 := tq_eq sd 0 (x t) (e t) (q t)
  have i1 := (rr_pos (x := x t) (e := e t) h0).ne'
  have i2 := (sg_pos (x := x t) (e := e t) h0).ne'
  have i3 := (bt_pos (x := x t) (e := e t) h0).ne'
  have i4 := h1.ne'
  obtain ⟨g1, g2, g3⟩ := h
  apply HasDerivAt.congr_deriv
  · hderiv
  · clear r1 r2 r3 r4 r5 r7 r8 r9 g1 g2 g3 h0 h1
    generalize al⁻¹ = ι at *
    generalize x t = ξ at *
    generalize e t = η at *
    generalize q t = ζ at *
    generalize Okada.rho _ _ _ = ρ at *
    generalize Okada.sg _ _ _ = σ at *
    generalize Okada.bt _ _ _ = β at *
    generalize Okada.tq _ _ _ _ _ = τ at *
    generalize Okada.rr _ _ _ = r at *
    obtain ⟨u, hu⟩ : ∃ u, u = r + (η * sd - ζ * 0) := ⟨_, rfl⟩
    obtain ⟨Y, hY⟩ : ∃ Y, Y = η * 0 + ζ * sd := ⟨_, rfl⟩
    obtain ⟨v, hv⟩ : ∃ v, v = r + η := ⟨_, rfl⟩
    rw [← hu] at f4 i4
    rw [← hv] at f3 i3
    have hη : η = Y * 0 + (u - r) * sd := by rw [hu, hY]; linear_combination -η * tr
    have hζ : ζ = Y * sd - (u - r) * 0 := by rw [hu, hY]; linear_combination -ζ * tr
    have e6 : ξ ^ 2 = 2 * u * r - u ^ 2 - Y ^ 2 := by
      rw [hu, hY]; linear_combination -e3 + (η ^ 2 + ζ ^ 2) * tr
    clear hu hY
    generalize hK : (1 - al) * ι = K
    rw [← sub_eq_zero]
    generalize a = A
    generalize b = B
    generalize w = W
    clear hK
    revert A B W
    refine linR (c := 0) (by rw [tr]; norm_num) ?_ ?_ ?_ ?_
    · intros
      ring
    · alg_sub
    · alg_sub
    · alg_sub

theorem UB_3_1v {al sd : ℝ} (s1 : sd = 1) (h : Curve x e q a b w t) (h0 : q t ≠ 0)
    (h1 : 0 < Okada.rr (x t) (e t) (q t) + (e t * sd - q t * 0)) :
    let U := fun t => UB_3a (medOf al sd 0) (corS (medOf al sd 0) (x t) (e t) (q t)) (i4S (medOf al sd 0) (x t) (e t) (q t))
    HasDerivAt (fun t => (U t).u1) (rate sd 0 a b w (U t).u4 (U t).u7 (U t).u10) t := by
  have tr : sd * sd = 1 := by rw [s1]; norm_num
  simp only [UB_3a, i4S, corS, medOf, rate, ne_eq, not_true_eq_false, if_false, div_eq_mul_inv, mul_inv, rr_inv, sg_inv, bt_inv, tq_inv, rho_sq]
  have r1 := h.rho h0
  have r2 := h.rr h0
  have r3 := h.sg h0
  have r4 := h.bt h0
  have r5 := h.tt h0
  simp only [div_eq_mul_inv, mul_inv, rr_inv] at r5
  have r7 := h.le h0
  have r8 := h.tq h0 h1.ne'
  have r9 := h.ld h0 h1.ne'
  have e1 := rho_rel (ne3 (x := x t) (e := e t) h0)
  have e2 := rr_rho (ne3 (x := x t) (e := e t) h0)
  have e3 := rr_rel (x t) (e t) (q t)
  have e4 := sg_rel (x := x t) (e := e t) h0
  have e5 := bt_rel (x := x t) (e := e t) h0
  have f1 := rho_eq (x t) (e t) (q t)
  have f2 := sg_eq (x t) (e t) (q t)
  have f3 := bt_eq (x t) (e t) (q t)
  have f4 := tq_eq sd 0 (x t) (e t) (q t)
  have i1 := (rr_pos (x := x t) (e := e t) h0).ne'
  have i2 := (sg_pos (x := x t) (e := e t) h0).ne'
  have i3 := (bt_pos (x := x t) (e := e t) h0).ne'
  have i4 := h1.ne'
  obtain ⟨g1, g2, g3⟩ := h
  apply HasDerivAt.congr_deriv
  · hderiv
  · clear r1 r2 r3 r4 r5 r7 r8 r9 g1 g2 g3 h0 h1
    generalize al⁻¹ = ι at *
    generalize x t = ξ at *
    generalize e t = η at *
    generalize q t = ζ at *
    generalize Okada.rho _ _ _ = ρ at *
    generalize Okada.sg _ _ _ = σ at *
    generalize Okada.bt _ _ _ = β at *
    generalize Okada.tq _ _ _ _ _ = τ at *
    generalize Okada.rr _ _ _ = r at *
    obtain ⟨u, hu⟩ : ∃ u, u = r + (η * sd - ζ * 0) := ⟨_, rfl⟩
    obtain ⟨Y, hY⟩ : ∃ Y, Y = η * 0 + ζ * sd := ⟨_, rfl⟩
    obtain ⟨v, hv⟩ : ∃ v, v = r + η := ⟨_, rfl⟩
    rw [← hu] at f4 i4
    rw [← hv] at f3 i3
    have hη : η = Y * 0 + (u - r) * sd := by rw [hu, hY]; linear_combination -η * tr
    have hζ : ζ = Y * sd - (u - r) * 0 := by rw [hu, hY]; linear_combination -ζ * tr
    have e6 : ξ ^ 2 = 2 * u * r - u ^ 2 - Y ^ 2 := by
      rw [hu, hY]; linear_combination -e3 + (η ^ 2 + ζ ^ 2) * tr
    clear hu hY
    generalize hK : (1 - al) * ι = K
    rw [← sub_eq_zero]
    generalize a = A
    generalize b = B
    generalize w = W
    clear hK
    revert A B W
    refine linR (c := 0) (by rw [tr]; norm_num) ?_ ?_ ?_ ?_
    · intros
      ring
    · alg_sub
    · alg_sub
    · alg_sub

theorem UB_3_2v {al sd : ℝ} (s1 : sd = 1) (h : Curve x e q a b w t) (h0 : q t ≠ 0)
    (h1 : 0 < Okada.rr (x t) (e t) (q t) + (e t * sd - q t * 0)) :
    let U := fun t => UB_3a (medOf al sd 0) (corS (medOf al sd 0) (x t) (e t) (q t)) (i4S (medOf al sd 0) (x t) (e t) (q t))
    HasDerivAt (fun t => (U t).u2) (rate sd 0 a b w (U t).u5 (U t).u8 (U t).u11 + -1 * (ttX (x t) (q t) a w + ttX (e t) (q t) b w)) t := by
  have tr : sd * sd = 1 := by rw [s1]; norm_num
  simp only [UB_3a, i4S, corS, medOf, rate, ne_eq, not_true_eq_false, if_false, div_eq_mul_inv, mul_inv, rr_inv, sg_inv, bt_inv, tq_inv, rho_sq]
  have r1 := h.rho h0
  have r2 := h.rr h0
  have r3 := h.sg h0
  have r4 := h.bt h0
  have r5 := h.tt h0
  simp only [div_eq_mul_inv, mul_inv, rr_inv] at r5
  have r7 := h.le h0
  have r8 := h.tq h0 h1.ne'
  have r9 := h.ld h0 h1.ne'
  have e1 := rho_rel (ne3 (x := x t) (e := e t) h0)
  have e2 := rr_rho (ne3 (x := x t) (e := e t) h0)
  have e3 := rr_rel (x t) (e t) (q t)
  have e4 := sg_rel (x := x t) (e := e t) h0
  have e5 := bt_rel (x := x t) (e := e t) h0
  have f1 := rho_eq (x t) (e t) (q t)
  have f2 := sg_eq (x t) (e t) (q t)
  have f3 := bt_eq (x t) (e t) (q t)
  have f4 := tq_eq sd 0 (x t) (e t) (q t)
  have i1 := (rr_pos (x := x t) (e := e t) h0).ne'
  have i2 := (sg_pos (x := x t) (e := e t) h0).ne'
  have i3 := (bt_pos (x := x t) (e := e t) h0).ne'
  have i4 := h1.ne'
  obtain ⟨g1, g2, g3⟩ := h
  apply HasDerivAt.congr_deriv
  · hderiv
  · clear r1 r2 r3 r4 r5 r7 r8 r9 g1 g2 g3 h0 h1
    generalize al⁻¹ = ι at *
    generalize ttX _ _ _ _ + ttX _ _ _ _ = μ
    generalize x t = ξ at *
    generalize e t = η at *
    generalize q t = ζ at *
    generalize Okada.rho _ _ _ = ρ at *
    generalize Okada.sg _ _ _ = σ at *
    generalize Okada.bt _ _ _ = β at *
    generalize Okada.tq _ _ _ _ _ = τ at *
    generalize Okada.rr _ _ _ = r at *
    obtain ⟨u, hu⟩ : ∃ u, u = r + (η * sd - ζ * 0) := ⟨_, rfl⟩
    obtain ⟨Y, hY⟩ : ∃ Y, Y = η * 0 + ζ * sd := ⟨_, rfl⟩
    obtain ⟨v, hv⟩ : ∃ v, v = r + η := ⟨_, rfl⟩
    rw [← hu] at f4 i4
    rw [← hv] at f3 i3
    have hη : η = Y * 0 + (u - r) * sd := by rw [hu, hY]; linear_combination -η * tr
    have hζ : ζ = Y * sd - (u - r) * 0 := by rw [hu, hY]; linear_combination -ζ * tr
    have e6 : ξ ^ 2 = 2 * u * r - u ^ 2 - Y ^ 2 := by
      rw [hu, hY]; linear_combination -e3 + (η ^ 2 + ζ ^ 2) * tr
    clear hu hY
    generalize hK : (1 - al) * ι = K
    rw [← sub_eq_zero]
    generalize a = A
    generalize b = B
    generalize w = W
    clear hK
    revert A B W
    refine linR (c := 0) (by rw [tr]; norm_num) ?_ ?_ ?_ ?_
    · intros
      ring
    · alg_sub
    · alg_sub
    · alg_sub

end GRT.Okada
