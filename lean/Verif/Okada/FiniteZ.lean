import Verif.Okada.FiniteW

/-! The derivatives among the results of `UB` for a horizontal fault, where `ai4` has no effect. -/

namespace GRT.Okada

variable {x e q : ℝ → ℝ} {a b w t : ℝ}

set_option maxRecDepth 1000000

theorem UB_1_0z {al cd : ℝ} (c1 : cd * cd = 1) (A : ℝ → ℝ) (h : Curve x e q a b w t) (h0 : q t ≠ 0)
    (h1 : 0 < Okada.rr (x t) (e t) (q t) + (e t * 0 - q t * cd)) :
    let U := fun t => UB_1a (medOf al 0 cd) (corS (medOf al 0 cd) (x t) (e t) (q t)) (A t)
    HasDerivAt (fun t => (U t).u0) (rate 0 cd a b w (U t).u3 (U t).u6 (U t).u9 + -1 * (ttX (x t) (q t) a w + ttX (e t) (q t) b w)) t := by
  have hc : cd ≠ 0 := by rintro rfl; norm_num at c1
  simp only [UB_1a, corS, medOf, rate, if_pos hc, div_eq_mul_inv, mul_inv, rr_inv, sg_inv, bt_inv, tq_inv, rho_sq, mul_zero, zero_mul, sub_zero,
    add_zero, neg_zero]
  have r1 := h.rho h0
  have r2 := h.rr h0
  have r3 := h.sg h0
  have r4 := h.bt h0
  have r5 := h.tt h0
  simp only [div_eq_mul_inv, mul_inv, rr_inv] at r5
  have e1 := rho_rel (ne3 (x := x t) (e := e t) h0)
  have e2 := rr_rho (ne3 (x := x t) (e := e t) h0)
  have e3 := rr_rel (x t) (e t) (q t)
  have e4 := sg_rel (x := x t) (e := e t) h0
  have e5 := bt_rel (x := x t) (e := e t) h0
  obtain ⟨g1, g2, g3⟩ := h
  apply HasDerivAt.congr_deriv
  · hderiv
  · clear r1 r2 r3 r4 g1 g2 g3 h0 r5 h1 hc
    generalize ttX _ _ _ _ + ttX _ _ _ _ = κ
    generalize x t = ξ at *
    generalize e t = η at *
    generalize q t = ζ at *
    alg_fin

theorem UB_2_2z {al cd : ℝ} (c1 : cd * cd = 1) (A : ℝ → ℝ) (h : Curve x e q a b w t) (h0 : q t ≠ 0)
    (h1 : 0 < Okada.rr (x t) (e t) (q t) + (e t * 0 - q t * cd)) :
    let U := fun t => UB_2a (medOf al 0 cd) (corS (medOf al 0 cd) (x t) (e t) (q t)) (A t)
    HasDerivAt (fun t => (U t).u2) (rate 0 cd a b w (U t).u5 (U t).u8 (U t).u11) t := by
  have hc : cd ≠ 0 := by rintro rfl; norm_num at c1
  simp only [UB_2a, corS, medOf, rate, if_pos hc, div_eq_mul_inv, mul_inv, rr_inv, sg_inv, bt_inv, tq_inv, rho_sq, mul_zero, zero_mul, sub_zero,
    add_zero, neg_zero]
  have r1 := h.rho h0
  have r2 := h.rr h0
  have r3 := h.sg h0
  have r4 := h.bt h0
  have r5 := h.tt h0
  simp only [div_eq_mul_inv, mul_inv, rr_inv] at r5
  have e1 := rho_rel (ne3 (x := x t) (e := e t) h0)
  have e2 := rr_rho (ne3 (x := x t) (e := e t) h0)
  have e3 := rr_rel (x t) (e t) (q t)
  have e4 := sg_rel (x := x t) (e := e t) h0
  have e5 := bt_rel (x := x t) (e := e t) h0
  obtain ⟨g1, g2, g3⟩ := h
  apply HasDerivAt.congr_deriv
  · hderiv
  · clear r1 r2 r3 r4 g1 g2 g3 h0 r5 h1 hc
    generalize x t = ξ at *
    generalize e t = η at *
    generalize q t = ζ at *
    alg_fin

theorem UB_3_2z {al cd : ℝ} (c1 : cd * cd = 1) (A : ℝ → ℝ) (h : Curve x e q a b w t) (h0 : q t ≠ 0)
    (h1 : 0 < Okada.rr (x t) (e t) (q t) + (e t * 0 - q t * cd)) :
    let U := fun t => UB_3a (medOf al 0 cd) (corS (medOf al 0 cd) (x t) (e t) (q t)) (A t)
    HasDerivAt (fun t => (U t).u2) (rate 0 cd a b w (U t).u5 (U t).u8 (U t).u11 + -1 * (ttX (x t) (q t) a w + ttX (e t) (q t) b w)) t := by
  have hc : cd ≠ 0 := by rintro rfl; norm_num at c1
  simp only [UB_3a, corS, medOf, rate, if_pos hc, div_eq_mul_inv, mul_inv, rr_inv, sg_inv, bt_inv, tq_inv, rho_sq, mul_zero, zero_mul, sub_zero,
    add_zero, neg_zero]
  have r1 := h.rho h0
  have r2 := h.rr h0
  have r3 := h.sg h0
  have r4 := h.bt h0
  have r5 := h.tt h0
  simp only [div_eq_mul_inv, mul_inv, rr_inv] at r5
  have e1 := rho_rel (ne3 (x := x t) (e := e t) h0)
  have e2 := rr_rho (ne3 (x := x t) (e := e t) h0)
  have e3 := rr_rel (x t) (e t) (q t)
  have e4 := sg_rel (x := x t) (e := e t) h0
  have e5 := bt_rel (x := x t) (e := e t) h0
  obtain ⟨g1, g2, g3⟩ := h
  apply HasDerivAt.congr_deriv
  · hderiv
  · clear r1 r2 r3 r4 g1 g2 g3 h0 r5 h1 hc
    generalize ttX _ _ _ _ + ttX _ _ _ _ = κ
    generalize x t = ξ at *
    generalize e t = η at *
    generalize q t = ζ at *
    alg_fin

end GRT.Okada
