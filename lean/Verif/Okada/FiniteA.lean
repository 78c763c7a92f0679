import Verif.Okada.FiniteT

/-! The derivatives among the results of `UA` and `UC`. -/

namespace GRT.Okada

/-- The corner quantities off the plane of the fault. -/
noncomputable def corS (c : Med) (xi et q : ℝ) : Cor :=
  let r := rr xi et q
  let r2 := xi * xi + et * et + q * q
  let r3 := r * r2
  let r5 := r3 * r2
  let y := et * c.cd + q * c.sd
  let d := et * c.sd - q * c.cd
  let x11 := 1 / (r * (r + xi))
  let x32 := (r + (r + xi)) * x11 * x11 / r
  let y11 := 1 / (r * (r + et))
  let y32 := (r + (r + et)) * y11 * y11 / r
  { xi := xi, et := et, q := q, xi2 := xi * xi, et2 := et * et, q2 := q * q, r := r, r2 := r2, r3 := r3, r5 := r5, y := y, d := d
    tt := Real.arctan (xi * et / (q * r)), alx := Real.log (r + xi), ale := Real.log (r + et)
    x11 := x11, y11 := y11, x32 := x32, y32 := y32
    ey := c.sd / r - y * q / r3, ez := c.cd / r + d * q / r3, fy := d / r3 + xi * xi * y32 * c.sd, fz := y / r3 + xi * xi * y32 * c.cd
    gy := 2 * x11 * c.sd - y * q * x32, gz := 2 * x11 * c.cd + d * q * x32
    hy := d * q * x32 + xi * q * y32 * c.sd, hz := y * q * x32 + xi * q * y32 * c.cd }

theorem corOf_eq (c : Med) (xi et q : ℝ) (kxi ket : Prop) [Decidable kxi] [Decidable ket] (h0 : q ≠ 0) (h1 : ¬kxi) (h2 : ¬ket) :
    corOf c xi et q kxi ket = corS c xi et q := by
  simp only [corOf, corS, if_neg h0, if_neg h1, if_neg h2]
  rfl

theorem rr_inv (x e q : ℝ) : (rr x e q)⁻¹ = rho x e q := rfl
theorem sg_inv (x e q : ℝ) : (rr x e q + x)⁻¹ = sg x e q := rfl
theorem bt_inv (x e q : ℝ) : (rr x e q + e)⁻¹ = bt x e q := rfl
theorem tq_inv (s c x e q : ℝ) : (rr x e q + (e * s - q * c))⁻¹ = tq s c x e q := rfl

/-- Rate of change of one of the results along a curve, according to the derivatives in the results. -/
def rate (s c a b w dx dy dz : ℝ) : ℝ := a * dx + (b * c + w * s) * dy - (b * s - w * c) * dz

/-- Proves the identities between the derivative and the code's expression. -/
macro "alg_fin" : tactic => `(tactic| (
  generalize Okada.rho _ _ _ = ρ at *
  generalize Okada.sg _ _ _ = σ at *
  generalize Okada.bt _ _ _ = β at *
  generalize Okada.rr _ _ _ = r at *
  grind))

variable {x e q : ℝ → ℝ} {a b w t : ℝ}

theorem lin3 {F : ℝ → ℝ → ℝ → ℝ} (h : ∀ a b w, F a b w = a * F 1 0 0 + b * F 0 1 0 + w * F 0 0 1) (h1 : F 1 0 0 = 0) (h2 : F 0 1 0 = 0)
    (h3 : F 0 0 1 = 0) (a b w : ℝ) : F a b w = 0 := by
  rw [h, h1, h2, h3]
  ring

theorem UA_1_0 {al sd cd : ℝ} (tr : sd * sd + cd * cd = 1) (h : Curve x e q a b w t) (h0 : q t ≠ 0) :
    let U := fun t => UA_1 (medOf al sd cd) (corS (medOf al sd cd) (x t) (e t) (q t))
    HasDerivAt (fun t => (U t).u0) (rate sd cd a b w (U t).u3 (U t).u6 (U t).u9 + 1 / 2 * (ttX (x t) (q t) a w + ttX (e t) (q t) b w)) t := by
  simp only [UA_1, corS, medOf, rate, div_eq_mul_inv, mul_inv, rr_inv, sg_inv, bt_inv, rho_sq]
  have r1 := h.rho h0
  have r2 := h.rr h0
  have r3 := h.sg h0
  have r4 := h.bt h0
  have r5 := h.tt h0
  simp only [div_eq_mul_inv, mul_inv, rr_inv] at r5
  have r6 := h.lx h0
  have r7 := h.le h0
  have e1 := rho_rel (ne3 (x := x t) (e := e t) h0)
  have e2 := rr_rho (ne3 (x := x t) (e := e t) h0)
  have e3 := rr_rel (x t) (e t) (q t)
  have e4 := sg_rel (x := x t) (e := e t) h0
  have e5 := bt_rel (x := x t) (e := e t) h0
  obtain ⟨g1, g2, g3⟩ := h
  apply HasDerivAt.congr_deriv
  · hderiv
  · clear r1 r2 r3 r4 g1 g2 g3 h0 r5 r6 r7
    generalize ttX _ _ _ _ + ttX _ _ _ _ = κ
    generalize x t = ξ at *
    generalize e t = η at *
    generalize q t = ζ at *
    alg_fin

theorem UA_1_1 {al sd cd : ℝ} (tr : sd * sd + cd * cd = 1) (h : Curve x e q a b w t) (h0 : q t ≠ 0) :
    let U := fun t => UA_1 (medOf al sd cd) (corS (medOf al sd cd) (x t) (e t) (q t))
    HasDerivAt (fun t => (U t).u1) (rate sd cd a b w (U t).u4 (U t).u7 (U t).u10) t := by
  simp only [UA_1, corS, medOf, rate, div_eq_mul_inv, mul_inv, rr_inv, sg_inv, bt_inv, rho_sq]
  have r1 := h.rho h0
  have r2 := h.rr h0
  have r3 := h.sg h0
  have r4 := h.bt h0
  have r5 := h.tt h0
  simp only [div_eq_mul_inv, mul_inv, rr_inv] at r5
  have r6 := h.lx h0
  have r7 := h.le h0
  have e1 := rho_rel (ne3 (x := x t) (e := e t) h0)
  have e2 := rr_rho (ne3 (x := x t) (e := e t) h0)
  have e3 := rr_rel (x t) (e t) (q t)
  have e4 := sg_rel (x := x t) (e := e t) h0
  have e5 := bt_rel (x := x t) (e := e t) h0
  obtain ⟨g1, g2, g3⟩ := h
  apply HasDerivAt.congr_deriv
  · hderiv
  · clear r1 r2 r3 r4 g1 g2 g3 h0 r5 r6 r7
    generalize x t = ξ at *
    generalize e t = η at *
    generalize q t = ζ at *
    alg_fin

theorem UA_1_2 {al sd cd : ℝ} (tr : sd * sd + cd * cd = 1) (h : Curve x e q a b w t) (h0 : q t ≠ 0) :
    let U := fun t => UA_1 (medOf al sd cd) (corS (medOf al sd cd) (x t) (e t) (q t))
    HasDerivAt (fun t => (U t).u2) (rate sd cd a b w (U t).u5 (U t).u8 (U t).u11) t := by
  simp only [UA_1, corS, medOf, rate, div_eq_mul_inv, mul_inv, rr_inv, sg_inv, bt_inv, rho_sq]
  have r1 := h.rho h0
  have r2 := h.rr h0
  have r3 := h.sg h0
  have r4 := h.bt h0
  have r5 := h.tt h0
  simp only [div_eq_mul_inv, mul_inv, rr_inv] at r5
  have r6 := h.lx h0
  have r7 := h.le h0
  have e1 := rho_rel (ne3 (x := x t) (e := e t) h0)
  have e2 := rr_rho (ne3 (x := x t) (e := e t) h0)
  have e3 := rr_rel (x t) (e t) (q t)
  have e4 := sg_rel (x := x t) (e := e t) h0
  have e5 := bt_rel (x := x t) (e := e t) h0
  obtain ⟨g1, g2, g3⟩ := h
  apply HasDerivAt.congr_deriv
  · hderiv
  · clear r1 r2 r3 r4 g1 g2 g3 h0 r5 r6 r7
    generalize x t = ξ at *
    generalize e t = η at *
    generalize q t = ζ at *
    alg_fin

theorem UA_2_0 {al sd cd : ℝ} (tr : sd * sd + cd * cd = 1) (h : Curve x e q a b w t) (h0 : q t ≠ 0) :
    let U := fun t => UA_2 (medOf al sd cd) (corS (medOf al sd cd) (x t) (e t) (q t))
    HasDerivAt (fun t => (U t).u0) (rate sd cd a b w (U t).u3 (U t).u6 (U t).u9) t := by
  simp only [UA_2, corS, medOf, rate, div_eq_mul_inv, mul_inv, rr_inv, sg_inv, bt_inv, rho_sq]
  have r1 := h.rho h0
  have r2 := h.rr h0
  have r3 := h.sg h0
  have r4 := h.bt h0
  have r5 := h.tt h0
  simp only [div_eq_mul_inv, mul_inv, rr_inv] at r5
  have r6 := h.lx h0
  have r7 := h.le h0
  have e1 := rho_rel (ne3 (x := x t) (e := e t) h0)
  have e2 := rr_rho (ne3 (x := x t) (e := e t) h0)
  have e3 := rr_rel (x t) (e t) (q t)
  have e4 := sg_rel (x := x t) (e := e t) h0
  have e5 := bt_rel (x := x t) (e := e t) h0
  obtain ⟨g1, g2, g3⟩ := h
  apply HasDerivAt.congr_deriv
  · hderiv
  · clear r1 r2 r3 r4 g1 g2 g3 h0 r5 r6 r7
    generalize x t = ξ at *
    generalize e t = η at *
    generalize q t = ζ at *
    alg_fin

theorem UA_2_1 {al sd cd : ℝ} (tr : sd * sd + cd * cd = 1) (h : Curve x e q a b w t) (h0 : q t ≠ 0) :
    let U := fun t => UA_2 (medOf al sd cd) (corS (medOf al sd cd) (x t) (e t) (q t))
    HasDerivAt (fun t => (U t).u1) (rate sd cd a b w (U t).u4 (U t).u7 (U t).u10 + 1 / 2 * (ttX (x t) (q t) a w + ttX (e t) (q t) b w)) t := by
  simp only [UA_2, corS, medOf, rate, div_eq_mul_inv, mul_inv, rr_inv, sg_inv, bt_inv, rho_sq]
  have r1 := h.rho h0
  have r2 := h.rr h0
  have r3 := h.sg h0
  have r4 := h.bt h0
  have r5 := h.tt h0
  simp only [div_eq_mul_inv, mul_inv, rr_inv] at r5
  have r6 := h.lx h0
  have r7 := h.le h0
  have e1 := rho_rel (ne3 (x := x t) (e := e t) h0)
  have e2 := rr_rho (ne3 (x := x t) (e := e t) h0)
  have e3 := rr_rel (x t) (e t) (q t)
  have e4 := sg_rel (x := x t) (e := e t) h0
  have e5 := bt_rel (x := x t) (e := e t) h0
  obtain ⟨g1, g2, g3⟩ := h
  apply HasDerivAt.congr_deriv
  · hderiv
  · clear r1 r2 r3 r4 g1 g2 g3 h0 r5 r6 r7
    generalize ttX _ _ _ _ + ttX _ _ _ _ = κ
    generalize x t = ξ at *
    generalize e t = η at *
    generalize q t = ζ at *
    alg_fin

theorem UA_2_2 {al sd cd : ℝ} (tr : sd * sd + cd * cd = 1) (h : Curve x e q a b w t) (h0 : q t ≠ 0) :
    let U := fun t => UA_2 (medOf al sd cd) (corS (medOf al sd cd) (x t) (e t) (q t))
    HasDerivAt (fun t => (U t).u2) (rate sd cd a b w (U t).u5 (U t).u8 (U t).u11) t := by
  simp only [UA_2, corS, medOf, rate, div_eq_mul_inv, mul_inv, rr_inv, sg_inv, bt_inv, rho_sq]
  have r1 := h.rho h0
  have r2 := h.rr h0
  have r3 := h.sg h0
  have r4 := h.bt h0
  have r5 := h.tt h0
  simp only [div_eq_mul_inv, mul_inv, rr_inv] at r5
  have r6 := h.lx h0
  have r7 := h.le h0
  have e1 := rho_rel (ne3 (x := x t) (e := e t) h0)
  have e2 := rr_rho (ne3 (x := x t) (e := e t) h0)
  have e3 := rr_rel (x t) (e t) (q t)
  have e4 := sg_rel (x := x t) (e := e t) h0
  have e5 := bt_rel (x := x t) (e := e t) h0
  obtain ⟨g1, g2, g3⟩ := h
  apply HasDerivAt.congr_deriv
  · hderiv
  · clear r1 r2 r3 r4 g1 g2 g3 h0 r5 r6 r7
    generalize x t = ξ at *
    generalize e t = η at *
    generalize q t = ζ at *
    alg_fin

theorem UA_3_0 {al sd cd : ℝ} (tr : sd * sd + cd * cd = 1) (h : Curve x e q a b w t) (h0 : q t ≠ 0) :
    let U := fun t => UA_3 (medOf al sd cd) (corS (medOf al sd cd) (x t) (e t) (q t))
    HasDerivAt (fun t => (U t).u0) (rate sd cd a b w (U t).u3 (U t).u6 (U t).u9) t := by
  simp only [UA_3, corS, medOf, rate, div_eq_mul_inv, mul_inv, rr_inv, sg_inv, bt_inv, rho_sq]
  have r1 := h.rho h0
  have r2 := h.rr h0
  have r3 := h.sg h0
  have r4 := h.bt h0
  have r5 := h.tt h0
  simp only [div_eq_mul_inv, mul_inv, rr_inv] at r5
  have r6 := h.lx h0
  have r7 := h.le h0
  have e1 := rho_rel (ne3 (x := x t) (e := e t) h0)
  have e2 := rr_rho (ne3 (x := x t) (e := e t) h0)
  have e3 := rr_rel (x t) (e t) (q t)
  have e4 := sg_rel (x := x t) (e := e t) h0
  have e5 := bt_rel (x := x t) (e := e t) h0
  obtain ⟨g1, g2, g3⟩ := h
  apply HasDerivAt.congr_deriv
  · hderiv
  · clear r1 r2 r3 r4 g1 g2 g3 h0 r5 r6 r7
    generalize x t = ξ at *
    generalize e t = η at *
    generalize q t = ζ at *
    alg_fin

theorem UA_3_1 {al sd cd : ℝ} (tr : sd * sd + cd * cd = 1) (h : Curve x e q a b w t) (h0 : q t ≠ 0) :
    let U := fun t => UA_3 (medOf al sd cd) (corS (medOf al sd cd) (x t) (e t) (q t))
    HasDerivAt (fun t => (U t).u1) (rate sd cd a b w (U t).u4 (U t).u7 (U t).u10) t := by
  simp only [UA_3, corS, medOf, rate, div_eq_mul_inv, mul_inv, rr_inv, sg_inv, bt_inv, rho_sq]
  have r1 := h.rho h0
  have r2 := h.rr h0
  have r3 := h.sg h0
  have r4 := h.bt h0
  have r5 := h.tt h0
  simp only [div_eq_mul_inv, mul_inv, rr_inv] at r5
  have r6 := h.lx h0
  have r7 := h.le h0
  have e1 := rho_rel (ne3 (x := x t) (e := e t) h0)
  have e2 := rr_rho (ne3 (x := x t) (e := e t) h0)
  have e3 := rr_rel (x t) (e t) (q t)
  have e4 := sg_rel (x := x t) (e := e t) h0
  have e5 := bt_rel (x := x t) (e := e t) h0
  obtain ⟨g1, g2, g3⟩ := h
  apply HasDerivAt.congr_deriv
  · hderiv
  · clear r1 r2 r3 r4 g1 g2 g3 h0 r5 r6 r7
    generalize x t = ξ at *
    generalize e t = η at *
    generalize q t = ζ at *
    alg_fin

theorem UA_3_2 {al sd cd : ℝ} (tr : sd * sd + cd * cd = 1) (h : Curve x e q a b w t) (h0 : q t ≠ 0) :
    let U := fun t => UA_3 (medOf al sd cd) (corS (medOf al sd cd) (x t) (e t) (q t))
    HasDerivAt (fun t => (U t).u2) (rate sd cd a b w (U t).u5 (U t).u8 (U t).u11 + 1 / 2 * (ttX (x t) (q t) a w + ttX (e t) (q t) b w)) t := by
  simp only [UA_3, corS, medOf, rate, div_eq_mul_inv, mul_inv, rr_inv, sg_inv, bt_inv, rho_sq]
  have r1 := h.rho h0
  have r2 := h.rr h0
  have r3 := h.sg h0
  have r4 := h.bt h0
  have r5 := h.tt h0
  simp only [div_eq_mul_inv, mul_inv, rr_inv] at r5
  have r6 := h.lx h0
  have r7 := h.le h0
  have e1 := rho_rel (ne3 (x := x t) (e := e t) h0)
  have e2 := rr_rho (ne3 (x := x t) (e := e t) h0)
  have e3 := rr_rel (x t) (e t) (q t)
  have e4 := sg_rel (x := x t) (e := e t) h0
  have e5 := bt_rel (x := x t) (e := e t) h0
  obtain ⟨g1, g2, g3⟩ := h
  apply HasDerivAt.congr_deriv
  · hderiv
  · clear r1 r2 r3 r4 g1 g2 g3 h0 r5 r6 r7
    generalize ttX _ _ _ _ + ttX _ _ _ _ = κ
    generalize x t = ξ at *
    generalize e t = η at *
    generalize q t = ζ at *
    alg_fin

theorem UC_1_0 {z : ℝ → ℝ} {al sd cd : ℝ} (tr : sd * sd + cd * cd = 1) (h : Curve x e q a b w t) (h0 : q t ≠ 0) (hz : HasDerivAt z (-(b * sd - w * cd)) t) :
    let U := fun t => UC_1 (medOf al sd cd) (corS (medOf al sd cd) (x t) (e t) (q t)) (z t)
    HasDerivAt (fun t => (U t).u0) (rate sd cd a b w (U t).u3 (U t).u6 (U t).u9) t := by
  simp only [UC_1, corS, medOf, rate, div_eq_mul_inv, mul_inv, rr_inv, sg_inv, bt_inv, rho_sq]
  have r1 := h.rho h0
  have r2 := h.rr h0
  have r3 := h.sg h0
  have r4 := h.bt h0
  have e1 := rho_rel (ne3 (x := x t) (e := e t) h0)
  have e2 := rr_rho (ne3 (x := x t) (e := e t) h0)
  have e3 := rr_rel (x t) (e t) (q t)
  have e4 := sg_rel (x := x t) (e := e t) h0
  have e5 := bt_rel (x := x t) (e := e t) h0
  obtain ⟨g1, g2, g3⟩ := h
  apply HasDerivAt.congr_deriv
  · hderiv
  · clear r1 r2 r3 r4 g1 g2 g3 h0 hz
    generalize x t = ξ at *
    generalize e t = η at *
    generalize q t = ζ at *
    generalize z t = ζz at *
    alg_fin

theorem UC_1_1 {z : ℝ → ℝ} {al sd cd : ℝ} (tr : sd * sd + cd * cd = 1) (h : Curve x e q a b w t) (h0 : q t ≠ 0) (hz : HasDerivAt z (-(b * sd - w * cd)) t) :
    let U := fun t => UC_1 (medOf al sd cd) (corS (medOf al sd cd) (x t) (e t) (q t)) (z t)
    HasDerivAt (fun t => (U t).u1) (rate sd cd a b w (U t).u4 (U t).u7 (U t).u10) t := by
  simp only [UC_1, corS, medOf, rate, div_eq_mul_inv, mul_inv, rr_inv, sg_inv, bt_inv, rho_sq]
  have r1 := h.rho h0
  have r2 := h.rr h0
  have r3 := h.sg h0
  have r4 := h.bt h0
  have e1 := rho_rel (ne3 (x := x t) (e := e t) h0)
  have e2 := rr_rho (ne3 (x := x t) (e := e t) h0)
  have e3 := rr_rel (x t) (e t) (q t)
  have e4 := sg_rel (x := x t) (e := e t) h0
  have e5 := bt_rel (x := x t) (e := e t) h0
  obtain ⟨g1, g2, g3⟩ := h
  apply HasDerivAt.congr_deriv
  · hderiv
  · clear r1 r2 r3 r4 g1 g2 g3 h0 hz
    generalize x t = ξ at *
    generalize e t = η at *
    generalize q t = ζ at *
    generalize z t = ζz at *
    alg_fin

theorem UC_1_2 {z : ℝ → ℝ} {al sd cd : ℝ} (tr : sd * sd + cd * cd = 1) (h : Curve x e q a b w t) (h0 : q t ≠ 0) (hz : HasDerivAt z (-(b * sd - w * cd)) t) :
    let U := fun t => UC_1 (medOf al sd cd) (corS (medOf al sd cd) (x t) (e t) (q t)) (z t)
    HasDerivAt (fun t => (U t).u2) (rate sd cd a b w (U t).u5 (U t).u8 (U t).u11) t := by
  simp only [UC_1, corS, medOf, rate, div_eq_mul_inv, mul_inv, rr_inv, sg_inv, bt_inv, rho_sq]
  have r1 := h.rho h0
  have r2 := h.rr h0
  have r3 := h.sg h0
  have r4 := h.bt h0
  have e1 := rho_rel (ne3 (x := x t) (e := e t) h0)
  have e2 := rr_rho (ne3 (x := x t) (e := e t) h0)
  have e3 := rr_rel (x t) (e t) (q t)
  have e4 := sg_rel (x := x t) (e := e t) h0
  have e5 := bt_rel (x := x t) (e := e t) h0
  obtain ⟨g1, g2, g3⟩ := h
  apply HasDerivAt.congr_deriv
  · hderiv
  · clear r1 r2 r3 r4 g1 g2 g3 h0 hz
    generalize x t = ξ at *
    generalize e t = η at *
    generalize q t = ζ at *
    generalize z t = ζz at *
    alg_fin

theorem UC_2_0 {z : ℝ → ℝ} {al sd cd : ℝ} (tr : sd * sd + cd * cd = 1) (h : Curve x e q a b w t) (h0 : q t ≠ 0) (hz : HasDerivAt z (-(b * sd - w * cd)) t) :
    let U := fun t => UC_2 (medOf al sd cd) (corS (medOf al sd cd) (x t) (e t) (q t)) (z t)
    HasDerivAt (fun t => (U t).u0) (rate sd cd a b w (U t).u3 (U t).u6 (U t).u9) t := by
  simp only [UC_2, corS, medOf, rate, div_eq_mul_inv, mul_inv, rr_inv, sg_inv, bt_inv, rho_sq]
  have r1 := h.rho h0
  have r2 := h.rr h0
  have r3 := h.sg h0
  have r4 := h.bt h0
  have e1 := rho_rel (ne3 (x := x t) (e := e t) h0)
  have e2 := rr_rho (ne3 (x := x t) (e := e t) h0)
  have e3 := rr_rel (x t) (e t) (q t)
  have e4 := sg_rel (x := x t) (e := e t) h0
  have e5 := bt_rel (x := x t) (e := e t) h0
  obtain ⟨g1, g2, g3⟩ := h
  apply HasDerivAt.congr_deriv
  · hderiv
  · clear r1 r2 r3 r4 g1 g2 g3 h0 hz
    generalize x t = ξ at *
    generalize e t = η at *
    generalize q t = ζ at *
    generalize z t = ζz at *
    alg_fin

theorem UC_2_1 {z : ℝ → ℝ} {al sd cd : ℝ} (tr : sd * sd + cd * cd = 1) (h : Curve x e q a b w t) (h0 : q t ≠ 0) (hz : HasDerivAt z (-(b * sd - w * cd)) t) :
    let U := fun t => UC_2 (medOf al sd cd) (corS (medOf al sd cd) (x t) (e t) (q t)) (z t)
    HasDerivAt (fun t => (U t).u1) (rate sd cd a b w (U t).u4 (U t).u7 (U t).u10) t := by
  simp only [UC_2, corS, medOf, rate, div_eq_mul_inv, mul_inv, rr_inv, sg_inv, bt_inv, rho_sq]
  have r1 := h.rho h0
  have r2 := h.rr h0
  have r3 := h.sg h0
  have r4 := h.bt h0
  have e1 := rho_rel (ne3 (x := x t) (e := e t) h0)
  have e2 := rr_rho (ne3 (x := x t) (e := e t) h0)
  have e3 := rr_rel (x t) (e t) (q t)
  have e4 := sg_rel (x := x t) (e := e t) h0
  have e5 := bt_rel (x := x t) (e := e t) h0
  obtain ⟨g1, g2, g3⟩ := h
  apply HasDerivAt.congr_deriv
  · hderiv
  · clear r1 r2 r3 r4 g1 g2 g3 h0 hz
    generalize x t = ξ at *
    generalize e t = η at *
    generalize q t = ζ at *
    generalize z t = ζz at *
    alg_fin

theorem UC_2_2 {z : ℝ → ℝ} {al sd cd : ℝ} (tr : sd * sd + cd * cd = 1) (h : Curve x e q a b w t) (h0 : q t ≠ 0) (hz : HasDerivAt z (-(b * sd - w * cd)) t) :
    let U := fun t => UC_2 (medOf al sd cd) (corS (medOf al sd cd) (x t) (e t) (q t)) (z t)
    HasDerivAt (fun t => (U t).u2) (rate sd cd a b w (U t).u5 (U t).u8 (U t).u11) t := by
  simp only [UC_2, corS, medOf, rate, div_eq_mul_inv, mul_inv, rr_inv, sg_inv, bt_inv, rho_sq]
  have r1 := h.rho h0
  have r2 := h.rr h0
  have r3 := h.sg h0
  have r4 := h.bt h0
  have e1 := rho_rel (ne3 (x := x t) (e := e t) h0)
  have e2 := rr_rho (ne3 (x := x t) (e := e t) h0)
  have e3 := rr_rel (x t) (e t) (q t)
  have e4 := sg_rel (x := x t) (e := e t) h0
  have e5 := bt_rel (x := x t) (e := e t) h0
  obtain ⟨g1, g2, g3⟩ := h
  apply HasDerivAt.congr_deriv
  · hderiv
  · clear r1 r2 r3 r4 g1 g2 g3 h0 hz
    generalize x t = ξ at *
    generalize e t = η at *
    generalize q t = ζ at *
    generalize z t = ζz at *
    alg_fin

theorem UC_3_0 {z : ℝ → ℝ} {al sd cd : ℝ} (tr : sd * sd + cd * cd = 1) (h : Curve x e q a b w t) (h0 : q t ≠ 0) (hz : HasDerivAt z (-(b * sd - w * cd)) t) :
    let U := fun t => UC_3 (medOf al sd cd) (corS (medOf al sd cd) (x t) (e t) (q t)) (z t)
    HasDerivAt (fun t => (U t).u0) (rate sd cd a b w (U t).u3 (U t).u6 (U t).u9) t := by
  simp only [UC_3, corS, medOf, rate, div_eq_mul_inv, mul_inv, rr_inv, sg_inv, bt_inv, rho_sq]
  have r1 := h.rho h0
  have r2 := h.rr h0
  have r3 := h.sg h0
  have r4 := h.bt h0
  have e1 := rho_rel (ne3 (x := x t) (e := e t) h0)
  have e2 := rr_rho (ne3 (x := x t) (e := e t) h0)
  have e3 := rr_rel (x t) (e t) (q t)
  have e4 := sg_rel (x := x t) (e := e t) h0
  have e5 := bt_rel (x := x t) (e := e t) h0
  obtain ⟨g1, g2, g3⟩ := h
  apply HasDerivAt.congr_deriv
  · hderiv
  · clear r1 r2 r3 r4 g1 g2 g3 h0 hz
    generalize x t = ξ at *
    generalize e t = η at *
    generalize q t = ζ at *
    generalize z t = ζz at *
    alg_fin

theorem UC_3_1 {z : ℝ → ℝ} {al sd cd : ℝ} (tr : sd * sd + cd * cd = 1) (h : Curve x e q a b w t) (h0 : q t ≠ 0) (hz : HasDerivAt z (-(b * sd - w * cd)) t) :
    let U := fun t => UC_3 (medOf al sd cd) (corS (medOf al sd cd) (x t) (e t) (q t)) (z t)
    HasDerivAt (fun t => (U t).u1) (rate sd cd a b w (U t).u4 (U t).u7 (U t).u10) t := by
  simp only [UC_3, corS, medOf, rate, div_eq_mul_inv, mul_inv, rr_inv, sg_inv, bt_inv, rho_sq]
  have r1 := h.rho h0
  have r2 := h.rr h0
  have r3 := h.sg h0
  have r4 := h.bt h0
  have e1 := rho_rel (ne3 (x := x t) (e := e t) h0)
  have e2 := rr_rho (ne3 (x := x t) (e := e t) h0)
  have e3 := rr_rel (x t) (e t) (q t)
  have e4 := sg_rel (x := x t) (e := e t) h0
  have e5 := bt_rel (x := x t) (e := e t) h0
  obtain ⟨g1, g2, g3⟩ := h
  apply HasDerivAt.congr_deriv
  · hderiv
  · clear r1 r2 r3 r4 g1 g2 g3 h0 hz
    generalize x t = ξ at *
    generalize e t = η at *
    generalize q t = ζ at *
    generalize z t = ζz at *
    alg_fin

set_option maxRecDepth 20000 in
theorem UC_3_2 {z : ℝ → ℝ} {al sd cd : ℝ} (tr : sd * sd + cd * cd = 1) (h : Curve x e q a b w t) (h0 : q t ≠ 0) (hz : HasDerivAt z (-(b * sd - w * cd)) t) :
    let U := fun t => UC_3 (medOf al sd cd) (corS (medOf al sd cd) (x t) (e t) (q t)) (z t)
    HasDerivAt (fun t => (U t).u2) (rate sd cd a b w (U t).u5 (U t).u8 (U t).u11) t := by
  simp only [UC_3, corS, medOf, rate, div_eq_mul_inv, mul_inv, rr_inv, sg_inv, bt_inv, rho_sq]
  have r1 := h.rho h0
  have r2 := h.rr h0
  have r3 := h.sg h0
  have r4 := h.bt h0
  have e1 := rho_rel (ne3 (x := x t) (e := e t) h0)
  have e2 := rr_rho (ne3 (x := x t) (e := e t) h0)
  have e3 := rr_rel (x t) (e t) (q t)
  have e4 := sg_rel (x := x t) (e := e t) h0
  have e5 := bt_rel (x := x t) (e := e t) h0
  obtain ⟨g1, g2, g3⟩ := h
  apply HasDerivAt.congr_deriv
  · hderiv
  · clear r1 r2 r3 r4 g1 g2 g3 h0 hz
    generalize x t = ξ at *
    generalize e t = η at *
    generalize q t = ζ at *
    generalize z t = ζz at *
    generalize Okada.rho _ _ _ = ρ at *
    generalize Okada.sg _ _ _ = σ at *
    generalize Okada.bt _ _ _ = β at *
    generalize Okada.rr _ _ _ = r at *
    rw [← sub_eq_zero]
    generalize a = A
    generalize b = B
    generalize w = W
    revert A B W
    refine lin3 ?_ ?_ ?_ ?_
    · intros
      ring
    · grind
    · grind
    · grind

end GRT.Okada
