import Verif.Okada.FiniteB

/-! The results of `UA`, `UB` and `UC` are, up to terms that cancel between corners, double integrals of those of `UA0`, `UB0` and
`UC0`: their derivatives along the strike, differentiated up the dip. -/

namespace GRT.Okada

variable {x e q : ℝ → ℝ} {t : ℝ}

/-- The quantities of a point source at a corner. -/
noncomputable def ptS (c : Med) (xi et q : ℝ) : Pt :=
  let y := et * c.cd + q * c.sd
  let d := et * c.sd - q * c.cd
  let s := et * c.sd + q * c.cd
  let t := et * c.cd - q * c.sd
  let r2 := xi * xi + et * et + q * q
  let r := rr xi et q
  let r3 := r * r2
  let r5 := r3 * r2
  let qr := 3 * q / r5
  let uy := c.sd - 5 * y * q / r2
  let uz := c.cd + 5 * d * q / r2
  { x := xi, y := y, d := d, p := et, q := q, s := s, t := t, xy := xi * y, x2 := xi * xi, y2 := y * y, d2 := d * d, r := r, r2 := r2
    r3 := r3, r5 := r5, qr := qr, qrx := 5 * qr * xi / r2, a3 := 1 - 3 * (xi * xi) / r2, a5 := 1 - 5 * (xi * xi) / r2
    b3 := 1 - 3 * (y * y) / r2, c3 := 1 - 3 * (d * d) / r2
    uy := uy, vy := s - 5 * y * et * q / r2, wy := uy + c.sd, uz := uz, vz := t + 5 * d * et * q / r2, wz := uz + c.cd }

theorem ptOf_rot {al sd cd : ℝ} (tr : sd * sd + cd * cd = 1) (xi et q : ℝ) :
    ptOf (medOf al sd cd) xi (et * cd + q * sd) (et * sd - q * cd) = ptS (medOf al sd cd) xi et q := by
  have h1 : (et * cd + q * sd) * cd + (et * sd - q * cd) * sd = et := by linear_combination et * tr
  have h2 : (et * cd + q * sd) * sd - (et * sd - q * cd) * cd = q := by linear_combination q * tr
  have h3 : xi * xi + (et * cd + q * sd) * (et * cd + q * sd) + (et * sd - q * cd) * (et * sd - q * cd) = xi * xi + et * et + q * q := by
    linear_combination (et * et + q * q) * tr
  simp only [ptOf, ptS, medOf, h1, h2, h3]
  rfl

set_option maxRecDepth 1000000

set_option hygiene false in
/-- As `alg_sub`, for larger goals.  Splits off the part with `(1 - alpha) / alpha` and closes both. -/
macro "alg_big" : tactic => `(tactic| (
  revert K
  refine linK ?_ ?_ ?_
  · intro K
    ring1
  · clear hη hζ hv e6
    simp only [mul_zero, zero_mul, mul_one, one_mul, add_zero, zero_add, sub_zero, zero_sub, neg_zero]
    clear f1 f2 f3 f4 i1 i2 i3 i4
    grind
  · clear e1 e2 e3 e4 e5
    first
    | ring1
    | skip
      ring_nf
      try simp only [f1, f2, f3, f4]
      clear f1 f2 f3 f4
      try field_simp
      clear i1 i2 i3 i4
      subst hv hη hζ
      try grind (ringSteps := 10000000)))

/-- What `UB0` has more in its third result than `z = 0` gives, over `z`. -/
noncomputable def shf (k : Fin 3) (p : Pt) : ℝ := ![-p.x * p.qr, -p.p * p.qr, p.q * p.qr] k

theorem WA_1_0 {al sd cd : ℝ} (tr : sd * sd + cd * cd = 1) (h : Curve x e q 0 1 0 t) (h0 : q t ≠ 0) :
    let U := fun t => UA_1 (medOf al sd cd) (corS (medOf al sd cd) (x t) (e t) (q t))
    HasDerivAt (fun t => (U t).u3) ((UA0_1 (medOf al sd cd) (ptS (medOf al sd cd) (x t) (e t) (q t))).u0) t := by
  simp only [UA_1, UA0_1, ptS, corS, medOf, div_eq_mul_inv, mul_inv, rr_inv, sg_inv, bt_inv, rho_sq]
  have r1 := h.rho h0
  have r2 := h.rr h0
  have r3 := h.sg h0
  have r4 := h.bt h0
  have e1 := rho_rel (ne3 (x := x t) (e := e t) h0)
  have e2 := rr_rho (ne3 (x := x t) (e := e t) h0)
  have e3 := rr_rel (x t) (e t) (q t)
  have e4 := sg_rel (x := x t) (e := e t) h0
  have e5 := bt_rel (x := x t) (e := e t) h0
  obtain ⟨g1, g2, g3⟩ := h
  apply HasDerivAt.congr_deriv
  · hderiv
  · clear r1 r2 r3 r4 g1 g2 g3 h0
    generalize x t = ξ at *
    generalize e t = η at *
    generalize q t = ζ at *
    alg_fin

theorem WA_1_1 {al sd cd : ℝ} (tr : sd * sd + cd * cd = 1) (h : Curve x e q 0 1 0 t) (h0 : q t ≠ 0) :
    let U := fun t => UA_1 (medOf al sd cd) (corS (medOf al sd cd) (x t) (e t) (q t))
    HasDerivAt (fun t => (U t).u4 * cd - (U t).u5 * sd) ((UA0_1 (medOf al sd cd) (ptS (medOf al sd cd) (x t) (e t) (q t))).u1) t := by
  simp only [UA_1, UA0_1, ptS, corS, medOf, div_eq_mul_inv, mul_inv, rr_inv, sg_inv, bt_inv, rho_sq]
  have r1 := h.rho h0
  have r2 := h.rr h0
  have r3 := h.sg h0
  have r4 := h.bt h0
  have e1 := rho_rel (ne3 (x := x t) (e := e t) h0)
  have e2 := rr_rho (ne3 (x := x t) (e := e t) h0)
  have e3 := rr_rel (x t) (e t) (q t)
  have e4 := sg_rel (x := x t) (e := e t) h0
  have e5 := bt_rel (x := x t) (e := e t) h0
  obtain ⟨g1, g2, g3⟩ := h
  apply HasDerivAt.congr_deriv
  · hderiv
  · clear r1 r2 r3 r4 g1 g2 g3 h0
    generalize x t = ξ at *
    generalize e t = η at *
    generalize q t = ζ at *
    alg_fin

theorem WA_1_2 {al sd cd : ℝ} (tr : sd * sd + cd * cd = 1) (h : Curve x e q 0 1 0 t) (h0 : q t ≠ 0) :
    let U := fun t => UA_1 (medOf al sd cd) (corS (medOf al sd cd) (x t) (e t) (q t))
    HasDerivAt (fun t => (U t).u4 * sd + (U t).u5 * cd) ((UA0_1 (medOf al sd cd) (ptS (medOf al sd cd) (x t) (e t) (q t))).u2) t := by
  simp only [UA_1, UA0_1, ptS, corS, medOf, div_eq_mul_inv, mul_inv, rr_inv, sg_inv, bt_inv, rho_sq]
  have r1 := h.rho h0
  have r2 := h.rr h0
  have r3 := h.sg h0
  have r4 := h.bt h0
  have e1 := rho_rel (ne3 (x := x t) (e := e t) h0)
  have e2 := rr_rho (ne3 (x := x t) (e := e t) h0)
  have e3 := rr_rel (x t) (e t) (q t)
  have e4 := sg_rel (x := x t) (e := e t) h0
  have e5 := bt_rel (x := x t) (e := e t) h0
  obtain ⟨g1, g2, g3⟩ := h
  apply HasDerivAt.congr_deriv
  · hderiv
  · clear r1 r2 r3 r4 g1 g2 g3 h0
    generalize x t = ξ at *
    generalize e t = η at *
    generalize q t = ζ at *
    alg_fin

theorem WA_2_0 {al sd cd : ℝ} (tr : sd * sd + cd * cd = 1) (h : Curve x e q 0 1 0 t) (h0 : q t ≠ 0) :
    let U := fun t => UA_2 (medOf al sd cd) (corS (medOf al sd cd) (x t) (e t) (q t))
    HasDerivAt (fun t => (U t).u3) ((UA0_2 (medOf al sd cd) (ptS (medOf al sd cd) (x t) (e t) (q t))).u0) t := by
  simp only [UA_2, UA0_2, ptS, corS, medOf, div_eq_mul_inv, mul_inv, rr_inv, sg_inv, bt_inv, rho_sq]
  have r1 := h.rho h0
  have r2 := h.rr h0
  have r3 := h.sg h0
  have r4 := h.bt h0
  have e1 := rho_rel (ne3 (x := x t) (e := e t) h0)
  have e2 := rr_rho (ne3 (x := x t) (e := e t) h0)
  have e3 := rr_rel (x t) (e t) (q t)
  have e4 := sg_rel (x := x t) (e := e t) h0
  have e5 := bt_rel (x := x t) (e := e t) h0
  obtain ⟨g1, g2, g3⟩ := h
  apply HasDerivAt.congr_deriv
  · hderiv
  · clear r1 r2 r3 r4 g1 g2 g3 h0
    generalize x t = ξ at *
    generalize e t = η at *
    generalize q t = ζ at *
    alg_fin

theorem WA_2_1 {al sd cd : ℝ} (tr : sd * sd + cd * cd = 1) (h : Curve x e q 0 1 0 t) (h0 : q t ≠ 0) :
    let U := fun t => UA_2 (medOf al sd cd) (corS (medOf al sd cd) (x t) (e t) (q t))
    HasDerivAt (fun t => (U t).u4 * cd - (U t).u5 * sd) ((UA0_2 (medOf al sd cd) (ptS (medOf al sd cd) (x t) (e t) (q t))).u1) t := by
  simp only [UA_2, UA0_2, ptS, corS, medOf, div_eq_mul_inv, mul_inv, rr_inv, sg_inv, bt_inv, rho_sq]
  have r1 := h.rho h0
  have r2 := h.rr h0
  have r3 := h.sg h0
  have r4 := h.bt h0
  have e1 := rho_rel (ne3 (x := x t) (e := e t) h0)
  have e2 := rr_rho (ne3 (x := x t) (e := e t) h0)
  have e3 := rr_rel (x t) (e t) (q t)
  have e4 := sg_rel (x := x t) (e := e t) h0
  have e5 := bt_rel (x := x t) (e := e t) h0
  obtain ⟨g1, g2, g3⟩ := h
  apply HasDerivAt.congr_deriv
  · hderiv
  · clear r1 r2 r3 r4 g1 g2 g3 h0
    generalize x t = ξ at *
    generalize e t = η at *
    generalize q t = ζ at *
    alg_fin

theorem WA_2_2 {al sd cd : ℝ} (tr : sd * sd + cd * cd = 1) (h : Curve x e q 0 1 0 t) (h0 : q t ≠ 0) :
    let U := fun t => UA_2 (medOf al sd cd) (corS (medOf al sd cd) (x t) (e t) (q t))
    HasDerivAt (fun t => (U t).u4 * sd + (U t).u5 * cd) ((UA0_2 (medOf al sd cd) (ptS (medOf al sd cd) (x t) (e t) (q t))).u2) t := by
  simp only [UA_2, UA0_2, ptS, corS, medOf, div_eq_mul_inv, mul_inv, rr_inv, sg_inv, bt_inv, rho_sq]
  have r1 := h.rho h0
  have r2 := h.rr h0
  have r3 := h.sg h0
  have r4 := h.bt h0
  have e1 := rho_rel (ne3 (x := x t) (e := e t) h0)
  have e2 := rr_rho (ne3 (x := x t) (e := e t) h0)
  have e3 := rr_rel (x t) (e t) (q t)
  have e4 := sg_rel (x := x t) (e := e t) h0
  have e5 := bt_rel (x := x t) (e := e t) h0
  obtain ⟨g1, g2, g3⟩ := h
  apply HasDerivAt.congr_deriv
  · hderiv
  · clear r1 r2 r3 r4 g1 g2 g3 h0
    generalize x t = ξ at *
    generalize e t = η at *
    generalize q t = ζ at *
    alg_fin

theorem WA_3_0 {al sd cd : ℝ} (tr : sd * sd + cd * cd = 1) (h : Curve x e q 0 1 0 t) (h0 : q t ≠ 0) :
    let U := fun t => UA_3 (medOf al sd cd) (corS (medOf al sd cd) (x t) (e t) (q t))
    HasDerivAt (fun t => (U t).u3) ((UA0_3 (medOf al sd cd) (ptS (medOf al sd cd) (x t) (e t) (q t))).u0) t := by
  simp only [UA_3, UA0_3, ptS, corS, medOf, div_eq_mul_inv, mul_inv, rr_inv, sg_inv, bt_inv, rho_sq]
  have r1 := h.rho h0
  have r2 := h.rr h0
  have r3 := h.sg h0
  have r4 := h.bt h0
  have e1 := rho_rel (ne3 (x := x t) (e := e t) h0)
  have e2 := rr_rho (ne3 (x := x t) (e := e t) h0)
  have e3 := rr_rel (x t) (e t) (q t)
  have e4 := sg_rel (x := x t) (e := e t) h0
  have e5 := bt_rel (x := x t) (e := e t) h0
  obtain ⟨g1, g2, g3⟩ := h
  apply HasDerivAt.congr_deriv
  · hderiv
  · clear r1 r2 r3 r4 g1 g2 g3 h0
    generalize x t = ξ at *
    generalize e t = η at *
    generalize q t = ζ at *
    alg_fin

theorem WA_3_1 {al sd cd : ℝ} (tr : sd * sd + cd * cd = 1) (h : Curve x e q 0 1 0 t) (h0 : q t ≠ 0) :
    let U := fun t => UA_3 (medOf al sd cd) (corS (medOf al sd cd) (x t) (e t) (q t))
    HasDerivAt (fun t => (U t).u4 * cd - (U t).u5 * sd) ((UA0_3 (medOf al sd cd) (ptS (medOf al sd cd) (x t) (e t) (q t))).u1) t := by
  simp only [UA_3, UA0_3, ptS, corS, medOf, div_eq_mul_inv, mul_inv, rr_inv, sg_inv, bt_inv, rho_sq]
  have r1 := h.rho h0
  have r2 := h.rr h0
  have r3 := h.sg h0
  have r4 := h.bt h0
  have e1 := rho_rel (ne3 (x := x t) (e := e t) h0)
  have e2 := rr_rho (ne3 (x := x t) (e := e t) h0)
  have e3 := rr_rel (x t) (e t) (q t)
  have e4 := sg_rel (x := x t) (e := e t) h0
  have e5 := bt_rel (x := x t) (e := e t) h0
  obtain ⟨g1, g2, g3⟩ := h
  apply HasDerivAt.congr_deriv
  · hderiv
  · clear r1 r2 r3 r4 g1 g2 g3 h0
    generalize x t = ξ at *
    generalize e t = η at *
    generalize q t = ζ at *
    alg_fin

theorem WA_3_2 {al sd cd : ℝ} (tr : sd * sd + cd * cd = 1) (h : Curve x e q 0 1 0 t) (h0 : q t ≠ 0) :
    let U := fun t => UA_3 (medOf al sd cd) (corS (medOf al sd cd) (x t) (e t) (q t))
    HasDerivAt (fun t => (U t).u4 * sd + (U t).u5 * cd) ((UA0_3 (medOf al sd cd) (ptS (medOf al sd cd) (x t) (e t) (q t))).u2) t := by
  simp only [UA_3, UA0_3, ptS, corS, medOf, div_eq_mul_inv, mul_inv, rr_inv, sg_inv, bt_inv, rho_sq]
  have r1 := h.rho h0
  have r2 := h.rr h0
  have r3 := h.sg h0
  have r4 := h.bt h0
  have e1 := rho_rel (ne3 (x := x t) (e := e t) h0)
  have e2 := rr_rho (ne3 (x := x t) (e := e t) h0)
  have e3 := rr_rel (x t) (e t) (q t)
  have e4 := sg_rel (x := x t) (e := e t) h0
  have e5 := bt_rel (x := x t) (e := e t) h0
  obtain ⟨g1, g2, g3⟩ := h
  apply HasDerivAt.congr_deriv
  · hderiv
  · clear r1 r2 r3 r4 g1 g2 g3 h0
    generalize x t = ξ at *
    generalize e t = η at *
    generalize q t = ζ at *
    alg_fin

theorem WC_1_0 {al sd cd : ℝ} (tr : sd * sd + cd * cd = 1) (z : ℝ) (h : Curve x e q 0 1 0 t) (h0 : q t ≠ 0) :
    let U := fun t => UC_1 (medOf al sd cd) (corS (medOf al sd cd) (x t) (e t) (q t)) z
    HasDerivAt (fun t => (U t).u3) ((UC0_1 (medOf al sd cd) (ptS (medOf al sd cd) (x t) (e t) (q t)) z).u0) t := by
  simp only [UC_1, UC0_1, ptS, corS, medOf, div_eq_mul_inv, mul_inv, rr_inv, sg_inv, bt_inv, rho_sq]
  have r1 := h.rho h0
  have r2 := h.rr h0
  have r3 := h.sg h0
  have r4 := h.bt h0
  have e1 := rho_rel (ne3 (x := x t) (e := e t) h0)
  have e2 := rr_rho (ne3 (x := x t) (e := e t) h0)
  have e3 := rr_rel (x t) (e t) (q t)
  have e4 := sg_rel (x := x t) (e := e t) h0
  have e5 := bt_rel (x := x t) (e := e t) h0
  obtain ⟨g1, g2, g3⟩ := h
  apply HasDerivAt.congr_deriv
  · hderiv
  · clear r1 r2 r3 r4 g1 g2 g3 h0
    generalize x t = ξ at *
    generalize e t = η at *
    generalize q t = ζ at *
    alg_fin

theorem WC_1_1 {al sd cd : ℝ} (tr : sd * sd + cd * cd = 1) (z : ℝ) (h : Curve x e q 0 1 0 t) (h0 : q t ≠ 0) :
    let U := fun t => UC_1 (medOf al sd cd) (corS (medOf al sd cd) (x t) (e t) (q t)) z
    HasDerivAt (fun t => (U t).u4 * cd - (U t).u5 * sd) ((UC0_1 (medOf al sd cd) (ptS (medOf al sd cd) (x t) (e t) (q t)) z).u1) t := by
  simp only [UC_1, UC0_1, ptS, corS, medOf, div_eq_mul_inv, mul_inv, rr_inv, sg_inv, bt_inv, rho_sq]
  have r1 := h.rho h0
  have r2 := h.rr h0
  have r3 := h.sg h0
  have r4 := h.bt h0
  have e1 := rho_rel (ne3 (x := x t) (e := e t) h0)
  have e2 := rr_rho (ne3 (x := x t) (e := e t) h0)
  have e3 := rr_rel (x t) (e t) (q t)
  have e4 := sg_rel (x := x t) (e := e t) h0
  have e5 := bt_rel (x := x t) (e := e t) h0
  obtain ⟨g1, g2, g3⟩ := h
  apply HasDerivAt.congr_deriv
  · hderiv
  · clear r1 r2 r3 r4 g1 g2 g3 h0
    generalize x t = ξ at *
    generalize e t = η at *
    generalize q t = ζ at *
    alg_fin

theorem WC_1_2 {al sd cd : ℝ} (tr : sd * sd + cd * cd = 1) (z : ℝ) (h : Curve x e q 0 1 0 t) (h0 : q t ≠ 0) :
    let U := fun t => UC_1 (medOf al sd cd) (corS (medOf al sd cd) (x t) (e t) (q t)) z
    HasDerivAt (fun t => -((U t).u4 * sd + (U t).u5 * cd)) ((UC0_1 (medOf al sd cd) (ptS (medOf al sd cd) (x t) (e t) (q t)) z).u2 + shf 0 (ptS (medOf al sd cd) (x t) (e t) (q t))) t := by
  simp only [UC_1, UC0_1, ptS, corS, medOf, shf, Matrix.cons_val, div_eq_mul_inv, mul_inv, rr_inv, sg_inv, bt_inv, rho_sq]
  have r1 := h.rho h0
  have r2 := h.rr h0
  have r3 := h.sg h0
  have r4 := h.bt h0
  have e1 := rho_rel (ne3 (x := x t) (e := e t) h0)
  have e2 := rr_rho (ne3 (x := x t) (e := e t) h0)
  have e3 := rr_rel (x t) (e t) (q t)
  have e4 := sg_rel (x := x t) (e := e t) h0
  have e5 := bt_rel (x := x t) (e := e t) h0
  obtain ⟨g1, g2, g3⟩ := h
  apply HasDerivAt.congr_deriv
  · hderiv
  · clear r1 r2 r3 r4 g1 g2 g3 h0
    generalize x t = ξ at *
    generalize e t = η at *
    generalize q t = ζ at *
    alg_fin

theorem WC_2_0 {al sd cd : ℝ} (tr : sd * sd + cd * cd = 1) (z : ℝ) (h : Curve x e q 0 1 0 t) (h0 : q t ≠ 0) :
    let U := fun t => UC_2 (medOf al sd cd) (corS (medOf al sd cd) (x t) (e t) (q t)) z
    HasDerivAt (fun t => (U t).u3) ((UC0_2 (medOf al sd cd) (ptS (medOf al sd cd) (x t) (e t) (q t)) z).u0) t := by
  simp only [UC_2, UC0_2, ptS, corS, medOf, div_eq_mul_inv, mul_inv, rr_inv, sg_inv, bt_inv, rho_sq]
  have r1 := h.rho h0
  have r2 := h.rr h0
  have r3 := h.sg h0
  have r4 := h.bt h0
  have e1 := rho_rel (ne3 (x := x t) (e := e t) h0)
  have e2 := rr_rho (ne3 (x := x t) (e := e t) h0)
  have e3 := rr_rel (x t) (e t) (q t)
  have e4 := sg_rel (x := x t) (e := e t) h0
  have e5 := bt_rel (x := x t) (e := e t) h0
  obtain ⟨g1, g2, g3⟩ := h
  apply HasDerivAt.congr_deriv
  · hderiv
  · clear r1 r2 r3 r4 g1 g2 g3 h0
    generalize x t = ξ at *
    generalize e t = η at *
    generalize q t = ζ at *
    alg_fin

theorem WC_2_1 {al sd cd : ℝ} (tr : sd * sd + cd * cd = 1) (z : ℝ) (h : Curve x e q 0 1 0 t) (h0 : q t ≠ 0) :
    let U := fun t => UC_2 (medOf al sd cd) (corS (medOf al sd cd) (x t) (e t) (q t)) z
    HasDerivAt (fun t => (U t).u4 * cd - (U t).u5 * sd) ((UC0_2 (medOf al sd cd) (ptS (medOf al sd cd) (x t) (e t) (q t)) z).u1) t := by
  simp only [UC_2, UC0_2, ptS, corS, medOf, div_eq_mul_inv, mul_inv, rr_inv, sg_inv, bt_inv, rho_sq]
  have r1 := h.rho h0
  have r2 := h.rr h0
  have r3 := h.sg h0
  have r4 := h.bt h0
  have e1 := rho_rel (ne3 (x := x t) (e := e t) h0)
  have e2 := rr_rho (ne3 (x := x t) (e := e t) h0)
  have e3 := rr_rel (x t) (e t) (q t)
  have e4 := sg_rel (x := x t) (e := e t) h0
  have e5 := bt_rel (x := x t) (e := e t) h0
  obtain ⟨g1, g2, g3⟩ := h
  apply HasDerivAt.congr_deriv
  · hderiv
  · clear r1 r2 r3 r4 g1 g2 g3 h0
    generalize x t = ξ at *
    generalize e t = η at *
    generalize q t = ζ at *
    alg_fin

theorem WC_2_2 {al sd cd : ℝ} (tr : sd * sd + cd * cd = 1) (z : ℝ) (h : Curve x e q 0 1 0 t) (h0 : q t ≠ 0) :
    let U := fun t => UC_2 (medOf al sd cd) (corS (medOf al sd cd) (x t) (e t) (q t)) z
    HasDerivAt (fun t => -((U t).u4 * sd + (U t).u5 * cd)) ((UC0_2 (medOf al sd cd) (ptS (medOf al sd cd) (x t) (e t) (q t)) z).u2 + shf 1 (ptS (medOf al sd cd) (x t) (e t) (q t))) t := by
  simp only [UC_2, UC0_2, ptS, corS, medOf, shf, Matrix.cons_val, div_eq_mul_inv, mul_inv, rr_inv, sg_inv, bt_inv, rho_sq]
  have r1 := h.rho h0
  have r2 := h.rr h0
  have r3 := h.sg h0
  have r4 := h.bt h0
  have e1 := rho_rel (ne3 (x := x t) (e := e t) h0)
  have e2 := rr_rho (ne3 (x := x t) (e := e t) h0)
  have e3 := rr_rel (x t) (e t) (q t)
  have e4 := sg_rel (x := x t) (e := e t) h0
  have e5 := bt_rel (x := x t) (e := e t) h0
  obtain ⟨g1, g2, g3⟩ := h
  apply HasDerivAt.congr_deriv
  · hderiv
  · clear r1 r2 r3 r4 g1 g2 g3 h0
    generalize x t = ξ at *
    generalize e t = η at *
    generalize q t = ζ at *
    alg_fin

theorem WC_3_0 {al sd cd : ℝ} (tr : sd * sd + cd * cd = 1) (z : ℝ) (h : Curve x e q 0 1 0 t) (h0 : q t ≠ 0) :
    let U := fun t => UC_3 (medOf al sd cd) (corS (medOf al sd cd) (x t) (e t) (q t)) z
    HasDerivAt (fun t => (U t).u3) ((UC0_3 (medOf al sd cd) (ptS (medOf al sd cd) (x t) (e t) (q t)) z).u0) t := by
  simp only [UC_3, UC0_3, ptS, corS, medOf, div_eq_mul_inv, mul_inv, rr_inv, sg_inv, bt_inv, rho_sq]
  have r1 := h.rho h0
  have r2 := h.rr h0
  have r3 := h.sg h0
  have r4 := h.bt h0
  have e1 := rho_rel (ne3 (x := x t) (e := e t) h0)
  have e2 := rr_rho (ne3 (x := x t) (e := e t) h0)
  have e3 := rr_rel (x t) (e t) (q t)
  have e4 := sg_rel (x := x t) (e := e t) h0
  have e5 := bt_rel (x := x t) (e := e t) h0
  obtain ⟨g1, g2, g3⟩ := h
  apply HasDerivAt.congr_deriv
  · hderiv
  · clear r1 r2 r3 r4 g1 g2 g3 h0
    generalize x t = ξ at *
    generalize e t = η at *
    generalize q t = ζ at *
    alg_fin

theorem WC_3_1 {al sd cd : ℝ} (tr : sd * sd + cd * cd = 1) (z : ℝ) (h : Curve x e q 0 1 0 t) (h0 : q t ≠ 0) :
    let U := fun t => UC_3 (medOf al sd cd) (corS (medOf al sd cd) (x t) (e t) (q t)) z
    HasDerivAt (fun t => (U t).u4 * cd - (U t).u5 * sd) ((UC0_3 (medOf al sd cd) (ptS (medOf al sd cd) (x t) (e t) (q t)) z).u1) t := by
  simp only [UC_3, UC0_3, ptS, corS, medOf, div_eq_mul_inv, mul_inv, rr_inv, sg_inv, bt_inv, rho_sq]
  have r1 := h.rho h0
  have r2 := h.rr h0
  have r3 := h.sg h0
  have r4 := h.bt h0
  have e1 := rho_rel (ne3 (x := x t) (e := e t) h0)
  have e2 := rr_rho (ne3 (x := x t) (e := e t) h0)
  have e3 := rr_rel (x t) (e t) (q t)
  have e4 := sg_rel (x := x t) (e := e t) h0
  have e5 := bt_rel (x := x t) (e := e t) h0
  obtain ⟨g1, g2, g3⟩ := h
  apply HasDerivAt.congr_deriv
  · hderiv
  · clear r1 r2 r3 r4 g1 g2 g3 h0
    generalize x t = ξ at *
    generalize e t = η at *
    generalize q t = ζ at *
    alg_fin

theorem WC_3_2 {al sd cd : ℝ} (tr : sd * sd + cd * cd = 1) (z : ℝ) (h : Curve x e q 0 1 0 t) (h0 : q t ≠ 0) :
    let U := fun t => UC_3 (medOf al sd cd) (corS (medOf al sd cd) (x t) (e t) (q t)) z
    HasDerivAt (fun t => -((U t).u4 * sd + (U t).u5 * cd)) ((UC0_3 (medOf al sd cd) (ptS (medOf al sd cd) (x t) (e t) (q t)) z).u2 + shf 2 (ptS (medOf al sd cd) (x t) (e t) (q t))) t := by
  simp only [UC_3, UC0_3, ptS, corS, medOf, shf, Matrix.cons_val, div_eq_mul_inv, mul_inv, rr_inv, sg_inv, bt_inv, rho_sq]
  have r1 := h.rho h0
  have r2 := h.rr h0
  have r3 := h.sg h0
  have r4 := h.bt h0
  have e1 := rho_rel (ne3 (x := x t) (e := e t) h0)
  have e2 := rr_rho (ne3 (x := x t) (e := e t) h0)
  have e3 := rr_rel (x t) (e t) (q t)
  have e4 := sg_rel (x := x t) (e := e t) h0
  have e5 := bt_rel (x := x t) (e := e t) h0
  obtain ⟨g1, g2, g3⟩ := h
  apply HasDerivAt.congr_deriv
  · hderiv
  · clear r1 r2 r3 r4 g1 g2 g3 h0
    generalize x t = ξ at *
    generalize e t = η at *
    generalize q t = ζ at *
    alg_fin

theorem WB_1_0g {al sd cd : ℝ} (tr : sd * sd + cd * cd = 1) (hc : cd ≠ 0) (h : Curve x e q 0 1 0 t) (h0 : q t ≠ 0)
    (h1 : 0 < Okada.rr (x t) (e t) (q t) + (e t * sd - q t * cd)) :
    let U := fun t => UB_1a (medOf al sd cd) (corS (medOf al sd cd) (x t) (e t) (q t)) (i4S (medOf al sd cd) (x t) (e t) (q t))
    HasDerivAt (fun t => (U t).u3) ((UB0_1 (medOf al sd cd) (ptS (medOf al sd cd) (x t) (e t) (q t)) 0).u0) t := by
  simp only [UB_1a, UB0_1, i4S, ptS, corS, medOf, if_pos hc, div_eq_mul_inv, mul_inv, rr_inv, sg_inv, bt_inv, tq_inv, rho_sq]
  have r1 := h.rho h0
  have r2 := h.rr h0
  have r3 := h.sg h0
  have r4 := h.bt h0
  have r8 := h.tq h0 h1.ne'
  have f1 := rho_eq (x t) (e t) (q t)
  have f2 := sg_eq (x t) (e t) (q t)
  have f3 := bt_eq (x t) (e t) (q t)
  have f4 := tq_eq sd cd (x t) (e t) (q t)
  have i1 := (rr_pos (x := x t) (e := e t) h0).ne'
  have i2 := (sg_pos (x := x t) (e := e t) h0).ne'
  have i3 := (bt_pos (x := x t) (e := e t) h0).ne'
  have i4 := h1.ne'
  have e1 := rho_rel (ne3 (x := x t) (e := e t) h0)
  have e2 := rr_rho (ne3 (x := x t) (e := e t) h0)
  have e3 := rr_rel (x t) (e t) (q t)
  have e4 := sg_rel (x := x t) (e := e t) h0
  have e5 := bt_rel (x := x t) (e := e t) h0
  obtain ⟨g1, g2, g3⟩ := h
  apply HasDerivAt.congr_deriv
  · hderiv
  · clear r1 r2 r3 r4 r8 g1 g2 g3 h0 h1
    generalize x t = ξ at *
    generalize e t = η at *
    generalize q t = ζ at *
    generalize al⁻¹ = ι at *
    generalize Okada.rho _ _ _ = ρ at *
    generalize Okada.sg _ _ _ = σ at *
    generalize Okada.bt _ _ _ = β at *
    generalize Okada.tq _ _ _ _ _ = τ at *
    generalize Okada.rr _ _ _ = r at *
    obtain ⟨u, hu⟩ : ∃ u, u = r + (η * sd - ζ * cd) := ⟨_, rfl⟩
    obtain ⟨Y, hY⟩ : ∃ Y, Y = η * cd + ζ * sd := ⟨_, rfl⟩
    obtain ⟨v, hv⟩ : ∃ v, v = r + η := ⟨_, rfl⟩
    rw [← hu] at f4 i4
    rw [← hv] at f3 i3
    have hη : η = Y * cd + (u - r) * sd := by rw [hu, hY]; linear_combination -η * tr
    have hζ : ζ = Y * sd - (u - r) * cd := by rw [hu, hY]; linear_combination -ζ * tr
    have e6 : ξ ^ 2 = 2 * u * r - u ^ 2 - Y ^ 2 := by
      rw [hu, hY]; linear_combination -e3 + (η ^ 2 + ζ ^ 2) * tr
    clear hu hY
    generalize hK : (1 - al) * ι = K
    clear hK
    rw [← sub_eq_zero]
    alg_big

theorem WB_1_1g {al sd cd : ℝ} (tr : sd * sd + cd * cd = 1) (hc : cd ≠ 0) (h : Curve x e q 0 1 0 t) (h0 : q t ≠ 0)
    (h1 : 0 < Okada.rr (x t) (e t) (q t) + (e t * sd - q t * cd)) :
    let U := fun t => UB_1a (medOf al sd cd) (corS (medOf al sd cd) (x t) (e t) (q t)) (i4S (medOf al sd cd) (x t) (e t) (q t))
    HasDerivAt (fun t => (U t).u4 * cd - (U t).u5 * sd) ((UB0_1 (medOf al sd cd) (ptS (medOf al sd cd) (x t) (e t) (q t)) 0).u1) t := by
  simp only [UB_1a, UB0_1, i4S, ptS, corS, medOf, if_pos hc, div_eq_mul_inv, mul_inv, rr_inv, sg_inv, bt_inv, tq_inv, rho_sq]
  have r1 := h.rho h0
  have r2 := h.rr h0
  have r3 := h.sg h0
  have r4 := h.bt h0
  have r8 := h.tq h0 h1.ne'
  have f1 := rho_eq (x t) (e t) (q t)
  have f2 := sg_eq (x t) (e t) (q t)
  have f3 := bt_eq (x t) (e t) (q t)
  have f4 := tq_eq sd cd (x t) (e t) (q t)
  have i1 := (rr_pos (x := x t) (e := e t) h0).ne'
  have i2 := (sg_pos (x := x t) (e := e t) h0).ne'
  have i3 := (bt_pos (x := x t) (e := e t) h0).ne'
  have i4 := h1.ne'
  have e1 := rho_rel (ne3 (x := x t) (e := e t) h0)
  have e2 := rr_rho (ne3 (x := x t) (e := e t) h0)
  have e3 := rr_rel (x t) (e t) (q t)
  have e4 := sg_rel (x := x t) (e := e t) h0
  have e5 := bt_rel (x := x t) (e := e t) h0
  obtain ⟨g1, g2, g3⟩ := h
  apply HasDerivAt.congr_deriv
  · hderiv
  · clear r1 r2 r3 r4 r8 g1 g2 g3 h0 h1
    generalize x t = ξ at *
    generalize e t = η at *
    generalize q t = ζ at *
    generalize al⁻¹ = ι at *
    generalize Okada.rho _ _ _ = ρ at *
    generalize Okada.sg _ _ _ = σ at *
    generalize Okada.bt _ _ _ = β at *
    generalize Okada.tq _ _ _ _ _ = τ at *
    generalize Okada.rr _ _ _ = r at *
    obtain ⟨u, hu⟩ : ∃ u, u = r + (η * sd - ζ * cd) := ⟨_, rfl⟩
    obtain ⟨Y, hY⟩ : ∃ Y, Y = η * cd + ζ * sd := ⟨_, rfl⟩
    obtain ⟨v, hv⟩ : ∃ v, v = r + η := ⟨_, rfl⟩
    rw [← hu] at f4 i4
    rw [← hv] at f3 i3
    have hη : η = Y * cd + (u - r) * sd := by rw [hu, hY]; linear_combination -η * tr
    have hζ : ζ = Y * sd - (u - r) * cd := by rw [hu, hY]; linear_combination -ζ * tr
    have e6 : ξ ^ 2 = 2 * u * r - u ^ 2 - Y ^ 2 := by
      rw [hu, hY]; linear_combination -e3 + (η ^ 2 + ζ ^ 2) * tr
    clear hu hY
    generalize hK : (1 - al) * ι = K
    clear hK
    rw [← sub_eq_zero]
    alg_sub

theorem WB_1_2g {al sd cd : ℝ} (tr : sd * sd + cd * cd = 1) (hc : cd ≠ 0) (h : Curve x e q 0 1 0 t) (h0 : q t ≠ 0)
    (h1 : 0 < Okada.rr (x t) (e t) (q t) + (e t * sd - q t * cd)) :
    let U := fun t => UB_1a (medOf al sd cd) (corS (medOf al sd cd) (x t) (e t) (q t)) (i4S (medOf al sd cd) (x t) (e t) (q t))
    HasDerivAt (fun t => (U t).u4 * sd + (U t).u5 * cd) ((UB0_1 (medOf al sd cd) (ptS (medOf al sd cd) (x t) (e t) (q t)) 0).u2) t := by
  simp only [UB_1a, UB0_1, i4S, ptS, corS, medOf, if_pos hc, div_eq_mul_inv, mul_inv, rr_inv, sg_inv, bt_inv, tq_inv, rho_sq]
  have r1 := h.rho h0
  have r2 := h.rr h0
  have r3 := h.sg h0
  have r4 := h.bt h0
  have r8 := h.tq h0 h1.ne'
  have f1 := rho_eq (x t) (e t) (q t)
  have f2 := sg_eq (x t) (e t) (q t)
  have f3 := bt_eq (x t) (e t) (q t)
  have f4 := tq_eq sd cd (x t) (e t) (q t)
  have i1 := (rr_pos (x := x t) (e := e t) h0).ne'
  have i2 := (sg_pos (x := x t) (e := e t) h0).ne'
  have i3 := (bt_pos (x := x t) (e := e t) h0).ne'
  have i4 := h1.ne'
  have e1 := rho_rel (ne3 (x := x t) (e := e t) h0)
  have e2 := rr_rho (ne3 (x := x t) (e := e t) h0)
  have e3 := rr_rel (x t) (e t) (q t)
  have e4 := sg_rel (x := x t) (e := e t) h0
  have e5 := bt_rel (x := x t) (e := e t) h0
  obtain ⟨g1, g2, g3⟩ := h
  apply HasDerivAt.congr_deriv
  · hderiv
  · clear r1 r2 r3 r4 r8 g1 g2 g3 h0 h1
    generalize x t = ξ at *
    generalize e t = η at *
    generalize q t = ζ at *
    generalize al⁻¹ = ι at *
    generalize Okada.rho _ _ _ = ρ at *
    generalize Okada.sg _ _ _ = σ at *
    generalize Okada.bt _ _ _ = β at *
    generalize Okada.tq _ _ _ _ _ = τ at *
    generalize Okada.rr _ _ _ = r at *
    obtain ⟨u, hu⟩ : ∃ u, u = r + (η * sd - ζ * cd) := ⟨_, rfl⟩
    obtain ⟨Y, hY⟩ : ∃ Y, Y = η * cd + ζ * sd := ⟨_, rfl⟩
    obtain ⟨v, hv⟩ : ∃ v, v = r + η := ⟨_, rfl⟩
    rw [← hu] at f4 i4
    rw [← hv] at f3 i3
    have hη : η = Y * cd + (u - r) * sd := by rw [hu, hY]; linear_combination -η * tr
    have hζ : ζ = Y * sd - (u - r) * cd := by rw [hu, hY]; linear_combination -ζ * tr
    have e6 : ξ ^ 2 = 2 * u * r - u ^ 2 - Y ^ 2 := by
      rw [hu, hY]; linear_combination -e3 + (η ^ 2 + ζ ^ 2) * tr
    clear hu hY
    generalize hK : (1 - al) * ι = K
    clear hK
    rw [← sub_eq_zero]
    alg_sub

theorem WB_2_0g {al sd cd : ℝ} (tr : sd * sd + cd * cd = 1) (hc : cd ≠ 0) (h : Curve x e q 0 1 0 t) (h0 : q t ≠ 0)
    (h1 : 0 < Okada.rr (x t) (e t) (q t) + (e t * sd - q t * cd)) :
    let U := fun t => UB_2a (medOf al sd cd) (corS (medOf al sd cd) (x t) (e t) (q t)) (i4S (medOf al sd cd) (x t) (e t) (q t))
    HasDerivAt (fun t => (U t).u3) ((UB0_2 (medOf al sd cd) (ptS (medOf al sd cd) (x t) (e t) (q t)) 0).u0) t := by
  simp only [UB_2a, UB0_2, i4S, ptS, corS, medOf, if_pos hc, div_eq_mul_inv, mul_inv, rr_inv, sg_inv, bt_inv, tq_inv, rho_sq]
  have r1 := h.rho h0
  have r2 := h.rr h0
  have r3 := h.sg h0
  have r4 := h.bt h0
  have r8 := h.tq h0 h1.ne'
  have f1 := rho_eq (x t) (e t) (q t)
  have f2 := sg_eq (x t) (e t) (q t)
  have f3 := bt_eq (x t) (e t) (q t)
  have f4 := tq_eq sd cd (x t) (e t) (q t)
  have i1 := (rr_pos (x := x t) (e := e t) h0).ne'
  have i2 := (sg_pos (x := x t) (e := e t) h0).ne'
  have i3 := (bt_pos (x := x t) (e := e t) h0).ne'
  have i4 := h1.ne'
  have e1 := rho_rel (ne3 (x := x t) (e := e t) h0)
  have e2 := rr_rho (ne3 (x := x t) (e := e t) h0)
  have e3 := rr_rel (x t) (e t) (q t)
  have e4 := sg_rel (x := x t) (e := e t) h0
  have e5 := bt_rel (x := x t) (e := e t) h0
  obtain ⟨g1, g2, g3⟩ := h
  apply HasDerivAt.congr_deriv
  · hderiv
  · clear r1 r2 r3 r4 r8 g1 g2 g3 h0 h1
    generalize x t = ξ at *
    generalize e t = η at *
    generalize q t = ζ at *
    generalize al⁻¹ = ι at *
    generalize Okada.rho _ _ _ = ρ at *
    generalize Okada.sg _ _ _ = σ at *
    generalize Okada.bt _ _ _ = β at *
    generalize Okada.tq _ _ _ _ _ = τ at *
    generalize Okada.rr _ _ _ = r at *
    obtain ⟨u, hu⟩ : ∃ u, u = r + (η * sd - ζ * cd) := ⟨_, rfl⟩
    obtain ⟨Y, hY⟩ : ∃ Y, Y = η * cd + ζ * sd := ⟨_, rfl⟩
    obtain ⟨v, hv⟩ : ∃ v, v = r + η := ⟨_, rfl⟩
    rw [← hu] at f4 i4
    rw [← hv] at f3 i3
    have hη : η = Y * cd + (u - r) * sd := by rw [hu, hY]; linear_combination -η * tr
    have hζ : ζ = Y * sd - (u - r) * cd := by rw [hu, hY]; linear_combination -ζ * tr
    have e6 : ξ ^ 2 = 2 * u * r - u ^ 2 - Y ^ 2 := by
      rw [hu, hY]; linear_combination -e3 + (η ^ 2 + ζ ^ 2) * tr
    clear hu hY
    generalize hK : (1 - al) * ι = K
    clear hK
    rw [← sub_eq_zero]
    alg_sub

theorem WB_2_1g {al sd cd : ℝ} (tr : sd * sd + cd * cd = 1) (hc : cd ≠ 0) (h : Curve x e q 0 1 0 t) (h0 : q t ≠ 0)
    (h1 : 0 < Okada.rr (x t) (e t) (q t) + (e t * sd - q t * cd)) :
    let U := fun t => UB_2a (medOf al sd cd) (corS (medOf al sd cd) (x t) (e t) (q t)) (i4S (medOf al sd cd) (x t) (e t) (q t))
    HasDerivAt (fun t => (U t).u4 * cd - (U t).u5 * sd) ((UB0_2 (medOf al sd cd) (ptS (medOf al sd cd) (x t) (e t) (q t)) 0).u1) t := by
  simp only [UB_2a, UB0_2, i4S, ptS, corS, medOf, if_pos hc, div_eq_mul_inv, mul_inv, rr_inv, sg_inv, bt_inv, tq_inv, rho_sq]
  have r1 := h.rho h0
  have r2 := h.rr h0
  have r3 := h.sg h0
  have r4 := h.bt h0
  have r8 := h.tq h0 h1.ne'
  have f1 := rho_eq (x t) (e t) (q t)
  have f2 := sg_eq (x t) (e t) (q t)
  have f3 := bt_eq (x t) (e t) (q t)
  have f4 := tq_eq sd cd (x t) (e t) (q t)
  have i1 := (rr_pos (x := x t) (e := e t) h0).ne'
  have i2 := (sg_pos (x := x t) (e := e t) h0).ne'
  have i3 := (bt_pos (x := x t) (e := e t) h0).ne'
  have i4 := h1.ne'
  have e1 := rho_rel (ne3 (x := x t) (e := e t) h0)
  have e2 := rr_rho (ne3 (x := x t) (e := e t) h0)
  have e3 := rr_rel (x t) (e t) (q t)
  have e4 := sg_rel (x := x t) (e := e t) h0
  have e5 := bt_rel (x := x t) (e := e t) h0
  obtain ⟨g1, g2, g3⟩ := h
  apply HasDerivAt.congr_deriv
  · hderiv
  · clear r1 r2 r3 r4 r8 g1 g2 g3 h0 h1
    generalize x t = ξ at *
    generalize e t = η at *
    generalize q t = ζ at *
    generalize al⁻¹ = ι at *
    generalize Okada.rho _ _ _ = ρ at *
    generalize Okada.sg _ _ _ = σ at *
    generalize Okada.bt _ _ _ = β at *
    generalize Okada.tq _ _ _ _ _ = τ at *
    generalize Okada.rr _ _ _ = r at *
    obtain ⟨u, hu⟩ : ∃ u, u = r + (η * sd - ζ * cd) := ⟨_, rfl⟩
    obtain ⟨Y, hY⟩ : ∃ Y, Y = η * cd + ζ * sd := ⟨_, rfl⟩
    obtain ⟨v, hv⟩ : ∃ v, v = r + η := ⟨_, rfl⟩
    rw [← hu] at f4 i4
    rw [← hv] at f3 i3
    have hη : η = Y * cd + (u - r) * sd := by rw [hu, hY]; linear_combination -η * tr
    have hζ : ζ = Y * sd - (u - r) * cd := by rw [hu, hY]; linear_combination -ζ * tr
    have e6 : ξ ^ 2 = 2 * u * r - u ^ 2 - Y ^ 2 := by
      rw [hu, hY]; linear_combination -e3 + (η ^ 2 + ζ ^ 2) * tr
    clear hu hY
    generalize hK : (1 - al) * ι = K
    clear hK
    rw [← sub_eq_zero]
    alg_big

theorem WB_2_2g {al sd cd : ℝ} (tr : sd * sd + cd * cd = 1) (hc : cd ≠ 0) (h : Curve x e q 0 1 0 t) (h0 : q t ≠ 0)
    (h1 : 0 < Okada.rr (x t) (e t) (q t) + (e t * sd - q t * cd)) :
    let U := fun t => UB_2a (medOf al sd cd) (corS (medOf al sd cd) (x t) (e t) (q t)) (i4S (medOf al sd cd) (x t) (e t) (q t))
    HasDerivAt (fun t => (U t).u4 * sd + (U t).u5 * cd) ((UB0_2 (medOf al sd cd) (ptS (medOf al sd cd) (x t) (e t) (q t)) 0).u2) t := by
  simp only [UB_2a, UB0_2, i4S, ptS, corS, medOf, if_pos hc, div_eq_mul_inv, mul_inv, rr_inv, sg_inv, bt_inv, tq_inv, rho_sq]
  have r1 := h.rho h0
  have r2 := h.rr h0
  have r3 := h.sg h0
  have r4 := h.bt h0
  have r8 := h.tq h0 h1.ne'
  have f1 := rho_eq (x t) (e t) (q t)
  have f2 := sg_eq (x t) (e t) (q t)
  have f3 := bt_eq (x t) (e t) (q t)
  have f4 := tq_eq sd cd (x t) (e t) (q t)
  have i1 := (rr_pos (x := x t) (e := e t) h0).ne'
  have i2 := (sg_pos (x := x t) (e := e t) h0).ne'
  have i3 := (bt_pos (x := x t) (e := e t) h0).ne'
  have i4 := h1.ne'
  have e1 := rho_rel (ne3 (x := x t) (e := e t) h0)
  have e2 := rr_rho (ne3 (x := x t) (e := e t) h0)
  have e3 := rr_rel (x t) (e t) (q t)
  have e4 := sg_rel (x := x t) (e := e t) h0
  have e5 := bt_rel (x := x t) (e := e t) h0
  obtain ⟨g1, g2, g3⟩ := h
  apply HasDerivAt.congr_deriv
  · hderiv
  · clear r1 r2 r3 r4 r8 g1 g2 g3 h0 h1
    generalize x t = ξ at *
    generalize e t = η at *
    generalize q t = ζ at *
    generalize al⁻¹ = ι at *
    generalize Okada.rho _ _ _ = ρ at *
    generalize Okada.sg _ _ _ = σ at *
    generalize Okada.bt _ _ _ = β at *
    generalize Okada.tq _ _ _ _ _ = τ at *
    generalize Okada.rr _ _ _ = r at *
    obtain ⟨u, hu⟩ : ∃ u, u = r + (η * sd - ζ * cd) := ⟨_, rfl⟩
    obtain ⟨Y, hY⟩ : ∃ Y, Y = η * cd + ζ * sd := ⟨_, rfl⟩
    obtain ⟨v, hv⟩ : ∃ v, v = r + η := ⟨_, rfl⟩
    rw [← hu] at f4 i4
    rw [← hv] at f3 i3
    have hη : η = Y * cd + (u - r) * sd := by rw [hu, hY]; linear_combination -η * tr
    have hζ : ζ = Y * sd - (u - r) * cd := by rw [hu, hY]; linear_combination -ζ * tr
    have e6 : ξ ^ 2 = 2 * u * r - u ^ 2 - Y ^ 2 := by
      rw [hu, hY]; linear_combination -e3 + (η ^ 2 + ζ ^ 2) * tr
    clear hu hY
    generalize hK : (1 - al) * ι = K
    clear hK
    rw [← sub_eq_zero]
    alg_sub

theorem WB_3_0g {al sd cd : ℝ} (tr : sd * sd + cd * cd = 1) (hc : cd ≠ 0) (h : Curve x e q 0 1 0 t) (h0 : q t ≠ 0)
    (h1 : 0 < Okada.rr (x t) (e t) (q t) + (e t * sd - q t * cd)) :
    let U := fun t => UB_3a (medOf al sd cd) (corS (medOf al sd cd) (x t) (e t) (q t)) (i4S (medOf al sd cd) (x t) (e t) (q t))
    HasDerivAt (fun t => (U t).u3) ((UB0_3 (medOf al sd cd) (ptS (medOf al sd cd) (x t) (e t) (q t)) 0).u0) t := by
  simp only [UB_3a, UB0_3, i4S, ptS, corS, medOf, if_pos hc, div_eq_mul_inv, mul_inv, rr_inv, sg_inv, bt_inv, tq_inv, rho_sq]
  have r1 := h.rho h0
  have r2 := h.rr h0
  have r3 := h.sg h0
  have r4 := h.bt h0
  have r8 := h.tq h0 h1.ne'
  have f1 := rho_eq (x t) (e t) (q t)
  have f2 := sg_eq (x t) (e t) (q t)
  have f3 := bt_eq (x t) (e t) (q t)
  have f4 := tq_eq sd cd (x t) (e t) (q t)
  have i1 := (rr_pos (x := x t) (e := e t) h0).ne'
  have i2 := (sg_pos (x := x t) (e := e t) h0).ne'
  have i3 := (bt_pos (x := x t) (e := e t) h0).ne'
  have i4 := h1.ne'
  have e1 := rho_rel (ne3 (x := x t) (e := e t) h0)
  have e2 := rr_rho (ne3 (x := x t) (e := e t) h0)
  have e3 := rr_rel (x t) (e t) (q t)
  have e4 := sg_rel (x := x t) (e := e t) h0
  have e5 := bt_rel (x := x t) (e := e t) h0
  obtain ⟨g1, g2, g3⟩ := h
  apply HasDerivAt.congr_deriv
  · hderiv
  · clear r1 r2 r3 r4 r8 g1 g2 g3 h0 h1
    generalize x t = ξ at *
    generalize e t = η at *
    generalize q t = ζ at *
    generalize al⁻¹ = ι at *
    generalize Okada.rho _ _ _ = ρ at *
    generalize Okada.sg _ _ _ = σ at *
    generalize Okada.bt _ _ _ = β at *
    generalize Okada.tq _ _ _ _ _ = τ at *
    generalize Okada.rr _ _ _ = r at *
    obtain ⟨u, hu⟩ : ∃ u, u = r + (η * sd - ζ * cd) := ⟨_, rfl⟩
    obtain ⟨Y, hY⟩ : ∃ Y, Y = η * cd + ζ * sd := ⟨_, rfl⟩
    obtain ⟨v, hv⟩ : ∃ v, v = r + η := ⟨_, rfl⟩
    rw [← hu] at f4 i4
    rw [← hv] at f3 i3
    have hη : η = Y * cd + (u - r) * sd := by rw [hu, hY]; linear_combination -η * tr
    have hζ : ζ = Y * sd - (u - r) * cd := by rw [hu, hY]; linear_combination -ζ * tr
    have e6 : ξ ^ 2 = 2 * u * r - u ^ 2 - Y ^ 2 := by
      rw [hu, hY]; linear_combination -e3 + (η ^ 2 + ζ ^ 2) * tr
    clear hu hY
    generalize hK : (1 - al) * ι = K
    clear hK
    rw [← sub_eq_zero]
    alg_sub

theorem WB_3_1g {al sd cd : ℝ} (tr : sd * sd + cd * cd = 1) (hc : cd ≠ 0) (h : Curve x e q 0 1 0 t) (h0 : q t ≠ 0)
    (h1 : 0 < Okada.rr (x t) (e t) (q t) + (e t * sd - q t * cd)) :
    let U := fun t => UB_3a (medOf al sd cd) (corS (medOf al sd cd) (x t) (e t) (q t)) (i4S (medOf al sd cd) (x t) (e t) (q t))
    HasDerivAt (fun t => (U t).u4 * cd - (U t).u5 * sd) ((UB0_3 (medOf al sd cd) (ptS (medOf al sd cd) (x t) (e t) (q t)) 0).u1) t := by
  simp only [UB_3a, UB0_3, i4S, ptS, corS, medOf, if_pos hc, div_eq_mul_inv, mul_inv, rr_inv, sg_inv, bt_inv, tq_inv, rho_sq]
  have r1 := h.rho h0
  have r2 := h.rr h0
  have r3 := h.sg h0
  have r4 := h.bt h0
  have r8 := h.tq h0 h1.ne'
  have f1 := rho_eq (x t) (e t) (q t)
  have f2 := sg_eq (x t) (e t) (q t)
  have f3 := bt_eq (x t) (e t) (q t)
  have f4 := tq_eq sd cd (x t) (e t) (q t)
  have i1 := (rr_pos (x := x t) (e := e t) h0).ne'
  have i2 := (sg_pos (x := x t) (e := e t) h0).ne'
  have i3 := (bt_pos (x := x t) (e := e t) h0).ne'
  have i4 := h1.ne'
  have e1 := rho_rel (ne3 (x := x t) (e := e t) h0)
  have e2 := rr_rho (ne3 (x := x t) (e := e t) h0)
  have e3 := rr_rel (x t) (e t) (q t)
  have e4 := sg_rel (x := x t) (e := e t) h0
  have e5 := bt_rel (x := x t) (e := e t) h0
  obtain ⟨g1, g2, g3⟩ := h
  apply HasDerivAt.congr_deriv
  · hderiv
  · clear r1 r2 r3 r4 r8 g1 g2 g3 h0 h1
    generalize x t = ξ at *
    generalize e t = η at *
    generalize q t = ζ at *
    generalize al⁻¹ = ι at *
    generalize Okada.rho _ _ _ = ρ at *
    generalize Okada.sg _ _ _ = σ at *
    generalize Okada.bt _ _ _ = β at *
    generalize Okada.tq _ _ _ _ _ = τ at *
    generalize Okada.rr _ _ _ = r at *
    obtain ⟨u, hu⟩ : ∃ u, u = r + (η * sd - ζ * cd) := ⟨_, rfl⟩
    obtain ⟨Y, hY⟩ : ∃ Y, Y = η * cd + ζ * sd := ⟨_, rfl⟩
    obtain ⟨v, hv⟩ : ∃ v, v = r + η := ⟨_, rfl⟩
    rw [← hu] at f4 i4
    rw [← hv] at f3 i3
    have hη : η = Y * cd + (u - r) * sd := by rw [hu, hY]; linear_combination -η * tr
    have hζ : ζ = Y * sd - (u - r) * cd := by rw [hu, hY]; linear_combination -ζ * tr
    have e6 : ξ ^ 2 = 2 * u * r - u ^ 2 - Y ^ 2 := by
      rw [hu, hY]; linear_combination -e3 + (η ^ 2 + ζ ^ 2) * tr
    clear hu hY
    generalize hK : (1 - al) * ι = K
    clear hK
    rw [← sub_eq_zero]
    alg_big

theorem WB_3_2g {al sd cd : ℝ} (tr : sd * sd + cd * cd = 1) (hc : cd ≠ 0) (h : Curve x e q 0 1 0 t) (h0 : q t ≠ 0)
    (h1 : 0 < Okada.rr (x t) (e t) (q t) + (e t * sd - q t * cd)) :
    let U := fun t => UB_3a (medOf al sd cd) (corS (medOf al sd cd) (x t) (e t) (q t)) (i4S (medOf al sd cd) (x t) (e t) (q t))
    HasDerivAt (fun t => (U t).u4 * sd + (U t).u5 * cd) ((UB0_3 (medOf al sd cd) (ptS (medOf al sd cd) (x t) (e t) (q t)) 0).u2) t := by
  simp only [UB_3a, UB0_3, i4S, ptS, corS, medOf, if_pos hc, div_eq_mul_inv, mul_inv, rr_inv, sg_inv, bt_inv, tq_inv, rho_sq]
  have r1 := h.rho h0
  have r2 := h.rr h0
  have r3 := h.sg h0
  have r4 := h.bt h0
  have r8 := h.tq h0 h1.ne'
  have f1 := rho_eq (x t) (e t) (q t)
  have f2 := sg_eq (x t) (e t) (q t)
  have f3 := bt_eq (x t) (e t) (q t)
  have f4 := tq_eq sd cd (x t) (e t) (q t)
  have i1 := (rr_pos (x := x t) (e := e t) h0).ne'
  have i2 := (sg_pos (x := x t) (e := e t) h0).ne'
  have i3 := (bt_pos (x := x t) (e := e t) h0).ne'
  have i4 := h1.ne'
  have e1 := rho_rel (ne3 (x := x t) (e := e t) h0)
  have e2 := rr_rho (ne3 (x := x t) (e := e t) h0)
  have e3 := rr_rel (x t) (e t) (q t)
  have e4 := sg_rel (x := x t) (e := e t) h0
  have e5 := bt_rel (x := x t) (e := e t) h0
  obtain ⟨g1, g2, g3⟩ := h
  apply HasDerivAt.congr_deriv
  · hderiv
  · clear r1 r2 r3 r4 r8 g1 g2 g3 h0 h1
    generalize x t = ξ at *
    generalize e t = η at *
    generalize q t = ζ at *
    generalize al⁻¹ = ι at *
    generalize Okada.rho _ _ _ = ρ at *
    generalize Okada.sg _ _ _ = σ at *
    generalize Okada.bt _ _ _ = β at *
    generalize Okada.tq _ _ _ _ _ = τ at *
    generalize Okada.rr _ _ _ = r at *
    obtain ⟨u, hu⟩ : ∃ u, u = r + (η * sd - ζ * cd) := ⟨_, rfl⟩
    obtain ⟨Y, hY⟩ : ∃ Y, Y = η * cd + ζ * sd := ⟨_, rfl⟩
    obtain ⟨v, hv⟩ : ∃ v, v = r + η := ⟨_, rfl⟩
    rw [← hu] at f4 i4
    rw [← hv] at f3 i3
    have hη : η = Y * cd + (u - r) * sd := by rw [hu, hY]; linear_combination -η * tr
    have hζ : ζ = Y * sd - (u - r) * cd := by rw [hu, hY]; linear_combination -ζ * tr
    have e6 : ξ ^ 2 = 2 * u * r - u ^ 2 - Y ^ 2 := by
      rw [hu, hY]; linear_combination -e3 + (η ^ 2 + ζ ^ 2) * tr
    clear hu hY
    generalize hK : (1 - al) * ι = K
    clear hK
    rw [← sub_eq_zero]
    alg_sub

theorem WB_1_0v {al sd : ℝ} (s1 : sd = 1) (h : Curve x e q 0 1 0 t) (h0 : q t ≠ 0)
    (h1 : 0 < Okada.rr (x t) (e t) (q t) + (e t * sd - q t * 0)) :
    let U := fun t => UB_1a (medOf al sd 0) (corS (medOf al sd 0) (x t) (e t) (q t)) (i4S (medOf al sd 0) (x t) (e t) (q t))
    HasDerivAt (fun t => (U t).u3) ((UB0_1 (medOf al sd 0) (ptS (medOf al sd 0) (x t) (e t) (q t)) 0).u0) t := by
  have tr : sd * sd = 1 := by rw [s1]; norm_num
  simp only [UB_1a, UB0_1, i4S, ptS, corS, medOf, ne_eq, not_true_eq_false, if_false, div_eq_mul_inv, mul_inv, rr_inv, sg_inv, bt_inv, tq_inv, rho_sq]
  have r1 := h.rho h0
  have r2 := h.rr h0
  have r3 := h.sg h0
  have r4 := h.bt h0
  have r8 := h.tq h0 h1.ne'
  have f1 := rho_eq (x t) (e t) (q t)
  have f2 := sg_eq (x t) (e t) (q t)
  have f3 := bt_eq (x t) (e t) (q t)
  have f4 := tq_eq sd 0 (x t) (e t) (q t)
  have i1 := (rr_pos (x := x t) (e := e t) h0).ne'
  have i2 := (sg_pos (x := x t) (e := e t) h0).ne'
  have i3 := (bt_pos (x := x t) (e := e t) h0).ne'
  have i4 := h1.ne'
  have e1 := rho_rel (ne3 (x := x t) (e := e t) h0)
  have e2 := rr_rho (ne3 (x := x t) (e := e t) h0)
  have e3 := rr_rel (x t) (e t) (q t)
  have e4 := sg_rel (x := x t) (e := e t) h0
  have e5 := bt_rel (x := x t) (e := e t) h0
  obtain ⟨g1, g2, g3⟩ := h
  apply HasDerivAt.congr_deriv
  · hderiv
  · clear r1 r2 r3 r4 r8 g1 g2 g3 h0 h1
    generalize x t = ξ at *
    generalize e t = η at *
    generalize q t = ζ at *
    generalize al⁻¹ = ι at *
    generalize Okada.rho _ _ _ = ρ at *
    generalize Okada.sg _ _ _ = σ at *
    generalize Okada.bt _ _ _ = β at *
    generalize Okada.tq _ _ _ _ _ = τ at *
    generalize Okada.rr _ _ _ = r at *
    obtain ⟨u, hu⟩ : ∃ u, u = r + (η * sd - ζ * 0) := ⟨_, rfl⟩
    obtain ⟨Y, hY⟩ : ∃ Y, Y = η * 0 + ζ * sd := ⟨_, rfl⟩
    obtain ⟨v, hv⟩ : ∃ v, v = r + η := ⟨_, rfl⟩
    rw [← hu] at f4 i4
    rw [← hv] at f3 i3
    have hη : η = Y * 0 + (u - r) * sd := by rw [hu, hY]; linear_combination -η * tr
    have hζ : ζ = Y * sd - (u - r) * 0 := by rw [hu, hY]; linear_combination -ζ * tr
    have e6 : ξ ^ 2 = 2 * u * r - u ^ 2 - Y ^ 2 := by
      rw [hu, hY]; linear_combination -e3 + (η ^ 2 + ζ ^ 2) * tr
    clear hu hY
    generalize hK : (1 - al) * ι = K
    clear hK
    rw [← sub_eq_zero]
    alg_sub

theorem WB_1_1v {al sd : ℝ} (s1 : sd = 1) (h : Curve x e q 0 1 0 t) (h0 : q t ≠ 0)
    (h1 : 0 < Okada.rr (x t) (e t) (q t) + (e t * sd - q t * 0)) :
    let U := fun t => UB_1a (medOf al sd 0) (corS (medOf al sd 0) (x t) (e t) (q t)) (i4S (medOf al sd 0) (x t) (e t) (q t))
    HasDerivAt (fun t => (U t).u4 * 0 - (U t).u5 * sd) ((UB0_1 (medOf al sd 0) (ptS (medOf al sd 0) (x t) (e t) (q t)) 0).u1) t := by
  have tr : sd * sd = 1 := by rw [s1]; norm_num
  simp only [UB_1a, UB0_1, i4S, ptS, corS, medOf, ne_eq, not_true_eq_false, if_false, div_eq_mul_inv, mul_inv, rr_inv, sg_inv, bt_inv, tq_inv, rho_sq]
  have r1 := h.rho h0
  have r2 := h.rr h0
  have r3 := h.sg h0
  have r4 := h.bt h0
  have r8 := h.tq h0 h1.ne'
  have f1 := rho_eq (x t) (e t) (q t)
  have f2 := sg_eq (x t) (e t) (q t)
  have f3 := bt_eq (x t) (e t) (q t)
  have f4 := tq_eq sd 0 (x t) (e t) (q t)
  have i1 := (rr_pos (x := x t) (e := e t) h0).ne'
  have i2 := (sg_pos (x := x t) (e := e t) h0).ne'
  have i3 := (bt_pos (x := x t) (e := e t) h0).ne'
  have i4 := h1.ne'
  have e1 := rho_rel (ne3 (x := x t) (e := e t) h0)
  have e2 := rr_rho (ne3 (x := x t) (e := e t) h0)
  have e3 := rr_rel (x t) (e t) (q t)
  have e4 := sg_rel (x := x t) (e := e t) h0
  have e5 := bt_rel (x := x t) (e := e t) h0
  obtain ⟨g1, g2, g3⟩ := h
  apply HasDerivAt.congr_deriv
  · hderiv
  · clear r1 r2 r3 r4 r8 g1 g2 g3 h0 h1
    generalize x t = ξ at *
    generalize e t = η at *
    generalize q t = ζ at *
    generalize al⁻¹ = ι at *
    generalize Okada.rho _ _ _ = ρ at *
    generalize Okada.sg _ _ _ = σ at *
    generalize Okada.bt _ _ _ = β at *
    generalize Okada.tq _ _ _ _ _ = τ at *
    generalize Okada.rr _ _ _ = r at *
    obtain ⟨u, hu⟩ : ∃ u, u = r + (η * sd - ζ * 0) := ⟨_, rfl⟩
    obtain ⟨Y, hY⟩ : ∃ Y, Y = η * 0 + ζ * sd := ⟨_, rfl⟩
    obtain ⟨v, hv⟩ : ∃ v, v = r + η := ⟨_, rfl⟩
    rw [← hu] at f4 i4
    rw [← hv] at f3 i3
    have hη : η = Y * 0 + (u - r) * sd := by rw [hu, hY]; linear_combination -η * tr
    have hζ : ζ = Y * sd - (u - r) * 0 := by rw [hu, hY]; linear_combination -ζ * tr
    have e6 : ξ ^ 2 = 2 * u * r - u ^ 2 - Y ^ 2 := by
      rw [hu, hY]; linear_combination -e3 + (η ^ 2 + ζ ^ 2) * tr
    clear hu hY
    generalize hK : (1 - al) * ι = K
    clear hK
    rw [← sub_eq_zero]
    alg_sub

theorem WB_1_2v {al sd : ℝ} (s1 : sd = 1) (h : Curve x e q 0 1 0 t) (h0 : q t ≠ 0)
    (h1 : 0 < Okada.rr (x t) (e t) (q t) + (e t * sd - q t * 0)) :
    let U := fun t => UB_1a (medOf al sd 0) (corS (medOf al sd 0) (x t) (e t) (q t)) (i4S (medOf al sd 0) (x t) (e t) (q t))
    HasDerivAt (fun t => (U t).u4 * sd + (U t).u5 * 0) ((UB0_1 (medOf al sd 0) (ptS (medOf al sd 0) (x t) (e t) (q t)) 0).u2) t := by
  have tr : sd * sd = 1 := by rw [s1]; norm_num
  simp only [UB_1a, UB0_1, i4S, ptS, corS, medOf, ne_eq, not_true_eq_false, if_false, div_eq_mul_inv, mul_inv, rr_inv, sg_inv, bt_inv, tq_inv, rho_sq]
  have r1 := h.rho h0
  have r2 := h.rr h0
  have r3 := h.sg h0
  have r4 := h.bt h0
  have r8 := h.tq h0 h1.ne'
  have f1 := rho_eq (x t) (e t) (q t)
  have f2 := sg_eq (x t) (e t) (q t)
  have f3 := bt_eq (x t) (e t) (q t)
  have f4 := tq_eq sd 0 (x t) (e t) (q t)
  have i1 := (rr_pos (x := x t) (e := e t) h0).ne'
  have i2 := (sg_pos (x := x t) (e := e t) h0).ne'
  have i3 := (bt_pos (x := x t) (e := e t) h0).ne'
  have i4 := h1.ne'
  have e1 := rho_rel (ne3 (x := x t) (e := e t) h0)
  have e2 := rr_rho (ne3 (x := x t) (e := e t) h0)
  have e3 := rr_rel (x t) (e t) (q t)
  have e4 := sg_rel (x := x t) (e := e t) h0
  have e5 := bt_rel (x := x t) (e := e t) h0
  obtain ⟨g1, g2, g3⟩ := h
  apply HasDerivAt.congr_deriv
  · hderiv
  · clear r1 r2 r3 r4 r8 g1 g2 g3 h0 h1
    generalize x t = ξ at *
    generalize e t = η at *
    generalize q t = ζ at *
    generalize al⁻¹ = ι at *
    generalize Okada.rho _ _ _ = ρ at *
    generalize Okada.sg _ _ _ = σ at *
    generalize Okada.bt _ _ _ = β at *
    generalize Okada.tq _ _ _ _ _ = τ at *
    generalize Okada.rr _ _ _ = r at *
    obtain ⟨u, hu⟩ : ∃ u, u = r + (η * sd - ζ * 0) := ⟨_, rfl⟩
    obtain ⟨Y, hY⟩ : ∃ Y, Y = η * 0 + ζ * sd := ⟨_, rfl⟩
    obtain ⟨v, hv⟩ : ∃ v, v = r + η := ⟨_, rfl⟩
    rw [← hu] at f4 i4
    rw [← hv] at f3 i3
    have hη : η = Y * 0 + (u - r) * sd := by rw [hu, hY]; linear_combination -η * tr
    have hζ : ζ = Y * sd - (u - r) * 0 := by rw [hu, hY]; linear_combination -ζ * tr
    have e6 : ξ ^ 2 = 2 * u * r - u ^ 2 - Y ^ 2 := by
      rw [hu, hY]; linear_combination -e3 + (η ^ 2 + ζ ^ 2) * tr
    clear hu hY
    generalize hK : (1 - al) * ι = K
    clear hK
    rw [← sub_eq_zero]
    alg_sub

theorem WB_2_0v {al sd : ℝ} (s1 : sd = 1) (h : Curve x e q 0 1 0 t) (h0 : q t ≠ 0)
    (h1 : 0 < Okada.rr (x t) (e t) (q t) + (e t * sd - q t * 0)) :
    let U := fun t => UB_2a (medOf al sd 0) (corS (medOf al sd 0) (x t) (e t) (q t)) (i4S (medOf al sd 0) (x t) (e t) (q t))
    HasDerivAt (fun t => (U t).u3) ((UB0_2 (medOf al sd 0) (ptS (medOf al sd 0) (x t) (e t) (q t)) 0).u0) t := by
  have tr : sd * sd = 1 := by rw [s1]; norm_num
  simp only [UB_2a, UB0_2, i4S, ptS, corS, medOf, ne_eq, not_true_eq_false, if_false, div_eq_mul_inv, mul_inv, rr_inv, sg_inv, bt_inv, tq_inv, rho_sq]
  have r1 := h.rho h0
  have r2 := h.rr h0
  have r3 := h.sg h0
  have r4 := h.bt h0
  have r8 := h.tq h0 h1.ne'
  have f1 := rho_eq (x t) (e t) (q t)
  have f2 := sg_eq (x t) (e t) (q t)
  have f3 := bt_eq (x t) (e t) (q t)
  have f4 := tq_eq sd 0 (x t) (e t) (q t)
  have i1 := (rr_pos (x := x t) (e := e t) h0).ne'
  have i2 := (sg_pos (x := x t) (e := e t) h0).ne'
  have i3 := (bt_pos (x := x t) (e := e t) h0).ne'
  have i4 := h1.ne'
  have e1 := rho_rel (ne3 (x := x t) (e := e t) h0)
  have e2 := rr_rho (ne3 (x := x t) (e := e t) h0)
  have e3 := rr_rel (x t) (e t) (q t)
  have e4 := sg_rel (x := x t) (e := e t) h0
  have e5 := bt_rel (x := x t) (e := e t) h0
  obtain ⟨g1, g2, g3⟩ := h
  apply HasDerivAt.congr_deriv
  · hderiv
  · clear r1 r2 r3 r4 r8 g1 g2 g3 h0 h1
    generalize x t = ξ at *
    generalize e t = η at *
    generalize q t = ζ at *
    generalize al⁻¹ = ι at *
    generalize Okada.rho _ _ _ = ρ at *
    generalize Okada.sg _ _ _ = σ at *
    generalize Okada.bt _ _ _ = β at *
    generalize Okada.tq _ _ _ _ _ = τ at *
    generalize Okada.rr _ _ _ = r at *
    obtain ⟨u, hu⟩ : ∃ u, u = r + (η * sd - ζ * 0) := ⟨_, rfl⟩
    obtain ⟨Y, hY⟩ : ∃ Y, Y = η * 0 + ζ * sd := ⟨_, rfl⟩
    obtain ⟨v, hv⟩ : ∃ v, v = r + η := ⟨_, rfl⟩
    rw [← hu] at f4 i4
    rw [← hv] at f3 i3
    have hη : η = Y * 0 + (u - r) * sd := by rw [hu, hY]; linear_combination -η * tr
    have hζ : ζ = Y * sd - (u - r) * 0 := by rw [hu, hY]; linear_combination -ζ * tr
    have e6 : ξ ^ 2 = 2 * u * r - u ^ 2 - Y ^ 2 := by
      rw [hu, hY]; linear_combination -e3 + (η ^ 2 + ζ ^ 2) * tr
    clear hu hY
    generalize hK : (1 - al) * ι = K
    clear hK
    rw [← sub_eq_zero]
    alg_sub

theorem WB_2_1v {al sd : ℝ} (s1 : sd = 1) (h : Curve x e q 0 1 0 t) (h0 : q t ≠ 0)
    (h1 : 0 < Okada.rr (x t) (e t) (q t) + (e t * sd - q t * 0)) :
    let U := fun t => UB_2a (medOf al sd 0) (corS (medOf al sd 0) (x t) (e t) (q t)) (i4S (medOf al sd 0) (x t) (e t) (q t))
    HasDerivAt (fun t => (U t).u4 * 0 - (U t).u5 * sd) ((UB0_2 (medOf al sd 0) (ptS (medOf al sd 0) (x t) (e t) (q t)) 0).u1) t := by
  have tr : sd * sd = 1 := by rw [s1]; norm_num
  simp only [UB_2a, UB0_2, i4S, ptS, corS, medOf, ne_eq, not_true_eq_false, if_false, div_eq_mul_inv, mul_inv, rr_inv, sg_inv, bt_inv, tq_inv, rho_sq]
  have r1 := h.rho h0
  have r2 := h.rr h0
  have r3 := h.sg h0
  have r4 := h.bt h0
  have r8 := h.tq h0 h1.ne'
  have f1 := rho_eq (x t) (e t) (q t)
  have f2 := sg_eq (x t) (e t) (q t)
  have f3 := bt_eq (x t) (e t) (q t)
  have f4 := tq_eq sd 0 (x t) (e t) (q t)
  have i1 := (rr_pos (x := x t) (e := e t) h0).ne'
  have i2 := (sg_pos (x := x t) (e := e t) h0).ne'
  have i3 := (bt_pos (x := x t) (e := e t) h0).ne'
  have i4 := h1.ne'
  have e1 := rho_rel (ne3 (x := x t) (e := e t) h0)
  have e2 := rr_rho (ne3 (x := x t) (e := e t) h0)
  have e3 := rr_rel (x t) (e t) (q t)
  have e4 := sg_rel (x := x t) (e := e t) h0
  have e5 := bt_rel (x := x t) (e := e t) h0
  obtain ⟨g1, g2, g3⟩ := h
  apply HasDerivAt.congr_deriv
  · hderiv
  · clear r1 r2 r3 r4 r8 g1 g2 g3 h0 h1
    generalize x t = ξ at *
    generalize e t = η at *
    generalize q t = ζ at *
    generalize al⁻¹ = ι at *
    generalize Okada.rho _ _ _ = ρ at *
    generalize Okada.sg _ _ _ = σ at *
    generalize Okada.bt _ _ _ = β at *
    generalize Okada.tq _ _ _ _ _ = τ at *
    generalize Okada.rr _ _ _ = r at *
    obtain ⟨u, hu⟩ : ∃ u, u = r + (η * sd - ζ * 0) := ⟨_, rfl⟩
    obtain ⟨Y, hY⟩ : ∃ Y, Y = η * 0 + ζ * sd := ⟨_, rfl⟩
    obtain ⟨v, hv⟩ : ∃ v, v = r + η := ⟨_, rfl⟩
    rw [← hu] at f4 i4
    rw [← hv] at f3 i3
    have hη : η = Y * 0 + (u - r) * sd := by rw [hu, hY]; linear_combination -η * tr
    have hζ : ζ = Y * sd - (u - r) * 0 := by rw [hu, hY]; linear_combination -ζ * tr
    have e6 : ξ ^ 2 = 2 * u * r - u ^ 2 - Y ^ 2 := by
      rw [hu, hY]; linear_combination -e3 + (η ^ 2 + ζ ^ 2) * tr
    clear hu hY
    generalize hK : (1 - al) * ι = K
    clear hK
    rw [← sub_eq_zero]
    alg_sub

theorem WB_2_2v {al sd : ℝ} (s1 : sd = 1) (h : Curve x e q 0 1 0 t) (h0 : q t ≠ 0)
    (h1 : 0 < Okada.rr (x t) (e t) (q t) + (e t * sd - q t * 0)) :
    let U := fun t => UB_2a (medOf al sd 0) (corS (medOf al sd 0) (x t) (e t) (q t)) (i4S (medOf al sd 0) (x t) (e t) (q t))
    HasDerivAt (fun t => (U t).u4 * sd + (U t).u5 * 0) ((UB0_2 (medOf al sd 0) (ptS (medOf al sd 0) (x t) (e t) (q t)) 0).u2) t := by
  have tr : sd * sd = 1 := by rw [s1]; norm_num
  simp only [UB_2a, UB0_2, i4S, ptS, corS, medOf, ne_eq, not_true_eq_false, if_false, div_eq_mul_inv, mul_inv, rr_inv, sg_inv, bt_inv, tq_inv, rho_sq]
  have r1 := h.rho h0
  have r2 := h.rr h0
  have r3 := h.sg h0
  have r4 := h.bt h0
  have r8 := h.tq h0 h1.ne'
  have f1 := rho_eq (x t) (e t) (q t)
  have f2 := sg_eq (x t) (e t) (q t)
  have f3 := bt_eq (x t) (e t) (q t)
  have f4 := tq_eq sd 0 (x t) (e t) (q t)
  have i1 := (rr_pos (x := x t) (e := e t) h0).ne'
  have i2 := (sg_pos (x := x t) (e := e t) h0).ne'
  have i3 := (bt_pos (x := x t) (e := e t) h0).ne'
  have i4 := h1.ne'
  have e1 := rho_rel (ne3 (x := x t) (e := e t) h0)
  have e2 := rr_rho (ne3 (x := x t) (e := e t) h0)
  have e3 := rr_rel (x t) (e t) (q t)
  have e4 := sg_rel (x := x t) (e := e t) h0
  have e5 := bt_rel (x := x t) (e := e t) h0
  obtain ⟨g1, g2, g3⟩ := h
  apply HasDerivAt.congr_deriv
  · hderiv
  · clear r1 r2 r3 r4 r8 g1 g2 g3 h0 h1
    generalize x t = ξ at *
    generalize e t = η at *
    generalize q t = ζ at *
    generalize al⁻¹ = ι at *
    generalize Okada.rho _ _ _ = ρ at *
    generalize Okada.sg _ _ _ = σ at *
    generalize Okada.bt _ _ _ = β at *
    generalize Okada.tq _ _ _ _ _ = τ at *
    generalize Okada.rr _ _ _ = r at *
    obtain ⟨u, hu⟩ : ∃ u, u = r + (η * sd - ζ * 0) := ⟨_, rfl⟩
    obtain ⟨Y, hY⟩ : ∃ Y, Y = η * 0 + ζ * sd := ⟨_, rfl⟩
    obtain ⟨v, hv⟩ : ∃ v, v = r + η := ⟨_, rfl⟩
    rw [← hu] at f4 i4
    rw [← hv] at f3 i3
    have hη : η = Y * 0 + (u - r) * sd := by rw [hu, hY]; linear_combination -η * tr
    have hζ : ζ = Y * sd - (u - r) * 0 := by rw [hu, hY]; linear_combination -ζ * tr
    have e6 : ξ ^ 2 = 2 * u * r - u ^ 2 - Y ^ 2 := by
      rw [hu, hY]; linear_combination -e3 + (η ^ 2 + ζ ^ 2) * tr
    clear hu hY
    generalize hK : (1 - al) * ι = K
    clear hK
    rw [← sub_eq_zero]
    alg_sub

theorem WB_3_0v {al sd : ℝ} (s1 : sd = 1) (h : Curve x e q 0 1 0 t) (h0 : q t ≠ 0)
    (h1 : 0 < Okada.rr (x t) (e t) (q t) + (e t * sd - q t * 0)) :
    let U := fun t => UB_3a (medOf al sd 0) (corS (medOf al sd 0) (x t) (e t) (q t)) (i4S (medOf al sd 0) (x t) (e t) (q t))
    HasDerivAt (fun t => (U t).u3) ((UB0_3 (medOf al sd 0) (ptS (medOf al sd 0) (x t) (e t) (q t)) 0).u0) t := by
  have tr : sd * sd = 1 := by rw [s1]; norm_num
  simp only [UB_3a, UB0_3, i4S, ptS, corS, medOf, ne_eq, not_true_eq_false, if_false, div_eq_mul_inv, mul_inv, rr_inv, sg_inv, bt_inv, tq_inv, rho_sq]
  have r1 := h.rho h0
  have r2 := h.rr h0
  have r3 := h.sg h0
  have r4 := h.bt h0
  have r8 := h.tq h0 h1.ne'
  have f1 := rho_eq (x t) (e t) (q t)
  have f2 := sg_eq (x t) (e t) (q t)
  have f3 := bt_eq (x t) (e t) (q t)
  have f4 := tq_eq sd 0 (x t) (e t) (q t)
  have i1 := (rr_pos (x := x t) (e := e t) h0).ne'
  have i2 := (sg_pos (x := x t) (e := e t) h0).ne'
  have i3 := (bt_pos (x := x t) (e := e t) h0).ne'
  have i4 := h1.ne'
  have e1 := rho_rel (ne3 (x := x t) (e := e t) h0)
  have e2 := rr_rho (ne3 (x := x t) (e := e t) h0)
  have e3 := rr_rel (x t) (e t) (q t)
  have e4 := sg_rel (x := x t) (e := e t) h0
  have e5 := bt_rel (x := x t) (e := e t) h0
  obtain ⟨g1, g2, g3⟩ := h
  apply HasDerivAt.congr_deriv
  · hderiv
  · clear r1 r2 r3 r4 r8 g1 g2 g3 h0 h1
    generalize x t = ξ at *
    generalize e t = η at *
    generalize q t = ζ at *
    generalize al⁻¹ = ι at *
    generalize Okada.rho _ _ _ = ρ at *
    generalize Okada.sg _ _ _ = σ at *
    generalize Okada.bt _ _ _ = β at *
    generalize Okada.tq _ _ _ _ _ = τ at *
    generalize Okada.rr _ _ _ = r at *
    obtain ⟨u, hu⟩ : ∃ u, u = r + (η * sd - ζ * 0) := ⟨_, rfl⟩
    obtain ⟨Y, hY⟩ : ∃ Y, Y = η * 0 + ζ * sd := ⟨_, rfl⟩
    obtain ⟨v, hv⟩ : ∃ v, v = r + η := ⟨_, rfl⟩
    rw [← hu] at f4 i4
    rw [← hv] at f3 i3
    have hη : η = Y * 0 + (u - r) * sd := by rw [hu, hY]; linear_combination -η * tr
    have hζ : ζ = Y * sd - (u - r) * 0 := by rw [hu, hY]; linear_combination -ζ * tr
    have e6 : ξ ^ 2 = 2 * u * r - u ^ 2 - Y ^ 2 := by
      rw [hu, hY]; linear_combination -e3 + (η ^ 2 + ζ ^ 2) * tr
    clear hu hY
    generalize hK : (1 - al) * ι = K
    clear hK
    rw [← sub_eq_zero]
    alg_sub

theorem WB_3_1v {al sd : ℝ} (s1 : sd = 1) (h : Curve x e q 0 1 0 t) (h0 : q t ≠ 0)
    (h1 : 0 < Okada.rr (x t) (e t) (q t) + (e t * sd - q t * 0)) :
    let U := fun t => UB_3a (medOf al sd 0) (corS (medOf al sd 0) (x t) (e t) (q t)) (i4S (medOf al sd 0) (x t) (e t) (q t))
    HasDerivAt (fun t => (U t).u4 * 0 - (U t).u5 * sd) ((UB0_3 (medOf al sd 0) (ptS (medOf al sd 0) (x t) (e t) (q t)) 0).u1) t := by
  have tr : sd * sd = 1 := by rw [s1]; norm_num
  simp only [UB_3a, UB0_3, i4S, ptS, corS, medOf, ne_eq, not_true_eq_false, if_false, div_eq_mul_inv, mul_inv, rr_inv, sg_inv, bt_inv, tq_inv, rho_sq]
  have r1 := h.rho h0
  have r2 := h.rr h0
  have r3 := h.sg h0
  have r4 := h.bt h0
  have r8 := h.tq h0 h1.ne'
  have f1 := rho_eq (x t) (e t) (q t)
  have f2 := sg_eq (x t) (e t) (q t)
  have f3 := bt_eq (x t) (e t) (q t)
  have f4 := tq_eq sd 0 (x t) (e t) (q t)
  have i1 := (rr_pos (x := x t) (e := e t) h0).ne'
  have i2 := (sg_pos (x := x t) (e := e t) h0).ne'
  have i3 := (bt_pos (x := x t) (e := e t) h0).ne'
  have i4 := h1.ne'
  have e1 := rho_rel (ne3 (x := x t) (e := e t) h0)
  have e2 := rr_rho (ne3 (x := x t) (e := e t) h0)
  have e3 := rr_rel (x t) (e t) (q t)
  have e4 := sg_rel (x := x t) (e := e t) h0
  have e5 := bt_rel (x := x t) (e := e t) h0
  obtain ⟨g1, g2, g3⟩ := h
  apply HasDerivAt.congr_deriv
  · hderiv
  · clear r1 r2 r3 r4 r8 g1 g2 g3 h0 h1
    generalize x t = ξ at *
    generalize e t = η at *
    generalize q t = ζ at *
    generalize al⁻¹ = ι at *
    generalize Okada.rho _ _ _ = ρ at *
    generalize Okada.sg _ _ _ = σ at *
    generalize Okada.bt _ _ _ = β at *
    generalize Okada.tq _ _ _ _ _ = τ at *
    generalize Okada.rr _ _ _ = r at *
    obtain ⟨u, hu⟩ : ∃ u, u = r + (η * sd - ζ * 0) := ⟨_, rfl⟩
    obtain ⟨Y, hY⟩ : ∃ Y, Y = η * 0 + ζ * sd := ⟨_, rfl⟩
    obtain ⟨v, hv⟩ : ∃ v, v = r + η := ⟨_, rfl⟩
    rw [← hu] at f4 i4
    rw [← hv] at f3 i3
    have hη : η = Y * 0 + (u - r) * sd := by rw [hu, hY]; linear_combination -η * tr
    have hζ : ζ = Y * sd - (u - r) * 0 := by rw [hu, hY]; linear_combination -ζ * tr
    have e6 : ξ ^ 2 = 2 * u * r - u ^ 2 - Y ^ 2 := by
      rw [hu, hY]; linear_combination -e3 + (η ^ 2 + ζ ^ 2) * tr
    clear hu hY
    generalize hK : (1 - al) * ι = K
    clear hK
    rw [← sub_eq_zero]
    alg_sub

theorem WB_3_2v {al sd : ℝ} (s1 : sd = 1) (h : Curve x e q 0 1 0 t) (h0 : q t ≠ 0)
    (h1 : 0 < Okada.rr (x t) (e t) (q t) + (e t * sd - q t * 0)) :
    let U := fun t => UB_3a (medOf al sd 0) (corS (medOf al sd 0) (x t) (e t) (q t)) (i4S (medOf al sd 0) (x t) (e t) (q t))
    HasDerivAt (fun t => (U t).u4 * sd + (U t).u5 * 0) ((UB0_3 (medOf al sd 0) (ptS (medOf al sd 0) (x t) (e t) (q t)) 0).u2) t := by
  have tr : sd * sd = 1 := by rw [s1]; norm_num
  simp only [UB_3a, UB0_3, i4S, ptS, corS, medOf, ne_eq, not_true_eq_false, if_false, div_eq_mul_inv, mul_inv, rr_inv, sg_inv, bt_inv, tq_inv, rho_sq]
  have r1 := h.rho h0
  have r2 := h.rr h0
  have r3 := h.sg h0
  have r4 := h.bt h0
  have r8 := h.tq h0 h1.ne'
  have f1 := rho_eq (x t) (e t) (q t)
  have f2 := sg_eq (x t) (e t) (q t)
  have f3 := bt_eq (x t) (e t) (q t)
  have f4 := tq_eq sd 0 (x t) (e t) (q t)
  have i1 := (rr_pos (x := x t) (e := e t) h0).ne'
  have i2 := (sg_pos (x := x t) (e := e t) h0).ne'
  have i3 := (bt_pos (x := x t) (e := e t) h0).ne'
  have i4 := h1.ne'
  have e1 := rho_rel (ne3 (x := x t) (e := e t) h0)
  have e2 := rr_rho (ne3 (x := x t) (e := e t) h0)
  have e3 := rr_rel (x t) (e t) (q t)
  have e4 := sg_rel (x := x t) (e := e t) h0
  have e5 := bt_rel (x := x t) (e := e t) h0
  obtain ⟨g1, g2, g3⟩ := h
  apply HasDerivAt.congr_deriv
  · hderiv
  · clear r1 r2 r3 r4 r8 g1 g2 g3 h0 h1
    generalize x t = ξ at *
    generalize e t = η at *
    generalize q t = ζ at *
    generalize al⁻¹ = ι at *
    generalize Okada.rho _ _ _ = ρ at *
    generalize Okada.sg _ _ _ = σ at *
    generalize Okada.bt _ _ _ = β at *
    generalize Okada.tq _ _ _ _ _ = τ at *
    generalize Okada.rr _ _ _ = r at *
    obtain ⟨u, hu⟩ : ∃ u, u = r + (η * sd - ζ * 0) := ⟨_, rfl⟩
    obtain ⟨Y, hY⟩ : ∃ Y, Y = η * 0 + ζ * sd := ⟨_, rfl⟩
    obtain ⟨v, hv⟩ : ∃ v, v = r + η := ⟨_, rfl⟩
    rw [← hu] at f4 i4
    rw [← hv] at f3 i3
    have hη : η = Y * 0 + (u - r) * sd := by rw [hu, hY]; linear_combination -η * tr
    have hζ : ζ = Y * sd - (u - r) * 0 := by rw [hu, hY]; linear_combination -ζ * tr
    have e6 : ξ ^ 2 = 2 * u * r - u ^ 2 - Y ^ 2 := by
      rw [hu, hY]; linear_combination -e3 + (η ^ 2 + ζ ^ 2) * tr
    clear hu hY
    generalize hK : (1 - al) * ι = K
    clear hK
    rw [← sub_eq_zero]
    alg_sub

end GRT.Okada
