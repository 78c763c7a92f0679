import Verif.Okada.Finite
import Verif.Okada.PointD
import Mathlib.Analysis.SpecialFunctions.Log.Deriv
import Mathlib.Analysis.SpecialFunctions.Trigonometric.ArctanDeriv

/-! Derivatives of the building blocks of a corner along any curve. -/

namespace GRT.Okada

/-- One over `r + xi`. -/
noncomputable def sg (x e q : ℝ) : ℝ := (rr x e q + x)⁻¹

/-- One over `r + et`. -/
noncomputable def bt (x e q : ℝ) : ℝ := (rr x e q + e)⁻¹

/-- One over `r + d`. -/
noncomputable def tq (s c x e q : ℝ) : ℝ := (rr x e q + (e * s - q * c))⁻¹

/-- A curve of corners with its velocity. -/
structure Curve (x e q : ℝ → ℝ) (a b w t : ℝ) : Prop where
  hx : HasDerivAt x a t
  he : HasDerivAt e b t
  hq : HasDerivAt q w t

variable {x e q : ℝ → ℝ} {a b w t : ℝ}

theorem Curve.sum (h : Curve x e q a b w t) : HasDerivAt (fun t => x t * x t + e t * e t + q t * q t) (2 * (x t * a + e t * b + q t * w)) t :=
  (((h.hx.fun_mul h.hx).fun_add (h.he.fun_mul h.he)).fun_add (h.hq.fun_mul h.hq)).congr_deriv (by ring)

theorem nn3 (a b c : ℝ) : 0 ≤ a * a + b * b + c * c := by nlinarith [mul_self_nonneg a, mul_self_nonneg b, mul_self_nonneg c]

theorem Curve.rr (h : Curve x e q a b w t) (h0 : q t ≠ 0) :
    HasDerivAt (fun t => rr (x t) (e t) (q t)) ((x t * a + e t * b + q t * w) * rho (x t) (e t) (q t)) t := by
  have h1 : x t * x t + e t * e t + q t * q t ≠ 0 := by
    nlinarith [mul_self_nonneg (x t), mul_self_nonneg (e t), mul_self_pos.2 h0]
  refine (h.sum.sqrt h1).congr_deriv ?_
  unfold rho
  ring

theorem ne3 {x e q : ℝ} (h0 : q ≠ 0) : x * x + e * e + q * q ≠ 0 := by
  nlinarith [mul_self_nonneg x, mul_self_nonneg e, mul_self_pos.2 h0]

theorem rr_pos {x e q : ℝ} (h0 : q ≠ 0) : 0 < rr x e q := Real.sqrt_pos.2 (lt_of_le_of_ne (nn3 x e q) (ne3 h0).symm)

theorem rr_gt {x e q : ℝ} (h0 : q ≠ 0) : |x| < rr x e q ∧ |e| < rr x e q := by
  have := mul_self_pos.2 h0
  constructor <;> rw [← Real.sqrt_sq_eq_abs] <;> refine Real.sqrt_lt_sqrt (sq_nonneg _) ?_ <;>
    nlinarith [mul_self_nonneg x, mul_self_nonneg e]

theorem sg_pos {x e q : ℝ} (h0 : q ≠ 0) : 0 < Okada.rr x e q + x := by
  have := (abs_lt.1 (rr_gt (x := x) (e := e) h0).1).1
  linarith

theorem bt_pos {x e q : ℝ} (h0 : q ≠ 0) : 0 < Okada.rr x e q + e := by
  have := (abs_lt.1 (rr_gt (x := x) (e := e) h0).2).1
  linarith

theorem sg_rel {x e q : ℝ} (h0 : q ≠ 0) : sg x e q * (Okada.rr x e q + x) = 1 := inv_mul_cancel₀ (sg_pos h0).ne'

theorem bt_rel {x e q : ℝ} (h0 : q ≠ 0) : bt x e q * (Okada.rr x e q + e) = 1 := inv_mul_cancel₀ (bt_pos h0).ne'

theorem tq_rel {s c x e q : ℝ} (h : Okada.rr x e q + (e * s - q * c) ≠ 0) : tq s c x e q * (Okada.rr x e q + (e * s - q * c)) = 1 :=
  inv_mul_cancel₀ h

theorem Curve.rho (h : Curve x e q a b w t) (h0 : q t ≠ 0) :
    HasDerivAt (fun t => rho (x t) (e t) (q t))
      (-((x t * a + e t * b + q t * w) * (rho (x t) (e t) (q t) * rho (x t) (e t) (q t) * rho (x t) (e t) (q t)))) t := by
  refine ((h.rr h0).fun_inv (rr_pos h0).ne').congr_deriv ?_
  have := (rr_pos (x := x t) (e := e t) h0).ne'
  change _ = -((x t * a + e t * b + q t * w) * ((Okada.rr (x t) (e t) (q t))⁻¹ * (Okada.rr (x t) (e t) (q t))⁻¹ * (Okada.rr (x t) (e t) (q t))⁻¹))
  change -((x t * a + e t * b + q t * w) * (Okada.rr (x t) (e t) (q t))⁻¹) / _ = _
  field_simp

theorem Curve.sg (h : Curve x e q a b w t) (h0 : q t ≠ 0) :
    HasDerivAt (fun t => sg (x t) (e t) (q t))
      (-(((x t * a + e t * b + q t * w) * Okada.rho (x t) (e t) (q t) + a) * (sg (x t) (e t) (q t) * sg (x t) (e t) (q t)))) t := by
  refine (((h.rr h0).fun_add h.hx).fun_inv (sg_pos h0).ne').congr_deriv ?_
  unfold Okada.sg
  field_simp

theorem Curve.bt (h : Curve x e q a b w t) (h0 : q t ≠ 0) :
    HasDerivAt (fun t => bt (x t) (e t) (q t))
      (-(((x t * a + e t * b + q t * w) * Okada.rho (x t) (e t) (q t) + b) * (bt (x t) (e t) (q t) * bt (x t) (e t) (q t)))) t := by
  refine (((h.rr h0).fun_add h.he).fun_inv (bt_pos h0).ne').congr_deriv ?_
  unfold Okada.bt
  field_simp

theorem Curve.tq {s c : ℝ} (h : Curve x e q a b w t) (h0 : q t ≠ 0) (h1 : Okada.rr (x t) (e t) (q t) + (e t * s - q t * c) ≠ 0) :
    HasDerivAt (fun t => tq s c (x t) (e t) (q t))
      (-(((x t * a + e t * b + q t * w) * Okada.rho (x t) (e t) (q t) + (b * s - w * c)) *
        (tq s c (x t) (e t) (q t) * tq s c (x t) (e t) (q t)))) t := by
  refine (((h.rr h0).fun_add ((h.he.mul_const s).fun_sub (h.hq.mul_const c))).fun_inv h1).congr_deriv ?_
  unfold Okada.tq
  field_simp

theorem Curve.lx (h : Curve x e q a b w t) (h0 : q t ≠ 0) :
    HasDerivAt (fun t => Real.log (Okada.rr (x t) (e t) (q t) + x t))
      (((x t * a + e t * b + q t * w) * Okada.rho (x t) (e t) (q t) + a) * Okada.sg (x t) (e t) (q t)) t :=
  ((h.rr h0).fun_add h.hx).log (sg_pos h0).ne'

theorem Curve.le (h : Curve x e q a b w t) (h0 : q t ≠ 0) :
    HasDerivAt (fun t => Real.log (Okada.rr (x t) (e t) (q t) + e t))
      (((x t * a + e t * b + q t * w) * Okada.rho (x t) (e t) (q t) + b) * Okada.bt (x t) (e t) (q t)) t :=
  ((h.rr h0).fun_add h.he).log (bt_pos h0).ne'

theorem Curve.ld {s c : ℝ} (h : Curve x e q a b w t) (h0 : q t ≠ 0) (h1 : Okada.rr (x t) (e t) (q t) + (e t * s - q t * c) ≠ 0) :
    HasDerivAt (fun t => Real.log (Okada.rr (x t) (e t) (q t) + (e t * s - q t * c)))
      (((x t * a + e t * b + q t * w) * Okada.rho (x t) (e t) (q t) + (b * s - w * c)) * Okada.tq s c (x t) (e t) (q t)) t :=
  ((h.rr h0).fun_add ((h.he.mul_const s).fun_sub (h.hq.mul_const c))).log h1

/-- What the derivative of `tt` adds to the terms that appear in the code; a sum of a function of `xi`, `q` and one of `et`, `q`. -/
noncomputable def ttX (x q a w : ℝ) : ℝ := (q * a - x * w) * (x * x + q * q)⁻¹

theorem Curve.tt (h : Curve x e q a b w t) (h0 : q t ≠ 0) :
    HasDerivAt (fun t => Real.arctan (x t * e t / (q t * Okada.rr (x t) (e t) (q t))))
      (-(q t * Okada.rho (x t) (e t) (q t) * Okada.bt (x t) (e t) (q t)) * a - q t * Okada.rho (x t) (e t) (q t) * Okada.sg (x t) (e t) (q t) * b +
        (x t * Okada.rho (x t) (e t) (q t) * Okada.bt (x t) (e t) (q t) + e t * Okada.rho (x t) (e t) (q t) * Okada.sg (x t) (e t) (q t)) * w +
        (ttX (x t) (q t) a w + ttX (e t) (q t) b w)) t := by
  have hR := (rr_pos (x := x t) (e := e t) h0).ne'
  have hs := (sg_pos (x := x t) (e := e t) h0).ne'
  have hb := (bt_pos (x := x t) (e := e t) h0).ne'
  have hr := rr_rel (x t) (e t) (q t)
  have p1 : x t * x t + q t * q t ≠ 0 := by nlinarith [mul_self_nonneg (x t), mul_self_pos.2 h0]
  have p2 : e t * e t + q t * q t ≠ 0 := by nlinarith [mul_self_nonneg (e t), mul_self_pos.2 h0]
  have := ((h.hx.fun_mul h.he).fun_div (h.hq.fun_mul (h.rr h0)) (mul_ne_zero h0 hR)).arctan
  refine this.congr_deriv ?_
  have e1 : Okada.rho (x t) (e t) (q t) = (Okada.rr (x t) (e t) (q t))⁻¹ := rfl
  rw [e1]
  unfold Okada.sg Okada.bt ttX
  generalize Okada.rr (x t) (e t) (q t) = R at *
  generalize x t = X at *
  generalize e t = E at *
  generalize q t = Q at *
  have key : 1 + (X * E / (Q * R)) ^ 2 = (X * X + Q * Q) * (E * E + Q * Q) / (Q * Q * (R * R)) := by
    field_simp
    linear_combination Q ^ 2 * hr
  rw [key]
  field_simp
  clear this key e1
  grind

end GRT.Okada
