import Verif.Okada.PointSol
import Mathlib.Analysis.Calculus.ContDiff.Operations
import Mathlib.Analysis.SpecialFunctions.Sqrt

/-! Okada's point solutions are smooth away from the source and its image. -/

namespace GRT.Okada

open Spec

variable {E : Type*} [NormedAddCommGroup E] [NormedSpace ℝ E]

/-- All twelve results are smooth. -/
structure SmoothD (F : E → D12) (v : E) : Prop where
  s0 : ContDiffAt ℝ 2 (fun v => (F v).u0) v
  s1 : ContDiffAt ℝ 2 (fun v => (F v).u1) v
  s2 : ContDiffAt ℝ 2 (fun v => (F v).u2) v
  s3 : ContDiffAt ℝ 2 (fun v => (F v).u3) v
  s4 : ContDiffAt ℝ 2 (fun v => (F v).u4) v
  s5 : ContDiffAt ℝ 2 (fun v => (F v).u5) v
  s6 : ContDiffAt ℝ 2 (fun v => (F v).u6) v
  s7 : ContDiffAt ℝ 2 (fun v => (F v).u7) v
  s8 : ContDiffAt ℝ 2 (fun v => (F v).u8) v
  s9 : ContDiffAt ℝ 2 (fun v => (F v).u9) v
  s10 : ContDiffAt ℝ 2 (fun v => (F v).u10) v
  s11 : ContDiffAt ℝ 2 (fun v => (F v).u11) v

/-- Proves smoothness of sums and products. -/
macro "hsmooth" : tactic => `(tactic|
  repeat (with_reducible_and_instances first
    | exact contDiffAt_const
    | assumption
    | apply ContDiffAt.mul
    | apply ContDiffAt.add
    | apply ContDiffAt.sub
    | apply ContDiffAt.neg))

theorem SmoothD.disp {F : E → D12} {v : E} (h : SmoothD F v) (j : Fin 3) : ContDiffAt ℝ 2 (fun v => (F v).disp j) v := by
  fin_cases j
  · exact h.s0
  · exact h.s1
  · exact h.s2

theorem SmoothD.upar {F : E → D12} {v : E} (h : SmoothD F v) (i j : Fin 3) : ContDiffAt ℝ 2 (fun v => (F v).upar i j) v := by
  fin_cases i <;> fin_cases j
  · exact h.s3
  · exact h.s4
  · exact h.s5
  · exact h.s6
  · exact h.s7
  · exact h.s8
  · exact h.s9
  · exact h.s10
  · exact h.s11

theorem SmoothD.add {F G : E → D12} {v : E} (hF : SmoothD F v) (hG : SmoothD G v) (k : ℝ) :
    SmoothD (fun v => (F v).addScaled (G v) k) v := by
  obtain ⟨a0, a1, a2, a3, a4, a5, a6, a7, a8, a9, a10, a11⟩ := hF
  obtain ⟨b0, b1, b2, b3, b4, b5, b6, b7, b8, b9, b10, b11⟩ := hG
  constructor <;> simp only [D12.addScaled] <;> hsmooth

theorem SmoothD.zero (v : E) : SmoothD (fun _ => D12.zero) v := by
  constructor <;> exact contDiffAt_const

theorem SmoothD.real {F : E → D12} {v : E} (hF : SmoothD F v) : SmoothD (fun v => realD (F v)) v := by
  obtain ⟨a0, a1, a2, a3, a4, a5, a6, a7, a8, a9, a10, a11⟩ := hF
  constructor <;> simp only [realD] <;> hsmooth

theorem SmoothD.img {A B C : E → D12} {z : E → ℝ} {v : E} (hA : SmoothD A v) (hB : SmoothD B v) (hC : SmoothD C v)
    (hz : ContDiffAt ℝ 2 z v) : SmoothD (fun v => imgSum (z v) (A v) (B v) (C v)) v := by
  obtain ⟨a0, a1, a2, a3, a4, a5, a6, a7, a8, a9, a10, a11⟩ := hA
  obtain ⟨b0, b1, b2, b3, b4, b5, b6, b7, b8, b9, b10, b11⟩ := hB
  obtain ⟨c0, c1, c2, c3, c4, c5, c6, c7, c8, c9, c10, c11⟩ := hC
  constructor <;> simp only [imgSum] <;> hsmooth

variable {a b d z : E → ℝ} {v : E}

theorem rr_smooth (ha : ContDiffAt ℝ 2 a v) (hb : ContDiffAt ℝ 2 b v) (hd : ContDiffAt ℝ 2 d v)
    (h : a v * a v + b v * b v + d v * d v ≠ 0) : ContDiffAt ℝ 2 (fun v => rr (a v) (b v) (d v)) v :=
  ((((ha.mul ha).add (hb.mul hb)).add (hd.mul hd))).sqrt h

theorem rho_smooth (ha : ContDiffAt ℝ 2 a v) (hb : ContDiffAt ℝ 2 b v) (hd : ContDiffAt ℝ 2 d v)
    (h : a v * a v + b v * b v + d v * d v ≠ 0) : ContDiffAt ℝ 2 (fun v => rho (a v) (b v) (d v)) v :=
  (rr_smooth ha hb hd h).inv (Real.sqrt_ne_zero'.2 (lt_of_le_of_ne
    (by nlinarith [mul_self_nonneg (a v), mul_self_nonneg (b v), mul_self_nonneg (d v)]) h.symm))

theorem tau_smooth (ha : ContDiffAt ℝ 2 a v) (hb : ContDiffAt ℝ 2 b v) (hd : ContDiffAt ℝ 2 d v)
    (h : a v * a v + b v * b v + d v * d v ≠ 0) (h' : rr (a v) (b v) (d v) + d v ≠ 0) :
    ContDiffAt ℝ 2 (fun v => tau (a v) (b v) (d v)) v :=
  ((rr_smooth ha hb hd h).add hd).inv h'

theorem UA0_1_smooth (m : Med) (ha : ContDiffAt ℝ 2 a v) (hb : ContDiffAt ℝ 2 b v) (hd : ContDiffAt ℝ 2 d v)
    (h : a v * a v + b v * b v + d v * d v ≠ 0) : SmoothD (fun v => UA0_1 m (ptOf m (a v) (b v) (d v))) v := by
  have r1 := rr_smooth ha hb hd h
  have r2 := rho_smooth ha hb hd h
  constructor <;> simp only [UA0_1, ptOf, div_eq_mul_inv, mul_inv, rho_sq, rho_def] <;> hsmooth

theorem UA0_2_smooth (m : Med) (ha : ContDiffAt ℝ 2 a v) (hb : ContDiffAt ℝ 2 b v) (hd : ContDiffAt ℝ 2 d v)
    (h : a v * a v + b v * b v + d v * d v ≠ 0) : SmoothD (fun v => UA0_2 m (ptOf m (a v) (b v) (d v))) v := by
  have r1 := rr_smooth ha hb hd h
  have r2 := rho_smooth ha hb hd h
  constructor <;> simp only [UA0_2, ptOf, div_eq_mul_inv, mul_inv, rho_sq, rho_def] <;> hsmooth

theorem UA0_3_smooth (m : Med) (ha : ContDiffAt ℝ 2 a v) (hb : ContDiffAt ℝ 2 b v) (hd : ContDiffAt ℝ 2 d v)
    (h : a v * a v + b v * b v + d v * d v ≠ 0) : SmoothD (fun v => UA0_3 m (ptOf m (a v) (b v) (d v))) v := by
  have r1 := rr_smooth ha hb hd h
  have r2 := rho_smooth ha hb hd h
  constructor <;> simp only [UA0_3, ptOf, div_eq_mul_inv, mul_inv, rho_sq, rho_def] <;> hsmooth

theorem UA0_4_smooth (m : Med) (ha : ContDiffAt ℝ 2 a v) (hb : ContDiffAt ℝ 2 b v) (hd : ContDiffAt ℝ 2 d v)
    (h : a v * a v + b v * b v + d v * d v ≠ 0) : SmoothD (fun v => UA0_4 m (ptOf m (a v) (b v) (d v))) v := by
  have r1 := rr_smooth ha hb hd h
  have r2 := rho_smooth ha hb hd h
  constructor <;> simp only [UA0_4, ptOf, div_eq_mul_inv, mul_inv, rho_sq, rho_def] <;> hsmooth

theorem UB0_1_smooth (m : Med) (ha : ContDiffAt ℝ 2 a v) (hb : ContDiffAt ℝ 2 b v) (hd : ContDiffAt ℝ 2 d v) (hz : ContDiffAt ℝ 2 z v)
    (h : a v * a v + b v * b v + d v * d v ≠ 0) (h' : rr (a v) (b v) (d v) + d v ≠ 0) : SmoothD (fun v => UB0_1 m (ptOf m (a v) (b v) (d v)) (z v)) v := by
  have r1 := rr_smooth ha hb hd h
  have r2 := rho_smooth ha hb hd h
  have r3 := tau_smooth ha hb hd h h'
  constructor <;> simp only [UB0_1, ptOf, div_eq_mul_inv, mul_inv, rho_sq, rho_def] <;> (try simp only [rr_def, tau_def]) <;> hsmooth

theorem UB0_2_smooth (m : Med) (ha : ContDiffAt ℝ 2 a v) (hb : ContDiffAt ℝ 2 b v) (hd : ContDiffAt ℝ 2 d v) (hz : ContDiffAt ℝ 2 z v)
    (h : a v * a v + b v * b v + d v * d v ≠ 0) (h' : rr (a v) (b v) (d v) + d v ≠ 0) : SmoothD (fun v => UB0_2 m (ptOf m (a v) (b v) (d v)) (z v)) v := by
  have r1 := rr_smooth ha hb hd h
  have r2 := rho_smooth ha hb hd h
  have r3 := tau_smooth ha hb hd h h'
  constructor <;> simp only [UB0_2, ptOf, div_eq_mul_inv, mul_inv, rho_sq, rho_def] <;> (try simp only [rr_def, tau_def]) <;> hsmooth

theorem UB0_3_smooth (m : Med) (ha : ContDiffAt ℝ 2 a v) (hb : ContDiffAt ℝ 2 b v) (hd : ContDiffAt ℝ 2 d v) (hz : ContDiffAt ℝ 2 z v)
    (h : a v * a v + b v * b v + d v * d v ≠ 0) (h' : rr (a v) (b v) (d v) + d v ≠ 0) : SmoothD (fun v => UB0_3 m (ptOf m (a v) (b v) (d v)) (z v)) v := by
  have r1 := rr_smooth ha hb hd h
  have r2 := rho_smooth ha hb hd h
  have r3 := tau_smooth ha hb hd h h'
  constructor <;> simp only [UB0_3, ptOf, div_eq_mul_inv, mul_inv, rho_sq, rho_def] <;> (try simp only [rr_def, tau_def]) <;> hsmooth

theorem UB0_4_smooth (m : Med) (ha : ContDiffAt ℝ 2 a v) (hb : ContDiffAt ℝ 2 b v) (hd : ContDiffAt ℝ 2 d v) (hz : ContDiffAt ℝ 2 z v)
    (h : a v * a v + b v * b v + d v * d v ≠ 0) (h' : rr (a v) (b v) (d v) + d v ≠ 0) : SmoothD (fun v => UB0_4 m (ptOf m (a v) (b v) (d v)) (z v)) v := by
  have r1 := rr_smooth ha hb hd h
  have r2 := rho_smooth ha hb hd h
  have r3 := tau_smooth ha hb hd h h'
  constructor <;> simp only [UB0_4, ptOf, div_eq_mul_inv, mul_inv, rho_sq, rho_def] <;> (try simp only [rr_def, tau_def]) <;> hsmooth

theorem UC0_1_smooth (m : Med) (ha : ContDiffAt ℝ 2 a v) (hb : ContDiffAt ℝ 2 b v) (hd : ContDiffAt ℝ 2 d v) (hz : ContDiffAt ℝ 2 z v)
    (h : a v * a v + b v * b v + d v * d v ≠ 0) : SmoothD (fun v => UC0_1 m (ptOf m (a v) (b v) (d v)) (z v)) v := by
  have r1 := rr_smooth ha hb hd h
  have r2 := rho_smooth ha hb hd h
  constructor <;> simp only [UC0_1, ptOf, div_eq_mul_inv, mul_inv, rho_sq, rho_def] <;> hsmooth

theorem UC0_2_smooth (m : Med) (ha : ContDiffAt ℝ 2 a v) (hb : ContDiffAt ℝ 2 b v) (hd : ContDiffAt ℝ 2 d v) (hz : ContDiffAt ℝ 2 z v)
    (h : a v * a v + b v * b v + d v * d v ≠ 0) : SmoothD (fun v => UC0_2 m (ptOf m (a v) (b v) (d v)) (z v)) v := by
  have r1 := rr_smooth ha hb hd h
  have r2 := rho_smooth ha hb hd h
  constructor <;> simp only [UC0_2, ptOf, div_eq_mul_inv, mul_inv, rho_sq, rho_def] <;> hsmooth

theorem UC0_3_smooth (m : Med) (ha : ContDiffAt ℝ 2 a v) (hb : ContDiffAt ℝ 2 b v) (hd : ContDiffAt ℝ 2 d v) (hz : ContDiffAt ℝ 2 z v)
    (h : a v * a v + b v * b v + d v * d v ≠ 0) : SmoothD (fun v => UC0_3 m (ptOf m (a v) (b v) (d v)) (z v)) v := by
  have r1 := rr_smooth ha hb hd h
  have r2 := rho_smooth ha hb hd h
  constructor <;> simp only [UC0_3, ptOf, div_eq_mul_inv, mul_inv, rho_sq, rho_def] <;> hsmooth

theorem UC0_4_smooth (m : Med) (ha : ContDiffAt ℝ 2 a v) (hb : ContDiffAt ℝ 2 b v) (hd : ContDiffAt ℝ 2 d v) (hz : ContDiffAt ℝ 2 z v)
    (h : a v * a v + b v * b v + d v * d v ≠ 0) : SmoothD (fun v => UC0_4 m (ptOf m (a v) (b v) (d v)) (z v)) v := by
  have r1 := rr_smooth ha hb hd h
  have r2 := rho_smooth ha hb hd h
  constructor <;> simp only [UC0_4, ptOf, div_eq_mul_inv, mul_inv, rho_sq, rho_def] <;> hsmooth

end GRT.Okada
