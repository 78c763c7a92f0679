import Verif.Okada.Point
import Mathlib.Analysis.Calculus.Deriv.Add
import Mathlib.Analysis.Calculus.Deriv.Mul
import Mathlib.Analysis.Calculus.Deriv.Pow
import Mathlib.Analysis.Calculus.Deriv.Inv
import Mathlib.Tactic.FieldSimp
import Mathlib.Tactic.LinearCombination
import Mathlib.Tactic.Positivity

/-! The last nine results of `UA0`, `UB0` and `UC0` are the derivatives of the first three. -/

namespace GRT.Okada

/-- One over the distance. -/
noncomputable def rho (x y d : ℝ) : ℝ := (√(x * x + y * y + d * d))⁻¹

/-- The distance. -/
noncomputable def rr (x y d : ℝ) : ℝ := √(x * x + y * y + d * d)

/-- One over `r + d`. -/
noncomputable def tau (x y d : ℝ) : ℝ := (rr x y d + d)⁻¹

theorem rho_def (x y d : ℝ) : (√(x * x + y * y + d * d))⁻¹ = rho x y d := rfl

theorem rho_sq (x y d : ℝ) : (x * x + y * y + d * d)⁻¹ = rho x y d * rho x y d := by
  rw [rho, ← mul_inv, Real.mul_self_sqrt (by nlinarith [mul_self_nonneg x, mul_self_nonneg y, mul_self_nonneg d])]

theorem rho_rel {x y d : ℝ} (h : x * x + y * y + d * d ≠ 0) : rho x y d * rho x y d * (x * x + y * y + d * d) = 1 := by
  rw [← rho_sq, inv_mul_cancel₀ h]

theorem rho_dx {x y d : ℝ} (h : x * x + y * y + d * d ≠ 0) :
    HasDerivAt (fun x => rho x y d) (-(x * (rho x y d * rho x y d * rho x y d))) x := by
  have p : 0 < x * x + y * y + d * d := lt_of_le_of_ne (by nlinarith [mul_self_nonneg x, mul_self_nonneg y, mul_self_nonneg d]) h.symm
  have h1 : HasDerivAt (fun x => x * x + y * y + d * d) (2 * x) x :=
    (((hasDerivAt_id' x).fun_mul (hasDerivAt_id' x)).add_const _ |>.add_const _).congr_deriv (by ring)
  have h2 := (h1.sqrt h).fun_inv (Real.sqrt_ne_zero'.2 p)
  refine h2.congr_deriv ?_
  have s := Real.sqrt_ne_zero'.2 p
  unfold rho
  field_simp

theorem rho_dy {x y d : ℝ} (h : x * x + y * y + d * d ≠ 0) :
    HasDerivAt (fun y => rho x y d) (-(y * (rho x y d * rho x y d * rho x y d))) y := by
  have e : ∀ y, rho x y d = rho y x d := fun y => by unfold rho; rw [add_comm (x * x)]
  simp only [e]
  exact rho_dx (by rwa [add_comm (y * y)])

theorem rho_dd {x y d : ℝ} (h : x * x + y * y + d * d ≠ 0) :
    HasDerivAt (fun d => rho x y d) (-(d * (rho x y d * rho x y d * rho x y d))) d := by
  have e : ∀ d, rho x y d = rho d y x := fun d => by unfold rho; congr 2; ring
  simp only [e]
  exact rho_dx (by contrapose! h; linear_combination h)

/-- Differentiates sums and products. -/
macro "hderiv" : tactic => `(tactic|
  repeat (with_reducible first
    | exact hasDerivAt_const _ _
    | exact hasDerivAt_id' _
    | assumption
    | apply HasDerivAt.fun_mul
    | apply HasDerivAt.fun_add
    | apply HasDerivAt.fun_sub
    | apply HasDerivAt.fun_neg))

theorem rr_def (x y d : ℝ) : √(x * x + y * y + d * d) = rr x y d := rfl

theorem tau_def (x y d : ℝ) : (rr x y d + d)⁻¹ = tau x y d := rfl

theorem rr_dx {x y d : ℝ} (h : x * x + y * y + d * d ≠ 0) : HasDerivAt (fun x => rr x y d) (x * rho x y d) x := by
  have h1 : HasDerivAt (fun x => x * x + y * y + d * d) (2 * x) x :=
    (((hasDerivAt_id' x).fun_mul (hasDerivAt_id' x)).add_const _ |>.add_const _).congr_deriv (by ring)
  refine (h1.sqrt h).congr_deriv ?_
  unfold rho
  ring

theorem rr_dy {x y d : ℝ} (h : x * x + y * y + d * d ≠ 0) : HasDerivAt (fun y => rr x y d) (y * rho x y d) y := by
  have e : ∀ y, rr x y d = rr y x d := fun y => by unfold rr; rw [add_comm (x * x)]
  have e' : ∀ y, rho x y d = rho y x d := fun y => by unfold rho; rw [add_comm (x * x)]
  simp only [e, e']
  exact rr_dx (by rwa [add_comm (y * y)])

theorem rr_dd {x y d : ℝ} (h : x * x + y * y + d * d ≠ 0) : HasDerivAt (fun d => rr x y d) (d * rho x y d) d := by
  have e : ∀ d, rr x y d = rr d y x := fun d => by unfold rr; congr 1; ring
  have e' : ∀ d, rho x y d = rho d y x := fun d => by unfold rho; congr 2; ring
  simp only [e, e']
  exact rr_dx (by contrapose! h; linear_combination h)

theorem tau_dx {x y d : ℝ} (h : x * x + y * y + d * d ≠ 0) (h' : rr x y d + d ≠ 0) :
    HasDerivAt (fun x => tau x y d) (-(x * rho x y d * (tau x y d * tau x y d))) x := by
  refine (((rr_dx h).add_const d).fun_inv h').congr_deriv ?_
  unfold tau
  field_simp

theorem tau_dy {x y d : ℝ} (h : x * x + y * y + d * d ≠ 0) (h' : rr x y d + d ≠ 0) :
    HasDerivAt (fun y => tau x y d) (-(y * rho x y d * (tau x y d * tau x y d))) y := by
  refine (((rr_dy h).add_const d).fun_inv h').congr_deriv ?_
  unfold tau
  field_simp

theorem rr_rho {x y d : ℝ} (h : x * x + y * y + d * d ≠ 0) : rr x y d * rho x y d = 1 := by
  have p : 0 < x * x + y * y + d * d := lt_of_le_of_ne
    (by nlinarith [mul_self_nonneg x, mul_self_nonneg y, mul_self_nonneg d]) h.symm
  exact mul_inv_cancel₀ (Real.sqrt_ne_zero'.2 p)

theorem tau_dd {x y d : ℝ} (h : x * x + y * y + d * d ≠ 0) (h' : rr x y d + d ≠ 0) :
    HasDerivAt (fun d => tau x y d) (-(rho x y d * tau x y d)) d := by
  refine (((rr_dd h).fun_add (hasDerivAt_id' d)).fun_inv h').congr_deriv ?_
  have e := rr_rho h
  unfold tau
  field_simp
  linear_combination e

theorem rr_rel (x y d : ℝ) : rr x y d * rr x y d = x * x + y * y + d * d :=
  Real.mul_self_sqrt (by nlinarith [mul_self_nonneg x, mul_self_nonneg y, mul_self_nonneg d])

theorem tau_rel {x y d : ℝ} (h' : rr x y d + d ≠ 0) : tau x y d * (rr x y d + d) = 1 := inv_mul_cancel₀ h'

/-- Proves the identities between the derivative and the code's expression. -/
macro "alg_id" : tactic => `(tactic| (
  try simp only [neg_neg]
  generalize rho _ _ _ = ρ at *
  generalize tau _ _ _ = τ at *
  generalize rr _ _ _ = r at *
  grind))

/-- The last nine results are the derivatives of the first three, along `x`, `y` and, at fixed `d + z = cc`, against `d`. -/
def IsDer (U : Pt → ℝ → D12) (m : Med) : Prop :=
  ∀ cc x y d : ℝ, x * x + y * y + d * d ≠ 0 → rr x y d + d ≠ 0 →
    (HasDerivAt (fun x => (U (ptOf m x y d) (cc - d)).u0) (U (ptOf m x y d) (cc - d)).u3 x ∧
      HasDerivAt (fun x => (U (ptOf m x y d) (cc - d)).u1) (U (ptOf m x y d) (cc - d)).u4 x ∧
      HasDerivAt (fun x => (U (ptOf m x y d) (cc - d)).u2) (U (ptOf m x y d) (cc - d)).u5 x) ∧
    (HasDerivAt (fun y => (U (ptOf m x y d) (cc - d)).u0) (U (ptOf m x y d) (cc - d)).u6 y ∧
      HasDerivAt (fun y => (U (ptOf m x y d) (cc - d)).u1) (U (ptOf m x y d) (cc - d)).u7 y ∧
      HasDerivAt (fun y => (U (ptOf m x y d) (cc - d)).u2) (U (ptOf m x y d) (cc - d)).u8 y) ∧
    (HasDerivAt (fun d => (U (ptOf m x y d) (cc - d)).u0) (-(U (ptOf m x y d) (cc - d)).u9) d ∧
      HasDerivAt (fun d => (U (ptOf m x y d) (cc - d)).u1) (-(U (ptOf m x y d) (cc - d)).u10) d ∧
      HasDerivAt (fun d => (U (ptOf m x y d) (cc - d)).u2) (-(U (ptOf m x y d) (cc - d)).u11) d)

theorem UA0_1_der' {al sd cd : ℝ} (tr : sd * sd + cd * cd = 1) (x y d : ℝ) (h : x * x + y * y + d * d ≠ 0) :
    let m := medOf al sd cd
    let F := fun x y d => UA0_1 m (ptOf m x y d)
    (HasDerivAt (fun x => (F x y d).u0) (F x y d).u3 x ∧ HasDerivAt (fun x => (F x y d).u1) (F x y d).u4 x ∧
      HasDerivAt (fun x => (F x y d).u2) (F x y d).u5 x) ∧
    (HasDerivAt (fun y => (F x y d).u0) (F x y d).u6 y ∧ HasDerivAt (fun y => (F x y d).u1) (F x y d).u7 y ∧
      HasDerivAt (fun y => (F x y d).u2) (F x y d).u8 y) ∧
    (HasDerivAt (fun d => (F x y d).u0) (-(F x y d).u9) d ∧ HasDerivAt (fun d => (F x y d).u1) (-(F x y d).u10) d ∧
      HasDerivAt (fun d => (F x y d).u2) (-(F x y d).u11) d) := by
  simp only [UA0_1, ptOf, medOf, div_eq_mul_inv, mul_inv, rho_sq, rho_def]
  have e := rho_rel h
  have r1 := rho_dx h
  have r2 := rho_dy h
  have r3 := rho_dd h
  refine ⟨⟨?_, ?_, ?_⟩, ⟨?_, ?_, ?_⟩, ?_, ?_, ?_⟩ <;>
  · apply HasDerivAt.congr_deriv
    · hderiv
    · clear r1 r2 r3 h
      alg_id

theorem UA0_2_der' {al sd cd : ℝ} (tr : sd * sd + cd * cd = 1) (x y d : ℝ) (h : x * x + y * y + d * d ≠ 0) :
    let m := medOf al sd cd
    let F := fun x y d => UA0_2 m (ptOf m x y d)
    (HasDerivAt (fun x => (F x y d).u0) (F x y d).u3 x ∧ HasDerivAt (fun x => (F x y d).u1) (F x y d).u4 x ∧
      HasDerivAt (fun x => (F x y d).u2) (F x y d).u5 x) ∧
    (HasDerivAt (fun y => (F x y d).u0) (F x y d).u6 y ∧ HasDerivAt (fun y => (F x y d).u1) (F x y d).u7 y ∧
      HasDerivAt (fun y => (F x y d).u2) (F x y d).u8 y) ∧
    (HasDerivAt (fun d => (F x y d).u0) (-(F x y d).u9) d ∧ HasDerivAt (fun d => (F x y d).u1) (-(F x y d).u10) d ∧
      HasDerivAt (fun d => (F x y d).u2) (-(F x y d).u11) d) := by
  simp only [UA0_2, ptOf, medOf, div_eq_mul_inv, mul_inv, rho_sq, rho_def]
  have e := rho_rel h
  have r1 := rho_dx h
  have r2 := rho_dy h
  have r3 := rho_dd h
  refine ⟨⟨?_, ?_, ?_⟩, ⟨?_, ?_, ?_⟩, ?_, ?_, ?_⟩ <;>
  · apply HasDerivAt.congr_deriv
    · hderiv
    · clear r1 r2 r3 h
      alg_id

theorem UA0_3_der' {al sd cd : ℝ} (tr : sd * sd + cd * cd = 1) (x y d : ℝ) (h : x * x + y * y + d * d ≠ 0) :
    let m := medOf al sd cd
    let F := fun x y d => UA0_3 m (ptOf m x y d)
    (HasDerivAt (fun x => (F x y d).u0) (F x y d).u3 x ∧ HasDerivAt (fun x => (F x y d).u1) (F x y d).u4 x ∧
      HasDerivAt (fun x => (F x y d).u2) (F x y d).u5 x) ∧
    (HasDerivAt (fun y => (F x y d).u0) (F x y d).u6 y ∧ HasDerivAt (fun y => (F x y d).u1) (F x y d).u7 y ∧
      HasDerivAt (fun y => (F x y d).u2) (F x y d).u8 y) ∧
    (HasDerivAt (fun d => (F x y d).u0) (-(F x y d).u9) d ∧ HasDerivAt (fun d => (F x y d).u1) (-(F x y d).u10) d ∧
      HasDerivAt (fun d => (F x y d).u2) (-(F x y d).u11) d) := by
  simp only [UA0_3, ptOf, medOf, div_eq_mul_inv, mul_inv, rho_sq, rho_def]
  have e := rho_rel h
  have r1 := rho_dx h
  have r2 := rho_dy h
  have r3 := rho_dd h
  refine ⟨⟨?_, ?_, ?_⟩, ⟨?_, ?_, ?_⟩, ?_, ?_, ?_⟩ <;>
  · apply HasDerivAt.congr_deriv
    · hderiv
    · clear r1 r2 r3 h
      alg_id

theorem UA0_4_der' {al sd cd : ℝ} (tr : sd * sd + cd * cd = 1) (x y d : ℝ) (h : x * x + y * y + d * d ≠ 0) :
    let m := medOf al sd cd
    let F := fun x y d => UA0_4 m (ptOf m x y d)
    (HasDerivAt (fun x => (F x y d).u0) (F x y d).u3 x ∧ HasDerivAt (fun x => (F x y d).u1) (F x y d).u4 x ∧
      HasDerivAt (fun x => (F x y d).u2) (F x y d).u5 x) ∧
    (HasDerivAt (fun y => (F x y d).u0) (F x y d).u6 y ∧ HasDerivAt (fun y => (F x y d).u1) (F x y d).u7 y ∧
      HasDerivAt (fun y => (F x y d).u2) (F x y d).u8 y) ∧
    (HasDerivAt (fun d => (F x y d).u0) (-(F x y d).u9) d ∧ HasDerivAt (fun d => (F x y d).u1) (-(F x y d).u10) d ∧
      HasDerivAt (fun d => (F x y d).u2) (-(F x y d).u11) d) := by
  simp only [UA0_4, ptOf, medOf, div_eq_mul_inv, mul_inv, rho_sq, rho_def]
  have e := rho_rel h
  have r1 := rho_dx h
  have r2 := rho_dy h
  have r3 := rho_dd h
  refine ⟨⟨?_, ?_, ?_⟩, ⟨?_, ?_, ?_⟩, ?_, ?_, ?_⟩ <;>
  · apply HasDerivAt.congr_deriv
    · hderiv
    · clear r1 r2 r3 h
      alg_id

theorem UB0_1_der {al sd cd : ℝ} (tr : sd * sd + cd * cd = 1) : IsDer (fun p z => UB0_1 (medOf al sd cd) p z) (medOf al sd cd) := by
  intro cc x y d h h'
  simp only [UB0_1, ptOf, medOf, div_eq_mul_inv, mul_inv, rho_sq, rho_def, add_sub_cancel]
  try simp only [rr_def, tau_def]
  have e := rho_rel h
  have e1 := rr_rho h
  have e2 := rr_rel x y d
  have e3 := tau_rel h'
  refine ⟨?_, ?_, ?_⟩
  · have r := rho_dx h
    have s := rr_dx h
    have t := tau_dx h h'
    refine ⟨?_, ?_, ?_⟩ <;>
    · apply HasDerivAt.congr_deriv
      · hderiv
      · clear r s t h h'
        alg_id
  · have r := rho_dy h
    have s := rr_dy h
    have t := tau_dy h h'
    refine ⟨?_, ?_, ?_⟩ <;>
    · apply HasDerivAt.congr_deriv
      · hderiv
      · clear r s t h h'
        alg_id
  · have r := rho_dd h
    have s := rr_dd h
    have t := tau_dd h h'
    refine ⟨?_, ?_, ?_⟩ <;>
    · apply HasDerivAt.congr_deriv
      · hderiv
      · clear r s t h h'
        alg_id

theorem UB0_2_der {al sd cd : ℝ} (tr : sd * sd + cd * cd = 1) : IsDer (fun p z => UB0_2 (medOf al sd cd) p z) (medOf al sd cd) := by
  intro cc x y d h h'
  simp only [UB0_2, ptOf, medOf, div_eq_mul_inv, mul_inv, rho_sq, rho_def, add_sub_cancel]
  try simp only [rr_def, tau_def]
  have e := rho_rel h
  have e1 := rr_rho h
  have e2 := rr_rel x y d
  have e3 := tau_rel h'
  refine ⟨?_, ?_, ?_⟩
  · have r := rho_dx h
    have s := rr_dx h
    have t := tau_dx h h'
    refine ⟨?_, ?_, ?_⟩ <;>
    · apply HasDerivAt.congr_deriv
      · hderiv
      · clear r s t h h'
        alg_id
  · have r := rho_dy h
    have s := rr_dy h
    have t := tau_dy h h'
    refine ⟨?_, ?_, ?_⟩ <;>
    · apply HasDerivAt.congr_deriv
      · hderiv
      · clear r s t h h'
        alg_id
  · have r := rho_dd h
    have s := rr_dd h
    have t := tau_dd h h'
    refine ⟨?_, ?_, ?_⟩ <;>
    · apply HasDerivAt.congr_deriv
      · hderiv
      · clear r s t h h'
        alg_id

theorem UB0_3_der {al sd cd : ℝ} (tr : sd * sd + cd * cd = 1) : IsDer (fun p z => UB0_3 (medOf al sd cd) p z) (medOf al sd cd) := by
  intro cc x y d h h'
  simp only [UB0_3, ptOf, medOf, div_eq_mul_inv, mul_inv, rho_sq, rho_def, add_sub_cancel]
  try simp only [rr_def, tau_def]
  have e := rho_rel h
  have e1 := rr_rho h
  have e2 := rr_rel x y d
  have e3 := tau_rel h'
  refine ⟨?_, ?_, ?_⟩
  · have r := rho_dx h
    have s := rr_dx h
    have t := tau_dx h h'
    refine ⟨?_, ?_, ?_⟩ <;>
    · apply HasDerivAt.congr_deriv
      · hderiv
      · clear r s t h h'
        alg_id
  · have r := rho_dy h
    have s := rr_dy h
    have t := tau_dy h h'
    refine ⟨?_, ?_, ?_⟩ <;>
    · apply HasDerivAt.congr_deriv
      · hderiv
      · clear r s t h h'
        alg_id
  · have r := rho_dd h
    have s := rr_dd h
    have t := tau_dd h h'
    refine ⟨?_, ?_, ?_⟩ <;>
    · apply HasDerivAt.congr_deriv
      · hderiv
      · clear r s t h h'
        alg_id

theorem UB0_4_der {al sd cd : ℝ} (tr : sd * sd + cd * cd = 1) : IsDer (fun p z => UB0_4 (medOf al sd cd) p z) (medOf al sd cd) := by
  intro cc x y d h h'
  simp only [UB0_4, ptOf, medOf, div_eq_mul_inv, mul_inv, rho_sq, rho_def, add_sub_cancel]
  try simp only [rr_def, tau_def]
  have e := rho_rel h
  have e1 := rr_rho h
  have e2 := rr_rel x y d
  have e3 := tau_rel h'
  refine ⟨?_, ?_, ?_⟩
  · have r := rho_dx h
    have s := rr_dx h
    have t := tau_dx h h'
    refine ⟨?_, ?_, ?_⟩ <;>
    · apply HasDerivAt.congr_deriv
      · hderiv
      · clear r s t h h'
        alg_id
  · have r := rho_dy h
    have s := rr_dy h
    have t := tau_dy h h'
    refine ⟨?_, ?_, ?_⟩ <;>
    · apply HasDerivAt.congr_deriv
      · hderiv
      · clear r s t h h'
        alg_id
  · have r := rho_dd h
    have s := rr_dd h
    have t := tau_dd h h'
    refine ⟨?_, ?_, ?_⟩ <;>
    · apply HasDerivAt.congr_deriv
      · hderiv
      · clear r s t h h'
        alg_id

theorem UC0_1_der {al sd cd : ℝ} (tr : sd * sd + cd * cd = 1) : IsDer (fun p z => UC0_1 (medOf al sd cd) p z) (medOf al sd cd) := by
  intro cc x y d h h'
  simp only [UC0_1, ptOf, medOf, div_eq_mul_inv, mul_inv, rho_sq, rho_def, add_sub_cancel]
  try simp only [rr_def, tau_def]
  have e := rho_rel h
  have e1 := rr_rho h
  have e2 := rr_rel x y d
  have e3 := tau_rel h'
  refine ⟨?_, ?_, ?_⟩
  · have r := rho_dx h
    have s := rr_dx h
    have t := tau_dx h h'
    refine ⟨?_, ?_, ?_⟩ <;>
    · apply HasDerivAt.congr_deriv
      · hderiv
      · clear r s t h h'
        alg_id
  · have r := rho_dy h
    have s := rr_dy h
    have t := tau_dy h h'
    refine ⟨?_, ?_, ?_⟩ <;>
    · apply HasDerivAt.congr_deriv
      · hderiv
      · clear r s t h h'
        alg_id
  · have r := rho_dd h
    have s := rr_dd h
    have t := tau_dd h h'
    refine ⟨?_, ?_, ?_⟩ <;>
    · apply HasDerivAt.congr_deriv
      · hderiv
      · clear r s t h h'
        alg_id

theorem UC0_2_der {al sd cd : ℝ} (tr : sd * sd + cd * cd = 1) : IsDer (fun p z => UC0_2 (medOf al sd cd) p z) (medOf al sd cd) := by
  intro cc x y d h h'
  simp only [UC0_2, ptOf, medOf, div_eq_mul_inv, mul_inv, rho_sq, rho_def, add_sub_cancel]
  try simp only [rr_def, tau_def]
  have e := rho_rel h
  have e1 := rr_rho h
  have e2 := rr_rel x y d
  have e3 := tau_rel h'
  refine ⟨?_, ?_, ?_⟩
  · have r := rho_dx h
    have s := rr_dx h
    have t := tau_dx h h'
    refine ⟨?_, ?_, ?_⟩ <;>
    · apply HasDerivAt.congr_deriv
      · hderiv
      · clear r s t h h'
        alg_id
  · have r := rho_dy h
    have s := rr_dy h
    have t := tau_dy h h'
    refine ⟨?_, ?_, ?_⟩ <;>
    · apply HasDerivAt.congr_deriv
      · hderiv
      · clear r s t h h'
        alg_id
  · have r := rho_dd h
    have s := rr_dd h
    have t := tau_dd h h'
    refine ⟨?_, ?_, ?_⟩ <;>
    · apply HasDerivAt.congr_deriv
      · hderiv
      · clear r s t h h'
        alg_id

theorem UC0_3_der {al sd cd : ℝ} (tr : sd * sd + cd * cd = 1) : IsDer (fun p z => UC0_3 (medOf al sd cd) p z) (medOf al sd cd) := by
  intro cc x y d h h'
  simp only [UC0_3, ptOf, medOf, div_eq_mul_inv, mul_inv, rho_sq, rho_def, add_sub_cancel]
  try simp only [rr_def, tau_def]
  have e := rho_rel h
  have e1 := rr_rho h
  have e2 := rr_rel x y d
  have e3 := tau_rel h'
  refine ⟨?_, ?_, ?_⟩
  · have r := rho_dx h
    have s := rr_dx h
    have t := tau_dx h h'
    refine ⟨?_, ?_, ?_⟩ <;>
    · apply HasDerivAt.congr_deriv
      · hderiv
      · clear r s t h h'
        alg_id
  · have r := rho_dy h
    have s := rr_dy h
    have t := tau_dy h h'
    refine ⟨?_, ?_, ?_⟩ <;>
    · apply HasDerivAt.congr_deriv
      · hderiv
      · clear r s t h h'
        alg_id
  · have r := rho_dd h
    have s := rr_dd h
    have t := tau_dd h h'
    refine ⟨?_, ?_, ?_⟩ <;>
    · apply HasDerivAt.congr_deriv
      · hderiv
      · clear r s t h h'
        alg_id

theorem UC0_4_der {al sd cd : ℝ} (tr : sd * sd + cd * cd = 1) : IsDer (fun p z => UC0_4 (medOf al sd cd) p z) (medOf al sd cd) := by
  intro cc x y d h h'
  simp only [UC0_4, ptOf, medOf, div_eq_mul_inv, mul_inv, rho_sq, rho_def, add_sub_cancel]
  try simp only [rr_def, tau_def]
  have e := rho_rel h
  have e1 := rr_rho h
  have e2 := rr_rel x y d
  have e3 := tau_rel h'
  refine ⟨?_, ?_, ?_⟩
  · have r := rho_dx h
    have s := rr_dx h
    have t := tau_dx h h'
    refine ⟨?_, ?_, ?_⟩ <;>
    · apply HasDerivAt.congr_deriv
      · hderiv
      · clear r s t h h'
        alg_id
  · have r := rho_dy h
    have s := rr_dy h
    have t := tau_dy h h'
    refine ⟨?_, ?_, ?_⟩ <;>
    · apply HasDerivAt.congr_deriv
      · hderiv
      · clear r s t h h'
        alg_id
  · have r := rho_dd h
    have s := rr_dd h
    have t := tau_dd h h'
    refine ⟨?_, ?_, ?_⟩ <;>
    · apply HasDerivAt.congr_deriv
      · hderiv
      · clear r s t h h'
        alg_id

end GRT.Okada
