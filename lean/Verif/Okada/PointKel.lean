import Verif.Okada.PointF

/-! The real source of Okada's solution is Kelvin's solution for the moment tensor of the source. -/

namespace GRT.Okada

open Spec

/-- The derivatives of Kelvin's solution. -/
noncomputable def dKel (lam mu : ℝ) (c j k : Fin 3) (p : V3) : ℝ :=
  let ρ := rho (p 0) (p 1) (p 2)
  1 / (8 * Real.pi * mu) *
    ((if c = j then (lam + 3 * mu) / (lam + 2 * mu) * -(p k * (ρ * ρ * ρ)) else 0) + (lam + mu) / (lam + 2 * mu) *
      ((if c = k then p j * (ρ * ρ * ρ) else 0) + (if j = k then p c * (ρ * ρ * ρ) else 0) - 3 * p c * p j * p k * (ρ * ρ * ρ * ρ * ρ)))

theorem kelvin_eq (lam mu : ℝ) (c j : Fin 3) (p : V3) : kelvin lam mu c j p = 1 / (8 * Real.pi * mu) *
    ((if c = j then (lam + 3 * mu) / (lam + 2 * mu) * rho (p 0) (p 1) (p 2) else 0) + (lam + mu) / (lam + 2 * mu) *
      (p c * p j * (rho (p 0) (p 1) (p 2) * rho (p 0) (p 1) (p 2) * rho (p 0) (p 1) (p 2)))) := by
  have e : p 0 ^ 2 + p 1 ^ 2 + p 2 ^ 2 = p 0 * p 0 + p 1 * p 1 + p 2 * p 2 := by ring
  simp only [kelvin, rho, e, div_eq_mul_inv, inv_pow]
  split <;> ring

theorem upd0 (x y z t : ℝ) : Function.update ![x, y, z] 0 t = ![t, y, z] := by
  ext i
  fin_cases i <;> rfl

theorem upd1 (x y z t : ℝ) : Function.update ![x, y, z] 1 t = ![x, t, z] := by
  ext i
  fin_cases i <;> rfl

theorem upd2 (x y z t : ℝ) : Function.update ![x, y, z] 2 t = ![x, y, t] := by
  ext i
  fin_cases i <;> rfl

theorem vec_eq (p : V3) : p = ![p 0, p 1, p 2] := by
  ext i
  fin_cases i <;> rfl

theorem kelvin_der {lam mu : ℝ} {p : V3} (h : p 0 * p 0 + p 1 * p 1 + p 2 * p 2 ≠ 0) (c j k : Fin 3) :
    PartialAt (kelvin lam mu c j) (dKel lam mu c j k p) k p := by
  unfold PartialAt
  simp only [kelvin_eq, dKel]
  generalize 1 / (8 * Real.pi * mu) = A
  generalize (lam + 3 * mu) / (lam + 2 * mu) = B
  generalize (lam + mu) / (lam + 2 * mu) = C
  obtain ⟨x, y, z, rfl⟩ : ∃ x y z, p = ![x, y, z] := ⟨_, _, _, vec_eq p⟩
  have r1 := rho_dx h
  have r2 := rho_dy h
  have r3 := rho_dd h
  have f0 : (![x, y, z] : V3) 0 = x := rfl
  have f1 : (![x, y, z] : V3) 1 = y := rfl
  have f2 : (![x, y, z] : V3) 2 = z := rfl
  simp only [f0, f1, f2] at *
  fin_cases k <;> fin_cases c <;> fin_cases j <;>
    simp only [Fin.zero_eta, Fin.mk_one, Fin.reduceFinMk, upd0, upd1, upd2, Matrix.cons_val_zero, Matrix.cons_val_one, Matrix.cons_val,
      if_true, Fin.isValue, Fin.reduceEq, if_false, zero_ne_one, one_ne_zero] <;>
    (apply HasDerivAt.congr_deriv
     · hderiv
     · ring)

/-- The normal of the fault in okada.c's axes. -/
def nrm (sd cd : ℝ) : V3 := ![0, -sd, cd]

theorem kelvin_1 {lam mu sd cd : ℝ} (tr : sd * sd + cd * cd = 1) (hm : mu ≠ 0) (h2 : lam + 2 * mu ≠ 0) (p : V3)
    (h : p 0 * p 0 + p 1 * p 1 + p 2 * p 2 ≠ 0) (c : Fin 3) : let m := medOf ((lam + mu) / (lam + 2 * mu)) sd cd
    (realD (UA0_1 m (ptOf m (p 0) (p 1) (p 2)))).disp c / (2 * Real.pi) =
      -∑ j, ∑ k, shearMoment mu 1 (nrm sd cd) ![1, 0, 0] j k * dKel lam mu c j k p := by
  have e := rho_rel h
  have e1 := mul_inv_cancel₀ hm
  have e2 := mul_inv_cancel₀ h2
  obtain ⟨x, y, z, rfl⟩ : ∃ x y z, p = ![x, y, z] := ⟨_, _, _, vec_eq p⟩
  have f0 : (![x, y, z] : V3) 0 = x := rfl
  have f1 : (![x, y, z] : V3) 1 = y := rfl
  have f2 : (![x, y, z] : V3) 2 = z := rfl
  simp only [f0, f1, f2] at *
  simp only [realD, UA0_1, ptOf, medOf, div_eq_mul_inv, mul_inv, rho_sq, rho_def, D12.disp, Fin.sum_univ_three, shearMoment, dKel, nrm,
    f0, f1, f2, Matrix.cons_val_zero, Matrix.cons_val_one, Matrix.cons_val, Fin.isValue, Fin.reduceEq, if_true, if_false]
  generalize rho x y z = ρ at *
  generalize Real.pi⁻¹ = P
  generalize mu⁻¹ = M at *
  generalize (lam + 2 * mu)⁻¹ = L at *
  clear h hm h2
  fin_cases c <;>
    simp only [Fin.zero_eta, Fin.mk_one, Fin.reduceFinMk, f0, f1, f2, Matrix.cons_val_zero, Matrix.cons_val_one, Matrix.cons_val,
      if_true, Fin.isValue, Fin.reduceEq, if_false, zero_ne_one, one_ne_zero] <;>
    grind

theorem kelvin_2 {lam mu sd cd : ℝ} (tr : sd * sd + cd * cd = 1) (hm : mu ≠ 0) (h2 : lam + 2 * mu ≠ 0) (p : V3)
    (h : p 0 * p 0 + p 1 * p 1 + p 2 * p 2 ≠ 0) (c : Fin 3) : let m := medOf ((lam + mu) / (lam + 2 * mu)) sd cd
    (realD (UA0_2 m (ptOf m (p 0) (p 1) (p 2)))).disp c / (2 * Real.pi) =
      -∑ j, ∑ k, shearMoment mu 1 (nrm sd cd) ![0, cd, sd] j k * dKel lam mu c j k p := by
  have e := rho_rel h
  have e1 := mul_inv_cancel₀ hm
  have e2 := mul_inv_cancel₀ h2
  obtain ⟨x, y, z, rfl⟩ : ∃ x y z, p = ![x, y, z] := ⟨_, _, _, vec_eq p⟩
  have f0 : (![x, y, z] : V3) 0 = x := rfl
  have f1 : (![x, y, z] : V3) 1 = y := rfl
  have f2 : (![x, y, z] : V3) 2 = z := rfl
  simp only [f0, f1, f2] at *
  simp only [realD, UA0_2, ptOf, medOf, div_eq_mul_inv, mul_inv, rho_sq, rho_def, D12.disp, Fin.sum_univ_three, shearMoment, dKel, nrm,
    f0, f1, f2, Matrix.cons_val_zero, Matrix.cons_val_one, Matrix.cons_val, Fin.isValue, Fin.reduceEq, if_true, if_false]
  generalize rho x y z = ρ at *
  generalize Real.pi⁻¹ = P
  generalize mu⁻¹ = M at *
  generalize (lam + 2 * mu)⁻¹ = L at *
  clear h hm h2
  fin_cases c <;>
    simp only [Fin.zero_eta, Fin.mk_one, Fin.reduceFinMk, f0, f1, f2, Matrix.cons_val_zero, Matrix.cons_val_one, Matrix.cons_val,
      if_true, Fin.isValue, Fin.reduceEq, if_false, zero_ne_one, one_ne_zero] <;>
    grind

theorem kelvin_3 {lam mu sd cd : ℝ} (tr : sd * sd + cd * cd = 1) (hm : mu ≠ 0) (h2 : lam + 2 * mu ≠ 0) (p : V3)
    (h : p 0 * p 0 + p 1 * p 1 + p 2 * p 2 ≠ 0) (c : Fin 3) : let m := medOf ((lam + mu) / (lam + 2 * mu)) sd cd
    (realD (UA0_3 m (ptOf m (p 0) (p 1) (p 2)))).disp c / (2 * Real.pi) =
      -∑ j, ∑ k, openMoment lam mu 1 (nrm sd cd) j k * dKel lam mu c j k p := by
  have e := rho_rel h
  have e1 := mul_inv_cancel₀ hm
  have e2 := mul_inv_cancel₀ h2
  obtain ⟨x, y, z, rfl⟩ : ∃ x y z, p = ![x, y, z] := ⟨_, _, _, vec_eq p⟩
  have f0 : (![x, y, z] : V3) 0 = x := rfl
  have f1 : (![x, y, z] : V3) 1 = y := rfl
  have f2 : (![x, y, z] : V3) 2 = z := rfl
  simp only [f0, f1, f2] at *
  simp only [realD, UA0_3, ptOf, medOf, div_eq_mul_inv, mul_inv, rho_sq, rho_def, D12.disp, Fin.sum_univ_three, openMoment, dKel, nrm,
    f0, f1, f2, Matrix.cons_val_zero, Matrix.cons_val_one, Matrix.cons_val, Fin.isValue, Fin.reduceEq, if_true, if_false]
  generalize rho x y z = ρ at *
  generalize Real.pi⁻¹ = P
  generalize mu⁻¹ = M at *
  generalize (lam + 2 * mu)⁻¹ = L at *
  clear h hm h2
  fin_cases c <;>
    simp only [Fin.zero_eta, Fin.mk_one, Fin.reduceFinMk, f0, f1, f2, Matrix.cons_val_zero, Matrix.cons_val_one, Matrix.cons_val,
      if_true, Fin.isValue, Fin.reduceEq, if_false, zero_ne_one, one_ne_zero] <;>
    grind

theorem kelvin_4 {lam mu sd cd : ℝ} (tr : sd * sd + cd * cd = 1) (hm : mu ≠ 0) (h2 : lam + 2 * mu ≠ 0) (p : V3)
    (h : p 0 * p 0 + p 1 * p 1 + p 2 * p 2 ≠ 0) (c : Fin 3) : let m := medOf ((lam + mu) / (lam + 2 * mu)) sd cd
    (realD (UA0_4 m (ptOf m (p 0) (p 1) (p 2)))).disp c / (2 * Real.pi) =
      -∑ j, ∑ k, isoMoment mu j k * dKel lam mu c j k p := by
  have e := rho_rel h
  have e1 := mul_inv_cancel₀ hm
  have e2 := mul_inv_cancel₀ h2
  obtain ⟨x, y, z, rfl⟩ : ∃ x y z, p = ![x, y, z] := ⟨_, _, _, vec_eq p⟩
  have f0 : (![x, y, z] : V3) 0 = x := rfl
  have f1 : (![x, y, z] : V3) 1 = y := rfl
  have f2 : (![x, y, z] : V3) 2 = z := rfl
  simp only [f0, f1, f2] at *
  simp only [realD, UA0_4, ptOf, medOf, div_eq_mul_inv, mul_inv, rho_sq, rho_def, D12.disp, Fin.sum_univ_three, isoMoment, dKel, nrm,
    f0, f1, f2, Matrix.cons_val_zero, Matrix.cons_val_one, Matrix.cons_val, Fin.isValue, Fin.reduceEq, if_true, if_false]
  generalize rho x y z = ρ at *
  generalize Real.pi⁻¹ = P
  generalize mu⁻¹ = M at *
  generalize (lam + 2 * mu)⁻¹ = L at *
  clear h hm h2
  fin_cases c <;>
    simp only [Fin.zero_eta, Fin.mk_one, Fin.reduceFinMk, f0, f1, f2, Matrix.cons_val_zero, Matrix.cons_val_one, Matrix.cons_val,
      if_true, Fin.isValue, Fin.reduceEq, if_false, zero_ne_one, one_ne_zero] <;>
    grind

end GRT.Okada
