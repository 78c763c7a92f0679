import Verif.Okada.PointFld

/-! Okada's point source is the response of the half-space to the moment tensor of the source. -/

namespace GRT.Okada

open Spec

theorem D12.zero_grad (p : V3) : GradD (fun _ => D12.zero) p := by
  intro i c
  have e1 : D12.zero.disp c = 0 := by fin_cases c <;> rfl
  have e2 : D12.zero.upar i c = 0 := by fin_cases i <;> fin_cases c <;> rfl
  simp only [e2]
  exact hasDerivAt_const _ _

theorem D12.zero_eq (lam mu : ℝ) (p : V3) : EqD lam mu (fun _ => D12.zero) p :=
  fun c => ⟨fun j => 0, fun j => hasDerivAt_const _ _, by simp⟩

/-- All real sources. -/
noncomputable def realT (al sd cd dep pot1 pot2 pot3 pot4 : ℝ) (q : V3) : D12 :=
  (((D12.zero.addScaled (realF_1 al sd cd dep q) (pot1 / (2 * Real.pi))).addScaled (realF_2 al sd cd dep q) (pot2 / (2 * Real.pi))).addScaled
    (realF_3 al sd cd dep q) (pot3 / (2 * Real.pi))).addScaled (realF_4 al sd cd dep q) (pot4 / (2 * Real.pi))

/-- All image sources. -/
noncomputable def imgT (al sd cd dep pot1 pot2 pot3 pot4 : ℝ) (q : V3) : D12 :=
  (((D12.zero.addScaled (imgF_1 al sd cd dep q) (pot1 / (2 * Real.pi))).addScaled (imgF_2 al sd cd dep q) (pot2 / (2 * Real.pi))).addScaled
    (imgF_3 al sd cd dep q) (pot3 / (2 * Real.pi))).addScaled (imgF_4 al sd cd dep q) (pot4 / (2 * Real.pi))

theorem UA0_sum (c : Med) (p : Pt) (pot1 pot2 pot3 pot4 : ℝ) : UA0 c p pot1 pot2 pot3 pot4 =
    (((D12.zero.addScaled (UA0_1 c p) (pot1 / (2 * Real.pi))).addScaled (UA0_2 c p) (pot2 / (2 * Real.pi))).addScaled
      (UA0_3 c p) (pot3 / (2 * Real.pi))).addScaled (UA0_4 c p) (pot4 / (2 * Real.pi)) := by
  have z : ∀ (u du : D12) (pot : ℝ), (if pot ≠ 0 then u.addScaled du (pot / (2 * Real.pi)) else u) = u.addScaled du (pot / (2 * Real.pi)) := by
    intro u du pot
    split
    · rfl
    · rename_i h
      rw [not_not.1 h]
      simp [D12.addScaled]
  simp only [UA0, z]

theorem UB0_sum (c : Med) (p : Pt) (z : ℝ) (pot1 pot2 pot3 pot4 : ℝ) : UB0 c p z pot1 pot2 pot3 pot4 =
    (((D12.zero.addScaled (UB0_1 c p z) (pot1 / (2 * Real.pi))).addScaled (UB0_2 c p z) (pot2 / (2 * Real.pi))).addScaled
      (UB0_3 c p z) (pot3 / (2 * Real.pi))).addScaled (UB0_4 c p z) (pot4 / (2 * Real.pi)) := by
  have z : ∀ (u du : D12) (pot : ℝ), (if pot ≠ 0 then u.addScaled du (pot / (2 * Real.pi)) else u) = u.addScaled du (pot / (2 * Real.pi)) := by
    intro u du pot
    split
    · rfl
    · rename_i h
      rw [not_not.1 h]
      simp [D12.addScaled]
  simp only [UB0, z]

theorem UC0_sum (c : Med) (p : Pt) (z : ℝ) (pot1 pot2 pot3 pot4 : ℝ) : UC0 c p z pot1 pot2 pot3 pot4 =
    (((D12.zero.addScaled (UC0_1 c p z) (pot1 / (2 * Real.pi))).addScaled (UC0_2 c p z) (pot2 / (2 * Real.pi))).addScaled
      (UC0_3 c p z) (pot3 / (2 * Real.pi))).addScaled (UC0_4 c p z) (pot4 / (2 * Real.pi)) := by
  have z : ∀ (u du : D12) (pot : ℝ), (if pot ≠ 0 then u.addScaled du (pot / (2 * Real.pi)) else u) = u.addScaled du (pot / (2 * Real.pi)) := by
    intro u du pot
    split
    · rfl
    · rename_i h
      rw [not_not.1 h]
      simp [D12.addScaled]
  simp only [UC0, z]

theorem sum_eq (al sd cd dep pot1 pot2 pot3 pot4 : ℝ) (q : V3) :
    dc3d0Sum (medOf al sd cd) (ptOf (medOf al sd cd) (q 0) (q 1) (dep + q 2)) (ptOf (medOf al sd cd) (q 0) (q 1) (dep - q 2)) (q 2)
      pot1 pot2 pot3 pot4 =
    (realT al sd cd dep pot1 pot2 pot3 pot4 q).addScaled (imgT al sd cd dep pot1 pot2 pot3 pot4 q) 1 := by
  simp only [dc3d0Sum, UA0_sum, UB0_sum, UC0_sum, realT, imgT, realF_1, realF_2, realF_3, realF_4, imgF_1, imgF_2, imgF_3, imgF_4]
  generalize ptOf (medOf al sd cd) (q 0) (q 1) (dep + q 2) = P
  generalize ptOf (medOf al sd cd) (q 0) (q 1) (dep - q 2) = Q
  generalize medOf al sd cd = m
  generalize UA0_1 m P = a1
  generalize UA0_1 m Q = b1
  generalize UB0_1 m Q (q 2) = c1
  generalize UC0_1 m Q (q 2) = d1
  generalize UA0_2 m P = a2
  generalize UA0_2 m Q = b2
  generalize UB0_2 m Q (q 2) = c2
  generalize UC0_2 m Q (q 2) = d2
  generalize UA0_3 m P = a3
  generalize UA0_3 m Q = b3
  generalize UB0_3 m Q (q 2) = c3
  generalize UC0_3 m Q (q 2) = d3
  generalize UA0_4 m P = a4
  generalize UA0_4 m Q = b4
  generalize UB0_4 m Q (q 2) = c4
  generalize UC0_4 m Q (q 2) = d4
  simp only [D12.addScaled, D12.zero, realD, imgSum]
  ext <;> dsimp only <;> ring

theorem realT_grad {al sd cd dep : ℝ} (tr : sd * sd + cd * cd = 1) (pot1 pot2 pot3 pot4 : ℝ) {p : V3}
    (h : p 0 * p 0 + p 1 * p 1 + (dep + p 2) * (dep + p 2) ≠ 0) : GradD (realT al sd cd dep pot1 pot2 pot3 pot4) p :=
  ((((D12.zero_grad p).add (realF_1_grad tr h) _).add (realF_2_grad tr h) _).add (realF_3_grad tr h) _).add (realF_4_grad tr h) _

theorem realT_eq {al sd cd dep : ℝ} (tr : sd * sd + cd * cd = 1) (pot1 pot2 pot3 pot4 : ℝ) {p : V3}
    (h : p 0 * p 0 + p 1 * p 1 + (dep + p 2) * (dep + p 2) ≠ 0) :
    EqD (2 * al - 1) (1 - al) (realT al sd cd dep pot1 pot2 pot3 pot4) p :=
  ((((D12.zero_eq _ _ p).add (realF_1_eq tr h) _).add (realF_2_eq tr h) _).add (realF_3_eq tr h) _).add (realF_4_eq tr h) _

theorem imgT_grad {al sd cd dep : ℝ} (tr : sd * sd + cd * cd = 1) (pot1 pot2 pot3 pot4 : ℝ) {p : V3}
    (h : p 0 * p 0 + p 1 * p 1 + (dep - p 2) * (dep - p 2) ≠ 0) (h' : rr (p 0) (p 1) (dep - p 2) + (dep - p 2) ≠ 0) :
    GradD (imgT al sd cd dep pot1 pot2 pot3 pot4) p :=
  ((((D12.zero_grad p).add (imgF_1_grad tr h h') _).add (imgF_2_grad tr h h') _).add (imgF_3_grad tr h h') _).add (imgF_4_grad tr h h') _

theorem imgT_eq {al sd cd dep : ℝ} (tr : sd * sd + cd * cd = 1) (ha : al ≠ 0) (pot1 pot2 pot3 pot4 : ℝ) {p : V3}
    (h : p 0 * p 0 + p 1 * p 1 + (dep - p 2) * (dep - p 2) ≠ 0) (h' : rr (p 0) (p 1) (dep - p 2) + (dep - p 2) ≠ 0) :
    EqD (2 * al - 1) (1 - al) (imgT al sd cd dep pot1 pot2 pot3 pot4) p :=
  ((((D12.zero_eq _ _ p).add (imgF_1_eq tr ha h h') _).add (imgF_2_eq tr ha h h') _).add (imgF_3_eq tr ha h h') _).add (imgF_4_eq tr ha h) _

/-- No traction from the real and image source of one kind. -/
theorem trac_of {al : ℝ} {W : D12} (h : W.u9 + W.u5 = 0 ∧ W.u10 + W.u8 = 0 ∧
    (2 * al - 1) * (W.u3 + W.u7 + W.u11) + 2 * (1 - al) * W.u11 = 0) (c : Fin 3) : stress (2 * al - 1) (1 - al) W.upar c 2 = 0 := by
  obtain ⟨h0, h1, h2⟩ := h
  fin_cases c <;> simp [stress, D12.upar, Fin.sum_univ_three]
  · exact Or.inr h0
  · exact Or.inr h1
  · linear_combination h2

theorem stress_zero (lam mu : ℝ) (c j : Fin 3) : stress lam mu D12.zero.upar c j = 0 := by
  fin_cases c <;> fin_cases j <;> simp [stress, D12.upar, D12.zero, Fin.sum_univ_three]

theorem T_free {al sd cd dep : ℝ} (tr : sd * sd + cd * cd = 1) (ha : al ≠ 0) (pot1 pot2 pot3 pot4 : ℝ) {p : V3} (hz : p 2 = 0)
    (h : p 0 * p 0 + p 1 * p 1 + dep * dep ≠ 0) :
    TractionFreeAt (2 * al - 1) (1 - al)
      (fun q => ((realT al sd cd dep pot1 pot2 pot3 pot4 q).addScaled (imgT al sd cd dep pot1 pot2 pot3 pot4 q) 1).upar) p := by
  intro c
  have t1 := trac_of (trac_1 tr ha (p 0) (p 1) dep h) c
  have t2 := trac_of (trac_2 tr ha (p 0) (p 1) dep h) c
  have t3 := trac_of (trac_3 tr ha (p 0) (p 1) dep h) c
  have t4 := trac_of (trac_4 tr ha (p 0) (p 1) dep h) c
  simp only [addD, upar_add, stress_add] at t1 t2 t3 t4
  simp only [realT, imgT, realF_1, realF_2, realF_3, realF_4, imgF_1, imgF_2, imgF_3, imgF_4, upar_add, stress_add, hz, add_zero, sub_zero]
  linear_combination (pot1 / (2 * Real.pi)) * t1 + (pot2 / (2 * Real.pi)) * t2 + (pot3 / (2 * Real.pi)) * t3 + (pot4 / (2 * Real.pi)) * t4 +
    2 * stress_zero (2 * al - 1) (1 - al) c 2

theorem sub_src (p : V3) (dep : ℝ) : p - srcPos dep = ![p 0, p 1, dep + p 2] := by
  ext i
  fin_cases i <;> simp [srcPos, add_comm]

theorem ne_src {p : V3} {dep : ℝ} (h : p ≠ srcPos dep) : p 0 * p 0 + p 1 * p 1 + (dep + p 2) * (dep + p 2) ≠ 0 := by
  contrapose! h
  have h0 : p 0 = 0 := by nlinarith [mul_self_nonneg (p 0), mul_self_nonneg (p 1), mul_self_nonneg (dep + p 2)]
  have h1 : p 1 = 0 := by nlinarith [mul_self_nonneg (p 0), mul_self_nonneg (p 1), mul_self_nonneg (dep + p 2)]
  have h2 : dep + p 2 = 0 := by nlinarith [mul_self_nonneg (p 0), mul_self_nonneg (p 1), mul_self_nonneg (dep + p 2)]
  rw [vec_eq p, h0, h1, srcPos, show p 2 = -dep by linarith]

theorem realT_kel {lam mu sd cd dep : ℝ} (tr : sd * sd + cd * cd = 1) (hm : mu ≠ 0) (h2 : lam + 2 * mu ≠ 0) (pot1 pot2 pot3 pot4 : ℝ)
    {p : V3} (hp : p ≠ srcPos dep) :
    IsMomentField lam mu (moment lam mu sd cd pot1 pot2 pot3 pot4)
      (realT ((lam + mu) / (lam + 2 * mu)) sd cd dep pot1 pot2 pot3 pot4 p).disp (p - srcPos dep) := by
  have h := ne_src hp
  rw [sub_src]
  refine ⟨fun c j k => dKel lam mu c j k ![p 0, p 1, dep + p 2], fun c j k => kelvin_der h c j k, fun c => ?_⟩
  have k1 := kelvin_1 tr hm h2 ![p 0, p 1, dep + p 2] h c
  have k2 := kelvin_2 tr hm h2 ![p 0, p 1, dep + p 2] h c
  have k3 := kelvin_3 tr hm h2 ![p 0, p 1, dep + p 2] h c
  have k4 := kelvin_4 tr hm h2 ![p 0, p 1, dep + p 2] h c
  have z : D12.zero.disp c = 0 := by fin_cases c <;> rfl
  simp only [realT, disp_add, z, realF_1, realF_2, realF_3, realF_4]
  simp only [Matrix.cons_val_zero, Matrix.cons_val_one, Matrix.cons_val] at k1 k2 k3 k4
  simp only [moment, shearMoment, openMoment, isoMoment, nrm, Fin.sum_univ_three, Matrix.cons_val_zero, Matrix.cons_val_one, Matrix.cons_val,
    Fin.isValue, Fin.reduceEq, if_true, if_false] at k1 k2 k3 k4 ⊢
  linear_combination pot1 * k1 + pot2 * k2 + pot3 * k3 + pot4 * k4

end GRT.Okada
