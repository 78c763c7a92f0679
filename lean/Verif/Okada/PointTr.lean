import Verif.Okada.PointF

/-! Okada point sources: no traction on the free surface. -/

namespace GRT.Okada

/-- Real and image source together, at receiver height `z`. -/
noncomputable def addD (a b : D12) : D12 := a.addScaled b 1

theorem trac_1 {al sd cd : ℝ} (tr : sd * sd + cd * cd = 1) (ha : al ≠ 0) (x y d : ℝ) (h : x * x + y * y + d * d ≠ 0) :
    let m := medOf al sd cd
    let W := addD (realD (UA0_1 m (ptOf m x y d))) (imgSum 0 (UA0_1 m (ptOf m x y d)) (UB0_1 m (ptOf m x y d) 0) (UC0_1 m (ptOf m x y d) 0))
    W.u9 + W.u5 = 0 ∧ W.u10 + W.u8 = 0 ∧ (2 * al - 1) * (W.u3 + W.u7 + W.u11) + 2 * (1 - al) * W.u11 = 0 := by
  simp only [UB0_1_eq]
  generalize fI1 x y d = i1
  generalize fI2 x y d = i2
  try generalize fI4 x y d = i4
  try generalize fI5 x y d = i5
  generalize fJ1 x y d = j1
  generalize fJ2 x y d = j2
  generalize fK1 x y d = k1
  generalize fK2 x y d = k2
  simp only [addD, D12.addScaled, realD, imgSum, UA0_1, UBv_1, UC0_1, ptOf, medOf, div_eq_mul_inv, mul_inv, rho_sq, rho_def]
  have e := rho_rel h
  clear h
  refine ⟨?_, ?_, ?_⟩ <;> alg_id

theorem trac_2 {al sd cd : ℝ} (tr : sd * sd + cd * cd = 1) (ha : al ≠ 0) (x y d : ℝ) (h : x * x + y * y + d * d ≠ 0) :
    let m := medOf al sd cd
    let W := addD (realD (UA0_2 m (ptOf m x y d))) (imgSum 0 (UA0_2 m (ptOf m x y d)) (UB0_2 m (ptOf m x y d) 0) (UC0_2 m (ptOf m x y d) 0))
    W.u9 + W.u5 = 0 ∧ W.u10 + W.u8 = 0 ∧ (2 * al - 1) * (W.u3 + W.u7 + W.u11) + 2 * (1 - al) * W.u11 = 0 := by
  simp only [UB0_2_eq]
  generalize fI1 x y d = i1
  generalize fI2 x y d = i2
  try generalize fI4 x y d = i4
  try generalize fI5 x y d = i5
  generalize fJ1 x y d = j1
  generalize fJ2 x y d = j2
  generalize fK1 x y d = k1
  generalize fK2 x y d = k2
  simp only [addD, D12.addScaled, realD, imgSum, UA0_2, UBv_2, UC0_2, ptOf, medOf, div_eq_mul_inv, mul_inv, rho_sq, rho_def]
  have e := rho_rel h
  clear h
  refine ⟨?_, ?_, ?_⟩ <;> alg_id

theorem trac_3 {al sd cd : ℝ} (tr : sd * sd + cd * cd = 1) (ha : al ≠ 0) (x y d : ℝ) (h : x * x + y * y + d * d ≠ 0) :
    let m := medOf al sd cd
    let W := addD (realD (UA0_3 m (ptOf m x y d))) (imgSum 0 (UA0_3 m (ptOf m x y d)) (UB0_3 m (ptOf m x y d) 0) (UC0_3 m (ptOf m x y d) 0))
    W.u9 + W.u5 = 0 ∧ W.u10 + W.u8 = 0 ∧ (2 * al - 1) * (W.u3 + W.u7 + W.u11) + 2 * (1 - al) * W.u11 = 0 := by
  simp only [UB0_3_eq]
  generalize fI1 x y d = i1
  generalize fI2 x y d = i2
  try generalize fI4 x y d = i4
  try generalize fI5 x y d = i5
  generalize fJ1 x y d = j1
  generalize fJ2 x y d = j2
  generalize fK1 x y d = k1
  generalize fK2 x y d = k2
  simp only [addD, D12.addScaled, realD, imgSum, UA0_3, UBv_3, UC0_3, ptOf, medOf, div_eq_mul_inv, mul_inv, rho_sq, rho_def]
  have e := rho_rel h
  clear h
  refine ⟨?_, ?_, ?_⟩ <;> alg_id

theorem trac_4 {al sd cd : ℝ} (tr : sd * sd + cd * cd = 1) (ha : al ≠ 0) (x y d : ℝ) (h : x * x + y * y + d * d ≠ 0) :
    let m := medOf al sd cd
    let W := addD (realD (UA0_4 m (ptOf m x y d))) (imgSum 0 (UA0_4 m (ptOf m x y d)) (UB0_4 m (ptOf m x y d) 0) (UC0_4 m (ptOf m x y d) 0))
    W.u9 + W.u5 = 0 ∧ W.u10 + W.u8 = 0 ∧ (2 * al - 1) * (W.u3 + W.u7 + W.u11) + 2 * (1 - al) * W.u11 = 0 := by
  simp only [addD, D12.addScaled, realD, imgSum, UA0_4, UB0_4, UC0_4, ptOf, medOf, div_eq_mul_inv, mul_inv, rho_sq, rho_def]
  have e := rho_rel h
  clear h
  refine ⟨?_, ?_, ?_⟩ <;> alg_id

end GRT.Okada
