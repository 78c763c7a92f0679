import Verif.Okada.PointF

/-! Okada point sources, strike slip: the stresses of the real and the image source balance. -/

namespace GRT.Okada

set_option maxHeartbeats 4000000

theorem realEq_1_0 {al sd cd : ℝ} (tr : sd * sd + cd * cd = 1) (x y d : ℝ) (h : x * x + y * y + d * d ≠ 0) :
    let m := medOf al sd cd
    let W := fun x y d => realD (UA0_1 m (ptOf m x y d))
    ∃ s0 s1 s2, HasDerivAt (fun x => (2 * al - 1) * ((W x y d).u3 + (W x y d).u7 + (W x y d).u11) + (1 - al) * ((W x y d).u3 + (W x y d).u3)) s0 x ∧
      HasDerivAt (fun y => (1 - al) * ((W x y d).u6 + (W x y d).u4)) s1 y ∧
      HasDerivAt (fun d => (1 - al) * ((W x y d).u9 + (W x y d).u5)) s2 d ∧ s0 + s1 + s2 = 0 := by
  simp only [realD, UA0_1, ptOf, medOf, div_eq_mul_inv, mul_inv, rho_sq, rho_def]
  have e := rho_rel h
  have r1 := rho_dx h
  have r2 := rho_dy h
  have r3 := rho_dd h
  apply Exists.intro
  apply Exists.intro
  apply Exists.intro
  refine ⟨?_, ?_, ?_, ?_⟩
  · hderiv
  · hderiv
  · hderiv
  · clear r1 r2 r3 h
    alg_id

theorem realEq_1_1 {al sd cd : ℝ} (tr : sd * sd + cd * cd = 1) (x y d : ℝ) (h : x * x + y * y + d * d ≠ 0) :
    let m := medOf al sd cd
    let W := fun x y d => realD (UA0_1 m (ptOf m x y d))
    ∃ s0 s1 s2, HasDerivAt (fun x => (1 - al) * ((W x y d).u4 + (W x y d).u6)) s0 x ∧
      HasDerivAt (fun y => (2 * al - 1) * ((W x y d).u3 + (W x y d).u7 + (W x y d).u11) + (1 - al) * ((W x y d).u7 + (W x y d).u7)) s1 y ∧
      HasDerivAt (fun d => (1 - al) * ((W x y d).u10 + (W x y d).u8)) s2 d ∧ s0 + s1 + s2 = 0 := by
  simp only [realD, UA0_1, ptOf, medOf, div_eq_mul_inv, mul_inv, rho_sq, rho_def]
  have e := rho_rel h
  have r1 := rho_dx h
  have r2 := rho_dy h
  have r3 := rho_dd h
  apply Exists.intro
  apply Exists.intro
  apply Exists.intro
  refine ⟨?_, ?_, ?_, ?_⟩
  · hderiv
  · hderiv
  · hderiv
  · clear r1 r2 r3 h
    alg_id

theorem realEq_1_2 {al sd cd : ℝ} (tr : sd * sd + cd * cd = 1) (x y d : ℝ) (h : x * x + y * y + d * d ≠ 0) :
    let m := medOf al sd cd
    let W := fun x y d => realD (UA0_1 m (ptOf m x y d))
    ∃ s0 s1 s2, HasDerivAt (fun x => (1 - al) * ((W x y d).u5 + (W x y d).u9)) s0 x ∧
      HasDerivAt (fun y => (1 - al) * ((W x y d).u8 + (W x y d).u10)) s1 y ∧
      HasDerivAt (fun d => (2 * al - 1) * ((W x y d).u3 + (W x y d).u7 + (W x y d).u11) + (1 - al) * ((W x y d).u11 + (W x y d).u11)) s2 d ∧ s0 + s1 + s2 = 0 := by
  simp only [realD, UA0_1, ptOf, medOf, div_eq_mul_inv, mul_inv, rho_sq, rho_def]
  have e := rho_rel h
  have r1 := rho_dx h
  have r2 := rho_dy h
  have r3 := rho_dd h
  apply Exists.intro
  apply Exists.intro
  apply Exists.intro
  refine ⟨?_, ?_, ?_, ?_⟩
  · hderiv
  · hderiv
  · hderiv
  · clear r1 r2 r3 h
    alg_id

theorem imgEq_1_0 {al sd cd : ℝ} (tr : sd * sd + cd * cd = 1) (ha : al ≠ 0) (cc x y d : ℝ) (h : x * x + y * y + d * d ≠ 0) (h' : rr x y d + d ≠ 0) :
    let m := medOf al sd cd
    let W := fun x y d => imgSum (cc - d) (UA0_1 m (ptOf m x y d)) (UB0_1 m (ptOf m x y d) (cc - d)) (UC0_1 m (ptOf m x y d) (cc - d))
    ∃ s0 s1 s2, HasDerivAt (fun x => (2 * al - 1) * ((W x y d).u3 + (W x y d).u7 + (W x y d).u11) + (1 - al) * ((W x y d).u3 + (W x y d).u3)) s0 x ∧
      HasDerivAt (fun y => (1 - al) * ((W x y d).u6 + (W x y d).u4)) s1 y ∧
      HasDerivAt (fun d => (1 - al) * ((W x y d).u9 + (W x y d).u5)) s2 d ∧ s0 + s1 - s2 = 0 := by
  obtain ⟨a, b, a', c, c', j1, j2, j3, j4, j5, j6, ej⟩ := fJ_der h h'
  obtain ⟨f, f', g, g', l, l', k1, k2, k3, k4, k5, k6⟩ := fK_der h h'
  simp only [UB0_1_eq]
  simp only [imgSum, UA0_1, UBv_1, UC0_1, ptOf, medOf, div_eq_mul_inv, mul_inv, rho_sq, rho_def, add_sub_cancel]
  have e := rho_rel h
  have r1 := rho_dx h
  have r2 := rho_dy h
  have r3 := rho_dd h
  apply Exists.intro
  apply Exists.intro
  apply Exists.intro
  refine ⟨?_, ?_, ?_, ?_⟩
  · hderiv
  · hderiv
  · hderiv
  · clear r1 r2 r3 j1 j2 j3 j4 j5 j6 k1 k2 k3 k4 k5 k6 h
    alg_id

theorem imgEq_1_1 {al sd cd : ℝ} (tr : sd * sd + cd * cd = 1) (ha : al ≠ 0) (cc x y d : ℝ) (h : x * x + y * y + d * d ≠ 0) (h' : rr x y d + d ≠ 0) :
    let m := medOf al sd cd
    let W := fun x y d => imgSum (cc - d) (UA0_1 m (ptOf m x y d)) (UB0_1 m (ptOf m x y d) (cc - d)) (UC0_1 m (ptOf m x y d) (cc - d))
    ∃ s0 s1 s2, HasDerivAt (fun x => (1 - al) * ((W x y d).u4 + (W x y d).u6)) s0 x ∧
      HasDerivAt (fun y => (2 * al - 1) * ((W x y d).u3 + (W x y d).u7 + (W x y d).u11) + (1 - al) * ((W x y d).u7 + (W x y d).u7)) s1 y ∧
      HasDerivAt (fun d => (1 - al) * ((W x y d).u10 + (W x y d).u8)) s2 d ∧ s0 + s1 - s2 = 0 := by
  obtain ⟨a, b, a', c, c', j1, j2, j3, j4, j5, j6, ej⟩ := fJ_der h h'
  obtain ⟨f, f', g, g', l, l', k1, k2, k3, k4, k5, k6⟩ := fK_der h h'
  simp only [UB0_1_eq]
  simp only [imgSum, UA0_1, UBv_1, UC0_1, ptOf, medOf, div_eq_mul_inv, mul_inv, rho_sq, rho_def, add_sub_cancel]
  have e := rho_rel h
  have r1 := rho_dx h
  have r2 := rho_dy h
  have r3 := rho_dd h
  apply Exists.intro
  apply Exists.intro
  apply Exists.intro
  refine ⟨?_, ?_, ?_, ?_⟩
  · hderiv
  · hderiv
  · hderiv
  · clear r1 r2 r3 j1 j2 j3 j4 j5 j6 k1 k2 k3 k4 k5 k6 h
    alg_id

theorem imgEq_1_2 {al sd cd : ℝ} (tr : sd * sd + cd * cd = 1) (ha : al ≠ 0) (cc x y d : ℝ) (h : x * x + y * y + d * d ≠ 0) (h' : rr x y d + d ≠ 0) :
    let m := medOf al sd cd
    let W := fun x y d => imgSum (cc - d) (UA0_1 m (ptOf m x y d)) (UB0_1 m (ptOf m x y d) (cc - d)) (UC0_1 m (ptOf m x y d) (cc - d))
    ∃ s0 s1 s2, HasDerivAt (fun x => (1 - al) * ((W x y d).u5 + (W x y d).u9)) s0 x ∧
      HasDerivAt (fun y => (1 - al) * ((W x y d).u8 + (W x y d).u10)) s1 y ∧
      HasDerivAt (fun d => (2 * al - 1) * ((W x y d).u3 + (W x y d).u7 + (W x y d).u11) + (1 - al) * ((W x y d).u11 + (W x y d).u11)) s2 d ∧ s0 + s1 - s2 = 0 := by
  obtain ⟨a, b, a', c, c', j1, j2, j3, j4, j5, j6, ej⟩ := fJ_der h h'
  obtain ⟨f, f', g, g', l, l', k1, k2, k3, k4, k5, k6⟩ := fK_der h h'
  simp only [UB0_1_eq]
  simp only [imgSum, UA0_1, UBv_1, UC0_1, ptOf, medOf, div_eq_mul_inv, mul_inv, rho_sq, rho_def, add_sub_cancel]
  have e := rho_rel h
  have r1 := rho_dx h
  have r2 := rho_dy h
  have r3 := rho_dd h
  apply Exists.intro
  apply Exists.intro
  apply Exists.intro
  refine ⟨?_, ?_, ?_, ?_⟩
  · hderiv
  · hderiv
  · hderiv
  · clear r1 r2 r3 j1 j2 j3 j4 j5 j6 k1 k2 k3 k4 k5 k6 h
    alg_id

end GRT.Okada
