import Verif.Okada.FiniteP

/-! The corner terms of a finite fault, differentiated along the strike and up the dip, are the displacements of a point source. -/

namespace GRT.Okada

open Spec

/-- The curve of corners up the dip. -/
theorem dipCurve (x q t : ℝ) : Curve (fun _ => x) (fun t => t) (fun _ => q) 0 1 0 t :=
  ⟨hasDerivAt_const _ _, hasDerivAt_id' _, hasDerivAt_const _ _⟩

theorem KB_1 {al sd cd x q t : ℝ} (tr : sd * sd + cd * cd = 1) (hs : 0 ≤ sd) (h0 : q ≠ 0) (hd : 0 ≤ t * sd - q * cd) :
    let U := fun t => UB_1a (medOf al sd cd) (corS (medOf al sd cd) x t q) (i4S (medOf al sd cd) x t q)
    let W := UB0_1 (medOf al sd cd) (ptS (medOf al sd cd) x t q) 0
    HasDerivAt (fun t => (U t).u3) W.u0 t ∧ HasDerivAt (fun t => (U t).u4 * cd - (U t).u5 * sd) W.u1 t ∧
      HasDerivAt (fun t => (U t).u4 * sd + (U t).u5 * cd) W.u2 t := by
  have h1 := rd_pos (x := x) h0 hd
  by_cases hc : cd = 0
  · subst hc
    have s1 : sd = 1 := by nlinarith
    exact ⟨WB_1_0v s1 (dipCurve x q t) h0 h1, WB_1_1v s1 (dipCurve x q t) h0 h1, WB_1_2v s1 (dipCurve x q t) h0 h1⟩
  · exact ⟨WB_1_0g tr hc (dipCurve x q t) h0 h1, WB_1_1g tr hc (dipCurve x q t) h0 h1, WB_1_2g tr hc (dipCurve x q t) h0 h1⟩

theorem UB0_1_z (c : Med) (p : Pt) (z : ℝ) : (UB0_1 c p z).u0 = (UB0_1 c p 0).u0 ∧ (UB0_1 c p z).u1 = (UB0_1 c p 0).u1 ∧
    (UB0_1 c p z).u2 = (UB0_1 c p 0).u2 + z * shf 0 p := by
  refine ⟨?_, ?_, ?_⟩ <;> simp [UB0_1, shf] <;> ring

theorem KB_2 {al sd cd x q t : ℝ} (tr : sd * sd + cd * cd = 1) (hs : 0 ≤ sd) (h0 : q ≠ 0) (hd : 0 ≤ t * sd - q * cd) :
    let U := fun t => UB_2a (medOf al sd cd) (corS (medOf al sd cd) x t q) (i4S (medOf al sd cd) x t q)
    let W := UB0_2 (medOf al sd cd) (ptS (medOf al sd cd) x t q) 0
    HasDerivAt (fun t => (U t).u3) W.u0 t ∧ HasDerivAt (fun t => (U t).u4 * cd - (U t).u5 * sd) W.u1 t ∧
      HasDerivAt (fun t => (U t).u4 * sd + (U t).u5 * cd) W.u2 t := by
  have h1 := rd_pos (x := x) h0 hd
  by_cases hc : cd = 0
  · subst hc
    have s1 : sd = 1 := by nlinarith
    exact ⟨WB_2_0v s1 (dipCurve x q t) h0 h1, WB_2_1v s1 (dipCurve x q t) h0 h1, WB_2_2v s1 (dipCurve x q t) h0 h1⟩
  · exact ⟨WB_2_0g tr hc (dipCurve x q t) h0 h1, WB_2_1g tr hc (dipCurve x q t) h0 h1, WB_2_2g tr hc (dipCurve x q t) h0 h1⟩

theorem UB0_2_z (c : Med) (p : Pt) (z : ℝ) : (UB0_2 c p z).u0 = (UB0_2 c p 0).u0 ∧ (UB0_2 c p z).u1 = (UB0_2 c p 0).u1 ∧
    (UB0_2 c p z).u2 = (UB0_2 c p 0).u2 + z * shf 1 p := by
  refine ⟨?_, ?_, ?_⟩ <;> simp [UB0_2, shf] <;> ring

theorem KB_3 {al sd cd x q t : ℝ} (tr : sd * sd + cd * cd = 1) (hs : 0 ≤ sd) (h0 : q ≠ 0) (hd : 0 ≤ t * sd - q * cd) :
    let U := fun t => UB_3a (medOf al sd cd) (corS (medOf al sd cd) x t q) (i4S (medOf al sd cd) x t q)
    let W := UB0_3 (medOf al sd cd) (ptS (medOf al sd cd) x t q) 0
    HasDerivAt (fun t => (U t).u3) W.u0 t ∧ HasDerivAt (fun t => (U t).u4 * cd - (U t).u5 * sd) W.u1 t ∧
      HasDerivAt (fun t => (U t).u4 * sd + (U t).u5 * cd) W.u2 t := by
  have h1 := rd_pos (x := x) h0 hd
  by_cases hc : cd = 0
  · subst hc
    have s1 : sd = 1 := by nlinarith
    exact ⟨WB_3_0v s1 (dipCurve x q t) h0 h1, WB_3_1v s1 (dipCurve x q t) h0 h1, WB_3_2v s1 (dipCurve x q t) h0 h1⟩
  · exact ⟨WB_3_0g tr hc (dipCurve x q t) h0 h1, WB_3_1g tr hc (dipCurve x q t) h0 h1, WB_3_2g tr hc (dipCurve x q t) h0 h1⟩

theorem UB0_3_z (c : Med) (p : Pt) (z : ℝ) : (UB0_3 c p z).u0 = (UB0_3 c p 0).u0 ∧ (UB0_3 c p z).u1 = (UB0_3 c p 0).u1 ∧
    (UB0_3 c p z).u2 = (UB0_3 c p 0).u2 + z * shf 2 p := by
  refine ⟨?_, ?_, ?_⟩ <;> simp [UB0_3, shf] <;> ring

theorem real_K {al sd cd x q t : ℝ} (tr : sd * sd + cd * cd = 1) (h0 : q ≠ 0) (z d1 d2 d3 : ℝ) (j : Fin 3) :
    HasDerivAt (fun t => (realS al sd cd d1 d2 d3 x t q z).upar 0 j)
      ((realD (UA0 (medOf al sd cd) (ptS (medOf al sd cd) x t q) d1 d2 d3 0)).disp j) t := by
  have c := dipCurve x q t
  fin_cases j
  · have := (((WA_1_0 (al := al) tr c h0).const_mul (d1 / (2 * Real.pi))).fun_add ((WA_2_0 (al := al) tr c h0).const_mul (d2 / (2 * Real.pi)))).fun_add
      ((WA_3_0 (al := al) tr c h0).const_mul (d3 / (2 * Real.pi)))
    refine (this.fun_neg.congr_deriv ?_).congr_of_eventuallyEq (Filter.Eventually.of_forall fun t => ?_)
    · simp [UA0_sum, realD, D12.disp, D12.addScaled, D12.zero]
    · simp [realS, UA_sum, rotReal, D12.upar, D12.addScaled, D12.zero]
  · have := (((WA_1_1 (al := al) tr c h0).const_mul (d1 / (2 * Real.pi))).fun_add ((WA_2_1 (al := al) tr c h0).const_mul (d2 / (2 * Real.pi)))).fun_add
      ((WA_3_1 (al := al) tr c h0).const_mul (d3 / (2 * Real.pi)))
    refine (this.fun_neg.congr_deriv ?_).congr_of_eventuallyEq (Filter.Eventually.of_forall fun t => ?_)
    · simp [UA0_sum, realD, D12.disp, D12.addScaled, D12.zero]
    · have e1 : (medOf al sd cd).sd = sd := rfl
      have e2 : (medOf al sd cd).cd = cd := rfl
      simp only [realS, UA_sum, rotReal, D12.upar, D12.addScaled, D12.zero, Matrix.cons_val_zero, Matrix.cons_val_one, Fin.mk_one, e1, e2]
      ring
  · have := (((WA_1_2 (al := al) tr c h0).const_mul (d1 / (2 * Real.pi))).fun_add ((WA_2_2 (al := al) tr c h0).const_mul (d2 / (2 * Real.pi)))).fun_add
      ((WA_3_2 (al := al) tr c h0).const_mul (d3 / (2 * Real.pi)))
    refine (this.fun_neg.congr_deriv ?_).congr_of_eventuallyEq (Filter.Eventually.of_forall fun t => ?_)
    · simp [UA0_sum, realD, D12.disp, D12.addScaled, D12.zero]
    · have e1 : (medOf al sd cd).sd = sd := rfl
      have e2 : (medOf al sd cd).cd = cd := rfl
      simp only [realS, UA_sum, rotReal, D12.upar, D12.addScaled, D12.zero, Matrix.cons_val, Matrix.cons_val_zero, Matrix.cons_val_one, Fin.reduceFinMk, e1, e2]
      ring

theorem img_K {al sd cd x q t : ℝ} (tr : sd * sd + cd * cd = 1) (hs : 0 ≤ sd) (h0 : q ≠ 0) (hd : 0 ≤ t * sd - q * cd)
    (z d1 d2 d3 : ℝ) (j : Fin 3) :
    HasDerivAt (fun t => (imgS al sd cd d1 d2 d3 x t q z).upar 0 j)
      ((imgSum z (UA0 (medOf al sd cd) (ptS (medOf al sd cd) x t q) d1 d2 d3 0)
        (UB0 (medOf al sd cd) (ptS (medOf al sd cd) x t q) z d1 d2 d3 0)
        (UC0 (medOf al sd cd) (ptS (medOf al sd cd) x t q) z d1 d2 d3 0)).disp j) t := by
  have c := dipCurve x q t
  obtain ⟨b10, b11, b12⟩ := KB_1 (al := al) (x := x) tr hs h0 hd
  obtain ⟨b20, b21, b22⟩ := KB_2 (al := al) (x := x) tr hs h0 hd
  obtain ⟨b30, b31, b32⟩ := KB_3 (al := al) (x := x) tr hs h0 hd
  obtain ⟨z10, z11, z12⟩ := UB0_1_z (medOf al sd cd) (ptS (medOf al sd cd) x t q) z
  obtain ⟨z20, z21, z22⟩ := UB0_2_z (medOf al sd cd) (ptS (medOf al sd cd) x t q) z
  obtain ⟨z30, z31, z32⟩ := UB0_3_z (medOf al sd cd) (ptS (medOf al sd cd) x t q) z
  have e1 : (medOf al sd cd).sd = sd := rfl
  have e2 : (medOf al sd cd).cd = cd := rfl
  fin_cases j
  · have := (((((WA_1_0 (al := al) tr c h0).fun_add b10).fun_add ((WC_1_0 (al := al) tr z c h0).const_mul z)).const_mul (d1 / (2 * Real.pi))).fun_add
      ((((WA_2_0 (al := al) tr c h0).fun_add b20).fun_add ((WC_2_0 (al := al) tr z c h0).const_mul z)).const_mul (d2 / (2 * Real.pi)))).fun_add
      ((((WA_3_0 (al := al) tr c h0).fun_add b30).fun_add ((WC_3_0 (al := al) tr z c h0).const_mul z)).const_mul (d3 / (2 * Real.pi)))
    refine (this.congr_deriv ?_).congr_of_eventuallyEq (Filter.Eventually.of_forall fun t => ?_)
    · simp only [UA0_sum, UB0_sum, UC0_sum, imgSum, D12.disp, D12.addScaled, D12.zero, Matrix.cons_val, Matrix.cons_val_zero, Matrix.cons_val_one, Fin.zero_eta, Fin.mk_one, Fin.reduceFinMk, z10, z20, z30]
      ring
    · simp only [imgS, UA_sum, UBs, UC_sum, rotImg, D12.upar, D12.addScaled, D12.zero, Matrix.cons_val, Matrix.cons_val_zero, Matrix.cons_val_one, Fin.zero_eta, Fin.mk_one, Fin.reduceFinMk, e1, e2]
      ring
  · have := (((((WA_1_1 (al := al) tr c h0).fun_add b11).fun_add ((WC_1_1 (al := al) tr z c h0).const_mul z)).const_mul (d1 / (2 * Real.pi))).fun_add
      ((((WA_2_1 (al := al) tr c h0).fun_add b21).fun_add ((WC_2_1 (al := al) tr z c h0).const_mul z)).const_mul (d2 / (2 * Real.pi)))).fun_add
      ((((WA_3_1 (al := al) tr c h0).fun_add b31).fun_add ((WC_3_1 (al := al) tr z c h0).const_mul z)).const_mul (d3 / (2 * Real.pi)))
    refine (this.congr_deriv ?_).congr_of_eventuallyEq (Filter.Eventually.of_forall fun t => ?_)
    · simp only [UA0_sum, UB0_sum, UC0_sum, imgSum, D12.disp, D12.addScaled, D12.zero, Matrix.cons_val, Matrix.cons_val_zero, Matrix.cons_val_one, Fin.zero_eta, Fin.mk_one, Fin.reduceFinMk, z11, z21, z31]
      ring
    · simp only [imgS, UA_sum, UBs, UC_sum, rotImg, D12.upar, D12.addScaled, D12.zero, Matrix.cons_val, Matrix.cons_val_zero, Matrix.cons_val_one, Fin.zero_eta, Fin.mk_one, Fin.reduceFinMk, e1, e2]
      ring
  · have := (((((WA_1_2 (al := al) tr c h0).fun_add b12).fun_add ((WC_1_2 (al := al) tr z c h0).const_mul z)).const_mul (d1 / (2 * Real.pi))).fun_add
      ((((WA_2_2 (al := al) tr c h0).fun_add b22).fun_add ((WC_2_2 (al := al) tr z c h0).const_mul z)).const_mul (d2 / (2 * Real.pi)))).fun_add
      ((((WA_3_2 (al := al) tr c h0).fun_add b32).fun_add ((WC_3_2 (al := al) tr z c h0).const_mul z)).const_mul (d3 / (2 * Real.pi)))
    refine (this.congr_deriv ?_).congr_of_eventuallyEq (Filter.Eventually.of_forall fun t => ?_)
    · simp only [UA0_sum, UB0_sum, UC0_sum, imgSum, D12.disp, D12.addScaled, D12.zero, Matrix.cons_val, Matrix.cons_val_zero, Matrix.cons_val_one, Fin.zero_eta, Fin.mk_one, Fin.reduceFinMk, z12, z22, z32]
      ring
    · simp only [imgS, UA_sum, UBs, UC_sum, rotImg, D12.upar, D12.addScaled, D12.zero, Matrix.cons_val, Matrix.cons_val_zero, Matrix.cons_val_one, Fin.zero_eta, Fin.mk_one, Fin.reduceFinMk, e1, e2]
      ring

end GRT.Okada
