import Verif.Okada.FiniteC

/-! The displacement of a finite fault as a field of position, and its gradient. -/

namespace GRT.Okada

open Spec

theorem add_if (u du : D12) (pot : ℝ) :
    (if pot ≠ 0 then u.addScaled du (pot / (2 * Real.pi)) else u) = u.addScaled du (pot / (2 * Real.pi)) := by
  split
  · rfl
  · rename_i h
    rw [not_not.1 h]
    simp [D12.addScaled]

theorem UA_sum (c : Med) (f : Cor) (d1 d2 d3 : ℝ) : UA c f d1 d2 d3 =
    ((D12.zero.addScaled (UA_1 c f) (d1 / (2 * Real.pi))).addScaled (UA_2 c f) (d2 / (2 * Real.pi))).addScaled (UA_3 c f)
      (d3 / (2 * Real.pi)) := by simp only [UA, add_if]

theorem UC_sum (c : Med) (f : Cor) (z d1 d2 d3 : ℝ) : UC c f z d1 d2 d3 =
    ((D12.zero.addScaled (UC_1 c f z) (d1 / (2 * Real.pi))).addScaled (UC_2 c f z) (d2 / (2 * Real.pi))).addScaled (UC_3 c f z)
      (d3 / (2 * Real.pi)) := by simp only [UC, add_if]

/-- `UB` with a given `ai4`. -/
noncomputable def UBs (c : Med) (f : Cor) (i4 d1 d2 d3 : ℝ) : D12 :=
  ((D12.zero.addScaled (UB_1a c f i4) (d1 / (2 * Real.pi))).addScaled (UB_2a c f i4) (d2 / (2 * Real.pi))).addScaled (UB_3a c f i4)
    (d3 / (2 * Real.pi))

theorem UB_sum (c : Med) (f : Cor) (d1 d2 d3 : ℝ) : UB c f d1 d2 d3 = UBs c f (ubI4 c f) d1 d2 d3 := by
  simp only [UB, UBs, add_if, UB_1, UB_2, UB_3]

/-- A corner of the real fault, off its plane. -/
noncomputable def realS (al sd cd d1 d2 d3 x e q : ℝ) (_z : ℝ) : D12 :=
  rotReal (medOf al sd cd) (UA (medOf al sd cd) (corS (medOf al sd cd) x e q) d1 d2 d3)

/-- A corner of the image, off its plane and with the smooth `ai4`. -/
noncomputable def imgS (al sd cd d1 d2 d3 x e q z : ℝ) : D12 :=
  rotImg (medOf al sd cd) z (UA (medOf al sd cd) (corS (medOf al sd cd) x e q) d1 d2 d3)
    (UBs (medOf al sd cd) (corS (medOf al sd cd) x e q) (i4S (medOf al sd cd) x e q) d1 d2 d3)
    (UC (medOf al sd cd) (corS (medOf al sd cd) x e q) z d1 d2 d3)

variable {s c : ℝ} {im : Prop} {F Fx Fy Fz G Gx Gy Gz : ℝ → ℝ → ℝ → ℝ → ℝ}

theorem HasRate.congr (h : HasRate s c im G Gx Gy Gz) (h0 : F = G) (h1 : Fx = Gx) (h2 : Fy = Gy) (h3 : Fz = Gz) :
    HasRate s c im F Fx Fy Fz := by
  rw [h0, h1, h2, h3]
  exact h

theorem UA_rate {al sd cd : ℝ} (tr : sd * sd + cd * cd = 1) (im : Prop) (d1 d2 d3 : ℝ) :
    RateD sd cd im (fun x e q _ => UA (medOf al sd cd) (corS (medOf al sd cd) x e q) d1 d2 d3) := by
  simp only [UA_sum]
  exact (((RateD0.zero.to).add (UA_1_rate tr im) _).add (UA_2_rate tr im) _).add (UA_3_rate tr im) _

theorem UC_rate {al sd cd : ℝ} (tr : sd * sd + cd * cd = 1) (im : Prop) (d1 d2 d3 : ℝ) :
    RateD0 sd cd im (fun x e q z => UC (medOf al sd cd) (corS (medOf al sd cd) x e q) z d1 d2 d3) := by
  simp only [UC_sum]
  exact (((RateD0.zero).add (UC_1_rate tr im) _).add (UC_2_rate tr im) _).add (UC_3_rate tr im) _

theorem UBs_rate {al sd cd : ℝ} (tr : sd * sd + cd * cd = 1) (hs : 0 ≤ sd) (d1 d2 d3 : ℝ) :
    RateD sd cd True (fun x e q _ => UBs (medOf al sd cd) (corS (medOf al sd cd) x e q) (i4S (medOf al sd cd) x e q) d1 d2 d3) := by
  simp only [UBs]
  exact (((RateD0.zero.to).add (UB_1_rate tr hs) _).add (UB_2_rate tr hs) _).add (UB_3_rate tr hs) _

theorem HasRate0.z : HasRate s c im (fun _ _ _ _ => 0) (fun _ _ _ _ => 0) (fun _ _ _ _ => 0) (fun _ _ _ _ => 0) := HasRate0.zero.to

theorem realS_rate {al sd cd : ℝ} (tr : sd * sd + cd * cd = 1) (d1 d2 d3 : ℝ) (j : Fin 3) :
    HasRate sd cd False (fun x e q z => (realS al sd cd d1 d2 d3 x e q z).disp j) (fun x e q z => (realS al sd cd d1 d2 d3 x e q z).upar 0 j)
      (fun x e q z => (realS al sd cd d1 d2 d3 x e q z).upar 1 j) (fun x e q z => -(realS al sd cd d1 d2 d3 x e q z).upar 2 j) := by
  have h := UA_rate (al := al) tr False d1 d2 d3
  fin_cases j
  · refine (HasRate0.z.add (h 0) (-1)).congr ?_ ?_ ?_ ?_ <;> funext x e q z <;>
      simp [realS, rotReal, D12.disp, D12.upar, medOf]
  · refine ((HasRate0.z.add (h 1) (-cd)).add (h 2) sd).congr ?_ ?_ ?_ ?_ <;> funext x e q z <;>
      simp [realS, rotReal, D12.disp, D12.upar, medOf] <;> ring
  · refine ((HasRate0.z.add (h 1) (-sd)).add (h 2) (-cd)).congr ?_ ?_ ?_ ?_ <;> funext x e q z <;>
      simp [realS, rotReal, D12.disp, D12.upar, medOf] <;> ring

theorem imgS_rate {al sd cd : ℝ} (tr : sd * sd + cd * cd = 1) (hs : 0 ≤ sd) (d1 d2 d3 : ℝ) :
    RateD sd cd True (imgS al sd cd d1 d2 d3) := by
  have h := (UA_rate (al := al) tr True d1 d2 d3).add (UBs_rate (al := al) tr hs d1 d2 d3) 1
  have k := UC_rate (al := al) tr True d1 d2 d3
  intro j
  fin_cases j
  · refine ((HasRate0.z.add (h 0) 1).add (k 0).mulZ.to 1).congr ?_ ?_ ?_ ?_ <;> funext x e q z <;>
      simp [imgS, rotImg, D12.disp, D12.upar, medOf, D12.addScaled] <;> ring
  · refine ((((HasRate0.z.add (h 1) cd).add (h 2) (-sd)).add (k 1).mulZ.to cd).add (k 2).mulZ.to (-sd)).congr ?_ ?_ ?_ ?_ <;> funext x e q z <;>
      simp [imgS, rotImg, D12.disp, D12.upar, medOf, D12.addScaled] <;> ring
  · refine ((((HasRate0.z.add (h 1) sd).add (h 2) cd).add (k 1).mulZ.to (-sd)).add (k 2).mulZ.to (-cd)).congr ?_ ?_ ?_ ?_ <;> funext x e q z <;>
      simp [imgS, rotImg, D12.disp, D12.upar, medOf, D12.addScaled] <;> ring

/-- The sum over the four corners. -/
noncomputable def four (F : ℝ → ℝ → ℝ → ℝ → D12) (x0 x1 e0 e1 q z : ℝ) : D12 :=
  (((D12.zero.addScaled (F x0 e0 q z) 1).addScaled (F x1 e0 q z) (-1)).addScaled (F x0 e1 q z) (-1)).addScaled (F x1 e1 q z) 1

theorem zero_disp (j : Fin 3) : D12.zero.disp j = 0 := by fin_cases j <;> rfl

theorem zero_upar (i j : Fin 3) : D12.zero.upar i j = 0 := by fin_cases i <;> fin_cases j <;> rfl

theorem four_disp (F : ℝ → ℝ → ℝ → ℝ → D12) (x0 x1 e0 e1 q z : ℝ) (j : Fin 3) : (four F x0 x1 e0 e1 q z).disp j =
    (F x0 e0 q z).disp j - (F x1 e0 q z).disp j - (F x0 e1 q z).disp j + (F x1 e1 q z).disp j := by
  simp only [four, disp_add, zero_disp]
  ring

theorem four_upar (F : ℝ → ℝ → ℝ → ℝ → D12) (x0 x1 e0 e1 q z : ℝ) (i j : Fin 3) : (four F x0 x1 e0 e1 q z).upar i j =
    (F x0 e0 q z).upar i j - (F x1 e0 q z).upar i j - (F x0 e1 q z).upar i j + (F x1 e1 q z).upar i j := by
  simp only [four, upar_add, zero_upar]
  ring

theorem HasRate.four (h : HasRate s c im F Fx Fy Fz) {x0 x1 e0 e1 q z : ℝ → ℝ} {a b w t : ℝ} (h00 : Curve x0 e0 q a b w t)
    (h11 : Curve x1 e1 q a b w t) (hz : HasDerivAt z (-(b * s - w * c)) t) (h0 : q t ≠ 0) (hi0 : im → 0 ≤ e0 t * s - q t * c)
    (hi1 : im → 0 ≤ e1 t * s - q t * c) {f : (ℝ → ℝ → ℝ → ℝ → ℝ) → ℝ → ℝ}
    (hf : ∀ G t, f G t = G (x0 t) (e0 t) (q t) (z t) - G (x1 t) (e0 t) (q t) (z t) - G (x0 t) (e1 t) (q t) (z t) +
      G (x1 t) (e1 t) (q t) (z t)) : HasDerivAt (f F) (rate s c a b w (f Fx t) (f Fy t) (f Fz t)) t := by
  obtain ⟨g, k, -, H⟩ := h
  have k00 := H x0 e0 q z a b w t h00 hz h0 hi0
  have k10 := H x1 e0 q z a b w t ⟨h11.1, h00.2, h00.3⟩ hz h0 hi0
  have k01 := H x0 e1 q z a b w t ⟨h00.1, h11.2, h00.3⟩ hz h0 hi1
  have k11 := H x1 e1 q z a b w t h11 hz h0 hi1
  have := ((k00.fun_sub k10).fun_sub k01).fun_add k11
  have e : f F = fun t => F (x0 t) (e0 t) (q t) (z t) - F (x1 t) (e0 t) (q t) (z t) - F (x0 t) (e1 t) (q t) (z t) +
      F (x1 t) (e1 t) (q t) (z t) := funext (hf F)
  rw [e, hf, hf, hf]
  refine this.congr_deriv ?_
  simp only [rate]
  ring

/-- Distance up the dip and across the plane of a point at height `d` over the plane's origin. -/
def upDip (sd cd y d : ℝ) : ℝ := y * cd + d * sd

/-- Distance across the plane. -/
def across (sd cd y d : ℝ) : ℝ := y * sd - d * cd

/-- The real fault as a field. -/
noncomputable def finReal (al sd cd dep l1 l2 w1 w2 d1 d2 d3 : ℝ) (p : V3) : D12 :=
  four (realS al sd cd d1 d2 d3) (p 0 - l1) (p 0 - l2) (upDip sd cd (p 1) (dep + p 2) - w1) (upDip sd cd (p 1) (dep + p 2) - w2)
    (across sd cd (p 1) (dep + p 2)) (p 2)

/-- The image as a field. -/
noncomputable def finImg (al sd cd dep l1 l2 w1 w2 d1 d2 d3 : ℝ) (p : V3) : D12 :=
  four (imgS al sd cd d1 d2 d3) (p 0 - l1) (p 0 - l2) (upDip sd cd (p 1) (dep - p 2) - w1) (upDip sd cd (p 1) (dep - p 2) - w2)
    (across sd cd (p 1) (dep - p 2)) (p 2)

theorem lin_d (k m t : ℝ) : HasDerivAt (fun t => k + m * t) m t := by
  simpa using ((hasDerivAt_id t).const_mul m).const_add k

theorem lin_d' {f : ℝ → ℝ} (k m t : ℝ) (h : ∀ t, f t = k + m * t) : HasDerivAt f m t := by
  rw [show f = fun t => k + m * t from funext h]
  exact lin_d k m t

theorem real_der {al sd cd : ℝ} (tr : sd * sd + cd * cd = 1) (d1 d2 d3 : ℝ) (j : Fin 3) {x0 x1 e0 e1 q z : ℝ → ℝ} {a b w t : ℝ}
    (h00 : Curve x0 e0 q a b w t) (h11 : Curve x1 e1 q a b w t) (h0 : q t ≠ 0) :
    HasDerivAt (fun t => (four (realS al sd cd d1 d2 d3) (x0 t) (x1 t) (e0 t) (e1 t) (q t) (z t)).disp j)
      (rate sd cd a b w ((four (realS al sd cd d1 d2 d3) (x0 t) (x1 t) (e0 t) (e1 t) (q t) (z t)).upar 0 j)
        ((four (realS al sd cd d1 d2 d3) (x0 t) (x1 t) (e0 t) (e1 t) (q t) (z t)).upar 1 j)
        (-(four (realS al sd cd d1 d2 d3) (x0 t) (x1 t) (e0 t) (e1 t) (q t) (z t)).upar 2 j)) t := by
  have hz : HasDerivAt (fun t => -(e0 t * sd - q t * cd)) (-(b * sd - w * cd)) t :=
    ((h00.he.mul_const sd).fun_sub (h00.hq.mul_const cd)).fun_neg
  have := (realS_rate (al := al) tr d1 d2 d3 j).four h00 h11 hz h0 (fun h => h.elim) (fun h => h.elim) (fun G t => rfl)
  simp only [four_disp, four_upar]
  refine this.congr_deriv ?_
  simp only [rate, realS]
  ring

theorem img_der {al sd cd : ℝ} (tr : sd * sd + cd * cd = 1) (hs : 0 ≤ sd) (d1 d2 d3 : ℝ) (j : Fin 3) {x0 x1 e0 e1 q z : ℝ → ℝ} {a b w t : ℝ}
    (h00 : Curve x0 e0 q a b w t) (h11 : Curve x1 e1 q a b w t) (hz : HasDerivAt z (-(b * sd - w * cd)) t) (h0 : q t ≠ 0)
    (hi0 : 0 ≤ e0 t * sd - q t * cd) (hi1 : 0 ≤ e1 t * sd - q t * cd) :
    HasDerivAt (fun t => (four (imgS al sd cd d1 d2 d3) (x0 t) (x1 t) (e0 t) (e1 t) (q t) (z t)).disp j)
      (rate sd cd a b w ((four (imgS al sd cd d1 d2 d3) (x0 t) (x1 t) (e0 t) (e1 t) (q t) (z t)).upar 0 j)
        ((four (imgS al sd cd d1 d2 d3) (x0 t) (x1 t) (e0 t) (e1 t) (q t) (z t)).upar 1 j)
        ((four (imgS al sd cd d1 d2 d3) (x0 t) (x1 t) (e0 t) (e1 t) (q t) (z t)).upar 2 j)) t := by
  have := (imgS_rate (al := al) tr hs d1 d2 d3 j).four h00 h11 hz h0 (fun _ => hi0) (fun _ => hi1) (fun G t => rfl)
  simp only [four_disp, four_upar]
  exact this

theorem rate_x (s c A B C : ℝ) : 1 * A + (0 * c + 0 * s) * B - (0 * s - 0 * c) * C = A := by ring

theorem finReal_grad {al sd cd dep l1 l2 w1 w2 d1 d2 d3 : ℝ} (tr : sd * sd + cd * cd = 1) {p : V3}
    (h0 : across sd cd (p 1) (dep + p 2) ≠ 0) : GradD (finReal al sd cd dep l1 l2 w1 w2 d1 d2 d3) p := by
  intro i j
  fin_cases i
  · refine (real_der (al := al) tr d1 d2 d3 j (a := 1) (b := 0) (w := 0) (x0 := fun t => t - l1) (x1 := fun t => t - l2)
      (e0 := fun _ => upDip sd cd (p 1) (dep + p 2) - w1) (e1 := fun _ => upDip sd cd (p 1) (dep + p 2) - w2)
      (q := fun _ => across sd cd (p 1) (dep + p 2)) (z := fun _ => p 2)
      ⟨(hasDerivAt_id' _).sub_const _, hasDerivAt_const _ _, hasDerivAt_const _ _⟩
      ⟨(hasDerivAt_id' _).sub_const _, hasDerivAt_const _ _, hasDerivAt_const _ _⟩ h0).congr_deriv ?_
    simp only [rate, finReal]
    exact rate_x _ _ _ _ _
  · refine (real_der (al := al) tr d1 d2 d3 j (a := 0) (b := cd) (w := sd) (x0 := fun _ => p 0 - l1) (x1 := fun _ => p 0 - l2)
      (e0 := fun t => upDip sd cd t (dep + p 2) - w1) (e1 := fun t => upDip sd cd t (dep + p 2) - w2)
      (q := fun t => across sd cd t (dep + p 2)) (z := fun _ => p 2)
      ⟨hasDerivAt_const _ _, lin_d' ((dep + p 2) * sd - w1) _ _ fun t => by unfold upDip; ring,
        lin_d' (-((dep + p 2) * cd)) _ _ fun t => by unfold across; ring⟩
      ⟨hasDerivAt_const _ _, lin_d' ((dep + p 2) * sd - w2) _ _ fun t => by unfold upDip; ring,
        lin_d' (-((dep + p 2) * cd)) _ _ fun t => by unfold across; ring⟩ h0).congr_deriv ?_
    simp only [rate, finReal]
    change _ = (four _ (p 0 - l1) (p 0 - l2) _ _ _ _).upar 1 j
    linear_combination ((four (realS al sd cd d1 d2 d3) (p 0 - l1) (p 0 - l2) (upDip sd cd (p 1) (dep + p 2) - w1)
      (upDip sd cd (p 1) (dep + p 2) - w2) (across sd cd (p 1) (dep + p 2)) (p 2)).upar 1 j) * tr
  · refine (real_der (al := al) tr d1 d2 d3 j (a := 0) (b := sd) (w := -cd) (x0 := fun _ => p 0 - l1) (x1 := fun _ => p 0 - l2)
      (e0 := fun t => upDip sd cd (p 1) (dep + t) - w1) (e1 := fun t => upDip sd cd (p 1) (dep + t) - w2)
      (q := fun t => across sd cd (p 1) (dep + t)) (z := fun t => t)
      ⟨hasDerivAt_const _ _, lin_d' (p 1 * cd + dep * sd - w1) _ _ fun t => by unfold upDip; ring,
        lin_d' (p 1 * sd - dep * cd) _ _ fun t => by unfold across; ring⟩
      ⟨hasDerivAt_const _ _, lin_d' (p 1 * cd + dep * sd - w2) _ _ fun t => by unfold upDip; ring,
        lin_d' (p 1 * sd - dep * cd) _ _ fun t => by unfold across; ring⟩ h0).congr_deriv ?_
    simp only [rate, finReal]
    change _ = (four _ (p 0 - l1) (p 0 - l2) _ _ _ _).upar 2 j
    linear_combination ((four (realS al sd cd d1 d2 d3) (p 0 - l1) (p 0 - l2) (upDip sd cd (p 1) (dep + p 2) - w1)
      (upDip sd cd (p 1) (dep + p 2) - w2) (across sd cd (p 1) (dep + p 2)) (p 2)).upar 2 j) * tr

theorem dist_depth {sd cd : ℝ} (tr : sd * sd + cd * cd = 1) (y d w : ℝ) :
    (upDip sd cd y d - w) * sd - across sd cd y d * cd = d - w * sd := by
  unfold upDip across
  linear_combination d * tr

theorem finImg_grad {al sd cd dep l1 l2 w1 w2 d1 d2 d3 : ℝ} (tr : sd * sd + cd * cd = 1) (hs : 0 ≤ sd) {p : V3}
    (h0 : across sd cd (p 1) (dep - p 2) ≠ 0) (k1 : 0 ≤ dep - p 2 - w1 * sd) (k2 : 0 ≤ dep - p 2 - w2 * sd) :
    GradD (finImg al sd cd dep l1 l2 w1 w2 d1 d2 d3) p := by
  rw [← dist_depth tr (p 1)] at k1 k2
  intro i j
  fin_cases i
  · refine (img_der (al := al) tr hs d1 d2 d3 j (a := 1) (b := 0) (w := 0) (x0 := fun t => t - l1) (x1 := fun t => t - l2)
      (e0 := fun _ => upDip sd cd (p 1) (dep - p 2) - w1) (e1 := fun _ => upDip sd cd (p 1) (dep - p 2) - w2)
      (q := fun _ => across sd cd (p 1) (dep - p 2)) (z := fun _ => p 2)
      ⟨(hasDerivAt_id' _).sub_const _, hasDerivAt_const _ _, hasDerivAt_const _ _⟩
      ⟨(hasDerivAt_id' _).sub_const _, hasDerivAt_const _ _, hasDerivAt_const _ _⟩
      ((hasDerivAt_const _ _).congr_deriv (by ring)) h0 k1 k2).congr_deriv ?_
    simp only [rate, finImg]
    exact rate_x _ _ _ _ _
  · refine (img_der (al := al) tr hs d1 d2 d3 j (a := 0) (b := cd) (w := sd) (x0 := fun _ => p 0 - l1) (x1 := fun _ => p 0 - l2)
      (e0 := fun t => upDip sd cd t (dep - p 2) - w1) (e1 := fun t => upDip sd cd t (dep - p 2) - w2)
      (q := fun t => across sd cd t (dep - p 2)) (z := fun _ => p 2)
      ⟨hasDerivAt_const _ _, lin_d' ((dep - p 2) * sd - w1) _ _ fun t => by unfold upDip; ring,
        lin_d' (-((dep - p 2) * cd)) _ _ fun t => by unfold across; ring⟩
      ⟨hasDerivAt_const _ _, lin_d' ((dep - p 2) * sd - w2) _ _ fun t => by unfold upDip; ring,
        lin_d' (-((dep - p 2) * cd)) _ _ fun t => by unfold across; ring⟩
      ((hasDerivAt_const _ _).congr_deriv (by ring)) h0 k1 k2).congr_deriv ?_
    simp only [rate, finImg]
    change _ = (four _ (p 0 - l1) (p 0 - l2) _ _ _ _).upar 1 j
    linear_combination ((four (imgS al sd cd d1 d2 d3) (p 0 - l1) (p 0 - l2) (upDip sd cd (p 1) (dep - p 2) - w1)
      (upDip sd cd (p 1) (dep - p 2) - w2) (across sd cd (p 1) (dep - p 2)) (p 2)).upar 1 j) * tr
  · refine (img_der (al := al) tr hs d1 d2 d3 j (a := 0) (b := -sd) (w := cd) (x0 := fun _ => p 0 - l1) (x1 := fun _ => p 0 - l2)
      (e0 := fun t => upDip sd cd (p 1) (dep - t) - w1) (e1 := fun t => upDip sd cd (p 1) (dep - t) - w2)
      (q := fun t => across sd cd (p 1) (dep - t)) (z := fun t => t)
      ⟨hasDerivAt_const _ _, lin_d' (p 1 * cd + dep * sd - w1) _ _ fun t => by unfold upDip; ring,
        lin_d' (p 1 * sd - dep * cd) _ _ fun t => by unfold across; ring⟩
      ⟨hasDerivAt_const _ _, lin_d' (p 1 * cd + dep * sd - w2) _ _ fun t => by unfold upDip; ring,
        lin_d' (p 1 * sd - dep * cd) _ _ fun t => by unfold across; ring⟩
      ((hasDerivAt_id' _).congr_deriv (by linear_combination -tr)) h0 k1 k2).congr_deriv ?_
    simp only [rate, finImg]
    change _ = (four _ (p 0 - l1) (p 0 - l2) _ _ _ _).upar 2 j
    linear_combination ((four (imgS al sd cd d1 d2 d3) (p 0 - l1) (p 0 - l2) (upDip sd cd (p 1) (dep - p 2) - w1)
      (upDip sd cd (p 1) (dep - p 2) - w2) (across sd cd (p 1) (dep - p 2)) (p 2)).upar 2 j) * tr

/-- The whole field. -/
noncomputable def finT (al sd cd dep l1 l2 w1 w2 d1 d2 d3 : ℝ) (p : V3) : D12 :=
  (finReal al sd cd dep l1 l2 w1 w2 d1 d2 d3 p).addScaled (finImg al sd cd dep l1 l2 w1 w2 d1 d2 d3 p) 1

theorem finT_grad {al sd cd dep l1 l2 w1 w2 d1 d2 d3 : ℝ} (tr : sd * sd + cd * cd = 1) (hs : 0 ≤ sd) {p : V3}
    (h0 : across sd cd (p 1) (dep + p 2) ≠ 0) (h1 : across sd cd (p 1) (dep - p 2) ≠ 0)
    (k1 : 0 ≤ dep - p 2 - w1 * sd) (k2 : 0 ≤ dep - p 2 - w2 * sd) : GradD (finT al sd cd dep l1 l2 w1 w2 d1 d2 d3) p :=
  (finReal_grad tr h0).add (finImg_grad tr hs h1 k1 k2) 1

end GRT.Okada
