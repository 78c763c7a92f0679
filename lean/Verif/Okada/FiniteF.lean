import Verif.Okada.FiniteK
import Verif.Okada.FiniteInt
import Verif.Okada.PointSm

/-! A finite fault is the integral of point sources over its plane. -/

namespace GRT.Okada

open Spec MeasureTheory Set

/-- The whole field of a point source, without an isotropic part. -/
noncomputable def ptField (al sd cd d1 d2 d3 dep : ℝ) (q : V3) : D12 :=
  (realT al sd cd dep d1 d2 d3 0 q).addScaled (imgT al sd cd dep d1 d2 d3 0 q) 1

/-- The field of the patch at distance `v.1` along the strike and `v.2` up the dip. -/
noncomputable def patch (al sd cd dep d1 d2 d3 : ℝ) (p : V3) (v : ℝ × ℝ) : D12 :=
  ptField al sd cd d1 d2 d3 (dep - v.2 * sd) (p - ![v.1, v.2 * cd, 0])

theorem realT_UA (al sd cd dep d1 d2 d3 : ℝ) (q : V3) : realT al sd cd dep d1 d2 d3 0 q =
    realD (UA0 (medOf al sd cd) (ptOf (medOf al sd cd) (q 0) (q 1) (dep + q 2)) d1 d2 d3 0) := by
  simp only [UA0_sum, realT, realF_1, realF_2, realF_3, realF_4]
  generalize ptOf (medOf al sd cd) (q 0) (q 1) (dep + q 2) = P
  generalize medOf al sd cd = m
  generalize UA0_1 m P = a1
  generalize UA0_2 m P = a2
  generalize UA0_3 m P = a3
  generalize UA0_4 m P = a4
  simp only [D12.addScaled, D12.zero, realD]
  ext <;> dsimp only <;> ring

theorem imgT_UA (al sd cd dep d1 d2 d3 : ℝ) (q : V3) : imgT al sd cd dep d1 d2 d3 0 q =
    imgSum (q 2) (UA0 (medOf al sd cd) (ptOf (medOf al sd cd) (q 0) (q 1) (dep - q 2)) d1 d2 d3 0)
      (UB0 (medOf al sd cd) (ptOf (medOf al sd cd) (q 0) (q 1) (dep - q 2)) (q 2) d1 d2 d3 0)
      (UC0 (medOf al sd cd) (ptOf (medOf al sd cd) (q 0) (q 1) (dep - q 2)) (q 2) d1 d2 d3 0) := by
  simp only [UA0_sum, UB0_sum, UC0_sum, imgT, imgF_1, imgF_2, imgF_3, imgF_4]
  generalize ptOf (medOf al sd cd) (q 0) (q 1) (dep - q 2) = Q
  generalize medOf al sd cd = m
  generalize UA0_1 m Q = b1
  generalize UB0_1 m Q (q 2) = c1
  generalize UC0_1 m Q (q 2) = e1
  generalize UA0_2 m Q = b2
  generalize UB0_2 m Q (q 2) = c2
  generalize UC0_2 m Q (q 2) = e2
  generalize UA0_3 m Q = b3
  generalize UB0_3 m Q (q 2) = c3
  generalize UC0_3 m Q (q 2) = e3
  generalize UA0_4 m Q = b4
  generalize UB0_4 m Q (q 2) = c4
  generalize UC0_4 m Q (q 2) = e4
  simp only [D12.addScaled, D12.zero, imgSum]
  ext <;> dsimp only <;> ring

theorem sub0 (p : V3) (s w : ℝ) : (p - ![s, w, 0]) 0 = p 0 - s := by simp
theorem sub1 (p : V3) (s w : ℝ) : (p - ![s, w, 0]) 1 = p 1 - w := by simp
theorem sub2 (p : V3) (s w : ℝ) : (p - ![s, w, 0]) 2 = p 2 := by simp

theorem rot_pt {al sd cd : ℝ} (tr : sd * sd + cd * cd = 1) (x y d w : ℝ) :
    ptOf (medOf al sd cd) x (y - w * cd) (d - w * sd) = ptS (medOf al sd cd) x (upDip sd cd y d - w) (across sd cd y d) := by
  rw [← ptOf_rot tr]
  congr 1
  · unfold upDip across
    linear_combination -y * tr
  · unfold upDip across
    linear_combination -d * tr

theorem rot_sq {sd cd : ℝ} (tr : sd * sd + cd * cd = 1) (x y d w : ℝ) :
    x * x + (y - w * cd) * (y - w * cd) + (d - w * sd) * (d - w * sd) =
      x * x + (upDip sd cd y d - w) * (upDip sd cd y d - w) + across sd cd y d * across sd cd y d := by
  unfold upDip across
  linear_combination (w * w - y * y - d * d) * tr

/-- The position is on neither the plane of the fault nor that of its image. -/
structure Off (sd cd dep : ℝ) (p : V3) : Prop where
  real : across sd cd (p 1) (dep + p 2) ≠ 0
  img : across sd cd (p 1) (dep - p 2) ≠ 0

theorem sq_ne {sd cd : ℝ} (tr : sd * sd + cd * cd = 1) {y d : ℝ} (h : across sd cd y d ≠ 0) (x w : ℝ) :
    x * x + (y - w * cd) * (y - w * cd) + (d - w * sd) * (d - w * sd) ≠ 0 := by
  rw [rot_sq tr]
  exact ne3 h

theorem rr_ne {x y d : ℝ} (h : x * x + y * y + d * d ≠ 0) (hd : 0 ≤ d) : rr x y d + d ≠ 0 := by
  have : 0 < rr x y d := Real.sqrt_pos.2 (lt_of_le_of_ne (nn3 x y d) h.symm)
  linarith

theorem UA0_smooth {E : Type*} [NormedAddCommGroup E] [NormedSpace ℝ E] {a b d : E → ℝ} {v : E} (m : Med) (pot1 pot2 pot3 pot4 : ℝ)
    (ha : ContDiffAt ℝ 2 a v) (hb : ContDiffAt ℝ 2 b v) (hd : ContDiffAt ℝ 2 d v) (h : a v * a v + b v * b v + d v * d v ≠ 0) :
    SmoothD (fun v => UA0 m (ptOf m (a v) (b v) (d v)) pot1 pot2 pot3 pot4) v := by
  simp only [UA0_sum]
  exact ((((SmoothD.zero v).add (UA0_1_smooth m ha hb hd h) _).add (UA0_2_smooth m ha hb hd h) _).add (UA0_3_smooth m ha hb hd h) _).add
    (UA0_4_smooth m ha hb hd h) _

theorem UB0_smooth {E : Type*} [NormedAddCommGroup E] [NormedSpace ℝ E] {a b d z : E → ℝ} {v : E} (m : Med) (pot1 pot2 pot3 pot4 : ℝ)
    (ha : ContDiffAt ℝ 2 a v) (hb : ContDiffAt ℝ 2 b v) (hd : ContDiffAt ℝ 2 d v) (hz : ContDiffAt ℝ 2 z v)
    (h : a v * a v + b v * b v + d v * d v ≠ 0) (h' : rr (a v) (b v) (d v) + d v ≠ 0) :
    SmoothD (fun v => UB0 m (ptOf m (a v) (b v) (d v)) (z v) pot1 pot2 pot3 pot4) v := by
  simp only [UB0_sum]
  exact ((((SmoothD.zero v).add (UB0_1_smooth m ha hb hd hz h h') _).add (UB0_2_smooth m ha hb hd hz h h') _).add
    (UB0_3_smooth m ha hb hd hz h h') _).add (UB0_4_smooth m ha hb hd hz h h') _

theorem UC0_smooth {E : Type*} [NormedAddCommGroup E] [NormedSpace ℝ E] {a b d z : E → ℝ} {v : E} (m : Med) (pot1 pot2 pot3 pot4 : ℝ)
    (ha : ContDiffAt ℝ 2 a v) (hb : ContDiffAt ℝ 2 b v) (hd : ContDiffAt ℝ 2 d v) (hz : ContDiffAt ℝ 2 z v)
    (h : a v * a v + b v * b v + d v * d v ≠ 0) :
    SmoothD (fun v => UC0 m (ptOf m (a v) (b v) (d v)) (z v) pot1 pot2 pot3 pot4) v := by
  simp only [UC0_sum]
  exact ((((SmoothD.zero v).add (UC0_1_smooth m ha hb hd hz h) _).add (UC0_2_smooth m ha hb hd hz h) _).add
    (UC0_3_smooth m ha hb hd hz h) _).add (UC0_4_smooth m ha hb hd hz h) _

theorem patch_eq (al sd cd dep d1 d2 d3 : ℝ) (p : V3) (v : ℝ × ℝ) : patch al sd cd dep d1 d2 d3 p v =
    (realD (UA0 (medOf al sd cd) (ptOf (medOf al sd cd) (p 0 - v.1) (p 1 - v.2 * cd) (dep + p 2 - v.2 * sd)) d1 d2 d3 0)).addScaled
    (imgSum (p 2) (UA0 (medOf al sd cd) (ptOf (medOf al sd cd) (p 0 - v.1) (p 1 - v.2 * cd) (dep - p 2 - v.2 * sd)) d1 d2 d3 0)
      (UB0 (medOf al sd cd) (ptOf (medOf al sd cd) (p 0 - v.1) (p 1 - v.2 * cd) (dep - p 2 - v.2 * sd)) (p 2) d1 d2 d3 0)
      (UC0 (medOf al sd cd) (ptOf (medOf al sd cd) (p 0 - v.1) (p 1 - v.2 * cd) (dep - p 2 - v.2 * sd)) (p 2) d1 d2 d3 0)) 1 := by
  simp only [patch, ptField, realT_UA, imgT_UA, sub0, sub1, sub2]
  rw [show dep - v.2 * sd + p 2 = dep + p 2 - v.2 * sd by ring, show dep - v.2 * sd - p 2 = dep - p 2 - v.2 * sd by ring]

theorem patch_smooth {al sd cd dep : ℝ} (tr : sd * sd + cd * cd = 1) (d1 d2 d3 : ℝ) {p : V3} (h : Off sd cd dep p) {v : ℝ × ℝ}
    (k : 0 ≤ dep - p 2 - v.2 * sd) :
    SmoothD (fun x : V3 × ℝ × ℝ => patch al sd cd dep d1 d2 d3 x.1 x.2) (p, v) := by
  simp only [patch_eq]
  have c0 : ContDiffAt ℝ 2 (fun x : V3 × ℝ × ℝ => x.1 0 - x.2.1) (p, v) := by fun_prop
  have c1 : ContDiffAt ℝ 2 (fun x : V3 × ℝ × ℝ => x.1 1 - x.2.2 * cd) (p, v) := by fun_prop
  have c2 : ContDiffAt ℝ 2 (fun x : V3 × ℝ × ℝ => dep + x.1 2 - x.2.2 * sd) (p, v) := by fun_prop
  have c3 : ContDiffAt ℝ 2 (fun x : V3 × ℝ × ℝ => dep - x.1 2 - x.2.2 * sd) (p, v) := by fun_prop
  have c4 : ContDiffAt ℝ 2 (fun x : V3 × ℝ × ℝ => x.1 2) (p, v) := by fun_prop
  have n1 := sq_ne tr h.real (p 0 - v.1) v.2
  have n2 := sq_ne tr h.img (p 0 - v.1) v.2
  have n3 := rr_ne n2 k
  exact (SmoothD.real (UA0_smooth _ _ _ _ _ c0 c1 c2 n1)).add
    (SmoothD.img (UA0_smooth _ _ _ _ _ c0 c1 c3 n2) (UB0_smooth _ _ _ _ _ c0 c1 c3 c4 n2 n3) (UC0_smooth _ _ _ _ _ c0 c1 c3 c4 n2) c4) 1

theorem depth_mid {sd dep z w1 w2 w : ℝ} (k1 : 0 ≤ dep - z - w1 * sd) (k2 : 0 ≤ dep - z - w2 * sd) (h1 : w1 ≤ w) (h2 : w ≤ w2) (hs : 0 ≤ sd) :
    0 ≤ dep - z - w * sd := by nlinarith

theorem patch_pt {al sd cd dep : ℝ} (tr : sd * sd + cd * cd = 1) (d1 d2 d3 : ℝ) (p : V3) (s w : ℝ) (j : Fin 3) :
    (patch al sd cd dep d1 d2 d3 p (s, w)).disp j =
      (realD (UA0 (medOf al sd cd) (ptS (medOf al sd cd) (p 0 - s) (upDip sd cd (p 1) (dep + p 2) - w) (across sd cd (p 1) (dep + p 2)))
        d1 d2 d3 0)).disp j +
      (imgSum (p 2)
        (UA0 (medOf al sd cd) (ptS (medOf al sd cd) (p 0 - s) (upDip sd cd (p 1) (dep - p 2) - w) (across sd cd (p 1) (dep - p 2))) d1 d2 d3 0)
        (UB0 (medOf al sd cd) (ptS (medOf al sd cd) (p 0 - s) (upDip sd cd (p 1) (dep - p 2) - w) (across sd cd (p 1) (dep - p 2))) (p 2) d1 d2 d3 0)
        (UC0 (medOf al sd cd) (ptS (medOf al sd cd) (p 0 - s) (upDip sd cd (p 1) (dep - p 2) - w) (across sd cd (p 1) (dep - p 2))) (p 2)
          d1 d2 d3 0)).disp j := by
  rw [patch_eq, rot_pt tr, rot_pt tr, disp_add]
  simp only [one_mul]

/-- Along the strike a corner term changes at the rate of its reported derivative, up to a term that does not depend on the distance
up the dip. -/
theorem HasRate.strike {s c : ℝ} {im : Prop} {F Fx Fy Fz : ℝ → ℝ → ℝ → ℝ → ℝ} (h : HasRate s c im F Fx Fy Fz) :
    ∃ g : ℝ → ℝ → ℝ, ∀ x e q z, q ≠ 0 → (im → 0 ≤ e * s - q * c) → HasDerivAt (fun x => F x e q z) (Fx x e q z + g x q) x := by
  obtain ⟨g, k, k0, H⟩ := h
  refine ⟨fun x q => g x q 1 0, fun x e q z h0 hi => ?_⟩
  refine (H (fun t => t) (fun _ => e) (fun _ => q) (fun _ => z) 1 0 0 x ⟨hasDerivAt_id' _, hasDerivAt_const _ _, hasDerivAt_const _ _⟩
    ((hasDerivAt_const _ _).congr_deriv (by ring)) h0 hi).congr_deriv ?_
  rw [k0]
  simp only [rate]
  ring

/-- The displacements of a finite fault are the integrals of those of its patches. -/
theorem fin_disp {al sd cd dep l1 l2 w1 w2 : ℝ} (tr : sd * sd + cd * cd = 1) (hs : 0 ≤ sd) (d1 d2 d3 : ℝ) {p : V3} (h : Off sd cd dep p)
    (hw : w1 ≤ w2) (k1 : 0 ≤ dep - p 2 - w1 * sd) (k2 : 0 ≤ dep - p 2 - w2 * sd) (j : Fin 3) :
    (finT al sd cd dep l1 l2 w1 w2 d1 d2 d3 p).disp j =
      ∫ s in l1..l2, ∫ w in w1..w2, (patch al sd cd dep d1 d2 d3 p (s, w)).disp j := by
  obtain ⟨g1, H1⟩ := (realS_rate (al := al) tr d1 d2 d3 j).strike
  obtain ⟨g2, H2⟩ := (imgS_rate (al := al) tr hs d1 d2 d3 j).strike
  have dm : ∀ e ∈ Icc (0 - w2) (0 - w1), 0 ≤ dep - p 2 - (-e) * sd := fun e he =>
    depth_mid k1 k2 (by linarith [he.2]) (by linarith [he.1]) hs
  have dm' : ∀ e ∈ Icc (0 - w2) (0 - w1), 0 ≤ (upDip sd cd (p 1) (dep - p 2) + e) * sd - across sd cd (p 1) (dep - p 2) * cd := fun e he => by
    have a := dist_depth tr (p 1) (dep - p 2) (-e)
    rw [sub_neg_eq_add] at a
    rw [a]
    exact dm e he
  have key := corner_int (X := p 0) (P := 0) (l1 := l1) (l2 := l2) (w1 := w1) (w2 := w2)
    (F := fun x e => (realS al sd cd d1 d2 d3 x (upDip sd cd (p 1) (dep + p 2) + e) (across sd cd (p 1) (dep + p 2)) (p 2)).disp j +
      (imgS al sd cd d1 d2 d3 x (upDip sd cd (p 1) (dep - p 2) + e) (across sd cd (p 1) (dep - p 2)) (p 2)).disp j)
    (Fx := fun x e => (realS al sd cd d1 d2 d3 x (upDip sd cd (p 1) (dep + p 2) + e) (across sd cd (p 1) (dep + p 2)) (p 2)).upar 0 j +
      (imgS al sd cd d1 d2 d3 x (upDip sd cd (p 1) (dep - p 2) + e) (across sd cd (p 1) (dep - p 2)) (p 2)).upar 0 j)
    (K := fun x e => (patch al sd cd dep d1 d2 d3 p (p 0 - x, -e)).disp j)
    (g := fun x => g1 x (across sd cd (p 1) (dep + p 2)) + g2 x (across sd cd (p 1) (dep - p 2))) hw ?_ ?_ ?_
  · simp only [sub_sub_cancel, zero_sub, neg_neg] at key
    rw [← key]
    simp only [finT, finReal, finImg, disp_add, four_disp, sub_eq_add_neg]
    ring
  · intro x e he
    exact ((H1 x _ _ (p 2) h.real (fun hf => hf.elim)).fun_add (H2 x _ _ (p 2) h.img fun _ => dm' e he)).congr_deriv (by ring)
  · intro x e he
    have a := (real_K (al := al) (x := x) (t := upDip sd cd (p 1) (dep + p 2) + e) tr h.real (p 2) d1 d2 d3 j).comp_const_add _ e
    have b := (img_K (al := al) (x := x) (t := upDip sd cd (p 1) (dep - p 2) + e) tr hs h.img (dm' e he) (p 2) d1 d2 d3 j).comp_const_add _ e
    refine (a.fun_add b).congr_deriv ?_
    rw [patch_pt tr]
    simp only [sub_sub_cancel, sub_neg_eq_add]
  · intro x e he
    have a := ((patch_smooth (al := al) tr d1 d2 d3 h (v := (p 0 - x, -e)) (dm e he)).disp j).continuousAt
    exact ContinuousAt.comp (f := fun v : ℝ × ℝ => ((p, p 0 - v.1, -v.2) : V3 × ℝ × ℝ)) (x := (x, e)) a (by fun_prop)

theorem patch_cont {al sd cd dep w1 w2 : ℝ} (tr : sd * sd + cd * cd = 1) (hs : 0 ≤ sd) (d1 d2 d3 : ℝ) {p : V3} (h : Off sd cd dep p)
    (k1 : 0 ≤ dep - p 2 - w1 * sd) (k2 : 0 ≤ dep - p 2 - w2 * sd) {v : ℝ × ℝ} {l1 l2 : ℝ} (hv : v ∈ rect l1 l2 w1 w2) :
    SmoothD (fun x : V3 × ℝ × ℝ => patch al sd cd dep d1 d2 d3 x.1 x.2) (p, v) :=
  patch_smooth tr d1 d2 d3 h (depth_mid k1 k2 hv.2.1 hv.2.2 hs)

end GRT.Okada
