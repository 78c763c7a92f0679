import Verif.Okada.FiniteS
import Verif.Okada.PointProp

/-! What `grt_okada_dc3d` computes off the plane of the fault and of its image. -/

namespace GRT.Okada

open Spec

theorem UB_1a_shift (c : Med) (f : Cor) (i j : ℝ) :
    UB_1a c f i = (UB_1a c f j).addScaled ⟨c.alp3 * c.sd * c.sd, 0, 0, 0, 0, 0, 0, 0, 0, 0, 0, 0⟩ (i - j) := by
  simp only [UB_1a, D12.addScaled]
  ext <;> dsimp only <;> ring

theorem UB_2a_shift (c : Med) (f : Cor) (i j : ℝ) :
    UB_2a c f i = (UB_2a c f j).addScaled ⟨0, 0, c.alp3 * c.sdcd, 0, 0, 0, 0, 0, 0, 0, 0, 0⟩ (i - j) := by
  simp only [UB_2a, D12.addScaled]
  ext <;> dsimp only <;> ring

theorem UB_3a_shift (c : Med) (f : Cor) (i j : ℝ) :
    UB_3a c f i = (UB_3a c f j).addScaled ⟨0, 0, -(c.alp3 * c.sdsd), 0, 0, 0, 0, 0, 0, 0, 0, 0⟩ (i - j) := by
  simp only [UB_3a, D12.addScaled]
  ext <;> dsimp only <;> ring

/-- How the results of an image corner change with `ai4`. -/
noncomputable def jmp (c : Med) (d1 d2 d3 : ℝ) : D12 :=
  ⟨d1 / (2 * Real.pi) * (c.alp3 * c.sd * c.sd),
    -(d2 / (2 * Real.pi) * (c.alp3 * c.sdcd) - d3 / (2 * Real.pi) * (c.alp3 * c.sdsd)) * c.sd,
    (d2 / (2 * Real.pi) * (c.alp3 * c.sdcd) - d3 / (2 * Real.pi) * (c.alp3 * c.sdsd)) * c.cd, 0, 0, 0, 0, 0, 0, 0, 0, 0⟩

theorem rotImg_shift (c : Med) (f : Cor) (z : ℝ) (A C : D12) (i j d1 d2 d3 : ℝ) :
    rotImg c z A (UBs c f i d1 d2 d3) C = (rotImg c z A (UBs c f j d1 d2 d3) C).addScaled (jmp c d1 d2 d3) (i - j) := by
  simp only [UBs]
  rw [UB_1a_shift c f i j, UB_2a_shift c f i j, UB_3a_shift c f i j]
  generalize UB_1a c f j = b1
  generalize UB_2a c f j = b2
  generalize UB_3a c f j = b3
  simp only [rotImg, D12.addScaled, jmp, D12.zero]
  ext <;> dsimp only <;> ring

theorem ubI4_i4S {al sd cd x e q : ℝ} (tr : sd * sd + cd * cd = 1) (hs : 0 < sd) (h0 : q ≠ 0) (hd : 0 ≤ e * sd - q * cd) :
    ubI4 (medOf al sd cd) (corS (medOf al sd cd) x e q) - i4S (medOf al sd cd) x e q =
      if cd ≠ 0 then 1 / (cd * cd) * (Real.pi * SignType.sign (x * cd)) else 0 := by
  by_cases hc : cd = 0
  · subst hc
    simp [ubI4, i4S, medOf, corS]
  · have h := atan_th (s := sd) (x := x) (e := e) hc h0 (fun hx => by rw [hx]; exact tN_pos tr hs h0 hd)
    have e1 : ubI4 (medOf al sd cd) (corS (medOf al sd cd) x e q) = if x = 0 then 0 else 1 / (cd * cd) *
      (x / (rr x e q + (e * sd - q * cd)) * (sd * cd) + 2 * Real.arctan (tN sd cd x e q / tM cd x e q)) := if_pos hc
    have e2 : i4S (medOf al sd cd) x e q = 1 / (cd * cd) *
      (x / (rr x e q + (e * sd - q * cd)) * (sd * cd) + th sd cd x e q) := if_pos hc
    rw [e1, e2, if_pos hc]
    by_cases hx : x = 0
    · rw [if_pos hx] at h ⊢
      rw [hx] at h ⊢
      rw [zero_div, zero_mul, zero_add]
      linear_combination 1 / (cd * cd) * h
    · rw [if_neg hx] at h ⊢
      rw [h]
      ring

theorem dccon2_off {c : Med} {xi et q : ℝ} (h1 : Plain xi) (h2 : Plain et) (h3 : Plain q) (h0 : q ≠ 0) : dccon2 c xi et q = some (corS c xi et q) := by
  have k1 : ¬(xi < 0 ∧ q = 0 ∧ et = 0) := fun h => h0 h.2.1
  have k2 : ¬(et < 0 ∧ q = 0 ∧ xi = 0) := fun h => h0 h.2.1
  unfold dccon2
  simp only [snap_plain h1, snap_plain h2, snap_plain h3]
  rw [corOf_eq _ _ _ _ _ _ h0 k1 k2, if_neg (show (corS c xi et q).r ≠ 0 from (rr_pos h0).ne'), if_neg]
  rw [if_neg k1, if_neg k2]
  rintro (h | h)
  · exact (sg_pos (x := xi) (e := et) h0).ne' h
  · exact (bt_pos (x := xi) (e := et) h0).ne' h

theorem cornerReal_off {al sd cd d1 d2 d3 xi et q : ℝ} (h1 : Plain xi) (h2 : Plain et) (h3 : Plain q) (h0 : q ≠ 0) (z : ℝ) :
    cornerReal (medOf al sd cd) d1 d2 d3 q xi et = some (realS al sd cd d1 d2 d3 xi et q z) := by
  simp only [cornerReal, dccon2_off h1 h2 h3 h0, Option.map_some, realS]

theorem cornerImg_off {al sd cd d1 d2 d3 xi et q z : ℝ} (h1 : Plain xi) (h2 : Plain et) (h3 : Plain q) (h0 : q ≠ 0)
    (hd : 0 ≤ et * sd - q * cd) :
    cornerImg (medOf al sd cd) z d1 d2 d3 q xi et = some ((imgS al sd cd d1 d2 d3 xi et q z).addScaled (jmp (medOf al sd cd) d1 d2 d3)
      (ubI4 (medOf al sd cd) (corS (medOf al sd cd) xi et q) - i4S (medOf al sd cd) xi et q)) := by
  simp only [cornerImg, dccon2_off h1 h2 h3 h0, Option.bind_some]
  rw [if_neg (show (corS (medOf al sd cd) xi et q).r + (corS (medOf al sd cd) xi et q).d ≠ 0 from (rd_pos h0 hd).ne'), UB_sum, rotImg_shift]
  rfl

theorem jmp_zero (al cd d1 d2 d3 : ℝ) (u : D12) (k : ℝ) : u.addScaled (jmp (medOf al 0 cd) d1 d2 d3) k = u := by
  simp [D12.addScaled, jmp, medOf]

theorem addScaled_comm (a b c : D12) (k m : ℝ) : (a.addScaled b k).addScaled c m = (a.addScaled c m).addScaled b k := by
  simp only [D12.addScaled]
  ext <;> dsimp only <;> ring

/-- The image corners of the program add up to the smooth ones. -/
theorem addImg {al sd cd d1 d2 d3 x0 x1 e0 e1 q z : ℝ} (tr : sd * sd + cd * cd = 1) (hs : 0 ≤ sd) (p0 : Plain x0) (p1 : Plain x1)
    (p2 : Plain e0) (p3 : Plain e1) (p4 : Plain q) (h0 : q ≠ 0) (k0 : 0 ≤ e0 * sd - q * cd) (k1 : 0 ≤ e1 * sd - q * cd) (u : D12) :
    addCorners (cornerImg (medOf al sd cd) z d1 d2 d3 q) x0 x1 e0 e1 u =
      some (u.addScaled (four (imgS al sd cd d1 d2 d3) x0 x1 e0 e1 q z) 1) := by
  simp only [addCorners, cornerImg_off p0 p2 p4 h0 k0, cornerImg_off p1 p2 p4 h0 k0, cornerImg_off p0 p3 p4 h0 k1,
    cornerImg_off p1 p3 p4 h0 k1, Option.bind_eq_bind, Option.bind_some]
  congr 1
  rcases hs.eq_or_lt with rfl | hs
  · simp only [jmp_zero]
    simp only [four, D12.addScaled, D12.zero]
    ext <;> dsimp only <;> ring
  · rw [ubI4_i4S tr hs h0 k0, ubI4_i4S tr hs h0 k0, ubI4_i4S tr hs h0 k1, ubI4_i4S tr hs h0 k1]
    generalize jmp (medOf al sd cd) d1 d2 d3 = J
    simp only [four, D12.addScaled, D12.zero]
    ext <;> dsimp only <;> ring

theorem addReal {al sd cd d1 d2 d3 x0 x1 e0 e1 q : ℝ} (p0 : Plain x0) (p1 : Plain x1)
    (p2 : Plain e0) (p3 : Plain e1) (p4 : Plain q) (h0 : q ≠ 0) (z : ℝ) :
    addCorners (cornerReal (medOf al sd cd) d1 d2 d3 q) x0 x1 e0 e1 D12.zero = some (four (realS al sd cd d1 d2 d3) x0 x1 e0 e1 q z) := by
  simp only [addCorners, cornerReal_off p0 p2 p4 h0 z, cornerReal_off p1 p2 p4 h0 z, cornerReal_off p0 p3 p4 h0 z,
    cornerReal_off p1 p3 p4 h0 z, Option.bind_eq_bind, Option.bind_some, four]

/-- The position is such that the program replaces no small value. -/
structure PlainFin (sd cd dep l1 l2 w1 w2 : ℝ) (p : V3) : Prop where
  x1 : Plain (p 0 - l1)
  x2 : Plain (p 0 - l2)
  r1 : Plain (upDip sd cd (p 1) (dep + p 2) - w1)
  r2 : Plain (upDip sd cd (p 1) (dep + p 2) - w2)
  rq : 1 / 1000000 ≤ |across sd cd (p 1) (dep + p 2)|
  i1 : Plain (upDip sd cd (p 1) (dep - p 2) - w1)
  i2 : Plain (upDip sd cd (p 1) (dep - p 2) - w2)
  iq : 1 / 1000000 ≤ |across sd cd (p 1) (dep - p 2)|

theorem ne_of_abs {v : ℝ} (h : 1 / 1000000 ≤ |v|) : v ≠ 0 := by
  rintro rfl
  norm_num at h

open Classical in
theorem fin_program {al dip dep l1 l2 w1 w2 : ℝ} (ha : al ≠ 0) (hdip : Plain (cosDip dip)) (hs : 0 ≤ sinDip dip) (d1 d2 d3 : ℝ) {p : V3}
    (hz : p 2 ≤ 0) (k1 : w1 * sinDip dip ≤ dep) (k2 : w2 * sinDip dip ≤ dep) (h : PlainFin (sinDip dip) (cosDip dip) dep l1 l2 w1 w2 p) :
    dc3d al (p 0) (p 1) (p 2) dep dip l1 l2 w1 w2 d1 d2 d3 =
      some (0, finT al (sinDip dip) (cosDip dip) dep l1 l2 w1 w2 d1 d2 d3 p) := by
  have tr : sinDip dip * sinDip dip + cosDip dip * cosDip dip = 1 := by
    have := Real.sin_sq_add_cos_sq (dip * Real.pi / 180)
    unfold sinDip cosDip
    linarith
  obtain ⟨x1, x2, r1, r2, rq, i1, i2, iq⟩ := h
  have q1 : snap (across (sinDip dip) (cosDip dip) (p 1) (dep + p 2)) = _ := snap_plain (Or.inr rq)
  have q2 : snap (across (sinDip dip) (cosDip dip) (p 1) (dep - p 2)) = _ := snap_plain (Or.inr iq)
  have a1 := snap_plain r1
  have a2 := snap_plain r2
  have b1 := snap_plain i1
  have b2 := snap_plain i2
  have n1 := ne_of_abs rq
  have n2 := ne_of_abs iq
  have m1 : 0 ≤ (upDip (sinDip dip) (cosDip dip) (p 1) (dep - p 2) - w1) * sinDip dip -
      across (sinDip dip) (cosDip dip) (p 1) (dep - p 2) * cosDip dip := by rw [dist_depth tr]; linarith
  have m2 : 0 ≤ (upDip (sinDip dip) (cosDip dip) (p 1) (dep - p 2) - w2) * sinDip dip -
      across (sinDip dip) (cosDip dip) (p 1) (dep - p 2) * cosDip dip := by rw [dist_depth tr]; linarith
  unfold dc3d dccon0
  rw [dipSC_plain hdip, if_neg (not_lt.2 hz), if_neg ha]
  simp only [finT, finReal, finImg]
  have ms : (medOf al (sinDip dip) (cosDip dip)).sd = sinDip dip := rfl
  have mc : (medOf al (sinDip dip) (cosDip dip)).cd = cosDip dip := rfl
  simp only [ms, mc]
  change (if finSingular (snap (across (sinDip dip) (cosDip dip) (p 1) (dep + p 2))) _ _ _ _ then _ else _) = _
  rw [if_neg (fun hf => n1 (q1 ▸ hf.1))]
  change (addCorners (cornerReal _ d1 d2 d3 (snap (across (sinDip dip) (cosDip dip) (p 1) (dep + p 2)))) _ _
    (snap (upDip (sinDip dip) (cosDip dip) (p 1) (dep + p 2) - w1)) (snap (upDip (sinDip dip) (cosDip dip) (p 1) (dep + p 2) - w2)) _).bind _ = _
  rw [q1, a1, a2, snap_plain x1, snap_plain x2, addReal x1 x2 r1 r2 (Or.inr rq) n1 (p 2), Option.bind_some]
  change (if finSingular (snap (across (sinDip dip) (cosDip dip) (p 1) (dep - p 2))) _ _ _ _ then _ else _) = _
  rw [if_neg (fun hf => n2 (q2 ▸ hf.1))]
  change (addCorners (cornerImg _ _ d1 d2 d3 (snap (across (sinDip dip) (cosDip dip) (p 1) (dep - p 2)))) _ _
    (snap (upDip (sinDip dip) (cosDip dip) (p 1) (dep - p 2) - w1)) (snap (upDip (sinDip dip) (cosDip dip) (p 1) (dep - p 2) - w2)) _).map _ = _
  rw [q2, b1, b2, addImg tr hs x1 x2 i1 i2 (Or.inr iq) n2 m1 m2, Option.map_some]

end GRT.Okada
