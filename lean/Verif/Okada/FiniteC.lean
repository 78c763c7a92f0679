import Verif.Okada.FiniteZ
import Verif.Okada.PointSol

/-! Derivatives of the corner terms of a finite fault along any curve, up to terms that cancel between the corners. -/

namespace GRT.Okada

open Spec

/-- Along any curve `F` changes at the rate given by `Fx`, `Fy` and `Fz`, up to a term that depends on `xi`, `q` and one that depends on
`et`, `q`.  For an image (`im`) the corner and the observer lie below the surface. -/
def HasRate (s c : ℝ) (im : Prop) (F Fx Fy Fz : ℝ → ℝ → ℝ → ℝ → ℝ) : Prop :=
  ∃ g h : ℝ → ℝ → ℝ → ℝ → ℝ, (∀ e q, h e q 0 0 = 0) ∧ ∀ (x e q z : ℝ → ℝ) (a b w t : ℝ), Curve x e q a b w t →
    HasDerivAt z (-(b * s - w * c)) t → q t ≠ 0 → (im → 0 ≤ e t * s - q t * c) →
    HasDerivAt (fun t => F (x t) (e t) (q t) (z t))
      (rate s c a b w (Fx (x t) (e t) (q t) (z t)) (Fy (x t) (e t) (q t) (z t)) (Fz (x t) (e t) (q t) (z t)) +
        (g (x t) (q t) a w + h (e t) (q t) b w)) t

/-- The same without such terms. -/
def HasRate0 (s c : ℝ) (im : Prop) (F Fx Fy Fz : ℝ → ℝ → ℝ → ℝ → ℝ) : Prop :=
  ∀ (x e q z : ℝ → ℝ) (a b w t : ℝ), Curve x e q a b w t →
    HasDerivAt z (-(b * s - w * c)) t → q t ≠ 0 → (im → 0 ≤ e t * s - q t * c) →
    HasDerivAt (fun t => F (x t) (e t) (q t) (z t))
      (rate s c a b w (Fx (x t) (e t) (q t) (z t)) (Fy (x t) (e t) (q t) (z t)) (Fz (x t) (e t) (q t) (z t))) t

variable {s c : ℝ} {im : Prop} {F Fx Fy Fz G Gx Gy Gz : ℝ → ℝ → ℝ → ℝ → ℝ}

theorem HasRate.add (hF : HasRate s c im F Fx Fy Fz) (hG : HasRate s c im G Gx Gy Gz) (k : ℝ) :
    HasRate s c im (fun x e q z => F x e q z + k * G x e q z) (fun x e q z => Fx x e q z + k * Gx x e q z)
      (fun x e q z => Fy x e q z + k * Gy x e q z) (fun x e q z => Fz x e q z + k * Gz x e q z) := by
  obtain ⟨g1, h1, z1, H1⟩ := hF
  obtain ⟨g2, h2, z2, H2⟩ := hG
  refine ⟨fun x q a w => g1 x q a w + k * g2 x q a w, fun x q a w => h1 x q a w + k * h2 x q a w, fun e q => by simp only [z1, z2]; ring, ?_⟩
  intro x e q z a b w t hc hz h0 hi
  refine ((H1 x e q z a b w t hc hz h0 hi).fun_add ((H2 x e q z a b w t hc hz h0 hi).const_mul k)).congr_deriv ?_
  simp only [rate]
  ring

theorem HasRate0.mulZ (hF : HasRate0 s c im F Fx Fy Fz) :
    HasRate0 s c im (fun x e q z => z * F x e q z) (fun x e q z => z * Fx x e q z)
      (fun x e q z => z * Fy x e q z) (fun x e q z => z * Fz x e q z + F x e q z) := by
  intro x e q z a b w t hc hz h0 hi
  refine (hz.fun_mul (hF x e q z a b w t hc hz h0 hi)).congr_deriv ?_
  simp only [rate]
  ring

theorem HasRate0.to (hF : HasRate0 s c im F Fx Fy Fz) : HasRate s c im F Fx Fy Fz :=
  ⟨fun _ _ _ _ => 0, fun _ _ _ _ => 0, fun _ _ => rfl, fun x e q z a b w t hc hz h0 hi =>
    (hF x e q z a b w t hc hz h0 hi).congr_deriv (by ring)⟩

theorem HasRate0.add (hF : HasRate0 s c im F Fx Fy Fz) (hG : HasRate0 s c im G Gx Gy Gz) (k : ℝ) :
    HasRate0 s c im (fun x e q z => F x e q z + k * G x e q z) (fun x e q z => Fx x e q z + k * Gx x e q z)
      (fun x e q z => Fy x e q z + k * Gy x e q z) (fun x e q z => Fz x e q z + k * Gz x e q z) := by
  intro x e q z a b w t hc hz h0 hi
  refine ((hF x e q z a b w t hc hz h0 hi).fun_add ((hG x e q z a b w t hc hz h0 hi).const_mul k)).congr_deriv ?_
  simp only [rate]
  ring

theorem HasRate0.zero : HasRate0 s c im (fun _ _ _ _ => 0) (fun _ _ _ _ => 0) (fun _ _ _ _ => 0) (fun _ _ _ _ => 0) := by
  intro x e q z a b w t hc hz h0 hi
  refine (hasDerivAt_const _ _).congr_deriv ?_
  simp only [rate]
  ring

theorem rf0 (R : ℝ) : R = R + (0 + 0) := by ring
theorem rf1 (R k A B : ℝ) : R + k * (A + B) = R + (k * A + k * B) := by ring
theorem rf2 (R k m A B C : ℝ) : R + k * (A + B) + m * C = R + ((k * A + m * C) + k * B) := by ring
theorem rf3 (R m C : ℝ) : R + m * C = R + (m * C + 0) := by ring

/-- All three displacements of a corner term have the rates of its derivatives. -/
def RateD (s c : ℝ) (im : Prop) (F : ℝ → ℝ → ℝ → ℝ → D12) : Prop :=
  ∀ j : Fin 3, HasRate s c im (fun x e q z => (F x e q z).disp j) (fun x e q z => (F x e q z).upar 0 j)
    (fun x e q z => (F x e q z).upar 1 j) (fun x e q z => (F x e q z).upar 2 j)

/-- The same without terms that cancel. -/
def RateD0 (s c : ℝ) (im : Prop) (F : ℝ → ℝ → ℝ → ℝ → D12) : Prop :=
  ∀ j : Fin 3, HasRate0 s c im (fun x e q z => (F x e q z).disp j) (fun x e q z => (F x e q z).upar 0 j)
    (fun x e q z => (F x e q z).upar 1 j) (fun x e q z => (F x e q z).upar 2 j)

theorem RateD.add {F G : ℝ → ℝ → ℝ → ℝ → D12} (hF : RateD s c im F) (hG : RateD s c im G) (k : ℝ) :
    RateD s c im (fun x e q z => (F x e q z).addScaled (G x e q z) k) := by
  intro j
  simp only [disp_add, upar_add]
  exact (hF j).add (hG j) k

theorem RateD0.add {F G : ℝ → ℝ → ℝ → ℝ → D12} (hF : RateD0 s c im F) (hG : RateD0 s c im G) (k : ℝ) :
    RateD0 s c im (fun x e q z => (F x e q z).addScaled (G x e q z) k) := by
  intro j
  simp only [disp_add, upar_add]
  exact (hF j).add (hG j) k

theorem RateD0.zero : RateD0 s c im (fun _ _ _ _ => D12.zero) := by
  intro j
  have e1 : D12.zero.disp j = 0 := by fin_cases j <;> rfl
  have e2 : ∀ i, D12.zero.upar i j = 0 := by intro i; fin_cases i <;> fin_cases j <;> rfl
  simp only [e1, e2]
  exact HasRate0.zero

theorem RateD0.to {F : ℝ → ℝ → ℝ → ℝ → D12} (hF : RateD0 s c im F) : RateD s c im F := fun j => (hF j).to

theorem UA_1_rate {al sd cd : ℝ} (tr : sd * sd + cd * cd = 1) (im : Prop) :
    RateD sd cd im (fun x e q _ => UA_1 (medOf al sd cd) (corS (medOf al sd cd) x e q)) := by
  intro j
  fin_cases j
  · exact ⟨fun x q a w => 1 / 2 * ttX x q a w, fun x q a w => 1 / 2 * ttX x q a w, fun e q => by simp [ttX], fun x e q z a b w t hc hz h0 hi => (UA_1_0 (al := al) tr hc h0).congr_deriv (rf1 _ _ _ _)⟩
  · exact ⟨fun _ _ _ _ => 0, fun _ _ _ _ => 0, fun _ _ => rfl, fun x e q z a b w t hc hz h0 hi => (UA_1_1 (al := al) tr hc h0).congr_deriv (rf0 _)⟩
  · exact ⟨fun _ _ _ _ => 0, fun _ _ _ _ => 0, fun _ _ => rfl, fun x e q z a b w t hc hz h0 hi => (UA_1_2 (al := al) tr hc h0).congr_deriv (rf0 _)⟩

theorem UC_1_rate {al sd cd : ℝ} (tr : sd * sd + cd * cd = 1) (im : Prop) :
    RateD0 sd cd im (fun x e q z => UC_1 (medOf al sd cd) (corS (medOf al sd cd) x e q) z) := by
  intro j
  fin_cases j
  · exact fun x e q z a b w t hc hz h0 hi => UC_1_0 (al := al) tr hc h0 hz
  · exact fun x e q z a b w t hc hz h0 hi => UC_1_1 (al := al) tr hc h0 hz
  · exact fun x e q z a b w t hc hz h0 hi => UC_1_2 (al := al) tr hc h0 hz

theorem UA_2_rate {al sd cd : ℝ} (tr : sd * sd + cd * cd = 1) (im : Prop) :
    RateD sd cd im (fun x e q _ => UA_2 (medOf al sd cd) (corS (medOf al sd cd) x e q)) := by
  intro j
  fin_cases j
  · exact ⟨fun _ _ _ _ => 0, fun _ _ _ _ => 0, fun _ _ => rfl, fun x e q z a b w t hc hz h0 hi => (UA_2_0 (al := al) tr hc h0).congr_deriv (rf0 _)⟩
  · exact ⟨fun x q a w => 1 / 2 * ttX x q a w, fun x q a w => 1 / 2 * ttX x q a w, fun e q => by simp [ttX], fun x e q z a b w t hc hz h0 hi => (UA_2_1 (al := al) tr hc h0).congr_deriv (rf1 _ _ _ _)⟩
  · exact ⟨fun _ _ _ _ => 0, fun _ _ _ _ => 0, fun _ _ => rfl, fun x e q z a b w t hc hz h0 hi => (UA_2_2 (al := al) tr hc h0).congr_deriv (rf0 _)⟩

theorem UC_2_rate {al sd cd : ℝ} (tr : sd * sd + cd * cd = 1) (im : Prop) :
    RateD0 sd cd im (fun x e q z => UC_2 (medOf al sd cd) (corS (medOf al sd cd) x e q) z) := by
  intro j
  fin_cases j
  · exact fun x e q z a b w t hc hz h0 hi => UC_2_0 (al := al) tr hc h0 hz
  · exact fun x e q z a b w t hc hz h0 hi => UC_2_1 (al := al) tr hc h0 hz
  · exact fun x e q z a b w t hc hz h0 hi => UC_2_2 (al := al) tr hc h0 hz

theorem UA_3_rate {al sd cd : ℝ} (tr : sd * sd + cd * cd = 1) (im : Prop) :
    RateD sd cd im (fun x e q _ => UA_3 (medOf al sd cd) (corS (medOf al sd cd) x e q)) := by
  intro j
  fin_cases j
  · exact ⟨fun _ _ _ _ => 0, fun _ _ _ _ => 0, fun _ _ => rfl, fun x e q z a b w t hc hz h0 hi => (UA_3_0 (al := al) tr hc h0).congr_deriv (rf0 _)⟩
  · exact ⟨fun _ _ _ _ => 0, fun _ _ _ _ => 0, fun _ _ => rfl, fun x e q z a b w t hc hz h0 hi => (UA_3_1 (al := al) tr hc h0).congr_deriv (rf0 _)⟩
  · exact ⟨fun x q a w => 1 / 2 * ttX x q a w, fun x q a w => 1 / 2 * ttX x q a w, fun e q => by simp [ttX], fun x e q z a b w t hc hz h0 hi => (UA_3_2 (al := al) tr hc h0).congr_deriv (rf1 _ _ _ _)⟩

theorem UC_3_rate {al sd cd : ℝ} (tr : sd * sd + cd * cd = 1) (im : Prop) :
    RateD0 sd cd im (fun x e q z => UC_3 (medOf al sd cd) (corS (medOf al sd cd) x e q) z) := by
  intro j
  fin_cases j
  · exact fun x e q z a b w t hc hz h0 hi => UC_3_0 (al := al) tr hc h0 hz
  · exact fun x e q z a b w t hc hz h0 hi => UC_3_1 (al := al) tr hc h0 hz
  · exact fun x e q z a b w t hc hz h0 hi => UC_3_2 (al := al) tr hc h0 hz

theorem rd_pos {sd cd x e q : ℝ} (h0 : q ≠ 0) (h : 0 ≤ e * sd - q * cd) : 0 < rr x e q + (e * sd - q * cd) :=
  add_pos_of_pos_of_nonneg (rr_pos h0) h

theorem UB_1_rate {al sd cd : ℝ} (tr : sd * sd + cd * cd = 1) (hs : 0 ≤ sd) :
    RateD sd cd True (fun x e q _ => UB_1a (medOf al sd cd) (corS (medOf al sd cd) x e q) (i4S (medOf al sd cd) x e q)) := by
  intro j
  by_cases hcd : cd = 0
  · subst hcd
    have s1 : sd = 1 := by nlinarith
    fin_cases j
    · exact ⟨fun x q a w => -1 * ttX x q a w, fun x q a w => -1 * ttX x q a w, fun e q => by simp [ttX], fun x e q z a b w t hc hz h0 hi => (UB_1_0v (al := al) s1 hc h0 (rd_pos h0 (hi trivial))).congr_deriv (rf1 _ _ _ _)⟩
    · exact ⟨fun _ _ _ _ => 0, fun _ _ _ _ => 0, fun _ _ => rfl, fun x e q z a b w t hc hz h0 hi => (UB_1_1v (al := al) s1 hc h0 (rd_pos h0 (hi trivial))).congr_deriv (rf0 _)⟩
    · exact ⟨fun _ _ _ _ => 0, fun _ _ _ _ => 0, fun _ _ => rfl, fun x e q z a b w t hc hz h0 hi => (UB_1_2v (al := al) s1 hc h0 (rd_pos h0 (hi trivial))).congr_deriv (rf0 _)⟩
  · fin_cases j
    · rcases hs.eq_or_lt with rfl | hs
      · exact ⟨fun x q a w => -1 * ttX x q a w, fun x q a w => -1 * ttX x q a w, fun e q => by simp [ttX], fun x e q z a b w t hc hz h0 hi => (UB_1_0z (al := al) (by linarith) _ hc h0 (rd_pos h0 (hi trivial))).congr_deriv (rf1 _ _ _ _)⟩
      · refine ⟨fun x q a w => -1 * ttX x q a w + ((1 - al) / al * (sd * sd) / (cd * cd)) * thX sd cd x q a w, fun x q a w => -1 * ttX x q a w, fun e q => by simp [ttX], fun x e q z a b w t hc hz h0 hi => ?_⟩
        refine (UB_1_0g (al := al) tr hcd hs.ne' hc h0 (rd_pos h0 (hi trivial)) fun hx => ?_).congr_deriv (rf2 _ _ _ _ _ _)
        rw [hx]
        exact tN_pos tr hs h0 (hi trivial)
    · exact ⟨fun _ _ _ _ => 0, fun _ _ _ _ => 0, fun _ _ => rfl, fun x e q z a b w t hc hz h0 hi => (UB_1_1g (al := al) tr hcd hc h0 (rd_pos h0 (hi trivial))).congr_deriv (rf0 _)⟩
    · exact ⟨fun _ _ _ _ => 0, fun _ _ _ _ => 0, fun _ _ => rfl, fun x e q z a b w t hc hz h0 hi => (UB_1_2g (al := al) tr hcd hc h0 (rd_pos h0 (hi trivial))).congr_deriv (rf0 _)⟩

theorem UB_2_rate {al sd cd : ℝ} (tr : sd * sd + cd * cd = 1) (hs : 0 ≤ sd) :
    RateD sd cd True (fun x e q _ => UB_2a (medOf al sd cd) (corS (medOf al sd cd) x e q) (i4S (medOf al sd cd) x e q)) := by
  intro j
  by_cases hcd : cd = 0
  · subst hcd
    have s1 : sd = 1 := by nlinarith
    fin_cases j
    · exact ⟨fun _ _ _ _ => 0, fun _ _ _ _ => 0, fun _ _ => rfl, fun x e q z a b w t hc hz h0 hi => (UB_2_0v (al := al) s1 hc h0 (rd_pos h0 (hi trivial))).congr_deriv (rf0 _)⟩
    · exact ⟨fun x q a w => -1 * ttX x q a w, fun x q a w => -1 * ttX x q a w, fun e q => by simp [ttX], fun x e q z a b w t hc hz h0 hi => (UB_2_1v (al := al) s1 hc h0 (rd_pos h0 (hi trivial))).congr_deriv (rf1 _ _ _ _)⟩
    · exact ⟨fun _ _ _ _ => 0, fun _ _ _ _ => 0, fun _ _ => rfl, fun x e q z a b w t hc hz h0 hi => (UB_2_2v (al := al) s1 hc h0 (rd_pos h0 (hi trivial))).congr_deriv (rf0 _)⟩
  · fin_cases j
    · exact ⟨fun _ _ _ _ => 0, fun _ _ _ _ => 0, fun _ _ => rfl, fun x e q z a b w t hc hz h0 hi => (UB_2_0g (al := al) tr hcd hc h0 (rd_pos h0 (hi trivial))).congr_deriv (rf0 _)⟩
    · exact ⟨fun x q a w => -1 * ttX x q a w, fun x q a w => -1 * ttX x q a w, fun e q => by simp [ttX], fun x e q z a b w t hc hz h0 hi => (UB_2_1g (al := al) tr hcd hc h0 (rd_pos h0 (hi trivial))).congr_deriv (rf1 _ _ _ _)⟩
    · rcases hs.eq_or_lt with rfl | hs
      · exact ⟨fun _ _ _ _ => 0, fun _ _ _ _ => 0, fun _ _ => rfl, fun x e q z a b w t hc hz h0 hi => (UB_2_2z (al := al) (by linarith) _ hc h0 (rd_pos h0 (hi trivial))).congr_deriv (rf0 _)⟩
      · refine ⟨fun x q a w => ((1 - al) / al * (sd * cd) / (cd * cd)) * thX sd cd x q a w, fun _ _ _ _ => 0, fun _ _ => rfl, fun x e q z a b w t hc hz h0 hi => ?_⟩
        refine (UB_2_2g (al := al) tr hcd hs.ne' hc h0 (rd_pos h0 (hi trivial)) fun hx => ?_).congr_deriv (rf3 _ _ _)
        rw [hx]
        exact tN_pos tr hs h0 (hi trivial)

theorem UB_3_rate {al sd cd : ℝ} (tr : sd * sd + cd * cd = 1) (hs : 0 ≤ sd) :
    RateD sd cd True (fun x e q _ => UB_3a (medOf al sd cd) (corS (medOf al sd cd) x e q) (i4S (medOf al sd cd) x e q)) := by
  intro j
  by_cases hcd : cd = 0
  · subst hcd
    have s1 : sd = 1 := by nlinarith
    fin_cases j
    · exact ⟨fun _ _ _ _ => 0, fun _ _ _ _ => 0, fun _ _ => rfl, fun x e q z a b w t hc hz h0 hi => (UB_3_0v (al := al) s1 hc h0 (rd_pos h0 (hi trivial))).congr_deriv (rf0 _)⟩
    · exact ⟨fun _ _ _ _ => 0, fun _ _ _ _ => 0, fun _ _ => rfl, fun x e q z a b w t hc hz h0 hi => (UB_3_1v (al := al) s1 hc h0 (rd_pos h0 (hi trivial))).congr_deriv (rf0 _)⟩
    · exact ⟨fun x q a w => -1 * ttX x q a w, fun x q a w => -1 * ttX x q a w, fun e q => by simp [ttX], fun x e q z a b w t hc hz h0 hi => (UB_3_2v (al := al) s1 hc h0 (rd_pos h0 (hi trivial))).congr_deriv (rf1 _ _ _ _)⟩
  · fin_cases j
    · exact ⟨fun _ _ _ _ => 0, fun _ _ _ _ => 0, fun _ _ => rfl, fun x e q z a b w t hc hz h0 hi => (UB_3_0g (al := al) tr hcd hc h0 (rd_pos h0 (hi trivial))).congr_deriv (rf0 _)⟩
    · exact ⟨fun _ _ _ _ => 0, fun _ _ _ _ => 0, fun _ _ => rfl, fun x e q z a b w t hc hz h0 hi => (UB_3_1g (al := al) tr hcd hc h0 (rd_pos h0 (hi trivial))).congr_deriv (rf0 _)⟩
    · rcases hs.eq_or_lt with rfl | hs
      · exact ⟨fun x q a w => -1 * ttX x q a w, fun x q a w => -1 * ttX x q a w, fun e q => by simp [ttX], fun x e q z a b w t hc hz h0 hi => (UB_3_2z (al := al) (by linarith) _ hc h0 (rd_pos h0 (hi trivial))).congr_deriv (rf1 _ _ _ _)⟩
      · refine ⟨fun x q a w => -1 * ttX x q a w + (-((1 - al) / al * (sd * sd) / (cd * cd))) * thX sd cd x q a w, fun x q a w => -1 * ttX x q a w, fun e q => by simp [ttX], fun x e q z a b w t hc hz h0 hi => ?_⟩
        refine (UB_3_2g (al := al) tr hcd hs.ne' hc h0 (rd_pos h0 (hi trivial)) fun hx => ?_).congr_deriv (rf2 _ _ _ _ _ _)
        rw [hx]
        exact tN_pos tr hs h0 (hi trivial)

end GRT.Okada
