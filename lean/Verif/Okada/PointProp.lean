import Verif.Okada.PointSol
import Verif.Okada.PointSm

/-! Properties of Okada's point sources (C94-C97). -/

namespace GRT.Okada

open Spec

theorem disp3 (a : D12) (c : Fin 3) : a.disp c = a.u0 ∨ a.disp c = a.u1 ∨ a.disp c = a.u2 := by
  fin_cases c
  exacts [Or.inl rfl, Or.inr (Or.inl rfl), Or.inr (Or.inr rfl)]

theorem realF_1_dec (al sd cd dep : ℝ) : ∃ C, ∀ p : V3, p 0 * p 0 + p 1 * p 1 + (dep + p 2) * (dep + p 2) ≠ 0 → ∀ c,
    |(realF_1 al sd cd dep p).disp c| ≤ C * (rho (p 0) (p 1) (dep + p 2) * rho (p 0) (p 1) (dep + p 2)) := by
  obtain ⟨C0, h0⟩ := realDec_1_0 al sd cd
  obtain ⟨C1, h1⟩ := realDec_1_1 al sd cd
  obtain ⟨C2, h2⟩ := realDec_1_2 al sd cd
  refine ⟨max C0 (max C1 C2), fun p h c => ?_⟩
  have q : 0 ≤ rho (p 0) (p 1) (dep + p 2) * rho (p 0) (p 1) (dep + p 2) := mul_self_nonneg _
  rcases disp3 (realF_1 al sd cd dep p) c with e | e | e <;> rw [e] <;> simp only [realF_1, realD, abs_neg]
  · exact (h0 _ _ _ h).trans (mul_le_mul_of_nonneg_right (le_max_left _ _) q)
  · exact (h1 _ _ _ h).trans (mul_le_mul_of_nonneg_right ((le_max_left _ _).trans (le_max_right _ _)) q)
  · exact (h2 _ _ _ h).trans (mul_le_mul_of_nonneg_right ((le_max_right _ _).trans (le_max_right _ _)) q)

theorem imgF_1_dec (al sd cd dep : ℝ) (hd : 0 ≤ dep) : ∃ C, ∀ p : V3, p 0 * p 0 + p 1 * p 1 + (dep - p 2) * (dep - p 2) ≠ 0 → p 2 ≤ 0 → ∀ c,
    |(imgF_1 al sd cd dep p).disp c| ≤ C * (rho (p 0) (p 1) (dep - p 2) * rho (p 0) (p 1) (dep - p 2)) := by
  obtain ⟨C0, h0⟩ := imgDec_1_0 al sd cd
  obtain ⟨C1, h1⟩ := imgDec_1_1 al sd cd
  obtain ⟨C2, h2⟩ := imgDec_1_2 al sd cd
  refine ⟨max C0 (max C1 C2), fun p h hz c => ?_⟩
  have q : 0 ≤ rho (p 0) (p 1) (dep - p 2) * rho (p 0) (p 1) (dep - p 2) := mul_self_nonneg _
  have d0 : 0 ≤ dep - p 2 := by linarith
  have d1 : |p 2| ≤ dep - p 2 := by rw [abs_of_nonpos hz]; linarith
  rcases disp3 (imgF_1 al sd cd dep p) c with e | e | e <;> rw [e] <;> simp only [imgF_1]
  · exact (h0 _ _ _ _ h d0 d1).trans (mul_le_mul_of_nonneg_right (le_max_left _ _) q)
  · exact (h1 _ _ _ _ h d0 d1).trans (mul_le_mul_of_nonneg_right ((le_max_left _ _).trans (le_max_right _ _)) q)
  · exact (h2 _ _ _ _ h d0 d1).trans (mul_le_mul_of_nonneg_right ((le_max_right _ _).trans (le_max_right _ _)) q)

theorem realF_2_dec (al sd cd dep : ℝ) : ∃ C, ∀ p : V3, p 0 * p 0 + p 1 * p 1 + (dep + p 2) * (dep + p 2) ≠ 0 → ∀ c,
    |(realF_2 al sd cd dep p).disp c| ≤ C * (rho (p 0) (p 1) (dep + p 2) * rho (p 0) (p 1) (dep + p 2)) := by
  obtain ⟨C0, h0⟩ := realDec_2_0 al sd cd
  obtain ⟨C1, h1⟩ := realDec_2_1 al sd cd
  obtain ⟨C2, h2⟩ := realDec_2_2 al sd cd
  refine ⟨max C0 (max C1 C2), fun p h c => ?_⟩
  have q : 0 ≤ rho (p 0) (p 1) (dep + p 2) * rho (p 0) (p 1) (dep + p 2) := mul_self_nonneg _
  rcases disp3 (realF_2 al sd cd dep p) c with e | e | e <;> rw [e] <;> simp only [realF_2, realD, abs_neg]
  · exact (h0 _ _ _ h).trans (mul_le_mul_of_nonneg_right (le_max_left _ _) q)
  · exact (h1 _ _ _ h).trans (mul_le_mul_of_nonneg_right ((le_max_left _ _).trans (le_max_right _ _)) q)
  · exact (h2 _ _ _ h).trans (mul_le_mul_of_nonneg_right ((le_max_right _ _).trans (le_max_right _ _)) q)

theorem imgF_2_dec (al sd cd dep : ℝ) (hd : 0 ≤ dep) : ∃ C, ∀ p : V3, p 0 * p 0 + p 1 * p 1 + (dep - p 2) * (dep - p 2) ≠ 0 → p 2 ≤ 0 → ∀ c,
    |(imgF_2 al sd cd dep p).disp c| ≤ C * (rho (p 0) (p 1) (dep - p 2) * rho (p 0) (p 1) (dep - p 2)) := by
  obtain ⟨C0, h0⟩ := imgDec_2_0 al sd cd
  obtain ⟨C1, h1⟩ := imgDec_2_1 al sd cd
  obtain ⟨C2, h2⟩ := imgDec_2_2 al sd cd
  refine ⟨max C0 (max C1 C2), fun p h hz c => ?_⟩
  have q : 0 ≤ rho (p 0) (p 1) (dep - p 2) * rho (p 0) (p 1) (dep - p 2) := mul_self_nonneg _
  have d0 : 0 ≤ dep - p 2 := by linarith
  have d1 : |p 2| ≤ dep - p 2 := by rw [abs_of_nonpos hz]; linarith
  rcases disp3 (imgF_2 al sd cd dep p) c with e | e | e <;> rw [e] <;> simp only [imgF_2]
  · exact (h0 _ _ _ _ h d0 d1).trans (mul_le_mul_of_nonneg_right (le_max_left _ _) q)
  · exact (h1 _ _ _ _ h d0 d1).trans (mul_le_mul_of_nonneg_right ((le_max_left _ _).trans (le_max_right _ _)) q)
  · exact (h2 _ _ _ _ h d0 d1).trans (mul_le_mul_of_nonneg_right ((le_max_right _ _).trans (le_max_right _ _)) q)

theorem realF_3_dec (al sd cd dep : ℝ) : ∃ C, ∀ p : V3, p 0 * p 0 + p 1 * p 1 + (dep + p 2) * (dep + p 2) ≠ 0 → ∀ c,
    |(realF_3 al sd cd dep p).disp c| ≤ C * (rho (p 0) (p 1) (dep + p 2) * rho (p 0) (p 1) (dep + p 2)) := by
  obtain ⟨C0, h0⟩ := realDec_3_0 al sd cd
  obtain ⟨C1, h1⟩ := realDec_3_1 al sd cd
  obtain ⟨C2, h2⟩ := realDec_3_2 al sd cd
  refine ⟨max C0 (max C1 C2), fun p h c => ?_⟩
  have q : 0 ≤ rho (p 0) (p 1) (dep + p 2) * rho (p 0) (p 1) (dep + p 2) := mul_self_nonneg _
  rcases disp3 (realF_3 al sd cd dep p) c with e | e | e <;> rw [e] <;> simp only [realF_3, realD, abs_neg]
  · exact (h0 _ _ _ h).trans (mul_le_mul_of_nonneg_right (le_max_left _ _) q)
  · exact (h1 _ _ _ h).trans (mul_le_mul_of_nonneg_right ((le_max_left _ _).trans (le_max_right _ _)) q)
  · exact (h2 _ _ _ h).trans (mul_le_mul_of_nonneg_right ((le_max_right _ _).trans (le_max_right _ _)) q)

theorem imgF_3_dec (al sd cd dep : ℝ) (hd : 0 ≤ dep) : ∃ C, ∀ p : V3, p 0 * p 0 + p 1 * p 1 + (dep - p 2) * (dep - p 2) ≠ 0 → p 2 ≤ 0 → ∀ c,
    |(imgF_3 al sd cd dep p).disp c| ≤ C * (rho (p 0) (p 1) (dep - p 2) * rho (p 0) (p 1) (dep - p 2)) := by
  obtain ⟨C0, h0⟩ := imgDec_3_0 al sd cd
  obtain ⟨C1, h1⟩ := imgDec_3_1 al sd cd
  obtain ⟨C2, h2⟩ := imgDec_3_2 al sd cd
  refine ⟨max C0 (max C1 C2), fun p h hz c => ?_⟩
  have q : 0 ≤ rho (p 0) (p 1) (dep - p 2) * rho (p 0) (p 1) (dep - p 2) := mul_self_nonneg _
  have d0 : 0 ≤ dep - p 2 := by linarith
  have d1 : |p 2| ≤ dep - p 2 := by rw [abs_of_nonpos hz]; linarith
  rcases disp3 (imgF_3 al sd cd dep p) c with e | e | e <;> rw [e] <;> simp only [imgF_3]
  · exact (h0 _ _ _ _ h d0 d1).trans (mul_le_mul_of_nonneg_right (le_max_left _ _) q)
  · exact (h1 _ _ _ _ h d0 d1).trans (mul_le_mul_of_nonneg_right ((le_max_left _ _).trans (le_max_right _ _)) q)
  · exact (h2 _ _ _ _ h d0 d1).trans (mul_le_mul_of_nonneg_right ((le_max_right _ _).trans (le_max_right _ _)) q)

theorem realF_4_dec (al sd cd dep : ℝ) : ∃ C, ∀ p : V3, p 0 * p 0 + p 1 * p 1 + (dep + p 2) * (dep + p 2) ≠ 0 → ∀ c,
    |(realF_4 al sd cd dep p).disp c| ≤ C * (rho (p 0) (p 1) (dep + p 2) * rho (p 0) (p 1) (dep + p 2)) := by
  obtain ⟨C0, h0⟩ := realDec_4_0 al sd cd
  obtain ⟨C1, h1⟩ := realDec_4_1 al sd cd
  obtain ⟨C2, h2⟩ := realDec_4_2 al sd cd
  refine ⟨max C0 (max C1 C2), fun p h c => ?_⟩
  have q : 0 ≤ rho (p 0) (p 1) (dep + p 2) * rho (p 0) (p 1) (dep + p 2) := mul_self_nonneg _
  rcases disp3 (realF_4 al sd cd dep p) c with e | e | e <;> rw [e] <;> simp only [realF_4, realD, abs_neg]
  · exact (h0 _ _ _ h).trans (mul_le_mul_of_nonneg_right (le_max_left _ _) q)
  · exact (h1 _ _ _ h).trans (mul_le_mul_of_nonneg_right ((le_max_left _ _).trans (le_max_right _ _)) q)
  · exact (h2 _ _ _ h).trans (mul_le_mul_of_nonneg_right ((le_max_right _ _).trans (le_max_right _ _)) q)

theorem imgF_4_dec (al sd cd dep : ℝ) (hd : 0 ≤ dep) : ∃ C, ∀ p : V3, p 0 * p 0 + p 1 * p 1 + (dep - p 2) * (dep - p 2) ≠ 0 → p 2 ≤ 0 → ∀ c,
    |(imgF_4 al sd cd dep p).disp c| ≤ C * (rho (p 0) (p 1) (dep - p 2) * rho (p 0) (p 1) (dep - p 2)) := by
  obtain ⟨C0, h0⟩ := imgDec_4_0 al sd cd
  obtain ⟨C1, h1⟩ := imgDec_4_1 al sd cd
  obtain ⟨C2, h2⟩ := imgDec_4_2 al sd cd
  refine ⟨max C0 (max C1 C2), fun p h hz c => ?_⟩
  have q : 0 ≤ rho (p 0) (p 1) (dep - p 2) * rho (p 0) (p 1) (dep - p 2) := mul_self_nonneg _
  have d0 : 0 ≤ dep - p 2 := by linarith
  have d1 : |p 2| ≤ dep - p 2 := by rw [abs_of_nonpos hz]; linarith
  rcases disp3 (imgF_4 al sd cd dep p) c with e | e | e <;> rw [e] <;> simp only [imgF_4]
  · exact (h0 _ _ _ _ h d0 d1).trans (mul_le_mul_of_nonneg_right (le_max_left _ _) q)
  · exact (h1 _ _ _ _ h d0 d1).trans (mul_le_mul_of_nonneg_right ((le_max_left _ _).trans (le_max_right _ _)) q)
  · exact (h2 _ _ _ _ h d0 d1).trans (mul_le_mul_of_nonneg_right ((le_max_right _ _).trans (le_max_right _ _)) q)

theorem abs_sum4 {z a b c d s1 s2 s3 s4 q C1 C2 C3 C4 : ℝ} (hz : z = 0) (h1 : |a| ≤ C1 * q) (h2 : |b| ≤ C2 * q) (h3 : |c| ≤ C3 * q)
    (h4 : |d| ≤ C4 * q) : |z + s1 * a + s2 * b + s3 * c + s4 * d| ≤ (|s1| * C1 + |s2| * C2 + |s3| * C3 + |s4| * C4) * q := by
  rw [hz, zero_add]
  refine (abs_add_le _ _).trans ?_
  refine (add_le_add_left ((abs_add_le _ _).trans (add_le_add_left (abs_add_le _ _) _)) _).trans ?_
  simp only [abs_mul]
  have := mul_le_mul_of_nonneg_left h1 (abs_nonneg s1)
  have := mul_le_mul_of_nonneg_left h2 (abs_nonneg s2)
  have := mul_le_mul_of_nonneg_left h3 (abs_nonneg s3)
  have := mul_le_mul_of_nonneg_left h4 (abs_nonneg s4)
  linarith

theorem T_dec (al sd cd dep : ℝ) (hd : 0 ≤ dep) (pot1 pot2 pot3 pot4 : ℝ) : ∃ C, ∀ p : V3, p 2 ≤ 0 → p ≠ srcPos dep → ∀ c,
    |((realT al sd cd dep pot1 pot2 pot3 pot4 p).addScaled (imgT al sd cd dep pot1 pot2 pot3 pot4 p) 1).disp c| ≤
      C / ((p 0) ^ 2 + (p 1) ^ 2 + (p 2 + dep) ^ 2) := by
  obtain ⟨A1, a1⟩ := realF_1_dec al sd cd dep
  obtain ⟨B1, b1⟩ := imgF_1_dec al sd cd dep hd
  obtain ⟨A2, a2⟩ := realF_2_dec al sd cd dep
  obtain ⟨B2, b2⟩ := imgF_2_dec al sd cd dep hd
  obtain ⟨A3, a3⟩ := realF_3_dec al sd cd dep
  obtain ⟨B3, b3⟩ := imgF_3_dec al sd cd dep hd
  obtain ⟨A4, a4⟩ := realF_4_dec al sd cd dep
  obtain ⟨B4, b4⟩ := imgF_4_dec al sd cd dep hd
  obtain ⟨A, hA⟩ : ∃ A, A = |pot1 / (2 * Real.pi)| * A1 + |pot2 / (2 * Real.pi)| * A2 + |pot3 / (2 * Real.pi)| * A3 +
    |pot4 / (2 * Real.pi)| * A4 := ⟨_, rfl⟩
  obtain ⟨B, hB⟩ : ∃ B, B = |pot1 / (2 * Real.pi)| * B1 + |pot2 / (2 * Real.pi)| * B2 + |pot3 / (2 * Real.pi)| * B3 +
    |pot4 / (2 * Real.pi)| * B4 := ⟨_, rfl⟩
  refine ⟨A + |B|, fun p hz hp c => ?_⟩
  have h := ne_src hp
  have le : p 0 * p 0 + p 1 * p 1 + (dep + p 2) * (dep + p 2) ≤ p 0 * p 0 + p 1 * p 1 + (dep - p 2) * (dep - p 2) := by
    nlinarith [mul_nonneg hd (neg_nonneg.2 hz)]
  have pos : 0 < p 0 * p 0 + p 1 * p 1 + (dep + p 2) * (dep + p 2) := lt_of_le_of_ne
    (by nlinarith [mul_self_nonneg (p 0), mul_self_nonneg (p 1), mul_self_nonneg (dep + p 2)]) h.symm
  have h' : p 0 * p 0 + p 1 * p 1 + (dep - p 2) * (dep - p 2) ≠ 0 := (pos.trans_le le).ne'
  have e0 : D12.zero.disp c = 0 := by fin_cases c <;> rfl
  have q1 : |(realT al sd cd dep pot1 pot2 pot3 pot4 p).disp c| ≤ A * (rho (p 0) (p 1) (dep + p 2) * rho (p 0) (p 1) (dep + p 2)) := by
    simp only [realT, disp_add]
    rw [hA]
    exact abs_sum4 e0 (a1 p h c) (a2 p h c) (a3 p h c) (a4 p h c)
  have q2 : |(imgT al sd cd dep pot1 pot2 pot3 pot4 p).disp c| ≤ B * (rho (p 0) (p 1) (dep - p 2) * rho (p 0) (p 1) (dep - p 2)) := by
    simp only [imgT, disp_add]
    rw [hB]
    exact abs_sum4 e0 (b1 p h' hz c) (b2 p h' hz c) (b3 p h' hz c) (b4 p h' hz c)
  rw [← rho_sq] at q1 q2
  have q3 : B * (p 0 * p 0 + p 1 * p 1 + (dep - p 2) * (dep - p 2))⁻¹ ≤ |B| * (p 0 * p 0 + p 1 * p 1 + (dep + p 2) * (dep + p 2))⁻¹ :=
    mul_le_mul (le_abs_self B) (inv_anti₀ pos le) (inv_nonneg.2 (pos.le.trans le)) (abs_nonneg B)
  rw [disp_add, show p 0 ^ 2 + p 1 ^ 2 + (p 2 + dep) ^ 2 = p 0 * p 0 + p 1 * p 1 + (dep + p 2) * (dep + p 2) by ring, div_eq_mul_inv, add_mul]
  refine (abs_add_le _ _).trans (add_le_add q1 ?_)
  rw [one_mul]
  exact q2.trans q3

theorem img_pos {dep : ℝ} {p : V3} (hd : 0 < dep) (hz : p 2 ≤ 0) :
    p 0 * p 0 + p 1 * p 1 + (dep - p 2) * (dep - p 2) ≠ 0 ∧ rr (p 0) (p 1) (dep - p 2) + (dep - p 2) ≠ 0 := by
  have : 0 < dep - p 2 := by linarith
  refine ⟨by nlinarith [mul_self_nonneg (p 0), mul_self_nonneg (p 1), mul_pos this this], ?_⟩
  have := Real.sqrt_nonneg (p 0 * p 0 + p 1 * p 1 + (dep - p 2) * (dep - p 2))
  unfold rr
  linarith

theorem realT_smooth (al sd cd dep pot1 pot2 pot3 pot4 : ℝ) {p : V3} (h : p 0 * p 0 + p 1 * p 1 + (dep + p 2) * (dep + p 2) ≠ 0) :
    SmoothD (realT al sd cd dep pot1 pot2 pot3 pot4) p := by
  have c0 : ContDiffAt ℝ 2 (fun x : V3 => x 0) p := by fun_prop
  have c1 : ContDiffAt ℝ 2 (fun x : V3 => x 1) p := by fun_prop
  have c2 : ContDiffAt ℝ 2 (fun x : V3 => dep + x 2) p := by fun_prop
  exact ((((SmoothD.zero p).add (UA0_1_smooth _ c0 c1 c2 h).real _).add (UA0_2_smooth _ c0 c1 c2 h).real _).add
    (UA0_3_smooth _ c0 c1 c2 h).real _).add (UA0_4_smooth _ c0 c1 c2 h).real _

theorem imgT_smooth (al sd cd dep pot1 pot2 pot3 pot4 : ℝ) {p : V3} (h : p 0 * p 0 + p 1 * p 1 + (dep - p 2) * (dep - p 2) ≠ 0)
    (h' : rr (p 0) (p 1) (dep - p 2) + (dep - p 2) ≠ 0) : SmoothD (imgT al sd cd dep pot1 pot2 pot3 pot4) p := by
  have c0 : ContDiffAt ℝ 2 (fun x : V3 => x 0) p := by fun_prop
  have c1 : ContDiffAt ℝ 2 (fun x : V3 => x 1) p := by fun_prop
  have c2 : ContDiffAt ℝ 2 (fun x : V3 => dep - x 2) p := by fun_prop
  have c3 : ContDiffAt ℝ 2 (fun x : V3 => x 2) p := by fun_prop
  exact ((((SmoothD.zero p).add (SmoothD.img (UA0_1_smooth _ c0 c1 c2 h) (UB0_1_smooth _ c0 c1 c2 c3 h h') (UC0_1_smooth _ c0 c1 c2 c3 h) c3) _).add
    (SmoothD.img (UA0_2_smooth _ c0 c1 c2 h) (UB0_2_smooth _ c0 c1 c2 c3 h h') (UC0_2_smooth _ c0 c1 c2 c3 h) c3) _).add
    (SmoothD.img (UA0_3_smooth _ c0 c1 c2 h) (UB0_3_smooth _ c0 c1 c2 c3 h h') (UC0_3_smooth _ c0 c1 c2 c3 h) c3) _).add
    (SmoothD.img (UA0_4_smooth _ c0 c1 c2 h) (UB0_4_smooth _ c0 c1 c2 c3 h h') (UC0_4_smooth _ c0 c1 c2 c3 h) c3) _

theorem SmoothD.total {F : V3 → D12} {p : V3} (h : SmoothD F p) : Total (fun q => (F q).disp) (fun q => (F q).upar) p :=
  ⟨fun c => (h.disp c).differentiableAt (by norm_num), fun i c => (h.upar i c).differentiableAt (by norm_num)⟩

/-- Okada's formulas, without the replacement of small values, solve the half-space problem. -/
theorem point_solves {lam mu : ℝ} (hm : 0 < mu) (hl : 0 < lam + mu) {sd cd : ℝ} (tr : sd * sd + cd * cd = 1) {dep : ℝ} (hd : 0 < dep)
    (pot1 pot2 pot3 pot4 : ℝ) :
    let m := medOf ((lam + mu) / (lam + 2 * mu)) sd cd
    let F : V3 → D12 := fun p => dc3d0Sum m (ptOf m (p 0) (p 1) (dep + p 2)) (ptOf m (p 0) (p 1) (dep - p 2)) (p 2) pot1 pot2 pot3 pot4
    IsHalfSpace lam mu (moment lam mu sd cd pot1 pot2 pot3 pot4) dep (fun p => (F p).disp) (fun p => (F p).upar) := by
  intro m F
  have h2 : lam + 2 * mu ≠ 0 := by linarith
  have ha : (lam + mu) / (lam + 2 * mu) ≠ 0 := div_ne_zero hl.ne' h2
  have hF : F = fun q => (realT ((lam + mu) / (lam + 2 * mu)) sd cd dep pot1 pot2 pot3 pot4 q).addScaled
      (imgT ((lam + mu) / (lam + 2 * mu)) sd cd dep pot1 pot2 pot3 pot4 q) 1 := by
    funext q
    exact sum_eq _ _ _ _ _ _ _ _ q
  rw [hF]
  refine ⟨fun p hz hp => ?_, fun p hz hp => ?_, fun p hz hp => ?_, fun p hz => ?_, ?_, ?_⟩
  · have i := img_pos hd hz
    exact ((realT_smooth _ _ _ _ _ _ _ _ (ne_src hp)).add (imgT_smooth _ _ _ _ _ _ _ _ i.1 i.2) 1).total
  · have i := img_pos hd hz
    exact (realT_grad tr _ _ _ _ (ne_src hp)).add (imgT_grad tr _ _ _ _ i.1 i.2) 1
  · have i := img_pos hd hz
    exact EquilAt.scale h2 ((realT_eq tr _ _ _ _ (ne_src hp)).add (imgT_eq tr ha _ _ _ _ i.1 i.2) 1)
  · intro c
    rw [stress_scale lam mu h2]
    rw [T_free tr ha pot1 pot2 pot3 pot4 hz (by nlinarith [mul_self_nonneg (p 0), mul_self_nonneg (p 1), mul_pos hd hd]) c, mul_zero]
  · refine ⟨fun p => (realT ((lam + mu) / (lam + 2 * mu)) sd cd dep pot1 pot2 pot3 pot4 p).disp,
      fun p => (imgT ((lam + mu) / (lam + 2 * mu)) sd cd dep pot1 pot2 pot3 pot4 p).disp,
      fun p => (imgT ((lam + mu) / (lam + 2 * mu)) sd cd dep pot1 pot2 pot3 pot4 p).upar, fun p => ?_, fun p hp => ?_, fun p hz => ?_⟩
    · ext c
      simp only [disp_add, one_mul, Pi.add_apply]
    · exact realT_kel tr hm.ne' h2 _ _ _ _ hp
    · have i := img_pos hd hz
      exact ⟨(imgT_smooth _ _ _ _ _ _ _ _ i.1 i.2).total, imgT_grad tr _ _ _ _ i.1 i.2, EquilAt.scale h2 (imgT_eq tr ha _ _ _ _ i.1 i.2)⟩
  · exact T_dec _ _ _ _ hd.le _ _ _ _

theorem snap_plain {v : ℝ} (h : Plain v) : snap v = v := by
  unfold snap eps
  rcases h with rfl | h
  · simp
  · rw [if_neg (not_lt.2 h)]

theorem snap_close (v : ℝ) : |snap v - v| < 1 / 1000000 := by
  unfold snap eps
  split
  · rename_i h
    rwa [zero_sub, abs_neg]
  · rw [sub_self, abs_zero]
    norm_num

theorem dipSC_plain {dip : ℝ} (h : Plain (cosDip dip)) : dipSC dip = (sinDip dip, cosDip dip) := by
  have e := Real.sin_sq_add_cos_sq (dip * Real.pi / 180)
  unfold dipSC sinDip cosDip eps at *
  dsimp only
  rcases h with h | h
  · rw [h] at e ⊢
    rw [if_pos (by norm_num)]
    have : (Real.sin (dip * Real.pi / 180) - 1) * (Real.sin (dip * Real.pi / 180) + 1) = 0 := by nlinarith
    rcases mul_eq_zero.1 this with q | q
    · rw [show Real.sin (dip * Real.pi / 180) = 1 by linarith]
      norm_num
    · rw [show Real.sin (dip * Real.pi / 180) = -1 by linarith]
      norm_num
  · rw [if_neg (not_lt.2 h)]

/-- The whole claim about `grt_okada_dc3d0`: with `alpha = (λ+μ)/(λ+2μ)`, it evaluates the response of the half-space to the moment
tensor of the source, at a point at most 10⁻⁶ away from the receiver horizontally. -/
theorem point_program {lam mu : ℝ} (hm : 0 < mu) (hl : 0 < lam + mu) {dip : ℝ} (hdip : Plain (cosDip dip)) {depth : ℝ}
    (hd : 1 / 1000000 ≤ depth) (pot1 pot2 pot3 pot4 : ℝ) :
    ∃ (u : V3 → V3) (g : V3 → Fin 3 → V3), IsHalfSpace lam mu (moment lam mu (sinDip dip) (cosDip dip) pot1 pot2 pot3 pot4) depth u g ∧
      ∀ x y z, z ≤ 0 → Plain (depth + z) → (1 / 1000000 ≤ |x| ∨ 1 / 1000000 ≤ |y| ∨ depth + z ≠ 0) →
        ∃ x' y' out, |x' - x| < 1 / 1000000 ∧ |y' - y| < 1 / 1000000 ∧ (Plain x → x' = x) ∧ (Plain y → y' = y) ∧
          dc3d0 ((lam + mu) / (lam + 2 * mu)) x y z depth dip pot1 pot2 pot3 pot4 = some (0, out) ∧
          out.disp = u ![x', y', z] ∧ out.upar = g ![x', y', z] := by
  have tr : sinDip dip * sinDip dip + cosDip dip * cosDip dip = 1 := by
    have e := Real.sin_sq_add_cos_sq (dip * Real.pi / 180)
    unfold sinDip cosDip
    linear_combination e
  have hd0 : 0 < depth := lt_of_lt_of_le (by norm_num) hd
  have h2 : lam + 2 * mu ≠ 0 := by linarith
  have ha : (lam + mu) / (lam + 2 * mu) ≠ 0 := div_ne_zero hl.ne' h2
  refine ⟨_, _, point_solves hm hl tr hd0 pot1 pot2 pot3 pot4, fun x y z hz hp hn => ?_⟩
  have q1 : Plain (depth - z) := Or.inr (by rw [abs_of_pos (by linarith)]; linarith)
  refine ⟨snap x, snap y, _, snap_close x, snap_close y, snap_plain, snap_plain, ?_, rfl, rfl⟩
  have i := img_pos (p := ![snap x, snap y, z]) hd0 hz
  have r : snap x * snap x + snap y * snap y + (depth + z) * (depth + z) ≠ 0 := by
    rcases hn with hn | hn | hn
    · have : snap x = x := snap_plain (Or.inr hn)
      have : 0 < x * x := by
        have := mul_pos (lt_of_lt_of_le (by norm_num) hn) (lt_of_lt_of_le (by norm_num) hn)
        rwa [abs_mul_abs_self] at this
      rw [‹snap x = x›]
      nlinarith [mul_self_nonneg (snap y), mul_self_nonneg (depth + z)]
    · have : snap y = y := snap_plain (Or.inr hn)
      have : 0 < y * y := by
        have := mul_pos (lt_of_lt_of_le (by norm_num) hn) (lt_of_lt_of_le (by norm_num) hn)
        rwa [abs_mul_abs_self] at this
      rw [‹snap y = y›]
      nlinarith [mul_self_nonneg (snap x), mul_self_nonneg (depth + z)]
    · have := mul_self_pos.2 hn
      nlinarith [mul_self_nonneg (snap x), mul_self_nonneg (snap y)]
  have rp : 0 < snap x * snap x + snap y * snap y + (depth + z) * (depth + z) := lt_of_le_of_ne
    (by nlinarith [mul_self_nonneg (snap x), mul_self_nonneg (snap y), mul_self_nonneg (depth + z)]) r.symm
  have i1 : √(snap x * snap x + snap y * snap y + (depth - z) * (depth - z)) ≠ 0 := Real.sqrt_ne_zero'.2 (lt_of_le_of_ne
    (by nlinarith [mul_self_nonneg (snap x), mul_self_nonneg (snap y), mul_self_nonneg (depth - z)]) i.1.symm)
  unfold dc3d0 dccon0 dccon1
  rw [dipSC_plain hdip, snap_plain hp, snap_plain q1, if_neg (not_lt.2 hz)]
  dsimp only
  rw [if_neg ha, if_neg (show (ptOf _ (snap x) (snap y) (depth + z)).r ≠ 0 from Real.sqrt_ne_zero'.2 rp), if_neg]
  · rfl
  · rintro (h | h)
    · exact i1 h
    · exact i.2 h

/-- The results of the program at a position; zero where the program fails. -/
noncomputable def outAt (alpha depth dip pot1 pot2 pot3 pot4 : ℝ) (q : V3) : D12 :=
  match dc3d0 alpha (q 0) (q 1) (q 2) depth dip pot1 pot2 pot3 pot4 with
  | some (_, o) => o
  | none => D12.zero

/-- More than 10⁻⁶ away from the coordinate planes through the source, and below the surface. -/
def Good (depth : ℝ) (q : V3) : Prop := 1 / 1000000 < |q 0| ∧ 1 / 1000000 < |q 1| ∧ 1 / 1000000 < |depth + q 2| ∧ q 2 < 0

theorem good_near {depth : ℝ} {p : V3} (h : Good depth p) (i : Fin 3) : ∀ᶠ t in nhds (p i), Good depth (Function.update p i t) := by
  have o : IsOpen {q | Good depth q} := by
    unfold Good
    refine IsOpen.and (isOpen_lt continuous_const (by fun_prop)) (IsOpen.and (isOpen_lt continuous_const (by fun_prop))
      (IsOpen.and (isOpen_lt continuous_const (by fun_prop)) (isOpen_lt (by fun_prop) continuous_const)))
  have c : Continuous (fun t => Function.update p i t) := continuous_const.update i continuous_id
  refine c.continuousAt.eventually (o.mem_nhds ?_)
  simpa using h

theorem out_good {lam mu : ℝ} (hm : 0 < mu) (hl : 0 < lam + mu) {dip : ℝ} (hdip : Plain (cosDip dip)) {depth : ℝ}
    (hd : 1 / 1000000 ≤ depth) (pot1 pot2 pot3 pot4 : ℝ) :
    ∃ (u : V3 → V3) (g : V3 → Fin 3 → V3), IsHalfSpace lam mu (moment lam mu (sinDip dip) (cosDip dip) pot1 pot2 pot3 pot4) depth u g ∧
      ∀ q, Good depth q → (outAt ((lam + mu) / (lam + 2 * mu)) depth dip pot1 pot2 pot3 pot4 q).disp = u q ∧
        (outAt ((lam + mu) / (lam + 2 * mu)) depth dip pot1 pot2 pot3 pot4 q).upar = g q := by
  obtain ⟨u, g, hs, h⟩ := point_program hm hl hdip hd pot1 pot2 pot3 pot4
  refine ⟨u, g, hs, fun q hq => ?_⟩
  obtain ⟨q0, q1, q2, q3⟩ := hq
  obtain ⟨x', y', o, -, -, hx, hy, e, e1, e2⟩ := h (q 0) (q 1) (q 2) q3.le (Or.inr q2.le) (Or.inl q0.le)
  rw [hx (Or.inr q0.le), hy (Or.inr q1.le), ← vec_eq q] at e1 e2
  simp only [outAt, e]
  exact ⟨e1, e2⟩

theorem good_ne {depth : ℝ} {p : V3} (h : Good depth p) : p ≠ srcPos depth := by
  rintro rfl
  have := h.1
  norm_num [srcPos] at this

/-- **C94.** The nine derivatives the point source reports are the derivatives of the displacements it reports, for every medium, dip,
depth, source and position away from the planes where the program replaces small lengths by zero. -/
theorem C94_derivatives {lam mu : ℝ} (hm : 0 < mu) (hl : 0 < lam + mu) {dip : ℝ} (hdip : Plain (cosDip dip)) {depth : ℝ}
    (hd : 1 / 1000000 ≤ depth) (pot1 pot2 pot3 pot4 : ℝ) {p : V3} (hp : Good depth p) :
    IsGradAt (fun q => (outAt ((lam + mu) / (lam + 2 * mu)) depth dip pot1 pot2 pot3 pot4 q).disp)
      (fun q => (outAt ((lam + mu) / (lam + 2 * mu)) depth dip pot1 pot2 pot3 pot4 q).upar) p := by
  obtain ⟨u, g, hs, h⟩ := out_good hm hl hdip hd pot1 pot2 pot3 pot4
  intro i c
  have e := hs.grad p hp.2.2.2.le (good_ne hp) i c
  rw [← (h p hp).2] at e
  unfold PartialAt at e ⊢
  refine e.congr_of_eventuallyEq ?_
  filter_upwards [good_near hp i] with t ht
  rw [(h _ ht).1]

/-- **C95.** The stresses that follow from the reported derivatives balance, and at the surface there is no traction. -/
theorem C95_equilibrium {lam mu : ℝ} (hm : 0 < mu) (hl : 0 < lam + mu) {dip : ℝ} (hdip : Plain (cosDip dip)) {depth : ℝ}
    (hd : 1 / 1000000 ≤ depth) (pot1 pot2 pot3 pot4 : ℝ) :
    (∀ p, Good depth p → EquilAt lam mu (fun q => (outAt ((lam + mu) / (lam + 2 * mu)) depth dip pot1 pot2 pot3 pot4 q).upar) p) ∧
    ∀ x y, ∃ out, dc3d0 ((lam + mu) / (lam + 2 * mu)) x y 0 depth dip pot1 pot2 pot3 pot4 = some (0, out) ∧
      ∀ c, stress lam mu out.upar c 2 = 0 := by
  constructor
  · obtain ⟨u, g, hs, h⟩ := out_good hm hl hdip hd pot1 pot2 pot3 pot4
    intro p hp c
    obtain ⟨s, h1, h2⟩ := hs.equil p hp.2.2.2.le (good_ne hp) c
    refine ⟨s, fun j => ?_, h2⟩
    have e := h1 j
    unfold PartialAt at e ⊢
    refine e.congr_of_eventuallyEq ?_
    filter_upwards [good_near hp j] with t ht
    rw [(h _ ht).2]
  · obtain ⟨u, g, hs, h⟩ := point_program hm hl hdip hd pot1 pot2 pot3 pot4
    intro x y
    have d0 : 0 < depth := lt_of_lt_of_le (by norm_num) hd
    obtain ⟨x', y', o, -, -, -, -, e, -, e2⟩ := h x y 0 le_rfl (Or.inr (by rw [add_zero, abs_of_pos d0]; exact hd))
      (Or.inr (Or.inr (by linarith)))
    refine ⟨o, e, fun c => ?_⟩
    rw [e2]
    exact hs.free ![x', y', 0] rfl c

/-- **C96.** The program evaluates the response of the half-space to a point source with the moment tensor of the requested strike slip,
dip slip, opening and inflation. -/
theorem C96_source {lam mu : ℝ} (hm : 0 < mu) (hl : 0 < lam + mu) {dip : ℝ} (hdip : Plain (cosDip dip)) {depth : ℝ}
    (hd : 1 / 1000000 ≤ depth) (pot1 pot2 pot3 pot4 : ℝ) :
    ∃ (u : V3 → V3) (g : V3 → Fin 3 → V3), IsHalfSpace lam mu (moment lam mu (sinDip dip) (cosDip dip) pot1 pot2 pot3 pot4) depth u g ∧
      ∀ x y z, z ≤ 0 → Plain (depth + z) → (1 / 1000000 ≤ |x| ∨ 1 / 1000000 ≤ |y| ∨ depth + z ≠ 0) →
        ∃ x' y' out, |x' - x| < 1 / 1000000 ∧ |y' - y| < 1 / 1000000 ∧ (Plain x → x' = x) ∧ (Plain y → y' = y) ∧
          dc3d0 ((lam + mu) / (lam + 2 * mu)) x y z depth dip pot1 pot2 pot3 pot4 = some (0, out) ∧
          out.disp = u ![x', y', z] ∧ out.upar = g ![x', y', z] :=
  point_program hm hl hdip hd pot1 pot2 pot3 pot4

/-- **C97.** For a source at or below the surface nothing is divided by zero: above the surface the call fails with code 2, within
10⁻⁶ of the source in every coordinate with code 1, both with zero results, and everywhere else it succeeds. -/
theorem C97_codes {alpha x y z depth : ℝ} (ha : alpha ≠ 0) (hd : 0 ≤ depth) (dip pot1 pot2 pot3 pot4 : ℝ) :
    ∃ code out, dc3d0 alpha x y z depth dip pot1 pot2 pot3 pot4 = some (code, out) ∧
      (code = 2 ↔ 0 < z) ∧ (code = 1 ↔ z ≤ 0 ∧ |x| < 1 / 1000000 ∧ |y| < 1 / 1000000 ∧ |depth + z| < 1 / 1000000) ∧
      (code = 0 ∨ code = 1 ∨ code = 2) ∧ (code ≠ 0 → out = D12.zero) := by
  have sz : ∀ v, snap v = 0 ↔ |v| < 1 / 1000000 := by
    intro v
    unfold snap eps
    split
    · rename_i h
      exact ⟨fun _ => h, fun _ => rfl⟩
    · rename_i h
      constructor
      · rintro rfl
        norm_num
      · exact fun q => absurd q h
  have rz : ∀ a b c : ℝ, √(a * a + b * b + c * c) = 0 ↔ a = 0 ∧ b = 0 ∧ c = 0 := by
    intro a b c
    rw [Real.sqrt_eq_zero (by nlinarith [mul_self_nonneg a, mul_self_nonneg b, mul_self_nonneg c])]
    constructor
    · intro h
      refine ⟨?_, ?_, ?_⟩ <;> nlinarith [mul_self_nonneg a, mul_self_nonneg b, mul_self_nonneg c]
    · rintro ⟨rfl, rfl, rfl⟩
      norm_num
  unfold dc3d0
  by_cases hz : 0 < z
  · rw [if_pos hz]
    exact ⟨2, _, rfl, by simpa using hz, by simp [hz], by simp, fun _ => rfl⟩
  rw [if_neg hz]
  dsimp only [dccon1]
  rw [if_neg ha]
  have z0 := not_lt.1 hz
  by_cases h1 : (ptOf (dccon0 alpha dip) (snap x) (snap y) (snap (depth + z))).r = 0
  · rw [if_pos h1]
    have := (rz _ _ _).1 h1
    rw [sz, sz, sz] at this
    exact ⟨1, _, rfl, by simp [hz], ⟨fun _ => ⟨z0, this⟩, fun _ => rfl⟩, by simp, fun _ => rfl⟩
  · rw [if_neg h1]
    have n : ¬(|x| < 1 / 1000000 ∧ |y| < 1 / 1000000 ∧ |depth + z| < 1 / 1000000) := by
      rw [← sz, ← sz, ← sz]
      exact fun h => h1 ((rz _ _ _).2 h)
    have dm : |depth + z| ≤ depth - z := abs_le.2 ⟨by linarith, by linarith⟩
    have i : ¬((ptOf (dccon0 alpha dip) (snap x) (snap y) (snap (depth - z))).r = 0) := by
      intro h
      have := (rz _ _ _).1 h
      rw [sz, sz, sz, abs_of_nonneg (show (0 : ℝ) ≤ depth - z by linarith)] at this
      exact n ⟨this.1, this.2.1, dm.trans_lt this.2.2⟩
    have i2 : 0 ≤ snap (depth - z) := by
      unfold snap
      split
      · exact le_rfl
      · linarith
    have i3 : 0 ≤ (ptOf (dccon0 alpha dip) (snap x) (snap y) (snap (depth - z))).r := Real.sqrt_nonneg _
    rw [if_neg]
    · exact ⟨0, _, rfl, by simp [z0], by simpa [z0] using n, by simp, fun h => absurd rfl h⟩
    · rintro (h | h)
      · exact i h
      · refine i (le_antisymm ?_ i3)
        have : (ptOf (dccon0 alpha dip) (snap x) (snap y) (snap (depth - z))).d = snap (depth - z) := rfl
        rw [this] at h
        linarith

/-- A source at 5 km depth on a vertical plane, seen at (3, 4, -1), and at (0, 4, -5) beside the source. -/
example : (0 : ℝ) < 1 ∧ (0 : ℝ) < 1 + 1 ∧ Plain (cosDip 90) ∧ (1 / 1000000 : ℝ) ≤ 5 ∧ Good 5 ![3, 4, -1] ∧
    Plain ((5 : ℝ) + -5) ∧ (1 / 1000000 : ℝ) ≤ |(4 : ℝ)| := by
  have : cosDip 90 = 0 := by
    unfold cosDip
    rw [show (90 * Real.pi / 180 : ℝ) = Real.pi / 2 by ring, Real.cos_pi_div_two]
  refine ⟨by norm_num, by norm_num, Or.inl this, by norm_num, ⟨?_, ?_, ?_, ?_⟩, Or.inl (by norm_num), by norm_num⟩
  · norm_num
  · norm_num
  · show (1 / 1000000 : ℝ) < |5 + -1|
    norm_num [abs_of_pos]
  · show (-1 : ℝ) < 0
    norm_num

/-- A plane that dips 60°. -/
example : Plain (cosDip 60) := by
  have : cosDip 60 = 1 / 2 := by
    unfold cosDip
    rw [show (60 * Real.pi / 180 : ℝ) = Real.pi / 3 by ring, Real.cos_pi_div_three]
  right
  rw [this]
  norm_num [abs_of_pos]

/-- The moment tensor is not zero: unit strike slip on a vertical plane. -/
example : moment 1 1 1 0 1 0 0 0 0 1 = -1 := by
  norm_num [moment, shearMoment, openMoment, isoMoment]

end GRT.Okada
