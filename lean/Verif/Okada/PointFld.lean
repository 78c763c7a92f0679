import Verif.Okada.PointNav1
import Verif.Okada.PointNav2
import Verif.Okada.PointNav3
import Verif.Okada.PointNav4
import Verif.Okada.PointTr
import Verif.Okada.PointKel
import Verif.Okada.PointDec
import Mathlib.Analysis.Calculus.Deriv.Shift

/-! Okada's point sources as fields of position: gradient, balance of stresses, free surface, source and decay. -/

namespace GRT.Okada

open Spec

/-- The derivatives of a field of results are the derivatives of its displacement. -/
def GradD (F : V3 → D12) (p : V3) : Prop := IsGradAt (fun q => (F q).disp) (fun q => (F q).upar) p

/-- The stresses belonging to the derivatives balance. -/
def EqD (lam mu : ℝ) (F : V3 → D12) (p : V3) : Prop := EquilAt lam mu (fun q => (F q).upar) p

theorem disp_add (a b : D12) (s : ℝ) : (a.addScaled b s).disp = fun c => a.disp c + s * b.disp c := by
  ext c
  fin_cases c <;> rfl

theorem upar_add (a b : D12) (s : ℝ) : (a.addScaled b s).upar = fun i c => a.upar i c + s * b.upar i c := by
  ext i c
  fin_cases i <;> fin_cases c <;> rfl

theorem GradD.add {F G : V3 → D12} {p : V3} (hF : GradD F p) (hG : GradD G p) (s : ℝ) : GradD (fun q => (F q).addScaled (G q) s) p := by
  unfold GradD
  simp only [disp_add, upar_add]
  exact IsGradAt.addScaled s hF hG

theorem EqD.add {lam mu : ℝ} {F G : V3 → D12} {p : V3} (hF : EqD lam mu F p) (hG : EqD lam mu G p) (s : ℝ) :
    EqD lam mu (fun q => (F q).addScaled (G q) s) p := by
  unfold EqD
  simp only [upar_add]
  exact EquilAt.addScaled s hF hG

theorem GradD.of {F : ℝ → ℝ → ℝ → D12} {p : V3}
    (h : (HasDerivAt (fun x => (F x (p 1) (p 2)).u0) (F (p 0) (p 1) (p 2)).u3 (p 0) ∧
        HasDerivAt (fun x => (F x (p 1) (p 2)).u1) (F (p 0) (p 1) (p 2)).u4 (p 0) ∧
        HasDerivAt (fun x => (F x (p 1) (p 2)).u2) (F (p 0) (p 1) (p 2)).u5 (p 0)) ∧
      (HasDerivAt (fun y => (F (p 0) y (p 2)).u0) (F (p 0) (p 1) (p 2)).u6 (p 1) ∧
        HasDerivAt (fun y => (F (p 0) y (p 2)).u1) (F (p 0) (p 1) (p 2)).u7 (p 1) ∧
        HasDerivAt (fun y => (F (p 0) y (p 2)).u2) (F (p 0) (p 1) (p 2)).u8 (p 1)) ∧
      (HasDerivAt (fun z => (F (p 0) (p 1) z).u0) (F (p 0) (p 1) (p 2)).u9 (p 2) ∧
        HasDerivAt (fun z => (F (p 0) (p 1) z).u1) (F (p 0) (p 1) (p 2)).u10 (p 2) ∧
        HasDerivAt (fun z => (F (p 0) (p 1) z).u2) (F (p 0) (p 1) (p 2)).u11 (p 2))) :
    GradD (fun q => F (q 0) (q 1) (q 2)) p := by
  obtain ⟨x, y, z, rfl⟩ : ∃ x y z, p = ![x, y, z] := ⟨_, _, _, vec_eq p⟩
  obtain ⟨⟨h0, h1, h2⟩, ⟨h3, h4, h5⟩, ⟨h6, h7, h8⟩⟩ := h
  intro i c
  unfold PartialAt
  fin_cases i <;> fin_cases c <;>
    simp only [Fin.zero_eta, Fin.mk_one, Fin.reduceFinMk, upd0, upd1, upd2]
  exacts [h0, h1, h2, h3, h4, h5, h6, h7, h8]

theorem stress_scale (lam mu : ℝ) (h : lam + 2 * mu ≠ 0) (g : Fin 3 → V3) (c j : Fin 3) :
    stress lam mu g c j = (lam + 2 * mu) * stress (2 * ((lam + mu) / (lam + 2 * mu)) - 1) (1 - (lam + mu) / (lam + 2 * mu)) g c j := by
  have H : (lam + mu) / (lam + 2 * mu) * (lam + 2 * mu) = lam + mu := div_mul_cancel₀ _ h
  generalize (lam + mu) / (lam + 2 * mu) = a at *
  unfold stress
  split
  · linear_combination (-(2 * ∑ k, g k k) + (g j c + g c j)) * H
  · linear_combination (g j c + g c j) * H

theorem EquilAt.scale {lam mu : ℝ} (h : lam + 2 * mu ≠ 0) {g : V3 → Fin 3 → V3} {p : V3}
    (e : EquilAt (2 * ((lam + mu) / (lam + 2 * mu)) - 1) (1 - (lam + mu) / (lam + 2 * mu)) g p) : EquilAt lam mu g p := by
  intro c
  obtain ⟨s, hs, h0⟩ := e c
  refine ⟨fun j => (lam + 2 * mu) * s j, fun j => ?_, by rw [← Finset.mul_sum, h0, mul_zero]⟩
  simp only [fun q => stress_scale lam mu h (g q) c j]
  exact (hs j).smul _

theorem EqD.of {al : ℝ} {F : ℝ → ℝ → ℝ → D12} {p : V3}
    (h0 : ∃ s0 s1 s2, HasDerivAt (fun x => (2 * al - 1) * ((F x (p 1) (p 2)).u3 + (F x (p 1) (p 2)).u7 + (F x (p 1) (p 2)).u11) + (1 - al) * ((F x (p 1) (p 2)).u3 + (F x (p 1) (p 2)).u3)) s0 (p 0) ∧
      HasDerivAt (fun y => (1 - al) * ((F (p 0) y (p 2)).u6 + (F (p 0) y (p 2)).u4)) s1 (p 1) ∧
      HasDerivAt (fun z => (1 - al) * ((F (p 0) (p 1) z).u9 + (F (p 0) (p 1) z).u5)) s2 (p 2) ∧ s0 + s1 + s2 = 0)
    (h1 : ∃ s0 s1 s2, HasDerivAt (fun x => (1 - al) * ((F x (p 1) (p 2)).u4 + (F x (p 1) (p 2)).u6)) s0 (p 0) ∧
      HasDerivAt (fun y => (2 * al - 1) * ((F (p 0) y (p 2)).u3 + (F (p 0) y (p 2)).u7 + (F (p 0) y (p 2)).u11) + (1 - al) * ((F (p 0) y (p 2)).u7 + (F (p 0) y (p 2)).u7)) s1 (p 1) ∧
      HasDerivAt (fun z => (1 - al) * ((F (p 0) (p 1) z).u10 + (F (p 0) (p 1) z).u8)) s2 (p 2) ∧ s0 + s1 + s2 = 0)
    (h2 : ∃ s0 s1 s2, HasDerivAt (fun x => (1 - al) * ((F x (p 1) (p 2)).u5 + (F x (p 1) (p 2)).u9)) s0 (p 0) ∧
      HasDerivAt (fun y => (1 - al) * ((F (p 0) y (p 2)).u8 + (F (p 0) y (p 2)).u10)) s1 (p 1) ∧
      HasDerivAt (fun z => (2 * al - 1) * ((F (p 0) (p 1) z).u3 + (F (p 0) (p 1) z).u7 + (F (p 0) (p 1) z).u11) + (1 - al) * ((F (p 0) (p 1) z).u11 + (F (p 0) (p 1) z).u11)) s2 (p 2) ∧ s0 + s1 + s2 = 0) :
    EqD (2 * al - 1) (1 - al) (fun q => F (q 0) (q 1) (q 2)) p := by
  obtain ⟨x, y, z, rfl⟩ : ∃ x y z, p = ![x, y, z] := ⟨_, _, _, vec_eq p⟩
  intro c
  have key : ∀ s0 s1 s2 : ℝ, PartialAt (fun q => stress (2 * al - 1) (1 - al) (F (q 0) (q 1) (q 2)).upar c 0) s0 0 ![x, y, z] →
      PartialAt (fun q => stress (2 * al - 1) (1 - al) (F (q 0) (q 1) (q 2)).upar c 1) s1 1 ![x, y, z] →
      PartialAt (fun q => stress (2 * al - 1) (1 - al) (F (q 0) (q 1) (q 2)).upar c 2) s2 2 ![x, y, z] → s0 + s1 + s2 = 0 →
      ∃ s : Fin 3 → ℝ, (∀ j, PartialAt (fun q => stress (2 * al - 1) (1 - al) (F (q 0) (q 1) (q 2)).upar c j) (s j) j ![x, y, z]) ∧
        ∑ j, s j = 0 := by
    intro s0 s1 s2 a0 a1 a2 a3
    refine ⟨![s0, s1, s2], fun j => ?_, ?_⟩
    · fin_cases j
      exacts [a0, a1, a2]
    · rw [Fin.sum_univ_three]
      exact a3
  unfold PartialAt at key
  simp only [upd0, upd1, upd2] at key
  unfold PartialAt
  fin_cases c
  · obtain ⟨s0, s1, s2, a0, a1, a2, a3⟩ := h0
    refine key s0 s1 s2 ?_ ?_ ?_ a3
    · refine a0.congr_of_eventuallyEq (Filter.Eventually.of_forall fun t => ?_)
      simp [stress, D12.upar, Fin.sum_univ_three]
    · refine a1.congr_of_eventuallyEq (Filter.Eventually.of_forall fun t => ?_)
      simp [stress, D12.upar, Fin.sum_univ_three]
    · refine a2.congr_of_eventuallyEq (Filter.Eventually.of_forall fun t => ?_)
      simp [stress, D12.upar, Fin.sum_univ_three]
  · obtain ⟨s0, s1, s2, a0, a1, a2, a3⟩ := h1
    refine key s0 s1 s2 ?_ ?_ ?_ a3
    · refine a0.congr_of_eventuallyEq (Filter.Eventually.of_forall fun t => ?_)
      simp [stress, D12.upar, Fin.sum_univ_three]
    · refine a1.congr_of_eventuallyEq (Filter.Eventually.of_forall fun t => ?_)
      simp [stress, D12.upar, Fin.sum_univ_three]
    · refine a2.congr_of_eventuallyEq (Filter.Eventually.of_forall fun t => ?_)
      simp [stress, D12.upar, Fin.sum_univ_three]
  · obtain ⟨s0, s1, s2, a0, a1, a2, a3⟩ := h2
    refine key s0 s1 s2 ?_ ?_ ?_ a3
    · refine a0.congr_of_eventuallyEq (Filter.Eventually.of_forall fun t => ?_)
      simp [stress, D12.upar, Fin.sum_univ_three]
    · refine a1.congr_of_eventuallyEq (Filter.Eventually.of_forall fun t => ?_)
      simp [stress, D12.upar, Fin.sum_univ_three]
    · refine a2.congr_of_eventuallyEq (Filter.Eventually.of_forall fun t => ?_)
      simp [stress, D12.upar, Fin.sum_univ_three]

/-- Real source 1 as a field. -/
noncomputable def realF_1 (al sd cd dep : ℝ) (q : V3) : D12 := (fun x y z => realD (UA0_1 (medOf al sd cd) (ptOf (medOf al sd cd) x y (dep + z)))) (q 0) (q 1) (q 2)

/-- Image source 1 as a field. -/
noncomputable def imgF_1 (al sd cd dep : ℝ) (q : V3) : D12 :=
  (fun x y z => imgSum z (UA0_1 (medOf al sd cd) (ptOf (medOf al sd cd) x y (dep - z))) (UB0_1 (medOf al sd cd) (ptOf (medOf al sd cd) x y (dep - z)) z) (UC0_1 (medOf al sd cd) (ptOf (medOf al sd cd) x y (dep - z)) z)) (q 0) (q 1) (q 2)

theorem realF_1_grad {al sd cd dep : ℝ} (tr : sd * sd + cd * cd = 1) {p : V3} (h : p 0 * p 0 + p 1 * p 1 + (dep + p 2) * (dep + p 2) ≠ 0) :
    GradD (realF_1 al sd cd dep) p := by
  refine GradD.of (F := fun x y z => realD (UA0_1 (medOf al sd cd) (ptOf (medOf al sd cd) x y (dep + z)))) ?_
  obtain ⟨⟨h0, h1, h2⟩, ⟨h3, h4, h5⟩, ⟨h6, h7, h8⟩⟩ := UA0_1_der' (al := al) tr _ _ _ h
  refine ⟨⟨h0.fun_neg, h1.fun_neg, h2.fun_neg⟩, ⟨h3.fun_neg, h4.fun_neg, h5.fun_neg⟩, ?_, ?_, ?_⟩
  · exact (h6.comp_const_add dep (p 2)).fun_neg.congr_deriv (neg_neg _)
  · exact (h7.comp_const_add dep (p 2)).fun_neg.congr_deriv (neg_neg _)
  · exact (h8.comp_const_add dep (p 2)).fun_neg.congr_deriv (neg_neg _)

theorem realF_1_eq {al sd cd dep : ℝ} (tr : sd * sd + cd * cd = 1) {p : V3} (h : p 0 * p 0 + p 1 * p 1 + (dep + p 2) * (dep + p 2) ≠ 0) :
    EqD (2 * al - 1) (1 - al) (realF_1 al sd cd dep) p := by
  refine EqD.of (F := fun x y z => realD (UA0_1 (medOf al sd cd) (ptOf (medOf al sd cd) x y (dep + z)))) ?_ ?_ ?_
  · obtain ⟨s0, s1, s2, a0, a1, a2, a3⟩ := realEq_1_0 (al := al) tr _ _ _ h
    exact ⟨s0, s1, s2, a0, a1, a2.comp_const_add dep (p 2), a3⟩
  · obtain ⟨s0, s1, s2, a0, a1, a2, a3⟩ := realEq_1_1 (al := al) tr _ _ _ h
    exact ⟨s0, s1, s2, a0, a1, a2.comp_const_add dep (p 2), a3⟩
  · obtain ⟨s0, s1, s2, a0, a1, a2, a3⟩ := realEq_1_2 (al := al) tr _ _ _ h
    exact ⟨s0, s1, s2, a0, a1, a2.comp_const_add dep (p 2), a3⟩

theorem imgF_1_grad {al sd cd dep : ℝ} (tr : sd * sd + cd * cd = 1) {p : V3}
    (h : p 0 * p 0 + p 1 * p 1 + (dep - p 2) * (dep - p 2) ≠ 0) (h' : rr (p 0) (p 1) (dep - p 2) + (dep - p 2) ≠ 0) :
    GradD (imgF_1 al sd cd dep) p := by
  refine GradD.of (F := fun x y z => imgSum z (UA0_1 (medOf al sd cd) (ptOf (medOf al sd cd) x y (dep - z))) (UB0_1 (medOf al sd cd) (ptOf (medOf al sd cd) x y (dep - z)) z) (UC0_1 (medOf al sd cd) (ptOf (medOf al sd cd) x y (dep - z)) z)) ?_
  obtain ⟨⟨h0, h1, h2⟩, ⟨h3, h4, h5⟩, ⟨h6, h7, h8⟩⟩ := UA0_1_der' (al := al) tr _ _ _ h
  obtain ⟨⟨f0, f1, f2⟩, ⟨f3, f4, f5⟩, ⟨f6, f7, f8⟩⟩ := UB0_1_der (al := al) tr dep _ _ _ h h'
  obtain ⟨⟨g0, g1, g2⟩, ⟨g3, g4, g5⟩, ⟨g6, g7, g8⟩⟩ := UC0_1_der (al := al) tr dep _ _ _ h h'
  have b6 := f6.comp_const_sub dep (p 2)
  have b7 := f7.comp_const_sub dep (p 2)
  have b8 := f8.comp_const_sub dep (p 2)
  have c6 := g6.comp_const_sub dep (p 2)
  have c7 := g7.comp_const_sub dep (p 2)
  have c8 := g8.comp_const_sub dep (p 2)
  simp only [sub_sub_cancel, neg_neg] at f0 f1 f2 f3 f4 f5 g0 g1 g2 g3 g4 g5 b6 b7 b8 c6 c7 c8
  refine ⟨⟨?_, ?_, ?_⟩, ⟨?_, ?_, ?_⟩, ?_, ?_, ?_⟩
  · exact (h0.fun_add f0).fun_add (g0.const_mul (p 2))
  · exact (h1.fun_add f1).fun_add (g1.const_mul (p 2))
  · exact (h2.fun_add f2).fun_add (g2.const_mul (p 2))
  · exact (h3.fun_add f3).fun_add (g3.const_mul (p 2))
  · exact (h4.fun_add f4).fun_add (g4.const_mul (p 2))
  · exact (h5.fun_add f5).fun_add (g5.const_mul (p 2))
  · refine (((h6.comp_const_sub dep (p 2)).fun_add b6).fun_add ((hasDerivAt_id' (p 2)).fun_mul c6)).congr_deriv ?_
    dsimp only [imgSum]
    ring
  · refine (((h7.comp_const_sub dep (p 2)).fun_add b7).fun_add ((hasDerivAt_id' (p 2)).fun_mul c7)).congr_deriv ?_
    dsimp only [imgSum]
    ring
  · refine (((h8.comp_const_sub dep (p 2)).fun_add b8).fun_add ((hasDerivAt_id' (p 2)).fun_mul c8)).congr_deriv ?_
    dsimp only [imgSum]
    ring

theorem imgF_1_eq {al sd cd dep : ℝ} (tr : sd * sd + cd * cd = 1) (ha : al ≠ 0) {p : V3}
    (h : p 0 * p 0 + p 1 * p 1 + (dep - p 2) * (dep - p 2) ≠ 0) (h' : rr (p 0) (p 1) (dep - p 2) + (dep - p 2) ≠ 0) :
    EqD (2 * al - 1) (1 - al) (imgF_1 al sd cd dep) p := by
  refine EqD.of (F := fun x y z => imgSum z (UA0_1 (medOf al sd cd) (ptOf (medOf al sd cd) x y (dep - z))) (UB0_1 (medOf al sd cd) (ptOf (medOf al sd cd) x y (dep - z)) z) (UC0_1 (medOf al sd cd) (ptOf (medOf al sd cd) x y (dep - z)) z)) ?_ ?_ ?_
  · obtain ⟨s0, s1, s2, a0, a1, a2, a3⟩ := imgEq_1_0 tr ha dep _ _ _ h h'
    have a4 := a2.comp_const_sub dep (p 2)
    simp only [sub_sub_cancel] at a0 a1 a4
    exact ⟨s0, s1, -s2, a0, a1, a4, by linear_combination a3⟩
  · obtain ⟨s0, s1, s2, a0, a1, a2, a3⟩ := imgEq_1_1 tr ha dep _ _ _ h h'
    have a4 := a2.comp_const_sub dep (p 2)
    simp only [sub_sub_cancel] at a0 a1 a4
    exact ⟨s0, s1, -s2, a0, a1, a4, by linear_combination a3⟩
  · obtain ⟨s0, s1, s2, a0, a1, a2, a3⟩ := imgEq_1_2 tr ha dep _ _ _ h h'
    have a4 := a2.comp_const_sub dep (p 2)
    simp only [sub_sub_cancel] at a0 a1 a4
    exact ⟨s0, s1, -s2, a0, a1, a4, by linear_combination a3⟩

/-- Real source 2 as a field. -/
noncomputable def realF_2 (al sd cd dep : ℝ) (q : V3) : D12 := (fun x y z => realD (UA0_2 (medOf al sd cd) (ptOf (medOf al sd cd) x y (dep + z)))) (q 0) (q 1) (q 2)

/-- Image source 2 as a field. -/
noncomputable def imgF_2 (al sd cd dep : ℝ) (q : V3) : D12 :=
  (fun x y z => imgSum z (UA0_2 (medOf al sd cd) (ptOf (medOf al sd cd) x y (dep - z))) (UB0_2 (medOf al sd cd) (ptOf (medOf al sd cd) x y (dep - z)) z) (UC0_2 (medOf al sd cd) (ptOf (medOf al sd cd) x y (dep - z)) z)) (q 0) (q 1) (q 2)

theorem realF_2_grad {al sd cd dep : ℝ} (tr : sd * sd + cd * cd = 1) {p : V3} (h : p 0 * p 0 + p 1 * p 1 + (dep + p 2) * (dep + p 2) ≠ 0) :
    GradD (realF_2 al sd cd dep) p := by
  refine GradD.of (F := fun x y z => realD (UA0_2 (medOf al sd cd) (ptOf (medOf al sd cd) x y (dep + z)))) ?_
  obtain ⟨⟨h0, h1, h2⟩, ⟨h3, h4, h5⟩, ⟨h6, h7, h8⟩⟩ := UA0_2_der' (al := al) tr _ _ _ h
  refine ⟨⟨h0.fun_neg, h1.fun_neg, h2.fun_neg⟩, ⟨h3.fun_neg, h4.fun_neg, h5.fun_neg⟩, ?_, ?_, ?_⟩
  · exact (h6.comp_const_add dep (p 2)).fun_neg.congr_deriv (neg_neg _)
  · exact (h7.comp_const_add dep (p 2)).fun_neg.congr_deriv (neg_neg _)
  · exact (h8.comp_const_add dep (p 2)).fun_neg.congr_deriv (neg_neg _)

theorem realF_2_eq {al sd cd dep : ℝ} (tr : sd * sd + cd * cd = 1) {p : V3} (h : p 0 * p 0 + p 1 * p 1 + (dep + p 2) * (dep + p 2) ≠ 0) :
    EqD (2 * al - 1) (1 - al) (realF_2 al sd cd dep) p := by
  refine EqD.of (F := fun x y z => realD (UA0_2 (medOf al sd cd) (ptOf (medOf al sd cd) x y (dep + z)))) ?_ ?_ ?_
  · obtain ⟨s0, s1, s2, a0, a1, a2, a3⟩ := realEq_2_0 (al := al) tr _ _ _ h
    exact ⟨s0, s1, s2, a0, a1, a2.comp_const_add dep (p 2), a3⟩
  · obtain ⟨s0, s1, s2, a0, a1, a2, a3⟩ := realEq_2_1 (al := al) tr _ _ _ h
    exact ⟨s0, s1, s2, a0, a1, a2.comp_const_add dep (p 2), a3⟩
  · obtain ⟨s0, s1, s2, a0, a1, a2, a3⟩ := realEq_2_2 (al := al) tr _ _ _ h
    exact ⟨s0, s1, s2, a0, a1, a2.comp_const_add dep (p 2), a3⟩

theorem imgF_2_grad {al sd cd dep : ℝ} (tr : sd * sd + cd * cd = 1) {p : V3}
    (h : p 0 * p 0 + p 1 * p 1 + (dep - p 2) * (dep - p 2) ≠ 0) (h' : rr (p 0) (p 1) (dep - p 2) + (dep - p 2) ≠ 0) :
    GradD (imgF_2 al sd cd dep) p := by
  refine GradD.of (F := fun x y z => imgSum z (UA0_2 (medOf al sd cd) (ptOf (medOf al sd cd) x y (dep - z))) (UB0_2 (medOf al sd cd) (ptOf (medOf al sd cd) x y (dep - z)) z) (UC0_2 (medOf al sd cd) (ptOf (medOf al sd cd) x y (dep - z)) z)) ?_
  obtain ⟨⟨h0, h1, h2⟩, ⟨h3, h4, h5⟩, ⟨h6, h7, h8⟩⟩ := UA0_2_der' (al := al) tr _ _ _ h
  obtain ⟨⟨f0, f1, f2⟩, ⟨f3, f4, f5⟩, ⟨f6, f7, f8⟩⟩ := UB0_2_der (al := al) tr dep _ _ _ h h'
  obtain ⟨⟨g0, g1, g2⟩, ⟨g3, g4, g5⟩, ⟨g6, g7, g8⟩⟩ := UC0_2_der (al := al) tr dep _ _ _ h h'
  have b6 := f6.comp_const_sub dep (p 2)
  have b7 := f7.comp_const_sub dep (p 2)
  have b8 := f8.comp_const_sub dep (p 2)
  have c6 := g6.comp_const_sub dep (p 2)
  have c7 := g7.comp_const_sub dep (p 2)
  have c8 := g8.comp_const_sub dep (p 2)
  simp only [sub_sub_cancel, neg_neg] at f0 f1 f2 f3 f4 f5 g0 g1 g2 g3 g4 g5 b6 b7 b8 c6 c7 c8
  refine ⟨⟨?_, ?_, ?_⟩, ⟨?_, ?_, ?_⟩, ?_, ?_, ?_⟩
  · exact (h0.fun_add f0).fun_add (g0.const_mul (p 2))
  · exact (h1.fun_add f1).fun_add (g1.const_mul (p 2))
  · exact (h2.fun_add f2).fun_add (g2.const_mul (p 2))
  · exact (h3.fun_add f3).fun_add (g3.const_mul (p 2))
  · exact (h4.fun_add f4).fun_add (g4.const_mul (p 2))
  · exact (h5.fun_add f5).fun_add (g5.const_mul (p 2))
  · refine (((h6.comp_const_sub dep (p 2)).fun_add b6).fun_add ((hasDerivAt_id' (p 2)).fun_mul c6)).congr_deriv ?_
    dsimp only [imgSum]
    ring
  · refine (((h7.comp_const_sub dep (p 2)).fun_add b7).fun_add ((hasDerivAt_id' (p 2)).fun_mul c7)).congr_deriv ?_
    dsimp only [imgSum]
    ring
  · refine (((h8.comp_const_sub dep (p 2)).fun_add b8).fun_add ((hasDerivAt_id' (p 2)).fun_mul c8)).congr_deriv ?_
    dsimp only [imgSum]
    ring

theorem imgF_2_eq {al sd cd dep : ℝ} (tr : sd * sd + cd * cd = 1) (ha : al ≠ 0) {p : V3}
    (h : p 0 * p 0 + p 1 * p 1 + (dep - p 2) * (dep - p 2) ≠ 0) (h' : rr (p 0) (p 1) (dep - p 2) + (dep - p 2) ≠ 0) :
    EqD (2 * al - 1) (1 - al) (imgF_2 al sd cd dep) p := by
  refine EqD.of (F := fun x y z => imgSum z (UA0_2 (medOf al sd cd) (ptOf (medOf al sd cd) x y (dep - z))) (UB0_2 (medOf al sd cd) (ptOf (medOf al sd cd) x y (dep - z)) z) (UC0_2 (medOf al sd cd) (ptOf (medOf al sd cd) x y (dep - z)) z)) ?_ ?_ ?_
  · obtain ⟨s0, s1, s2, a0, a1, a2, a3⟩ := imgEq_2_0 tr ha dep _ _ _ h h'
    have a4 := a2.comp_const_sub dep (p 2)
    simp only [sub_sub_cancel] at a0 a1 a4
    exact ⟨s0, s1, -s2, a0, a1, a4, by linear_combination a3⟩
  · obtain ⟨s0, s1, s2, a0, a1, a2, a3⟩ := imgEq_2_1 tr ha dep _ _ _ h h'
    have a4 := a2.comp_const_sub dep (p 2)
    simp only [sub_sub_cancel] at a0 a1 a4
    exact ⟨s0, s1, -s2, a0, a1, a4, by linear_combination a3⟩
  · obtain ⟨s0, s1, s2, a0, a1, a2, a3⟩ := imgEq_2_2 tr ha dep _ _ _ h h'
    have a4 := a2.comp_const_sub dep (p 2)
    simp only [sub_sub_cancel] at a0 a1 a4
    exact ⟨s0, s1, -s2, a0, a1, a4, by linear_combination a3⟩

/-- Real source 3 as a field. -/
noncomputable def realF_3 (al sd cd dep : ℝ) (q : V3) : D12 := (fun x y z => realD (UA0_3 (medOf al sd cd) (ptOf (medOf al sd cd) x y (dep + z)))) (q 0) (q 1) (q 2)

/-- Image source 3 as a field. -/
noncomputable def imgF_3 (al sd cd dep : ℝ) (q : V3) : D12 :=
  (fun x y z => imgSum z (UA0_3 (medOf al sd cd) (ptOf (medOf al sd cd) x y (dep - z))) (UB0_3 (medOf al sd cd) (ptOf (medOf al sd cd) x y (dep - z)) z) (UC0_3 (medOf al sd cd) (ptOf (medOf al sd cd) x y (dep - z)) z)) (q 0) (q 1) (q 2)

theorem realF_3_grad {al sd cd dep : ℝ} (tr : sd * sd + cd * cd = 1) {p : V3} (h : p 0 * p 0 + p 1 * p 1 + (dep + p 2) * (dep + p 2) ≠ 0) :
    GradD (realF_3 al sd cd dep) p := by
  refine GradD.of (F := fun x y z => realD (UA0_3 (medOf al sd cd) (ptOf (medOf al sd cd) x y (dep + z)))) ?_
  obtain ⟨⟨h0, h1, h2⟩, ⟨h3, h4, h5⟩, ⟨h6, h7, h8⟩⟩ := UA0_3_der' (al := al) tr _ _ _ h
  refine ⟨⟨h0.fun_neg, h1.fun_neg, h2.fun_neg⟩, ⟨h3.fun_neg, h4.fun_neg, h5.fun_neg⟩, ?_, ?_, ?_⟩
  · exact (h6.comp_const_add dep (p 2)).fun_neg.congr_deriv (neg_neg _)
  · exact (h7.comp_const_add dep (p 2)).fun_neg.congr_deriv (neg_neg _)
  · exact (h8.comp_const_add dep (p 2)).fun_neg.congr_deriv (neg_neg _)

theorem realF_3_eq {al sd cd dep : ℝ} (tr : sd * sd + cd * cd = 1) {p : V3} (h : p 0 * p 0 + p 1 * p 1 + (dep + p 2) * (dep + p 2) ≠ 0) :
    EqD (2 * al - 1) (1 - al) (realF_3 al sd cd dep) p := by
  refine EqD.of (F := fun x y z => realD (UA0_3 (medOf al sd cd) (ptOf (medOf al sd cd) x y (dep + z)))) ?_ ?_ ?_
  · obtain ⟨s0, s1, s2, a0, a1, a2, a3⟩ := realEq_3_0 (al := al) tr _ _ _ h
    exact ⟨s0, s1, s2, a0, a1, a2.comp_const_add dep (p 2), a3⟩
  · obtain ⟨s0, s1, s2, a0, a1, a2, a3⟩ := realEq_3_1 (al := al) tr _ _ _ h
    exact ⟨s0, s1, s2, a0, a1, a2.comp_const_add dep (p 2), a3⟩
  · obtain ⟨s0, s1, s2, a0, a1, a2, a3⟩ := realEq_3_2 (al := al) tr _ _ _ h
    exact ⟨s0, s1, s2, a0, a1, a2.comp_const_add dep (p 2), a3⟩

theorem imgF_3_grad {al sd cd dep : ℝ} (tr : sd * sd + cd * cd = 1) {p : V3}
    (h : p 0 * p 0 + p 1 * p 1 + (dep - p 2) * (dep - p 2) ≠ 0) (h' : rr (p 0) (p 1) (dep - p 2) + (dep - p 2) ≠ 0) :
    GradD (imgF_3 al sd cd dep) p := by
  refine GradD.of (F := fun x y z => imgSum z (UA0_3 (medOf al sd cd) (ptOf (medOf al sd cd) x y (dep - z))) (UB0_3 (medOf al sd cd) (ptOf (medOf al sd cd) x y (dep - z)) z) (UC0_3 (medOf al sd cd) (ptOf (medOf al sd cd) x y (dep - z)) z)) ?_
  obtain ⟨⟨h0, h1, h2⟩, ⟨h3, h4, h5⟩, ⟨h6, h7, h8⟩⟩ := UA0_3_der' (al := al) tr _ _ _ h
  obtain ⟨⟨f0, f1, f2⟩, ⟨f3, f4, f5⟩, ⟨f6, f7, f8⟩⟩ := UB0_3_der (al := al) tr dep _ _ _ h h'
  obtain ⟨⟨g0, g1, g2⟩, ⟨g3, g4, g5⟩, ⟨g6, g7, g8⟩⟩ := UC0_3_der (al := al) tr dep _ _ _ h h'
  have b6 := f6.comp_const_sub dep (p 2)
  have b7 := f7.comp_const_sub dep (p 2)
  have b8 := f8.comp_const_sub dep (p 2)
  have c6 := g6.comp_const_sub dep (p 2)
  have c7 := g7.comp_const_sub dep (p 2)
  have c8 := g8.comp_const_sub dep (p 2)
  simp only [sub_sub_cancel, neg_neg] at f0 f1 f2 f3 f4 f5 g0 g1 g2 g3 g4 g5 b6 b7 b8 c6 c7 c8
  refine ⟨⟨?_, ?_, ?_⟩, ⟨?_, ?_, ?_⟩, ?_, ?_, ?_⟩
  · exact (h0.fun_add f0).fun_add (g0.const_mul (p 2))
  · exact (h1.fun_add f1).fun_add (g1.const_mul (p 2))
  · exact (h2.fun_add f2).fun_add (g2.const_mul (p 2))
  · exact (h3.fun_add f3).fun_add (g3.const_mul (p 2))
  · exact (h4.fun_add f4).fun_add (g4.const_mul (p 2))
  · exact (h5.fun_add f5).fun_add (g5.const_mul (p 2))
  · refine (((h6.comp_const_sub dep (p 2)).fun_add b6).fun_add ((hasDerivAt_id' (p 2)).fun_mul c6)).congr_deriv ?_
    dsimp only [imgSum]
    ring
  · refine (((h7.comp_const_sub dep (p 2)).fun_add b7).fun_add ((hasDerivAt_id' (p 2)).fun_mul c7)).congr_deriv ?_
    dsimp only [imgSum]
    ring
  · refine (((h8.comp_const_sub dep (p 2)).fun_add b8).fun_add ((hasDerivAt_id' (p 2)).fun_mul c8)).congr_deriv ?_
    dsimp only [imgSum]
    ring

theorem imgF_3_eq {al sd cd dep : ℝ} (tr : sd * sd + cd * cd = 1) (ha : al ≠ 0) {p : V3}
    (h : p 0 * p 0 + p 1 * p 1 + (dep - p 2) * (dep - p 2) ≠ 0) (h' : rr (p 0) (p 1) (dep - p 2) + (dep - p 2) ≠ 0) :
    EqD (2 * al - 1) (1 - al) (imgF_3 al sd cd dep) p := by
  refine EqD.of (F := fun x y z => imgSum z (UA0_3 (medOf al sd cd) (ptOf (medOf al sd cd) x y (dep - z))) (UB0_3 (medOf al sd cd) (ptOf (medOf al sd cd) x y (dep - z)) z) (UC0_3 (medOf al sd cd) (ptOf (medOf al sd cd) x y (dep - z)) z)) ?_ ?_ ?_
  · obtain ⟨s0, s1, s2, a0, a1, a2, a3⟩ := imgEq_3_0 tr ha dep _ _ _ h h'
    have a4 := a2.comp_const_sub dep (p 2)
    simp only [sub_sub_cancel] at a0 a1 a4
    exact ⟨s0, s1, -s2, a0, a1, a4, by linear_combination a3⟩
  · obtain ⟨s0, s1, s2, a0, a1, a2, a3⟩ := imgEq_3_1 tr ha dep _ _ _ h h'
    have a4 := a2.comp_const_sub dep (p 2)
    simp only [sub_sub_cancel] at a0 a1 a4
    exact ⟨s0, s1, -s2, a0, a1, a4, by linear_combination a3⟩
  · obtain ⟨s0, s1, s2, a0, a1, a2, a3⟩ := imgEq_3_2 tr ha dep _ _ _ h h'
    have a4 := a2.comp_const_sub dep (p 2)
    simp only [sub_sub_cancel] at a0 a1 a4
    exact ⟨s0, s1, -s2, a0, a1, a4, by linear_combination a3⟩

/-- Real source 4 as a field. -/
noncomputable def realF_4 (al sd cd dep : ℝ) (q : V3) : D12 := (fun x y z => realD (UA0_4 (medOf al sd cd) (ptOf (medOf al sd cd) x y (dep + z)))) (q 0) (q 1) (q 2)

/-- Image source 4 as a field. -/
noncomputable def imgF_4 (al sd cd dep : ℝ) (q : V3) : D12 :=
  (fun x y z => imgSum z (UA0_4 (medOf al sd cd) (ptOf (medOf al sd cd) x y (dep - z))) (UB0_4 (medOf al sd cd) (ptOf (medOf al sd cd) x y (dep - z)) z) (UC0_4 (medOf al sd cd) (ptOf (medOf al sd cd) x y (dep - z)) z)) (q 0) (q 1) (q 2)

theorem realF_4_grad {al sd cd dep : ℝ} (tr : sd * sd + cd * cd = 1) {p : V3} (h : p 0 * p 0 + p 1 * p 1 + (dep + p 2) * (dep + p 2) ≠ 0) :
    GradD (realF_4 al sd cd dep) p := by
  refine GradD.of (F := fun x y z => realD (UA0_4 (medOf al sd cd) (ptOf (medOf al sd cd) x y (dep + z)))) ?_
  obtain ⟨⟨h0, h1, h2⟩, ⟨h3, h4, h5⟩, ⟨h6, h7, h8⟩⟩ := UA0_4_der' (al := al) tr _ _ _ h
  refine ⟨⟨h0.fun_neg, h1.fun_neg, h2.fun_neg⟩, ⟨h3.fun_neg, h4.fun_neg, h5.fun_neg⟩, ?_, ?_, ?_⟩
  · exact (h6.comp_const_add dep (p 2)).fun_neg.congr_deriv (neg_neg _)
  · exact (h7.comp_const_add dep (p 2)).fun_neg.congr_deriv (neg_neg _)
  · exact (h8.comp_const_add dep (p 2)).fun_neg.congr_deriv (neg_neg _)

theorem realF_4_eq {al sd cd dep : ℝ} (tr : sd * sd + cd * cd = 1) {p : V3} (h : p 0 * p 0 + p 1 * p 1 + (dep + p 2) * (dep + p 2) ≠ 0) :
    EqD (2 * al - 1) (1 - al) (realF_4 al sd cd dep) p := by
  refine EqD.of (F := fun x y z => realD (UA0_4 (medOf al sd cd) (ptOf (medOf al sd cd) x y (dep + z)))) ?_ ?_ ?_
  · obtain ⟨s0, s1, s2, a0, a1, a2, a3⟩ := realEq_4_0 (al := al) tr _ _ _ h
    exact ⟨s0, s1, s2, a0, a1, a2.comp_const_add dep (p 2), a3⟩
  · obtain ⟨s0, s1, s2, a0, a1, a2, a3⟩ := realEq_4_1 (al := al) tr _ _ _ h
    exact ⟨s0, s1, s2, a0, a1, a2.comp_const_add dep (p 2), a3⟩
  · obtain ⟨s0, s1, s2, a0, a1, a2, a3⟩ := realEq_4_2 (al := al) tr _ _ _ h
    exact ⟨s0, s1, s2, a0, a1, a2.comp_const_add dep (p 2), a3⟩

theorem imgF_4_grad {al sd cd dep : ℝ} (tr : sd * sd + cd * cd = 1) {p : V3}
    (h : p 0 * p 0 + p 1 * p 1 + (dep - p 2) * (dep - p 2) ≠ 0) (h' : rr (p 0) (p 1) (dep - p 2) + (dep - p 2) ≠ 0) :
    GradD (imgF_4 al sd cd dep) p := by
  refine GradD.of (F := fun x y z => imgSum z (UA0_4 (medOf al sd cd) (ptOf (medOf al sd cd) x y (dep - z))) (UB0_4 (medOf al sd cd) (ptOf (medOf al sd cd) x y (dep - z)) z) (UC0_4 (medOf al sd cd) (ptOf (medOf al sd cd) x y (dep - z)) z)) ?_
  obtain ⟨⟨h0, h1, h2⟩, ⟨h3, h4, h5⟩, ⟨h6, h7, h8⟩⟩ := UA0_4_der' (al := al) tr _ _ _ h
  obtain ⟨⟨f0, f1, f2⟩, ⟨f3, f4, f5⟩, ⟨f6, f7, f8⟩⟩ := UB0_4_der (al := al) tr dep _ _ _ h h'
  obtain ⟨⟨g0, g1, g2⟩, ⟨g3, g4, g5⟩, ⟨g6, g7, g8⟩⟩ := UC0_4_der (al := al) tr dep _ _ _ h h'
  have b6 := f6.comp_const_sub dep (p 2)
  have b7 := f7.comp_const_sub dep (p 2)
  have b8 := f8.comp_const_sub dep (p 2)
  have c6 := g6.comp_const_sub dep (p 2)
  have c7 := g7.comp_const_sub dep (p 2)
  have c8 := g8.comp_const_sub dep (p 2)
  simp only [sub_sub_cancel, neg_neg] at f0 f1 f2 f3 f4 f5 g0 g1 g2 g3 g4 g5 b6 b7 b8 c6 c7 c8
  refine ⟨⟨?_, ?_, ?_⟩, ⟨?_, ?_, ?_⟩, ?_, ?_, ?_⟩
  · exact (h0.fun_add f0).fun_add (g0.const_mul (p 2))
  · exact (h1.fun_add f1).fun_add (g1.const_mul (p 2))
  · exact (h2.fun_add f2).fun_add (g2.const_mul (p 2))
  · exact (h3.fun_add f3).fun_add (g3.const_mul (p 2))
  · exact (h4.fun_add f4).fun_add (g4.const_mul (p 2))
  · exact (h5.fun_add f5).fun_add (g5.const_mul (p 2))
  · refine (((h6.comp_const_sub dep (p 2)).fun_add b6).fun_add ((hasDerivAt_id' (p 2)).fun_mul c6)).congr_deriv ?_
    dsimp only [imgSum]
    ring
  · refine (((h7.comp_const_sub dep (p 2)).fun_add b7).fun_add ((hasDerivAt_id' (p 2)).fun_mul c7)).congr_deriv ?_
    dsimp only [imgSum]
    ring
  · refine (((h8.comp_const_sub dep (p 2)).fun_add b8).fun_add ((hasDerivAt_id' (p 2)).fun_mul c8)).congr_deriv ?_
    dsimp only [imgSum]
    ring

theorem imgF_4_eq {al sd cd dep : ℝ} (tr : sd * sd + cd * cd = 1) (ha : al ≠ 0) {p : V3}
    (h : p 0 * p 0 + p 1 * p 1 + (dep - p 2) * (dep - p 2) ≠ 0) :
    EqD (2 * al - 1) (1 - al) (imgF_4 al sd cd dep) p := by
  refine EqD.of (F := fun x y z => imgSum z (UA0_4 (medOf al sd cd) (ptOf (medOf al sd cd) x y (dep - z))) (UB0_4 (medOf al sd cd) (ptOf (medOf al sd cd) x y (dep - z)) z) (UC0_4 (medOf al sd cd) (ptOf (medOf al sd cd) x y (dep - z)) z)) ?_ ?_ ?_
  · obtain ⟨s0, s1, s2, a0, a1, a2, a3⟩ := imgEq_4_0 tr ha dep _ _ _ h
    have a4 := a2.comp_const_sub dep (p 2)
    simp only [sub_sub_cancel] at a0 a1 a4
    exact ⟨s0, s1, -s2, a0, a1, a4, by linear_combination a3⟩
  · obtain ⟨s0, s1, s2, a0, a1, a2, a3⟩ := imgEq_4_1 tr ha dep _ _ _ h
    have a4 := a2.comp_const_sub dep (p 2)
    simp only [sub_sub_cancel] at a0 a1 a4
    exact ⟨s0, s1, -s2, a0, a1, a4, by linear_combination a3⟩
  · obtain ⟨s0, s1, s2, a0, a1, a2, a3⟩ := imgEq_4_2 tr ha dep _ _ _ h
    have a4 := a2.comp_const_sub dep (p 2)
    simp only [sub_sub_cancel] at a0 a1 a4
    exact ⟨s0, s1, -s2, a0, a1, a4, by linear_combination a3⟩

end GRT.Okada
