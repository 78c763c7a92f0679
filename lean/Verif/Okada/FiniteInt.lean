import Mathlib.Analysis.Calculus.ParametricIntegral
import Mathlib.Analysis.Calculus.ContDiff.Comp
import Mathlib.Analysis.Calculus.ContDiff.Operations
import Mathlib.MeasureTheory.Integral.IntervalIntegral.FundThmCalculus
import Mathlib.MeasureTheory.Integral.Prod
import Mathlib.MeasureTheory.Constructions.BorelSpace.Order
import Mathlib.MeasureTheory.Measure.Lebesgue.Basic
import Mathlib.Analysis.Calculus.Deriv.Comp
import Mathlib.Analysis.Calculus.Deriv.Prod

/-! General facts about integrals over rectangles, used for finite faults. -/

namespace GRT.Okada

open MeasureTheory Set Topology

/-- The rectangle of the fault. -/
def rect (l1 l2 w1 w2 : ℝ) : Set (ℝ × ℝ) := Icc l1 l2 ×ˢ Icc w1 w2

theorem rect_compact (l1 l2 w1 w2 : ℝ) : IsCompact (rect l1 l2 w1 w2) := isCompact_Icc.prod isCompact_Icc

theorem rect_int {f : ℝ × ℝ → ℝ} {l1 l2 w1 w2 : ℝ} (hl : l1 ≤ l2) (hw : w1 ≤ w2) (hf : ContinuousOn f (rect l1 l2 w1 w2)) :
    ∫ v in rect l1 l2 w1 w2, f v = ∫ s in l1..l2, ∫ w in w1..w2, f (s, w) := by
  have := setIntegral_prod f (s := Icc l1 l2) (t := Icc w1 w2) (μ := volume) (ν := volume) (hf.integrableOn_compact (rect_compact _ _ _ _))
  rw [rect, show (volume : Measure (ℝ × ℝ)) = (volume : Measure ℝ).prod volume from rfl, this, intervalIntegral.integral_of_le hl,
    integral_Icc_eq_integral_Ioc]
  congr 1
  ext s
  rw [intervalIntegral.integral_of_le hw, integral_Icc_eq_integral_Ioc]

/-- Differentiation under the integral over a compact set, for a jointly smooth integrand. -/
theorem diff_int {g : ℝ → ℝ × ℝ → ℝ} {R : Set (ℝ × ℝ)} (hR : IsCompact R) {t0 : ℝ}
    (h : ∀ v ∈ R, ContDiffAt ℝ 1 (fun x : ℝ × ℝ × ℝ => g x.1 x.2) (t0, v)) {g' : ℝ × ℝ → ℝ}
    (hg : ∀ v ∈ R, HasDerivAt (fun t => g t v) (g' v) t0) :
    IntegrableOn g' R ∧ HasDerivAt (fun t => ∫ v in R, g t v) (∫ v in R, g' v) t0 := by
  let G : ℝ × ℝ × ℝ → ℝ := fun x => g x.1 x.2
  let D : ℝ → ℝ × ℝ → ℝ := fun t v => fderiv ℝ G (t, v) (1, 0)
  let S : Set (ℝ × ℝ × ℝ) := {x | ContDiffAt ℝ 1 G x}
  have oS : IsOpen S := isOpen_iff_mem_nhds.2 fun x hx => (show ContDiffAt ℝ 1 G x from hx).eventually (by decide)
  obtain ⟨U, V, oU, -, tU, RV, sub⟩ := generalized_tube_lemma (isCompact_singleton (x := t0)) hR oS
    (fun x hx => by
      obtain ⟨x1, x2⟩ := x
      obtain ⟨a, b⟩ := hx
      have a' : x1 = t0 := a
      subst a'
      exact h x2 b)
  obtain ⟨ε, e0, eU⟩ := Metric.isOpen_iff.1 oU t0 (tU rfl)
  have hK : ∀ t ∈ Metric.closedBall t0 (ε / 2), ∀ v ∈ R, ContDiffAt ℝ 1 G (t, v) := fun t ht v hv =>
    sub (Set.mk_mem_prod (eU (Metric.closedBall_subset_ball (by linarith) ht)) (RV hv))
  have hD : ∀ t ∈ Metric.closedBall t0 (ε / 2), ∀ v ∈ R, HasDerivAt (fun t => g t v) (D t v) t := by
    intro t ht v hv
    have a := ((hK t ht v hv).differentiableAt one_ne_zero).hasFDerivAt
    have b : HasDerivAt (fun t : ℝ => (t, v)) ((1 : ℝ), (0 : ℝ × ℝ)) t := (hasDerivAt_id' t).prodMk (hasDerivAt_const t v)
    exact a.comp_hasDerivAt t b
  have cD : ContinuousOn (fun x : ℝ × ℝ × ℝ => D x.1 x.2) (Metric.closedBall t0 (ε / 2) ×ˢ R) := by
    intro x hx
    have := ((hK x.1 hx.1 x.2 hx.2).fderiv_right (m := 0) (by norm_num)).continuousAt
    exact ((this.clm_apply continuousAt_const).continuousWithinAt)
  obtain ⟨C, hC⟩ := ((isCompact_closedBall t0 (ε / 2)).prod hR).exists_bound_of_continuousOn cD
  have t0m : t0 ∈ Metric.closedBall t0 (ε / 2) := Metric.mem_closedBall_self (by linarith)
  have cg : ∀ t ∈ Metric.closedBall t0 (ε / 2), ContinuousOn (g t) R := fun t ht v hv =>
    ((hK t ht v hv).continuousAt.comp (f := fun v : ℝ × ℝ => (t, v)) (by fun_prop)).continuousWithinAt
  have key := hasDerivAt_integral_of_dominated_loc_of_deriv_le (μ := volume.restrict R) (F := g) (F' := D) (bound := fun _ => C) (x₀ := t0)
    (Metric.closedBall_mem_nhds t0 (by linarith : (0 : ℝ) < ε / 2))
    (Filter.eventually_of_mem (Metric.closedBall_mem_nhds t0 (by linarith : (0 : ℝ) < ε / 2)) fun t ht =>
      ((cg t ht).integrableOn_compact hR).aestronglyMeasurable)
    ((cg t0 t0m).integrableOn_compact hR)
    (((cD.comp (f := fun v : ℝ × ℝ => (t0, v)) (by fun_prop) fun v hv => Set.mk_mem_prod t0m hv).integrableOn_compact hR).aestronglyMeasurable)
    (by
      refine (ae_restrict_iff' hR.measurableSet).2 (Filter.Eventually.of_forall fun v hv t ht => ?_)
      exact hC (t, v) (Set.mk_mem_prod ht hv))
    (by
      have : IsFiniteMeasure (volume.restrict R) := ⟨by rw [Measure.restrict_apply_univ]; exact hR.measure_lt_top⟩
      exact integrable_const C)
    (by
      refine (ae_restrict_iff' hR.measurableSet).2 (Filter.Eventually.of_forall fun v hv t ht => ?_)
      exact hD t ht v hv)
  have e : ∀ v ∈ R, D t0 v = g' v := fun v hv => (hD t0 t0m v hv).unique (hg v hv)
  exact ⟨(integrableOn_congr_fun e hR.measurableSet).1 key.1, key.2.congr_deriv (setIntegral_congr_fun hR.measurableSet e)⟩

/-- A function of two variables, summed over the corners of a rectangle, is the integral of its mixed derivative. -/
theorem corner_int {F Fx K : ℝ → ℝ → ℝ} {g : ℝ → ℝ} {X P l1 l2 w1 w2 : ℝ} (hw : w1 ≤ w2)
    (h1 : ∀ x, ∀ e ∈ Icc (P - w2) (P - w1), HasDerivAt (fun x => F x e) (Fx x e + g x) x)
    (h2 : ∀ x, ∀ e ∈ Icc (P - w2) (P - w1), HasDerivAt (fun e => Fx x e) (K x e) e)
    (h3 : ∀ x, ∀ e ∈ Icc (P - w2) (P - w1), ContinuousAt (fun v : ℝ × ℝ => K v.1 v.2) (x, e)) :
    F (X - l1) (P - w1) - F (X - l2) (P - w1) - F (X - l1) (P - w2) + F (X - l2) (P - w2) =
      ∫ s in l1..l2, ∫ w in w1..w2, K (X - s) (P - w) := by
  have hle : P - w2 ≤ P - w1 := by linarith
  let k : ℝ → ℝ → ℝ := fun x e => K x (projIcc (P - w2) (P - w1) hle e)
  have ck : Continuous (Function.uncurry k) := by
    rw [continuous_iff_continuousAt]
    rintro ⟨x, e⟩
    have a : ContinuousAt (fun v : ℝ × ℝ => ((v.1, (projIcc (P - w2) (P - w1) hle v.2 : ℝ)) : ℝ × ℝ)) (x, e) := by
      have : Continuous (fun v : ℝ × ℝ => ((v.1, (projIcc (P - w2) (P - w1) hle v.2 : ℝ)) : ℝ × ℝ)) :=
        continuous_fst.prodMk (continuous_subtype_val.comp (continuous_projIcc.comp continuous_snd))
      exact this.continuousAt
    exact ContinuousAt.comp (g := fun v : ℝ × ℝ => K v.1 v.2)
      (f := fun v : ℝ × ℝ => ((v.1, (projIcc (P - w2) (P - w1) hle v.2 : ℝ)) : ℝ × ℝ)) (h3 x _ (projIcc (P - w2) (P - w1) hle e).2) a
  have kK : ∀ x, ∀ e ∈ Icc (P - w2) (P - w1), k x e = K x e := fun x e he => by
    simp only [k, projIcc_of_mem hle he]
  have ci : Continuous (fun x => ∫ e in (P - w2)..(P - w1), k x e) :=
    intervalIntegral.continuous_parametric_intervalIntegral_of_continuous' ck _ _
  have f1 : ∀ x, Fx x (P - w1) - Fx x (P - w2) = ∫ e in (P - w2)..(P - w1), k x e := by
    intro x
    refine (intervalIntegral.integral_eq_sub_of_hasDerivAt (f := fun e => Fx x e) (fun e he => ?_) ?_).symm
    · rw [uIcc_of_le hle] at he
      rw [kK x e he]
      exact h2 x e he
    · exact (ck.comp (by fun_prop : Continuous fun e : ℝ => (x, e))).intervalIntegrable _ _
  have f2 : (F (X - l1) (P - w1) - F (X - l1) (P - w2)) - (F (X - l2) (P - w1) - F (X - l2) (P - w2)) =
      ∫ x in (X - l2)..(X - l1), ∫ e in (P - w2)..(P - w1), k x e := by
    refine (intervalIntegral.integral_eq_sub_of_hasDerivAt (f := fun x => F x (P - w1) - F x (P - w2)) (fun x _ => ?_)
      (ci.intervalIntegrable _ _)).symm
    rw [← f1 x]
    exact ((h1 x _ ⟨hle, le_rfl⟩).fun_sub (h1 x _ ⟨le_rfl, hle⟩)).congr_deriv (by ring)
  have f3 : ∀ x, ∫ e in (P - w2)..(P - w1), k x e = ∫ w in w1..w2, K x (P - w) := by
    intro x
    rw [← intervalIntegral.integral_comp_sub_left (fun e => k x e)]
    refine intervalIntegral.integral_congr fun w hwm => kK x _ ?_
    rw [uIcc_of_le hw] at hwm
    constructor
    · linarith [hwm.2]
    · linarith [hwm.1]
  rw [intervalIntegral.integral_comp_sub_left (fun x => ∫ w in w1..w2, K x (P - w)) X]
  simp only [← f3]
  rw [← f2]
  ring

end GRT.Okada
