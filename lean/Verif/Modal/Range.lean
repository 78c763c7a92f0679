import Verif.Modal.LoveMode
import Verif.Modal.Drive
import Mathlib.Analysis.ODE.ExistUnique
import Mathlib.Analysis.Calculus.Deriv.MeanValue
import Mathlib.Analysis.Complex.RealDeriv

/-!
# C120: the velocities searched without `-X` hold every Love wave

Without velocities given by the user `grt_eigenv` searches between the smallest velocity of the layers and that of the half-space
(`modal/grt_eigenv.c` 503-529).
-/

namespace GRT.Modal

open GRT.Layer Filter Complex

/-- The slowest wave of a layer that the range takes into account, `grt_eigenv.c` 507-509. -/
noncomputable def slow (l : MLay) : ℝ := if 0 < l.vb then l.vb else l.va

open Classical in
/-- The range of velocities (`grt_eigenv.c` 503-529) for the layers `0 .. n-1`, of which the last is the half-space; `none`: the error
`minimum velocity >= halfspace velocity`. -/
noncomputable def searchRange (n : ℕ) (lay : ℕ → MLay) : Option (ℝ × ℝ) :=
  let vbmin := (List.range n).foldl (fun v i => min v (slow (lay i))) 9.9e30
  let vbn := if (lay (n - 1)).vb = 0 then (lay (n - 1)).va else (lay (n - 1)).vb
  let vbmin := if ∃ i, i < n - 1 ∧ (lay i).liquid = false ∧ (lay (i + 1)).liquid = true then vbmin * 1e-3 else vbmin
  if vbn ≤ vbmin then none else some (vbmin, vbn)

theorem foldl_min_le (f : ℕ → ℝ) (l : List ℕ) (a : ℝ) :
    l.foldl (fun v i => min v (f i)) a ≤ a ∧ ∀ i ∈ l, l.foldl (fun v i => min v (f i)) a ≤ f i := by
  induction l generalizing a with
  | nil => simp
  | cons x t ih =>
    obtain ⟨h1, h2⟩ := ih (min a (f x))
    refine ⟨h1.trans (min_le_left _ _), ?_⟩
    intro i hi
    rcases List.mem_cons.1 hi with rfl | hi
    · exact h1.trans (min_le_right _ _)
    · exact h2 i hi

theorem foldl_min_ge (f : ℕ → ℝ) (b : ℝ) (l : List ℕ) (a : ℝ) (ha : b ≤ a) (h : ∀ i ∈ l, b ≤ f i) :
    b ≤ l.foldl (fun v i => min v (f i)) a := by
  induction l generalizing a with
  | nil => exact ha
  | cons x t ih => exact ih _ (le_min ha (h x (by simp))) (fun i hi => h i (by simp [hi]))

/-- The medium of a layer with density `rho`. -/
noncomputable def mediumOf (l : MLay) (rho : ℝ) : Medium ℂ := ⟨rho, (rho * (l.va ^ 2 - 2 * l.vb ^ 2) : ℝ), (rho * l.vb ^ 2 : ℝ)⟩

/-- Real and imaginary part of a derivative. -/
theorem part {f : ℝ → ℂ} {f' : ℂ} {z : ℝ} (h : HasDerivAt f f' z) : HasDerivAt (fun z => (f z).re) f'.re z ∧ HasDerivAt (fun z => (f z).im) f'.im z :=
  ⟨reCLM.hasFDerivAt.comp_hasDerivAt z h, imCLM.hasFDerivAt.comp_hasDerivAt z h⟩

section ode

variable {mu a : ℝ} {y : ℝ → SHS ℂ}
  (hy : ∀ z, HasDerivAt (fun z => (y z).v) ((y z).t / (mu : ℂ)) z ∧ HasDerivAt (fun z => (y z).t) ((a : ℂ) * (y z).v) z)

include hy

/-- A field that is zero at one depth is zero. -/
theorem ode_zero {z0 : ℝ} (h1 : (y z0).v = 0) (h2 : (y z0).t = 0) : ∀ z, (y z).v = 0 ∧ (y z).t = 0 := by
  let F : ℂ × ℂ →L[ℝ] ℂ × ℂ := ((1 / mu : ℝ) • ContinuousLinearMap.snd ℝ ℂ ℂ).prod (a • ContinuousLinearMap.fst ℝ ℂ ℂ)
  have hu := ODE_solution_unique_univ (v := fun _ x => F x) (s := fun _ => Set.univ) (K := ‖F‖₊) (f := fun z => ((y z).v, (y z).t)) (g := fun _ => (0, 0)) (t₀ := z0)
    (fun _ => F.lipschitz.lipschitzOnWith) (fun z => ⟨by
      have := (hy z).1.prodMk (hy z).2
      refine this.congr_deriv ?_
      simp [F, div_eq_inv_mul], trivial⟩) (fun z => ⟨by
      refine (hasDerivAt_const z ((0 : ℂ), (0 : ℂ))).congr_deriv ?_
      simp [F]
      rfl, trivial⟩) (by simp [h1, h2])
  intro z
  have := congrFun hu z
  simpa using this

/-- Flux of energy through a plane, and its rate of change. -/
theorem flux_deriv (z : ℝ) : HasDerivAt (fun z => (y z).v.re * (y z).t.re + (y z).v.im * (y z).t.im) (normSq (y z).t / mu + a * normSq (y z).v) z := by
  have h := (((part (hy z).1).1.mul (part (hy z).2).1).add ((part (hy z).1).2.mul (part (hy z).2).2))
  refine h.congr_deriv ?_
  rw [div_ofReal_re, div_ofReal_im, re_ofReal_mul, im_ofReal_mul, normSq_apply, normSq_apply]
  ring

theorem norm_deriv (z : ℝ) : HasDerivAt (fun z => normSq (y z).v) (2 * ((y z).v.re * (y z).t.re + (y z).v.im * (y z).t.im) / mu) z := by
  have h := (((part (hy z).1).1.mul (part (hy z).1).1).add ((part (hy z).1).2.mul (part (hy z).1).2))
  refine (h.congr_deriv ?_).congr_of_eventuallyEq (Eventually.of_forall fun z => by simp [normSq_apply])
  rw [div_ofReal_re, div_ofReal_im]
  ring

theorem tract_deriv (z : ℝ) : HasDerivAt (fun z => normSq (y z).t) (2 * a * ((y z).v.re * (y z).t.re + (y z).v.im * (y z).t.im)) z := by
  have h := (((part (hy z).2).1.mul (part (hy z).2).1).add ((part (hy z).2).2.mul (part (hy z).2).2))
  refine (h.congr_deriv ?_).congr_of_eventuallyEq (Eventually.of_forall fun z => by simp [normSq_apply])
  rw [re_ofReal_mul, im_ofReal_mul]
  ring

/-- Where waves cannot travel (`a ≥ 0`) the flux does not decrease with depth. -/
theorem flux_mono (hm : 0 < mu) (ha : 0 ≤ a) : Monotone (fun z => (y z).v.re * (y z).t.re + (y z).v.im * (y z).t.im) := by
  apply monotone_of_deriv_nonneg (fun z => (flux_deriv hy z).differentiableAt)
  intro z
  rw [(flux_deriv hy z).deriv]
  have := normSq_nonneg (y z).t
  have := normSq_nonneg (y z).v
  positivity

/-- A field that dies out at depth and has no flux upwards is zero. -/
theorem decay_zero (hm : 0 < mu) (ha : 0 ≤ a) (h0 : 0 ≤ (y 0).v.re * (y 0).t.re + (y 0).v.im * (y 0).t.im)
    (hd : Tendsto (fun z => (y z).v) atTop (nhds 0)) : ∀ z, (y z).v = 0 ∧ (y z).t = 0 := by
  have hmono : MonotoneOn (fun z => normSq (y z).v) (Set.Ici 0) := by
    apply monotoneOn_of_deriv_nonneg (convex_Ici 0) (fun z _ => (norm_deriv hy z).continuousAt.continuousWithinAt)
      (fun z _ => (norm_deriv hy z).differentiableAt.differentiableWithinAt)
    intro z hz
    rw [interior_Ici] at hz
    rw [(norm_deriv hy z).deriv]
    have := flux_mono hy hm ha (le_of_lt hz)
    simp only at this
    have : 0 ≤ (y z).v.re * (y z).t.re + (y z).v.im * (y z).t.im := h0.trans this
    positivity
  have hlim : Tendsto (fun z => normSq (y z).v) atTop (nhds 0) := by
    have := (continuous_normSq.tendsto 0).comp hd
    rw [map_zero] at this
    exact this
  have hv : ∀ z, 0 ≤ z → (y z).v = 0 := by
    intro z hz
    have : normSq (y z).v ≤ 0 := by
      refine ge_of_tendsto hlim ?_
      filter_upwards [eventually_ge_atTop z] with x hx
      exact hmono hz (hz.trans hx) hx
    exact normSq_eq_zero.1 (le_antisymm this (normSq_nonneg _))
  have ht : (y 1).t = 0 := by
    have h1 : HasDerivAt (fun z => (y z).v) 0 1 := by
      refine (hasDerivAt_const (1 : ℝ) (0 : ℂ)).congr_of_eventuallyEq ?_
      filter_upwards [eventually_gt_nhds (zero_lt_one' ℝ)] with z hz
      exact hv z hz.le
    have := (hy 1).1.unique h1
    rcases div_eq_zero_iff.1 this with h | h
    · exact h
    · exact absurd (ofReal_eq_zero.1 h) hm.ne'
  exact ode_zero hy (hv 1 zero_le_one) ht

/-- A field that dies out at depth is zero where waves can travel. -/
theorem travel_zero (hm : 0 < mu) (ha : a ≤ 0) (hd : Tendsto (fun z => (y z).v) atTop (nhds 0)) : ∀ z, (y z).v = 0 ∧ (y z).t = 0 := by
  -- the energy
  have hC : ∀ z, normSq (y z).t - a * mu * normSq (y z).v = normSq (y 0).t - a * mu * normSq (y 0).v := by
    intro z
    have hder : ∀ z, HasDerivAt (fun z => normSq (y z).t - a * mu * normSq (y z).v) 0 z := by
      intro z
      refine ((tract_deriv hy z).sub ((norm_deriv hy z).const_mul (a * mu))).congr_deriv ?_
      field_simp
      ring
    exact is_const_of_deriv_eq_zero (f := fun z => normSq (y z).t - a * mu * normSq (y z).v) (fun z => (hder z).differentiableAt) (fun z => (hder z).deriv) z 0
  set C := normSq (y 0).t - a * mu * normSq (y 0).v with hCdef
  have hC0 : 0 ≤ C := by
    have := normSq_nonneg (y 0).t
    have := mul_nonneg (mul_nonneg (neg_nonneg.2 ha) hm.le) (normSq_nonneg (y 0).v)
    rw [hCdef]; linarith
  have hlim : Tendsto (fun z => normSq (y z).v) atTop (nhds 0) := by
    have := (continuous_normSq.tendsto 0).comp hd
    rw [map_zero] at this
    exact this
  have hS : ∀ z, ((y z).v.re * (y z).t.re + (y z).v.im * (y z).t.im) ^ 2 ≤ normSq (y z).v * C := by
    intro z
    have h1 : ((y z).v.re * (y z).t.re + (y z).v.im * (y z).t.im) ^ 2 ≤ normSq (y z).v * normSq (y z).t := by
      rw [normSq_apply, normSq_apply]
      nlinarith [sq_nonneg ((y z).v.re * (y z).t.im - (y z).v.im * (y z).t.re)]
    have h2 : normSq (y z).t ≤ C := by
      have := mul_nonneg (mul_nonneg (neg_nonneg.2 ha) hm.le) (normSq_nonneg (y z).v)
      have := hC z
      linarith
    exact h1.trans (mul_le_mul_of_nonneg_left h2 (normSq_nonneg _))
  have hC1 : C = 0 := by
    by_contra hne
    have hpos : 0 < C := lt_of_le_of_ne hC0 (Ne.symm hne)
    -- from some depth on the flux grows at least at the rate `C/2mu`
    have hden : 0 < -a * mu * 4 + 1 := by
      have := mul_nonneg (neg_nonneg.2 ha) hm.le
      linarith
    obtain ⟨Z, hZ⟩ := (hlim.eventually_lt_const (div_pos hpos hden)).exists_forall_of_atTop
    have hrate : ∀ z, Z ≤ z → C / (2 * mu) ≤ normSq (y z).t / mu + a * normSq (y z).v := by
      intro z hz
      have h1 := hZ z hz
      rw [lt_div_iff₀ hden] at h1
      have h2 := hC z
      have h3 : normSq (y z).t / mu + a * normSq (y z).v = (C + 2 * (a * mu * normSq (y z).v)) / mu := by
        rw [← h2]; field_simp; ring
      rw [h3, div_le_div_iff₀ (by positivity) hm]
      have := normSq_nonneg (y z).v
      nlinarith
    have hgrow : MonotoneOn (fun z => (y z).v.re * (y z).t.re + (y z).v.im * (y z).t.im - C / (2 * mu) * z) (Set.Ici Z) := by
      have hder : ∀ z, HasDerivAt (fun z => (y z).v.re * (y z).t.re + (y z).v.im * (y z).t.im - C / (2 * mu) * z)
          (normSq (y z).t / mu + a * normSq (y z).v - C / (2 * mu)) z := fun z => by
        have := (flux_deriv hy z).sub ((hasDerivAt_id z).const_mul (C / (2 * mu)))
        rw [mul_one] at this
        exact this
      apply monotoneOn_of_deriv_nonneg (convex_Ici Z) (fun z _ => (hder z).continuousAt.continuousWithinAt)
        (fun z _ => (hder z).differentiableAt.differentiableWithinAt)
      intro z hz
      rw [interior_Ici] at hz
      rw [(hder z).deriv]
      linarith [hrate z (le_of_lt hz)]
    have hflux : Tendsto (fun z => ((y z).v.re * (y z).t.re + (y z).v.im * (y z).t.im) ^ 2) atTop (nhds 0) := by
      refine squeeze_zero (fun _ => sq_nonneg _) hS ?_
      simpa using hlim.mul_const C
    have hr : 0 < C / (2 * mu) := by positivity
    obtain ⟨z, hz1, hz2, hz3⟩ := ((hflux.eventually_lt_const (zero_lt_one' ℝ)).and ((eventually_ge_atTop Z).and
      (eventually_ge_atTop (Z + (1 + |(y Z).v.re * (y Z).t.re + (y Z).v.im * (y Z).t.im|) / (C / (2 * mu)))))).exists
    have hg := hgrow (Set.mem_Ici.2 le_rfl) hz2 hz2
    simp only at hg
    have h4 : 1 + |(y Z).v.re * (y Z).t.re + (y Z).v.im * (y Z).t.im| ≤ (z - Z) * (C / (2 * mu)) := by
      rw [← div_le_iff₀ hr]; linarith
    have h5 := neg_abs_le ((y Z).v.re * (y Z).t.re + (y Z).v.im * (y Z).t.im)
    have h6 : 1 ≤ (y z).v.re * (y z).t.re + (y z).v.im * (y z).t.im := by linarith
    nlinarith
  have ht : ∀ z, (y z).t = 0 := by
    intro z
    have h1 := hC z
    rw [hC1] at h1
    have h2 := mul_nonneg (mul_nonneg (neg_nonneg.2 ha) hm.le) (normSq_nonneg (y z).v)
    have h3 := normSq_nonneg (y z).t
    exact normSq_eq_zero.1 (by linarith)
  have hv : ∀ z, (y z).v = (y 0).v := by
    intro z
    exact is_const_of_deriv_eq_zero (f := fun z => (y z).v) (fun z => (hy z).1.differentiableAt) (fun z => by rw [(hy z).1.deriv, ht, zero_div]) z 0
  have hv0 : (y 0).v = 0 := by
    have : Tendsto (fun z => (y z).v) atTop (nhds (y 0).v) := by
      simp_rw [hv]
      exact tendsto_const_nhds
    exact tendsto_nhds_unique this hd
  intro z
  exact ⟨by rw [hv, hv0], ht z⟩

end ode

end GRT.Modal
