import Mathlib.Analysis.Calculus.Deriv.Inv
import Mathlib.Analysis.Real.Pi.Bounds
import Mathlib.Analysis.Calculus.Deriv.Mul
import Mathlib.Analysis.Calculus.Deriv.Add
import Mathlib.Tactic.FieldSimp
import Mathlib.Tactic.NormNum
import Mathlib.Tactic.LinearCombination

/-!
Group-velocity sensitivities, `grt_group_sensitivity` (pygrt/C_extension/src/modal/modal_util.c 130-161).
-/

namespace GRT.Modal

variable {K : Type*} [Field K]

/-- One mode at one frequency: phase and group velocity, and the sensitivities of the phase velocity, all depths and parameters in one
list (`csens`, include/grt/modal/modal_def.h 53-63).  Simplified: the real parts of `csens` (modal_util.c 149 assigns the difference
to a real number). -/
structure Sens (K : Type*) where
  c : K
  u : K
  cs : List K
  deriving DecidableEq

/-- The formula, modal_util.c 154: `uoc = U/C`, `s` the sensitivity of the phase velocity, `dd` its difference quotient. -/
def groupFormula (uoc f s dd : K) : K := uoc * (2 - uoc) * s + uoc ^ 2 * f * dd

/-- The difference quotient, modal_util.c 146-151. -/
def quotient (f f1 s s1 : K) : K := (s1 - s) / (f1 - f)

/-- The sensitivities of mode `ic` at one frequency `f`, given those of the next frequency if there is one, modal_util.c 134-157.  `none`:
`eigfn[iw+1][ic]` does not exist. -/
def groupMode (f : K) (m : Sens K) (ic : ℕ) : Option (K × List (Sens K)) → Option (List K)
  | none => some (m.cs.map fun s => groupFormula (m.u / m.c) f s 0)
  | some (f1, row1) => (row1[ic]?).map fun m1 => List.zipWith (fun s s1 => groupFormula (m.u / m.c) f s (quotient f f1 s s1)) m.cs m1.cs

/-- The loop over the modes of one frequency, modal_util.c 134. -/
def groupRow (f : K) (next : Option (K × List (Sens K))) : List (Sens K) → ℕ → Option (List (List K))
  | [], _ => some []
  | m :: t, ic => (groupMode f m ic next).bind fun r => (groupRow f next t (ic + 1)).map (r :: ·)

/-- `grt_group_sensitivity`, modal_util.c 130-161: frequencies with their modes. -/
def groupAll : List (K × List (Sens K)) → Option (List (List (List K)))
  | [] => some []
  | (f, row) :: t => (groupRow f t.head? row 0).bind fun r => (groupAll t).map (r :: ·)

/-! ### C52 -/

theorem groupRow_some (f f1 : K) (row1 : List (Sens K)) (row : List (Sens K)) (k : ℕ) (h : k + row.length ≤ row1.length) :
    ∃ r, groupRow f (some (f1, row1)) row k = some r ∧ r.length = row.length := by
  induction row generalizing k with
  | nil => exact ⟨[], rfl, rfl⟩
  | cons m t ih =>
    rw [List.length_cons] at h
    obtain ⟨r, hr, hl⟩ := ih (k + 1) (by omega)
    simp only [groupRow, groupMode]
    rw [List.getElem?_eq_getElem (by omega : k < row1.length), hr]
    exact ⟨_, rfl, by simp [hl]⟩

theorem groupRow_last (f : K) (row : List (Sens K)) (k : ℕ) : ∃ r, groupRow f none row k = some r ∧ r.length = row.length := by
  induction row generalizing k with
  | nil => exact ⟨[], rfl, rfl⟩
  | cons m t ih =>
    obtain ⟨r, hr, hl⟩ := ih (k + 1)
    simp only [groupRow, groupMode, hr, Option.bind_some, Option.map_some]
    exact ⟨_, rfl, by simp [hl]⟩

theorem groupRow_none (f f1 : K) (row1 : List (Sens K)) (row : List (Sens K)) (k : ℕ) (h : row1.length < k + row.length) (hk : k ≤ row1.length) :
    groupRow f (some (f1, row1)) row k = none := by
  induction row generalizing k with
  | nil => simp only [List.length_nil] at h; omega
  | cons m t ih =>
    rw [List.length_cons] at h
    rcases hk.lt_or_eq with hlt | rfl
    · simp only [groupRow, groupMode]
      rw [List.getElem?_eq_getElem hlt, ih (k + 1) (by omega) (by omega)]
      rfl
    · simp only [groupRow, groupMode]
      rw [List.getElem?_eq_none le_rfl]
      rfl

/-- C52 where the number of modes never falls with the frequency: only existing modes are read, and every mode of every frequency gets its
sensitivities.  Missing: numbers of modes that fall, see `C52_violated`. -/
theorem C52_partial (l : List (K × List (Sens K))) (h : (l.map fun p => p.2.length).Pairwise (· ≤ ·)) :
    ∃ r, groupAll l = some r ∧ r.map List.length = l.map fun p => p.2.length := by
  induction l with
  | nil => exact ⟨[], rfl, rfl⟩
  | cons p t ih =>
    obtain ⟨f, row⟩ := p
    rw [List.map_cons, List.pairwise_cons] at h
    obtain ⟨r, hr, e⟩ := ih h.2
    cases t with
    | nil =>
      obtain ⟨q, hq, hl⟩ := groupRow_last f row 0
      simp only [groupAll, List.head?_nil, hq, Option.bind_some, Option.map_some]
      exact ⟨_, rfl, by simp [hl]⟩
    | cons p1 t =>
      obtain ⟨f1, row1⟩ := p1
      have h1 : row.length ≤ row1.length := h.1 _ (by simp)
      obtain ⟨q, hq, hl⟩ := groupRow_some f f1 row1 row 0 (by omega)
      rw [groupAll, List.head?_cons, hq, hr]
      exact ⟨_, rfl, by simp [hl, e]⟩

/-- C52 fails wherever the next frequency has fewer modes: a mode that does not exist is read. -/
theorem C52_violated (pre suf : List (K × List (Sens K))) (f f1 : K) (row row1 : List (Sens K)) (h : row1.length < row.length) :
    groupAll (pre ++ (f, row) :: (f1, row1) :: suf) = none := by
  induction pre with
  | nil =>
    rw [List.nil_append, groupAll, List.head?_cons, groupRow_none f f1 row1 row 0 (by omega) (by omega)]
    rfl
  | cons p t ih =>
    obtain ⟨g, r⟩ := p
    rw [List.cons_append, groupAll, ih]
    cases groupRow g (t ++ (f, row) :: (f1, row1) :: suf).head? r 0 <;> rfl

/-- A case of each. -/
example : groupAll [(1, [⟨3, 2, [1 / 2]⟩]), (2, [⟨3, 2, [1]⟩, ⟨4, 3, [2]⟩])] = some [[[(2 / 3 : ℚ)]], [[8 / 9], [15 / 8]]] := by decide +kernel
example : groupAll [(1, [⟨3, 2, [1 / 2]⟩, ⟨4, 3, [2]⟩]), (2, [⟨3, 2, [(1 : ℚ)]⟩])] = none := C52_violated [] [] _ _ _ _ (by simp)

/-! ### The formula -/

/-- The group velocity of a dispersion curve `c` at frequency `f` with slope `cf`: `dω/dk` with `k = ω/c`. -/
noncomputable def groupVel (f c cf : ℝ) : ℝ := c / (1 - f / c * cf)

/-- `groupVel` is `dω/dk`: with the wavenumber `k(f) = 2πf/c(f)`, `k' = 2π/U`. -/
theorem groupVel_spec (c : ℝ → ℝ) (f cf : ℝ) (hc : HasDerivAt c cf f) (h0 : c f ≠ 0) (h1 : 1 - f / c f * cf ≠ 0) :
    HasDerivAt (fun f => 2 * Real.pi * f / c f) (2 * Real.pi / groupVel f (c f) cf) f := by
  have h := ((hasDerivAt_id f).const_mul (2 * Real.pi)).div hc h0
  refine h.congr_deriv ?_
  unfold groupVel
  have h1' : c f - f * cf ≠ 0 := by
    intro h
    apply h1
    field_simp
    rw [h, mul_zero]
  simp only [id]
  field_simp

/-- C75: the formula is exact: for phase velocities `c f p` of frequency and a parameter, with the mixed derivative, the derivative of the group
velocity with respect to the parameter is the formula, given the sensitivity and its frequency derivative. -/
theorem C75_formula (f p : ℝ) (c cf : ℝ → ℝ) (s dd : ℝ) (hc : HasDerivAt c s p) (hcf : HasDerivAt cf dd p) (h0 : c p ≠ 0) (h1 : 1 - f / c p * cf p ≠ 0) :
    HasDerivAt (fun p => groupVel f (c p) (cf p)) (groupFormula (groupVel f (c p) (cf p) / c p) f s dd) p := by
  have h2 : HasDerivAt (fun p => 1 - f / c p * cf p) (-((0 * c p - f * s) / c p ^ 2 * cf p + f / c p * dd)) p := by
    have := ((((hasDerivAt_const p f).div hc h0).mul hcf).const_sub 1)
    exact this
  have h3 := hc.div h2 h1
  refine h3.congr_deriv ?_
  unfold groupFormula groupVel
  have h1' : c p - f * cf p ≠ 0 := by
    intro h
    apply h1
    field_simp
    rw [h, mul_zero]
  have e : 1 - f / c p * cf p = (c p - f * cf p) / c p := by field_simp
  rw [e]
  field_simp
  ring

/-- C75 where the sensitivity of the phase velocity is an affine function of frequency from one sample to the next (and there is a next sample
with the same mode): the sensitivity computed is the derivative of the group velocity.  Missing: curved sensitivities (the quotient is
of first order), and the last frequency, see `C75_last_violated`. -/
theorem C75_partial (f f1 p : ℝ) (hf : f1 ≠ f) (c cf : ℝ → ℝ) (s dd : ℝ) (hc : HasDerivAt c s p) (hcf : HasDerivAt cf dd p) (h0 : c p ≠ 0)
    (h1 : 1 - f / c p * cf p ≠ 0) (s1 : ℝ) (haff : s1 = s + dd * (f1 - f)) (row1 : List (Sens ℝ)) (ic : ℕ) (m1 : Sens ℝ) (hm1 : row1[ic]? = some m1)
    (hs1 : m1.cs = [s1]) :
    ∃ v, groupMode f ⟨c p, groupVel f (c p) (cf p), [s]⟩ ic (some (f1, row1)) = some [v] ∧ HasDerivAt (fun p => groupVel f (c p) (cf p)) v p := by
  refine ⟨_, ?_, C75_formula f p c cf s dd hc hcf h0 h1⟩
  simp only [groupMode, hm1, Option.map_some, hs1, List.zipWith_cons_cons, List.zipWith_nil_left]
  have : quotient f f1 s s1 = dd := by
    unfold quotient
    have : f1 - f ≠ 0 := sub_ne_zero.2 hf
    rw [haff]
    field_simp
    ring
  rw [this]

/-- C75 fails at the last frequency: the mixed derivative is taken as zero, so unless it is zero the value is not the derivative of the group
velocity. -/
theorem C75_last_violated (f p : ℝ) (c cf : ℝ → ℝ) (s dd : ℝ) (hc : HasDerivAt c s p) (hcf : HasDerivAt cf dd p) (h0 : c p ≠ 0)
    (h1 : 1 - f / c p * cf p ≠ 0) (hf : f ≠ 0) (hdd : dd ≠ 0) (ic : ℕ) :
    ∃ v, groupMode f ⟨c p, groupVel f (c p) (cf p), [s]⟩ ic none = some [v] ∧ ¬ HasDerivAt (fun p => groupVel f (c p) (cf p)) v p := by
  refine ⟨_, rfl, fun h => ?_⟩
  have := h.unique (C75_formula f p c cf s dd hc hcf h0 h1)
  have hu : groupVel f (c p) (cf p) / c p ≠ 0 := div_ne_zero (div_ne_zero h0 h1) h0
  simp only [groupFormula, mul_zero, add_zero] at this
  have : (groupVel f (c p) (cf p) / c p) ^ 2 * f * dd = 0 := by linear_combination -this
  exact mul_ne_zero (mul_ne_zero (pow_ne_zero 2 hu) hf) hdd this

/-- A case: `c = 3 + p (1 + f) - f/10` at `f = 1`, `p = 0`. -/
example : ∃ v, groupMode 1 ⟨29 / 10, groupVel 1 (29 / 10) (-1 / 10), [2]⟩ 0 (some (2, [⟨28 / 10, 1, [3]⟩])) = some [v] ∧
    HasDerivAt (fun p : ℝ => groupVel 1 (29 / 10 + p * 2) (-1 / 10 + p * 1)) v 0 := by
  have hc : HasDerivAt (fun p : ℝ => 29 / 10 + p * 2) 2 0 := by
    simpa using ((hasDerivAt_id (0 : ℝ)).mul_const 2).const_add (29 / 10)
  have hcf : HasDerivAt (fun p : ℝ => -1 / 10 + p * 1) 1 0 := by
    simpa using ((hasDerivAt_id (0 : ℝ)).mul_const 1).const_add (-1 / 10)
  have := C75_partial 1 2 0 (by norm_num) _ _ 2 1 hc hcf (by norm_num) (by norm_num) 3 (by norm_num) [⟨28 / 10, 1, [3]⟩] 0 _ rfl rfl
  simpa using this

end GRT.Modal
