import Verif.Integ.Bessel
import Mathlib.Analysis.Complex.RealDeriv
import Mathlib.Analysis.SpecialFunctions.Complex.Circle

/-!
The wavenumber integrand of one distance: `grt_int_Pk` and `grt_merge_Pk`
(pygrt/C_extension/src/integral/k_integ.c 85-150, 279-293).
-/

namespace GRT.Integ

open Real Filter Topology

/-- Kernel values `q, w, v` of the six sources, `cplxChnlGrid`. -/
abbrev Chnl := Fin 6 → Fin 3 → ℂ
/-- Integrals of the six sources, `cplxIntegGrid`. -/
abbrev Grid := Fin 6 → Fin 4 → ℂ

/-- `GRT_SRC_M_ORDERS`, src/common/const.c 19. -/
def order : Fin 6 → Fin 3 := ![0, 0, 1, 0, 1, 2]

/-- `GRT_IS_ZERO`, include/grt/common/const.h 63. -/
def zeroDist (r : ℝ) : Prop := r ≤ 1 / 10 ^ 8

/-- `grt_besselp012`, src/common/bessel.c 19-26. -/
noncomputable def besselp (x : ℝ) (b : Fin 3 → ℝ) : Fin 3 → ℝ := ![-b 1, b 0 - 1 / x * b 1, b 1 - 2 / x * b 2]

/-- `grt_bessel012`, src/common/bessel.c 13-17. -/
noncomputable def bessel (x : ℝ) : Fin 3 → ℝ := ![J 0 x, J 1 x, J 2 x]

open Classical in
/-- `bjmk` after scaling, k_integ.c 87-132. -/
noncomputable def bjmk (k r : ℝ) (uir : Bool) : Fin 3 → ℝ :=
  if zeroDist r then
    if uir then fun m => (![0, 1 / 2, 0] : Fin 3 → ℝ) m * (k * k) else fun m => (![1, 0, 0] : Fin 3 → ℝ) m * k
  else
    if uir then fun m => besselp (k * r) (bessel (k * r)) m * (k * k) else fun m => bessel (k * r) m * k

open Classical in
/-- `Jmcoef` after scaling, k_integ.c 91-131; entry 0 is not used. -/
noncomputable def jmcoef (k r : ℝ) (uir : Bool) : Fin 3 → ℝ :=
  if zeroDist r then
    if uir then fun m => (![0, 0, 1 / 8] : Fin 3 → ℝ) m * (k * k) else fun m => (![0, 1 / 2, 0] : Fin 3 → ℝ) m * k
  else
    if uir then fun m => (1 / (k * r) * (-(1 / (k * r)) * bessel (k * r) m + besselp (k * r) (bessel (k * r)) m)) * (k * k)
    else fun m => (bessel (k * r) m * (1 / (k * r))) * k

/-- Entries for one source, k_integ.c 136-148: `m` is its order, `old` what the array held before. -/
noncomputable def pkEntry (bj jc : Fin 3 → ℝ) (m : Fin 3) (f : Fin 3 → ℂ) (old : Fin 4 → ℂ) : Fin 4 → ℂ :=
  match m with
  | 0 => ![-f 0 * bj 1, old 1, f 1 * bj 0, old 3]
  | 1 => ![f 0 * bj 0, -1 * (f 0 + f 2) * jc 1, f 1 * bj 1, -f 2 * bj 0]
  | 2 => ![f 0 * bj 1, -2 * (f 0 + f 2) * jc 2, f 1 * bj 2, -f 2 * bj 1]

/-- `grt_int_Pk`, k_integ.c 85-150. -/
noncomputable def intPk (k r : ℝ) (Q : Chnl) (uir : Bool) (old : Grid) : Grid := fun i =>
  pkEntry (bjmk k r uir) (jmcoef k r uir) (order i) (Q i) (old i)

/-- `grt_merge_Pk`, k_integ.c 279-293: components `z`, `r`, `t`. -/
def merge (s : Grid) (old : Chnl) : Chnl := fun i =>
  match order i with
  | 0 => ![s i 2, s i 0, old i 2]
  | _ => ![s i 2, s i 0 + s i 1, -s i 1 + s i 3]

/-! ### Specification: cylindrical vector harmonics -/

/-- Vertical component of the harmonic of order `m` with amplitudes `q, w, v`, times `k`. -/
noncomputable def uz (m : ℕ) (f : Fin 3 → ℂ) (k r : ℝ) : ℂ := k * (f 1 * J m (k * r))
/-- Radial component. -/
noncomputable def ur (m : ℕ) (f : Fin 3 → ℂ) (k r : ℝ) : ℂ :=
  k * (f 0 * deriv (J m) (k * r) - f 2 * (m * J m (k * r) / (k * r) : ℝ))
/-- Transverse component. -/
noncomputable def ut (m : ℕ) (f : Fin 3 → ℂ) (k r : ℝ) : ℂ :=
  k * (f 0 * (m * J m (k * r) / (k * r) : ℝ) - f 2 * deriv (J m) (k * r))

theorem order_cases (i : Fin 6) : order i = 0 ∨ order i = 1 ∨ order i = 2 := by fin_cases i <;> decide

theorem deriv_J0 (x : ℝ) : deriv (J 0) x = -J 1 x := (J0_deriv x).deriv
theorem deriv_J1 (x : ℝ) (h : x ≠ 0) : deriv (J 1) x = J 0 x - 1 / x * J 1 x := (J1_deriv x h).deriv
theorem deriv_J2 (x : ℝ) (h : x ≠ 0) : deriv (J 2) x = J 1 x - 2 / x * J 2 x := (J2_deriv x h).deriv

/-- C64: after merging, the integrand is the cylindrical vector harmonic with the kernel values as amplitudes (order 0 has no
transverse component, its `v` is not used). -/
theorem C64_harmonic (k r : ℝ) (hk : 0 < k) (hr : 1 / 10 ^ 8 < r) (Q : Chnl) (old : Grid) (o2 : Chnl) (i : Fin 6) :
    merge (intPk k r Q false old) o2 i 0 = uz (order i) (Q i) k r ∧
    ((order i : ℕ) = 0 → Q i 2 = 0 → merge (intPk k r Q false old) o2 i 1 = ur (order i) (Q i) k r) ∧
    ((order i : ℕ) ≠ 0 → merge (intPk k r Q false old) o2 i 1 = ur (order i) (Q i) k r ∧
      merge (intPk k r Q false old) o2 i 2 = ut (order i) (Q i) k r) := by
  have hx : k * r ≠ 0 := by have : 0 < r := lt_trans (by norm_num) hr; positivity
  have hz : ¬ zeroDist r := not_le.2 hr
  have hkc : (k : ℂ) ≠ 0 := by exact_mod_cast hk.ne'
  have hrc : (r : ℂ) ≠ 0 := by exact_mod_cast (lt_trans (by norm_num : (0 : ℝ) < 1 / 10 ^ 8) hr).ne'
  rcases order_cases i with h | h | h
  all_goals
    simp only [merge, intPk, pkEntry, bjmk, jmcoef, if_neg hz, h, uz, ur, ut, Bool.false_eq_true, if_false, bessel]
    simp only [Fin.val_zero, Fin.val_one, Fin.val_two, Nat.cast_zero, Nat.cast_one, Nat.cast_ofNat]
    simp only [deriv_J0, deriv_J1 _ hx, deriv_J2 _ hx]
    simp
    try push_cast
  · refine ⟨by ring, fun h => ?_⟩
    ring
  · refine ⟨by ring, ?_, ?_⟩
    · field_simp; ring
    · field_simp; ring
  · refine ⟨by ring, ?_, ?_⟩
    · field_simp; ring
    · field_simp; ring

theorem bess_deriv (k r : ℝ) (hx : k * r ≠ 0) (m : Fin 3) :
    HasDerivAt (fun r => bessel (k * r) m * k) (besselp (k * r) (bessel (k * r)) m * (k * k)) r := by
  have hl : HasDerivAt (fun r : ℝ => k * r) k r := by simpa using (hasDerivAt_id r).const_mul k
  fin_cases m
  · have := ((J0_deriv (k * r)).comp r hl).mul_const k
    refine this.congr_deriv ?_
    simp [besselp, bessel]; ring
  · have := ((J1_deriv (k * r) hx).comp r hl).mul_const k
    refine this.congr_deriv ?_
    simp [besselp, bessel]; ring
  · have := ((J2_deriv (k * r) hx).comp r hl).mul_const k
    refine this.congr_deriv ?_
    simp [besselp, bessel]; ring

theorem jc_deriv (k r : ℝ) (hx : k * r ≠ 0) (m : Fin 3) :
    HasDerivAt (fun r => (bessel (k * r) m * (1 / (k * r))) * k)
      ((1 / (k * r) * (-(1 / (k * r)) * bessel (k * r) m + besselp (k * r) (bessel (k * r)) m)) * (k * k)) r := by
  have hl : HasDerivAt (fun r : ℝ => k * r) k r := by simpa using (hasDerivAt_id r).const_mul k
  have h1 : HasDerivAt (fun r => bessel (k * r) m * k * (k * r)⁻¹) (besselp (k * r) (bessel (k * r)) m * (k * k) * (k * r)⁻¹ +
      bessel (k * r) m * k * (-k / (k * r) ^ 2)) r := (bess_deriv k r hx m).mul (hl.inv hx)
  have hk : k ≠ 0 := left_ne_zero_of_mul hx
  have hr : r ≠ 0 := right_ne_zero_of_mul hx
  have e : (fun r => (bessel (k * r) m * (1 / (k * r))) * k) = fun r => bessel (k * r) m * k * (k * r)⁻¹ := by
    funext y; rw [one_div]; ring
  rw [e]
  refine h1.congr_deriv ?_
  field_simp
  ring

/-- C64: the integrand of the radial derivative is the derivative of the integrand with respect to distance. -/
theorem C64_derivative (k r : ℝ) (hk : 0 < k) (hr : 1 / 10 ^ 8 < r) (Q : Chnl) (i : Fin 6) (v : Fin 4) :
    HasDerivAt (fun r => intPk k r Q false 0 i v) (intPk k r Q true 0 i v) r := by
  have hx : k * r ≠ 0 := by have : 0 < r := lt_trans (by norm_num) hr; positivity
  have hz : ¬ zeroDist r := not_le.2 hr
  have hb : ∀ m, HasDerivAt (fun r => ((bjmk k r false m : ℝ) : ℂ)) ((bjmk k r true m : ℝ) : ℂ) r := by
    intro m
    apply HasDerivAt.ofReal_comp
    have := bess_deriv k r hx m
    simp only [bjmk, if_neg hz, if_true]
    refine this.congr_of_eventuallyEq ?_
    filter_upwards [lt_mem_nhds hr] with y hy
    rw [if_neg (show ¬ zeroDist y from not_le.2 hy)]
    simp
  have hj : ∀ m, HasDerivAt (fun r => ((jmcoef k r false m : ℝ) : ℂ)) ((jmcoef k r true m : ℝ) : ℂ) r := by
    intro m
    apply HasDerivAt.ofReal_comp
    have := jc_deriv k r hx m
    simp only [jmcoef, if_neg hz, if_true]
    refine this.congr_of_eventuallyEq ?_
    filter_upwards [lt_mem_nhds hr] with y hy
    rw [if_neg (show ¬ zeroDist y from not_le.2 hy)]
    simp
  unfold intPk
  rcases order_cases i with h | h | h
  all_goals rw [h]; fin_cases v
  · exact (hb 1).const_mul _
  · exact hasDerivAt_const _ _
  · exact (hb 0).const_mul _
  · exact hasDerivAt_const _ _
  · exact (hb 0).const_mul _
  · exact (hj 1).const_mul _
  · exact (hb 1).const_mul _
  · exact (hb 0).const_mul _
  · exact (hb 1).const_mul _
  · exact (hj 2).const_mul _
  · exact (hb 2).const_mul _
  · exact (hb 1).const_mul _

/-! ### On the axis -/

theorem scaled {f : ℝ → ℝ} {L k : ℝ} (hk : 0 < k) (h : Tendsto f (𝓝[≠] 0) (𝓝 L)) : Tendsto (fun r => f (k * r)) (𝓝[>] 0) (𝓝 L) := by
  refine h.comp ?_
  rw [tendsto_nhdsWithin_iff]
  constructor
  · have : Tendsto (fun r : ℝ => k * r) (𝓝 0) (𝓝 (k * 0)) := (continuous_const.mul continuous_id).tendsto 0
    rw [mul_zero] at this
    exact this.mono_left nhdsWithin_le_nhds
  · filter_upwards [self_mem_nhdsWithin] with r hr
    have hr : 0 < r := hr
    exact (mul_pos hk hr).ne'

theorem J_tendsto (n : ℤ) : Tendsto (J n) (𝓝[≠] 0) (𝓝 (J n 0)) :=
  ((J_continuous n).tendsto 0).mono_left nhdsWithin_le_nhds

theorem bess_zero (k : ℝ) (hk : 0 < k) (m : Fin 3) : Tendsto (fun r => bessel (k * r) m * k) (𝓝[>] 0) (𝓝 (bjmk k 0 false m)) := by
  have hz : zeroDist 0 := by unfold zeroDist; norm_num
  simp only [bjmk, if_pos hz, Bool.false_eq_true, if_false]
  apply Tendsto.mul_const
  fin_cases m
  · simpa [J_zero, bessel] using scaled hk (J_tendsto 0)
  · simpa [J_zero, bessel] using scaled hk (J_tendsto 1)
  · simpa [J_zero, bessel] using scaled hk (J_tendsto 2)

theorem jc_zero (k : ℝ) (hk : 0 < k) (m : Fin 3) (hm : m ≠ 0) :
    Tendsto (fun r => (bessel (k * r) m * (1 / (k * r))) * k) (𝓝[>] 0) (𝓝 (jmcoef k 0 false m)) := by
  have hz : zeroDist 0 := by unfold zeroDist; norm_num
  simp only [jmcoef, if_pos hz, Bool.false_eq_true, if_false, mul_one_div]
  apply Tendsto.mul_const
  fin_cases m
  · exact absurd rfl hm
  · simpa [bessel] using scaled hk J1_div_tendsto
  · simpa [bessel] using scaled hk J2_div_tendsto

theorem bessp_zero (k : ℝ) (hk : 0 < k) (m : Fin 3) :
    Tendsto (fun r => besselp (k * r) (bessel (k * r)) m * (k * k)) (𝓝[>] 0) (𝓝 (bjmk k 0 true m)) := by
  have hz : zeroDist 0 := by unfold zeroDist; norm_num
  simp only [bjmk, if_pos hz, if_true]
  apply Tendsto.mul_const
  fin_cases m
  · have := (scaled hk (J_tendsto 1)).neg
    simpa [J_zero, besselp, bessel] using this
  · have := (scaled hk (J_tendsto 0)).sub (scaled hk J1_div_tendsto)
    have e : (J 0 0 - 1 / 2 : ℝ) = 1 / 2 := by rw [J_zero, if_pos rfl]; norm_num
    rw [e] at this
    simpa [besselp, bessel, div_eq_inv_mul] using this
  · have := (scaled hk (J_tendsto 1)).sub ((scaled hk J2_div_tendsto).const_mul 2)
    have e : (J 1 0 - 2 * 0 : ℝ) = 0 := by rw [J_zero]; norm_num
    rw [e] at this
    refine (this.congr fun r => ?_)
    simp [besselp, bessel]; ring

theorem jcp_zero (k : ℝ) (hk : 0 < k) (m : Fin 3) (hm : m ≠ 0) :
    Tendsto (fun r => (1 / (k * r) * (-(1 / (k * r)) * bessel (k * r) m + besselp (k * r) (bessel (k * r)) m)) * (k * k)) (𝓝[>] 0)
      (𝓝 (jmcoef k 0 true m)) := by
  have hz : zeroDist 0 := by unfold zeroDist; norm_num
  simp only [jmcoef, if_pos hz, if_true]
  apply Tendsto.mul_const
  fin_cases m
  · exact absurd rfl hm
  · have := (scaled hk J2_div_tendsto).neg
    rw [neg_zero] at this
    refine this.congr' ?_
    filter_upwards [self_mem_nhdsWithin] with r hr
    have hr : 0 < r := hr
    have hx : k * r ≠ 0 := by positivity
    have e := J_rec 1 (k * r)
    norm_num at e
    show _ = 1 / (k * r) * (-(1 / (k * r)) * _ + _)
    generalize k * r = x at *
    simp [besselp, bessel]
    field_simp
    linear_combination -e
  · have := (scaled hk J1_div_tendsto).sub ((scaled hk J2_div_sq_tendsto).const_mul 3)
    rw [show (1 / 2 - 3 * (1 / 8) : ℝ) = 1 / 8 by norm_num] at this
    refine this.congr' ?_
    filter_upwards [self_mem_nhdsWithin] with r hr
    have hr : 0 < r := hr
    have hx : k * r ≠ 0 := by positivity
    show _ = 1 / (k * r) * (-(1 / (k * r)) * _ + _)
    generalize k * r = x at *
    simp [besselp, bessel]
    field_simp
    ring

/-- Entries of the integrand for every positive distance, without the threshold. -/
noncomputable def pkFormula (k r : ℝ) (Q : Chnl) (uir : Bool) : Grid := fun i =>
  if uir then
    pkEntry (fun m => besselp (k * r) (bessel (k * r)) m * (k * k))
      (fun m => (1 / (k * r) * (-(1 / (k * r)) * bessel (k * r) m + besselp (k * r) (bessel (k * r)) m)) * (k * k)) (order i) (Q i) 0
  else
    pkEntry (fun m => bessel (k * r) m * k) (fun m => (bessel (k * r) m * (1 / (k * r))) * k) (order i) (Q i) 0

/-- Beyond the threshold these are the entries the code computes. -/
theorem pkFormula_eq (k r : ℝ) (hr : 1 / 10 ^ 8 < r) (Q : Chnl) (uir : Bool) : pkFormula k r Q uir = intPk k r Q uir 0 := by
  have hz : ¬ zeroDist r := not_le.2 hr
  unfold pkFormula intPk bjmk jmcoef
  rw [if_neg hz, if_neg hz]
  cases uir <;> rfl

/-- C64: the values used on the axis are the limits for distance to zero, for the integrand and for its radial derivative. -/
theorem C64_axis (k : ℝ) (hk : 0 < k) (Q : Chnl) (uir : Bool) (i : Fin 6) (v : Fin 4) :
    Tendsto (fun r => pkFormula k r Q uir i v) (𝓝[>] 0) (𝓝 (intPk k 0 Q uir 0 i v)) := by
  cases uir
  · have hb : ∀ m, Tendsto (fun r => (((bessel (k * r) m * k : ℝ)) : ℂ)) (𝓝[>] 0) (𝓝 (bjmk k 0 false m : ℝ)) := fun m =>
      (Complex.continuous_ofReal.tendsto _).comp (bess_zero k hk m)
    have hj : ∀ m, m ≠ 0 → Tendsto (fun r => (((bessel (k * r) m * (1 / (k * r))) * k : ℝ) : ℂ)) (𝓝[>] 0)
        (𝓝 (jmcoef k 0 false m : ℝ)) := fun m hm => (Complex.continuous_ofReal.tendsto _).comp (jc_zero k hk m hm)
    unfold intPk pkFormula
    rcases order_cases i with h | h | h
    all_goals rw [h]; fin_cases v
    · exact (hb 1).const_mul _
    · exact tendsto_const_nhds
    · exact (hb 0).const_mul _
    · exact tendsto_const_nhds
    · exact (hb 0).const_mul _
    · exact (hj 1 (by decide)).const_mul _
    · exact (hb 1).const_mul _
    · exact (hb 0).const_mul _
    · exact (hb 1).const_mul _
    · exact (hj 2 (by decide)).const_mul _
    · exact (hb 2).const_mul _
    · exact (hb 1).const_mul _
  · have hb : ∀ m, Tendsto (fun r => ((besselp (k * r) (bessel (k * r)) m * (k * k) : ℝ) : ℂ)) (𝓝[>] 0)
        (𝓝 (bjmk k 0 true m : ℝ)) := fun m => (Complex.continuous_ofReal.tendsto _).comp (bessp_zero k hk m)
    have hj : ∀ m, m ≠ 0 → Tendsto (fun r => (((1 / (k * r) * (-(1 / (k * r)) * bessel (k * r) m + besselp (k * r) (bessel (k * r)) m)) *
        (k * k) : ℝ) : ℂ)) (𝓝[>] 0) (𝓝 (jmcoef k 0 true m : ℝ)) := fun m hm =>
      (Complex.continuous_ofReal.tendsto _).comp (jcp_zero k hk m hm)
    unfold intPk pkFormula
    rcases order_cases i with h | h | h
    all_goals rw [h]; fin_cases v
    · exact (hb 1).const_mul _
    · exact tendsto_const_nhds
    · exact (hb 0).const_mul _
    · exact tendsto_const_nhds
    · exact (hb 0).const_mul _
    · exact (hj 1 (by decide)).const_mul _
    · exact (hb 1).const_mul _
    · exact (hb 0).const_mul _
    · exact (hb 1).const_mul _
    · exact (hj 2 (by decide)).const_mul _
    · exact (hb 2).const_mul _
    · exact (hb 1).const_mul _

/-- A horizontal force: order one, with an axis value of the radial component that does not vanish. -/
example : merge (intPk 2 0 (fun _ => ![3, 5, 1]) false 0) 0 2 1 = 2 := by
  have h : zeroDist 0 := by unfold zeroDist; norm_num
  simp [merge, intPk, pkEntry, bjmk, jmcoef, if_pos h, order]
  norm_num

example : HasDerivAt (fun r => intPk 2 r (fun _ => ![3, 5, 1]) false 0 5 1) (intPk 2 7 (fun _ => ![3, 5, 1]) true 0 5 1) 7 :=
  C64_derivative 2 7 (by norm_num) (by norm_num) _ 5 1

end GRT.Integ
