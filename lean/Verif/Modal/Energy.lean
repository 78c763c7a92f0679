import Verif.Modal.LoveMode
import Mathlib.MeasureTheory.Integral.IntegralEqImproper
import Mathlib.MeasureTheory.Integral.ExpDecay
import Mathlib.Analysis.SpecialFunctions.ImproperIntegrals

/-! Energy integrals of Love modes (energy.c) and the thin layers they are summed over (grt_eigenfn.c 571-594).  C78. -/

set_option linter.unusedSectionVars false

namespace GRT.Modal

open GRT.RT GRT.Layer GRT.Kernel Filter Complex MeasureTheory

/-- `_solve_typical_integral_Love`, energy.c 117-140; a negative thickness stands for infinity. -/
noncomputable def typL (k : ℂ) (H : ℝ) (xb : ℂ) (M : Mat2 ℂ) (x : ℂ × ℂ) : ℂ :=
  let exb := if 0 ≤ H then exp (-k * H * xb) else 0
  let ex2b := exb * exb
  let b := k * xb
  H * (M 0 1 * x.1 * x.2 + M 1 0 * x.2 * x.1) * exb + 1/2 * M 0 0 * x.1 * x.1 / b * (1 - ex2b)
    + 1/2 * M 1 1 * x.2 * x.2 / b * (1 - ex2b)

/-- `energy_integrals_single_layer_Love`, energy.c 248-266: integrals of `v²` and `v'²`. -/
noncomputable def subL (k : ℂ) (xb : ℂ) (H : ℝ) (x : ℂ × ℂ) : ℂ × ℂ :=
  (k ^ 2 * typL k H xb !![1, 1; 1, 1] x, (k * k * xb) ^ 2 * typL k H xb !![1, -1; -1, 1] x)

/-- The loop over thin layers of `grt_energy_integrals_Love`, energy.c 466-501, for a list of (layer, depth of the top): the
integrals of each thin layer (in liquids nothing is computed: zero).  `dep` are the depths of the tops of the layers. -/
noncomputable def thinL (I : ModeIn ℂ) (thk dep : ℕ → ℝ) (up dn : ℕ → ℂ × ℂ) : List (ℕ × ℝ) → List (ℕ × (ℂ × ℂ))
  | [] => []
  | [(i, z)] =>
    let h := z - dep i
    [(i, if (I.lay i).liquid then (0, 0)
      else subL I.k (I.lay i).xb (-1) (0 * (up (i+1)).1, exp (-I.k * (I.lay i).xb * h) * (dn i).2))]
  | (i, z) :: (j, z') :: t =>
    let h := z - dep i
    let dz := z' - z
    (i, if (I.lay i).liquid then (0, 0)
      else subL I.k (I.lay i).xb dz (exp (-I.k * (I.lay i).xb * (thk i - h - dz)) * (up (i+1)).1,
        exp (-I.k * (I.lay i).xb * h) * (dn i).2)) :: thinL I thk dep up dn ((j, z') :: t)

/-- `egyint[0]`, `egyint[1]`, `egyint[3]` (`egyint[2]` stays zero), energy.c 503-513. -/
noncomputable def egyL (I : ModeIn ℂ) (l : List (ℕ × (ℂ × ℂ))) : ℂ × ℂ × ℂ :=
  ((l.map fun p => 1/2 * (I.lay p.1).rho * p.2.1).sum, (l.map fun p => 1/2 * (I.lay p.1).mu * p.2.1).sum,
    (l.map fun p => 1/2 * (I.lay p.1).mu * p.2.2).sum)

/-- Tops of the thin layers of a layer of thickness `thk`, the inner loop of grt_eigenfn.c 579-592, `n` rounds at most. -/
noncomputable def tops (thk dz : ℝ) : ℕ → ℝ → List ℝ
  | 0, _ => []
  | n + 1, h => if h < thk ∧ ¬ |thk - h| < dz * (1 / 100000) then h :: tops thk dz n (h + dz) else []

/-- All thin layers: of the layers above the half-space, then one for the half-space, grt_eigenfn.c 571-594.  `cdz` is the step of
option `-K+z`, 0 if not given. -/
noncomputable def thinLayers (n : ℕ) (thk dep : ℕ → ℝ) (cdz : ℝ) (fuel : ℕ) : List (ℕ × ℝ) :=
  ((List.range (n - 1)).flatMap fun i => (tops (thk i) (if cdz = 0 then thk i else cdz) fuel 0).map fun h => (i, dep i + h))
    ++ [(n - 1, dep (n - 1) + 0)]

/-! ### Specification: integrals over depth -/

/-- The integral of a quantity given layer by layer over the whole half-space. -/
noncomputable def depthInt (n : ℕ) (thk : ℕ → ℝ) (f : ℕ → ℝ → ℂ) : ℂ :=
  (∑ i ∈ Finset.range (n - 1), ∫ z in (0:ℝ)..thk i, f i z) + ∫ z in Set.Ioi (0:ℝ), f (n-1) z

/-! ### One thin layer -/

theorem expz (a c : ℂ) (z : ℝ) : HasDerivAt (fun z : ℝ => exp (a * z + c)) (a * exp (a * z + c)) z := by
  have h1 : HasDerivAt (fun z : ℝ => a * (z:ℂ) + c) a z := by
    have := (((hasDerivAt_id z).ofReal_comp).const_mul a).add_const c
    simpa using this
  have := h1.cexp
  simpa [mul_comm] using this

/-- The square of a sum of a wave growing and one decaying with depth. -/
theorem int_pair {b : ℂ} (hb : b ≠ 0) (A B s : ℂ) (hs : s ^ 2 = 1) (T h H : ℝ) :
    ∫ z in h..(h + H), (A * exp (-b * (T - z)) + s * (B * exp (-b * z))) ^ 2 =
      H * (2 * s * (A * exp (-b * (T - h - H))) * (B * exp (-b * h))) * exp (-b * H)
      + 1/2 * (A * exp (-b * (T - h - H))) ^ 2 / b * (1 - exp (-b * H) * exp (-b * H))
      + 1/2 * (B * exp (-b * h)) ^ 2 / b * (1 - exp (-b * H) * exp (-b * H)) := by
  set F : ℝ → ℂ := fun z => A ^ 2 / (2 * b) * exp ((2 * b) * z + (-2 * b * T)) - B ^ 2 / (2 * b) * exp ((-2 * b) * z + 0)
    + (2 * s * A * B * exp (-b * T)) * z with hF
  have e1 : ∀ z : ℝ, exp (-b * (T - z)) = exp (b * z + (-b * T)) := fun z => by congr 1; ring
  have hd : ∀ z : ℝ, HasDerivAt F ((A * exp (-b * (T - z)) + s * (B * exp (-b * z))) ^ 2) z := by
    intro z
    have d := (((expz (2*b) (-2*b*T) z).const_mul (A^2/(2*b))).sub ((expz (-2*b) 0 z).const_mul (B^2/(2*b)))).add
      (((hasDerivAt_id z).ofReal_comp).const_mul (2 * s * A * B * exp (-b * T)))
    refine d.congr_deriv ?_
    have x1 : exp ((2 * b) * z + (-2 * b * T)) = exp (-b * (T - z)) ^ 2 := by rw [← Complex.exp_nat_mul]; congr 1; push_cast; ring
    have x2 : exp ((-2 * b) * z + 0) = exp (-b * z) ^ 2 := by rw [← Complex.exp_nat_mul]; congr 1; push_cast; ring
    have x3 : exp (-b * T) = exp (-b * (T - z)) * exp (-b * z) := by rw [← Complex.exp_add]; congr 1; ring
    rw [x1, x2, x3]
    simp only [ofReal_one, mul_one]
    generalize exp (-b * z) = E2
    generalize exp (-b * (T - z)) = E1
    field_simp
    linear_combination -(B ^ 2 * E2 ^ 2) * hs
  have hc : Continuous fun z : ℝ => (A * exp (-b * (T - z)) + s * (B * exp (-b * z))) ^ 2 := by fun_prop
  rw [intervalIntegral.integral_eq_sub_of_hasDerivAt (fun z _ => hd z) (hc.intervalIntegrable _ _)]
  simp only [hF]
  push_cast
  have y1 : exp ((2 * b) * (h + H) + (-2 * b * T)) = exp (-b * (T - h - H)) ^ 2 := by
    rw [← Complex.exp_nat_mul]; congr 1; push_cast; ring
  have y2 : exp ((-2 * b) * (h + H) + 0) = (exp (-b * h) * exp (-b * H)) ^ 2 := by
    rw [← Complex.exp_add, ← Complex.exp_nat_mul]; congr 1; push_cast; ring
  have y3 : exp ((2 * b) * h + (-2 * b * T)) = (exp (-b * (T - h - H)) * exp (-b * H)) ^ 2 := by
    rw [← Complex.exp_add, ← Complex.exp_nat_mul]; congr 1; push_cast; ring
  have y4 : exp ((-2 * b) * h + 0) = exp (-b * h) ^ 2 := by
    rw [← Complex.exp_nat_mul]; congr 1; push_cast; ring
  have y5 : exp (-b * T) = exp (-b * (T - h - H)) * exp (-b * h) * exp (-b * H) := by
    rw [← Complex.exp_add, ← Complex.exp_add]; congr 1; ring
  rw [y1, y2, y3, y4, y5]
  field_simp
  ring

/-- `v'` of the SH field is the traction divided by the rigidity. -/
theorem loveOut_val {I : ModeIn ℂ} {S : ℕ → SH ℂ} {thk : ℕ → ℝ} {iref : ℕ} {pot : ℂ × ℂ} {i : ℕ} (e : (I.lay i).liquid = false)
    (hm : (I.lay i).mu ≠ 0) (z : ℝ) :
    (loveOut I S thk iref pot i z).v = I.k * ((potUp I S iref pot (i+1)).1 * exp (-(I.k * (I.lay i).xb) * (thk i - z))
      + 1 * ((potDown I S iref pot i).2 * exp (-(I.k * (I.lay i).xb) * z))) ∧
    (loveOut I S thk iref pot i z).t / (I.lay i).mu = I.k * I.k * (I.lay i).xb *
      ((potUp I S iref pot (i+1)).1 * exp (-(I.k * (I.lay i).xb) * (thk i - z))
      + (-1) * ((potDown I S iref pot i).2 * exp (-(I.k * (I.lay i).xb) * z))) := by
  have e1 : exp (-(I.k * (I.lay i).xb * z)) = exp (-(I.k * (I.lay i).xb) * z) := by congr 1; ring
  have e2 : exp (-(I.k * (I.lay i).xb * (thk i - z))) = exp (-(I.k * (I.lay i).xb) * (thk i - z)) := by congr 1; ring
  simp only [loveOut, eigenfnL, e, Bool.false_eq_true, if_false, layT, Matrix.of_apply, e1, e2,
    Matrix.cons_val_zero, Matrix.cons_val_one, Matrix.cons_val', Matrix.cons_val_fin_one]
  generalize exp (-(I.k * (I.lay i).xb) * z) = E1
  generalize exp (-(I.k * (I.lay i).xb) * (thk i - z)) = E2
  constructor
  · ring
  · field_simp

/-- One thin layer above the half-space: the two numbers are the integrals of `v²` and `v'²` over the thin layer. -/
theorem subL_int {I : ModeIn ℂ} {S : ℕ → SH ℂ} {thk : ℕ → ℝ} {iref : ℕ} {pot : ℂ × ℂ} {i : ℕ} (hk : I.k ≠ 0)
    (e : (I.lay i).liquid = false) (hm : (I.lay i).mu ≠ 0) (hx : (I.lay i).xb ≠ 0) (h H : ℝ) (hH : 0 ≤ H) :
    subL I.k (I.lay i).xb H (exp (-I.k * (I.lay i).xb * (thk i - h - H)) * (potUp I S iref pot (i+1)).1,
        exp (-I.k * (I.lay i).xb * h) * (potDown I S iref pot i).2) =
      (∫ z in h..(h + H), (loveOut I S thk iref pot i z).v ^ 2,
       ∫ z in h..(h + H), ((loveOut I S thk iref pot i z).t / (I.lay i).mu) ^ 2) := by
  have hb := mul_ne_zero hk hx
  have i1 := int_pair hb (potUp I S iref pot (i+1)).1 (potDown I S iref pot i).2 1 (by ring) (thk i) h H
  have i2 := int_pair hb (potUp I S iref pot (i+1)).1 (potDown I S iref pot i).2 (-1) (by ring) (thk i) h H
  have f1 : (fun z : ℝ => (loveOut I S thk iref pot i z).v ^ 2) = fun z : ℝ => I.k ^ 2 *
      ((potUp I S iref pot (i+1)).1 * exp (-(I.k * (I.lay i).xb) * (thk i - z))
      + 1 * ((potDown I S iref pot i).2 * exp (-(I.k * (I.lay i).xb) * z))) ^ 2 := by
    funext z; rw [(loveOut_val e hm z).1]; ring
  have f2 : (fun z : ℝ => ((loveOut I S thk iref pot i z).t / (I.lay i).mu) ^ 2) = fun z : ℝ => (I.k * I.k * (I.lay i).xb) ^ 2 *
      ((potUp I S iref pot (i+1)).1 * exp (-(I.k * (I.lay i).xb) * (thk i - z))
      + (-1) * ((potDown I S iref pot i).2 * exp (-(I.k * (I.lay i).xb) * z))) ^ 2 := by
    funext z; rw [(loveOut_val e hm z).2]; ring
  rw [f1, f2, intervalIntegral.integral_const_mul, intervalIntegral.integral_const_mul, i1, i2]
  have x1 : exp (-I.k * (I.lay i).xb * (thk i - h - H)) = exp (-(I.k * (I.lay i).xb) * (thk i - h - H)) := by congr 1; ring
  have x2 : exp (-I.k * (I.lay i).xb * h) = exp (-(I.k * (I.lay i).xb) * h) := by congr 1; ring
  have x3 : exp (-I.k * H * (I.lay i).xb) = exp (-(I.k * (I.lay i).xb) * H) := by congr 1; ring
  simp only [subL, typL, if_pos hH, x1, x2, x3, Matrix.of_apply,
    Matrix.cons_val_zero, Matrix.cons_val_one, Matrix.cons_val', Matrix.cons_val_fin_one]
  refine Prod.ext ?_ ?_ <;> dsimp only <;> ring

theorem int_half {b : ℂ} (hb : 0 < b.re) (B : ℂ) :
    IntegrableOn (fun z : ℝ => (B * exp (-b * z)) ^ 2) (Set.Ioi 0) ∧
    ∫ z in Set.Ioi (0:ℝ), (B * exp (-b * z)) ^ 2 = 1/2 * B ^ 2 / b := by
  have hb0 : b ≠ 0 := by intro e; rw [e] at hb; simp at hb
  have e : (fun z : ℝ => (B * exp (-b * z)) ^ 2) = fun z : ℝ => B ^ 2 * exp ((-2 * b) * z) := by
    funext z; rw [mul_pow, ← Complex.exp_nat_mul]; congr 2; push_cast; ring
  have hr : (-2 * b).re < 0 := by simp; linarith
  rw [e]
  refine ⟨(integrableOn_exp_mul_complex_Ioi hr 0).const_mul _, ?_⟩
  rw [integral_const_mul, integral_exp_mul_complex_Ioi hr]
  simp
  field_simp

/-- The half-space. -/
theorem subL_half {I : ModeIn ℂ} {S : ℕ → SH ℂ} {thk : ℕ → ℝ} {iref : ℕ} {pot : ℂ × ℂ} {i : ℕ}
    (e : (I.lay i).liquid = false) (hm : (I.lay i).mu ≠ 0) (hu : potUp I S iref pot (i+1) = (0, 0))
    (hr : 0 < (I.k * (I.lay i).xb).re) :
    subL I.k (I.lay i).xb (-1) (0 * (potUp I S iref pot (i+1)).1,
        exp (-I.k * (I.lay i).xb * (0:ℝ)) * (potDown I S iref pot i).2) =
      (∫ z in Set.Ioi (0:ℝ), (loveOut I S thk iref pot i z).v ^ 2,
       ∫ z in Set.Ioi (0:ℝ), ((loveOut I S thk iref pot i z).t / (I.lay i).mu) ^ 2) := by
  have i1 := (int_half hr (potDown I S iref pot i).2).2
  have f1 : (fun z : ℝ => (loveOut I S thk iref pot i z).v ^ 2) = fun z : ℝ => I.k ^ 2 *
      ((potDown I S iref pot i).2 * exp (-(I.k * (I.lay i).xb) * z)) ^ 2 := by
    funext z; rw [(loveOut_val e hm z).1, hu]; ring
  have f2 : (fun z : ℝ => ((loveOut I S thk iref pot i z).t / (I.lay i).mu) ^ 2) = fun z : ℝ => (I.k * I.k * (I.lay i).xb) ^ 2 *
      ((potDown I S iref pot i).2 * exp (-(I.k * (I.lay i).xb) * z)) ^ 2 := by
    funext z; rw [(loveOut_val e hm z).2, hu]; ring
  rw [f1, f2, integral_const_mul, integral_const_mul, i1]
  have : ¬ ((0:ℝ) ≤ -1) := by norm_num
  simp only [subL, typL, if_neg this, Matrix.of_apply, ofReal_zero, mul_zero, exp_zero, one_mul,
    Matrix.cons_val_zero, Matrix.cons_val_one, Matrix.cons_val', Matrix.cons_val_fin_one]
  refine Prod.ext ?_ ?_ <;> dsimp only <;> ring

/-! ### Thin layers -/

theorem tops_cons {thk dz h : ℝ} {n : ℕ} {x : ℝ} {t : List ℝ} (e : tops thk dz n h = x :: t) :
    x = h ∧ h < thk ∧ ∃ m, n = m + 1 ∧ t = tops thk dz m (h + dz) := by
  cases n with
  | zero => cases e
  | succ n =>
    simp only [tops] at e
    split at e
    · rename_i c
      simp only [List.cons.injEq] at e
      exact ⟨e.1.symm, c.1, n, rfl, e.2.symm⟩
    · cases e

/-- With enough rounds the loop has come to its end: more make no difference. -/
theorem tops_enough {thk dz : ℝ} (hd : 0 < dz) (n : ℕ) : ∀ h, thk ≤ h + n * dz → ∀ m, n ≤ m → tops thk dz m h = tops thk dz n h := by
  induction n with
  | zero =>
    intro h hh m _
    cases m with
    | zero => rfl
    | succ m =>
      simp only [Nat.cast_zero, zero_mul, add_zero] at hh
      simp only [tops]
      rw [if_neg (fun c => not_lt.2 hh c.1)]
  | succ n ih =>
    intro h hh m hm
    obtain ⟨m, rfl⟩ : ∃ j, m = j + 1 := ⟨m - 1, by omega⟩
    simp only [tops]
    rw [ih (h + dz) (by push_cast at hh; linarith) m (by omega)]

/-- A layer not thinner than a hundred-thousandth of the step gets a thin layer. -/
theorem tops_ne {thk dz : ℝ} (ht : 0 < thk) (h : dz * (1 / 100000) ≤ thk) {n : ℕ} (hn : 1 ≤ n) : ∃ t, tops thk dz n 0 = 0 :: t := by
  obtain ⟨m, rfl⟩ : ∃ j, n = j + 1 := ⟨n - 1, by omega⟩
  simp only [tops]
  rw [if_pos]
  · exact ⟨_, rfl⟩
  · refine ⟨ht, ?_⟩
    rw [sub_zero, abs_of_pos ht]
    exact not_lt.2 h

/-- The integrals a thin layer should have. -/
noncomputable def thinInt (I : ModeIn ℂ) (S : ℕ → SH ℂ) (thk : ℕ → ℝ) (iref : ℕ) (pot : ℂ × ℂ) (i : ℕ) (a b : ℝ) : ℂ × ℂ :=
  (∫ z in a..b, (loveOut I S thk iref pot i z).v ^ 2, ∫ z in a..b, ((loveOut I S thk iref pot i z).t / (I.lay i).mu) ^ 2)

theorem loveOut_cont {I : ModeIn ℂ} {S : ℕ → SH ℂ} {thk : ℕ → ℝ} {iref : ℕ} {pot : ℂ × ℂ} {i : ℕ} (hm : (I.lay i).liquid = false → (I.lay i).mu ≠ 0) :
    Continuous (fun z => (loveOut I S thk iref pot i z).v ^ 2) ∧
    Continuous (fun z => ((loveOut I S thk iref pot i z).t / (I.lay i).mu) ^ 2) := by
  cases e : (I.lay i).liquid
  · have h := fun z => loveOut_val (S := S) (thk := thk) (iref := iref) (pot := pot) e (hm e) z
    simp only [fun z => (h z).1, fun z => (h z).2]
    constructor <;> fun_prop
  · simp only [loveOut_liquid e]
    constructor <;> exact continuous_const

theorem thin_step {I : ModeIn ℂ} {S : ℕ → SH ℂ} {thk dep : ℕ → ℝ} {iref : ℕ} {pot : ℂ × ℂ} {i : ℕ} (hk : I.k ≠ 0)
    (hm : (I.lay i).liquid = false → (I.lay i).mu ≠ 0 ∧ (I.lay i).xb ≠ 0) (h b : ℝ) (hb : h ≤ b) (j : ℕ) (z' : ℝ) (hz : z' = dep i + b)
    (t : List (ℕ × ℝ)) :
    thinL I thk dep (potUp I S iref pot) (potDown I S iref pot) ((i, dep i + h) :: (j, z') :: t) =
      (i, thinInt I S thk iref pot i h b) :: thinL I thk dep (potUp I S iref pot) (potDown I S iref pot) ((j, z') :: t) := by
  subst hz
  rw [thinL]
  congr 2
  have e1 : dep i + h - dep i = h := by ring
  have e2 : dep i + b - (dep i + h) = b - h := by ring
  cases e : (I.lay i).liquid
  · have := subL_int (S := S) (thk := thk) (iref := iref) (pot := pot) hk e (hm e).1 (hm e).2 h (b - h) (by linarith)
    have e3 : h + (b - h) = b := by ring
    rw [e3] at this
    simp only [Bool.false_eq_true, if_false, e1, e2]
    exact this
  · simp [thinInt, loveOut_liquid e]

/-- The thin layers of one layer: their integrals add up to those over the layer. -/
theorem thin_layer {I : ModeIn ℂ} {S : ℕ → SH ℂ} {thk dep : ℕ → ℝ} {iref : ℕ} {pot : ℂ × ℂ} {i : ℕ} (hk : I.k ≠ 0)
    (hm : (I.lay i).liquid = false → (I.lay i).mu ≠ 0 ∧ (I.lay i).xb ≠ 0) {dz : ℝ} (hd : 0 < dz) (j : ℕ) (z' : ℝ)
    (hz : z' = dep i + thk i) (t : List (ℕ × ℝ)) (n : ℕ) : ∀ h x hs, tops (thk i) dz n h = x :: hs →
    ∃ A : List (ℕ × (ℂ × ℂ)), thinL I thk dep (potUp I S iref pot) (potDown I S iref pot)
        ((tops (thk i) dz n h).map (fun h => (i, dep i + h)) ++ (j, z') :: t) =
        A ++ thinL I thk dep (potUp I S iref pot) (potDown I S iref pot) ((j, z') :: t) ∧
      (∀ p ∈ A, p.1 = i) ∧ (A.map fun p => p.2.1).sum = (thinInt I S thk iref pot i h (thk i)).1 ∧
      (A.map fun p => p.2.2).sum = (thinInt I S thk iref pot i h (thk i)).2 := by
  have hc := loveOut_cont (S := S) (thk := thk) (iref := iref) (pot := pot) (fun e => (hm e).1)
  induction n with
  | zero => intro h x hs e; cases e
  | succ n ih =>
    intro h x hs e
    obtain ⟨rfl, hlt, m, hm', rfl⟩ := tops_cons e
    obtain rfl : n = m := by omega
    rw [e]
    cases e2 : tops (thk i) dz n (x + dz) with
    | nil =>
      refine ⟨[(i, thinInt I S thk iref pot i x (thk i))], ?_, by simp, by simp, by simp⟩
      simp only [List.map_cons, List.map_nil, List.cons_append, List.nil_append]
      exact thin_step hk hm x (thk i) hlt.le j z' hz t
    | cons y ys =>
      obtain ⟨A, a1, a2, a3, a4⟩ := ih (x + dz) y ys e2
      obtain ⟨rfl, -, -, -, -⟩ := tops_cons e2
      rw [e2] at a1
      refine ⟨(i, thinInt I S thk iref pot i x (x + dz)) :: A, ?_, ?_, ?_, ?_⟩
      · simp only [List.map_cons, List.cons_append] at a1 ⊢
        rw [thin_step hk hm x (x + dz) (by linarith) i _ rfl, a1]
      · intro p hp
        rcases List.mem_cons.1 hp with rfl | hp
        · rfl
        · exact a2 p hp
      · rw [List.map_cons, List.sum_cons, a3]
        exact intervalIntegral.integral_add_adjacent_intervals (hc.1.intervalIntegrable _ _) (hc.1.intervalIntegrable _ _)
      · rw [List.map_cons, List.sum_cons, a4]
        exact intervalIntegral.integral_add_adjacent_intervals (hc.2.intervalIntegrable _ _) (hc.2.intervalIntegrable _ _)

theorem sum_weight (w : ℕ → ℂ) (i : ℕ) (A : List (ℕ × (ℂ × ℂ))) (h : ∀ p ∈ A, p.1 = i) (g : ℂ × ℂ → ℂ) :
    (A.map fun p => w p.1 * g p.2).sum = w i * (A.map fun p => g p.2).sum := by
  induction A with
  | nil => simp
  | cons a A ih =>
    simp only [List.map_cons, List.sum_cons]
    rw [ih (fun p hp => h p (List.mem_cons_of_mem _ hp)), h a List.mem_cons_self]
    ring

/-- All layers: for any weight `w` constant in each layer. -/
theorem thin_all {I : ModeIn ℂ} {S : ℕ → SH ℂ} {m : ℕ → Medium ℂ} {thk dep : ℕ → ℝ} (hI : Describes I S m thk) {iref : ℕ} {pot : ℂ × ℂ}
    (h2 : 1 ≤ I.nlay) (hdep : ∀ i, dep (i+1) = dep i + thk i) (hthk : ∀ i, i + 1 < I.nlay → 0 < thk i) (cdz : ℝ) (hc : 0 ≤ cdz)
    (hfine : ∀ i, i + 1 < I.nlay → cdz * (1 / 100000) ≤ thk i) (fuel : ℕ) (hf : 1 ≤ fuel) (w : ℕ → ℂ) :
    let l := thinL I thk dep (potUp I S iref pot) (potDown I S iref pot) (thinLayers I.nlay thk dep cdz fuel)
    (l.map fun p => w p.1 * p.2.1).sum = depthInt I.nlay thk (fun i z => w i * (loveOut I S thk iref pot i z).v ^ 2) ∧
    (l.map fun p => w p.1 * p.2.2).sum =
      depthInt I.nlay thk (fun i z => w i * ((loveOut I S thk iref pot i z).t / (I.lay i).mu) ^ 2) := by
  have hk := hI.k0
  have hmm : ∀ i, i < I.nlay → (I.lay i).liquid = false → (I.lay i).mu ≠ 0 ∧ (I.lay i).xb ≠ 0 := by
    intro i hi e
    exact ⟨by rw [(hI.fits i hi).mu]; exact ((hI.fits i hi).sol e).1, hI.xb0 i hi e⟩
  set T := thinL I thk dep (potUp I S iref pot) (potDown I S iref pot)
  set g : ℕ → List (ℕ × ℝ) := fun i => (tops (thk i) (if cdz = 0 then thk i else cdz) fuel 0).map fun h => (i, dep i + h)
  have key : ∀ r j, j + r = I.nlay - 1 →
      ((T ((List.range' j r).flatMap g ++ [(I.nlay - 1, dep (I.nlay - 1) + 0)])).map fun p => w p.1 * p.2.1).sum =
        (∑ i ∈ Finset.range r, w (j+i) * ∫ z in (0:ℝ)..thk (j+i), (loveOut I S thk iref pot (j+i) z).v ^ 2) +
        w (I.nlay-1) * ∫ z in Set.Ioi (0:ℝ), (loveOut I S thk iref pot (I.nlay-1) z).v ^ 2 ∧
      ((T ((List.range' j r).flatMap g ++ [(I.nlay - 1, dep (I.nlay - 1) + 0)])).map fun p => w p.1 * p.2.2).sum =
        (∑ i ∈ Finset.range r, w (j+i) * ∫ z in (0:ℝ)..thk (j+i), ((loveOut I S thk iref pot (j+i) z).t / (I.lay (j+i)).mu) ^ 2) +
        w (I.nlay-1) * ∫ z in Set.Ioi (0:ℝ), ((loveOut I S thk iref pot (I.nlay-1) z).t / (I.lay (I.nlay-1)).mu) ^ 2 := by
    intro r
    induction r with
    | zero =>
      intro j hj
      have hn : I.nlay - 1 < I.nlay := by omega
      have hu : potUp I S iref pot (I.nlay - 1 + 1) = (0, 0) := by unfold potUp; rw [if_pos (by omega)]
      simp only [List.range'_zero, List.flatMap_nil, List.nil_append, Finset.range_zero, Finset.sum_empty, zero_add]
      simp only [T, thinL, List.map_cons, List.map_nil, List.sum_cons, List.sum_nil, add_zero, sub_self]
      cases e : (I.lay (I.nlay-1)).liquid
      · have := subL_half (S := S) (thk := thk) (iref := iref) (pot := pot) e (hmm _ hn e).1 hu (hI.trapped e)
        simp only [Bool.false_eq_true, if_false]
        rw [this]
        exact ⟨rfl, rfl⟩
      · simp [loveOut_liquid e]
    | succ r ih =>
      intro j hj
      obtain ⟨i1, i2⟩ := ih (j+1) (by omega)
      rw [List.range'_succ, List.flatMap_cons, List.append_assoc]
      have hj1 : j + 1 < I.nlay := by omega
      -- the rest begins at the bottom of layer `j`
      obtain ⟨a, t, hR⟩ : ∃ a t, (List.range' (j+1) r).flatMap g ++ [(I.nlay - 1, dep (I.nlay - 1) + 0)] = (a, dep (j+1) + 0) :: t := by
        cases r with
        | zero =>
          have : I.nlay - 1 = j + 1 := by omega
          rw [this]
          exact ⟨_, _, rfl⟩
        | succ r =>
          have : ∃ t, tops (thk (j+1)) (if cdz = 0 then thk (j+1) else cdz) fuel 0 = 0 :: t := by
            have h1 := hthk (j+1) (by omega)
            refine tops_ne h1 ?_ hf
            split
            · linarith
            · exact hfine (j+1) (by omega)
          obtain ⟨t, ht⟩ := this
          rw [List.range'_succ, List.flatMap_cons]
          simp only [g, ht, List.map_cons, List.cons_append]
          exact ⟨_, _, rfl⟩
      have h1 := hthk j hj1
      obtain ⟨t0, ht0⟩ : ∃ t, tops (thk j) (if cdz = 0 then thk j else cdz) fuel 0 = 0 :: t := by
        refine tops_ne h1 ?_ hf
        split
        · linarith
        · exact hfine j hj1
      have hd : 0 < (if cdz = 0 then thk j else cdz) := by
        split
        · exact h1
        · rename_i c; exact lt_of_le_of_ne hc (Ne.symm c)
      obtain ⟨A, a1, a2, a3, a4⟩ := thin_layer (S := S) (iref := iref) (pot := pot) (dep := dep) hk (hmm j (by omega)) hd a (dep (j+1) + 0)
        (by rw [hdep]; ring) t fuel 0 0 t0 ht0
      rw [hR] at i1 i2 ⊢
      have a1' : T (g j ++ (a, dep (j+1) + 0) :: t) = A ++ T ((a, dep (j+1) + 0) :: t) := a1
      rw [a1', List.map_append, List.map_append, List.sum_append, List.sum_append, i1, i2, sum_weight w j A a2 (fun q => q.1),
        sum_weight w j A a2 (fun q => q.2), a3, a4, Finset.sum_range_succ', Finset.sum_range_succ']
      constructor
      · simp only [thinInt, add_zero]
        rw [show ∀ x y z : ℂ, x + (y + z) = y + x + z from fun x y z => by ring]
        congr 3
        funext i
        rw [show j + 1 + i = j + (i + 1) by omega]
      · simp only [thinInt, add_zero]
        rw [show ∀ x y z : ℂ, x + (y + z) = y + x + z from fun x y z => by ring]
        congr 3
        funext i
        rw [show j + 1 + i = j + (i + 1) by omega]
  have := key (I.nlay - 1) 0 (by omega)
  simp only [zero_add] at this
  intro l
  have hl : l = T ((List.range' 0 (I.nlay - 1)).flatMap g ++ [(I.nlay - 1, dep (I.nlay - 1) + 0)]) := by
    rw [← List.range_eq_range']; rfl
  rw [hl, this.1, this.2]
  constructor
  · simp only [depthInt, intervalIntegral.integral_const_mul, integral_const_mul]
  · simp only [depthInt, intervalIntegral.integral_const_mul, integral_const_mul]

/-- C78: the energy integrals of a Love mode are the integrals over the whole half-space of `ρv²/2`, `μv²/2` and `μv'²/2` of the
eigenfunction written by the program, whatever thin layers are used. -/
theorem C78_love {I : ModeIn ℂ} {S : ℕ → SH ℂ} {m : ℕ → Medium ℂ} {thk dep : ℕ → ℝ} (hI : Describes I S m thk) {iref : ℕ} {pot : ℂ × ℂ}
    (h2 : 1 ≤ I.nlay) (hdep : ∀ i, dep (i+1) = dep i + thk i) (hthk : ∀ i, i + 1 < I.nlay → 0 < thk i) (cdz : ℝ) (hc : 0 ≤ cdz)
    (hfine : ∀ i, i + 1 < I.nlay → cdz * (1 / 100000) ≤ thk i) (fuel : ℕ) (hf : 1 ≤ fuel) :
    let v := fun i z => (loveOut I S thk iref pot i z).v
    let dv := fun i z => (loveOut I S thk iref pot i z).t / (m i).mu
    egyL I (thinL I thk dep (potUp I S iref pot) (potDown I S iref pot) (thinLayers I.nlay thk dep cdz fuel)) =
      (depthInt I.nlay thk (fun i z => 1/2 * (m i).rho * v i z ^ 2), depthInt I.nlay thk (fun i z => 1/2 * (m i).mu * v i z ^ 2),
        depthInt I.nlay thk (fun i z => 1/2 * (m i).mu * dv i z ^ 2)) := by
  intro v dv
  have A := fun w => thin_all (S := S) hI (iref := iref) (pot := pot) h2 hdep hthk cdz hc hfine fuel hf w
  have P : ∀ f g : ℕ → ℝ → ℂ, (∀ i, i < I.nlay → f i = g i) → depthInt I.nlay thk f = depthInt I.nlay thk g := by
    intro f g hfg
    unfold depthInt
    rw [hfg _ (show I.nlay - 1 < I.nlay by omega)]
    congr 1
    refine Finset.sum_congr rfl fun i hi => ?_
    rw [hfg i (by have := Finset.mem_range.1 hi; omega)]
  unfold egyL
  rw [(A fun i => 1/2 * (I.lay i).rho).1, (A fun i => 1/2 * (I.lay i).mu).1, (A fun i => 1/2 * (I.lay i).mu).2]
  refine Prod.ext (P _ _ fun i hi => ?_) (Prod.ext (P _ _ fun i hi => ?_) (P _ _ fun i hi => ?_))
  · funext z; rw [(hI.fits i hi).rho]
  · funext z; rw [(hI.fits i hi).mu]
  · funext z; simp only [dv]; rw [(hI.fits i hi).mu]

/-- A case: the mode of `exLoveI` with thin layers of 0.1. -/
example : (egyL exLoveI (thinL exLoveI (fun _ => Real.pi / 4) (fun i => i * (Real.pi / 4)) (potUp exLoveI exLoveS 0 (1, 1))
      (potDown exLoveI exLoveS 0 (1, 1)) (thinLayers 2 (fun _ => Real.pi / 4) (fun i => i * (Real.pi / 4)) (1/10) 8))).1 =
    depthInt 2 (fun _ => Real.pi / 4) (fun i z => 1/2 * (exLoveM i).rho * (loveOut exLoveI exLoveS (fun _ => Real.pi / 4) 0 (1, 1) i z).v ^ 2) := by
  have hp := Real.two_le_pi
  have := C78_love exLove_describes (iref := 0) (pot := (1, 1)) (dep := fun i => i * (Real.pi / 4)) (by decide)
    (fun i => by push_cast; ring) (fun _ _ => by linarith) (1/10) (by norm_num) (fun _ _ => by linarith) 8 (by norm_num)
  exact congrArg Prod.fst this

/-! ### Layers left out -/

/-- C79 violated: a layer thinner than a hundred-thousandth of the step gets no thin layer. -/
theorem C79_thin_violated (n : ℕ) (thk dep : ℕ → ℝ) (cdz : ℝ) (fuel : ℕ) (i : ℕ) (hi : i + 1 < n) (h0 : 0 < thk i)
    (h : thk i < cdz * (1 / 100000)) : ∀ p ∈ thinLayers n thk dep cdz fuel, p.1 ≠ i := by
  have hc : cdz ≠ 0 := by rintro rfl; linarith
  have ht : tops (thk i) cdz fuel 0 = [] := by
    cases fuel with
    | zero => rfl
    | succ m =>
      simp only [tops]
      rw [if_neg]
      rw [sub_zero, abs_of_pos h0]
      exact fun c => c.2 h
  intro p hp e
  simp only [thinLayers, if_neg hc, List.mem_append, List.mem_flatMap, List.mem_map, List.mem_singleton] at hp
  rcases hp with ⟨j, hj, a, ha, rfl⟩ | rfl
  · dsimp only at e
    subst e
    rw [ht] at ha
    cases ha
  · dsimp only at e; omega

/-- A case: half a metre under a step of 60 km. -/
example : ∀ p ∈ thinLayers 2 (fun _ => 1/2000) (fun i => i * (1/2000)) 60 5, p.1 ≠ 0 :=
  C79_thin_violated 2 _ _ 60 5 0 (by norm_num) (by norm_num) (by norm_num)

/-- C79: otherwise every layer has a thin layer, and every thin layer lies in its layer. -/
theorem C79_thin_partial (n : ℕ) (thk dep : ℕ → ℝ) (cdz : ℝ) (hc : 0 ≤ cdz) (fuel : ℕ) (hf : 1 ≤ fuel) (i : ℕ) (hi : i + 1 < n) (h0 : 0 < thk i)
    (h : cdz * (1 / 100000) ≤ thk i) :
    (i, dep i) ∈ thinLayers n thk dep cdz fuel ∧
    ∀ p ∈ thinLayers n thk dep cdz fuel, p.1 = i → dep i ≤ p.2 ∧ p.2 < dep i + thk i := by
  have hd : 0 < (if cdz = 0 then thk i else cdz) := by
    split
    · exact h0
    · rename_i c; exact lt_of_le_of_ne hc (Ne.symm c)
  have hin : ∀ n h, 0 ≤ h → ∀ x ∈ tops (thk i) (if cdz = 0 then thk i else cdz) n h, 0 ≤ x ∧ x < thk i := by
    generalize (if cdz = 0 then thk i else cdz) = dz at hd
    intro n
    induction n with
    | zero => intro h _ x hx; cases hx
    | succ n ih =>
      intro h hh x hx
      rw [tops] at hx
      split at hx
      · rename_i c
        rcases List.mem_cons.1 hx with rfl | hx
        · exact ⟨hh, c.1⟩
        · exact ih _ (by linarith) x hx
      · cases hx
  constructor
  · obtain ⟨t, ht⟩ := tops_ne (dz := if cdz = 0 then thk i else cdz) h0 (by split <;> linarith) hf
    refine List.mem_append_left _ (List.mem_flatMap.2 ⟨i, List.mem_range.2 (by omega), ?_⟩)
    rw [ht]
    simp
  · intro p hp e
    simp only [thinLayers, List.mem_append, List.mem_flatMap, List.mem_map, List.mem_singleton] at hp
    rcases hp with ⟨j, hj, a, ha, rfl⟩ | rfl
    · dsimp only at e
      subst e
      obtain ⟨h1, h2⟩ := hin _ 0 le_rfl a ha
      exact ⟨by dsimp only; linarith, by dsimp only; linarith⟩
    · dsimp only at e; omega

/-- A case: 0.5 under a step of 0.2. -/
example : (0, 0) ∈ thinLayers 2 (fun _ => 1/2) (fun i => i * (1/2)) (1/5) 5 := by
  have := (C79_thin_partial 2 (fun _ => 1/2) (fun i => i * (1/2)) (1/5) (by norm_num) 5 (by norm_num) 0 (by norm_num) (by norm_num) (by norm_num)).1
  simpa using this

end GRT.Modal
