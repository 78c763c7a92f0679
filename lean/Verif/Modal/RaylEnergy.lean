import Verif.Modal.RaylMode
import Verif.Modal.Energy

/-! Energy integrals of Rayleigh modes (energy.c).  C88. -/

set_option linter.unusedSectionVars false

namespace GRT.Modal

open GRT.RT GRT.Layer GRT.Kernel Filter Complex MeasureTheory Matrix

/-- `_solve_typical_integral_Rayl`, energy.c 38-100; `p` are the amplitudes (up P, up S, down P, down S), a negative thickness stands
for infinity. -/
noncomputable def typR (k : ℂ) (H : ℝ) (xa xb : ℂ) (M : Matrix (Fin 4) (Fin 4) ℂ) (p : Fin 4 → ℂ) : ℂ :=
  let exa := if 0 ≤ H then exp (-k * H * xa) else 0
  let exb := if 0 ≤ H then exp (-k * H * xb) else 0
  let ex2a := exa * exa
  let ex2b := exb * exb
  let exab := exa * exb
  let a := k * xa
  let b := k * xb
  let same := fun c11 c12 c21 c22 x1 x2 y1 y2 : ℂ =>
    1/2 * c11 * x1 * y1 / a * (1 - ex2a) + 1/2 * c22 * x2 * y2 / b * (1 - ex2b) + (c21 * x2 * y1 + c12 * x1 * y2) / (a + b) * (1 - exab)
  let cross := fun c11 c12 c21 c22 x1 x2 y1 y2 : ℂ =>
    H * (c11 * x1 * y1 * exa + c22 * x2 * y2 * exb) + 1 / (a - b) * (exb - exa) * (c12 * x1 * y2 + c21 * x2 * y1)
  same (M 0 0) (M 0 1) (M 1 0) (M 1 1) (p 0) (p 1) (p 0) (p 1) + same (M 2 2) (M 2 3) (M 3 2) (M 3 3) (p 2) (p 3) (p 2) (p 3)
    + cross (M 0 2) (M 0 3) (M 1 2) (M 1 3) (p 0) (p 1) (p 2) (p 3) + cross (M 2 0) (M 2 1) (M 3 0) (M 3 1) (p 2) (p 3) (p 0) (p 1)

/-- `D2x4`, energy.c 179-186: two blocks side by side. -/
def side (A B : Mat2 ℂ) : Matrix (Fin 2) (Fin 4) ℂ := !![A 0 0, A 0 1, B 0 0, B 0 1; A 1 0, A 1 1, B 1 0, B 1 1]

/-- `energy_integrals_single_layer_Rayl`, energy.c 161-232: integrals of `q²`, `w²`, `q w'`, `w q'`, `q'²` and `w'²`. -/
noncomputable def subR (k : ℂ) (l : Lay ℂ) (H : ℝ) (p : Fin 4 → ℂ) : Fin 6 → ℂ :=
  let D := side (D11 k l) (D12 k l)
  let Dz := side (D11z k l) (D12z k l)
  let one := fun a b c d : ℂ => (!![a, b; c, d] : Mat2 ℂ)
  ![typR k H l.xa l.xb (Dᵀ * one 1 0 0 0 * D) p, typR k H l.xa l.xb (Dᵀ * one 0 0 0 1 * D) p,
    typR k H l.xa l.xb (Dᵀ * one 0 1 0 0 * Dz) p, typR k H l.xa l.xb (Dᵀ * one 0 0 1 0 * Dz) p,
    typR k H l.xa l.xb (Dzᵀ * one 1 0 0 0 * Dz) p, typR k H l.xa l.xb (Dzᵀ * one 0 0 0 1 * Dz) p]

/-- The loop over thin layers of `grt_energy_integrals_Rayl`, energy.c 358-399, for a list of (layer, depth of the top): the
integrals of each thin layer.  `dep` are the depths of the tops of the layers. -/
noncomputable def thinR (I : ModeIn ℂ) (thk dep : ℕ → ℝ) (up dn : ℕ → Amp4 ℂ) : List (ℕ × ℝ) → List (ℕ × (Fin 6 → ℂ))
  | [] => []
  | [(i, z)] =>
    let h := z - dep i
    [(i, subR I.k (I.lay i) (-1) ![0 * (up (i+1)).up 0, 0 * (up (i+1)).up 1,
      exp (-I.k * (I.lay i).xa * h) * (dn i).dn 0, exp (-I.k * (I.lay i).xb * h) * (dn i).dn 1])]
  | (i, z) :: (j, z') :: t =>
    let h := z - dep i
    let dz := z' - z
    (i, subR I.k (I.lay i) dz ![exp (-I.k * (I.lay i).xa * (thk i - h - dz)) * (up (i+1)).up 0,
      exp (-I.k * (I.lay i).xb * (thk i - h - dz)) * (up (i+1)).up 1,
      exp (-I.k * (I.lay i).xa * h) * (dn i).dn 0, exp (-I.k * (I.lay i).xb * h) * (dn i).dn 1]) :: thinR I thk dep up dn ((j, z') :: t)

/-- `egyint[0..3]`, energy.c 401-408; `lam` is `mstat->lambda`. -/
noncomputable def egyR (I : ModeIn ℂ) (lam : ℕ → ℂ) (l : List (ℕ × (Fin 6 → ℂ))) : ℂ × ℂ × ℂ × ℂ :=
  ((l.map fun p => 1/2 * (I.lay p.1).rho * (p.2 0 + p.2 1)).sum,
   (l.map fun p => 1/2 * ((lam p.1 + 2 * (I.lay p.1).mu) * p.2 0 + (I.lay p.1).mu * p.2 1)).sum,
   (l.map fun p => lam p.1 * p.2 2 - (I.lay p.1).mu * p.2 3).sum,
   (l.map fun p => 1/2 * ((I.lay p.1).mu * p.2 4 + (lam p.1 + 2 * (I.lay p.1).mu) * p.2 5)).sum)

/-! ### Products of two waves -/

/-- The four waves of a layer of thickness `T`. -/
noncomputable def wavR (a b : ℂ) (T z : ℝ) : Fin 4 → ℂ := ![exp (-a * (T - z)), exp (-b * (T - z)), exp (-a * z), exp (-b * z)]

theorem wavR_cont (a b : ℂ) (T : ℝ) (j : Fin 4) : Continuous fun z => wavR a b T z j := by
  fin_cases j <;> (simp [wavR]; fun_prop)

theorem int_of {f : ℝ → ℂ} {c e : ℂ} (hc : c ≠ 0) (hf : ∀ z : ℝ, f z = exp (c * z + e)) (x y : ℝ) :
    ∫ z in x..y, f z = (f y - f x) / c := by
  have hd : ∀ z : ℝ, HasDerivAt (fun z : ℝ => 1 / c * exp (c * z + e)) (f z) z := by
    intro z
    refine ((expz c e z).const_mul (1 / c)).congr_deriv ?_
    rw [hf]; field_simp
  have hcn : Continuous f := by rw [show f = fun z : ℝ => exp (c * z + e) from funext hf]; fun_prop
  rw [intervalIntegral.integral_eq_sub_of_hasDerivAt (fun z _ => hd z) (hcn.intervalIntegrable _ _)]
  rw [hf, hf]; ring

theorem uu (p r : ℂ) (h0 : p + r ≠ 0) (T h H : ℝ) : ∫ z in h..(h + H), exp (-p * (T - z)) * exp (-r * (T - z)) =
    exp (-p * (T - h - H)) * exp (-r * (T - h - H)) * (1 - exp (-p * H) * exp (-r * H)) / (p + r) := by
  rw [int_of (f := fun z : ℝ => exp (-p * (T - z)) * exp (-r * (T - z))) (c := p + r) (e := -(p + r) * T) h0
    (fun z => by rw [← Complex.exp_add]; congr 1; ring)]
  congr 1
  simp only [← Complex.exp_add, mul_sub, mul_one]
  congr 1 <;> congr 1 <;> push_cast <;> ring

theorem dd (p r : ℂ) (h0 : p + r ≠ 0) (h H : ℝ) : ∫ z in h..(h + H), exp (-p * z) * exp (-r * z) =
    exp (-p * h) * exp (-r * h) * (1 - exp (-p * H) * exp (-r * H)) / (p + r) := by
  rw [int_of (f := fun z : ℝ => exp (-p * z) * exp (-r * z)) (c := -(p + r)) (e := 0) (neg_ne_zero.2 h0)
    (fun z => by rw [← Complex.exp_add]; congr 1; ring), div_neg, ← neg_div]
  congr 1
  simp only [← Complex.exp_add, mul_sub, mul_one, neg_sub]
  congr 1 <;> congr 1 <;> push_cast <;> ring

theorem ud (p r : ℂ) (h0 : p - r ≠ 0) (T h H : ℝ) : ∫ z in h..(h + H), exp (-p * (T - z)) * exp (-r * z) =
    exp (-p * (T - h - H)) * exp (-r * h) * (exp (-r * H) - exp (-p * H)) / (p - r) := by
  rw [int_of (f := fun z : ℝ => exp (-p * (T - z)) * exp (-r * z)) (c := p - r) (e := -p * T) h0
    (fun z => by rw [← Complex.exp_add]; congr 1; ring)]
  congr 1
  simp only [← Complex.exp_add, mul_sub]
  congr 1 <;> congr 1 <;> push_cast <;> ring

theorem ud_same (p : ℂ) (T h H : ℝ) : ∫ z in h..(h + H), exp (-p * (T - z)) * exp (-p * z) =
    H * (exp (-p * (T - h - H)) * exp (-p * h) * exp (-p * H)) := by
  have : (fun z : ℝ => exp (-p * (T - z)) * exp (-p * z)) = fun _ => exp (-p * (T - h - H)) * exp (-p * h) * exp (-p * H) := by
    funext z
    simp only [← Complex.exp_add]
    congr 1; ring
  rw [this, intervalIntegral.integral_const, add_sub_cancel_left, real_smul]

/-- The integral of the product of two sums of waves over a thin layer. -/
theorem typR_int {k xa xb : ℂ} (ha : k * xa ≠ 0) (hb : k * xb ≠ 0) (hp : k * xa + k * xb ≠ 0) (hm : k * xa - k * xb ≠ 0)
    (α β P : Fin 4 → ℂ) (T h H : ℝ) (hH : 0 ≤ H) :
    ∫ z in h..(h + H), (∑ i, α i * (P i * wavR (k * xa) (k * xb) T z i)) * (∑ j, β j * (P j * wavR (k * xa) (k * xb) T z j)) =
      typR k H xa xb (Matrix.of fun i j => α i * β j) ![exp (-k * xa * (T - h - H)) * P 0, exp (-k * xb * (T - h - H)) * P 1,
        exp (-k * xa * h) * P 2, exp (-k * xb * h) * P 3] := by
  have e0 : (fun z : ℝ => (∑ i, α i * (P i * wavR (k * xa) (k * xb) T z i)) * (∑ j, β j * (P j * wavR (k * xa) (k * xb) T z j))) =
      fun z => ∑ i, ∑ j, (α i * β j * P i * P j) * (wavR (k * xa) (k * xb) T z i * wavR (k * xa) (k * xb) T z j) := by
    funext z
    rw [Finset.sum_mul_sum]
    refine Finset.sum_congr rfl fun i _ => Finset.sum_congr rfl fun j _ => by ring
  have hc : ∀ i j, Continuous fun z => (α i * β j * P i * P j) * (wavR (k * xa) (k * xb) T z i * wavR (k * xa) (k * xb) T z j) :=
    fun i j => continuous_const.mul ((wavR_cont _ _ _ i).mul (wavR_cont _ _ _ j))
  rw [e0, intervalIntegral.integral_finsetSum
    (fun i _ => (continuous_finsetSum _ fun j _ => hc i j).intervalIntegrable _ _)]
  simp only [intervalIntegral.integral_finsetSum (fun j _ => (hc _ j).intervalIntegrable _ _), intervalIntegral.integral_const_mul]
  set a := k * xa with had
  set b := k * xb with hbd
  have ha2 : a + a ≠ 0 := by rw [← two_mul]; exact mul_ne_zero two_ne_zero ha
  have hb2 : b + b ≠ 0 := by rw [← two_mul]; exact mul_ne_zero two_ne_zero hb
  have hm' : b - a ≠ 0 := by intro q; apply hm; rw [← neg_sub, q, neg_zero]
  have hp' : b + a ≠ 0 := by rwa [add_comm]
  have com : ∀ f g : ℝ → ℂ, ∫ z in h..(h+H), f z * g z = ∫ z in h..(h+H), g z * f z := fun f g => by
    congr 1; funext z; exact mul_comm _ _
  have J20 := (com (fun z => exp (-a * z)) (fun z => exp (-a * (T - z)))).trans (ud_same a T h H)
  have J31 := (com (fun z => exp (-b * z)) (fun z => exp (-b * (T - z)))).trans (ud_same b T h H)
  have J30 := (com (fun z => exp (-b * z)) (fun z => exp (-a * (T - z)))).trans (ud a b hm T h H)
  have J21 := (com (fun z => exp (-a * z)) (fun z => exp (-b * (T - z)))).trans (ud b a hm' T h H)
  simp only [Fin.sum_univ_four, wavR, Matrix.cons_val_zero, Matrix.cons_val_one, Matrix.cons_val]
  rw [uu a a ha2, uu a b hp, uu b a hp', uu b b hb2, dd a a ha2, dd a b hp, dd b a hp', dd b b hb2, ud_same a, ud_same b, ud a b hm,
    ud b a hm', J20, J31, J30, J21]
  have x1 : exp (-k * xa * (T - h - H)) = exp (-a * (T - h - H)) := by rw [had]; congr 1; ring
  have x2 : exp (-k * xa * h) = exp (-a * h) := by rw [had]; congr 1; ring
  have x3 : exp (-k * H * xa) = exp (-a * H) := by rw [had]; congr 1; ring
  have y1 : exp (-k * xb * (T - h - H)) = exp (-b * (T - h - H)) := by rw [hbd]; congr 1; ring
  have y2 : exp (-k * xb * h) = exp (-b * h) := by rw [hbd]; congr 1; ring
  have y3 : exp (-k * H * xb) = exp (-b * H) := by rw [hbd]; congr 1; ring
  simp only [typR, if_pos hH, x1, x2, x3, y1, y2, y3, ← had, ← hbd, Matrix.cons_val_zero, Matrix.cons_val_one, Matrix.cons_val]
  have z1 : b - a = -(a - b) := by ring
  rw [z1, add_comm b a, ← two_mul a, ← two_mul b]
  simp only [Matrix.of_apply]
  generalize a - b = d
  generalize a + b = s
  generalize exp (-a * (T - h - H)) = E1
  generalize exp (-b * (T - h - H)) = E2
  generalize exp (-a * h) = E3
  generalize exp (-b * h) = E4
  generalize exp (-a * H) = E5
  generalize exp (-b * H) = E6
  ring

theorem half_int {c : ℂ} (hc : 0 < c.re) : IntegrableOn (fun z : ℝ => exp (-c * z)) (Set.Ioi 0) ∧
    ∫ z in Set.Ioi (0:ℝ), exp (-c * z) = 1 / c := by
  have hr : (-c).re < 0 := by simpa using hc
  refine ⟨integrableOn_exp_mul_complex_Ioi hr 0, ?_⟩
  rw [integral_exp_mul_complex_Ioi hr]
  simp

/-- The same over the half-space, where only downgoing waves are left. -/
theorem typR_half {k xa xb : ℂ} (ha : 0 < (k * xa).re) (hb : 0 < (k * xb).re)
    (α β P : Fin 4 → ℂ) (h0 : P 0 = 0) (h1 : P 1 = 0) (T : ℝ) :
    IntegrableOn (fun z : ℝ => (∑ i, α i * (P i * wavR (k * xa) (k * xb) T z i)) * (∑ j, β j * (P j * wavR (k * xa) (k * xb) T z j)))
      (Set.Ioi 0) ∧
    ∫ z in Set.Ioi (0:ℝ), (∑ i, α i * (P i * wavR (k * xa) (k * xb) T z i)) * (∑ j, β j * (P j * wavR (k * xa) (k * xb) T z j)) =
      typR k (-1) xa xb (Matrix.of fun i j => α i * β j) ![0 * P 0, 0 * P 1, exp (-k * xa * (0:ℝ)) * P 2, exp (-k * xb * (0:ℝ)) * P 3] := by
  set a := k * xa with had
  set b := k * xb with hbd
  have ha0 : a ≠ 0 := by intro e; rw [e] at ha; simp at ha
  have hb0 : b ≠ 0 := by intro e; rw [e] at hb; simp at hb
  have hab : 0 < (a + b).re := by rw [add_re]; linarith
  have ha2 : 0 < (2 * a).re := by simpa using ha
  have hb2 : 0 < (2 * b).re := by simpa using hb
  have hab0 : a + b ≠ 0 := by intro e; rw [e] at hab; simp at hab
  obtain ⟨i1, v1⟩ := half_int ha2
  obtain ⟨i2, v2⟩ := half_int hb2
  obtain ⟨i3, v3⟩ := half_int hab
  have e0 : (fun z : ℝ => (∑ i, α i * (P i * wavR a b T z i)) * (∑ j, β j * (P j * wavR a b T z j))) =
      fun z : ℝ => (α 2 * β 2 * P 2 * P 2) * exp (-(2 * a) * z) + (α 3 * β 3 * P 3 * P 3) * exp (-(2 * b) * z)
        + (α 2 * β 3 * P 2 * P 3 + α 3 * β 2 * P 3 * P 2) * exp (-(a + b) * z) := by
    funext z
    simp only [Fin.sum_univ_four, wavR, Matrix.cons_val_zero, Matrix.cons_val_one, Matrix.cons_val, h0, h1]
    have x1 : exp (-(2 * a) * z) = exp (-a * z) * exp (-a * z) := by rw [← Complex.exp_add]; congr 1; ring
    have x2 : exp (-(2 * b) * z) = exp (-b * z) * exp (-b * z) := by rw [← Complex.exp_add]; congr 1; ring
    have x3 : exp (-(a + b) * z) = exp (-a * z) * exp (-b * z) := by rw [← Complex.exp_add]; congr 1; ring
    rw [x1, x2, x3]; ring
  have i12 : IntegrableOn (fun z : ℝ => (α 2 * β 2 * P 2 * P 2) * exp (-(2 * a) * z) + (α 3 * β 3 * P 3 * P 3) * exp (-(2 * b) * z))
      (Set.Ioi 0) := (i1.const_mul _).add (i2.const_mul _)
  refine ⟨by rw [e0]; exact i12.add (i3.const_mul _), ?_⟩
  rw [e0, integral_add i12 (i3.const_mul _), integral_add (i1.const_mul _) (i2.const_mul _),
    integral_const_mul, integral_const_mul, integral_const_mul, v1, v2, v3]
  have : ¬ ((0:ℝ) ≤ -1) := by norm_num
  simp only [typR, if_neg this, Matrix.of_apply, ← had, ← hbd, h0, h1, Matrix.cons_val_zero, Matrix.cons_val_one, Matrix.cons_val, ofReal_zero, mul_zero,
    exp_zero, one_mul]
  ring

/-- `typR_int`; in a liquid there are no S waves, and nothing depends on their vertical wavenumber. -/
theorem typR_int' {k xa xb : ℂ} (ha : k * xa ≠ 0) (α β P : Fin 4 → ℂ) (T h H : ℝ) (hH : 0 ≤ H)
    (hx : (k * xb ≠ 0 ∧ k * xa + k * xb ≠ 0 ∧ k * xa - k * xb ≠ 0) ∨ (α 1 = 0 ∧ α 3 = 0 ∧ β 1 = 0 ∧ β 3 = 0)) :
    ∫ z in h..(h + H), (∑ i, α i * (P i * wavR (k * xa) (k * xb) T z i)) * (∑ j, β j * (P j * wavR (k * xa) (k * xb) T z j)) =
      typR k H xa xb (Matrix.of fun i j => α i * β j) ![exp (-k * xa * (T - h - H)) * P 0, exp (-k * xb * (T - h - H)) * P 1,
        exp (-k * xa * h) * P 2, exp (-k * xb * h) * P 3] := by
  rcases hx with ⟨b0, b1, b2⟩ | ⟨h1, h3, g1, g3⟩
  · exact typR_int ha b0 b1 b2 α β P T h H hH
  · have t := typR_int (xb := 2 * xa) ha (by rw [mul_left_comm]; exact mul_ne_zero two_ne_zero ha)
      (by rw [show k * xa + k * (2 * xa) = 3 * (k * xa) by ring]; exact mul_ne_zero three_ne_zero ha)
      (by rw [show k * xa - k * (2 * xa) = -(k * xa) by ring]; exact neg_ne_zero.2 ha) α β P T h H hH
    have e : ∀ p q : Fin 4 → ℂ, p 0 = q 0 → p 2 = q 2 → typR k H xa xb (Matrix.of fun i j => α i * β j) p =
        typR k H xa (2 * xa) (Matrix.of fun i j => α i * β j) q := by
      intro p q p0 p2
      simp only [typR, Matrix.of_apply, h1, h3, g1, g3, p0, p2]
      ring
    refine Eq.trans ?_ (t.trans (e ![exp (-k * xa * (T - h - H)) * P 0, exp (-k * xb * (T - h - H)) * P 1,
        exp (-k * xa * h) * P 2, exp (-k * xb * h) * P 3] ![exp (-k * xa * (T - h - H)) * P 0, exp (-k * (2 * xa) * (T - h - H)) * P 1,
        exp (-k * xa * h) * P 2, exp (-k * (2 * xa) * h) * P 3] rfl rfl).symm)
    congr 1
    funext z
    simp only [Fin.sum_univ_four, wavR, Matrix.cons_val_zero, Matrix.cons_val_one, Matrix.cons_val, h1, h3, g1, g3]
    ring

/-! ### The eigenfunction as a sum of waves -/

/-- The four amplitudes the energy integrals of a layer start from, energy.c 371-372. -/
noncomputable def ampsR (I : ModeIn ℂ) (S : ℕ → PSV ℂ) (iref : ℕ) (p : Amp4 ℂ × Amp4 ℂ) (i : ℕ) : Fin 4 → ℂ :=
  ![(potUpR I S iref p (i+1)).up 0, (potUpR I S iref p (i+1)).up 1, (potDownR I S iref p i).dn 0, (potDownR I S iref p i).dn 1]

theorem raylOut_rows (I : ModeIn ℂ) (S : ℕ → PSV ℂ) (thk : ℕ → ℝ) (iref : ℕ) (p : Amp4 ℂ × Amp4 ℂ) (i : ℕ) (z : ℝ) :
    (raylOut I S thk iref p i z).q = ∑ j, side (D11 I.k (I.lay i)) (D12 I.k (I.lay i)) 0 j *
      (ampsR I S iref p i j * wavR (I.k * (I.lay i).xa) (I.k * (I.lay i).xb) (thk i) z j) ∧
    (raylOut I S thk iref p i z).w = ∑ j, side (D11 I.k (I.lay i)) (D12 I.k (I.lay i)) 1 j *
      (ampsR I S iref p i j * wavR (I.k * (I.lay i).xa) (I.k * (I.lay i).xb) (thk i) z j) := by
  simp only [raylOut, eigenfnR, mulV, side, ampsR, wavR, Fin.sum_univ_four, Matrix.of_apply, Matrix.cons_val_zero, Matrix.cons_val_one,
    Matrix.cons_val, neg_mul, Matrix.cons_val', Matrix.cons_val_fin_one]
  constructor <;> ring

theorem wavR_deriv (a b : ℂ) (T z : ℝ) (j : Fin 4) :
    HasDerivAt (fun z => wavR a b T z j) ((![a, b, -a, -b] : Fin 4 → ℂ) j * wavR a b T z j) z := by
  have u : ∀ c : ℂ, HasDerivAt (fun z : ℝ => exp (-c * (T - z))) (c * exp (-c * (T - z))) z := by
    intro c
    have := expz c (-c * T) z
    have e : ∀ z : ℝ, exp (-c * (T - z)) = exp (c * z + -c * T) := fun z => by congr 1; ring
    simp only [e]; exact this
  have d : ∀ c : ℂ, HasDerivAt (fun z : ℝ => exp (-c * z)) (-c * exp (-c * z)) z := by
    intro c
    have := expz (-c) 0 z
    simpa using this
  fin_cases j
  · exact u a
  · exact u b
  · exact d a
  · exact d b

theorem rows_deriv (k : ℂ) (l : Lay ℂ) (P : Fin 4 → ℂ) (T : ℝ) (r : Fin 2) (z : ℝ) :
    HasDerivAt (fun z => ∑ j, side (D11 k l) (D12 k l) r j * (P j * wavR (k * l.xa) (k * l.xb) T z j))
      (∑ j, side (D11z k l) (D12z k l) r j * (P j * wavR (k * l.xa) (k * l.xb) T z j)) z := by
  have := HasDerivAt.fun_sum (u := Finset.univ) fun (j : Fin 4) _ => ((wavR_deriv (k * l.xa) (k * l.xb) T z j).const_mul (P j)).const_mul (side (D11 k l) (D12 k l) r j)
  refine this.congr_deriv ?_
  cases e : l.liquid <;> fin_cases r <;>
    simp [side, D11, D12, D11z, D12z, e, Fin.sum_univ_four] <;> ring

/-- `q²`, `w²`, `q w'`, `w q'`, `q'²` and `w'²`. -/
noncomputable def densR (y : ℝ → MS ℂ) (z : ℝ) : Fin 6 → ℂ :=
  let q := fun z => (y z).q
  let w := fun z => (y z).w
  ![q z ^ 2, w z ^ 2, q z * deriv w z, w z * deriv q z, deriv q z ^ 2, deriv w z ^ 2]

theorem outer (D D' : Matrix (Fin 2) (Fin 4) ℂ) :
    Dᵀ * (!![1, 0; 0, 0] : Mat2 ℂ) * D' = Matrix.of (fun i j => D 0 i * D' 0 j) ∧
    Dᵀ * (!![0, 0; 0, 1] : Mat2 ℂ) * D' = Matrix.of (fun i j => D 1 i * D' 1 j) ∧
    Dᵀ * (!![0, 1; 0, 0] : Mat2 ℂ) * D' = Matrix.of (fun i j => D 0 i * D' 1 j) ∧
    Dᵀ * (!![0, 0; 1, 0] : Mat2 ℂ) * D' = Matrix.of (fun i j => D 1 i * D' 0 j) := by
  refine ⟨?_, ?_, ?_, ?_⟩ <;> ext i j <;> simp [Matrix.mul_apply, Fin.sum_univ_two]

theorem side_noS (k : ℂ) (l : Lay ℂ) (e : l.liquid = true) (r : Fin 2) :
    side (D11 k l) (D12 k l) r 1 = 0 ∧ side (D11 k l) (D12 k l) r 3 = 0 ∧
    side (D11z k l) (D12z k l) r 1 = 0 ∧ side (D11z k l) (D12z k l) r 3 = 0 := by
  fin_cases r <;> simp [side, D11, D12, D11z, D12z, e]

theorem dens_rows (I : ModeIn ℂ) (S : ℕ → PSV ℂ) (thk : ℕ → ℝ) (iref : ℕ) (p : Amp4 ℂ × Amp4 ℂ) (i : ℕ) :
    let f := fun (A : Matrix (Fin 2) (Fin 4) ℂ) (r : Fin 2) (z : ℝ) =>
      ∑ j, A r j * (ampsR I S iref p i j * wavR (I.k * (I.lay i).xa) (I.k * (I.lay i).xb) (thk i) z j)
    let D := side (D11 I.k (I.lay i)) (D12 I.k (I.lay i))
    let Dz := side (D11z I.k (I.lay i)) (D12z I.k (I.lay i))
    densR (raylOut I S thk iref p i) = fun z => ![f D 0 z * f D 0 z, f D 1 z * f D 1 z, f D 0 z * f Dz 1 z, f D 1 z * f Dz 0 z,
      f Dz 0 z * f Dz 0 z, f Dz 1 z * f Dz 1 z] := by
  intro f D Dz
  have hq : (fun z => (raylOut I S thk iref p i z).q) = f D 0 := funext fun z => (raylOut_rows I S thk iref p i z).1
  have hw : (fun z => (raylOut I S thk iref p i z).w) = f D 1 := funext fun z => (raylOut_rows I S thk iref p i z).2
  have dq : ∀ z, deriv (f D 0) z = f Dz 0 z := fun z => (rows_deriv I.k (I.lay i) (ampsR I S iref p i) (thk i) 0 z).deriv
  have dw : ∀ z, deriv (f D 1) z = f Dz 1 z := fun z => (rows_deriv I.k (I.lay i) (ampsR I S iref p i) (thk i) 1 z).deriv
  funext z
  simp only [densR, hq, hw, dq, dw, congrFun hq z, congrFun hw z, pow_two]

theorem dens_cont (I : ModeIn ℂ) (S : ℕ → PSV ℂ) (thk : ℕ → ℝ) (iref : ℕ) (p : Amp4 ℂ × Amp4 ℂ) (i : ℕ) (c : Fin 6) :
    Continuous fun z => densR (raylOut I S thk iref p i) z c := by
  rw [dens_rows]
  have F : ∀ (A : Matrix (Fin 2) (Fin 4) ℂ) (r : Fin 2), Continuous fun z : ℝ =>
      ∑ j, A r j * (ampsR I S iref p i j * wavR (I.k * (I.lay i).xa) (I.k * (I.lay i).xb) (thk i) z j) :=
    fun A r => continuous_finsetSum _ fun j _ => continuous_const.mul (continuous_const.mul (wavR_cont _ _ _ j))
  fin_cases c
  · exact (F _ _).mul (F _ _)
  · exact (F _ _).mul (F _ _)
  · exact (F _ _).mul (F _ _)
  · exact (F _ _).mul (F _ _)
  · exact (F _ _).mul (F _ _)
  · exact (F _ _).mul (F _ _)

/-- One thin layer above the half-space. -/
theorem subR_int {I : ModeIn ℂ} {S : ℕ → PSV ℂ} {thk : ℕ → ℝ} {iref : ℕ} {p : Amp4 ℂ × Amp4 ℂ} {i : ℕ}
    (ha : I.k * (I.lay i).xa ≠ 0) (hx : (I.lay i).liquid = false → I.k * (I.lay i).xb ≠ 0 ∧
      I.k * (I.lay i).xa + I.k * (I.lay i).xb ≠ 0 ∧ I.k * (I.lay i).xa - I.k * (I.lay i).xb ≠ 0) (h H : ℝ) (hH : 0 ≤ H) :
    subR I.k (I.lay i) H ![exp (-I.k * (I.lay i).xa * (thk i - h - H)) * (potUpR I S iref p (i+1)).up 0,
      exp (-I.k * (I.lay i).xb * (thk i - h - H)) * (potUpR I S iref p (i+1)).up 1,
      exp (-I.k * (I.lay i).xa * h) * (potDownR I S iref p i).dn 0, exp (-I.k * (I.lay i).xb * h) * (potDownR I S iref p i).dn 1] =
      fun c => ∫ z in h..(h + H), densR (raylOut I S thk iref p i) z c := by
  rw [dens_rows]
  have hs : ∀ A B : Matrix (Fin 2) (Fin 4) ℂ, ∀ r s, ((I.lay i).liquid = true → A r 1 = 0 ∧ A r 3 = 0 ∧ B s 1 = 0 ∧ B s 3 = 0) →
      _ := fun A B r s hz => typR_int' (xb := (I.lay i).xb) ha (A r) (B s) (ampsR I S iref p i) (thk i) h H hH (by
        cases e : (I.lay i).liquid
        · exact Or.inl (hx e)
        · exact Or.inr (hz e))
  have z := fun e r => side_noS I.k (I.lay i) e r
  funext c
  fin_cases c
  · exact (congrArg (fun M => typR I.k H _ _ M _) (outer _ _).1).trans
      (hs _ _ 0 0 fun e => ⟨(z e 0).1, (z e 0).2.1, (z e 0).1, (z e 0).2.1⟩).symm
  · exact (congrArg (fun M => typR I.k H _ _ M _) (outer _ _).2.1).trans
      (hs _ _ 1 1 fun e => ⟨(z e 1).1, (z e 1).2.1, (z e 1).1, (z e 1).2.1⟩).symm
  · exact (congrArg (fun M => typR I.k H _ _ M _) (outer _ _).2.2.1).trans
      (hs _ _ 0 1 fun e => ⟨(z e 0).1, (z e 0).2.1, (z e 1).2.2.1, (z e 1).2.2.2⟩).symm
  · exact (congrArg (fun M => typR I.k H _ _ M _) (outer _ _).2.2.2).trans
      (hs _ _ 1 0 fun e => ⟨(z e 1).1, (z e 1).2.1, (z e 0).2.2.1, (z e 0).2.2.2⟩).symm
  · exact (congrArg (fun M => typR I.k H _ _ M _) (outer _ _).1).trans
      (hs _ _ 0 0 fun e => ⟨(z e 0).2.2.1, (z e 0).2.2.2, (z e 0).2.2.1, (z e 0).2.2.2⟩).symm
  · exact (congrArg (fun M => typR I.k H _ _ M _) (outer _ _).2.1).trans
      (hs _ _ 1 1 fun e => ⟨(z e 1).2.2.1, (z e 1).2.2.2, (z e 1).2.2.1, (z e 1).2.2.2⟩).symm

/-- The half-space. -/
theorem subR_half {I : ModeIn ℂ} {S : ℕ → PSV ℂ} {thk : ℕ → ℝ} {iref : ℕ} {p : Amp4 ℂ × Amp4 ℂ} {i : ℕ}
    (hu : potUpR I S iref p (i+1) = Amp4.zero) (ha : 0 < (I.k * (I.lay i).xa).re) (hb : 0 < (I.k * (I.lay i).xb).re) :
    subR I.k (I.lay i) (-1) ![0 * (potUpR I S iref p (i+1)).up 0, 0 * (potUpR I S iref p (i+1)).up 1,
      exp (-I.k * (I.lay i).xa * (0:ℝ)) * (potDownR I S iref p i).dn 0, exp (-I.k * (I.lay i).xb * (0:ℝ)) * (potDownR I S iref p i).dn 1] =
      fun c => ∫ z in Set.Ioi (0:ℝ), densR (raylOut I S thk iref p i) z c := by
  rw [dens_rows]
  have hs := fun (A B : Matrix (Fin 2) (Fin 4) ℂ) r s => typR_half ha hb (A r) (B s) (ampsR I S iref p i)
    (by simp [ampsR, hu, Amp4.zero]) (by simp [ampsR, hu, Amp4.zero]) (thk i)
  funext c
  fin_cases c
  · exact (congrArg (fun M => typR I.k (-1) _ _ M _) (outer _ _).1).trans (hs _ _ 0 0).2.symm
  · exact (congrArg (fun M => typR I.k (-1) _ _ M _) (outer _ _).2.1).trans (hs _ _ 1 1).2.symm
  · exact (congrArg (fun M => typR I.k (-1) _ _ M _) (outer _ _).2.2.1).trans (hs _ _ 0 1).2.symm
  · exact (congrArg (fun M => typR I.k (-1) _ _ M _) (outer _ _).2.2.2).trans (hs _ _ 1 0).2.symm
  · exact (congrArg (fun M => typR I.k (-1) _ _ M _) (outer _ _).1).trans (hs _ _ 0 0).2.symm
  · exact (congrArg (fun M => typR I.k (-1) _ _ M _) (outer _ _).2.1).trans (hs _ _ 1 1).2.symm

theorem dens_half {I : ModeIn ℂ} {S : ℕ → PSV ℂ} {thk : ℕ → ℝ} {iref : ℕ} {p : Amp4 ℂ × Amp4 ℂ} {i : ℕ}
    (hu : potUpR I S iref p (i+1) = Amp4.zero) (ha : 0 < (I.k * (I.lay i).xa).re) (hb : 0 < (I.k * (I.lay i).xb).re) (c : Fin 6) :
    IntegrableOn (fun z => densR (raylOut I S thk iref p i) z c) (Set.Ioi 0) := by
  rw [dens_rows]
  have hs := fun (A B : Matrix (Fin 2) (Fin 4) ℂ) r s => typR_half ha hb (A r) (B s) (ampsR I S iref p i)
    (by simp [ampsR, hu, Amp4.zero]) (by simp [ampsR, hu, Amp4.zero]) (thk i)
  fin_cases c
  · exact (hs _ _ 0 0).1
  · exact (hs _ _ 1 1).1
  · exact (hs _ _ 0 1).1
  · exact (hs _ _ 1 0).1
  · exact (hs _ _ 0 0).1
  · exact (hs _ _ 1 1).1

/-! ### Thin layers -/

theorem thin_stepR {I : ModeIn ℂ} {S : ℕ → PSV ℂ} {thk dep : ℕ → ℝ} {iref : ℕ} {p : Amp4 ℂ × Amp4 ℂ} {i : ℕ}
    (ha : I.k * (I.lay i).xa ≠ 0) (hx : (I.lay i).liquid = false → I.k * (I.lay i).xb ≠ 0 ∧
      I.k * (I.lay i).xa + I.k * (I.lay i).xb ≠ 0 ∧ I.k * (I.lay i).xa - I.k * (I.lay i).xb ≠ 0)
    (h b : ℝ) (hb : h ≤ b) (j : ℕ) (z' : ℝ) (hz : z' = dep i + b) (t : List (ℕ × ℝ)) :
    thinR I thk dep (potUpR I S iref p) (potDownR I S iref p) ((i, dep i + h) :: (j, z') :: t) =
      (i, fun c => ∫ z in h..b, densR (raylOut I S thk iref p i) z c) ::
        thinR I thk dep (potUpR I S iref p) (potDownR I S iref p) ((j, z') :: t) := by
  subst hz
  rw [thinR]
  congr 2
  have e1 : dep i + h - dep i = h := by ring
  have e2 : dep i + b - (dep i + h) = b - h := by ring
  have := subR_int (S := S) (thk := thk) (iref := iref) (p := p) ha hx h (b - h) (by linarith)
  have e3 : h + (b - h) = b := by ring
  rw [e3] at this
  simp only [e1, e2]
  exact this

/-- The thin layers of one layer: their integrals add up to those over the layer. -/
theorem thin_layerR {I : ModeIn ℂ} {S : ℕ → PSV ℂ} {thk dep : ℕ → ℝ} {iref : ℕ} {p : Amp4 ℂ × Amp4 ℂ} {i : ℕ}
    (ha : I.k * (I.lay i).xa ≠ 0) (hx : (I.lay i).liquid = false → I.k * (I.lay i).xb ≠ 0 ∧
      I.k * (I.lay i).xa + I.k * (I.lay i).xb ≠ 0 ∧ I.k * (I.lay i).xa - I.k * (I.lay i).xb ≠ 0)
    {dz : ℝ} (hd : 0 < dz) (j : ℕ) (z' : ℝ) (hz : z' = dep i + thk i) (t : List (ℕ × ℝ)) (n : ℕ) :
    ∀ h x hs, tops (thk i) dz n h = x :: hs →
    ∃ A : List (ℕ × (Fin 6 → ℂ)), thinR I thk dep (potUpR I S iref p) (potDownR I S iref p)
        ((tops (thk i) dz n h).map (fun h => (i, dep i + h)) ++ (j, z') :: t) =
        A ++ thinR I thk dep (potUpR I S iref p) (potDownR I S iref p) ((j, z') :: t) ∧
      (∀ q ∈ A, q.1 = i) ∧ ∀ c, (A.map fun q => q.2 c).sum = ∫ z in h..thk i, densR (raylOut I S thk iref p i) z c := by
  have hc := dens_cont I S thk iref p i
  induction n with
  | zero => intro h x hs e; cases e
  | succ n ih =>
    intro h x hs e
    obtain ⟨rfl, hlt, m, hm', rfl⟩ := tops_cons e
    obtain rfl : n = m := by omega
    rw [e]
    cases e2 : tops (thk i) dz n (x + dz) with
    | nil =>
      refine ⟨[(i, fun c => ∫ z in x..thk i, densR (raylOut I S thk iref p i) z c)], ?_, by simp, by simp⟩
      simp only [List.map_cons, List.map_nil, List.cons_append, List.nil_append]
      exact thin_stepR ha hx x (thk i) hlt.le j z' hz t
    | cons y ys =>
      obtain ⟨A, a1, a2, a3⟩ := ih (x + dz) y ys e2
      obtain ⟨rfl, -, -, -, -⟩ := tops_cons e2
      rw [e2] at a1
      refine ⟨(i, fun c => ∫ z in x..(x + dz), densR (raylOut I S thk iref p i) z c) :: A, ?_, ?_, fun c => ?_⟩
      · simp only [List.map_cons, List.cons_append] at a1 ⊢
        rw [thin_stepR ha hx x (x + dz) (by linarith) i _ rfl, a1]
      · intro q hq
        rcases List.mem_cons.1 hq with rfl | hq
        · rfl
        · exact a2 q hq
      · rw [List.map_cons, List.sum_cons, a3]
        exact intervalIntegral.integral_add_adjacent_intervals ((hc c).intervalIntegrable _ _) ((hc c).intervalIntegrable _ _)

theorem sum_weightR (w : ℕ → ℂ) (i : ℕ) (A : List (ℕ × (Fin 6 → ℂ))) (h : ∀ p ∈ A, p.1 = i) (c : Fin 6) :
    (A.map fun p => w p.1 * p.2 c).sum = w i * (A.map fun p => p.2 c).sum := by
  induction A with
  | nil => simp
  | cons a A ih =>
    simp only [List.map_cons, List.sum_cons]
    rw [ih (fun p hp => h p (List.mem_cons_of_mem _ hp)), h a List.mem_cons_self]
    ring

/-- In a solid the vertical wavenumbers of P and S waves differ. -/
theorem solid_xab {c k : ℂ} {l : Lay ℂ} {m : Medium ℂ} (h : Fits c l m) (e : l.liquid = false) (hk : k ≠ 0) (hc : c ≠ 0)
    (hb : l.xb ≠ 0) (hl : m.lam + m.mu ≠ 0) :
    k * l.xb ≠ 0 ∧ k * l.xa + k * l.xb ≠ 0 ∧ k * l.xa - k * l.xb ≠ 0 := by
  obtain ⟨hm, hcb⟩ := h.sol e
  have hcb0 : l.cbcb ≠ 0 := by
    intro h0; rw [h0, mul_zero] at hcb
    exact mul_ne_zero h.rho0 (mul_ne_zero hc hc) hcb.symm
  have hd : (l.xa + l.xb) * (l.xa - l.xb) ≠ 0 := by
    intro q
    have q' : l.caca = l.cbcb := by linear_combination -q + h.xa - h.xb
    have := h.ca
    rw [q', ← hcb] at this
    exact mul_ne_zero hl hcb0 (by linear_combination this)
  refine ⟨mul_ne_zero hk hb, ?_, ?_⟩
  · rw [← mul_add]; exact mul_ne_zero hk (left_ne_zero_of_mul hd)
  · rw [← mul_sub]; exact mul_ne_zero hk (right_ne_zero_of_mul hd)

/-- All layers: for any weight `w` constant in each layer. -/
theorem thin_allR {I : ModeIn ℂ} {S : ℕ → PSV ℂ} {m : ℕ → Medium ℂ} {thk dep : ℕ → ℝ} (hI : DescribesR I S m thk) {iref : ℕ}
    {p : Amp4 ℂ × Amp4 ℂ} (h2 : 1 ≤ I.nlay) (hlm : ∀ i, i < I.nlay → (m i).lam + (m i).mu ≠ 0)
    (hdep : ∀ i, dep (i+1) = dep i + thk i) (hthk : ∀ i, i + 1 < I.nlay → 0 < thk i) (cdz : ℝ) (hc : 0 ≤ cdz)
    (hfine : ∀ i, i + 1 < I.nlay → cdz * (1 / 100000) ≤ thk i) (fuel : ℕ) (hf : 1 ≤ fuel) (w : ℕ → ℂ) (c : Fin 6) :
    ((thinR I thk dep (potUpR I S iref p) (potDownR I S iref p) (thinLayers I.nlay thk dep cdz fuel)).map
      fun q => w q.1 * q.2 c).sum = depthInt I.nlay thk (fun i z => w i * densR (raylOut I S thk iref p i) z c) := by
  have hk := hI.k0
  have ha : ∀ i, i < I.nlay → I.k * (I.lay i).xa ≠ 0 := fun i hi => mul_ne_zero hk (hI.xa0 i hi)
  have hx : ∀ i, i < I.nlay → (I.lay i).liquid = false → _ := fun i hi e =>
    solid_xab (hI.fits i hi) e hk hI.c0 (hI.xb0 i hi) (hlm i hi)
  set T := thinR I thk dep (potUpR I S iref p) (potDownR I S iref p)
  set g : ℕ → List (ℕ × ℝ) := fun i => (tops (thk i) (if cdz = 0 then thk i else cdz) fuel 0).map fun h => (i, dep i + h)
  have key : ∀ r j, j + r = I.nlay - 1 →
      ((T ((List.range' j r).flatMap g ++ [(I.nlay - 1, dep (I.nlay - 1) + 0)])).map fun q => w q.1 * q.2 c).sum =
        (∑ i ∈ Finset.range r, w (j+i) * ∫ z in (0:ℝ)..thk (j+i), densR (raylOut I S thk iref p (j+i)) z c) +
        w (I.nlay-1) * ∫ z in Set.Ioi (0:ℝ), densR (raylOut I S thk iref p (I.nlay-1)) z c := by
    intro r
    induction r with
    | zero =>
      intro j hj
      have hu : potUpR I S iref p (I.nlay - 1 + 1) = Amp4.zero := by unfold potUpR; rw [if_pos (by omega)]
      simp only [List.range'_zero, List.flatMap_nil, List.nil_append, Finset.range_zero, Finset.sum_empty, zero_add]
      have := subR_half (S := S) (thk := thk) (iref := iref) (p := p) hu hI.ta hI.tb
      simp only [T, thinR, List.map_cons, List.map_nil, List.sum_cons, List.sum_nil, add_zero, sub_self]
      rw [this]
    | succ r ih =>
      intro j hj
      have i1 := ih (j+1) (by omega)
      rw [List.range'_succ, List.flatMap_cons, List.append_assoc]
      have hj1 : j + 1 < I.nlay := by omega
      -- the rest begins at the bottom of layer `j`
      obtain ⟨a, t, hR⟩ : ∃ a t, (List.range' (j+1) r).flatMap g ++ [(I.nlay - 1, dep (I.nlay - 1) + 0)] = (a, dep (j+1) + 0) :: t := by
        cases r with
        | zero =>
          have : I.nlay - 1 = j + 1 := by omega
          rw [this]
          exact ⟨_, _, rfl⟩
        | succ r =>
          have : ∃ t, tops (thk (j+1)) (if cdz = 0 then thk (j+1) else cdz) fuel 0 = 0 :: t := by
            have h1 := hthk (j+1) (by omega)
            refine tops_ne h1 ?_ hf
            split
            · linarith
            · exact hfine (j+1) (by omega)
          obtain ⟨t, ht⟩ := this
          rw [List.range'_succ, List.flatMap_cons]
          simp only [g, ht, List.map_cons, List.cons_append]
          exact ⟨_, _, rfl⟩
      have h1 := hthk j hj1
      obtain ⟨t0, ht0⟩ : ∃ t, tops (thk j) (if cdz = 0 then thk j else cdz) fuel 0 = 0 :: t := by
        refine tops_ne h1 ?_ hf
        split
        · linarith
        · exact hfine j hj1
      have hd : 0 < (if cdz = 0 then thk j else cdz) := by
        split
        · exact h1
        · rename_i c; exact lt_of_le_of_ne hc (Ne.symm c)
      obtain ⟨A, a1, a2, a3⟩ := thin_layerR (S := S) (iref := iref) (p := p) (dep := dep) (ha j (by omega)) (hx j (by omega)) hd a
        (dep (j+1) + 0) (by rw [hdep]; ring) t fuel 0 0 t0 ht0
      rw [hR] at i1 ⊢
      have a1' : T (g j ++ (a, dep (j+1) + 0) :: t) = A ++ T ((a, dep (j+1) + 0) :: t) := a1
      rw [a1', List.map_append, List.sum_append, i1, sum_weightR w j A a2 c, a3, Finset.sum_range_succ']
      simp only [add_zero]
      rw [show ∀ x y z : ℂ, x + (y + z) = y + x + z from fun x y z => by ring]
      congr 3
      funext i
      rw [show j + 1 + i = j + (i + 1) by omega]
  have := key (I.nlay - 1) 0 (by omega)
  simp only [zero_add] at this
  have hl : T (thinLayers I.nlay thk dep cdz fuel) = T ((List.range' 0 (I.nlay - 1)).flatMap g ++ [(I.nlay - 1, dep (I.nlay - 1) + 0)]) := by
    rw [← List.range_eq_range']; rfl
  rw [hl, this]
  simp only [depthInt, intervalIntegral.integral_const_mul, integral_const_mul]

theorem depthInt_add {n : ℕ} {thk : ℕ → ℝ} {f g : ℕ → ℝ → ℂ} (hf : ∀ i, Continuous (f i)) (hg : ∀ i, Continuous (g i))
    (hf' : IntegrableOn (f (n-1)) (Set.Ioi 0)) (hg' : IntegrableOn (g (n-1)) (Set.Ioi 0)) :
    depthInt n thk (fun i z => f i z + g i z) = depthInt n thk f + depthInt n thk g := by
  unfold depthInt
  rw [integral_add hf' hg']
  have : ∀ i, ∫ z in (0:ℝ)..thk i, (f i z + g i z) = (∫ z in (0:ℝ)..thk i, f i z) + ∫ z in (0:ℝ)..thk i, g i z := fun i =>
    intervalIntegral.integral_add ((hf i).intervalIntegrable _ _) ((hg i).intervalIntegrable _ _)
  simp only [this, Finset.sum_add_distrib]
  ring

theorem depthInt_congr {n : ℕ} (hn : 1 ≤ n) {thk : ℕ → ℝ} {f g : ℕ → ℝ → ℂ} (h : ∀ i, i < n → f i = g i) :
    depthInt n thk f = depthInt n thk g := by
  unfold depthInt
  rw [h _ (by omega)]
  congr 1
  refine Finset.sum_congr rfl fun i hi => ?_
  rw [h i (by have := Finset.mem_range.1 hi; omega)]

/-- C88: the energy integrals of a Rayleigh mode are the integrals over the whole half-space of `ρ(q²+w²)/2`, `((λ+2μ)q²+μw²)/2`,
`λqw'-μwq'` and `(μq'²+(λ+2μ)w'²)/2` of the eigenfunction written by the program, whatever thin layers are used. -/
theorem C88_rayl {I : ModeIn ℂ} {S : ℕ → PSV ℂ} {m : ℕ → Medium ℂ} {thk dep : ℕ → ℝ} (hI : DescribesR I S m thk) {iref : ℕ}
    {p : Amp4 ℂ × Amp4 ℂ} (h2 : 1 ≤ I.nlay) (hlm : ∀ i, i < I.nlay → (m i).lam + (m i).mu ≠ 0) {lam : ℕ → ℂ}
    (hlam : ∀ i, i < I.nlay → lam i = (m i).lam) (hdep : ∀ i, dep (i+1) = dep i + thk i)
    (hthk : ∀ i, i + 1 < I.nlay → 0 < thk i) (cdz : ℝ) (hc : 0 ≤ cdz)
    (hfine : ∀ i, i + 1 < I.nlay → cdz * (1 / 100000) ≤ thk i) (fuel : ℕ) (hf : 1 ≤ fuel) :
    let q := fun i z => (raylOut I S thk iref p i z).q
    let w := fun i z => (raylOut I S thk iref p i z).w
    egyR I lam (thinR I thk dep (potUpR I S iref p) (potDownR I S iref p) (thinLayers I.nlay thk dep cdz fuel)) =
      (depthInt I.nlay thk (fun i z => 1/2 * (m i).rho * (q i z ^ 2 + w i z ^ 2)),
       depthInt I.nlay thk (fun i z => 1/2 * (((m i).lam + 2 * (m i).mu) * q i z ^ 2 + (m i).mu * w i z ^ 2)),
       depthInt I.nlay thk (fun i z => (m i).lam * (q i z * deriv (w i) z) - (m i).mu * (w i z * deriv (q i) z)),
       depthInt I.nlay thk (fun i z => 1/2 * ((m i).mu * deriv (q i) z ^ 2 + ((m i).lam + 2 * (m i).mu) * deriv (w i) z ^ 2))) := by
  intro q w
  have hu : potUpR I S iref p (I.nlay - 1 + 1) = Amp4.zero := by unfold potUpR; rw [if_pos (by omega)]
  have A := fun (v v' : ℕ → ℂ) (c c' : Fin 6) => show
      ((thinR I thk dep (potUpR I S iref p) (potDownR I S iref p) (thinLayers I.nlay thk dep cdz fuel)).map
        fun q => v q.1 * q.2 c + v' q.1 * q.2 c').sum =
        depthInt I.nlay thk (fun i z => v i * densR (raylOut I S thk iref p i) z c + v' i * densR (raylOut I S thk iref p i) z c') by
    rw [List.sum_map_add, thin_allR hI h2 hlm hdep hthk cdz hc hfine fuel hf, thin_allR hI h2 hlm hdep hthk cdz hc hfine fuel hf,
      depthInt_add (f := fun i z => v i * densR (raylOut I S thk iref p i) z c) (g := fun i z => v' i * densR (raylOut I S thk iref p i) z c')
        (fun i => continuous_const.mul (dens_cont _ _ _ _ _ _ _)) (fun i => continuous_const.mul (dens_cont _ _ _ _ _ _ _))
        ((dens_half hu hI.ta hI.tb c).const_mul _) ((dens_half hu hI.ta hI.tb c').const_mul _)]
  unfold egyR
  refine Prod.ext ?_ (Prod.ext ?_ (Prod.ext ?_ ?_)) <;> dsimp only
  · have := A (fun i => 1/2 * (I.lay i).rho) (fun i => 1/2 * (I.lay i).rho) 0 1
    simp only [← mul_add] at this
    rw [this]
    refine depthInt_congr h2 fun i hi => ?_
    rw [(hI.fits i hi).rho]; rfl
  · have := A (fun i => 1/2 * (lam i + 2 * (I.lay i).mu)) (fun i => 1/2 * (I.lay i).mu) 0 1
    simp only [mul_assoc, ← mul_add] at this ⊢
    rw [this]
    refine depthInt_congr h2 fun i hi => ?_
    rw [(hI.fits i hi).mu, hlam i hi]; rfl
  · have := A (fun i => lam i) (fun i => - (I.lay i).mu) 2 3
    simp only [neg_mul, ← sub_eq_add_neg] at this
    rw [this]
    refine depthInt_congr h2 fun i hi => ?_
    rw [(hI.fits i hi).mu, hlam i hi]; rfl
  · have := A (fun i => 1/2 * (I.lay i).mu) (fun i => 1/2 * (lam i + 2 * (I.lay i).mu)) 4 5
    simp only [mul_assoc, ← mul_add] at this ⊢
    rw [this]
    refine depthInt_congr h2 fun i hi => ?_
    rw [(hI.fits i hi).mu, hlam i hi]; rfl

end GRT.Modal
