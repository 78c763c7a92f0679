import Verif.Modal.RaylEnergy
import Verif.Modal.Variation

/-! Group velocity and phase-velocity sensitivities of Rayleigh modes: the numbers computed from the energy integrals are derivatives
of the dispersion relation.  C89, C90. -/

set_option linter.unusedSectionVars false

namespace GRT.Modal

open GRT.RT GRT.Layer GRT.Kernel Filter Complex MeasureTheory Topology Matrix

/-- `grt_get_group_velocity` for Rayleigh waves, grt_eigenfn.c 428-443. -/
noncomputable def groupR (omega k : ℝ) (egy : ℂ × ℂ × ℂ × ℂ) : ℝ :=
  ((egy.2.1 - egy.2.2.1 / (2 * (k:ℂ))) / (((omega / k : ℝ) : ℂ) * egy.1)).re

/-- `phase_sensitivity_numerator_single_layer_Rayl` (energy.c 306-329) and the division by `Va/c`, `Vb/c`, `ρ/c` (energy.c 411-418): the
sensitivities of one thin layer to P velocity, S velocity and density before the common factor. -/
noncomputable def sensNumR (I : ModeIn ℂ) (lam : ℕ → ℂ) (omega : ℝ) (va vb : ℕ → ℂ) (p : ℕ × (Fin 6 → ℂ)) : ℂ × ℂ × ℂ :=
  let l := lam p.1
  let mu := (I.lay p.1).mu
  let Klam := l * (I.k * I.k * p.2 0 - 2 * I.k * p.2 2 + p.2 5)
  let Kmu := mu * (I.k * I.k * p.2 1 + 2 * I.k * p.2 3 + p.2 4 + 2 * (I.k * I.k) * p.2 0 + 2 * p.2 5)
  let Krho := - (I.lay p.1).rho * (omega : ℂ) ^ 2 * (p.2 0 + p.2 1)
  (2 * (l + 2 * mu) / l * Klam / (va p.1 / I.c),
   if (I.lay p.1).liquid then 0 else (2 * Kmu - 4 * mu / l * Klam) / (vb p.1 / I.c),
   (Klam + Kmu + Krho) / ((I.lay p.1).rho / I.c))

/-- Phase-velocity sensitivities of the thin layers, energy.c 409-434; `none` is the error raised if the common factor is zero. -/
noncomputable def sensR (I : ModeIn ℂ) (lam : ℕ → ℂ) (omega : ℝ) (va vb : ℕ → ℂ) (l : List (ℕ × (Fin 6 → ℂ))) :
    Option (List (ℕ × (ℂ × ℂ × ℂ))) :=
  let dom := 4 * I.k ^ 2 * (egyR I lam l).2.1 - 2 * I.k * (egyR I lam l).2.2.1
  open Classical in
  if dom = 0 then none else some (l.map fun p =>
    (p.1, ((sensNumR I lam omega va vb p).1 / dom, (sensNumR I lam omega va vb p).2.1 / dom, (sensNumR I lam omega va vb p).2.2 / dom)))

/-! ### Fields as sums of waves -/

/-- `q`, `w`, `q'`, `w'`. -/
noncomputable def cmp (f : ℝ → MS ℂ) (z : ℝ) : Fin 4 → ℂ :=
  ![(f z).q, (f z).w, deriv (fun z => (f z).q) z, deriv (fun z => (f z).w) z]

/-- The four waves of a layer. -/
noncomputable def wv (a b : ℂ) (z : ℝ) : Fin 4 → ℂ := ![exp (a * z), exp (b * z), exp (-(a * z)), exp (-(b * z))]

/-- What the waves contribute to `q`, `w`, `q'`, `w'`. -/
noncomputable def wcoef (k : ℂ) (l : Lay ℂ) (u d : Fin 2 → ℂ) (r j : Fin 4) : ℂ :=
  (![side (D11 k l) (D12 k l) 0 j, side (D11 k l) (D12 k l) 1 j, side (D11z k l) (D12z k l) 0 j, side (D11z k l) (D12z k l) 1 j] : Fin 4 → ℂ) r
    * (![u 0, u 1, d 0, d 1] : Fin 4 → ℂ) j

theorem wv_deriv (a b : ℂ) (z : ℝ) (j : Fin 4) :
    HasDerivAt (fun z => wv a b z j) ((![a, b, -a, -b] : Fin 4 → ℂ) j * wv a b z j) z := by
  have d : ∀ c : ℂ, HasDerivAt (fun z : ℝ => exp (c * z)) (c * exp (c * z)) z := by
    intro c
    have := expz c 0 z
    simpa using this
  have e : ∀ c : ℂ, HasDerivAt (fun z : ℝ => exp (-(c * z))) (-c * exp (-(c * z))) z := by
    intro c
    have := expz (-c) 0 z
    simpa using this
  fin_cases j
  · exact d a
  · exact d b
  · exact e a
  · exact e b

theorem psvField_rows {c k : ℂ} {l : Lay ℂ} {m : Medium ℂ} (h : Fits c l m) (u d : Fin 2 → ℂ) (z : ℝ) :
    (psvField k m l u d z).q = ∑ j, wcoef k l u d 0 j * wv (k * l.xa) (k * l.xb) z j ∧
    (psvField k m l u d z).w = ∑ j, wcoef k l u d 1 j * wv (k * l.xa) (k * l.xb) z j := by
  cases e : l.liquid
  · simp only [psvField, psvState_solid h e, upAt, dnAt, wcoef, side, D11, D12, e, wv, Fin.sum_univ_four]
    simp
    constructor <;> ring
  · simp only [psvField, psvState_liquid h e, upAt, dnAt, wcoef, side, D11, D12, e, wv, Fin.sum_univ_four]
    simp
    constructor <;> ring

theorem rows_deriv' (k : ℂ) (l : Lay ℂ) (u d : Fin 2 → ℂ) (z : ℝ) :
    HasDerivAt (fun z => ∑ j, wcoef k l u d 0 j * wv (k * l.xa) (k * l.xb) z j) (∑ j, wcoef k l u d 2 j * wv (k * l.xa) (k * l.xb) z j) z ∧
    HasDerivAt (fun z => ∑ j, wcoef k l u d 1 j * wv (k * l.xa) (k * l.xb) z j) (∑ j, wcoef k l u d 3 j * wv (k * l.xa) (k * l.xb) z j) z := by
  have D := fun r => HasDerivAt.fun_sum (u := Finset.univ) fun (j : Fin 4) _ =>
    (wv_deriv (k * l.xa) (k * l.xb) z j).const_mul (wcoef k l u d r j)
  constructor
  · refine (D 0).congr_deriv ?_
    cases e : l.liquid <;> simp [wcoef, side, D11, D12, D11z, D12z, e, Fin.sum_univ_four] <;> ring
  · refine (D 1).congr_deriv ?_
    cases e : l.liquid <;> simp [wcoef, side, D11, D12, D11z, D12z, e, Fin.sum_univ_four] <;> ring

theorem cmp_field {c k : ℂ} {l : Lay ℂ} {m : Medium ℂ} (h : Fits c l m) (u d : Fin 2 → ℂ) (z : ℝ) (r : Fin 4) :
    cmp (psvField k m l u d) z r = ∑ j, wcoef k l u d r j * wv (k * l.xa) (k * l.xb) z j := by
  have hq : (fun z => (psvField k m l u d z).q) = _ := funext fun z => (psvField_rows h u d z).1
  have hw : (fun z => (psvField k m l u d z).w) = _ := funext fun z => (psvField_rows h u d z).2
  fin_cases r
  · exact (psvField_rows h u d z).1
  · exact (psvField_rows h u d z).2
  · exact (congrArg (fun f => deriv f z) hq).trans (rows_deriv' k l u d z).1.deriv
  · exact (congrArg (fun f => deriv f z) hw).trans (rows_deriv' k l u d z).2.deriv

theorem wv_cont (a b : ℂ) (j : Fin 4) : Continuous fun z => wv a b z j :=
  continuous_iff_continuousAt.2 fun z => (wv_deriv a b z j).continuousAt

theorem cmp_cont {c k : ℂ} {l : Lay ℂ} {m : Medium ℂ} (h : Fits c l m) (u d : Fin 2 → ℂ) (r : Fin 4) :
    Continuous fun z => cmp (psvField k m l u d) z r := by
  simp only [cmp_field h]
  exact continuous_finsetSum _ fun j _ => continuous_const.mul (wv_cont _ _ j)

theorem cmp_diff {c k : ℂ} {l : Lay ℂ} {m : Medium ℂ} (h : Fits c l m) (u d : Fin 2 → ℂ) (z : ℝ) :
    HasDerivAt (fun z => (psvField k m l u d z).q) (cmp (psvField k m l u d) z 2) z ∧
    HasDerivAt (fun z => (psvField k m l u d z).w) (cmp (psvField k m l u d) z 3) z := by
  have hq : (fun z => (psvField k m l u d z).q) = _ := funext fun z => (psvField_rows h u d z).1
  have hw : (fun z => (psvField k m l u d z).w) = _ := funext fun z => (psvField_rows h u d z).2
  rw [cmp_field h, cmp_field h, hq, hw]
  exact rows_deriv' k l u d z

/-- Half-space: only the waves that decay. -/
theorem cmp_half {c k : ℂ} {l : Lay ℂ} {m : Medium ℂ} (h : Fits c l m) (d : Fin 2 → ℂ) (z : ℝ) (r : Fin 4) :
    cmp (psvField k m l 0 d) z r = wcoef k l 0 d r 2 * exp (-(k * l.xa * z)) + wcoef k l 0 d r 3 * exp (-(k * l.xb * z)) := by
  rw [cmp_field h]
  simp [Fin.sum_univ_four, wv, wcoef]

/-! ### Reciprocity -/

/-- The quadratic form of the Lagrangian in `q`, `w`, `q'`, `w'`. -/
def bc (m : Medium ℂ) (k om : ℂ) : Matrix (Fin 4) (Fin 4) ℂ :=
  !![k^2 * (m.lam + 2 * m.mu) - m.rho * om^2, 0, 0, -(k * m.lam);
     0, k^2 * m.mu - m.rho * om^2, k * m.mu, 0;
     0, k * m.mu, m.mu, 0;
     -(k * m.lam), 0, 0, m.lam + 2 * m.mu]

/-- Work of the tractions of the first wave on the displacements of the second. -/
def work (f g : ℝ → MS ℂ) (z : ℝ) : ℂ := (f z).s * (g z).w + (f z).t * (g z).q

theorem work_deriv {k om : ℂ} {m : Medium ℂ} {f g : ℝ → MS ℂ} {liq : Bool} {z : ℝ}
    (hs : liq = false → Motion k (om^2) m f z) (hl : liq = true → ∀ z, MotionL k (om^2) m f z)
    (hm : liq = false → m.mu ≠ 0) (hm' : liq = true → m.mu = 0) (hlam : m.lam + 2 * m.mu ≠ 0)
    (gq : HasDerivAt (fun z => (g z).q) (cmp g z 2) z) (gw : HasDerivAt (fun z => (g z).w) (cmp g z 3) z) :
    HasDerivAt (work f g) (∑ r, ∑ t, bc m k om r t * (cmp f z r * cmp g z t)) z := by
  cases e : liq
  · have M := hs e
    have mu := hm e
    refine ((M.ds.mul gw).add (M.dt.mul gq)).congr_deriv ?_
    have f2 : cmp f z 2 = - k * (f z).w + (f z).t / m.mu := M.dq.deriv
    have f3 : cmp f z 3 = ((f z).s + m.lam * k * (f z).q) / (m.lam + 2 * m.mu) := M.dw.deriv
    have t1 : (f z).t = m.mu * (cmp f z 2 + k * (f z).w) := by rw [f2]; field_simp; ring
    have s1 : (f z).s = (m.lam + 2 * m.mu) * cmp f z 3 - m.lam * k * (f z).q := by rw [f3]; field_simp; ring
    rw [← f3]
    have c0 : ∀ h : ℝ → MS ℂ, cmp h z 0 = (h z).q := fun _ => rfl
    have c1 : ∀ h : ℝ → MS ℂ, cmp h z 1 = (h z).w := fun _ => rfl
    simp only [Fin.sum_univ_four, bc, c0, c1, Matrix.of_apply, Matrix.cons_val', Matrix.cons_val_zero, Matrix.cons_val_one, Matrix.cons_val,
      Matrix.cons_val_fin_one]
    rw [t1, s1]
    ring
  · have M := hl e z
    have mu := hm' e
    rw [mu, mul_zero, add_zero] at hlam
    have ht : (fun z => (f z).t) = fun _ => 0 := funext fun z => (hl e z).t
    have W : work f g = fun z => (f z).s * (g z).w := by
      funext z
      unfold work
      rw [(hl e z).t]; ring
    rw [W]
    refine (M.ds.mul gw).congr_deriv ?_
    have f3 : cmp f z 3 = ((f z).s + m.lam * k * (f z).q) / m.lam := M.dw.deriv
    have s1 : (f z).s = m.lam * cmp f z 3 - m.lam * k * (f z).q := by rw [f3]; field_simp; ring
    have c0 : ∀ h : ℝ → MS ℂ, cmp h z 0 = (h z).q := fun _ => rfl
    have c1 : ∀ h : ℝ → MS ℂ, cmp h z 1 = (h z).w := fun _ => rfl
    have q1 := M.q
    simp only [Fin.sum_univ_four, bc, c0, c1, Matrix.of_apply, Matrix.cons_val', Matrix.cons_val_zero, Matrix.cons_val_one, Matrix.cons_val,
      Matrix.cons_val_fin_one, mu]
    rw [s1] at q1 ⊢
    linear_combination (g z).q * q1

/-- A field made of waves in every layer, decaying ones in the half-space. -/
structure WaveField (n : ℕ) (c k : ℂ) (l : ℕ → Lay ℂ) (m : ℕ → Medium ℂ) (y : ℕ → ℝ → MS ℂ) (u d : ℕ → Fin 2 → ℂ) : Prop where
  fits : ∀ i, i < n → Fits c (l i) (m i)
  eq : ∀ i, i < n → y i = psvField k (m i) (l i) (u i) (d i)
  up : u (n-1) = 0
  ta : 0 < (k * (l (n-1)).xa).re
  tb : 0 < (k * (l (n-1)).xb).re

/-- Integral over a layer of products of components of two fields. -/
noncomputable def overlap (n : ℕ) (thk : ℕ → ℝ) (f g : ℕ → ℝ → MS ℂ) (i : ℕ) (r t : Fin 4) : ℂ :=
  layInt n thk (fun i z => cmp (f i) z r * cmp (g i) z t) i

theorem overlap_swap (n : ℕ) (thk : ℕ → ℝ) (f g : ℕ → ℝ → MS ℂ) (i : ℕ) (r t : Fin 4) :
    overlap n thk g f i r t = overlap n thk f g i t r := by
  unfold overlap
  congr 1
  funext i z
  ring

theorem two_exp {p1 p2 q1 q2 : ℂ} (h1 : 0 < p1.re) (h2 : 0 < p2.re) (h3 : 0 < q1.re) (h4 : 0 < q2.re) (A B C D : ℂ) :
    IntegrableOn (fun z : ℝ => (A * exp (-(p1 * z)) + B * exp (-(p2 * z))) * (C * exp (-(q1 * z)) + D * exp (-(q2 * z)))) (Set.Ioi 0) ∧
    ∫ z in Set.Ioi (0:ℝ), (A * exp (-(p1 * z)) + B * exp (-(p2 * z))) * (C * exp (-(q1 * z)) + D * exp (-(q2 * z))) =
      A * C / (p1 + q1) + A * D / (p1 + q2) + B * C / (p2 + q1) + B * D / (p2 + q2) := by
  obtain ⟨a1, b1⟩ := exp_half h1 h3 A C
  obtain ⟨a2, b2⟩ := exp_half h1 h4 A D
  obtain ⟨a3, b3⟩ := exp_half h2 h3 B C
  obtain ⟨a4, b4⟩ := exp_half h2 h4 B D
  have e : (fun z : ℝ => (A * exp (-(p1 * z)) + B * exp (-(p2 * z))) * (C * exp (-(q1 * z)) + D * exp (-(q2 * z)))) =
      fun z : ℝ => A * exp (-(p1 * z)) * (C * exp (-(q1 * z))) + A * exp (-(p1 * z)) * (D * exp (-(q2 * z))) +
        B * exp (-(p2 * z)) * (C * exp (-(q1 * z))) + B * exp (-(p2 * z)) * (D * exp (-(q2 * z))) := by
    funext z; ring
  rw [e]
  refine ⟨((a1.add a2).add a3).add a4, ?_⟩
  rw [← b1, ← b2, ← b3, ← b4, ← integral_add a1 a2,
    ← integral_add (f := fun z : ℝ => A * exp (-(p1 * z)) * (C * exp (-(q1 * z))) + A * exp (-(p1 * z)) * (D * exp (-(q2 * z)))) (a1.add a2) a3,
    ← integral_add (f := fun z : ℝ => A * exp (-(p1 * z)) * (C * exp (-(q1 * z))) + A * exp (-(p1 * z)) * (D * exp (-(q2 * z))) +
        B * exp (-(p2 * z)) * (C * exp (-(q1 * z)))) ((a1.add a2).add a3) a4]

theorem WaveField.half {n : ℕ} {c1 c2 k1 k2 : ℂ} {l1 l2 : ℕ → Lay ℂ} {m1 m2 : ℕ → Medium ℂ} {y1 y2 : ℕ → ℝ → MS ℂ}
    {u1 d1 u2 d2 : ℕ → Fin 2 → ℂ} (hn : 1 ≤ n) (h1 : WaveField n c1 k1 l1 m1 y1 u1 d1) (h2 : WaveField n c2 k2 l2 m2 y2 u2 d2) (r t : Fin 4) :
    IntegrableOn (fun z => cmp (y1 (n-1)) z r * cmp (y2 (n-1)) z t) (Set.Ioi 0) ∧
    ∫ z in Set.Ioi (0:ℝ), cmp (y1 (n-1)) z r * cmp (y2 (n-1)) z t =
      wcoef k1 (l1 (n-1)) 0 (d1 (n-1)) r 2 * wcoef k2 (l2 (n-1)) 0 (d2 (n-1)) t 2 / (k1 * (l1 (n-1)).xa + k2 * (l2 (n-1)).xa) +
      wcoef k1 (l1 (n-1)) 0 (d1 (n-1)) r 2 * wcoef k2 (l2 (n-1)) 0 (d2 (n-1)) t 3 / (k1 * (l1 (n-1)).xa + k2 * (l2 (n-1)).xb) +
      wcoef k1 (l1 (n-1)) 0 (d1 (n-1)) r 3 * wcoef k2 (l2 (n-1)) 0 (d2 (n-1)) t 2 / (k1 * (l1 (n-1)).xb + k2 * (l2 (n-1)).xa) +
      wcoef k1 (l1 (n-1)) 0 (d1 (n-1)) r 3 * wcoef k2 (l2 (n-1)) 0 (d2 (n-1)) t 3 / (k1 * (l1 (n-1)).xb + k2 * (l2 (n-1)).xb) := by
  have e1 := h1.eq (n-1) (by omega)
  have e2 := h2.eq (n-1) (by omega)
  rw [h1.up] at e1
  rw [h2.up] at e2
  rw [e1, e2]
  simp only [cmp_half (h1.fits (n-1) (by omega)), cmp_half (h2.fits (n-1) (by omega))]
  exact two_exp h1.ta h1.tb h2.ta h2.tb _ _ _ _

/-- Two free P-SV waves of the same layering, of possibly different media, frequencies and wavenumbers: the work of the tractions
of one on the displacements of the other adds up to zero. -/
theorem weakR {n : ℕ} {liq : ℕ → Bool} {m1 m2 : ℕ → Medium ℂ} {thk : ℕ → ℝ} {c1 c2 k1 k2 om1 om2 : ℂ} {l1 l2 : ℕ → Lay ℂ}
    {y1 y2 : ℕ → ℝ → MS ℂ} {u1 d1 u2 d2 : ℕ → Fin 2 → ℂ} (hn : 1 ≤ n)
    (h1 : RaylField n liq m1 thk k1 om1 y1) (h2 : RaylField n liq m2 thk k2 om2 y2)
    (w1 : WaveField n c1 k1 l1 m1 y1 u1 d1) (w2 : WaveField n c2 k2 l2 m2 y2 u2 d2) (f1 : ∀ i, (l1 i).liquid = liq i)
    (hlam : ∀ i, i < n → (m1 i).lam + 2 * (m1 i).mu ≠ 0) :
    ∑ i ∈ Finset.range n, ∑ r, ∑ t, bc (m1 i) k1 om1 r t * overlap n thk y1 y2 i r t = 0 := by
  set P : ℕ → ℝ → ℂ := fun i z => work (y1 i) (y2 i) z with hP
  have lay : ∀ i, i < n → ∀ z, HasDerivAt (P i) (∑ r, ∑ t, bc (m1 i) k1 om1 r t * (cmp (y1 i) z r * cmp (y2 i) z t)) z := by
    intro i hi z
    have g := cmp_diff (k := k2) (w2.fits i hi) (u2 i) (d2 i) z
    rw [← w2.eq i hi] at g
    refine work_deriv (liq := liq i) (fun e => h1.solid i hi e z) (fun e => h1.liquid i hi e) (fun e => ?_) (fun e => ?_) (hlam i hi) g.1 g.2
    · exact ((w1.fits i hi).sol (by rw [f1, e])).1
    · exact (w1.fits i hi).liq (by rw [f1, e])
  have cc : ∀ i, i < n → ∀ r t, Continuous fun z => cmp (y1 i) z r * cmp (y2 i) z t := by
    intro i hi r t
    rw [w1.eq i hi, w2.eq i hi]
    exact (cmp_cont (w1.fits i hi) _ _ r).mul (cmp_cont (w2.fits i hi) _ _ t)
  have step : ∀ i, i + 1 < n → ∑ r, ∑ t, bc (m1 i) k1 om1 r t * overlap n thk y1 y2 i r t = P i (thk i) - P i 0 := by
    intro i hi
    have C : ∀ r t, Continuous fun z => bc (m1 i) k1 om1 r t * (cmp (y1 i) z r * cmp (y2 i) z t) := fun r t =>
      continuous_const.mul (cc i (by omega) r t)
    have CC : ∀ r, Continuous fun z => ∑ t, bc (m1 i) k1 om1 r t * (cmp (y1 i) z r * cmp (y2 i) z t) := fun r =>
      continuous_finsetSum _ fun t _ => C r t
    have F := intervalIntegral.integral_eq_sub_of_hasDerivAt (a := 0) (b := thk i) (fun z _ => lay i (by omega) z)
      ((continuous_finsetSum _ fun r _ => CC r).intervalIntegrable _ _)
    rw [← F, intervalIntegral.integral_finsetSum fun r _ => (CC r).intervalIntegrable _ _]
    refine Finset.sum_congr rfl fun r _ => ?_
    rw [intervalIntegral.integral_finsetSum fun t _ => (C r t).intervalIntegrable _ _]
    refine Finset.sum_congr rfl fun t _ => ?_
    rw [intervalIntegral.integral_const_mul, overlap, layInt, if_pos hi]
  have half : ∑ r, ∑ t, bc (m1 (n-1)) k1 om1 r t * overlap n thk y1 y2 (n-1) r t = 0 - P (n-1) 0 := by
    have C : ∀ r t, IntegrableOn (fun z => bc (m1 (n-1)) k1 om1 r t * (cmp (y1 (n-1)) z r * cmp (y2 (n-1)) z t)) (Set.Ioi 0) := fun r t =>
      (w1.half hn w2 r t).1.const_mul _
    have CC : ∀ r, IntegrableOn (fun z => ∑ t, bc (m1 (n-1)) k1 om1 r t * (cmp (y1 (n-1)) z r * cmp (y2 (n-1)) z t)) (Set.Ioi 0) := fun r =>
      integrable_finset_sum _ fun t _ => C r t
    have T : Tendsto (P (n-1)) atTop (𝓝 0) := by
      have a := (h1.decay.2.2.1.mul h2.decay.2.1).add (h1.decay.2.2.2.mul h2.decay.1)
      simpa [hP, work] using a
    have F := integral_Ioi_of_hasDerivAt_of_tendsto (lay (n-1) (by omega) 0).continuousAt.continuousWithinAt
        (fun z _ => lay (n-1) (by omega) z) (integrable_finset_sum _ fun r _ => CC r) T
    rw [← F, integral_finsetSum _ fun r _ => CC r]
    refine Finset.sum_congr rfl fun r _ => ?_
    rw [integral_finsetSum _ fun t _ => C r t]
    refine Finset.sum_congr rfl fun t _ => ?_
    rw [integral_const_mul, overlap, layInt, if_neg (by omega)]
  have joint : ∀ i, i + 1 < n → P i (thk i) = P (i+1) 0 := by
    intro i hi
    obtain ⟨a1, b1, c1, e1⟩ := h1.contact i hi
    obtain ⟨a2, b2, c2, e2⟩ := h2.contact i hi
    simp only [hP, work]
    cases g1 : liq i
    · cases g2 : liq (i+1)
      · rw [b1, c1, a2, e2 g1 g2]
      · rw [b1, c1, a2, (h1.liquid (i+1) hi g2 0).t]; ring
    · rw [← c1, b1, a2, (h1.liquid i (by omega) g1 (thk i)).t]; ring
  obtain ⟨r, rfl⟩ : ∃ r, n = r + 1 := ⟨n - 1, by omega⟩
  rw [Finset.sum_range_succ]
  simp only [Nat.add_sub_cancel] at half
  rw [half, Finset.sum_congr rfl fun i hi => (step i (by have := Finset.mem_range.1 hi; omega)).trans
    (by rw [joint i (by have := Finset.mem_range.1 hi; omega)]), Finset.sum_range_sub (fun i => P i 0)]
  simp only [hP, work]
  rw [h1.free.1, h1.free.2]
  ring

/-! ### Branches -/

/-- A family of free P-SV waves depending on a parameter `s` near `s0`: `l s i` are the vertical wavenumbers at phase velocity
`c s`; wavenumber, media, and displacement and traction at the tops of the layers are continuous at `s0`. -/
structure BranchR (n : ℕ) (liq : ℕ → Bool) (k c : ℝ → ℂ) (m : ℝ → ℕ → Medium ℂ) (l : ℝ → ℕ → Lay ℂ) (thk : ℕ → ℝ)
    (y : ℝ → ℕ → ℝ → MS ℂ) (U : Set ℝ) (s0 : ℝ) : Prop where
  nbhd : U ∈ 𝓝 s0
  wave : ∀ s ∈ U, RaylField n liq (m s) thk (k s) (c s * k s) (y s)
  k0 : ∀ s ∈ U, k s ≠ 0
  c0 : ∀ s ∈ U, c s ≠ 0
  liquid : ∀ s i, (l s i).liquid = liq i
  fits : ∀ s ∈ U, ∀ i, i < n → Fits (c s) (l s i) (m s i)
  lam : ∀ s ∈ U, ∀ i, i < n → (m s i).lam + 2 * (m s i).mu ≠ 0
  xa0 : ∀ s ∈ U, ∀ i, i < n → (l s i).xa ≠ 0
  xb0 : ∀ s ∈ U, ∀ i, i < n → (l s i).xb ≠ 0
  /-- waves die out below the last interface -/
  ta : ∀ s ∈ U, 0 < (k s * (l s (n-1)).xa).re
  tb : ∀ s ∈ U, 0 < (k s * (l s (n-1)).xb).re
  contk : ContinuousAt k s0
  contxa : ∀ i, i < n → ContinuousAt (fun s => (l s i).xa) s0
  contxb : ∀ i, i < n → ContinuousAt (fun s => (l s i).xb) s0
  contmu : ∀ i, i < n → ContinuousAt (fun s => (m s i).mu) s0
  contcb : ∀ i, i < n → ContinuousAt (fun s => (l s i).cbcb) s0
  conty : ∀ i, i < n → ContinuousAt (fun s => (y s i 0).q) s0 ∧ ContinuousAt (fun s => (y s i 0).w) s0 ∧
    ContinuousAt (fun s => (y s i 0).s) s0 ∧ ContinuousAt (fun s => (y s i 0).t) s0

variable {n : ℕ} {liq : ℕ → Bool} {k c : ℝ → ℂ} {m : ℝ → ℕ → Medium ℂ} {l : ℝ → ℕ → Lay ℂ} {thk : ℕ → ℝ} {y : ℝ → ℕ → ℝ → MS ℂ}
  {U : Set ℝ} {s0 : ℝ}

theorem BranchR.mem (B : BranchR n liq k c m l thk y U s0) : s0 ∈ U := mem_of_mem_nhds B.nbhd

theorem BranchR.waves (B : BranchR n liq k c m l thk y U s0) (hn : 1 ≤ n) : ∃ u d : ℝ → ℕ → Fin 2 → ℂ,
    (∀ s ∈ U, WaveField n (c s) (k s) (l s) (m s) (y s) (u s) (d s)) ∧
    ∀ i, i < n → ∀ j, ContinuousAt (fun s => u s i j) s0 ∧ ContinuousAt (fun s => d s i j) s0 := by
  have H : ∀ s i, ∃ u d : Fin 2 → ℂ, s ∈ U → i < n → y s i = psvField (k s) (m s i) (l s i) u d ∧ (liq i = true → u 1 = 0 ∧ d 1 = 0) := by
    intro s i
    by_cases hs : s ∈ U
    · by_cases hi : i < n
      · have F := B.fits s hs i hi
        cases e : liq i
        · obtain ⟨u, d, h⟩ := solid_general F (by rw [B.liquid, e]) (B.k0 s hs) (B.c0 s hs) (B.xa0 s hs i hi) (B.xb0 s hs i hi)
            (B.lam s hs i hi) ((B.wave s hs).solid i hi e)
          exact ⟨u, d, fun _ _ => ⟨funext h, fun q => by cases q⟩⟩
        · obtain ⟨u, d, h1, h2, h⟩ := liquid_general F (by rw [B.liquid, e]) (B.k0 s hs) (B.c0 s hs) (B.xa0 s hs i hi)
            (B.lam s hs i hi) ((B.wave s hs).liquid i hi e)
          exact ⟨u, d, fun _ _ => ⟨funext h, fun _ => ⟨h1, h2⟩⟩⟩
      · exact ⟨0, 0, fun _ h => absurd h hi⟩
    · exact ⟨0, 0, fun h => absurd h hs⟩
  choose u d h using H
  refine ⟨u, d, fun s hs => ⟨B.fits s hs, fun i hi => (h s i hs hi).1, ?_, B.ta s hs, B.tb s hs⟩, fun i hi => ?_⟩
  · have hi : n - 1 < n := by omega
    obtain ⟨e, e'⟩ := h s (n-1) hs hi
    obtain ⟨a, b, a', b'⟩ := (B.wave s hs).decay
    obtain ⟨p, q⟩ := half_no_upgoing (B.fits s hs (n-1) hi) (B.k0 s hs) (B.c0 s hs) (B.xa0 s hs _ hi) (B.xb0 s hs _ hi) (B.ta s hs) (B.tb s hs)
      (fun z => congrFun e z) a b a' b'
    rw [B.liquid] at q
    refine ext2 p ?_
    cases g : liq (n-1)
    · exact q g
    · exact (e' g).1
  · obtain ⟨cq, cw, cs, ct⟩ := B.conty i hi
    have hk := B.contk
    have ka := B.k0 s0 B.mem
    have xa := B.contxa i hi
    have xb := B.contxb i hi
    have xa' := B.xa0 s0 B.mem i hi
    have xb' := B.xb0 s0 B.mem i hi
    have hm := B.contmu i hi
    have hcb := B.contcb i hi
    have st : ∀ s ∈ U, y s i 0 = psvState (k s) (m s i) (l s i) (u s i) (d s i) := by
      intro s hs
      rw [(h s i hs hi).1, psvField_zero]
    have via : ∀ f g : ℝ → ℂ, (∀ s ∈ U, f s = g s) → ContinuousAt g s0 → ContinuousAt f s0 := fun f g e hg =>
      hg.congr (Filter.eventually_of_mem B.nbhd fun s hs => (e s hs).symm)
    cases g : liq i
    · have F := fun s hs => solid_amps (k := k s) (B.fits s hs i hi) (by rw [B.liquid, g]) (B.k0 s hs) (B.c0 s hs) (B.xa0 s hs i hi) (B.xb0 s hs i hi)
        (u s i) (d s i)
      obtain ⟨mu, cb⟩ := (B.fits s0 B.mem i hi).sol (by rw [B.liquid, g])
      have cb0 : (l s0 i).cbcb ≠ 0 := by
        intro h0; rw [h0, mul_zero] at cb
        exact mul_ne_zero (B.fits s0 B.mem i hi).rho0 (mul_ne_zero (B.c0 s0 B.mem) (B.c0 s0 B.mem)) cb.symm
      have D0 : (m s0 i).mu * (k s0)^2 * (l s0 i).cbcb ≠ 0 := mul_ne_zero (mul_ne_zero mu (pow_ne_zero 2 ka)) cb0
      have D := (hm.mul (hk.pow 2)).mul hcb
      have N1 := cs.sub (((continuousAt_const (y := (2:ℂ))).mul hm).mul hk |>.mul cq)
      have N2 := ct.sub (((continuousAt_const (y := (2:ℂ))).mul hm).mul hk |>.mul cw)
      have half := continuousAt_const (x := s0) (y := (1/2:ℂ))
      have A1 := N1.neg.div₀ D D0
      have A2 := N2.neg.div₀ D D0
      have P1 := ((cw.div₀ hk ka).add (N2.div₀ D D0)).div₀ xa xa'
      have P2 := ((cq.div₀ hk ka).add (N1.div₀ D D0)).div₀ xb xb'
      intro j
      fin_cases j
      · refine ⟨via _ _ (fun s hs => ?_) (half.mul (A1.add P1)), via _ _ (fun s hs => ?_) (half.mul (A1.sub P1))⟩
        · have := (F s hs).1; rw [← st s hs] at this; exact this
        · have := (F s hs).2.1; rw [← st s hs] at this; exact this
      · refine ⟨via _ _ (fun s hs => ?_) (half.mul (A2.add P2)), via _ _ (fun s hs => ?_) (half.mul (A2.sub P2))⟩
        · have := (F s hs).2.2.1; rw [← st s hs] at this; exact this
        · have := (F s hs).2.2.2; rw [← st s hs] at this; exact this
    · have F := fun s hs => liquid_amps (k := k s) (B.fits s hs i hi) (by rw [B.liquid, g]) (B.k0 s hs) (B.xa0 s hs i hi)
        (u s i) (d s i)
      have half := continuousAt_const (x := s0) (y := (1/2:ℂ))
      intro j
      fin_cases j
      · refine ⟨via _ _ (fun s hs => ?_) (half.mul ((cq.div₀ hk ka).add (cw.div₀ (hk.mul xa) (mul_ne_zero ka xa')))),
          via _ _ (fun s hs => ?_) (half.mul ((cq.div₀ hk ka).sub (cw.div₀ (hk.mul xa) (mul_ne_zero ka xa'))))⟩
        · have := (F s hs).1; rw [← st s hs] at this; exact this
        · have := (F s hs).2; rw [← st s hs] at this; exact this
      · exact ⟨via _ _ (fun s hs => ((h s i hs hi).2 g).1) continuousAt_const, via _ _ (fun s hs => ((h s i hs hi).2 g).2) continuousAt_const⟩

theorem side_cont {k : ℝ → ℂ} {l : ℝ → Lay ℂ} {liq : Bool} {s0 : ℝ} (hl : ∀ s, (l s).liquid = liq) (hk : ContinuousAt k s0)
    (ha : ContinuousAt (fun s => (l s).xa) s0) (hb : ContinuousAt (fun s => (l s).xb) s0) {u d : ℝ → Fin 2 → ℂ}
    (hu : ∀ j, ContinuousAt (fun s => u s j) s0) (hd : ∀ j, ContinuousAt (fun s => d s j) s0) (r j : Fin 4) :
    ContinuousAt (fun s => wcoef (k s) (l s) (u s) (d s) r j) s0 := by
  have u0 := hu 0
  have u1 := hu 1
  have d0 := hd 0
  have d1 := hd 1
  cases liq <;> fin_cases r <;> fin_cases j <;> simp [wcoef, side, D11, D12, D11z, D12z, hl] <;> fun_prop

theorem BranchR.over (B : BranchR n liq k c m l thk y U s0) {i : ℕ} (hi : i < n) (r t : Fin 4) :
    ContinuousAt (fun s => overlap n thk (y s0) (y s) i r t) s0 := by
  have hn : 1 ≤ n := by omega
  obtain ⟨u, d, W, C⟩ := B.waves hn
  have W0 := W s0 B.mem
  have ha := B.contk.mul (B.contxa i hi)
  have hb := B.contk.mul (B.contxb i hi)
  have via : ∀ f g : ℝ → ℂ, (∀ s ∈ U, f s = g s) → ContinuousAt g s0 → ContinuousAt f s0 := fun f g e hg =>
    hg.congr (Filter.eventually_of_mem B.nbhd fun s hs => (e s hs).symm)
  by_cases h : i + 1 < n
  · have cy : Continuous fun z => cmp (y s0 i) z r := by rw [W0.eq i hi]; exact cmp_cont (W0.fits i hi) _ _ r
    set F : ℂ → ℂ := fun w => ∫ z in (0:ℝ)..thk i, cmp (y s0 i) z r * exp (w * z) with hF
    have cF : Continuous F := by
      refine intervalIntegral.continuous_parametric_intervalIntegral_of_continuous' ?_ 0 (thk i)
      have : Continuous fun x : ℂ × ℝ => cmp (y s0 i) x.2 r := cy.comp continuous_snd
      fun_prop
    have cw := fun j => side_cont (fun s => B.liquid s i) B.contk (B.contxa i hi) (B.contxb i hi) (fun j => (C i hi j).1) (fun j => (C i hi j).2) t j
    refine via _ _ (fun s hs => ?_) (((((cw 0).mul (cF.continuousAt.comp ha)).add ((cw 1).mul (cF.continuousAt.comp hb))).add
      ((cw 2).mul (cF.continuousAt.comp ha.neg))).add ((cw 3).mul (cF.continuousAt.comp hb.neg)))
    rw [overlap, layInt, if_pos h]
    simp only [Pi.add_apply, Pi.mul_apply, Function.comp_apply, Pi.neg_apply, hF]
    have II : ∀ (w v : ℂ), IntervalIntegrable (fun z : ℝ => v * (cmp (y s0 i) z r * exp (w * z))) volume 0 (thk i) := fun w v =>
      Continuous.intervalIntegrable (by fun_prop) _ _
    simp only [← intervalIntegral.integral_const_mul]
    rw [← intervalIntegral.integral_add (II _ _) (II _ _), ← intervalIntegral.integral_add ((II _ _).add (II _ _)) (II _ _),
      ← intervalIntegral.integral_add (((II _ _).add (II _ _)).add (II _ _)) (II _ _)]
    refine intervalIntegral.integral_congr fun z _ => ?_
    rw [(W s hs).eq i hi, cmp_field ((W s hs).fits i hi)]
    simp only [Fin.sum_univ_four, wv, Matrix.cons_val_zero, Matrix.cons_val_one, Matrix.cons_val, neg_mul]
    ring
  · have ei : i = n - 1 := by omega
    subst ei
    have pos : ∀ a b : ℂ, 0 < a.re → 0 < b.re → a + b ≠ 0 := by
      intro a b ha hb h0
      have := congrArg Complex.re h0
      simp only [add_re, zero_re] at this
      linarith
    have cw := fun j => side_cont (fun s => B.liquid s (n-1)) B.contk (B.contxa _ hi) (B.contxb _ hi) (u := fun _ => 0) (fun j => continuousAt_const)
      (fun j => (C _ hi j).2) t j
    have T := fun (i j : Fin 4) => (continuousAt_const (x := s0) (y := wcoef (k s0) (l s0 (n-1)) 0 (d s0 (n-1)) r i)).mul (cw j)
    refine via _ _ (fun s hs => ?_) (((((T 2 2).div₀ (continuousAt_const.add ha) (pos _ _ W0.ta W0.ta)).add
      ((T 2 3).div₀ (continuousAt_const.add hb) (pos _ _ W0.ta W0.tb))).add
      ((T 3 2).div₀ (continuousAt_const.add ha) (pos _ _ W0.tb W0.ta))).add
      ((T 3 3).div₀ (continuousAt_const.add hb) (pos _ _ W0.tb W0.tb)))
    rw [overlap, layInt, if_neg h]
    exact (W0.half hn (W s hs) r t).2

/-- Two waves of the branch. -/
theorem BranchR.recip (B : BranchR n liq k c m l thk y U s0) (hn : 1 ≤ n) {s : ℝ} (hs : s ∈ U) :
    ∑ i ∈ Finset.range n, ∑ r, ∑ t, (bc (m s i) (k s) (c s * k s) r t - bc (m s0 i) (k s0) (c s0 * k s0) r t) *
      overlap n thk (y s0) (y s) i r t = 0 := by
  obtain ⟨u, d, W, -⟩ := B.waves hn
  have w1 := weakR hn (B.wave s0 B.mem) (B.wave s hs) (W s0 B.mem) (W s hs) (B.liquid s0) (B.lam s0 B.mem)
  have w2 := weakR hn (B.wave s hs) (B.wave s0 B.mem) (W s hs) (W s0 B.mem) (B.liquid s) (B.lam s hs)
  rw [← sub_eq_zero.2 (w2.trans w1.symm), ← Finset.sum_sub_distrib]
  refine Finset.sum_congr rfl fun i _ => ?_
  simp only [overlap_swap n thk (y s0) (y s), Fin.sum_univ_four, bc, Matrix.of_apply, Matrix.cons_val', Matrix.cons_val_zero, Matrix.cons_val_one,
    Matrix.cons_val, Matrix.cons_val_fin_one]
  ring

/-! ### What the program computes, in terms of overlaps -/

theorem thin_over {I : ModeIn ℂ} {S : ℕ → PSV ℂ} {m : ℕ → Medium ℂ} {thk dep : ℕ → ℝ} (hI : DescribesR I S m thk) {iref : ℕ}
    {p : Amp4 ℂ × Amp4 ℂ} (hn : 1 ≤ I.nlay) (hlm : ∀ i, i < I.nlay → (m i).lam + (m i).mu ≠ 0)
    (hdep : ∀ i, dep (i+1) = dep i + thk i) (hthk : ∀ i, i + 1 < I.nlay → 0 < thk i) (cdz : ℝ) (hc : 0 ≤ cdz)
    (hfine : ∀ i, i + 1 < I.nlay → cdz * (1 / 100000) ≤ thk i) (fuel : ℕ) (hf : 1 ≤ fuel) {y : ℕ → ℝ → MS ℂ}
    (hy : ∀ i, i < I.nlay → ∀ z, y i z = raylOut I S thk iref p i z) (w : ℕ → Fin 6 → ℂ) :
    ((thinR I thk dep (potUpR I S iref p) (potDownR I S iref p) (thinLayers I.nlay thk dep cdz fuel)).map
      fun q => ∑ e, w q.1 e * q.2 e).sum =
    ∑ i ∈ Finset.range I.nlay, ∑ e, w i e * overlap I.nlay thk y y i (![0, 1, 0, 1, 2, 3] e) (![0, 1, 3, 2, 2, 3] e) := by
  have A := fun e => thin_allR hI (iref := iref) (p := p) hn hlm hdep hthk cdz hc hfine fuel hf (fun i => w i e) e
  have sw : ∀ L : List (ℕ × (Fin 6 → ℂ)), (L.map fun q => ∑ e, w q.1 e * q.2 e).sum = ∑ e, (L.map fun q => w q.1 e * q.2 e).sum := by
    intro L
    induction L with
    | nil => simp
    | cons a L ih => simp only [List.map_cons, List.sum_cons, ih, Finset.sum_add_distrib]
  rw [sw, Finset.sum_comm]
  refine Finset.sum_congr rfl fun e _ => ?_
  rw [A e, depthInt_weight hn thk (fun i => w i e) (fun i z => densR (raylOut I S thk iref p i) z e)]
  refine Finset.sum_congr rfl fun i hi => ?_
  have hyi : y i = raylOut I S thk iref p i := funext (hy i (Finset.mem_range.1 hi))
  rw [overlap]
  congr 1
  have : ∀ f g : ℕ → ℝ → ℂ, f i = g i → layInt I.nlay thk f i = layInt I.nlay thk g i := by
    intro f g h; unfold layInt; rw [h]
  refine this _ _ ?_
  rw [hyi]
  funext z
  fin_cases e <;> simp [densR, cmp] <;> ring

theorem egy_over {I : ModeIn ℂ} {S : ℕ → PSV ℂ} {m : ℕ → Medium ℂ} {thk dep : ℕ → ℝ} (hI : DescribesR I S m thk) {iref : ℕ}
    {p : Amp4 ℂ × Amp4 ℂ} (hn : 1 ≤ I.nlay) (hlm : ∀ i, i < I.nlay → (m i).lam + (m i).mu ≠ 0) {lam : ℕ → ℂ}
    (hlam : ∀ i, i < I.nlay → lam i = (m i).lam)
    (hdep : ∀ i, dep (i+1) = dep i + thk i) (hthk : ∀ i, i + 1 < I.nlay → 0 < thk i) (cdz : ℝ) (hc : 0 ≤ cdz)
    (hfine : ∀ i, i + 1 < I.nlay → cdz * (1 / 100000) ≤ thk i) (fuel : ℕ) (hf : 1 ≤ fuel) {y : ℕ → ℝ → MS ℂ}
    (hy : ∀ i, i < I.nlay → ∀ z, y i z = raylOut I S thk iref p i z) :
    let egy := egyR I lam (thinR I thk dep (potUpR I S iref p) (potDownR I S iref p) (thinLayers I.nlay thk dep cdz fuel))
    let O := overlap I.nlay thk y y
    2 * egy.1 = ∑ i ∈ Finset.range I.nlay, (m i).rho * (O i 0 0 + O i 1 1) ∧
    2 * egy.2.1 = ∑ i ∈ Finset.range I.nlay, (((m i).lam + 2 * (m i).mu) * O i 0 0 + (m i).mu * O i 1 1) ∧
    -2 * egy.2.2.1 = ∑ i ∈ Finset.range I.nlay, ((m i).mu * (O i 1 2 + O i 2 1) - (m i).lam * (O i 0 3 + O i 3 0)) := by
  intro egy O
  have A := fun w => thin_over hI (iref := iref) (p := p) hn hlm hdep hthk cdz hc hfine fuel hf hy w
  have mul : ∀ (L : List (ℕ × (Fin 6 → ℂ))) (x : ℂ) (f : ℕ × (Fin 6 → ℂ) → ℂ), x * (L.map f).sum = (L.map fun q => x * f q).sum := by
    intro L x f
    rw [List.sum_map_mul_left]
  simp only [egy, egyR, mul]
  have F := hI.fits
  refine ⟨?_, ?_, ?_⟩
  · have := A (fun i => ![(I.lay i).rho, (I.lay i).rho, 0, 0, 0, 0])
    refine Eq.trans ?_ (this.trans (Finset.sum_congr rfl fun i hi => ?_))
    · congr 1
      refine List.map_congr_left fun q _ => ?_
      simp [Fin.sum_univ_six]; ring
    · rw [(F i (Finset.mem_range.1 hi)).rho]
      simp [Fin.sum_univ_six, O]; ring
  · have := A (fun i => ![lam i + 2 * (I.lay i).mu, (I.lay i).mu, 0, 0, 0, 0])
    refine Eq.trans ?_ (this.trans (Finset.sum_congr rfl fun i hi => ?_))
    · congr 1
      refine List.map_congr_left fun q _ => ?_
      simp [Fin.sum_univ_six]
    · rw [(F i (Finset.mem_range.1 hi)).mu, hlam i (Finset.mem_range.1 hi)]
      simp [Fin.sum_univ_six, O]
  · have := A (fun i => ![0, 0, -2 * lam i, 2 * (I.lay i).mu, 0, 0])
    refine Eq.trans ?_ (this.trans (Finset.sum_congr rfl fun i hi => ?_))
    · congr 1
      refine List.map_congr_left fun q _ => ?_
      simp [Fin.sum_univ_six]; ring
    · rw [(F i (Finset.mem_range.1 hi)).mu, hlam i (Finset.mem_range.1 hi)]
      have s1 : O i 2 1 = O i 1 2 := overlap_swap _ _ _ _ _ _ _
      have s2 : O i 3 0 = O i 0 3 := overlap_swap _ _ _ _ _ _ _
      rw [s1, s2]
      simp [Fin.sum_univ_six, O]; ring

/-! ### Group velocity -/

/-- C89: along a family of free P-SV waves of a model the angular frequency changes with the wavenumber at the rate the program
reports as group velocity. -/
theorem C89_group {om kr : ℝ → ℝ} {m : ℕ → Medium ℂ} (B : BranchR n liq (fun s => (kr s : ℂ)) c (fun _ => m) l thk y U s0)
    (hc : ∀ s ∈ U, c s * kr s = om s) (hpos : ∀ s ∈ U, 0 < om s) {dk : ℝ} (hk : HasDerivAt kr dk s0)
    {I : ModeIn ℂ} {S : ℕ → PSV ℂ} (hI : DescribesR I S m thk) (N : I.nlay = n) {iref : ℕ} {p : Amp4 ℂ × Amp4 ℂ}
    (hy : ∀ i, i < n → ∀ z, y s0 i z = raylOut I S thk iref p i z)
    (hn : 1 ≤ n) (hlm : ∀ i, i < n → (m i).lam + (m i).mu ≠ 0) {lam : ℕ → ℂ} (hlam : ∀ i, i < n → lam i = (m i).lam)
    {dep : ℕ → ℝ} (hdep : ∀ i, dep (i+1) = dep i + thk i) (hthk : ∀ i, i + 1 < n → 0 < thk i) (cdz : ℝ) (hcz : 0 ≤ cdz)
    (hfine : ∀ i, i + 1 < n → cdz * (1 / 100000) ≤ thk i) (fuel : ℕ) (hf : 1 ≤ fuel)
    (egy : ℂ × ℂ × ℂ × ℂ) (hegy : egy = egyR I lam (thinR I thk dep (potUpR I S iref p) (potDownR I S iref p)
      (thinLayers n thk dep cdz fuel))) (h1 : egy.1 ≠ 0) :
    HasDerivAt om (groupR (om s0) (kr s0) egy * dk) s0 := by
  subst N
  set O : ℝ → ℕ → Fin 4 → Fin 4 → ℂ := fun s => overlap I.nlay thk (y s0) (y s) with hO
  obtain ⟨E1, E2, E3⟩ := egy_over hI (iref := iref) (p := p) hn hlm hlam hdep hthk cdz hcz hfine fuel hf hy
  rw [← hegy] at E1 E2 E3
  set Jr : ℝ → ℂ := fun s => ∑ i ∈ Finset.range I.nlay, (m i).rho * (O s i 0 0 + O s i 1 1) with hJr
  set J2 : ℝ → ℂ := fun s => ∑ i ∈ Finset.range I.nlay, (((m i).lam + 2 * (m i).mu) * O s i 0 0 + (m i).mu * O s i 1 1) with hJ2
  set J3 : ℝ → ℂ := fun s => ∑ i ∈ Finset.range I.nlay, ((m i).mu * (O s i 1 2 + O s i 2 1) - (m i).lam * (O s i 0 3 + O s i 3 0)) with hJ3
  have cO : ∀ i ∈ Finset.range I.nlay, ∀ r t, ContinuousAt (fun s => O s i r t) s0 := fun i hi r t => B.over (Finset.mem_range.1 hi) r t
  have cJr : ContinuousAt Jr s0 := tendsto_finsetSum _ fun i hi => continuousAt_const.mul ((cO i hi 0 0).add (cO i hi 1 1))
  have cJ2 : ContinuousAt J2 s0 := tendsto_finsetSum _ fun i hi =>
    (continuousAt_const.mul (cO i hi 0 0)).add (continuousAt_const.mul (cO i hi 1 1))
  have cJ3 : ContinuousAt J3 s0 := tendsto_finsetSum _ fun i hi =>
    (continuousAt_const.mul ((cO i hi 1 2).add (cO i hi 2 1))).sub (continuousAt_const.mul ((cO i hi 0 3).add (cO i hi 3 0)))
  have hJ0 : Jr s0 ≠ 0 := by intro h; apply h1; have := E1.trans h; simpa using this
  have key : ∀ s ∈ U, ((om s:ℂ)^2 - (om s0:ℂ)^2) * Jr s = ((kr s:ℂ) - kr s0) * (((kr s:ℂ) + kr s0) * J2 s + J3 s) := by
    intro s hs
    have R := B.recip hn hs
    rw [hc s hs, hc s0 B.mem] at R
    rw [← sub_eq_zero]
    simp only [hJr, hJ2, hJ3, Finset.mul_sum, ← Finset.sum_add_distrib]
    rw [← Finset.sum_sub_distrib, ← neg_eq_zero, ← Finset.sum_neg_distrib, ← R]
    refine Finset.sum_congr rfl fun i _ => ?_
    simp only [Fin.sum_univ_four, bc, Matrix.of_apply, Matrix.cons_val', Matrix.cons_val_zero, Matrix.cons_val_one,
      Matrix.cons_val, Matrix.cons_val_fin_one]
    change _ = _ * O s i 0 0 + _ * O s i 0 1 + _ * O s i 0 2 + _ * O s i 0 3 + (_ * O s i 1 0 + _ * O s i 1 1 + _ * O s i 1 2 + _ * O s i 1 3) +
      (_ * O s i 2 0 + _ * O s i 2 1 + _ * O s i 2 2 + _ * O s i 2 3) + (_ * O s i 3 0 + _ * O s i 3 1 + _ * O s i 3 2 + _ * O s i 3 3)
    ring
  have hkC : HasDerivAt (fun s => (kr s : ℂ)) (dk:ℂ) s0 := hk.ofReal_comp
  have ek : ∀ s : ℝ, ((s:ℂ) - s0) * dslope (fun s => (kr s : ℂ)) s0 s = kr s - kr s0 := by
    intro s
    have := sub_smul_dslope (fun s => (kr s : ℂ)) s0 s
    rw [Complex.real_smul] at this
    push_cast at this
    exact this
  have ck : ContinuousAt (dslope (fun s => (kr s : ℂ)) s0) s0 := continuousAt_dslope_same.2 hkC.differentiableAt
  have sq : HasDerivAt (fun s => ((om s : ℝ) : ℂ) ^ 2)
      (dslope (fun s => (kr s : ℂ)) s0 s0 * (((kr s0 + kr s0) * J2 s0 + J3 s0) / Jr s0)) s0 := by
    refine cara (g := fun s => dslope (fun s => (kr s : ℂ)) s0 s * ((((kr s:ℂ) + kr s0) * J2 s + J3 s) / Jr s)) ?_ ?_
    · filter_upwards [B.nbhd, cJr.eventually_ne hJ0] with s hs hne
      rw [← mul_assoc, ek, ← mul_div_assoc, eq_div_iff hne]
      exact key s hs
    · exact ck.mul ((((B.contk.add continuousAt_const).mul cJ2).add cJ3).div₀ cJr hJ0)
  have D := (sqrtd (Filter.eventually_of_mem B.nbhd hpos) sq).1
  refine D.congr_deriv ?_
  unfold groupR
  rw [dslope_same, hkC.deriv]
  have o0 : (om s0 : ℂ) ≠ 0 := by exact_mod_cast (hpos s0 B.mem).ne'
  have kk : (kr s0:ℂ) ≠ 0 := B.k0 s0 B.mem
  rw [← Complex.re_mul_ofReal]
  congr 1
  have e1 : egy.1 = Jr s0 / 2 := by rw [eq_div_iff two_ne_zero, mul_comm]; exact E1
  have e2 : egy.2.1 = J2 s0 / 2 := by rw [eq_div_iff two_ne_zero, mul_comm]; exact E2
  have e3 : egy.2.2.1 = -(J3 s0 / 2) := by
    have : J3 s0 = -2 * egy.2.2.1 := E3.symm
    rw [this]; ring
  rw [e1, e2, e3]
  push_cast
  field_simp
  ring

/-! ### Sensitivities -/

/-- C90: let the P and S velocities and the densities of the layers depend on a parameter, the frequency stay fixed, and follow a
Rayleigh mode.  The phase velocity changes at the rate given by the sensitivities of the thin layers.  (`λ = 0`, where the
program divides by zero, means `α = √2 β`.) -/
theorem C90_sens {om : ℝ} {cr : ℝ → ℝ} (B : BranchR n liq k (fun s => (cr s : ℂ)) m l thk y U s0)
    (hk : ∀ s ∈ U, cr s * k s = om)
    {va vb rho : ℝ → ℕ → ℝ} {dva dvb drho : ℕ → ℝ} (hm : ∀ s ∈ U, ∀ i, i < n → (m s i).lam = rho s i * ((va s i : ℂ) ^ 2 - 2 * (vb s i : ℂ) ^ 2) ∧
      (m s i).mu = rho s i * (vb s i : ℂ) ^ 2 ∧ (m s i).rho = rho s i)
    (hva : ∀ i, i < n → HasDerivAt (fun s => va s i) (dva i) s0)
    (hvb : ∀ i, i < n → HasDerivAt (fun s => vb s i) (dvb i) s0) (hrho : ∀ i, i < n → HasDerivAt (fun s => rho s i) (drho i) s0)
    {I : ModeIn ℂ} {S : ℕ → PSV ℂ} (hI : DescribesR I S (m s0) thk) (N : I.nlay = n) (hIk : I.k = k s0) (hIc : I.c = cr s0)
    (hIl : ∀ i, (I.lay i).liquid = liq i) {iref : ℕ} {p : Amp4 ℂ × Amp4 ℂ}
    (hy : ∀ i, i < n → ∀ z, y s0 i z = raylOut I S thk iref p i z)
    (hn : 1 ≤ n) (hlm : ∀ i, i < n → (m s0 i).lam + (m s0 i).mu ≠ 0) (hl0 : ∀ i, i < n → (m s0 i).lam ≠ 0)
    {lam : ℕ → ℂ} (hlam : ∀ i, i < n → lam i = (m s0 i).lam)
    {dep : ℕ → ℝ} (hdep : ∀ i, dep (i+1) = dep i + thk i) (hthk : ∀ i, i + 1 < n → 0 < thk i) (cdz : ℝ) (hcz : 0 ≤ cdz)
    (hfine : ∀ i, i + 1 < n → cdz * (1 / 100000) ≤ thk i) (fuel : ℕ) (hf : 1 ≤ fuel) {ks : List (ℕ × (ℂ × ℂ × ℂ))}
    (hks : sensR I lam om (fun i => (va s0 i : ℂ)) (fun i => (vb s0 i : ℂ)) (thinR I thk dep (potUpR I S iref p) (potDownR I S iref p)
      (thinLayers n thk dep cdz fuel)) = some ks) :
    HasDerivAt (fun s => (cr s : ℂ)) ((ks.map fun q => q.2.1 * (dva q.1 : ℂ) + q.2.2.1 * (dvb q.1 : ℂ) + q.2.2.2 * (drho q.1 : ℂ)).sum) s0 := by
  subst N
  set O : ℝ → ℕ → Fin 4 → Fin 4 → ℂ := fun s => overlap I.nlay thk (y s0) (y s) with hO
  obtain ⟨-, E2, E3⟩ := egy_over hI (iref := iref) (p := p) hn hlm hlam hdep hthk cdz hcz hfine fuel hf hy
  have A := fun w => thin_over hI (iref := iref) (p := p) hn hlm hdep hthk cdz hcz hfine fuel hf hy w
  set L := thinR I thk dep (potUpR I S iref p) (potDownR I S iref p) (thinLayers I.nlay thk dep cdz fuel) with hL
  have cO : ∀ i, i < I.nlay → ∀ r t, ContinuousAt (fun s => O s i r t) s0 := fun i hi r t => B.over hi r t
  -- differences of the media
  have dla : ∀ i, i < I.nlay → HasDerivAt (fun s => (m s i).lam) ((drho i : ℂ) * ((va s0 i : ℂ) ^ 2 - 2 * (vb s0 i : ℂ) ^ 2) +
      rho s0 i * (2 * va s0 i * dva i - 2 * (2 * vb s0 i * dvb i))) s0 := by
    intro i hi
    have a := (hrho i hi).ofReal_comp.mul (((hva i hi).ofReal_comp.pow 2).sub (((hvb i hi).ofReal_comp.pow 2).const_mul 2))
    refine (a.congr_deriv ?_).congr_of_eventuallyEq (Filter.eventually_of_mem B.nbhd fun s hs => (hm s hs i hi).1)
    simp
  have dmu : ∀ i, i < I.nlay → HasDerivAt (fun s => (m s i).mu) ((drho i : ℂ) * (vb s0 i : ℂ) ^ 2 + rho s0 i * (2 * vb s0 i * dvb i)) s0 := by
    intro i hi
    have a := (hrho i hi).ofReal_comp.mul ((hvb i hi).ofReal_comp.pow 2)
    refine (a.congr_deriv ?_).congr_of_eventuallyEq (Filter.eventually_of_mem B.nbhd fun s hs => (hm s hs i hi).2.1)
    simp
  have drh : ∀ i, i < I.nlay → HasDerivAt (fun s => (m s i).rho) (drho i : ℂ) s0 := by
    intro i hi
    exact (hrho i hi).ofReal_comp.congr_of_eventuallyEq (Filter.eventually_of_mem B.nbhd fun s hs => (hm s hs i hi).2.2)
  have es : ∀ (f : ℝ → ℂ) (s : ℝ), ((s:ℂ) - s0) * dslope f s0 s = f s - f s0 := by
    intro f s
    have := sub_smul_dslope f s0 s
    rw [Complex.real_smul] at this
    push_cast at this
    exact this
  set al : ℕ → ℝ → ℂ := fun i => dslope (fun s => (m s i).lam) s0 with hal
  set am : ℕ → ℝ → ℂ := fun i => dslope (fun s => (m s i).mu) s0 with ham
  set ar : ℕ → ℝ → ℂ := fun i => dslope (fun s => (m s i).rho) s0 with har
  have cal : ∀ i, i < I.nlay → ContinuousAt (al i) s0 := fun i hi => continuousAt_dslope_same.2 (dla i hi).differentiableAt
  have cam : ∀ i, i < I.nlay → ContinuousAt (am i) s0 := fun i hi => continuousAt_dslope_same.2 (dmu i hi).differentiableAt
  have car : ∀ i, i < I.nlay → ContinuousAt (ar i) s0 := fun i hi => continuousAt_dslope_same.2 (drh i hi).differentiableAt
  have k0 := B.k0 s0 B.mem
  set G : ℝ → ℂ := fun s => ∑ i ∈ Finset.range I.nlay, (al i s * (k s0 ^ 2 * O s i 0 0 - k s0 * (O s i 0 3 + O s i 3 0) + O s i 3 3) +
    am i s * (k s0 ^ 2 * (2 * O s i 0 0 + O s i 1 1) + k s0 * (O s i 1 2 + O s i 2 1) + O s i 2 2 + 2 * O s i 3 3) -
    ar i s * ((om:ℂ) ^ 2 * (O s i 0 0 + O s i 1 1))) with hG
  set H : ℝ → ℂ := fun s => ∑ i ∈ Finset.range I.nlay, ((k s + k s0) * (((m s i).lam + 2 * (m s i).mu) * O s i 0 0 + (m s i).mu * O s i 1 1) +
    ((m s i).mu * (O s i 1 2 + O s i 2 1) - (m s i).lam * (O s i 0 3 + O s i 3 0))) with hH
  have cG : ContinuousAt G s0 := by
    refine tendsto_finsetSum _ fun i hi => ?_
    have hi := Finset.mem_range.1 hi
    have o := cO i hi
    have kc := fun x : ℂ => continuousAt_const (x := s0) (y := x)
    exact (((cal i hi).mul ((((kc _).mul (o 0 0)).sub ((kc _).mul ((o 0 3).add (o 3 0)))).add (o 3 3))).add
      ((cam i hi).mul (((((kc _).mul (((kc _).mul (o 0 0)).add (o 1 1))).add ((kc _).mul ((o 1 2).add (o 2 1)))).add (o 2 2)).add
        ((kc _).mul (o 3 3))))).sub ((car i hi).mul ((kc _).mul ((o 0 0).add (o 1 1))))
  have cH : ContinuousAt H s0 := by
    refine tendsto_finsetSum _ fun i hi => ?_
    have hi := Finset.mem_range.1 hi
    have o := cO i hi
    have kc := fun x : ℂ => continuousAt_const (x := s0) (y := x)
    have la := (dla i hi).continuousAt
    have mu := (dmu i hi).continuousAt
    exact ((B.contk.add (kc _)).mul (((la.add ((kc _).mul mu)).mul (o 0 0)).add (mu.mul (o 1 1)))).add
      ((mu.mul ((o 1 2).add (o 2 1))).sub (la.mul ((o 0 3).add (o 3 0))))
  have key : ∀ s ∈ U, (k s - k s0) * H s + ((s:ℂ) - s0) * G s = 0 := by
    intro s hs
    have R := B.recip hn hs
    rw [hk s hs, hk s0 B.mem] at R
    rw [← R]
    simp only [hG, hH, Finset.mul_sum, ← Finset.sum_add_distrib]
    refine Finset.sum_congr rfl fun i _ => ?_
    have q1 := es (fun s => (m s i).lam) s
    have q2 := es (fun s => (m s i).mu) s
    have q3 := es (fun s => (m s i).rho) s
    simp only [Fin.sum_univ_four, bc, Matrix.of_apply, Matrix.cons_val', Matrix.cons_val_zero, Matrix.cons_val_one,
      Matrix.cons_val, Matrix.cons_val_fin_one]
    change _ = _ * O s i 0 0 + _ * O s i 0 1 + _ * O s i 0 2 + _ * O s i 0 3 + (_ * O s i 1 0 + _ * O s i 1 1 + _ * O s i 1 2 + _ * O s i 1 3) +
      (_ * O s i 2 0 + _ * O s i 2 1 + _ * O s i 2 2 + _ * O s i 2 3) + (_ * O s i 3 0 + _ * O s i 3 1 + _ * O s i 3 2 + _ * O s i 3 3)
    linear_combination (k s0 ^ 2 * O s i 0 0 - k s0 * (O s i 0 3 + O s i 3 0) + O s i 3 3) * q1 +
      (k s0 ^ 2 * (2 * O s i 0 0 + O s i 1 1) + k s0 * (O s i 1 2 + O s i 2 1) + O s i 2 2 + 2 * O s i 3 3) * q2 -
      ((om:ℂ) ^ 2 * (O s i 0 0 + O s i 1 1)) * q3
  -- the sensitivities
  unfold sensR at hks
  dsimp only at hks
  split at hks
  · cases hks
  rename_i hdom
  injection hks with hks
  have hH0 : k s0 * H s0 = 4 * I.k ^ 2 * (egyR I lam L).2.1 - 2 * I.k * (egyR I lam L).2.2.1 := by
    have a : H s0 = (k s0 + k s0) * (2 * (egyR I lam L).2.1) + -2 * (egyR I lam L).2.2.1 := by
      rw [E2, E3, hH, Finset.mul_sum, ← Finset.sum_add_distrib]
    rw [a, hIk]; ring
  set dom := 4 * I.k ^ 2 * (egyR I lam L).2.1 - 2 * I.k * (egyR I lam L).2.2.1 with hdm
  have hHn : H s0 ≠ 0 := by intro h; apply hdom; rw [← hH0, h, mul_zero]
  have D : HasDerivAt (fun s => (cr s : ℂ)) (om / (k s0 * k s0) * (G s0 / H s0)) s0 := by
    refine cara (g := fun s => om / (k s * k s0) * (G s / H s)) ?_ ?_
    · filter_upwards [B.nbhd, cH.eventually_ne hHn] with s hs hne
      have ks0 := B.k0 s hs
      have r1 : (cr s : ℂ) = om / k s := by rw [eq_div_iff ks0, hk s hs]
      have r2 : (cr s0 : ℂ) = om / k s0 := by rw [eq_div_iff k0, hk s0 B.mem]
      have r3 : ((s:ℂ) - s0) * (G s / H s) = k s0 - k s := by
        rw [← mul_div_assoc, div_eq_iff hne]; linear_combination key s hs
      rw [r1, r2, show ((s:ℂ) - s0) * (om / (k s * k s0) * (G s / H s)) = om / (k s * k s0) * (((s:ℂ) - s0) * (G s / H s)) by ring, r3]
      field_simp
    · exact (continuousAt_const.div₀ (B.contk.mul continuousAt_const) (mul_ne_zero k0 k0)).mul (cG.div₀ cH hHn)
  refine D.congr_deriv ?_
  have r2 : (om:ℂ) = cr s0 * k s0 := (hk s0 B.mem).symm
  have hc0 : (cr s0 : ℂ) ≠ 0 := B.c0 s0 B.mem
  rw [show (om:ℂ) / (k s0 * k s0) * (G s0 / H s0) = cr s0 / dom * G s0 by rw [← hH0, r2]; field_simp]
  -- both sides as sums over layers
  set a1 : ℕ → ℂ := fun i => 2 * (lam i + 2 * (I.lay i).mu) / lam i / (va s0 i / I.c) * dva i -
    (if liq i then 0 else 4 * (I.lay i).mu / lam i / (vb s0 i / I.c) * dvb i) + 1 / ((I.lay i).rho / I.c) * drho i with ha1
  set a2 : ℕ → ℂ := fun i => (if liq i then 0 else 2 / (vb s0 i / I.c) * dvb i) + 1 / ((I.lay i).rho / I.c) * drho i with ha2
  set a3 : ℕ → ℂ := fun i => 1 / ((I.lay i).rho / I.c) * drho i with ha3
  have hnum := A fun i => ![(a1 i * (lam i * (I.k * I.k)) + a2 i * ((I.lay i).mu * (2 * (I.k * I.k))) - a3 i * ((I.lay i).rho * (om:ℂ)^2)) / dom,
    (a2 i * ((I.lay i).mu * (I.k * I.k)) - a3 i * ((I.lay i).rho * (om:ℂ)^2)) / dom,
    a1 i * (lam i * (-2 * I.k)) / dom, a2 i * ((I.lay i).mu * (2 * I.k)) / dom, a2 i * (I.lay i).mu / dom,
    (a1 i * lam i + a2 i * ((I.lay i).mu * 2)) / dom]
  refine Eq.trans ?_ (Eq.trans hnum.symm ?_)
  swap
  · symm
    rw [← hks, List.map_map]
    congr 1
    refine List.map_congr_left fun q _ => ?_
    simp only [Function.comp_apply, sensNumR, hIl, ha1, ha2, ha3, Fin.sum_univ_six]
    cases liq q.1
    · simp only [Bool.false_eq_true, if_false, Matrix.cons_val_zero, Matrix.cons_val_one, Matrix.cons_val]
      ring
    · simp only [if_true, Matrix.cons_val_zero, Matrix.cons_val_one, Matrix.cons_val]
      ring
  simp only [hG, Finset.mul_sum]
  refine Finset.sum_congr rfl fun i hi => ?_
  have hi := Finset.mem_range.1 hi
  have F := hI.fits i hi
  obtain ⟨M1, M2, M3⟩ := hm s0 B.mem i hi
  have L0 := hl0 i hi
  have ρ0 := F.rho0
  have b1 : al i s0 = _ := (dslope_same _ _).trans (dla i hi).deriv
  have b2 : am i s0 = _ := (dslope_same _ _).trans (dmu i hi).deriv
  have b3 : ar i s0 = _ := (dslope_same _ _).trans (drh i hi).deriv
  have va0 : (va s0 i : ℂ) ≠ 0 := by
    intro h
    have := B.lam s0 B.mem i hi
    rw [M1, M2, h] at this
    apply this; ring
  have s1 : O s0 i 2 1 = O s0 i 1 2 := overlap_swap _ _ _ _ _ _ _
  have s2 : O s0 i 3 0 = O s0 i 0 3 := overlap_swap _ _ _ _ _ _ _
  rw [b1, b2, b3, s1, s2]
  simp only [Fin.sum_univ_six, Matrix.cons_val_zero, Matrix.cons_val_one, Matrix.cons_val]
  change _ = _ * O s0 i 0 0 + _ * O s0 i 1 1 + _ * O s0 i 0 3 + _ * O s0 i 1 2 + _ * O s0 i 2 2 + _ * O s0 i 3 3
  simp only [ha1, ha2, ha3]
  rw [F.mu, F.rho, hlam i hi, hIc, hIk, r2, M3]
  rw [M3] at ρ0
  cases e : liq i
  · obtain ⟨mu0, -⟩ := F.sol (by rw [hIl, e])
    have v0 : (vb s0 i : ℂ) ≠ 0 := by intro h; apply mu0; rw [M2, h]; ring
    have hdom' : dom ≠ 0 := hdom
    simp only [Bool.false_eq_true, if_false]
    have f1 : 2 * ((m s0 i).lam + 2 * (m s0 i).mu) / (m s0 i).lam / (va s0 i / cr s0) * dva i * (m s0 i).lam =
        cr s0 * (rho s0 i * (2 * va s0 i * dva i)) := by
      rw [show 2 * ((m s0 i).lam + 2 * (m s0 i).mu) / (m s0 i).lam / (va s0 i / cr s0) * dva i * (m s0 i).lam =
        2 * ((m s0 i).lam + 2 * (m s0 i).mu) / (va s0 i / cr s0) * dva i by field_simp, M1, M2]
      field_simp; ring
    have f2 : 4 * (m s0 i).mu / (m s0 i).lam / (vb s0 i / cr s0) * dvb i * (m s0 i).lam = cr s0 * (rho s0 i * (4 * vb s0 i * dvb i)) := by
      rw [show 4 * (m s0 i).mu / (m s0 i).lam / (vb s0 i / cr s0) * dvb i * (m s0 i).lam =
        4 * (m s0 i).mu / (vb s0 i / cr s0) * dvb i by field_simp, M2]
      field_simp
    have f3 : 1 / ((rho s0 i : ℂ) / cr s0) * drho i * (m s0 i).lam = cr s0 * (drho i * ((va s0 i : ℂ)^2 - 2 * (vb s0 i : ℂ)^2)) := by
      rw [M1]; field_simp
    have f4 : 2 / ((vb s0 i : ℂ) / cr s0) * dvb i * (m s0 i).mu = cr s0 * (rho s0 i * (2 * vb s0 i * dvb i)) := by
      rw [M2]; field_simp
    have f5 : 1 / ((rho s0 i : ℂ) / cr s0) * drho i * (m s0 i).mu = cr s0 * (drho i * (vb s0 i : ℂ)^2) := by
      rw [M2]; field_simp
    have f6 : 1 / ((rho s0 i : ℂ) / cr s0) * drho i * rho s0 i = cr s0 * drho i := by field_simp
    linear_combination -(1 / dom) * ((k s0 ^ 2 * O s0 i 0 0 - 2 * k s0 * O s0 i 0 3 + O s0 i 3 3) * (f1 - f2 + f3) +
      (k s0 ^ 2 * (2 * O s0 i 0 0 + O s0 i 1 1) + 2 * k s0 * O s0 i 1 2 + O s0 i 2 2 + 2 * O s0 i 3 3) * (f4 + f5) -
      (cr s0 * k s0) ^ 2 * (O s0 i 0 0 + O s0 i 1 1) * f6)
  · have mu0 := F.liq (by rw [hIl, e])
    have v0 : (vb s0 i : ℂ) = 0 := by
      rw [M2] at mu0
      rcases mul_eq_zero.1 mu0 with h | h
      · exact absurd h ρ0
      · exact pow_eq_zero_iff two_ne_zero |>.1 h
    simp only [if_true, mu0, v0]
    rw [v0] at M1
    have f1 : 2 * (m s0 i).lam / (m s0 i).lam / (va s0 i / cr s0) * dva i * (m s0 i).lam = cr s0 * (rho s0 i * (2 * va s0 i * dva i)) := by
      rw [show 2 * (m s0 i).lam / (m s0 i).lam / (va s0 i / cr s0) * dva i * (m s0 i).lam =
        2 * (m s0 i).lam / (va s0 i / cr s0) * dva i by field_simp, M1]
      field_simp; ring
    have f3 : 1 / ((rho s0 i : ℂ) / cr s0) * drho i * (m s0 i).lam = cr s0 * (drho i * (va s0 i : ℂ)^2) := by
      rw [M1]; field_simp; ring
    have f6 : 1 / ((rho s0 i : ℂ) / cr s0) * drho i * rho s0 i = cr s0 * drho i := by field_simp
    linear_combination -(1 / dom) * ((k s0 ^ 2 * O s0 i 0 0 - 2 * k s0 * O s0 i 0 3 + O s0 i 3 3) * (f1 + f3) -
      (cr s0 * k s0) ^ 2 * (O s0 i 0 0 + O s0 i 1 1) * f6)

end GRT.Modal
