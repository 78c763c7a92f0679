import Verif.Layer.PropsBound
import Verif.RT.Props
import Mathlib.Analysis.SpecialFunctions.ExpDeriv
import Mathlib.Analysis.SpecialFunctions.Complex.Log
import Mathlib.Analysis.SpecialFunctions.Pow.Complex
import Mathlib.Analysis.Complex.RealDeriv
import Mathlib.Analysis.Complex.Polynomial.Basic

/-! Waves inside a layer as functions of depth: C15 (splitting), C16 (no amplification), C18 (vertical
derivative) for the dynamic problem, over ℂ. -/

set_option linter.unusedSectionVars false

namespace GRT.Layer

open GRT.RT Matrix Complex

/-! ### Specification: the field in a layer -/

/-- Amplitudes of the upgoing waves at depth `z` below the top of the layer. -/
noncomputable def upAt (k : ℂ) (l : Lay ℂ) (u : Fin 2 → ℂ) (z : ℝ) : Fin 2 → ℂ :=
  ![u 0 * exp (k * l.xa * z), u 1 * exp (k * l.xb * z)]

/-- Amplitudes of the downgoing waves at depth `z` below the top of the layer. -/
noncomputable def dnAt (k : ℂ) (l : Lay ℂ) (d : Fin 2 → ℂ) (z : ℝ) : Fin 2 → ℂ :=
  ![d 0 * exp (-(k * l.xa * z)), d 1 * exp (-(k * l.xb * z))]

/-- Displacement and traction at depth `z` in a layer with amplitudes `u`, `d` at its top. -/
noncomputable def psvField (k : ℂ) (m : Medium ℂ) (l : Lay ℂ) (u d : Fin 2 → ℂ) (z : ℝ) : MS ℂ :=
  psvState k m l (upAt k l u z) (dnAt k l d z)

/-- The equations of motion and Hooke's law for displacement `(q,w)` and traction `(s,t)` at
wavenumber `k` and `ω² = om2`, as first order equations in depth (solid). -/
structure Motion (k om2 : ℂ) (m : Medium ℂ) (y : ℝ → MS ℂ) (z : ℝ) : Prop where
  dq : HasDerivAt (fun z => (y z).q) (- k * (y z).w + (y z).t / m.mu) z
  dw : HasDerivAt (fun z => (y z).w) (((y z).s + m.lam * k * (y z).q) / (m.lam + 2 * m.mu)) z
  ds : HasDerivAt (fun z => (y z).s) (k * (y z).t - m.rho * om2 * (y z).w) z
  dt : HasDerivAt (fun z => (y z).t)
        (- k * m.lam * (((y z).s + m.lam * k * (y z).q) / (m.lam + 2 * m.mu) - k * (y z).q)
          + 2 * m.mu * k^2 * (y z).q - m.rho * om2 * (y z).q) z

theorem hasDerivAt_expz (a : ℂ) (z : ℝ) :
    HasDerivAt (fun z : ℝ => exp (a * z)) (a * exp (a * z)) z := by
  have h1 : HasDerivAt (fun z : ℝ => a * (z : ℂ)) a z := by
    simpa using (Complex.ofRealCLM.hasDerivAt (x := z)).const_mul a
  simpa [mul_comm] using h1.cexp

theorem hasDerivAt_four (a b c1 c2 c3 c4 : ℂ) (z : ℝ) :
    HasDerivAt (fun z : ℝ => c1 * exp (a * z) + c2 * exp (-(a * z)) + c3 * exp (b * z) + c4 * exp (-(b * z)))
      (c1 * (a * exp (a * z)) - c2 * (a * exp (-(a * z))) + c3 * (b * exp (b * z)) - c4 * (b * exp (-(b * z)))) z := by
  have e : ∀ a : ℂ, HasDerivAt (fun z : ℝ => exp (-(a * z))) (-(a * exp (-(a * z)))) z := by
    intro a
    have := hasDerivAt_expz (-a) z
    simpa [neg_mul] using this
  have h := ((((hasDerivAt_expz a z).const_mul c1).add ((e a).const_mul c2)).add
    ((hasDerivAt_expz b z).const_mul c3)).add ((e b).const_mul c4)
  exact h.congr_deriv (by ring)

/-- The field assembled from the code's up- and downgoing waves satisfies the equations of motion
everywhere in a solid layer. -/
theorem C18_field_motion {c k : ℂ} {l : Lay ℂ} {m : Medium ℂ} (h : Fits c l m) (e : l.liquid = false)
    (hlam : m.lam + 2 * m.mu ≠ 0) (u d : Fin 2 → ℂ) (z : ℝ) :
    Motion k ((c * k)^2) m (psvField k m l u d) z := by
  obtain ⟨hm, hb⟩ := h.sol e
  have hst : ∀ z, psvField k m l u d z = _ := fun z => psvState_solid h e _ _
  have hxa := h.xa; have hxb := h.xb; have hca := h.ca
  have hrc : m.rho * ((c*k)^2) = m.mu * l.cbcb * k^2 := by linear_combination -k^2 * hb
  have hla : (m.lam + 2 * m.mu) * l.caca = m.mu * l.cbcb := by rw [hca, hb]
  have F := fun c1 c2 c3 c4 => hasDerivAt_four (k * l.xa) (k * l.xb) c1 c2 c3 c4 z
  have hW : ∀ E1 E2 E3 E4 : ℂ, (m.mu * k^2 * ((2 - l.cbcb) * (u 0 * E1 + d 0 * E2) + 2 * l.xb * (u 1 * E3 - d 1 * E4))
      + m.lam * k * (k * (u 0 * E1 + d 0 * E2) + k * l.xb * (u 1 * E3 - d 1 * E4))) / (m.lam + 2 * m.mu)
      = k^2 * (1 - l.caca) * (u 0 * E1 + d 0 * E2) + k^2 * l.xb * (u 1 * E3 - d 1 * E4) := by
    intro E1 E2 E3 E4
    rw [div_eq_iff hlam]
    linear_combination k^2 * (u 0 * E1 + d 0 * E2) * hla
  refine ⟨?_, ?_, ?_, ?_⟩
  · have := F (k * u 0) (k * d 0) (k * l.xb * u 1) (-(k * l.xb * d 1))
    simp only [hst, upAt, dnAt, Matrix.cons_val_zero, Matrix.cons_val_one]
    convert this using 1
    · funext z; ring
    · generalize cexp (k * l.xa * z) = E1
      generalize cexp (-(k * l.xa * z)) = E2
      generalize cexp (k * l.xb * z) = E3
      generalize cexp (-(k * l.xb * z)) = E4
      have ht : ∀ X : ℂ, m.mu * k^2 * X / m.mu = k^2 * X := fun X => by field_simp
      rw [ht]
      linear_combination (-k^2 * (u 1 * E3 + d 1 * E4)) * hxb
  · have := F (k * l.xa * u 0) (-(k * l.xa * d 0)) (k * u 1) (k * d 1)
    simp only [hst, upAt, dnAt, Matrix.cons_val_zero, Matrix.cons_val_one, hW]
    convert this using 1
    · funext z; ring
    · linear_combination (-k^2 * (u 0 * exp (k * l.xa * z) + d 0 * exp (-(k * l.xa * z)))) * hxa
  · have := F (m.mu * k^2 * (2 - l.cbcb) * u 0) (m.mu * k^2 * (2 - l.cbcb) * d 0) (m.mu * k^2 * 2 * l.xb * u 1) (-(m.mu * k^2 * 2 * l.xb * d 1))
    simp only [hst, upAt, dnAt, Matrix.cons_val_zero, Matrix.cons_val_one, hrc]
    convert this using 1
    · funext z; ring
    · linear_combination (-2 * m.mu * k^3 * (u 1 * exp (k * l.xb * z) + d 1 * exp (-(k * l.xb * z)))) * hxb
  · have := F (m.mu * k^2 * 2 * l.xa * u 0) (-(m.mu * k^2 * 2 * l.xa * d 0)) (m.mu * k^2 * (2 - l.cbcb) * u 1) (m.mu * k^2 * (2 - l.cbcb) * d 1)
    simp only [hst, upAt, dnAt, Matrix.cons_val_zero, Matrix.cons_val_one, hrc, hW]
    convert this using 1
    · funext z; ring
    · linear_combination (k^3 * (u 0 * exp (k * l.xa * z) + d 0 * exp (-(k * l.xa * z)))) * hla
        - (2 * m.mu * k^3 * (u 0 * exp (k * l.xa * z) + d 0 * exp (-(k * l.xa * z)))) * hxa

/-! ### C18 -/

/-- The field at the top of the layer is the state of the amplitudes there. -/
theorem psvField_zero (k : ℂ) (m : Medium ℂ) (l : Lay ℂ) (u d : Fin 2 → ℂ) :
    psvField k m l u d 0 = psvState k m l u d := by
  have e1 : upAt k l u 0 = u := by ext i; fin_cases i <;> simp [upAt]
  have e2 : dnAt k l d 0 = d := by ext i; fin_cases i <;> simp [dnAt]
  rw [psvField, e1, e2]

/-- C18 (P-SV): the derivative matrices are the depth derivative of the displacement field. -/
theorem C18_deriv_PSV {k : ℂ} (m : Medium ℂ) (l : Lay ℂ) (u d : Fin 2 → ℂ) :
    HasDerivAt (fun z => (psvField k m l u d z).q) ((D11z k l *ᵥ u + D12z k l *ᵥ d) 0) 0 ∧
    HasDerivAt (fun z => (psvField k m l u d z).w) ((D11z k l *ᵥ u + D12z k l *ᵥ d) 1) 0 := by
  have F := fun c1 c2 c3 c4 => hasDerivAt_four (k * l.xa) (k * l.xb) c1 c2 c3 c4 0
  simp only [psvField, psvState, hooke, upAt, dnAt, Pi.add_apply, mv_apply]
  cases e : l.liquid
  · constructor
    · have := F (k * u 0) (k * d 0) (k * l.xb * u 1) (-(k * l.xb * d 1))
      simp only [Bool.false_eq_true, if_false, Matrix.cons_val_zero, Matrix.cons_val_one]
      convert this using 1
      · funext z; ring
      · simp [D11z, D12z, e]; ring
    · have := F (k * l.xa * u 0) (-(k * l.xa * d 0)) (k * u 1) (k * d 1)
      simp only [Bool.false_eq_true, if_false, Matrix.cons_val_zero, Matrix.cons_val_one]
      convert this using 1
      · funext z; ring
      · simp [D11z, D12z, e]; ring
  · constructor
    · have := F (k * u 0) (k * d 0) 0 0
      simp only [if_true, Matrix.cons_val_zero, Matrix.cons_val_one]
      convert this using 1
      · funext z; ring
      · simp [D11z, D12z, e]; ring
    · have := F (k * l.xa * u 0) (-(k * l.xa * d 0)) 0 0
      simp only [if_true, Matrix.cons_val_zero, Matrix.cons_val_one]
      convert this using 1
      · funext z; ring
      · simp [D11z, D12z, e]; ring

theorem state_qw {k : ℂ} (m : Medium ℂ) (l : Lay ℂ) (u d : Fin 2 → ℂ) :
    (psvState k m l u d).q = (D11 k l *ᵥ u + D12 k l *ᵥ d) 0 ∧
    (psvState k m l u d).w = (D11 k l *ᵥ u + D12 k l *ᵥ d) 1 := by
  cases e : l.liquid
  · constructor <;> simp only [mv_apply, Pi.add_apply, psvState, hooke, e] <;> simp [D11, D12, e] <;> ring
  · constructor <;> simp only [mv_apply, Pi.add_apply, psvState, hooke, e] <;> simp [D11, D12, e] <;> ring

/-- C18 (P-SV), as used by the kernel: with the receiver response `R` (from above when the receiver is
the shallower point, from below otherwise) and the arriving wave `v`, `R_EV v` is the displacement at
the receiver and `uiz_R_EV v` is its derivative with respect to depth. -/
theorem C18_kernel_PSV {k : ℂ} (m : Medium ℂ) (l : Lay ℂ) (R : Mat2 ℂ) (v : Fin 2 → ℂ) (up : Bool) :
    let u := if up then v else R *ᵥ v
    let d := if up then R *ᵥ v else v
    ((psvField k m l u d 0).q = (revPSV k l up R R *ᵥ v) 0 ∧
     (psvField k m l u d 0).w = (revPSV k l up R R *ᵥ v) 1) ∧
    HasDerivAt (fun z => (psvField k m l u d z).q) ((revzPSV k l up R R *ᵥ v) 0) 0 ∧
    HasDerivAt (fun z => (psvField k m l u d z).w) ((revzPSV k l up R R *ᵥ v) 1) 0 := by
  intro u d
  have e0 : ∀ A B : Mat2 ℂ, add A (mul B R) *ᵥ v = A *ᵥ v + B *ᵥ (R *ᵥ v) := by
    intro A B; rw [RT.add_eq, RT.mul_eq, Matrix.add_mulVec, Matrix.mulVec_mulVec]
  have hd := C18_deriv_PSV (k := k) m l u d
  rw [psvField_zero]
  have hs := state_qw (k := k) m l u d
  cases up
  · simp only [revPSV, revzPSV, Bool.false_eq_true, if_false, e0]
    simp only [u, d, Bool.false_eq_true, if_false] at hd hs ⊢
    rw [add_comm (D12 k l *ᵥ v), add_comm (D12z k l *ᵥ v)]
    exact ⟨hs, hd⟩
  · simp only [revPSV, revzPSV, if_true, e0]
    simp only [u, d, if_true] at hd hs ⊢
    exact ⟨hs, hd⟩

/-- SH field at depth `z`. -/
noncomputable def shField (k : ℂ) (m : Medium ℂ) (l : Lay ℂ) (u d : ℂ) (z : ℝ) : SHS ℂ :=
  shState k m l (u * exp (k * l.xb * z)) (d * exp (-(k * l.xb * z)))

/-- C18 (SH) in a solid: displacement and its derivative, and the SH equations of motion. -/
theorem C18_kernel_SH {k : ℂ} (m : Medium ℂ) (l : Lay ℂ) (e : l.liquid = false) (R v : ℂ) (up : Bool) :
    let u := if up then v else R * v
    let d := if up then R * v else v
    (shField k m l u d 0).v = revSH k l up R R * v ∧
    HasDerivAt (fun z => (shField k m l u d z).v) (revzSH k l up R R * v) 0 := by
  intro u d
  have F := fun c1 c2 => hasDerivAt_four (k * l.xb) 0 c1 c2 0 0 0
  cases up
  · simp only [u, d, shField, shState, revSH, revzSH, e]
    constructor
    · simp; ring
    · have := F (k * (R * v)) (k * v)
      convert this using 1
      · funext z; simp; ring
      · simp; ring
  · simp only [u, d, shField, shState, revSH, revzSH, e]
    constructor
    · simp; ring
    · have := F (k * v) (k * (R * v))
      convert this using 1
      · funext z; simp; ring
      · simp; ring

/-- The SH field satisfies `v' = t/μ`, `t' = μ k² v - ρ ω² v`. -/
theorem C18_field_motion_SH {c k : ℂ} {l : Lay ℂ} {m : Medium ℂ} (h : Fits c l m) (e : l.liquid = false)
    (u d : ℂ) (z : ℝ) :
    HasDerivAt (fun z => (shField k m l u d z).v) ((shField k m l u d z).t / m.mu) z ∧
    HasDerivAt (fun z => (shField k m l u d z).t)
      (m.mu * k^2 * (shField k m l u d z).v - m.rho * (c*k)^2 * (shField k m l u d z).v) z := by
  obtain ⟨hm, hb⟩ := h.sol e
  have F := fun c1 c2 => hasDerivAt_four (k * l.xb) 0 c1 c2 0 0 z
  have ht : ∀ X : ℂ, m.mu * X / m.mu = X := fun X => by field_simp
  simp only [shField, shState, ht]
  constructor
  · have := F (k * u) (k * d)
    convert this using 1
    · funext z; ring
    · ring
  · have := F (m.mu * k^2 * l.xb * u) (-(m.mu * k^2 * l.xb * d))
    convert this using 1
    · funext z; ring
    · linear_combination (-(m.mu * k^3 * (u * exp (k * l.xb * z) + d * exp (-(k * l.xb * z))))) * h.xb
        + k^3 * (u * exp (k * l.xb * z) + d * exp (-(k * l.xb * z))) * hb

/-! ### C16 -/

/-- The contract of C99 `csqrt` (7.3.8.3): a square root in the closed right half plane. -/
def IsCsqrt (w x : ℂ) : Prop := x * x = w ∧ 0 ≤ x.re

/-- C16: for a vertical wavenumber produced by the code's `sqrt` the factor applied for crossing a layer
has modulus at most one. -/
theorem C16_factor_le_one {w x : ℂ} (h : IsCsqrt w x) {k thk : ℝ} (hk : 0 ≤ k) (ht : 0 ≤ thk) :
    ‖exp (-(k : ℂ) * thk * x)‖ ≤ 1 := by
  rw [Complex.norm_exp]
  have : (-(k : ℂ) * thk * x).re = -(k * thk * x.re) := by
    have : (-(k : ℂ) * thk * x) = ((-(k * thk) : ℝ) : ℂ) * x := by push_cast; ring
    rw [this, Complex.re_ofReal_mul]; ring
  rw [this]
  exact Real.exp_le_one_iff.2 (neg_nonpos.2 (mul_nonneg (mul_nonneg hk ht) h.2))

/-- C16: off the branch cut (any complex frequency with attenuation or damping) the decay is strict. -/
theorem C16_factor_lt_one {w x : ℂ} (h : IsCsqrt w x) (hw : w.im ≠ 0 ∨ 0 < w.re) {k thk : ℝ} (hk : 0 < k)
    (ht : 0 < thk) : ‖exp (-(k : ℂ) * thk * x)‖ < 1 := by
  have hre : 0 < x.re := by
    rcases lt_or_eq_of_le h.2 with h1 | h1
    · exact h1
    · exfalso
      have e1 : w.re = -(x.im * x.im) := by rw [← h.1, Complex.mul_re, ← h1]; ring
      have e2 : w.im = 0 := by rw [← h.1, Complex.mul_im, ← h1]; ring
      rcases hw with hw | hw
      · exact hw e2
      · rw [e1] at hw; nlinarith [mul_self_nonneg x.im]
  rw [Complex.norm_exp]
  have : (-(k : ℂ) * thk * x).re = -(k * thk * x.re) := by
    have : (-(k : ℂ) * thk * x) = ((-(k * thk) : ℝ) : ℂ) * x := by push_cast; ring
    rw [this, Complex.re_ofReal_mul]; ring
  rw [this]
  exact Real.exp_lt_one_iff.2 (neg_lt_zero.2 (mul_pos (mul_pos hk ht) hre))

/-- C16: the factors of consecutive sublayers multiply to the factor of the whole layer. -/
theorem C16_factor_mul (k x : ℂ) (a b : ℝ) :
    exp (-k * (a + b : ℝ) * x) = exp (-k * a * x) * exp (-k * b * x) := by
  rw [← Complex.exp_add]; congr 1; push_cast; ring

/-- C16: hence the delayed reflection is never larger than the undelayed one, entry by entry. -/
theorem C16_delay_bounded {exa exb : ℂ} (ha : ‖exa‖ ≤ 1) (hb : ‖exb‖ ≤ 1) (M : PSV ℂ) (i j : Fin 2) :
    ‖(delayPSV exa exb M).RD i j‖ ≤ ‖M.RD i j‖ ∧ ‖(delayPSV exa exb M).TD i j‖ ≤ ‖M.TD i j‖ ∧
    ‖(delayPSV exa exb M).TU i j‖ ≤ ‖M.TU i j‖ := by
  have aux : ∀ x e : ℂ, ‖e‖ ≤ 1 → ‖x * e‖ ≤ ‖x‖ := by
    intro x e he; rw [norm_mul]; exact mul_le_of_le_one_right (norm_nonneg _) he
  have h2 : ∀ e f : ℂ, ‖e‖ ≤ 1 → ‖f‖ ≤ 1 → ‖e * f‖ ≤ 1 := by
    intro e f he hf; rw [norm_mul]; exact mul_le_one₀ he (norm_nonneg _) hf
  fin_cases i <;> fin_cases j <;> simp only [delayPSV] <;>
    refine ⟨?_, ?_, ?_⟩ <;> apply aux <;> first | assumption | (apply h2 <;> assumption)

/-- C13: between elastic solids the SH denominator cannot vanish. -/
theorem C13_SH_defined {l1 l2 : Lay ℂ} {w2 : ℂ} {r1 r2 : ℝ} (h1 : l1.mu = r1) (h2 : l2.mu = r2)
    (p1 : 0 < r1) (p2 : 0 < r2) (x2 : IsCsqrt w2 l2.xb)
    (hx : 0 < l1.xb.re) : ∃ M, ssSH l1 l2 = .ok M := by
  unfold ssSH
  have : l2.mu * l2.xb + l1.mu * l1.xb ≠ 0 := by
    intro h0
    have := congrArg Complex.re h0
    rw [h1, h2, Complex.add_re, Complex.re_ofReal_mul, Complex.re_ofReal_mul, Complex.zero_re] at this
    nlinarith [mul_pos p1 hx, mul_nonneg p2.le x2.2]
  simp only [this, if_false]
  exact ⟨_, rfl⟩

/-! Concrete cases: a root on the cut (propagating wave) and off it; a solid at `c = 3/4`, `α = 5/4·…`. -/
example : IsCsqrt (-9) (3 * I) ∧ IsCsqrt (16/25) (4/5) := by
  constructor
  · refine ⟨?_, by simp⟩; ring_nf; rw [I_sq]; norm_num
  · refine ⟨by norm_num, ?_⟩
    have : (4/5 : ℂ) = ((4/5 : ℝ) : ℂ) := by push_cast; rfl
    rw [this, Complex.ofReal_re]; norm_num

/-- A solid with `ρ = 1, μ = 1, λ = 2` at `c² = 3/4`... `cbcb = 3/4`, `xb = 1/2`, `caca = 3/16`. -/
example : ∃ (c : ℂ) (l : Lay ℂ), Fits c l ⟨1, 2, 1⟩ ∧ l.liquid = false ∧ (2 : ℂ) + 2 * 1 ≠ 0 := by
  obtain ⟨c, hc⟩ := IsAlgClosed.exists_pow_nat_eq (3/4 : ℂ) (n := 2) (by norm_num)
  obtain ⟨x, hx⟩ := IsAlgClosed.exists_pow_nat_eq (13/16 : ℂ) (n := 2) (by norm_num)
  refine ⟨c, { liquid := false, rho := 1, mu := 1, xa := x, xb := 1/2, caca := 3/16, cbcb := 3/4 }, ?_, rfl, by norm_num⟩
  constructor <;> simp <;> (try linear_combination hx) <;> (try linear_combination -hc) <;> norm_num

end GRT.Layer
