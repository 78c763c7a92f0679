import Verif.Modal.RaylSec
import Verif.Modal.LoveMode
import Verif.Model1D.State
import Mathlib.Analysis.ODE.ExistUnique
import Mathlib.Topology.Algebra.Module.FiniteDimension

/-! C86, C87: the Rayleigh-wave secular function vanishes exactly at the phase velocities of free P-SV waves, and the
eigenfunction written by the program is such a wave.

`RaylField` is the specification: a free wave polarised in the vertical plane, written with the equations of motion
and the boundary conditions, without reflection coefficients or amplitudes. -/

set_option linter.unusedSectionVars false

namespace GRT.Modal

open GRT.RT GRT.Layer GRT.Kernel Filter Complex Matrix

/-- Motion of a liquid: no shear traction; the horizontal acceleration is due to the pressure gradient; Hooke's law and the
vertical equation of motion. -/
structure MotionL (k om2 : ℂ) (m : Medium ℂ) (y : ℝ → MS ℂ) (z : ℝ) : Prop where
  t : (y z).t = 0
  q : k * (y z).s = - m.rho * om2 * (y z).q
  dw : HasDerivAt (fun z => (y z).w) (((y z).s + m.lam * k * (y z).q) / m.lam) z
  ds : HasDerivAt (fun z => (y z).s) (- m.rho * om2 * (y z).w) z

/-- A free P-SV wave of layers `0 .. n-1` (the last one the half-space): `y i z` is displacement and traction
at depth `z` below the top of layer `i`. -/
structure RaylField (n : ℕ) (liq : ℕ → Bool) (m : ℕ → Medium ℂ) (thk : ℕ → ℝ) (k om : ℂ)
    (y : ℕ → ℝ → MS ℂ) : Prop where
  /-- Hooke's law and the equations of motion in every solid layer -/
  solid : ∀ i, i < n → liq i = false → ∀ z, Motion k (om^2) (m i) (y i) z
  /-- the same in every liquid layer -/
  liquid : ∀ i, i < n → liq i = true → ∀ z, MotionL k (om^2) (m i) (y i) z
  /-- the surface carries no traction -/
  free : (y 0 0).s = 0 ∧ (y 0 0).t = 0
  /-- vertical displacement and traction continuous everywhere, horizontal displacement where solids are welded together -/
  contact : ∀ i, i + 1 < n → (y i (thk i)).w = (y (i+1) 0).w ∧ (y i (thk i)).s = (y (i+1) 0).s ∧
    (y i (thk i)).t = (y (i+1) 0).t ∧ (liq i = false → liq (i+1) = false → (y i (thk i)).q = (y (i+1) 0).q)
  /-- the wave dies out at depth -/
  decay : Tendsto (fun z : ℝ => (y (n-1) z).q) atTop (nhds 0) ∧ Tendsto (fun z : ℝ => (y (n-1) z).w) atTop (nhds 0) ∧
    Tendsto (fun z : ℝ => (y (n-1) z).s) atTop (nhds 0) ∧ Tendsto (fun z : ℝ => (y (n-1) z).t) atTop (nhds 0)

/-- The model as the modal routines see it: `I` describes the layers at phase velocity `c`, wavenumber `k`. -/
structure DescribesR (I : ModeIn ℂ) (S : ℕ → PSV ℂ) (m : ℕ → Medium ℂ) (thk : ℕ → ℝ) : Prop extends ModelR I S m where
  lam : ∀ i, i < I.nlay → (m i).lam + 2 * (m i).mu ≠ 0
  ea : ∀ i, i + 1 < I.nlay → I.exa i = exp (-(I.k * (I.lay i).xa * thk i))
  eb : ∀ i, i + 1 < I.nlay → I.exb i = exp (-(I.k * (I.lay i).xb * thk i))
  /-- below the last interface waves die out with depth -/
  ta : 0 < (I.k * (I.lay (I.nlay-1)).xa).re
  tb : 0 < (I.k * (I.lay (I.nlay-1)).xb).re

/-- The norms of secular.c 380-381 and 475 (`real_t amp` takes the real part of the complex root). -/
noncomputable def parC (low big : Bool) : SecPar ℂ where
  low := low
  big := big
  hyp := fun a b => (Real.sqrt (‖a‖^2 + ‖b‖^2) : ℝ)
  amp := fun t => ((Model1D.csqrt (t 0 * t 0 + t 1 * t 1 + t 2 * t 2)).re : ℝ)

/-- The eigenfunction of the program at depth `z` below the top of layer `i` (eigenfn.c 313-352). -/
noncomputable def raylOut (I : ModeIn ℂ) (S : ℕ → PSV ℂ) (thk : ℕ → ℝ) (iref : ℕ) (p : Amp4 ℂ × Amp4 ℂ) (i : ℕ) (z : ℝ) : MS ℂ :=
  eigenfnR I S iref p i (exp (-(I.k * (I.lay i).xa * z))) (exp (-(I.k * (I.lay i).xb * z)))
    (exp (-(I.k * (I.lay i).xa * (thk i - z)))) (exp (-(I.k * (I.lay i).xb * (thk i - z))))

/-! ### Waves in one layer -/

/-- The amplitudes from displacement and traction in a solid. -/
theorem solid_amps {c k : ℂ} {l : Lay ℂ} {m : Medium ℂ} (h : Fits c l m) (e : l.liquid = false) (hk : k ≠ 0) (hc : c ≠ 0)
    (ha : l.xa ≠ 0) (hb : l.xb ≠ 0) (u d : Fin 2 → ℂ) :
    let y := psvState k m l u d
    u 0 = 1/2 * (-(y.s - 2*m.mu*k*y.q) / (m.mu*k^2*l.cbcb) + (y.w/k + (y.t - 2*m.mu*k*y.w) / (m.mu*k^2*l.cbcb)) / l.xa) ∧
    d 0 = 1/2 * (-(y.s - 2*m.mu*k*y.q) / (m.mu*k^2*l.cbcb) - (y.w/k + (y.t - 2*m.mu*k*y.w) / (m.mu*k^2*l.cbcb)) / l.xa) ∧
    u 1 = 1/2 * (-(y.t - 2*m.mu*k*y.w) / (m.mu*k^2*l.cbcb) + (y.q/k + (y.s - 2*m.mu*k*y.q) / (m.mu*k^2*l.cbcb)) / l.xb) ∧
    d 1 = 1/2 * (-(y.t - 2*m.mu*k*y.w) / (m.mu*k^2*l.cbcb) - (y.q/k + (y.s - 2*m.mu*k*y.q) / (m.mu*k^2*l.cbcb)) / l.xb) := by
  obtain ⟨hm, hcb⟩ := h.sol e
  have hcb0 : l.cbcb ≠ 0 := by
    intro h0; rw [h0, mul_zero] at hcb
    exact mul_ne_zero h.rho0 (mul_ne_zero hc hc) hcb.symm
  intro y
  simp only [y, psvState_solid h e]
  refine ⟨?_, ?_, ?_, ?_⟩ <;> field_simp <;> ring

theorem liquid_amps {c k : ℂ} {l : Lay ℂ} {m : Medium ℂ} (h : Fits c l m) (e : l.liquid = true) (hk : k ≠ 0)
    (ha : l.xa ≠ 0) (u d : Fin 2 → ℂ) :
    let y := psvState k m l u d
    u 0 = 1/2 * (y.q/k + y.w/(k*l.xa)) ∧ d 0 = 1/2 * (y.q/k - y.w/(k*l.xa)) := by
  intro y
  simp only [y, psvState_liquid h e]
  refine ⟨?_, ?_⟩ <;> field_simp <;> ring

theorem state_zero {c k : ℂ} {l : Lay ℂ} {m : Medium ℂ} (h : Fits c l m) (hk : k ≠ 0) (hc : c ≠ 0)
    (ha : l.xa ≠ 0) (hb : l.xb ≠ 0) {u d : Fin 2 → ℂ} (hz : psvState k m l u d = ⟨0, 0, 0, 0⟩) :
    u 0 = 0 ∧ d 0 = 0 ∧ (l.liquid = false → u 1 = 0 ∧ d 1 = 0) := by
  cases e : l.liquid
  · obtain ⟨a, b, c', d'⟩ := solid_amps h e hk hc ha hb u d
    rw [hz] at a b c' d'
    refine ⟨by simpa using a, by simpa using b, fun _ => ⟨by simpa using c', by simpa using d'⟩⟩
  · obtain ⟨a, b⟩ := liquid_amps h e hk ha u d
    rw [hz] at a b
    exact ⟨by simpa using a, by simpa using b, fun q => by cases q⟩

theorem field_motionL {c k : ℂ} {l : Lay ℂ} {m : Medium ℂ} (h : Fits c l m) (e : l.liquid = true)
    (hlam : m.lam + 2 * m.mu ≠ 0) (u d : Fin 2 → ℂ) (z : ℝ) :
    MotionL k ((c * k)^2) m (psvField k m l u d) z := by
  have hmu := h.liq e
  rw [hmu, mul_zero, add_zero] at hlam
  have hst : ∀ z, psvField k m l u d z = _ := fun z => psvState_liquid h e _ _
  have hxa := h.xa; have hca := h.ca
  rw [hmu, mul_zero, add_zero] at hca
  have F := fun c1 c2 => hasDerivAt_four (k * l.xa) 0 c1 c2 0 0 z
  refine ⟨by rw [hst], ?_, ?_, ?_⟩
  · rw [hst]; ring
  · have := F (k * l.xa * u 0) (-(k * l.xa * d 0))
    simp only [hst, upAt, dnAt, Matrix.cons_val_zero]
    convert this using 1
    · funext z; ring
    · rw [div_eq_iff hlam]
      linear_combination k^2 * (u 0 * exp (k * l.xa * z) + d 0 * exp (-(k * l.xa * z))) * (hca - m.lam * hxa)
  · have := F (-m.rho * (c*c) * k^2 * u 0) (-m.rho * (c*c) * k^2 * d 0)
    simp only [hst, upAt, dnAt, Matrix.cons_val_zero]
    convert this using 1
    · funext z; ring
    · ring

/-- The right hand side of the equations of motion of a solid. -/
noncomputable def rhsS (k om2 : ℂ) (m : Medium ℂ) : (ℂ × ℂ × ℂ × ℂ) →ₗ[ℝ] (ℂ × ℂ × ℂ × ℂ) where
  toFun x := (- k * x.2.1 + x.2.2.2 / m.mu, (x.2.2.1 + m.lam * k * x.1) / (m.lam + 2 * m.mu), k * x.2.2.2 - m.rho * om2 * x.2.1,
    - k * m.lam * ((x.2.2.1 + m.lam * k * x.1) / (m.lam + 2 * m.mu) - k * x.1) + 2 * m.mu * k^2 * x.1 - m.rho * om2 * x.1)
  map_add' a b := by
    simp only [Prod.fst_add, Prod.snd_add, Prod.mk_add_mk, Prod.mk.injEq]
    refine ⟨?_, ?_, ?_, ?_⟩ <;> ring
  map_smul' r b := by
    simp only [Prod.smul_fst, Prod.smul_snd, Prod.smul_mk, Prod.mk.injEq, real_smul, RingHom.id_apply]
    refine ⟨?_, ?_, ?_, ?_⟩ <;> ring

/-- Every solution of the equations of motion in a solid layer is a sum of two upgoing and two downgoing waves. -/
theorem solid_general {c k : ℂ} {l : Lay ℂ} {m : Medium ℂ} (h : Fits c l m) (e : l.liquid = false) (hk : k ≠ 0) (hc : c ≠ 0)
    (ha : l.xa ≠ 0) (hb : l.xb ≠ 0) (hlam : m.lam + 2 * m.mu ≠ 0) {y : ℝ → MS ℂ}
    (hy : ∀ z, Motion k ((c*k)^2) m y z) : ∃ u d, ∀ z, y z = psvField k m l u d z := by
  obtain ⟨hm, hcb⟩ := h.sol e
  have hcb0 : l.cbcb ≠ 0 := by
    intro h0; rw [h0, mul_zero] at hcb
    exact mul_ne_zero h.rho0 (mul_ne_zero hc hc) hcb.symm
  obtain ⟨⟨u, d⟩, hud⟩ := solidMap_surj hk hm ha hb hcb0 ((y 0).q, (y 0).w, (y 0).s, (y 0).t)
  rw [← psvState_solidMap h e] at hud
  refine ⟨u, d, ?_⟩
  let G : (ℝ → MS ℂ) → ℝ → ℂ × ℂ × ℂ × ℂ := fun y z => ((y z).q, (y z).w, (y z).s, (y z).t)
  have hG : ∀ y : ℝ → MS ℂ, (∀ z, Motion k ((c*k)^2) m y z) → ∀ z, HasDerivAt (G y) (rhsS k ((c*k)^2) m (G y z)) z := by
    intro y hy z
    exact (hy z).dq.prodMk ((hy z).dw.prodMk ((hy z).ds.prodMk (hy z).dt))
  have hL : ∀ z : ℝ, LipschitzOnWith ‖(rhsS k ((c*k)^2) m).toContinuousLinearMap‖₊ (fun x => rhsS k ((c*k)^2) m x) Set.univ := by
    intro z
    exact ((rhsS k ((c*k)^2) m).toContinuousLinearMap.lipschitz).lipschitzOnWith
  have key : G y = G (psvField k m l u d) := by
    refine ODE_solution_unique_univ (v := fun _ x => rhsS k ((c*k)^2) m x) (s := fun _ => Set.univ) (t₀ := 0) hL
      (fun z => ⟨hG y hy z, Set.mem_univ _⟩)
      (fun z => ⟨hG _ (C18_field_motion h e hlam u d) z, Set.mem_univ _⟩) ?_
    simp only [G, psvField_zero]
    exact hud.symm
  intro z
  have := congrFun key z
  simp only [G, Prod.mk.injEq] at this
  obtain ⟨a, b, c, d⟩ := this
  exact MS.ext a b c d

/-- The same in a liquid. -/
theorem liquid_general {c k : ℂ} {l : Lay ℂ} {m : Medium ℂ} (h : Fits c l m) (e : l.liquid = true) (hk : k ≠ 0) (hc : c ≠ 0)
    (ha : l.xa ≠ 0) (hlam : m.lam + 2 * m.mu ≠ 0) {y : ℝ → MS ℂ}
    (hy : ∀ z, MotionL k ((c*k)^2) m y z) : ∃ u d : Fin 2 → ℂ, u 1 = 0 ∧ d 1 = 0 ∧ ∀ z, y z = psvField k m l u d z := by
  have hmu := h.liq e
  have hl0 : m.lam ≠ 0 := by rwa [hmu, mul_zero, add_zero] at hlam
  have hxa := h.xa; have hca := h.ca
  rw [hmu, mul_zero, add_zero] at hca
  have hr := h.rho0
  set a := k * l.xa with hadef
  have ha0 : a ≠ 0 := mul_ne_zero hk ha
  -- `s` and `w` in terms of one another
  have hS : ∀ z, (y z).q = -(k * (y z).s) / (m.rho * (c*k)^2) := by
    intro z
    rw [eq_div_iff (mul_ne_zero hr (pow_ne_zero _ (mul_ne_zero hc hk)))]
    linear_combination (hy z).q
  have hW : ∀ z, ((y z).s + m.lam * k * (y z).q) / m.lam = -(a^2 * (y z).s) / (m.rho * (c*k)^2) := by
    intro z
    rw [hS z, div_eq_iff hl0]
    field_simp
    rw [hadef]
    linear_combination (-k^2 * (y z).s) * hca + (m.lam * k^2 * (y z).s) * hxa
  have hE : ∀ (a : ℂ) (z : ℝ), HasDerivAt (fun z : ℝ => exp (a * z)) (a * exp (a * z)) z := by
    intro a z
    have := hasDerivAt_four a 0 1 0 0 0 z
    simpa using this
  set g := m.rho * (c*k)^2 with hg
  have hg0 : g ≠ 0 := mul_ne_zero hr (pow_ne_zero _ (mul_ne_zero hc hk))
  have P : ∀ z, ((y z).s - g / a * (y z).w) * exp (-a * z) = (y 0).s - g / a * (y 0).w := by
    intro z
    have hd : ∀ z : ℝ, HasDerivAt (fun z : ℝ => ((y z).s - g / a * (y z).w) * exp (-a * z)) 0 z := by
      intro z
      have := (((hy z).ds.sub ((hy z).dw.const_mul (g / a))).mul (hE (-a) z))
      refine this.congr_deriv ?_
      rw [hW]
      simp only [Pi.sub_apply]
      have : -m.rho * (c*k)^2 = -g := by rw [hg]; ring
      rw [this]
      field_simp
      ring
    have := is_const_of_deriv_eq_zero (f := fun z : ℝ => ((y z).s - g / a * (y z).w) * exp (-a * z))
      (fun z => (hd z).differentiableAt) (fun z => (hd z).deriv) z 0
    simpa using this
  have Q : ∀ z, ((y z).s + g / a * (y z).w) * exp (a * z) = (y 0).s + g / a * (y 0).w := by
    intro z
    have hd : ∀ z : ℝ, HasDerivAt (fun z : ℝ => ((y z).s + g / a * (y z).w) * exp (a * z)) 0 z := by
      intro z
      have := (((hy z).ds.add ((hy z).dw.const_mul (g / a))).mul (hE a z))
      refine this.congr_deriv ?_
      rw [hW]
      simp only [Pi.add_apply]
      have : -m.rho * (c*k)^2 = -g := by rw [hg]; ring
      rw [this]
      field_simp
      ring
    have := is_const_of_deriv_eq_zero (f := fun z : ℝ => ((y z).s + g / a * (y z).w) * exp (a * z))
      (fun z => (hd z).differentiableAt) (fun z => (hd z).deriv) z 0
    simpa using this
  refine ⟨![-((y 0).s - g / a * (y 0).w) / (2 * g), 0], ![-((y 0).s + g / a * (y 0).w) / (2 * g), 0], rfl, rfl, fun z => ?_⟩
  have p := P z
  have r := Q z
  have ee : exp (-a * z) * exp (a * z) = 1 := by rw [← Complex.exp_add]; simp
  have p' : (y z).s - g / a * (y z).w = ((y 0).s - g / a * (y 0).w) * exp (a * z) := by
    rw [← p]; linear_combination -((y z).s - g / a * (y z).w) * ee
  have r' : (y z).s + g / a * (y z).w = ((y 0).s + g / a * (y 0).w) * exp (-a * z) := by
    rw [← r]; linear_combination -((y z).s + g / a * (y z).w) * ee
  have en : exp (-a * z) = exp (-(a * z)) := by rw [neg_mul]
  rw [en] at r'
  have hs : (y z).s = -g * (-((y 0).s - g / a * (y 0).w) / (2 * g) * exp (a * z) +
      -((y 0).s + g / a * (y 0).w) / (2 * g) * exp (-(a * z))) := by
    field_simp
    field_simp at p' r'
    linear_combination p' + r'
  have hw : (y z).w = a * (-((y 0).s - g / a * (y 0).w) / (2 * g) * exp (a * z) -
      -((y 0).s + g / a * (y 0).w) / (2 * g) * exp (-(a * z))) := by
    field_simp
    field_simp at p' r'
    linear_combination r' - p'
  have hgc : -m.rho * (c*c) * k^2 = -g := by rw [hg]; ring
  rw [psvField, psvState_liquid h e, hgc, ← hadef]
  simp only [upAt, dnAt, Matrix.cons_val_zero, ← hadef]
  refine MS.ext ?_ hw hs (hy z).t
  rw [hS z, hs]
  field_simp

theorem dnAt_tendsto {k : ℂ} {l : Lay ℂ} (ha : 0 < (k * l.xa).re) (hb : 0 < (k * l.xb).re) (d : Fin 2 → ℂ) :
    Tendsto (fun z : ℝ => dnAt k l d z 0) atTop (nhds 0) ∧ Tendsto (fun z : ℝ => dnAt k l d z 1) atTop (nhds 0) := by
  simp only [dnAt, Matrix.cons_val_zero, Matrix.cons_val_one]
  constructor
  · simpa using (tendsto_exp_neg ha).const_mul (d 0)
  · simpa using (tendsto_exp_neg hb).const_mul (d 1)

/-- Downgoing waves die out. -/
theorem half_decay {c k : ℂ} {l : Lay ℂ} {m : Medium ℂ} (h : Fits c l m) (ha : 0 < (k * l.xa).re) (hb : 0 < (k * l.xb).re)
    (d : Fin 2 → ℂ) {y : ℝ → MS ℂ} (hy : ∀ z, y z = psvField k m l 0 d z) :
    Tendsto (fun z : ℝ => (y z).q) atTop (nhds 0) ∧ Tendsto (fun z : ℝ => (y z).w) atTop (nhds 0) ∧
    Tendsto (fun z : ℝ => (y z).s) atTop (nhds 0) ∧ Tendsto (fun z : ℝ => (y z).t) atTop (nhds 0) := by
  obtain ⟨t0, t1⟩ := dnAt_tendsto ha hb d
  have hu : ∀ z : ℝ, upAt k l 0 z = 0 := fun z => by ext i; fin_cases i <;> simp [upAt]
  simp only [hy, psvField, hu]
  have lin : ∀ A B : ℂ, Tendsto (fun z : ℝ => A * dnAt k l d z 0 + B * dnAt k l d z 1) atTop (nhds 0) := by
    intro A B
    simpa using (t0.const_mul A).add (t1.const_mul B)
  cases e : l.liquid
  · simp only [psvState_solid h e, Pi.zero_apply, zero_add, zero_sub]
    refine ⟨?_, ?_, ?_, ?_⟩
    · convert lin k (-(k * l.xb)) using 2; ring
    · convert lin (-(k * l.xa)) k using 2; ring
    · convert lin (m.mu * k^2 * (2 - l.cbcb)) (-(m.mu * k^2 * (2 * l.xb))) using 2; ring
    · convert lin (-(m.mu * k^2 * (2 * l.xa))) (m.mu * k^2 * (2 - l.cbcb)) using 2; ring
  · simp only [psvState_liquid h e, Pi.zero_apply, zero_add, zero_sub]
    refine ⟨?_, ?_, ?_, tendsto_const_nhds⟩
    · convert lin k 0 using 2; ring
    · convert lin (-(k * l.xa)) 0 using 2; ring
    · convert lin (-m.rho * (c*c) * k^2) 0 using 2; ring

/-- The upgoing part of a wave that dies out at depth is zero. -/
theorem half_no_upgoing {c k : ℂ} {l : Lay ℂ} {m : Medium ℂ} (h : Fits c l m) (hk : k ≠ 0) (hc : c ≠ 0)
    (xa0 : l.xa ≠ 0) (xb0 : l.xb ≠ 0) (ha : 0 < (k * l.xa).re) (hb : 0 < (k * l.xb).re)
    {u d : Fin 2 → ℂ} {y : ℝ → MS ℂ} (hy : ∀ z, y z = psvField k m l u d z)
    (hq : Tendsto (fun z : ℝ => (y z).q) atTop (nhds 0)) (hw : Tendsto (fun z : ℝ => (y z).w) atTop (nhds 0))
    (hs : Tendsto (fun z : ℝ => (y z).s) atTop (nhds 0)) (ht : Tendsto (fun z : ℝ => (y z).t) atTop (nhds 0)) :
    u 0 = 0 ∧ (l.liquid = false → u 1 = 0) := by
  have back : ∀ (a x : ℂ), 0 < a.re → Tendsto (fun z : ℝ => x * exp (a * z)) atTop (nhds 0) → x = 0 := by
    intro a x h0 ht
    have := ht.mul (tendsto_exp_neg h0)
    have e : (fun z : ℝ => x * exp (a * z) * exp (-(a * z))) = fun _ => x := by
      funext z
      rw [mul_assoc, ← Complex.exp_add]; simp
    rw [e, mul_zero] at this
    exact tendsto_nhds_unique tendsto_const_nhds this
  cases e : l.liquid
  · have L : ∀ A B C D : ℂ, Tendsto (fun z : ℝ => A * (y z).q + B * (y z).w + C * (y z).s + D * (y z).t) atTop (nhds 0) := by
      intro A B C D
      simpa using (((hq.const_mul A).add (hw.const_mul B)).add (hs.const_mul C)).add (ht.const_mul D)
    have am := fun z : ℝ => solid_amps h e hk hc xa0 xb0 (upAt k l u z) (dnAt k l d z)
    refine ⟨back _ _ ha ?_, fun _ => back _ _ hb ?_⟩
    · refine Tendsto.congr (fun z => ?_) (L (m.mu*k/(m.mu*k^2*l.cbcb)) (1/2*(1/k - 2*m.mu*k/(m.mu*k^2*l.cbcb))/l.xa)
        (-(1/2)/(m.mu*k^2*l.cbcb)) (1/2/(m.mu*k^2*l.cbcb)/l.xa))
      have a := (am z).1
      rw [← psvField, ← hy z] at a
      simp only [upAt, Matrix.cons_val_zero] at a
      rw [a]; ring
    · refine Tendsto.congr (fun z => ?_) (L (1/2*(1/k - 2*m.mu*k/(m.mu*k^2*l.cbcb))/l.xb) (m.mu*k/(m.mu*k^2*l.cbcb))
        (1/2/(m.mu*k^2*l.cbcb)/l.xb) (-(1/2)/(m.mu*k^2*l.cbcb)))
      have a := (am z).2.2.1
      rw [← psvField, ← hy z] at a
      simp only [upAt, Matrix.cons_val_one, Matrix.cons_val_zero] at a
      rw [a]; ring
  · refine ⟨back _ _ ha ?_, fun q => by cases q⟩
    have am := fun z : ℝ => liquid_amps h e hk xa0 (upAt k l u z) (dnAt k l d z)
    have L : Tendsto (fun z : ℝ => 1/2/k * (y z).q + 1/2/(k*l.xa) * (y z).w) atTop (nhds 0) := by
      simpa using (hq.const_mul (1/2/k)).add (hw.const_mul (1/2/(k*l.xa)))
    refine Tendsto.congr (fun z => ?_) L
    have a := (am z).1
    rw [← psvField, ← hy z] at a
    simp only [upAt, Matrix.cons_val_zero] at a
    rw [a]; ring

/-! ### From the program to the wave -/

theorem cexp_cancel (a : ℂ) : exp (-a) * exp a = 1 := by rw [← Complex.exp_add]; simp

/-- At the bottom of the layer the amplitudes are those above the next interface. -/
theorem field_bottom {I : ModeIn ℂ} {S : ℕ → PSV ℂ} {m : ℕ → Medium ℂ} {thk : ℕ → ℝ} (hI : DescribesR I S m thk) {i : ℕ}
    (hi : i + 1 < I.nlay) {a b : Amp4 ℂ} (h1 : b.dn = expM I i *ᵥ a.dn) (h2 : a.up = expM I i *ᵥ b.up) :
    psvField I.k (m i) (I.lay i) a.up a.dn (thk i) = psvState I.k (m i) (I.lay i) b.up b.dn := by
  have u : upAt I.k (I.lay i) a.up (thk i) = b.up := by
    refine ext2 ?_ ?_
    · simp only [upAt, Matrix.cons_val_zero, h2, mv_apply, expM, Matrix.of_apply, Matrix.cons_val', Matrix.cons_val_one, Matrix.cons_val_fin_one, hI.ea i hi]
      linear_combination b.up 0 * cexp_cancel (I.k * (I.lay i).xa * thk i)
    · simp only [upAt, Matrix.cons_val_zero, h2, mv_apply, expM, Matrix.of_apply, Matrix.cons_val', Matrix.cons_val_one, Matrix.cons_val_fin_one, hI.eb i hi]
      linear_combination b.up 1 * cexp_cancel (I.k * (I.lay i).xb * thk i)
  have d : dnAt I.k (I.lay i) a.dn (thk i) = b.dn := by
    refine ext2 ?_ ?_
    · simp only [dnAt, Matrix.cons_val_zero, h1, mv_apply, expM, Matrix.of_apply, Matrix.cons_val', Matrix.cons_val_one, Matrix.cons_val_fin_one, hI.ea i hi]
      ring
    · simp only [dnAt, Matrix.cons_val_zero, h1, mv_apply, expM, Matrix.of_apply, Matrix.cons_val', Matrix.cons_val_one, Matrix.cons_val_fin_one, hI.eb i hi]
      ring
  rw [psvField, u, d]

/-- The output of the program in a layer is the field with the amplitudes of the top of the layer. -/
theorem raylOut_eq {I : ModeIn ℂ} {S : ℕ → PSV ℂ} {m : ℕ → Medium ℂ} {thk : ℕ → ℝ} (hI : DescribesR I S m thk) {iref : ℕ}
    {p : Amp4 ℂ × Amp4 ℂ} {i : ℕ} (hi : i < I.nlay)
    (hl : i + 1 < I.nlay → (potDownR I S iref p i).up = expM I i *ᵥ (potUpR I S iref p (i+1)).up)
    (hb : i + 1 = I.nlay → (potDownR I S iref p i).up = 0) (z : ℝ) :
    raylOut I S thk iref p i z =
      psvField I.k (m i) (I.lay i) (potDownR I S iref p i).up (potDownR I S iref p i).dn z := by
  rw [psvField, C13_layer_matrix (hI.fits i hi) rfl]
  have hd : mulV !![exp (-(I.k * (I.lay i).xa * z)), 0; 0, exp (-(I.k * (I.lay i).xb * z))] (potDownR I S iref p i).dn =
      dnAt I.k (I.lay i) (potDownR I S iref p i).dn z := by
    refine ext2 ?_ ?_ <;> simp [mulV, dnAt, mul_comm]
  have hu : mulV !![exp (-(I.k * (I.lay i).xa * (thk i - z))), 0; 0, exp (-(I.k * (I.lay i).xb * (thk i - z)))]
      (potUpR I S iref p (i+1)).up = upAt I.k (I.lay i) (potDownR I S iref p i).up z := by
    rcases Nat.lt_or_ge (i+1) I.nlay with q | q
    · rw [hl q]
      have e1 : exp (-(I.k * (I.lay i).xa * (thk i - z))) = I.exa i * exp (I.k * (I.lay i).xa * z) := by
        rw [hI.ea i q, ← Complex.exp_add]; congr 1; ring
      have e2 : exp (-(I.k * (I.lay i).xb * (thk i - z))) = I.exb i * exp (I.k * (I.lay i).xb * z) := by
        rw [hI.eb i q, ← Complex.exp_add]; congr 1; ring
      rw [e1, e2]
      refine ext2 ?_ ?_ <;> simp [mulV, upAt, mv_apply, expM] <;> ring
    · have e : i + 1 = I.nlay := by omega
      rw [hb e]
      have : potUpR I S iref p (i+1) = Amp4.zero := by unfold potUpR; rw [if_pos (by omega)]
      rw [this]
      refine ext2 ?_ ?_ <;> simp [mulV, upAt, Amp4.zero]
  unfold raylOut eigenfnR
  simp only [hd, hu]
  refine MS.ext ?_ ?_ ?_ ?_ <;> simp only [Pi.add_apply, mv_apply] <;> ring

/-- Amplitudes that satisfy all conditions make a free wave. -/
theorem field_of_amps {I : ModeIn ℂ} {S : ℕ → PSV ℂ} {m : ℕ → Medium ℂ} {thk : ℕ → ℝ} (hI : DescribesR I S m thk) (hn : 1 ≤ I.nlay)
    {D U : ℕ → Amp4 ℂ} (L : ∀ i, i + 1 < I.nlay → LinkedR I S i (D i) (U (i+1)) (D (i+1)))
    (T : TractionFree (psvState I.k (m 0) (I.lay 0) (D 0).up (D 0).dn)) (B : (D (I.nlay - 1)).up = 0)
    {y : ℕ → ℝ → MS ℂ} (hy : ∀ i, i < I.nlay → ∀ z, y i z = psvField I.k (m i) (I.lay i) (D i).up (D i).dn z) :
    RaylField I.nlay (fun i => (I.lay i).liquid) m thk I.k (I.c * I.k) y := by
  have hf : ∀ i, i < I.nlay → y i = psvField I.k (m i) (I.lay i) (D i).up (D i).dn := fun i h => funext (hy i h)
  refine ⟨?_, ?_, ?_, ?_, ?_⟩
  · intro i hi e z
    rw [hf i hi]
    exact C18_field_motion (hI.fits i hi) e (hI.lam i hi) _ _ z
  · intro i hi e z
    rw [hf i hi]
    exact field_motionL (hI.fits i hi) e (hI.lam i hi) _ _ z
  · rw [hy 0 (by omega), psvField_zero]; exact T
  · intro i hi
    have l := L i hi
    have := linked_contact hI.toModelR hi l
    rw [← field_bottom hI hi l.dn l.up, ← psvField_zero, ← hy i (by omega), ← hy (i+1) hi] at this
    exact this
  · refine half_decay (hI.fits (I.nlay-1) (by omega)) hI.ta hI.tb (D (I.nlay-1)).dn ?_
    intro z
    rw [hy _ (by omega), B]

/-- What the program writes somewhere in the layer of the secular function or, at an interface between liquid and solid, on
one of its sides. -/
def MovesAt (I : ModeIn ℂ) (iref : ℕ) (y : ℕ → ℝ → MS ℂ) : Prop :=
  (∃ z, y iref z ≠ ⟨0, 0, 0, 0⟩) ∨ (mixed I iref = true ∧ ∃ z, y (iref-1) z ≠ ⟨0, 0, 0, 0⟩)

theorem parC_norms (low big : Bool) : NormsR (parC low big) := by
  refine ⟨by simp [parC], ?_⟩
  simp [parC, Model1D.csqrt]

/-- C87: where the secular function vanishes, the eigenfunction of the program is a free wave of the layered half-space, and it
does not vanish next to the interface of the secular function.  The last hypothesis is about the upgoing P wave above an
interface between liquid and solid being zero: the routine then computes the waves above the interface a second time, by an
inversion it does not test. -/
theorem C87_mode_partial {I : ModeIn ℂ} {S : ℕ → PSV ℂ} {m : ℕ → Medium ℂ} {thk : ℕ → ℝ} (hI : DescribesR I S m thk) {iref : ℕ}
    (hi : iref + 1 < I.nlay) (ok : SoundR I S iref) {low big : Bool} {p : Amp4 ℂ × Amp4 ℂ}
    (h : raylSecular I S (parC low big) iref = .ok ⟨0, some p⟩)
    (hx : mixed I iref = true → p.2.up 0 = 0 →
      (1 - (S iref).RD * (expM I (iref-1) * ((allFRR I S (iref-1)).RU * expM I (iref-1)))).det ≠ 0) :
    RaylField I.nlay (fun i => (I.lay i).liquid) m thk I.k (I.c * I.k) (raylOut I S thk iref p) ∧
    MovesAt I iref (raylOut I S thk iref p) := by
  obtain ⟨t, fr, cap, rl, v1, v2, zr, zf⟩ := sound_val hI.toModelR hi ok
  have hP := parC_norms low big
  have hjr : iref - 1 ≤ jr I iref := by unfold jr; split <;> omega
  have fr' : FrOkR I S (iref - 1) := fun j a b => fr j a (by omega)
  have key : SeedR I S m iref p ∧ ((∃ j, p.1.dn j ≠ 0 ∧ (j = 0 ∨ (I.lay iref).liquid = false)) ∨
      (mixed I iref = true ∧ potUpR I S iref p iref = p.2 ∧ ∃ j, p.2.up j ≠ 0 ∧ (j = 0 ∨ (I.lay (iref-1)).liquid = false))) := by
    by_cases hmx : mixed I iref = true
    · obtain ⟨n, rfl⟩ : ∃ n, iref = n + 1 := by
        cases iref with
        | zero => simp [mixed] at hmx
        | succ n => exact ⟨n, rfl⟩
      have hm : (I.lay n).liquid = !(I.lay (n+1)).liquid := by
        have hmx := hmx
        unfold mixed at hmx
        rw [Nat.add_sub_cancel] at hmx
        revert hmx
        cases (I.lay n).liquid <;> cases (I.lay (n+1)).liquid <;> simp
      obtain ⟨s1, s2, s3, s4, s5⟩ := seed_mixed hI.toModelR hP rfl hi ok hm h (hx hmx)
      refine ⟨s1, ?_⟩
      by_contra hcon
      rw [not_or] at hcon
      obtain ⟨c1, c2⟩ := hcon
      push Not at c1
      have hpu : potUpR I S (n+1) p (n+1) = p.2 := by
        have a : ¬ (I.nlay ≤ n + 1) := by omega
        have e1 : potDownR I S (n+1) p (n+1) = p.1 := by simp [potDownR, dnArrR]
        simp only [potUpR, if_neg a, lt_irrefl, if_false, if_pos (show 1 ≤ n + 1 by omega), e1, Nat.add_sub_cancel, Nat.sub_self, upGiven, if_true]
        exact s3
      apply s2
      constructor
      · refine ext2 ?_ ?_
        · by_contra q; exact absurd (c1 0 q).1 (by simp)
        · cases e : (I.lay (n+1)).liquid
          · by_contra q; exact absurd (c1 1 q).2 (by simp [e])
          · exact s5 e
      · refine ext2 ?_ ?_
        · by_contra q; exact c2 ⟨hmx, hpu, 0, q, Or.inl rfl⟩
        · cases e : (I.lay n).liquid
          · by_contra q; exact c2 ⟨hmx, hpu, 1, q, Or.inr e⟩
          · exact s4 e
    · have hmf : ((I.lay (iref-1)).liquid != (I.lay iref).liquid) = false := by
        have : mixed I iref = false := by simpa using hmx
        exact this
      cases e : (I.lay iref).liquid
      · have e2 : (I.lay (iref-1)).liquid = false := by rw [e] at hmf; simpa using hmf
        obtain ⟨s1, s2⟩ := seed_solid hI.toModelR hP hi ok e (Or.inr e2) h
        refine ⟨s1, Or.inl ?_⟩
        by_contra hcon
        push Not at hcon
        apply s2
        refine ext2 ?_ ?_
        · by_contra q; exact absurd (hcon 0 q).1 (by simp)
        · by_contra q; exact absurd (hcon 1 q).2 (by simp)
      · have e2 : (I.lay (iref-1)).liquid = true := by rw [e] at hmf; simpa using hmf
        obtain ⟨s1, s2⟩ := seed_liquid hI.toModelR hi ok e (Or.inr e2) h
        refine ⟨s1, Or.inl ⟨0, ?_, Or.inl rfl⟩⟩
        rw [s2]; simp
  obtain ⟨⟨st, tp⟩, nz⟩ := key
  obtain ⟨L, E, B, T⟩ := rayl_linked hi fr' (fun i hi' => cap i (le_trans (Nat.le_sub_one_of_lt hi') hjr)) rl st
  have F : ∀ i, i < I.nlay → ∀ z, raylOut I S thk iref p i z =
      psvField I.k (m i) (I.lay i) (potDownR I S iref p i).up (potDownR I S iref p i).dn z := by
    intro i hi' z
    refine raylOut_eq hI hi' (fun q => (L i q).up) (fun q => ?_) z
    have : i = I.nlay - 1 := by omega
    rw [this]; exact B
  have T0 : TractionFree (psvState I.k (m 0) (I.lay 0) (potDownR I S iref p 0).up (potDownR I S iref p 0).dn) := by
    by_cases h0 : iref = 0
    · subst h0
      rw [E]; exact tp rfl
    · have := C14_free_top (k := I.k) (hI.fits 0 (by omega)) (topR_ok t) (potDownR I S iref p 0).up
      rw [← allFRR_zero I S, ← T h0] at this
      exact this
  refine ⟨field_of_amps hI (by omega) L T0 B F, ?_⟩
  rcases nz with ⟨j, hj, hj2⟩ | ⟨hmx, hpu, j, hj, hj2⟩
  · left
    refine ⟨0, fun hz => hj ?_⟩
    rw [F iref (by omega), psvField_zero, E] at hz
    obtain ⟨a, b, c⟩ := state_zero (hI.fits iref (by omega)) hI.k0 hI.c0 (hI.xa0 iref (by omega)) (hI.xb0 iref (by omega)) hz
    rcases hj2 with rfl | e
    · exact b
    · have := c e
      fin_cases j
      · exact b
      · exact this.2
  · right
    obtain ⟨n, rfl⟩ : ∃ n, iref = n + 1 := by
      cases iref with
      | zero => simp [mixed] at hmx
      | succ n => exact ⟨n, rfl⟩
    rw [Nat.add_sub_cancel] at hj2 ⊢
    refine ⟨hmx, thk n, fun hz => hj ?_⟩
    have l := L n (by omega)
    rw [F n (by omega), field_bottom hI (by omega) l.dn l.up, hpu] at hz
    obtain ⟨a, b, c⟩ := state_zero (hI.fits n (by omega)) hI.k0 hI.c0 (hI.xa0 n (by omega)) (hI.xb0 n (by omega)) hz
    rcases hj2 with rfl | e
    · exact a
    · have := c e
      fin_cases j
      · exact a
      · exact this.1

/-! ### From the wave to the program -/

/-- A free wave is, in every layer, a sum of up- and downgoing waves, and their amplitudes fit together. -/
theorem field_amps {I : ModeIn ℂ} {S : ℕ → PSV ℂ} {m : ℕ → Medium ℂ} {thk : ℕ → ℝ} (hI : DescribesR I S m thk)
    (hn : 1 ≤ I.nlay) {y : ℕ → ℝ → MS ℂ}
    (hy : RaylField I.nlay (fun i => (I.lay i).liquid) m thk I.k (I.c * I.k) y) :
    ∃ D U : ℕ → Amp4 ℂ, (∀ i, i < I.nlay → ∀ z, y i z = psvField I.k (m i) (I.lay i) (D i).up (D i).dn z) ∧ AmpR I S m D U := by
  have A : ∀ i, ∃ p : Amp4 ℂ, i < I.nlay → (∀ z, y i z = psvField I.k (m i) (I.lay i) p.up p.dn z) ∧
      ((I.lay i).liquid = true → p.up 1 = 0 ∧ p.dn 1 = 0) := by
    intro i
    by_cases hi : i < I.nlay
    · cases e : (I.lay i).liquid
      · obtain ⟨u, d, hud⟩ := solid_general (hI.fits i hi) e hI.k0 hI.c0 (hI.xa0 i hi) (hI.xb0 i hi) (hI.lam i hi) (hy.solid i hi e)
        exact ⟨⟨u, d⟩, fun _ => ⟨hud, fun q => by cases q⟩⟩
      · obtain ⟨u, d, z1, z2, hud⟩ := liquid_general (hI.fits i hi) e hI.k0 hI.c0 (hI.xa0 i hi) (hI.lam i hi) (hy.liquid i hi e)
        exact ⟨⟨u, d⟩, fun _ => ⟨hud, fun _ => ⟨z1, z2⟩⟩⟩
    · exact ⟨Amp4.zero, fun q => absurd q hi⟩
  choose D hD using A
  let U : ℕ → Amp4 ℂ := fun j => ⟨upAt I.k (I.lay (j-1)) (D (j-1)).up (thk (j-1)), dnAt I.k (I.lay (j-1)) (D (j-1)).dn (thk (j-1))⟩
  refine ⟨D, U, fun i hi => (hD i hi).1, ?_, ?_, ?_, ?_⟩
  · intro i hi
    have h1 : (U (i+1)).dn = expM I i *ᵥ (D i).dn := by
      refine ext2 ?_ ?_
      · simp only [U, Nat.add_sub_cancel, dnAt, Matrix.cons_val_zero, mv_apply, expM, Matrix.of_apply, Matrix.cons_val', Matrix.cons_val_one, Matrix.cons_val_fin_one, hI.ea i hi]
        ring
      · simp only [U, Nat.add_sub_cancel, dnAt, Matrix.cons_val_zero, mv_apply, expM, Matrix.of_apply, Matrix.cons_val', Matrix.cons_val_one, Matrix.cons_val_fin_one, hI.eb i hi]
        ring
    have h2 : (D i).up = expM I i *ᵥ (U (i+1)).up := by
      refine ext2 ?_ ?_
      · simp only [U, Nat.add_sub_cancel, upAt, Matrix.cons_val_zero, mv_apply, expM, Matrix.of_apply, Matrix.cons_val', Matrix.cons_val_one, Matrix.cons_val_fin_one, hI.ea i hi]
        linear_combination -(D i).up 0 * cexp_cancel (I.k * (I.lay i).xa * thk i)
      · simp only [U, Nat.add_sub_cancel, upAt, Matrix.cons_val_zero, mv_apply, expM, Matrix.of_apply, Matrix.cons_val', Matrix.cons_val_one, Matrix.cons_val_fin_one, hI.eb i hi]
        linear_combination -(D i).up 1 * cexp_cancel (I.k * (I.lay i).xb * thk i)
    have hc : Contact (I.lay i) (I.lay (i+1)) (y i (thk i)) (y (i+1) 0) := hy.contact i hi
    rw [(hD i (by omega)).1, (hD (i+1) hi).1, field_bottom hI hi h1 h2, psvField_zero] at hc
    obtain ⟨l1, l2⟩ := contact_linked hI.toModelR hi (b := U (i+1)) (c := D (i+1))
      (fun e => by simp [U, upAt, ((hD i (by omega)).2 e).1]) (fun e => ((hD (i+1) hi).2 e).2) hc
    exact ⟨h1, h2, l1, l2⟩
  · have := hy.free
    rw [(hD 0 (by omega)).1, psvField_zero] at this
    exact this
  · obtain ⟨f, g⟩ := hD (I.nlay-1) (by omega)
    obtain ⟨q, w, s, t⟩ := hy.decay
    obtain ⟨a, b⟩ := half_no_upgoing (hI.fits (I.nlay-1) (by omega)) hI.k0 hI.c0 (hI.xa0 _ (by omega)) (hI.xb0 _ (by omega)) hI.ta hI.tb f q w s t
    refine ext2 a ?_
    cases e : (I.lay (I.nlay-1)).liquid
    · exact b e
    · exact (g e).1
  · intro i hi e
    obtain ⟨a, b⟩ := (hD i hi).2 e
    exact ⟨a, b, by simp [U, upAt, a]⟩

/-- C86, the converse: if there is a free wave that moves the layer of the secular function (or, at an interface between liquid
and solid, one of its sides), the function vanishes. -/
theorem C86_converse_partial {I : ModeIn ℂ} {S : ℕ → PSV ℂ} {m : ℕ → Medium ℂ} {thk : ℕ → ℝ} (hI : DescribesR I S m thk) {iref : ℕ}
    (hi : iref + 1 < I.nlay) (ok : SoundR I S iref) {P : SecPar ℂ} {y : ℕ → ℝ → MS ℂ}
    (hy : RaylField I.nlay (fun i => (I.lay i).liquid) m thk I.k (I.c * I.k) y) (hne : MovesAt I iref y)
    {s : ℂ} {p : Option (Amp4 ℂ × Amp4 ℂ)} (h : raylSecular I S P iref = .ok ⟨s, p⟩) : s = 0 := by
  obtain ⟨D, U, F, A⟩ := field_amps hI (by omega) hy
  refine amp_zero hI.toModelR hi ok A ?_ h
  by_contra hcon
  unfold MovesR at hcon
  push Not at hcon
  obtain ⟨c1, c2, c3⟩ := hcon
  have z0 : ∀ (i : ℕ) (z : ℝ), i < I.nlay → psvField I.k (m i) (I.lay i) 0 0 z = ⟨0, 0, 0, 0⟩ := by
    intro i z hi
    have hu : upAt I.k (I.lay i) 0 z = 0 := by ext j; fin_cases j <;> simp [upAt]
    have hd : dnAt I.k (I.lay i) 0 z = 0 := by ext j; fin_cases j <;> simp [dnAt]
    rw [psvField, hu, hd]
    cases e : (I.lay i).liquid
    · rw [psvState_solid (hI.fits i hi) e]; simp
    · rw [psvState_liquid (hI.fits i hi) e]; simp
  rcases hne with ⟨z, hz⟩ | ⟨hmx, z, hz⟩
  · apply hz
    rw [F iref (by omega), c1, c2, z0 iref z (by omega)]
  · obtain ⟨u0, d0⟩ := c3 hmx
    obtain ⟨n, rfl⟩ : ∃ n, iref = n + 1 := by
      cases iref with
      | zero => simp [mixed] at hmx
      | succ n => exact ⟨n, rfl⟩
    rw [Nat.add_sub_cancel] at hz
    apply hz
    have l := A.linked n (by omega)
    have e1 : (D n).up = 0 := by rw [l.up, u0]; simp
    have e2 : (D n).dn = 0 := by
      have := l.dn
      rw [d0] at this
      refine ext2 ?_ ?_
      · have h0 := congrFun this 0
        rw [mv_apply] at h0
        simp only [expM, Matrix.of_apply, Matrix.cons_val', Matrix.cons_val_zero, Matrix.cons_val_one, Matrix.cons_val_fin_one, Pi.zero_apply, zero_mul, add_zero, hI.ea n (by omega)] at h0
        exact (mul_eq_zero.1 h0.symm).resolve_left (exp_ne_zero _)
      · have h0 := congrFun this 1
        rw [mv_apply] at h0
        simp only [expM, Matrix.of_apply, Matrix.cons_val', Matrix.cons_val_zero, Matrix.cons_val_one, Matrix.cons_val_fin_one, Pi.zero_apply, zero_mul, zero_add, hI.eb n (by omega)] at h0
        exact (mul_eq_zero.1 h0.symm).resolve_left (exp_ne_zero _)
    rw [F n (by omega), e1, e2, z0 n z (by omega)]

/-! ### The secular function and the free waves -/

/-- Below layer `iref` amplitudes can be continued to the half-space. -/
theorem exists_below {I : ModeIn ℂ} {S : ℕ → PSV ℂ} {iref : ℕ} (hi : iref + 1 < I.nlay)
    (rl : ∀ my, iref ≤ my → my + 1 < I.nlay → RlOkR I S my (I.nlay - 1 - my)) {a : Amp4 ℂ}
    (ha : a.up = (allRLR I S iref).RD *ᵥ a.dn) :
    ∃ D U : ℕ → Amp4 ℂ, D iref = a ∧ (∀ i, iref ≤ i → i + 1 < I.nlay → LinkedR I S i (D i) (U (i+1)) (D (i+1))) ∧
      (D (I.nlay - 1)).up = 0 := by
  refine ⟨fun i => dnArrR I S iref a (i - iref), fun i => (upDownR I S i (dnArrR I S iref a (i - 1 - iref))).2, ?_, ?_, ?_⟩
  · simp [dnArrR]
  · intro i h1 h2
    obtain ⟨n, rfl⟩ : ∃ n, i = iref + n := ⟨i - iref, by omega⟩
    have := (dnArrR_below (p := (a, Amp4.zero)) hi rl ha (n+1) h2).2 n rfl
    have e1 : iref + n - iref = n := by omega
    have e2 : iref + n + 1 - iref = n + 1 := by omega
    have e3 : iref + n + 1 - 1 - iref = n := by omega
    dsimp only
    rw [e1, e2, e3]
    exact this
  · have := (dnArrR_below (p := (a, Amp4.zero)) hi rl ha (I.nlay - 1 - iref) (by omega)).1
    have e : iref + (I.nlay - 1 - iref) = I.nlay - 1 := by omega
    rw [e] at this
    have e2 : (allRLR I S (I.nlay - 1)).RD = 0 := by
      have : ¬ (I.nlay - 1 + 1 < I.nlay) := by omega
      simp [allRLR, this, resetM]
    dsimp only
    rw [this, e2]
    simp

/-- Above layer `j` amplitudes can be continued to the surface. -/
theorem exists_above {I : ModeIn ℂ} {S : ℕ → PSV ℂ} {j : ℕ} (fr : FrOkR I S j)
    (cap : ∀ i, i ≤ j → (combine (topR I) (frArrR I S i)).ok = true) {a : Amp4 ℂ}
    (ha : a.dn = (allFRR I S j).RU *ᵥ a.up) :
    ∃ D U : ℕ → Amp4 ℂ, D j = a ∧ (∀ i, i < j → LinkedR I S i (D i) (U (i+1)) (D (i+1))) ∧
      (D 0).dn = (allFRR I S 0).RU *ᵥ (D 0).up := by
  induction j generalizing a with
  | zero => exact ⟨fun _ => a, fun _ => a, rfl, fun i hi => by omega, ha⟩
  | succ j ih =>
    obtain ⟨k1, k2⟩ := up_recR (S := S) (iy := j) fr (cap _ (by omega)) (cap _ le_rfl)
    obtain ⟨l1, l2⟩ := downUpR_linked (I := I) (S := S) (u2 := Amp4.zero) (by simp [Amp4.zero]) k1 k2 ha
    obtain ⟨D, U, h1, h2, h3⟩ := ih (fun i h h' => fr i h (by omega)) (fun i h => cap i (by omega)) l2
    refine ⟨fun i => if i ≤ j then D i else a, fun i => if i ≤ j then U i else (downUpR I S j a Amp4.zero).2, by simp, ?_, by simpa using h3⟩
    intro i hi
    rcases Nat.lt_or_ge i j with q | q
    · have e1 : i ≤ j := by omega
      have e2 : i + 1 ≤ j := by omega
      simp only [if_pos e1, if_pos e2]
      exact h2 i q
    · have : i = j := by omega
      subst this
      have e2 : ¬ (i + 1 ≤ i) := by omega
      simp only [le_refl, if_true, if_neg e2, h1]
      exact l1

/-- Amplitudes above and below layer `n+1`, put together. -/
theorem glue {I : ModeIn ℂ} {S : ℕ → PSV ℂ} {D U D' U' : ℕ → Amp4 ℂ} {n : ℕ} {b : Amp4 ℂ}
    (h1 : ∀ i, i < n → LinkedR I S i (D i) (U (i+1)) (D (i+1))) (h2 : LinkedR I S n (D n) b (D' (n+1)))
    (h3 : ∀ i, n + 1 ≤ i → i + 1 < I.nlay → LinkedR I S i (D' i) (U' (i+1)) (D' (i+1))) :
    ∀ i, i + 1 < I.nlay → LinkedR I S i (if i ≤ n then D i else D' i)
      (if i + 1 ≤ n then U (i+1) else if i + 1 = n + 1 then b else U' (i+1)) (if i + 1 ≤ n then D (i+1) else D' (i+1)) := by
  intro i hi
  rcases Nat.lt_trichotomy i n with q | q | q
  · rw [if_pos (by omega), if_pos (by omega), if_pos (by omega)]
    exact h1 i q
  · subst q
    rw [if_pos (by omega), if_neg (by omega), if_pos rfl, if_neg (by omega)]
    exact h2
  · rw [if_neg (by omega), if_neg (by omega), if_neg (by omega), if_neg (by omega)]
    exact h3 i q hi

theorem det2_eq (D : Mat2 ℂ) : D.det = D 0 0 * D 1 1 - D 0 1 * D 1 0 := Matrix.det_fin_two D

/-- A zero of the secular function is the phase velocity of a wave, whatever amplitudes the routine delivers. -/
theorem wave_of_zero {I : ModeIn ℂ} {S : ℕ → PSV ℂ} {m : ℕ → Medium ℂ} {thk : ℕ → ℝ} (hI : DescribesR I S m thk) {iref : ℕ}
    (hi : iref + 1 < I.nlay) (ok : SoundR I S iref) {P : SecPar ℂ} {p : Option (Amp4 ℂ × Amp4 ℂ)}
    (h : raylSecular I S P iref = .ok ⟨0, p⟩) :
    ∃ y, RaylField I.nlay (fun i => (I.lay i).liquid) m thk I.k (I.c * I.k) y ∧ MovesAt I iref y := by
  obtain ⟨t, fr, cap, rl, v1, v2, zr, zf⟩ := sound_val hI.toModelR hi ok
  have top : ∀ a : Amp4 ℂ, a.dn = (allFRR I S 0).RU *ᵥ a.up → TractionFree (psvState I.k (m 0) (I.lay 0) a.up a.dn) := by
    intro a ha
    have := C14_free_top (k := I.k) (hI.fits 0 (by omega)) (topR_ok t) a.up
    rw [← allFRR_zero I S, ← ha] at this
    exact this
  by_cases hmx : mixed I iref = true
  · obtain ⟨n, rfl⟩ : ∃ n, iref = n + 1 := by
      cases iref with
      | zero => simp [mixed] at hmx
      | succ n => exact ⟨n, rfl⟩
    have hm : (I.lay n).liquid = !(I.lay (n+1)).liquid := by
      have hmx := hmx
      unfold mixed at hmx
      rw [Nat.add_sub_cancel] at hmx
      revert hmx
      cases (I.lay n).liquid <;> cases (I.lay (n+1)).liquid <;> simp
    have hj : jr I (n+1) = n := by simp [jr, hmx]
    rw [hj] at fr cap v1 zf
    obtain ⟨lq, so, mq, ms, sgn, f1, f2, hl, hs, R3, A, hA, -, hsec⟩ := mixed_form hI.toModelR rfl hi ok hm P
    obtain ⟨R, hR, h0, -⟩ := hsec _ _ h
    have hd : det3 R = 0 := by
      split at h0
      · have h4 : (4 * I.c * I.c : ℂ) ≠ 0 := mul_ne_zero (mul_ne_zero (by norm_num) hI.c0) hI.c0
        exact (div_eq_zero_iff.1 h0.symm).resolve_right h4
      · exact h0.symm
    rw [det3_eq] at hd
    obtain ⟨t', hne, hnull⟩ := Matrix.exists_mulVec_eq_zero_iff.2 hd
    obtain ⟨a1, a2, a3, a4, a5, a6⟩ := hA t'
    have hcon := a6.2 ((mat3_null f1 f2 hl hI.c0 hs hR t').1 hnull)
    obtain ⟨c, b, hcb⟩ : ∃ c b, A t' = (c, b) := ⟨_, _, rfl⟩
    rw [hcb] at a1 a2 a3 a4 a5 hcon
    obtain ⟨l1, l2⟩ := contact_linked hI.toModelR (b := b) (c := c) (by omega) a3 a4 hcon
    obtain ⟨D', U', g1, g2, g3⟩ := exists_below (S := S) hi rl a1
    obtain ⟨D, U, k1, k2, k3⟩ := exists_above (S := S) (a := ⟨expM I n *ᵥ b.up, (allFRR I S n).RU *ᵥ (expM I n *ᵥ b.up)⟩) fr cap rfl
    have hL : LinkedR I S n (D n) b (D' (n+1)) := by
      rw [k1, g1]
      refine ⟨?_, rfl, l1, l2⟩
      rw [a2]
      simp only [Matrix.mulVec_mulVec]
    have G := glue k2 hL g2
    let DD : ℕ → Amp4 ℂ := fun i => if i ≤ n then D i else D' i
    have F : RaylField I.nlay (fun i => (I.lay i).liquid) m thk I.k (I.c * I.k)
        (fun i => psvField I.k (m i) (I.lay i) (DD i).up (DD i).dn) := by
      refine field_of_amps hI (by omega) (D := DD) (U := fun i => if i ≤ n then U i else if i = n + 1 then b else U' i) G ?_ ?_ (fun _ _ _ => rfl)
      · exact top _ (by simpa [DD] using k3)
      · have : ¬ (I.nlay - 1 ≤ n) := by omega
        simp only [DD, if_neg this]
        exact g3
    refine ⟨_, F, ?_⟩
    by_contra hcon2
    unfold MovesAt at hcon2
    push Not at hcon2
    obtain ⟨c1, c2⟩ := hcon2
    have d1 := c1 0
    have d2 := c2 hmx (thk n)
    have ej : ¬ (n + 1 ≤ n) := by omega
    simp only [Nat.add_sub_cancel, DD, le_refl, if_true, if_neg ej, g1, psvField_zero] at d1 d2
    rw [field_bottom hI (by omega) hL.dn hL.up] at d2
    have z1 := state_zero (hI.fits (n+1) (by omega)) hI.k0 hI.c0 (hI.xa0 _ (by omega)) (hI.xb0 _ (by omega)) d1
    have z2 := state_zero (hI.fits n (by omega)) hI.k0 hI.c0 (hI.xa0 _ (by omega)) (hI.xb0 _ (by omega)) d2
    apply hne
    refine a5 (ext2 z1.2.1 ?_) (ext2 z2.1 ?_)
    · cases e : (I.lay (n+1)).liquid
      · exact (z1.2.2 e).2
      · exact a4 e
    · cases e : (I.lay n).liquid
      · exact (z2.2.2 e).1
      · exact a3 e
  · have hmf : mixed I iref = false := by simpa using hmx
    have hj : jr I iref = iref := by simp [jr, hmf]
    rw [hj] at fr cap v1 zf
    have hmf2 : ((I.lay (iref-1)).liquid != (I.lay iref).liquid) = false := hmf
    -- amplitudes in layer `iref`
    have key : ∃ a : Amp4 ℂ, a.up = (allRLR I S iref).RD *ᵥ a.dn ∧ (iref ≠ 0 → a.dn = (allFRR I S iref).RU *ᵥ a.up) ∧
        (iref = 0 → TractionFree (psvState I.k (m 0) (I.lay 0) a.up a.dn)) ∧ a.dn ≠ 0 ∧ ((I.lay iref).liquid = true → a.dn 1 = 0) := by
      unfold raylSecular raylSecularOf at h
      rw [v1, v2] at h
      set F := (allFRR I S iref).RU with hF
      set R := (allRLR I S iref).RD with hR
      cases e : (I.lay iref).liquid
      · have e2 : (I.lay (iref-1)).liquid = false := by rw [e] at hmf2; simpa using hmf2
        rw [if_pos ⟨e, Or.inr e2⟩] at h
        injection h with h
        injection h with hs _
        have hd : (detSS I iref P.low F R).det = 0 := by
          rw [det2_eq]
          split at hs
          · exact (div_eq_zero_iff.1 hs).resolve_right two_ne_zero
          · exact hs
        obtain ⟨v, hv, hn⟩ := Matrix.exists_mulVec_eq_zero_iff.2 hd
        obtain ⟨s1, s2⟩ := seed_solid_null hI.toModelR hi ok e (Or.inr e2) hn
        exact ⟨⟨R *ᵥ v, v⟩, rfl, s1, s2, hv, fun q => by cases q⟩
      · have e2 : (I.lay (iref-1)).liquid = true := by rw [e] at hmf2; simpa using hmf2
        rw [if_neg (by rw [e]; rintro ⟨q, -⟩; cases q), if_pos ⟨e, Or.inr e2⟩] at h
        injection h with h
        injection h with hs _
        have hR1 : (![R 0 0, 0] : Fin 2 → ℂ) = R *ᵥ ![1, 0] := by
          refine ext2 ?_ ?_ <;> rw [mv_apply]
          · simp
          · rw [zr e 0]; simp
        have hF1 : (![1, 0] : Fin 2 → ℂ) = F *ᵥ ![R 0 0, 0] := by
          refine ext2 ?_ ?_ <;> rw [mv_apply]
          · simp; linear_combination hs
          · have zf' : F 1 0 = 0 := zf iref le_rfl e 0
            rw [zf']; simp
        refine ⟨⟨![R 0 0, 0], ![1, 0]⟩, hR1, fun _ => hF1, ?_, ?_, fun _ => rfl⟩
        · intro h0
          subst h0
          exact top _ hF1
        · intro q
          have := congrFun q 0
          simp at this
    obtain ⟨a, b1, b2, b3, b4, b5⟩ := key
    obtain ⟨D', U', g1, g2, g3⟩ := exists_below (S := S) hi rl b1
    have fin : ∀ (DD UU : ℕ → Amp4 ℂ), (∀ i, i + 1 < I.nlay → LinkedR I S i (DD i) (UU (i+1)) (DD (i+1))) → DD iref = a →
        TractionFree (psvState I.k (m 0) (I.lay 0) (DD 0).up (DD 0).dn) → (DD (I.nlay-1)).up = 0 →
        ∃ y, RaylField I.nlay (fun i => (I.lay i).liquid) m thk I.k (I.c * I.k) y ∧ MovesAt I iref y := by
      intro DD UU hL he hT hB
      refine ⟨_, field_of_amps hI (by omega) hL hT hB (fun _ _ _ => rfl), Or.inl ⟨0, fun hz => b4 ?_⟩⟩
      dsimp only at hz
      rw [psvField_zero, he] at hz
      have z1 := state_zero (hI.fits iref (by omega)) hI.k0 hI.c0 (hI.xa0 _ (by omega)) (hI.xb0 _ (by omega)) hz
      refine ext2 z1.2.1 ?_
      cases e : (I.lay iref).liquid
      · exact (z1.2.2 e).2
      · exact b5 e
    cases iref with
    | zero => exact fin D' U' (fun i h => g2 i (by omega) h) g1 (by rw [g1]; exact b3 rfl) g3
    | succ n =>
      obtain ⟨D, U, k1, k2, k3⟩ := exists_above (S := S) fr cap (b2 (by omega))
      refine fin (fun i => if i ≤ n then D i else D' i) (fun i => if i ≤ n then U i else if i = n + 1 then U (n+1) else U' i)
        (glue (fun i q => k2 i (by omega)) (by rw [g1, ← k1]; exact k2 n (by omega)) g2) ?_ (by simpa using top _ k3) ?_
      · simp [g1]
      · have : ¬ (I.nlay - 1 ≤ n) := by omega
        simp only [if_neg this]
        exact g3

/-- C86: the secular function vanishes exactly where there is a free wave that moves the layer it is taken in
(at an interface between liquid and solid: one of the two sides). -/
theorem C86_secular_iff_partial {I : ModeIn ℂ} {S : ℕ → PSV ℂ} {m : ℕ → Medium ℂ} {thk : ℕ → ℝ} (hI : DescribesR I S m thk) {iref : ℕ}
    (hi : iref + 1 < I.nlay) (ok : SoundR I S iref) {P : SecPar ℂ} {s : ℂ} {p : Option (Amp4 ℂ × Amp4 ℂ)}
    (h : raylSecular I S P iref = .ok ⟨s, p⟩) :
    s = 0 ↔ ∃ y, RaylField I.nlay (fun i => (I.lay i).liquid) m thk I.k (I.c * I.k) y ∧ MovesAt I iref y := by
  constructor
  · intro hs
    subst hs
    exact wave_of_zero hI hi ok h
  · rintro ⟨y, hy, hne⟩
    exact C86_converse_partial hI hi ok hy hne h

end GRT.Modal
