import Verif.Modal.Love

/-! C76: the Love-wave secular function vanishes exactly at the phase velocities of free Love waves, and the
eigenfunction written by the program is such a wave.

`LoveField` is the specification: a horizontally polarised free wave `exp(i(kx - ωt))` of the layered
half-space, written with the equation of motion and the boundary conditions, without reflection coefficients
or amplitudes. -/

set_option linter.unusedSectionVars false

namespace GRT.Modal

open GRT.RT GRT.Layer GRT.Kernel Filter Complex

/-- A free SH wave of layers `0 .. n-1` (the last one the half-space): `y i z` is displacement and traction
at depth `z` below the top of layer `i`. -/
structure LoveField (n : ℕ) (liq : ℕ → Bool) (m : ℕ → Medium ℂ) (thk : ℕ → ℝ) (k om : ℂ)
    (y : ℕ → ℝ → SHS ℂ) : Prop where
  /-- Hooke's law and the equation of motion in every solid layer -/
  motion : ∀ i, i < n → liq i = false → ∀ z,
    HasDerivAt (fun z => (y i z).v) ((y i z).t / (m i).mu) z ∧
    HasDerivAt (fun z => (y i z).t) ((m i).mu * k^2 * (y i z).v - (m i).rho * om^2 * (y i z).v) z
  /-- no SH motion in liquids -/
  liquid : ∀ i, i < n → liq i = true → ∀ z, (y i z).v = 0 ∧ (y i z).t = 0
  /-- the surface carries no traction -/
  free : (y 0 0).t = 0
  /-- traction continuous everywhere, displacement where solids are welded together -/
  contact : ∀ i, i + 1 < n → (y i (thk i)).t = (y (i+1) 0).t ∧
    (liq i = false → liq (i+1) = false → (y i (thk i)).v = (y (i+1) 0).v)
  /-- the wave dies out at depth -/
  decay : Tendsto (fun z : ℝ => (y (n-1) z).v) atTop (nhds 0)

/-- The model as the modal routines see it: `I` describes the layers at phase velocity `c`, wavenumber `k`. -/
structure Describes (I : ModeIn ℂ) (S : ℕ → SH ℂ) (m : ℕ → Medium ℂ) (thk : ℕ → ℝ) : Prop where
  k0 : I.k ≠ 0
  fits : ∀ i, i < I.nlay → Fits I.c (I.lay i) (m i)
  xb0 : ∀ i, i < I.nlay → (I.lay i).liquid = false → (I.lay i).xb ≠ 0
  ex : ∀ i, i + 1 < I.nlay → I.exb i = exp (-(I.k * (I.lay i).xb * thk i))
  rt : ∀ i, i + 1 < I.nlay → rtSH (I.lay i) (I.lay (i+1)) = .ok (S (i+1))
  /-- below the last interface waves die out with depth -/
  trapped : (I.lay (I.nlay-1)).liquid = false → 0 < (I.k * (I.lay (I.nlay-1)).xb).re

/-- The eigenfunction of the program at depth `z` below the top of layer `i` (eigenfn.c 347-384). -/
noncomputable def loveOut (I : ModeIn ℂ) (S : ℕ → SH ℂ) (thk : ℕ → ℝ) (iref : ℕ) (pot : ℂ × ℂ) (i : ℕ) (z : ℝ) : SHS ℂ :=
  let p := eigenfnL I S iref pot i (exp (-(I.k * (I.lay i).xb * z))) (exp (-(I.k * (I.lay i).xb * (thk i - z))))
  ⟨p.1, p.2⟩

/-- Every solution of the SH equations in a layer is a sum of an upgoing and a downgoing wave. -/
theorem sh_general {c k : ℂ} {l : Lay ℂ} {m : Medium ℂ} (h : Fits c l m) (e : l.liquid = false) (hk : k ≠ 0)
    (hx : l.xb ≠ 0) {y : ℝ → SHS ℂ}
    (hy : ∀ z, HasDerivAt (fun z => (y z).v) ((y z).t / m.mu) z ∧
      HasDerivAt (fun z => (y z).t) (m.mu * k^2 * (y z).v - m.rho * (c*k)^2 * (y z).v) z) :
    ∃ u d, ∀ z, y z = shField k m l u d z := by
  obtain ⟨hm, hb⟩ := h.sol e
  set q := k * l.xb with hq
  have hq0 : q ≠ 0 := mul_ne_zero hk hx
  have hqq : m.mu * k^2 - m.rho * (c*k)^2 = m.mu * q^2 := by
    have := h.xb
    rw [hq]
    linear_combination k^2 * hb - m.mu * k^2 * this
  have hE : ∀ (a : ℂ) (z : ℝ), HasDerivAt (fun z : ℝ => exp (a * z)) (a * exp (a * z)) z := by
    intro a z
    have := hasDerivAt_four a 0 1 0 0 0 z
    simpa using this
  -- the two amplitudes do not change with depth
  have P : ∀ z, (((y z).v + (y z).t / (m.mu * q)) * exp (-q * z)) = (y 0).v + (y 0).t / (m.mu * q) := by
    intro z
    have hd : ∀ z : ℝ, HasDerivAt (fun z : ℝ => ((y z).v + (y z).t / (m.mu * q)) * exp (-q * z)) 0 z := by
      intro z
      have := (((hy z).1.add ((hy z).2.div_const (m.mu * q))).mul (hE (-q) z))
      refine this.congr_deriv ?_
      have e2 : (m.mu * k^2 * (y z).v - m.rho * (c*k)^2 * (y z).v) / (m.mu * q) = q * (y z).v := by
        rw [div_eq_iff (mul_ne_zero hm hq0)]
        linear_combination (y z).v * hqq
      rw [e2]
      simp only [Pi.add_apply]
      field_simp
      ring
    have := is_const_of_deriv_eq_zero (f := fun z : ℝ => ((y z).v + (y z).t / (m.mu * q)) * exp (-q * z))
      (fun z => (hd z).differentiableAt) (fun z => (hd z).deriv) z 0
    simpa using this
  have Q : ∀ z, (((y z).v - (y z).t / (m.mu * q)) * exp (q * z)) = (y 0).v - (y 0).t / (m.mu * q) := by
    intro z
    have hd : ∀ z : ℝ, HasDerivAt (fun z : ℝ => ((y z).v - (y z).t / (m.mu * q)) * exp (q * z)) 0 z := by
      intro z
      have := (((hy z).1.sub ((hy z).2.div_const (m.mu * q))).mul (hE q z))
      refine this.congr_deriv ?_
      have e2 : (m.mu * k^2 * (y z).v - m.rho * (c*k)^2 * (y z).v) / (m.mu * q) = q * (y z).v := by
        rw [div_eq_iff (mul_ne_zero hm hq0)]
        linear_combination (y z).v * hqq
      rw [e2]
      simp only [Pi.sub_apply]
      field_simp
      ring
    have := is_const_of_deriv_eq_zero (f := fun z : ℝ => ((y z).v - (y z).t / (m.mu * q)) * exp (q * z))
      (fun z => (hd z).differentiableAt) (fun z => (hd z).deriv) z 0
    simpa using this
  refine ⟨((y 0).v + (y 0).t / (m.mu * q)) / (2*k), ((y 0).v - (y 0).t / (m.mu * q)) / (2*k), fun z => ?_⟩
  have p := P z
  have r := Q z
  have ee : exp (-q * z) * exp (q * z) = 1 := by rw [← Complex.exp_add]; simp
  have p' : (y z).v + (y z).t / (m.mu * q) = ((y 0).v + (y 0).t / (m.mu * q)) * exp (q * z) := by
    rw [← p]; linear_combination -((y z).v + (y z).t / (m.mu * q)) * ee
  have r' : (y z).v - (y z).t / (m.mu * q) = ((y 0).v - (y 0).t / (m.mu * q)) * exp (-q * z) := by
    rw [← r]; linear_combination -((y z).v - (y z).t / (m.mu * q)) * ee
  set A := (y 0).v + (y 0).t / (m.mu * q)
  set B := (y 0).v - (y 0).t / (m.mu * q)
  have en : exp (-q * z) = exp (-(q * z)) := by rw [neg_mul]
  rw [en] at r'
  have hv : (y z).v = (shField k m l (A / (2*k)) (B / (2*k)) z).v := by
    simp only [shField, shState, ← hq]
    field_simp
    linear_combination p' + r'
  have ht : (y z).t = (shField k m l (A / (2*k)) (B / (2*k)) z).t := by
    have h2 : 2 * ((y z).t / (m.mu * q)) = A * exp (q * z) - B * exp (-(q * z)) := by
      linear_combination p' - r'
    have h3 : (y z).t = m.mu * q * ((y z).t / (m.mu * q)) := by
      field_simp
    rw [h3]
    generalize (y z).t / (m.mu * q) = X at h2
    simp only [shField, shState, ← hq]
    field_simp
    linear_combination h2
  cases hz : y z
  cases hw : shField k m l (A / (2*k)) (B / (2*k)) z
  rw [hz, hw] at hv ht
  simp only at hv ht
  rw [hv, ht]

theorem tendsto_exp_neg {q : ℂ} (h : 0 < q.re) : Tendsto (fun z : ℝ => exp (-(q * z))) atTop (nhds 0) := by
  rw [tendsto_zero_iff_norm_tendsto_zero]
  have : (fun z : ℝ => ‖exp (-(q * z))‖) = fun z : ℝ => Real.exp (-(q.re * z)) := by
    funext z
    rw [Complex.norm_exp]
    simp
  rw [this]
  exact Real.tendsto_exp_neg_atTop_nhds_zero.comp (tendsto_id.const_mul_atTop h)

/-- The upgoing part of a wave that dies out at depth is zero. -/
theorem no_upgoing {k : ℂ} {m : Medium ℂ} {l : Lay ℂ} (hk : k ≠ 0) (h : 0 < (k * l.xb).re) {u d : ℂ}
    (ht : Tendsto (fun z : ℝ => (shField k m l u d z).v) atTop (nhds 0)) : u = 0 := by
  have e := tendsto_exp_neg h
  have a := ht.mul e
  have b : Tendsto (fun z : ℝ => k * u + k * d * (exp (-(k * l.xb * z)) * exp (-(k * l.xb * z)))) atTop
      (nhds (k * u + k * d * (0 * 0))) := tendsto_const_nhds.add ((e.mul e).const_mul _)
  have c : (fun z : ℝ => (shField k m l u d z).v * exp (-(k * l.xb * z))) =
      fun z : ℝ => k * u + k * d * (exp (-(k * l.xb * z)) * exp (-(k * l.xb * z))) := by
    funext z
    have ee : exp (k * l.xb * z) * exp (-(k * l.xb * z)) = 1 := by rw [← Complex.exp_add]; simp
    simp only [shField, shState]
    linear_combination k * u * ee
  rw [c] at a
  have := tendsto_nhds_unique a b
  simp only [mul_zero, add_zero] at this
  exact (mul_eq_zero.1 this.symm).resolve_left hk

/-- The output of the program in a solid layer above the half-space is the field with the amplitudes of the
top of the layer. -/
theorem loveOut_field {I : ModeIn ℂ} {S : ℕ → SH ℂ} {m : ℕ → Medium ℂ} {thk : ℕ → ℝ} (hI : Describes I S m thk) {iref : ℕ}
    {pot : ℂ × ℂ} {i : ℕ} (hi : i + 1 < I.nlay) (e : (I.lay i).liquid = false)
    (hl : (potDown I S iref pot i).1 = I.exb i * (potUp I S iref pot (i+1)).1) (z : ℝ) :
    loveOut I S thk iref pot i z =
      shField I.k (m i) (I.lay i) (potDown I S iref pot i).1 (potDown I S iref pot i).2 z := by
  have hmu := (hI.fits i (by omega)).mu
  have e2 : exp (-(I.k * (I.lay i).xb * (thk i - z))) = I.exb i * exp (I.k * (I.lay i).xb * z) := by
    rw [hI.ex i hi, ← Complex.exp_add]; congr 1; ring
  simp only [loveOut, eigenfnL, e, Bool.false_eq_true, if_false, e2, hl, shField, shState, layT, Matrix.of_apply,
    Matrix.cons_val_zero, Matrix.cons_val_one, Matrix.cons_val', Matrix.cons_val_fin_one, hmu]
  congr 1 <;> ring

/-- The same in the half-space. -/
theorem loveOut_half {I : ModeIn ℂ} {S : ℕ → SH ℂ} {m : ℕ → Medium ℂ} {thk : ℕ → ℝ} (hI : Describes I S m thk) {iref : ℕ}
    {pot : ℂ × ℂ} (h2 : 2 ≤ I.nlay) (e : (I.lay (I.nlay-1)).liquid = false) (z : ℝ) :
    loveOut I S thk iref pot (I.nlay-1) z =
      shField I.k (m (I.nlay-1)) (I.lay (I.nlay-1)) 0 (potDown I S iref pot (I.nlay-1)).2 z := by
  have hmu := (hI.fits (I.nlay-1) (by omega)).mu
  have hU : potUp I S iref pot (I.nlay - 1 + 1) = (0, 0) := by
    unfold potUp; rw [if_pos (by omega)]
  simp only [loveOut, eigenfnL, e, Bool.false_eq_true, if_false, hU, shField, shState, layT, Matrix.of_apply,
    Matrix.cons_val_zero, Matrix.cons_val_one, Matrix.cons_val', Matrix.cons_val_fin_one, hmu]
  congr 1 <;> ring

theorem loveOut_liquid {I : ModeIn ℂ} {S : ℕ → SH ℂ} {thk : ℕ → ℝ} {iref : ℕ}
    {pot : ℂ × ℂ} {i : ℕ} (e : (I.lay i).liquid = true) (z : ℝ) :
    loveOut I S thk iref pot i z = ⟨0, 0⟩ := by
  simp [loveOut, eigenfnL, e]

/-- C76: where the secular function of a solid layer vanishes, the eigenfunction of the program is a free Love
wave, and it does not vanish in that layer. -/
theorem C76_mode {I : ModeIn ℂ} {S : ℕ → SH ℂ} {m : ℕ → Medium ℂ} {thk : ℕ → ℝ} (hI : Describes I S m thk) {iref : ℕ}
    (hi : iref + 1 < I.nlay) (hl : (I.lay iref).liquid = false) (ok : AllOkL I S) {pot : ℂ × ℂ}
    (h : loveSecular I S iref = some (0, pot)) :
    LoveField I.nlay (fun i => (I.lay i).liquid) m thk I.k (I.c * I.k) (loveOut I S thk iref pot) ∧
    ∃ z, loveOut I S thk iref pot iref z ≠ ⟨0, 0⟩ := by
  obtain ⟨L, T, B, Z⟩ := love_linked hi ok hI.rt hl h
  have F : ∀ i, i < I.nlay → (I.lay i).liquid = false → ∀ z, loveOut I S thk iref pot i z =
      shField I.k (m i) (I.lay i) (potDown I S iref pot i).1 (potDown I S iref pot i).2 z := by
    intro i hi' e z
    rcases Nat.lt_or_ge (i+1) I.nlay with q | q
    · exact loveOut_field hI q e (L i q).up z
    · have : i = I.nlay - 1 := by omega
      subst this
      rw [loveOut_half hI (by omega) e, B]
  have G : ∀ i, i < I.nlay → ∀ z, loveOut I S thk iref pot i z =
      shField I.k (m i) (I.lay i) (potDown I S iref pot i).1 (potDown I S iref pot i).2 z := by
    intro i hi' z
    cases e : (I.lay i).liquid
    · exact F i hi' e z
    · rw [loveOut_liquid e, Z i hi' e]
      simp [shField, shState]
  refine ⟨⟨?_, ?_, ?_, ?_, ?_⟩, 0, ?_⟩
  · intro i hi' e z
    have := C18_field_motion_SH (k := I.k) (hI.fits i hi') e (potDown I S iref pot i).1 (potDown I S iref pot i).2 z
    rw [G i hi' z]
    have e1 : (fun z => (loveOut I S thk iref pot i z).v) = fun z => (shField I.k (m i) (I.lay i)
        (potDown I S iref pot i).1 (potDown I S iref pot i).2 z).v := by funext z; rw [G i hi' z]
    have e2 : (fun z => (loveOut I S thk iref pot i z).t) = fun z => (shField I.k (m i) (I.lay i)
        (potDown I S iref pot i).1 (potDown I S iref pot i).2 z).t := by funext z; rw [G i hi' z]
    rw [e1, e2]
    exact this
  · intro i hi' e z
    rw [loveOut_liquid e]; exact ⟨rfl, rfl⟩
  · rw [G 0 (by omega)]
    have := (C14_SH (k := I.k) (hI.fits 0 (by omega)) (potDown I S iref pot 0).1).1
    simp only [shField, ofReal_zero, mul_zero, exp_zero, neg_zero, mul_one]
    rw [T]
    simpa [topL] using this
  · intro i hi'
    have l := L i hi'
    have := C13_interface_SH (k := I.k) (hI.fits i (by omega)) (hI.fits (i+1) hi') (hI.rt i hi')
      (potUp I S iref pot (i+1)).2 (potDown I S iref pot (i+1)).1
    rw [← l.refl, ← l.trans] at this
    rw [G i (by omega), G (i+1) hi']
    have a : shField I.k (m i) (I.lay i) (potDown I S iref pot i).1 (potDown I S iref pot i).2 (thk i) =
        shState I.k (m i) (I.lay i) (potUp I S iref pot (i+1)).1 (potUp I S iref pot (i+1)).2 := by
      have ee : exp (-(I.k * (I.lay i).xb * thk i)) * exp (I.k * (I.lay i).xb * thk i) = 1 := by
        rw [← Complex.exp_add]; simp
      rw [shField, l.up, l.dn, hI.ex i hi']
      congr 1
      · linear_combination (potUp I S iref pot (i+1)).1 * ee
      · ring
    have b : shField I.k (m (i+1)) (I.lay (i+1)) (potDown I S iref pot (i+1)).1 (potDown I S iref pot (i+1)).2 0 =
        shState I.k (m (i+1)) (I.lay (i+1)) (potDown I S iref pot (i+1)).1 (potDown I S iref pot (i+1)).2 := by
      simp [shField]
    rw [a, b]
    exact this
  · cases e : (I.lay (I.nlay-1)).liquid
    · have e1 : (fun z => (loveOut I S thk iref pot (I.nlay-1) z).v) = fun z : ℝ =>
          I.k * (potDown I S iref pot (I.nlay-1)).2 * exp (-(I.k * (I.lay (I.nlay-1)).xb * z)) := by
        funext z; rw [loveOut_half hI (by omega) e]; simp [shField, shState]; ring
      rw [e1]
      have := (tendsto_exp_neg (hI.trapped e)).const_mul (I.k * (potDown I S iref pot (I.nlay-1)).2)
      simpa using this
    · have e1 : (fun z => (loveOut I S thk iref pot (I.nlay-1) z).v) = fun _ : ℝ => (0:ℂ) := by
        funext z; rw [loveOut_liquid e]
      rw [e1]
      exact tendsto_const_nhds
  · rw [G iref (by omega)]
    obtain ⟨-, hp⟩ := loveSecular_val hi ok h
    have e1 : (potDown I S iref pot iref).2 = 1 := by
      unfold potDown
      rw [if_pos le_rfl, Nat.sub_self, dnArr, hp]
    rw [e1]
    intro hz
    obtain ⟨hm, -⟩ := (hI.fits iref (by omega)).sol hl
    have hk := hI.k0
    have hx := hI.xb0 iref (by omega) hl
    simp only [shField, shState, ofReal_zero, mul_zero, exp_zero, neg_zero, mul_one, SHS.mk.injEq] at hz
    obtain ⟨h1, h2⟩ := hz
    have a1 := (mul_eq_zero.1 h1).resolve_left hk
    have a2 := (mul_eq_zero.1 ((mul_eq_zero.1 ((mul_eq_zero.1 h2).resolve_left hm)).resolve_left hk)).resolve_left
      (mul_ne_zero hk hx)
    have : (2 : ℂ) = 0 := by linear_combination a1 - a2
    norm_num at this

/-- A free Love wave is, in every layer, a sum of two waves, and their amplitudes fit together. -/
theorem field_linked {I : ModeIn ℂ} {S : ℕ → SH ℂ} {m : ℕ → Medium ℂ} {thk : ℕ → ℝ} (hI : Describes I S m thk)
    (hn : 1 ≤ I.nlay) {y : ℕ → ℝ → SHS ℂ}
    (hy : LoveField I.nlay (fun i => (I.lay i).liquid) m thk I.k (I.c * I.k) y) :
    ∃ D U : ℕ → ℂ × ℂ, (∀ i, i < I.nlay → ∀ z, y i z = shField I.k (m i) (I.lay i) (D i).1 (D i).2 z) ∧
      (∀ i, i + 1 < I.nlay → Linked I S i (D i) (U (i+1)) (D (i+1))) ∧ (D 0).2 = (topL I).RUL * (D 0).1 ∧
      (D (I.nlay - 1)).1 = 0 := by
  have hk := hI.k0
  have A : ∀ i, ∃ p : ℂ × ℂ, i < I.nlay → (∀ z, y i z = shField I.k (m i) (I.lay i) p.1 p.2 z) ∧
      ((I.lay i).liquid = true → p = (0, 0)) := by
    intro i
    by_cases hi' : i < I.nlay
    · cases e : (I.lay i).liquid
      · obtain ⟨u, d, hud⟩ := sh_general (hI.fits i hi') e hk (hI.xb0 i hi' e) (hy.motion i hi' e)
        exact ⟨(u, d), fun _ => ⟨hud, fun q => by cases q⟩⟩
      · refine ⟨(0, 0), fun _ => ⟨fun z => ?_, fun _ => rfl⟩⟩
        obtain ⟨a, b⟩ := hy.liquid i hi' e z
        cases hz : y i z
        rw [hz] at a b
        simp only at a b
        simp [shField, shState, a, b]
    · exact ⟨(0, 0), fun q => absurd q hi'⟩
  choose D hD using A
  have ee : ∀ i, exp (-(I.k * (I.lay i).xb * thk i)) * exp (I.k * (I.lay i).xb * thk i) = 1 := fun i => by
    rw [← Complex.exp_add]; simp
  refine ⟨D, fun j => ((D (j-1)).1 * exp (I.k * (I.lay (j-1)).xb * thk (j-1)),
      (D (j-1)).2 * exp (-(I.k * (I.lay (j-1)).xb * thk (j-1)))), fun i hi' => (hD i hi').1, ?_, ?_, ?_⟩
  · intro i hi'
    obtain ⟨f1, g1⟩ := hD i (by omega)
    obtain ⟨f2, g2⟩ := hD (i+1) hi'
    have hc := hy.contact i hi'
    rw [f1, f2] at hc
    simp only [shField, ofReal_zero, mul_zero, exp_zero, neg_zero, mul_one] at hc
    have ex := hI.ex i hi'
    have key : (D i).1 * exp (I.k * (I.lay i).xb * thk i) =
          (S (i+1)).RDL * ((D i).2 * exp (-(I.k * (I.lay i).xb * thk i))) + (S (i+1)).TUL * (D (i+1)).1 ∧
        (D (i+1)).2 = (S (i+1)).TDL * ((D i).2 * exp (-(I.k * (I.lay i).xb * thk i))) + (S (i+1)).RUL * (D (i+1)).1 := by
      have hrt := hI.rt i hi'
      cases e1 : (I.lay i).liquid
      · cases e2 : (I.lay (i+1)).liquid
        · exact C13_ss_SH_unique (hI.fits i (by omega)) (hI.fits (i+1) hi') e1 e2 hrt hk _ _ _ _ ⟨hc.1, fun _ _ => hc.2 e1 e2⟩
        · rw [g2 e2] at hc ⊢
          obtain ⟨hm, -⟩ := (hI.fits i (by omega)).sol e1
          have hx := hI.xb0 i (by omega) e1
          have t := hc.1
          simp only [shState, mul_zero, sub_zero] at t
          have a2 := (mul_eq_zero.1 ((mul_eq_zero.1 ((mul_eq_zero.1 t).resolve_left hm)).resolve_left hk)).resolve_left
            (mul_ne_zero hk hx)
          unfold rtSH at hrt
          simp [e1, e2, lsSH] at hrt
          rw [← hrt]
          simp only [mul_zero, add_zero, one_mul, zero_mul]
          exact ⟨sub_eq_zero.1 a2, trivial⟩
      · cases e2 : (I.lay (i+1)).liquid
        · rw [g1 e1] at hc ⊢
          obtain ⟨hm, -⟩ := (hI.fits (i+1) hi').sol e2
          have hx := hI.xb0 (i+1) hi' e2
          have t := hc.1.symm
          simp only [shState, zero_mul, mul_zero, sub_zero] at t
          have a2 := (mul_eq_zero.1 ((mul_eq_zero.1 ((mul_eq_zero.1 t).resolve_left hm)).resolve_left hk)).resolve_left
            (mul_ne_zero hk hx)
          unfold rtSH at hrt
          simp [e1, e2, lsSH] at hrt
          rw [← hrt]
          simp only [mul_zero, add_zero, one_mul, zero_mul, zero_add]
          exact ⟨trivial, (sub_eq_zero.1 a2).symm⟩
        · rw [g1 e1, g2 e2]
          simp
    refine ⟨?_, ?_, key.1, key.2⟩
    · rw [ex]; simp only [Nat.add_sub_cancel]; ring
    · rw [ex]; simp only [Nat.add_sub_cancel]
      linear_combination -(D i).1 * ee i
  · obtain ⟨f1, g1⟩ := hD 0 (by omega)
    have t := hy.free
    rw [f1] at t
    simp only [shField, shState, ofReal_zero, mul_zero, exp_zero, neg_zero, mul_one] at t
    cases e : (I.lay 0).liquid
    · obtain ⟨hm, -⟩ := (hI.fits 0 (by omega)).sol e
      have hx := hI.xb0 0 (by omega) e
      have a2 := (mul_eq_zero.1 ((mul_eq_zero.1 ((mul_eq_zero.1 t).resolve_left hm)).resolve_left hk)).resolve_left
        (mul_ne_zero hk hx)
      simp only [topL, freeBoundSH, e, Bool.not_false, if_true, one_mul]
      exact (sub_eq_zero.1 a2).symm
    · rw [g1 e]; simp
  · have hn : I.nlay - 1 < I.nlay := by omega
    obtain ⟨f1, g1⟩ := hD (I.nlay-1) hn
    cases e : (I.lay (I.nlay-1)).liquid
    · have hd := hy.decay
      have e1 : (fun z => (y (I.nlay-1) z).v) = fun z => (shField I.k (m (I.nlay-1)) (I.lay (I.nlay-1))
        (D (I.nlay-1)).1 (D (I.nlay-1)).2 z).v := by funext z; rw [f1]
      rw [e1] at hd
      exact no_upgoing hk (hI.trapped e) hd
    · rw [g1 e]

/-- C76, the converse: if there is a free Love wave that moves layer `iref`, the secular function of that layer
vanishes. -/
theorem C76_converse {I : ModeIn ℂ} {S : ℕ → SH ℂ} {m : ℕ → Medium ℂ} {thk : ℕ → ℝ} (hI : Describes I S m thk) {iref : ℕ}
    (hi : iref + 1 < I.nlay) (ok : AllOkL I S) {y : ℕ → ℝ → SHS ℂ}
    (hy : LoveField I.nlay (fun i => (I.lay i).liquid) m thk I.k (I.c * I.k) y)
    (hne : ∃ z, y iref z ≠ ⟨0, 0⟩) {s : ℂ} {pot : ℂ × ℂ} (h : loveSecular I S iref = some (s, pot)) : s = 0 := by
  obtain ⟨D, U, F, L, T, B⟩ := field_linked hI (by omega) hy
  refine linked_love hi ok L T B ?_ h
  intro e
  obtain ⟨z, hz⟩ := hne
  apply hz
  rw [F iref (by omega), e]
  simp [shField, shState]

/-- C76: the zeros of the secular function of a solid layer are exactly the phase velocities at which a free
Love wave moves this layer. -/
theorem C76_secular_iff {I : ModeIn ℂ} {S : ℕ → SH ℂ} {m : ℕ → Medium ℂ} {thk : ℕ → ℝ} (hI : Describes I S m thk) {iref : ℕ}
    (hi : iref + 1 < I.nlay) (hl : (I.lay iref).liquid = false) (ok : AllOkL I S) {s : ℂ} {pot : ℂ × ℂ}
    (h : loveSecular I S iref = some (s, pot)) :
    s = 0 ↔ ∃ y, LoveField I.nlay (fun i => (I.lay i).liquid) m thk I.k (I.c * I.k) y ∧ ∃ z, y iref z ≠ ⟨0, 0⟩ := by
  constructor
  · intro e
    subst e
    exact ⟨_, C76_mode hI hi hl ok h⟩
  · rintro ⟨y, hy, hne⟩
    exact C76_converse hI hi ok hy hne h

/-! ### The half-space as the layer of the secular function -/

/-- C77 for the layers above the half-space: a zero found for a layer is a mode that moves this layer. (Missing: the half-space,
`C77_halfspace_violated`.) -/
theorem C77_layer_partial {I : ModeIn ℂ} {S : ℕ → SH ℂ} {m : ℕ → Medium ℂ} {thk : ℕ → ℝ} (hI : Describes I S m thk) {iref : ℕ}
    (hi : iref + 1 < I.nlay) (hl : (I.lay iref).liquid = false) (ok : AllOkL I S) {pot : ℂ × ℂ}
    (h : loveSecular I S iref = some (0, pot)) :
    ∃ y, LoveField I.nlay (fun i => (I.lay i).liquid) m thk I.k (I.c * I.k) y ∧ ∃ z, y iref z ≠ ⟨0, 0⟩ :=
  (C76_secular_iff hI hi hl ok h).1 rfl

theorem loveLoop_iref {K : Type*} [Field K] [DecidableEq K] {I : ModeIn K} {S : ℕ → SH K} {a b : ℕ} (n : ℕ) (ha : n ≤ a) (hb : n ≤ b) :
    loveLoop I S a n = loveLoop I S b n := by
  induction n with
  | zero => rfl
  | succ n ih =>
    simp only [loveLoop, ih (by omega) (by omega)]
    congr 1
    funext p
    simp only [loveStep, if_pos ha, if_pos hb]

/-- C77 violated: the half-space itself may be asked for (`-X+i`, grt_eigenv.c 536-539 only tests `iref < n`).  The secular
function is then that of the layer above it. -/
theorem C77_halfspace_violated {K : Type*} [Field K] [DecidableEq K] (I : ModeIn K) (S : ℕ → SH K) (h2 : 2 ≤ I.nlay) :
    loveSecular I S (I.nlay - 1) = loveSecular I S (I.nlay - 2) := by
  unfold loveSecular loveMats
  rw [loveLoop_iref (a := I.nlay - 1) (b := I.nlay - 2) (I.nlay - 2) (by omega) le_rfl]

/-- C77 violated for the half-space: at every zero of the function the first step of the eigenfunction divides
by zero (the value of the secular function itself, eigenfn.c 184-213). -/
theorem C77_division_violated {I : ModeIn ℂ} {S : ℕ → SH ℂ} (h2 : 2 ≤ I.nlay) (ok : AllOkL I S) {pot : ℂ × ℂ}
    (h : loveSecular I S (I.nlay - 1) = some (0, pot)) :
    1 - (S (I.nlay - 1)).RDL * ((allFR I S (I.nlay - 2)).RUL * (I.exb (I.nlay - 2) * I.exb (I.nlay - 2))) = 0 := by
  rw [C77_halfspace_violated I S h2] at h
  have hs := (loveSecular_val (by omega) ok h).1
  obtain ⟨k1, k2⟩ := down_rec h2 ok (my := I.nlay - 2) (by omega)
  have e : I.nlay - 2 + 1 = I.nlay - 1 := by omega
  rw [e] at k1 k2
  have z : (allRL I S (I.nlay - 1)).RDL = 0 := by
    have : ¬ (I.nlay - 1 + 1 < I.nlay) := by omega
    simp [allRL, this, resetM]
  rw [z] at k1 k2
  simp only [mul_zero, sub_zero, mul_one, zero_mul, add_zero] at k2
  rw [k2] at hs
  linear_combination -hs

/-! ### A layer over a half-space: the fundamental mode at `kH = π/4` -/

/-- Layer: `xb = i`, `μ = 1/2`; half-space: `xb = 1/2`, `μ = 1`; `k = c = 1`. -/
noncomputable def exLoveI : ModeIn ℂ where
  nlay := 2
  k := 1
  c := 1
  lay := fun i => if i = 0 then ⟨false, 1, 1/2, 0, I, 1, 2⟩ else ⟨false, 3/4, 1, 4/5, 1/2, 9/25, 3/4⟩
  exa := fun _ => 1
  exb := fun _ => exp (-(1 * I * (Real.pi / 4 : ℝ)))

noncomputable def exLoveS : ℕ → SH ℂ := fun _ => { RDL := I, RUL := -I, TDL := 1 + I, TUL := 1 - I }

noncomputable def exLoveM : ℕ → Medium ℂ := fun i => if i = 0 then ⟨1, 0, 1/2⟩ else ⟨3/4, 1/12, 1⟩

theorem exLove_rt : ssSH (K := ℂ) ⟨false, 1, 1/2, 0, I, 1, 2⟩ ⟨false, 3/4, 1, 4/5, 1/2, 9/25, 3/4⟩ =
    .ok { RDL := I, RUL := -I, TDL := 1 + I, TUL := 1 - I } := by
  have hI : I * I = -1 := I_mul_I
  have hd : (1 * (1/2) + 1/2 * I : ℂ) ≠ 0 := by
    intro e
    have : (1 : ℂ) = 0 := by linear_combination (1 - I) * e + 1/2 * hI
    exact one_ne_zero this
  unfold ssSH
  dsimp only
  rw [if_neg hd]
  have e1 : (1 * (1/2) - 1/2 * I : ℂ) / (1 * (1/2) + 1/2 * I) = -I := by
    rw [div_eq_iff hd]; linear_combination 1/2 * hI
  have e2 : 1/2 * I * (2 / (1 * (1/2) + 1/2 * I) : ℂ) = 1 + I := by
    rw [mul_div_assoc', div_eq_iff hd]; linear_combination -1/2 * hI
  have e3 : 1 * (1/2) * (2 / (1 * (1/2) + 1/2 * I) : ℂ) = 1 - I := by
    rw [mul_div_assoc', div_eq_iff hd]; linear_combination 1/2 * hI
  rw [e1, e2, e3, neg_neg]

theorem exLove_exp : exp (-(1 * I * (Real.pi / 4 : ℝ))) * exp (-(1 * I * (Real.pi / 4 : ℝ))) = -I := by
  rw [← Complex.exp_add]
  have : -(1 * I * ((Real.pi / 4 : ℝ) : ℂ)) + -(1 * I * ((Real.pi / 4 : ℝ) : ℂ)) = -(Real.pi / 2 * I) := by
    push_cast; ring
  rw [this, Complex.exp_neg, Complex.exp_pi_div_two_mul_I, Complex.inv_I]

theorem exLove_describes : Describes exLoveI exLoveS exLoveM (fun _ => Real.pi / 4) := by
  refine ⟨one_ne_zero, ?_, ?_, ?_, ?_, ?_⟩
  · intro i _
    by_cases e : i = 0
    · subst e
      refine ⟨rfl, ?_, rfl, ?_, ?_, ?_, ?_, ?_⟩ <;> norm_num [exLoveI, exLoveM]
    · refine ⟨?_, ?_, ?_, ?_, ?_, ?_, ?_, ?_⟩ <;> norm_num [exLoveI, exLoveM, e]
  · intro i _ _
    by_cases e : i = 0 <;> norm_num [exLoveI, e]
  · intro i hi
    have : i = 0 := by simp only [exLoveI] at hi; omega
    subst this
    simp [exLoveI]
  · intro i hi
    have : i = 0 := by simp only [exLoveI] at hi; omega
    subst this
    have := exLove_rt
    simpa [exLoveI, exLoveS, rtSH] using this
  · intro _
    simp [exLoveI]

theorem exLove_ok : AllOkL exLoveI exLoveS := by
  intro i hi
  have : i = 0 := by simp only [exLoveI] at hi; omega
  subst this
  simp [allFR, allRL, exLoveI, frArr, rlArr, capTopL, capBotL, recRU_SH, recRD_SH, resetM, Store.set]

theorem exLove_sec : loveSecular exLoveI exLoveS 0 = some (0, (1, 1)) := by
  have h := exLove_exp
  have e : I * (exp (-(1 * I * (Real.pi / 4 : ℝ))) * exp (-(1 * I * (Real.pi / 4 : ℝ)))) = 1 := by
    rw [h]; simp
  have hl : loveLoop exLoveI exLoveS 0 (exLoveI.nlay - 2) = some (resetM, resetM) := rfl
  simp only [loveSecular, loveMats, hl, Option.bind_some]
  simp [capTopL, capBotL, recRU_SH, recRD_SH, resetM, Store.set, topL, botL, freeBoundSH, putS, exLoveS, exLoveI]
  simp only [one_mul, Complex.ofReal_div, Complex.ofReal_ofNat] at e
  exact ⟨by rw [e]; ring, e⟩

/-- The hypotheses of `C77_division_violated` are met. -/
example : loveSecular exLoveI exLoveS 1 = some (0, (1, 1)) :=
  (C77_halfspace_violated exLoveI exLoveS le_rfl).trans exLove_sec

/-- The hypotheses of `C76_mode` are met, and there is a Love wave. -/
example : ∃ y, LoveField 2 (fun _ => false) exLoveM (fun _ => Real.pi / 4) 1 1 y ∧ ∃ z, y 0 z ≠ ⟨0, 0⟩ := by
  have := C76_mode exLove_describes (iref := 0) (by decide) rfl exLove_ok exLove_sec
  obtain ⟨a, b⟩ := this
  refine ⟨_, ?_, b⟩
  have e : (fun i => (exLoveI.lay i).liquid) = fun _ => false := by
    funext i; by_cases e : i = 0 <;> simp [exLoveI, e]
  rw [e] at a
  simpa [exLoveI] using a

end GRT.Modal
