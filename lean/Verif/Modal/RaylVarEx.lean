import Verif.Modal.RaylVar
import Verif.Modal.RaylEx
import Mathlib.Analysis.SpecialFunctions.Trigonometric.Arctan
import Mathlib.Analysis.SpecialFunctions.Trigonometric.ArctanDeriv

/-! C88, C89, C90: a mode of an ocean on an elastic half-space to which the theorems apply. -/

set_option linter.unusedSectionVars false

namespace GRT.Modal

open GRT.RT GRT.Layer GRT.Kernel Filter Complex MeasureTheory Topology Matrix

/-- Wavenumber, phase velocity, vertical wavenumbers (divided by `k`; imaginary in the water), densities. -/
structure Oc where
  k : ℝ
  c : ℝ
  e : ℝ
  xa : ℝ
  xb : ℝ
  r1 : ℝ
  r2 : ℝ

namespace Oc

noncomputable def mu (o : Oc) : ℝ := o.r2 * o.c^2 / (1 - o.xb^2)
noncomputable def P (o : Oc) : ℝ := 4 * o.e * o.mu * (((1 + o.xb^2) / 2)^2 - o.xa * o.xb)
noncomputable def Q (o : Oc) : ℝ := o.r1 * o.c^2 * (1 - o.xb^2) * o.xa

/-- Thickness of the water. -/
noncomputable def H : ℝ := Real.pi / 4

structure Ok (o : Oc) : Prop where
  k : 0 < o.k
  c : 0 < o.c
  e : 0 < o.e
  xa : 0 < o.xa
  xb : 0 < o.xb
  xa1 : o.xa < 1
  xb1 : o.xb < 1
  r1 : 0 < o.r1
  r2 : 0 < o.r2
  phase : o.k * o.e * H = Real.arctan (-o.P / o.Q)

noncomputable def I (o : Oc) : ModeIn ℂ where
  nlay := 2
  k := o.k
  c := o.c
  lay := fun i => if i = 0 then ⟨true, o.r1, 0, Complex.I * o.e, 1, 1 + (o.e:ℂ)^2, 0⟩
    else ⟨false, o.r2, o.mu, o.xa, o.xb, 1 - (o.xa:ℂ)^2, 1 - (o.xb:ℂ)^2⟩
  exa := fun _ => exp (-(o.k * (Complex.I * o.e) * H))
  exb := fun _ => exp (-(o.k * 1 * H))

noncomputable def M (o : Oc) : ℕ → Medium ℂ := fun i => if i = 0 then ⟨o.r1, o.r1 * (o.c:ℂ)^2 / (1 + (o.e:ℂ)^2), 0⟩
  else ⟨o.r2, o.r2 * (o.c:ℂ)^2 / (1 - (o.xa:ℂ)^2) - 2 * o.mu, o.mu⟩

noncomputable def S (o : Oc) : ℕ → PSV ℂ := fun _ =>
  match rtPSV (K := ℂ) o.c (o.I.lay 0) (o.I.lay 1) with
  | .ok r => r
  | _ => { RD := 0, RU := 0, TD := 0, TU := 0 }

noncomputable def pot : Amp4 ℂ × Amp4 ℂ := (⟨![-1, 0], ![1, 0]⟩, Amp4.zero)

variable {o : Oc}

theorem Ok.xbq (h : o.Ok) : 0 < 1 - o.xb^2 := by have := h.xb; have := h.xb1; nlinarith
theorem Ok.xaq (h : o.Ok) : 0 < 1 - o.xa^2 := by have := h.xa; have := h.xa1; nlinarith
theorem Ok.mu0 (h : o.Ok) : 0 < o.mu := by have := h.xbq; have := h.r2; have := h.c; unfold mu; positivity
theorem Ok.Q0 (h : o.Ok) : 0 < o.Q := by have := h.xbq; have := h.r1; have := h.c; have := h.xa; unfold Q; positivity

theorem Ok.den (h : o.Ok) : (Complex.I * o.P + o.Q : ℂ) ≠ 0 := by
  intro e
  have := congrArg Complex.re e
  simp at this
  exact h.Q0.ne' this

theorem Ok.rt (h : o.Ok) : rtPSV (K := ℂ) o.c (o.I.lay 0) (o.I.lay 1) = .ok (o.S 1) ∧
    (o.S 1).RD = !![(Complex.I * o.P - o.Q) / (Complex.I * o.P + o.Q), 0; 0, 0] := by
  have hb := h.xbq
  have hA : 4 * ((1 - 1/2 * (1 - (o.xb:ℂ)^2)) * (1 - 1/2 * (1 - (o.xb:ℂ)^2))) * (Complex.I * o.e) * o.mu +
      o.r1 * ((o.c:ℂ) * o.c) * (1 - (o.xb:ℂ)^2) * o.xa - 4 * o.mu * (Complex.I * o.e) * o.xa * o.xb = Complex.I * o.P + o.Q := by
    simp only [P, Q]; push_cast; ring
  have hD : 4 * ((1 - 1/2 * (1 - (o.xb:ℂ)^2)) * (1 - 1/2 * (1 - (o.xb:ℂ)^2))) * (Complex.I * o.e) * o.mu -
      o.r1 * ((o.c:ℂ) * o.c) * (1 - (o.xb:ℂ)^2) * o.xa - 4 * o.mu * (Complex.I * o.e) * o.xa * o.xb = Complex.I * o.P - o.Q := by
    simp only [P, Q]; push_cast; ring
  have x0 : (o.xb:ℂ) ≠ 0 := by exact_mod_cast h.xb.ne'
  have g0 : (1 - 1/2 * (1 - (o.xb:ℂ)^2)) ≠ 0 := by
    have : ((1 - 1/2 * (1 - o.xb^2) : ℝ) : ℂ) ≠ 0 := by
      have := h.xb
      exact_mod_cast (show (0:ℝ) < 1 - 1/2 * (1 - o.xb^2) by nlinarith).ne'
    push_cast at this
    exact this
  have key : ∃ r, rtPSV (K := ℂ) o.c (o.I.lay 0) (o.I.lay 1) = .ok r ∧
      r.RD = !![(Complex.I * o.P - o.Q) / (Complex.I * o.P + o.Q), 0; 0, 0] := by
    unfold rtPSV lsPSV lsCore
    simp only [I, if_true, one_ne_zero, if_false, Bool.not_true, Bool.not_false, Bool.false_and, Bool.and_false, Bool.false_eq_true, hA, hD]
    rw [if_neg h.den, if_neg (by rintro (q | q); exacts [x0 q, g0 q])]
    exact ⟨_, rfl, rfl⟩
  obtain ⟨r, h1, h2⟩ := key
  have e : o.S 1 = r := by unfold S; rw [h1]
  rw [e]
  exact ⟨h1, h2⟩

theorem two {i : ℕ} (hi : i < o.I.nlay) : i = 0 ∨ i = 1 := by simp only [I] at hi; omega

theorem Ok.desc (h : o.Ok) : DescribesR o.I o.S o.M (fun _ => H) := by
  have k0 : (o.k:ℂ) ≠ 0 := by exact_mod_cast h.k.ne'
  have c0 : (o.c:ℂ) ≠ 0 := by exact_mod_cast h.c.ne'
  have e0 : (o.e:ℂ) ≠ 0 := by exact_mod_cast h.e.ne'
  have xa0 : (o.xa:ℂ) ≠ 0 := by exact_mod_cast h.xa.ne'
  have xb0 : (o.xb:ℂ) ≠ 0 := by exact_mod_cast h.xb.ne'
  have r10 : (o.r1:ℂ) ≠ 0 := by exact_mod_cast h.r1.ne'
  have r20 : (o.r2:ℂ) ≠ 0 := by exact_mod_cast h.r2.ne'
  have m0 : (o.mu:ℂ) ≠ 0 := by exact_mod_cast h.mu0.ne'
  have q1 : (1 + (o.e:ℂ)^2) ≠ 0 := by
    have : (1 + o.e^2) ≠ 0 := by positivity
    exact_mod_cast this
  have q2 : (1 - (o.xa:ℂ)^2) ≠ 0 := by exact_mod_cast h.xaq.ne'
  have q3 : (1 - (o.xb:ℂ)^2) ≠ 0 := by exact_mod_cast h.xbq.ne'
  refine ⟨⟨k0, c0, ?_, ?_, ?_, ?_⟩, ?_, ?_, ?_, ?_, ?_⟩
  · intro i hi
    rcases two hi with rfl | rfl
    · refine ⟨rfl, r10, rfl, ?_, ?_, ?_, ?_, ?_⟩
      · simp only [I, if_true]; linear_combination (o.e:ℂ)^2 * Complex.I_mul_I
      · simp [I]
      · simp only [I, M, if_true]; field_simp; ring
      · intro _; rfl
      · intro q; simp [I] at q
    · refine ⟨rfl, r20, rfl, ?_, ?_, ?_, ?_, ?_⟩
      · simp [I]; ring
      · simp [I]; ring
      · simp only [I, M, one_ne_zero, if_false]; field_simp; ring
      · intro q; simp [I] at q
      · intro _
        refine ⟨m0, ?_⟩
        simp only [I, M, one_ne_zero, if_false, mu]
        push_cast
        field_simp
  · intro i hi
    rcases two hi with rfl | rfl
    · simp [I, e0]
    · simp [I, xa0]
  · intro i hi
    rcases two hi with rfl | rfl
    · simp [I]
    · simp [I, xb0]
  · intro i hi
    have : i = 0 := by simp only [I] at hi; omega
    subst this
    exact h.rt.1
  · intro i hi
    rcases two hi with rfl | rfl
    · simp [M, r10, c0, q1]
    · simp [M, r20, c0, q2]
  · intro i hi
    have : i = 0 := by simp only [I] at hi; omega
    subst this
    simp [I]
  · intro i hi
    have : i = 0 := by simp only [I] at hi; omega
    subst this
    simp [I]
  · have : 0 < o.k * o.xa := mul_pos h.k h.xa
    simpa [I] using this
  · have : 0 < o.k * o.xb := mul_pos h.k h.xb
    simpa [I] using this

theorem top : topR o.I = { (resetM : RTM ℂ) with RU := !![-1, 0; 0, 0] } := by simp [topR, I, freeBoundPSV]

theorem sound : SoundR o.I o.S 0 := two_sound rfl (by rw [top]; rfl)

/-- The reflected wave comes back to the surface with opposite sign. -/
theorem Ok.trip (h : o.Ok) : (Complex.I * o.P - o.Q) / (Complex.I * o.P + o.Q) * (o.I.exa 0 * o.I.exa 0) = -1 := by
  set t : ℝ := -o.P / o.Q with ht
  have hs : (0:ℝ) < 1 + t^2 := by positivity
  have e1 : o.I.exa 0 * o.I.exa 0 = ((1 - Complex.I * t) / (1 + Complex.I * t) : ℂ) := by
    have : o.I.exa 0 = ((1 / √(1 + t^2) : ℝ) : ℂ) - ((t / √(1 + t^2) : ℝ) : ℂ) * Complex.I := by
      simp only [I]
      rw [show -((o.k:ℂ) * (Complex.I * o.e) * H) = ((-(o.k * o.e * H) : ℝ) : ℂ) * Complex.I by push_cast; ring, h.phase, ← ht, Complex.exp_mul_I,
        ← Complex.ofReal_cos, ← Complex.ofReal_sin, Real.cos_neg, Real.sin_neg, Real.cos_arctan, Real.sin_arctan]
      push_cast
      ring
    rw [this]
    have sq : ((√(1 + t^2) : ℝ) : ℂ)^2 = 1 + (t:ℂ)^2 := by
      rw [← ofReal_pow, Real.sq_sqrt hs.le]; push_cast; ring
    have sn : ((√(1 + t^2) : ℝ) : ℂ) ≠ 0 := by
      exact_mod_cast (Real.sqrt_pos.2 hs).ne'
    have dn : (1 + Complex.I * t : ℂ) ≠ 0 := by
      intro q
      have := congrArg Complex.re q
      simp at this
    push_cast
    rw [eq_div_iff dn]
    field_simp
    have hI := Complex.I_sq
    linear_combination (-1 + Complex.I * t) * sq + (t^3 * Complex.I - t^2) * hI
  rw [e1]
  have q0 : (o.Q:ℂ) ≠ 0 := by exact_mod_cast h.Q0.ne'
  have tq : (t:ℂ) * o.Q = -o.P := by
    rw [ht]; push_cast; field_simp
  have dn : (1 + Complex.I * t : ℂ) ≠ 0 := by
    intro q
    have := congrArg Complex.re q
    simp at this
  have := h.den
  rw [div_mul_div_comm, div_eq_iff (mul_ne_zero this dn)]
  linear_combination 2 * Complex.I * tq

theorem Ok.sec (h : o.Ok) : raylSecular o.I o.S (parC false false) 0 = .ok ⟨0, some pot⟩ := by
  obtain ⟨-, h1, h2⟩ := two_mats (I := o.I) (S := o.S) rfl (by rw [top]; rfl)
  have T := h.trip
  unfold raylSecular raylSecularOf
  rw [h1, h2, top, h.rt.2]
  rw [if_neg (by simp [I]), if_pos ⟨by simp [I], Or.inl rfl⟩]
  simp only [Matrix.of_apply, Matrix.cons_val', Matrix.cons_val_zero, Matrix.cons_val_fin_one]
  rw [T]
  simp [pot]

theorem Ok.wave (h : o.Ok) : RaylField 2 (fun i => (o.I.lay i).liquid) o.M (fun _ => H) o.k (o.c * o.k) (raylOut o.I o.S (fun _ => H) 0 pot) :=
  (C87_mode_partial h.desc (iref := 0) (show 1 < 2 by decide) sound h.sec (fun q => by simp [mixed] at q)).1

theorem Ok.out0 (h : o.Ok) (z : ℝ) : raylOut o.I o.S (fun _ => H) 0 pot 0 z = psvField o.k (o.M 0) (o.I.lay 0) ![-1, 0] ![1, 0] z := by
  have e := raylOut_eq h.desc (iref := 0) (p := pot) (i := 0) (show 0 < 2 by decide) ?_ (fun q => by simp [I] at q) z
  · rw [e]; rfl
  · intro _
    have T := h.trip
    have x0 : o.I.exa 0 ≠ 0 := Complex.exp_ne_zero _
    refine ext2 ?_ ?_
    · simp [potDownR, dnArrR, pot, potUpR, upDownR, allRLR, I, expM, mulV, h.rt.2, resetM, mv_apply]
      rw [← T]
      simp only [I]
      ring
    · simp [potDownR, dnArrR, pot, potUpR, upDownR, allRLR, I, expM, mulV, h.rt.2, resetM, mv_apply]

theorem two_cos (t : ℝ) : exp (t * Complex.I) + exp (-(t * Complex.I)) = 2 * (Real.cos t : ℝ) := by
  rw [ofReal_cos, Complex.cos]
  rw [show -(t * Complex.I : ℂ) = -t * Complex.I by ring]; ring

theorem two_sin (t : ℝ) : exp (-(t * Complex.I)) - exp (t * Complex.I) = -2 * Complex.I * (Real.sin t : ℝ) := by
  rw [ofReal_sin, Complex.sin]
  rw [show -(t * Complex.I : ℂ) = -t * Complex.I by ring]
  linear_combination (exp (-t * Complex.I) - exp (t * Complex.I)) * Complex.I_sq

/-- Displacement and traction in the water. -/
theorem Ok.water (h : o.Ok) (z : ℝ) : raylOut o.I o.S (fun _ => H) 0 pot 0 z =
    ⟨Complex.I * (-2 * o.k * Real.sin (o.k * o.e * z) : ℝ), Complex.I * (-2 * o.k * o.e * Real.cos (o.k * o.e * z) : ℝ),
     Complex.I * (2 * o.r1 * o.c^2 * o.k^2 * Real.sin (o.k * o.e * z) : ℝ), 0⟩ := by
  rw [h.out0, psvField, psvState_liquid (h.desc.fits 0 (show 0 < 2 by decide)) (by simp [I])]
  have a := two_cos (o.k * o.e * z)
  have b := two_sin (o.k * o.e * z)
  have e1 : (o.k:ℂ) * (o.I.lay 0).xa * z = ((o.k * o.e * z : ℝ) : ℂ) * Complex.I := by simp [I]; ring
  simp only [upAt, dnAt, e1]
  simp only [Matrix.cons_val_zero, M, I, if_true]
  push_cast at a b ⊢
  refine MS.ext ?_ ?_ ?_ rfl <;> dsimp only
  · linear_combination (o.k:ℂ) * b
  · linear_combination -(o.k:ℂ) * (Complex.I * o.e) * a
  · linear_combination -(o.r1 * (o.c * o.c) * (o.k:ℂ)^2) * b

/-- Vertical displacement of the sea floor (times `i`). -/
noncomputable def wn (o : Oc) : ℝ := -2 * o.k * o.e * Real.cos (o.k * o.e * H)

/-- Amplitudes of the waves in the ground (times `i`). -/
noncomputable def d1 (o : Oc) : ℝ := 2 * o.wn / (o.k * (1 - o.xb^2))
noncomputable def d0 (o : Oc) : ℝ := (1 + o.xb^2) * o.d1 / (2 * o.xa)

theorem Ok.ground (h : o.Ok) : ∀ z, raylOut o.I o.S (fun _ => H) 0 pot 1 z =
    psvField o.k (o.M 1) (o.I.lay 1) 0 ![Complex.I * o.d0, Complex.I * o.d1] z := by
  have W := h.wave
  have F := h.desc.fits 1 (show 1 < 2 by decide)
  have k0 : (o.k:ℂ) ≠ 0 := by exact_mod_cast h.k.ne'
  have xa0 : (o.xa:ℂ) ≠ 0 := by exact_mod_cast h.xa.ne'
  have m0 : (o.mu:ℂ) ≠ 0 := by exact_mod_cast h.mu0.ne'
  have q3 : (1 - (o.xb:ℂ)^2) ≠ 0 := by exact_mod_cast h.xbq.ne'
  have ta : 0 < ((o.k:ℂ) * (o.I.lay 1).xa).re := h.desc.ta
  have tb : 0 < ((o.k:ℂ) * (o.I.lay 1).xb).re := h.desc.tb
  obtain ⟨u, d, e⟩ := solid_general F (by simp [I]) k0 h.desc.c0 (h.desc.xa0 1 (show 1 < 2 by decide)) (h.desc.xb0 1 (show 1 < 2 by decide)) (h.desc.lam 1 (show 1 < 2 by decide))
    (W.solid 1 (show 1 < 2 by decide) (by simp [I]))
  obtain ⟨a, b⟩ := half_no_upgoing F k0 h.desc.c0 (h.desc.xa0 1 (show 1 < 2 by decide)) (h.desc.xb0 1 (show 1 < 2 by decide)) ta tb
    e W.decay.1 W.decay.2.1 W.decay.2.2.1 W.decay.2.2.2
  have u0 : u = 0 := ext2 a (b (by simp [I]))
  subst u0
  obtain ⟨cw, -, ct, -⟩ := W.contact 0 (by decide)
  rw [e 0, psvField_zero, psvState_solid F (by simp [I]), h.water] at cw ct
  simp only [M, I, one_ne_zero, if_false, Pi.zero_apply, zero_sub, zero_add] at cw ct
  change Complex.I * ((o.wn : ℝ) : ℂ) = _ at cw
  have t1 : 2 * (o.xa:ℂ) * d 0 = (1 + (o.xb:ℂ)^2) * d 1 := by
    have := mul_ne_zero m0 (pow_ne_zero 2 k0)
    have c' := (mul_eq_zero.1 ct.symm).resolve_left this
    linear_combination -c'
  have dd : d 1 = Complex.I * o.d1 := by
    simp only [d1]
    push_cast
    field_simp
    linear_combination -2 * cw + o.k * t1
  have hd : d = ![Complex.I * o.d0, Complex.I * o.d1] := by
    refine ext2 ?_ dd
    simp only [d0, Matrix.cons_val_zero]
    push_cast
    rw [dd] at t1
    field_simp
    linear_combination t1
  intro z
  rw [e z, hd]

theorem Ok.ground0 (h : o.Ok) : raylOut o.I o.S (fun _ => H) 0 pot 1 0 =
    ⟨Complex.I * (o.k * (o.d0 - o.xb * o.d1) : ℝ), Complex.I * (o.k * (o.d1 - o.xa * o.d0) : ℝ),
     Complex.I * (o.mu * o.k^2 * ((1 + o.xb^2) * o.d0 - 2 * o.xb * o.d1) : ℝ), 0⟩ := by
  have xa0 : (o.xa:ℂ) ≠ 0 := by exact_mod_cast h.xa.ne'
  rw [h.ground, psvField_zero, psvState_solid (h.desc.fits 1 (show 1 < 2 by decide)) (by simp [I])]
  refine MS.ext ?_ ?_ ?_ ?_
  · simp [I]; ring
  · simp [I]; ring
  · simp [I, M]; ring
  · simp [I, M, d0]; right; field_simp; ring

/-- A family of such modes. -/
theorem branch {o : ℝ → Oc} {U : Set ℝ} {s0 : ℝ} (nb : U ∈ 𝓝 s0) (ok : ∀ s ∈ U, (o s).Ok) (hk : ContinuousAt (fun s => (o s).k) s0)
    (hc : ContinuousAt (fun s => (o s).c) s0) (he : ContinuousAt (fun s => (o s).e) s0) (hxa : ContinuousAt (fun s => (o s).xa) s0)
    (hxb : ContinuousAt (fun s => (o s).xb) s0) (h1 : ContinuousAt (fun s => (o s).r1) s0) (h2 : ContinuousAt (fun s => (o s).r2) s0) :
    BranchR 2 (fun i => if i = 0 then true else false) (fun s => ((o s).k : ℂ)) (fun s => ((o s).c : ℂ)) (fun s => (o s).M) (fun s => (o s).I.lay)
      (fun _ => H) (fun s => raylOut (o s).I (o s).S (fun _ => H) 0 pot) U s0 := by
  have mem := mem_of_mem_nhds nb
  have O := ok s0 mem
  have via : ∀ f g : ℝ → ℂ, (∀ s ∈ U, f s = g s) → ContinuousAt g s0 → ContinuousAt f s0 := fun f g e hg =>
    hg.congr (Filter.eventually_of_mem nb fun s hs => (e s hs).symm)
  have liq : ∀ s, (fun i => ((o s).I.lay i).liquid) = fun i => if i = 0 then true else false := by
    intro s; funext i; simp only [I]; split <;> rfl
  have co : ∀ f : ℝ → ℝ, ContinuousAt f s0 → ContinuousAt (fun s => ((f s : ℝ) : ℂ)) s0 := fun f hf => continuous_ofReal.continuousAt.comp hf
  have ci : ∀ f : ℝ → ℝ, ContinuousAt f s0 → ContinuousAt (fun s => Complex.I * ((f s : ℝ) : ℂ)) s0 := fun f hf => continuousAt_const.mul (co f hf)
  have cmu : ContinuousAt (fun s => (o s).mu) s0 := (h2.mul (hc.pow 2)).div₀ (continuousAt_const.sub (hxb.pow 2)) O.xbq.ne'
  have cwn : ContinuousAt (fun s => (o s).wn) s0 :=
    (((continuousAt_const (y := (-2:ℝ))).mul hk).mul he).mul (Real.continuous_cos.continuousAt.comp ((hk.mul he).mul continuousAt_const))
  have cd1 : ContinuousAt (fun s => (o s).d1) s0 := ((continuousAt_const (y := (2:ℝ))).mul cwn).div₀ (hk.mul (continuousAt_const.sub (hxb.pow 2)))
    (mul_pos O.k O.xbq).ne'
  have cd0 : ContinuousAt (fun s => (o s).d0) s0 := (((continuousAt_const (y := (1:ℝ))).add (hxb.pow 2)).mul cd1).div₀
    ((continuousAt_const (y := (2:ℝ))).mul hxa) (mul_pos two_pos O.xa).ne'
  refine
    { nbhd := nb
      wave := fun s hs => by have := (ok s hs).wave; rw [liq s] at this; exact this
      k0 := fun s hs => (ok s hs).desc.k0
      c0 := fun s hs => (ok s hs).desc.c0
      liquid := fun s i => congrFun (liq s) i
      fits := fun s hs => (ok s hs).desc.fits
      lam := fun s hs => (ok s hs).desc.lam
      xa0 := fun s hs => (ok s hs).desc.xa0
      xb0 := fun s hs => (ok s hs).desc.xb0
      ta := fun s hs => (ok s hs).desc.ta
      tb := fun s hs => (ok s hs).desc.tb
      contk := co _ hk
      contxa := ?_
      contxb := ?_
      contmu := ?_
      contcb := ?_
      conty := ?_ }
  · intro i hi
    by_cases h : i = 0
    · simp only [I, h, if_true]; exact ci _ he
    · simp only [I, h, if_false]; exact co _ hxa
  · intro i hi
    by_cases h : i = 0
    · simp only [I, h, if_true]; exact continuousAt_const
    · simp only [I, h, if_false]; exact co _ hxb
  · intro i hi
    by_cases h : i = 0
    · simp only [M, h, if_true]; exact continuousAt_const
    · simp only [M, h, if_false]; exact co _ cmu
  · intro i hi
    by_cases h : i = 0
    · simp only [I, h, if_true]; exact continuousAt_const
    · simp only [I, h, if_false]; exact continuousAt_const.sub ((co _ hxb).pow 2)
  · intro i hi
    have : i = 0 ∨ i = 1 := by omega
    rcases this with rfl | rfl
    · refine ⟨via _ (fun _ => 0) (fun s hs => ?_) continuousAt_const, via _ _ (fun s hs => ?_) (ci (fun s => -2 * (o s).k * (o s).e) ((continuousAt_const.mul hk).mul he)),
        via _ (fun _ => 0) (fun s hs => ?_) continuousAt_const, via _ (fun _ => 0) (fun s hs => ?_) continuousAt_const⟩
      all_goals rw [(ok s hs).water]; try simp
    · refine ⟨via _ _ (fun s hs => ?_) (ci _ (hk.mul (cd0.sub (hxb.mul cd1)))), via _ _ (fun s hs => ?_) (ci _ (hk.mul (cd1.sub (hxa.mul cd0)))),
        via _ _ (fun s hs => ?_) (ci _ ((cmu.mul (hk.pow 2)).mul ((((continuousAt_const (y := (1:ℝ))).add (hxb.pow 2)).mul cd0).sub
          (((continuousAt_const (y := (2:ℝ))).mul hxb).mul cd1)))), via _ (fun _ => 0) (fun s hs => ?_) continuousAt_const⟩
      all_goals rw [(ok s hs).ground0]; try first | rfl | simp

/-! ### The mode at wavenumber 1 and frequency 1 -/

noncomputable def one : Oc := ⟨1, 1, 1, 4/5, 3/5, 55, 256⟩

theorem one_mu : one.mu = 400 := by norm_num [one, mu]

theorem one_phase : -one.P / one.Q = 1 := by
  simp only [P, one_mu, Q]; norm_num [one]

theorem one_ok : one.Ok where
  k := by norm_num [one]
  c := by norm_num [one]
  e := by norm_num [one]
  xa := by norm_num [one]
  xb := by norm_num [one]
  xa1 := by norm_num [one]
  xb1 := by norm_num [one]
  r1 := by norm_num [one]
  r2 := by norm_num [one]
  phase := by rw [one_phase, Real.arctan_one]; simp [one, H]

noncomputable def y1 : ℕ → ℝ → MS ℂ := raylOut one.I one.S (fun _ => H) 0 pot

theorem one_waves : WaveField 2 one.c one.k one.I.lay one.M y1 (fun i => if i = 0 then ![-1, 0] else 0)
    (fun i => if i = 0 then ![1, 0] else ![Complex.I * one.d0, Complex.I * one.d1]) where
  fits := one_ok.desc.fits
  eq := by
    intro i hi
    have : i = 0 ∨ i = 1 := by omega
    rcases this with rfl | rfl
    · funext z; exact one_ok.out0 z
    · funext z; exact one_ok.ground z
  up := rfl
  ta := one_ok.desc.ta
  tb := one_ok.desc.tb

theorem one_d0 : one.d0 = 17/20 * one.d1 := by unfold d0; norm_num [one]; ring

/-- Integrals over the ground. -/
theorem one_ground : let O := overlap 2 (fun _ => H) y1 y1 1
    O 0 0 = -(one.d1:ℂ)^2 * (103/4480) ∧ O 1 1 = -(one.d1:ℂ)^2 * (3169/21000) ∧ O 1 2 = -(one.d1:ℂ)^2 * (-501/7000) ∧
    O 0 3 = -(one.d1:ℂ)^2 * (-59/7000) := by
  intro O
  have h := fun r t => (WaveField.half (by decide) one_waves one_waves r t).2
  have e : ∀ r t, O r t = ∫ z in Set.Ioi (0:ℝ), cmp (y1 (2-1)) z r * cmp (y1 (2-1)) z t := by
    intro r t; rfl
  have i2 := Complex.I_mul_I
  have k : one.k = 1 := rfl
  have xa : one.xa = 4/5 := rfl
  have xb : one.xb = 3/5 := rfl
  simp only [e, h, wcoef, side, D11, D12, D11z, D12z, I, one_d0, k, xa, xb]
  refine ⟨?_, ?_, ?_, ?_⟩
  all_goals
    simp
    grind

/-- Integrals over the water. -/
theorem one_water : let O := overlap 2 (fun _ => H) y1 y1 0
    O 0 0 = ((-4 * ∫ z in (0:ℝ)..H, Real.sin z ^ 2 : ℝ) : ℂ) ∧ O 1 1 = ((-4 * ∫ z in (0:ℝ)..H, Real.cos z ^ 2 : ℝ) : ℂ) ∧
    O 0 3 = ((4 * ∫ z in (0:ℝ)..H, Real.sin z ^ 2 : ℝ) : ℂ) := by
  intro O
  have e : ∀ r t, O r t = ∫ z in (0:ℝ)..H, cmp (y1 0) z r * cmp (y1 0) z t := fun r t => rfl
  have w : y1 0 = _ := funext fun z => one_ok.water z
  have k : one.k = 1 := rfl
  have xe : one.e = 1 := rfl
  simp only [k, xe, one_mul, mul_one] at w
  have d : ∀ z : ℝ, deriv (fun z => (y1 0 z).w) z = 2 * Complex.I * Real.sin z := by
    intro z
    rw [w]
    have := ((Real.hasDerivAt_cos z).const_mul (-2)).ofReal_comp.const_mul Complex.I
    rw [this.deriv]; push_cast; ring
  have r : ∀ (a : ℝ) (f : ℝ → ℝ), ((a * ∫ z in (0:ℝ)..H, f z : ℝ) : ℂ) = ∫ z in (0:ℝ)..H, ((a * f z : ℝ) : ℂ) := by
    intro a f
    rw [intervalIntegral.integral_ofReal, intervalIntegral.integral_const_mul]
  simp only [e, r]
  have i2 := Complex.I_mul_I
  refine ⟨?_, ?_, ?_⟩ <;> congr 1 <;> funext z <;> simp [cmp, d] <;> rw [w] <;> push_cast <;> grind

/-- `λ` of the layers. -/
noncomputable def lam1 (i : ℕ) : ℂ := if i = 0 then 55/2 else 6400/9 - 800

theorem one_lam (i : ℕ) : lam1 i = (one.M i).lam := by
  unfold lam1 M
  rw [one_mu]
  split <;> norm_num [one]

noncomputable def dep (i : ℕ) : ℝ := i * H

/-- The energy integrals with sublayers of 0.1. -/
noncomputable def egy1 : ℂ × ℂ × ℂ × ℂ := egyR one.I lam1 (thinR one.I (fun _ => H) dep (potUpR one.I one.S 0 pot) (potDownR one.I one.S 0 pot)
  (thinLayers 2 (fun _ => H) dep (1/10) 8))

theorem dep_succ (i : ℕ) : dep (i+1) = dep i + H := by simp [dep]; ring

theorem H_pos : 0 < H := by unfold H; positivity

theorem H_fine : (1/10 : ℝ) * (1/100000) ≤ H := by unfold H; linarith [Real.two_le_pi]

theorem one_lm (i : ℕ) (_ : i < 2) : (one.M i).lam + (one.M i).mu ≠ 0 := by
  rw [← one_lam, M, one_mu, lam1]
  split <;> norm_num

theorem one_egy : egy1.1 ≠ 0 ∧ 4 * egy1.2.1 - 2 * egy1.2.2.1 ≠ 0 := by
  obtain ⟨E1, E2, E3⟩ := egy_over one_ok.desc (iref := 0) (p := pot) (show 1 ≤ 2 by decide) one_lm (fun i _ => one_lam i) dep_succ (fun i _ => H_pos) (1/10)
    (by norm_num) (fun i _ => H_fine) 8 (by decide) (y := y1) (fun i _ z => rfl)
  obtain ⟨g1, g2, g3, g4⟩ := one_ground
  obtain ⟨w1, w2, w4⟩ := one_water
  have N : one.I.nlay = 2 := rfl
  change 2 * egy1.1 = _ at E1
  change 2 * egy1.2.1 = _ at E2
  change -2 * egy1.2.2.1 = _ at E3
  have sw := overlap_swap 2 (fun _ => H) y1 y1
  have m0 : (one.M 0) = ⟨55, 55/2, 0⟩ := by
    have := one_lam 0
    simp only [lam1, if_true] at this
    rw [show one.M 0 = ⟨(one.M 0).rho, (one.M 0).lam, (one.M 0).mu⟩ from rfl, ← this]
    simp [M, one]
  have m1 : (one.M 1) = ⟨256, 6400/9 - 800, 400⟩ := by
    have := one_lam 1
    simp only [lam1, one_ne_zero, if_false] at this
    rw [show one.M 1 = ⟨(one.M 1).rho, (one.M 1).lam, (one.M 1).mu⟩ from rfl, ← this]
    simp only [M, one_ne_zero, if_false, one_mu]
    norm_num [one]
  simp only [N, Finset.sum_range_succ, Finset.sum_range_zero, m0, m1] at E1 E2 E3
  rw [sw 0 2 1, sw 0 3 0, sw 1 2 1, sw 1 3 0] at E3
  rw [g1, g2, w1, w2] at E1
  rw [g1, g2, w1, w2] at E2
  rw [g3, g4, w4] at E3
  set A := ∫ z in (0:ℝ)..H, Real.sin z ^ 2 with hA
  set B := ∫ z in (0:ℝ)..H, Real.cos z ^ 2 with hB
  have A0 : 0 ≤ A := intervalIntegral.integral_nonneg H_pos.le fun z _ => sq_nonneg _
  have B0 : 0 ≤ B := intervalIntegral.integral_nonneg H_pos.le fun z _ => sq_nonneg _
  have d1 : 0 < one.d1 ^ 2 := by
    have : one.d1 ≠ 0 := by
      have c : one.k * one.e * H = Real.pi / 4 := by simp [one, H]
      have x : Real.cos (Real.pi / 4) ≠ 0 := by rw [Real.cos_pi_div_four]; positivity
      unfold d1 wn
      rw [c]
      refine div_ne_zero (mul_ne_zero two_ne_zero (mul_ne_zero ?_ x)) ?_ <;> norm_num [one]
    positivity
  constructor
  · intro h
    rw [h] at E1
    have : ((-(220 * (A + B)) - one.d1^2 * (256 * (103/4480 + 3169/21000)) : ℝ) : ℂ) = 0 := by push_cast; push_cast at E1; linear_combination -E1
    have := ofReal_eq_zero.1 this
    nlinarith
  · intro h
    have : ((-(440 * A) - one.d1^2 * (284/3) : ℝ) : ℂ) = 0 := by push_cast; push_cast at E2 E3; linear_combination -2 * E2 - E3 + h
    have := ofReal_eq_zero.1 this
    nlinarith

/-- C88 applies to this mode. -/
example : egy1.1 = depthInt 2 (fun _ => H) (fun i z => 1/2 * (one.M i).rho * ((y1 i z).q ^ 2 + (y1 i z).w ^ 2)) ∧
    egy1.2.2.1 = depthInt 2 (fun _ => H) (fun i z => (one.M i).lam * ((y1 i z).q * deriv (fun z => (y1 i z).w) z) -
      (one.M i).mu * ((y1 i z).w * deriv (fun z => (y1 i z).q) z)) := by
  have := C88_rayl one_ok.desc (iref := 0) (p := pot) (show 1 ≤ 2 by decide) one_lm (fun i _ => one_lam i) dep_succ (fun i _ => H_pos) (1/10)
    (by norm_num) (fun i _ => H_fine) 8 (by decide)
  exact ⟨congrArg (fun e => e.1) this, congrArg (fun e => e.2.2.1) this⟩

/-! ### Modes of one model, by phase velocity -/

theorem branch_medium {n : ℕ} {liq : ℕ → Bool} {k c : ℝ → ℂ} {m m' : ℝ → ℕ → Medium ℂ} {l : ℝ → ℕ → Lay ℂ} {thk : ℕ → ℝ}
    {y : ℝ → ℕ → ℝ → MS ℂ} {U : Set ℝ} {s0 : ℝ} (B : BranchR n liq k c m l thk y U s0) (h : ∀ s ∈ U, m s = m' s) :
    BranchR n liq k c m' l thk y U s0 :=
  { B with
    wave := fun s hs => h s hs ▸ B.wave s hs
    fits := fun s hs => h s hs ▸ B.fits s hs
    lam := fun s hs => h s hs ▸ B.lam s hs
    contmu := fun i hi => (B.contmu i hi).congr (Filter.eventually_of_mem B.nbhd fun s hs => by dsimp only; rw [h s hs]) }

noncomputable def byC (s : ℝ) : Oc :=
  let e := √(2 * s^2 - 1)
  let xa := √(1 - 9/25 * s^2)
  let xb := √(1 - 16/25 * s^2)
  let P := 4 * e * 400 * (((1 + xb^2) / 2)^2 - xa * xb)
  let Q := 55 * s^2 * (1 - xb^2) * xa
  ⟨Real.arctan (-P / Q) / (e * H), s, e, xa, xb, 55, 256⟩

def dom : Set ℝ := {s | 9/10 < s ∧ s < 11/10 ∧ (byC s).P < 0}

theorem byC_roots {s : ℝ} (h : 9/10 < s ∧ s < 11/10) : (byC s).e^2 = 2 * s^2 - 1 ∧ 0 < (byC s).e ∧ (byC s).xa^2 = 1 - 9/25 * s^2 ∧ 0 < (byC s).xa ∧
    (byC s).xb^2 = 1 - 16/25 * s^2 ∧ 0 < (byC s).xb := by
  have a : 0 < 2 * s^2 - 1 := by nlinarith
  have b : 0 < 1 - 9/25 * s^2 := by nlinarith
  have c : 0 < 1 - 16/25 * s^2 := by nlinarith
  exact ⟨Real.sq_sqrt a.le, Real.sqrt_pos.2 a, Real.sq_sqrt b.le, Real.sqrt_pos.2 b, Real.sq_sqrt c.le, Real.sqrt_pos.2 c⟩

theorem byC_mu {s : ℝ} (h : 9/10 < s ∧ s < 11/10) : (byC s).mu = 400 := by
  obtain ⟨-, -, -, -, r, -⟩ := byC_roots h
  unfold mu
  rw [r]
  have : (byC s).r2 = 256 := rfl
  have : (byC s).c = s := rfl
  have : s ≠ 0 := by rintro rfl; linarith [h.1]
  simp only [*]
  field_simp
  ring

theorem byC_ok {s : ℝ} (h : s ∈ dom) : (byC s).Ok := by
  obtain ⟨h1, h2, hP⟩ := h
  obtain ⟨r1, p1, r2, p2, r3, p3⟩ := byC_roots ⟨h1, h2⟩
  have hQ : 0 < (byC s).Q := by
    unfold Q
    rw [r3]
    have : (byC s).r1 = 55 := rfl
    have : (byC s).c = s := rfl
    simp only [*]
    have : 0 < s := by linarith
    have : 0 < 1 - (1 - 16/25 * s^2) := by nlinarith
    positivity
  have hk : (byC s).k = Real.arctan (-(byC s).P / (byC s).Q) / ((byC s).e * H) := by
    unfold P
    rw [byC_mu ⟨h1, h2⟩]
    rfl
  have H0 := H_pos
  refine ⟨?_, ?_, p1, p2, p3, ?_, ?_, ?_, ?_, ?_⟩
  · rw [hk]
    exact div_pos (Real.arctan_pos.2 (div_pos (by linarith) hQ)) (by positivity)
  · show 0 < s; linarith
  · nlinarith
  · nlinarith
  · norm_num [byC]
  · norm_num [byC]
  · rw [hk]; field_simp

theorem byC_one : byC 1 = one := by
  have r1 : √(2 * (1:ℝ)^2 - 1) = 1 := by norm_num
  have r2 : √(1 - 9/25 * (1:ℝ)^2) = 4/5 := by rw [show (1 - 9/25 * (1:ℝ)^2) = (4/5)^2 by norm_num]; exact Real.sqrt_sq (by norm_num)
  have r3 : √(1 - 16/25 * (1:ℝ)^2) = 3/5 := by rw [show (1 - 16/25 * (1:ℝ)^2) = (3/5)^2 by norm_num]; exact Real.sqrt_sq (by norm_num)
  have k : Real.arctan (-(4 * 1 * 400 * (((1 + (3/5:ℝ)^2)/2)^2 - 4/5 * (3/5))) / (55 * 1^2 * (1 - (3/5)^2) * (4/5))) / (1 * H) = 1 := by
    rw [show -(4 * 1 * 400 * (((1 + (3/5:ℝ)^2)/2)^2 - 4/5 * (3/5))) / (55 * 1^2 * (1 - (3/5)^2) * (4/5)) = 1 by norm_num, Real.arctan_one]
    have := Real.pi_pos.ne'
    simp [H, this]
  simp only [byC, r1, r2, r3, k, one]

theorem byC_diff : DifferentiableAt ℝ (fun s => (byC s).k) 1 ∧ DifferentiableAt ℝ (fun s => (byC s).e) 1 ∧ DifferentiableAt ℝ (fun s => (byC s).xa) 1 ∧
    DifferentiableAt ℝ (fun s => (byC s).xb) 1 := by
  have sq : ∀ a b : ℝ, DifferentiableAt ℝ (fun s : ℝ => a * s^2 + b) 1 := fun a b =>
    ((differentiableAt_id.pow 2).const_mul a).add_const b
  have de : DifferentiableAt ℝ (fun s => (byC s).e) 1 := by
    have := (sq 2 (-1)).sqrt (by norm_num)
    simpa only [byC, sub_eq_add_neg] using this
  have da : DifferentiableAt ℝ (fun s => (byC s).xa) 1 := by
    have := (sq (-9/25) 1).sqrt (by norm_num)
    refine this.congr_of_eventuallyEq (Filter.Eventually.of_forall fun s => ?_)
    simp only [byC]; congr 1; ring
  have db : DifferentiableAt ℝ (fun s => (byC s).xb) 1 := by
    have := (sq (-16/25) 1).sqrt (by norm_num)
    refine this.congr_of_eventuallyEq (Filter.Eventually.of_forall fun s => ?_)
    simp only [byC]; congr 1; ring
  have e1 : (byC 1).e = 1 := by rw [byC_one]; rfl
  have a1 : (byC 1).xa = 4/5 := by rw [byC_one]; rfl
  have b1 : (byC 1).xb = 3/5 := by rw [byC_one]; rfl
  refine ⟨?_, de, da, db⟩
  have dP := ((de.const_mul 4).mul_const 400).mul ((((db.pow 2).const_add 1).div_const 2).pow 2 |>.sub (da.mul db))
  have dQ := (((differentiableAt_id (x := (1:ℝ)) (𝕜 := ℝ)).pow 2).const_mul 55).mul ((db.pow 2).const_sub 1) |>.mul da
  refine ((dP.neg.div dQ ?_).arctan).div (de.mul_const H) ?_
  · simp [a1, b1]; norm_num
  · exact mul_ne_zero (by rw [show √(2 * (1:ℝ)^2 - 1) = 1 from e1]; exact one_ne_zero) H_pos.ne'

theorem byC_nhds : dom ∈ 𝓝 (1:ℝ) := by
  obtain ⟨-, de, da, db⟩ := byC_diff
  have cP : ContinuousAt (fun s => 4 * (byC s).e * 400 * (((1 + (byC s).xb^2)/2)^2 - (byC s).xa * (byC s).xb)) 1 :=
    ((de.const_mul 4).mul_const 400).mul ((((db.pow 2).const_add 1).div_const 2).pow 2 |>.sub (da.mul db)) |>.continuousAt
  have n : 4 * (byC 1).e * 400 * (((1 + (byC 1).xb^2)/2)^2 - (byC 1).xa * (byC 1).xb) < 0 := by rw [byC_one]; norm_num [one]
  filter_upwards [lt_mem_nhds (show (9/10:ℝ) < 1 by norm_num), gt_mem_nhds (show (1:ℝ) < 11/10 by norm_num), cP.eventually_lt_const n] with s a b c
  refine ⟨a, b, ?_⟩
  unfold P
  rw [byC_mu ⟨a, b⟩]
  exact c

/-- C89 applies: the group velocity of the mode is the slope of the dispersion curve. -/
example : HasDerivAt (fun s => s * (byC s).k) (groupR 1 1 egy1 * deriv (fun s => (byC s).k) 1) 1 := by
  obtain ⟨dk, de, da, db⟩ := byC_diff
  have B := branch byC_nhds (fun s hs => byC_ok hs) dk.continuousAt continuousAt_id de.continuousAt da.continuousAt db.continuousAt
    continuousAt_const continuousAt_const
  have m : ∀ s ∈ dom, (byC s).M = one.M := by
    intro s hs
    obtain ⟨r1, -, r2, -, r3, -⟩ := byC_roots ⟨hs.1, hs.2.1⟩
    have s0 : (s:ℂ) ≠ 0 := by
      have : s ≠ 0 := by rintro rfl; linarith [hs.1]
      exact_mod_cast this
    have r1 : ((byC s).e:ℂ)^2 = 2 * (s:ℂ)^2 - 1 := by exact_mod_cast r1
    have r2 : ((byC s).xa:ℂ)^2 = 1 - 9/25 * (s:ℂ)^2 := by rw [← ofReal_pow, r2]; push_cast; rfl
    have hc : (byC s).c = s := rfl
    have hr1 : (byC s).r1 = 55 := rfl
    have hr2 : (byC s).r2 = 256 := rfl
    funext i
    unfold M
    rw [byC_mu ⟨hs.1, hs.2.1⟩, one_mu, r1, r2, hc, hr1, hr2]
    split
    · norm_num [one]; field_simp
    · norm_num [one]; field_simp; norm_num
  have B' := branch_medium B m
  have r := C89_group B' (om := fun s => s * (byC s).k) (fun s hs => ?_) (fun s hs => ?_) dk.hasDerivAt one_ok.desc rfl (iref := 0) (p := pot)
    (fun i _ z => ?_) (by decide) one_lm (fun i _ => one_lam i) dep_succ (fun i _ => H_pos) (1/10) (by norm_num) (fun i _ => H_fine) 8 (by decide)
    egy1 rfl one_egy.1
  · have k1 : (byC 1).k = 1 := by rw [byC_one]; rfl
    simp only [k1, one_mul] at r
    exact r
  · push_cast; rfl
  · exact mul_pos (byC_ok hs).c (byC_ok hs).k
  · rw [byC_one]

/-! ### Modes of a changing model, at one frequency -/

noncomputable def byM (s : ℝ) : Oc := ⟨1/s, s, s, 4/5, 3/5, 55, 256/s⟩

theorem byM_mu {s : ℝ} (h : 0 < s) : (byM s).mu = 400 * s := by
  unfold mu byM
  field_simp
  norm_num

theorem byM_ok {s : ℝ} (h : 0 < s) : (byM s).Ok where
  k := by simp only [byM]; positivity
  c := h
  e := h
  xa := by norm_num [byM]
  xb := by norm_num [byM]
  xa1 := by norm_num [byM]
  xb1 := by norm_num [byM]
  r1 := by norm_num [byM]
  r2 := by simp only [byM]; positivity
  phase := by
    have : -(byM s).P / (byM s).Q = 1 := by
      unfold P Q
      rw [byM_mu h]
      simp only [byM]
      field_simp
      norm_num
    rw [this, Real.arctan_one]
    simp only [byM, H]
    field_simp

theorem byM_one : byM 1 = one := by simp [byM, one]

noncomputable def va (s : ℝ) (i : ℕ) : ℝ := if i = 0 then s / √(1 + s^2) else 5/3 * s
noncomputable def vb (s : ℝ) (i : ℕ) : ℝ := if i = 0 then 0 else 5/4 * s
noncomputable def ro (s : ℝ) (i : ℕ) : ℝ := if i = 0 then 55 else 256 / s

/-- C90 applies: the velocities and the density of the ground and the velocity of the water change so that the mode of frequency 1 has phase
velocity `s`; the sensitivities give the rate 1. -/
example : ∃ ks, sensR one.I lam1 1 (fun i => (va 1 i : ℂ)) (fun i => (vb 1 i : ℂ)) (thinR one.I (fun _ => H) dep (potUpR one.I one.S 0 pot)
      (potDownR one.I one.S 0 pot) (thinLayers 2 (fun _ => H) dep (1/10) 8)) = some ks ∧
    (ks.map fun q => q.2.1 * ((deriv (fun s => va s q.1) 1 : ℝ) : ℂ) + q.2.2.1 * ((deriv (fun s => vb s q.1) 1 : ℝ) : ℂ) +
      q.2.2.2 * ((deriv (fun s => ro s q.1) 1 : ℝ) : ℂ)).sum = 1 := by
  have pos : ∀ s ∈ Set.Ioi (0:ℝ), 0 < s := fun s h => h
  have nb : Set.Ioi (0:ℝ) ∈ 𝓝 (1:ℝ) := Ioi_mem_nhds one_pos
  have ci : ContinuousAt (fun s : ℝ => s) 1 := continuousAt_id
  have B := branch (o := byM) nb (fun s hs => byM_ok hs) (continuousAt_const.div₀ ci one_ne_zero) ci ci continuousAt_const
    continuousAt_const continuousAt_const (continuousAt_const.div₀ ci one_ne_zero)
  have dva : ∀ i, i < 2 → DifferentiableAt ℝ (fun s => va s i) 1 := by
    intro i _
    unfold va
    split
    · have h := (((differentiableAt_id (x := (1:ℝ)) (𝕜 := ℝ)).pow 2).const_add 1).sqrt (by norm_num)
      exact differentiableAt_id.div h (by simp)
    · exact differentiableAt_id.const_mul _
  have dvb : ∀ i, i < 2 → DifferentiableAt ℝ (fun s => vb s i) 1 := by
    intro i _
    unfold vb
    split
    · exact differentiableAt_const _
    · exact differentiableAt_id.const_mul _
  have dro : ∀ i, i < 2 → DifferentiableAt ℝ (fun s => ro s i) 1 := by
    intro i _
    unfold ro
    split
    · exact differentiableAt_const _
    · exact (differentiableAt_const _).div differentiableAt_id (by simp)
  have ks : sensR one.I lam1 1 (fun i => (va 1 i : ℂ)) (fun i => (vb 1 i : ℂ)) (thinR one.I (fun _ => H) dep (potUpR one.I one.S 0 pot)
      (potDownR one.I one.S 0 pot) (thinLayers 2 (fun _ => H) dep (1/10) 8)) = some _ := if_neg (by
    have := one_egy.2
    have k1 : one.I.k = 1 := by simp [I, one]
    rw [k1, one_pow, mul_one, mul_one]
    exact this)
  refine ⟨_, ks, ?_⟩
  have l0 : ∀ i, lam1 i ≠ 0 := by
    intro i; unfold lam1; split <;> norm_num
  have r := C90_sens B (om := 1) (va := va) (vb := vb) (rho := ro) (cr := fun s => s) (fun s hs => ?_) (fun s hs i hi => ?_) (fun i hi => (dva i hi).hasDerivAt)
    (fun i hi => (dvb i hi).hasDerivAt) (fun i hi => (dro i hi).hasDerivAt) (by rw [byM_one]; exact one_ok.desc) rfl ?_ ?_ (fun i => ?_)
    (iref := 0) (p := pot) (fun i _ z => ?_) (by decide) (fun i hi => ?_) (fun i hi => ?_) (fun i hi => ?_) dep_succ (fun i _ => H_pos) (1/10) (by norm_num) (fun i _ => H_fine) 8 (by decide)
    (lam := lam1) ks
  · exact (r.unique (hasDerivAt_id (1:ℝ)).ofReal_comp).trans ofReal_one
  · have : (s:ℂ) ≠ 0 := by exact_mod_cast (pos s hs).ne'
    simp only [byM]; push_cast; field_simp
  · have p := pos s hs
    have s0 : (s:ℂ) ≠ 0 := by exact_mod_cast p.ne'
    have sq : ((√(1 + s^2) : ℝ) : ℂ)^2 = 1 + (s:ℂ)^2 := by
      rw [← ofReal_pow, Real.sq_sqrt (by positivity)]; push_cast; rfl
    unfold M va vb ro
    rw [byM_mu p]
    split
    · refine ⟨?_, ?_, ?_⟩
      · simp [byM, div_pow, sq]; ring
      · simp
      · simp [byM]
    · refine ⟨?_, ?_, ?_⟩
      · simp [byM]; field_simp; norm_num
      · simp; field_simp; norm_num
      · simp [byM]
  · simp [byM, I, one]
  · simp [I, one]
  · simp only [I]; split <;> rfl
  · rw [byM_one]
  · rw [byM_one]; exact one_lm i hi
  · rw [byM_one, ← one_lam]; exact l0 i
  · rw [byM_one, ← one_lam]

end Oc

end GRT.Modal
