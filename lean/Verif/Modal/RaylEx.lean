import Verif.Modal.RaylMode

/-! C86, C87: models in which the theorems apply, and models in which the claims fail. -/

set_option linter.unusedSectionVars false

namespace GRT.Modal

open GRT.RT GRT.Layer GRT.Kernel Filter Complex Matrix

/-! ### One layer on a half-space -/

theorem two_mats {I : ModeIn ℂ} {S : ℕ → PSV ℂ} (h2 : I.nlay = 2) (t : (topR I).ok = true) :
    (raylMats I S 0).run = true ∧ (raylMats I S 0).FA.RU = (topR I).RU ∧
    (raylMats I S 0).BL.RD = !![(S 1).RD 0 0 * (I.exa 0 * I.exa 0), (S 1).RD 0 1 * (I.exa 0 * I.exb 0);
      (S 1).RD 1 0 * (I.exa 0 * I.exb 0), (S 1).RD 1 1 * (I.exb 0 * I.exb 0)] := by
  obtain ⟨q1, q2, -, -⟩ := C10_neutral_PSV (botR I S)
  obtain ⟨-, -, q3, q4⟩ := C10_neutral_PSV (topR I)
  have hA : (capTopR I resetM).ok = true := by rw [capTopR_ok]; exact q3
  have hB : (capBotR I S resetM).ok = true := by rw [capBotR_ok]; exact q1
  have e : raylMats I S 0 = { FA := capTopR I resetM, BL := capBotR I S resetM, run := true } := by
    have hl : raylLoop I S 0 (I.nlay - 2) = ⟨resetM, resetM, true⟩ := by rw [h2]; rfl
    unfold raylMats
    simp only [hl, t, hA, hB, Bool.not_true, Bool.false_eq_true, if_false]
  rw [e]
  refine ⟨rfl, ?_, ?_⟩
  · rw [capTopR_val q3]; exact q4.2.1
  · rw [capBotR_val q1, q2.1]
    simp [botR, putP, h2]

theorem two_sound {I : ModeIn ℂ} {S : ℕ → PSV ℂ} (h2 : I.nlay = 2) (t : (topR I).ok = true) : SoundR I S 0 := by
  refine ⟨(two_mats h2 t).1, ⟨?_, ?_⟩⟩
  · intro i hi
    have : jr I 0 = 0 := by simp [jr, mixed]
    omega
  · intro my h1 h3
    omega

/-! ### An ocean on an elastic half-space -/

/-- Ocean: `xa = i`; half-space: `xa = 4/5`, `xb = 3/5`; `k = c = 1`. -/
noncomputable def exOceanI : ModeIn ℂ where
  nlay := 2
  k := 1
  c := 1
  lay := fun i => if i = 0 then ⟨true, 55, 0, I, 1, 2, 0⟩ else ⟨false, 256, 400, 4/5, 3/5, 9/25, 16/25⟩
  exa := fun _ => exp (-(1 * I * (Real.pi / 4 : ℝ)))
  exb := fun _ => exp (-(1 * 1 * (Real.pi / 4 : ℝ)))

noncomputable def exOceanM : ℕ → Medium ℂ := fun i => if i = 0 then ⟨55, 55/2, 0⟩ else ⟨256, 6400/9 - 800, 400⟩

theorem exOcean_rt : ∃ r, rtPSV (K := ℂ) 1 ⟨true, 55, 0, I, 1, 2, 0⟩ ⟨false, 256, 400, 4/5, 3/5, 9/25, 16/25⟩ = .ok r ∧
    r.RD = !![-I, 0; 0, 0] := by
  have hI : I * I = -1 := I_mul_I
  have hA : 4 * ((1 - 1/2 * (16/25)) * (1 - 1/2 * (16/25))) * I * 400 + 55 * (1 * 1) * (16/25) * (4/5)
      - 4 * 400 * I * (4/5) * (3/5) = 704/25 * (1 - I) := by ring
  have hD : 4 * ((1 - 1/2 * (16/25)) * (1 - 1/2 * (16/25))) * I * 400 - 55 * (1 * 1) * (16/25) * (4/5)
      - 4 * 400 * I * (4/5) * (3/5) = 704/25 * (-1 - I) := by ring
  have hd : (704/25 * (1 - I) : ℂ) ≠ 0 := by
    intro e
    have : (1 : ℂ) = 0 := by linear_combination (1 + I) * (25/1408) * e + 1/2 * hI
    exact one_ne_zero this
  unfold rtPSV lsPSV lsCore
  simp only [Bool.not_true, Bool.not_false, Bool.false_and, Bool.and_false, Bool.false_eq_true, if_false, if_true, hA, hD]
  rw [if_neg hd, if_neg (by norm_num)]
  refine ⟨_, rfl, ?_⟩
  have : (704/25 * (-1 - I) : ℂ) / (704/25 * (1 - I)) = -I := by
    rw [div_eq_iff hd]; linear_combination -(704/25) * hI
  simp only [this]

noncomputable def exOceanS : ℕ → PSV ℂ := fun _ => exOcean_rt.choose

theorem exOcean_describes : DescribesR exOceanI exOceanS exOceanM (fun _ => Real.pi / 4) := by
  have two : ∀ i, i < exOceanI.nlay → i = 0 ∨ i = 1 := by intro i hi; simp only [exOceanI] at hi; omega
  refine ⟨⟨one_ne_zero, one_ne_zero, ?_, ?_, ?_, ?_⟩, ?_, ?_, ?_, ?_, ?_⟩
  · intro i hi
    rcases two i hi with rfl | rfl
    · refine ⟨?_, ?_, ?_, ?_, ?_, ?_, ?_, ?_⟩ <;> norm_num [exOceanI, exOceanM]
    · refine ⟨?_, ?_, ?_, ?_, ?_, ?_, ?_, ?_⟩ <;> norm_num [exOceanI, exOceanM]
  · intro i hi
    rcases two i hi with rfl | rfl <;> norm_num [exOceanI]
  · intro i hi
    rcases two i hi with rfl | rfl <;> norm_num [exOceanI]
  · intro i hi
    have : i = 0 := by simp only [exOceanI] at hi; omega
    subst this
    exact exOcean_rt.choose_spec.1
  · intro i hi
    rcases two i hi with rfl | rfl <;> norm_num [exOceanM]
  · intro i hi
    have : i = 0 := by simp only [exOceanI] at hi; omega
    subst this
    simp [exOceanI]
  · intro i hi
    have : i = 0 := by simp only [exOceanI] at hi; omega
    subst this
    simp [exOceanI]
  · norm_num [exOceanI]
  · norm_num [exOceanI]

theorem exOcean_top : topR exOceanI = { (resetM : RTM ℂ) with RU := !![-1, 0; 0, 0] } := by
  simp [topR, exOceanI, freeBoundPSV]

theorem exOcean_sound : SoundR exOceanI exOceanS 0 := two_sound rfl (by rw [exOcean_top]; rfl)

theorem exOcean_sec : ∃ p, raylSecular exOceanI exOceanS (parC false false) 0 = .ok ⟨0, some p⟩ := by
  obtain ⟨-, h1, h2⟩ := two_mats (I := exOceanI) (S := exOceanS) rfl (by rw [exOcean_top]; rfl)
  have hR : (exOceanS 1).RD = !![-I, 0; 0, 0] := exOcean_rt.choose_spec.2
  unfold raylSecular raylSecularOf
  rw [h1, h2, exOcean_top, hR]
  rw [if_neg (by simp [exOceanI]), if_pos ⟨by simp [exOceanI], Or.inl rfl⟩]
  refine ⟨_, congrArg Out.ok ((Sec.mk.injEq _ _ _ _).mpr ⟨?_, rfl⟩)⟩
  have := exLove_exp
  simp only [exOceanI, Matrix.of_apply, Matrix.cons_val', Matrix.cons_val_zero, Matrix.cons_val_fin_one]
  rw [this]
  simp

/-- The hypotheses of `C87_mode_partial` are met: a wave in the ocean and the ground below it. -/
example : ∃ y, RaylField 2 (fun i => (exOceanI.lay i).liquid) exOceanM (fun _ => Real.pi / 4) 1 1 y ∧ MovesAt exOceanI 0 y := by
  obtain ⟨p, hp⟩ := exOcean_sec
  have := C87_mode_partial exOcean_describes (iref := 0) (by decide) exOcean_sound hp (fun h => by simp [mixed] at h)
  refine ⟨_, ?_, this.2⟩
  have a := this.1
  simpa [exOceanI] using a

/-! ### A solid layer on an elastic half-space -/

/-- Layer: `xa = i/2`, `xb = i` (P and S waves are not coupled at the surface); half-space: `xa = 4/5`, `xb = 1/5`
(nor at the interface); `k = c = 1`. -/
noncomputable def exSolI (h : ℝ) : ModeIn ℂ where
  nlay := 2
  k := 1
  c := 1
  lay := fun i => if i = 0 then ⟨false, 46, 23, I/2, I, 5/4, 2⟩ else ⟨false, 72, 75, 4/5, 1/5, 9/25, 24/25⟩
  exa := fun _ => exp (-(1 * (I/2) * h))
  exb := fun _ => exp (-(1 * I * h))

noncomputable def exSolM : ℕ → Medium ℂ := fun i => if i = 0 then ⟨46, -46/5, 23⟩ else ⟨72, 50, 75⟩

noncomputable def exZ0 : ℂ := -221/229 - 60/229 * I
noncomputable def exZ1 : ℂ := 31/481 - 480/481 * I

theorem exSol_rt : ∃ r, rtPSV (K := ℂ) 1 ⟨false, 46, 23, I/2, I, 5/4, 2⟩ ⟨false, 72, 75, 4/5, 1/5, 9/25, 24/25⟩ = .ok r ∧
    r.RD = !![exZ0, 0; 0, exZ1] := by
  have hI : I * I = -1 := I_mul_I
  have hD : ((23/75 - 1) * (23/75 - 1) * (1 - I/2 * I) * (1 - 4/5 * (1/5)) +
      (23/75 - 1) * (23/75 * 2) * (72/46 * (1 - I/2 * I) - (1 - 4/5 * (1/5))) +
      1/4 * (24/25) * (23/75 * 2) * (46/72 * (1 - 4/5 * (1/5)) + 72/46 * (1 - I/2 * I) - 2 - (I/2 * (1/5) + 4/5 * I)) : ℂ) =
      4439/46875 - 414/3125 * I := by linear_combination (736/46875 : ℂ) * hI
  have hd : (4439/46875 - 414/3125 * I : ℂ) ≠ 0 := by
    intro e
    have h0 := congrArg Complex.im e
    norm_num at h0
  unfold rtPSV ssPSV
  simp only [Bool.not_false, Bool.and_true, if_true]
  rw [if_neg (by norm_num), hD, if_neg hd]
  refine ⟨_, rfl, ?_⟩
  have hinv : (1 / (4439/46875 - 414/3125 * I) : ℂ) * (4439/46875 - 414/3125 * I) = 1 := one_div_mul_cancel hd
  generalize (1 / (4439/46875 - 414/3125 * I) : ℂ) = X at hinv
  have e0 : X = 1 / (4439/46875 - 414/3125 * I) := by rw [eq_div_iff hd]; exact hinv
  ext i j
  fin_cases i <;> fin_cases j <;> simp [exZ0, exZ1] <;> grind

noncomputable def exSolS : ℕ → PSV ℂ := fun _ => exSol_rt.choose

theorem exSol_describes (h : ℝ) : DescribesR (exSolI h) exSolS exSolM (fun _ => h) := by
  have two : ∀ i, i < (exSolI h).nlay → i = 0 ∨ i = 1 := by intro i hi; simp only [exSolI] at hi; omega
  have hI : I * I = -1 := I_mul_I
  refine ⟨⟨one_ne_zero, one_ne_zero, ?_, ?_, ?_, ?_⟩, ?_, ?_, ?_, ?_, ?_⟩
  · intro i hi
    rcases two i hi with rfl | rfl
    · refine ⟨?_, ?_, ?_, ?_, ?_, ?_, ?_, ?_⟩ <;> norm_num [exSolI, exSolM]
      linear_combination (1/4) * hI
    · refine ⟨?_, ?_, ?_, ?_, ?_, ?_, ?_, ?_⟩ <;> norm_num [exSolI, exSolM]
  · intro i hi
    rcases two i hi with rfl | rfl <;> norm_num [exSolI]
  · intro i hi
    rcases two i hi with rfl | rfl <;> norm_num [exSolI]
  · intro i hi
    have : i = 0 := by simp only [exSolI] at hi; omega
    subst this
    exact exSol_rt.choose_spec.1
  · intro i hi
    rcases two i hi with rfl | rfl <;> norm_num [exSolM]
  · intro i hi
    have : i = 0 := by simp only [exSolI] at hi; omega
    subst this
    simp [exSolI]
  · intro i hi
    have : i = 0 := by simp only [exSolI] at hi; omega
    subst this
    simp [exSolI]
  · norm_num [exSolI]
  · norm_num [exSolI]

theorem exSol_top (h : ℝ) : topR (exSolI h) = { (resetM : RTM ℂ) with RU := !![1, 0; 0, 1] } := by
  have hI : I * I = -1 := I_mul_I
  have hd : (-1 + I/2 * I + 2 - 1/4 * 2 * 2 : ℂ) = -1/2 := by linear_combination (1/2) * hI
  have hn : (1 + I/2 * I - 2 + 1/4 * 2 * 2 : ℂ) = -1/2 := by linear_combination (1/2) * hI
  have e : freeBoundPSV (K := ℂ) false 2 (I/2) I 1 = .ok !![1, 0; 0, 1] := by
    unfold freeBoundPSV
    simp only [Bool.not_false, if_true, hd, hn]
    norm_num
  simp only [topR, exSolI, if_true, e]

theorem exSol_sound (h : ℝ) : SoundR (exSolI h) exSolS 0 := two_sound rfl (by rw [exSol_top]; rfl)

/-- The value for every thickness: `w` is the phase of the P wave across the layer and back. -/
theorem exSol_sec (h : ℝ) : raylSecular (exSolI h) exSolS (parC false false) 0 =
    .ok ⟨(1 - exZ0 * exp (-(I * h))) * (1 - exZ1 * exp (-(I * h))^2),
      if 1 - exZ0 * exp (-(I * h)) = 0 then none else
        some (⟨![0, exZ1 * exp (-(I * h))^2 * ((1 - exZ0 * exp (-(I * h))) / ‖1 - exZ0 * exp (-(I * h))‖)],
          ![0, (1 - exZ0 * exp (-(I * h))) / ‖1 - exZ0 * exp (-(I * h))‖]⟩, Amp4.zero)⟩ := by
  obtain ⟨-, h1, h2⟩ := two_mats (I := exSolI h) (S := exSolS) rfl (by rw [exSol_top]; rfl)
  have hR : (exSolS 1).RD = !![exZ0, 0; 0, exZ1] := exSol_rt.choose_spec.2
  have w1 : exp (-(1 * (I/2) * h)) * exp (-(1 * (I/2) * h)) = exp (-(I * h)) := by rw [← Complex.exp_add]; congr 1; ring
  have w2 : exp (-(1 * I * h)) * exp (-(1 * I * h)) = exp (-(I * h))^2 := by rw [one_mul, pow_two]
  unfold raylSecular raylSecularOf
  rw [h1, h2, exSol_top, hR]
  rw [if_pos ⟨by simp [exSolI], Or.inl rfl⟩]
  have e1 : (exSolI h).exa 0 * (exSolI h).exa 0 = exp (-(I * h)) := w1
  have e2 : (exSolI h).exb 0 * (exSolI h).exb 0 = exp (-(I * h))^2 := w2
  simp only [e1, e2]
  generalize exp (-(I * h)) = w
  have hD : detSS (exSolI h) 0 (parC false false).low !![1, 0; 0, 1]
      !![!![exZ0, 0; 0, exZ1] 0 0 * w, !![exZ0, 0; 0, exZ1] 0 1 * ((exSolI h).exa 0 * (exSolI h).exb 0);
        !![exZ0, 0; 0, exZ1] 1 0 * ((exSolI h).exa 0 * (exSolI h).exb 0), !![exZ0, 0; 0, exZ1] 1 1 * w^2] =
      !![1 - exZ0 * w, 0; 0, 1 - exZ1 * w^2] := by
    ext i j
    fin_cases i <;> fin_cases j <;> simp [detSS, parC, oneSub, RT.mul]
  simp only [hD]
  have hh : (parC false false).hyp (1 - exZ0 * w) 0 = (‖1 - exZ0 * w‖ : ℂ) := by
    simp [parC, Real.sqrt_sq (norm_nonneg _)]
  simp only [Matrix.of_apply, Matrix.cons_val', Matrix.cons_val_zero, Matrix.cons_val_one, Matrix.cons_val_fin_one, hh]
  congr 2
  · simp [parC]
  · have e : ((‖1 - exZ0 * w‖ : ℂ) = 0) ↔ 1 - exZ0 * w = 0 := by
      rw [Complex.ofReal_eq_zero, norm_eq_zero]
    simp only [e]
    split
    · rfl
    · congr 2
      simp [mulV]

theorem exp_arg {z : ℂ} (hz : ‖z‖ = 1) : exp (-(I * (Complex.arg z + 2 * Real.pi : ℝ))) * z = 1 := by
  have h := Complex.norm_mul_exp_arg_mul_I z
  rw [hz, Complex.ofReal_one, one_mul] at h
  nth_rewrite 2 [← h]
  rw [← Complex.exp_add, Complex.exp_eq_one_iff]
  exact ⟨-1, by push_cast; ring⟩

theorem exZ0_norm : ‖exZ0‖ = 1 := by
  have : ‖exZ0‖^2 = 1 := by rw [← Complex.normSq_eq_norm_sq, Complex.normSq_apply]; norm_num [exZ0]
  nlinarith [norm_nonneg exZ0]

theorem exZ1_norm : ‖exZ1‖ = 1 := by
  have : ‖exZ1‖^2 = 1 := by rw [← Complex.normSq_eq_norm_sq, Complex.normSq_apply]; norm_num [exZ1]
  nlinarith [norm_nonneg exZ1]

/-- A thickness at which the S wave fits into the layer. -/
noncomputable def exHS : ℝ := (Complex.arg exZ1 + 2 * Real.pi) / 2

/-- A thickness at which the P wave does. -/
noncomputable def exHP : ℝ := Complex.arg exZ0 + 2 * Real.pi

theorem exHS_pos : 0 < exHS := by
  have := Complex.neg_pi_lt_arg exZ1
  have := Real.pi_pos
  unfold exHS; linarith

theorem exHP_pos : 0 < exHP := by
  have := Complex.neg_pi_lt_arg exZ0
  have := Real.pi_pos
  unfold exHP; linarith

theorem exHS_eq : exZ1 * exp (-(I * exHS))^2 = 1 := by
  have h := exp_arg exZ1_norm
  have : exp (-(I * exHS))^2 = exp (-(I * (Complex.arg exZ1 + 2 * Real.pi : ℝ))) := by
    rw [← Complex.exp_nat_mul]; congr 1; unfold exHS; push_cast; ring
  rw [this, mul_comm]; exact h

theorem exHP_eq : exZ0 * exp (-(I * exHP)) = 1 := by
  rw [mul_comm]; exact exp_arg exZ0_norm

theorem exHS_ne : 1 - exZ0 * exp (-(I * exHS)) ≠ 0 := by
  intro h
  have h1 := exHS_eq
  have hw : exZ0 * exp (-(I * exHS)) = 1 := by linear_combination -h
  have : exZ0^2 = exZ1 := by
    have h0 : exZ0^2 * exp (-(I * exHS))^2 = 1 := by rw [← mul_pow, hw, one_pow]
    have hne : exp (-(I * exHS))^2 ≠ 0 := pow_ne_zero _ (exp_ne_zero _)
    exact mul_right_cancel₀ hne (h0.trans h1.symm)
  have := congrArg Complex.re this
  norm_num [exZ0, exZ1, pow_two] at this

/-- The hypotheses of `C87_mode_partial` are met in a solid: a wave in the layer and the ground below it. -/
example : 0 < exHS ∧ ∃ p, raylSecular (exSolI exHS) exSolS (parC false false) 0 = .ok ⟨0, some p⟩ ∧
    RaylField 2 (fun i => ((exSolI exHS).lay i).liquid) exSolM (fun _ => exHS) 1 (1 * 1) (raylOut (exSolI exHS) exSolS (fun _ => exHS) 0 p) ∧
    MovesAt (exSolI exHS) 0 (raylOut (exSolI exHS) exSolS (fun _ => exHS) 0 p) := by
  have h := exSol_sec exHS
  rw [if_neg exHS_ne, exHS_eq, sub_self, mul_zero] at h
  exact ⟨exHS_pos, _, h, C87_mode_partial (exSol_describes exHS) (iref := 0) (by decide) (exSol_sound _) h (fun h => by simp [mixed] at h)⟩

/-- The hypotheses of `C86_secular_iff_partial` are met: there is a wave at this thickness. -/
example : ∃ y, RaylField 2 (fun i => ((exSolI exHS).lay i).liquid) exSolM (fun _ => exHS) 1 (1 * 1) y ∧ MovesAt (exSolI exHS) 0 y :=
  (C86_secular_iff_partial (exSol_describes exHS) (iref := 0) (by decide) (exSol_sound _) (exSol_sec exHS)).1
    (by rw [exHS_eq, sub_self, mul_zero])

/-- C87 fails as stated: there are a model, a thickness and a phase velocity at which the secular function vanishes and a free wave
exists, but the first row of the matrix is zero, and the amplitudes, taken from that row alone and divided by its
length, are not numbers (secular.c 380-385). -/
theorem C87_violated_row : 0 < exHP ∧ DescribesR (exSolI exHP) exSolS exSolM (fun _ => exHP) ∧ SoundR (exSolI exHP) exSolS 0 ∧
    raylSecular (exSolI exHP) exSolS (parC false false) 0 = .ok ⟨0, none⟩ ∧
    ∃ y, RaylField 2 (fun i => ((exSolI exHP).lay i).liquid) exSolM (fun _ => exHP) 1 (1 * 1) y ∧ MovesAt (exSolI exHP) 0 y := by
  have h := exSol_sec exHP
  have e : 1 - exZ0 * exp (-(I * exHP)) = 0 := by rw [exHP_eq, sub_self]
  rw [if_pos e, e, zero_mul] at h
  exact ⟨exHP_pos, exSol_describes _, exSol_sound _, h, wave_of_zero (exSol_describes _) (iref := 0) (by decide) (exSol_sound _) h⟩

/-! ### The Rayleigh velocity of the top layer -/

/-- Layer: `xa = 25/27`, `xb = 1/3`; half-space: `xa = 2/3`, `xb = 1/3`; `c = 1` is the velocity of Rayleigh waves in a half-space
with the material of the layer; any wavenumber, any thickness. -/
noncomputable def exTopI (k h : ℝ) : ModeIn ℂ where
  nlay := 2
  k := k
  c := 1
  lay := fun i => if i = 0 then ⟨false, 8, 9, 25/27, 1/3, 104/729, 8/9⟩ else ⟨false, 40, 45, 2/3, 1/3, 5/9, 8/9⟩
  exa := fun _ => exp (-(k * (25/27) * h))
  exb := fun _ => exp (-(k * (1/3) * h))

noncomputable def exTopM : ℕ → Medium ℂ := fun i => if i = 0 then ⟨8, 495/13, 9⟩ else ⟨40, -18, 45⟩

theorem exTop_rt : ∃ r, rtPSV (K := ℂ) 1 ⟨false, 8, 9, 25/27, 1/3, 104/729, 8/9⟩ ⟨false, 40, 45, 2/3, 1/3, 5/9, 8/9⟩ = .ok r ∧
    r.RD = !![-7/2, 0; 0, -7/3] := by
  unfold rtPSV ssPSV
  simp only [Bool.not_false, Bool.and_true, if_true]
  rw [if_neg (by norm_num), if_neg (by norm_num)]
  refine ⟨_, rfl, ?_⟩
  ext i j
  fin_cases i <;> fin_cases j <;> norm_num

noncomputable def exTopS : ℕ → PSV ℂ := fun _ => exTop_rt.choose

theorem exTop_describes {k h : ℝ} (hk : 0 < k) : DescribesR (exTopI k h) exTopS exTopM (fun _ => h) := by
  have two : ∀ i, i < (exTopI k h).nlay → i = 0 ∨ i = 1 := by intro i hi; simp only [exTopI] at hi; omega
  refine ⟨⟨by simpa [exTopI] using hk.ne', one_ne_zero, ?_, ?_, ?_, ?_⟩, ?_, ?_, ?_, ?_, ?_⟩
  · intro i hi
    rcases two i hi with rfl | rfl
    · refine ⟨?_, ?_, ?_, ?_, ?_, ?_, ?_, ?_⟩ <;> norm_num [exTopI, exTopM]
    · refine ⟨?_, ?_, ?_, ?_, ?_, ?_, ?_, ?_⟩ <;> norm_num [exTopI, exTopM]
  · intro i hi
    rcases two i hi with rfl | rfl <;> norm_num [exTopI]
  · intro i hi
    rcases two i hi with rfl | rfl <;> norm_num [exTopI]
  · intro i hi
    have : i = 0 := by simp only [exTopI] at hi; omega
    subst this
    exact exTop_rt.choose_spec.1
  · intro i hi
    rcases two i hi with rfl | rfl <;> norm_num [exTopM]
  · intro i hi
    have : i = 0 := by simp only [exTopI] at hi; omega
    subst this
    simp [exTopI]
  · intro i hi
    have : i = 0 := by simp only [exTopI] at hi; omega
    subst this
    simp [exTopI]
  · have : ((k : ℂ) * (2/3)) = ((k * (2/3) : ℝ) : ℂ) := by push_cast; ring
    simp only [exTopI, show ¬ (2 - 1 = 0) by omega, if_false]
    rw [this, Complex.ofReal_re]; positivity
  · have : ((k : ℂ) * (1/3)) = ((k * (1/3) : ℝ) : ℂ) := by push_cast; ring
    simp only [exTopI, show ¬ (2 - 1 = 0) by omega, if_false]
    rw [this, Complex.ofReal_re]; positivity

/-- C86 fails as stated: at the velocity of Rayleigh waves in a half-space with the material of the top layer the reflection at the surface is refused
(layer.c 44-48), the matrices are left as they are, and the function vanishes at every frequency and for every thickness,
although no wave travels in the model at that velocity. -/
theorem C86_violated_top {k h : ℝ} (hk : 0 < k) : DescribesR (exTopI k h) exTopS exTopM (fun _ => h) ∧
    (∃ p, raylSecular (exTopI k h) exTopS (parC true false) 0 = .ok ⟨0, some p⟩) ∧
    ¬ ∃ y, RaylField 2 (fun i => ((exTopI k h).lay i).liquid) exTopM (fun _ => h) k (1 * k) y ∧ MovesAt (exTopI k h) 0 y := by
  have hI := exTop_describes (h := h) hk
  refine ⟨hI, ?_, ?_⟩
  · have ht : (topR (exTopI k h)).ok = false := by
      have : freeBoundPSV (K := ℂ) false (8/9) (25/27) (1/3) 1 = .fail := by
        unfold freeBoundPSV
        norm_num
      simp only [topR, exTopI, if_true, this]
    have hl : raylLoop (exTopI k h) exTopS 0 ((exTopI k h).nlay - 2) = ⟨resetM, resetM, true⟩ := rfl
    have hm : raylMats (exTopI k h) exTopS 0 = ⟨resetM, resetM, false⟩ := by
      unfold raylMats
      simp [hl, ht]
    unfold raylSecular raylSecularOf
    rw [hm, if_pos ⟨by simp [exTopI], Or.inl rfl⟩]
    dsimp only
    have hD : detSS (exTopI k h) 0 (parC true false).low (resetM (K := ℂ)).RU (resetM (K := ℂ)).RD =
        !![5/9, -1/3; -25/27, 5/9] := by
      ext i j
      fin_cases i <;> fin_cases j <;> norm_num [detSS, parC, RT.mul, RT.add, resetM, exTopI]
    rw [hD]
    have hh : (parC true false).hyp (5/9) (-1/3) ≠ 0 := by
      simp only [parC, ne_eq, Complex.ofReal_eq_zero]
      have : (0:ℝ) < ‖(5/9 : ℂ)‖^2 + ‖(-1/3 : ℂ)‖^2 := by
        have : (0:ℝ) < ‖(5/9 : ℂ)‖ := by rw [norm_pos_iff]; norm_num
        positivity
      exact (Real.sqrt_pos.2 this).ne'
    simp only [Matrix.of_apply, Matrix.cons_val', Matrix.cons_val_zero, Matrix.cons_val_one, Matrix.cons_val_fin_one, if_neg hh]
    refine ⟨_, congrArg Out.ok ((Sec.mk.injEq _ _ _ _).mpr ⟨?_, rfl⟩)⟩
    norm_num [parC]
  · rintro ⟨y, hy, hne⟩
    obtain ⟨D, U, F, A⟩ := field_amps hI (show 1 ≤ 2 by decide) (y := y) (by simpa [exTopI] using hy)
    have l := A.linked 0 (show 0 + 1 < 2 by decide)
    have hR : (exTopS 1).RD = !![-7/2, 0; 0, -7/3] := exTop_rt.choose_spec.2
    have hb : (D 1).up = 0 := A.bot
    have hu : (D 0).up = expM (exTopI k h) 0 *ᵥ (!![-7/2, 0; 0, -7/3] *ᵥ (expM (exTopI k h) 0 *ᵥ (D 0).dn)) := by
      rw [l.up, l.refl, hR, l.dn]
      show _ *ᵥ (_ + _ *ᵥ (D 1).up) = _
      rw [hb]; simp
    have u0 := congrFun hu 0
    have u1 := congrFun hu 1
    have hx : (exTopI k h).exa 0 = ((Real.exp (-(k * (25/27) * h)) : ℝ) : ℂ) := by simp [exTopI]
    have hy' : (exTopI k h).exb 0 = ((Real.exp (-(k * (1/3) * h)) : ℝ) : ℂ) := by simp [exTopI]
    simp only [mv_apply, expM, hx, hy', Matrix.of_apply, Matrix.cons_val', Matrix.cons_val_zero, Matrix.cons_val_one, Matrix.cons_val_fin_one,
      zero_mul, add_zero, zero_add] at u0 u1
    have pa := Real.exp_pos (-(k * (25/27) * h))
    have pb := Real.exp_pos (-(k * (1/3) * h))
    generalize Real.exp (-(k * (25/27) * h)) = a at u0 pa
    generalize Real.exp (-(k * (1/3) * h)) = b at u1 pb
    obtain ⟨s1, s2⟩ := A.top
    rw [psvState_solid (hI.fits 0 (show 0 < 2 by decide)) (by simp [exTopI])] at s1 s2
    simp only at s1 s2
    have hmk : (exTopM 0).mu * (exTopI k h).k^2 ≠ 0 := by
      simp [exTopM, exTopI, hk.ne']
    have r1 := (mul_eq_zero.1 s1).resolve_left hmk
    have r2 := (mul_eq_zero.1 s2).resolve_left hmk
    simp only [u0, u1, exTopI, if_true] at r1 r2
    have hs : (7/2 * a^2 + 7/3 * b^2 : ℂ) ≠ 0 := by
      have : (7/2 * a^2 + 7/3 * b^2 : ℂ) = ((7/2 * a^2 + 7/3 * b^2 : ℝ) : ℂ) := by push_cast; ring
      rw [this, Ne, Complex.ofReal_eq_zero]
      positivity
    have hd0 : (D 0).dn 0 = 0 := by
      have : (7/2 * a^2 + 7/3 * b^2 : ℂ) * (D 0).dn 0 = 0 := by
        linear_combination -(81/200) * ((10/9) * (1 - 7/3*b^2) * r1 + (2/3) * (1 + 7/3*b^2) * r2)
      exact (mul_eq_zero.1 this).resolve_left hs
    have hd1 : (D 0).dn 1 = 0 := by
      have : (7/2 * a^2 + 7/3 * b^2 : ℂ) * (D 0).dn 1 = 0 := by
        linear_combination -(81/200) * ((50/27) * (1 + 7/2*a^2) * r1 + (10/9) * (1 - 7/2*a^2) * r2)
      exact (mul_eq_zero.1 this).resolve_left hs
    have hd : (D 0).dn = 0 := ext2 hd0 hd1
    have hu0 : (D 0).up = 0 := by rw [hu, hd]; simp
    rcases hne with ⟨z, hz⟩ | ⟨hmx, -⟩
    · apply hz
      rw [F 0 (show 0 < 2 by decide), hu0, hd, psvField]
      have hu : upAt (exTopI k h).k ((exTopI k h).lay 0) 0 z = 0 := by ext j; fin_cases j <;> simp [upAt]
      have hd : dnAt (exTopI k h).k ((exTopI k h).lay 0) 0 z = 0 := by ext j; fin_cases j <;> simp [dnAt]
      rw [hu, hd, psvState_solid (hI.fits 0 (show 0 < 2 by decide)) (by simp [exTopI])]
      simp
    · simp [mixed] at hmx

end GRT.Modal
