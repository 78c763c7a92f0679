import Verif.RT.Lemmas

/-! Properties C09-C12: combination of reflection/transmission responses. -/

set_option linter.unusedSectionVars false

namespace GRT.RT

variable {K : Type*} [Field K] [DecidableEq K]

open Matrix

/-! ### Specification

A response scatters waves: `d`, `u` are the down- and upgoing amplitudes just above the stack, `d'`,
`u'` just below.  This is the defining relation of reflection and transmission matrices and does not
mention the recursion formulas. -/

/-- P-SV amplitudes above `(d,u)` and below `(d',u')` are compatible with the response `M`. -/
def Scatter (M : RTM K) (d u d' u' : Fin 2 → K) : Prop :=
  u = M.RD *ᵥ d + M.TU *ᵥ u' ∧ d' = M.TD *ᵥ d + M.RU *ᵥ u'

/-- SH amplitudes above and below are compatible with the response `M`. -/
def ScatterSH (M : RTM K) (d u d' u' : K) : Prop :=
  u = M.RDL * d + M.TUL * u' ∧ d' = M.TDL * d + M.RUL * u'

/-! ### Closed form of the in-place program (lemma) -/

theorem recRT_PSV_val (p1 p2 p : Ptr) (s : Store K) (hp : p ≠ p2)
    (hd : (1 - (s p1).RU * (s p2).RD).det ≠ 0) :
    recRT_PSV p1 p2 p s = s.set p { s p with
      ok := true
      TD := (s p2).TD * ((1 - (s p1).RU * (s p2).RD)⁻¹ * (s p1).TD)
      RD := (s p1).RD + (s p1).TU * ((s p2).RD * ((1 - (s p1).RU * (s p2).RD)⁻¹ * (s p1).TD))
      TU := (s p1).TU * ((1 - (s p2).RD * (s p1).RU)⁻¹ * (s p2).TU)
      RU := (s p2).RU + (s p2).TD * ((s p1).RU * ((1 - (s p2).RD * (s p1).RU)⁻¹ * (s p2).TU)) } := by
  have hd' : (1 - (s p2).RD * (s p1).RU).det ≠ 0 := by rwa [det_comm]
  unfold recRT_PSV
  simp only [mul_eq, oneSub_eq, add_eq, inv_eq hd]
  by_cases h1 : p1 = p
  · subst h1
    simp only [Store.set, if_true, Ne.symm hp, if_false, inv_eq hd']
    funext q; by_cases hq : q = p1 <;> simp [Store.set, hq]
  · simp only [Store.set, if_true, Ne.symm hp, if_false, h1, inv_eq hd']
    funext q; by_cases hq : q = p <;> simp [Store.set, hq]

theorem recRT_PSV_fail (p1 p2 p : Ptr) (s : Store K)
    (hd : (1 - (s p1).RU * (s p2).RD).det = 0) :
    recRT_PSV p1 p2 p s = s.set p { s p with ok := false } := by
  unfold recRT_PSV
  simp only [mul_eq, oneSub_eq, inv_none.2 hd]

/-! ### C12 -/

theorem scatter_comp_iff {A B M : RTM K} (hd : (1 - A.RU * B.RD).det ≠ 0)
    (hTD : M.TD = B.TD * ((1 - A.RU * B.RD)⁻¹ * A.TD))
    (hRD : M.RD = A.RD + A.TU * (B.RD * ((1 - A.RU * B.RD)⁻¹ * A.TD)))
    (hTU : M.TU = A.TU * ((1 - B.RD * A.RU)⁻¹ * B.TU))
    (hRU : M.RU = B.RU + B.TD * (A.RU * ((1 - B.RD * A.RU)⁻¹ * B.TU)))
    (d u d'' u'' : Fin 2 → K) :
    (Scatter M d u d'' u'' ↔ ∃ d' u', Scatter A d u d' u' ∧ Scatter B d' u' d'' u'') ∧
    (∀ d₁ u₁ d₂ u₂ x y x' y', Scatter A d x d₁ u₁ → Scatter B d₁ u₁ y u'' →
      Scatter A d x' d₂ u₂ → Scatter B d₂ u₂ y' u'' → d₁ = d₂ ∧ u₁ = u₂) := by
  have hd' : (1 - B.RD * A.RU).det ≠ 0 := by rwa [det_comm]
  set X := 1 - A.RU * B.RD with hX
  set Y := 1 - B.RD * A.RU with hY
  -- intermediate waves are forced
  have hforce : ∀ d₁ u₁, d₁ = A.TD *ᵥ d + A.RU *ᵥ u₁ → u₁ = B.RD *ᵥ d₁ + B.TU *ᵥ u'' →
      d₁ = X⁻¹ *ᵥ (A.TD *ᵥ d + A.RU *ᵥ (B.TU *ᵥ u'')) ∧
      u₁ = Y⁻¹ *ᵥ (B.RD *ᵥ (A.TD *ᵥ d) + B.TU *ᵥ u'') := by
    intro d₁ u₁ h1 h2
    constructor
    · have : X *ᵥ d₁ = A.TD *ᵥ d + A.RU *ᵥ (B.TU *ᵥ u'') := by
        rw [hX, sub_mulVec, one_mulVec, ← mulVec_mulVec]
        have h3 : A.RU *ᵥ u₁ = A.RU *ᵥ (B.RD *ᵥ d₁) + A.RU *ᵥ (B.TU *ᵥ u'') := by
          conv_lhs => rw [h2]
          rw [mulVec_add]
        calc d₁ - A.RU *ᵥ (B.RD *ᵥ d₁)
            = (A.TD *ᵥ d + A.RU *ᵥ u₁) - A.RU *ᵥ (B.RD *ᵥ d₁) := by rw [← h1]
          _ = _ := by rw [h3]; abel
      rw [← this, mulVec_mulVec, inv_mul' hd, one_mulVec]
    · have : Y *ᵥ u₁ = B.RD *ᵥ (A.TD *ᵥ d) + B.TU *ᵥ u'' := by
        rw [hY, sub_mulVec, one_mulVec, ← mulVec_mulVec]
        have h3 : B.RD *ᵥ d₁ = B.RD *ᵥ (A.TD *ᵥ d) + B.RD *ᵥ (A.RU *ᵥ u₁) := by
          conv_lhs => rw [h1]
          rw [mulVec_add]
        calc u₁ - B.RD *ᵥ (A.RU *ᵥ u₁)
            = (B.RD *ᵥ d₁ + B.TU *ᵥ u'') - B.RD *ᵥ (A.RU *ᵥ u₁) := by rw [← h2]
          _ = _ := by rw [h3]; abel
      rw [← this, mulVec_mulVec, inv_mul' hd', one_mulVec]
  -- two identities between the inverses
  have hXY : A.RU * Y⁻¹ = X⁻¹ * A.RU := by
    have : X * A.RU = A.RU * Y := by rw [hX, hY]; noncomm_ring
    calc A.RU * Y⁻¹ = X⁻¹ * (X * A.RU) * Y⁻¹ := by rw [← mul_assoc, inv_mul' hd, one_mul]
      _ = X⁻¹ * A.RU * (Y * Y⁻¹) := by rw [this]; noncomm_ring
      _ = X⁻¹ * A.RU := by rw [mul_inv' hd', mul_one]
  have hYX : B.RD * X⁻¹ = Y⁻¹ * B.RD := by
    have : Y * B.RD = B.RD * X := by rw [hX, hY]; noncomm_ring
    calc B.RD * X⁻¹ = Y⁻¹ * (Y * B.RD) * X⁻¹ := by rw [← mul_assoc, inv_mul' hd', one_mul]
      _ = Y⁻¹ * B.RD * (X * X⁻¹) := by rw [this]; noncomm_ring
      _ = Y⁻¹ * B.RD := by rw [mul_inv' hd, mul_one]
  have hYone : Y⁻¹ = 1 + B.RD * (A.RU * Y⁻¹) := by
    have h := mul_inv' hd'
    rw [hY] at h ⊢
    have : (1 - B.RD * A.RU) * (1 - B.RD * A.RU)⁻¹ =
      (1 - B.RD * A.RU)⁻¹ - B.RD * (A.RU * (1 - B.RD * A.RU)⁻¹) := by noncomm_ring
    rw [this] at h
    exact sub_eq_iff_eq_add.1 h
  have hXone : X⁻¹ = 1 + A.RU * (B.RD * X⁻¹) := by
    have h := mul_inv' hd
    rw [hX] at h ⊢
    have : (1 - A.RU * B.RD) * (1 - A.RU * B.RD)⁻¹ =
      (1 - A.RU * B.RD)⁻¹ - A.RU * (B.RD * (1 - A.RU * B.RD)⁻¹) := by noncomm_ring
    rw [this] at h
    exact sub_eq_iff_eq_add.1 h
  -- the forced intermediate waves do satisfy the coupling equations
  have hsol : ∀ d₁ u₁, d₁ = X⁻¹ *ᵥ (A.TD *ᵥ d + A.RU *ᵥ (B.TU *ᵥ u'')) →
      u₁ = Y⁻¹ *ᵥ (B.RD *ᵥ (A.TD *ᵥ d) + B.TU *ᵥ u'') →
      d₁ = A.TD *ᵥ d + A.RU *ᵥ u₁ ∧ u₁ = B.RD *ᵥ d₁ + B.TU *ᵥ u'' := by
    intro d₁ u₁ h1 h2
    constructor
    · rw [h1, h2]
      simp only [mulVec_add, mulVec_mulVec]
      rw [← mul_assoc A.RU, ← mul_assoc A.RU, ← mul_assoc X⁻¹, hXY]
      have : X⁻¹ * A.TD = A.TD + A.RU * Y⁻¹ * (B.RD * A.TD) := by
        conv_lhs => rw [hXone, hYX]
        noncomm_ring
      rw [this, hXY, add_mulVec]
      have e2 : X⁻¹ * A.RU * (B.RD * A.TD) = X⁻¹ * A.RU * B.RD * A.TD := by noncomm_ring
      simp only [e2, add_assoc, mul_assoc]
    · rw [h1, h2]
      simp only [mulVec_add, mulVec_mulVec]
      have e1 : Y⁻¹ * B.TU = B.TU + B.RD * (X⁻¹ * (A.RU * B.TU)) := by
        conv_lhs => rw [hYone, hXY]
        noncomm_ring
      have e2 : Y⁻¹ * (B.RD * A.TD) = B.RD * (X⁻¹ * A.TD) := by
        rw [← mul_assoc, ← hYX, mul_assoc]
      rw [e1, e2, add_mulVec]
      abel
  constructor
  · constructor
    · rintro ⟨h1, h2⟩
      refine ⟨X⁻¹ *ᵥ (A.TD *ᵥ d + A.RU *ᵥ (B.TU *ᵥ u'')),
        Y⁻¹ *ᵥ (B.RD *ᵥ (A.TD *ᵥ d) + B.TU *ᵥ u''), ?_⟩
      obtain ⟨g1, g2⟩ := hsol _ _ rfl rfl
      refine ⟨⟨?_, g1⟩, ⟨g2, ?_⟩⟩
      · rw [h1, hRD, hTU]
        simp only [mulVec_add, mulVec_mulVec, add_mulVec]
        rw [← mul_assoc Y⁻¹, ← hYX, ← mul_assoc B.RD]
        abel
      · rw [h2, hTD, hRU]
        simp only [mulVec_add, mulVec_mulVec, add_mulVec]
        rw [← mul_assoc X⁻¹, ← hXY, ← mul_assoc A.RU]
        abel
    · rintro ⟨d₁, u₁, ⟨h1, h2⟩, ⟨h3, h4⟩⟩
      obtain ⟨g1, g2⟩ := hforce d₁ u₁ h2 h3
      constructor
      · rw [h1, g2, hRD, hTU]
        simp only [mulVec_add, mulVec_mulVec, add_mulVec]
        rw [← mul_assoc Y⁻¹, ← hYX, ← mul_assoc B.RD]
        abel
      · rw [h4, g1, hTD, hRU]
        simp only [mulVec_add, mulVec_mulVec, add_mulVec]
        rw [← mul_assoc X⁻¹, ← hXY, ← mul_assoc A.RU]
        abel
  · rintro d₁ u₁ d₂ u₂ x y x' y' ⟨_, h1⟩ ⟨h2, _⟩ ⟨_, h3⟩ ⟨h4, _⟩
    obtain ⟨a1, a2⟩ := hforce d₁ u₁ h1 h2
    obtain ⟨b1, b2⟩ := hforce d₂ u₂ h3 h4
    exact ⟨a1.trans b1.symm, a2.trans b2.symm⟩

/-- C12 (P-SV): running the combination routine, possibly writing over its first argument, produces
a response whose scattering is exactly that of the two parts put on top of each other. -/
theorem C12_combine_PSV (p1 p2 p : Ptr) (s : Store K) (hp : p ≠ p2)
    (hok : (recRT_PSV p1 p2 p s p).ok = true) (d u d'' u'' : Fin 2 → K) :
    Scatter (recRT_PSV p1 p2 p s p) d u d'' u'' ↔
      ∃ d' u', Scatter (s p1) d u d' u' ∧ Scatter (s p2) d' u' d'' u'' := by
  by_cases hd : (1 - (s p1).RU * (s p2).RD).det = 0
  · rw [recRT_PSV_fail _ _ _ _ hd] at hok; simp [Store.set] at hok
  · rw [recRT_PSV_val _ _ _ _ hp hd]
    refine (scatter_comp_iff (A := s p1) (B := s p2) hd ?_ ?_ ?_ ?_ d u d'' u'').1 <;> simp [Store.set]

/-- C12 (P-SV): for given incident waves there is exactly one pair of intermediate waves. -/
theorem C12_unique_PSV (p1 p2 p : Ptr) (s : Store K) (hp : p ≠ p2)
    (hok : (recRT_PSV p1 p2 p s p).ok = true) (d u'' : Fin 2 → K) :
    ∃! w : ((Fin 2 → K) × (Fin 2 → K)), ∃ u d'', Scatter (s p1) d u w.1 w.2 ∧ Scatter (s p2) w.1 w.2 d'' u'' := by
  by_cases hd : (1 - (s p1).RU * (s p2).RD).det = 0
  · rw [recRT_PSV_fail _ _ _ _ hd] at hok; simp [Store.set] at hok
  · set M := recRT_PSV p1 p2 p s p with hM
    have hex := (C12_combine_PSV p1 p2 p s hp hok d (M.RD *ᵥ d + M.TU *ᵥ u'')
      (M.TD *ᵥ d + M.RU *ᵥ u'') u'').1 ⟨by rw [hM], by rw [hM]⟩
    obtain ⟨d', u', h1, h2⟩ := hex
    refine ⟨(d', u'), ⟨_, _, h1, h2⟩, ?_⟩
    rintro ⟨e', v'⟩ ⟨x, y, g1, g2⟩
    have := (scatter_comp_iff (M := M) hd (by rw [hM, recRT_PSV_val _ _ _ _ hp hd]; simp [Store.set])
      (by rw [hM, recRT_PSV_val _ _ _ _ hp hd]; simp [Store.set])
      (by rw [hM, recRT_PSV_val _ _ _ _ hp hd]; simp [Store.set])
      (by rw [hM, recRT_PSV_val _ _ _ _ hp hd]; simp [Store.set]) d x y u'').2
      e' v' d' u' x y _ _ g1 g2 h1 h2
    exact Prod.ext this.1 this.2

/-- C12 (P-SV): the routine reports success exactly when the coupled system is solvable for every
incident wave; the second inversion never fails on its own. -/
theorem C12_success_iff_PSV (p1 p2 p : Ptr) (s : Store K) (hp : p ≠ p2) :
    (recRT_PSV p1 p2 p s p).ok = true ↔ (1 - (s p1).RU * (s p2).RD).det ≠ 0 := by
  constructor
  · intro h hd
    rw [recRT_PSV_fail _ _ _ _ hd] at h; simp [Store.set] at h
  · intro hd
    rw [recRT_PSV_val _ _ _ _ hp hd]; simp [Store.set]

/-- The routine touches only its output object. -/
theorem C11_frame_PSV (p1 p2 p q : Ptr) (s : Store K) (hp : p ≠ p2) (hq : q ≠ p) :
    recRT_PSV p1 p2 p s q = s q := by
  by_cases hd : (1 - (s p1).RU * (s p2).RD).det = 0
  · rw [recRT_PSV_fail _ _ _ _ hd]; simp [Store.set, hq]
  · rw [recRT_PSV_val _ _ _ _ hp hd]; simp [Store.set, hq]

/-! ### SH -/

theorem recRT_SH_val (p1 p2 p : Ptr) (s : Store K) (hp : p ≠ p2)
    (hd : 1 - (s p1).RUL * (s p2).RDL ≠ 0) :
    recRT_SH p1 p2 p s = s.set p { s p with
      TDL := (s p2).TDL * (1 / (1 - (s p1).RUL * (s p2).RDL) * (s p1).TDL)
      RDL := (s p1).RDL + (s p1).TUL * (s p2).RDL * (1 / (1 - (s p1).RUL * (s p2).RDL) * (s p1).TDL)
      TUL := (s p1).TUL * (1 / (1 - (s p1).RUL * (s p2).RDL) * (s p2).TUL)
      RUL := (s p2).RUL + (s p2).TDL * (s p1).RUL * (1 / (1 - (s p1).RUL * (s p2).RDL) * (s p2).TUL) } := by
  unfold recRT_SH
  simp only [hd, if_false]
  by_cases h1 : p1 = p
  · subst h1
    simp only [Store.set, if_true, Ne.symm hp, if_false]
    funext q; by_cases hq : q = p1 <;> simp [Store.set, hq]
  · simp only [Store.set, if_true, Ne.symm hp, if_false, h1]
    funext q; by_cases hq : q = p <;> simp [Store.set, hq]

/-- C12 (SH). Unlike the P-SV routine the SH routine leaves the status alone on success, so the
hypothesis is on the coupling itself. -/
theorem C12_combine_SH (p1 p2 p : Ptr) (s : Store K) (hp : p ≠ p2)
    (hd : 1 - (s p1).RUL * (s p2).RDL ≠ 0) (d u d'' u'' : K) :
    ScatterSH (recRT_SH p1 p2 p s p) d u d'' u'' ↔
      ∃ d' u', ScatterSH (s p1) d u d' u' ∧ ScatterSH (s p2) d' u' d'' u'' := by
  rw [recRT_SH_val _ _ _ _ hp hd]
  simp only [ScatterSH, Store.set, if_true]
  set A := s p1
  set B := s p2
  constructor
  · rintro ⟨h1, h2⟩
    refine ⟨(A.TDL * d + A.RUL * B.TUL * u'') / (1 - A.RUL * B.RDL),
      (B.RDL * A.TDL * d + B.TUL * u'') / (1 - A.RUL * B.RDL), ⟨?_, ?_⟩, ⟨?_, ?_⟩⟩
    · rw [h1]; field_simp; ring
    · field_simp; ring
    · have e := div_mul_cancel₀ (A.TDL * d + A.RUL * B.TUL * u'') hd
      rw [div_eq_iff hd]
      linear_combination -B.RDL * e
    · rw [h2]; field_simp; ring
  · rintro ⟨d', u', ⟨h1, h2⟩, ⟨h3, h4⟩⟩
    have hd' : d' = (A.TDL * d + A.RUL * B.TUL * u'') / (1 - A.RUL * B.RDL) := by
      rw [eq_div_iff hd]; linear_combination h2 + A.RUL * h3
    have hu' : u' = (B.RDL * A.TDL * d + B.TUL * u'') / (1 - A.RUL * B.RDL) := by
      rw [eq_div_iff hd]; linear_combination h3 + B.RDL * h2
    constructor
    · rw [h1, hu']; field_simp; ring
    · rw [h4, hd']; field_simp; ring

/-- C12 (SH): a vanishing coupling is reported. -/
theorem C12_failure_SH (p1 p2 p : Ptr) (s : Store K) (hd : 1 - (s p1).RUL * (s p2).RDL = 0) :
    (recRT_SH p1 p2 p s p).ok = false := by
  unfold recRT_SH; simp [hd, Store.set]

/-! ### C09 -/

omit [DecidableEq K] in
/-- A response is determined by its scattering relation. -/
theorem scatter_ext {A B : RTM K} (h : ∀ d u d' u', Scatter A d u d' u' ↔ Scatter B d u d' u') :
    A.RD = B.RD ∧ A.RU = B.RU ∧ A.TD = B.TD ∧ A.TU = B.TU := by
  have h1 : ∀ d u', A.RD *ᵥ d + A.TU *ᵥ u' = B.RD *ᵥ d + B.TU *ᵥ u' ∧
      A.TD *ᵥ d + A.RU *ᵥ u' = B.TD *ᵥ d + B.RU *ᵥ u' := by
    intro d u'
    have := (h d (A.RD *ᵥ d + A.TU *ᵥ u') (A.TD *ᵥ d + A.RU *ᵥ u') u').1 ⟨rfl, rfl⟩
    exact this
  refine ⟨?_, ?_, ?_, ?_⟩ <;> apply Matrix.ext_of_mulVec_single <;> intro i
  · simpa using (h1 (Pi.single i 1) 0).1
  · simpa using (h1 0 (Pi.single i 1)).2
  · simpa using (h1 (Pi.single i 1) 0).2
  · simpa using (h1 0 (Pi.single i 1)).1

/-- Equality of the P-SV part of two responses. -/
def SamePSV (A B : RTM K) : Prop := A.RD = B.RD ∧ A.RU = B.RU ∧ A.TD = B.TD ∧ A.TU = B.TU

/-- Equality of the SH part of two responses. -/
def SameSH (A B : RTM K) : Prop :=
  A.RDL = B.RDL ∧ A.RUL = B.RUL ∧ A.TDL = B.TDL ∧ A.TUL = B.TUL

/-- The response of `A` on top of `B`, as computed into a fresh object, with the success flag. -/
def combine (A B : RTM K) : RTM K := recRT_PSV 0 1 2 (fun q => if q = 0 then A else if q = 1 then B else resetM) 2

theorem combine_scatter {A B : RTM K} (h : (combine A B).ok = true) (d u d'' u'' : Fin 2 → K) :
    Scatter (combine A B) d u d'' u'' ↔ ∃ d' u', Scatter A d u d' u' ∧ Scatter B d' u' d'' u'' := by
  have := C12_combine_PSV 0 1 2 (fun q => if q = 0 then A else if q = 1 then B else resetM) (by decide) h d u d'' u''
  simpa [combine] using this

/-- C09 (P-SV), three parts: both bracketings give the same response whenever the combinations
involved succeed. -/
theorem C09_assoc_PSV (A B C : RTM K) (h1 : (combine A B).ok = true)
    (h2 : (combine (combine A B) C).ok = true) (h3 : (combine B C).ok = true)
    (h4 : (combine A (combine B C)).ok = true) :
    SamePSV (combine (combine A B) C) (combine A (combine B C)) := by
  apply scatter_ext
  intro d u d' u'
  rw [combine_scatter h2, combine_scatter h4]
  constructor
  · rintro ⟨a, b, hab, hc⟩
    obtain ⟨x, y, hx, hy⟩ := (combine_scatter h1 _ _ _ _).1 hab
    exact ⟨x, y, hx, (combine_scatter h3 _ _ _ _).2 ⟨a, b, hy, hc⟩⟩
  · rintro ⟨x, y, hx, hbc⟩
    obtain ⟨a, b, hb, hc⟩ := (combine_scatter h3 _ _ _ _).1 hbc
    exact ⟨a, b, (combine_scatter h1 _ _ _ _).2 ⟨x, y, hx, hb⟩, hc⟩

omit [DecidableEq K] in
theorem SamePSV.symm' {A B : RTM K} (h : SamePSV A B) : SamePSV B A :=
  ⟨h.1.symm, h.2.1.symm, h.2.2.1.symm, h.2.2.2.symm⟩

omit [DecidableEq K] in
theorem SamePSV.trans' {A B C : RTM K} (h : SamePSV A B) (g : SamePSV B C) : SamePSV A C :=
  ⟨h.1.trans g.1, h.2.1.trans g.2.1, h.2.2.1.trans g.2.2.1, h.2.2.2.trans g.2.2.2⟩

theorem combine_ok_iff (A B : RTM K) : (combine A B).ok = true ↔ (1 - A.RU * B.RD).det ≠ 0 := by
  unfold combine
  rw [C12_success_iff_PSV 0 1 2 _ (by decide)]
  simp

/-- C09: the determinants met by the two bracketings satisfy one multiplicative identity, so if both
inner combinations succeed, the outer ones succeed together. -/
theorem C09_outer_success_PSV (A B C : RTM K) (h1 : (combine A B).ok = true)
    (h3 : (combine B C).ok = true) :
    (combine (combine A B) C).ok = true ↔ (combine A (combine B C)).ok = true := by
  rw [combine_ok_iff] at h1 h3
  rw [combine_ok_iff, combine_ok_iff]
  have hAB : (combine A B).RU = B.RU + B.TD * (A.RU * ((1 - B.RD * A.RU)⁻¹ * B.TU)) := by
    unfold combine; rw [recRT_PSV_val _ _ _ _ (by decide) (by simpa using h1)]; simp [Store.set]
  have hBC : (combine B C).RD = B.RD + B.TU * (C.RD * ((1 - B.RU * C.RD)⁻¹ * B.TD)) := by
    unfold combine; rw [recRT_PSV_val _ _ _ _ (by decide) (by simpa using h3)]; simp [Store.set]
  have h1' : (1 - B.RD * A.RU).det ≠ 0 := by rwa [det_comm]
  -- Schur complements of one 4x4 block matrix
  let P : Matrix (Fin 2 ⊕ Fin 2) (Fin 2 ⊕ Fin 2) K :=
    Matrix.fromBlocks (1 - A.RU * B.RD) (A.RU * (B.TU * C.RD)) B.TD (1 - B.RU * C.RD)
  have hX : IsUnit (1 - A.RU * B.RD) := (Matrix.isUnit_iff_isUnit_det _).2 (isUnit_iff_ne_zero.2 h1)
  have hZ : IsUnit (1 - B.RU * C.RD) := (Matrix.isUnit_iff_isUnit_det _).2 (isUnit_iff_ne_zero.2 h3)
  let _ := hX.invertible
  let _ := hZ.invertible
  have hxy : A.RU * (1 - B.RD * A.RU)⁻¹ = (1 - A.RU * B.RD)⁻¹ * A.RU := by
    have : (1 - A.RU * B.RD) * A.RU = A.RU * (1 - B.RD * A.RU) := by noncomm_ring
    calc A.RU * (1 - B.RD * A.RU)⁻¹
        = (1 - A.RU * B.RD)⁻¹ * ((1 - A.RU * B.RD) * A.RU) * (1 - B.RD * A.RU)⁻¹ := by
          rw [← mul_assoc, inv_mul' h1, one_mul]
      _ = (1 - A.RU * B.RD)⁻¹ * A.RU * ((1 - B.RD * A.RU) * (1 - B.RD * A.RU)⁻¹) := by
          rw [this]; noncomm_ring
      _ = _ := by rw [mul_inv' h1', mul_one]
  have e1 : P.det = (1 - A.RU * B.RD).det * (1 - (combine A B).RU * C.RD).det := by
    rw [Matrix.det_fromBlocks₁₁, hAB]
    congr 2
    rw [Matrix.invOf_eq_nonsing_inv, ← mul_assoc A.RU (1 - B.RD * A.RU)⁻¹, hxy]
    noncomm_ring
  have e2 : P.det = (1 - B.RU * C.RD).det * (1 - A.RU * (combine B C).RD).det := by
    rw [Matrix.det_fromBlocks₂₂, hBC]
    congr 2
    rw [Matrix.invOf_eq_nonsing_inv]
    noncomm_ring
  constructor
  · intro h hz
    rw [e1, hz, mul_zero] at e2
    exact (mul_ne_zero h1 h) e2
  · intro h hz
    rw [e2, hz, mul_zero] at e1
    exact (mul_ne_zero h3 h) e1

/-- A stack of responses, combined from the top downwards as the kernel does
(kernel_template.c_ 120-160, each result overwriting the accumulator). -/
def combineDown : RTM K → List (RTM K) → RTM K
  | M, [] => M
  | M, A :: l => combineDown (combine M A) l

/-- All partial combinations of `combineDown` succeed. -/
def DownOk : RTM K → List (RTM K) → Prop
  | _, [] => True
  | M, A :: l => (combine M A).ok = true ∧ DownOk (combine M A) l

/-- Amplitudes above and below a stack are connected through amplitudes between all its parts. -/
def StackScatter : List (RTM K) → (Fin 2 → K) → (Fin 2 → K) → (Fin 2 → K) → (Fin 2 → K) → Prop
  | [], d, u, d', u' => d = d' ∧ u = u'
  | A :: l, d, u, d', u' => ∃ x y, Scatter A d u x y ∧ StackScatter l x y d' u'

omit [DecidableEq K] in
theorem stackScatter_append (l1 l2 : List (RTM K)) (d u d' u' : Fin 2 → K) :
    StackScatter (l1 ++ l2) d u d' u' ↔ ∃ x y, StackScatter l1 d u x y ∧ StackScatter l2 x y d' u' := by
  induction l1 generalizing d u with
  | nil => simp [StackScatter]
  | cons A l ih =>
    simp only [List.cons_append, StackScatter, ih]
    constructor
    · rintro ⟨x, y, h, a, b, h1, h2⟩; exact ⟨a, b, ⟨x, y, h, h1⟩, h2⟩
    · rintro ⟨a, b, ⟨x, y, h, h1⟩, h2⟩; exact ⟨x, y, h, a, b, h1, h2⟩

/-- C12 for whole stacks: the accumulated response scatters like the stack, for any number of layers. -/
theorem C12_stack_PSV (M : RTM K) (l : List (RTM K)) (h : DownOk M l) (d u d' u' : Fin 2 → K) :
    Scatter (combineDown M l) d u d' u' ↔ StackScatter (M :: l) d u d' u' := by
  induction l generalizing M d u with
  | nil => simp [combineDown, StackScatter]
  | cons A l ih =>
    obtain ⟨h1, h2⟩ := h
    rw [combineDown, ih _ h2]
    simp only [StackScatter]
    constructor
    · rintro ⟨x, y, h, g⟩
      obtain ⟨a, b, ha, hb⟩ := (combine_scatter h1 _ _ _ _).1 h
      exact ⟨a, b, ha, x, y, hb, g⟩
    · rintro ⟨a, b, ha, x, y, hb, g⟩
      exact ⟨x, y, (combine_scatter h1 _ _ _ _).2 ⟨a, b, ha, hb⟩, g⟩

/-- C09 for whole stacks: cutting a stack of any length into an upper and a lower group, combining the
groups separately and then together gives the response obtained by one pass from top to bottom. -/
theorem C09_bracketing_PSV (M N : RTM K) (l1 l2 : List (RTM K)) (h : DownOk M (l1 ++ N :: l2))
    (h1 : DownOk M l1) (h2 : DownOk N l2)
    (hc : (combine (combineDown M l1) (combineDown N l2)).ok = true) :
    SamePSV (combineDown M (l1 ++ N :: l2)) (combine (combineDown M l1) (combineDown N l2)) := by
  apply scatter_ext
  intro d u d' u'
  rw [C12_stack_PSV M _ h, combine_scatter hc, ← List.cons_append, stackScatter_append]
  constructor
  · rintro ⟨x, y, a, b⟩
    exact ⟨x, y, (C12_stack_PSV M l1 h1 _ _ _ _).2 a, (C12_stack_PSV N l2 h2 _ _ _ _).2 b⟩
  · rintro ⟨x, y, a, b⟩
    exact ⟨x, y, (C12_stack_PSV M l1 h1 _ _ _ _).1 a, (C12_stack_PSV N l2 h2 _ _ _ _).1 b⟩

/-! ### C10 -/

/-- C10 (P-SV): a reset response is neutral on both sides, and combining with it never fails. -/
theorem C10_neutral_PSV (A : RTM K) :
    (combine resetM A).ok = true ∧ SamePSV (combine resetM A) A ∧
    (combine A resetM).ok = true ∧ SamePSV (combine A resetM) A := by
  have h1 : (combine resetM A).ok = true := by rw [combine_ok_iff]; simp [resetM]
  have h2 : (combine A resetM).ok = true := by rw [combine_ok_iff]; simp [resetM]
  refine ⟨h1, ?_, h2, ?_⟩
  · apply scatter_ext
    intro d u d' u'
    rw [combine_scatter h1]
    simp [Scatter, resetM, ← Matrix.one_fin_two]
  · apply scatter_ext
    intro d u d' u'
    rw [combine_scatter h2]
    simp only [Scatter, resetM, ← Matrix.one_fin_two]
    constructor
    · rintro ⟨x, y, ⟨h1, h2⟩, h3, h4⟩
      simp at h3 h4; subst h3; subst h4; exact ⟨h1, h2⟩
    · rintro ⟨h1, h2⟩; exact ⟨_, _, ⟨h1, h2⟩, by simp, by simp⟩

/-- C10 (SH). -/
theorem C10_neutral_SH (p1 p2 p : Ptr) (s : Store K) (hp : p ≠ p2) :
    (s p1 = resetM → SameSH (recRT_SH p1 p2 p s p) (s p2)) ∧
    (s p2 = resetM → SameSH (recRT_SH p1 p2 p s p) (s p1)) := by
  constructor <;> intro h
  · rw [recRT_SH_val _ _ _ _ hp (by rw [h]; simp [resetM]), h]; simp [Store.set, resetM, SameSH]
  · rw [recRT_SH_val _ _ _ _ hp (by rw [h]; simp [resetM]), h]; simp [Store.set, resetM, SameSH]

/-! ### C11 -/

/-- C11 (P-SV): the four single-coefficient routines, with **any** pattern of overlap between the
output and the inputs, return the same flag and the same coefficient as the full combination into a
fresh object. -/
theorem C11_single_PSV (p1 p2 p : Ptr) (s : Store K) :
    ((recRD_PSV p1 p2 p s p).ok = (combine (s p1) (s p2)).ok ∧
     (recTD_PSV p1 p2 p s p).ok = (combine (s p1) (s p2)).ok ∧
     (recRU_PSV p1 p2 p s p).ok = (combine (s p1) (s p2)).ok ∧
     (recTU_PSV p1 p2 p s p).ok = (combine (s p1) (s p2)).ok) ∧
    ((combine (s p1) (s p2)).ok = true →
      (recRD_PSV p1 p2 p s p).RD = (combine (s p1) (s p2)).RD ∧
      (recTD_PSV p1 p2 p s p).TD = (combine (s p1) (s p2)).TD ∧
      (recRU_PSV p1 p2 p s p).RU = (combine (s p1) (s p2)).RU ∧
      (recTU_PSV p1 p2 p s p).TU = (combine (s p1) (s p2)).TU) := by
  by_cases hd : (1 - (s p1).RU * (s p2).RD).det = 0
  · have hd' : (1 - (s p2).RD * (s p1).RU).det = 0 := by rwa [det_comm]
    have hc : (combine (s p1) (s p2)).ok = false := by
      rw [Bool.eq_false_iff, Ne, combine_ok_iff]; simpa using hd
    rw [hc]
    refine ⟨⟨?_, ?_, ?_, ?_⟩, by simp⟩
    · unfold recRD_PSV; simp only [mul_eq, oneSub_eq, inv_none.2 hd]; simp [Store.set]
    · unfold recTD_PSV; simp only [mul_eq, oneSub_eq, inv_none.2 hd]; simp [Store.set]
    · unfold recRU_PSV; simp only [mul_eq, oneSub_eq, inv_none.2 hd']; simp [Store.set]
    · unfold recTU_PSV; simp only [mul_eq, oneSub_eq, inv_none.2 hd']; simp [Store.set]
  · have hd' : (1 - (s p2).RD * (s p1).RU).det ≠ 0 := by rwa [det_comm]
    have hval : combine (s p1) (s p2) = _ :=
      congrFun (recRT_PSV_val 0 1 2 (fun q => if q = 0 then s p1 else if q = 1 then s p2 else resetM)
        (by decide) (by simpa using hd)) 2
    rw [hval]
    refine ⟨⟨?_, ?_, ?_, ?_⟩, fun _ => ⟨?_, ?_, ?_, ?_⟩⟩
    · unfold recRD_PSV; simp only [mul_eq, oneSub_eq, inv_eq hd]; simp [Store.set]
    · unfold recTD_PSV; simp only [mul_eq, oneSub_eq, inv_eq hd]; simp [Store.set]
    · unfold recRU_PSV; simp only [mul_eq, oneSub_eq, inv_eq hd']; simp [Store.set]
    · unfold recTU_PSV; simp only [mul_eq, oneSub_eq, inv_eq hd']; simp [Store.set]
    · unfold recRD_PSV; simp only [mul_eq, oneSub_eq, inv_eq hd]
      by_cases a : p1 = p <;> by_cases b : p2 = p <;> simp [Store.set, a, b]
    · unfold recTD_PSV; simp only [mul_eq, oneSub_eq, inv_eq hd]
      by_cases a : p1 = p <;> by_cases b : p2 = p <;> simp [Store.set, a, b]
    · unfold recRU_PSV; simp only [mul_eq, oneSub_eq, inv_eq hd']
      by_cases a : p1 = p <;> by_cases b : p2 = p <;> simp [Store.set, a, b]
    · unfold recTU_PSV; simp only [mul_eq, oneSub_eq, inv_eq hd']
      by_cases a : p1 = p <;> by_cases b : p2 = p <;> simp [Store.set, a, b]

/-- C11 (P-SV): the full combination may overwrite its first argument (as all solvers do). -/
theorem C11_inplace_PSV (p1 p2 : Ptr) (s : Store K) (h : p1 ≠ p2)
    (hok : (combine (s p1) (s p2)).ok = true) :
    (recRT_PSV p1 p2 p1 s p1).ok = true ∧ SamePSV (recRT_PSV p1 p2 p1 s p1) (combine (s p1) (s p2)) := by
  have hd := (combine_ok_iff _ _).1 hok
  have hval : combine (s p1) (s p2) = _ :=
    congrFun (recRT_PSV_val 0 1 2 (fun q => if q = 0 then s p1 else if q = 1 then s p2 else resetM)
      (by decide) (by simpa using hd)) 2
  rw [recRT_PSV_val _ _ _ _ h hd, hval]
  simp [Store.set, SamePSV]

/-- The full SH combination into a fresh object. -/
def combineSH (A B : RTM K) : RTM K := recRT_SH 0 1 2 (fun q => if q = 0 then A else if q = 1 then B else resetM) 2

/-- C11 (SH): single-coefficient routines under any overlap, and in-place full combination. -/
theorem C11_single_SH (p1 p2 p : Ptr) (s : Store K) (hd : 1 - (s p1).RUL * (s p2).RDL ≠ 0) :
    (recRD_SH p1 p2 p s p).RDL = (combineSH (s p1) (s p2)).RDL ∧
    (recTD_SH p1 p2 p s p).TDL = (combineSH (s p1) (s p2)).TDL ∧
    (recRU_SH p1 p2 p s p).RUL = (combineSH (s p1) (s p2)).RUL ∧
    (recTU_SH p1 p2 p s p).TUL = (combineSH (s p1) (s p2)).TUL ∧
    (p ≠ p2 → SameSH (recRT_SH p1 p2 p s p) (combineSH (s p1) (s p2))) := by
  have hval : combineSH (s p1) (s p2) = _ :=
    congrFun (recRT_SH_val 0 1 2 (fun q => if q = 0 then s p1 else if q = 1 then s p2 else resetM)
      (by decide) (by simpa using hd)) 2
  rw [hval]
  refine ⟨?_, ?_, ?_, ?_, ?_⟩
  · unfold recRD_SH; simp only [hd, if_false]
    by_cases a : p1 = p <;> by_cases b : p2 = p <;> simp [Store.set, a, b]
  · unfold recTD_SH; simp only [hd, if_false]
    by_cases a : p1 = p <;> by_cases b : p2 = p <;> simp [Store.set, a, b]
  · unfold recRU_SH; simp only [hd, if_false]
    by_cases a : p1 = p <;> by_cases b : p2 = p <;> simp [Store.set, a, b]
  · unfold recTU_SH; simp only [hd, if_false]
    by_cases a : p1 = p <;> by_cases b : p2 = p <;> simp [Store.set, a, b]
  · intro hp
    rw [recRT_SH_val _ _ _ _ hp hd]; simp [Store.set, SameSH]

/-! ### C09 for SH -/

/-- A SH response is determined by its scattering relation. -/
theorem scatterSH_ext {A B : RTM K} (h : ∀ d u d' u', ScatterSH A d u d' u' ↔ ScatterSH B d u d' u') :
    SameSH A B := by
  have h1 : ∀ d u', A.RDL * d + A.TUL * u' = B.RDL * d + B.TUL * u' ∧
      A.TDL * d + A.RUL * u' = B.TDL * d + B.RUL * u' :=
    fun d u' => (h d (A.RDL * d + A.TUL * u') (A.TDL * d + A.RUL * u') u').1 ⟨rfl, rfl⟩
  refine ⟨?_, ?_, ?_, ?_⟩
  · simpa using (h1 1 0).1
  · simpa using (h1 0 1).2
  · simpa using (h1 1 0).2
  · simpa using (h1 0 1).1

theorem combineSH_scatter {A B : RTM K} (h : 1 - A.RUL * B.RDL ≠ 0) (d u d'' u'' : K) :
    ScatterSH (combineSH A B) d u d'' u'' ↔ ∃ d' u', ScatterSH A d u d' u' ∧ ScatterSH B d' u' d'' u'' := by
  have := C12_combine_SH 0 1 2 (fun q => if q = 0 then A else if q = 1 then B else resetM) (by decide)
    (by simpa using h) d u d'' u''
  simpa [combineSH] using this

/-- C09 (SH): both bracketings agree. -/
theorem C09_assoc_SH (A B C : RTM K) (h1 : 1 - A.RUL * B.RDL ≠ 0)
    (h2 : 1 - (combineSH A B).RUL * C.RDL ≠ 0) (h3 : 1 - B.RUL * C.RDL ≠ 0)
    (h4 : 1 - A.RUL * (combineSH B C).RDL ≠ 0) :
    SameSH (combineSH (combineSH A B) C) (combineSH A (combineSH B C)) := by
  apply scatterSH_ext
  intro d u d' u'
  rw [combineSH_scatter h2, combineSH_scatter h4]
  constructor
  · rintro ⟨a, b, hab, hc⟩
    obtain ⟨x, y, hx, hy⟩ := (combineSH_scatter h1 _ _ _ _).1 hab
    exact ⟨x, y, hx, (combineSH_scatter h3 _ _ _ _).2 ⟨a, b, hy, hc⟩⟩
  · rintro ⟨x, y, hx, hbc⟩
    obtain ⟨a, b, hb, hc⟩ := (combineSH_scatter h3 _ _ _ _).1 hbc
    exact ⟨a, b, (combineSH_scatter h1 _ _ _ _).2 ⟨x, y, hx, hb⟩, hc⟩

/-! ### Overwriting the second argument is not safe -/

/-- A store whose object 0 is a plain response and object 1 (second argument and output) another. -/
def wStore : Store ℚ := fun q =>
  if q = 0 then { (resetM : RTM ℚ) with RU := !![1/2, 0; 0, 0], TD := !![1/2, 0; 0, 1], RDL := 1/3, RUL := 1/2 }
  else if q = 1 then { (resetM : RTM ℚ) with RD := !![1/3, 0; 0, 0], TD := !![1/5, 0; 0, 1], RDL := 1/3, TDL := 1/5 }
  else resetM

/-- C11 limit: with the output on top of the *second* argument the full combination returns a wrong
`TU` (it re-reads the `RD` it has just overwritten).  No caller in /repo does this. -/
theorem C11_alias_second_unsafe :
    (recRT_PSV 0 1 1 wStore 1).ok = true ∧ (combine (wStore 0) (wStore 1)).ok = true ∧
    (recRT_PSV 0 1 1 wStore 1).TU ≠ (combine (wStore 0) (wStore 1)).TU := by
  decide +kernel

/-! ### Non-trivial instances -/

example : (combine (wStore 0) (wStore 1)).ok = true := by decide +kernel
example : (recRT_PSV 0 1 0 wStore 0).ok = true := by decide +kernel
example : (combine (combine (wStore 0) (wStore 1)) (wStore 0)).ok = true ∧
    (combine (wStore 1) (wStore 0)).ok = true ∧
    (combine (wStore 0) (combine (wStore 1) (wStore 0))).ok = true := by decide +kernel
example : 1 - (wStore 0).RUL * (wStore 1).RDL ≠ 0 := by decide +kernel
/-- a coupling that is singular exists: total reflection on both sides -/
example : (combine ({ (resetM : RTM ℚ) with RU := !![1, 0; 0, 0] })
    ({ (resetM : RTM ℚ) with RD := !![1, 0; 0, 0] })).ok = false := by decide +kernel
example : 1 - (wStore 0).RUL * (wStore 1).RDL ≠ 0 ∧ 1 - (wStore 1).RUL * (wStore 0).RDL ≠ 0 ∧
    1 - (combineSH (wStore 0) (wStore 1)).RUL * (wStore 0).RDL ≠ 0 ∧
    1 - (wStore 0).RUL * (combineSH (wStore 1) (wStore 0)).RDL ≠ 0 := by decide +kernel
example : DownOk (wStore 0) [wStore 1, wStore 0] := by
  simp only [DownOk]; decide +kernel

end GRT.RT
