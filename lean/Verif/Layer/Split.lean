import Verif.Layer.Depth

/-! C15: splitting a homogeneous layer changes nothing; delays carry amplitudes across a layer. -/

set_option linter.unusedSectionVars false

namespace GRT.Layer

open GRT.RT Matrix Complex

/-! ### C15 -/

section split
variable {K : Type*} [Field K] [CharZero K] [DecidableEq K]

/-- An `RT_MATRIX` with the given parts. -/
def ofParts (p : PSV K) (s : SH K) : RTM K :=
  { RD := p.RD, RU := p.RU, TD := p.TD, TU := p.TU, invT := 0,
    RDL := s.RDL, RUL := s.RUL, TDL := s.TDL, TUL := s.TUL, invTL := 0, ok := true }

/-- The transparent interface (what `grt_reset_RT_matrix` leaves). -/
def transparent : PSV K := ⟨0, 0, 1, 1⟩
def transparentSH : SH K := ⟨0, 0, 1, 1⟩

/-- C15: an interface inside one homogeneous solid is transparent. -/
theorem C15_same_solid (l : Lay K) (hm : l.mu ≠ 0) (hr : l.rho ≠ 0) (hc : l.cbcb ≠ 0) (ha : l.xa ≠ 0)
    (hb : l.xb ≠ 0) : ssPSV l l = .ok transparent ∧ ssSH l l = .ok transparentSH := by
  have hD : (-(l.cbcb * l.cbcb * l.xa * l.xb)) ≠ 0 :=
    neg_ne_zero.2 (mul_ne_zero (mul_ne_zero (mul_ne_zero hc hc) ha) hb)
  constructor
  · unfold ssPSV
    simp only [hm, hr, or_self, if_false, div_self hm, div_self hr, sub_self, zero_mul, one_mul, zero_add, neg_zero]
    have e : 1 / 4 * l.cbcb * l.cbcb * (1 - l.xa * l.xb + (1 - l.xa * l.xb) - 2 - (l.xa * l.xb + l.xa * l.xb))
      = -(l.cbcb * l.cbcb * l.xa * l.xb) := by ring
    rw [e, if_neg hD]
    simp only [transparent, Out.ok.injEq, PSV.mk.injEq]
    refine ⟨?_, ?_, ?_, ?_⟩ <;> ext i j <;> fin_cases i <;> fin_cases j <;> simp <;>
      first | done | (field_simp; done) | (field_simp; ring1) | exact .inl (.inr (by ring))
  · unfold ssSH
    have h2 : l.mu * l.xb + l.mu * l.xb ≠ 0 := by
      rw [← two_mul]; exact mul_ne_zero two_ne_zero (mul_ne_zero hm hb)
    simp only [h2, if_false, transparentSH, Out.ok.injEq, SH.mk.injEq, sub_self, zero_div, neg_zero, true_and]
    constructor <;> field_simp <;> ring

/-- C15: a virtual interface in a liquid passes P unchanged and reflects nothing. -/
theorem C15_same_liquid (l : Lay K) (hr : l.rho ≠ 0) (ha : l.xa ≠ 0) :
    llPSV l l = .ok ⟨0, 0, !![1, 0; 0, 0], !![1, 0; 0, 0]⟩ := by
  have hD : l.xa * l.rho + l.xa * l.rho ≠ 0 := by
    rw [← two_mul]; exact mul_ne_zero two_ne_zero (mul_ne_zero ha hr)
  unfold llPSV
  simp only [hD, if_false, sub_self, zero_div, Out.ok.injEq, PSV.mk.injEq]
  have e : 2 * l.xa * l.rho / (l.xa * l.rho + l.xa * l.rho) = 1 := by
    rw [div_eq_one_iff_eq hD]; ring
  rw [e]
  have z : (!![0, 0; 0, 0] : Mat2 K) = 0 := by ext i j; fin_cases i <;> fin_cases j <;> rfl
  exact ⟨z, z, rfl, rfl⟩

/-- Diagonal phase factors. -/
def phase (ea eb : K) (v : Fin 2 → K) : Fin 2 → K := ![ea * v 0, eb * v 1]

/-- A delayed response scatters the waves that have crossed the layer above it: the amplitudes just
above the interface are the downgoing ones times the factor, and the upgoing ones are divided by it. -/
theorem delay_scatter (ea eb : K) (p : PSV K) (s : SH K) (d u d' u' : Fin 2 → K) :
    Scatter (ofParts (delayPSV ea eb p) s) d u d' u' ↔
      ∃ w, Scatter (ofParts p s) (phase ea eb d) w d' u' ∧ u = phase ea eb w := by
  constructor
  · rintro ⟨h1, h2⟩
    refine ⟨_, ⟨rfl, ?_⟩, ?_⟩
    · rw [h2]; ext i; fin_cases i <;> simp only [ofParts, delayPSV, phase, mv_apply, Pi.add_apply, Matrix.of_apply, Matrix.cons_val_zero,
        Matrix.cons_val_one, Matrix.cons_val', Matrix.cons_val_fin_one, Fin.zero_eta, Fin.mk_one, Fin.isValue] <;> ring
    · rw [h1]; ext i; fin_cases i <;> simp only [ofParts, delayPSV, phase, mv_apply, Pi.add_apply, Matrix.of_apply, Matrix.cons_val_zero,
        Matrix.cons_val_one, Matrix.cons_val', Matrix.cons_val_fin_one, Fin.zero_eta, Fin.mk_one, Fin.isValue] <;> ring
  · rintro ⟨w, ⟨h1, h2⟩, h3⟩
    refine ⟨?_, ?_⟩
    · rw [h3, h1]; ext i; fin_cases i <;> simp only [ofParts, delayPSV, phase, mv_apply, Pi.add_apply, Matrix.of_apply, Matrix.cons_val_zero,
        Matrix.cons_val_one, Matrix.cons_val', Matrix.cons_val_fin_one, Fin.zero_eta, Fin.mk_one, Fin.isValue] <;> ring
    · rw [h2]; ext i; fin_cases i <;> simp only [ofParts, delayPSV, phase, mv_apply, Pi.add_apply, Matrix.of_apply, Matrix.cons_val_zero,
        Matrix.cons_val_one, Matrix.cons_val', Matrix.cons_val_fin_one, Fin.zero_eta, Fin.mk_one, Fin.isValue] <;> ring

/-- The layer below: `delayGRT` carries the amplitudes below the stack further down. -/
theorem delayGRT_scatter (ea eb : K) (p : PSV K) (s : SH K) (d u d' u' : Fin 2 → K) :
    Scatter (ofParts (delayGRT_PSV ea eb p) s) d u d' u' ↔
      ∃ w, Scatter (ofParts p s) d u w (phase ea eb u') ∧ d' = phase ea eb w := by
  constructor
  · rintro ⟨h1, h2⟩
    refine ⟨_, ⟨?_, rfl⟩, ?_⟩
    · rw [h1]; ext i; fin_cases i <;> simp only [ofParts, delayGRT_PSV, phase, mv_apply, Pi.add_apply, Matrix.of_apply, Matrix.cons_val_zero,
        Matrix.cons_val_one, Matrix.cons_val', Matrix.cons_val_fin_one, Fin.zero_eta, Fin.mk_one, Fin.isValue] <;> ring
    · rw [h2]; ext i; fin_cases i <;> simp only [ofParts, delayGRT_PSV, phase, mv_apply, Pi.add_apply, Matrix.of_apply, Matrix.cons_val_zero,
        Matrix.cons_val_one, Matrix.cons_val', Matrix.cons_val_fin_one, Fin.zero_eta, Fin.mk_one, Fin.isValue] <;> ring
  · rintro ⟨w, ⟨h1, h2⟩, h3⟩
    refine ⟨?_, ?_⟩
    · rw [h1]; ext i; fin_cases i <;> simp only [ofParts, delayGRT_PSV, phase, mv_apply, Pi.add_apply, Matrix.of_apply, Matrix.cons_val_zero,
        Matrix.cons_val_one, Matrix.cons_val', Matrix.cons_val_fin_one, Fin.zero_eta, Fin.mk_one, Fin.isValue] <;> ring
    · rw [h3, h2]; ext i; fin_cases i <;> simp only [ofParts, delayGRT_PSV, phase, mv_apply, Pi.add_apply, Matrix.of_apply, Matrix.cons_val_zero,
        Matrix.cons_val_one, Matrix.cons_val', Matrix.cons_val_fin_one, Fin.zero_eta, Fin.mk_one, Fin.isValue] <;> ring

theorem transparent_scatter (s : SH K) (d u d' u' : Fin 2 → K) :
    Scatter (ofParts transparent s) d u d' u' ↔ u = u' ∧ d' = d := by
  simp [Scatter, ofParts, transparent]

theorem phase_phase (a b a' b' : K) (v : Fin 2 → K) :
    phase a b (phase a' b' v) = phase (a * a') (b * b') v := by
  ext i; fin_cases i <;> simp [phase] <;> ring

/-- C15: in any stack, of any length, replacing one interface below a layer of factors `(ea1 ea2, eb1
eb2)` by a transparent interface below the upper part `(ea1, eb1)` followed by the same interface below
the lower part `(ea2, eb2)` leaves the set of compatible amplitudes unchanged. -/
theorem C15_split_stack (pre post : List (RTM K)) (ea1 eb1 ea2 eb2 : K) (p : PSV K) (s s' s'' : SH K)
    (d u d' u' : Fin 2 → K) :
    StackScatter (pre ++ ofParts (delayPSV ea1 eb1 transparent) s :: ofParts (delayPSV ea2 eb2 p) s' :: post)
      d u d' u' ↔
    StackScatter (pre ++ ofParts (delayPSV (ea1 * ea2) (eb1 * eb2) p) s'' :: post) d u d' u' := by
  rw [stackScatter_append, stackScatter_append]
  have hs : ∀ a b c e, Scatter (ofParts p s') a b c e ↔ Scatter (ofParts p s'') a b c e :=
    fun a b c e => Iff.rfl
  have key : ∀ x y, StackScatter (ofParts (delayPSV ea1 eb1 transparent) s :: ofParts (delayPSV ea2 eb2 p) s' :: post) x y d' u'
      ↔ StackScatter (ofParts (delayPSV (ea1 * ea2) (eb1 * eb2) p) s'' :: post) x y d' u' := by
    intro x y
    simp only [StackScatter, delay_scatter, transparent_scatter]
    constructor
    · rintro ⟨a, b, ⟨w, ⟨h1, h2⟩, h3⟩, a', b', ⟨w', h4, h5⟩, h6⟩
      refine ⟨a', b', ⟨w', ?_, ?_⟩, h6⟩
      · rw [← hs]; rwa [h2, phase_phase, mul_comm ea2, mul_comm eb2] at h4
      · rw [h3, h1, h5, phase_phase]
    · rintro ⟨a', b', ⟨w', h4, h5⟩, h6⟩
      refine ⟨_, _, ⟨_, ⟨rfl, rfl⟩, ?_⟩, a', b', ⟨w', ?_, rfl⟩, h6⟩
      · rw [h5, phase_phase]
      · rw [phase_phase, mul_comm ea2, mul_comm eb2]; exact h4
  simp only [key]

/-- C15 for the computed responses: whenever both passes succeed they give the same response. -/
theorem C15_split_response (M : RTM K) (pre post : List (RTM K)) (ea1 eb1 ea2 eb2 : K) (p : PSV K)
    (s s' s'' : SH K)
    (h1 : DownOk M (pre ++ ofParts (delayPSV ea1 eb1 transparent) s :: ofParts (delayPSV ea2 eb2 p) s' :: post))
    (h2 : DownOk M (pre ++ ofParts (delayPSV (ea1 * ea2) (eb1 * eb2) p) s'' :: post)) :
    SamePSV
      (combineDown M (pre ++ ofParts (delayPSV ea1 eb1 transparent) s :: ofParts (delayPSV ea2 eb2 p) s' :: post))
      (combineDown M (pre ++ ofParts (delayPSV (ea1 * ea2) (eb1 * eb2) p) s'' :: post)) := by
  apply scatter_ext
  intro d u d' u'
  rw [C12_stack_PSV _ _ h1, C12_stack_PSV _ _ h2, ← List.cons_append, ← List.cons_append]
  exact C15_split_stack (M :: pre) post ea1 eb1 ea2 eb2 p s s' s'' d u d' u'

/-! Success of the two passes is the same as well. -/

theorem combine_val (A B : RTM K) (h : (1 - A.RU * B.RD).det ≠ 0) :
    (combine A B).RD = A.RD + A.TU * (B.RD * ((1 - A.RU * B.RD)⁻¹ * A.TD)) ∧
    (combine A B).RU = B.RU + B.TD * (A.RU * ((1 - B.RD * A.RU)⁻¹ * B.TU)) ∧
    (combine A B).TD = B.TD * ((1 - A.RU * B.RD)⁻¹ * A.TD) ∧
    (combine A B).TU = A.TU * ((1 - B.RD * A.RU)⁻¹ * B.TU) := by
  unfold combine; rw [recRT_PSV_val _ _ _ _ (by decide) (by simpa using h)]; simp [Store.set]

theorem combine_congr {A A' : RTM K} (h : SamePSV A A') (B : RTM K) :
    (combine A B).ok = (combine A' B).ok ∧ ((combine A B).ok = true → SamePSV (combine A B) (combine A' B)) := by
  obtain ⟨h1, h2, h3, h4⟩ := h
  constructor
  · rw [Bool.eq_iff_iff, combine_ok_iff, combine_ok_iff, h2]
  · intro hk
    rw [combine_ok_iff] at hk
    obtain ⟨a, b, c, d⟩ := combine_val A B hk
    rw [h2] at hk
    obtain ⟨a', b', c', d'⟩ := combine_val A' B hk
    rw [SamePSV, a, b, c, d, a', b', c', d', h1, h2, h3, h4]
    exact ⟨rfl, rfl, rfl, rfl⟩

theorem downOk_congr {A A' : RTM K} (h : SamePSV A A') (l : List (RTM K)) : DownOk A l ↔ DownOk A' l := by
  induction l generalizing A A' with
  | nil => simp [DownOk]
  | cons B l ih =>
    simp only [DownOk]
    obtain ⟨h1, h2⟩ := combine_congr h B
    rw [← h1]
    exact and_congr_right fun hk => ih (h2 hk)

theorem diag_mat (ea eb : K) : (!![ea, 0; 0, eb] : Mat2 K) * !![ea, 0; 0, eb] = !![ea*ea, 0; 0, eb*eb] := by
  ext i j; fin_cases i <;> fin_cases j <;> simp

/-- C15: adding a virtual interface never turns a success into a failure or the other way round. -/
theorem C15_split_success (M : RTM K) (pre post : List (RTM K)) (ea1 eb1 ea2 eb2 : K) (p : PSV K)
    (s s' s'' : SH K) :
    DownOk M (pre ++ ofParts (delayPSV ea1 eb1 transparent) s :: ofParts (delayPSV ea2 eb2 p) s' :: post) ↔
    DownOk M (pre ++ ofParts (delayPSV (ea1 * ea2) (eb1 * eb2) p) s'' :: post) := by
  induction pre generalizing M with
  | cons A l ih => simp only [List.cons_append, DownOk, ih]
  | nil =>
    simp only [List.nil_append, DownOk]
    have hT : (combine M (ofParts (delayPSV ea1 eb1 transparent) s)).ok = true := by
      rw [combine_ok_iff]
      have : (ofParts (delayPSV ea1 eb1 (transparent (K := K))) s).RD = 0 := by
        ext i j; fin_cases i <;> fin_cases j <;> simp [ofParts, delayPSV, transparent]
      simp [this]
    set X := combine M (ofParts (delayPSV ea1 eb1 transparent) s) with hX
    have hv := combine_val M (ofParts (delayPSV ea1 eb1 transparent) s) ((combine_ok_iff _ _).1 hT)
    rw [← hX] at hv
    have e0 : (ofParts (delayPSV ea1 eb1 (transparent (K := K))) s).RD = 0 := by
      ext i j; fin_cases i <;> fin_cases j <;> simp [ofParts, delayPSV, transparent]
    have e1 : (ofParts (delayPSV ea1 eb1 (transparent (K := K))) s).RU = 0 := rfl
    have e2 : (ofParts (delayPSV ea1 eb1 (transparent (K := K))) s).TD = !![ea1, 0; 0, eb1] := by
      ext i j; fin_cases i <;> fin_cases j <;> simp [ofParts, delayPSV, transparent]
    have e3 : (ofParts (delayPSV ea1 eb1 (transparent (K := K))) s).TU = !![ea1, 0; 0, eb1] := by
      ext i j; fin_cases i <;> fin_cases j <;> simp [ofParts, delayPSV, transparent]
    rw [e0, e1, e2, e3] at hv
    simp only [zero_mul, mul_zero, sub_zero, inv_one, one_mul, zero_add] at hv
    have hok : (combine X (ofParts (delayPSV ea2 eb2 p) s')).ok = true ↔
        (combine M (ofParts (delayPSV (ea1 * ea2) (eb1 * eb2) p) s'')).ok = true := by
      rw [combine_ok_iff, combine_ok_iff, hv.2.1]
      have f : (ofParts (delayPSV (ea1 * ea2) (eb1 * eb2) p) s'').RD
          = !![ea1, 0; 0, eb1] * ((ofParts (delayPSV ea2 eb2 p) s').RD * !![ea1, 0; 0, eb1]) := by
        ext i j; fin_cases i <;> fin_cases j <;> simp [ofParts, delayPSV] <;> ring
      rw [f, Matrix.mul_assoc, RT.det_comm]
      simp only [Matrix.mul_assoc]
    constructor
    · rintro ⟨-, h2, h3⟩
      refine ⟨hok.1 h2, (downOk_congr ?_ post).1 h3⟩
      have := C15_split_response M [] [] ea1 eb1 ea2 eb2 p s s' s'' ⟨hT, h2, trivial⟩ ⟨hok.1 h2, trivial⟩
      simpa [combineDown] using this
    · rintro ⟨h2, h3⟩
      refine ⟨hT, hok.2 h2, (downOk_congr ?_ post).2 h3⟩
      have := C15_split_response M [] [] ea1 eb1 ea2 eb2 p s s' s'' ⟨hT, hok.2 h2, trivial⟩ ⟨h2, trivial⟩
      simpa [combineDown] using this

/-- C15: `grt_delay_GRT_matrix`, which the kernel uses at a source or receiver depth, is the
combination with a transparent interface below the upper part of the layer, and always succeeds. -/
theorem C15_delayGRT (ea eb : K) (p : PSV K) (s s' s'' : SH K) :
    let A := ofParts p s
    let T := ofParts (delayPSV ea eb transparent) s'
    (combine A T).ok = true ∧ SamePSV (combine A T) (ofParts (delayGRT_PSV ea eb p) s'') := by
  intro A T
  have h : (combine A T).ok = true := by
    rw [combine_ok_iff]
    have : T.RD = 0 := by
      ext i j; fin_cases i <;> fin_cases j <;> simp [T, ofParts, delayPSV, transparent]
    simp [this]
  refine ⟨h, ?_⟩
  apply scatter_ext
  intro d u d' u'
  rw [combine_scatter h, delayGRT_scatter]
  simp only [T, delay_scatter, transparent_scatter]
  constructor
  · rintro ⟨x, y, hA, w, ⟨rfl, h2⟩, h3⟩
    exact ⟨x, by rw [← h3]; exact hA, h2⟩
  · rintro ⟨w, hA, h3⟩
    exact ⟨w, phase ea eb u', hA, u', ⟨rfl, h3⟩, rfl⟩

/-- C15 (SH). -/
theorem C15_split_SH (eb1 eb2 : K) (p p' p'' : PSV K) (m : SH K) :
    SameSH (combineSH (ofParts p (delaySH eb1 transparentSH)) (ofParts p' (delaySH eb2 m)))
      (ofParts p'' (delaySH (eb1 * eb2) m)) := by
  have h : 1 - (ofParts p (delaySH eb1 (transparentSH (K := K)))).RUL * (ofParts p' (delaySH eb2 m)).RDL ≠ 0 := by
    simp [ofParts, delaySH, transparentSH]
  apply scatterSH_ext
  intro d u d' u'
  rw [combineSH_scatter h]
  simp only [ScatterSH, ofParts, delaySH, transparentSH]
  constructor
  · rintro ⟨x, y, ⟨h1, h2⟩, h3, h4⟩
    rw [h2] at h3 h4
    constructor
    · rw [h1, h3]; ring
    · rw [h4]; ring
  · rintro ⟨h1, h2⟩
    refine ⟨eb1 * d, _, ⟨?_, by ring⟩, rfl, ?_⟩
    · rw [h1]; ring
    · rw [h2]; ring

theorem C15_delayGRT_SH (eb : K) (p p' p'' : PSV K) (m : SH K) :
    SameSH (combineSH (ofParts p m) (ofParts p' (delaySH eb transparentSH)))
      (ofParts p'' (delayGRT_SH eb m)) := by
  have h : 1 - (ofParts p m).RUL * (ofParts p' (delaySH eb (transparentSH (K := K)))).RDL ≠ 0 := by
    simp [ofParts, delaySH, transparentSH]
  apply scatterSH_ext
  intro d u d' u'
  rw [combineSH_scatter h]
  simp only [ScatterSH, ofParts, delaySH, delayGRT_SH, transparentSH]
  constructor
  · rintro ⟨x, y, ⟨h1, h2⟩, h3, h4⟩
    have h3' : y = eb * u' := by rw [h3]; ring
    constructor
    · rw [h1, h3']; ring
    · rw [h4, h2, h3']; ring
  · rintro ⟨h1, h2⟩
    refine ⟨_, eb * u', ⟨?_, rfl⟩, by ring, ?_⟩
    · rw [h1]; ring
    · rw [h2]; ring

end split

/-! ### Delays and the physical field -/

/-- The response of an interface with the layer above it (computed interface coefficients, delayed by
the factors `exp(-k thk x)`) connects exactly amplitudes at the top of the two layers whose fields are
in contact at the interface. -/
theorem C15_delay_contact {c k : ℂ} {l1 l2 : Lay ℂ} {m1 m2 : Medium ℂ} {M : PSV ℂ} (s : SH ℂ)
    (h1 : Fits c l1 m1) (h2 : Fits c l2 m2) (hM : rtPSV c l1 l2 = .ok M) (thk : ℝ)
    (d u d' u' : Fin 2 → ℂ)
    (hs : Scatter (ofParts (delayPSV (exp (-k * thk * l1.xa)) (exp (-k * thk * l1.xb)) M) s) d u d' u') :
    Contact l1 l2 (psvField k m1 l1 u d thk) (psvField k m2 l2 u' d' 0) := by
  obtain ⟨w, ⟨e1, e2⟩, e3⟩ := (delay_scatter _ _ _ _ _ _ _ _).1 hs
  have hd : dnAt k l1 d thk = phase (exp (-k * thk * l1.xa)) (exp (-k * thk * l1.xb)) d := by
    have f : ∀ x : ℂ, -(k * x * thk) = -k * thk * x := fun x => by ring
    ext i; fin_cases i <;> simp only [dnAt, phase, f] <;> simp [mul_comm (d _)]
  have hu : upAt k l1 u thk = w := by
    have f : ∀ x : ℂ, exp (-k * thk * x) * exp (k * x * thk) = 1 := fun x => by
      rw [← Complex.exp_add, ← Complex.exp_zero]; congr 1; ring
    rw [e3]
    ext i; fin_cases i <;> simp only [upAt, phase] <;>
      simp only [Matrix.cons_val_zero, Matrix.cons_val_one, Fin.zero_eta, Fin.mk_one, Fin.isValue]
    · linear_combination w 0 * f l1.xa
    · linear_combination w 1 * f l1.xb
  rw [psvField_zero, psvField, hd, hu, e1, e2]
  exact C13_interface_PSV (k := k) h1 h2 hM (phase (exp (-k * thk * l1.xa)) (exp (-k * thk * l1.xb)) d) u'

/-- C14 at the bottom of a layer of thickness `thk`: with the delay applied by the kernel to the
reflection (layer.c 150-216), the field obeys the free condition at the bottom. -/
theorem C14_free_bottom_delayed {c k : ℂ} {l : Lay ℂ} {m : Medium ℂ} (h : Fits c l m) {R : Mat2 ℂ}
    (hR : freeBoundPSV l.liquid l.cbcb l.xa l.xb (-1) = .ok R) (thk : ℝ) (s : SH ℂ) (d u d' : Fin 2 → ℂ)
    (hs : Scatter (ofParts (delayPSV (exp (-k * thk * l.xa)) (exp (-k * thk * l.xb)) ⟨R, 0, 0, 0⟩) s) d u d' 0) :
    TractionFree (psvField k m l u d thk) := by
  obtain ⟨w, ⟨e1, -⟩, e3⟩ := (delay_scatter _ _ _ _ _ _ _ _).1 hs
  have hd : dnAt k l d thk = phase (exp (-k * thk * l.xa)) (exp (-k * thk * l.xb)) d := by
    have f : ∀ x : ℂ, -(k * x * thk) = -k * thk * x := fun x => by ring
    ext i; fin_cases i <;> simp only [dnAt, phase, f] <;> simp [mul_comm (d _)]
  have hu : upAt k l u thk = w := by
    have f : ∀ x : ℂ, exp (-k * thk * x) * exp (k * x * thk) = 1 := fun x => by
      rw [← Complex.exp_add, ← Complex.exp_zero]; congr 1; ring
    rw [e3]
    ext i; fin_cases i <;> simp only [upAt, phase] <;>
      simp only [Matrix.cons_val_zero, Matrix.cons_val_one, Fin.zero_eta, Fin.mk_one, Fin.isValue]
    · linear_combination w 0 * f l.xa
    · linear_combination w 1 * f l.xb
  rw [psvField, hd, hu, e1]
  simpa [ofParts] using C14_free_bottom (k := k) h hR (phase (exp (-k * thk * l.xa)) (exp (-k * thk * l.xb)) d)

/-! Concrete case over ℚ: a solid split in two. -/
example : ssPSV lA lA = .ok transparent := (C15_same_solid lA (by decide +kernel) (by decide +kernel)
  (by decide +kernel) (by decide +kernel) (by decide +kernel)).1

example : (match rtPSV 1 lA lB with
    | .ok M => (combine (combine (ofParts transparent transparentSH) (ofParts (delayPSV (1/2) (1/3) transparent) transparentSH))
        (ofParts (delayPSV (1/4) (1/5) M) transparentSH)).ok
    | _ => false) = true := by decide +kernel

end GRT.Layer
