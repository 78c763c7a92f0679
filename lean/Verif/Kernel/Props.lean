import Verif.Kernel.Lemmas

/-! C57: the kernel at one wavenumber is the field of the layered medium excited by the source. -/

set_option linter.unusedSectionVars false

namespace GRT.Kernel

open GRT.RT GRT.Layer Matrix

variable {K : Type*} [Field K] [DecidableEq K]

/-! ### Specification

`d i`, `u i` are the amplitudes of the waves going down and up just below interface `i` (the top of layer
`i`); interface 0 is the top boundary.  Nothing below mentions a recursion. -/

/-- Amplitudes in the whole medium: reflection at the two boundaries, scattering at every interface, and
the source: crossing depth `isrc` downwards the downgoing waves gain `S.D`, upwards the upgoing waves
gain `S.U`. -/
structure Waves (E : Env K) (S : SrcRow K) (d u : ℕ → Amp K) : Prop where
  top : ∃ R, E.topP = .ok R ∧ (d 0).1 = R *ᵥ (u 0).1 ∧ (d 0).2 = E.topS * (u 0).2
  iface : ∀ i, i + 1 < E.maxidx → ∃ P Q, ifaceV E (i + 1) P Q ∧
    Scat (respV E (i + 1) P Q) (d i) (u i)
      (if i + 1 = E.isrc then d (i + 1) - (S.D, S.DL) else d (i + 1))
      (if i + 1 = E.isrc then u (i + 1) + (S.U, S.UL) else u (i + 1))
  bottom : if E.imax + 1 < E.nlay then
      ∃ R r, E.botP = .ok R ∧ E.botS = .ok r ∧ (u (E.nlay - 2)).1 = E.botDP R *ᵥ (d (E.nlay - 2)).1 ∧
        (u (E.nlay - 2)).2 = E.botDS r * (d (E.nlay - 2)).2
    else u (E.nlay - 1) = 0

/-- The index conventions established by `grt_read_mod1d_from_file` (C05). -/
structure WF (E : Env K) : Prop where
  one : 1 ≤ E.imin
  lt : E.imax < E.nlay
  up : E.ircvup = true → E.ircv < E.isrc
  down : E.ircvup = false → E.isrc < E.ircv

/-- The receiver combines up- and downgoing amplitudes with fixed matrices: displacement `A u + B d`. -/
structure Recv (K : Type*) where
  A : Mat2 K
  B : Mat2 K
  a : K
  b : K

/-- The observable made of the amplitudes at the receiver. -/
def Recv.obs (R : Recv K) (d u : Amp K) : Row K := ⟨R.A *ᵥ u.1 + R.B *ᵥ d.1, R.a * u.2 + R.b * d.2⟩

/-- The variant's `R_EV` routines substitute the reflection of the side the receiver sees into the
observables `V` (displacement) and `W` (its depth derivative). -/
structure Reads (E : Env K) (V W : Recv K) : Prop where
  rev : ∀ RU RD, E.rev RU RD = if E.ircvup then V.A + V.B * RU else V.B + V.A * RD
  revL : ∀ RU RD, E.revL RU RD = if E.ircvup then V.a + V.b * RU else V.b + V.a * RD
  revz : ∀ RU RD, E.revz RU RD = if E.ircvup then W.A + W.B * RU else W.B + W.A * RD
  revzL : ∀ RU RD, E.revzL RU RD = if E.ircvup then W.a + W.b * RU else W.b + W.a * RD

/-! ### Chains and sequences -/

theorem chain_of {E : Env K} {a : ℕ} (n : ℕ) (D U : ℕ → Amp K)
    (h : ∀ i, i < n → ∃ P S, ifaceV E (a + i + 1) P S ∧ Scat (respV E (a + i + 1) P S) (D i) (U i) (D (i+1)) (U (i+1))) :
    Chain E a n (D 0) (U 0) (D n) (U n) := by
  induction n with
  | zero => exact ⟨rfl, rfl⟩
  | succ n ih =>
    refine ⟨D n, U n, ih fun i hi => h i (by omega), ?_⟩
    exact h n (by omega)

theorem chain_seq {E : Env K} {a n : ℕ} {d u d' u' : Amp K} (h : Chain E a n d u d' u') :
    ∃ D U : ℕ → Amp K, D 0 = d ∧ U 0 = u ∧ D n = d' ∧ U n = u' ∧
      ∀ i, i < n → ∃ P S, ifaceV E (a + i + 1) P S ∧ Scat (respV E (a + i + 1) P S) (D i) (U i) (D (i+1)) (U (i+1)) := by
  induction n generalizing d' u' with
  | zero =>
    obtain ⟨rfl, rfl⟩ := h
    exact ⟨fun _ => d, fun _ => u, rfl, rfl, rfl, rfl, fun i hi => absurd hi (by omega)⟩
  | succ n ih =>
    obtain ⟨x, y, h1, P, S, hv, h2⟩ := h
    obtain ⟨D, U, h3, h4, h5, h6, h7⟩ := ih h1
    have hn : ∀ {i}, i ≤ n → i ≠ n + 1 := fun h => by omega
    refine ⟨fun i => if i = n + 1 then d' else D i, fun i => if i = n + 1 then u' else U i, ?_, ?_, ?_, ?_, ?_⟩
    · simpa using h3
    · simpa using h4
    · simp
    · simp
    · intro i hi
      rcases Nat.lt_succ_iff_lt_or_eq.1 hi with hi | rfl
      · obtain ⟨P', S', hv', hs⟩ := h7 i hi
        refine ⟨P', S', hv', ?_⟩
        have e1 : i ≠ n + 1 := by omega
        have e2 : i ≠ n := by omega
        simpa [e1, e2] using hs
      · refine ⟨P, S, hv, ?_⟩
        simpa [h5, h6] using h2

/-! ### Closing a stack with a boundary -/

theorem cap_top {A : RTM K} {R : Mat2 K} (hd : (1 - A.RD * R).det ≠ 0) (d u : Fin 2 → K) :
    (∃ d0 u0, d0 = R *ᵥ u0 ∧ Scatter A d0 u0 d u) ↔
      d = (A.RU + A.TD * (R * ((1 - A.RD * R)⁻¹ * A.TU))) *ᵥ u := by
  have key : ∀ u0, u0 = A.RD *ᵥ (R *ᵥ u0) + A.TU *ᵥ u ↔ u0 = ((1 - A.RD * R)⁻¹ * A.TU) *ᵥ u := by
    intro u0
    constructor
    · intro h
      have h' : (1 - A.RD * R) *ᵥ u0 = A.TU *ᵥ u := by
        rw [Matrix.sub_mulVec, Matrix.one_mulVec, ← Matrix.mulVec_mulVec]
        exact sub_eq_of_eq_add' h
      rw [← Matrix.mulVec_mulVec, ← h', Matrix.mulVec_mulVec, inv_mul' hd, Matrix.one_mulVec]
    · intro h
      have h' : (1 - A.RD * R) *ᵥ u0 = A.TU *ᵥ u := by
        rw [h, Matrix.mulVec_mulVec, ← Matrix.mul_assoc, mul_inv' hd, Matrix.one_mul]
      rw [Matrix.sub_mulVec, Matrix.one_mulVec, ← Matrix.mulVec_mulVec] at h'
      exact eq_add_of_sub_eq' h'
  constructor
  · rintro ⟨d0, u0, rfl, h1, h2⟩
    rw [h2, (key u0).1 h1]
    simp only [Matrix.add_mulVec, Matrix.mulVec_mulVec]
    rw [add_comm]
  · rintro rfl
    refine ⟨_, ((1 - A.RD * R)⁻¹ * A.TU) *ᵥ u, rfl, ?_, ?_⟩
    · exact (key _).2 rfl
    · simp only [Matrix.add_mulVec, Matrix.mulVec_mulVec]
      rw [add_comm]

theorem cap_bot {A : RTM K} {R : Mat2 K} (hd : (1 - A.RU * R).det ≠ 0) (d u : Fin 2 → K) :
    (∃ d1 u1, u1 = R *ᵥ d1 ∧ Scatter A d u d1 u1) ↔
      u = (A.RD + A.TU * (R * ((1 - A.RU * R)⁻¹ * A.TD))) *ᵥ d := by
  have key : ∀ d1, d1 = A.TD *ᵥ d + A.RU *ᵥ (R *ᵥ d1) ↔ d1 = ((1 - A.RU * R)⁻¹ * A.TD) *ᵥ d := by
    intro d1
    constructor
    · intro h
      have h' : (1 - A.RU * R) *ᵥ d1 = A.TD *ᵥ d := by
        rw [Matrix.sub_mulVec, Matrix.one_mulVec, ← Matrix.mulVec_mulVec]
        exact sub_eq_of_eq_add h
      rw [← Matrix.mulVec_mulVec, ← h', Matrix.mulVec_mulVec, inv_mul' hd, Matrix.one_mulVec]
    · intro h
      have h' : (1 - A.RU * R) *ᵥ d1 = A.TD *ᵥ d := by
        rw [h, Matrix.mulVec_mulVec, ← Matrix.mul_assoc, mul_inv' hd, Matrix.one_mul]
      rw [Matrix.sub_mulVec, Matrix.one_mulVec, ← Matrix.mulVec_mulVec] at h'
      exact eq_add_of_sub_eq h'
  constructor
  · rintro ⟨d1, u1, rfl, h1, h2⟩
    rw [h1, (key d1).1 h2]
    simp only [Matrix.add_mulVec, Matrix.mulVec_mulVec]
  · rintro rfl
    refine ⟨((1 - A.RU * R)⁻¹ * A.TD) *ᵥ d, _, rfl, ?_, ?_⟩
    · simp only [Matrix.add_mulVec, Matrix.mulVec_mulVec]
    · exact (key _).2 rfl

theorem capL_top {A : RTM K} {R : K} (hd : 1 - R * A.RDL ≠ 0) (d u : K) :
    (∃ d0 u0, d0 = R * u0 ∧ ScatterSH A d0 u0 d u) ↔
      d = (A.RUL + A.TDL * R * (1 / (1 - R * A.RDL) * A.TUL)) * u := by
  constructor
  · rintro ⟨d0, u0, rfl, h1, h2⟩
    have : u0 = A.TUL * u / (1 - R * A.RDL) := by rw [eq_div_iff hd]; linear_combination h1
    rw [h2, this]; field_simp; ring
  · rintro rfl
    refine ⟨_, A.TUL * u / (1 - R * A.RDL), rfl, ?_, ?_⟩
    · rw [div_eq_iff hd]
      have e := div_mul_cancel₀ (A.TUL * u) hd
      linear_combination -A.RDL * R * e
    · field_simp; ring

theorem capL_bot {A : RTM K} {R : K} (hd : 1 - A.RUL * R ≠ 0) (d u : K) :
    (∃ d1 u1, u1 = R * d1 ∧ ScatterSH A d u d1 u1) ↔
      u = (A.RDL + A.TUL * R * (1 / (1 - A.RUL * R) * A.TDL)) * d := by
  constructor
  · rintro ⟨d1, u1, rfl, h1, h2⟩
    have : d1 = A.TDL * d / (1 - A.RUL * R) := by rw [eq_div_iff hd]; linear_combination h2
    rw [h1, this]; field_simp
  · rintro rfl
    refine ⟨A.TDL * d / (1 - A.RUL * R), _, rfl, ?_, ?_⟩
    · field_simp
    · rw [div_eq_iff hd]
      have e := div_mul_cancel₀ (A.TDL * d) hd
      linear_combination -A.RUL * R * e

/-- Reflection of a capped stack, both wave types. -/
def Cap (R : Mat2 K) (r : K) (a b : Amp K) : Prop := b.1 = R *ᵥ a.1 ∧ b.2 = r * a.2

/-! ### State after `GRT_matrix` -/

/-- What the matrix phase establishes. -/
structure Ready (E : Env K) (s : Store K) : Prop where
  fa : ∀ R, E.topP = .ok R → ∀ d u, Cap (s pFA).RU (s pFA).RUL u d ↔
    ∃ d0 u0, Cap R E.topS u0 d0 ∧ Chain E 0 E.imin d0 u0 d u
  rs : Rep E (s pRS) E.imin (E.imax - E.imin)
  bl : E.imax + 1 < E.nlay → ∀ R r, E.botP = .ok R → E.botS = .ok r → ∀ d u, Cap (s pBL).RD (s pBL).RDL d u ↔
    ∃ d1 u1, Cap (E.botDP R) (E.botDS r) d1 u1 ∧ Chain E E.imax (E.nlay - 2 - E.imax) d u d1 u1
  bl0 : ¬ E.imax + 1 < E.nlay → (s pBL).RD = 0 ∧ (s pBL).RDL = 0
  botS : E.imax + 1 < E.nlay → ∃ r, E.botS = .ok r

theorem chain_zero_inv {E : Env K} (hE : Good E) (hw : WF E) {s s' : Store K}
    (h : loop E (E.maxidx - 1) 1 (((((s.set pBL resetM).set pRS resetM).set pFA resetM).set pTop resetM).set pBot resetM) = .go s') :
    Inv E (E.maxidx - 1) s' := by
  have hmm : E.imin ≤ E.imax := min_le_max
  have := loop_go hE (E.maxidx - 1) 0 (s := ((((s.set pBL resetM).set pRS resetM).set pFA resetM).set pTop resetM).set pBot resetM) (by
    have h0 := hw.one
    constructor
    · rw [show min 0 E.imin = 0 by omega]; simpa [Store.set] using rep_reset E 0
    · rw [show min 0 E.imax - E.imin = 0 by omega]; simpa [Store.set] using rep_reset E E.imin
    · rw [show 0 - E.imax = 0 by omega]; simpa [Store.set] using rep_reset E E.imax
    · simp [Store.set]
    · simp [Store.set]) h
  rwa [Nat.zero_add] at this

theorem exists_amp {p : (Fin 2 → K) → (Fin 2 → K) → Prop} {q : K → K → Prop} :
    (∃ d u : Amp K, p d.1 u.1 ∧ q d.2 u.2) ↔ (∃ d u, p d u) ∧ ∃ d u, q d u := by
  constructor
  · rintro ⟨d, u, h1, h2⟩; exact ⟨⟨_, _, h1⟩, _, _, h2⟩
  · rintro ⟨⟨d, u, h1⟩, d', u', h2⟩; exact ⟨(d, d'), (u, u'), h1, h2⟩

theorem bounds_ready {E : Env K} (hw : WF E) {s s' : Store K} (hi : Inv E (E.maxidx - 1) s)
    (h : bounds E s = .go s') : Ready E s' := by
  have hmm : E.imin ≤ E.imax := min_le_max
  have h1 := hw.one; have h2 := hw.lt
  have hmx : E.maxidx - 1 = if E.imax + 1 = E.nlay then E.imax else E.nlay - 2 := by
    unfold Env.maxidx; split <;> omega
  have hfa : min (E.maxidx - 1) E.imin = E.imin := by rw [hmx]; split <;> omega
  have hrs : min (E.maxidx - 1) E.imax - E.imin = E.imax - E.imin := by rw [hmx]; split <;> omega
  have ifa := hi.fa; have irs := hi.rs; have ibl := hi.bl
  rw [hfa] at ifa; rw [hrs] at irs
  unfold bounds at h
  -- top
  obtain ⟨s1, e1, e1', e1''⟩ : ∃ s1 : Store K, callTop E s = .go s1 ∧ (s1 pTop).RUL = E.topS ∧
      (∀ R, E.topP = .ok R → (s1 pTop).RU = R) := by
    unfold callTop at h ⊢
    rcases hT : E.topP with _ | _ | R <;> simp only [hT, Res.bind] at h ⊢
    · exact ⟨_, rfl, by simp [Store.set], by simp⟩
    · cases h
    · exact ⟨_, rfl, by simp [Store.set], by simp [Store.set]⟩
  have f1 : ∀ q, q ≠ pTop → s1 q = s q := by
    intro q hq
    unfold callTop at e1
    rcases hT : E.topP with _ | _ | R <;> simp only [hT, Res.go.injEq] at e1
    · rw [← e1]; simp [Store.set, hq]
    · cases e1
    · rw [← e1]; simp [Store.set, hq]
  rw [e1] at h
  simp only [Res.bind] at h
  have c1 : check pTop s1 = .go s1 := by
    by_cases hk : (s1 pTop).ok = true
    · rw [check, if_pos hk]
    · rw [show check pTop s1 = .stop s1 by rw [check, if_neg hk]] at h; cases h
  rw [c1] at h
  simp only at h
  by_cases hok : (recRU pTop pFA pFA s1 pFA).ok = true
  swap
  · rw [check, if_neg hok] at h; cases h
  obtain ⟨d1, d2, val⟩ := recRU_val (by decide) hok
  rw [check, if_pos hok] at h
  simp only at h
  set s2 := recRU pTop pFA pFA s1 with hs2
  have f2 : ∀ q, q ≠ pFA → s2 q = s1 q := by intro q hq; rw [val]; simp [Store.set, hq]
  have FA : ∀ R, E.topP = .ok R → ∀ d u, Cap (s2 pFA).RU (s2 pFA).RUL u d ↔
      ∃ d0 u0, Cap R E.topS u0 d0 ∧ Chain E 0 E.imin d0 u0 d u := by
    intro R hR d u
    have hRU := e1'' R hR
    rw [hRU, f1 pFA (by decide)] at d1
    rw [e1', f1 pFA (by decide)] at d2
    have hv : (s2 pFA).RU = (s pFA).RU + (s pFA).TD * (R * ((1 - (s pFA).RD * R)⁻¹ * (s pFA).TU)) ∧
        (s2 pFA).RUL = (s pFA).RUL + (s pFA).TDL * E.topS * (1 / (1 - E.topS * (s pFA).RDL) * (s pFA).TUL) := by
      rw [val]; simp [Store.set, hRU, e1', f1 pFA (by decide)]
    rw [hv.1, hv.2, Cap, ← cap_top d1, ← capL_top d2, ← exists_amp]
    constructor
    · rintro ⟨d0, u0, ⟨a, b⟩, c, e⟩
      exact ⟨d0, u0, ⟨a, c⟩, (ifa _ _ _ _).1 ⟨b, e⟩⟩
    · rintro ⟨d0, u0, ⟨a, c⟩, hc⟩
      obtain ⟨b, e⟩ := (ifa _ _ _ _).2 hc
      exact ⟨d0, u0, ⟨a, b⟩, c, e⟩
  have RS2 : Rep E (s2 pRS) E.imin (E.imax - E.imin) := by
    rw [f2 pRS (by decide), f1 pRS (by decide)]; exact irs
  have BL2 : s2 pBL = s pBL := by rw [f2 pBL (by decide), f1 pBL (by decide)]
  by_cases hn : E.imax + 1 < E.nlay
  · rw [if_pos hn] at h
    have hmx2 : E.maxidx - 1 = E.nlay - 2 := by rw [hmx, if_neg (by omega)]
    rw [hmx2] at ibl
    rcases hB : callBot E s2 with _ | s3 | s3
    · rw [hB] at h; cases h
    · rw [hB] at h; cases h
    rw [hB] at h
    simp only at h
    have c3 : check pBot s3 = .go s3 := by
      by_cases hk : (s3 pBot).ok = true
      · rw [check, if_pos hk]
      · rw [show check pBot s3 = .stop s3 by rw [check, if_neg hk]] at h; cases h
    rw [c3] at h
    simp only at h
    by_cases hok3 : (recRD pBL pBot pBL s3 pBL).ok = true
    swap
    · rw [check, if_neg hok3] at h; cases h
    rw [check, if_pos hok3] at h
    injection h with h
    obtain ⟨g1, g2, val3⟩ := recRD_val (by decide) hok3
    -- the bottom coefficients
    obtain ⟨r, hr, b1, b2, b3⟩ : ∃ r, E.botS = .ok r ∧ (s3 pBot).RDL = E.botDS r ∧
        (∀ R, E.botP = .ok R → (s3 pBot).RD = E.botDP R) ∧ ∀ q, q ≠ pBot → s3 q = s2 q := by
      unfold callBot at hB
      rcases hP : E.botP with _ | _ | R <;> rcases hS : E.botS with _ | _ | r <;>
        simp [hP, hS, Res.bind] at hB <;> subst hB
      · exact ⟨r, rfl, by simp [Store.set], by simp, fun q hq => by simp [Store.set, hq]⟩
      · exact ⟨r, rfl, by simp [Store.set], by simp [Store.set], fun q hq => by simp [Store.set, hq]⟩
    have BL3 : s3 pBL = s pBL := by rw [b3 pBL (by decide), BL2]
    have f4 : ∀ q, q ≠ pBL → s' q = s3 q := by intro q hq; rw [← h, val3]; simp [Store.set, hq]
    refine ⟨?_, ?_, ?_, fun e => absurd hn e, fun _ => ⟨r, hr⟩⟩
    · rw [f4 pFA (by decide), b3 pFA (by decide)]; exact FA
    · rw [f4 pRS (by decide), b3 pRS (by decide)]; exact RS2
    · intro _ R r' hR hr' d u
      rw [hr] at hr'; injection hr' with hr'; subst hr'
      have hRD := b2 R hR
      rw [hRD, BL3] at g1
      rw [b1, BL3] at g2
      have hv : (s' pBL).RD = (s pBL).RD + (s pBL).TU * (E.botDP R * ((1 - (s pBL).RU * E.botDP R)⁻¹ * (s pBL).TD)) ∧
          (s' pBL).RDL = (s pBL).RDL + (s pBL).TUL * E.botDS r * (1 / (1 - (s pBL).RUL * E.botDS r) * (s pBL).TDL) := by
        rw [← h, val3]; simp [Store.set, hRD, b1, BL3]
      rw [hv.1, hv.2, Cap, ← cap_bot g1, ← capL_bot g2, ← exists_amp]
      constructor
      · rintro ⟨d0, u0, ⟨a, b⟩, c, e⟩
        exact ⟨d0, u0, ⟨a, c⟩, (ibl _ _ _ _).1 ⟨b, e⟩⟩
      · rintro ⟨d0, u0, ⟨a, c⟩, hc⟩
        obtain ⟨b, e⟩ := (ibl _ _ _ _).2 hc
        exact ⟨d0, u0, ⟨a, b⟩, c, e⟩
  · rw [if_neg hn] at h
    injection h with h
    rw [← h]
    refine ⟨FA, RS2, fun e => absurd e hn, fun _ => ?_, fun e => absurd e hn⟩
    rw [BL2]
    have hmx2 : E.maxidx - 1 - E.imax = 0 := by rw [hmx]; split <;> omega
    rw [hmx2] at ibl
    have := scatter_ext (A := s pBL) (B := resetM) (fun d u d' u' => by
      have := ibl (d, 0) (u, (s pBL).TUL * 0) (d', (s pBL).RUL * 0) (u', 0)
      have e := scat_reset (K := K) (d, 0) (u, (s pBL).TUL * 0) (d', (s pBL).RUL * 0) (u', 0)
      have f := this.trans (show Chain E E.imax 0 _ _ _ _ ↔ _ from e.symm)
      simp only [Scat, ScatterSH, mul_zero, add_zero, and_true, resetM] at f
      simpa [resetM] using f)
    have thisS := scatterSH_ext (A := s pBL) (B := resetM) (fun d u d' u' => by
      have := ibl (0, d) ((s pBL).TU *ᵥ 0, u) ((s pBL).RU *ᵥ 0, d') (0, u')
      have e := scat_reset (K := K) (0, d) ((s pBL).TU *ᵥ 0, u) ((s pBL).RU *ᵥ 0, d') (0, u')
      have f := this.trans (show Chain E E.imax 0 _ _ _ _ ↔ _ from e.symm)
      simp only [Scat, Scatter, Matrix.mulVec_zero, add_zero, and_true, true_and] at f
      simpa using f)
    exact ⟨this.1, thisS.1⟩

/-! ### Fields and segments -/

/-- Source contribution at interface `i`: what is above it when `x` is below, going down. -/
def aboveD (E : Env K) (S : SrcRow K) (i : ℕ) (x : Amp K) : Amp K := if i = E.isrc then x - (S.D, S.DL) else x
/-- The same for the upgoing waves. -/
def aboveU (E : Env K) (S : SrcRow K) (i : ℕ) (x : Amp K) : Amp K := if i = E.isrc then x + (S.U, S.UL) else x

/-- A field cut at the shallower and the deeper of source and receiver. -/
def Segs (E : Env K) (S : SrcRow K) (dm um dM uM : Amp K) : Prop :=
  (∃ R, E.topP = .ok R ∧ ∃ d0 u0, Cap R E.topS u0 d0 ∧
    Chain E 0 E.imin d0 u0 (aboveD E S E.imin dm) (aboveU E S E.imin um)) ∧
  Chain E E.imin (E.imax - E.imin) dm um (aboveD E S E.imax dM) (aboveU E S E.imax uM) ∧
  (if E.imax + 1 < E.nlay then ∃ R r, E.botP = .ok R ∧ E.botS = .ok r ∧ ∃ d1 u1,
      Cap (E.botDP R) (E.botDS r) d1 u1 ∧ Chain E E.imax (E.nlay - 2 - E.imax) dM uM d1 u1
    else uM = 0)

theorem WF.min_lt {E : Env K} (hw : WF E) : E.imin < E.imax := by
  unfold Env.imin Env.imax
  cases h : E.ircvup
  · have := hw.down h; omega
  · have := hw.up h; omega

theorem WF.src {E : Env K} (_ : WF E) : E.isrc = E.imin ∨ E.isrc = E.imax := by
  unfold Env.imin Env.imax; omega

theorem maxidx_eq {E : Env K} (hw : WF E) :
    (E.imax + 1 < E.nlay ∧ E.maxidx = E.nlay - 1) ∨ (E.imax + 1 = E.nlay ∧ E.maxidx = E.nlay) := by
  have := hw.lt
  unfold Env.maxidx
  split <;> omega

theorem waves_segs {E : Env K} (hw : WF E) {S : SrcRow K} {d u : ℕ → Amp K} (h : Waves E S d u) :
    Segs E S (d E.imin) (u E.imin) (d E.imax) (u E.imax) := by
  have h1 := hw.one; have h2 := hw.min_lt; have h3 := hw.lt
  have hmx := maxidx_eq hw
  have hsrc := hw.src
  -- a run of interfaces ending at or before the next source interface
  have run : ∀ a n, (∀ i, i + 1 < n → a + i + 1 ≠ E.isrc) → a + n < E.maxidx → 0 < n →
      Chain E a n (d a) (u a) (aboveD E S (a + n) (d (a + n))) (aboveU E S (a + n) (u (a + n))) := by
    intro a n hs hn h0
    have := chain_of (E := E) (a := a) n
      (fun i => if i = n then aboveD E S (a + n) (d (a + n)) else d (a + i))
      (fun i => if i = n then aboveU E S (a + n) (u (a + n)) else u (a + i)) (by
        intro i hi
        obtain ⟨P, Q, hv, hc⟩ := h.iface (a + i) (by omega)
        refine ⟨P, Q, hv, ?_⟩
        have e1 : i ≠ n := by omega
        by_cases e2 : i + 1 = n
        · subst e2
          simpa [e1, aboveD, aboveU, Nat.add_assoc] using hc
        · have e3 := hs i (by omega)
          simp only [e3, if_false] at hc
          simpa [e1, e2, Nat.add_assoc] using hc)
    have e0 : (0:ℕ) ≠ n := by omega
    simpa [e0] using this
  refine ⟨?_, ?_, ?_⟩
  · obtain ⟨R, hR, t1, t2⟩ := h.top
    refine ⟨R, hR, d 0, u 0, ⟨t1, t2⟩, ?_⟩
    have := run 0 E.imin (by intro i hi; omega) (by omega) (by omega)
    simpa using this
  · have := run E.imin (E.imax - E.imin) (by intro i hi; omega) (by omega) (by omega)
    rwa [show E.imin + (E.imax - E.imin) = E.imax by omega] at this
  · have hb := h.bottom
    by_cases hn : E.imax + 1 < E.nlay
    · rw [if_pos hn] at hb ⊢
      obtain ⟨R, r, hR, hr, b1, b2⟩ := hb
      refine ⟨R, r, hR, hr, d (E.nlay - 2), u (E.nlay - 2), ⟨b1, b2⟩, ?_⟩
      by_cases h0 : E.nlay - 2 - E.imax = 0
      · have : E.nlay - 2 = E.imax := by omega
        rw [h0, this]; exact ⟨rfl, rfl⟩
      · have := run E.imax (E.nlay - 2 - E.imax) (by intro i hi; omega) (by omega) (by omega)
        rw [show E.imax + (E.nlay - 2 - E.imax) = E.nlay - 2 by omega] at this
        have e : E.nlay - 2 ≠ E.isrc := by omega
        simpa [aboveD, aboveU, e] using this
    · rw [if_neg hn] at hb ⊢
      rwa [show E.nlay - 1 = E.imax by omega] at hb

theorem segs_waves {E : Env K} (hw : WF E) {S : SrcRow K} {dm um dM uM : Amp K} (h : Segs E S dm um dM uM) :
    ∃ d u, Waves E S d u ∧ d E.imin = dm ∧ u E.imin = um ∧ d E.imax = dM ∧ u E.imax = uM := by
  have h1 := hw.one; have h2 := hw.min_lt; have h3 := hw.lt
  have hmx := maxidx_eq hw
  have hsrc := hw.src
  obtain ⟨⟨R, hR, d0, u0, hc0, hch0⟩, hch1, hb⟩ := h
  obtain ⟨D0, U0, a1, a2, a3, a4, a5⟩ := chain_seq hch0
  obtain ⟨D1, U1, b1, b2, b3, b4, b5⟩ := chain_seq hch1
  obtain ⟨D2, U2, c1, c2, c5, c6⟩ : ∃ D2 U2 : ℕ → Amp K, D2 0 = dM ∧ U2 0 = uM ∧
      (∀ i, i + 1 < E.maxidx - E.imax → ∃ P S, ifaceV E (E.imax + i + 1) P S ∧
        Scat (respV E (E.imax + i + 1) P S) (D2 i) (U2 i) (D2 (i+1)) (U2 (i+1))) ∧
      (if E.imax + 1 < E.nlay then ∃ R r, E.botP = .ok R ∧ E.botS = .ok r ∧
        Cap (E.botDP R) (E.botDS r) (D2 (E.nlay - 2 - E.imax)) (U2 (E.nlay - 2 - E.imax)) else uM = 0) := by
    by_cases hn : E.imax + 1 < E.nlay
    · rw [if_pos hn] at hb
      obtain ⟨R', r', hR', hr', d1, u1, hc, hch⟩ := hb
      obtain ⟨D2, U2, c1, c2, c3, c4, c5⟩ := chain_seq hch
      refine ⟨D2, U2, c1, c2, fun i hi => c5 i (by omega), ?_⟩
      rw [if_pos hn, c3, c4]
      exact ⟨R', r', hR', hr', hc⟩
    · rw [if_neg hn] at hb
      refine ⟨fun _ => dM, fun _ => uM, rfl, rfl, fun i hi => absurd hi (by omega), ?_⟩
      rw [if_neg hn]; exact hb
  refine ⟨fun i => if i < E.imin then D0 i else if i < E.imax then D1 (i - E.imin) else D2 (i - E.imax),
    fun i => if i < E.imin then U0 i else if i < E.imax then U1 (i - E.imin) else U2 (i - E.imax),
    ⟨?_, ?_, ?_⟩, ?_, ?_, ?_, ?_⟩
  · refine ⟨R, hR, ?_⟩
    have : 0 < E.imin := by omega
    simp only [this, if_true, a1, a2]
    exact hc0
  · intro i hi
    by_cases g1 : i < E.imin
    · obtain ⟨P, Q, hv, hs⟩ := a5 i g1
      rw [Nat.zero_add] at hv hs
      refine ⟨P, Q, hv, ?_⟩
      by_cases g2 : i + 1 < E.imin
      · have g3 : i + 1 ≠ E.isrc := by omega
        simpa [g1, g2, g3] using hs
      · have g3 : i + 1 = E.imin := by omega
        rw [g3, a3, a4] at hs
        have g4 : E.imin < E.imax := by omega
        simp only [g1, g3, if_true, lt_irrefl, if_false, Nat.sub_self, b1, b2, g4]
        exact hs
    · by_cases g2 : i < E.imax
      · obtain ⟨P, Q, hv, hs⟩ := b5 (i - E.imin) (by omega)
        rw [show E.imin + (i - E.imin) + 1 = i + 1 by omega] at hv hs
        refine ⟨P, Q, hv, ?_⟩
        have g4 : ¬ i + 1 < E.imin := by omega
        by_cases g3 : i + 1 < E.imax
        · have g5 : i + 1 ≠ E.isrc := by omega
          rw [show i - E.imin + 1 = i + 1 - E.imin by omega] at hs
          simpa [g1, g2, g3, g4, g5] using hs
        · have g5 : i + 1 = E.imax := by omega
          rw [show i - E.imin + 1 = E.imax - E.imin by omega, b3, b4] at hs
          have g6 : ¬ E.imax < E.imin := by omega
          simp only [g1, g2, g5, if_true, lt_irrefl, if_false, Nat.sub_self, c1, c2, g6]
          rw [← g5] at hs ⊢
          exact hs
      · obtain ⟨P, Q, hv, hs⟩ := c5 (i - E.imax) (by omega)
        rw [show E.imax + (i - E.imax) + 1 = i + 1 by omega] at hv hs
        refine ⟨P, Q, hv, ?_⟩
        have g4 : ¬ i + 1 < E.imin := by omega
        have g5 : ¬ i + 1 < E.imax := by omega
        have g6 : i + 1 ≠ E.isrc := by omega
        rw [show i - E.imax + 1 = i + 1 - E.imax by omega] at hs
        simpa [g1, g2, g4, g5, g6] using hs
  · by_cases hn : E.imax + 1 < E.nlay
    · rw [if_pos hn] at c6 ⊢
      have g1 : ¬ E.nlay - 2 < E.imin := by omega
      have g2 : ¬ E.nlay - 2 < E.imax := by omega
      simp only [g1, g2, if_false]
      exact c6
    · rw [if_neg hn] at c6 ⊢
      have g1 : ¬ E.nlay - 1 < E.imin := by omega
      have g2 : ¬ E.nlay - 1 < E.imax := by omega
      simp only [g1, g2, if_false]
      rw [show E.nlay - 1 - E.imax = 0 by omega, c2, c6]
  · simp [h2, b1]
  · simp [h2, b2]
  · have : ¬ E.imax < E.imin := by omega
    simp [this, c1]
  · have : ¬ E.imax < E.imin := by omega
    simp [this, c2]

/-- Given the matrices left by the matrix phase, a field is a solution of three matrix relations. -/
theorem ready_segs {E : Env K} {s : Store K} (hr : Ready E s) (ht : ∃ R, E.topP = .ok R)
    (hb : E.imax + 1 < E.nlay → ∃ R, E.botP = .ok R) (S : SrcRow K) (dm um dM uM : Amp K) :
    Segs E S dm um dM uM ↔
      Cap (s pFA).RU (s pFA).RUL (aboveU E S E.imin um) (aboveD E S E.imin dm) ∧
      Scat (s pRS) dm um (aboveD E S E.imax dM) (aboveU E S E.imax uM) ∧
      Cap (s pBL).RD (s pBL).RDL dM uM := by
  obtain ⟨R, hR⟩ := ht
  unfold Segs
  refine and_congr ?_ (and_congr (hr.rs _ _ _ _).symm ?_)
  · rw [hr.fa R hR]
    constructor
    · rintro ⟨R', hR', h⟩
      rw [hR] at hR'; injection hR' with hR'; subst hR'; exact h
    · intro h; exact ⟨R, hR, h⟩
  · by_cases hn : E.imax + 1 < E.nlay
    · rw [if_pos hn]
      obtain ⟨R', hR'⟩ := hb hn
      obtain ⟨r, hr'⟩ := hr.botS hn
      rw [hr.bl hn R' r hR' hr']
      constructor
      · rintro ⟨R2, r2, e1, e2, h⟩
        rw [hR'] at e1; injection e1 with e1; rw [hr'] at e2; injection e2 with e2
        subst e1; subst e2; exact h
      · intro h; exact ⟨R', r, hR', hr', h⟩
    · rw [if_neg hn]
      obtain ⟨e1, e2⟩ := hr.bl0 hn
      simp only [Cap, e1, e2, Matrix.zero_mulVec, zero_mul]
      constructor
      · rintro rfl; exact ⟨rfl, rfl⟩
      · rintro ⟨e1, e2⟩; exact Prod.ext e1 e2

/-! ### Solving for the receiver -/

theorem mulVec2_eq (A : Mat2 K) (v : Fin 2 → K) : mulVec2 A v = A *ᵥ v := by
  ext i; fin_cases i <;> simp [mulVec2, Matrix.mulVec, dotProduct, Fin.sum_univ_two]

theorem vec2_add (a b : Fin 2 → K) : ![a 0 + b 0, a 1 + b 1] = a + b := by
  ext i; fin_cases i <;> rfl

theorem solve_lin {M : Mat2 K} (hd : (1 - M).det ≠ 0) (x y : Fin 2 → K) :
    x = M *ᵥ x + y ↔ x = (1 - M)⁻¹ *ᵥ y := by
  constructor
  · intro h
    have h' : (1 - M) *ᵥ x = y := by
      rw [Matrix.sub_mulVec, Matrix.one_mulVec]; exact sub_eq_of_eq_add' h
    rw [← h', Matrix.mulVec_mulVec, inv_mul' hd, Matrix.one_mulVec]
  · intro h
    have h' : (1 - M) *ᵥ x = y := by
      rw [h, Matrix.mulVec_mulVec, mul_inv' hd, Matrix.one_mulVec]
    rw [Matrix.sub_mulVec, Matrix.one_mulVec] at h'
    exact eq_add_of_sub_eq' h'

/-- Receiver above the source: the three relations have exactly one solution. `F`, `X`, `B` are the
reflection from above, the stack in between and the reflection from below. -/
theorem solve_up {F B : Mat2 K} {X : RTM K} (h1 : (1 - X.RD * F).det ≠ 0)
    (h2 : (1 - B * (X.RU + X.TD * (F * ((1 - X.RD * F)⁻¹ * X.TU)))).det ≠ 0) (SD SU dm um dM uM : Fin 2 → K) :
    (dm = F *ᵥ um ∧ Scatter X dm um (dM - SD) (uM + SU) ∧ uM = B *ᵥ dM) ↔
    (um = (1 - X.RD * F)⁻¹ *ᵥ (X.TU *ᵥ ((1 - B * (X.RU + X.TD * (F * ((1 - X.RD * F)⁻¹ * X.TU))))⁻¹ *ᵥ (B *ᵥ SD + SU))) ∧
     dm = F *ᵥ um ∧ dM = SD + (X.TD *ᵥ dm + X.RU *ᵥ (uM + SU)) ∧
     uM = (1 - B * (X.RU + X.TD * (F * ((1 - X.RD * F)⁻¹ * X.TU))))⁻¹ *ᵥ (B *ᵥ SD + SU) - SU) := by
  set G := X.RU + X.TD * (F * ((1 - X.RD * F)⁻¹ * X.TU)) with hG
  constructor
  · rintro ⟨a, ⟨b, c⟩, e⟩
    have hum : um = (1 - X.RD * F)⁻¹ *ᵥ (X.TU *ᵥ (uM + SU)) := by
      rw [← solve_lin h1, ← Matrix.mulVec_mulVec, ← a]; exact b
    have hdM : dM - SD = G *ᵥ (uM + SU) := by
      rw [c, a, hum, hG]
      simp only [Matrix.add_mulVec, Matrix.mulVec_mulVec]; rw [add_comm]
    have hw : uM + SU = (1 - B * G)⁻¹ *ᵥ (B *ᵥ SD + SU) := by
      rw [← solve_lin h2, ← Matrix.mulVec_mulVec, ← hdM, Matrix.mulVec_sub, ← e]; abel
    refine ⟨by rw [hum, hw], a, ?_, ?_⟩
    · rw [← c]; abel
    · rw [← hw]; abel
  · rintro ⟨a, b, c, e⟩
    have hw : uM + SU = (1 - B * G)⁻¹ *ᵥ (B *ᵥ SD + SU) := by rw [e]; abel
    have hum : um = (1 - X.RD * F)⁻¹ *ᵥ (X.TU *ᵥ (uM + SU)) := by rw [a, hw]
    have hc : dM - SD = X.TD *ᵥ dm + X.RU *ᵥ (uM + SU) := by rw [c]; abel
    have hdM : dM - SD = G *ᵥ (uM + SU) := by
      rw [hc, b, hum, hG]
      simp only [Matrix.add_mulVec, Matrix.mulVec_mulVec]; rw [add_comm]
    refine ⟨b, ⟨?_, hc⟩, ?_⟩
    · rw [b, Matrix.mulVec_mulVec, solve_lin h1]; exact hum
    · have := (solve_lin h2 _ _).2 hw
      rw [← Matrix.mulVec_mulVec, ← hdM, Matrix.mulVec_sub] at this
      calc uM = (uM + SU) - SU := by abel
        _ = B *ᵥ dM := by rw [this]; abel

/-- Receiver below the source. -/
theorem solve_down {F B : Mat2 K} {X : RTM K} (h1 : (1 - X.RU * B).det ≠ 0)
    (h2 : (1 - F * (X.RD + X.TU * (B * ((1 - X.RU * B)⁻¹ * X.TD)))).det ≠ 0) (SD SU dm um dM uM : Fin 2 → K) :
    (dm - SD = F *ᵥ (um + SU) ∧ Scatter X dm um dM uM ∧ uM = B *ᵥ dM) ↔
    (dM = (1 - X.RU * B)⁻¹ *ᵥ (X.TD *ᵥ ((1 - F * (X.RD + X.TU * (B * ((1 - X.RU * B)⁻¹ * X.TD))))⁻¹ *ᵥ (F *ᵥ SU + SD))) ∧
     uM = B *ᵥ dM ∧ um = X.RD *ᵥ dm + X.TU *ᵥ uM ∧
     dm = (1 - F * (X.RD + X.TU * (B * ((1 - X.RU * B)⁻¹ * X.TD))))⁻¹ *ᵥ (F *ᵥ SU + SD)) := by
  set G := X.RD + X.TU * (B * ((1 - X.RU * B)⁻¹ * X.TD)) with hG
  constructor
  · rintro ⟨a, ⟨b, c⟩, e⟩
    have hdM : dM = (1 - X.RU * B)⁻¹ *ᵥ (X.TD *ᵥ dm) := by
      rw [← solve_lin h1, ← Matrix.mulVec_mulVec, ← e, add_comm]; exact c
    have hum : um = G *ᵥ dm := by
      rw [b, e, hdM, hG]; simp only [Matrix.add_mulVec, Matrix.mulVec_mulVec]
    have hw : dm = (1 - F * G)⁻¹ *ᵥ (F *ᵥ SU + SD) := by
      rw [← solve_lin h2, ← Matrix.mulVec_mulVec, ← hum, ← add_assoc, ← Matrix.mulVec_add, ← a]; abel
    exact ⟨by rw [hdM, ← hw], e, b, hw⟩
  · rintro ⟨a, b, c, e⟩
    have hdM : dM = (1 - X.RU * B)⁻¹ *ᵥ (X.TD *ᵥ dm) := by rw [a, e]
    have hum : um = G *ᵥ dm := by
      rw [c, b, hdM, hG]; simp only [Matrix.add_mulVec, Matrix.mulVec_mulVec]
    refine ⟨?_, ⟨c, ?_⟩, b⟩
    · have := (solve_lin h2 _ _).2 e
      rw [← Matrix.mulVec_mulVec, ← hum] at this
      rw [Matrix.mulVec_add]
      calc dm - SD = (F *ᵥ um + (F *ᵥ SU + SD)) - SD := by rw [← this]
        _ = _ := by abel
    · rw [b, Matrix.mulVec_mulVec, add_comm, solve_lin h1]; exact hdM

theorem solve_upL {F B : K} {X : RTM K} (h1 : 1 - F * X.RDL ≠ 0)
    (h2 : 1 - B * (X.RUL + X.TDL * F * (1 / (1 - F * X.RDL) * X.TUL)) ≠ 0) (SD SU dm um dM uM : K) :
    (dm = F * um ∧ ScatterSH X dm um (dM - SD) (uM + SU) ∧ uM = B * dM) ↔
    (um = 1 / (1 - F * X.RDL) * X.TUL / (1 - B * (X.RUL + X.TDL * F * (1 / (1 - F * X.RDL) * X.TUL))) * (B * SD + SU) ∧
     dm = F * um ∧ dM = SD + (X.TDL * dm + X.RUL * (uM + SU)) ∧
     uM = (B * SD + SU) / (1 - B * (X.RUL + X.TDL * F * (1 / (1 - F * X.RDL) * X.TUL))) - SU) := by
  generalize hG : X.RUL + X.TDL * F * (1 / (1 - F * X.RDL) * X.TUL) = G at h2 ⊢
  constructor
  · rintro ⟨a, ⟨b, c⟩, e⟩
    have hum : um = 1 / (1 - F * X.RDL) * X.TUL * (uM + SU) := by
      rw [one_div, mul_assoc, eq_inv_mul_iff_mul_eq₀ h1]; rw [a] at b; linear_combination b
    have hdM : dM - SD = G * (uM + SU) := by rw [c, a, ← hG]; linear_combination (X.TDL * F) * hum
    have hw : uM + SU = (B * SD + SU) / (1 - B * G) := by
      rw [eq_div_iff h2]; linear_combination e + B * hdM
    refine ⟨?_, a, by linear_combination c, by rw [← hw]; ring⟩
    rw [hum, hw]; ring
  · rintro ⟨a, b, c, e⟩
    have hw : uM + SU = (B * SD + SU) / (1 - B * G) := by rw [e]; ring
    have hum : um = 1 / (1 - F * X.RDL) * X.TUL * (uM + SU) := by rw [a, hw]; ring
    have hdM : dM - SD = G * (uM + SU) := by rw [c, b, ← hG]; linear_combination (X.TDL * F) * hum
    refine ⟨b, ⟨?_, by linear_combination c⟩, ?_⟩
    · rw [one_div, mul_assoc, eq_inv_mul_iff_mul_eq₀ h1] at hum; rw [b]; linear_combination hum
    · rw [eq_div_iff h2] at hw; linear_combination hw - B * hdM

theorem solve_downL {F B : K} {X : RTM K} (h1 : 1 - X.RUL * B ≠ 0)
    (h2 : 1 - F * (X.RDL + X.TUL * B * (1 / (1 - X.RUL * B) * X.TDL)) ≠ 0) (SD SU dm um dM uM : K) :
    (dm - SD = F * (um + SU) ∧ ScatterSH X dm um dM uM ∧ uM = B * dM) ↔
    (dM = 1 / (1 - X.RUL * B) * X.TDL / (1 - F * (X.RDL + X.TUL * B * (1 / (1 - X.RUL * B) * X.TDL))) * (SD + F * SU) ∧
     uM = B * dM ∧ um = X.RDL * dm + X.TUL * uM ∧
     dm = (SD + F * SU) / (1 - F * (X.RDL + X.TUL * B * (1 / (1 - X.RUL * B) * X.TDL)))) := by
  generalize hG : X.RDL + X.TUL * B * (1 / (1 - X.RUL * B) * X.TDL) = G at h2 ⊢
  constructor
  · rintro ⟨a, ⟨b, c⟩, e⟩
    have hdM : dM = 1 / (1 - X.RUL * B) * X.TDL * dm := by
      rw [one_div, mul_assoc, eq_inv_mul_iff_mul_eq₀ h1]; rw [e] at c; linear_combination c
    have hum : um = G * dm := by rw [b, e, ← hG]; linear_combination (X.TUL * B) * hdM
    have hw : dm = (SD + F * SU) / (1 - F * G) := by
      rw [eq_div_iff h2]; linear_combination a + F * hum
    refine ⟨?_, e, b, hw⟩
    rw [hdM, hw]; ring
  · rintro ⟨a, b, c, e⟩
    have hdM : dM = 1 / (1 - X.RUL * B) * X.TDL * dm := by rw [a, e]; ring
    have hum : um = G * dm := by rw [c, b, ← hG]; linear_combination (X.TUL * B) * hdM
    refine ⟨?_, ⟨c, ?_⟩, b⟩
    · rw [eq_div_iff h2] at e; linear_combination e - F * hum
    · rw [one_div, mul_assoc, eq_inv_mul_iff_mul_eq₀ h1] at hdM; rw [b]; linear_combination hdM

theorem srcAll_ok {E : Env K} {S : Src → SrcRow K} (h : srcAll E = .ok S) (t : Src) : E.src t = .ok (S t) := by
  unfold srcAll at h
  split at h
  · rename_i h1 h2 h3 h4 h5 h6
    injection h with h
    subst h
    cases t <;> assumption
  · cases h

/-- What the build phase computes when it goes through: there is one field, and the table holds the
observables at the receiver. -/
theorem build_correct {E : Env K} (hw : WF E) {V W : Recv K} (hV : Reads E V W) {s : Store K} (hr : Ready E s)
    (ht : ∃ R, E.topP = .ok R) (hb : E.imax + 1 < E.nlay → ∃ R, E.botP = .ok R) {b : Built K}
    (h : buildQWV E s = .ok b) (hdone : b.done = true) (t : Src) (hz : E.atZero = false ∨ t ≠ .DS) :
    ∃ S, E.src t = .ok S ∧ (∃ d u, Waves E S d u) ∧
      ∀ d u, Waves E S d u → b.g.u t = V.obs (d E.ircv) (u E.ircv) ∧ b.g.uz t = W.obs (d E.ircv) (u E.ircv) := by
  have hzz : ∀ g : QWV K, (zeroDS E g).u t = g.u t ∧ (zeroDS E g).uz t = g.uz t := by
    intro g
    unfold zeroDS
    rcases hz with hz | hz
    · simp [hz]
    · cases E.atZero <;> simp [hz]
  unfold buildQWV at h
  rcases hS : srcAll E with _ | _ | S
  · rw [hS] at h; cases h
  · rw [hS] at h; cases h
  rw [hS] at h
  refine ⟨S t, srcAll_ok hS t, ?_⟩
  dsimp only at h
  have hlt := hw.min_lt
  by_cases hup : E.ircvup = true
  · have i1 : E.imin = E.ircv := by have := hw.up hup; unfold Env.imin; omega
    have i2 : E.imax = E.isrc := by have := hw.up hup; unfold Env.imax; omega
    have n1 : E.ircv ≠ E.isrc := by have := hw.up hup; omega
    rw [if_pos hup] at h
    by_cases hok : (recRU pFA pRS pFB s pFB).ok = true
    swap
    · rw [if_neg hok] at h; injection h with h; subst h; cases hdone
    rw [if_pos hok] at h
    obtain ⟨e1, e2, val⟩ := recRU_val (by decide) hok
    have vFB : (recRU pFA pRS pFB s pFB).RU = (s pRS).RU + (s pRS).TD * ((s pFA).RU * ((1 - (s pRS).RD * (s pFA).RU)⁻¹ * (s pRS).TU)) ∧
        (recRU pFA pRS pFB s pFB).invT = (1 - (s pRS).RD * (s pFA).RU)⁻¹ * (s pRS).TU ∧
        (recRU pFA pRS pFB s pFB).RUL = (s pRS).RUL + (s pRS).TDL * (s pFA).RUL * (1 / (1 - (s pFA).RUL * (s pRS).RDL) * (s pRS).TUL) ∧
        (recRU pFA pRS pFB s pFB).invTL = 1 / (1 - (s pFA).RUL * (s pRS).RDL) * (s pRS).TUL ∧
        recRU pFA pRS pFB s pBL = s pBL := by
      rw [val]; simp [Store.set]
    obtain ⟨v1, v2, v3, v4, v5⟩ := vFB
    rcases hinv : inv (oneSub (mul (recRU pFA pRS pFB s pBL).RD (recRU pFA pRS pFB s pFB).RU)) with _ | T
    · rw [hinv] at h; simp only [Out.ok.injEq] at h; subst h; cases hdone
    rw [hinv] at h
    simp only [Store.set, if_true, show pBL ≠ pFB by decide, if_false] at h
    split at h
    · cases h
    rename_i hden
    simp only [Out.ok.injEq] at h
    subst h
    rw [mul_eq, oneSub_eq, v5] at hinv
    obtain ⟨hdet, rfl⟩ := inv_some hinv
    simp only [hzz]
    rw [v3, v5] at hden
    rw [v1] at hdet
    have P := fun dm um dM uM => solve_up (X := s pRS) e1 hdet (S t).D (S t).U dm um dM uM
    have Q := fun dm um dM uM => solve_upL (X := s pRS) e2 hden (S t).DL (S t).UL dm um dM uM
    have eq : ∀ dm um dM uM : Amp K, Segs E (S t) dm um dM uM ↔ 
        ((dm.1 = (s pFA).RU *ᵥ um.1 ∧
          Scatter (s pRS) dm.1 um.1 (dM.1 - (S t).D) (uM.1 + (S t).U) ∧ uM.1 = (s pBL).RD *ᵥ dM.1) ∧
        (dm.2 = (s pFA).RUL * um.2 ∧
          ScatterSH (s pRS) dm.2 um.2 (dM.2 - (S t).DL) (uM.2 + (S t).UL) ∧ uM.2 = (s pBL).RDL * dM.2)) := fun dm um dM uM => by
      rw [ready_segs hr ht hb]
      simp only [aboveD, aboveU, i1, i2, n1, if_false, if_true, Cap, Scat]
      constructor
      · rintro ⟨⟨a, a'⟩, ⟨b, b'⟩, c, c'⟩; exact ⟨⟨a, b, c⟩, a', b', c'⟩
      · rintro ⟨⟨a, b, c⟩, a', b', c'⟩; exact ⟨⟨a, a'⟩, ⟨b, b'⟩, c, c'⟩
    constructor
    · obtain ⟨d, u, hW, -⟩ := segs_waves hw ((eq (_, _) (_, _) (_, _) (_, _)).2 ⟨(P _ _ _ _).2 ⟨rfl, rfl, rfl, rfl⟩, (Q _ _ _ _).2 ⟨rfl, rfl, rfl, rfl⟩⟩)
      exact ⟨d, u, hW⟩
    · intro d u hW
      have hh := (eq _ _ _ _).1 (waves_segs hw hW)
      obtain ⟨p1, p2, -, -⟩ := (P _ _ _ _).1 hh.1
      obtain ⟨q1, q2, -, -⟩ := (Q _ _ _ _).1 hh.2
      rw [i1] at p1 p2 q1 q2
      refine ⟨?_, ?_⟩
      all_goals
        simp only [constructQWV, mulVec2_eq, vec2_add, mul_eq, if_true, v1, v2, v3, v4, v5, hV.rev, hV.revL, hV.revz, hV.revzL, hup,
          Recv.obs, Row.mk.injEq]
        rw [p2, q2]
        constructor
        · rw [Matrix.mulVec_mulVec, ← Matrix.add_mulVec, p1]
          simp only [Matrix.mulVec_mulVec, Matrix.mul_assoc]
        · rw [q1]; ring
  · have hdn : E.ircvup = false := by simpa using hup
    have i1 : E.imin = E.isrc := by have := hw.down hdn; unfold Env.imin; omega
    have i2 : E.imax = E.ircv := by have := hw.down hdn; unfold Env.imax; omega
    have n1 : E.ircv ≠ E.isrc := by have := hw.down hdn; omega
    rw [if_neg hup] at h
    by_cases hok : (recRD pRS pBL pAL s pAL).ok = true
    swap
    · rw [if_neg hok] at h; injection h with h; subst h; cases hdone
    rw [if_pos hok] at h
    obtain ⟨e1, e2, val⟩ := recRD_val (by decide) hok
    have vAL : (recRD pRS pBL pAL s pAL).RD = (s pRS).RD + (s pRS).TU * ((s pBL).RD * ((1 - (s pRS).RU * (s pBL).RD)⁻¹ * (s pRS).TD)) ∧
        (recRD pRS pBL pAL s pAL).invT = (1 - (s pRS).RU * (s pBL).RD)⁻¹ * (s pRS).TD ∧
        (recRD pRS pBL pAL s pAL).RDL = (s pRS).RDL + (s pRS).TUL * (s pBL).RDL * (1 / (1 - (s pRS).RUL * (s pBL).RDL) * (s pRS).TDL) ∧
        (recRD pRS pBL pAL s pAL).invTL = 1 / (1 - (s pRS).RUL * (s pBL).RDL) * (s pRS).TDL ∧
        recRD pRS pBL pAL s pFA = s pFA := by
      rw [val]; simp [Store.set]
    obtain ⟨v1, v2, v3, v4, v5⟩ := vAL
    rcases hinv : inv (oneSub (mul (recRD pRS pBL pAL s pFA).RU (recRD pRS pBL pAL s pAL).RD)) with _ | T
    · rw [hinv] at h; simp only [Out.ok.injEq] at h; subst h; cases hdone
    rw [hinv] at h
    simp only [Store.set, if_true, show pFA ≠ pAL by decide, if_false] at h
    split at h
    · cases h
    rename_i hden
    simp only [Out.ok.injEq] at h
    subst h
    rw [mul_eq, oneSub_eq, v5] at hinv
    obtain ⟨hdet, rfl⟩ := inv_some hinv
    simp only [hzz]
    rw [v3, v5] at hden
    rw [v1] at hdet
    have P := fun dm um dM uM => solve_down (X := s pRS) e1 hdet (S t).D (S t).U dm um dM uM
    have Q := fun dm um dM uM => solve_downL (X := s pRS) e2 hden (S t).DL (S t).UL dm um dM uM
    have eq : ∀ dm um dM uM : Amp K, Segs E (S t) dm um dM uM ↔ 
        ((dm.1 - (S t).D = (s pFA).RU *ᵥ (um.1 + (S t).U) ∧
          Scatter (s pRS) dm.1 um.1 dM.1 uM.1 ∧ uM.1 = (s pBL).RD *ᵥ dM.1) ∧
        (dm.2 - (S t).DL = (s pFA).RUL * (um.2 + (S t).UL) ∧
          ScatterSH (s pRS) dm.2 um.2 dM.2 uM.2 ∧ uM.2 = (s pBL).RDL * dM.2)) := fun dm um dM uM => by
      rw [ready_segs hr ht hb]
      simp only [aboveD, aboveU, i1, i2, n1, if_false, if_true, Cap, Scat]
      constructor
      · rintro ⟨⟨a, a'⟩, ⟨b, b'⟩, c, c'⟩; exact ⟨⟨a, b, c⟩, a', b', c'⟩
      · rintro ⟨⟨a, b, c⟩, a', b', c'⟩; exact ⟨⟨a, a'⟩, ⟨b, b'⟩, c, c'⟩
    constructor
    · obtain ⟨d, u, hW, -⟩ := segs_waves hw ((eq (_, _) (_, _) (_, _) (_, _)).2 ⟨(P _ _ _ _).2 ⟨rfl, rfl, rfl, rfl⟩, (Q _ _ _ _).2 ⟨rfl, rfl, rfl, rfl⟩⟩)
      exact ⟨d, u, hW⟩
    · intro d u hW
      have hh := (eq _ _ _ _).1 (waves_segs hw hW)
      obtain ⟨p1, p2, -, -⟩ := (P _ _ _ _).1 hh.1
      obtain ⟨q1, q2, -, -⟩ := (Q _ _ _ _).1 hh.2
      rw [i2] at p1 p2 q1 q2
      refine ⟨?_, ?_⟩
      all_goals
        simp only [constructQWV, mulVec2_eq, vec2_add, mul_eq, Bool.false_eq_true, if_false, v1, v2, v3, v4, v5, hV.rev, hV.revL,
          hV.revz, hV.revzL, hdn, Recv.obs, Row.mk.injEq]
        rw [p2, q2]
        constructor
        · rw [Matrix.mulVec_mulVec, add_comm (_ *ᵥ _) (_ *ᵥ _), ← Matrix.add_mulVec, p1]
          simp only [Matrix.mulVec_mulVec, Matrix.mul_assoc]
        · rw [q1]; ring

/-- C57: whenever the kernel goes through, whatever the store held before, there is exactly one receiver
value of a field obeying the boundary, interface and source conditions, and the table holds it: the
displacement and its depth derivative for every source type (except where the table is blanked, C58). -/
theorem C57_kernel {E : Env K} (hE : Good E) (hw : WF E) {V W : Recv K} (hV : Reads E V W) {s : Store K} {st : Bool}
    (ht : ∃ R, E.topP = .ok R) (hb : E.imax + 1 < E.nlay → ∃ R, E.botP = .ok R) {r : Kern K}
    (h : kernel E s st = .ok r) (hdone : r.done = true) (t : Src) (hz : E.atZero = false ∨ t ≠ .DS) :
    ∃ S, E.src t = .ok S ∧ (∃ d u, Waves E S d u) ∧
      ∀ d u, Waves E S d u → r.g.u t = V.obs (d E.ircv) (u E.ircv) ∧ r.g.uz t = W.obs (d E.ircv) (u E.ircv) := by
  unfold kernel at h
  rcases hm : grtMatrix E s with _ | s1 | s1
  · rw [hm] at h; cases h
  · rw [hm] at h
    dsimp only at h
    split at h
    · injection h with h; subst h; cases hdone
    · cases h
    · cases h
  rw [hm] at h
  dsimp only at h
  have hR : Ready E s1 := by
    unfold grtMatrix at hm
    dsimp only at hm
    rcases hl : loop E (E.maxidx - 1) 1 (((((s.set pBL resetM).set pRS resetM).set pFA resetM).set pTop resetM).set pBot resetM) with _ | s2 | s2
    · rw [hl] at hm; cases hm
    · rw [hl] at hm; cases hm
    rw [hl] at hm
    exact bounds_ready hw (chain_zero_inv hE hw hl) hm
  split at h
  · rename_i b hbq
    injection h with h
    subst h
    exact build_correct hw hV hR ht hb hbq hdone t hz
  · cases h
  · cases h

end GRT.Kernel
