import Verif.Kernel.Model

/-! Lemmas on the kernel model: what each statement does to the scattering relations. -/

set_option linter.unusedSectionVars false

namespace GRT.Kernel

open GRT.RT GRT.Layer Matrix

variable {K : Type*} [Field K] [DecidableEq K]

/-- P-SV and SH amplitudes of the waves going one way. -/
abbrev Amp (K : Type*) := (Fin 2 → K) × K

/-- P-SV and SH amplitudes above `(d,u)` and below `(d',u')` are compatible with the response `M`. -/
def Scat (M : RTM K) (d u d' u' : Amp K) : Prop :=
  Scatter M d.1 u.1 d'.1 u'.1 ∧ ScatterSH M d.2 u.2 d'.2 u'.2

/-! ### The combination routines -/

theorem recRT_ok {p1 p2 p : Ptr} {s : Store K} (hp : p ≠ p2) (h : (recRT p1 p2 p s p).ok = true) :
    (1 - (s p1).RU * (s p2).RD).det ≠ 0 ∧ 1 - (s p1).RUL * (s p2).RDL ≠ 0 := by
  have key : ∀ t : Store K, (t p).ok = false → (recRT_SH p1 p2 p t p).ok = false := by
    intro t ht
    unfold recRT_SH
    by_cases e : 1 - (t p1).RUL * (t p2).RDL = 0
    · simp [e, Store.set]
    · simp only [e, if_false]; simp [Store.set, ht]
  have h1 : (1 - (s p1).RU * (s p2).RD).det ≠ 0 := by
    intro e
    rw [recRT, key _ (by rw [recRT_PSV_fail _ _ _ _ e]; simp [Store.set])] at h
    cases h
  refine ⟨h1, fun e => ?_⟩
  rw [recRT, C12_failure_SH] at h
  · cases h
  · rw [recRT_PSV_val _ _ _ _ hp h1]
    by_cases q : p1 = p
    · subst q; simpa [Store.set, Ne.symm hp] using e
    · simpa [Store.set, Ne.symm hp, q] using e

theorem recRT_frame {p1 p2 p q : Ptr} {s : Store K} (hp : p ≠ p2) (hq : q ≠ p)
    (h : (recRT p1 p2 p s p).ok = true) : recRT p1 p2 p s q = s q := by
  obtain ⟨h1, h2⟩ := recRT_ok hp h
  rw [recRT, recRT_SH_val _ _ _ _ hp, recRT_PSV_val _ _ _ _ hp h1]
  · simp [Store.set, hq]
  · rw [recRT_PSV_val _ _ _ _ hp h1]
    by_cases e : p1 = p
    · subst e; simpa [Store.set, Ne.symm hp] using h2
    · simpa [Store.set, Ne.symm hp, e] using h2

theorem recRT_scat {p1 p2 p : Ptr} {s : Store K} (hp : p ≠ p2) (h : (recRT p1 p2 p s p).ok = true)
    (d u d'' u'' : Amp K) :
    Scat (recRT p1 p2 p s p) d u d'' u'' ↔ ∃ d' u', Scat (s p1) d u d' u' ∧ Scat (s p2) d' u' d'' u'' := by
  obtain ⟨h1, h2⟩ := recRT_ok hp h
  set t := recRT_PSV p1 p2 p s with ht
  have hP : (t p).ok = true := (C12_success_iff_PSV p1 p2 p s hp).2 h1
  have t1 : ScatterSH (t p1) = ScatterSH (s p1) := by
    rw [ht, recRT_PSV_val _ _ _ _ hp h1]
    by_cases e : p1 = p
    · subst e; funext a b c e; simp [Store.set, ScatterSH]
    · simp [Store.set, e]
  have t2 : t p2 = s p2 := by
    rw [ht, recRT_PSV_val _ _ _ _ hp h1]; simp [Store.set, Ne.symm hp]
  have h2' : 1 - (t p1).RUL * (t p2).RDL ≠ 0 := by
    rw [t2, ht, recRT_PSV_val _ _ _ _ hp h1]
    by_cases e : p1 = p
    · subst e; simpa [Store.set] using h2
    · simpa [Store.set, e] using h2
  have hS := C12_combine_SH p1 p2 p t hp h2' d.2 u.2 d''.2 u''.2
  have hQ := C12_combine_PSV p1 p2 p s hp hP d.1 u.1 d''.1 u''.1
  have e1 : ∀ a b c e, Scatter (recRT p1 p2 p s p) a b c e ↔ Scatter (t p) a b c e := by
    intro a b c e
    rw [recRT, ← ht, recRT_SH_val _ _ _ _ hp h2']; simp [Scatter, Store.set]
  rw [t1, t2] at hS
  simp only [Scat]
  rw [e1, hQ, show recRT p1 p2 p s p = recRT_SH p1 p2 p t p from rfl, hS]
  constructor
  · rintro ⟨⟨a, b, x, y⟩, c, e, z, w⟩
    exact ⟨(a, c), (b, e), ⟨x, z⟩, y, w⟩
  · rintro ⟨a, b, ⟨x, z⟩, y, w⟩
    exact ⟨⟨_, _, x, y⟩, _, _, z, w⟩

/-- Closed form of `grt_recursion_RU`, the output possibly being the second argument. -/
theorem recRU_val {p1 p2 p : Ptr} {s : Store K} (hp : p ≠ p1) (h : (recRU p1 p2 p s p).ok = true) :
    (1 - (s p2).RD * (s p1).RU).det ≠ 0 ∧ 1 - (s p1).RUL * (s p2).RDL ≠ 0 ∧
    recRU p1 p2 p s = s.set p { s p with
      ok := true
      invT := (1 - (s p2).RD * (s p1).RU)⁻¹ * (s p2).TU
      RU := (s p2).RU + (s p2).TD * ((s p1).RU * ((1 - (s p2).RD * (s p1).RU)⁻¹ * (s p2).TU))
      invTL := 1 / (1 - (s p1).RUL * (s p2).RDL) * (s p2).TUL
      RUL := (s p2).RUL + (s p2).TDL * (s p1).RUL * (1 / (1 - (s p1).RUL * (s p2).RDL) * (s p2).TUL) } := by
  by_cases hd : (1 - (s p2).RD * (s p1).RU).det = 0
  · exfalso
    have e : recRU_PSV p1 p2 p s = s.set p { s p with ok := false } := by
      unfold recRU_PSV; simp only [mul_eq, oneSub_eq, inv_none.2 hd]
    unfold recRU at h
    rw [e] at h
    unfold recRU_SH at h
    dsimp only at h
    split at h <;> simp [Store.set] at h
  · have e : recRU_PSV p1 p2 p s = s.set p { s p with
        ok := true
        invT := (1 - (s p2).RD * (s p1).RU)⁻¹ * (s p2).TU
        RU := (s p2).RU + (s p2).TD * ((s p1).RU * ((1 - (s p2).RD * (s p1).RU)⁻¹ * (s p2).TU)) } := by
      unfold recRU_PSV
      simp only [mul_eq, oneSub_eq, RT.add_eq, inv_eq hd]
      by_cases h1 : p2 = p
      · subst h1
        simp only [Store.set, if_true, Ne.symm hp, if_false]
        funext q; by_cases hq : q = p2 <;> simp [Store.set, hq]
      · simp only [Store.set, if_true, Ne.symm hp, if_false, h1]
        funext q; by_cases hq : q = p <;> simp [Store.set, hq]
    by_cases hs : 1 - (s p1).RUL * (s p2).RDL = 0
    · exfalso
      unfold recRU recRU_SH at h
      rw [e] at h
      by_cases h1 : p2 = p
      · subst h1; simp [Store.set, Ne.symm hp, hs] at h
      · simp [Store.set, Ne.symm hp, h1, hs] at h
    · refine ⟨hd, hs, ?_⟩
      unfold recRU
      rw [e]
      unfold recRU_SH
      by_cases h1 : p2 = p
      · subst h1
        simp only [Store.set, if_true, Ne.symm hp, if_false, hs]
        funext q; by_cases hq : q = p2 <;> simp [Store.set, hq]
      · simp only [Store.set, if_true, Ne.symm hp, if_false, h1, hs]
        funext q; by_cases hq : q = p <;> simp [Store.set, hq]

/-- Closed form of `grt_recursion_RD`, the output possibly being the first argument. -/
theorem recRD_val {p1 p2 p : Ptr} {s : Store K} (hp : p ≠ p2) (h : (recRD p1 p2 p s p).ok = true) :
    (1 - (s p1).RU * (s p2).RD).det ≠ 0 ∧ 1 - (s p1).RUL * (s p2).RDL ≠ 0 ∧
    recRD p1 p2 p s = s.set p { s p with
      ok := true
      invT := (1 - (s p1).RU * (s p2).RD)⁻¹ * (s p1).TD
      RD := (s p1).RD + (s p1).TU * ((s p2).RD * ((1 - (s p1).RU * (s p2).RD)⁻¹ * (s p1).TD))
      invTL := 1 / (1 - (s p1).RUL * (s p2).RDL) * (s p1).TDL
      RDL := (s p1).RDL + (s p1).TUL * (s p2).RDL * (1 / (1 - (s p1).RUL * (s p2).RDL) * (s p1).TDL) } := by
  by_cases hd : (1 - (s p1).RU * (s p2).RD).det = 0
  · exfalso
    have e : recRD_PSV p1 p2 p s = s.set p { s p with ok := false } := by
      unfold recRD_PSV; simp only [mul_eq, oneSub_eq, inv_none.2 hd]
    unfold recRD at h
    rw [e] at h
    unfold recRD_SH at h
    dsimp only at h
    split at h <;> simp [Store.set] at h
  · have e : recRD_PSV p1 p2 p s = s.set p { s p with
        ok := true
        invT := (1 - (s p1).RU * (s p2).RD)⁻¹ * (s p1).TD
        RD := (s p1).RD + (s p1).TU * ((s p2).RD * ((1 - (s p1).RU * (s p2).RD)⁻¹ * (s p1).TD)) } := by
      unfold recRD_PSV
      simp only [mul_eq, oneSub_eq, RT.add_eq, inv_eq hd]
      by_cases h1 : p1 = p
      · subst h1
        simp only [Store.set, if_true, Ne.symm hp, if_false]
        funext q; by_cases hq : q = p1 <;> simp [Store.set, hq]
      · simp only [Store.set, if_true, Ne.symm hp, if_false, h1]
        funext q; by_cases hq : q = p <;> simp [Store.set, hq]
    by_cases hs : 1 - (s p1).RUL * (s p2).RDL = 0
    · exfalso
      unfold recRD recRD_SH at h
      rw [e] at h
      by_cases h1 : p1 = p
      · subst h1; simp [Store.set, Ne.symm hp, hs] at h
      · simp [Store.set, Ne.symm hp, h1, hs] at h
    · refine ⟨hd, hs, ?_⟩
      unfold recRD
      rw [e]
      unfold recRD_SH
      by_cases h1 : p1 = p
      · subst h1
        simp only [Store.set, if_true, Ne.symm hp, if_false, hs]
        funext q; by_cases hq : q = p1 <;> simp [Store.set, hq]
      · simp only [Store.set, if_true, Ne.symm hp, if_false, h1, hs]
        funext q; by_cases hq : q = p <;> simp [Store.set, hq]

/-! ### The loop -/

/-- The relation across interface `iy` and the layer above it, from the variant's routines. -/
def ifaceV (E : Env K) (iy : ℕ) (P : PSV K) (S : SH K) : Prop :=
  if !E.dyn || (iy != E.isrc && iy != E.ircv) then E.rtP iy = .ok P ∧ E.rtS iy = .ok S
  else P = transparent ∧ S = transparentSH

/-- The response stored in `M`. -/
def respV (E : Env K) (iy : ℕ) (P : PSV K) (S : SH K) : RTM K := ofParts (E.delP iy P) (E.delS iy S)

theorem layerM_go {E : Env K} {iy : ℕ} {s s' : Store K} (h : layerM E iy s = .go s') :
    (∃ P S, ifaceV E iy P S ∧ s' pM = respV E iy P S) ∧ ∀ q, q ≠ pM → s' q = s q := by
  unfold layerM at h
  dsimp only at h
  by_cases hc : (!E.dyn || (iy != E.isrc && iy != E.ircv)) = true
  · rw [if_pos hc] at h
    rcases hP : E.rtP iy with _ | _ | P <;> rcases hS : E.rtS iy with _ | _ | S <;>
      simp [hP, hS, callRTP, callRTS, Res.bind, check, Store.set, putS, putP, resetM] at h
    subst h
    refine ⟨⟨P, S, ?_, ?_⟩, ?_⟩
    · unfold ifaceV; rw [if_pos hc]; exact ⟨hP, hS⟩
    · simp [respV, ofParts, getP, getS, Store.set]
    · intro q hq; simp [hq, Store.set]
  · rw [if_neg hc] at h
    simp only [Res.bind, Store.set, if_true, Res.go.injEq] at h
    subst h
    refine ⟨⟨transparent, transparentSH, ?_, ?_⟩, ?_⟩
    · unfold ifaceV; rw [if_neg hc]; exact ⟨rfl, rfl⟩
    · simp [respV, ofParts, getP, getS, putP, putS, resetM, transparent, transparentSH, Store.set,
        show (!![1, 0; 0, 1] : Mat2 K) = 1 from eye_eq]
    · intro q hq; simp [hq, Store.set]

/-- Waves carried through interfaces `a+1 .. b`: amplitudes just below interface `a` and just below
interface `b`. -/
def Chain (E : Env K) (a : ℕ) : ℕ → Amp K → Amp K → Amp K → Amp K → Prop
  | 0, d, u, d', u' => d = d' ∧ u = u'
  | n + 1, d, u, d', u' => ∃ x y, Chain E a n d u x y ∧
      ∃ P S, ifaceV E (a + n + 1) P S ∧ Scat (respV E (a + n + 1) P S) x y d' u'

theorem ifaceV_unique {E : Env K} {iy : ℕ} {P P' : PSV K} {S S' : SH K} (h : ifaceV E iy P S)
    (h' : ifaceV E iy P' S') : P = P' ∧ S = S' := by
  unfold ifaceV at h h'
  split at h <;> rename_i hc
  · rw [if_pos hc] at h'
    obtain ⟨a, b⟩ := h; obtain ⟨a', b'⟩ := h'
    rw [a] at a'; rw [b] at b'
    injection a' with a'; injection b' with b'
    exact ⟨a', b'⟩
  · rw [if_neg hc] at h'
    exact ⟨h.1.trans h'.1.symm, h.2.trans h'.2.symm⟩

/-- `M` has the scattering of interfaces `a+1 .. a+n`. -/
def Rep (E : Env K) (M : RTM K) (a n : ℕ) : Prop :=
  ∀ d u d' u', Scat M d u d' u' ↔ Chain E a n d u d' u'

theorem scat_reset (d u d' u' : Amp K) : Scat (resetM : RTM K) d u d' u' ↔ d = d' ∧ u = u' := by
  obtain ⟨d1, d2⟩ := d; obtain ⟨u1, u2⟩ := u; obtain ⟨d1', d2'⟩ := d'; obtain ⟨u1', u2'⟩ := u'
  simp only [Scat, Scatter, ScatterSH, resetM, eye_eq, Matrix.zero_mulVec, Matrix.one_mulVec, zero_add, add_zero,
    zero_mul, one_mul, Prod.mk.injEq]
  constructor
  · rintro ⟨⟨rfl, rfl⟩, rfl, rfl⟩; simp
  · rintro ⟨⟨rfl, rfl⟩, rfl, rfl⟩; simp

theorem rep_reset (E : Env K) (a : ℕ) : Rep E (resetM : RTM K) a 0 := fun d u d' u' => scat_reset d u d' u'

/-- What a variant must satisfy for `grt_delay_GRT_matrix` to stand for the recursion with the
transparent interface (proved for the dynamic variant in `dyn_good`). -/
def Good (E : Env K) : Prop :=
  E.dyn = true → ∀ iy (M : RTM K) d u d'' u'', Scat (delG E iy M) d u d'' u'' ↔
    ∃ d' u', Scat M d u d' u' ∧ Scat (respV E iy transparent transparentSH) d' u' d'' u''

theorem rep_step {E : Env K} {M N : RTM K} {a n : ℕ} {P : PSV K} {S : SH K} (h : Rep E M a n)
    (hv : ifaceV E (a + n + 1) P S)
    (hN : ∀ d u d'' u'', Scat N d u d'' u'' ↔
      ∃ d' u', Scat M d u d' u' ∧ Scat (respV E (a + n + 1) P S) d' u' d'' u'') : Rep E N a (n + 1) := by
  intro d u d'' u''
  rw [hN]
  constructor
  · rintro ⟨x, y, h1, h2⟩; exact ⟨x, y, (h _ _ _ _).1 h1, P, S, hv, h2⟩
  · rintro ⟨x, y, h1, P', S', hv', h2⟩
    obtain ⟨rfl, rfl⟩ := ifaceV_unique hv hv'
    exact ⟨x, y, (h _ _ _ _).2 h1, h2⟩

theorem accum_go {E : Env K} (hE : Good E) {p : Ptr} {a n : ℕ} {s s' : Store K} {P : PSV K} {S : SH K} {last : Bool}
    (hp : p ≠ pM) (hv : ifaceV E (a + n + 1) P S) (hM : s pM = respV E (a + n + 1) P S)
    (hlast : last = true → a + n + 1 = E.isrc ∨ a + n + 1 = E.ircv)
    (hr : n ≠ 0 → Rep E (s p) a n) {first : Bool} (hf : first = true ↔ n = 0)
    (h : accum E p first last (a + n + 1) s = .go s') :
    Rep E (s' p) a (n + 1) ∧ ∀ q, q ≠ p → s' q = s q := by
  unfold accum at h
  split at h
  · rename_i e
    have hn : n = 0 := hf.1 e
    injection h with h
    subst h
    refine ⟨?_, fun q hq => by simp [Store.set, hq]⟩
    subst hn
    refine rep_step (M := resetM) (rep_reset E a) hv ?_
    intro d u d'' u''
    simp only [Store.set, if_true, hM, scat_reset]
    constructor
    · intro h; exact ⟨d, u, ⟨rfl, rfl⟩, h⟩
    · rintro ⟨_, _, ⟨rfl, rfl⟩, h⟩; exact h
  · rename_i e
    have hn : n ≠ 0 := fun q => e (hf.2 q)
    split at h
    · rename_i hd
      injection h with h
      subst h
      simp only [Bool.and_eq_true] at hd
      have hPS : P = transparent ∧ S = transparentSH := by
        unfold ifaceV at hv
        rw [if_neg] at hv
        · exact hv
        · rcases hlast hd.2 with h | h <;> simp [hd.1, h]
      obtain ⟨rfl, rfl⟩ := hPS
      refine ⟨rep_step (hr hn) hv ?_, fun q hq => by simp [Store.set, hq]⟩
      intro d u d'' u''
      simp only [Store.set, if_true]
      exact hE hd.1 _ _ _ _ _ _
    · unfold check at h
      split at h
      · rename_i hok
        injection h with h
        subst h
        refine ⟨rep_step (hr hn) hv ?_, fun q hq => recRT_frame hp hq hok⟩
        intro d u d'' u''
        rw [recRT_scat hp hok, hM]
      · cases h

/-- Loop invariant: after the round for `iy`, the three accumulators represent the interfaces passed. -/
structure Inv (E : Env K) (iy : ℕ) (s : Store K) : Prop where
  fa : Rep E (s pFA) 0 (min iy E.imin)
  rs : Rep E (s pRS) E.imin (min iy E.imax - E.imin)
  bl : Rep E (s pBL) E.imax (iy - E.imax)
  top : s pTop = resetM
  bot : s pBot = resetM

theorem body_go {E : Env K} (hE : Good E) {iy : ℕ} {s s' : Store K} (hi : Inv E iy s)
    (h : body E (iy + 1) s = .go s') : Inv E (iy + 1) s' := by
  unfold body at h
  have hmm : E.imin ≤ E.imax := min_le_max
  rcases hl : layerM E (iy + 1) s with _ | s1 | s1
  · rw [hl] at h; cases h
  · rw [hl] at h; cases h
  rw [hl] at h
  simp only [Res.bind] at h
  obtain ⟨⟨P, S, hv, hM⟩, hfr⟩ := layerM_go hl
  have h0 := hfr pFA (by decide); have h1 := hfr pRS (by decide); have h2 := hfr pBL (by decide)
  have h3 := hfr pTop (by decide); have h4 := hfr pBot (by decide)
  split at h
  · rename_i hc
    have e1 : min iy E.imin = iy := by omega
    have hv' : ifaceV E (0 + iy + 1) P S := by rwa [Nat.zero_add]
    have hM' : s1 pM = respV E (0 + iy + 1) P S := by rwa [Nat.zero_add]
    have h' : accum E pFA (iy + 1 == 1) (iy + 1 == E.imin) (0 + iy + 1) s1 = .go s' := by rwa [Nat.zero_add]
    obtain ⟨r, fr⟩ := accum_go hE (by decide) hv' hM' (by
        simp only [beq_iff_eq, Nat.zero_add]; intro h
        rcases le_total E.isrc E.ircv with g | g
        · left; rw [h, Env.imin, min_eq_left g]
        · right; rw [h, Env.imin, min_eq_right g])
      (by intro _; rw [h0]; have := hi.fa; rwa [e1] at this) (by simp) h'
    constructor
    · rwa [show min (iy + 1) E.imin = iy + 1 by omega]
    · rw [fr pRS (by decide), h1, show min (iy + 1) E.imax - E.imin = min iy E.imax - E.imin by omega]; exact hi.rs
    · rw [fr pBL (by decide), h2, show iy + 1 - E.imax = iy - E.imax by omega]; exact hi.bl
    · rw [fr pTop (by decide), h3]; exact hi.top
    · rw [fr pBot (by decide), h4]; exact hi.bot
  · rename_i hc
    split at h
    · rename_i hc2
      have e0 : E.imin + (iy - E.imin) + 1 = iy + 1 := by omega
      have e1 : min iy E.imax - E.imin = iy - E.imin := by omega
      rw [← e0] at hv hM
      have h' : accum E pRS (iy + 1 == E.imin + 1) (iy + 1 == E.imax) (E.imin + (iy - E.imin) + 1) s1 = .go s' := by rwa [e0]
      obtain ⟨r, fr⟩ := accum_go hE (by decide) hv hM (by
          simp only [beq_iff_eq, e0]; intro h
          rcases le_total E.isrc E.ircv with g | g
          · right; rw [h, Env.imax, max_eq_right g]
          · left; rw [h, Env.imax, max_eq_left g])
        (by intro _; rw [h1]; have := hi.rs; rwa [e1] at this) (by simp; omega) h'
      constructor
      · rw [fr pFA (by decide), h0, show min (iy + 1) E.imin = min iy E.imin by omega]; exact hi.fa
      · rwa [show min (iy + 1) E.imax - E.imin = iy - E.imin + 1 by omega]
      · rw [fr pBL (by decide), h2, show iy + 1 - E.imax = iy - E.imax by omega]; exact hi.bl
      · rw [fr pTop (by decide), h3]; exact hi.top
      · rw [fr pBot (by decide), h4]; exact hi.bot
    · rename_i hc2
      have e0 : E.imax + (iy - E.imax) + 1 = iy + 1 := by omega
      rw [← e0] at hv hM
      have h' : accum E pBL (iy + 1 == E.imax + 1) false (E.imax + (iy - E.imax) + 1) s1 = .go s' := by rwa [e0]
      obtain ⟨r, fr⟩ := accum_go hE (by decide) hv hM (by simp)
        (by intro _; rw [h2]; exact hi.bl) (by simp; omega) h'
      constructor
      · rw [fr pFA (by decide), h0, show min (iy + 1) E.imin = min iy E.imin by omega]; exact hi.fa
      · rw [fr pRS (by decide), h1, show min (iy + 1) E.imax - E.imin = min iy E.imax - E.imin by omega]; exact hi.rs
      · rwa [show iy + 1 - E.imax = iy - E.imax + 1 by omega]
      · rw [fr pTop (by decide), h3]; exact hi.top
      · rw [fr pBot (by decide), h4]; exact hi.bot

theorem loop_go {E : Env K} (hE : Good E) (n iy : ℕ) {s s' : Store K} (hi : Inv E iy s)
    (h : loop E n (iy + 1) s = .go s') : Inv E (iy + n) s' := by
  induction n generalizing iy s with
  | zero => simp only [loop, Res.go.injEq] at h; subst h; exact hi
  | succ n ih =>
    simp only [loop] at h
    rcases hb : body E (iy + 1) s with _ | s1 | s1
    · rw [hb] at h; cases h
    · rw [hb] at h; cases h
    rw [hb] at h
    have := ih (iy + 1) (body_go hE hi hb) h
    rwa [Nat.add_right_comm, Nat.add_assoc] at this

end GRT.Kernel
