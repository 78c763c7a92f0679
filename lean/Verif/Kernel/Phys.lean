import Verif.Kernel.Props
import Verif.Layer.Source
import Verif.Static.Props

/-! C57 in physical terms: what the dynamic and the static kernel return is the displacement (and its
depth derivative) at the receiver of a field that obeys the boundary conditions, is continuous across
every interface and jumps at the source as the point source requires. -/

set_option linter.unusedSectionVars false

namespace GRT.Kernel

open GRT.RT GRT.Layer Matrix

section inst
variable {K : Type*} [Field K] [CharZero K] [DecidableEq K]

/-- In the dynamic variant `grt_delay_GRT_matrix` is the recursion with a transparent interface. -/
theorem dyn_good (I : DynIn K) : Good (dynEnv I) := by
  intro _ iy M d u d'' u''
  have e1 : Scat (delG (dynEnv I) iy M) d u d'' u'' ↔
      Scatter (ofParts (delayGRT_PSV (I.exa (iy-1)) (I.exb (iy-1)) (getP M)) (getS M)) d.1 u.1 d''.1 u''.1 ∧
      ScatterSH (ofParts (getP M) (delayGRT_SH (I.exb (iy-1)) (getS M))) d.2 u.2 d''.2 u''.2 := by
    rfl
  have e2 : ∀ d' u', Scat M d u d' u' ↔ Scatter (ofParts (getP M) (getS M)) d.1 u.1 d'.1 u'.1 ∧
      ScatterSH (ofParts (getP M) (getS M)) d.2 u.2 d'.2 u'.2 := fun d' u' => Iff.rfl
  have e3 : ∀ d' u', Scat (respV (dynEnv I) iy transparent transparentSH) d' u' d'' u'' ↔
      Scatter (ofParts (delayPSV (I.exa (iy-1)) (I.exb (iy-1)) transparent) transparentSH) d'.1 u'.1 d''.1 u''.1 ∧
      ScatterSH (ofParts transparent (delaySH (I.exb (iy-1)) transparentSH)) d'.2 u'.2 d''.2 u''.2 := fun d' u' => Iff.rfl
  rw [e1]
  simp only [e2, e3]
  constructor
  · rintro ⟨h1, h2⟩
    obtain ⟨w, h3, h4⟩ := (delayGRT_scatter _ _ _ _ _ _ _ _).1 h1
    refine ⟨(w, M.TDL * d.2 + M.RUL * (I.exb (iy-1) * u''.2)), (phase (I.exa (iy-1)) (I.exb (iy-1)) u''.1, I.exb (iy-1) * u''.2), ⟨h3, ?_⟩, ?_, ?_⟩
    · obtain ⟨a, b⟩ := h2
      simp only [ofParts, delayGRT_SH, getS] at a b
      exact ⟨by simp only [ofParts, getS]; rw [a]; ring, rfl⟩
    · rw [delay_scatter]
      exact ⟨u''.1, (transparent_scatter _ _ _ _ _).2 ⟨rfl, h4⟩, rfl⟩
    · obtain ⟨a, b⟩ := h2
      simp only [ofParts, delayGRT_SH, getS] at a b
      simp only [ScatterSH, ofParts, delaySH, transparentSH]
      constructor
      · ring
      · rw [b]; ring
  · rintro ⟨d', u', ⟨h1, h2⟩, h3, h4⟩
    obtain ⟨w, h5, h6⟩ := (delay_scatter _ _ _ _ _ _ _ _).1 h3
    rw [transparent_scatter] at h5
    obtain ⟨rfl, h7⟩ := h5
    constructor
    · rw [delayGRT_scatter]
      exact ⟨d'.1, by rw [← h6]; exact h1, h7⟩
    · obtain ⟨a, b⟩ := h2
      obtain ⟨a', b'⟩ := h4
      simp only [ofParts, getS, delaySH, transparentSH] at a b a' b'
      simp only [ScatterSH, ofParts, delayGRT_SH, getS]
      constructor
      · rw [a, a']; ring
      · rw [b', b, a']; ring

/-- The static variant never calls it. -/
theorem stat_good (I : StatIn K) : Good (statEnv I) := fun h => by cases h

/-- Displacement at the receiver, dynamic. -/
def dynV (I : DynIn K) : Recv K :=
  let l := I.lay I.ircv
  ⟨D11 I.k l, D12 I.k l, if l.liquid then 0 else I.k, if l.liquid then 0 else I.k⟩
/-- Its depth derivative. -/
def dynW (I : DynIn K) : Recv K :=
  let l := I.lay I.ircv
  ⟨D11z I.k l, D12z I.k l, if l.liquid then 0 else I.k * I.k * l.xb, if l.liquid then 0 else -(I.k * I.k * l.xb)⟩

theorem dyn_reads (I : DynIn K) : Reads (dynEnv I) (dynV I) (dynW I) := by
  constructor <;> intro RU RD <;>
    simp only [dynEnv, dynV, dynW, revPSV, revzPSV, revSH, revzSH, RT.add_eq, RT.mul_eq]
  · rfl
  · by_cases h1 : (I.lay I.ircv).liquid = true <;> by_cases h2 : I.ircvup = true <;> simp [h1, h2] <;> ring
  · rfl
  · by_cases h1 : (I.lay I.ircv).liquid = true <;> by_cases h2 : I.ircvup = true <;> simp [h1, h2] <;> ring

/-- Displacement at the receiver, static. -/
def statV : Recv K := ⟨Static.D11, Static.D12, 1, 1⟩
/-- Its depth derivative. -/
def statW (I : StatIn K) : Recv K :=
  ⟨Static.D11z I.k (I.lay I.ircv).delta, Static.D12z I.k (I.lay I.ircv).delta, I.k, -I.k⟩

theorem stat_reads (I : StatIn K) : Reads (statEnv I) statV (statW I) := by
  constructor <;> intro RU RD <;>
    simp only [statEnv, statV, statW, Static.revPSV, Static.revzPSV, Static.revSH, Static.revzSH, RT.add_eq, RT.mul_eq]
  · rfl
  · by_cases h2 : I.ircvup = true <;> simp [h2]
  · rfl
  · by_cases h2 : I.ircvup = true <;> simp [h2] <;> ring

end inst

/-! ### The dynamic field -/

open Complex

section dyn

/-- P-SV field of layer `i`, `z` below its top. -/
noncomputable def fieldAt (I : DynIn ℂ) (m : ℕ → Medium ℂ) (d u : ℕ → Amp ℂ) (i : ℕ) (z : ℝ) : MS ℂ :=
  psvField I.k (m i) (I.lay i) (u i).1 (d i).1 z
/-- SH field of layer `i`. -/
noncomputable def fieldSH (I : DynIn ℂ) (m : ℕ → Medium ℂ) (d u : ℕ → Amp ℂ) (i : ℕ) (z : ℝ) : SHS ℂ :=
  shField I.k (m i) (I.lay i) (u i).2 (d i).2 z

/-- A field in the layered medium excited by source `t`: `thk i` is the thickness of layer `i`. -/
structure DynField (I : DynIn ℂ) (thk : ℕ → ℝ) (m : ℕ → Medium ℂ) (t : Src) (d u : ℕ → Amp ℂ) : Prop where
  top : match I.top with
    | .free => TractionFree (fieldAt I m d u 0 0) ∧ (fieldSH I m d u 0 0).t = 0
    | .rigid => Clamped (I.lay 0) (fieldAt I m d u 0 0) ∧ ((I.lay 0).liquid = false → (fieldSH I m d u 0 0).v = 0)
    | .half => d 0 = 0
  contact : ∀ i, i + 1 < (dynEnv I).maxidx → i + 1 ≠ I.isrc →
    Contact (I.lay i) (I.lay (i+1)) (fieldAt I m d u i (thk i)) (fieldAt I m d u (i+1) 0) ∧
    ContactSH (I.lay i) (I.lay (i+1)) (fieldSH I m d u i (thk i)) (fieldSH I m d u (i+1) 0)
  source : (I.lay I.isrc).liquid = false →
    let f := 2 * (m I.isrc).rho * (I.c * I.k)^2
    let a := fieldAt I m d u (I.isrc - 1) (thk (I.isrc - 1))
    let b := fieldAt I m d u I.isrc 0
    let j := jump I.k ((I.c * I.k)^2) (m I.isrc) (srcForce I.k f t)
    let a' := fieldSH I m d u (I.isrc - 1) (thk (I.isrc - 1))
    let b' := fieldSH I m d u I.isrc 0
    let j' := jumpSH (m I.isrc) (srcForce I.k f t)
    (b.q - a.q = j.q ∧ b.w - a.w = j.w ∧ b.s - a.s = j.s ∧ b.t - a.t = j.t) ∧ (b'.v - a'.v = j'.v ∧ b'.t - a'.t = j'.t)
  sourceLiquid : (I.lay I.isrc).liquid = true → t = .EX →
    let f := 2 * (m I.isrc).rho * (I.c * I.k)^2
    let a := fieldAt I m d u (I.isrc - 1) (thk (I.isrc - 1))
    let b := fieldAt I m d u I.isrc 0
    b.s - a.s = 0 ∧ b.t - a.t = 0 ∧ b.w - a.w = -f / (m I.isrc).lam
  bottom : if max I.isrc I.ircv + 1 < I.nlay then
      (match I.bot with
      | .free => TractionFree (fieldAt I m d u (I.nlay - 2) (thk (I.nlay - 2))) ∧
          (fieldSH I m d u (I.nlay - 2) (thk (I.nlay - 2))).t = 0
      | .rigid => Clamped (I.lay (I.nlay - 2)) (fieldAt I m d u (I.nlay - 2) (thk (I.nlay - 2))) ∧
          ((I.lay (I.nlay - 2)).liquid = false → (fieldSH I m d u (I.nlay - 2) (thk (I.nlay - 2))).v = 0)
      | .half => ∃ D : Amp ℂ,
          Contact (I.lay (I.nlay - 2)) (I.lay (I.nlay - 1)) (fieldAt I m d u (I.nlay - 2) (thk (I.nlay - 2)))
            (psvField I.k (m (I.nlay - 1)) (I.lay (I.nlay - 1)) 0 D.1 0) ∧
          ContactSH (I.lay (I.nlay - 2)) (I.lay (I.nlay - 1)) (fieldSH I m d u (I.nlay - 2) (thk (I.nlay - 2)))
            (shField I.k (m (I.nlay - 1)) (I.lay (I.nlay - 1)) 0 D.2 0))
    else u (I.nlay - 1) = 0

/-- The input is what `grt_mod1d_state_k` prepares: layer parameters belong to the media, the factors are
`exp(-k thk x)`, and the layers on the two sides of a virtual interface are the same. -/
structure DynOk (I : DynIn ℂ) (thk : ℕ → ℝ) (m : ℕ → Medium ℂ) : Prop where
  fits : ∀ i, i < I.nlay → Fits I.c (I.lay i) (m i)
  exa : ∀ i, I.exa i = exp (-I.k * thk i * (I.lay i).xa)
  exb : ∀ i, I.exb i = exp (-I.k * thk i * (I.lay i).xb)
  src : I.lay (I.isrc - 1) = I.lay I.isrc ∧ m (I.isrc - 1) = m I.isrc
  rcv : I.lay (I.ircv - 1) = I.lay I.ircv ∧ m (I.ircv - 1) = m I.ircv
  lam : (m I.isrc).lam + 2 * (m I.isrc).mu ≠ 0

theorem psvField_phase (k : ℂ) (m : Medium ℂ) (l : Lay ℂ) (d w : Fin 2 → ℂ) (thk : ℝ) :
    psvField k m l (phase (exp (-k * thk * l.xa)) (exp (-k * thk * l.xb)) w) d thk =
      psvState k m l w (phase (exp (-k * thk * l.xa)) (exp (-k * thk * l.xb)) d) := by
  have hd : dnAt k l d thk = phase (exp (-k * thk * l.xa)) (exp (-k * thk * l.xb)) d := by
    have f : ∀ x : ℂ, -(k * x * thk) = -k * thk * x := fun x => by ring
    ext i; fin_cases i <;> simp only [dnAt, phase, f] <;> simp [mul_comm (d _)]
  have hu : upAt k l (phase (exp (-k * thk * l.xa)) (exp (-k * thk * l.xb)) w) thk = w := by
    have f : ∀ x : ℂ, exp (-k * thk * x) * exp (k * x * thk) = 1 := fun x => by
      rw [← Complex.exp_add, ← Complex.exp_zero]; congr 1; ring
    ext i; fin_cases i <;> simp only [upAt, phase] <;>
      simp only [Matrix.cons_val_zero, Matrix.cons_val_one, Fin.zero_eta, Fin.mk_one, Fin.isValue]
    · linear_combination w 0 * f l.xa
    · linear_combination w 1 * f l.xb
  rw [psvField, hd, hu]

theorem shField_phase (k : ℂ) (m : Medium ℂ) (l : Lay ℂ) (d w : ℂ) (thk : ℝ) :
    shField k m l (exp (-k * thk * l.xb) * w) d thk = shState k m l w (exp (-k * thk * l.xb) * d) := by
  have f : exp (-k * thk * l.xb) * exp (k * l.xb * thk) = 1 := by
    rw [← Complex.exp_add, ← Complex.exp_zero]; congr 1; ring
  have g : exp (-(k * l.xb * thk)) = exp (-k * thk * l.xb) := by congr 1; ring
  rw [shField, g, mul_comm d]
  congr 1
  linear_combination w * f

theorem shField_zero (k : ℂ) (m : Medium ℂ) (l : Lay ℂ) (u d : ℂ) : shField k m l u d 0 = shState k m l u d := by
  simp [shField]

/-- The delayed SH response. -/
theorem delaySH_scatter (eb : ℂ) (p : PSV ℂ) (s : SH ℂ) (d u d' u' : ℂ) :
    ScatterSH (ofParts p (delaySH eb s)) d u d' u' ↔
      ∃ w, ScatterSH (ofParts p s) (eb * d) w d' u' ∧ u = eb * w := by
  simp only [ScatterSH, ofParts, delaySH]
  constructor
  · rintro ⟨a, b⟩
    exact ⟨s.RDL * (eb * d) + s.TUL * u', ⟨rfl, by rw [b]; ring⟩, by rw [a]; ring⟩
  · rintro ⟨w, ⟨a, b⟩, c⟩
    exact ⟨by rw [c, a]; ring, by rw [b]; ring⟩

theorem contactSH_delay {c k : ℂ} {l1 l2 : Lay ℂ} {m1 m2 : Medium ℂ} {M : SH ℂ} (p : PSV ℂ)
    (h1 : Fits c l1 m1) (h2 : Fits c l2 m2) (hM : rtSH l1 l2 = .ok M) (thk : ℝ) (d u d' u' : ℂ)
    (hs : ScatterSH (ofParts p (delaySH (exp (-k * thk * l1.xb)) M)) d u d' u') :
    ContactSH l1 l2 (shField k m1 l1 u d thk) (shField k m2 l2 u' d' 0) := by
  obtain ⟨w, ⟨e1, e2⟩, rfl⟩ := (delaySH_scatter _ _ _ _ _ _ _).1 hs
  rw [shField_phase, shField_zero, e1, e2]
  exact C13_interface_SH (k := k) h1 h2 hM _ _

/-- Across a transparent interface inside one medium the field is continuous, whatever the waves. -/
theorem transparent_field {I : DynIn ℂ} {thk : ℕ → ℝ} {m : ℕ → Medium ℂ} (h : DynOk I thk m) {i : ℕ}
    {d u d' u' : Amp ℂ} (hs : Scat (respV (dynEnv I) (i+1) transparent transparentSH) d u d' u') :
    psvField I.k (m i) (I.lay i) u.1 d.1 (thk i) = psvState I.k (m i) (I.lay i) u'.1 d'.1 ∧
    shField I.k (m i) (I.lay i) u.2 d.2 (thk i) = shState I.k (m i) (I.lay i) u'.2 d'.2 := by
  obtain ⟨h1, h2⟩ := hs
  have h1' : Scatter (ofParts (delayPSV (exp (-I.k * thk i * (I.lay i).xa)) (exp (-I.k * thk i * (I.lay i).xb)) transparent) transparentSH)
      d.1 u.1 d'.1 u'.1 := by
    rw [← h.exa, ← h.exb]; exact h1
  have h2' : ScatterSH (ofParts transparent (delaySH (exp (-I.k * thk i * (I.lay i).xb)) transparentSH)) d.2 u.2 d'.2 u'.2 := by
    rw [← h.exb]; exact h2
  obtain ⟨w, hw, e⟩ := (delay_scatter _ _ _ _ _ _ _ _).1 h1'
  rw [transparent_scatter] at hw
  obtain ⟨w2, hw2, e2⟩ := (delaySH_scatter _ _ _ _ _ _ _).1 h2'
  simp only [ScatterSH, ofParts, transparentSH, zero_mul, one_mul, zero_add, add_zero] at hw2
  rw [e, e2, psvField_phase, shField_phase, hw.1, hw.2, hw2.1, hw2.2]
  exact ⟨rfl, rfl⟩

theorem contact_refl (l : Lay ℂ) (y : MS ℂ) : Contact l l y y := ⟨rfl, rfl, rfl, fun _ _ => rfl⟩

/-- The amplitudes of C57 are a field. -/
theorem waves_field {I : DynIn ℂ} {thk : ℕ → ℝ} {m : ℕ → Medium ℂ} (h : DynOk I thk m) (hw : WF (dynEnv I))
    {t : Src} {S : SrcRow ℂ} (hS : (dynEnv I).src t = .ok S) {d u : ℕ → Amp ℂ} (hW : Waves (dynEnv I) S d u) :
    DynField I thk m t d u := by
  have hlt : max I.isrc I.ircv < I.nlay := hw.lt
  have hone : 1 ≤ min I.isrc I.ircv := hw.one
  have hM : (dynEnv I).maxidx = if max I.isrc I.ircv + 1 = I.nlay then I.nlay else I.nlay - 1 := rfl
  have hmax : (dynEnv I).maxidx ≤ I.nlay := by
    rw [hM]; split <;> omega
  have hsrcmax : max I.isrc I.ircv < (dynEnv I).maxidx := by
    rw [hM]; split <;> omega
  -- the source interface
  have hsrc : Scat (respV (dynEnv I) (I.isrc - 1 + 1) transparent transparentSH) (d (I.isrc - 1)) (u (I.isrc - 1))
      (d I.isrc - (S.D, S.DL)) (u I.isrc + (S.U, S.UL)) := by
    obtain ⟨P, Q, hv, hs⟩ := hW.iface (I.isrc - 1) (by omega)
    have e : I.isrc - 1 + 1 = I.isrc := by omega
    rw [e] at hs hv ⊢
    have : P = transparent ∧ Q = transparentSH := by
      simpa [ifaceV, dynEnv] using hv
    rw [this.1, this.2] at hs
    simpa [dynEnv] using hs
  have hfs := transparent_field h hsrc
  rw [h.src.1, h.src.2] at hfs
  have eD : (d I.isrc).1 = (d I.isrc - (S.D, S.DL)).1 + S.D := by simp
  have eD2 : (d I.isrc).2 = (d I.isrc - (S.D, S.DL)).2 + S.DL := by simp
  have eU : (u I.isrc + (S.U, S.UL)).1 = (u I.isrc).1 + S.U := by simp
  have eU2 : (u I.isrc + (S.U, S.UL)).2 = (u I.isrc).2 + S.UL := by simp
  constructor
  · obtain ⟨R, hR, h1, h2⟩ := hW.top
    have hf := h.fits 0 (by omega)
    cases ht : I.top <;> simp only [dynEnv, ht] at hR h2 <;> simp only [fieldAt, fieldSH, psvField_zero, shField_zero]
    · rw [h1, h2]; exact ⟨C14_free_top hf hR _, (C14_SH hf _).1⟩
    · rw [h1, h2]; exact ⟨C14_rigid_top hf hR _, fun e => ((C14_SH hf _).2.2 e).1⟩
    · injection hR with hR
      subst hR
      exact Prod.ext (by rw [h1]; simp) (by rw [h2]; simp)
  · intro i hi hne
    obtain ⟨P, Q, hv, hs⟩ := hW.iface i hi
    have hne' : ¬ (i + 1 = (dynEnv I).isrc) := hne
    rw [if_neg hne', if_neg hne'] at hs
    by_cases hr : i + 1 = I.ircv
    · have : P = transparent ∧ Q = transparentSH := by
        simpa [ifaceV, dynEnv, hr] using hv
      rw [this.1, this.2] at hs
      have hf := transparent_field h hs
      have e1 : I.lay i = I.lay (i+1) ∧ m i = m (i+1) := by
        have := h.rcv; rw [← hr] at this; simpa using this
      simp only [fieldAt, fieldSH, psvField_zero, shField_zero]
      rw [hf.1, hf.2, e1.1, e1.2]
      exact ⟨contact_refl _ _, rfl, fun _ _ => rfl⟩
    · have hv' : rtPSV I.c (I.lay i) (I.lay (i+1)) = .ok P ∧ rtSH (I.lay i) (I.lay (i+1)) = .ok Q := by
        simpa [ifaceV, dynEnv, hr, hne] using hv
      have f1 := h.fits i (by omega)
      have f2 := h.fits (i+1) (by omega)
      constructor
      · refine C15_delay_contact (delaySH (I.exb i) Q) f1 f2 hv'.1 (thk i) _ _ _ _ ?_
        rw [← h.exa, ← h.exb]; exact hs.1
      · refine contactSH_delay (delayPSV (I.exa i) (I.exb i) P) f1 f2 hv'.2 (thk i) _ _ _ _ ?_
        rw [← h.exb]; exact hs.2
  · intro e
    have hf := h.fits I.isrc (by omega)
    have r1 := C17_jump_PSV (c := I.c) (k := I.k) hf e h.lam hS (u I.isrc).1 (d I.isrc - (S.D, S.DL)).1
    have r2 := C17_jump_SH (c := I.c) (k := I.k) hf e hS (u I.isrc).2 (d I.isrc - (S.D, S.DL)).2
    simp only [fieldAt, fieldSH, psvField_zero, shField_zero]
    rw [h.src.1, h.src.2, hfs.1, hfs.2, eU, eU2]
    rw [← eD] at r1
    rw [← eD2] at r2
    exact ⟨r1, r2⟩
  · rintro e rfl
    have hf := h.fits I.isrc (by omega)
    have hl : (m I.isrc).lam ≠ 0 := by
      have := h.lam; rw [hf.liq e] at this; simpa using this
    have r1 := C17_jump_liquid (c := I.c) (k := I.k) hf e hl hS (u I.isrc).1 (d I.isrc - (S.D, S.DL)).1
    simp only [fieldAt, psvField_zero]
    rw [h.src.1, h.src.2, hfs.1, eU]
    rw [← eD] at r1
    exact ⟨r1.1, r1.2.1, r1.2.2.1⟩
  · have hb := hW.bottom
    by_cases hc : max I.isrc I.ircv + 1 < I.nlay
    swap
    · rw [if_neg hc]
      have hc' : ¬ ((dynEnv I).imax + 1 < (dynEnv I).nlay) := hc
      rw [if_neg hc'] at hb
      exact hb
    rw [if_pos hc]
    have hc' : (dynEnv I).imax + 1 < (dynEnv I).nlay := hc
    rw [if_pos hc'] at hb
    obtain ⟨R, r, hR, hr, h1, h2⟩ := hb
    have hf := h.fits (I.nlay - 2) (by omega)
    have h1' : (u (I.nlay - 2)).1 = (delayPSV (I.exa (I.nlay-2)) (I.exb (I.nlay-2)) ⟨R, 0, 0, 0⟩).RD *ᵥ (d (I.nlay - 2)).1 := h1
    have h2' : (u (I.nlay - 2)).2 = r * (I.exb (I.nlay-2) * I.exb (I.nlay-2)) * (d (I.nlay - 2)).2 := h2
    have hu : ∃ w, w = R *ᵥ phase (I.exa (I.nlay-2)) (I.exb (I.nlay-2)) (d (I.nlay - 2)).1 ∧
        (u (I.nlay - 2)).1 = phase (I.exa (I.nlay-2)) (I.exb (I.nlay-2)) w := by
      have : Scatter (ofParts (delayPSV (I.exa (I.nlay-2)) (I.exb (I.nlay-2)) ⟨R, 0, 0, 0⟩) transparentSH)
          (d (I.nlay-2)).1 (u (I.nlay-2)).1 0 0 := by
        refine ⟨by rw [h1']; simp [ofParts], ?_⟩
        ext i; fin_cases i <;> simp [ofParts, delayPSV, dotProduct]
      obtain ⟨w, ⟨a, -⟩, b⟩ := (delay_scatter _ _ _ _ _ _ _ _).1 this
      exact ⟨w, by rw [a]; simp [ofParts], b⟩
    obtain ⟨w, hw1, hw2⟩ := hu
    have hp : psvField I.k (m (I.nlay-2)) (I.lay (I.nlay-2)) (u (I.nlay-2)).1 (d (I.nlay-2)).1 (thk (I.nlay-2)) =
        psvState I.k (m (I.nlay-2)) (I.lay (I.nlay-2)) w (phase (I.exa (I.nlay-2)) (I.exb (I.nlay-2)) (d (I.nlay - 2)).1) := by
      rw [hw2, h.exa, h.exb, psvField_phase]
    have hq : shField I.k (m (I.nlay-2)) (I.lay (I.nlay-2)) (u (I.nlay-2)).2 (d (I.nlay-2)).2 (thk (I.nlay-2)) =
        shState I.k (m (I.nlay-2)) (I.lay (I.nlay-2)) (r * (I.exb (I.nlay-2) * (d (I.nlay - 2)).2)) (I.exb (I.nlay-2) * (d (I.nlay - 2)).2) := by
      have e : (u (I.nlay-2)).2 = I.exb (I.nlay-2) * (r * (I.exb (I.nlay-2) * (d (I.nlay - 2)).2)) := by rw [h2']; ring
      rw [e, h.exb, shField_phase]
    simp only [fieldAt, fieldSH, hp, hq]
    rw [hw1]
    cases ht : I.bot <;> simp only [dynEnv, ht, Out.ok.injEq] at hR hr
    · subst hr
      exact ⟨C14_free_bottom hf hR _, (C14_SH hf _).2.1⟩
    · subst hr
      exact ⟨C14_rigid_bottom hf hR _, fun e => ((C14_SH hf _).2.2 e).2⟩
    · have f2 := h.fits (I.nlay - 1) (by omega)
      rcases hP : rtPSV I.c (I.lay (I.nlay-2)) (I.lay (I.nlay-1)) with _ | _ | P <;> rw [hP] at hR <;> simp [outMap] at hR
      rcases hQ : rtSH (I.lay (I.nlay-2)) (I.lay (I.nlay-1)) with _ | _ | Q <;> rw [hQ] at hr <;> simp [outMap] at hr
      subst hR hr
      refine ⟨(P.TD *ᵥ phase (I.exa (I.nlay-2)) (I.exb (I.nlay-2)) (d (I.nlay - 2)).1, Q.TDL * (I.exb (I.nlay-2) * (d (I.nlay - 2)).2)), ?_, ?_⟩
      · have := C13_interface_PSV (k := I.k) hf f2 hP (phase (I.exa (I.nlay-2)) (I.exb (I.nlay-2)) (d (I.nlay - 2)).1) 0
        simpa [psvField_zero] using this
      · have := C13_interface_SH (k := I.k) hf f2 hQ (I.exb (I.nlay-2) * (d (I.nlay - 2)).2) 0
        simpa [shField_zero] using this

/-- C57, dynamic: when the kernel goes through, its rows are the displacement at the receiver, and its
depth derivative, of a field with the prescribed boundary, interface and source conditions. -/
theorem C57_dynamic_field {I : DynIn ℂ} {thk : ℕ → ℝ} {m : ℕ → Medium ℂ} (h : DynOk I thk m) (hw : WF (dynEnv I))
    {s : Store ℂ} {st : Bool} (ht : ∃ R, (dynEnv I).topP = .ok R)
    (hb : (dynEnv I).imax + 1 < (dynEnv I).nlay → ∃ R, (dynEnv I).botP = .ok R) {r : Kern ℂ}
    (hr : kernel (dynEnv I) s st = .ok r) (hdone : r.done = true) (t : Src) (hz : I.atZero = false ∨ t ≠ .DS) :
    ∃ d u, DynField I thk m t d u ∧
      (r.g.u t).qw 0 = (fieldAt I m d u I.ircv 0).q ∧ (r.g.u t).qw 1 = (fieldAt I m d u I.ircv 0).w ∧
      HasDerivAt (fun z => (fieldAt I m d u I.ircv z).q) ((r.g.uz t).qw 0) 0 ∧
      HasDerivAt (fun z => (fieldAt I m d u I.ircv z).w) ((r.g.uz t).qw 1) 0 ∧
      ((I.lay I.ircv).liquid = false → (r.g.u t).v = (fieldSH I m d u I.ircv 0).v ∧
        HasDerivAt (fun z => (fieldSH I m d u I.ircv z).v) ((r.g.uz t).v) 0) ∧
      ((I.lay I.ircv).liquid = true → (r.g.u t).v = 0 ∧ (r.g.uz t).v = 0) := by
  obtain ⟨S, hS, ⟨d, u, hW⟩, hall⟩ := C57_kernel (dyn_good I) hw (dyn_reads I) ht hb hr hdone t hz
  obtain ⟨e1, e2⟩ := hall d u hW
  have e1' : r.g.u t = (dynV I).obs (d I.ircv) (u I.ircv) := e1
  have e2' : r.g.uz t = (dynW I).obs (d I.ircv) (u I.ircv) := e2
  refine ⟨d, u, waves_field h hw hS hW, ?_⟩
  have q := state_qw (k := I.k) (m I.ircv) (I.lay I.ircv) (u I.ircv).1 (d I.ircv).1
  have dq := C18_deriv_PSV (k := I.k) (m I.ircv) (I.lay I.ircv) (u I.ircv).1 (d I.ircv).1
  simp only [fieldAt, psvField_zero]
  rw [e1', e2']
  refine ⟨q.1.symm, q.2.symm, dq.1, dq.2, ?_, ?_⟩
  · intro e
    simp only [fieldSH, shField_zero, Recv.obs, dynV, dynW, e, Bool.false_eq_true, if_false, shState]
    refine ⟨by ring, ?_⟩
    have F := hasDerivAt_four (I.k * (I.lay I.ircv).xb) 0 (I.k * (u I.ircv).2) (I.k * (d I.ircv).2) 0 0 0
    simp only [shField, shState]
    convert F using 1
    · funext z; simp; ring
    · simp; ring
  · intro e
    simp [Recv.obs, dynV, dynW, e]

end dyn

/-! ### The static field -/

section stat
open Static (SFits stState stField stSH stField_zero stState_eq)

/-- Static P-SV field of layer `i`, `z` below its top. -/
noncomputable def statAt (I : StatIn ℂ) (m : ℕ → Medium ℂ) (d u : ℕ → Amp ℂ) (i : ℕ) (z : ℝ) : MS ℂ :=
  stField I.k (m i) (I.lay i).delta (u i).1 (d i).1 z
/-- Static SH field of layer `i`. -/
noncomputable def statSH (I : StatIn ℂ) (m : ℕ → Medium ℂ) (d u : ℕ → Amp ℂ) (i : ℕ) (z : ℝ) : SHS ℂ :=
  stSH I.k (m i).mu (exp (I.k * z)) (exp (-(I.k * z))) (u i).2 (d i).2

/-- A static field in the layered medium excited by source `t`. -/
structure StatField (I : StatIn ℂ) (thk : ℕ → ℝ) (m : ℕ → Medium ℂ) (t : Src) (d u : ℕ → Amp ℂ) : Prop where
  top : match I.top with
    | .free => ((statAt I m d u 0 0).s = 0 ∧ (statAt I m d u 0 0).t = 0) ∧ (statSH I m d u 0 0).t = 0
    | .rigid => ((statAt I m d u 0 0).q = 0 ∧ (statAt I m d u 0 0).w = 0) ∧ (statSH I m d u 0 0).v = 0
    | .half => d 0 = 0
  contact : ∀ i, i + 1 < (statEnv I).maxidx → i + 1 ≠ I.isrc →
    statAt I m d u i (thk i) = statAt I m d u (i+1) 0 ∧ statSH I m d u i (thk i) = statSH I m d u (i+1) 0
  source :
    let a := statAt I m d u (I.isrc - 1) (thk (I.isrc - 1))
    let b := statAt I m d u I.isrc 0
    let j := jump I.k 0 (m I.isrc) (srcForce I.k (-2 * (m I.isrc).mu) t)
    let a' := statSH I m d u (I.isrc - 1) (thk (I.isrc - 1))
    let b' := statSH I m d u I.isrc 0
    let j' := jumpSH (m I.isrc) (srcForce I.k (-2 * (m I.isrc).mu) t)
    (b.q - a.q = j.q ∧ b.w - a.w = j.w ∧ b.s - a.s = j.s ∧ b.t - a.t = j.t) ∧ (b'.v - a'.v = j'.v ∧ b'.t - a'.t = j'.t)
  bottom : if max I.isrc I.ircv + 1 < I.nlay then
      (let y := statAt I m d u (I.nlay - 2) (thk (I.nlay - 2))
       let y' := statSH I m d u (I.nlay - 2) (thk (I.nlay - 2))
       match I.bot with
      | .free => (y.s = 0 ∧ y.t = 0) ∧ y'.t = 0
      | .rigid => (y.q = 0 ∧ y.w = 0) ∧ y'.v = 0
      | .half => ∃ D : Amp ℂ, y = stField I.k (m (I.nlay - 1)) (I.lay (I.nlay - 1)).delta 0 D.1 0 ∧
          y' = stSH I.k (m (I.nlay - 1)).mu 1 1 0 D.2)
    else u (I.nlay - 1) = 0

/-- The input of the static kernel: solid layers, `x = k thk`, `ex = exp(-k thk)`. -/
structure StatOk (I : StatIn ℂ) (thk : ℕ → ℝ) (m : ℕ → Medium ℂ) : Prop where
  k0 : I.k ≠ 0
  fits : ∀ i, i < I.nlay → SFits (I.lay i) (m i)
  x : ∀ i, I.x i = I.k * thk i
  ex : ∀ i, I.ex i = exp (-(I.k * thk i))

theorem expE (z : ℂ) : exp (-z) * exp z = 1 := by rw [← Complex.exp_add]; simp

theorem SHS_ext {a b : SHS ℂ} (h1 : a.v = b.v) (h2 : a.t = b.t) : a = b := by
  cases a; cases b; simp_all

/-- Top boundary, both directions. -/
theorem stat_top_iff {k : ℂ} (hk : k ≠ 0) {l : Static.SLay ℂ} {m : Medium ℂ} (h : SFits l m) (u d : Fin 2 → ℂ) :
    (∀ R, Static.freeBoundPSV false 0 l.delta = .ok R →
      (d = R *ᵥ u ↔ (stState k m l.delta 0 1 1 u d).s = 0 ∧ (stState k m l.delta 0 1 1 u d).t = 0)) ∧
    (d = Static.rigidBoundPSV false 0 l.delta *ᵥ u ↔
      (stState k m l.delta 0 1 1 u d).q = 0 ∧ (stState k m l.delta 0 1 1 u d).w = 0) := by
  obtain ⟨c1, c2⟩ := Static.C14_static_top (k := k) h u
  have hmk : 2 * m.mu * k ≠ 0 := mul_ne_zero (mul_ne_zero two_ne_zero h.mu0) hk
  refine ⟨fun R hR => ⟨?_, ?_⟩, ?_, ?_⟩
  · rintro rfl; exact c1 R hR
  · intro hd
    have hc := c1 R hR
    have h0 : l.delta ≠ 0 := by
      intro h0; simp [Static.freeBoundPSV, h0] at hR
    simp only [stState_eq h] at hd hc
    generalize R *ᵥ u = v at hc
    have e1 := mul_left_cancel₀ hmk (hd.1.trans (hc.1.symm))
    have e2 := mul_left_cancel₀ hmk (hd.2.trans (hc.2.symm))
    have f1 : l.delta * d 1 = l.delta * v 1 := by linear_combination (1/2) * e1 + (1/2) * e2
    have f1' := mul_left_cancel₀ h0 f1
    have f0 : d 0 = v 0 := by linear_combination e1 - l.delta * f1'
    ext i; fin_cases i
    · exact f0
    · exact f1'
  · rintro rfl; exact c2
  · intro hd
    simp only [stState_eq h, Static.sq, Static.sw] at hd c2
    generalize Static.rigidBoundPSV false 0 l.delta *ᵥ u = v at c2 ⊢
    ext i; fin_cases i
    · show d 0 = v 0; linear_combination (1/2) * (hd.1 - c2.1) - (1/2) * (hd.2 - c2.2)
    · show d 1 = v 1; linear_combination -(1/2) * (hd.1 - c2.1) - (1/2) * (hd.2 - c2.2)

/-- Bottom boundary, both directions. -/
theorem stat_bot_iff {k x ex E : ℂ} (hE : ex * E = 1) (hk : k ≠ 0) {l : Static.SLay ℂ} {m : Medium ℂ} (h : SFits l m)
    (u d : Fin 2 → ℂ) :
    (∀ R, Static.freeBoundPSV true x l.delta = .ok R →
      (u = Static.botDelay ex R *ᵥ d ↔ (stState k m l.delta x E ex u d).s = 0 ∧ (stState k m l.delta x E ex u d).t = 0)) ∧
    (u = Static.botDelay ex (Static.rigidBoundPSV true x l.delta) *ᵥ d ↔
      (stState k m l.delta x E ex u d).q = 0 ∧ (stState k m l.delta x E ex u d).w = 0) := by
  obtain ⟨c1, c2⟩ := Static.C14_static_bottom (k := k) hE h d
  have hmk : 2 * m.mu * k ≠ 0 := mul_ne_zero (mul_ne_zero two_ne_zero h.mu0) hk
  have hE0 : E ≠ 0 := right_ne_zero_of_mul_eq_one hE
  refine ⟨fun R hR => ⟨?_, ?_⟩, ?_, ?_⟩
  · rintro rfl; exact c1 R hR
  · intro hd
    have hc := c1 R hR
    have h0 : l.delta ≠ 0 := by
      intro h0; simp [Static.freeBoundPSV, h0] at hR
    simp only [stState_eq h] at hd hc
    generalize Static.botDelay ex R *ᵥ d = v at hc ⊢
    have e1 := mul_left_cancel₀ hmk (hd.1.trans (hc.1.symm))
    have e2 := mul_left_cancel₀ hmk (hd.2.trans (hc.2.symm))
    have f1 : (E * l.delta) * u 1 = (E * l.delta) * v 1 := by linear_combination (1/2) * e1 - (1/2) * e2
    have f1' := mul_left_cancel₀ (mul_ne_zero hE0 h0) f1
    have f0 : E * u 0 = E * v 0 := by linear_combination e1 - E * l.delta * (1 - 2 * x) * f1'
    ext i; fin_cases i
    · exact mul_left_cancel₀ hE0 f0
    · exact f1'
  · rintro rfl; exact c2
  · intro hd
    simp only [stState_eq h, Static.sq, Static.sw] at hd c2
    generalize Static.botDelay ex (Static.rigidBoundPSV true x l.delta) *ᵥ d = v at c2 ⊢
    have f1 : E * u 1 = E * v 1 := by linear_combination -(1/2) * (hd.1 - c2.1) + (1/2) * (hd.2 - c2.2)
    have f1' := mul_left_cancel₀ hE0 f1
    have f0 : E * u 0 = E * v 0 := by linear_combination hd.1 - c2.1 - E * (-1 - 2 * l.delta * x) * f1'
    ext i; fin_cases i
    · exact mul_left_cancel₀ hE0 f0
    · exact f1'

/-- Across an interface: compatible with the computed response iff the fields agree. -/
theorem stat_iface_iff {I : StatIn ℂ} {thk : ℕ → ℝ} {m : ℕ → Medium ℂ} (h : StatOk I thk m) {i : ℕ} (hi : i + 1 < I.nlay)
    {P : PSV ℂ} {Q : SH ℂ} (hv : ifaceV (statEnv I) (i+1) P Q) (d u d' u' : Amp ℂ) :
    Scat (respV (statEnv I) (i+1) P Q) d u d' u' ↔
      stField I.k (m i) (I.lay i).delta u.1 d.1 (thk i) = stState I.k (m (i+1)) (I.lay (i+1)).delta 0 1 1 u'.1 d'.1 ∧
      stSH I.k (m i).mu (exp (I.k * thk i)) (exp (-(I.k * thk i))) u.2 d.2 = stSH I.k (m (i+1)).mu 1 1 u'.2 d'.2 := by
  have hv' : Static.rtPSV (I.k * thk i) (I.lay i) (I.lay (i+1)) = .ok P ∧ Static.rtSH (I.lay i) (I.lay (i+1)) = .ok Q := by
    rw [← h.x]; simpa [ifaceV, statEnv] using hv
  have f1 := h.fits i (by omega)
  have f2 := h.fits (i+1) (by omega)
  have e : Scat (respV (statEnv I) (i+1) P Q) d u d' u' ↔
      Scatter (ofParts (Static.delayPSV (exp (-(I.k * thk i))) P) Q) d.1 u.1 d'.1 u'.1 ∧
      ScatterSH (ofParts P (Static.delaySH (exp (-(I.k * thk i))) Q)) d.2 u.2 d'.2 u'.2 := by
    rw [← h.ex]; rfl
  rw [e]
  refine and_congr ⟨?_, ?_⟩ ?_
  · exact Static.C13_static_contact (k := I.k) (expE _) f1 f2 hv'.1 Q _ _ _ _
  · exact Static.C13_static_unique (k := I.k) (expE _) h.k0 f1 f2 hv'.1 Q _ _ _ _
  · rw [← f1.mu, ← f2.mu]
    exact Static.C13_static_SH (expE _) hv'.2 P h.k0 _ _ _ _

/-- Amplitudes obeying the conditions used in C57 are exactly the static fields (`d0`, `u0` only witness
that the coefficients are defined). -/
theorem waves_stat_iff {I : StatIn ℂ} {thk : ℕ → ℝ} {m : ℕ → Medium ℂ} (h : StatOk I thk m) (hw : WF (statEnv I))
    {t : Src} {S : SrcRow ℂ} (hS : (statEnv I).src t = .ok S) {d0 u0 : ℕ → Amp ℂ} (h0 : Waves (statEnv I) S d0 u0)
    (d u : ℕ → Amp ℂ) : Waves (statEnv I) S d u ↔ StatField I thk m t d u := by
  have hlt : max I.isrc I.ircv < I.nlay := hw.lt
  have hone : 1 ≤ min I.isrc I.ircv := hw.one
  have hM : (statEnv I).maxidx = if max I.isrc I.ircv + 1 = I.nlay then I.nlay else I.nlay - 1 := rfl
  have hmax : (statEnv I).maxidx ≤ I.nlay := by
    rw [hM]; split <;> omega
  have hsrcmax : max I.isrc I.ircv < (statEnv I).maxidx := by
    rw [hM]; split <;> omega
  have zer : ∀ i, statAt I m d u i 0 = stState I.k (m i) (I.lay i).delta 0 1 1 (u i).1 (d i).1 := fun i => stField_zero _ _ _ _ _
  have zerS : ∀ i, statSH I m d u i 0 = stSH I.k (m i).mu 1 1 (u i).2 (d i).2 := fun i => by simp [statSH]
  -- each clause separately
  have top : (∃ R, (statEnv I).topP = .ok R ∧ (d 0).1 = R *ᵥ (u 0).1 ∧ (d 0).2 = (statEnv I).topS * (u 0).2) ↔
      (match I.top with
      | .free => ((statAt I m d u 0 0).s = 0 ∧ (statAt I m d u 0 0).t = 0) ∧ (statSH I m d u 0 0).t = 0
      | .rigid => ((statAt I m d u 0 0).q = 0 ∧ (statAt I m d u 0 0).w = 0) ∧ (statSH I m d u 0 0).v = 0
      | .half => d 0 = 0) := by
    obtain ⟨R, hR, -, -⟩ := h0.top
    have hf := h.fits 0 (by omega)
    obtain ⟨c1, c2⟩ := stat_top_iff h.k0 hf (u 0).1 (d 0).1
    have shf : (d 0).2 = 1 * (u 0).2 ↔ (stSH I.k (m 0).mu 1 1 (u 0).2 (d 0).2).t = 0 := by
      simp only [stSH, mul_eq_zero, hf.mu0, h.k0, false_or, one_mul, sub_eq_zero]
      exact eq_comm
    have shr : (d 0).2 = -1 * (u 0).2 ↔ (stSH I.k (m 0).mu 1 1 (u 0).2 (d 0).2).v = 0 := by
      simp only [stSH, one_mul, neg_one_mul, add_comm (u 0).2, eq_neg_iff_add_eq_zero]
    rw [zer, zerS]
    cases ht : I.top <;> simp only [statEnv, ht] at hR ⊢
    · simp only [hR, Out.ok.injEq, Static.freeBoundSH, exists_eq_left']
      exact and_congr (c1 R hR) shf
    · simp only [Out.ok.injEq, Static.rigidBoundSH, exists_eq_left']
      exact and_congr c2 shr
    · simp only [Out.ok.injEq, exists_eq_left', Matrix.zero_mulVec, zero_mul]
      exact ⟨fun ⟨a, b⟩ => Prod.ext a b, fun a => by rw [a]; exact ⟨rfl, rfl⟩⟩
  have bottom : (if (statEnv I).imax + 1 < (statEnv I).nlay then
      ∃ R r, (statEnv I).botP = .ok R ∧ (statEnv I).botS = .ok r ∧
        (u ((statEnv I).nlay - 2)).1 = (statEnv I).botDP R *ᵥ (d ((statEnv I).nlay - 2)).1 ∧
        (u ((statEnv I).nlay - 2)).2 = (statEnv I).botDS r * (d ((statEnv I).nlay - 2)).2
    else u ((statEnv I).nlay - 1) = 0) ↔ (if max I.isrc I.ircv + 1 < I.nlay then
      (let y := statAt I m d u (I.nlay - 2) (thk (I.nlay - 2))
       let y' := statSH I m d u (I.nlay - 2) (thk (I.nlay - 2))
       match I.bot with
      | .free => (y.s = 0 ∧ y.t = 0) ∧ y'.t = 0
      | .rigid => (y.q = 0 ∧ y.w = 0) ∧ y'.v = 0
      | .half => ∃ D : Amp ℂ, y = stField I.k (m (I.nlay - 1)) (I.lay (I.nlay - 1)).delta 0 D.1 0 ∧
          y' = stSH I.k (m (I.nlay - 1)).mu 1 1 0 D.2)
    else u (I.nlay - 1) = 0) := by
    have hb := h0.bottom
    by_cases hc : max I.isrc I.ircv + 1 < I.nlay
    swap
    · have hc' : ¬ ((statEnv I).imax + 1 < (statEnv I).nlay) := hc
      rw [if_neg hc, if_neg hc']
      exact Iff.rfl
    have hc' : (statEnv I).imax + 1 < (statEnv I).nlay := hc
    rw [if_pos hc'] at hb
    rw [if_pos hc, if_pos hc']
    obtain ⟨R, r, hR, hr, -, -⟩ := hb
    have hf := h.fits (I.nlay - 2) (by omega)
    have hn : I.nlay - 2 + 1 = I.nlay - 1 := by omega
    generalize hz : thk (I.nlay - 2) = z
    have hx : I.x (I.nlay - 2) = I.k * z := by rw [h.x, hz]
    have hex : I.ex (I.nlay - 2) = exp (-(I.k * z)) := by rw [h.ex, hz]
    have hE := expE (I.k * z)
    obtain ⟨c1, c2⟩ := stat_bot_iff (x := I.k * z) hE h.k0 hf (u (I.nlay - 2)).1 (d (I.nlay - 2)).1
    have hE0 : exp (I.k * z) ≠ 0 := Complex.exp_ne_zero _
    have sh : ∀ r : ℂ, (u (I.nlay - 2)).2 = r * (exp (-(I.k * z)) * exp (-(I.k * z))) * (d (I.nlay - 2)).2 ↔
        exp (I.k * z) * (u (I.nlay - 2)).2 = r * (exp (-(I.k * z)) * (d (I.nlay - 2)).2) := by
      intro r
      constructor
      · intro e; rw [e]; linear_combination (r * exp (-(I.k * z)) * (d (I.nlay - 2)).2) * hE
      · intro e
        apply mul_left_cancel₀ hE0
        rw [e]; linear_combination -(r * exp (-(I.k * z)) * (d (I.nlay - 2)).2) * hE
    have shf : (u (I.nlay - 2)).2 = 1 * (exp (-(I.k * z)) * exp (-(I.k * z))) * (d (I.nlay - 2)).2 ↔
        (statSH I m d u (I.nlay - 2) z).t = 0 := by
      rw [sh]
      simp only [statSH, stSH, mul_eq_zero, hf.mu0, h.k0, false_or, one_mul, sub_eq_zero]
    have shr : (u (I.nlay - 2)).2 = -1 * (exp (-(I.k * z)) * exp (-(I.k * z))) * (d (I.nlay - 2)).2 ↔
        (statSH I m d u (I.nlay - 2) z).v = 0 := by
      rw [sh]
      simp only [statSH, stSH, neg_one_mul, eq_neg_iff_add_eq_zero]
    cases ht : I.bot <;> simp only [statEnv, ht] at hR hr ⊢ <;> simp only [hx, hex] at hR hr ⊢
    · simp only [hR, Out.ok.injEq, Static.freeBoundSH, exists_eq_left', exists_and_left]
      exact and_congr (c1 R hR) shf
    · simp only [Out.ok.injEq, Static.rigidBoundSH, exists_eq_left', exists_and_left]
      exact and_congr c2 shr
    · rcases hP : Static.rtPSV (I.k * z) (I.lay (I.nlay - 2)) (I.lay (I.nlay - 1)) with _ | _ | P <;> rw [hP] at hR <;>
        simp [outMap] at hR
      rcases hQ : Static.rtSH (I.lay (I.nlay - 2)) (I.lay (I.nlay - 1)) with _ | _ | Q <;> rw [hQ] at hr <;>
        simp [outMap] at hr
      have hv : ifaceV (statEnv I) (I.nlay - 2 + 1) P Q := by
        have e : I.nlay - 1 - 1 = I.nlay - 2 := by omega
        simp only [ifaceV, statEnv, Bool.not_false, Bool.true_or, if_true, hn, e, hx]
        exact ⟨hP, hQ⟩
      have key := fun D => stat_iface_iff h (i := I.nlay - 2) (by omega) hv (d (I.nlay - 2)) (u (I.nlay - 2)) D (0, 0)
      simp only [hn, hz] at key
      simp only [outMap, Out.ok.injEq, exists_eq_left', exists_and_left, stField_zero]
      have lhs : ((u (I.nlay - 2)).1 = Static.botDelay (exp (-(I.k * z))) P.RD *ᵥ (d (I.nlay - 2)).1 ∧
          (u (I.nlay - 2)).2 = Q.RDL * (exp (-(I.k * z)) * exp (-(I.k * z))) * (d (I.nlay - 2)).2) ↔
          ∃ D, Scat (respV (statEnv I) (I.nlay - 1) P Q) (d (I.nlay - 2)) (u (I.nlay - 2)) D (0, 0) := by
        constructor
        · rintro ⟨a, b⟩
          refine ⟨((respV (statEnv I) (I.nlay - 1) P Q).TD *ᵥ (d (I.nlay - 2)).1,
            (respV (statEnv I) (I.nlay - 1) P Q).TDL * (d (I.nlay - 2)).2), ⟨?_, by simp⟩, ?_, by simp⟩
          · have e : I.nlay - 1 - 1 = I.nlay - 2 := by omega
            simp only [respV, statEnv, ofParts, Matrix.mulVec_zero, add_zero, e, hex]
            rw [a]; rfl
          · have e : I.nlay - 1 - 1 = I.nlay - 2 := by omega
            simp only [respV, statEnv, ofParts, mul_zero, add_zero, e, hex]
            rw [b]; rfl
        · rintro ⟨D, ⟨a, -⟩, b, -⟩
          have e : I.nlay - 1 - 1 = I.nlay - 2 := by omega
          simp only [respV, statEnv, ofParts, Matrix.mulVec_zero, mul_zero, add_zero, e, hex] at a b
          exact ⟨by rw [a]; rfl, by rw [b]; rfl⟩
      rw [lhs]
      exact exists_congr fun D => key D
  -- interfaces without source
  have iface : ∀ i, i + 1 < (statEnv I).maxidx → i + 1 ≠ I.isrc →
      ((∃ P Q, ifaceV (statEnv I) (i+1) P Q ∧ Scat (respV (statEnv I) (i+1) P Q) (d i) (u i) (d (i+1)) (u (i+1))) ↔
      (statAt I m d u i (thk i) = statAt I m d u (i+1) 0 ∧ statSH I m d u i (thk i) = statSH I m d u (i+1) 0)) := by
    intro i hi _
    obtain ⟨P, Q, hv, -⟩ := h0.iface i hi
    rw [zer, zerS]
    constructor
    · rintro ⟨P', Q', hv', hs⟩
      obtain ⟨rfl, rfl⟩ := ifaceV_unique hv hv'
      exact (stat_iface_iff h (by omega) hv _ _ _ _).1 hs
    · intro hs
      exact ⟨P, Q, hv, (stat_iface_iff h (by omega) hv _ _ _ _).2 hs⟩
  -- the source interface
  have e1 : I.isrc - 1 + 1 = I.isrc := by omega
  have src : (∃ P Q, ifaceV (statEnv I) I.isrc P Q ∧ Scat (respV (statEnv I) I.isrc P Q) (d (I.isrc - 1)) (u (I.isrc - 1))
      (d I.isrc - (S.D, S.DL)) (u I.isrc + (S.U, S.UL))) ↔
      (let a := statAt I m d u (I.isrc - 1) (thk (I.isrc - 1))
      let b := statAt I m d u I.isrc 0
      let j := jump I.k 0 (m I.isrc) (srcForce I.k (-2 * (m I.isrc).mu) t)
      let a' := statSH I m d u (I.isrc - 1) (thk (I.isrc - 1))
      let b' := statSH I m d u I.isrc 0
      let j' := jumpSH (m I.isrc) (srcForce I.k (-2 * (m I.isrc).mu) t)
      (b.q - a.q = j.q ∧ b.w - a.w = j.w ∧ b.s - a.s = j.s ∧ b.t - a.t = j.t) ∧ (b'.v - a'.v = j'.v ∧ b'.t - a'.t = j'.t)) := by
    obtain ⟨P, Q, hv, -⟩ := h0.iface (I.isrc - 1) (by omega)
    have hf := h.fits I.isrc (by omega)
    have key := stat_iface_iff h (i := I.isrc - 1) (by omega) hv (d (I.isrc - 1)) (u (I.isrc - 1))
      (d I.isrc - (S.D, S.DL)) (u I.isrc + (S.U, S.UL))
    rw [e1] at key hv
    have r1 := Static.C17_static_jump hf hS (u I.isrc).1 (d I.isrc - (S.D, S.DL)).1
    have r2 := Static.C17_static_jump_SH hf hS (u I.isrc).2 (d I.isrc - (S.D, S.DL)).2
    have eD : (d I.isrc - (S.D, S.DL)).1 + S.D = (d I.isrc).1 := by simp
    have eD2 : (d I.isrc - (S.D, S.DL)).2 + S.DL = (d I.isrc).2 := by simp
    have eU : (u I.isrc + (S.U, S.UL)).1 = (u I.isrc).1 + S.U := by simp
    have eU2 : (u I.isrc + (S.U, S.UL)).2 = (u I.isrc).2 + S.UL := by simp
    dsimp only at r1 r2
    rw [eD] at r1
    rw [eD2] at r2
    rw [eU, eU2] at key
    rw [zer, zerS]
    have aux : (∃ P Q, ifaceV (statEnv I) I.isrc P Q ∧ Scat (respV (statEnv I) I.isrc P Q) (d (I.isrc - 1)) (u (I.isrc - 1))
      (d I.isrc - (S.D, S.DL)) (u I.isrc + (S.U, S.UL))) ↔ Scat (respV (statEnv I) I.isrc P Q) (d (I.isrc - 1)) (u (I.isrc - 1))
      (d I.isrc - (S.D, S.DL)) (u I.isrc + (S.U, S.UL)) := by
      constructor
      · rintro ⟨P', Q', hv', hs⟩
        obtain ⟨rfl, rfl⟩ := ifaceV_unique hv hv'
        exact hs
      · exact fun hs => ⟨P, Q, hv, hs⟩
    rw [aux, key]
    dsimp only
    constructor
    · rintro ⟨a, b⟩
      simp only [statAt, statSH]
      rw [a, b]
      exact ⟨r1, r2⟩
    · rintro ⟨⟨a1, a2, a3, a4⟩, b1, b2⟩
      obtain ⟨c1, c2, c3, c4⟩ := r1
      obtain ⟨g1, g2⟩ := r2
      constructor
      · ext
        · change (statAt I m d u (I.isrc - 1) (thk (I.isrc - 1))).q = _; linear_combination c1 - a1
        · change (statAt I m d u (I.isrc - 1) (thk (I.isrc - 1))).w = _; linear_combination c2 - a2
        · change (statAt I m d u (I.isrc - 1) (thk (I.isrc - 1))).s = _; linear_combination c3 - a3
        · change (statAt I m d u (I.isrc - 1) (thk (I.isrc - 1))).t = _; linear_combination c4 - a4
      · apply SHS_ext
        · change (statSH I m d u (I.isrc - 1) (thk (I.isrc - 1))).v = _; linear_combination g1 - b1
        · change (statSH I m d u (I.isrc - 1) (thk (I.isrc - 1))).t = _; linear_combination g2 - b2
  constructor
  · intro hW
    refine ⟨top.1 hW.top, ?_, ?_, bottom.1 hW.bottom⟩
    · intro i hi hne
      have hx := hW.iface i hi
      have hne' : ¬ (i + 1 = (statEnv I).isrc) := hne
      simp only [if_neg hne'] at hx
      exact (iface i hi hne).1 hx
    · have hx := hW.iface (I.isrc - 1) (by omega)
      have e2 : I.isrc - 1 + 1 = (statEnv I).isrc := e1
      simp only [if_pos e2] at hx
      simp only [e1] at hx
      exact src.1 hx
  · intro hF
    refine ⟨top.2 hF.top, ?_, bottom.2 hF.bottom⟩
    intro i hi
    by_cases hne : i + 1 = I.isrc
    · have e2 : i + 1 = (statEnv I).isrc := hne
      have e3 : i = I.isrc - 1 := by omega
      simp only [if_pos e2]
      have := src.2 hF.source
      rw [← hne] at this
      simpa using this
    · have e2 : ¬ (i + 1 = (statEnv I).isrc) := hne
      simp only [if_neg e2]
      exact (iface i hi hne).2 (hF.contact i hi hne)

/-- C57, static: when the kernel goes through, there is a static field with the prescribed conditions, and
the displacement at the receiver of every such field, and its depth derivative, are the rows returned. -/
theorem C57_static_field {I : StatIn ℂ} {thk : ℕ → ℝ} {m : ℕ → Medium ℂ} (h : StatOk I thk m) (hw : WF (statEnv I))
    {s : Store ℂ} {st : Bool} (ht : ∃ R, (statEnv I).topP = .ok R)
    (hb : (statEnv I).imax + 1 < (statEnv I).nlay → ∃ R, (statEnv I).botP = .ok R) {r : Kern ℂ}
    (hr : kernel (statEnv I) s st = .ok r) (hdone : r.done = true) (t : Src) (hz : I.atZero = false ∨ t ≠ .DS) :
    (∃ d u, StatField I thk m t d u) ∧ ∀ d u, StatField I thk m t d u →
      (r.g.u t).qw 0 = (statAt I m d u I.ircv 0).q ∧ (r.g.u t).qw 1 = (statAt I m d u I.ircv 0).w ∧
      (r.g.u t).v = (statSH I m d u I.ircv 0).v ∧
      HasDerivAt (fun z => (statAt I m d u I.ircv z).q) ((r.g.uz t).qw 0) 0 ∧
      HasDerivAt (fun z => (statAt I m d u I.ircv z).w) ((r.g.uz t).qw 1) 0 ∧
      HasDerivAt (fun z => (statSH I m d u I.ircv z).v) ((r.g.uz t).v) 0 := by
  obtain ⟨S, hS, ⟨d0, u0, hW⟩, hall⟩ := C57_kernel (stat_good I) hw (stat_reads I) ht hb hr hdone t hz
  refine ⟨⟨d0, u0, (waves_stat_iff h hw hS hW _ _).1 hW⟩, ?_⟩
  intro d u hF
  obtain ⟨e1, e2⟩ := hall d u ((waves_stat_iff h hw hS hW _ _).2 hF)
  have e1' : r.g.u t = statV.obs (d I.ircv) (u I.ircv) := e1
  have e2' : r.g.uz t = (statW I).obs (d I.ircv) (u I.ircv) := e2
  rw [e1', e2']
  have dq := Static.C18_static_deriv I.k (m I.ircv) (I.lay I.ircv).delta (u I.ircv).1 (d I.ircv).1 0
  simp only [Complex.ofReal_zero, mul_zero, Complex.exp_zero, neg_zero] at dq
  refine ⟨?_, ?_, ?_, ?_, ?_, ?_⟩
  · simp only [statAt, stField_zero, stState, Static.sq, Recv.obs, statV, mv_apply, Pi.add_apply]
    simp [Static.D11, Static.D12]
  · simp only [statAt, stField_zero, stState, Static.sw, Recv.obs, statV, mv_apply, Pi.add_apply]
    simp [Static.D11, Static.D12]
  · simp [statSH, stSH, Recv.obs, statV]
  · refine dq.1.congr_deriv ?_
    simp only [Static.sq', Recv.obs, statW, mv_apply, Pi.add_apply]
    simp [Static.D11z, Static.D12z]
    ring
  · refine dq.2.congr_deriv ?_
    simp only [Static.sw', Recv.obs, statW, mv_apply, Pi.add_apply]
    simp [Static.D11z, Static.D12z]
    ring
  · have F := Static.hasDerivAt_lin I.k (u I.ircv).2 0 (d I.ircv).2 0 0
    simp only [statSH, stSH, Recv.obs, statW]
    convert F using 1
    · funext z; simp
    · simp; ring

end stat

end GRT.Kernel
