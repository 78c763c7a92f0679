import Verif.Model1D.Props
import Verif.Kernel.Phys

/-! Model of `grt_update_mod1d_state_omega`, `grt_update_mod1d_state_k` (model.c 391-459) and of
`grt_attenuation_law` (attenuation.c 15-17), over ℝ and ℂ.  C08, and C57 starting from the model file. -/

set_option linter.unusedSectionVars false

namespace GRT.Model1D

open GRT.Layer GRT.Kernel Complex

/-- `grt_attenuation_law`, attenuation.c 15-17. -/
noncomputable def attenuationLaw (Qinv : ℝ) (omgref omega : ℂ) : ℂ :=
  1 + Qinv / Real.pi * Complex.log (omega / omgref) + 0.5 * Qinv * I

/-- `Qainv`, `Qbinv`, model.c 261-262, 282-283. -/
noncomputable def qinv (q : ℝ) : ℝ := if 0 < q then 1 / q else 0

/-- `atna` / `atnb`, model.c 403-408. -/
noncomputable def atn (isElastic : Bool) (q : ℝ) (omgref omega : ℂ) : ℂ :=
  if isElastic then 1 else if 0 < qinv q then attenuationLaw (qinv q) omgref omega else 1

/-- `mstat->mu[i]`, model.c 413. -/
def stateMu {K : Type*} [Field K] (rho vb atnb : K) : K := (vb * atnb) * (vb * atnb) * rho

/-- `mstat->lambda[i]`, model.c 414 (as written: the S factor). -/
def stateLambda {K : Type*} [Field K] (rho va vb atnb : K) : K :=
  (va * atnb) * (va * atnb) * rho - 2 * stateMu rho vb atnb

/-! ### C08 -/

section C08
variable {K : Type*} [Field K]

/-- C08: the shear modulus is density times the squared attenuated S velocity (complex velocity
`β = vb·atnb`), and `λ + 2μ` is density times the squared P velocity **when both attenuation factors agree**
(in particular in the elastic case).  Missing: the P factor, see `C08_violated_iff`. -/
theorem C08_partial (rho va vb atna atnb : K) (h : atna = atnb) :
    stateMu rho vb atnb = rho * (vb * atnb)^2 ∧
    stateLambda rho va vb atnb + 2 * stateMu rho vb atnb = rho * (va * atna)^2 := by
  subst h
  constructor <;> simp only [stateLambda, stateMu] <;> ring

/-- C08 fails for every layer whose two attenuation factors have different squares. -/
theorem C08_violated_iff (rho va vb atna atnb : K) (hr : rho ≠ 0) (hv : va ≠ 0) :
    stateLambda rho va vb atnb + 2 * stateMu rho vb atnb = rho * (va * atna)^2 ↔ atnb^2 = atna^2 := by
  have e : stateLambda rho va vb atnb + 2 * stateMu rho vb atnb = rho * va^2 * atnb^2 := by
    simp only [stateLambda, stateMu]; ring
  have e2 : rho * (va * atna)^2 = rho * va^2 * atna^2 := by ring
  rw [e, e2]
  exact mul_right_inj' (mul_ne_zero hr (pow_ne_zero 2 hv))

end C08

/-- A crustal layer with Qp = 600, Qs = 300 at the reference frequency. -/
theorem C08_violated :
    let a := atn false 600 1 1
    let b := atn false 300 1 1
    stateLambda (2.7 : ℂ) 6 3.5 b + 2 * stateMu 2.7 3.5 b ≠ 2.7 * (6 * a)^2 := by
  intro a b
  rw [Ne, C08_violated_iff _ _ _ _ _ (by norm_num) (by norm_num)]
  have ha : a = 1 + (1/1200 : ℝ) * I := by
    simp only [a, atn, qinv, attenuationLaw]; norm_num
  have hb : b = 1 + (1/600 : ℝ) * I := by
    simp only [b, atn, qinv, attenuationLaw]; norm_num
  rw [ha, hb]
  intro h
  have := congrArg Complex.im h
  simp [pow_two] at this
  norm_num at this

/-! ### From the file to the kernel -/

/-- The default used outside the array; never reached below. -/
noncomputable def dummy : FLay ℝ := ⟨0, ⟨1, 1, 1, 0, 0⟩⟩
noncomputable def Mod1d.at (m : Mod1d ℝ) (i : ℕ) : FLay ℝ := (m.lays[i]?).getD dummy

/-- Principal square root (`csqrt`). -/
noncomputable def csqrt (z : ℂ) : ℂ := z ^ ((2 : ℕ)⁻¹ : ℂ)

theorem csqrt_mul (z : ℂ) : csqrt z * csqrt z = z := by
  rw [← pow_two]; exact Complex.cpow_nat_inv_pow z two_ne_zero

/-- The general case of the loop body, model.c 438-457. -/
noncomputable def stateLayOf (f : FLay ℝ) (omgref omega c : ℂ) : Lay ℂ :=
  let atna := atn false f.m.qa omgref omega
  let atnb := atn false f.m.qb omgref omega
  let liquid := decide (f.m.vb = 0)
  let ca := c / (f.m.va * atna)
  let cb := if liquid then 0 else c / (f.m.vb * atnb)
  { liquid := liquid, rho := f.m.rho, mu := stateMu (f.m.rho : ℂ) f.m.vb atnb
    caca := ca * ca, xa := csqrt (1 - ca * ca), cbcb := cb * cb, xb := csqrt (1 - cb * cb) }

/-- `grt_update_mod1d_state_k`, model.c 420-459, layer `i` (with `grt_update_mod1d_state_omega` before it):
at the inserted indices the wave parameters are copied from the layer above.  The early return for
`creal(omega) < 0` (line 425, static solutions only) is left out, so `Re ω ≥ 0` is meant throughout; index 0
is never an inserted one (`C05_wellformed`), otherwise the code would read `xa[-1]`. -/
noncomputable def stateLay (m : Mod1d ℝ) (omgref omega c : ℂ) : ℕ → Lay ℂ
  | 0 => stateLayOf (m.at 0) omgref omega c
  | i + 1 =>
    let own := stateLayOf (m.at (i+1)) omgref omega c
    if m.inserted && (i + 1 == m.isrc || i + 1 == m.ircv) then
      let p := stateLay m omgref omega c i
      { own with xa := p.xa, caca := p.caca, xb := p.xb, cbcb := p.cbcb }
    else own

/-- What the dynamic kernel is called with at frequency `omega` and wavenumber `k`. -/
noncomputable def kernelIn (m : Mod1d ℝ) (top bot : Bound) (omgref omega : ℂ) (k : ℝ) : DynIn ℂ :=
  { k := k, c := omega / k, nlay := m.lays.length, isrc := m.isrc, ircv := m.ircv, ircvup := m.ircvup
    atZero := decide (m.depsrc = 0 ∧ m.deprcv = 0)
    lay := stateLay m omgref omega (omega / k)
    exa := fun i => exp (-(k : ℂ) * (m.at i).h * (stateLay m omgref omega (omega / k) i).xa)
    exb := fun i => exp (-(k : ℂ) * (m.at i).h * (stateLay m omgref omega (omega / k) i).xb)
    top := top, bot := bot }

/-- Specification: the anelastic medium of a layer, from density and attenuated velocities. -/
noncomputable def anelastic (f : FLay ℝ) (omgref omega : ℂ) : Medium ℂ :=
  let a := (f.m.va : ℂ) * atn false f.m.qa omgref omega
  let b := (f.m.vb : ℂ) * atn false f.m.qb omgref omega
  ⟨f.m.rho, f.m.rho * a^2 - 2 * (f.m.rho * b^2), f.m.rho * b^2⟩

/-- The attenuation factors do not vanish (they are `1 + O(1/Q)`). -/
def NonZero (m : Mod1d ℝ) (omgref omega : ℂ) : Prop :=
  ∀ i, i < m.lays.length → atn false (m.at i).m.qa omgref omega ≠ 0 ∧ atn false (m.at i).m.qb omgref omega ≠ 0

theorem stateLayOf_fits {f : FLay ℝ} (hva : f.m.va ≠ 0) (hrho : f.m.rho ≠ 0) {omgref omega : ℂ} (c : ℂ)
    (ha : atn false f.m.qa omgref omega ≠ 0) (hb : atn false f.m.qb omgref omega ≠ 0) :
    Fits c (stateLayOf f omgref omega c) (anelastic f omgref omega) := by
  have hva' : (f.m.va : ℂ) ≠ 0 := by exact_mod_cast hva
  have hr' : (f.m.rho : ℂ) ≠ 0 := by exact_mod_cast hrho
  constructor
  · rfl
  · exact hr'
  · simp only [stateLayOf, anelastic, stateMu]; ring
  · simp only [stateLayOf, csqrt_mul]
  · simp only [stateLayOf, csqrt_mul]
  · simp only [stateLayOf, anelastic]; field_simp; ring
  · intro h
    have : f.m.vb = 0 := by simpa [stateLayOf] using h
    simp [anelastic, this]
  · intro h
    have h0 : f.m.vb ≠ 0 := by simpa [stateLayOf] using h
    have hvb : (f.m.vb : ℂ) ≠ 0 := by exact_mod_cast h0
    refine ⟨?_, ?_⟩
    · simp only [anelastic]; exact mul_ne_zero hr' (pow_ne_zero 2 (mul_ne_zero hvb hb))
    · simp only [stateLayOf, anelastic, h0, decide_false, Bool.false_eq_true, if_false]
      field_simp

/-- The copied parameters are the layer's own: the layer above has the same medium. -/
theorem stateLay_eq {arr : List (FLay ℝ)} {zs zr : ℝ} (hs : 0 ≤ zs) (hr : 0 ≤ zr) {m : Mod1d ℝ}
    (h : readMod1d arr zs zr = .ok m) (omgref omega c : ℂ) (i : ℕ) :
    stateLay m omgref omega c i = stateLayOf (m.at i) omgref omega c := by
  obtain ⟨-, -, v1, v2, -⟩ := C05_wellformed hs hr h
  have key : ∀ j z, Virtual m.lays (j+1) z → (m.at j).m = (m.at (j+1)).m := by
    intro j z hv
    have h1 := hv.same
    have h2 := hv.lt
    rw [Nat.add_sub_cancel] at h1
    rw [List.getElem?_eq_getElem h2, List.getElem?_eq_getElem (by omega)] at h1
    simp only [Option.map_some, Option.some.injEq] at h1
    simp only [Mod1d.at]
    rw [List.getElem?_eq_getElem h2, List.getElem?_eq_getElem (by omega)]
    exact h1
  induction i with
  | zero => rfl
  | succ i ih =>
    simp only [stateLay]
    split
    · rename_i hc
      have hm : (m.at i).m = (m.at (i+1)).m := by
        simp only [Bool.and_eq_true, Bool.or_eq_true, beq_iff_eq] at hc
        rcases hc.2 with hc | hc
        · exact key i zs (hc ▸ v1)
        · exact key i zr (hc ▸ v2)
      rw [ih]
      simp only [stateLayOf, hm]
    · rfl

/-- The kernel's hypotheses hold for every model that was read from a file. -/
theorem kernelIn_ok {arr : List (FLay ℝ)} {zs zr : ℝ} (hs : 0 ≤ zs) (hr : 0 ≤ zr) {m : Mod1d ℝ}
    (h : readMod1d arr zs zr = .ok m) (hva : ∀ l ∈ arr, l.m.va ≠ 0 ∧ l.m.rho ≠ 0) (top bot : Bound)
    {omgref omega : ℂ} (hn : NonZero m omgref omega) (k : ℝ) :
    DynOk (kernelIn m top bot omgref omega k) (fun i => (m.at i).h) (fun i => anelastic (m.at i) omgref omega) ∧
    WF (dynEnv (kernelIn m top bot omgref omega k)) := by
  obtain ⟨hlen, -, v1, v2, hup, hu1, hu2, -⟩ := C05_wellformed hs hr h
  have hmem : ∀ {fs lays : List (FLay ℝ)}, Refines fs lays → ∀ l ∈ lays, ∃ f ∈ fs, l.m = f.m := by
    intro fs lays hR
    induction hR with
    | nil => simp
    | cons f fs part lays hne hm ht h ih =>
      intro l hl
      rcases List.mem_append.1 hl with hl | hl
      · exact ⟨f, by simp, hm l hl⟩
      · obtain ⟨g, hg, e⟩ := ih l hl; exact ⟨g, by simp [hg], e⟩
  have hset : ∀ (d : ℝ) (fs : List (FLay ℝ)), ∀ l ∈ setLast d fs, ∃ f ∈ fs, l.m = f.m := by
    intro d fs
    induction fs with
    | nil => simp [setLast]
    | cons f fs ih =>
      cases fs with
      | nil => intro l hl; simp only [setLast, List.mem_singleton] at hl; subst hl; exact ⟨f, by simp, rfl⟩
      | cons g gs =>
        intro l hl
        simp only [setLast, List.mem_cons] at hl
        rcases hl with rfl | hl
        · exact ⟨l, by simp, rfl⟩
        · obtain ⟨f', hf', e⟩ := ih l hl; exact ⟨f', by simp [List.mem_cons.1 hf'], e⟩
  have hval : ∀ i, i < m.lays.length → (m.at i).m.va ≠ 0 ∧ (m.at i).m.rho ≠ 0 := by
    intro i hi
    have hl : m.at i ∈ m.lays := by
      simp only [Mod1d.at, List.getElem?_eq_getElem hi, Option.getD_some]; exact List.getElem_mem hi
    obtain ⟨f, hf, e⟩ := hmem (C06_refines hs hr h) _ hl
    obtain ⟨g, hg, e'⟩ := hset _ _ _ hf
    rw [e, e']; exact hva g hg
  have hfit : ∀ i, i < m.lays.length → Fits (omega / k) (stateLay m omgref omega (omega/k) i) (anelastic (m.at i) omgref omega) := by
    intro i hi
    rw [stateLay_eq hs hr h]
    exact stateLayOf_fits (hval i hi).1 (hval i hi).2 _ (hn i hi).1 (hn i hi).2
  have key : ∀ j z, Virtual m.lays j z → stateLay m omgref omega (omega/k) (j-1) = stateLay m omgref omega (omega/k) j ∧
      anelastic (m.at (j-1)) omgref omega = anelastic (m.at j) omgref omega := by
    intro j z hv
    have h1 := hv.same
    have h2 := hv.lt
    rw [List.getElem?_eq_getElem h2, List.getElem?_eq_getElem (by omega)] at h1
    simp only [Option.map_some, Option.some.injEq] at h1
    have hm : (m.at (j-1)).m = (m.at j).m := by
      simp only [Mod1d.at]
      rw [List.getElem?_eq_getElem h2, List.getElem?_eq_getElem (by omega)]
      exact h1
    rw [stateLay_eq hs hr h, stateLay_eq hs hr h]
    simp only [stateLayOf, anelastic, hm, and_self]
  refine ⟨⟨hfit, fun i => rfl, fun i => rfl, key _ _ v1, key _ _ v2, ?_⟩, ⟨?_, ?_, ?_, ?_⟩⟩
  · show (anelastic (m.at m.isrc) omgref omega).lam + 2 * (anelastic (m.at m.isrc) omgref omega).mu ≠ 0
    have e : (anelastic (m.at m.isrc) omgref omega).lam + 2 * (anelastic (m.at m.isrc) omgref omega).mu =
        (m.at m.isrc).m.rho * ((m.at m.isrc).m.va * atn false (m.at m.isrc).m.qa omgref omega)^2 := by
      simp only [anelastic]; ring
    rw [e]
    have h1 : ((m.at m.isrc).m.va : ℂ) ≠ 0 := by exact_mod_cast (hval _ v1.lt).1
    have h2 : ((m.at m.isrc).m.rho : ℂ) ≠ 0 := by exact_mod_cast (hval _ v1.lt).2
    exact mul_ne_zero h2 (pow_ne_zero 2 (mul_ne_zero h1 (hn _ v1.lt).1))
  · exact le_min v1.one v2.one
  · exact max_lt v1.lt v2.lt
  · exact hu1
  · exact hu2

/-- C57 from the file on: for every layer stack, every pair of non-negative depths that loads, every
boundary, every frequency and wavenumber at which no inversion fails, the kernel's rows are the
displacement at the receiver depth of a field of the anelastic medium. -/
theorem C57_from_file {arr : List (FLay ℝ)} {zs zr : ℝ} (hs : 0 ≤ zs) (hr : 0 ≤ zr) {m : Mod1d ℝ}
    (h : readMod1d arr zs zr = .ok m) (hva : ∀ l ∈ arr, l.m.va ≠ 0 ∧ l.m.rho ≠ 0) (top bot : Bound)
    {omgref omega : ℂ} (hn : NonZero m omgref omega) (k : ℝ)
    {s : RT.Store ℂ} {st : Bool} (ht : ∃ R, (dynEnv (kernelIn m top bot omgref omega k)).topP = .ok R)
    (hb : max m.isrc m.ircv + 1 < m.lays.length → ∃ R, (dynEnv (kernelIn m top bot omgref omega k)).botP = .ok R)
    {r : Kern ℂ} (hk : kernel (dynEnv (kernelIn m top bot omgref omega k)) s st = .ok r) (hdone : r.done = true)
    (t : Src) (hz : ¬ (zs = 0 ∧ zr = 0) ∨ t ≠ .DS) :
    ∃ d u, DynField (kernelIn m top bot omgref omega k) (fun i => (m.at i).h) (fun i => anelastic (m.at i) omgref omega) t d u ∧
      (r.g.u t).qw 0 = (fieldAt (kernelIn m top bot omgref omega k) (fun i => anelastic (m.at i) omgref omega) d u m.ircv 0).q ∧
      (r.g.u t).qw 1 = (fieldAt (kernelIn m top bot omgref omega k) (fun i => anelastic (m.at i) omgref omega) d u m.ircv 0).w := by
  obtain ⟨h1, h2⟩ := kernelIn_ok hs hr h hva top bot hn k
  have hdep : m.depsrc = zs ∧ m.deprcv = zr := by
    have h' := h
    unfold readMod1d at h'
    dsimp only at h'
    split at h'
    · cases h'
    split at h'
    · cases h'
    split at h'
    · cases h'
    rename_i st0 _
    generalize (if decide (zr ≤ zs) = true then st0.imax else st0.imin) = a at h'
    generalize (if decide (zr ≤ zs) = true then st0.imin else st0.imax) = b at h'
    by_cases c1 : onLiquid st0.lays b = true
    · rw [if_pos c1] at h'; cases h'
    rw [if_neg c1] at h'
    by_cases c2 : onLiquid st0.lays a = true
    · rw [if_pos c2] at h'; cases h'
    rw [if_neg c2] at h'
    injection h' with h'
    rw [← h']
    exact ⟨rfl, rfl⟩
  obtain ⟨d, u, f1, f2, f3, -⟩ := C57_dynamic_field h1 h2 ht hb hk hdone t (by
    rcases hz with hz | hz
    · left
      show decide (m.depsrc = 0 ∧ m.deprcv = 0) = false
      rw [hdep.1, hdep.2]; simpa using hz
    · exact .inr hz)
  exact ⟨d, u, f1, f2, f3⟩

/-! ### The hypotheses are reachable -/

noncomputable def crust : List (FLay ℝ) := [⟨10, ⟨6, 3.5, 2.7, 0, 0⟩⟩, ⟨0, ⟨8, 4.5, 3.3, 0, 0⟩⟩]

/-- A crust without attenuation, source at 5, receiver at 2: it loads, and the attenuation factors are 1.
(That the kernel also goes through, `r.done`, is exhibited over ℚ in `Kernel/Fail.lean` and `Blank.lean`.) -/
example : ∃ m, readMod1d crust 5 2 = .ok m ∧ m.lays.length = 4 ∧
    (∀ l ∈ crust, l.m.va ≠ 0 ∧ l.m.rho ≠ 0) ∧ NonZero m 1 1 := by
  refine ⟨⟨[⟨2, ⟨6, 3.5, 2.7, 0, 0⟩⟩, ⟨3, ⟨6, 3.5, 2.7, 0, 0⟩⟩, ⟨5, ⟨6, 3.5, 2.7, 0, 0⟩⟩,
      ⟨5 + 10^30, ⟨8, 4.5, 3.3, 0, 0⟩⟩], 2, 1, true, 5, 2, true⟩, ?_, rfl, ?_, ?_⟩
  · norm_num [readMod1d, crust, run, step, insertOne, setLast, onLiquid]
    intro h; cases h
  · intro l hl
    simp only [crust, List.mem_cons, List.not_mem_nil, or_false] at hl
    rcases hl with rfl | rfl <;> norm_num
  · intro i hi
    simp only [List.length_cons, List.length_nil] at hi
    interval_cases i <;> simp [Mod1d.at, atn, qinv]

/-- Equal factors without attenuation (the hypothesis of `C08_partial`). -/
example (w : ℂ) : atn true 600 1 w = atn true 300 1 w ∧ atn false 400 1 w = atn false 400 1 w := ⟨rfl, rfl⟩

end GRT.Model1D
