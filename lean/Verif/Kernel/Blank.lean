import Verif.Kernel.Fail

/-! C58: the DS row is overwritten by zero when source and receiver are both at depth zero.  With a free top
the value thrown away is a constant of the uppermost layer; with another top it is not. -/

set_option linter.unusedSectionVars false

namespace GRT.Kernel

open GRT.RT GRT.Layer Matrix

variable {K : Type*} [Field K] [CharZero K] [DecidableEq K]

theorem build_blank (E : Env K) (s : Store K) :
    buildQWV E s = outMap (fun b => { b with g := zeroDS E b.g }) (buildQWV { E with atZero := false } s) := by
  have h1 : srcAll { E with atZero := false } = srcAll E := rfl
  have hz : ∀ g, zeroDS { E with atZero := false } g = g := fun g => rfl
  unfold buildQWV
  simp only [h1, hz]
  rcases srcAll E with _ | _ | S
  · rfl
  · rfl
  dsimp only
  by_cases hu : E.ircvup = true
  · rw [if_pos hu, if_pos hu]
    by_cases ho : (recRU pFA pRS pFB s pFB).ok = true
    · rw [if_pos ho, if_pos ho]
      rcases RT.inv (oneSub (mul (recRU pFA pRS pFB s pBL).RD (recRU pFA pRS pFB s pFB).RU)) with _ | M
      · rfl
      · dsimp only
        split <;> rfl
    · rw [if_neg ho, if_neg ho]; rfl
  · rw [if_neg hu, if_neg hu]
    by_cases ho : (recRD pRS pBL pAL s pAL).ok = true
    · rw [if_pos ho, if_pos ho]
      rcases RT.inv (oneSub (mul (recRD pRS pBL pAL s pFA).RU (recRD pRS pBL pAL s pAL).RD)) with _ | M
      · rfl
      · dsimp only
        split <;> rfl
    · rw [if_neg ho, if_neg ho]; rfl

theorem loop_zero (E : Env K) (n iy : ℕ) (s : Store K) :
    loop { E with atZero := false } n iy s = loop E n iy s := by
  induction n generalizing iy s with
  | zero => rfl
  | succ n ih =>
    unfold loop
    have hb : body { E with atZero := false } iy s = body E iy s := rfl
    rw [hb]
    cases body E iy s <;> simp [Res.bind, ih]

/-- Apart from the DS row the flag changes nothing: the kernel is the unblanked kernel with that row
replaced. -/
theorem C58_only_DS (E : Env K) (s : Store K) (st : Bool) :
    kernel E s st = outMap (fun r => { r with g := zeroDS E r.g }) (kernel { E with atZero := false } s st) := by
  have hg : grtMatrix { E with atZero := false } s = grtMatrix E s := by
    unfold grtMatrix
    dsimp only
    have hm : ({ E with atZero := false } : Env K).maxidx = E.maxidx := rfl
    rw [loop_zero, hm]
    rfl
  unfold kernel
  rw [hg]
  rcases grtMatrix E s with _ | s1 | s1
  · rfl
  all_goals
    dsimp only
    rw [build_blank]
    rcases buildQWV { E with atZero := false } s1 with _ | _ | b <;> rfl

/-- What the model reader produces for source and receiver at depth zero in a solid: two virtual layers of
zero thickness on top. -/
structure BothAtTop (I : DynIn K) (m : Medium K) : Prop where
  isrc : I.isrc = 2
  ircv : I.ircv = 1
  up : I.ircvup = true
  lay : I.lay 0 = I.lay 2 ∧ I.lay 1 = I.lay 2
  solid : (I.lay 2).liquid = false
  ex0 : I.exa 0 = 1 ∧ I.exb 0 = 1
  ex1 : I.exa 1 = 1 ∧ I.exb 1 = 1
  nlay : 3 ≤ I.nlay
  fits : Fits I.c (I.lay 2) m
  lam : m.lam + 2 * m.mu ≠ 0

theorem freeBound_DS {l : Lay K} {k : K} {R : Mat2 K} (e : l.liquid = false) (hb : l.xb ≠ 0)
    (hR : freeBoundPSV l.liquid l.cbcb l.xa l.xb 1 = .ok R) :
    -![2*k, ((2 - l.cbcb) / l.xb) * k] = R *ᵥ ![-(2*k), ((2 - l.cbcb) / l.xb) * k] := by
  unfold freeBoundPSV at hR
  simp only [e, Bool.not_false, if_true] at hR
  split at hR
  · cases hR
  rename_i hD
  generalize hDe : -1 + l.xa * l.xb + l.cbcb - 1 / 4 * l.cbcb * l.cbcb = D at hR hD
  injection hR with hR
  subst hR
  ext i
  rw [mv_apply]
  fin_cases i <;> simp only [Pi.neg_apply, Matrix.of_apply, Matrix.cons_val_zero, Matrix.cons_val_one, Matrix.cons_val',
    Matrix.cons_val_fin_one, Fin.zero_eta, Fin.mk_one, Fin.isValue] <;> field_simp <;> rw [← hDe] <;> ring

theorem scat_thin {I : DynIn K} {i : ℕ} (ha : I.exa i = 1) (hb : I.exb i = 1) (d u d' u' : Amp K) :
    Scat (respV (dynEnv I) (i+1) transparent transparentSH) d u d' u' ↔ d = d' ∧ u = u' := by
  have : respV (dynEnv I) (i+1) transparent transparentSH =
      ofParts (delayPSV (I.exa i) (I.exb i) transparent) (delaySH (I.exb i) transparentSH) := rfl
  rw [this, ha, hb, ← scat_reset d u d' u']
  have e : (ofParts (delayPSV 1 1 transparent) (delaySH 1 transparentSH) : RTM K).TD = 1 := by
    ext a b; fin_cases a <;> fin_cases b <;> simp [ofParts, delayPSV, transparent]
  have e2 : (ofParts (delayPSV 1 1 transparent) (delaySH 1 transparentSH) : RTM K).TU = 1 := by
    ext a b; fin_cases a <;> fin_cases b <;> simp [ofParts, delayPSV, transparent]
  have e3 : (ofParts (delayPSV 1 1 transparent) (delaySH 1 transparentSH) : RTM K).RD = 0 := by
    ext a b; fin_cases a <;> fin_cases b <;> simp [ofParts, delayPSV, transparent]
  have e4 : (ofParts (delayPSV 1 1 transparent) (delaySH 1 transparentSH) : RTM K).RU = 0 := by
    ext a b; fin_cases a <;> fin_cases b <;> simp [ofParts, delayPSV, transparent]
  simp only [Scat, Scatter, ScatterSH, e, e2, e3, e4, resetM, eye_eq]
  simp [ofParts, delaySH, transparentSH]

/-- C58 with a free top: the DS row the kernel would have returned is, for every structure below, every
bottom and every wavenumber, `q = -v = -2ρω²/μ`, `w = 0`, with derivatives `q' = v' = 0`,
`w' = 2ρω²k (2/(λ+2μ) - 1/μ)`: a constant in `q`, a multiple of `k` in `w'`, and `q + v = 0`.  (Their
inverse transforms `∫ J_0(kr) k dk`, `∫ k J_1(kr) k dk` are concentrated at `r = 0`; this last step is not
part of the theorem.) -/
theorem C58_free_partial {I : DynIn K} {m : Medium K} (h : BothAtTop I m) (htop : I.top = .free) {s : Store K} {st : Bool}
    (ht : ∃ R, (dynEnv I).topP = .ok R) (hb : 3 < I.nlay → ∃ R, (dynEnv I).botP = .ok R)
    {r : Kern K} (hk : kernel { dynEnv I with atZero := false } s st = .ok r) (hd : r.done = true) :
    let f := 2 * m.rho * (I.c * I.k)^2
    r.g.u .DS = ⟨![-(f / m.mu), 0], f / m.mu⟩ ∧
    r.g.uz .DS = ⟨![0, f * I.k * (2 / (m.lam + 2 * m.mu) - 1 / m.mu)], 0⟩ := by
  intro f
  have hE : ({ dynEnv I with atZero := false } : Env K) = dynEnv { I with atZero := false } := rfl
  rw [hE] at hk
  generalize hJ : ({ I with atZero := false } : DynIn K) = J at hk
  have j1 : J.isrc = 2 := by rw [← hJ]; exact h.isrc
  have j2 : J.ircv = 1 := by rw [← hJ]; exact h.ircv
  have j3 : J.nlay = I.nlay := by rw [← hJ]
  have j4 : J.lay = I.lay := by rw [← hJ]
  have j5 : J.k = I.k := by rw [← hJ]
  have j6 : J.exa = I.exa := by rw [← hJ]
  have j7 : J.exb = I.exb := by rw [← hJ]
  have j8 : J.top = .free := by rw [← hJ]; exact htop
  have j9 : J.ircvup = true := by rw [← hJ]; exact h.up
  have imax : (dynEnv J).imax = 2 := by
    show max J.isrc J.ircv = 2
    rw [j1, j2]; rfl
  have hw : WF (dynEnv J) := by
    refine ⟨?_, ?_, ?_, ?_⟩
    · show 1 ≤ min J.isrc J.ircv
      rw [j1, j2]; decide
    · rw [imax]; show 2 < J.nlay; rw [j3]; exact h.nlay
    · intro _; show J.ircv < J.isrc; rw [j1, j2]; decide
    · intro hh; have : J.ircvup = false := hh; rw [j9] at this; cases this
  obtain ⟨S, hS, ⟨d0, u0, hW0⟩, hall⟩ := C57_kernel (dyn_good J) hw (dyn_reads J)
    (by rw [← hJ]; exact ht)
    (by intro hh; rw [imax] at hh; have h3 : 2 + 1 < J.nlay := hh
        rw [← hJ]; exact hb (by rw [← j3]; exact h3)) hk hd .DS (.inl (by rw [← hJ]; rfl))
  -- the source row
  have hS' : srcRow J.k (J.lay J.isrc) .DS = .ok S := hS
  rw [j1, j4, j5] at hS'
  unfold srcRow at hS'
  split at hS'
  · cases hS'
  rename_i hx
  have hxb : (I.lay 2).xb ≠ 0 := fun e => hx (.inr e)
  injection hS' with hS'
  subst hS'
  -- the field: nothing below the source, the constant above
  obtain ⟨R, hR, -, -⟩ := hW0.top
  have hR' : freeBoundPSV (I.lay 2).liquid (I.lay 2).cbcb (I.lay 2).xa (I.lay 2).xb 1 = .ok R := by
    have : (dynEnv J).topP = freeBoundPSV (J.lay 0).liquid (J.lay 0).cbcb (J.lay 0).xa (J.lay 0).xb 1 := by
      simp only [dynEnv, j8]
    rw [this, j4, h.lay.1] at hR
    exact hR
  have hts : (dynEnv J).topS = 1 := by
    have : (dynEnv J).topS = freeBoundSH (J.lay 0).liquid := by simp only [dynEnv, j8]
    rw [this, j4, h.lay.1, h.solid]; rfl
  have hmaxidx : 2 < (dynEnv J).maxidx := by
    show 2 < if (dynEnv J).imax + 1 = J.nlay then J.nlay else J.nlay - 1
    rw [imax, j3]; have := h.nlay; split <;> omega
  have hW := hall (fun i => if i < 2 then (-![2*I.k, ((2 - (I.lay 2).cbcb) / (I.lay 2).xb) * I.k], (I.lay 2).cbcb * I.k) else 0)
    (fun i => if i < 2 then (![-(2*I.k), ((2 - (I.lay 2).cbcb) / (I.lay 2).xb) * I.k], (I.lay 2).cbcb * I.k) else 0)
    (by
      constructor
      · refine ⟨R, hR, ?_, ?_⟩
        · simpa using freeBound_DS h.solid hxb hR'
        · rw [hts]; simp
      · intro i hi
        obtain ⟨P, Q, hv, hs⟩ := hW0.iface i hi
        refine ⟨P, Q, hv, ?_⟩
        have hv' := hv
        unfold ifaceV at hv'
        rcases Nat.lt_or_ge i 2 with hi2 | hi2
        · have hPQ : P = transparent ∧ Q = transparentSH := by
            rw [if_neg] at hv'
            · exact hv'
            · show ¬ ((!true || (i + 1 != J.isrc && i + 1 != J.ircv)) = true)
              rw [j1, j2]
              interval_cases i <;> simp
          rw [hPQ.1, hPQ.2, scat_thin]
          · have e : (dynEnv J).isrc = 2 := j1
            rw [e]
            interval_cases i <;> simp
          · rw [j6]; interval_cases i; exacts [h.ex0.1, h.ex1.1]
          · rw [j7]; interval_cases i; exacts [h.ex0.2, h.ex1.2]
        · have e : (dynEnv J).isrc = 2 := j1
          rw [e]
          have a1 : ¬ i < 2 := by omega
          have a2 : ¬ i + 1 < 2 := by omega
          have a3 : ¬ i + 1 = 2 := by omega
          simp [a1, a2, a3, Scat, Scatter, ScatterSH]
      · have hbot := hW0.bottom
        have a4 : ∀ n, 3 ≤ n → ¬ (n - 1 < 2) := by intro n hn; omega
        have hn : 3 ≤ (dynEnv J).nlay := by
          show 3 ≤ J.nlay
          rw [j3]; exact h.nlay
        by_cases hc : (dynEnv J).imax + 1 < (dynEnv J).nlay
        · rw [if_pos hc] at hbot ⊢
          obtain ⟨R', r', g1, g2, -, -⟩ := hbot
          have : ¬ ((dynEnv J).nlay - 2 < 2) := by rw [imax] at hc; omega
          exact ⟨R', r', g1, g2, by simp [this], by simp [this]⟩
        · rw [if_neg hc]
          simp [a4 _ hn])
  have ei : (dynEnv J).ircv = 1 := j2
  rw [ei] at hW
  simp only [show (1:ℕ) < 2 from by decide, if_true] at hW
  obtain ⟨hu, hz⟩ := hW
  obtain ⟨hm0, hcb⟩ := h.fits.sol h.solid
  have hcb' : (I.lay 2).cbcb = m.rho * (I.c * I.c) / m.mu := by
    rw [eq_div_iff hm0]; linear_combination hcb
  have hca' : (I.lay 2).caca = m.rho * (I.c * I.c) / (m.lam + 2 * m.mu) := by
    rw [eq_div_iff h.lam]; linear_combination h.fits.ca
  have hlamne := h.lam
  constructor
  · rw [hu]
    simp only [Recv.obs, dynV, j2, j4, j5, h.lay.2, h.solid, D11, D12, Bool.not_false, if_true, Bool.false_eq_true, if_false,
      Row.mk.injEq]
    constructor
    · ext i
      rw [Pi.add_apply, mv_apply, mv_apply]
      fin_cases i <;> simp only [Pi.neg_apply, Matrix.of_apply, Matrix.cons_val_zero, Matrix.cons_val_one, Matrix.cons_val',
        Matrix.cons_val_fin_one, Fin.zero_eta, Fin.mk_one, Fin.isValue] <;> field_simp <;> (try rw [hcb']) <;> (try field_simp) <;> (try simp only [f]) <;> ring
    · rw [hcb']; simp only [f]; field_simp; ring
  · rw [hz]
    simp only [Recv.obs, dynW, j2, j4, j5, h.lay.2, h.solid, D11z, D12z, Bool.false_eq_true, if_false,
      Row.mk.injEq]
    have hxa := h.fits.xa
    constructor
    · ext i
      rw [Pi.add_apply, mv_apply, mv_apply]
      fin_cases i <;> simp only [Pi.neg_apply, Matrix.of_apply, Matrix.cons_val_zero, Matrix.cons_val_one, Matrix.cons_val',
        Matrix.cons_val_fin_one, Fin.zero_eta, Fin.mk_one, Fin.isValue]
      · field_simp; ring
      · have e1 : (I.lay 2).xb * (I.k * I.k * (I.lay 2).xb) = I.k * I.k * ((I.lay 2).xb * (I.lay 2).xb) := by ring
        have e2 : (I.lay 2).xa * (I.k * I.k * (I.lay 2).xa) = I.k * I.k * (1 - (I.lay 2).caca) := by rw [← hxa]; ring
        rw [e2, hca', hcb']
        simp only [f]
        field_simp
        ring
    · ring

/-- Concrete input: a layer over a half-space, source and receiver at the free surface. -/
def inD (top : Bound) : DynIn ℚ :=
  ⟨3, 1, 4, 2, 1, true, true, fun i => if i < 3 then lA else lB, ofList [1, 1, 1/2, 1], ofList [1, 1, 2/3, 1], top, .half⟩

example : BothAtTop (inD .free) mA :=
  ⟨rfl, rfl, rfl, ⟨rfl, rfl⟩, rfl, ⟨rfl, rfl⟩, ⟨rfl, rfl⟩, by decide, by constructor <;> norm_num [inD, lA, mA], by norm_num [mA]⟩
example : goesThrough { dynEnv (inD .free) with atZero := false } = true := by decide +kernel

/-- C58 fails for a top that is not free: in a whole space (top half-space, option `-B`) the DS row of a
source and a receiver at depth zero is blanked although its vertical component is not zero.  (A nonzero
`w`, even a constant one, is felt at every distance: `∫ J_1(kr) k dk = 1/r²`.) -/
theorem C58_violated_halfspace :
    ∃ r r0, kernel (dynEnv (inD .half)) (fun _ => resetM) true = .ok r ∧
      kernel { dynEnv (inD .half) with atZero := false } (fun _ => resetM) true = .ok r0 ∧
      r.done = true ∧ r0.done = true ∧ r.g.u .DS = ⟨0, 0⟩ ∧ (r0.g.u .DS).qw 1 ≠ 0 := by
  have : (match kernel { dynEnv (inD .half) with atZero := false } (fun _ => resetM) true with
      | .ok r => decide (r.done = true ∧ (r.g.u .DS).qw 1 ≠ 0)
      | _ => false) = true := by decide +kernel
  rw [C58_only_DS]
  revert this
  rcases kernel { dynEnv (inD .half) with atZero := false } (fun _ => resetM) true with _ | _ | r
  · simp
  · simp
  · intro h
    have h := of_decide_eq_true h
    exact ⟨_, r, rfl, rfl, h.1, h.1, rfl, h.2⟩

end GRT.Kernel

/-! ### The hypotheses of the physical form of C57 -/

namespace GRT.Kernel
open GRT.Layer

/-- A solid over another one, over the complex numbers. -/
noncomputable def layC (i : ℕ) : Lay ℂ :=
  if i < 3 then ⟨false, 1, 25/16, 12/13, 3/5, 25/169, 16/25⟩ else ⟨false, 2, 169/72, 4/5, 5/13, 9/25, 144/169⟩
noncomputable def medC (i : ℕ) : Medium ℂ :=
  if i < 3 then ⟨1, 169/25 - 25/8, 25/16⟩ else ⟨2, 50/9 - 169/36, 169/72⟩
noncomputable def thkC (i : ℕ) : ℝ := if i = 0 then 0 else 2

noncomputable def inE : DynIn ℂ :=
  ⟨2, 1, 4, 2, 1, true, false, layC, fun i => Complex.exp (-2 * thkC i * (layC i).xa),
    fun i => Complex.exp (-2 * thkC i * (layC i).xb), .free, .half⟩

example : DynOk inE thkC medC ∧ WF (dynEnv inE) := by
  refine ⟨⟨?_, fun i => rfl, fun i => rfl, ?_, ?_, ?_⟩, ⟨by decide, by decide, by decide, by decide⟩⟩
  · intro i _
    by_cases h : i < 3
    · constructor <;> norm_num [inE, layC, medC, h]
    · constructor <;> norm_num [inE, layC, medC, h]
  · constructor <;> norm_num [inE, layC, medC]
  · constructor <;> norm_num [inE, layC, medC]
  · norm_num [inE, layC, medC]

end GRT.Kernel
