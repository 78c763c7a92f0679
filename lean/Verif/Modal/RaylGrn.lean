import Verif.Modal.RaylRes
import Verif.Modal.RaylVarEx
import Verif.Modal.ModGrn

/-! What a Rayleigh mode adds to the spectra: modgrn.c 18-121 and 218-251. -/

set_option linter.unusedSectionVars false

namespace GRT.Modal

open GRT.RT GRT.Layer GRT.Kernel Filter Complex MeasureTheory Topology Matrix

/-! ### Model -/

/-- The rows `T0_z`, modgrn.c 72-79. -/
def rowZ (k : ℂ) (l : Lay ℂ) : Matrix (Fin 2) (Fin 4) ℂ :=
  let ak := k * k * l.xa
  let bk := k * k * l.xb
  let bb := l.xb * bk
  let aa := l.xa * ak
  !![ak, bb, -ak, bb; aa, bk, aa, -bk]

/-- The eigenfunction routine called with the rows `T0_z` (modgrn.c 81-83, eigenfn.c 313-352): depth derivatives of the horizontal and the
vertical displacement; in liquids the zeros of modgrn.c 64 are left. -/
noncomputable def raylOutZ (M : ModeIn ℂ) (S : ℕ → PSV ℂ) (thk : ℕ → ℝ) (iref : ℕ) (p : Amp4 ℂ × Amp4 ℂ) (i : ℕ) (z : ℝ) : ℂ × ℂ :=
  if (M.lay i).liquid then (0, 0)
  else
    let a := M.k * (M.lay i).xa
    let b := M.k * (M.lay i).xb
    let v : Fin 4 → ℂ := ![exp (-(a * (thk i - z))) * (potUpR M S iref p (i+1)).up 0, exp (-(b * (thk i - z))) * (potUpR M S iref p (i+1)).up 1,
      exp (-(a * z)) * (potDownR M S iref p i).dn 0, exp (-(b * z)) * (potDownR M S iref p i).dn 1]
    (∑ j, rowZ M.k (M.lay i) 0 j * v j, ∑ j, rowZ M.k (M.lay i) 1 j * v j)

/-- `fcoef`, modgrn.c 42-47. -/
noncomputable def fcoefR (k : ℂ) (l : Lay ℂ) (D U : Fin 2 → ℂ) : Fin 4 → ℂ :=
  let a := k * l.xa
  let b := k * l.xb
  let Omg := k * k * (1 - 1/2 * l.cbcb)
  ![k * (D 0 - U 0) - b * (D 1 + U 1), -a * (D 0 + U 0) + k * (D 1 - U 1),
    2 * l.mu * (Omg * (D 0 - U 0) - k * b * (D 1 + U 1)), 2 * l.mu * (-(k * a * (D 0 + U 0)) + Omg * (D 1 - U 1))]

/-- Displacement, its depth derivative and its radial derivative. -/
structure Spec3 where
  u : ℂ
  uz : ℂ
  ur : ℂ

/-- What `grt_modsum_grn_Rayl` (modgrn.c 18-121) adds to the vertical and the radial spectrum of source `t` at distance `r`; arguments as
in `modLove`, `I2` and `I3` the second and third energy integrals.  Divisions by zero are `undef`. -/
noncomputable def modRayl (M : ModeIn ℂ) (S : ℕ → PSV ℂ) (thk : ℕ → ℝ) (iref : ℕ) (p : Amp4 ℂ × Amp4 ℂ) (I2 I3 : ℂ) (k omega rho : ℝ)
    (isrc : ℕ) (zs : ℝ) (ircv : ℕ) (zr : ℝ) (t : Src) (r : ℝ) : Out (Spec3 × Spec3) :=
  open Classical in
  match srcRow (k : ℂ) (M.lay isrc) t with
  | .ok R =>
    let f := fcoefR k (M.lay isrc) R.D R.U
    let e := raylOut M S thk iref p isrc zs
    let F := f 0 * e.t + f 1 * e.s - f 2 * e.w - f 3 * e.q
    let y := raylOut M S thk iref p ircv zr
    let yz := raylOutZ M S thk iref p ircv zr
    let dom := 4 * I2 - 2 * I3 / k
    let aa : ℂ := -1 / (4 * rho * (omega : ℂ) ^ 2)
    if k = 0 ∨ dom = 0 ∨ rho = 0 ∨ omega = 0 ∨ k * r = 0 then .undef
    else
      let wcoef := y.w * iPow (srcOrder t) * F / dom * aa
      let wcoefz := yz.2 * iPow (srcOrder t) * F / dom * aa
      let qcoef := I * y.q * iPow (srcOrder t) * F / dom * aa
      let qcoefz := I * yz.1 * iPow (srcOrder t) * F / dom * aa
      .ok (⟨wcoef * ekr k r, wcoefz * ekr k r, wcoef * (-k * ekr k r * I)⟩,
        ⟨-qcoef * ekr k r, -qcoefz * ekr k r, -qcoef * (-k * ekr k r * I)⟩)
  | .fail => .fail
  | .undef => .undef

/-- `grt_modsum_grn`, modgrn.c 218-251, for Rayleigh modes: the DS row is overwritten by zero if source and receiver are at depth zero. -/
noncomputable def modsumRayl (M : ModeIn ℂ) (S : ℕ → PSV ℂ) (thk dep : ℕ → ℝ) (iref : ℕ) (p : Amp4 ℂ × Amp4 ℂ) (I2 I3 : ℂ)
    (k omega rho : ℝ) (isrc : ℕ) (zs : ℝ) (ircv : ℕ) (zr : ℝ) (t : Src) (r : ℝ) : Out (Spec3 × Spec3) :=
  open Classical in
  if dep isrc + zs = 0 ∧ dep ircv + zr = 0 ∧ t = .DS then .ok (⟨0, 0, 0⟩, ⟨0, 0, 0⟩)
  else modRayl M S thk iref p I2 I3 k omega rho isrc zs ircv zr t r

/-! ### Specification -/

/-- The contribution of a simple pole `k0` to the vertical displacement `-1/(4πρω²) ∫ w J_m(kr) k dk` (C64; factor and contour as in
`poleT`); `res` is the residue of `w`. -/
noncomputable def poleZ (m : ℕ) (rho omega k0 r : ℝ) (res : ℂ) : ℂ :=
  -1 / (4 * Real.pi * rho * (omega : ℂ) ^ 2) * (-(2 * Real.pi * I) / 2 * (k0 * res * hankelFar m (k0 * r)))

/-- The same for the radial displacement `-1/(4πρω²) ∫ q J'_m(kr) k dk`; `res` is the residue of `q`. -/
noncomputable def poleR (m : ℕ) (rho omega k0 r : ℝ) (res : ℂ) : ℂ :=
  -1 / (4 * Real.pi * rho * (omega : ℂ) ^ 2) * (-(2 * Real.pi * I) / 2 * (k0 * res * (-I * hankelFar m (k0 * r))))

/-- All free waves of this wavenumber and frequency are multiples of one of them. -/
def SimpleMode (n : ℕ) (liq : ℕ → Bool) (m : ℕ → Medium ℂ) (thk : ℕ → ℝ) (k om : ℂ) : Prop :=
  ∀ y y', RaylField n liq m thk k om y → RaylField n liq m thk k om y' → (∃ i, i < n ∧ ∃ z, y' i z ≠ ⟨0, 0, 0, 0⟩) →
    ∃ a : ℂ, ∀ i, i < n → ∀ z, y i z = sc a (y' i z)

/-! ### The jump across the source -/

theorem fcoef_jump {c k : ℂ} {l : Lay ℂ} {m : Medium ℂ} (h : Fits c l m) (hlam : m.lam + 2 * m.mu ≠ 0) {t : Src}
    (ht : l.liquid = true → t = .EX) {R : SrcRow ℂ} [DecidableEq ℂ] (hR : srcRow k l t = .ok R) :
    jump k ((c * k)^2) m (srcForce k (2 * m.rho * (c * k)^2) t) =
      ⟨fcoefR k l R.D R.U 0, fcoefR k l R.D R.U 1, fcoefR k l R.D R.U 2, fcoefR k l R.D R.U 3⟩ := by
  cases e : l.liquid
  · obtain ⟨h1, h2, h3, h4⟩ := C17_jump_PSV h e hlam hR 0 0
    obtain ⟨g1, g2, g3, g4⟩ := psvState_sub k m l 0 0 R.D R.U
    rw [g1] at h1; rw [g2] at h2; rw [g3] at h3; rw [g4] at h4
    rw [psvState_solid h e] at h1 h2 h3 h4
    obtain ⟨-, hb⟩ := h.sol e
    have hm := h.mu
    refine MS.ext (h1.symm.trans ?_) (h2.symm.trans ?_) (h3.symm.trans ?_) (h4.symm.trans ?_) <;>
      simp only [fcoefR, Pi.neg_apply, Matrix.cons_val_zero, Matrix.cons_val_one, Matrix.cons_val, hm] <;>
      first | ring | (have := h.xb; grind)
  · obtain rfl := ht e
    have hm := h.liq e
    have hmu := h.mu
    rw [hm] at hlam hmu
    obtain ⟨h3, h4, h2, -, -, -⟩ := C17_jump_liquid h e (by simpa using hlam) hR 0 0
    have hca := h.ca
    rw [hm] at hca
    unfold srcRow at hR
    split at hR
    · cases hR
    rename_i hx
    rw [not_or] at hx
    injection hR with hR
    subst hR
    have hl : m.lam ≠ 0 := by simpa using hlam
    have r1 : l.caca / l.xa * l.xa = l.caca := div_mul_cancel₀ _ hx.1
    simp only [jump, motionRhs, srcForce, momentDiag, fcoefR, hm, hmu, Matrix.cons_val_zero, Matrix.cons_val_one, Matrix.cons_val]
    refine MS.ext ?_ ?_ ?_ ?_ <;> simp only [neg_neg, neg_zero, mul_zero, zero_div, add_zero, zero_mul, sub_zero] <;> try ring1
    · rw [div_eq_iff hl]
      linear_combination (2 * k^2) * hca + (2 * m.lam * k^2) * r1
    · field_simp
      ring

theorem jump_lim {ι : Type*} {F : Filter ι} {kk : ι → ℂ} {k : ℂ} (hk : Tendsto kk F (𝓝 k)) (om2 f : ℂ) (m : Medium ℂ) (t : Src) :
    To F (fun x => jump (kk x) om2 m (srcForce (kk x) f t)) (jump k om2 m (srcForce k f t)) := by
  have c : ∀ g : ℂ → ℂ, Continuous g → Tendsto (fun x => g (kk x)) F (𝓝 (g k)) := fun g hg => (hg.tendsto k).comp hk
  refine ⟨c (fun k => (jump k om2 m (srcForce k f t)).q) ?_, c (fun k => (jump k om2 m (srcForce k f t)).w) ?_,
    c (fun k => (jump k om2 m (srcForce k f t)).s) ?_, c (fun k => (jump k om2 m (srcForce k f t)).t) ?_⟩ <;>
  cases t <;> simp only [jump, motionRhs, srcForce, momentDiag, momentVH, momentHH, forceH, forceV, div_eq_mul_inv] <;> fun_prop

theorem hankel_ekr0 (t : Src) (k r : ℝ) : hankelFar (azim t) (k * r) = I * iPow (srcOrder t) * ekr k r := by
  rw [azim_eq]
  by_cases h : azim t = 0
  · rw [h]
    unfold hankelFar ekr
    rw [show Real.pi * (k * r) = Real.pi * k * r by ring]
    have e : exp (-I * (((k * r : ℝ) : ℂ) - (0:ℕ) * (Real.pi / 2) - Real.pi / 4)) =
        exp (Real.pi / 2 * I) * exp (-I * (k * r + Real.pi / 4)) := by
      rw [← Complex.exp_add]
      congr 1
      push_cast
      ring
    rw [e, Complex.exp_pi_div_two_mul_I]
    simp only [iPow]
    ring
  · exact hankel_ekr _ (by cases t <;> simp [azim] at h ⊢) k r

/-- A free wave is made of P and S waves. -/
theorem rayl_waves {n : ℕ} {liq : ℕ → Bool} {m : ℕ → Medium ℂ} {thk : ℕ → ℝ} {k c : ℂ} {l : ℕ → Lay ℂ} {y : ℕ → ℝ → MS ℂ} (hn : 1 ≤ n)
    (h : RaylField n liq m thk k (c * k) y) (k0 : k ≠ 0) (c0 : c ≠ 0) (hl : ∀ i, (l i).liquid = liq i) (fits : ∀ i, i < n → Fits c (l i) (m i))
    (lam : ∀ i, i < n → (m i).lam + 2 * (m i).mu ≠ 0) (xa0 : ∀ i, i < n → (l i).xa ≠ 0) (xb0 : ∀ i, i < n → (l i).xb ≠ 0)
    (ta : 0 < (k * (l (n-1)).xa).re) (tb : 0 < (k * (l (n-1)).xb).re) :
    ∃ u d, WaveField n c k l m y u d := by
  have H : ∀ i, ∃ u d : Fin 2 → ℂ, i < n → y i = psvField k (m i) (l i) u d ∧ (liq i = true → u 1 = 0 ∧ d 1 = 0) := by
    intro i
    by_cases hi : i < n
    · cases e : liq i
      · obtain ⟨u, d, h⟩ := solid_general (fits i hi) (by rw [hl, e]) k0 c0 (xa0 i hi) (xb0 i hi) (lam i hi) (h.solid i hi e)
        exact ⟨u, d, fun _ => ⟨funext h, fun q => by cases q⟩⟩
      · obtain ⟨u, d, h1, h2, h⟩ := liquid_general (fits i hi) (by rw [hl, e]) k0 c0 (xa0 i hi) (lam i hi) (h.liquid i hi e)
        exact ⟨u, d, fun _ => ⟨funext h, fun _ => ⟨h1, h2⟩⟩⟩
    · exact ⟨0, 0, fun h => absurd h hi⟩
  choose u d g using H
  refine ⟨u, d, fits, fun i hi => (g i hi).1, ?_, ta, tb⟩
  have hi : n - 1 < n := by omega
  obtain ⟨e, e'⟩ := g (n-1) hi
  obtain ⟨a, b, a', b'⟩ := h.decay
  obtain ⟨p, q⟩ := half_no_upgoing (fits (n-1) hi) k0 c0 (xa0 _ hi) (xb0 _ hi) ta tb (fun z => congrFun e z) a b a' b'
  rw [hl] at q
  refine ext2 p ?_
  cases g : liq (n-1)
  · exact q g
  · exact (e' g).1

/-! ### C91 -/

/-- C91: let the secular function vanish at wavenumber `k`, the mode being simple.  For wavenumbers `kk` tending to `k`, let `up`, `low` be
the P-SV motion excited by source `t` (in the normalisation of the kernels, C17; in a liquid an explosion), with at most a simple pole.
Then what the modal summation adds for this mode to the vertical and radial spectra is the contribution of the pole to the wavenumber
integrals, at a large distance. -/
theorem C91_pole {M : ModeIn ℂ} {S : ℕ → PSV ℂ} {m : ℕ → Medium ℂ} {thk dep : ℕ → ℝ} (hI : DescribesR M S m thk) {iref : ℕ}
    (hi : iref + 1 < M.nlay) (ok : SoundR M S iref) {low' big : Bool} {p : Amp4 ℂ × Amp4 ℂ}
    (h : raylSecular M S (parC low' big) iref = .ok ⟨0, some p⟩)
    (hx : mixed M iref = true → p.2.up 0 = 0 →
      (1 - (S iref).RD * (expM M (iref-1) * ((allFRR M S (iref-1)).RU * expM M (iref-1)))).det ≠ 0)
    {k omega rho : ℝ} (hk : M.k = k) (hck : M.c * M.k = omega)
    (simple : SimpleMode M.nlay (fun i => (M.lay i).liquid) m thk k omega)
    (hlm : ∀ i, i < M.nlay → (m i).lam + (m i).mu ≠ 0) {lam : ℕ → ℂ} (hlam : ∀ i, i < M.nlay → lam i = (m i).lam)
    (hdep : ∀ i, dep (i+1) = dep i + thk i) (hthk : ∀ i, i + 1 < M.nlay → 0 < thk i) (cdz : ℝ) (hc : 0 ≤ cdz)
    (hfine : ∀ i, i + 1 < M.nlay → cdz * (1 / 100000) ≤ thk i) (fuel : ℕ) (hf : 1 ≤ fuel)
    {isrc : ℕ} {zs : ℝ} (hsrc : isrc < M.nlay) (hzs : 0 ≤ zs) (hrho : (m isrc).rho = rho)
    {ircv : ℕ} {zr : ℝ} (hrcv : ircv < M.nlay) {t : Src} (ht : (M.lay isrc).liquid = true → t = .EX) {r : ℝ}
    {ι : Type*} {F : Filter ι} [F.NeBot] {kk : ι → ℂ} (hkk : Tendsto kk F (𝓝 (k : ℂ)))
    {up low : ι → ℕ → ℝ → MS ℂ}
    (resp : ∀ᶠ x in F, ForcedPSV M.nlay (fun i => (M.lay i).liquid) m thk (kk x) omega isrc zs
      (jump (kk x) ((omega : ℂ)^2) (m isrc) (srcForce (kk x) (2 * (m isrc).rho * (omega : ℂ)^2) t)) (up x) (low x))
    (pole : ∀ y, y = up ∨ y = low → ∀ i, i < M.nlay → ∃ a, To F (fun x => sc (kk x - k) (y x i 0)) a)
    {out : Spec3 × Spec3}
    (hout : let egy := egyR M lam (thinR M thk dep (potUpR M S iref p) (potDownR M S iref p) (thinLayers M.nlay thk dep cdz fuel))
      modRayl M S thk iref p egy.2.1 egy.2.2.1 k omega rho isrc zs ircv zr t r = .ok out) :
    ∃ res : MS ℂ, (∀ y, y = up ∨ y = low → To F (fun x => sc (kk x - k) (y x ircv zr)) res) ∧
      out.1.u = poleZ (azim t) rho omega k r res.w ∧ out.2.u = poleR (azim t) rho omega k r res.q := by
  obtain ⟨mode, mv⟩ := C87_mode_partial hI hi ok h hx
  have hk0 : (k:ℂ) ≠ 0 := hk ▸ hI.k0
  set y0 := raylOut M S thk iref p with hy0
  obtain ⟨-, e2, e3⟩ := egy_over hI (iref := iref) (p := p) (by omega) hlm hlam hdep hthk cdz hc hfine fuel hf (y := y0) (fun _ _ _ => rfl)
  dsimp only at hout
  set egy := egyR M lam (thinR M thk dep (potUpR M S iref p) (potDownR M S iref p) (thinLayers M.nlay thk dep cdz fuel)) with hegy
  have size : sizeR M.nlay m thk k y0 = k * (4 * egy.2.1 - 2 * egy.2.2.1 / k) := by
    have : (k:ℂ) * (4 * egy.2.1 - 2 * egy.2.2.1 / k) = 2 * k * (2 * egy.2.1) + -2 * egy.2.2.1 := by field_simp; ring
    rw [this, e2, e3, sizeR, Finset.mul_sum, ← Finset.sum_add_distrib]
    refine Finset.sum_congr rfl fun i _ => ?_
    simp [Fin.sum_univ_four, db]
    ring
  obtain ⟨u, d, W⟩ := rayl_waves (by omega) mode hI.k0 hI.c0 (fun _ => rfl) hI.fits hI.lam hI.xa0 hI.xb0 hI.ta hI.tb
  unfold modRayl at hout
  cases hs : (open Classical in srcRow (k:ℂ) (M.lay isrc) t) with
  | fail => rw [hs] at hout; cases hout
  | undef => rw [hs] at hout; cases hout
  | ok R =>
  rw [hs] at hout
  dsimp only at hout
  split at hout
  · cases hout
  rename_i hne
  injection hout with hout
  push Not at hne
  obtain ⟨n0, n1, n2, n3, n4⟩ := hne
  have hcw : M.c * (k:ℂ) = omega := by rw [← hk]; exact hck
  have J := fcoef_jump (hI.fits isrc hsrc) (hI.lam isrc hsrc) ht hs
  rw [hcw] at J
  rw [hck, hk] at mode
  rw [hk] at W
  have nz : ∃ i, i < M.nlay ∧ ∃ z, y0 i z ≠ ⟨0, 0, 0, 0⟩ := by
    rcases mv with ⟨z, hz⟩ | ⟨-, z, hz⟩
    · exact ⟨iref, by omega, z, hz⟩
    · exact ⟨iref - 1, by omega, z, hz⟩
  have hN : sizeR M.nlay m thk k y0 ≠ 0 := by rw [size]; exact mul_ne_zero hk0 n1
  have res := residue_PSV (n := M.nlay) (liq := fun i => (M.lay i).liquid) (m := m) (thk := thk) (k0 := k) (c0 := M.c) (om := omega)
    (js := isrc) (h := zs) (by omega) mode W hcw (fun _ => rfl) hk0 hI.c0 hI.xa0 hI.xb0 hI.lam (fun y hy => simple y y0 hy mode nz) hsrc hzs
    hkk (jump_lim hkk _ _ (m isrc) t) resp pole hN
  refine ⟨_, fun y hy => res y hy ircv hrcv zr, ?_⟩
  have r0 : (rho:ℂ) ≠ 0 := by exact_mod_cast n2
  have o0 : (omega:ℂ) ≠ 0 := by exact_mod_cast n3
  have p0 : (Real.pi:ℂ) ≠ 0 := by exact_mod_cast Real.pi_pos.ne'
  rw [← hout, J, size, poleZ, poleR, hankel_ekr0]
  simp only [pairJ, sc]
  generalize 4 * egy.2.1 - 2 * egy.2.2.1 / (k:ℂ) = dom at n1
  have i2 := Complex.I_mul_I
  constructor
  · field_simp
    grind
  · field_simp
    grind

/-! ### C92 -/

theorem rowZ_eq (k : ℂ) (l : Lay ℂ) (e : l.liquid = false) : rowZ k l = side (D11z k l) (D12z k l) := by
  ext i j
  fin_cases i <;> fin_cases j <;> simp [rowZ, side, D11z, D12z, e]

theorem raylOutZ_deriv {M : ModeIn ℂ} {S : ℕ → PSV ℂ} {thk : ℕ → ℝ} {iref : ℕ} {p : Amp4 ℂ × Amp4 ℂ} (i : ℕ)
    (e : (M.lay i).liquid = false) (z : ℝ) :
    HasDerivAt (fun z => (raylOut M S thk iref p i z).q) (raylOutZ M S thk iref p i z).1 z ∧
    HasDerivAt (fun z => (raylOut M S thk iref p i z).w) (raylOutZ M S thk iref p i z).2 z := by
  have R := fun r => rows_deriv M.k (M.lay i) (ampsR M S iref p i) (thk i) r z
  have q := fun z => (raylOut_rows M S thk iref p i z).1
  have w := fun z => (raylOut_rows M S thk iref p i z).2
  simp only [q, w]
  have v : ∀ r, (∑ j, side (D11z M.k (M.lay i)) (D12z M.k (M.lay i)) r j *
      (ampsR M S iref p i j * wavR (M.k * (M.lay i).xa) (M.k * (M.lay i).xb) (thk i) z j)) =
      ∑ j, rowZ M.k (M.lay i) r j * ((![exp (-(M.k * (M.lay i).xa * (thk i - z))) * (potUpR M S iref p (i+1)).up 0,
        exp (-(M.k * (M.lay i).xb * (thk i - z))) * (potUpR M S iref p (i+1)).up 1,
        exp (-(M.k * (M.lay i).xa * z)) * (potDownR M S iref p i).dn 0, exp (-(M.k * (M.lay i).xb * z)) * (potDownR M S iref p i).dn 1] :
        Fin 4 → ℂ) j) := by
    intro r
    rw [rowZ_eq _ _ e]
    simp only [Fin.sum_univ_four, ampsR, wavR, Matrix.cons_val_zero, Matrix.cons_val_one, Matrix.cons_val, neg_mul]
    ring
  unfold raylOutZ
  rw [if_neg (by simp [e])]
  exact ⟨(R 0).congr_deriv (v 0), (R 1).congr_deriv (v 1)⟩

/-- The factor common to the spectra. -/
noncomputable def ampR (M : ModeIn ℂ) (S : ℕ → PSV ℂ) (thk : ℕ → ℝ) (iref : ℕ) (p : Amp4 ℂ × Amp4 ℂ) (I2 I3 : ℂ) (k omega rho : ℝ)
    (isrc : ℕ) (zs : ℝ) (t : Src) (R : SrcRow ℂ) : ℂ :=
  let f := fcoefR k (M.lay isrc) R.D R.U
  let e := raylOut M S thk iref p isrc zs
  iPow (srcOrder t) * (f 0 * e.t + f 1 * e.s - f 2 * e.w - f 3 * e.q) / (4 * I2 - 2 * I3 / k) * (-1 / (4 * rho * (omega : ℂ) ^ 2))

theorem modRayl_ok {M : ModeIn ℂ} {S : ℕ → PSV ℂ} {thk : ℕ → ℝ} {iref : ℕ} {p : Amp4 ℂ × Amp4 ℂ} {I2 I3 : ℂ} {k omega rho : ℝ}
    {isrc : ℕ} {zs : ℝ} {t : Src} {ircv : ℕ} {zr r : ℝ} {o : Spec3 × Spec3}
    (h : modRayl M S thk iref p I2 I3 k omega rho isrc zs ircv zr t r = .ok o) :
    ∃ R, (open Classical in srcRow (k:ℂ) (M.lay isrc) t) = .ok R ∧
      let A := ampR M S thk iref p I2 I3 k omega rho isrc zs t R
      let y := raylOut M S thk iref p ircv zr
      let yz := raylOutZ M S thk iref p ircv zr
      o = (⟨A * y.w * ekr k r, A * yz.2 * ekr k r, A * y.w * (-k * ekr k r * I)⟩,
        ⟨-I * A * y.q * ekr k r, -I * A * yz.1 * ekr k r, -I * A * y.q * (-k * ekr k r * I)⟩) := by
  unfold modRayl at h
  cases hs : (open Classical in srcRow (k:ℂ) (M.lay isrc) t) with
  | fail => rw [hs] at h; cases h
  | undef => rw [hs] at h; cases h
  | ok R =>
  rw [hs] at h
  dsimp only at h
  split at h
  · cases h
  injection h with h
  refine ⟨R, rfl, ?_⟩
  rw [← h]
  simp only [ampR, Prod.mk.injEq, Spec3.mk.injEq]
  refine ⟨⟨?_, ?_, ?_⟩, ?_, ?_, ?_⟩ <;> ring

theorem modRayl_same {M : ModeIn ℂ} {S : ℕ → PSV ℂ} {thk : ℕ → ℝ} {iref : ℕ} {p : Amp4 ℂ × Amp4 ℂ} {I2 I3 : ℂ} {k omega rho : ℝ}
    {isrc : ℕ} {zs : ℝ} {t : Src} {R : SrcRow ℂ} (hR : (open Classical in srcRow (k:ℂ) (M.lay isrc) t) = .ok R) {ircv : ℕ} {zr r : ℝ} {o : Spec3 × Spec3}
    (h : modRayl M S thk iref p I2 I3 k omega rho isrc zs ircv zr t r = .ok o) :
    let A := ampR M S thk iref p I2 I3 k omega rho isrc zs t R
    o.1.u = A * (raylOut M S thk iref p ircv zr).w * ekr k r ∧ o.2.u = -I * A * (raylOut M S thk iref p ircv zr).q * ekr k r := by
  obtain ⟨R', hR', e⟩ := modRayl_ok h
  rw [hR] at hR'
  injection hR' with hR'
  subst hR'
  rw [e]
  exact ⟨rfl, rfl⟩

/-- C92 (depth): at a receiver in a solid layer the depth derivatives are those of the displacements. -/
theorem C92_depth_partial {M : ModeIn ℂ} {S : ℕ → PSV ℂ} {thk : ℕ → ℝ} {iref : ℕ} {p : Amp4 ℂ × Amp4 ℂ} {I2 I3 : ℂ} {k omega rho : ℝ}
    {isrc : ℕ} {zs : ℝ} {ircv : ℕ} {t : Src} {r : ℝ} {o : ℝ → Spec3 × Spec3} (e : (M.lay ircv).liquid = false)
    (h : ∀ z, modRayl M S thk iref p I2 I3 k omega rho isrc zs ircv z t r = .ok (o z)) (z : ℝ) :
    HasDerivAt (fun z => (o z).1.u) (o z).1.uz z ∧ HasDerivAt (fun z => (o z).2.u) (o z).2.uz z := by
  obtain ⟨R, hs, hz⟩ := modRayl_ok (h z)
  have f := fun y => modRayl_same hs (h y)
  obtain ⟨d1, d2⟩ := raylOutZ_deriv (M := M) (S := S) (thk := thk) (iref := iref) (p := p) ircv e z
  rw [funext fun y => (f y).1, funext fun y => (f y).2, hz]
  exact ⟨(d2.const_mul _).mul_const _, (d1.const_mul _).mul_const _⟩

/-- C92 (range): the radial derivatives are those of the displacements, without the slow decay of the amplitude with distance. -/
theorem C92_range {M : ModeIn ℂ} {S : ℕ → PSV ℂ} {thk : ℕ → ℝ} {iref : ℕ} {p : Amp4 ℂ × Amp4 ℂ} {I2 I3 : ℂ} {k omega rho : ℝ}
    {isrc : ℕ} {zs : ℝ} {ircv : ℕ} {zr : ℝ} {t : Src} {o : ℝ → Spec3 × Spec3} (hk : 0 < k)
    (h : ∀ r, 0 < r → modRayl M S thk iref p I2 I3 k omega rho isrc zs ircv zr t r = .ok (o r)) {r : ℝ} (hr : 0 < r) :
    HasDerivAt (fun r => (o r).1.u) ((o r).1.ur - (o r).1.u / (2 * r)) r ∧
    HasDerivAt (fun r => (o r).2.u) ((o r).2.ur - (o r).2.u / (2 * r)) r := by
  obtain ⟨R, hs, hz⟩ := modRayl_ok (h r hr)
  have f := fun y hy => modRayl_same hs (h y hy)
  have E := ekr_deriv hk hr
  rw [hz]
  constructor
  · refine ((E.const_mul (ampR M S thk iref p I2 I3 k omega rho isrc zs t R * (raylOut M S thk iref p ircv zr).w)).congr_of_eventuallyEq
      ?_).congr_deriv ?_
    · filter_upwards [Ioi_mem_nhds hr] with y hy
      exact (f y hy).1
    · dsimp only
      ring
  · refine ((E.const_mul (-I * ampR M S thk iref p I2 I3 k omega rho isrc zs t R * (raylOut M S thk iref p ircv zr).q)).congr_of_eventuallyEq
      ?_).congr_deriv ?_
    · filter_upwards [Ioi_mem_nhds hr] with y hy
      exact (f y hy).2
    · dsimp only
      ring

/-! ### C93 -/

/-- C93: with the source at the surface the vertical dip-slip mode response is zero anyway: blanking it changes nothing. -/
theorem C93_surface {M : ModeIn ℂ} {S : ℕ → PSV ℂ} {m : ℕ → Medium ℂ} {thk dep : ℕ → ℝ} (hI : DescribesR M S m thk) {iref : ℕ}
    (hi : iref + 1 < M.nlay) (ok : SoundR M S iref) {low big : Bool} {p : Amp4 ℂ × Amp4 ℂ}
    (h : raylSecular M S (parC low big) iref = .ok ⟨0, some p⟩)
    (hx : mixed M iref = true → p.2.up 0 = 0 →
      (1 - (S iref).RD * (expM M (iref-1) * ((allFRR M S (iref-1)).RU * expM M (iref-1)))).det ≠ 0)
    {I2 I3 : ℂ} {k omega rho : ℝ} {ircv : ℕ} {zr : ℝ} {t : Src} {r : ℝ} {o : Spec3 × Spec3}
    (ho : modRayl M S thk iref p I2 I3 k omega rho 0 0 ircv zr t r = .ok o) :
    modsumRayl M S thk dep iref p I2 I3 k omega rho 0 0 ircv zr t r = .ok o := by
  unfold modsumRayl
  split
  · rename_i e
    obtain ⟨-, -, rfl⟩ := e
    obtain ⟨R, hs, e⟩ := modRayl_ok ho
    obtain ⟨f1, f2⟩ := (C87_mode_partial hI hi ok h hx).1.free
    have A : ampR M S thk iref p I2 I3 k omega rho 0 0 .DS R = 0 := by
      unfold srcRow at hs
      split at hs
      · cases hs
      · rename_i hx
        rw [not_or] at hx
        injection hs with hs
        subst hs
        have r5 : (2 - (M.lay 0).cbcb) / (M.lay 0).xb * (M.lay 0).xb = 2 - (M.lay 0).cbcb := div_mul_cancel₀ _ hx.2
        have g2 : fcoefR k (M.lay 0) ![2*(k:ℂ), ((2 - (M.lay 0).cbcb) / (M.lay 0).xb) * k] ![-(2*(k:ℂ)), ((2 - (M.lay 0).cbcb) / (M.lay 0).xb) * k] 2 = 0 := by
          simp only [fcoefR, Matrix.cons_val_zero, Matrix.cons_val_one, Matrix.cons_val]
          linear_combination (-4 * (M.lay 0).mu * (k:ℂ)^3) * r5
        have g3 : fcoefR k (M.lay 0) ![2*(k:ℂ), ((2 - (M.lay 0).cbcb) / (M.lay 0).xb) * k] ![-(2*(k:ℂ)), ((2 - (M.lay 0).cbcb) / (M.lay 0).xb) * k] 3 = 0 := by
          simp only [fcoefR, Matrix.cons_val_zero, Matrix.cons_val_one, Matrix.cons_val]
          ring
        unfold ampR
        dsimp only
        rw [f1, f2, g2, g3]
        simp
    rw [e, A]
    simp
  · exact ho

end GRT.Modal
