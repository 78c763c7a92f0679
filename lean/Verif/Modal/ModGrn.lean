import Verif.Modal.Residue

/-! Surface-wave Green's functions of Love modes, `pygrt/C_extension/src/modal/modgrn.c`.  C82: the term added for a mode is the
contribution of its pole to the wavenumber integral of the full Green's function.  C83: derivatives.  C84: the blanked DS row. -/

set_option linter.unusedSectionVars false

namespace GRT.Modal

open GRT.RT GRT.Layer GRT.Kernel Filter Complex MeasureTheory Topology

/-! ### Model -/

/-- Order of the surface harmonic of a source, `GRT_SRC_M_ORDERS`, const.c 19. -/
def srcOrder : Src → ℕ
  | .EX => 0
  | .VF => 0
  | .HF => 1
  | .DD => 0
  | .DS => 1
  | .SS => 2

/-- `grt_source_coef_SH`, source.c 50-63 and 88-97, on arrays of zeros (modgrn.c 146-148): the SH amplitudes sent down and up.  A zero
`xb` makes them undefined. -/
def srcSH {K : Type*} [Field K] [DecidableEq K] (k : K) (l : Lay K) (t : Src) : Out (K × K) :=
  if l.xb = 0 then .undef
  else .ok (match t with
    | .HF => (l.cbcb / l.xb, l.cbcb / l.xb)
    | .DS => (- l.cbcb * k, l.cbcb * k)
    | .SS => ((l.cbcb / l.xb) * k, (l.cbcb / l.xb) * k)
    | _ => (0, 0))

/-- `i_m[modr]`, modgrn.c 189. -/
noncomputable def iPow : ℕ → ℂ
  | 0 => 1
  | 1 => I
  | _ => -1

/-- The eigenfunction routine called with the matrix `T0_z` (modgrn.c 172-184, eigenfn.c 354-390): the depth derivative of the
displacement, zero in liquids. -/
noncomputable def loveOutZ (M : ModeIn ℂ) (S : ℕ → SH ℂ) (thk : ℕ → ℝ) (iref : ℕ) (pot : ℂ × ℂ) (i : ℕ) (z : ℝ) : ℂ :=
  if (M.lay i).liquid then 0
  else
    let a := (potUp M S iref pot (i + 1)).1 * exp (-(M.k * (M.lay i).xb * (thk i - z)))
    let b := (potDown M S iref pot i).2 * exp (-(M.k * (M.lay i).xb * z))
    let bk := M.k * M.k * (M.lay i).xb
    bk * a + -bk * b

/-- `ekr`, modgrn.c 204. -/
noncomputable def ekr (k r : ℝ) : ℂ := (√(2 / (Real.pi * k * r)) : ℝ) * exp (-I * (k * r + Real.pi / 4))

/-- What `grt_modsum_grn_Love` (modgrn.c 124-216) adds to the transverse spectrum of source `t` at distance `r`: displacement, its depth
derivative and its radial derivative.  Source and receiver are `zs`, `zr` below the tops of layers `isrc`, `ircv`; `k` is `eigenK`,
`I2` the second energy integral, `rho` the density at the source.  Divisions by zero are `undef`. -/
noncomputable def modLove (M : ModeIn ℂ) (S : ℕ → SH ℂ) (thk : ℕ → ℝ) (iref : ℕ) (pot : ℂ × ℂ) (I2 : ℂ) (k omega rho : ℝ)
    (isrc : ℕ) (zs : ℝ) (ircv : ℕ) (zr : ℝ) (t : Src) (r : ℝ) : Out (ℂ × ℂ × ℂ) :=
  open Classical in
  match srcSH (k : ℂ) (M.lay isrc) t with
  | .ok (D, U) =>
    let b := k * (M.lay isrc).xb
    let f0 := k * (D - U)
    let f1 := -((M.lay isrc).mu * k * b * (D + U))
    let e := loveOut M S thk iref pot isrc zs
    let F := f0 * e.t - f1 * e.v
    let v := (loveOut M S thk iref pot ircv zr).v
    let vz := loveOutZ M S thk iref pot ircv zr
    let dom := 4 * I2
    let aa : ℂ := -1 / (4 * rho * (omega : ℂ) ^ 2)
    if dom = 0 ∨ rho = 0 ∨ omega = 0 ∨ k * r = 0 then .undef
    else if srcOrder t = 0 then .ok (0, 0, 0)
    else
      let vcoef := I * v * iPow (srcOrder t) * F / dom * aa
      let vcoefz := I * vz * iPow (srcOrder t) * F / dom * aa
      .ok (vcoef * ekr k r, vcoefz * ekr k r, vcoef * (-k * ekr k r * I))
  | .fail => .fail
  | .undef => .undef

/-- `grt_modsum_grn`, modgrn.c 218-251, for Love modes: the DS row is overwritten by zero if source and receiver are at depth zero. -/
noncomputable def modsumLove (M : ModeIn ℂ) (S : ℕ → SH ℂ) (thk dep : ℕ → ℝ) (iref : ℕ) (pot : ℂ × ℂ) (I2 : ℂ) (k omega rho : ℝ)
    (isrc : ℕ) (zs : ℝ) (ircv : ℕ) (zr : ℝ) (t : Src) (r : ℝ) : Out (ℂ × ℂ × ℂ) :=
  open Classical in
  if dep isrc + zs = 0 ∧ dep ircv + zr = 0 ∧ t = .DS then .ok (0, 0, 0)
  else modLove M S thk iref pot I2 k omega rho isrc zs ircv zr t r

/-! ### Specification -/

/-- The Hankel function of the second kind at a large argument. -/
noncomputable def hankelFar (m : ℕ) (x : ℝ) : ℂ := (√(2 / (Real.pi * x)) : ℝ) * exp (-I * (x - m * (Real.pi / 2) - Real.pi / 4))

/-- The number of periods of a source's radiation over the azimuth: none for an explosion, a vertical force and a 45° dip-slip,
one for a horizontal force and a vertical dip-slip, two for a strike-slip. -/
def azim : Src → ℕ
  | .EX | .VF | .DD => 0
  | .HF | .DS => 1
  | .SS => 2

theorem azim_eq (t : Src) : srcOrder t = azim t := by cases t <;> rfl

/-- The contribution of a simple pole `k0` to the transverse displacement `-1/(4πρω²) ∫ (-v J'_m(kr)) k dk` (C64; the factor is that of
the full Green's function, grn.c 70 and 172).  `J_m` is half the sum of the two Hankel functions, the contour is closed below, the
derivative of the Hankel function is `-i` times itself at a large distance; `res` is the residue of `v`. -/
noncomputable def poleT (m : ℕ) (rho omega k0 r : ℝ) (res : ℂ) : ℂ :=
  -1 / (4 * Real.pi * rho * (omega : ℂ) ^ 2) * (-(2 * Real.pi * I) / 2 * (-(k0 * res) * (-I * hankelFar m (k0 * r))))

/-! ### Uniqueness of the mode -/

theorem shField_sub (k : ℂ) (m : Medium ℂ) (l : Lay ℂ) (u d a u' d' : ℂ) (z : ℝ) (h1 : u - a * u' = 0) (h2 : d - a * d' = 0) :
    shField k m l u d z = ⟨a * (shField k m l u' d' z).v, a * (shField k m l u' d' z).t⟩ := by
  obtain rfl : u = a * u' := by linear_combination h1
  obtain rfl : d = a * d' := by linear_combination h2
  simp only [shField, shState, SHS.mk.injEq]
  constructor <;> ring

/-- Every free Love wave at a zero of the secular function is a multiple of the eigenfunction written by the program. -/
theorem love_unique {M : ModeIn ℂ} {S : ℕ → SH ℂ} {m : ℕ → Medium ℂ} {thk : ℕ → ℝ} (hI : Describes M S m thk) {iref : ℕ}
    (hi : iref + 1 < M.nlay) (hl : (M.lay iref).liquid = false) (ok : AllOkL M S) {pot : ℂ × ℂ}
    (h : loveSecular M S iref = some (0, pot)) {y : ℕ → ℝ → SHS ℂ}
    (hy : LoveField M.nlay (fun i => (M.lay i).liquid) m thk M.k (M.c * M.k) y) :
    ∃ a : ℂ, ∀ i, i < M.nlay → ∀ z, y i z = ⟨a * (loveOut M S thk iref pot i z).v, a * (loveOut M S thk iref pot i z).t⟩ := by
  obtain ⟨D, U, F, L, T, B⟩ := field_linked hI (by omega) hy
  obtain ⟨D', U', F', L', T', B'⟩ := field_linked hI (by omega) (C76_mode hI hi hl ok h).1
  have nz : D' iref ≠ (0, 0) := by
    intro e
    obtain ⟨z, hz⟩ := (C76_mode hI hi hl ok h).2
    apply hz
    rw [F' iref (by omega), e]
    simp [shField, shState]
  have dn := linked_dn (by omega) ok L B (M.nlay - 1 - iref) (by omega)
  have dn' := linked_dn (by omega) ok L' B' (M.nlay - 1 - iref) (by omega)
  rw [show M.nlay - 1 - (M.nlay - 1 - iref) = iref by omega] at dn dn'
  have nz2 : (D' iref).2 ≠ 0 := by
    intro e
    apply nz
    rw [e, mul_zero] at dn'
    exact Prod.ext dn' e
  set a := (D iref).2 / (D' iref).2 with ha
  have e2 : (D iref).2 = a * (D' iref).2 := by rw [ha]; field_simp
  have Z := linked_zero hi ok (D := fun i => ((D i).1 - a * (D' i).1, (D i).2 - a * (D' i).2))
    (U := fun i => ((U i).1 - a * (U' i).1, (U i).2 - a * (U' i).2)) (fun i hi' => ?_) ?_ ?_ ?_
  · refine ⟨a, fun i hi' z => ?_⟩
    have z1 := Z i hi'
    simp only [Prod.mk.injEq] at z1
    rw [F i hi', F' i hi']
    exact shField_sub _ _ _ _ _ _ _ _ _ z1.1 z1.2
  · have l := L i hi'; have l' := L' i hi'
    refine ⟨?_, ?_, ?_, ?_⟩
    · linear_combination l.dn - a * l'.dn
    · linear_combination l.up - a * l'.up
    · linear_combination l.refl - a * l'.refl
    · linear_combination l.trans - a * l'.trans
  · linear_combination T - a * T'
  · linear_combination B - a * B'
  · refine Prod.ext ?_ ?_
    · simp only
      rw [dn, dn', e2]; ring
    · simp only
      rw [e2]; ring

/-- The half-space part of the eigenfunction. -/
theorem love_decays {M : ModeIn ℂ} {S : ℕ → SH ℂ} {m : ℕ → Medium ℂ} {thk : ℕ → ℝ} (hI : Describes M S m thk) {iref : ℕ}
    (hi : iref + 1 < M.nlay) {pot : ℂ × ℂ} : Decays M.nlay (loveOut M S thk iref pot) := by
  cases e : (M.lay (M.nlay-1)).liquid
  · refine ⟨M.k * (M.lay (M.nlay-1)).xb, M.k * (potDown M S iref pot (M.nlay-1)).2,
      -((m (M.nlay-1)).mu * (M.k * (M.k * (M.lay (M.nlay-1)).xb * (potDown M S iref pot (M.nlay-1)).2))), hI.trapped e, fun z => ?_⟩
    rw [loveOut_half hI (by omega) e]
    simp only [shField, shState, zero_mul, zero_add, zero_sub, SHS.mk.injEq]
    constructor <;> ring
  · refine ⟨1, 0, 0, by simp, fun z => ?_⟩
    rw [loveOut_liquid e]
    simp

/-- The source coefficients make displacement and traction jump as the point source requires. -/
theorem srcSH_jump {c k : ℂ} {l : Lay ℂ} {m : Medium ℂ} (h : Fits c l m) (e : l.liquid = false) {t : Src} {D U : ℂ}
    (hR : srcSH k l t = .ok (D, U)) :
    (jumpSH m (srcForce k (2 * m.rho * (c * k)^2) t)).v = k * (D - U) ∧
    (jumpSH m (srcForce k (2 * m.rho * (c * k)^2) t)).t = -(m.mu * k * (k * l.xb) * (D + U)) := by
  obtain ⟨hm, hb⟩ := h.sol e
  unfold srcSH at hR
  split at hR
  · cases hR
  rename_i xb0
  injection hR with hR
  have hf : 2 * m.rho * (c * k)^2 = 2 * (m.mu * l.cbcb) * k^2 := by rw [hb]; ring
  have hT : 2 * m.rho * (c * k)^2 / m.mu = 2 * l.cbcb * k^2 := by
    rw [div_eq_iff hm, hf]; ring
  have r1 : l.cbcb / l.xb * l.xb = l.cbcb := div_mul_cancel₀ _ xb0
  cases t <;> simp only [Prod.mk.injEq] at hR <;> obtain ⟨rfl, rfl⟩ := hR <;>
    simp only [jumpSH, srcForce, momentDiag, momentVH, momentHH, forceH, forceV, neg_zero, neg_neg, zero_div, neg_div, hT] <;>
    refine ⟨?_, ?_⟩ <;> try ring1
  · rw [hf]; linear_combination (2 * m.mu * k^2) * r1
  · rw [hf]; linear_combination (2 * m.mu * k^3) * r1

/-! ### C82 -/

theorem hankel_ekr (m : ℕ) (hm : m = 1 ∨ m = 2) (k r : ℝ) : hankelFar m (k * r) = I * iPow m * ekr k r := by
  unfold hankelFar ekr
  rw [show Real.pi * (k * r) = Real.pi * k * r by ring]
  have e : exp (-I * (((k * r : ℝ) : ℂ) - m * (Real.pi / 2) - Real.pi / 4)) =
      exp (m * (Real.pi / 2 * I)) * exp (Real.pi / 2 * I) * exp (-I * (k * r + Real.pi / 4)) := by
    rw [← Complex.exp_add, ← Complex.exp_add]
    congr 1
    push_cast
    ring
  rw [e, Complex.exp_nat_mul, Complex.exp_pi_div_two_mul_I]
  rcases hm with rfl | rfl
  · simp only [iPow]; ring
  · simp only [iPow, I_sq]; ring

/-- C82: let the secular function of a solid layer vanish at wavenumber `k`.  For wavenumbers `kk` tending to `k`, let `up`, `low` be the
SH motion excited by source `t` (in the normalisation of the kernels, C17), with at most a simple pole.  Then what the modal summation
adds for this mode is the contribution of the pole to the wavenumber integral, at a large distance. -/
theorem C82_pole {M : ModeIn ℂ} {S : ℕ → SH ℂ} {m : ℕ → Medium ℂ} {thk dep : ℕ → ℝ} (hI : Describes M S m thk) {iref : ℕ}
    (hi : iref + 1 < M.nlay) (hl : (M.lay iref).liquid = false) (ok : AllOkL M S) {pot : ℂ × ℂ}
    (h : loveSecular M S iref = some (0, pot)) {k omega rho : ℝ} (hk : M.k = k) (hck : M.c * M.k = omega)
    (hdep : ∀ i, dep (i+1) = dep i + thk i) (hthk : ∀ i, i + 1 < M.nlay → 0 < thk i) (cdz : ℝ) (hc : 0 ≤ cdz)
    (hfine : ∀ i, i + 1 < M.nlay → cdz * (1 / 100000) ≤ thk i) (fuel : ℕ) (hf : 1 ≤ fuel)
    {isrc : ℕ} {zs : ℝ} (hsrc : isrc < M.nlay) (hsol : (M.lay isrc).liquid = false) (hzs : 0 ≤ zs) (hrho : (m isrc).rho = rho)
    {ircv : ℕ} {zr : ℝ} (hrcv : ircv < M.nlay) {t : Src} (ht : azim t ≠ 0) {r : ℝ}
    {ι : Type*} {l : Filter ι} [l.NeBot] {kk : ι → ℂ} (hkk : Tendsto kk l (𝓝 (k : ℂ)))
    {up low : ι → ℕ → ℝ → SHS ℂ}
    (resp : ∀ x, ForcedSH M.nlay (fun i => (M.lay i).liquid) m thk (kk x) omega isrc zs
      (jumpSH (m isrc) (srcForce (kk x) (2 * (m isrc).rho * (omega : ℂ)^2) t)) (up x) (low x))
    (pole : ∀ y, y = up ∨ y = low → ∀ i, i < M.nlay → ∃ a b, Tendsto (fun x => (kk x - k) * (y x i 0).v) l (𝓝 a) ∧
      Tendsto (fun x => (kk x - k) * (y x i 0).t) l (𝓝 b))
    {out : ℂ × ℂ × ℂ}
    (hout : modLove M S thk iref pot (egyL M (thinL M thk dep (potUp M S iref pot) (potDown M S iref pot)
      (thinLayers M.nlay thk dep cdz fuel))).2.1 k omega rho isrc zs ircv zr t r = .ok out) :
    ∃ res, (∀ y, y = up ∨ y = low → Tendsto (fun x => (kk x - k) * (y x ircv zr).v) l (𝓝 res)) ∧
      out.1 = poleT (azim t) rho omega k r res := by
  set y0 := loveOut M S thk iref pot with hy0
  have egy := congrArg (fun p => p.2.1) (C78_love (S := S) hI (iref := iref) (pot := pot) (by omega) hdep hthk cdz hc hfine fuel hf)
  dsimp only at egy
  rw [depthInt_weight (by omega) thk (fun i => 1/2 * (m i).mu) (fun i z => (y0 i z).v ^ 2)] at egy
  set N := ∑ i ∈ Finset.range M.nlay, (m i).mu * layInt M.nlay thk (fun i z => (y0 i z).v ^ 2) i with hN
  have egy' : ∑ i ∈ Finset.range M.nlay, 1/2 * (m i).mu * layInt M.nlay thk (fun i z => (y0 i z).v ^ 2) i = 1/2 * N := by
    rw [hN, Finset.mul_sum]
    exact Finset.sum_congr rfl fun i _ => by ring
  rw [egy, egy'] at hout
  have hk0 := hI.k0
  rw [hk] at hk0
  unfold modLove at hout
  cases hs : srcSH (k:ℂ) (M.lay isrc) t with
  | fail => rw [hs] at hout; cases hout
  | undef => rw [hs] at hout; cases hout
  | ok p =>
  obtain ⟨D, U⟩ := p
  rw [hs] at hout
  dsimp only at hout
  have ht' : srcOrder t ≠ 0 := by rw [azim_eq]; exact ht
  split at hout
  · cases hout
  rename_i hne
  injection hout with hout
  push Not at hne
  obtain ⟨n1, n2, n3, n4⟩ := hne
  have hN0 : N ≠ 0 := by
    intro e; apply n1; rw [e]; ring
  obtain ⟨j1, j2⟩ := srcSH_jump (hI.fits isrc hsrc) hsol hs
  have hcw : M.c * (k:ℂ) = omega := by rw [← hk]; exact hck
  rw [hcw] at j1 j2
  have cj : ∀ k : ℂ, jumpSH (m isrc) (srcForce k (2 * (m isrc).rho * (omega : ℂ)^2) t) =
      ⟨-(srcForce k (2 * (m isrc).rho * (omega : ℂ)^2) t).v1 / (m isrc).mu, -(srcForce k (2 * (m isrc).rho * (omega : ℂ)^2) t).v0⟩ := fun _ => rfl
  have tv : Tendsto (fun x => (jumpSH (m isrc) (srcForce (kk x) (2 * (m isrc).rho * (omega : ℂ)^2) t)).v) l
      (𝓝 (jumpSH (m isrc) (srcForce (k:ℂ) (2 * (m isrc).rho * (omega : ℂ)^2) t)).v) := by
    cases t <;> simp only [jumpSH, srcForce, momentDiag, momentVH, momentHH, forceH, forceV] <;> exact tendsto_const_nhds
  have tt : Tendsto (fun x => (jumpSH (m isrc) (srcForce (kk x) (2 * (m isrc).rho * (omega : ℂ)^2) t)).t) l
      (𝓝 (jumpSH (m isrc) (srcForce (k:ℂ) (2 * (m isrc).rho * (omega : ℂ)^2) t)).t) := by
    cases t <;> simp only [jumpSH, srcForce, momentDiag, momentVH, momentHH, forceH, forceV] <;>
      first | exact tendsto_const_nhds | exact (hkk.mul_const _).neg
  have mode := (C76_mode hI hi hl ok h).1
  rw [hck, hk] at mode
  have res := residue_SH (n := M.nlay) (liq := fun i => (M.lay i).liquid) (m := m) (thk := thk) (k0 := k) (om := omega) (js := isrc) (h := zs)
    (y0 := y0) (q0 := fun i => M.k * (M.lay i).xb) (by omega) mode (love_decays hI hi)
    (fun y hy => love_unique hI hi hl ok h (by rw [hck, hk]; exact hy))
    (fun i hi' e => ((hI.fits i hi').sol e).1) (fun i hi' e => mul_ne_zero hI.k0 (hI.xb0 i hi' e))
    (fun i hi' e => by
      have := hI.fits i hi'
      have hb := (this.sol e).2
      have hx := this.xb
      rw [← hcw, ← hk]
      linear_combination (m i).mu * M.k^2 * hx - M.k^2 * hb)
    (fun e => hI.trapped e) hsrc hsol hzs hkk tv tt resp pole (mul_ne_zero (mul_ne_zero two_ne_zero hk0) hN0)
  refine ⟨_, fun y hy => res y hy ircv hrcv zr, ?_⟩
  have hm12 : azim t = 1 ∨ azim t = 2 := by cases t <;> simp [azim] at ht ⊢
  rw [← hout, azim_eq, poleT, hankel_ekr _ hm12, j1, j2, (hI.fits isrc hsrc).mu]
  have r0 : (rho:ℂ) ≠ 0 := by exact_mod_cast n2
  have o0 : (omega:ℂ) ≠ 0 := by exact_mod_cast n3
  have p0 : (Real.pi:ℂ) ≠ 0 := by exact_mod_cast Real.pi_pos.ne'
  have hI4 : I ^ 4 = 1 := I_pow_four
  simp only [← hN]
  field_simp
  ring_nf
  simp only [I_sq, hI4, show I^3 = -I from I_pow_three]
  rw [hy0]

  ring

/-! #### The plate excited at depth `h` -/

/-- Wavenumbers tending to 1 and the vertical wavenumbers belonging to them, `k² + ν² = 2`. -/
noncomputable def exNu (n : ℕ) : ℝ := 1 + 1 / (n + 3)
noncomputable def exK (n : ℕ) : ℝ := √(2 - exNu n ^ 2)

theorem exNu_bd (n : ℕ) : 1 < exNu n ∧ exNu n ≤ 4/3 := by
  unfold exNu
  have h : (0:ℝ) < n + 3 := by positivity
  refine ⟨by simp only [lt_add_iff_pos_right]; positivity, ?_⟩
  have : 1 / ((n:ℝ) + 3) ≤ 1 / 3 := one_div_le_one_div_of_le (by norm_num) (by linarith [Nat.cast_nonneg (α := ℝ) n])
  linarith

theorem exK_sq (n : ℕ) : exK n ^ 2 = 2 - exNu n ^ 2 := by
  have := exNu_bd n
  exact Real.sq_sqrt (by nlinarith)

theorem exNu_lim : Tendsto exNu atTop (𝓝 1) := by
  have := tendsto_const_nhds (x := (1:ℝ)).add ((tendsto_const_div_atTop_nhds_zero_nat 1).comp (tendsto_add_atTop_nat 3))
  rw [add_zero] at this
  refine this.congr fun n => ?_
  simp [exNu]

theorem exK_lim : Tendsto exK atTop (𝓝 1) := by
  have h : Tendsto (fun n => √(2 - exNu n ^ 2)) atTop (𝓝 √(2 - 1^2)) := (tendsto_const_nhds.sub (exNu_lim.pow 2)).sqrt
  norm_num at h
  exact h

theorem ex_sin (n : ℕ) : Real.sin (exNu n * Real.pi) ≠ 0 := by
  have := exNu_bd n
  have hp := Real.pi_pos
  rw [show exNu n * Real.pi = (exNu n - 1) * Real.pi + Real.pi by ring, Real.sin_add_pi]
  exact (neg_neg_of_pos (Real.sin_pos_of_pos_of_lt_pi (by nlinarith) (by nlinarith))).ne

theorem ex_pole : Tendsto (fun n => (exK n - 1) / Real.sin (exNu n * Real.pi)) atTop (𝓝 (1 / Real.pi)) := by
  have hp := Real.pi_pos
  have e : ∀ n, (exK n - 1) / Real.sin (exNu n * Real.pi) =
      (1 + exNu n) / (exK n + 1) / Real.pi / Real.sinc ((exNu n - 1) * Real.pi) := by
    intro n
    have b := exNu_bd n
    have k1 : exK n + 1 ≠ 0 := by have := Real.sqrt_nonneg (2 - exNu n ^ 2); unfold exK; positivity
    have hs := ex_sin n
    have x0 : (exNu n - 1) * Real.pi ≠ 0 := by
      have : 0 < (exNu n - 1) * Real.pi := by nlinarith
      exact this.ne'
    rw [show exNu n * Real.pi = (exNu n - 1) * Real.pi + Real.pi by ring, Real.sin_add_pi] at hs ⊢
    rw [Real.sinc_of_ne_zero x0]
    have hs' := neg_ne_zero.1 hs
    have d0 : exNu n - 1 ≠ 0 := left_ne_zero_of_mul x0
    have := exK_sq n
    field_simp
    linear_combination -this
  have l := (((tendsto_const_nhds (x := (1:ℝ)).add exNu_lim).div (exK_lim.add_const 1) (by norm_num)).div_const Real.pi).div
    ((Real.continuous_sinc.tendsto _).comp ((exNu_lim.sub_const 1).mul_const Real.pi)) (by simp)
  norm_num at l
  refine (l.congr fun n => (e n).symm).trans ?_
  simp

/-- Motion of the plate above and below a jump `T` of the traction at depth `h`. -/
noncomputable def exU (nu h T : ℂ) : ℂ := T * cos (nu * (Real.pi - h)) / (nu * sin (nu * Real.pi))
noncomputable def exUp (nu h T : ℂ) (i : ℕ) (z : ℝ) : SHS ℂ :=
  if i = 0 then ⟨exU nu h T * cos (nu * z), -(nu * exU nu h T * sin (nu * z))⟩ else ⟨0, 0⟩
noncomputable def exLow (nu h T : ℂ) (i : ℕ) (z : ℝ) : SHS ℂ :=
  if i = 0 then ⟨exU nu h T * cos (nu * z) + T / nu * sin (nu * (z - h)), -(nu * exU nu h T * sin (nu * z)) + T * cos (nu * (z - h))⟩
  else ⟨0, 0⟩

theorem hasDeriv_cs (nu h : ℂ) (z : ℝ) : HasDerivAt (fun z : ℝ => cos (nu * (z - h))) (-(nu * sin (nu * (z - h)))) z ∧
    HasDerivAt (fun z : ℝ => sin (nu * (z - h))) (nu * cos (nu * (z - h))) z := by
  have h0 : HasDerivAt (fun z : ℝ => nu * ((z:ℂ) - h)) nu z := by
    have := ((Complex.ofRealCLM.hasDerivAt (x := z)).sub_const h).const_mul nu
    simpa using this
  refine ⟨((Complex.hasDerivAt_cos _).comp z h0).congr_deriv (by ring), ((Complex.hasDerivAt_sin _).comp z h0).congr_deriv (by ring)⟩

theorem ex_forced {nu k : ℂ} (h : ℝ) (T : ℂ) (h2 : k^2 + nu^2 = 2) (n0 : nu ≠ 0) (s0 : sin (nu * Real.pi) ≠ 0) {om : ℂ} (ho : om^2 = 2) :
    ForcedSH 2 (fun i => decide (i ≠ 0)) (plateM 1) (fun _ => Real.pi) k om 0 h ⟨0, T⟩ (exUp nu h T) (exLow nu h T) where
  same := fun i hi => by funext z; simp [exUp, exLow, hi]
  motion := fun y hy i hi hl z => by
    obtain rfl : i = 0 := by simpa using hl
    have e : ∀ a : ℂ, (plateM 1 0).mu * k^2 * a - (plateM 1 0).rho * om^2 * a = -(nu^2 * a) := by
      intro a; simp only [plateM, if_true, ofReal_one]; linear_combination a * h2 - a * ho
    rw [e]
    have c0 := hasDeriv_cs nu 0 z
    have c1 := hasDeriv_cs nu h z
    simp only [sub_zero] at c0
    rcases hy with rfl | rfl
    · simp only [exUp, if_true, plateM, ofReal_one]
      refine ⟨(c0.1.const_mul _).congr_deriv ?_, ((c0.2.const_mul _).neg).congr_deriv ?_⟩ <;> ring
    · simp only [exLow, if_true, plateM, ofReal_one]
      refine ⟨((c0.1.const_mul _).add (c1.2.const_mul _)).congr_deriv ?_, (((c0.2.const_mul _).neg).add (c1.1.const_mul _)).congr_deriv ?_⟩
      · field_simp
      · field_simp; ring
  liquid := fun y hy i hi hl z => by
    have : i ≠ 0 := by simpa using hl
    rcases hy with rfl | rfl <;> simp [exUp, exLow, this]
  free := by simp [exUp]
  contact := fun i hi => by
    obtain rfl : i = 0 := by omega
    refine ⟨?_, by simp⟩
    simp only [exLow, exUp, if_true, exU]
    simp
    field_simp
    ring
  jump := by simp [exUp, exLow]
  decay := by simp [exLow]

/-- The hypotheses of `C82_pole` are met: a horizontal force at depth `h` in the plate, the overtone of wavenumber 1. -/
example (h : ℝ) (hh : 0 ≤ h) : ∃ out res, modLove (plate 1 1) plateS (fun _ => Real.pi) 0 (1, 1) (Real.pi:ℂ) 1 (√2) 1 0 h 0 0 .HF 1 = .ok out ∧
    res = -4 * cos (Real.pi - h) / Real.pi ∧ out.1 = poleT 1 1 (√2) 1 1 res := by
  have hp := Real.pi_pos
  have p0 : (Real.pi:ℂ) ≠ 0 := by exact_mod_cast hp.ne'
  have eg := plate_egy (b := 1) (k := 1) one_pos
  have s2 : (√2:ℝ) ≠ 0 := by positivity
  have o2 : ((√2 : ℝ):ℂ)^2 = 2 := by rw [← ofReal_pow, Real.sq_sqrt (by norm_num)]; norm_num
  have ho : ∃ out, modLove (plate 1 1) plateS (fun _ => Real.pi) 0 (1, 1) (Real.pi:ℂ) 1 (√2) 1 0 h 0 0 .HF 1 = .ok out := by
    unfold modLove
    have : srcSH ((1:ℝ):ℂ) ((plate 1 1).lay 0) .HF = .ok (2 / I, 2 / I) := by
      simp [srcSH, plate]; norm_num
    rw [this]
    dsimp only
    rw [if_neg (by push Not; exact ⟨by simpa using p0, one_ne_zero, s2, by norm_num⟩), if_neg (by decide)]
    exact ⟨_, rfl⟩
  obtain ⟨out, ho⟩ := ho
  have J : ∀ n, jumpSH (plateM 1 0) (srcForce (exK n : ℂ) (2 * (plateM 1 0).rho * ((√2:ℝ) : ℂ)^2) .HF) = ⟨0, -4⟩ := by
    intro n
    simp only [jumpSH, srcForce, forceH, o2, plateM, if_true]
    norm_num
  have n0 : ∀ n, (exNu n : ℂ) ≠ 0 := fun n => by exact_mod_cast (by linarith [exNu_bd n] : (0:ℝ) < exNu n).ne'
  have s0 : ∀ n, sin ((exNu n : ℂ) * Real.pi) ≠ 0 := fun n => by
    rw [← ofReal_mul, ← ofReal_sin]; exact_mod_cast ex_sin n
  have nl : Tendsto (fun n => (exNu n : ℂ)) atTop (𝓝 1) := by
    have := (continuous_ofReal.tendsto _).comp exNu_lim
    simpa [Function.comp_def] using this
  have kl : Tendsto (fun n => (exK n : ℂ)) atTop (𝓝 ((1:ℝ):ℂ)) := (continuous_ofReal.tendsto _).comp exK_lim
  have pl : Tendsto (fun n => ((exK n : ℂ) - ((1:ℝ):ℂ)) / sin ((exNu n : ℂ) * Real.pi)) atTop (𝓝 (1 / Real.pi)) := by
    have := (continuous_ofReal.tendsto _).comp ex_pole
    refine (this.congr fun n => ?_).trans (by simp)
    simp
  have UL : Tendsto (fun n => ((exK n : ℂ) - ((1:ℝ):ℂ)) * exU (exNu n) h (-4)) atTop (𝓝 (-4 * cos (Real.pi - h) / Real.pi)) := by
    have c := (Complex.continuous_cos.tendsto _).comp (nl.mul_const ((Real.pi:ℂ) - h))
    have := (pl.mul ((c.const_mul (-4)).div nl one_ne_zero))
    simp only [one_mul, div_one] at this
    refine (this.congr fun n => ?_).trans ?_
    · have := n0 n; have := s0 n
      simp only [Function.comp, exU, Pi.div_apply]
      field_simp
    · rw [show 1 / (Real.pi:ℂ) * (-4 * cos (Real.pi - h)) = -4 * cos (Real.pi - h) / Real.pi by ring]
  have SL : Tendsto (fun n => ((exK n : ℂ) - ((1:ℝ):ℂ)) * (-4 / (exNu n : ℂ) * sin ((exNu n : ℂ) * (0 - h)))) atTop (𝓝 0) := by
    have c := (Complex.continuous_sin.tendsto _).comp (nl.mul_const ((0:ℂ) - h))
    have := (kl.sub_const ((1:ℝ):ℂ)).mul (((tendsto_const_nhds (x := (-4:ℂ))).div nl one_ne_zero).mul c)
    simpa using this
  have TL : Tendsto (fun n => ((exK n : ℂ) - ((1:ℝ):ℂ)) * (-4 * cos ((exNu n : ℂ) * (0 - h)))) atTop (𝓝 0) := by
    have c := (Complex.continuous_cos.tendsto _).comp (nl.mul_const ((0:ℂ) - h))
    have := (kl.sub_const ((1:ℝ):ℂ)).mul (c.const_mul (-4))
    simpa using this
  have C := C82_pole (M := plate 1 1) (S := plateS) (m := plateM 1) (thk := fun _ => Real.pi) (dep := fun i => i * Real.pi)
    (plate_desc one_pos one_pos) (iref := 0) (by decide) rfl (plate_ok 1 1) (plate_sec one_pos) (k := 1) (omega := √2) (rho := 1) rfl
    (by simp only [plate]; norm_num) (fun i => by push_cast; ring) (fun _ _ => hp) 0 le_rfl (fun _ _ => by simpa using hp.le) 1 le_rfl
    (isrc := 0) (zs := h) (by decide) rfl hh (by simp [plateM]) (ircv := 0) (zr := 0) (by decide) (t := .HF) (by decide) (r := 1)
    (l := atTop) (kk := fun n => (exK n : ℂ)) kl (up := fun n => exUp (exNu n) h (-4)) (low := fun n => exLow (exNu n) h (-4))
    (fun n => by
      rw [J n, show (fun i => ((plate 1 1).lay i).liquid) = fun i => decide (i ≠ 0) from funext fun i => by by_cases e : i = 0 <;> simp [plate, e]]
      refine ex_forced h (-4) ?_ (n0 n) (s0 n) o2
      exact_mod_cast (by rw [exK_sq n]; ring : exK n ^ 2 + exNu n ^ 2 = 2))
    (fun y hy i hi => by
      by_cases e : i = 0
      · subst e
        rcases hy with rfl | rfl
        · simp only [exUp, if_true]
          exact ⟨_, 0, by simpa using UL, by simp⟩
        · simp only [exLow, if_true]
          refine ⟨_, _, (UL.add SL).congr fun n => ?_, TL.congr fun n => ?_⟩
          · simp; ring
          · simp
      · rcases hy with rfl | rfl <;> simp only [exUp, exLow, if_neg e] <;> exact ⟨0, 0, by simp, by simp⟩)
    (out := out) (by
      have : (egyL (plate 1 1) (thinL (plate 1 1) (fun _ => Real.pi) (fun i => i * Real.pi)
        (potUp (plate 1 1) plateS 0 (1, 1)) (potDown (plate 1 1) plateS 0 (1, 1))
        (thinLayers (plate 1 1).nlay (fun _ => Real.pi) (fun i => i * Real.pi) 0 1))).2.1 = (Real.pi:ℂ) := by
        rw [show (plate 1 1).nlay = 2 from rfl, eg]; simp
      rw [this]
      exact ho)
  obtain ⟨res, h1, h2⟩ := C
  refine ⟨out, res, ho, ?_, h2⟩
  have := h1 _ (Or.inl rfl)
  simp only [exUp, if_true, ofReal_zero, mul_zero, cos_zero, mul_one] at this
  exact tendsto_nhds_unique this UL

/-! ### C83 -/

theorem loveOutZ_deriv {M : ModeIn ℂ} {S : ℕ → SH ℂ} {thk : ℕ → ℝ} {iref : ℕ} {pot : ℂ × ℂ} (i : ℕ) (z : ℝ) :
    HasDerivAt (fun z => (loveOut M S thk iref pot i z).v) (loveOutZ M S thk iref pot i z) z := by
  unfold loveOut loveOutZ eigenfnL
  cases e : (M.lay i).liquid
  · simp only [Bool.false_eq_true, if_false, layT]
    have E : ∀ a b : ℂ, HasDerivAt (fun z : ℝ => exp (-(a * (b - z)))) (a * exp (-(a * (b - z)))) z ∧
        HasDerivAt (fun z : ℝ => exp (-(a * z))) (-(a * exp (-(a * z)))) z := by
      intro a b
      have hz : HasDerivAt (fun z : ℝ => (z:ℂ)) 1 z := Complex.ofRealCLM.hasDerivAt
      have d1 : HasDerivAt (fun z : ℝ => -(a * (b - z))) a z := (((hz.const_sub b).const_mul a).neg).congr_deriv (by ring)
      have d2 : HasDerivAt (fun z : ℝ => -(a * z)) (-a) z := ((hz.const_mul a).neg).congr_deriv (by ring)
      exact ⟨((Complex.hasDerivAt_exp _).comp z d1).congr_deriv (by ring), ((Complex.hasDerivAt_exp _).comp z d2).congr_deriv (by ring)⟩
    obtain ⟨d1, d2⟩ := E (M.k * (M.lay i).xb) (thk i)
    simp only [Matrix.of_apply, Matrix.cons_val', Matrix.cons_val_zero, Matrix.cons_val_one, Matrix.cons_val_fin_one]
    refine (((d1.const_mul (potUp M S iref pot (i+1)).1).const_mul M.k).add
      ((d2.const_mul (potDown M S iref pot i).2).const_mul M.k)).congr_deriv ?_
    ring
  · simp only [if_true]
    exact hasDerivAt_const z 0

/-- The factor common to the three spectra. -/
noncomputable def ampL (M : ModeIn ℂ) (S : ℕ → SH ℂ) (thk : ℕ → ℝ) (iref : ℕ) (pot : ℂ × ℂ) (I2 : ℂ) (k omega rho : ℝ)
    (isrc : ℕ) (zs : ℝ) (t : Src) (D U : ℂ) : ℂ :=
  (if srcOrder t = 0 then 0 else I * iPow (srcOrder t)) * (k * (D - U) * (loveOut M S thk iref pot isrc zs).t -
    -((M.lay isrc).mu * k * (k * (M.lay isrc).xb) * (D + U)) * (loveOut M S thk iref pot isrc zs).v) / (4 * I2) *
      (-1 / (4 * rho * (omega : ℂ) ^ 2))

theorem modLove_ok {M : ModeIn ℂ} {S : ℕ → SH ℂ} {thk : ℕ → ℝ} {iref : ℕ} {pot : ℂ × ℂ} {I2 : ℂ} {k omega rho : ℝ}
    {isrc : ℕ} {zs : ℝ} {t : Src} {ircv : ℕ} {zr r : ℝ} {o : ℂ × ℂ × ℂ}
    (h : modLove M S thk iref pot I2 k omega rho isrc zs ircv zr t r = .ok o) :
    ∃ D U, srcSH (k:ℂ) (M.lay isrc) t = .ok (D, U) ∧
      o = (ampL M S thk iref pot I2 k omega rho isrc zs t D U * (loveOut M S thk iref pot ircv zr).v * ekr k r,
        ampL M S thk iref pot I2 k omega rho isrc zs t D U * loveOutZ M S thk iref pot ircv zr * ekr k r,
        ampL M S thk iref pot I2 k omega rho isrc zs t D U * (loveOut M S thk iref pot ircv zr).v * (-k * ekr k r * I)) := by
  unfold modLove at h
  cases hs : srcSH (k:ℂ) (M.lay isrc) t with
  | fail => rw [hs] at h; cases h
  | undef => rw [hs] at h; cases h
  | ok p =>
  obtain ⟨D, U⟩ := p
  rw [hs] at h
  dsimp only at h
  rw [ite_eq_iff] at h
  rcases h with h | ⟨h1, h2⟩
  · cases h.2
  refine ⟨D, U, rfl, ?_⟩
  unfold ampL
  split at h2
  · rename_i e
    injection h2 with h2
    rw [← h2, if_pos e]
    simp
  · rename_i e
    injection h2 with h2
    rw [← h2, if_neg e]
    refine Prod.ext ?_ (Prod.ext ?_ ?_) <;> simp only <;> ring

/-- C83 (depth): the depth derivative is that of the displacement. -/
theorem C83_depth {M : ModeIn ℂ} {S : ℕ → SH ℂ} {thk : ℕ → ℝ} {iref : ℕ} {pot : ℂ × ℂ} {I2 : ℂ} {k omega rho : ℝ}
    {isrc : ℕ} {zs : ℝ} {ircv : ℕ} {t : Src} {r : ℝ} {o : ℝ → ℂ × ℂ × ℂ}
    (h : ∀ z, modLove M S thk iref pot I2 k omega rho isrc zs ircv z t r = .ok (o z)) (z : ℝ) :
    HasDerivAt (fun z => (o z).1) (o z).2.1 z := by
  obtain ⟨D, U, hs, hz⟩ := modLove_ok (h z)
  have f : ∀ y, (o y).1 = ampL M S thk iref pot I2 k omega rho isrc zs t D U * (loveOut M S thk iref pot ircv y).v * ekr k r := fun y => by
    obtain ⟨D', U', hs', hy⟩ := modLove_ok (h y)
    rw [hs] at hs'
    injection hs' with hs'
    injection hs' with e1 e2
    subst e1 e2
    rw [hy]
  rw [funext f, hz]
  exact (((loveOutZ_deriv ircv z).const_mul _).mul_const _)

theorem ekr_deriv {k r : ℝ} (hk : 0 < k) (hr : 0 < r) : HasDerivAt (fun r => ekr k r) (-k * ekr k r * I - ekr k r / (2 * r)) r := by
  have hp := Real.pi_pos
  have d1 : HasDerivAt (fun r : ℝ => √(2 / (Real.pi * k * r))) (-(√(2 / (Real.pi * k * r))) / (2 * r)) r := by
    have p : 0 < Real.pi * k * r := by positivity
    have h0 : HasDerivAt (fun r : ℝ => 2 / (Real.pi * k * r)) (-(2 / (Real.pi * k * r)) / r) r := by
      have := (hasDerivAt_const r (2:ℝ)).div ((hasDerivAt_id' r).const_mul (Real.pi * k)) p.ne'
      refine this.congr_deriv ?_
      field_simp
      ring
    have q : 0 < 2 / (Real.pi * k * r) := by positivity
    refine (h0.sqrt q.ne').congr_deriv ?_
    have s := Real.sq_sqrt q.le
    have s' : √(2 / (Real.pi * k * r)) ≠ 0 := (Real.sqrt_pos.2 q).ne'
    rw [div_div, div_eq_div_iff (by positivity) (by positivity)]
    generalize √(2 / (Real.pi * k * r)) = x at *
    rw [← s]
    field_simp
  have d2 : HasDerivAt (fun r : ℝ => exp (-I * (k * r + Real.pi / 4))) (-I * k * exp (-I * (k * r + Real.pi / 4))) r := by
    have hz : HasDerivAt (fun z : ℝ => (z:ℂ)) 1 r := Complex.ofRealCLM.hasDerivAt
    have h0 : HasDerivAt (fun r : ℝ => -I * ((k:ℂ) * r + Real.pi / 4)) (-I * k) r :=
      (((hz.const_mul (k:ℂ)).add_const (Real.pi / 4 : ℂ)).const_mul (-I)).congr_deriv (by ring)
    exact ((Complex.hasDerivAt_exp _).comp r h0).congr_deriv (by ring)
  have r0 : (r:ℂ) ≠ 0 := by exact_mod_cast hr.ne'
  refine (d1.ofReal_comp.mul d2).congr_deriv ?_
  unfold ekr
  push_cast
  field_simp
  ring

/-- C83 (range): the radial derivative is that of the displacement, without the slow decay of the amplitude with distance. -/
theorem C83_range {M : ModeIn ℂ} {S : ℕ → SH ℂ} {thk : ℕ → ℝ} {iref : ℕ} {pot : ℂ × ℂ} {I2 : ℂ} {k omega rho : ℝ}
    {isrc : ℕ} {zs : ℝ} {ircv : ℕ} {zr : ℝ} {t : Src} {o : ℝ → ℂ × ℂ × ℂ} (hk : 0 < k)
    (h : ∀ r, 0 < r → modLove M S thk iref pot I2 k omega rho isrc zs ircv zr t r = .ok (o r)) {r : ℝ} (hr : 0 < r) :
    HasDerivAt (fun r => (o r).1) ((o r).2.2 - (o r).1 / (2 * r)) r := by
  obtain ⟨D, U, hs, hz⟩ := modLove_ok (h r hr)
  have f : ∀ y, 0 < y → (o y).1 = ampL M S thk iref pot I2 k omega rho isrc zs t D U * (loveOut M S thk iref pot ircv zr).v * ekr k y :=
    fun y hy => by
    obtain ⟨D', U', hs', hy⟩ := modLove_ok (h y hy)
    rw [hs] at hs'
    injection hs' with hs'
    injection hs' with e1 e2
    subst e1 e2
    rw [hy]
  rw [hz]
  refine (((ekr_deriv hk hr).const_mul (ampL M S thk iref pot I2 k omega rho isrc zs t D U *
    (loveOut M S thk iref pot ircv zr).v)).congr_of_eventuallyEq ?_).congr_deriv ?_
  · filter_upwards [Ioi_mem_nhds hr] with y hy
    rw [f y hy]
  · dsimp only
    ring

/-- The hypotheses of `C83_depth` and `C83_range` are met by the plate. -/
theorem ex83 (z r : ℝ) (hr : 0 < r) : ∃ o, modLove (plate 1 1) plateS (fun _ => Real.pi) 0 (1, 1) (Real.pi:ℂ) 1 (√2) 1 0 0 0 z .HF r = .ok o := by
  unfold modLove
  have : srcSH ((1:ℝ):ℂ) ((plate 1 1).lay 0) .HF = .ok (2 / I, 2 / I) := by
    simp [srcSH, plate]; norm_num
  have p0 : (Real.pi:ℂ) ≠ 0 := by exact_mod_cast Real.pi_pos.ne'
  rw [this]
  dsimp only
  rw [if_neg (by push Not; exact ⟨by simp [p0], one_ne_zero, by positivity, by simpa using hr.ne'⟩), if_neg (by decide)]
  exact ⟨_, rfl⟩

/-! ### C84 -/

/-- C84: with the source at the surface the vertical dip-slip mode response is zero anyway: blanking it changes nothing. -/
theorem C84_surface {M : ModeIn ℂ} {S : ℕ → SH ℂ} {m : ℕ → Medium ℂ} {thk dep : ℕ → ℝ} (hI : Describes M S m thk) {iref : ℕ}
    (hi : iref + 1 < M.nlay) (hl : (M.lay iref).liquid = false) (ok : AllOkL M S) {pot : ℂ × ℂ}
    (h : loveSecular M S iref = some (0, pot)) {I2 : ℂ} {k omega rho : ℝ} {ircv : ℕ} {zr : ℝ} {t : Src} {r : ℝ} {o : ℂ × ℂ × ℂ}
    (ho : modLove M S thk iref pot I2 k omega rho 0 0 ircv zr t r = .ok o) :
    modsumLove M S thk dep iref pot I2 k omega rho 0 0 ircv zr t r = .ok o := by
  unfold modsumLove
  split
  · rename_i e
    obtain ⟨-, -, rfl⟩ := e
    obtain ⟨D, U, hs, e⟩ := modLove_ok ho
    have f := (C76_mode hI hi hl ok h).1.free
    have hDU : D + U = 0 := by
      unfold srcSH at hs
      split at hs
      · cases hs
      · injection hs with hs
        simp only [Prod.mk.injEq] at hs
        rw [← hs.1, ← hs.2]; ring
    have A : ampL M S thk iref pot I2 k omega rho 0 0 .DS D U = 0 := by
      unfold ampL
      rw [f, hDU]
      simp
    rw [e, A]
    simp
  · exact ho

theorem plate_out (z : ℝ) : loveOut (plate 1 1) plateS (fun _ => Real.pi) 0 (1, 1) 0 z = ⟨2 * cos z, -(2 * sin z)⟩ := by
  have hd : potDown (plate 1 1) plateS 0 (1, 1) 0 = (1, 1) := rfl
  have hu : potUp (plate 1 1) plateS 0 (1, 1) 1 = (-1, -1) := by
    have h := plate_exp (b := 1) (k := 1) one_pos
    have q0 : ((plate 1 1).lay 0).liquid = false := rfl
    have q1 : ((plate 1 1).lay 1).liquid = true := rfl
    have q2 : (plate 1 1).nlay = 2 := rfl
    simp [potUp, upDownL, q0, q1, q2, h, hd, plateS]
  have l0 : ((plate 1 1).lay 0).liquid = false := rfl
  have xb : ((plate 1 1).lay 0).xb = I := by simp [plate]
  have mu : ((plate 1 1).lay 0).mu = 1 := by simp [plate]
  have hk : (plate 1 1).k = 1 := by simp [plate]
  have e1 : exp (-(1 * I * (Real.pi - z))) = -exp (z * I) := by
    rw [show -(1 * I * ((Real.pi:ℂ) - z)) = z * I - Real.pi * I by ring, Complex.exp_sub, Complex.exp_pi_mul_I]
    ring
  have e2 : exp (-(1 * I * (z:ℂ))) = exp (-(z:ℂ) * I) := by congr 1; ring
  have hI := I_mul_I
  unfold loveOut eigenfnL
  simp only [l0, xb, hk, hd, hu, zero_add, e1, e2, layT, mu, Complex.cos, Complex.sin, Bool.false_eq_true, if_false, SHS.mk.injEq]
  constructor
  · simp; ring
  · simp; ring

/-- Away from the surface the vertical dip-slip response is not zero: the condition of the program is needed. -/
example : ∃ o, modLove (plate 1 1) plateS (fun _ => Real.pi) 0 (1, 1) (Real.pi:ℂ) 1 (√2) 1 0 1 0 0 .DS 1 = .ok o ∧ o.1 ≠ 0 := by
  have hs : srcSH ((1:ℝ):ℂ) ((plate 1 1).lay 0) .DS = .ok (-2, 2) := by
    simp [srcSH, plate]; norm_num
  have p0 : (Real.pi:ℂ) ≠ 0 := by exact_mod_cast Real.pi_pos.ne'
  have ho : ∃ o, modLove (plate 1 1) plateS (fun _ => Real.pi) 0 (1, 1) (Real.pi:ℂ) 1 (√2) 1 0 1 0 0 .DS 1 = .ok o := by
    unfold modLove
    rw [hs]
    dsimp only
    rw [if_neg (by push Not; exact ⟨by simp [p0], one_ne_zero, by positivity, by norm_num⟩), if_neg (by decide)]
    exact ⟨_, rfl⟩
  obtain ⟨o, ho⟩ := ho
  refine ⟨o, ho, ?_⟩
  obtain ⟨D, U, hs', e⟩ := modLove_ok ho
  rw [hs] at hs'
  injection hs' with hs'
  injection hs' with e1 e2
  subst e1 e2
  have s1 : sin ((1:ℝ):ℂ) ≠ 0 := by
    rw [← ofReal_sin]
    exact_mod_cast (Real.sin_pos_of_pos_of_lt_pi one_pos (by linarith [Real.two_le_pi])).ne'
  have k0 : ekr 1 1 ≠ 0 := by
    unfold ekr
    refine mul_ne_zero ?_ (Complex.exp_ne_zero _)
    have : 0 < √(2 / (Real.pi * 1 * 1)) := by have := Real.pi_pos; positivity
    exact_mod_cast this.ne'
  rw [e]
  simp only [ampL, plate_out]
  simp only [ofReal_one] at s1
  have s2 : (√2:ℝ) ≠ 0 := by positivity
  have s3 : ((√2:ℝ):ℂ) ≠ 0 := by exact_mod_cast s2
  simp [srcOrder, iPow, s1, k0, p0, s3]
  norm_num

end GRT.Modal
