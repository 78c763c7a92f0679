import Verif.Modal.Love

/-! Rayleigh modes: the secular function (secular.c) and the propagation of the wave amplitudes through the
model (eigenfn.c).  C86, C87.

As for Love waves only a free surface over a half-space is modelled (grt_eigenv.c 476-478). -/

set_option linter.unusedSectionVars false

namespace GRT.Modal

open GRT.RT GRT.Layer GRT.Kernel Matrix

section model
variable {K : Type*} [Field K] [DecidableEq K]

/-- The four amplitudes `cplx_t pot[GRT_RAYL_DIM]`: entries 0, 1 are the upgoing P and S waves, entries 2, 3
the downgoing ones. -/
structure Amp4 (K : Type*) where
  up : Fin 2 → K
  dn : Fin 2 → K

/-- `memset(.., 0, ..)`. -/
def Amp4.zero : Amp4 K := ⟨![0, 0], ![0, 0]⟩

/-- `grt_cmat2x1_mul`, matrix.h 150-156. -/
def mulV (M : Mat2 K) (v : Fin 2 → K) : Fin 2 → K := ![M 0 0 * v 0 + M 0 1 * v 1, M 1 0 * v 0 + M 1 1 * v 1]

/-- The local `M` of one round: reset, `grt_RT_matrix_PSV`, `grt_delay_RT_matrix_PSV`, secular.c 48-55 and
175-184.  `S iy` is what `grt_RT_matrix_PSV(mstat, iy, M)` stores. -/
def ifaceR (I : ModeIn K) (S : ℕ → PSV K) (iy : ℕ) : RTM K :=
  putP resetM (delayPSV (I.exa (iy-1)) (I.exb (iy-1)) (S iy))

/-- `grt_recursion_RT_matrix_PSV(&A, M, &A)`. -/
def recInR (A M : RTM K) : RTM K := recRT_PSV 0 1 0 (fun q => if q = 0 then A else M) 0

/-- `M_top` after `grt_topbound_RU_PSV` for a free surface (layer.c 108-129): on failure only `stats` is written. -/
def topR (I : ModeIn K) : RTM K :=
  match freeBoundPSV (I.lay 0).liquid (I.lay 0).cbcb (I.lay 0).xa (I.lay 0).xb 1 with
  | .ok R => { (resetM : RTM K) with RU := R }
  | _ => { (resetM : RTM K) with ok := false }

/-- `grt_recursion_RU_PSV(M_top, A, A)`. -/
def capTopR (I : ModeIn K) (A : RTM K) : RTM K := recRU_PSV 0 1 1 (fun q => if q = 0 then topR I else A) 1

/-- `grt_botbound_RD_PSV` for a half-space (layer.c 151-185): `grt_RT_matrix_PSV(mstat, nlay-1, &M_bot)`, then
`RD` is delayed. -/
def botR (I : ModeIn K) (S : ℕ → PSV K) : RTM K :=
  let r := S (I.nlay - 1)
  let exa := I.exa (I.nlay-2)
  let exb := I.exb (I.nlay-2)
  putP resetM { r with RD := !![r.RD 0 0 * (exa * exa), r.RD 0 1 * (exa * exb); r.RD 1 0 * (exa * exb), r.RD 1 1 * (exb * exb)] }

/-- `grt_recursion_RD_PSV(A, M_bot, A)`. -/
def capBotR (I : ModeIn K) (S : ℕ → PSV K) (A : RTM K) : RTM K :=
  recRD_PSV 0 1 0 (fun q => if q = 0 then A else botR I S) 0

/-- Exactly one side of interface `iref` is liquid, `isLiquid[iref-1] ^ isLiquid[iref]`, secular.c 171. -/
def mixed (I : ModeIn K) (iref : ℕ) : Bool := (I.lay (iref-1)).liquid != (I.lay iref).liquid

/-- State of `grt_GRT_matrix_Rayl`: `M_FA`, `M_BL`, and whether the routine is still running (`false` after
`goto BEFORE_RETURN`). -/
structure MatSt (K : Type*) where
  FA : RTM K
  BL : RTM K
  run : Bool

/-- One round of the loop of `grt_GRT_matrix_Rayl`, secular.c 167-204 (`S iy` was obtained, so the test after
`grt_RT_matrix_PSV` passes).  A failed recursion leaves its mark in the matrix and ends the routine. -/
def raylStep (I : ModeIn K) (S : ℕ → PSV K) (iref iy : ℕ) (p : MatSt K) : MatSt K :=
  if !p.run then p
  else if iy = iref ∧ mixed I iref = true then p
  else
    let M := ifaceR I S iy
    if iy ≤ iref then
      if iy = 1 then { p with FA := M }
      else
        let A := recInR p.FA M
        { p with FA := A, run := A.ok }
    else
      if iy = iref + 1 then { p with BL := M }
      else
        let A := recInR p.BL M
        { p with BL := A, run := A.ok }

/-- Rounds `1 .. n`. -/
def raylLoop (I : ModeIn K) (S : ℕ → PSV K) (iref : ℕ) : ℕ → MatSt K
  | 0 => ⟨resetM, resetM, true⟩
  | n + 1 => raylStep I S iref (n + 1) (raylLoop I S iref n)

/-- `grt_GRT_matrix_Rayl`, secular.c 146-222.  When the routine leaves early the caller is not told and goes on
with what is in `M_FA` and `M_BL`. -/
def raylMats (I : ModeIn K) (S : ℕ → PSV K) (iref : ℕ) : MatSt K :=
  let p := raylLoop I S iref (I.nlay - 2)
  if !p.run then p
  else if !(topR I).ok then { p with run := false }
  else
    let A := capTopR I p.FA
    if !A.ok then { p with FA := A, run := false }
    else
      let B := capBotR I S p.BL
      { FA := A, BL := B, run := B.ok }

/-- `Det` at an interface between solids (or below the surface of a solid), secular.c 342-374; `low` is
`cphase < Vb[0]`. -/
def detSS (I : ModeIn K) (iref : ℕ) (low : Bool) (RU RD : Mat2 K) : Mat2 K :=
  if iref = 0 ∧ low = true then
    let xa := (I.lay 0).xa
    let xb := (I.lay 0).xb
    let cbcb := (I.lay 0).cbcb
    let D21 : Mat2 K := !![1 - (1/2)*cbcb, xb; xa, 1 - (1/2)*cbcb]
    let D22 : Mat2 K := !![1 - (1/2)*cbcb, -xb; -xa, 1 - (1/2)*cbcb]
    add D22 (mul D21 RD)
  else oneSub (mul RU RD)

/-- A 3x3 matrix of complex numbers. -/
abbrev Mat3 (K : Type*) := Matrix (Fin 3) (Fin 3) K

/-- `Qin` and `Qout` of `grt_Q_mat3x3_ls_PSV`, layer.c 499-555: `lq` is the liquid, `so` the solid, `sgn` is 1
when the liquid is above. -/
def qIn (c : K) (lq so : Lay K) (sgn : K) : Mat3 K :=
  let gam := 1 - (1/2) * so.cbcb
  !![-sgn * lq.xa, -sgn * so.xa, -1;
     -lq.rho * c * c / so.mu, -2 * gam, -sgn * 2 * so.xb;
     0, -sgn * 2 * so.xa, -2 * gam]
def qOut (c : K) (lq so : Lay K) (sgn : K) : Mat3 K :=
  let gam := 1 - (1/2) * so.cbcb
  !![-sgn * lq.xa, -sgn * so.xa, 1;
     lq.rho * c * c / so.mu, 2 * gam, -sgn * 2 * so.xb;
     0, -sgn * 2 * so.xa, 2 * gam]

/-- `grt_RT_mat3x3_ls_PSV`, layer.c 443-497; the program is ended where `A` vanishes, and two divisors are not
tested. -/
def rt3 (c : K) (lq so : Lay K) (sgn : K) : Out (Mat3 K) :=
  let lamka1k := lq.rho * (c * c)
  let kb2k := so.cbcb
  let Og2k := 1 - (1/2) * kb2k
  let Og2k2 := Og2k * Og2k
  let p := 2 * Og2k2 * lq.xa * so.mu
  let q := (1/2) * lamka1k * kb2k * so.xa
  let h := 2 * so.mu * lq.xa * so.xa * so.xb
  let A := p + q - h
  let B := p - q + h
  let C := p + q + h
  let D := p - q - h
  if A = 0 then .fail
  else if so.xb = 0 ∨ Og2k = 0 then .undef
  else
    let r12 := -4 * Og2k * lq.xa * so.xb * so.mu / A * sgn
    let r10 := -2 * Og2k * lq.xa * lamka1k / A
    let r01 := -2 * Og2k * so.xa * so.mu * kb2k / A
    .ok !![D / A, r01, r01 / Og2k * so.xb * sgn;
           r10, -B / A, r12;
           r10 / Og2k * so.xa * sgn, r12 / so.xb * so.xa, -C / A]

/-- `grt_cmatmxn_mul` for 3x3 matrices, matrix.h 181-199. -/
def mul3 (A B : Mat3 K) : Mat3 K := .of fun i j => 0 + A i 0 * B 0 j + A i 1 * B 1 j + A i 2 * B 2 j

/-- The block matrix `R3` before it is overwritten: the response of the liquid side, then that of the solid
side, secular.c 405-434. -/
def blk3 (l : K) (s : Mat2 K) : Mat3 K := !![l, 0, 0; 0, s 0 0, s 0 1; 0, s 1 0, s 1 1]

/-- `R3` at its end, secular.c 436-456; `low` is `cphase < cref`. -/
def mat3 (c : K) (lq so : Lay K) (sgn : K) (low : Bool) (R3 : Mat3 K) : Out (Mat3 K) :=
  if low then .ok (.of fun i j => mul3 (qIn c lq so sgn) R3 i j - qOut c lq so sgn i j)
  else
    match rt3 c lq so sgn with
    | .ok RT => .ok (.of fun i j => if i = j then 1 - mul3 RT R3 i j else - mul3 RT R3 i j)
    | .fail => .fail
    | .undef => .undef

/-- The determinant as written, secular.c 459-461. -/
def det3 (R : Mat3 K) : K :=
  R 0 0 * (R 1 1 * R 2 2 - R 1 2 * R 2 1) - R 0 1 * (R 1 0 * R 2 2 - R 1 2 * R 2 0)
    + R 0 2 * (R 1 0 * R 2 1 - R 1 1 * R 2 0)

/-- The cross product of rows 1 and 2, secular.c 472-474. -/
def cross12 (R : Mat3 K) : Fin 3 → K :=
  ![R 1 1 * R 2 2 - R 1 2 * R 2 1, R 1 2 * R 2 0 - R 1 0 * R 2 2, R 1 0 * R 2 1 - R 1 1 * R 2 0]

/-- `RU_FA_delay`, secular.c 408-434. -/
def delayRU (exa exb : K) (RU : Mat2 K) : Mat2 K :=
  !![exa * exa * RU 0 0, exa * exb * RU 0 1; exa * exb * RU 1 0, exb * exb * RU 1 1]

/-- What `grt_secular_function_potential_Rayl` stores through `psec` and, if asked, through `ppot` and `ppotUp`.
`pot` is `none` where a division by zero fills the amplitudes with NaN. -/
structure Sec (K : Type*) where
  sec : K
  pot : Option (Amp4 K × Amp4 K)

/-- The choices the routine makes by comparing real numbers, and its real norms: `low` is `cphase < cref`, `big`
is `cphase > 1.0`; `hyp` is `hypot(fabs(.), fabs(.))` of secular.c 380, `amp` the `real_t amp` of secular.c 475. -/
structure SecPar (K : Type*) where
  low : Bool
  big : Bool
  hyp : K → K → K
  amp : (Fin 3 → K) → K

/-- `grt_secular_function_potential_Rayl`, secular.c 329-498, from the two matrices; `ppotUp` is zero on entry
(grt_eigenfn.c 480).  `.fail`: the program ends with an error message (layer.c 484). -/
def raylSecularOf (I : ModeIn K) (P : SecPar K) (iref : ℕ) (RU RD : Mat2 K) : Out (Sec K) :=
  if (I.lay iref).liquid = false ∧ (iref = 0 ∨ (I.lay (iref-1)).liquid = false) then
    let D := detSS I iref P.low RU RD
    let det := D 0 0 * D 1 1 - D 0 1 * D 1 0
    let h := P.hyp (D 0 0) (D 0 1)
    let dn : Fin 2 → K := ![-D 0 1 / h, D 0 0 / h]
    .ok ⟨if iref = 0 ∧ P.low = true then det / 2 else det,
      if h = 0 then none else some (⟨mulV RD dn, dn⟩, Amp4.zero)⟩
  else if (I.lay iref).liquid = true ∧ (iref = 0 ∨ (I.lay (iref-1)).liquid = true) then
    .ok ⟨1 - RU 0 0 * RD 0 0, some (⟨![RD 0 0, 0], ![1, 0]⟩, Amp4.zero)⟩
  else
    let above := (I.lay (iref-1)).liquid
    let lq := if above then I.lay (iref-1) else I.lay iref
    let so := if above then I.lay iref else I.lay (iref-1)
    let sgn : K := if above then 1 else -1
    let dl := if above then delayRU (I.exa (iref-1)) 0 !![RU 0 0, 0; 0, 0] else delayRU (I.exa (iref-1)) (I.exb (iref-1)) RU
    let R3 := if above then blk3 (dl 0 0) RD else blk3 (RD 0 0) dl
    match mat3 I.c lq so sgn P.low R3 with
    | .fail => .fail
    | .undef => .undef
    | .ok R =>
      let t := cross12 R
      let h := P.amp t
      let t0 := t 0 / h
      let t12 : Fin 2 → K := ![t 1 / h, t 2 / h]
      .ok ⟨if P.low = true ∧ P.big = true then det3 R / (4 * I.c * I.c) else det3 R,
        if h = 0 then none
        else if above then some (⟨mulV RD t12, t12⟩, ⟨![t0, 0], ![dl 0 0 * t0, 0]⟩)
        else some (⟨![RD 0 0 * t0, 0], ![t0, 0]⟩, ⟨t12, mulV dl t12⟩)⟩

/-- `grt_secular_function_potential_Rayl`. -/
def raylSecular (I : ModeIn K) (S : ℕ → PSV K) (P : SecPar K) (iref : ℕ) : Out (Sec K) :=
  raylSecularOf I P iref (raylMats I S iref).FA.RU (raylMats I S iref).BL.RD

/-- `Mall_FR[iy]` after the loop of `grt_GRT_matrix_allLayer_Rayl`, secular.c 46-70. -/
def frArrR (I : ModeIn K) (S : ℕ → PSV K) : ℕ → RTM K
  | 0 => resetM
  | 1 => ifaceR I S 1
  | n + 2 => combine (frArrR I S (n + 1)) (ifaceR I S (n + 2))

/-- `Mall_RL[my]` after `n` interfaces below layer `my` have been taken in, secular.c 65-69. -/
def rlArrR (I : ModeIn K) (S : ℕ → PSV K) (my : ℕ) : ℕ → RTM K
  | 0 => resetM
  | 1 => ifaceR I S (my + 1)
  | n + 2 => recInR (rlArrR I S my (n + 1)) (ifaceR I S (my + n + 2))

/-- `Mall_FR[iy]` at the end, secular.c 75-78 (`iy < nlay-1`). -/
def allFRR (I : ModeIn K) (S : ℕ → PSV K) (iy : ℕ) : RTM K := capTopR I (frArrR I S iy)

/-- `Mall_RL[iy]` at the end, secular.c 80-84; the entry of the half-space is as reset. -/
def allRLR (I : ModeIn K) (S : ℕ → PSV K) (iy : ℕ) : RTM K :=
  if iy + 1 < I.nlay then capBotR I S (rlArrR I S iy (I.nlay - 2 - iy)) else resetM

/-- `grt_cmat2x2_inv(tmp, tmp)` with the return value not looked at: `tmp` stays when it has no inverse. -/
def invKeep (A : Mat2 K) : Mat2 K := (inv A).getD A

/-- `E`, the factors of one layer. -/
def expM (I : ModeIn K) (i : ℕ) : Mat2 K := !![I.exa i, 0; 0, I.exb i]

/-- `grt_potential_propagate_UpDown_Rayl`, eigenfn.c 35-78: from the amplitudes below interface `iy-1` to
those below (first) and above (second) interface `iy`. -/
def upDownR (I : ModeIn K) (S : ℕ → PSV K) (iy : ℕ) (p1 : Amp4 K) : Amp4 K × Amp4 K :=
  let M := S iy
  let R := (allRLR I S iy).RD
  let up1 := mulV (expM I (iy-1)) p1.dn
  let x := mulV (mul (invKeep (oneSub (mul M.RU R))) M.TD) up1
  let y := mulV R x
  let r := mulV M.RD up1
  let t := mulV M.TU y
  (⟨y, x⟩, ⟨![r 0 + t 0, r 1 + t 1], up1⟩)

/-- `grt_potential_propagate_DownUp_Rayl`, eigenfn.c 137-181: from the amplitudes below interface `iy+1` (`p2`)
and what was stored for those above it (`u2`) to those below interface `iy` (first) and above interface `iy+1`
(second). -/
def downUpR (I : ModeIn K) (S : ℕ → PSV K) (iy : ℕ) (p2 u2 : Amp4 K) : Amp4 K × Amp4 K :=
  let M := S (iy + 1)
  let R := (allFRR I S iy).RU
  let E := expM I iy
  let G := mul E (mul R E)
  let u2 : Amp4 K :=
    if u2.up 0 = 0 then
      let w := mulV (mul (invKeep (oneSub (mul M.RD G))) M.TU) p2.up
      ⟨w, mulV G w⟩
    else u2
  let a := mulV E u2.up
  (⟨a, mulV R a⟩, u2)

/-- `mod_potRaylLove_Down[iref + n]`, the downward loop of `grt_get_mod_potential_Up_Down_Rayl`, eigenfn.c
236-241. -/
def dnArrR (I : ModeIn K) (S : ℕ → PSV K) (iref : ℕ) (pot : Amp4 K) : ℕ → Amp4 K
  | 0 => pot
  | n + 1 => (upDownR I S (iref + n + 1) (dnArrR I S iref pot n)).1

/-- What `mod_potRaylLove_Up[iref - n]` holds when the upward loop comes to it: the given amplitudes for `iref`
itself, zeros elsewhere (eigenfn.c 223-229). -/
def upGiven (potUp : Amp4 K) (n : ℕ) : Amp4 K := if n = 0 then potUp else Amp4.zero

/-- `mod_potRaylLove_Down[iref - n]`, the upward loop, eigenfn.c 244-248. -/
def upArrR (I : ModeIn K) (S : ℕ → PSV K) (iref : ℕ) (pot potUp : Amp4 K) : ℕ → Amp4 K
  | 0 => pot
  | n + 1 => (downUpR I S (iref - (n + 1)) (upArrR I S iref pot potUp n) (upGiven potUp n)).1

/-- `mod_potRaylLove_Down[i]`. -/
def potDownR (I : ModeIn K) (S : ℕ → PSV K) (iref : ℕ) (p : Amp4 K × Amp4 K) (i : ℕ) : Amp4 K :=
  if iref ≤ i then dnArrR I S iref p.1 (i - iref) else upArrR I S iref p.1 p.2 (iref - i)

/-- `mod_potRaylLove_Up[i]`; entry `nlay` (allocated with calloc, grt_eigenfn.c 466-467) stays zero. -/
def potUpR (I : ModeIn K) (S : ℕ → PSV K) (iref : ℕ) (p : Amp4 K × Amp4 K) (i : ℕ) : Amp4 K :=
  if I.nlay ≤ i then Amp4.zero
  else if iref < i then (upDownR I S i (potDownR I S iref p (i - 1))).2
  else if 1 ≤ i then (downUpR I S (i - 1) (potDownR I S iref p i) (upGiven p.2 (iref - i))).2
  else p.2

/-- The amplitudes at depth `dz` below the top of layer `i` and their product with the layer matrix
`grt_get_layer_D`, `grt_get_eigenfn_single_depth_Rayl`, eigenfn.c 313-352; `e1a`, `e1b` are `exp(-k xa dz)`,
`exp(-k xb dz)` and `e2a`, `e2b` are `exp(-k xa (thk - dz))`, `exp(-k xb (thk - dz))`.  The matrix is written by
its four blocks, layer.c 829-880 (solid, and liquid with `liquid_invtype == 1`). -/
def eigenfnR (I : ModeIn K) (S : ℕ → PSV K) (iref : ℕ) (p : Amp4 K × Amp4 K) (i : ℕ) (e1a e1b e2a e2b : K) : MS K :=
  let u := mulV !![e2a, 0; 0, e2b] (potUpR I S iref p (i + 1)).up
  let d := mulV !![e1a, 0; 0, e1b] (potDownR I S iref p i).dn
  let l := I.lay i
  let A := D11 I.k l
  let B := D12 I.k l
  let C := D21 I.k (I.c * I.k) l
  let D := D22 I.k (I.c * I.k) l
  ⟨A 0 0 * u 0 + A 0 1 * u 1 + B 0 0 * d 0 + B 0 1 * d 1, A 1 0 * u 0 + A 1 1 * u 1 + B 1 0 * d 0 + B 1 1 * d 1,
   C 0 0 * u 0 + C 0 1 * u 1 + D 0 0 * d 0 + D 0 1 * d 1, C 1 0 * u 0 + C 1 1 * u 1 + D 1 0 * d 0 + D 1 1 * d 1⟩

end model

/-! ### The arrays as combinations of interfaces -/

section arrays
variable {K : Type*} [Field K] [CharZero K] [DecidableEq K]

theorem mulV_eq (M : Mat2 K) (v : Fin 2 → K) : mulV M v = M *ᵥ v := by
  ext i; fin_cases i <;> simp [mulV, mv_apply]

theorem samePSV_refl (A : RTM K) : SamePSV A A := ⟨rfl, rfl, rfl, rfl⟩

theorem combine_congr2 {A A' B B' : RTM K} (ha : SamePSV A A') (hb : SamePSV B B') (h : (combine A B).ok = true) :
    (combine A' B').ok = true ∧ SamePSV (combine A B) (combine A' B') := by
  rw [combine_ok_iff] at h
  have h' : (1 - A'.RU * B'.RD).det ≠ 0 := by rw [← ha.2.1, ← hb.1]; exact h
  refine ⟨(combine_ok_iff _ _).2 h', ?_⟩
  obtain ⟨a, b, c, d⟩ := combine_val A B h
  obtain ⟨a', b', c', d'⟩ := combine_val A' B' h'
  obtain ⟨p1, p2, p3, p4⟩ := ha
  obtain ⟨q1, q2, q3, q4⟩ := hb
  refine ⟨?_, ?_, ?_, ?_⟩
  · rw [a, a', p1, p2, p3, p4, q1]
  · rw [b, b', p2, q1, q2, q3, q4]
  · rw [c, c', p2, p3, q1, q3]
  · rw [d, d', p2, p4, q1, q4]

/-- Only the reflections facing each other decide whether two parts can be put together. -/
theorem combine_ok_congr {A A' B B' : RTM K} (ha : A.RU = A'.RU) (hb : B.RD = B'.RD) (h : (combine A B).ok = true) :
    (combine A' B').ok = true := by
  rw [combine_ok_iff] at h ⊢
  rwa [← ha, ← hb]

theorem recInR_ok (A M : RTM K) : (recInR A M).ok = (combine A M).ok := by
  unfold recInR
  by_cases hd : (1 - A.RU * M.RD).det = 0
  · have h1 := recRT_PSV_fail 0 1 0 (fun q => if q = 0 then A else M) (by simpa using hd)
    have h2 : (combine A M).ok = false := by
      rw [Bool.eq_false_iff, Ne, combine_ok_iff]; simpa using hd
    rw [h1, h2]; simp [Store.set]
  · have hc := (combine_ok_iff A M).2 hd
    rw [hc]
    have := (C11_inplace_PSV 0 1 (fun q => if q = 0 then A else M) (by decide) (by simpa using hc)).1
    simpa using this

theorem recInR_same {A M : RTM K} (h : (combine A M).ok = true) : SamePSV (recInR A M) (combine A M) := by
  have := (C11_inplace_PSV 0 1 (fun q => if q = 0 then A else M) (by decide) (by simpa using h)).2
  simpa [recInR] using this

theorem capTopR_ok (I : ModeIn K) (A : RTM K) : (capTopR I A).ok = (combine (topR I) A).ok := by
  have := (C11_single_PSV 0 1 1 (fun q => if q = 0 then topR I else A)).1.2.2.1
  simpa [capTopR] using this

theorem capTopR_val {I : ModeIn K} {A : RTM K} (h : (combine (topR I) A).ok = true) :
    (capTopR I A).RU = (combine (topR I) A).RU := by
  have := ((C11_single_PSV 0 1 1 (fun q => if q = 0 then topR I else A)).2 (by simpa using h)).2.2.1
  simpa [capTopR] using this

theorem capBotR_ok (I : ModeIn K) (S : ℕ → PSV K) (A : RTM K) : (capBotR I S A).ok = (combine A (botR I S)).ok := by
  have := (C11_single_PSV 0 1 0 (fun q => if q = 0 then A else botR I S)).1.1
  simpa [capBotR] using this

theorem capBotR_val {I : ModeIn K} {S : ℕ → PSV K} {A : RTM K} (h : (combine A (botR I S)).ok = true) :
    (capBotR I S A).RD = (combine A (botR I S)).RD := by
  have := ((C11_single_PSV 0 1 0 (fun q => if q = 0 then A else botR I S)).2 (by simpa using h)).1
  simpa [capBotR] using this

/-- A delayed interface in terms of the factors of the layer above. -/
theorem ifaceR_val (I : ModeIn K) (S : ℕ → PSV K) (iy : ℕ) :
    (ifaceR I S iy).RD = expM I (iy-1) * ((S iy).RD * expM I (iy-1)) ∧ (ifaceR I S iy).RU = (S iy).RU ∧
    (ifaceR I S iy).TD = (S iy).TD * expM I (iy-1) ∧ (ifaceR I S iy).TU = expM I (iy-1) * (S iy).TU := by
  refine ⟨?_, rfl, ?_, ?_⟩ <;> ext i j <;> fin_cases i <;> fin_cases j <;>
    simp [ifaceR, putP, delayPSV, expM, Matrix.mul_apply, Fin.sum_univ_two] <;> ring

theorem botR_RD (I : ModeIn K) (S : ℕ → PSV K) (h : 2 ≤ I.nlay) : (botR I S).RD = (ifaceR I S (I.nlay - 1)).RD := by
  have : I.nlay - 1 - 1 = I.nlay - 2 := by omega
  simp [botR, ifaceR, putP, delayPSV, this]

/-- Every combination made for entry `my` succeeds, up to `n` interfaces. -/
def RlOkR (I : ModeIn K) (S : ℕ → PSV K) (my n : ℕ) : Prop :=
  ∀ j, 1 ≤ j → j < n → (combine (rlArrR I S my j) (ifaceR I S (my + j + 1))).ok = true

/-- Every combination made for entry `iy` of `Mall_FR` before the surface is added succeeds. -/
def FrOkR (I : ModeIn K) (S : ℕ → PSV K) (iy : ℕ) : Prop :=
  ∀ j, 1 ≤ j → j < iy → (combine (frArrR I S j) (ifaceR I S (j + 1))).ok = true

/-- The entry for layer `my` with all interfaces below it, the half-space included. -/
def rlFullR (I : ModeIn K) (S : ℕ → PSV K) (my : ℕ) : RTM K := rlArrR I S my (I.nlay - 1 - my)

theorem rlArrR_same {I : ModeIn K} {S : ℕ → PSV K} {my n : ℕ} (h : RlOkR I S my (n + 2)) :
    SamePSV (rlArrR I S my (n + 2)) (combine (rlArrR I S my (n + 1)) (ifaceR I S (my + n + 2))) :=
  recInR_same (h (n + 1) (by omega) (by omega))

/-- Taking in the interfaces one by one from the top is the same as putting the first one on top of the rest. -/
theorem rl_splitR {I : ModeIn K} {S : ℕ → PSV K} {my : ℕ} (n : ℕ) (h : RlOkR I S my (n + 2)) (g : RlOkR I S (my + 1) (n + 1)) :
    (combine (ifaceR I S (my + 1)) (rlArrR I S (my + 1) (n + 1))).ok = true ∧
    SamePSV (rlArrR I S my (n + 2)) (combine (ifaceR I S (my + 1)) (rlArrR I S (my + 1) (n + 1))) := by
  induction n with
  | zero => exact ⟨h 1 (by omega) (by omega), rlArrR_same h⟩
  | succ n ih =>
    obtain ⟨i1, i2⟩ := ih (fun j a b => h j a (by omega)) (fun j a b => g j a (by omega))
    set A := ifaceR I S (my + 1)
    set B := rlArrR I S (my + 1) (n + 1)
    have eC : ifaceR I S (my + (n + 1) + 2) = ifaceR I S (my + 1 + (n + 1) + 1) := by congr 1; omega
    set C := ifaceR I S (my + 1 + (n + 1) + 1)
    have hg : (combine B C).ok = true := g (n + 1) (by omega) (by omega)
    have hB : SamePSV (rlArrR I S (my + 1) (n + 2)) (combine B C) := by
      have := rlArrR_same (n := n) g
      have e : ifaceR I S (my + 1 + n + 2) = C := by congr 1
      rw [e] at this; exact this
    have hh := h (n + 2) (by omega) (by omega)
    have e2 : ifaceR I S (my + (n + 2) + 1) = C := by congr 1; omega
    rw [e2] at hh
    obtain ⟨hAB, s2⟩ := combine_congr2 i2 (samePSV_refl C) hh
    have hABC := (C09_outer_success_PSV A B C i1 hg).1 hAB
    obtain ⟨o4, s4⟩ := combine_congr2 (samePSV_refl A) hB.symm' hABC
    refine ⟨o4, ?_⟩
    have s1 := rlArrR_same (n := n + 1) h
    rw [eC] at s1
    exact s1.trans' (s2.trans' ((C09_assoc_PSV A B C i1 hAB hg hABC).trans' s4))

theorem allRLR_val {I : ModeIn K} {S : ℕ → PSV K} (h2 : 2 ≤ I.nlay) {my : ℕ} (hm : my + 1 < I.nlay)
    (h : RlOkR I S my (I.nlay - 1 - my)) :
    (allRLR I S my).RD = (rlFullR I S my).RD := by
  simp only [allRLR, if_pos hm]
  obtain ⟨n, hn⟩ : ∃ n, I.nlay - 2 - my = n := ⟨_, rfl⟩
  have e1 : I.nlay - 1 - my = n + 1 := by omega
  have hb := botR_RD I S h2
  unfold rlFullR
  rw [e1] at h ⊢
  rw [hn]
  cases n with
  | zero =>
    have e : my + 1 = I.nlay - 1 := by omega
    simp only [rlArrR, e]
    obtain ⟨q1, q2, -⟩ := C10_neutral_PSV (botR I S)
    rw [capBotR_val q1, q2.1, hb]
  | succ n =>
    have e2 : my + n + 2 = I.nlay - 1 := by omega
    have h1 := h (n + 1) (by omega) (by omega)
    have e3 : my + (n + 1) + 1 = I.nlay - 1 := by omega
    rw [e3] at h1
    have h4 := combine_ok_congr rfl hb.symm h1
    rw [capBotR_val h4]
    simp only [rlArrR, e2]
    rw [(recInR_same h1).1, (combine_val _ _ ((combine_ok_iff _ _).1 h4)).1, (combine_val _ _ ((combine_ok_iff _ _).1 h1)).1, hb]

/-- The reflection from below, layer by layer: the matrix inverted in `upDownR` is regular. -/
theorem down_recR {I : ModeIn K} {S : ℕ → PSV K} (h2 : 2 ≤ I.nlay) {my : ℕ} (hm : my + 1 < I.nlay)
    (h : RlOkR I S my (I.nlay - 1 - my)) (g : my + 2 < I.nlay → RlOkR I S (my+1) (I.nlay - 1 - (my+1))) :
    (1 - (S (my+1)).RU * (allRLR I S (my+1)).RD).det ≠ 0 ∧
    (allRLR I S my).RD = expM I my * (((S (my+1)).RD + (S (my+1)).TU * ((allRLR I S (my+1)).RD *
      ((1 - (S (my+1)).RU * (allRLR I S (my+1)).RD)⁻¹ * (S (my+1)).TD))) * expM I my) := by
  have v1 := allRLR_val h2 hm h
  obtain ⟨f1, f2, f3, f4⟩ := ifaceR_val I S (my + 1)
  have em : my + 1 - 1 = my := rfl
  rw [em] at f1 f3 f4
  by_cases hl : my + 2 < I.nlay
  · have w1 := allRLR_val h2 hl (g hl)
    have w2 := g hl
    obtain ⟨n, hn⟩ : ∃ n, I.nlay - 1 - (my + 1) = n + 1 := ⟨I.nlay - 1 - (my + 1) - 1, by omega⟩
    have hn' : I.nlay - 1 - my = n + 2 := by omega
    unfold rlFullR at v1 w1
    rw [hn'] at h v1
    rw [hn] at w1 w2
    obtain ⟨k1, k2⟩ := rl_splitR n h w2
    rw [combine_ok_iff] at k1
    have d := (combine_val _ _ k1).1
    rw [← w1, f2] at k1
    refine ⟨k1, ?_⟩
    rw [v1, k2.1, d, ← w1, f1, f2, f3, f4]
    noncomm_ring
  · have e : (allRLR I S (my + 1)).RD = 0 := by
      have : ¬ (my + 1 + 1 < I.nlay) := hl
      have z : (!![0, 0; 0, 0] : Mat2 K) = 0 := by ext i j; fin_cases i <;> fin_cases j <;> rfl
      simp [allRLR, this, resetM]
    have e1 : I.nlay - 1 - my = 1 := by omega
    unfold rlFullR at v1
    rw [e1] at v1
    simp only [rlArrR] at v1
    rw [e, v1, f1]
    simp

theorem frArrR_succ {I : ModeIn K} {S : ℕ → PSV K} {iy : ℕ} (h : FrOkR I S (iy + 1)) :
    (combine (frArrR I S iy) (ifaceR I S (iy+1))).ok = true ∧
    SamePSV (frArrR I S (iy+1)) (combine (frArrR I S iy) (ifaceR I S (iy+1))) := by
  cases iy with
  | zero =>
    obtain ⟨q1, q2, -⟩ := C10_neutral_PSV (ifaceR I S 1)
    exact ⟨q1, q2.symm'⟩
  | succ n => exact ⟨h (n+1) (by omega) (by omega), samePSV_refl _⟩

/-- The reflection from above, layer by layer: the matrix inverted in `downUpR` is regular. -/
theorem up_recR {I : ModeIn K} {S : ℕ → PSV K} {iy : ℕ} (h : FrOkR I S (iy + 1))
    (o1 : (combine (topR I) (frArrR I S iy)).ok = true) (o2 : (combine (topR I) (frArrR I S (iy+1))).ok = true) :
    (1 - (S (iy+1)).RD * (expM I iy * ((allFRR I S iy).RU * expM I iy))).det ≠ 0 ∧
    (allFRR I S (iy+1)).RU = (S (iy+1)).RU + (S (iy+1)).TD * ((expM I iy * ((allFRR I S iy).RU * expM I iy)) *
      ((1 - (S (iy+1)).RD * (expM I iy * ((allFRR I S iy).RU * expM I iy)))⁻¹ * (S (iy+1)).TU)) := by
  obtain ⟨f1, f2, f3, f4⟩ := ifaceR_val I S (iy + 1)
  have em : iy + 1 - 1 = iy := rfl
  rw [em] at f1 f3 f4
  obtain ⟨c1, c2⟩ := frArrR_succ h
  have v1 : (allFRR I S iy).RU = (combine (topR I) (frArrR I S iy)).RU := capTopR_val o1
  have v2 : (allFRR I S (iy+1)).RU = (combine (topR I) (frArrR I S (iy+1))).RU := capTopR_val o2
  set T := topR I
  set A := frArrR I S iy
  set B := ifaceR I S (iy + 1)
  obtain ⟨o3, s2⟩ := combine_congr2 (samePSV_refl T) c2 o2
  have o4 := (C09_outer_success_PSV T A B o1 c1).2 o3
  have s1 := C09_assoc_PSV T A B o1 o4 c1 o3
  have o5 := (combine_ok_iff _ _).1 o4
  have hv := (combine_val _ _ o5).2.1
  rw [← v1, f1] at o5
  set F := (allFRR I S iy).RU
  set E := expM I iy
  set RD := (S (iy+1)).RD
  have o6 : (1 - RD * (E * (F * E))).det ≠ 0 := by
    have : F * (E * (RD * E)) = (F * E) * (RD * E) := by noncomm_ring
    rw [this, RT.det_comm, show RD * E * (F * E) = RD * (E * (F * E)) by noncomm_ring] at o5
    exact o5
  have o7 : (1 - E * (RD * E) * F).det ≠ 0 := by rw [RT.det_comm]; exact o5
  refine ⟨o6, ?_⟩
  rw [v2, s2.2.1, ← s1.2.1, hv, ← v1, f1, f2, f3, f4]
  -- push the factor through the inverse
  have hp : (1 - E * (RD * E) * F)⁻¹ * E = E * (1 - RD * (E * (F * E)))⁻¹ := by
    have h3 : (1 - E * (RD * E) * F) * E = E * (1 - RD * (E * (F * E))) := by noncomm_ring
    have hX := inv_mul' o7
    have hY := mul_inv' o6
    generalize (1 - E * (RD * E) * F)⁻¹ = X at hX ⊢
    generalize (1 - RD * (E * (F * E)))⁻¹ = Y at hY ⊢
    calc X * E = X * E * ((1 - RD * (E * (F * E))) * Y) := by rw [hY, mul_one]
      _ = X * (E * (1 - RD * (E * (F * E)))) * Y := by simp only [mul_assoc]
      _ = (X * (1 - E * (RD * E) * F)) * E * Y := by rw [← h3]; simp only [mul_assoc]
      _ = _ := by rw [hX, one_mul]
  congr 1
  calc (S (iy+1)).TD * E * (F * ((1 - E * (RD * E) * F)⁻¹ * (E * (S (iy+1)).TU)))
      = (S (iy+1)).TD * E * (F * (((1 - E * (RD * E) * F)⁻¹ * E) * (S (iy+1)).TU)) := by noncomm_ring
    _ = _ := by rw [hp]; noncomm_ring

/-! ### The two matrices of the secular function are entries of the two arrays -/

/-- The last layer whose column above is in `M_FA`. -/
def jr (I : ModeIn K) (iref : ℕ) : ℕ := if mixed I iref = true then iref - 1 else iref

theorem jr_le (I : ModeIn K) (iref : ℕ) : jr I iref ≤ iref := by unfold jr; split <;> omega

theorem raylLoop_val {I : ModeIn K} {S : ℕ → PSV K} {iref : ℕ} (n : ℕ) (h : (raylLoop I S iref n).run = true) :
    SamePSV (raylLoop I S iref n).FA (frArrR I S (min n (jr I iref))) ∧ FrOkR I S (min n (jr I iref)) ∧
    (raylLoop I S iref n).BL = rlArrR I S iref (n - iref) ∧ RlOkR I S iref (n - iref) := by
  induction n with
  | zero =>
    simp only [raylLoop, Nat.zero_min, Nat.zero_sub]
    exact ⟨samePSV_refl _, fun j _ h => by omega, rfl, fun j _ h => by omega⟩
  | succ n ih =>
    simp only [raylLoop, raylStep] at h ⊢
    set q := raylLoop I S iref n with hq
    have hr : q.run = true := by
      cases e : q.run
      · rw [e] at h; simp [e] at h
      · rfl
    obtain ⟨i1, i2, i3, i4⟩ := ih hr
    rw [hr] at h ⊢
    simp only [Bool.not_true, Bool.false_eq_true, if_false] at h ⊢
    by_cases hm : n + 1 = iref ∧ mixed I iref = true
    · rw [if_pos hm]
      have j1 : jr I iref = n := by unfold jr; rw [if_pos hm.2]; omega
      have m1 : min (n + 1) (jr I iref) = min n (jr I iref) := by omega
      have m3 : n + 1 - iref = n - iref := by omega
      rw [m1, m3]
      exact ⟨i1, i2, i3, i4⟩
    · rw [if_neg hm] at h ⊢
      by_cases hc : n + 1 ≤ iref
      · rw [if_pos hc] at h ⊢
        have j1 : n + 1 ≤ jr I iref := by
          unfold jr; split
          · rename_i hx
            have : n + 1 ≠ iref := fun e => hm ⟨e, hx⟩
            omega
          · omega
        have m1 : min (n + 1) (jr I iref) = n + 1 := by omega
        have m2 : min n (jr I iref) = n := by omega
        have m3 : n + 1 - iref = n - iref := by omega
        rw [m2] at i1 i2
        rw [m1, m3]
        by_cases hn : n + 1 = 1
        · rw [if_pos hn] at h ⊢
          have : n = 0 := by omega
          subst this
          exact ⟨samePSV_refl _, fun j _ h => by omega, i3, i4⟩
        · rw [if_neg hn] at h ⊢
          dsimp only at h ⊢
          rw [recInR_ok] at h
          obtain ⟨k1, k2⟩ := combine_congr2 i1 (samePSV_refl _) h
          obtain ⟨m, rfl⟩ : ∃ m, n = m + 1 := ⟨n - 1, by omega⟩
          refine ⟨(recInR_same h).trans' k2, ?_, i3, i4⟩
          intro j hj hj'
          rcases Nat.lt_or_ge j (m + 1) with q | q
          · exact i2 j hj q
          · have : j = m + 1 := by omega
            subst this; exact k1
      · rw [if_neg hc] at h ⊢
        have m1 : min (n + 1) (jr I iref) = min n (jr I iref) := by have := jr_le I iref; omega
        rw [m1]
        by_cases hn : n + 1 = iref + 1
        · rw [if_pos hn]
          have : n = iref := by omega
          subst this
          refine ⟨i1, i2, ?_, ?_⟩
          · simp [rlArrR]
          · intro j _ hj; omega
        · rw [if_neg hn] at h ⊢
          dsimp only at h ⊢
          rw [recInR_ok, i3] at h
          obtain ⟨m, hm'⟩ : ∃ m, n - iref = m + 1 := ⟨n - iref - 1, by omega⟩
          have hm2 : n + 1 - iref = m + 2 := by omega
          have hm3 : iref + m + 2 = n + 1 := by omega
          rw [hm'] at h i3 i4
          rw [hm2]
          refine ⟨i1, i2, ?_, ?_⟩
          · simp only [rlArrR, i3, hm3]
          · intro j hj hj'
            rcases Nat.lt_or_ge j (m + 1) with q | q
            · exact i4 j hj q
            · have : j = m + 1 := by omega
              subst this
              rw [show iref + (m + 1) + 1 = n + 1 by omega]
              exact h

/-- What the routine has computed when it runs to its end. -/
theorem raylMats_val {I : ModeIn K} {S : ℕ → PSV K} {iref : ℕ} (hi : iref + 1 < I.nlay) (h : (raylMats I S iref).run = true) :
    (topR I).ok = true ∧ FrOkR I S (jr I iref) ∧ (combine (topR I) (frArrR I S (jr I iref))).ok = true ∧
    (raylMats I S iref).FA.RU = (allFRR I S (jr I iref)).RU ∧
    RlOkR I S iref (I.nlay - 1 - iref) ∧ (raylMats I S iref).BL.RD = (allRLR I S iref).RD := by
  unfold raylMats at h ⊢
  dsimp only at h ⊢
  have hv := raylLoop_val (I := I) (S := S) (iref := iref) (I.nlay - 2)
  set p := raylLoop I S iref (I.nlay - 2) with hp
  cases e1 : p.run
  · rw [e1] at h; simp [e1] at h
  obtain ⟨i1, i2, i3, i4⟩ := hv e1
  have m1 : min (I.nlay - 2) (jr I iref) = jr I iref := by have := jr_le I iref; omega
  rw [m1] at i1 i2
  rw [e1] at h
  simp only [Bool.not_true, Bool.false_eq_true, if_false] at h ⊢
  cases e2 : (topR I).ok
  · rw [e2] at h; simp at h
  rw [e2] at h
  simp only [Bool.not_true, Bool.false_eq_true, if_false] at h ⊢
  cases e3 : (capTopR I p.FA).ok
  · rw [e3] at h; simp at h
  rw [e3] at h
  simp only [Bool.not_true, Bool.false_eq_true, if_false] at h ⊢
  rw [capTopR_ok] at e3
  obtain ⟨k1, k2⟩ := combine_congr2 (samePSV_refl _) i1 e3
  refine ⟨trivial, i2, k1, ?_, ?_, ?_⟩
  · rw [capTopR_val e3, allFRR, capTopR_val k1, k2.2.1]
  · rw [capBotR_ok, i3] at h
    intro j hj hj'
    rcases Nat.lt_or_ge j (I.nlay - 2 - iref) with q | q
    · exact i4 j hj q
    · have hj2 : j = I.nlay - 2 - iref := by omega
      subst hj2
      have : iref + (I.nlay - 2 - iref) + 1 = I.nlay - 1 := by omega
      rw [this]
      exact combine_ok_congr rfl (botR_RD I S (by omega)) h
  · rw [i3, allRLR, if_pos hi]

/-- Every combination made by `grt_GRT_matrix_allLayer_Rayl` for the entries used when starting from layer
`iref`, other than those already made for the secular function, succeeds (the routine does not look). -/
structure AllOkR (I : ModeIn K) (S : ℕ → PSV K) (iref : ℕ) : Prop where
  cap : ∀ i, i < jr I iref → (combine (topR I) (frArrR I S i)).ok = true
  rl : ∀ my, iref < my → my + 1 < I.nlay → RlOkR I S my (I.nlay - 1 - my)

/-! ### The amplitudes -/

/-- Amplitudes `a` just below interface `i`, `b` just above interface `i+1`, `c` just below interface `i+1`. -/
structure LinkedR (I : ModeIn K) (S : ℕ → PSV K) (i : ℕ) (a b c : Amp4 K) : Prop where
  /-- across layer `i` -/
  dn : b.dn = expM I i *ᵥ a.dn
  up : a.up = expM I i *ᵥ b.up
  /-- across interface `i+1` -/
  refl : b.up = (S (i+1)).RD *ᵥ b.dn + (S (i+1)).TU *ᵥ c.up
  trans : c.dn = (S (i+1)).TD *ᵥ b.dn + (S (i+1)).RU *ᵥ c.up

theorem invKeep_eq {A : Mat2 K} (h : A.det ≠ 0) : invKeep A = A⁻¹ := by simp [invKeep, inv_eq h]

theorem upDownR_linked {I : ModeIn K} {S : ℕ → PSV K} {i : ℕ} {a : Amp4 K}
    (d : (1 - (S (i+1)).RU * (allRLR I S (i+1)).RD).det ≠ 0)
    (hR : (allRLR I S i).RD = expM I i * (((S (i+1)).RD + (S (i+1)).TU * ((allRLR I S (i+1)).RD *
      ((1 - (S (i+1)).RU * (allRLR I S (i+1)).RD)⁻¹ * (S (i+1)).TD))) * expM I i))
    (ha : a.up = (allRLR I S i).RD *ᵥ a.dn) :
    LinkedR I S i a (upDownR I S (i+1) a).2 (upDownR I S (i+1) a).1 ∧
    (upDownR I S (i+1) a).1.up = (allRLR I S (i+1)).RD *ᵥ (upDownR I S (i+1) a).1.dn := by
  have em : i + 1 - 1 = i := rfl
  have two : ∀ x y : Fin 2 → K, ![x 0 + y 0, x 1 + y 1] = x + y := by
    intro x y; ext j; fin_cases j <;> rfl
  unfold upDownR
  simp only [mulV_eq, mul_eq, oneSub_eq, invKeep_eq d, em, two]
  set R := (allRLR I S (i+1)).RD
  set M := S (i+1)
  set E := expM I i
  refine ⟨⟨rfl, ?_, rfl, ?_⟩, trivial⟩
  · rw [ha, hR]
    simp only [Matrix.mulVec_mulVec, ← Matrix.mulVec_add, ← Matrix.add_mulVec]
    congr 1
    simp only [mul_add, add_mul, mul_assoc]
    rfl
  · have h := mul_inv' d
    generalize (1 - M.RU * R)⁻¹ = X at h ⊢
    have e : X = 1 + M.RU * (R * X) := by
      have : X - M.RU * (R * X) = 1 := by rw [← h]; noncomm_ring
      rw [← this]; abel
    dsimp only
    simp only [Matrix.mulVec_mulVec, ← Matrix.add_mulVec]
    congr 1
    calc X * M.TD * E = (1 + M.RU * (R * X)) * M.TD * E := by rw [← e]
      _ = _ := by noncomm_ring

/-- The amplitudes just above interface `i+1` as the loop of `grt_get_mod_potential_Up_Down_Rayl` meets them. -/
theorem downUpR_linked {I : ModeIn K} {S : ℕ → PSV K} {i : ℕ} {c u2 : Amp4 K} (hz : u2.up 0 = 0)
    (d : (1 - (S (i+1)).RD * (expM I i * ((allFRR I S i).RU * expM I i))).det ≠ 0)
    (hF : (allFRR I S (i+1)).RU = (S (i+1)).RU + (S (i+1)).TD * ((expM I i * ((allFRR I S i).RU * expM I i)) *
      ((1 - (S (i+1)).RD * (expM I i * ((allFRR I S i).RU * expM I i)))⁻¹ * (S (i+1)).TU)))
    (hc : c.dn = (allFRR I S (i+1)).RU *ᵥ c.up) :
    LinkedR I S i (downUpR I S i c u2).1 (downUpR I S i c u2).2 c ∧
    (downUpR I S i c u2).1.dn = (allFRR I S i).RU *ᵥ (downUpR I S i c u2).1.up := by
  unfold downUpR
  simp only [mulV_eq, mul_eq, oneSub_eq, invKeep_eq d, hz, if_true]
  set F := (allFRR I S i).RU
  set M := S (i+1)
  set E := expM I i
  set G := E * (F * E)
  refine ⟨⟨?_, rfl, ?_, ?_⟩, trivial⟩
  · dsimp only
    simp only [G, Matrix.mulVec_mulVec]
    congr 1
    simp only [mul_assoc]
    rfl
  · have h := mul_inv' d
    generalize (1 - M.RD * G)⁻¹ = X at h ⊢
    have e : X = 1 + M.RD * (G * X) := by
      have : X - M.RD * (G * X) = 1 := by rw [← h]; noncomm_ring
      rw [← this]; abel
    dsimp only
    simp only [Matrix.mulVec_mulVec, ← Matrix.add_mulVec]
    congr 1
    calc X * M.TU = (1 + M.RD * (G * X)) * M.TU := by rw [← e]
      _ = _ := by noncomm_ring
  · rw [hc, hF]
    dsimp only
    simp only [Matrix.mulVec_mulVec, ← Matrix.add_mulVec]
    congr 1
    noncomm_ring

/-- Amplitudes at layer `iref` from which the loops can start. -/
structure StartR (I : ModeIn K) (S : ℕ → PSV K) (iref : ℕ) (p : Amp4 K × Amp4 K) : Prop where
  below : p.1.up = (allRLR I S iref).RD *ᵥ p.1.dn
  above : ∀ i, iref = i + 1 →
    LinkedR I S i (downUpR I S i p.1 p.2).1 (downUpR I S i p.1 p.2).2 p.1 ∧
    (downUpR I S i p.1 p.2).1.dn = (allFRR I S i).RU *ᵥ (downUpR I S i p.1 p.2).1.up

theorem dnArrR_below {I : ModeIn K} {S : ℕ → PSV K} {iref : ℕ} (hi : iref + 1 < I.nlay)
    (rl : ∀ my, iref ≤ my → my + 1 < I.nlay → RlOkR I S my (I.nlay - 1 - my)) {p : Amp4 K × Amp4 K}
    (hs : p.1.up = (allRLR I S iref).RD *ᵥ p.1.dn) (n : ℕ) (hn : iref + n < I.nlay) :
    (dnArrR I S iref p.1 n).up = (allRLR I S (iref+n)).RD *ᵥ (dnArrR I S iref p.1 n).dn ∧
    (∀ m, n = m + 1 → LinkedR I S (iref+m) (dnArrR I S iref p.1 m) (upDownR I S (iref+m+1) (dnArrR I S iref p.1 m)).2
      (dnArrR I S iref p.1 n)) := by
  induction n with
  | zero => exact ⟨hs, fun m h => by omega⟩
  | succ n ih =>
    obtain ⟨i1, -⟩ := ih (by omega)
    obtain ⟨k1, k2⟩ := down_recR (S := S) (by omega) (my := iref + n) hn (rl _ (by omega) (by omega))
      (fun h => rl (iref + n + 1) (by omega) h)
    obtain ⟨l1, l2⟩ := upDownR_linked k1 k2 i1
    refine ⟨l2, ?_⟩
    intro m hm
    have : m = n := by omega
    subst this
    exact l1

theorem upArrR_above {I : ModeIn K} {S : ℕ → PSV K} {iref : ℕ} (fr : FrOkR I S (iref - 1))
    (cap : ∀ i, i < iref → (combine (topR I) (frArrR I S i)).ok = true) {p : Amp4 K × Amp4 K}
    (hs : StartR I S iref p) (n : ℕ) (hn : n + 1 ≤ iref) :
    LinkedR I S (iref-(n+1)) (upArrR I S iref p.1 p.2 (n+1))
      (downUpR I S (iref-(n+1)) (upArrR I S iref p.1 p.2 n) (upGiven p.2 n)).2 (upArrR I S iref p.1 p.2 n) ∧
    (upArrR I S iref p.1 p.2 (n+1)).dn = (allFRR I S (iref-(n+1))).RU *ᵥ (upArrR I S iref p.1 p.2 (n+1)).up := by
  induction n with
  | zero =>
    have := hs.above (iref - 1) (by omega)
    simpa [upArrR, upGiven] using this
  | succ n ih =>
    obtain ⟨-, i2⟩ := ih (by omega)
    have e : iref - (n + 1) = iref - (n + 1 + 1) + 1 := by omega
    rw [e] at i2
    obtain ⟨k1, k2⟩ := up_recR (S := S) (iy := iref - (n + 1 + 1)) (fun j a b => fr j a (by omega)) (cap _ (by omega)) (cap _ (by omega))
    exact downUpR_linked (by simp [upGiven, Amp4.zero]) k1 k2 i2

/-- From a sound start the loops deliver amplitudes that satisfy the conditions at every interface, in every
layer, at the surface and in the half-space. -/
theorem rayl_linked {I : ModeIn K} {S : ℕ → PSV K} {iref : ℕ} (hi : iref + 1 < I.nlay) (fr : FrOkR I S (iref - 1))
    (cap : ∀ i, i < iref → (combine (topR I) (frArrR I S i)).ok = true)
    (rl : ∀ my, iref ≤ my → my + 1 < I.nlay → RlOkR I S my (I.nlay - 1 - my)) {p : Amp4 K × Amp4 K}
    (hs : StartR I S iref p) :
    (∀ i, i + 1 < I.nlay → LinkedR I S i (potDownR I S iref p i) (potUpR I S iref p (i+1)) (potDownR I S iref p (i+1))) ∧
    potDownR I S iref p iref = p.1 ∧ (potDownR I S iref p (I.nlay - 1)).up = 0 ∧
    (iref ≠ 0 → (potDownR I S iref p 0).dn = (allFRR I S 0).RU *ᵥ (potDownR I S iref p 0).up) := by
  refine ⟨?_, by simp [potDownR, dnArrR], ?_, ?_⟩
  · intro i hi'
    by_cases h : iref ≤ i
    · obtain ⟨n, rfl⟩ : ∃ n, i = iref + n := ⟨i - iref, by omega⟩
      have := (dnArrR_below hi rl hs.below (n+1) hi').2 n rfl
      have e1 : potDownR I S iref p (iref + n) = dnArrR I S iref p.1 n := by simp [potDownR]
      have e2 : potDownR I S iref p (iref + n + 1) = dnArrR I S iref p.1 (n+1) := by
        have : iref ≤ iref + n + 1 := by omega
        simp only [potDownR, if_pos this]; congr 1; omega
      have e3 : potUpR I S iref p (iref + n + 1) = (upDownR I S (iref+n+1) (dnArrR I S iref p.1 n)).2 := by
        have a : ¬ (I.nlay ≤ iref + n + 1) := by omega
        have b : iref < iref + n + 1 := by omega
        simp only [potUpR, if_neg a, if_pos b]
        rw [show iref + n + 1 - 1 = iref + n by omega, e1]
      rw [e1, e2, e3]
      exact this
    · obtain ⟨n, hn, rfl⟩ : ∃ n, n + 1 ≤ iref ∧ i = iref - (n+1) := ⟨iref - i - 1, by omega, by omega⟩
      have := (upArrR_above fr cap hs n hn).1
      have e1 : potDownR I S iref p (iref - (n+1)) = upArrR I S iref p.1 p.2 (n+1) := by
        simp only [potDownR, if_neg h]; congr 1; omega
      have e2 : potDownR I S iref p (iref - (n+1) + 1) = upArrR I S iref p.1 p.2 n := by
        by_cases h0 : n = 0
        · subst h0
          have : iref - (0 + 1) + 1 = iref := by omega
          rw [this]; simp [potDownR, dnArrR, upArrR]
        · have : ¬ (iref ≤ iref - (n+1) + 1) := by omega
          simp only [potDownR, if_neg this]; congr 1; omega
      have e3 : potUpR I S iref p (iref - (n+1) + 1) =
          (downUpR I S (iref-(n+1)) (upArrR I S iref p.1 p.2 n) (upGiven p.2 n)).2 := by
        have a : ¬ (I.nlay ≤ iref - (n+1) + 1) := by omega
        have b : ¬ (iref < iref - (n+1) + 1) := by omega
        have c : 1 ≤ iref - (n+1) + 1 := by omega
        simp only [potUpR, if_neg a, if_neg b, if_pos c, e2]
        rw [show iref - (n+1) + 1 - 1 = iref - (n+1) by omega, show iref - (iref - (n+1) + 1) = n by omega]
      rw [e1, e2, e3]
      exact this
  · have := (dnArrR_below hi rl hs.below (I.nlay - 1 - iref) (by omega)).1
    have e : iref + (I.nlay - 1 - iref) = I.nlay - 1 := by omega
    rw [e] at this
    have e1 : potDownR I S iref p (I.nlay - 1) = dnArrR I S iref p.1 (I.nlay - 1 - iref) := by
      have : iref ≤ I.nlay - 1 := by omega
      simp only [potDownR, if_pos this]
    have e2 : (allRLR I S (I.nlay - 1)).RD = 0 := by
      have : ¬ (I.nlay - 1 + 1 < I.nlay) := by omega
      simp [allRLR, this, resetM]
    rw [e1, this, e2]
    simp
  · intro h0
    have := (upArrR_above fr cap hs (iref - 1) (by omega)).2
    have e : iref - (iref - 1 + 1) = 0 := by omega
    rw [e] at this
    have e1 : potDownR I S iref p 0 = upArrR I S iref p.1 p.2 (iref - 1 + 1) := by
      have : ¬ (iref ≤ 0) := by omega
      simp only [potDownR, if_neg this]; congr 1; omega
    rw [e1]; exact this

/-! ### Conversely: amplitudes satisfying the conditions everywhere -/

/-- Below any layer the upgoing waves are the reflection of the downgoing ones. -/
theorem linked_dnR {I : ModeIn K} {S : ℕ → PSV K} {iref : ℕ} (h2 : 2 ≤ I.nlay)
    (rl : ∀ my, iref ≤ my → my + 1 < I.nlay → RlOkR I S my (I.nlay - 1 - my)) {D U : ℕ → Amp4 K}
    (hl : ∀ i, iref ≤ i → i + 1 < I.nlay → LinkedR I S i (D i) (U (i+1)) (D (i+1))) (hb : (D (I.nlay - 1)).up = 0)
    (n : ℕ) (hn : n + 1 ≤ I.nlay) (hr : iref ≤ I.nlay - 1 - n) :
    (D (I.nlay - 1 - n)).up = (allRLR I S (I.nlay - 1 - n)).RD *ᵥ (D (I.nlay - 1 - n)).dn := by
  induction n with
  | zero =>
    have e2 : (allRLR I S (I.nlay - 1 - 0)).RD = 0 := by
      have : ¬ (I.nlay - 1 - 0 + 1 < I.nlay) := by omega
      rw [allRLR, if_neg this]; simp [resetM]
    rw [e2]; simpa using hb
  | succ n ih =>
    have i1 := ih (by omega) (by omega)
    set i := I.nlay - 1 - (n + 1) with hi
    have e : I.nlay - 1 - n = i + 1 := by omega
    rw [e] at i1
    obtain ⟨k1, k2⟩ := down_recR (S := S) h2 (my := i) (by omega) (rl _ hr (by omega))
      (fun h => rl (i + 1) (by omega) h)
    obtain ⟨a1, a2, a3, a4⟩ := hl i hr (by omega)
    set R := (allRLR I S (i+1)).RD
    set M := S (i+1)
    set E := expM I i
    -- the transmitted wave
    have hx : (1 - M.RU * R) *ᵥ (D (i+1)).dn = M.TD *ᵥ (U (i+1)).dn := by
      rw [Matrix.sub_mulVec, Matrix.one_mulVec, ← Matrix.mulVec_mulVec, ← i1]
      nth_rewrite 1 [a4]; abel
    have hy : (D (i+1)).dn = ((1 - M.RU * R)⁻¹ * M.TD) *ᵥ (U (i+1)).dn := by
      rw [← Matrix.mulVec_mulVec, ← hx, Matrix.mulVec_mulVec, inv_mul' k1, Matrix.one_mulVec]
    rw [a2, a3, i1, hy, a1, k2]
    simp only [Matrix.mulVec_mulVec, ← Matrix.add_mulVec]
    congr 1
    simp only [mul_add, add_mul, mul_assoc]

/-- Above any layer the downgoing waves are the reflection of the upgoing ones. -/
theorem linked_upR {I : ModeIn K} {S : ℕ → PSV K} {m : ℕ} (fr : FrOkR I S m)
    (cap : ∀ i, i ≤ m → (combine (topR I) (frArrR I S i)).ok = true) {D U : ℕ → Amp4 K}
    (hl : ∀ i, i < m → LinkedR I S i (D i) (U (i+1)) (D (i+1)))
    (ht : (D 0).dn = (allFRR I S 0).RU *ᵥ (D 0).up) (n : ℕ) (hn : n ≤ m) :
    (D n).dn = (allFRR I S n).RU *ᵥ (D n).up := by
  induction n with
  | zero => exact ht
  | succ n ih =>
    have i1 := ih (by omega)
    obtain ⟨k1, k2⟩ := up_recR (S := S) (iy := n) (fun j a b => fr j a (by omega)) (cap _ (by omega)) (cap _ (by omega))
    obtain ⟨a1, a2, a3, a4⟩ := hl n (by omega)
    set F := (allFRR I S n).RU
    set M := S (n+1)
    set E := expM I n
    set G := E * (F * E)
    have hb : (U (n+1)).dn = G *ᵥ (U (n+1)).up := by
      rw [a1, i1, a2]
      simp only [G, Matrix.mulVec_mulVec]
    have hx : (1 - M.RD * G) *ᵥ (U (n+1)).up = M.TU *ᵥ (D (n+1)).up := by
      rw [Matrix.sub_mulVec, Matrix.one_mulVec, ← Matrix.mulVec_mulVec, ← hb]
      nth_rewrite 1 [a3]; abel
    have hy : (U (n+1)).up = ((1 - M.RD * G)⁻¹ * M.TU) *ᵥ (D (n+1)).up := by
      rw [← Matrix.mulVec_mulVec, ← hx, Matrix.mulVec_mulVec, inv_mul' k1, Matrix.one_mulVec]
    rw [a4, hb, hy, k2]
    simp only [Matrix.mulVec_mulVec, ← Matrix.add_mulVec]
    congr 1
    noncomm_ring

end arrays

end GRT.Modal
