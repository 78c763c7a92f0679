import Verif.RT.Model

/-! Per-layer wave parameters, interface and boundary coefficients of the dynamic problem
(`src/dynamic/layer.c`).  The formulas are modelled over an arbitrary field `K` (the code uses
`double _Complex`, so the intended instance is ℂ, rounding left out).  A division whose divisor can
vanish without being tested by the code is a distinct outcome, `undef`. -/

namespace GRT.Layer

open GRT.RT

/-- The entries of `MODEL1D` / `MODEL1D_STATE` used for one layer at one frequency and wavenumber
(include/grt/common/model.h; filled by model.c 391-459). `rho` and the real wavenumber are embedded
in `K`. -/
structure Lay (K : Type*) where
  liquid : Bool
  rho : K
  mu : K
  xa : K
  xb : K
  caca : K
  cbcb : K

/-- What a coefficient routine can do: report failure (leaving the matrices untouched), divide by
zero without noticing, or fill the matrices. -/
inductive Out (A : Type*) where
  | fail : Out A
  | undef : Out A
  | ok : A → Out A

section
variable {K : Type*} [Field K] [DecidableEq K]

/-- `__freeBound_R_PSV`, layer.c 31-56. -/
def freeBoundPSV (liquid : Bool) (cbcb0 xa0 xb0 adsgn : K) : Out (Mat2 K) :=
  if !liquid then
    let cbcb02 := (1/4) * cbcb0 * cbcb0
    let Delta := -1 + xa0 * xb0 + cbcb0 - cbcb02
    if Delta = 0 then .fail
    else
      let Delta := 1 / Delta
      let m00 := (1 + xa0*xb0 - cbcb0 + cbcb02) * Delta
      .ok !![m00, 2 * xb0 * (1 - (1/2)*cbcb0) * Delta * adsgn;
             2 * xa0 * (1 - (1/2)*cbcb0) * Delta * adsgn, m00]
  else .ok !![-1, 0; 0, 0]

/-- `__freeBound_R_SH`, layer.c 58-69. -/
def freeBoundSH (liquid : Bool) : K := if !liquid then 1 else 0

/-- `__rigidBound_R_PSV`, layer.c 71-93. -/
def rigidBoundPSV (liquid : Bool) (xa0 xb0 adsgn : K) : Out (Mat2 K) :=
  if !liquid then
    let Delta := xa0 * xb0 - 1
    if Delta = 0 then .fail
    else
      let Delta := 1 / Delta
      let m00 := (xa0*xb0 + 1) * Delta
      .ok !![m00, 2 * xb0 * Delta * adsgn; 2 * xa0 * Delta * adsgn, m00]
  else .ok !![1, 0; 0, 0]

/-- `__rigidBound_R_SH`, layer.c 95-106. -/
def rigidBoundSH (liquid : Bool) : K := if !liquid then -1 else 0

/-- The P-SV part of an `RT_MATRIX`. -/
structure PSV (K : Type*) where
  RD : Mat2 K
  RU : Mat2 K
  TD : Mat2 K
  TU : Mat2 K

/-- The SH part of an `RT_MATRIX`. -/
structure SH (K : Type*) where
  RDL : K
  RUL : K
  TDL : K
  TUL : K

/-- `grt_RT_matrix_ll_PSV`, layer.c 337-360. -/
def llPSV (l1 l2 : Lay K) : Out (PSV K) :=
  let A := l1.xa * l2.rho + l2.xa * l1.rho
  if A = 0 then .fail
  else .ok {
    RD := !![(l1.xa * l2.rho - l2.xa * l1.rho) / A, 0; 0, 0]
    RU := !![(l2.xa * l1.rho - l1.xa * l2.rho) / A, 0; 0, 0]
    TD := !![2 * l1.xa * l1.rho / A, 0; 0, 0]
    TU := !![2 * l2.xa * l2.rho / A, 0; 0, 0] }

/-- `grt_RT_matrix_ll_SH`, layer.c 362-368. -/
def llSH : SH K := ⟨0, 0, 0, 0⟩

/-- The core of `grt_RT_matrix_ls_PSV`, layer.c 404-440, with suffix 1 the liquid and suffix 2 the
solid, returning what is stored through `pRD`, `pRU`, `pTD`, `pTU`; `c` is `mstat->c_phase`.
Lines 432, 435, 437 divide by `xb2` and `Og2k` without a test. -/
def lsCore (c : K) (liq sol : Lay K) (sgn : K) : Out (PSV K) :=
  let lamka1k := liq.rho * (c * c)
  let kb2k := sol.cbcb
  let Og2k := 1 - (1/2) * kb2k
  let Og2k2 := Og2k * Og2k
  let p := 4 * Og2k2 * liq.xa * sol.mu
  let q := lamka1k * kb2k * sol.xa
  let h := 4 * sol.mu * liq.xa * sol.xa * sol.xb
  let A := p + q - h
  let B := p - q + h
  let C := p + q + h
  let D := p - q - h
  if A = 0 then .fail
  else if sol.xb = 0 ∨ Og2k = 0 then .undef
  else
    let ru01 := - 8 * Og2k * liq.xa * sol.xb * sol.mu / A * sgn
    let td00 := - 4 * Og2k * liq.xa * lamka1k / A
    let tu00 := - 4 * Og2k * sol.xa * sol.mu * kb2k / A
    .ok {
      RD := !![D / A, 0; 0, 0]
      RU := !![- B / A, ru01; ru01 / sol.xb * sol.xa, - C / A]
      TD := !![td00, 0; td00 / Og2k * sol.xa * sgn, 0]
      TU := !![tu00, tu00 / Og2k * sol.xb * sgn; 0, 0] }

/-- `grt_RT_matrix_ls_PSV`, layer.c 372-441 (the pointer swap of lines 391-402; the call is only made
with exactly one liquid side, line 385-387 aborts otherwise). -/
def lsPSV (c : K) (l1 l2 : Lay K) : Out (PSV K) :=
  if l1.liquid then lsCore c l1 l2 1
  else match lsCore c l2 l1 (-1) with
    | .fail => .fail
    | .undef => .undef
    | .ok m => .ok { RD := m.RU, RU := m.RD, TD := m.TU, TU := m.TD }

/-- `grt_RT_matrix_ls_SH`, layer.c 557-584. -/
def lsSH (l1 : Lay K) : SH K := if l1.liquid then ⟨0, 1, 0, 0⟩ else ⟨1, 0, 0, 0⟩

/-- `grt_RT_matrix_ss_PSV`, layer.c 588-671. -/
def ssPSV (l1 l2 : Lay K) : Out (PSV K) :=
  let xa1 := l1.xa; let xb1 := l1.xb; let xa2 := l2.xa; let xb2 := l2.xb
  if l2.mu = 0 ∨ l1.rho = 0 ∨ l2.rho = 0 then .undef
  else
  let rmu := l1.mu / l2.mu
  let q := rmu - 1
  let q2 := q * q
  let g := l2.cbcb
  let h := rmu * l1.cbcb
  let rho12 := l1.rho / l2.rho
  let rho21 := l2.rho / l1.rho
  let gammaP0 := xa1*xb2 + xa2*xb1
  let gammaS0 := xa1*xb2 - xa2*xb1
  let gammaP1 := 1 + xa1*xb1
  let gammaS1 := 1 - xa1*xb1
  let gammaP2 := 1 + xa2*xb2
  let gammaS2 := 1 - xa2*xb2
  let Delta := q2*gammaS1*gammaS2 + q*h*(rho21*gammaS1 - gammaS2)
            + (1/4)*g*h*(rho12*gammaS2 + rho21*gammaS1 - 2 - gammaP0)
  if Delta = 0 then .fail
  else
  let Delta := 1 / Delta
  let rd00 := ( - q2*gammaP1*gammaS2 - q*h*(rho21*gammaP1 - gammaS2)
                    - (1/4)*g*h*(rho12*gammaS2 + rho21*gammaP1 - 2 + gammaS0)) * Delta
  let tmp := ( - q2*gammaS2 + (1/2)*q*h*(gammaS2 - 2*rho21)
                    + (1/4)*g*h*(1-rho21)) * Delta * (-2)
  let rd01 := xb1*tmp
  let rd10 := xa1*tmp
  let rd11 := ( - q2*gammaP1*gammaS2 - q*h*(rho21*gammaP1 - gammaS2)
                    - (1/4)*g*h*(rho12*gammaS2 + rho21*gammaP1 - 2 - gammaS0)) * Delta
  let ru00 := ( - q2*gammaS1*gammaP2 - q*h*(rho21*gammaS1 - gammaP2)
                    - (1/4)*g*h*(rho12*gammaP2 + rho21*gammaS1 - 2 - gammaS0)) * Delta
  let tmp := ( - q2*gammaS1 - (1/2)*q*h*(rho21*gammaS1 - 2)
                    + (1/4)*g*h*(1-rho12)) * Delta * 2
  let ru01 := xb2*tmp
  let ru10 := xa2*tmp
  let ru11 := ( - q2*gammaS1*gammaP2 - q*h*(rho21*gammaS1 - gammaP2)
                    - (1/4)*g*h*(rho12*gammaP2 + rho21*gammaS1 - 2 + gammaS0)) * Delta
  let tmp := h*(q*(xb2-xb1) - (1/2)*h*(rho21*xb1+xb2)) * Delta
  let td00 := xa1*tmp
  let tu00 := (rho21*xa2) * tmp
  let tmp := h*(q*(1-xa1*xb2) - (1/2)*h*(1-rho21)) * Delta
  let td01 := xb1*tmp
  let tu10 := (rho21*xa2) * tmp
  let tmp := h*(q*(1-xa2*xb1) - (1/2)*h*(1-rho21)) * Delta
  let td10 := xa1*tmp
  let tu01 := (rho21*xb2) * tmp
  let tmp := h*(q*(xa2-xa1) - (1/2)*h*(rho21*xa1+xa2)) * Delta
  let td11 := xb1*tmp
  let tu11 := (rho21*xb2) * tmp
  .ok { RD := !![rd00, rd01; rd10, rd11], RU := !![ru00, ru01; ru10, ru11],
        TD := !![td00, td01; td10, td11], TU := !![tu00, tu01; tu10, tu11] }

/-- `grt_RT_matrix_ss_SH`, layer.c 674-688; the divisor is not tested. -/
def ssSH (l1 l2 : Lay K) : Out (SH K) :=
  let den := l2.mu*l2.xb + l1.mu*l1.xb
  if den = 0 then .undef
  else
    let RUL := (l2.mu*l2.xb - l1.mu*l1.xb) / den
    let tmp := 2 / den
    .ok { RUL := RUL, RDL := - RUL, TDL := l1.mu*l1.xb * tmp, TUL := l2.mu*l2.xb * tmp }

/-- `grt_RT_matrix_PSV`, layer.c 692-706. -/
def rtPSV (c : K) (l1 l2 : Lay K) : Out (PSV K) :=
  if !l1.liquid && !l2.liquid then ssPSV l1 l2
  else if l1.liquid && l2.liquid then llPSV l1 l2
  else lsPSV c l1 l2

/-- `grt_RT_matrix_SH`, layer.c 709-723. -/
def rtSH (l1 l2 : Lay K) : Out (SH K) :=
  if !l1.liquid && !l2.liquid then ssSH l1 l2
  else if l1.liquid && l2.liquid then .ok llSH
  else .ok (lsSH l1)

/-- The P-SV part of `grt_delay_RT_matrix`, layer.c 757-780; `exa`, `exb` are `exp(-k*thk*xa1)` and
`exp(-k*thk*xb1)`. -/
def delayPSV (exa exb : K) (M : PSV K) : PSV K :=
  let ex2a := exa * exa
  let ex2b := exb * exb
  let exab := exa * exb
  { RD := !![M.RD 0 0 * ex2a, M.RD 0 1 * exab; M.RD 1 0 * exab, M.RD 1 1 * ex2b]
    RU := M.RU
    TD := !![M.TD 0 0 * exa, M.TD 0 1 * exb; M.TD 1 0 * exa, M.TD 1 1 * exb]
    TU := !![M.TU 0 0 * exa, M.TU 0 1 * exa; M.TU 1 0 * exb, M.TU 1 1 * exb] }

/-- The SH part of `grt_delay_RT_matrix`, layer.c 782-796. -/
def delaySH (exb : K) (M : SH K) : SH K :=
  { RDL := M.RDL * (exb * exb), RUL := M.RUL, TDL := M.TDL * exb, TUL := M.TUL * exb }

/-- The P-SV part of `grt_delay_GRT_matrix`, layer.c 800-827. -/
def delayGRT_PSV (exa exb : K) (M : PSV K) : PSV K :=
  let ex2a := exa * exa
  let ex2b := exb * exb
  let exab := exa * exb
  { RD := M.RD
    RU := !![M.RU 0 0 * ex2a, M.RU 0 1 * exab; M.RU 1 0 * exab, M.RU 1 1 * ex2b]
    TD := !![M.TD 0 0 * exa, M.TD 0 1 * exa; M.TD 1 0 * exb, M.TD 1 1 * exb]
    TU := !![M.TU 0 0 * exa, M.TU 0 1 * exb; M.TU 1 0 * exa, M.TU 1 1 * exb] }

/-- The SH part of `grt_delay_GRT_matrix`, layer.c 823-827. -/
def delayGRT_SH (exb : K) (M : SH K) : SH K :=
  { RDL := M.RDL, RUL := M.RUL * (exb * exb), TDL := M.TDL * exb, TUL := M.TUL * exb }

/-- `D11` and `D12` of `grt_wave2qwv_REV_PSV`, layer.c 218-249; also `grt_get_layer_D11`,
`grt_get_layer_D12` (901-928). -/
def D11 (k : K) (l : Lay K) : Mat2 K :=
  if !l.liquid then !![k, k*l.xb; k*l.xa, k] else !![k, 0; k*l.xa, 0]
def D12 (k : K) (l : Lay K) : Mat2 K :=
  if !l.liquid then !![k, -k*l.xb; -k*l.xa, k] else !![k, 0; -k*l.xa, 0]

/-- `R_EV` of `grt_wave2qwv_REV_PSV`, layer.c 241-248. -/
def revPSV (k : K) (l : Lay K) (ircvup : Bool) (RU_FA RD_BL : Mat2 K) : Mat2 K :=
  if ircvup then add (D11 k l) (mul (D12 k l) RU_FA) else add (D12 k l) (mul (D11 k l) RD_BL)

/-- `R_EVL` of `grt_wave2qwv_REV_SH`, layer.c 252-273. -/
def revSH (k : K) (l : Lay K) (ircvup : Bool) (RUL_FA RDL_BL : K) : K :=
  if !l.liquid then (if ircvup then (1 + RUL_FA) * k else (1 + RDL_BL) * k) else 0

/-- `D11`, `D12` of `grt_wave2qwv_z_REV_PSV`, layer.c 276-303; also `grt_get_layer_D11_uiz`,
`grt_get_layer_D12_uiz` (930-966). -/
def D11z (k : K) (l : Lay K) : Mat2 K :=
  let ak := k*k*l.xa; let bk := k*k*l.xb; let bb := l.xb*bk; let aa := l.xa*ak
  if l.liquid then !![ak, 0; aa, 0] else !![ak, bb; aa, bk]
def D12z (k : K) (l : Lay K) : Mat2 K :=
  let ak := k*k*l.xa; let bk := k*k*l.xb; let bb := l.xb*bk; let aa := l.xa*ak
  if l.liquid then !![-ak, 0; aa, 0] else !![-ak, bb; aa, -bk]

/-- `uiz_R_EV`, layer.c 303-310. -/
def revzPSV (k : K) (l : Lay K) (ircvup : Bool) (RU_FA RD_BL : Mat2 K) : Mat2 K :=
  if ircvup then add (D11z k l) (mul (D12z k l) RU_FA) else add (D12z k l) (mul (D11z k l) RD_BL)

/-- `uiz_R_EVL`, layer.c 314-334. -/
def revzSH (k : K) (l : Lay K) (ircvup : Bool) (RUL_FA RDL_BL : K) : K :=
  let bk := k*k*l.xb
  if !l.liquid then (if ircvup then (1 - RUL_FA) * bk else (RDL_BL - 1) * bk) else 0

/-- `grt_get_layer_D21`, `grt_get_layer_D22`, layer.c 968-1001. -/
def D21 (k omega : K) (l : Lay K) : Mat2 K :=
  if !l.liquid then
    let Omg := k*k*(1 - (1/2)*l.cbcb)
    !![2*l.mu*Omg, 2*k*l.mu*k*l.xb; 2*k*l.mu*k*l.xa, 2*l.mu*Omg]
  else !![- l.rho * (omega * omega), 0; 0, 0]
def D22 (k omega : K) (l : Lay K) : Mat2 K :=
  if !l.liquid then
    let Omg := k*k*(1 - (1/2)*l.cbcb)
    !![2*l.mu*Omg, -2*k*l.mu*k*l.xb; -2*k*l.mu*k*l.xa, 2*l.mu*Omg]
  else !![- l.rho * (omega * omega), 0; 0, 0]

/-- `grt_get_layer_D` with `inverse` set, solid branch, layer.c 848-860, as four 2x2 blocks. -/
def Dinv (k : K) (l : Lay K) : Out (Mat2 K × Mat2 K × Mat2 K × Mat2 K) :=
  let xa := l.xa; let xb := l.xb; let mu := l.mu; let On := 1 - (1/2)*l.cbcb
  let den := - 2*mu*l.cbcb*k*xa*k*xb
  if den = 0 then .undef
  else .ok (
    !![-2*k*mu*xa*xb/den, 2*mu*On*k*xb/den; 2*mu*On*k*xa/den, -2*k*mu*xa*xb/den],
    !![xa*xb/den, -xb/den; -xa/den, xa*xb/den],
    !![-2*k*mu*xa*xb/den, -2*mu*On*k*xb/den; -2*mu*On*k*xa/den, -2*k*mu*xa*xb/den],
    !![xa*xb/den, xb/den; xa/den, xa*xb/den])

/-- `grt_get_layer_T`, layer.c 1003-1026. -/
def layT (k : K) (l : Lay K) : Mat2 K := !![k, k; l.mu*k*k*l.xb, -l.mu*k*k*l.xb]
def layTinv (k : K) (l : Lay K) : Out (Mat2 K) :=
  let den := 2*l.mu*k*k*l.xb
  if den = 0 then .undef
  else .ok !![l.mu*k*l.xb*(1/den), 1*(1/den); l.mu*k*l.xb*(1/den), -1*(1/den)]

end
end GRT.Layer
