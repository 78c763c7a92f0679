import Verif.Layer.Model
import Verif.Layer.Source

/-! Model of `pygrt/C_extension/src/static/static_layer.c` and `static_source.c`.

`x` stands for `k*thk`.  The divisions of these routines are not tested in the code; a zero divisor is
the outcome `undef`.  Only elastic (`mu ≠ 0`) layers reach these routines meaningfully. -/

namespace GRT.Static

open GRT.RT GRT.Layer

variable {K : Type*} [Field K] [DecidableEq K]

/-- What the static routines read of a layer: `mu` and `delta`. -/
structure SLay (K : Type*) where
  mu : K
  delta : K

/-- The `delta` of a layer, model.c 405-417: `(lambda + mu) / (lambda + 3 mu)`. -/
def deltaOf (lam mu : K) : Out K :=
  if lam + 3 * mu = 0 then .undef else .ok ((lam + mu) / (lam + 3 * mu))

/-- `__freeBound_R_PSV`, static_layer.c 29-42; `pos` is `d > 0`, `x` is `d*k`. -/
def freeBoundPSV (pos : Bool) (x delta : K) : Out (Mat2 K) :=
  if delta = 0 then .undef
  else if !pos then .ok !![0, -delta; -1 / delta, 0]
  else .ok !![-2 * x, delta * (-4 * x * x - 1); -1 / delta, -2 * x]

/-- `__freeBound_R_SH`, static_layer.c 44-48. -/
def freeBoundSH : K := 1

/-- `__rigidBound_R_PSV`, static_layer.c 50-61. -/
def rigidBoundPSV (pos : Bool) (x delta : K) : Mat2 K :=
  if !pos then !![0, 1; 1, 0]
  else !![2 * delta * x, 4 * (delta * x) * (delta * x) + 1; 1, 2 * delta * x]

/-- `__rigidBound_R_SH`, static_layer.c 63-67. -/
def rigidBoundSH : K := -1

/-- The delay applied to the bottom reflection, static_layer.c 130-137 and 160-165. -/
def botDelay (ex : K) (M : Mat2 K) : Mat2 K :=
  !![M 0 0 * (ex * ex), M 0 1 * (ex * ex); M 1 0 * (ex * ex), M 1 1 * (ex * ex)]

/-- `D11`, `D12` of `grt_static_wave2qwv_REV_PSV`, static_layer.c 168-172. -/
def D11 : Mat2 K := !![1, -1; 1, 1]
def D12 : Mat2 K := !![1, -1; -1, -1]

/-- `R_EV`, static_layer.c 174-181. -/
def revPSV (ircvup : Bool) (RU_FA RD_BL : Mat2 K) : Mat2 K :=
  if ircvup then add D11 (mul D12 RU_FA) else add D12 (mul D11 RD_BL)

/-- `R_EVL`, static_layer.c 184-191. -/
def revSH (ircvup : Bool) (RUL_FA RDL_BL : K) : K := if ircvup then 1 + RUL_FA else 1 + RDL_BL

/-- `D11`, `D12` of `grt_static_wave2qwv_z_REV_PSV`, static_layer.c 200-203. -/
def D11z (k delta : K) : Mat2 K := !![k, -k - 2*k*delta; k, k - 2*k*delta]
def D12z (k delta : K) : Mat2 K := !![-k, k + 2*k*delta; k, k - 2*k*delta]

/-- `uiz_R_EV`, static_layer.c 204-210. -/
def revzPSV (k delta : K) (ircvup : Bool) (RU_FA RD_BL : Mat2 K) : Mat2 K :=
  if ircvup then add (D11z k delta) (mul (D12z k delta) RU_FA)
  else add (D12z k delta) (mul (D11z k delta) RD_BL)

/-- `uiz_R_EVL`, static_layer.c 213-222. -/
def revzSH (k : K) (ircvup : Bool) (RUL_FA RDL_BL : K) : K :=
  if ircvup then (1 - RUL_FA) * k else (RDL_BL - 1) * k

/-- `grt_static_RT_matrix_PSV`, static_layer.c 225-263; `x` is `k*thk` with the thickness of the upper
layer.  `TD[1][1]` and `TU[1][1]` are computed from the entries just written, as in the code. -/
def rtPSV (x : K) (l1 l2 : SLay K) : Out (PSV K) :=
  let dmu := l1.mu - l2.mu
  let A112 := l1.mu * l1.delta + l2.mu
  let A221 := l2.mu * l2.delta + l1.mu
  let B := l1.mu * l1.delta - l2.mu * l2.delta
  let del11 := l1.delta * l1.delta
  if A112 = 0 ∨ A221 = 0 then .undef
  else
    let rd00 := -2 * l1.delta * x * dmu / A112
    let td00 := l1.mu * (1 + l1.delta) / A112
    let tu00 := l2.mu * (1 + l2.delta) / A221
    .ok {
      RD := !![rd00, - (4 * del11 * (x * x) * A221 * dmu + A112 * B) / (A221 * A112); - dmu / A112, rd00]
      RU := !![0, B / A112; dmu / A221, 0]
      TD := !![td00, 2 * l1.mu * l1.delta * x * (1 + l1.delta) / A112; 0, td00 * A112 / A221]
      TU := !![tu00, 2 * l1.delta * x * l2.mu * (1 + l2.delta) / A112; 0, tu00 * A221 / A112] }

/-- `grt_static_RT_matrix_SH`, static_layer.c 266-280. -/
def rtSH (l1 l2 : SLay K) : Out (SH K) :=
  let dmu := l1.mu - l2.mu
  let amu := l1.mu + l2.mu
  if amu = 0 ∨ l1.mu = 0 then .undef
  else
    let tdl := 2 * l1.mu / amu
    .ok { RDL := dmu / amu, RUL := - dmu / amu, TDL := tdl, TUL := tdl * l2.mu / l1.mu }

/-- `grt_static_delay_RT_matrix`, static_layer.c 283-305, P-SV part. -/
def delayPSV (ex : K) (M : PSV K) : PSV K :=
  let ex2 := ex * ex
  { RD := !![M.RD 0 0 * ex2, M.RD 0 1 * ex2; M.RD 1 0 * ex2, M.RD 1 1 * ex2]
    RU := M.RU
    TD := !![M.TD 0 0 * ex, M.TD 0 1 * ex; M.TD 1 0 * ex, M.TD 1 1 * ex]
    TU := !![M.TU 0 0 * ex, M.TU 0 1 * ex; M.TU 1 0 * ex, M.TU 1 1 * ex] }

/-- SH part. -/
def delaySH (ex : K) (M : SH K) : SH K :=
  { RDL := M.RDL * (ex * ex), RUL := M.RUL, TDL := M.TDL * ex, TUL := M.TUL * ex }

/-- `_source_PSV` and `_source_SH`, static_source.c 20-65 after the zeroing of lines 68-72. -/
def srcRow (k delta : K) (t : Src) : Out (SrcRow K) :=
  let A := 1 + delta
  if A = 0 ∨ 2 * A * k = 0 ∨ 2 * A = 0 ∨ k = 0 then .undef
  else .ok (match t with
    | .EX => ⟨![(delta - 1) / A, 0], ![(delta - 1) / A, 0], 0, 0⟩
    | .VF => ⟨![-1 / (2*A*k), -1 / (2*A*k)], ![-(-1 / (2*A*k)), -(-1 / (2*A*k))], 0, 0⟩
    | .HF => ⟨![1 / (2*A*k), -(1 / (2*A*k))], ![1 / (2*A*k), -(1 / (2*A*k))], -1 / k, -1 / k⟩
    | .DD => ⟨![(-1 + 4*delta) / (2*A), -3 / (2*A)], ![(-1 + 4*delta) / (2*A), -3 / (2*A)], 0, 0⟩
    | .DS => ⟨![-delta / A, 1 / A], ![-(-delta / A), -(1 / A)], 1, -1⟩
    | .SS => ⟨![1 / (2*A), -1 / (2*A)], ![1 / (2*A), -1 / (2*A)], -1, -1⟩)

end GRT.Static
