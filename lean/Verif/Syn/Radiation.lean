import Mathlib.Analysis.SpecialFunctions.Trigonometric.Deriv
import Mathlib.Analysis.SpecialFunctions.Trigonometric.Basic
import Mathlib.Data.Matrix.Mul
import Mathlib.LinearAlgebra.Matrix.Notation
import Mathlib.LinearAlgebra.Matrix.Trace
import Verif.Layer.Source

/-! Model of `grt_set_source_radiation`, `pygrt/C_extension/src/common/radiation.c`, over ℝ. -/

namespace GRT.Syn

open GRT.Layer Real

/-- Components `Z`, `R`, `T` (`GRT_ZRT_CODES`, const.c; index 0, 1, 2 of the second dimension). -/
inductive Comp | Z | R | T
  deriving DecidableEq, Repr

/-- `realChnlGrid`, const.h 142; the first index is one of the six sources (const.h 167-175). -/
abbrev Grid := Src → Comp → ℝ

/-- `GRT_SYN_TYPE`, const.h 220-226. -/
inductive SynType | EX | SF | DC | TS | MT
  deriving DecidableEq, Repr

/-- `DEG1`, const.h 55 (there a decimal constant). -/
noncomputable def deg1 : ℝ := Real.pi / 180

/-- `srcRadi[s][0] = srcRadi[s][1] = zr; srcRadi[s][2] = t;` -/
def setRow (g : Grid) (s : Src) (zr t : ℝ) : Grid := fun s' c =>
  if s' = s then (match c with | .Z => zr | .R => zr | .T => t) else g s' c

/-- The common tail, radiation.c 71-76, 99-105, 130-136. -/
def setDisl (g : Grid) (par : Bool) (A0 A1 A2 A4 A5 : ℝ) : Grid :=
  let g := setRow g .DD (if par then 0 else A0) 0
  let g := setRow g .DS (if par then A4 else A1) (if par then -A1 else A4)
  setRow g .SS (if par then 2 * A5 else A2) (if par then -2 * A2 else A5)

/-- `grt_set_source_radiation`, radiation.c 16-141; `g` is the content of `srcRadi` before the call (rows of
other source types are not written), `m` the array `mchn`. -/
noncomputable def setRadiation (g : Grid) (ty : SynType) (par : Bool) (M0 coef vpvs az : ℝ) (m : Fin 6 → ℝ) : Grid :=
  let mult := (match ty with | .SF => 1e-15 | _ => 1e-20) * M0 * coef
  let saz := sin az
  let caz := cos az
  match ty with
  | .EX => setRow g .EX (if par then 0 else mult) 0
  | .SF =>
    let fn := m 0; let fe := m 1; let fz := m 2
    let A0 := fz * mult
    let A1 := (fn * caz + fe * saz) * mult
    let A4 := (- fn * saz + fe * caz) * mult
    let g := setRow g .VF (if par then 0 else A0) 0
    setRow g .HF (if par then A4 else A1) (if par then -A1 else A4)
  | .DC =>
    let stkrad := m 0 * deg1; let diprad := m 1 * deg1; let rakrad := m 2 * deg1
    let therad := az - stkrad
    let srak := sin rakrad; let crak := cos rakrad
    let sdip := sin diprad; let cdip := cos diprad
    let sdip2 := 2 * sdip * cdip; let cdip2 := 2 * cdip * cdip - 1
    let sthe := sin therad; let cthe := cos therad
    let sthe2 := 2 * sthe * cthe; let cthe2 := 2 * cthe * cthe - 1
    setDisl g par
      (mult * ((1/2) * sdip2 * srak))
      (mult * (cdip * crak * cthe - cdip2 * srak * sthe))
      (mult * ((1/2) * sdip2 * srak * cthe2 + sdip * crak * sthe2))
      (mult * (- cdip2 * srak * cthe - cdip * crak * sthe))
      (mult * (sdip * crak * cthe2 - (1/2) * sdip2 * srak * sthe2))
  | .TS =>
    let stkrad := m 0 * deg1; let diprad := m 1 * deg1
    let therad := az - stkrad
    let sdip := sin diprad; let cdip := cos diprad
    let sdip2 := 2 * sdip * cdip
    let sthe := sin therad; let cthe := cos therad
    let sthe2 := 2 * sthe * cthe; let cthe2 := 2 * cthe * cthe - 1
    let g := setRow g .EX (if par then 0 else mult * (vpvs * vpvs - 4/3)) 0
    setDisl g par
      (mult * (2/3 - sdip * sdip))
      (mult * sdip2 * sthe)
      (mult * (- sdip * sdip * cthe2))
      (mult * sdip2 * cthe)
      (mult * sdip * sdip * sthe2)
  | .MT =>
    let M11 := m 0; let M12 := m 1; let M13 := m 2; let M22 := m 3; let M23 := m 4; let M33 := m 5
    let Mexp := (M11 + M22 + M33) / 3
    let M11 := M11 - Mexp
    let M22 := M22 - Mexp
    let M33 := M33 - Mexp
    let saz2 := 2 * saz * caz
    let caz2 := 2 * caz * caz - 1
    let g := setRow g .EX (if par then 0 else mult * Mexp) 0
    setDisl g par
      (mult * ((2 * M33 - M11 - M22) / 6))
      (mult * (- (M13 * caz + M23 * saz)))
      (mult * ((1/2) * (M11 - M22) * caz2 + M12 * saz2))
      (mult * (M13 * saz - M23 * caz))
      (mult * (-(1/2) * (M11 - M22) * saz2 + M12 * caz2))

end GRT.Syn
