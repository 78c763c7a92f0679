import Mathlib.Analysis.SpecialFunctions.Trigonometric.Inverse
import Mathlib.Analysis.SpecialFunctions.Pow.Real
import Mathlib.Analysis.Complex.Basic

/-! Model of `pygrt/C_extension/src/lamb/lamb_util.c`, over ℝ and ℂ. -/

namespace GRT.Lamb

open Complex

/-- `_roots3`, lamb_util.c 20-47; `1/3.0` is taken as a third. -/
noncomputable def roots3 (a b c : ℝ) : Fin 3 → ℂ :=
  open Classical in
  let Q := (a * a - 3 * b) / 9
  let R := (2 * a * a * a - 9 * a * b + 27 * c) / 54
  let R2 := R * R
  let Q3 := Q * Q * Q
  if Q > 0 ∧ Q3 > R2 then
    let theta := Real.arccos (R / √Q3)
    ![((-2 * √Q * Real.cos (theta / 3) - a / 3 : ℝ) : ℂ),
      ((-2 * √Q * Real.cos ((theta - Real.pi * 2) / 3) - a / 3 : ℝ) : ℂ),
      ((-2 * √Q * Real.cos ((theta + Real.pi * 2) / 3) - a / 3 : ℝ) : ℂ)]
  else
    let A := (|R| + √(R2 - Q3)) ^ ((1 : ℝ) / 3)
    let A := if R > 0 then -A else A
    let B := if A ≠ 0 then Q / A else 0
    ![((-0.5 * (A + B) - a / 3 : ℝ) : ℂ) + I * √3 / 2 * ((A - B : ℝ) : ℂ),
      ((-0.5 * (A + B) - a / 3 : ℝ) : ℂ) - I * √3 / 2 * ((A - B : ℝ) : ℂ),
      ((A + B - a / 3 : ℝ) : ℂ)]

/-- `grt_rayleigh1_roots`, lamb_util.c 49-63. -/
noncomputable def rayleigh1 (nu : ℝ) : Fin 3 → ℂ :=
  let nu2 := nu * nu
  let nu3 := nu2 * nu
  let nu4 := nu3 * nu
  let snu := 1 - nu
  let snu2 := snu * snu
  let snu3 := snu2 * snu
  roots3 (-0.5 * (2 * nu2 + 1) / snu) (0.25 * (4 * nu3 - 4 * nu2 + 4 * nu - 1) / snu2) (-0.125 * nu4 / snu3)

/-- `grt_rayleigh2_roots`, lamb_util.c 65-72. -/
noncomputable def rayleigh2 (m : ℝ) : Fin 3 → ℂ := roots3 (0.5 * (2 * m - 3) / (1 - m)) (0.5 / (1 - m)) (-0.0625 / (1 - m))

/-- `grt_evalpoly2`, lamb_util.c 74-83: the loop over `i ≤ n`. -/
def evalpoly2 (C : ℕ → ℂ) (y : ℂ) (offset : ℕ) : ℕ → ℂ
  | 0 => C offset
  | n + 1 => evalpoly2 C y offset n + C (2 * (n + 1) + offset) * y ^ (n + 1)

end GRT.Lamb
