import Mathlib.Analysis.SpecialFunctions.Pow.Real
import Mathlib.Tactic.Linarith
import Mathlib.Tactic.Positivity
import Mathlib.Tactic.Ring
import Mathlib.Tactic.NormNum
import Mathlib.Tactic.FieldSimp

/-!
# The estimate of the Rayleigh velocity of a half-space

`grt_halfspace_Rayleigh_croot` (`modal/root.c` 556-591) gives the search for modes its lowest starting velocities: the Rayleigh velocity of a
half-space with the parameters of the first solid layer, and 0.95 of it (`root.c` 684-700).  The arithmetic is that of the real numbers.
-/

namespace GRT.Modal.HalfSpace

open Real

/-- The value `f_val` of the iteration (`root.c` 578). -/
noncomputable def gval (ξ η : ℝ) : ℝ := η ^ 6 - 8 * η ^ 4 + 8 * (3 - 2 * ξ) * η ^ 2 - 16 * (1 - ξ)

/-- The derivative `df_val` of the iteration (`root.c` 579). -/
noncomputable def gder (ξ η : ℝ) : ℝ := η * (6 * η ^ 4 - 32 * η ^ 2 + 16 * (3 - 2 * ξ))

/-- The start of the iteration (`root.c` 565-571): the square root of the smaller root of the quadratic `3x² - 16x + 8(3-2ξ)` times 0.9, or 0.9 when
there is none. -/
noncomputable def etaStart (ξ : ℝ) : ℝ :=
  let d := (-16) * (-16) - 4 * 3 * (8 * (3 - 2 * ξ))
  if 0 ≤ d then √((16 - √d) / (2 * 3)) * 0.9 else 0.9

/-- The iteration (`root.c` 574-588) with `n` passes left.  Both tests leave the loop with the value before the step. -/
noncomputable def newton (ξ : ℝ) : ℕ → ℝ → ℝ
  | 0, η => η
  | n + 1, η =>
    if |gder ξ η| < 1e-10 then η
    else if |η - gval ξ η / gder ξ η - η| < 1e-8 then η
    else newton ξ n (η - gval ξ η / gder ξ η)

/-- The estimate (`root.c` 557-591) for the velocities `vp` and `vs` of a layer. -/
noncomputable def croot (vp vs : ℝ) : ℝ := newton ((vs / vp) ^ 2) 10 (etaStart ((vs / vp) ^ 2)) * vs

end GRT.Modal.HalfSpace
