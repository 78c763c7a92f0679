import Verif.Lamb.Lamb1
import Verif.Num.Round
import Mathlib.Algebra.Order.Floor.Ring

/-!
The program `grt lamb1`, /repo/pygrt/C_extension/src/lamb/grt_lamb1.c: what it makes of the numbers given with `-P`, `-T` and `-A`.  Left
out: reading the numbers, options missing or given more than once, printing.
-/

namespace GRT.Lamb

/-- What is given with `-P<nu> -T<t1>/<t2>/<dt> -A<azimuth>`. -/
structure Opts where
  nu : ℝ
  t1 : ℝ
  t2 : ℝ
  dt : ℝ
  azimuth : ℝ

/-- Does some option stop the program?  grt_lamb1.c 90-92 (`-P`), 104-112 (`-T`), 128-130 (`-A`). -/
def Opts.bad (o : Opts) : Prop :=
  (o.nu ≤ 0 ∨ o.nu ≥ 0.5) ∨ (o.t1 < 0 ∨ o.t2 < 0) ∨ o.dt ≤ 0 ∨ o.t1 > o.t2 ∨ (o.azimuth < 0 ∨ o.azimuth > 360)

/-- `nt`, grt_lamb1.c 114, before it is made an `int`. -/
noncomputable def Opts.nt (o : Opts) : ℤ := ⌊(o.t2 - o.t1) / o.dt⌋ + 1

/-- The times, grt_lamb1.c 115-118. -/
noncomputable def Opts.times (o : Opts) : List ℝ := (List.range o.nt.toNat).map fun i : ℕ => o.t1 + o.dt * (i : ℝ)

open Classical in
/-- `lamb1_main`, grt_lamb1.c 148-160.  More times than an `int` can count: undefined behaviour. -/
noncomputable def lamb1Main (L : Ell) (o : Opts) : Ended :=
  if o.bad then .error
  else if 2147483647 < o.nt then .undef
  else solveLamb1 L o.nu o.times o.azimuth

/-- `nt` for decimal input as `double` computes it, grt_lamb1.c 102 (`sscanf`), 114. -/
def ntDbl (t1 t2 dt : ℚ) : ℤ :=
  ⌊Num.dbl (Num.dbl (Num.dbl t2 - Num.dbl t1) / Num.dbl dt)⌋ + 1

end GRT.Lamb
