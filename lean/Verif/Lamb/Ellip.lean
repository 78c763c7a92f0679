import Verif.Lamb.Lamb1

/-! Model of /repo/pygrt/C_extension/src/lamb/elliptic.c: the complete elliptic integrals. Real arithmetic; a division by zero gives
`none`. -/

namespace GRT.Lamb

open Complex

/-- `grt_ellipticK`, elliptic.c 23-61, without the test of the argument. -/
noncomputable def ellK (m : ℝ) : ℝ :=
  let m0 := 1 - m
  1.38629436112 + 0.09666344259 * m0 + 0.03590092383 * m0 ^ 2 + 0.03742563713 * m0 ^ 3 + 0.01451196212 * m0 ^ 4 +
    (0.5 + 0.12498593597 * m0 + 0.06880248576 * m0 ^ 2 + 0.03328355346 * m0 ^ 3 + 0.00441787012 * m0 ^ 4) * Real.log (1 / m0)

/-- `grt_ellipticE`, elliptic.c 63-101, without the test of the argument. -/
noncomputable def ellE (m : ℝ) : ℝ :=
  let m0 := 1 - m
  1 + 0.44325141463 * m0 + 0.06260601220 * m0 ^ 2 + 0.04757383546 * m0 ^ 3 + 0.01736506451 * m0 ^ 4 +
    (0 + 0.24998368310 * m0 + 0.09200180037 * m0 ^ 2 + 0.04069697526 * m0 ^ 3 + 0.00526449639 * m0 ^ 4) * Real.log (1 / m0)

/-- `2.0 - (An + xn) / An`, elliptic.c 132-134, 181-184. -/
noncomputable def dev (A x : ℂ) : ℂ := 2 - (A + x) / A

/-- `lam`, elliptic.c 141, 192. -/
noncomputable def lamOf (x y z : ℂ) : ℂ := csqrt x * csqrt y + csqrt x * csqrt z + csqrt y * csqrt z

/-- `(xn + lam) * 0.25`, elliptic.c 142-144, 198-201. -/
noncomputable def quarter (lam x : ℂ) : ℂ := (x + lam) * 0.25

/-- The series at the end of `grt_ellipticRF`, elliptic.c 149-155. -/
noncomputable def rfEnd (A x y z : ℂ) : ℂ :=
  let X := dev A x
  let Y := dev A y
  let Z := dev A z
  let E2 := X * Y - Z * Z
  let E3 := X * Y * Z
  (1 - 0.1 * E2 + 1 / 14 * E3 + 1 / 24 * E2 * E2 - 3 / 44 * E2 * E3) / csqrt A

open Classical in
/-- `grt_ellipticRF`, elliptic.c 116-158. The number is how often the values may still be replaced; the loop ends when
the deviations are below the tolerance, or after its last round with the deviations of that round. -/
noncomputable def ellRF : ℕ → ℂ → ℂ → ℂ → Option ℂ
  | 0, x, y, z =>
    let A := (x + y + z) / 3
    if A = 0 then none else some (rfEnd A x y z)
  | k + 1, x, y, z =>
    let A := (x + y + z) / 3
    if A = 0 then none
    else if max (max ‖dev A x‖ ‖dev A y‖) ‖dev A z‖ < 0.001 then some (rfEnd A x y z)
    else
      let lam := lamOf x y z
      ellRF k (quarter lam x) (quarter lam y) (quarter lam z)

/-- `dm`, elliptic.c 193. -/
noncomputable def dmOf (x y z p : ℂ) : ℂ := (csqrt p + csqrt x) * (csqrt p + csqrt y) * (csqrt p + csqrt z)

/-- `em`, elliptic.c 194. -/
noncomputable def emOf (x y z p : ℂ) : ℂ := (p - x) * (p - y) * (p - z) / (dmOf x y z p * dmOf x y z p)

/-- The series at the end of `grt_ellipticRJ`, elliptic.c 206-218. The deviation of `p` is computed from `zn` (184). -/
noncomputable def rjEnd (A x y z sum1 : ℂ) (pow4 : ℝ) : ℂ :=
  let X := dev A x
  let Y := dev A y
  let Z := dev A z
  let P := dev A z
  let PPP := P * P * P
  let E2 := X * Y + Y * Z + X * Z - 3 * P * P
  let E3 := X * Y * Z + 3 * E2 * P + 4 * PPP
  let E4 := (2 * X * Y * Z + E2 * P + 3 * PPP) * P
  let E5 := X * Y * Z * P * P
  (1 - 3 / 14 * E2 + 1 / 6 * E3 + 9 / 88 * E2 * E2 - 3 / 22 * E4 - 9 / 52 * E2 * E3 + 3 / 26 * E5) / (A * csqrt A) * pow4 + 6 * sum1

open Classical in
/-- `grt_ellipticRJ`, elliptic.c 161-221. The largest number of rounds is the one of `grt_ellipticRF`, 10000. -/
noncomputable def ellRJ : ℕ → ℂ → ℂ → ℂ → ℂ → ℂ → ℝ → Option ℂ
  | 0, x, y, z, p, sum1, pow4 =>
    let A := (x + y + z + 2 * p) * 0.2
    if A = 0 then none
    else if max (max (max ‖dev A x‖ ‖dev A y‖) ‖dev A z‖) ‖dev A z‖ < 0.001 then some (rjEnd A x y z sum1 pow4)
    else if dmOf x y z p = 0 then none
    else (ellRF 9999 1 (1 + emOf x y z p) (1 + emOf x y z p)).map fun r =>
      rjEnd A x y z (sum1 + r / dmOf x y z p * pow4) (pow4 * 0.25)
  | k + 1, x, y, z, p, sum1, pow4 =>
    let A := (x + y + z + 2 * p) * 0.2
    if A = 0 then none
    else if max (max (max ‖dev A x‖ ‖dev A y‖) ‖dev A z‖) ‖dev A z‖ < 0.001 then some (rjEnd A x y z sum1 pow4)
    else if dmOf x y z p = 0 then none
    else (ellRF 9999 1 (1 + emOf x y z p) (1 + emOf x y z p)).bind fun r =>
      let lam := lamOf x y z
      ellRJ k (quarter lam x) (quarter lam y) (quarter lam z) (quarter lam p) (sum1 + r / dmOf x y z p * pow4) (pow4 * 0.25)

open Classical in
/-- `grt_ellipticPi`, elliptic.c 224-235; `none` for a division by zero or the error of lines 226-228. For `n > 1` the function calls itself once,
with `m / n < 1`. -/
noncomputable def ellPi (n : ℂ) (m : ℝ) : Option ℂ :=
  let direct (n : ℂ) : Option ℂ := (ellRJ 9999 0 ((1 - m : ℝ) : ℂ) 1 (1 - n) 0 1).map fun r => ellK m + n / 3 * r
  if m ≤ 0 ∨ 1 ≤ m then none
  else if n.im = 0 ∧ 1 < n.re then (direct (m / n)).map fun r => ellK m - r
  else direct n

end GRT.Lamb
