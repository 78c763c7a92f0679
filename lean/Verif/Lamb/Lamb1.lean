import Verif.Lamb.Util
import Mathlib.Analysis.SpecialFunctions.Complex.Arctan

/-! Model of `pygrt/C_extension/src/lamb/lamb1.c` over ℝ and ℂ.  The complete elliptic integrals (elliptic.c) are parameters; the
approximations that elliptic.c makes are not modelled.  Square root and arc tangent of complex numbers are the principal values; where
C looks at the sign of a zero imaginary part the code has made it positive (`+ 0*I`) or the result does not depend on it. -/

namespace GRT.Lamb

open Complex

/-- `sqrt` of a complex number. -/
noncomputable def csqrt (z : ℂ) : ℂ := z ^ (1 / 2 : ℂ)

/-- `grt_ellipticK`, `grt_ellipticE`, `grt_ellipticPi`, elliptic.h. -/
structure Ell where
  K : ℝ → ℝ
  E : ℝ → ℝ
  Pi : ℂ → ℝ → ℂ

/-- `VARS`, lamb1.c 19-46. -/
structure Vars where
  nu : ℝ
  k : ℝ
  kk : ℝ
  kp : ℝ
  kpkp : ℝ
  h1 : ℝ
  h2 : ℝ
  h3 : ℝ
  b3 : ℝ
  b6 : ℝ
  c : ℝ
  sf : ℝ
  cf : ℝ
  ys : Fin 3 → ℂ
  ysp : Fin 3 → ℂ
  kpa : ℝ
  kpakpa : ℝ
  raylR : ℝ
  raylQ : Fin 3 → Fin 3 → ℝ

/-- The initialisation in `grt_solve_lamb1`, lamb1.c 785-833. -/
noncomputable def mkVars (nu azimuth : ℝ) : Vars :=
  let phi := azimuth * (Real.pi / 180)
  let kk := 0.5 * (1 - 2 * nu) / (1 - nu)
  let kpkp := 1 - kk
  let h1 := 2 * kk - 1
  let h2 := kk * kpkp
  let ys := rayleigh1 nu
  let kpakpa := (rayleigh2 kk 2).re
  let u0 := √(kpakpa - kk)
  let v0 := √(kpakpa - 1)
  let R1 := (1 - 2 * kpakpa) * u0 * v0 + 2 * u0 * u0 * v0 * v0
  let R2 := 2 * (1 - 2 * kpakpa) * u0 * v0 + 2 * u0 * u0 * v0 * v0 + kpakpa * (u0 * u0 + v0 * v0)
  { nu := nu, k := √kk, kk := kk, kp := √kpkp, kpkp := kpkp, h1 := h1, h2 := h2, h3 := kpkp * h1 * h1, b3 := 3 * kpkp - 1
    b6 := 6 * kpkp - 1, c := 6 * h2 - 1, sf := Real.sin phi, cf := Real.cos phi, ys := ys, ysp := fun i => ys i - kpkp
    kpa := √kpakpa, kpakpa := kpakpa, raylR := R1 / R2
    raylQ := ![![0, 0, Real.cos phi], ![0, 0, Real.sin phi], ![-Real.cos phi, -Real.sin phi, 0]] }

/-- `ckim_P`, lamb1.c 49-118, the first index 1. -/
noncomputable def ckimP1 (V : Vars) (tbar : ℝ) (i m : ℕ) : ℂ :=
  let tbar : ℂ := tbar
  let kk : ℂ := V.kk
  let h1 : ℂ := V.h1
  let h2 : ℂ := V.h2
  let tbtb := tbar * tbar
  let aa := tbtb - kk
  match i, m with
  | 1, 6 => -8 * tbtb
  | 1, 4 => -8 * tbtb * h1
  | 1, 2 => 8 * tbtb * h2
  | 2, 8 => -8
  | 2, 6 => -8 * (h1 - aa)
  | 2, 4 => 8 * (h1 * aa + h2)
  | 2, 2 => -8 * h2 * aa
  | 3, 7 => 8 * I * tbar
  | 3, 5 => 8 * I * tbar * h1
  | 3, 3 => -8 * I * tbar * h2
  | 4, 7 => 8 * I * tbar
  | 4, 5 => 12 * I * tbar * h1
  | 4, 3 => 6 * I * tbar * h1 * h1
  | 4, 1 => I * tbar * h1 * h1 * h1
  | 5, 8 => 8
  | 5, 6 => 12 * h1
  | 5, 4 => 6 * h1 * h1
  | 5, 2 => h1 * h1 * h1
  | _, _ => 0

/-- `ckim_P`, lamb1.c 49-118, the first index 2. -/
noncomputable def ckimP2 (V : Vars) (tbar : ℝ) (i m : ℕ) : ℂ :=
  let tbar : ℂ := tbar
  let kk : ℂ := V.kk
  let h1 : ℂ := V.h1
  let h2 : ℂ := V.h2
  let h3 : ℂ := V.h3
  let b3 : ℂ := V.b3
  let b6 : ℂ := V.b6
  let c : ℂ := V.c
  let tbtb := tbar * tbar
  let A := 5 + 8 * tbtb - 12 * kk * tbtb - 24 * h2
  let B := h1 * (1 + 5 * tbtb - 6 * kk * tbtb - 8 * h2)
  let d := 2 * h1 - tbtb
  let aa := tbtb - kk
  match i, m with
  | 1, 7 => -8 * I * tbtb
  | 1, 5 => 8 * I * tbtb * b3
  | 1, 3 => 2 * I * tbtb * h1 * b6
  | 1, 1 => 2 * I * tbtb * h3
  | 2, 9 => -8 * I
  | 2, 7 => -8 * I * d
  | 2, 5 => -2 * I * A
  | 2, 3 => -2 * I * B
  | 2, 1 => -2 * I * aa * h3
  | 3, 8 => -8 * tbar
  | 3, 6 => 8 * tbar * b3
  | 3, 4 => 2 * tbar * h1 * b6
  | 3, 2 => 2 * tbar * h3
  | 4, 8 => -8 * tbar
  | 4, 6 => -12 * tbar * h1
  | 4, 4 => 4 * tbar * c
  | 4, 2 => 4 * tbar * h1 * h2
  | 5, 9 => 8 * I
  | 5, 7 => 12 * I * h1
  | 5, 5 => -4 * I * c
  | 5, 3 => -4 * I * h1 * h2
  | _, _ => 0

/-- `ckim_S1`, lamb1.c 120-202, the first index 1. -/
noncomputable def ckimS1 (V : Vars) (tbar : ℝ) (i m : ℕ) : ℂ :=
  let tbar : ℂ := tbar
  let kk : ℂ := V.kk
  let kpkp : ℂ := V.kpkp
  let tbtb := tbar * tbar
  let bb := tbtb - 1
  let A := 15 - 10 * tbtb + 8 * kk * tbtb - 16 * kk
  let B := 9 - 10 * tbtb + 16 * kk * bb
  let h (i j : ℂ) : ℂ := i + j * kpkp
  match i, m with
  | 0, 8 => 8
  | 0, 6 => 12
  | 0, 4 => 6
  | 0, 2 => 1
  | 1, 8 => -8
  | 1, 6 => 4 * (2 * bb - h 1 4)
  | 1, 4 => -2 * A
  | 1, 2 => -B
  | 1, 0 => -bb
  | 2, 6 => -8 * tbtb
  | 2, 4 => -4 * tbtb * h 1 4
  | 2, 2 => -2 * tbtb * (8 * kpkp - 3)
  | 2, 0 => tbtb
  | 3, 7 => -8 * I * tbar
  | 3, 5 => -12 * I * tbar
  | 3, 3 => -6 * I * tbar
  | 3, 1 => -I * tbar
  | 4, 7 => -8 * I * tbar
  | 4, 5 => -8 * I * tbar * h 1 1
  | 4, 3 => -8 * I * tbar * kpkp
  | 5, 8 => -8
  | 5, 6 => -8 * h 2 1
  | 5, 4 => -8 * h 1 2
  | 5, 2 => -8 * kpkp
  | _, _ => 0

/-- `ckim_S1`, lamb1.c 120-202, the first index 2. -/
noncomputable def ckimS2 (V : Vars) (tbar : ℝ) (i m : ℕ) : ℂ :=
  let tbar : ℂ := tbar
  let kk : ℂ := V.kk
  let kpkp : ℂ := V.kpkp
  let tbtb := tbar * tbar
  let bb := tbtb - 1
  let C0 := 4 - 3 * tbtb + 2 * kk * tbtb - 3 * kk
  let h (i j : ℂ) : ℂ := i + j * kpkp
  match i, m with
  | 0, 9 => 8
  | 0, 7 => 4 * h 3 2
  | 0, 5 => 4 * h 1 3
  | 0, 3 => 4 * kpkp
  | 1, 9 => -8
  | 1, 7 => 4 * (2 * tbtb - h 3 2)
  | 1, 5 => -4 * C0
  | 1, 3 => 4 * bb * kpkp
  | 2, 7 => -8 * tbtb
  | 2, 5 => -4 * tbtb * h 1 2
  | 2, 3 => -4 * tbtb * kpkp
  | 3, 8 => -8 * I * tbar
  | 3, 6 => -4 * I * tbar * h 3 2
  | 3, 4 => -4 * I * tbar * h 1 3
  | 3, 2 => -4 * I * tbar * kpkp
  | 4, 8 => -8 * I * tbar
  | 4, 6 => -8 * I * tbar * h 1 1
  | 4, 4 => -2 * I * tbar * h 1 4
  | 4, 2 => -2 * I * tbar * kpkp
  | 5, 9 => -8
  | 5, 7 => -8 * h 2 1
  | 5, 5 => -2 * h 5 8
  | 5, 3 => -2 * h 1 5
  | 5, 1 => -2 * kpkp
  | _, _ => 0

/-- The factors of `ckim_S2`, lamb1.c 204-221. -/
noncomputable def turnC (c : ℕ → ℕ → ℂ) (i m : ℕ) : ℂ :=
  if m = 1 ∨ m = 5 ∨ m = 9 then c i m * -I
  else if m = 3 ∨ m = 7 then c i m * I
  else if m = 2 ∨ m = 6 then c i m * -1
  else c i m

/-- `Cmat`, lamb1.c 223-243, for one first index of `ckim`. -/
noncomputable def cmat (V : Vars) (ck : ℕ → ℕ → ℂ) (i j : Fin 3) (m : ℕ) : ℂ :=
  let sf : ℂ := V.sf
  let cf : ℂ := V.cf
  (![![ck 0 m + ck 1 m * cf * cf + ck 2 m * sf * sf, (ck 1 m - ck 2 m) * sf * cf, ck 3 m * cf],
     ![(ck 1 m - ck 2 m) * sf * cf, ck 0 m + ck 1 m * sf * sf + ck 2 m * cf * cf, ck 3 m * sf],
     ![ck 4 m * cf, ck 4 m * sf, ck 5 m]] : Fin 3 → Fin 3 → ℂ) i j

/-- `delta` of `uv`, lamb1.c 254-256. -/
noncomputable def delta (sgn kpkp : ℝ) (y : Fin 3 → ℂ) : Fin 3 → ℂ :=
  ![-16 * sgn * kpkp * (y 0 - y 1) * (y 0 - y 2), -16 * sgn * kpkp * (y 1 - y 0) * (y 1 - y 2), -16 * sgn * kpkp * (y 2 - y 0) * (y 2 - y 1)]

/-- `uv` and `build_raw`, lamb1.c 245-284 and 618-676, for one component with coefficients `c1`, `c2`; nonzero `delta`. -/
noncomputable def buildRaw (sgn kpkp : ℝ) (ys : Fin 3 → ℂ) (c1 c2 : ℕ → ℂ) (U W : ℕ → ℂ → ℂ) : ℂ :=
  let y : Fin 3 → ℂ := fun r => ys r * sgn
  let d := delta sgn kpkp y
  let s := y 0 + y 1 + y 2
  let f : ℂ := -1 / (16 * kpkp) * sgn
  (evalpoly2 c1 (y 0) 1 3 / d 0 * U 1 (ys 0) + evalpoly2 c1 (y 0) 0 4 / d 0 * U 2 (ys 0) +
    evalpoly2 c1 (y 1) 1 3 / d 1 * U 1 (ys 1) + evalpoly2 c1 (y 1) 0 4 / d 1 * U 2 (ys 1) +
    evalpoly2 c1 (y 2) 1 3 / d 2 * U 1 (ys 2) + evalpoly2 c1 (y 2) 0 4 / d 2 * U 2 (ys 2)) +
  (f * (c1 6 + s * c1 8) * U 3 (ys 2) + f * c1 7 * U 4 (ys 2) + f * c1 8 * U 5 (ys 2)) +
  (evalpoly2 c2 (y 0) 1 4 / d 0 * W 1 (ys 0) + evalpoly2 c2 (y 0) 0 4 / d 0 * W 2 (ys 0) +
    evalpoly2 c2 (y 1) 1 4 / d 1 * W 1 (ys 1) + evalpoly2 c2 (y 1) 0 4 / d 1 * W 2 (ys 1) +
    evalpoly2 c2 (y 2) 1 4 / d 2 * W 1 (ys 2) + evalpoly2 c2 (y 2) 0 4 / d 2 * W 2 (ys 2)) +
  (f * (c2 6 + s * c2 8) * W 3 (ys 2) + f * (c2 7 + s * c2 9) * W 4 (ys 2) + f * c2 8 * W 5 (ys 2) + f * c2 9 * W 6 (ys 2))

open Classical in
/-- `U_P`, lamb1.c 286-319. -/
noncomputable def uP (V : Vars) (tbar : ℝ) (n : ℕ) (c : ℂ) : ℂ :=
  let aa := tbar * tbar - V.kk
  let a := √aa
  let xi := csqrt (aa - c)
  match n with
  | 1 => if c.im = 0 ∧ c.re < aa then 0.5 / xi * (Real.log |(xi.re + a) / (xi.re - a)| : ℝ) else I / xi * arctan (a / (I * xi))
  | 2 => if c.im = 0 ∧ c.re < aa ∧ c.re > 0 then 0 else -0.5 * Real.pi / c * csqrt (c / (c - aa))
  | 3 => (Real.pi * 0.5 : ℝ)
  | 4 => a
  | 5 => (Real.pi * aa * 0.25 : ℝ)
  | _ => 0

open Classical in
/-- `V_P`, lamb1.c 321-389. -/
noncomputable def vP (L : Ell) (V : Vars) (tbar : ℝ) (n : ℕ) (c : ℂ) : ℂ :=
  let kp := V.kp
  let kpkp := V.kpkp
  let tbtb := tbar * tbar
  let aa := tbtb - V.kk
  let a := √aa
  let bb := tbtb - 1
  let xi := csqrt (aa - c)
  let et := csqrt (kpkp - c)
  let m1 := aa / kpkp
  let m1p := kpkp / aa
  let m2 := bb / aa
  let n1 := bb / (xi * xi)
  let arg : ℂ := (c + a * kp + xi * et) * (xi + et) / ((c + a * kp - xi * et) * (xi - et))
  if tbar > 1 then
    match n with
    | 1 => if c.im = 0 ∧ (c.re > aa ∨ c.re < kpkp) then 0.5 / (xi * et) * ((Real.log ‖arg‖ : ℝ) - I * Real.pi)
      else -I / (xi * et) * (arctan (I * kp * xi / (a * et)) + Real.pi * 0.5)
    | 2 => -1 / (a * c) * (L.Pi (kpkp / c) m1p + I * c / (xi * xi) * L.Pi n1 m2)
    | 3 => 1 / a * (L.K m1p - I * L.K m2)
    | 4 => 0.5 * ((Real.log ((a + kp) / (a - kp)) : ℝ) - I * Real.pi)
    | 5 => -a * (L.E m1p - L.K m1p + I * L.E m2)
    | 6 => 0.25 * (kpkp + aa) * (Real.log ((a + kp) / (a - kp)) : ℝ) - 0.5 * kp * a - 0.25 * I * Real.pi * (kpkp + aa)
    | _ => 0
  else
    match n with
    | 1 => if c.im = 0 ∧ (c.re < aa ∨ c.re > kpkp) then 0.5 / (xi * et) * (Real.log ‖arg‖ : ℝ)
      else -I / (xi * et) * arctan (I * a * et / (kp * xi))
    | 2 => -1 / (kp * c) * L.Pi (aa / c) m1
    | 3 => 1 / kp * L.K m1
    | 4 => 0.5 * (Real.log ((a + kp) / (kp - a)) : ℝ)
    | 5 => -kp * (L.E m1 - L.K m1)
    | 6 => 0.25 * (kpkp + aa) * (Real.log ((a + kp) / (kp - a)) : ℝ) - 0.5 * kp * a
    | _ => 0

open Classical in
/-- `U_S1`, lamb1.c 391-424. -/
noncomputable def uS1 (_V : Vars) (tbar : ℝ) (n : ℕ) (c : ℂ) : ℂ :=
  let bb := tbar * tbar - 1
  let b := √bb
  let xip := csqrt (bb - c)
  match n with
  | 1 => if c.im = 0 ∧ c.re < bb then 0.5 / xip * (Real.log |(xip.re + b) / (xip.re - b)| : ℝ) else I / xip * arctan (b / (I * xip))
  | 2 => if c.im = 0 ∧ c.re < bb ∧ c.re > 0 then 0 else -0.5 * Real.pi / c * csqrt (c / (c - bb))
  | 3 => (Real.pi * 0.5 : ℝ)
  | 4 => b
  | 5 => (Real.pi * bb * 0.25 : ℝ)
  | _ => 0

open Classical in
/-- `V_S1`, lamb1.c 426-466. -/
noncomputable def vS1 (L : Ell) (V : Vars) (tbar : ℝ) (n : ℕ) (c : ℂ) : ℂ :=
  let kp := V.kp
  let kpkp := V.kpkp
  let tbtb := tbar * tbar
  let aa := tbtb - V.kk
  let a := √aa
  let bb := tbtb - 1
  let b := √bb
  let xip := csqrt (bb - c)
  let etp := csqrt (kpkp + c)
  let m2 := bb / aa
  let n2 := bb / (xip * xip)
  match n with
  | 1 => if c.im = 0 ∧ c.re > -kpkp ∧ c.re < bb then 0.5 / (xip * etp) * (Real.log ‖(kp * xip + b * etp) / (kp * xip - b * etp)‖ : ℝ)
    else I / (xip * etp) * arctan (b * etp / (I * kp * xip))
  | 2 => 1 / (a * xip * xip) * L.Pi n2 m2
  | 3 => 1 / a * L.K m2
  | 4 => (Real.arctan (b / kp) : ℝ)
  | 5 => a * L.E m2 - kpkp / a * L.K m2
  | 6 => (0.5 * (b * kp + (bb - kpkp) * Real.arctan (b / kp)) : ℝ)
  | _ => 0

/-- `U_S2`, lamb1.c 468-500. -/
noncomputable def uS2 (V : Vars) (tbar : ℝ) (n : ℕ) (c : ℂ) : ℂ :=
  let kp := V.kp
  let tbtb := tbar * tbar
  let aa := tbtb - V.kk
  let a := √aa
  let bb := tbtb - 1
  let b := √bb
  let f := kp + a
  let d := csqrt (c * (bb - c))
  let xip := csqrt (bb - c)
  match n with
  | 1 => 1 / (I * xip) * arctan ((a - b) * I * xip / (c + b * (a - b)))
  | 2 => 1 / d * arctan (kp * xip * xip / (a * d))
  | 3 => (Real.log (f / b) : ℝ)
  | 4 => (0.5 * (f - b) * (f - b) / f : ℝ)
  | 5 => (0.125 * (f * f * f * f - bb * bb) / (f * f) - 0.5 * bb * Real.log (f / b) : ℝ)
  | _ => 0

open Classical in
/-- `V_S2`, lamb1.c 502-542. -/
noncomputable def vS2 (L : Ell) (V : Vars) (tbar : ℝ) (n : ℕ) (c : ℂ) : ℂ :=
  let kp := V.kp
  let kpkp := V.kpkp
  let tbtb := tbar * tbar
  let aa := tbtb - V.kk
  let a := √aa
  let bb := tbtb - 1
  let b := √bb
  let xip := csqrt (bb - c)
  let etp := csqrt (kpkp + c)
  let m1p := kpkp / aa
  let n3 := kpkp / (etp * etp)
  match n with
  | 1 => if c.im = 0 ∧ c.re > -kpkp ∧ c.re < bb then 0.5 / (xip * etp) * (Real.log ‖(kp * xip + b * etp) / (kp * xip - b * etp)‖ : ℝ)
    else -I / (xip * etp) * arctan (I * kp * xip / (b * etp))
  | 2 => 1 / (a * etp * etp) * L.Pi n3 m1p
  | 3 => 1 / a * L.K m1p
  | 4 => (Real.arctan (kp / b) : ℝ)
  | 5 => a * L.E m1p - bb / a * L.K m1p
  | 6 => (0.5 * (b * kp + (kpkp - bb) * Real.arctan (kp / b)) : ℝ)
  | _ => 0

/-- `U_SP`, lamb1.c 544-576. -/
noncomputable def uSP (V : Vars) (tbar : ℝ) (n : ℕ) (c : ℂ) : ℂ :=
  let kp := V.kp
  let tbtb := tbar * tbar
  let aa := tbtb - V.kk
  let a := √aa
  let bb := tbtb - 1
  let bp := √(-bb)
  let f := kp + a
  let d := csqrt (c * (bb - c))
  let xip := csqrt (bb - c)
  match n with
  | 1 => -1 / (I * xip) * arctan (a / (I * xip))
  | 2 => -1 / d * arctan ((kp * f + bb) * c / (kp * f * d))
  | 3 => (Real.log (f / bp) : ℝ)
  | 4 => (0.5 * (f * f + bb) / f : ℝ)
  | 5 => (0.125 * (f * f * f * f - bb * bb) / (f * f) - 0.5 * bb * Real.log (f / bp) : ℝ)
  | _ => 0

open Classical in
/-- `V_SP`, lamb1.c 578-616. -/
noncomputable def vSP (L : Ell) (V : Vars) (tbar : ℝ) (n : ℕ) (c : ℂ) : ℂ :=
  let kp := V.kp
  let kpkp := V.kpkp
  let tbtb := tbar * tbar
  let aa := tbtb - V.kk
  let bb := tbtb - 1
  let etp := csqrt (kpkp + c)
  let m1 := aa / kpkp
  let n4 := aa / (etp * etp)
  match n with
  | 1 => if c.im = 0 ∧ c.re > -kpkp ∧ c.re < bb then 0 else Real.pi / 2 / (c - bb) * csqrt ((c - bb) / (c + kpkp))
  | 2 => 1 / (kp * etp * etp) * L.Pi n4 m1
  | 3 => 1 / kp * L.K m1
  | 4 => (Real.pi / 2 : ℝ)
  | 5 => kp * L.E m1
  | 6 => (Real.pi / 4 * (kpkp - bb) : ℝ)
  | _ => 0

open Classical in
/-- `build_P`, lamb1.c 678-694. -/
noncomputable def buildP (L : Ell) (V : Vars) (tbar : ℝ) (i j : Fin 3) : ℝ :=
  if tbar < V.k then 0
  else (buildRaw 1 V.kpkp V.ys (cmat V (ckimP1 V tbar) i j) (cmat V (ckimP2 V tbar) i j) (uP V tbar) (vP L V tbar)).re

open Classical in
/-- `build_S1`, lamb1.c 696-711. -/
noncomputable def buildS1 (L : Ell) (V : Vars) (tbar : ℝ) (i j : Fin 3) : ℝ :=
  if tbar < 1 then 0
  else (buildRaw 1 V.kpkp V.ysp (cmat V (ckimS1 V tbar) i j) (cmat V (ckimS2 V tbar) i j) (uS1 V tbar) (vS1 L V tbar)).re

open Classical in
/-- `build_S2_SP`, lamb1.c 713-741: the sum of its two results, of which one is zero. -/
noncomputable def buildS2SP (L : Ell) (V : Vars) (tbar : ℝ) (i j : Fin 3) : ℝ :=
  let c1 := cmat V (turnC (ckimS1 V tbar)) i j
  let c2 := cmat V (turnC (ckimS2 V tbar)) i j
  if tbar < V.k then 0
  else if tbar < 1 then -(buildRaw (-1) V.kpkp V.ysp c1 c2 (uSP V tbar) (vSP L V tbar)).im
  else -(buildRaw (-1) V.kpkp V.ysp c1 c2 (uS2 V tbar) (vS2 L V tbar)).im

open Classical in
/-- `build_R`, lamb1.c 743-757. -/
noncomputable def buildR (V : Vars) (tbar : ℝ) (i j : Fin 3) : ℝ :=
  if tbar < V.kpa then 0
  else V.raylQ i j * (Real.pi / 4 * tbar * V.raylR / √(tbar * tbar - V.kpakpa))

open Classical in
/-- One turn of the loop over times, lamb1.c 835-864. -/
noncomputable def lambAt (L : Ell) (V : Vars) (eps tbar : ℝ) (i j : Fin 3) : ℝ :=
  let tbar := if tbar = 1 ∨ tbar = V.k ∨ tbar = V.kpa then tbar + eps else tbar
  buildP L V tbar i j + buildS1 L V tbar i j + buildS2SP L V tbar i j + buildR V tbar i j

/-- How a call ends: with an error message, with undefined behaviour (a division by zero, a read past the end), or with results. -/
inductive Ended
  | error
  | undef
  | done (u : List (Fin 3 → Fin 3 → ℝ))

open Classical in
/-- `grt_solve_lamb1`, lamb1.c 762-865.  It reads `ts[1]`; equal roots are divided by their difference. -/
noncomputable def solveLamb1 (L : Ell) (nu : ℝ) (ts : List ℝ) (azimuth : ℝ) : Ended :=
  if nu ≤ 0 ∨ nu ≥ 0.5 then .error
  else
    match ts with
    | t0 :: t1 :: rest =>
      let eps := min 1e-8 ((t1 - t0) * 1e-5)
      let V := mkVars nu azimuth
      if V.ys 0 = V.ys 1 ∨ V.ys 0 = V.ys 2 ∨ V.ys 1 = V.ys 2 then .undef
      else .done ((t0 :: t1 :: rest).map (lambAt L V eps))
    | _ => .undef

end GRT.Lamb
