import Mathlib.Analysis.SpecialFunctions.Trigonometric.Basic
import Mathlib.Analysis.SpecialFunctions.Sqrt

/-! Okada's solution for a point source in a half-space, okada.c 1-633.  Reals; `none` where the code divides by zero. -/

namespace GRT.Okada

/-- `OKADA_MEDIUM`, okada.c 18-31. -/
structure Med where
  alp1 : ℝ
  alp2 : ℝ
  alp3 : ℝ
  alp4 : ℝ
  alp5 : ℝ
  sd : ℝ
  cd : ℝ
  sdsd : ℝ
  cdcd : ℝ
  sdcd : ℝ
  s2d : ℝ
  c2d : ℝ

/-- `OKADA_POINT`, okada.c 34-62. -/
structure Pt where
  x : ℝ
  y : ℝ
  d : ℝ
  p : ℝ
  q : ℝ
  s : ℝ
  t : ℝ
  xy : ℝ
  x2 : ℝ
  y2 : ℝ
  d2 : ℝ
  r : ℝ
  r2 : ℝ
  r3 : ℝ
  r5 : ℝ
  qr : ℝ
  qrx : ℝ
  a3 : ℝ
  a5 : ℝ
  b3 : ℝ
  c3 : ℝ
  uy : ℝ
  vy : ℝ
  wy : ℝ
  uz : ℝ
  vz : ℝ
  wz : ℝ

/-- The 12 results: displacements along x, y, z, then their derivatives along x, y and z (okada.c 124-139). -/
@[ext] structure D12 where
  u0 : ℝ
  u1 : ℝ
  u2 : ℝ
  u3 : ℝ
  u4 : ℝ
  u5 : ℝ
  u6 : ℝ
  u7 : ℝ
  u8 : ℝ
  u9 : ℝ
  u10 : ℝ
  u11 : ℝ

/-- `okada_zero_u`, okada.c 102-105. -/
def D12.zero : D12 := ⟨0, 0, 0, 0, 0, 0, 0, 0, 0, 0, 0, 0⟩

/-- `okada_add_scaled`, okada.c 113-116. -/
def D12.addScaled (u du : D12) (scale : ℝ) : D12 :=
  ⟨u.u0 + scale * du.u0, u.u1 + scale * du.u1, u.u2 + scale * du.u2, u.u3 + scale * du.u3,
    u.u4 + scale * du.u4, u.u5 + scale * du.u5, u.u6 + scale * du.u6, u.u7 + scale * du.u7,
    u.u8 + scale * du.u8, u.u9 + scale * du.u9, u.u10 + scale * du.u10, u.u11 + scale * du.u11⟩

/-- The displacements, as copied by `okada_copy_output`, okada.c 126-128. -/
def D12.disp (u : D12) (c : Fin 3) : ℝ := ![u.u0, u.u1, u.u2] c

/-- The derivatives, coordinate first, okada.c 130-138. -/
def D12.upar (u : D12) (i c : Fin 3) : ℝ :=
  ![![u.u3, u.u4, u.u5], ![u.u6, u.u7, u.u8], ![u.u9, u.u10, u.u11]] i c

/-- `OKADA_EPS`, okada.c 95. -/
noncomputable def eps : ℝ := 1 / 1000000

/-- Small values are taken as zero, okada.c 182-184 and elsewhere. -/
noncomputable def snap (v : ℝ) : ℝ := if |v| < eps then 0 else v

/-- `DCCON0` with given sine and cosine of the dip, okada.c 151-155 and 163-167. -/
noncomputable def medOf (alpha sd cd : ℝ) : Med where
  alp1 := (1 - alpha) / 2
  alp2 := alpha / 2
  alp3 := (1 - alpha) / alpha
  alp4 := 1 - alpha
  alp5 := alpha
  sd := sd
  cd := cd
  sdsd := sd * sd
  cdcd := cd * cd
  sdcd := sd * cd
  s2d := 2 * (sd * cd)
  c2d := cd * cd - sd * sd

/-- Sine and cosine of the dip, okada.c 157-162. -/
noncomputable def dipSC (dip : ℝ) : ℝ × ℝ :=
  let sd := Real.sin (dip * Real.pi / 180)
  let cd := Real.cos (dip * Real.pi / 180)
  if |cd| < eps then (if sd > 0 then 1 else if sd < 0 then -1 else 0, 0) else (sd, cd)

/-- `DCCON0`, okada.c 149-168. -/
noncomputable def dccon0 (alpha dip : ℝ) : Med := medOf alpha (dipSC dip).1 (dipSC dip).2

/-- `DCCON1` after the small values have been replaced, okada.c 186-214. -/
noncomputable def ptOf (c : Med) (x y d : ℝ) : Pt :=
  let p := y * c.cd + d * c.sd
  let q := y * c.sd - d * c.cd
  let s := p * c.sd + q * c.cd
  let t := p * c.cd - q * c.sd
  let x2 := x * x
  let y2 := y * y
  let d2 := d * d
  let r2 := x2 + y2 + d2
  let r := √r2
  let r3 := r * r2
  let r5 := r3 * r2
  let qr := 3 * q / r5
  let uy := c.sd - 5 * y * q / r2
  let uz := c.cd + 5 * d * q / r2
  { x := x, y := y, d := d, p := p, q := q, s := s, t := t, xy := x * y, x2 := x2, y2 := y2, d2 := d2, r := r, r2 := r2, r3 := r3, r5 := r5
    qr := qr, qrx := 5 * qr * x / r2, a3 := 1 - 3 * x2 / r2, a5 := 1 - 5 * x2 / r2, b3 := 1 - 3 * y2 / r2, c3 := 1 - 3 * d2 / r2
    uy := uy, vy := s - 5 * y * p * q / r2, wy := uy + c.sd, uz := uz, vz := t + 5 * d * p * q / r2, wz := uz + c.cd }

/-- `DCCON1`, okada.c 180-215. -/
noncomputable def dccon1 (c : Med) (x y d : ℝ) : Pt := ptOf c (snap x) (snap y) (snap d)

/-- `UA0`, strike slip, okada.c 232-239 and 245-256. -/
noncomputable def UA0_1 (c : Med) (p : Pt) : D12 :=
  let alp1 := c.alp1
  let alp2 := c.alp2
  let sd := c.sd
  let cd := c.cd
  let x := p.x
  let y := p.y
  let d := p.d
  let q := p.q
  let xy := p.xy
  let x2 := p.x2
  let r3 := p.r3
  let r5 := p.r5
  let qr := p.qr
  let a3 := p.a3
  let a5 := p.a5
  let uy := p.uy
  let uz := p.uz
  ⟨alp1 * q / r3 + alp2 * x2 * qr,
    alp1 * x / r3 * sd + alp2 * xy * qr,
    -alp1 * x / r3 * cd + alp2 * x * d * qr,
    x * qr * (-alp1 + alp2 * (1 + a5)),
    alp1 * a3 / r3 * sd + alp2 * y * qr * a5,
    -alp1 * a3 / r3 * cd + alp2 * d * qr * a5,
    alp1 * (sd / r3 - y * qr) + alp2 * 3 * x2 / r5 * uy,
    3 * x / r5 * (-alp1 * y * sd + alp2 * (y * uy + q)),
    3 * x / r5 * (alp1 * y * cd + alp2 * d * uy),
    alp1 * (cd / r3 + d * qr) + alp2 * 3 * x2 / r5 * uz,
    3 * x / r5 * (alp1 * d * sd + alp2 * y * uz),
    3 * x / r5 * (-alp1 * d * cd + alp2 * (d * uz - q))⟩

/-- `UA0`, dip slip, okada.c 232-239 and 262-275. -/
noncomputable def UA0_2 (c : Med) (p : Pt) : D12 :=
  let alp1 := c.alp1
  let alp2 := c.alp2
  let s2d := c.s2d
  let c2d := c.c2d
  let x := p.x
  let y := p.y
  let d := p.d
  let p0 := p.p
  let s := p.s
  let t := p.t
  let r3 := p.r3
  let r5 := p.r5
  let qr := p.qr
  let qrx := p.qrx
  let a5 := p.a5
  let vy := p.vy
  let vz := p.vz
  ⟨alp2 * x * p0 * qr,
    alp1 * s / r3 + alp2 * y * p0 * qr,
    -alp1 * t / r3 + alp2 * d * p0 * qr,
    alp2 * p0 * qr * a5,
    -alp1 * 3 * x * s / r5 - alp2 * y * p0 * qrx,
    alp1 * 3 * x * t / r5 - alp2 * d * p0 * qrx,
    alp2 * 3 * x / r5 * vy,
    alp1 * (s2d / r3 - 3 * y * s / r5) + alp2 * (3 * y / r5 * vy + p0 * qr),
    -alp1 * (c2d / r3 - 3 * y * t / r5) + alp2 * 3 * d / r5 * vy,
    alp2 * 3 * x / r5 * vz,
    alp1 * (c2d / r3 + 3 * d * s / r5) + alp2 * 3 * y / r5 * vz,
    alp1 * (s2d / r3 - 3 * d * t / r5) + alp2 * (3 * d / r5 * vz - p0 * qr)⟩

/-- `UA0`, opening, okada.c 232-239 and 281-292. -/
noncomputable def UA0_3 (c : Med) (p : Pt) : D12 :=
  let alp1 := c.alp1
  let alp2 := c.alp2
  let s2d := c.s2d
  let c2d := c.c2d
  let x := p.x
  let y := p.y
  let d := p.d
  let q := p.q
  let s := p.s
  let t := p.t
  let xy := p.xy
  let r3 := p.r3
  let r5 := p.r5
  let qr := p.qr
  let qrx := p.qrx
  let a3 := p.a3
  let a5 := p.a5
  let wy := p.wy
  let wz := p.wz
  ⟨alp1 * x / r3 - alp2 * x * q * qr,
    alp1 * t / r3 - alp2 * y * q * qr,
    alp1 * s / r3 - alp2 * d * q * qr,
    alp1 * a3 / r3 - alp2 * q * qr * a5,
    -alp1 * 3 * x * t / r5 + alp2 * y * q * qrx,
    -alp1 * 3 * x * s / r5 + alp2 * d * q * qrx,
    -alp1 * 3 * xy / r5 - alp2 * x * qr * wy,
    alp1 * (c2d / r3 - 3 * y * t / r5) - alp2 * (y * wy + q) * qr,
    alp1 * (s2d / r3 - 3 * y * s / r5) - alp2 * d * qr * wy,
    alp1 * 3 * x * d / r5 - alp2 * x * qr * wz,
    -alp1 * (s2d / r3 - 3 * d * t / r5) - alp2 * y * qr * wz,
    alp1 * (c2d / r3 + 3 * d * s / r5) - alp2 * (d * wz - q) * qr⟩

/-- `UA0`, inflation, okada.c 232-239 and 298-309. -/
noncomputable def UA0_4 (c : Med) (p : Pt) : D12 :=
  let alp1 := c.alp1
  let x := p.x
  let y := p.y
  let d := p.d
  let xy := p.xy
  let r3 := p.r3
  let r5 := p.r5
  let a3 := p.a3
  let b3 := p.b3
  let c3 := p.c3
  ⟨-alp1 * x / r3,
    -alp1 * y / r3,
    -alp1 * d / r3,
    -alp1 * a3 / r3,
    alp1 * 3 * xy / r5,
    alp1 * 3 * x * d / r5,
    (alp1 * 3 * xy / r5),
    -alp1 * b3 / r3,
    alp1 * 3 * y * d / r5,
    -(alp1 * 3 * x * d / r5),
    -(alp1 * 3 * y * d / r5),
    alp1 * c3 / r3⟩

/-- `UA0`, okada.c 229-312. -/
noncomputable def UA0 (c : Med) (p : Pt) (pot1 pot2 pot3 pot4 : ℝ) : D12 :=
  let u := D12.zero
  let u := if pot1 ≠ 0 then u.addScaled (UA0_1 c p) (pot1 / (2 * Real.pi)) else u
  let u := if pot2 ≠ 0 then u.addScaled (UA0_2 c p) (pot2 / (2 * Real.pi)) else u
  let u := if pot3 ≠ 0 then u.addScaled (UA0_3 c p) (pot3 / (2 * Real.pi)) else u
  let u := if pot4 ≠ 0 then u.addScaled (UA0_4 c p) (pot4 / (2 * Real.pi)) else u
  u

/-- `UB0`, strike slip, okada.c 328-356 and 361-372. -/
noncomputable def UB0_1 (c : Med) (p : Pt) (z : ℝ) : D12 :=
  let alp3 := c.alp3
  let sd := c.sd
  let x := p.x
  let y := p.y
  let d := p.d
  let qr := p.qr
  let xy := p.xy
  let x2 := p.x2
  let y2 := p.y2
  let d2 := p.d2
  let r := p.r
  let r2 := p.r2
  let r3 := p.r3
  let r5 := p.r5
  let a5 := p.a5
  let uy := p.uy
  let uz := p.uz
  let cc := d + z
  let rd := r + d
  let d12 := 1 / (r * rd * rd)
  let d32 := d12 * (2 * r + d) / r2
  let d33 := d12 * (3 * r + d) / (r2 * rd)
  let d53 := d12 * (8 * r2 + 9 * r * d + 3 * d2) / (r2 * r2 * rd)
  let d54 := d12 * (5 * r2 + 4 * r * d + d2) / r3 * d12
  let fi1 := y * (d12 - x2 * d33)
  let fi2 := x * (d12 - y2 * d33)
  let fi4 := -xy * d32
  let fj1 := -3 * xy * (d33 - x2 * d54)
  let fj2 := 1 / r3 - 3 * d12 + 3 * x2 * y2 * d54
  let fj4 := -3 * xy / r5 - fj1
  let fk1 := -y * (d32 - x2 * d53)
  let fk2 := -x * (d32 - y2 * d53)
  ⟨-x2 * qr - alp3 * fi1 * sd,
    -xy * qr - alp3 * fi2 * sd,
    -cc * x * qr - alp3 * fi4 * sd,
    -x * qr * (1 + a5) - alp3 * fj1 * sd,
    -y * qr * a5 - alp3 * fj2 * sd,
    -cc * qr * a5 - alp3 * fk1 * sd,
    -3 * x2 / r5 * uy - alp3 * fj2 * sd,
    -3 * xy / r5 * uy - x * qr - alp3 * fj4 * sd,
    -3 * cc * x / r5 * uy - alp3 * fk2 * sd,
    -3 * x2 / r5 * uz + alp3 * fk1 * sd,
    -3 * xy / r5 * uz + alp3 * fk2 * sd,
    3 * x / r5 * (-cc * uz + alp3 * y * sd)⟩

/-- `UB0`, dip slip, okada.c 328-356 and 378-389. -/
noncomputable def UB0_2 (c : Med) (p : Pt) (z : ℝ) : D12 :=
  let alp3 := c.alp3
  let sdcd := c.sdcd
  let x := p.x
  let y := p.y
  let d := p.d
  let p0 := p.p
  let qr := p.qr
  let qrx := p.qrx
  let xy := p.xy
  let x2 := p.x2
  let y2 := p.y2
  let d2 := p.d2
  let r := p.r
  let r2 := p.r2
  let r3 := p.r3
  let r5 := p.r5
  let a3 := p.a3
  let a5 := p.a5
  let vy := p.vy
  let vz := p.vz
  let cc := d + z
  let rd := r + d
  let d12 := 1 / (r * rd * rd)
  let d32 := d12 * (2 * r + d) / r2
  let d33 := d12 * (3 * r + d) / (r2 * rd)
  let d53 := d12 * (8 * r2 + 9 * r * d + 3 * d2) / (r2 * r2 * rd)
  let d54 := d12 * (5 * r2 + 4 * r * d + d2) / r3 * d12
  let fi1 := y * (d12 - x2 * d33)
  let fi2 := x * (d12 - y2 * d33)
  let fi3 := x / r3 - fi2
  let fi5 := 1 / (r * rd) - x2 * d32
  let fj1 := -3 * xy * (d33 - x2 * d54)
  let fj2 := 1 / r3 - 3 * d12 + 3 * x2 * y2 * d54
  let fj3 := a3 / r3 - fj2
  let fk1 := -y * (d32 - x2 * d53)
  let fk2 := -x * (d32 - y2 * d53)
  let fk3 := -3 * x * d / r5 - fk2
  ⟨-x * p0 * qr + alp3 * fi3 * sdcd,
    -y * p0 * qr + alp3 * fi1 * sdcd,
    -cc * p0 * qr + alp3 * fi5 * sdcd,
    -p0 * qr * a5 + alp3 * fj3 * sdcd,
    y * p0 * qrx + alp3 * fj1 * sdcd,
    cc * p0 * qrx + alp3 * fk3 * sdcd,
    -3 * x / r5 * vy + alp3 * fj1 * sdcd,
    -3 * y / r5 * vy - p0 * qr + alp3 * fj2 * sdcd,
    -3 * cc / r5 * vy + alp3 * fk1 * sdcd,
    -3 * x / r5 * vz - alp3 * fk3 * sdcd,
    -3 * y / r5 * vz - alp3 * fk1 * sdcd,
    -3 * cc / r5 * vz + alp3 * a3 / r3 * sdcd⟩

/-- `UB0`, opening, okada.c 328-356 and 395-406. -/
noncomputable def UB0_3 (c : Med) (p : Pt) (z : ℝ) : D12 :=
  let alp3 := c.alp3
  let sdsd := c.sdsd
  let x := p.x
  let y := p.y
  let d := p.d
  let q := p.q
  let qr := p.qr
  let qrx := p.qrx
  let xy := p.xy
  let x2 := p.x2
  let y2 := p.y2
  let d2 := p.d2
  let r := p.r
  let r2 := p.r2
  let r3 := p.r3
  let r5 := p.r5
  let a3 := p.a3
  let a5 := p.a5
  let wy := p.wy
  let wz := p.wz
  let cc := d + z
  let rd := r + d
  let d12 := 1 / (r * rd * rd)
  let d32 := d12 * (2 * r + d) / r2
  let d33 := d12 * (3 * r + d) / (r2 * rd)
  let d53 := d12 * (8 * r2 + 9 * r * d + 3 * d2) / (r2 * r2 * rd)
  let d54 := d12 * (5 * r2 + 4 * r * d + d2) / r3 * d12
  let fi1 := y * (d12 - x2 * d33)
  let fi2 := x * (d12 - y2 * d33)
  let fi3 := x / r3 - fi2
  let fi5 := 1 / (r * rd) - x2 * d32
  let fj1 := -3 * xy * (d33 - x2 * d54)
  let fj2 := 1 / r3 - 3 * d12 + 3 * x2 * y2 * d54
  let fj3 := a3 / r3 - fj2
  let fk1 := -y * (d32 - x2 * d53)
  let fk2 := -x * (d32 - y2 * d53)
  let fk3 := -3 * x * d / r5 - fk2
  ⟨x * q * qr - alp3 * fi3 * sdsd,
    y * q * qr - alp3 * fi1 * sdsd,
    cc * q * qr - alp3 * fi5 * sdsd,
    q * qr * a5 - alp3 * fj3 * sdsd,
    -y * q * qrx - alp3 * fj1 * sdsd,
    -cc * q * qrx - alp3 * fk3 * sdsd,
    x * qr * wy - alp3 * fj1 * sdsd,
    qr * (y * wy + q) - alp3 * fj2 * sdsd,
    cc * qr * wy - alp3 * fk1 * sdsd,
    x * qr * wz + alp3 * fk3 * sdsd,
    y * qr * wz + alp3 * fk1 * sdsd,
    cc * qr * wz - alp3 * a3 / r3 * sdsd⟩

/-- `UB0`, inflation, okada.c 328-356 and 412-423. -/
noncomputable def UB0_4 (c : Med) (p : Pt) (z : ℝ) : D12 :=
  let alp3 := c.alp3
  let x := p.x
  let y := p.y
  let d := p.d
  let xy := p.xy
  let r3 := p.r3
  let r5 := p.r5
  let a3 := p.a3
  let b3 := p.b3
  let c3 := p.c3
  ⟨alp3 * x / r3,
    alp3 * y / r3,
    alp3 * d / r3,
    alp3 * a3 / r3,
    -alp3 * 3 * xy / r5,
    -alp3 * 3 * x * d / r5,
    (-alp3 * 3 * xy / r5),
    alp3 * b3 / r3,
    -alp3 * 3 * y * d / r5,
    -(-alp3 * 3 * x * d / r5),
    -(-alp3 * 3 * y * d / r5),
    -alp3 * c3 / r3⟩

/-- `UB0`, okada.c 325-426. -/
noncomputable def UB0 (c : Med) (p : Pt) (z : ℝ) (pot1 pot2 pot3 pot4 : ℝ) : D12 :=
  let u := D12.zero
  let u := if pot1 ≠ 0 then u.addScaled (UB0_1 c p z) (pot1 / (2 * Real.pi)) else u
  let u := if pot2 ≠ 0 then u.addScaled (UB0_2 c p z) (pot2 / (2 * Real.pi)) else u
  let u := if pot3 ≠ 0 then u.addScaled (UB0_3 c p z) (pot3 / (2 * Real.pi)) else u
  let u := if pot4 ≠ 0 then u.addScaled (UB0_4 c p z) (pot4 / (2 * Real.pi)) else u
  u

/-- `UC0`, strike slip, okada.c 442-461 and 466-479. -/
noncomputable def UC0_1 (c : Med) (p : Pt) (z : ℝ) : D12 :=
  let alp4 := c.alp4
  let alp5 := c.alp5
  let sd := c.sd
  let cd := c.cd
  let x := p.x
  let y := p.y
  let d := p.d
  let q := p.q
  let x2 := p.x2
  let y2 := p.y2
  let d2 := p.d2
  let r2 := p.r2
  let r3 := p.r3
  let r5 := p.r5
  let a3 := p.a3
  let a5 := p.a5
  let qr := p.qr
  let qrx := p.qrx
  let cc := d + z
  let r7 := r5 * r2
  let a7 := 1 - 7 * x2 / r2
  let b5 := 1 - 5 * y2 / r2
  let b7 := 1 - 7 * y2 / r2
  let c7 := 1 - 7 * d2 / r2
  let qr5 := 5 * q / r2
  ⟨-alp4 * a3 / r3 * cd + alp5 * cc * qr * a5,
    3 * x / r5 * (alp4 * y * cd + alp5 * cc * (sd - y * qr5)),
    3 * x / r5 * (-alp4 * y * sd + alp5 * cc * (cd + d * qr5)),
    alp4 * 3 * x / r5 * (2 + a5) * cd - alp5 * cc * qrx * (2 + a7),
    3 / r5 * (alp4 * y * a5 * cd + alp5 * cc * (a5 * sd - y * qr5 * a7)),
    3 / r5 * (-alp4 * y * a5 * sd + alp5 * cc * (a5 * cd + d * qr5 * a7)),
    (3 / r5 * (alp4 * y * a5 * cd + alp5 * cc * (a5 * sd - y * qr5 * a7))),
    3 * x / r5 * (alp4 * b5 * cd - alp5 * 5 * cc / r2 * (2 * y * sd + q * b7)),
    3 * x / r5 * (-alp4 * b5 * sd + alp5 * 5 * cc / r2 * (d * b7 * sd - y * c7 * cd)),
    3 / r5 * (-alp4 * d * a5 * cd + alp5 * cc * (a5 * cd + d * qr5 * a7)),
    15 * x / r7 * (alp4 * y * d * cd + alp5 * cc * (d * b7 * sd - y * c7 * cd)),
    15 * x / r7 * (-alp4 * y * d * sd + alp5 * cc * (2 * d * cd - q * c7))⟩

/-- `UC0`, dip slip, okada.c 442-461 and 485-504. -/
noncomputable def UC0_2 (c : Med) (p : Pt) (z : ℝ) : D12 :=
  let alp4 := c.alp4
  let alp5 := c.alp5
  let sdcd := c.sdcd
  let s2d := c.s2d
  let c2d := c.c2d
  let x := p.x
  let y := p.y
  let d := p.d
  let p0 := p.p
  let q := p.q
  let s := p.s
  let t := p.t
  let x2 := p.x2
  let y2 := p.y2
  let d2 := p.d2
  let r2 := p.r2
  let r3 := p.r3
  let r5 := p.r5
  let a3 := p.a3
  let a5 := p.a5
  let qr := p.qr
  let qrx := p.qrx
  let cc := d + z
  let a7 := 1 - 7 * x2 / r2
  let b5 := 1 - 5 * y2 / r2
  let b7 := 1 - 7 * y2 / r2
  let c5 := 1 - 5 * d2 / r2
  let c7 := 1 - 7 * d2 / r2
  let qr5 := 5 * q / r2
  let qr7 := 7 * q / r2
  let dr5 := 5 * d / r2
  ⟨alp4 * 3 * x * t / r5 - alp5 * cc * p0 * qrx,
    -alp4 / r3 * (c2d - 3 * y * t / r2) + alp5 * 3 * cc / r5 * (s - y * p0 * qr5),
    -alp4 * a3 / r3 * sdcd + alp5 * 3 * cc / r5 * (t + d * p0 * qr5),
    alp4 * 3 * t / r5 * a5 - alp5 * 5 * cc * p0 * qr / r2 * a7,
    3 * x / r5 * (alp4 * (c2d - 5 * y * t / r2) - alp5 * 5 * cc / r2 * (s - y * p0 * qr7)),
    3 * x / r5 * (alp4 * (2 + a5) * sdcd - alp5 * 5 * cc / r2 * (t + d * p0 * qr7)),
    (3 * x / r5 * (alp4 * (c2d - 5 * y * t / r2) - alp5 * 5 * cc / r2 * (s - y * p0 * qr7))),
    3 / r5 * (alp4 * (2 * y * c2d + t * b5) + alp5 * cc * (s2d - 10 * y * s / r2 - p0 * qr5 * b7)),
    3 / r5 * (alp4 * y * a5 * sdcd - alp5 * cc * ((3 + a5) * c2d + y * p0 * dr5 * qr7)),
    3 * x / r5 * (-alp4 * (s2d - t * dr5) - alp5 * 5 * cc / r2 * (t + d * p0 * qr7)),
    3 / r5 * (-alp4 * (d * b5 * c2d + y * c5 * s2d) - alp5 * cc * ((3 + a5) * c2d + y * p0 * dr5 * qr7)),
    3 / r5 * (-alp4 * d * a5 * sdcd - alp5 * cc * (s2d - 10 * d * t / r2 + p0 * qr5 * c7))⟩

/-- `UC0`, opening, okada.c 442-461 and 510-530. -/
noncomputable def UC0_3 (c : Med) (p : Pt) (z : ℝ) : D12 :=
  let alp4 := c.alp4
  let alp5 := c.alp5
  let sdsd := c.sdsd
  let s2d := c.s2d
  let c2d := c.c2d
  let x := p.x
  let y := p.y
  let d := p.d
  let q := p.q
  let s := p.s
  let t := p.t
  let x2 := p.x2
  let y2 := p.y2
  let d2 := p.d2
  let r2 := p.r2
  let r3 := p.r3
  let r5 := p.r5
  let a3 := p.a3
  let a5 := p.a5
  let qr := p.qr
  let cc := d + z
  let q2 := q * q
  let a7 := 1 - 7 * x2 / r2
  let b5 := 1 - 5 * y2 / r2
  let b7 := 1 - 7 * y2 / r2
  let c5 := 1 - 5 * d2 / r2
  let c7 := 1 - 7 * d2 / r2
  let d7 := 2 - 7 * q2 / r2
  let qr5 := 5 * q / r2
  let qr7 := 7 * q / r2
  let dr5 := 5 * d / r2
  ⟨3 * x / r5 * (-alp4 * s + alp5 * (cc * q * qr5 - z)),
    alp4 / r3 * (s2d - 3 * y * s / r2) + alp5 * 3 / r5 * (cc * (t - y + y * q * qr5) - y * z),
    -alp4 / r3 * (1 - a3 * sdsd) - alp5 * 3 / r5 * (cc * (s - d + d * q * qr5) - d * z),
    -alp4 * 3 * s / r5 * a5 + alp5 * (cc * qr * qr5 * a7 - 3 * z / r5 * a5),
    3 * x / r5 * (-alp4 * (s2d - 5 * y * s / r2) - alp5 * 5 / r2 * (cc * (t - y + y * q * qr7) - y * z)),
    3 * x / r5 * (alp4 * (1 - (2 + a5) * sdsd) + alp5 * 5 / r2 * (cc * (s - d + d * q * qr7) - d * z)),
    (3 * x / r5 * (-alp4 * (s2d - 5 * y * s / r2) - alp5 * 5 / r2 * (cc * (t - y + y * q * qr7) - y * z))),
    3 / r5 * (-alp4 * (2 * y * s2d + s * b5) - alp5 * (cc * (2 * sdsd + 10 * y * (t - y) / r2 - q * qr5 * b7) + z * b5)),
    3 / r5 * (alp4 * y * (1 - a5 * sdsd) + alp5 * (cc * (3 + a5) * s2d - y * dr5 * (cc * d7 + z))),
    3 * x / r5 * (-alp4 * (c2d + s * dr5) + alp5 * (5 * cc / r2 * (s - d + d * q * qr7) - 1 - z * dr5)),
    3 / r5 * (alp4 * (d * b5 * s2d - y * c5 * c2d) + alp5 * (cc * ((3 + a5) * s2d - y * dr5 * d7) - y * (1 + z * dr5))),
    3 / r5 * (-alp4 * d * (1 - a5 * sdsd) - alp5 * (cc * (c2d + 10 * d * (s - d) / r2 - q * qr5 * c7) + z * (1 + c5)))⟩

/-- `UC0`, inflation, okada.c 442-461 and 536-547. -/
noncomputable def UC0_4 (c : Med) (p : Pt) (z : ℝ) : D12 :=
  let alp4 := c.alp4
  let x := p.x
  let y := p.y
  let d := p.d
  let xy := p.xy
  let y2 := p.y2
  let d2 := p.d2
  let r2 := p.r2
  let r3 := p.r3
  let r5 := p.r5
  let a5 := p.a5
  let c3 := p.c3
  let r7 := r5 * r2
  let b5 := 1 - 5 * y2 / r2
  let c5 := 1 - 5 * d2 / r2
  ⟨alp4 * 3 * x * d / r5,
    alp4 * 3 * y * d / r5,
    alp4 * c3 / r3,
    alp4 * 3 * d / r5 * a5,
    -alp4 * 15 * xy * d / r7,
    -alp4 * 3 * x / r5 * c5,
    (-alp4 * 15 * xy * d / r7),
    alp4 * 3 * d / r5 * b5,
    -alp4 * 3 * y / r5 * c5,
    (-alp4 * 3 * x / r5 * c5),
    (-alp4 * 3 * y / r5 * c5),
    alp4 * 3 * d / r5 * (2 + c5)⟩

/-- `UC0`, okada.c 439-550. -/
noncomputable def UC0 (c : Med) (p : Pt) (z : ℝ) (pot1 pot2 pot3 pot4 : ℝ) : D12 :=
  let u := D12.zero
  let u := if pot1 ≠ 0 then u.addScaled (UC0_1 c p z) (pot1 / (2 * Real.pi)) else u
  let u := if pot2 ≠ 0 then u.addScaled (UC0_2 c p z) (pot2 / (2 * Real.pi)) else u
  let u := if pot3 ≠ 0 then u.addScaled (UC0_3 c p z) (pot3 / (2 * Real.pi)) else u
  let u := if pot4 ≠ 0 then u.addScaled (UC0_4 c p z) (pot4 / (2 * Real.pi)) else u
  u

/-- The sums of `dc3d0_internal`, okada.c 572-592, from the geometry of the real and the image source. -/
noncomputable def dc3d0Sum (c : Med) (pr pi : Pt) (z pot1 pot2 pot3 pot4 : ℝ) : D12 :=
  let a := UA0 c pr pot1 pot2 pot3 pot4
  let ai := UA0 c pi pot1 pot2 pot3 pot4
  let b := UB0 c pi z pot1 pot2 pot3 pot4
  let cc := UC0 c pi z pot1 pot2 pot3 pot4
  ⟨-a.u0 + (ai.u0 + b.u0 + z * cc.u0),
    -a.u1 + (ai.u1 + b.u1 + z * cc.u1),
    -a.u2 + (ai.u2 + b.u2 + z * cc.u2),
    -a.u3 + (ai.u3 + b.u3 + z * cc.u3),
    -a.u4 + (ai.u4 + b.u4 + z * cc.u4),
    -a.u5 + (ai.u5 + b.u5 + z * cc.u5),
    -a.u6 + (ai.u6 + b.u6 + z * cc.u6),
    -a.u7 + (ai.u7 + b.u7 + z * cc.u7),
    -a.u8 + (ai.u8 + b.u8 + z * cc.u8),
    a.u9 + (ai.u9 + b.u9 + z * cc.u9 + cc.u0),
    a.u10 + (ai.u10 + b.u10 + z * cc.u10 + cc.u1),
    a.u11 + (ai.u11 + b.u11 + z * cc.u11 + cc.u2)⟩

/-- `grt_okada_dc3d0`, okada.c 614-632, with `dc3d0_internal`, 566-594: the return code and the results. -/
noncomputable def dc3d0 (alpha x y z depth dip pot1 pot2 pot3 pot4 : ℝ) : Option (ℕ × D12) :=
  open Classical in
  if z > 0 then some (2, D12.zero)
  else
    let c := dccon0 alpha dip
    let pr := dccon1 c x y (depth + z)
    let pi := dccon1 c x y (depth - z)
    if alpha = 0 then none
    else if pr.r = 0 then some (1, D12.zero)
    else if pi.r = 0 ∨ pi.r + pi.d = 0 then none
    else some (0, dc3d0Sum c pr pi z pot1 pot2 pot3 pot4)

end GRT.Okada
