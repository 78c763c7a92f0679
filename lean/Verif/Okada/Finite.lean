import Verif.Okada.Point
import Mathlib.Analysis.SpecialFunctions.Trigonometric.Arctan
import Mathlib.Analysis.SpecialFunctions.Log.Basic

/-! Okada's solution for a rectangular fault in a half-space, okada.c 634-1187.  Reals; `none` where the code divides by zero, takes the
logarithm of zero or uses a quantity it has not set. -/

namespace GRT.Okada

/-- `OKADA_FINITE`, okada.c 65-93. -/
structure Cor where
  xi : ℝ
  et : ℝ
  q : ℝ
  xi2 : ℝ
  et2 : ℝ
  q2 : ℝ
  r : ℝ
  r2 : ℝ
  r3 : ℝ
  r5 : ℝ
  y : ℝ
  d : ℝ
  tt : ℝ
  alx : ℝ
  ale : ℝ
  x11 : ℝ
  y11 : ℝ
  x32 : ℝ
  y32 : ℝ
  ey : ℝ
  ez : ℝ
  fy : ℝ
  fz : ℝ
  gy : ℝ
  gz : ℝ
  hy : ℝ
  hz : ℝ

/-- `DCCON2` after the small values have been replaced and for `r ≠ 0`, okada.c 653-698. -/
noncomputable def corOf (c : Med) (xi et q : ℝ) (kxi ket : Prop) [Decidable kxi] [Decidable ket] : Cor :=
  let xi2 := xi * xi
  let et2 := et * et
  let q2 := q * q
  let r2 := xi2 + et2 + q2
  let r := √r2
  let r3 := r * r2
  let r5 := r3 * r2
  let y := et * c.cd + q * c.sd
  let d := et * c.sd - q * c.cd
  let tt := if q = 0 then 0 else Real.arctan (xi * et / (q * r))
  let rxi := r + xi
  let alx := if kxi then -Real.log (r - xi) else Real.log rxi
  let x11 := if kxi then 0 else 1 / (r * rxi)
  let x32 := if kxi then 0 else (r + rxi) * x11 * x11 / r
  let ret := r + et
  let ale := if ket then -Real.log (r - et) else Real.log ret
  let y11 := if ket then 0 else 1 / (r * ret)
  let y32 := if ket then 0 else (r + ret) * y11 * y11 / r
  { xi := xi, et := et, q := q, xi2 := xi2, et2 := et2, q2 := q2, r := r, r2 := r2, r3 := r3, r5 := r5, y := y, d := d, tt := tt
    alx := alx, ale := ale, x11 := x11, y11 := y11, x32 := x32, y32 := y32
    ey := c.sd / r - y * q / r3, ez := c.cd / r + d * q / r3, fy := d / r3 + xi2 * y32 * c.sd, fz := y / r3 + xi2 * y32 * c.cd
    gy := 2 * x11 * c.sd - y * q * x32, gz := 2 * x11 * c.cd + d * q * x32
    hy := d * q * x32 + xi * q * y32 * c.sd, hz := y * q * x32 + xi * q * y32 * c.cd }

/-- `DCCON2`, okada.c 646-699, called as at okada.c 1037-1039 and 1080-1082; `none` if it returns early or divides by zero or takes the
logarithm of zero. -/
noncomputable def dccon2 (c : Med) (xi et q : ℝ) : Option Cor :=
  open Classical in
  let kxi := xi < 0 ∧ q = 0 ∧ et = 0
  let ket := et < 0 ∧ q = 0 ∧ xi = 0
  let f := corOf c (snap xi) (snap et) (snap q) kxi ket
  if f.r = 0 then none
  else if (if kxi then f.r - f.xi = 0 else f.r + f.xi = 0) ∨ (if ket then f.r - f.et = 0 else f.r + f.et = 0) then none
  else some f

/-- `UA`, strike slip, okada.c 713-724 and 728-739. -/
noncomputable def UA_1 (c : Med) (f : Cor) : D12 :=
  let alp1 := c.alp1
  let alp2 := c.alp2
  let sd := c.sd
  let cd := c.cd
  let xi := f.xi
  let q := f.q
  let q2 := f.q2
  let r := f.r
  let r3 := f.r3
  let y := f.y
  let d := f.d
  let tt := f.tt
  let ale := f.ale
  let x11 := f.x11
  let y11 := f.y11
  let y32 := f.y32
  let ey := f.ey
  let ez := f.ez
  let fy := f.fy
  let fz := f.fz
  let xy := xi * y11
  let qy := q * y11
  ⟨1 / 2 * tt + alp2 * xi * qy,
    alp2 * q / r,
    alp1 * ale - alp2 * q * qy,
    -alp1 * qy - alp2 * xi * xi * q * y32,
    -alp2 * xi * q / r3,
    alp1 * xy + alp2 * xi * q2 * y32,
    alp1 * xy * sd + alp2 * xi * fy + 1 / 2 * d * x11,
    alp2 * ey,
    alp1 * (cd / r + qy * sd) - alp2 * q * fy,
    alp1 * xy * cd + alp2 * xi * fz + 1 / 2 * y * x11,
    alp2 * ez,
    -alp1 * (sd / r - qy * cd) - alp2 * q * fz⟩

/-- `UA`, dip slip, okada.c 713-724 and 745-756. -/
noncomputable def UA_2 (c : Med) (f : Cor) : D12 :=
  let alp1 := c.alp1
  let alp2 := c.alp2
  let sd := c.sd
  let cd := c.cd
  let xi := f.xi
  let et := f.et
  let q := f.q
  let q2 := f.q2
  let r := f.r
  let r3 := f.r3
  let y := f.y
  let d := f.d
  let tt := f.tt
  let alx := f.alx
  let x11 := f.x11
  let y11 := f.y11
  let ey := f.ey
  let ez := f.ez
  let gy := f.gy
  let gz := f.gz
  let xy := xi * y11
  let qx := q * x11
  let qy := q * y11
  ⟨alp2 * q / r,
    1 / 2 * tt + alp2 * et * qx,
    alp1 * alx - alp2 * q * qx,
    -alp2 * xi * q / r3,
    -1 / 2 * qy - alp2 * et * q / r3,
    alp1 / r + alp2 * q2 / r3,
    alp2 * ey,
    alp1 * d * x11 + 1 / 2 * xy * sd + alp2 * et * gy,
    alp1 * y * x11 - alp2 * q * gy,
    alp2 * ez,
    alp1 * y * x11 + 1 / 2 * xy * cd + alp2 * et * gz,
    -alp1 * d * x11 - alp2 * q * gz⟩

/-- `UA`, opening, okada.c 713-724 and 762-773. -/
noncomputable def UA_3 (c : Med) (f : Cor) : D12 :=
  let alp1 := c.alp1
  let alp2 := c.alp2
  let sd := c.sd
  let cd := c.cd
  let xi := f.xi
  let et := f.et
  let q := f.q
  let q2 := f.q2
  let r := f.r
  let r3 := f.r3
  let y := f.y
  let d := f.d
  let tt := f.tt
  let alx := f.alx
  let ale := f.ale
  let x11 := f.x11
  let y11 := f.y11
  let y32 := f.y32
  let fy := f.fy
  let fz := f.fz
  let gy := f.gy
  let gz := f.gz
  let hy := f.hy
  let hz := f.hz
  let xy := xi * y11
  let qx := q * x11
  let qy := q * y11
  ⟨-alp1 * ale - alp2 * q * qy,
    -alp1 * alx - alp2 * q * qx,
    1 / 2 * tt - alp2 * (et * qx + xi * qy),
    -alp1 * xy + alp2 * xi * q2 * y32,
    -alp1 / r + alp2 * q2 / r3,
    -alp1 * qy - alp2 * q * q2 * y32,
    -alp1 * (cd / r + qy * sd) - alp2 * q * fy,
    -alp1 * y * x11 - alp2 * q * gy,
    alp1 * (d * x11 + xy * sd) + alp2 * q * hy,
    alp1 * (sd / r - qy * cd) - alp2 * q * fz,
    alp1 * d * x11 - alp2 * q * gz,
    alp1 * (y * x11 + xy * cd) + alp2 * q * hz⟩

/-- `UA`, okada.c 711-776. -/
noncomputable def UA (c : Med) (f : Cor) (disl1 disl2 disl3 : ℝ) : D12 :=
  let u := D12.zero
  let u := if disl1 ≠ 0 then u.addScaled (UA_1 c f) (disl1 / (2 * Real.pi)) else u
  let u := if disl2 ≠ 0 then u.addScaled (UA_2 c f) (disl2 / (2 * Real.pi)) else u
  let u := if disl3 ≠ 0 then u.addScaled (UA_3 c f) (disl3 / (2 * Real.pi)) else u
  u

/-- The arctangent of `ai4` in `UB`, okada.c 814-818. -/
noncomputable def ubAtan (c : Med) (f : Cor) : ℝ :=
  let sd := c.sd
  let cd := c.cd
  let xi := f.xi
  let et := f.et
  let q := f.q
  let r := f.r
  let x0 := √(f.xi2 + f.q2)
  Real.arctan ((et * (x0 + q * cd) + x0 * (r + x0) * sd) / (xi * (r + x0) * cd))

/-- `ai4` of `UB`, okada.c 811-819 and 828. -/
noncomputable def ubI4 (c : Med) (f : Cor) : ℝ :=
  let cd := c.cd
  let sdcd := c.sdcd
  let cdcd := c.cdcd
  let xi := f.xi
  let r := f.r
  let y := f.y
  let d := f.d
  let rd := r + d
  if cd ≠ 0 then (if xi = 0 then 0 else 1 / cdcd * ( xi / rd * sdcd + 2 * ubAtan c f)) else xi * y / (rd * rd) / 2

/-- `UB`, strike slip, okada.c 790-841 and 845-856; `ai4` is given. -/
noncomputable def UB_1a (c : Med) (f : Cor) (ai4 : ℝ) : D12 :=
  let alp3 := c.alp3
  let sd := c.sd
  let cd := c.cd
  let cdcd := c.cdcd
  let xi := f.xi
  let et := f.et
  let q := f.q
  let xi2 := f.xi2
  let q2 := f.q2
  let r := f.r
  let y := f.y
  let d := f.d
  let tt := f.tt
  let ale := f.ale
  let x11 := f.x11
  let y11 := f.y11
  let y32 := f.y32
  let ey := f.ey
  let ez := f.ez
  let fy := f.fy
  let fz := f.fz
  let r3 := f.r3
  let rd := r + d
  let d11 := 1 / (r * rd)
  let aj2 := xi * y / rd * d11
  let aj5 := -(d + y * y / rd) * d11
  let xy := xi * y11
  let qy := q * y11
  let ai3 := if cd ≠ 0 then (y * cd / rd - ale + sd * Real.log (rd)) / cdcd else (et / rd + y * q / (rd * rd) - ale) / 2
  let ak1 := if cd ≠ 0 then xi * (d11 - y11 * sd) / cd else xi * q / rd * d11
  let ak3 := if cd ≠ 0 then (q * y11 - y * d11) / cd else sd / rd * (xi2 * d11 - 1)
  let aj3 := if cd ≠ 0 then (ak1 - aj2 * sd) / cd else -xi / (rd * rd) * (q2 * d11 - 1 / 2)
  let aj6 := if cd ≠ 0 then (ak3 - aj5 * sd) / cd else -y / (rd * rd) * (xi2 * d11 - 1 / 2)
  let ai1 := -xi / rd * cd - ai4 * sd
  let ai2 := Real.log (rd) + ai3 * sd
  let ak2 := 1 / r + ak3 * sd
  let aj1 := aj5 * cd - aj6 * sd
  let aj4 := -xy - aj2 * cd + aj3 * sd
  ⟨-xi * qy - tt - alp3 * ai1 * sd,
    -q / r + alp3 * y / rd * sd,
    q * qy - alp3 * ai2 * sd,
    xi2 * q * y32 - alp3 * aj1 * sd,
    xi * q / r3 - alp3 * aj2 * sd,
    -xi * q2 * y32 - alp3 * aj3 * sd,
    -xi * fy - d * x11 + alp3 * (xy + aj4) * sd,
    -ey + alp3 * (1 / r + aj5) * sd,
    q * fy - alp3 * (qy - aj6) * sd,
    -xi * fz - y * x11 + alp3 * ak1 * sd,
    -ez + alp3 * y * d11 * sd,
    q * fz + alp3 * ak2 * sd⟩

/-- `UB`, strike slip, okada.c 787-893. -/
noncomputable def UB_1 (c : Med) (f : Cor) : D12 := UB_1a c f (ubI4 c f)

/-- `UB`, dip slip, okada.c 790-841 and 862-873; `ai4` is given. -/
noncomputable def UB_2a (c : Med) (f : Cor) (ai4 : ℝ) : D12 :=
  let alp3 := c.alp3
  let sd := c.sd
  let cd := c.cd
  let sdcd := c.sdcd
  let cdcd := c.cdcd
  let xi := f.xi
  let et := f.et
  let q := f.q
  let xi2 := f.xi2
  let q2 := f.q2
  let r := f.r
  let y := f.y
  let d := f.d
  let tt := f.tt
  let ale := f.ale
  let x11 := f.x11
  let y11 := f.y11
  let ey := f.ey
  let ez := f.ez
  let gy := f.gy
  let gz := f.gz
  let r3 := f.r3
  let rd := r + d
  let d11 := 1 / (r * rd)
  let aj2 := xi * y / rd * d11
  let aj5 := -(d + y * y / rd) * d11
  let xy := xi * y11
  let qx := q * x11
  let qy := q * y11
  let ai3 := if cd ≠ 0 then (y * cd / rd - ale + sd * Real.log (rd)) / cdcd else (et / rd + y * q / (rd * rd) - ale) / 2
  let ak1 := if cd ≠ 0 then xi * (d11 - y11 * sd) / cd else xi * q / rd * d11
  let ak3 := if cd ≠ 0 then (q * y11 - y * d11) / cd else sd / rd * (xi2 * d11 - 1)
  let aj3 := if cd ≠ 0 then (ak1 - aj2 * sd) / cd else -xi / (rd * rd) * (q2 * d11 - 1 / 2)
  let aj6 := if cd ≠ 0 then (ak3 - aj5 * sd) / cd else -y / (rd * rd) * (xi2 * d11 - 1 / 2)
  let ak4 := xy * cd - ak1 * sd
  let aj1 := aj5 * cd - aj6 * sd
  let aj4 := -xy - aj2 * cd + aj3 * sd
  ⟨-q / r + alp3 * ai3 * sdcd,
    -et * qx - tt - alp3 * xi / rd * sdcd,
    q * qx + alp3 * ai4 * sdcd,
    xi * q / r3 + alp3 * aj4 * sdcd,
    et * q / r3 + qy + alp3 * aj5 * sdcd,
    -q2 / r3 + alp3 * aj6 * sdcd,
    -ey + alp3 * aj1 * sdcd,
    -et * gy - xy * sd + alp3 * aj2 * sdcd,
    q * gy + alp3 * aj3 * sdcd,
    -ez - alp3 * ak3 * sdcd,
    -et * gz - xy * cd - alp3 * xi * d11 * sdcd,
    q * gz - alp3 * ak4 * sdcd⟩

/-- `UB`, dip slip, okada.c 787-893. -/
noncomputable def UB_2 (c : Med) (f : Cor) : D12 := UB_2a c f (ubI4 c f)

/-- `UB`, opening, okada.c 790-841 and 879-890; `ai4` is given. -/
noncomputable def UB_3a (c : Med) (f : Cor) (ai4 : ℝ) : D12 :=
  let alp3 := c.alp3
  let sd := c.sd
  let cd := c.cd
  let sdsd := c.sdsd
  let cdcd := c.cdcd
  let xi := f.xi
  let et := f.et
  let q := f.q
  let xi2 := f.xi2
  let q2 := f.q2
  let r := f.r
  let y := f.y
  let d := f.d
  let tt := f.tt
  let ale := f.ale
  let x11 := f.x11
  let y11 := f.y11
  let y32 := f.y32
  let fy := f.fy
  let fz := f.fz
  let gy := f.gy
  let gz := f.gz
  let hy := f.hy
  let hz := f.hz
  let r3 := f.r3
  let rd := r + d
  let d11 := 1 / (r * rd)
  let aj2 := xi * y / rd * d11
  let aj5 := -(d + y * y / rd) * d11
  let xy := xi * y11
  let qx := q * x11
  let qy := q * y11
  let ai3 := if cd ≠ 0 then (y * cd / rd - ale + sd * Real.log (rd)) / cdcd else (et / rd + y * q / (rd * rd) - ale) / 2
  let ak1 := if cd ≠ 0 then xi * (d11 - y11 * sd) / cd else xi * q / rd * d11
  let ak3 := if cd ≠ 0 then (q * y11 - y * d11) / cd else sd / rd * (xi2 * d11 - 1)
  let aj3 := if cd ≠ 0 then (ak1 - aj2 * sd) / cd else -xi / (rd * rd) * (q2 * d11 - 1 / 2)
  let aj6 := if cd ≠ 0 then (ak3 - aj5 * sd) / cd else -y / (rd * rd) * (xi2 * d11 - 1 / 2)
  let ak4 := xy * cd - ak1 * sd
  let aj1 := aj5 * cd - aj6 * sd
  let aj4 := -xy - aj2 * cd + aj3 * sd
  ⟨q * qy - alp3 * ai3 * sdsd,
    q * qx + alp3 * xi / rd * sdsd,
    et * qx + xi * qy - tt - alp3 * ai4 * sdsd,
    -xi * q2 * y32 - alp3 * aj4 * sdsd,
    -q2 / r3 - alp3 * aj5 * sdsd,
    q * q2 * y32 - alp3 * aj6 * sdsd,
    q * fy - alp3 * aj1 * sdsd,
    q * gy - alp3 * aj2 * sdsd,
    -q * hy - alp3 * aj3 * sdsd,
    q * fz + alp3 * ak3 * sdsd,
    q * gz + alp3 * xi * d11 * sdsd,
    -q * hz + alp3 * ak4 * sdsd⟩

/-- `UB`, opening, okada.c 787-893. -/
noncomputable def UB_3 (c : Med) (f : Cor) : D12 := UB_3a c f (ubI4 c f)

/-- `UB`, okada.c 788-893. -/
noncomputable def UB (c : Med) (f : Cor) (disl1 disl2 disl3 : ℝ) : D12 :=
  let u := D12.zero
  let u := if disl1 ≠ 0 then u.addScaled (UB_1 c f) (disl1 / (2 * Real.pi)) else u
  let u := if disl2 ≠ 0 then u.addScaled (UB_2 c f) (disl2 / (2 * Real.pi)) else u
  let u := if disl3 ≠ 0 then u.addScaled (UB_3 c f) (disl3 / (2 * Real.pi)) else u
  u

/-- `UC`, strike slip, okada.c 908-933 and 937-951. -/
noncomputable def UC_1 (c : Med) (f : Cor) (z : ℝ) : D12 :=
  let alp4 := c.alp4
  let alp5 := c.alp5
  let sd := c.sd
  let cd := c.cd
  let sdsd := c.sdsd
  let xi := f.xi
  let et := f.et
  let q := f.q
  let xi2 := f.xi2
  let et2 := f.et2
  let r := f.r
  let r2 := f.r2
  let r3 := f.r3
  let r5 := f.r5
  let y := f.y
  let d := f.d
  let y11 := f.y11
  let y32 := f.y32
  let cc := d + z
  let y53 := (8 * r2 + 9 * r * et + 3 * et2) * y11 * y11 * y11 / r2
  let h := q * cd - z
  let z32 := sd / r3 - h * y32
  let z53 := 3 * sd / r5 - h * y53
  let y0 := y11 - xi2 * y32
  let z0 := z32 - xi2 * z53
  let ppy := cd / r3 + q * y32 * sd
  let ppz := sd / r3 - q * y32 * cd
  let qq := z * y32 + z32 + z0
  let qqy := 3 * cc * d / r5 - qq * sd
  let qqz := 3 * cc * y / r5 - qq * cd + q * y32
  let xy := xi * y11
  let qy := q * y11
  let qr := 3 * q / r5
  let cdr := (cc + d) / r3
  let yy0 := y / r3 - y0 * cd
  ⟨alp4 * xy * cd - alp5 * xi * q * z32,
    alp4 * (cd / r + 2 * qy * sd) - alp5 * cc * q / r3,
    alp4 * qy * cd - alp5 * (cc * et / r3 - z * y11 + xi2 * z32),
    alp4 * y0 * cd - alp5 * q * z0,
    -alp4 * xi * (cd / r3 + 2 * q * y32 * sd) + alp5 * cc * xi * qr,
    -alp4 * xi * q * y32 * cd + alp5 * xi * (3 * cc * et / r5 - qq),
    -alp4 * xi * ppy * cd - alp5 * xi * qqy,
    alp4 * 2 * (d / r3 - y0 * sd) * sd - y / r3 * cd - alp5 * (cdr * sd - et / r3 - cc * y * qr),
    -alp4 * q / r3 + yy0 * sd + alp5 * (cdr * cd + cc * d * qr - (y0 * cd + q * z0) * sd),
    alp4 * xi * ppz * cd - alp5 * xi * qqz,
    alp4 * 2 * (y / r3 - y0 * cd) * sd + d / r3 * cd - alp5 * (cdr * cd + cc * d * qr),
    yy0 * cd - alp5 * (cdr * sd - cc * y * qr - y0 * sdsd + q * z0 * cd)⟩

/-- `UC`, dip slip, okada.c 908-933 and 957-972. -/
noncomputable def UC_2 (c : Med) (f : Cor) (z : ℝ) : D12 :=
  let alp4 := c.alp4
  let alp5 := c.alp5
  let sd := c.sd
  let cd := c.cd
  let sdcd := c.sdcd
  let sdsd := c.sdsd
  let xi := f.xi
  let et := f.et
  let q := f.q
  let xi2 := f.xi2
  let r := f.r
  let r2 := f.r2
  let r3 := f.r3
  let r5 := f.r5
  let y := f.y
  let d := f.d
  let x11 := f.x11
  let y11 := f.y11
  let x32 := f.x32
  let y32 := f.y32
  let cc := d + z
  let x53 := (8 * r2 + 9 * r * xi + 3 * xi2) * x11 * x11 * x11 / r2
  let y0 := y11 - xi2 * y32
  let ppy := cd / r3 + q * y32 * sd
  let ppz := sd / r3 - q * y32 * cd
  let xy := xi * y11
  let qy := q * y11
  let qr := 3 * q / r5
  let cdr := (cc + d) / r3
  ⟨alp4 * cd / r - qy * sd - alp5 * cc * q / r3,
    alp4 * y * x11 - alp5 * cc * et * q * x32,
    -d * x11 - xy * sd - alp5 * cc * (x11 - q * q * x32),
    -alp4 * xi / r3 * cd + alp5 * cc * xi * qr + xi * q * y32 * sd,
    -alp4 * y / r3 + alp5 * cc * et * qr,
    d / r3 - y0 * sd + alp5 * cc / r3 * (1 - 3 * q * q / r2),
    -alp4 * et / r3 + y0 * sdsd - alp5 * (cdr * sd - cc * y * qr),
    alp4 * (x11 - y * y * x32) - alp5 * cc * ((d + 2 * q * cd) * x32 - y * et * q * x53),
    xi * ppy * sd + y * d * x32 + alp5 * cc * ((y + 2 * q * sd) * x32 - y * q * q * x53),
    -q / r3 + y0 * sdcd - alp5 * (cdr * cd + cc * d * qr),
    alp4 * y * d * x32 - alp5 * cc * ((y - 2 * q * sd) * x32 + d * et * q * x53),
    -xi * ppz * sd + x11 - d * d * x32 - alp5 * cc * ((d - 2 * q * cd) * x32 - d * q * q * x53)⟩

/-- `UC`, opening, okada.c 908-933 and 978-996. -/
noncomputable def UC_3 (c : Med) (f : Cor) (z : ℝ) : D12 :=
  let alp4 := c.alp4
  let alp5 := c.alp5
  let sd := c.sd
  let cd := c.cd
  let sdcd := c.sdcd
  let cdcd := c.cdcd
  let sdsd := c.sdsd
  let xi := f.xi
  let et := f.et
  let q := f.q
  let xi2 := f.xi2
  let et2 := f.et2
  let r := f.r
  let r2 := f.r2
  let r3 := f.r3
  let r5 := f.r5
  let y := f.y
  let d := f.d
  let x11 := f.x11
  let y11 := f.y11
  let x32 := f.x32
  let y32 := f.y32
  let cc := d + z
  let x53 := (8 * r2 + 9 * r * xi + 3 * xi2) * x11 * x11 * x11 / r2
  let y53 := (8 * r2 + 9 * r * et + 3 * et2) * y11 * y11 * y11 / r2
  let h := q * cd - z
  let z32 := sd / r3 - h * y32
  let z53 := 3 * sd / r5 - h * y53
  let y0 := y11 - xi2 * y32
  let z0 := z32 - xi2 * z53
  let ppy := cd / r3 + q * y32 * sd
  let ppz := sd / r3 - q * y32 * cd
  let qq := z * y32 + z32 + z0
  let qqy := 3 * cc * d / r5 - qq * sd
  let qqz := 3 * cc * y / r5 - qq * cd + q * y32
  let xy := xi * y11
  let qy := q * y11
  let qr := 3 * q / r5
  let yy0 := y / r3 - y0 * cd
  ⟨-alp4 * (sd / r + qy * cd) - alp5 * (z * y11 - q * q * z32),
    alp4 * 2 * xy * sd + d * x11 - alp5 * cc * (x11 - q * q * x32),
    alp4 * (y * x11 + xy * cd) + alp5 * q * (cc * et * x32 + xi * z32),
    alp4 * xi / r3 * sd + xi * q * y32 * cd + alp5 * xi * (3 * cc * et / r5 - 2 * z32 - z0),
    alp4 * 2 * y0 * sd - d / r3 + alp5 * cc / r3 * (1 - 3 * q * q / r2),
    -alp4 * yy0 - alp5 * (cc * et * qr - q * z0),
    alp4 * (q / r3 + y0 * sdcd) + alp5 * (z / r3 * cd + cc * d * qr - q * z0 * sd),
    -alp4 * 2 * xi * ppy * sd - y * d * x32 + alp5 * cc * ((y + 2 * q * sd) * x32 - y * q * q * x53),
    -alp4 * (xi * ppy * cd - x11 + y * y * x32) + alp5 * (cc * ((d + 2 * q * cd) * x32 - y * et * q * x53) + xi * qqy),
    -et / r3 + y0 * cdcd - alp5 * (z / r3 * sd - cc * y * qr - y0 * sdsd + q * z0 * cd),
    alp4 * 2 * xi * ppz * sd - x11 + d * d * x32 - alp5 * cc * ((d - 2 * q * cd) * x32 - d * q * q * x53),
    alp4 * (xi * ppz * cd + y * d * x32) + alp5 * (cc * ((y - 2 * q * sd) * x32 + d * et * q * x53) + xi * qqz)⟩

/-- `UC`, okada.c 906-999. -/
noncomputable def UC (c : Med) (f : Cor) (z : ℝ) (disl1 disl2 disl3 : ℝ) : D12 :=
  let u := D12.zero
  let u := if disl1 ≠ 0 then u.addScaled (UC_1 c f z) (disl1 / (2 * Real.pi)) else u
  let u := if disl2 ≠ 0 then u.addScaled (UC_2 c f z) (disl2 / (2 * Real.pi)) else u
  let u := if disl3 ≠ 0 then u.addScaled (UC_3 c f z) (disl3 / (2 * Real.pi)) else u
  u

/-- The rotation of a real corner, okada.c 1042-1051. -/
def rotReal (c : Med) (a : D12) : D12 :=
  ⟨-a.u0, -a.u1 * c.cd + a.u2 * c.sd, -a.u1 * c.sd - a.u2 * c.cd,
    -a.u3, -a.u4 * c.cd + a.u5 * c.sd, -a.u4 * c.sd - a.u5 * c.cd,
    -a.u6, -a.u7 * c.cd + a.u8 * c.sd, -a.u7 * c.sd - a.u8 * c.cd,
    -(-a.u9), -(-a.u10 * c.cd + a.u11 * c.sd), -(-a.u10 * c.sd - a.u11 * c.cd)⟩

/-- The rotation of an image corner, okada.c 1087-1098. -/
def rotImg (c : Med) (z : ℝ) (a b e : D12) : D12 :=
  ⟨a.u0 + b.u0 + z * e.u0,
    (a.u1 + b.u1 + z * e.u1) * c.cd - (a.u2 + b.u2 + z * e.u2) * c.sd,
    (a.u1 + b.u1 - z * e.u1) * c.sd + (a.u2 + b.u2 - z * e.u2) * c.cd,
    a.u3 + b.u3 + z * e.u3,
    (a.u4 + b.u4 + z * e.u4) * c.cd - (a.u5 + b.u5 + z * e.u5) * c.sd,
    (a.u4 + b.u4 - z * e.u4) * c.sd + (a.u5 + b.u5 - z * e.u5) * c.cd,
    a.u6 + b.u6 + z * e.u6,
    (a.u7 + b.u7 + z * e.u7) * c.cd - (a.u8 + b.u8 + z * e.u8) * c.sd,
    (a.u7 + b.u7 - z * e.u7) * c.sd + (a.u8 + b.u8 - z * e.u8) * c.cd,
    a.u9 + b.u9 + z * e.u9 + e.u0,
    (a.u10 + b.u10 + z * e.u10) * c.cd - (a.u11 + b.u11 + z * e.u11) * c.sd + (e.u1 * c.cd - e.u2 * c.sd),
    (a.u10 + b.u10 - z * e.u10) * c.sd + (a.u11 + b.u11 - z * e.u11) * c.cd + (-e.u1 * c.sd - e.u2 * c.cd)⟩

/-- One corner in `okada_add_finite_real`, okada.c 1035-1051. -/
noncomputable def cornerReal (c : Med) (disl1 disl2 disl3 q xi et : ℝ) : Option D12 :=
  (dccon2 c xi et q).map fun f => rotReal c (UA c f disl1 disl2 disl3)

/-- One corner in `okada_add_finite_image`, okada.c 1078-1098; `UB` divides by `r + d`. -/
noncomputable def cornerImg (c : Med) (z disl1 disl2 disl3 q xi et : ℝ) : Option D12 :=
  open Classical in
  (dccon2 c xi et q).bind fun f =>
    if f.r + f.d = 0 then none
    else some (rotImg c z (UA c f disl1 disl2 disl3) (UB c f disl1 disl2 disl3) (UC c f z disl1 disl2 disl3))

/-- The loops over the four corners, okada.c 1033-1056 and 1076-1103. -/
noncomputable def addCorners (corner : ℝ → ℝ → Option D12) (xi0 xi1 et0 et1 : ℝ) (u : D12) : Option D12 := do
  let a ← corner xi0 et0
  let u := u.addScaled a 1
  let a ← corner xi1 et0
  let u := u.addScaled a (-1)
  let a ← corner xi0 et1
  let u := u.addScaled a (-1)
  let a ← corner xi1 et1
  some (u.addScaled a 1)

/-- `okada_finite_singular`, okada.c 1010-1015. -/
def finSingular (q xi1 xi2 et1 et2 : ℝ) : Prop :=
  q = 0 ∧ (xi1 * xi2 ≤ 0 ∧ et1 * et2 = 0 ∨ et1 * et2 ≤ 0 ∧ xi1 * xi2 = 0)

/-- `grt_okada_dc3d`, okada.c 1127-1187: the return code and the results.  A singular image leaves the real part in the results. -/
noncomputable def dc3d (alpha x y z depth dip al1 al2 aw1 aw2 disl1 disl2 disl3 : ℝ) : Option (ℕ × D12) :=
  open Classical in
  if z > 0 then some (2, D12.zero)
  else if alpha = 0 then none
  else
    let c := dccon0 alpha dip
    let xi0 := snap (x - al1)
    let xi1 := snap (x - al2)
    let d := depth + z
    let p := y * c.cd + d * c.sd
    let q := snap (y * c.sd - d * c.cd)
    let et0 := snap (p - aw1)
    let et1 := snap (p - aw2)
    if finSingular q xi0 xi1 et0 et1 then some (1, D12.zero)
    else (addCorners (cornerReal c disl1 disl2 disl3 q) xi0 xi1 et0 et1 D12.zero).bind fun u =>
      let d := depth - z
      let p := y * c.cd + d * c.sd
      let q := snap (y * c.sd - d * c.cd)
      let et0 := snap (p - aw1)
      let et1 := snap (p - aw2)
      if finSingular q xi0 xi1 et0 et1 then some (1, u)
      else (addCorners (cornerImg c z disl1 disl2 disl3 q) xi0 xi1 et0 et1 u).map fun u => (0, u)

end GRT.Okada
