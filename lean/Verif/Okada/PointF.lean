import Verif.Okada.PointD
import Verif.Okada.Spec

/-! The auxiliary functions of `UB0` as functions of position, and the parts of a point source, one kind of source at a time. -/

namespace GRT.Okada

/-- `fi1` of `UB0`, okada.c 328-356. -/
noncomputable def fI1 (x y d : ℝ) : ℝ :=
  let x2 := x * x
  let y2 := y * y
  let d2 := d * d
  let r2 := x2 + y2 + d2
  let r := √r2
  let rd := r + d
  let d12 := 1 / (r * rd * rd)
  let d33 := d12 * (3 * r + d) / (r2 * rd)
  let fi1 := y * (d12 - x2 * d33)
  fi1

/-- `fi2` of `UB0`, okada.c 328-356. -/
noncomputable def fI2 (x y d : ℝ) : ℝ :=
  let x2 := x * x
  let y2 := y * y
  let d2 := d * d
  let r2 := x2 + y2 + d2
  let r := √r2
  let rd := r + d
  let d12 := 1 / (r * rd * rd)
  let d33 := d12 * (3 * r + d) / (r2 * rd)
  let fi2 := x * (d12 - y2 * d33)
  fi2

/-- `fi4` of `UB0`, okada.c 328-356. -/
noncomputable def fI4 (x y d : ℝ) : ℝ :=
  let x2 := x * x
  let y2 := y * y
  let d2 := d * d
  let xy := x * y
  let r2 := x2 + y2 + d2
  let r := √r2
  let rd := r + d
  let d12 := 1 / (r * rd * rd)
  let d32 := d12 * (2 * r + d) / r2
  let fi4 := -xy * d32
  fi4

/-- `fi5` of `UB0`, okada.c 328-356. -/
noncomputable def fI5 (x y d : ℝ) : ℝ :=
  let x2 := x * x
  let y2 := y * y
  let d2 := d * d
  let r2 := x2 + y2 + d2
  let r := √r2
  let rd := r + d
  let d12 := 1 / (r * rd * rd)
  let d32 := d12 * (2 * r + d) / r2
  let fi5 := 1 / (r * rd) - x2 * d32
  fi5

/-- `fj1` of `UB0`, okada.c 328-356. -/
noncomputable def fJ1 (x y d : ℝ) : ℝ :=
  let x2 := x * x
  let y2 := y * y
  let d2 := d * d
  let xy := x * y
  let r2 := x2 + y2 + d2
  let r := √r2
  let r3 := r * r2
  let rd := r + d
  let d12 := 1 / (r * rd * rd)
  let d33 := d12 * (3 * r + d) / (r2 * rd)
  let d54 := d12 * (5 * r2 + 4 * r * d + d2) / r3 * d12
  let fj1 := -3 * xy * (d33 - x2 * d54)
  fj1

/-- `fj2` of `UB0`, okada.c 328-356. -/
noncomputable def fJ2 (x y d : ℝ) : ℝ :=
  let x2 := x * x
  let y2 := y * y
  let d2 := d * d
  let r2 := x2 + y2 + d2
  let r := √r2
  let r3 := r * r2
  let rd := r + d
  let d12 := 1 / (r * rd * rd)
  let d54 := d12 * (5 * r2 + 4 * r * d + d2) / r3 * d12
  let fj2 := 1 / r3 - 3 * d12 + 3 * x2 * y2 * d54
  fj2

/-- `fk1` of `UB0`, okada.c 328-356. -/
noncomputable def fK1 (x y d : ℝ) : ℝ :=
  let x2 := x * x
  let y2 := y * y
  let d2 := d * d
  let r2 := x2 + y2 + d2
  let r := √r2
  let rd := r + d
  let d12 := 1 / (r * rd * rd)
  let d32 := d12 * (2 * r + d) / r2
  let d53 := d12 * (8 * r2 + 9 * r * d + 3 * d2) / (r2 * r2 * rd)
  let fk1 := -y * (d32 - x2 * d53)
  fk1

/-- `fk2` of `UB0`, okada.c 328-356. -/
noncomputable def fK2 (x y d : ℝ) : ℝ :=
  let x2 := x * x
  let y2 := y * y
  let d2 := d * d
  let r2 := x2 + y2 + d2
  let r := √r2
  let rd := r + d
  let d12 := 1 / (r * rd * rd)
  let d32 := d12 * (2 * r + d) / r2
  let d53 := d12 * (8 * r2 + 9 * r * d + 3 * d2) / (r2 * r2 * rd)
  let fk2 := -x * (d32 - y2 * d53)
  fk2

/-- `UB0_1` with the auxiliary functions as arguments. -/
noncomputable def UBv_1 (c : Med) (p : Pt) (z fi1 fi2 fi4 fj1 fj2 fk1 fk2 : ℝ) : D12 :=
  let alp3 := c.alp3
  let sd := c.sd
  let x := p.x
  let y := p.y
  let d := p.d
  let qr := p.qr
  let xy := p.xy
  let x2 := p.x2
  let r5 := p.r5
  let a5 := p.a5
  let uy := p.uy
  let uz := p.uz
  let cc := d + z
  let fj4 := -3 * xy / r5 - fj1
  ⟨-x2 * qr - alp3 * fi1 * sd,
    -xy * qr - alp3 * fi2 * sd,
    -cc * x * qr - alp3 * fi4 * sd,
    -x * qr * (1 + a5) - alp3 * fj1 * sd,
    -y * qr * a5 - alp3 * fj2 * sd,
    -cc * qr * a5 - alp3 * fk1 * sd,
    -3 * x2 / r5 * uy - alp3 * fj2 * sd,
    -3 * xy / r5 * uy - x * qr - alp3 * fj4 * sd,
    -3 * cc * x / r5 * uy - alp3 * fk2 * sd,
    -3 * x2 / r5 * uz + alp3 * fk1 * sd,
    -3 * xy / r5 * uz + alp3 * fk2 * sd,
    3 * x / r5 * (-cc * uz + alp3 * y * sd)⟩

theorem UB0_1_eq (m : Med) (x y d z : ℝ) : UB0_1 m (ptOf m x y d) z =
    UBv_1 m (ptOf m x y d) z (fI1 x y d) (fI2 x y d) (fI4 x y d) (fJ1 x y d) (fJ2 x y d) (fK1 x y d) (fK2 x y d) := rfl

/-- `UB0_2` with the auxiliary functions as arguments. -/
noncomputable def UBv_2 (c : Med) (p : Pt) (z fi1 fi2 fi5 fj1 fj2 fk1 fk2 : ℝ) : D12 :=
  let alp3 := c.alp3
  let sdcd := c.sdcd
  let x := p.x
  let y := p.y
  let d := p.d
  let p0 := p.p
  let qr := p.qr
  let qrx := p.qrx
  let r3 := p.r3
  let r5 := p.r5
  let a3 := p.a3
  let a5 := p.a5
  let vy := p.vy
  let vz := p.vz
  let cc := d + z
  let fi3 := x / r3 - fi2
  let fj3 := a3 / r3 - fj2
  let fk3 := -3 * x * d / r5 - fk2
  ⟨-x * p0 * qr + alp3 * fi3 * sdcd,
    -y * p0 * qr + alp3 * fi1 * sdcd,
    -cc * p0 * qr + alp3 * fi5 * sdcd,
    -p0 * qr * a5 + alp3 * fj3 * sdcd,
    y * p0 * qrx + alp3 * fj1 * sdcd,
    cc * p0 * qrx + alp3 * fk3 * sdcd,
    -3 * x / r5 * vy + alp3 * fj1 * sdcd,
    -3 * y / r5 * vy - p0 * qr + alp3 * fj2 * sdcd,
    -3 * cc / r5 * vy + alp3 * fk1 * sdcd,
    -3 * x / r5 * vz - alp3 * fk3 * sdcd,
    -3 * y / r5 * vz - alp3 * fk1 * sdcd,
    -3 * cc / r5 * vz + alp3 * a3 / r3 * sdcd⟩

theorem UB0_2_eq (m : Med) (x y d z : ℝ) : UB0_2 m (ptOf m x y d) z =
    UBv_2 m (ptOf m x y d) z (fI1 x y d) (fI2 x y d) (fI5 x y d) (fJ1 x y d) (fJ2 x y d) (fK1 x y d) (fK2 x y d) := rfl

/-- `UB0_3` with the auxiliary functions as arguments. -/
noncomputable def UBv_3 (c : Med) (p : Pt) (z fi1 fi2 fi5 fj1 fj2 fk1 fk2 : ℝ) : D12 :=
  let alp3 := c.alp3
  let sdsd := c.sdsd
  let x := p.x
  let y := p.y
  let d := p.d
  let q := p.q
  let qr := p.qr
  let qrx := p.qrx
  let r3 := p.r3
  let r5 := p.r5
  let a3 := p.a3
  let a5 := p.a5
  let wy := p.wy
  let wz := p.wz
  let cc := d + z
  let fi3 := x / r3 - fi2
  let fj3 := a3 / r3 - fj2
  let fk3 := -3 * x * d / r5 - fk2
  ⟨x * q * qr - alp3 * fi3 * sdsd,
    y * q * qr - alp3 * fi1 * sdsd,
    cc * q * qr - alp3 * fi5 * sdsd,
    q * qr * a5 - alp3 * fj3 * sdsd,
    -y * q * qrx - alp3 * fj1 * sdsd,
    -cc * q * qrx - alp3 * fk3 * sdsd,
    x * qr * wy - alp3 * fj1 * sdsd,
    qr * (y * wy + q) - alp3 * fj2 * sdsd,
    cc * qr * wy - alp3 * fk1 * sdsd,
    x * qr * wz + alp3 * fk3 * sdsd,
    y * qr * wz + alp3 * fk1 * sdsd,
    cc * qr * wz - alp3 * a3 / r3 * sdsd⟩

theorem UB0_3_eq (m : Med) (x y d z : ℝ) : UB0_3 m (ptOf m x y d) z =
    UBv_3 m (ptOf m x y d) z (fI1 x y d) (fI2 x y d) (fI5 x y d) (fJ1 x y d) (fJ2 x y d) (fK1 x y d) (fK2 x y d) := rfl

/-- The sum over the parts of the image source, okada.c 590-595. -/
noncomputable def imgSum (z : ℝ) (a b c : D12) : D12 :=
  ⟨a.u0 + b.u0 + z * c.u0, a.u1 + b.u1 + z * c.u1, a.u2 + b.u2 + z * c.u2,
   a.u3 + b.u3 + z * c.u3, a.u4 + b.u4 + z * c.u4, a.u5 + b.u5 + z * c.u5,
   a.u6 + b.u6 + z * c.u6, a.u7 + b.u7 + z * c.u7, a.u8 + b.u8 + z * c.u8,
   a.u9 + b.u9 + z * c.u9 + c.u0, a.u10 + b.u10 + z * c.u10 + c.u1, a.u11 + b.u11 + z * c.u11 + c.u2⟩

/-- The part of the real source, okada.c 580-583. -/
noncomputable def realD (a : D12) : D12 :=
  ⟨-a.u0, -a.u1, -a.u2, -a.u3, -a.u4, -a.u5, -a.u6, -a.u7, -a.u8, a.u9, a.u10, a.u11⟩

/-- The auxiliary second derivatives of `UB0` can be differentiated, and two combinations of the results. -/
theorem fJ_der {x y d : ℝ} (h : x * x + y * y + d * d ≠ 0) (h' : rr x y d + d ≠ 0) :
    ∃ a b a' c c' : ℝ, HasDerivAt (fun x => fJ1 x y d) a x ∧ HasDerivAt (fun y => fJ1 x y d) a' y ∧ HasDerivAt (fun d => fJ1 x y d) c d ∧
      HasDerivAt (fun x => fJ2 x y d) a' x ∧ HasDerivAt (fun y => fJ2 x y d) b y ∧ HasDerivAt (fun d => fJ2 x y d) c' d ∧
      a + b = -(3 * y * (1 - 5 * (x * x) * (rho x y d * rho x y d)) * (rho x y d * (rho x y d * rho x y d) * (rho x y d * rho x y d))) := by
  simp only [fJ1, fJ2, div_eq_mul_inv, mul_inv, rho_sq, rho_def]
  simp only [rr_def, tau_def]
  have e := rho_rel h
  have e1 := rr_rho h
  have e2 := rr_rel x y d
  have e3 := tau_rel h'
  have r1 := rho_dx h
  have s1 := rr_dx h
  have t1 := tau_dx h h'
  have r2 := rho_dy h
  have s2 := rr_dy h
  have t2 := tau_dy h h'
  have r3 := rho_dd h
  have s3 := rr_dd h
  have t3 := tau_dd h h'
  apply Exists.intro
  apply Exists.intro
  apply Exists.intro
  apply Exists.intro
  apply Exists.intro
  refine ⟨?_, ?_, ?_, ?_, ?_, ?_, ?_⟩
  · hderiv
  · hderiv
  · hderiv
  · apply HasDerivAt.congr_deriv
    · hderiv
    · clear r1 s1 t1 r2 s2 t2 r3 s3 t3 h h'
      alg_id
  · hderiv
  · hderiv
  · clear r1 s1 t1 r2 s2 t2 r3 s3 t3 h h'
    alg_id

/-- The auxiliary second derivatives towards the surface can be differentiated. -/
theorem fK_der {x y d : ℝ} (h : x * x + y * y + d * d ≠ 0) (h' : rr x y d + d ≠ 0) :
    ∃ a a' b b' c c' : ℝ, HasDerivAt (fun x => fK1 x y d) a x ∧ HasDerivAt (fun x => fK2 x y d) a' x ∧
      HasDerivAt (fun y => fK1 x y d) b y ∧ HasDerivAt (fun y => fK2 x y d) b' y ∧
      HasDerivAt (fun d => fK1 x y d) c d ∧ HasDerivAt (fun d => fK2 x y d) c' d := by
  simp only [fK1, fK2, div_eq_mul_inv, mul_inv, rho_sq, rho_def]
  simp only [rr_def, tau_def]
  have r1 := rho_dx h
  have s1 := rr_dx h
  have t1 := tau_dx h h'
  have r2 := rho_dy h
  have s2 := rr_dy h
  have t2 := tau_dy h h'
  have r3 := rho_dd h
  have s3 := rr_dd h
  have t3 := tau_dd h h'
  apply Exists.intro
  apply Exists.intro
  apply Exists.intro
  apply Exists.intro
  apply Exists.intro
  apply Exists.intro
  refine ⟨?_, ?_, ?_, ?_, ?_, ?_⟩ <;> hderiv

end GRT.Okada
