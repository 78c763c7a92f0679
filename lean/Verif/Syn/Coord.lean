import Mathlib.Analysis.SpecialFunctions.Trigonometric.Deriv
import Mathlib.Data.Fin.VecNotation

/-! Model of `pygrt/C_extension/src/common/coord.c` and of the strain, rotation and stress modules
(`static/grt_static_{strain,rotation,stress}.c`, `dynamic/grt_{strain,rotation,stress}.c`), over ℝ.
Index 0, 1, 2 is Z, R, T or Z, N, E; `upar d c` is the derivative in direction `d` of component `c`. -/

namespace GRT.Syn

open Real

/-- `GRT_IS_ZERO`, const.h 62-63. -/
def IsZero (r : ℝ) : Prop := r ≤ 1e-8
noncomputable instance (r : ℝ) : Decidable (IsZero r) := inferInstanceAs (Decidable (r ≤ 1e-8))

/-- `grt_rot_zxy2zrt_vec`, coord.c 15-23. -/
noncomputable def rotVecZRT (θ : ℝ) (A : Fin 3 → ℝ) : Fin 3 → ℝ :=
  ![A 0, A 1 * cos θ + A 2 * sin θ, - A 1 * sin θ + A 2 * cos θ]

/-- `grt_rot_zxy2zrt_symtensor2odr`, coord.c 27-44; components 11, 12, 13, 22, 23, 33. -/
noncomputable def rotSymZRT (θ : ℝ) (A : Fin 6 → ℝ) : Fin 6 → ℝ :=
  let st := sin θ; let ct := cos θ
  ![A 0, A 1 * ct + A 2 * st, - A 1 * st + A 2 * ct,
    A 3 * (ct * ct) + A 5 * (st * st) + 2 * A 4 * (st * ct),
    (A 5 - A 3) * (st * ct) + A 4 * (ct * ct - st * st),
    A 3 * (st * st) + A 5 * (ct * ct) - 2 * A 4 * (st * ct)]

/-- `grt_rot_zrt2zxy_upar`, coord.c 48-113; `r` in cm. -/
noncomputable def uparZXY (θ r : ℝ) (u : Fin 3 → ℝ) (s : Fin 3 → Fin 3 → ℝ) : (Fin 3 → ℝ) × (Fin 3 → Fin 3 → ℝ) :=
  let st := sin θ; let ct := cos θ
  let sst := st * st; let cct := ct * ct; let sct := st * ct
  let a := if IsZero (r * 1e-5) then s 1 1 else u 1 / r
  let b := if IsZero (r * 1e-5) then s 1 2 else u 2 / r
  (![u 0, u 1 * ct - u 2 * st, u 1 * st + u 2 * ct],
   ![![s 0 0, s 0 1 * ct - s 0 2 * st, s 0 1 * st + s 0 2 * ct],
     ![s 1 0 * ct - s 2 0 * st,
       s 1 1 * cct + s 2 2 * sst - (s 1 2 + s 2 1) * sct + a * sst + b * sct,
       s 1 2 * cct - s 2 1 * sst + (s 1 1 - s 2 2) * sct - a * sct + b * sst],
     ![s 1 0 * st + s 2 0 * ct,
       s 2 1 * cct - s 1 2 * sst + (s 1 1 - s 2 2) * sct - a * sct - b * cct,
       s 2 2 * cct + s 1 1 * sst + (s 1 2 + s 2 1) * sct + a * cct - b * sct]])

/-- `grt_rot_zxy2zrt_upar`, coord.c 122-172. -/
noncomputable def uparZRT (θ r : ℝ) (u : Fin 3 → ℝ) (s : Fin 3 → Fin 3 → ℝ) : (Fin 3 → ℝ) × (Fin 3 → Fin 3 → ℝ) :=
  let st := sin θ; let ct := cos θ
  let sst := st * st; let cct := ct * ct; let sct := st * ct
  let hrr := s 1 1 * cct + (s 1 2 + s 2 1) * sct + s 2 2 * sst
  let hrt := - s 1 1 * sct + s 1 2 * cct - s 2 1 * sst + s 2 2 * sct
  let htr := - s 1 1 * sct - s 1 2 * sst + s 2 1 * cct + s 2 2 * sct
  let htt := s 1 1 * sst - (s 1 2 + s 2 1) * sct + s 2 2 * cct
  let u := rotVecZRT θ u
  let a := if IsZero (r * 1e-5) then hrr else u 1 / r
  let b := if IsZero (r * 1e-5) then hrt else u 2 / r
  (u, ![![s 0 0, s 0 1 * ct + s 0 2 * st, - s 0 1 * st + s 0 2 * ct],
        ![s 1 0 * ct + s 2 0 * st, hrr, hrt],
        ![- s 1 0 * st + s 2 0 * ct, htr + b, htt - a]])

/-- The terms `ur_over_r`, `ut_over_r`, grt_static_strain.c 71-72 (also the other five modules); `dist` in km. -/
noncomputable def overR (dist : ℝ) (u : Fin 3 → ℝ) (s : Fin 3 → Fin 3 → ℝ) (c : Fin 3) : ℝ :=
  if IsZero dist then s 1 c else u c / dist * 1e-5

/-- `res[c2][c]` of `compute_strain`, grt_static_strain.c 59-88 and grt_strain.c 55-80, for `c ≤ c2`. -/
noncomputable def strain (zne : Bool) (dist : ℝ) (u : Fin 3 → ℝ) (s : Fin 3 → Fin 3 → ℝ) (c c2 : Fin 3) : ℝ :=
  let val := 1/2 * (s c2 c + s c c2)
  if zne = false ∧ c = 1 ∧ c2 = 2 then val - 1/2 * overR dist u s 2
  else if zne = false ∧ c = 2 ∧ c2 = 2 then val + overR dist u s 1
  else val

/-- `res[c2][c]` of `compute_rotation`, grt_static_rotation.c 62-85 and grt_rotation.c, for `c < c2`. -/
noncomputable def rotation (zne : Bool) (dist : ℝ) (u : Fin 3 → ℝ) (s : Fin 3 → Fin 3 → ℝ) (c c2 : Fin 3) : ℝ :=
  let val := 1/2 * (s c2 c - s c c2)
  if zne = false ∧ c = 1 ∧ c2 = 2 then val - 1/2 * overR dist u s 2 else val

/-- `res[c2][c]` of `compute_stress`, grt_static_stress.c 62-97, for `c ≤ c2`. -/
noncomputable def stress (zne : Bool) (dist mu lam : ℝ) (u : Fin 3 → ℝ) (s : Fin 3 → Fin 3 → ℝ) (c c2 : Fin 3) : ℝ :=
  let ukk := s 0 0 + s 1 1 + s 2 2
  let ukk := if zne = false then ukk + overR dist u s 1 else ukk
  let lam_ukk := ukk * lam
  let val := mu * (s c2 c + s c c2)
  let val := if c = c2 then val + lam_ukk else val
  if zne = false ∧ c = 1 ∧ c2 = 2 then val - mu * overR dist u s 2
  else if zne = false ∧ c = 2 ∧ c2 = 2 then val + 2 * mu * overR dist u s 1
  else val

/-- `res[c2][c]` of the dynamic `compute_stress`, grt_stress.c: traces `ι → ℝ`; multiplying the spectrum by
`mus` or `lams` and transforming back is a linear map of traces (`mu`, `lam`), which is the contract of
the transforms used here. -/
noncomputable def stressDyn {ι : Type*} (zne : Bool) (dist : ℝ) (mu lam : (ι → ℝ) →ₗ[ℝ] (ι → ℝ)) (u : ι → Fin 3 → ℝ)
    (s : ι → Fin 3 → Fin 3 → ℝ) (c c2 : Fin 3) : ι → ℝ :=
  let a : Fin 3 → ι → ℝ := fun k n => overR dist (u n) (s n) k
  let ukk : ι → ℝ := fun n => s n 0 0 + s n 1 1 + s n 2 2
  let ukk := if zne = false then ukk + a 1 else ukk
  let val := mu ((fun n => s n c2 c) + (fun n => s n c c2))
  let val := if c = c2 then val + lam ukk else val
  if zne = false ∧ c = 1 ∧ c2 = 2 then val - mu (a 2)
  else if zne = false ∧ c = 2 ∧ c2 = 2 then val + (2 : ℝ) • mu (a 1)
  else val

end GRT.Syn
