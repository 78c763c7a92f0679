import Verif.Syn.Coord
import Mathlib.Analysis.SpecialFunctions.Trigonometric.Basic
import Mathlib.Tactic.LinearCombination
import Mathlib.Tactic.FieldSimp
import Mathlib.Tactic.NormNum
import Mathlib.Tactic.FinCases
import Mathlib.LinearAlgebra.Matrix.Notation

/-! C23, C24: horizontal rotations; strain, rotation and stress in either frame. -/

set_option linter.unusedSectionVars false

namespace GRT.Syn

open Real

/-! ### Specification: the orthogonal matrix of the frame change -/

/-- Rows: components of the unit vectors Z, R, T in the frame Z, N, E. -/
noncomputable def Q (θ : ℝ) : Matrix (Fin 3) (Fin 3) ℝ := !![1, 0, 0; 0, cos θ, sin θ; 0, - sin θ, cos θ]

theorem Q_orth (θ : ℝ) : (Q θ).transpose * Q θ = 1 ∧ Q θ * (Q θ).transpose = 1 := by
  have t := sin_sq_add_cos_sq θ
  constructor <;> (ext i j; fin_cases i <;> fin_cases j <;> simp [Q, Matrix.mul_apply, Fin.sum_univ_three] <;> grind)

/-- Full symmetric matrix of six components. -/
def unpack (A : Fin 6 → ℝ) : Matrix (Fin 3) (Fin 3) ℝ := !![A 0, A 1, A 2; A 1, A 3, A 4; A 2, A 4, A 5]

/-! ### C23 -/

/-- The vector rotation is the orthogonal matrix. -/
theorem C23_vec (θ : ℝ) (A : Fin 3 → ℝ) (i : Fin 3) :
    rotVecZRT θ A i = (Q θ).mulVec A i := by
  fin_cases i <;> simp [rotVecZRT, Q, Matrix.mulVec, dotProduct, Fin.sum_univ_three] <;> ring

/-- Round trip and length. -/
theorem C23_vec_roundtrip (θ : ℝ) (A : Fin 3 → ℝ) :
    rotVecZRT (-θ) (rotVecZRT θ A) = A ∧ rotVecZRT θ (rotVecZRT (-θ) A) = A ∧
    rotVecZRT θ A 0 ^ 2 + rotVecZRT θ A 1 ^ 2 + rotVecZRT θ A 2 ^ 2 = A 0 ^ 2 + A 1 ^ 2 + A 2 ^ 2 := by
  have t := sin_sq_add_cos_sq θ
  refine ⟨?_, ?_, ?_⟩
  · ext i; fin_cases i <;> simp [rotVecZRT] <;> grind
  · ext i; fin_cases i <;> simp [rotVecZRT] <;> grind
  · simp [rotVecZRT]; grind

/-- The tensor rotation is conjugation with the orthogonal matrix. -/
theorem C23_sym (θ : ℝ) (A : Fin 6 → ℝ) :
    unpack (rotSymZRT θ A) = Q θ * unpack A * (Q θ).transpose := by
  ext i j
  fin_cases i <;> fin_cases j <;> simp [rotSymZRT, unpack, Q, Matrix.mul_apply, Fin.sum_univ_three] <;> ring

/-- Round trip, trace and norm. -/
theorem C23_sym_roundtrip (θ : ℝ) (A : Fin 6 → ℝ) :
    rotSymZRT (-θ) (rotSymZRT θ A) = A ∧
    rotSymZRT θ A 0 + rotSymZRT θ A 3 + rotSymZRT θ A 5 = A 0 + A 3 + A 5 ∧
    ∑ i, ∑ j, unpack (rotSymZRT θ A) i j ^ 2 = ∑ i, ∑ j, unpack A i j ^ 2 := by
  have t := sin_sq_add_cos_sq θ
  refine ⟨?_, ?_, ?_⟩
  · ext i; fin_cases i <;> simp [rotSymZRT] <;> grind
  · simp [rotSymZRT]; grind
  · simp [rotSymZRT, unpack, Fin.sum_univ_three]; grind

/-- The displacement part of the derivative rotations is the vector rotation. -/
theorem C23_upar_vec (θ r : ℝ) (u : Fin 3 → ℝ) (s : Fin 3 → Fin 3 → ℝ) :
    (uparZXY θ r u s).1 = rotVecZRT (-θ) u ∧ (uparZRT θ r u s).1 = rotVecZRT θ u := by
  refine ⟨?_, rfl⟩
  ext i; fin_cases i <;> simp [rotVecZRT, uparZXY]; ring

/-- C23: the two derivative rotations are inverse to each other, both ways, at every distance (zero
included). -/
theorem C23_upar_roundtrip (θ r : ℝ) (u : Fin 3 → ℝ) (s : Fin 3 → Fin 3 → ℝ) :
    uparZRT θ r (uparZXY θ r u s).1 (uparZXY θ r u s).2 = (u, s) ∧
    uparZXY θ r (uparZRT θ r u s).1 (uparZRT θ r u s).2 = (u, s) := by
  have t := sin_sq_add_cos_sq θ
  have e1 : rotVecZRT θ (uparZXY θ r u s).1 = u := by
    rw [(C23_upar_vec θ r u s).1]; exact (C23_vec_roundtrip θ u).2.1
  have e2 : (uparZXY θ r (uparZRT θ r u s).1 (uparZRT θ r u s).2).1 = u := by
    rw [(C23_upar_vec θ r _ _).1, (C23_upar_vec θ r u s).2]; exact (C23_vec_roundtrip θ u).1
  constructor
  · refine Prod.ext e1 ?_
    by_cases h : IsZero (r * 1e-5)
    · funext i j
      fin_cases i <;> fin_cases j <;> simp [uparZRT, uparZXY, h] <;> grind
    · have e1' : rotVecZRT θ ![u 0, u 1 * cos θ - u 2 * sin θ, u 1 * sin θ + u 2 * cos θ] = u := e1
      funext i j
      fin_cases i <;> fin_cases j <;> simp [uparZRT, uparZXY, h, e1'] <;> grind
  · refine Prod.ext e2 ?_
    by_cases h : IsZero (r * 1e-5)
    · funext i j
      fin_cases i <;> fin_cases j <;> simp [uparZRT, uparZXY, h] <;> grind
    · funext i j
      fin_cases i <;> fin_cases j <;> simp [uparZRT, uparZXY, h] <;> grind

/-! ### C24 -/

/-- The six strain components in the order of `rotSymZRT`. -/
noncomputable def packStrain (zne : Bool) (dist : ℝ) (u : Fin 3 → ℝ) (s : Fin 3 → Fin 3 → ℝ) : Fin 6 → ℝ :=
  ![strain zne dist u s 0 0, strain zne dist u s 0 1, strain zne dist u s 0 2, strain zne dist u s 1 1,
    strain zne dist u s 1 2, strain zne dist u s 2 2]
noncomputable def packStress (zne : Bool) (dist mu lam : ℝ) (u : Fin 3 → ℝ) (s : Fin 3 → Fin 3 → ℝ) : Fin 6 → ℝ :=
  ![stress zne dist mu lam u s 0 0, stress zne dist mu lam u s 0 1, stress zne dist mu lam u s 0 2,
    stress zne dist mu lam u s 1 1, stress zne dist mu lam u s 1 2, stress zne dist mu lam u s 2 2]

theorem isZero_cm (dist : ℝ) : IsZero (dist * 1e5 * 1e-5) ↔ IsZero dist := by
  have : dist * 1e5 * 1e-5 = dist := by norm_num; ring
  rw [this]

/-- The connection terms of the two routines agree. -/
theorem overR_eq (dist : ℝ) (u : Fin 3 → ℝ) (s : Fin 3 → Fin 3 → ℝ) (c : Fin 3) :
    overR dist u s c = if IsZero (dist * 1e5 * 1e-5) then s 1 c else u c / (dist * 1e5) := by
  simp only [overR, isZero_cm]
  split
  · rfl
  · norm_num [div_eq_mul_inv, mul_inv]; ring

/-- C24, strain: from the cylindrical derivatives and rotated, or from the rotated derivatives. -/
theorem C24_strain (θ dist : ℝ) (u : Fin 3 → ℝ) (s : Fin 3 → Fin 3 → ℝ) :
    let r := uparZXY θ (dist * 1e5) u s
    packStrain false dist u s = rotSymZRT θ (packStrain true dist r.1 r.2) ∧
    packStrain true dist r.1 r.2 = rotSymZRT (-θ) (packStrain false dist u s) := by
  intro r
  have t := sin_sq_add_cos_sq θ
  have key : packStrain false dist u s = rotSymZRT θ (packStrain true dist r.1 r.2) := by
    have ha := overR_eq dist u s 1
    have hb := overR_eq dist u s 2
    ext i
    simp only [r, uparZXY, ← ha, ← hb, packStrain, strain, rotSymZRT]
    fin_cases i <;> simp <;> grind
  refine ⟨key, ?_⟩
  rw [key]
  exact (C23_sym_roundtrip θ _).1.symm

/-- C24, stress. -/
theorem C24_stress (θ dist mu lam : ℝ) (u : Fin 3 → ℝ) (s : Fin 3 → Fin 3 → ℝ) :
    let r := uparZXY θ (dist * 1e5) u s
    packStress false dist mu lam u s = rotSymZRT θ (packStress true dist mu lam r.1 r.2) ∧
    packStress true dist mu lam r.1 r.2 = rotSymZRT (-θ) (packStress false dist mu lam u s) := by
  intro r
  have t := sin_sq_add_cos_sq θ
  have key : packStress false dist mu lam u s = rotSymZRT θ (packStress true dist mu lam r.1 r.2) := by
    have ha := overR_eq dist u s 1
    have hb := overR_eq dist u s 2
    ext i
    simp only [r, uparZXY, ← ha, ← hb, packStress, stress, rotSymZRT]
    fin_cases i <;> simp <;> grind
  refine ⟨key, ?_⟩
  rw [key]
  exact (C23_sym_roundtrip θ _).1.symm

/-- Stress and strain are tied by Hooke's law in either frame. -/
theorem C24_hooke (zne : Bool) (dist mu lam : ℝ) (u : Fin 3 → ℝ) (s : Fin 3 → Fin 3 → ℝ) (c c2 : Fin 3) (h : c ≤ c2) :
    stress zne dist mu lam u s c c2 = 2 * mu * strain zne dist u s c c2 +
      (if c = c2 then lam * (strain zne dist u s 0 0 + strain zne dist u s 1 1 + strain zne dist u s 2 2) else 0) := by
  cases zne <;> fin_cases c <;> fin_cases c2 <;> first | (exfalso; revert h; decide) | (simp [stress, strain]; ring)

/-- The antisymmetric matrix of the rotation components 01, 02, 12. -/
noncomputable def rotMat (zne : Bool) (dist : ℝ) (u : Fin 3 → ℝ) (s : Fin 3 → Fin 3 → ℝ) : Matrix (Fin 3) (Fin 3) ℝ :=
  let w := rotation zne dist u s
  !![0, w 0 1, w 0 2; - w 0 1, 0, w 1 2; - w 0 2, - w 1 2, 0]

/-- C24, rotation. -/
theorem C24_rotation (θ dist : ℝ) (u : Fin 3 → ℝ) (s : Fin 3 → Fin 3 → ℝ) :
    let r := uparZXY θ (dist * 1e5) u s
    rotMat false dist u s = Q θ * rotMat true dist r.1 r.2 * (Q θ).transpose := by
  intro r
  have t := sin_sq_add_cos_sq θ
  have ha := overR_eq dist u s 1
  have hb := overR_eq dist u s 2
  ext i j
  simp only [r, uparZXY, ← ha, ← hb, rotMat, rotation, Q]
  fin_cases i <;> fin_cases j <;> simp [Matrix.mul_apply, Fin.sum_univ_three] <;> grind

/-- Hooke's law for the dynamic module, with the moduli acting as linear maps of traces. -/
theorem C24_hooke_dyn {ι : Type*} (zne : Bool) (dist : ℝ) (mu lam : (ι → ℝ) →ₗ[ℝ] (ι → ℝ)) (u : ι → Fin 3 → ℝ)
    (s : ι → Fin 3 → Fin 3 → ℝ) (c c2 : Fin 3) (h : c ≤ c2) :
    stressDyn zne dist mu lam u s c c2 = (2 : ℝ) • mu (fun n => strain zne dist (u n) (s n) c c2) +
      (if c = c2 then lam (fun n => strain zne dist (u n) (s n) 0 0 + strain zne dist (u n) (s n) 1 1 + strain zne dist (u n) (s n) 2 2) else 0) := by
  have e : (2 : ℝ) • mu (fun n => strain zne dist (u n) (s n) c c2) = mu (fun n => 2 * strain zne dist (u n) (s n) c c2) := by
    rw [← map_smul]; rfl
  have g : ∀ f : ι → ℝ, (2 : ℝ) • mu f = mu (fun n => 2 * f n) := fun f => by rw [← map_smul]; rfl
  have ga : ∀ f f' : ι → ℝ, mu f + mu f' = mu (fun n => f n + f' n) := fun f f' => by rw [← map_add]; rfl
  have gs : ∀ f f' : ι → ℝ, mu f - mu f' = mu (fun n => f n - f' n) := fun f f' => by rw [← map_sub]; rfl
  rw [e]
  cases zne <;> fin_cases c <;> fin_cases c2 <;>
    first
    | (exfalso; revert h; decide)
    | (simp only [stressDyn, strain, g]
       simp [-map_add, -map_sub]
       try rw [add_right_comm, ga]
       try rw [gs]
       congr 1 <;> congr 1 <;> funext n <;> (try simp) <;> ring)

/-- The six stress traces of the dynamic module. -/
noncomputable def packStressDyn {ι : Type*} (zne : Bool) (dist : ℝ) (mu lam : (ι → ℝ) →ₗ[ℝ] (ι → ℝ)) (u : ι → Fin 3 → ℝ)
    (s : ι → Fin 3 → Fin 3 → ℝ) (n : ι) : Fin 6 → ℝ :=
  let f := stressDyn zne dist mu lam u s
  ![f 0 0 n, f 0 1 n, f 0 2 n, f 1 1 n, f 1 2 n, f 2 2 n]

/-- C24, dynamic stress: frequency-dependent moduli do not disturb frame independence. -/
theorem C24_stress_dyn {ι : Type*} (θ dist : ℝ) (mu lam : (ι → ℝ) →ₗ[ℝ] (ι → ℝ)) (u : ι → Fin 3 → ℝ)
    (s : ι → Fin 3 → Fin 3 → ℝ) (n : ι) :
    let u' := fun n => (uparZXY θ (dist * 1e5) (u n) (s n)).1
    let s' := fun n => (uparZXY θ (dist * 1e5) (u n) (s n)).2
    packStressDyn false dist mu lam u s n = rotSymZRT θ (packStressDyn true dist mu lam u' s' n) := by
  intro u' s'
  have t := sin_sq_add_cos_sq θ
  let e : Fin 6 → ι → ℝ := fun i n => packStrain false dist (u n) (s n) i
  let e' : Fin 6 → ι → ℝ := fun i n => packStrain true dist (u' n) (s' n) i
  have he : ∀ i n, e i n = rotSymZRT θ (fun j => e' j n) i := fun i n => congrFun (C24_strain θ dist (u n) (s n)).1 i
  have e0 : e 0 = e' 0 := by funext n; rw [he]; rfl
  have e1 : e 1 = cos θ • e' 1 + sin θ • e' 2 := by funext n; rw [he]; simp [rotSymZRT]; ring
  have e2 : e 2 = (- sin θ) • e' 1 + cos θ • e' 2 := by funext n; rw [he]; simp [rotSymZRT]; ring
  have e3 : e 3 = (cos θ * cos θ) • e' 3 + (sin θ * sin θ) • e' 5 + (2 * (sin θ * cos θ)) • e' 4 := by
    funext n; rw [he]; simp [rotSymZRT]; ring
  have e4 : e 4 = (sin θ * cos θ) • e' 5 + (- (sin θ * cos θ)) • e' 3 + (cos θ * cos θ - sin θ * sin θ) • e' 4 := by
    funext n; rw [he]; simp [rotSymZRT]; ring
  have e5 : e 5 = (sin θ * sin θ) • e' 3 + (cos θ * cos θ) • e' 5 + (- (2 * (sin θ * cos θ))) • e' 4 := by
    funext n; rw [he]; simp [rotSymZRT]; ring
  have et : (fun n => e 0 n + e 3 n + e 5 n) = fun n => e' 0 n + e' 3 n + e' 5 n := by
    funext n; rw [e0, e3, e5]; simp; grind
  have hk := fun c c2 h => C24_hooke_dyn false dist mu lam u s c c2 h
  have hk' := fun c c2 h => C24_hooke_dyn true dist mu lam u' s' c c2 h
  generalize hT : lam (fun n => e' 0 n + e' 3 n + e' 5 n) = T at *
  have k00 : stressDyn false dist mu lam u s 0 0 = (2:ℝ) • mu (e 0) + T := by rw [hk 0 0 (by decide), ← hT, ← et]; rfl
  have k01 : stressDyn false dist mu lam u s 0 1 = (2:ℝ) • mu (e 1) := by rw [hk 0 1 (by decide)]; simp; rfl
  have k02 : stressDyn false dist mu lam u s 0 2 = (2:ℝ) • mu (e 2) := by rw [hk 0 2 (by decide)]; simp; rfl
  have k11 : stressDyn false dist mu lam u s 1 1 = (2:ℝ) • mu (e 3) + T := by rw [hk 1 1 (by decide), ← hT, ← et]; rfl
  have k12 : stressDyn false dist mu lam u s 1 2 = (2:ℝ) • mu (e 4) := by rw [hk 1 2 (by decide)]; simp; rfl
  have k22 : stressDyn false dist mu lam u s 2 2 = (2:ℝ) • mu (e 5) + T := by rw [hk 2 2 (by decide), ← hT, ← et]; rfl
  have j00 : stressDyn true dist mu lam u' s' 0 0 = (2:ℝ) • mu (e' 0) + T := by rw [hk' 0 0 (by decide), ← hT]; rfl
  have j01 : stressDyn true dist mu lam u' s' 0 1 = (2:ℝ) • mu (e' 1) := by rw [hk' 0 1 (by decide)]; simp; rfl
  have j02 : stressDyn true dist mu lam u' s' 0 2 = (2:ℝ) • mu (e' 2) := by rw [hk' 0 2 (by decide)]; simp; rfl
  have j11 : stressDyn true dist mu lam u' s' 1 1 = (2:ℝ) • mu (e' 3) + T := by rw [hk' 1 1 (by decide), ← hT]; rfl
  have j12 : stressDyn true dist mu lam u' s' 1 2 = (2:ℝ) • mu (e' 4) := by rw [hk' 1 2 (by decide)]; simp; rfl
  have j22 : stressDyn true dist mu lam u' s' 2 2 = (2:ℝ) • mu (e' 5) + T := by rw [hk' 2 2 (by decide), ← hT]; rfl
  simp only [packStressDyn, k00, k01, k02, k11, k12, k22, j00, j01, j02, j11, j12, j22, e0, e1, e2, e3, e4, e5, map_add, map_smul]
  clear hk hk' k00 k01 k02 k11 k12 k22 j00 j01 j02 j11 j12 j22 hT et
  generalize mu (e' 0) = m0, mu (e' 1) = m1, mu (e' 2) = m2, mu (e' 3) = m3, mu (e' 4) = m4, mu (e' 5) = m5
  ext i
  fin_cases i <;> simp [rotSymZRT] <;> clear he e0 e1 e2 e3 e4 e5 <;> grind

/-! ### Concrete cases -/

/-- A quarter turn of the north unit vector. -/
example : rotVecZRT (Real.pi / 2) ![0, 1, 0] = ![0, 0, -1] := by
  ext i; fin_cases i <;> simp [rotVecZRT]

/-- Uniform horizontal dilatation `u = r e_r` at distance 1 km, in either frame: strain NN and EE, no shear. -/
example : packStrain false 1 ![0, 1, 0] ![![0, 0, 0], ![0, 1e-5, 0], ![0, 0, 0]] = ![0, 0, 0, 1e-5, 0, 1e-5] ∧
    (uparZXY (Real.pi / 2) 1e5 ![0, 1, 0] ![![0, 0, 0], ![0, 1e-5, 0], ![0, 0, 0]]).2 = ![![0, 0, 0], ![0, 1e-5, 0], ![0, 0, 1e-5]] := by
  have h1 : ¬ IsZero 1 := by unfold IsZero; norm_num
  have h2 : ¬ IsZero (1e5 * 1e-5) := by unfold IsZero; norm_num
  constructor
  · ext i; fin_cases i <;> simp [packStrain, strain, overR, h1] <;> norm_num
  · funext i j; fin_cases i <;> fin_cases j <;> simp [uparZXY, h2] <;> norm_num

/-- Zero distance takes the other branch. -/
example : overR 0 ![0, 5, 0] ![![0, 0, 0], ![0, 3, 0], ![0, 0, 0]] 1 = 3 := by
  have h1 : IsZero 0 := by unfold IsZero; norm_num
  simp [overR, h1]

end GRT.Syn
