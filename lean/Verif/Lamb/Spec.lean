import Mathlib.Analysis.SpecialFunctions.Pow.Complex
import Mathlib.Analysis.SpecialFunctions.Trigonometric.Basic
import Mathlib.MeasureTheory.Integral.IntervalIntegral.Basic
import Mathlib.Data.Fin.VecNotation
import Mathlib.Tactic.LinearCombination
import Mathlib.Tactic.FieldSimp
import Mathlib.Tactic.FinCases

/-! Specification for C106, without reference to the program: waves in an elastic half-space `z ≥ 0` loaded on its surface, in the unit
of slowness of the S wave; `kk` is the square of the ratio of the S to the P speed.  A field `A exp (s (t − K·x))` has slowness `K`. -/

namespace GRT.Lamb.Spec

open Complex MeasureTheory Filter Topology

/-- `∇·u`, up to the factor `−s`. -/
def dot (K A : Fin 3 → ℂ) : ℂ := K 0 * A 0 + K 1 * A 1 + K 2 * A 2

/-- The equation of motion `ρ ü = (λ + μ) ∇∇·u + μ ∇²u` for the field `A exp (s (t − K·x))`, over `μ s²`. -/
def Wave (kk : ℝ) (K A : Fin 3 → ℂ) : Prop := ∀ i, A i = (1 / (kk : ℂ) - 1) * K i * dot K A + dot K K * A i

/-- Traction that the field exerts across a horizontal plane, over `μ s`: `λ ∇·u δ + μ (∂_z u_i + ∂_i u_z)`. -/
noncomputable def traction (kk : ℝ) (K A : Fin 3 → ℂ) (i : Fin 3) : ℂ :=
  K 2 * A i + K i * A 2 + if i = 2 then (1 / (kk : ℂ) - 2) * dot K A else 0

/-- A P and an S wave of the horizontal slowness `(kx, ky)`, with vertical slownesses `u` and `v`, move the surface by `D` under the load `F`. -/
def Responds (kk : ℝ) (kx ky u v : ℂ) (F D : Fin 3 → ℂ) : Prop :=
  ∃ P S : Fin 3 → ℂ, Wave kk ![kx, ky, u] P ∧ Wave kk ![kx, ky, v] S ∧
    (∀ i, traction kk ![kx, ky, u] P i + traction kk ![kx, ky, v] S i = F i) ∧ ∀ i, P i + S i = D i

/-- The square root with nonnegative real part. -/
noncomputable def root (z : ℂ) : ℂ := z ^ (1 / 2 : ℂ)

/-- `G i j` is the motion along `i` under a unit load along `j`, with waves that decay downwards. -/
def IsCompliance (kk : ℝ) (kx ky : ℂ) (G : Fin 3 → Fin 3 → ℂ) : Prop :=
  ∀ j, Responds kk kx ky (root (kk - (kx ^ 2 + ky ^ 2))) (root (1 - (kx ^ 2 + ky ^ 2))) (fun i => if i = j then 1 else 0) (fun i => G i j)

/-- The horizontal slownesses on the contour of Cagniard for the time `t` (in units of the S arrival) and the azimuth `phi`. -/
noncomputable def contour (phi t : ℝ) (p : ℂ) : ℂ × ℂ :=
  (t * Real.cos phi + I * p * Real.sin phi, t * Real.sin phi - I * p * Real.cos phi)

/-- `G p` is the compliance, on the contour and beside it, wherever there is one.  (There is none where the S slowness vanishes, nor for
the slowness of the Rayleigh wave.) -/
def AlongContour (kk phi t : ℝ) (G : ℂ → Fin 3 → Fin 3 → ℂ) : Prop :=
  ∀ p, (∃ G', IsCompliance kk (contour phi t p).1 (contour phi t p).2 G') → IsCompliance kk (contour phi t p).1 (contour phi t p).2 (G p)

/-- The two halves of the contour together. -/
noncomputable def halves (G : ℂ → Fin 3 → Fin 3 → ℂ) (i j : Fin 3) (p : ℂ) : ℂ := (G p i j + G (-p) i j) / 2

/-- `v` is the integral of `-Im (h dp)` from 0 to `a`. -/
def Straight (h : ℂ → ℂ) (a v : ℝ) : Prop :=
  IntervalIntegrable (fun p : ℝ => -(h p).im) volume 0 a ∧ ∫ p in 0..a, -(h p).im = v

/-- The half circle above `q`, in the sense from `q - δ` to `q + δ`. -/
noncomputable def arc (q δ φ : ℝ) : ℂ := q - δ * exp (-(φ * I))

/-- `-Im (h dp)` on the half circle. -/
noncomputable def onArc (h : ℂ → ℂ) (q δ φ : ℝ) : ℝ := -(h (arc q δ φ) * (I * δ * exp (-(φ * I)))).im

/-- `v` is the integral of `-Im (h dp)` from 0 to `a`, on a path that goes above the pole `q`, where `h` continues its values on the path. -/
def Indented (h : ℂ → ℂ) (q a v : ℝ) : Prop :=
  (∀ᶠ δ in 𝓝[>] (0 : ℝ), IntervalIntegrable (fun p : ℝ => -(h p).im) volume 0 (q - δ) ∧ IntervalIntegrable (onArc h q δ) volume 0 Real.pi ∧
      IntervalIntegrable (fun p : ℝ => -(h p).im) volume (q + δ) a) ∧
    Tendsto (fun δ => (∫ p in 0..q - δ, -(h p).im) + (∫ φ in 0..Real.pi, onArc h q δ φ) + ∫ p in q + δ..a, -(h p).im) (𝓝[>] 0) (𝓝 v)

/-- The response `v` along `i` to a load along `j`: the integral over the contour, above the slowness of the Rayleigh wave once the
contour reaches it; `kr` is the ratio of the S to the Rayleigh speed. -/
def Response (kk kr t : ℝ) (G : ℂ → Fin 3 → Fin 3 → ℂ) (i j : Fin 3) (v : ℝ) : Prop :=
  if t < kr then Straight (halves G i j) √(t ^ 2 - kk) v else Indented (halves G i j) √(t ^ 2 - kr ^ 2) √(t ^ 2 - kk) v

/-- The compliance in closed form. -/
noncomputable def comp (kx ky u v : ℂ) : Fin 3 → Fin 3 → ℂ :=
  let s := kx ^ 2 + ky ^ 2
  let γ := 1 - 2 * s
  let σ := γ ^ 2 + 4 * u * v * s
  ![![(v * (1 - 2 * ky ^ 2) - (γ - 4 * u * v) * ky ^ 2 / v) / σ, (2 * v * kx * ky + (γ - 4 * u * v) * kx * ky / v) / σ, kx * (γ - 2 * u * v) / σ],
    ![(2 * v * kx * ky + (γ - 4 * u * v) * kx * ky / v) / σ, (v * (1 - 2 * kx ^ 2) - (γ - 4 * u * v) * kx ^ 2 / v) / σ, ky * (γ - 2 * u * v) / σ],
    ![-(kx * (γ - 2 * u * v) / σ), -(ky * (γ - 2 * u * v) / σ), u / σ]]

section

variable {kk : ℝ} {kx ky u v : ℂ}

/-- A load has one response, the one of the closed form. -/
theorem responds_unique (hk0 : (kk : ℂ) ≠ 0) (hk1 : (kk : ℂ) ≠ 1) (hu : u * u = kk - (kx ^ 2 + ky ^ 2)) (hv : v * v = 1 - (kx ^ 2 + ky ^ 2)) (v0 : v ≠ 0)
    (hs : (1 - 2 * (kx ^ 2 + ky ^ 2)) ^ 2 + 4 * u * v * (kx ^ 2 + ky ^ 2) ≠ 0) {F D : Fin 3 → ℂ} (h : Responds kk kx ky u v F D) (i : Fin 3) :
    D i = comp kx ky u v i 0 * F 0 + comp kx ky u v i 1 * F 1 + comp kx ky u v i 2 * F 2 := by
  obtain ⟨P, S, hP, hS, hT, hD⟩ := h
  -- the P wave is along its slowness
  have hkk1 : 1 - (kk : ℂ) ≠ 0 := by intro h; apply hk1; linear_combination -h
  set φ := dot ![kx, ky, u] P / kk with hφ
  have hP' : ∀ i, P i = ![kx, ky, u] i * φ := by
    intro i
    have h1 := hP i
    have h2 : dot ![kx, ky, u] ![kx, ky, u] = kk := by
      simp only [dot, Matrix.cons_val]
      linear_combination hu
    rw [h2] at h1
    have h3 : (1 - (kk : ℂ)) * (P i - ![kx, ky, u] i * φ) = 0 := by
      have h4 : (1 / (kk : ℂ) - 1) * dot ![kx, ky, u] P = (1 - kk) * φ := by rw [hφ]; field_simp
      linear_combination h1 + ![kx, ky, u] i * h4
    have := (mul_eq_zero.mp h3).resolve_left hkk1
    linear_combination this
  -- the S wave is across
  have hS' : dot ![kx, ky, v] S = 0 := by
    have h2 : dot ![kx, ky, v] ![kx, ky, v] = 1 := by
      simp only [dot, Matrix.cons_val]
      linear_combination hv
    have h3 := hS 2
    rw [h2] at h3
    have h4 : (1 / (kk : ℂ) - 1) * v * dot ![kx, ky, v] S = 0 := by
      simp only [Matrix.cons_val] at h3
      linear_combination -h3
    have h5 : 1 / (kk : ℂ) - 1 ≠ 0 := by
      intro h; apply hk1; field_simp at h; linear_combination -h
    exact (mul_eq_zero.mp h4).resolve_left (mul_ne_zero h5 v0)
  have h2 : dot ![kx, ky, u] P = kk * φ := by rw [hφ]; field_simp
  have t0 := hT 0
  have t1 := hT 1
  have t2 := hT 2
  have f1 : (1 / (kk : ℂ) - 2) * dot ![kx, ky, u] P = (1 - 2 * kk) * φ := by rw [h2]; field_simp
  simp only [traction, f1, hS'] at t0 t1 t2
  rw [hP' 0, hP' 2] at t0
  rw [hP' 1, hP' 2] at t1
  rw [hP' 2] at t2
  simp only [Matrix.cons_val, dot] at t0 t1 t2 hS'
  rw [if_neg (by decide : ¬(0 : Fin 3) = 2), if_neg (by decide : ¬(0 : Fin 3) = 2)] at t0
  rw [if_neg (by decide : ¬(1 : Fin 3) = 2), if_neg (by decide : ¬(1 : Fin 3) = 2)] at t1
  simp only [if_true, mul_zero, add_zero] at t0 t1 t2
  have g : (1 - 2 * (kx ^ 2 + ky ^ 2)) * φ + 2 * v * S 2 = F 2 := by linear_combination t2 - 2 * φ * hu
  have l : 2 * u * (kx ^ 2 + ky ^ 2) * φ - (1 - 2 * (kx ^ 2 + ky ^ 2)) * S 2 = kx * F 0 + ky * F 1 := by
    linear_combination kx * t0 + ky * t1 - v * hS' + S 2 * hv
  have e1 : ((1 - 2 * (kx ^ 2 + ky ^ 2)) ^ 2 + 4 * u * v * (kx ^ 2 + ky ^ 2)) * φ =
      (1 - 2 * (kx ^ 2 + ky ^ 2)) * F 2 + 2 * v * (kx * F 0 + ky * F 1) := by
    linear_combination (1 - 2 * (kx ^ 2 + ky ^ 2)) * g + 2 * v * l
  have e2 : ((1 - 2 * (kx ^ 2 + ky ^ 2)) ^ 2 + 4 * u * v * (kx ^ 2 + ky ^ 2)) * S 2 =
      2 * u * (kx ^ 2 + ky ^ 2) * F 2 - (1 - 2 * (kx ^ 2 + ky ^ 2)) * (kx * F 0 + ky * F 1) := by
    linear_combination 2 * u * (kx ^ 2 + ky ^ 2) * g - (1 - 2 * (kx ^ 2 + ky ^ 2)) * l
  rw [← hD i, hP' i]
  fin_cases i
  · have hc : comp kx ky u v 0 0 * F 0 + comp kx ky u v 0 1 * F 1 + comp kx ky u v 0 2 * F 2 =
        ((v * v * (1 - 2 * ky ^ 2) - (1 - 2 * (kx ^ 2 + ky ^ 2) - 4 * u * v) * ky ^ 2) * F 0 +
          (2 * v * v * kx * ky + (1 - 2 * (kx ^ 2 + ky ^ 2) - 4 * u * v) * kx * ky) * F 1 + kx * (1 - 2 * (kx ^ 2 + ky ^ 2) - 2 * u * v) * v * F 2) /
        (v * ((1 - 2 * (kx ^ 2 + ky ^ 2)) ^ 2 + 4 * u * v * (kx ^ 2 + ky ^ 2))) := by
      simp only [comp, Matrix.cons_val]
      field_simp
    show kx * φ + S 0 = comp kx ky u v 0 0 * F 0 + comp kx ky u v 0 1 * F 1 + comp kx ky u v 0 2 * F 2
    rw [hc, eq_div_iff (mul_ne_zero v0 hs)]
    linear_combination ((1 - 2 * (kx ^ 2 + ky ^ 2)) ^ 2 + 4 * u * v * (kx ^ 2 + ky ^ 2)) * t0 + (kx * v - 2 * u * kx) * e1 - kx * e2 +
      (-(1 - 2 * (kx ^ 2 + ky ^ 2)) * F 0 + 2 * u * kx * F 2) * hv
  · have hc : comp kx ky u v 1 0 * F 0 + comp kx ky u v 1 1 * F 1 + comp kx ky u v 1 2 * F 2 =
        ((v * v * (1 - 2 * kx ^ 2) - (1 - 2 * (kx ^ 2 + ky ^ 2) - 4 * u * v) * kx ^ 2) * F 1 +
          (2 * v * v * kx * ky + (1 - 2 * (kx ^ 2 + ky ^ 2) - 4 * u * v) * kx * ky) * F 0 + ky * (1 - 2 * (kx ^ 2 + ky ^ 2) - 2 * u * v) * v * F 2) /
        (v * ((1 - 2 * (kx ^ 2 + ky ^ 2)) ^ 2 + 4 * u * v * (kx ^ 2 + ky ^ 2))) := by
      simp only [comp, Matrix.cons_val]
      field_simp
      ring
    show ky * φ + S 1 = comp kx ky u v 1 0 * F 0 + comp kx ky u v 1 1 * F 1 + comp kx ky u v 1 2 * F 2
    rw [hc, eq_div_iff (mul_ne_zero v0 hs)]
    linear_combination ((1 - 2 * (kx ^ 2 + ky ^ 2)) ^ 2 + 4 * u * v * (kx ^ 2 + ky ^ 2)) * t1 + (ky * v - 2 * u * ky) * e1 - ky * e2 +
      (-(1 - 2 * (kx ^ 2 + ky ^ 2)) * F 1 + 2 * u * ky * F 2) * hv
  · have hc : comp kx ky u v 2 0 * F 0 + comp kx ky u v 2 1 * F 1 + comp kx ky u v 2 2 * F 2 =
        (u * F 2 + (2 * u * v - (1 - 2 * (kx ^ 2 + ky ^ 2))) * (kx * F 0 + ky * F 1)) /
        ((1 - 2 * (kx ^ 2 + ky ^ 2)) ^ 2 + 4 * u * v * (kx ^ 2 + ky ^ 2)) := by
      simp only [comp, Matrix.cons_val]
      ring
    show u * φ + S 2 = comp kx ky u v 2 0 * F 0 + comp kx ky u v 2 1 * F 1 + comp kx ky u v 2 2 * F 2
    rw [hc, eq_div_iff hs]
    linear_combination u * e1 + e2

/-- The closed form is a response. -/
theorem comp_responds (hk0 : (kk : ℂ) ≠ 0) (hk1 : (kk : ℂ) ≠ 1) (hu : u * u = kk - (kx ^ 2 + ky ^ 2)) (hv : v * v = 1 - (kx ^ 2 + ky ^ 2)) (v0 : v ≠ 0)
    (hs : (1 - 2 * (kx ^ 2 + ky ^ 2)) ^ 2 + 4 * u * v * (kx ^ 2 + ky ^ 2) ≠ 0) (F : Fin 3 → ℂ) :
    Responds kk kx ky u v F (fun i => comp kx ky u v i 0 * F 0 + comp kx ky u v i 1 * F 1 + comp kx ky u v i 2 * F 2) := by
  set σ := (1 - 2 * (kx ^ 2 + ky ^ 2)) ^ 2 + 4 * u * v * (kx ^ 2 + ky ^ 2) with hσ
  set φ := ((1 - 2 * (kx ^ 2 + ky ^ 2)) * F 2 + 2 * v * (kx * F 0 + ky * F 1)) / σ with hφ
  set z := (2 * u * (kx ^ 2 + ky ^ 2) * F 2 - (1 - 2 * (kx ^ 2 + ky ^ 2)) * (kx * F 0 + ky * F 1)) / σ with hz
  set S0 := (F 0 - 2 * u * kx * φ - kx * z) / v with hS0
  set S1 := (F 1 - 2 * u * ky * φ - ky * z) / v with hS1
  have e1 : φ * σ = (1 - 2 * (kx ^ 2 + ky ^ 2)) * F 2 + 2 * v * (kx * F 0 + ky * F 1) := by rw [hφ, div_mul_cancel₀ _ hs]
  have e2 : z * σ = 2 * u * (kx ^ 2 + ky ^ 2) * F 2 - (1 - 2 * (kx ^ 2 + ky ^ 2)) * (kx * F 0 + ky * F 1) := by rw [hz, div_mul_cancel₀ _ hs]
  have e3 : S0 * v = F 0 - 2 * u * kx * φ - kx * z := by rw [hS0, div_mul_cancel₀ _ v0]
  have e4 : S1 * v = F 1 - 2 * u * ky * φ - ky * z := by rw [hS1, div_mul_cancel₀ _ v0]
  have g : (1 - 2 * (kx ^ 2 + ky ^ 2)) * φ + 2 * v * z = F 2 := by
    apply mul_right_cancel₀ hs
    linear_combination (1 - 2 * (kx ^ 2 + ky ^ 2)) * e1 + 2 * v * e2 - F 2 * hσ
  have l : 2 * u * (kx ^ 2 + ky ^ 2) * φ - (1 - 2 * (kx ^ 2 + ky ^ 2)) * z = kx * F 0 + ky * F 1 := by
    apply mul_right_cancel₀ hs
    linear_combination 2 * u * (kx ^ 2 + ky ^ 2) * e1 - (1 - 2 * (kx ^ 2 + ky ^ 2)) * e2 - (kx * F 0 + ky * F 1) * hσ
  have hd : kx * S0 + ky * S1 + v * z = 0 := by
    apply mul_right_cancel₀ v0
    linear_combination kx * e3 + ky * e4 + z * hv - l
  have hdot : dot ![kx, ky, v] ![S0, S1, z] = 0 := by simp only [dot, Matrix.cons_val]; exact hd
  have hK : dot ![kx, ky, u] ![kx * φ, ky * φ, u * φ] = kk * φ := by simp only [dot, Matrix.cons_val]; linear_combination φ * hu
  have hR : Responds kk kx ky u v F (fun i => ![kx * φ, ky * φ, u * φ] i + ![S0, S1, z] i) := by
    refine ⟨![kx * φ, ky * φ, u * φ], ![S0, S1, z], ?_, ?_, ?_, fun i => rfl⟩
    · intro i
      rw [hK]
      have : dot ![kx, ky, u] ![kx, ky, u] = kk := by simp only [dot, Matrix.cons_val]; linear_combination hu
      rw [this]
      fin_cases i <;> simp only [Matrix.cons_val, Fin.zero_eta, Fin.mk_one, Fin.reduceFinMk] <;> field_simp <;> ring
    · intro i
      have : dot ![kx, ky, v] ![kx, ky, v] = 1 := by simp only [dot, Matrix.cons_val]; linear_combination hv
      rw [hdot, this]; ring
    · intro i
      simp only [traction, hdot, hK]
      fin_cases i
      · simp
        linear_combination e3
      · simp
        linear_combination e4
      · simp
        have : ((kk : ℂ)⁻¹ - 2) * (kk * φ) = (1 - 2 * kk) * φ := by field_simp
        linear_combination g + this + 2 * φ * hu
  have := fun i => responds_unique hk0 hk1 hu hv v0 hs hR i
  convert hR using 1
  funext i
  exact (this i).symm

end

end GRT.Lamb.Spec
