import Mathlib.Analysis.Calculus.Deriv.Add
import Mathlib.Analysis.Calculus.Deriv.Mul
import Mathlib.Analysis.SpecialFunctions.Sqrt
import Mathlib.Analysis.SpecialFunctions.Trigonometric.Basic
import Mathlib.Algebra.BigOperators.Fin

/-! What it means for a displacement field to be the static response of an elastic half-space to a point source.  Stated for arbitrary
fields; nothing here refers to okada.c.  Positions are `(x, y, z)` with `z` upward and the free surface at `z = 0`. -/

namespace GRT.Okada.Spec

/-- Positions and vectors. -/
abbrev V3 := Fin 3 → ℝ

/-- `f'` is the partial derivative of `f` along coordinate `i` at `p`. -/
def PartialAt (f : V3 → ℝ) (f' : ℝ) (i : Fin 3) (p : V3) : Prop :=
  HasDerivAt (fun t => f (Function.update p i t)) f' (p i)

/-- `g p i c` is the derivative of component `c` of `u` along coordinate `i`. -/
def IsGradAt (u : V3 → V3) (g : V3 → Fin 3 → V3) (p : V3) : Prop :=
  ∀ i c, PartialAt (fun q => u q c) (g p i c) i p

/-- Hooke's law: the stress belonging to a displacement gradient. -/
def stress (lam mu : ℝ) (g : Fin 3 → V3) (c j : Fin 3) : ℝ :=
  (if c = j then lam * ∑ k, g k k else 0) + mu * (g j c + g c j)

/-- The stresses balance: `Σⱼ ∂ⱼ σ_cj = 0`. -/
def EquilAt (lam mu : ℝ) (g : V3 → Fin 3 → V3) (p : V3) : Prop :=
  ∀ c, ∃ s : Fin 3 → ℝ, (∀ j, PartialAt (fun q => stress lam mu (g q) c j) (s j) j p) ∧ ∑ j, s j = 0

/-- No traction on a horizontal surface through `p`. -/
def TractionFreeAt (lam mu : ℝ) (g : V3 → Fin 3 → V3) (p : V3) : Prop :=
  ∀ c, stress lam mu (g p) c 2 = 0

/-- Kelvin's solution for an unbounded medium: component `c` of the displacement at offset `p` from a unit force along `j`. -/
noncomputable def kelvin (lam mu : ℝ) (c j : Fin 3) (p : V3) : ℝ :=
  let r := √(p 0 ^ 2 + p 1 ^ 2 + p 2 ^ 2)
  1 / (8 * Real.pi * mu) *
    ((if c = j then (lam + 3 * mu) / (lam + 2 * mu) / r else 0) + (lam + mu) / (lam + 2 * mu) * (p c * p j / r ^ 3))

/-- `u` is the displacement at offset `p` from a point source with moment tensor `M` in an unbounded medium: `-Σ M_jk ∂_k G_cj`. -/
def IsMomentField (lam mu : ℝ) (M : Fin 3 → V3) (u : V3) (p : V3) : Prop :=
  ∃ dG : Fin 3 → Fin 3 → Fin 3 → ℝ, (∀ c j k, PartialAt (kelvin lam mu c j) (dG c j k) k p) ∧
    ∀ c, u c = -∑ j, ∑ k, M j k * dG c j k

/-- Moment tensor of a shear dislocation of area × slip `a` with unit normal `n` and slip direction `s`. -/
def shearMoment (mu a : ℝ) (n s : V3) (j k : Fin 3) : ℝ := mu * a * (s j * n k + n j * s k)

/-- Moment tensor of an opening crack of area × opening `a` with unit normal `n`. -/
def openMoment (lam mu a : ℝ) (n : V3) (j k : Fin 3) : ℝ := a * ((if j = k then lam else 0) + 2 * mu * n j * n k)

/-- Moment tensor of an isotropic source of moment `m`. -/
def isoMoment (m : ℝ) (j k : Fin 3) : ℝ := if j = k then m else 0

/-- Sine of a dip in degrees. -/
noncomputable def sinDip (dip : ℝ) : ℝ := Real.sin (dip * Real.pi / 180)

/-- Cosine of a dip in degrees. -/
noncomputable def cosDip (dip : ℝ) : ℝ := Real.cos (dip * Real.pi / 180)

/-- The moment tensor of four sources on a plane that strikes along `x` and dips down towards negative `y`, with sine `sd` and cosine
`cd` of the dip: shear with area × slip `pot1` along strike and `pot2` up the dip, opening `pot3`, and an isotropic moment `mu * pot4`. -/
def moment (lam mu sd cd pot1 pot2 pot3 pot4 : ℝ) (j k : Fin 3) : ℝ :=
  shearMoment mu pot1 ![0, -sd, cd] ![1, 0, 0] j k + shearMoment mu pot2 ![0, -sd, cd] ![0, cd, sd] j k +
    openMoment lam mu pot3 ![0, -sd, cd] j k + isoMoment (mu * pot4) j k

/-- A length that is either zero or at least 10⁻⁶. -/
def Plain (v : ℝ) : Prop := v = 0 ∨ 1 / 1000000 ≤ |v|

/-- Position of the source. -/
def srcPos (depth : ℝ) : V3 := ![0, 0, -depth]

/-- Displacement and gradient are differentiable in the strict sense, not only along the axes. -/
def Total (u : V3 → V3) (g : V3 → Fin 3 → V3) (p : V3) : Prop :=
  (∀ c, DifferentiableAt ℝ (fun q => u q c) p) ∧ ∀ i c, DifferentiableAt ℝ (fun q => g q i c) p

/-- `u`, with gradient `g`, is the response of the half-space `z ≤ 0` to a point source of moment tensor `M` at the given depth: the
stresses balance everywhere but at the source, the surface is free, at the source the field has the singularity of `M`, and the
displacement vanishes far away. -/
structure IsHalfSpace (lam mu : ℝ) (M : Fin 3 → V3) (depth : ℝ) (u : V3 → V3) (g : V3 → Fin 3 → V3) : Prop where
  total : ∀ p, p 2 ≤ 0 → p ≠ srcPos depth → Total u g p
  grad : ∀ p, p 2 ≤ 0 → p ≠ srcPos depth → IsGradAt u g p
  equil : ∀ p, p 2 ≤ 0 → p ≠ srcPos depth → EquilAt lam mu g p
  free : ∀ p, p 2 = 0 → TractionFreeAt lam mu g p
  source : ∃ (v w : V3 → V3) (h : V3 → Fin 3 → V3), (∀ p, u p = v p + w p) ∧
    (∀ p, p ≠ srcPos depth → IsMomentField lam mu M (v p) (p - srcPos depth)) ∧
    ∀ p, p 2 ≤ 0 → Total w h p ∧ IsGradAt w h p ∧ EquilAt lam mu h p
  decay : ∃ C, ∀ p, p 2 ≤ 0 → p ≠ srcPos depth → ∀ c, |u p c| ≤ C / ((p 0) ^ 2 + (p 1) ^ 2 + (p 2 + depth) ^ 2)

theorem PartialAt.add {f g : V3 → ℝ} {f' g' : ℝ} {i : Fin 3} {p : V3} (hf : PartialAt f f' i p) (hg : PartialAt g g' i p) :
    PartialAt (fun q => f q + g q) (f' + g') i p := HasDerivAt.fun_add hf hg

theorem PartialAt.smul {f : V3 → ℝ} {f' : ℝ} {i : Fin 3} {p : V3} (s : ℝ) (hf : PartialAt f f' i p) :
    PartialAt (fun q => s * f q) (s * f') i p := HasDerivAt.const_mul s hf

theorem stress_add (lam mu : ℝ) (g h : Fin 3 → V3) (s : ℝ) (c j : Fin 3) :
    stress lam mu (fun i c => g i c + s * h i c) c j = stress lam mu g c j + s * stress lam mu h c j := by
  simp only [stress, Finset.sum_add_distrib, ← Finset.mul_sum]
  split <;> ring

theorem IsGradAt.addScaled {u v : V3 → V3} {g h : V3 → Fin 3 → V3} {p : V3} (s : ℝ) (hu : IsGradAt u g p) (hv : IsGradAt v h p) :
    IsGradAt (fun q c => u q c + s * v q c) (fun q i c => g q i c + s * h q i c) p :=
  fun i c => (hu i c).add ((hv i c).smul s)

theorem EquilAt.addScaled {lam mu : ℝ} {g h : V3 → Fin 3 → V3} {p : V3} (s : ℝ) (hu : EquilAt lam mu g p) (hv : EquilAt lam mu h p) :
    EquilAt lam mu (fun q i c => g q i c + s * h q i c) p := by
  intro c
  obtain ⟨a, ha, ha0⟩ := hu c
  obtain ⟨b, hb, hb0⟩ := hv c
  refine ⟨fun j => a j + s * b j, fun j => ?_, ?_⟩
  · simp only [stress_add]
    exact (ha j).add ((hb j).smul s)
  · rw [Finset.sum_add_distrib, ← Finset.mul_sum, ha0, hb0]
    ring

theorem TractionFreeAt.addScaled {lam mu : ℝ} {g h : V3 → Fin 3 → V3} {p : V3} (s : ℝ) (hu : TractionFreeAt lam mu g p)
    (hv : TractionFreeAt lam mu h p) : TractionFreeAt lam mu (fun q i c => g q i c + s * h q i c) p := by
  intro c
  rw [stress_add, hu c, hv c]
  ring

end GRT.Okada.Spec
