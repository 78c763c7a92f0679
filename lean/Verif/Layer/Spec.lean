import Verif.Layer.Model
import Mathlib.Data.Matrix.Mul
import Mathlib.LinearAlgebra.Matrix.Notation
import Mathlib.Tactic.FieldSimp
import Mathlib.Tactic.LinearCombination
import Mathlib.Tactic.Ring

/-! Specification of plane-layer elastic waves, written from Hooke's law and not from the code:
displacement `(q, w)` in the horizontal/vertical vector basis at wavenumber `k` (depth positive
down), potentials `f` (P) and `g` (S), normal traction `s` and shear traction `t`. -/

namespace GRT.Layer

open GRT.RT Matrix

variable {K : Type*} [Field K]

/-- An isotropic medium. -/
structure Medium (K : Type*) where
  rho : K
  lam : K
  mu : K

/-- Displacement and traction on a horizontal plane. -/
@[ext] structure MS (K : Type*) where
  q : K
  w : K
  s : K
  t : K

/-- Displacement `q = k f + g'`, `w = f' + k g`, and tractions by Hooke's law
`s = λ (w' - k q) + 2 μ w'`, `t = μ (q' + k w)`, from the potentials and their first two depth
derivatives. -/
def hooke (k : K) (m : Medium K) (f f1 f2 g g1 g2 : K) : MS K :=
  let q := k * f + g1
  let w := f1 + k * g
  let q' := k * f1 + g2
  let w' := f2 + k * g1
  ⟨q, w, m.lam * (w' - k * q) + 2 * m.mu * w', m.mu * (q' + k * w)⟩

/-- The state on a plane where the upgoing (`e^{+k x z}`) amplitudes are `u` and the downgoing
(`e^{-k x z}`) amplitudes are `d`; entry 0 is P, entry 1 is S.  There is no S wave in a liquid. -/
def psvState (k : K) (m : Medium K) (l : Lay K) (u d : Fin 2 → K) : MS K :=
  if l.liquid then
    hooke k m (u 0 + d 0) (k * l.xa * (u 0 - d 0)) ((k * l.xa)^2 * (u 0 + d 0)) 0 0 0
  else
    hooke k m (u 0 + d 0) (k * l.xa * (u 0 - d 0)) ((k * l.xa)^2 * (u 0 + d 0))
      (u 1 + d 1) (k * l.xb * (u 1 - d 1)) ((k * l.xb)^2 * (u 1 + d 1))

/-- Welded contact, except that nothing is asked of the tangential displacement when one side is
liquid. -/
def Contact (l1 l2 : Lay K) (a b : MS K) : Prop :=
  a.w = b.w ∧ a.s = b.s ∧ a.t = b.t ∧ (l1.liquid = false → l2.liquid = false → a.q = b.q)

/-- The wave parameters of `l` belong to medium `m` at phase velocity `c`:
`caca = c²/α²`, `cbcb = c²/β²`, `xa² = 1 - caca`, `xb² = 1 - cbcb` with `ρα² = λ+2μ`, `ρβ² = μ`. -/
structure Fits (c : K) (l : Lay K) (m : Medium K) : Prop where
  rho : l.rho = m.rho
  rho0 : m.rho ≠ 0
  mu : l.mu = m.mu
  xa : l.xa * l.xa = 1 - l.caca
  xb : l.xb * l.xb = 1 - l.cbcb
  ca : (m.lam + 2 * m.mu) * l.caca = m.rho * (c * c)
  liq : l.liquid = true → m.mu = 0
  sol : l.liquid = false → m.mu ≠ 0 ∧ m.mu * l.cbcb = m.rho * (c * c)

/-- SH: displacement `v` and traction `μ v'`. -/
structure SHS (K : Type*) where
  v : K
  t : K

/-- SH state for up/down amplitudes `u`, `d`; amplitudes are scaled by `k` as for P-SV. -/
def shState (k : K) (m : Medium K) (l : Lay K) (u d : K) : SHS K :=
  ⟨k * (u + d), m.mu * (k * (k * l.xb * (u - d)))⟩

end GRT.Layer
