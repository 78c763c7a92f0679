import Verif.Layer.PropsIface

/-! Model of `pygrt/C_extension/src/dynamic/source.c` and C17: the coefficients are the wave amplitudes
radiated by point forces and moment tensors. -/

set_option linter.unusedSectionVars false

namespace GRT.Layer

open GRT.RT Matrix

variable {K : Type*} [Field K] [CharZero K] [DecidableEq K]

/-! ### Model -/

/-- The source types, in the order of the rows of `cplxChnlGrid` (explosion, vertical force, horizontal
force, dip-slip 45°, dip-slip 90°, strike-slip), const.h. -/
inductive Src | EX | VF | HF | DD | DS | SS
  deriving DecidableEq, Repr

/-- What `grt_source_coef` leaves in one row of `src_coefD` and `src_coefU`: P, SV and SH amplitudes. -/
structure SrcRow (K : Type*) where
  D : Fin 2 → K
  U : Fin 2 → K
  DL : K
  UL : K

/-- `_source_PSV` and `_source_SH` after the zeroing of `grt_source_coef`, source.c 19-74.  Every row is
written, so a zero `xa` or `xb` makes the whole table undefined (division not tested). -/
def srcRow (k : K) (l : Lay K) (t : Src) : Out (SrcRow K) :=
  if l.xa = 0 ∨ l.xb = 0 then .undef
  else .ok (match t with
    | .EX => ⟨![(l.caca / l.xa) * k, 0], ![(l.caca / l.xa) * k, 0], 0, 0⟩
    | .VF => ⟨![-1, -1 / l.xb], ![1, -1 / l.xb], 0, 0⟩
    | .HF => ⟨![-1 / l.xa, -1], ![-1 / l.xa, 1], l.cbcb / l.xb, l.cbcb / l.xb⟩
    | .DD => ⟨![((2*l.caca - 3) / l.xa) * k, -3*k], ![((2*l.caca - 3) / l.xa) * k, 3*k], 0, 0⟩
    | .DS => ⟨![2*k, ((2 - l.cbcb) / l.xb) * k], ![-(2*k), ((2 - l.cbcb) / l.xb) * k],
              - l.cbcb * k, l.cbcb * k⟩
    | .SS => ⟨![- (1 / l.xa) * k, -k], ![- (1 / l.xa) * k, k], (l.cbcb / l.xb) * k, (l.cbcb / l.xb) * k⟩)

/-! ### Specification

Displacement is expanded in surface harmonics `Y` of wavenumber `k`: `q` multiplies `∇Y / k`, `w`
multiplies `Y e_z`, `v` multiplies the transverse `e_z × ∇Y / k` (up to sign).  A body force
`F0 δ(z) + F1 δ'(z)` in these components makes the motion-stress vector jump by `F0 + A F1`, `A` being the
matrix of the equations of motion (a couple of opposite forces at distance ε moves `(e^{Aε} - 1)/ε F1`). -/

/-- Components of a body force concentrated at one depth. -/
structure Force (K : Type*) [Zero K] where
  q0 : K := 0
  w0 : K := 0
  v0 : K := 0
  q1 : K := 0
  w1 : K := 0
  v1 : K := 0

/-- The right hand side of the P-SV equations of motion (`Motion` in Depth.lean) as a map of the
motion-stress vector. -/
def motionRhs (k om2 : K) (m : Medium K) (y : MS K) : MS K :=
  ⟨- k * y.w + y.t / m.mu, (y.s + m.lam * k * y.q) / (m.lam + 2 * m.mu),
   k * y.t - m.rho * om2 * y.w,
   - k * m.lam * ((y.s + m.lam * k * y.q) / (m.lam + 2 * m.mu) - k * y.q)
          + 2 * m.mu * k^2 * y.q - m.rho * om2 * y.q⟩

/-- Jump of the motion-stress vector across the source (below minus above); a force enters the balance
`traction' = … - F`. -/
def jump (k om2 : K) (m : Medium K) (F : Force K) : MS K :=
  let a := motionRhs k om2 m ⟨0, 0, -F.w1, -F.q1⟩
  ⟨a.q, a.w, -F.w0 + a.s, -F.q0 + a.t⟩

/-- The same for SH: `v' = t/μ`, `t' = μk²v - ρω²v - F`. -/
def jumpSH (m : Medium K) (F : Force K) : SHS K := ⟨-F.v1 / m.mu, -F.v0⟩

/-- A unit force `α ∇Y/k` (horizontal), with transverse part `β`. -/
def forceH (a b : K) : Force K := { q0 := a, v0 := b }
/-- A vertical force. -/
def forceV (a : K) : Force K := { w0 := a }
/-- An axisymmetric moment tensor with vertical component `mz` and horizontal components `mh`:
`f = -div (M δ)` has `∇`-component `-k mh δ` and vertical component `-mz δ'`. -/
def momentDiag (k mz mh : K) : Force K := { q0 := -k * mh, w1 := -mz }
/-- A vertical-horizontal couple: the horizontal force `(a, b)` moved down (`-(a,b) δ'`) and the
conjugate vertical force whose strength is minus the divergence of the horizontal pattern (`k a δ`). -/
def momentVH (k a b : K) : Force K := { q1 := -a, v1 := -b, w0 := k * a }
/-- A horizontal-horizontal couple of order 2: only horizontal force `(k a, k b) δ`. -/
def momentHH (k a b : K) : Force K := { q0 := k * a, v0 := k * b }

/-- The six sources.  `f` is the common normalisation. -/
def srcForce (k f : K) : Src → Force K
  | .EX => momentDiag k (-f) (-f)
  | .VF => forceV (-f)
  | .HF => forceH (-f) f
  | .DD => momentDiag k (-(2 * f)) f
  | .DS => momentVH k f (-f)
  | .SS => momentHH k (-f) f

/-! ### C17 -/

/-- The states on the two sides of the source plane differ by the state of the radiated waves alone. -/
theorem psvState_sub (k : K) (m : Medium K) (l : Lay K) (u d SD SU : Fin 2 → K) :
    let a := psvState k m l (u + SU) d
    let b := psvState k m l u (d + SD)
    let r := psvState k m l (-SU) SD
    b.q - a.q = r.q ∧ b.w - a.w = r.w ∧ b.s - a.s = r.s ∧ b.t - a.t = r.t := by
  cases e : l.liquid <;> simp only [psvState, hooke, e, if_true, if_false, Bool.false_eq_true, Pi.add_apply, Pi.neg_apply] <;>
    refine ⟨?_, ?_, ?_, ?_⟩ <;> ring

/-- C17 (P-SV): in a solid, for each of the six sources, the waves radiated up (`U`) and down (`D`) make
displacement and traction jump exactly as the point force or moment tensor requires. `d`, `u` are the
waves arriving from above and below. -/
theorem C17_jump_PSV {c k : K} {l : Lay K} {m : Medium K} (h : Fits c l m) (e : l.liquid = false)
    (hlam : m.lam + 2 * m.mu ≠ 0) {t : Src} {R : SrcRow K} (hR : srcRow k l t = .ok R) (u d : Fin 2 → K) :
    let f := 2 * m.rho * (c * k)^2
    let a := psvState k m l (u + R.U) d
    let b := psvState k m l u (d + R.D)
    let j := jump k ((c * k)^2) m (srcForce k f t)
    b.q - a.q = j.q ∧ b.w - a.w = j.w ∧ b.s - a.s = j.s ∧ b.t - a.t = j.t := by
  obtain ⟨hm, hb⟩ := h.sol e
  intro f a b j
  obtain ⟨h1, h2, h3, h4⟩ := psvState_sub k m l u d R.D R.U
  simp only [a, b, h1, h2, h3, h4]
  rw [psvState_solid h e]
  unfold srcRow at hR
  split at hR
  · cases hR
  rename_i hx
  rw [not_or] at hx
  obtain ⟨xa0, xb0⟩ := hx
  injection hR with hR
  have hxa := h.xa; have hxb := h.xb; have hca := h.ca
  have hla : (m.lam + 2 * m.mu) * l.caca = m.mu * l.cbcb := by rw [hca, hb]
  have hf : f = 2 * (m.mu * l.cbcb) * k^2 := by simp only [f]; rw [hb]; ring
  have hrc : m.rho * (c*k)^2 = m.mu * l.cbcb * k^2 := by linear_combination -k^2 * hb
  have hW : f / (m.lam + 2 * m.mu) = 2 * l.caca * k^2 := by
    rw [div_eq_iff hlam, hf, ← hla]; ring
  have hT : f / m.mu = 2 * l.cbcb * k^2 := by
    rw [div_eq_iff hm, hf]; ring
  have hl2 : m.lam = (m.lam + 2 * m.mu) - 2 * m.mu := by ring
  have r1 : l.caca / l.xa * l.xa = l.caca := div_mul_cancel₀ _ xa0
  have r2 : (-1) / l.xb * l.xb = -1 := div_mul_cancel₀ _ xb0
  have r3 : (-1) / l.xa * l.xa = -1 := div_mul_cancel₀ _ xa0
  have r4 : (2 * l.caca - 3) / l.xa * l.xa = 2 * l.caca - 3 := div_mul_cancel₀ _ xa0
  have r5 : (2 - l.cbcb) / l.xb * l.xb = 2 - l.cbcb := div_mul_cancel₀ _ xb0
  have r6 : 1 / l.xa * l.xa = 1 := div_mul_cancel₀ _ xa0
  have hW1 : -f / (m.lam + 2 * m.mu) = -(2 * l.caca * k^2) := by rw [neg_div, hW]
  have hW2 : -(2 * f) / (m.lam + 2 * m.mu) = -(2 * (2 * l.caca * k^2)) := by rw [neg_div, mul_div_assoc, hW]
  subst hR
  cases t <;> simp only [j, jump, motionRhs, srcForce, momentDiag, momentVH, momentHH, forceH, forceV, Pi.neg_apply,
    Matrix.cons_val_zero, Matrix.cons_val_one, neg_zero, mul_zero, zero_div, add_zero, zero_add, sub_zero, neg_neg, hW1, hW2, hT]
  · refine ⟨by ring, ?_, by ring, ?_⟩
    · linear_combination (-2 * k^2) * r1
    · rw [hf]; linear_combination (-4 * m.mu * k^3) * r1 + (-2 * k^3) * hla
  · refine ⟨?_, by ring, ?_, by ring⟩
    · linear_combination (-2 * k) * r2
    · rw [hf]; linear_combination (-4 * m.mu * k^2) * r2
  · refine ⟨by ring, ?_, by ring, ?_⟩
    · linear_combination (-2 * k) * r3
    · rw [hf]; linear_combination (-4 * m.mu * k^2) * r3
  · refine ⟨by ring, ?_, by ring, ?_⟩
    · linear_combination (-2 * k^2) * r4
    · rw [hf]; linear_combination (-4 * m.mu * k^3) * r4 + (-4 * k^3) * hla
  · refine ⟨?_, by ring, ?_, by ring⟩
    · linear_combination (-2 * k^2) * r5
    · linear_combination (-4 * m.mu * k^3) * r5
  · refine ⟨by ring, ?_, by ring, ?_⟩
    · linear_combination (2 * k^2) * r6
    · rw [hf]; linear_combination (4 * m.mu * k^3) * r6

/-- C17 (SH). -/
theorem C17_jump_SH {c k : K} {l : Lay K} {m : Medium K} (h : Fits c l m) (e : l.liquid = false)
    {t : Src} {R : SrcRow K} (hR : srcRow k l t = .ok R) (u d : K) :
    let f := 2 * m.rho * (c * k)^2
    let a := shState k m l (u + R.UL) d
    let b := shState k m l u (d + R.DL)
    let j := jumpSH m (srcForce k f t)
    b.v - a.v = j.v ∧ b.t - a.t = j.t := by
  obtain ⟨hm, hb⟩ := h.sol e
  intro f a b j
  unfold srcRow at hR
  split at hR
  · cases hR
  rename_i hx
  rw [not_or] at hx
  obtain ⟨xa0, xb0⟩ := hx
  injection hR with hR
  have hf : f = 2 * (m.mu * l.cbcb) * k^2 := by simp only [f]; rw [hb]; ring
  have hT : f / m.mu = 2 * l.cbcb * k^2 := by
    rw [div_eq_iff hm, hf]; ring
  have r1 : l.cbcb / l.xb * l.xb = l.cbcb := div_mul_cancel₀ _ xb0
  subst hR
  cases t <;> simp only [a, b, j, jumpSH, shState, srcForce, momentDiag, momentVH, momentHH, forceH, forceV,
    neg_zero, neg_neg, zero_div, neg_div, hT] <;> refine ⟨?_, ?_⟩ <;> try ring1
  · rw [hf]; linear_combination (-2 * m.mu * k^2) * r1
  · rw [hf]; linear_combination (-2 * m.mu * k^3) * r1

/-- C17 in a liquid (only the explosion is meaningful there): pressure is continuous and the vertical
displacement jumps as the isotropic moment requires; the S amplitudes written are zero. -/
theorem C17_jump_liquid {c k : K} {l : Lay K} {m : Medium K} (h : Fits c l m) (e : l.liquid = true)
    (hlam : m.lam ≠ 0) {R : SrcRow K} (hR : srcRow k l .EX = .ok R) (u d : Fin 2 → K) :
    let f := 2 * m.rho * (c * k)^2
    let a := psvState k m l (u + R.U) d
    let b := psvState k m l u (d + R.D)
    b.s - a.s = 0 ∧ b.t - a.t = 0 ∧ b.w - a.w = -f / m.lam ∧
    R.D 1 = 0 ∧ R.U 1 = 0 ∧ R.DL = 0 ∧ R.UL = 0 := by
  have hm := h.liq e
  intro f a b
  obtain ⟨h1, h2, h3, h4⟩ := psvState_sub k m l u d R.D R.U
  simp only [a, b, h2, h3, h4]
  unfold srcRow at hR
  split at hR
  · cases hR
  rename_i hx
  rw [not_or] at hx
  obtain ⟨xa0, xb0⟩ := hx
  injection hR with hR
  have hca := h.ca
  rw [hm] at hca
  have r1 : l.caca / l.xa * l.xa = l.caca := div_mul_cancel₀ _ xa0
  have hW : -f / m.lam = -(2 * l.caca * k^2) := by
    rw [div_eq_iff hlam]; simp only [f]; linear_combination (2 * k^2) * hca
  rw [hW]
  subst hR
  simp only [psvState, e, if_true, hooke, hm, Pi.neg_apply, Matrix.cons_val_zero, Matrix.cons_val_one]
  refine ⟨by ring, by ring, ?_, by trivial, by trivial, by trivial, by trivial⟩
  linear_combination (-2 * k^2) * r1

/-- Concrete case. -/
example : Fits 1 lA mA ∧ (srcRow 3 lA .DD).isOk = true ∧ mA.lam + 2 * mA.mu ≠ 0 := by
  refine ⟨by constructor <;> norm_num [lA, mA], by decide +kernel, by norm_num [mA]⟩

end GRT.Layer
