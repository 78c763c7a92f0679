import Verif.Static.Model
import Verif.Layer.Split

/-! C13-C18 for the static problem. -/

set_option linter.unusedSectionVars false

namespace GRT.Static

open GRT.RT GRT.Layer Matrix

section alg
variable {K : Type*} [Field K] [CharZero K] [DecidableEq K]

/-! ### Specification: static displacement and traction in a layer

`x = k z`, `E = e^{kz}`, `E' = e^{-kz}`; the four solutions of the elastostatic equations are
`E (1, 1)`, `E (-1-2δx, 1-2δx)`, `E' (1, -1)`, `E' (-1+2δx, -1-2δx)` for `(q, w)`; that they are solutions
is `C18_static_motion`. -/

def sq (delta x E E' : K) (u d : Fin 2 → K) : K :=
  E * (u 0 + (-1 - 2 * delta * x) * u 1) + E' * (d 0 + (-1 + 2 * delta * x) * d 1)
def sw (delta x E E' : K) (u d : Fin 2 → K) : K :=
  E * (u 0 + (1 - 2 * delta * x) * u 1) + E' * (-d 0 + (-1 - 2 * delta * x) * d 1)
/-- Depth derivatives of `q` and `w`. -/
def sq' (k delta x E E' : K) (u d : Fin 2 → K) : K :=
  k * (E * (u 0 + (-1 - 2 * delta * x) * u 1 - 2 * delta * u 1)
    + E' * (-d 0 - (-1 + 2 * delta * x) * d 1 + 2 * delta * d 1))
def sw' (k delta x E E' : K) (u d : Fin 2 → K) : K :=
  k * (E * (u 0 + (1 - 2 * delta * x) * u 1 - 2 * delta * u 1)
    + E' * (d 0 - (-1 - 2 * delta * x) * d 1 - 2 * delta * d 1))

/-- Displacement and Hooke traction. -/
def stState (k : K) (m : Medium K) (delta x E E' : K) (u d : Fin 2 → K) : MS K :=
  let q := sq delta x E E' u d
  let w := sw delta x E E' u d
  let q' := sq' k delta x E E' u d
  let w' := sw' k delta x E E' u d
  ⟨q, w, m.lam * (w' - k * q) + 2 * m.mu * w', m.mu * (q' + k * w)⟩

/-- The parameters of `l` belong to medium `m`. -/
structure SFits (l : SLay K) (m : Medium K) : Prop where
  mu : l.mu = m.mu
  mu0 : m.mu ≠ 0
  de : l.delta * (m.lam + 3 * m.mu) = m.lam + m.mu

omit [CharZero K] [DecidableEq K] in
theorem stState_eq {l : SLay K} {m : Medium K} (h : SFits l m) (k x E E' : K) (u d : Fin 2 → K) :
    stState k m l.delta x E E' u d =
      ⟨sq l.delta x E E' u d, sw l.delta x E E' u d,
       2 * m.mu * k * (E * (u 0 + l.delta * (1 - 2 * x) * u 1) + E' * (d 0 + l.delta * (1 + 2 * x) * d 1)),
       2 * m.mu * k * (E * (u 0 - l.delta * (1 + 2 * x) * u 1) + E' * (-d 0 + l.delta * (1 - 2 * x) * d 1))⟩ := by
  have e : m.lam * (1 - l.delta) = 3 * m.mu * l.delta - m.mu := by linear_combination -h.de
  ext <;> simp only [stState, sq, sw, sq', sw']
  · linear_combination (2 * k * (E * u 1 + E' * d 1)) * e
  · ring

theorem contact_aux {a1 a2 p r x A B Y0 Y1 y0 y1 v0 v1 z0 z1 : K} (hA : a1 * p + a2 = A) (hB : a2 * r + a1 = B)
    (a0 : A ≠ 0) (b0 : B ≠ 0)
    (U0 : Y0 = (-2 * p * x * (a1 - a2) / A) * y0
     + (-(4 * (p * p) * (x * x) * B * (a1 - a2) + A * (a1 * p - a2 * r)) / (B * A)) * y1
     + (a2 * (1 + r) / B) * v0 + (2 * p * x * a2 * (1 + r) / A) * v1)
    (U1 : Y1 = (-(a1 - a2) / A) * y0 + (-2 * p * x * (a1 - a2) / A) * y1 + (a2 * (1 + r) / B * B / A) * v1)
    (D0 : z0 = (a1 * (1 + p) / A) * y0 + (2 * a1 * p * x * (1 + p) / A) * y1 + ((a1 * p - a2 * r) / A) * v1)
    (D1 : z1 = (a1 * (1 + p) / A * A / B) * y1 + ((a1 - a2) / B) * v0) :
    (Y0 + (-1 - 2 * p * x) * Y1) + (y0 + (-1 + 2 * p * x) * y1) = (v0 - v1) + (z0 - z1) ∧
    (Y0 + (1 - 2 * p * x) * Y1) + (-y0 + (-1 - 2 * p * x) * y1) = (v0 + v1) + (-z0 - z1) ∧
    a1 * ((Y0 + p * (1 - 2 * x) * Y1) + (y0 + p * (1 + 2 * x) * y1)) = a2 * ((v0 + r * v1) + (z0 + r * z1)) ∧
    a1 * ((Y0 - p * (1 + 2 * x) * Y1) + (-y0 + p * (1 - 2 * x) * y1)) = a2 * ((v0 - r * v1) + (-z0 + r * z1)) := by
  subst U0 U1 D0 D1
  refine ⟨?_, ?_, ?_, ?_⟩
  all_goals
    field_simp
    rw [← hA, ← hB]
    ring

/-- Carrying the amplitudes of a layer over a depth `x` with factor `E' = 1/E`. -/
theorem C13_static_contact {k x ex E : K} (hE : ex * E = 1) {l1 l2 : SLay K} {m1 m2 : Medium K} {M : PSV K}
    (h1 : SFits l1 m1) (h2 : SFits l2 m2) (hM : rtPSV x l1 l2 = .ok M) (s : SH K) (d u d' u' : Fin 2 → K)
    (hs : Scatter (ofParts (delayPSV ex M) s) d u d' u') :
    stState k m1 l1.delta x E ex u d = stState k m2 l2.delta 0 1 1 u' d' := by
  rw [stState_eq h1, stState_eq h2]
  unfold rtPSV at hM
  simp only [h1.mu, h2.mu] at hM
  split at hM
  · cases hM
  rename_i hx
  rw [not_or] at hx
  obtain ⟨a0, b0⟩ := hx
  generalize hA : m1.mu * l1.delta + m2.mu = A at hM a0
  generalize hB : m2.mu * l2.delta + m1.mu = B at hM b0
  injection hM with hM
  subst hM
  obtain ⟨e1, e2⟩ := hs
  have u0 := congrFun e1 0; have u1 := congrFun e1 1
  have d0 := congrFun e2 0; have d1 := congrFun e2 1
  simp only [ofParts, delayPSV, mv_apply, Pi.add_apply, Matrix.of_apply, Matrix.cons_val_zero,
    Matrix.cons_val_one, Matrix.cons_val', Matrix.cons_val_fin_one] at u0 u1 d0 d1
  have U0 : E * u 0 = (-2 * l1.delta * x * (m1.mu - m2.mu) / A) * (ex * d 0)
     + (-(4 * (l1.delta * l1.delta) * (x * x) * B * (m1.mu - m2.mu) + A * (m1.mu * l1.delta - m2.mu * l2.delta)) / (B * A)) * (ex * d 1)
     + (m2.mu * (1 + l2.delta) / B) * u' 0 + (2 * l1.delta * x * m2.mu * (1 + l2.delta) / A) * u' 1 := by
    rw [u0]; linear_combination (ex * ((-2 * l1.delta * x * (m1.mu - m2.mu) / A) * d 0 + (-(4 * (l1.delta * l1.delta) * (x * x) * B * (m1.mu - m2.mu) + A * (m1.mu * l1.delta - m2.mu * l2.delta)) / (B * A)) * d 1) + (m2.mu * (1 + l2.delta) / B) * u' 0 + (2 * l1.delta * x * m2.mu * (1 + l2.delta) / A) * u' 1) * hE
  have U1 : E * u 1 = (-(m1.mu - m2.mu) / A) * (ex * d 0) + (-2 * l1.delta * x * (m1.mu - m2.mu) / A) * (ex * d 1)
     + (m2.mu * (1 + l2.delta) / B * B / A) * u' 1 := by
    rw [u1]; linear_combination (ex * ((-(m1.mu - m2.mu) / A) * d 0 + (-2 * l1.delta * x * (m1.mu - m2.mu) / A) * d 1) + (m2.mu * (1 + l2.delta) / B * B / A) * u' 1) * hE
  have D0 : d' 0 = (m1.mu * (1 + l1.delta) / A) * (ex * d 0) + (2 * m1.mu * l1.delta * x * (1 + l1.delta) / A) * (ex * d 1)
     + ((m1.mu * l1.delta - m2.mu * l2.delta) / A) * u' 1 := by rw [d0]; ring
  have D1 : d' 1 = (m1.mu * (1 + l1.delta) / A * A / B) * (ex * d 1) + ((m1.mu - m2.mu) / B) * u' 0 := by rw [d1]; ring
  obtain ⟨g1, g2, g3, g4⟩ := contact_aux hA hB a0 b0 U0 U1 D0 D1
  ext <;> simp only [sq, sw]
  · linear_combination g1
  · linear_combination g2
  · linear_combination 2 * k * g3
  · linear_combination 2 * k * g4

/-- C13 (static, P-SV), converse: amplitudes whose fields agree at the interface are connected by the
delayed response, so the coefficients are determined by continuity. -/
theorem C13_static_unique {k x ex E : K} (hE : ex * E = 1) (hk : k ≠ 0) {l1 l2 : SLay K} {m1 m2 : Medium K} {M : PSV K}
    (h1 : SFits l1 m1) (h2 : SFits l2 m2) (hM : rtPSV x l1 l2 = .ok M) (s : SH K) (d u d' u' : Fin 2 → K)
    (hc : stState k m1 l1.delta x E ex u d = stState k m2 l2.delta 0 1 1 u' d') :
    Scatter (ofParts (delayPSV ex M) s) d u d' u' := by
  let N := ofParts (delayPSV ex M) s
  have key := C13_static_contact (k := k) hE h1 h2 hM s d (N.RD *ᵥ d + N.TU *ᵥ u') (N.TD *ᵥ d + N.RU *ᵥ u') u' ⟨rfl, rfl⟩
  change u = N.RD *ᵥ d + N.TU *ᵥ u' ∧ d' = N.TD *ᵥ d + N.RU *ᵥ u'
  generalize N.RD *ᵥ d + N.TU *ᵥ u' = U at key ⊢
  generalize N.TD *ᵥ d + N.RU *ᵥ u' = D at key ⊢
  have hE0 : E ≠ 0 := right_ne_zero_of_mul_eq_one hE
  unfold rtPSV at hM
  simp only [h1.mu, h2.mu] at hM
  split at hM
  · cases hM
  rename_i hx
  rw [not_or] at hx
  obtain ⟨a0, b0⟩ := hx
  rw [stState_eq h1, stState_eq h2] at hc key
  injection hc with c1 c2 c3 c4
  injection key with k1 k2 k3 k4
  simp only [sq, sw] at c1 c2 k1 k2
  have hmk : (2 : K) * k ≠ 0 := mul_ne_zero two_ne_zero hk
  have w : E * (u 0 - U 0) - 2 * l1.delta * x * (E * (u 1 - U 1)) = -(d' 1 - D 1) := by
    apply mul_left_cancel₀ (two_ne_zero (α := K)); linear_combination c1 + c2 - k1 - k2
  have y : E * (u 1 - U 1) = -(d' 0 - D 0) := by
    apply mul_left_cancel₀ (two_ne_zero (α := K)); linear_combination c2 - c1 - k2 + k1
  have z1 : d' 1 - D 1 = 0 := by
    have : (2 * k) * ((m2.mu * l2.delta + m1.mu) * (2 * (d' 1 - D 1))) = 0 := by
      linear_combination k3 + k4 - c3 - c4 + 4 * m1.mu * k * w
    simpa [hmk, b0] using this
  have z0 : d' 0 - D 0 = 0 := by
    have : (2 * k) * ((m1.mu * l1.delta + m2.mu) * (2 * (d' 0 - D 0))) = 0 := by
      linear_combination k3 - k4 - c3 + c4 + 4 * m1.mu * l1.delta * k * y
    simpa [hmk, a0] using this
  have y1 : u 1 - U 1 = 0 := by
    rw [z0, neg_zero] at y; simpa [hE0] using y
  have y0 : u 0 - U 0 = 0 := by
    rw [z1, y1] at w; simpa [hE0] using w
  constructor <;> ext i <;> fin_cases i
  · exact sub_eq_zero.1 y0
  · exact sub_eq_zero.1 y1
  · exact sub_eq_zero.1 z0
  · exact sub_eq_zero.1 z1

/-- C13 (static, SH). -/
def stSH (k mu E E' u d : K) : SHS K := ⟨E * u + E' * d, mu * (k * (E * u - E' * d))⟩

theorem C13_static_SH {k ex E : K} (hE : ex * E = 1) {l1 l2 : SLay K} {M : SH K} (hM : rtSH l1 l2 = .ok M) (p : PSV K)
    (hk : k ≠ 0) (d u d' u' : K) :
    ScatterSH (ofParts p (delaySH ex M)) d u d' u' ↔ stSH k l1.mu E ex u d = stSH k l2.mu 1 1 u' d' := by
  have hE0 : E ≠ 0 := right_ne_zero_of_mul_eq_one hE
  unfold rtSH at hM
  dsimp only at hM
  split at hM
  · cases hM
  rename_i hx
  rw [not_or] at hx
  obtain ⟨a0, b0⟩ := hx
  simp only [Out.ok.injEq] at hM
  subst hM
  have r1 : (l1.mu - l2.mu) / (l1.mu + l2.mu) * (l1.mu + l2.mu) = l1.mu - l2.mu := div_mul_cancel₀ _ a0
  have r2 : 2 * l1.mu / (l1.mu + l2.mu) * (l1.mu + l2.mu) = 2 * l1.mu := div_mul_cancel₀ _ a0
  have r3 : 2 * l1.mu / (l1.mu + l2.mu) * l2.mu / l1.mu = 2 * l2.mu / (l1.mu + l2.mu) := by field_simp
  have r4 : 2 * l2.mu / (l1.mu + l2.mu) * (l1.mu + l2.mu) = 2 * l2.mu := div_mul_cancel₀ _ a0
  simp only [ScatterSH, ofParts, delaySH, stSH, SHS.mk.injEq, r3, neg_div]
  generalize (l1.mu - l2.mu) / (l1.mu + l2.mu) = R at *
  generalize 2 * l1.mu / (l1.mu + l2.mu) = T at *
  generalize 2 * l2.mu / (l1.mu + l2.mu) = S at *
  constructor
  · rintro ⟨h1, h2⟩
    have e1 : E * u = R * (ex * d) + S * u' := by
      rw [h1]; linear_combination (R * ex * d + S * u') * hE
    constructor
    · apply mul_left_cancel₀ a0
      rw [e1, h2]; linear_combination (ex * d + u') * r1 - ex * d * r2 + u' * r4
    · apply mul_left_cancel₀ a0
      rw [e1, h2]; linear_combination (k * (l1.mu * (ex * d) - l2.mu * u')) * r1 + l2.mu * k * ex * d * r2 + k * l1.mu * u' * r4
  · rintro ⟨h1, h2⟩
    have h2' : l1.mu * (E * u - ex * d) = l2.mu * (u' - d') := by
      apply mul_left_cancel₀ hk; linear_combination h2
    have e1 : (l1.mu + l2.mu) * (E * u) = (l1.mu - l2.mu) * (ex * d) + 2 * l2.mu * u' := by
      linear_combination h2' + l2.mu * h1
    have e2 : (l1.mu + l2.mu) * d' = 2 * l1.mu * (ex * d) - (l1.mu - l2.mu) * u' := by
      linear_combination h2' - l1.mu * h1
    constructor
    · apply mul_left_cancel₀ (mul_ne_zero hE0 a0)
      linear_combination e1 - E * ex * ex * d * r1 - E * ex * u' * r4 + (-(l1.mu - l2.mu) * ex * d - 2 * l2.mu * u') * hE
    · apply mul_left_cancel₀ a0
      linear_combination e2 - ex * d * r2 + u' * r1

/-! ### C14, static -/

/-- C14 (static): free and rigid surface at the top. -/
theorem C14_static_top {k : K} {l : SLay K} {m : Medium K} (h : SFits l m) (u : Fin 2 → K) :
    (∀ R, freeBoundPSV false 0 l.delta = .ok R →
      (stState k m l.delta 0 1 1 u (R *ᵥ u)).s = 0 ∧ (stState k m l.delta 0 1 1 u (R *ᵥ u)).t = 0) ∧
    (stState k m l.delta 0 1 1 u (rigidBoundPSV false 0 l.delta *ᵥ u)).q = 0 ∧
    (stState k m l.delta 0 1 1 u (rigidBoundPSV false 0 l.delta *ᵥ u)).w = 0 := by
  simp only [stState_eq h]
  refine ⟨?_, ?_, ?_⟩
  · intro R hR
    unfold freeBoundPSV at hR
    split at hR
    · cases hR
    rename_i h0
    simp only [Bool.not_false, if_true, Out.ok.injEq] at hR
    subst hR
    simp only [mv_apply, Matrix.of_apply, Matrix.cons_val_zero, Matrix.cons_val_one, Matrix.cons_val',
      Matrix.cons_val_fin_one]
    constructor <;> field_simp <;> ring
  · simp [rigidBoundPSV, sq, mv_apply]
  · simp [rigidBoundPSV, sw, mv_apply]

/-- C14 (static): free and rigid surface at the bottom of a layer, with the delay of the kernel. -/
theorem C14_static_bottom {k x ex E : K} (hE : ex * E = 1) {l : SLay K} {m : Medium K} (h : SFits l m) (d : Fin 2 → K) :
    (∀ R, freeBoundPSV true x l.delta = .ok R →
      (stState k m l.delta x E ex (botDelay ex R *ᵥ d) d).s = 0 ∧
      (stState k m l.delta x E ex (botDelay ex R *ᵥ d) d).t = 0) ∧
    (stState k m l.delta x E ex (botDelay ex (rigidBoundPSV true x l.delta) *ᵥ d) d).q = 0 ∧
    (stState k m l.delta x E ex (botDelay ex (rigidBoundPSV true x l.delta) *ᵥ d) d).w = 0 := by
  simp only [stState_eq h]
  have hu : ∀ R : Mat2 K, ∀ i, E * (botDelay ex R *ᵥ d) i = ex * (R *ᵥ d) i := by
    intro R i
    fin_cases i <;> simp only [botDelay, mv_apply, Matrix.of_apply, Matrix.cons_val_zero, Matrix.cons_val_one, Matrix.cons_val',
      Matrix.cons_val_fin_one, Fin.zero_eta, Fin.mk_one, Fin.isValue]
    · linear_combination ex * (R 0 0 * d 0 + R 0 1 * d 1) * hE
    · linear_combination ex * (R 1 0 * d 0 + R 1 1 * d 1) * hE
  refine ⟨?_, ?_, ?_⟩
  · intro R hR
    have u0 := hu R 0; have u1 := hu R 1
    unfold freeBoundPSV at hR
    split at hR
    · cases hR
    rename_i h0
    simp only [Bool.not_true, Bool.false_eq_true, if_false, Out.ok.injEq] at hR
    have e : -1 / l.delta * l.delta = -1 := div_mul_cancel₀ _ h0
    simp only [mv_apply] at u0 u1
    rw [← hR] at u0 u1
    simp only [Matrix.of_apply, Matrix.cons_val_zero, Matrix.cons_val_one, Matrix.cons_val',
      Matrix.cons_val_fin_one] at u0 u1
    rw [hR] at u0 u1
    simp only [mv_apply]
    constructor
    · linear_combination 2 * m.mu * k * u0 + 2 * m.mu * k * l.delta * (1 - 2 * x) * u1 + 2 * m.mu * k * ex * d 0 * (1 - 2 * x) * e
    · linear_combination 2 * m.mu * k * u0 - 2 * m.mu * k * l.delta * (1 + 2 * x) * u1 - 2 * m.mu * k * ex * d 0 * (1 + 2 * x) * e
  · have u0 := hu (rigidBoundPSV true x l.delta) 0; have u1 := hu (rigidBoundPSV true x l.delta) 1
    simp only [mv_apply] at u0 u1
    simp only [sq, mv_apply]
    have r : rigidBoundPSV true x l.delta 0 0 = 2 * l.delta * x ∧ rigidBoundPSV true x l.delta 0 1 = 4 * (l.delta * x) * (l.delta * x) + 1
      ∧ rigidBoundPSV true x l.delta 1 0 = 1 ∧ rigidBoundPSV true x l.delta 1 1 = 2 * l.delta * x := by simp [rigidBoundPSV]
    rw [r.1, r.2.1] at u0; rw [r.2.2.1, r.2.2.2] at u1
    linear_combination u0 + (-1 - 2 * l.delta * x) * u1
  · have u0 := hu (rigidBoundPSV true x l.delta) 0; have u1 := hu (rigidBoundPSV true x l.delta) 1
    simp only [mv_apply] at u0 u1
    simp only [sw, mv_apply]
    have r : rigidBoundPSV true x l.delta 0 0 = 2 * l.delta * x ∧ rigidBoundPSV true x l.delta 0 1 = 4 * (l.delta * x) * (l.delta * x) + 1
      ∧ rigidBoundPSV true x l.delta 1 0 = 1 ∧ rigidBoundPSV true x l.delta 1 1 = 2 * l.delta * x := by simp [rigidBoundPSV]
    rw [r.1, r.2.1] at u0; rw [r.2.2.1, r.2.2.2] at u1
    linear_combination u0 + (1 - 2 * l.delta * x) * u1

/-! ### C17, static -/

theorem stState_sub (k : K) (m : Medium K) (de : K) (u d SD SU : Fin 2 → K) :
    let a := stState k m de 0 1 1 (u + SU) d
    let b := stState k m de 0 1 1 u (d + SD)
    let r := stState k m de 0 1 1 (-SU) SD
    b.q - a.q = r.q ∧ b.w - a.w = r.w ∧ b.s - a.s = r.s ∧ b.t - a.t = r.t := by
  simp only [stState, sq, sw, sq', sw', Pi.add_apply, Pi.neg_apply]
  refine ⟨?_, ?_, ?_, ?_⟩ <;> ring

/-- C17 (static, P-SV): the same forces and moment tensors as in the dynamic problem, with `ω = 0` and
normalisation `f = -2μ`. -/
theorem C17_static_jump {k : K} {l : SLay K} {m : Medium K} (h : SFits l m)
    {t : Src} {R : SrcRow K} (hR : srcRow k l.delta t = .ok R) (u d : Fin 2 → K) :
    let a := stState k m l.delta 0 1 1 (u + R.U) d
    let b := stState k m l.delta 0 1 1 u (d + R.D)
    let j := jump k 0 m (srcForce k (-2 * m.mu) t)
    b.q - a.q = j.q ∧ b.w - a.w = j.w ∧ b.s - a.s = j.s ∧ b.t - a.t = j.t := by
  intro a b j
  obtain ⟨h1, h2, h3, h4⟩ := stState_sub k m l.delta u d R.D R.U
  simp only [a, b, h1, h2, h3, h4]
  rw [stState_eq h]
  unfold srcRow at hR
  dsimp only at hR
  split at hR
  · cases hR
  rename_i hx
  simp only [not_or] at hx
  obtain ⟨A0, -, -, k0⟩ := hx
  simp only [Out.ok.injEq] at hR
  have hm := h.mu0
  have e : (1 - l.delta) * (m.lam + 2 * m.mu) = m.mu * (1 + l.delta) := by linear_combination -h.de
  have B0 : 1 - l.delta ≠ 0 := left_ne_zero_of_mul (e ▸ mul_ne_zero hm A0)
  have hl : m.lam = m.mu * (1 + l.delta) / (1 - l.delta) - 2 * m.mu := by
    rw [eq_sub_iff_add_eq, eq_div_iff B0, ← e]; ring
  subst hR
  cases t <;> simp only [j, jump, motionRhs, srcForce, momentDiag, momentVH, momentHH, forceH, forceV, Pi.neg_apply,
    Matrix.cons_val_zero, Matrix.cons_val_one, neg_zero, mul_zero, zero_div, add_zero, zero_add, sub_zero, neg_neg, sq, sw, hl,
    sub_add_cancel] <;> refine ⟨?_, ?_, ?_, ?_⟩ <;> (try field_simp) <;> (try ring1)

/-- C17 (static, SH). -/
theorem C17_static_jump_SH {k : K} {l : SLay K} {m : Medium K} (h : SFits l m)
    {t : Src} {R : SrcRow K} (hR : srcRow k l.delta t = .ok R) (u d : K) :
    let a := stSH k m.mu 1 1 (u + R.UL) d
    let b := stSH k m.mu 1 1 u (d + R.DL)
    let j := jumpSH m (srcForce k (-2 * m.mu) t)
    b.v - a.v = j.v ∧ b.t - a.t = j.t := by
  intro a b j
  unfold srcRow at hR
  dsimp only at hR
  split at hR
  · cases hR
  rename_i hx
  simp only [not_or] at hx
  obtain ⟨A0, -, -, k0⟩ := hx
  simp only [Out.ok.injEq] at hR
  have hm := h.mu0
  subst hR
  cases t <;> simp only [a, b, j, jumpSH, stSH, srcForce, momentDiag, momentVH, momentHH, forceH, forceV,
    neg_zero, neg_neg, zero_div] <;> refine ⟨?_, ?_⟩ <;> (try field_simp) <;> (try ring1)

end alg

/-! ### C16, C18: depth dependence -/

open Complex

/-- The static field at depth `z` below the top of a layer. -/
noncomputable def stField (k : ℂ) (m : Medium ℂ) (de : ℂ) (u d : Fin 2 → ℂ) (z : ℝ) : MS ℂ :=
  stState k m de (k * z) (exp (k * z)) (exp (-(k * z))) u d

theorem stField_zero (k : ℂ) (m : Medium ℂ) (de : ℂ) (u d : Fin 2 → ℂ) :
    stField k m de u d 0 = stState k m de 0 1 1 u d := by simp [stField]

theorem hasDerivAt_lin (k a b c e : ℂ) (z : ℝ) :
    HasDerivAt (fun z : ℝ => exp (k * z) * (a + b * (k * z)) + exp (-(k * z)) * (c + e * (k * z)))
      (k * (exp (k * z) * (a + b * (k * z) + b) + exp (-(k * z)) * (-(c + e * (k * z)) + e))) z := by
  have h1 := hasDerivAt_expz k z
  have h2 : HasDerivAt (fun z : ℝ => exp (-(k * z))) (-(k * exp (-(k * z)))) z := by
    have := hasDerivAt_expz (-k) z
    simpa [neg_mul] using this
  have h3 : HasDerivAt (fun z : ℝ => k * (z : ℂ)) k z := by
    simpa using (Complex.ofRealCLM.hasDerivAt (x := z)).const_mul k
  have h4 := (h1.mul ((h3.const_mul b).const_add a)).add (h2.mul ((h3.const_mul e).const_add c))
  exact h4.congr_deriv (by ring)

/-- C18 (static): `sq'`, `sw'` are the depth derivatives of the displacement. -/
theorem C18_static_deriv (k : ℂ) (m : Medium ℂ) (de : ℂ) (u d : Fin 2 → ℂ) (z : ℝ) :
    HasDerivAt (fun z => (stField k m de u d z).q) (sq' k de (k * z) (exp (k * z)) (exp (-(k * z))) u d) z ∧
    HasDerivAt (fun z => (stField k m de u d z).w) (sw' k de (k * z) (exp (k * z)) (exp (-(k * z))) u d) z := by
  constructor
  · have := hasDerivAt_lin k (u 0 - u 1) (-2 * de * u 1) (d 0 - d 1) (2 * de * d 1) z
    convert this using 1
    · funext z; simp only [stField, stState, sq]; ring
    · simp only [sq']; ring
  · have := hasDerivAt_lin k (u 0 + u 1) (-2 * de * u 1) (-d 0 - d 1) (-2 * de * d 1) z
    convert this using 1
    · funext z; simp only [stField, stState, sw]; ring
    · simp only [sw']; ring

/-- C18 (static): the field built from the code's wave columns satisfies the elastostatic equations. -/
theorem C18_static_motion {k : ℂ} {l : SLay ℂ} {m : Medium ℂ} (h : SFits l m) (hlam : m.lam + 2 * m.mu ≠ 0)
    (u d : Fin 2 → ℂ) (z : ℝ) : Motion k 0 m (stField k m l.delta u d) z := by
  obtain ⟨dq, dw⟩ := C18_static_deriv k m l.delta u d z
  have hm := h.mu0
  have hst : ∀ z, stField k m l.delta u d z = _ := fun z => stState_eq h k (k * z) (exp (k * z)) (exp (-(k * z))) u d
  have hw : ((stField k m l.delta u d z).s + m.lam * k * (stField k m l.delta u d z).q) / (m.lam + 2 * m.mu)
      = sw' k l.delta (k * z) (exp (k * z)) (exp (-(k * z))) u d := by
    rw [div_eq_iff hlam]; simp only [stField, stState]; ring
  refine ⟨?_, ?_, ?_, ?_⟩
  · refine dq.congr_deriv ?_
    simp only [stField, stState]; field_simp; ring
  · rw [hw]; exact dw
  · have := hasDerivAt_lin k (2 * m.mu * k * (u 0 + l.delta * u 1)) (2 * m.mu * k * (- 2 * l.delta * u 1))
      (2 * m.mu * k * (d 0 + l.delta * d 1)) (2 * m.mu * k * (2 * l.delta * d 1)) z
    simp only [hst]
    convert this using 1
    · funext z; ring
    · ring
  · have := hasDerivAt_lin k (2 * m.mu * k * (u 0 - l.delta * u 1)) (2 * m.mu * k * (- 2 * l.delta * u 1))
      (2 * m.mu * k * (-d 0 + l.delta * d 1)) (2 * m.mu * k * (-2 * l.delta * d 1)) z
    rw [hw]
    simp only [hst]
    convert this using 1
    · funext z; ring
    · simp only [sw', sq]
      have e : m.lam * (1 - l.delta) = 3 * m.mu * l.delta - m.mu := by linear_combination -h.de
      linear_combination (-2 * k^2 * (exp (k * z) * u 1 + exp (-(k * z)) * d 1)) * e

/-- C18 (static), as used by the kernel. -/
theorem C18_static_kernel (k : ℂ) (m : Medium ℂ) (de : ℂ) (R : Mat2 ℂ) (v : Fin 2 → ℂ) (up : Bool) :
    let u := if up then v else R *ᵥ v
    let d := if up then R *ᵥ v else v
    ((stField k m de u d 0).q = (revPSV up R R *ᵥ v) 0 ∧
     (stField k m de u d 0).w = (revPSV up R R *ᵥ v) 1) ∧
    HasDerivAt (fun z => (stField k m de u d z).q) ((revzPSV k de up R R *ᵥ v) 0) 0 ∧
    HasDerivAt (fun z => (stField k m de u d z).w) ((revzPSV k de up R R *ᵥ v) 1) 0 := by
  intro u d
  have e0 : ∀ A B : Mat2 ℂ, RT.add A (RT.mul B R) *ᵥ v = A *ᵥ v + B *ᵥ (R *ᵥ v) := by
    intro A B; rw [RT.add_eq, RT.mul_eq, Matrix.add_mulVec, Matrix.mulVec_mulVec]
  obtain ⟨hd1, hd2⟩ := C18_static_deriv k m de u d 0
  rw [stField_zero]
  refine ⟨⟨?_, ?_⟩, hd1.congr_deriv ?_, hd2.congr_deriv ?_⟩ <;> cases up <;>
    simp only [revPSV, revzPSV, Bool.false_eq_true, if_false, if_true, e0, u, d] <;>
    generalize R *ᵥ v = y <;>
    simp only [stState, sq, sw, sq', sw', D11, D12, D11z, D12z, mv_apply, Pi.add_apply, Matrix.of_apply, Matrix.cons_val_zero,
      Matrix.cons_val_one, Matrix.cons_val', Matrix.cons_val_fin_one, Complex.ofReal_zero, mul_zero, neg_zero, Complex.exp_zero] <;> ring

/-- C18 (static, SH). -/
theorem C18_static_kernel_SH (k mu R v : ℂ) (up : Bool) :
    let u := if up then v else R * v
    let d := if up then R * v else v
    (stSH k mu 1 1 u d).v = revSH up R R * v ∧
    HasDerivAt (fun z : ℝ => (stSH k mu (exp (k * z)) (exp (-(k * z))) u d).v) (revzSH k up R R * v) 0 := by
  intro u d
  constructor
  · cases up <;> simp [u, d, stSH, revSH] <;> ring
  · have := hasDerivAt_lin k u 0 d 0 0
    convert this using 1
    · funext z; simp [stSH]
    · cases up <;> simp [u, d, revzSH] <;> ring

/-- C13/C15 (static) in terms of the field: the delayed response connects amplitudes whose fields agree at
the interface at depth `thk`. -/
theorem C13_static_field {k : ℝ} (thk : ℝ) {l1 l2 : SLay ℂ} {m1 m2 : Medium ℂ} {M : PSV ℂ}
    (h1 : SFits l1 m1) (h2 : SFits l2 m2) (hM : rtPSV ((k : ℂ) * thk) l1 l2 = .ok M) (s : SH ℂ) (hk : k ≠ 0)
    (d u d' u' : Fin 2 → ℂ) :
    Scatter (ofParts (delayPSV (exp (-(k * thk))) M) s) d u d' u' ↔
    stField k m1 l1.delta u d thk = stField k m2 l2.delta u' d' 0 := by
  have hE : exp (-((k : ℂ) * thk)) * exp ((k : ℂ) * thk) = 1 := by rw [← Complex.exp_add]; simp
  rw [stField_zero, stField]
  exact ⟨C13_static_contact hE h1 h2 hM s d u d' u',
    C13_static_unique hE (by exact_mod_cast hk) h1 h2 hM s d u d' u'⟩

/-- C16 (static): the factor is at most one. -/
theorem C16_static_factor {k thk : ℝ} (hk : 0 ≤ k) (ht : 0 ≤ thk) : ‖exp (-(k : ℂ) * thk)‖ ≤ 1 := by
  rw [Complex.norm_exp]
  have : (-(k : ℂ) * thk).re = -(k * thk) := by
    have : (-(k : ℂ) * thk) = ((-(k * thk) : ℝ) : ℂ) := by push_cast; ring
    rw [this, Complex.ofReal_re]
  rw [this]
  exact Real.exp_le_one_iff.2 (neg_nonpos.2 (mul_nonneg hk ht))

/-! ### C15, static -/

/-- Amplitudes referred to a plane `x` below. -/
def shiftU {K : Type*} [Field K] (de x E : K) (u : Fin 2 → K) : Fin 2 → K := ![E * (u 0 - 2 * de * x * u 1), E * u 1]
def shiftD {K : Type*} [Field K] (de x ex : K) (d : Fin 2 → K) : Fin 2 → K := ![ex * (d 0 + 2 * de * x * d 1), ex * d 1]

theorem stState_shift {K : Type*} [Field K] (k : K) (m : Medium K) (de x y E F E' F' : K) (u d : Fin 2 → K) :
    stState k m de (x + y) (E * F) (E' * F') u d = stState k m de y F F' (shiftU de x E u) (shiftD de x E' d) := by
  ext <;> simp only [stState, sq, sw, sq', sw', shiftU, shiftD, Matrix.cons_val_zero, Matrix.cons_val_one] <;> ring

theorem stState_inj {K : Type*} [Field K] [CharZero K] {k : K} {l : SLay K} {m : Medium K} (h : SFits l m) (hk : k ≠ 0)
    (hd : 1 + l.delta ≠ 0) {u d u' d' : Fin 2 → K}
    (he : stState k m l.delta 0 1 1 u d = stState k m l.delta 0 1 1 u' d') : u = u' ∧ d = d' := by
  rw [stState_eq h, stState_eq h] at he
  injection he with a b c e
  simp only [sq, sw] at a b
  have hm : 2 * m.mu * k ≠ 0 := mul_ne_zero (mul_ne_zero two_ne_zero h.mu0) hk
  have c' := mul_left_cancel₀ hm c
  have e' := mul_left_cancel₀ hm e
  have s1 : (u 1 + d 1) = (u' 1 + d' 1) := by
    apply mul_left_cancel₀ hd; linear_combination c' - a
  have s2 : (u 1 - d 1) = (u' 1 - d' 1) := by
    apply mul_left_cancel₀ hd; linear_combination b - e'
  have t1 : u 1 = u' 1 := by apply mul_left_cancel₀ (two_ne_zero (α := K)); linear_combination s1 + s2
  have t2 : d 1 = d' 1 := by apply mul_left_cancel₀ (two_ne_zero (α := K)); linear_combination s1 - s2
  have t3 : u 0 = u' 0 := by apply mul_left_cancel₀ (two_ne_zero (α := K)); linear_combination a + b + 2 * t2
  have t4 : d 0 = d' 0 := by apply mul_left_cancel₀ (two_ne_zero (α := K)); linear_combination a - b + 2 * t1
  constructor <;> ext i <;> fin_cases i <;> assumption

/-- C15 (static): the delayed response below a layer of thickness `x1 + x2` equals the combination of a
virtual interface after `x1` (as the static kernel computes it, from equal layers) and the true interface
after `x2`, in any stack. -/
theorem C15_static_split {K : Type*} [Field K] [CharZero K] [DecidableEq K] {x1 x2 ex1 ex2 E1 E2 : K}
    (hE1 : ex1 * E1 = 1) (hE2 : ex2 * E2 = 1) {l1 l2 : SLay K} {m1 m2 : Medium K}
    (h1 : SFits l1 m1) (h2 : SFits l2 m2) {T M M12 : PSV K} (hT : rtPSV x1 l1 l1 = .ok T)
    (hM : rtPSV x2 l1 l2 = .ok M) (hM12 : rtPSV (x1 + x2) l1 l2 = .ok M12) (s : SH K)
    (pre post : List (RTM K)) (d u d' u' : Fin 2 → K) :
    StackScatter (pre ++ ofParts (delayPSV ex1 T) s :: ofParts (delayPSV ex2 M) s :: post) d u d' u' ↔
    StackScatter (pre ++ ofParts (delayPSV (ex1 * ex2) M12) s :: post) d u d' u' := by
  have hk : (1 : K) ≠ 0 := one_ne_zero
  have sc1 := fun d u d' u' => Iff.intro (C13_static_contact (k := 1) hE1 h1 h1 hT s d u d' u') (C13_static_unique hE1 hk h1 h1 hT s d u d' u')
  have sc2 := fun d u d' u' => Iff.intro (C13_static_contact (k := 1) hE2 h1 h2 hM s d u d' u') (C13_static_unique hE2 hk h1 h2 hM s d u d' u')
  have hE12 : (ex1 * ex2) * (E1 * E2) = 1 := by rw [mul_mul_mul_comm, hE1, hE2, one_mul]
  have sc3 := fun d u d' u' => Iff.intro (C13_static_contact (k := 1) hE12 h1 h2 hM12 s d u d' u') (C13_static_unique hE12 hk h1 h2 hM12 s d u d' u')
  have hd : 1 + l1.delta ≠ 0 := by
    intro h0
    unfold rtPSV at hT
    dsimp only at hT
    rw [if_pos] at hT
    · cases hT
    · left; linear_combination l1.mu * h0
  rw [stackScatter_append, stackScatter_append]
  have key : ∀ x y, StackScatter (ofParts (delayPSV ex1 T) s :: ofParts (delayPSV ex2 M) s :: post) x y d' u'
      ↔ StackScatter (ofParts (delayPSV (ex1 * ex2) M12) s :: post) x y d' u' := by
    intro x y
    simp only [StackScatter, sc1, sc2, sc3]
    have e0 := stState_shift 1 m1 l1.delta x1 0 E1 1 ex1 1 y x
    rw [add_zero, mul_one, mul_one] at e0
    have e1 := stState_shift 1 m1 l1.delta x1 x2 E1 E2 ex1 ex2 y x
    rw [e1, e0]
    constructor
    · rintro ⟨a, b, ha, a', b', hb, hp⟩
      obtain ⟨i1, i2⟩ := stState_inj h1 hk hd ha
      exact ⟨a', b', by rw [i1, i2]; exact hb, hp⟩
    · rintro ⟨a', b', hb, hp⟩
      exact ⟨_, _, rfl, a', b', hb, hp⟩
  simp only [key]

/-- C15 (static): the computed responses agree when all combinations succeed. -/
theorem C15_static_response {K : Type*} [Field K] [CharZero K] [DecidableEq K] {x1 x2 ex1 ex2 E1 E2 : K}
    (hE1 : ex1 * E1 = 1) (hE2 : ex2 * E2 = 1) {l1 l2 : SLay K} {m1 m2 : Medium K}
    (h1 : SFits l1 m1) (h2 : SFits l2 m2) {T M M12 : PSV K} (hT : rtPSV x1 l1 l1 = .ok T)
    (hM : rtPSV x2 l1 l2 = .ok M) (hM12 : rtPSV (x1 + x2) l1 l2 = .ok M12) (s : SH K)
    (N : RTM K) (pre post : List (RTM K))
    (ok1 : DownOk N (pre ++ ofParts (delayPSV ex1 T) s :: ofParts (delayPSV ex2 M) s :: post))
    (ok2 : DownOk N (pre ++ ofParts (delayPSV (ex1 * ex2) M12) s :: post)) :
    SamePSV (combineDown N (pre ++ ofParts (delayPSV ex1 T) s :: ofParts (delayPSV ex2 M) s :: post))
      (combineDown N (pre ++ ofParts (delayPSV (ex1 * ex2) M12) s :: post)) := by
  apply scatter_ext
  intro d u d' u'
  rw [C12_stack_PSV _ _ ok1, C12_stack_PSV _ _ ok2, ← List.cons_append, ← List.cons_append]
  exact C15_static_split hE1 hE2 h1 h2 hT hM hM12 s (N :: pre) post d u d' u'

/-- The static interface coefficients between elastic media are always defined. -/
theorem C13_static_defined {α : Type*} [Field α] [LinearOrder α] [IsStrictOrderedRing α] {l1 l2 : SLay α}
    {m1 m2 : Medium α} (h1 : SFits l1 m1) (h2 : SFits l2 m2) (p1 : 0 < m1.mu) (p2 : 0 < m2.mu)
    (q1 : 0 < m1.lam + m1.mu) (q2 : 0 < m2.lam + m2.mu) (x : α) :
    (∃ M, rtPSV x l1 l2 = .ok M) ∧ ∃ M, rtSH l1 l2 = .ok M := by
  have dpos : ∀ {l : SLay α} {m : Medium α}, SFits l m → 0 < m.mu → 0 < m.lam + m.mu → 0 < l.delta := by
    intro l m h p q
    have h3 : 0 < m.lam + 3 * m.mu := by linarith
    have := h.de
    by_contra hn
    rw [not_lt] at hn
    nlinarith
  have d1 := dpos h1 p1 q1
  have d2 := dpos h2 p2 q2
  have e1 := h1.mu; have e2 := h2.mu
  constructor
  · unfold rtPSV
    dsimp only
    rw [if_neg]
    · exact ⟨_, rfl⟩
    · rw [e1, e2, not_or]
      exact ⟨ne_of_gt (by positivity), ne_of_gt (by positivity)⟩
  · unfold rtSH
    dsimp only
    rw [if_neg]
    · exact ⟨_, rfl⟩
    · rw [e1, e2, not_or]
      exact ⟨ne_of_gt (by positivity), ne_of_gt p1⟩

/-- `deltaOf` gives a layer that fits. -/
theorem deltaOf_fits {K : Type*} [Field K] [DecidableEq K] {rho lam mu d : K} (hm : mu ≠ 0) (h : deltaOf lam mu = .ok d) :
    SFits ⟨mu, d⟩ ⟨rho, lam, mu⟩ := by
  unfold deltaOf at h
  split at h
  · cases h
  rename_i h0
  injection h with h
  exact ⟨rfl, hm, by rw [← h]; exact div_mul_cancel₀ _ h0⟩

/-! Concrete case: a soft layer over a stiffer half space. -/
example : SFits (⟨1, 1/2⟩ : SLay ℚ) ⟨1, 1, 1⟩ ∧ SFits (⟨3, 3/5⟩ : SLay ℚ) ⟨2, 6, 3⟩ := by
  constructor <;> constructor <;> norm_num
example : (rtPSV (2 : ℚ) ⟨1, 1/2⟩ ⟨3, 3/5⟩).isOk = true ∧ (rtPSV (2 : ℚ) ⟨1, 1/2⟩ ⟨1, 1/2⟩).isOk = true ∧
    (rtPSV (5 : ℚ) ⟨1, 1/2⟩ ⟨3, 3/5⟩).isOk = true ∧ (srcRow (2 : ℚ) (1/2) .DD).isOk = true := by decide +kernel

end GRT.Static
