import Verif.Layer.PropsIface

/-! C14: reflections at the outer boundaries of the model satisfy the boundary condition (dynamic). -/

set_option linter.unusedSectionVars false

namespace GRT.Layer

open GRT.RT Matrix

variable {K : Type*} [Field K] [CharZero K] [DecidableEq K]

/-- Zero traction on the plane (only the normal part exists in a liquid). -/
def TractionFree (y : MS K) : Prop := y.s = 0 ∧ y.t = 0

/-- Zero displacement on the plane; in a liquid only the normal displacement is held. -/
def Clamped (l : Lay K) (y : MS K) : Prop := y.w = 0 ∧ (l.liquid = false → y.q = 0)

/-- C14, free surface at the top: the downgoing waves `R u` returned for upgoing waves `u` make the
surface traction free. -/
theorem C14_free_top {c k : K} {l : Lay K} {m : Medium K} (h : Fits c l m) {R : Mat2 K}
    (hR : freeBoundPSV l.liquid l.cbcb l.xa l.xb 1 = .ok R) (u : Fin 2 → K) :
    TractionFree (psvState k m l u (R *ᵥ u)) := by
  unfold freeBoundPSV at hR
  cases e : l.liquid <;> simp only [e] at hR
  · rw [psvState_solid h e]
    simp only [Bool.not_false, if_true] at hR
    split at hR
    · cases hR
    rename_i hD
    generalize hDe : -1 + l.xa * l.xb + l.cbcb - 1 / 4 * l.cbcb * l.cbcb = D at hR hD
    injection hR with hR
    subst hR
    constructor <;>
    simp only [mv_apply, Matrix.of_apply, Matrix.cons_val_zero, Matrix.cons_val_one, Matrix.cons_val', Matrix.cons_val_fin_one] <;>
    field_simp <;> rw [← hDe] <;> ring
  · rw [psvState_liquid h e]
    simp only [Bool.not_true, Bool.false_eq_true, if_false] at hR
    injection hR with hR
    subst hR
    constructor <;>
    simp only [mv_apply, Matrix.of_apply, Matrix.cons_val_zero, Matrix.cons_val_one, Matrix.cons_val', Matrix.cons_val_fin_one]
    ring

/-- C14, free boundary at the bottom: upgoing waves `R d` for downgoing `d`. -/
theorem C14_free_bottom {c k : K} {l : Lay K} {m : Medium K} (h : Fits c l m) {R : Mat2 K}
    (hR : freeBoundPSV l.liquid l.cbcb l.xa l.xb (-1) = .ok R) (d : Fin 2 → K) :
    TractionFree (psvState k m l (R *ᵥ d) d) := by
  unfold freeBoundPSV at hR
  cases e : l.liquid <;> simp only [e] at hR
  · rw [psvState_solid h e]
    simp only [Bool.not_false, if_true] at hR
    split at hR
    · cases hR
    rename_i hD
    generalize hDe : -1 + l.xa * l.xb + l.cbcb - 1 / 4 * l.cbcb * l.cbcb = D at hR hD
    injection hR with hR
    subst hR
    constructor <;>
    simp only [mv_apply, Matrix.of_apply, Matrix.cons_val_zero, Matrix.cons_val_one, Matrix.cons_val', Matrix.cons_val_fin_one] <;>
    field_simp <;> rw [← hDe] <;> ring
  · rw [psvState_liquid h e]
    simp only [Bool.not_true, Bool.false_eq_true, if_false] at hR
    injection hR with hR
    subst hR
    constructor <;>
    simp only [mv_apply, Matrix.of_apply, Matrix.cons_val_zero, Matrix.cons_val_one, Matrix.cons_val', Matrix.cons_val_fin_one]
    ring

/-- C14, free surface, converse: in a solid the reflection is forced by the zero traction. -/
theorem C14_free_unique {c k : K} {l : Lay K} {m : Medium K} (h : Fits c l m) (e : l.liquid = false)
    (hk : k ≠ 0) {R : Mat2 K} (hR : freeBoundPSV l.liquid l.cbcb l.xa l.xb 1 = .ok R)
    (u d : Fin 2 → K) (hz : TractionFree (psvState k m l u d)) : d = R *ᵥ u := by
  have key := C14_free_top (k := k) h hR u
  rw [psvState_solid h e] at hz key
  obtain ⟨a1, a2⟩ := hz
  obtain ⟨b1, b2⟩ := key
  simp only at a1 a2 b1 b2
  unfold freeBoundPSV at hR
  simp only [e, Bool.not_false, if_true] at hR
  split at hR
  · cases hR
  rename_i hD
  have hmk : m.mu * k^2 ≠ 0 := mul_ne_zero (h.sol e).1 (pow_ne_zero _ hk)
  set z := R *ᵥ u
  have f1 : (2 - l.cbcb) * (d 0 - z 0) - 2 * l.xb * (d 1 - z 1) = 0 :=
    mul_left_cancel₀ hmk (by linear_combination a1 - b1)
  have f2 : - 2 * l.xa * (d 0 - z 0) + (2 - l.cbcb) * (d 1 - z 1) = 0 :=
    mul_left_cancel₀ hmk (by linear_combination a2 - b2)
  have g0 : (-1 + l.xa * l.xb + l.cbcb - 1 / 4 * l.cbcb * l.cbcb) * (d 0 - z 0) = 0 := by
    linear_combination (-(2 - l.cbcb)/4) * f1 - (l.xb/2) * f2
  have g1 : (-1 + l.xa * l.xb + l.cbcb - 1 / 4 * l.cbcb * l.cbcb) * (d 1 - z 1) = 0 := by
    linear_combination (-(2 - l.cbcb)/4) * f2 - (l.xa/2) * f1
  ext i
  fin_cases i
  · exact sub_eq_zero.1 ((mul_eq_zero.1 g0).resolve_left hD)
  · exact sub_eq_zero.1 ((mul_eq_zero.1 g1).resolve_left hD)

/-- C14, rigid top. -/
theorem C14_rigid_top {c k : K} {l : Lay K} {m : Medium K} (h : Fits c l m) {R : Mat2 K}
    (hR : rigidBoundPSV l.liquid l.xa l.xb 1 = .ok R) (u : Fin 2 → K) :
    Clamped l (psvState k m l u (R *ᵥ u)) := by
  unfold rigidBoundPSV at hR
  cases e : l.liquid <;> simp only [e] at hR
  · rw [psvState_solid h e]
    simp only [Bool.not_false, if_true] at hR
    split at hR
    · cases hR
    rename_i hD
    generalize hDe : l.xa * l.xb - 1 = D at hR hD
    injection hR with hR
    subst hR
    refine ⟨?_, fun _ => ?_⟩ <;>
    simp only [mv_apply, Matrix.of_apply, Matrix.cons_val_zero, Matrix.cons_val_one, Matrix.cons_val', Matrix.cons_val_fin_one] <;>
    field_simp <;> rw [← hDe] <;> ring
  · rw [psvState_liquid h e]
    simp only [Bool.not_true, Bool.false_eq_true, if_false] at hR
    injection hR with hR
    subst hR
    refine ⟨?_, fun h => by simp [e] at h⟩
    simp only [mv_apply, Matrix.of_apply, Matrix.cons_val_zero, Matrix.cons_val_one, Matrix.cons_val', Matrix.cons_val_fin_one]
    ring

/-- C14, rigid bottom. -/
theorem C14_rigid_bottom {c k : K} {l : Lay K} {m : Medium K} (h : Fits c l m) {R : Mat2 K}
    (hR : rigidBoundPSV l.liquid l.xa l.xb (-1) = .ok R) (d : Fin 2 → K) :
    Clamped l (psvState k m l (R *ᵥ d) d) := by
  unfold rigidBoundPSV at hR
  cases e : l.liquid <;> simp only [e] at hR
  · rw [psvState_solid h e]
    simp only [Bool.not_false, if_true] at hR
    split at hR
    · cases hR
    rename_i hD
    generalize hDe : l.xa * l.xb - 1 = D at hR hD
    injection hR with hR
    subst hR
    refine ⟨?_, fun _ => ?_⟩ <;>
    simp only [mv_apply, Matrix.of_apply, Matrix.cons_val_zero, Matrix.cons_val_one, Matrix.cons_val', Matrix.cons_val_fin_one] <;>
    field_simp <;> rw [← hDe] <;> ring
  · rw [psvState_liquid h e]
    simp only [Bool.not_true, Bool.false_eq_true, if_false] at hR
    injection hR with hR
    subst hR
    refine ⟨?_, fun h => by simp [e] at h⟩
    simp only [mv_apply, Matrix.of_apply, Matrix.cons_val_zero, Matrix.cons_val_one, Matrix.cons_val', Matrix.cons_val_fin_one]
    ring

/-- C14 (SH): free boundaries are traction free, rigid ones hold the displacement of a solid. -/
theorem C14_SH {c k : K} {l : Lay K} {m : Medium K} (h : Fits c l m) (a : K) :
    (shState k m l a (freeBoundSH l.liquid * a)).t = 0 ∧
    (shState k m l (freeBoundSH l.liquid * a) a).t = 0 ∧
    (l.liquid = false → (shState k m l a (rigidBoundSH l.liquid * a)).v = 0 ∧
      (shState k m l (rigidBoundSH l.liquid * a) a).v = 0) := by
  cases e : l.liquid
  · simp [shState, freeBoundSH, rigidBoundSH]
  · simp [shState, h.liq e]

/-- The surface of a solid where free-surface waves (Rayleigh pole) make the routine fail is met
exactly when the boundary condition has a non-zero solution without incident wave. -/
theorem C14_free_failure_iff {c k : K} {l : Lay K} {m : Medium K} (h : Fits c l m) (e : l.liquid = false)
    (hk : k ≠ 0) (hbx : l.xb ≠ 0) :
    freeBoundPSV l.liquid l.cbcb l.xa l.xb 1 = .fail ↔
      ∃ d : Fin 2 → K, d ≠ 0 ∧ TractionFree (psvState k m l 0 d) := by
  have hmk : m.mu * k^2 ≠ 0 := mul_ne_zero (h.sol e).1 (pow_ne_zero _ hk)
  unfold freeBoundPSV
  simp only [e, Bool.not_false, if_true]
  constructor
  · intro hf
    split at hf
    · rename_i hD
      refine ⟨![2 * l.xb, 2 - l.cbcb], ?_, ?_⟩
      · intro h0; have := congrFun h0 0; simp at this; exact hbx this
      · rw [psvState_solid h e]
        constructor
        · simp; right; ring
        · simp; right; linear_combination -4 * hD
    · cases hf
  · rintro ⟨d, hd0, hz⟩
    rw [psvState_solid h e] at hz
    obtain ⟨a1, a2⟩ := hz
    simp only [Pi.zero_apply] at a1 a2
    split
    · rfl
    rename_i hD
    exfalso; apply hd0
    have f1 : (2 - l.cbcb) * (d 0) - 2 * l.xb * (d 1) = 0 :=
      mul_left_cancel₀ hmk (by linear_combination a1)
    have f2 : - 2 * l.xa * (d 0) + (2 - l.cbcb) * (d 1) = 0 :=
      mul_left_cancel₀ hmk (by linear_combination a2)
    have g0 : (-1 + l.xa * l.xb + l.cbcb - 1 / 4 * l.cbcb * l.cbcb) * (d 0) = 0 := by
      linear_combination (-(2 - l.cbcb)/4) * f1 - (l.xb/2) * f2
    have g1 : (-1 + l.xa * l.xb + l.cbcb - 1 / 4 * l.cbcb * l.cbcb) * (d 1) = 0 := by
      linear_combination (-(2 - l.cbcb)/4) * f2 - (l.xa/2) * f1
    ext i
    fin_cases i
    · exact (mul_eq_zero.1 g0).resolve_left hD
    · exact (mul_eq_zero.1 g1).resolve_left hD

example : (freeBoundPSV lA.liquid lA.cbcb lA.xa lA.xb (1 : ℚ)).isOk = true ∧
    (rigidBoundPSV lA.liquid lA.xa lA.xb (1 : ℚ)).isOk = true ∧
    (freeBoundPSV lW.liquid lW.cbcb lW.xa lW.xb (-1 : ℚ)).isOk = true := by decide +kernel

end GRT.Layer
