import Verif.Okada.Spec
import Mathlib.Analysis.Calculus.FDeriv.Pi
import Mathlib.Analysis.Calculus.Deriv.Pi
import Mathlib.Analysis.Calculus.FDeriv.Comp
import Mathlib.Analysis.Calculus.FDeriv.Mul
import Mathlib.Analysis.SpecialFunctions.Pow.Deriv
import Mathlib.Tactic.LinearCombination
import Mathlib.Tactic.FieldSimp
import Mathlib.Algebra.BigOperators.Field

/-! A change of units and horizontal axes takes responses of the half-space to responses of the half-space.  Nothing here refers to
the program. -/

namespace GRT.Okada.Spec

/-- The symmetric matrix with the horizontal axes `(c, s)` and `(s, -c)`. -/
def turn (c s : ℝ) : Fin 3 → V3 := ![![c, s, 0], ![s, -c, 0], ![0, 0, 1]]

/-- A vector in the other axes. -/
def turnV (c s : ℝ) (v : V3) : V3 := fun i => ∑ j, turn c s i j * v j

/-- A tensor in the other axes. -/
def turnT (c s : ℝ) (T : Fin 3 → V3) : Fin 3 → V3 := fun i j => ∑ a, ∑ b, turn c s i a * turn c s j b * T a b

/-- The position in the other axes, with the unit of length divided by `k`. -/
noncomputable def turnP (k c s : ℝ) (P : V3) : V3 := fun i => turnV c s P i / k

/-- A displacement field in the other axes and units, with the same moment. -/
noncomputable def turnU (k c s : ℝ) (u : V3 → V3) : V3 → V3 := fun P i => turnV c s (u (turnP k c s P)) i / k ^ 2

/-- Its gradient. -/
noncomputable def turnG (k c s : ℝ) (g : V3 → Fin 3 → V3) : V3 → Fin 3 → V3 := fun P i j => turnT c s (g (turnP k c s P)) i j / k ^ 3

variable {k c s : ℝ}

theorem turnV_0 (v : V3) : turnV c s v 0 = c * v 0 + s * v 1 := by
  simp [turnV, turn, Fin.sum_univ_three]

theorem turnV_1 (v : V3) : turnV c s v 1 = s * v 0 - c * v 1 := by
  simp [turnV, turn, Fin.sum_univ_three]
  ring

theorem turnV_2 (v : V3) : turnV c s v 2 = v 2 := by
  simp [turnV, turn, Fin.sum_univ_three]

theorem turnV_turnV (h : c * c + s * s = 1) (v : V3) : turnV c s (turnV c s v) = v := by
  funext i
  fin_cases i
  · show turnV c s (turnV c s v) 0 = v 0
    rw [turnV_0, turnV_0, turnV_1]
    linear_combination v 0 * h
  · show turnV c s (turnV c s v) 1 = v 1
    rw [turnV_1, turnV_0, turnV_1]
    linear_combination v 1 * h
  · show turnV c s (turnV c s v) 2 = v 2
    rw [turnV_2, turnV_2]

/-- A differentiable function has the derivative along a vector that its partial derivatives give. -/
theorem fderiv_sum {f : V3 → ℝ} {p : V3} (hf : DifferentiableAt ℝ f p) {d : V3} (hd : ∀ j, PartialAt f (d j) j p) (v : V3) :
    fderiv ℝ f p v = ∑ j, v j * d j := by
  have e : ∀ j, fderiv ℝ f p (Pi.single j 1) = d j := by
    intro j
    have h1 : HasDerivAt (fun t => Function.update p j t) (Pi.single j (1 : ℝ)) (p j) := hasDerivAt_update p j (p j)
    have h2 : HasFDerivAt f (fderiv ℝ f p) (Function.update p j (p j)) := by
      rw [Function.update_eq_self]
      exact hf.hasFDerivAt
    exact (h2.comp_hasDerivAt (p j) h1).unique (hd j)
  have hv : v = ∑ j, v j • (Pi.single j (1 : ℝ) : V3) := by
    funext i
    simp [Finset.sum_apply, Pi.single_apply]
  conv_lhs => rw [hv]
  rw [map_sum]
  refine Finset.sum_congr rfl fun j _ => ?_
  rw [map_smul, e, smul_eq_mul]

theorem turn_symm (i j : Fin 3) : turn c s i j = turn c s j i := by
  fin_cases i <;> fin_cases j <;> rfl

theorem turnP_deriv (P : V3) (i : Fin 3) :
    HasDerivAt (fun t => turnP k c s (Function.update P i t)) (fun j => turn c s j i / k) (P i) := by
  rw [hasDerivAt_pi]
  intro j
  unfold turnP turnV
  have : HasDerivAt (fun t => ∑ l, turn c s j l * Function.update P i t l) (∑ l, turn c s j l * (Pi.single i (1 : ℝ) : V3) l) (P i) := by
    refine HasDerivAt.fun_sum fun l _ => ?_
    have h1 := hasDerivAt_pi.1 (hasDerivAt_update P i (P i)) l
    exact h1.const_mul _
  refine (this.div_const k).congr_deriv ?_
  simp [Pi.single_apply]

theorem PartialAt.turn {f : V3 → ℝ} {P : V3} (hf : DifferentiableAt ℝ f (turnP k c s P)) {d : V3}
    (hd : ∀ j, PartialAt f (d j) j (turnP k c s P)) (i : Fin 3) :
    PartialAt (fun Q => f (turnP k c s Q)) (turnV c s d i / k) i P := by
  unfold PartialAt
  have h2 : HasFDerivAt f (fderiv ℝ f (turnP k c s P)) (turnP k c s (Function.update P i (P i))) := by
    rw [Function.update_eq_self]
    exact hf.hasFDerivAt
  refine (h2.comp_hasDerivAt (P i) (turnP_deriv P i)).congr_deriv ?_
  rw [fderiv_sum hf hd]
  unfold turnV
  rw [Finset.sum_div]
  refine Finset.sum_congr rfl fun j _ => ?_
  rw [turn_symm j i]
  ring

theorem turnP_diff (P : V3) : DifferentiableAt ℝ (turnP k c s) P := by
  rw [differentiableAt_pi]
  intro i
  unfold turnP turnV
  fun_prop

theorem IsGradAt.turn {u : V3 → V3} {g : V3 → Fin 3 → V3} {P : V3} (ht : Total u g (turnP k c s P)) (h : IsGradAt u g (turnP k c s P)) :
    IsGradAt (turnU k c s u) (turnG k c s g) P := by
  intro i a
  have e : ∀ b, PartialAt (fun Q => u (turnP k c s Q) b) (turnV c s (fun j => g (turnP k c s P) j b) i / k) i P :=
    fun b => PartialAt.turn (f := fun q => u q b) (ht.1 b) (fun j => h j b) i
  unfold PartialAt at e ⊢
  unfold turnU turnG turnV turnT
  refine ((HasDerivAt.fun_sum fun b (_ : b ∈ Finset.univ) => (e b).const_mul (Spec.turn c s a b)).div_const (k ^ 2)).congr_deriv ?_
  rw [Finset.sum_comm (s := Finset.univ (α := Fin 3)) (t := Finset.univ (α := Fin 3)), Finset.sum_div, Finset.sum_div]
  refine Finset.sum_congr rfl fun b _ => ?_
  unfold turnV
  rw [Finset.sum_div, Finset.mul_sum, Finset.sum_div, Finset.sum_div]
  refine Finset.sum_congr rfl fun j _ => ?_
  by_cases hk : k = 0
  · simp [hk]
  · field_simp

theorem Total.turn {u : V3 → V3} {g : V3 → Fin 3 → V3} {P : V3} (ht : Total u g (turnP k c s P)) :
    Total (turnU k c s u) (turnG k c s g) P := by
  have e1 : ∀ b, DifferentiableAt ℝ (fun Q => u (turnP k c s Q) b) P := fun b => DifferentiableAt.comp (g := fun q => u q b) P (ht.1 b) (turnP_diff P)
  have e2 : ∀ a b, DifferentiableAt ℝ (fun Q => g (turnP k c s Q) a b) P := fun a b => DifferentiableAt.comp (g := fun q => g q a b) P (ht.2 a b) (turnP_diff P)
  constructor
  · intro a
    unfold turnU turnV
    simp only [div_eq_mul_inv]
    exact (DifferentiableAt.fun_sum fun b _ => (e1 b).const_mul _).mul_const _
  · intro i a
    unfold turnG turnT
    simp only [div_eq_mul_inv]
    exact (DifferentiableAt.fun_sum fun x _ => DifferentiableAt.fun_sum fun y _ => (e2 x y).const_mul _).mul_const _

theorem turn_orth (h : c * c + s * s = 1) (a b : Fin 3) : ∑ i, turn c s i a * turn c s i b = if a = b then 1 else 0 := by
  fin_cases a <;> fin_cases b <;> simp [turn, Fin.sum_univ_three] <;> linarith

theorem stress_turn (h : c * c + s * s = 1) (lam mu k : ℝ) (g : Fin 3 → V3) (i j : Fin 3) :
    stress lam mu (fun a b => turnT c s g a b / k) i j = turnT c s (stress lam mu g) i j / k := by
  by_cases hk : k = 0
  · subst hk
    simp [stress]
  have t0 : turnT c s g 0 0 + turnT c s g 1 1 + turnT c s g 2 2 = g 0 0 + g 1 1 + g 2 2 := by
    simp only [turnT, turn, Fin.sum_univ_three]
    simp
    linear_combination (g 0 0 + g 1 1) * h
  unfold stress
  simp only [Fin.sum_univ_three]
  rw [← add_div, ← add_div, t0]
  fin_cases i <;> fin_cases j <;> simp [turnT, turn, Fin.sum_univ_three] <;> field_simp <;> grind

theorem TractionFreeAt.turn (h : c * c + s * s = 1) {lam mu : ℝ} {g : V3 → Fin 3 → V3} {P : V3} (hf : TractionFreeAt lam mu g (turnP k c s P)) :
    TractionFreeAt lam mu (turnG k c s g) P := by
  intro a
  unfold turnG
  rw [stress_turn h]
  have e := fun b => hf b
  have : turnT c s (stress lam mu (g (turnP k c s P))) a 2 = 0 := by
    unfold turnT
    refine Finset.sum_eq_zero fun x _ => ?_
    rw [Fin.sum_univ_three, e x]
    simp [Spec.turn]
  rw [this, zero_div]

theorem EquilAt.turn (h : c * c + s * s = 1) {lam mu : ℝ} {u : V3 → V3} {g : V3 → Fin 3 → V3} {P : V3} (ht : Total u g (turnP k c s P))
    (he : EquilAt lam mu g (turnP k c s P)) : EquilAt lam mu (turnG k c s g) P := by
  have ds : ∀ a b, DifferentiableAt ℝ (fun q => stress lam mu (g q) a b) (turnP k c s P) := by
    intro a b
    have := ht.2
    unfold stress
    simp only [Fin.sum_univ_three]
    split <;> fun_prop
  set D : Fin 3 → Fin 3 → Fin 3 → ℝ := fun a b j => fderiv ℝ (fun q => stress lam mu (g q) a b) (turnP k c s P) (Pi.single j 1) with hD
  have dp : ∀ a b j, PartialAt (fun q => stress lam mu (g q) a b) (D a b j) j (turnP k c s P) := by
    intro a b j
    have h1 := hasDerivAt_update (turnP k c s P) j (turnP k c s P j)
    have h2 : HasFDerivAt (fun q => stress lam mu (g q) a b) (fderiv ℝ (fun q => stress lam mu (g q) a b) (turnP k c s P))
        (Function.update (turnP k c s P) j (turnP k c s P j)) := by
      rw [Function.update_eq_self]
      exact (ds a b).hasFDerivAt
    exact h2.comp_hasDerivAt _ h1
  have d0 : ∀ a, ∑ j, D a j j = 0 := by
    intro a
    obtain ⟨q, h1, h2⟩ := he a
    rw [← h2]
    exact Finset.sum_congr rfl fun j _ => HasDerivAt.unique (dp a j j) (h1 j)
  intro a
  refine ⟨fun j => (∑ x, ∑ y, Spec.turn c s a x * Spec.turn c s j y * (turnV c s (D x y) j / k)) / k ^ 3, fun j => ?_, ?_⟩
  · have e : ∀ x y, PartialAt (fun Q => stress lam mu (g (turnP k c s Q)) x y) (turnV c s (D x y) j / k) j P :=
      fun x y => PartialAt.turn (f := fun q => stress lam mu (g q) x y) (ds x y) (dp x y) j
    unfold turnG
    simp only [stress_turn h]
    unfold PartialAt at e ⊢
    unfold turnT
    exact (HasDerivAt.fun_sum fun x (_ : x ∈ Finset.univ) => HasDerivAt.fun_sum fun y (_ : y ∈ Finset.univ) =>
      (e x y).const_mul (Spec.turn c s a x * Spec.turn c s j y)).div_const (k ^ 3)
  · rw [← Finset.sum_div]
    have : ∑ j, ∑ x, ∑ y, Spec.turn c s a x * Spec.turn c s j y * (turnV c s (D x y) j / k) =
        ∑ x, Spec.turn c s a x / k * ∑ j, D x j j := by
      rw [Finset.sum_comm]
      refine Finset.sum_congr rfl fun x _ => ?_
      rw [Finset.sum_comm]
      rw [Finset.mul_sum]
      refine Finset.sum_congr rfl fun y _ => ?_
      have o : ∑ j, Spec.turn c s j y * turnV c s (D x y) j = D x y y := by
        unfold turnV
        simp only [Finset.mul_sum]
        rw [Finset.sum_comm]
        have : ∀ l, ∑ j, Spec.turn c s j y * (Spec.turn c s j l * D x y l) = (if y = l then 1 else 0) * D x y l := by
          intro l
          rw [← turn_orth h, Finset.sum_mul]
          exact Finset.sum_congr rfl fun _ _ => by ring
        simp only [this]
        simp
      rw [← o, Finset.mul_sum]
      exact Finset.sum_congr rfl fun _ _ => by ring
    rw [this]
    simp [d0]

/-- Kelvin's solution in other axes and units. -/
theorem kelvin_turn (hk : 0 < k) (h : c * c + s * s = 1) {lam mu : ℝ} (a j : Fin 3) (P : V3) :
    kelvin lam mu a j P = turnT c s (fun x y => kelvin lam mu x y (turnP k c s P)) a j / k := by
  have hr : √(P 0 ^ 2 + P 1 ^ 2 + P 2 ^ 2) = k * √(turnP k c s P 0 ^ 2 + turnP k c s P 1 ^ 2 + turnP k c s P 2 ^ 2) := by
    have : P 0 ^ 2 + P 1 ^ 2 + P 2 ^ 2 = k ^ 2 * (turnP k c s P 0 ^ 2 + turnP k c s P 1 ^ 2 + turnP k c s P 2 ^ 2) := by
      unfold turnP
      rw [turnV_0, turnV_1, turnV_2]
      field_simp
      linear_combination -(P 0 ^ 2 + P 1 ^ 2) * h
    rw [this, Real.sqrt_mul (by positivity), Real.sqrt_sq hk.le]
  have hP : ∀ i, P i = k * turnV c s (turnP k c s P) i := by
    intro i
    have : turnV c s (turnP k c s P) i = P i / k := by
      have e := congrFun (turnV_turnV h P) i
      unfold turnP
      rw [← e]
      unfold turnV
      rw [Finset.sum_div]
      exact Finset.sum_congr rfl fun _ _ => by ring
    rw [this]
    field_simp
  unfold kelvin
  dsimp only
  rw [hr, hP a, hP j]
  generalize √(turnP k c s P 0 ^ 2 + turnP k c s P 1 ^ 2 + turnP k c s P 2 ^ 2) = r
  generalize turnP k c s P = p
  by_cases r0 : r = 0
  · subst r0
    simp [turnT]
  unfold turnT
  fin_cases a <;> fin_cases j <;> simp [turn, Fin.sum_univ_three, turnV_0, turnV_1, turnV_2] <;> field_simp <;> grind

theorem kelvin_diff (lam mu : ℝ) (a j : Fin 3) {p : V3} (hp : p ≠ 0) : DifferentiableAt ℝ (kelvin lam mu a j) p := by
  have h0 : p 0 ^ 2 + p 1 ^ 2 + p 2 ^ 2 ≠ 0 := by
    intro h
    apply hp
    have a0 : p 0 = 0 := by nlinarith [sq_nonneg (p 0), sq_nonneg (p 1), sq_nonneg (p 2)]
    have a1 : p 1 = 0 := by nlinarith [sq_nonneg (p 0), sq_nonneg (p 1), sq_nonneg (p 2)]
    have a2 : p 2 = 0 := by nlinarith [sq_nonneg (p 0), sq_nonneg (p 1), sq_nonneg (p 2)]
    funext i
    fin_cases i
    exacts [a0, a1, a2]
  have hr : DifferentiableAt ℝ (fun q : V3 => √(q 0 ^ 2 + q 1 ^ 2 + q 2 ^ 2)) p := DifferentiableAt.sqrt (by fun_prop) h0
  have hn : √(p 0 ^ 2 + p 1 ^ 2 + p 2 ^ 2) ≠ 0 := by
    rw [Real.sqrt_ne_zero (by positivity)]
    exact h0
  unfold kelvin
  dsimp only
  have hi : DifferentiableAt ℝ (fun q : V3 => (√(q 0 ^ 2 + q 1 ^ 2 + q 2 ^ 2))⁻¹) p := hr.fun_inv hn
  have h3 : DifferentiableAt ℝ (fun q : V3 => (√(q 0 ^ 2 + q 1 ^ 2 + q 2 ^ 2) ^ 3)⁻¹) p := by
    simp only [← inv_pow]
    exact hi.fun_pow 3
  simp only [div_eq_mul_inv]
  split <;> fun_prop

theorem pair_turn (h : c * c + s * s = 1) (M Y : Fin 3 → V3) :
    ∑ j, ∑ l, turnT c s M j l * turnT c s Y j l = ∑ j, ∑ l, M j l * Y j l := by
  simp only [turnT, turn, Fin.sum_univ_three]
  simp
  grind

theorem IsMomentField.turn (hk : 0 < k) (h : c * c + s * s = 1) {lam mu : ℝ} {M : Fin 3 → V3} {u : V3} {P : V3} (hP : turnP k c s P ≠ 0)
    (hm : IsMomentField lam mu M u (turnP k c s P)) : IsMomentField lam mu (turnT c s M) (fun i => turnV c s u i / k ^ 2) P := by
  obtain ⟨dG, h1, h2⟩ := hm
  refine ⟨fun a j l => (∑ x, ∑ y, Spec.turn c s a x * Spec.turn c s j y * (turnV c s (dG x y) l / k)) / k, fun a j l => ?_, fun a => ?_⟩
  · have e : ∀ x y, PartialAt (fun Q => kelvin lam mu x y (turnP k c s Q)) (turnV c s (dG x y) l / k) l P :=
      fun x y => PartialAt.turn (f := kelvin lam mu x y) (kelvin_diff lam mu x y hP) (h1 x y) l
    have : kelvin lam mu a j = fun Q => turnT c s (fun x y => kelvin lam mu x y (turnP k c s Q)) a j / k := by
      funext Q
      exact kelvin_turn hk h a j Q
    rw [this]
    unfold PartialAt at e ⊢
    unfold turnT
    exact (HasDerivAt.fun_sum fun x (_ : x ∈ Finset.univ) => HasDerivAt.fun_sum fun y (_ : y ∈ Finset.univ) =>
      (e x y).const_mul (Spec.turn c s a x * Spec.turn c s j y)).div_const k
  · have e : ∀ j l, (∑ x, ∑ y, Spec.turn c s a x * Spec.turn c s j y * (turnV c s (dG x y) l / k)) / k =
        turnT c s (fun y z => (∑ x, Spec.turn c s a x * dG x y z) / k ^ 2) j l := by
      intro j l
      unfold turnT turnV
      rw [Finset.sum_comm, Finset.sum_div]
      refine Finset.sum_congr rfl fun y _ => ?_
      simp only [Finset.sum_div, Finset.mul_sum]
      rw [Finset.sum_comm]
      refine Finset.sum_congr rfl fun z _ => Finset.sum_congr rfl fun x _ => ?_
      field_simp
    simp only [e]
    rw [pair_turn h]
    unfold turnV
    simp only [h2]
    rw [Finset.sum_div, ← Finset.sum_neg_distrib]
    have : ∀ x, Spec.turn c s a x * -∑ j, ∑ l, M j l * dG x j l = -∑ j, ∑ l, M j l * (Spec.turn c s a x * dG x j l) := by
      intro x
      rw [mul_neg, Finset.mul_sum]
      simp only [Finset.mul_sum]
      congr 1
      exact Finset.sum_congr rfl fun _ _ => Finset.sum_congr rfl fun _ _ => by ring
    simp only [this, Finset.mul_sum, Finset.sum_div, neg_div, Finset.sum_neg_distrib]
    congr 1
    rw [Finset.sum_comm]
    refine Finset.sum_congr rfl fun j _ => ?_
    rw [Finset.sum_comm]
    exact Finset.sum_congr rfl fun _ _ => Finset.sum_congr rfl fun _ _ => by ring

theorem turnP_src (hk : 0 < k) {d : ℝ} {P : V3} (h : c * c + s * s = 1) (hP : P ≠ srcPos (k * d)) : turnP k c s P ≠ srcPos d := by
  intro e
  apply hP
  have e0 := congrFun e 0
  have e1 := congrFun e 1
  have e2 := congrFun e 2
  unfold turnP at e0 e1 e2
  rw [turnV_0] at e0
  rw [turnV_1] at e1
  rw [turnV_2] at e2
  simp only [srcPos, Matrix.cons_val_zero, Matrix.cons_val_one, Matrix.cons_val] at e0 e1 e2
  rw [div_eq_iff hk.ne'] at e0 e1 e2
  funext i
  fin_cases i
  · show P 0 = 0
    linear_combination c * e0 + s * e1 - P 0 * h
  · show P 1 = 0
    linear_combination s * e0 - c * e1 - P 1 * h
  · show P 2 = -(k * d)
    linear_combination e2

theorem turnP_sub (hk : 0 < k) (d : ℝ) (P : V3) : turnP k c s (P - srcPos (k * d)) = turnP k c s P - srcPos d := by
  funext i
  fin_cases i
  · show turnV c s _ 0 / k = turnV c s _ 0 / k - 0
    rw [turnV_0, turnV_0]
    simp [srcPos]
  · show turnV c s _ 1 / k = turnV c s _ 1 / k - 0
    rw [turnV_1, turnV_1]
    simp [srcPos]
  · show turnV c s _ 2 / k = turnV c s _ 2 / k - -d
    rw [turnV_2, turnV_2]
    simp [srcPos]
    field_simp

theorem turnP_2 (P : V3) : turnP k c s P 2 = P 2 / k := by
  unfold turnP
  rw [turnV_2]

/-- A change of horizontal axes and of the unit of length takes a response of the half-space to a response of the half-space. -/
theorem IsHalfSpace.turn (hk : 0 < k) (h : c * c + s * s = 1) {lam mu : ℝ} {M : Fin 3 → V3} {d : ℝ} {u : V3 → V3} {g : V3 → Fin 3 → V3}
    (hs : IsHalfSpace lam mu M d u g) : IsHalfSpace lam mu (turnT c s M) (k * d) (turnU k c s u) (turnG k c s g) := by
  have z : ∀ {P : V3}, P 2 ≤ 0 → turnP k c s P 2 ≤ 0 := by
    intro P hP
    rw [turnP_2]
    exact div_nonpos_of_nonpos_of_nonneg hP hk.le
  refine ⟨fun P hz hP => (hs.total _ (z hz) (turnP_src hk h hP)).turn,
    fun P hz hP => (hs.grad _ (z hz) (turnP_src hk h hP)).turn (hs.total _ (z hz) (turnP_src hk h hP)),
    fun P hz hP => (hs.equil _ (z hz) (turnP_src hk h hP)).turn h (hs.total _ (z hz) (turnP_src hk h hP)),
    fun P hz => (hs.free _ (by rw [turnP_2, hz, zero_div])).turn h, ?_, ?_⟩
  · obtain ⟨v, w, b, h1, h2, h3⟩ := hs.source
    refine ⟨turnU k c s v, turnU k c s w, turnG k c s b, fun P => ?_, fun P hP => ?_, fun P hz => ?_⟩
    · funext i
      unfold turnU
      rw [h1]
      show _ = _ / k ^ 2 + _ / k ^ 2
      rw [← add_div]
      congr 1
      unfold turnV
      rw [← Finset.sum_add_distrib]
      exact Finset.sum_congr rfl fun j _ => by rw [Pi.add_apply, mul_add]
    · refine IsMomentField.turn (u := v (turnP k c s P)) hk h ?_ ?_
      · rw [turnP_sub hk]
        exact sub_ne_zero.2 (turnP_src hk h hP)
      · rw [turnP_sub hk]
        exact h2 _ (turnP_src hk h hP)
    · obtain ⟨a1, a2, a3⟩ := h3 _ (z hz)
      exact ⟨a1.turn, a2.turn a1, a3.turn h a1⟩
  · obtain ⟨C, hC⟩ := hs.decay
    refine ⟨2 * C, fun P hz hP a => ?_⟩
    have hp := hC _ (z hz) (turnP_src hk h hP)
    have e : (P 0) ^ 2 + (P 1) ^ 2 + (P 2 + k * d) ^ 2 =
        k ^ 2 * (turnP k c s P 0 ^ 2 + turnP k c s P 1 ^ 2 + (turnP k c s P 2 + d) ^ 2) := by
      unfold turnP
      rw [turnV_0, turnV_1, turnV_2]
      field_simp
      linear_combination -(P 0 ^ 2 + P 1 ^ 2) * h
    rw [e]
    generalize turnP k c s P 0 ^ 2 + turnP k c s P 1 ^ 2 + (turnP k c s P 2 + d) ^ 2 = D at *
    have c1 : |c| ≤ 1 := abs_le.2 ⟨by nlinarith [mul_self_nonneg s], by nlinarith [mul_self_nonneg s]⟩
    have s1 : |s| ≤ 1 := abs_le.2 ⟨by nlinarith [mul_self_nonneg c], by nlinarith [mul_self_nonneg c]⟩
    have b0 : 0 ≤ C / D := le_trans (abs_nonneg _) (hp 0)
    have two : |turnV c s (u (turnP k c s P)) a| ≤ 2 * (C / D) := by
      have m : ∀ x i, |x| ≤ 1 → |x * u (turnP k c s P) i| ≤ C / D := by
        intro x i hx
        rw [abs_mul]
        calc |x| * |u (turnP k c s P) i| ≤ 1 * (C / D) := mul_le_mul hx (hp i) (abs_nonneg _) zero_le_one
          _ = C / D := one_mul _
      fin_cases a
      · show |turnV c s (u (turnP k c s P)) 0| ≤ _
        rw [turnV_0]
        exact (abs_add_le _ _).trans (by linarith [m c 0 c1, m s 1 s1])
      · show |turnV c s (u (turnP k c s P)) 1| ≤ _
        rw [turnV_1]
        exact (abs_sub _ _).trans (by linarith [m c 1 c1, m s 0 s1])
      · show |turnV c s (u (turnP k c s P)) 2| ≤ _
        rw [turnV_2]
        linarith [hp 2]
    unfold turnU
    rw [abs_div, abs_of_pos (by positivity : 0 < k ^ 2)]
    calc _ ≤ 2 * (C / D) / k ^ 2 := by gcongr
      _ = 2 * C / (k ^ 2 * D) := by
        by_cases hD : D = 0
        · simp [hD]
        · field_simp

end GRT.Okada.Spec
