import Verif.Search.Model
import Mathlib.Tactic.Linarith
import Mathlib.Tactic.Ring
import Mathlib.Tactic.FieldSimp
import Mathlib.Tactic.NormNum
import Mathlib.Data.Rat.Lemmas
import Mathlib.Algebra.Order.Field.Rat

/-! Property C01: interpolation lookup. -/

set_option linter.unusedSectionVars false

namespace GRT.Search

variable {α : Type*} [Field α] [LinearOrder α] [IsStrictOrderedRing α]

theorem atol_pos : (0 : α) < atol := by unfold atol; positivity

/-- Invariant of the scan: it stops at an index `i` with `x[i+1]` readable, `q ≤ x[i+1] + atol`, and
`x[i] < q`. -/
theorem locScan_spec (q : α) : ∀ (a : α) (t : List α), a < q →
    (∃ l, (a :: t).getLast? = some l ∧ q < l) →
    ∃ u v, (a :: t)[locScan (.num q) (a :: t)]? = some u ∧
      (a :: t)[locScan (.num q) (a :: t) + 1]? = some v ∧ u < q ∧ q ≤ v + atol := by
  intro a t
  induction t generalizing a with
  | nil =>
    rintro ha ⟨l, hl, hq⟩
    simp at hl; subst hl; exact absurd hq (not_lt.2 ha.le)
  | cons b t ih =>
    rintro ha ⟨l, hl, hq⟩
    unfold locScan
    by_cases hb : q ≤ b + atol
    · rw [if_pos (by simpa [FP.le] using hb)]
      exact ⟨a, b, by simp, by simp, ha, hb⟩
    · rw [if_neg (by simpa [FP.le] using hb)]
      have hbq : b < q := by have := atol_pos (α := α); linarith
      obtain ⟨u, v, h1, h2, h3, h4⟩ := ih b hbq ⟨l, by simpa using hl, hq⟩
      exact ⟨u, v, by simpa using h1, by simpa using h2, h3, h4⟩

/-- Specification of an acceptable lookup answer, independent of the scan. -/
def GoodAnswer (x : List α) (q : α) (i0 i1 : Nat) (w : α) : Prop :=
  ∃ a b, x[i0]? = some a ∧ x[i1]? = some b ∧ i0 ≤ i1 ∧ i1 ≤ i0 + 1 ∧
    0 ≤ w ∧ w ≤ 2 ∧ |(1 - w) * a + w * b - q| ≤ 2 * atol ∧
    -- exact inside the axis when neighbouring entries are not closer than the slack
    ((∀ u v, (∃ i, x[i]? = some u ∧ x[i + 1]? = some v) → atol ≤ v - u) →
      (∃ u ∈ x, u ≤ q) → (∃ u ∈ x, q ≤ u) → (1 - w) * a + w * b = q)

/-- C01: lookup in an ascending axis with a number as query. Either the answer is good (in
particular no read is out of bounds) or the query is refused and lies outside the axis by more
than the slack. -/
theorem C01_locate_correct (x : List α) (hs : x.Pairwise (· ≤ ·)) (q : α) :
    match locate x (.num q) with
    | .ok i0 i1 w => GoodAnswer x q i0 i1 w
    | .refuse => x = [] ∨ (∀ u ∈ x, q < u - atol) ∨ (∀ u ∈ x, u + atol < q)
    | .okNaN _ _ => False
    | .oob => False := by
  have hat := atol_pos (α := α)
  match x, hs with
  | [], _ => simp [locate]
  | [a], _ =>
    simp only [locate, farFrom]
    by_cases h : |q - a| > atol
    · simp only [h, decide_true, if_true]
      rcases lt_abs.1 h with h | h
      · right; right; simp; linarith
      · right; left; simp; linarith
    · simp only [h, decide_false, Bool.false_eq_true, if_false]
      have h' := not_lt.1 h
      refine ⟨a, a, by simp, by simp, le_refl _, by omega, le_refl _, by norm_num, ?_, ?_⟩
      · rw [show (1 - 0) * a + 0 * a - q = -(q - a) by ring, abs_neg]; linarith
      · rintro - ⟨u, hu, h1⟩ ⟨v, hv, h2⟩
        simp at hu hv; subst hu; subst hv
        have := le_antisymm h1 h2; linarith
  | a :: b :: t, hs =>
    have hmin : ∀ u ∈ a :: b :: t, a ≤ u := by
      intro u hu
      rcases List.mem_cons.1 hu with rfl | hu
      · exact le_refl _
      · exact (List.pairwise_cons.1 hs).1 u hu
    have hmaxgen : ∀ (l : List α) (hl : l ≠ []), l.Pairwise (· ≤ ·) → ∀ u ∈ l, u ≤ l.getLast hl := by
      intro l hl hp u hu
      rw [← List.dropLast_append_getLast hl] at hu hp
      rw [List.pairwise_append] at hp
      rcases List.mem_append.1 hu with hu | hu
      · exact hp.2.2 u hu _ (by simp)
      · simp at hu; exact hu.le
    have hmax : ∀ u ∈ a :: b :: t, u ≤ (b :: t).getLast (by simp) := by
      intro u hu
      have := hmaxgen (a :: b :: t) (by simp) hs u hu
      simpa using this
    set l := (b :: t).getLast (by simp) with hl
    have hlmem : l ∈ b :: t := List.getLast_mem _
    have hlast : (a :: b :: t)[(a :: b :: t).length - 1]? = some l := by
      rw [← List.getLast?_eq_getElem?, List.getLast?_eq_getLast_of_ne_nil (by simp)]
      simp [hl]
    simp only [locate, ← hl]
    by_cases h1 : q < a - atol
    · simp only [FP.lt, h1, true_or, if_true]
      right; left; intro u hu; have := hmin u hu; linarith
    by_cases h2 : l + atol < q
    · simp only [FP.lt, h2, or_true, if_true]
      right; right; intro u hu; have := hmax u hu; linarith
    simp only [FP.lt, h1, h2, or_self, if_false, FP.le]
    by_cases h3 : q ≤ a
    · simp only [h3, if_true]
      refine ⟨a, a, by simp, by simp, le_refl _, by omega, le_refl _, by norm_num, ?_, ?_⟩
      · rw [abs_le]; constructor <;> linarith
      · rintro - ⟨u, hu, hu1⟩ -
        have := hmin u hu
        have := le_antisymm h3 (le_trans this hu1); rw [this]; ring
    simp only [h3, if_false]
    by_cases h4 : l ≤ q
    · simp only [h4, if_true]
      refine ⟨l, l, hlast, hlast, le_refl _, by omega, le_refl _, by norm_num, ?_, ?_⟩
      · rw [abs_le]; constructor <;> linarith
      · rintro - - ⟨u, hu, hu1⟩
        have := hmax u hu
        have := le_antisymm h4 (le_trans hu1 this); rw [this]; ring
    simp only [h4, if_false]
    obtain ⟨u, v, e1, e2, huq, hqv⟩ := locScan_spec q a (b :: t) (not_le.1 h3)
      ⟨l, by rw [List.getLast?_eq_getLast_of_ne_nil (by simp)]; simp [hl], not_le.1 h4⟩
    have huv : u ≤ v := by
      rw [List.pairwise_iff_getElem] at hs
      obtain ⟨hi, rfl⟩ := List.getElem?_eq_some_iff.1 e1
      obtain ⟨hj, rfl⟩ := List.getElem?_eq_some_iff.1 e2
      exact hs _ _ hi hj (by omega)
    simp only [locFinish, e1, e2]
    rw [abs_of_nonneg (by linarith : (0 : α) ≤ v - u)]
    by_cases h5 : v - u < atol
    · simp only [h5, if_true]
      refine ⟨u, v, e1, e2, by omega, le_refl _, le_refl _, by norm_num, ?_, ?_⟩
      · rw [abs_le]; constructor <;> linarith
      · intro h; have := h u v ⟨_, e1, e2⟩; linarith
    · simp only [h5, if_false]
      have hd : 0 < v - u := by linarith [not_lt.1 h5]
      have hx : (1 - (q - u) / (v - u)) * u + (q - u) / (v - u) * v = q := by
        field_simp; ring
      refine ⟨u, v, e1, e2, by omega, le_refl _, div_nonneg (by linarith) hd.le, ?_, ?_, fun _ _ _ => hx⟩
      · rw [div_le_iff₀ hd]; linarith [not_lt.1 h5]
      · rw [hx]; simp; linarith

/-- C01, other direction: a query within the slack of the axis range is never refused. -/
theorem C01_locate_complete (x : List α) (q : α)
    (h : ∃ u v, x.head? = some u ∧ x.getLast? = some v ∧ u - atol ≤ q ∧ q ≤ v + atol) :
    locate x (.num q) ≠ .refuse := by
  obtain ⟨u, v, hu, hv, h1, h2⟩ := h
  match x with
  | [] => simp at hu
  | [a] =>
    simp at hu hv; subst hu; subst hv
    have : ¬ (|q - a| > atol) := by
      rw [not_lt, abs_le]; constructor <;> linarith
    simp [locate, farFrom, this]
  | a :: b :: t =>
    simp at hu; subst hu
    rw [List.getLast?_eq_getLast_of_ne_nil (by simp)] at hv
    simp at hv
    simp only [locate, FP.lt, FP.le, hv]
    rw [if_neg (by rintro (h | h) <;> linarith)]
    split
    · simp
    split
    · simp
    simp only [locFinish]
    split
    · split_ifs <;> simp
    · simp

/-- C01 fails for a NaN query (which `strtod`-parsed depths may be): on every axis with at least two
entries the lookup reads one element past the end of the axis. -/
theorem C01_violated_nan (x : List α) (h : 2 ≤ x.length) : locate x .nan = .oob := by
  have hscan : ∀ l : List α, l ≠ [] → locScan (.nan : FP α) l = l.length - 1 := by
    intro l
    induction l with
    | nil => simp
    | cons a t ih =>
      intro _
      cases t with
      | nil => simp [locScan]
      | cons b t =>
        have := ih (by simp)
        simp [locScan, FP.le] at this ⊢
        omega
  match x, h with
  | a :: b :: t, _ =>
    simp only [locate, FP.lt, FP.le, or_self, if_false]
    rw [hscan _ (by simp)]
    simp [locFinish]

/-- A NaN query on a one-entry axis is accepted. -/
theorem C01_violated_nan_single (a : α) : locate [a] .nan = .ok 0 0 0 := by
  simp [locate, farFrom]

-- concrete instances of the hypotheses
example : ([0, 1, 3] : List ℚ).Pairwise (· ≤ ·) ∧ locate ([0, 1, 3] : List ℚ) (.num 2) = .ok 1 2 (1/2) := by
  decide +kernel
example : locate ([0, 1, 3] : List ℚ) (.num 4) = .refuse := by decide +kernel
example : ∃ u v, ([0, 1, 3] : List ℚ).head? = some u ∧ ([0, 1, 3] : List ℚ).getLast? = some v ∧
    u - atol ≤ 3 ∧ 3 ≤ v + atol := ⟨0, 3, by decide +kernel⟩
example : 2 ≤ ([0, 1, 3] : List ℚ).length := by decide

end GRT.Search
