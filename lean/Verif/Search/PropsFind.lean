import Verif.Search.Model
import Mathlib.Tactic.Linarith
import Mathlib.Data.Rat.Lemmas
import Mathlib.Algebra.Order.Field.Rat

/-! Property C04: linear searches. -/

set_option linter.unusedSectionVars false

namespace GRT.Search

variable {α : Type*}

/-! #### exact element -/

theorem findElementFrom_spec [DecidableEq α] (x : α) (l : List α) (i : Nat) :
    (findElementFrom x l i = -1 ∧ x ∉ l) ∨
    (∃ j : Nat, findElementFrom x l i = ((i + j : Nat) : Int) ∧ l[j]? = some x ∧
      ∀ m < j, l[m]? ≠ some x) := by
  induction l generalizing i with
  | nil => left; simp [findElementFrom]
  | cons a t ih =>
    unfold findElementFrom
    by_cases h : a = x
    · right; exact ⟨0, by simp [h], by simp [h], by simp⟩
    · rw [if_neg h]
      rcases ih (i + 1) with ⟨e, hn⟩ | ⟨j, e, hj, hm⟩
      · left; exact ⟨e, by simp [hn, Ne.symm h]⟩
      · right
        refine ⟨j + 1, by rw [e]; omega, by simpa using hj, ?_⟩
        intro m hmj
        cases m with
        | zero => simpa using h
        | succ m => simpa using hm m (by omega)

/-- C04 (exact search): `-1` exactly when absent, otherwise the first position. -/
theorem C04_findElement [DecidableEq α] (arr : List α) (x : α) :
    (x ∉ arr → findElement arr x = -1) ∧
    (x ∈ arr → ∃ j : Nat, findElement arr x = (j : Int) ∧ arr[j]? = some x ∧
      ∀ m < j, arr[m]? ≠ some x) := by
  rcases findElementFrom_spec x arr 0 with ⟨e, hn⟩ | ⟨j, e, hj, hm⟩
  · exact ⟨fun _ => e, fun h => absurd h hn⟩
  · refine ⟨fun h => absurd (List.mem_of_getElem? hj) h, fun _ => ⟨j, by simpa [findElement] using e, hj, hm⟩⟩

/-! #### extrema -/

section order
variable [LinearOrder α]

theorem minFrom_spec (pre l : List α) (s : Nat × α) (h0 : pre[s.1]? = some s.2)
    (hm : ∀ m b, pre[m]? = some b → s.2 ≤ b ∧ (m < s.1 → s.2 < b)) :
    ∃ v, (pre ++ l)[(minFrom l pre.length s).1]? = some v ∧
      ∀ m b, (pre ++ l)[m]? = some b → v ≤ b ∧ (m < (minFrom l pre.length s).1 → v < b) := by
  induction l generalizing pre s with
  | nil => exact ⟨s.2, by simpa [minFrom] using h0, by simpa [minFrom] using hm⟩
  | cons a t ih =>
    have hlt : s.1 < pre.length := (List.getElem?_eq_some_iff.1 h0).1
    unfold minFrom
    have e : pre ++ a :: t = (pre ++ [a]) ++ t := by simp
    rw [e, show pre.length + 1 = (pre ++ [a]).length by simp]
    have hcases : ∀ m b, (pre ++ [a])[m]? = some b → (m < pre.length ∧ pre[m]? = some b) ∨ (m = pre.length ∧ b = a) := by
      intro m b hb
      rcases lt_trichotomy m pre.length with h | h | h
      · left; rw [List.getElem?_append_left h] at hb; exact ⟨h, hb⟩
      · right; subst h; simp at hb; exact ⟨rfl, hb.symm⟩
      · rw [List.getElem?_eq_none (by simp; omega)] at hb; cases hb
    by_cases h : a < s.2
    · rw [if_pos h]
      apply ih
      · simp
      · intro m b hb
        rcases hcases m b hb with ⟨h1, h2⟩ | ⟨h1, h2⟩
        · have := (hm m b h2).1
          exact ⟨(h.trans_le this).le, fun _ => h.trans_le this⟩
        · subst h1; subst h2; exact ⟨le_refl _, fun hh => absurd hh (lt_irrefl _)⟩
    · rw [if_neg h]
      apply ih
      · rw [List.getElem?_append_left hlt]; exact h0
      · intro m b hb
        rcases hcases m b hb with ⟨h1, h2⟩ | ⟨h1, h2⟩
        · exact hm m b h2
        · subst h1; subst h2; exact ⟨not_lt.1 h, fun hh => by omega⟩

/-- C04 (minimum): on a non-empty array the index is valid, attains the minimum, and is the first to
do so. -/
theorem C04_findMin (arr : List α) (hne : arr ≠ []) :
    ∃ i v, findMin arr = some i ∧ arr[i]? = some v ∧
      ∀ m b, arr[m]? = some b → v ≤ b ∧ (m < i → v < b) := by
  match arr, hne with
  | a :: t, _ =>
    have h := minFrom_spec [a] t (0, a) (by simp) (by
      intro m b hb
      cases m with
      | zero => simp at hb; subst hb; exact ⟨le_refl _, by simp⟩
      | succ m => simp at hb)
    obtain ⟨v, h1, h2⟩ := h
    have e : minFrom (a :: t) 0 (0, a) = minFrom t [a].length (0, a) := by
      simp [minFrom]
    exact ⟨(minFrom t [a].length (0, a)).1, v, by simp only [findMin]; rw [e], by simpa using h1,
      by simpa using h2⟩

theorem maxFrom_eq_minFrom (l : List α) (i : Nat) (s : Nat × α) :
    (maxFrom l i s).1 = (minFrom (α := αᵒᵈ) (l.map OrderDual.toDual) i (s.1, OrderDual.toDual s.2)).1 := by
  induction l generalizing i s with
  | nil => rfl
  | cons a t ih =>
    unfold maxFrom
    simp only [List.map_cons]
    unfold minFrom
    rw [ih]
    by_cases h : a > s.2
    · rw [if_pos h, if_pos (by simpa using h)]
    · rw [if_neg h, if_neg (by simpa using h)]

/-- C04 (maximum). -/
theorem C04_findMax (arr : List α) (hne : arr ≠ []) :
    ∃ i v, findMax arr = some i ∧ arr[i]? = some v ∧
      ∀ m b, arr[m]? = some b → b ≤ v ∧ (m < i → b < v) := by
  obtain ⟨i, v, h1, h2, h3⟩ := C04_findMin (α := αᵒᵈ) (arr.map OrderDual.toDual) (by simpa using hne)
  refine ⟨i, OrderDual.ofDual v, ?_, ?_, ?_⟩
  · match arr, hne with
    | a :: t, _ =>
      simp only [findMax, List.map_cons, findMin] at h1 ⊢
      rw [maxFrom_eq_minFrom]; exact h1
  · rw [List.getElem?_map, Option.map_eq_some_iff] at h2
    obtain ⟨a, ha, e⟩ := h2
    rw [ha, ← e]; rfl
  · intro m b hb
    have := h3 m (OrderDual.toDual b) (by rw [List.getElem?_map, hb]; rfl)
    exact this

end order

/-! #### nearest values -/

section field
variable [Field α] [LinearOrder α] [IsStrictOrderedRing α]

theorem lessEqualFrom_spec (x : α) (pre l : List α) (s : Int × α)
    (h : (s = (-1, -1) ∧ ∀ b ∈ pre, x < b) ∨
      (∃ (j : Nat) (v : α), s = ((j : Int), x - v) ∧ pre[j]? = some v ∧ v ≤ x ∧
        ∀ m b, pre[m]? = some b → b ≤ x → b ≤ v ∧ (m < j → b < v))) :
    let r := lessEqualFrom x l pre.length s
    (r.1 = -1 ∧ ∀ b ∈ pre ++ l, x < b) ∨
      (∃ (j : Nat) (v : α), r.1 = (j : Int) ∧ (pre ++ l)[j]? = some v ∧ v ≤ x ∧
        ∀ m b, (pre ++ l)[m]? = some b → b ≤ x → b ≤ v ∧ (m < j → b < v)) := by
  induction l generalizing pre s with
  | nil =>
    rcases h with ⟨rfl, h⟩ | ⟨j, v, rfl, h⟩
    · left; simpa [lessEqualFrom] using h
    · right; exact ⟨j, v, by simp [lessEqualFrom], by simpa using h⟩
  | cons a t ih =>
    have e : pre ++ a :: t = (pre ++ [a]) ++ t := by simp
    have hcases : ∀ m b, (pre ++ [a])[m]? = some b → (m < pre.length ∧ pre[m]? = some b) ∨ (m = pre.length ∧ b = a) := by
      intro m b hb
      rcases lt_trichotomy m pre.length with h | h | h
      · left; rw [List.getElem?_append_left h] at hb; exact ⟨h, hb⟩
      · right; subst h; simp at hb; exact ⟨rfl, hb.symm⟩
      · rw [List.getElem?_eq_none (by simp; omega)] at hb; cases hb
    simp only
    unfold lessEqualFrom
    rw [e, show pre.length + 1 = (pre ++ [a]).length by simp]
    apply ih
    unfold lessEqualStep
    rcases h with ⟨rfl, h⟩ | ⟨j, v, rfl, hj, hv, h⟩
    · by_cases ha : x - a ≥ 0
      · right
        refine ⟨pre.length, a, ?_, by simp, by linarith, ?_⟩
        · rw [if_pos ⟨ha, Or.inl (by norm_num)⟩]
        · intro m b hb hbx
          rcases hcases m b hb with ⟨h1, h2⟩ | ⟨h1, h2⟩
          · exact absurd (h b (List.mem_of_getElem? h2)) (not_lt.2 hbx)
          · subst h2; exact ⟨le_refl _, fun hh => by omega⟩
      · left
        rw [if_neg (fun h => ha h.1)]
        refine ⟨rfl, ?_⟩
        intro b hb
        rcases List.mem_append.1 hb with hb | hb
        · exact h b hb
        · simp at hb; subst hb; linarith [not_le.1 ha]
    · right
      have hjl : j < pre.length := (List.getElem?_eq_some_iff.1 hj).1
      by_cases ha : x - a ≥ 0 ∧ (x - v < 0 ∨ x - a < x - v)
      · have hva : v < a := by rcases ha.2 with h' | h' <;> linarith
        refine ⟨pre.length, a, ?_, by simp, by linarith [ha.1], ?_⟩
        · rw [if_pos ha]
        · intro m b hb hbx
          rcases hcases m b hb with ⟨h1, h2⟩ | ⟨h1, h2⟩
          · have := (h m b h2 hbx).1
            exact ⟨by linarith, fun _ => by linarith⟩
          · subst h2; exact ⟨le_refl _, fun hh => by omega⟩
      · refine ⟨j, v, ?_, ?_, hv, ?_⟩
        · rw [if_neg ha]
        · rw [List.getElem?_append_left hjl]; exact hj
        · intro m b hb hbx
          rcases hcases m b hb with ⟨h1, h2⟩ | ⟨h1, h2⟩
          · exact h m b h2 hbx
          · subst h2
            refine ⟨?_, fun hh => by omega⟩
            by_contra hc
            exact ha ⟨by linarith, Or.inr (by linarith)⟩

/-- C04 (closest from below): `-1` exactly when every entry exceeds the target, otherwise the first
position of the largest entry not above the target. -/
theorem C04_findLessEqualClosest (arr : List α) (x : α) :
    (findLessEqualClosest arr x = -1 ∧ ∀ b ∈ arr, x < b) ∨
      (∃ (j : Nat) (v : α), findLessEqualClosest arr x = (j : Int) ∧ arr[j]? = some v ∧ v ≤ x ∧
        ∀ m b, arr[m]? = some b → b ≤ x → b ≤ v ∧ (m < j → b < v)) := by
  simpa [findLessEqualClosest] using lessEqualFrom_spec x [] arr (-1, -1) (Or.inl ⟨rfl, by simp⟩)

theorem closestFrom_spec (x : α) (pre l : List α) (s : Nat × α)
    (hne : pre ++ l ≠ [])
    (h : (s = (0, -1) ∧ pre = []) ∨
      (∃ v, s.2 = |x - v| ∧ pre[s.1]? = some v ∧
        ∀ m b, pre[m]? = some b → |x - v| ≤ |x - b| ∧ (m < s.1 → |x - v| < |x - b|))) :
    ∃ v, (pre ++ l)[(closestFrom x l pre.length s).1]? = some v ∧
        ∀ m b, (pre ++ l)[m]? = some b → |x - v| ≤ |x - b| ∧
          (m < (closestFrom x l pre.length s).1 → |x - v| < |x - b|) := by
  induction l generalizing pre s with
  | nil =>
    rcases h with ⟨rfl, rfl⟩ | ⟨v, h0, h1, h2⟩
    · simp at hne
    · exact ⟨v, by simpa [closestFrom] using h1, by simpa [closestFrom] using h2⟩
  | cons a t ih =>
    have e : pre ++ a :: t = (pre ++ [a]) ++ t := by simp
    have hcases : ∀ m b, (pre ++ [a])[m]? = some b → (m < pre.length ∧ pre[m]? = some b) ∨ (m = pre.length ∧ b = a) := by
      intro m b hb
      rcases lt_trichotomy m pre.length with h | h | h
      · left; rw [List.getElem?_append_left h] at hb; exact ⟨h, hb⟩
      · right; subst h; simp at hb; exact ⟨rfl, hb.symm⟩
      · rw [List.getElem?_eq_none (by simp; omega)] at hb; cases hb
    simp only [closestFrom]
    rw [e, show pre.length + 1 = (pre ++ [a]).length by simp]
    apply ih _ _ (by simp)
    right
    rcases h with ⟨rfl, rfl⟩ | ⟨v, h0, h1, h2⟩
    · rw [if_pos (Or.inl (by norm_num))]
      refine ⟨a, rfl, by simp, ?_⟩
      intro m b hb
      rcases hcases m b hb with ⟨h1, h2⟩ | ⟨h1, h2⟩
      · simp at h1
      · subst h2; exact ⟨le_refl _, fun hh => by simp at hh⟩
    · have hjl : s.1 < pre.length := (List.getElem?_eq_some_iff.1 h1).1
      by_cases hc : s.2 < 0 ∨ |x - a| < s.2
      · rw [if_pos hc]
        have hlt : |x - a| < |x - v| := by
          rcases hc with hc | hc
          · rw [h0] at hc; exact absurd hc (not_lt.2 (abs_nonneg _))
          · rwa [h0] at hc
        refine ⟨a, rfl, by simp, ?_⟩
        intro m b hb
        rcases hcases m b hb with ⟨g1, g2⟩ | ⟨g1, g2⟩
        · have := (h2 m b g2).1
          exact ⟨(hlt.trans_le this).le, fun _ => hlt.trans_le this⟩
        · subst g2; subst g1; exact ⟨le_refl _, fun hh => absurd hh (lt_irrefl _)⟩
      · rw [if_neg hc]
        refine ⟨v, h0, by rw [List.getElem?_append_left hjl]; exact h1, ?_⟩
        intro m b hb
        rcases hcases m b hb with ⟨g1, g2⟩ | ⟨g1, g2⟩
        · exact h2 m b g2
        · subst g2; subst g1
          refine ⟨?_, fun hh => by omega⟩
          rw [← h0]; exact not_lt.1 (fun h => hc (Or.inr h))

/-- C04 (closest): on a non-empty array the index is valid, no entry is closer, and it is the first
such. -/
theorem C04_findClosest (arr : List α) (x : α) (hne : arr ≠ []) :
    ∃ v, arr[findClosest arr x]? = some v ∧
        ∀ m b, arr[m]? = some b → |x - v| ≤ |x - b| ∧ (m < findClosest arr x → |x - v| < |x - b|) := by
  simpa [findClosest] using closestFrom_spec x [] arr (0, -1) (by simpa using hne) (Or.inl ⟨rfl, rfl⟩)

end field

example : findMin ([3, 1, 2, 1] : List ℚ) = some 1 := by decide +kernel
example : findMax ([3, 1, 3, 1] : List ℚ) = some 0 := by decide +kernel
example : findClosest ([0, 2, 4] : List ℚ) 3 = 1 := by decide +kernel
example : findLessEqualClosest ([0, 2, 4] : List ℚ) 3 = 1 := by decide +kernel
example : findLessEqualClosest ([5, 7] : List ℚ) 3 = -1 := by decide +kernel
example : findElement ([5, 7] : List ℚ) 7 = 1 := by decide +kernel
/-- Outside C04: on an empty array the extremum searches read before testing the size. -/
theorem C04_findMin_empty_undefined [LinearOrder α] : findMin ([] : List α) = none := rfl

end GRT.Search
