import Verif.Search.Model
import Mathlib.Tactic.Linarith
import Mathlib.Data.List.Perm.Basic
import Mathlib.Data.List.Sort
import Mathlib.Data.Rat.Lemmas
import Mathlib.Algebra.Order.Field.Rat

/-! Properties C02 (bounded ordered insertion) and C03 (index sort). -/

set_option linter.unusedSectionVars false

namespace GRT.Search

variable {α : Type*} [LinearOrder α]

/-- "a may stand before b" for the requested direction. Specification only. -/
def Before (asc : Bool) (a b : α) : Prop := if asc then a ≤ b else b ≤ a

theorem Before.trans' {asc : Bool} {a b c : α} (h1 : Before asc a b) (h2 : Before asc b c) :
    Before asc a c := by
  cases asc <;> simp only [Before, if_true, if_false, Bool.false_eq_true] at *
  · exact le_trans h2 h1
  · exact le_trans h1 h2

theorem Before.total' (asc : Bool) (a b : α) : Before asc a b ∨ Before asc b a := by
  cases asc <;> simp only [Before, if_true, if_false, Bool.false_eq_true]
  · exact le_total b a
  · exact le_total a b

theorem sgn_compare_neg (asc : Bool) (a b : α) :
    sgn asc * compare a b < 0 ↔ ¬ Before asc b a := by
  cases asc <;> simp only [sgn, compare, Before, if_true, if_false, Bool.false_eq_true, not_le]
  · by_cases h : a > b
    · simp [h]
    · by_cases h' : a < b <;> simp [h, h']
  · by_cases h : a > b
    · simp [h]; exact h.le
    · by_cases h' : a < b <;> simp [h, h']

theorem sgn_compare_nonneg (asc : Bool) (a b : α) :
    sgn asc * compare a b ≥ 0 ↔ Before asc b a := by
  rw [← not_iff_not, ← sgn_compare_neg]; simp

/-- What `insertPos` returns: a split of the array into elements that stay in front of the target
(ties included) and a rest whose first element must follow it. -/
theorem insertPos_spec (asc : Bool) (t : α) (l : List α) (hs : l.Pairwise (Before asc)) :
    insertPos asc t l ≤ l.length ∧ (∀ a ∈ l.take (insertPos asc t l), Before asc a t) ∧
    (∀ a ∈ l.drop (insertPos asc t l), Before asc t a ∧ ¬ Before asc a t) := by
  induction l with
  | nil => simp [insertPos]
  | cons a l ih =>
    obtain ⟨h1, h2⟩ := List.pairwise_cons.1 hs
    obtain ⟨i1, i2, i3⟩ := ih h2
    unfold insertPos
    by_cases h : sgn asc * compare t a < 0
    · rw [if_pos h]
      rw [sgn_compare_neg] at h
      have hta : Before asc t a := (Before.total' asc a t).resolve_left h
      refine ⟨by simp, by simp, ?_⟩
      intro b hb
      simp at hb
      rcases hb with rfl | hb
      · exact ⟨hta, h⟩
      · exact ⟨hta.trans' (h1 b hb), fun hbt => h ((h1 b hb).trans' hbt)⟩
    · rw [if_neg h]
      rw [sgn_compare_neg, not_not] at h
      refine ⟨by simp; omega, ?_, ?_⟩
      · intro b hb
        simp at hb
        rcases hb with rfl | hb
        · exact h
        · exact i2 b hb
      · intro b hb
        simp at hb
        exact i3 b hb

theorem split_sorted (asc : Bool) (t : α) (l : List α) (hs : l.Pairwise (Before asc)) (p : Nat)
    (h1 : ∀ a ∈ l.take p, Before asc a t) (h2 : ∀ a ∈ l.drop p, Before asc t a) :
    (l.take p ++ t :: l.drop p).Pairwise (Before asc) := by
  rw [← List.take_append_drop p l, List.pairwise_append] at hs
  rw [List.pairwise_append]
  refine ⟨hs.1, ?_, ?_⟩
  · rw [List.pairwise_cons]; exact ⟨h2, hs.2.1⟩
  · intro a ha b hb
    rcases List.mem_cons.1 hb with rfl | hb
    · exact h1 a ha
    · exact hs.2.2 a ha b hb

/-- Specification of the bounded list after a history: sorted, as long as capacity allows, a
sub-multiset of what was inserted, and nothing left out should precede something kept. -/
structure TopK (asc : Bool) (cap : Nat) (history kept : List α) : Prop where
  sorted : kept.Pairwise (Before asc)
  length : kept.length = min cap history.length
  best : ∃ rejected, (kept ++ rejected).Perm history ∧
    ∀ a ∈ kept, ∀ b ∈ rejected, Before asc a b

/-- One insertion: the invariant is kept, and the returned value tells where the target is. -/
theorem insertOrdered_step (asc : Bool) (cap : Nat) (hc : 1 ≤ cap) (hist kept : List α) (t : α)
    (h : TopK asc cap hist kept) :
    ∃ kept' r, insertOrdered asc cap kept t = some (kept', r) ∧ TopK asc cap (hist ++ [t]) kept' ∧
      ((r = -1 ∧ kept' = kept ∧ kept.length = cap ∧ ∀ a ∈ kept, Before asc a t) ∨
        (0 ≤ r ∧ kept'[r.toNat]? = some t)) := by
  obtain ⟨rej, hperm, hbest⟩ := h.best
  obtain ⟨hp, hfront, hback⟩ := insertPos_spec asc t kept h.sorted
  by_cases hfull : kept.length = cap
  · have hne : kept ≠ [] := by rintro rfl; simp at hfull; omega
    have hlast : kept.getLast? = some (kept.getLast hne) := List.getLast?_eq_getLast_of_ne_nil hne
    have hall : ∀ a ∈ kept, Before asc a (kept.getLast hne) := by
      intro a ha
      have hs := h.sorted
      rw [← List.dropLast_append_getLast hne] at ha hs
      rw [List.pairwise_append] at hs
      rcases List.mem_append.1 ha with ha | ha
      · exact hs.2.2 a ha _ (by simp)
      · simp at ha; rw [← ha]; cases asc <;> simp [Before]
    have hlen : min cap hist.length = cap := by rw [← h.length, hfull]
    by_cases hrej : Before asc (kept.getLast hne) t
    · refine ⟨kept, -1, ?_, ⟨h.sorted, ?_, rej ++ [t], ?_, ?_⟩, Or.inl ⟨rfl, rfl, hfull, ?_⟩⟩
      · simp only [insertOrdered, hfull, if_true, hlast]
        rw [if_pos ((sgn_compare_nonneg asc _ _).2 hrej)]
      · simp; omega
      · rw [← List.append_assoc]; exact hperm.append_right _
      · intro a ha b hb
        rcases List.mem_append.1 hb with hb | hb
        · exact hbest a ha b hb
        · simp at hb; subst hb; exact (hall a ha).trans' hrej
      · intro a ha; exact (hall a ha).trans' hrej
    · have hpos : insertPos asc t kept ≤ cap - 1 := by
        by_contra hcon
        have hpe : insertPos asc t kept = kept.length := by omega
        rw [hpe, List.take_length] at hfront
        exact hrej (hfront _ (List.getLast_mem hne))
      set p := insertPos asc t kept with hpdef
      have hmin : min p (cap - 1) = p := by omega
      have hkept : kept = kept.dropLast ++ [kept.getLast hne] := (List.dropLast_append_getLast hne).symm
      have hdl : kept.dropLast.length = cap - 1 := by simp [hfull]
      have hshift : shiftIn kept p (cap - 1) t =
          kept.dropLast.take p ++ t :: kept.dropLast.drop p := by
        unfold shiftIn
        have e1 : kept.take p = kept.dropLast.take p := by
          conv_lhs => rw [hkept]
          rw [List.take_append_of_le_length (by omega)]
        have e2 : (kept.drop p).take (cap - 1 - p) = kept.dropLast.drop p := by
          conv_lhs => rw [hkept]
          rw [List.drop_append_of_le_length (by omega), List.take_append_of_le_length (by simp; omega)]
          apply List.take_of_length_le; simp; omega
        have e3 : kept.drop (cap - 1 + 1) = [] := List.drop_eq_nil_of_le (by omega)
        rw [e1, e2, e3, List.append_nil]
      have hsdl : kept.dropLast.Pairwise (Before asc) := by
        have hs := h.sorted; rw [hkept, List.pairwise_append] at hs; exact hs.1
      have hf' : ∀ a ∈ kept.dropLast.take p, Before asc a t := by
        intro a ha; apply hfront
        rw [hkept, List.take_append_of_le_length (by omega)]; exact ha
      have hb' : ∀ a ∈ kept.dropLast.drop p, Before asc t a := by
        intro a ha; apply fun h => (hback a h).1
        rw [hkept, List.drop_append_of_le_length (by omega)]; exact List.mem_append_left _ ha
      have htl : Before asc t (kept.getLast hne) := (Before.total' asc _ _).resolve_left hrej
      refine ⟨shiftIn kept p (cap - 1) t, (p : Int), ?_, ⟨?_, ?_, kept.getLast hne :: rej, ?_, ?_⟩,
        Or.inr ⟨by omega, ?_⟩⟩
      · simp only [insertOrdered, hfull, if_true, hlast]
        rw [if_neg (by rw [sgn_compare_nonneg]; exact hrej), ← hpdef, hmin]
      · rw [hshift]; exact split_sorted asc t _ hsdl p hf' hb'
      · rw [hshift]; simp; omega
      · rw [hshift]
        have : (kept.dropLast.take p ++ t :: kept.dropLast.drop p).Perm (t :: kept.dropLast) := by
          conv_rhs => rw [← List.take_append_drop p kept.dropLast]
          exact List.perm_middle
        calc ((kept.dropLast.take p ++ t :: kept.dropLast.drop p) ++ (kept.getLast hne :: rej)).Perm _ :=
              this.append_right _
          _ = t :: ((kept.dropLast ++ [kept.getLast hne]) ++ rej) := by simp
          _ = t :: (kept ++ rej) := by rw [← hkept]
          List.Perm _ _ := hperm.cons t
          List.Perm _ _ := (List.perm_append_singleton t hist).symm
      · rw [hshift]
        intro a ha b hb
        have hal : Before asc a (kept.getLast hne) := by
          rcases List.mem_append.1 ha with ha | ha
          · exact hall a (List.dropLast_subset _ (List.take_subset _ _ ha))
          · rcases List.mem_cons.1 ha with rfl | ha
            · exact htl
            · exact hall a (List.dropLast_subset _ (List.drop_subset _ _ ha))
        rcases List.mem_cons.1 hb with rfl | hb
        · exact hal
        · exact hal.trans' (hbest _ (List.getLast_mem hne) b hb)
      · rw [hshift, Int.toNat_natCast, List.getElem?_append_right (by simp)]
        simp [hdl, Nat.min_eq_left hpos]
  · have hlt : kept.length < cap := by have := h.length; omega
    have hhl : kept.length = hist.length := by have := h.length; omega
    have hrejnil : rej = [] := by
      have := hperm.length_eq; simp at this; exact List.eq_nil_of_length_eq_zero (by omega)
    subst hrejnil
    simp only [List.append_nil] at hperm
    set p := insertPos asc t kept with hpdef
    have hmin : min p kept.length = p := by omega
    have hshift : shiftIn kept p kept.length t = kept.take p ++ t :: kept.drop p := by
      unfold shiftIn
      have e2 : (kept.drop p).take (kept.length - p) = kept.drop p := List.take_of_length_le (by simp)
      have e3 : kept.drop (kept.length + 1) = [] := List.drop_eq_nil_of_le (by omega)
      rw [e2, e3, List.append_nil]
    refine ⟨shiftIn kept p kept.length t, (p : Int), ?_, ⟨?_, ?_, [], ?_, by simp⟩,
      Or.inr ⟨by omega, ?_⟩⟩
    · simp only [insertOrdered, hfull, if_false, ← hpdef]
      rw [if_neg (by omega : ¬ kept.length ≥ cap), hmin]
    · rw [hshift]; exact split_sorted asc t _ h.sorted p hfront (fun a ha => (hback a ha).1)
    · rw [hshift]; simp; omega
    · rw [hshift, List.append_nil]
      have : (kept.take p ++ t :: kept.drop p).Perm (t :: kept) := by
        conv_rhs => rw [← List.take_append_drop p kept]
        exact List.perm_middle
      exact this.trans ((hperm.cons t).trans (List.perm_append_singleton t hist).symm)
    · rw [hshift, Int.toNat_natCast, List.getElem?_append_right (by simp)]
      simp [Nat.min_eq_left hp]

theorem insertAll_topK (asc : Bool) (cap : Nat) (hc : 1 ≤ cap) (ts hist kept : List α)
    (h : TopK asc cap hist kept) :
    ∃ kept', insertAll asc cap ts kept = some kept' ∧ TopK asc cap (hist ++ ts) kept' := by
  induction ts generalizing hist kept with
  | nil => exact ⟨kept, rfl, by simpa using h⟩
  | cons t ts ih =>
    obtain ⟨k', r, e, hk, -⟩ := insertOrdered_step asc cap hc hist kept t h
    obtain ⟨k'', e', hk'⟩ := ih (hist ++ [t]) k' hk
    exact ⟨k'', by simp [insertAll, e, e'], by simpa using hk'⟩

theorem topK_nil (asc : Bool) (cap : Nat) : TopK asc cap ([] : List α) [] :=
  ⟨List.Pairwise.nil, by simp, [], by simp, by simp⟩

/-- C02: whatever sequence of values is inserted into an initially empty bounded list, no call is
undefined and the list ends up holding, in order, the `cap` best values inserted. -/
theorem C02_insert_history (asc : Bool) (cap : Nat) (hc : 1 ≤ cap) (ts : List α) :
    ∃ kept, insertAll asc cap ts [] = some kept ∧ TopK asc cap ts kept := by
  simpa using insertAll_topK asc cap hc ts [] [] (topK_nil asc cap)

/-- C02, return value: after any history, the next call returns `-1` and changes nothing exactly
when the list is full and every kept value may stand before the new one; otherwise it returns
the index at which the new value is now stored. -/
theorem C02_insert_return (asc : Bool) (cap : Nat) (hc : 1 ≤ cap) (ts kept : List α) (t : α)
    (h : insertAll asc cap ts [] = some kept) :
    ∃ kept' r, insertOrdered asc cap kept t = some (kept', r) ∧
      (r = -1 ↔ kept.length = cap ∧ ∀ a ∈ kept, Before asc a t) ∧
      (r = -1 → kept' = kept) ∧ (r ≠ -1 → 0 ≤ r ∧ kept'[r.toNat]? = some t) := by
  obtain ⟨k0, e0, hk⟩ := C02_insert_history asc cap hc ts
  rw [h] at e0; obtain rfl := Option.some.inj e0
  obtain ⟨k', r, e, -, hr⟩ := insertOrdered_step asc cap hc ts kept t hk
  refine ⟨k', r, e, ?_, ?_, ?_⟩
  · constructor
    · intro hr1
      rcases hr with ⟨_, _, h1, h2⟩ | ⟨h1, _⟩
      · exact ⟨h1, h2⟩
      · omega
    · rintro ⟨h1, h2⟩
      rcases hr with ⟨h, _⟩ | ⟨_, _⟩
      · exact h
      · exfalso
        have hne : kept ≠ [] := by rintro rfl; simp at h1; omega
        have hl : kept.getLast? = some (kept.getLast hne) := List.getLast?_eq_getLast_of_ne_nil hne
        simp only [insertOrdered, h1, if_true, hl] at e
        rw [if_pos ((sgn_compare_nonneg asc _ _).2 (h2 _ (List.getLast_mem hne)))] at e
        simp at e; omega
  · intro hr1
    rcases hr with ⟨_, h1, _⟩ | ⟨h1, _⟩
    · exact h1
    · omega
  · intro hr1
    rcases hr with ⟨h1, _⟩ | h1
    · exact absurd h1 hr1
    · exact h1

/-- The kept list is determined by the history: two lists with the specified content are equal. -/
theorem C02_topK_unique (asc : Bool) (cap : Nat) (hist k1 k2 : List α)
    (h1 : TopK asc cap hist k1) (h2 : TopK asc cap hist k2) : k1 = k2 := by
  -- both are the first `cap` entries of the sorted history
  have key : ∀ k, TopK asc cap hist k → ∀ s : List α, s.Perm hist → s.Pairwise (Before asc) →
      k = s.take k.length := by
    intro k hk s hs hsp
    obtain ⟨rej, hp, hb⟩ := hk.best
    have anti : ∀ a b : α, Before asc a b → Before asc b a → a = b := by
      intro a b h h'
      cases asc <;> simp only [Before, if_true, if_false, Bool.false_eq_true] at h h'
      · exact le_antisymm h' h
      · exact le_antisymm h h'
    have total : ∀ a b : α, Before asc a b ∨ Before asc b a := Before.total' asc
    let _ : DecidableRel (Before (α := α) asc) := fun a b => Classical.dec _
    have _ : Std.Total (Before (α := α) asc) := ⟨total⟩
    have _ : IsTrans α (Before asc) := ⟨fun _ _ _ => Before.trans'⟩
    set r' := rej.insertionSort (Before asc)
    have hr' : r'.Perm rej := List.perm_insertionSort _ rej
    have hrs : r'.Pairwise (Before asc) := List.pairwise_insertionSort _ rej
    have hcat : (k ++ r').Pairwise (Before asc) := by
      rw [List.pairwise_append]
      exact ⟨hk.sorted, hrs, fun a ha b hb' => hb a ha b (hr'.subset hb')⟩
    have : k ++ r' = s := by
      apply List.Perm.eq_of_pairwise _ hcat hsp
      · exact ((hr'.append_left k).trans hp).trans hs.symm
      · intro a b _ _ h h'; exact anti a b h h'
    rw [← this]; simp
  let _ : DecidableRel (Before (α := α) asc) := fun a b => Classical.dec _
  have _ : Std.Total (Before (α := α) asc) := ⟨Before.total' asc⟩
  have _ : IsTrans α (Before asc) := ⟨fun _ _ _ => Before.trans'⟩
  have hs : (hist.insertionSort (Before asc)).Perm hist := List.perm_insertionSort _ hist
  have hsp : (hist.insertionSort (Before asc)).Pairwise (Before asc) := List.pairwise_insertionSort _ hist
  rw [key k1 h1 _ hs hsp, key k2 h2 _ hs hsp, h1.length, h2.length]

example : insertAll true 3 ([5, 2, 9, 1, 4] : List ℚ) [] = some [1, 2, 4] := by decide +kernel
example : insertAll false 2 ([5, 2, 9, 1, 4] : List ℚ) [] = some [9, 5] := by decide +kernel
/-- Capacity zero is outside C02: the very first call reads before the array. -/
theorem C02_capacity_zero_undefined (asc : Bool) (t : α) : insertOrdered asc 0 [] t = none := by
  simp [insertOrdered]

/-! ### C03 -/

theorem comparePair_le (a b : α × Nat) :
    comparePair a b ≤ 0 ↔ a.1 < b.1 ∨ (a.1 = b.1 ∧ a.2 ≤ b.2) := by
  unfold comparePair compare
  rcases lt_trichotomy a.1 b.1 with h | h | h
  · simp [h, not_lt.2 h.le]
  · simp only [h, lt_irrefl, if_false, gt_iff_lt, ne_eq, not_true_eq_false, true_and, false_or]
    rcases lt_trichotomy a.2 b.2 with h' | h' | h'
    · simp [h', not_lt.2 h'.le, h'.le]
    · simp [h']
    · simp [h', not_lt.2 h'.le]
  · simp [h, not_lt.2 h.le, h.ne']

/-- Specification of a stable sort order: a permutation of the indices along which values do not
decrease and equal values keep their order. -/
structure StableOrder (arr : List α) (idx : List Nat) : Prop where
  perm : idx.Perm (List.range arr.length)
  sorted : idx.Pairwise (fun i j => ∀ a b, arr[i]? = some a → arr[j]? = some b →
    a < b ∨ (a = b ∧ i < j))

/-- C03: whatever the library sort does within its contract, the index sort is a stable sorting
permutation. -/
theorem C03_argsort_stable (arr : List α) (idx : List Nat) (h : ArgsortResult arr idx) :
    StableOrder arr idx := by
  obtain ⟨s, ⟨hp, hs⟩, rfl⟩ := h
  have hpi : (s.map Prod.snd).Perm (List.range arr.length) := by
    have := hp.map Prod.snd
    rw [argsortPairs, List.zipIdx_map_snd, List.range'_eq_map_range] at this
    simpa using this
  refine ⟨hpi, ?_⟩
  have hnd : (s.map Prod.snd).Nodup := hpi.nodup_iff.2 List.nodup_range
  rw [List.pairwise_map]
  have hnd' : s.Pairwise (fun a b => a.2 ≠ b.2) := by
    rw [List.Nodup, List.pairwise_map] at hnd; exact hnd
  refine ((hs.and hnd').imp_of_mem ?_)
  rintro ⟨a, i⟩ ⟨b, j⟩ ha hb ⟨hle, hne⟩ a' b' ha' hb'
  have hai := hp.subset ha
  have hbj := hp.subset hb
  rw [argsortPairs, List.mem_zipIdx_iff_getElem?] at hai hbj
  simp only at hai hbj ha' hb' hne
  rw [hai] at ha'; rw [hbj] at hb'
  obtain rfl := Option.some.inj ha'; obtain rfl := Option.some.inj hb'
  rcases (comparePair_le _ _).1 hle with h | ⟨h, h'⟩
  · exact Or.inl h
  · exact Or.inr ⟨h, lt_of_le_of_ne h' hne⟩

/-- C03: there is only one stable order, so the answer does not depend on the library sort. -/
theorem C03_argsort_unique (arr : List α) (i1 i2 : List Nat)
    (h1 : StableOrder arr i1) (h2 : StableOrder arr i2) : i1 = i2 := by
  apply List.Perm.eq_of_pairwise _ h1.sorted h2.sorted (h1.perm.trans h2.perm.symm)
  intro i j hi hj hij hji
  have hi' := List.mem_range.1 (h1.perm.subset hi)
  have hj' := List.mem_range.1 (h2.perm.subset hj)
  have ei := List.getElem?_eq_getElem hi'
  have ej := List.getElem?_eq_getElem hj'
  rcases hij _ _ ei ej with h | ⟨h, h'⟩ <;> rcases hji _ _ ej ei with g | ⟨g, g'⟩
  · exact absurd g (not_lt.2 h.le)
  · rw [g] at h; exact absurd h (lt_irrefl _)
  · rw [h] at g; exact absurd g (lt_irrefl _)
  · omega

/-- The contract of the library sort can be met for every array. -/
theorem C03_argsort_exists (arr : List α) : ∃ idx, ArgsortResult arr idx := by
  let _ : DecidableRel (fun a b : α × Nat => comparePair a b ≤ 0) := fun a b => Classical.dec _
  have _ : Std.Total (fun a b : α × Nat => comparePair a b ≤ 0) := ⟨by
    intro a b; rw [comparePair_le, comparePair_le]
    rcases lt_trichotomy a.1 b.1 with h | h | h
    · exact Or.inl (Or.inl h)
    · rcases le_total a.2 b.2 with h' | h'
      · exact Or.inl (Or.inr ⟨h, h'⟩)
      · exact Or.inr (Or.inr ⟨h.symm, h'⟩)
    · exact Or.inr (Or.inl h)⟩
  have _ : IsTrans (α × Nat) (fun a b => comparePair a b ≤ 0) := ⟨by
    intro a b c; rw [comparePair_le, comparePair_le, comparePair_le]
    rintro (h | ⟨h, h'⟩) (g | ⟨g, g'⟩)
    · exact Or.inl (h.trans g)
    · exact Or.inl (g ▸ h)
    · exact Or.inl (h ▸ g)
    · exact Or.inr ⟨h.trans g, h'.trans g'⟩⟩
  exact ⟨_, (argsortPairs arr).insertionSort (fun a b => comparePair a b ≤ 0),
    ⟨List.perm_insertionSort _ _, List.pairwise_insertionSort _ _⟩, rfl⟩

example : StableOrder ([3, 1, 3, 0] : List ℚ) [3, 1, 0, 2] := by
  have h : ArgsortResult ([3, 1, 3, 0] : List ℚ) [3, 1, 0, 2] :=
    ⟨[(0, 3), (1, 1), (3, 0), (3, 2)], ⟨by decide +kernel, by decide +kernel⟩, rfl⟩
  exact C03_argsort_stable _ _ h

end GRT.Search
