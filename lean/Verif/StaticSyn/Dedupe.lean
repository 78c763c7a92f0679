import Mathlib.Algebra.Order.Field.Basic
import Mathlib.Algebra.Order.AbsoluteValue.Basic
import Mathlib.Data.List.FinRange
import Mathlib.Tactic.Linarith
import Mathlib.Tactic.NormNum

/-! Removal of duplicate distances in `grt_integ_static_grn` (`static/static_grn.c`) and C25. -/

set_option linter.unusedSectionVars false

namespace GRT.StaticSyn

variable {α : Type*} [Field α] [LinearOrder α] [IsStrictOrderedRing α] {β : Type*}

/-! ### Model -/

/-- `fabs(uniq_rs[jr] - rs[ir]) < 1e-8`, static_grn.c 80. -/
def same (u r : α) : Bool := decide (|u - r| < 1 / 100000000)

/-- The inner loop, static_grn.c 77-81: index of the first equal entry, else `uniq_nr`. -/
def findRef (uniq : List α) (r : α) : ℕ := uniq.findIdx fun u => same u r

/-- The outer loop, static_grn.c 75-87: state `uniq_rs` (its used part) and `rs_refidx`. -/
def dedupeGo : List α → List α × List ℕ → List α × List ℕ
  | [], s => s
  | r :: t, s =>
    let j := findRef s.1 r
    dedupeGo t (if j = s.1.length then s.1 ++ [r] else s.1, s.2 ++ [j])

/-- static_grn.c 70-87. `none`: no distance at all (`uniq_nr = 1` makes the code read past the arrays). -/
def dedupe : List α → Option (List α × List ℕ)
  | [] => none
  | r :: t => some (dedupeGo t ([r], [0]))

/-- static_grn.c 150-163: slot `n - 1` first, slot 0 last. -/
def restoreGo (ref : List ℕ) : ℕ → List β → Option (List β)
  | 0, g => some g
  | n + 1, g =>
    match ref[n]? with
    | none => none
    | some idx => match g[idx]? with
      | none => none
      | some v => restoreGo ref n (g.set n v)

/-- From the results on the reduced list to the output array of length `nr`: the first `uniq_nr` slots of the caller's
array `g0` are written (136-141), then the copy. -/
def restore (ref : List ℕ) (res g0 : List β) : Option (List β) :=
  let g := res ++ g0.drop res.length
  if g0.length = res.length then some g else restoreGo ref g0.length g

/-! ### Specification -/

/-- `out` gives distance `i` the result `res[j]` of a reduced distance equal to it within tolerance. -/
structure Faithful (rs uniq : List α) (res out : List β) : Prop where
  len : out.length = rs.length
  slot : ∀ (i : ℕ) (hi : i < rs.length), ∃ (j : ℕ) (u : α), uniq[j]? = some u ∧ |u - rs[i]| < 1 / 100000000 ∧ out[i]? = res[j]? ∧
    (∀ (j' : ℕ) (u' : α), j' < j → uniq[j']? = some u' → ¬ |u' - rs[i]| < 1 / 100000000)

/-! ### Proofs -/

structure Inv (done : List α) (s : List α × List ℕ) : Prop where
  len : s.2.length = done.length
  ne : s.1 ≠ []
  le : s.1.length ≤ done.length
  ref : ∀ (i : ℕ) (hi : i < done.length), ∃ (j : ℕ) (u : α), s.2[i]? = some j ∧ j ≤ i ∧ s.1[j]? = some u ∧ |u - done[i]| < 1 / 100000000 ∧
    (∀ (j' : ℕ) (u' : α), j' < j → s.1[j']? = some u' → ¬ |u' - done[i]| < 1 / 100000000)
  all : s.1.length = done.length → s.2 = List.range done.length
  sub : s.1.Sublist done
  sep : s.1.Pairwise fun u v => ¬ |u - v| < 1 / 100000000

theorem findRef_spec (uniq : List α) (r : α) :
    findRef uniq r ≤ uniq.length ∧ (∀ (j' : ℕ) (u' : α), j' < findRef uniq r → uniq[j']? = some u' → ¬ |u' - r| < 1 / 100000000) ∧
    (findRef uniq r < uniq.length → ∃ u, uniq[findRef uniq r]? = some u ∧ |u - r| < 1 / 100000000) := by
  refine ⟨List.findIdx_le_length, ?_, ?_⟩
  · intro j' u' hj hu
    have hl : j' < uniq.length := lt_of_lt_of_le hj List.findIdx_le_length
    have := List.not_of_lt_findIdx hj
    rw [List.getElem?_eq_getElem hl] at hu
    cases hu
    simpa [same] using this
  · intro h
    refine ⟨uniq[findRef uniq r], List.getElem?_eq_getElem h, ?_⟩
    have := List.findIdx_getElem (w := h)
    exact of_decide_eq_true this

theorem step_inv (done : List α) (s : List α × List ℕ) (r : α) (h : Inv done s) :
    Inv (done ++ [r]) (if findRef s.1 r = s.1.length then s.1 ++ [r] else s.1, s.2 ++ [findRef s.1 r]) := by
  obtain ⟨hle, hbefore, hfound⟩ := findRef_spec s.1 r
  have hgrow : ∀ (j : ℕ) (u : α), s.1[j]? = some u → (if findRef s.1 r = s.1.length then s.1 ++ [r] else s.1)[j]? = some u := by
    intro j u hju
    split
    · rw [List.getElem?_append_left ((List.getElem?_eq_some_iff.1 hju).1)]; exact hju
    · exact hju
  have hback : ∀ (j : ℕ) (u : α), j < s.1.length → (if findRef s.1 r = s.1.length then s.1 ++ [r] else s.1)[j]? = some u → s.1[j]? = some u := by
    intro j u hj hju
    split at hju
    · rwa [List.getElem?_append_left hj] at hju
    · exact hju
  refine ⟨by simp [h.len], ?_, ?_, ?_, ?_, ?_, ?_⟩
  · dsimp only; split
    · simp
    · exact h.ne
  · dsimp only; split
    · simp [h.le]
    · simp; have := h.le; omega
  · intro i hi
    rw [List.length_append, List.length_singleton] at hi
    by_cases hlt : i < done.length
    · obtain ⟨j, u, h1, h2, h3, h4, h5⟩ := h.ref i hlt
      refine ⟨j, u, ?_, h2, hgrow j u h3, ?_, ?_⟩
      · rw [List.getElem?_append_left (by rw [h.len]; exact hlt)]; exact h1
      · rw [List.getElem_append_left hlt]; exact h4
      · intro j' u' hj' hu'
        rw [List.getElem_append_left hlt]
        exact h5 j' u' hj' (hback j' u' (lt_trans hj' (List.getElem?_eq_some_iff.1 h3).1) hu')
    · have hi' : i = done.length := by omega
      subst hi'
      have he : (done ++ [r])[done.length]'(by simp) = r := by simp
      rcases lt_or_eq_of_le hle with hf | hf
      · obtain ⟨u, hu, hur⟩ := hfound hf
        refine ⟨findRef s.1 r, u, ?_, ?_, hgrow _ _ hu, ?_, ?_⟩
        · rw [List.getElem?_append_right (by rw [h.len])]; simp [h.len]
        · exact le_trans hle h.le
        · rw [he]; exact hur
        · intro j' u' hj' hu'
          rw [he]; exact hbefore j' u' hj' (hback j' u' (lt_trans hj' hf) hu')
      · refine ⟨findRef s.1 r, r, ?_, ?_, ?_, ?_, ?_⟩
        · rw [List.getElem?_append_right (by rw [h.len])]; simp [h.len]
        · exact le_trans hle h.le
        · simp [hf]
        · rw [he]; simp
        · intro j' u' hj' hu'
          rw [he]; exact hbefore j' u' hj' (hback j' u' (by omega) hu')
  · dsimp only
    split
    · rename_i hf
      intro hl
      simp only [List.length_append, List.length_singleton] at hl
      rw [h.all (by omega), hf, List.length_append, List.length_singleton, List.range_succ]
      rw [show s.1.length = done.length by omega]
    · intro hl; have := h.le; simp only [List.length_append, List.length_singleton] at hl; omega
  · dsimp only; split
    · exact h.sub.append (List.Sublist.refl _)
    · exact h.sub.trans (List.sublist_append_left _ _)
  · dsimp only; split
    · rename_i hf
      rw [List.pairwise_append]
      refine ⟨h.sep, by simp, ?_⟩
      intro a ha b hb
      rw [List.mem_singleton] at hb; subst hb
      obtain ⟨j, hj, rfl⟩ := List.getElem_of_mem ha
      exact hbefore j _ (by omega) (List.getElem?_eq_getElem hj)
    · exact h.sep

theorem go_inv : ∀ (t done : List α) (s : List α × List ℕ), Inv done s → Inv (done ++ t) (dedupeGo t s)
  | [], done, s, h => by simpa [dedupeGo] using h
  | r :: t, done, s, h => by
    have := go_inv t (done ++ [r]) _ (step_inv done s r h)
    simpa [dedupeGo] using this

theorem dedupe_inv (rs : List α) (s : List α × List ℕ) (h : dedupe rs = some s) : Inv rs s := by
  cases rs with
  | nil => simp [dedupe] at h
  | cons r t =>
    simp only [dedupe, Option.some.injEq] at h
    subst h
    have hi : Inv [r] ([r], [0]) := by
      refine ⟨rfl, by simp, le_rfl, ?_, by simp, List.Sublist.refl _, by simp⟩
      intro i hi
      simp at hi
      subst hi
      exact ⟨0, r, rfl, le_rfl, rfl, by simp, by intro j' _ hj'; omega⟩
    simpa using go_inv t [r] _ hi

/-- The backward copy reads every slot before it is overwritten. -/
theorem restoreGo_spec (ref : List ℕ) : ∀ (n : ℕ) (g : List β), n ≤ g.length →
    (∀ i, i < n → ∃ j, ref[i]? = some j ∧ j ≤ i) →
    ∃ out, restoreGo ref n g = some out ∧ out.length = g.length ∧
      (∀ i j, i < n → ref[i]? = some j → out[i]? = g[j]?) ∧ (∀ i, n ≤ i → out[i]? = g[i]?)
  | 0, g, _, _ => ⟨g, rfl, rfl, by intro i j hi; omega, by intros; rfl⟩
  | n + 1, g, hn, hr => by
    obtain ⟨j, hj, hjn⟩ := hr n (by omega)
    have hjl : j < g.length := by omega
    obtain ⟨out, h1, h2, h3, h4⟩ := restoreGo_spec ref n (g.set n g[j]) (by simp; omega) (fun i hi => hr i (by omega))
    refine ⟨out, ?_, by simpa using h2, ?_, ?_⟩
    · simp only [restoreGo, hj, List.getElem?_eq_getElem hjl]; exact h1
    · intro i k hi hk
      rcases Nat.lt_succ_iff_lt_or_eq.1 hi with hlt | rfl
      · obtain ⟨k', hk', hle⟩ := hr i (by omega)
        rw [hk] at hk'; cases hk'
        rw [h3 i k hlt hk, List.getElem?_set_ne (by omega)]
      · rw [hj] at hk; cases hk
        rw [h4 i le_rfl, List.getElem?_set_self (by omega), List.getElem?_eq_getElem hjl]
    · intro i hi
      rw [h4 i (by omega), List.getElem?_set_ne (by omega)]

/-- C25: with any results `res` for the reduced distances, and whatever the output array held before, the copy
succeeds and gives every requested distance the result of the first reduced distance equal to it. -/
theorem C25_restore (rs : List α) (hrs : rs ≠ []) (res g0 : List β) (hg : g0.length = rs.length) :
    ∃ uniq ref, dedupe rs = some (uniq, ref) ∧
      (res.length = uniq.length → ∃ out, restore ref res g0 = some out ∧ Faithful rs uniq res out) := by
  obtain ⟨s, hs⟩ : ∃ s, dedupe rs = some s := by
    cases rs with
    | nil => exact absurd rfl hrs
    | cons r t => exact ⟨_, rfl⟩
  have hi := dedupe_inv rs s hs
  refine ⟨s.1, s.2, hs, fun hres => ?_⟩
  have hle := hi.le
  have hglen : (res ++ g0.drop res.length).length = rs.length := by
    rw [List.length_append, List.length_drop]; omega
  by_cases hn : g0.length = res.length
  · refine ⟨_, by simp only [restore, if_pos hn], hglen, ?_⟩
    intro i hil
    obtain ⟨j, u, h1, h2, h3, h4, h5⟩ := hi.ref i hil
    have hj : j = i := by
      rw [hi.all (by omega), List.getElem?_range hil] at h1
      exact (Option.some.inj h1).symm
    subst hj
    exact ⟨j, u, h3, h4, by rw [List.getElem?_append_left (by omega)], h5⟩
  · obtain ⟨out, h1, h2, h3, -⟩ := restoreGo_spec s.2 g0.length (res ++ g0.drop res.length) (by omega) (by
      intro i hil
      obtain ⟨j, u, a, b, _⟩ := hi.ref i (by omega)
      exact ⟨j, a, b⟩)
    refine ⟨out, by simp only [restore, if_neg hn]; exact h1, by omega, ?_⟩
    intro i hil
    obtain ⟨j, u, a, b, c, d, e⟩ := hi.ref i hil
    refine ⟨j, u, c, d, ?_, e⟩
    rw [h3 i j (by omega) a, List.getElem?_append_left]
    have := (List.getElem?_eq_some_iff.1 c).1
    omega

/-- The reduced list consists of requested distances, in order, no two equal within tolerance. -/
theorem C25_reduced (rs uniq : List α) (ref : List ℕ) (h : dedupe rs = some (uniq, ref)) :
    uniq.Sublist rs ∧ uniq.Pairwise (fun u v => ¬ |u - v| < 1 / 100000000) :=
  ⟨(dedupe_inv rs _ h).sub, (dedupe_inv rs _ h).sep⟩

/-- C25 as a user sees it: if distances closer than the tolerance are equal, the output is what computing each
distance on its own gives. -/
theorem C25_transparent (rs : List α) (hrs : rs ≠ []) (f : α → β) (g0 : List β) (hg : g0.length = rs.length)
    (hsep : ∀ r ∈ rs, ∀ r' ∈ rs, |r - r'| < 1 / 100000000 → r = r') :
    ∃ uniq ref, dedupe rs = some (uniq, ref) ∧ restore ref (uniq.map f) g0 = some (rs.map f) := by
  obtain ⟨⟨un, rf⟩, hs⟩ : ∃ s, dedupe rs = some s := by
    cases rs with
    | nil => exact absurd rfl hrs
    | cons r t => exact ⟨_, rfl⟩
  obtain ⟨uniq, ref, h1, h2⟩ := C25_restore rs hrs (un.map f) g0 hg
  rw [hs] at h1
  cases h1
  obtain ⟨out, ho, hf⟩ := h2 (by simp)
  refine ⟨un, rf, hs, ?_⟩
  rw [ho]
  congr 1
  apply List.ext_getElem?
  intro i
  by_cases hi : i < rs.length
  · obtain ⟨j, u, a, b, c, -⟩ := hf.slot i hi
    have hu : u ∈ rs := (C25_reduced rs un rf hs).1.subset (List.mem_of_getElem? a)
    have : u = rs[i] := hsep u hu _ (List.getElem_mem hi) b
    rw [c, List.getElem?_map, a, List.getElem?_map, List.getElem?_eq_getElem hi, this]
  · rw [List.getElem?_eq_none (by rw [hf.len]; omega), List.getElem?_eq_none (by simp; omega)]

/-- The four corners and the centre of a square: two distances remain, the copy uses slots that will be
overwritten later. -/
example : dedupe ([5, 5, 0, 5, 5] : List ℚ) = some ([5, 0], [0, 0, 1, 0, 0]) ∧
    restore [0, 0, 1, 0, 0] ["a", "b"] ["", "", "", "", ""] = some ["a", "a", "b", "a", "a"] ∧
    (∀ r ∈ ([5, 5, 0, 5, 5] : List ℚ), ∀ r' ∈ ([5, 5, 0, 5, 5] : List ℚ), |r - r'| < 1 / 100000000 → r = r') := by
  refine ⟨by decide +kernel, by decide +kernel, by decide +kernel⟩

end GRT.StaticSyn
