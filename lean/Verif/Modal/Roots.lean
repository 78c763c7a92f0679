import Verif.Search.PropsInsert
import Verif.Search.PropsFind
import Mathlib.Algebra.Order.Group.Abs
import Mathlib.Tactic.Linarith

/-!
The list of roots of one frequency (`EIGENV`: `c_roots`, `c_roots_iref`, `n`), as filled by both searches
(pygrt/C_extension/src/modal/root.c 374-407 and 480-513, the same code).  Velocities are elements of a linearly ordered field.
-/

namespace GRT.Modal

open GRT.Search

variable {α : Type*} [Field α] [LinearOrder α]

/-- `EIGENV`, include/grt/modal/modal_def.h: the arrays of velocities and of layer indices; a null pointer is the empty list
(`c_roots` is null before the first root and never again afterwards). -/
structure Eig (α : Type*) where
  c : List α
  iref : List ℕ
  deriving DecidableEq

/-- `memmove` and store into `c_roots_iref`, root.c 402-403: with `n` the new number of roots, the entries from `pos` on, `n - 1 - pos`
of them, move one place to the right. -/
def moveIn (l : List ℕ) (pos n iref : ℕ) : List ℕ := l.take pos ++ iref :: (l.drop pos).take (n - 1 - pos)

/-- What is done with a root that passed the test of root.c 375: root.c 376-406.  `none`: an access outside an array. -/
def addRoot (cgap : α) (nmode iref : ℕ) (c : α) (e : Eig α) : Option (Eig α) :=
  if e.c = [] then some ⟨[c], [iref]⟩
  else
    match e.c[findClosest e.c c]? with
    | none => none
    | some v =>
      if |c - v| > cgap then
        match insertOrdered true (if nmode ≤ 0 then e.c.length + 1 else nmode) e.c c with
        | none => none
        | some (c', pos) =>
          if pos ≥ 0 then
            if c'.length - 1 ≤ e.iref.length then some ⟨c', moveIn e.iref pos.toNat c'.length iref⟩ else none
          else some ⟨c', e.iref⟩
      else some e

/-- All roots found at one frequency, in the order in which they are found, whatever the search (root.c 735, 790: the search is
called for several `iref` on the same list). -/
def addAll (cgap : α) (nmode : ℕ) : List (α × ℕ) → Eig α → Option (Eig α)
  | [], e => some e
  | (c, i) :: t, e => (addRoot cgap nmode i c e).bind (addAll cgap nmode t)

/-! ### Specification -/

/-- The list `e` is what should be kept of the roots `found`: every entry was found, with its own layer; neighbours are farther apart
than the gap, in increasing order; there are no more than wanted; and whatever is not kept lies within the gap of something
that is kept, or the list is full and everything in it is smaller. -/
structure Kept (cgap : α) (nmode : ℕ) (found : List (α × ℕ)) (e : Eig α) : Prop where
  len : e.iref.length = e.c.length
  from_found : ∀ p ∈ e.c.zip e.iref, p ∈ found
  sep : e.c.Pairwise fun a b => a + cgap < b
  max : 0 < nmode → e.c.length ≤ nmode
  all : ∀ p ∈ found, (∃ r ∈ e.c, |p.1 - r| ≤ cgap) ∨ (e.c.length = nmode ∧ ∀ r ∈ e.c, r < p.1)
  some_kept : found ≠ [] → e.c ≠ []

theorem zip_moveIn (l : List α) (m : List ℕ) (h : m.length = l.length) (p n : ℕ) (x : α) (i : ℕ) :
    (l.take p ++ x :: (l.drop p).take n).zip (m.take p ++ i :: (m.drop p).take n) =
      (l.zip m).take p ++ (x, i) :: ((l.zip m).drop p).take n := by
  rw [List.zip_append (by simp [h]), List.zip_cons_cons]
  simp only [List.zip, List.take_zipWith, List.drop_zipWith]

variable [IsStrictOrderedRing α]

/-- What insertion does to a list without the new value that is not full or whose last entry is larger. -/
theorem insert_shape (cap : ℕ) (l : List α) (t : α) (hne : l ≠ []) (hs : l.Pairwise (· < ·)) (hl : l.length ≤ cap)
    (ht : t ∉ l) :
    ∃ c' pos, insertOrdered true cap l t = some (c', pos) ∧
      ((pos = -1 ∧ c' = l ∧ l.length = cap ∧ ∀ a ∈ l, a < t) ∨
       (∃ p : ℕ, pos = p ∧ p ≤ l.length ∧ (∀ a ∈ l.take p, a < t) ∧ (∀ a ∈ l.drop p, t < a) ∧
          (∃ k, k = c'.length - 1 - p ∧ c' = l.take p ++ t :: (l.drop p).take k) ∧ c'.length - 1 ≤ l.length ∧
          ((l.length < cap ∧ c'.length = l.length + 1) ∨ (l.length = cap ∧ c'.length = cap ∧ p < l.length)))) := by
  have hs' : l.Pairwise (Before true) := hs.imp (fun h => by simp only [Before, if_true]; exact h.le)
  obtain ⟨hp, hf, hb⟩ := insertPos_spec true t l hs'
  set p := insertPos true t l with hpdef
  have hfr : ∀ a ∈ l.take p, a < t := fun a ha =>
    lt_of_le_of_ne (by simpa [Before] using hf a ha) (fun e => ht (e ▸ List.mem_of_mem_take ha))
  have hbk : ∀ a ∈ l.drop p, t < a := fun a ha => by
    have := (hb a ha).2
    simpa [Before] using this
  unfold insertOrdered
  by_cases hfull : l.length = cap
  · rw [if_pos hfull, List.getLast?_eq_getLast_of_ne_nil hne]
    dsimp only
    by_cases hlast : sgn true * Search.compare t (l.getLast hne) ≥ 0
    · rw [if_pos hlast]
      refine ⟨_, _, rfl, Or.inl ⟨rfl, rfl, hfull, ?_⟩⟩
      rw [sgn_compare_nonneg] at hlast
      have hle : l.getLast hne ≤ t := by simpa [Before] using hlast
      intro a ha
      have h1 : a ≤ l.getLast hne := by
        rw [← List.dropLast_append_getLast hne] at ha hs
        rcases List.mem_append.1 ha with q | q
        · exact ((List.pairwise_append.1 hs).2.2 a q _ (by simp)).le
        · simp only [List.mem_singleton] at q; exact q.le
      exact lt_of_le_of_ne (h1.trans hle) (fun e => ht (e ▸ ha))
    · rw [if_neg hlast]
      rw [sgn_compare_nonneg] at hlast
      have hlt : t < l.getLast hne := by simpa [Before] using hlast
      have hpl : p < l.length := by
        by_contra hc
        have : l.take p = l := List.take_of_length_le (not_lt.1 hc)
        rw [this] at hfr
        exact absurd (hfr _ (List.getLast_mem hne)) (not_lt.2 hlt.le)
      have hmin : min p (cap - 1) = p := by omega
      have hdrop : l.drop (cap - 1 + 1) = [] := List.drop_eq_nil_of_le (by omega)
      have hlen : (shiftIn l p (cap - 1) t).length = cap := by
        simp only [shiftIn, hdrop, List.append_nil, List.length_append, List.length_take, List.length_cons, List.length_drop]
        omega
      refine ⟨_, _, rfl, Or.inr ⟨p, by rw [hmin], hp, hfr, hbk, ?_, ?_, ?_⟩⟩
      · refine ⟨_, rfl, ?_⟩
        rw [hmin, hlen]
        simp only [shiftIn, hdrop, List.append_nil]
      · rw [hmin, hlen]; omega
      · rw [hmin]; exact Or.inr ⟨hfull, hlen, hpl⟩
  · rw [if_neg hfull, if_neg (by omega : ¬ l.length ≥ cap)]
    dsimp only
    have hmin : min p l.length = p := by omega
    have hdrop : l.drop (l.length + 1) = [] := List.drop_eq_nil_of_le (by omega)
    have hlen : (shiftIn l p l.length t).length = l.length + 1 := by
      simp only [shiftIn, hdrop, List.append_nil, List.length_append, List.length_take, List.length_cons, List.length_drop]
      omega
    refine ⟨_, _, rfl, Or.inr ⟨p, by rw [hmin], hp, hfr, hbk, ?_, ?_, ?_⟩⟩
    · refine ⟨_, rfl, ?_⟩
      rw [hmin, hlen]
      simp only [shiftIn, hdrop, List.append_nil, Nat.add_sub_cancel]
    · rw [hmin, hlen]; omega
    · rw [hmin]; exact Or.inl ⟨by omega, hlen⟩

/-- One root: nothing is accessed out of bounds and the specification is kept. -/
theorem addRoot_kept (cgap : α) (hg : 0 ≤ cgap) (nmode iref : ℕ) (c : α) (found : List (α × ℕ)) (e : Eig α) (h : Kept cgap nmode found e) :
    ∃ e', addRoot cgap nmode iref c e = some e' ∧ Kept cgap nmode (found ++ [(c, iref)]) e' := by
  unfold addRoot
  by_cases hn : e.c = []
  · rw [if_pos hn]
    have hf : found = [] := by
      by_contra hc
      exact h.some_kept hc hn
    subst hf
    refine ⟨_, rfl, rfl, by simp, by simp, fun h => h, ?_, by simp⟩
    intro p hp
    simp only [List.nil_append, List.mem_singleton] at hp
    subst hp
    exact Or.inl ⟨c, by simp, by simpa using hg⟩
  rw [if_neg hn]
  obtain ⟨v, hv, hclose⟩ := C04_findClosest e.c c hn
  rw [hv]
  dsimp only
  have hvmem : v ∈ e.c := List.mem_of_getElem? hv
  by_cases hgap : |c - v| > cgap
  swap
  · rw [if_neg hgap]
    refine ⟨e, rfl, h.len, fun p hp => List.mem_append_left _ (h.from_found p hp), h.sep, h.max, ?_, fun _ => hn⟩
    intro p hp
    rcases List.mem_append.1 hp with q | q
    · exact h.all p q
    · simp only [List.mem_singleton] at q
      subst q
      exact Or.inl ⟨v, hvmem, not_lt.1 hgap⟩
  rw [if_pos hgap]
  have far : ∀ a ∈ e.c, cgap < |c - a| := fun a ha => by
    obtain ⟨i, hi⟩ := List.getElem?_of_mem ha
    exact lt_of_lt_of_le hgap (hclose i a hi).1
  have hnot : c ∉ e.c := fun hc => by
    have := far c hc
    simp only [sub_self, abs_zero] at this
    exact absurd this (not_lt.2 hg)
  have hs : e.c.Pairwise (· < ·) := h.sep.imp fun {a b} hab => lt_of_le_of_lt (le_add_of_nonneg_right hg) hab
  have hcap : e.c.length ≤ (if nmode ≤ 0 then e.c.length + 1 else nmode) := by
    split
    · omega
    · exact h.max (by omega)
  obtain ⟨c', pos, he, hcase⟩ := insert_shape _ e.c c hn hs hcap hnot
  rw [he]
  dsimp only
  rcases hcase with ⟨rfl, rfl, hfull, hall⟩ | ⟨p, rfl, hp, hf, hb, ⟨k, hk, hc'⟩, hlen, hlen'⟩
  · rw [if_neg (by decide)]
    refine ⟨_, rfl, h.len, fun p hp => List.mem_append_left _ (h.from_found p hp), h.sep, h.max, ?_, fun _ => hn⟩
    intro p hp
    rcases List.mem_append.1 hp with q | q
    · exact h.all p q
    · simp only [List.mem_singleton] at q
      subst q
      refine Or.inr ⟨?_, hall⟩
      split at hfull
      · omega
      · exact hfull
  · rw [if_pos (by omega), if_pos (by rw [h.len]; exact hlen)]
    refine ⟨_, rfl, ?_⟩
    simp only [Int.toNat_natCast, moveIn, ← hk]
    have hsub : c'.Sublist (e.c.take p ++ c :: e.c.drop p) := by
      rw [hc']
      exact (List.Sublist.refl _).append ((List.take_sublist _ _).cons_cons _)
    have hmem : ∀ a ∈ c', a = c ∨ a ∈ e.c := fun a ha => by
      have := hsub.subset ha
      simp only [List.mem_append, List.mem_cons] at this
      rcases this with q | q | q
      · exact Or.inr (List.mem_of_mem_take q)
      · exact Or.inl q
      · exact Or.inr (List.mem_of_mem_drop q)
    have hcmem : c ∈ c' := by rw [hc']; simp
    have hlen2 : 1 ≤ c'.length := List.length_pos_of_mem hcmem
    have hfar1 : ∀ a ∈ e.c, a < c → a + cgap < c := fun a ha hlt => by
      have := far a ha
      rw [abs_of_pos (sub_pos.2 hlt)] at this
      linarith
    have hfar2 : ∀ a ∈ e.c, c < a → c + cgap < a := fun a ha hlt => by
      have := far a ha
      rw [abs_of_neg (sub_neg.2 hlt)] at this
      linarith
    have hsep : (e.c.take p ++ c :: e.c.drop p).Pairwise fun a b => a + cgap < b := by
      have hh := h.sep
      rw [← List.take_append_drop p e.c] at hh
      obtain ⟨q1, q2, q3⟩ := List.pairwise_append.1 hh
      refine List.pairwise_append.2 ⟨q1, List.pairwise_cons.2 ⟨?_, q2⟩, ?_⟩
      · intro a ha
        exact hfar2 a (List.mem_of_mem_drop ha) (hb a ha)
      · intro a ha b hb'
        rcases List.mem_cons.1 hb' with rfl | hb'
        · exact hfar1 a (List.mem_of_mem_take ha) (hf a ha)
        · exact q3 a ha b hb'
    have hzip : c'.zip (e.iref.take p ++ iref :: (e.iref.drop p).take k) =
        (e.c.zip e.iref).take p ++ (c, iref) :: ((e.c.zip e.iref).drop p).take k := by
      rw [hc', zip_moveIn e.c e.iref h.len]
    have hmax : 0 < nmode → c'.length ≤ nmode := fun hpos => by
      rw [if_neg (by omega)] at hlen'
      omega
    refine ⟨?_, ?_, hsep.sublist hsub, hmax, ?_, fun _ => List.ne_nil_of_mem hcmem⟩
    · dsimp only
      rw [hc']
      simp only [List.length_append, List.length_take, List.length_cons, List.length_drop, h.len]
    · intro q hq
      dsimp only at hq
      rw [hzip] at hq
      simp only [List.mem_append, List.mem_cons] at hq ⊢
      rcases hq with hq | hq | hq
      · exact Or.inl (h.from_found q (List.mem_of_mem_take hq))
      · exact Or.inr (Or.inl hq)
      · exact Or.inl (h.from_found q (List.mem_of_mem_drop (List.mem_of_mem_take hq)))
    · -- nothing is lost
      dsimp only
      -- an entry that is no longer in the list is at least as large as everything, by more than the gap, and the list is full
      have lost : ∀ r ∈ e.c, r ∉ c' → c'.length = nmode ∧ ∀ a ∈ c', a + cgap < r := by
        intro r hr hrc
        rcases hlen' with ⟨hl1, hl2⟩ | ⟨hl1, hl2, hl3⟩
        · exfalso
          apply hrc
          have hkd : (e.c.drop p).take k = e.c.drop p := List.take_of_length_le (by rw [List.length_drop]; omega)
          rw [hc', hkd]
          rw [← List.take_append_drop p e.c] at hr
          simp only [List.mem_append, List.mem_cons] at hr ⊢
          rcases hr with q | q
          · exact Or.inl q
          · exact Or.inr (Or.inr q)
        · have hnm : ¬ nmode ≤ 0 := fun hc => by rw [if_pos hc] at hl1; omega
          rw [if_neg hnm] at hl1 hl2
          refine ⟨hl2, ?_⟩
          -- the entry is the last of the old list
          have hr2 : r ∈ (e.c.drop p).drop k := by
            have hr' : r ∈ e.c.take p ++ ((e.c.drop p).take k ++ (e.c.drop p).drop k) := by
              rw [List.take_append_drop, List.take_append_drop]; exact hr
            simp only [List.mem_append] at hr'
            rcases hr' with q | q | q
            · exact absurd (by rw [hc']; simp [q]) hrc
            · exact absurd (by rw [hc']; simp [q]) hrc
            · exact q
          intro a ha
          have hs2 := hsep
          rw [← List.take_append_drop k (e.c.drop p)] at hs2
          rw [show ∀ (x y z : List α) (w : α), x ++ w :: (y ++ z) = (x ++ w :: y) ++ z from fun x y z w => by simp] at hs2
          rw [hc'] at ha
          exact (List.pairwise_append.1 hs2).2.2 a ha r hr2
      intro q hq
      rcases List.mem_append.1 hq with hq | hq
      · rcases h.all q hq with ⟨r, hr, hqr⟩ | ⟨hfull, hall⟩
        · by_cases hrc : r ∈ c'
          · exact Or.inl ⟨r, hrc, hqr⟩
          · obtain ⟨l1, l2⟩ := lost r hr hrc
            refine Or.inr ⟨l1, fun a ha => ?_⟩
            have := l2 a ha
            have := (abs_le.1 hqr).1
            linarith
        · have hpos : 0 < nmode := hfull ▸ List.length_pos_of_ne_nil hn
          have hnm : ¬ nmode ≤ 0 := by omega
          rw [if_neg hnm] at hlen'
          rcases hlen' with ⟨hl1, hl2⟩ | ⟨hl1, hl2, hl3⟩
          · omega
          · refine Or.inr ⟨hl2, fun a ha => ?_⟩
            rcases hmem a ha with rfl | ha'
            · -- the new entry is smaller than the last of the old list
              have hd : e.c.drop p ≠ [] := by
                intro hc
                have := congrArg List.length hc
                simp at this
                omega
              obtain ⟨b, hb'⟩ := List.exists_mem_of_ne_nil _ hd
              exact (hb b hb').trans (hall b (List.mem_of_mem_drop hb'))
            · exact hall a ha'
      · simp only [List.mem_singleton] at hq
        subst hq
        exact Or.inl ⟨c, hcmem, by simpa using hg⟩

/-- C50: whatever roots are found, in whatever order and for whatever layers, no array is accessed out of bounds, and the list
that results is what should be kept of them. -/
theorem C50_roots (cgap : α) (hg : 0 ≤ cgap) (nmode : ℕ) (found : List (α × ℕ)) :
    ∃ e, addAll cgap nmode found ⟨[], []⟩ = some e ∧ Kept cgap nmode found e := by
  have step : ∀ (l pre : List (α × ℕ)) (e : Eig α), Kept cgap nmode pre e →
      ∃ e', addAll cgap nmode l e = some e' ∧ Kept cgap nmode (pre ++ l) e' := by
    intro l
    induction l with
    | nil => intro pre e h; exact ⟨e, rfl, by simpa using h⟩
    | cons x l ih =>
      intro pre e h
      obtain ⟨c, i⟩ := x
      obtain ⟨e1, h1, k1⟩ := addRoot_kept cgap hg nmode i c pre e h
      obtain ⟨e2, h2, k2⟩ := ih _ _ k1
      refine ⟨e2, by simp only [addAll, h1, Option.bind_some, h2], ?_⟩
      simpa using k2
  simpa using step found [] ⟨[], []⟩ ⟨rfl, by simp, by simp, by simp, by simp, by simp⟩

/-- A case: five roots, three wanted, two of them closer than the gap; the largest is pushed out. -/
example : addAll (1 / 10 : ℚ) 3 [(4, 0), (3, 2), (61 / 20, 5), (2, 1), (1, 7)] ⟨[], []⟩ = some ⟨[1, 2, 3], [7, 1, 2]⟩ := by
  decide +kernel

/-- With the default (`nmode = 0`) all of them are kept. -/
example : addAll (1 / 10 : ℚ) 0 [(4, 0), (3, 2), (61 / 20, 5), (2, 1), (1, 7)] ⟨[], []⟩ = some ⟨[1, 2, 3, 4], [7, 1, 2, 0]⟩ := by
  decide +kernel

end GRT.Modal
