import Verif.Model1D.Model

/-! Shape of the list produced by the insertion loop. -/

set_option linter.unusedSectionVars false

namespace GRT.Model1D

variable {α : Type*} [Field α] [LinearOrder α] [IsStrictOrderedRing α]

/-- Total thickness. -/
def total (l : List (FLay α)) : α := (l.map FLay.h).sum

@[simp] theorem total_nil : total ([] : List (FLay α)) = 0 := rfl
@[simp] theorem total_cons (a : FLay α) (l : List (FLay α)) : total (a :: l) = a.h + total l := by simp [total]
@[simp] theorem total_append (a b : List (FLay α)) : total (a ++ b) = total a + total b := by simp [total]

/-- Every layer but the last has positive thickness. -/
def Pos : List (FLay α) → Prop
  | [] => True
  | [_] => True
  | l :: l' :: ls => 0 < l.h ∧ Pos (l' :: ls)

theorem run_none_or {allowed : Bool} {dmax : α} {fs : List (FLay α)} {st : St α} :
    run allowed dmax fs st = none ↔ ¬ Pos fs := by
  induction fs generalizing st with
  | nil => simp [run, Pos]
  | cons f fs ih =>
    cases fs with
    | nil => simp [run, Pos]
    | cons g gs =>
      simp only [run, Pos, ne_eq, reduceCtorEq, not_false_eq_true, and_true]
      by_cases h : f.h ≤ 0
      · simp [h, not_lt.2 h]
      · rw [if_neg h]
        have := @ih (step allowed dmax f st)
        simp only [run] at this
        simp only [not_le.1 h, true_and]
        exact this

/-- Both depths placed: the rest is copied. -/
theorem run_done {allowed : Bool} {dmax : α} (fs : List (FLay α)) {st st' : St α} (h1 : st.second = true) (h2 : st.imax ≠ 0)
    (h : run allowed dmax fs st = some st') :
    st' = { st with lays := st.lays ++ fs, depth := st.depth + total fs } := by
  induction fs generalizing st with
  | nil => simp only [run, Option.some.injEq] at h; subst h; simp
  | cons f fs ih =>
    simp only [run] at h
    split at h
    · cases h
    have hs : step allowed dmax f st = { st with lays := st.lays ++ [f], depth := st.depth + f.h } := by
      simp [step, insertOne, h1, h2]
    rw [hs] at h
    have := @ih { st with lays := st.lays ++ [f], depth := st.depth + f.h } h1 h2 h
    rw [this]
    simp [add_assoc]

/-- The shallower depth is placed, the deeper one not yet. -/
theorem run_second {dmax : α} (fs : List (FLay α)) {st st' : St α} (h1 : st.second = true) (h2 : st.imax = 0)
    (h3 : st.depimg = dmax) (hd : st.depth < dmax) (hlast : dmax ≤ st.depth + total fs)
    (h : run true dmax fs st = some st') :
    ∃ mid g post, fs = mid ++ g :: post ∧ st.depth + total mid < dmax ∧ dmax ≤ st.depth + total mid + g.h ∧
      st'.lays = st.lays ++ mid ++ [⟨dmax - (st.depth + total mid), g.m⟩, ⟨st.depth + total mid + g.h - dmax, g.m⟩] ++ post ∧
      st'.imin = st.imin ∧ st'.imax = st.lays.length + mid.length + 1 := by
  induction fs generalizing st with
  | nil => simp at hlast; exact absurd hd (not_lt.2 hlast)
  | cons f fs ih =>
    simp only [run] at h
    split at h
    · cases h
    by_cases hc : dmax ≤ st.depth + f.h
    · refine ⟨[], f, fs, rfl, by simpa using hd, by simpa using hc, ?_⟩
      have hs : step true dmax f st = { st with
          lays := st.lays ++ [⟨dmax - st.depth, f.m⟩, ⟨st.depth + f.h - dmax, f.m⟩], depth := st.depth + f.h
          imax := st.lays.length + 1 } := by
        simp [step, insertOne, h1, h2, h3, hc]
        constructor <;> ring
      rw [hs] at h
      have := run_done fs (st := { st with
          lays := st.lays ++ [⟨dmax - st.depth, f.m⟩, ⟨st.depth + f.h - dmax, f.m⟩], depth := st.depth + f.h
          imax := st.lays.length + 1 }) h1 (by simp) h
      rw [this]
      simp
    · have hs : step true dmax f st = { st with lays := st.lays ++ [f], depth := st.depth + f.h } := by
        simp [step, insertOne, h1, h2, h3, hc]
      rw [hs] at h
      obtain ⟨mid, g, post, e1, e2, e3, e4, e5, e6⟩ := @ih { st with lays := st.lays ++ [f], depth := st.depth + f.h } h1 h2 h3
        (not_le.1 hc) (by simpa [add_assoc] using hlast) h
      refine ⟨f :: mid, g, post, by simp [e1], ?_, ?_, ?_, e5, ?_⟩
      · simpa [add_assoc] using e2
      · simpa [add_assoc] using e3
      · rw [e4]; simp [add_assoc]
      · rw [e6]; simp; omega

/-- What the loop produces, both depths non-negative: the two cuts fall into one layer or into two. -/
inductive Shape (fs : List (FLay α)) (dmin dmax : α) (lays : List (FLay α)) (imin imax : ℕ) : Prop
  | same (pre : List (FLay α)) (f : FLay α) (post : List (FLay α)) (hfs : fs = pre ++ f :: post)
      (h1 : total pre ≤ dmin) (h1' : pre = [] ∨ total pre < dmin) (h2 : dmax ≤ total pre + f.h)
      (hl : lays = pre ++ [⟨dmin - total pre, f.m⟩, ⟨dmax - dmin, f.m⟩, ⟨total pre + f.h - dmax, f.m⟩] ++ post)
      (hmin : imin = pre.length + 1) (hmax : imax = pre.length + 2)
  | diff (pre : List (FLay α)) (f : FLay α) (mid : List (FLay α)) (g : FLay α) (post : List (FLay α))
      (hfs : fs = pre ++ f :: (mid ++ g :: post))
      (h1 : total pre ≤ dmin) (h1' : pre = [] ∨ total pre < dmin) (h2 : dmin ≤ total pre + f.h)
      (h3 : total pre + f.h + total mid < dmax) (h3' : total pre + f.h < dmax) (h4 : dmax ≤ total pre + f.h + total mid + g.h)
      (hl : lays = pre ++ [⟨dmin - total pre, f.m⟩, ⟨total pre + f.h - dmin, f.m⟩] ++ mid ++
        [⟨dmax - (total pre + f.h + total mid), g.m⟩, ⟨total pre + f.h + total mid + g.h - dmax, g.m⟩] ++ post)
      (hmin : imin = pre.length + 1) (hmax : imax = pre.length + mid.length + 3)

theorem run_first {dmin dmax : α} (hmm : dmin ≤ dmax) (fs : List (FLay α)) (pre : List (FLay α)) {st st' : St α}
    (hst : st = ⟨pre, total pre, 0, 0, false, dmin⟩) (hd : total pre ≤ dmin) (hd' : pre = [] ∨ total pre < dmin)
    (hlast : dmax ≤ total pre + total fs) (hne : fs ≠ [])
    (h : run true dmax fs st = some st') : Shape (pre ++ fs) dmin dmax st'.lays st'.imin st'.imax := by
  induction fs generalizing st pre with
  | nil => exact absurd rfl hne
  | cons f fs ih =>
    subst hst
    simp only [run] at h
    split at h
    · cases h
    by_cases hc : dmin ≤ total pre + f.h
    · by_cases hc2 : dmax ≤ total pre + f.h
      · have e : dmin + (f.h - (dmin - total pre)) = total pre + f.h := by ring
        have hs : step true dmax f ⟨pre, total pre, 0, 0, false, dmin⟩ = ⟨pre ++ [⟨dmin - total pre, f.m⟩, ⟨dmax - dmin, f.m⟩, ⟨total pre + f.h - dmax, f.m⟩],
            total pre + f.h, pre.length + 1, pre.length + 2, true, dmax⟩ := by
          simp [step, insertOne, hc, e, hc2]
          constructor <;> ring
        rw [hs] at h
        have := run_done fs rfl (by simp) h
        rw [this]
        exact .same pre f fs rfl hd hd' hc2 rfl rfl rfl
      · have e : dmin + (f.h - (dmin - total pre)) = total pre + f.h := by ring
        have hs : step true dmax f ⟨pre, total pre, 0, 0, false, dmin⟩ = ⟨pre ++ [⟨dmin - total pre, f.m⟩, ⟨total pre + f.h - dmin, f.m⟩],
            total pre + f.h, pre.length + 1, 0, true, dmax⟩ := by
          simp [step, insertOne, hc, e, hc2]
          ring
        rw [hs] at h
        obtain ⟨mid, g, post, e1, e2, e3, e4, e5, e6⟩ := run_second fs (dmax := dmax) (st := ⟨_, _, _, _, _, _⟩) rfl rfl rfl (not_le.1 hc2)
          (show dmax ≤ total pre + f.h + total fs by simpa [add_assoc] using hlast) h
        simp only at e2 e3 e4 e5 e6
        subst e1
        refine .diff pre f mid g post rfl hd hd' hc e2 (not_le.1 hc2) e3 e4 e5 ?_
        rw [e6]; simp; omega
    · have hs : step true dmax f ⟨pre, total pre, 0, 0, false, dmin⟩ = ⟨pre ++ [f], total (pre ++ [f]), 0, 0, false, dmin⟩ := by
        simp [step, insertOne, hc]
      rw [hs] at h
      by_cases hfs : fs = []
      · subst hfs
        simp only [total_cons, total_nil, add_zero] at hlast
        exact absurd (hmm.trans hlast) hc
      have := ih (pre ++ [f]) rfl (by simpa using (not_le.1 hc).le) (.inr (by simpa using not_le.1 hc))
        (by simpa [add_assoc] using hlast) hfs h
      simpa using this

end GRT.Model1D
