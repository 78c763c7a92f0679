import Verif.Modal.Options
import Mathlib.Algebra.Order.Field.Basic
import Mathlib.Analysis.Real.Pi.Bounds

/-!
`read_kernels_freqs`: the kernels of all frequencies of a directory as functions of the phase velocity (C131).
-/

set_option linter.unusedSectionVars false

namespace GRT.Python.Kernels

open GRT.Num

variable {V : Type*} [AddCommGroup V] [Module ℝ V]

/-! ### Model -/

/-- A log file `K_<iw>_<freq>` or `C_<iw>_<freq>`: the frequency of the run, and wavenumber (or velocity) and value of each record, for one kernel function.
[pygrt/C_extension/src/dynamic/grn.c:134, dynamic/grt_kernel.c:436] -/
structure File (V : Type*) where
  freq : ℚ
  recs : List (ℝ × V)

/-- The frequency Python takes from the name: printed with `%.5e`, read by `float`. [dynamic/grn.c:134; pygrt/utils.py:544] -/
def named (f : ℚ) : ℚ := dbl (rnd 10 6 f)

/-- The order of `np.argsort`, which leaves that of equal frequencies open. [utils.py:543-548] -/
def Sorted (l l' : List (File V)) : Prop := l'.Perm l ∧ l'.Pairwise fun a b => named a.freq ≤ named b.freq

/-- The first file is left out if it is that of frequency zero. [utils.py:551-553] -/
def dropZero : List (File V) → List (File V)
  | [] => []
  | e :: t => if named e.freq = 0 then t else e :: t

/-- `interpn` in one dimension on ascending points: the straight line between the two points around `c`; an exception outside. Lists of one point, for which the
library has no interval, are an exception here. [utils.py:584, documentation of scipy.interpolate.interpn] -/
noncomputable def lin : List (ℝ × V) → ℝ → Option V
  | p :: q :: t, c => if p.1 ≤ c ∧ c ≤ q.1 then some (p.2 + ((c - p.1) / (q.1 - p.1)) • (q.2 - p.2)) else lin (q :: t) c
  | _, _ => none

open Classical in
/-- The points must ascend or descend. [documentation of scipy.interpolate.interpn] -/
noncomputable def interp (ps : List (ℝ × V)) (c : ℝ) : Option V :=
  if ps.Pairwise fun p q => p.1 < q.1 then lin ps c
  else if ps.Pairwise fun p q => q.1 < p.1 then lin ps.reverse c
  else none

/-- The velocities of the records, `v = w / data['k']` with `w = 2 pi freq`. [utils.py:561, 566] -/
noncomputable def points (e : File V) : List (ℝ × V) := e.recs.map fun r => (2 * Real.pi * (named e.freq : ℝ) / r.1, r.2)

/-- The row of one frequency: the values at the velocities. The check of the range before it refuses only what `interpn` refuses. [utils.py:565-585] -/
noncomputable def row (vels : List ℝ) (e : File V) : Option (List V) := vels.mapM (interp (points e))

/-- `read_kernels_freqs(statsdir, vels)`, one kernel function: frequencies and rows, from the files in the order of `argsort`; `none` for an exception. Exact arithmetic apart
from the frequencies. [utils.py:508-596] -/
noncomputable def read (vels : List ℝ) (sorted : List (File V)) : Option (List ℚ × List (List V)) :=
  (((dropZero sorted).mapM (row vels))).map fun rows => ((dropZero sorted).map fun e => named e.freq, rows)

/-- Without `vels`: the records of the `C_` files as they are. [utils.py:571-573, 587] -/
def readC (sorted : List (File V)) : List ℚ × List (List V) := ((dropZero sorted).map fun e => named e.freq, (dropZero sorted).map fun e => e.recs.map Prod.snd)

/-! ### Specification -/

/-- `x` lies on the straight line between two records next to each other whose velocities `u / k` have `c` between them. -/
def OnLine (u : ℝ) (recs : List (ℝ × V)) (c : ℝ) (x : V) : Prop :=
  ∃ (i : ℕ) (h : i + 1 < recs.length) (t : ℝ), 0 ≤ t ∧ t ≤ 1 ∧ c = (1 - t) * (u / recs[i].1) + t * (u / recs[i + 1].1) ∧ x = (1 - t) • recs[i].2 + t • recs[i + 1].2

/-! ### Proofs -/

theorem lin_line (ps : List (ℝ × V)) (hs : ps.Pairwise fun p q => p.1 < q.1) (c : ℝ) (x : V) (h : lin ps c = some x) :
    ∃ (i : ℕ) (hi : i + 1 < ps.length) (t : ℝ), 0 ≤ t ∧ t ≤ 1 ∧ c = (1 - t) * ps[i].1 + t * ps[i + 1].1 ∧ x = (1 - t) • ps[i].2 + t • ps[i + 1].2 := by
  induction ps with
  | nil => simp [lin] at h
  | cons p l ih => cases l with
    | nil => simp [lin] at h
    | cons q l =>
      unfold lin at h
      split_ifs at h with hc
      · have hpq : p.1 < q.1 := (List.pairwise_cons.1 hs).1 q List.mem_cons_self
        have hd : 0 < q.1 - p.1 := sub_pos.2 hpq
        refine ⟨0, by simp, (c - p.1) / (q.1 - p.1), div_nonneg (by linarith) hd.le, (div_le_one hd).2 (by linarith), ?_, ?_⟩
        · simp only [List.getElem_cons_zero, List.getElem_cons_succ]
          field_simp
          ring
        · injection h with h
          rw [← h]
          simp only [List.getElem_cons_zero, List.getElem_cons_succ]
          module
      · obtain ⟨i, hi, t, r⟩ := ih (List.pairwise_cons.1 hs).2 h
        exact ⟨i + 1, by simpa using hi, t, by simpa using r⟩

theorem lin_within (ps : List (ℝ × V)) (hs : ps.Pairwise fun p q => p.1 < q.1) (c : ℝ) (hl : 2 ≤ ps.length) :
    lin ps c ≠ none ↔ (∃ p ∈ ps, p.1 ≤ c) ∧ ∃ p ∈ ps, c ≤ p.1 := by
  induction ps with
  | nil => simp at hl
  | cons p l ih => cases l with
    | nil => simp at hl
    | cons q l =>
      obtain ⟨hs1, hs2⟩ := List.pairwise_cons.1 hs
      have hpq := hs1 q List.mem_cons_self
      unfold lin
      split_ifs with hc
      · simp only [ne_eq, reduceCtorEq, not_false_eq_true, true_iff]
        exact ⟨⟨p, List.mem_cons_self, hc.1⟩, q, List.mem_cons_of_mem _ List.mem_cons_self, hc.2⟩
      · cases l with
        | nil =>
          simp only [lin, ne_eq, not_true_eq_false, false_iff]
          rintro ⟨⟨a, ha, h1⟩, b, hb, h2⟩
          simp only [List.mem_cons, List.not_mem_nil, or_false] at ha hb
          rcases ha with rfl | rfl <;> rcases hb with rfl | rfl <;> first | exact hc ⟨by linarith, by linarith⟩ | exact absurd (h1.trans h2) (not_le.2 hpq) | skip
          all_goals exact hc ⟨by linarith, by linarith⟩
        | cons r l =>
          rw [ih hs2 (by simp)]
          constructor
          · rintro ⟨⟨a, ha, h1⟩, b, hb, h2⟩
            exact ⟨⟨a, List.mem_cons_of_mem _ ha, h1⟩, b, List.mem_cons_of_mem _ hb, h2⟩
          · rintro ⟨⟨a, ha, h1⟩, b, hb, h2⟩
            have hpc : p.1 ≤ c := by
              rcases List.mem_cons.1 ha with rfl | ha
              · exact h1
              · exact (hs1 a ha).le.trans h1
            have hqc : q.1 < c := by
              by_contra h
              exact hc ⟨hpc, not_lt.1 h⟩
            refine ⟨⟨q, List.mem_cons_self, hqc.le⟩, b, ?_, h2⟩
            rcases List.mem_cons.1 hb with rfl | hb
            · exact absurd (h2.trans_lt (hpq.trans hqc)) (lt_irrefl _)
            · exact hb

/-- C131, a value: it lies on the straight line between the two records around the velocity, which are next to each other; velocities are those of the frequency in the name of the file. -/
theorem C131_value (e : File V) (c : ℝ) (x : V) (h : interp (points e) c = some x) : OnLine (2 * Real.pi * (named e.freq : ℝ)) e.recs c x := by
  unfold interp at h
  split_ifs at h with h1 h2
  · obtain ⟨i, hi, t, t0, t1, hc, hx⟩ := lin_line _ h1 c x h
    have hi' : i + 1 < e.recs.length := by simpa [points] using hi
    refine ⟨i, hi', t, t0, t1, ?_, ?_⟩
    · rw [hc]; simp [points]
    · rw [hx]; simp [points]
  · obtain ⟨i, hi, t, t0, t1, hc, hx⟩ := lin_line _ (by rw [List.pairwise_reverse]; exact h2) c x h
    have hl : (points e).length = e.recs.length := by simp [points]
    rw [List.length_reverse, hl] at hi
    have e1 : ∀ (j : ℕ) (hj : j < (points e).reverse.length), (points e).reverse[j] = (points e)[e.recs.length - 1 - j]'(by rw [List.length_reverse, hl] at hj; omega) := by
      intro j hj
      rw [List.getElem_reverse]
      simp only [hl]
    have k1 : e.recs.length - 1 - i = (e.recs.length - 1 - (i + 1)) + 1 := by omega
    rw [e1, e1] at hc hx
    refine ⟨e.recs.length - 1 - (i + 1), by omega, 1 - t, by linarith, by linarith, ?_, ?_⟩
    · rw [hc]
      simp only [points, List.getElem_map, k1]
      ring
    · rw [hx]
      simp only [points, List.getElem_map, k1]
      module

theorem named_zero : named 0 = 0 := by unfold named dbl; rw [rnd_zero, rnd_zero]

theorem named_err {f : ℚ} (h : 0 ≤ f) : |named f - f| ≤ f * (51 / 10 ^ 7) := by
  have h1 := rnd_err 10 6 (by norm_num) f
  have h2 := GRT.Python.dbl_rel (rnd 10 6 f)
  rw [abs_of_nonneg h] at h1
  rw [abs_of_nonneg (rnd_nonneg 10 6 (by norm_num) f h)] at h2
  unfold named
  generalize rnd 10 6 f = g at *
  rw [abs_le] at *
  norm_num at *
  constructor <;> linarith [h1.1, h1.2, h2.1, h2.2]

theorem named_pos {f : ℚ} (h : 0 < f) : 0 < named f := by
  have := (abs_le.1 (named_err h.le)).1
  norm_num at this
  linarith

/-- C131, the frequencies and the velocities of the records: those of the run to 5.1e-6 of themselves. -/
theorem C131_near {f : ℚ} (h : 0 ≤ f) : |named f - f| ≤ f * (51 / 10 ^ 7) ∧ ∀ k : ℝ, 0 < k →
    |2 * Real.pi * (named f : ℝ) / k - 2 * Real.pi * (f : ℝ) / k| ≤ 2 * Real.pi * (f : ℝ) / k * (51 / 10 ^ 7) := by
  have h1 := named_err h
  refine ⟨h1, fun k hk => ?_⟩
  have h2 : |(named f : ℝ) - (f : ℝ)| ≤ (f : ℝ) * (51 / 10 ^ 7)   := by
    have : ((|named f - f| : ℚ) : ℝ) ≤ ((f * (51 / 10 ^ 7) : ℚ) : ℝ) := by exact_mod_cast h1
    push_cast at this
    exact this
  have hw : 0 ≤ 2 * Real.pi / k := div_nonneg (by positivity) hk.le
  have e : 2 * Real.pi * (named f : ℝ) / k - 2 * Real.pi * (f : ℝ) / k = 2 * Real.pi / k * ((named f : ℝ) - (f : ℝ)) := by ring
  rw [e, abs_mul, abs_of_nonneg hw]
  refine (mul_le_mul_of_nonneg_left h2 hw).trans (le_of_eq ?_)
  ring

theorem dropZero_spec {l l' : List (File V)} (h : Sorted l l') (h0 : ∀ e ∈ l, 0 ≤ e.freq) (h1 : (l.filter fun e => e.freq = 0).length ≤ 1) :
    (dropZero l').Perm (l.filter fun e => e.freq ≠ 0) ∧ (dropZero l').Pairwise fun a b => named a.freq ≤ named b.freq := by
  obtain ⟨hp, hs⟩ := h
  have g0 : ∀ e ∈ l', 0 ≤ e.freq := fun e he => h0 e (hp.mem_iff.1 he)
  have g1 : (l'.filter fun e => e.freq = 0).length ≤ 1 := by rw [(hp.filter _).length_eq]; exact h1
  have key : dropZero l' = l'.filter fun e => e.freq ≠ 0 := by
    cases l' with
    | nil => rfl
    | cons e t =>
      have et := g0 e List.mem_cons_self
      rw [dropZero]
      by_cases c : e.freq = 0
      · rw [if_pos (by rw [c, named_zero]), List.filter_cons_of_neg (by simp [c])]
        rw [List.filter_cons_of_pos (by simp [c]), List.length_cons] at g1
        have : (t.filter fun e => e.freq = 0) = [] := List.length_eq_zero_iff.1 (by omega)
        rw [List.filter_eq_nil_iff] at this
        exact (List.filter_eq_self.2 fun a ha => by simpa using this a ha).symm
      · have ep : 0 < e.freq := lt_of_le_of_ne et (Ne.symm c)
        rw [if_neg (named_pos ep).ne']
        refine (List.filter_eq_self.2 fun a ha => ?_).symm
        rcases List.mem_cons.1 ha with rfl | ha
        · simpa using c
        · have := (List.pairwise_cons.1 hs).1 a ha
          have hne : a.freq ≠ 0 := by
            intro h
            rw [h, named_zero] at this
            exact absurd this (not_le.2 (named_pos ep))
          simpa using hne
  refine ⟨by rw [key]; exact hp.filter _, ?_⟩
  rw [key]
  exact hs.filter _

theorem mapM_forall {α β : Type*} {f : α → Option β} {l : List α} {r : List β} (h : l.mapM f = some r) : List.Forall₂ (fun a b => f a = some b) l r := by
  induction l generalizing r with
  | nil => simp at h; subst h; exact .nil
  | cons a l ih =>
    rw [List.mapM_cons] at h
    cases ha : f a with
    | none => simp [ha] at h
    | some b =>
      cases hl : l.mapM f with
      | none => simp [ha, hl] at h
      | some t =>
        simp [ha, hl] at h
        subst h
        exact .cons ha (ih hl)

/-- C131, the rows: they belong to the files of all frequencies but zero, once each and in the order of the frequencies returned, which ascend and are positive; each row has the values at
the velocities asked for. The order in which the directory lists its files has no effect on this. -/
theorem C131_rows {vels : List ℝ} {l l' : List (File V)} (h : Sorted l l') (h0 : ∀ e ∈ l, 0 ≤ e.freq) (h1 : (l.filter fun e => e.freq = 0).length ≤ 1)
    {fs : List ℚ} {rows : List (List V)} (hr : read vels l' = some (fs, rows)) :
    ∃ es : List (File V), es.Perm (l.filter fun e => e.freq ≠ 0) ∧ fs = es.map (fun e => named e.freq) ∧ fs.Pairwise (· ≤ ·) ∧ (∀ f ∈ fs, 0 < f) ∧
      List.Forall₂ (fun e r => List.Forall₂ (fun c x => OnLine (2 * Real.pi * (named e.freq : ℝ)) e.recs c x) vels r) es rows := by
  obtain ⟨hp, hs⟩ := dropZero_spec h h0 h1
  unfold read at hr
  obtain ⟨rows', hm, he⟩ := Option.map_eq_some_iff.1 hr
  simp only [Prod.mk.injEq] at he
  obtain ⟨rfl, rfl⟩ := he
  refine ⟨dropZero l', hp, rfl, List.pairwise_map.2 hs, ?_, ?_⟩
  · intro f hf
    obtain ⟨e, he, rfl⟩ := List.mem_map.1 hf
    have := hp.mem_iff.1 he
    rw [List.mem_filter] at this
    exact named_pos (lt_of_le_of_ne (h0 e this.1) (Ne.symm (by simpa using this.2)))
  · refine (mapM_forall hm).imp fun e r her => ?_
    exact (mapM_forall her).imp fun c x hx => C131_value e c x hx

/-- C131, without `vels`: the rows are the records of the files, in the same order. -/
theorem C131_direct {l l' : List (File V)} (h : Sorted l l') (h0 : ∀ e ∈ l, 0 ≤ e.freq) (h1 : (l.filter fun e => e.freq = 0).length ≤ 1) :
    ∃ es : List (File V), es.Perm (l.filter fun e => e.freq ≠ 0) ∧ (readC l').1 = es.map (fun e => named e.freq) ∧ (readC l').1.Pairwise (· ≤ ·) ∧
      List.Forall₂ (fun e r => r = e.recs.map Prod.snd) es (readC l').2 := by
  obtain ⟨hp, hs⟩ := dropZero_spec h h0 h1
  refine ⟨dropZero l', hp, rfl, List.pairwise_map.2 hs, ?_⟩
  exact List.forall₂_map_right_iff.2 (List.forall₂_same.2 fun e _ => rfl)

/-- C131, where there is a value: for records whose wavenumbers are positive and ascend, exactly for the velocities between the smallest and the largest. -/
theorem C131_range (e : File V) (hf : 0 < e.freq) (hk : ∀ r ∈ e.recs, 0 < r.1) (ha : e.recs.Pairwise fun r s => r.1 < s.1) (hl : 2 ≤ e.recs.length) (c : ℝ) :
    interp (points e) c ≠ none ↔
      (∃ r ∈ e.recs, 2 * Real.pi * (named e.freq : ℝ) / r.1 ≤ c) ∧ ∃ r ∈ e.recs, c ≤ 2 * Real.pi * (named e.freq : ℝ) / r.1 := by
  have hw : 0 < 2 * Real.pi * (named e.freq : ℝ) := by
    have : (0 : ℝ) < named e.freq := by exact_mod_cast named_pos hf
    positivity
  have hd : (points e).Pairwise fun p q => q.1 < p.1 := by
    unfold points
    rw [List.pairwise_map]
    refine (List.pairwise_iff_forall_sublist.2 fun {a b} h => ?_)
    exact div_lt_div_of_pos_left hw (hk a (h.subset (by simp))) (List.pairwise_iff_forall_sublist.1 ha h)
  have hn : ¬(points e).Pairwise fun p q => p.1 < q.1 := by
    have hlen : (points e).length = e.recs.length := by simp [points]
    intro h
    have a1 := List.pairwise_iff_getElem.1 h 0 1 (by omega) (by omega) (by omega)
    have a2 := List.pairwise_iff_getElem.1 hd 0 1 (by omega) (by omega) (by omega)
    exact lt_asymm a1 a2
  unfold interp
  rw [if_neg hn, if_pos hd, lin_within _ (by rw [List.pairwise_reverse]; exact hd) c (by simpa [points] using hl)]
  simp only [List.mem_reverse, points, List.mem_map]
  constructor
  · rintro ⟨⟨_, ⟨r, hr, rfl⟩, h1⟩, _, ⟨s, hs, rfl⟩, h2⟩
    exact ⟨⟨r, hr, h1⟩, s, hs, h2⟩
  · rintro ⟨⟨r, hr, h1⟩, s, hs, h2⟩
    exact ⟨⟨_, ⟨r, hr, rfl⟩, h1⟩, _, ⟨s, hs, rfl⟩, h2⟩

/-- C131 does not hold for the frequencies of the run: for one that its name shows too small, the largest velocity recorded is refused. -/
theorem C131_violated (e : File V) (hf : 0 < e.freq) (hn : named e.freq < e.freq) (hk : ∀ r ∈ e.recs, 0 < r.1) (ha : e.recs.Pairwise fun r s => r.1 < s.1)
    (hl : 2 ≤ e.recs.length) {r : ℝ × V} (hr : e.recs.head? = some r) : interp (points e) (2 * Real.pi * (e.freq : ℝ) / r.1) = none := by
  by_contra h
  obtain ⟨-, s, hs, h2⟩ := (C131_range e hf hk ha hl _).1 h
  have hrs : r.1 ≤ s.1 := by
    cases hrec : e.recs with
    | nil => rw [hrec] at hr; simp at hr
    | cons a t =>
      rw [hrec] at hr hs ha
      simp only [List.head?_cons, Option.some.injEq] at hr
      subst hr
      rcases List.mem_cons.1 hs with rfl | hs
      · exact le_rfl
      · exact ((List.pairwise_cons.1 ha).1 s hs).le
  have hr0 : 0 < r.1 := hk r (List.mem_of_head? hr)
  have hq : ((named e.freq : ℚ) : ℝ) < (e.freq : ℝ) := by exact_mod_cast hn
  have p0 : (0 : ℝ) < named e.freq := by exact_mod_cast named_pos hf
  have i1 : 2 * Real.pi * (named e.freq : ℝ) / s.1 ≤ 2 * Real.pi * (named e.freq : ℝ) / r.1 := div_le_div_of_nonneg_left (by positivity) hr0 hrs
  have i2 : 2 * Real.pi * (named e.freq : ℝ) / r.1 < 2 * Real.pi * (e.freq : ℝ) / r.1 :=
    div_lt_div_of_pos_right (mul_lt_mul_of_pos_left hq (by positivity)) hr0
  linarith

/-- C131 does not hold for frequencies that agree in six digits: nothing orders their rows. -/
theorem C131_violated_order (r r' : List (ℝ × V)) : ∃ f g : ℚ, 0 < f ∧ f < g ∧ Sorted [⟨f, r⟩, ⟨g, r'⟩] [⟨g, r'⟩, ⟨f, r⟩] ∧ Sorted [⟨f, r⟩, ⟨g, r'⟩] [⟨f, r⟩, ⟨g, r'⟩] := by
  have h : named (dbl (1000001 / 1000)) = named (dbl (1000002 / 1000)) := by decide +kernel
  exact ⟨dbl (1000001 / 1000), dbl (1000002 / 1000), by decide +kernel, by decide +kernel, ⟨List.Perm.swap _ _ _, by simp [h]⟩, ⟨List.Perm.refl _, by simp [h]⟩⟩

/-- A frequency of 1/3 Hz is one: its name has 3.33333e-01. -/
example : named (dbl (1 / 3)) = dbl (333333 / 1000000) ∧ named (dbl (1 / 3)) < dbl (1 / 3) := by decide +kernel

/-- The case: wavenumbers 1, 2 with values 0, 1. -/
example : interp (points (V := ℝ) ⟨dbl (1 / 3), [(1, 0), (2, 1)]⟩) (2 * Real.pi * ((dbl (1 / 3) : ℚ) : ℝ) / 1) = none :=
  C131_violated (V := ℝ) ⟨dbl (1 / 3), [(1, 0), (2, 1)]⟩ (by decide +kernel) (by decide +kernel) (by simp) (by simp) (by simp) (r := (1, 0)) rfl

/-- Two files and that of frequency zero, listed in another order. -/
example : Sorted (V := ℝ) [⟨2, [(1, 0), (2, 1)]⟩, ⟨0, []⟩, ⟨1, [(1, 3), (2, 5)]⟩] [⟨0, []⟩, ⟨1, [(1, 3), (2, 5)]⟩, ⟨2, [(1, 0), (2, 1)]⟩] := by
  constructor
  · exact (List.Perm.cons _ (List.Perm.swap _ _ _)).trans (List.Perm.swap _ _ _)
  · have : named 0 ≤ named 1 ∧ named 0 ≤ named 2 ∧ named 1 ≤ named 2 := by decide +kernel
    simp [this]

/-- At a frequency of 1, wavenumbers 1 and 2 with values 3 and 5: the velocity 3/2 pi has the value 4. -/
example : interp (points (V := ℝ) ⟨1, [(1, 3), (2, 5)]⟩) (3 / 2 * Real.pi) = some 4 := by
  have n1 : named 1 = 1 := by decide +kernel
  have hpi := Real.pi_pos
  unfold interp points
  simp only [n1, List.map_cons, List.map_nil]
  rw [if_neg, if_pos]
  · norm_num [lin]
    refine ⟨⟨by linarith, by linarith⟩, ?_⟩
    field_simp
    ring
  · simp; linarith
  · simp; linarith

end GRT.Python.Kernels
