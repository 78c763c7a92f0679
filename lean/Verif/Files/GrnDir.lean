import Mathlib.Data.Fintype.Basic
import Mathlib.Data.Fintype.Prod
import Mathlib.Tactic.FinCases

/-!
C135: which Green's functions `grt syn` combines when a directory has been written to by several runs of `grt greenfn`.  A run writes the
files of the sources selected with `-G` and leaves the others (pygrt/C_extension/src/dynamic/grnspec.c 102-153; the check of the
directory, C46, looks at names only).  `grt syn` reads the files it needs and takes the number of samples from the first one
(dynamic/grt_syn.c 748-761, 905-921, 975-1010); it then reads that many samples of each whose coefficient is not zero (grt_syn.c 764-784).
Which coefficients are zero is left open (`nz`).  A file is given by prefix (none, `z`, `r`), source
(`EX VF HF DD DS SS`) and channel (`Z R T`), its content by the run that wrote it; the names are different for different triples.
-/

namespace GRT.GrnDir

variable {ρ : Type*}

/-- A file: prefix, source, channel. -/
abbrev Key := Fin 3 × Fin 6 × Fin 3

/-- A run of `grt greenfn` as far as used here: sources selected with `-G`, derivatives (`-e`), number of samples, and what else it was. -/
structure Run (ρ : Type*) where
  ex : Bool
  vf : Bool
  hf : Bool
  dc : Bool
  upar : Bool
  npts : ℕ
  what : ρ

/-- `GRT_SRC_M_ORDERS`, common/const.c 19. -/
def order : Fin 6 → ℕ
  | 0 => 0
  | 1 => 0
  | 2 => 1
  | 3 => 0
  | 4 => 1
  | 5 => 2

/-- Sources saved, grnspec.c 126-129. -/
def Run.saves (r : Run ρ) : Fin 6 → Bool
  | 0 => r.ex
  | 1 => r.vf
  | 2 => r.hf
  | 3 => r.dc
  | 4 => r.dc
  | 5 => r.dc

/-- Files written by a run, grnspec.c 123-149 (all channels valid). -/
def Run.writes (r : Run ρ) (k : Key) : Bool :=
  r.saves k.2.1 && ! (order k.2.1 == 0 && k.2.2 == 2) && (k.1 == 0 || r.upar)

/-- A directory. -/
abbrev Dir (ρ : Type*) := Key → Option (Run ρ)

/-- The directory after a run. -/
def after (d : Dir ρ) (r : Run ρ) : Dir ρ := fun k => if r.writes k then some r else d k

/-- Several runs with one directory, empty at first. -/
def history (rs : List (Run ρ)) : Dir ρ := rs.foldl after fun _ => none

/-- Sources of the synthesis: explosion, single force, double couple, tensile crack, moment tensor. -/
inductive Src where
  | EX | SF | DC | TS | MT
  deriving DecidableEq

/-- `syn_need_src`, grt_syn.c 749-761. -/
def need : Src → Fin 6 → Bool
  | .EX, im => im == 0
  | .SF, im => im == 1 || im == 2
  | .DC, im => 3 ≤ im
  | .TS, im => 3 ≤ im || im == 0
  | .MT, im => 3 ≤ im || im == 0

/-- Files read, in the order of the loop, grt_syn.c 980-1002. -/
def loads (t : Src) (upar : Bool) : List Key :=
  ([0, 1, 2, 3, 4, 5] : List (Fin 6)).flatMap fun im => ([0, 1, 2] : List (Fin 3)).flatMap fun c =>
    if need t im && ! (order im == 0 && c == 2) then (0, im, c) :: if upar then [(1, im, c), (2, im, c)] else [] else []

/-- Outcome of `grt syn`: error; samples read outside an array; number of samples, and the runs that wrote the files added up. -/
inductive Out (ρ : Type*) where
  | error
  | undef
  | ok (npts : ℕ) (used : List (Run ρ))

/-- Reading and summing up, grt_syn.c 764-784, 979-1034; `nz k`: some coefficient of the file `k` is not zero. -/
def synth (nz : Key → Bool) (t : Src) (upar : Bool) (d : Dir ρ) : Out ρ :=
  match (loads t upar).mapM fun k => (d k).map fun r => (k, r) with
  | none => .error
  | some [] => .error
  | some (a :: l) =>
    if ((a :: l).filter fun x => nz x.1).all fun x => decide (a.2.npts ≤ x.2.npts) then
      .ok a.2.npts (((a :: l).filter fun x => nz x.1).map Prod.snd)
    else .undef

/-- Specification: the run has all that the synthesis needs: `-Ge` for explosions, `-Gvh` for forces, `-Gs` for double couples, `-Ges` for
tensile cracks and moment tensors; derivatives if they are asked for. -/
def Suffices (t : Src) (upar : Bool) (r : Run ρ) : Prop :=
  (upar = true → r.upar = true) ∧
  match t with
  | .EX => r.ex = true
  | .SF => r.vf = true ∧ r.hf = true
  | .DC => r.dc = true
  | .TS => r.dc = true ∧ r.ex = true
  | .MT => r.dc = true ∧ r.ex = true

theorem loads_written (t : Src) (upar : Bool) (r : Run ρ) (h : Suffices t upar r) : ∀ k ∈ loads t upar, r.writes k = true := by
  obtain ⟨ex, vf, hf, dc, up, npts, what⟩ := r
  cases t <;> cases upar <;> simp only [Suffices, forall_const] at h <;>
    simp [loads, need, order, Run.writes, Run.saves, h]

theorem mapM_const {β γ : Type*} (f : β → Option γ) (g : β → γ) (l : List β) (h : ∀ k ∈ l, f k = some (g k)) : l.mapM f = some (l.map g) := by
  induction l with
  | nil => rfl
  | cons a l ih => simp [h a (by simp), ih fun k hk => h k (List.mem_cons_of_mem _ hk)]

theorem loads_ne (t : Src) (upar : Bool) : loads t upar ≠ [] := by
  cases t <;> cases upar <;> decide

/-- C135: if the last run has all that the synthesis needs, then whatever was in the directory before, there is no error, all files added
up are of the last run, as many as have a coefficient that is not zero, and the number of samples is that of this run. -/
theorem C135_partial (rs : List (Run ρ)) (r : Run ρ) (nz : Key → Bool) (t : Src) (upar : Bool) (h : Suffices t upar r) :
    ∃ used, synth nz t upar (history (rs ++ [r])) = .ok r.npts used ∧ (∀ q ∈ used, q = r) ∧ used.length = ((loads t upar).filter nz).length := by
  have e : history (rs ++ [r]) = after (history rs) r := by simp [history]
  have h1 : ∀ k ∈ loads t upar, ((after (history rs) r k).map fun r => (k, r)) = some (k, r) := fun k hk => by
    unfold after; rw [if_pos (loads_written t upar r h k hk)]; rfl
  have h2 := mapM_const _ (fun k => (k, r)) _ h1
  have hne := loads_ne t upar
  unfold synth
  rw [e, h2]
  cases hl : loads t upar with
  | nil => exact absurd hl hne
  | cons k l =>
    have h3 : ∀ x ∈ (k :: l).map fun k => (k, r), x.2 = r := by
      intro x hx
      obtain ⟨_, _, rfl⟩ := List.mem_map.1 hx
      rfl
    simp only [List.map_cons] at h3 ⊢
    rw [if_pos]
    · refine ⟨_, rfl, ?_, ?_⟩
      · intro q hq
        obtain ⟨x, hx, rfl⟩ := List.mem_map.1 hq
        exact h3 x (List.mem_filter.1 hx).1
      · have e3 : (k, r) :: l.map (fun k => (k, r)) = (k :: l).map fun k => (k, r) := rfl
        rw [e3, List.filter_map, List.length_map, List.length_map]
        rfl
    · rw [List.all_eq_true]
      intro x hx
      rw [h3 x (List.mem_filter.1 hx).1]
      simp

theorem written_loads (t : Src) (upar : Bool) (r : Run ρ) (h : ∀ k ∈ loads t upar, r.writes k = true) : Suffices t upar r := by
  obtain ⟨ex, vf, hf, dc, up, npts, what⟩ := r
  cases t <;> cases upar <;>
    simp [loads, need, order, Run.writes, Run.saves] at h <;> simp [Suffices, h]

theorem mapM_none {β γ : Type*} (f : β → Option γ) (l : List β) (k : β) (hk : k ∈ l) (h : f k = none) : l.mapM f = none := by
  induction l with
  | nil => simp at hk
  | cons a l ih =>
    rw [List.mapM_cons]
    rcases List.mem_cons.1 hk with rfl | hk
    · rw [h]; rfl
    · rw [ih hk]; cases f a <;> rfl

/-- C135, one run: the synthesis from a directory written once is refused exactly if the run lacks something it needs. -/
theorem C135_single (r : Run ρ) (nz : Key → Bool) (t : Src) (upar : Bool) : synth nz t upar (history [r]) = .error ↔ ¬ Suffices t upar r := by
  constructor
  · intro h hs
    obtain ⟨used, h1, -⟩ := C135_partial [] r nz t upar hs
    rw [List.nil_append, h] at h1
    cases h1
  · intro h
    have h1 : ¬ ∀ k ∈ loads t upar, r.writes k = true := fun h2 => h (written_loads t upar r h2)
    simp only [not_forall] at h1
    obtain ⟨k, hk, h2⟩ := h1
    unfold synth
    rw [mapM_none _ _ k hk (by simp [history, after, h2])]

/-- C135: a run without derivatives leaves those of earlier runs; so displacements and derivatives used together may be of different runs. -/
theorem C135_kept (rs : List (Run ρ)) (r : Run ρ) (k : Key) (hr : r.upar = false) (hk : k.1 ≠ 0) : history (rs ++ [r]) k = history rs k := by
  have e : history (rs ++ [r]) = after (history rs) r := by simp [history]
  rw [e]
  unfold after
  rw [if_neg (by simp [Run.writes, hr, hk])]

/-- C135, what is used in general: every file used was written by one of the runs, the last that wrote this file. -/
theorem C135_last (rs : List (Run ρ)) (k : Key) (r : Run ρ) :
    history rs k = some r ↔ ∃ l1 l2, rs = l1 ++ r :: l2 ∧ r.writes k = true ∧ ∀ q ∈ l2, q.writes k = false := by
  induction rs using List.reverseRecOn with
  | nil => simp [history]
  | append_singleton rs s ih =>
    have e : history (rs ++ [s]) = after (history rs) s := by simp [history]
    rw [e]
    unfold after
    constructor
    · intro h
      split at h
      · rename_i hw
        rw [Option.some.injEq] at h
        subst h
        exact ⟨rs, [], rfl, hw, by simp⟩
      · rename_i hw
        obtain ⟨l1, l2, e1, e2, e3⟩ := ih.1 h
        refine ⟨l1, l2 ++ [s], by simp [e1], e2, ?_⟩
        intro q hq
        rcases List.mem_append.1 hq with q1 | q1
        · exact e3 q q1
        · simp only [List.mem_singleton] at q1
          subst q1
          simpa using hw
    · rintro ⟨l1, l2, e1, e2, e3⟩
      rcases List.eq_nil_or_concat l2 with rfl | ⟨l2, x, rfl⟩
      · have e4 : rs ++ [s] = l1 ++ [r] := e1
        obtain ⟨-, e5⟩ := List.append_inj' e4 rfl
        simp only [List.cons.injEq, and_true] at e5
        subst e5
        rw [if_pos e2]
      · have e4 : rs ++ [s] = (l1 ++ r :: l2) ++ [x] := by simpa using e1
        obtain ⟨e5, e6⟩ := List.append_inj' e4 rfl
        simp only [List.cons.injEq, and_true] at e6
        subst e6
        rw [if_neg (by simpa using e3 s (by simp))]
        exact ih.2 ⟨l1, l2, e5, e2, fun q hq => e3 q (by simp [hq])⟩

/-- C135 fails: after a run for explosions and double couples and one for explosions only, a moment tensor (or tensile crack) takes the
explosion of the second and the rest of the first.  If the second has more samples, samples are read outside the arrays as soon as one
coefficient of the rest is not zero. -/
theorem C135_violated (q r : Run ρ) (hq : q.dc = true ∧ q.ex = true) (hr : r.ex = true ∧ r.dc = false) (t : Src) (ht : t = .MT ∨ t = .TS)
    (nz : Key → Bool) (k : Key) (hk : k ∈ loads t false) (h3 : 3 ≤ k.2.1) (hnz : nz k = true) (h : q.npts < r.npts) : synth nz t false (history [q, r]) = .undef := by
  obtain ⟨ex, vf, hf, dc, up, npts, what⟩ := q
  obtain ⟨ex', vf', hf', dc', up', npts', what'⟩ := r
  simp only at hq hr h
  obtain ⟨rfl, rfl⟩ := hq
  obtain ⟨rfl, rfl⟩ := hr
  rcases ht with rfl | rfl <;>
    simp [loads, need, order] at hk <;>
    simp [synth, loads, need, order, history, after, Run.writes, Run.saves, Nat.not_le.2 h] <;>
    rcases hk with rfl | rfl | rfl | rfl | rfl | rfl | rfl | rfl | rfl | rfl <;> simp_all

/-- C135 fails: if the second has no more samples than the first, the traces of both are added up without notice. -/
theorem C135_violated_mixed (q r : Run ρ) (hq : q.dc = true ∧ q.ex = true) (hr : r.ex = true ∧ r.dc = false) (t : Src) (ht : t = .MT ∨ t = .TS)
    (h : r.npts ≤ q.npts) : synth (fun _ => true) t false (history [q, r]) = .ok r.npts [r, r, q, q, q, q, q, q, q, q] := by
  obtain ⟨ex, vf, hf, dc, up, npts, what⟩ := q
  obtain ⟨ex', vf', hf', dc', up', npts', what'⟩ := r
  simp only at hq hr h
  obtain ⟨rfl, rfl⟩ := hq
  obtain ⟨rfl, rfl⟩ := hr
  rcases ht with rfl | rfl <;> simp [synth, loads, need, order, history, after, Run.writes, Run.saves, h]

/-- A case of `C135_partial`. -/
example : ∃ used, synth (fun k => k.2.1 != 4) .DC true (history ([⟨true, true, true, true, true, 256, "old"⟩] ++ [⟨false, false, false, true, true, 512, "new"⟩])) =
    .ok 512 used ∧ (∀ q ∈ used, q = ⟨false, false, false, true, true, 512, "new"⟩) ∧ used.length = 15 :=
  C135_partial [⟨true, true, true, true, true, 256, "old"⟩] ⟨false, false, false, true, true, 512, "new"⟩ _ .DC true ⟨fun _ => rfl, rfl⟩

/-- A case of `C135_single`: derivatives asked for, but not computed. -/
example : synth (fun _ => true) .EX true (history [⟨true, true, true, true, false, 256, "a"⟩]) = .error :=
  (C135_single _ _ _ _).2 fun h => Bool.noConfusion (h.1 rfl)

/-- A case of `C135_kept`. -/
example : history ([(⟨true, false, false, false, true, 256, "a"⟩ : Run String)] ++ [⟨true, false, false, false, false, 256, "b"⟩]) (1, 0, 0) =
    some ⟨true, false, false, false, true, 256, "a"⟩ :=
  (C135_kept _ _ _ rfl (by decide)).trans rfl

/-- A case of `C135_violated`: explosions computed again with more samples. -/
example : synth (fun k => k.2.1 != 5) .MT false (history [⟨true, true, true, true, false, 256, "old"⟩, ⟨true, false, false, false, false, 512, "new"⟩]) = .undef :=
  C135_violated ⟨true, true, true, true, false, 256, "old"⟩ ⟨true, false, false, false, false, 512, "new"⟩ ⟨rfl, rfl⟩ ⟨rfl, rfl⟩ .MT (Or.inl rfl)
    _ (0, 4, 1) (by decide) (by decide) rfl (by decide)

/-- A case of `C135_violated_mixed`: explosions computed again with another model. -/
example : synth (fun _ => true) .TS false (history [⟨true, false, false, true, false, 256, "a"⟩, ⟨true, false, false, false, false, 256, "b"⟩]) =
    .ok 256 [⟨true, false, false, false, false, 256, "b"⟩, ⟨true, false, false, false, false, 256, "b"⟩, ⟨true, false, false, true, false, 256, "a"⟩,
      ⟨true, false, false, true, false, 256, "a"⟩, ⟨true, false, false, true, false, 256, "a"⟩, ⟨true, false, false, true, false, 256, "a"⟩,
      ⟨true, false, false, true, false, 256, "a"⟩, ⟨true, false, false, true, false, 256, "a"⟩, ⟨true, false, false, true, false, 256, "a"⟩,
      ⟨true, false, false, true, false, 256, "a"⟩] :=
  C135_violated_mixed ⟨true, false, false, true, false, 256, "a"⟩ ⟨true, false, false, false, false, 256, "b"⟩ ⟨rfl, rfl⟩ ⟨rfl, rfl⟩ .TS (Or.inr rfl)
    (le_refl _)

/-- A case of `C135_last`. -/
example : history [(⟨true, true, true, true, false, 256, "old"⟩ : Run String), ⟨true, false, false, false, false, 512, "new"⟩] (0, 3, 0) =
    some ⟨true, true, true, true, false, 256, "old"⟩ :=
  (C135_last _ _ _).2 ⟨[], _, rfl, rfl, by simp [Run.writes, Run.saves]⟩

end GRT.GrnDir
