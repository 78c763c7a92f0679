import Verif.StaticSyn.Grid
import Mathlib.Algebra.BigOperators.Group.Multiset.Basic
import Mathlib.Algebra.Order.BigOperators.Group.Finset
import Mathlib.Data.Multiset.AddSub

/-! The parallel region of `static_syn_one_finite_fault` (`static/grt_static_syn.c` 936-1038) as a transition system, and
C28.

Every thread owns its buffers; the iterations are handed out in any order to any thread; a thread leaves the loop when all
iterations are finished (implicit barrier of `omp for`); it then adds its buffer to the shared output inside a critical
section, location by location, each `+=` being a load and a store. Sums are over the reals: in floating point the result
depends on the order of the additions by rounding, which is not modelled. -/

set_option linter.unusedSectionVars false

namespace GRT.StaticSyn

open GRT.Layer GRT.Syn GRT.Search Real

/-! ### Model -/

section par
variable {ι Loc : Type*} [DecidableEq ι] [DecidableEq Loc] {n : ℕ}

/-- Where a thread is. `run`: additions of the current iteration still to do (into its own buffer). `merge`: locations still
to do in the critical section. `loaded x l rest`: `syn[l]` has been read as `x`, the store is pending. -/
inductive Phase (Loc : Type*) where
  | idle : Phase Loc
  | run : List (Loc × ℝ) → Phase Loc
  | merge : List Loc → Phase Loc
  | loaded : ℝ → Loc → List Loc → Phase Loc
  | done : Phase Loc

def Phase.running {Loc : Type*} : Phase Loc → Prop | .run _ => True | _ => False
def Phase.critical {Loc : Type*} : Phase Loc → Prop | .merge _ => True | .loaded _ _ _ => True | _ => False

/-- State: iterations not yet handed out, shared output, private buffers, program counters, owner of the lock. -/
structure PState (ι Loc : Type*) (n : ℕ) where
  pool : Multiset ι
  mem : Loc → ℝ
  buf : Fin n → Loc → ℝ
  ph : Fin n → Phase Loc
  lock : Option (Fin n)

/-- One step of one thread. `prog i`: the additions of iteration `i` (grt_static_syn.c 957-1016); `locs`: the order of the
merge loop (1021-1030). -/
inductive Step (prog : ι → List (Loc × ℝ)) (locs : List Loc) : PState ι Loc n → PState ι Loc n → Prop
  | start (s : PState ι Loc n) (t : Fin n) (i : ι) : s.ph t = .idle → i ∈ s.pool →
      Step prog locs s { s with pool := s.pool.erase i, ph := Function.update s.ph t (.run (prog i)) }
  | add (s : PState ι Loc n) (t : Fin n) (l : Loc) (x : ℝ) (rest : List (Loc × ℝ)) : s.ph t = .run ((l, x) :: rest) →
      Step prog locs s { s with buf := Function.update s.buf t (Function.update (s.buf t) l (s.buf t l + x)),
                                ph := Function.update s.ph t (.run rest) }
  | finish (s : PState ι Loc n) (t : Fin n) : s.ph t = .run [] → Step prog locs s { s with ph := Function.update s.ph t .idle }
  | acquire (s : PState ι Loc n) (t : Fin n) : s.ph t = .idle → s.pool = 0 → (∀ u, ¬ (s.ph u).running) → s.lock = none →
      Step prog locs s { s with ph := Function.update s.ph t (.merge locs), lock := some t }
  | load (s : PState ι Loc n) (t : Fin n) (l : Loc) (rest : List Loc) : s.ph t = .merge (l :: rest) →
      Step prog locs s { s with ph := Function.update s.ph t (.loaded (s.mem l) l rest) }
  | store (s : PState ι Loc n) (t : Fin n) (x : ℝ) (l : Loc) (rest : List Loc) : s.ph t = .loaded x l rest →
      Step prog locs s { s with mem := Function.update s.mem l (x + s.buf t l), ph := Function.update s.ph t (.merge rest) }
  | release (s : PState ι Loc n) (t : Fin n) : s.ph t = .merge [] →
      Step prog locs s { s with ph := Function.update s.ph t .done, lock := none }

/-- Entry of the region: `calloc`ed buffers. -/
def entry (iters : Multiset ι) (mem : Loc → ℝ) : PState ι Loc n := ⟨iters, mem, fun _ _ => 0, fun _ => .idle, none⟩

/-- Reachable states. -/
inductive Reach (prog : ι → List (Loc × ℝ)) (locs : List Loc) (s0 : PState ι Loc n) : PState ι Loc n → Prop
  | refl : Reach prog locs s0 s0
  | tail {s s' : PState ι Loc n} : Reach prog locs s0 s → Step prog locs s s' → Reach prog locs s0 s'

/-! ### Specification -/

/-- What a list of additions adds at `l`. -/
def total (l : Loc) (p : List (Loc × ℝ)) : ℝ := (p.map fun a => if a.1 = l then a.2 else 0).sum

/-! ### Proofs -/

/-- What thread `t` still owes to `syn[l]`. -/
def pending (l : Loc) (b : Loc → ℝ) : Phase Loc → ℝ
  | .idle => b l
  | .run rest => b l + total l rest
  | .merge rest => if l ∈ rest then b l else 0
  | .loaded _ l' rest => if l = l' ∨ l ∈ rest then b l else 0
  | .done => 0

theorem pending_idle (l : Loc) (b : Loc → ℝ) : pending l b .idle = b l := rfl
theorem pending_run (l : Loc) (b : Loc → ℝ) (rest : List (Loc × ℝ)) : pending l b (.run rest) = b l + total l rest := rfl
theorem pending_merge (l : Loc) (b : Loc → ℝ) (rest : List Loc) : pending l b (.merge rest) = if l ∈ rest then b l else 0 := rfl
theorem pending_loaded (l : Loc) (b : Loc → ℝ) (x : ℝ) (l' : Loc) (rest : List Loc) :
    pending l b (.loaded x l' rest) = if l = l' ∨ l ∈ rest then b l else 0 := rfl
theorem pending_done (l : Loc) (b : Loc → ℝ) : pending l b .done = 0 := rfl

structure PInv (prog : ι → List (Loc × ℝ)) (locs : List Loc) (goal : Loc → ℝ) (s : PState ι Loc n) : Prop where
  owed : ∀ l, s.mem l + ∑ t, pending l (s.buf t) (s.ph t) + (s.pool.map fun i => total l (prog i)).sum = goal l
  excl : ∀ t, (s.ph t).critical ↔ s.lock = some t
  merge : ∀ t rest, s.ph t = .merge rest → rest.Nodup
  loaded : ∀ t x l rest, s.ph t = .loaded x l rest → x = s.mem l ∧ (l :: rest).Nodup

theorem sum_update {β : Type*} (f : Fin n → β) (g : Fin n → β → ℝ) (t : Fin n) (b : β) :
    ∑ u, g u (Function.update f t b u) = ∑ u, g u (f u) + (g t b - g t (f t)) := by
  rw [← Finset.add_sum_erase _ _ (Finset.mem_univ t), ← Finset.add_sum_erase _ (fun u => g u (f u)) (Finset.mem_univ t)]
  have : ∑ u ∈ Finset.univ.erase t, g u (Function.update f t b u) = ∑ u ∈ Finset.univ.erase t, g u (f u) := by
    apply Finset.sum_congr rfl
    intro u hu
    rw [Function.update_of_ne (Finset.ne_of_mem_erase hu)]
  rw [this, Function.update_self]; ring

theorem inv_step {prog : ι → List (Loc × ℝ)} {locs : List Loc} (hnd : locs.Nodup) (hall : ∀ l, l ∈ locs) {goal : Loc → ℝ}
    {s s' : PState ι Loc n} (hi : PInv prog locs goal s) (h : Step prog locs s s') : PInv prog locs goal s' := by
  obtain ⟨h1, h2, h3, h4⟩ := hi
  have phs : ∀ (t : Fin n) (p : Phase Loc) (l : Loc), ∑ u, pending l (s.buf u) (Function.update s.ph t p u)
      = ∑ u, pending l (s.buf u) (s.ph u) + (pending l (s.buf t) p - pending l (s.buf t) (s.ph t)) := fun t p l =>
    sum_update s.ph (fun u q => pending l (s.buf u) q) t p
  -- threads other than the one that moves keep their phase
  have crit : ∀ (t : Fin n) (p : Phase Loc), (p.critical ↔ (s.ph t).critical) →
      ∀ u, (Function.update s.ph t p u).critical ↔ s.lock = some u := by
    intro t p hp u
    by_cases hu : u = t
    · subst hu; rw [Function.update_self, hp]; exact h2 u
    · rw [Function.update_of_ne hu]; exact h2 u
  cases h with
  | start t i ht hmem =>
    refine ⟨?_, crit t _ (by simp [ht, Phase.critical]), ?_, ?_⟩
    · intro l
      have e := h1 l
      dsimp only
      have hp : (s.pool.map fun i => total l (prog i)).sum = total l (prog i) + ((s.pool.erase i).map fun i => total l (prog i)).sum := by
        conv_lhs => rw [← Multiset.cons_erase hmem]
        simp
      simp only [phs, ht, pending_idle, pending_run, pending_merge, pending_loaded, pending_done]
      rw [hp] at e
      linarith
    · intro u rest hu
      by_cases hut : u = t
      · subst hut; simp at hu
      · dsimp only at hu; rw [Function.update_of_ne hut] at hu; exact h3 u rest hu
    · intro u x l rest hu
      by_cases hut : u = t
      · subst hut; simp at hu
      · dsimp only at hu; rw [Function.update_of_ne hut] at hu; exact h4 u x l rest hu
  | add t l x rest ht =>
    refine ⟨?_, crit t _ (by simp [ht, Phase.critical]), ?_, ?_⟩
    · intro l'
      have e := h1 l'
      dsimp only
      have : ∑ u, pending l' (Function.update s.buf t (Function.update (s.buf t) l (s.buf t l + x)) u) (Function.update s.ph t (.run rest) u)
          = ∑ u, pending l' (s.buf u) (s.ph u) := by
        apply Finset.sum_congr rfl
        intro u _
        by_cases hut : u = t
        · subst hut
          simp only [Function.update_self, ht, pending, total, List.map_cons, List.sum_cons]
          by_cases hl : l' = l
          · subst hl; simp; ring
          · rw [Function.update_of_ne hl, if_neg (Ne.symm hl)]; ring
        · rw [Function.update_of_ne hut, Function.update_of_ne hut]
      simp only [this]; exact e
    · intro u rest' hu
      by_cases hut : u = t
      · subst hut; simp at hu
      · dsimp only at hu; rw [Function.update_of_ne hut] at hu; exact h3 u rest' hu
    · intro u x l rest hu
      by_cases hut : u = t
      · subst hut; simp at hu
      · dsimp only at hu; rw [Function.update_of_ne hut] at hu; exact h4 u x l rest hu
  | finish t ht =>
    refine ⟨?_, crit t _ (by simp [ht, Phase.critical]), ?_, ?_⟩
    · intro l
      have e := h1 l
      dsimp only
      have h0 : total l ([] : List (Loc × ℝ)) = 0 := rfl
      simp only [phs, ht, pending_idle, pending_run, h0]
      linarith
    · intro u rest' hu
      by_cases hut : u = t
      · subst hut; simp at hu
      · dsimp only at hu; rw [Function.update_of_ne hut] at hu; exact h3 u rest' hu
    · intro u x l rest hu
      by_cases hut : u = t
      · subst hut; simp at hu
      · dsimp only at hu; rw [Function.update_of_ne hut] at hu; exact h4 u x l rest hu
  | acquire t ht hp hb hl =>
    refine ⟨?_, ?_, ?_, ?_⟩
    · intro l
      have e := h1 l
      dsimp only
      simp only [phs, ht, pending_idle, pending_run, pending_merge, pending_loaded, pending_done, if_pos (hall l)]
      linarith
    · intro u
      dsimp only
      by_cases hut : u = t
      · subst hut; simp [Phase.critical]
      · rw [Function.update_of_ne hut]
        have := h2 u
        rw [hl] at this
        constructor
        · intro hc; exact absurd (this.1 hc) (by simp)
        · intro hc; simp at hc; exact absurd hc.symm hut
    · intro u rest' hu
      by_cases hut : u = t
      · subst hut; simp at hu; rw [← hu]; exact hnd
      · dsimp only at hu; rw [Function.update_of_ne hut] at hu; exact h3 u rest' hu
    · intro u x l rest hu
      by_cases hut : u = t
      · subst hut; simp at hu
      · dsimp only at hu; rw [Function.update_of_ne hut] at hu; exact h4 u x l rest hu
  | load t l rest ht =>
    refine ⟨?_, crit t _ (by simp [ht, Phase.critical]), ?_, ?_⟩
    · intro l'
      have e := h1 l'
      dsimp only
      simp only [phs, ht, pending_idle, pending_run, pending_merge, pending_loaded, pending_done, List.mem_cons]
      simpa using e
    · intro u rest' hu
      by_cases hut : u = t
      · subst hut; simp at hu
      · dsimp only at hu; rw [Function.update_of_ne hut] at hu; exact h3 u rest' hu
    · intro u x l' rest' hu
      by_cases hut : u = t
      · subst hut; simp at hu
        obtain ⟨rfl, rfl, rfl⟩ := hu
        exact ⟨rfl, h3 u _ ht⟩
      · dsimp only at hu; rw [Function.update_of_ne hut] at hu; exact h4 u x l' rest' hu
  | store t x l rest ht =>
    obtain ⟨hx, hn⟩ := h4 t x l rest ht
    have hlock : s.lock = some t := (h2 t).1 (by simp [ht, Phase.critical])
    refine ⟨?_, crit t _ (by simp [ht, Phase.critical]), ?_, ?_⟩
    · intro l'
      have e := h1 l'
      dsimp only
      simp only [phs, ht, pending_idle, pending_run, pending_merge, pending_loaded, pending_done]
      by_cases hl : l' = l
      · subst hl
        have : l' ∉ rest := (List.nodup_cons.1 hn).1
        simp [this, hx]; linarith
      · rw [Function.update_of_ne hl]
        simp only [hl, false_or]
        linarith
    · intro u rest' hu
      by_cases hut : u = t
      · subst hut; simp at hu; rw [← hu]; exact (List.nodup_cons.1 hn).2
      · dsimp only at hu; rw [Function.update_of_ne hut] at hu; exact h3 u rest' hu
    · intro u x' l' rest' hu
      by_cases hut : u = t
      · subst hut; simp at hu
      · dsimp only at hu; rw [Function.update_of_ne hut] at hu
        have := (h2 u).1 (by simp [hu, Phase.critical])
        rw [hlock] at this
        exact absurd (Option.some.inj this).symm hut
  | release t ht =>
    have hlock : s.lock = some t := (h2 t).1 (by simp [ht, Phase.critical])
    refine ⟨?_, ?_, ?_, ?_⟩
    · intro l
      have e := h1 l
      dsimp only
      simp only [phs, ht, pending_idle, pending_run, pending_merge, pending_loaded, pending_done]
      simpa using e
    · intro u
      dsimp only
      by_cases hut : u = t
      · subst hut; simp [Phase.critical]
      · rw [Function.update_of_ne hut]
        have := h2 u
        rw [hlock] at this
        constructor
        · intro hc; exact absurd (Option.some.inj (this.1 hc)).symm hut
        · intro hc; simp at hc
    · intro u rest' hu
      by_cases hut : u = t
      · subst hut; simp at hu
      · dsimp only at hu; rw [Function.update_of_ne hut] at hu; exact h3 u rest' hu
    · intro u x l rest hu
      by_cases hut : u = t
      · subst hut; simp at hu
      · dsimp only at hu; rw [Function.update_of_ne hut] at hu; exact h4 u x l rest hu

theorem inv_entry (prog : ι → List (Loc × ℝ)) (locs : List Loc) (iters : Multiset ι) (mem : Loc → ℝ) :
    PInv prog locs (fun l => mem l + (iters.map fun i => total l (prog i)).sum) (entry iters mem : PState ι Loc n) := by
  refine ⟨?_, ?_, ?_, ?_⟩
  · intro l; simp [entry, pending]
  · intro t; simp [entry, Phase.critical]
  · intro t rest h; simp [entry] at h
  · intro t x l rest h; simp [entry] at h

theorem inv_reach {prog : ι → List (Loc × ℝ)} {locs : List Loc} (hnd : locs.Nodup) (hall : ∀ l, l ∈ locs) (iters : Multiset ι) (mem : Loc → ℝ)
    {s : PState ι Loc n} (h : Reach prog locs (entry iters mem) s) :
    PInv prog locs (fun l => mem l + (iters.map fun i => total l (prog i)).sum) s := by
  induction h with
  | refl => exact inv_entry prog locs iters mem
  | tail _ hs ih => exact inv_step hnd hall ih hs

/-- Iterations are not lost: a thread can only be past the loop when the pool is empty. -/
theorem pool_empty {prog : ι → List (Loc × ℝ)} {locs : List Loc} {iters : Multiset ι} {mem : Loc → ℝ} {s : PState ι Loc n}
    (h : Reach prog locs (entry iters mem) s) : (∃ t, s.ph t ≠ .idle ∧ ¬ (s.ph t).running) → s.pool = 0 := by
  induction h with
  | refl => rintro ⟨t, h, _⟩; exact absurd rfl h
  | @tail s s' _ hs ih =>
    rintro ⟨t, h1, h2⟩
    have other : ∀ (u : Fin n) (p : Phase Loc), (p ≠ .idle → ¬ p.running → s.pool = 0) →
        Function.update s.ph u p t ≠ .idle → ¬ (Function.update s.ph u p t).running → s.pool = 0 := by
      intro u p hp k1 k2
      by_cases htu : t = u
      · subst htu; rw [Function.update_self] at k1 k2; exact hp k1 k2
      · rw [Function.update_of_ne htu] at k1 k2; exact ih ⟨t, k1, k2⟩
    have past : ∀ u, s.ph u ≠ .idle → ¬ (s.ph u).running → s.pool = 0 := fun u a b => ih ⟨u, a, b⟩
    cases hs with
    | start u i hu hm =>
      have := other u (.run (prog i)) (fun _ hr => (hr trivial).elim) h1 h2
      rw [this] at hm; simp at hm
    | add u l x rest hu => exact other u (.run rest) (fun _ hr => (hr trivial).elim) h1 h2
    | finish u hu => exact other u _ (fun hr => absurd rfl hr) h1 h2
    | acquire u hu hp _ _ => exact hp
    | load u l rest hu => exact other u _ (fun _ _ => past u (by simp [hu]) (by simp [hu, Phase.running])) h1 h2
    | store u x l rest hu => exact other u _ (fun _ _ => past u (by simp [hu]) (by simp [hu, Phase.running])) h1 h2
    | release u hu => exact other u _ (fun _ _ => past u (by simp [hu]) (by simp [hu, Phase.running])) h1 h2

/-- C28: whatever the number of threads (at least one), the distribution of iterations and the interleaving, when all
threads are done the output holds what it held before plus everything that the iterations add. -/
theorem C28_sum (prog : ι → List (Loc × ℝ)) (locs : List Loc) (hnd : locs.Nodup) (hall : ∀ l, l ∈ locs) (iters : Multiset ι) (mem : Loc → ℝ)
    (hn : 0 < n) (s : PState ι Loc n) (h : Reach prog locs (entry iters mem) s) (hd : ∀ t, s.ph t = .done) (l : Loc) :
    s.mem l = mem l + (iters.map fun i => total l (prog i)).sum := by
  have hp := pool_empty h ⟨⟨0, hn⟩, by simp [hd], by simp [hd, Phase.running]⟩
  have := (inv_reach hnd hall iters mem h).owed l
  simpa [hp, hd, pending] using this

/-- C28: no interleaving gets stuck before the end. -/
theorem C28_progress (prog : ι → List (Loc × ℝ)) (locs : List Loc) (hnd : locs.Nodup) (hall : ∀ l, l ∈ locs) (iters : Multiset ι) (mem : Loc → ℝ)
    (s : PState ι Loc n) (h : Reach prog locs (entry iters mem) s) (hd : ¬ ∀ t, s.ph t = .done) : ∃ s', Step prog locs s s' := by
  have hi := inv_reach hnd hall iters mem h
  by_cases hrun : ∃ t, (s.ph t).running
  · obtain ⟨t, ht⟩ := hrun
    rcases hp : s.ph t with _ | rest | _ | _ | _ <;> rw [hp] at ht <;> simp only [Phase.running] at ht
    cases rest with
    | nil => exact ⟨_, .finish s t hp⟩
    | cons a rest => exact ⟨_, .add s t a.1 a.2 rest hp⟩
  · by_cases hc : ∃ t, (s.ph t).critical
    · obtain ⟨t, ht⟩ := hc
      rcases hp : s.ph t with _ | _ | rest | ⟨x, l, rest⟩ | _ <;> rw [hp] at ht <;> simp only [Phase.critical] at ht
      · cases rest with
        | nil => exact ⟨_, .release s t hp⟩
        | cons l rest => exact ⟨_, .load s t l rest hp⟩
      · exact ⟨_, .store s t x l rest hp⟩
    · push Not at hd hrun hc
      obtain ⟨t, ht⟩ := hd
      have hid : s.ph t = .idle := by
        have a := hrun t; have b := hc t
        rcases hp : s.ph t with _ | _ | _ | _ | _ <;> rw [hp] at a b ht <;> simp [Phase.running, Phase.critical] at a b ht ⊢
      by_cases hpool : s.pool = 0
      · have hl : s.lock = none := by
          rcases hl : s.lock with _ | u
          · rfl
          · exact absurd ((hi.excl u).2 hl) (hc u)
        exact ⟨_, .acquire s t hid hpool hrun hl⟩
      · obtain ⟨i, hmem⟩ := Multiset.exists_mem_of_ne_zero hpool
        exact ⟨_, .start s t i hid hmem⟩

/-- Work left of a thread. -/
def Phase.work {Loc : Type*} (k : ℕ) : Phase Loc → ℕ
  | .idle => 2 * k + 3
  | .run rest => 2 * k + 4 + rest.length
  | .merge rest => 2 * rest.length + 1
  | .loaded _ _ rest => 2 * rest.length + 2
  | .done => 0

theorem work_idle (k : ℕ) : (Phase.idle : Phase Loc).work k = 2 * k + 3 := rfl
theorem work_run (k : ℕ) (rest : List (Loc × ℝ)) : (Phase.run rest).work k = 2 * k + 4 + rest.length := rfl
theorem work_merge (k : ℕ) (rest : List Loc) : (Phase.merge rest).work k = 2 * rest.length + 1 := rfl
theorem work_loaded (k : ℕ) (x : ℝ) (l : Loc) (rest : List Loc) : (Phase.loaded x l rest).work k = 2 * rest.length + 2 := rfl
theorem work_done (k : ℕ) : (Phase.done : Phase Loc).work k = 0 := rfl

def measure (prog : ι → List (Loc × ℝ)) (locs : List Loc) (s : PState ι Loc n) : ℕ :=
  (s.pool.map fun i => (prog i).length + 2).sum + ∑ t, (s.ph t).work locs.length

theorem sum_update_nat {β : Type*} (f : Fin n → β) (g : β → ℕ) (t : Fin n) (b : β) :
    ∑ u, g (Function.update f t b u) + g (f t) = ∑ u, g (f u) + g b := by
  rw [← Finset.add_sum_erase _ _ (Finset.mem_univ t), ← Finset.add_sum_erase _ (fun u => g (f u)) (Finset.mem_univ t)]
  have : ∑ u ∈ Finset.univ.erase t, g (Function.update f t b u) = ∑ u ∈ Finset.univ.erase t, g (f u) := by
    apply Finset.sum_congr rfl
    intro u hu
    rw [Function.update_of_ne (Finset.ne_of_mem_erase hu)]
  rw [this, Function.update_self]; ring

/-- C28: every execution ends. -/
theorem C28_terminates (prog : ι → List (Loc × ℝ)) (locs : List Loc) (s s' : PState ι Loc n) (h : Step prog locs s s') :
    measure prog locs s' < measure prog locs s := by
  have hu := fun t b => sum_update_nat s.ph (Phase.work locs.length) t b
  cases h with
  | start t i ht hm =>
    have hp : (s.pool.map fun i => (prog i).length + 2).sum = (prog i).length + 2 + ((s.pool.erase i).map fun i => (prog i).length + 2).sum := by
      conv_lhs => rw [← Multiset.cons_erase hm]
      simp
    have := hu t (.run (prog i))
    simp only [ht, work_idle, work_run, work_merge, work_loaded, work_done] at this
    simp only [measure, hp]; omega
  | add t l x rest ht =>
    have := hu t (.run rest)
    simp only [ht, work_idle, work_run, work_merge, work_loaded, work_done, List.length_cons] at this
    simp only [measure]; omega
  | finish t ht =>
    have := hu t .idle
    simp only [ht, work_idle, work_run, work_merge, work_loaded, work_done, List.length_nil] at this
    simp only [measure]; omega
  | acquire t ht _ _ _ =>
    have := hu t (.merge locs)
    simp only [ht, work_idle, work_run, work_merge, work_loaded, work_done] at this
    simp only [measure]; omega
  | load t l rest ht =>
    have := hu t (.loaded (s.mem l) l rest)
    simp only [ht, work_idle, work_run, work_merge, work_loaded, work_done, List.length_cons] at this
    simp only [measure]; omega
  | store t x l rest ht =>
    have := hu t (.merge rest)
    simp only [ht, work_idle, work_run, work_merge, work_loaded, work_done] at this
    simp only [measure]; omega
  | release t ht =>
    have := hu t .done
    simp only [ht, work_idle, work_run, work_merge, work_loaded, work_done, List.length_nil] at this
    simp only [measure]; omega

end par

/-! ### The fault -/

/-- The nine plus three numbers of a receiver. -/
abbrev Slot := Fin 3 ⊕ Fin 3 × Fin 3
def slot (v : Vals) : Slot → ℝ | .inl c => v.1 c | .inr (c, c2) => v.2 c c2

/-- The point sources that one subfault stands for, grt_static_syn.c 968-1013; `m0`, `m1`, `m2` of `mchn` are strike, dip and
rake (a rake left from an earlier call is never read). -/
noncomputable def calls (f : Fault) (sub : Sub) : List Source :=
  let area := sub.width * sub.length * 1e12
  let dc (M0 rake : ℝ) : Source := ⟨.DC, M0, true, ![f.strike, f.dip, rake, 0, 0, 0]⟩
  let src (ty : SynType) (M0 : ℝ) : Source := ⟨ty, M0, true, ![f.strike, f.dip, 0, 0, 0, 0]⟩
  match f.kode with
  | .rtlatReverse => [dc sub.potency f.rake]
  | .rtlatTensile => (if f.rightLateral ≠ 0 then [dc (f.rightLateral * area) 180] else []) ++
      (if f.tensile ≠ 0 then [src .TS (f.tensile * area)] else [])
  | .tensileReverse => (if f.tensile ≠ 0 then [src .TS (f.tensile * area)] else []) ++
      (if f.reverse ≠ 0 then [dc (f.reverse * area) 90] else [])
  | .pointDC => if hyp f.rightLateral f.reverse * 1e6 ≠ 0 then [dc (hyp f.rightLateral f.reverse * 1e6) f.rake] else []
  | .pointTensileInflate => (if f.tensile ≠ 0 then [src .TS (f.tensile * 1e6)] else []) ++
      (if f.inflate ≠ 0 then [src .EX (f.inflate * 1e6)] else [])

/-- Number of iterations, grt_static_syn.c 931-933. -/
def iterations (f : Fault) (D : Subdiv) : List (ℕ × ℕ) :=
  if f.kode.isPoint then [(0, 0)] else (List.range D.nW).flatMap fun iW => (List.range D.nL).map fun iL => (iW, iL)

/-- The subfault of an iteration, grt_static_syn.c 949-955. -/
noncomputable def subOf (f : Fault) (dL dW : ℝ) (D : Subdiv) (i : ℕ × ℕ) : Option Sub :=
  if f.kode.isPoint then subfault f D.L D.W D.W D.L 0 0 else subfault f dL dW D.W D.L i.1 i.2

/-- `npts` receivers: north, east, depth. -/
abbrev Rcv (npts : ℕ) := Fin npts → ℝ × ℝ × ℝ

/-- The values that iteration `i` adds, in order: for every call, every receiver. -/
noncomputable def iterVals {npts : ℕ} (L : Library) (f : Fault) (sub : Sub) (rcv : Rcv npts) : List (Fin npts × Out Vals) :=
  (calls f sub).flatMap fun Q => (List.finRange npts).map fun p =>
    (p, psPoint L Q true sub.depsrc ((rcv p).1 - sub.north) ((rcv p).2.1 - sub.east) (rcv p).2.2)

/-- Additions that a list of values stands for. -/
noncomputable def additions {npts : ℕ} (vs : List (Fin npts × Vals)) : List ((Fin npts × Slot) × ℝ) :=
  vs.flatMap fun a => (Finset.univ : Finset Slot).toList.map fun k => ((a.1, k), slot a.2 k)

theorem total_additions {npts : ℕ} (vs : List (Fin npts × Vals)) (p : Fin npts) (k : Slot) :
    total (p, k) (additions vs) = (vs.map fun a => if a.1 = p then slot a.2 k else 0).sum := by
  induction vs with
  | nil => simp [additions, total]
  | cons a t ih =>
    have e : total (p, k) (additions (a :: t))
        = (((Finset.univ : Finset Slot).toList.map fun k' => if a.1 = p ∧ k' = k then slot a.2 k' else 0).sum) + total (p, k) (additions t) := by
      simp only [additions, total, List.flatMap_cons, List.map_append, List.sum_append, List.map_map, Function.comp_def, Prod.mk.injEq]
    rw [e, ih, List.map_cons, List.sum_cons, Finset.sum_map_toList]
    congr 1
    by_cases ha : a.1 = p
    · simp [ha]
    · simp [ha]

/-- C28 for a fault: if no subfault of the fault meets an error, the parallel region ends with the output increased, at every
receiver and component, by the sum over subfaults, and over the point sources each stands for, of the point-source
synthetics. -/
theorem C28_fault {npts n : ℕ} (L : Library) (f : Fault) (dL dW : ℝ) (D : Subdiv) (rcv : Rcv npts) (hn : 0 < n)
    (locs : List (Fin npts × Slot)) (hnd : locs.Nodup) (hall : ∀ l, l ∈ locs) (mem : Fin npts × Slot → ℝ)
    (sub : ℕ × ℕ → Sub) (val : ℕ × ℕ → Source → Fin npts → Vals)
    (hsub : ∀ i ∈ iterations f D, subOf f dL dW D i = some (sub i))
    (hval : ∀ i ∈ iterations f D, ∀ Q ∈ calls f (sub i), ∀ p,
      psPoint L Q true (sub i).depsrc ((rcv p).1 - (sub i).north) ((rcv p).2.1 - (sub i).east) (rcv p).2.2 = .ok (val i Q p)) :
    ∃ prog : ℕ × ℕ → List ((Fin npts × Slot) × ℝ),
      (∀ i ∈ iterations f D, ∃ b vs, subOf f dL dW D i = some b ∧ iterVals L f b rcv = vs.map (fun a => (a.1, .ok a.2)) ∧ prog i = additions vs) ∧
      ∀ s : PState (ℕ × ℕ) (Fin npts × Slot) n, Reach prog locs (entry (iterations f D : Multiset (ℕ × ℕ)) mem) s → (∀ t, s.ph t = .done) →
        ∀ p k, s.mem (p, k) = mem (p, k) +
          ((iterations f D).map fun i => ((calls f (sub i)).map fun Q => slot (val i Q p) k).sum).sum := by
  refine ⟨fun i => additions ((calls f (sub i)).flatMap fun Q => (List.finRange npts).map fun p => (p, val i Q p)), ?_, ?_⟩
  · intro i hi
    refine ⟨_, _, hsub i hi, ?_, rfl⟩
    rw [iterVals, List.map_flatMap]
    have := hval i hi
    generalize calls f (sub i) = cs at this ⊢
    induction cs with
    | nil => simp
    | cons Q t ih =>
      rw [List.flatMap_cons, List.flatMap_cons, ih (fun Q' h' => this Q' (List.mem_cons_of_mem _ h')), List.map_map]
      congr 1
      apply List.map_congr_left
      intro p _
      simp [this Q (by simp) p]
  · intro s hr hd p k
    rw [C28_sum _ locs hnd hall _ mem hn s hr hd (p, k)]
    congr 1
    rw [Multiset.map_coe, Multiset.sum_coe]
    congr 1
    apply List.map_congr_left
    intro i _
    rw [total_additions]
    generalize calls f (sub i) = cs
    induction cs with
    | nil => simp
    | cons Q t ih =>
      rw [List.flatMap_cons, List.map_append, List.sum_append, ih, List.map_cons, List.sum_cons]
      congr 1
      rw [List.map_map]
      have : ((List.finRange npts).map fun q => if q = p then slot (val i Q q) k else 0).sum = slot (val i Q p) k := by
        rw [← List.ofFn_eq_map, List.sum_ofFn]; simp
      exact this

/-! ### Concrete cases -/

/-- Two threads, three iterations over two locations: a complete execution exists (by progress and termination), and its
result is the sum. -/
theorem reach_end {ι Loc : Type*} [DecidableEq ι] [DecidableEq Loc] {n : ℕ} (prog : ι → List (Loc × ℝ)) (locs : List Loc) (hnd : locs.Nodup)
    (hall : ∀ l, l ∈ locs) (iters : Multiset ι) (mem : Loc → ℝ) :
    ∃ s : PState ι Loc n, Reach prog locs (entry iters mem) s ∧ ∀ t, s.ph t = .done := by
  have key : ∀ (m : ℕ) (s : PState ι Loc n), measure prog locs s ≤ m → Reach prog locs (entry iters mem) s →
      ∃ s' : PState ι Loc n, Reach prog locs (entry iters mem) s' ∧ ∀ t, s'.ph t = .done := by
    intro m
    induction m with
    | zero =>
      intro s hm hr
      refine ⟨s, hr, ?_⟩
      by_contra hd
      obtain ⟨s', hs⟩ := C28_progress prog locs hnd hall iters mem s hr hd
      have := C28_terminates prog locs s s' hs
      omega
    | succ m ih =>
      intro s hm hr
      by_cases hd : ∀ t, s.ph t = .done
      · exact ⟨s, hr, hd⟩
      · obtain ⟨s', hs⟩ := C28_progress prog locs hnd hall iters mem s hr hd
        have := C28_terminates prog locs s s' hs
        exact ih s' (by omega) (.tail hr hs)
  exact key _ _ le_rfl .refl

example : ∃ s : PState (Fin 3) (Fin 2) 2, Reach (fun i : Fin 3 => [((0 : Fin 2), ((i : ℕ) : ℝ) + 1), (1, 1)]) [0, 1] (entry {0, 1, 2} fun _ => 5) s ∧ (∀ t, s.ph t = .done) ∧
    s.mem 0 = 11 ∧ s.mem 1 = 8 := by
  obtain ⟨s, h1, h2⟩ := reach_end (n := 2) (fun i : Fin 3 => [((0 : Fin 2), ((i : ℕ) : ℝ) + 1), (1, 1)]) [0, 1] (by decide) (by decide) {0, 1, 2} (fun _ => 5)
  refine ⟨s, h1, h2, ?_, ?_⟩
  · rw [C28_sum _ _ (by decide) (by decide) _ _ (by norm_num) s h1 h2 0]
    simp [total]; norm_num
  · rw [C28_sum _ _ (by decide) (by decide) _ _ (by norm_num) s h1 h2 1]
    simp [total]; norm_num

end GRT.StaticSyn
