import Verif.Integ.Dcm
import Mathlib.Analysis.SpecialFunctions.Pow.Real
import Mathlib.Algebra.Order.Floor.Semiring

/-!
Search for the upper limit of the wavenumber integral (pygrt/C_extension/src/integral/kmax.c), in exact arithmetic.
The kernel is a function of the wavenumber; whether it reports a failure is not looked at by the code.
-/

namespace GRT.Integ.Kmax

open GRT.Integ

/-- `_kmax_step_factor`, kmax.c 33-43. -/
noncomputable def stepFactor (init ref : ℝ) : ℝ :=
  if init ≤ 0 ∨ ref ≤ init then 101 / 100 else min (max ((ref / init) ^ ((1 : ℝ) / 40)) (101 / 100)) (3 / 2)

/-- `_kmax_low`, kmax.c 46-49. -/
noncomputable def low (init klow ref : ℝ) : ℝ := min (max klow init) ref

/-- Channels looked at, kmax.c 78-79, 138-139: not the transverse one of order zero. -/
def used (i : Fin 6) (c : Fin 3) : Prop := ¬ (order i = 0 ∧ c = 2)

/-- One search: `const` chooses `_decay_constant` (source and receiver at one depth) over `_decay_zero`. -/
structure Search where
  const : Bool
  init : ℝ
  klow : ℝ
  ref : ℝ
  ker : ℝ → Chnl × Chnl

variable (S : Search)

/-- Kernel values compared, kmax.c 141-146 for `_decay_constant`. -/
noncomputable def Search.vals (k : ℝ) (i : Fin 6) (c : Fin 3) : ℂ × ℂ :=
  if S.const then
    if isForce i then ((S.ker k).1 i c * k, (S.ker k).2 i c) else ((S.ker k).1 i c, (S.ker k).2 i c / k)
  else ((S.ker k).1 i c, (S.ker k).2 i c)

/-- `F`, kmax.c 81 and 148. -/
noncomputable def Search.amp (k : ℝ) (i : Fin 6) (c : Fin 3) : ℝ :=
  if S.const then ‖(S.vals k i c).1‖ + ‖(S.vals k i c).2‖ else √k * (‖(S.vals k i c).1‖ + ‖(S.vals k i c).2‖)

/-- State between turns: `Fmax`, `nval`, and the kernel values of the turn before. -/
structure St where
  fmax : Fin 6 → Fin 3 → ℝ
  nval : Fin 6 → Fin 3 → ℕ
  prev : Fin 6 → Fin 3 → ℂ × ℂ

open Classical in
/-- Channel loop of one turn, kmax.c 77-94 and 137-166. -/
noncomputable def Search.turn (k : ℝ) (st : St) : St :=
  let fmax' := fun i c => max (S.amp k i c) (st.fmax i c)
  let hit := fun i c => low S.init S.klow S.ref ≤ k ∧
    if S.const then ‖(S.vals k i c).1 - (st.prev i c).1‖ + ‖(S.vals k i c).2 - (st.prev i c).2‖ ≤ 5 / 100 * (fmax' i c + 1 / 10 ^ 30)
    else S.amp k i c ≤ 1 / 100 * (fmax' i c + 1 / 10 ^ 30)
  { fmax := fmax', nval := fun i c => if hit i c then st.nval i c + 1 else 0, prev := S.vals k }

/-- Step to the next wavenumber, kmax.c 98-99 and 170-171. -/
noncomputable def Search.next (k : ℝ) : ℝ := k + min ((stepFactor S.init S.ref - 1) * k) (S.ref / 40)

open Classical in
/-- The loop, kmax.c 74-102 and 132-174; `none` if the given number of turns does not suffice. -/
noncomputable def Search.loop : ℕ → ℝ → St → Option ℝ
  | 0, _, _ => none
  | n + 1, k, st =>
    if k < S.ref then
      if ∀ i c, used i c → 3 ≤ (S.turn k st).nval i c then some (min k S.ref) else Search.loop n (S.next k) (S.turn k st)
    else some (min k S.ref)

/-- `grt_predict_kmax`, kmax.c 53-190. -/
noncomputable def Search.predict (n : ℕ) : Option ℝ :=
  if S.ref ≤ S.init then some S.ref else S.loop n S.init ⟨fun _ _ => 0, fun _ _ => 0, fun _ _ => (0, 0)⟩

/-! ### Specification -/

/-- Points of the search. -/
noncomputable def Search.pt : ℕ → ℝ
  | 0 => S.init
  | j + 1 => S.next (Search.pt j)

/-- Largest amplitude up to the `j`-th point. -/
noncomputable def Search.top (j : ℕ) (i : Fin 6) (c : Fin 3) : ℝ := (Finset.range (j + 1)).sup' Finset.nonempty_range_add_one fun l => S.amp (S.pt l) i c

/-- The criterion holds for a channel at the `j`-th point: at or beyond the lowest admissible wavenumber, the amplitude is a
hundredth of the largest so far, or, for a kernel tending to a constant, the change since the point before (since nought for the
first) is a twentieth of it. -/
def Search.good (j : ℕ) (i : Fin 6) (c : Fin 3) : Prop :=
  low S.init S.klow S.ref ≤ S.pt j ∧
  if S.const then
    ‖(S.vals (S.pt j) i c).1 - (if j = 0 then 0 else (S.vals (S.pt (j - 1)) i c).1)‖ +
      ‖(S.vals (S.pt j) i c).2 - (if j = 0 then 0 else (S.vals (S.pt (j - 1)) i c).2)‖ ≤ 5 / 100 * (S.top j i c + 1 / 10 ^ 30)
  else S.amp (S.pt j) i c ≤ 1 / 100 * (S.top j i c + 1 / 10 ^ 30)

/-- All channels satisfied the criterion at three points in a row, the last of them the `j`-th. -/
def Search.settled (j : ℕ) : Prop := 2 ≤ j ∧ ∀ i c, used i c → S.good j i c ∧ S.good (j - 1) i c ∧ S.good (j - 2) i c

theorem stepFactor_bounds (init ref : ℝ) : 101 / 100 ≤ stepFactor init ref ∧ stepFactor init ref ≤ 3 / 2 := by
  unfold stepFactor
  split
  · norm_num
  · exact ⟨le_min (le_max_right _ _) (by norm_num), min_le_right _ _⟩

theorem amp_nonneg (k : ℝ) (i : Fin 6) (c : Fin 3) : 0 ≤ S.amp k i c := by
  unfold Search.amp
  split <;> positivity

/-- Number of points in a row, up to the `j`-th exclusive, at which a channel met the criterion. -/
noncomputable def Search.run (i : Fin 6) (c : Fin 3) : ℕ → ℕ
  | 0 => 0
  | j + 1 => by classical exact if S.good j i c then Search.run i c j + 1 else 0

theorem run_three (i : Fin 6) (c : Fin 3) (j : ℕ) :
    3 ≤ S.run i c (j + 1) ↔ 2 ≤ j ∧ S.good j i c ∧ S.good (j - 1) i c ∧ S.good (j - 2) i c := by
  have h1 : ∀ j, 1 ≤ S.run i c (j + 1) ↔ S.good j i c := by
    intro j
    simp only [Search.run]
    split <;> simp_all
  have h2 : ∀ j, 2 ≤ S.run i c (j + 1) ↔ 1 ≤ j ∧ S.good j i c ∧ S.good (j - 1) i c := by
    intro j
    cases j with
    | zero => simp only [Search.run]; split <;> simp
    | succ j =>
      rw [Search.run]
      have := h1 j
      split
      · rename_i h
        simp only [Nat.add_sub_cancel, h, true_and]
        rw [← this]
        omega
      · rename_i h
        simp [h]
  cases j with
  | zero => simp only [Search.run]; split <;> simp
  | succ j =>
    rw [Search.run]
    have := h2 j
    split
    · rename_i h
      simp only [Nat.add_sub_cancel, h, true_and]
      rw [show j + 1 - 2 = j - 1 by omega, show (2 ≤ j + 1 ∧ S.good j i c ∧ S.good (j - 1) i c) ↔ 2 ≤ S.run i c (j + 1) by
        rw [this]; simp [Nat.succ_le_iff]]
      omega
    · rename_i h
      simp [h]

/-- State before the `j`-th point. -/
noncomputable def Search.stAt (j : ℕ) : St where
  fmax := fun i c => if j = 0 then 0 else S.top (j - 1) i c
  nval := fun i c => S.run i c j
  prev := fun i c => if j = 0 then (0, 0) else S.vals (S.pt (j - 1)) i c

theorem top_succ (j : ℕ) (i : Fin 6) (c : Fin 3) : S.top (j + 1) i c = max (S.amp (S.pt (j + 1)) i c) (S.top j i c) := by
  unfold Search.top
  simp only [Finset.range_add_one (n := j + 1)]
  rw [Finset.sup'_insert]

theorem turn_stAt (j : ℕ) : S.turn (S.pt j) (S.stAt j) = S.stAt (j + 1) := by
  have hf : ∀ i c, max (S.amp (S.pt j) i c) ((S.stAt j).fmax i c) = S.top j i c := by
    intro i c
    cases j with
    | zero =>
      simp only [Search.stAt, if_true]
      rw [max_eq_left (amp_nonneg S _ i c)]
      simp [Search.top]
    | succ j =>
      rw [top_succ]
      simp [Search.stAt]
  have hp : ∀ i c, (S.stAt j).prev i c = (if j = 0 then 0 else (S.vals (S.pt (j - 1)) i c).1, if j = 0 then 0 else (S.vals (S.pt (j - 1)) i c).2) := by
    intro i c
    simp only [Search.stAt]
    split <;> rfl
  unfold Search.turn
  simp only [hf, hp]
  show St.mk _ _ _ = St.mk _ _ _
  congr 1
  funext i c
  simp only [Search.run]
  by_cases hg : S.good j i c
  · rw [if_pos hg, if_pos (show _ ∧ _ from hg)]
    rfl
  · rw [if_neg hg, if_neg (show ¬ (_ ∧ _) from hg)]

theorem loop_spec (n j : ℕ) (x : ℝ) (h : S.loop n (S.pt j) (S.stAt j) = some x) :
    ∃ m, j ≤ m ∧ x = min (S.pt m) S.ref ∧ (∀ l, j ≤ l → l < m → S.pt l < S.ref ∧ ¬ S.settled l) ∧
      (S.ref ≤ S.pt m ∨ S.settled m) := by
  induction n generalizing j with
  | zero => simp [Search.loop] at h
  | succ n ih =>
    unfold Search.loop at h
    rw [turn_stAt] at h
    have hs : (∀ i c, used i c → 3 ≤ (S.stAt (j + 1)).nval i c) ↔ S.settled j := by
      simp only [Search.stAt, run_three]
      unfold Search.settled
      constructor
      · intro hx
        have h0 : used 0 0 := by unfold used; simp
        exact ⟨(hx 0 0 h0).1, fun i c hu => (hx i c hu).2⟩
      · exact fun hx i c hu => ⟨hx.1, hx.2 i c hu⟩
    split at h
    · rename_i hlt
      split at h
      · rename_i hc
        injection h with h
        exact ⟨j, le_rfl, h.symm, fun l h1 h2 => absurd h1 (by omega), Or.inr (hs.1 hc)⟩
      · rename_i hc
        obtain ⟨m, h1, h2, h3, h4⟩ := ih (j + 1) h
        refine ⟨m, by omega, h2, fun l hl hl' => ?_, h4⟩
        rcases Nat.lt_or_ge j l with hlt' | hge
        · exact h3 l hlt' hl'
        · have : l = j := by omega
          subst this
          exact ⟨hlt, fun hx => hc (hs.2 hx)⟩
    · rename_i hlt
      injection h with h
      exact ⟨j, le_rfl, h.symm, fun l h1 h2 => absurd h1 (by omega), Or.inl (not_lt.1 hlt)⟩

theorem stAt_zero : S.stAt 0 = ⟨fun _ _ => 0, fun _ _ => 0, fun _ _ => (0, 0)⟩ := rfl

theorem pt_pos (hi : 0 < S.init) (hr : 0 < S.ref) (j : ℕ) : S.init + j * min (1 / 100 * S.init) (S.ref / 40) ≤ S.pt j := by
  induction j with
  | zero => simp [Search.pt]
  | succ j ih =>
    have hm : 0 < min (1 / 100 * S.init) (S.ref / 40) := lt_min (by linarith) (by linarith)
    have hk : S.init ≤ S.pt j := by
      have : 0 ≤ (j : ℝ) * min (1 / 100 * S.init) (S.ref / 40) := by positivity
      linarith
    have hf := (stepFactor_bounds S.init S.ref).1
    have : min (1 / 100 * S.init) (S.ref / 40) ≤ min ((stepFactor S.init S.ref - 1) * S.pt j) (S.ref / 40) :=
      min_le_min_right _ (by nlinarith)
    simp only [Search.pt, Search.next]
    push_cast
    linarith

theorem pt_mono (hi : 0 < S.init) (hr : 0 < S.ref) {a b : ℕ} (h : a ≤ b) : S.pt a ≤ S.pt b := by
  refine monotone_nat_of_le_succ (fun j => ?_) h
  have h1 := pt_pos S hi hr j
  have hf := (stepFactor_bounds S.init S.ref).1
  have hm : 0 < min (1 / 100 * S.init) (S.ref / 40) := lt_min (by linarith) (by linarith)
  have h2 : 0 ≤ (j : ℝ) * min (1 / 100 * S.init) (S.ref / 40) := by positivity
  have h3 : 0 ≤ min ((stepFactor S.init S.ref - 1) * S.pt j) (S.ref / 40) := le_min (by nlinarith) (by linarith)
  simp only [Search.pt, Search.next]
  linarith

/-- C38, termination: from a positive start the search ends, whatever the kernel, after a number of turns that depends on the
start and the reference limit only. -/
theorem C38_terminates (hi : 0 < S.init) : ∃ N, ∀ n, N ≤ n → ∃ x, S.predict n = some x := by
  unfold Search.predict
  by_cases hr : S.ref ≤ S.init
  · exact ⟨0, fun n _ => ⟨S.ref, by rw [if_pos hr]⟩⟩
  · have hr' : 0 < S.ref := hi.trans (not_le.1 hr)
    have hm : 0 < min (1 / 100 * S.init) (S.ref / 40) := lt_min (by linarith) (by linarith)
    obtain ⟨N, hN⟩ := exists_nat_gt (S.ref / min (1 / 100 * S.init) (S.ref / 40))
    rw [div_lt_iff₀ hm] at hN
    have key : ∀ n j, N ≤ j + n → ∃ x, S.loop (n + 1) (S.pt j) (S.stAt j) = some x := by
      intro n
      induction n with
      | zero =>
        intro j hj
        have h1 := pt_pos S hi hr' j
        have h2 : (N : ℝ) ≤ j := by exact_mod_cast hj
        have h3 : ¬ S.pt j < S.ref := by
          rw [not_lt]
          nlinarith
        unfold Search.loop
        rw [if_neg h3]
        exact ⟨_, rfl⟩
      | succ n ih =>
        intro j hj
        unfold Search.loop
        rw [turn_stAt]
        split
        · split
          · exact ⟨_, rfl⟩
          · exact ih (j + 1) (by omega)
        · exact ⟨_, rfl⟩
    refine ⟨N + 1, fun n hn => ?_⟩
    rw [if_neg hr, ← stAt_zero]
    obtain ⟨n', rfl⟩ := Nat.exists_eq_add_of_le' (show 1 ≤ n by omega)
    exact key n' 0 (by omega)

/-- C38, bounds: the result does not exceed the reference limit; it is the reference limit if the start is not below it, and
otherwise not below the start. -/
theorem C38_bounds (hi : 0 < S.init) (n : ℕ) (x : ℝ) (h : S.predict n = some x) :
    x ≤ S.ref ∧ (S.ref ≤ S.init → x = S.ref) ∧ (S.init ≤ S.ref → S.init ≤ x) := by
  unfold Search.predict at h
  split at h
  · rename_i hr
    injection h with h
    exact ⟨h.symm.le, fun _ => h.symm, fun h' => h ▸ h'⟩
  · rename_i hr
    rw [← stAt_zero] at h
    obtain ⟨m, -, h2, -, -⟩ := loop_spec S n 0 x h
    have hr' : 0 < S.ref := hi.trans (not_le.1 hr)
    have hm : 0 < min (1 / 100 * S.init) (S.ref / 40) := lt_min (by linarith) (by linarith)
    have h1 := pt_pos S hi hr' m
    have : 0 ≤ (m : ℝ) * min (1 / 100 * S.init) (S.ref / 40) := by positivity
    rw [h2]
    exact ⟨min_le_right _ _, fun h' => absurd h' hr, fun h' => le_min (by linarith) h'⟩

/-- C38, meaning: a result below the reference limit is the first point of the search at which every channel has met its criterion
three times in a row; and if some point below the limit is such a point, the result is below the limit. -/
theorem C38_first_settled (hi : 0 < S.init) (hr : S.init < S.ref) (n : ℕ) (x : ℝ) (h : S.predict n = some x) :
    (x < S.ref → ∃ m, x = S.pt m ∧ S.settled m ∧ ∀ l, l < m → ¬ S.settled l) ∧
    (∀ m, S.pt m < S.ref → S.settled m → x ≤ S.pt m) := by
  unfold Search.predict at h
  rw [if_neg (not_le.2 hr), ← stAt_zero] at h
  obtain ⟨m, -, h2, h3, h4⟩ := loop_spec S n 0 x h
  constructor
  · intro hx
    rw [h2] at hx
    have hlt : S.pt m < S.ref := by
      by_contra hc
      rw [min_eq_right (not_lt.1 hc)] at hx
      exact lt_irrefl _ hx
    refine ⟨m, by rw [h2, min_eq_left hlt.le], ?_, fun l hl => (h3 l (Nat.zero_le _) hl).2⟩
    rcases h4 with h4 | h4
    · exact absurd hlt (not_lt.2 h4)
    · exact h4
  · intro m' hm' hs
    rcases Nat.lt_trichotomy m' m with hlt | heq | hgt
    · exact absurd hs (h3 m' (Nat.zero_le _) hlt).2
    · rw [h2, heq]
      exact min_le_left _ _
    · rw [h2]
      exact (min_le_left _ _).trans (pt_mono S hi (hi.trans hr) hgt.le)

/-- A case: one force from wavenumber 1 with reference 100; the kernel `1/k` times the wavenumber is constant, so the search ends
with the fourth point. -/
example : let S : Search := { const := true, init := 1, klow := 1, ref := 100, ker := fun k => (fun i _ => if isForce i then 1 / k else 1, fun i _ => if isForce i then 1 else k) }
    S.settled 3 := by
  intro S
  have hv : ∀ k, 0 < k → ∀ i c, S.vals k i c = (1, 1) := by
    intro k hk i c
    have : (k : ℂ) ≠ 0 := Complex.ofReal_ne_zero.2 hk.ne'
    simp only [Search.vals, S, if_true]
    split <;> simp [this]
  have hp : ∀ j, 1 ≤ S.pt j := fun j => by
    have := pt_pos S (by norm_num [S]) (by norm_num [S]) j
    have h2 : 0 ≤ (j : ℝ) * min (1 / 100 * S.init) (S.ref / 40) := by
      have : (0 : ℝ) ≤ min (1 / 100 * S.init) (S.ref / 40) := by norm_num [S]
      positivity
    have h3 : S.init = 1 := rfl
    linarith
  have ht : ∀ j i c, 0 ≤ S.top j i c := fun j i c => by
    unfold Search.top
    refine (amp_nonneg S (S.pt 0) i c).trans ?_
    exact Finset.le_sup' (fun l => S.amp (S.pt l) i c) (by simp)
  have hg : ∀ j i c, S.good (j + 1) i c := by
    intro j i c
    have h1 := hv (S.pt (j + 1)) (by linarith [hp (j + 1)]) i c
    have h2 := hv (S.pt j) (by linarith [hp j]) i c
    refine ⟨?_, ?_⟩
    · have : low S.init S.klow S.ref = 1 := by norm_num [low, S]
      rw [this]
      exact hp _
    · rw [if_pos rfl]
      simp only [Nat.add_sub_cancel, h1, h2]
      simp
      have := ht (j + 1) i c
      positivity
  exact ⟨by norm_num, fun i c _ => ⟨hg 2 i c, hg 1 i c, hg 0 i c⟩⟩

end GRT.Integ.Kmax
