import Verif.Integ.Dcm
import Mathlib.Algebra.Order.Floor.Semiring

/-!
Discrete wavenumber integration, `grt_discrete_integ` (pygrt/C_extension/src/integral/dwm.c 27-135), in exact
arithmetic. The kernel is a function of the wavenumber which may fail; writing the log file is left out.
-/

open Finset

namespace GRT.Integ

/-- What `grt_discrete_integ` is called with, dwm.c 27-34: `same` says that source and receiver are at one depth. -/
structure Dwm (nr : ℕ) where
  dk : ℝ
  kmax : ℝ
  keps : ℝ
  rs : Fin nr → ℝ
  same : Bool
  dcm : Bool
  upar : Bool
  Qm : Chnl
  Qzm : Chnl
  /-- Kernel and its vertical derivative; `none` is `GRT_INVERSE_FAILURE`. -/
  ker : ℝ → Option (Chnl × Chnl)

variable {nr : ℕ} (D : Dwm nr)

/-- Distances that are skipped, dwm.c 74. -/
def Dwm.singular (ir : Fin nr) : Prop := D.same = true ∧ zeroDist (D.rs ir)

open Classical in
/-- Terms of one wavenumber at distance `r`, dwm.c 61-63, 76-80, 106, 115. -/
noncomputable def Dwm.term (k : ℝ) (Q Qz : Chnl) (r : ℝ) : Sums :=
  let Q' := if D.dcm = true ∧ ¬ zeroDist r then revision D.kmax k Q D.Qm else Q
  let Qz' := if D.dcm = true ∧ ¬ zeroDist r then revisionZ D.kmax k Qz D.Qzm else Qz
  { u := intPk k r Q' false 0
    z := if D.upar then intPk k r Qz' false 0 else 0
    r := if D.upar then intPk k r Q' true 0 else 0 }

/-- The convergence test, dwm.c 84-92; a zero sum gives `0/0` or `x/0`, which fails the comparison. -/
def converged (keps : ℝ) (SUM sumJ : Grid) : Prop :=
  ∀ i v, (order i = 0 ∧ v ≠ 0 ∧ v ≠ 2) ∨ (sumJ i v ≠ 0 ∧ ‖SUM i v‖ / ‖sumJ i v‖ ≤ keps)

/-- State between wavenumbers: sums and flags of the distances. -/
structure DwmState (nr : ℕ) where
  sums : Fin nr → Sums
  done : Fin nr → Prop

/-- Body of the loop over distances, dwm.c 70-123. -/
noncomputable def Dwm.add (t s : Sums) : Sums := ⟨s.u + t.u, s.z + t.z, s.r + t.r⟩

open Classical in
/-- One wavenumber, dwm.c 69-123. -/
noncomputable def Dwm.step (k : ℝ) (Q Qz : Chnl) (st : DwmState nr) : DwmState nr :=
  let t := fun ir => D.term k Q Qz (D.rs ir)
  { sums := fun ir => if st.done ir ∨ D.singular ir then st.sums ir else Dwm.add (t ir) (st.sums ir)
    done := fun ir => if st.done ir ∨ D.singular ir then st.done ir else
      0 < D.keps ∧ converged D.keps (t ir).u ((st.sums ir).u + (t ir).u) }

/-- `iendk`, dwm.c 69-99: true unless some distance that was worked on has not converged. -/
def Dwm.allDone (st' : DwmState nr) : Prop := ∀ ir, D.singular ir ∨ st'.done ir

/-- Outcome of the loop. -/
structure DwmOut (nr : ℕ) where
  k : ℝ
  st : DwmState nr
  /-- The wavenumbers at which the kernel was evaluated, latest first. -/
  log : List ℝ
  failed : Bool

open Classical in
/-- Loop over wavenumbers, dwm.c 48-128; the first argument counts the turns left. -/
noncomputable def Dwm.loop : ℕ → ℝ → DwmState nr → List ℝ → DwmOut nr
  | 0, k, st, log => ⟨k, st, log, false⟩
  | n + 1, k, st, log =>
    let k' := k + D.dk
    match D.ker k' with
    | none => ⟨k', st, k' :: log, true⟩
    | some (Q, Qz) =>
      let st' := D.step k' Q Qz st
      if D.allDone st' then ⟨k', st', k' :: log, false⟩ else Dwm.loop n k' st' (k' :: log)

open Classical in
/-- `grt_discrete_integ`, dwm.c 27-135, from sums `s`. -/
noncomputable def Dwm.run (s : Fin nr → Sums) : DwmOut nr :=
  if D.kmax = 0 then ⟨0, ⟨s, fun _ => False⟩, [], false⟩
  else D.loop (⌊D.kmax / D.dk⌋₊ + 1) 0 ⟨s, fun _ => False⟩ []

/-! ### Specification -/

/-- Kernel at the `j`-th point, zero where it fails. -/
noncomputable def Dwm.val (j : ℕ) : Chnl × Chnl := (D.ker (j * D.dk)).getD (0, 0)

/-- Term of the `j`-th point for one distance. -/
noncomputable def Dwm.termAt (ir : Fin nr) (j : ℕ) : Sums := D.term (j * D.dk) (D.val j).1 (D.val j).2 (D.rs ir)

/-- Sum of the terms of the first `c` points. -/
noncomputable def Dwm.upTo (s : Fin nr → Sums) (ir : Fin nr) (c : ℕ) : Sums :=
  ⟨(s ir).u + ∑ j ∈ range c, (D.termAt ir (j + 1)).u, (s ir).z + ∑ j ∈ range c, (D.termAt ir (j + 1)).z,
    (s ir).r + ∑ j ∈ range c, (D.termAt ir (j + 1)).r⟩

/-- The convergence test holds for one distance at the `j`-th point. -/
def Dwm.stopsAt (s : Fin nr → Sums) (ir : Fin nr) (j : ℕ) : Prop :=
  0 < D.keps ∧ converged D.keps (D.termAt ir j).u (D.upTo s ir j).u

/-- What a distance has to hold after `m` points: the terms up to the first point where its test held, if there was one. -/
def Dwm.Right (s : Fin nr → Sums) (m : ℕ) (ir : Fin nr) (x : Sums) : Prop :=
  ∃ c ≤ m, x = D.upTo s ir c ∧ (∀ j, 1 ≤ j → j < c → ¬ D.stopsAt s ir j) ∧
    (c = m ∧ (1 ≤ c → ¬ D.stopsAt s ir c) ∨ 1 ≤ c ∧ D.stopsAt s ir c)

open Classical in
/-- Invariant after `m` points. -/
def Dwm.Inv (s : Fin nr → Sums) (m : ℕ) (st : DwmState nr) : Prop :=
  ∀ ir, if D.singular ir then st.sums ir = s ir ∧ ¬ st.done ir else
    ∃ c ≤ m, st.sums ir = D.upTo s ir c ∧ (∀ j, 1 ≤ j → j < c → ¬ D.stopsAt s ir j) ∧
      (¬ st.done ir ∧ c = m ∧ (1 ≤ c → ¬ D.stopsAt s ir c) ∨ st.done ir ∧ 1 ≤ c ∧ D.stopsAt s ir c)

theorem Dwm.upTo_succ (s : Fin nr → Sums) (ir : Fin nr) (c : ℕ) : D.upTo s ir (c + 1) = Dwm.add (D.termAt ir (c + 1)) (D.upTo s ir c) := by
  unfold Dwm.upTo Dwm.add
  simp only [sum_range_succ, add_assoc]

open Classical in
theorem Dwm.inv_step (s : Fin nr → Sums) (m : ℕ) (st : DwmState nr) (h : D.Inv s m st) :
    D.Inv s (m + 1) (D.step ((m + 1 : ℕ) * D.dk) (D.val (m + 1)).1 (D.val (m + 1)).2 st) := by
  intro ir
  have hi := h ir
  by_cases hs : D.singular ir
  · rw [if_pos hs] at hi ⊢
    unfold Dwm.step
    simp only [hs, or_true, if_true]
    exact hi
  · rw [if_neg hs] at hi ⊢
    obtain ⟨c, hc, he, hn, hcase⟩ := hi
    rcases hcase with ⟨hd, hcm, hlast⟩ | ⟨hd, hc1, hst⟩
    · subst hcm
      have hno : ¬ (st.done ir ∨ D.singular ir) := not_or.2 ⟨hd, hs⟩
      have e1 : (D.step ((c + 1 : ℕ) * D.dk) (D.val (c + 1)).1 (D.val (c + 1)).2 st).sums ir = D.upTo s ir (c + 1) := by
        show (if _ then _ else _) = _
        rw [if_neg hno, he, D.upTo_succ]
        rfl
      have e2 : (D.step ((c + 1 : ℕ) * D.dk) (D.val (c + 1)).1 (D.val (c + 1)).2 st).done ir ↔ D.stopsAt s ir (c + 1) := by
        show (if _ then _ else _) ↔ _
        rw [if_neg hno, he]
        unfold Dwm.stopsAt
        rw [D.upTo_succ]
        rfl
      refine ⟨c + 1, le_rfl, e1, fun j hj hjc => ?_, ?_⟩
      · rcases Nat.lt_succ_iff_lt_or_eq.1 hjc with h1 | h1
        · exact hn j hj h1
        · exact h1 ▸ hlast (h1 ▸ hj)
      · rw [e2]
        by_cases hx : D.stopsAt s ir (c + 1)
        · exact Or.inr ⟨hx, by omega, hx⟩
        · exact Or.inl ⟨hx, rfl, fun _ => hx⟩
    · have hy : st.done ir ∨ D.singular ir := Or.inl hd
      refine ⟨c, by omega, ?_, hn, Or.inr ⟨?_, hc1, hst⟩⟩
      · show (if _ then _ else _) = _
        rw [if_pos hy]
        exact he
      · show (if _ then _ else _)
        rw [if_pos hy]
        exact hd

/-- Everything about the loop, from a state reached after `m` points. -/
theorem Dwm.loop_spec (s : Fin nr → Sums) (n m : ℕ) (st : DwmState nr) (h : D.Inv s m st) :
    let o := D.loop n (m * D.dk) st ((List.range' 1 m).reverse.map fun j : ℕ => (j : ℝ) * D.dk)
    ∃ m', m ≤ m' ∧ m' ≤ m + n ∧ o.k = m' * D.dk ∧ o.log = (List.range' 1 m').reverse.map (fun j : ℕ => (j : ℝ) * D.dk) ∧
      (∀ j, m < j → j < m' → (D.ker (j * D.dk)).isSome) ∧
      (o.failed = true → m < m' ∧ D.ker (m' * D.dk) = none) ∧
      (o.failed = false → (m < m' → (D.ker (m' * D.dk)).isSome) ∧ D.Inv s m' o.st ∧ (m' < m + n → D.allDone o.st)) := by
  induction n generalizing m st with
  | zero =>
    simp only [Dwm.loop, add_zero]
    exact ⟨m, le_rfl, le_rfl, rfl, rfl, fun j h1 h2 => absurd h1 (by omega), by simp, fun _ => ⟨fun hl => absurd hl (by omega), h, by omega⟩⟩
  | succ n ih =>
    have ek : (m : ℝ) * D.dk + D.dk = ((m + 1 : ℕ) : ℝ) * D.dk := by push_cast; ring
    have el : ((m + 1 : ℕ) : ℝ) * D.dk :: ((List.range' 1 m).reverse.map fun j : ℕ => (j : ℝ) * D.dk) =
        (List.range' 1 (m + 1)).reverse.map fun j : ℕ => (j : ℝ) * D.dk := by
      rw [List.range'_concat]
      simp [add_comm]
    unfold Dwm.loop
    simp only [ek]
    cases hk : D.ker (((m + 1 : ℕ) : ℝ) * D.dk) with
    | none =>
      refine ⟨m + 1, by omega, by omega, rfl, el, fun j h1 h2 => absurd h1 (by omega), fun _ => ⟨by omega, hk⟩, by simp⟩
    | some p =>
      obtain ⟨Q, Qz⟩ := p
      have hv : D.val (m + 1) = (Q, Qz) := by simp only [Dwm.val, hk]; rfl
      have hst := D.inv_step s m st h
      rw [hv] at hst
      simp only at hst ⊢
      split
      · rename_i ha
        rw [ek] at ha
        exact ⟨m + 1, by omega, by omega, rfl, el, fun j h1 h2 => absurd h1 (by omega), by simp,
          fun _ => ⟨fun _ => by rw [hk]; rfl, hst, fun _ => ha⟩⟩
      · obtain ⟨m', h1, h2, h3, h4, h5, h6, h7⟩ := ih (m + 1) _ hst
        rw [el]
        refine ⟨m', by omega, by omega, h3, h4, fun j hj hj' => ?_, fun hf => ⟨by omega, (h6 hf).2⟩, fun hf => ?_⟩
        · rcases Nat.lt_or_ge (m + 1) j with hlt | hge
          · exact h5 j hlt hj'
          · have : j = m + 1 := by omega
            rw [this, hk]
            rfl
        · obtain ⟨a, b, c⟩ := h7 hf
          refine ⟨fun _ => ?_, b, fun hlt => c (by omega)⟩
          rcases Nat.lt_or_ge (m + 1) m' with hlt | hge
          · exact a hlt
          · have : m' = m + 1 := by omega
            rw [this, hk]
            rfl

/-- C37: for a positive step and limit, the kernel is evaluated at `dk, 2dk, …, m dk`, each once and in this order, with `m`
at most `⌊kmax/dk⌋ + 1`, and `m dk` is returned. If the kernel fails it fails at the last of these. Otherwise each distance holds
the terms up to the first point where its convergence test held (all of them if it never did, or without a tolerance), distances
that coincide with the source hold what they held before, and stopping before the last point happens only if the test held at
every other distance.
Missing for the full statement: the points do not end at the requested maximum, see `C37_overshoot_violated`. -/
theorem C37_grid_partial (s : Fin nr → Sums) (hk : 0 < D.kmax) :
    ∃ m, 1 ≤ m ∧ m ≤ ⌊D.kmax / D.dk⌋₊ + 1 ∧ (D.run s).k = m * D.dk ∧
      (D.run s).log.reverse = (List.range' 1 m).map (fun j : ℕ => (j : ℝ) * D.dk) ∧
      (∀ j, 1 ≤ j → j < m → (D.ker (j * D.dk)).isSome) ∧
      ((D.run s).failed = true → D.ker (m * D.dk) = none) ∧
      ((D.run s).failed = false → (D.ker (m * D.dk)).isSome ∧
        (∀ ir, D.singular ir → (D.run s).st.sums ir = s ir) ∧
        (∀ ir, ¬ D.singular ir → D.Right s m ir ((D.run s).st.sums ir)) ∧
        (m < ⌊D.kmax / D.dk⌋₊ + 1 → ∀ ir, ¬ D.singular ir → ∃ j, 1 ≤ j ∧ j ≤ m ∧ D.stopsAt s ir j)) := by
  have h0 : D.Inv s 0 ⟨s, fun _ => False⟩ := by
    intro ir
    by_cases hs : D.singular ir
    · rw [if_pos hs]
      exact ⟨rfl, id⟩
    · rw [if_neg hs]
      refine ⟨0, le_rfl, ?_, fun j h1 h2 => absurd h2 (by omega), Or.inl ⟨id, rfl, by omega⟩⟩
      simp [Dwm.upTo]
  obtain ⟨m, -, h2, h3, h4, h5, h6, h7⟩ := D.loop_spec s (⌊D.kmax / D.dk⌋₊ + 1) 0 _ h0
  have er : D.run s = D.loop (⌊D.kmax / D.dk⌋₊ + 1) ((0 : ℕ) * D.dk) ⟨s, fun _ => False⟩ ((List.range' 1 0).reverse.map fun j : ℕ => (j : ℝ) * D.dk) := by
    unfold Dwm.run
    rw [if_neg hk.ne']
    simp
  rw [← er] at h3 h4 h6 h7
  have hm : 1 ≤ m := by
    by_contra hc
    have hm0 : m = 0 := by omega
    subst hm0
    rw [er] at h4
    unfold Dwm.loop at h4
    simp only [Nat.cast_zero, zero_mul, zero_add, List.range'_zero, List.reverse_nil, List.map_nil] at h4
    split at h4
    · simp at h4
    · split at h4
      · simp at h4
      · have : ∀ n k st l, (D.loop n k st l).log.length ≥ l.length := by
          intro n
          induction n with
          | zero => intros; exact le_rfl
          | succ n ih =>
            intro k st l
            unfold Dwm.loop
            simp only
            split
            · simp
            · split
              · simp
              · exact le_trans (by simp) (ih _ _ _)
        have := this ⌊D.kmax / D.dk⌋₊ _ _ _ |>.trans_eq (congrArg List.length h4)
        simp at this
  refine ⟨m, hm, by omega, h3, ?_, fun j hj => h5 j (by omega), fun hf => (h6 hf).2, fun hf => ?_⟩
  · rw [h4, ← List.map_reverse, List.reverse_reverse]
  · obtain ⟨a, b, c⟩ := h7 hf
    refine ⟨a (by omega), fun ir hs => ?_, fun ir hs => ?_, fun hlt ir hs => ?_⟩
    · have := b ir
      rw [if_pos hs] at this
      exact this.1
    · have := b ir
      rw [if_neg hs] at this
      obtain ⟨c, hc, he, hn, hcase⟩ := this
      exact ⟨c, hc, he, hn, hcase.imp (fun x => x.2) (fun x => x.2)⟩
    · have := b ir
      rw [if_neg hs] at this
      obtain ⟨c', hc, he, hn, hcase⟩ := this
      rcases c (by omega) ir with hx | hx
      · exact absurd hx hs
      · rcases hcase with hy | hy
        · exact absurd hx hy.1
        · exact ⟨c', hy.2.1, hc, hy.2.2⟩

/-- With limit zero nothing is evaluated and zero is returned. -/
theorem C37_zero (s : Fin nr → Sums) (hk : D.kmax = 0) : (D.run s).k = 0 ∧ (D.run s).log = [] ∧ (D.run s).st.sums = s := by
  unfold Dwm.run
  rw [if_pos hk]
  exact ⟨rfl, rfl, rfl⟩

/-- C37 violated: when no distance stops the loop (here: no tolerance), the last point lies beyond the requested maximum, by up
to a whole step. -/
theorem C37_overshoot_violated (s : Fin nr → Sums) (hk : 0 < D.kmax) (hd : 0 < D.dk) (he : D.keps ≤ 0) (ir : Fin nr)
    (hs : ¬ D.singular ir) (hf : ∀ k, (D.ker k).isSome) :
    (D.run s).k = (⌊D.kmax / D.dk⌋₊ + 1) * D.dk ∧ D.kmax < (D.run s).k ∧ (D.run s).k ≤ D.kmax + D.dk ∧ (D.run s).k ∈ (D.run s).log := by
  obtain ⟨m, h1, h2, h3, h4, h5, h6, h7⟩ := C37_grid_partial D s hk
  have hff : (D.run s).failed = false := by
    by_contra hc
    have := h6 (by simpa using hc)
    have := hf (m * D.dk)
    simp_all
  have hm : m = ⌊D.kmax / D.dk⌋₊ + 1 := by
    by_contra hc
    obtain ⟨j, -, -, hj⟩ := (h7 hff).2.2.2 (by omega) ir hs
    exact absurd hj.1 (not_lt.2 he)
  have hk1 : D.kmax < (⌊D.kmax / D.dk⌋₊ + 1) * D.dk := by
    rw [← div_lt_iff₀ hd]
    exact Nat.lt_floor_add_one _
  have hk2 : ((⌊D.kmax / D.dk⌋₊ : ℕ) : ℝ) * D.dk ≤ D.kmax := by
    rw [← le_div_iff₀ hd]
    exact Nat.floor_le (div_nonneg hk.le hd.le)
  have e : (D.run s).k = (⌊D.kmax / D.dk⌋₊ + 1) * D.dk := by rw [h3, hm]; push_cast; rfl
  refine ⟨e, by rw [e]; exact hk1, by rw [e]; linarith, ?_⟩
  rw [← List.mem_reverse, h4, List.mem_map]
  exact ⟨m, by rw [List.mem_range'_1]; omega, h3.symm⟩

/-- C65 on the axis: at zero distance, where the integrals of the asymptotic part do not exist, it is neither removed from the
terms nor added back; elsewhere it is removed from every term. -/
theorem C65_axis_terms (k : ℝ) (Q Qz : Chnl) (r : ℝ) (dk kcut : ℝ) (keep : Bool) (s : Sums) :
    (zeroDist r → (D.term k Q Qz r).u = intPk k r Q false 0 ∧
      (D.upar = true → (D.term k Q Qz r).z = intPk k r Qz false 0 ∧ (D.term k Q Qz r).r = intPk k r Q true 0) ∧
      dcmCorrection r dk kcut keep D.upar D.Qm D.Qzm s = s) ∧
    (¬ zeroDist r → D.dcm = true → (D.term k Q Qz r).u = intPk k r (revision D.kmax k Q D.Qm) false 0 ∧
      (D.upar = true → (D.term k Q Qz r).z = intPk k r (revisionZ D.kmax k Qz D.Qzm) false 0 ∧
        (D.term k Q Qz r).r = intPk k r (revision D.kmax k Q D.Qm) true 0)) := by
  constructor
  · intro h
    unfold Dwm.term dcmCorrection
    simp only [h, not_true_eq_false, and_false, if_false, if_true, true_and]
    exact ⟨fun hu => by simp [hu], trivial⟩
  · intro h hd
    unfold Dwm.term
    simp only [h, hd, not_false_eq_true, and_true, if_true, true_and]
    exact fun hu => by simp [hu]

/-- A case: step 1/2, limit 1, one distance, constant kernel: points 1/2, 1 and 3/2. -/
example : let D : Dwm 1 := { dk := 1 / 2, kmax := 1, keps := 0, rs := fun _ => 1, same := true, dcm := true, upar := true, Qm := 1,
                             Qzm := 1, ker := fun k => some (fun _ _ => k, fun _ _ => 1) }
    (D.run fun _ => ⟨0, 0, 0⟩).k = 3 / 2 := by
  intro D
  have hs : ¬ D.singular 0 := fun h => absurd h.2 (by simp only [zeroDist, D]; norm_num)
  rw [(C37_overshoot_violated D (fun _ => ⟨0, 0, 0⟩) (by norm_num [D]) (by norm_num [D]) (by norm_num [D]) 0 hs (fun _ => rfl)).1]
  have : ⌊D.kmax / D.dk⌋₊ = 2 := by
    have : D.kmax / D.dk = (2 : ℕ) := by norm_num [D]
    rw [this, Nat.floor_natCast]
  rw [this]
  norm_num [D]

/-- A case of stopping early: a kernel that vanishes after the first point makes the ratio zero from the second point on,
if no sum is zero (here the tolerance is large enough for the first point). -/
example : converged 1 (fun _ _ => 1) (fun _ _ => 1) := fun _ _ => Or.inr ⟨by simp, by simp⟩

end GRT.Integ
