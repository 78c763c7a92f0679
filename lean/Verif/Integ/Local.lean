import Verif.Freq.Loop

/-!
What the wavenumber integration leaves for one distance does not depend on the other distances: the run for many distances, looked
at for one of them, is the run for that distance alone. With the peak-trough averaging method the range of wavenumbers depends on
the other distances, and with a Filon method after a convergence test so does its lower end; both are left out here.
-/

namespace GRT.Integ

variable {nr : ℕ}

/-- The same integration for one distance. -/
def Dwm.one (D : Dwm nr) (i : Fin nr) : Dwm 1 := { D with rs := fun _ => D.rs i }

open Classical in
theorem Dwm.loop_frozen (D : Dwm nr) (i : Fin nr) (n : ℕ) (k : ℝ) (st : DwmState nr) (log : List ℝ)
    (h : st.done i ∨ D.singular i) : (D.loop n k st log).st.sums i = st.sums i := by
  induction n generalizing k st log with
  | zero => rfl
  | succ n ih =>
    unfold Dwm.loop
    dsimp only
    cases D.ker (k + D.dk) with
    | none => rfl
    | some Q =>
      have e1 : (D.step (k + D.dk) Q.1 Q.2 st).sums i = st.sums i := by
        show (if _ then _ else _) = _
        rw [if_pos h]
      have e2 : (D.step (k + D.dk) Q.1 Q.2 st).done i ∨ D.singular i := by
        rcases h with h | h
        · left
          show (if _ then _ else _)
          rw [if_pos (Or.inl h)]
          exact h
        · exact Or.inr h
      dsimp only
      split
      · exact e1
      · rw [ih _ _ _ e2, e1]

open Classical in
theorem Dwm.loop_one (D : Dwm nr) (i : Fin nr) (n : ℕ) (k : ℝ) (st : DwmState nr) (st1 : DwmState 1) (log log1 : List ℝ)
    (h : st.sums i = st1.sums 0) (hd : st.done i ↔ st1.done 0) :
    (D.loop n k st log).st.sums i = ((D.one i).loop n k st1 log1).st.sums 0 := by
  induction n generalizing k st st1 log log1 with
  | zero => exact h
  | succ n ih =>
    by_cases hf : st.done i ∨ D.singular i
    · rw [D.loop_frozen i _ _ _ _ hf, (D.one i).loop_frozen 0 _ _ _ _ (hf.imp hd.1 id), h]
    · have hf1 : ¬ (st1.done 0 ∨ (D.one i).singular 0) := fun h' => hf (h'.imp hd.2 id)
      unfold Dwm.loop
      dsimp only
      have ek : (D.one i).ker (k + (D.one i).dk) = D.ker (k + D.dk) := rfl
      rw [ek]
      cases D.ker (k + D.dk) with
      | none => exact h
      | some Q =>
        have ed : (D.one i).dk = D.dk := rfl
        have e1 : (D.step (k + D.dk) Q.1 Q.2 st).sums i = ((D.one i).step (k + D.dk) Q.1 Q.2 st1).sums 0 := by
          show (if _ then _ else _) = (if _ then _ else _)
          rw [if_neg hf, if_neg hf1, h]
          rfl
        have e2 : (D.step (k + D.dk) Q.1 Q.2 st).done i ↔ ((D.one i).step (k + D.dk) Q.1 Q.2 st1).done 0 := by
          show (if _ then _ else _) ↔ (if _ then _ else _)
          rw [if_neg hf, if_neg hf1, h]
          exact Iff.rfl
        rw [ed]
        dsimp only
        by_cases ha1 : (D.one i).allDone ((D.one i).step (k + D.dk) Q.1 Q.2 st1)
        · rw [if_pos ha1]
          have hz : (D.step (k + D.dk) Q.1 Q.2 st).done i ∨ D.singular i := by
            rcases ha1 0 with h' | h'
            · exact Or.inr h'
            · exact Or.inl (e2.2 h')
          split
          · exact e1
          · rw [D.loop_frozen i _ _ _ _ hz]
            exact e1
        · have ha : ¬ D.allDone (D.step (k + D.dk) Q.1 Q.2 st) := by
            intro ha
            apply ha1
            intro j
            rw [Subsingleton.elim j 0]
            rcases ha i with h' | h'
            · exact Or.inl h'
            · exact Or.inr (e2.1 h')
          rw [if_neg ha, if_neg ha1]
          exact ih _ _ _ _ _ e1 e2

open Classical in
/-- Sums of the discrete wavenumber integration for one distance of many. -/
theorem Dwm.run_one (D : Dwm nr) (i : Fin nr) (s : Fin nr → Sums) :
    (D.run s).st.sums i = ((D.one i).run fun _ => s i).st.sums 0 := by
  unfold Dwm.run
  show (if D.kmax = 0 then _ else _ : DwmOut nr).st.sums i = (if D.kmax = 0 then _ else _ : DwmOut 1).st.sums 0
  split
  · rfl
  · exact D.loop_one i _ _ _ _ _ _ rfl Iff.rfl

open Classical in
theorem Dwm.loop_k (D : Dwm nr) (i : Fin nr) (hk : D.keps ≤ 0) (hi : ¬ D.singular i) (n : ℕ) (k : ℝ) (st : DwmState nr)
    (st1 : DwmState 1) (log log1 : List ℝ) (h : ∀ j, ¬ st.done j) (h1 : ¬ st1.done 0) :
    (D.loop n k st log).k = ((D.one i).loop n k st1 log1).k := by
  induction n generalizing k st st1 log log1 with
  | zero => rfl
  | succ n ih =>
    unfold Dwm.loop
    dsimp only
    have ek : (D.one i).ker (k + (D.one i).dk) = D.ker (k + D.dk) := rfl
    rw [ek]
    cases D.ker (k + D.dk) with
    | none => rfl
    | some Q =>
      have ed : (D.one i).dk = D.dk := rfl
      have e1 : ∀ j, ¬ (D.step (k + D.dk) Q.1 Q.2 st).done j := by
        intro j
        show ¬ (if _ then _ else _)
        split
        · exact h j
        · exact fun h' => absurd h'.1 (not_lt.2 hk)
      have e2 : ¬ ((D.one i).step (k + D.dk) Q.1 Q.2 st1).done 0 := by
        show ¬ (if _ then _ else _)
        split
        · exact h1
        · exact fun h' => absurd h'.1 (not_lt.2 hk)
      rw [ed]
      dsimp only
      rw [if_neg fun ha => ?_, if_neg fun ha => ?_]
      · exact ih _ _ _ _ _ e1 e2
      · exact (ha 0).elim hi e2
      · exact (ha i).elim hi (e1 i)

open Classical in
/-- Where the discrete integration ends when there is no convergence test. -/
theorem Dwm.run_k (D : Dwm nr) (i : Fin nr) (hk : D.keps ≤ 0) (hi : ¬ D.singular i) (s : Fin nr → Sums) :
    (D.run s).k = ((D.one i).run fun _ => s i).k := by
  unfold Dwm.run
  show (if D.kmax = 0 then _ else _ : DwmOut nr).k = (if D.kmax = 0 then _ else _ : DwmOut 1).k
  split
  · rfl
  · exact D.loop_k i hk hi _ _ _ _ _ _ (fun _ h => h) (fun h => h)

/-! ### Filon integration with a fixed step -/

/-- The same integration for one distance. -/
def Fim.one (D : Fim nr) (i : Fin nr) : Fim 1 := { D with rs := fun _ => D.rs i }

open Classical in
theorem Fim.loop_one (D : Fim nr) (i : Fin nr) (hk : D.keps ≤ 0) (hi : ¬ zeroDist (D.rs i)) (n : ℕ) (k : ℝ) (st : DwmState nr)
    (st1 : DwmState 1) (log log1 : List ℝ) (hs : st.sums i = st1.sums 0) (h : ∀ j, ¬ st.done j) (h1 : ¬ st1.done 0) :
    (D.loop n k st log).k = ((D.one i).loop n k st1 log1).k ∧
    (D.loop n k st log).failed = ((D.one i).loop n k st1 log1).failed ∧
    (D.loop n k st log).st.sums i = ((D.one i).loop n k st1 log1).st.sums 0 := by
  induction n generalizing k st st1 log log1 with
  | zero => exact ⟨rfl, rfl, hs⟩
  | succ n ih =>
    unfold Fim.loop
    dsimp only
    have ek : (D.one i).ker (k + (D.one i).dk) = D.ker (k + D.dk) := rfl
    rw [ek]
    cases D.ker (k + D.dk) with
    | none => exact ⟨rfl, rfl, hs⟩
    | some Q =>
      have ed : (D.one i).dk = D.dk := rfl
      rw [ed]
      dsimp only
      have er : (D.one i).rev (k + D.dk) Q = D.rev (k + D.dk) Q := rfl
      rw [er]
      set Q' := D.rev (k + D.dk) Q
      have e1 : ∀ j, ¬ (D.step (k + D.dk) Q' st).done j := by
        intro j
        show ¬ (if _ then _ else _)
        split
        · exact h j
        · exact fun h' => absurd h'.1 (not_lt.2 hk)
      have e2 : ¬ ((D.one i).step (k + D.dk) Q' st1).done 0 := by
        show ¬ (if _ then _ else _)
        split
        · exact h1
        · exact fun h' => absurd h'.1 (not_lt.2 hk)
      have e3 : (D.step (k + D.dk) Q' st).sums i = ((D.one i).step (k + D.dk) Q' st1).sums 0 := by
        show (if _ then _ else _) = (if _ then _ else _)
        rw [if_neg (not_or.2 ⟨h i, hi⟩), if_neg (show ¬ (st1.done 0 ∨ zeroDist ((D.one i).rs 0)) from not_or.2 ⟨h1, hi⟩), hs]
        rfl
      rw [if_neg fun ha => ?_, if_neg fun ha => ?_]
      · exact ih _ _ _ _ _ e3 e1 e2
      · exact (ha 0).elim hi e2
      · exact (ha i).elim hi (e1 i)

open Classical in
/-- The fixed-step Filon integration for one distance of many, without convergence test. -/
theorem Fim.run_one (D : Fim nr) (i : Fin nr) (hk : D.keps ≤ 0) (hi : ¬ zeroDist (D.rs i)) (s : Fin nr → Sums) :
    (D.run s).k = ((D.one i).run fun _ => s i).k ∧ (D.run s).st.sums i = ((D.one i).run fun _ => s i).st.sums 0 := by
  obtain ⟨a, b, c⟩ := D.loop_one i hk hi D.nk D.k0 ⟨fun _ => ⟨0, 0, 0⟩, fun _ => False⟩ ⟨fun _ => ⟨0, 0, 0⟩, fun _ => False⟩ [] []
    rfl (fun _ h => h) (fun h => h)
  unfold Fim.run
  show (if D.k0 + D.dk0 ≥ D.kmax then _ else _ : DwmOut nr).k = (if D.k0 + D.dk0 ≥ D.kmax then _ else _ : DwmOut 1).k ∧
    (if D.k0 + D.dk0 ≥ D.kmax then _ else _ : DwmOut nr).st.sums i = (if D.k0 + D.dk0 ≥ D.kmax then _ else _ : DwmOut 1).st.sums 0
  split
  · exact ⟨rfl, rfl⟩
  · have en : (D.one i).nk = D.nk := rfl
    have e0 : (D.one i).k0 = D.k0 := rfl
    have ed : (D.one i).dk = D.dk := rfl
    have ek : (D.one i).ker = D.ker := rfl
    rw [en, e0, ed, ek]
    dsimp only
    rw [← b, ← a]
    split
    · exact ⟨rfl, rfl⟩
    · cases D.ker (D.k0 + D.dk) with
      | none => exact ⟨rfl, rfl⟩
      | some Qa =>
        dsimp only
        cases D.ker (D.loop D.nk D.k0 ⟨fun _ => ⟨0, 0, 0⟩, fun _ => False⟩ []).k with
        | none => exact ⟨rfl, rfl⟩
        | some Qb =>
          refine ⟨rfl, ?_⟩
          dsimp only
          rw [← c]
          rfl

/-! ### Adaptive Filon integration -/

/-- The same integration for one distance. -/
def Safim.one (D : Safim nr) (i : Fin nr) : Safim 1 := { D with rs := fun _ => D.rs i }

/-- Two states that agree on everything but the sums of other distances. -/
def SafimState.Agree (i : Fin nr) (st : SafimState nr) (st1 : SafimState 1) : Prop :=
  st.stack = st1.stack ∧ st.cur = st1.cur ∧ st.maxF = st1.maxF ∧ st.maxFz = st1.maxFz ∧ st.sums i = st1.sums 0

open Classical in
theorem Safim.body_one (D : Safim nr) (i : Fin nr) (it : Itv) (QL QR : Chnl × Chnl) (rest : List Itv) (st : SafimState nr)
    (st1 : SafimState 1) (h : st.Agree i st1) : (D.body it QL QR rest st).Agree i ((D.one i).body it QL QR rest st1) := by
  obtain ⟨h1, h2, h3, h4, h5⟩ := h
  unfold Safim.body
  have eu : (D.one i).upar = D.upar := rfl
  have er : (D.one i).kref = D.kref := rfl
  have et : (D.one i).tol = D.tol := rfl
  rw [eu, er, et]
  dsimp only
  rw [← h3, ← h4]
  generalize (if D.upar = true then newMax (it.left QL) (it.right QR) true st.maxFz else st.maxFz) = mz
  split
  · exact ⟨rfl, rfl, rfl, rfl, h5⟩
  · refine ⟨rfl, rfl, rfl, rfl, ?_⟩
    unfold Safim.integ
    dsimp only
    rw [h5]
    rfl

theorem Safim.loop_one (D : Safim nr) (i : Fin nr) (s : Fin nr → Sums) (n : ℕ) (st : SafimState nr) (st1 : SafimState 1)
    (h : st.Agree i st1) :
    (D.loop s n st).map (fun o => (o.k, o.sums i)) = ((D.one i).loop (fun _ => s i) n st1).map fun o => (o.k, o.sums 0) := by
  induction n generalizing st st1 with
  | zero => rfl
  | succ n ih =>
    have h' := h
    obtain ⟨h1, h2, h3, h4, h5⟩ := h
    unfold Safim.loop Safim.turn
    have es : (D.one i).sample = D.sample := rfl
    rw [← h1, es]
    cases st.stack with
    | nil =>
      dsimp only [Option.map_some]
      rw [h2]
      unfold Safim.finish
      dsimp only
      rw [h5]
      rfl
    | cons it rest =>
      dsimp only
      cases D.sample ((it.k3 0 + it.k3 1) * (1 / 2)) with
      | none => rfl
      | some QL =>
        dsimp only
        cases D.sample ((it.k3 1 + it.k3 2) * (1 / 2)) with
        | none => rfl
        | some QR => exact ih _ _ (D.body_one i it QL QR rest st st1 h')

/-- The adaptive Filon integration for one distance of many. -/
theorem Safim.run_one (D : Safim nr) (i : Fin nr) (s : Fin nr → Sums) (n : ℕ) :
    (D.run s n).map (fun o => (o.k, o.sums i)) = ((D.one i).run (fun _ => s i) n).map fun o => (o.k, o.sums 0) := by
  unfold Safim.run
  have es : (D.one i).sample = D.sample := rfl
  have ek : (D.one i).kmin = D.kmin := rfl
  have em : (D.one i).kmax = D.kmax := rfl
  rw [es, ek, em]
  split
  · rfl
  · cases D.sample D.kmin with
    | none => rfl
    | some Q0 =>
      dsimp only
      cases D.sample ((D.kmin + D.kmax) * (1 / 2)) with
      | none => rfl
      | some Q1 =>
        dsimp only
        cases D.sample D.kmax with
        | none => rfl
        | some Q2 => exact D.loop_one i s n _ _ ⟨rfl, rfl, rfl, rfl, rfl⟩

end GRT.Integ

namespace GRT.Freq

open GRT.Integ

/-- Choices under which the sums of one distance do not depend on the others: no peak-trough averaging, and if a Filon method is
used, no convergence test and no distance of zero. -/
def Separate {nr : ℕ} (rs : Fin nr → ℝ) (K : Kproc) : Prop :=
  K.cvg ≠ .ptam ∧ ((K.fim || K.safim) = true → K.keps ≤ 0 ∧ ∀ i, ¬ zeroDist (rs i))

/-- The wavenumber integration for one distance of many is that for this distance alone. -/
theorem wavenumberRef_one {nr : ℕ} (n : ℕ) (same upar : Bool) (rs : Fin nr → ℝ) (ker : ℝ → Chnl × Chnl) (kref : ℝ) (K : Kproc)
    (h : Separate rs K) (i : Fin nr) :
    (wavenumberRef n same upar rs ker kref K).map (· i) =
      (wavenumberRef n same upar (fun _ : Fin 1 => rs i) ker kref K).map (· 0) := by
  obtain ⟨hc, hf⟩ := h
  unfold wavenumberRef
  dsimp only
  generalize (if (K.fim || K.safim) = true then min K.kcut K.kmax else K.kmax) = kcut
  generalize hdd : decide (K.cvg = .dcm) = dcm
  generalize (if dcm = true then ker K.kmax else (0, 0)) = Qm
  obtain ⟨D, hD⟩ : ∃ D : Dwm nr, D = { dk := K.dk, kmax := kcut, keps := K.keps, rs := rs, same := same, dcm := dcm, upar := upar, Qm := Qm.1, Qzm := Qm.2, ker := fun k => some (ker k) } := ⟨_, rfl⟩
  have hone : ({ dk := K.dk, kmax := kcut, keps := K.keps, rs := fun _ => rs i, same := same, dcm := dcm, upar := upar, Qm := Qm.1, Qzm := Qm.2, ker := fun k => some (ker k) } : Dwm 1) = D.one i := by rw [hD]; rfl
  rw [hone, ← hD]
  have hsum := D.run_one i fun _ => ⟨0, 0, 0⟩
  have hk : (K.fim || K.safim) = true → (D.run fun _ => ⟨0, 0, 0⟩).k = ((D.one i).run fun _ => ⟨0, 0, 0⟩).k := fun hh =>
    D.run_k i (by rw [hD]; exact (hf hh).1) (fun hs => (hf hh).2 i (by have := hs.2; rwa [hD] at this)) fun _ => ⟨0, 0, 0⟩
  generalize D.run (fun _ => ⟨0, 0, 0⟩) = o at hsum hk ⊢
  generalize (D.one i).run (fun _ => ⟨0, 0, 0⟩) = o1 at hsum hk ⊢
  suffices hS : ∀ (S : Option (ℝ × (Fin nr → Sums))) (S1 : Option (ℝ × (Fin 1 → Sums))),
      S.map (fun p => p.2 i) = S1.map (fun p => p.2 0) →
      ((S.map fun p => match K.cvg with
        | .ptam => (Ptam.run { k0 := p.1, dk := K.dk, rs := rs, upar := upar, ker := fun k => some (ker k) } p.2).getD p.2
        | .dcm => fun ir => dcmCorrection (rs ir) K.dk kcut (!(K.fim || K.safim)) upar Qm.1 Qm.2 (p.2 ir)
        | _ => p.2).map (· i)) =
      ((S1.map fun p => match K.cvg with
        | .ptam => (Ptam.run { k0 := p.1, dk := K.dk, rs := fun _ => rs i, upar := upar, ker := fun k => some (ker k) } p.2).getD p.2
        | .dcm => fun ir => dcmCorrection (rs i) K.dk kcut (!(K.fim || K.safim)) upar Qm.1 Qm.2 (p.2 ir)
        | _ => p.2).map (· 0)) by
    apply hS
    by_cases h1 : K.fim = true
    · have hsep := hf (by simp [h1])
      have hrun := (Fim.run_one { k0 := o.k, dk0 := K.dk, dk := K.filondk, kmax := K.kmax, keps := K.keps, rs := rs, dcm := dcm, upar := upar, Qm := Qm.1, Qzm := Qm.2, ker := fun k => some (ker k) } i hsep.1 (hsep.2 i) o.st.sums).2
      rw [if_pos h1, if_pos h1, Option.map_some, Option.map_some]
      dsimp only
      rw [hrun]
      have e : (fun _ : Fin 1 => o.st.sums i) = o1.st.sums := by
        funext j
        rw [Subsingleton.elim j 0, hsum]
      rw [e, ← hk (by simp [h1])]
      rfl
    · rw [if_neg h1, if_neg h1]
      by_cases h2 : K.safim = true
      · have hrun := Safim.run_one { k0 := o.k, dk0 := K.dk, tol := K.saTol, kmax := K.kmax, kref := kref, rs := rs, dcm := dcm, upar := upar, Qm := Qm.1, Qzm := Qm.2, ker := fun k => some (ker k) } i o.st.sums n
        have e : (fun _ : Fin 1 => o.st.sums i) = o1.st.sums := by
          funext j
          rw [Subsingleton.elim j 0, hsum]
        rw [e] at hrun
        rw [if_pos h2, if_pos h2, ← hk (by simp [h2])]
        have := congrArg (Option.map Prod.snd) hrun
        rw [Option.map_map, Option.map_map] at this
        rw [Option.map_map, Option.map_map]
        exact this
      · rw [if_neg h2, if_neg h2, Option.map_some, Option.map_some]
        exact congrArg some hsum
  intro S S1 hS
  cases S with
  | none => cases S1 with
    | none => rfl
    | some p1 => simp at hS
  | some p => cases S1 with
    | none => simp at hS
    | some p1 =>
      simp only [Option.map_some, Option.some.injEq] at hS ⊢
      cases hcv : K.cvg with
      | ptam => exact absurd hcv hc
      | dcm => simp only [hS]
      | auto => exact hS
      | refuse => exact hS

end GRT.Freq
