import Verif.Modal.LoveMode

/-! A branch of Love modes: a family of models, or of wavenumbers, at which the secular function vanishes.  The amplitudes of the
program vary continuously along it. -/

set_option linter.unusedSectionVars false

namespace GRT.Modal

open GRT.RT GRT.Layer GRT.Kernel Filter Complex Topology

/-- At every parameter `s` of the neighbourhood `U` of `s0` the program is run for layers of the same thicknesses and kinds and the
secular function of layer `iref` is zero. -/
structure Branch (n : ℕ) (liq : ℕ → Bool) (I : ℝ → ModeIn ℂ) (S : ℝ → ℕ → SH ℂ) (m : ℝ → ℕ → Medium ℂ) (thk : ℕ → ℝ) (iref : ℕ)
    (pot : ℝ → ℂ × ℂ) (U : Set ℝ) (s0 : ℝ) : Prop where
  nbhd : U ∈ 𝓝 s0
  nlay : ∀ s ∈ U, (I s).nlay = n
  liquid : ∀ s ∈ U, ∀ i, ((I s).lay i).liquid = liq i
  desc : ∀ s ∈ U, Describes (I s) (S s) (m s) thk
  ok : ∀ s ∈ U, AllOkL (I s) (S s)
  zero : ∀ s ∈ U, loveSecular (I s) (S s) iref = some (0, pot s)
  hi : iref + 1 < n
  solid : liq iref = false
  contk : ContinuousAt (fun s => (I s).k) s0
  contmu : ∀ i, i < n → ContinuousAt (fun s => (m s i).mu) s0
  contxb : ∀ i, i < n → ContinuousAt (fun s => ((I s).lay i).xb) s0

variable {n : ℕ} {liq : ℕ → Bool} {I : ℝ → ModeIn ℂ} {S : ℝ → ℕ → SH ℂ} {m : ℝ → ℕ → Medium ℂ} {thk : ℕ → ℝ} {iref : ℕ}
  {pot : ℝ → ℂ × ℂ} {U : Set ℝ} {s0 : ℝ}

theorem Branch.mem (B : Branch n liq I S m thk iref pot U s0) : s0 ∈ U := mem_of_mem_nhds B.nbhd

theorem Branch.via {α : Type*} [TopologicalSpace α] (B : Branch n liq I S m thk iref pot U s0) {f g : ℝ → α}
    (h : ∀ s ∈ U, f s = g s) (hg : ContinuousAt g s0) : ContinuousAt f s0 :=
  hg.congr (Filter.eventually_of_mem B.nbhd fun s hs => (h s hs).symm)

theorem Branch.ex (B : Branch n liq I S m thk iref pot U s0) {i : ℕ} (hi : i + 1 < n) :
    ContinuousAt (fun s => (I s).exb i) s0 := by
  refine B.via (g := fun s => exp (-((I s).k * ((I s).lay i).xb * thk i))) (fun s hs => (B.desc s hs).ex i (by rw [B.nlay s hs]; exact hi)) ?_
  exact ((B.contk.mul (B.contxb i (by omega))).mul continuousAt_const).neg.cexp

/-- The coefficients of an interface. -/
theorem Branch.sh (B : Branch n liq I S m thk iref pot U s0) {i : ℕ} (hi : i + 1 < n) :
    ContinuousAt (fun s => (S s (i+1)).RDL) s0 ∧ ContinuousAt (fun s => (S s (i+1)).RUL) s0 ∧
    ContinuousAt (fun s => (S s (i+1)).TDL) s0 ∧ ContinuousAt (fun s => (S s (i+1)).TUL) s0 := by
  have hrt : ∀ s ∈ U, rtSH ((I s).lay i) ((I s).lay (i+1)) = .ok (S s (i+1)) := fun s hs =>
    (B.desc s hs).rt i (by rw [B.nlay s hs]; exact hi)
  have l1 := fun s hs => B.liquid s hs i
  have l2 := fun s hs => B.liquid s hs (i+1)
  cases e1 : liq i
  · cases e2 : liq (i+1)
    · have key : ∀ s ∈ U, (m s (i+1)).mu * ((I s).lay (i+1)).xb + (m s i).mu * ((I s).lay i).xb ≠ 0 ∧
          S s (i+1) = {
            RUL := ((m s (i+1)).mu * ((I s).lay (i+1)).xb - (m s i).mu * ((I s).lay i).xb) /
              ((m s (i+1)).mu * ((I s).lay (i+1)).xb + (m s i).mu * ((I s).lay i).xb),
            RDL := -(((m s (i+1)).mu * ((I s).lay (i+1)).xb - (m s i).mu * ((I s).lay i).xb) /
              ((m s (i+1)).mu * ((I s).lay (i+1)).xb + (m s i).mu * ((I s).lay i).xb)),
            TDL := (m s i).mu * ((I s).lay i).xb * (2 / ((m s (i+1)).mu * ((I s).lay (i+1)).xb + (m s i).mu * ((I s).lay i).xb)),
            TUL := (m s (i+1)).mu * ((I s).lay (i+1)).xb *
              (2 / ((m s (i+1)).mu * ((I s).lay (i+1)).xb + (m s i).mu * ((I s).lay i).xb)) } := by
        intro s hs
        have h := hrt s hs
        have D := B.desc s hs
        have N := B.nlay s hs
        unfold rtSH at h
        rw [l1 s hs, l2 s hs, e1, e2] at h
        simp only [Bool.not_false, Bool.and_self, if_true, ssSH] at h
        rw [(D.fits i (by omega)).mu, (D.fits (i+1) (by omega)).mu] at h
        split at h
        · cases h
        · rename_i hd
          injection h with h
          exact ⟨hd, h.symm⟩
      have c1 := B.contmu i (by omega)
      have c2 := B.contmu (i+1) hi
      have d1 := B.contxb i (by omega)
      have d2 := B.contxb (i+1) hi
      have dd := (c2.mul d2).add (c1.mul d1)
      have d0 := (key s0 B.mem).1
      refine ⟨B.via (fun s hs => by rw [(key s hs).2]; rfl) (((c2.mul d2).sub (c1.mul d1)).div₀ dd d0).neg,
        B.via (fun s hs => by rw [(key s hs).2]; rfl) (((c2.mul d2).sub (c1.mul d1)).div₀ dd d0),
        B.via (fun s hs => by rw [(key s hs).2]; rfl) ((c1.mul d1).mul (continuousAt_const.div₀ dd d0)),
        B.via (fun s hs => by rw [(key s hs).2]; rfl) ((c2.mul d2).mul (continuousAt_const.div₀ dd d0))⟩
    · have key : ∀ s ∈ U, S s (i+1) = { RDL := 1, RUL := 0, TDL := 0, TUL := 0 } := by
        intro s hs
        have h := hrt s hs
        unfold rtSH at h
        rw [l1 s hs, l2 s hs, e1, e2] at h
        simp [lsSH, l1 s hs, e1] at h
        exact h.symm
      exact ⟨B.via (fun s hs => by rw [key s hs]) continuousAt_const, B.via (fun s hs => by rw [key s hs]) continuousAt_const,
        B.via (fun s hs => by rw [key s hs]) continuousAt_const, B.via (fun s hs => by rw [key s hs]) continuousAt_const⟩
  · cases e2 : liq (i+1)
    · have key : ∀ s ∈ U, S s (i+1) = { RDL := 0, RUL := 1, TDL := 0, TUL := 0 } := by
        intro s hs
        have h := hrt s hs
        unfold rtSH at h
        rw [l1 s hs, l2 s hs, e1, e2] at h
        simp [lsSH, l1 s hs, e1] at h
        exact h.symm
      exact ⟨B.via (fun s hs => by rw [key s hs]) continuousAt_const, B.via (fun s hs => by rw [key s hs]) continuousAt_const,
        B.via (fun s hs => by rw [key s hs]) continuousAt_const, B.via (fun s hs => by rw [key s hs]) continuousAt_const⟩
    · have key : ∀ s ∈ U, S s (i+1) = llSH := by
        intro s hs
        have h := hrt s hs
        unfold rtSH at h
        rw [l1 s hs, l2 s hs, e1, e2] at h
        simp at h
        exact h.symm
      exact ⟨B.via (fun s hs => by rw [key s hs]) continuousAt_const, B.via (fun s hs => by rw [key s hs]) continuousAt_const,
        B.via (fun s hs => by rw [key s hs]) continuousAt_const, B.via (fun s hs => by rw [key s hs]) continuousAt_const⟩

theorem Branch.rl (B : Branch n liq I S m thk iref pot U s0) (r : ℕ) : ∀ i, i + r = n - 1 →
    ContinuousAt (fun s => (allRL (I s) (S s) i).RDL) s0 := by
  have hn := B.hi
  induction r with
  | zero =>
    intro i hi
    refine B.via (g := fun _ => 0) (fun s hs => ?_) continuousAt_const
    have : ¬ (i + 1 < (I s).nlay) := by rw [B.nlay s hs]; omega
    simp [allRL, this, resetM]
  | succ r ih =>
    intro i hi
    have c := ih (i+1) (by omega)
    obtain ⟨a1, a2, a3, a4⟩ := B.sh (i := i) (by omega)
    have e := B.ex (i := i) (by omega)
    have k := fun s hs => down_rec (I := I s) (S := S s) (by rw [B.nlay s hs]; omega) (B.ok s hs) (my := i) (by rw [B.nlay s hs]; omega)
    refine B.via (g := fun s => ((S s (i+1)).RDL + (S s (i+1)).TUL * (allRL (I s) (S s) (i+1)).RDL * (S s (i+1)).TDL /
      (1 - (S s (i+1)).RUL * (allRL (I s) (S s) (i+1)).RDL)) * ((I s).exb i * (I s).exb i)) (fun s hs => ?_) ?_
    · obtain ⟨k1, k2⟩ := k s hs
      apply mul_right_cancel₀ k1
      rw [k2]
      have := div_mul_cancel₀ ((S s (i+1)).TUL * (allRL (I s) (S s) (i+1)).RDL * (S s (i+1)).TDL) k1
      linear_combination -((I s).exb i * (I s).exb i) * this
    · exact (a1.add (((a4.mul c).mul a3).div₀ (continuousAt_const.sub (a2.mul c)) (k s0 B.mem).1)).mul (e.mul e)

theorem Branch.fr (B : Branch n liq I S m thk iref pot U s0) (i : ℕ) : i + 1 < n →
    ContinuousAt (fun s => (allFR (I s) (S s) i).RUL) s0 := by
  induction i with
  | zero =>
    intro hi
    refine B.via (g := fun _ => freeBoundSH (liq 0)) (fun s hs => ?_) continuousAt_const
    have o1 := capTopL_ok ((B.ok s hs) 0 (by rw [B.nlay s hs]; omega)).1
    rw [allFR, capTopL_val o1, ← B.liquid s hs 0]
    exact (combine_reset _).2
  | succ i ih =>
    intro hi
    have c := ih (by omega)
    obtain ⟨a1, a2, a3, a4⟩ := B.sh (i := i) (by omega)
    have e := B.ex (i := i) (by omega)
    have k := fun s hs => up_rec (I := I s) (S := S s) (B.ok s hs) (iy := i) (by rw [B.nlay s hs]; omega)
    refine B.via (g := fun s => (S s (i+1)).RUL + (S s (i+1)).TDL * ((allFR (I s) (S s) i).RUL * ((I s).exb i * (I s).exb i)) *
      (S s (i+1)).TUL / (1 - (S s (i+1)).RDL * ((allFR (I s) (S s) i).RUL * ((I s).exb i * (I s).exb i)))) (fun s hs => ?_) ?_
    · obtain ⟨k1, k2⟩ := k s hs
      apply mul_right_cancel₀ k1
      rw [k2]
      have := div_mul_cancel₀ ((S s (i+1)).TDL * ((allFR (I s) (S s) i).RUL * ((I s).exb i * (I s).exb i)) * (S s (i+1)).TUL) k1
      linear_combination -this
    · have z := c.mul (e.mul e)
      exact a2.add (((a3.mul z).mul a4).div₀ (continuousAt_const.sub (a1.mul z)) (k s0 B.mem).1)

/-- The amplitudes at the tops of the layers. -/
theorem Branch.down (B : Branch n liq I S m thk iref pot U s0) {i : ℕ} (hi : i < n) :
    ContinuousAt (fun s => potDown (I s) (S s) iref (pot s) i) s0 := by
  have hn := B.hi
  have hp : ContinuousAt pot s0 := by
    refine B.via (g := fun s => ((allRL (I s) (S s) iref).RDL, 1)) (fun s hs => ?_)
      ((B.rl (n - 1 - iref) iref (by omega)).prodMk continuousAt_const)
    exact (loveSecular_val (by rw [B.nlay s hs]; exact hn) (B.ok s hs) (B.zero s hs)).2
  have dn : ∀ r, iref + r < n → ContinuousAt (fun s => dnArr (I s) (S s) iref (pot s) r) s0 := by
    intro r
    induction r with
    | zero => intro _; exact hp
    | succ r ih =>
      intro hr
      have c := ih (by omega)
      obtain ⟨a1, a2, a3, a4⟩ := B.sh (i := iref + r) (by omega)
      have e := B.ex (i := iref + r) (by omega)
      have R := B.rl (n - 1 - (iref + r + 1)) (iref + r + 1) (by omega)
      have k := fun s hs => down_rec (I := I s) (S := S s) (by rw [B.nlay s hs]; omega) (B.ok s hs) (my := iref + r)
        (by rw [B.nlay s hs]; omega)
      have l1 := fun s hs => B.liquid s hs (iref + r)
      have l2 := fun s hs => B.liquid s hs (iref + r + 1)
      cases e2 : liq (iref + r + 1)
      · have u : ContinuousAt (fun s => if liq (iref + r) then 0 else (dnArr (I s) (S s) iref (pot s) r).2 * (I s).exb (iref + r)) s0 := by
          cases liq (iref + r)
          · simp only [Bool.false_eq_true, if_false]
            exact c.snd.mul e
          · simp only [if_true]
            exact continuousAt_const
        have x := (a3.mul u).div₀ (continuousAt_const.sub (a2.mul R)) (k s0 B.mem).1
        refine B.via (fun s hs => ?_) ((R.mul x).prodMk x)
        simp only [dnArr, upDownL, l2 s hs, e2, Bool.false_eq_true, if_false]
        rw [show iref + r + 1 - 1 = iref + r by omega, l1 s hs]
        rfl
      · refine B.via (g := fun _ => (0, 0)) (fun s hs => ?_) continuousAt_const
        simp only [dnArr, upDownL, l2 s hs, e2, if_true]
  have up : ∀ r, r ≤ iref → ContinuousAt (fun s => upArr (I s) (S s) iref (pot s) r) s0 := by
    intro r
    induction r with
    | zero => intro _; exact hp
    | succ r ih =>
      intro hr
      have c := ih (by omega)
      obtain ⟨j, hj⟩ : ∃ j, iref - (r+1) = j := ⟨_, rfl⟩
      obtain ⟨a1, a2, a3, a4⟩ := B.sh (i := j) (by omega)
      have e := B.ex (i := j) (by omega)
      have F := B.fr j (by omega)
      have k := fun s hs => up_rec (I := I s) (S := S s) (B.ok s hs) (iy := j) (by rw [B.nlay s hs]; omega)
      have l1 := fun s hs => B.liquid s hs j
      cases e1 : liq j
      · have z := F.mul (e.mul e)
        have x := (a4.mul c.fst).div₀ (continuousAt_const.sub (a1.mul z)) (k s0 B.mem).1
        refine B.via (fun s hs => ?_) ((x.mul e).prodMk ((x.mul e).mul F))
        simp only [upArr, hj, downUpL, l1 s hs, e1, Bool.false_eq_true, if_false]
        rfl
      · refine B.via (g := fun _ => (0, 0)) (fun s hs => ?_) continuousAt_const
        simp only [upArr, hj, downUpL, l1 s hs, e1, if_true]
  by_cases h : iref ≤ i
  · simp only [potDown, if_pos h]
    exact dn _ (by omega)
  · simp only [potDown, if_neg h]
    exact up _ (by omega)

/-- The eigenfunction along the branch. -/
theorem Branch.mode (B : Branch n liq I S m thk iref pot U s0) {s : ℝ} (hs : s ∈ U) :
    LoveField n liq (m s) thk (I s).k ((I s).c * (I s).k) (loveOut (I s) (S s) thk iref (pot s)) ∧
    (∀ i, i < n → ∀ z, loveOut (I s) (S s) thk iref (pot s) i z = shField (I s).k (m s i) ((I s).lay i)
      (potDown (I s) (S s) iref (pot s) i).1 (potDown (I s) (S s) iref (pot s) i).2 z) ∧
    (potDown (I s) (S s) iref (pot s) (n-1)).1 = 0 ∧
    (∀ i, i < n → liq i = true → potDown (I s) (S s) iref (pot s) i = (0, 0)) := by
  have N := B.nlay s hs
  have hi := B.hi
  have D := B.desc s hs
  have M := (C76_mode D (iref := iref) (by rw [N]; exact B.hi) (by rw [B.liquid s hs]; exact B.solid) (B.ok s hs) (B.zero s hs)).1
  obtain ⟨L, T, Bo, Z⟩ := love_linked (by rw [N]; exact B.hi) (B.ok s hs) D.rt (by rw [B.liquid s hs]; exact B.solid) (B.zero s hs)
  refine ⟨?_, ?_, by rw [← N]; exact Bo, fun i hi' e => Z i (by rw [N]; exact hi') (by rw [B.liquid s hs, e])⟩
  · rw [N] at M
    have : (fun i => ((I s).lay i).liquid) = liq := by funext i; exact B.liquid s hs i
    rw [this] at M
    exact M
  · intro i hi' z
    rw [← N] at hi'
    cases e : ((I s).lay i).liquid
    · rcases Nat.lt_or_ge (i+1) (I s).nlay with q | q
      · exact loveOut_field D q e (L i q).up z
      · have : i = (I s).nlay - 1 := by omega
        subst this
        rw [loveOut_half D (by omega) e, Bo]
    · rw [loveOut_liquid e, Z i hi' e]
      simp [shField, shState]

end GRT.Modal
