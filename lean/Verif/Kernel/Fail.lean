import Verif.Kernel.Phys

/-! C19: what happens when an inversion inside the kernel fails.

The claim "a failed inversion is reported" is false in three ways, proved below; what does hold is proved
as `C19_partial`. -/

set_option linter.unusedSectionVars false

namespace GRT.Kernel

open GRT.RT GRT.Layer Matrix

variable {K : Type*} [Field K] [DecidableEq K]

/-- The status a caller looks at (`mstat->stats`, tested in dwm.c, fim.c, safim.c, ptam.c, grn.c) is the
one it passed in, whatever happened: no failure can ever be seen there. -/
theorem C19_violated_stats {E : Env K} {s : Store K} {st : Bool} {r : Kern K} (h : kernel E s st = .ok r) :
    r.stats = st := by
  unfold kernel at h
  repeat' split at h
  all_goals first | (injection h with h; subst h; rfl) | cases h

theorem loop_top (E : Env K) (n iy : ℕ) (s : Store K) :
    loop { E with topP := .ok 0 } n iy s = loop E n iy s := by
  induction n generalizing iy s with
  | zero => rfl
  | succ n ih =>
    unfold loop
    have hb : body { E with topP := .ok 0 } iy s = body E iy s := rfl
    rw [hb]
    cases body E iy s <;> simp [Res.bind, ih]

/-- A failure of the P-SV reflection of the top boundary is overwritten by the SH routine: the kernel is
then exactly the one of a medium whose top does not reflect P-SV waves at all. -/
theorem C19_violated_top {E : Env K} (hE : Good E) (hw : WF E) (ht : E.topP = .fail) (s : Store K) (st : Bool) :
    kernel E s st = kernel { E with topP := .ok 0 } s st := by
  have hb : ∀ s, buildQWV { E with topP := .ok 0 } s = buildQWV E s := fun s => rfl
  have hg : grtMatrix { E with topP := .ok 0 } s = grtMatrix E s := by
    unfold grtMatrix
    dsimp only
    have hm : ({ E with topP := .ok 0 } : Env K).maxidx = E.maxidx := rfl
    rw [loop_top, hm]
    rcases hl : loop E (E.maxidx - 1) 1 (((((s.set pBL resetM).set pRS resetM).set pFA resetM).set pTop resetM).set pBot resetM) with _ | s2 | s2
    · rfl
    · rfl
    · have hi := chain_zero_inv hE hw hl
      have hc : callTop { E with topP := .ok 0 } s2 = callTop E s2 := by
        unfold callTop
        rw [ht]
        dsimp only
        rw [hi.top]
        rfl
      have : ∀ s, bounds { E with topP := .ok 0 } s =
          (callTop { E with topP := .ok 0 } s).bind fun s => (check pTop s).bind fun s =>
            (check pFA (recRU pTop pFA pFA s)).bind fun s =>
            if E.imax + 1 < E.nlay then
              (callBot E s).bind fun s => (check pBot s).bind fun s => check pBL (recRD pBL pBot pBL s)
            else .go s := fun s => rfl
      simp only [Res.bind]
      rw [this, hc]
      rfl
  unfold kernel
  rw [hg]
  simp only [hb]

/-- If the matrix phase went through and the table phase failed, the table returned is identically zero (so
this wavenumber is silently left out of the integral). -/
theorem C19_build_zero {E : Env K} {s : Store K} {b : Built K} (h : buildQWV E s = .ok b) (hd : b.done = false)
    (t : Src) : b.g.u t = ⟨0, 0⟩ ∧ b.g.uz t = ⟨0, 0⟩ := by
  have hz : ∀ t, (zeroDS E (zeroQWV : QWV K)).u t = ⟨0, 0⟩ ∧ (zeroDS E (zeroQWV : QWV K)).uz t = ⟨0, 0⟩ := by
    intro t; unfold zeroDS zeroQWV; split <;> simp
  unfold buildQWV at h
  dsimp only at h
  repeat' split at h
  all_goals first
    | (cases h; exact hz t)
    | (cases h; cases hd)
    | cases h

/-- C19, what does hold.  Either some inversion failed, and then nothing tells the caller; or none did, and
then the rows are the field (this is C57).  Missing: the failure is not reported (`C19_violated_stats`), a
failing top boundary does not even stop the computation (`C19_violated_top`), a failure in the matrix
phase yields a table computed from what the accumulators held so far (`C19_violated_scholte`). -/
theorem C19_partial {E : Env K} (hE : Good E) (hw : WF E) {V W : Recv K} (hV : Reads E V W) {s : Store K} {st : Bool}
    (ht : ∃ R, E.topP = .ok R) (hb : E.imax + 1 < E.nlay → ∃ R, E.botP = .ok R) {r : Kern K}
    (h : kernel E s st = .ok r) :
    (∃ s1, grtMatrix E s = .stop s1) ∨
    (∃ s1, grtMatrix E s = .go s1 ∧ r.done = false ∧ ∀ t, r.g.u t = ⟨0, 0⟩ ∧ r.g.uz t = ⟨0, 0⟩) ∨
    (r.done = true ∧ ∀ t, E.atZero = false ∨ t ≠ .DS → ∃ S, E.src t = .ok S ∧
      ∀ d u, Waves E S d u → r.g.u t = V.obs (d E.ircv) (u E.ircv) ∧ r.g.uz t = W.obs (d E.ircv) (u E.ircv)) := by
  by_cases hd : r.done = true
  · exact .inr (.inr ⟨hd, fun t hz => by
      obtain ⟨S, h1, -, h3⟩ := C57_kernel hE hw hV ht hb h hd t hz
      exact ⟨S, h1, h3⟩⟩)
  · simp only [Bool.not_eq_true] at hd
    unfold kernel at h
    rcases hm : grtMatrix E s with _ | s1 | s1
    · rw [hm] at h; cases h
    · exact .inl ⟨s1, rfl⟩
    · rw [hm] at h
      dsimp only at h
      refine .inr (.inl ⟨s1, rfl, hd, ?_⟩)
      split at h
      · rename_i b hbq
        injection h with h; subst h
        exact C19_build_zero hbq hd
      · cases h
      · cases h

/-! ### Concrete failing inputs -/

/-- Values `a 0, a 1, …` from a list. -/
def ofList (l : List ℚ) (i : ℕ) : ℚ := l.getD i 1

/-- A half-space at its Rayleigh velocity (`c = 1`). -/
def layR : Lay ℚ := ⟨false, 1, 25/21, 841/1000, 2/5, 1 - (841/1000)^2, 21/25⟩
def medR : Medium ℚ := ⟨1, 1 / (1 - (841/1000)^2) - 50/21, 25/21⟩
example : Fits 1 layR medR := by constructor <;> norm_num [layR, medR]

/-- Receiver on the free surface, source below. -/
def inR : DynIn ℚ :=
  ⟨1, 1, 3, 2, 1, true, false, fun _ => layR, ofList [1, 1/2, 1], ofList [1, 2/3, 1], .free, .half⟩

/-- The hypotheses of `C19_violated_top` are met, and what comes back is a finite nonzero table with
status success, although the boundary reflection does not exist: the response at a pole is infinite. -/
theorem C19_violated_rayleigh :
    (dynEnv inR).topP = .fail ∧ WF (dynEnv inR) ∧ Good (dynEnv inR) ∧
    ∃ r, kernel (dynEnv inR) (fun _ => resetM) true = .ok r ∧ r.stats = true ∧ r.done = true ∧
      (r.g.u .VF).qw 1 ≠ 0 := by
  refine ⟨?_, ⟨by decide, by decide, by decide, by decide⟩, dyn_good _, ?_⟩
  · have : ((dynEnv inR).topP matches .fail) = true := by decide +kernel
    revert this
    cases (dynEnv inR).topP <;> simp
  · have : (match kernel (dynEnv inR) (fun _ => resetM) true with
      | .ok r => decide (r.stats = true ∧ r.done = true ∧ (r.g.u .VF).qw 1 ≠ 0)
      | _ => false) = true := by decide +kernel
    revert this
    rcases kernel (dynEnv inR) (fun _ => resetM) true with _ | _ | r <;> simp

/-- Water over the solid `lA` at the Scholte velocity of the pair (`c = 1`). -/
def rhoS : ℚ := (25/4) * (3/5) * (36/65 - 289/625) / ((16/25) * (12/13))
def layS : Lay ℚ := ⟨true, rhoS, 0, 3/5, 1, 16/25, 0⟩
def medS : Medium ℚ := ⟨rhoS, rhoS * 25/16, 0⟩
example : Fits 1 layS medS := by constructor <;> norm_num [layS, medS, rhoS]

/-- Receiver and source in the water, receiver above. -/
def inS : DynIn ℚ :=
  ⟨1, 1, 4, 2, 1, true, false, fun i => if i = 3 then lA else layS, ofList [1/3, 1/2, 3/4, 1],
    ofList [1, 1, 1, 1], .free, .half⟩

/-- The interface matrix fails, the recursion is abandoned, and the kernel nevertheless returns success
and a nonzero table: the one of a medium in which nothing below the source reflects. -/
theorem C19_violated_scholte :
    (dynEnv inS).botP = .fail ∧ WF (dynEnv inS) ∧
    ∃ r, kernel (dynEnv inS) (fun _ => resetM) true = .ok r ∧ r.stats = true ∧ r.done = false ∧
      (r.g.u .EX).qw 1 ≠ 0 := by
  refine ⟨?_, ⟨by decide, by decide, by decide, by decide⟩, ?_⟩
  · have : ((dynEnv inS).botP matches .fail) = true := by decide +kernel
    revert this
    cases (dynEnv inS).botP <;> simp
  · have : (match kernel (dynEnv inS) (fun _ => resetM) true with
      | .ok r => decide (r.stats = true ∧ r.done = false ∧ (r.g.u .EX).qw 1 ≠ 0)
      | _ => false) = true := by decide +kernel
    revert this
    rcases kernel (dynEnv inS) (fun _ => resetM) true with _ | _ | r <;> simp

/-! ### Concrete inputs for C57: the kernel goes through -/

/-- Three solids, receiver at the free surface, source in the middle, interface below it. -/
def inA : DynIn ℚ :=
  ⟨3, 1, 5, 2, 1, true, false, fun i => if i < 3 then lA else lB, ofList [1, 1/2, 3/4, 2/5, 1],
    ofList [1, 2/3, 4/5, 3/5, 1], .free, .half⟩
/-- Source in water above, receiver in the solid below; rigid bottom. -/
def inB : DynIn ℚ :=
  ⟨3, 1, 6, 1, 4, false, false, fun i => if i < 3 then lW else lB, ofList [1/7, 1/2, 3/4, 2/5, 1/3, 1],
    ofList [1, 1, 1, 3/5, 1/5, 1], .free, .rigid⟩
def inC : StatIn ℚ :=
  ⟨2, 5, 2, 1, true, false, fun i => if i < 3 then ⟨3, 1/2⟩ else ⟨5, 2/3⟩, ofList [0, 1/2, 3/4, 1], ofList [1, 2/3, 4/5, 1],
    .free, .half⟩

def goesThrough (E : Env ℚ) : Bool :=
  match kernel E (fun _ => ⟨!![7, 1; 2, 3], 0, 1, 1, 1, 5, 6, 7, 8, 9, false⟩) true, E.topP, E.botP with
  | .ok r, .ok _, .ok _ => r.done && decide ((r.g.u .EX).qw 0 ≠ 0) && decide ((r.g.uz .EX).qw 0 ≠ 0)
  | _, _, _ => false

example : goesThrough (dynEnv inA) = true ∧ goesThrough (dynEnv inB) = true ∧ goesThrough (statEnv inC) = true := by
  decide +kernel
example : WF (dynEnv inA) ∧ WF (dynEnv inB) ∧ WF (statEnv inC) :=
  ⟨⟨by decide, by decide, by decide, by decide⟩, ⟨by decide, by decide, by decide, by decide⟩,
    ⟨by decide, by decide, by decide, by decide⟩⟩

end GRT.Kernel
