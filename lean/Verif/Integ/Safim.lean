import Verif.Integ.Fim

/-!
Adaptive Filon integration, `grt_sa_filon_integ` (pygrt/C_extension/src/integral/safim.c 30-459), in exact arithmetic. The kernel
is a function of the wavenumber which may fail. Of the log file only the wavenumbers are modelled, so that the unrevised copies
of the samples (`F3_raw`, `Fz3_raw`) are left out.
-/

open Real MeasureTheory Set

namespace GRT.Integ

/-- `KInterval`, safim.c 52-58: three wavenumbers, kernel and vertical derivative there. -/
structure Itv where
  k3 : Fin 3 → ℝ
  F3 : Fin 3 → Chnl × Chnl

/-- `SIMPSON_INTV`, safim.c 40-46. -/
inductive Simp | before | whole | after | first | second

/-- Samples of one channel, safim.c 108, 159-160: kernel or its vertical derivative. -/
def Itv.smp (it : Itv) (uiz : Bool) (d : Fin 3) (i : Fin 6) (c : Fin 3) : ℂ := if uiz then (it.F3 d).2 i c else (it.F3 d).1 i c

/-- `simpson`, safim.c 105-136. -/
noncomputable def simpson (it : Itv) (i : Fin 6) (c : Fin 3) (uiz : Bool) (st : Simp) : ℂ :=
  let klen := it.k3 2 - it.k3 0
  let g := fun d => it.smp uiz d i c * (√(it.k3 d) : ℝ)
  match st with
  | .whole => klen * (g 0 + 4 * g 1 + g 2) / 6
  | .before => klen * (19 * g 0 - 20 * g 1 + 7 * g 2) / 6
  | .after => klen * (7 * g 0 - 20 * g 1 + 19 * g 2) / 6
  | .first => klen * (5 * g 0 + 8 * g 1 - g 2) / 24
  | .second => klen * (-g 0 + 8 * g 1 + 5 * g 2) / 24

/-- `GRT_SRC_M_GTYPES`, src/common/const.c 22. -/
def gtype : Fin 6 → Fin 2 := ![1, 0, 0, 1, 1, 1]

open Classical in
/-- `get_maxabsQWV`, safim.c 139-147. -/
noncomputable def getMax (F : Chnl) (m : Fin 2 → ℝ) : Fin 2 → ℝ := fun g =>
  ((List.finRange 6).flatMap fun i => (List.finRange 3).map fun c => (i, c)).foldl
    (fun a p => if gtype p.1 = g ∧ ‖F p.1 p.2‖ > a then ‖F p.1 p.2‖ else a) (m g)

/-- The comparison `S_dif/S_ref > tol`, safim.c 203, 212, 221; with a zero reference the ratio is infinite, or `0/0`, which does not
exceed anything. -/
def exceeds (dif ref tol : ℝ) : Prop := if ref = 0 then 0 < dif else dif / ref > tol

/-- `∫ k^0.5 dk` over an interval, safim.c 163-165. -/
noncomputable def kcoef (it : Itv) : ℝ := 2 / 3 * (it.k3 2 * √(it.k3 2) - it.k3 0 * √(it.k3 0))

open Classical in
/-- The tests of one channel, safim.c 180-222: true if all three pass. -/
noncomputable def fitOne (it L R : Itv) (uiz : Bool) (maxabs : Fin 2 → ℝ) (tol : ℝ) (i : Fin 6) (c : Fin 3) : Prop :=
  let S11 := simpson it i c uiz .first
  let S12 := simpson it i c uiz .second
  let S21 := simpson L i c uiz .whole
  let S22 := simpson R i c uiz .whole
  let amp0 := 1 / 10 ^ 6 * maxabs (gtype i)
  let low : Prop := (∀ d, ‖L.smp uiz d i c‖ < amp0) ∧ ∀ d, 0 < d → ‖R.smp uiz d i c‖ < amp0
  ¬ exceeds ‖S11 + S12 - S21 - S22‖ (if low then amp0 * kcoef it else ‖S11 + S12 + S21 + S22‖) tol ∧
  ¬ exceeds ‖S11 - S21‖ (if low then amp0 * kcoef L else ‖S11 + S21‖) tol ∧
  ¬ exceeds ‖S12 - S22‖ (if low then amp0 * kcoef R else ‖S12 + S22‖) tol

/-- `check_fit`, safim.c 151-227. -/
noncomputable def checkFit (it L R : Itv) (kref : ℝ) (uiz : Bool) (maxabs : Fin 2 → ℝ) (tol : ℝ) : Prop :=
  ∀ i c, (order i = 0 ∧ c = 2) ∨ (it.k3 0 > kref ∧ c ≠ 2) ∨ fitOne it L R uiz maxabs tol i c

/-- What `grt_sa_filon_integ` is called with, safim.c 284-286. -/
structure Safim (nr : ℕ) where
  k0 : ℝ
  dk0 : ℝ
  tol : ℝ
  kmax : ℝ
  kref : ℝ
  rs : Fin nr → ℝ
  dcm : Bool
  upar : Bool
  Qm : Chnl
  Qzm : Chnl
  /-- Kernel and its vertical derivative; `none` is `GRT_INVERSE_FAILURE`. -/
  ker : ℝ → Option (Chnl × Chnl)

variable {nr : ℕ} (D : Safim nr)

/-- Kernel with its asymptotic part removed, safim.c 312-322, 381-398. -/
noncomputable def Safim.sample (k : ℝ) : Option (Chnl × Chnl) :=
  (D.ker k).map fun Q => if D.dcm then (revision D.kmax k Q.1 D.Qm, revisionZ D.kmax k Q.2 D.Qzm) else Q

/-- Entries that are added, safim.c 249-254, 260-265, 270-275. -/
def used (g : Grid) : Grid := fun i v => if order i = 0 ∧ v ≠ 0 ∧ v ≠ 2 then 0 else g i v

/-- Integrals over one interval at distance `r`, safim.c 244-276. The array `K->SUM` is not cleared between the three uses, but
the entries that are kept from one to the next are zero and are not added. -/
noncomputable def Safim.piece (it : Itv) (r : ℝ) : Sums :=
  { u := used (intPkSa it.k3 r (fun d => (it.F3 d).1) false 0)
    z := if D.upar then used (intPkSa it.k3 r (fun d => (it.F3 d).2) false 0) else 0
    r := if D.upar then used (intPkSa it.k3 r (fun d => (it.F3 d).1) true 0) else 0 }

open Classical in
/-- `interv_integ`, safim.c 235-280. -/
noncomputable def Safim.integ (it : Itv) (s : Fin nr → Sums) : Fin nr → Sums := fun ir =>
  if zeroDist (D.rs ir) then s ir else Dwm.add (D.piece it (D.rs ir)) (s ir)

/-- State of the sampling loop: stack (top first), the interval taken last, the two records of largest amplitudes, the sums, the
intervals integrated (latest first) and the wavenumbers written to the log file (latest first). -/
structure SafimState (nr : ℕ) where
  stack : List Itv
  cur : Itv
  maxF : Fin 2 → ℝ
  maxFz : Fin 2 → ℝ
  sums : Fin nr → Sums
  accepted : List Itv
  log : List ℝ

/-- Left half of an interval given the sample in its middle, safim.c 340-350, 362-363. -/
noncomputable def Itv.left (it : Itv) (Q : Chnl × Chnl) : Itv :=
  ⟨![it.k3 0, (it.k3 0 + it.k3 1) * (1 / 2), it.k3 1], ![it.F3 0, Q, it.F3 1]⟩
/-- Right half of an interval, safim.c 351-361, 364-365. -/
noncomputable def Itv.right (it : Itv) (Q : Chnl × Chnl) : Itv :=
  ⟨![it.k3 1, (it.k3 1 + it.k3 2) * (1 / 2), it.k3 2], ![it.F3 1, Q, it.F3 2]⟩

/-- Record of the largest amplitudes after one interval, safim.c 400-408. -/
noncomputable def newMax (L R : Itv) (uiz : Bool) (m : Fin 2 → ℝ) : Fin 2 → ℝ :=
  let g := fun (it : Itv) (d : Fin 3) => getMax fun i c => it.smp uiz d i c
  g R 2 (g L 2 (g R 1 (g L 1 (g L 0 m))))

open Classical in
/-- Body of the sampling loop for the interval `it` with the two new samples, safim.c 400-435. -/
noncomputable def Safim.body (it : Itv) (QL QR : Chnl × Chnl) (rest : List Itv) (st : SafimState nr) : SafimState nr :=
  let L := it.left QL
  let R := it.right QR
  let mF := newMax L R false st.maxF
  let mFz := if D.upar then newMax L R true st.maxFz else st.maxFz
  let good := checkFit it L R D.kref false mF D.tol ∧ (D.upar = true → checkFit it L R D.kref true mFz D.tol)
  if ¬ good ∧ L.k3 2 - L.k3 0 > 1 / 10 ^ 7 then
    { st with stack := L :: R :: rest, cur := it, maxF := mF, maxFz := mFz }
  else
    { stack := rest, cur := it, maxF := mF, maxFz := mFz, sums := D.integ it st.sums, accepted := it :: st.accepted,
      log := R.k3 2 :: R.k3 1 :: L.k3 2 :: L.k3 1 :: st.log }

/-- Outcome of one turn of the sampling loop. -/
inductive Turn (nr : ℕ)
  | done
  | fail (cur : Itv)
  | next (st : SafimState nr)

/-- One turn of the sampling loop, safim.c 336-436. -/
noncomputable def Safim.turn (st : SafimState nr) : Turn nr :=
  match st.stack with
  | [] => .done
  | it :: rest =>
    match D.sample ((it.k3 0 + it.k3 1) * (1 / 2)) with
    | none => .fail it
    | some QL =>
      match D.sample ((it.k3 1 + it.k3 2) * (1 / 2)) with
      | none => .fail it
      | some QR => .next (D.body it QL QR rest st)

/-- What `grt_sa_filon_integ` leaves: returned wavenumber, sums, and the record of the loop. -/
structure SafimOut (nr : ℕ) where
  k : ℝ
  sums : Fin nr → Sums
  accepted : List Itv
  log : List ℝ
  failed : Bool

open Classical in
/-- Final addition, safim.c 438-451. -/
noncomputable def Safim.finish (s K2 : Fin nr → Sums) : Fin nr → Sums := fun ir =>
  let r := D.rs ir
  let f := fun g : Sums → Grid => g (s ir) + fun i v => g (K2 ir) i v * ((√(2 / (π * r)) / D.dk0 : ℝ) : ℂ)
  if zeroDist r then s ir else
    { u := f Sums.u
      z := if D.upar then f Sums.z else (s ir).z
      r := if D.upar then f Sums.r else (s ir).r }

/-- The sampling loop, safim.c 336-459, with at most `n` turns; `none` if it has not ended by then. -/
noncomputable def Safim.loop (s : Fin nr → Sums) : ℕ → SafimState nr → Option (SafimOut nr)
  | 0, _ => none
  | n + 1, st =>
    match D.turn st with
    | .done => some ⟨st.cur.k3 2, D.finish s st.sums, st.accepted, st.log, false⟩
    | .fail cur => some ⟨cur.k3 2, s, st.accepted, st.log, true⟩
    | .next st' => Safim.loop s n st'

/-- Lower end of the range, `kmin`, safim.c 289. -/
noncomputable def Safim.kmin : ℝ := D.k0 + D.dk0

/-- State before the sampling loop, safim.c 298-333, from the three first samples. -/
noncomputable def Safim.init (Q0 Q1 Q2 : Chnl × Chnl) : SafimState nr :=
  let it : Itv := ⟨![D.kmin, (D.kmin + D.kmax) * (1 / 2), D.kmax], ![Q0, Q1, Q2]⟩
  { stack := [it], cur := it, maxF := 0, maxFz := 0, sums := fun _ => ⟨0, 0, 0⟩, accepted := [], log := [D.kmin] }

open Classical in
/-- `grt_sa_filon_integ`, safim.c 284-459, from sums `s`, with at most `n` turns of the sampling loop. -/
noncomputable def Safim.run (s : Fin nr → Sums) (n : ℕ) : Option (SafimOut nr) :=
  if D.kmin ≥ D.kmax then some ⟨D.k0, s, [], [], false⟩
  else
    match D.sample D.kmin with
    | none => some ⟨D.kmax, s, [], [], true⟩
    | some Q0 =>
      match D.sample ((D.kmin + D.kmax) * (1 / 2)) with
      | none => some ⟨D.kmax, s, [], [], true⟩
      | some Q1 =>
        match D.sample D.kmax with
        | none => some ⟨D.kmax, s, [], [], true⟩
        | some Q2 => D.loop s n (D.init Q0 Q1 Q2)

/-! ### Specification -/

/-- The intervals follow each other from `a` to `b`, each of positive length. -/
def Tiles : List Itv → ℝ → ℝ → Prop
  | [], a, b => a = b
  | it :: l, a, b => it.k3 0 = a ∧ a < it.k3 2 ∧ Tiles l (it.k3 2) b

/-- The middle sample is in the middle, and the samples are those of the kernel. -/
def Safim.Sound (it : Itv) : Prop := it.k3 1 = (it.k3 0 + it.k3 2) / 2 ∧ ∀ d, D.sample (it.k3 d) = some (it.F3 d)

/-- A record of largest amplitudes does not exceed any bound on the samples of the range. -/
def Safim.Bounded (pr : Chnl × Chnl → Chnl) (m : Fin 2 → ℝ) : Prop :=
  ∀ g B, 0 ≤ B → (∀ k ∈ Icc D.kmin D.kmax, ∀ Q, D.sample k = some Q → ∀ i c, gtype i = g → ‖pr Q i c‖ ≤ B) → m g ≤ B

/-- An interval that need not be divided: the tests passed against its halves, with samples of the kernel in their middles, or it
is not longer than twice the smallest step. -/
def Safim.Fine (it : Itv) : Prop :=
  it.k3 2 - it.k3 0 ≤ 2 / 10 ^ 7 ∨
  ∃ L R : Itv, D.Sound L ∧ D.Sound R ∧ L.k3 0 = it.k3 0 ∧ L.k3 2 = it.k3 1 ∧ R.k3 0 = it.k3 1 ∧ R.k3 2 = it.k3 2 ∧
    ∃ m mz, D.Bounded Prod.fst m ∧ D.Bounded Prod.snd mz ∧ checkFit it L R D.kref false m D.tol ∧
      (D.upar = true → checkFit it L R D.kref true mz D.tol)

/-- The wavenumbers an interval contributes to the log: its quarters and its end. -/
noncomputable def Itv.quarters (it : Itv) : List ℝ :=
  [it.k3 0 + (it.k3 2 - it.k3 0) / 4, it.k3 0 + (it.k3 2 - it.k3 0) / 2, it.k3 0 + (it.k3 2 - it.k3 0) * 3 / 4, it.k3 2]

/-! ### Lemmas -/

theorem Tiles.append {l l' : List Itv} {a b c : ℝ} (h : Tiles l a b) (h' : Tiles l' b c) : Tiles (l ++ l') a c := by
  induction l generalizing a with
  | nil => rw [show a = b from h]; exact h'
  | cons it l ih => exact ⟨h.1, h.2.1, ih h.2.2⟩

theorem Tiles.le {l : List Itv} {a b : ℝ} (h : Tiles l a b) : a ≤ b := by
  induction l generalizing a with
  | nil => exact le_of_eq h
  | cons it l ih => exact h.2.1.le.trans (ih h.2.2)

theorem foldl_max_le (F : Chnl) (g : Fin 2) (B : ℝ) (hB : ∀ i c, gtype i = g → ‖F i c‖ ≤ B) (l : List (Fin 6 × Fin 3)) (a : ℝ) (ha : a ≤ B)
    [∀ p : Fin 6 × Fin 3, ∀ a : ℝ, Decidable (gtype p.1 = g ∧ ‖F p.1 p.2‖ > a)] :
    l.foldl (fun a p => if gtype p.1 = g ∧ ‖F p.1 p.2‖ > a then ‖F p.1 p.2‖ else a) a ≤ B := by
  induction l generalizing a with
  | nil => exact ha
  | cons p l ih =>
    rw [List.foldl_cons]
    apply ih
    split
    · rename_i h
      exact hB _ _ h.1
    · exact ha

theorem getMax_le (F : Chnl) (m : Fin 2 → ℝ) (g : Fin 2) (B : ℝ) (hm : m g ≤ B) (hB : ∀ i c, gtype i = g → ‖F i c‖ ≤ B) : getMax F m g ≤ B := by
  unfold getMax
  exact foldl_max_le F g B hB _ _ hm

theorem Itv.left_k (it : Itv) (Q : Chnl × Chnl) : (it.left Q).k3 0 = it.k3 0 ∧ (it.left Q).k3 1 = (it.k3 0 + it.k3 1) * (1 / 2) ∧
    (it.left Q).k3 2 = it.k3 1 := ⟨rfl, rfl, rfl⟩
theorem Itv.right_k (it : Itv) (Q : Chnl × Chnl) : (it.right Q).k3 0 = it.k3 1 ∧ (it.right Q).k3 1 = (it.k3 1 + it.k3 2) * (1 / 2) ∧
    (it.right Q).k3 2 = it.k3 2 := ⟨rfl, rfl, rfl⟩

theorem Safim.left_sound {it : Itv} (h : D.Sound it) {Q : Chnl × Chnl} (hQ : D.sample ((it.k3 0 + it.k3 1) * (1 / 2)) = some Q) :
    D.Sound (it.left Q) := by
  refine ⟨?_, fun d => ?_⟩
  · obtain ⟨a, b, c⟩ := it.left_k Q
    rw [a, b, c]
    ring
  · fin_cases d
    · exact h.2 0
    · exact hQ
    · exact h.2 1

theorem Safim.right_sound {it : Itv} (h : D.Sound it) {Q : Chnl × Chnl} (hQ : D.sample ((it.k3 1 + it.k3 2) * (1 / 2)) = some Q) :
    D.Sound (it.right Q) := by
  refine ⟨?_, fun d => ?_⟩
  · obtain ⟨a, b, c⟩ := it.right_k Q
    rw [a, b, c]
    ring
  · fin_cases d
    · exact h.2 1
    · exact hQ
    · exact h.2 2

theorem Safim.newMax_bounded {L R : Itv} (uiz : Bool) (hL : D.Sound L) (hR : D.Sound R) (hl : L.k3 0 < L.k3 2) (hr : R.k3 0 < R.k3 2)
    (h1 : D.kmin ≤ L.k3 0) (h2 : L.k3 2 = R.k3 0) (h3 : R.k3 2 ≤ D.kmax) {m : Fin 2 → ℝ}
    (hm : D.Bounded (if uiz then Prod.snd else Prod.fst) m) : D.Bounded (if uiz then Prod.snd else Prod.fst) (newMax L R uiz m) := by
  intro g B hB hk
  have key : ∀ it : Itv, D.Sound it → D.kmin ≤ it.k3 0 → it.k3 0 < it.k3 2 → it.k3 2 ≤ D.kmax → ∀ d i c, gtype i = g → ‖it.smp uiz d i c‖ ≤ B := by
    intro it hs ha hb hc d i c hg
    have hmem : it.k3 d ∈ Icc D.kmin D.kmax := by
      have := hs.1
      fin_cases d <;> constructor <;> simp only [Fin.zero_eta, Fin.mk_one, Fin.reduceFinMk] <;> linarith
    have := hk _ hmem _ (hs.2 d) i c hg
    unfold Itv.smp
    cases uiz <;> simpa using this
  have kL := key L hL h1 hl (by linarith)
  have kR := key R hR (by linarith) hr h3
  unfold newMax
  exact getMax_le _ _ _ _ (getMax_le _ _ _ _ (getMax_le _ _ _ _ (getMax_le _ _ _ _ (getMax_le _ _ _ _ (hm g B hB hk) (kL 0)) (kL 1)) (kR 1))
    (kL 2)) (kR 2)

/-- Invariant of the sampling loop. -/
structure Safim.Inv (st : SafimState nr) : Prop where
  tiles : ∃ a, Tiles st.accepted.reverse D.kmin a ∧ Tiles st.stack a D.kmax
  sound : ∀ it ∈ st.accepted ++ st.stack, D.Sound it
  long : ∀ it ∈ st.accepted ++ st.stack, it.k3 2 - it.k3 0 > 1 / 10 ^ 7 ∨ it.k3 0 = D.kmin ∧ it.k3 2 = D.kmax
  fine : ∀ it ∈ st.accepted, D.Fine it
  bound : D.Bounded Prod.fst st.maxF
  boundz : D.Bounded Prod.snd st.maxFz
  log : st.log.reverse = D.kmin :: st.accepted.reverse.flatMap Itv.quarters
  sums : ∀ ir, ¬ zeroDist (D.rs ir) → ∀ p : Part, p.sums (st.sums ir) = (st.accepted.map fun it => p.sums (D.piece it (D.rs ir))).sum
  cur : st.stack = [] → st.cur.k3 2 = D.kmax

theorem Safim.inv_init (hk : D.kmin < D.kmax) (Q0 Q1 Q2 : Chnl × Chnl) (h0 : D.sample D.kmin = some Q0)
    (h1 : D.sample ((D.kmin + D.kmax) * (1 / 2)) = some Q1) (h2 : D.sample D.kmax = some Q2) : D.Inv (D.init Q0 Q1 Q2) where
  tiles := ⟨D.kmin, rfl, rfl, hk, rfl⟩
  sound := by
    intro it hit
    have : it = ⟨![D.kmin, (D.kmin + D.kmax) * (1 / 2), D.kmax], ![Q0, Q1, Q2]⟩ := by simpa [Safim.init] using hit
    subst this
    refine ⟨by show (D.kmin + D.kmax) * (1 / 2) = (D.kmin + D.kmax) / 2; ring, fun d => ?_⟩
    fin_cases d
    · exact h0
    · exact h1
    · exact h2
  long := by
    intro it hit
    have : it = ⟨![D.kmin, (D.kmin + D.kmax) * (1 / 2), D.kmax], ![Q0, Q1, Q2]⟩ := by simpa [Safim.init] using hit
    subst this
    exact Or.inr ⟨rfl, rfl⟩
  fine := by
    intro it hit
    simp [Safim.init] at hit
  bound := fun g B hB _ => hB
  boundz := fun g B hB _ => hB
  log := rfl
  sums := by
    intro ir _ p
    cases p <;> rfl
  cur := by
    intro h
    simp [Safim.init] at h

theorem Part.sums_add (p : Part) (a b : Sums) : p.sums (Dwm.add a b) = p.sums a + p.sums b := by
  cases p <;> exact add_comm _ _

theorem Tiles.mem {l : List Itv} {a b : ℝ} (h : Tiles l a b) : ∀ it ∈ l, a ≤ it.k3 0 ∧ it.k3 0 < it.k3 2 ∧ it.k3 2 ≤ b := by
  induction l generalizing a with
  | nil => simp
  | cons x l ih =>
    intro it hit
    rcases List.mem_cons.1 hit with e | e
    · subst e
      exact ⟨h.1.ge, h.1 ▸ h.2.1, h.2.2.le⟩
    · obtain ⟨p, q, r⟩ := ih h.2.2 it e
      exact ⟨h.2.1.le.trans p, q, r⟩

/-- The invariant is kept by every turn. -/
theorem Safim.inv_body {it : Itv} {rest : List Itv} {st : SafimState nr} (h : D.Inv st) (hs : st.stack = it :: rest) {QL QR : Chnl × Chnl}
    (hQL : D.sample ((it.k3 0 + it.k3 1) * (1 / 2)) = some QL) (hQR : D.sample ((it.k3 1 + it.k3 2) * (1 / 2)) = some QR) :
    D.Inv (D.body it QL QR rest st) := by
  obtain ⟨a, ta, ts⟩ := h.tiles
  rw [hs] at ts
  obtain ⟨e0, hlt, trest⟩ := ts
  have hmem : it ∈ st.accepted ++ st.stack := by simp [hs]
  have so := h.sound it hmem
  have sL := D.left_sound so hQL
  have sR := D.right_sound so hQR
  have hlt' : it.k3 0 < it.k3 2 := by rw [e0]; exact hlt
  have hL : (it.left QL).k3 0 < (it.left QL).k3 2 := by
    show it.k3 0 < it.k3 1
    rw [so.1]; linarith
  have hR : (it.right QR).k3 0 < (it.right QR).k3 2 := by
    show it.k3 1 < it.k3 2
    rw [so.1]; linarith
  have g1 : D.kmin ≤ (it.left QL).k3 0 := by
    show D.kmin ≤ it.k3 0
    rw [e0]; exact ta.le
  have g3 : (it.right QR).k3 2 ≤ D.kmax := trest.le
  have bF : D.Bounded Prod.fst (newMax (it.left QL) (it.right QR) false st.maxF) := by
    simpa using D.newMax_bounded false sL sR hL hR g1 rfl g3 (by simpa using h.bound)
  have bFz : D.Bounded Prod.snd (if D.upar then newMax (it.left QL) (it.right QR) true st.maxFz else st.maxFz) := by
    split
    · simpa using D.newMax_bounded true sL sR hL hR g1 rfl g3 (by simpa using h.boundz)
    · exact h.boundz
  have sub : ∀ x ∈ st.accepted ++ rest, x ∈ st.accepted ++ st.stack := by
    intro x hx
    rw [hs]
    rcases List.mem_append.1 hx with hx | hx
    · simp [hx]
    · simp [hx]
  unfold Safim.body
  simp only
  generalize (if D.upar = true then newMax (it.left QL) (it.right QR) true st.maxFz else st.maxFz) = mz at bFz ⊢
  split
  · rename_i hc
    refine ⟨⟨a, ta, ?_⟩, ?_, ?_, h.fine, bF, bFz, h.log, h.sums, fun he => by simp at he⟩
    · exact ⟨e0, e0 ▸ hL, rfl, hR, trest⟩
    · intro x hx
      rcases List.mem_append.1 hx with hx | hx
      · exact h.sound x (by simp [hx])
      · rcases List.mem_cons.1 hx with rfl | hx
        · exact sL
        · rcases List.mem_cons.1 hx with rfl | hx
          · exact sR
          · exact h.sound x (sub x (by simp [hx]))
    · intro x hx
      rcases List.mem_append.1 hx with hx | hx
      · exact h.long x (by simp [hx])
      · rcases List.mem_cons.1 hx with rfl | hx
        · exact Or.inl hc.2
        · rcases List.mem_cons.1 hx with rfl | hx
          · left
            have := hc.2
            have h1 : (it.right QR).k3 2 - (it.right QR).k3 0 = it.k3 2 - it.k3 1 := rfl
            have h2 : (it.left QL).k3 2 - (it.left QL).k3 0 = it.k3 1 - it.k3 0 := rfl
            rw [h1]
            rw [h2] at this
            have := so.1
            linarith
          · exact h.long x (sub x (by simp [hx]))
  · rename_i hc
    have hin : ∀ x ∈ it :: st.accepted ++ rest, x ∈ st.accepted ++ st.stack := by
      intro x hx
      rcases List.mem_cons.1 hx with rfl | hx
      · exact hmem
      · exact sub x hx
    refine ⟨⟨it.k3 2, ?_, trest⟩, fun x hx => h.sound x (hin x hx), fun x hx => h.long x (hin x hx), ?_, bF, bFz, ?_, ?_, ?_⟩
    · rw [List.reverse_cons]
      exact ta.append ⟨e0, hlt, rfl⟩
    · intro x hx
      rcases List.mem_cons.1 hx with rfl | hx
      · by_cases hg : checkFit x (x.left QL) (x.right QR) D.kref false (newMax (x.left QL) (x.right QR) false st.maxF) D.tol ∧
            (D.upar = true → checkFit x (x.left QL) (x.right QR) D.kref true
              mz D.tol)
        · exact Or.inr ⟨x.left QL, x.right QR, sL, sR, rfl, rfl, rfl, rfl, _, _, bF, bFz, hg.1, hg.2⟩
        · left
          have h2 : (x.left QL).k3 2 - (x.left QL).k3 0 = x.k3 1 - x.k3 0 := rfl
          have : ¬ (x.k3 1 - x.k3 0 > 1 / 10 ^ 7) := fun hl => hc ⟨hg, h2 ▸ hl⟩
          have h1 := so.1
          linarith
      · exact h.fine x hx
    · have e : ∀ x y z w : ℝ, (x :: y :: z :: w :: st.log).reverse = st.log.reverse ++ [w, z, y, x] := by simp
      rw [e, h.log]
      simp only [List.reverse_cons, List.flatMap_append, List.flatMap_cons, List.flatMap_nil, List.append_nil, List.cons_append]
      congr 2
      show [(it.k3 0 + it.k3 1) * (1 / 2), it.k3 1, (it.k3 1 + it.k3 2) * (1 / 2), it.k3 2] = it.quarters
      unfold Itv.quarters
      rw [so.1]
      simp only [List.cons.injEq, and_true]
      refine ⟨by ring, by ring, by ring⟩
    · intro ir hz p
      show p.sums (D.integ it st.sums ir) = _
      unfold Safim.integ
      rw [if_neg hz, p.sums_add, h.sums ir hz p, List.map_cons, List.sum_cons]
    · intro hr
      simp only at hr
      rw [hr] at trest
      exact trest

theorem Safim.loop_spec (s : Fin nr → Sums) (n : ℕ) (st : SafimState nr) (h : D.Inv st) (o : SafimOut nr) (ho : D.loop s n st = some o) :
    (o.failed = true → o.sums = s ∧ ∃ k ∈ Icc D.kmin D.kmax, D.ker k = none) ∧
    (o.failed = false → ∃ st', D.Inv st' ∧ st'.stack = [] ∧ o = ⟨st'.cur.k3 2, D.finish s st'.sums, st'.accepted, st'.log, false⟩) := by
  induction n generalizing st with
  | zero => simp [Safim.loop] at ho
  | succ n ih =>
    unfold Safim.loop at ho
    match hst : st.stack with
    | [] =>
      have : D.turn st = .done := by unfold Safim.turn; rw [hst]
      rw [this] at ho
      simp only [Option.some.injEq] at ho
      subst ho
      exact ⟨fun hf => by simp at hf, fun _ => ⟨st, h, hst, rfl⟩⟩
    | it :: rest =>
      obtain ⟨a, ta, ts⟩ := h.tiles
      rw [hst] at ts
      obtain ⟨e0, hlt, trest⟩ := ts
      have so := h.sound it (by simp [hst])
      have h1 := ta.le
      have h2 := trest.le
      have none_ker : ∀ k, D.sample k = none → D.ker k = none := by
        intro k hk
        unfold Safim.sample at hk
        simpa using hk
      cases hQL : D.sample ((it.k3 0 + it.k3 1) * (1 / 2)) with
      | none =>
        have : D.turn st = .fail it := by unfold Safim.turn; rw [hst]; simp only [hQL]
        rw [this] at ho
        simp only [Option.some.injEq] at ho
        subst ho
        refine ⟨fun _ => ⟨rfl, _, ⟨?_, ?_⟩, none_ker _ hQL⟩, fun hf => by simp at hf⟩ <;> rw [so.1] <;> linarith
      | some QL =>
        cases hQR : D.sample ((it.k3 1 + it.k3 2) * (1 / 2)) with
        | none =>
          have : D.turn st = .fail it := by unfold Safim.turn; rw [hst]; simp only [hQL, hQR]
          rw [this] at ho
          simp only [Option.some.injEq] at ho
          subst ho
          refine ⟨fun _ => ⟨rfl, _, ⟨?_, ?_⟩, none_ker _ hQR⟩, fun hf => by simp at hf⟩ <;> rw [so.1] <;> linarith
        | some QR =>
          have : D.turn st = .next (D.body it QL QR rest st) := by unfold Safim.turn; rw [hst]; simp only [hQL, hQR]
          rw [this] at ho
          exact ih _ (D.inv_body h hst hQL hQR) ho

/-! ### Termination -/

/-- Turns an interval may need. -/
noncomputable def Itv.cost (it : Itv) : ℝ := max 1 (2 * 10 ^ 7 * (it.k3 2 - it.k3 0) - 1)

theorem Safim.loop_ends (s : Fin nr → Sums) (n : ℕ) (st : SafimState nr) (h : D.Inv st) (hn : (st.stack.map Itv.cost).sum + 1 ≤ n) :
    (D.loop s n st).isSome := by
  induction n generalizing st with
  | zero =>
    have : 0 ≤ (st.stack.map Itv.cost).sum := List.sum_nonneg fun x hx => by
      obtain ⟨it, -, rfl⟩ := List.mem_map.1 hx
      exact zero_le_one.trans (le_max_left _ _)
    simp at hn
    linarith
  | succ n ih =>
    unfold Safim.loop
    match hst : st.stack with
    | [] =>
      have : D.turn st = .done := by unfold Safim.turn; rw [hst]
      rw [this]
      rfl
    | it :: rest =>
      have so := h.sound it (by simp [hst])
      cases hQL : D.sample ((it.k3 0 + it.k3 1) * (1 / 2)) with
      | none =>
        have : D.turn st = .fail it := by unfold Safim.turn; rw [hst]; simp only [hQL]
        rw [this]
        rfl
      | some QL =>
        cases hQR : D.sample ((it.k3 1 + it.k3 2) * (1 / 2)) with
        | none =>
          have : D.turn st = .fail it := by unfold Safim.turn; rw [hst]; simp only [hQL, hQR]
          rw [this]
          rfl
        | some QR =>
          have : D.turn st = .next (D.body it QL QR rest st) := by unfold Safim.turn; rw [hst]; simp only [hQL, hQR]
          rw [this]
          refine ih _ (D.inv_body h hst hQL hQR) ?_
          have key : ((D.body it QL QR rest st).stack.map Itv.cost).sum + 1 ≤ (st.stack.map Itv.cost).sum := by
            rw [hst]
            unfold Safim.body
            simp only
            generalize (if D.upar = true then newMax (it.left QL) (it.right QR) true st.maxFz else st.maxFz) = mz
            split
            · rename_i hc
              have hl := hc.2
              have e1 : (it.left QL).k3 2 - (it.left QL).k3 0 = it.k3 1 - it.k3 0 := rfl
              have e2 : (it.right QR).k3 2 - (it.right QR).k3 0 = it.k3 2 - it.k3 1 := rfl
              rw [e1] at hl
              have h1 := so.1
              simp only [List.map_cons, List.sum_cons, Itv.cost, e1, e2]
              rw [max_eq_right (by linarith), max_eq_right (by linarith), max_eq_right (by linarith)]
              linarith
            · simp only [List.map_cons, List.sum_cons]
              have : 1 ≤ it.cost := le_max_left _ _
              linarith
          push_cast at hn
          linarith

/-- C41: the sampling ends, within a number of turns that depends on the length of the range only. -/
theorem C41_terminates (s : Fin nr → Sums) (n : ℕ) (hn : 2 * 10 ^ 7 * (D.kmax - D.kmin) + 2 ≤ n) : (D.run s n).isSome := by
  unfold Safim.run
  split
  · rfl
  · rename_i hk
    push Not at hk
    cases h0 : D.sample D.kmin with
    | none => rfl
    | some Q0 =>
      cases h1 : D.sample ((D.kmin + D.kmax) * (1 / 2)) with
      | none => rfl
      | some Q1 =>
        cases h2 : D.sample D.kmax with
        | none => rfl
        | some Q2 =>
          refine D.loop_ends s n _ (D.inv_init hk Q0 Q1 Q2 h0 h1 h2) ?_
          show max 1 (2 * 10 ^ 7 * (D.kmax - D.kmin) - 1) + 0 + 1 ≤ (n : ℝ)
          have : max 1 (2 * 10 ^ 7 * (D.kmax - D.kmin) - 1) ≤ 2 * 10 ^ 7 * (D.kmax - D.kmin) + 1 := max_le (by linarith) (by linarith)
          linarith

theorem Safim.run_spec (s : Fin nr → Sums) (n : ℕ) (o : SafimOut nr) (ho : D.run s n = some o) (hk : D.kmin < D.kmax) :
    (o.failed = true → o.sums = s ∧ ∃ k ∈ Icc D.kmin D.kmax, D.ker k = none) ∧
    (o.failed = false → ∃ st', D.Inv st' ∧ st'.stack = [] ∧ o = ⟨st'.cur.k3 2, D.finish s st'.sums, st'.accepted, st'.log, false⟩) := by
  have none_ker : ∀ k, D.sample k = none → D.ker k = none := by
    intro k hk
    unfold Safim.sample at hk
    simpa using hk
  unfold Safim.run at ho
  rw [if_neg (not_le.2 hk)] at ho
  cases h0 : D.sample D.kmin with
  | none =>
    simp only [h0, Option.some.injEq] at ho
    subst ho
    exact ⟨fun _ => ⟨rfl, _, ⟨le_rfl, hk.le⟩, none_ker _ h0⟩, fun hf => by simp at hf⟩
  | some Q0 =>
    cases h1 : D.sample ((D.kmin + D.kmax) * (1 / 2)) with
    | none =>
      simp only [h0, h1, Option.some.injEq] at ho
      subst ho
      exact ⟨fun _ => ⟨rfl, _, ⟨by linarith, by linarith⟩, none_ker _ h1⟩, fun hf => by simp at hf⟩
    | some Q1 =>
      cases h2 : D.sample D.kmax with
      | none =>
        simp only [h0, h1, h2, Option.some.injEq] at ho
        subst ho
        exact ⟨fun _ => ⟨rfl, _, ⟨hk.le, le_rfl⟩, none_ker _ h2⟩, fun hf => by simp at hf⟩
      | some Q2 =>
        simp only [h0, h1, h2] at ho
        exact D.loop_spec s n _ (D.inv_init hk Q0 Q1 Q2 h0 h1 h2) o ho

theorem quarters_sorted (it : Itv) (h : it.k3 0 < it.k3 2) :
    (it.quarters).Pairwise (· < ·) ∧ ∀ x ∈ it.quarters, it.k3 0 < x ∧ x ≤ it.k3 2 := by
  unfold Itv.quarters
  constructor
  · simp only [List.pairwise_cons, List.mem_cons, List.not_mem_nil, or_false, forall_eq_or_imp, forall_eq]
    refine ⟨⟨by linarith, by linarith, by linarith⟩, ⟨by linarith, by linarith⟩, by linarith, by simp, List.Pairwise.nil⟩
  · simp only [List.mem_cons, List.not_mem_nil, or_false, forall_eq_or_imp, forall_eq]
    refine ⟨⟨?_, ?_⟩, ⟨?_, ?_⟩, ⟨?_, ?_⟩, ?_, ?_⟩ <;> linarith

theorem tiles_sorted {l : List Itv} {a b : ℝ} (h : Tiles l a b) :
    (a :: l.flatMap Itv.quarters).Pairwise (· < ·) ∧ ∀ x ∈ l.flatMap Itv.quarters, x ≤ b := by
  induction l generalizing a with
  | nil => simp
  | cons it l ih =>
    obtain ⟨e0, hlt, ht⟩ := h
    obtain ⟨s1, s2⟩ := quarters_sorted it (e0 ▸ hlt)
    obtain ⟨t1, t2⟩ := ih ht
    rw [List.pairwise_cons] at t1
    rw [List.flatMap_cons]
    refine ⟨List.pairwise_cons.2 ⟨?_, List.pairwise_append.2 ⟨s1, t1.2, ?_⟩⟩, ?_⟩
    · intro x hx
      rcases List.mem_append.1 hx with hx | hx
      · exact e0 ▸ (s2 x hx).1
      · exact hlt.trans (t1.1 x hx)
    · intro x hx y hy
      exact (s2 x hx).2.trans_lt (t1.1 y hy)
    · intro x hx
      rcases List.mem_append.1 hx with hx | hx
      · exact (s2 x hx).2.trans ht.le
      · exact t2 x hx

/-- C41: unless the kernel fails, the intervals that are integrated follow each other from `k0 + dk0` to `kmax` without gap or
overlap. Each has its third sample in the middle and carries the kernel at its samples; each is longer than the smallest step unless it
is the whole range; and each has passed the tests or is not longer than twice the smallest step. The wavenumbers in the log
increase, and `kmax` is returned. -/
theorem C41_partition (s : Fin nr → Sums) (n : ℕ) (o : SafimOut nr) (ho : D.run s n = some o) (hk : D.k0 + D.dk0 < D.kmax)
    (hf : o.failed = false) :
    Tiles o.accepted.reverse (D.k0 + D.dk0) D.kmax ∧
    (∀ it ∈ o.accepted, D.Sound it ∧ D.Fine it ∧
      (it.k3 2 - it.k3 0 > 1 / 10 ^ 7 ∨ it.k3 0 = D.k0 + D.dk0 ∧ it.k3 2 = D.kmax)) ∧
    o.log.reverse = (D.k0 + D.dk0) :: o.accepted.reverse.flatMap Itv.quarters ∧ o.log.reverse.Pairwise (· < ·) ∧ o.k = D.kmax := by
  obtain ⟨st, h, he, rfl⟩ := (D.run_spec s n o ho hk).2 hf
  obtain ⟨a, ta, ts⟩ := h.tiles
  rw [he] at ts
  rw [show a = D.kmax from ts] at ta
  refine ⟨ta, fun it hit => ⟨h.sound it (by simp [hit]), h.fine it hit, h.long it (by simp [hit])⟩, h.log, ?_, h.cur he⟩
  simp only
  rw [h.log]
  exact (tiles_sorted ta).1

/-- C41: if the kernel fails, it does so in the range, and the sums are left as they were. -/
theorem C41_failure (s : Fin nr → Sums) (n : ℕ) (o : SafimOut nr) (ho : D.run s n = some o) (hk : D.k0 + D.dk0 < D.kmax)
    (hf : o.failed = true) : o.sums = s ∧ ∃ k, D.k0 + D.dk0 ≤ k ∧ k ≤ D.kmax ∧ D.ker k = none := by
  obtain ⟨h, k, hk, hn⟩ := (D.run_spec s n o ho hk).1 hf
  exact ⟨h, k, hk.1, hk.2, hn⟩

theorem used_intPkSa (k3 : Fin 3 → ℝ) (r : ℝ) (Q3 : Fin 3 → Chnl) (uir : Bool) : used (intPkSa k3 r Q3 uir 0) = intPkSa k3 r Q3 uir 0 := by
  funext i v
  unfold used
  split
  · rename_i h
    obtain ⟨ho, h0, h2⟩ := h
    unfold intPkSa
    rw [ho]
    fin_cases v
    · exact absurd rfl h0
    · rfl
    · exact absurd rfl h2
    · rfl
  · rfl

theorem Safim.part_piece (p : Part) (hp : p = .u ∨ D.upar = true) (it : Itv) (r : ℝ) :
    p.sums (D.piece it r) = intPkSa it.k3 r (fun d => p.ker (it.F3 d)) p.uir 0 := by
  unfold Safim.piece
  simp only [used_intPkSa]
  rcases p with _ | _ | _
  · rfl
  · simp only [reduceCtorEq, false_or] at hp
    simp only [Part.sums, hp, if_true]
    rfl
  · simp only [reduceCtorEq, false_or] at hp
    simp only [Part.sums, hp, if_true]
    rfl

/-- C40 for the adaptive rule: unless the kernel fails, what is added for a distance that is not zero, for each result, source and
integral, is the integral from `k0 + dk0` to `kmax` of the far-field form, or its derivative with respect to distance, times a
function that is quadratic on each of the intervals of `C41_partition` and takes the values of the amplitude at their samples. -/
theorem C40_adaptive (s : Fin nr → Sums) (n : ℕ) (o : SafimOut nr) (ho : D.run s n = some o) (hk : D.k0 + D.dk0 < D.kmax) (hd0 : 0 < D.dk0)
    (hf : o.failed = false) (ir : Fin nr) (hr : ¬ zeroDist (D.rs ir)) (p : Part) (hp : p = .u ∨ D.upar = true) (i : Fin 6) (v : Fin 4)
    (L : ℝ → ℂ) (hq : ∀ it ∈ o.accepted, QuadOn L (it.k3 0) (it.k3 2))
    (hL : ∀ it ∈ o.accepted, ∀ d, L (it.k3 d) = amp i v (it.k3 d) (p.ker (it.F3 d))) :
    D.dk0 * (p.sums (o.sums ir) i v - p.sums (s ir) i v) = (√(2 / (π * D.rs ir)) : ℝ) *
      ∫ k in (D.k0 + D.dk0)..D.kmax, L k * (farD (ford i v) p.uir k (D.rs ir) : ℝ) := by
  obtain ⟨st, h, he, rfl⟩ := (D.run_spec s n o ho hk).2 hf
  obtain ⟨a, ta, ts⟩ := h.tiles
  rw [he] at ts
  rw [show a = D.kmax from ts] at ta
  simp only at hq hL ⊢
  have hr0 : D.rs ir ≠ 0 := (lt_trans (by norm_num) (not_le.1 hr)).ne'
  have hd : (D.dk0 : ℂ) ≠ 0 := by exact_mod_cast hd0.ne'
  set g : ℝ → ℂ := fun k => L k * (farD (ford i v) p.uir k (D.rs ir) : ℝ) with hg
  have hcont : Continuous fun k : ℝ => ((farD (ford i v) p.uir k (D.rs ir) : ℝ) : ℂ) := by
    simp only [farD_eq]
    refine Complex.continuous_ofReal.comp ?_
    unfold far
    split <;> fun_prop
  have piece : ∀ it, it ∈ st.accepted → IntervalIntegrable g volume (it.k3 0) (it.k3 2) ∧
      p.sums (D.piece it (D.rs ir)) i v = ∫ k in (it.k3 0)..(it.k3 2), g k := by
    intro it hit
    have so := h.sound it (by simp [hit])
    have hlt := (ta.mem it (by simpa using hit)).2.1
    refine ⟨?_, ?_⟩
    · obtain ⟨x, y, z, hxyz⟩ := hq it hit
      have : IntervalIntegrable (fun k : ℝ => (x * (k : ℂ) ^ 2 + y * k + z) * ((farD (ford i v) p.uir k (D.rs ir) : ℝ) : ℂ)) volume
          (it.k3 0) (it.k3 2) := by
        apply Continuous.intervalIntegrable
        fun_prop
      refine this.congr fun k hk => ?_
      rw [uIoc_of_le hlt.le] at hk
      simp only [hg, hxyz k ⟨hk.1.le, hk.2⟩]
    · rw [D.part_piece p hp]
      exact C40_three_point it.k3 (by rw [so.1]; linarith) (by rw [so.1]; linarith) (D.rs ir) hr0 _ p.uir i v L (hq it hit) (hL it hit)
  have total : ∀ (l : List Itv) (x y : ℝ), Tiles l x y → (∀ it ∈ l, it ∈ st.accepted) →
      IntervalIntegrable g volume x y ∧ ((l.map fun it => p.sums (D.piece it (D.rs ir))).sum) i v = ∫ k in x..y, g k := by
    intro l
    induction l with
    | nil =>
      intro x y hxy _
      rw [show x = y from hxy]
      simp
    | cons it l ih =>
      intro x y hxy hm
      obtain ⟨e0, hlt, ht⟩ := hxy
      obtain ⟨p1, p2⟩ := piece it (hm it (by simp))
      obtain ⟨q1, q2⟩ := ih _ _ ht (fun x hx => hm x (by simp [hx]))
      rw [e0] at p1 p2
      refine ⟨p1.trans q1, ?_⟩
      rw [List.map_cons, List.sum_cons, ← intervalIntegral.integral_add_adjacent_intervals p1 q1, ← p2, ← q2]
      rfl
  have tot := (total st.accepted.reverse _ _ ta (by simp)).2
  have hsum : p.sums (st.sums ir) i v = ∫ k in (D.k0 + D.dk0)..D.kmax, g k := by
    rw [h.sums ir hr p]
    rw [List.map_reverse, List.sum_reverse] at tot
    exact tot
  have hfin : p.sums (D.finish s st.sums ir) i v = p.sums (s ir) i v + p.sums (st.sums ir) i v * ((√(2 / (π * D.rs ir)) / D.dk0 : ℝ) : ℂ) := by
    unfold Safim.finish
    simp only [if_neg hr]
    rcases p with _ | _ | _
    · rfl
    · simp only [reduceCtorEq, false_or] at hp
      simp only [Part.sums, hp, if_true]
      rfl
    · simp only [reduceCtorEq, false_or] at hp
      simp only [Part.sums, hp, if_true]
      rfl
  rw [hfin, hsum]
  push_cast
  field_simp
  ring

/-- C41: the rules used in the tests are the integrals of the quadratic through the three samples of `sqrt(k) F`, over the interval
(`whole`), its halves (`first`, `second`) and the intervals of the same length before and after it. -/
theorem C41_simpson (it : Itv) (hm : it.k3 1 = (it.k3 0 + it.k3 2) / 2) (i : Fin 6) (c : Fin 3) (uiz : Bool)
    (x y z : ℂ) (hL : ∀ d, it.smp uiz d i c * (√(it.k3 d) : ℝ) = x * (it.k3 d) ^ 2 + y * it.k3 d + z) (st : Simp) :
    simpson it i c uiz st = ∫ k in
      (match st with
        | .before => 2 * it.k3 0 - it.k3 2 | .whole => it.k3 0 | .after => it.k3 2 | .first => it.k3 0 | .second => it.k3 1)..
      (match st with
        | .before => it.k3 0 | .whole => it.k3 2 | .after => 2 * it.k3 2 - it.k3 0 | .first => it.k3 1 | .second => it.k3 2),
      (x * (k : ℂ) ^ 2 + y * k + z) := by
  have hq : ∀ a b : ℝ, ∫ k in a..b, (x * (k : ℂ) ^ 2 + y * k + z) = quadIntegral a b (x, y, z) := fun a b => by
    rw [C40_quad_integral]
    refine intervalIntegral.integral_congr fun k _ => ?_
    simp only [quadEval]
    ring
  rw [hq]
  unfold simpson quadIntegral
  simp only [hL]
  simp only [hm]
  cases st <;> push_cast <;> ring

theorem not_exceeds {dif ref tol : ℝ} (h0 : 0 ≤ dif) (hr : 0 ≤ ref) (h : ¬ exceeds dif ref tol) : dif ≤ tol * ref := by
  unfold exceeds at h
  split at h
  · rename_i e
    rw [e, mul_zero]
    exact not_lt.1 h
  · rename_i e
    push Not at h
    rwa [div_le_iff₀ (lt_of_le_of_ne hr (Ne.symm e))] at h

/-- C41: what the test of an interval means for a channel that is not negligible: `P` is the parabola through the three samples of
`√k` times the channel on the interval, `PL` and `PR` are those on its halves; the integrals of `P` and `PL` over the left half, of
`P` and `PR` over the right half, and of `P` and the two over the whole differ by at most the tolerance times their sum. -/
theorem C41_fit (it L R : Itv) (hi : it.k3 1 = (it.k3 0 + it.k3 2) / 2) (hl : L.k3 1 = (L.k3 0 + L.k3 2) / 2)
    (hr : R.k3 1 = (R.k3 0 + R.k3 2) / 2) (i : Fin 6) (c : Fin 3) (uiz : Bool) (P PL PR : ℂ × ℂ × ℂ)
    (hP : ∀ d, it.smp uiz d i c * (√(it.k3 d) : ℝ) = P.1 * (it.k3 d) ^ 2 + P.2.1 * it.k3 d + P.2.2)
    (hPL : ∀ d, L.smp uiz d i c * (√(L.k3 d) : ℝ) = PL.1 * (L.k3 d) ^ 2 + PL.2.1 * L.k3 d + PL.2.2)
    (hPR : ∀ d, R.smp uiz d i c * (√(R.k3 d) : ℝ) = PR.1 * (R.k3 d) ^ 2 + PR.2.1 * R.k3 d + PR.2.2)
    (maxabs : Fin 2 → ℝ) (tol : ℝ) (hbig : ∃ d, 1 / 10 ^ 6 * maxabs (gtype i) ≤ ‖L.smp uiz d i c‖) (h : fitOne it L R uiz maxabs tol i c) :
    let I := fun (Q : ℂ × ℂ × ℂ) (a b : ℝ) => ∫ k in a..b, (Q.1 * (k : ℂ) ^ 2 + Q.2.1 * k + Q.2.2)
    ‖I P (it.k3 0) (it.k3 1) - I PL (L.k3 0) (L.k3 2)‖ ≤ tol * ‖I P (it.k3 0) (it.k3 1) + I PL (L.k3 0) (L.k3 2)‖ ∧
    ‖I P (it.k3 1) (it.k3 2) - I PR (R.k3 0) (R.k3 2)‖ ≤ tol * ‖I P (it.k3 1) (it.k3 2) + I PR (R.k3 0) (R.k3 2)‖ ∧
    ‖I P (it.k3 0) (it.k3 1) + I P (it.k3 1) (it.k3 2) - I PL (L.k3 0) (L.k3 2) - I PR (R.k3 0) (R.k3 2)‖ ≤
      tol * ‖I P (it.k3 0) (it.k3 1) + I P (it.k3 1) (it.k3 2) + I PL (L.k3 0) (L.k3 2) + I PR (R.k3 0) (R.k3 2)‖ := by
  intro I
  have e1 := C41_simpson it hi i c uiz _ _ _ hP .first
  have e2 := C41_simpson it hi i c uiz _ _ _ hP .second
  have e3 := C41_simpson L hl i c uiz _ _ _ hPL .whole
  have e4 := C41_simpson R hr i c uiz _ _ _ hPR .whole
  unfold fitOne at h
  simp only at h e1 e2 e3 e4
  rw [e1, e2, e3, e4, if_neg, if_neg, if_neg] at h
  · exact ⟨not_exceeds (norm_nonneg _) (norm_nonneg _) h.2.1, not_exceeds (norm_nonneg _) (norm_nonneg _) h.2.2,
      not_exceeds (norm_nonneg _) (norm_nonneg _) h.1⟩
  all_goals
    obtain ⟨d, hd⟩ := hbig
    exact fun hc => absurd (hc.1 d) (not_lt.2 hd)

/-- A case: `√k` times the channel is `k²` on the interval from 1 to 3; the halves carry the same parabola, so the test passes. -/
example : ∃ it L R : Itv, (∀ d, it.smp false d 0 0 * (√(it.k3 d) : ℝ) = 1 * (it.k3 d) ^ 2 + 0 * it.k3 d + 0) ∧
    (∀ d, L.smp false d 0 0 * (√(L.k3 d) : ℝ) = 1 * (L.k3 d) ^ 2 + 0 * L.k3 d + 0) ∧
    (∀ d, R.smp false d 0 0 * (√(R.k3 d) : ℝ) = 1 * (R.k3 d) ^ 2 + 0 * R.k3 d + 0) ∧
    L = ⟨![it.k3 0, 3 / 2, it.k3 1], L.F3⟩ ∧ R = ⟨![it.k3 1, 5 / 2, it.k3 2], R.F3⟩ ∧ fitOne it L R false (fun _ => 1) (1 / 100) 0 0 := by
  have hs : ∀ x : ℝ, 0 < x → (((x ^ 2 / √x : ℝ) : ℂ)) * ((√x : ℝ) : ℂ) = 1 * (x : ℂ) ^ 2 + 0 * x + 0 := by
    intro x hx
    have : √x ≠ 0 := (Real.sqrt_pos.2 hx).ne'
    rw [← Complex.ofReal_mul, div_mul_cancel₀ _ this]
    push_cast; ring
  let F : (Fin 3 → ℝ) → Itv := fun k3 => ⟨k3, fun d => (fun _ _ => ((k3 d ^ 2 / √(k3 d) : ℝ) : ℂ), fun _ _ => 0)⟩
  have hF : ∀ k3, (∀ d, 0 < k3 d) → ∀ d, (F k3).smp false d 0 0 * (√((F k3).k3 d) : ℝ) = 1 * ((F k3).k3 d : ℂ) ^ 2 + 0 * (F k3).k3 d + 0 :=
    fun k3 h d => hs _ (h d)
  have p1 : ∀ d, 0 < (![1, 2, 3] : Fin 3 → ℝ) d := fun d => by fin_cases d <;> norm_num
  have p2 : ∀ d, 0 < (![1, 3 / 2, 2] : Fin 3 → ℝ) d := fun d => by fin_cases d <;> norm_num
  have p3 : ∀ d, 0 < (![2, 5 / 2, 3] : Fin 3 → ℝ) d := fun d => by fin_cases d <;> norm_num
  refine ⟨F ![1, 2, 3], F ![1, 3 / 2, 2], F ![2, 5 / 2, 3], hF _ p1, hF _ p2, hF _ p3, rfl, rfl, ?_⟩
  have e1 := C41_simpson (F ![1, 2, 3]) (by simp [F]; norm_num) 0 0 false 1 0 0 (hF _ p1) .first
  have e2 := C41_simpson (F ![1, 2, 3]) (by simp [F]; norm_num) 0 0 false 1 0 0 (hF _ p1) .second
  have e3 := C41_simpson (F ![1, 3 / 2, 2]) (by simp [F]; norm_num) 0 0 false 1 0 0 (hF _ p2) .whole
  have e4 := C41_simpson (F ![2, 5 / 2, 3]) (by simp [F]; norm_num) 0 0 false 1 0 0 (hF _ p3) .whole
  have e13 : simpson (F ![1, 2, 3]) 0 0 false .first = simpson (F ![1, 3 / 2, 2]) 0 0 false .whole := by rw [e1, e3]; rfl
  have e24 : simpson (F ![1, 2, 3]) 0 0 false .second = simpson (F ![2, 5 / 2, 3]) 0 0 false .whole := by rw [e2, e4]; rfl
  have hz : ∀ ref : ℝ, 0 ≤ ref → ¬ exceeds 0 ref (1 / 100) := fun ref _ => by
    unfold exceeds
    split
    · exact lt_irrefl _
    · rw [zero_div]; norm_num
  have hk : ∀ it : Itv, 0 ≤ it.k3 0 → it.k3 0 ≤ it.k3 2 → 0 ≤ kcoef it := fun it h0 h => by
    have : it.k3 0 * √(it.k3 0) ≤ it.k3 2 * √(it.k3 2) := mul_le_mul h (Real.sqrt_le_sqrt h) (by positivity) (h0.trans h)
    unfold kcoef
    linarith
  have hnn : ∀ (p : Prop) [Decidable p] (a b : ℝ), 0 ≤ a → 0 ≤ b → 0 ≤ if p then a else b := fun p _ a b ha hb => by split <;> assumption
  unfold fitOne
  simp only
  rw [e13, e24]
  refine ⟨?_, ?_, ?_⟩
  · rw [show ∀ a b : ℂ, a + b - a - b = 0 from fun a b => by ring, norm_zero]
    exact hz _ (hnn _ _ _ (mul_nonneg (by norm_num) (hk _ (by simp [F]) (by simp [F]))) (norm_nonneg _))
  · rw [sub_self, norm_zero]
    exact hz _ (hnn _ _ _ (mul_nonneg (by norm_num) (hk _ (by simp [F]) (by simp [F]))) (norm_nonneg _))
  · rw [sub_self, norm_zero]
    exact hz _ (hnn _ _ _ (mul_nonneg (by norm_num) (hk _ (by simp [F]) (by simp [F]; norm_num))) (norm_nonneg _))

/-- A case of the theorems: two distances, a kernel that falls off, tolerance of one percent. -/
noncomputable def Safim.sampleRun : Safim 2 where
  k0 := 1
  dk0 := 1 / 10
  tol := 1 / 100
  kmax := 30
  kref := 20
  rs := ![50, 80]
  dcm := true
  upar := true
  Qm := fun _ _ => 1 / 900
  Qzm := fun _ _ => 1 / 30
  ker := fun k => some (fun _ _ => 1 / (k ^ 2 + 1), fun _ _ => Complex.I / (k + 1))

example : ∃ n o, Safim.sampleRun.run (fun _ => ⟨0, 0, 0⟩) n = some o ∧ o.failed = false ∧ Tiles o.accepted.reverse (1 + 1 / 10) 30 ∧
    o.log.reverse.Pairwise (· < ·) ∧ o.k = 30 := by
  have hk : Safim.sampleRun.k0 + Safim.sampleRun.dk0 < Safim.sampleRun.kmax := by norm_num [Safim.sampleRun]
  have h := C41_terminates Safim.sampleRun (fun _ => ⟨0, 0, 0⟩) (10 ^ 9) (by norm_num [Safim.sampleRun, Safim.kmin])
  obtain ⟨o, ho⟩ := Option.isSome_iff_exists.1 h
  have hf : o.failed = false := by
    by_contra hc
    obtain ⟨-, k, -, -, hn⟩ := C41_failure Safim.sampleRun _ _ o ho hk (by simpa using hc)
    simp [Safim.sampleRun] at hn
  obtain ⟨a, -, -, b, c⟩ := C41_partition Safim.sampleRun _ _ o ho hk hf
  exact ⟨_, o, ho, hf, a, b, c⟩

/-- A case of `C41_failure`: the kernel fails beyond 20. -/
example : ∃ n o, ({ Safim.sampleRun with ker := fun k => if k < 20 then some (0, 0) else none } : Safim 2).run (fun _ => ⟨0, 0, 0⟩) n = some o ∧
    o.failed = true := by
  refine ⟨1, ⟨30, fun _ => ⟨0, 0, 0⟩, [], [], true⟩, ?_, rfl⟩
  norm_num [Safim.run, Safim.kmin, Safim.sampleRun, Safim.sample]

/-- The interval of `C41_simpson`: amplitude `k` on `[1, 3]`; the second half gives `∫ k dk = 5/2` over `[2, 3]`. -/
example : simpson ⟨![1, 2, 3], fun d => (fun _ _ => ((√((![1, 2, 3] : Fin 3 → ℝ) d) : ℝ) : ℂ), 0)⟩ 0 0 false .second = 5 / 2 := by
  have h : ∀ x : ℝ, 0 ≤ x → ((√x : ℝ) : ℂ) * ((√x : ℝ) : ℂ) = (x : ℂ) := fun x hx => by
    rw [← Complex.ofReal_mul, mul_self_sqrt hx]
  rw [C41_simpson _ (by show (2 : ℝ) = (1 + 3) / 2; norm_num) 0 0 false 0 1 0 (fun d => by
    have hx : (0 : ℝ) ≤ (![1, 2, 3] : Fin 3 → ℝ) d := by fin_cases d <;> norm_num
    simp only [Itv.smp, Bool.false_eq_true, if_false]
    rw [h _ hx]
    ring) .second]
  show ∫ k in (2 : ℝ)..3, (0 * (k : ℂ) ^ 2 + 1 * k + 0) = 5 / 2
  have : ∫ k in (2 : ℝ)..3, (0 * (k : ℂ) ^ 2 + 1 * k + 0) = quadIntegral 2 3 (0, 1, 0) := by
    rw [C40_quad_integral]
    refine intervalIntegral.integral_congr fun k _ => ?_
    simp only [quadEval]
    ring
  rw [this]
  norm_num [quadIntegral]

end GRT.Integ
