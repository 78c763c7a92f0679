import Verif.Integ.Fim
import Mathlib.Data.Nat.Choose.Sum

/-!
Peak-trough averaging, `grt_PTA_method` (pygrt/C_extension/src/integral/ptam.c 32-381), in exact arithmetic. The kernel is a function
of the wavenumber which may fail; writing the log files is left out here.
-/

open Real

namespace GRT.Integ

/-- Conversion of a complex to a real value in an assignment (the imaginary part is dropped), ptam.c 83. -/
noncomputable def vertex (q : ℂ × ℂ × ℂ) : ℝ := (-q.2.1 / (2 * q.1)).re

open Classical in
/-- `_cplx_peak_or_trough`, ptam.c 46-97: position and value, or `none` if it returns 0. -/
noncomputable def peak (f1 f2 f3 : ℂ) (k dk : ℝ) : Option (ℝ × ℂ) :=
  if (f1.re ≤ f2.re ∧ f2.re ≥ f3.re) ∨ (f1.re ≥ f2.re ∧ f2.re ≤ f3.re) then
    let x3 := k
    let x2 := x3 - dk
    let x1 := x2 - dk
    let q := quadTerm ![x1, x2, x3] ![f1, f2, f3]
    if q.1 ≠ 0 ∧ vertex q < x3 ∧ vertex q > x1 then some (vertex q, q.1 * vertex q * vertex q + q.2.1 * vertex q + q.2.2)
    else some (x2, 0 + q.2.2)
  else none

/-- State of one integral: the two previous sums in the window, the sum, the points recorded and the samples counted since the
last (`SUM3`, `sumJ`, `Kpt` and `Fpt`, `Gpt`, ptam.c 150-187). -/
structure Ent where
  w0 : ℂ
  w1 : ℂ
  sum : ℂ
  pts : List (ℝ × ℂ)
  G : ℕ

open Classical in
/-- `process_peak_or_trough`, ptam.c 115-131: points and count after it; `s` is the newest sum. -/
noncomputable def Ent.process (e : Ent) (k dk : ℝ) (waits : ℕ) (s : ℂ) : List (ℝ × ℂ) × ℕ :=
  if e.G ≥ 2 ∧ e.pts.length < 36 then
    match peak e.w0 e.w1 s k dk with
    | some p => (e.pts ++ [p], 0)
    | none => if e.G ≥ waits then (e.pts ++ [(k - dk, e.w1)], 0) else (e.pts, e.G)
  else (e.pts, e.G)

/-- Body of `ptam_once` for one integral, ptam.c 163-177; `x` is the integrand. -/
noncomputable def Ent.once (e : Ent) (k dk : ℝ) (waits : ℕ) (x : ℂ) : Ent :=
  let s := e.sum + x
  { w0 := e.w1, w1 := s, sum := s, pts := (e.process k dk waits s).1, G := (e.process k dk waits s).2 + 1 }

/-- Entries left out, ptam.c 161, 183, 195. -/
def unused (i : Fin 6) (v : Fin 4) : Prop := order i = 0 ∧ v ≠ 0 ∧ v ≠ 2

/-- `ptam_is_complete`, ptam.c 190-199. -/
def complete (g : Fin 6 → Fin 4 → Ent) : Prop := ∀ i v, unused i v ∨ (g i v).pts.length = 36

/-- What `grt_PTA_method` is called with, ptam.c 227-229. -/
structure Ptam (nr : ℕ) where
  k0 : ℝ
  dk : ℝ
  rs : Fin nr → ℝ
  upar : Bool
  /-- Kernel and its vertical derivative; `none` is `GRT_INVERSE_FAILURE`. -/
  ker : ℝ → Option (Chnl × Chnl)

variable {nr : ℕ} (D : Ptam nr)

open Classical in
/-- `rmin`, with `none` for no valid distance, ptam.c 236-243. -/
noncomputable def Ptam.rmin : Option ℝ :=
  (List.finRange nr).foldl (fun a ir => if zeroDist (D.rs ir) then a else
    match a with
    | none => some (D.rs ir)
    | some m => if D.rs ir < m then some (D.rs ir) else some m) none

/-- `waits_max`, ptam.c 289-292. -/
noncomputable def Ptam.waits (ir : Fin nr) : ℕ := max 2 (⌈π / (D.rs ir * D.dk)⌉₊ + 5)

/-- Integrand of one result at distance `r`, ptam.c 317, 325, 333. -/
noncomputable def Part.pk (p : Part) (k r : ℝ) (Q : Chnl × Chnl) : Grid := intPk k r (p.ker Q) p.uir 0

/-- State of the loop: the integrals of each distance and result, and the distances done. -/
structure PtamState (nr : ℕ) where
  ent : Fin nr → Part → Fin 6 → Fin 4 → Ent
  done : Fin nr → Prop

open Classical in
/-- One sample for one result of one distance, ptam.c 315-320, 323-329, 331-337. -/
noncomputable def Ptam.part (ir : Fin nr) (p : Part) (k : ℝ) (Q : Chnl × Chnl) (g : Fin 6 → Fin 4 → Ent) : Fin 6 → Fin 4 → Ent :=
  if complete g then g else fun i v => if unused i v then g i v else (g i v).once k D.dk (D.waits ir) (p.pk k (D.rs ir) Q i v)

open Classical in
/-- Loop over distances, ptam.c 306-344. -/
noncomputable def Ptam.step (k : ℝ) (Q : Chnl × Chnl) (st : PtamState nr) : PtamState nr :=
  let g := fun ir p => if p = Part.u ∨ D.upar = true then D.part ir p k Q (st.ent ir p) else st.ent ir p
  { ent := fun ir => if zeroDist (D.rs ir) ∨ st.done ir then st.ent ir else g ir
    done := fun ir => if zeroDist (D.rs ir) ∨ st.done ir then st.done ir else
      complete (g ir .u) ∧ (D.upar = true → complete (g ir .z) ∧ complete (g ir .r)) }

/-- Loop over wavenumbers, ptam.c 297-345, from wavenumber `k`, with at most `n` turns; `none` if the kernel failed. The flag is
`iendk`. -/
noncomputable def Ptam.loop (kmax : ℝ) : ℕ → Prop → ℝ → PtamState nr → Option (PtamState nr)
  | 0, _, _, st => some st
  | n + 1, iendk, k, st =>
    open Classical in
    if ¬ iendk ∧ k ≤ kmax then
      match D.ker (k + D.dk) with
      | none => none
      | some Q =>
        let st' := D.step (k + D.dk) Q st
        Ptam.loop kmax n (∀ ir, zeroDist (D.rs ir) ∨ st'.done ir) (k + D.dk) st'
    else some st

/-- Inner loop of `_cplx_shrink`, ptam.c 219-221: the array is overwritten from the front. -/
noncomputable def shrinkRow (m : ℕ) (F : ℕ → ℂ) : ℕ → ℂ :=
  (List.range m).foldl (fun F i => Function.update F i (1 / 2 * (F i + F (i + 1)))) F

/-- `_cplx_shrink`, ptam.c 217-223. -/
noncomputable def shrink : ℕ → (ℕ → ℂ) → (ℕ → ℂ)
  | 0, F => F
  | 1, F => F
  | n + 2, F => shrink (n + 1) (shrinkRow (n + 1) F)

/-- Final value of one integral, ptam.c 355-356, 359-363; the array is zero where nothing was recorded. -/
noncomputable def Ent.final (e : Ent) : ℂ := shrink e.pts.length (fun i => ((e.pts[i]?).map Prod.snd).getD 0) 0

/-- Initial state of one integral with sum `s` so far, ptam.c 254-282. -/
def Ent.init (s : ℂ) : Ent := ⟨0, 0, s, [], 0⟩

/-- Turns of the loop that are enough for it to end. -/
noncomputable def Ptam.turns (kmax : ℝ) : ℕ := ⌊(kmax - D.k0) / D.dk⌋₊ + 1

/-- `kmax`, ptam.c 296. -/
noncomputable def Ptam.kmax (rmin : ℝ) : ℝ := D.k0 + (36 + 5) * π / rmin

/-- The loop over wavenumbers from sums `s` with least distance `rmin`. -/
noncomputable def Ptam.endState (s : Fin nr → Sums) (rmin : ℝ) : Option (PtamState nr) :=
  D.loop (D.kmax rmin) (D.turns (D.kmax rmin)) False D.k0 ⟨fun ir p i v => Ent.init (p.sums (s ir) i v), fun _ => False⟩

open Classical in
/-- `grt_PTA_method`, ptam.c 227-381, from sums `s`; `none` if the kernel failed. -/
noncomputable def Ptam.run (s : Fin nr → Sums) : Option (Fin nr → Sums) :=
  match D.rmin with
  | none => some s
  | some rmin =>
    if D.dk ≤ 0 then some s else
    (D.endState s rmin).map fun st ir =>
      if zeroDist (D.rs ir) then s ir else
        { u := fun i v => (st.ent ir .u i v).final
          z := if D.upar then fun i v => (st.ent ir .z i v).final else (s ir).z
          r := if D.upar then fun i v => (st.ent ir .r i v).final else (s ir).r }

/-! ### Specification -/

/-- The parabola through the samples `f1`, `f2`, `f3` at `x - h`, `x`, `x + h` (`para_left`, `para_mid`, `para_right`). -/
noncomputable def para (x h : ℝ) (f1 f2 f3 : ℂ) (t : ℝ) : ℂ :=
  f2 + (f3 - f1) / (2 * h) * (t - x) + (f1 - 2 * f2 + f3) / (2 * h ^ 2) * (t - x) ^ 2

theorem para_left (x h : ℝ) (hh : h ≠ 0) (f1 f2 f3 : ℂ) : para x h f1 f2 f3 (x - h) = f1 := by
  have : (h : ℂ) ≠ 0 := by exact_mod_cast hh
  unfold para
  push_cast
  field_simp
  ring

theorem para_mid (x h : ℝ) (f1 f2 f3 : ℂ) : para x h f1 f2 f3 x = f2 := by simp [para]

theorem para_right (x h : ℝ) (hh : h ≠ 0) (f1 f2 f3 : ℂ) : para x h f1 f2 f3 (x + h) = f3 := by
  have : (h : ℂ) ≠ 0 := by exact_mod_cast hh
  unfold para
  push_cast
  field_simp
  ring

/-- The real parts turn at the middle sample. -/
def Turns (f1 f2 f3 : ℂ) : Prop := (f1.re ≤ f2.re ∧ f3.re ≤ f2.re) ∨ (f2.re ≤ f1.re ∧ f2.re ≤ f3.re)

/-- A point that was recorded as it should: inside the samples, and the middle sample where the samples do not turn, else a point of the
parabola at which its real part is greatest or least. -/
def Good (x h : ℝ) (f1 f2 f3 : ℂ) (p : ℝ × ℂ) : Prop :=
  x - h < p.1 ∧ p.1 < x + h ∧
  (¬ Turns f1 f2 f3 → p = (x, f2)) ∧
  (Turns f1 f2 f3 → p.2 = para x h f1 f2 f3 p.1 ∧
    ((∀ t, (para x h f1 f2 f3 t).re ≤ p.2.re) ∨ ∀ t, p.2.re ≤ (para x h f1 f2 f3 t).re))

/-- What is recorded in general: the middle sample, a point of the parabola, or the parabola's value at wavenumber zero in place of the
middle sample. -/
def Recorded (x h : ℝ) (f1 f2 f3 : ℂ) (p : ℝ × ℂ) : Prop :=
  x - h < p.1 ∧ p.1 < x + h ∧
  (¬ Turns f1 f2 f3 → p = (x, f2)) ∧
  (Turns f1 f2 f3 → p.2 = para x h f1 f2 f3 p.1 ∨ p = (x, para x h f1 f2 f3 0))

/-- The samples lie on a line that is not parallel to the imaginary axis. -/
def Lined (f1 f2 f3 : ℂ) : Prop := ∃ (c w : ℂ) (t1 t2 t3 : ℝ), w.re ≠ 0 ∧ f1 = c + w * t1 ∧ f2 = c + w * t2 ∧ f3 = c + w * t3

/-- Binomial average of `n + 1` values. -/
noncomputable def binAvg (n : ℕ) (F : ℕ → ℂ) : ℂ := ∑ i ∈ Finset.range (n + 1), (n.choose i : ℂ) / 2 ^ n * F i

/-! ### The average -/

theorem shrinkRow_eq (m : ℕ) (F : ℕ → ℂ) (i : ℕ) : shrinkRow m F i = if i < m then 1 / 2 * (F i + F (i + 1)) else F i := by
  induction m generalizing i with
  | zero => simp [shrinkRow]
  | succ m ih =>
    have h : shrinkRow (m + 1) F = Function.update (shrinkRow m F) m (1 / 2 * (shrinkRow m F m + shrinkRow m F (m + 1))) := by
      unfold shrinkRow
      rw [List.range_succ, List.foldl_append]
      rfl
    rw [h, ih, ih]
    by_cases e : i = m
    · subst e
      simp
    · rw [Function.update_of_ne e, ih]
      by_cases l : i < m
      · rw [if_pos l, if_pos (by omega)]
      · rw [if_neg l, if_neg (by omega)]

/-- The reduction returns the binomial average. -/
theorem C39_average (n : ℕ) (F : ℕ → ℂ) : shrink (n + 1) F 0 = binAvg n F := by
  induction n generalizing F with
  | zero => simp [shrink, binAvg]
  | succ n ih =>
    rw [shrink, ih]
    have h1 : binAvg n (shrinkRow (n + 1) F) = ∑ i ∈ Finset.range (n + 1), (n.choose i : ℂ) / 2 ^ (n + 1) * (F i + F (i + 1)) :=
      Finset.sum_congr rfl fun i hi => by
        rw [shrinkRow_eq, if_pos (Finset.mem_range.1 hi), pow_succ]
        ring
    rw [h1]
    unfold binAvg
    rw [Finset.sum_range_succ' (fun i => ((n + 1).choose i : ℂ) / 2 ^ (n + 1) * F i)]
    simp only [Nat.choose_succ_succ, mul_add, Finset.sum_add_distrib, Nat.cast_add, add_div, add_mul]
    have h2 : ∑ i ∈ Finset.range (n + 1), (n.choose i : ℂ) / 2 ^ (n + 1) * F i
        = ∑ i ∈ Finset.range (n + 1), (n.choose (i + 1) : ℂ) / 2 ^ (n + 1) * F (i + 1) + (n.choose 0 : ℂ) / 2 ^ (n + 1) * F 0 := by
      rw [← Finset.sum_range_succ' (fun i => (n.choose i : ℂ) / 2 ^ (n + 1) * F i), Finset.sum_range_succ _ (n + 1), Nat.choose_succ_self]
      simp
    rw [h2]
    simp
    ring

/-- On a limit with a geometric disturbance of ratio `q` the average reduces it by `((1 + q) / 2) ^ n`. -/
theorem C39_geometric (n : ℕ) (a b q : ℂ) : shrink (n + 1) (fun i => a + b * q ^ i) 0 = a + b * ((1 + q) / 2) ^ n := by
  rw [C39_average]
  unfold binAvg
  have h2 : (2 : ℂ) ^ n ≠ 0 := pow_ne_zero _ two_ne_zero
  have e1 : ∑ i ∈ Finset.range (n + 1), (n.choose i : ℂ) = 2 ^ n := by exact_mod_cast Nat.sum_range_choose n
  have e2 : ∑ i ∈ Finset.range (n + 1), q ^ i * (n.choose i : ℂ) = (1 + q) ^ n := by
    rw [add_comm 1 q, add_pow]
    exact Finset.sum_congr rfl fun i _ => by rw [one_pow, mul_one]
  have : ∀ i, (n.choose i : ℂ) / 2 ^ n * (a + b * q ^ i) = a / 2 ^ n * (n.choose i) + b / 2 ^ n * (q ^ i * n.choose i) := fun i => by
    field_simp
  simp only [this, Finset.sum_add_distrib, ← Finset.mul_sum, e1, e2, div_pow]
  field_simp

/-- Alternating tails are averaged exactly. -/
theorem C39_alternating (n : ℕ) (a b : ℂ) : shrink (n + 2) (fun i => a + b * (-1) ^ i) 0 = a := by
  rw [C39_geometric]
  simp

example : shrink 4 (fun i => 3 + 1 * (-1 / 2) ^ i) 0 = 3 + 1 / 64 := by
  rw [show (4 : ℕ) = 3 + 1 from rfl, C39_geometric]
  norm_num

/-! ### The points -/

theorem quadTerm_para (k h : ℝ) (hh : h ≠ 0) (f1 f2 f3 : ℂ) :
    quadTerm ![k - h - h, k - h, k] ![f1, f2, f3] =
      ((f1 - 2 * f2 + f3) / (2 * h ^ 2), (f3 - f1) / (2 * h) - (f1 - 2 * f2 + f3) / (h ^ 2) * (k - h),
        para (k - h) h f1 f2 f3 0) := by
  have : (h : ℂ) ≠ 0 := by exact_mod_cast hh
  unfold quadTerm para
  simp only [Matrix.cons_val_zero, Matrix.cons_val_one, Matrix.cons_val_two, Matrix.head_cons, Matrix.tail_cons]
  have e : (((k - h - h - (k - h)) * (k - h - k) * (k - (k - h - h)) : ℝ) : ℂ) = 2 * h ^ 3 := by
    push_cast
    ring
  rw [e]
  push_cast
  refine Prod.ext ?_ (Prod.ext ?_ ?_) <;> simp only <;> field_simp <;> ring

theorem para_of_quad (k h : ℝ) (hh : h ≠ 0) (f1 f2 f3 : ℂ) (t : ℝ) :
    (quadTerm ![k - h - h, k - h, k] ![f1, f2, f3]).1 * t * t + (quadTerm ![k - h - h, k - h, k] ![f1, f2, f3]).2.1 * t +
      (quadTerm ![k - h - h, k - h, k] ![f1, f2, f3]).2.2 = para (k - h) h f1 f2 f3 t := by
  rw [quadTerm_para k h hh]
  have : (h : ℂ) ≠ 0 := by exact_mod_cast hh
  unfold para
  simp only
  push_cast
  field_simp
  ring

theorem peak_turn (f1 f2 f3 : ℂ) (k h : ℝ) (ht : Turns f1 f2 f3) (q : ℂ × ℂ × ℂ) (hq : quadTerm ![k - h - h, k - h, k] ![f1, f2, f3] = q) :
    peak f1 f2 f3 k h = if q.1 ≠ 0 ∧ vertex q < k ∧ k - h - h < vertex q
      then some (vertex q, q.1 * vertex q * vertex q + q.2.1 * vertex q + q.2.2) else some (k - h, 0 + q.2.2) := by
  subst hq
  unfold peak
  exact if_pos ht

theorem peak_none (f1 f2 f3 : ℂ) (k h : ℝ) : peak f1 f2 f3 k h = none ↔ ¬ Turns f1 f2 f3 := by
  unfold peak Turns
  simp only [ge_iff_le]
  split
  · rename_i c
    have : (f1.re ≤ f2.re ∧ f3.re ≤ f2.re) ∨ (f2.re ≤ f1.re ∧ f2.re ≤ f3.re) := c
    split <;> simp [this]
  · rename_i c
    simpa using c

/-- What is recorded at a turn. -/
theorem peak_recorded (f1 f2 f3 : ℂ) (k h : ℝ) (hh : 0 < h) (p : ℝ × ℂ) (e : peak f1 f2 f3 k h = some p) :
    Recorded (k - h) h f1 f2 f3 p := by
  have ht : Turns f1 f2 f3 := by
    by_contra c
    rw [(peak_none ..).2 c] at e
    cases e
  rw [peak_turn f1 f2 f3 k h ht _ rfl] at e
  split at e
  · rename_i c
    obtain rfl := Option.some.inj e
    exact ⟨by linarith [c.2.2], by linarith [c.2.1], fun h' => absurd ht h', fun _ => Or.inl (para_of_quad k h hh.ne' f1 f2 f3 _)⟩
  · obtain rfl := Option.some.inj e
    refine ⟨by simp; linarith, by simp; linarith, fun h' => absurd ht h', fun _ => Or.inr ?_⟩
    rw [quadTerm_para k h hh.ne', zero_add]

/-- Samples on a line (in particular real samples) are treated as they should. -/
theorem peak_good (f1 f2 f3 : ℂ) (k h : ℝ) (hh : 0 < h) (hl : Lined f1 f2 f3) (p : ℝ × ℂ) (e : peak f1 f2 f3 k h = some p) :
    Good (k - h) h f1 f2 f3 p := by
  have hr := peak_recorded f1 f2 f3 k h hh p e
  have ht : Turns f1 f2 f3 := by
    by_contra c
    rw [(peak_none ..).2 c] at e
    cases e
  obtain ⟨c, w, t1, t2, t3, hw, rfl, rfl, rfl⟩ := hl
  have hc : (h : ℂ) ≠ 0 := by exact_mod_cast hh.ne'
  have hw' : w ≠ 0 := fun h => hw (by simp [h])
  have hre : ∀ t, (para (k - h) h (c + w * t1) (c + w * t2) (c + w * t3) t).re
      = c.re + w.re * (t2 + (t3 - t1) / (2 * h) * (t - (k - h)) + (t1 - 2 * t2 + t3) / (2 * h ^ 2) * (t - (k - h)) ^ 2) := by
    intro t
    have : para (k - h) h (c + w * t1) (c + w * t2) (c + w * t3) t
        = c + w * ((t2 + (t3 - t1) / (2 * h) * (t - (k - h)) + (t1 - 2 * t2 + t3) / (2 * h ^ 2) * (t - (k - h)) ^ 2 : ℝ) : ℂ) := by
      unfold para
      push_cast
      field_simp
      ring
    rw [this, Complex.add_re, Complex.re_mul_ofReal]
  -- the turn in terms of the line's parameter
  have htt : (t1 ≤ t2 ∧ t3 ≤ t2) ∨ (t2 ≤ t1 ∧ t2 ≤ t3) := by
    unfold Turns at ht
    simp only [Complex.add_re, Complex.re_mul_ofReal, add_le_add_iff_left] at ht
    rcases lt_or_gt_of_ne hw with n | n
    · simp only [mul_le_mul_left_of_neg n] at ht
      tauto
    · simp only [mul_le_mul_iff_right₀ n] at ht
      tauto
  rw [peak_turn _ _ _ k h ht _ (quadTerm_para k h hh.ne' ..)] at e
  by_cases hd : t1 - 2 * t2 + t3 = 0
  · have h12 : t1 = t2 := by rcases htt with h | h <;> linarith [h.1, h.2]
    have h32 : t3 = t2 := by linarith
    subst h12
    subst h32
    have ha : (c + w * t3 - 2 * (c + w * t3) + (c + w * t3) : ℂ) / (2 * h ^ 2) = 0 := by
      rw [show (c + w * t3 - 2 * (c + w * t3) + (c + w * t3) : ℂ) = 0 by ring, zero_div]
    rw [if_neg (by simp [ha])] at e
    obtain rfl := Option.some.inj e
    have hp : ∀ t, para (k - h) h (c + w * t3) (c + w * t3) (c + w * t3) t = c + w * t3 := fun t => by
      unfold para
      rw [show (c + w * t3 - 2 * (c + w * t3) + (c + w * t3) : ℂ) = 0 by ring]
      simp
    refine ⟨hr.1, hr.2.1, fun h' => absurd ht h', fun _ => ⟨?_, Or.inl fun t => ?_⟩⟩ <;> simp [hp]
  · have hq : vertex ((c + w * t1 - 2 * (c + w * t2) + (c + w * t3)) / (2 * h ^ 2),
        (c + w * t3 - (c + w * t1)) / (2 * h) - (c + w * t1 - 2 * (c + w * t2) + (c + w * t3)) / (h ^ 2) * (k - h),
        para (k - h) h (c + w * t1) (c + w * t2) (c + w * t3) 0) = k - h + h * ((t1 - t3) / (2 * (t1 - 2 * t2 + t3))) := by
      unfold vertex
      simp only
      have hdc : (t1 - 2 * t2 + t3 : ℂ) ≠ 0 := by exact_mod_cast hd
      have e1 : c + w * t1 - 2 * (c + w * t2) + (c + w * t3) = w * (t1 - 2 * t2 + t3) := by ring
      have e2 : c + w * t3 - (c + w * t1) = w * (t3 - t1) := by ring
      rw [e1, e2]
      have : -(w * (t3 - t1) / (2 * h) - w * (t1 - 2 * t2 + t3) / h ^ 2 * (k - h)) / (2 * (w * (t1 - 2 * t2 + t3) / (2 * h ^ 2)))
          = ((k - h + h * ((t1 - t3) / (2 * (t1 - 2 * t2 + t3))) : ℝ) : ℂ) := by
        push_cast
        field_simp
        ring
      rw [this, Complex.ofReal_re]
    have hb : -1 < (t1 - t3) / (2 * (t1 - 2 * t2 + t3)) ∧ (t1 - t3) / (2 * (t1 - 2 * t2 + t3)) < 1 := by
      rcases htt with g | g
      · have n : 2 * (t1 - 2 * t2 + t3) < 0 := by
          have : t1 - 2 * t2 + t3 ≠ 0 := hd
          rcases lt_or_gt_of_ne this with l | l
          · linarith
          · linarith [g.1, g.2]
        constructor
        · rw [lt_div_iff_of_neg n]; linarith [g.1, g.2]
        · rw [div_lt_iff_of_neg n]; linarith [g.1, g.2]
      · have n : 0 < 2 * (t1 - 2 * t2 + t3) := by
          rcases lt_or_gt_of_ne hd with l | l
          · linarith [g.1, g.2]
          · linarith
        constructor
        · rw [lt_div_iff₀ n]; linarith [g.1, g.2]
        · rw [div_lt_iff₀ n]; linarith [g.1, g.2]
    rw [hq] at e
    have ha : (c + w * t1 - 2 * (c + w * t2) + (c + w * t3) : ℂ) / (2 * h ^ 2) ≠ 0 := by
      rw [show c + w * t1 - 2 * (c + w * t2) + (c + w * t3) = w * (t1 - 2 * t2 + t3 : ℝ) by push_cast; ring]
      exact div_ne_zero (mul_ne_zero hw' (by exact_mod_cast hd)) (mul_ne_zero two_ne_zero (pow_ne_zero _ hc))
    rw [if_pos ⟨ha, by nlinarith [hb.2], by nlinarith [hb.1]⟩] at e
    obtain rfl := Option.some.inj e
    have hv := para_of_quad k h hh.ne' (c + w * t1) (c + w * t2) (c + w * t3) (k - h + h * ((t1 - t3) / (2 * (t1 - 2 * t2 + t3))))
    rw [quadTerm_para k h hh.ne'] at hv
    simp only at hv
    refine ⟨hr.1, hr.2.1, fun h' => absurd ht h', fun _ => ⟨hv, ?_⟩⟩
    simp only [hv, hre]
    have key : ∀ t : ℝ, (t2 + (t3 - t1) / (2 * h) * (t - (k - h)) + (t1 - 2 * t2 + t3) / (2 * h ^ 2) * (t - (k - h)) ^ 2) -
        (t2 + (t3 - t1) / (2 * h) * (k - h + h * ((t1 - t3) / (2 * (t1 - 2 * t2 + t3))) - (k - h)) +
          (t1 - 2 * t2 + t3) / (2 * h ^ 2) * (k - h + h * ((t1 - t3) / (2 * (t1 - 2 * t2 + t3))) - (k - h)) ^ 2)
        = (t1 - 2 * t2 + t3) * ((t - (k - h) - h * ((t1 - t3) / (2 * (t1 - 2 * t2 + t3)))) ^ 2 / (2 * h ^ 2)) := fun t => by
      have hn := hh.ne'
      have hs : t3 - t1 = -2 * (t1 - 2 * t2 + t3) * ((t1 - t3) / (2 * (t1 - 2 * t2 + t3))) := by
        field_simp
        ring
      rw [hs]
      generalize (t1 - t3) / (2 * (t1 - 2 * t2 + t3)) = σ
      generalize t1 - 2 * t2 + t3 = d
      field_simp
      ring
    rcases le_total (w.re * (t1 - 2 * t2 + t3)) 0 with s | s
    · left
      intro t
      have := mul_nonpos_of_nonpos_of_nonneg s (by positivity : 0 ≤ (t - (k - h) - h * ((t1 - t3) / (2 * (t1 - 2 * t2 + t3)))) ^ 2 / (2 * h ^ 2))
      rw [mul_assoc, ← key t] at this
      linarith
    · right
      intro t
      have := mul_nonneg s (by positivity : 0 ≤ (t - (k - h) - h * ((t1 - t3) / (2 * (t1 - 2 * t2 + t3)))) ^ 2 / (2 * h ^ 2))
      rw [mul_assoc, ← key t] at this
      linarith

/-! ### One integral -/

/-- Integrals up to the `n`-th sample: value `s` so far and samples `x 1, x 2, …`. -/
noncomputable def partialSum (s : ℂ) (x : ℕ → ℂ) (n : ℕ) : ℂ := s + ∑ j ∈ Finset.range n, x (j + 1)

/-- The points `pts` were recorded at the windows of samples `m`, `m + 1`, `m + 2` for the `m` in `ms`, no two of which share more than
one sample, according to `R`. -/
def Found (S : ℕ → ℂ) (k0 h : ℝ) (R : ℝ → ℝ → ℂ → ℂ → ℂ → ℝ × ℂ → Prop) (ms : List ℕ) (pts : List (ℝ × ℂ)) : Prop :=
  ms.Pairwise (fun a b => a + 2 ≤ b) ∧ (∀ m ∈ ms, 1 ≤ m) ∧
  List.Forall₂ (fun (m : ℕ) p => R (k0 + (m + 1) * h) h (S m) (S (m + 1)) (S (m + 2)) p) ms pts

/-- State of one integral after `n` samples. -/
noncomputable def Ent.after (k0 dk : ℝ) (waits : ℕ) (x : ℕ → ℂ) (s : ℂ) : ℕ → Ent
  | 0 => Ent.init s
  | n + 1 => (Ent.after k0 dk waits x s n).once (k0 + (n + 1) * dk) dk waits (x (n + 1))

theorem process_cases (e : Ent) (k dk : ℝ) (waits : ℕ) (s : ℂ) :
    (e.process k dk waits s = (e.pts, e.G) ∧ (e.pts.length < 36 → 2 ≤ e.G → e.G < waits)) ∨
    (2 ≤ e.G ∧ e.pts.length < 36 ∧ ∃ p, e.process k dk waits s = (e.pts ++ [p], 0) ∧
      (peak e.w0 e.w1 s k dk = some p ∨ (peak e.w0 e.w1 s k dk = none ∧ p = (k - dk, e.w1)))) := by
  unfold Ent.process
  split
  · rename_i c
    split
    · rename_i p hp
      exact Or.inr ⟨c.1, c.2, p, rfl, Or.inl hp⟩
    · rename_i hp
      split
      · exact Or.inr ⟨c.1, c.2, _, rfl, Or.inr ⟨hp, rfl⟩⟩
      · rename_i hw
        exact Or.inl ⟨rfl, fun _ _ => not_le.1 hw⟩
  · rename_i c
    exact Or.inl ⟨rfl, fun a b => absurd ⟨b, a⟩ c⟩

section
variable (k0 dk : ℝ) (waits : ℕ) (x : ℕ → ℂ) (s : ℂ)

theorem after_sum (n : ℕ) : (Ent.after k0 dk waits x s n).sum = partialSum s x n := by
  induction n with
  | zero => simp [Ent.after, Ent.init, partialSum]
  | succ n ih =>
    rw [Ent.after]
    simp only [Ent.once, ih, partialSum, Finset.sum_range_succ]
    ring

theorem after_w1 (n : ℕ) : (Ent.after k0 dk waits x s (n + 1)).w1 = partialSum s x (n + 1) := by
  rw [← after_sum k0 dk waits]
  rfl

theorem after_w0 (n : ℕ) : (Ent.after k0 dk waits x s (n + 2)).w0 = partialSum s x (n + 1) := by
  rw [← after_w1 k0 dk waits]
  rfl

/-- Counting: how many points there are at least. -/
theorem after_count (hw : 2 ≤ waits) (n : ℕ) :
    (Ent.after k0 dk waits x s n).pts.length ≤ 36 ∧ (Ent.after k0 dk waits x s n).G ≤ n ∧
    ((Ent.after k0 dk waits x s n).pts.length < 36 →
      (Ent.after k0 dk waits x s n).G ≤ waits ∧ n ≤ waits * (Ent.after k0 dk waits x s n).pts.length + (Ent.after k0 dk waits x s n).G) := by
  induction n with
  | zero => simp [Ent.after, Ent.init]
  | succ n ih =>
    rw [Ent.after]
    generalize Ent.after k0 dk waits x s n = e at ih
    obtain ⟨i1, i2, i3⟩ := ih
    rcases process_cases e (k0 + (n + 1) * dk) dk waits (e.sum + x (n + 1)) with ⟨h, h'⟩ | ⟨h, h', p, hp, -⟩
    · simp only [Ent.once, h]
      refine ⟨i1, by omega, fun l => ?_⟩
      obtain ⟨j1, j2⟩ := i3 l
      have : e.G < waits := by
        by_cases c : 2 ≤ e.G
        · exact h' l c
        · omega
      omega
    · simp only [Ent.once, hp, List.length_append, List.length_singleton]
      refine ⟨by omega, by omega, fun l => ⟨by omega, ?_⟩⟩
      obtain ⟨j1, j2⟩ := i3 h'
      rw [mul_add]
      omega

/-- What has been recorded after `n` samples. -/
theorem after_found (R : ℝ → ℝ → ℂ → ℂ → ℂ → ℝ × ℂ → Prop)
    (hR : ∀ m p, 1 ≤ m → peak (partialSum s x m) (partialSum s x (m + 1)) (partialSum s x (m + 2)) (k0 + (m + 1) * dk + dk) dk = some p →
      R (k0 + (m + 1) * dk) dk (partialSum s x m) (partialSum s x (m + 1)) (partialSum s x (m + 2)) p)
    (hN : ∀ x h f1 f2 f3, 0 < h → ¬ Turns f1 f2 f3 → R x h f1 f2 f3 (x, f2)) (hd : 0 < dk) (n : ℕ) :
    ∃ ms, Found (partialSum s x) k0 dk R ms (Ent.after k0 dk waits x s n).pts ∧
      (∀ m ∈ ms, m + 1 + (Ent.after k0 dk waits x s n).G ≤ n) ∧ (Ent.after k0 dk waits x s n).G ≤ n := by
  induction n with
  | zero => exact ⟨[], ⟨List.Pairwise.nil, by simp, by simp [Ent.after, Ent.init]⟩, by simp, by simp [Ent.after, Ent.init]⟩
  | succ n ih =>
    have hsum := after_sum k0 dk waits x s n
    have hw1 : ∀ m, n = m + 1 → (Ent.after k0 dk waits x s n).w1 = partialSum s x (m + 1) := fun m e => by
      subst e
      exact after_w1 ..
    have hw0 : ∀ m, n = m + 2 → (Ent.after k0 dk waits x s n).w0 = partialSum s x (m + 1) := fun m e => by
      subst e
      exact after_w0 ..
    rw [Ent.after]
    generalize Ent.after k0 dk waits x s n = e at *
    obtain ⟨ms, ⟨f1, f2, f3⟩, hm, hG⟩ := ih
    rcases process_cases e (k0 + (n + 1) * dk) dk waits (e.sum + x (n + 1)) with ⟨h, -⟩ | ⟨h, -, p, hp, hc⟩
    · simp only [Ent.once, h]
      exact ⟨ms, ⟨f1, f2, f3⟩, fun m q => by have := hm m q; omega, by omega⟩
    · simp only [Ent.once, hp]
      obtain ⟨m, rfl⟩ : ∃ m, n = m + 2 := ⟨n - 2, by omega⟩
      have e1 := hw1 (m + 1) rfl
      have e0 := hw0 m rfl
      have e2 : e.sum + x (m + 2 + 1) = partialSum s x (m + 1 + 2) := by
        rw [hsum]
        simp only [partialSum, Finset.sum_range_succ]
        ring
      have ek : k0 + (((m + 2 : ℕ) : ℝ) + 1) * dk = k0 + (((m + 1 : ℕ) : ℝ) + 1) * dk + dk := by
        push_cast
        ring
      rw [e0, e1, e2, ek] at hc
      refine ⟨ms ++ [m + 1], ⟨?_, ?_, ?_⟩, ?_, by omega⟩
      · rw [List.pairwise_append]
        refine ⟨f1, List.pairwise_singleton _ _, fun a ha b hb => ?_⟩
        rw [List.mem_singleton.1 hb]
        have := hm a ha
        omega
      · intro a ha
        rcases List.mem_append.1 ha with q | q
        · exact f2 a q
        · rw [List.mem_singleton.1 q]
          omega
      · refine List.rel_append f3 (List.Forall₂.cons ?_ List.Forall₂.nil)
        rcases hc with c | ⟨c, rfl⟩
        · exact hR _ _ (by omega) c
        · rw [add_sub_cancel_right]
          exact hN _ _ _ _ _ hd ((peak_none ..).1 c)
      · intro a ha
        rcases List.mem_append.1 ha with q | q
        · have := hm a q
          omega
        · rw [List.mem_singleton.1 q]

end

theorem final_nil (e : Ent) (h : e.pts = []) : e.final = 0 := by
  simp [Ent.final, h, shrink]

theorem final_avg (e : Ent) (h : e.pts ≠ []) : e.final = binAvg (e.pts.length - 1) fun i => ((e.pts.map Prod.snd)[i]?).getD 0 := by
  obtain ⟨n, hn⟩ : ∃ n, e.pts.length = n + 1 := ⟨e.pts.length - 1, by have := List.length_pos_iff.2 h; omega⟩
  rw [Ent.final, hn, C39_average]
  simp

/-! ### The loop -/

open Classical in
theorem rmin_fold (l : List (Fin nr)) (a : Option ℝ) (ha : ∀ m, a = some m → 1 / 10 ^ 8 < m) :
    let f := l.foldl (fun a ir => if zeroDist (D.rs ir) then a else
      match a with
      | none => some (D.rs ir)
      | some m => if D.rs ir < m then some (D.rs ir) else some m) a
    (f = none → a = none ∧ ∀ ir ∈ l, zeroDist (D.rs ir)) ∧
    ∀ m, f = some m → 1 / 10 ^ 8 < m ∧ (∀ m', a = some m' → m ≤ m') ∧ ∀ ir ∈ l, ¬ zeroDist (D.rs ir) → m ≤ D.rs ir := by
  induction l generalizing a with
  | nil =>
    refine ⟨fun h => ⟨h, by simp⟩, fun m h => ⟨ha m h, fun m' h' => ?_, by simp⟩⟩
    have : a = some m := h
    rw [this] at h'
    exact (Option.some.inj h').le
  | cons ir l ih =>
    simp only [List.foldl_cons]
    by_cases hz : zeroDist (D.rs ir)
    · rw [if_pos hz]
      obtain ⟨h1, h2⟩ := ih a ha
      refine ⟨fun h => ⟨(h1 h).1, ?_⟩, fun m h => ⟨(h2 m h).1, (h2 m h).2.1, ?_⟩⟩
      · simpa [hz] using (h1 h).2
      · simpa [hz] using (h2 m h).2.2
    · rw [if_neg hz]
      have hr : 1 / 10 ^ 8 < D.rs ir := not_le.1 hz
      cases a with
      | none =>
        obtain ⟨h1, h2⟩ := ih (some (D.rs ir)) (fun m e => by rw [← Option.some.inj e]; exact hr)
        refine ⟨fun h => absurd (h1 h).1 (by simp), fun m h => ⟨(h2 m h).1, by simp, ?_⟩⟩
        simpa [hz] using ⟨(h2 m h).2.1 _ rfl, (h2 m h).2.2⟩
      | some a =>
        have hb : (if D.rs ir < a then some (D.rs ir) else some a) = some (min (D.rs ir) a) := by
          split
          · rw [min_eq_left (by linarith)]
          · rw [min_eq_right (by linarith)]
        simp only [hb]
        obtain ⟨h1, h2⟩ := ih (some (min (D.rs ir) a)) (fun m e => by rw [← Option.some.inj e]; exact lt_min hr (ha a rfl))
        refine ⟨fun h => absurd (h1 h).1 (by simp), fun m h => ⟨(h2 m h).1, ?_, ?_⟩⟩
        · intro m' e
          rw [← Option.some.inj e]
          exact le_trans ((h2 m h).2.1 _ rfl) (min_le_right _ _)
        · simpa [hz] using ⟨((h2 m h).2.1 _ rfl).trans (min_le_left _ _), (h2 m h).2.2⟩

theorem rmin_none (h : D.rmin = none) (ir : Fin nr) : zeroDist (D.rs ir) :=
  ((rmin_fold D (List.finRange nr) none (by simp)).1 h).2 ir (List.mem_finRange ir)

theorem rmin_some (m : ℝ) (h : D.rmin = some m) : 0 < m ∧ ∀ ir, ¬ zeroDist (D.rs ir) → m ≤ D.rs ir := by
  have := (rmin_fold D (List.finRange nr) none (by simp)).2 m h
  exact ⟨lt_trans (by norm_num) this.1, fun ir => this.2.2 ir (List.mem_finRange ir)⟩

/-- The `j`-th sample of a result at a distance. -/
noncomputable def Ptam.x (ir : Fin nr) (p : Part) (i : Fin 6) (v : Fin 4) (j : ℕ) : ℂ :=
  p.pk (D.k0 + j * D.dk) (D.rs ir) ((D.ker (D.k0 + j * D.dk)).getD (0, 0)) i v

/-- The results that are asked for. -/
def Ptam.active (p : Part) : Prop := p = Part.u ∨ D.upar = true

/-- State of one integral after `n` samples. -/
noncomputable def Ptam.after (s : Fin nr → Sums) (ir : Fin nr) (p : Part) (i : Fin 6) (v : Fin 4) (n : ℕ) : Ent :=
  Ent.after D.k0 D.dk (D.waits ir) (D.x ir p i v) (p.sums (s ir) i v) n

/-- Invariant after `m` turns. -/
def Ptam.Inv (s : Fin nr → Sums) (m : ℕ) (st : PtamState nr) : Prop :=
  ∀ ir, ¬ zeroDist (D.rs ir) →
    (∀ p, D.active p → ∃ n ≤ m, (∀ i v, ¬ unused i v → st.ent ir p i v = D.after s ir p i v n) ∧ (n = m ∨ complete (st.ent ir p))) ∧
    (st.done ir → ∀ p, D.active p → complete (st.ent ir p))

theorem Ptam.inv_step (s : Fin nr → Sums) (m : ℕ) (st : PtamState nr) (h : D.Inv s m st) (Q : Chnl × Chnl)
    (hQ : D.ker (D.k0 + (m + 1 : ℕ) * D.dk) = some Q) : D.Inv s (m + 1) (D.step (D.k0 + (m + 1 : ℕ) * D.dk) Q st) := by
  intro ir hz
  obtain ⟨h1, h2⟩ := h ir hz
  by_cases hd : st.done ir
  · have he : (D.step (D.k0 + (m + 1 : ℕ) * D.dk) Q st).ent ir = st.ent ir := by
      simp only [Ptam.step]
      exact if_pos (Or.inr hd)
    rw [he]
    refine ⟨fun p hp => ?_, fun _ => h2 hd⟩
    obtain ⟨n, hn, a, -⟩ := h1 p hp
    exact ⟨n, by omega, a, Or.inr (h2 hd p hp)⟩
  · have hno : ¬ (zeroDist (D.rs ir) ∨ st.done ir) := not_or.2 ⟨hz, hd⟩
    have he : ∀ p, D.active p → (D.step (D.k0 + (m + 1 : ℕ) * D.dk) Q st).ent ir p = D.part ir p (D.k0 + (m + 1 : ℕ) * D.dk) Q (st.ent ir p) := by
      intro p hp
      simp only [Ptam.step]
      rw [if_neg hno]
      exact if_pos hp
    refine ⟨fun p hp => ?_, fun q p hp => ?_⟩
    · rw [he p hp]
      obtain ⟨n, hn, a, b⟩ := h1 p hp
      by_cases hc : complete (st.ent ir p)
      · rw [Ptam.part, if_pos hc]
        exact ⟨n, by omega, a, Or.inr hc⟩
      · obtain rfl : n = m := b.resolve_right hc
        refine ⟨n + 1, le_rfl, fun i v hu => ?_, Or.inl rfl⟩
        rw [Ptam.part, if_neg hc]
        simp only [if_neg hu]
        rw [a i v hu, Ptam.after, Ptam.after, Ent.after]
        have : p.pk (D.k0 + (n + 1 : ℕ) * D.dk) (D.rs ir) Q i v = D.x ir p i v (n + 1) := by
          rw [Ptam.x, hQ, Option.getD_some]
        rw [this]
        push_cast
        rfl
    · rw [he p hp]
      simp only [Ptam.step, if_neg hno] at q
      rcases hp with rfl | hu
      · have := q.1
        rwa [if_pos (Or.inl trivial)] at this
      · cases p
        · have := q.1
          rwa [if_pos (Or.inl trivial)] at this
        · have := (q.2 hu).1
          rwa [if_pos (Or.inr hu)] at this
        · have := (q.2 hu).2
          rwa [if_pos (Or.inr hu)] at this

theorem Ptam.loop_spec (s : Fin nr → Sums) (kmax : ℝ) (n m : ℕ) (iendk : Prop) (st st' : PtamState nr) (h : D.Inv s m st)
    (hi : iendk → ∀ ir, zeroDist (D.rs ir) ∨ st.done ir) (hn : kmax < D.k0 + (m + n : ℕ) * D.dk)
    (e : D.loop kmax n iendk (D.k0 + m * D.dk) st = some st') :
    ∃ m', D.Inv s m' st' ∧ ((∀ ir, zeroDist (D.rs ir) ∨ st'.done ir) ∨ kmax < D.k0 + m' * D.dk) := by
  induction n generalizing m iendk st with
  | zero =>
    obtain rfl := Option.some.inj e
    exact ⟨m, h, Or.inr hn⟩
  | succ n ih =>
    rw [Ptam.loop] at e
    split at e
    · rename_i c
      have hk : D.k0 + m * D.dk + D.dk = D.k0 + ((m + 1 : ℕ) : ℝ) * D.dk := by
        push_cast
        ring
      rw [hk] at e
      cases hQ : D.ker (D.k0 + ((m + 1 : ℕ) : ℝ) * D.dk) with
      | none =>
        rw [hQ] at e
        cases e
      | some Q =>
        rw [hQ] at e
        exact ih (m + 1) _ _ (D.inv_step s m st h Q hQ) (fun q => q) (by rw [show m + 1 + n = m + (n + 1) by ring]; exact hn) e
    · rename_i c
      obtain rfl := Option.some.inj e
      refine ⟨m, h, ?_⟩
      by_cases hi' : iendk
      · exact Or.inl (hi hi')
      · exact Or.inr (not_le.1 fun q => c ⟨hi', q⟩)

theorem Ptam.turns_enough (kmax : ℝ) (hd : 0 < D.dk) : kmax < D.k0 + (0 + D.turns kmax : ℕ) * D.dk := by
  have := Nat.lt_floor_add_one ((kmax - D.k0) / D.dk)
  rw [div_lt_iff₀ hd] at this
  rw [zero_add, Ptam.turns]
  push_cast
  linarith

theorem Ptam.run_found (s s' : Fin nr → Sums) (hd : 0 < D.dk) (e : D.run s = some s') (ir : Fin nr) (hr : 1 / 10 ^ 8 < D.rs ir)
    (p : Part) (hp : p = Part.u ∨ D.upar = true) (i : Fin 6) (v : Fin 4) (hu : order i = 0 → v = 0 ∨ v = 2)
    (R : ℝ → ℝ → ℂ → ℂ → ℂ → ℝ × ℂ → Prop)
    (hR : R = Recorded ∨ R = Good ∧ ∀ m, 1 ≤ m → Lined (partialSum (p.sums (s ir) i v) (D.x ir p i v) m)
      (partialSum (p.sums (s ir) i v) (D.x ir p i v) (m + 1)) (partialSum (p.sums (s ir) i v) (D.x ir p i v) (m + 2))) :
    ∃ ms pts, Found (partialSum (p.sums (s ir) i v) (D.x ir p i v)) D.k0 D.dk R ms pts ∧ pts.length ≤ 36 ∧
      ((∀ ir, 1 / 10 ^ 8 < D.rs ir → D.rs ir * D.dk ≤ 40 * π / 7) → pts ≠ []) ∧
      ((∀ ir, 1 / 10 ^ 8 < D.rs ir → D.rs ir * D.dk ≤ π / 44) → pts.length = 36) ∧
      (pts = [] → p.sums (s' ir) i v = 0) ∧
      (pts ≠ [] → p.sums (s' ir) i v = binAvg (pts.length - 1) fun i => ((pts.map Prod.snd)[i]?).getD 0) := by
  have hz : ¬ zeroDist (D.rs ir) := not_le.2 hr
  have hun : ¬ unused i v := fun h => by
    rcases hu h.1 with q | q
    · exact h.2.1 q
    · exact h.2.2 q
  unfold Ptam.run at e
  cases hm : D.rmin with
  | none => exact absurd (rmin_none D hm ir) hz
  | some rmin =>
    obtain ⟨r0, rle⟩ := rmin_some D rmin hm
    simp only [hm, if_neg (not_le.2 hd)] at e
    rw [Option.map_eq_some_iff] at e
    obtain ⟨st, el, e⟩ := e
    have hinit : D.Inv s 0 ⟨fun ir p i v => Ent.init (p.sums (s ir) i v), fun _ => False⟩ := fun ir _ =>
      ⟨fun p _ => ⟨0, le_rfl, fun i v _ => rfl, Or.inl rfl⟩, fun h => h.elim⟩
    obtain ⟨m, hI, hend⟩ := D.loop_spec s (D.kmax rmin) _ 0 False _ st hinit (fun h => h.elim) (D.turns_enough _ hd) (by simpa [Ptam.endState] using el)
    obtain ⟨hI1, hI2⟩ := hI ir hz
    obtain ⟨n, hn, hent, hor⟩ := hI1 p hp
    have hfin : p.sums (s' ir) i v = (st.ent ir p i v).final := by
      have := congrFun e ir
      rw [if_neg hz] at this
      rw [← this]
      rcases hp with rfl | hup
      · rfl
      · cases p <;> simp [Part.sums, hup]
    have hw : 2 ≤ D.waits ir := le_max_left _ _
    have hcnt := after_count D.k0 D.dk (D.waits ir) (D.x ir p i v) (p.sums (s ir) i v) hw n
    have hfound : ∃ ms, Found (partialSum (p.sums (s ir) i v) (D.x ir p i v)) D.k0 D.dk R ms (D.after s ir p i v n).pts := by
      have hN : ∀ x h f1 f2 f3, 0 < h → ¬ Turns f1 f2 f3 → R x h f1 f2 f3 (x, f2) := by
        rcases hR with rfl | ⟨rfl, -⟩
        · exact fun x h f1 f2 f3 h0 ht => ⟨by simpa using h0, by simpa using h0, fun _ => rfl, fun q => absurd q ht⟩
        · exact fun x h f1 f2 f3 h0 ht => ⟨by simpa using h0, by simpa using h0, fun _ => rfl, fun q => absurd q ht⟩
      obtain ⟨ms, h, -⟩ := after_found D.k0 D.dk (D.waits ir) (D.x ir p i v) (p.sums (s ir) i v) R (fun m q hm hq => by
        rcases hR with rfl | ⟨rfl, hl⟩
        · have := peak_recorded _ _ _ _ _ hd q hq
          rwa [add_sub_cancel_right] at this
        · have := peak_good _ _ _ _ _ hd (hl m hm) q hq
          rwa [add_sub_cancel_right] at this) hN hd n
      exact ⟨ms, h⟩
    obtain ⟨ms, hf⟩ := hfound
    rw [hfin, hent i v hun]
    have hy : ∀ y : ℝ, 0 < y → (∀ ir, 1 / 10 ^ 8 < D.rs ir → D.rs ir * D.dk ≤ π / y) → rmin * D.dk ≤ π / y := fun y _ h =>
      (mul_le_mul_of_nonneg_right (rle ir hz) hd.le).trans (h ir hr)
    have hwaits : (D.waits ir : ℝ) ≤ π / (rmin * D.dk) + 6 := by
      have : D.waits ir = ⌈π / (D.rs ir * D.dk)⌉₊ + 5 := max_eq_right (by omega)
      rw [this]
      push_cast
      have h1 := Nat.ceil_lt_add_one (show 0 ≤ π / (D.rs ir * D.dk) from div_nonneg pi_pos.le (mul_nonneg (by linarith [rle ir hz]) hd.le))
      have h2 : π / (D.rs ir * D.dk) ≤ π / (rmin * D.dk) :=
        div_le_div_of_nonneg_left pi_pos.le (mul_pos r0 hd) (mul_le_mul_of_nonneg_right (rle ir hz) hd.le)
      linarith
    have hm41 : (D.after s ir p i v n).pts.length < 36 → 41 * (π / (rmin * D.dk)) < n := by
      intro hl
      have hnc : ¬ complete (st.ent ir p) := fun hc => by
        rcases hc i v with q | q
        · exact hun q
        · rw [hent i v hun] at q
          omega
      obtain rfl : n = m := hor.resolve_right hnc
      rcases hend with q | q
      · exact absurd (hI2 ((q ir).resolve_left hz) p hp) hnc
      · unfold Ptam.kmax at q
        have q' : 41 * π / rmin < n * D.dk := by
          have : (36 + 5) * π / rmin = 41 * π / rmin := by norm_num
          linarith
        rw [show 41 * (π / (rmin * D.dk)) = 41 * π / rmin / D.dk by field_simp, div_lt_iff₀ hd]
        exact q'
    refine ⟨ms, _, hf, hcnt.1, fun h => ?_, fun h => ?_, fun h => final_nil _ h, fun h => final_avg _ h⟩
    · intro h0
      have h0' : (D.after s ir p i v n).pts.length = 0 := by rw [h0]; rfl
      have hl := hm41 (by omega)
      have hc := hcnt.2.2 (by
        have : (Ent.after D.k0 D.dk (D.waits ir) (D.x ir p i v) (p.sums (s ir) i v) n).pts.length = 0 := h0'
        omega)
      have h00 : (Ent.after D.k0 D.dk (D.waits ir) (D.x ir p i v) (p.sums (s ir) i v) n).pts.length = 0 := h0'
      rw [h00] at hc
      have hnw : n ≤ D.waits ir := by omega
      have hnw' : (n : ℝ) ≤ D.waits ir := by exact_mod_cast hnw
      have := hy (7 / 40) (by norm_num) (fun ir hr => by
        have := h ir hr
        rw [show π / (7 / 40) = 40 * π / 7 by ring]
        exact this)
      rw [le_div_iff₀ (by norm_num)] at this
      have : 7 / 40 ≤ π / (rmin * D.dk) := by
        rw [le_div_iff₀ (mul_pos r0 hd)]
        linarith
      linarith
    · by_contra h36
      have hlt : (D.after s ir p i v n).pts.length < 36 := lt_of_le_of_ne hcnt.1 h36
      have hl := hm41 hlt
      have hc := hcnt.2.2 hlt
      have hlt' : (Ent.after D.k0 D.dk (D.waits ir) (D.x ir p i v) (p.sums (s ir) i v) n).pts.length ≤ 35 := Nat.lt_succ_iff.1 hlt
      have hnw : n ≤ D.waits ir * 36 := by
        have := Nat.mul_le_mul_left (D.waits ir) hlt'
        omega
      have hnw' : (n : ℝ) ≤ D.waits ir * 36 := by exact_mod_cast hnw
      have := hy 44 (by norm_num) h
      rw [le_div_iff₀ (by norm_num)] at this
      have : 44 ≤ π / (rmin * D.dk) := by
        rw [le_div_iff₀ (mul_pos r0 hd)]
        linarith
      linarith

/-- The whole method. For each result, distance and integral asked for there is a list of recorded points, each from its own window
of three successive integrals, and the result is their binomial average. There is at least one point unless the step is
larger than `40 π / 7` over a distance, and all 36 if it is no larger than `π / 44` over every distance.
Missing: that each recorded point is an extremum of the parabola (`Good`); `Recorded` has a third case, which does occur
(`C39_outside_violated`), and in its second case the point need not be an extremum (`C39_vertex_violated`). -/
theorem C39_method_partial (s s' : Fin nr → Sums) (hd : 0 < D.dk) (e : D.run s = some s') (ir : Fin nr) (hr : 1 / 10 ^ 8 < D.rs ir)
    (p : Part) (hp : p = Part.u ∨ D.upar = true) (i : Fin 6) (v : Fin 4) (hu : order i = 0 → v = 0 ∨ v = 2) :
    ∃ ms pts, Found (partialSum (p.sums (s ir) i v) (D.x ir p i v)) D.k0 D.dk Recorded ms pts ∧ pts.length ≤ 36 ∧
      ((∀ ir, 1 / 10 ^ 8 < D.rs ir → D.rs ir * D.dk ≤ 40 * π / 7) → pts ≠ []) ∧
      ((∀ ir, 1 / 10 ^ 8 < D.rs ir → D.rs ir * D.dk ≤ π / 44) → pts.length = 36) ∧
      (pts = [] → p.sums (s' ir) i v = 0) ∧
      (pts ≠ [] → p.sums (s' ir) i v = binAvg (pts.length - 1) fun i => ((pts.map Prod.snd)[i]?).getD 0) :=
  D.run_found s s' hd e ir hr p hp i v hu Recorded (Or.inl rfl)

theorem intPk_im (k r : ℝ) (Q : Chnl) (hQ : ∀ i c, (Q i c).im = 0) (uir : Bool) (i : Fin 6) (v : Fin 4) : (intPk k r Q uir 0 i v).im = 0 := by
  unfold intPk
  generalize order i = m
  fin_cases m <;> fin_cases v <;> simp [pkEntry, hQ]

theorem partialSum_im (s : ℂ) (x : ℕ → ℂ) (hs : s.im = 0) (hx : ∀ j, (x j).im = 0) (n : ℕ) : (partialSum s x n).im = 0 := by
  simp [partialSum, hs, hx]

theorem lined_real (f1 f2 f3 : ℂ) (h1 : f1.im = 0) (h2 : f2.im = 0) (h3 : f3.im = 0) : Lined f1 f2 f3 :=
  ⟨0, 1, f1.re, f2.re, f3.re, by simp, by simp [Complex.ext_iff, h1], by simp [Complex.ext_iff, h2], by simp [Complex.ext_iff, h3]⟩

/-- The whole method for a real kernel (the static problem): each recorded point is the middle sample or an extremum of the parabola. -/
theorem C39_method_real (s s' : Fin nr → Sums) (hd : 0 < D.dk) (e : D.run s = some s') (ir : Fin nr) (hr : 1 / 10 ^ 8 < D.rs ir)
    (p : Part) (hp : p = Part.u ∨ D.upar = true) (i : Fin 6) (v : Fin 4) (hu : order i = 0 → v = 0 ∨ v = 2)
    (hs : (p.sums (s ir) i v).im = 0) (hQ : ∀ k Q, D.ker k = some Q → ∀ i c, (Q.1 i c).im = 0 ∧ (Q.2 i c).im = 0) :
    ∃ ms pts, Found (partialSum (p.sums (s ir) i v) (D.x ir p i v)) D.k0 D.dk Good ms pts ∧ pts.length ≤ 36 ∧
      ((∀ ir, 1 / 10 ^ 8 < D.rs ir → D.rs ir * D.dk ≤ 40 * π / 7) → pts ≠ []) ∧
      ((∀ ir, 1 / 10 ^ 8 < D.rs ir → D.rs ir * D.dk ≤ π / 44) → pts.length = 36) ∧
      (pts = [] → p.sums (s' ir) i v = 0) ∧
      (pts ≠ [] → p.sums (s' ir) i v = binAvg (pts.length - 1) fun i => ((pts.map Prod.snd)[i]?).getD 0) := by
  have hx : ∀ j, (D.x ir p i v j).im = 0 := fun j => by
    unfold Ptam.x Part.pk
    apply intPk_im
    intro i c
    cases h : D.ker (D.k0 + j * D.dk) with
    | none => cases p <;> simp [Part.ker]
    | some Q =>
      have := hQ _ Q h i c
      cases p <;> simp [Part.ker, this]
  have hS := partialSum_im _ _ hs hx
  exact D.run_found s s' hd e ir hr p hp i v hu Good (Or.inr ⟨rfl, fun m _ => lined_real _ _ _ (hS _) (hS _) (hS _)⟩)

/-- The method ends with a result if the kernel never fails. -/
theorem C39_defined (s : Fin nr → Sums) (h : ∀ k, D.ker k ≠ none) : ∃ s', D.run s = some s' := by
  have hl : ∀ (kmax : ℝ) (n : ℕ) (b : Prop) (k : ℝ) (st : PtamState nr), ∃ st', D.loop kmax n b k st = some st' := by
    intro kmax n
    induction n with
    | zero => exact fun b k st => ⟨st, rfl⟩
    | succ n ih =>
      intro b k st
      rw [Ptam.loop]
      split
      · cases hQ : D.ker (k + D.dk) with
        | none => exact absurd hQ (h _)
        | some Q => exact ih _ _ _
      · exact ⟨st, rfl⟩
  unfold Ptam.run
  cases D.rmin with
  | none => exact ⟨s, rfl⟩
  | some rmin =>
    simp only
    split
    · exact ⟨s, rfl⟩
    · obtain ⟨st, e⟩ := hl (D.kmax rmin) (D.turns (D.kmax rmin)) False D.k0 ⟨fun ir p i v => Ent.init (p.sums (s ir) i v), fun _ => False⟩
      rw [Ptam.endState, e]
      exact ⟨_, rfl⟩

/-- A real kernel that decays, one distance and a fine step: all of 36 points are recorded. -/
example (s : Fin 1 → Sums) (hs : ∀ i v, ((s 0).u i v).im = 0) :
    ∃ s' ms pts, (⟨5, 1 / 100, fun _ => 2, false, fun k => some (fun _ _ => ((exp (-k) : ℝ) : ℂ), 0)⟩ : Ptam 1).run s = some s' ∧
      Found (partialSum ((s 0).u 2 1) (Ptam.x (⟨5, 1 / 100, fun _ => 2, false, fun k => some (fun _ _ => ((exp (-k) : ℝ) : ℂ), 0)⟩ : Ptam 1) 0 .u 2 1))
        5 (1 / 100) Good ms pts ∧ pts.length = 36 := by
  obtain ⟨s', e⟩ := C39_defined (⟨5, 1 / 100, fun _ => 2, false, fun k => some (fun _ _ => ((exp (-k) : ℝ) : ℂ), 0)⟩ : Ptam 1) s (by simp)
  obtain ⟨ms, pts, h1, -, -, h2, -⟩ := C39_method_real _ s s' (by norm_num) e 0 (by norm_num) .u (Or.inl rfl) 2 1 (by decide) (hs _ _) (by
    intro k Q h i c
    obtain rfl := Option.some.inj h
    exact ⟨Complex.ofReal_im _, rfl⟩)
  exact ⟨s', ms, pts, e, h1, h2 fun _ _ => by
    have := two_le_pi
    norm_num
    linarith⟩

/-- A turn of complex sums whose imaginary parts bend more: the recorded value is that of the parabola at wavenumber zero, here `45 i`
for samples `0`, `i` and `3 i` at 10, 11 and 12. -/
theorem C39_outside_violated : Turns 0 Complex.I (3 * Complex.I) ∧ peak 0 Complex.I (3 * Complex.I) 12 1 = some (11, 45 * Complex.I) := by
  have ht : Turns 0 Complex.I (3 * Complex.I) := by simp [Turns]
  refine ⟨ht, ?_⟩
  rw [peak_turn _ _ _ _ _ ht _ (quadTerm_para 12 1 one_ne_zero ..)]
  have hv : vertex ((0 - 2 * Complex.I + 3 * Complex.I) / (2 * (1 : ℝ) ^ 2),
      (3 * Complex.I - 0) / (2 * (1 : ℝ)) - (0 - 2 * Complex.I + 3 * Complex.I) / ((1 : ℝ) ^ 2) * ((12 : ℝ) - (1 : ℝ)),
      para (12 - 1) 1 0 Complex.I (3 * Complex.I) 0) = 19 / 2 := by
    unfold vertex
    have : -((3 * Complex.I - 0) / (2 * (1 : ℝ)) - (0 - 2 * Complex.I + 3 * Complex.I) / ((1 : ℝ) ^ 2) * ((12 : ℝ) - (1 : ℝ))) /
        (2 * ((0 - 2 * Complex.I + 3 * Complex.I) / (2 * (1 : ℝ) ^ 2))) = ((19 / 2 : ℝ) : ℂ) := by
      have := Complex.I_ne_zero
      push_cast
      rw [show 0 - 2 * Complex.I + 3 * Complex.I = Complex.I by ring]
      field_simp
      ring
    rw [this, Complex.ofReal_re]
  rw [hv, if_neg (by norm_num), zero_add]
  congr 2
  · norm_num
  · unfold para
    push_cast
    ring

/-- A turn where the recorded point is on the parabola but at no extremum of its real part: samples `0`, `1` and `i` at 0, 1 and 2. -/
theorem C39_vertex_violated : ∃ p, peak 0 1 Complex.I 2 1 = some p ∧ p.2 = para 1 1 0 1 Complex.I p.1 ∧
    ¬ ((∀ t, (para 1 1 0 1 Complex.I t).re ≤ p.2.re) ∨ ∀ t, p.2.re ≤ (para 1 1 0 1 Complex.I t).re) := by
  have ht : Turns 0 1 Complex.I := by simp [Turns]
  have hre : ∀ t, (para 1 1 0 1 Complex.I t).re = 1 - (t - 1) ^ 2 := fun t => by
    have : para 1 1 0 1 Complex.I t = ((1 - (t - 1) ^ 2 : ℝ) : ℂ) + ((1 / 2 * (t - 1) + 1 / 2 * (t - 1) ^ 2 : ℝ) : ℂ) * Complex.I := by
      unfold para
      push_cast
      ring
    rw [this, Complex.add_re, Complex.ofReal_re, Complex.re_ofReal_mul, Complex.I_re]
    ring
  have hv : vertex ((0 - 2 * 1 + Complex.I) / (2 * (1 : ℝ) ^ 2),
      (Complex.I - 0) / (2 * (1 : ℝ)) - (0 - 2 * 1 + Complex.I) / ((1 : ℝ) ^ 2) * ((2 : ℝ) - (1 : ℝ)),
      para (2 - 1) 1 0 1 Complex.I 0) = 9 / 10 := by
    unfold vertex
    have hn : (-2 + Complex.I : ℂ) ≠ 0 := fun h => by simpa using congrArg Complex.im h
    have : -((Complex.I - 0) / (2 * (1 : ℝ)) - (0 - 2 * 1 + Complex.I) / ((1 : ℝ) ^ 2) * ((2 : ℝ) - (1 : ℝ))) /
        (2 * ((0 - 2 * 1 + Complex.I) / (2 * (1 : ℝ) ^ 2))) = ((9 / 10 : ℝ) : ℂ) + ((1 / 5 : ℝ) : ℂ) * Complex.I := by
      rw [show (0 - 2 * 1 + Complex.I : ℂ) = -2 + Complex.I by ring]
      push_cast
      field_simp
      linear_combination (-20 : ℂ) * Complex.I_sq
    rw [this]
    simp
  have hp := peak_turn 0 1 Complex.I 2 1 ht _ (quadTerm_para 2 1 one_ne_zero ..)
  rw [hv, if_pos ⟨by
    simp only
    intro h
    simpa using congrArg Complex.im h, by norm_num, by norm_num⟩] at hp
  have hq := para_of_quad 2 1 one_ne_zero 0 1 Complex.I (9 / 10)
  rw [quadTerm_para 2 1 one_ne_zero] at hq
  rw [hq] at hp
  refine ⟨_, hp, by norm_num, ?_⟩
  rw [show (2 : ℝ) - 1 = 1 by norm_num]
  simp only [hre]
  rintro (h | h)
  · have := h 1
    norm_num at this
  · have := h 0
    norm_num at this

end GRT.Integ
