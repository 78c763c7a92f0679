import Verif.Travt.TableProp
import Verif.Travt.Head

/-! The rows of the table of `grt travt`, and where C115 fails. -/

namespace GRT.Travt

open GRT.Num GRT.Files GRT.Model1D

theorem table_ok {file : List Char → Option (List Char)} {arr : List (FLay ℝ)} {zs zr : ℝ} {arg : List Char} {t : List Row}
    (h : table file arr zs zr arg = .ok t) :
    0 ≤ zs ∧ 0 ≤ zr ∧ ∃ l m, parseR file arg = .ok l ∧ readMod1d arr zs zr = .ok m ∧ t = l.map (row m) := by
  unfold table at h
  split at h
  · cases h
  rename_i hz
  push Not at hz
  split at h
  · cases h
  · cases h
  rename_i l hl
  split at h
  · cases h
  rename_i m hm
  injection h with h
  exact ⟨hz.1, hz.2, l, m, hl, hm, h.symm⟩

theorem checked_sound {vs : List Val} (h : checked vs = true) : vs = [.nan] ∨ ((∀ v ∈ vs, Nonneg v) ∧ vs.Pairwise Below) := by
  cases vs with
  | nil => exact .inr ⟨by simp, List.Pairwise.nil⟩
  | cons v vs =>
    simp only [checked, Bool.and_eq_true, Bool.not_eq_true'] at h
    obtain ⟨i1, i2, i3⟩ := ascending_sound vs v h.2
    by_cases hv : v = .nan
    · left
      cases vs with
      | nil => rw [hv]
      | cons _ _ => exact absurd hv (i1 (by simp))
    · right
      refine ⟨?_, ?_⟩
      · intro w hw
        rcases List.mem_cons.1 hw with rfl | hw
        · exact nonneg_of _ h.1 hv
        · exact i2 w hw
      · haveI : Trans Below Below Below := ⟨Below.trans⟩
        exact List.isChain_iff_pairwise.1 i3

/-- Specification: the wave with velocity `sel` does not travel at some depth between `zs` and `zr`. -/
def Blocked (sel : Med ℝ → ℝ) (arr : List (FLay ℝ)) (zs zr : ℝ) : Prop :=
  ∃ z med, min zs zr ≤ z ∧ z ≤ max zs zr ∧ mediumAt arr z = some med ∧ sel med = 0

/-- C115, rows: in every table that is printed the distances are non-negative and strictly ascending (or there is only one, and it is not a number), and
the two times of a row are the travel times of P and S for the distance of that row: what the time function gives for the model file, the depths and
that distance alone; the mark `-12345` is printed exactly for a wave that does not travel at some depth between source and receiver, and every
other time is not negative. -/
theorem C115_rows {file : List Char → Option (List Char)} {arr : List (FLay ℝ)} {zs zr : ℝ} {arg : List Char} {t : List Row}
    (h : table file arr zs zr arg = .ok t) :
    (t.map (·.shown.val) = [.nan] ∨ (∀ r ∈ t, Nonneg r.shown.val) ∧ (t.map (·.shown.val)).Pairwise Below) ∧
    ∀ r ∈ t, ∀ q, r.shown.val = .num q → ∃ tp ts, r.times = some (tp, ts) ∧
      fromFile (·.va) arr zs zr q = .ok tp ∧ fromFile (·.vb) arr zs zr q = .ok ts ∧
      (tp = -12345 ↔ Blocked (·.va) arr zs zr) ∧ (ts = -12345 ↔ Blocked (·.vb) arr zs zr) ∧
      (tp ≠ -12345 → 0 ≤ tp) ∧ (ts ≠ -12345 → 0 ≤ ts) := by
  obtain ⟨hs, hr, l, m, hl, hm, rfl⟩ := table_ok h
  have hvals : (l.map (row m)).map (·.shown.val) = l.map Shown.val := by rw [List.map_map]; rfl
  have hchk : checked (l.map Shown.val) = true := by
    unfold parseR at hl
    split at hl
    · split at hl
      · rename_i hc
        injection hl with hl
        rwa [← hl]
      · cases hl
    · rename_i hno
      exact absurd hl (hno l)
  have hsound := checked_sound hchk
  refine ⟨?_, ?_⟩
  · rw [hvals]
    rcases hsound with h1 | ⟨h1, h2⟩
    · exact .inl h1
    · refine .inr ⟨?_, h2⟩
      intro r hr
      obtain ⟨s, hs, rfl⟩ := List.mem_map.1 hr
      exact h1 _ (List.mem_map_of_mem hs)
  · intro r hrow q hq
    obtain ⟨s, hsl, rfl⟩ := List.mem_map.1 hrow
    have hq' : s.val = .num q := hq
    have hq0 : 0 ≤ q := by
      rcases hsound with h1 | ⟨h1, -⟩
      · have : s.val ∈ l.map Shown.val := List.mem_map_of_mem hsl
        rw [h1, List.mem_singleton, hq'] at this
        cases this
      · have := h1 _ (List.mem_map_of_mem hsl)
        rw [hq'] at this
        exact this
    have hq0' : (0 : ℝ) ≤ (q : ℝ) := by exact_mod_cast hq0
    have f : ∀ sel : Med ℝ → ℝ, fromFile sel arr zs zr q =
        .ok (travt1d (thkOf m.lays) (velOf sel m.lays) m.lays.length m.isrc m.ircv q) := by
      intro sel; rw [fromFile_eq, hm]; rfl
    have g := fun sel => C31_marker_file sel hs hr hq0' (f sel)
    exact ⟨_, _, by simp only [row, hq'], f _, f _, (g _).1, (g _).1, (g _).2, (g _).2⟩

/-- C115, order of the depths: exchanging the two depths gives the same table, or none in both cases. -/
theorem C115_swap (file : List Char → Option (List Char)) (arr : List (FLay ℝ)) (zs zr : ℝ) (arg : List Char) (t : List Row) :
    table file arr zs zr arg = .ok t ↔ table file arr zr zs arg = .ok t := by
  have key : ∀ zs zr, table file arr zs zr arg = .ok t → table file arr zr zs arg = .ok t := by
    intro zs zr h
    obtain ⟨hs, hr, l, m, hl, hm, rfl⟩ := table_ok h
    have rec1 := fun (sel : Med ℝ → ℝ) (q : ℝ) => C30_reciprocity sel arr (dist := q) hs hr
    rcases hm' : readMod1d arr zr zs with e | m'
    · have := rec1 (·.va) 0
      rw [fromFile_eq, fromFile_eq, hm, hm'] at this
      cases this
    · have hrow : ∀ s, row m' s = row m s := by
        intro s
        have e : ∀ (sel : Med ℝ → ℝ) (q : ℝ), travt1d (thkOf m'.lays) (velOf sel m'.lays) m'.lays.length m'.isrc m'.ircv q =
            travt1d (thkOf m.lays) (velOf sel m.lays) m.lays.length m.isrc m.ircv q := by
          intro sel q
          have := rec1 sel q
          rw [fromFile_eq, fromFile_eq, hm, hm'] at this
          exact (Option.some.inj this).symm
        unfold row
        congr 1
        split
        · rw [e, e]
        · rfl
      unfold table
      rw [if_neg (by push Not; exact ⟨hr, hs⟩), hl]
      dsimp only
      rw [hm']
      dsimp only
      rw [List.map_congr_left fun s _ => hrow s]
  exact ⟨key zs zr, key zr zs⟩

/-- C115 does not hold: `-R0/0.3/0.1` shows `0.0`, `0.1` and `0.2` only. -/
theorem C115_violated_count : parseR (fun _ => none) "0/0.3/0.1".toList = .ok [.dec 1 0, .dec 1 1, .dec 1 2] := by decide +kernel

/-- C115 does not hold: `-R0/300/0.57` converts `3e9` to `int`, because `0.57*10` is `5.699999999999999` and the loop does not stop after two
decimals; a smaller range shows eight decimals. -/
theorem C115_violated_undef : parseR (fun _ => none) "0/300/0.57".toList = .undef ∧
    parseR (fun _ => none) "0/1/0.57".toList = .ok [.dec 8 0, .dec 8 57000000] := by decide +kernel

/-- C115 does not hold: `-R0/0.00000001/0.00000001`: decimals of `1e-8` are not seen by the loop, both distances are
shown as `0`, and the option is refused as not ascending. -/
theorem C115_violated_small : parseR (fun _ => none) "0/0.00000001/0.00000001".toList = .err ∧
    scan3 "0/0.00000001/0.00000001".toList = some (.num 0, .num (dbl (1 / 10 ^ 8)), .num (dbl (1 / 10 ^ 8))) := by decide +kernel

/-- C115 does not hold: a row may show a text that is no number; `e` is computed as 0 and `1-2` as 1. -/
theorem C115_violated_text : parseR (fun _ => none) "e,1-2,3".toList = .ok [.text ['e'], .text "1-2".toList, .text ['3']] ∧
    (Shown.text ['e']).val = .num 0 ∧ (Shown.text "1-2".toList).val = .num 1 := by decide +kernel

/-- An empty list is accepted, and the table has no row (`grt_parse_real_array` refuses it). -/
theorem C115_empty : parseR (fun _ => none) ",".toList = .ok [] ∧ parseReals (fun _ => none) ",".toList = .err := by decide +kernel

/-- The hypotheses of `C115_decimals_partial` on a range with two decimals, with all rows. -/
example : parseR (fun _ => none) "1.25/2.5/0.25".toList =
    .ok [.dec 2 125, .dec 2 150, .dec 2 175, .dec 2 200, .dec 2 225, .dec 2 250] := by decide +kernel
example : composedOf listChars "1.25/2.5/0.25".toList = false ∧
    scan3 "1.25/2.5/0.25".toList = some (.num (dbl ((125 : ℕ) / 10 ^ 2)), .num (dbl ((250 : ℕ) / 10 ^ 2)), .num (dbl ((25 : ℕ) / 10 ^ 2))) := by
  decide +kernel
/-- The example of the help text. -/
example : parseR (fun _ => none) "10/50/5".toList = .ok ((List.range 9).map fun i => .dec 0 (10 + 5 * i : ℕ)) :=
  C115_integers (A := 10) (B := 50) (D := 5) (by norm_num) (by norm_num) (by norm_num) (by norm_num) (by decide +kernel) (by decide +kernel)
/-- A table of two rows for the model of `miss_read`. -/
example : ∃ t, table (fun _ => none) missFile 10 0 "5,20.5".toList = .ok t ∧ t.length = 2 := by
  have hp : parseR (fun _ => none) "5,20.5".toList = .ok [.text ['5'], .text "20.5".toList] := by decide +kernel
  refine ⟨[.text ['5'], .text "20.5".toList].map (row missMod), ?_, rfl⟩
  unfold table
  rw [if_neg (by norm_num), hp]
  dsimp only
  rw [miss_read]

end GRT.Travt
