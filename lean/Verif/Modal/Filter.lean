import Verif.Search.PropsFind
import Mathlib.Algebra.Order.Floor.Ring
import Mathlib.Data.Rat.Floor
import Mathlib.Tactic.Linarith
import Mathlib.Tactic.Positivity

/-!
Selection of frequencies and modes from a dispersion table: `grt_filter_eigenfn_info` (pygrt/C_extension/src/modal/modal_def.c 62-147), the lines
printed by `disp2asc` (src/tools/grt_disp2asc.c 289-308), and the option `-F` (grt_disp2asc.c 163-237, the same in src/modal/grt_eigenfn.c).
-/

namespace GRT.Modal

open GRT.Search

variable {K : Type*} [Field K] [LinearOrder K] [IsStrictOrderedRing K]

/-- `EIGENV_INFO` as far as selected from, include/grt/modal/modal_def.h 27-51: frequencies, orders of the columns, and for each frequency its
entries (`E`: phase velocity, group velocity, layer), the first ones of the row. -/
structure Table (K E : Type*) where
  freqs : List K
  modes : List ℕ
  rows : List (List E)
  deriving DecidableEq

/-- Which frequencies: all (`freqs == NULL`), a range, or a list of values, modal_def.c 99-113. -/
inductive FSel (K : Type*) where
  | all
  | range (a b : K)
  | near (l : List K)

/-- The test of one frequency, modal_def.c 103-113.  `none`: `freqs[idx]` with an empty list. -/
def FSel.test (tol : K) : FSel K → K → Option Bool
  | .all, _ => some true
  | .range a b, f => some (decide (a ≤ f) && decide (f ≤ b))
  | .near l, f => (l[findClosest l f]?).map fun v => decide (|v - f| < tol)

/-- Which orders: all (`modes == NULL`) or a list, modal_def.c 80-87. -/
def modeMatch (sel : Option (List ℕ)) (m : ℕ) : Bool :=
  match sel with
  | none => true
  | some l => decide (0 ≤ findElement l m)

/-- Orders kept, each with its column, modal_def.c 79-95. -/
def keepModes (sel : Option (List ℕ)) (modes : List ℕ) : List (ℕ × ℕ) :=
  (modes.zipIdx).filter fun p => modeMatch sel p.1

/-- The loop over orders kept for one frequency, modal_def.c 125-137: `break` at the first order not below the number of entries, else the
entry of the column.  `none`: an access out of bounds. -/
def pick {E : Type*} (row : List E) : List (ℕ × ℕ) → Option (List E)
  | [] => some []
  | (m, idx) :: t => if m ≥ row.length then some [] else (row[idx]?).bind fun e => (pick row t).map (e :: ·)

/-- The loop over frequencies, modal_def.c 100-142. -/
def pickRows {E : Type*} (tol : K) (fs : FSel K) (kept : List (ℕ × ℕ)) : List (K × List E) → Option (List (K × List E))
  | [] => some []
  | (f, row) :: t =>
    (fs.test tol f).bind fun b =>
      if b then (pick row kept).bind fun r => (pickRows tol fs kept t).map ((f, r) :: ·) else pickRows tol fs kept t

/-- `grt_filter_eigenfn_info`, modal_def.c 62-147; `tol` is `1e-8`. -/
def Table.filter {E : Type*} (tol : K) (fs : FSel K) (ms : Option (List ℕ)) (t : Table K E) : Option (Table K E) :=
  let kept := keepModes ms t.modes
  (pickRows tol fs kept (t.freqs.zip t.rows)).map fun l => ⟨l.map (·.1), kept.map (·.1), l.map (·.2)⟩

/-- The lines printed, grt_disp2asc.c 289-308 (also the variables of the files written by src/modal/modal_util.c 166-238): frequency, order of
the column, entry. -/
def Table.records {E : Type*} (t : Table K E) : List (K × ℕ × E) :=
  (t.freqs.zip t.rows).flatMap fun p => (t.modes.zip p.2).map fun q => (p.1, q.1, q.2)

/-! ### Specification -/

/-- A frequency is asked for. -/
def FSel.Wants (tol : K) : FSel K → K → Prop
  | .all, _ => True
  | .range a b, f => a ≤ f ∧ f ≤ b
  | .near l, f => ∃ v ∈ l, |v - f| < tol

/-- An order is asked for. -/
def WantsMode (sel : Option (List ℕ)) (m : ℕ) : Prop := ∀ l, sel = some l → m ∈ l

/-- A list of frequencies is not empty. -/
def FSel.Ok : FSel K → Prop
  | .near l => l ≠ []
  | _ => True

/-! ### Lemmas -/

theorem modeMatch_iff (sel : Option (List ℕ)) (m : ℕ) : modeMatch sel m = true ↔ WantsMode sel m := by
  cases sel with
  | none => simp [modeMatch, WantsMode]
  | some l =>
    have h := C04_findElement l m
    simp only [modeMatch, WantsMode, decide_eq_true_eq, Option.some.injEq, forall_eq']
    constructor
    · intro h0
      by_contra hn
      rw [h.1 hn] at h0
      omega
    · intro hm
      obtain ⟨j, e, -⟩ := h.2 hm
      rw [e]
      omega

theorem FSel.test_spec (tol : K) (s : FSel K) (h : s.Ok) (f : K) : ∃ b, s.test tol f = some b ∧ (b = true ↔ s.Wants tol f) := by
  cases s with
  | all => exact ⟨true, rfl, by simp [FSel.Wants]⟩
  | range a b => exact ⟨_, rfl, by simp [FSel.Wants]⟩
  | near l =>
    obtain ⟨v, hv, hmin⟩ := C04_findClosest l f h
    refine ⟨decide (|v - f| < tol), by simp [FSel.test, hv], ?_⟩
    simp only [decide_eq_true_eq, FSel.Wants]
    constructor
    · exact fun q => ⟨v, List.mem_of_getElem? hv, q⟩
    · rintro ⟨w, hw, q⟩
      obtain ⟨m, hm, rfl⟩ := List.getElem_of_mem hw
      have := (hmin m _ (List.getElem?_eq_getElem hm)).1
      rw [abs_sub_comm v f]
      rw [abs_sub_comm] at q
      exact lt_of_le_of_lt this q

theorem zipIdx_strict (modes : List ℕ) (k : ℕ) (hk : ∀ m ∈ modes, k ≤ m) (hs : modes.Pairwise (· < ·)) :
    ∀ p ∈ modes.zipIdx k, p.2 ≤ p.1 := by
  induction modes generalizing k with
  | nil => simp
  | cons a t ih =>
    intro p hp
    rw [List.zipIdx_cons] at hp
    rcases List.mem_cons.1 hp with rfl | hp
    · exact hk a (by simp)
    · refine ih (k + 1) (fun m hm => ?_) (List.pairwise_cons.1 hs).2 p hp
      have := (List.pairwise_cons.1 hs).1 m hm
      have := hk a (by simp)
      omega

theorem pick_safe {E : Type*} (row : List E) (l : List (ℕ × ℕ)) (h : ∀ p ∈ l, p.2 ≤ p.1) : ∃ r, pick row l = some r := by
  induction l with
  | nil => exact ⟨[], rfl⟩
  | cons p t ih =>
    obtain ⟨m, idx⟩ := p
    obtain ⟨r, hr⟩ := ih fun q hq => h q (List.mem_cons_of_mem _ hq)
    unfold pick
    split
    · exact ⟨[], rfl⟩
    · have := h (m, idx) (by simp)
      rw [List.getElem?_eq_getElem (by omega : idx < row.length), hr]
      exact ⟨_, rfl⟩

theorem pickRows_safe {E : Type*} (tol : K) (fs : FSel K) (hfs : fs.Ok) (kept : List (ℕ × ℕ)) (h : ∀ p ∈ kept, p.2 ≤ p.1) (l : List (K × List E)) :
    ∃ r, pickRows tol fs kept l = some r := by
  induction l with
  | nil => exact ⟨[], rfl⟩
  | cons p t ih =>
    obtain ⟨f, row⟩ := p
    obtain ⟨r, hr⟩ := ih
    obtain ⟨b, hb, -⟩ := fs.test_spec tol hfs f
    obtain ⟨q, hq⟩ := pick_safe row kept h
    simp only [pickRows, hb, Option.bind_some, hq, hr, Option.map_some]
    split <;> exact ⟨_, rfl⟩

/-- With columns that are the orders, the loop takes the entries of the orders kept that exist. -/
theorem pick_range {E : Type*} (row : List E) (l : List ℕ) (hs : l.Pairwise (· < ·)) :
    ∃ r, pick row (l.map fun m => (m, m)) = some r ∧ r.map some = (l.filter (· < row.length)).map (row[·]?) := by
  induction l with
  | nil => exact ⟨[], rfl, rfl⟩
  | cons m t ih =>
    obtain ⟨r, hr, e⟩ := ih (List.pairwise_cons.1 hs).2
    simp only [List.map_cons, pick]
    by_cases hm : m ≥ row.length
    · refine ⟨[], by rw [if_pos hm], ?_⟩
      have : (m :: t).filter (· < row.length) = [] := by
        rw [List.filter_eq_nil_iff]
        intro x hx
        rcases List.mem_cons.1 hx with rfl | hx
        · simpa using hm
        · have := (List.pairwise_cons.1 hs).1 x hx
          simp only [decide_eq_true_eq]
          omega
      rw [this]; rfl
    · have hlt : m < row.length := by omega
      rw [if_neg hm, List.getElem?_eq_getElem hlt, hr]
      refine ⟨row[m] :: r, rfl, ?_⟩
      rw [List.filter_cons_of_pos (by simpa using hlt), List.map_cons, List.map_cons, e, List.getElem?_eq_getElem hlt]

theorem keepModes_range (sel : Option (List ℕ)) (n : ℕ) :
    keepModes sel (List.range n) = ((List.range n).filter fun m => modeMatch sel m).map fun m => (m, m) := by
  have : (List.range n).zipIdx = (List.range n).map fun m => (m, m) := by
    refine List.ext_getElem (by simp) fun i h1 h2 => ?_
    simp
  rw [keepModes, this, List.filter_map]
  rfl

theorem zip_filter {E : Type*} (n : ℕ) (row : List E) (hrow : row.length ≤ n) (P : ℕ → Bool) (r : List E)
    (hr : r.map some = (((List.range n).filter P).filter (· < row.length)).map (row[·]?)) :
    ((List.range n).filter P).zip r = ((List.range n).zip row).filter fun q => P q.1 := by
  obtain ⟨k, rfl⟩ := Nat.exists_eq_add_of_le hrow
  have h1 : List.range (row.length + k) = List.range row.length ++ List.range' row.length k := by
    rw [List.range_eq_range', List.range_eq_range', ← List.range'_append_1, Nat.zero_add]
  have hA : ((List.range (row.length + k)).filter P).filter (· < row.length) = (List.range row.length).filter P := by
    rw [h1, List.filter_append, List.filter_append]
    have a : ((List.range row.length).filter P).filter (· < row.length) = (List.range row.length).filter P := by
      rw [List.filter_eq_self]
      intro x hx
      simpa using (List.mem_range.1 (List.mem_filter.1 hx).1)
    have b : ((List.range' row.length k).filter P).filter (· < row.length) = [] := by
      rw [List.filter_eq_nil_iff]
      intro x hx
      have := (List.mem_range'_1.1 (List.mem_filter.1 hx).1).1
      simpa using this
    rw [a, b, List.append_nil]
  rw [hA] at hr
  have hlen : ((List.range row.length).filter P).length = r.length := by
    have := congrArg List.length hr
    simpa using this.symm
  have h2 : (List.range (row.length + k)).zip row = (List.range row.length).zip row := by
    rw [h1]
    conv_lhs => rw [← List.append_nil row]
    rw [List.zip_append (by simp)]
    simp
  have h3 : ((List.range (row.length + k)).filter P).zip r = ((List.range row.length).filter P).zip r := by
    rw [h1, List.filter_append]
    conv_lhs => rw [← List.append_nil r]
    rw [List.zip_append hlen]
    simp
  rw [h2, h3]
  have h4 : (List.range row.length).zip row = row.zipIdx.map fun p => (p.2, p.1) := by
    refine List.ext_getElem (by simp) fun i a b => by simp
  have h5 : ∀ (s : List E) (j : ℕ), (∀ i, s[i]? = row[j + i]?) → ∀ r' : List E,
      r'.map some = ((List.range' j s.length).filter P).map (row[·]?) →
      ((List.range' j s.length).filter P).zip r' = (((List.range' j s.length)).zip s).filter fun q => P q.1 := by
    intro s
    induction s with
    | nil => intro j _ r' _; simp
    | cons a t ih =>
      intro j hj r' hr'
      have hj' : ∀ i, t[i]? = row[j + 1 + i]? := fun i => by
        have := hj (i + 1)
        rw [List.getElem?_cons_succ] at this
        rw [this]; congr 1; omega
      simp only [List.length_cons, List.range'_succ] at hr' ⊢
      by_cases hp : P j = true
      · rw [List.filter_cons_of_pos hp] at hr' ⊢
        cases r' with
        | nil => simp at hr'
        | cons b r' =>
          simp only [List.map_cons, List.cons.injEq] at hr'
          have := hj 0
          simp only [List.getElem?_cons_zero, Nat.add_zero] at this
          rw [← this, Option.some.injEq] at hr'
          rw [List.zip_cons_cons, List.zip_cons_cons, List.filter_cons_of_pos (by simpa using hp), ih (j + 1) hj' r' hr'.2, hr'.1]
      · rw [List.filter_cons_of_neg hp] at hr' ⊢
        rw [List.zip_cons_cons, List.filter_cons_of_neg (by simpa using hp), ih (j + 1) hj' r' hr']
  have := h5 row 0 (fun i => by rw [Nat.zero_add]) r (by rw [← List.range_eq_range']; exact hr)
  rw [← List.range_eq_range'] at this
  exact this

theorem pickRows_range {E : Type*} (tol : K) (fs : FSel K) (hfs : fs.Ok) (n : ℕ) (P : ℕ → Bool) (l : List (K × List E)) (hl : ∀ p ∈ l, p.2.length ≤ n)
    [DecidablePred (fs.Wants tol)] :
    ∃ r, pickRows tol fs (((List.range n).filter P).map fun m => (m, m)) l = some r ∧
      (r.flatMap fun p => (((List.range n).filter P).zip p.2).map fun q => (p.1, q.1, q.2)) =
        (l.flatMap fun p => ((List.range n).zip p.2).map fun q => (p.1, q.1, q.2)).filter fun x => decide (fs.Wants tol x.1) && P x.2.1 := by
  induction l with
  | nil => exact ⟨[], rfl, rfl⟩
  | cons p t ih =>
    obtain ⟨f, row⟩ := p
    obtain ⟨r, hr, e⟩ := ih fun p hp => hl p (List.mem_cons_of_mem _ hp)
    obtain ⟨b, hb, hw⟩ := fs.test_spec tol hfs f
    simp only [pickRows, hb, Option.bind_some]
    rw [List.flatMap_cons, List.filter_append, ← e]
    have hs : ((List.range n).filter P).Pairwise (· < ·) := List.Pairwise.filter _ List.pairwise_lt_range
    obtain ⟨q, hq, eq⟩ := pick_range row _ hs
    by_cases hbt : b = true
    · rw [if_pos hbt, hq, hr]
      refine ⟨(f, q) :: r, rfl, ?_⟩
      rw [List.flatMap_cons]
      congr 1
      have hw' : decide (fs.Wants tol f) = true := by simpa using hw.1 hbt
      dsimp only
      rw [List.filter_map, zip_filter n row (hl _ List.mem_cons_self) P q eq]
      congr 2
      funext x
      simp [hw']
    · rw [if_neg hbt, hr]
      refine ⟨r, rfl, ?_⟩
      have hw' : decide (fs.Wants tol f) = false := by
        simp only [decide_eq_false_iff_not]
        exact fun h => hbt (hw.2 h)
      dsimp only
      rw [List.filter_map, show ((fun x : K × ℕ × E => decide (fs.Wants tol x.1) && P x.2.1) ∘ fun q : ℕ × E => (f, q.1, q.2)) = fun _ => false from by
        funext x; simp [hw']]
      simp

/-! ### C51 -/

/-- C51 where the columns are the orders 0, 1, … (every file of phase velocities, modal_util.c 87-94): the selection keeps exactly the
entries whose frequency and order are asked for, with their values, and nothing is read out of bounds.  Missing: files of group
velocities with a selection of orders, see `C51_violated`. -/
theorem C51_partial {E : Type*} (tol : K) (fs : FSel K) (hfs : fs.Ok) (ms : Option (List ℕ)) (t : Table K E) (n : ℕ) (hm : t.modes = List.range n)
    (hn : ∀ row ∈ t.rows, row.length ≤ n) [DecidablePred (fs.Wants tol)] [DecidablePred (WantsMode ms)] :
    ∃ t', t.filter tol fs ms = some t' ∧
      t'.records = t.records.filter fun x => decide (fs.Wants tol x.1) && decide (WantsMode ms x.2.1) := by
  obtain ⟨r, hr, e⟩ := pickRows_range (E := E) tol fs hfs n (fun m => modeMatch ms m) (t.freqs.zip t.rows)
    fun p hp => hn _ (List.of_mem_zip hp).2
  refine ⟨⟨r.map (·.1), (keepModes ms t.modes).map (·.1), r.map (·.2)⟩, ?_, ?_⟩
  · simp only [Table.filter, hm, keepModes_range, hr, Option.map_some]
  · have hP : ∀ m, decide (WantsMode ms m) = modeMatch ms m := fun m => by
      rw [Bool.eq_iff_iff, decide_eq_true_eq, modeMatch_iff]
    simp only [hP]
    simp only [Table.records, hm, keepModes_range] at e ⊢
    rw [← e]
    have : (r.map (·.1)).zip (r.map (·.2)) = r := by
      rw [List.zip_map', List.map_id'']
      intro x; rfl
    rw [this]
    have : (((List.range n).filter fun m => modeMatch ms m).map fun m => (m, m)).map (·.1) = (List.range n).filter fun m => modeMatch ms m := by
      rw [List.map_map]; exact List.map_id'' (fun _ => rfl) _
    rw [this]

/-- C51: nothing is read out of bounds whatever the increasing orders of the columns. -/
theorem C51_safe {E : Type*} (tol : K) (fs : FSel K) (hfs : fs.Ok) (ms : Option (List ℕ)) (t : Table K E) (hm : t.modes.Pairwise (· < ·)) :
    ∃ t', t.filter tol fs ms = some t' := by
  obtain ⟨r, hr⟩ := pickRows_safe (E := E) tol fs hfs (keepModes ms t.modes) (fun p hp =>
    zipIdx_strict t.modes 0 (by simp) hm p (List.mem_filter.1 hp).1) (t.freqs.zip t.rows)
  refine ⟨⟨r.map (·.1), (keepModes ms t.modes).map (·.1), r.map (·.2)⟩, ?_⟩
  simp only [Table.filter, hr, Option.map_some]

/-- C51 fails for files of group velocities: the columns hold the orders kept when the file was made, but the order is compared with the
number of entries.  A file with one order `m ≥ 1` has entries, and nothing of it is kept, whatever is asked for. -/
theorem C51_violated {E : Type*} (tol : K) (fs : FSel K) (ms : Option (List ℕ)) (m : ℕ) (hm : 1 ≤ m) (t : Table K E) (ht : t.modes = [m])
    (hr : ∀ row ∈ t.rows, row.length ≤ 1) (t' : Table K E) (h : t.filter tol fs ms = some t') : t'.records = [] := by
  have key : ∀ l : List (K × List E), (∀ p ∈ l, p.2.length ≤ 1) → ∀ r, pickRows tol fs (keepModes ms [m]) l = some r → ∀ p ∈ r, p.2 = [] := by
    intro l
    induction l with
    | nil => intro _ r hr; simp only [pickRows, Option.some.injEq] at hr; subst hr; simp
    | cons p t ih =>
      obtain ⟨f, row⟩ := p
      intro hl r hr
      simp only [pickRows, Option.bind_eq_some_iff] at hr
      obtain ⟨b, -, hr⟩ := hr
      have ht := fun p hp => hl p (List.mem_cons_of_mem _ hp)
      split at hr
      · simp only [Option.bind_eq_some_iff, Option.map_eq_some_iff] at hr
        obtain ⟨q, hq, s, hs, rfl⟩ := hr
        intro p hp
        rcases List.mem_cons.1 hp with rfl | hp
        · have hrow := hl (f, row) (by simp)
          simp only [keepModes, List.zipIdx_cons, List.zipIdx_nil] at hq
          by_cases hmm : modeMatch ms m = true
          · rw [List.filter_cons_of_pos (by simpa using hmm), List.filter_nil, pick, if_pos (by simp only at hrow; omega)] at hq
            simpa using hq.symm
          · rw [List.filter_cons_of_neg (by simpa using hmm), List.filter_nil, pick] at hq
            simpa using hq.symm
        · exact ih ht s hs p hp
      · exact ih ht r hr
  simp only [Table.filter, ht, Option.map_eq_some_iff] at h
  obtain ⟨r, hr', rfl⟩ := h
  have hz := key _ (fun p hp => hr _ (List.of_mem_zip hp).2) r hr'
  simp only [Table.records]
  rw [List.flatMap_eq_nil_iff]
  intro p hp
  have : p.2 = [] := by
    have := (List.of_mem_zip hp).2
    obtain ⟨q, hq, e⟩ := List.mem_map.1 this
    rw [← e]
    exact hz q hq
  rw [this]
  simp

/-- A case of each: phase velocities of three orders at two frequencies; the file made of its order 1, and what is kept of that. -/
def exTable : Table ℚ ℕ := ⟨[1, 2], [0, 1, 2], [[30, 35], [28, 32, 36]]⟩

example : (exTable.filter (1 / 100000000) (.near [2]) (some [0, 2, 7])).map Table.records = some [(2, 0, 28), (2, 2, 36)] := by decide +kernel

example : exTable.filter (1 / 100000000) .all (some [1]) = some ⟨[1, 2], [1], [[35], [32]]⟩ ∧
    (Table.records (⟨[1, 2], [1], [[35], [32]]⟩ : Table ℚ ℕ)) = [(1, 1, 35), (2, 1, 32)] ∧
    ((⟨[1, 2], [1], [[35], [32]]⟩ : Table ℚ ℕ).filter (1 / 100000000) .all none).map Table.records = some [] := by decide +kernel

example : ∃ t', exTable.filter (1 / 100000000) (.range 1 (3 / 2)) none = some t' :=
  C51_safe (1 / 100000000) (.range 1 (3 / 2)) trivial none exTable (by decide)

/-! ### The option `-F` -/

section option
variable [FloorRing K]

/-- What was written after `-F`: one value, a range, or a range with step. -/
inductive FArg (K : Type*) where
  | one (f : K)
  | two (a b : K)
  | three (a b d : K)

/-- The samples `a1 + df·i` with `nf = floor((a2-a1)/df) + 1`, or their reciprocals from the last to the first, grt_disp2asc.c 213-224. -/
def series (a1 a2 df : K) (period : Bool) : List K :=
  let l := (List.range (⌊(a2 - a1) / df⌋ + 1).toNat).map fun i : ℕ => a1 + df * i
  if period then (l.map (1 / ·)).reverse else l

/-- `-F`, grt_disp2asc.c 163-237.  `none`: refused. -/
def parseF (a : FArg K) (period : Bool) : Option (FSel K) :=
  match a with
  | .one f => if f ≤ 0 then none else some (.near (series f f 1 period))
  | .two a b => if a < 0 ∨ b ≤ 0 then none else if a > b then none else some (.range a b)
  | .three a b d =>
    if d ≤ 0 then none else if a < 0 ∨ b ≤ 0 then none else if a > b then none
    else some (.near (series (max a d) (max (max a d) b) d period))

/-- What is asked for: the positive values given by the argument, as frequencies or as periods. -/
def FArg.Asks (a : FArg K) (period : Bool) (f : K) : Prop :=
  ∃ x, 0 < x ∧ (if period then f = 1 / x else f = x) ∧
    match a with
    | .one y => x = y
    | .two a b => a ≤ x ∧ x ≤ b
    | .three a b d => x ≤ b ∧ ∃ i : ℕ, x = a + d * i

theorem mem_series (a1 a2 df : K) (hd : 0 < df) (h : a1 ≤ a2) (period : Bool) (f : K) :
    f ∈ series a1 a2 df period ↔ ∃ i : ℕ, a1 + df * i ≤ a2 ∧ f = if period then 1 / (a1 + df * i) else a1 + df * i := by
  have h0 : 0 ≤ ⌊(a2 - a1) / df⌋ := Int.floor_nonneg.2 (div_nonneg (by linarith) hd.le)
  have key : ∀ i : ℕ, i < (⌊(a2 - a1) / df⌋ + 1).toNat ↔ a1 + df * i ≤ a2 := by
    intro i
    rw [Int.lt_toNat, Int.lt_add_one_iff, Int.le_floor, le_div_iff₀ hd, Int.cast_natCast]
    constructor <;> intro q <;> linarith
  unfold series
  cases period
  · simp only [Bool.false_eq_true, if_false, List.mem_map, List.mem_range, key]
    exact ⟨fun ⟨i, q, e⟩ => ⟨i, q, e.symm⟩, fun ⟨i, q, e⟩ => ⟨i, q, e.symm⟩⟩
  · simp only [if_true, List.mem_reverse, List.mem_map, List.mem_range, key]
    constructor
    · rintro ⟨x, ⟨i, q, rfl⟩, rfl⟩; exact ⟨i, q, rfl⟩
    · rintro ⟨i, q, rfl⟩; exact ⟨_, ⟨i, q, rfl⟩, rfl⟩

/-- C74: where `-F` is one value, a range of frequencies, or a range with step that starts at zero or at the step or above and reaches the
step, the frequencies taken from a file are those asked for (within `1e-8` where values are given).  Missing: ranges of periods and starts below the
step, see `C74_period_violated`, `C74_start_violated`. -/
theorem C74_partial (tol : K) (a : FArg K) (period : Bool)
    (ha : match a with | .one _ => True | .two _ _ => period = false | .three a b d => (a = 0 ∨ d ≤ a) ∧ d ≤ b)
    (s : FSel K) (h : parseF a period = some s) (f : K) (hf : 0 < f) :
    s.Wants tol f ↔ match a with | .two _ _ => a.Asks period f | _ => ∃ g, a.Asks period g ∧ |g - f| < tol := by
  cases a with
  | one y =>
    simp only [parseF] at h
    split at h
    · simp at h
    · rename_i hy
      simp only [Option.some.injEq] at h
      subst h
      simp only [FSel.Wants]
      have hy' : 0 < y := not_le.1 hy
      have hm : ∀ g, g ∈ series y y 1 period ↔ g = if period then 1 / y else y := by
        intro g
        rw [mem_series y y 1 one_pos le_rfl]
        constructor
        · rintro ⟨i, q, rfl⟩
          have : (i : K) = 0 := le_antisymm (by linarith) (Nat.cast_nonneg _)
          rw [this]; simp
        · rintro rfl
          exact ⟨0, by simp, by simp⟩
      refine Iff.symm ?_
      constructor
      · rintro ⟨g, ⟨x, -, hx, rfl⟩, hg⟩
        refine ⟨g, (hm g).2 ?_, hg⟩
        cases period <;> simpa using hx
      · rintro ⟨g, hg, hd⟩
        refine ⟨g, ⟨y, hy', ?_, rfl⟩, hd⟩
        rw [hm] at hg
        cases period <;> simpa using hg
  | two a b =>
    dsimp only at ha
    subst ha
    simp only [parseF] at h
    split at h
    · simp at h
    split at h
    · simp at h
    simp only [Option.some.injEq] at h
    subst h
    simp only [FSel.Wants, FArg.Asks, Bool.false_eq_true, if_false]
    constructor
    · exact fun h1 => ⟨f, hf, rfl, h1⟩
    · rintro ⟨x, h0, rfl, h1⟩
      exact h1
  | three a b d =>
    dsimp only at ha
    simp only [parseF] at h
    split at h
    · simp at h
    rename_i hd
    split at h
    · simp at h
    rename_i hab
    split at h
    · simp at h
    rename_i hle
    simp only [Option.some.injEq] at h
    subst h
    push Not at hd hab hle
    obtain ⟨hstart, hdb⟩ := ha
    have hmax : max (max a d) b = b := max_eq_right (max_le hle hdb)
    simp only [FSel.Wants]
    rw [hmax]
    have hm : ∀ g, g ∈ series (max a d) b d period ↔ (FArg.three a b d).Asks period g := by
      intro g
      rw [mem_series _ _ d hd (max_le hle hdb)]
      constructor
      · rintro ⟨i, q, rfl⟩
        refine ⟨max a d + d * i, ?_, by cases period <;> simp, q, ?_⟩
        · have := le_max_right a d
          have : 0 ≤ d * (i : K) := mul_nonneg hd.le (Nat.cast_nonneg _)
          linarith
        · rcases hstart with rfl | h1
          · exact ⟨i + 1, by rw [max_eq_right hd.le]; push_cast; ring⟩
          · exact ⟨i, by rw [max_eq_left h1]⟩
      · rintro ⟨x, h0, hx, hxb, i, rfl⟩
        rcases hstart with rfl | h1
        · rw [max_eq_right hd.le]
          cases i with
          | zero => simp at h0
          | succ i =>
            refine ⟨i, ?_, ?_⟩
            · push_cast at hxb; linarith
            · have : d + d * (i : K) = 0 + d * ((i + 1 : ℕ) : K) := by push_cast; ring
              rw [this]
              cases period <;> simpa using hx
        · rw [max_eq_left h1]
          refine ⟨i, hxb, ?_⟩
          cases period <;> simpa using hx
    refine Iff.symm ?_
    constructor
    · rintro ⟨g, hg, hd⟩; exact ⟨g, (hm g).2 hg, hd⟩
    · rintro ⟨g, hg, hd⟩; exact ⟨g, (hm g).1 hg, hd⟩

/-- C74 fails for a range of periods: the two values are used as frequencies.  Asked for periods from `a` to `b` with `1 < a`, no frequency
asked for is taken. -/
theorem C74_period_violated (tol : K) (a b : K) (h1 : 1 < a) (h2 : a ≤ b) :
    ∃ s, parseF (.two a b) true = some s ∧ ∀ f, (FArg.two a b).Asks true f → ¬ s.Wants tol f := by
  refine ⟨.range a b, ?_, ?_⟩
  · simp only [parseF]
    rw [if_neg (by push Not; constructor <;> linarith), if_neg (by push Not; exact h2)]
  · rintro f ⟨x, h0, hx, h3, h4⟩ ⟨h5, -⟩
    simp only [if_true] at hx
    rw [hx, le_div_iff₀ h0] at h5
    nlinarith

/-- C74 fails for a start below the step: the first frequency taken is the step itself. -/
theorem C74_start_violated : ∃ s, parseF (.three (1 / 2 : ℚ) 3 1) false = some s ∧ ¬ s.Wants (1 / 100000000) (1 / 2) ∧
    (FArg.three (1 / 2 : ℚ) 3 1).Asks false (1 / 2) ∧ s.Wants (1 / 100000000) 1 ∧
      ¬ ∃ g, (FArg.three (1 / 2 : ℚ) 3 1).Asks false g ∧ |g - 1| < 1 / 100000000 := by
  refine ⟨.near (series 1 3 1 false), by simp only [parseF]; norm_num, ?_, ⟨1 / 2, by norm_num, by simp, by norm_num, 0, by norm_num⟩, ?_, ?_⟩
  · rintro ⟨v, hv, h⟩
    obtain ⟨i, -, rfl⟩ := (mem_series (1 : ℚ) 3 1 one_pos (by norm_num) false v).1 hv
    simp only [Bool.false_eq_true, if_false] at h
    rw [abs_lt] at h
    have : (0 : ℚ) ≤ i := Nat.cast_nonneg _
    linarith
  · refine ⟨1, (mem_series (1 : ℚ) 3 1 one_pos (by norm_num) false 1).2 ⟨0, by norm_num, by norm_num⟩, by norm_num⟩
  · rintro ⟨g, ⟨x, h0, hx, h1, i, hi⟩, hd⟩
    simp only [Bool.false_eq_true, if_false] at hx
    subst hx
    subst hi
    rw [abs_lt] at hd
    rcases Nat.lt_or_ge i 1 with q | q
    · have : i = 0 := by omega
      subst this
      norm_num at hd
    · have : (1 : ℚ) ≤ i := by exact_mod_cast q
      linarith

/-- Cases of `C74_partial`: periods of 10 to 30 s every 10 s; frequencies from zero. -/
example : (series (10 : ℚ) 30 10 true) = [1 / 30, 1 / 20, 1 / 10] := by decide +kernel
example : (parseF (.three (0 : ℚ) 1 (1 / 4)) false).map (fun s => match s with | .near l => l | _ => []) = some [1 / 4, 1 / 2, 3 / 4, 1] := by decide +kernel

end option

end GRT.Modal
