import Verif.Integ.Log

/-!
The log files of the integration in Python: `read_statsfile`, the file of extrema in `read_statsfile_ptam`, and the curves of `plot_statsdata` (pygrt/utils.py 54-63,
475-505, 635-648, 654-707).  Files are lists of bytes as in Integ/Log.lean.

Left out: the pattern of the file name (`glob`) and the drawing.  A curve is taken point by point.
-/

namespace GRT.Python.Stats

open GRT.Integ

/-- `SRC_M_ORDERS`, `SRC_M_NAME_ABBR`, `qwvchs`, utils.py 58-61. -/
def orders : List ℕ := [0, 0, 1, 0, 1, 2]
def names : List String := ["EX", "VF", "HF", "DD", "DS", "SS"]
def letters : List String := ["q", "w", "v"]

/-- The fields of a record, with their sizes in bytes, utils.py 493-501; `base` is the name of the file. -/
def fields (base : String) : List (String × ℕ) :=
  ((if base.startsWith "K" then "k" else "c"), 8) :: (List.range 6).flatMap fun im =>
    ((List.range 3).filter fun c => ¬(orders.getD im 0 = 0 ∧ letters.getD c "" = "v")).map fun c => (names.getD im "" ++ "_" ++ letters.getD c "", 16)

/-- The fields of a file of extrema, utils.py 635-643. -/
def fieldsPtam : List (String × ℕ) :=
  (List.range 6).flatMap fun im => ((List.range 4).filter fun v => ¬(orders.getD im 0 = 0 ∧ v ≠ 0 ∧ v ≠ 2)).flatMap fun v =>
    [("sum_" ++ names.getD im "" ++ "_" ++ toString v ++ "_k", 8), ("sum_" ++ names.getD im "" ++ "_" ++ toString v, 16)]

/-- One record: its fields follow one another (a `dtype` without alignment). -/
def cut : List (String × ℕ) → List UInt8 → List (String × List UInt8)
  | [], _ => []
  | (s, n) :: l, f => (s, f.take n) :: cut l (f.drop n)

/-- Size of a record. -/
def size (fs : List (String × ℕ)) : ℕ := (fs.map Prod.snd).sum

/-- `np.fromfile` with such a `dtype`, utils.py 504 and 646: as many records as there are; bytes after them are left. -/
def fromfile (fs : List (String × ℕ)) (f : List UInt8) : List (List (String × List UInt8)) :=
  (List.range (f.length / size fs)).map fun i => cut fs (f.drop (i * size fs))

/-- A point of a curve: an exception, not a number, or a number. -/
inductive Cell where
  | err
  | nan
  | val (z : ℂ)

open Classical in
/-- `FJarr` of `_get_stats_Fname` at one wavenumber, utils.py 654-707; `data` is the record, with numbers for bytes.  A quotient by zero is not a number (both
the dividend and the divisor are zero). -/
noncomputable def curve (data : String → Option ℂ) (k r : ℝ) (src p : String) : Cell :=
  if src ∈ names then
    let m : ℕ := orders.getD (names.idxOf src) 0
    if m = 0 then
      if p = "0" then
        match data (src ++ "_q") with
        | some F => .val (-(J 1 (k * r)) * F * k)
        | none => .err
      else if p = "2" then
        match data (src ++ "_w") with
        | some F => .val (J 0 (k * r) * F * k)
        | none => .err
      else .err
    else
      if p = "0" then
        match data (src ++ "_q") with
        | some F => .val (J ((m : ℤ) - 1) (k * r) * F * k)
        | none => .err
      else if p = "1" then
        match data (src ++ "_q"), data (src ++ "_v") with
        | some q, some v => if r = 0 then .nan else .val (-(J m (k * r)) * (q + v) * m / r)
        | _, _ => .err
      else if p = "2" then
        match data (src ++ "_w") with
        | some F => .val (J m (k * r) * F * k)
        | none => .err
      else if p = "3" then
        match data (src ++ "_v") with
        | some F => .val (-(J ((m : ℤ) - 1) (k * r)) * F * k)
        | none => .err
      else .err
  else .err

/-! ### Specification -/

/-- The record of one wavenumber or velocity: every value under its name. -/
def record (first : String) (x : Word 8 × (Fin 6 → Fin 3 → Word 16)) : List (String × List UInt8) :=
  (first, x.1.1) :: kernelColumns.map fun c => (c.2, (x.2 c.1.1 c.1.2).1)

/-- The record of one extremum: the wavenumbers and the sums under their names. -/
def recordPtam (x : (Fin 6 → Fin 4 → Word 8) × (Fin 6 → Fin 4 → Word 16)) : List (String × List UInt8) :=
  pointColumns.flatMap fun c => [(c.2 ++ "_k", (x.1 c.1.1 c.1.2).1), (c.2, (x.2 c.1.1 c.1.2).1)]

/-- The names of the four parts of the integrand; two of them for sources of order 0. -/
def parts (i : Fin 6) : List (String × Fin 4) := if order i = 0 then [("0", 0), ("2", 2)] else [("0", 0), ("1", 1), ("2", 2), ("3", 3)]

/-! ### Reading -/

theorem cut_flat {α : Type} (l : List α) (name : α → String) (n : α → ℕ) (w : α → List UInt8) (h : ∀ c ∈ l, (w c).length = n c) (rest : List UInt8) :
    cut (l.map fun c => (name c, n c)) (l.flatMap w ++ rest) = l.map fun c => (name c, w c) := by
  induction l with
  | nil => rfl
  | cons c l ih =>
    have hc := h c (by simp)
    rw [List.map_cons, List.flatMap_cons, List.append_assoc, cut, List.take_left' hc, List.drop_left' hc, ih fun c hc => h c (by simp [hc])]
    rfl

theorem fromfile_rows {α : Type} (fs : List (String × ℕ)) (enc : α → List UInt8) (row : α → List (String × List UInt8)) (h0 : 0 < size fs)
    (h1 : ∀ x, (enc x).length = size fs) (h2 : ∀ x rest, cut fs (enc x ++ rest) = row x) (xs : List α) (part : List UInt8) (hp : part.length < size fs) :
    fromfile fs (xs.flatMap enc ++ part) = xs.map row := by
  induction xs with
  | nil =>
    unfold fromfile
    rw [List.flatMap_nil, List.nil_append, Nat.div_eq_of_lt hp]
    rfl
  | cons x xs ih =>
    rw [List.flatMap_cons, List.append_assoc, List.map_cons, ← ih]
    generalize xs.flatMap enc ++ part = f
    unfold fromfile
    rw [List.length_append, h1, Nat.add_div_left _ h0, List.range_succ_eq_map, List.map_cons, List.map_map, Nat.zero_mul, List.drop_zero, h2]
    congr 1
    refine List.map_congr_left fun i _ => ?_
    simp only [Function.comp]
    rw [Nat.succ_mul, Nat.add_comm, ← List.drop_drop, List.drop_left' (h1 x)]

theorem size_fields (base : String) : size (fields base) = 248 := by
  unfold size fields
  rw [List.map_cons, List.sum_cons]
  change 8 + _ = 248
  decide

theorem fields_eq (base : String) : fields base =
    ((if base.startsWith "K" then "k" else "c"), 8) :: kernelColumns.map fun c => (c.2, 16) := by
  unfold fields
  congr 1

theorem chnl_eq : chnlLoop = kernelColumns.map Prod.fst := by decide

theorem integ_eq : integLoop = pointColumns.map Prod.fst := by decide

/-- C127: the records that `read_statsfile` returns are those written, every value under the name of its source and component; an unfinished last one is left out. -/
theorem C127_read (base : String) (rows : List (Word 8 × (Fin 6 → Fin 3 → Word 16))) (part : List UInt8) (hp : part.length < 248) :
    fromfile (fields base) (rows.flatMap (fun x => writeStats x.1 x.2) ++ part) = rows.map (record (if base.startsWith "K" then "k" else "c")) := by
  have hc : ∀ (x : Word 8 × (Fin 6 → Fin 3 → Word 16)) rest, cut (fields base) (writeStats x.1 x.2 ++ rest) =
      record (if base.startsWith "K" then "k" else "c") x := by
    intro x rest
    unfold writeStats record
    rw [fields_eq, chnl_eq, List.append_assoc, cut, List.take_left' x.1.2, List.drop_left' x.1.2, List.flatMap_map]
    congr 1
    exact cut_flat kernelColumns (fun c => c.2) (fun _ => 16) (fun c => (x.2 c.1.1 c.1.2).1) (fun c _ => (x.2 c.1.1 c.1.2).2) rest
  refine fromfile_rows _ _ _ (by rw [size_fields]; norm_num) ?_ hc rows part (by rw [size_fields]; exact hp)
  intro x
  rw [size_fields]
  unfold writeStats
  rw [List.length_append, x.1.2, chnl_eq, List.flatMap_map, List.length_flatMap]
  have : ∀ c : (Fin 6 × Fin 3) × String, ((x.2 c.1.1 c.1.2).1).length = 16 := fun c => (x.2 c.1.1 c.1.2).2
  simp only [this]
  decide

/-- Two rows and seven more bytes: two records, and the field `HF_v` of a row is the word of source 2 and component 2. -/
example (x y : Word 8 × (Fin 6 → Fin 3 → Word 16)) : fromfile (fields "K_0001_1.0e+00") (writeStats x.1 x.2 ++ writeStats y.1 y.2 ++ List.replicate 7 0) =
    [record "k" x, record "k" y] ∧ (record "k" x).lookup "HF_v" = some (x.2 2 2).1 := by
  constructor
  · have := C127_read "K_0001_1.0e+00" [x, y] (List.replicate 7 0) (by decide)
    simpa using this
  · simp [record, kernelColumns, List.lookup]

/-- C127: the same for the extrema of `read_statsfile_ptam`. -/
theorem C127_extrema (K : Fin 36 → Fin 6 → Fin 4 → Word 8) (F : Fin 36 → Fin 6 → Fin 4 → Word 16) (part : List UInt8) (hp : part.length < 432) :
    fromfile fieldsPtam (writePtam K F ++ part) = (List.finRange 36).map fun q => recordPtam (K q, F q) := by
  have hs : size fieldsPtam = 432 := by decide
  have he : fieldsPtam = pointColumns.flatMap fun c => [(c.2 ++ "_k", 8), (c.2, 16)] := by decide
  have hcut : ∀ (l : List ((Fin 6 × Fin 4) × String)) (q : Fin 36) (rest : List UInt8),
      cut (l.flatMap fun c => [(c.2 ++ "_k", 8), (c.2, 16)]) ((l.map Prod.fst).flatMap (fun p => (K q p.1 p.2).1 ++ (F q p.1 p.2).1) ++ rest) =
      l.flatMap fun c => [(c.2 ++ "_k", (K q c.1.1 c.1.2).1), (c.2, (F q c.1.1 c.1.2).1)] := by
    intro l q rest
    induction l with
    | nil => rfl
    | cons c l ih =>
      simp only [List.map_cons, List.flatMap_cons, List.append_assoc, List.cons_append, List.nil_append, cut]
      rw [List.take_left' (K q c.1.1 c.1.2).2, List.drop_left' (K q c.1.1 c.1.2).2, List.take_left' (F q c.1.1 c.1.2).2,
        List.drop_left' (F q c.1.1 c.1.2).2, ih]
  unfold writePtam
  refine fromfile_rows _ _ _ (by rw [hs]; norm_num) ?_ ?_ _ part (by rw [hs]; exact hp)
  · intro q
    rw [hs, integ_eq, List.flatMap_map, List.length_flatMap]
    have h1 : ∀ c : (Fin 6 × Fin 4) × String, ((K q c.1.1 c.1.2).1 ++ (F q c.1.1 c.1.2).1).length = 24 := fun c => by
      rw [List.length_append, (K q c.1.1 c.1.2).2, (F q c.1.1 c.1.2).2]
    simp only [h1]
    decide
  · intro q rest
    rw [integ_eq, he]
    exact hcut pointColumns q rest

example (x : (Fin 6 → Fin 4 → Word 8) × (Fin 6 → Fin 4 → Word 16)) : (recordPtam x).lookup "sum_DS_3_k" = some (x.1 4 3).1 ∧
    (recordPtam x).lookup "sum_DS_3" = some (x.2 4 3).1 := by
  simp [recordPtam, pointColumns, List.lookup]

/-! ### Curves -/

/-- The value of a field, with numbers for bytes. -/
def value (dec : List UInt8 → ℂ) (rec : List (String × List UInt8)) (name : String) : Option ℂ := (rec.lookup name).map dec

/-- C127: away from the epicentre the curve plotted for a record is the part of the integrand that the program sums up at its wavenumber. -/
theorem C127_plot (dec : List UInt8 → ℂ) (k r : ℝ) (hk : 0 < k) (hr : 1 / 10 ^ 8 < r) (x : Word 8 × (Fin 6 → Fin 3 → Word 16)) (first : String)
    (hf : first = "k" ∨ first = "c") (i : Fin 6) (p : String × Fin 4) (hp : p ∈ parts i) (old : Grid) :
    curve (value dec (record first x)) k r (abbr i) p.1 = .val (intPk k r (fun i c => dec (x.2 i c).1) false old i p.2) := by
  have hr0 : r ≠ 0 := by
    have : (0 : ℝ) < 1 / 10 ^ 8 := by positivity
    exact (this.trans hr).ne'
  have hz : ¬zeroDist r := not_le.2 hr
  have hkc : (k : ℂ) ≠ 0 := by exact_mod_cast hk.ne'
  have hrc : (r : ℂ) ≠ 0 := by exact_mod_cast hr0
  have look : ∀ c ∈ kernelColumns, value dec (record first x) c.2 = some (dec (x.2 c.1.1 c.1.2).1) := by
    intro c hc
    unfold value record
    rcases hf with rfl | rfl <;> fin_cases hc <;> simp [kernelColumns, List.lookup]
  have hcol : ∀ n (a : Fin 6) (b : Fin 3), ((a, b), n) ∈ kernelColumns → value dec (record first x) n = some (dec (x.2 a b).1) := fun n a b h => look _ h
  have hm : ∀ m, jmcoef k r false m = bessel (k * r) m * (1 / (k * r)) * k := fun m => by simp [jmcoef, hz]
  have hb : ∀ m, bjmk k r false m = bessel (k * r) m * k := fun m => by simp [bjmk, hz]
  fin_cases i <;> simp [parts, order] at hp
  all_goals first | (rcases hp with rfl | rfl) | (rcases hp with rfl | rfl | rfl | rfl)
  all_goals
    simp [curve, names, orders, abbr, intPk, order, pkEntry, hb, hm, bessel, hr0, List.idxOf, List.findIdx, List.findIdx.go,
      hcol "EX_q" 0 0 (by decide), hcol "EX_w" 0 1 (by decide), hcol "VF_q" 1 0 (by decide), hcol "VF_w" 1 1 (by decide),
      hcol "HF_q" 2 0 (by decide), hcol "HF_w" 2 1 (by decide), hcol "HF_v" 2 2 (by decide), hcol "DD_q" 3 0 (by decide), hcol "DD_w" 3 1 (by decide),
      hcol "DS_q" 4 0 (by decide), hcol "DS_w" 4 1 (by decide), hcol "DS_v" 4 2 (by decide), hcol "SS_q" 5 0 (by decide), hcol "SS_w" 5 1 (by decide),
      hcol "SS_v" 5 2 (by decide)]
  all_goals try field_simp
  all_goals try ring

/-- The hypotheses of C127_plot hold for a source of order 1 at a distance of 1. -/
example : (0 : ℝ) < 2 ∧ (1 : ℝ) / 10 ^ 8 < 1 ∧ (("1", 1) : String × Fin 4) ∈ parts 2 := by
  refine ⟨by norm_num, by norm_num, by simp [parts, order]⟩

/-- C127: any other source or part is an exception; a part exists for a source exactly if the program sums it up. -/
theorem C127_exception (dec : List UInt8 → ℂ) (k r : ℝ) (x : Word 8 × (Fin 6 → Fin 3 → Word 16)) (first src p : String)
    (h : ∀ i : Fin 6, src = abbr i → ∀ q : Fin 4, (p, q) ∉ parts i) : curve (value dec (record first x)) k r src p = .err := by
  unfold curve
  split
  · rename_i hs
    have hs' : ∃ i : Fin 6, src = abbr i := by
      simp only [names, List.mem_cons, List.not_mem_nil, or_false] at hs
      rcases hs with rfl | rfl | rfl | rfl | rfl | rfl
      exacts [⟨0, rfl⟩, ⟨1, rfl⟩, ⟨2, rfl⟩, ⟨3, rfl⟩, ⟨4, rfl⟩, ⟨5, rfl⟩]
    obtain ⟨i, rfl⟩ := hs'
    have hi := h i rfl
    have h0 : p ≠ "0" := fun e => hi 0 (by subst e; unfold parts; split <;> simp)
    have h2 : p ≠ "2" := fun e => hi 2 (by subst e; unfold parts; split <;> simp)
    by_cases ho : order i = 0
    · have : orders.getD (names.idxOf (abbr i)) 0 = 0 := by clear hi h h0 h2 hs; revert ho; revert i; decide
      simp only [this, if_true, if_neg h0, if_neg h2]
    · have : orders.getD (names.idxOf (abbr i)) 0 ≠ 0 := by
        clear hi h h0 h2 hs; revert ho; revert i; decide
      have h1 : p ≠ "1" := fun e => hi 1 (by subst e; unfold parts; rw [if_neg ho]; simp)
      have h3 : p ≠ "3" := fun e => hi 3 (by subst e; unfold parts; rw [if_neg ho]; simp)
      simp only [if_neg this, if_neg h0, if_neg h1, if_neg h2, if_neg h3]
  · rfl

example : ∀ i : Fin 6, "EX" = abbr i → ∀ q : Fin 4, (("1", q) : String × Fin 4) ∉ parts i := by decide

/-- C127 fails at the epicentre: the second part of a source of order 1 is not a number in Python, whereas the program uses the limit. -/
theorem C127_violated_epicentre (dec : List UInt8 → ℂ) (k : ℝ) (x : Word 8 × (Fin 6 → Fin 3 → Word 16)) (first : String)
    (hf : first = "k" ∨ first = "c") (old : Grid) :
    curve (value dec (record first x)) k 0 "HF" "1" = .nan ∧
    intPk k 0 (fun i c => dec (x.2 i c).1) false old 2 1 = -(dec (x.2 2 0).1 + dec (x.2 2 2).1) * (k / 2) := by
  constructor
  · have hq : value dec (record first x) "HF_q" = some (dec (x.2 2 0).1) := by
      unfold value record; rcases hf with rfl | rfl <;> simp [kernelColumns, List.lookup]
    have hv : value dec (record first x) "HF_v" = some (dec (x.2 2 2).1) := by
      unfold value record; rcases hf with rfl | rfl <;> simp [kernelColumns, List.lookup]
    simp [curve, names, orders, List.idxOf, List.findIdx, List.findIdx.go, hq, hv]
  · have hz : zeroDist 0 := by unfold zeroDist; positivity
    simp [intPk, order, pkEntry, jmcoef, hz]
    left
    ring

end GRT.Python.Stats
