import Verif.Files.OutDir

/-!
Receivers listed in a file: pygrt/C_extension/src/static/recv_points.c 22-44 and 81-180.

Text without NUL characters; hexadecimal numbers and `nan(...)` are not modelled (see `strtod` in Files/Text.lean).  `ERANGE` is
`erange` of Files/OutDir.lean: overflow, or a non-zero value below the normal range.
-/

namespace GRT.Points

open GRT.Num GRT.Files

/-- The loop of `parse_receiver_point_line`, recv_points.c 28-41, with room for `room` more values. -/
def rowFrom (room : ℕ) (cs : List Char) : Option (List ℚ) :=
  let t := cs.dropWhile isSpace
  if t = [] ∨ t.head? = some '#' then some []
  else match room with
    | 0 => none
    | room + 1 =>
      match strtod t with
      | some (_, .fin q, r) => if erange q then none else (rowFrom room r).map (dbl q :: ·)
      | _ => none

/-- `parse_receiver_point_line`, recv_points.c 22-44. -/
def parseRow (cs : List Char) : Option (List ℚ) :=
  (rowFrom 6 cs).bind fun vs => if vs.length = 3 ∨ vs.length = 6 then some vs else none

/-- `grt_is_comment_or_empty`, util.c 332-338. -/
def skipped (cs : List Char) : Bool :=
  let t := cs.dropWhile isSpace
  t.isEmpty || t.head? == some '#'

/-- `grt_trim_whitespace`, util.c 317-329: only the end of the caller's line is cut, and not below its first character that is no
space. -/
def cutEnd (cs : List Char) : List Char :=
  if cs.dropWhile isSpace = [] then cs else (cs.reverse.dropWhile isSpace).reverse

/-- First pass, recv_points.c 91-120: number of points and of columns, `none` if the program stops.  `cols = 0` is "not known yet". -/
def countRows : ℕ → ℕ → List (List Char) → Option (ℕ × ℕ)
  | npts, cols, [] => if npts = 0 then none else some (npts, cols)
  | npts, cols, l :: ls =>
    let l := cutEnd l
    if skipped l then countRows npts cols ls
    else match parseRow l with
      | none => none
      | some vs => if cols ≠ 0 ∧ vs.length ≠ cols then none else countRows (npts + 1) vs.length ls

/-- A receiver, with the strike, dip and rake of a receiver fault if given. -/
structure Point where
  north : ℚ
  east : ℚ
  depth : ℚ
  geom : Option (ℚ × ℚ × ℚ)
  deriving DecidableEq, Repr

/-- The assignments of recv_points.c 166-175. -/
def pointOf (geometry : Bool) (vs : List ℚ) : Option Point :=
  match vs with
  | n :: e :: d :: g =>
    if geometry then
      match g with
      | s :: di :: r :: _ => some ⟨n, e, d, some (s, di, r)⟩
      | _ => none
    else some ⟨n, e, d, none⟩
  | _ => none

/-- Second pass, recv_points.c 141-177, from point `ipt` on; storing outside the arrays of `npts` points is `none` inside `some`. -/
def storeRows (npts cols : ℕ) : ℕ → List (List Char) → Option (Option (List Point))
  | _, [] => some (some [])
  | ipt, l :: ls =>
    let l := cutEnd l
    if skipped l then storeRows npts cols ipt ls
    else match parseRow l with
      | none => none
      | some vs =>
        if vs.length ≠ cols then none
        else if vs.getD 2 0 < 0 then none
        else match pointOf (cols = 6) vs with
          | none => some none
          | some p => if ipt < npts then (storeRows npts cols (ipt + 1) ls).map (·.map (p :: ·)) else some none

/-- Outcome of reading a receiver file. -/
inductive Read where
  | ok (ps : List Point)
  | err
  | undef
  deriving DecidableEq, Repr

/-- `grt_recv_points_from_file`, recv_points.c 81-180, on the lines of the file.  Elements of the arrays not stored stay zero; none
are left (`C71_accepts`). -/
def fromFile (ls : List (List Char)) : Read :=
  match countRows 0 0 ls with
  | none => .err
  | some (npts, cols) =>
    match storeRows npts cols 0 ls with
    | none => .err
    | some none => .undef
    | some (some ps) => .ok ps

/-! ### Specification -/

/-- Text after a number: the end of the line, a space or a comment. -/
def Sep (r : List Char) : Prop := ∀ c, r.head? = some c → isSpace c = true ∨ c = '#'

/-- A written line: numbers in decimal notation with spaces between them and a comment at the end, if any. -/
inductive Row : List (List Char) → List Char → Prop
  | stop (w tail : List Char) : (∀ c ∈ w, isSpace c = true) → (tail = [] ∨ ∃ t, tail = '#' :: t) → Row [] (w ++ tail)
  | num (w tok rest : List Char) (ts : List (List Char)) : (∀ c ∈ w, isSpace c = true) → IsDecimal tok → Sep rest → Row ts rest →
      Row (tok :: ts) (w ++ (tok ++ rest))

/-- A number as a `double`. -/
def number (tok : List Char) : ℚ :=
  match strtod tok with
  | some (_, .fin q, _) => dbl q
  | _ => 0

/-- A number in the normal range of `double`, or zero. -/
def InRange (tok : List Char) : Prop :=
  match strtod tok with
  | some (_, .fin q, _) => |dbl q| < (2 : ℚ) ^ 1024 ∧ (q = 0 ∨ (2 : ℚ) ^ (-1022 : ℤ) ≤ |q|)
  | _ => False

/-! ### Conversion of a number followed by other text -/

theorem takeWhile_stop (p : Char → Bool) (a r : List Char) (h : ∀ c, r.head? = some c → p c = false) :
    (a ++ r).takeWhile p = a.takeWhile p ∧ (a ++ r).dropWhile p = a.dropWhile p ++ r := by
  induction a with
  | nil =>
    cases r with
    | nil => simp
    | cons c t => simp [h c rfl]
  | cons c a ih =>
    by_cases hc : p c = true
    · simp [hc, ih.1, ih.2]
    · simp [hc]

/-- Characters that end a number. -/
def Ends (r : List Char) : Prop := ∀ c, r.head? = some c → isDig c = false ∧ c ≠ '.' ∧ c ≠ 'e' ∧ c ≠ 'E' ∧ c ≠ '+' ∧ c ≠ '-'

theorem sep_ends {r : List Char} (h : Sep r) : Ends r := by
  intro c hc
  rcases h c hc with h | rfl
  · simp only [isSpace, Bool.or_eq_true, beq_iff_eq] at h
    rcases h with ((((rfl | rfl) | rfl) | rfl) | rfl) | rfl <;> decide
  · decide

theorem sign_append (a r : List Char) (hr : Ends r) : sign (a ++ r) = ((sign a).1, (sign a).2 ++ r) := by
  cases a with
  | nil =>
    cases r with
    | nil => rfl
    | cons c t =>
      obtain ⟨-, -, -, -, h1, h2⟩ := hr c rfl
      rw [List.nil_append, sign_digit c t h1 h2]; rfl
  | cons c a =>
    by_cases h1 : c = '+'
    · subst h1; rfl
    · by_cases h2 : c = '-'
      · subst h2; rfl
      · rw [List.cons_append, sign_digit c _ h1 h2, sign_digit c _ h1 h2]; rfl

theorem frac_append (a r : List Char) (hr : Ends r) : frac (a ++ r) = ((frac a).1, (frac a).2 ++ r) := by
  cases a with
  | nil =>
    cases r with
    | nil => rfl
    | cons c t =>
      have h := (hr c rfl).2.1
      rw [List.nil_append, frac.eq_2 _ (by rintro t' e; simp at e; exact h e.1)]; rfl
  | cons c a =>
    by_cases h1 : c = '.'
    · subst h1
      obtain ⟨t1, t2⟩ := takeWhile_stop isDig a r fun c hc => (hr c hc).1
      simp [frac, t1, t2]
    · rw [List.cons_append, frac.eq_2 _ (by rintro t' e; simp at e; exact h1 e.1),
        frac.eq_2 _ (by rintro t' e; simp at e; exact h1 e.1)]; rfl

theorem expo_append (a r : List Char) (hr : Ends r) : expo (a ++ r) = ((expo a).1, (expo a).2 ++ r) := by
  cases a with
  | nil =>
    cases r with
    | nil => rfl
    | cons c t =>
      obtain ⟨-, -, h1, h2, -, -⟩ := hr c rfl
      simp [expo, h1, h2]
  | cons c a =>
    by_cases hc : c = 'e' ∨ c = 'E'
    · obtain ⟨t1, t2⟩ := takeWhile_stop isDig (sign a).2 r fun c hc => (hr c hc).1
      simp only [List.cons_append, expo, if_pos hc, sign_append a r hr, t1, t2]
      split_ifs <;> rfl
    · simp [expo, hc]

theorem decimal_append (a r : List Char) (hr : Ends r) : decimal (a ++ r) = (decimal a).map fun x => (x.1, x.2 ++ r) := by
  obtain ⟨t1, t2⟩ := takeWhile_stop isDig a r fun c hc => (hr c hc).1
  unfold decimal
  rw [t1, t2, frac_append _ r hr]
  dsimp only
  rw [expo_append _ r hr]
  split_ifs <;> rfl

theorem decimal_head (tok : List Char) (h : IsDecimal tok) : ∃ c t, tok = c :: t ∧ isSpace c = false ∧ c ≠ '#' := by
  obtain ⟨sg, ip, pt, fp, ex, rfl, hsg, hip, hfp, hpt, hne, -⟩ := h
  have dig : ∀ c : Char, '0' ≤ c ∧ c ≤ '9' → isSpace c = false ∧ c ≠ '#' := by
    intro c hc
    constructor
    · by_contra hs
      rw [Bool.not_eq_false] at hs
      simp only [isSpace, Bool.or_eq_true, beq_iff_eq] at hs
      rcases hs with ((((rfl | rfl) | rfl) | rfl) | rfl) | rfl <;> · revert hc; decide
    · rintro rfl; revert hc; decide
  rcases hsg with rfl | rfl | rfl
  · cases ip with
    | cons c ip =>
      exact ⟨c, _, rfl, dig c (hip c (by simp))⟩
    | nil =>
      rcases hpt with rfl | ⟨rfl, rfl⟩
      · exact ⟨'.', _, rfl, by decide, by decide⟩
      · exact absurd rfl hne
  · exact ⟨'+', _, rfl, by decide, by decide⟩
  · exact ⟨'-', _, rfl, by decide, by decide⟩

theorem strtod_append (tok r : List Char) (hr : Ends r) (h : IsDecimal tok) :
    ∃ n q, strtod tok = some (n, .fin q, []) ∧ strtod (tok ++ r) = some (n, .fin q, r) := by
  obtain ⟨n, q, hq⟩ := strtod_of_decimal tok h
  refine ⟨n, q, hq, ?_⟩
  obtain ⟨c, t, rfl, hc, -⟩ := decimal_head tok h
  unfold strtod at hq ⊢
  have e1 : ((c :: t) ++ r).dropWhile isSpace = (c :: t) ++ r := by simp [hc]
  have e2 : (c :: t).dropWhile isSpace = c :: t := by simp [hc]
  rw [e2] at hq
  rw [e1, sign_append _ r hr]
  dsimp only at hq ⊢
  rw [decimal_append _ r hr]
  cases hd : decimal (sign (c :: t)).2 with
  | none =>
    rw [hd] at hq
    dsimp only at hq
    split at hq
    · rename_i l r' hl
      simp only [Option.some.injEq, Prod.mk.injEq] at hq
      obtain ⟨-, rfl, -⟩ := hq
      unfold special at hl
      dsimp only at hl
      split_ifs at hl <;> simp at hl
    · cases hq
  | some x =>
    rw [hd] at hq
    simp only [Option.some.injEq, Prod.mk.injEq] at hq
    obtain ⟨h1, h2, h3⟩ := hq
    rw [Option.map_some]
    simp only [Option.some.injEq, Prod.mk.injEq]
    exact ⟨h1, h2, by rw [h3]; rfl⟩

theorem dropWhile_spaces (w r : List Char) (h : ∀ c ∈ w, isSpace c = true) : (w ++ r).dropWhile isSpace = r.dropWhile isSpace := by
  induction w with
  | nil => rfl
  | cons c w ih =>
    rw [List.cons_append, List.dropWhile_cons_of_pos (h c (by simp)), ih fun c hc => h c (by simp [hc])]

theorem erange_iff (q : ℚ) : erange q = false ↔ |dbl q| < (2 : ℚ) ^ 1024 ∧ (q = 0 ∨ (2 : ℚ) ^ (-1022 : ℤ) ≤ |q|) := by
  unfold erange
  rw [decide_eq_false_iff_not, not_or, not_le, not_and_or, not_not, not_lt]

theorem rowFrom_written (ts : List (List Char)) (line : List Char) (h : Row ts line) : ∀ room, ts.length ≤ room →
    (∀ t ∈ ts, InRange t) → rowFrom room line = some (ts.map number) := by
  induction h with
  | stop w tail hw ht =>
    intro room _ _
    unfold rowFrom
    dsimp only
    rw [dropWhile_spaces w tail hw, if_pos]
    · rfl
    · rcases ht with rfl | ⟨t, rfl⟩
      · exact Or.inl rfl
      · exact Or.inr rfl
  | num w tok rest ts hw hd hs _ ih =>
    intro room hl hr
    cases room with
    | zero => simp at hl
    | succ room =>
      obtain ⟨n, q, q1, q2⟩ := strtod_append tok rest (sep_ends hs) hd
      obtain ⟨c, t, rfl, hc, hc'⟩ := decimal_head tok hd
      have e1 : (w ++ (c :: t ++ rest)).dropWhile isSpace = c :: t ++ rest := by
        rw [dropWhile_spaces w _ hw]; simp [hc]
      unfold rowFrom
      dsimp only
      rw [e1, if_neg (by simp [hc']), q2]
      dsimp only
      have hir := hr (c :: t) (by simp)
      unfold InRange at hir
      rw [q1] at hir
      rw [if_neg (by rw [(erange_iff q).2 hir]; simp), ih room (by simpa using hl) fun x hx => hr x (by simp [hx])]
      simp [number, q1]

/-- C71: a line of 3 or 6 numbers separated by spaces, with or without a comment, is read as these numbers. -/
theorem C71_line (ts : List (List Char)) (line : List Char) (h : Row ts line) (hl : ts.length = 3 ∨ ts.length = 6)
    (hr : ∀ t ∈ ts, InRange t) : parseRow line = some (ts.map number) := by
  unfold parseRow
  rw [rowFrom_written ts line h 6 (by omega) hr]
  simp [hl]

/-- Text read as numbers: decimal notation, spaces or not, and a comment at the end, if any. -/
inductive Numbers : ℕ → List Char → Prop
  | stop (w tail : List Char) : (∀ c ∈ w, isSpace c = true) → (tail = [] ∨ ∃ t, tail = '#' :: t) → Numbers 0 (w ++ tail)
  | num (n : ℕ) (w tok rest : List Char) : (∀ c ∈ w, isSpace c = true) → IsDecimal tok → Numbers n rest →
      Numbers (n + 1) (w ++ (tok ++ rest))

theorem strtod_prefix (cs : List Char) (hs : cs.dropWhile isSpace = cs) (n : Bool) (q : ℚ) (r : List Char)
    (h : strtod cs = some (n, .fin q, r)) : ∃ tok, cs = tok ++ r ∧ IsDecimal tok := by
  unfold strtod at h
  rw [hs] at h
  obtain ⟨sg, hsg, hsg'⟩ := sign_spec cs
  dsimp only at h
  split at h
  · rename_i q' r' hd
    simp only [Option.some.injEq, Prod.mk.injEq, Lit.fin.injEq] at h
    obtain ⟨-, -, rfl⟩ := h
    unfold decimal at hd
    dsimp only at hd
    split at hd
    · cases hd
    · rename_i hne
      simp only [Option.some.injEq, Prod.mk.injEq] at hd
      obtain ⟨pt, hf, hpt, hfd⟩ := frac_spec ((sign cs).2.dropWhile isDig)
      obtain ⟨ex, he, hex⟩ := expo_spec (frac ((sign cs).2.dropWhile isDig)).2
      rw [hd.2] at he
      refine ⟨sg ++ (sign cs).2.takeWhile isDig ++ pt ++ (frac ((sign cs).2.dropWhile isDig)).1 ++ ex, ?_,
        sg, (sign cs).2.takeWhile isDig, pt, _, ex, rfl, hsg', fun c h => mem_takeWhile_dig h, hfd, hpt, ?_, hex⟩
      · simp only [List.append_assoc]
        rw [← he, ← List.append_assoc pt, ← hf, List.takeWhile_append_dropWhile, ← hsg]
      · simpa using hne
  · split at h
    · rename_i l r hl
      simp only [Option.some.injEq, Prod.mk.injEq] at h
      obtain ⟨-, rfl, rfl⟩ := h
      unfold special at hl
      dsimp only at hl
      split_ifs at hl <;> simp at hl
    · cases h

theorem rowFrom_numbers : ∀ (room : ℕ) (cs : List Char) (vs : List ℚ), rowFrom room cs = some vs → Numbers vs.length cs := by
  intro room
  induction room with
  | zero =>
    intro cs vs h
    unfold rowFrom at h
    dsimp only at h
    split_ifs at h with h0
    injection h with h; subst h
    rw [← List.takeWhile_append_dropWhile (p := isSpace) (l := cs)]
    refine .stop _ _ (fun c hc => List.mem_takeWhile_imp hc) ?_
    rcases h0 with h0 | h0
    · exact Or.inl h0
    · right
      cases hd : cs.dropWhile isSpace with
      | nil => rw [hd] at h0; cases h0
      | cons c t => rw [hd] at h0; simp at h0; exact ⟨t, by rw [h0]⟩
  | succ room ih =>
    intro cs vs h
    unfold rowFrom at h
    dsimp only at h
    split_ifs at h with h0
    · injection h with h; subst h
      rw [← List.takeWhile_append_dropWhile (p := isSpace) (l := cs)]
      refine .stop _ _ (fun c hc => List.mem_takeWhile_imp hc) ?_
      rcases h0 with h0 | h0
      · exact Or.inl h0
      · right
        cases hd : cs.dropWhile isSpace with
        | nil => rw [hd] at h0; cases h0
        | cons c t => rw [hd] at h0; simp at h0; exact ⟨t, by rw [h0]⟩
    · split at h
      · rename_i n q r hst
        split_ifs at h with her
        rw [Option.map_eq_some_iff] at h
        obtain ⟨ws, hws, rfl⟩ := h
        obtain ⟨tok, e, hd⟩ := strtod_prefix _ (dropWhile_eq_self_of_head fun c hc => head_dropWhile cs c hc) n q r hst
        rw [← List.takeWhile_append_dropWhile (p := isSpace) (l := cs), e]
        exact .num _ _ tok r (fun c hc => List.mem_takeWhile_imp hc) hd (ih r ws hws)
      · cases h

/-- C71: nothing but 3 or 6 decimal numbers, spaces and a comment is accepted. -/
theorem C71_line_only_partial (line : List Char) (vs : List ℚ) (h : parseRow line = some vs) :
    (vs.length = 3 ∨ vs.length = 6) ∧ Numbers vs.length line := by
  unfold parseRow at h
  rw [Option.bind_eq_some_iff] at h
  obtain ⟨v, hv, h⟩ := h
  split_ifs at h with h'
  injection h with h; subst h
  exact ⟨h', rowFrom_numbers 6 line v hv⟩

theorem sample_row : Row ["-1.5".toList, "2e1".toList, ".25".toList] " -1.5\t2e1 .25 # cabin".toList := by
  have d1 : IsDecimal "-1.5".toList := ⟨['-'], ['1'], ['.'], ['5'], [], rfl, by simp, by decide, by decide, by simp, by simp, by simp⟩
  have d2 : IsDecimal "2e1".toList :=
    ⟨[], ['2'], [], [], ['e', '1'], rfl, by simp, by decide, by decide, by simp, by simp, Or.inr ⟨'e', [], ['1'], rfl, by simp, by simp,
      by simp, by decide⟩⟩
  have d3 : IsDecimal ".25".toList := ⟨[], [], ['.'], ['2', '5'], [], rfl, by simp, by decide, by decide, by simp, by simp, by simp⟩
  exact .num [' '] _ "\t2e1 .25 # cabin".toList _ (by decide) d1 (by intro c hc; simp at hc; subst hc; decide)
    (.num ['\t'] _ " .25 # cabin".toList _ (by decide) d2 (by intro c hc; simp at hc; subst hc; decide)
      (.num [' '] _ " # cabin".toList _ (by decide) d3 (by intro c hc; simp at hc; subst hc; decide)
        (.stop [' '] "# cabin".toList (by decide) (Or.inr ⟨_, rfl⟩))))

example : parseRow " -1.5\t2e1 .25 # cabin".toList = some [-3/2, 20, 1/4] := by decide +kernel
example : parseRow "1 2".toList = none ∧ parseRow "1 2 3 4".toList = none ∧ parseRow "1 2 nan".toList = none ∧
    parseRow "1 2 3 4 5 6 7".toList = none ∧ parseRow "1,2,3".toList = none := by decide +kernel

/-- C71 does not hold for text that is no list of numbers separated by spaces: a number stuck to the one before it is read as another
column. -/
theorem C71_glued_violated : parseRow "10-5 3".toList = some [10, -5, 3] ∧ parseRow "1.5.25 3".toList = some [3/2, 1/4, 3] := by
  decide +kernel

/-! ### The whole file -/

/-- The data lines. -/
def dataLines (ls : List (List Char)) : List (List Char) := (ls.map cutEnd).filter fun l => !skipped l

/-- A file is in order: some data line, all of them with the same number of columns and no negative depth. -/
def InOrder (ls : List (List Char)) (rows : List (List ℚ)) : Prop :=
  rows ≠ [] ∧ List.Forall₂ (fun l vs => parseRow l = some vs) (dataLines ls) rows ∧
    (∃ cols, ∀ vs ∈ rows, vs.length = cols) ∧ ∀ vs ∈ rows, 0 ≤ vs.getD 2 0

/-- The receiver of a row: north, east, depth, and the fault plane if there are six columns. -/
def receiver : List ℚ → Point
  | [n, e, d] => ⟨n, e, d, none⟩
  | [n, e, d, s, i, r] => ⟨n, e, d, some (s, i, r)⟩
  | _ => ⟨0, 0, 0, none⟩

theorem row_length (l : List Char) (vs : List ℚ) (h : parseRow l = some vs) : vs.length = 3 ∨ vs.length = 6 := by
  unfold parseRow at h
  rw [Option.bind_eq_some_iff] at h
  obtain ⟨v, -, h⟩ := h
  split_ifs at h with h'
  injection h with h; subst h; exact h'

theorem dataLines_cons (l : List Char) (ls : List (List Char)) :
    dataLines (l :: ls) = if skipped (cutEnd l) then dataLines ls else cutEnd l :: dataLines ls := by
  unfold dataLines
  rw [List.map_cons, List.filter_cons]
  cases skipped (cutEnd l) <;> rfl

theorem pointOf_receiver (l : List Char) (vs : List ℚ) (h : parseRow l = some vs) :
    pointOf (decide (vs.length = 6)) vs = some (receiver vs) := by
  rcases row_length l vs h with h3 | h3
  · match vs, h3 with
    | [a, b, c], _ => rfl
  · match vs, h3 with
    | [a, b, c, d, e, f], _ => rfl

theorem countRows_spec (ls : List (List Char)) : ∀ (n cols : ℕ), (n = 0 ↔ cols = 0) → ∀ x, countRows n cols ls = some x ↔
    ∃ rows, List.Forall₂ (fun l vs => parseRow l = some vs) (dataLines ls) rows ∧ n + rows.length ≠ 0 ∧
      x.1 = n + rows.length ∧ (∀ vs ∈ rows, vs.length = x.2) ∧ (cols ≠ 0 → x.2 = cols) := by
  induction ls with
  | nil =>
    intro n cols hnc x
    unfold countRows
    constructor
    · intro h
      split_ifs at h with h0
      injection h with h; subst h
      exact ⟨[], List.Forall₂.nil, by simpa using h0, rfl, by simp, fun _ => rfl⟩
    · rintro ⟨rows, hf, h0, h1, h2, h3⟩
      cases hf
      simp only [List.length_nil, add_zero] at h0 h1
      rw [if_neg h0]
      have := h3 fun hh => h0 (hnc.2 hh)
      rw [← h1, ← this]
  | cons l ls ih =>
    intro n cols hnc x
    rw [dataLines_cons]
    unfold countRows
    dsimp only
    cases hsk : skipped (cutEnd l) with
    | true => simpa using ih n cols hnc x
    | false =>
      rw [if_neg (by simp), if_neg (by simp)]
      cases hp : parseRow (cutEnd l) with
      | none =>
        simp only [reduceCtorEq, false_iff]
        rintro ⟨rows, hf, -⟩
        cases hf with
        | cons h _ => rw [hp] at h; cases h
      | some vs =>
        dsimp only
        have hv := row_length _ _ hp
        by_cases hc : cols ≠ 0 ∧ vs.length ≠ cols
        · rw [if_pos hc]
          simp only [reduceCtorEq, false_iff]
          rintro ⟨rows, hf, -, -, h2, h3⟩
          cases hf with
          | cons h _ =>
            rw [hp] at h; injection h with h; subst h
            exact hc.2 ((h2 _ (by simp)).trans (h3 hc.1))
        · rw [if_neg hc, ih (n + 1) vs.length (by omega) x]
          constructor
          · rintro ⟨rows, hf, h0, h1, h2, h3⟩
            refine ⟨vs :: rows, .cons hp hf, by simp, by rw [h1, List.length_cons]; ring, ?_, ?_⟩
            · intro w hw
              rcases List.mem_cons.1 hw with rfl | hw
              · exact (h3 (by omega)).symm
              · exact h2 w hw
            · intro h; rw [h3 (by omega)]; by_contra h'; exact hc ⟨h, h'⟩
          · rintro ⟨rows, hf, h0, h1, h2, h3⟩
            cases hf with
            | cons h hf =>
              rename_i w rows
              rw [hp] at h; injection h with h; subst h
              refine ⟨rows, hf, by omega, by rw [h1, List.length_cons]; ring, fun w hw => h2 w (by simp [hw]), fun _ => ?_⟩
              exact (h2 _ (by simp)).symm

theorem storeRows_spec (npts cols : ℕ) (ls : List (List Char)) : ∀ (ipt : ℕ) (rows : List (List ℚ)),
    List.Forall₂ (fun l vs => parseRow l = some vs) (dataLines ls) rows → (∀ vs ∈ rows, vs.length = cols) → ipt + rows.length ≤ npts →
    storeRows npts cols ipt ls = if ∀ vs ∈ rows, 0 ≤ vs.getD 2 0 then some (some (rows.map receiver)) else none := by
  induction ls with
  | nil =>
    intro ipt rows hf _ _
    cases hf
    simp [storeRows]
  | cons l ls ih =>
    intro ipt rows hf hl hn
    rw [dataLines_cons] at hf
    unfold storeRows
    dsimp only
    cases hsk : skipped (cutEnd l) with
    | true =>
      rw [hsk, if_pos rfl] at hf
      rw [if_pos rfl]
      exact ih ipt rows hf hl hn
    | false =>
      rw [hsk, if_neg (by simp)] at hf
      cases hf with
      | cons hp hf =>
        rename_i vs rows
        have hv : vs.length = cols := hl vs (by simp)
        rw [if_neg (by simp), hp]
        dsimp only
        rw [if_neg (by simpa using hv)]
        by_cases hd : vs.getD 2 0 < 0
        · rw [if_pos hd, if_neg]
          intro h
          exact absurd (h vs (by simp)) (not_le.2 hd)
        · rw [if_neg hd]
          have := pointOf_receiver _ _ hp
          rw [hv] at this
          rw [this]
          dsimp only
          rw [List.length_cons] at hn
          rw [if_pos (by omega), ih (ipt + 1) rows hf (fun w hw => hl w (by simp [hw])) (by omega)]
          by_cases hr : ∀ w ∈ rows, 0 ≤ w.getD 2 0
          · rw [if_pos hr, if_pos]
            · rfl
            · intro w hw
              rcases List.mem_cons.1 hw with rfl | hw
              · exact not_lt.1 hd
              · exact hr w hw
          · rw [if_neg hr, if_neg]
            · rfl
            · intro h; exact hr fun w hw => h w (by simp [hw])

/-- C71: a receiver file is accepted exactly if it has a data line, every data line is 3 or 6 numbers, all with the same number of
columns, and no depth is negative.  The receivers are then the data lines in order, each with its own numbers. -/
theorem C71_accepts (ls : List (List Char)) (ps : List Point) :
    fromFile ls = .ok ps ↔ ∃ rows, InOrder ls rows ∧ ps = rows.map receiver := by
  unfold fromFile
  cases hc : countRows 0 0 ls with
  | none =>
    simp only [reduceCtorEq, false_iff]
    rintro ⟨rows, ⟨h0, hf, ⟨cols, hl⟩, -⟩, -⟩
    have := (countRows_spec ls 0 0 (by simp) (rows.length, cols)).2
      ⟨rows, hf, by simpa using h0, by simp, hl, by simp⟩
    rw [hc] at this; cases this
  | some x =>
    obtain ⟨rows, hf, h0, h1, hl, -⟩ := (countRows_spec ls 0 0 (by simp) x).1 hc
    dsimp only
    rw [storeRows_spec x.1 x.2 ls 0 rows hf hl (by omega)]
    have uniq : ∀ rows', List.Forall₂ (fun l vs => parseRow l = some vs) (dataLines ls) rows' → rows' = rows := by
      intro rows' hf'
      clear h0 h1 hl hc
      generalize dataLines ls = ds at hf hf'
      induction hf generalizing rows' with
      | nil => cases hf'; rfl
      | cons h _ ih =>
        cases hf' with
        | cons h' hf' =>
          rw [h] at h'; injection h' with h'
          rw [h', ih _ hf']
    constructor
    · intro h
      split_ifs at h with hd
      simp only [Read.ok.injEq] at h
      exact ⟨rows, ⟨by simpa using h0, hf, ⟨x.2, hl⟩, hd⟩, h.symm⟩
    · rintro ⟨rows', ⟨-, hf', -, hd⟩, rfl⟩
      rw [uniq rows' hf'] at hd ⊢
      rw [if_pos hd]

/-- C71: reading never stores outside the arrays made for the points counted. -/
theorem C71_safe (ls : List (List Char)) : fromFile ls ≠ .undef := by
  unfold fromFile
  cases hc : countRows 0 0 ls with
  | none => simp
  | some x =>
    obtain ⟨rows, hf, h0, h1, hl, -⟩ := (countRows_spec ls 0 0 (by simp) x).1 hc
    dsimp only
    rw [storeRows_spec x.1 x.2 ls 0 rows hf hl (by omega)]
    split_ifs <;> simp

example : fromFile ["# north east depth".toList, "1 2 3".toList, "".toList, "  4 5 0.5 # b".toList] =
    .ok [⟨1, 2, 3, none⟩, ⟨4, 5, 1/2, none⟩] := by decide +kernel
example : fromFile ["1 2 3 10 20 30".toList] = .ok [⟨1, 2, 3, some (10, 20, 30)⟩] ∧
    fromFile ["1 2 3".toList, "1 2 3 10 20 30".toList] = .err ∧ fromFile ["1 2 3".toList, "1 2 -3".toList] = .err ∧
    fromFile ["# only".toList] = .err := by decide +kernel

end GRT.Points
