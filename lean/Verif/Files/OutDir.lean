import Verif.Files.Options
import Mathlib.Data.List.TakeWhile
import Mathlib.Data.Nat.Digits.Defs

/-!
`grt_check_greenfn_output_dir` (pygrt/C_extension/src/common/util.c 176-314): what may be present in a directory that
dynamic or modal Green's functions are written to.
-/

namespace GRT.Files

open GRT.Num

/-- Result of `stat`. -/
inductive Kind where
  | reg
  | dir
  | other
  | unreadable
  deriving DecidableEq, Repr

/-- Leading and trailing white space removed, util.c 190-191. -/
def trim (cs : List Char) : List Char := ((cs.dropWhile isSpace).reverse.dropWhile isSpace).reverse

/-- `errno == ERANGE`: the value overflows, or it is not zero and below the normal range (the rounding of subnormal numbers is
not modelled; exact subnormal numbers are taken to set it as well). -/
def erange (q : ℚ) : Bool := decide ((2 : ℚ) ^ 1024 ≤ |dbl q| ∨ (q ≠ 0 ∧ |q| < (2 : ℚ) ^ (-1022 : ℤ)))

/-- `grt_is_numeric_field`, util.c 187-210. -/
def numericField (cs : List Char) : Bool :=
  let t := trim cs
  if t = [] then false
  else
    match strtod t with
    | some (_, .fin q, []) => !erange q
    | _ => false

/-- Split at the last underscore (`strrchr`, util.c 238, and the scan of util.c 243-246). -/
def lastSplit (cs : List Char) : Option (List Char × List Char) :=
  match cs.reverse.dropWhile (· != '_') with
  | [] => none
  | _ :: b => some (b.reverse, (cs.reverse.takeWhile (· != '_')).reverse)

/-- `grt_is_greenfn_subdir_name`, util.c 224-251. -/
def subdirName (name model : List Char) : Bool :=
  if name.length ≤ model.length ∨ name.take model.length ≠ model ∨ name[model.length]? ≠ some '_' then false
  else
    match lastSplit (name.drop (model.length + 1)) with
    | none => false
    | some (ab, c) =>
      match lastSplit ab with
      | none => false
      | some (a, b) => numericField a && numericField b && numericField c

/-- The decision on one entry, util.c 292-298; `unreadable` covers the error of util.c 285-289. -/
def allowedEntry (model : List Char) (e : List Char × Kind) : Bool :=
  if e.2 = .unreadable then false
  else if e.1 = "command".toList ∨ e.1 = model then decide (e.2 = .reg)
  else if e.2 = .dir then subdirName e.1 model
  else false

/-- `grt_check_greenfn_output_dir`, util.c 263-314, returning whether the program goes on. -/
def checkDir (model : List Char) : List (List Char × Kind) → Bool
  | [] => true
  | e :: es =>
    if e.1 = ".".toList ∨ e.1 = "..".toList then checkDir model es
    else if allowedEntry model e then checkDir model es
    else false

/-! ### Specification -/

/-- Text of a decimal number: digits with an optional sign, point and exponent. -/
def IsDecimal (cs : List Char) : Prop :=
  ∃ sg ip pt fp ex, cs = sg ++ ip ++ pt ++ fp ++ ex ∧ (sg = [] ∨ sg = ['+'] ∨ sg = ['-']) ∧
    (∀ c ∈ ip, '0' ≤ c ∧ c ≤ '9') ∧ (∀ c ∈ fp, '0' ≤ c ∧ c ≤ '9') ∧ (pt = ['.'] ∨ (pt = [] ∧ fp = [])) ∧ ip ++ fp ≠ [] ∧
    (ex = [] ∨ ∃ e s ds, ex = e :: s ++ ds ∧ (e = 'e' ∨ e = 'E') ∧ (s = [] ∨ s = ['+'] ∨ s = ['-']) ∧ ds ≠ [] ∧
      ∀ c ∈ ds, '0' ≤ c ∧ c ≤ '9')

/-- A decimal number between spaces. -/
def IsField (cs : List Char) : Prop :=
  ∃ w1 n w2, cs = w1 ++ n ++ w2 ∧ (∀ c ∈ w1, isSpace c) ∧ (∀ c ∈ w2, isSpace c) ∧ IsDecimal n

/-- The form of the names of Green's function directories of a model. -/
def IsGreenDir (model name : List Char) : Prop :=
  ∃ a b c, name = model ++ '_' :: a ++ '_' :: b ++ '_' :: c ∧ IsField a ∧ IsField b ∧ IsField c

/-- What the tool itself puts in the directory. -/
def Produced (model : List Char) (e : List Char × Kind) : Prop :=
  (e.2 = .reg ∧ (e.1 = "command".toList ∨ e.1 = model)) ∨ (e.2 = .dir ∧ IsGreenDir model e.1)

/-! ### Numbers -/

theorem isDig_iff (c : Char) : isDig c = true ↔ '0' ≤ c ∧ c ≤ '9' := by simp [isDig]

theorem mem_takeWhile_dig {cs : List Char} {c : Char} (h : c ∈ cs.takeWhile isDig) : '0' ≤ c ∧ c ≤ '9' :=
  (isDig_iff c).1 (List.mem_takeWhile_imp h)

theorem sign_spec (cs : List Char) : ∃ sg, cs = sg ++ (sign cs).2 ∧ (sg = [] ∨ sg = ['+'] ∨ sg = ['-']) := by
  unfold sign
  split
  · exact ⟨['+'], by simp⟩
  · exact ⟨['-'], by simp⟩
  · exact ⟨[], by simp⟩

theorem frac_spec (cs : List Char) : ∃ pt, cs = pt ++ (frac cs).1 ++ (frac cs).2 ∧ (pt = ['.'] ∨ (pt = [] ∧ (frac cs).1 = [])) ∧
    ∀ c ∈ (frac cs).1, '0' ≤ c ∧ c ≤ '9' := by
  unfold frac
  split
  · refine ⟨['.'], ?_, by simp, fun c h => mem_takeWhile_dig h⟩
    simp
  · exact ⟨[], by simp⟩

theorem expo_spec (cs : List Char) : ∃ ex, cs = ex ++ (expo cs).2 ∧
    (ex = [] ∨ ∃ e s ds, ex = e :: s ++ ds ∧ (e = 'e' ∨ e = 'E') ∧ (s = [] ∨ s = ['+'] ∨ s = ['-']) ∧ ds ≠ [] ∧
      ∀ c ∈ ds, '0' ≤ c ∧ c ≤ '9') := by
  unfold expo
  split
  · rename_i c t
    split
    · rename_i hc
      dsimp only
      split
      · exact ⟨[], by simp⟩
      · rename_i hd
        obtain ⟨s, hs, hs'⟩ := sign_spec t
        refine ⟨c :: s ++ (sign t).2.takeWhile isDig, ?_, Or.inr ⟨c, s, _, rfl, hc, hs', hd, fun c h => mem_takeWhile_dig h⟩⟩
        simp only [List.cons_append, List.append_assoc, List.takeWhile_append_dropWhile]
        rw [← hs]
    · exact ⟨[], by simp⟩
  · exact ⟨[], by simp⟩

/-- A text entirely converted by `strtod` to a finite value is a decimal number. -/
theorem decimal_of_strtod (cs : List Char) (hs : cs.dropWhile isSpace = cs) (n : Bool) (q : ℚ)
    (h : strtod cs = some (n, .fin q, [])) : IsDecimal cs := by
  unfold strtod at h
  rw [hs] at h
  obtain ⟨sg, hsg, hsg'⟩ := sign_spec cs
  dsimp only at h
  split at h
  · rename_i q' r hd
    simp only [Option.some.injEq, Prod.mk.injEq, Lit.fin.injEq] at h
    obtain ⟨-, -, rfl⟩ := h
    unfold decimal at hd
    dsimp only at hd
    split at hd
    · cases hd
    · rename_i hne
      simp only [Option.some.injEq, Prod.mk.injEq] at hd
      obtain ⟨pt, hf, hpt, hfd⟩ := frac_spec ((sign cs).2.dropWhile isDig)
      obtain ⟨ex, he, hex⟩ := expo_spec (frac ((sign cs).2.dropWhile isDig)).2
      rw [hd.2, List.append_nil] at he
      refine ⟨sg, (sign cs).2.takeWhile isDig, pt, _, ex, ?_, hsg', fun c h => mem_takeWhile_dig h, hfd, hpt, ?_, hex⟩
      · rw [← he, List.append_assoc, List.append_assoc, List.append_assoc, ← List.append_assoc pt, ← hf,
          List.takeWhile_append_dropWhile, ← hsg]
      · simpa using hne
  · split at h
    · rename_i l r hl
      simp only [Option.some.injEq, Prod.mk.injEq] at h
      obtain ⟨-, rfl, rfl⟩ := h
      unfold special at hl
      dsimp only at hl
      split_ifs at hl <;> simp at hl
    · cases h

theorem trim_spec (cs : List Char) : ∃ w1 w2, cs = w1 ++ trim cs ++ w2 ∧ (∀ c ∈ w1, isSpace c) ∧ (∀ c ∈ w2, isSpace c) := by
  refine ⟨cs.takeWhile isSpace, ((cs.dropWhile isSpace).reverse.takeWhile isSpace).reverse, ?_, ?_, ?_⟩
  · unfold trim
    rw [List.append_assoc, ← List.reverse_append, List.takeWhile_append_dropWhile, List.reverse_reverse,
      List.takeWhile_append_dropWhile]
  · intro c h; exact List.mem_takeWhile_imp h
  · intro c h; exact List.mem_takeWhile_imp (List.mem_reverse.1 h)

theorem dropWhile_eq_self_of_head {p : Char → Bool} {l : List Char} (h : ∀ c, l.head? = some c → p c = false) :
    l.dropWhile p = l := by
  cases l with
  | nil => rfl
  | cons c t => simp [List.dropWhile_cons, h c rfl]

theorem head_dropWhile {p : Char → Bool} (l : List Char) (c : Char) (h : (l.dropWhile p).head? = some c) : p c = false := by
  induction l with
  | nil => simp at h
  | cons a t ih =>
    rw [List.dropWhile_cons] at h
    split at h
    · exact ih h
    · rename_i hp; simp at h; subst h; simpa using hp

/-- The first character of a trimmed text is no space. -/
theorem trim_head (cs : List Char) (c : Char) (h : (trim cs).head? = some c) : isSpace c = false := by
  set l := cs.dropWhile isSpace with hl
  have e : trim cs ++ (l.reverse.takeWhile isSpace).reverse = l := by
    unfold trim
    rw [← List.reverse_append, List.takeWhile_append_dropWhile, List.reverse_reverse]
  apply head_dropWhile cs c
  rw [← hl, ← e]
  cases ht : trim cs with
  | nil => rw [ht] at h; simp at h
  | cons a t => rw [ht] at h; simpa using h

theorem field_of_numeric (cs : List Char) (h : numericField cs = true) : IsField cs := by
  obtain ⟨w1, w2, e, h1, h2⟩ := trim_spec cs
  refine ⟨w1, trim cs, w2, e, h1, h2, ?_⟩
  unfold numericField at h
  dsimp only at h
  split at h
  · cases h
  · split at h
    · rename_i n q hq
      exact decimal_of_strtod _ (dropWhile_eq_self_of_head (trim_head cs)) n q hq
    · cases h

/-! ### Names -/

theorem lastSplit_spec (cs a b : List Char) (h : lastSplit cs = some (a, b)) : cs = a ++ '_' :: b ∧ '_' ∉ b := by
  unfold lastSplit at h
  split at h
  · cases h
  · rename_i x t ht
    simp only [Option.some.injEq, Prod.mk.injEq] at h
    obtain ⟨rfl, rfl⟩ := h
    have hx : x = '_' := by
      have := head_dropWhile (p := (· != '_')) cs.reverse x (by rw [ht]; rfl)
      simpa using this
    have e := List.takeWhile_append_dropWhile (p := (· != '_')) (l := cs.reverse)
    rw [ht, hx] at e
    constructor
    · have := congrArg List.reverse e
      rw [List.reverse_reverse] at this
      rw [List.reverse_append, List.reverse_cons, List.append_assoc] at this
      exact this.symm
    · intro hm
      have := List.mem_takeWhile_imp (List.mem_reverse.1 hm)
      simp at this

theorem greenDir_of_subdirName (name model : List Char) (h : subdirName name model = true) : IsGreenDir model name := by
  unfold subdirName at h
  split at h
  · cases h
  · rename_i hc
    push Not at hc
    obtain ⟨h1, h2, h3⟩ := hc
    split at h
    · cases h
    · rename_i ab c hs
      split at h
      · cases h
      · rename_i a b hs'
        simp only [Bool.and_eq_true] at h
        obtain ⟨e1, -⟩ := lastSplit_spec _ _ _ hs
        obtain ⟨e2, -⟩ := lastSplit_spec _ _ _ hs'
        refine ⟨a, b, c, ?_, field_of_numeric a h.1.1, field_of_numeric b h.1.2, field_of_numeric c h.2⟩
        have e3 : name = name.take model.length ++ name.drop model.length := (List.take_append_drop _ _).symm
        have e4 : name.drop model.length = '_' :: name.drop (model.length + 1) := by
          rw [List.drop_eq_getElem_cons h1]
          rw [List.getElem?_eq_getElem h1] at h3
          simp at h3
          rw [h3]
        rw [h2, e4, e1, e2] at e3
        rw [e3]; simp

/-- C46: the program goes on only if everything in the directory has the form of its own output for the same model. -/
theorem C46_sound (model : List Char) (es : List (List Char × Kind)) (h : checkDir model es = true) :
    ∀ e ∈ es, e.1 ≠ ".".toList → e.1 ≠ "..".toList → Produced model e := by
  induction es with
  | nil => simp
  | cons e es ih =>
    intro x hx n1 n2
    unfold checkDir at h
    split at h
    · rename_i hd
      rcases List.mem_cons.1 hx with rfl | hx
      · rcases hd with hd | hd
        · exact absurd hd n1
        · exact absurd hd n2
      · exact ih h x hx n1 n2
    · split at h
      · rename_i ha
        rcases List.mem_cons.1 hx with rfl | hx
        · unfold allowedEntry at ha
          split at ha
          · cases ha
          · split at ha
            · rename_i hn
              exact Or.inl ⟨by simpa using ha, hn⟩
            · split at ha
              · rename_i hd
                exact Or.inr ⟨hd, greenDir_of_subdirName _ _ ha⟩
              · cases ha
        · exact ih h x hx n1 n2
      · cases h

/-! ### One model per directory name -/

theorem no_underscore_dig {c : Char} (h : '0' ≤ c ∧ c ≤ '9') : c ≠ '_' := by
  rintro rfl; revert h; decide

theorem isField_no_underscore (cs : List Char) (h : IsField cs) : '_' ∉ cs := by
  obtain ⟨w1, n, w2, rfl, h1, h2, sg, ip, pt, fp, ex, rfl, hsg, hip, hfp, hpt, -, hex⟩ := h
  have a1 : '_' ∉ w1 := fun h => by have := h1 _ h; revert this; decide
  have a2 : '_' ∉ w2 := fun h => by have := h2 _ h; revert this; decide
  have a3 : '_' ∉ sg := by rcases hsg with rfl | rfl | rfl <;> decide
  have a4 : '_' ∉ ip := fun h => no_underscore_dig (hip _ h) rfl
  have a5 : '_' ∉ fp := fun h => no_underscore_dig (hfp _ h) rfl
  have a6 : '_' ∉ pt := by rcases hpt with rfl | ⟨rfl, -⟩ <;> decide
  have a7 : '_' ∉ ex := by
    rcases hex with rfl | ⟨e, s, ds, rfl, he, hs, -, hds⟩
    · simp
    · have b1 : '_' ≠ e := by rcases he with rfl | rfl <;> decide
      have b2 : '_' ∉ s := by rcases hs with rfl | rfl | rfl <;> decide
      have b3 : '_' ∉ ds := fun h => no_underscore_dig (hds _ h) rfl
      simp [b1, b2, b3]
  simp [a1, a2, a3, a4, a5, a6, a7]

theorem split_unique {x y b c : List Char} (hb : '_' ∉ b) (hc : '_' ∉ c) (h : x ++ '_' :: b = y ++ '_' :: c) : x = y ∧ b = c := by
  have h' := congrArg List.reverse h
  simp only [List.reverse_append, List.reverse_cons, List.append_assoc, List.singleton_append] at h'
  have key : ∀ (u v s t : List Char), '_' ∉ u → '_' ∉ v → u ++ '_' :: s = v ++ '_' :: t → u = v ∧ s = t := by
    intro u
    induction u with
    | nil =>
      intro v s t _ hv e
      cases v with
      | nil => simp at e; exact ⟨rfl, e⟩
      | cons a v => simp at e; exact absurd e.1 (fun h => hv (h ▸ List.mem_cons_self))
    | cons a u ih =>
      intro v s t hu hv e
      cases v with
      | nil => simp at e; exact absurd e.1 (fun h => hu (h ▸ List.mem_cons_self))
      | cons a' v =>
        simp at e hu hv
        obtain ⟨i1, i2⟩ := ih v s t hu.2 hv.2 e.2
        exact ⟨by rw [e.1, i1], i2⟩
  obtain ⟨k1, k2⟩ := key b.reverse c.reverse x.reverse y.reverse (by simpa using hb) (by simpa using hc) h'
  exact ⟨List.reverse_injective k2, List.reverse_injective k1⟩

/-- C46: the name of a Green's function directory belongs to one model only, also when model names contain underscores and digits. -/
theorem C46_one_model (m1 m2 name : List Char) (h1 : subdirName name m1 = true) (h2 : subdirName name m2 = true) : m1 = m2 := by
  obtain ⟨a, b, c, e, ha, hb, hc⟩ := greenDir_of_subdirName _ _ h1
  obtain ⟨a', b', c', e', ha', hb', hc'⟩ := greenDir_of_subdirName _ _ h2
  rw [e] at e'
  have n := isField_no_underscore
  obtain ⟨e1, -⟩ := split_unique (n c hc) (n c' hc') e'
  obtain ⟨e2, -⟩ := split_unique (n b hb) (n b' hb') e1
  exact (split_unique (n a ha) (n a' ha') e2).1

/-- C46: a directory accepted for one model is refused for any other as soon as it contains a Green's function directory. -/
theorem C46_not_mixed (m1 m2 : List Char) (es : List (List Char × Kind)) (hm : m1 ≠ m2)
    (e : List Char × Kind) (he : e ∈ es) (hd : e.2 = .dir) (n1 : e.1 ≠ ".".toList) (n2 : e.1 ≠ "..".toList)
    (h : checkDir m1 es = true) : checkDir m2 es = false := by
  by_contra hc
  rw [Bool.not_eq_false] at hc
  have sub : ∀ m, checkDir m es = true → subdirName e.1 m = true := by
    intro m hm'
    clear hc h hm
    induction es with
    | nil => simp at he
    | cons x es ih =>
      unfold checkDir at hm'
      rcases List.mem_cons.1 he with rfl | he
      · rw [if_neg (not_or.2 ⟨n1, n2⟩)] at hm'
        split at hm'
        · rename_i ha
          unfold allowedEntry at ha
          rw [hd] at ha
          simp only [reduceCtorEq, if_false, if_true, decide_false] at ha
          split at ha
          · cases ha
          · exact ha
        · cases hm'
      · split at hm'
        · exact ih he hm'
        · split at hm'
          · exact ih he hm'
          · cases hm'
  exact hm (C46_one_model m1 m2 e.1 (sub m1 h) (sub m2 hc))

/-! ### Completeness -/

theorem takeWhile_dig (ds r : List Char) (h : ∀ c ∈ ds, '0' ≤ c ∧ c ≤ '9') (hr : ∀ c, r.head? = some c → isDig c = false) :
    (ds ++ r).takeWhile isDig = ds ∧ (ds ++ r).dropWhile isDig = r := by
  induction ds with
  | nil =>
    cases r with
    | nil => simp
    | cons c t => simp [hr c rfl]
  | cons d ds ih =>
    have hd : isDig d = true := (isDig_iff d).2 (h d (by simp))
    obtain ⟨i1, i2⟩ := ih fun c hc => h c (by simp [hc])
    simp [hd, i1, i2]

theorem sign_digit (c : Char) (t : List Char) (h : c ≠ '+') (h' : c ≠ '-') : sign (c :: t) = (false, c :: t) := by
  unfold sign
  split
  · rename_i e; simp at e; exact absurd e.1 h
  · rename_i e; simp at e; exact absurd e.1 h'
  · rfl

theorem dig_ne_sign {c : Char} (h : '0' ≤ c ∧ c ≤ '9') : c ≠ '+' ∧ c ≠ '-' ∧ c ≠ '.' := by
  refine ⟨?_, ?_, ?_⟩ <;> · rintro rfl; revert h; decide

theorem expo_complete (ex : List Char) (h : ex = [] ∨ ∃ e s ds, ex = e :: s ++ ds ∧ (e = 'e' ∨ e = 'E') ∧
    (s = [] ∨ s = ['+'] ∨ s = ['-']) ∧ ds ≠ [] ∧ ∀ c ∈ ds, '0' ≤ c ∧ c ≤ '9') : (expo ex).2 = [] := by
  rcases h with rfl | ⟨e, s, ds, rfl, he, hs, hne, hds⟩
  · rfl
  · have h2 : (sign (s ++ ds)).2 = ds := by
      rcases hs with rfl | rfl | rfl
      · cases ds with
        | nil => exact absurd rfl hne
        | cons d ds =>
          have := dig_ne_sign (hds d (by simp))
          simp [sign_digit d ds this.1 this.2.1]
      · rfl
      · rfl
    obtain ⟨t1, t2⟩ := takeWhile_dig ds [] hds (by simp)
    rw [List.append_nil] at t1 t2
    simp only [List.cons_append, expo, if_pos he, h2, t1, t2, if_neg hne]

/-- `strtod` reads every decimal number to its end. -/
theorem strtod_of_decimal (cs : List Char) (h : IsDecimal cs) : ∃ n q, strtod cs = some (n, .fin q, []) := by
  obtain ⟨sg, ip, pt, fp, ex, rfl, hsg, hip, hfp, hpt, hne, hex⟩ := h
  have hx : ∀ c, ex.head? = some c → isDig c = false := by
    intro c hc
    rcases hex with rfl | ⟨e, s, ds, rfl, he, -⟩
    · simp at hc
    · simp at hc; subst hc; rcases he with rfl | rfl <;> decide
  have hx' : ∀ c, ex.head? = some c → c ≠ '.' := by
    intro c hc
    rcases hex with rfl | ⟨e, s, ds, rfl, he, -⟩
    · simp at hc
    · simp at hc; subst hc; rcases he with rfl | rfl <;> decide
  have hf : frac (pt ++ (fp ++ ex)) = (fp, ex) := by
    rcases hpt with rfl | ⟨rfl, rfl⟩
    · obtain ⟨t1, t2⟩ := takeWhile_dig fp ex hfp hx
      simp [frac, t1, t2]
    · cases ex with
      | nil => rfl
      | cons c t =>
        have := hx' c rfl
        simp only [List.nil_append]
        unfold frac
        split
        · rename_i e; simp at e; exact absurd e.1 this
        · rfl
  have hi : (ip ++ (pt ++ (fp ++ ex))).takeWhile isDig = ip ∧ (ip ++ (pt ++ (fp ++ ex))).dropWhile isDig = pt ++ (fp ++ ex) := by
    apply takeWhile_dig _ _ hip
    intro c hc
    rcases hpt with rfl | ⟨rfl, rfl⟩
    · simp at hc; subst hc; decide
    · exact hx c (by simpa using hc)
  have hd : decimal (ip ++ (pt ++ (fp ++ ex))) =
      some ((digits (ip ++ fp) : ℚ) * (10 : ℚ) ^ ((expo ex).1 - (fp.length : ℤ)), []) := by
    unfold decimal
    rw [hi.1, hi.2, hf]
    dsimp only
    rw [if_neg (by simpa using hne), expo_complete ex hex]
  have head : ∃ c t, ip ++ (pt ++ (fp ++ ex)) = c :: t ∧ (('0' ≤ c ∧ c ≤ '9') ∨ c = '.') := by
    cases ip with
    | cons c ip => exact ⟨c, ip ++ (pt ++ (fp ++ ex)), rfl, Or.inl (hip c (by simp))⟩
    | nil =>
      rcases hpt with rfl | ⟨rfl, rfl⟩
      · exact ⟨'.', fp ++ ex, rfl, Or.inr rfl⟩
      · exact absurd rfl hne
  obtain ⟨c, t, hct, hc⟩ := head
  have hc1 : c ≠ '+' ∧ c ≠ '-' ∧ isSpace c = false := by
    rcases hc with hc | rfl
    · refine ⟨(dig_ne_sign hc).1, (dig_ne_sign hc).2.1, ?_⟩
      by_contra hs
      rw [Bool.not_eq_false] at hs
      simp only [isSpace, Bool.or_eq_true, beq_iff_eq] at hs
      rcases hs with ((((rfl | rfl) | rfl) | rfl) | rfl) | rfl <;> · revert hc; decide
    · decide
  have hs : sign ((sg ++ (ip ++ (pt ++ (fp ++ ex)))).dropWhile isSpace) = (decide (sg = ['-']), ip ++ (pt ++ (fp ++ ex))) := by
    rcases hsg with rfl | rfl | rfl
    · rw [List.nil_append, hct]
      simp [List.dropWhile_cons, hc1.2.2, sign_digit c t hc1.1 hc1.2.1]
    · rfl
    · rfl
  unfold strtod
  simp only [List.append_assoc]
  rw [hs]
  dsimp only
  rw [hd]
  exact ⟨_, _, rfl⟩

/-- Value of the exponent part. -/
theorem expo_value (e : Char) (s ds : List Char) (he : e = 'e' ∨ e = 'E') (hs : s = [] ∨ s = ['+'] ∨ s = ['-']) (hne : ds ≠ [])
    (hds : ∀ c ∈ ds, '0' ≤ c ∧ c ≤ '9') : (expo (e :: s ++ ds)).1 = (if s = ['-'] then -1 else 1) * (digits ds : ℤ) := by
  have h2 : sign (s ++ ds) = (decide (s = ['-']), ds) := by
    rcases hs with rfl | rfl | rfl
    · cases ds with
      | nil => exact absurd rfl hne
      | cons d ds =>
        have := dig_ne_sign (hds d (by simp))
        simp [sign_digit d ds this.1 this.2.1]
    · rfl
    · rfl
  obtain ⟨t1, t2⟩ := takeWhile_dig ds [] hds (by simp)
  rw [List.append_nil] at t1 t2
  simp only [List.cons_append, expo, if_pos he, h2, t1, t2, if_neg hne]
  split_ifs <;> simp_all

/-- The value of decimal digits as written. -/
def digitsSpec (cs : List Char) : ℕ := Nat.ofDigits 10 (cs.reverse.map fun c => c.toNat - 48)

theorem digits_spec (cs : List Char) : digits cs = digitsSpec cs := by
  have key : ∀ (cs : List Char) (a : ℕ), cs.foldl (fun n c => 10 * n + digVal c) a = a * 10 ^ cs.length + digitsSpec cs := by
    intro cs
    induction cs with
    | nil => intro a; simp [digitsSpec]
    | cons c cs ih =>
      intro a
      rw [List.foldl_cons, ih]
      simp only [digitsSpec, List.reverse_cons, List.map_append, Nat.ofDigits_append, List.length_map, List.length_reverse,
        List.map_cons, List.map_nil, Nat.ofDigits_singleton, List.length_cons]
      have : digVal c = c.toNat - 48 := rfl
      rw [this]; ring
  simpa [digits] using key cs 0

/-- C36, C46: numbers have the value they are written with: sign, digits, decimal point and exponent. -/
theorem strtod_value (sg ip fp : List Char) (hsg : sg = [] ∨ sg = ['+'] ∨ sg = ['-']) (hip : ∀ c ∈ ip, '0' ≤ c ∧ c ≤ '9')
    (hfp : ∀ c ∈ fp, '0' ≤ c ∧ c ≤ '9') (hne : ip ≠ []) (e : Char) (s ds : List Char) (he : e = 'e' ∨ e = 'E')
    (hs : s = [] ∨ s = ['+'] ∨ s = ['-']) (hds : ∀ c ∈ ds, '0' ≤ c ∧ c ≤ '9') (hdn : ds ≠ []) :
    strtod (sg ++ (ip ++ '.' :: (fp ++ (e :: s ++ ds)))) = some (decide (sg = ['-']),
      .fin ((if sg = ['-'] then -1 else 1) * (digitsSpec (ip ++ fp) *
        (10 : ℚ) ^ ((if s = ['-'] then -1 else 1) * (digitsSpec ds : ℤ) - fp.length))), []) := by
  have hx : ∀ c, (e :: s ++ ds).head? = some c → isDig c = false := by
    intro c hc
    simp at hc; subst hc; rcases he with rfl | rfl <;> decide
  obtain ⟨t1, t2⟩ := takeWhile_dig fp (e :: s ++ ds) hfp hx
  have hf : frac ('.' :: (fp ++ (e :: s ++ ds))) = (fp, e :: s ++ ds) := by simp only [frac, t1, t2]
  obtain ⟨t3, t4⟩ := takeWhile_dig ip ('.' :: (fp ++ (e :: s ++ ds))) hip (by intro c hc; simp at hc; subst hc; decide)
  have hd : decimal (ip ++ '.' :: (fp ++ (e :: s ++ ds))) = some (digitsSpec (ip ++ fp) *
      (10 : ℚ) ^ ((if s = ['-'] then -1 else 1) * (digitsSpec ds : ℤ) - fp.length), []) := by
    unfold decimal
    rw [t3, t4, hf]
    dsimp only
    rw [if_neg (by simp [hne]), expo_value e s ds he hs hdn hds, expo_complete _ (Or.inr ⟨e, s, ds, rfl, he, hs, hdn, hds⟩),
      digits_spec, digits_spec]
  have head : ∃ c t, ip ++ '.' :: (fp ++ (e :: s ++ ds)) = c :: t ∧ ('0' ≤ c ∧ c ≤ '9') := by
    cases ip with
    | cons c ip => exact ⟨c, _, rfl, hip c (by simp)⟩
    | nil => exact absurd rfl hne
  obtain ⟨c, t, hct, hc⟩ := head
  have hsp : isSpace c = false := by
    by_contra hs
    rw [Bool.not_eq_false] at hs
    simp only [isSpace, Bool.or_eq_true, beq_iff_eq] at hs
    rcases hs with ((((rfl | rfl) | rfl) | rfl) | rfl) | rfl <;> · revert hc; decide
  have hs' : sign ((sg ++ (ip ++ '.' :: (fp ++ (e :: s ++ ds)))).dropWhile isSpace) =
      (decide (sg = ['-']), ip ++ '.' :: (fp ++ (e :: s ++ ds))) := by
    rcases hsg with rfl | rfl | rfl
    · rw [List.nil_append, hct]
      simp [List.dropWhile_cons, hsp, sign_digit c t (dig_ne_sign hc).1 (dig_ne_sign hc).2.1]
    · rfl
    · rfl
  unfold strtod
  rw [hs']
  dsimp only
  rw [hd]
  simp only [decide_eq_true_eq]
  split_ifs <;> simp

example : strtod "-12.5e-1".toList = some (true, .fin (-5/4), []) := by decide +kernel

theorem lastSplit_complete (a b : List Char) (h : '_' ∉ b) : lastSplit (a ++ '_' :: b) = some (a, b) := by
  cases hl : lastSplit (a ++ '_' :: b) with
  | none =>
    unfold lastSplit at hl
    split at hl
    · rename_i ht
      rw [List.dropWhile_eq_nil_iff] at ht
      have := ht '_' (by simp)
      simp at this
    · cases hl
  | some p =>
    obtain ⟨e, hp⟩ := lastSplit_spec _ p.1 p.2 hl
    obtain ⟨e1, e2⟩ := split_unique h hp e
    rw [e1, e2]

/-- C46: the directory names of the tool are recognised, for every model name and all numbers in the range of `double`. -/
theorem C46_complete (model a b c : List Char) (ha : IsDecimal a) (hb : IsDecimal b) (hc : IsDecimal c)
    (hr : ∀ s ∈ [a, b, c], ∀ n q, strtod s = some (n, .fin q, []) → |dbl q| < 2 ^ 1024 ∧ (q ≠ 0 → (2 : ℚ) ^ (-1022 : ℤ) ≤ |q|)) :
    subdirName (model ++ '_' :: a ++ '_' :: b ++ '_' :: c) model = true := by
  have trimmed : ∀ s, IsDecimal s → trim s = s ∧ s ≠ [] := by
    intro s hs
    obtain ⟨sg, ip, pt, fp, ex, e, hsg, hip, hfp, hpt, hne, hex⟩ := hs
    have nosp : ∀ c ∈ s, isSpace c = false := by
      have dig : ∀ c : Char, '0' ≤ c ∧ c ≤ '9' → isSpace c = false := by
        intro c hc
        by_contra hs
        rw [Bool.not_eq_false] at hs
        simp only [isSpace, Bool.or_eq_true, beq_iff_eq] at hs
        rcases hs with ((((rfl | rfl) | rfl) | rfl) | rfl) | rfl <;> · revert hc; decide
      intro c hc
      rw [e] at hc
      simp only [List.mem_append] at hc
      rcases hc with (((hc | hc) | hc) | hc) | hc
      · rcases hsg with rfl | rfl | rfl <;> simp at hc <;> subst hc <;> decide
      · exact dig c (hip c hc)
      · rcases hpt with rfl | ⟨rfl, -⟩ <;> simp at hc <;> subst hc <;> decide
      · exact dig c (hfp c hc)
      · rcases hex with rfl | ⟨x, t, ds, rfl, hx, ht, -, hds⟩
        · simp at hc
        · simp only [List.cons_append, List.mem_cons, List.mem_append] at hc
          rcases hc with rfl | hc | hc
          · rcases hx with rfl | rfl <;> decide
          · rcases ht with rfl | rfl | rfl <;> simp at hc <;> subst hc <;> decide
          · exact dig c (hds c hc)
    have d : ∀ l : List Char, (∀ c ∈ l, isSpace c = false) → l.dropWhile isSpace = l := fun l hl =>
      dropWhile_eq_self_of_head fun c hc => hl c (List.mem_of_mem_head? hc)
    refine ⟨?_, ?_⟩
    · unfold trim
      rw [d s nosp, d s.reverse (fun c hc => nosp c (List.mem_reverse.1 hc)), List.reverse_reverse]
    · rintro rfl
      apply hne
      have := congrArg List.length e
      simp at this
      have h1 : ip = [] := List.eq_nil_of_length_eq_zero (by omega)
      have h2 : fp = [] := List.eq_nil_of_length_eq_zero (by omega)
      rw [h1, h2]; rfl
  have num : ∀ s ∈ [a, b, c], IsDecimal s → numericField s = true := by
    intro s hs hd
    obtain ⟨n, q, hq⟩ := strtod_of_decimal s hd
    obtain ⟨t1, t2⟩ := trimmed s hd
    obtain ⟨r1, r2⟩ := hr s hs n q hq
    unfold numericField
    simp only [t1, if_neg t2, hq]
    simp only [erange, Bool.not_eq_true', decide_eq_false_iff_not, not_or, not_and, not_le, not_lt]
    exact ⟨r1, r2⟩
  have fld : ∀ s, IsDecimal s → '_' ∉ s := fun s hs => isField_no_underscore s ⟨[], s, [], by simp, by simp, by simp, hs⟩
  unfold subdirName
  rw [if_neg]
  · have e : (model ++ '_' :: a ++ '_' :: b ++ '_' :: c).drop (model.length + 1) = (a ++ '_' :: b) ++ '_' :: c := by
      rw [show model ++ '_' :: a ++ '_' :: b ++ '_' :: c = (model ++ ['_']) ++ ((a ++ '_' :: b) ++ '_' :: c) by simp]
      rw [List.drop_left' (by simp)]
    rw [e, lastSplit_complete _ _ (fld c hc)]
    dsimp only
    rw [lastSplit_complete _ _ (fld b hb)]
    simp [num a (by simp) ha, num b (by simp) hb, num c (by simp) hc]
  · push Not
    refine ⟨by simp, by simp, by simp⟩

/-- The text of an accepted distance need not be a number (`C36_lenient_violated`); the directory named after it is then refused
by the next run with the same output directory. -/
theorem C46_rerun_violated : parseReals (fun _ => none) "1e,2".toList = .ok [.num 1, .num 2] ∧
    checkDir "milrow".toList [("command".toList, .reg), ("milrow_2_0_1e".toList, .dir)] = false := by decide +kernel

example : checkDir "my_model".toList [(".".toList, .dir), ("..".toList, .dir), ("command".toList, .reg), ("my_model".toList, .reg),
    ("my_model_2_0_10".toList, .dir), ("my_model_2.5_0_1e+02".toList, .dir)] = true := by decide +kernel
example : subdirName "my_model_2_0_10".toList "my_model".toList = true := by
  have dig : ∀ s : List Char, s ≠ [] → (∀ c ∈ s, '0' ≤ c ∧ c ≤ '9') → IsDecimal s := fun s h1 h2 =>
    ⟨[], s, [], [], [], by simp, by simp, h2, by simp, by simp, by simpa using h1, by simp⟩
  refine C46_complete "my_model".toList "2".toList "0".toList "10".toList (dig _ (by decide) (by decide)) (dig _ (by decide) (by decide))
    (dig _ (by decide) (by decide)) ?_
  intro s hs n q h
  have e1 : strtod "2".toList = some (false, .fin 2, []) := by decide +kernel
  have e2 : strtod "0".toList = some (false, .fin 0, []) := by decide +kernel
  have e3 : strtod "10".toList = some (false, .fin 10, []) := by decide +kernel
  simp only [List.mem_cons, List.not_mem_nil, or_false] at hs
  rcases hs with rfl | rfl | rfl
  · rw [e1] at h; simp only [Option.some.injEq, Prod.mk.injEq, Lit.fin.injEq] at h; rw [← h.2.1]; decide +kernel
  · rw [e2] at h; simp only [Option.some.injEq, Prod.mk.injEq, Lit.fin.injEq] at h; rw [← h.2.1]; decide +kernel
  · rw [e3] at h; simp only [Option.some.injEq, Prod.mk.injEq, Lit.fin.injEq] at h; rw [← h.2.1]; decide +kernel

example : checkDir "my".toList [("my_model_2_0_10".toList, .dir)] = false := by decide +kernel
example : checkDir "my_model".toList [("notes.txt".toList, .reg)] = false := by decide +kernel
example : subdirName "m_1_2_0_10".toList "m_1".toList = true ∧ subdirName "m_1_2_0_10".toList "m".toList = false := by decide +kernel

end GRT.Files
