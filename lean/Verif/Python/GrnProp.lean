import Verif.Python.Grn
import Verif.Python.SynProp

/-! C123: a call of `compute_grn` makes the program work with the values of the call. -/

namespace GRT.Python.Grn

open GRT.Num GRT.Files GRT.Points GRT.Python GRT.Python.Syn

/-! ### Specification -/

/-- A number of at most fifteen significant digits, not above 10^14. -/
def Small (x : ℚ) : Prop := Literal x ∧ |x| ≤ 10 ^ 14

/-- The documented names of the methods, in any case. -/
def IsMethod (t : Text) (c : Option Conv) : Prop :=
  (upper t = "AUTO".toList ∧ c = none) ∨ (upper t = "DCM".toList ∧ c = some .dcm) ∨ (upper t = "PTAM".toList ∧ c = some .ptam) ∨
    (upper t = "NONE".toList ∧ c = some .refuse)

/-- Whether a source is wanted: all are when no list is given. -/
def wants (gf : Option (List Text)) (name : String) : Bool :=
  match gf with
  | none => true
  | some l => l.any fun t => upper t = name.toList

/-- What the program should work with. -/
def expected (a : Args) (c : Option Conv) : Ctrl where
  M := some a.model
  dBoth := decide (a.depsrc.length = 1 ∧ a.deprcv.length = 1)
  dSrc := decide ¬(a.depsrc.length = 1 ∧ a.deprcv.length = 1)
  dRcv := decide ¬(a.depsrc.length = 1 ∧ a.deprcv.length = 1)
  srcs := a.depsrc.map .num
  rcvs := a.deprcv.map .num
  top := a.top
  bot := a.bot
  N := true
  nt := a.nt.toNat
  dt := .num a.dt
  zeta := .num a.zeta
  upsample := a.upsample.toNat
  keepAll := a.keepAll
  skipImag := a.skipImag
  O := some a.grn
  f1 := .num a.f1
  f2 := .num a.f2
  length := .num a.length
  kcut := .num a.filonCut
  fim := if a.filonLength = 0 then none else some (.num a.filonLength)
  safim := if a.safilonTol = 0 then none else some (.num a.safilonTol)
  conv := c
  keps := .num a.keps
  ampk := .num a.ampk
  k0 := .num a.k0
  vmin := .num a.vmin
  useRef := a.useRef
  t0 := .num a.t0
  v0 := if a.firstP then .num 0 else .num a.v0
  firstP := a.firstP
  stats := a.stats.map fun l => if l = [] then none else some l
  R := some (a.dists.map .num)
  ex := wants a.gf "EX"
  vf := wants a.gf "VF"
  hf := wants a.gf "HF"
  dc := wants a.gf "DC"
  e := a.upar
  s := !a.log

/-- What is asked of the values; that the delay with the first P wave is negative is not documented. -/
structure Allowed (a : Args) : Prop where
  zeta : 0 < a.zeta
  upsample : 0 < a.upsample
  band : ¬(0 < a.f1 ∧ 0 < a.f2 ∧ a.f2 < a.f1)
  filon : a.filonLength = 0 ∨ a.safilonTol = 0
  k0 : 0 ≤ a.k0
  ampk : 0 ≤ a.ampk
  vmin : 0 ≤ a.vmin
  delay : if a.firstP then a.t0 < 0 else 0 ≤ a.v0
  sources : a.gf ≠ some []
  stats : ∀ l ∈ a.stats, ∀ n ∈ l, 0 ≤ n

/-! ### Texts -/

theorem Small.plain {x : ℚ} (h : Small x) : Plain x := ⟨h.1, h.2.trans (by decide +kernel)⟩

theorem layout_plus {ds : List Char} {e : ℤ} (hd : ∀ c ∈ ds, '0' ≤ c ∧ c ≤ '9') (he : e < 15) : '+' ∉ layout ds e := by
  have h1 : ∀ l : List Char, (∀ c ∈ l, '0' ≤ c ∧ c ≤ '9') → '+' ∉ l := fun l hl h => absurd (hl _ h) (by decide)
  have h2 : ∀ l : List Char, (∀ c ∈ l, '0' ≤ c ∧ c ≤ '9') → '+' ∉ pt l := by
    intro l hl
    unfold pt
    split_ifs
    · simp
    · simpa using h1 l hl
  unfold layout
  split_ifs with c1 c2 c3
  · rw [List.mem_append, not_or]
    exact ⟨h1 _ fun c hc => hd c (List.mem_of_mem_take hc), h2 _ fun c hc => hd c (List.mem_of_mem_drop (mem_strip hc))⟩
  · rw [List.mem_cons, not_or]
    refine ⟨by decide, h2 _ fun c hc => ?_⟩
    rw [List.mem_append] at hc
    rcases hc with hc | hc
    · rw [List.mem_replicate] at hc; rw [hc.2]; decide
    · exact hd c (mem_strip hc)
  · simp only [List.mem_append, List.mem_cons, not_or]
    exact ⟨h1 _ fun c hc => hd c (List.mem_of_mem_take hc), h2 _ fun c hc => hd c (List.mem_of_mem_drop (mem_strip hc)), by decide, by simp,
      h1 _ (dig_isDigit _ _)⟩
  · omega

theorem not_plus {x : ℚ} (h : |x| ≤ 10 ^ 14) : '+' ∉ formatFloat x := by
  unfold formatFloat
  split_ifs with h0 h1
  · decide
  all_goals
    have hr := dec15_rel x
    have hlt : |dec15 x| < 10 ^ 15 := by
      have : |dec15 x| ≤ |dec15 x - x| + |x| := by
        have := abs_add_le (dec15 x - x) x
        simpa using this
      have e : |x| / (2 * 10 ^ 14) ≤ 1 := by
        rw [div_le_one (by norm_num)]; linarith
      linarith
    have he : Int.log 10 |dec15 x| < 15 := by
      by_cases hz : |dec15 x| = 0
      · rw [hz]; simp
      · exact (Int.lt_zpow_iff_log_lt (by norm_num) (lt_of_le_of_ne (abs_nonneg _) (Ne.symm hz))).1 (by exact_mod_cast hlt)
    have := layout_plus (dig_isDigit 15 ⌊|dec15 x| * (10 : ℚ) ^ (14 - Int.log 10 |dec15 x|)⌋.toNat) he
    simpa using this

theorem int_chars (n : ℤ) : ∀ c ∈ intText n, c = '-' ∨ ('0' ≤ c ∧ c ≤ '9') := by
  intro c hc
  unfold intText at hc
  rw [List.mem_append] at hc
  rcases hc with hc | hc
  · split_ifs at hc
    · simp at hc; exact .inl hc
    · simp at hc
  · exact .inr (dig_isDigit _ _ c hc)

theorem int_plus (n : ℤ) : '+' ∉ intText n := fun h => by rcases int_chars n _ h with h | h <;> revert h <;> decide
theorem int_comma (n : ℤ) : ',' ∉ intText n := fun h => by rcases int_chars n _ h with h | h <;> revert h <;> decide

theorem split_plus (t : Text) (ps : List Text) (ht : t ≠ [] ∧ '+' ∉ t) (h : ∀ p ∈ ps, p ≠ [] ∧ '+' ∉ p) : split '+' (t ++ plus ps) = t :: ps := by
  induction ps generalizing t with
  | nil => simpa [plus] using split_last '+' t ht.1 ht.2
  | cons p ps ih =>
    have : plus (p :: ps) = '+' :: (p ++ plus ps) := rfl
    rw [this, split_token _ _ _ ht.1 ht.2, ih p (h p (by simp)) fun q hq => h q (by simp [hq])]

theorem split_parts (ps : List Text) (h : ∀ p ∈ ps, p ≠ [] ∧ '+' ∉ p) : split '+' (plus ps) = ps := by
  cases ps with
  | nil => rfl
  | cons p ps =>
    have : split '+' (plus (p :: ps)) = split '+' (p ++ plus ps) := rfl
    rw [this, split_plus _ _ (h p (by simp)) fun q hq => h q (by simp [hq])]

theorem head_not (x : ℚ) (r : Text) {c : Char} (hc : c ∉ "0123456789eE+-.".toList) : (formatFloat x ++ r).head? ≠ some c := by
  obtain ⟨d, t, e⟩ : ∃ d t, formatFloat x = d :: t := by
    cases h : formatFloat x with
    | nil => exact absurd h (formatFloat_ne x)
    | cons d t => exact ⟨d, t, rfl⟩
  rw [e]
  rintro h
  injection h with h
  subst h
  exact hc (formatFloat_chars x _ (by rw [e]; simp))

theorem stops_plus (ps : List Text) : Stops (plus ps) := by
  intro c h
  cases ps with
  | nil => simp [plus] at h
  | cons p ps =>
    simp [plus] at h
    subst h; decide

theorem num_lt (x y : ℚ) : (Val.num x).lt (.num y) = decide (x < y) := rfl

theorem notPos_num (x : ℚ) : notPos (.num x) = decide (x ≤ 0) := by
  unfold notPos
  by_cases h : x < 0
  · simp [num_lt, h, h.le]
  · by_cases h2 : x = 0
    · simp [h2]
    · have : ¬x ≤ 0 := fun h3 => h2 (le_antisymm h3 (not_lt.1 h))
      simp [num_lt, h, h2, this]

/-! ### Single options -/

section
variable {file : List Char → Option (List Char)} {k : Ctrl} {rest : List Text} {a : Args}

theorem run_req {c : Char} {t : Text} (h : arity c = some .req) (ht : t ≠ []) :
    run file k (('-' :: c :: t) :: rest) = (step file k (c, some t)).bind fun k => run file k rest := by
  have hc : c ≠ '-' := by rintro rfl; revert h; decide
  unfold run
  rw [getopt_req hc h ht]
  cases getopt arity rest with
  | none => cases step file k (c, some t) <;> rfl
  | some os =>
    simp only [Option.map_some, Option.bind_some, List.foldlM_cons]
    cases step file k (c, some t) <;> rfl

theorem run_flag {c : Char} (h : arity c = some .flag) :
    run file k (['-', c] :: rest) = (step file k (c, none)).bind fun k => run file k rest := by
  have hc : c ≠ '-' := by rintro rfl; revert h; decide
  unfold run
  rw [getopt_flag hc h]
  cases getopt arity rest with
  | none => cases step file k (c, none) <;> rfl
  | some os =>
    simp only [Option.map_some, Option.bind_some, List.foldlM_cons]
    cases step file k (c, none) <;> rfl

theorem run_opt {c : Char} {t : Text} (h : arity c = some .opt) :
    run file k (('-' :: c :: t) :: rest) = (step file k (c, if t = [] then none else some t)).bind fun k => run file k rest := by
  have hc : c ≠ '-' := by rintro rfl; revert h; decide
  unfold run
  rw [getopt_opt hc h]
  generalize (if t = [] then none else some t) = o
  cases getopt arity rest with
  | none => cases step file k (c, o) <;> rfl
  | some os =>
    simp only [Option.map_some, Option.bind_some, List.foldlM_cons]
    cases step file k (c, o) <;> rfl

/-- The other single values set. -/
def setM (t : Text) (k : Ctrl) : Ctrl := { k with M := some t }
def setO (t : Text) (k : Ctrl) : Ctrl := { k with O := some t }
def setR (a : Args) (k : Ctrl) : Ctrl := { k with R := some (a.dists.map .num) }
def setB (a : Args) (k : Ctrl) : Ctrl := { k with top := a.top, bot := a.bot }
def setH (a : Args) (k : Ctrl) : Ctrl := { k with f1 := .num a.f1, f2 := .num a.f2 }
def setC (c : Option Conv) (k : Ctrl) : Ctrl := { k with conv := c.or k.conv }
def sete (b : Bool) (k : Ctrl) : Ctrl := { k with e := b || k.e }
def sets (b : Bool) (k : Ctrl) : Ctrl := { k with s := b || k.s }

theorem run_M {t : Text} (ht : t ≠ []) : run file k (("-M".toList ++ t) :: rest) = run file (setM t k) rest :=
  (run_req (c := 'M') (by decide) ht).trans rfl

theorem run_O {t : Text} (ht : t ≠ []) : run file k (("-O".toList ++ t) :: rest) = run file (setO t k) rest :=
  (run_req (c := 'O') (by decide) ht).trans rfl

/-- The depths set. -/
def setD (a : Args) (k : Ctrl) : Ctrl :=
  if a.depsrc.length = 1 ∧ a.deprcv.length = 1 then { k with dBoth := true, srcs := a.depsrc.map .num, rcvs := a.deprcv.map .num }
  else { k with dSrc := true, dRcv := true, srcs := a.depsrc.map .num, rcvs := a.deprcv.map .num }

theorem joinComma_ne {xs : List ℚ} (h : xs ≠ []) : joinComma xs ≠ [] := by
  match xs with
  | [] => exact absurd rfl h
  | [x] => exact formatFloat_ne x
  | x :: y :: ys => rw [joinComma]; simp [formatFloat_ne x]

theorem joinComma_head {xs : List ℚ} {c : Char} (hc : c ∉ "0123456789eE+-.,".toList) : (joinComma xs).head? ≠ some c := fun h =>
  hc (joinComma_chars xs c (List.mem_of_mem_head? h))

theorem run_D (hs : normalize a.depsrc = some a.depsrc) (hr : normalize a.deprcv = some a.deprcv) (ps : ∀ x ∈ a.depsrc, Plain x)
    (pr : ∀ x ∈ a.deprcv, Plain x) : run file k (depths a.depsrc a.deprcv ++ rest) = run file (setD a k) rest := by
  obtain ⟨-, n1, q1, -⟩ := normalize_some hs
  obtain ⟨-, n2, q2, -⟩ := normalize_some hr
  have l1 : 0 < a.depsrc.length := List.length_pos_iff.2 n1
  have l2 : 0 < a.deprcv.length := List.length_pos_iff.2 n2
  unfold depths setD
  by_cases h : a.depsrc.length = 1 ∧ a.deprcv.length = 1
  · rw [if_neg (by omega), if_pos h]
    obtain ⟨x, hx⟩ := List.length_eq_one_iff.1 h.1
    obtain ⟨y, hy⟩ := List.length_eq_one_iff.1 h.2
    rw [hx] at ps q1 ⊢
    rw [hy] at pr q2 ⊢
    have px := ps x (by simp)
    have py := pr y (by simp)
    have zx := q1 x (by simp)
    have zy := q2 y (by simp)
    change run file k (("-D".toList ++ joinSlash [x, y]) :: rest) = _
    refine (run_req (c := 'D') (by decide) (joinSlash_ne (by simp))).trans ?_
    have h1 : (joinSlash [x, y]).head? ≠ some 's' := head_not x _ (by decide)
    have h2 : (joinSlash [x, y]).head? ≠ some 'r' := head_not x _ (by decide)
    have h3 := scanSlash_join [x, y] (by simp [px, py]) 2 (by simp)
    simp only [step, if_neg h1, h2, false_and, if_false, h3, List.map_cons, List.map_nil, num_lt]
    simp [not_lt.2 zx, not_lt.2 zy]
  · rw [if_pos (by omega), if_neg h]
    change run file k (("-Ds".toList ++ joinComma a.depsrc) :: ("-Dr".toList ++ joinComma a.deprcv) :: rest) = _
    refine (run_req (c := 'D') (t := 's' :: joinComma a.depsrc) (by decide) (by simp)).trans ?_
    have e1 := C121_list_partial file hs (fun x hx => (ps x hx).1) fun x hx => (ps x hx).2
    have e2 := C121_list_partial file hr (fun x hx => (pr x hx).1) fun x hx => (pr x hx).2
    simp only [step, List.head?_cons, if_true, List.tail_cons, e1, Option.bind_some]
    refine (run_req (c := 'D') (t := 'r' :: joinComma a.deprcv) (by decide) (by simp)).trans ?_
    have h3 : (joinComma a.deprcv).head? ≠ some '/' := joinComma_head (by decide)
    simp [step, e2, h3]

theorem run_R (hs : normalize a.dists = some a.dists) (ps : ∀ x ∈ a.dists, Plain x) :
    run file k (("-R".toList ++ joinComma a.dists) :: rest) = run file (setR a k) rest := by
  obtain ⟨-, n1, -, -⟩ := normalize_some hs
  refine (run_req (c := 'R') (by decide) (joinComma_ne n1)).trans ?_
  have e1 := C121_list_partial file hs (fun x hx => (ps x hx).1) fun x hx => (ps x hx).2
  simp only [step, e1, Option.bind_some, setR]

theorem run_B : run file k (("-B".toList ++ boundary a.top a.bot) :: rest) = run file (setB a k) rest := by
  refine (run_req (c := 'B') (by decide) (by simp [boundary])).trans ?_
  cases ht : a.top <;> cases hb : a.bot <;> simp [step, boundary, stepB, setB, ht, hb]

theorem run_H (h1 : Plain a.f1) (h2 : Plain a.f2) : run file k (("-H".toList ++ joinSlash [a.f1, a.f2]) :: rest) =
    if ¬(0 < a.f1 ∧ 0 < a.f2 ∧ a.f2 < a.f1) then run file (setH a k) rest else none := by
  refine (run_req (c := 'H') (by decide) (joinSlash_ne (by simp))).trans ?_
  have h3 := scanSlash_join [a.f1, a.f2] (by simp [h1, h2]) 2 (by simp)
  simp only [step, h3, List.map_cons, List.map_nil, num_lt]
  by_cases c1 : 0 < a.f1 <;> by_cases c2 : 0 < a.f2 <;> by_cases c3 : a.f2 < a.f1 <;> simp [c1, c2, c3, setH]

/-- The time window set. -/
def setN (a : Args) (k : Ctrl) : Ctrl :=
  { k with N := true, nt := a.nt.toNat, dt := .num a.dt, zeta := .num a.zeta, upsample := (a.upsample % 2 ^ 64).toNat,
           keepAll := a.keepAll || k.keepAll, skipImag := a.skipImag || k.skipImag }

theorem scanSize_int (n : ℤ) (r : Text) (hr : ∀ c, r.head? = some c → isDig c = false) :
    scanSize (intText n ++ r) = some ((n % 2 ^ 64).toNat, r) := by
  unfold scanSize
  rw [scanInt_intText n r hr]; rfl

theorem scanSize_self (n : ℤ) : scanSize (intText n) = some ((n % 2 ^ 64).toNat, []) := by
  have := scanSize_int n [] (by intro c h; simp at h)
  rwa [List.append_nil] at this

theorem run_N (h1 : 0 < a.nt) (h2 : a.nt < 2 ^ 64) (h3 : 0 < a.dt) (p1 : Small a.dt) (p2 : Small a.zeta) :
    run file k (optN a :: rest) = if 0 < a.zeta then if a.upsample % 2 ^ 64 ≠ 0 then run file (setN a k) rest else none else none := by
  have ne : intText a.nt ++ '/' :: formatFloat a.dt ≠ [] := by simp
  refine (run_req (c := 'N') (t := (intText a.nt ++ '/' :: formatFloat a.dt) ++ _) (by decide) (by simp)).trans ?_
  have hsp := split_plus (intText a.nt ++ '/' :: formatFloat a.dt)
    ([('w' :: formatFloat a.zeta), ('n' :: intText a.upsample)] ++ (part a.keepAll ['a'] ++ part a.skipImag ['f']))
    ⟨ne, by simp [int_plus, not_plus p1.2]⟩ (by
      intro p hp
      simp only [part, List.mem_append, List.mem_cons, List.not_mem_nil, or_false] at hp
      rcases hp with (rfl | rfl) | hp | hp
      · exact ⟨by simp, by simp [not_plus p2.2]⟩
      · exact ⟨by simp, by simp [int_plus]⟩
      · split_ifs at hp <;> simp at hp; subst hp; decide
      · split_ifs at hp <;> simp at hp; subst hp; decide)
  have hsc := scanSize_int a.nt ('/' :: formatFloat a.dt) (by intro c h; simp at h; subst h; decide)
  have hnt : (a.nt % 2 ^ 64).toNat = a.nt.toNat := by rw [Int.emod_eq_of_lt h1.le h2]
  have hpos : ¬(a.nt.toNat = 0 ∨ notPos (Val.num a.dt) = true) := by
    rw [notPos_num]
    simp [h1, h3]
  simp only [step, hsp, hsc, hnt, scan_plain' p1.plain, if_neg hpos]
  simp only [List.cons_append, List.nil_append, List.foldlM_cons, stepN, scan_plain' p2.plain, notPos_num, scanSize_self]
  by_cases c1 : 0 < a.zeta
  · have c1' : ¬a.zeta ≤ 0 := not_le.2 c1
    by_cases c2 : a.upsample % 2 ^ 64 = 0
    · simp only [c1', decide_false, Bool.false_eq_true, if_false, c2, if_pos c1]
      simp
    · have c2' : (a.upsample % 2 ^ 64).toNat ≠ 0 := by
        have := Int.emod_nonneg a.upsample (b := 2 ^ 64) (by norm_num)
        omega
      simp only [c1', decide_false, Bool.false_eq_true, if_false, if_neg c2', if_pos c1, if_pos c2]
      cases hk : a.keepAll <;> cases hs : a.skipImag <;> simp [part, stepN, setN, hk, hs]
  · simp [c1, not_lt.1 c1]

/-- The integration set. -/
def setL (a : Args) (k : Ctrl) : Ctrl :=
  { k with length := .num a.length, fim := if a.filonLength = 0 then k.fim else some (.num a.filonLength),
           safim := if a.safilonTol = 0 then k.safim else some (.num a.safilonTol), kcut := if a.filonCut = 0 then k.kcut else .num a.filonCut }

theorem mem_part {b : Bool} {t p : Text} (h : p ∈ part b t) : p = t := by
  unfold part at h
  split_ifs at h <;> simp at h
  exact h

theorem run_L (p1 : Small a.length) (p2 : Small a.filonLength) (p3 : Small a.safilonTol) (p4 : Small a.filonCut) :
    run file k (optL a :: rest) = if (setL a k).fim.isSome && (setL a k).safim.isSome then none else run file (setL a k) rest := by
  have hh : (formatFloat a.length ++ plus (part (a.filonLength ≠ 0) ('l' :: formatFloat a.filonLength) ++
      (part (a.safilonTol ≠ 0) ('a' :: formatFloat a.safilonTol) ++ part (a.filonCut ≠ 0) ('o' :: formatFloat a.filonCut)))).head? ≠ some '+' := by
    intro h
    obtain ⟨c, t, e⟩ : ∃ c t, formatFloat a.length = c :: t := by
      cases h : formatFloat a.length with
      | nil => exact absurd h (formatFloat_ne _)
      | cons d t => exact ⟨d, t, rfl⟩
    rw [e] at h
    injection h with h
    subst h
    exact not_plus p1.2 (by rw [e]; simp)
  have hsp := split_plus (formatFloat a.length) (part (a.filonLength ≠ 0) ('l' :: formatFloat a.filonLength) ++
      (part (a.safilonTol ≠ 0) ('a' :: formatFloat a.safilonTol) ++ part (a.filonCut ≠ 0) ('o' :: formatFloat a.filonCut)))
    ⟨formatFloat_ne _, not_plus p1.2⟩ (by
      intro p hp
      simp only [List.mem_append] at hp
      rcases hp with hp | hp | hp <;> rw [mem_part hp]
      · exact ⟨by simp, by simp [not_plus p2.2]⟩
      · exact ⟨by simp, by simp [not_plus p3.2]⟩
      · exact ⟨by simp, by simp [not_plus p4.2]⟩)
  refine (run_req (c := 'L') (t := formatFloat a.length ++ _) (by decide) (by simp [formatFloat_ne])).trans ?_
  simp only [step, if_neg hh, hsp, scan_plain p1.plain _ (stops_plus _), List.tail_cons]
  by_cases c1 : a.filonLength = 0 <;> by_cases c2 : a.safilonTol = 0 <;> by_cases c3 : a.filonCut = 0 <;>
    simp [part, setL, c1, c2, c3, stepL, scan_plain' p2.plain, scan_plain' p3.plain, scan_plain' p4.plain] <;>
    (try split_ifs) <;> (try rfl)

/-- The upper end of the integration set. -/
def setK (a : Args) (k : Ctrl) : Ctrl :=
  { k with k0 := .num a.k0, useRef := a.useRef || k.useRef, ampk := .num a.ampk, keps := .num a.keps,
           vmin := if a.vmin = 0 then k.vmin else .num a.vmin }

theorem run_K (p1 : Small a.k0) (p2 : Small a.ampk) (p3 : Small a.keps) (p4 : Small a.vmin) :
    run file k (optK a :: rest) = if 0 ≤ a.k0 then if 0 ≤ a.ampk then if 0 ≤ a.vmin then run file (setK a k) rest else none else none else none := by
  have hsp := split_parts ([('k' :: formatFloat a.k0)] ++ (part a.useRef ['f'] ++ ([('s' :: formatFloat a.ampk), ('e' :: formatFloat a.keps)] ++
    part (a.vmin ≠ 0) ('v' :: formatFloat a.vmin)))) (by
      intro p hp
      simp only [List.mem_append, List.mem_cons, List.not_mem_nil, or_false] at hp
      rcases hp with rfl | hp | (rfl | rfl) | hp
      · exact ⟨by simp, by simp [not_plus p1.2]⟩
      · rw [mem_part hp]; decide
      · exact ⟨by simp, by simp [not_plus p2.2]⟩
      · exact ⟨by simp, by simp [not_plus p3.2]⟩
      · rw [mem_part hp]; exact ⟨by simp, by simp [not_plus p4.2]⟩)
  refine (run_req (c := 'K') (t := plus _) (by decide) (by simp [plus])).trans ?_
  simp only [step, hsp]
  by_cases c1 : 0 ≤ a.k0
  · by_cases c2 : 0 ≤ a.ampk
    · by_cases c3 : a.vmin = 0
      · cases hu : a.useRef <;>
          simp [part, setK, hu, stepK, scan_plain' p1.plain, scan_plain' p2.plain, scan_plain' p3.plain, num_lt, c1, c2, c3, not_lt.2 c1, not_lt.2 c2]
      · by_cases c4 : 0 ≤ a.vmin
        · have c5 : ¬a.vmin ≤ 0 := fun h => c3 (le_antisymm h c4)
          cases hu : a.useRef <;>
            simp [part, setK, hu, stepK, scan_plain' p1.plain, scan_plain' p2.plain, scan_plain' p3.plain, scan_plain' p4.plain, num_lt, notPos_num,
              c1, c2, c3, c4, c5, not_lt.2 c1, not_lt.2 c2]
        · have c5 : a.vmin ≤ 0 := (not_le.1 c4).le
          cases hu : a.useRef <;>
            simp [part, hu, stepK, scan_plain' p1.plain, scan_plain' p2.plain, scan_plain' p3.plain, scan_plain' p4.plain, num_lt, notPos_num,
              c1, c2, c3, c4, c5, not_lt.2 c1, not_lt.2 c2]
    · cases hu : a.useRef <;>
        simp [part, hu, stepK, scan_plain' p1.plain, scan_plain' p2.plain, num_lt, c1, c2, not_lt.2 c1, not_le.1 c2]
  · simp [stepK, scan_plain' p1.plain, num_lt, c1, not_le.1 c1]

/-- The delay set. -/
def setE (a : Args) (k : Ctrl) : Ctrl :=
  if a.firstP then { k with firstP := true, t0 := .num a.t0 } else { k with t0 := .num a.t0, v0 := .num a.v0 }

theorem run_E (p1 : Plain a.t0) (p2 : Plain a.v0) : run file k (optE a :: rest) =
    if (if a.firstP then a.t0 < 0 else 0 ≤ a.v0) then run file (setE a k) rest else none := by
  unfold optE setE
  cases hp : a.firstP
  · simp only [Bool.false_eq_true, if_false]
    refine (run_req (c := 'E') (by decide) (joinSlash_ne (xs := [a.t0, a.v0]) (by simp))).trans ?_
    have h1 : (joinSlash [a.t0, a.v0]).head? ≠ some 'p' := head_not _ _ (by decide)
    have h3 := scanSlash_join [a.t0, a.v0] (by simp [p1, p2]) 2 (by simp)
    simp only [step, if_neg h1, h3, List.map_cons, List.map_nil, num_lt]
    by_cases c : 0 ≤ a.v0
    · simp [c, not_lt.2 c]
    · simp [c, not_le.1 c]
  · simp only [if_true]
    refine (run_req (c := 'E') (t := 'p' :: formatFloat a.t0) (by decide) (by simp)).trans ?_
    simp only [step, List.head?_cons, if_true, List.tail_cons, scan_plain' p1, num_lt]
    by_cases c : a.t0 < 0 <;> simp [c]

theorem run_C {c : Option Conv} (h : IsMethod a.method c) : ∃ t, convergence a.method = some t ∧ ∀ (k : Ctrl) (rest : List Text),
    run file k (part (t ≠ []) ("-C".toList ++ t) ++ rest) = run file (setC c k) rest := by
  rcases h with ⟨h, rfl⟩ | ⟨h, rfl⟩ | ⟨h, rfl⟩ | ⟨h, rfl⟩
  · exact ⟨[], by simp [convergence, h], fun k rest => rfl⟩
  · refine ⟨['d'], by simp [convergence, h], fun k rest => ?_⟩
    exact (run_req (c := 'C') (t := ['d']) (by decide) (by simp)).trans rfl
  · refine ⟨['p'], by simp [convergence, h], fun k rest => ?_⟩
    exact (run_req (c := 'C') (t := ['p']) (by decide) (by simp)).trans rfl
  · refine ⟨['n'], by simp [convergence, h], fun k rest => ?_⟩
    exact (run_req (c := 'C') (t := ['n']) (by decide) (by simp)).trans rfl


/-- The sources set. -/
def setG (a : Args) (k : Ctrl) : Ctrl :=
  match a.gf with
  | none => k
  | some _ => { k with ex := wants a.gf "EX", vf := wants a.gf "VF", hf := wants a.gf "HF", dc := wants a.gf "DC" }

/-- The letters of a list of sources. -/
theorem codes_mem {names : List Text} {cs : Text} (h : names.mapM code = some cs) :
    (∀ c ∈ cs, c = 'e' ∨ c = 'v' ∨ c = 'h' ∨ c = 's') ∧ cs.contains 'e' = wants (some names) "EX" ∧ cs.contains 'v' = wants (some names) "VF" ∧
      cs.contains 'h' = wants (some names) "HF" ∧ cs.contains 's' = wants (some names) "DC" ∧ (cs = [] ↔ names = []) := by
  induction names generalizing cs with
  | nil =>
    simp at h
    subst h
    exact ⟨by simp, rfl, rfl, rfl, rfl, by simp⟩
  | cons t ts ih =>
    rw [List.mapM_cons] at h
    obtain ⟨c, hc, h⟩ := Option.bind_eq_some_iff.1 h
    obtain ⟨cs', hcs, h⟩ := Option.bind_eq_some_iff.1 h
    injection h with h
    subst h
    obtain ⟨i0, i1, i2, i3, i4, -⟩ := ih hcs
    unfold wants at i1 i2 i3 i4 ⊢
    unfold code at hc
    split_ifs at hc with q1 q2 q3 q4 <;> injection hc with hc <;> subst hc <;>
      refine ⟨by simpa using i0, ?_, ?_, ?_, ?_, by simp⟩ <;>
      simp only [List.contains_cons, List.any_cons, i1, i2, i3, i4] <;> simp [*]

theorem foldG (cs : Text) (h : ∀ c ∈ cs, c = 'e' ∨ c = 'v' ∨ c = 'h' ∨ c = 's') (k : Ctrl) :
    cs.foldlM stepG k = some { k with ex := k.ex || cs.contains 'e', vf := k.vf || cs.contains 'v', hf := k.hf || cs.contains 'h', dc := k.dc || cs.contains 's' } := by
  induction cs generalizing k with
  | nil => simp
  | cons c cs ih =>
    rw [List.foldlM_cons]
    have hc := h c (by simp)
    have hr := fun k => ih (fun d hd => h d (by simp [hd])) k
    rcases hc with rfl | rfl | rfl | rfl <;> simp [stepG, hr]

theorem run_G {codes : Option Text} (h : codesOf a.gf = some codes) (hrest : ∀ b ∈ rest, b.head? = some '-') :
    run file k (optional "-G" id codes ++ rest) = if a.gf ≠ some [] then run file (setG a k) rest else none := by
  unfold setG
  rcases hg : a.gf with _ | names
  · rw [hg] at h
    simp [codesOf] at h
    subst h
    simp [Syn.optional]
  · rw [hg] at h
    simp only [codesOf, Option.map_eq_some_iff] at h
    obtain ⟨cs, hcs, rfl⟩ := h
    obtain ⟨i0, i1, i2, i3, i4, i5⟩ := codes_mem hcs
    change run file k (('-' :: 'G' :: cs) :: rest) = _
    by_cases hn : names = []
    · have : cs = [] := i5.2 hn
      subst this
      rw [if_neg (by simp [hn])]
      unfold run
      cases rest with
      | nil => simp [getopt, arity]
      | cons b rest =>
        have hb := hrest b (by simp)
        have : getopt arity (['-', 'G'] :: b :: rest) = (getopt arity rest).map (('G', some b) :: ·) := by simp [getopt, arity]
        rw [this]
        obtain ⟨t, rfl⟩ : ∃ t, b = '-' :: t := by
          cases b with
          | nil => simp at hb
          | cons c t => simp at hb; exact ⟨t, by rw [hb]⟩
        cases getopt arity rest <;> simp [step, stepG]
    · have hcn : cs ≠ [] := fun e => hn (i5.1 e)
      rw [if_pos (by simpa using hn)]
      refine (run_req (c := 'G') (by decide) hcn).trans ?_
      simp only [step, foldG cs i0, Bool.false_or, Option.bind_some, ← i1, ← i2, ← i3, ← i4]
      rw [if_pos]
      · simp
      · obtain ⟨c, hc⟩ := List.exists_mem_of_ne_nil cs hcn
        rcases i0 c hc with rfl | rfl | rfl | rfl <;> simp [hc]

/-- The statistics set. -/
def setS (a : Args) (k : Ctrl) : Ctrl :=
  match a.stats with
  | none => k
  | some l => { k with stats := some (if l = [] then none else some l) }

theorem split_joinInts {ns : List ℤ} (h : ns ≠ []) : split ',' (joinInts ns) = ns.map intText := by
  induction ns with
  | nil => exact absurd rfl h
  | cons x xs ih =>
    cases xs with
    | nil => exact split_last _ _ (intText_ne x) (int_comma x)
    | cons y ys =>
      rw [joinInts, split_token _ _ _ (intText_ne x) (int_comma x), ih (by simp)]
      rfl

theorem joinInts_ne {ns : List ℤ} (h : ns ≠ []) : joinInts ns ≠ [] := by
  match ns with
  | [] => exact absurd rfl h
  | [x] => exact intText_ne x
  | x :: y :: ys => rw [joinInts]; simp [intText_ne x]

theorem atoi_int (n : ℤ) : atoi (intText n) = n := by
  unfold atoi
  rw [scanInt_self]; rfl

theorem run_S : run file k (optional "-S" joinInts a.stats ++ rest) =
    if ∀ l ∈ a.stats, ∀ n ∈ l, 0 ≤ n then run file (setS a k) rest else none := by
  unfold setS
  rcases hs : a.stats with _ | l
  · simp [Syn.optional]
  · change run file k (('-' :: 'S' :: joinInts l) :: rest) = _
    rw [run_opt (by decide)]
    by_cases hl : l = []
    · subst hl
      simp [joinInts, step]
    · rw [if_neg (joinInts_ne hl)]
      simp only [step, split_joinInts hl, List.map_map]
      have : (atoi ∘ intText) = id := funext atoi_int
      rw [this, List.map_id]
      by_cases hc : ∀ n ∈ l, 0 ≤ n
      · have : l.any (· < 0) = false := by simpa using hc
        have hc' : ∀ l' ∈ some l, ∀ n ∈ l', 0 ≤ n := by rintro l' ⟨⟩; exact hc
        rw [this, if_pos hc']
        simp [hl]
      · have : l.any (· < 0) = true := by simpa using hc
        rw [this]
        simp [hc]

theorem run_e {b : Bool} : run file k (flag "-e" b ++ rest) = run file (sete b k) rest := by
  cases b
  · rfl
  · exact (run_flag (c := 'e') (by decide)).trans rfl

theorem run_s {b : Bool} : run file k (flag "-s" b) = finish (sets b k) := by
  cases b
  · change run file _ [] = _
    unfold run
    rw [getopt.eq_1]; rfl
  · refine (run_flag (c := 's') (rest := []) (by decide)).trans ?_
    change run file _ [] = _
    unfold run
    rw [getopt.eq_1]; rfl

end

/-! ### The property -/

/-- The numbers that are written without rounding: at most fifteen digits, and not above 10^14 where the option is split at plus signs. -/
structure Exact (a : Args) : Prop where
  model : a.model ≠ []
  grn : a.grn ≠ []
  depsrc : ∀ x ∈ a.depsrc, Plain x
  deprcv : ∀ x ∈ a.deprcv, Plain x
  dists : ∀ x ∈ a.dists, Plain x
  nt : a.nt < 2 ^ 64
  dt : Small a.dt
  zeta : Small a.zeta
  f1 : Plain a.f1
  f2 : Plain a.f2
  length : Small a.length
  filonLength : Small a.filonLength
  safilonTol : Small a.safilonTol
  filonCut : Small a.filonCut
  k0 : Small a.k0
  ampk : Small a.ampk
  keps : Small a.keps
  vmin : Small a.vmin
  t0 : Plain a.t0
  v0 : Plain a.v0

/-- Which calls reach the program. -/
structure Accepted (a : Args) : Prop where
  nt : 0 < a.nt
  dt : 0 < a.dt
  lists : ∀ l ∈ [a.depsrc, a.deprcv, a.dists], l ≠ [] ∧ (∀ x ∈ l, 0 ≤ x) ∧ l.Pairwise (· < ·)
  method : ∃ c, IsMethod a.method c
  sources : ∀ l ∈ a.gf, ∀ t ∈ l, upper t ∈ ["EX".toList, "VF".toList, "HF".toList, "DC".toList]

theorem normalize_iff (l : List ℚ) : normalize l ≠ none ↔ l ≠ [] ∧ (∀ x ∈ l, 0 ≤ x) ∧ l.Pairwise (· < ·) := by
  constructor
  · intro h
    obtain ⟨ys, hy⟩ := Option.ne_none_iff_exists'.1 h
    exact (normalize_some hy).2
  · rintro ⟨h1, h2, h3⟩
    unfold normalize
    rw [if_neg h1, if_neg (by simpa using h2), if_pos (List.isChain_iff_pairwise.2 h3)]
    simp

theorem convergence_iff (t : Text) : convergence t ≠ none ↔ ∃ c, IsMethod t c := by
  unfold convergence IsMethod
  split_ifs with h1 h2 h3 h4
  · exact ⟨fun _ => ⟨_, .inl ⟨h1, rfl⟩⟩, fun _ => by simp⟩
  · exact ⟨fun _ => ⟨_, .inr (.inl ⟨h2, rfl⟩)⟩, fun _ => by simp⟩
  · exact ⟨fun _ => ⟨_, .inr (.inr (.inl ⟨h3, rfl⟩))⟩, fun _ => by simp⟩
  · exact ⟨fun _ => ⟨_, .inr (.inr (.inr ⟨h4, rfl⟩))⟩, fun _ => by simp⟩
  · simp_all

theorem code_iff (t : Text) : code t ≠ none ↔ upper t ∈ ["EX".toList, "VF".toList, "HF".toList, "DC".toList] := by
  unfold code
  simp only [List.mem_cons, List.not_mem_nil, or_false]
  split_ifs with h1 h2 h3 h4 <;> simp_all

theorem mapM_iff (l : List Text) : l.mapM code ≠ none ↔ ∀ t ∈ l, code t ≠ none := by
  induction l with
  | nil => simp
  | cons t ts ih =>
    rw [List.mapM_cons, List.forall_mem_cons, ← ih]
    cases code t <;> cases ts.mapM code <;> simp

theorem codesOf_iff (gf : Option (List Text)) :
    codesOf gf ≠ none ↔ ∀ l ∈ gf, ∀ t ∈ l, upper t ∈ ["EX".toList, "VF".toList, "HF".toList, "DC".toList] := by
  cases gf with
  | none => simp [codesOf]
  | some l =>
    have : codesOf (some l) ≠ none ↔ l.mapM code ≠ none := by simp [codesOf]
    rw [this, mapM_iff]
    constructor
    · rintro h l' ⟨⟩ t ht; exact (code_iff t).1 (h t ht)
    · intro h t ht; exact (code_iff t).2 (h l rfl t ht)

/-- C123: which calls reach the program: a positive number of samples and interval, depths and distances that are not negative and strictly ascending, a
documented method and documented sources. -/
theorem C123_source (a : Args) : command a ≠ none ↔ Accepted a := by
  have e : command a ≠ none ↔ (0 < a.nt ∧ 0 < a.dt) ∧ (normalize a.depsrc ≠ none ∧ normalize a.deprcv ≠ none ∧ normalize a.dists ≠ none) ∧
      convergence a.method ≠ none ∧ codesOf a.gf ≠ none := by
    unfold command
    by_cases h : a.nt ≤ 0 ∨ a.dt ≤ 0
    · rw [if_pos h]
      refine iff_of_false (by simp) fun hc => ?_
      rcases h with h | h
      · exact absurd hc.1.1 (not_lt.2 h)
      · exact absurd hc.1.2 (not_lt.2 h)
    · rw [if_neg h]
      rw [not_or, not_le, not_le] at h
      rw [and_iff_right h]
      cases normalize a.depsrc <;> cases normalize a.deprcv <;> cases normalize a.dists <;> cases convergence a.method <;> cases codesOf a.gf <;> simp
  rw [e, normalize_iff, normalize_iff, normalize_iff, convergence_iff, codesOf_iff]
  constructor
  · rintro ⟨⟨h1, h2⟩, ⟨h3, h4, h5⟩, h6, h7⟩
    refine ⟨h1, h2, ?_, h6, h7⟩
    intro l hl
    simp only [List.mem_cons, List.not_mem_nil, or_false] at hl
    rcases hl with rfl | rfl | rfl <;> assumption
  · rintro ⟨h1, h2, h3, h4, h5⟩
    exact ⟨⟨h1, h2⟩, ⟨h3 _ (by simp), h3 _ (by simp), h3 _ (by simp)⟩, h4, h5⟩

theorem dash_rest (s : Option (List ℤ)) (b c : Bool) : ∀ t ∈ optional "-S" joinInts s ++ (flag "-e" b ++ flag "-s" c), t.head? = some '-' := by
  intro t ht
  simp only [List.mem_append] at ht
  rcases ht with ht | ht | ht
  · cases s with
    | none => simp [Syn.optional] at ht
    | some l => simp [Syn.optional] at ht; subst ht; rfl
  · cases b <;> simp [flag] at ht; subst ht; rfl
  · cases c <;> simp [flag] at ht; subst ht; rfl

theorem run_line (file : List Char → Option (List Char)) (k : Ctrl) (a : Args) (hx : Exact a) (ha : Accepted a) {c : Option Conv} {conv : Text}
    {codes : Option Text} (hs : normalize a.depsrc = some a.depsrc) (hr : normalize a.deprcv = some a.deprcv) (hd : normalize a.dists = some a.dists)
    (hg : codesOf a.gf = some codes)
    (hC : ∀ (k : Ctrl) (rest : List Text), run file k (part (conv ≠ []) ("-C".toList ++ conv) ++ rest) = run file (setC c k) rest) :
    run file k (line a conv codes) = if 0 < a.zeta then if a.upsample % 2 ^ 64 ≠ 0 then
      if ¬(0 < a.f1 ∧ 0 < a.f2 ∧ a.f2 < a.f1) then
      if (setL a (setH a (setB a (setO a.grn (setR a (setN a (setD a (setM a.model k)))))))).fim.isSome &&
        (setL a (setH a (setB a (setO a.grn (setR a (setN a (setD a (setM a.model k)))))))).safim.isSome then none
      else if 0 ≤ a.k0 then if 0 ≤ a.ampk then if 0 ≤ a.vmin then
      if (if a.firstP then a.t0 < 0 else 0 ≤ a.v0) then if a.gf ≠ some [] then if ∀ l ∈ a.stats, ∀ n ∈ l, 0 ≤ n then
      finish (sets (!a.log) (sete a.upar (setS a (setG a (setE a (setK a (setC c (setL a (setH a (setB a (setO a.grn (setR a (setN a (setD a (setM a.model k)))))))))))))))
      else none else none else none else none else none else none else none else none else none := by
  unfold line
  rw [run_M hx.model, run_D hs hr hx.depsrc hx.deprcv, run_N ha.nt hx.nt ha.dt hx.dt hx.zeta, run_R hd hx.dists, run_O hx.grn, run_B,
    run_H hx.f1 hx.f2, run_L hx.length hx.filonLength hx.safilonTol hx.filonCut, hC, run_K hx.k0 hx.ampk hx.keps hx.vmin, run_E hx.t0 hx.v0,
    run_G hg (dash_rest _ _ _), run_S, run_e, run_s]

/-- What the program works with, for any upsampling. -/
theorem grn_parse (file : List Char → Option (List Char)) (a : Args) (ha : Accepted a) (hx : Exact a) {c : Option Conv} (hc : IsMethod a.method c) :
    ∃ argv, command a = some argv ∧ parse file argv = if 0 < a.zeta then if a.upsample % 2 ^ 64 ≠ 0 then
      if ¬(0 < a.f1 ∧ 0 < a.f2 ∧ a.f2 < a.f1) then if a.filonLength = 0 ∨ a.safilonTol = 0 then if 0 ≤ a.k0 then if 0 ≤ a.ampk then if 0 ≤ a.vmin then
      if (if a.firstP then a.t0 < 0 else 0 ≤ a.v0) then if a.gf ≠ some [] then if ∀ l ∈ a.stats, ∀ n ∈ l, 0 ≤ n then
      some { expected a c with upsample := (a.upsample % 2 ^ 64).toNat }
      else none else none else none else none else none else none else none else none else none else none := by
  obtain ⟨s, hs⟩ := Option.ne_none_iff_exists'.1 ((normalize_iff _).2 (ha.lists a.depsrc (by simp)))
  obtain ⟨r, hr⟩ := Option.ne_none_iff_exists'.1 ((normalize_iff _).2 (ha.lists a.deprcv (by simp)))
  obtain ⟨d, hd⟩ := Option.ne_none_iff_exists'.1 ((normalize_iff _).2 (ha.lists a.dists (by simp)))
  obtain ⟨codes, hg⟩ := Option.ne_none_iff_exists'.1 ((codesOf_iff _).2 ha.sources)
  obtain ⟨conv, hcv, hC⟩ := run_C (file := file) hc
  have e1 := (normalize_some hs).1
  have e2 := (normalize_some hr).1
  have e3 := (normalize_some hd).1
  subst e1 e2 e3
  refine ⟨line a conv codes, ?_, ?_⟩
  · unfold command
    rw [if_neg (by rw [not_or, not_le, not_le]; exact ⟨ha.nt, ha.dt⟩), hs, hr, hd, hcv, hg]
  have hrun := run_line file {} a hx ha hs hr hd hg hC
  unfold parse
  rw [hrun]
  have f1 : (setL a (setH a (setB a (setO a.grn (setR a (setN a (setD a (setM a.model {})))))))).fim =
      if a.filonLength = 0 then none else some (.num a.filonLength) := by
    unfold setL setD
    split_ifs <;> rfl
  have f2 : (setL a (setH a (setB a (setO a.grn (setR a (setN a (setD a (setM a.model {})))))))).safim =
      if a.safilonTol = 0 then none else some (.num a.safilonTol) := by
    unfold setL setD
    split_ifs <;> rfl
  have fin : (sets (!a.log) (sete a.upar (setS a (setG a (setE a (setK a (setC c (setL a (setH a (setB a (setO a.grn (setR a (setN a (setD a
      (setM a.model {}))))))))))))))) = { expected a c with upsample := (a.upsample % 2 ^ 64).toNat } := by
    have z : ∀ x : ℚ, (if x = 0 then Val.num 0 else Val.num x) = Val.num x := by
      intro x
      split_ifs with h
      · rw [h]
      · rfl
    have d1 : setD a (setM a.model {}) = { setM a.model {} with
        dBoth := decide (a.depsrc.length = 1 ∧ a.deprcv.length = 1)
        dSrc := decide ¬(a.depsrc.length = 1 ∧ a.deprcv.length = 1)
        dRcv := decide ¬(a.depsrc.length = 1 ∧ a.deprcv.length = 1)
        srcs := a.depsrc.map .num
        rcvs := a.deprcv.map .num } := by
      unfold setD
      split_ifs with h
      · rw [decide_eq_true h, decide_eq_false (not_not.2 h)]; rfl
      · rw [decide_eq_false h, decide_eq_true h]; rfl
    rw [d1]
    rcases hP : a.firstP <;> rcases hgf : a.gf with _ | l <;> rcases hst : a.stats with _ | m <;>
      simp only [sets, sete, setS, setG, setE, setK, setC, setL, setH, setB, setO, setR, setN, setM, expected, hP, hgf, hst, z, wants, Option.or_none,
        Option.map_none, Option.map_some, Bool.or_false, if_true, if_false, Bool.false_eq_true]
  have ok : finish { expected a c with upsample := (a.upsample % 2 ^ 64).toNat } = some { expected a c with upsample := (a.upsample % 2 ^ 64).toNat } := by
    by_cases h : a.depsrc.length = 1 ∧ a.deprcv.length = 1
    · simp [finish, expected, h]
    · have : decide (a.depsrc.length = 1 ∧ a.deprcv.length = 1) = false := decide_eq_false h
      simp only [finish, expected, this, decide_not]
      rfl
  rw [f1, f2, fin, ok]
  by_cases c1 : a.filonLength = 0 <;> by_cases c2 : a.safilonTol = 0 <;> simp [c1, c2]

/-- C123: for numbers of at most fifteen digits (and not above 10^14 where they stand next to plus signs) and an upsampling that is not negative, the program
works with exactly the values of the call, or refuses it if the arguments are not allowed. -/
theorem C123_partial (file : List Char → Option (List Char)) (a : Args) (ha : Accepted a) (hx : Exact a) {c : Option Conv} (hc : IsMethod a.method c)
    (hu : 0 ≤ a.upsample ∧ a.upsample < 2 ^ 64) :
    ∃ argv, command a = some argv ∧ (Allowed a → parse file argv = some (expected a c)) ∧ (¬Allowed a → parse file argv = none) := by
  obtain ⟨argv, h1, h2⟩ := grn_parse file a ha hx hc
  refine ⟨argv, h1, ?_, ?_⟩
  · rintro ⟨q1, q2, q3, q4, q5, q6, q7, q8, q9, q10⟩
    have e : a.upsample % 2 ^ 64 = a.upsample := Int.emod_eq_of_lt hu.1 hu.2
    rw [h2, if_pos q1, e, if_pos (ne_of_gt q2), if_pos q3, if_pos q4, if_pos q5, if_pos q6, if_pos q7, if_pos q8, if_pos q9, if_pos q10]
    rfl
  · intro hna
    have e : a.upsample % 2 ^ 64 = a.upsample := Int.emod_eq_of_lt hu.1 hu.2
    rw [h2, e]
    generalize some { expected a c with upsample := a.upsample.toNat } = w
    by_cases q1 : 0 < a.zeta
    swap
    · exact if_neg q1
    rw [if_pos q1]
    by_cases q2 : a.upsample ≠ 0
    swap
    · exact if_neg q2
    rw [if_pos q2]
    by_cases q3 : ¬(0 < a.f1 ∧ 0 < a.f2 ∧ a.f2 < a.f1)
    swap
    · exact if_neg q3
    rw [if_pos q3]
    by_cases q4 : a.filonLength = 0 ∨ a.safilonTol = 0
    swap
    · exact if_neg q4
    rw [if_pos q4]
    by_cases q5 : 0 ≤ a.k0
    swap
    · exact if_neg q5
    rw [if_pos q5]
    by_cases q6 : 0 ≤ a.ampk
    swap
    · exact if_neg q6
    rw [if_pos q6]
    by_cases q7 : 0 ≤ a.vmin
    swap
    · exact if_neg q7
    rw [if_pos q7]
    by_cases q8 : (if a.firstP then a.t0 < 0 else 0 ≤ a.v0)
    swap
    · exact if_neg q8
    rw [if_pos q8]
    by_cases q9 : a.gf ≠ some []
    swap
    · exact if_neg q9
    rw [if_pos q9]
    by_cases q10 : ∀ l ∈ a.stats, ∀ n ∈ l, 0 ≤ n
    swap
    · exact if_neg q10
    rw [if_pos q10]
    exact absurd ⟨q1, lt_of_le_of_ne hu.1 (Ne.symm q2), q3, q4, q5, q6, q7, q8, q9, q10⟩ hna

/-- C123 does not hold for a negative upsampling: it is accepted, and the program works with 2^64 more. -/
theorem C123_violated_upsampling (file : List Char → Option (List Char)) (a : Args) (ha : Accepted a) (hx : Exact a) {c : Option Conv}
    (hc : IsMethod a.method c) (hu : -2 ^ 64 < a.upsample ∧ a.upsample < 0) (hal : Allowed { a with upsample := 1 }) :
    ∃ argv k, command a = some argv ∧ parse file argv = some k ∧ (k.upsample : ℤ) = 2 ^ 64 + a.upsample := by
  obtain ⟨argv, h1, h2⟩ := grn_parse file a ha hx hc
  have e : a.upsample % 2 ^ 64 = 2 ^ 64 + a.upsample := by
    rw [← Int.add_emod_left, Int.emod_eq_of_lt (by omega) (by omega)]
  obtain ⟨q1, -, q3, q4, q5, q6, q7, q8, q9, q10⟩ := hal
  rw [e, if_pos q1, if_pos (by omega), if_pos q3, if_pos q4, if_pos q5, if_pos q6, if_pos q7, if_pos q8, if_pos q9, if_pos q10] at h2
  refine ⟨argv, _, h1, h2, ?_⟩
  change ((2 ^ 64 + a.upsample).toNat : ℤ) = _
  omega

/-- C123 does not hold for `ref_first_p=True` with the default delay of zero (or any later start): the call is always refused. -/
theorem C123_violated_first (file : List Char → Option (List Char)) (a : Args) (ha : Accepted a) (hx : Exact a) (hp : a.firstP = true) (h0 : 0 ≤ a.t0) :
    ∃ argv, command a = some argv ∧ parse file argv = none := by
  obtain ⟨c, hc⟩ := ha.method
  obtain ⟨argv, h1, h2⟩ := grn_parse file a ha hx hc
  refine ⟨argv, h1, ?_⟩
  have hn : ¬(if a.firstP then a.t0 < 0 else 0 ≤ a.v0) := by rw [hp]; simpa using h0
  rw [h2, if_neg hn]
  simp only [ite_self]

theorem run_L_large {file : List Char → Option (List Char)} {k : Ctrl} {rest : List Text} {a : Args} (h : a.length = 10 ^ 15)
    (p2 : Small a.filonLength) (p3 : Small a.safilonTol) (p4 : Small a.filonCut) : run file k (optL a :: rest) = none := by
  have hf : formatFloat a.length = "1e+15".toList := by rw [h]; decide +kernel
  obtain ⟨ps, hps⟩ : ∃ ps, ps = part (a.filonLength ≠ 0) ('l' :: formatFloat a.filonLength) ++
      (part (a.safilonTol ≠ 0) ('a' :: formatFloat a.safilonTol) ++ part (a.filonCut ≠ 0) ('o' :: formatFloat a.filonCut)) := ⟨_, rfl⟩
  have hq : ∀ p ∈ ps, p ≠ [] ∧ '+' ∉ p := by
    intro p hp
    rw [hps] at hp
    simp only [List.mem_append] at hp
    rcases hp with hp | hp | hp <;> rw [mem_part hp]
    · exact ⟨by simp, by simp [not_plus p2.2]⟩
    · exact ⟨by simp, by simp [not_plus p3.2]⟩
    · exact ⟨by simp, by simp [not_plus p4.2]⟩
  have hsp : split '+' ("1e+15".toList ++ plus ps) = "1e".toList :: "15".toList :: ps := by
    have := split_token '+' "1e".toList ("15".toList ++ plus ps) (by decide) (by decide)
    rw [split_plus _ _ ⟨by decide, by decide⟩ hq] at this
    exact this
  have e : optL a = '-' :: 'L' :: ("1e+15".toList ++ plus ps) := by rw [optL, hf, hps]; rfl
  rw [e, run_req (c := 'L') (by decide) (by simp)]
  have hh : ("1e+15".toList ++ plus ps).head? ≠ some '+' := by simp
  simp only [step, if_neg hh, hsp]
  have hst : ∀ k : Ctrl, stepL k "15".toList = none := fun k => rfl
  cases scanReal ("1e+15".toList ++ plus ps) with
  | none => rfl
  | some v =>
    obtain ⟨v, r⟩ := v
    simp only [List.tail_cons, List.foldlM_cons, hst]
    rfl

/-- C123 does not hold for numbers of 10^15 and more in an option that is split at plus signs: `Length=1e15` is always refused. -/
theorem C123_violated_large (file : List Char → Option (List Char)) (a : Args) (ha : Accepted a) (hx : Exact { a with length := 0 }) (hl : a.length = 10 ^ 15) :
    ∃ argv, command a = some argv ∧ parse file argv = none := by
  obtain ⟨s, hs⟩ := Option.ne_none_iff_exists'.1 ((normalize_iff _).2 (ha.lists a.depsrc (by simp)))
  obtain ⟨r, hr⟩ := Option.ne_none_iff_exists'.1 ((normalize_iff _).2 (ha.lists a.deprcv (by simp)))
  obtain ⟨d, hd⟩ := Option.ne_none_iff_exists'.1 ((normalize_iff _).2 (ha.lists a.dists (by simp)))
  obtain ⟨codes, hg⟩ := Option.ne_none_iff_exists'.1 ((codesOf_iff _).2 ha.sources)
  obtain ⟨conv, hcv⟩ := Option.ne_none_iff_exists'.1 ((convergence_iff _).2 ha.method)
  have e1 := (normalize_some hs).1
  have e2 := (normalize_some hr).1
  have e3 := (normalize_some hd).1
  subst e1 e2 e3
  refine ⟨line a conv codes, ?_, ?_⟩
  · unfold command
    rw [if_neg (by rw [not_or, not_le, not_le]; exact ⟨ha.nt, ha.dt⟩), hs, hr, hd, hcv, hg]
  unfold parse line
  generalize ({} : Ctrl) = k
  rw [run_M hx.model, run_D hs hr hx.depsrc hx.deprcv, run_N ha.nt hx.nt ha.dt hx.dt hx.zeta, run_R hd hx.dists, run_O hx.grn, run_B,
    run_H hx.f1 hx.f2, run_L_large hl hx.filonLength hx.safilonTol hx.filonCut]
  simp only [ite_self]

/-! ### Cases -/

/-- A call with two distances and three sources. -/
def sample : Args where
  model := "milrow".toList
  grn := "GRN".toList
  top := .free
  bot := .half
  depsrc := [2]
  deprcv := [0]
  dists := [10, 20]
  nt := 500
  dt := dbl (2 / 100)
  upsample := 1
  f1 := -1
  f2 := 5
  zeta := dbl (8 / 10)
  keepAll := true
  vmin := 0
  keps := -1
  ampk := 2
  k0 := 5
  useRef := false
  length := 20
  filonLength := 0
  safilonTol := dbl (1 / 100)
  filonCut := 0
  method := "dcm".toList
  t0 := -1
  v0 := 6
  firstP := false
  skipImag := false
  upar := true
  gf := some ["EX".toList, "dc".toList]
  stats := some [3, 10]
  log := false

theorem small_int (n : ℤ) (h : |n| ≤ 10 ^ 14) : Small n :=
  ⟨(plain_int n (lt_of_le_of_lt h (by norm_num))).1, by exact_mod_cast h⟩

theorem sample_accepted : Accepted sample := by
  refine ⟨by decide, by decide +kernel, ?_, ⟨_, .inr (.inl ⟨by decide, rfl⟩)⟩, ?_⟩
  · intro l hl
    simp only [sample, List.mem_cons, List.not_mem_nil, or_false] at hl
    rcases hl with rfl | rfl | rfl
    · exact ⟨by simp, by simp, by simp⟩
    · exact ⟨by simp, by simp, by simp⟩
    · exact ⟨by simp, by simp, by simp; norm_num⟩
  · rintro l ⟨⟩
    decide

theorem sample_exact : Exact sample := by
  have i : ∀ (n : ℤ) (q : ℚ), q = n → |n| ≤ 10 ^ 14 → Small q := fun n q e h => by rw [e]; exact small_int n h
  refine ⟨by decide, by decide, ?_, ?_, ?_, by decide, ⟨⟨2 / 100, ⟨2, -2, by norm_num, by norm_num⟩, rfl⟩, by decide +kernel⟩,
    ⟨⟨8 / 10, ⟨8, -1, by norm_num, by norm_num⟩, rfl⟩, by decide +kernel⟩, (i (-1) _ (by norm_num [sample]) (by norm_num)).plain,
    (i 5 _ (by norm_num [sample]) (by norm_num)).plain, i 20 _ (by norm_num [sample]) (by norm_num), i 0 _ (by norm_num [sample]) (by norm_num),
    ⟨⟨1 / 100, ⟨1, -2, by norm_num, by norm_num⟩, rfl⟩, by decide +kernel⟩, i 0 _ (by norm_num [sample]) (by norm_num),
    i 5 _ (by norm_num [sample]) (by norm_num), i 2 _ (by norm_num [sample]) (by norm_num), i (-1) _ (by norm_num [sample]) (by norm_num),
    i 0 _ (by norm_num [sample]) (by norm_num), (i (-1) _ (by norm_num [sample]) (by norm_num)).plain,
    (i 6 _ (by norm_num [sample]) (by norm_num)).plain⟩
  · intro x hx
    simp only [sample, List.mem_cons, List.not_mem_nil, or_false] at hx
    subst hx; exact (i 2 _ (by norm_num) (by norm_num)).plain
  · intro x hx
    simp only [sample, List.mem_cons, List.not_mem_nil, or_false] at hx
    subst hx; exact (i 0 _ (by norm_num) (by norm_num)).plain
  · intro x hx
    simp only [sample, List.mem_cons, List.not_mem_nil, or_false] at hx
    rcases hx with rfl | rfl
    · exact (i 10 _ (by norm_num) (by norm_num)).plain
    · exact (i 20 _ (by norm_num) (by norm_num)).plain

theorem sample_allowed : Allowed sample := by
  refine ⟨by decide +kernel, by decide, by norm_num [sample], .inl rfl, by norm_num [sample], by norm_num [sample], by norm_num [sample],
    by norm_num [sample], by simp [sample], ?_⟩
  rintro l ⟨⟩
  decide

/-- The hypotheses of `C123_partial` for it, and the command line. -/
example : Accepted sample ∧ Exact sample ∧ IsMethod sample.method (some .dcm) ∧ (0 ≤ sample.upsample ∧ sample.upsample < 2 ^ 64) ∧ Allowed sample ∧
    command sample = some ["-Mmilrow".toList, "-D2/0".toList, "-N500/0.02+w0.8+n1+a".toList, "-R10,20".toList, "-OGRN".toList, "-BfH".toList,
      "-H-1/5".toList, "-L20+a0.01".toList, "-Cd".toList, "-K+k5+s2+e-1".toList, "-E-1/6".toList, "-Ges".toList, "-S3,10".toList, "-e".toList,
      "-s".toList] :=
  ⟨sample_accepted, sample_exact, .inr (.inl ⟨by decide, rfl⟩), by decide, sample_allowed, by decide +kernel⟩

/-- Cases of the violations: `upsampling_n=-1` gives a factor of 2^64 - 1. -/
example (file : List Char → Option (List Char)) : ∃ argv k, command { sample with upsample := -1 } = some argv ∧ parse file argv = some k ∧
    (k.upsample : ℤ) = 2 ^ 64 + -1 :=
  C123_violated_upsampling file { sample with upsample := -1 }
    ⟨sample_accepted.1, sample_accepted.2, sample_accepted.3, sample_accepted.4, sample_accepted.5⟩
    { sample_exact with } (.inr (.inl ⟨by decide, rfl⟩)) (by decide) { sample_allowed with }

/-- `ref_first_p=True` without `delayT0`, and `Length=1e15`. -/
example (file : List Char → Option (List Char)) : ∃ argv, command { sample with firstP := true, t0 := 0 } = some argv ∧ parse file argv = none :=
  C123_violated_first file { sample with firstP := true, t0 := 0 }
    ⟨sample_accepted.1, sample_accepted.2, sample_accepted.3, sample_accepted.4, sample_accepted.5⟩
    { sample_exact with t0 := (by exact_mod_cast plain_int 0 (by norm_num)) } rfl le_rfl

example (file : List Char → Option (List Char)) : ∃ argv, command { sample with length := 10 ^ 15 } = some argv ∧ parse file argv = none :=
  C123_violated_large file { sample with length := 10 ^ 15 }
    ⟨sample_accepted.1, sample_accepted.2, sample_accepted.3, sample_accepted.4, sample_accepted.5⟩
    { sample_exact with length := (by exact_mod_cast small_int 0 (by norm_num)) } rfl

end GRT.Python.Grn
