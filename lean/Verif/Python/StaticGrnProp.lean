import Verif.Python.StaticGrn
import Verif.Python.GrnProp
import Verif.Files.Range

/-! C124: a call of `compute_static_grn` makes the program work with the values of the call. -/

namespace GRT.Python.StaticGrn

open GRT.Num GRT.Files GRT.Points GRT.Python GRT.Python.Syn GRT.Python.Grn

/-! ### Specification -/

/-- The coordinates from `p` to `q` in steps of `s`. -/
def coords (p q s : ℚ) : List Val := (List.range (⌊(q - p) / s⌋.toNat + 1)).map fun i : ℕ => .num (p + s * i)

/-- The coordinates a range asks for. -/
def rangeOf : Option (List ℚ) → List Val
  | some [p, q, s] => coords p q s
  | _ => []

/-- What the program should work with; a list of distances is a line of points to the east. -/
def expected (a : Args) (c : Option Conv) : Ctrl where
  M := some a.model
  dBoth := decide (a.depsrc.length = 1 ∧ a.deprcv.length = 1)
  dSrc := decide ¬(a.depsrc.length = 1 ∧ a.deprcv.length = 1)
  dRcv := decide ¬(a.depsrc.length = 1 ∧ a.deprcv.length = 1)
  srcs := a.depsrc.map .num
  rcvs := a.deprcv.map .num
  top := a.top
  bot := a.bot
  length := .num a.length
  kcut := .num a.filonCut
  fim := if a.filonLength = 0 then none else some (.num a.filonLength)
  safim := if a.safilonTol = 0 then none else some (.num a.safilonTol)
  conv := c
  keps := .num a.keps
  k0 := .num a.k0
  useRef := a.useRef
  X := some (match a.dists with | some _ => [.num 0] | none => rangeOf a.norths)
  Y := some (match a.dists with | some d => d.map .num | none => rangeOf a.easts)
  O := some a.stgrn
  S := decide (a.stats = true ∧ a.depsrc.length = 1 ∧ a.deprcv.length = 1)
  e := a.upar

/-- A range: a positive step and ends in order. -/
def Ordered : Option (List ℚ) → Prop
  | some [p, q, s] => 0 < s ∧ p ≤ q
  | _ => False

/-- What is asked of the values. -/
structure Allowed (a : Args) : Prop where
  places : a.dists = none → Ordered a.norths ∧ Ordered a.easts
  filon : a.filonLength = 0 ∨ a.safilonTol = 0
  k0 : 0 ≤ a.k0

/-- Which calls reach the program. -/
structure Accepted (a : Args) : Prop where
  lists : ∀ l ∈ [a.depsrc, a.deprcv], l ≠ [] ∧ (∀ x ∈ l, 0 ≤ x) ∧ l.Pairwise (· < ·)
  places : (∃ d, a.dists = some d ∧ a.norths = none ∧ a.easts = none ∧ d ≠ [] ∧ (∀ x ∈ d, 0 ≤ x) ∧ d.Pairwise (· < ·)) ∨
    (a.dists = none ∧ ∃ n e, a.norths = some n ∧ a.easts = some e ∧ n.length = 3 ∧ e.length = 3)
  method : ∃ c, IsMethod a.method c

/-- The numbers that are written without rounding: at most fifteen digits, and not above 10^14 where the option is split at plus signs. -/
structure Exact (a : Args) : Prop where
  model : a.model ≠ []
  stgrn : a.stgrn ≠ []
  depsrc : ∀ x ∈ a.depsrc, Plain x
  deprcv : ∀ x ∈ a.deprcv, Plain x
  dists : ∀ d ∈ a.dists, ∀ x ∈ d, Plain x
  norths : ∀ d ∈ a.norths, ∀ x ∈ d, Plain x
  easts : ∀ d ∈ a.easts, ∀ x ∈ d, Plain x
  length : Small a.length
  filonLength : Small a.filonLength
  safilonTol : Small a.safilonTol
  filonCut : Small a.filonCut
  k0 : Small a.k0
  keps : Small a.keps

/-- Whole numbers. -/
def Whole (l : Option (List ℚ)) : Prop := ∀ d ∈ l, ∀ x ∈ d, ∃ n : ℤ, x = n ∧ |n| < 10 ^ 14

/-! ### Grids -/

theorem dbl_int (n : ℤ) (h : |n| < 2 ^ 53) : dbl (n : ℚ) = n := rnd_intCast 2 53 (by norm_num) n (by exact_mod_cast h)

/-- A range of whole numbers has exactly the coordinates it asks for. -/
theorem axis_whole {p q s : ℤ} (hp : |p| < 10 ^ 14) (hq : |q| < 10 ^ 14) (hs : 0 < s) (hpq : p ≤ q) :
    (axis p q s).map (List.map Val.num) = some (coords p q s) := by
  rw [abs_lt] at hp hq
  obtain ⟨m, hm⟩ := Int.eq_ofNat_of_zero_le (sub_nonneg.2 hpq)
  obtain ⟨d, hd⟩ := Int.eq_ofNat_of_zero_le hs.le
  have hd0 : 0 < d := by omega
  have hmb : m < 2 * 10 ^ 14 := by omega
  have e1 : dbl ((q : ℚ) - p) = (m : ℚ) := by
    have : (q : ℚ) - p = ((m : ℤ) : ℚ) := by rw [← Int.cast_sub, hm]
    rw [this, dbl_int _ (by rw [abs_lt]; omega), Int.cast_natCast]
  have es : (s : ℚ) = (d : ℚ) := by rw [hd]; rfl
  have hf : ⌊dbl ((m : ℚ) / d)⌋ = ((m / d : ℕ) : ℤ) := floor_dbl_div m d hd0 (by omega)
  have hle : m / d ≤ m := Nat.div_le_self m d
  have hcnt : axisCount p q s = some (m / d + 1) := by
    unfold axisCount
    rw [e1, es, hf]
    generalize m / d = t at hle
    have : ((t : ℤ) : ℚ) + 1 = ((t + 1 : ℕ) : ℚ) := by push_cast; rfl
    rw [this, dbl_nat _ (by omega)]
    have hlt : ((t + 1 : ℕ) : ℚ) < 2 ^ 64 := by
      have : t + 1 < 2 ^ 64 := by omega
      exact_mod_cast this
    dsimp only
    rw [if_neg (not_le.2 hlt), Int.floor_natCast, Int.toNat_natCast]
  have hex : ⌊((q : ℚ) - p) / s⌋.toNat = m / d := by
    have : (q : ℚ) - p = (m : ℚ) := by rw [← Int.cast_sub, hm]; rfl
    rw [this, es]
    rw [← Int.toNat_natCast (m / d)]
    congr 1
    exact Rat.floor_natCast_div_natCast m d
  unfold axis coords
  rw [hcnt, hex, Option.map_some, Option.map_some, List.map_map]
  congr 1
  refine List.map_congr_left fun i hi => ?_
  have hi' : i ≤ m / d := by simpa [Nat.lt_succ_iff] using hi
  have hmul : d * i ≤ m := (Nat.mul_le_mul_left d hi').trans (Nat.mul_div_le m d)
  have e2 : dbl ((s : ℚ) * dbl (i : ℚ)) = ((d * i : ℕ) : ℚ) := by
    rw [dbl_nat i (by omega), es, ← Nat.cast_mul, dbl_nat _ (by omega)]
  have e3 : (p : ℚ) + ((d * i : ℕ) : ℚ) = ((p + (d * i : ℕ) : ℤ) : ℚ) := by push_cast; ring
  simp only [Function.comp]
  rw [e2, e3, dbl_int _ (by rw [abs_lt]; constructor <;> push_cast <;> [nlinarith; nlinarith])]
  rw [es]
  push_cast
  ring_nf

/-! ### Single options -/

section
variable {file : List Char → Option (List Char)} {k : Ctrl} {rest : List Text} {a : Args}

theorem run_req {c : Char} {t : Text} (h : arity c = some .req) (ht : t ≠ []) :
    run file k (('-' :: c :: t) :: rest) = (step file k (c, some t)).bind fun k => run file k rest := by
  have hc : c ≠ '-' := by rintro rfl; revert h; decide
  unfold run
  rw [getopt_req hc h ht]
  cases getopt arity rest with
  | none => cases step file k (c, some t) <;> rfl
  | some os =>
    simp only [Option.map_some, Option.bind_some, List.foldlM_cons]
    cases step file k (c, some t) <;> rfl

theorem run_flag {c : Char} (h : arity c = some .flag) :
    run file k (['-', c] :: rest) = (step file k (c, none)).bind fun k => run file k rest := by
  have hc : c ≠ '-' := by rintro rfl; revert h; decide
  unfold run
  rw [getopt_flag hc h]
  cases getopt arity rest with
  | none => cases step file k (c, none) <;> rfl
  | some os =>
    simp only [Option.map_some, Option.bind_some, List.foldlM_cons]
    cases step file k (c, none) <;> rfl

/-- Single values set. -/
def setM (t : Text) (k : Ctrl) : Ctrl := { k with M := some t }
def setO (t : Text) (k : Ctrl) : Ctrl := { k with O := some t }
def setX (xs : List Val) (k : Ctrl) : Ctrl := { k with X := some xs }
def setY (ys : List Val) (k : Ctrl) : Ctrl := { k with Y := some ys }
def setB (a : Args) (k : Ctrl) : Ctrl := { k with top := a.top, bot := a.bot }
def setC (c : Option Conv) (k : Ctrl) : Ctrl := { k with conv := c.or k.conv }
def setS (b : Bool) (k : Ctrl) : Ctrl := { k with S := b || k.S }
def sete (b : Bool) (k : Ctrl) : Ctrl := { k with e := b || k.e }

theorem run_M {t : Text} (ht : t ≠ []) : run file k (("-M".toList ++ t) :: rest) = run file (setM t k) rest :=
  (run_req (c := 'M') (by decide) ht).trans rfl

theorem run_O {t : Text} (ht : t ≠ []) : run file k (("-O".toList ++ t) :: rest) = run file (setO t k) rest :=
  (run_req (c := 'O') (by decide) ht).trans rfl

/-- The depths set. -/
def setD (a : Args) (k : Ctrl) : Ctrl :=
  if a.depsrc.length = 1 ∧ a.deprcv.length = 1 then { k with dBoth := true, srcs := a.depsrc.map .num, rcvs := a.deprcv.map .num }
  else { k with dSrc := true, dRcv := true, srcs := a.depsrc.map .num, rcvs := a.deprcv.map .num }

theorem run_D (hs : normalize a.depsrc = some a.depsrc) (hr : normalize a.deprcv = some a.deprcv) (ps : ∀ x ∈ a.depsrc, Plain x)
    (pr : ∀ x ∈ a.deprcv, Plain x) : run file k (depths a.depsrc a.deprcv ++ rest) = run file (setD a k) rest := by
  obtain ⟨-, n1, q1, -⟩ := normalize_some hs
  obtain ⟨-, n2, q2, -⟩ := normalize_some hr
  have l1 : 0 < a.depsrc.length := List.length_pos_iff.2 n1
  have l2 : 0 < a.deprcv.length := List.length_pos_iff.2 n2
  unfold depths setD
  by_cases h : a.depsrc.length = 1 ∧ a.deprcv.length = 1
  · rw [if_neg (by omega), if_pos h]
    obtain ⟨x, hx⟩ := List.length_eq_one_iff.1 h.1
    obtain ⟨y, hy⟩ := List.length_eq_one_iff.1 h.2
    rw [hx] at ps q1 ⊢
    rw [hy] at pr q2 ⊢
    have px := ps x (by simp)
    have py := pr y (by simp)
    have zx := q1 x (by simp)
    have zy := q2 y (by simp)
    change run file k (("-D".toList ++ joinSlash [x, y]) :: rest) = _
    refine (run_req (c := 'D') (by decide) (joinSlash_ne (by simp))).trans ?_
    have h1 : (joinSlash [x, y]).head? ≠ some 's' := head_not x _ (by decide)
    have h2 : (joinSlash [x, y]).head? ≠ some 'r' := head_not x _ (by decide)
    have h3 := scanSlash_join [x, y] (by simp [px, py]) 2 (by simp)
    simp only [step, if_neg h1, if_neg h2, h3, List.map_cons, List.map_nil, num_lt]
    simp [not_lt.2 zx, not_lt.2 zy]
  · rw [if_pos (by omega), if_neg h]
    change run file k (("-Ds".toList ++ joinComma a.depsrc) :: ("-Dr".toList ++ joinComma a.deprcv) :: rest) = _
    refine (run_req (c := 'D') (t := 's' :: joinComma a.depsrc) (by decide) (by simp)).trans ?_
    have e1 := C121_list_partial file hs (fun x hx => (ps x hx).1) fun x hx => (ps x hx).2
    have e2 := C121_list_partial file hr (fun x hx => (pr x hx).1) fun x hx => (pr x hx).2
    simp only [step, List.head?_cons, if_true, List.tail_cons, e1, Option.bind_some]
    refine (run_req (c := 'D') (t := 'r' :: joinComma a.deprcv) (by decide) (by simp)).trans ?_
    simp [step, e2]

theorem run_R {d : List ℚ} (hs : normalize d = some d) (ps : ∀ x ∈ d, Plain x) :
    run file k (("-R".toList ++ joinComma d) :: rest) = run file (setY (d.map .num) (setX [.num 0] k)) rest := by
  obtain ⟨-, n1, -, -⟩ := normalize_some hs
  refine (run_req (c := 'R') (by decide) (joinComma_ne n1)).trans ?_
  have e1 := C121_list_partial file hs (fun x hx => (ps x hx).1) fun x hx => (ps x hx).2
  simp only [step, e1, Option.bind_some, setX, setY]

theorem scanAxis_join {p q s : ℚ} (hp : Plain p) (hq : Plain q) (hs : Plain s) : scanAxis (joinSlash [p, q, s]) =
    if 0 < s ∧ p ≤ q then (axis p q s).map (List.map .num) else none := by
  unfold scanAxis
  rw [scanSlash_join [p, q, s] (by simp [hp, hq, hs]) 3 (by simp)]
  simp only [List.map_cons, List.map_nil]
  by_cases c1 : s ≤ 0
  · rw [if_pos c1, if_neg (fun h => absurd h.1 (not_lt.2 c1))]
  · rw [if_neg c1]
    by_cases c2 : q < p
    · rw [if_pos c2, if_neg (fun h => absurd h.2 (not_le.2 c2))]
    · rw [if_neg c2, if_pos ⟨not_le.1 c1, not_lt.1 c2⟩]

theorem run_X {l : List ℚ} (h : l ≠ []) : run file k (("-X".toList ++ joinSlash l) :: rest) =
    (scanAxis (joinSlash l)).bind fun xs => run file (setX xs k) rest := by
  refine (run_req (c := 'X') (by decide) (joinSlash_ne h)).trans ?_
  simp only [step]
  cases scanAxis (joinSlash l) <;> rfl

theorem run_Y {l : List ℚ} (h : l ≠ []) : run file k (("-Y".toList ++ joinSlash l) :: rest) =
    (scanAxis (joinSlash l)).bind fun xs => run file (setY xs k) rest := by
  refine (run_req (c := 'Y') (by decide) (joinSlash_ne h)).trans ?_
  simp only [step]
  cases scanAxis (joinSlash l) <;> rfl

theorem run_B : run file k (("-B".toList ++ boundary a.top a.bot) :: rest) = run file (setB a k) rest := by
  refine (run_req (c := 'B') (by decide) (by simp [boundary])).trans ?_
  cases ht : a.top <;> cases hb : a.bot <;> simp [step, boundary, stepB, setB, ht, hb]

/-- The integration set. -/
def setL (a : Args) (k : Ctrl) : Ctrl :=
  { k with length := .num a.length, fim := if a.filonLength = 0 then k.fim else some (.num a.filonLength),
           safim := if a.safilonTol = 0 then k.safim else some (.num a.safilonTol), kcut := if a.filonCut = 0 then k.kcut else .num a.filonCut }

theorem run_L (p1 : Small a.length) (p2 : Small a.filonLength) (p3 : Small a.safilonTol) (p4 : Small a.filonCut) :
    run file k (optL a :: rest) = if (setL a k).fim.isSome && (setL a k).safim.isSome then none else run file (setL a k) rest := by
  have hh : (formatFloat a.length ++ plus (part (a.filonLength ≠ 0) ('l' :: formatFloat a.filonLength) ++
      (part (a.safilonTol ≠ 0) ('a' :: formatFloat a.safilonTol) ++ part (a.filonCut ≠ 0) ('o' :: formatFloat a.filonCut)))).head? ≠ some '+' := by
    intro h
    obtain ⟨c, t, e⟩ : ∃ c t, formatFloat a.length = c :: t := by
      cases h : formatFloat a.length with
      | nil => exact absurd h (formatFloat_ne _)
      | cons d t => exact ⟨d, t, rfl⟩
    rw [e] at h
    injection h with h
    subst h
    exact not_plus p1.2 (by rw [e]; simp)
  have hsp := split_plus (formatFloat a.length) (part (a.filonLength ≠ 0) ('l' :: formatFloat a.filonLength) ++
      (part (a.safilonTol ≠ 0) ('a' :: formatFloat a.safilonTol) ++ part (a.filonCut ≠ 0) ('o' :: formatFloat a.filonCut)))
    ⟨formatFloat_ne _, not_plus p1.2⟩ (by
      intro p hp
      simp only [List.mem_append] at hp
      rcases hp with hp | hp | hp <;> rw [mem_part hp]
      · exact ⟨by simp, by simp [not_plus p2.2]⟩
      · exact ⟨by simp, by simp [not_plus p3.2]⟩
      · exact ⟨by simp, by simp [not_plus p4.2]⟩)
  refine (run_req (c := 'L') (t := formatFloat a.length ++ _) (by decide) (by simp [formatFloat_ne])).trans ?_
  simp only [step, if_neg hh, hsp, scan_plain p1.plain _ (stops_plus _), List.tail_cons]
  by_cases c1 : a.filonLength = 0 <;> by_cases c2 : a.safilonTol = 0 <;> by_cases c3 : a.filonCut = 0 <;>
    simp [part, setL, c1, c2, c3, stepL, scan_plain' p2.plain, scan_plain' p3.plain, scan_plain' p4.plain] <;>
    (try split_ifs) <;> (try rfl)

/-- The upper end of the integration set. -/
def setK (a : Args) (k : Ctrl) : Ctrl := { k with k0 := .num a.k0, useRef := a.useRef || k.useRef, keps := .num a.keps }

theorem run_K (p1 : Small a.k0) (p3 : Small a.keps) : run file k (optK a :: rest) = if 0 ≤ a.k0 then run file (setK a k) rest else none := by
  have hsp := split_parts ([('k' :: formatFloat a.k0)] ++ (part a.useRef ['f'] ++ [('e' :: formatFloat a.keps)])) (by
      intro p hp
      simp only [List.mem_append, List.mem_cons, List.not_mem_nil, or_false] at hp
      rcases hp with rfl | hp | rfl
      · exact ⟨by simp, by simp [not_plus p1.2]⟩
      · rw [mem_part hp]; decide
      · exact ⟨by simp, by simp [not_plus p3.2]⟩)
  refine (run_req (c := 'K') (t := plus _) (by decide) (by simp [plus])).trans ?_
  simp only [step, hsp]
  by_cases c1 : 0 ≤ a.k0
  · cases hu : a.useRef <;>
      simp [part, setK, hu, stepK, scan_plain' p1.plain, scan_plain' p3.plain, num_lt, c1, not_lt.2 c1]
  · simp [stepK, scan_plain' p1.plain, num_lt, c1, not_le.1 c1]

theorem run_C {c : Option Conv} (h : IsMethod a.method c) : ∃ t, convergence a.method = some t ∧ ∀ (k : Ctrl) (rest : List Text),
    run file k (part (t ≠ []) ("-C".toList ++ t) ++ rest) = run file (setC c k) rest := by
  rcases h with ⟨h, rfl⟩ | ⟨h, rfl⟩ | ⟨h, rfl⟩ | ⟨h, rfl⟩
  · exact ⟨[], by simp [convergence, h], fun k rest => rfl⟩
  · refine ⟨['d'], by simp [convergence, h], fun k rest => ?_⟩
    exact (run_req (c := 'C') (t := ['d']) (by decide) (by simp)).trans rfl
  · refine ⟨['p'], by simp [convergence, h], fun k rest => ?_⟩
    exact (run_req (c := 'C') (t := ['p']) (by decide) (by simp)).trans rfl
  · refine ⟨['n'], by simp [convergence, h], fun k rest => ?_⟩
    exact (run_req (c := 'C') (t := ['n']) (by decide) (by simp)).trans rfl

theorem run_S {b : Bool} : run file k (flag "-S" b ++ rest) = run file (setS b k) rest := by
  cases b
  · rfl
  · exact (run_flag (c := 'S') (by decide)).trans rfl

theorem run_e {b : Bool} : run file k (flag "-e" b) = finish (sete b k) := by
  cases b
  · change run file _ [] = _
    unfold run
    rw [getopt.eq_1]; rfl
  · refine (run_flag (c := 'e') (rest := []) (by decide)).trans ?_
    change run file _ [] = _
    unfold run
    rw [getopt.eq_1]; rfl

end

/-! ### The property -/

theorem formatRange_iff (l : List ℚ) : formatRange l ≠ none ↔ l.length = 3 := by
  unfold formatRange
  split_ifs with h <;> simp_all

/-- C124: which calls reach the program: depths that are not negative and strictly ascending, either such distances or two ranges of three numbers, and a
documented method. -/
theorem C124_source (a : Args) : command a ≠ none ↔ Accepted a := by
  have e : command a ≠ none ↔ (normalize a.depsrc ≠ none ∧ normalize a.deprcv ≠ none) ∧ places a.dists a.norths a.easts ≠ none ∧
      convergence a.method ≠ none := by
    unfold command
    cases normalize a.depsrc <;> cases normalize a.deprcv <;> cases places a.dists a.norths a.easts <;> cases convergence a.method <;> simp
  have ep : places a.dists a.norths a.easts ≠ none ↔
      ((∃ d, a.dists = some d ∧ a.norths = none ∧ a.easts = none ∧ d ≠ [] ∧ (∀ x ∈ d, 0 ≤ x) ∧ d.Pairwise (· < ·)) ∨
      (a.dists = none ∧ ∃ n e, a.norths = some n ∧ a.easts = some e ∧ n.length = 3 ∧ e.length = 3)) := by
    unfold places
    rcases a.dists with _ | d <;> rcases a.norths with _ | n <;> rcases a.easts with _ | e
    all_goals try simp
    · rw [← formatRange_iff, ← formatRange_iff]
      cases formatRange n <;> cases formatRange e <;> simp
    · exact (normalize_iff d).trans (by simp)
  rw [e, ep, normalize_iff, normalize_iff, convergence_iff]
  constructor
  · rintro ⟨⟨h3, h4⟩, h6, h7⟩
    refine ⟨?_, h6, h7⟩
    intro l hl
    simp only [List.mem_cons, List.not_mem_nil, or_false] at hl
    rcases hl with rfl | rfl <;> assumption
  · rintro ⟨h3, h4, h5⟩
    exact ⟨⟨h3 _ (by simp), h3 _ (by simp)⟩, h4, h5⟩

/-- The coordinates the program takes from the arguments. -/
inductive Taken (a : Args) : List Val → List Val → Prop
  | dists (d : List ℚ) : a.dists = some d → Taken a [.num 0] (d.map .num)
  | grid (p q s p' q' s' : ℚ) (xs ys : List ℚ) : a.dists = none → a.norths = some [p, q, s] → a.easts = some [p', q', s'] → 0 < s → p ≤ q → 0 < s' → p' ≤ q' →
      axis p q s = some xs → axis p' q' s' = some ys → Taken a (xs.map .num) (ys.map .num)

theorem run_places {file : List Char → Option (List Char)} {a : Args} {pl : List Text} (ha : Accepted a) (hx : Exact a)
    (hp : places a.dists a.norths a.easts = some pl) :
    (∃ xs ys, Taken a xs ys ∧ ∀ k rest, run file k (pl ++ rest) = run file (setY ys (setX xs k)) rest) ∨
    ((∀ xs ys, ¬Taken a xs ys) ∧ ∀ k rest, run file k (pl ++ rest) = none) := by
  rcases ha.places with ⟨d, h1, h2, h3, h4⟩ | ⟨h1, n, e, h2, h3, h4, h5⟩
  · obtain ⟨d', hd⟩ := Option.ne_none_iff_exists'.1 ((normalize_iff d).2 h4)
    have e1 := (normalize_some hd).1
    subst e1
    rw [h1, h2, h3] at hp
    simp [places, hd] at hp
    subst hp
    exact .inl ⟨_, _, .dists _ h1, fun k rest => run_R hd (hx.dists _ h1)⟩
  · obtain ⟨p, q, s, rfl⟩ := List.length_eq_three.1 h4
    obtain ⟨p', q', s', rfl⟩ := List.length_eq_three.1 h5
    rw [h1, h2, h3] at hp
    simp [places, formatRange] at hp
    subst hp
    have n1 := hx.norths _ h2
    have n2 := hx.easts _ h3
    have s1 := scanAxis_join (n1 p (by simp)) (n1 q (by simp)) (n1 s (by simp))
    have s2 := scanAxis_join (n2 p' (by simp)) (n2 q' (by simp)) (n2 s' (by simp))
    have hr : ∀ k rest, run file k (["-X".toList ++ joinSlash [p, q, s], "-Y".toList ++ joinSlash [p', q', s']] ++ rest) =
        (scanAxis (joinSlash [p, q, s])).bind fun xs => (scanAxis (joinSlash [p', q', s'])).bind fun ys => run file (setY ys (setX xs k)) rest := by
      intro k rest
      refine (run_X (l := [p, q, s]) (by simp)).trans ?_
      congr 1
      funext xs
      exact run_Y (l := [p', q', s']) (by simp)
    have inv : ∀ {xs ys}, Taken a xs ys → ∃ xs' ys', scanAxis (joinSlash [p, q, s]) = some xs' ∧ scanAxis (joinSlash [p', q', s']) = some ys' := by
      rintro xs ys (⟨d, hd⟩ | ⟨P, Q, S, P', Q', S', xs, ys, hd, hn, he, g1, g2, g3, g4, g5, g6⟩)
      · rw [h1] at hd; cases hd
      · rw [h2] at hn; rw [h3] at he
        simp at hn he
        obtain ⟨rfl, rfl, rfl⟩ := hn
        obtain ⟨rfl, rfl, rfl⟩ := he
        refine ⟨xs.map .num, ys.map .num, ?_, ?_⟩
        · rw [s1, if_pos ⟨g1, g2⟩, g5]; rfl
        · rw [s2, if_pos ⟨g3, g4⟩, g6]; rfl
    cases c1 : scanAxis (joinSlash [p, q, s]) with
    | none =>
      right
      refine ⟨fun xs ys h => ?_, fun k rest => ?_⟩
      · obtain ⟨_, _, h, -⟩ := inv h
        rw [c1] at h; cases h
      · have := hr k rest
        rw [c1] at this
        exact this
    | some xs =>
      cases c2 : scanAxis (joinSlash [p', q', s']) with
      | none =>
        right
        refine ⟨fun xs ys h => ?_, fun k rest => ?_⟩
        · obtain ⟨_, _, -, h⟩ := inv h
          rw [c2] at h; cases h
        · have := hr k rest
          rw [c1, c2] at this
          exact this
      | some ys =>
        left
        refine ⟨xs, ys, ?_, fun k rest => ?_⟩
        · rw [s1] at c1
          rw [s2] at c2
          split_ifs at c1 with g1
          split_ifs at c2 with g2
          obtain ⟨xs', g5, rfl⟩ := Option.map_eq_some_iff.1 c1
          obtain ⟨ys', g6, rfl⟩ := Option.map_eq_some_iff.1 c2
          exact .grid p q s p' q' s' xs' ys' h1 h2 h3 g1.1 g1.2 g2.1 g2.2 g5 g6
        · have := hr k rest
          rw [c1, c2] at this
          exact this

/-- What the program works with, for any grid. -/
theorem static_parse (file : List Char → Option (List Char)) (a : Args) (ha : Accepted a) (hx : Exact a) {c : Option Conv} (hc : IsMethod a.method c) :
    ∃ argv, command a = some argv ∧
      (∀ xs ys, Taken a xs ys → parse file argv = if a.filonLength = 0 ∨ a.safilonTol = 0 then if 0 ≤ a.k0 then
        some { expected a c with X := some xs, Y := some ys } else none else none) ∧
      ((∀ xs ys, ¬Taken a xs ys) → parse file argv = none) := by
  obtain ⟨s, hs⟩ := Option.ne_none_iff_exists'.1 ((normalize_iff _).2 (ha.lists a.depsrc (by simp)))
  obtain ⟨r, hr⟩ := Option.ne_none_iff_exists'.1 ((normalize_iff _).2 (ha.lists a.deprcv (by simp)))
  obtain ⟨conv, hcv, hC⟩ := run_C (file := file) hc
  obtain ⟨argv, hcmd⟩ := Option.ne_none_iff_exists'.1 ((C124_source a).2 ha)
  obtain ⟨pl, hpl⟩ : ∃ pl, places a.dists a.norths a.easts = some pl := by
    refine Option.ne_none_iff_exists'.1 fun h => ?_
    unfold command at hcmd
    rw [h] at hcmd
    split at hcmd <;> simp at hcmd
  have e1 := (normalize_some hs).1
  have e2 := (normalize_some hr).1
  subst e1 e2
  have harg : command a = some (line a pl conv) := by
    unfold command
    rw [hs, hr, hpl, hcv]
  refine ⟨line a pl conv, harg, ?_⟩
  have hP := run_places (file := file) ha hx hpl
  have l1 : 0 < a.depsrc.length := List.length_pos_iff.2 (ha.lists a.depsrc (by simp)).1
  have l2 : 0 < a.deprcv.length := List.length_pos_iff.2 (ha.lists a.deprcv (by simp)).1
  have general : ∀ xs ys, (∀ k rest, run file k (pl ++ rest) = run file (setY ys (setX xs k)) rest) → ∀ k,
      run file k (line a pl conv) =
      if (setL a (setY ys (setX xs (setB a (setO a.stgrn (setD a (setM a.model k))))))).fim.isSome &&
        (setL a (setY ys (setX xs (setB a (setO a.stgrn (setD a (setM a.model k))))))).safim.isSome then none
      else if 0 ≤ a.k0 then finish (sete a.upar (setS (a.stats && !multi a) (setK a (setC c (setL a (setY ys (setX xs (setB a (setO a.stgrn (setD a (setM a.model k)))))))))))
      else none := by
    intro xs ys h k
    unfold line
    rw [run_M hx.model, run_D hs hr hx.depsrc hx.deprcv, run_O hx.stgrn, run_B, h, run_L hx.length hx.filonLength hx.safilonTol hx.filonCut, hC,
      run_K hx.k0 hx.keps, run_S, run_e]
  have unique : ∀ {xs ys xs' ys'}, Taken a xs ys → Taken a xs' ys' → xs = xs' ∧ ys = ys' := by
    rintro xs ys xs' ys' (⟨d, hd⟩ | ⟨p, q, s, p', q', s', xs, ys, hd, hn, he, -, -, -, -, g5, g6⟩)
        (⟨d2, hd2⟩ | ⟨P, Q, S, P', Q', S', xs2, ys2, hd2, hn2, he2, -, -, -, -, j5, j6⟩)
    · rw [hd] at hd2; cases hd2; exact ⟨rfl, rfl⟩
    · rw [hd] at hd2; cases hd2
    · rw [hd] at hd2; cases hd2
    · rw [hn] at hn2; rw [he] at he2
      simp at hn2 he2
      obtain ⟨rfl, rfl, rfl⟩ := hn2
      obtain ⟨rfl, rfl, rfl⟩ := he2
      rw [g5] at j5; rw [g6] at j6
      cases j5; cases j6; exact ⟨rfl, rfl⟩
  rcases hP with ⟨xs, ys, ht, hrun⟩ | ⟨hnt, hrun⟩
  · refine ⟨fun xs' ys' ht' => ?_, fun h => absurd ht (h _ _)⟩
    obtain ⟨rfl, rfl⟩ := unique ht ht'
    unfold parse
    rw [general xs ys hrun {}]
    have f1 : (setL a (setY ys (setX xs (setB a (setO a.stgrn (setD a (setM a.model {}))))))).fim =
        if a.filonLength = 0 then none else some (.num a.filonLength) := by
      unfold setL setD
      split_ifs <;> rfl
    have f2 : (setL a (setY ys (setX xs (setB a (setO a.stgrn (setD a (setM a.model {}))))))).safim =
        if a.safilonTol = 0 then none else some (.num a.safilonTol) := by
      unfold setL setD
      split_ifs <;> rfl
    have fin : sete a.upar (setS (a.stats && !multi a) (setK a (setC c (setL a (setY ys (setX xs (setB a (setO a.stgrn (setD a (setM a.model {})))))))))) =
        { expected a c with X := some xs, Y := some ys } := by
      have z : ∀ x : ℚ, (if x = 0 then Val.num 0 else Val.num x) = Val.num x := by
        intro x
        split_ifs with h
        · rw [h]
        · rfl
      have d1 : setD a (setM a.model {}) = { setM a.model {} with
          dBoth := decide (a.depsrc.length = 1 ∧ a.deprcv.length = 1)
          dSrc := decide ¬(a.depsrc.length = 1 ∧ a.deprcv.length = 1)
          dRcv := decide ¬(a.depsrc.length = 1 ∧ a.deprcv.length = 1)
          srcs := a.depsrc.map .num
          rcvs := a.deprcv.map .num } := by
        unfold setD
        split_ifs with h
        · rw [decide_eq_true h, decide_eq_false (not_not.2 h)]; rfl
        · rw [decide_eq_false h, decide_eq_true h]; rfl
      have hm : (a.stats && !multi a) = decide (a.stats = true ∧ a.depsrc.length = 1 ∧ a.deprcv.length = 1) := by
        unfold multi
        by_cases h : a.depsrc.length = 1 ∧ a.deprcv.length = 1
        · have : ¬(1 < a.depsrc.length ∨ 1 < a.deprcv.length) := by omega
          simp [h]
        · have : 1 < a.depsrc.length ∨ 1 < a.deprcv.length := by omega
          simp [this, h]
      rw [d1, hm]
      simp only [sete, setS, setK, setC, setL, setX, setY, setB, setO, setM, expected, z, Option.or_none, Bool.or_false]
    have ok : finish { expected a c with X := some xs, Y := some ys } = some { expected a c with X := some xs, Y := some ys } := by
      by_cases h : a.depsrc.length = 1 ∧ a.deprcv.length = 1
      · simp [finish, expected, h]
      · have : decide (a.depsrc.length = 1 ∧ a.deprcv.length = 1) = false := decide_eq_false h
        simp only [finish, expected, this, decide_not]
        rfl
    rw [f1, f2, fin, ok]
    by_cases c1 : a.filonLength = 0 <;> by_cases c2 : a.safilonTol = 0 <;> simp [c1, c2]
  · refine ⟨fun xs ys h => absurd h (hnt _ _), fun _ => ?_⟩
    unfold parse line
    rw [run_M hx.model, run_D hs hr hx.depsrc hx.deprcv, run_O hx.stgrn, run_B, hrun]

theorem three {l : Option (List ℚ)} (h : Ordered l) : ∃ p q s, l = some [p, q, s] ∧ 0 < s ∧ p ≤ q := by
  match l, h with
  | some [p, q, s], h => exact ⟨p, q, s, rfl, h.1, h.2⟩

theorem axis_of_whole {l : Option (List ℚ)} {p q s : ℚ} (hw : Whole l) (hl : l = some [p, q, s]) (hs : 0 < s) (hpq : p ≤ q) :
    ∃ xs, axis p q s = some xs ∧ xs.map Val.num = coords p q s := by
  obtain ⟨P, rfl, b1⟩ := hw _ hl p (by simp)
  obtain ⟨Q, rfl, b2⟩ := hw _ hl q (by simp)
  obtain ⟨S, rfl, b3⟩ := hw _ hl s (by simp)
  exact Option.map_eq_some_iff.1 (axis_whole b1 b2 (by exact_mod_cast hs) (by exact_mod_cast hpq))

/-- C124: for numbers of at most fifteen digits (not above 10^14 where they stand next to plus signs) and ranges of whole numbers, the program works with
exactly the values of the call, or refuses it if the arguments are not allowed. -/
theorem C124_partial (file : List Char → Option (List Char)) (a : Args) (ha : Accepted a) (hx : Exact a) (h1 : Whole a.norths) (h2 : Whole a.easts)
    {c : Option Conv} (hc : IsMethod a.method c) :
    ∃ argv, command a = some argv ∧ (Allowed a → parse file argv = some (expected a c)) ∧ (¬Allowed a → parse file argv = none) := by
  obtain ⟨argv, hcmd, ht, hn⟩ := static_parse file a ha hx hc
  refine ⟨argv, hcmd, ?_, ?_⟩
  · rintro ⟨q1, q2, q3⟩
    cases hd : a.dists with
    | some d =>
      rw [ht _ _ (.dists d hd), if_pos q2, if_pos q3]
      simp [expected, hd]
    | none =>
      obtain ⟨o1, o2⟩ := q1 hd
      obtain ⟨p, q, s, en, g1, g2⟩ := three o1
      obtain ⟨p', q', s', ee, g3, g4⟩ := three o2
      obtain ⟨xs, ex, exs⟩ := axis_of_whole h1 en g1 g2
      obtain ⟨ys, ey, eys⟩ := axis_of_whole h2 ee g3 g4
      rw [ht _ _ (.grid p q s p' q' s' xs ys hd en ee g1 g2 g3 g4 ex ey), if_pos q2, if_pos q3, exs, eys]
      simp [expected, hd, en, ee, rangeOf]
  · intro hna
    by_cases hT : ∃ xs ys, Taken a xs ys
    · obtain ⟨xs, ys, hT⟩ := hT
      rw [ht xs ys hT]
      by_cases q2 : a.filonLength = 0 ∨ a.safilonTol = 0
      swap
      · exact if_neg q2
      rw [if_pos q2]
      by_cases q3 : 0 ≤ a.k0
      swap
      · exact if_neg q3
      refine absurd ⟨fun hd => ?_, q2, q3⟩ hna
      rcases hT with ⟨d, hd'⟩ | ⟨p, q, s, p', q', s', xs, ys, -, en, ee, g1, g2, g3, g4, -, -⟩
      · rw [hd] at hd'; cases hd'
      · rw [en, ee]; exact ⟨⟨g1, g2⟩, ⟨g3, g4⟩⟩
    · exact hn fun xs ys h => hT ⟨xs, ys, h⟩

/-- C124 does not hold for other ranges: `norths=(0, 0.3, 0.1)` has three coordinates, the last one 0.2, where 0.3 is asked for. -/
theorem C124_violated_grid (file : List Char → Option (List Char)) (a : Args) (ha : Accepted a) (hx : Exact a) (hd : a.dists = none)
    (hn : a.norths = some [0, dbl (3 / 10), dbl (1 / 10)]) (he : Whole a.easts) (hal : Allowed a) :
    ∃ argv k, command a = some argv ∧ parse file argv = some k ∧ k.X = some [.num 0, .num (dbl (1 / 10)), .num (dbl (2 / 10))] := by
  obtain ⟨c, hc⟩ := ha.method
  obtain ⟨argv, hcmd, ht, -⟩ := static_parse file a ha hx hc
  obtain ⟨q1, q2, q3⟩ := hal
  obtain ⟨p', q', s', ee, g3, g4⟩ := three (q1 hd).2
  obtain ⟨ys, ey, -⟩ := axis_of_whole he ee g3 g4
  have ex : axis 0 (dbl (3 / 10)) (dbl (1 / 10)) = some [0, dbl (1 / 10), dbl (2 / 10)] := by decide +kernel
  have := ht _ _ (.grid _ _ _ p' q' s' _ ys hd hn ee (by decide +kernel) (by decide +kernel) g3 g4 ex ey)
  rw [if_pos q2, if_pos q3] at this
  exact ⟨argv, _, hcmd, this, rfl⟩

/-! ### Cases -/

/-- A call with a grid of 3 × 2 points and two depths of the source. -/
def sample : Args where
  model := "milrow".toList
  stgrn := "st.nc".toList
  top := .free
  bot := .half
  depsrc := [2, 5]
  deprcv := [0]
  dists := none
  norths := some [-3, 4, 3]
  easts := some [0, 1, 1]
  keps := -1
  k0 := 50
  useRef := true
  length := 15
  filonLength := 0
  safilonTol := dbl (1 / 100)
  filonCut := 0
  method := "auto".toList
  upar := true
  stats := true

theorem sample_accepted : Accepted sample := by
  refine ⟨?_, .inr ⟨rfl, _, _, rfl, rfl, rfl, rfl⟩, ⟨_, .inl ⟨by decide, rfl⟩⟩⟩
  intro l hl
  simp only [sample, List.mem_cons, List.not_mem_nil, or_false] at hl
  rcases hl with rfl | rfl
  · exact ⟨by simp, by simp, by simp; norm_num⟩
  · exact ⟨by simp, by simp, by simp⟩

theorem sample_whole : Whole sample.norths ∧ Whole sample.easts := by
  constructor
  · rintro d ⟨⟩ x hx
    simp only [List.mem_cons, List.not_mem_nil, or_false] at hx
    rcases hx with rfl | rfl | rfl
    · exact ⟨-3, by norm_num, by norm_num⟩
    · exact ⟨4, by norm_num, by norm_num⟩
    · exact ⟨3, by norm_num, by norm_num⟩
  · rintro d ⟨⟩ x hx
    simp only [List.mem_cons, List.not_mem_nil, or_false] at hx
    rcases hx with rfl | rfl | rfl
    · exact ⟨0, by norm_num, by norm_num⟩
    · exact ⟨1, by norm_num, by norm_num⟩
    · exact ⟨1, by norm_num, by norm_num⟩

theorem whole_plain {l : Option (List ℚ)} (h : Whole l) : ∀ d ∈ l, ∀ x ∈ d, Plain x := by
  intro d hd x hx
  obtain ⟨n, rfl, hn⟩ := h d hd x hx
  exact plain_int n (hn.trans (by norm_num))

theorem sample_exact : Exact sample := by
  have i : ∀ (n : ℤ) (q : ℚ), q = n → |n| ≤ 10 ^ 14 → Small q := fun n q e h => by rw [e]; exact small_int n h
  refine ⟨by decide, by decide, ?_, ?_, (by rintro d ⟨⟩), whole_plain sample_whole.1, whole_plain sample_whole.2,
    i 15 _ (by norm_num [sample]) (by norm_num), i 0 _ (by norm_num [sample]) (by norm_num),
    ⟨⟨1 / 100, ⟨1, -2, by norm_num, by norm_num⟩, rfl⟩, by decide +kernel⟩, i 0 _ (by norm_num [sample]) (by norm_num),
    i 50 _ (by norm_num [sample]) (by norm_num), i (-1) _ (by norm_num [sample]) (by norm_num)⟩
  · intro x hx
    simp only [sample, List.mem_cons, List.not_mem_nil, or_false] at hx
    rcases hx with rfl | rfl
    · exact (i 2 _ (by norm_num) (by norm_num)).plain
    · exact (i 5 _ (by norm_num) (by norm_num)).plain
  · intro x hx
    simp only [sample, List.mem_cons, List.not_mem_nil, or_false] at hx
    subst hx; exact (i 0 _ (by norm_num) (by norm_num)).plain

theorem sample_allowed : Allowed sample :=
  ⟨fun _ => ⟨⟨by norm_num, by norm_num⟩, ⟨by norm_num, by norm_num⟩⟩, .inl rfl, by norm_num [sample]⟩

/-- The hypotheses of `C124_partial` for it, the command line, and the points to the north. -/
example : Accepted sample ∧ Exact sample ∧ Whole sample.norths ∧ Whole sample.easts ∧ IsMethod sample.method none ∧ Allowed sample ∧
    command sample = some ["-Mmilrow".toList, "-Ds2,5".toList, "-Dr0".toList, "-Ost.nc".toList, "-BfH".toList, "-X-3/4/3".toList, "-Y0/1/1".toList,
      "-L15+a0.01".toList, "-K+k50+f+e-1".toList, "-e".toList] ∧ (expected sample none).X = some [.num (-3), .num 0, .num 3] :=
  ⟨sample_accepted, sample_exact, sample_whole.1, sample_whole.2, .inl ⟨by decide, rfl⟩, sample_allowed, by decide +kernel, by decide +kernel⟩

/-- The violation: the fourth coordinate is lost. -/
example (file : List Char → Option (List Char)) : ∃ argv k, command { sample with norths := some [0, dbl (3 / 10), dbl (1 / 10)] } = some argv ∧
    parse file argv = some k ∧ k.X = some [.num 0, .num (dbl (1 / 10)), .num (dbl (2 / 10))] := by
  refine C124_violated_grid file { sample with norths := some [0, dbl (3 / 10), dbl (1 / 10)] }
    ⟨sample_accepted.1, .inr ⟨rfl, _, _, rfl, rfl, rfl, rfl⟩, sample_accepted.3⟩ { sample_exact with norths := ?_ } rfl rfl sample_whole.2
    ⟨fun _ => ⟨⟨by decide +kernel, by decide +kernel⟩, ⟨by norm_num, by norm_num⟩⟩, sample_allowed.2, sample_allowed.3⟩
  rintro d ⟨⟩ x hx
  simp only [List.mem_cons, List.not_mem_nil, or_false] at hx
  rcases hx with rfl | rfl | rfl
  · exact_mod_cast plain_int 0 (by norm_num)
  · exact ⟨⟨3 / 10, ⟨3, -1, by norm_num, by norm_num⟩, rfl⟩, by decide +kernel⟩
  · exact ⟨⟨1 / 10, ⟨1, -1, by norm_num, by norm_num⟩, rfl⟩, by decide +kernel⟩

end GRT.Python.StaticGrn
