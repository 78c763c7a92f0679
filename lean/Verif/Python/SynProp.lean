import Verif.Python.Syn

/-! C122: a call of `compute_syn` makes the program work with the source and the numbers of the call. -/

namespace GRT.Python.Syn

open GRT.Num GRT.Files GRT.Points GRT.Python

/-! ### Specification -/

/-- The sources of the documentation, pymod.py 602-608. -/
inductive Source where
  | explosion
  | force (north east down : ℚ)
  | tear (strike dip : ℚ)
  | shear (strike dip rake : ℚ)
  | tensor (xx xy xz yy yz zz : ℚ)

/-- Which arguments select which source; the other source arguments are left out. -/
def Asks (a : Args) : Source → Prop
  | .explosion => a.strike = none ∧ a.dip = none ∧ a.rake = none ∧ a.force = none ∧ a.tensor = none
  | .force n e z => a.strike = none ∧ a.dip = none ∧ a.rake = none ∧ a.force = some [n, e, z] ∧ a.tensor = none
  | .tear s d => a.strike = some s ∧ a.dip = some d ∧ a.rake = none ∧ a.force = none ∧ a.tensor = none
  | .shear s d r => a.strike = some s ∧ a.dip = some d ∧ a.rake = some r ∧ a.force = none ∧ a.tensor = none
  | .tensor xx xy xz yy yz zz => a.strike = none ∧ a.dip = none ∧ a.rake = none ∧ a.force = none ∧ a.tensor = some [xx, xy, xz, yy, yz, zz]

/-- The numbers of a source. -/
def Source.numbers : Source → List ℚ
  | .explosion => []
  | .force n e z => [n, e, z]
  | .tear s d => [s, d]
  | .shear s d r => [s, d, r]
  | .tensor xx xy xz yy yz zz => [xx, xy, xz, yy, yz, zz]

/-- The documented ranges of the angles. -/
def Source.allowed : Source → Prop
  | .tear s d => (0 ≤ s ∧ s ≤ 360) ∧ 0 ≤ d ∧ d ≤ 90
  | .shear s d r => ((0 ≤ s ∧ s ≤ 360) ∧ 0 ≤ d ∧ d ≤ 90) ∧ -180 ≤ r ∧ r ≤ 180
  | _ => True

/-- The kind and the numbers the synthesis works with: Cartesian components for a force and a tensor, angles (rake zero for an opening) for a
fault. -/
def Source.works : Source → Kind × List ℚ
  | .explosion => (.EX, [])
  | .force n e z => (.SF, [n, e, z])
  | .tear s d => (.TS, [s, d, 0])
  | .shear s d r => (.DC, [s, d, r])
  | .tensor xx xy xz yy yz zz => (.MT, [xx, xy, xz, yy, yz, zz])

/-- A number of at most fifteen significant digits, not too large. -/
def Plain (x : ℚ) : Prop := Literal x ∧ |x| ≤ 10 ^ 300

/-- A time function of the documented form: a letter, a slash and a text without spaces. -/
def Form (t : Text) (c : Char) (p : Text) : Prop := t = c :: '/' :: p ∧ c ≠ 's' ∧ p ≠ [] ∧ ∀ x ∈ p, isSpace x = false

/-! ### Reading single options -/

theorem run_req {dir : Text → Bool} {tf : Char → Text → Bool} {k : Ctrl} {c : Char} {t : Text} {rest : List Text}
    (h : arity c = some .req) (ht : t ≠ []) :
    run dir tf k (('-' :: c :: t) :: rest) = (step dir tf k (c, some t)).bind fun k => run dir tf k rest := by
  have hc : c ≠ '-' := by rintro rfl; revert h; decide
  unfold run
  rw [getopt_req hc h ht]
  cases getopt arity rest with
  | none => cases step dir tf k (c, some t) <;> rfl
  | some os =>
    simp only [Option.map_some, Option.bind_some, List.foldlM_cons]
    cases step dir tf k (c, some t) <;> rfl

theorem run_flag {dir : Text → Bool} {tf : Char → Text → Bool} {k : Ctrl} {c : Char} {rest : List Text} (h : arity c = some .flag) :
    run dir tf k (['-', c] :: rest) = (step dir tf k (c, none)).bind fun k => run dir tf k rest := by
  have hc : c ≠ '-' := by rintro rfl; revert h; decide
  unfold run
  rw [getopt_flag hc h]
  cases getopt arity rest with
  | none => cases step dir tf k (c, none) <;> rfl
  | some os =>
    simp only [Option.map_some, Option.bind_some, List.foldlM_cons]
    cases step dir tf k (c, none) <;> rfl

theorem ends_nil : Stops [] := by intro c h; simp at h
theorem ends_slash (r : Text) : Stops ('/' :: r) := by intro c h; simp at h; subst h; decide

theorem scan_plain {x : ℚ} (h : Plain x) (r : Text) (hr : Stops r) : scanReal (formatFloat x ++ r) = some (.num x, r) := by
  have := scanReal_formatFloat x r hr (back_range h.2)
  rwa [back_literal h.1] at this

theorem scan_plain' {x : ℚ} (h : Plain x) : scanReal (formatFloat x) = some (.num x, []) := by
  have := scan_plain h [] ends_nil
  rwa [List.append_nil] at this

theorem scanSlash_join (xs : List ℚ) (h : ∀ x ∈ xs, Plain x) : ∀ n, xs.length ≤ n → scanSlash n (joinSlash xs) = xs.map .num := by
  induction xs with
  | nil =>
    intro n _
    cases n with
    | zero => rfl
    | succ n => rfl
  | cons x xs ih =>
    intro n hn
    obtain ⟨n, rfl⟩ : ∃ m, n = m + 1 := ⟨n - 1, by simp at hn; omega⟩
    cases xs with
    | nil => rw [joinSlash, scanSlash, scan_plain' (h x (by simp))]; rfl
    | cons y ys =>
      rw [joinSlash, scanSlash, scan_plain (h x (by simp)) _ (ends_slash _)]
      change Val.num x :: scanSlash n (joinSlash (y :: ys)) = _
      rw [ih (fun z hz => h z (by simp [hz])) n (by simp at hn ⊢; omega)]
      rfl

theorem outside_num (x a b : ℚ) : outside (.num x) a b = !decide (a ≤ x ∧ x ≤ b) := by
  unfold outside
  by_cases h1 : a ≤ x <;> by_cases h2 : x ≤ b <;> simp [Val.lt, h1, h2, not_lt.2, not_le.1]

theorem not_u (x : ℚ) : 'u' ∉ formatFloat x := fun h => absurd (formatFloat_chars x _ h) (by decide)
theorem not_slash (x : ℚ) : '/' ∉ formatFloat x := fun h => absurd (formatFloat_chars x _ h) (by decide)

theorem blankU_self {t : Text} (h : 'u' ∉ t) : blankU t = t := by
  induction t with
  | nil => rfl
  | cons c t ih =>
    rw [blankU, if_neg (by rintro rfl; simp at h), ih (by simp at h; exact h.2)]

theorem scan_space (t : Text) : scanReal (' ' :: t) = scanReal t := by
  have : strtod (' ' :: t) = strtod t := by
    unfold strtod
    rw [List.dropWhile_cons_of_pos (by decide)]
  unfold scanReal
  rw [this]

theorem joinSlash_ne {xs : List ℚ} (h : xs ≠ []) : joinSlash xs ≠ [] := by
  match xs with
  | [] => exact absurd rfl h
  | [x] => exact formatFloat_ne x
  | x :: y :: ys => rw [joinSlash]; simp [formatFloat_ne x]

section
variable {dir : Text → Bool} {tf : Char → Text → Bool} {k : Ctrl} {rest : List Text}

theorem run_G {t : Text} (ht : t ≠ []) : run dir tf k (("-G".toList ++ t) :: rest) = if dir t then run dir tf { k with G := some t } rest else none := by
  refine (run_req (c := 'G') (by decide) ht).trans ?_
  simp only [step]
  split_ifs <;> rfl

theorem run_O {t : Text} (ht : t ≠ []) : run dir tf k (("-O".toList ++ t) :: rest) = run dir tf { k with O := some t } rest :=
  (run_req (c := 'O') (by decide) ht).trans rfl

theorem run_A {x : ℚ} (h : Plain x) : run dir tf k (("-A".toList ++ formatFloat x) :: rest) =
    if 0 ≤ x ∧ x ≤ 360 then run dir tf { k with A := some (.num x) } rest else none := by
  refine (run_req (c := 'A') (by decide) (formatFloat_ne x)).trans ?_
  simp only [step, scan_plain' h, outside_num]
  by_cases hc : 0 ≤ x ∧ x ≤ 360 <;> simp [hc]

theorem run_S {x : ℚ} (h : Plain x) (b : Bool) : run dir tf k (("-S".toList ++ ((if b then ['u'] else []) ++ formatFloat x)) :: rest) =
    run dir tf { k with mu := k.mu || b, S := some (.num x) } rest := by
  cases b
  · refine (run_req (c := 'S') (by decide) (formatFloat_ne x)).trans ?_
    have : (formatFloat x).contains 'u' = false := by simpa using not_u x
    simp only [step, blankU_self (not_u x), scan_plain' h, this]
    rfl
  · refine (run_req (c := 'S') (t := 'u' :: formatFloat x) (by decide) (by simp)).trans ?_
    have : blankU ('u' :: formatFloat x) = ' ' :: formatFloat x := rfl
    simp only [step, this, scan_space, scan_plain' h]
    simp

theorem run_Ds {o : Option ℚ} (h : ∀ x ∈ o, Plain x ∧ 0 ≤ x) : run dir tf k (optional "-Ds" formatFloat o ++ rest) =
    run dir tf { k with Ds := (o.map Val.num).or k.Ds } rest := by
  cases o with
  | none => rfl
  | some x =>
    obtain ⟨h1, h2⟩ := h x rfl
    refine (run_req (c := 'D') (t := 's' :: formatFloat x) (by decide) (by simp)).trans ?_
    have : (formatFloat x).contains '/' = false := by simpa using not_slash x
    have h2' : ¬x < 0 := not_lt.2 h2
    simp [step, scan_plain' h1, Val.lt, h2', not_slash x]

theorem run_Dr {o : Option ℚ} (h : ∀ x ∈ o, Plain x ∧ 0 ≤ x) : run dir tf k (optional "-Dr" formatFloat o ++ rest) =
    run dir tf { k with Dr := (o.map Val.num).or k.Dr } rest := by
  cases o with
  | none => rfl
  | some x =>
    obtain ⟨h1, h2⟩ := h x rfl
    refine (run_req (c := 'D') (t := 'r' :: formatFloat x) (by decide) (by simp)).trans ?_
    have hh : (formatFloat x).head? ≠ some '/' := fun hc => not_slash x (List.mem_of_mem_head? hc)
    have h2' : ¬x < 0 := not_lt.2 h2
    simp [step, scan_plain' h1, Val.lt, h2', not_slash x, hh]

theorem run_R {o : Option ℚ} (h : ∀ x ∈ o, Plain x ∧ 0 ≤ x) : run dir tf k (optional "-R" formatFloat o ++ rest) =
    run dir tf { k with R := (o.map Val.num).or k.R } rest := by
  cases o with
  | none => rfl
  | some x =>
    obtain ⟨h1, h2⟩ := h x rfl
    refine (run_req (c := 'R') (by decide) (formatFloat_ne x)).trans ?_
    have h2' : ¬x < 0 := not_lt.2 h2
    simp [step, scan_plain' h1, Val.lt, h2']

theorem scanInt_self (n : ℤ) : scanInt (intText n) = some (n, []) := by
  have := scanInt_intText n [] (by intro c h; simp at h)
  rwa [List.append_nil] at this

theorem run_I {o : Option ℤ} : run dir tf k (optional "-I" intText o ++ rest) =
    if ∀ n ∈ o, 0 < n then run dir tf { k with I := o.or k.I } rest else none := by
  cases o with
  | none => simp [optional]
  | some n =>
    refine (run_req (c := 'I') (by decide) (intText_ne n)).trans ?_
    by_cases hn : 0 < n
    · simp [step, scanInt_self, hn, not_le.2 hn]
    · simp [step, scanInt_self, hn, not_lt.1 hn]

theorem run_J {o : Option ℤ} : run dir tf k (optional "-J" intText o ++ rest) =
    if ∀ n ∈ o, 0 < n then run dir tf { k with J := o.or k.J } rest else none := by
  cases o with
  | none => simp [optional]
  | some n =>
    refine (run_req (c := 'J') (by decide) (intText_ne n)).trans ?_
    by_cases hn : 0 < n
    · simp [step, scanInt_self, hn, not_le.2 hn]
    · simp [step, scanInt_self, hn, not_lt.1 hn]

theorem scanWord_self {p : Text} (hne : p ≠ []) (h : ∀ x ∈ p, isSpace x = false) : scanWord p = some p := by
  have e1 : p.dropWhile isSpace = p := by
    cases p with
    | nil => rfl
    | cons c t => rw [List.dropWhile_cons_of_neg (by simp [h c (by simp)])]
  have e2 : p.takeWhile (fun c => !isSpace c) = p := by
    rw [List.takeWhile_eq_self_iff]
    intro x hx
    simp [h x hx]
  unfold scanWord
  rw [e1]
  dsimp only
  rw [e2, if_neg hne]

theorem run_D {t : Option Text} {o : Option (Char × Text)} {f : Text → Text} (ht : t = o.map fun x => x.1 :: '/' :: x.2)
    (h : ∀ x ∈ o, x.1 ≠ 's' ∧ scanWord x.2 = some (f x.2)) :
    run dir tf k (optional "-D" id t ++ rest) =
      if ∀ x ∈ o.map (fun y : Char × Text => (y.1, f y.2)), tf x.1 x.2 then run dir tf { k with D := (o.map fun y : Char × Text => (y.1, f y.2)).or k.D } rest else none := by
  subst ht
  cases o with
  | none => simp [optional]
  | some x =>
    obtain ⟨c, p⟩ := x
    obtain ⟨h1, h2⟩ := h _ rfl
    refine (run_req (c := 'D') (t := c :: '/' :: p) (by decide) (by simp)).trans ?_
    by_cases ht : tf c (f p)
    · simp_all [step]
    · simp_all [step]

theorem run_N {b : Bool} : run dir tf k (flag "-N" b ++ rest) = run dir tf { k with N := b || k.N } rest := by
  cases b
  · rfl
  · exact (run_flag (c := 'N') (by decide)).trans rfl

theorem run_e {b : Bool} : run dir tf k (flag "-e" b) = finish { k with e := b || k.e } := by
  cases b
  · change run dir tf _ [] = _
    unfold run
    rw [getopt.eq_1]; rfl
  · refine (run_flag (c := 'e') (rest := []) (by decide)).trans ?_
    change run dir tf _ [] = _
    unfold run
    rw [getopt.eq_1]; rfl

/-- The source set. -/
def withSource (k : Ctrl) : Source → Ctrl
  | .explosion => k
  | .force n e z => { k with F := true, kind := .SF, mchn := [.num n, .num e, .num z] }
  | .tear s d => { k with M := true, kind := .TS, mchn := [.num s, .num d, .num 0] }
  | .shear s d r => { k with M := true, kind := .DC, mchn := [.num s, .num d, .num r] }
  | .tensor xx xy xz yy yz zz => { k with T := true, kind := .MT, mchn := [.num xx, .num xy, .num xz, .num yy, .num yz, .num zz] }

/-- The option of the source. -/
theorem run_src {a : Args} {src : Source} (ha : Asks a src) (hn : ∀ x ∈ src.numbers, Plain x) [Decidable src.allowed] :
    ∃ opts, sourceOptions a.strike a.dip a.rake a.force a.tensor = some opts ∧ ∀ (k : Ctrl) (rest : List Text), run dir tf k (opts ++ rest) =
      if src.allowed then run dir tf (withSource k src) rest else none := by
  cases src with
  | explosion =>
    obtain ⟨e1, e2, e3, e4, e5⟩ := ha
    refine ⟨[], by simp [sourceOptions, e1, e2, e3, e4, e5], fun k rest => ?_⟩
    simp [Source.allowed, withSource]
  | force n e z =>
    obtain ⟨e1, e2, e3, e4, e5⟩ := ha
    refine ⟨["-F".toList ++ joinSlash [n, e, z]], by simp [sourceOptions, e1, e2, e3, e4, e5], fun k rest => ?_⟩
    refine (run_req (c := 'F') (by decide) (joinSlash_ne (xs := [n, e, z]) (by simp))).trans ?_
    have := scanSlash_join [n, e, z] hn 3 (by simp)
    simp [step, this, Source.allowed, withSource]
  | tear s d =>
    obtain ⟨e1, e2, e3, e4, e5⟩ := ha
    refine ⟨["-M".toList ++ joinSlash [s, d]], by simp [sourceOptions, e1, e2, e3, e4, e5], fun k rest => ?_⟩
    refine (run_req (c := 'M') (by decide) (joinSlash_ne (xs := [s, d]) (by simp))).trans ?_
    have := scanSlash_join [s, d] hn 3 (by simp)
    simp only [step, this, List.map_cons, List.map_nil, outside_num, Source.allowed]
    by_cases c1 : 0 ≤ s ∧ s ≤ 360 <;> by_cases c2 : 0 ≤ d ∧ d ≤ 90 <;> simp [c1, c2, withSource]
  | shear s d r =>
    obtain ⟨e1, e2, e3, e4, e5⟩ := ha
    refine ⟨["-M".toList ++ joinSlash [s, d, r]], by simp [sourceOptions, e1, e2, e3, e4, e5], fun k rest => ?_⟩
    refine (run_req (c := 'M') (by decide) (joinSlash_ne (xs := [s, d, r]) (by simp))).trans ?_
    have := scanSlash_join [s, d, r] hn 3 (by simp)
    simp only [step, this, List.map_cons, List.map_nil, outside_num, Source.allowed]
    by_cases c1 : 0 ≤ s ∧ s ≤ 360 <;> by_cases c2 : 0 ≤ d ∧ d ≤ 90 <;> by_cases c3 : -180 ≤ r ∧ r ≤ 180 <;>
      simp [c1, c2, c3, withSource]
  | tensor xx xy xz yy yz zz =>
    obtain ⟨e1, e2, e3, e4, e5⟩ := ha
    refine ⟨["-T".toList ++ joinSlash [xx, xy, xz, yy, yz, zz]], by simp [sourceOptions, e1, e2, e3, e4, e5], fun k rest => ?_⟩
    refine (run_req (c := 'T') (by decide) (joinSlash_ne (xs := [xx, xy, xz, yy, yz, zz]) (by simp))).trans ?_
    have := scanSlash_join [xx, xy, xz, yy, yz, zz] hn 6 (by simp)
    simp [step, this, Source.allowed, withSource]

end

/-! ### The property -/

/-- What the program should work with. -/
def expected (a : Args) (src : Source) (tfun : Option (Char × Text)) : Ctrl where
  G := some a.grn
  A := some (.num a.azimuth)
  mu := a.withMu
  S := some (.num a.scale)
  kind := src.works.1
  mchn := src.works.2.map .num
  M := decide (src.works.1 = .TS ∨ src.works.1 = .DC)
  F := decide (src.works.1 = .SF)
  T := decide (src.works.1 = .MT)
  O := some a.out
  D := tfun
  Ds := a.depsrc.map .num
  Dr := a.deprcv.map .num
  R := a.dist.map .num
  I := a.integrate
  J := a.differentiate
  N := a.zne
  e := a.upar

/-- What the documentation asks of the arguments, apart from the choice of a source. -/
structure Allowed (dir : Text → Bool) (tf : Char → Text → Bool) (a : Args) (src : Source) (tfun : Option (Char × Text)) : Prop where
  grn : dir a.grn = true
  azimuth : 0 ≤ a.azimuth ∧ a.azimuth ≤ 360
  source : src.allowed
  time : ∀ x ∈ tfun, tf x.1 x.2 = true
  integrate : ∀ n ∈ a.integrate, 0 < n
  differentiate : ∀ n ∈ a.differentiate, 0 < n

/-- C122: which calls reach the program: those that ask for one of the documented sources, with depths and a distance that are not negative. -/
theorem C122_source (a : Args) : command a ≠ none ↔
    (∃ src, Asks a src) ∧ (∀ x ∈ a.dist, 0 ≤ x) ∧ (∀ x ∈ a.depsrc, 0 ≤ x) ∧ (∀ x ∈ a.deprcv, 0 ≤ x) := by
  have key : sourceOptions a.strike a.dip a.rake a.force a.tensor ≠ none ↔ ∃ src, Asks a src := by
    constructor
    · intro h
      unfold sourceOptions at h
      rcases hf : a.force with _ | f <;> rcases ht : a.tensor with _ | m <;> rcases h1 : a.strike with _ | s <;>
        rcases h2 : a.dip with _ | d <;> rcases h3 : a.rake with _ | r <;> simp [hf, ht, h1, h2, h3] at h
      · exact ⟨.explosion, h1, h2, h3, hf, ht⟩
      · exact ⟨.tear s d, h1, h2, h3, hf, ht⟩
      · exact ⟨.shear s d r, h1, h2, h3, hf, ht⟩
      · match m, h with
        | [xx, xy, xz, yy, yz, zz], _ => exact ⟨.tensor xx xy xz yy yz zz, h1, h2, h3, hf, ht⟩
      · match f, h with
        | [n, e, z], _ => exact ⟨.force n e z, h1, h2, h3, hf, ht⟩
    · rintro ⟨src, ha⟩
      cases src <;> obtain ⟨e1, e2, e3, e4, e5⟩ := ha <;> simp [sourceOptions, e1, e2, e3, e4, e5]
  rw [← key]
  unfold command
  rcases hd : a.dist with _ | x <;> rcases hs : a.depsrc with _ | y <;> rcases hr : a.deprcv with _ | z <;> simp <;> tauto

theorem command_parse (dir : Text → Bool) (tf : Char → Text → Bool) (a : Args) (src : Source) (ha : Asks a src) (g : Option (Char × Text)) (f : Text → Text)
    (hg : a.grn ≠ []) (ho : a.out ≠ []) (hA : Plain a.azimuth) (hS : Plain a.scale) (hsrc : ∀ x ∈ src.numbers, Plain x)
    (hds : ∀ x ∈ a.depsrc, Plain x ∧ 0 ≤ x) (hdr : ∀ x ∈ a.deprcv, Plain x ∧ 0 ≤ x) (hR : ∀ x ∈ a.dist, Plain x ∧ 0 ≤ x)
    (ht : a.timeFunction = g.map fun x => x.1 :: '/' :: x.2) (htf : ∀ x ∈ g, x.1 ≠ 's' ∧ scanWord x.2 = some (f x.2)) :
    ∃ argv, command a = some argv ∧
      (Allowed dir tf a src (g.map fun y : Char × Text => (y.1, f y.2)) → parse dir tf argv = some (expected a src (g.map fun y : Char × Text => (y.1, f y.2)))) ∧
      (¬Allowed dir tf a src (g.map fun y : Char × Text => (y.1, f y.2)) → parse dir tf argv = none) := by
  classical
  have n1 : a.dist.any (· < 0) = false := by
    cases h : a.dist with
    | none => rfl
    | some x => simpa using (hR x h).2
  have n2 : a.depsrc.any (· < 0) = false := by
    cases h : a.depsrc with
    | none => rfl
    | some x => simpa using (hds x h).2
  have n3 : a.deprcv.any (· < 0) = false := by
    cases h : a.deprcv with
    | none => rfl
    | some x => simpa using (hdr x h).2
  obtain ⟨opts, h1, hrs⟩ := run_src (dir := dir) (tf := tf) ha hsrc
  refine ⟨line a opts, by
    rw [command, n1, n2, n3, if_neg (by simp), if_neg (by simp), if_neg (by simp), h1, Option.map_some], ?_⟩
  have eD := fun k rest => run_D (dir := dir) (tf := tf) (k := k) (rest := rest) ht htf
  generalize (g.map fun y : Char × Text => (y.1, f y.2)) = tfun at eD ⊢
  have hrun : parse dir tf (line a opts) = if dir a.grn then if 0 ≤ a.azimuth ∧ a.azimuth ≤ 360 then if src.allowed then
      if ∀ x ∈ tfun, tf x.1 x.2 then if ∀ n ∈ a.integrate, 0 < n then if ∀ n ∈ a.differentiate, 0 < n then some (expected a src tfun)
      else none else none else none else none else none else none := by
    unfold parse line
    rw [run_G hg, run_A hA, run_S hS, run_O ho, run_Ds hds, run_Dr hdr, run_R hR, hrs, eD, run_I, run_J, run_N, run_e]
    have : ∀ k : Ctrl, k = expected a src tfun → finish k = some (expected a src tfun) := by
      rintro k rfl
      cases src <;> simp [finish, expected, Source.works]
    rw [this _ (by cases src <;> simp [expected, withSource, Source.works])]
  rw [hrun]
  constructor
  · rintro ⟨p1, p2, p3, p4, p5, p6⟩
    rw [if_pos p1, if_pos p2, if_pos p3, if_pos p4, if_pos p5, if_pos p6]
  · intro hna
    split_ifs with p1 p2 p3 p4 p5 p6
    · exact absurd ⟨p1, p2, p3, p4, p5, p6⟩ hna
    all_goals rfl

/-- C122: for numbers of at most fifteen digits and a time function of the documented form, the program works with exactly the values of the call, or
refuses it if the arguments are not allowed. -/
theorem C122_partial (dir : Text → Bool) (tf : Char → Text → Bool) (a : Args) (src : Source) (ha : Asks a src) (tfun : Option (Char × Text))
    (hg : a.grn ≠ []) (ho : a.out ≠ []) (hA : Plain a.azimuth) (hS : Plain a.scale) (hsrc : ∀ x ∈ src.numbers, Plain x)
    (hds : ∀ x ∈ a.depsrc, Plain x ∧ 0 ≤ x) (hdr : ∀ x ∈ a.deprcv, Plain x ∧ 0 ≤ x) (hR : ∀ x ∈ a.dist, Plain x ∧ 0 ≤ x)
    (ht : a.timeFunction = tfun.map fun x => x.1 :: '/' :: x.2) (htf : ∀ x ∈ tfun, Form (x.1 :: '/' :: x.2) x.1 x.2) :
    ∃ argv, command a = some argv ∧ (Allowed dir tf a src tfun → parse dir tf argv = some (expected a src tfun)) ∧
      (¬Allowed dir tf a src tfun → parse dir tf argv = none) := by
  have := command_parse dir tf a src ha tfun id hg ho hA hS hsrc hds hdr hR ht fun x hx =>
    ⟨(htf x hx).2.1, scanWord_self (htf x hx).2.2.1 (htf x hx).2.2.2⟩
  simpa using this

/-- C122 does not hold for every time function: of a file name with a space only the first word arrives, for every such call that is accepted. -/
theorem C122_violated (dir : Text → Bool) (tf : Char → Text → Bool) (a : Args) (src : Source) (ha : Asks a src) (w q : Text)
    (hg : a.grn ≠ []) (ho : a.out ≠ []) (hA : Plain a.azimuth) (hS : Plain a.scale) (hsrc : ∀ x ∈ src.numbers, Plain x)
    (hds : ∀ x ∈ a.depsrc, Plain x ∧ 0 ≤ x) (hdr : ∀ x ∈ a.deprcv, Plain x ∧ 0 ≤ x) (hR : ∀ x ∈ a.dist, Plain x ∧ 0 ≤ x)
    (hw : w ≠ []) (hws : ∀ c ∈ w, isSpace c = false) (ht : a.timeFunction = some ('0' :: '/' :: (w ++ ' ' :: q))) :
    ∃ argv, command a = some argv ∧ ∀ k, parse dir tf argv = some k → k.D = some ('0', w) := by
  have hs : scanWord (w ++ ' ' :: q) = some w := by
    obtain ⟨c, t, rfl⟩ : ∃ c t, w = c :: t := by cases w with
      | nil => exact absurd rfl hw
      | cons c t => exact ⟨c, t, rfl⟩
    have e1 : ((c :: t) ++ ' ' :: q).dropWhile isSpace = (c :: t) ++ ' ' :: q := by
      rw [List.cons_append, List.dropWhile_cons_of_neg (by simp [hws c (by simp)])]
    have e2 : ((c :: t) ++ ' ' :: q).takeWhile (fun c => !isSpace c) = c :: t := by
      rw [List.takeWhile_append_of_pos (fun x hx => by simp [hws x hx]), List.takeWhile_cons_of_neg (by decide), List.append_nil]
    unfold scanWord
    rw [e1]
    dsimp only
    rw [e2, if_neg (by simp)]
  obtain ⟨argv, h1, h2, h3⟩ := command_parse dir tf a src ha (some ('0', w ++ ' ' :: q)) (fun _ => w) hg ho hA hS hsrc hds hdr hR ht
    (by rintro x ⟨⟩; exact ⟨(by decide : '0' ≠ 's'), hs⟩)
  refine ⟨argv, h1, fun k hk => ?_⟩
  by_cases hA : Allowed dir tf a src ((some ('0', w ++ ' ' :: q)).map fun y : Char × Text => (y.1, w))
  · rw [h2 hA] at hk
    injection hk with hk
    rw [← hk]; rfl
  · rw [h3 hA] at hk; cases hk

/-! ### Cases -/

/-- A call with a double couple, a distance and a parabola. -/
def sample : Args where
  grn := "GRN".toList
  out := "syn".toList
  azimuth := 30
  scale := dbl (10 ^ 24)
  withMu := false
  depsrc := some 2
  deprcv := none
  dist := some 10
  strike := some 77
  dip := some 88
  rake := some (-99)
  force := none
  tensor := none
  timeFunction := some "p/0.6".toList
  integrate := some 1
  differentiate := none
  zne := true
  upar := false

theorem plain_int (n : ℤ) (h : |n| < 10 ^ 15) : Plain n := by
  refine ⟨⟨n, ⟨n, 0, h, by simp⟩, (rnd_intCast 2 53 (by norm_num) n (h.trans (by norm_num))).symm⟩, ?_⟩
  have : (|n| : ℚ) ≤ 10 ^ 15 := by exact_mod_cast h.le
  exact this.trans (by decide +kernel)

/-- The hypotheses of `C122_partial` for it. -/
example : Asks sample (.shear 77 88 (-99)) ∧ sample.grn ≠ [] ∧ sample.out ≠ [] ∧ Plain sample.azimuth ∧ Plain sample.scale ∧
    (∀ x ∈ (Source.shear 77 88 (-99)).numbers, Plain x) ∧ (∀ x ∈ sample.depsrc, Plain x ∧ 0 ≤ x) ∧ (∀ x ∈ sample.dist, Plain x ∧ 0 ≤ x) ∧
    (∀ x ∈ sample.deprcv, Plain x ∧ 0 ≤ x) ∧
    sample.timeFunction = (some ('p', "0.6".toList)).map (fun x => x.1 :: '/' :: x.2) ∧ Form ('p' :: '/' :: "0.6".toList) 'p' "0.6".toList ∧
    Allowed (fun _ => true) (fun _ _ => true) sample (.shear 77 88 (-99)) (some ('p', "0.6".toList)) ∧
    command sample = some ["-GGRN".toList, "-A30".toList, "-S1e+24".toList, "-Osyn".toList, "-Ds2".toList, "-R10".toList, "-M77/88/-99".toList,
      "-Dp/0.6".toList, "-I1".toList, "-N".toList] := by
  refine ⟨⟨rfl, rfl, rfl, rfl, rfl⟩, by decide, by decide, ?_, ?_, ?_, ?_, ?_, ?_, rfl, ?_, ?_, by decide +kernel⟩
  · exact_mod_cast plain_int 30 (by norm_num)
  · exact ⟨⟨10 ^ 24, ⟨1, 24, by norm_num, by norm_num⟩, rfl⟩, by decide +kernel⟩
  · simp only [Source.numbers, List.mem_cons, List.not_mem_nil, or_false, forall_eq_or_imp, forall_eq]
    exact ⟨by exact_mod_cast plain_int 77 (by norm_num), by exact_mod_cast plain_int 88 (by norm_num), by exact_mod_cast plain_int (-99) (by norm_num)⟩
  · rintro x ⟨⟩; exact ⟨by exact_mod_cast plain_int 2 (by norm_num), by norm_num⟩
  · rintro x ⟨⟩; exact ⟨by exact_mod_cast plain_int 10 (by norm_num), by norm_num⟩
  · rintro x ⟨⟩
  · exact ⟨rfl, by decide, by decide, by decide⟩
  · exact ⟨rfl, by norm_num [sample], by norm_num [Source.allowed], fun _ _ => rfl, by rintro n ⟨⟩; norm_num, by rintro n ⟨⟩⟩

/-- `C122_violated` for a file name: with `0/my file.txt` the program looks for `my`. -/
example : "-D0/my file.txt".toList ∈ (command { sample with timeFunction := some "0/my file.txt".toList }).getD [] ∧
    (∀ c ∈ "my".toList, isSpace c = false) ∧ "0/my file.txt".toList = '0' :: '/' :: ("my".toList ++ ' ' :: "file.txt".toList) :=
  ⟨by decide +kernel, by decide, rfl⟩

end GRT.Python.Syn
