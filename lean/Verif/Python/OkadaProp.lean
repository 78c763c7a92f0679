import Verif.Python.Okada
import Verif.Python.StaticGrnProp

/-! C126: a call of `compute_okada` makes the program work with the medium, the source, the receivers and the numbers of the call. -/

namespace GRT.Python.Okada

open GRT.Num GRT.Files GRT.Points GRT.Python GRT.Python.Syn GRT.Python.Grn
open GRT.Python.StaticGrn (coords Whole formatRange formatRange_iff dbl_int whole_plain)

/-! ### Specification -/

/-- The point sources. -/
inductive Geo where
  | explosion
  | tear (s d : ℚ)
  | shear (s d r : ℚ)

/-- Which arguments select which of them. -/
def Asks (a : Args) : Geo → Prop
  | .explosion => a.strike = none ∧ a.dip = none ∧ a.rake = none
  | .tear s d => a.strike = some s ∧ a.dip = some d ∧ a.rake = none
  | .shear s d r => a.strike = some s ∧ a.dip = some d ∧ a.rake = some r

/-- What is asked for: finite faults of a file, or a point source of a scale, at a depth. -/
inductive What where
  | faults (path : Text)
  | point (scale depth : ℚ) (g : Geo)

/-- Which arguments select which of them; those of the other one are left out. -/
def Wants (a : Args) : What → Prop
  | .faults p => a.fault = some p ∧ a.scale = none ∧ a.depsrc = none ∧ a.withMu = false ∧ Asks a .explosion
  | .point x d g => a.fault = none ∧ a.scale = some x ∧ a.depsrc = some d ∧ 0 ≤ d ∧ Asks a g

/-- Where: at the points of a file, or on a grid at a depth. -/
inductive Where where
  | file (path : Text)
  | grid (depth : ℚ) (north east : ℚ × ℚ × ℚ)

/-- Which arguments select which of them. -/
def At (a : Args) : Where → Prop
  | .file q => a.points = some q ∧ a.norths = none ∧ a.easts = none ∧ a.deprcv = none
  | .grid d n e => a.points = none ∧ a.deprcv = some d ∧ 0 ≤ d ∧ a.norths = some [n.1, n.2.1, n.2.2] ∧ a.easts = some [e.1, e.2.1, e.2.2]

/-- The documented ranges of the angles. -/
def Geo.allowed : Geo → Prop
  | .explosion => True
  | .tear s d => (0 ≤ s ∧ s ≤ 360) ∧ (0 ≤ d ∧ d ≤ 90)
  | .shear s d r => (0 ≤ s ∧ s ≤ 360) ∧ (0 ≤ d ∧ d ≤ 90) ∧ (-180 ≤ r ∧ r ≤ 180)

def What.allowed : What → Prop
  | .faults _ => True
  | .point _ _ g => g.allowed

/-- A range: a positive step and ends in order. -/
def Where.allowed : Where → Prop
  | .file _ => True
  | .grid _ n e => (0 < n.2.2 ∧ n.1 ≤ n.2.1) ∧ (0 < e.2.2 ∧ e.1 ≤ e.2.1)

/-- The angles. -/
def Geo.numbers : Geo → List ℚ
  | .explosion => []
  | .tear s d => [s, d]
  | .shear s d r => [s, d, r]

/-- The numbers that are written without rounding, and a path of the faults without a plus sign. -/
def What.exact : What → Prop
  | .faults p => p ≠ [] ∧ '+' ∉ p
  | .point x d g => Plain x ∧ Plain d ∧ ∀ y ∈ g.numbers, Plain y

/-- A range of whole numbers. -/
def WholeRange (n : ℚ × ℚ × ℚ) : Prop := Whole (some [n.1, n.2.1, n.2.2])

/-- Ranges of whole numbers, and a file that has a name. -/
def Where.exact : Where → Prop
  | .file q => q ≠ []
  | .grid d n e => Plain d ∧ WholeRange n ∧ WholeRange e

/-- What the program works with for the source. -/
def withWhat (a : Args) (k : Ctrl) : What → Ctrl
  | .faults p => { k with C := some p }
  | .point x d g =>
    { k with mu := a.withMu, S := some (.num x), Ds := some (.num d),
             M := match g with | .explosion => none | .tear s d => some (.num s, .num d, none) | .shear s d r => some (.num s, .num d, some (.num r)) }

/-- What the program works with for the receivers. -/
def withWhere (k : Ctrl) : Where → Ctrl
  | .file q => { k with Q := some q }
  | .grid d n e => { k with Dr := some (.num d), X := some (coords n.1 n.2.1 n.2.2), Y := some (coords e.1 e.2.1 e.2.2) }

/-- What the program should work with. -/
def expected (a : Args) (vp vs rho : ℚ) (w : What) (r : Where) : Ctrl :=
  withWhere (withWhat a { I := some (.num vp, .num vs, .num rho), O := some a.out, N := a.zne, e := a.upar } w) r

/-! ### Single options -/

theorem run_req {k : Ctrl} {rest : List Text} {c : Char} {t : Text} (h : arity c = some .req) (ht : t ≠ []) :
    run k (('-' :: c :: t) :: rest) = (step k (c, some t)).bind fun k => run k rest := by
  have hc : c ≠ '-' := by rintro rfl; revert h; decide
  unfold run
  rw [getopt_req hc h ht]
  cases getopt arity rest with
  | none => cases step k (c, some t) <;> rfl
  | some os =>
    simp only [Option.map_some, Option.bind_some, List.foldlM_cons]
    cases step k (c, some t) <;> rfl

theorem run_flag {k : Ctrl} {rest : List Text} {c : Char} (h : arity c = some .flag) :
    run k (['-', c] :: rest) = (step k (c, none)).bind fun k => run k rest := by
  have hc : c ≠ '-' := by rintro rfl; revert h; decide
  unfold run
  rw [getopt_flag hc h]
  cases getopt arity rest with
  | none => cases step k (c, none) <;> rfl
  | some os =>
    simp only [Option.map_some, Option.bind_some, List.foldlM_cons]
    cases step k (c, none) <;> rfl

section
variable {k : Ctrl} {rest : List Text} {a : Args}

/-- Single values set. -/
def setI (i : Val × Val × Val) (k : Ctrl) : Ctrl := { k with I := some i }
def setO (t : Text) (k : Ctrl) : Ctrl := { k with O := some t }
def setQ (t : Text) (k : Ctrl) : Ctrl := { k with Q := some t }
def setX (xs : List Val) (k : Ctrl) : Ctrl := { k with X := some xs }
def setY (ys : List Val) (k : Ctrl) : Ctrl := { k with Y := some ys }
def setDs (x : ℚ) (k : Ctrl) : Ctrl := { k with Ds := some (.num x) }
def setDr (x : ℚ) (k : Ctrl) : Ctrl := { k with Dr := some (.num x) }
def setS (b : Bool) (x : ℚ) (k : Ctrl) : Ctrl := { k with mu := k.mu || b, S := some (.num x) }
def setC (t : Text) (k : Ctrl) : Ctrl := { k with C := some t }
def setN (b : Bool) (k : Ctrl) : Ctrl := { k with N := b || k.N }
def sete (b : Bool) (k : Ctrl) : Ctrl := { k with e := b || k.e }

theorem scanMedium_join {x y z : ℚ} (h : Plain x ∧ Plain y ∧ Plain z) : scanMedium (joinSlash [x, y, z]) = some (.num x, .num y, .num z) := by
  have e1 : joinSlash [x, y, z] = formatFloat x ++ '/' :: (formatFloat y ++ '/' :: formatFloat z) := rfl
  unfold scanMedium
  rw [e1, scan_plain h.1 _ (ends_slash _)]
  simp only [scan_plain h.2.1 _ (ends_slash _), scan_plain' h.2.2]

theorem run_I {x y z : ℚ} (h : Plain x ∧ Plain y ∧ Plain z) :
    run k (("-I".toList ++ joinSlash [x, y, z]) :: rest) = run (setI (.num x, .num y, .num z) k) rest := by
  refine (run_req (c := 'I') (by decide) (joinSlash_ne (by simp))).trans ?_
  simp only [step, scanMedium_join h]
  rfl

theorem run_O {t : Text} (ht : t ≠ []) : run k (("-O".toList ++ t) :: rest) = run (setO t k) rest := (run_req (c := 'O') (by decide) ht).trans rfl
theorem run_Q {t : Text} (ht : t ≠ []) : run k (("-Q".toList ++ t) :: rest) = run (setQ t k) rest := (run_req (c := 'Q') (by decide) ht).trans rfl

theorem run_S {x : ℚ} (h : Plain x) (b : Bool) : run k (("-S".toList ++ ((if b then ['u'] else []) ++ formatFloat x)) :: rest) =
    run (setS b x k) rest := by
  cases b
  · refine (run_req (c := 'S') (by decide) (formatFloat_ne x)).trans ?_
    have hu : (formatFloat x).head? ≠ some 'u' := by
      have := head_not x [] (c := 'u') (by decide)
      rwa [List.append_nil] at this
    simp only [step, hu, decide_false, Bool.false_eq_true, if_false, scan_plain' h]
    rfl
  · refine (run_req (c := 'S') (t := 'u' :: formatFloat x) (by decide) (by simp)).trans ?_
    simp [step, scan_plain' h, setS]

theorem run_Ds {x : ℚ} (h : Plain x) (h0 : 0 ≤ x) : run k (("-Ds".toList ++ formatFloat x) :: rest) = run (setDs x k) rest := by
  refine (run_req (c := 'D') (t := 's' :: formatFloat x) (by decide) (by simp)).trans ?_
  simp [step, scan_plain' h, num_lt, not_lt.2 h0, setDs]

theorem run_Dr {x : ℚ} (h : Plain x) (h0 : 0 ≤ x) : run k (("-Dr".toList ++ formatFloat x) :: rest) = run (setDr x k) rest := by
  refine (run_req (c := 'D') (t := 'r' :: formatFloat x) (by decide) (by simp)).trans ?_
  simp [step, scan_plain' h, num_lt, not_lt.2 h0, setDr]

theorem run_C {t : Text} (ht : t ≠ []) : run k (("-C".toList ++ t) :: rest) = if '+' ∈ t then none else run (setC t k) rest := by
  refine (run_req (c := 'C') (by decide) ht).trans ?_
  by_cases h : '+' ∈ t <;> simp [step, h, setC]

theorem run_X {l : List ℚ} (h : l ≠ []) : run k (("-X".toList ++ joinSlash l) :: rest) = (scanAxis (joinSlash l)).bind fun xs => run (setX xs k) rest := by
  refine (run_req (c := 'X') (by decide) (joinSlash_ne h)).trans ?_
  simp only [step]
  cases scanAxis (joinSlash l) <;> rfl

theorem run_Y {l : List ℚ} (h : l ≠ []) : run k (("-Y".toList ++ joinSlash l) :: rest) = (scanAxis (joinSlash l)).bind fun xs => run (setY xs k) rest := by
  refine (run_req (c := 'Y') (by decide) (joinSlash_ne h)).trans ?_
  simp only [step]
  cases scanAxis (joinSlash l) <;> rfl

theorem run_N {b : Bool} : run k (flag "-N" b ++ rest) = run (setN b k) rest := by
  cases b
  · rfl
  · exact (run_flag (c := 'N') (by decide)).trans rfl

theorem run_e {b : Bool} : run k (flag "-e" b) = finish (sete b k) := by
  cases b
  · change run _ [] = _
    unfold run
    rw [getopt.eq_1]; rfl
  · refine (run_flag (c := 'e') (rest := []) (by decide)).trans ?_
    change run _ [] = _
    unfold run
    rw [getopt.eq_1]; rfl

/-- The point source set. -/
def setGeo (g : Geo) (k : Ctrl) : Ctrl :=
  match g with
  | .explosion => k
  | .tear s d => { k with M := some (.num s, .num d, none) }
  | .shear s d r => { k with M := some (.num s, .num d, some (.num r)) }

/-- The option of a point source. -/
theorem run_geo {g : Geo} (ha : Asks a g) (hn : ∀ x ∈ g.numbers, Plain x) [Decidable g.allowed] :
    ∃ opts, sourceOption a = some opts ∧ ∀ (k : Ctrl) (rest : List Text), run k (opts ++ rest) = if g.allowed then run (setGeo g k) rest else none := by
  cases g with
  | explosion =>
    obtain ⟨e1, e2, e3⟩ := ha
    refine ⟨[], by simp [sourceOption, geometry, e1, e2, e3], fun k rest => ?_⟩
    simp [Geo.allowed, setGeo]
  | tear s d =>
    obtain ⟨e1, e2, e3⟩ := ha
    refine ⟨["-M".toList ++ joinSlash [s, d]], by simp [sourceOption, geometry, e1, e2, e3], fun k rest => ?_⟩
    refine (run_req (c := 'M') (by decide) (joinSlash_ne (xs := [s, d]) (by simp))).trans ?_
    have := scanSlash_join [s, d] hn 3 (by simp)
    simp only [step, this, List.map_cons, List.map_nil, outside_num, Geo.allowed]
    by_cases c1 : 0 ≤ s ∧ s ≤ 360 <;> by_cases c2 : 0 ≤ d ∧ d ≤ 90 <;> simp [c1, c2, setGeo]
  | shear s d r =>
    obtain ⟨e1, e2, e3⟩ := ha
    refine ⟨["-M".toList ++ joinSlash [s, d, r]], by simp [sourceOption, geometry, e1, e2, e3], fun k rest => ?_⟩
    refine (run_req (c := 'M') (by decide) (joinSlash_ne (xs := [s, d, r]) (by simp))).trans ?_
    have := scanSlash_join [s, d, r] hn 3 (by simp)
    simp only [step, this, List.map_cons, List.map_nil, outside_num, Geo.allowed]
    by_cases c1 : 0 ≤ s ∧ s ≤ 360 <;> by_cases c2 : 0 ≤ d ∧ d ≤ 90 <;> by_cases c3 : -180 ≤ r ∧ r ≤ 180 <;>
      simp [c1, c2, c3, setGeo]

/-- The options of the source, as they are read. -/
def setWhat (a : Args) (w : What) (k : Ctrl) : Ctrl :=
  match w with
  | .faults p => setC p k
  | .point x d g => setGeo g (setDs d (setS a.withMu x k))

theorem run_what {w : What} (hw : Wants a w) (he : w.exact) [Decidable w.allowed] :
    ∃ opts, sourcePart a = some opts ∧ ∀ (k : Ctrl) (rest : List Text), run k (opts ++ rest) = if w.allowed then run (setWhat a w k) rest else none := by
  classical
  cases w with
  | faults p =>
    obtain ⟨h1, h2, h3, h4, h5, h6, h7⟩ := hw
    refine ⟨["-C".toList ++ p], by simp [sourcePart, geometry, h1, h2, h3, h4, h5, h6, h7], fun k rest => ?_⟩
    refine (run_C he.1).trans ?_
    rw [if_neg he.2, if_pos (show (What.faults p).allowed from trivial)]
    rfl
  | point x d g =>
    obtain ⟨h1, h2, h3, h4, h5⟩ := hw
    obtain ⟨e1, e2, e3⟩ := he
    obtain ⟨opts, g1, g2⟩ := run_geo h5 e3
    refine ⟨("-S".toList ++ ((if a.withMu then ['u'] else []) ++ formatFloat x)) :: ("-Ds".toList ++ formatFloat d) :: opts,
      by simp [sourcePart, h1, h2, h3, g1], fun k rest => ?_⟩
    rw [List.cons_append, List.cons_append, run_S e1, run_Ds e2 h4, g2]
    by_cases q : g.allowed
    · rw [if_pos q]; exact (if_pos (show (What.point x d g).allowed from q)).symm
    · rw [if_neg q]; exact (if_neg (show ¬(What.point x d g).allowed from q)).symm

/-! ### Grids -/

/-- The coordinates of a range of whole numbers. -/
theorem axis_whole {p q s : ℤ} (hp : |p| < 10 ^ 14) (hq : |q| < 10 ^ 14) (hs : 0 < s) (hpq : p ≤ q) :
    (axis p q s).map (List.map Val.num) = some (coords p q s) := by
  have key := StaticGrn.axis_whole hp hq hs hpq
  rw [abs_lt] at hp hq
  obtain ⟨m, hm⟩ := Int.eq_ofNat_of_zero_le (sub_nonneg.2 hpq)
  obtain ⟨d, hd⟩ := Int.eq_ofNat_of_zero_le hs.le
  have hd0 : 0 < d := by omega
  have hmb : m < 2 * 10 ^ 14 := by omega
  have e1 : dbl ((q : ℚ) - p) = (m : ℚ) := by
    have : (q : ℚ) - p = ((m : ℤ) : ℚ) := by rw [← Int.cast_sub, hm]
    rw [this, dbl_int _ (by rw [abs_lt]; omega), Int.cast_natCast]
  have es : (s : ℚ) = (d : ℚ) := by rw [hd]; rfl
  have hf : ⌊dbl ((m : ℚ) / d)⌋ = ((m / d : ℕ) : ℤ) := floor_dbl_div m d hd0 (by omega)
  have hle : m / d ≤ m := Nat.div_le_self m d
  have hcnt : axis p q s = StaticGrn.axis p q s := by
    unfold axis StaticGrn.axis StaticGrn.axisCount
    rw [e1, es, hf]
    generalize m / d = t at hle
    have : ((t : ℤ) : ℚ) + 1 = ((t + 1 : ℕ) : ℚ) := by push_cast; rfl
    rw [this, dbl_nat _ (by omega)]
    have hlt : ((t + 1 : ℕ) : ℚ) < 2 ^ 64 := by
      have : t + 1 < 2 ^ 64 := by omega
      exact_mod_cast this
    have hlt' : (t : ℤ) < 2 ^ 64 := by omega
    dsimp only
    rw [if_neg (not_le.2 hlt), if_neg (not_le.2 hlt'), Int.floor_natCast, Int.toNat_natCast, Int.toNat_natCast, Option.map_some,
      Nat.mod_eq_of_lt (by omega)]
    simp only [mul_comm]
  rw [hcnt, key]

theorem scanAxis_join {p q s : ℚ} (hp : Plain p) (hq : Plain q) (hs : Plain s) : scanAxis (joinSlash [p, q, s]) =
    if 0 < s ∧ p ≤ q then (axis p q s).map (List.map .num) else none := by
  unfold scanAxis
  rw [scanSlash_join [p, q, s] (by simp [hp, hq, hs]) 3 (by simp)]
  simp only [List.map_cons, List.map_nil]
  by_cases c : 0 < s ∧ p ≤ q
  · rw [if_pos c, if_neg (by simp [c.1, c.2])]
  · rw [if_neg c, if_pos]
    rw [not_and_or, not_lt, not_le] at c
    simpa using c

theorem scanAxis_whole {n : ℚ × ℚ × ℚ} (h : WholeRange n) : scanAxis (joinSlash [n.1, n.2.1, n.2.2]) =
    if 0 < n.2.2 ∧ n.1 ≤ n.2.1 then some (coords n.1 n.2.1 n.2.2) else none := by
  have hp := whole_plain h _ rfl
  rw [scanAxis_join (hp _ (by simp)) (hp _ (by simp)) (hp _ (by simp))]
  obtain ⟨p, q, s⟩ := n
  obtain ⟨P, h1, b1⟩ := h _ rfl p (by simp)
  obtain ⟨Q, h2, b2⟩ := h _ rfl q (by simp)
  obtain ⟨S, h3, b3⟩ := h _ rfl s (by simp)
  subst h1 h2 h3
  dsimp only
  by_cases c : 0 < (S : ℚ) ∧ (P : ℚ) ≤ Q
  · rw [if_pos c, if_pos c, axis_whole b1 b2 (by exact_mod_cast c.1) (by exact_mod_cast c.2)]
  · rw [if_neg c, if_neg c]

/-- The receivers set. -/
def setWhere (r : Where) (k : Ctrl) : Ctrl :=
  match r with
  | .file q => setQ q k
  | .grid d n e => setY (coords e.1 e.2.1 e.2.2) (setX (coords n.1 n.2.1 n.2.2) (setDr d k))

theorem run_where {r : Where} (hw : At a r) (he : r.exact) [Decidable r.allowed] :
    ∃ opts, recvPart a = some opts ∧ ∀ (k : Ctrl) (rest : List Text), run k (opts ++ rest) = if r.allowed then run (setWhere r k) rest else none := by
  cases r with
  | file q =>
    refine ⟨["-Q".toList ++ q], by simp [recvPart, hw.1], fun k rest => ?_⟩
    rw [if_pos (show (Where.file q).allowed from trivial)]
    exact run_Q he
  | grid d n e =>
    obtain ⟨h1, h2, h3, h4, h5⟩ := hw
    obtain ⟨p1, p2, p3⟩ := he
    refine ⟨["-Dr".toList ++ formatFloat d, "-X".toList ++ joinSlash [n.1, n.2.1, n.2.2], "-Y".toList ++ joinSlash [e.1, e.2.1, e.2.2]],
      by simp [recvPart, h1, h2, h4, h5, formatRange], fun k rest => ?_⟩
    refine (run_Dr p1 h3).trans ((run_X (by simp)).trans ?_)
    rw [scanAxis_whole p2]
    by_cases c1 : 0 < n.2.2 ∧ n.1 ≤ n.2.1
    swap
    · rw [if_neg c1, if_neg fun h : Where.allowed (.grid d n e) => c1 h.1]; rfl
    rw [if_pos c1, Option.bind_some]
    refine (run_Y (l := [e.1, e.2.1, e.2.2]) (by simp)).trans ?_
    rw [scanAxis_whole p3]
    by_cases c2 : 0 < e.2.2 ∧ e.1 ≤ e.2.1
    swap
    · rw [if_neg c2, if_neg fun h : Where.allowed (.grid d n e) => c2 h.2]; rfl
    rw [if_pos c2, if_pos (show Where.allowed (.grid d n e) from ⟨c1, c2⟩)]
    rfl

end

/-! ### The property -/

theorem sourceOption_iff (a : Args) : sourceOption a ≠ none ↔ ∃ g, Asks a g := by
  constructor
  · intro h
    unfold sourceOption geometry at h
    rcases h1 : a.strike with _ | s <;> rcases h2 : a.dip with _ | d <;> rcases h3 : a.rake with _ | r <;> simp [h1, h2, h3] at h
    · exact ⟨.explosion, h1, h2, h3⟩
    · exact ⟨.tear s d, h1, h2, h3⟩
    · exact ⟨.shear s d r, h1, h2, h3⟩
  · rintro ⟨g, ha⟩
    cases g <;> obtain ⟨e1, e2, e3⟩ := ha <;> simp [sourceOption, geometry, e1, e2, e3]

/-- C126: which calls reach the program: those with three parameters of the medium that ask either for finite faults (and nothing of a point source) or for one of
the documented point sources with a scale and a depth, and either for the points of a file or for a grid with a depth. -/
theorem C126_source (a : Args) : command a ≠ none ↔ a.params.length = 3 ∧ (∃ w, Wants a w) ∧ ∃ r, At a r := by
  constructor
  · intro h
    unfold command at h
    dsimp only at h
    split_ifs at h with q1 q2 q3 q4 q5 q6 q7
    all_goals try exact absurd rfl h
    rw [Bool.not_eq_true] at q2 q3 q4 q5 q6 q7
    have hs : sourcePart a ≠ none := by
      intro e; rw [e] at h; exact h rfl
    have hr : recvPart a ≠ none := by
      intro e; rw [e] at h; revert h; cases sourcePart a <;> exact fun h => h rfl
    refine ⟨by simpa using q1, ?_, ?_⟩
    · unfold sourcePart at hs
      cases hf : a.fault with
      | some p =>
        rw [hf] at hs
        dsimp only at hs
        split_ifs at hs with c
        · exact absurd rfl hs
        rw [Bool.not_eq_true] at c
        simp [geometry] at c
        obtain ⟨⟨⟨g1, g2⟩, ⟨g3, g4⟩, g5⟩, g6⟩ := c
        exact ⟨.faults p, hf, g1, g2, g6, g3, g4, g5⟩
      | none =>
        rw [hf] at hs
        cases hx : a.scale with
        | none => rw [hx] at hs; exact absurd rfl hs
        | some x =>
          cases hd : a.depsrc with
          | none => rw [hx, hd] at hs; exact absurd rfl hs
          | some d =>
            rw [hx, hd] at hs
            have : sourceOption a ≠ none := by
              intro e; dsimp only at hs; rw [e] at hs; exact hs rfl
            obtain ⟨g, hg⟩ := (sourceOption_iff a).1 this
            rw [hd] at q5
            exact ⟨.point x d g, hf, hx, hd, by simpa using q5, hg⟩
    · unfold recvPart at hr
      cases hp : a.points with
      | some q =>
        rw [hp] at q2 q7
        simp at q2 q7
        exact ⟨.file q, hp, q2.1, q2.2, q7⟩
      | none =>
        rw [hp] at hr
        rcases hd : a.deprcv with _ | d <;> rcases hn : a.norths with _ | n <;> rcases he : a.easts with _ | e <;> rw [hd, hn, he] at hr <;>
          try exact absurd rfl hr
        have l1 : n.length = 3 := (formatRange_iff n).1 (by intro e; dsimp only at hr; rw [e] at hr; exact hr rfl)
        have l2 : e.length = 3 := (formatRange_iff e).1 (by
          intro e; dsimp only at hr; rw [e] at hr; revert hr; cases formatRange n <;> exact fun hr => hr rfl)
        obtain ⟨p, q, s, rfl⟩ := List.length_eq_three.1 l1
        obtain ⟨p', q', s', rfl⟩ := List.length_eq_three.1 l2
        rw [hd] at q6
        exact ⟨.grid d (p, q, s) (p', q', s'), hp, hd, by simpa using q6, hn, he⟩
  · rintro ⟨hl, ⟨w, hw⟩, r, hr⟩
    have hsp : ∃ s, sourcePart a = some s := by
      cases w with
      | faults p =>
        obtain ⟨h1, h2, h3, h4, h5, h6, h7⟩ := hw
        exact ⟨_, by simp [sourcePart, geometry, h1, h2, h3, h4, h5, h6, h7]; rfl⟩
      | point x d g =>
        obtain ⟨s, hs⟩ := Option.ne_none_iff_exists'.1 ((sourceOption_iff a).2 ⟨g, hw.2.2.2.2⟩)
        exact ⟨_, by simp only [sourcePart, hw.1, hw.2.1, hw.2.2.1, hs, Option.map_some]; rfl⟩
    obtain ⟨s, hs⟩ := hsp
    have d1 : a.depsrc.any (· < 0) = false := by
      cases w with
      | faults p => rw [hw.2.2.1]; rfl
      | point x d g => rw [hw.2.2.1]; simpa using hw.2.2.2.1
    cases r with
    | file q =>
      obtain ⟨h1, h2, h3, h4⟩ := hr
      simp [command, recvPart, hl, d1, hs, h1, h2, h3, h4]
    | grid d n e =>
      obtain ⟨h1, h2, h3, h4, h5⟩ := hr
      simp [command, recvPart, formatRange, hl, d1, hs, h1, h2, h3, h4, h5]

theorem command_line {a : Args} (ha : command a ≠ none) {src recv : List Text} (hs : sourcePart a = some src) (hr : recvPart a = some recv) :
    command a = some (line a src recv) := by
  unfold command at ha ⊢
  dsimp only at ha ⊢
  rw [hs, hr] at ha ⊢
  split_ifs at ha ⊢
  all_goals first | rfl | exact absurd rfl ha

/-- C126: for numbers of at most fifteen digits, ranges of whole numbers and a file of faults without a plus sign in its path, the program works with exactly
the values of the call, or refuses it if angles or ranges are not allowed. -/
theorem C126_partial (a : Args) {vp vs rho : ℚ} (hp : a.params = [vp, vs, rho]) {w : What} (hw : Wants a w) {r : Where} (hr : At a r)
    (p1 : Plain vp ∧ Plain vs ∧ Plain rho) (p2 : a.out ≠ []) (p3 : w.exact) (p4 : r.exact) :
    ∃ argv, command a = some argv ∧ (w.allowed ∧ r.allowed → parse argv = some (expected a vp vs rho w r)) ∧
      (¬(w.allowed ∧ r.allowed) → parse argv = none) := by
  classical
  obtain ⟨src, s1, s2⟩ := run_what hw p3
  obtain ⟨recv, r1, r2⟩ := run_where hr p4
  have hc := (C126_source a).2 ⟨by simp [hp], ⟨w, hw⟩, r, hr⟩
  refine ⟨line a src recv, command_line hc s1 r1, ?_⟩
  have hl : parse (line a src recv) = if w.allowed then if r.allowed then some (expected a vp vs rho w r) else none else none := by
    unfold parse line
    rw [hp, run_I p1, run_O p2, s2, r2, run_N, run_e]
    have : finish (sete a.upar (setN a.zne (setWhere r (setWhat a w (setO a.out (setI (.num vp, .num vs, .num rho) {})))))) =
        some (expected a vp vs rho w r) := by
      have e : sete a.upar (setN a.zne (setWhere r (setWhat a w (setO a.out (setI (.num vp, .num vs, .num rho) {}))))) = expected a vp vs rho w r := by
        cases w with
        | faults p => cases r <;> simp [sete, setN, setWhere, setQ, setX, setY, setDr, setWhat, setO, setI, setC, expected, withWhat, withWhere]
        | point x d g =>
          cases r <;> cases g <;>
            simp [sete, setN, setWhere, setQ, setX, setY, setDr, setDs, setS, setGeo, setWhat, setO, setI, expected, withWhat, withWhere]
      rw [e]
      cases w <;> cases r <;> simp [finish, expected, withWhat, withWhere]
    rw [this]
  rw [hl]
  constructor
  · rintro ⟨q1, q2⟩
    rw [if_pos q1, if_pos q2]
  · intro h
    by_cases q1 : w.allowed
    · rw [if_pos q1, if_neg fun q2 => h ⟨q1, q2⟩]
    · rw [if_neg q1]

/-- C126 does not hold for a plus sign in the path of the faults: such a file is always refused. -/
theorem C126_violated_path (a : Args) {vp vs rho : ℚ} (hp : a.params = [vp, vs, rho]) {p : Text} (hw : Wants a (.faults p)) {r : Where} (hr : At a r)
    (p1 : Plain vp ∧ Plain vs ∧ Plain rho) (p2 : a.out ≠ []) (p3 : '+' ∈ p) (p4 : r.exact) :
    ∃ argv, command a = some argv ∧ parse argv = none := by
  classical
  obtain ⟨recv, r1, -⟩ := run_where hr p4
  have hc := (C126_source a).2 ⟨by simp [hp], ⟨_, hw⟩, r, hr⟩
  obtain ⟨h1, h2, h3, h4, h5, h6, h7⟩ := hw
  have hs : sourcePart a = some ["-C".toList ++ p] := by simp [sourcePart, geometry, h1, h2, h3, h4, h5, h6, h7]
  refine ⟨line a _ recv, command_line hc hs r1, ?_⟩
  unfold parse line
  rw [hp, run_I p1, run_O p2]
  refine (run_C (by rintro rfl; simp at p3)).trans ?_
  rw [if_pos p3]

/-- C126 does not hold for all ranges: from 0 to 0.3 in steps of 0.1 there are three coordinates, the last is 0.2. -/
theorem C126_violated_grid (a : Args) {vp vs rho : ℚ} (hp : a.params = [vp, vs, rho]) {w : What} (hw : Wants a w) {d : ℚ} {e : ℚ × ℚ × ℚ}
    (hr : At a (.grid d (0, dbl (3 / 10), dbl (1 / 10)) e)) (p1 : Plain vp ∧ Plain vs ∧ Plain rho) (p2 : a.out ≠ []) (p3 : w.exact) (p4 : Plain d)
    (p5 : WholeRange e) (q1 : w.allowed) (q2 : 0 < e.2.2 ∧ e.1 ≤ e.2.1) :
    ∃ argv k, command a = some argv ∧ parse argv = some k ∧ k.X = some [.num 0, .num (dbl (1 / 10)), .num (dbl (2 / 10))] := by
  classical
  obtain ⟨src, s1, s2⟩ := run_what hw p3
  have hc := (C126_source a).2 ⟨by simp [hp], ⟨w, hw⟩, _, hr⟩
  obtain ⟨h1, h2, h3, h4, h5⟩ := hr
  have hrp : recvPart a = some ["-Dr".toList ++ formatFloat d, "-X".toList ++ joinSlash [0, dbl (3 / 10), dbl (1 / 10)],
      "-Y".toList ++ joinSlash [e.1, e.2.1, e.2.2]] := by simp [recvPart, h1, h2, h4, h5, formatRange]
  have lit : ∀ n : ℤ, |n| < 10 → Plain (dbl (n / 10)) := by
    intro n hn
    refine ⟨⟨n / 10, ⟨n, -1, hn.trans (by norm_num), by norm_num [div_eq_mul_inv]⟩, rfl⟩, ?_⟩
    rw [abs_lt] at hn
    obtain ⟨l, u⟩ := hn
    interval_cases n <;> decide +kernel
  have ax : scanAxis (joinSlash [0, dbl (3 / 10), dbl (1 / 10)]) = some [.num 0, .num (dbl (1 / 10)), .num (dbl (2 / 10))] := by
    rw [scanAxis_join (by exact_mod_cast plain_int 0 (by norm_num)) (by have := lit 3 (by norm_num); norm_num at this ⊢; exact this) (by have := lit 1 (by norm_num); norm_num at this ⊢; exact this),
      if_pos (by decide +kernel)]
    have : axis 0 (dbl (3 / 10)) (dbl (1 / 10)) = some [0, dbl (1 / 10), dbl (2 / 10)] := by decide +kernel
    rw [this]
    rfl
  refine ⟨line a src _, sete a.upar (setN a.zne (setY (coords e.1 e.2.1 e.2.2) (setX [.num 0, .num (dbl (1 / 10)), .num (dbl (2 / 10))] (setDr d
    (setWhat a w (setO a.out (setI (.num vp, .num vs, .num rho) {}))))))), command_line hc s1 hrp, ?_, rfl⟩
  unfold parse line
  rw [hp, run_I p1, run_O p2, s2, if_pos q1]
  refine (run_Dr p4 h3).trans ((run_X (by simp)).trans ?_)
  rw [ax, Option.bind_some]
  refine (run_Y (l := [e.1, e.2.1, e.2.2]) (by simp)).trans ?_
  rw [scanAxis_whole p5, if_pos q2, Option.bind_some]
  refine (run_N (b := a.zne) (rest := flag "-e" a.upar)).trans ?_
  rw [run_e]
  cases w with
  | faults p => simp [finish, sete, setN, setX, setY, setDr, setWhat, setO, setI, setC]
  | point x d g => cases g <;> simp [finish, sete, setN, setX, setY, setDr, setDs, setS, setGeo, setWhat, setO, setI]

/-! ### Cases -/

/-- A shear source under a grid. -/
def sample : Args where
  params := [6, 3, 2]
  out := "okada.nc".toList
  depsrc := some 10
  deprcv := some 0
  norths := some [-5, 5, 2]
  easts := some [0, 3, 1]
  points := none
  scale := some 20
  withMu := true
  strike := some 30
  dip := some 60
  rake := some (-90)
  fault := none
  zne := true
  upar := false

theorem plain' (n : ℤ) (q : ℚ) (e : q = n) (h : |n| < 10 ^ 15) : Plain q := by rw [e]; exact plain_int n h

theorem medium : Plain 6 ∧ Plain 3 ∧ Plain 2 :=
  ⟨plain' 6 _ (by norm_num) (by norm_num), plain' 3 _ (by norm_num) (by norm_num), plain' 2 _ (by norm_num) (by norm_num)⟩

theorem whole3 (p q s : ℤ) (h : |p| < 10 ^ 14 ∧ |q| < 10 ^ 14 ∧ |s| < 10 ^ 14) : WholeRange ((p : ℚ), (q : ℚ), (s : ℚ)) := by
  rintro d ⟨⟩ x hx
  simp only [List.mem_cons, List.not_mem_nil, or_false] at hx
  rcases hx with rfl | rfl | rfl
  exacts [⟨p, rfl, h.1⟩, ⟨q, rfl, h.2.1⟩, ⟨s, rfl, h.2.2⟩]

theorem north : WholeRange (-5, 5, 2) := by exact_mod_cast whole3 (-5) 5 2 (by norm_num)
theorem east : WholeRange (0, 3, 1) := by exact_mod_cast whole3 0 3 1 (by norm_num)

/-- The hypotheses of `C126_partial` for it, and the command line. -/
example : Wants sample (.point 20 10 (.shear 30 60 (-90))) ∧ At sample (.grid 0 (-5, 5, 2) (0, 3, 1)) ∧ What.exact (.point 20 10 (.shear 30 60 (-90))) ∧
    Where.exact (.grid 0 (-5, 5, 2) (0, 3, 1)) ∧ What.allowed (.point 20 10 (.shear 30 60 (-90))) ∧ Where.allowed (.grid 0 (-5, 5, 2) (0, 3, 1)) ∧
    command sample = some ["-I6/3/2".toList, "-Ookada.nc".toList, "-Su20".toList, "-Ds10".toList, "-M30/60/-90".toList, "-Dr0".toList, "-X-5/5/2".toList,
      "-Y0/3/1".toList, "-N".toList] := by
  refine ⟨⟨rfl, rfl, rfl, by norm_num, rfl, rfl, rfl⟩, ⟨rfl, rfl, le_rfl, rfl, rfl⟩,
    ⟨plain' 20 _ (by norm_num) (by norm_num), plain' 10 _ (by norm_num) (by norm_num), ?_⟩, ⟨plain' 0 _ (by norm_num) (by norm_num), north, east⟩,
    by norm_num [What.allowed, Geo.allowed], by norm_num [Where.allowed], by decide +kernel⟩
  intro y hy
  simp only [Geo.numbers, List.mem_cons, List.not_mem_nil, or_false] at hy
  rcases hy with rfl | rfl | rfl
  · exact plain' 30 _ (by norm_num) (by norm_num)
  · exact plain' 60 _ (by norm_num) (by norm_num)
  · exact plain' (-90) _ (by norm_num) (by norm_num)

/-- Finite faults at the points of a file. -/
def faulty (p : Text) : Args where
  params := [6, 3, 2]
  out := "okada.nc".toList
  depsrc := none
  deprcv := none
  norths := none
  easts := none
  points := some "p.txt".toList
  scale := none
  withMu := false
  strike := none
  dip := none
  rake := none
  fault := some p
  zne := false
  upar := true

/-- What the program works with in that case. -/
example : ∃ argv, command (faulty "slip.inp".toList) = some argv ∧ ∃ k, parse argv = some k ∧ k.C = some "slip.inp".toList ∧ k.Q = some "p.txt".toList ∧
    k.I = some (.num 6, .num 3, .num 2) := by
  obtain ⟨argv, h1, h2, -⟩ := C126_partial (faulty "slip.inp".toList) rfl (w := .faults "slip.inp".toList) ⟨rfl, rfl, rfl, rfl, rfl, rfl, rfl⟩
    (r := .file "p.txt".toList) ⟨rfl, rfl, rfl, rfl⟩ medium (by decide) ⟨by decide, by decide⟩ (by simp [Where.exact])
  exact ⟨argv, h1, _, h2 ⟨trivial, trivial⟩, rfl, rfl, rfl⟩

/-- A file that is refused. -/
example : ∃ argv, command (faulty "M7+.inp".toList) = some argv ∧ parse argv = none :=
  C126_violated_path (faulty "M7+.inp".toList) rfl (p := "M7+.inp".toList) ⟨rfl, rfl, rfl, rfl, rfl, rfl, rfl⟩ (r := .file "p.txt".toList) ⟨rfl, rfl, rfl, rfl⟩
    medium (by decide) (by decide) (by simp [Where.exact])

/-- A grid that loses its last coordinate. -/
example : ∃ argv k, command { faulty "slip.inp".toList with points := none, deprcv := some 0, norths := some [0, dbl (3 / 10), dbl (1 / 10)], easts := some [0, 3, 1] } =
    some argv ∧ parse argv = some k ∧ k.X = some [.num 0, .num (dbl (1 / 10)), .num (dbl (2 / 10))] :=
  C126_violated_grid _ rfl (w := .faults "slip.inp".toList) ⟨rfl, rfl, rfl, rfl, rfl, rfl, rfl⟩ (d := 0) (e := (0, 3, 1)) ⟨rfl, rfl, le_rfl, rfl, rfl⟩ medium
    (by decide) ⟨by decide, by decide⟩ (plain' 0 _ (by norm_num) (by norm_num)) east trivial (by norm_num)

end GRT.Python.Okada
