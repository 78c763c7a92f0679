import Verif.Python.StaticSyn
import Verif.Python.StaticGrnProp

/-! C125: a call of `compute_static_syn` makes the program work with the source, the receivers and the numbers of the call. -/

namespace GRT.Python.StaticSyn

open GRT.Num GRT.Files GRT.Points GRT.Python GRT.Python.Syn GRT.Python.Grn GRT.Python.StaticGrn

/-! ### Specification -/

/-- Which arguments select which point source; the other source arguments are left out. -/
def Asks (a : Args) : Source → Prop
  | .explosion => a.strike = none ∧ a.dip = none ∧ a.rake = none ∧ a.force = none ∧ a.tensor = none
  | .force n e z => a.strike = none ∧ a.dip = none ∧ a.rake = none ∧ a.force = some [n, e, z] ∧ a.tensor = none
  | .tear s d => a.strike = some s ∧ a.dip = some d ∧ a.rake = none ∧ a.force = none ∧ a.tensor = none
  | .shear s d r => a.strike = some s ∧ a.dip = some d ∧ a.rake = some r ∧ a.force = none ∧ a.tensor = none
  | .tensor xx xy xz yy yz zz => a.strike = none ∧ a.dip = none ∧ a.rake = none ∧ a.force = none ∧ a.tensor = some [xx, xy, xz, yy, yz, zz]

/-- What is asked for: finite faults from a file, with the sizes of the parts or the default, or a point source. -/
inductive What where
  | faults (path : Text) (size : Option (ℚ × ℚ))
  | point (scale : ℚ) (src : Source)

/-- Which arguments select which of them: with finite faults no argument of a point source, without them a scale and no size. -/
def Wants (a : Args) : What → Prop
  | .faults p z => a.fault = some p ∧ a.size = z.map (fun z => [z.1, z.2]) ∧ a.scale = none ∧ a.withMu = false ∧ Asks a .explosion ∧ a.depsrc = none
  | .point x src => a.fault = none ∧ a.size = none ∧ a.scale = some x ∧ Asks a src ∧ ∀ y ∈ a.depsrc, 0 ≤ y

/-- Which calls reach the program. -/
structure Accepted (a : Args) : Prop where
  what : ∃ w, Wants a w
  deprcv : ∀ y ∈ a.deprcv, 0 ≤ y
  receivers : (a.points = none ∧ a.norths = none ∧ a.easts = none) ∨ (a.points ≠ none ∧ a.deprcv = none ∧ a.norths = none ∧ a.easts = none) ∨
    (a.points = none ∧ ∃ n e, a.norths = some n ∧ a.easts = some e ∧ n.length = 3 ∧ e.length = 3)

/-- The documented ranges. -/
def What.allowed : What → Prop
  | .faults _ z => ∀ s ∈ z, 0 < s.1 ∧ 0 < s.2
  | .point _ src => src.allowed

/-- What is asked of the values. -/
structure Allowed (a : Args) (w : What) : Prop where
  what : w.allowed
  places : a.norths ≠ none → Ordered a.norths ∧ Ordered a.easts

/-- The numbers that are written without rounding, and a path of the faults without a plus sign. -/
def What.exact : What → Prop
  | .faults p z => p ≠ [] ∧ '+' ∉ p ∧ ∀ s ∈ z, Small s.1 ∧ Small s.2
  | .point x src => Plain x ∧ ∀ y ∈ src.numbers, Plain y

structure Exact (a : Args) : Prop where
  stgrn : a.stgrn ≠ []
  out : a.out ≠ []
  points : a.points ≠ some []
  depsrc : ∀ y ∈ a.depsrc, Plain y
  deprcv : ∀ y ∈ a.deprcv, Plain y
  norths : Whole a.norths
  easts : Whole a.easts

/-- The source set: the kind and the numbers of the synthesis. -/
def withWhat (a : Args) (k : Ctrl) : What → Ctrl
  | .faults p z => { k with kind := .DC, C := some (p, match z with | none => (.num 0, .num 0) | some z => (.num z.1, .num z.2)) }
  | .point x src =>
    { k with mu := a.withMu, S := some (.num x), kind := src.works.1, mchn := src.works.2.map .num, M := decide (src.works.1 = .TS ∨ src.works.1 = .DC),
             F := decide (src.works.1 = .SF), T := decide (src.works.1 = .MT), Ds := a.depsrc.map .num }

/-- What the program should work with. -/
def expected (a : Args) (w : What) : Ctrl :=
  withWhat a { G := some a.stgrn, O := some a.out, Dr := a.deprcv.map .num, X := a.norths.map fun _ => rangeOf a.norths,
               Y := a.easts.map fun _ => rangeOf a.easts, Q := a.points, N := a.zne, e := a.upar } w

/-! ### Single options -/

theorem run_req {k : Ctrl} {rest : List Text} {c : Char} {t : Text} (h : arity c = some .req) (ht : t ≠ []) :
    run k (('-' :: c :: t) :: rest) = (step k (c, some t)).bind fun k => run k rest := by
  have hc : c ≠ '-' := by rintro rfl; revert h; decide
  unfold run
  rw [getopt_req hc h ht]
  cases getopt arity rest with
  | none => cases step k (c, some t) <;> rfl
  | some os =>
    simp only [Option.map_some, Option.bind_some, List.foldlM_cons]
    cases step k (c, some t) <;> rfl

theorem run_flag {k : Ctrl} {rest : List Text} {c : Char} (h : arity c = some .flag) :
    run k (['-', c] :: rest) = (step k (c, none)).bind fun k => run k rest := by
  have hc : c ≠ '-' := by rintro rfl; revert h; decide
  unfold run
  rw [getopt_flag hc h]
  cases getopt arity rest with
  | none => cases step k (c, none) <;> rfl
  | some os =>
    simp only [Option.map_some, Option.bind_some, List.foldlM_cons]
    cases step k (c, none) <;> rfl

section
variable {k : Ctrl} {rest : List Text} {a : Args}

/-- Single values set. -/
def setG (t : Text) (k : Ctrl) : Ctrl := { k with G := some t }
def setO (t : Text) (k : Ctrl) : Ctrl := { k with O := some t }
def setQ (t : Text) (k : Ctrl) : Ctrl := { k with Q := some t }
def setX (xs : List Val) (k : Ctrl) : Ctrl := { k with X := some xs }
def setY (ys : List Val) (k : Ctrl) : Ctrl := { k with Y := some ys }
def setDs (o : Option ℚ) (k : Ctrl) : Ctrl := { k with Ds := (o.map Val.num).or k.Ds }
def setDr (o : Option ℚ) (k : Ctrl) : Ctrl := { k with Dr := (o.map Val.num).or k.Dr }
def setS (b : Bool) (x : ℚ) (k : Ctrl) : Ctrl := { k with mu := k.mu || b, S := some (.num x) }
def setC (f : Text × Val × Val) (k : Ctrl) : Ctrl := { k with C := some f, kind := .DC }
def setN (b : Bool) (k : Ctrl) : Ctrl := { k with N := b || k.N }
def sete (b : Bool) (k : Ctrl) : Ctrl := { k with e := b || k.e }

theorem run_G {t : Text} (ht : t ≠ []) : run k (("-G".toList ++ t) :: rest) = run (setG t k) rest := (run_req (c := 'G') (by decide) ht).trans rfl
theorem run_O {t : Text} (ht : t ≠ []) : run k (("-O".toList ++ t) :: rest) = run (setO t k) rest := (run_req (c := 'O') (by decide) ht).trans rfl
theorem run_Q {t : Text} (ht : t ≠ []) : run k (("-Q".toList ++ t) :: rest) = run (setQ t k) rest := (run_req (c := 'Q') (by decide) ht).trans rfl

theorem run_S {x : ℚ} (h : Plain x) (b : Bool) : run k (("-S".toList ++ ((if b then ['u'] else []) ++ formatFloat x)) :: rest) =
    run (setS b x k) rest := by
  cases b
  · refine (run_req (c := 'S') (by decide) (formatFloat_ne x)).trans ?_
    have : (formatFloat x).contains 'u' = false := by simpa using not_u x
    simp only [step, blankU_self (not_u x), scan_plain' h, this]
    rfl
  · refine (run_req (c := 'S') (t := 'u' :: formatFloat x) (by decide) (by simp)).trans ?_
    have : blankU ('u' :: formatFloat x) = ' ' :: formatFloat x := rfl
    simp only [step, this, scan_space, scan_plain' h]
    simp [setS]

theorem run_Ds {o : Option ℚ} (h : ∀ x ∈ o, Plain x) (h0 : ∀ x ∈ o, 0 ≤ x) : run k (Syn.optional "-Ds" formatFloat o ++ rest) = run (setDs o k) rest := by
  cases o with
  | none => rfl
  | some x =>
    refine (run_req (c := 'D') (t := 's' :: formatFloat x) (by decide) (by simp)).trans ?_
    simp [step, scan_plain' (h x rfl), num_lt, not_lt.2 (h0 x rfl), setDs]

theorem run_Dr {o : Option ℚ} (h : ∀ x ∈ o, Plain x) (h0 : ∀ x ∈ o, 0 ≤ x) : run k (Syn.optional "-Dr" formatFloat o ++ rest) = run (setDr o k) rest := by
  cases o with
  | none => rfl
  | some x =>
    refine (run_req (c := 'D') (t := 'r' :: formatFloat x) (by decide) (by simp)).trans ?_
    simp [step, scan_plain' (h x rfl), num_lt, not_lt.2 (h0 x rfl), setDr]

theorem run_X {l : List ℚ} (h : l ≠ []) : run k (("-X".toList ++ joinSlash l) :: rest) = (scanAxis (joinSlash l)).bind fun xs => run (setX xs k) rest := by
  refine (run_req (c := 'X') (by decide) (joinSlash_ne h)).trans ?_
  simp only [step]
  cases scanAxis (joinSlash l) <;> rfl

theorem run_Y {l : List ℚ} (h : l ≠ []) : run k (("-Y".toList ++ joinSlash l) :: rest) = (scanAxis (joinSlash l)).bind fun xs => run (setY xs k) rest := by
  refine (run_req (c := 'Y') (by decide) (joinSlash_ne h)).trans ?_
  simp only [step]
  cases scanAxis (joinSlash l) <;> rfl

theorem run_C {t : Text} (h : t ≠ []) : run k (("-C".toList ++ t) :: rest) = (scanFault t).bind fun f => run (setC f k) rest := by
  refine (run_req (c := 'C') (by decide) h).trans ?_
  simp only [step]
  cases scanFault t <;> rfl

theorem run_N {b : Bool} : run k (flag "-N" b ++ rest) = run (setN b k) rest := by
  cases b
  · rfl
  · exact (run_flag (c := 'N') (by decide)).trans rfl

theorem run_e {b : Bool} : run k (flag "-e" b) = finish (sete b k) := by
  cases b
  · change run _ [] = _
    unfold run
    rw [getopt.eq_1]; rfl
  · refine (run_flag (c := 'e') (rest := []) (by decide)).trans ?_
    change run _ [] = _
    unfold run
    rw [getopt.eq_1]; rfl

/-- The point source set. -/
def withSource (src : Source) (k : Ctrl) : Ctrl :=
  match src with
  | .explosion => k
  | .force n e z => { k with F := true, kind := .SF, mchn := [.num n, .num e, .num z] }
  | .tear s d => { k with M := true, kind := .TS, mchn := [.num s, .num d, .num 0] }
  | .shear s d r => { k with M := true, kind := .DC, mchn := [.num s, .num d, .num r] }
  | .tensor xx xy xz yy yz zz => { k with T := true, kind := .MT, mchn := [.num xx, .num xy, .num xz, .num yy, .num yz, .num zz] }

/-- The option of a point source. -/
theorem run_src {src : Source} (ha : Asks a src) (hn : ∀ x ∈ src.numbers, Plain x) [Decidable src.allowed] :
    ∃ opts, sourceOptions a.strike a.dip a.rake a.force a.tensor = some opts ∧ ∀ (k : Ctrl) (rest : List Text), run k (opts ++ rest) =
      if src.allowed then run (withSource src k) rest else none := by
  cases src with
  | explosion =>
    obtain ⟨e1, e2, e3, e4, e5⟩ := ha
    refine ⟨[], by simp [sourceOptions, e1, e2, e3, e4, e5], fun k rest => ?_⟩
    simp [Source.allowed, withSource]
  | force n e z =>
    obtain ⟨e1, e2, e3, e4, e5⟩ := ha
    refine ⟨["-F".toList ++ joinSlash [n, e, z]], by simp [sourceOptions, e1, e2, e3, e4, e5], fun k rest => ?_⟩
    refine (run_req (c := 'F') (by decide) (joinSlash_ne (xs := [n, e, z]) (by simp))).trans ?_
    have := scanSlash_join [n, e, z] hn 3 (by simp)
    simp [step, this, Source.allowed, withSource]
  | tear s d =>
    obtain ⟨e1, e2, e3, e4, e5⟩ := ha
    refine ⟨["-M".toList ++ joinSlash [s, d]], by simp [sourceOptions, e1, e2, e3, e4, e5], fun k rest => ?_⟩
    refine (run_req (c := 'M') (by decide) (joinSlash_ne (xs := [s, d]) (by simp))).trans ?_
    have := scanSlash_join [s, d] hn 3 (by simp)
    simp only [step, this, List.map_cons, List.map_nil, outside_num, Source.allowed]
    by_cases c1 : 0 ≤ s ∧ s ≤ 360 <;> by_cases c2 : 0 ≤ d ∧ d ≤ 90 <;> simp [c1, c2, withSource]
  | shear s d r =>
    obtain ⟨e1, e2, e3, e4, e5⟩ := ha
    refine ⟨["-M".toList ++ joinSlash [s, d, r]], by simp [sourceOptions, e1, e2, e3, e4, e5], fun k rest => ?_⟩
    refine (run_req (c := 'M') (by decide) (joinSlash_ne (xs := [s, d, r]) (by simp))).trans ?_
    have := scanSlash_join [s, d, r] hn 3 (by simp)
    simp only [step, this, List.map_cons, List.map_nil, outside_num, Source.allowed]
    by_cases c1 : 0 ≤ s ∧ s ≤ 360 <;> by_cases c2 : 0 ≤ d ∧ d ≤ 90 <;> by_cases c3 : -180 ≤ r ∧ r ≤ 180 <;>
      simp [c1, c2, c3, withSource]
  | tensor xx xy xz yy yz zz =>
    obtain ⟨e1, e2, e3, e4, e5⟩ := ha
    refine ⟨["-T".toList ++ joinSlash [xx, xy, xz, yy, yz, zz]], by simp [sourceOptions, e1, e2, e3, e4, e5], fun k rest => ?_⟩
    refine (run_req (c := 'T') (by decide) (joinSlash_ne (xs := [xx, xy, xz, yy, yz, zz]) (by simp))).trans ?_
    have := scanSlash_join [xx, xy, xz, yy, yz, zz] hn 6 (by simp)
    simp [step, this, Source.allowed, withSource]

/-- The options of the source, as they are read. -/
def setWhat (a : Args) (w : What) (k : Ctrl) : Ctrl :=
  match w with
  | .faults p z => setC (p, match z with | none => (.num 0, .num 0) | some z => (.num z.1, .num z.2)) k
  | .point x src => setDs a.depsrc (withSource src (setS a.withMu x k))

theorem scanFault_none {p : Text} (hp : p ≠ []) (hq : '+' ∉ p) : scanFault (p ++ plus []) = some (p, .num 0, .num 0) := by
  unfold scanFault
  rw [split_plus p [] ⟨hp, hq⟩ (by simp)]

theorem scanFault_size {p : Text} (hp : p ≠ []) (hq : '+' ∉ p) {x y : ℚ} (hx : Small x) (hy : Small y) :
    scanFault (p ++ plus ['i' :: joinSlash [x, y]]) = if 0 < x ∧ 0 < y then some (p, .num x, .num y) else none := by
  unfold scanFault
  rw [split_plus p ['i' :: joinSlash [x, y]] ⟨hp, hq⟩ (by simp [joinSlash, not_plus hx.2, not_plus hy.2])]
  have hj := scanSlash_join [x, y] (by simp [hx.plain, hy.plain]) 2 (by simp)
  simp only [hj, List.map_cons, List.map_nil, notPos_num]
  by_cases c1 : 0 < x <;> by_cases c2 : 0 < y <;> simp [c1, c2, not_le.2, not_lt.1]

theorem run_what {w : What} (hw : Wants a w) (he : w.exact) (hds : ∀ y ∈ a.depsrc, Plain y) [Decidable w.allowed] :
    ∃ opts, sourcePart a = some opts ∧ ∀ (k : Ctrl) (rest : List Text), run k (opts ++ rest) = if w.allowed then run (setWhat a w k) rest else none := by
  classical
  cases w with
  | faults p z =>
    obtain ⟨h1, h2, -⟩ := hw
    obtain ⟨e1, e2, e3⟩ := he
    cases z with
    | none =>
      refine ⟨["-C".toList ++ (p ++ plus [])], by simp [sourcePart, h1, h2], fun k rest => ?_⟩
      refine (run_C (t := p ++ plus []) (by simp [e1])).trans ?_
      rw [scanFault_none e1 e2, if_pos (by rintro s ⟨⟩)]
      rfl
    | some z =>
      obtain ⟨x, y⟩ := z
      obtain ⟨g1, g2⟩ := e3 _ rfl
      refine ⟨["-C".toList ++ (p ++ plus ['i' :: joinSlash [x, y]])], by simp [sourcePart, h1, h2], fun k rest => ?_⟩
      refine (run_C (t := p ++ plus ['i' :: joinSlash [x, y]]) (by simp [e1])).trans ?_
      rw [scanFault_size e1 e2 g1 g2]
      by_cases c : 0 < x ∧ 0 < y
      · rw [if_pos c, if_pos (by rintro s ⟨⟩; exact c)]
        rfl
      · rw [if_neg c, if_neg (fun h => c (h _ rfl))]
        rfl
  | point x src =>
    obtain ⟨h1, -, h3, h4, h5⟩ := hw
    obtain ⟨e1, e2⟩ := he
    obtain ⟨opts, g1, g2⟩ := run_src h4 e2
    refine ⟨("-S".toList ++ ((if a.withMu then ['u'] else []) ++ formatFloat x)) :: (opts ++ Syn.optional "-Ds" formatFloat a.depsrc),
      by simp [sourcePart, h1, h3, g1], fun k rest => ?_⟩
    rw [List.cons_append, List.append_assoc, run_S e1, g2, run_Ds hds h5]
    by_cases q : src.allowed
    · rw [if_pos q]; exact (if_pos (show (What.point x src).allowed from q)).symm
    · rw [if_neg q]; exact (if_neg (show ¬(What.point x src).allowed from q)).symm

end

/-! ### The property -/

theorem sourceOptions_iff (a : Args) : sourceOptions a.strike a.dip a.rake a.force a.tensor ≠ none ↔ ∃ src, Asks a src := by
  constructor
  · intro h
    unfold sourceOptions at h
    rcases hf : a.force with _ | f <;> rcases ht : a.tensor with _ | m <;> rcases h1 : a.strike with _ | s <;>
      rcases h2 : a.dip with _ | d <;> rcases h3 : a.rake with _ | r <;> simp [hf, ht, h1, h2, h3] at h
    · exact ⟨.explosion, h1, h2, h3, hf, ht⟩
    · exact ⟨.tear s d, h1, h2, h3, hf, ht⟩
    · exact ⟨.shear s d r, h1, h2, h3, hf, ht⟩
    · match m, h with
      | [xx, xy, xz, yy, yz, zz], _ => exact ⟨.tensor xx xy xz yy yz zz, h1, h2, h3, hf, ht⟩
    · match f, h with
      | [n, e, z], _ => exact ⟨.force n e z, h1, h2, h3, hf, ht⟩
  · rintro ⟨src, ha⟩
    cases src <;> obtain ⟨e1, e2, e3, e4, e5⟩ := ha <;> simp [sourceOptions, e1, e2, e3, e4, e5]

theorem recvPart_iff (a : Args) (h : (a.points.isSome && (a.norths.isSome || a.easts.isSome)) = false)
    (h2 : (a.points.isSome && a.deprcv.isSome) = false) (h3 : ((a.norths.isSome || a.easts.isSome) && (a.norths.isNone || a.easts.isNone)) = false) :
    recvPart a ≠ none ↔ (a.points = none ∧ a.norths = none ∧ a.easts = none) ∨ (a.points ≠ none ∧ a.deprcv = none ∧ a.norths = none ∧ a.easts = none) ∨
    (a.points = none ∧ ∃ n e, a.norths = some n ∧ a.easts = some e ∧ n.length = 3 ∧ e.length = 3) := by
  unfold recvPart
  rcases hp : a.points with _ | p <;> rcases hn : a.norths with _ | n <;> rcases he : a.easts with _ | e <;> simp [hp, hn, he] at h h2 h3 ⊢
  · rw [← formatRange_iff, ← formatRange_iff]
    cases formatRange n <;> cases formatRange e <;> simp
  · exact h2

/-- C125: which calls reach the program: those that ask either for finite faults (and nothing of a point source) or for one of the documented point
sources with a scale, with depths that are not negative, at the points of the library, of a file or of two ranges. -/
theorem C125_source (a : Args) : command a ≠ none ↔ Accepted a := by
  constructor
  · intro h
    unfold command at h
    dsimp only at h
    split_ifs at h with q1 q2 q3 q4 q5 q6 q7 q8
    all_goals try exact absurd rfl h
    rw [Bool.not_eq_true] at q1 q2 q3 q4 q5 q6 q7 q8
    have hs : sourcePart a ≠ none := by
      intro e; rw [e] at h; exact h rfl
    have hr : recvPart a ≠ none := by
      intro e; rw [e] at h; revert h; cases sourcePart a <;> exact fun h => h rfl
    refine ⟨?_, ?_, (recvPart_iff a q2 q3 q4).1 hr⟩
    · cases hf : a.fault with
      | some p =>
        rw [hf] at q1 q7 q8
        simp at q1 q7 q8
        obtain ⟨⟨⟨⟨g1, g2⟩, ⟨g3, g4⟩, g5⟩, g6⟩, g7⟩ := q1
        cases hz : a.size with
        | none => exact ⟨.faults p none, hf, hz, g1, g2, ⟨g3, g4, g5, g6, g7⟩, q7⟩
        | some l =>
          obtain ⟨x, y, rfl⟩ := List.length_eq_two.1 (by rw [hz] at q8; simpa using q8 : l.length = 2)
          exact ⟨.faults p (some (x, y)), hf, hz, g1, g2, ⟨g3, g4, g5, g6, g7⟩, q7⟩
      | none =>
        have hz : a.size = none := by
          cases hz : a.size with
          | none => rfl
          | some l => rw [hf, hz] at q8; simp at q8
        unfold sourcePart at hs
        rw [hf] at hs
        cases hx : a.scale with
        | none => rw [hx] at hs; exact absurd rfl hs
        | some x =>
          rw [hx] at hs
          have : sourceOptions a.strike a.dip a.rake a.force a.tensor ≠ none := by
            intro e; rw [e] at hs; exact hs rfl
          obtain ⟨src, hsrc⟩ := (sourceOptions_iff a).1 this
          refine ⟨.point x src, hf, hz, hx, hsrc, ?_⟩
          intro y hy
          rw [hy] at q5
          simpa using q5
    · intro y hy
      rw [hy] at q6
      simpa using q6
  · rintro ⟨⟨w, hw⟩, hd, hr⟩
    have r : (a.points.isSome && (a.norths.isSome || a.easts.isSome)) = false ∧ (a.points.isSome && a.deprcv.isSome) = false ∧
        ((a.norths.isSome || a.easts.isSome) && (a.norths.isNone || a.easts.isNone)) = false := by
      rcases hr with ⟨g1, g2, g3⟩ | ⟨g1, g2, g3, g4⟩ | ⟨g1, n, e, g2, g3, -⟩
      · simp [g1, g2, g3]
      · simp [g2, g3, g4]
      · simp [g1, g2, g3]
    have hrp := (recvPart_iff a r.1 r.2.1 r.2.2).2 hr
    have d2 : a.deprcv.any (· < 0) = false := by
      cases h : a.deprcv with
      | none => rfl
      | some y => simpa using hd y h
    have hsp : sourcePart a ≠ none := by
      cases w with
      | faults p z => simp [sourcePart, hw.1]
      | point x src =>
        have := (sourceOptions_iff a).2 ⟨src, hw.2.2.2.1⟩
        simp only [sourcePart, hw.1, hw.2.2.1]
        simpa using this
    have key : ∃ argv, command a = some argv := by
      obtain ⟨s, hs⟩ := Option.ne_none_iff_exists'.1 hsp
      obtain ⟨t, ht⟩ := Option.ne_none_iff_exists'.1 hrp
      refine ⟨line a s t, ?_⟩
      unfold command
      dsimp only
      rw [r.1, r.2.1, r.2.2, d2, hs, ht]
      cases w with
      | faults p z =>
        obtain ⟨h1, h2, h3, h4, ⟨g1, g2, g3, g4, g5⟩, h6⟩ := hw
        rw [h1, h2, h3, h4, g1, g2, g3, g4, g5, h6]
        cases z <;> simp
      | point x src =>
        obtain ⟨h1, h2, h3, -, h5⟩ := hw
        have d1 : a.depsrc.any (· < 0) = false := by
          cases h : a.depsrc with
          | none => rfl
          | some y => simpa using h5 y h
        rw [h1, h2, d1]
        simp
    obtain ⟨argv, h⟩ := key
    rw [h]; simp

/-- The receivers set, for an accepted call. -/
def setRecv (a : Args) (k : Ctrl) : Ctrl :=
  { k with Q := a.points.or k.Q, X := (a.norths.map fun _ => rangeOf a.norths).or k.X, Y := (a.easts.map fun _ => rangeOf a.easts).or k.Y }

theorem run_recv {a : Args} {recv : List Text} (ha : Accepted a) (hx : Exact a) (hr : recvPart a = some recv)
    [Decidable (a.norths ≠ none → Ordered a.norths ∧ Ordered a.easts)] (k : Ctrl) (rest : List Text) :
    run k (recv ++ rest) = if (a.norths ≠ none → Ordered a.norths ∧ Ordered a.easts) then run (setRecv a k) rest else none := by
  rcases ha.receivers with ⟨g1, g2, g3⟩ | ⟨g1, g2, g3, g4⟩ | ⟨g1, n, e, g2, g3, l1, l2⟩
  · unfold recvPart at hr
    rw [g1, g2] at hr
    injection hr with hr
    subst hr
    rw [if_pos (by rw [g2]; simp)]
    simp [setRecv, g1, g2, g3]
  · obtain ⟨q, hq⟩ := Option.ne_none_iff_exists'.1 g1
    unfold recvPart at hr
    rw [hq] at hr
    injection hr with hr
    subst hr
    rw [if_pos (by rw [g3]; simp)]
    refine (run_Q (t := q) (fun e => hx.points (by rw [hq, e]))).trans ?_
    simp [setRecv, setQ, g3, g4, hq]
  · obtain ⟨p, q, s, rfl⟩ := List.length_eq_three.1 l1
    obtain ⟨p', q', s', rfl⟩ := List.length_eq_three.1 l2
    unfold recvPart at hr
    rw [g1, g2, g3] at hr
    simp only [formatRange, List.length_cons, List.length_nil, ne_eq, not_true_eq_false, if_false] at hr
    injection hr with hr
    subst hr
    have n1 := whole_plain hx.norths _ g2
    have n2 := whole_plain hx.easts _ g3
    have s1 := scanAxis_join (n1 p (by simp)) (n1 q (by simp)) (n1 s (by simp))
    have s2 := scanAxis_join (n2 p' (by simp)) (n2 q' (by simp)) (n2 s' (by simp))
    refine (run_X (l := [p, q, s]) (by simp)).trans ?_
    have hy : ∀ xs : List Val, run (setX xs k) (("-Y".toList ++ joinSlash [p', q', s']) :: rest) = _ := fun xs => run_Y (l := [p', q', s']) (by simp)
    by_cases c1 : 0 < s ∧ p ≤ q
    · obtain ⟨xs, ex, exs⟩ := axis_of_whole hx.norths g2 c1.1 c1.2
      rw [s1, if_pos c1, ex, Option.map_some, exs, Option.bind_some]
      refine (hy _).trans ?_
      by_cases c2 : 0 < s' ∧ p' ≤ q'
      · obtain ⟨ys, ey, eys⟩ := axis_of_whole hx.easts g3 c2.1 c2.2
        rw [s2, if_pos c2, ey, Option.map_some, eys, Option.bind_some, if_pos (by rw [g2, g3]; exact fun _ => ⟨c1, c2⟩)]
        simp [setRecv, setX, setY, g1, g2, g3, rangeOf]
      · rw [s2, if_neg c2, if_neg (by rw [g2, g3]; exact fun h => c2 (h (by simp)).2)]
        rfl
    · rw [s1, if_neg c1, if_neg (by rw [g2, g3]; exact fun h => c1 (h (by simp)).1)]
      rfl

/-- What the program works with, when the option of the source is read as `f` says. -/
theorem run_line {a : Args} (ha : Accepted a) (hx : Exact a) {src recv : List Text} (hr : recvPart a = some recv) {P : Prop} [Decidable P]
    {f : Ctrl → Ctrl} (hs : ∀ k rest, run k (src ++ rest) = if P then run (f k) rest else none)
    [Decidable (a.norths ≠ none → Ordered a.norths ∧ Ordered a.easts)] (k : Ctrl) :
    run k (line a src recv) = if P then if (a.norths ≠ none → Ordered a.norths ∧ Ordered a.easts) then
      finish (sete a.upar (setN a.zne (setRecv a (setDr a.deprcv (f (setO a.out (setG a.stgrn k)))))))
      else none else none := by
  unfold line
  rw [run_G hx.stgrn, run_O hx.out, hs, run_Dr hx.deprcv ha.deprcv, run_recv ha hx hr, run_N, run_e]

theorem command_line {a : Args} (ha : Accepted a) {src recv : List Text} (hs : sourcePart a = some src) (hr : recvPart a = some recv) :
    command a = some (line a src recv) := by
  have h := (C125_source a).2 ha
  unfold command at h ⊢
  dsimp only at h ⊢
  rw [hs, hr] at h ⊢
  split_ifs at h ⊢
  all_goals first | rfl | exact absurd rfl h

/-- C125: for numbers of at most fifteen digits, ranges of whole numbers and a file of faults without a plus sign in its path, the program works with exactly
the values of the call, or refuses it if the arguments are not allowed. -/
theorem C125_partial (a : Args) (ha : Accepted a) (hx : Exact a) {w : What} (hw : Wants a w) (he : w.exact) :
    ∃ argv, command a = some argv ∧ (Allowed a w → parse argv = some (expected a w)) ∧ (¬Allowed a w → parse argv = none) := by
  classical
  obtain ⟨src, h1, h2⟩ := run_what hw he hx.depsrc
  have hrp : recvPart a ≠ none := by
    have := ha.receivers
    refine (recvPart_iff a ?_ ?_ ?_).2 this <;> rcases this with ⟨g1, g2, g3⟩ | ⟨g1, g2, g3, g4⟩ | ⟨g1, n, e, g2, g3, -⟩ <;> simp [*]
  obtain ⟨recv, hr⟩ := Option.ne_none_iff_exists'.1 hrp
  refine ⟨line a src recv, command_line ha h1 hr, ?_⟩
  have hl := run_line ha hx hr h2 {}
  have fin : finish (sete a.upar (setN a.zne (setRecv a (setDr a.deprcv (setWhat a w (setO a.out (setG a.stgrn {}))))))) = some (expected a w) := by
    have e : sete a.upar (setN a.zne (setRecv a (setDr a.deprcv (setWhat a w (setO a.out (setG a.stgrn {})))))) = expected a w := by
      cases w with
      | faults p z => simp [sete, setN, setRecv, setDr, setWhat, setO, setG, setC, expected, withWhat]
      | point x s => cases s <;> simp [sete, setN, setRecv, setDr, setDs, setS, withSource, setWhat, setO, setG, expected, withWhat, Source.works]
    rw [e]
    rcases ha.receivers with ⟨g1, g2, g3⟩ | ⟨g1, g2, g3, g4⟩ | ⟨g1, n, e, g2, g3, -⟩ <;> cases w with
    | faults p z => simp [finish, expected, withWhat, *]
    | point x s => cases s <;> simp [finish, expected, withWhat, Source.works, *]
  rw [fin] at hl
  unfold parse
  rw [hl]
  constructor
  · rintro ⟨q1, q2⟩
    rw [if_pos q1, if_pos q2]
  · intro hna
    by_cases q1 : w.allowed
    swap
    · exact if_neg q1
    rw [if_pos q1]
    exact if_neg fun q2 => hna ⟨q1, q2⟩

/-- C125 does not hold for a plus sign in the path of the faults: a file whose name has one that is not followed by `i` is always refused. -/
theorem C125_violated_refused (a : Args) (ha : Accepted a) (hx : Exact a) (p q : Text) (hp : p ≠ [] ∧ '+' ∉ p) (hq : q ≠ [] ∧ '+' ∉ q)
    (hi : q.head? ≠ some 'i') (hf : a.fault = some (p ++ '+' :: q)) (hz : a.size = none) : ∃ argv, command a = some argv ∧ parse argv = none := by
  classical
  have hs : sourcePart a = some ["-C".toList ++ (p ++ plus [q])] := by simp [sourcePart, hf, hz, plus]
  have hrp : recvPart a ≠ none := by
    have := ha.receivers
    refine (recvPart_iff a ?_ ?_ ?_).2 this <;> rcases this with ⟨g1, g2, g3⟩ | ⟨g1, g2, g3, g4⟩ | ⟨g1, n, e, g2, g3, -⟩ <;> simp [*]
  obtain ⟨recv, hr⟩ := Option.ne_none_iff_exists'.1 hrp
  refine ⟨line a _ recv, command_line ha hs hr, ?_⟩
  have hsf : scanFault (p ++ plus [q]) = none := by
    unfold scanFault
    rw [split_plus p [q] hp (by simpa using hq)]
    dsimp only
    cases q with
    | nil => rfl
    | cons c t =>
      have : c ≠ 'i' := by simpa using hi
      split
      · rename_i h; injection h with h _; exact absurd h this
      · rfl
  have h2 : ∀ k rest, run k (["-C".toList ++ (p ++ plus [q])] ++ rest) = if False then run k rest else none := by
    intro k rest
    refine (run_C (t := p ++ plus [q]) (by simp [hp.1])).trans ?_
    rw [hsf]; rfl
  have := run_line ha hx hr (f := id) h2 {}
  unfold parse
  rw [this, if_neg (by simp)]

/-- C125 does not hold for a plus sign and an `i`: from `p+i<dL>/<dW>` (a file in a directory `p+i<dL>`) the program reads the file `p` instead, in parts of the size `dL`
by `dW`. -/
theorem C125_violated_file (a : Args) (ha : Accepted a) (hx : Exact a) (p : Text) (hp : p ≠ [] ∧ '+' ∉ p) {x y : ℚ} (h1 : Small x ∧ 0 < x) (h2 : Small y ∧ 0 < y)
    (hf : a.fault = some (p ++ '+' :: 'i' :: joinSlash [x, y])) (hz : a.size = none) (hal : a.norths ≠ none → Ordered a.norths ∧ Ordered a.easts) :
    ∃ argv k, command a = some argv ∧ parse argv = some k ∧ k.C = some (p, .num x, .num y) := by
  classical
  have hs : sourcePart a = some ["-C".toList ++ (p ++ plus ['i' :: joinSlash [x, y]])] := by simp [sourcePart, hf, hz, plus]
  have hrp : recvPart a ≠ none := by
    have := ha.receivers
    refine (recvPart_iff a ?_ ?_ ?_).2 this <;> rcases this with ⟨g1, g2, g3⟩ | ⟨g1, g2, g3, g4⟩ | ⟨g1, n, e, g2, g3, -⟩ <;> simp [*]
  obtain ⟨recv, hr⟩ := Option.ne_none_iff_exists'.1 hrp
  have hrun : ∀ k rest, run k (["-C".toList ++ (p ++ plus ['i' :: joinSlash [x, y]])] ++ rest) =
      if True then run (setC (p, .num x, .num y) k) rest else none := by
    intro k rest
    refine (run_C (t := p ++ plus ['i' :: joinSlash [x, y]]) (by simp [hp.1])).trans ?_
    rw [scanFault_size hp.1 hp.2 h1.1 h2.1, if_pos ⟨h1.2, h2.2⟩]; rfl
  have := run_line ha hx hr hrun {}
  rw [if_pos trivial, if_pos hal] at this
  refine ⟨line a _ recv, sete a.upar (setN a.zne (setRecv a (setDr a.deprcv (setC (p, .num x, .num y) (setO a.out (setG a.stgrn {})))))),
    command_line ha hs hr, ?_, rfl⟩
  unfold parse
  rw [this]
  rcases ha.receivers with ⟨g1, g2, g3⟩ | ⟨g1, g2, g3, g4⟩ | ⟨g1, n, e, g2, g3, -⟩ <;>
    simp [finish, sete, setN, setRecv, setDr, setC, setO, setG, *]

/-! ### Cases -/

/-- A call with finite faults in parts of 2 km by 1 km, on a grid. -/
def sample : Args where
  stgrn := "st.nc".toList
  out := "syn.nc".toList
  depsrc := none
  deprcv := some 0
  norths := some [-3, 4, 3]
  easts := some [0, 1, 1]
  points := none
  scale := none
  withMu := false
  strike := none
  dip := none
  rake := none
  force := none
  tensor := none
  fault := some "slip.inp".toList
  size := some [2, 1]
  zne := true
  upar := true

theorem sample_accepted (p : Text) (z : Option (ℚ × ℚ)) : Accepted { sample with fault := some p, size := z.map fun z => [z.1, z.2] } :=
  ⟨⟨.faults p z, rfl, rfl, rfl, rfl, ⟨rfl, rfl, rfl, rfl, rfl⟩, rfl⟩, by rintro y ⟨⟩; exact le_rfl, .inr (.inr ⟨rfl, _, _, rfl, rfl, rfl, rfl⟩)⟩

theorem sample_exact (p : Text) (z : Option (ℚ × ℚ)) : Exact { sample with fault := some p, size := z.map fun z => [z.1, z.2] } :=
  ⟨by simp [sample], by simp [sample], by rintro ⟨⟩, by rintro y ⟨⟩, by rintro y ⟨⟩; exact_mod_cast plain_int 0 (by norm_num), StaticGrn.sample_whole.1,
    StaticGrn.sample_whole.2⟩

theorem sample_ordered : Ordered sample.norths ∧ Ordered sample.easts := ⟨⟨by norm_num, by norm_num⟩, ⟨by norm_num, by norm_num⟩⟩

theorem small_two : Small 2 := by exact_mod_cast small_int 2 (by norm_num)
theorem small_one : Small 1 := by exact_mod_cast small_int 1 (by norm_num)

/-- The hypotheses of `C125_partial` for it, and the command line. -/
example : Accepted sample ∧ Exact sample ∧ Wants sample (.faults "slip.inp".toList (some (2, 1))) ∧ What.exact (.faults "slip.inp".toList (some (2, 1))) ∧
    Allowed sample (.faults "slip.inp".toList (some (2, 1))) ∧
    command sample = some ["-Gst.nc".toList, "-Osyn.nc".toList, "-Cslip.inp+i2/1".toList, "-Dr0".toList, "-X-3/4/3".toList, "-Y0/1/1".toList, "-N".toList,
      "-e".toList] := by
  refine ⟨sample_accepted "slip.inp".toList (some (2, 1)), sample_exact "slip.inp".toList (some (2, 1)), ⟨rfl, rfl, rfl, rfl, ⟨rfl, rfl, rfl, rfl, rfl⟩, rfl⟩,
    ⟨by decide, by decide, ?_⟩, ⟨?_, fun _ => sample_ordered⟩, by decide +kernel⟩
  · rintro s ⟨⟩; exact ⟨small_two, small_one⟩
  · rintro s ⟨⟩; exact ⟨by norm_num, by norm_num⟩

/-- A shear source at the points of a file. -/
def shear : Args where
  stgrn := "st.nc".toList
  out := "syn.nc".toList
  depsrc := some 2
  deprcv := none
  norths := none
  easts := none
  points := some "p.txt".toList
  scale := some 5
  withMu := true
  strike := some 30
  dip := some 90
  rake := some 0
  force := none
  tensor := none
  fault := none
  size := none
  zne := false
  upar := false

/-- What the program works with in that case. -/
example : ∃ argv, command shear = some argv ∧
    ∃ k, parse argv = some k ∧ k.kind = .DC ∧ k.mchn = [.num 30, .num 90, .num 0] ∧ k.Q = some "p.txt".toList ∧ k.Ds = some (.num 2) := by
  have i : ∀ (n : ℤ) (q : ℚ), q = n → |n| < 10 ^ 15 → Plain q := fun n q e h => by rw [e]; exact plain_int n h
  obtain ⟨argv, h1, h2, -⟩ := C125_partial shear
    ⟨⟨.point 5 (.shear 30 90 0), rfl, rfl, rfl, ⟨rfl, rfl, rfl, rfl, rfl⟩, by rintro y ⟨⟩; norm_num⟩, by rintro y ⟨⟩, .inr (.inl ⟨by simp [shear], rfl, rfl, rfl⟩)⟩
    ⟨by decide, by decide, by simp [shear], by rintro y ⟨⟩; exact i 2 _ (by norm_num) (by norm_num), by rintro y ⟨⟩, by rintro y ⟨⟩, by rintro y ⟨⟩⟩
    (w := .point 5 (.shear 30 90 0)) ⟨rfl, rfl, rfl, ⟨rfl, rfl, rfl, rfl, rfl⟩, by rintro y ⟨⟩; norm_num⟩
    ⟨i 5 _ (by norm_num) (by norm_num), by
      intro y hy
      simp only [Source.numbers, List.mem_cons, List.not_mem_nil, or_false] at hy
      rcases hy with rfl | rfl | rfl
      · exact i 30 _ (by norm_num) (by norm_num)
      · exact i 90 _ (by norm_num) (by norm_num)
      · exact i 0 _ (by norm_num) (by norm_num)⟩
  exact ⟨argv, h1, _, h2 ⟨by norm_num [What.allowed, Source.allowed], fun h => absurd rfl h⟩, rfl, rfl, rfl, rfl⟩

/-- Cases of the violations: `M7+.inp` is refused. -/
example : ∃ argv, command { sample with fault := some "M7+.inp".toList, size := none } = some argv ∧ parse argv = none :=
  C125_violated_refused _ (sample_accepted "M7+.inp".toList none) (sample_exact "M7+.inp".toList none) "M7".toList ".inp".toList (by decide) (by decide)
    (by decide) rfl rfl

/-- From `slip+i2/1` the file `slip` is read. -/
example : ∃ argv k, command { sample with fault := some "slip+i2/1".toList, size := none } = some argv ∧ parse argv = some k ∧
    k.C = some ("slip".toList, .num 2, .num 1) :=
  C125_violated_file _ (sample_accepted "slip+i2/1".toList none) (sample_exact "slip+i2/1".toList none) "slip".toList (by decide)
    ⟨small_two, by norm_num⟩ ⟨small_one, by norm_num⟩ (by decide +kernel) rfl fun _ => sample_ordered

end GRT.Python.StaticSyn
