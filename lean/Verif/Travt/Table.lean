import Verif.Files.Range
import Verif.Travt.File

/-!
Model of the program `grt travt` (pygrt/C_extension/src/tools/grt_travt.c): the distances of `-R` in double precision, from the text of the
option, and the table that is printed.

The travel times are those of the exact model in `Verif.Travt.Model`; their rounding to three decimals (`%-15.3f`, line 238) is left out.
Left out as well: the parsing of `-D` (the two depths are given), the padding of the columns, and memory that cannot be had.
-/

namespace GRT.Travt

open GRT.Num GRT.Files GRT.Model1D

/-- An entry of `s_rs`: a text as it was given, or the number `m / 10^p` printed with `p` decimals (`%.*f`, line 177). -/
inductive Shown where
  | text (t : List Char)
  | dec (p : ℕ) (m : ℤ)
  deriving DecidableEq, Repr

/-- `atof` of an entry, line 190. -/
def Shown.val : Shown → Val
  | .text t => atof t
  | .dec p m => .num (dbl ((m : ℚ) / 10 ^ p))

/-- Truncation towards zero. -/
def trunc (x : ℚ) : ℤ := if 0 ≤ x then ⌊x⌋ else ⌈x⌉

/-- `(int)x`, line 163: undefined out of range. -/
def toInt (x : ℚ) : Option ℤ := if -(2 : ℤ) ^ 31 ≤ trunc x ∧ trunc x < 2 ^ 31 then some (trunc x) else none

/-- Lines 163-168 for one of the three numbers: `some true` if the part after the point is at most `1e-8`. -/
def whole (x : ℚ) : Option Bool := (toInt x).map fun z : ℤ => decide (|dbl (x - z)| ≤ dbl (1 / 10 ^ 8))

/-- `test[i] *= 10.0`, line 164. -/
def times10 (x : ℚ) : ℚ := dbl (x * 10)

/-- The loop of lines 160-172 with `fuel` rounds left before `place` is 8; `none` for undefined behaviour. -/
def placeLoop : ℕ → ℕ → ℚ × ℚ × ℚ → Option ℕ
  | 0, p, _ => some p
  | fuel + 1, p, (x, y, z) =>
    match whole x, whole y, whole z with
    | some a, some b, some c => if a && b && c then some p else placeLoop fuel (p + 1) (times10 x, times10 y, times10 z)
    | _, _, _ => none

/-- Number of decimals, lines 155-172. -/
def place (a1 a2 d : ℚ) : Option ℕ := placeLoop 8 0 (a1, a2, d)

/-- `nr`, line 174: the sum is a `double`, its conversion to `size_t` is undefined out of range. -/
def rowCount (a1 a2 d : ℚ) : Option ℕ :=
  let n := dbl (⌊dbl (dbl (a2 - a1) / d)⌋ + 1)
  if 2 ^ 64 ≤ n then none else some ⌊n⌋.toNat

/-- The entry `ir` of a range, line 177. -/
def entry (p : ℕ) (a1 d : ℚ) (i : ℕ) : Shown := .dec p (rint (dbl (a1 + dbl (d * dbl i)) * 10 ^ p))

/-- `<r1>/<r2>/<dr>`, lines 146-179.  Infinite numbers and those that are not numbers reach the conversion in line 163. -/
def spread (a1 a2 d : Val) : Res (List Shown) :=
  if d.lt (.num 0) || d == .num 0 then .err
  else if a2.lt a1 then .err
  else
    match a1, a2, d with
    | .num a1, .num a2, .num d =>
      match place a1 a2 d with
      | none => .undef
      | some p =>
        match rowCount a1 a2 d with
        | none => .undef
        | some n => .ok ((List.range n).map (entry p a1 d))
    | _, _, _ => .undef

/-- `s_rs`, lines 141-185. -/
def entries (file : List Char → Option (List Char)) (arg : List Char) : Res (List Shown) :=
  if composedOf listChars arg then .ok ((split ',' arg).map .text)
  else
    match scan3 arg with
    | some (a1, a2, d) => spread a1 a2 d
    | none =>
      match file arg with
      | none => .err
      | some t => .ok ((lines t).map .text)

/-- `-R`, lines 136-201.  An empty list is accepted. -/
def parseR (file : List Char → Option (List Char)) (arg : List Char) : Res (List Shown) :=
  match entries file arg with
  | .ok l => if checked (l.map Shown.val) then .ok l else .err
  | r => r

/-- A row of the table: the distance as shown, and the two times; no times are modelled for a distance that is infinite or not a number. -/
structure Row where
  shown : Shown
  times : Option (ℝ × ℝ)

/-- The loop body of `travt_main`, lines 233-238, for the model `m`. -/
noncomputable def row (m : Mod1d ℝ) (s : Shown) : Row where
  shown := s
  times := match s.val with
    | .num q => some (travt1d (thkOf m.lays) (velOf (·.va) m.lays) m.lays.length m.isrc m.ircv q,
        travt1d (thkOf m.lays) (velOf (·.vb) m.lays) m.lays.length m.isrc m.ircv q)
    | _ => none

/-- `travt_main`, lines 218-244: depths `zs`, `zr` (negative ones are refused, line 130), the model file `arr`, and the text after `-R`. -/
noncomputable def table (file : List Char → Option (List Char)) (arr : List (FLay ℝ)) (zs zr : ℝ) (arg : List Char) : Res (List Row) :=
  if zs < 0 ∨ zr < 0 then .err
  else
    match parseR file arg with
    | .err => .err
    | .undef => .undef
    | .ok l =>
      match readMod1d arr zs zr with
      | .error _ => .err
      | .ok m => .ok (l.map (row m))

end GRT.Travt
