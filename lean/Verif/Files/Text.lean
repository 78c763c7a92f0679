import Verif.Num.Round

/-!
Text helpers of pygrt/C_extension/src/common/util.c, and the parts of the C library they rest on (`strtod`, `strtok`,
`sscanf`), on lists of characters.  Hexadecimal floating constants are not modelled.
-/

namespace GRT.Files

open GRT.Num

/-- `isspace` in the C locale. -/
def isSpace (c : Char) : Bool := c == ' ' || c == '\t' || c == '\n' || c == '\x0b' || c == '\x0c' || c == '\r'
/-- `isdigit`. -/
def isDig (c : Char) : Bool := decide ('0' ≤ c ∧ c ≤ '9')
def digVal (c : Char) : ℕ := c.toNat - '0'.toNat
/-- Value of a run of digits. -/
def digits (cs : List Char) : ℕ := cs.foldl (fun n c => 10 * n + digVal c) 0

/-- Result of a conversion before rounding: not a number, infinite, or an exact decimal value. -/
inductive Lit where
  | nan
  | inf
  | fin (q : ℚ)
  deriving DecidableEq, Repr

/-- Optional sign. -/
def sign : List Char → Bool × List Char
  | '+' :: t => (false, t)
  | '-' :: t => (true, t)
  | cs => (false, cs)

/-- Optional exponent of `strtod`: an `e` without digits is left unread. -/
def expo : List Char → ℤ × List Char
  | c :: t =>
    if c = 'e' ∨ c = 'E' then
      let s := sign t
      let ds := s.2.takeWhile isDig
      if ds = [] then (0, c :: t) else ((if s.1 then -(digits ds : ℤ) else digits ds), s.2.dropWhile isDig)
    else (0, c :: t)
  | [] => (0, [])

/-- Optional fraction. -/
def frac : List Char → List Char × List Char
  | '.' :: t => (t.takeWhile isDig, t.dropWhile isDig)
  | cs => ([], cs)

/-- Unsigned decimal number at the start of the text. -/
def decimal (cs : List Char) : Option (ℚ × List Char) :=
  let ip := cs.takeWhile isDig
  let f := frac (cs.dropWhile isDig)
  if ip = [] ∧ f.1 = [] then none
  else
    let e := expo f.2
    some ((digits (ip ++ f.1) : ℚ) * (10 : ℚ) ^ (e.1 - (f.1.length : ℤ)), e.2)

/-- `inf`, `infinity`, `nan` in any case (the form `nan(...)` is not modelled). -/
def special (cs : List Char) : Option (Lit × List Char) :=
  let low := cs.map Char.toLower
  if low.take 8 = "infinity".toList then some (.inf, cs.drop 8)
  else if low.take 3 = "inf".toList then some (.inf, cs.drop 3)
  else if low.take 3 = "nan".toList then some (.nan, cs.drop 3)
  else none

/-- `strtod`: sign, value and unread text, or no conversion. -/
def strtod (cs : List Char) : Option (Bool × Lit × List Char) :=
  let s := sign (cs.dropWhile isSpace)
  match decimal s.2 with
  | some (q, r) => some (s.1, .fin (if s.1 then -q else q), r)
  | none =>
    match special s.2 with
    | some (l, r) => some (s.1, l, r)
    | none => none

/-- A `double`. -/
inductive Val where
  | nan
  | inf (neg : Bool)
  | num (q : ℚ)
  deriving DecidableEq, Repr

/-- Rounding of a converted value; overflow gives infinity (underflow is not modelled). -/
def Lit.val (neg : Bool) : Lit → Val
  | .nan => .nan
  | .inf => .inf neg
  | .fin q => if (2 : ℚ) ^ 1024 ≤ |dbl q| then .inf neg else .num (dbl q)

/-- `atof`. -/
def atof (cs : List Char) : Val :=
  match strtod cs with
  | some (n, l, _) => l.val n
  | none => .num 0

/-- `a < b`. -/
def Val.lt : Val → Val → Bool
  | .nan, _ => false
  | _, .nan => false
  | .inf a, .inf b => a && !b
  | .inf a, .num _ => a
  | .num _, .inf b => !b
  | .num a, .num b => decide (a < b)

/-- `strtok` with the delimiters `d`, run to the end: `cur` is the token being read, reversed. -/
def tokens (d : Char → Bool) : List Char → List Char → List (List Char)
  | cur, [] => if cur = [] then [] else [cur.reverse]
  | cur, c :: t => if d c then (if cur = [] then tokens d [] t else cur.reverse :: tokens d [] t) else tokens d (c :: cur) t

/-- `grt_string_split`, util.c 21-41. -/
def split (d : Char) (cs : List Char) : List (List Char) := tokens (· == d) [] cs

/-- `grt_string_composed_of`, util.c 120-139. -/
def composedOf (alws cs : List Char) : Bool := cs.all fun c => alws.contains c

/-- `sscanf(s, "%lf")`: as `strtod`, but a number followed by a dangling exponent is no match. -/
def scanReal (cs : List Char) : Option (Val × List Char) :=
  match strtod cs with
  | some (n, .fin q, r) => if r.head? = some 'e' ∨ r.head? = some 'E' then none else some ((Lit.fin q).val n, r)
  | some (n, l, r) => some (l.val n, r)
  | none => none

/-- `3 == sscanf(s, "%lf/%lf/%lf", …)`. -/
def scan3 (cs : List Char) : Option (Val × Val × Val) :=
  match scanReal cs with
  | some (a, '/' :: r) =>
    match scanReal r with
    | some (b, '/' :: r) =>
      match scanReal r with
      | some (c, _) => some (a, b, c)
      | none => none
    | _ => none
  | _ => none

/-- Lines of a file without line ends (`grt_getline`, util.c 386-439, and `grt_string_from_file`, util.c 43-63): split at `\n`, the
last line only if not empty, one `\r` before the end of a line removed. -/
def lines (cs : List Char) : List (List Char) :=
  let rec go : List Char → List Char → List (List Char)
    | cur, [] => if cur = [] then [] else [fin cur]
    | cur, c :: t => if c = '\n' then fin cur :: go [] t else go (c :: cur) t
  go [] cs
where
  /-- A reversed line without the carriage return. -/
  fin : List Char → List Char
    | '\r' :: t => t.reverse
    | l => l.reverse

end GRT.Files
