import Verif.Python.Grn

/-!
`PyModel1D.compute_static_grn` (pygrt/pymod.py 393-556) and the options of `grt static greenfn` (pygrt/C_extension/src/static/grt_static_greenfn.c
279-570): from the arguments in Python to the values the program works with.

Left out: the files that both sides make, the checks that the program makes after the options are read, overflow in the coordinates of a grid, and memory
that cannot be had.  Paths are texts that are not empty.
-/

namespace GRT.Python.StaticGrn

open GRT.Num GRT.Files GRT.Points GRT.Python GRT.Python.Syn GRT.Python.Grn

/-- The arguments of `compute_static_grn`, pymod.py 393-413, with those of the constructor; `None` is `none`. -/
structure Args where
  model : Text
  stgrn : Text
  top : Bound
  bot : Bound
  depsrc : List ℚ
  deprcv : List ℚ
  dists : Option (List ℚ)
  norths : Option (List ℚ)
  easts : Option (List ℚ)
  keps : ℚ
  k0 : ℚ
  useRef : Bool
  length : ℚ
  filonLength : ℚ
  safilonTol : ℚ
  filonCut : ℚ
  method : Text
  upar : Bool
  stats : Bool

/-- `format_range`, pygrt/cli.py 76-92. -/
def formatRange (l : List ℚ) : Option Text := if l.length ≠ 3 then none else some (joinSlash l)

/-- The options of the places, pymod.py 493-506; `none` for an exception. -/
def places (dists norths easts : Option (List ℚ)) : Option (List Text) :=
  match dists with
  | some d =>
    if norths.isSome || easts.isSome then none
    else (normalize d).map fun d => ["-R".toList ++ joinComma d]
  | none =>
    match norths, easts with
    | some n, some e =>
      match formatRange n, formatRange e with
      | some x, some y => some ["-X".toList ++ x, "-Y".toList ++ y]
      | _, _ => none
    | _, _ => none

/-- `-L`, pymod.py 522-530. -/
def optL (a : Args) : Text :=
  "-L".toList ++ (formatFloat a.length ++ plus (part (a.filonLength ≠ 0) ('l' :: formatFloat a.filonLength) ++
    (part (a.safilonTol ≠ 0) ('a' :: formatFloat a.safilonTol) ++ part (a.filonCut ≠ 0) ('o' :: formatFloat a.filonCut))))

/-- `-K`, pymod.py 537-542. -/
def optK (a : Args) : Text :=
  "-K".toList ++ plus ([('k' :: formatFloat a.k0)] ++ (part a.useRef ['f'] ++ [('e' :: formatFloat a.keps)]))

/-- Whether several depths are given, pymod.py 491. -/
def multi (a : Args) : Bool := decide (1 < a.depsrc.length ∨ 1 < a.deprcv.length)

/-- The command line after `grt static greenfn`, pymod.py 508-556; `pl` are the options of the places and `conv` the letter of `-C`. -/
def line (a : Args) (pl : List Text) (conv : Text) : List Text :=
  ("-M".toList ++ a.model) :: (depths a.depsrc a.deprcv ++ (("-O".toList ++ a.stgrn) :: ("-B".toList ++ boundary a.top a.bot) :: (pl ++
  (optL a :: (part (conv ≠ []) ("-C".toList ++ conv) ++ (optK a :: (flag "-S" (a.stats && !multi a) ++ flag "-e" a.upar)))))))

/-- `compute_static_grn`, pymod.py 486-556: the command line, or `none` for an exception. -/
def command (a : Args) : Option (List Text) :=
  match normalize a.depsrc, normalize a.deprcv with
  | some s, some r =>
    match places a.dists a.norths a.easts, convergence a.method with
    | some pl, some conv => some (line { a with depsrc := s, deprcv := r } pl conv)
    | _, _ => none
  | _, _ => none

/-! ### The program -/

/-- The option table of grt_static_greenfn.c 288. -/
def arity (c : Char) : Option Arity :=
  if c ∈ "MDBLCKXYRO".toList then some .req else if c ∈ "Seh".toList then some .flag else none

/-- The part of `GRT_MODULE_CTRL` (grt_static_greenfn.c 18-92) that options set, with the values of grt_static_greenfn.c 281-284. -/
structure Ctrl where
  M : Option Text := none
  dBoth : Bool := false
  dSrc : Bool := false
  dRcv : Bool := false
  srcs : List Val := []
  rcvs : List Val := []
  top : Bound := .free
  bot : Bound := .half
  length : Val := .num 0
  kcut : Val := .num 0
  fim : Option Val := none
  safim : Option Val := none
  conv : Option Conv := none
  keps : Val := .num 0
  k0 : Val := .num 50
  useRef : Bool := false
  X : Option (List Val) := none
  Y : Option (List Val) := none
  O : Option Text := none
  S : Bool := false
  e : Bool := false
  deriving DecidableEq

/-- A part of `-L`, grt_static_greenfn.c 356-383. -/
def stepL (k : Ctrl) : Text → Option Ctrl
  | 'l' :: t => (scanReal t).map fun p => { k with fim := some p.1 }
  | 'a' :: t => (scanReal t).map fun p => { k with safim := some p.1 }
  | 'o' :: t => (scanReal t).map fun p => { k with kcut := p.1 }
  | _ => none

/-- A part of `-K`, grt_static_greenfn.c 422-448. -/
def stepK (k : Ctrl) : Text → Option Ctrl
  | 'k' :: t =>
    match scanReal t with
    | none => none
    | some (v, _) => if v.lt (.num 0) then none else some { k with k0 := v }
  | 'e' :: t => (scanReal t).map fun p => { k with keps := p.1 }
  | 'f' :: _ => some { k with useRef := true }
  | _ => none

/-- A letter of `-B`, grt_static_greenfn.c 328-338. -/
def stepB (k : Ctrl) (c : Char) : Option Ctrl :=
  if c = 'f' then some { k with top := .free }
  else if c = 'r' then some { k with top := .rigid }
  else if c = 'h' then some { k with top := .half }
  else if c = 'F' then some { k with bot := .free }
  else if c = 'R' then some { k with bot := .rigid }
  else if c = 'H' then some { k with bot := .half }
  else none

/-- Number of coordinates, grt_static_greenfn.c 470 and 493, in double precision; the conversion to `size_t` is undefined out of range. -/
def axisCount (a b d : ℚ) : Option ℕ :=
  let n := dbl (⌊dbl (dbl (b - a) / d)⌋ + 1)
  if 2 ^ 64 ≤ n then none else some ⌊n⌋.toNat

/-- The coordinates, grt_static_greenfn.c 470-474 and 493-497, in double precision. -/
def axis (a b d : ℚ) : Option (List ℚ) :=
  (axisCount a b d).map fun n => (List.range n).map fun i : ℕ => dbl (a + dbl (d * dbl i))

/-- `-X` and `-Y`, grt_static_greenfn.c 459-474 and 482-497; `none` for an error, and where infinite numbers or those that are none give an undefined number of
coordinates. -/
def scanAxis (t : Text) : Option (List Val) :=
  match scanSlash 3 t with
  | [.num a, .num b, .num d] => if d ≤ 0 then none else if b < a then none else (axis a b d).map (List.map .num)
  | _ => none

/-- One option, the loop body of grt_static_greenfn.c 288-531; `none` when the program ends, also after `-h`. -/
def step (file : List Char → Option (List Char)) (k : Ctrl) : Char × Option Text → Option Ctrl
  | ('M', some t) => some { k with M := some t }
  | ('D', some t) =>
    if t.head? = some 's' then
      match parseReals file t.tail with
      | .ok vs => some { k with dSrc := true, srcs := vs }
      | _ => none
    else if t.head? = some 'r' then
      match parseReals file t.tail with
      | .ok vs => some { k with dRcv := true, rcvs := vs }
      | _ => none
    else
      match scanSlash 2 t with
      | [a, b] => if a.lt (.num 0) || b.lt (.num 0) then none else some { k with dBoth := true, srcs := [a], rcvs := [b] }
      | _ => none
  | ('B', some t) => if t.length = 0 ∨ 2 < t.length then none else t.foldlM stepB k
  | ('L', some t) =>
    (if t.head? = some '+' then (split '+' t).foldlM stepL k
    else
      match scanReal t with
      | none => none
      | some (v, _) => (split '+' t).tail.foldlM stepL { k with length := v }).bind fun k =>
    if k.fim.isSome && k.safim.isSome then none else some k
  | ('C', some t) =>
    if t.head? = some 'p' then some { k with conv := some .ptam }
    else if t.head? = some 'd' then some { k with conv := some .dcm }
    else if t.head? = some 'n' then some { k with conv := some .refuse }
    else none
  | ('K', some t) => (split '+' t).foldlM stepK k
  | ('X', some t) => (scanAxis t).map fun vs => { k with X := some vs }
  | ('Y', some t) => (scanAxis t).map fun vs => { k with Y := some vs }
  | ('R', some t) =>
    match parseReals file t with
    | .ok vs => some { k with X := some [.num 0], Y := some vs }
    | _ => none
  | ('O', some t) => some { k with O := some t }
  | ('S', none) => some { k with S := true }
  | ('e', none) => some { k with e := true }
  | _ => none

/-- The checks after the loop, grt_static_greenfn.c 534-548. -/
def finish (k : Ctrl) : Option Ctrl :=
  if k.M.isNone || k.X.isNone || k.Y.isNone || k.O.isNone then none
  else if k.dBoth && (k.dSrc || k.dRcv) then none
  else if k.dSrc != k.dRcv then none
  else if !k.dBoth && !k.dSrc then none
  else some k

/-- All options, starting from `k`. -/
def run (file : List Char → Option (List Char)) (k : Ctrl) (argv : List Text) : Option Ctrl :=
  (getopt arity argv).bind fun os => (os.foldlM (step file) k).bind finish

/-- `getopt_from_command`, grt_static_greenfn.c 279-549: `none` when the program ends with a message. -/
def parse (file : List Char → Option (List Char)) (argv : List Text) : Option Ctrl := run file {} argv

end GRT.Python.StaticGrn
