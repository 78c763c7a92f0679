import Verif.Python.Syn

/-!
`PyModel1D.compute_grn` (pygrt/pymod.py 202-391) and the options of `grt greenfn` (pygrt/C_extension/src/dynamic/grt_greenfn.c 408-803): from the
arguments in Python to the values the program works with.

Left out: the files and directories that both sides make, and the checks that `grt greenfn` makes after the options are read (the model, zero
distances with Filon's method, the range of the frequency indexes).  Paths are texts that are not empty.  Names are upper-cased letter by letter, which is
Python's `upper` for ASCII.
-/

namespace GRT.Python.Grn

open GRT.Num GRT.Files GRT.Points GRT.Python GRT.Python.Syn

/-- The boundary conditions, pymod.py 107-110; `GRT_BOUND_TYPE`. -/
inductive Bound where
  | free | rigid | half
  deriving DecidableEq, Repr

/-- The explicit methods of convergence, `K_INTEG_CONVERG_METHOD`. -/
inductive Conv where
  | dcm | ptam | refuse
  deriving DecidableEq, Repr

/-- The arguments of `compute_grn`, pymod.py 202-231, with those of the constructor; `None` is `none`. -/
structure Args where
  model : Text
  grn : Text
  top : Bound
  bot : Bound
  depsrc : List ℚ
  deprcv : List ℚ
  dists : List ℚ
  nt : ℤ
  dt : ℚ
  upsample : ℤ
  f1 : ℚ
  f2 : ℚ
  zeta : ℚ
  keepAll : Bool
  vmin : ℚ
  keps : ℚ
  ampk : ℚ
  k0 : ℚ
  useRef : Bool
  length : ℚ
  filonLength : ℚ
  safilonTol : ℚ
  filonCut : ℚ
  method : Text
  t0 : ℚ
  v0 : ℚ
  firstP : Bool
  skipImag : Bool
  upar : Bool
  gf : Option (List Text)
  stats : Option (List ℤ)
  log : Bool

/-- The parts of an option, each after a plus sign. -/
def plus (ps : List Text) : Text := ps.flatMap ('+' :: ·)

/-- A part that may be missing. -/
def part (b : Bool) (t : Text) : List Text := if b then [t] else []

/-- `_boundary_option`, pymod.py 938-947. -/
def boundary (top bot : Bound) : Text :=
  (match top with | .free => 'f' | .rigid => 'r' | .half => 'h') :: [match bot with | .free => 'F' | .rigid => 'R' | .half => 'H']

/-- `str.upper`. -/
def upper (t : Text) : Text := t.map Char.toUpper

/-- `_convergence_option`, pymod.py 950-955. -/
def convergence (t : Text) : Option Text :=
  if upper t = "AUTO".toList then some []
  else if upper t = "DCM".toList then some ['d']
  else if upper t = "PTAM".toList then some ['p']
  else if upper t = "NONE".toList then some ['n']
  else none

/-- The letter of a source, pymod.py 372-378. -/
def code (t : Text) : Option Char :=
  if upper t = "EX".toList then some 'e'
  else if upper t = "VF".toList then some 'v'
  else if upper t = "HF".toList then some 'h'
  else if upper t = "DC".toList then some 's'
  else none

/-- `",".join(str(index) …)`, pymod.py 383. -/
def joinInts : List ℤ → Text
  | [] => []
  | [n] => intText n
  | n :: m :: ns => intText n ++ ',' :: joinInts (m :: ns)

/-- The depths, pymod.py 314-323. -/
def depths (src rcv : List ℚ) : List Text :=
  if 1 < src.length ∨ 1 < rcv.length then ["-Ds".toList ++ joinComma src, "-Dr".toList ++ joinComma rcv]
  else ["-D".toList ++ joinSlash (src.take 1 ++ rcv.take 1)]

/-- `-N`, pymod.py 325 and 331-335. -/
def optN (a : Args) : Text :=
  "-N".toList ++ ((intText a.nt ++ '/' :: formatFloat a.dt) ++
    plus ([('w' :: formatFloat a.zeta), ('n' :: intText a.upsample)] ++ (part a.keepAll ['a'] ++ part a.skipImag ['f'])))

/-- `-L`, pymod.py 340-348. -/
def optL (a : Args) : Text :=
  "-L".toList ++ (formatFloat a.length ++ plus (part (a.filonLength ≠ 0) ('l' :: formatFloat a.filonLength) ++
    (part (a.safilonTol ≠ 0) ('a' :: formatFloat a.safilonTol) ++ part (a.filonCut ≠ 0) ('o' :: formatFloat a.filonCut))))

/-- `-K`, pymod.py 355-362. -/
def optK (a : Args) : Text :=
  "-K".toList ++ plus ([('k' :: formatFloat a.k0)] ++ (part a.useRef ['f'] ++ ([('s' :: formatFloat a.ampk), ('e' :: formatFloat a.keps)] ++
    part (a.vmin ≠ 0) ('v' :: formatFloat a.vmin))))

/-- `-E`, pymod.py 364-368. -/
def optE (a : Args) : Text :=
  "-E".toList ++ (if a.firstP then 'p' :: formatFloat a.t0 else joinSlash [a.t0, a.v0])

/-- The command line after `grt greenfn`, pymod.py 315-391; `conv` and `codes` are the letters of `-C` and `-G`. -/
def line (a : Args) (conv : Text) (codes : Option Text) : List Text :=
  ("-M".toList ++ a.model) :: (depths a.depsrc a.deprcv ++
  (optN a :: ("-R".toList ++ joinComma a.dists) :: ("-O".toList ++ a.grn) :: ("-B".toList ++ boundary a.top a.bot) ::
  ("-H".toList ++ joinSlash [a.f1, a.f2]) :: optL a :: (part (conv ≠ []) ("-C".toList ++ conv) ++
  (optK a :: optE a :: (optional "-G" id codes ++ (optional "-S" joinInts a.stats ++ (flag "-e" a.upar ++ flag "-s" !a.log)))))))

/-- The letters of the sources; `none` for an exception, pymod.py 370-379. -/
def codesOf : Option (List Text) → Option (Option Text)
  | none => some none
  | some names => (names.mapM code).map some

/-- `compute_grn`, pymod.py 299-391: the command line, or `none` for an exception. -/
def command (a : Args) : Option (List Text) :=
  if a.nt ≤ 0 ∨ a.dt ≤ 0 then none
  else
    match normalize a.depsrc, normalize a.deprcv, normalize a.dists with
    | some s, some r, some d =>
      match convergence a.method, codesOf a.gf with
      | some conv, some codes => some (line { a with depsrc := s, deprcv := r, dists := d } conv codes)
      | _, _ => none
    | _, _, _ => none

/-! ### The program -/

/-- The option table of grt_greenfn.c 425. -/
def arity (c : Char) : Option Arity :=
  if c ∈ "MDBNOHLCEKRPG".toList then some .req else if c = 'S' then some .opt else if c ∈ "esh".toList then some .flag else none

/-- The part of `GRT_MODULE_CTRL` (grt_greenfn.c 32-150) that options set, with the values of grt_greenfn.c 410-422. -/
structure Ctrl where
  M : Option Text := none
  dBoth : Bool := false
  dSrc : Bool := false
  dRcv : Bool := false
  srcs : List Val := []
  rcvs : List Val := []
  top : Bound := .free
  bot : Bound := .half
  N : Bool := false
  nt : ℕ := 0
  dt : Val := .num 0
  zeta : Val := .num (dbl (8 / 10))
  upsample : ℕ := 1
  keepAll : Bool := false
  skipImag : Bool := false
  O : Option Text := none
  f1 : Val := .num (-1)
  f2 : Val := .num (-1)
  length : Val := .num 0
  kcut : Val := .num 0
  fim : Option Val := none
  safim : Option Val := none
  conv : Option Conv := none
  keps : Val := .num 0
  ampk : Val := .num 2
  k0 : Val := .num 50
  vmin : Val := .num 0
  useRef : Bool := false
  t0 : Val := .num 0
  v0 : Val := .num 0
  firstP : Bool := false
  stats : Option (Option (List ℤ)) := none
  R : Option (List Val) := none
  threads : Option ℤ := none
  ex : Bool := true
  vf : Bool := true
  hf : Bool := true
  dc : Bool := true
  e : Bool := false
  s : Bool := false
  deriving DecidableEq

/-- `%zu`, for texts of less than 2^64: a minus sign is accepted and the number is taken modulo 2^64. -/
def scanSize (cs : Text) : Option (ℕ × Text) := (scanInt cs).map fun p => ((p.1 % 2 ^ 64).toNat, p.2)

/-- `atoi`, for texts in the range of `int`. -/
def atoi (cs : Text) : ℤ := ((scanInt cs).map Prod.fst).getD 0

/-- `v <= 0`. -/
def notPos (v : Val) : Bool := v.lt (.num 0) || v == .num 0

/-- A part of `-N`, grt_greenfn.c 495-527. -/
def stepN (k : Ctrl) : Text → Option Ctrl
  | 'n' :: t =>
    match scanSize t with
    | none => none
    | some (n, _) => if n = 0 then none else some { k with upsample := n }
  | 'w' :: t =>
    match scanReal t with
    | none => none
    | some (v, _) => if notPos v then none else some { k with zeta := v }
  | 'a' :: _ => some { k with keepAll := true }
  | 'f' :: _ => some { k with skipImag := true }
  | _ => none

/-- A part of `-L`, grt_greenfn.c 567-594. -/
def stepL (k : Ctrl) : Text → Option Ctrl
  | 'l' :: t => (scanReal t).map fun p => { k with fim := some p.1 }
  | 'a' :: t => (scanReal t).map fun p => { k with safim := some p.1 }
  | 'o' :: t => (scanReal t).map fun p => { k with kcut := p.1 }
  | _ => none

/-- A part of `-K`, grt_greenfn.c 654-696. -/
def stepK (k : Ctrl) : Text → Option Ctrl
  | 'k' :: t =>
    match scanReal t with
    | none => none
    | some (v, _) => if v.lt (.num 0) then none else some { k with k0 := v }
  | 's' :: t =>
    match scanReal t with
    | none => none
    | some (v, _) => if v.lt (.num 0) then none else some { k with ampk := v }
  | 'e' :: t => (scanReal t).map fun p => { k with keps := p.1 }
  | 'v' :: t =>
    match scanReal t with
    | none => none
    | some (v, _) => if notPos v then none else some { k with vmin := v }
  | 'f' :: _ => some { k with useRef := true }
  | _ => none

/-- A letter of `-B`, grt_greenfn.c 467-476. -/
def stepB (k : Ctrl) (c : Char) : Option Ctrl :=
  if c = 'f' then some { k with top := .free }
  else if c = 'r' then some { k with top := .rigid }
  else if c = 'h' then some { k with top := .half }
  else if c = 'F' then some { k with bot := .free }
  else if c = 'R' then some { k with bot := .rigid }
  else if c = 'H' then some { k with bot := .half }
  else none

/-- A letter of `-G`, grt_greenfn.c 734-752. -/
def stepG (k : Ctrl) (c : Char) : Option Ctrl :=
  if c = 'e' then some { k with ex := true }
  else if c = 'v' then some { k with vf := true }
  else if c = 'h' then some { k with hf := true }
  else if c = 's' then some { k with dc := true }
  else none

/-- One option, the loop body of grt_greenfn.c 425-785; `none` when the program ends, also after `-h` and where `strtok` finds nothing in the value of
`-N` (undefined).  An empty value of `-E` (`-E ""`) is taken as an error; the code goes on with zero. -/
def step (file : List Char → Option (List Char)) (k : Ctrl) : Char × Option Text → Option Ctrl
  | ('M', some t) => some { k with M := some t }
  | ('D', some t) =>
    if t.head? = some 's' then
      match parseReals file t.tail with
      | .ok vs => some { k with dSrc := true, srcs := vs }
      | _ => none
    else if t.head? = some 'r' ∧ t.tail.head? ≠ some '/' then
      match parseReals file t.tail with
      | .ok vs => some { k with dRcv := true, rcvs := vs }
      | _ => none
    else
      match scanSlash 2 t with
      | [a, b] => if a.lt (.num 0) || b.lt (.num 0) then none else some { k with dBoth := true, srcs := [a], rcvs := [b] }
      | _ => none
  | ('B', some t) => if t.length = 0 ∨ 2 < t.length then none else t.foldlM stepB k
  | ('N', some t) =>
    match split '+' t with
    | [] => none
    | hd :: tl =>
      match scanSize hd with
      | some (n, '/' :: r) =>
        match scanReal r with
        | some (v, _) => if n = 0 ∨ notPos v then none else tl.foldlM stepN { k with N := true, nt := n, dt := v }
        | none => none
      | _ => none
  | ('O', some t) => some { k with O := some t }
  | ('H', some t) =>
    match scanSlash 2 t with
    | [a, b] => if (Val.num 0).lt a && (Val.num 0).lt b && b.lt a then none else some { k with f1 := a, f2 := b }
    | _ => none
  | ('L', some t) =>
    (if t.head? = some '+' then (split '+' t).foldlM stepL k
    else
      match scanReal t with
      | none => none
      | some (v, _) => (split '+' t).tail.foldlM stepL { k with length := v }).bind fun k =>
    if k.fim.isSome && k.safim.isSome then none else some k
  | ('C', some t) =>
    if t.head? = some 'p' then some { k with conv := some .ptam }
    else if t.head? = some 'd' then some { k with conv := some .dcm }
    else if t.head? = some 'n' then some { k with conv := some .refuse }
    else none
  | ('E', some t) =>
    if t.head? = some 'p' then
      match scanReal t.tail with
      | none => none
      | some (v, _) => if v.lt (.num 0) || v == .nan then some { k with firstP := true, t0 := v } else none
    else
      match scanSlash 2 t with
      | [a] => if k.v0.lt (.num 0) then none else some { k with t0 := a }
      | [a, b] => if b.lt (.num 0) then none else some { k with t0 := a, v0 := b }
      | _ => none
  | ('K', some t) => (split '+' t).foldlM stepK k
  | ('R', some t) =>
    match parseReals file t with
    | .ok vs => some { k with R := some vs }
    | _ => none
  | ('P', some t) =>
    match scanInt t with
    | none => none
    | some (n, _) => if n ≤ 0 then none else some { k with threads := some n }
  | ('G', some t) =>
    (t.foldlM stepG { k with ex := false, vf := false, hf := false, dc := false }).bind fun k =>
    if k.ex || k.vf || k.hf || k.dc then some k else none
  | ('S', none) => some { k with stats := some none }
  | ('S', some t) =>
    let ns := (split ',' t).map atoi
    if ns.any (· < 0) then none else some { k with stats := some (some ns) }
  | ('e', none) => some { k with e := true }
  | ('s', none) => some { k with s := true }
  | _ => none

/-- The checks after the loop, grt_greenfn.c 787-803. -/
def finish (k : Ctrl) : Option Ctrl :=
  if k.M.isNone || !k.N || k.R.isNone || k.O.isNone then none
  else if k.dBoth && (k.dSrc || k.dRcv) then none
  else if k.dSrc != k.dRcv then none
  else if !k.dBoth && !k.dSrc && !k.dRcv then none
  else some k

/-- All options, starting from `k`. -/
def run (file : List Char → Option (List Char)) (k : Ctrl) (argv : List Text) : Option Ctrl :=
  (getopt arity argv).bind fun os => (os.foldlM (step file) k).bind finish

/-- `getopt_from_command`, grt_greenfn.c 408-803: `none` when the program ends with a message. -/
def parse (file : List Char → Option (List Char)) (argv : List Text) : Option Ctrl := run file {} argv

end GRT.Python.Grn
