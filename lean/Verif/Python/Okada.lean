import Verif.Python.StaticGrn

/-!
`compute_okada` (pygrt/utils.py 129-285) and the options of `grt okada` (pygrt/C_extension/src/okada/grt_okada.c 207-346): from the arguments in Python to the
values the program works with.

Left out: the files both sides make and read (the file of the finite faults is only named here), the checks of the medium, memory that cannot be had, and
reading the result.  Paths are texts that are not empty and that `pathlib.Path` leaves as they are.
-/

namespace GRT.Python.Okada

open GRT.Num GRT.Files GRT.Points GRT.Python GRT.Python.Syn GRT.Python.Grn GRT.Python.StaticGrn

/-- The arguments of `compute_okada`, utils.py 129-148; `None` is `none`. -/
structure Args where
  params : List ℚ
  out : Text
  depsrc : Option ℚ
  deprcv : Option ℚ
  norths : Option (List ℚ)
  easts : Option (List ℚ)
  points : Option Text
  scale : Option ℚ
  withMu : Bool
  strike : Option ℚ
  dip : Option ℚ
  rake : Option ℚ
  fault : Option Text
  zne : Bool
  upar : Bool

/-- `has_geometry`, utils.py 221. -/
def geometry (a : Args) : Bool := a.strike.isSome || a.dip.isSome || a.rake.isSome

/-- `source_option`, utils.py 224-231: no option or one, or an exception. -/
def sourceOption (a : Args) : Option (List Text) :=
  if !geometry a then some []
  else
    match a.strike, a.dip with
    | some s, some d =>
      match a.rake with
      | some r => some ["-M".toList ++ joinSlash [s, d, r]]
      | none => some ["-M".toList ++ joinSlash [s, d]]
    | _, _ => none

/-- The options of the source, utils.py 251-264; `none` for an exception. -/
def sourcePart (a : Args) : Option (List Text) :=
  match a.fault with
  | some p => if a.scale.isSome || a.depsrc.isSome || geometry a || a.withMu then none else some ["-C".toList ++ p]
  | none =>
    match a.scale, a.depsrc with
    | some x, some d =>
      (sourceOption a).map fun src => ("-S".toList ++ ((if a.withMu then ['u'] else []) ++ formatFloat x)) :: ("-Ds".toList ++ formatFloat d) :: src
    | _, _ => none

/-- The options of the receivers, utils.py 266-275, after the checks of 233-244; `none` for an exception. -/
def recvPart (a : Args) : Option (List Text) :=
  match a.points with
  | some q => some ["-Q".toList ++ q]
  | none =>
    match a.deprcv, a.norths, a.easts with
    | some d, some n, some e =>
      match formatRange n, formatRange e with
      | some x, some y => some ["-Dr".toList ++ formatFloat d, "-X".toList ++ x, "-Y".toList ++ y]
      | _, _ => none
    | _, _, _ => none

/-- The command line after `grt okada`, utils.py 246-280, from the options of the source and of the receivers. -/
def line (a : Args) (src recv : List Text) : List Text :=
  ("-I".toList ++ joinSlash a.params) :: ("-O".toList ++ a.out) :: (src ++ (recv ++ (flag "-N" a.zne ++ flag "-e" a.upar)))

/-- `compute_okada`, utils.py 204-282: the command line, or `none` for an exception. -/
def command (a : Args) : Option (List Text) :=
  let useQ := a.points.isSome
  let useXY := a.norths.isSome || a.easts.isSome
  if a.params.length ≠ 3 then none
  else if useQ && useXY then none
  else if useXY && (a.norths.isNone || a.easts.isNone) then none
  else if !useQ && !useXY then none
  else if a.depsrc.any (· < 0) then none
  else if a.deprcv.any (· < 0) then none
  else if useQ && a.deprcv.isSome then none
  else
    match sourcePart a, recvPart a with
    | some src, some recv => some (line a src recv)
    | _, _ => none

/-! ### The program -/

/-- The option table of grt_okada.c 228. -/
def arity (c : Char) : Option Arity :=
  if c ∈ "IOSMCXYDQ".toList then some .req else if c ∈ "Nesh".toList then some .flag else none

/-- The part of `GRT_MODULE_CTRL` (grt_okada.c 15-73) that options set; an option that is not active is `none`, the finite faults are the path of their file. -/
structure Ctrl where
  I : Option (Val × Val × Val) := none
  O : Option Text := none
  mu : Bool := false
  S : Option Val := none
  M : Option (Val × Val × Option Val) := none
  C : Option Text := none
  X : Option (List Val) := none
  Y : Option (List Val) := none
  Q : Option Text := none
  Ds : Option Val := none
  Dr : Option Val := none
  N : Bool := false
  e : Bool := false
  s : Bool := false
  deriving DecidableEq

/-- `-I`, grt_okada.c 231-238: three numbers and nothing after them. -/
def scanMedium (t : Text) : Option (Val × Val × Val) :=
  match scanReal t with
  | some (x, '/' :: r) =>
    match scanReal r with
    | some (y, '/' :: r) =>
      match scanReal r with
      | some (z, []) => some (x, y, z)
      | _ => none
    | _ => none
  | _ => none

/-- The coordinates of `parse_axis`, grt_okada.c 213-216, in double precision; the conversion to `size_t` is undefined out of range, the addition after it wraps
around. -/
def axis (a b d : ℚ) : Option (List ℚ) :=
  let n := ⌊dbl (dbl (b - a) / d)⌋
  if 2 ^ 64 ≤ n then none else some ((List.range ((n.toNat + 1) % 2 ^ 64)).map fun i : ℕ => dbl (a + dbl (dbl i * d)))

/-- `parse_axis`, grt_okada.c 207-217; `none` for an error, and where infinite numbers or those that are none give an undefined number of coordinates. -/
def scanAxis (t : Text) : Option (List Val) :=
  match scanSlash 3 t with
  | [.num a, .num b, .num d] => if d ≤ 0 || b < a then none else (axis a b d).map (List.map .num)
  | _ => none

/-- One option, the loop body of grt_okada.c 228-321; `none` when the program ends (also after `-h`). -/
def step (k : Ctrl) : Char × Option Text → Option Ctrl
  | ('I', some t) => (scanMedium t).map fun i => { k with I := some i }
  | ('O', some t) => some { k with O := some t }
  | ('S', some t) =>
    let u := decide (t.head? = some 'u')
    match scanReal (if u then t.tail else t) with
    | none => none
    | some (v, _) => some { k with mu := k.mu || u, S := some v }
  | ('M', some t) =>
    match scanSlash 3 t with
    | [s, d] => if outside s 0 360 then none else if outside d 0 90 then none else some { k with M := some (s, d, none) }
    | [s, d, r] =>
      if outside s 0 360 then none else if outside d 0 90 then none else if outside r (-180) 180 then none else some { k with M := some (s, d, some r) }
    | _ => none
  | ('C', some t) => if t.contains '+' then none else some { k with C := some t }
  | ('X', some t) => (scanAxis t).map fun vs => { k with X := some vs }
  | ('Y', some t) => (scanAxis t).map fun vs => { k with Y := some vs }
  | ('Q', some t) => some { k with Q := some t }
  | ('D', some t) =>
    if t.head? = some 's' then
      match scanReal t.tail with
      | none => none
      | some (v, _) => if v.lt (.num 0) then none else some { k with Ds := some v }
    else if t.head? = some 'r' then
      match scanReal t.tail with
      | none => none
      | some (v, _) => if v.lt (.num 0) then none else some { k with Dr := some v }
    else none
  | ('N', none) => some { k with N := true }
  | ('e', none) => some { k with e := true }
  | ('s', none) => some { k with s := true }
  | _ => none

/-- The checks after the loop, grt_okada.c 323-345. -/
def finish (k : Ctrl) : Option Ctrl :=
  let point := k.S.isSome || k.M.isSome
  if k.I.isNone then none
  else if k.O.isNone then none
  else if k.X.isSome != k.Y.isSome then none
  else if k.Q.isSome && (k.X.isSome || k.Y.isSome || k.Dr.isSome) then none
  else if point == k.C.isSome then none
  else if point && k.S.isNone then none
  else if point && k.Ds.isNone then none
  else if !point && k.Ds.isSome then none
  else if k.Q.isNone && (k.X.isNone || k.Y.isNone || k.Dr.isNone) then none
  else some k

/-- All options, starting from `k`. -/
def run (k : Ctrl) (argv : List Text) : Option Ctrl :=
  (getopt arity argv).bind fun os => (os.foldlM step k).bind finish

/-- `parse_command`, grt_okada.c 225-346: `none` when the program ends with a message. -/
def parse (argv : List Text) : Option Ctrl := run {} argv

end GRT.Python.Okada
