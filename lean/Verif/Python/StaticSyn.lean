import Verif.Python.StaticGrn

/-!
`PyModel1D.compute_static_syn` (pygrt/pymod.py 724-935) and the options of `grt static syn` (pygrt/C_extension/src/static/grt_static_syn.c 311-589): from the
arguments in Python to the values the program works with.

Left out: the files both sides make and read (the file of the finite faults is only named here), the checks against the library of Green's functions, and
reading the result.  Paths are texts that are not empty.
-/

namespace GRT.Python.StaticSyn

open GRT.Num GRT.Files GRT.Points GRT.Python GRT.Python.Syn GRT.Python.Grn GRT.Python.StaticGrn

/-- The arguments of `compute_static_syn`, pymod.py 724-746, with `self.stgrn`; `None` is `none`. -/
structure Args where
  stgrn : Text
  out : Text
  depsrc : Option ℚ
  deprcv : Option ℚ
  norths : Option (List ℚ)
  easts : Option (List ℚ)
  points : Option Text
  scale : Option ℚ
  withMu : Bool
  strike : Option ℚ
  dip : Option ℚ
  rake : Option ℚ
  force : Option (List ℚ)
  tensor : Option (List ℚ)
  fault : Option Text
  size : Option (List ℚ)
  zne : Bool
  upar : Bool

/-- The options of the source, pymod.py 906-917; `none` for an exception. -/
def sourcePart (a : Args) : Option (List Text) :=
  match a.fault with
  | some p => some ["-C".toList ++ (p ++ plus (match a.size with | none => [] | some l => ['i' :: joinSlash l]))]
  | none =>
    match a.scale with
    | none => none
    | some x =>
      (sourceOptions a.strike a.dip a.rake a.force a.tensor).map fun src =>
        ("-S".toList ++ ((if a.withMu then ['u'] else []) ++ formatFloat x)) :: (src ++ optional "-Ds" formatFloat a.depsrc)

/-- The options of the receivers, pymod.py 919-925. -/
def recvPart (a : Args) : Option (List Text) :=
  match a.points with
  | some q => some ["-Q".toList ++ q]
  | none =>
    match a.norths, a.easts with
    | some n, some e =>
      match formatRange n, formatRange e with
      | some x, some y => some ["-X".toList ++ x, "-Y".toList ++ y]
      | _, _ => none
    | _, _ => some []

/-- The command line after `grt static syn`, pymod.py 899-930, from the options of the source and of the receivers. -/
def line (a : Args) (src recv : List Text) : List Text :=
  ("-G".toList ++ a.stgrn) :: ("-O".toList ++ a.out) :: (src ++ (optional "-Dr" formatFloat a.deprcv ++ (recv ++ (flag "-N" a.zne ++ flag "-e" a.upar))))

/-- `compute_static_syn`, pymod.py 866-932: the command line, or `none` for an exception. -/
def command (a : Args) : Option (List Text) :=
  let useFF := a.fault.isSome
  let useQ := a.points.isSome
  let useXY := a.norths.isSome || a.easts.isSome
  let geometry := a.strike.isSome || a.dip.isSome || a.rake.isSome
  if useFF && (a.scale.isSome || a.withMu || geometry || a.force.isSome || a.tensor.isSome) then none
  else if useQ && useXY then none
  else if useQ && a.deprcv.isSome then none
  else if useXY && (a.norths.isNone || a.easts.isNone) then none
  else if a.depsrc.any (· < 0) then none
  else if a.deprcv.any (· < 0) then none
  else if useFF && a.depsrc.isSome then none
  else if a.size.any fun l => !useFF || l.length != 2 then none
  else
    match sourcePart a, recvPart a with
    | some src, some recv => some (line a src recv)
    | _, _ => none

/-! ### The program -/

/-- The option table of grt_static_syn.c 317. -/
def arity (c : Char) : Option Arity :=
  if c ∈ "GOSMFTCXYDQ".toList then some .req else if c ∈ "Nesh".toList then some .flag else none

/-- The part of `GRT_MODULE_CTRL` (grt_static_syn.c 14-100) that options set; an option that is not active is `none`.  The finite faults are the path, and the
sizes of the parts (zero for the default). -/
structure Ctrl where
  G : Option Text := none
  O : Option Text := none
  Ds : Option Val := none
  Dr : Option Val := none
  mu : Bool := false
  S : Option Val := none
  kind : Syn.Kind := .EX
  mchn : List Val := []
  M : Bool := false
  F : Bool := false
  T : Bool := false
  C : Option (Text × Val × Val) := none
  X : Option (List Val) := none
  Y : Option (List Val) := none
  Q : Option Text := none
  N : Bool := false
  e : Bool := false
  s : Bool := false
  deriving DecidableEq

/-- `-C`, grt_static_syn.c 444-477: path and sizes. -/
def scanFault (t : Text) : Option (Text × Val × Val) :=
  match split '+' t with
  | [] => none
  | p :: [] => some (p, .num 0, .num 0)
  | p :: tok :: _ =>
    match tok with
    | 'i' :: r =>
      match scanSlash 2 r with
      | [x, y] => if notPos x then none else if notPos y then none else some (p, x, y)
      | _ => none
    | _ => none

/-- One option, the loop body of grt_static_syn.c 317-550; `none` when the program ends (also after `-h`).  A value of `-S` without any character but spaces is taken as an
error; the code goes on with zero. -/
def step (k : Ctrl) : Char × Option Text → Option Ctrl
  | ('G', some t) => some { k with G := some t }
  | ('D', some t) =>
    if t.head? = some 's' then
      match scanReal t.tail with
      | none => none
      | some (v, _) => if v.lt (.num 0) then none else some { k with Ds := some v }
    else if t.head? = some 'r' then
      match scanReal t.tail with
      | none => none
      | some (v, _) => if v.lt (.num 0) then none else some { k with Dr := some v }
    else none
  | ('O', some t) => some { k with O := some t }
  | ('S', some t) =>
    match scanReal (blankU t) with
    | none => none
    | some (v, _) => some { k with mu := k.mu || t.contains 'u', S := some v }
  | ('M', some t) =>
    match scanSlash 3 t with
    | [s, d] => if outside s 0 360 || outside d 0 90 then none else some { k with M := true, kind := .TS, mchn := [s, d, .num 0] }
    | [s, d, r] =>
      if outside s 0 360 || outside d 0 90 || outside r (-180) 180 then none else some { k with M := true, kind := .DC, mchn := [s, d, r] }
    | _ => none
  | ('F', some t) =>
    let vs := scanSlash 3 t
    if vs.length = 3 then some { k with F := true, kind := .SF, mchn := vs } else none
  | ('T', some t) =>
    let vs := scanSlash 6 t
    if vs.length = 6 then some { k with T := true, kind := .MT, mchn := vs } else none
  | ('C', some t) => (scanFault t).map fun f => { k with C := some f, kind := .DC }
  | ('X', some t) => (scanAxis t).map fun vs => { k with X := some vs }
  | ('Y', some t) => (scanAxis t).map fun vs => { k with Y := some vs }
  | ('Q', some t) => some { k with Q := some t }
  | ('N', none) => some { k with N := true }
  | ('e', none) => some { k with e := true }
  | ('s', none) => some { k with s := true }
  | _ => none

/-- The checks after the loop, grt_static_syn.c 553-585. -/
def finish (k : Ctrl) : Option Ctrl :=
  let point := k.S.isSome || k.M || k.F || k.T
  if point == k.C.isSome then none
  else if k.G.isNone || k.O.isNone then none
  else if point && k.S.isNone then none
  else if point && decide (1 < k.M.toNat + k.F.toNat + k.T.toNat) then none
  else if k.Q.isSome && (k.X.isSome || k.Y.isSome) then none
  else if k.X.isSome != k.Y.isSome then none
  else if k.Q.isSome && k.Dr.isSome then none
  else some k

/-- All options, starting from `k`. -/
def run (k : Ctrl) (argv : List Text) : Option Ctrl :=
  (getopt arity argv).bind fun os => (os.foldlM step k).bind finish

/-- `getopt_from_command`, grt_static_syn.c 311-589: `none` when the program ends with a message. -/
def parse (argv : List Text) : Option Ctrl := run {} argv

end GRT.Python.StaticSyn
