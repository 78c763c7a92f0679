import Verif.Python.Getopt

/-!
`PyModel1D.compute_syn` (pygrt/pymod.py 558-722) and the options of `grt syn` (pygrt/C_extension/src/dynamic/grt_syn.c 279-501): from the arguments in
Python to the values the program works with.

Left out: the directories that both sides make and look into (`GRTCheckDirExist` is the parameter `dir`), the choice of a subdirectory
(Files/Select.lean), the check of a time function (parameter `tf`), the header of a Green's function (grt_syn.c 505-552), and reading the result.
Paths are texts that are not empty.
-/

namespace GRT.Python.Syn

open GRT.Num GRT.Files GRT.Points GRT.Python

/-- The arguments of `compute_syn`, pymod.py 558-580, with `self.grn`; `None` is `none`. -/
structure Args where
  grn : Text
  out : Text
  azimuth : ℚ
  scale : ℚ
  withMu : Bool
  depsrc : Option ℚ
  deprcv : Option ℚ
  dist : Option ℚ
  strike : Option ℚ
  dip : Option ℚ
  rake : Option ℚ
  force : Option (List ℚ)
  tensor : Option (List ℚ)
  timeFunction : Option Text
  integrate : Option ℤ
  differentiate : Option ℤ
  zne : Bool
  upar : Bool

/-- `"/".join(...)`. -/
def joinSlash : List ℚ → Text
  | [] => []
  | [x] => formatFloat x
  | x :: y :: xs => formatFloat x ++ '/' :: joinSlash (y :: xs)

/-- `_source_options`, pymod.py 958-993: no option or one, or an exception. -/
def sourceOptions (strike dip rake : Option ℚ) (force tensor : Option (List ℚ)) : Option (List Text) :=
  let geometry := strike.isSome || dip.isSome || rake.isSome
  match force with
  | some f =>
    if geometry || tensor.isSome then none
    else if f.length ≠ 3 then none
    else some ["-F".toList ++ joinSlash f]
  | none =>
    match tensor with
    | some m =>
      if geometry then none
      else if m.length ≠ 6 then none
      else some ["-T".toList ++ joinSlash m]
    | none =>
      if !geometry then some []
      else
        match strike, dip with
        | some s, some d =>
          match rake with
          | some r => some ["-M".toList ++ joinSlash [s, d, r]]
          | none => some ["-M".toList ++ joinSlash [s, d]]
        | _, _ => none

/-- An option with a value that may be missing. -/
def optional {A : Type} (name : String) (text : A → Text) : Option A → List Text
  | none => []
  | some x => [name.toList ++ text x]

/-- An option without value. -/
def flag (name : String) (b : Bool) : List Text := if b then [name.toList] else []

/-- The command line of `compute_syn` after `grt syn`, with the option of the source, pymod.py 686-717. -/
def line (a : Args) (src : List Text) : List Text :=
  ("-G".toList ++ a.grn) :: ("-A".toList ++ formatFloat a.azimuth) :: ("-S".toList ++ ((if a.withMu then ['u'] else []) ++ formatFloat a.scale)) ::
  ("-O".toList ++ a.out) ::
  (optional "-Ds" formatFloat a.depsrc ++ (optional "-Dr" formatFloat a.deprcv ++ (optional "-R" formatFloat a.dist ++ (src ++
  (optional "-D" id a.timeFunction ++ (optional "-I" intText a.integrate ++ (optional "-J" intText a.differentiate ++
  (flag "-N" a.zne ++ flag "-e" a.upar))))))))

/-- `compute_syn`, pymod.py 679-719: the command line, or `none` for an exception. -/
def command (a : Args) : Option (List Text) :=
  if a.dist.any (· < 0) then none
  else if a.depsrc.any (· < 0) then none
  else if a.deprcv.any (· < 0) then none
  else (sourceOptions a.strike a.dip a.rake a.force a.tensor).map (line a)

/-! ### The program -/

/-- `GRT_SYN_TYPE`, include/grt/common/radiation.h. -/
inductive Kind where
  | EX | SF | DC | TS | MT
  deriving DecidableEq, Repr

/-- The option table of grt_syn.c 286. -/
def arity (c : Char) : Option Arity :=
  if c ∈ "GASMFTODIJR".toList then some .req else if c ∈ "Nehs".toList then some .flag else none

/-- The part of `GRT_MODULE_CTRL` (grt_syn.c 18-104) that options set; an option that is not active is `none`. -/
structure Ctrl where
  G : Option Text := none
  A : Option Val := none
  mu : Bool := false
  S : Option Val := none
  kind : Kind := .EX
  mchn : List Val := []
  M : Bool := false
  F : Bool := false
  T : Bool := false
  O : Option Text := none
  D : Option (Char × Text) := none
  Ds : Option Val := none
  Dr : Option Val := none
  R : Option Val := none
  I : Option ℤ := none
  J : Option ℤ := none
  N : Bool := false
  e : Bool := false
  s : Bool := false
  deriving DecidableEq

/-- `sscanf` with `n` formats `%lf` separated by `/`: the values read. -/
def scanSlash : ℕ → Text → List Val
  | 0, _ => []
  | n + 1, cs =>
    match scanReal cs with
    | none => []
    | some (v, r) =>
      match r with
      | '/' :: r => v :: scanSlash n r
      | _ => [v]

/-- Outside `[a, b]`. -/
def outside (v : Val) (a b : ℚ) : Bool := v.lt (.num a) || (Val.num b).lt v

/-- The first `u` becomes a space, grt_syn.c 316-319. -/
def blankU : Text → Text
  | [] => []
  | c :: t => if c = 'u' then ' ' :: t else c :: blankU t

/-- One option, the loop body of grt_syn.c 287-476; `none` when the program ends (also after `-h`).  A value of `-A` or `-S` without any character but spaces is taken as
an error; the code goes on with zero. -/
def step (dir : Text → Bool) (tf : Char → Text → Bool) (k : Ctrl) : Char × Option Text → Option Ctrl
  | ('G', some t) => if dir t then some { k with G := some t } else none
  | ('A', some t) =>
    match scanReal t with
    | none => none
    | some (v, _) => if outside v 0 360 then none else some { k with A := some v }
  | ('S', some t) =>
    match scanReal (blankU t) with
    | none => none
    | some (v, _) => some { k with mu := k.mu || t.contains 'u', S := some v }
  | ('M', some t) =>
    match scanSlash 3 t with
    | [s, d] => if outside s 0 360 || outside d 0 90 then none else some { k with M := true, kind := .TS, mchn := [s, d, .num 0] }
    | [s, d, r] =>
      if outside s 0 360 || outside d 0 90 || outside r (-180) 180 then none else some { k with M := true, kind := .DC, mchn := [s, d, r] }
    | _ => none
  | ('F', some t) =>
    let vs := scanSlash 3 t
    if vs.length = 3 then some { k with F := true, kind := .SF, mchn := vs } else none
  | ('T', some t) =>
    let vs := scanSlash 6 t
    if vs.length = 6 then some { k with T := true, kind := .MT, mchn := vs } else none
  | ('O', some t) => some { k with O := some t }
  | ('D', some t) =>
    if t.head? = some 's' then
      if t.tail.contains '/' then none
      else
        match scanReal t.tail with
        | none => none
        | some (v, _) => if v.lt (.num 0) then none else some { k with Ds := some v }
    else if t.head? = some 'r' ∧ t.tail.head? ≠ some '/' then
      if t.tail.contains '/' then none
      else
        match scanReal t.tail with
        | none => none
        | some (v, _) => if v.lt (.num 0) then none else some { k with Dr := some v }
    else
      match t with
      | c :: '/' :: p =>
        match scanWord p with
        | none => none
        | some w => if tf c w then some { k with D := some (c, w) } else none
      | _ => none
  | ('R', some t) =>
    match scanReal t with
    | none => none
    | some (v, _) => if v.lt (.num 0) then none else some { k with R := some v }
  | ('I', some t) =>
    match scanInt t with
    | none => none
    | some (n, _) => if n ≤ 0 then none else some { k with I := some n }
  | ('J', some t) =>
    match scanInt t with
    | none => none
    | some (n, _) => if n ≤ 0 then none else some { k with J := some n }
  | ('N', none) => some { k with N := true }
  | ('e', none) => some { k with e := true }
  | ('s', none) => some { k with s := true }
  | _ => none

/-- The checks after the loop, grt_syn.c 480-489. -/
def finish (k : Ctrl) : Option Ctrl :=
  if k.G.isNone || k.A.isNone || k.S.isNone || k.O.isNone then none
  else if 1 < k.M.toNat + k.F.toNat + k.T.toNat then none
  else some k

/-- All options, starting from `k`. -/
def run (dir : Text → Bool) (tf : Char → Text → Bool) (k : Ctrl) (argv : List Text) : Option Ctrl :=
  (getopt arity argv).bind fun os => (os.foldlM (step dir tf) k).bind finish

/-- `getopt_from_command`, grt_syn.c 280-489: `none` when the program ends with a message. -/
def parse (dir : Text → Bool) (tf : Char → Text → Bool) (argv : List Text) : Option Ctrl := run dir tf {} argv

end GRT.Python.Syn
