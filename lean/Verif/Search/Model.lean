import Mathlib.Algebra.Order.Field.Basic
import Mathlib.Algebra.Order.AbsoluteValue.Basic

/-!
Model of `pygrt/C_extension/src/common/search.c`.

Arrays are lists (length = the `size` argument).  Numbers are elements of an arbitrary linearly
ordered field `α`; the C code instantiates the functions with `double`, so rounding is outside the
model.  Reads outside an array are an explicit outcome.
-/

namespace GRT.Search

variable {α : Type*}

/-- A C floating value: a number or NaN.  (`double`; infinities are not modelled.) -/
inductive FP (α : Type*) where
  | nan : FP α
  | num : α → FP α

/-- C `a < b` on floating values: false as soon as an operand is NaN. -/
def FP.lt [LT α] : FP α → FP α → Prop
  | .num a, .num b => a < b
  | _, _ => False

/-- C `a <= b` on floating values: false as soon as an operand is NaN. -/
def FP.le [LE α] : FP α → FP α → Prop
  | .num a, .num b => a ≤ b
  | _, _ => False

instance [LinearOrder α] (a b : FP α) : Decidable (FP.lt a b) := by
  cases a <;> cases b <;> simp only [FP.lt] <;> infer_instance

instance [LinearOrder α] (a b : FP α) : Decidable (FP.le a b) := by
  cases a <;> cases b <;> simp only [FP.le] <;> infer_instance

/-- `grt_findElement_##T`, search.c 25-36: index of the first element equal to `target`, else `-1`.
`i` is the loop counter, the list is what remains of the array. -/
def findElementFrom [DecidableEq α] (target : α) : List α → Nat → Int
  | [], _ => -1
  | a :: t, i => if a = target then (i : Int) else findElementFrom target t (i + 1)

/-- `grt_findElement_##T`, search.c 25-36 (entry point). -/
def findElement [DecidableEq α] (arr : List α) (target : α) : Int := findElementFrom target arr 0

section field
variable [Field α] [LinearOrder α]

/-- Loop body of `grt_findLessEqualClosest_##T`, search.c 47-53. State: `(ires, mindist)`. -/
def lessEqualStep (target : α) (s : Int × α) (i : Nat) (a : α) : Int × α :=
  let dist := target - a
  if dist ≥ 0 ∧ (s.2 < 0 ∨ dist < s.2) then ((i : Int), dist) else s

/-- Loop of `grt_findLessEqualClosest_##T`, search.c 47-53. -/
def lessEqualFrom (target : α) : List α → Nat → Int × α → Int × α
  | [], _, s => s
  | a :: t, i, s => lessEqualFrom target t (i + 1) (lessEqualStep target s i a)

/-- `grt_findLessEqualClosest_##T`, search.c 43-55. -/
def findLessEqualClosest (arr : List α) (target : α) : Int :=
  (lessEqualFrom target arr 0 (-1, -1)).1

/-- Loop of `grt_findClosest_##T`, search.c 66-72. State: `(ires, mindist)`. -/
def closestFrom (target : α) : List α → Nat → Nat × α → Nat × α
  | [], _, s => s
  | a :: t, i, s =>
    let dist := |target - a|
    closestFrom target t (i + 1) (if s.2 < 0 ∨ dist < s.2 then (i, dist) else s)

/-- `grt_findClosest_##T`, search.c 62-74. -/
def findClosest (arr : List α) (target : α) : Nat := (closestFrom target arr 0 (0, -1)).1

end field

section order
variable [LinearOrder α]

/-- Loop of `grt_findMin_##T`, search.c 84-89. State: `(idx, rval)`. -/
def minFrom : List α → Nat → Nat × α → Nat × α
  | [], _, s => s
  | a :: t, i, s => minFrom t (i + 1) (if a < s.2 then (i, a) else s)

/-- `grt_findMin_##T`, search.c 80-91. `none`: the read of `array[0]` is out of bounds. -/
def findMin : List α → Option Nat
  | [] => none
  | a :: t => some (minFrom (a :: t) 0 (0, a)).1

/-- Loop of `grt_findMax_##T`, search.c 95-100. State: `(idx, rval)`. -/
def maxFrom : List α → Nat → Nat × α → Nat × α
  | [], _, s => s
  | a :: t, i, s => maxFrom t (i + 1) (if a > s.2 then (i, a) else s)

/-- `grt_findMax_##T`, search.c 91-102. `none`: the read of `array[0]` is out of bounds. -/
def findMax : List α → Option Nat
  | [] => none
  | a :: t => some (maxFrom (a :: t) 0 (0, a)).1

/-- `grt_compare_##T`, search.c 109-120. -/
def compare (a b : α) : Int := if a > b then 1 else if a < b then -1 else 0

/-- The factor `sgn` of search.c 147. -/
def sgn (ascending : Bool) : Int := if ascending then 1 else -1

/-- Position search of `grt_insertOrdered`, search.c 153-159: first `i` with
`sgn*compare(target, arr[i]) < 0`, else the size. -/
def insertPos (asc : Bool) (target : α) : List α → Nat
  | [] => 0
  | a :: t => if sgn asc * compare target a < 0 then 0 else insertPos asc target t + 1

/-- Effect of the `memmove`/`memcpy` pair, search.c 170-176, on the array contents: entries
`pos .. lastpos-1` move one place to the right, `target` is stored at `pos`, entries beyond `lastpos`
stay. -/
def shiftIn (arr : List α) (pos lastpos : Nat) (target : α) : List α :=
  arr.take pos ++ target :: ((arr.drop pos).take (lastpos - pos) ++ arr.drop (lastpos + 1))

/-- `grt_insertOrdered`, search.c 143-179. Result: new contents and return value.
`none`: with capacity 0 and size 0 line 150 reads element `-1` of the array. -/
def insertOrdered (asc : Bool) (cap : Nat) (arr : List α) (target : α) :
    Option (List α × Int) :=
  if arr.length = cap then
    match arr.getLast? with
    | none => none
    | some last =>
      if sgn asc * compare target last ≥ 0 then some (arr, -1)
      else
        let pos := min (insertPos asc target arr) (cap - 1)
        some (shiftIn arr pos (cap - 1) target, (pos : Int))
  else
    let pos0 := insertPos asc target arr
    let lastpos := if arr.length ≥ cap then cap - 1 else arr.length
    let pos := min pos0 lastpos
    some (shiftIn arr pos lastpos target, (pos : Int))

/-- A history of calls of `grt_insertOrdered` on one array, starting from an empty array, as made by
`modal/root.c` 401-425 and 490-517 (and `integral`/`modal` callers). -/
def insertAll (asc : Bool) (cap : Nat) : List α → List α → Option (List α)
  | [], arr => some arr
  | t :: ts, arr =>
    match insertOrdered asc cap arr t with
    | none => none
    | some (arr', _) => insertAll asc cap ts arr'

/-- `compare_argsort_pair`, search.c 192-200: by value, ties by original index.  A pair is
`(value, index)`. -/
def comparePair (a b : α × Nat) : Int :=
  let r := compare a.1 b.1
  if r ≠ 0 then r
  else (if a.2 > b.2 then 1 else 0) - (if a.2 < b.2 then 1 else 0)

/-- Contract of libc `qsort` for comparator `cmp`: the output is a permutation of the input that is
ascending for the comparator. -/
def QsortSpec {β : Type*} (cmp : β → β → Int) (input output : List β) : Prop :=
  output.Perm input ∧ output.Pairwise (fun a b => cmp a b ≤ 0)

/-- The array `pairs` built in search.c 216-221. -/
def argsortPairs (arr : List α) : List (α × Nat) := arr.zipIdx

/-- `grt_argsort`, search.c 203-230, on its success path (return value 0): `indices` is the index
column of some array that `qsort` may return.  (Failure of `malloc` and the size-overflow guards
are not modelled.) -/
def ArgsortResult (arr : List α) (indices : List Nat) : Prop :=
  ∃ sorted, QsortSpec comparePair (argsortPairs arr) sorted ∧ indices = sorted.map Prod.snd

end order

/-- Outcome of `grt_locateLinearInterp`. `oob`: the code reads outside `x`. -/
inductive Loc (α : Type*) where
  | refuse : Loc α
  | ok : Nat → Nat → α → Loc α
  | okNaN : Nat → Nat → Loc α
  | oob : Loc α
  deriving DecidableEq

section locate
variable [Field α] [LinearOrder α]

/-- `atol` of search.c 237. -/
def atol : α := 1 / 100000000

/-- Scan of search.c 261-264: the loop counter when the loop ends. -/
def locScan (q : FP α) : List α → Nat
  | _ :: b :: t => if FP.le q (.num (b + atol)) then 0 else locScan q (b :: t) + 1
  | _ => 0

/-- Last lines of `grt_locateLinearInterp`, search.c 265-269: indices `i`, `i+1` and the weight. A read
outside `x` is `oob`; a NaN weight is `okNaN`. -/
def locFinish (x : List α) (q : FP α) (i : Nat) : Loc α :=
  match x[i]?, x[i + 1]? with
  | some a, some b =>
    let dx := b - a
    if |dx| < atol then .ok i (i + 1) 0
    else match q with
      | .num q => .ok i (i + 1) ((q - a) / dx)
      | .nan => .okNaN i (i + 1)
  | _, _ => .oob

/-- `fabs(q - x0) > atol` of search.c 243, false for NaN. -/
def farFrom (q : FP α) (a : α) : Bool :=
  match q with
  | .num q => decide (|q - a| > atol)
  | .nan => false

/-- `grt_locateLinearInterp`, search.c 233-270 (pointers assumed non-NULL). -/
def locate (x : List α) (q : FP α) : Loc α :=
  match x with
  | [] => .refuse
  | [a] => if farFrom q a then .refuse else .ok 0 0 0
  | a :: b :: t =>
    let l := (b :: t).getLast (by simp)
    if FP.lt q (.num (a - atol)) ∨ FP.lt (.num (l + atol)) q then .refuse
    else if FP.le q (.num a) then .ok 0 0 0
    else if FP.le (.num l) q then .ok (x.length - 1) (x.length - 1) 0
    else locFinish x q (locScan q x)

end locate

end GRT.Search
