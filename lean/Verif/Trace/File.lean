import Mathlib.Tactic.NormNum
import Mathlib.Tactic.Ring
import Mathlib.Data.List.Basic

/-!
Trace files (SAC): `write_sac`, `read_sac` and their helpers (pygrt/C_extension/src/common/sacio.c_ 105-150, 215-240, 490-711, header in
include/grt/common/sacio.h_), and C43. A file is a list of bytes; machines of either byte order are modelled. Not modelled: failures of
the operating system, the functions for parts of files and for XY data, which nothing calls.
-/

namespace GRT.Trace

/-! ### Model -/

abbrev Byte := UInt8

/-- A number of four bytes, the least significant first; `float` or `int`. -/
structure Word where
  b0 : Byte
  b1 : Byte
  b2 : Byte
  b3 : Byte
  deriving DecidableEq, Repr

/-- Byte order of a machine. -/
inductive Order | little | big
  deriving DecidableEq, Repr

/-- The bytes of a number in memory. -/
def Word.bytes : Order → Word → List Byte
  | .little, w => [w.b0, w.b1, w.b2, w.b3]
  | .big, w => [w.b3, w.b2, w.b1, w.b0]

/-- The numbers in memory made of bytes; bytes left over are no number. -/
def words (o : Order) : List Byte → List Word
  | a :: b :: c :: d :: t => (match o with | .little => ⟨a, b, c, d⟩ | .big => ⟨d, c, b, a⟩) :: words o t
  | _ => []

/-- The value of an `int`. -/
def Word.int (w : Word) : ℤ :=
  let u : ℤ := w.b0.toNat + 256 * (w.b1.toNat + 256 * (w.b2.toNat + 256 * w.b3.toNat))
  if w.b3.toNat < 128 then u else u - 4294967296

/-- `SACHEAD` in memory, sacio.h_: 110 numbers, then 216 bytes of strings (9, 18 and 21 times 9 bytes). -/
structure Head where
  nums : List Word
  strs : List Byte
  deriving DecidableEq, Repr

/-- Fields `nvhdr`, `npts`, `iftype`: numbers 76, 79 and 85 of the header. -/
def Head.nvhdr (h : Head) : ℤ := (h.nums.getD 76 ⟨0, 0, 0, 0⟩).int
def Head.npts (h : Head) : ℤ := (h.nums.getD 79 ⟨0, 0, 0, 0⟩).int
def Head.iftype (h : Head) : ℤ := (h.nums.getD 85 ⟨0, 0, 0, 0⟩).int

/-- `byte_swap`, sacio.c_ 517-530. -/
def byteSwap : List Byte → List Byte
  | a :: b :: c :: d :: t => d :: c :: b :: a :: byteSwap t
  | l => l

/-- `map_chdr_out`, sacio.c_ 653-675: `n` fields of 8 bytes each taken from 9. -/
def mapOut8 : ℕ → List Byte → List Byte
  | 0, _ => []
  | n + 1, m => m.take 8 ++ mapOut8 n (m.drop 9)

def mapOut (m : List Byte) : List Byte := m.take 8 ++ ((m.drop 9).take 16 ++ mapOut8 21 (m.drop 27))

/-- `map_chdr_in`, sacio.c_ 564-590: a terminator after each field; `x` is the byte of `kevnm` that is not touched. -/
def mapIn8 : ℕ → List Byte → List Byte
  | 0, _ => []
  | n + 1, b => b.take 8 ++ 0 :: mapIn8 n (b.drop 8)

def mapIn (x : Byte) (b : List Byte) : List Byte := b.take 8 ++ 0 :: ((b.drop 8).take 16 ++ 0 :: x :: mapIn8 21 (b.drop 24))

/-- Outcomes: success, failure reported by the return value, undefined behaviour. -/
inductive Res (A : Type) | ok (a : A) | fail | undef
  deriving DecidableEq, Repr

/-- Number of values in the file, sacio.c_ 137-138, 231-232; `none` for a negative `npts`, whose conversion to `size_t` is huge. -/
def Head.count (h : Head) : Option ℕ :=
  if h.npts < 0 then none else some (if h.iftype = 4 then 2 * h.npts.toNat else h.npts.toNat)

/-- `write_sac`, sacio.c_ 215-245, 688-711: the content of the file and whether success is returned. `ar` is the array passed: if it is
shorter than the header says, it is read out of bounds. Writing zero bytes counts as a failure, since `fwrite` returns 0 then. -/
def writeSac (o : Order) (h : Head) (ar : List Word) : Res (List Byte × Bool) :=
  match h.count with
  | none => .undef
  | some n =>
    if ar.length < n then .undef
    else .ok (h.nums.flatMap (Word.bytes o) ++ (mapOut h.strs ++ (ar.take n).flatMap (Word.bytes o)), n ≠ 0)

/-- `check_sac_nvhdr`, sacio.c_ 545-558: the parameter is `const` and is changed through a pointer, which is undefined in C; `lax` says that
the compiler lets it pass. Result: whether to swap. -/
def checkVersion (lax : Bool) (o : Order) (w : Word) : Res Bool :=
  if w.int = 6 then .ok false
  else if lax = false then .undef
  else if ((words o (byteSwap (w.bytes o))).getD 0 ⟨0, 0, 0, 0⟩).int = 6 then .ok true
  else .fail

/-- `fread` of `n` bytes, all or failure. -/
def fread (n : ℕ) (f : List Byte) : Option (List Byte × List Byte) := if f.length < n then none else some (f.take n, f.drop n)

/-- `read_head_in`, sacio.c_ 606-646: header, whether to swap, and the rest of the file. -/
def readHead (lax : Bool) (o : Order) (x : Byte) (f : List Byte) : Res (Head × Bool × List Byte) :=
  match fread 440 f with
  | none => .fail
  | some (b, f) =>
    match checkVersion lax o ((words o b).getD 76 ⟨0, 0, 0, 0⟩) with
    | .undef => .undef
    | .fail => .fail
    | .ok s =>
      let b := if s then byteSwap b else b
      match fread 192 f with
      | none => .fail
      | some (c, f) => .ok (⟨words o b, mapIn x c⟩, s, f)

/-- `read_sac`, sacio.c_ 118-158: header and samples. Reading zero bytes counts as a failure; so does a negative `npts`, for which no memory
can be had. -/
def readSac (lax : Bool) (o : Order) (x : Byte) (f : List Byte) : Res (Head × List Word) :=
  match readHead lax o x f with
  | .undef => .undef
  | .fail => .fail
  | .ok (h, s, f) =>
    match h.count with
    | none => .fail
    | some n =>
      if n = 0 then .fail else
      match fread (4 * n) f with
      | none => .fail
      | some (d, _) => .ok (h, words o (if s then byteSwap d else d))

/-! ### Specification -/

/-- The C string that begins at a position. -/
def cstr (l : List Byte) : List Byte := l.takeWhile (· ≠ 0)

/-- Where the 23 strings begin in memory. -/
def fieldAt (i : ℕ) : ℕ := if i = 0 then 0 else if i = 1 then 9 else 27 + 9 * (i - 2)

/-- String `i` of a header. -/
def Head.str (h : Head) (i : ℕ) : List Byte := cstr ((h.strs.drop (fieldAt i)).take (if i = 1 then 18 else 9))

/-- How many characters of string `i` the file format has room for. -/
def room (i : ℕ) : ℕ := if i = 1 then 16 else 8

/-- A header as the program uses it: all numbers, version 6, at least one sample, all strings within the room of the format. -/
structure Head.WF (h : Head) : Prop where
  nums : h.nums.length = 110
  strs : h.strs.length = 216
  version : h.nvhdr = 6
  npts : 0 < h.npts
  fits : ∀ i < 23, (h.str i).length ≤ room i

/-! ### Numbers -/

theorem words_bytes (o : Order) (l : List Word) : words o (l.flatMap (Word.bytes o)) = l := by
  induction l with
  | nil => rfl
  | cons w l ih =>
    rw [List.flatMap_cons]
    cases o <;> simp only [Word.bytes, List.cons_append, List.nil_append, words, ih]

/-- Numbers written on a machine of the other order, swapped. -/
theorem words_swapped (o o' : Order) (h : o ≠ o') (l : List Word) : words o (byteSwap (l.flatMap (Word.bytes o'))) = l := by
  induction l with
  | nil => rfl
  | cons w l ih =>
    rw [List.flatMap_cons]
    cases o <;> cases o' <;> first | exact absurd rfl h | simp only [Word.bytes, List.cons_append, List.nil_append, byteSwap, words, ih]

theorem bytes_length (o : Order) (l : List Word) : (l.flatMap (Word.bytes o)).length = 4 * l.length := by
  induction l with
  | nil => rfl
  | cons w l ih =>
    rw [List.flatMap_cons, List.length_append, ih, List.length_cons]
    cases o <;> simp [Word.bytes] <;> omega

/-- The version number as seen on a machine of the other order. -/
def Word.rev (w : Word) : Word := ⟨w.b3, w.b2, w.b1, w.b0⟩

theorem words_other (o o' : Order) (h : o ≠ o') (l : List Word) : words o (l.flatMap (Word.bytes o')) = l.map Word.rev := by
  induction l with
  | nil => rfl
  | cons w l ih =>
    rw [List.flatMap_cons, List.map_cons, ← ih]
    cases o <;> cases o' <;> first | exact absurd rfl h | rfl

theorem six_bytes (w : Word) (h : w.int = 6) : w = ⟨6, 0, 0, 0⟩ := by
  obtain ⟨a, b, c, d⟩ := w
  unfold Word.int at h
  dsimp only at h
  have ha := a.toNat_lt
  have hb := b.toNat_lt
  have hc := c.toNat_lt
  have hd := d.toNat_lt
  split at h
  · have h1 : a.toNat = 6 := by omega
    have h2 : b.toNat = 0 := by omega
    have h3 : c.toNat = 0 := by omega
    have h4 : d.toNat = 0 := by omega
    have e1 : a = 6 := UInt8.toNat_inj.1 (by rw [h1]; rfl)
    have e2 : b = 0 := UInt8.toNat_inj.1 (by rw [h2]; rfl)
    have e3 : c = 0 := UInt8.toNat_inj.1 (by rw [h3]; rfl)
    have e4 : d = 0 := UInt8.toNat_inj.1 (by rw [h4]; rfl)
    rw [e1, e2, e3, e4]
  · omega

theorem check_same (lax : Bool) (o : Order) (w : Word) (h : w.int = 6) : checkVersion lax o w = .ok false := by
  simp [checkVersion, h]

theorem check_other (o : Order) (w : Word) (h : w.int = 6) : checkVersion true o w.rev = .ok true ∧ checkVersion false o w.rev = .undef := by
  rw [six_bytes w h]
  cases o <;> decide

/-! ### Strings -/

theorem mapOut8_length (n : ℕ) (m : List Byte) (h : 9 * n ≤ m.length) : (mapOut8 n m).length = 8 * n := by
  induction n generalizing m with
  | zero => rfl
  | succ n ih =>
    rw [mapOut8, List.length_append, List.length_take, ih _ (by rw [List.length_drop]; omega)]
    omega

theorem mapOut_length (m : List Byte) (h : m.length = 216) : (mapOut m).length = 192 := by
  rw [mapOut, List.length_append, List.length_append, List.length_take, List.length_take, List.length_drop,
    mapOut8_length _ _ (by rw [List.length_drop]; omega)]
  omega

/-- Field `i` after writing and reading is the first eight bytes of what it was, and a terminator. -/
theorem field8 (n i : ℕ) (hi : i < n) (m : List Byte) (h : 9 * n ≤ m.length) (rest : List Byte) :
    ((mapIn8 n (mapOut8 n m ++ rest)).drop (9 * i)).take 9 = (m.drop (9 * i)).take 8 ++ [0] := by
  induction n generalizing m i with
  | zero => omega
  | succ n ih =>
    have hl : (m.take 8).length = 8 := by rw [List.length_take]; omega
    have ht : ∀ r : List Byte, (m.take 8 ++ r).take 8 = m.take 8 := fun r => List.take_left' hl
    have hd : ∀ r : List Byte, (m.take 8 ++ r).drop 8 = r := fun r => List.drop_left' hl
    rw [mapOut8, mapIn8, List.append_assoc, ht, hd]
    cases i with
    | zero => rw [mul_zero, List.drop_zero, List.drop_zero, List.take_append, hl, List.take_of_length_le (by omega)]; rfl
    | succ i =>
      have e : 9 * (i + 1) = 9 + 9 * i := by ring
      rw [e, ← List.drop_drop, ← List.drop_drop]
      have : (m.take 8 ++ 0 :: mapIn8 n (mapOut8 n (m.drop 9) ++ rest)).drop 9 = mapIn8 n (mapOut8 n (m.drop 9) ++ rest) := by
        rw [List.drop_append, hl, List.drop_of_length_le (by omega)]
        simp
      rw [this]
      exact ih i (by omega) (m.drop 9) (by rw [List.length_drop]; omega)

theorem cstr_zero (l r : List Byte) : cstr (l ++ 0 :: r) = cstr l := by
  induction l with
  | nil => simp [cstr]
  | cons a l ih =>
    simp only [cstr, List.cons_append, List.takeWhile_cons] at ih ⊢
    rw [ih]

theorem cstr_cut (l : List Byte) (k : ℕ) (h : (cstr l).length ≤ k) : cstr (l.take k ++ [0]) = cstr l := by
  induction k generalizing l with
  | zero =>
    have : cstr l = [] := List.length_eq_zero_iff.1 (by omega)
    simp [cstr] at this ⊢
    exact this
  | succ k ih =>
    cases l with
    | nil => simp [cstr]
    | cons a l =>
      rw [List.take_succ_cons, List.cons_append]
      by_cases ha : a = 0
      · subst ha
        simp [cstr]
      · have h1 : cstr (a :: l) = a :: cstr l := by simp [cstr, ha]
        have h2 : cstr (a :: (l.take k ++ [0])) = a :: cstr (l.take k ++ [0]) := by simp [cstr, ha]
        rw [h1] at h ⊢
        rw [h2, ih l (by simpa using h)]

theorem str_back (x : Byte) (h : Head) (nums : List Word) (hs : h.strs.length = 216) (i : ℕ) (hi : i < 23) (hf : (h.str i).length ≤ room i) :
    (⟨nums, mapIn x (mapOut h.strs)⟩ : Head).str i = h.str i := by
  unfold Head.str at hf ⊢
  simp only
  set m := h.strs with hm
  have hl0 : (m.take 8).length = 8 := by rw [List.length_take]; omega
  have hl1 : ((m.drop 9).take 16).length = 16 := by rw [List.length_take, List.length_drop]; omega
  have eIn : mapIn x (mapOut m) = m.take 8 ++ 0 :: ((m.drop 9).take 16 ++ 0 :: x :: mapIn8 21 (mapOut8 21 (m.drop 27))) := by
    have ht : ∀ r : List Byte, (m.take 8 ++ r).take 8 = m.take 8 := fun r => List.take_left' hl0
    have hd : ∀ r : List Byte, (m.take 8 ++ r).drop 8 = r := fun r => List.drop_left' hl0
    have ht1 : ∀ r : List Byte, ((m.drop 9).take 16 ++ r).take 16 = (m.drop 9).take 16 := fun r => List.take_left' hl1
    have hd1 : ∀ r : List Byte, ((m.drop 9).take 16 ++ r).drop 16 = r := fun r => List.drop_left' hl1
    have h24 : ∀ r : List Byte, (m.take 8 ++ ((m.drop 9).take 16 ++ r)).drop 24 = r := fun r => by
      rw [show 24 = 8 + 16 from rfl, ← List.drop_drop, hd, hd1]
    unfold mapIn mapOut
    rw [ht, hd, ht1, h24]
  rw [eIn]
  rcases Nat.lt_or_ge i 2 with h2 | h2
  · rcases Nat.eq_zero_or_pos i with h0 | h0
    · subst h0
      simp only [fieldAt, room, if_true, List.drop_zero] at hf ⊢
      rw [if_neg (by norm_num)] at hf ⊢
      have : (m.take 8 ++ 0 :: ((m.drop 9).take 16 ++ 0 :: x :: mapIn8 21 (mapOut8 21 (m.drop 27)))).take 9 = (m.take 9).take 8 ++ [0] := by
        rw [List.take_append, hl0, List.take_of_length_le (by omega), List.take_take]
        rfl
      rw [this]
      exact cstr_cut _ _ (by simpa using hf)
    · have : i = 1 := by omega
      subst this
      simp only [fieldAt, room, if_true] at hf ⊢
      rw [if_neg (by norm_num)] at hf ⊢
      have e : ((m.take 8 ++ 0 :: ((m.drop 9).take 16 ++ 0 :: x :: mapIn8 21 (mapOut8 21 (m.drop 27)))).drop 9).take 18 =
          ((m.drop 9).take 18).take 16 ++ [0, x] := by
        rw [List.drop_append, hl0, List.drop_of_length_le (by omega), List.nil_append]
        rw [show (9 - 8 : ℕ) = 1 from rfl, List.drop_one, List.tail_cons, List.take_append, hl1, List.take_of_length_le (by omega), List.take_take]
        rfl
      rw [e]
      have c2 : ∀ l : List Byte, cstr (l ++ [0, x]) = cstr (l ++ [0]) := fun l => by rw [cstr_zero, cstr_zero]
      rw [c2]
      exact cstr_cut _ _ (by simpa using hf)
  · have e9 : (if i = 1 then 18 else 9) = 9 := if_neg (by omega)
    have er : room i = 8 := if_neg (by omega)
    have ef : fieldAt i = 27 + 9 * (i - 2) := by rw [fieldAt, if_neg (by omega), if_neg (by omega)]
    rw [e9, ef] at hf ⊢
    rw [er] at hf
    have e : (m.take 8 ++ 0 :: ((m.drop 9).take 16 ++ 0 :: x :: mapIn8 21 (mapOut8 21 (m.drop 27)))).drop (27 + 9 * (i - 2)) =
        (mapIn8 21 (mapOut8 21 (m.drop 27))).drop (9 * (i - 2)) := by
      rw [← List.drop_drop]
      congr 1
      rw [List.drop_append, hl0, List.drop_of_length_le (by omega), List.nil_append]
      rw [show (27 - 8 : ℕ) = 18 + 1 from rfl, List.drop_succ_cons, List.drop_append, hl1, List.drop_of_length_le (by omega), List.nil_append]
      rfl
    rw [e]
    have := field8 21 (i - 2) (by omega) (m.drop 27) (by rw [List.length_drop]; omega) []
    rw [List.append_nil] at this
    rw [this, List.drop_drop]
    have h8 : (m.drop (27 + 9 * (i - 2))).take 8 = ((m.drop (27 + 9 * (i - 2))).take 9).take 8 := by rw [List.take_take]; rfl
    rw [h8]
    exact cstr_cut _ _ hf

/-! ### C43 -/

theorem fread_append (a b : List Byte) : fread a.length (a ++ b) = some (a, b) := by
  unfold fread
  rw [if_neg (by rw [List.length_append]; omega), List.take_left', List.drop_left'] <;> rfl

theorem getD_map_rev (l : List Word) (i : ℕ) (h : i < l.length) : (l.map Word.rev).getD i ⟨0, 0, 0, 0⟩ = (l.getD i ⟨0, 0, 0, 0⟩).rev := by
  rw [List.getD_eq_getElem?_getD, List.getD_eq_getElem?_getD, List.getElem?_map, List.getElem?_eq_getElem h]
  rfl

/-- The header as read from a file written on a machine of order `o'`. -/
theorem readHead_written (lax : Bool) (o o' : Order) (hlax : o ≠ o' → lax = true) (x : Byte) (h : Head) (hh : h.WF) (rest : List Byte) :
    readHead lax o x (h.nums.flatMap (Word.bytes o') ++ (mapOut h.strs ++ rest)) = .ok (⟨h.nums, mapIn x (mapOut h.strs)⟩, decide (o ≠ o'), rest) := by
  have hl : (h.nums.flatMap (Word.bytes o')).length = 440 := by rw [bytes_length, hh.nums]
  have hm := mapOut_length h.strs hh.strs
  unfold readHead
  have e1 := fread_append (h.nums.flatMap (Word.bytes o')) (mapOut h.strs ++ rest)
  have e2 := fread_append (mapOut h.strs) rest
  rw [hl] at e1
  rw [hm] at e2
  rw [e1]
  simp only
  by_cases ho : o = o'
  · subst ho
    rw [words_bytes, check_same _ _ _ hh.version]
    simp only [Bool.false_eq_true, if_false, e2, words_bytes, ne_eq, not_true_eq_false, decide_false]
  · rw [hlax ho, words_other o o' ho, getD_map_rev _ _ (by rw [hh.nums]; norm_num), (check_other o _ hh.version).1]
    simp only [if_true, e2, words_swapped o o' ho, ne_eq, ho, not_false_eq_true, decide_true]

/-- Writing and reading back, on machines of any byte order: the same numbers, strings and samples. With machines of different order, if the
compiler lets the change of a constant parameter pass (`lax`; see `C43_order_violated`). -/
theorem C43_roundtrip_partial (lax : Bool) (o o' : Order) (hlax : o ≠ o' → lax = true) (x : Byte) (h : Head) (hh : h.WF) (n : ℕ) (hn : h.count = some n)
    (ar : List Word) (har : ar.length = n) :
    ∃ f h', writeSac o' h ar = .ok (f, true) ∧ readSac lax o x f = .ok (h', ar) ∧ h'.nums = h.nums ∧ ∀ i < 23, h'.str i = h.str i := by
  have hn0 : n ≠ 0 := by
    intro h0
    have hp := hh.npts
    unfold Head.count at hn
    rw [if_neg (by omega)] at hn
    simp only [Option.some.injEq] at hn
    split at hn <;> omega
  refine ⟨h.nums.flatMap (Word.bytes o') ++ (mapOut h.strs ++ ar.flatMap (Word.bytes o')), ⟨h.nums, mapIn x (mapOut h.strs)⟩, ?_, ?_, rfl, fun i hi => str_back x h _ hh.strs i hi (hh.fits i hi)⟩
  · unfold writeSac
    rw [hn]
    simp only
    rw [if_neg (by omega), List.take_of_length_le (by omega)]
    simp [hn0]
  · unfold readSac
    rw [readHead_written lax o o' hlax x h hh]
    have hc : (⟨h.nums, mapIn x (mapOut h.strs)⟩ : Head).count = some n := by rw [← hn]; rfl
    simp only [hc]
    rw [if_neg hn0]
    have e := fread_append (ar.flatMap (Word.bytes o')) []
    rw [bytes_length, har, List.append_nil] at e
    rw [e]
    simp only
    by_cases ho : o = o'
    · subst ho
      simp [words_bytes]
    · simp [ho, words_swapped o o' ho]

/-- A cut file is refused, on machines of either order. -/
theorem C43_cut (lax : Bool) (o o' : Order) (hlax : o ≠ o' → lax = true) (x : Byte) (h : Head) (hh : h.WF) (ar : List Word) (f : List Byte) (b : Bool)
    (hw : writeSac o' h ar = .ok (f, b)) (k : ℕ) (hk : k < f.length) : readSac lax o x (f.take k) = .fail := by
  unfold writeSac at hw
  rcases hn : h.count with _ | n
  · simp [hn] at hw
  rw [hn] at hw
  simp only at hw
  split at hw
  · simp at hw
  rename_i hlen
  simp only [Res.ok.injEq, Prod.mk.injEq] at hw
  obtain ⟨rfl, -⟩ := hw
  have hl : (h.nums.flatMap (Word.bytes o')).length = 440 := by rw [bytes_length, hh.nums]
  have hm := mapOut_length h.strs hh.strs
  have hd : ((ar.take n).flatMap (Word.bytes o')).length = 4 * n := by
    rw [bytes_length, List.length_take]
    omega
  rw [List.length_append, List.length_append, hl, hm, hd] at hk
  rcases Nat.lt_or_ge k 440 with h1 | h1
  · unfold readSac readHead fread
    rw [if_pos (by rw [List.length_take]; omega)]
  rw [List.take_append, hl, List.take_of_length_le (by omega)]
  rcases Nat.lt_or_ge k 632 with h2 | h2
  · -- the strings are cut
    have e1 := fread_append (h.nums.flatMap (Word.bytes o')) ((mapOut h.strs ++ (ar.take n).flatMap (Word.bytes o')).take (k - 440))
    rw [hl] at e1
    have e2 : fread 192 ((mapOut h.strs ++ (ar.take n).flatMap (Word.bytes o')).take (k - 440)) = none := by
      unfold fread
      rw [if_pos (by rw [List.length_take]; omega)]
    unfold readSac readHead
    rw [e1]
    simp only
    by_cases ho : o = o'
    · subst ho
      rw [words_bytes, check_same _ _ _ hh.version]
      simp only [e2]
    · rw [hlax ho, words_other o o' ho, getD_map_rev _ _ (by rw [hh.nums]; norm_num), (check_other o _ hh.version).1]
      simp only [e2]
  · rw [List.take_append, hm, List.take_of_length_le (by omega)]
    unfold readSac
    rw [readHead_written lax o o' hlax x h hh]
    have hc : (⟨h.nums, mapIn x (mapOut h.strs)⟩ : Head).count = some n := by rw [← hn]; rfl
    simp only [hc]
    split
    · rfl
    · have : fread (4 * n) (((ar.take n).flatMap (Word.bytes o')).take (k - 440 - 192)) = none := by
        unfold fread
        rw [if_pos (by rw [List.length_take]; omega)]
      rw [this]

/-- C43 violated: by the rules of C, reading any file of the other byte order is undefined, because the check of the version swaps the bytes
of a parameter declared `const`. -/
theorem C43_order_violated (o o' : Order) (ho : o ≠ o') (x : Byte) (h : Head) (hh : h.WF) (ar : List Word) (f : List Byte) (b : Bool)
    (hw : writeSac o' h ar = .ok (f, b)) : readSac false o x f = .undef := by
  unfold writeSac at hw
  rcases hn : h.count with _ | n
  · simp [hn] at hw
  rw [hn] at hw
  simp only at hw
  split at hw
  · simp at hw
  simp only [Res.ok.injEq, Prod.mk.injEq] at hw
  obtain ⟨rfl, -⟩ := hw
  have hl : (h.nums.flatMap (Word.bytes o')).length = 440 := by rw [bytes_length, hh.nums]
  unfold readSac readHead
  have e1 := fread_append (h.nums.flatMap (Word.bytes o')) (mapOut h.strs ++ (ar.take n).flatMap (Word.bytes o'))
  rw [hl] at e1
  rw [e1]
  simp only
  rw [words_other o o' ho, getD_map_rev _ _ (by rw [hh.nums]; norm_num), (check_other o _ hh.version).2]

/-- Anything whose version number is not 6 in either order is refused. -/
theorem C43_refuses (o : Order) (x : Byte) (f : List Byte) (h6 : ((words o (f.take 440)).getD 76 ⟨0, 0, 0, 0⟩) ≠ ⟨6, 0, 0, 0⟩)
    (h6' : ((words o (f.take 440)).getD 76 ⟨0, 0, 0, 0⟩) ≠ ⟨0, 0, 0, 6⟩) : readSac true o x f = .fail := by
  unfold readSac readHead
  rcases hf : fread 440 f with _ | ⟨b, r⟩
  · rfl
  have hb : b = f.take 440 := by
    unfold fread at hf
    split at hf
    · simp at hf
    · simp only [Option.some.injEq, Prod.mk.injEq] at hf
      exact hf.1.symm
  simp only
  rw [hb]
  have hc : checkVersion true o ((words o (f.take 440)).getD 76 ⟨0, 0, 0, 0⟩) = .fail := by
    generalize (words o (f.take 440)).getD 76 ⟨0, 0, 0, 0⟩ = w at h6 h6'
    unfold checkVersion
    rw [if_neg (fun h => h6 (six_bytes w h)), if_neg (by simp), if_neg]
    intro h
    have h' := six_bytes _ h
    apply h6'
    obtain ⟨a, b, c, d⟩ := w
    cases o <;> simp [Word.bytes, byteSwap, words] at h' ⊢ <;> tauto
  rw [hc]

/-! ### Concrete cases -/

/-- A header with two samples: all other numbers zero, the component "EXZ". -/
def sample : Head where
  nums := (List.range 110).map fun i => if i = 76 then ⟨6, 0, 0, 0⟩ else if i = 79 then ⟨2, 0, 0, 0⟩ else ⟨0, 0, 0, 0⟩
  strs := (List.range 216).map fun i => if i = 189 then 69 else if i = 190 then 88 else if i = 191 then 90 else 0

theorem sample_wf : sample.WF := by
  refine ⟨by decide +kernel, by decide +kernel, by decide +kernel, by decide +kernel, ?_⟩
  decide +kernel

example : sample.count = some 2 ∧ sample.str 20 = [69, 88, 90] := by decide +kernel

example : ∃ f h', writeSac .big sample [⟨1, 2, 3, 4⟩, ⟨5, 6, 7, 8⟩] = .ok (f, true) ∧ readSac true .little 9 f = .ok (h', [⟨1, 2, 3, 4⟩, ⟨5, 6, 7, 8⟩])
    ∧ h'.nums = sample.nums ∧ ∀ i < 23, h'.str i = sample.str i :=
  C43_roundtrip_partial true .little .big (fun _ => rfl) 9 sample sample_wf 2 (by decide +kernel) _ rfl

/-- C43 violated for a trace without samples: the file has its header, failure is returned (the callers do not look at it), and the file
cannot be read back. -/
theorem C43_empty_violated : ∃ h : Head, h.nums.length = 110 ∧ h.strs.length = 216 ∧ h.nvhdr = 6 ∧ h.npts = 0
    ∧ ∃ f, writeSac .little h [] = .ok (f, false) ∧ f.length = 632 ∧ readSac true .little 0 f = .fail :=
  ⟨⟨(List.range 110).map fun i => if i = 76 then ⟨6, 0, 0, 0⟩ else ⟨0, 0, 0, 0⟩, (List.range 216).map fun _ => 0⟩, by decide +kernel, by decide +kernel,
    by decide +kernel, by decide +kernel, _, rfl, by decide +kernel, by decide +kernel⟩

end GRT.Trace
