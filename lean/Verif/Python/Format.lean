import Verif.StaticSyn.PointFile
import Mathlib.Data.List.DropRight

/-!
Numbers on the command lines that the Python side writes: `format_float` (pygrt/cli.py 64-72), and how the program reads them back.

A Python `float` is a rational number: infinities, not-a-numbers and the sign of zero are left out, and exponents have no lower limit (as `dbl`).
-/

namespace GRT.Python

open GRT.Num GRT.Files GRT.Points

/-- A digit. -/
def digit (n : ℕ) : Char := Char.ofNat (48 + n % 10)

/-- The last `k` digits of `n`. -/
def dig : ℕ → ℕ → List Char
  | 0, _ => []
  | k + 1, n => dig k (n / 10) ++ [digit n]

/-- Fraction with its point; without digits no point. -/
def pt (fp : List Char) : List Char := if fp = [] then [] else '.' :: fp

/-- Trailing zeros removed. -/
def strip (l : List Char) : List Char := l.rdropWhile (· == '0')

/-- Layout of `format(…, ".15g")` for the fifteen digits `ds` and the decimal exponent `e` of the first one: positional for `-4 ≤ e < 15`, otherwise
with an exponent of at least two digits; trailing zeros are dropped. -/
def layout (ds : List Char) (e : ℤ) : List Char :=
  if -4 ≤ e ∧ e < 15 then
    if 0 ≤ e then ds.take (e.toNat + 1) ++ pt (strip (ds.drop (e.toNat + 1)))
    else '0' :: pt (List.replicate (-e - 1).toNat '0' ++ strip ds)
  else
    ds.take 1 ++ (pt (strip (ds.drop 1)) ++ 'e' :: ((if e < 0 then ['-'] else ['+']) ++ dig (max 2 (Nat.log 10 e.natAbs + 1)) e.natAbs))

/-- `format_float`, pygrt/cli.py 64-72: `format(float(value), ".15g")`. -/
def formatFloat (x : ℚ) : List Char :=
  if x = 0 then ['0']
  else
    let r := |dec15 x|
    let e := Int.log 10 r
    (if x < 0 then ['-'] else []) ++ layout (dig 15 ⌊r * (10 : ℚ) ^ (14 - e)⌋.toNat) e

example : formatFloat (dbl (1/10)) = "0.1".toList := by decide +kernel
example : formatFloat (-dbl (100000/3)) = "-33333.3333333333".toList := by decide +kernel
example : formatFloat (10 ^ 24) = "1e+24".toList := by decide +kernel
example : formatFloat (dbl (12345 / 10 ^ 9)) = "1.2345e-05".toList := by decide +kernel
example : formatFloat 1500 = "1500".toList := by decide +kernel

end GRT.Python
