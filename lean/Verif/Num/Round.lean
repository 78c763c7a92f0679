import Mathlib.Data.Int.Log
import Mathlib.Data.Rat.Floor
import Mathlib.Algebra.Order.Floor.Ring
import Mathlib.Tactic.Linarith
import Mathlib.Tactic.Ring
import Mathlib.Tactic.NormNum
import Mathlib.Tactic.FieldSimp
import Mathlib.Tactic.Positivity

/-!
Rounding to a binary floating-point format with `p` significant bits: nearest, ties to even, without limits on the
exponent.  `p = 53` is `double` (`real_t`, include/grt/common/const.h), `p = 24` is `float`, as long as results stay in
the normal range.
-/

namespace GRT.Num

/-- Nearest integer, ties to even. -/
def rint (q : ℚ) : ℤ :=
  let f := ⌊q⌋
  if q - f < 1/2 then f else if 1/2 < q - f then f + 1 else if f % 2 = 0 then f else f + 1

/-- Unit in the last of `p` places of `x` in base `b`. -/
def ulp (b p : ℕ) (x : ℚ) : ℚ := (b : ℚ) ^ (Int.log b |x| - (p : ℤ) + 1)

/-- Rounding to `p` significant places in base `b`. -/
def rnd (b p : ℕ) (x : ℚ) : ℚ := if x = 0 then 0 else rint (x / ulp b p x) * ulp b p x

/-- Rounding to `double`. -/
abbrev dbl (x : ℚ) : ℚ := rnd 2 53 x
/-- Rounding to `float`. -/
abbrev flt (x : ℚ) : ℚ := rnd 2 24 x
/-- Printing with `%.15g` and reading the digits exactly. -/
abbrev dec15 (x : ℚ) : ℚ := rnd 10 15 x

theorem rint_err (q : ℚ) : |(rint q : ℚ) - q| ≤ 1/2 := by
  have h1 := Int.floor_le q
  have h2 := Int.lt_floor_add_one q
  unfold rint
  dsimp only
  split
  · rw [abs_le]; constructor <;> linarith
  · split
    · push_cast; rw [abs_le]; constructor <;> linarith
    · split
      · rw [abs_le]; constructor <;> linarith
      · push_cast; rw [abs_le]; constructor <;> linarith

theorem rint_int (n : ℤ) : rint n = n := by
  unfold rint; simp

theorem rint_mono {a b : ℚ} (h : a ≤ b) : rint a ≤ rint b := by
  have hf : ⌊a⌋ ≤ ⌊b⌋ := Int.floor_le_floor h
  have a1 := Int.floor_le a; have a2 := Int.lt_floor_add_one a
  have b1 := Int.floor_le b; have b2 := Int.lt_floor_add_one b
  rcases lt_or_eq_of_le hf with hlt | heq
  · have : rint a ≤ ⌊a⌋ + 1 := by unfold rint; dsimp only; split_ifs <;> omega
    have : ⌊b⌋ ≤ rint b := by unfold rint; dsimp only; split_ifs <;> omega
    omega
  · unfold rint; dsimp only; rw [← heq] at b1 b2 ⊢
    split_ifs <;> first | omega | (exfalso; linarith)

theorem ulp_pos (b p : ℕ) (hb : 0 < b) (x : ℚ) : 0 < ulp b p x := zpow_pos (by exact_mod_cast hb) _

/-- Error at most half a unit in the last place. -/
theorem rnd_err_ulp (b p : ℕ) (hb : 0 < b) (x : ℚ) : |rnd b p x - x| ≤ ulp b p x / 2 := by
  have hu := ulp_pos b p hb x
  unfold rnd
  split
  · rename_i h; subst h; simp only [sub_self, abs_zero]; linarith
  · have h := rint_err (x / ulp b p x)
    have e : (rint (x / ulp b p x) : ℚ) * ulp b p x - x = ((rint (x / ulp b p x) : ℚ) - x / ulp b p x) * ulp b p x := by
      field_simp
    rw [e, abs_mul, abs_of_pos hu]
    nlinarith

/-- Relative error at most half of `b^(1-p)`. -/
theorem rnd_err (b p : ℕ) (hb : 1 < b) (x : ℚ) : |rnd b p x - x| ≤ |x| * (b : ℚ) ^ (1 - (p : ℤ)) / 2 := by
  have hb0 : (b : ℚ) ≠ 0 := by exact_mod_cast (by omega : b ≠ 0)
  by_cases h : x = 0
  · subst h; simp [rnd]
  · refine (rnd_err_ulp b p (by omega) x).trans ?_
    have hx : 0 < |x| := abs_pos.2 h
    have := Int.zpow_log_le_self (b := b) hb hx
    have hp : (0 : ℚ) < (b : ℚ) ^ (1 - (p : ℤ)) := zpow_pos (by exact_mod_cast (by omega : 0 < b)) _
    unfold ulp
    rw [show Int.log b |x| - (p : ℤ) + 1 = Int.log b |x| + (1 - (p : ℤ)) by ring, zpow_add₀ hb0]
    nlinarith [mul_le_mul_of_nonneg_right this hp.le]

/-- Absolute error below a power of two. -/
theorem rnd_err_abs (p : ℕ) (k : ℤ) (x : ℚ) (h : |x| < (2 : ℚ) ^ k) : |rnd 2 p x - x| ≤ (2 : ℚ) ^ (k - 1 - (p : ℤ)) := by
  by_cases h0 : x = 0
  · subst h0; simp only [rnd, if_true, sub_zero, abs_zero]; exact (zpow_pos (by norm_num) _).le
  · refine (rnd_err_ulp 2 p (by norm_num) x).trans ?_
    have hx : 0 < |x| := abs_pos.2 h0
    have hl : Int.log 2 |x| < k := (Int.lt_zpow_iff_log_lt (b := 2) (by norm_num) hx).1 (by exact_mod_cast h)
    unfold ulp
    have : ((2 : ℕ) : ℚ) ^ (Int.log 2 |x| - (p : ℤ) + 1) / 2 = (2 : ℚ) ^ (Int.log 2 |x| - (p : ℤ)) := by
      push_cast; rw [zpow_add₀ (by norm_num)]; simp
    rw [this]
    exact zpow_le_zpow_right₀ (by norm_num) (by omega)

/-- Integer multiples of the unit in the last place are not rounded. -/
theorem rnd_exact (b p : ℕ) (hb : 1 < b) (x : ℚ) (m : ℤ) (h : x = m * ulp b p x) : rnd b p x = x := by
  unfold rnd
  split
  · rename_i h0; exact h0.symm
  · have hu := ulp_pos b p (by omega) x
    have : x / ulp b p x = m := by rw [div_eq_iff hu.ne']; exact h
    rw [this, rint_int, ← h]

/-- Integers of at most `p` places are not rounded. -/
theorem rnd_intCast (b p : ℕ) (hb : 1 < b) (n : ℤ) (h : |n| < (b : ℤ) ^ p) : rnd b p n = n := by
  have hb0 : (b : ℚ) ≠ 0 := by exact_mod_cast (by omega : b ≠ 0)
  by_cases h0 : n = 0
  · subst h0; simp [rnd]
  · have hx : (0 : ℚ) < |(n : ℚ)| := by rw [abs_pos]; exact_mod_cast h0
    have hl : Int.log b |(n : ℚ)| < p := (Int.lt_zpow_iff_log_lt (b := b) hb hx).1 (by rw [zpow_natCast]; exact_mod_cast h)
    obtain ⟨k, hk⟩ : ∃ k : ℕ, Int.log b |(n : ℚ)| - (p : ℤ) + 1 = -k := ⟨(-(Int.log b |(n : ℚ)| - (p : ℤ) + 1)).toNat, by omega⟩
    apply rnd_exact b p hb _ (n * (b : ℤ) ^ k)
    unfold ulp
    rw [hk, zpow_neg, zpow_natCast]
    push_cast
    field_simp

theorem rnd_zero (b p : ℕ) : rnd b p 0 = 0 := by simp [rnd]

theorem rnd_nonneg (b p : ℕ) (hb : 0 < b) (x : ℚ) (h : 0 ≤ x) : 0 ≤ rnd b p x := by
  unfold rnd
  split
  · exact le_refl _
  · have hu := ulp_pos b p hb x
    have : (0 : ℤ) ≤ rint (x / ulp b p x) := by
      have := rint_mono (div_nonneg h hu.le)
      rwa [show (0 : ℚ) = ((0 : ℤ) : ℚ) by simp, rint_int] at this
    exact mul_nonneg (by exact_mod_cast this) hu.le

example : flt (3003/10) = 9840230 / 32768 := by decide +kernel
example : ⌊dbl (dbl (3/10) / dbl (1/10))⌋ = 2 := by decide +kernel
example : dec15 (dbl (1/10)) = 1/10 := by decide +kernel

end GRT.Num
