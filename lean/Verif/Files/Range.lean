import Verif.Files.Options
import Mathlib.Data.Rat.Cast.Order

/-!
Expansion of `start/stop/step` (util.c 75-88): exact for integers, and within one value and 13 digits otherwise.
-/

namespace GRT.Files

open GRT.Num

theorem dbl_nat (n : ℕ) (h : n < 2 ^ 53) : dbl (n : ℚ) = n := by
  have := rnd_intCast 2 53 (by norm_num) (n : ℤ) (by rw [abs_of_nonneg (by positivity)]; exact_mod_cast h)
  exact_mod_cast this

theorem dec15_nat (n : ℕ) (h : n < 10 ^ 15) : dec15 (n : ℚ) = n := by
  have := rnd_intCast 10 15 (by norm_num) (n : ℤ) (by rw [abs_of_nonneg (by positivity)]; exact_mod_cast h)
  exact_mod_cast this

theorem dbl_rel (x : ℚ) : |dbl x - x| ≤ |x| / 2 ^ 53 := by
  have := rnd_err 2 53 (by norm_num) x
  refine this.trans (le_of_eq ?_)
  norm_num
  ring

theorem dec_rel (x : ℚ) : |dec15 x - x| ≤ |x| / (2 * 10 ^ 14) := by
  have := rnd_err 10 15 (by norm_num) x
  refine this.trans (le_of_eq ?_)
  norm_num
  ring

/-- The rounded quotient of integers has the same integer part as the exact one. -/
theorem floor_dbl_div (m d : ℕ) (hd : 0 < d) (hm : m < 2 ^ 53) : ⌊dbl ((m : ℚ) / d)⌋ = ((m / d : ℕ) : ℤ) := by
  have hd' : (0 : ℚ) < d := by exact_mod_cast hd
  rcases Nat.eq_zero_or_pos (m % d) with h0 | h0
  · have hm' : m = d * (m / d) := by have := Nat.div_add_mod m d; omega
    have e : (m : ℚ) / d = ((m / d : ℕ) : ℚ) := by
      rw [div_eq_iff hd'.ne']
      have : ((m : ℕ) : ℚ) = ((d * (m / d) : ℕ) : ℚ) := by rw [← hm']
      rw [this]; push_cast; ring
    rw [e, dbl_nat _ (lt_of_le_of_lt (Nat.div_le_self m d) hm)]
    simp
  · have hlt := Nat.mod_lt m hd
    have hm' : (m : ℚ) = d * ((m / d : ℕ) : ℚ) + ((m % d : ℕ) : ℚ) := by exact_mod_cast (Nat.div_add_mod m d).symm
    have r1 : (1 : ℚ) ≤ ((m % d : ℕ) : ℚ) := by exact_mod_cast h0
    have r2 : ((m % d : ℕ) : ℚ) ≤ d - 1 := by
      have : m % d + 1 ≤ d := hlt
      have : ((m % d : ℕ) : ℚ) + 1 ≤ d := by exact_mod_cast this
      linarith
    have err := dbl_rel ((m : ℚ) / d)
    have hpos : (0 : ℚ) ≤ (m : ℚ) / d := by positivity
    rw [abs_of_nonneg hpos] at err
    have hb : (m : ℚ) / d / 2 ^ 53 < 1 / d := by
      have : (m : ℚ) < 2 ^ 53 := by exact_mod_cast hm
      rw [div_div, div_lt_div_iff₀ (by positivity) hd']
      nlinarith
    have lo : ((m / d : ℕ) : ℚ) + 1 / d ≤ (m : ℚ) / d := by
      rw [le_div_iff₀ hd', add_mul, div_mul_cancel₀ _ hd'.ne']; nlinarith
    have hi : (m : ℚ) / d ≤ ((m / d : ℕ) : ℚ) + 1 - 1 / d := by
      rw [div_le_iff₀ hd', sub_mul, add_mul, div_mul_cancel₀ _ hd'.ne']; nlinarith
    rw [abs_le] at err
    rw [Int.floor_eq_iff]
    rw [Int.cast_natCast]
    constructor <;> linarith

/-- C36: a range of integers below 10^15 expands to exactly the values `a, a+d, …` up to `b`. -/
theorem C36_range_integers (a b d : ℕ) (hd : 0 < d) (hab : a ≤ b) (hb : b < 10 ^ 15) :
    ∃ vs, range (.num a) (.num b) (.num d) = .ok vs ∧
      ∀ x : ℚ, Val.num x ∈ vs ↔ ∃ i : ℕ, a + d * i ≤ b ∧ x = ((a + d * i : ℕ) : ℚ) := by
  have hd' : (0 : ℚ) < d := by exact_mod_cast hd
  have e1 : (b : ℚ) - a = ((b - a : ℕ) : ℚ) := by rw [Nat.cast_sub hab]
  have e2 : dbl ((b : ℚ) - a) = ((b - a : ℕ) : ℚ) := by rw [e1]; exact dbl_nat _ (by omega)
  have hc : count (a : ℚ) b d = some ((b - a) / d + 1) := by
    unfold count
    rw [e2, if_neg]
    · dsimp only
      rw [floor_dbl_div _ _ hd (by omega), if_neg]
      · rw [Int.toNat_natCast]
      · have := Nat.div_le_self (b - a) d
        push Not
        have : (b - a) / d < 2 ^ 64 := by omega
        exact_mod_cast this
    · push Not
      rw [abs_of_nonneg (by positivity)]
      calc (((b - a : ℕ) : ℚ)) < 10 ^ 15 := by exact_mod_cast (by omega : b - a < 10 ^ 15)
        _ ≤ 2 ^ 50 := by norm_num
        _ ≤ 2 ^ 1024 := pow_le_pow_right₀ (by norm_num) (by norm_num)
  have hv : ∀ i, a + d * i ≤ b → rangeVal (a : ℚ) d i = ((a + d * i : ℕ) : ℚ) := by
    intro i hi
    have hi1 : i ≤ d * i := Nat.le_mul_of_pos_left i hd
    unfold rangeVal
    rw [dbl_nat i (by omega)]
    have : (d : ℚ) * (i : ℚ) = ((d * i : ℕ) : ℚ) := by push_cast; ring
    rw [this, dbl_nat _ (by omega)]
    have : (a : ℚ) + ((d * i : ℕ) : ℚ) = ((a + d * i : ℕ) : ℚ) := by push_cast; ring
    rw [this, dbl_nat _ (by omega), dec15_nat _ (by omega), dbl_nat _ (by omega)]
  refine ⟨(List.range ((b - a) / d + 1)).map fun i => .num (rangeVal a d i), ?_, ?_⟩
  · unfold range
    have h1 : (Val.lt (.num (d : ℚ)) (.num 0) || Val.num (d : ℚ) == Val.num 0) = false := by
      simp only [Val.lt, Bool.or_eq_false_iff, decide_eq_false_iff_not, not_lt, beq_eq_false_iff_ne, ne_eq, Val.num.injEq]
      exact ⟨hd'.le, hd'.ne'⟩
    have h2 : Val.lt (.num (b : ℚ)) (.num a) = false := by
      simp only [Val.lt, decide_eq_false_iff_not, not_lt]; exact_mod_cast hab
    rw [h1, h2]
    simp only [Bool.false_eq_true, if_false, hc]
  · have key : ∀ i, i < (b - a) / d + 1 ↔ a + d * i ≤ b := by
      intro i
      rw [Nat.lt_succ_iff, Nat.le_div_iff_mul_le hd, mul_comm]
      omega
    intro x
    simp only [List.mem_map, List.mem_range, Val.num.injEq]
    constructor
    · rintro ⟨i, hi, rfl⟩
      exact ⟨i, (key i).1 hi, hv i ((key i).1 hi)⟩
    · rintro ⟨i, hi, rfl⟩
      exact ⟨i, (key i).2 hi, hv i hi⟩

/-- C36, any finite range with at most 2^50 steps: the number of values is right up to one. -/
theorem C36_count_partial (a1 a2 d : ℚ) (hd : 0 < d) (ha : a1 ≤ a2) (hr : (a2 - a1) / d ≤ 2 ^ 50) (h1024 : d < 2 ^ 900) :
    ∃ n, count a1 a2 d = some n ∧ |(n : ℤ) - (⌊(a2 - a1) / d⌋ + 1)| ≤ 1 := by
  set s := a2 - a1 with hs
  have s0 : 0 ≤ s := by linarith
  have e1 := dbl_rel s
  rw [abs_of_nonneg s0] at e1
  have x0 : 0 ≤ s / d := by positivity
  have e2 := dbl_rel (dbl s / d)
  have ds0 : 0 ≤ dbl s := rnd_nonneg 2 53 (by norm_num) s s0
  rw [abs_of_nonneg (div_nonneg ds0 hd.le)] at e2
  have e3 : |dbl s / d - s / d| ≤ s / d / 2 ^ 53 := by
    rw [← sub_div, abs_div, abs_of_pos hd, div_right_comm]
    exact (div_le_div_iff_of_pos_right hd).2 e1
  set x := s / d with hx
  set y := dbl (dbl s / d) with hy
  have hyx : |y - x| < 1 / 2 := by
    have t := abs_sub_le y (dbl s / d) x
    have b1 := (abs_le.1 e3).2
    have c1 : x / 2 ^ 53 ≤ 1 / 8 := by rw [div_le_iff₀ (by positivity)]; linarith
    have c2 : dbl s / d / 2 ^ 53 ≤ 1 / 4 := by rw [div_le_iff₀ (by positivity)]; linarith
    linarith
  have y0 : 0 ≤ y := rnd_nonneg 2 53 (by norm_num) _ (by positivity)
  have fy0 : 0 ≤ ⌊y⌋ := Int.floor_nonneg.2 y0
  rw [abs_lt] at hyx
  have f1 := Int.floor_le y; have f2 := Int.lt_floor_add_one y
  have f3 := Int.floor_le x; have f4 := Int.lt_floor_add_one x
  refine ⟨⌊y⌋.toNat + 1, ?_, ?_⟩
  · unfold count
    rw [← hs, if_neg]
    · dsimp only
      rw [← hy, if_neg]
      push Not
      have : (⌊y⌋ : ℚ) < 2 ^ 64 := by linarith
      exact_mod_cast this
    · push Not
      rw [abs_of_nonneg ds0]
      have : s ≤ 2 ^ 50 * d := by rw [hx, div_le_iff₀ hd] at hr; exact hr
      have b1 := (abs_le.1 e1).2
      have : dbl s ≤ 2 * s := by linarith
      calc dbl s ≤ 2 * (2 ^ 50 * d) := by linarith
        _ < 2 * (2 ^ 50 * 2 ^ 900) := by linarith
        _ ≤ 2 ^ 1024 := by rw [← pow_add, ← pow_succ']; exact pow_le_pow_right₀ (by norm_num) (by norm_num)
  · push_cast
    rw [Int.toNat_of_nonneg fy0]
    have a : (⌊y⌋ : ℚ) < ⌊x⌋ + 2 := by linarith
    have b : (⌊x⌋ : ℚ) < ⌊y⌋ + 2 := by linarith
    have a' : ⌊y⌋ < ⌊x⌋ + 2 := by exact_mod_cast a
    have b' : ⌊x⌋ < ⌊y⌋ + 2 := by exact_mod_cast b
    rw [abs_le]; constructor <;> linarith

/-- C36: value `i` of a range agrees with `start + i*step` to 13 digits. -/
theorem C36_value_partial (a1 d : ℚ) (ha : 0 ≤ a1) (hd : 0 < d) (i : ℕ) (hi : i < 2 ^ 53) :
    |rangeVal a1 d i - (a1 + d * i)| ≤ (a1 + d * i) / 10 ^ 13 := by
  unfold rangeVal
  rw [dbl_nat i hi]
  have p0 : 0 ≤ d * (i : ℚ) := by positivity
  have e1 := dbl_rel (d * i)
  rw [abs_of_nonneg p0] at e1
  have q0 : 0 ≤ dbl (d * (i : ℚ)) := rnd_nonneg 2 53 (by norm_num) _ p0
  generalize dbl (d * (i : ℚ)) = p at *
  have e2 := dbl_rel (a1 + p)
  rw [abs_of_nonneg (add_nonneg ha q0)] at e2
  have r0 : 0 ≤ dbl (a1 + p) := rnd_nonneg 2 53 (by norm_num) _ (by linarith)
  generalize dbl (a1 + p) = r at *
  have e3 := dec_rel r
  rw [abs_of_nonneg r0] at e3
  have s0 : 0 ≤ dec15 r := rnd_nonneg 10 15 (by norm_num) _ r0
  generalize dec15 r = s at *
  have e4 := dbl_rel s
  rw [abs_of_nonneg s0] at e4
  generalize dbl s = t at *
  generalize d * (i : ℚ) = x at *
  rw [abs_le] at *
  norm_num at *
  constructor <;> linarith

example : range (.num (10 : ℕ)) (.num (20 : ℕ)) (.num (3 : ℕ)) = .ok [.num 10, .num 13, .num 16, .num 19] := by decide +kernel
example : ∃ n, count (1/10) (1/2) (1/10) = some n ∧ |(n : ℤ) - (⌊((1/2 : ℚ) - 1/10) / (1/10)⌋ + 1)| ≤ 1 :=
  C36_count_partial (1/10) (1/2) (1/10) (by norm_num) (by norm_num) (by norm_num)
    (lt_of_lt_of_le (by norm_num : (1/10 : ℚ) < 2 ^ 1) (pow_le_pow_right₀ (by norm_num) (by norm_num)))
example : |rangeVal (1/10) (1/10) 2 - (1/10 + 1/10 * (2 : ℕ))| ≤ (1/10 + 1/10 * (2 : ℕ)) / 10 ^ 13 :=
  C36_value_partial (1/10) (1/10) (by norm_num) (by norm_num) 2 (by norm_num)

end GRT.Files
