import Verif.Python.StaticGrnProp

/-!
C129: the frequencies of `grt eigenv -F` (pygrt/C_extension/src/modal/grt_eigenv.c 244-304), from the text of the option, in double precision.

Left out: the message before the program ends, and texts whose number of frequencies is undefined in C (infinite numbers, those that are none, more than 2^64);
all are `none`.  Numbers have no limits on the exponent.
-/

namespace GRT.Modal.Options

open GRT.Num GRT.Files GRT.Python GRT.Python.StaticGrn
open GRT.Python.Syn (scanSlash)

/-- `a1`, `a2`, `df` after the checks, grt_eigenv.c 252-276. -/
def range (vs : List Val) : Option (ℚ × ℚ × ℚ) :=
  match vs with
  | [.num a] => if a ≤ 0 then none else some (a, a, 1)
  | [.num a, .num b, .num d] =>
    if d ≤ 0 then none
    else if a < 0 ∨ b ≤ 0 then none
    else if b < a then none
    else some (max a d, max (max a d) b, d)
  | _ => none

/-- What follows the first plus sign, grt_eigenv.c 278-291: `none` for an error. -/
def period (rest : List Text) : Option Bool :=
  match rest with
  | [] => some false
  | tok :: _ => if tok.head? = some 'p' then some true else none

/-- `-F`, grt_eigenv.c 244-304: the frequencies; the number of them and `a1 + df*i` are computed as for the grids of `grt static_greenfn`. -/
def scanF (t : Text) : Option (List ℚ) :=
  match split '+' t with
  | [] => none
  | tok :: rest =>
    match range (scanSlash 3 tok), period rest with
    | some (a, b, d), some p => (axis a b d).map fun l => if p then (l.map fun x => dbl (1 / x)).reverse else l
    | _, _ => none

/-! ### Specification -/

/-- A range asks for its positive numbers `f1 + i df` up to its end. -/
def Asked (f1 f2 df x : ℚ) : Prop := 0 < x ∧ x ≤ f2 ∧ ∃ i : ℕ, x = f1 + i * df

/-! ### Rounding -/

/-- The power of the base below a number stays below it. -/
theorem rnd_ge_log (b p : ℕ) (hb : 1 < b) (hp : 1 ≤ p) {x : ℚ} (hx : 0 < x) : (b : ℚ) ^ Int.log b x ≤ rnd b p x := by
  have hb0 : (b : ℚ) ≠ 0 := by exact_mod_cast (by omega : b ≠ 0)
  have hu := ulp_pos b p (by omega) x
  have e : (b : ℚ) ^ Int.log b x = (((b : ℤ) ^ (p - 1) : ℤ) : ℚ) * ulp b p x := by
    unfold ulp
    rw [abs_of_pos hx]
    push_cast
    rw [← zpow_natCast, ← zpow_add₀ hb0]
    congr 1
    omega
  unfold rnd
  rw [if_neg hx.ne', e]
  refine mul_le_mul_of_nonneg_right ?_ hu.le
  have h1 : (((b : ℤ) ^ (p - 1) : ℤ) : ℚ) ≤ x / ulp b p x := by
    rw [le_div_iff₀ hu, ← e]
    exact Int.zpow_log_le_self hb hx
  have h2 := rint_mono h1
  rw [rint_int] at h2
  exact_mod_cast h2

theorem rnd_pos (b p : ℕ) (hb : 1 < b) (hp : 1 ≤ p) {x : ℚ} (hx : 0 < x) : 0 < rnd b p x :=
  (zpow_pos (by exact_mod_cast (by omega : 0 < b)) _).trans_le (rnd_ge_log b p hb hp hx)

/-- Rounding keeps the order. -/
theorem rnd_mono (b p : ℕ) (hb : 1 < b) (hp : 1 ≤ p) {x y : ℚ} (hx : 0 ≤ x) (hxy : x ≤ y) : rnd b p x ≤ rnd b p y := by
  rcases hx.eq_or_lt with rfl | hx
  · rw [rnd_zero]; exact rnd_nonneg b p (by omega) y hxy
  have hy : 0 < y := hx.trans_le hxy
  have hb0 : (b : ℚ) ≠ 0 := by exact_mod_cast (by omega : b ≠ 0)
  have hb1 : (1 : ℚ) ≤ b := by exact_mod_cast hb.le
  rcases (Int.log_mono_right (b := b) hx hxy).eq_or_lt with he | hl
  · have hu : ulp b p x = ulp b p y := by unfold ulp; rw [abs_of_pos hx, abs_of_pos hy, he]
    unfold rnd
    rw [if_neg hx.ne', if_neg hy.ne', hu]
    have h0 := ulp_pos b p (by omega) y
    refine mul_le_mul_of_nonneg_right ?_ h0.le
    exact_mod_cast rint_mono (div_le_div_of_nonneg_right hxy h0.le)
  · refine le_trans ?_ (rnd_ge_log b p hb hp hy)
    have hu := ulp_pos b p (by omega) x
    have e : (b : ℚ) ^ (Int.log b x + 1) = (((b : ℤ) ^ p : ℤ) : ℚ) * ulp b p x := by
      unfold ulp
      rw [abs_of_pos hx]
      push_cast
      rw [← zpow_natCast, ← zpow_add₀ hb0]
      congr 1
      omega
    refine le_trans ?_ (zpow_le_zpow_right₀ hb1 (show Int.log b x + 1 ≤ Int.log b y by omega))
    rw [e]
    unfold rnd
    rw [if_neg hx.ne']
    refine mul_le_mul_of_nonneg_right ?_ hu.le
    have h1 : x / ulp b p x ≤ (((b : ℤ) ^ p : ℤ) : ℚ) := by
      rw [div_le_iff₀ hu, ← e]
      exact (Int.lt_zpow_succ_log_self hb x).le
    have h2 := rint_mono h1
    rw [rint_int] at h2
    exact_mod_cast h2

theorem dbl_mono {x y : ℚ} (hx : 0 ≤ x) (hxy : x ≤ y) : dbl x ≤ dbl y := rnd_mono 2 53 (by norm_num) (by norm_num) hx hxy

theorem dbl_pos {x : ℚ} (hx : 0 < x) : 0 < dbl x := rnd_pos 2 53 (by norm_num) (by norm_num) hx

theorem dbl_nonneg {x : ℚ} (hx : 0 ≤ x) : 0 ≤ dbl x := rnd_nonneg 2 53 (by norm_num) x hx

/-! ### Order -/

theorem range_ok {vs : List Val} {a b d : ℚ} (h : range vs = some (a, b, d)) : 0 < a ∧ a ≤ b ∧ 0 < d := by
  unfold range at h
  split at h
  · split at h
    · cases h
    · cases h
      rename_i h0
      exact ⟨not_le.1 h0, le_rfl, one_pos⟩
  · split at h
    · cases h
    split at h
    · cases h
    split at h
    · cases h
    · cases h
      rename_i h0 _ _
      have h0 : 0 < d := by simpa using ‹¬d ≤ 0›
      exact ⟨lt_max_of_lt_right h0, le_max_left _ _, h0⟩
  · cases h

theorem axis_ok {a b d : ℚ} (ha : 0 < a) (hab : a ≤ b) (hd : 0 < d) {l : List ℚ} (h : axis a b d = some l) :
    l ≠ [] ∧ (∀ x ∈ l, dbl a ≤ x) ∧ l.Pairwise (· ≤ ·) := by
  unfold axis at h
  obtain ⟨n, hn, rfl⟩ := Option.map_eq_some_iff.1 h
  have hn1 : 1 ≤ n := by
    unfold axisCount at hn
    dsimp only at hn
    split at hn
    · cases hn
    · cases hn
      have h0 : (0 : ℤ) ≤ ⌊dbl (dbl (b - a) / d)⌋ := Int.floor_nonneg.2 (dbl_nonneg (div_nonneg (dbl_nonneg (sub_nonneg.2 hab)) hd.le))
      have h1 : (1 : ℚ) ≤ dbl ((⌊dbl (dbl (b - a) / d)⌋ : ℚ) + 1) := by
        have h2 : dbl ((1 : ℤ) : ℚ) = ((1 : ℤ) : ℚ) := dbl_int 1 (by norm_num)
        rw [Int.cast_one] at h2
        calc (1 : ℚ) = dbl 1 := h2.symm
          _ ≤ _ := dbl_mono zero_le_one (by
            have : (0 : ℚ) ≤ (⌊dbl (dbl (b - a) / d)⌋ : ℚ) := by exact_mod_cast h0
            linarith)
      have h3 : (1 : ℤ) ≤ ⌊dbl ((⌊dbl (dbl (b - a) / d)⌋ : ℚ) + 1)⌋ := Int.le_floor.2 (by exact_mod_cast h1)
      omega
  have hterm : ∀ i j : ℕ, i ≤ j → dbl (d * dbl i) ≤ dbl (d * dbl j) := fun i j hij =>
    dbl_mono (mul_nonneg hd.le (dbl_nonneg (Nat.cast_nonneg i)))
      (mul_le_mul_of_nonneg_left (dbl_mono (Nat.cast_nonneg i) (by exact_mod_cast hij)) hd.le)
  have hnn : ∀ i : ℕ, 0 ≤ dbl (d * dbl i) := fun i => dbl_nonneg (mul_nonneg hd.le (dbl_nonneg (Nat.cast_nonneg i)))
  refine ⟨?_, ?_, ?_⟩
  · intro hnil
    have := congrArg List.length hnil
    simp at this
    omega
  · intro x hx
    obtain ⟨i, -, rfl⟩ := List.mem_map.1 hx
    exact dbl_mono ha.le (by linarith [hnn i])
  · rw [List.pairwise_map]
    refine (List.pairwise_lt_range (n := n)).imp fun {i j} hij => ?_
    exact dbl_mono (by linarith [hnn i]) (by linarith [hterm i j hij.le])

/-- C129: whatever the option says, the frequencies are at least one, positive and in ascending order, also when periods are given; so the last one, to which the
program refers the velocities, is the highest. -/
theorem C129_order (t : Text) (l : List ℚ) (h : scanF t = some l) : l ≠ [] ∧ (∀ f ∈ l, 0 < f) ∧ l.Pairwise (· ≤ ·) := by
  unfold scanF at h
  split at h
  · cases h
  split at h
  · rename_i tok rest _ a b d p hr _
    obtain ⟨h1, h2, h3⟩ := range_ok hr
    obtain ⟨m, hm, rfl⟩ := Option.map_eq_some_iff.1 h
    obtain ⟨k1, k2, k3⟩ := axis_ok h1 h2 h3 hm
    have hpos : ∀ x ∈ m, 0 < x := fun x hx => (dbl_pos h1).trans_le (k2 x hx)
    cases p with
    | false => exact ⟨k1, hpos, k3⟩
    | true =>
      rw [if_pos rfl]
      refine ⟨by simpa using k1, ?_, ?_⟩
      · intro f hf
        rw [List.mem_reverse] at hf
        obtain ⟨x, hx, rfl⟩ := List.mem_map.1 hf
        exact dbl_pos (one_div_pos.2 (hpos x hx))
      · rw [List.pairwise_reverse, List.pairwise_map]
        refine k3.imp_of_mem fun {x y} hx hy hxy => ?_
        exact dbl_mono (one_div_pos.2 (hpos y hy)).le (one_div_le_one_div_of_le (hpos x hx) hxy)
  · cases h

/-! ### Values -/

/-- C129: ranges of whole numbers whose start is 0 (and the end not below the step) or not below the step: exactly the frequencies asked for, or those of the
periods asked for. -/
theorem C129_partial (t : Text) (tok : Text) (rest : List Text) (ht : split '+' t = tok :: rest) (f1 f2 df : ℤ)
    (hv : scanSlash 3 tok = [.num f1, .num f2, .num df]) (hb1 : |f1| < 10 ^ 14) (hb2 : |f2| < 10 ^ 14) (hb3 : |df| < 10 ^ 14) (hd : 0 < df) (h12 : f1 ≤ f2)
    (h0 : (f1 = 0 ∧ df ≤ f2) ∨ df ≤ f1) (p : Bool) (hp : period rest = some p) :
    ∃ l, scanF t = some l ∧ ∀ x, x ∈ l ↔ ∃ y, Asked f1 f2 df y ∧ x = if p then dbl (1 / y) else y := by
  have hm : max f1 df ≤ f2 := by rcases h0 with ⟨rfl, h⟩ | h <;> exact max_le h12 (by omega)
  have hm0 : |max f1 df| < 10 ^ 14 := by rcases max_choice f1 df with e | e <;> rw [e] <;> assumption
  have hf1 : 0 ≤ f1 := by omega
  have hr : range (scanSlash 3 tok) = some (((max f1 df : ℤ) : ℚ), (f2 : ℚ), (df : ℚ)) := by
    rw [hv]
    unfold range
    have c1 : ¬(df : ℚ) ≤ 0 := not_le.2 (by exact_mod_cast hd)
    have c2 : ¬((f1 : ℚ) < 0 ∨ (f2 : ℚ) ≤ 0) := by
      rintro (h | h)
      · exact absurd h (not_lt.2 (by exact_mod_cast hf1))
      · have : f2 ≤ 0 := by exact_mod_cast h
        omega
    have c3 : ¬(f2 : ℚ) < f1 := not_lt.2 (by exact_mod_cast h12)
    simp only [if_neg c1, if_neg c2, if_neg c3]
    have hmq : max (f1 : ℚ) (df : ℚ) = ((max f1 df : ℤ) : ℚ) := (Int.cast_max).symm
    have hmx : max ((max f1 df : ℤ) : ℚ) (f2 : ℚ) = f2 := max_eq_right (by exact_mod_cast hm)
    rw [hmq, hmx]
  have hax := axis_whole hm0 hb2 hd hm
  obtain ⟨m, hm1, hm2⟩ := Option.map_eq_some_iff.1 hax
  have hmem : ∀ y, y ∈ m ↔ Asked f1 f2 df y := by
    intro y
    have hinj : y ∈ m ↔ Val.num y ∈ m.map Val.num := by
      rw [List.mem_map]
      constructor
      · exact fun h => ⟨y, h, rfl⟩
      · rintro ⟨z, hz, he⟩
        cases he
        exact hz
    rw [hinj, hm2]
    unfold coords Asked
    simp only [List.mem_map, List.mem_range, Val.num.injEq]
    have hdq : (0 : ℚ) < df := by exact_mod_cast hd
    have hfl : ∀ i : ℕ, i < ⌊((f2 : ℚ) - ((max f1 df : ℤ) : ℚ)) / df⌋.toNat + 1 ↔ ((max f1 df : ℤ) : ℚ) + df * i ≤ f2 := by
      intro i
      have hnn : 0 ≤ ⌊((f2 : ℚ) - ((max f1 df : ℤ) : ℚ)) / df⌋ := Int.floor_nonneg.2 (div_nonneg (sub_nonneg.2 (by exact_mod_cast hm)) hdq.le)
      rw [show i < ⌊((f2 : ℚ) - ((max f1 df : ℤ) : ℚ)) / df⌋.toNat + 1 ↔ (i : ℤ) ≤ ⌊((f2 : ℚ) - ((max f1 df : ℤ) : ℚ)) / df⌋ by omega, Int.le_floor,
        le_div_iff₀ hdq, Int.cast_natCast]
      constructor <;> intro h <;> linarith
    constructor
    · rintro ⟨i, hi, rfl⟩
      have hi' := (hfl i).1 hi
      have hpos : (0 : ℚ) < ((max f1 df : ℤ) : ℚ) := by exact_mod_cast lt_of_lt_of_le hd (le_max_right f1 df)
      refine ⟨by positivity, hi', ?_⟩
      rcases h0 with ⟨rfl, h⟩ | h
      · refine ⟨i + 1, ?_⟩
        rw [max_eq_right hd.le]
        push_cast
        ring
      · refine ⟨i, ?_⟩
        rw [max_eq_left h]
        ring
    · rintro ⟨hy0, hy1, i, rfl⟩
      rcases h0 with ⟨rfl, h⟩ | h
      · have hi : i ≠ 0 := by
          rintro rfl
          simp at hy0
        refine ⟨i - 1, (hfl _).2 ?_, ?_⟩ <;> rw [max_eq_right hd.le, Nat.cast_pred (Nat.pos_of_ne_zero hi)]
        · push_cast at hy1
          linarith
        · push_cast
          ring
      · refine ⟨i, (hfl _).2 ?_, ?_⟩ <;> rw [max_eq_left h]
        · linarith
        · ring
  refine ⟨if p then (m.map fun x => dbl (1 / x)).reverse else m, ?_, ?_⟩
  · unfold scanF
    rw [ht]
    simp only [hr, hp, hm1]
    rfl
  · intro x
    cases p with
    | false =>
      simp only [Bool.false_eq_true, if_false]
      rw [hmem]
      exact ⟨fun h => ⟨x, h, rfl⟩, fun ⟨y, hy, e⟩ => e ▸ hy⟩
    | true =>
      simp only [if_true]
      rw [List.mem_reverse, List.mem_map]
      exact ⟨fun ⟨y, hy, e⟩ => ⟨y, (hmem y).1 hy, e.symm⟩, fun ⟨y, hy, e⟩ => ⟨y, (hmem y).2 hy, e.symm⟩⟩

/-- C129 fails for a start between zero and the step: the search begins at the step, and the start, which is asked for, is not among the frequencies. -/
theorem C129_violated_start (t : Text) (tok : Text) (ht : split '+' t = [tok]) (f1 f2 df : ℚ) (hv : scanSlash 3 tok = [.num f1, .num f2, .num df])
    (hdf : dbl df = df) (h0 : 0 < f1) (h1 : f1 < df) (h12 : f1 ≤ f2) : Asked f1 f2 df f1 ∧ ∀ l, scanF t = some l → f1 ∉ l := by
  refine ⟨⟨h0, h12, 0, by simp⟩, ?_⟩
  intro l hl hm
  unfold scanF at hl
  rw [ht] at hl
  have hr : range [.num f1, .num f2, .num df] = some (df, max df f2, df) := by
    unfold range
    simp only [if_neg (not_le.2 (h0.trans h1)), if_neg (not_lt.2 h12), if_neg (show ¬(f1 < 0 ∨ f2 ≤ 0) by
      rintro (h | h) <;> linarith), max_eq_right h1.le]
  simp only [hv, hr, period] at hl
  obtain ⟨m, hm1, rfl⟩ := Option.map_eq_some_iff.1 hl
  have hd : 0 < df := h0.trans h1
  have := (axis_ok hd (le_max_left df f2) hd hm1).2.1 f1 (by simpa using hm)
  rw [hdf] at this
  linarith

/-- C129 fails for a range that ends below its step: the only frequency lies above the end. -/
theorem C129_violated_end : scanF "0/1/2".toList = some [2] ∧ ¬Asked 0 1 2 2 := by
  refine ⟨by decide +kernel, ?_⟩
  rintro ⟨-, h, -⟩
  norm_num at h

/-- C129 fails for fractions: `-F0.1/0.3/0.1` does not compute 0.3. -/
theorem C129_violated_rounding : scanF "0.1/0.3/0.1".toList = some [dbl (1 / 10), dbl (2 / 10)] := by decide +kernel

example : scanF "0/6/2+p".toList = some [dbl (1 / 6), 1 / 4, 1 / 2] := by decide +kernel

example : split '+' "0/6/2+p".toList = ["0/6/2".toList, "p".toList] ∧ scanSlash 3 "0/6/2".toList = [.num (0 : ℤ), .num (6 : ℤ), .num (2 : ℤ)] ∧
    period ["p".toList] = some true := by decide +kernel

example : scanF "1/10/2".toList = some [2, 4, 6, 8, 10] ∧ dbl 2 = 2 := by decide +kernel

end GRT.Modal.Options
