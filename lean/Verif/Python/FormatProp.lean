import Verif.Python.Format

/-! The text of a number is read back as the number with fifteen digits (used by C121-C123). -/

namespace GRT.Python

open GRT.Num GRT.Files GRT.Points

theorem digit_isDigit (n : ℕ) : '0' ≤ digit n ∧ digit n ≤ '9' := by
  have h : n % 10 < 10 := Nat.mod_lt _ (by norm_num)
  unfold digit
  generalize n % 10 = k at h
  revert k
  decide

theorem digVal_digit (n : ℕ) : digVal (digit n) = n % 10 := by
  have h : n % 10 < 10 := Nat.mod_lt _ (by norm_num)
  unfold digit digVal
  generalize n % 10 = k at h
  revert k
  decide

theorem dig_isDigit (k n : ℕ) : ∀ c ∈ dig k n, '0' ≤ c ∧ c ≤ '9' := by
  induction k generalizing n with
  | zero => intro c hc; simp [dig] at hc
  | succ k ih =>
    intro c hc
    rw [dig, List.mem_append, List.mem_singleton] at hc
    rcases hc with hc | rfl
    · exact ih _ c hc
    · exact digit_isDigit n

theorem dig_length (k n : ℕ) : (dig k n).length = k := by
  induction k generalizing n with
  | zero => rfl
  | succ k ih => rw [dig, List.length_append, ih]; rfl

theorem digits_append (a b : List Char) : digits (a ++ b) = digits a * 10 ^ b.length + digits b := by
  have key : ∀ (cs : List Char) (n : ℕ), cs.foldl (fun n c => 10 * n + digVal c) n = n * 10 ^ cs.length + digits cs := by
    intro cs
    induction cs with
    | nil => intro n; simp [digits]
    | cons c cs ih =>
      intro n
      have := ih (10 * 0 + digVal c)
      simp only [digits, List.foldl_cons, List.length_cons] at this ⊢
      rw [this, ih]
      simp only [digits]
      ring
  unfold digits
  rw [List.foldl_append, key]
  rfl

theorem digits_dig (k n : ℕ) : digits (dig k n) = n % 10 ^ k := by
  induction k generalizing n with
  | zero => simp [dig, digits, Nat.mod_one]
  | succ k ih =>
    rw [dig, digits_append, ih]
    have e : digits [digit n] = n % 10 := by simp [digits, digVal_digit]
    rw [e, List.length_singleton, pow_one, pow_succ, mul_comm (10 ^ k) 10, Nat.mod_mul]
    ring

/-- Trailing zeros of a fraction do not count. -/
theorem digits_strip (a l : List Char) (k : ℤ) :
    (digits (a ++ strip l) : ℚ) * (10 : ℚ) ^ (k - ((strip l).length : ℤ)) = digits (a ++ l) * (10 : ℚ) ^ (k - (l.length : ℤ)) := by
  induction l using List.reverseRecOn with
  | nil => rfl
  | append_singleton l c ih =>
    by_cases hc : c = '0'
    · subst hc
      have e : strip (l ++ ['0']) = strip l := by unfold strip; rw [List.rdropWhile_concat_pos _ _ _ (by rfl)]
      rw [e, ih, ← List.append_assoc, digits_append (a ++ l) ['0']]
      have e0 : digits ['0'] = 0 := by decide
      rw [e0, List.length_append, List.length_singleton]
      push_cast
      rw [show k - ((l.length : ℤ) + 1) = k - (l.length : ℤ) + (-1) by ring, zpow_add₀ (by norm_num)]
      norm_num
      ring
    · have e : strip (l ++ [c]) = l ++ [c] := by unfold strip; rw [List.rdropWhile_concat_neg _ _ _ (by simpa using hc)]
      rw [e]

/-- Characters that end a number. -/
def Stops (r : List Char) : Prop := ∀ c, r.head? = some c → isDig c = false ∧ c ≠ '.' ∧ c ≠ 'e' ∧ c ≠ 'E'

theorem expo_rest (ex r : List Char) (hr : Stops r)
    (hex : ex = [] ∨ ∃ e s ds, ex = e :: s ++ ds ∧ (e = 'e' ∨ e = 'E') ∧ (s = [] ∨ s = ['+'] ∨ s = ['-']) ∧ ds ≠ [] ∧ ∀ c ∈ ds, '0' ≤ c ∧ c ≤ '9') :
    expo (ex ++ r) = ((expo ex).1, r) := by
  rcases hex with rfl | ⟨e, s, ds, rfl, he, hs, hne, hds⟩
  · cases r with
    | nil => rfl
    | cons c t =>
      have := hr c rfl
      simp [expo, this.2.2.1, this.2.2.2]
  · have h2 : ∀ q, sign (s ++ (ds ++ q)) = (decide (s = ['-']), ds ++ q) := by
      intro q
      rcases hs with rfl | rfl | rfl
      · cases ds with
        | nil => exact absurd rfl hne
        | cons d ds =>
          have := dig_ne_sign (hds d (by simp))
          simp [sign_digit d (ds ++ q) this.1 this.2.1]
      · rfl
      · rfl
    have h3 := h2 []
    rw [List.append_nil] at h3
    obtain ⟨t1, t2⟩ := takeWhile_dig ds r hds fun c hc => (hr c hc).1
    obtain ⟨t3, t4⟩ := takeWhile_dig ds [] hds (by simp)
    rw [List.append_nil] at t3 t4
    simp only [List.cons_append, List.append_assoc, expo, if_pos he, h2, h3, t1, t2, t3, t4, if_neg hne]

/-- A number with the value of its exponent. -/
theorem strtod_text (sg ip fp ex r : List Char) (hr : Stops r) (hsg : sg = [] ∨ sg = ['-']) (hip : ∀ c ∈ ip, '0' ≤ c ∧ c ≤ '9')
    (hfp : ∀ c ∈ fp, '0' ≤ c ∧ c ≤ '9') (hne : ip ≠ [])
    (hex : ex = [] ∨ ∃ e s ds, ex = e :: s ++ ds ∧ (e = 'e' ∨ e = 'E') ∧ (s = [] ∨ s = ['+'] ∨ s = ['-']) ∧ ds ≠ [] ∧ ∀ c ∈ ds, '0' ≤ c ∧ c ≤ '9') :
    IsDecimal (sg ++ (ip ++ (pt fp ++ ex))) ∧
    strtod (sg ++ (ip ++ (pt fp ++ (ex ++ r)))) = some (decide (sg = ['-']),
      .fin ((if sg = ['-'] then -1 else 1) * ((digits (ip ++ fp) : ℚ) * (10 : ℚ) ^ ((expo ex).1 - (fp.length : ℤ)))), r) := by
  have hpt : (if fp = [] then [] else ['.']) = ['.'] ∨ ((if fp = [] then [] else ['.']) = [] ∧ fp = []) := by
    split_ifs with h
    · exact Or.inr ⟨rfl, h⟩
    · exact Or.inl rfl
  have ept : pt fp = (if fp = [] then [] else ['.']) ++ fp := by
    unfold pt
    split_ifs with h
    · simp [h]
    · rfl
  have hdec : IsDecimal (sg ++ (ip ++ (pt fp ++ ex))) := by
    refine ⟨sg, ip, _, fp, ex, by rw [ept]; simp only [List.append_assoc], by tauto, hip, hfp, hpt, by simp [hne], hex⟩
  refine ⟨hdec, ?_⟩
  have hx : ∀ c, (ex ++ r).head? = some c → isDig c = false ∧ c ≠ '.' := by
    intro c hc
    rcases hex with rfl | ⟨e, s, ds, rfl, he, -⟩
    · have := hr c (by simpa using hc)
      exact ⟨this.1, this.2.1⟩
    · simp at hc; subst hc; rcases he with rfl | rfl <;> decide
  have hxr := expo_rest ex r hr hex
  generalize hexr : ex ++ r = exr at hx hxr ⊢
  have hf : frac (pt fp ++ exr) = (fp, exr) := by
    unfold pt
    split_ifs with h
    · subst h
      cases exr with
      | nil => rfl
      | cons c t =>
        have := (hx c rfl).2
        rw [List.nil_append, frac.eq_2 _ (by rintro t' e; simp at e; exact this e.1)]
    · obtain ⟨t1, t2⟩ := takeWhile_dig fp exr hfp fun c hc => (hx c hc).1
      simp [frac, t1, t2]
  have hi := takeWhile_dig ip (pt fp ++ exr) hip (by
    intro c hc
    unfold pt at hc
    split_ifs at hc with h
    · exact (hx c (by simpa using hc)).1
    · simp at hc; subst hc; decide)
  have hd : decimal (ip ++ (pt fp ++ exr)) = some ((digits (ip ++ fp) : ℚ) * (10 : ℚ) ^ ((expo ex).1 - (fp.length : ℤ)), r) := by
    unfold decimal
    rw [hi.1, hi.2, hf]
    dsimp only
    rw [if_neg (by simp [hne]), hxr]
  obtain ⟨c, t, hct⟩ : ∃ c t, ip = c :: t := by cases ip with
    | nil => exact absurd rfl hne
    | cons c t => exact ⟨c, t, rfl⟩
  have hc := hip c (by rw [hct]; simp)
  have hsp : isSpace c = false := by
    by_contra hs
    rw [Bool.not_eq_false] at hs
    simp only [isSpace, Bool.or_eq_true, beq_iff_eq] at hs
    rcases hs with ((((rfl | rfl) | rfl) | rfl) | rfl) | rfl <;> · revert hc; decide
  have hs : sign ((sg ++ (ip ++ (pt fp ++ exr))).dropWhile isSpace) = (decide (sg = ['-']), ip ++ (pt fp ++ exr)) := by
    rcases hsg with rfl | rfl
    · rw [List.nil_append, hct, List.cons_append]
      simp [hsp, sign_digit c _ (dig_ne_sign hc).1 (dig_ne_sign hc).2.1]
    · rfl
  unfold strtod
  rw [hs]
  dsimp only
  rw [hd]
  rcases hsg with rfl | rfl <;> simp

theorem mem_strip {l : List Char} {c : Char} (h : c ∈ strip l) : c ∈ l := (List.rdropWhile_prefix _ l).subset h

theorem digits_zeros (n : ℕ) : digits (List.replicate n '0') = 0 := by
  induction n with
  | zero => rfl
  | succ n ih =>
    rw [List.replicate_succ', digits_append, ih]
    decide

/-- The text of `layout` has the value of its digits. -/
theorem strtod_layout (sg ds r : List Char) (hr : Stops r) (e : ℤ) (hsg : sg = [] ∨ sg = ['-']) (hd : ∀ c ∈ ds, '0' ≤ c ∧ c ≤ '9') (hl : ds.length = 15) :
    IsDecimal (sg ++ layout ds e) ∧
    strtod (sg ++ (layout ds e ++ r)) = some (decide (sg = ['-']), .fin ((if sg = ['-'] then -1 else 1) * (digits ds * (10 : ℚ) ^ (e - 14))), r) := by
  have hne : ds ≠ [] := by rintro rfl; simp at hl
  have hstep : ∀ {a b : ℚ}, a = b → some (decide (sg = ['-']), Lit.fin ((if sg = ['-'] then -1 else 1) * a), r) =
      some (decide (sg = ['-']), Lit.fin ((if sg = ['-'] then -1 else 1) * b), r) := by rintro _ _ rfl; rfl
  rcases (by by_cases h1 : -4 ≤ e ∧ e < 15
             · by_cases h2 : 0 ≤ e
               · exact Or.inl ⟨h1, h2⟩
               · exact Or.inr (Or.inl ⟨h1, h2⟩)
             · exact Or.inr (Or.inr h1) :
      ((-4 ≤ e ∧ e < 15) ∧ 0 ≤ e) ∨ ((-4 ≤ e ∧ e < 15) ∧ ¬0 ≤ e) ∨ ¬(-4 ≤ e ∧ e < 15)) with ⟨h1, h2⟩ | ⟨h1, h2⟩ | h1
  · rw [layout, if_pos h1, if_pos h2]
    obtain ⟨n, rfl⟩ := Int.eq_ofNat_of_zero_le h2
    simp only [Int.toNat_natCast]
    have hn : n < 15 := by omega
    have := strtod_text sg (ds.take (n + 1)) (strip (ds.drop (n + 1))) [] r hr hsg (fun c hc => hd c (List.mem_of_mem_take hc))
      (fun c hc => hd c (List.mem_of_mem_drop (mem_strip hc))) (by simp [hne]) (Or.inl rfl)
    rw [List.append_nil, List.nil_append] at this
    simp only [List.append_assoc, List.nil_append] at this ⊢
    refine ⟨this.1, this.2.trans (hstep ?_)⟩
    have e0 : (expo []).1 = 0 := rfl
    rw [e0, digits_strip, List.take_append_drop, List.length_drop, hl]
    rw [show (0 : ℤ) - ((15 - (n + 1) : ℕ) : ℤ) = (n : ℤ) - 14 by omega]
  · rw [layout, if_pos h1, if_neg h2]
    have := strtod_text sg ['0'] (List.replicate (-e - 1).toNat '0' ++ strip ds) [] r hr hsg (by intro c hc; simp at hc; subst hc; decide)
      (by
        intro c hc
        rw [List.mem_append] at hc
        rcases hc with hc | hc
        · rw [List.mem_replicate] at hc; rw [hc.2]; decide
        · exact hd c (mem_strip hc)) (by simp) (Or.inl rfl)
    rw [List.append_nil, List.nil_append] at this
    simp only [List.append_assoc, List.cons_append, List.nil_append] at this ⊢
    refine ⟨this.1, this.2.trans (hstep ?_)⟩
    have e0 : (expo []).1 = 0 := rfl
    obtain ⟨m, hm⟩ : ∃ m : ℕ, (-e - 1).toNat = m ∧ e = -(m : ℤ) - 1 := ⟨(-e - 1).toNat, rfl, by omega⟩
    rw [hm.1, e0, List.length_append, List.length_replicate,
      show '0' :: (List.replicate m '0' ++ strip ds) = (['0'] ++ List.replicate m '0') ++ strip ds from rfl]
    have := digits_strip (['0'] ++ List.replicate m '0') ds (0 - (m : ℤ))
    push_cast
    rw [show (0 : ℤ) - ((m : ℤ) + ((strip ds).length : ℤ)) = 0 - (m : ℤ) - ((strip ds).length : ℤ) by ring, this, digits_append, hl]
    have : digits (['0'] ++ List.replicate m '0') = 0 := by
      rw [digits_append, digits_zeros]; simp [digits, digVal]
    rw [this, hm.2]
    simp only [Nat.cast_ofNat]
    rw [zero_mul, zero_add, show (0 : ℤ) - (m : ℤ) - 15 = -(m : ℤ) - 1 - 14 by ring]
  · rw [layout, if_neg h1]
    have hp : 0 < max 2 (Nat.log 10 e.natAbs + 1) := by omega
    have hdn : dig (max 2 (Nat.log 10 e.natAbs + 1)) e.natAbs ≠ [] := by
      intro h
      have := dig_length (max 2 (Nat.log 10 e.natAbs + 1)) e.natAbs
      rw [h, List.length_nil] at this
      omega
    have hs : (if e < 0 then ['-'] else ['+']) = ['+'] ∨ (if e < 0 then ['-'] else ['+']) = ['-'] := by split_ifs <;> simp
    have := strtod_text sg (ds.take 1) (strip (ds.drop 1))
      ('e' :: (if e < 0 then ['-'] else ['+']) ++ dig (max 2 (Nat.log 10 e.natAbs + 1)) e.natAbs) r hr hsg
      (fun c hc => hd c (List.mem_of_mem_take hc)) (fun c hc => hd c (List.mem_of_mem_drop (mem_strip hc))) (by simp [hne])
      (Or.inr ⟨'e', _, _, rfl, Or.inl rfl, Or.inr hs, hdn, dig_isDigit _ _⟩)
    simp only [List.append_assoc, List.cons_append] at this ⊢
    refine ⟨this.1, this.2.trans (hstep ?_)⟩
    have hv := expo_value 'e' (if e < 0 then ['-'] else ['+']) (dig (max 2 (Nat.log 10 e.natAbs + 1)) e.natAbs) (Or.inl rfl) (Or.inr hs) hdn
      (dig_isDigit _ _)
    rw [List.cons_append] at hv
    have hlt : e.natAbs < 10 ^ (max 2 (Nat.log 10 e.natAbs + 1)) :=
      (Nat.lt_pow_succ_log_self (by norm_num) _).trans_le (Nat.pow_le_pow_right (by norm_num) (le_max_right _ _))
    rw [digits_dig, Nat.mod_eq_of_lt hlt] at hv
    have hv' : (expo ('e' :: ((if e < 0 then ['-'] else ['+']) ++ dig (max 2 (Nat.log 10 e.natAbs + 1)) e.natAbs))).1 = e := by
      rw [hv]
      by_cases h : e < 0
      · rw [if_pos h, if_pos rfl]; omega
      · rw [if_neg h, if_neg (by decide)]; omega
    rw [hv', digits_strip, List.take_append_drop, List.length_drop, hl]
    norm_num

/-- Rounding to fifteen digits: the digits and the exponent. -/
theorem dec15_digits {x : ℚ} (hx : x ≠ 0) : ∃ m : ℕ, 10 ^ 14 ≤ m ∧ m < 10 ^ 15 ∧ |dec15 x| = m * (10 : ℚ) ^ (Int.log 10 |dec15 x| - 14) := by
  have hp : 0 < |x| := abs_pos.2 hx
  have hu := ulp_pos 10 15 (by norm_num) x
  obtain ⟨j, hj, hj1, hj2⟩ : ∃ j : ℕ, |dec15 x| = j * (10 : ℚ) ^ (Int.log 10 |x| - 14) ∧ 10 ^ 14 ≤ j ∧ j ≤ 10 ^ 15 := by
    have lo := Int.zpow_log_le_self (b := 10) (by norm_num) hp
    have hi := Int.lt_zpow_succ_log_self (b := 10) (by norm_num) |x|
    have eu : ulp 10 15 x = (10 : ℚ) ^ (Int.log 10 |x| - 14) := by unfold ulp; push_cast; congr 1; ring
    have hu' : (0 : ℚ) < (10 : ℚ) ^ (Int.log 10 |x| - 14) := zpow_pos (by norm_num) _
    have e1 : ((10 : ℕ) : ℚ) ^ Int.log 10 |x| = 10 ^ 14 * (10 : ℚ) ^ (Int.log 10 |x| - 14) := by
      push_cast
      rw [← zpow_natCast, ← zpow_add₀ (by norm_num)]; congr 1; push_cast; ring
    have e2 : ((10 : ℕ) : ℚ) ^ (Int.log 10 |x| + 1) = 10 ^ 15 * (10 : ℚ) ^ (Int.log 10 |x| - 14) := by
      push_cast
      rw [← zpow_natCast, ← zpow_add₀ (by norm_num)]; congr 1; push_cast; ring
    rw [e1] at lo
    rw [e2] at hi
    refine ⟨(rint (x / ulp 10 15 x)).natAbs, ?_, ?_⟩
    · unfold dec15 rnd
      rw [if_neg hx, abs_mul, abs_of_pos hu, eu, Nat.cast_natAbs]
      simp
    · have hr : (10 ^ 14 : ℚ) ≤ |x / ulp 10 15 x| ∧ |x / ulp 10 15 x| ≤ 10 ^ 15 := by
        rw [abs_div, abs_of_pos hu, eu, le_div_iff₀ hu', div_le_iff₀ hu']
        exact ⟨lo, hi.le⟩
      generalize x / ulp 10 15 x = y at hr
      have key : ((10 ^ 14 : ℤ) ≤ rint y ∧ rint y ≤ 10 ^ 15) ∨ (-(10 ^ 15 : ℤ) ≤ rint y ∧ rint y ≤ -10 ^ 14) := by
        rcases le_total 0 y with h | h
        · rw [abs_of_nonneg h] at hr
          left
          have a := rint_mono (a := ((10 ^ 14 : ℤ) : ℚ)) (b := y) (by exact_mod_cast hr.1)
          have b := rint_mono (b := ((10 ^ 15 : ℤ) : ℚ)) (a := y) (by exact_mod_cast hr.2)
          rw [rint_int] at a b
          exact ⟨a, b⟩
        · rw [abs_of_nonpos h] at hr
          right
          have a := rint_mono (a := ((-10 ^ 15 : ℤ) : ℚ)) (b := y) (by push_cast; linarith)
          have b := rint_mono (b := ((-10 ^ 14 : ℤ) : ℚ)) (a := y) (by push_cast; linarith)
          rw [rint_int] at a b
          exact ⟨a, b⟩
      omega
  rcases lt_or_eq_of_le hj2 with h | h
  · refine ⟨j, hj1, h, ?_⟩
    have hpos : 0 < |dec15 x| := by
      rw [hj]
      exact mul_pos (by exact_mod_cast (by omega : 0 < j)) (zpow_pos (by norm_num) _)
    have : Int.log 10 |dec15 x| = Int.log 10 |x| := by
      apply le_antisymm
      · rw [← Int.lt_add_one_iff]
        rw [← Int.lt_zpow_iff_log_lt (by norm_num) hpos, hj]
        push_cast
        rw [show Int.log 10 |x| + 1 = 15 + (Int.log 10 |x| - 14) by ring, zpow_add₀ (by norm_num)]
        exact mul_lt_mul_of_pos_right (by exact_mod_cast h) (zpow_pos (by norm_num) _)
      · rw [← Int.zpow_le_iff_le_log (by norm_num) hpos, hj]
        push_cast
        rw [show (10 : ℚ) ^ Int.log 10 |x| = (10 : ℚ) ^ (14 : ℤ) * (10 : ℚ) ^ (Int.log 10 |x| - 14) by
          rw [← zpow_add₀ (by norm_num)]; congr 1; ring]
        exact mul_le_mul_of_nonneg_right (by exact_mod_cast hj1) (zpow_pos (by norm_num) _).le
    rw [this, hj]
  · refine ⟨10 ^ 14, le_refl _, by norm_num, ?_⟩
    have e1 : |dec15 x| = ((10 : ℕ) : ℚ) ^ (Int.log 10 |x| + 1) := by
      rw [hj, h, Nat.cast_pow, Nat.cast_ofNat, ← zpow_natCast, ← zpow_add₀ (by norm_num)]
      congr 1; push_cast; ring
    have e2 : Int.log 10 |dec15 x| = Int.log 10 |x| + 1 := by rw [e1]; exact Int.log_zpow (by norm_num) _
    rw [e2, e1, Nat.cast_pow, Nat.cast_ofNat, ← zpow_natCast, ← zpow_add₀ (by norm_num)]
    congr 1; push_cast; ring

theorem dec15_sign (x : ℚ) : dec15 x = (if x < 0 then -1 else 1) * |dec15 x| := by
  split_ifs with h
  · have : dec15 x ≤ 0 := by
      unfold dec15 rnd
      split_ifs
      · exact le_refl _
      · have hu := ulp_pos 10 15 (by norm_num) x
        have := rint_mono (a := x / ulp 10 15 x) (b := ((0 : ℤ) : ℚ)) (by push_cast; exact div_nonpos_of_nonpos_of_nonneg h.le hu.le)
        rw [rint_int] at this
        exact mul_nonpos_of_nonpos_of_nonneg (by exact_mod_cast this) hu.le
    rw [abs_of_nonpos this]; ring
  · rw [abs_of_nonneg (rnd_nonneg 10 15 (by norm_num) x (not_lt.1 h)), one_mul]

/-- The text of a number, read to its end, whatever follows. -/
theorem strtod_formatFloat (x : ℚ) (r : List Char) (hr : Stops r) :
    IsDecimal (formatFloat x) ∧ strtod (formatFloat x ++ r) = some (decide (x < 0), .fin (dec15 x), r) := by
  unfold formatFloat
  by_cases hx : x = 0
  · subst hx
    rw [if_pos rfl]
    refine ⟨⟨[], ['0'], [], [], [], rfl, by simp, by intro c hc; simp at hc; subst hc; decide, by simp, by simp, by simp, by simp⟩, ?_⟩
    have := (strtod_text [] ['0'] [] [] r hr (by simp) (by intro c hc; simp at hc; subst hc; decide) (by simp) (by simp) (by simp)).2
    simp only [pt, if_true, List.nil_append] at this
    rw [this, show digits (['0'] ++ []) = 0 by decide]
    simp [rnd_zero]
  · obtain ⟨m, h1, h2, h3⟩ := dec15_digits hx
    rw [if_neg hx]
    dsimp only
    have hm : ⌊|dec15 x| * (10 : ℚ) ^ (14 - Int.log 10 |dec15 x|)⌋.toNat = m := by
      have : |dec15 x| * (10 : ℚ) ^ (14 - Int.log 10 |dec15 x|) = ((m : ℤ) : ℚ) := by
        generalize Int.log 10 |dec15 x| = e at h3 ⊢
        rw [h3, mul_assoc, ← zpow_add₀ (by norm_num), show e - 14 + (14 - e) = 0 by ring, zpow_zero, mul_one]; simp
      rw [this, Int.floor_intCast]; simp
    rw [hm]
    have hsg : (if x < 0 then ['-'] else []) = [] ∨ (if x < 0 then ['-'] else []) = ['-'] := by split_ifs <;> simp
    have := strtod_layout (if x < 0 then ['-'] else []) (dig 15 m) r hr (Int.log 10 |dec15 x|) hsg (dig_isDigit _ _) (dig_length _ _)
    rw [List.append_assoc]
    refine ⟨this.1, this.2.trans ?_⟩
    rw [digits_dig, Nat.mod_eq_of_lt h2, ← h3]
    have hs := dec15_sign x
    by_cases h : x < 0
    · rw [if_pos h] at hs ⊢
      rw [if_pos rfl, ← hs]; simp [h]
    · rw [if_neg h] at hs ⊢
      rw [if_neg (by decide), ← hs]; simp [h]

/-- A number as it arrives in the program: fifteen digits, then the nearest `double`. -/
def back (x : ℚ) : ℚ := dbl (dec15 x)

theorem val_back {x : ℚ} (hx : |back x| < 2 ^ 1024) (n : Bool) : (Lit.fin (dec15 x)).val n = .num (back x) := by
  change (if (2 : ℚ) ^ 1024 ≤ |dbl (dec15 x)| then Val.inf n else Val.num (dbl (dec15 x))) = _
  unfold back at hx ⊢
  rw [if_neg (not_le.2 hx)]

/-- `sscanf` with `%lf` at a number, followed by a character that ends it. -/
theorem scanReal_formatFloat (x : ℚ) (r : List Char) (hr : Stops r) (hx : |back x| < 2 ^ 1024) :
    scanReal (formatFloat x ++ r) = some (.num (back x), r) := by
  unfold scanReal
  rw [(strtod_formatFloat x r hr).2]
  dsimp only
  rw [if_neg (by
    rintro (h | h)
    · exact (hr _ h).2.2.1 rfl
    · exact (hr _ h).2.2.2 rfl)]
  rw [val_back hx]

theorem stops_nil : Stops [] := by intro c h; simp at h

theorem atof_formatFloat (x : ℚ) (hx : |back x| < 2 ^ 1024) : atof (formatFloat x) = .num (back x) := by
  have := (strtod_formatFloat x [] stops_nil).2
  rw [List.append_nil] at this
  unfold atof
  rw [this]
  dsimp only
  rw [val_back hx]

end GRT.Python
