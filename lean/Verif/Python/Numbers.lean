import Verif.Python.FormatProp
import Verif.Files.Options

/-!
C121: numbers handed over in Python arrive in the program.  Lists of depths and distances: `_normalize_float_array` and `_format_depth_list`
(pygrt/pymod.py 33-64), and the option `-R` (323, 464-467).
-/

namespace GRT.Python

open GRT.Num GRT.Files GRT.Points

/-- `_normalize_float_array`, pymod.py 33-59, for a sequence (a scalar is a list of one value, `np.atleast_1d`): not empty, not negative, strictly
ascending; `none` stands for the exception.  A difference of two `double` has the sign of the exact one. -/
def normalize (xs : List ℚ) : Option (List ℚ) :=
  if xs = [] then none
  else if xs.any (· < 0) then none
  else if xs.IsChain (· < ·) then some xs
  else none

/-- `",".join(...)`, pymod.py 62-64 and 323. -/
def joinComma : List ℚ → List Char
  | [] => []
  | [x] => formatFloat x
  | x :: y :: xs => formatFloat x ++ ',' :: joinComma (y :: xs)

/-! ### Specification -/

/-- A decimal number of at most fifteen significant digits. -/
def Written (d : ℚ) : Prop := ∃ m k : ℤ, |m| < 10 ^ 15 ∧ d = m * (10 : ℚ) ^ k

/-- The Python number that such a text stands for. -/
def Literal (x : ℚ) : Prop := ∃ d, Written d ∧ x = dbl d

/-! ### Rounding -/

theorem rnd_near {b p : ℕ} (hb : 1 < b) {x y : ℚ} (hx : x ≠ 0) (m : ℤ) (hy : y = m * ulp b p x) (h : |x - y| < ulp b p x / 2) : rnd b p x = y := by
  have hu := ulp_pos b p (by omega) x
  unfold rnd
  rw [if_neg hx]
  have h1 := rint_err (x / ulp b p x)
  have h2 : |x / ulp b p x - m| < 1 / 2 := by
    have e : x / ulp b p x - m = (x - y) / ulp b p x := by rw [hy]; field_simp
    rw [e, abs_div, abs_of_pos hu, div_lt_iff₀ hu]
    linarith
  have h3 : rint (x / ulp b p x) = m := by
    rw [abs_le] at h1
    rw [abs_lt] at h2
    have u1 : (rint (x / ulp b p x) : ℚ) < m + 1 := by linarith [h1.2, h2.2]
    have u2 : (m : ℚ) < rint (x / ulp b p x) + 1 := by linarith [h1.1, h2.1]
    have u1' : rint (x / ulp b p x) < m + 1 := by exact_mod_cast u1
    have u2' : m < rint (x / ulp b p x) + 1 := by exact_mod_cast u2
    omega
  rw [h3, hy]

theorem dbl_rel (x : ℚ) : |dbl x - x| ≤ |x| / 2 ^ 53 := by
  have h := rnd_err 2 53 (by norm_num) x
  norm_num at h ⊢
  linarith

theorem dec15_rel (x : ℚ) : |dec15 x - x| ≤ |x| / (2 * 10 ^ 14) := by
  have h := rnd_err 10 15 (by norm_num) x
  norm_num at h ⊢
  linarith

/-- Fifteen digits survive the conversion to `double` and back. -/
theorem dec15_dbl {d : ℚ} (h : Written d) : dec15 (dbl d) = d := by
  by_cases h0 : d = 0
  · subst h0; simp [rnd_zero]
  obtain ⟨m, k, hm, hd⟩ := h
  have hp : 0 < |d| := abs_pos.2 h0
  obtain ⟨L, hL⟩ : ∃ L, Int.log 10 |d| = L := ⟨_, rfl⟩
  have lo := Int.zpow_log_le_self (b := 10) (by norm_num) hp
  have hi := Int.lt_zpow_succ_log_self (b := 10) (by norm_num) |d|
  rw [hL] at lo hi
  push_cast at lo hi
  have hk : L - 14 ≤ k := by
    have : |d| < ((10 : ℕ) : ℚ) ^ (k + 15) := by
      rw [hd, abs_mul, abs_of_pos (zpow_pos (by norm_num : (0 : ℚ) < 10) k)]
      push_cast
      rw [zpow_add₀ (by norm_num), mul_comm]
      refine mul_lt_mul_of_pos_left ?_ (zpow_pos (by norm_num) _)
      exact_mod_cast hm
    have := (Int.lt_zpow_iff_log_lt (by norm_num) hp).1 this
    omega
  -- the unit of the smaller grid
  have hT : (0 : ℚ) < (10 : ℚ) ^ (L - 15) := zpow_pos (by norm_num) _
  obtain ⟨n, hn⟩ : ∃ n : ℕ, k = L - 14 + n := ⟨(k - (L - 14)).toNat, by omega⟩
  have hdT : d = ((m * 10 ^ n : ℤ) : ℚ) * (10 * (10 : ℚ) ^ (L - 15)) := by
    rw [hd, hn, zpow_add₀ (by norm_num), zpow_natCast, show L - 14 = 1 + (L - 15) by ring, zpow_add₀ (by norm_num)]
    push_cast; ring
  have e0 : (10 : ℚ) ^ L = 10 ^ 15 * (10 : ℚ) ^ (L - 15) := by
    rw [← zpow_natCast, ← zpow_add₀ (by norm_num)]; congr 1; push_cast; ring
  have e1 : (10 : ℚ) ^ (L + 1) = 10 ^ 16 * (10 : ℚ) ^ (L - 15) := by
    rw [← zpow_natCast, ← zpow_add₀ (by norm_num)]; congr 1; push_cast; ring
  have e2 : (10 : ℚ) ^ (L - 1) = 10 ^ 14 * (10 : ℚ) ^ (L - 15) := by
    rw [← zpow_natCast, ← zpow_add₀ (by norm_num)]; congr 1; push_cast; ring
  rw [e0] at lo
  rw [e1] at hi
  have herr := dbl_rel d
  -- the largest number with this exponent
  have hi' : |d| ≤ 10 ^ 16 * (10 : ℚ) ^ (L - 15) - 10 * (10 : ℚ) ^ (L - 15) := by
    have : |d| = ((|m * 10 ^ n| : ℤ) : ℚ) * (10 * (10 : ℚ) ^ (L - 15)) := by
      rw [hdT, abs_mul, abs_of_pos (by positivity : (0 : ℚ) < 10 * (10 : ℚ) ^ (L - 15))]
      push_cast; ring
    rw [this] at hi ⊢
    have hlt : ((|m * 10 ^ n| : ℤ) : ℚ) < 10 ^ 15 := by
      by_contra hc
      rw [not_lt] at hc
      nlinarith
    have : |m * 10 ^ n| ≤ 10 ^ 15 - 1 := by
      have : |m * 10 ^ n| < 10 ^ 15 := by exact_mod_cast hlt
      omega
    have : ((|m * 10 ^ n| : ℤ) : ℚ) ≤ 10 ^ 15 - 1 := by exact_mod_cast this
    nlinarith
  generalize hx : dbl d = x at herr
  generalize hTT : (10 : ℚ) ^ (L - 15) = T at hT hdT e0 e1 e2 lo hi hi'
  have habs := abs_sub_abs_le_abs_sub x d
  have habs' := abs_sub_abs_le_abs_sub d x
  rw [abs_sub_comm d x] at habs'
  have hxhi : |x| < 10 ^ 16 * T := by
    norm_num at herr hi hi' ⊢
    linarith
  have hxlo : 10 ^ 14 * T ≤ |x| := by
    norm_num at herr lo ⊢
    linarith
  have hx0 : 0 < |x| := by
    refine lt_of_lt_of_le ?_ hxlo
    positivity
  have hxne : x ≠ 0 := abs_pos.1 hx0
  have hlog : Int.log 10 |x| = L - 1 ∨ Int.log 10 |x| = L := by
    have a : L - 1 ≤ Int.log 10 |x| := by
      rw [← Int.zpow_le_iff_le_log (by norm_num) hx0]; push_cast; rw [e2]; exact hxlo
    have b : Int.log 10 |x| < L + 1 := by
      rw [← Int.lt_zpow_iff_log_lt (by norm_num) hx0]; push_cast; rw [e1]; exact hxhi
    omega
  unfold dec15
  rcases hlog with hl | hl
  · have hu : ulp 10 15 x = T := by
      unfold ulp; rw [hl, ← hTT]; push_cast; congr 1; ring
    apply rnd_near (by norm_num) hxne (m * 10 ^ n * 10)
    · rw [hu, hdT]; push_cast; ring
    · rw [hu]
      have : |x| < 10 ^ 15 * T := by
        rw [← e0]
        have := Int.lt_zpow_succ_log_self (b := 10) (by norm_num) |x|
        rw [hl] at this
        push_cast at this
        rwa [sub_add_cancel] at this
      norm_num at herr this lo ⊢
      linarith
  · have hu : ulp 10 15 x = 10 * T := by
      unfold ulp
      rw [hl, ← hTT, show (L - ((15 : ℕ) : ℤ) + 1) = 1 + (L - 15) by push_cast; ring]
      push_cast
      rw [zpow_add₀ (by norm_num)]; norm_num
    apply rnd_near (by norm_num) hxne (m * 10 ^ n)
    · rw [hu, hdT]
    · rw [hu]
      norm_num at herr hi ⊢
      linarith

theorem back_literal {x : ℚ} (h : Literal x) : back x = x := by
  obtain ⟨d, hd, rfl⟩ := h
  unfold back
  rw [dec15_dbl hd]

/-- C121, all numbers: the number that arrives differs by at most 6e-15 of its size. -/
theorem C121_error (x : ℚ) : |back x - x| ≤ |x| * (6 / 10 ^ 15) := by
  have h1 := dec15_rel x
  have h2 := dbl_rel (dec15 x)
  unfold back
  have h3 := abs_sub_abs_le_abs_sub (dec15 x) x
  have h4 := abs_sub_le (dbl (dec15 x)) (dec15 x) x
  have hp := abs_nonneg x
  norm_num at h1 h2 ⊢
  linarith

theorem back_range {x : ℚ} (h : |x| ≤ 10 ^ 300) : |back x| < 2 ^ 1024 := by
  have h1 := C121_error x
  have h2 := abs_sub_abs_le_abs_sub (back x) x
  have h3 : |back x| ≤ 2 * 10 ^ 300 := by
    have := abs_nonneg x
    generalize (10 : ℚ) ^ 300 = H at h ⊢
    norm_num at h1 ⊢
    linarith
  exact h3.trans_lt (by decide +kernel)

/-! ### Lists -/

theorem formatFloat_chars (x : ℚ) : ∀ c ∈ formatFloat x, c ∈ "0123456789eE+-.".toList := by
  obtain ⟨sg, ip, p, fp, ex, e, hsg, hip, hfp, hpt, -, hex⟩ := (strtod_formatFloat x [] stops_nil).1
  have dig : ∀ c : Char, '0' ≤ c ∧ c ≤ '9' → c ∈ "0123456789eE+-.".toList := by
    intro c hc
    have h1 : 48 ≤ c.toNat := hc.1
    have h2 : c.toNat ≤ 57 := hc.2
    have hcn : c = Char.ofNat c.toNat := (Char.ofNat_toNat c).symm
    rw [hcn]
    generalize c.toNat = n at h1 h2
    interval_cases n <;> decide
  intro c hc
  rw [e] at hc
  simp only [List.mem_append] at hc
  rcases hc with (((hc | hc) | hc) | hc) | hc
  · rcases hsg with rfl | rfl | rfl <;> simp at hc <;> subst hc <;> decide
  · exact dig c (hip c hc)
  · rcases hpt with rfl | ⟨rfl, -⟩ <;> simp at hc
    subst hc; decide
  · exact dig c (hfp c hc)
  · rcases hex with rfl | ⟨e, s, ds, rfl, he, hs, -, hds⟩
    · simp at hc
    · simp only [List.cons_append, List.mem_cons, List.mem_append] at hc
      rcases hc with rfl | hc | hc
      · rcases he with rfl | rfl <;> decide
      · rcases hs with rfl | rfl | rfl <;> simp at hc <;> subst hc <;> decide
      · exact dig c (hds c hc)

theorem formatFloat_ne (x : ℚ) : formatFloat x ≠ [] := by
  intro h
  have := (strtod_formatFloat x [] stops_nil).2
  rw [h] at this
  simp [strtod, sign, decimal, frac, special] at this

theorem formatFloat_not {x : ℚ} {c : Char} (h : c ∈ formatFloat x) (p : Char → Bool) (hp : ∀ c ∈ "0123456789eE+-.".toList, p c = false) : p c = false :=
  hp c (formatFloat_chars x c h)

/-- A token is read up to the delimiter. -/
theorem tokens_run (d : Char → Bool) (t r cur : List Char) (h : ∀ c ∈ t, d c = false) : tokens d cur (t ++ r) = tokens d (t.reverse ++ cur) r := by
  induction t generalizing cur with
  | nil => rfl
  | cons c t ih =>
    rw [List.cons_append, tokens, if_neg (by simp [h c (by simp)]), ih _ fun c hc => h c (by simp [hc])]
    simp

theorem split_token (d : Char) (t r : List Char) (hne : t ≠ []) (h : d ∉ t) : split d (t ++ d :: r) = t :: split d r := by
  have h' : ∀ c ∈ t, (c == d) = false := fun c hc => by
    rw [beq_eq_false_iff_ne]; rintro rfl; exact h hc
  unfold split
  rw [tokens_run _ _ _ _ h', tokens, if_pos (by simp), if_neg (by simpa using hne)]
  simp

theorem split_last (d : Char) (t : List Char) (hne : t ≠ []) (h : d ∉ t) : split d t = [t] := by
  have h' : ∀ c ∈ t, (c == d) = false := fun c hc => by
    rw [beq_eq_false_iff_ne]; rintro rfl; exact h hc
  have := tokens_run (· == d) t [] [] h'
  unfold split
  rw [List.append_nil] at this
  rw [this, tokens, if_neg (by simpa using hne)]
  simp

theorem comma_not (x : ℚ) : ',' ∉ formatFloat x := fun h => absurd (formatFloat_chars x _ h) (by decide)

theorem split_joinComma {xs : List ℚ} (h : xs ≠ []) : split ',' (joinComma xs) = xs.map formatFloat := by
  induction xs with
  | nil => exact absurd rfl h
  | cons x xs ih =>
    cases xs with
    | nil => exact split_last _ _ (formatFloat_ne x) (comma_not x)
    | cons y ys =>
      rw [joinComma, split_token _ _ _ (formatFloat_ne x) (comma_not x), ih (by simp)]
      rfl

theorem joinComma_chars (xs : List ℚ) : ∀ c ∈ joinComma xs, c ∈ "0123456789eE+-.,".toList := by
  have sub : ∀ c ∈ "0123456789eE+-.".toList, c ∈ "0123456789eE+-.,".toList := by decide
  induction xs with
  | nil => intro c hc; simp [joinComma] at hc
  | cons x xs ih =>
    cases xs with
    | nil => exact fun c hc => sub c (formatFloat_chars x c hc)
    | cons y ys =>
      intro c hc
      rw [joinComma, List.mem_append, List.mem_cons] at hc
      rcases hc with hc | rfl | hc
      · exact sub c (formatFloat_chars x c hc)
      · decide
      · exact ih c hc

/-- What a list that passes the checks of `_normalize_float_array` is. -/
theorem normalize_some {xs ys : List ℚ} (h : normalize xs = some ys) : ys = xs ∧ xs ≠ [] ∧ (∀ x ∈ xs, 0 ≤ x) ∧ xs.Pairwise (· < ·) := by
  unfold normalize at h
  split_ifs at h with h1 h2 h3
  injection h with h
  refine ⟨h.symm, h1, ?_, ?_⟩
  · intro x hx
    by_contra hc
    exact h2 (List.any_eq_true.2 ⟨x, hx, by simpa using hc⟩)
  · exact List.isChain_iff_pairwise.1 h3

/-- How a list arrives, if it is still ascending. -/
theorem parse_joinComma (file : List Char → Option (List Char)) {xs : List ℚ} (hne : xs ≠ []) (hr : ∀ x ∈ xs, |x| ≤ 10 ^ 300)
    (hn : ∀ x ∈ xs, 0 ≤ back x) (hs : (xs.map back).Pairwise (· < ·)) : parseReals file (joinComma xs) = .ok (xs.map fun x => .num (back x)) := by
  have e : (split ',' (joinComma xs)).map atof = xs.map fun x => .num (back x) := by
    rw [split_joinComma hne, List.map_map]
    exact List.map_congr_left fun x hx => atof_formatFloat x (back_range (hr x hx))
  have := C36_accepts file (joinComma xs) (joinComma_chars xs) (by rw [split_joinComma hne]; simpa using hne)
    (by
      rw [e]
      intro v hv
      obtain ⟨x, hx, rfl⟩ := List.mem_map.1 hv
      exact hn x hx)
    (by
      rw [e, List.pairwise_map]
      rw [List.pairwise_map] at hs
      exact hs)
  rw [this, e]

/-- C121: a number of at most fifteen significant digits arrives unchanged in any option that is read with `%lf`, whatever follows it. -/
theorem C121_number {x : ℚ} (h : Literal x) (hx : |x| ≤ 10 ^ 300) (r : List Char) (hr : ∀ c, r.head? = some c → c = '/' ∨ c = ',') :
    scanReal (formatFloat x ++ r) = some (.num x, r) := by
  have := scanReal_formatFloat x r (by intro c hc; rcases hr c hc with rfl | rfl <;> decide) (back_range hx)
  rwa [back_literal h] at this

/-- C121: a list of depths or distances that Python accepts, of numbers with at most fifteen significant digits, arrives unchanged. -/
theorem C121_list_partial (file : List Char → Option (List Char)) {xs ys : List ℚ} (h : normalize xs = some ys) (hx : ∀ x ∈ xs, Literal x)
    (hr : ∀ x ∈ xs, |x| ≤ 10 ^ 300) : parseReals file (joinComma ys) = .ok (xs.map .num) := by
  obtain ⟨rfl, hne, hn, hs⟩ := normalize_some h
  have e : ys.map back = ys := by
    conv_rhs => rw [← List.map_id ys]
    exact List.map_congr_left fun x hx' => back_literal (hx x hx')
  rw [parse_joinComma file hne hr (fun x hx' => by rw [back_literal (hx x hx')]; exact hn x hx') (by rw [e]; exact hs)]
  congr 1
  exact List.map_congr_left fun x hx' => by rw [back_literal (hx x hx')]

/-- C121 does not hold for all numbers: a third arrives as another number. -/
theorem C121_violated : ∃ x : ℚ, dbl x = x ∧ normalize [x] = some [x] ∧ ∃ y, y ≠ x ∧
    ∀ file, parseReals file (joinComma [x]) = .ok [.num y] :=
  ⟨dbl (1/3), by decide +kernel, by decide +kernel, back (dbl (1/3)), by decide +kernel, fun file => by
    have := parse_joinComma file (xs := [dbl (1/3)]) (by simp) (by simp only [List.mem_singleton, forall_eq]; decide +kernel)
      (by simp only [List.mem_singleton, forall_eq]; decide +kernel) (by simp)
    simpa using this⟩

/-- C121 does not hold for all lists: two neighbouring distances are accepted by Python and refused by the program. -/
theorem C121_violated_list : ∃ x y : ℚ, dbl x = x ∧ dbl y = y ∧ normalize [x, y] = some [x, y] ∧
    parseReals (fun _ => none) (joinComma [x, y]) = .err :=
  ⟨100, 100 + 1 / 2 ^ 46, by decide +kernel, by decide +kernel, by decide +kernel, by decide +kernel⟩

/-- A case of `C121_list_partial`: three distances. -/
example : normalize [dbl (1/10), 10, dbl (6371/10)] = some [dbl (1/10), 10, dbl (6371/10)] ∧
    (∀ x ∈ [dbl (1/10), 10, dbl (6371/10)], Literal x) ∧ (∀ x ∈ [dbl (1/10), 10, dbl (6371/10)], |x| ≤ 10 ^ 300) ∧
    joinComma [dbl (1/10), 10, dbl (6371/10)] = "0.1,10,637.1".toList := by
  refine ⟨by decide +kernel, ?_, by decide +kernel, by decide +kernel⟩
  simp only [List.mem_cons, List.not_mem_nil, or_false, forall_eq_or_imp, forall_eq]
  exact ⟨⟨1/10, ⟨1, -1, by norm_num, by norm_num⟩, rfl⟩, ⟨10, ⟨10, 0, by norm_num, by norm_num⟩, by decide +kernel⟩,
    ⟨6371/10, ⟨6371, -1, by norm_num, by norm_num⟩, rfl⟩⟩

end GRT.Python
