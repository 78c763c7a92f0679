import Verif.Travt.Table

/-! The table of `grt travt` (C115). -/

namespace GRT.Travt

open GRT.Num GRT.Files GRT.Model1D

theorem rint_near {q : ℚ} {n : ℤ} (h : |q - n| < 1 / 2) : rint q = n := by
  have e := rint_err q
  have : |((rint q - n : ℤ) : ℚ)| < 1 := by
    push_cast
    have := abs_sub_le (rint q : ℚ) q n
    linarith
  have : |rint q - n| < 1 := by exact_mod_cast this
  have := Int.abs_lt_one_iff.1 this
  linarith

theorem trunc_near (x : ℚ) : |x - trunc x| < 1 := by
  unfold trunc
  split
  · rw [abs_lt]; constructor <;> linarith [Int.floor_le x, Int.lt_floor_add_one x]
  · rw [abs_lt]; constructor <;> linarith [Int.le_ceil x, Int.ceil_lt_add_one x]

theorem toInt_lt {x : ℚ} {z : ℤ} (h : toInt x = some z) : x < 2 ^ 31 ∧ z = trunc x := by
  unfold toInt at h
  split at h
  swap
  · cases h
  rename_i hz
  injection h with h
  refine ⟨?_, h.symm⟩
  unfold trunc at hz
  split at hz
  · have h2 : ⌊x⌋ + 1 ≤ 2 ^ 31 := hz.2
    have h3 : ((⌊x⌋ + 1 : ℤ) : ℚ) ≤ ((2 ^ 31 : ℤ) : ℚ) := by exact_mod_cast h2
    push_cast at h3
    linarith [Int.lt_floor_add_one x]
  · rename_i h0
    have : (0 : ℚ) < 2 ^ 31 := by positivity
    linarith

/-- `x` is `v` up to the rounding of `j + 1` operations. -/
def Near (j : ℕ) (v x : ℚ) : Prop := |x - v| ≤ v * ((j + 1) / 2 ^ 52)

theorem near_zero {v : ℚ} (hv : 0 ≤ v) : Near 0 v (dbl v) := by
  have := dbl_rel v
  rw [abs_of_nonneg hv] at this
  refine this.trans ?_
  rw [div_eq_mul_inv]
  gcongr
  norm_num

theorem near_step {j : ℕ} (hj : j ≤ 8) {v x : ℚ} (hv : 0 ≤ v) (h : Near j v x) : Near (j + 1) (v * 10) (times10 x) := by
  unfold Near times10 at *
  have hj' : (j : ℚ) ≤ 8 := by exact_mod_cast hj
  have e := dbl_rel (x * 10)
  have c : ((j : ℚ) + 1) / 2 ^ 52 ≤ 1 := by rw [div_le_one (by positivity)]; linarith
  have hx : |x| ≤ 2 * v := by
    have := abs_sub_abs_le_abs_sub x v
    rw [abs_of_nonneg hv] at this
    have : v * ((j + 1) / 2 ^ 52) ≤ v * 1 := by gcongr
    linarith
  have h10 : |x * 10| = |x| * 10 := by rw [abs_mul]; norm_num
  rw [h10] at e
  have t := abs_sub_le (dbl (x * 10)) (x * 10) (v * 10)
  have h3 : |x * 10 - v * 10| = |x - v| * 10 := by rw [← sub_mul, abs_mul]; norm_num
  rw [h3] at t
  have h4 : |x| * 10 / 2 ^ 53 ≤ v * 10 / 2 ^ 52 := by
    rw [div_le_div_iff₀ (by positivity) (by positivity)]
    nlinarith
  push_cast
  calc _ ≤ |x| * 10 / 2 ^ 53 + |x - v| * 10 := by linarith
    _ ≤ v * 10 / 2 ^ 52 + v * ((j + 1) / 2 ^ 52) * 10 := by gcongr
    _ = _ := by ring

/-- `v` is a number with at most seven decimals after `j` multiplications by ten, and fewer than twelve digits. -/
def Dec (j : ℕ) (v : ℚ) : Prop := ∃ (A k : ℕ), k ≤ 7 ∧ A < 2 ^ 40 ∧ v = A / 10 ^ k * 10 ^ j

theorem Dec.nonneg {j : ℕ} {v : ℚ} (h : Dec j v) : 0 ≤ v := by
  obtain ⟨A, k, -, -, rfl⟩ := h; positivity

theorem Dec.succ {j : ℕ} {v : ℚ} (h : Dec j v) : Dec (j + 1) (v * 10) := by
  obtain ⟨A, k, h1, h2, rfl⟩ := h
  exact ⟨A, k, h1, h2, by ring⟩

theorem whole_int {j : ℕ} (hj : j ≤ 7) {v x : ℚ} (hd : Dec j v) (hn : Near j v x) (h : whole x = some true) : ∃ n : ℕ, v = n := by
  obtain ⟨A, k, hk, hA, rfl⟩ := hd
  rcases le_or_gt k j with hkj | hkj
  · refine ⟨A * 10 ^ (j - k), ?_⟩
    push_cast
    rw [div_mul_eq_mul_div, div_eq_iff (by positivity), mul_assoc, ← pow_add, Nat.sub_add_cancel hkj]
  set e := k - j with he
  have hv : (A : ℚ) / 10 ^ k * 10 ^ j = A / 10 ^ e := by
    rw [div_mul_eq_mul_div, div_eq_div_iff (by positivity) (by positivity), mul_assoc, ← pow_add, he]
    congr 2; omega
  rw [hv] at hn ⊢
  by_contra hno
  unfold whole at h
  rcases hz : toInt x with _ | z
  · rw [hz] at h; simp at h
  rw [hz] at h
  have h : |dbl (x - z)| ≤ dbl (1 / 10 ^ 8) := of_decide_eq_true (Option.some.inj h)
  have p10 : (0 : ℚ) < 10 ^ e := by positivity
  -- distance of `v` from every integer
  have far : (1 : ℚ) / 10 ^ e ≤ |(A : ℚ) / 10 ^ e - z| := by
    have hne : (A : ℤ) - z * 10 ^ e ≠ 0 := by
      intro h0
      apply hno
      have hz0 : 0 ≤ z := by
        by_contra hneg
        have : z * 10 ^ e < 0 := mul_neg_of_neg_of_pos (not_le.1 hneg) (by positivity)
        have : (0 : ℤ) ≤ A := by positivity
        linarith
      refine ⟨z.toNat, ?_⟩
      rw [div_eq_iff p10.ne']
      have e1 : (A : ℤ) = z * 10 ^ e := by linarith
      have e2 : ((z.toNat : ℤ)) = z := Int.toNat_of_nonneg hz0
      have : (A : ℤ) = (z.toNat : ℤ) * 10 ^ e := by rw [e2]; exact e1
      exact_mod_cast this
    have h1 : (1 : ℤ) ≤ |(A : ℤ) - z * 10 ^ e| := Int.one_le_abs hne
    have h2 : (1 : ℚ) ≤ |(A : ℚ) - z * 10 ^ e| := by exact_mod_cast h1
    have h3 : (A : ℚ) / 10 ^ e - z = (A - z * 10 ^ e) / 10 ^ e := by field_simp
    rw [h3, abs_div, abs_of_pos p10]
    gcongr
  have hj' : (j : ℚ) ≤ 7 := by exact_mod_cast hj
  have hn' : |x - A / 10 ^ e| ≤ 1 / 10 ^ e / 100 := by
    refine hn.trans ?_
    have hA' : (A : ℚ) ≤ 2 ^ 40 := by exact_mod_cast hA.le
    have : (A : ℚ) * ((j + 1) / 2 ^ 52) ≤ 1 / 100 := by
      calc (A : ℚ) * ((j + 1) / 2 ^ 52) ≤ 2 ^ 40 * ((7 + 1) / 2 ^ 52) := by gcongr
        _ ≤ _ := by norm_num
    calc (A : ℚ) / 10 ^ e * ((j + 1) / 2 ^ 52) = (A : ℚ) * ((j + 1) / 2 ^ 52) / 10 ^ e := by ring
      _ ≤ 1 / 100 / 10 ^ e := by gcongr
      _ = _ := by ring
  have he7 : (1 : ℚ) / 10 ^ 7 ≤ 1 / 10 ^ e := by
    apply one_div_le_one_div_of_le p10
    exact pow_le_pow_right₀ (by norm_num) (by omega)
  have hxz : 99 / 100 * (1 / 10 ^ e) ≤ |x - z| := by
    have := abs_sub_le ((A : ℚ) / 10 ^ e) x z
    rw [abs_sub_comm _ x] at this
    linarith
  have r1 := dbl_rel (x - z)
  have hlo : |x - z| * (1 - 1 / 2 ^ 53) ≤ |dbl (x - z)| := by
    have := abs_sub_abs_le_abs_sub (x - z) (dbl (x - z))
    rw [abs_sub_comm (x - (z : ℚ)) _] at this
    have e3 : |x - (z : ℚ)| * (1 - 1 / 2 ^ 53) = |x - z| - |x - z| / 2 ^ 53 := by ring
    rw [e3]; linarith
  have r2 := dbl_rel (1 / 10 ^ 8)
  rw [abs_of_nonneg (by positivity : (0 : ℚ) ≤ 1 / 10 ^ 8)] at r2
  have r2' := (abs_le.1 r2).2
  have : (99 / 100 * (1 / 10 ^ 7)) * (1 - 1 / 2 ^ 53) ≤ |x - z| * (1 - 1 / 2 ^ 53) := by
    apply mul_le_mul_of_nonneg_right _ (by norm_num)
    linarith
  norm_num at *
  linarith

theorem whole_lt {j : ℕ} (hj : j ≤ 7) {v x : ℚ} (hv : 0 ≤ v) (hn : Near j v x) {b : Bool} (h : whole x = some b) : v < 2 ^ 32 := by
  unfold whole at h
  rcases hz : toInt x with _ | z
  · rw [hz] at h; simp at h
  have hx := (toInt_lt hz).1
  have hj' : (j : ℚ) ≤ 7 := by exact_mod_cast hj
  have c : ((j : ℚ) + 1) / 2 ^ 52 ≤ 1 / 4 := by rw [div_le_iff₀ (by positivity)]; linarith
  have h1 := (abs_le.1 hn).1
  have h2 : v * ((j + 1) / 2 ^ 52) ≤ v * (1 / 4) := by gcongr
  linarith

/-- What the loop finds: a number of decimals at which all three numbers are whole, and not too large. -/
theorem placeLoop_spec (fuel : ℕ) : ∀ (j : ℕ) (a b d x y z : ℚ), j + fuel = 8 → Dec j a → Dec j b → Dec j d → Near j a x → Near j b y → Near j d z →
    (j ≠ 0 → a < 2 ^ 36 ∧ b < 2 ^ 36 ∧ d < 2 ^ 36) →
    ∀ p, placeLoop fuel j (x, y, z) = some p → j ≤ p ∧ p ≤ 8 ∧
      ∃ A B D : ℕ, a * 10 ^ (p - j) = A ∧ b * 10 ^ (p - j) = B ∧ d * 10 ^ (p - j) = D ∧ A < 2 ^ 36 ∧ B < 2 ^ 36 ∧ D < 2 ^ 36 := by
  have up : ∀ v : ℚ, Dec 8 v → ∃ n : ℕ, v = n := by
    rintro v ⟨A, k, hk, -, rfl⟩
    refine ⟨A * 10 ^ (8 - k), ?_⟩
    push_cast
    rw [div_mul_eq_mul_div, div_eq_iff (by positivity), mul_assoc, ← pow_add, Nat.sub_add_cancel (by omega)]
  induction fuel with
  | zero =>
    intro j a b d x y z hj ha hb hd na nb nd hs p h
    simp only [placeLoop, Option.some.injEq] at h
    subst h
    have hj8 : j = 8 := by omega
    subst hj8
    obtain ⟨A, rfl⟩ := up a ha
    obtain ⟨B, rfl⟩ := up b hb
    obtain ⟨D, rfl⟩ := up d hd
    obtain ⟨s1, s2, s3⟩ := hs (by norm_num)
    exact ⟨le_rfl, by omega, A, B, D, by simp, by simp, by simp, by exact_mod_cast s1, by exact_mod_cast s2, by exact_mod_cast s3⟩
  | succ fuel ih =>
    intro j a b d x y z hj ha hb hd na nb nd hs p h
    have hj7 : j ≤ 7 := by omega
    unfold placeLoop at h
    split at h
    swap
    · cases h
    rename_i wa wb wd ea eb ed
    have la := whole_lt hj7 ha.nonneg na ea
    have lb := whole_lt hj7 hb.nonneg nb eb
    have ld := whole_lt hj7 hd.nonneg nd ed
    split at h
    · rename_i hall
      simp only [Bool.and_eq_true] at hall
      obtain ⟨⟨rfl, rfl⟩, rfl⟩ := hall
      injection h with h
      subst h
      obtain ⟨A, rfl⟩ := whole_int hj7 ha na ea
      obtain ⟨B, rfl⟩ := whole_int hj7 hb nb eb
      obtain ⟨D, rfl⟩ := whole_int hj7 hd nd ed
      have w : ∀ n : ℕ, (n : ℚ) < 2 ^ 32 → n < 2 ^ 36 := by
        intro n hn
        have : n < 2 ^ 32 := by exact_mod_cast hn
        omega
      exact ⟨le_rfl, by omega, A, B, D, by simp, by simp, by simp, w _ la, w _ lb, w _ ld⟩
    · have w : ∀ v : ℚ, v < 2 ^ 32 → v * 10 < 2 ^ 36 := by intro v hv; norm_num at *; linarith
      obtain ⟨h1, h2, A, B, D, e1, e2, e3, r⟩ := ih (j + 1) (a * 10) (b * 10) (d * 10) _ _ _ (by omega) ha.succ hb.succ hd.succ
        (near_step (by omega) ha.nonneg na) (near_step (by omega) hb.nonneg nb) (near_step (by omega) hd.nonneg nd)
        (fun _ => ⟨w _ la, w _ lb, w _ ld⟩) p h
      have hp : ∀ v : ℚ, v * 10 * 10 ^ (p - (j + 1)) = v * 10 ^ (p - j) := by
        intro v
        rw [mul_assoc, ← pow_succ']
        congr 2; omega
      rw [hp] at e1 e2 e3
      exact ⟨by omega, h2, A, B, D, e1, e2, e3, r⟩

theorem entry_eq {a d : ℚ} {p A D i : ℕ} (ha : a * 10 ^ p = A) (hd : d * 10 ^ p = D) (hT : A + D * i < 2 ^ 40) (hi : i < 2 ^ 53) :
    entry p (dbl a) (dbl d) i = .dec p (A + D * i : ℕ) := by
  have p10 : (0 : ℚ) < 10 ^ p := by positivity
  have a0 : 0 ≤ a := by
    by_contra h
    have : a * 10 ^ p < 0 := mul_neg_of_neg_of_pos (not_le.1 h) p10
    rw [ha] at this
    exact absurd this (not_lt.2 (by positivity))
  have d0 : 0 ≤ d := by
    by_contra h
    have : d * 10 ^ p < 0 := mul_neg_of_neg_of_pos (not_le.1 h) p10
    rw [hd] at this
    exact absurd this (not_lt.2 (by positivity))
  unfold entry
  rw [dbl_nat i hi]
  congr 1
  apply rint_near
  have i0 : (0 : ℚ) ≤ i := by positivity
  have e1 := dbl_rel a
  rw [abs_of_nonneg a0] at e1
  have e2 := dbl_rel d
  rw [abs_of_nonneg d0] at e2
  have dd0 : 0 ≤ dbl d := rnd_nonneg 2 53 (by norm_num) d d0
  have e2' : |dbl d * i - d * i| ≤ d * i / 2 ^ 53 := by
    rw [← sub_mul, abs_mul, abs_of_nonneg i0, mul_div_right_comm]
    gcongr
  have e3 := dbl_rel (dbl d * i)
  rw [abs_of_nonneg (mul_nonneg dd0 i0)] at e3
  have aa0 : 0 ≤ dbl a := rnd_nonneg 2 53 (by norm_num) a a0
  have f0 : 0 ≤ dbl (dbl d * i) := rnd_nonneg 2 53 (by norm_num) _ (mul_nonneg dd0 i0)
  have u0 : 0 ≤ d * i := mul_nonneg d0 i0
  generalize dbl d * (i : ℚ) = u at *
  generalize dbl u = w at *
  have e4 := dbl_rel (dbl a + w)
  rw [abs_of_nonneg (add_nonneg aa0 f0)] at e4
  generalize dbl (dbl a + w) = x at *
  generalize dbl a = y at *
  have hb : |x - (a + d * i)| ≤ (a + d * i) / 2 ^ 50 := by
    generalize d * (i : ℚ) = t at *
    rw [abs_le] at *
    norm_num at *
    constructor <;> linarith
  have hTq : (a + d * i) * 10 ^ p = ((A + D * i : ℕ) : ℚ) := by push_cast; rw [← ha, ← hd]; ring
  have hx : |x * 10 ^ p - ((A + D * i : ℕ) : ℚ)| ≤ ((A + D * i : ℕ) : ℚ) / 2 ^ 50 := by
    rw [← hTq, ← sub_mul, abs_mul, abs_of_pos p10, mul_div_right_comm]
    gcongr
  have hT' : ((A + D * i : ℕ) : ℚ) < 2 ^ 40 := by exact_mod_cast hT
  rw [Int.cast_natCast]
  refine lt_of_le_of_lt hx ?_
  rw [div_lt_iff₀ (by positivity)]
  refine hT'.trans ?_
  norm_num

theorem rowCount_eq {a b d : ℚ} {p A B D : ℕ} (ha : a * 10 ^ p = A) (hb : b * 10 ^ p = B) (hd : d * 10 ^ p = D) (hAB : A ≤ B) (hD : 0 < D)
    (hB : B < 2 ^ 36) (hD2 : D < 2 ^ 36) :
    ∃ n, rowCount (dbl a) (dbl b) (dbl d) = some n ∧ |(n : ℤ) - ((B - A) / D + 1 : ℕ)| ≤ 1 ∧ ∀ i < n, A + D * i ≤ B + D := by
  have p10 : (0 : ℚ) < 10 ^ p := by positivity
  have ea : a = A / 10 ^ p := by rw [eq_div_iff p10.ne', ha]
  have eb : b = B / 10 ^ p := by rw [eq_div_iff p10.ne', hb]
  have ed : d = D / 10 ^ p := by rw [eq_div_iff p10.ne', hd]
  have hD' : (0 : ℚ) < D := by exact_mod_cast hD
  have hD1 : (1 : ℚ) ≤ D := by exact_mod_cast hD
  have hAB' : (A : ℚ) ≤ B := by exact_mod_cast hAB
  have hB' : (B : ℚ) ≤ 2 ^ 36 := by exact_mod_cast hB.le
  have a0 : 0 ≤ a := by rw [ea]; positivity
  have b0 : 0 ≤ b := by rw [eb]; positivity
  have d0 : 0 < d := by rw [ed]; positivity
  have hab : a ≤ b := by rw [ea, eb]; gcongr
  have e1 := dbl_rel a
  rw [abs_of_nonneg a0] at e1
  have e2 := dbl_rel b
  rw [abs_of_nonneg b0] at e2
  have e3 := dbl_rel d
  rw [abs_of_pos d0] at e3
  unfold rowCount
  have e4 := dbl_rel (dbl b - dbl a)
  have hba : |dbl b - dbl a| ≤ 2 * b := by
    rw [abs_le] at *
    norm_num at *
    constructor <;> linarith
  have hs : |dbl (dbl b - dbl a) - (b - a)| ≤ b / 2 ^ 50 := by
    have h4 : |dbl (dbl b - dbl a) - (dbl b - dbl a)| ≤ 2 * b / 2 ^ 53 := e4.trans (by gcongr)
    generalize dbl (dbl b - dbl a) = s at *
    rw [abs_le] at *
    norm_num at *
    constructor <;> linarith
  have dd0 : 0 < dbl d := by
    have := (abs_le.1 e3).1
    norm_num at this
    linarith
  have hdl : d / 2 ≤ dbl d := by
    have := (abs_le.1 e3).1
    norm_num at this
    linarith
  generalize dbl (dbl b - dbl a) = s at *
  have hr : s / dbl d * dbl d = s := div_mul_cancel₀ _ dd0.ne'
  have e5 := dbl_rel (s / dbl d)
  generalize s / dbl d = r at *
  set X : ℚ := (B - A) / D with hX
  have hXd : X * d = b - a := by
    rw [hX, ea, eb, ed]; field_simp
  have hX0 : 0 ≤ X := by rw [hX]; exact div_nonneg (by linarith) hD'.le
  have hX36 : X ≤ 2 ^ 36 := by
    rw [hX, div_le_iff₀ hD']
    have : (0 : ℚ) ≤ A := by positivity
    nlinarith
  have hbd : b ≤ 2 ^ 36 * d := by
    rw [eb, ed, ← mul_div_assoc]
    gcongr
    nlinarith
  -- `|r| ≤ 2^39`
  have hs2 : |s| ≤ 2 * b := by
    rw [abs_le] at *
    norm_num at *
    constructor <;> linarith
  have hrabs : |r| ≤ 2 ^ 38 := by
    have h1 : |r| * dbl d = |s| := by rw [← hr, abs_mul, abs_of_pos dd0]
    have h2 : |r| * (d / 2) ≤ 2 ^ 38 * (d / 2) := by
      calc |r| * (d / 2) ≤ |r| * dbl d := by gcongr
        _ ≤ 2 * b := by rw [h1]; exact hs2
        _ ≤ 2 * (2 ^ 36 * d) := by gcongr
        _ = _ := by ring
    exact le_of_mul_le_mul_right h2 (by linarith)
  have hrX : |r - X| ≤ 1 / 2 ^ 10 := by
    have h1 : (r - X) * d = (s - (b - a)) + r * (d - dbl d) := by rw [← hXd, ← hr]; ring
    have h2 : |r - X| * d ≤ 1 / 2 ^ 10 * d := by
      calc |r - X| * d = |(r - X) * d| := by rw [abs_mul, abs_of_pos d0]
        _ ≤ |s - (b - a)| + |r| * |d - dbl d| := by rw [h1, ← abs_mul]; exact abs_add_le _ _
        _ ≤ (2 ^ 36 * d) / 2 ^ 50 + 2 ^ 38 * (d / 2 ^ 53) := by
            rw [abs_sub_comm d]
            gcongr
            exact hs.trans (by gcongr)
        _ ≤ _ := by norm_num; linarith
    exact le_of_mul_le_mul_right h2 d0
  have hyX : |dbl r - X| ≤ 1 / 4 := by
    have t := abs_sub_le (dbl r) r X
    have : |r| / 2 ^ 53 ≤ 2 ^ 38 / 2 ^ 53 := by gcongr
    norm_num at *
    linarith
  generalize dbl r = y at *
  have f1 := Int.floor_le y
  have f2 := Int.lt_floor_add_one y
  have hy := abs_le.1 hyX
  have hfl0 : -1 ≤ ⌊y⌋ := Int.le_floor.2 (by push_cast; linarith)
  have hfl1 : ⌊y⌋ < 2 ^ 37 := by
    have : (⌊y⌋ : ℚ) < 2 ^ 37 := by norm_num at *; linarith
    exact_mod_cast this
  have hint : dbl ((⌊y⌋ : ℚ) + 1) = ((⌊y⌋ + 1 : ℤ) : ℚ) := by
    have := rnd_intCast 2 53 (by norm_num) (⌊y⌋ + 1) (by rw [abs_of_nonneg (by linarith)]; push_cast; omega)
    rw [← this]; push_cast; rfl
  dsimp only
  rw [hint, if_neg, Int.floor_intCast]
  swap
  · push Not
    have : (⌊y⌋ + 1 : ℤ) < 2 ^ 64 := by omega
    exact_mod_cast this
  refine ⟨_, rfl, ?_, ?_⟩
  · rw [Int.toNat_of_nonneg (by linarith)]
    have hq : ⌊X⌋ = ((B - A : ℕ) : ℤ) / (D : ℤ) := by
      rw [hX, ← Nat.cast_sub hAB]
      exact Rat.floor_natCast_div_natCast _ _
    push_cast
    rw [← hq]
    have g1 := Int.floor_le X
    have g2 := Int.lt_floor_add_one X
    have k1 : (⌊y⌋ : ℚ) < ⌊X⌋ + 2 := by linarith
    have k2 : (⌊X⌋ : ℚ) < ⌊y⌋ + 2 := by linarith
    have k1' : ⌊y⌋ < ⌊X⌋ + 2 := by exact_mod_cast k1
    have k2' : ⌊X⌋ < ⌊y⌋ + 2 := by exact_mod_cast k2
    rw [abs_le]; constructor <;> linarith
  · intro i hi
    have hi' : (i : ℤ) ≤ ⌊y⌋ := by omega
    have hiq : (i : ℚ) ≤ ⌊y⌋ := by exact_mod_cast hi'
    have hiX : (i : ℚ) ≤ X + 1 := by linarith
    have : (A : ℚ) + D * i ≤ B + D := by
      have h1 : (D : ℚ) * i ≤ D * (X + 1) := by gcongr
      have h2 : (D : ℚ) * X = B - A := by rw [hX]; field_simp
      linarith
    exact_mod_cast this

theorem dbl_lt {m n p : ℕ} (h : m < n) (hn : n < 2 ^ 52) : dbl ((m : ℚ) / 10 ^ p) < dbl ((n : ℚ) / 10 ^ p) := by
  have p10 : (0 : ℚ) < 10 ^ p := by positivity
  have e1 := dbl_rel ((m : ℚ) / 10 ^ p)
  have e2 := dbl_rel ((n : ℚ) / 10 ^ p)
  rw [abs_of_nonneg (show (0 : ℚ) ≤ (m : ℚ) / 10 ^ p by positivity)] at e1
  rw [abs_of_nonneg (show (0 : ℚ) ≤ (n : ℚ) / 10 ^ p by positivity)] at e2
  have e1' := (abs_le.1 e1).2
  have e2' := (abs_le.1 e2).1
  have h1 : (m : ℚ) + 1 ≤ n := by exact_mod_cast h
  have h2 : (n : ℚ) < 2 ^ 52 := by exact_mod_cast hn
  have key : (m : ℚ) / 10 ^ p + (m : ℚ) / 10 ^ p / 2 ^ 53 < (n : ℚ) / 10 ^ p - (n : ℚ) / 10 ^ p / 2 ^ 53 := by
    have h3 : ((m : ℚ) + n) / 2 ^ 53 < 1 := by
      rw [div_lt_one (by positivity), show (2 : ℚ) ^ 53 = 2 ^ 52 + 2 ^ 52 by norm_num]; linarith
    rw [add_div] at h3
    have : (m : ℚ) + m / 2 ^ 53 < n - n / 2 ^ 53 := by linarith
    calc (m : ℚ) / 10 ^ p + (m : ℚ) / 10 ^ p / 2 ^ 53 = ((m : ℚ) + m / 2 ^ 53) / 10 ^ p := by ring
      _ < ((n : ℚ) - n / 2 ^ 53) / 10 ^ p := by gcongr
      _ = _ := by ring
  linarith

theorem ascending_map (f : ℕ → ℚ) (h0 : ∀ i, 0 ≤ f i) (n : ℕ) : ∀ j, (∀ i, i < j + n → f i < f (i + 1)) →
    ascending (.num (f j)) ((List.range' (j + 1) n).map fun i => .num (f i)) = true := by
  induction n with
  | zero => intro j _; rfl
  | succ n ih =>
    intro j h
    rw [List.range'_succ, List.map_cons]
    simp only [ascending, Bool.and_eq_true, Bool.not_eq_true']
    refine ⟨⟨?_, ?_⟩, ih (j + 1) fun i hi => h i (by omega)⟩
    · simp [Val.lt, h0]
    · simp only [Val.lt, decide_eq_true_eq]
      exact h j (by omega)

theorem checked_range (f : ℕ → ℚ) (h0 : ∀ i, 0 ≤ f i) (n : ℕ) (h : ∀ i, i + 1 < n → f i < f (i + 1)) :
    checked ((List.range n).map fun i => Val.num (f i)) = true := by
  cases n with
  | zero => rfl
  | succ n =>
    rw [List.range_eq_range', List.range'_succ, List.map_cons]
    simp only [checked, Bool.and_eq_true, Bool.not_eq_true']
    exact ⟨by simp [Val.lt, h0], ascending_map f h0 n 0 fun i hi => h i (by omega)⟩

/-- C115 for ranges in double precision: for numbers `A/10^k`, `B/10^k`, `D/10^k` with at most seven decimals and twelve digits, if no conversion to
`int` is undefined, the option is accepted, every distance shown is exactly `r1 + i*dr`, and their number is right up to one.  Missing: the exact
number of rows and freedom from undefined behaviour, see `C115_violated_count` and `C115_violated_undef`. -/
theorem C115_decimals_partial {file : List Char → Option (List Char)} {arg : List Char} {A B D k : ℕ} (hk : k ≤ 7) (hD : 0 < D) (hAB : A ≤ B)
    (hB : B < 2 ^ 40) (hD2 : D < 2 ^ 40) (ht : composedOf listChars arg = false)
    (hs : scan3 arg = some (.num (dbl (A / 10 ^ k)), .num (dbl (B / 10 ^ k)), .num (dbl (D / 10 ^ k)))) :
    parseR file arg = .undef ∨ ∃ l, parseR file arg = .ok l ∧ |(l.length : ℤ) - ((B - A) / D + 1 : ℕ)| ≤ 1 ∧
      ∀ i (hi : i < l.length), ∃ p m, l[i] = .dec p m ∧ (m : ℚ) / 10 ^ p = (A + D * i) / 10 ^ k := by
  have k10 : (0 : ℚ) < 10 ^ k := by positivity
  have hA : A < 2 ^ 40 := by omega
  have dec : ∀ n : ℕ, n < 2 ^ 40 → Dec 0 ((n : ℚ) / 10 ^ k) := fun n hn => ⟨n, k, hk, hn, by simp⟩
  have near : ∀ n : ℕ, Near 0 ((n : ℚ) / 10 ^ k) (dbl ((n : ℚ) / 10 ^ k)) := fun n => near_zero (by positivity)
  have hd0 : 0 < dbl ((D : ℚ) / 10 ^ k) := by
    have := dbl_lt (p := k) hD (by omega)
    simpa [rnd_zero] using this
  have hab : dbl ((A : ℚ) / 10 ^ k) ≤ dbl ((B : ℚ) / 10 ^ k) := by
    rcases eq_or_lt_of_le hAB with rfl | h
    · exact le_rfl
    · exact (dbl_lt h (by omega)).le
  have c1 : (Val.lt (.num (dbl ((D : ℚ) / 10 ^ k))) (.num 0) || Val.num (dbl ((D : ℚ) / 10 ^ k)) == Val.num 0) = false := by
    simp only [Val.lt, Bool.or_eq_false_iff, decide_eq_false_iff_not, not_lt, beq_eq_false_iff_ne, ne_eq, Val.num.injEq]
    exact ⟨hd0.le, hd0.ne'⟩
  have c2 : Val.lt (.num (dbl ((B : ℚ) / 10 ^ k))) (.num (dbl ((A : ℚ) / 10 ^ k))) = false := by
    simp only [Val.lt, decide_eq_false_iff_not, not_lt]; exact hab
  have he : entries file arg = spread (.num (dbl (A / 10 ^ k))) (.num (dbl (B / 10 ^ k))) (.num (dbl (D / 10 ^ k))) := by
    unfold entries; rw [ht, hs]; rfl
  unfold parseR
  rw [he]
  unfold spread
  rw [c1, c2]
  simp only [Bool.false_eq_true, if_false]
  rcases hp : place (dbl ((A : ℚ) / 10 ^ k)) (dbl ((B : ℚ) / 10 ^ k)) (dbl ((D : ℚ) / 10 ^ k)) with _ | p
  · exact .inl rfl
  right
  obtain ⟨-, hp8, A', B', D', ea, eb, ed, sa, sb, sd⟩ := placeLoop_spec 8 0 _ _ _ _ _ _ rfl (dec A hA) (dec B hB) (dec D hD2) (near A) (near B) (near D)
    (fun h => absurd rfl h) p hp
  rw [Nat.sub_zero] at ea eb ed
  have p10 : (0 : ℚ) < 10 ^ p := by positivity
  have hAB' : A' ≤ B' := by
    have : (A' : ℚ) ≤ B' := by
      rw [← ea, ← eb]
      have : (A : ℚ) ≤ B := by exact_mod_cast hAB
      gcongr
    exact_mod_cast this
  have hD' : 0 < D' := by
    have : (0 : ℚ) < D' := by
      rw [← ed]
      have : (0 : ℚ) < D := by exact_mod_cast hD
      positivity
    exact_mod_cast this
  obtain ⟨n, hn, hcount, hlast⟩ := rowCount_eq ea eb ed hAB' hD' sb sd
  have hdiv : (B' - A') / D' = (B - A) / D := by
    have h1 : (((B' - A') / D' : ℕ) : ℤ) = (((B - A) / D : ℕ) : ℤ) := by
      push_cast
      rw [← Rat.floor_natCast_div_natCast, ← Rat.floor_natCast_div_natCast, Nat.cast_sub hAB', Nat.cast_sub hAB, ← ea, ← eb, ← ed]
      congr 1
      have : (D : ℚ) ≠ 0 := by exact_mod_cast hD.ne'
      field_simp
    exact_mod_cast h1
  rw [hdiv] at hcount
  simp only [hn]
  have hent : ∀ i < n, entry p (dbl ((A : ℚ) / 10 ^ k)) (dbl ((D : ℚ) / 10 ^ k)) i = .dec p (A' + D' * i : ℕ) := by
    intro i hi
    have hl := hlast i hi
    have : i ≤ D' * i := Nat.le_mul_of_pos_left i hD'
    exact entry_eq ea ed (by omega) (by omega)
  have hval : ((List.range n).map (entry p (dbl ((A : ℚ) / 10 ^ k)) (dbl ((D : ℚ) / 10 ^ k)))).map Shown.val =
      (List.range n).map fun i => Val.num (dbl (((A' + D' * i : ℕ) : ℚ) / 10 ^ p)) := by
    rw [List.map_map]
    apply List.map_congr_left
    intro i hi
    rw [Function.comp_apply, hent i (List.mem_range.1 hi)]
    simp only [Shown.val, Int.cast_natCast]
  have hchk : checked (((List.range n).map (entry p (dbl ((A : ℚ) / 10 ^ k)) (dbl ((D : ℚ) / 10 ^ k)))).map Shown.val) = true := by
    rw [hval]
    refine checked_range (fun i => dbl (((A' + D' * i : ℕ) : ℚ) / 10 ^ p)) (fun i => rnd_nonneg 2 53 (by norm_num) _ (by positivity)) n ?_
    intro i hi
    have := hlast (i + 1) hi
    exact dbl_lt (by rw [mul_add]; omega) (by omega)
  rw [if_pos hchk]
  refine ⟨_, rfl, by simpa using hcount, ?_⟩
  intro i hi
  have hi' : i < n := by simpa using hi
  refine ⟨p, (A' + D' * i : ℕ), ?_, ?_⟩
  · rw [List.getElem_map, List.getElem_range]
    exact hent i hi'
  · push_cast
    rw [← ea, ← ed]
    field_simp

/-- C115, whole numbers below `2^31`: the table shows exactly `r1, r1+dr, …` up to `r2`, without decimals. -/
theorem C115_integers {file : List Char → Option (List Char)} {arg : List Char} {A B D : ℕ} (hD : 0 < D) (hAB : A ≤ B)
    (hB : B < 2 ^ 31) (hD2 : D < 2 ^ 31) (ht : composedOf listChars arg = false) (hs : scan3 arg = some (.num A, .num B, .num D)) :
    parseR file arg = .ok ((List.range ((B - A) / D + 1)).map fun i => .dec 0 (A + D * i : ℕ)) := by
  have hd0 : (0 : ℚ) < D := by exact_mod_cast hD
  have c1 : (Val.lt (.num (D : ℚ)) (.num 0) || Val.num (D : ℚ) == Val.num 0) = false := by
    simp only [Val.lt, Bool.or_eq_false_iff, decide_eq_false_iff_not, not_lt, beq_eq_false_iff_ne, ne_eq, Val.num.injEq]
    exact ⟨hd0.le, hd0.ne'⟩
  have c2 : Val.lt (.num (B : ℚ)) (.num A) = false := by
    simp only [Val.lt, decide_eq_false_iff_not, not_lt]; exact_mod_cast hAB
  have he : entries file arg = spread (.num A) (.num B) (.num D) := by unfold entries; rw [ht, hs]; rfl
  have hw : ∀ n : ℕ, n < 2 ^ 31 → whole (n : ℚ) = some true := by
    intro n hn
    have h1 : trunc (n : ℚ) = n := by unfold trunc; rw [if_pos (by positivity)]; exact Int.floor_natCast n
    unfold whole toInt
    rw [h1, if_pos ⟨by omega, by exact_mod_cast hn⟩]
    simp only [Option.map_some, Int.cast_natCast, sub_self, dbl, rnd_zero, abs_zero]
    rw [decide_eq_true]
    exact rnd_nonneg 2 53 (by norm_num) _ (by positivity)
  have hp : place (A : ℚ) B D = some 0 := by
    unfold place placeLoop
    rw [hw A (by omega), hw B hB, hw D hD2]
    rfl
  have e2 : dbl ((B : ℚ) - A) = ((B - A : ℕ) : ℚ) := by rw [← Nat.cast_sub hAB]; exact dbl_nat _ (by omega)
  have hc : rowCount (A : ℚ) B D = some ((B - A) / D + 1) := by
    unfold rowCount
    rw [e2, floor_dbl_div _ _ hD (by omega)]
    have := Nat.div_le_self (B - A) D
    have e3 : ((((B - A) / D : ℕ) : ℤ) : ℚ) + 1 = (((B - A) / D + 1 : ℕ) : ℚ) := by push_cast; rfl
    dsimp only
    rw [e3, dbl_nat _ (by omega), if_neg]
    · rw [Int.floor_natCast, Int.toNat_natCast]
    · push Not
      exact_mod_cast (by omega : (B - A) / D + 1 < 2 ^ 64)
  have key : ∀ i, i < (B - A) / D + 1 → A + D * i ≤ B := by
    intro i hi
    have := (Nat.le_div_iff_mul_le hD).1 (Nat.lt_succ_iff.1 hi)
    rw [mul_comm] at this
    omega
  have hent : (List.range ((B - A) / D + 1)).map (entry 0 (A : ℚ) D) = (List.range ((B - A) / D + 1)).map fun i => .dec 0 (A + D * i : ℕ) := by
    apply List.map_congr_left
    intro i hi
    have hi := key i (List.mem_range.1 hi)
    have : i ≤ D * i := Nat.le_mul_of_pos_left i hD
    have h := entry_eq (a := (A : ℚ)) (d := D) (p := 0) (A := A) (D := D) (i := i) (by simp) (by simp) (by omega) (by omega)
    rwa [dbl_nat A (by omega), dbl_nat D (by omega)] at h
  unfold parseR
  rw [he]
  unfold spread
  rw [c1, c2]
  simp only [Bool.false_eq_true, if_false, hp, hc]
  rw [hent, List.map_map, if_pos]
  have : (Shown.val ∘ fun i : ℕ => Shown.dec 0 (A + D * i : ℕ)) = fun i => Val.num (dbl (((A + D * i : ℕ) : ℚ) / 10 ^ 0)) := by
    funext i; simp only [Function.comp_apply, Shown.val, Int.cast_natCast]
  rw [this]
  refine checked_range (fun i => dbl (((A + D * i : ℕ) : ℚ) / 10 ^ 0)) (fun i => rnd_nonneg 2 53 (by norm_num) _ (by positivity)) _ ?_
  intro i hi
  have := key (i + 1) hi
  exact dbl_lt (by rw [mul_add]; omega) (by omega)

end GRT.Travt
