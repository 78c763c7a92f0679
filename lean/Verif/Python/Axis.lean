import Verif.Modal.Options
import Verif.Python.OkadaProp

/-!
Ranges of fractions, in double precision: how far the coordinates of `-X` and `-Y` (C124, C126) and the frequencies of `-F` (C129) are from those asked for.
-/

namespace GRT.Python.StaticGrn

open GRT.Num GRT.Files GRT.Points GRT.Python GRT.Python.Syn GRT.Python.Grn

/-- What a range `a`, `b`, `d` of double numbers gives up to rounding: the number of steps is that of a quotient `(b - a) / d` changed by no more than `2^-51` of
itself, and the numbers are `a + i d` to within `2^-51` of `|a| + i d`. -/
structure Near (a b d : ℚ) (l : List ℚ) : Prop where
  upper : (l.length : ℚ) - 1 ≤ (b - a) / d * (1 + 1 / 2 ^ 51)
  lower : (b - a) / d * (1 - 1 / 2 ^ 51) < l.length
  value : ∀ i < l.length, |l.getD i 0 - (a + i * d)| ≤ (|a| + i * d) / 2 ^ 51

/-- A quotient that is not next to a whole number is counted exactly. -/
theorem Near.count {a b d : ℚ} {l : List ℚ} (h : Near a b d l) (hd : 0 < d) (hab : a ≤ b) (hl : l ≠ [])
    (hn : ∀ m : ℤ, (b - a) / d / 2 ^ 51 < |(b - a) / d - m|) : (l.length : ℤ) = ⌊(b - a) / d⌋ + 1 := by
  have hq : 0 ≤ (b - a) / d := div_nonneg (sub_nonneg.2 hab) hd.le
  obtain ⟨h1, h2, -⟩ := h
  generalize (b - a) / d = q at *
  have hlen : 0 < l.length := List.length_pos_of_ne_nil hl
  have f1 := Int.floor_le q
  have f2 := Int.lt_floor_add_one q
  rcases lt_trichotomy (l.length : ℤ) (⌊q⌋ + 1) with c | c | c
  · exfalso
    have c' : (l.length : ℚ) ≤ ⌊q⌋ := by exact_mod_cast (by omega : (l.length : ℤ) ≤ ⌊q⌋)
    have := hn ⌊q⌋
    rw [abs_of_nonneg (by linarith)] at this
    linarith
  · exact c
  · exfalso
    have c' : (⌊q⌋ : ℚ) + 1 ≤ (l.length : ℚ) - 1 := by
      have : (⌊q⌋ : ℤ) + 2 ≤ (l.length : ℤ) := by omega
      have : (⌊q⌋ : ℚ) + 2 ≤ (l.length : ℚ) := by exact_mod_cast this
      linarith
    have := hn (⌊q⌋ + 1)
    push_cast at this
    rw [abs_of_neg (by linarith)] at this
    linarith

theorem axis_near {a b d : ℚ} (hd : 0 < d) (hab : a ≤ b) (hq : (b - a) / d ≤ 2 ^ 50) : ∃ l, axis a b d = some l ∧ l ≠ [] ∧ Near a b d l := by
  have hba : 0 ≤ b - a := sub_nonneg.2 hab
  have hq0 : 0 ≤ (b - a) / d := div_nonneg hba hd.le
  have u1 := GRT.Python.dbl_rel (b - a)
  rw [abs_of_nonneg hba] at u1
  have u0 : 0 ≤ dbl (b - a) := rnd_nonneg 2 53 (by norm_num) _ hba
  have v1 := GRT.Python.dbl_rel (dbl (b - a) / d)
  rw [abs_of_nonneg (div_nonneg u0 hd.le)] at v1
  have w1 : |dbl (b - a) / d - (b - a) / d| ≤ (b - a) / d / 2 ^ 53 := by
    rw [← sub_div, abs_div, abs_of_pos hd, div_right_comm]
    exact div_le_div_of_nonneg_right u1 hd.le
  have v0 : 0 ≤ dbl (dbl (b - a) / d) := rnd_nonneg 2 53 (by norm_num) _ (div_nonneg u0 hd.le)
  generalize hv : dbl (dbl (b - a) / d) = v at *
  generalize hw : dbl (b - a) / d = w at *
  generalize hqq : (b - a) / d = q at *
  rw [abs_le] at v1 w1
  have n1 : v ≤ q * (1 + 1 / 2 ^ 51) := by norm_num at *; linarith [v1.1, v1.2, w1.1, w1.2]
  have n2 : q * (1 - 1 / 2 ^ 51) ≤ v := by norm_num at *; linarith [v1.1, v1.2, w1.1, w1.2]
  have k0 : 0 ≤ ⌊v⌋ := Int.floor_nonneg.2 v0
  have f1 := Int.floor_le v
  have f2 := Int.lt_floor_add_one v
  have hbig : v < 2 ^ 51 := by
    refine lt_of_le_of_lt n1 ?_
    norm_num at *
    linarith
  have kb : ⌊v⌋ < 2 ^ 51 := by
    have : (⌊v⌋ : ℚ) < 2 ^ 51 := f1.trans_lt hbig
    exact_mod_cast this
  have hk : dbl ((⌊v⌋ : ℚ) + 1) = ((⌊v⌋ + 1 : ℤ) : ℚ) := by
    have := dbl_int (⌊v⌋ + 1) (by rw [abs_of_nonneg (by omega)]; exact lt_of_le_of_lt (by omega : ⌊v⌋ + 1 ≤ 2 ^ 51) (by norm_num))
    push_cast at this ⊢
    exact this
  have hc : axisCount a b d = some (⌊v⌋ + 1).toNat := by
    unfold axisCount
    rw [hw, hv]
    dsimp only
    rw [hk, Int.floor_intCast, if_neg]
    rw [not_le]
    have : ⌊v⌋ + 1 < 2 ^ 64 := lt_of_le_of_lt (by omega : ⌊v⌋ + 1 ≤ 2 ^ 51) (by norm_num)
    exact_mod_cast this
  have hlenq : (((⌊v⌋ + 1).toNat : ℕ) : ℚ) = (⌊v⌋ : ℚ) + 1 := by
    have : (((⌊v⌋ + 1).toNat : ℕ) : ℤ) = ⌊v⌋ + 1 := Int.toNat_of_nonneg (by omega)
    exact_mod_cast this
  refine ⟨_, by unfold axis; rw [hc]; rfl, ?_, ?_⟩
  · intro h
    have := congrArg List.length h
    simp at this
    omega
  · refine ⟨?_, ?_, ?_⟩
    · rw [List.length_map, List.length_range, hlenq, hqq]
      linarith
    · rw [List.length_map, List.length_range, hlenq, hqq]
      linarith
    · intro i hi
      rw [List.getD_eq_getElem?_getD, List.getElem?_eq_getElem hi]
      simp only [Option.getD_some, List.getElem_map, List.getElem_range]
      rw [List.length_map, List.length_range] at hi
      have hib : i < 2 ^ 53 := by
        have : (i : ℤ) < 2 ^ 51 + 1 := by omega
        have h2 : (2 : ℤ) ^ 51 + 1 < 2 ^ 53 := by norm_num
        exact_mod_cast this.trans h2
      rw [dbl_nat i hib]
      have hdi : 0 ≤ d * i := mul_nonneg hd.le (Nat.cast_nonneg i)
      have t1 := GRT.Python.dbl_rel (d * i)
      rw [abs_of_nonneg hdi] at t1
      have t2 := GRT.Python.dbl_rel (a + dbl (d * i))
      generalize dbl (d * (i : ℚ)) = t at *
      have t3 : |a + t| ≤ |a| + (d * i + d * i / 2 ^ 53) := by
        refine (abs_add_le a t).trans (add_le_add_right ?_ _)
        calc |t| = |(t - d * i) + d * i| := by rw [sub_add_cancel]
          _ ≤ |t - d * i| + |d * i| := abs_add_le _ _
          _ ≤ _ := by rw [abs_of_nonneg hdi]; linarith
      have t4 : |dbl (a + t) - (a + i * d)| ≤ |dbl (a + t) - (a + t)| + |t - d * i| := by
        have : dbl (a + t) - (a + i * d) = (dbl (a + t) - (a + t)) + (t - d * i) := by ring
        rw [this]
        exact abs_add_le _ _
      refine t4.trans ?_
      have ha := abs_nonneg a
      have e : (i : ℚ) * d = d * i := mul_comm _ _
      rw [e]
      have t5 : |a + t| / 2 ^ 53 ≤ (|a| + (d * i + d * i / 2 ^ 53)) / 2 ^ 53 := div_le_div_of_nonneg_right t3 (by positivity)
      refine (add_le_add (t2.trans t5) t1).trans ?_
      norm_num
      linarith

/-- C124, ranges of any double numbers of at most fifteen digits with up to 2^50 steps: the call reaches the program, which works with the values of the call and with
coordinates as near to those asked for as `Near` says; in particular their number is right unless the quotient is within `2^-51` of itself next to a whole number. -/
theorem C124_near (file : List Char → Option (List Char)) (a : Args) (ha : Accepted a) (hx : Exact a) (hal : Allowed a) {c : Option Conv} (hc : IsMethod a.method c)
    (hd : a.dists = none) {p q s p' q' s' : ℚ} (hn : a.norths = some [p, q, s]) (he : a.easts = some [p', q', s'])
    (b1 : (q - p) / s ≤ 2 ^ 50) (b2 : (q' - p') / s' ≤ 2 ^ 50) :
    ∃ argv xs ys, command a = some argv ∧ parse file argv = some { expected a c with X := some (xs.map .num), Y := some (ys.map .num) } ∧
      Near p q s xs ∧ Near p' q' s' ys ∧ xs ≠ [] ∧ ys ≠ [] := by
  obtain ⟨argv, hcmd, ht, -⟩ := static_parse file a ha hx hc
  obtain ⟨q1, q2, q3⟩ := hal
  obtain ⟨o1, o2⟩ := q1 hd
  obtain ⟨P, Q, S, en, g1, g2⟩ := three o1
  obtain ⟨P', Q', S', ee, g3, g4⟩ := three o2
  rw [hn] at en
  rw [he] at ee
  simp only [Option.some.injEq, List.cons.injEq, and_true] at en ee
  obtain ⟨rfl, rfl, rfl⟩ := en
  obtain ⟨rfl, rfl, rfl⟩ := ee
  obtain ⟨xs, ex, nx, hxs⟩ := axis_near g1 g2 b1
  obtain ⟨ys, ey, ny, hys⟩ := axis_near g3 g4 b2
  refine ⟨argv, xs, ys, hcmd, ?_, hxs, hys, nx, ny⟩
  rw [ht _ _ (.grid _ _ _ _ _ _ xs ys hd hn he g1 g2 g3 g4 ex ey), if_pos q2, if_pos q3]

/-- The range 0, 0.35, 0.1 has four coordinates: its quotient 3.5 is far from a whole number. -/
example : ∃ l, axis 0 (dbl (35 / 100)) (dbl (1 / 10)) = some l ∧ l.length = 4 ∧ |l.getD 3 0 - 3 / 10| ≤ 1 / 2 ^ 50 := by
  refine ⟨[0, dbl (1 / 10), dbl (2 / 10), dbl (dbl (1 / 10) * 3)], by decide +kernel, rfl, by decide +kernel⟩

/-- The count of `Near`, for that range. -/
example {l : List ℚ} (h : Near 0 (35 / 100) (1 / 10) l) (hl : l ≠ []) : l.length = 4 := by
  have := h.count (by norm_num) (by norm_num) hl (by
    intro m
    have e : ((35 : ℚ) / 100 - 0) / (1 / 10) = 7 / 2 := by norm_num
    rw [e]
    have : (1 : ℚ) / 2 ≤ |7 / 2 - (m : ℚ)| := by
      rcases le_or_gt m 3 with c | c
      · have : (m : ℚ) ≤ 3 := by exact_mod_cast c
        rw [abs_of_nonneg (by linarith)]; linarith
      · have : (4 : ℚ) ≤ m := by exact_mod_cast c
        rw [abs_of_nonpos (by linarith)]; linarith
    exact lt_of_lt_of_le (by norm_num) this)
  have e : ⌊((35 : ℚ) / 100 - 0) / (1 / 10)⌋ = 3 := by rw [Int.floor_eq_iff]; norm_num
  rw [e] at this
  exact_mod_cast this

/-- A call to which `C124_near` applies: north coordinates 0, 0.35, 0.1. -/
example (file : List Char → Option (List Char)) : ∃ argv xs ys, command { sample with norths := some [0, dbl (35 / 100), dbl (1 / 10)] } = some argv ∧
    parse file argv = some { expected { sample with norths := some [0, dbl (35 / 100), dbl (1 / 10)] } none with X := some (xs.map .num), Y := some (ys.map .num) } ∧
    Near 0 (dbl (35 / 100)) (dbl (1 / 10)) xs ∧ Near 0 1 1 ys ∧ xs ≠ [] ∧ ys ≠ [] := by
  refine C124_near file { sample with norths := some [0, dbl (35 / 100), dbl (1 / 10)] }
    ⟨sample_accepted.1, .inr ⟨rfl, _, _, rfl, rfl, rfl, rfl⟩, sample_accepted.3⟩ { sample_exact with norths := ?_ }
    ⟨fun _ => ⟨⟨by decide +kernel, by decide +kernel⟩, ⟨by norm_num, by norm_num⟩⟩, sample_allowed.2, sample_allowed.3⟩
    (.inl ⟨by decide, rfl⟩) rfl rfl rfl (by decide +kernel) (by norm_num)
  rintro d ⟨⟩ x hx
  simp only [List.mem_cons, List.not_mem_nil, or_false] at hx
  rcases hx with rfl | rfl | rfl
  · exact_mod_cast plain_int 0 (by norm_num)
  · exact ⟨⟨35 / 100, ⟨35, -2, by norm_num, by norm_num⟩, rfl⟩, by decide +kernel⟩
  · exact ⟨⟨1 / 10, ⟨1, -1, by norm_num, by norm_num⟩, rfl⟩, by decide +kernel⟩

end GRT.Python.StaticGrn

namespace GRT.Python.Okada

open GRT.Num GRT.Files GRT.Points GRT.Python GRT.Python.Syn GRT.Python.StaticGrn

/-- The coordinates of `grt okada` are those of `grt static greenfn`, up to 2^50 steps. -/
theorem axis_same {a b d : ℚ} (hd : 0 < d) (hab : a ≤ b) (hq : (b - a) / d ≤ 2 ^ 50) : axis a b d = StaticGrn.axis a b d := by
  have hba : 0 ≤ b - a := sub_nonneg.2 hab
  have u0 : 0 ≤ dbl (b - a) := rnd_nonneg 2 53 (by norm_num) _ hba
  have v0 : 0 ≤ dbl (dbl (b - a) / d) := rnd_nonneg 2 53 (by norm_num) _ (div_nonneg u0 hd.le)
  have u1 := GRT.Python.dbl_rel (b - a)
  rw [abs_of_nonneg hba] at u1
  have v1 := GRT.Python.dbl_rel (dbl (b - a) / d)
  rw [abs_of_nonneg (div_nonneg u0 hd.le)] at v1
  have w1 : dbl (b - a) / d ≤ (b - a) / d * (1 + 1 / 2 ^ 53) := by
    have : dbl (b - a) ≤ (b - a) * (1 + 1 / 2 ^ 53) := by linarith [(abs_le.1 u1).2]
    rw [div_mul_eq_mul_div]
    exact div_le_div_of_nonneg_right this hd.le
  have hbig : dbl (dbl (b - a) / d) < 2 ^ 51 := by
    have := (abs_le.1 v1).2
    norm_num at *
    linarith
  unfold axis StaticGrn.axis StaticGrn.axisCount
  generalize dbl (dbl (b - a) / d) = v at *
  have k0 : 0 ≤ ⌊v⌋ := Int.floor_nonneg.2 v0
  have kb : ⌊v⌋ < 2 ^ 51 := by
    have : (⌊v⌋ : ℚ) < 2 ^ 51 := (Int.floor_le v).trans_lt hbig
    exact_mod_cast this
  obtain ⟨t, ht⟩ := Int.eq_ofNat_of_zero_le k0
  rw [ht] at kb ⊢
  have tb : t < 2 ^ 51 := by exact_mod_cast kb
  have e : ((t : ℤ) : ℚ) + 1 = ((t + 1 : ℕ) : ℚ) := by push_cast; rfl
  rw [e, dbl_nat _ (by omega)]
  have hlt : ((t + 1 : ℕ) : ℚ) < 2 ^ 64 := by
    have : t + 1 < 2 ^ 64 := by omega
    exact_mod_cast this
  have hlt' : (t : ℤ) < 2 ^ 64 := by omega
  dsimp only
  rw [if_neg (not_le.2 hlt), if_neg (not_le.2 hlt'), Int.floor_natCast, Int.toNat_natCast, Int.toNat_natCast, Option.map_some,
    Nat.mod_eq_of_lt (by omega)]
  simp only [mul_comm]

/-- C126, ranges of any double numbers of at most fifteen digits with up to 2^50 steps: as in `C124_near`. -/
theorem C126_near (a : Args) {vp vs rho : ℚ} (hp : a.params = [vp, vs, rho]) {w : What} (hw : Wants a w) {d p q s p' q' s' : ℚ}
    (hr : At a (.grid d (p, q, s) (p', q', s'))) (p1 : Plain vp ∧ Plain vs ∧ Plain rho) (p2 : a.out ≠ []) (p3 : w.exact) (p4 : Plain d)
    (p5 : Plain p ∧ Plain q ∧ Plain s) (p6 : Plain p' ∧ Plain q' ∧ Plain s') (q1 : w.allowed) (q2 : 0 < s ∧ p ≤ q) (q3 : 0 < s' ∧ p' ≤ q')
    (b1 : (q - p) / s ≤ 2 ^ 50) (b2 : (q' - p') / s' ≤ 2 ^ 50) :
    ∃ argv xs ys, command a = some argv ∧
      parse argv = some { expected a vp vs rho w (.grid d (p, q, s) (p', q', s')) with X := some (xs.map .num), Y := some (ys.map .num) } ∧
      Near p q s xs ∧ Near p' q' s' ys ∧ xs ≠ [] ∧ ys ≠ [] := by
  classical
  obtain ⟨src, s1, s2⟩ := run_what hw p3
  have hc := (C126_source a).2 ⟨by simp [hp], ⟨w, hw⟩, _, hr⟩
  obtain ⟨h1, h2, h3, h4, h5⟩ := hr
  have hrp : recvPart a = some ["-Dr".toList ++ formatFloat d, "-X".toList ++ joinSlash [p, q, s], "-Y".toList ++ joinSlash [p', q', s']] := by
    simp [recvPart, h1, h2, h4, h5, formatRange]
  obtain ⟨xs, ex, nx, hxs⟩ := axis_near q2.1 q2.2 b1
  obtain ⟨ys, ey, ny, hys⟩ := axis_near q3.1 q3.2 b2
  rw [← axis_same q2.1 q2.2 b1] at ex
  rw [← axis_same q3.1 q3.2 b2] at ey
  refine ⟨line a src _, xs, ys, command_line hc s1 hrp, ?_, hxs, hys, nx, ny⟩
  unfold parse line
  rw [hp, run_I p1, run_O p2, s2, if_pos q1]
  refine (run_Dr p4 h3).trans ((run_X (by simp)).trans ?_)
  rw [scanAxis_join p5.1 p5.2.1 p5.2.2, if_pos q2, ex, Option.map_some, Option.bind_some]
  refine (run_Y (l := [p', q', s']) (by simp)).trans ?_
  rw [scanAxis_join p6.1 p6.2.1 p6.2.2, if_pos q3, ey, Option.map_some, Option.bind_some]
  refine (run_N (b := a.zne) (rest := flag "-e" a.upar)).trans ?_
  rw [run_e]
  cases w with
  | faults p => simp [finish, sete, setN, setX, setY, setDr, setWhat, setO, setI, setC, expected, withWhat, withWhere]
  | point x d g => cases g <;> simp [finish, sete, setN, setX, setY, setDr, setDs, setS, setGeo, setWhat, setO, setI, expected, withWhat, withWhere]

/-- A call to which it applies: north coordinates from -5 to 5.1 in steps of 0.25. -/
example : ∃ argv xs ys, command { sample with norths := some [-5, dbl (51 / 10), 1 / 4] } = some argv ∧
    parse argv = some { expected { sample with norths := some [-5, dbl (51 / 10), 1 / 4] } 6 3 2 (.point 20 10 (.shear 30 60 (-90)))
      (.grid 0 (-5, dbl (51 / 10), 1 / 4) (0, 3, 1)) with X := some (xs.map .num), Y := some (ys.map .num) } ∧
    Near (-5) (dbl (51 / 10)) (1 / 4) xs ∧ Near 0 3 1 ys ∧ xs ≠ [] ∧ ys ≠ [] := by
  refine C126_near { sample with norths := some [-5, dbl (51 / 10), 1 / 4] } rfl (w := .point 20 10 (.shear 30 60 (-90)))
    ⟨rfl, rfl, rfl, by norm_num, rfl, rfl, rfl⟩ ⟨rfl, rfl, le_rfl, rfl, rfl⟩ medium
    (by decide) ⟨plain' 20 _ (by norm_num) (by norm_num), plain' 10 _ (by norm_num) (by norm_num), ?_⟩ (plain' 0 _ (by norm_num) (by norm_num))
    ⟨plain' (-5) _ (by norm_num) (by norm_num), ⟨⟨51 / 10, ⟨51, -1, by norm_num, by norm_num⟩, rfl⟩, by decide +kernel⟩,
      ⟨⟨1 / 4, ⟨25, -2, by norm_num, by norm_num⟩, by decide +kernel⟩, by decide +kernel⟩⟩
    ⟨plain' 0 _ (by norm_num) (by norm_num), plain' 3 _ (by norm_num) (by norm_num), plain' 1 _ (by norm_num) (by norm_num)⟩ ?_
    (by decide +kernel) (by norm_num) (by decide +kernel) (by norm_num)
  · intro y hy
    simp only [Geo.numbers, List.mem_cons, List.not_mem_nil, or_false] at hy
    rcases hy with rfl | rfl | rfl
    · exact plain' 30 _ (by norm_num) (by norm_num)
    · exact plain' 60 _ (by norm_num) (by norm_num)
    · exact plain' (-90) _ (by norm_num) (by norm_num)
  · norm_num [What.allowed, Geo.allowed]

end GRT.Python.Okada

namespace GRT.Modal.Options

open GRT.Num GRT.Files GRT.Python GRT.Python.StaticGrn
open GRT.Python.Syn (scanSlash)

/-- C129, ranges of any double numbers with up to 2^50 steps whose start is not below the step: as near to the frequencies (or periods) asked for as `Near` says. -/
theorem C129_near (t : Text) (tok : Text) (rest : List Text) (ht : split '+' t = tok :: rest) (f1 f2 df : ℚ)
    (hv : scanSlash 3 tok = [.num f1, .num f2, .num df]) (hd : 0 < df) (h0 : df ≤ f1) (h12 : f1 ≤ f2) (hb : (f2 - f1) / df ≤ 2 ^ 50)
    (p : Bool) (hp : period rest = some p) :
    ∃ l, Near f1 f2 df l ∧ l ≠ [] ∧ scanF t = some (if p then (l.map fun x => dbl (1 / x)).reverse else l) := by
  obtain ⟨l, h1, h2, h3⟩ := axis_near hd h12 hb
  refine ⟨l, h3, h2, ?_⟩
  have hr : range [.num f1, .num f2, .num df] = some (f1, f2, df) := by
    unfold range
    simp only [if_neg (not_le.2 hd), if_neg (not_lt.2 h12), if_neg (show ¬(f1 < 0 ∨ f2 ≤ 0) by
      rintro (h | h) <;> linarith), max_eq_left h0, max_eq_right h12]
  unfold scanF
  rw [ht]
  simp only [hv, hr, hp, h1]
  rfl

/-- A case of the hypotheses: the frequencies from 0.5 in steps of 0.25 up to 1.1. -/
example : scanSlash 3 "0.5/1.1/0.25".toList = [.num (1 / 2), .num (dbl (11 / 10)), .num (1 / 4)] ∧ scanF "0.5/1.1/0.25".toList = some [1 / 2, 3 / 4, 1] := by
  decide +kernel

end GRT.Modal.Options
