import Verif.KernelProg.Band
import Verif.Num.Round

/-! The lists of frequencies and phase velocities of `grt kernel` (C113). -/

namespace GRT.KernelProg

open GRT.Model1D GRT.Kernel

/-- Specification: `l` holds exactly the values `a, a+d, a+2d, …` up to `b`, in ascending order. -/
def IsGrid (l : List ℝ) (a b d : ℝ) : Prop := l.Pairwise (· < ·) ∧ ∀ x, x ∈ l ↔ x ≤ b ∧ ∃ i : ℕ, x = a + d * i

theorem samples_grid {a b d : ℝ} (hd : 0 < d) {n : ℕ} (hn : (n : ℤ) = ⌊(b - a) / d⌋ + 1) : IsGrid (samples a d n) a b d := by
  have key : ∀ i : ℕ, i < n ↔ a + d * i ≤ b := by
    intro i
    rw [← Int.ofNat_lt, hn, Int.lt_add_one_iff, Int.le_floor, le_div_iff₀ hd, Int.cast_natCast]
    constructor <;> intro q <;> linarith
  constructor
  · unfold samples
    rw [List.pairwise_map]
    refine List.pairwise_lt_range.imp ?_
    intro i j hij
    have : (i : ℝ) < j := by exact_mod_cast hij
    nlinarith
  · intro x
    unfold samples
    simp only [List.mem_map, List.mem_range, key]
    constructor
    · rintro ⟨i, q, rfl⟩; exact ⟨q, i, rfl⟩
    · rintro ⟨q, i, rfl⟩; exact ⟨i, q, rfl⟩

theorem count_ok {a b d : ℝ} {n : ℕ} (h : count a b d = .ok n) : (n : ℤ) = ⌊(b - a) / d⌋ + 1 := by
  unfold count toSize at h
  split at h
  · cases h
  split at h
  swap
  · cases h
  rename_i hz
  injection h with h
  rw [← h, Int.toNat_of_nonneg hz.1]

theorem vStep_le (l : List (FLay ℝ)) (v : ℝ × ℝ) :
    (l.foldl vStep v).1 ≤ v.1 ∧ v.2 ≤ (l.foldl vStep v).2 ∧
    (∀ x ∈ l, (l.foldl vStep v).1 ≤ x.m.va ∧ x.m.va ≤ (l.foldl vStep v).2 ∧
      (0 < x.m.vb → (l.foldl vStep v).1 ≤ x.m.vb ∧ x.m.vb ≤ (l.foldl vStep v).2)) ∧
    ((l.foldl vStep v).1 = v.1 ∨ ∃ x ∈ l, (l.foldl vStep v).1 = x.m.va ∨ 0 < x.m.vb ∧ (l.foldl vStep v).1 = x.m.vb) ∧
    ((l.foldl vStep v).2 = v.2 ∨ ∃ x ∈ l, (l.foldl vStep v).2 = x.m.va ∨ 0 < x.m.vb ∧ (l.foldl vStep v).2 = x.m.vb) := by
  induction l generalizing v with
  | nil => simp
  | cons y l ih =>
    obtain ⟨i1, i2, i3, i4, i5⟩ := ih (vStep v y)
    have s1 : (vStep v y).1 ≤ v.1 ∧ (vStep v y).1 ≤ y.m.va ∧ (0 < y.m.vb → (vStep v y).1 ≤ y.m.vb) ∧
        ((vStep v y).1 = v.1 ∨ (vStep v y).1 = y.m.va ∨ 0 < y.m.vb ∧ (vStep v y).1 = y.m.vb) := by
      simp only [vStep]
      split_ifs with a b c <;> grind
    have s2 : v.2 ≤ (vStep v y).2 ∧ y.m.va ≤ (vStep v y).2 ∧ (0 < y.m.vb → y.m.vb ≤ (vStep v y).2) ∧
        ((vStep v y).2 = v.2 ∨ (vStep v y).2 = y.m.va ∨ 0 < y.m.vb ∧ (vStep v y).2 = y.m.vb) := by
      simp only [vStep]
      split_ifs with a b c <;> grind
    rw [List.foldl_cons]
    refine ⟨i1.trans s1.1, s2.1.trans i2, ?_, ?_, ?_⟩
    · intro x hx
      rcases List.mem_cons.1 hx with rfl | hx
      · exact ⟨i1.trans s1.2.1, s2.2.1.trans i2, fun h => ⟨i1.trans (s1.2.2.1 h), (s2.2.2.1 h).trans i2⟩⟩
      · exact i3 x hx
    · rcases i4 with h | ⟨x, hx, h⟩
      · rcases s1.2.2.2 with q | q
        · exact .inl (h.trans q)
        · exact .inr ⟨y, by simp, by rw [h]; exact q⟩
      · exact .inr ⟨x, by simp [hx], h⟩
    · rcases i5 with h | ⟨x, hx, h⟩
      · rcases s2.2.2.2 with q | q
        · exact .inl (h.trans q)
        · exact .inr ⟨y, by simp, by rw [h]; exact q⟩
      · exact .inr ⟨x, by simp [hx], h⟩

/-- Specification: `v` is a velocity of the model (a zero S velocity does not count). -/
def IsVel (m : Mod1d ℝ) (v : ℝ) : Prop := ∃ x ∈ m.lays, v = x.m.va ∨ 0 < x.m.vb ∧ v = x.m.vb

/-- The two extreme velocities of a model with positive P velocities below `9e30`. -/
theorem vMinMax_spec {m : Mod1d ℝ} (hne : m.lays ≠ []) (hva : ∀ x ∈ m.lays, 0 < x.m.va ∧ x.m.va < 9 * 10 ^ 30) :
    IsVel m (vMinMax m).1 ∧ IsVel m (vMinMax m).2 ∧ ∀ v, IsVel m v → (vMinMax m).1 ≤ v ∧ v ≤ (vMinMax m).2 := by
  obtain ⟨-, -, h3, h4, h5⟩ := vStep_le m.lays (9 * 10 ^ 30, 0)
  obtain ⟨x, hx⟩ := List.exists_mem_of_ne_nil _ hne
  refine ⟨?_, ?_, ?_⟩
  · rcases h4 with h | h
    · exfalso
      have a := (h3 x hx).1
      have b := (hva x hx).2
      rw [h] at a
      exact absurd (lt_of_le_of_lt a b) (lt_irrefl _)
    · exact h
  · rcases h5 with h | h
    · exfalso
      have a := (h3 x hx).2.1
      have b := (hva x hx).1
      rw [h] at a
      exact absurd (lt_of_lt_of_le b a) (lt_irrefl _)
    · exact h
  · rintro v ⟨y, hy, rfl | ⟨h0, rfl⟩⟩
    · exact ⟨(h3 y hy).1, (h3 y hy).2.1⟩
    · exact (h3 y hy).2.2 h0

/-- Specification of `-C`: range and step. -/
def velRange (m : Mod1d ℝ) (c : CArg) (a b d : ℝ) : Prop :=
  match c with
  | .three x y z => a = x ∧ b = y ∧ d = z
  | .one z => d = z ∧ ∃ v, IsVel m v ∧ a = 0.8 * v ∧ IsVel m b ∧ ∀ u, IsVel m u → v ≤ u ∧ u ≤ b

/-- C113 in exact arithmetic: in a run that is accepted, the frequencies are `f1, f1+Δf, …` up to `f2` (without zero) if `f1` is zero or not
below the step, and the phase velocities are `cmin, cmin+dc, …` up to `cmax` if the step is positive; without `cmin/cmax` the range is from 0.8 times the
least velocity of the model to the greatest.  Missing: `f1` below the step, steps that are not positive, and rounding, see
`C113_violated_start`, `C113_violated_step`, `C113_violated_empty` and `C113_violated_round`. -/
theorem C113_partial {zeta0 : ℝ} {A : Args} {J : Job} (h : start zeta0 A = .ok J) :
    ((A.f1 = 0 ∨ A.df ≤ A.f1) → IsGrid J.f.freqs (if A.f1 = 0 then A.df else A.f1) A.f2 A.df ∧ 2 ≤ J.f.freqs.length) ∧
    ((match A.c with | .three _ _ d => 0 < d | .one _ => True) → (∀ x ∈ J.m.lays, 0 < x.m.va ∧ x.m.va < 9 * 10 ^ 30) →
      ∃ a b d, velRange J.m A.c a b d ∧ IsGrid J.cs a b d) := by
  obtain ⟨hs, hr, hF, hm, -, ⟨c, hC, hV⟩, -⟩ := start_ok h
  constructor
  · intro h0
    obtain ⟨hd, h1, h2, h3, -, -, n, hn, hfr, hfl⟩ := parseF_ok hF
    have hmax : max A.f1 A.df = if A.f1 = 0 then A.df else A.f1 := by
      split
      · rename_i e; rw [e]; exact max_eq_right hd.le
      · rename_i e
        exact max_eq_left (h0.resolve_left e)
    have hle : max A.f1 A.df ≤ A.f2 := by
      by_contra hcon
      push Not at hcon
      rw [max_eq_left hcon.le, sub_self, zero_div, Int.floor_zero] at hfl
      omega
    rw [max_eq_right hle, hmax] at hfl
    rw [hfr, hmax]
    exact ⟨samples_grid hd hfl, by simp [samples, hn]⟩
  · intro hdc hva
    cases hc : A.c with
    | three x y z =>
      rw [hc] at hC hdc
      simp only [parseC] at hC
      split at hC
      · cases hC
      split at hC
      · cases hC
      split at hC
      · cases hC
      · cases hC
      rename_i n hn
      injection hC with hC
      subst hC
      simp only [velocities] at hV
      injection hV with hV
      rw [← hV]
      exact ⟨x, y, z, ⟨rfl, rfl, rfl⟩, samples_grid hdc (count_ok hn)⟩
    | one z =>
      rw [hc] at hC
      simp only [parseC] at hC
      split at hC
      · cases hC
      rename_i hz
      injection hC with hC
      subst hC
      simp only [velocities] at hV
      split at hV
      · cases hV
      · cases hV
      rename_i n hn
      injection hV with hV
      rw [← hV]
      have hne : J.m.lays ≠ [] := by
        obtain ⟨hlen, -⟩ := C05_wellformed hs hr hm
        intro e; rw [e] at hlen; simp at hlen
      obtain ⟨a1, a2, a3⟩ := vMinMax_spec hne hva
      exact ⟨_, _, z, ⟨rfl, _, a1, rfl, a2, a3⟩, samples_grid (not_le.1 hz) (count_ok hn)⟩

/-- C113 fails for a start between zero and the step: `-F0.5/3/1` is accepted and does not compute 0.5 hertz. -/
theorem C113_violated_start : ∃ F, parseF (1/2) 3 1 none (4/5) = .ok F ∧ F.freqs = [1, 2, 3] := by
  refine ⟨⟨[1, 2, 3], 4/5⟩, ?_, rfl⟩
  have hc : count 1 3 1 = .ok 3 := by
    unfold count toSize
    have : ⌊((3 : ℝ) - 1) / 1⌋ = 2 := by norm_num
    rw [if_neg one_ne_zero, this]
    rfl
  unfold parseF
  rw [if_neg (by norm_num), if_neg (by norm_num), if_neg (by norm_num)]
  have e1 : max (1/2 : ℝ) 1 = 1 := by norm_num
  have e2 : max (1 : ℝ) 3 = 3 := by norm_num
  simp only [e1, e2, hc, Option.any_none]
  norm_num [samples, List.range_succ]

/-- C113 fails for a zero step, and for a negative one shorter than the range, of the phase velocity: they are not refused, and the number
of velocities is the undefined conversion of an infinity or of a negative number. -/
theorem C113_violated_step {a b d : ℝ} (ha : 0 < a) (hab : a < b) (hd : d = 0 ∨ d < 0 ∧ -d < b - a) : parseC (.three a b d) = .undef := by
  have hc : count a b d = .undef := by
    unfold count toSize
    split
    · rfl
    rename_i h0
    obtain ⟨h1, h2⟩ := hd.resolve_left h0
    rw [if_neg]
    rintro ⟨h3, -⟩
    have h4 : -1 ≤ ⌊(b - a) / d⌋ := by omega
    rw [Int.le_floor] at h4
    push_cast at h4
    rw [le_div_iff_of_neg h1] at h4
    linarith
  simp only [parseC]
  rw [if_neg (by push Not; constructor <;> linarith), if_neg (by push Not; exact hab), hc]

/-- With a negative step longer than the range the run is accepted and there is nothing in its files. -/
theorem C113_violated_empty {a b d : ℝ} (ha : 0 < a) (hab : a < b) (hd : d < -(b - a)) : parseC (.three a b d) = .ok (.list []) := by
  have hd0 : d < 0 := by linarith
  have hc : count a b d = .ok 0 := by
    unfold count toSize
    have : ⌊(b - a) / d⌋ = -1 := by
      rw [Int.floor_eq_iff]
      push_cast
      rw [le_div_iff_of_neg hd0]
      refine ⟨by linarith, ?_⟩
      have : (b - a) / d < 0 := div_neg_of_pos_of_neg (by linarith) hd0
      linarith
    rw [if_neg hd0.ne, this]
    rfl
  simp only [parseC]
  rw [if_neg (by push Not; constructor <;> linarith), if_neg (by push Not; exact hab), hc]
  rfl

/-- C113 with rounding, line 312 in `double`: `-C3/3.3/0.1` has three velocities, so 3.3 is not computed. -/
theorem C113_violated_round : ⌊Num.dbl (Num.dbl (Num.dbl (33/10) - 3) / Num.dbl (1/10))⌋ + 1 = 3 := by decide +kernel

/-- The hypotheses of `C113_partial`: the run of C112. -/
example : ∃ J, start (4/5) (runTo 100 3) = .ok J ∧ J.f.freqs = [1, 2, 3] ∧ J.cs = [3, 4] ∧ (runTo 100 3).df ≤ (runTo 100 3).f1 ∧
    ∀ x ∈ J.m.lays, 0 < x.m.va ∧ x.m.va < 9 * 10 ^ 30 := by
  have h := start_run 100 (n := 3) (by norm_num) (by norm_num)
  refine ⟨_, by exact_mod_cast h, ?_, ?_, ?_, ?_⟩
  · norm_num [samples, List.range_succ]
  · norm_num [samples, List.range_succ]
  · simp [runTo]
  · intro l hl
    simp only [space, List.mem_cons, List.not_mem_nil, or_false] at hl
    rcases hl with rfl | rfl | rfl <;> norm_num [rock]

/-- The hypotheses of the violations: from 3 to 4 km/s with steps 0, -0.1 and -5. -/
example : parseC (.three 3 4 0) = .undef ∧ parseC (.three 3 4 (-0.1)) = .undef ∧ parseC (.three 3 4 (-5)) = .ok (.list []) :=
  ⟨C113_violated_step (by norm_num) (by norm_num) (.inl rfl), C113_violated_step (by norm_num) (by norm_num) (.inr (by norm_num)),
   C113_violated_empty (by norm_num) (by norm_num) (by norm_num)⟩

end GRT.KernelProg
