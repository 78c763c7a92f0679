import Mathlib.Analysis.Convex.Basic
import Mathlib.Data.Real.Sqrt
import Mathlib.Tactic.Linarith
import Mathlib.Tactic.NormNum
import Mathlib.Tactic.FieldSimp
import Mathlib.Tactic.Ring
import Mathlib.Tactic.Positivity

/-!
Golden-section refinement of a root of the secular function, `grt_goldensection` (pygrt/C_extension/src/modal/root.c 25-111).
The secular function is an arbitrary function of the phase velocity, its values are of an arbitrary type with arbitrary
comparisons (so that rounded values and NaN are covered); velocities are real numbers.  The debugging output and the switch
`GRT_USE_HIGH_PRECISION` are left out: the latter is part of what function is passed.
-/

namespace GRT.Modal

/-- What is compared of the values of the secular function: `gt` is `fabs(a) > fabs(b)` (root.c 56), `ge` is
`fabs(a) >= fabs(b)` (root.c 364, 468; `<=` is `ge` the other way round), `below` is `fabs(a) < rtol` (root.c 74, 97). -/
structure Cmp (V : Type*) where
  gt : V → V → Prop
  ge : V → V → Prop
  below : V → Prop

/-- `GOLDEN_RATIO`, include/grt/common/const.h 56. -/
noncomputable def goldenRatio : ℝ := 6180339887498949 / 10000000000000000

/-- Local variables of `grt_goldensection`, root.c 34-47: ends `c`, inner points `x`, values `sec` there; `log` lists the
velocities at which the secular function was evaluated, latest first. -/
structure Gold (V : Type*) where
  c0 : ℝ
  c1 : ℝ
  x0 : ℝ
  x1 : ℝ
  s0 : V
  s1 : V
  log : List ℝ

variable {V : Type*} (K : Cmp V) (F : ℝ → V) (g : ℝ)

/-- Start of the refinement, root.c 34-47. -/
def Gold.init (c1 c2 : ℝ) : Gold V :=
  let x0 := c2 - g * (c2 - c1)
  let x1 := c1 + g * (c2 - c1)
  ⟨c1, c2, x0, x1, F x0, F x1, [x1, x0]⟩

open Classical in
/-- Body of the loop, root.c 56-72. -/
noncomputable def Gold.step (s : Gold V) : Gold V :=
  if K.gt s.s1 s.s0 then
    let x0 := s.x1 - g * (s.x1 - s.c0)
    ⟨s.c0, s.x1, x0, s.x0, F x0, s.s0, x0 :: s.log⟩
  else
    let x1 := s.x0 + g * (s.c1 - s.x0)
    ⟨s.x0, s.c1, s.x1, x1, s.s1, F x1, x1 :: s.log⟩

/-- The two exits of the loop, root.c 74, 77. -/
def Gold.stop (cgap : ℝ) (s : Gold V) : Prop := (K.below s.s0 ∧ s.c1 - s.c0 < cgap / 2) ∨ s.c1 - s.c0 < 1 / 10 ^ 15

open Classical in
/-- `do { ... } while(is < 800)`, root.c 55-88; the first argument is the number of passes still allowed before the present one
is added, `is` is counted.  Result: state and number of passes. -/
noncomputable def Gold.loop (cgap : ℝ) : ℕ → ℕ → Gold V → Gold V × ℕ
  | 0, is, s => (s.step K F g, is + 1)
  | n + 1, is, s =>
    let s' := s.step K F g
    if s'.stop K cgap then (s', is + 1) else Gold.loop cgap n (is + 1) s'

open Classical in
/-- `grt_goldensection`, root.c 25-111: `(root_sec, root_c)`; `fail` is the value stored on failure (`-999`). The log and the number
of passes are kept for the statements. -/
noncomputable def golden (fail : V) (cgap c1 c2 : ℝ) : (V × ℝ) × List ℝ × ℕ :=
  let r := Gold.loop K F g cgap 799 0 (Gold.init F g c1 c2)
  (if K.below r.1.s0 then (r.1.s0, r.1.x0) else (fail, -1), r.1.log, r.2)

/-! ### Containment, for any ratio between 0 and 1 -/

/-- Everything lies in the starting bracket, and the values belong to their points. -/
structure Gold.Inside (a b : ℝ) (s : Gold V) : Prop where
  c0 : s.c0 ∈ Set.Icc a b
  c1 : s.c1 ∈ Set.Icc a b
  x0 : s.x0 ∈ Set.Icc a b
  x1 : s.x1 ∈ Set.Icc a b
  s0 : s.s0 = F s.x0
  s1 : s.s1 = F s.x1
  log : ∀ x ∈ s.log, x ∈ Set.Icc a b

theorem between {a b x y g : ℝ} (hx : x ∈ Set.Icc a b) (hy : y ∈ Set.Icc a b) (h0 : 0 ≤ g) (h1 : g ≤ 1) :
    x + g * (y - x) ∈ Set.Icc a b := by
  have h := (convex_Icc a b) hx hy (sub_nonneg.2 h1) h0 (by ring)
  have e : (1 - g) • x + g • y = x + g * (y - x) := by simp only [smul_eq_mul]; ring
  rwa [e] at h

theorem between' {a b x y g : ℝ} (hx : x ∈ Set.Icc a b) (hy : y ∈ Set.Icc a b) (h0 : 0 ≤ g) (h1 : g ≤ 1) :
    y - g * (y - x) ∈ Set.Icc a b := by
  have := between hy hx h0 h1
  rwa [show y + g * (x - y) = y - g * (y - x) by ring] at this

theorem Gold.init_inside {a b : ℝ} (hab : a ≤ b) (h0 : 0 ≤ g) (h1 : g ≤ 1) : (Gold.init F g a b).Inside F a b := by
  have ha : a ∈ Set.Icc a b := ⟨le_rfl, hab⟩
  have hb : b ∈ Set.Icc a b := ⟨hab, le_rfl⟩
  refine ⟨ha, hb, between' ha hb h0 h1, between ha hb h0 h1, rfl, rfl, ?_⟩
  intro x hx
  simp only [Gold.init, List.mem_cons, List.not_mem_nil, or_false] at hx
  rcases hx with rfl | rfl
  · exact between ha hb h0 h1
  · exact between' ha hb h0 h1

theorem Gold.step_inside {a b : ℝ} (h0 : 0 ≤ g) (h1 : g ≤ 1) (s : Gold V) (h : s.Inside F a b) :
    (s.step K F g).Inside F a b := by
  unfold Gold.step
  split
  · have e := between' h.c0 h.x1 h0 h1
    exact ⟨h.c0, h.x1, e, h.x0, rfl, h.s0, fun x hx => (List.mem_cons.1 hx).elim (fun q => q ▸ e) (h.log x)⟩
  · have e := between h.x0 h.c1 h0 h1
    exact ⟨h.x0, h.c1, h.x1, e, h.s1, rfl, fun x hx => (List.mem_cons.1 hx).elim (fun q => q ▸ e) (h.log x)⟩

theorem Gold.step_log (s : Gold V) : (s.step K F g).log.length = s.log.length + 1 := by
  unfold Gold.step; split <;> rfl

theorem Gold.loop_inside {a b : ℝ} (h0 : 0 ≤ g) (h1 : g ≤ 1) (cgap : ℝ) (n is : ℕ) (s : Gold V) (h : s.Inside F a b) :
    (Gold.loop K F g cgap n is s).1.Inside F a b := by
  induction n generalizing is s with
  | zero => exact Gold.step_inside K F g h0 h1 s h
  | succ n ih =>
    unfold Gold.loop
    dsimp only
    split
    · exact Gold.step_inside K F g h0 h1 s h
    · exact ih _ _ (Gold.step_inside K F g h0 h1 s h)

theorem Gold.loop_count (cgap : ℝ) (n is : ℕ) (s : Gold V) :
    (Gold.loop K F g cgap n is s).1.log.length + is = s.log.length + (Gold.loop K F g cgap n is s).2 ∧
      is + 1 ≤ (Gold.loop K F g cgap n is s).2 ∧ (Gold.loop K F g cgap n is s).2 ≤ is + n + 1 := by
  induction n generalizing is s with
  | zero =>
    have := Gold.step_log K F g s
    simp only [Gold.loop]
    omega
  | succ n ih =>
    have := Gold.step_log K F g s
    unfold Gold.loop
    dsimp only
    split
    · dsimp only; omega
    · have := ih (is + 1) (s.step K F g)
      omega

theorem goldenRatio_mem : 0 ≤ goldenRatio ∧ goldenRatio ≤ 1 := by unfold goldenRatio; norm_num

/-- C54: for every function, every way of comparing its values and every bracket of positive velocities, the refinement
evaluates the function between 3 and 802 times, always inside the bracket, and returns either a velocity inside the bracket
together with the value there, which is below the tolerance, or the failure marker `-1`.  The two cases are distinguished by
the sign of the velocity. -/
theorem C54_bracket (fail : V) (cgap a b : ℝ) (ha : 0 ≤ a) (hab : a ≤ b) :
    let r := golden K F goldenRatio fail cgap a b
    (r.1 = (fail, -1) ∨ (r.1.2 ∈ Set.Icc a b ∧ r.1.1 = F r.1.2 ∧ K.below r.1.1)) ∧
    (r.1.2 < 0 ↔ r.1.2 = -1) ∧ (r.1.2 = -1 → r.1.1 = fail) ∧
    (∀ x ∈ r.2.1, x ∈ Set.Icc a b) ∧ 3 ≤ r.2.1.length ∧ r.2.1.length ≤ 802 ∧ r.2.1.length = r.2.2 + 2 := by
  intro r
  have hin := Gold.loop_inside K F goldenRatio goldenRatio_mem.1 goldenRatio_mem.2 cgap 799 0 _
    (Gold.init_inside F goldenRatio hab goldenRatio_mem.1 goldenRatio_mem.2)
  have hc := Gold.loop_count K F goldenRatio cgap 799 0 (Gold.init F goldenRatio a b)
  have hl : (Gold.init F goldenRatio a b).log.length = 2 := rfl
  have key : r.1 = (fail, -1) ∨ (r.1.2 ∈ Set.Icc a b ∧ r.1.1 = F r.1.2 ∧ K.below r.1.1) := by
    by_cases hb : K.below (Gold.loop K F goldenRatio cgap 799 0 (Gold.init F goldenRatio a b)).1.s0
    · right
      have e : r.1 = (_, _) := if_pos hb
      rw [e]
      exact ⟨hin.x0, hin.s0, hb⟩
    · left
      exact if_neg hb
  refine ⟨key, ?_, ?_, hin.log, ?_, ?_, ?_⟩
  · rcases key with e | ⟨⟨h, -⟩, -⟩
    · rw [e]; norm_num
    · constructor
      · intro h'; linarith
      · intro h'; linarith
  · intro h
    rcases key with e | ⟨⟨h', -⟩, -⟩
    · rw [e]
    · linarith
  all_goals
    show _
    have : r.2.1.length = (Gold.loop K F goldenRatio cgap 799 0 (Gold.init F goldenRatio a b)).1.log.length := rfl
    have : r.2.2 = (Gold.loop K F goldenRatio cgap 799 0 (Gold.init F goldenRatio a b)).2 := rfl
    omega

/-! ### Convergence, with the exact ratio -/

/-- The bracket has the shape of a golden section. -/
structure Gold.Shape (s : Gold V) : Prop where
  le : s.c0 ≤ s.c1
  x0 : s.x0 = s.c1 - g * (s.c1 - s.c0)
  x1 : s.x1 = s.c0 + g * (s.c1 - s.c0)

theorem Gold.step_shape (h0 : 0 < g) (hg : g ^ 2 + g = 1) (s : Gold V) (h : s.Shape g) :
    (s.step K F g).Shape g ∧ (s.step K F g).c1 - (s.step K F g).c0 = g * (s.c1 - s.c0) := by
  have hl := sub_nonneg.2 h.le
  have hgl : 0 ≤ g * (s.c1 - s.c0) := mul_nonneg h0.le hl
  have e2 : (1 - g) * (s.c1 - s.c0) = g * (g * (s.c1 - s.c0)) := by linear_combination (s.c0 - s.c1) * hg
  unfold Gold.step
  split
  · refine ⟨⟨?_, ?_, ?_⟩, ?_⟩ <;> dsimp only
    · rw [h.x1]; linarith
    · rw [h.x0, h.x1]; linear_combination e2
    · rw [h.x1]; ring
  · refine ⟨⟨?_, ?_, ?_⟩, ?_⟩ <;> dsimp only
    · rw [h.x0]; linarith
    · rw [h.x1, h.x0]; linear_combination -e2
    · rw [h.x0]; ring

theorem Gold.init_shape {a b : ℝ} (hab : a ≤ b) : (Gold.init F g a b).Shape g := ⟨hab, rfl, rfl⟩

theorem Gold.loop_width (h0 : 0 < g) (hg : g ^ 2 + g = 1) (cgap : ℝ) (n is : ℕ) (s : Gold V) (h : s.Shape g) :
    let r := Gold.loop K F g cgap n is s
    r.1.Shape g ∧ r.1.c1 - r.1.c0 = g ^ (r.2 - is) * (s.c1 - s.c0) ∧ is < r.2 ∧ (r.1.stop K cgap ∨ r.2 = is + n + 1) ∧
      ∀ j, 0 < j → is + j < r.2 → 1 / 10 ^ 15 ≤ g ^ j * (s.c1 - s.c0) := by
  induction n generalizing is s with
  | zero =>
    obtain ⟨h1, h2⟩ := Gold.step_shape K F g h0 hg s h
    refine ⟨h1, ?_, by simp [Gold.loop], Or.inr rfl, ?_⟩
    · simp [Gold.loop, h2]
    · intro j hj hl
      simp only [Gold.loop] at hl
      omega
  | succ n ih =>
    obtain ⟨h1, h2⟩ := Gold.step_shape K F g h0 hg s h
    unfold Gold.loop
    dsimp only
    split
    · rename_i hs
      exact ⟨h1, by simp [h2], by simp, Or.inl hs, fun j hj hl => by omega⟩
    · rename_i hs
      obtain ⟨i1, i2, i3, i4, i5⟩ := ih (is + 1) _ h1
      refine ⟨i1, ?_, by omega, ?_, ?_⟩
      · rw [i2, h2, show ∀ m, is + 1 < m → m - is = (m - (is + 1)) + 1 from fun m hm => by omega] 
        · ring
        · exact i3
      · rcases i4 with i4 | i4
        · exact Or.inl i4
        · exact Or.inr (by omega)
      · intro j hj hl
        rcases Nat.lt_or_ge 1 j with h' | h'
        · obtain ⟨i, rfl⟩ : ∃ i, j = i + 1 := ⟨j - 1, by omega⟩
          have := i5 i (by omega) (by omega)
          rw [h2, ← mul_assoc, ← pow_succ] at this
          exact this
        · obtain rfl : j = 1 := by omega
          rw [pow_one, ← h2]
          exact not_lt.1 fun hc => hs (Or.inr hc)

/-- `f` decreases strictly up to `m` and increases strictly after it. -/
def Unimodal (f : ℝ → ℝ) (m a b : ℝ) : Prop := StrictAntiOn f (Set.Icc a m) ∧ StrictMonoOn f (Set.Icc m b)

theorem Gold.loop_keeps (h0 : 0 < g) (hg : g ^ 2 + g = 1) (cgap : ℝ) (f : ℝ → ℝ) (hK : ∀ x y, K.gt (F x) (F y) ↔ f x > f y) (m a b : ℝ)
    (hf : Unimodal f m a b) (n is : ℕ) (s : Gold V) (h : s.Shape g) (hi : s.Inside F a b) (hm : m ∈ Set.Icc s.c0 s.c1) :
    m ∈ Set.Icc (Gold.loop K F g cgap n is s).1.c0 (Gold.loop K F g cgap n is s).1.c1 := by
  have g1 : g ≤ 1 := by nlinarith
  have g2 : 1 / 2 ≤ g := by nlinarith
  have one : ∀ s : Gold V, s.Shape g → s.Inside F a b → m ∈ Set.Icc s.c0 s.c1 → m ∈ Set.Icc (s.step K F g).c0 (s.step K F g).c1 := by
    intro s h hi hm
    have hx : s.x0 ≤ s.x1 := by
      rw [h.x0, h.x1]
      have := h.le
      nlinarith
    unfold Gold.step
    split
    · rename_i hgt
      rw [hi.s0, hi.s1, hK] at hgt
      refine ⟨hm.1, ?_⟩
      by_contra hc
      have hc : s.x1 < m := not_le.1 hc
      have := hf.1.antitoneOn ⟨hi.x0.1, hx.trans hc.le⟩ ⟨hi.x1.1, hc.le⟩ hx
      linarith
    · rename_i hgt
      rw [hi.s0, hi.s1, hK] at hgt
      refine ⟨?_, hm.2⟩
      by_contra hc
      have hc : m < s.x0 := not_le.1 hc
      rcases hx.lt_or_eq with hx | hx
      · exact hgt (hf.2 ⟨hc.le, hi.x0.2⟩ ⟨(hc.trans hx).le, hi.x1.2⟩ hx)
      · have e0 := h.x0
        have e1 := h.x1
        have hl : (2 * g - 1) * (s.c1 - s.c0) = 0 := by linarith
        rcases mul_eq_zero.1 hl with q | q
        · nlinarith
        · rw [q] at e0; linarith [hm.1, hm.2]
  induction n generalizing is s with
  | zero => exact one s h hi hm
  | succ n ih =>
    have h1 := (Gold.step_shape K F g h0 hg s h).1
    have h2 := Gold.step_inside K F g h0.le g1 s hi
    have h3 := one s h hi hm
    unfold Gold.loop
    dsimp only
    split
    · exact h3
    · exact ih _ _ h1 h2 h3

/-- C54, what the refinement finds: with the exact golden ratio, where the absolute value of the secular function decreases
strictly up to `m` and then increases strictly, the last bracket contains `m`; its width is the starting width times a power of
the ratio, one factor for every pass; the refinement ends at the latest with the pass that makes the width less than `10⁻¹⁵`,
and before its 800 passes only when the width is less than half the gap or than `10⁻¹⁵`; the velocity returned, if any, is no farther from `m` than the last bracket is wide.  The constant in the code agrees with
the ratio to 16 digits; for the constant itself only `C54_bracket` is proved. -/
theorem C54_converges (h0 : 0 < g) (hg : g ^ 2 + g = 1) (fail : V) (cgap a b m : ℝ) (hm : m ∈ Set.Icc a b) (f : ℝ → ℝ)
    (hK : ∀ x y, K.gt (F x) (F y) ↔ f x > f y) (hf : Unimodal f m a b) :
    let r := golden K F g fail cgap a b
    (∀ j, 0 < j → g ^ j * (b - a) < 1 / 10 ^ 15 → r.2.2 ≤ j) ∧
    (r.2.2 < 800 → g ^ r.2.2 * (b - a) < max (cgap / 2) (1 / 10 ^ 15)) ∧
    (K.below r.1.1 → ¬ K.below fail → |r.1.2 - m| ≤ g ^ r.2.2 * (b - a)) := by
  intro r
  have hab : a ≤ b := hm.1.trans hm.2
  have g1 : g ≤ 1 := by nlinarith
  set s := Gold.init F g a b with hs
  have sh := Gold.init_shape F g hab
  obtain ⟨w1, w2, w3, w4, w5⟩ := Gold.loop_width K F g h0 hg cgap 799 0 s sh
  have wc := Gold.loop_count K F g cgap 799 0 s
  have hk := Gold.loop_keeps K F g h0 hg cgap f hK m a b hf 799 0 s sh (Gold.init_inside F g hab h0.le g1) hm
  have er : r.2.2 = (Gold.loop K F g cgap 799 0 s).2 := rfl
  rw [Nat.sub_zero, ← er] at w2
  have es : s.c1 - s.c0 = b - a := rfl
  rw [es] at w2
  have hstop : (Gold.loop K F g cgap 799 0 s).1.stop K cgap → g ^ r.2.2 * (b - a) < max (cgap / 2) (1 / 10 ^ 15) := by
    intro h
    rw [← w2]
    rcases h with ⟨-, h⟩ | h
    · exact lt_max_of_lt_left h
    · exact lt_max_of_lt_right h
  refine ⟨?_, ?_, ?_⟩
  · intro j hj hlt
    by_contra hc
    have := w5 j hj (by omega)
    rw [es] at this
    linarith
  · intro h
    exact hstop (w4.resolve_right (by omega))
  · intro hb hfail
    have e1 : K.below (Gold.loop K F g cgap 799 0 s).1.s0 := by
      by_contra hc
      have : r.1 = (fail, -1) := if_neg hc
      rw [this] at hb
      exact hfail hb
    have e2 : r.1 = ((Gold.loop K F g cgap 799 0 s).1.s0, (Gold.loop K F g cgap 799 0 s).1.x0) := if_pos e1
    rw [e2, ← w2]
    have hx := w1.x0
    have hle := sub_nonneg.2 w1.le
    dsimp only
    rw [abs_le]
    constructor
    · have := hk.2
      nlinarith [mul_nonneg (sub_nonneg.2 g1) hle, mul_nonneg h0.le hle]
    · have := hk.1
      nlinarith [mul_nonneg (sub_nonneg.2 g1) hle, mul_nonneg h0.le hle]

/-- The comparisons of absolute values of real numbers, with a tolerance. -/
def absCmp (rtol : ℝ) : Cmp ℝ := ⟨fun a b => |a| > |b|, fun a b => |a| ≥ |b|, fun a => |a| < rtol⟩

/-- A case of `C54_converges`: `x - 2` on the bracket from 1 to 4, the exact ratio `(√5 - 1)/2`; the refinement ends within 80
passes. -/
example : ∃ g : ℝ, 0 < g ∧ g ^ 2 + g = 1 ∧ (∀ x y : ℝ, (absCmp (1 / 1000)).gt (x - 2) (y - 2) ↔ |x - 2| > |y - 2|) ∧
    Unimodal (fun x => |x - 2|) 2 1 4 ∧ g ^ 80 * (4 - 1) < 1 / 10 ^ 15 := by
  have h5 : √5 ^ 2 = (5 : ℝ) := Real.sq_sqrt (by norm_num)
  have hp : 2 < √(5 : ℝ) := by
    rw [show (2 : ℝ) = √4 from by rw [show (4 : ℝ) = 2 ^ 2 by norm_num, Real.sqrt_sq (by norm_num)]]
    exact Real.sqrt_lt_sqrt (by norm_num) (by norm_num)
  have hq : √(5 : ℝ) < 2.2361 := by
    rw [Real.sqrt_lt' (by norm_num)]; norm_num
  refine ⟨(√5 - 1) / 2, by linarith, by nlinarith, fun x y => Iff.rfl, ⟨?_, ?_⟩, ?_⟩
  · intro x hx y hy hxy
    simp only [abs_of_nonpos (sub_nonpos.2 hx.2), abs_of_nonpos (sub_nonpos.2 hy.2)]
    linarith
  · intro x hx y hy hxy
    simp only [abs_of_nonneg (sub_nonneg.2 hx.1), abs_of_nonneg (sub_nonneg.2 hy.1)]
    linarith
  · have h1 : (√5 - 1) / 2 ≤ (0.61805 : ℝ) := by linarith
    have h2 : ((√5 - 1) / 2) ^ 80 ≤ (0.61805 : ℝ) ^ 80 := pow_le_pow_left₀ (by linarith) h1 80
    have h3 : (0.61805 : ℝ) ^ 80 * 3 < 1 / 10 ^ 15 := by norm_num
    linarith

/-- A case of `C54_bracket` in which a velocity is returned: every value is below the tolerance. -/
example : (golden (absCmp 10) (fun x : ℝ => x - 2) goldenRatio (-999) (1 / 1000) 1 4).1.2 ∈ Set.Icc (1 : ℝ) 4 := by
  have hin := Gold.loop_inside (absCmp 10) (fun x : ℝ => x - 2) goldenRatio goldenRatio_mem.1 goldenRatio_mem.2 (1 / 1000) 799 0 _
    (Gold.init_inside (a := 1) (b := 4) (fun x : ℝ => x - 2) goldenRatio (by norm_num) goldenRatio_mem.1 goldenRatio_mem.2)
  have hb : (absCmp 10).below (Gold.loop (absCmp 10) (fun x : ℝ => x - 2) goldenRatio (1 / 1000) 799 0
      (Gold.init (fun x : ℝ => x - 2) goldenRatio 1 4)).1.s0 := by
    rw [hin.s0]
    have := hin.x0
    refine abs_lt.2 ⟨?_, ?_⟩
    · linarith [this.1]
    · linarith [this.2]
  have e : (golden (absCmp 10) (fun x : ℝ => x - 2) goldenRatio (-999) (1 / 1000) 1 4).1 = (_, _) := if_pos hb
  rw [e]
  exact hin.x0

end GRT.Modal
