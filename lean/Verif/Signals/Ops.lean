import Verif.Signals.Model
import Mathlib.Algebra.BigOperators.Intervals
import Mathlib.Algebra.BigOperators.Ring.Finset
import Mathlib.Algebra.BigOperators.Field
import Mathlib.Data.List.GetD
import Mathlib.Tactic.Linarith
import Mathlib.Tactic.Ring
import Mathlib.Tactic.NormNum
import Mathlib.Tactic.FieldSimp
import Mathlib.Tactic.LinearCombination

/-! C34: running integral, area and differences of a trace. -/

set_option linter.unusedSectionVars false

namespace GRT.Signals

variable {α : Type*} [Field α] [CharZero α]

/-! ### Specification -/

/-- Trapezoidal sum over the first `n` intervals. -/
def trapSum (dt : α) (x : List α) (n : ℕ) : α := ∑ i ∈ Finset.range n, (x.getD i 0 + x.getD (i + 1) 0) / 2 * dt

/-! ### Proofs -/

theorem integGo_length (dt : α) (l : List α) : ∀ a b, (integGo dt a b l).length = l.length := by
  induction l with
  | nil => intro a b; rfl
  | cons x t ih => intro a b; simp [integGo, ih]

theorem integGo_getD (dt : α) (l : List α) : ∀ (a b : α) (n : ℕ), n < l.length →
    (integGo dt a b l).getD n 0 = b + trapSum dt (a :: l) (n + 1) := by
  induction l with
  | nil => intro a b n h; simp at h
  | cons x t ih =>
    intro a b n h
    cases n with
    | zero => simp [integGo, trapSum]; ring
    | succ n =>
      simp only [integGo, List.getD_cons_succ]
      rw [ih _ _ n (by simpa using h)]
      unfold trapSum
      rw [Finset.sum_range_succ' _ (n + 1)]
      simp only [List.getD_cons_succ, List.getD_cons_zero]
      ring

/-- C34: the running integral of a trace starts at zero and is the trapezoidal sum at every sample. -/
theorem C34_integral (dt : α) (x : List α) (hx : x ≠ []) :
    ∃ y, trapIntegral dt x = some y ∧ y.length = x.length ∧ ∀ n < x.length, y.getD n 0 = trapSum dt x n := by
  match x, hx with
  | a :: t, _ =>
    refine ⟨_, rfl, by simp [integGo_length], ?_⟩
    intro n hn
    cases n with
    | zero => simp [trapSum]
    | succ n => rw [List.getD_cons_succ, integGo_getD _ _ _ _ _ (by simpa using hn), zero_add]

/-- C34: exact for a trace that is linear in time. -/
theorem C34_integral_linear (dt a b : α) (N : ℕ) (hN : 0 < N) :
    ∃ y, trapIntegral dt ((List.range N).map fun i : ℕ => a + b * (i * dt)) = some y ∧ y.length = N ∧
      ∀ n < N, y.getD n 0 = a * (n * dt) + b * (n * dt) ^ 2 / 2 := by
  obtain ⟨y, h1, h2, h3⟩ := C34_integral dt ((List.range N).map fun i : ℕ => a + b * (i * dt)) (by simp; omega)
  refine ⟨y, h1, by simpa using h2, ?_⟩
  intro n hn
  rw [h3 n (by simpa using hn)]
  have hg : ∀ i < N, ((List.range N).map fun i : ℕ => a + b * (i * dt)).getD i 0 = a + b * (i * dt) := by
    intro i hi; rw [List.getD_eq_getElem _ _ (by simpa using hi)]; simp
  unfold trapSum
  induction n with
  | zero => simp
  | succ n ih =>
    rw [Finset.sum_range_succ, ih (by omega), hg n (by omega), hg (n + 1) (by omega)]
    push_cast; field_simp; ring

/-- C34: the integral is linear in the trace: integrating a combination is combining the integrals. -/
theorem C34_integral_add (dt p q : α) (x y z : List α) (n : ℕ) (hz : ∀ i, z.getD i 0 = p * x.getD i 0 + q * y.getD i 0) :
    trapSum dt z n = p * trapSum dt x n + q * trapSum dt y n := by
  unfold trapSum
  rw [Finset.mul_sum, Finset.mul_sum, ← Finset.sum_add_distrib]
  apply Finset.sum_congr rfl
  intro i _
  rw [hz, hz]; ring

/-- What `grt_trap_area` computes: the trapezoidal sum over the sampling interval twice too often divided. -/
theorem C34_area_partial (dt : α) (hdt : dt ≠ 0) (x : List α) (hx : x ≠ []) :
    trapArea dt x * dt ^ 2 = trapSum dt x (x.length - 1) := by
  induction x with
  | nil => exact absurd rfl hx
  | cons a t ih =>
    cases t with
    | nil => simp [trapArea, trapSum]
    | cons b t =>
      unfold trapArea
      rw [add_mul, ih (by simp)]
      unfold trapSum
      simp only [List.length_cons, Nat.add_sub_cancel]
      rw [Finset.sum_range_succ']
      simp only [List.getD_cons_succ, List.getD_cons_zero]
      field_simp
      ring

/-- C34 fails for the area: unless the sampling interval is one second (or the area zero), the area differs from the last
sample of the running integral. -/
theorem C34_violated : ∃ (dt : ℚ) (x y : List ℚ), 0 < dt ∧ trapIntegral dt x = some y ∧ trapArea dt x ≠ y.getD (x.length - 1) 0 :=
  ⟨1/10, [0, 1, 1, 0], [0, 1/20, 3/20, 1/5], by norm_num, by decide +kernel, by decide +kernel⟩

theorem C34_violated_always (dt : α) (x y : List α) (hdt : dt ≠ 0) (h1 : dt ^ 2 ≠ 1) (hx : x ≠ []) (hy : trapIntegral dt x = some y)
    (hnz : y.getD (x.length - 1) 0 ≠ 0) : trapArea dt x ≠ y.getD (x.length - 1) 0 := by
  obtain ⟨y', e1, _, e3⟩ := C34_integral dt x hx
  obtain rfl : y = y' := by rw [hy] at e1; exact Option.some.inj e1
  have hl : x.length - 1 < x.length := Nat.sub_lt (List.length_pos_of_ne_nil hx) one_pos
  intro h
  have ha := C34_area_partial dt hdt x hx
  rw [← e3 _ hl, ← h] at ha
  apply h1
  rw [h] at ha
  have : y.getD (x.length - 1) 0 * (dt ^ 2 - 1) = 0 := by linear_combination ha
  rcases mul_eq_zero.1 this with h | h
  · exact absurd h hnz
  · linear_combination h

/-! ### Differences -/

theorem diffGo_length (dt : α) (l : List α) : ∀ a, (diffGo dt a l).length = l.length := by
  induction l with
  | nil => intro a; rfl
  | cons x t ih =>
    intro a
    cases t with
    | nil => rfl
    | cons b t => simp only [diffGo, List.length_cons]; rw [ih]; simp

theorem diffGo_getD (dt : α) (l : List α) : ∀ (a : α) (n : ℕ), n < l.length →
    (diffGo dt a l).getD n 0 = if n + 1 = l.length then ((a :: l).getD (n + 1) 0 - (a :: l).getD n 0) / dt
      else ((a :: l).getD (n + 2) 0 - (a :: l).getD n 0) / (2 * dt) := by
  induction l with
  | nil => intro a n h; simp at h
  | cons x t ih =>
    intro a n h
    cases t with
    | nil =>
      have : n = 0 := by simpa using h
      subst this
      simp [diffGo]
    | cons b t =>
      cases n with
      | zero => simp [diffGo]
      | succ n =>
        simp only [diffGo, List.getD_cons_succ]
        rw [ih x n (by simpa using h)]
        simp

/-- C34: differences, two samples or more: one-sided at the ends, central inside. -/
theorem C34_differential (dt : α) (x : List α) (hx : 2 ≤ x.length) :
    ∃ y, differential dt x = some y ∧ y.length = x.length ∧
      y.getD 0 0 = (x.getD 1 0 - x.getD 0 0) / dt ∧
      y.getD (x.length - 1) 0 = (x.getD (x.length - 1) 0 - x.getD (x.length - 2) 0) / dt ∧
      ∀ n, 0 < n → n + 1 < x.length → y.getD n 0 = (x.getD (n + 1) 0 - x.getD (n - 1) 0) / (2 * dt) := by
  match x, hx with
  | a :: b :: t, _ =>
    refine ⟨_, rfl, by simp [diffGo_length], by simp, ?_, ?_⟩
    · simp only [List.length_cons, Nat.add_sub_cancel]
      rw [show t.length + 1 + 1 - 2 = t.length by omega, List.getD_cons_succ, diffGo_getD _ _ _ _ (by simp)]
      simp
    · intro n h0 h1
      obtain ⟨m, rfl⟩ : ∃ m, n = m + 1 := ⟨n - 1, by omega⟩
      simp only [List.length_cons] at h1
      rw [List.getD_cons_succ, diffGo_getD _ _ _ _ (by simp only [List.length_cons]; omega), if_neg (by simp only [List.length_cons]; omega)]
      simp

/-- C34: exact for a trace that is linear in time, and inside also for one that is quadratic. -/
theorem C34_differential_exact (dt a b c : α) (hdt : dt ≠ 0) (N : ℕ) (hN : 2 ≤ N) :
    ∃ y, differential dt ((List.range N).map fun i : ℕ => a + b * (i * dt) + c * (i * dt) ^ 2) = some y ∧ y.length = N ∧
      (∀ n, 0 < n → n + 1 < N → y.getD n 0 = b + 2 * c * (n * dt)) ∧
      (c = 0 → ∀ n < N, y.getD n 0 = b) := by
  set x := (List.range N).map fun i : ℕ => a + b * (i * dt) + c * (i * dt) ^ 2 with hxd
  have hl : x.length = N := by simp [hxd]
  obtain ⟨y, h1, h2, h3, h4, h5⟩ := C34_differential dt x (by omega)
  have hg : ∀ i < N, x.getD i 0 = a + b * (i * dt) + c * (i * dt) ^ 2 := by
    intro i hi; rw [List.getD_eq_getElem _ _ (by omega)]; simp [hxd]
  have hin : ∀ n, 0 < n → n + 1 < N → y.getD n 0 = b + 2 * c * (n * dt) := by
    intro n h0 hn
    rw [h5 n h0 (by omega), hg _ hn, hg _ (by omega)]
    have : ((n - 1 : ℕ) : α) = n - 1 := by rw [Nat.cast_sub h0]; simp
    rw [this]; push_cast; field_simp; ring
  refine ⟨y, h1, by omega, hin, ?_⟩
  intro hc n hn
  rcases Nat.eq_zero_or_pos n with h0 | h0
  · subst h0; rw [h3, hg 1 (by omega), hg 0 (by omega), hc]; simp; field_simp
  · rcases Nat.lt_or_ge (n + 1) N with hlt | hge
    · rw [hin n h0 hlt, hc]; ring
    · have e1 : n = x.length - 1 := by omega
      rw [e1, h4, hg _ (by omega), hg _ (by omega), hc]
      have e2 : ((x.length - 1 : ℕ) : α) = (x.length - 2 : ℕ) + 1 := by
        have : x.length - 1 = (x.length - 2) + 1 := by omega
        rw [this]; push_cast; rfl
      rw [e2]; field_simp; ring

/-- C34: a single sample cannot be differenced; `x[1]` is read. -/
theorem C34_differential_short (dt a : α) : differential dt [a] = none := rfl

/-- C34: inside, differencing the running integral averages neighbouring samples: the integral is undone up to smoothing. -/
theorem C34_undo (dt : α) (hdt : dt ≠ 0) (x : List α) (hx : 2 ≤ x.length) :
    ∃ y z, trapIntegral dt x = some y ∧ differential dt y = some z ∧
      ∀ n, 0 < n → n + 1 < x.length → z.getD n 0 = (x.getD (n - 1) 0 + 2 * x.getD n 0 + x.getD (n + 1) 0) / 4 := by
  obtain ⟨y, h1, h2, h3⟩ := C34_integral dt x (by intro h; simp [h] at hx)
  obtain ⟨z, k1, _, _, _, k5⟩ := C34_differential dt y (by omega)
  refine ⟨y, z, h1, k1, ?_⟩
  intro n h0 hn
  rw [k5 n h0 (by omega), h3 _ hn, h3 _ (by omega)]
  obtain ⟨m, rfl⟩ : ∃ m, n = m + 1 := ⟨n - 1, by omega⟩
  unfold trapSum
  rw [Finset.sum_range_succ, Finset.sum_range_succ]
  simp only [Nat.add_sub_cancel]
  generalize ∑ i ∈ Finset.range m, (x.getD i 0 + x.getD (i + 1) 0) / 2 * dt = S
  field_simp; ring

example : trapIntegral (1/2 : ℚ) [1, 2, 4, 3] = some [0, 3/4, 9/4, 4] ∧ differential (1/2 : ℚ) [1, 2, 4, 3] = some [2, 3, 1, -2] := by
  decide +kernel

end GRT.Signals
