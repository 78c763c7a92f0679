import Verif.Signals.Model
import Mathlib.Algebra.BigOperators.NatAntidiagonal
import Mathlib.Algebra.BigOperators.Ring.Finset
import Mathlib.Data.List.GetD
import Mathlib.Tactic.Linarith
import Mathlib.Tactic.Ring
import Mathlib.Tactic.NormNum
import Mathlib.Tactic.FieldSimp

/-! C32 and C33: convolution. -/

set_option linter.unusedSectionVars false

namespace GRT.Signals

variable {α : Type*} [CommRing α]

/-! ### Specification -/

/-- Sample `n` of the convolution of two sequences of finite length, zero outside. -/
def conv (x h : List α) (n : ℕ) : α := ∑ p ∈ Finset.antidiagonal n, x.getD p.1 0 * h.getD p.2 0

/-- Sample `n` of the convolution with indices counted modulo the length of the first sequence. -/
def cyc (x h : List α) (n : ℕ) : α :=
  ∑ i ∈ Finset.range x.length, ∑ j ∈ Finset.range h.length, if (i + j) % x.length = n % x.length then x.getD i 0 * h.getD j 0 else 0

/-! ### C32 -/

theorem mapM_ok {β γ : Type*} (f : β → Option γ) (g : β → γ) (l : List β) (h : ∀ a ∈ l, f a = some (g a)) :
    l.mapM f = some (l.map g) := by
  induction l with
  | nil => rfl
  | cons a t ih => simp [List.mapM_cons, h a (by simp), ih (fun b hb => h b (by simp [hb]))]

theorem mapM_none {β γ : Type*} (f : β → Option γ) (l : List β) (h : ∃ a ∈ l, f a = none) : l.mapM f = none := by
  induction l with
  | nil => simp at h
  | cons a t ih =>
    obtain ⟨b, hb, hn⟩ := h
    rcases List.mem_cons.1 hb with rfl | hb
    · simp [List.mapM_cons, hn]
    · cases hf : f a with
      | none => simp [List.mapM_cons, hf]
      | some c => simp [List.mapM_cons, hf, ih ⟨b, hb, hn⟩]

theorem rd_nat (x : List α) (i : ℕ) (h : i < x.length) : rd x (i : ℤ) = some (x.getD i 0) := by
  unfold rd
  rw [if_neg (by omega)]
  simp [List.getElem?_eq_getElem h, List.getD_eq_getElem _ _ h]

theorem sum_cons (F : ℕ → α → α) (a : α) (t : List α) :
    ∑ j ∈ Finset.range (a :: t).length, F j ((a :: t).getD j 0) = F 0 a + ∑ j ∈ Finset.range t.length, F (j + 1) (t.getD j 0) := by
  rw [List.length_cons, Finset.sum_range_succ', add_comm]
  simp

theorem linGo_eq (x : List α) (n : ℕ) (h : List α) : ∀ (k : ℕ) (acc : α),
    linGo x n k h acc = some (acc + ∑ j ∈ Finset.range h.length, if k + j ≤ n then x.getD (n - (k + j)) 0 * h.getD j 0 else 0) := by
  induction h with
  | nil => intro k acc; simp [linGo]
  | cons a t ih =>
    intro k acc
    rw [sum_cons (fun j v => if k + j ≤ n then x.getD (n - (k + j)) 0 * v else 0)]
    unfold linGo
    dsimp only
    have e : ∑ j ∈ Finset.range t.length, (if k + (j + 1) ≤ n then x.getD (n - (k + (j + 1))) 0 * t.getD j 0 else 0)
        = ∑ j ∈ Finset.range t.length, (if k + 1 + j ≤ n then x.getD (n - (k + 1 + j)) 0 * t.getD j 0 else 0) :=
      Finset.sum_congr rfl fun j _ => by rw [show k + (j + 1) = k + 1 + j by omega]
    rw [e, add_zero]
    by_cases hc : (n : ℤ) - k ≥ 0 ∧ (n : ℤ) - k < x.length
    · rw [if_pos hc]
      have hi : (n : ℤ) - k = ((n - k : ℕ) : ℤ) := by omega
      rw [hi, rd_nat x (n - k) (by omega)]
      dsimp only
      rw [ih]
      rw [if_pos (by omega : k ≤ n)]
      congr 1; ring
    · rw [if_neg hc, ih]
      by_cases hk : k ≤ n
      · rw [if_pos hk, List.getD_eq_default _ _ (by omega), zero_mul, zero_add]
      · rw [if_neg hk, zero_add]

theorem conv_eq (x h : List α) (n : ℕ) :
    conv x h n = ∑ j ∈ Finset.range h.length, if j ≤ n then x.getD (n - j) 0 * h.getD j 0 else 0 := by
  unfold conv
  rw [← Finset.Nat.sum_antidiagonal_swap, Finset.Nat.sum_antidiagonal_eq_sum_range_succ_mk]
  simp only [Prod.swap]
  have h1 : ∑ j ∈ Finset.range n.succ, x.getD (n - j) 0 * h.getD j 0
      = ∑ j ∈ Finset.range (n.succ + h.length), if j ≤ n then x.getD (n - j) 0 * h.getD j 0 else 0 := by
    rw [Finset.sum_congr rfl (g := fun j => if j ≤ n then x.getD (n - j) 0 * h.getD j 0 else 0)]
    · apply Finset.sum_subset
      · intro j hj; simp at hj ⊢; omega
      · intro j _ hj; simp at hj; rw [if_neg (by omega)]
    · intro j hj; simp at hj; rw [if_pos (by omega)]
  rw [h1]
  symm
  apply Finset.sum_subset
  · intro j hj; simp at hj ⊢; omega
  · intro j _ hj
    simp only [Finset.mem_range, not_lt] at hj
    rw [List.getD_eq_default h _ hj]; simp

/-- C32, linear case: for all lengths no access leaves the arrays and every sample is the convolution sum. -/
theorem C32_linear (x h : List α) (ny : ℕ) : oaconvolve x h ny false = some ((List.range ny).map (conv x h)) := by
  unfold oaconvolve
  apply mapM_ok
  intro n _
  rw [if_neg (by simp), linGo_eq, conv_eq]
  simp

theorem circGo_eq (x : List α) (n : ℕ) (h : List α) : ∀ (k : ℕ) (acc : α), 0 < x.length → k + h.length ≤ x.length + 1 →
    circGo x n k h acc = some (acc + ∑ j ∈ Finset.range h.length, x.getD ((n + x.length - (k + j)) % x.length) 0 * h.getD j 0) := by
  induction h with
  | nil => intro k acc _ _; simp [circGo]
  | cons a t ih =>
    intro k acc hx hl
    rw [List.length_cons] at hl
    rw [sum_cons (fun j v => x.getD ((n + x.length - (k + j)) % x.length) 0 * v)]
    unfold circGo
    have hi : ((n : ℤ) - k + x.length).tmod x.length = (((n + x.length - k) % x.length : ℕ) : ℤ) := by
      rw [show (n : ℤ) - k + x.length = ((n + x.length - k : ℕ) : ℤ) by omega, ← Int.ofNat_tmod]
    rw [hi, rd_nat x _ (Nat.mod_lt _ hx)]
    dsimp only
    rw [ih _ _ hx (by omega)]
    have e : ∑ j ∈ Finset.range t.length, x.getD ((n + x.length - (k + (j + 1))) % x.length) 0 * t.getD j 0
        = ∑ j ∈ Finset.range t.length, x.getD ((n + x.length - (k + 1 + j)) % x.length) 0 * t.getD j 0 :=
      Finset.sum_congr rfl fun j _ => by rw [show k + (j + 1) = k + 1 + j by omega]
    rw [e, add_zero]
    congr 1; ring

theorem circGo_none (x : List α) (n : ℕ) (h : List α) : ∀ (k : ℕ) (acc : α),
    (∃ j < h.length, rd x (((n : ℤ) - (k + j : ℕ) + x.length).tmod x.length) = none) → circGo x n k h acc = none := by
  induction h with
  | nil => intro k acc h; simp at h
  | cons a t ih =>
    intro k acc ⟨j, hj, hn⟩
    unfold circGo
    rcases j with _ | j
    · rw [add_zero] at hn; rw [hn]
    · cases hr : rd x (((n : ℤ) - k + x.length).tmod x.length) with
      | none => rfl
      | some v =>
        dsimp only
        apply ih
        refine ⟨j, by simpa using hj, ?_⟩
        rw [← hn]; congr 2; push_cast; ring

/-- The only index that meets `j` at `n`. -/
theorem index_iff (N n i j : ℕ) (hi : i < N) (hj : j ≤ N) : (i + j) % N = n % N ↔ i = (n + N - j) % N := by
  have hN : 0 < N := by omega
  have key : (n + N - j) % N + j ≡ n [MOD N] := by
    have h1 : (n + N - j) % N ≡ n + N - j [MOD N] := Nat.mod_modEq _ _
    calc (n + N - j) % N + j ≡ (n + N - j) + j [MOD N] := h1.add_right j
      _ = n + N := by omega
      _ ≡ n [MOD N] := by simp [Nat.ModEq]
  constructor
  · intro h
    have h2 : i + j ≡ (n + N - j) % N + j [MOD N] := (show i + j ≡ n [MOD N] from h).trans key.symm
    have h3 := Nat.ModEq.add_right_cancel' j h2
    have := Nat.ModEq.eq_of_lt_of_lt h3 hi (Nat.mod_lt _ hN)
    exact this
  · intro h; rw [h]; exact key

theorem cyc_eq (x h : List α) (n : ℕ) (hx : 0 < x.length) (hl : h.length ≤ x.length + 1) :
    cyc x h n = ∑ j ∈ Finset.range h.length, x.getD ((n + x.length - j) % x.length) 0 * h.getD j 0 := by
  unfold cyc
  rw [Finset.sum_comm]
  apply Finset.sum_congr rfl
  intro j hj
  rw [Finset.mem_range] at hj
  have : ∀ i ∈ Finset.range x.length, (if (i + j) % x.length = n % x.length then x.getD i 0 * h.getD j 0 else 0)
      = if i = (n + x.length - j) % x.length then x.getD i 0 * h.getD j 0 else 0 := by
    intro i hi
    rw [Finset.mem_range] at hi
    simp only [index_iff x.length n i j hi (by omega)]
  rw [Finset.sum_congr rfl this, Finset.sum_ite_eq']
  rw [if_pos (Finset.mem_range.2 (Nat.mod_lt _ hx))]

/-- C32, circular case: exact and within the arrays whenever the second sequence is at most one sample longer than the first. -/
theorem C32_circular_partial (x h : List α) (ny : ℕ) (hx : 0 < x.length) (hl : h.length ≤ x.length + 1) :
    oaconvolve x h ny true = some ((List.range ny).map (cyc x h)) := by
  unfold oaconvolve
  apply mapM_ok
  intro n _
  rw [if_pos rfl, circGo_eq x n h 0 0 hx (by omega), cyc_eq x h n hx hl]
  simp

/-- C32 fails for longer second sequences: the array is read before its start. -/
theorem C32_violated (x h : List α) (ny : ℕ) (hy : 0 < ny) (hx : 2 ≤ x.length) (hl : x.length + 2 ≤ h.length) :
    oaconvolve x h ny true = none := by
  unfold oaconvolve
  apply mapM_none
  refine ⟨0, List.mem_range.2 hy, ?_⟩
  rw [if_pos rfl]
  apply circGo_none
  refine ⟨x.length + 1, by omega, ?_⟩
  have : ((0 : ℕ) : ℤ) - ((0 + (x.length + 1) : ℕ) : ℤ) + x.length = -1 := by push_cast; ring
  rw [this, Int.neg_tmod, show ((1 : ℤ).tmod (x.length : ℤ)) = 1 from Int.tmod_eq_of_lt (by norm_num) (by omega)]
  simp [rd]

/-- C32: linear convolution is commutative and linear in its first (hence also in its second) argument. -/
theorem C32_comm (x h : List α) (ny : ℕ) : oaconvolve x h ny false = oaconvolve h x ny false := by
  rw [C32_linear, C32_linear]
  congr 2
  funext n
  unfold conv
  rw [← Finset.Nat.sum_antidiagonal_swap]
  simp [mul_comm]

theorem C32_linearity (x x' h : List α) (a b : α) (ny : ℕ) (circ : Bool) (hlen : x.length = x'.length) (hx : 0 < x.length)
    (hl : circ = true → h.length ≤ x.length + 1) :
    ∃ y y', oaconvolve x h ny circ = some y ∧ oaconvolve x' h ny circ = some y' ∧
      oaconvolve (List.zipWith (fun u v => a * u + b * v) x x') h ny circ = some (List.zipWith (fun u v => a * u + b * v) y y') := by
  have hz : ∀ i, (List.zipWith (fun u v => a * u + b * v) x x').getD i 0 = a * x.getD i 0 + b * x'.getD i 0 := by
    intro i
    by_cases hi : i < x.length
    · rw [List.getD_eq_getElem _ _ (by simp; omega), List.getD_eq_getElem _ _ hi, List.getD_eq_getElem _ _ (by omega)]
      simp
    · rw [List.getD_eq_default _ _ (by simp; omega), List.getD_eq_default _ _ (by omega), List.getD_eq_default _ _ (by omega)]
      ring
  have hzl : (List.zipWith (fun u v => a * u + b * v) x x').length = x.length := by simp [hlen]
  have hmap : ∀ f g k : ℕ → α, (∀ n, k n = a * f n + b * g n) →
      List.zipWith (fun u v => a * u + b * v) ((List.range ny).map f) ((List.range ny).map g) = (List.range ny).map k := by
    intro f g k hk
    apply List.ext_getElem
    · simp
    · intro i h1 h2; simp [hk]
  cases circ with
  | false =>
    refine ⟨_, _, C32_linear x h ny, C32_linear x' h ny, ?_⟩
    rw [C32_linear, hmap]
    intro n
    unfold conv
    simp only [hz, add_mul, Finset.sum_add_distrib, mul_assoc, Finset.mul_sum]
  | true =>
    have hl' := hl rfl
    refine ⟨_, _, C32_circular_partial x h ny hx hl', C32_circular_partial x' h ny (by omega) (by omega), ?_⟩
    rw [C32_circular_partial _ h ny (by omega) (by omega), hmap]
    intro n
    rw [cyc_eq _ _ _ (by omega) (by omega), cyc_eq _ _ _ hx hl', cyc_eq _ _ _ (by omega) (by omega)]
    simp only [hz, hzl, ← hlen, add_mul, Finset.sum_add_distrib, mul_assoc, Finset.mul_sum]

/-- Circular convolution is the linear one folded once. -/
theorem cyc_fold (x h : List α) (n : ℕ) (hn : n < x.length) (hl : h.length ≤ x.length + 1) :
    cyc x h n = conv x h n + conv x h (n + x.length) := by
  rw [cyc_eq x h n (by omega) hl, conv_eq, conv_eq, ← Finset.sum_add_distrib]
  apply Finset.sum_congr rfl
  intro j hj
  rw [Finset.mem_range] at hj
  rw [if_pos (by omega : j ≤ n + x.length)]
  by_cases h : j ≤ n
  · rw [if_pos h, List.getD_eq_default x (n := n + x.length - j) _ (by omega),
      show n + x.length - j = n - j + x.length by omega, Nat.add_mod_right, Nat.mod_eq_of_lt (by omega)]
    ring
  · rw [if_neg h, Nat.mod_eq_of_lt (by omega)]; ring

/-! ### C33 -/

theorem scaleGo_length (d : α) (l : List α) : ∀ f, (scaleGo d f l).length = l.length := by
  induction l with
  | nil => intro f; rfl
  | cons a t ih => intro f; simp [scaleGo, ih]

theorem scaleGo_getD (d : α) (l : List α) : ∀ (f : α) (n : ℕ), (scaleGo d f l).getD n 0 = l.getD n 0 * (f * d ^ n) := by
  induction l with
  | nil => intro f n; simp [scaleGo]
  | cons a t ih =>
    intro f n
    cases n with
    | zero => simp [scaleGo]
    | succ n => simp only [scaleGo, List.getD_cons_succ, ih]; ring

theorem scaleGo_inv (d e : α) (hde : d * e = 1) (l : List α) : ∀ f g, f * g = 1 → scaleGo e g (scaleGo d f l) = l := by
  induction l with
  | nil => intro f g _; rfl
  | cons a t ih =>
    intro f g hfg
    simp only [scaleGo]
    rw [mul_assoc, hfg, mul_one, ih]
    calc f * d * (g * e) = (f * g) * (d * e) := by ring
      _ = 1 := by rw [hfg, hde, one_mul]

/-- C33: after a trace has been convolved, the time function is what it was before, whatever the lengths; so every channel is
convolved with the same time function. -/
theorem C33_restored (x h : List ℝ) (wI dt : ℝ) (y h' : List ℝ) (hp : postConv x h wI dt = some (y, h')) : h' = h := by
  unfold postConv at hp
  dsimp only at hp
  split at hp
  · cases hp
  · injection hp with hp
    injection hp with _ hp
    subst hp
    have hl : (scaleGo (Real.exp (-wI * dt)) 1 (h.take x.length)).length = (h.take x.length).length := scaleGo_length _ _ _
    have ht : (scaleGo (Real.exp (-wI * dt)) 1 (h.take x.length) ++ h.drop x.length).take x.length
        = scaleGo (Real.exp (-wI * dt)) 1 (h.take x.length) := by
      rcases le_total x.length h.length with hc | hc
      · rw [List.take_left' (by rw [hl]; simp [hc])]
      · rw [List.drop_eq_nil_of_le hc, List.append_nil, List.take_of_length_le (by rw [hl]; simp)]
    have hd : (scaleGo (Real.exp (-wI * dt)) 1 (h.take x.length) ++ h.drop x.length).drop x.length = h.drop x.length := by
      rcases le_total x.length h.length with hc | hc
      · rw [List.drop_left' (by rw [hl]; simp [hc])]
      · rw [List.drop_eq_nil_of_le hc, List.append_nil, List.drop_of_length_le (by rw [hl]; simp [hc])]
    rw [ht, hd, scaleGo_inv _ _ (by rw [← Real.exp_add, show -wI * dt + wI * dt = 0 by ring, Real.exp_zero]) _ 1 1 (by ring)]
    exact List.take_append_drop _ _

/-- C33, time functions not longer than the trace: every sample is the convolution (times the sampling interval) of the trace with the time
function, plus what wraps around the window, damped by `exp(-wI T)`, `T` the window length. -/
theorem C33_convolution_partial (x h : List ℝ) (wI dt : ℝ) (hx : 0 < x.length) (hl : h.length ≤ x.length) :
    postConv x h wI dt = some ((List.range x.length).map fun n =>
      dt * (conv x h n + Real.exp (- wI * (x.length * dt)) * conv x h (n + x.length)), h) := by
  have hok : ∃ y h', postConv x h wI dt = some (y, h') ∧ y = (List.range x.length).map fun n =>
      dt * (conv x h n + Real.exp (- wI * (x.length * dt)) * conv x h (n + x.length)) := by
    unfold postConv
    dsimp only
    rw [List.take_of_length_le hl, List.drop_of_length_le hl, List.append_nil]
    set d := Real.exp (-wI * dt) with hd
    have hlx : (scaleGo d 1 x).length = x.length := scaleGo_length _ _ _
    have hlh : (scaleGo d 1 h).length = h.length := scaleGo_length _ _ _
    rw [C32_circular_partial _ _ _ (by omega) (by omega)]
    refine ⟨_, _, rfl, ?_⟩
    apply List.ext_getElem
    · simp [scaleGo_length]
    · intro n h1 h2
      have hn : n < x.length := by simpa [scaleGo_length] using h1
      simp only [List.getElem_map, List.getElem_range]
      have hg : ∀ (l : List ℝ) (hln : n < l.length), l[n] = l.getD n 0 := fun l hln => (List.getD_eq_getElem _ _ hln).symm
      rw [hg _ (by simpa [scaleGo_length] using hn), scaleGo_getD, List.getD_eq_getElem _ _ (by simpa using hn)]
      simp only [List.getElem_map, List.getElem_range]
      rw [cyc_fold _ _ _ (by omega) (by omega), hlx]
      have hc : ∀ m, conv (scaleGo d 1 x) (scaleGo d 1 h) m = d ^ m * conv x h m := by
        intro m
        unfold conv
        rw [Finset.mul_sum]
        apply Finset.sum_congr rfl
        intro p hp
        rw [Finset.mem_antidiagonal] at hp
        rw [scaleGo_getD, scaleGo_getD, ← hp, pow_add]; ring
      rw [hc, hc, pow_add]
      have he : d ^ n * (Real.exp (wI * dt)) ^ n = 1 := by
        rw [← mul_pow, hd, ← Real.exp_add, show -wI * dt + wI * dt = 0 by ring, Real.exp_zero, one_pow]
      have hN : d ^ x.length = Real.exp (- wI * (x.length * dt)) := by
        rw [hd, ← Real.exp_nat_mul]; congr 1; ring
      rw [hN]
      linear_combination dt * (conv x h n + Real.exp (- wI * (x.length * dt)) * conv x h (n + x.length)) * he
  obtain ⟨y, h', h1, h2⟩ := hok
  have := C33_restored x h wI dt y h' h1
  rw [h1, h2, this]

/-- C33: the wrapped part vanishes when the trace has died out early enough, and the result is the convolution. -/
theorem C33_no_wrap (x h : List ℝ) (wI dt : ℝ) (hx : 0 < x.length) (hl : h.length ≤ x.length)
    (hz : ∀ i, x.length < i + h.length → x.getD i 0 = 0) :
    postConv x h wI dt = some ((List.range x.length).map fun n => dt * conv x h n, h) := by
  rw [C33_convolution_partial x h wI dt hx hl]
  congr 2
  apply List.map_congr_left
  intro n _
  have : conv x h (n + x.length) = 0 := by
    rw [conv_eq]
    apply Finset.sum_eq_zero
    intro j hj
    rw [Finset.mem_range] at hj
    split
    · rw [hz _ (by omega), zero_mul]
    · rfl
  rw [this]; ring

/-- C33 fails for a time function one sample longer than the trace: its last sample is not damped, so what wraps around the window
comes back at full size instead of `exp(-wI T)`. -/
theorem C33_violated (wI dt : ℝ) :
    postConv [1, 0] [0, 0, 1] wI dt = some ([dt, 0], [0, 0, 1]) ∧ conv [(1 : ℝ), 0] [0, 0, 1] 0 = 0 ∧ conv [(1 : ℝ), 0] [0, 0, 1] 2 = 1 := by
  refine ⟨?_, ?_, ?_⟩
  · have : oaconvolve [(1 : ℝ) * 1, 0 * (1 * Real.exp (-wI * dt))] [0 * 1, 0 * (1 * Real.exp (-wI * dt)), 1] 2 true = some [1, 0] := by
      simp only [mul_one, zero_mul]
      rw [C32_circular_partial _ _ _ (by simp) (by simp)]
      simp [List.range_succ, cyc, Finset.sum_range_succ]
    simp [postConv, scaleGo] at this ⊢
    rw [this]
    simp [scaleGo]
  · rw [conv_eq]; simp [Finset.sum_range_succ]
  · rw [conv_eq]; simp [Finset.sum_range_succ]

/-- The same as a failure of the formula of `C33_convolution_partial`. -/
theorem C33_violated_formula (wI dt : ℝ) (hw : 0 < wI) (hd : 0 < dt) :
    postConv [1, 0] [0, 0, 1] wI dt ≠ some ((List.range 2).map fun n =>
      dt * (conv [1, 0] [0, 0, 1] n + Real.exp (- wI * (2 * dt)) * conv [1, 0] [0, 0, 1] (n + 2)), [0, 0, 1]) := by
  obtain ⟨h1, h2, h3⟩ := C33_violated wI dt
  rw [h1]
  intro h
  simp [List.range_succ, h2, h3] at h
  have : Real.exp (-(wI * (2 * dt))) < 1 := by rw [Real.exp_lt_one_iff]; nlinarith [mul_pos hw hd]
  nlinarith [h.1]

/-- A trace of four samples and a time function of three. -/
example : (0 : ℕ) < [(1 : ℚ), 2, 3, 4].length ∧ [(1 : ℚ), 2, 1].length ≤ [(1 : ℚ), 2, 3, 4].length + 1 ∧
    oaconvolve [(1 : ℚ), 2, 3, 4] [1, 2, 1] 4 true = some [12, 8, 8, 12] ∧
    oaconvolve [(1 : ℚ), 2, 3, 4] [1, 2, 1] 4 false = some [1, 4, 8, 12] := by decide +kernel

/-- Lengths in the range of `C32_violated`. -/
example : oaconvolve [(1 : ℚ), 2] [1, 2, 1, 1] 2 true = none := C32_violated _ _ _ (by norm_num) (by simp) (by simp)

/-- A trace that dies out early enough. -/
example : postConv [1, 2, 0, 0] [1, 2, 1] (1/2) (1/10) = some ((List.range 4).map fun n => 1/10 * conv [1, 2, 0, 0] [1, 2, 1] n, [1, 2, 1]) :=
  C33_no_wrap [1, 2, 0, 0] [1, 2, 1] (1/2) (1/10) (by simp) (by simp) (by
    intro i hi
    simp at hi
    match i, hi with
    | 2, _ => rfl
    | 3, _ => rfl
    | (i + 4), _ => rfl)

end GRT.Signals
