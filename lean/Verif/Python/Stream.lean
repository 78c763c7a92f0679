import Verif.Signals.Conv
import Verif.Signals.Ops

/-!
Traces in Python: `stream_convolve`, `stream_integral`, `stream_diff`, pygrt/utils.py 388-452.  One trace, as a list of exact numbers.  `none` is an exception.

Simplified: samples are real numbers (in Python `float32` or `float64`); `np.pad(mode="wrap")` is the periodic continuation; a trace without samples counts as an
exception also in `stream_convolve`; `inplace` only chooses between the trace and its copy and is left out.
-/

namespace GRT.Python.Stream

open GRT.Signals

/-- `np.pad(data, (p, 0), mode="wrap")`, utils.py 409 and 413. -/
def pad (x : List ℝ) (p : ℕ) : List ℝ := (List.range (p + x.length)).map fun i => x.getD ((i + x.length * p - p) % x.length) 0

/-- `oaconvolve(a, b, mode="valid")` for `a` at least as long as `b`, utils.py 410 and 414: the samples for which all of `b` is used. -/
noncomputable def valid (a b : List ℝ) : List ℝ :=
  (List.range (a.length + 1 - b.length)).map fun n => ∑ j ∈ Finset.range b.length, a.getD (n + b.length - 1 - j) 0 * b.getD j 0

/-- `np.exp(np.arange(npts) * dt * w_i)`, utils.py 406. -/
noncomputable def factor (N : ℕ) (dt w : ℝ) : List ℝ := (List.range N).map fun i : ℕ => Real.exp (i * dt * w)

/-- `signal / factor[: len(signal)]`, utils.py 407: arrays of the same length, or one factor for all. -/
noncomputable def adjust (h f : List ℝ) : Option (List ℝ) :=
  if (f.take h.length).length = h.length then some (List.zipWith (· / ·) h (f.take h.length))
  else if f.length = 1 then some (h.map (· / f.getD 0 0))
  else none

/-- Body of the loop of `stream_convolve`, utils.py 401-414; `w` is `user0`, if there is one. -/
noncomputable def convolve (x h : List ℝ) (dt : ℝ) (w : Option ℝ) : Option (List ℝ) :=
  if x = [] ∨ h = [] then none
  else match w with
    | some w =>
      let f := factor x.length dt w
      match adjust h f with
      | none => none
      | some h' =>
        let x' := List.zipWith (· / ·) x f
        some (List.zipWith (· * ·) (((valid (pad x' (h.length - 1)) h').take x.length).map (· * dt)) f)
    | none => some (((valid (pad x (h.length - 1)) h).take x.length).map (· * dt))

/-- One pass of the loop of `stream_integral`, utils.py 433-436. -/
noncomputable def integStep (dt : ℝ) (s : List ℝ × ℝ) (i : ℕ) : List ℝ × ℝ :=
  let current := s.1.getD i 0
  (s.1.set i (1 / 2 * (current + s.2) * dt + s.1.getD (i - 1) 0), current)

/-- Body of the loop of `stream_integral`, utils.py 428-436. -/
noncomputable def integral (x : List ℝ) (dt : ℝ) : Option (List ℝ) :=
  match x with
  | [] => none
  | a :: t => some (((List.range' 1 t.length).foldl (integStep dt) (0 :: t, a)).1)

/-- `np.gradient(data, dt)`, utils.py 451: central differences, one-sided ones at the ends, two samples or more. -/
noncomputable def diff (x : List ℝ) (dt : ℝ) : Option (List ℝ) :=
  if x.length < 2 then none
  else some ((List.range x.length).map fun i =>
    if i = 0 then (x.getD 1 0 - x.getD 0 0) / dt
    else if i + 1 = x.length then (x.getD i 0 - x.getD (i - 1) 0) / dt
    else (x.getD (i + 1) 0 - x.getD (i - 1) 0) / (2 * dt))

/-! ### Convolution -/

theorem index_iff' (N n i j p : ℕ) (hi : i < N) (hj : j ≤ p) : (i + j) % N = n % N ↔ i = (n + N * p - j) % N := by
  have hN : 0 < N := by omega
  have hp : p ≤ N * p := Nat.le_mul_of_pos_left p hN
  have key : (n + N * p - j) % N + j ≡ n [MOD N] := by
    calc (n + N * p - j) % N + j ≡ (n + N * p - j) + j [MOD N] := (Nat.mod_modEq _ _).add_right j
      _ = n + N * p := by omega
      _ ≡ n [MOD N] := by simp [Nat.ModEq]
  constructor
  · intro h
    have h2 : i + j ≡ (n + N * p - j) % N + j [MOD N] := (show i + j ≡ n [MOD N] from h).trans key.symm
    exact Nat.ModEq.eq_of_lt_of_lt (Nat.ModEq.add_right_cancel' j h2) hi (Nat.mod_lt _ hN)
  · intro h; rw [h]; exact key

/-- The valid part of the convolution of the periodic continuation is the circular convolution, whatever the lengths. -/
theorem valid_pad (x h : List ℝ) (hx : 0 < x.length) (hh : 0 < h.length) :
    valid (pad x (h.length - 1)) h = (List.range x.length).map (cyc x h) := by
  unfold valid
  have hl : (pad x (h.length - 1)).length = h.length - 1 + x.length := by simp [pad]
  rw [hl, show h.length - 1 + x.length + 1 - h.length = x.length by omega]
  refine List.map_congr_left fun n hn => ?_
  rw [List.mem_range] at hn
  unfold cyc
  rw [Finset.sum_comm]
  refine Finset.sum_congr rfl fun j hj => ?_
  rw [Finset.mem_range] at hj
  have : ∀ i ∈ Finset.range x.length, (if (i + j) % x.length = n % x.length then x.getD i 0 * h.getD j 0 else 0)
      = if i = (n + x.length * (h.length - 1) - j) % x.length then x.getD i 0 * h.getD j 0 else 0 := by
    intro i hi
    rw [Finset.mem_range] at hi
    simp only [index_iff' x.length n i j (h.length - 1) hi (by omega)]
  rw [Finset.sum_congr rfl this, Finset.sum_ite_eq', if_pos (Finset.mem_range.2 (Nat.mod_lt _ hx))]
  congr 1
  unfold pad
  rw [List.getD_eq_getElem _ _ (by simp; omega)]
  simp only [List.getElem_map, List.getElem_range]
  have hp : h.length - 1 ≤ x.length * (h.length - 1) := Nat.le_mul_of_pos_left _ hx
  congr 2
  omega

theorem zip_factor (x : List ℝ) (dt w : ℝ) : List.zipWith (· / ·) x (factor x.length dt w) = scaleGo (Real.exp (-w * dt)) 1 x := by
  apply List.ext_getElem
  · simp [factor, scaleGo_length]
  · intro n h1 h2
    have hn : n < x.length := by simpa [scaleGo_length] using h2
    rw [← List.getD_eq_getElem (scaleGo _ _ _) 0 h2, scaleGo_getD, List.getD_eq_getElem _ _ hn]
    simp only [List.getElem_zipWith, factor, List.getElem_map, List.getElem_range]
    rw [one_mul, ← Real.exp_nat_mul, div_eq_mul_inv, ← Real.exp_neg]
    congr 2
    ring

theorem factor_take (N m : ℕ) (dt w : ℝ) (h : m ≤ N) : (factor N dt w).take m = factor m dt w := by
  unfold factor
  rw [← List.map_take, List.take_range, min_eq_left h]

/-- C128: a signal not longer than the trace: `stream_convolve` gives the trace that `grt syn` gives for the same time function; without `user0` it is that for
`user0 = 0`. -/
theorem C128_convolve (x h : List ℝ) (dt : ℝ) (w : Option ℝ) (hh : h ≠ []) (hl : h.length ≤ x.length) :
    convolve x h dt w = (postConv x h (w.getD 0) dt).map Prod.fst ∧ convolve x h dt w ≠ none := by
  have hh' : 0 < h.length := List.length_pos_of_ne_nil hh
  have hx' : 0 < x.length := by omega
  have hx : x ≠ [] := List.ne_nil_of_length_pos hx'
  have hpost : ∀ w : ℝ, (postConv x h w dt).map Prod.fst = some ((scaleGo (Real.exp (w * dt)) 1 ((List.range x.length).map
      (cyc (scaleGo (Real.exp (-w * dt)) 1 x) (scaleGo (Real.exp (-w * dt)) 1 h)))).map (· * dt)) := by
    intro w
    unfold postConv
    dsimp only
    rw [List.take_of_length_le hl, List.drop_of_length_le hl, List.append_nil,
      C32_circular_partial _ _ _ (by rw [scaleGo_length]; exact hx') (by rw [scaleGo_length, scaleGo_length]; omega)]
    rfl
  have hone : ∀ l : List ℝ, scaleGo (1 : ℝ) 1 l = l := by
    intro l
    induction l with
    | nil => rfl
    | cons a t ih => simp only [scaleGo, mul_one, ih]
  have hmain : convolve x h dt w = (postConv x h (w.getD 0) dt).map Prod.fst := by
    unfold convolve
    rw [if_neg (by simp [hx, hh])]
    cases w with
    | none =>
      rw [hpost, Option.getD_none]
      simp only [neg_zero, zero_mul, Real.exp_zero, hone]
      rw [valid_pad x h hx' hh', List.take_of_length_le (by simp)]
    | some w =>
      rw [hpost, Option.getD_some]
      have ha : adjust h (factor x.length dt w) = some (scaleGo (Real.exp (-w * dt)) 1 h) := by
        unfold adjust
        rw [factor_take _ _ _ _ hl, if_pos (by simp [factor]), zip_factor]
      simp only [ha, zip_factor]
      have hv := valid_pad (scaleGo (Real.exp (-w * dt)) 1 x) (scaleGo (Real.exp (-w * dt)) 1 h) (by rw [scaleGo_length]; exact hx')
        (by rw [scaleGo_length]; exact hh')
      rw [scaleGo_length, scaleGo_length] at hv
      rw [hv, List.take_of_length_le (by simp)]
      congr 1
      apply List.ext_getElem
      · simp [factor, scaleGo_length]
      · intro n h1 h2
        have hn : n < x.length := by simpa [scaleGo_length] using h2
        simp only [List.getElem_zipWith, List.getElem_map, factor, List.getElem_range]
        rw [← List.getD_eq_getElem (scaleGo _ _ _) 0 (by simpa [scaleGo_length] using hn), scaleGo_getD, List.getD_eq_getElem _ _ (by simpa using hn)]
        simp only [List.getElem_map, List.getElem_range]
        rw [one_mul, ← Real.exp_nat_mul, show (n : ℝ) * dt * w = n * (w * dt) by ring]
        ring
  refine ⟨hmain, ?_⟩
  rw [hmain, hpost]
  exact Option.some_ne_none _

/-- C128: longer signals, where the program reads outside the array (C32): without `user0` the trace is still the circular convolution; with `user0` the call ends
with an exception. -/
theorem C128_long (x h : List ℝ) (dt w : ℝ) (hx : 2 ≤ x.length) (hl : x.length < h.length) :
    convolve x h dt none = some ((List.range x.length).map fun n => cyc x h n * dt) ∧ convolve x h dt (some w) = none := by
  have hx0 : x ≠ [] := List.ne_nil_of_length_pos (by omega)
  have hh0 : h ≠ [] := List.ne_nil_of_length_pos (by omega)
  constructor
  · unfold convolve
    rw [if_neg (by simp [hx0, hh0])]
    simp only
    rw [valid_pad x h (by omega) (by omega), List.take_of_length_le (by simp), List.map_map]
    rfl
  · unfold convolve
    rw [if_neg (by simp [hx0, hh0])]
    have ha : adjust h (factor x.length dt w) = none := by
      unfold adjust
      rw [if_neg (by simp [factor]; omega), if_neg (by simp [factor]; omega)]
    simp only [ha]

/-! ### Integral and differences -/

theorem integ_inv (a dt : ℝ) (t : List ℝ) : ∀ n ≤ t.length, ∃ y, (List.range' 1 n).foldl (integStep dt) (0 :: t, a) = (y, (a :: t).getD n 0) ∧
    y.length = t.length + 1 ∧ (∀ i ≤ n, y.getD i 0 = trapSum dt (a :: t) i) ∧ ∀ i, n < i → y.getD i 0 = (a :: t).getD i 0 := by
  intro n
  induction n with
  | zero =>
    intro _
    refine ⟨0 :: t, rfl, rfl, ?_, ?_⟩
    · intro i hi
      obtain rfl : i = 0 := by omega
      simp [trapSum]
    · intro i hi
      obtain ⟨i, rfl⟩ : ∃ k, i = k + 1 := ⟨i - 1, by omega⟩
      simp
  | succ n ih =>
    intro hn
    obtain ⟨y, h1, h2, h3, h4⟩ := ih (by omega)
    have hset : ∀ (v : ℝ) (i : ℕ), (y.set (n + 1) v).getD i 0 = if i = n + 1 then v else y.getD i 0 := by
      intro v i
      rw [List.getD_eq_getElem?_getD, List.getD_eq_getElem?_getD, List.getElem?_set]
      by_cases hi : i = n + 1
      · subst hi
        rw [if_pos rfl, if_pos (by omega), if_pos rfl]
        rfl
      · rw [if_neg (by omega), if_neg hi]
    refine ⟨y.set (n + 1) (1 / 2 * ((a :: t).getD (n + 1) 0 + (a :: t).getD n 0) * dt + trapSum dt (a :: t) n), ?_, ?_, ?_, ?_⟩
    · rw [List.range'_concat, List.foldl_append, h1]
      simp only [List.foldl_cons, List.foldl_nil, integStep]
      rw [show 1 + 1 * n = n + 1 by omega, h4 (n + 1) (by omega), Nat.add_sub_cancel, h3 n le_rfl]
    · rw [List.length_set, h2]
    · intro i hi
      rw [hset]
      by_cases hi' : i = n + 1
      · subst hi'
        rw [if_pos rfl]
        unfold trapSum
        rw [Finset.sum_range_succ]
        ring
      · rw [if_neg hi', h3 i (by omega)]
    · intro i hi
      rw [hset, if_neg (by omega), h4 i (by omega)]

/-- C128: the integral of a trace is the one of `grt syn -I`: the trapezoidal sum at every sample. -/
theorem C128_integral (x : List ℝ) (dt : ℝ) : integral x dt = trapIntegral dt x ∧
    (x ≠ [] → ∃ y, integral x dt = some y ∧ y.length = x.length ∧ ∀ n < x.length, y.getD n 0 = trapSum dt x n) := by
  match x with
  | [] => exact ⟨rfl, fun h => absurd rfl h⟩
  | a :: t =>
    obtain ⟨y, h1, h2, h3, _⟩ := integ_inv a dt t t.length le_rfl
    obtain ⟨z, k1, k2, k3⟩ := C34_integral dt (a :: t) (by simp)
    have he : integral (a :: t) dt = some y := by
      unfold integral
      simp only [h1]
    have hyz : y = z := by
      apply List.ext_getElem
      · rw [h2, k2]; rfl
      · intro n h5 h6
        rw [← List.getD_eq_getElem y 0 h5, ← List.getD_eq_getElem z 0 h6, h3 n (by omega), k3 n (by rw [← k2]; exact h6)]
    subst hyz
    exact ⟨by rw [he, k1], fun _ => ⟨y, he, k2, k3⟩⟩

/-- C128: the differences of a trace are those of `grt syn -J`; for less than two samples (where the program reads outside the array) there is an exception. -/
theorem C128_diff (x : List ℝ) (dt : ℝ) : diff x dt = differential dt x := by
  by_cases hx : x.length < 2
  · unfold diff
    rw [if_pos hx]
    match x, hx with
    | [], _ => rfl
    | [a], _ => rfl
  · obtain ⟨y, h1, h2, h3, h4, h5⟩ := C34_differential dt x (by omega)
    unfold diff
    rw [if_neg hx, h1]
    congr 1
    apply List.ext_getElem
    · simp [h2]
    · intro n k1 k2
      rw [← List.getD_eq_getElem y 0 k2]
      simp only [List.getElem_map, List.getElem_range]
      by_cases n0 : n = 0
      · subst n0; rw [if_pos rfl, h3]
      · rw [if_neg n0]
        by_cases n1 : n + 1 = x.length
        · rw [if_pos n1, show n = x.length - 1 by omega, h4, show x.length - 1 - 1 = x.length - 2 by omega]
        · rw [if_neg n1, h5 n (by omega) (by omega)]

/-- Cases of the hypotheses: a trace of three samples with a signal of two, and one of two samples with a signal of three. -/
example : convolve [1, 2, 4] [3, 5] (1 / 2) none = some [23 / 2, 11 / 2, 11] := by
  rw [(C128_convolve _ _ _ _ (by simp) (by simp)).1]
  rw [Option.getD_none, C33_convolution_partial _ _ _ _ (by simp) (by simp)]
  simp [conv, List.range_succ, Finset.Nat.antidiagonal_succ]
  norm_num

example : convolve [1, 2] [3, 5, 7] 1 (some 1) = none := (C128_long _ _ _ _ (by simp) (by simp)).2

example : diff [1, 2, 4, 3] (1 / 2) = some [2, 3, 1, -2] := by
  rw [C128_diff]
  simp [differential, diffGo]
  norm_num

end GRT.Python.Stream
