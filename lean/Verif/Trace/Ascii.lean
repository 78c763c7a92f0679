import Verif.Num.Round
import Mathlib.Data.List.OfFn

/-!
Model of the program `grt sac2asc` (pygrt/C_extension/src/tools/grt_sac2asc.c), and C116.  Numbers are finite; the trace is what `read_sac` gives (C43).
The operations in `float` are rounded one by one (no extended precision).
-/

namespace GRT.Trace.Ascii

open GRT.Num

/-- The parts of a trace that are used: `hd.b`, `hd.delta` and the samples (`hd.npts` of them, lines 72-74). -/
structure Tr where
  b : ℚ
  delta : ℚ
  data : List ℚ

/-- A number printed with `%13.7e`, line 76: eight significant digits. -/
def shown (x : ℚ) : ℚ := rnd 10 8 x

/-- `begt+dt*i` in `float`, line 76; `i` is converted first. -/
def time (t : Tr) (i : ℕ) : ℚ := flt (t.b + flt (t.delta * flt i))

/-- The lines printed by `sac2asc_main`, lines 75-77: time and amplitude. -/
def out (t : Tr) : List (ℚ × ℚ) := t.data.mapIdx fun i x => (shown (time t i), shown x)

theorem flt_rel (x : ℚ) : |flt x - x| ≤ |x| / 2 ^ 24 := by
  have := rnd_err 2 24 (by norm_num) x
  refine this.trans (le_of_eq ?_)
  norm_num
  ring

theorem shown_rel (x : ℚ) : |shown x - x| ≤ |x| / (2 * 10 ^ 7) := by
  have := rnd_err 10 8 (by norm_num) x
  refine this.trans (le_of_eq ?_)
  norm_num
  ring

theorem flt_nat (n : ℕ) (h : n < 2 ^ 24) : flt (n : ℚ) = n := by
  have := rnd_intCast 2 24 (by norm_num) (n : ℤ) (by rw [abs_of_nonneg (by positivity)]; exact_mod_cast h)
  exact_mod_cast this

/-- The time of a line is right to `2e-7` of the numbers that are added. -/
theorem time_err {t : Tr} (hd : 0 ≤ t.delta) {i : ℕ} (hi : i < 2 ^ 24) :
    |shown (time t i) - (t.b + t.delta * i)| ≤ (|t.b| + t.delta * i) / (5 * 10 ^ 6) := by
  unfold time
  rw [flt_nat i hi]
  have u0 : 0 ≤ t.delta * i := by positivity
  generalize t.delta * (i : ℚ) = u at *
  have e1 := flt_rel u
  rw [abs_of_nonneg u0] at e1
  generalize flt u = v at *
  have e2 := flt_rel (t.b + v)
  generalize t.b = b at *
  have e3 := shown_rel (flt (b + v))
  generalize flt (b + v) = w at *
  generalize shown w = s at *
  have hv : |v| ≤ 2 * u := by
    rw [abs_le] at *
    norm_num at *
    constructor <;> linarith
  have hbv : |b + v| ≤ |b| + u + u / 2 ^ 24 := by
    have h1 := abs_add_le b v
    have h2 : |v| ≤ u + u / 2 ^ 24 := by
      have := abs_sub_abs_le_abs_sub v u
      rw [abs_of_nonneg u0] at this
      linarith
    linarith
  have hw : |w| ≤ 2 * (|b| + u) := by
    have := abs_sub_abs_le_abs_sub w (b + v)
    norm_num at *
    linarith [abs_nonneg b]
  have hw' : |w| ≤ (|b| + u) * (1 + 1 / 10 ^ 6) := by
    have := abs_sub_abs_le_abs_sub w (b + v)
    norm_num at *
    linarith [abs_nonneg b]
  have t1 := abs_sub_le s w (b + u)
  have t2 := abs_sub_le w (b + v) (b + u)
  have t3 : |b + v - (b + u)| = |v - u| := by congr 1; ring
  rw [t3] at t2
  norm_num at *
  linarith [abs_nonneg b]

/-- C116: a trace with positive sampling interval whose times are not beyond two million intervals is printed with one line per sample, in order, each
amplitude to eight digits, each time nearer to the time of its own sample than `0.4` intervals, and the times are strictly ascending.
Missing: longer or later traces, see `C116_violated_time`, and the exact amplitudes, see `C116_violated_amplitude`. -/
theorem C116_partial {t : Tr} (hd : 0 < t.delta) (hb : |t.b| + t.delta * t.data.length ≤ 2 * 10 ^ 6 * t.delta) :
    (out t).length = t.data.length ∧
    (∀ i (h : i < t.data.length) (h' : i < (out t).length), |(out t)[i].2 - t.data[i]| ≤ |t.data[i]| / (2 * 10 ^ 7) ∧
      |(out t)[i].1 - (t.b + i * t.delta)| ≤ 2 / 5 * t.delta) ∧
    ((out t).map (·.1)).Pairwise (· < ·) := by
  have hlen : t.data.length ≤ 2 * 10 ^ 6 := by
    have h1 : (t.data.length : ℚ) * t.delta ≤ 2 * 10 ^ 6 * t.delta := by
      have := abs_nonneg t.b
      linarith
    have := le_of_mul_le_mul_right h1 hd
    exact_mod_cast this
  have err : ∀ i < t.data.length, |shown (time t i) - (t.b + t.delta * i)| ≤ 2 / 5 * t.delta := by
    intro i hi
    refine (time_err hd.le (by omega)).trans ?_
    have : (i : ℚ) ≤ t.data.length := by exact_mod_cast hi.le
    have : t.delta * i ≤ t.delta * t.data.length := by gcongr
    norm_num at *
    linarith
  have hget : ∀ i (h : i < t.data.length) (h' : i < (out t).length), (out t)[i] = (shown (time t i), shown t.data[i]) := by
    intro i h h'
    simp [out]
  refine ⟨by simp [out], ?_, ?_⟩
  · intro i h h'
    rw [hget i h h']
    refine ⟨shown_rel _, ?_⟩
    rw [mul_comm]
    exact err i h
  · rw [List.pairwise_map, List.pairwise_iff_getElem]
    intro i j hi hj hij
    have hi' : i < t.data.length := by simpa [out] using hi
    have hj' : j < t.data.length := by simpa [out] using hj
    rw [hget i hi' hi, hget j hj' hj]
    have a := abs_le.1 (err i hi')
    have b := abs_le.1 (err j hj')
    have hij' : (i : ℚ) + 1 ≤ j := by exact_mod_cast hij
    have : t.delta * (i + 1) ≤ t.delta * j := by gcongr
    show shown (time t i) < shown (time t j)
    linarith [a.2, b.1]

/-- C116 does not hold: with a begin time of 3000 s and 0.0001 s sampling (both rounded to `float`) neighbouring lines have the same time. -/
theorem C116_violated_time : ∃ t : Tr, t.b = flt 3000 ∧ t.delta = flt (1 / 10000) ∧ 0 < t.delta ∧
    (out t).map (·.1) = [3000, 3000, 30000002 / 10000, 30000002 / 10000] :=
  ⟨⟨flt 3000, flt (1 / 10000), [0, 1, 2, 3]⟩, rfl, rfl, by decide +kernel, by decide +kernel⟩

/-- C116 does not hold: two different samples that are `float` numbers are printed alike. -/
theorem C116_violated_amplitude : ∃ x y : ℚ, x ≠ y ∧ flt x = x ∧ flt y = y ∧ shown x = shown y :=
  ⟨1000 + 1 / 2 ^ 14, 1000 + 2 / 2 ^ 14, by norm_num, by decide +kernel, by decide +kernel, by decide +kernel⟩

/-- A trace that meets the hypotheses: three samples, begin 2.5 s, interval 0.5 s. -/
example : ((out ⟨5 / 2, 1 / 2, [1, -2, 3]⟩)) = [(5 / 2, 1), (3, -2), (7 / 2, 3)] := by decide +kernel
example := C116_partial (t := ⟨5 / 2, 1 / 2, [1, -2, 3]⟩) (by norm_num) (by norm_num)

end GRT.Trace.Ascii
