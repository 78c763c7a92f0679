import Mathlib.Analysis.Real.Sqrt
import Mathlib.Algebra.BigOperators.Intervals
import Verif.Model1D.Model

/-!
Model of `grt_compute_travt1d`, pygrt/C_extension/src/common/travt.c 17-365, over the real numbers.
Arrays are functions of the index.  The two places where the C code divides by a vanishing cosine are kept
apart (`hop`): there `x/0.0` is `+inf`, which exceeds the current travel time, and `0.0/0.0` is NaN, for which
every comparison is false, so that nothing is recorded for the refractor.
-/

namespace GRT.Travt

open Finset

/-- `Vel[i] = (Vel0[i] <= 0.0)? 1e-6 : Vel0[i]`, travt.c 22-24. -/
noncomputable def fixVel (v : ℝ) : ℝ := if v ≤ 0 then 1 / 1000000 else v

/-- Time of the ray of slowness `p` over the layers `[a, b)`, travt.c 111-121: `t += h/(v*c)`, layers with
`h == 0.0` skipped. -/
noncomputable def rayT (thk vel : ℕ → ℝ) (a b : ℕ) (p : ℝ) : ℝ :=
  ∑ i ∈ Ico a b, if thk i = 0 then 0 else thk i / (vel i * Real.sqrt (1 - (p * vel i) * (p * vel i)))

/-- Offset of that ray, travt.c 111-121: `x += h*s/c`. -/
noncomputable def rayX (thk vel : ℕ → ℝ) (a b : ℕ) (p : ℝ) : ℝ :=
  ∑ i ∈ Ico a b, if thk i = 0 then 0 else thk i * (p * vel i) / Real.sqrt (1 - (p * vel i) * (p * vel i))

/-- The shooting loop, travt.c 108-134, with `n + 1` iterations left: the slowness of the last iteration.
`minX` is `1e-3`, travt.c 93. -/
noncomputable def shoot (X : ℝ → ℝ) (dist : ℝ) : ℕ → ℝ → ℝ → ℝ
  | 0, pmin, pmax => (pmin + pmax) / 2
  | n + 1, pmin, pmax =>
    let p := (pmin + pmax) / 2
    if X p < dist then
      if |X p - dist| < 1 / 1000 then p else shoot X dist n p pmax
    else if X p > dist then
      if |X p - dist| < 1 / 1000 then p else shoot X dist n pmin p
    else p

/-- `pmax0`, travt.c 95-99, from `1/vmax` over the layers `a .. a+n-1`. -/
noncomputable def pmax0 (thk vel : ℕ → ℝ) (v : ℝ) (a : ℕ) : ℕ → ℝ
  | 0 => 1 / v
  | n + 1 =>
    let q := pmax0 thk vel v a n
    if thk (a + n) = 0 then q else if q > 1 / vel (a + n) then 1 / vel (a + n) else q

/-- Running sums over the legs of a refracted ray, travt.c 186-189: sums so far, abandoned with
`badrefrac` (the C code goes on with the next refractor), or `sumt > travt` (it leaves the loop). -/
inductive Leg where
  | ok (sumt sumx : ℝ)
  | bad
  | over

/-- One layer of a leg, travt.c 191-210 (`w = 1`) and 218-236 (`w = 2`), and 296-315, 323-341. -/
noncomputable def hop (thk vel : ℕ → ℝ) (v travt dist w : ℝ) (i : ℕ) : Leg → Leg
  | .ok sumt sumx =>
    if vel i > v then .bad
    else
      let p := 1 / v
      let c := Real.sqrt |1 - p * p * vel i * vel i|
      if c = 0 then (if thk i = 0 then .bad else .over)
      else
        let sumt := sumt + w * thk i / (vel i * c)
        if sumt > travt then .over
        else
          let sumx := sumx + w * thk i * p * vel i / c
          if sumx > dist then .bad else .ok sumt sumx
  | l => l

/-- The layers `a .. a+n-1` of a leg. -/
noncomputable def leg (thk vel : ℕ → ℝ) (v travt dist w : ℝ) (a : ℕ) : ℕ → Leg → Leg
  | 0, l => l
  | n + 1, l => hop thk vel v travt dist w (a + n) (leg thk vel v travt dist w a n l)

/-- One refractor `m`: one-sided leg over `[imin, imax)`, two-sided leg over `[a, b)`, then
`sumt += (dist - sumx)/v; if(sumt < travt) travt = sumt;`, travt.c 175-255 (up) and 281-360 (down).
The flag tells whether the loop goes on. -/
noncomputable def refract (thk vel : ℕ → ℝ) (vmin vmax dist : ℝ) (imin imax : ℕ) (m a b : ℕ) (travt : ℝ) : ℝ × Bool :=
  if thk m = 0 then (travt, true)
  else
    let v := vel m
    if vmin ≥ v then (travt, true)
    else if vmax ≥ v then (travt, true)
    else
      match leg thk vel v travt dist 2 a (b - a) (leg thk vel v travt dist 1 imin (imax - imin) (.ok 0 0)) with
      | .over => (travt, false)
      | .bad => (travt, true)
      | .ok sumt sumx =>
        if dist ≥ sumx then
          let s := sumt + (dist - sumx) / v
          if s < travt then (s, true) else (travt, true)
        else (travt, true)

/-- Upward refractions, travt.c 175-257: `m = k-1, …, 0`. -/
noncomputable def up (thk vel : ℕ → ℝ) (vmin vmax dist : ℝ) (imin imax : ℕ) : ℕ → ℝ → ℝ
  | 0, t => t
  | k + 1, t =>
    let r := refract thk vel vmin vmax dist imin imax k (k + 1) imin t
    if r.2 then up thk vel vmin vmax dist imin imax k r.1 else r.1

/-- Downward refractions, travt.c 280-362: `m, m+1, …` for `n` layers. -/
noncomputable def down (thk vel : ℕ → ℝ) (vmin vmax dist : ℝ) (imin imax : ℕ) : ℕ → ℕ → ℝ → ℝ
  | _, 0, t => t
  | m, n + 1, t =>
    let r := refract thk vel vmin vmax dist imin imax m imax m t
    if r.2 then down thk vel vmin vmax dist imin imax (m + 1) n r.1 else r.1

/-- The direct wave, travt.c 84-139.  `depdif` is the difference of the two prefix sums of `Thk`. -/
noncomputable def direct (thk vel : ℕ → ℝ) (isrc ircv : ℕ) (dist : ℝ) : ℝ :=
  let imin := min isrc ircv
  let imax := max isrc ircv
  let vmax := if vel isrc < vel ircv then vel ircv else vel isrc
  let depdif := |(∑ i ∈ range isrc, thk i) - ∑ i ∈ range ircv, thk i|
  if imax - imin = 1 then Real.sqrt (dist ^ 2 + depdif ^ 2) / vel isrc
  else rayT thk vel imin imax (shoot (rayX thk vel imin imax) dist 49 0 (pmax0 thk vel vmax imin (imax + 1 - imin)))

/-- `grt_compute_travt1d`, travt.c 17-365. -/
noncomputable def travt1d (thk vel0 : ℕ → ℝ) (nlay isrc ircv : ℕ) (dist : ℝ) : ℝ :=
  let vel := fun i => fixVel (vel0 i)
  let imin := min isrc ircv
  let imax := max isrc ircv
  if ∃ i ∈ Icc imin imax, vel0 i = 0 then -12345
  else
    let vmax := if vel isrc < vel ircv then vel ircv else vel isrc
    let vmin := if vel isrc < vel ircv then vel isrc else vel ircv
    let t := direct thk vel isrc ircv dist
    let t := if thk 0 > 0 then up thk vel vmin vmax dist imin imax imin t else t
    down thk vel vmin vmax dist imin imax (imax + 1) (nlay - (imax + 1)) t

/-- Travel time from a model file: `grt_read_mod1d_from_file` and `grt_compute_travt1d`,
tools/grt_travt.c and python/pymod.py `compute_travt1d`; `sel` picks `Va` or `Vb`. -/
noncomputable def fromFile (sel : Model1D.Med ℝ → ℝ) (arr : List (Model1D.FLay ℝ)) (zs zr dist : ℝ) :
    Except Model1D.Err ℝ :=
  (Model1D.readMod1d arr zs zr).map fun m =>
    travt1d (fun i => (m.lays[i]?).elim 0 (·.h)) (fun i => (m.lays[i]?).elim 0 (fun l => sel l.m))
      m.lays.length m.isrc m.ircv dist

end GRT.Travt
