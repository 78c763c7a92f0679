import Mathlib.Algebra.Order.Floor.Ring
import Mathlib.Analysis.SpecialFunctions.Exp
import Mathlib.Analysis.Real.Pi.Bounds

/-!
Model of pygrt/C_extension/src/dynamic/signals.c and of `syn_postprocess_trace`,
pygrt/C_extension/src/dynamic/grt_syn.c 923-956.  Samples are exact numbers, not `float`; `int` does not overflow.
`none` is an access outside an array (or a remainder by zero).
-/

namespace GRT.Signals

variable {α : Type*}

/-- `x[i]`. -/
def rd (x : List α) (i : ℤ) : Option α := if i < 0 then none else x[i.toNat]?

section conv
variable [CommRing α]

/-- Inner loop of the linear convolution, signals.c 146-150, from `k` on. -/
def linGo (x : List α) (n : ℕ) : ℕ → List α → α → Option α
  | _, [], acc => some acc
  | k, hk :: t, acc =>
    let i : ℤ := n - k
    if i ≥ 0 ∧ i < x.length then
      match rd x i with
      | none => none
      | some v => linGo x n (k + 1) t (acc + v * hk)
    else linGo x n (k + 1) t acc

/-- Inner loop of the circular convolution, signals.c 139-141, from `k` on; `%` truncates. -/
def circGo (x : List α) (n : ℕ) : ℕ → List α → α → Option α
  | _, [], acc => some acc
  | k, hk :: t, acc =>
    match rd x (Int.tmod ((n : ℤ) - k + x.length) x.length) with
    | none => none
    | some v => circGo x n (k + 1) t (acc + v * hk)

/-- `grt_oaconvolve`, signals.c 135-153. -/
def oaconvolve (x h : List α) (ny : ℕ) (circular : Bool) : Option (List α) :=
  (List.range ny).mapM fun n => if circular then circGo x n 0 h 0 else linGo x n 0 h 0

/-- `data[n] *= fac; fac *= dfac;`, grt_syn.c 933-936. -/
def scaleGo (dfac : α) : α → List α → List α
  | _, [] => []
  | fac, a :: t => a * fac :: scaleGo dfac (fac * dfac) t

end conv

/-- Convolution part of `syn_postprocess_trace`, grt_syn.c 928-947: trace and time function afterwards. -/
noncomputable def postConv (x h : List ℝ) (wI dt : ℝ) : Option (List ℝ × List ℝ) :=
  let nt := x.length
  let d := Real.exp (-wI * dt)
  let x' := scaleGo d 1 x
  let h' := scaleGo d 1 (h.take nt) ++ h.drop nt
  match oaconvolve x' h' nt true with
  | none => none
  | some c =>
    let e := Real.exp (wI * dt)
    some ((scaleGo e 1 c).map (· * dt), scaleGo e 1 (h'.take nt) ++ h'.drop nt)

section field
variable [Field α]

/-- Loop of `grt_trap_integral`, signals.c 174-178, with `lastx` and `x[i-1]`. -/
def integGo (dt : α) : α → α → List α → List α
  | _, _, [] => []
  | last, prev, x :: t => (1/2 * (x + last) * dt + prev) :: integGo dt x (1/2 * (x + last) * dt + prev) t

/-- `grt_trap_integral`, signals.c 165-179. -/
def trapIntegral (dt : α) : List α → Option (List α)
  | [] => none
  | x :: t => some (0 :: integGo dt x 0 t)

/-- `grt_trap_area`, signals.c 156-162. -/
def trapArea (dt : α) : List α → α
  | a :: b :: t => (a + b) * (1/2) / dt + trapArea dt (b :: t)
  | _ => 0

/-- Loop and last line of `grt_differential`, signals.c 188-193, with `x0`, on `x[i], x[i+1], …`. -/
def diffGo (dt : α) : α → List α → List α
  | x0, a :: b :: t => (b - x0) / (2 * dt) :: diffGo dt a (b :: t)
  | x0, [a] => [(a - x0) / dt]
  | _, [] => []

/-- `grt_differential`, signals.c 183-194; `x[1]` is read whatever the length. -/
def differential (dt : α) : List α → Option (List α)
  | x0 :: x1 :: t => some ((x1 - x0) / dt :: diffGo dt x0 (x1 :: t))
  | _ => none

end field

/-! ### Time functions -/

/-- `n = floorf(t/dt); if(fabsf(t - n*dt) <= 1e-6) n--;`, signals.c 199-200, 227-228, 239-240, 247-248. -/
noncomputable def steps (dt t : ℝ) : ℤ :=
  let n := ⌊t / dt⌋
  if |t - n * dt| ≤ 1 / 1000000 then n - 1 else n

/-- `arr[n] = …` for `n = a, a+1, …, a+m-1`, `f j` at step `j`; `none` outside the array. -/
def fill (f : ℕ → ℝ) (a : ℤ) : ℕ → List ℝ → Option (List ℝ)
  | 0, arr => some arr
  | m + 1, arr =>
    match fill f a m arr with
    | none => none
    | some arr => if 0 ≤ a + m ∧ a + m < arr.length then some (arr.set (a + m).toNat (f m)) else none

/-- Outcome of a time function: error exit, access outside the array, or samples with adjusted times. -/
inductive TF (β : Type) where
  | error
  | undef
  | ok (arr : List ℝ) (times : β)

/-- `grt_get_parabola_wave`, signals.c 197-218. For `nt = 1` the increment is `1.0/0`, never used. -/
noncomputable def parabolaWave (dt tlen : ℝ) : TF ℝ :=
  let nt := steps dt tlen
  if nt = 0 then .error
  else
    let nt := nt + 2
    let fac := 1 / ((nt : ℝ) - 1)
    if nt < 0 then .undef
    else
      match fill (fun n => 1 - (n * fac - 1/2) * (n * fac - 1/2) * 4) 0 nt.toNat (List.replicate nt.toNat 0) with
      | none => .undef
      | some arr => .ok arr ((nt - 1) * dt)

/-- `grt_get_trap_wave`, signals.c 221-284. A slope of one sample has increment `1.0/0`, never used. -/
noncomputable def trapWave (dt T1 T2 T3 : ℝ) : TF (ℝ × ℝ × ℝ) :=
  let n1 := steps dt T1 + 2
  let t1 := ((n1 : ℝ) - 1) * dt
  let n2 := if T1 = T2 then 1 else steps dt (T2 - t1) + 2
  let t2 := if T1 = T2 then t1 else t1 + ((n2 : ℝ) - 1) * dt
  let n3 := steps dt (T3 - t2) + 2
  let t3 := t2 + ((n3 : ℝ) - 1) * dt
  let nt := n1 + n2 + n3 - 2
  if nt < 0 then .undef
  else
    let up := 1 / ((n1 : ℝ) - 1)
    let dn := 1 / ((n3 : ℝ) - 1)
    match (fill (fun j => j * up) 0 n1.toNat (List.replicate nt.toNat 0)).bind fun arr =>
      (fill (fun _ => 1) (n1 - 1) n2.toNat arr).bind fun arr =>
      fill (fun j => 1 - j * dn) (n1 + n2 - 2) n3.toNat arr with
    | none => .undef
    | some arr => .ok arr (t1, t2, t3)

/-- `grt_get_ricker_wave`, signals.c 287-307. -/
noncomputable def rickerWave (dt f0 : ℝ) : TF Unit :=
  if 1 / dt ≤ 2 * f0 then .error
  else
    let t0 := 1 / f0
    let nt := (⌊t0 / dt⌋ + 1) * 2
    if nt < 0 then .undef
    else
      match fill (fun i =>
          let a := Real.pi * Real.pi * (f0 * f0) * (i * dt - t0) * (i * dt - t0)
          (1 - 2 * a) * Real.exp (-a)) 0 nt.toNat (List.replicate nt.toNat 0) with
      | none => .undef
      | some arr => .ok arr ()

end GRT.Signals
