import Verif.Model1D.State
import Mathlib.Algebra.Order.Floor.Ring

/-!
Model of the program `grt kernel` (pygrt/C_extension/src/dynamic/grt_kernel.c): the options `-F` and `-C`, the lists of frequencies and
phase velocities, and the loop that fills the record files.  Exact arithmetic.

Left out: the text of the options (the numbers read by `sscanf` are given), the directory and its `command` file, messages, and the binary form
of a record (`grt_write_stats`, see C42).  A run of the kernel that divides by zero without testing (`Out.undef`) ends the model of the run; the
program goes on with values that are not numbers.  The iterations of the parallel loop share nothing that is written (each has its own
`MODEL1D_STATE`, its own tables and its own file, lines 427-443), so the file of a frequency is a function of the frequency.
-/

namespace GRT.KernelProg

open GRT.Model1D GRT.Kernel GRT.Layer GRT.RT Complex

/-- Outcome of reading an option: error exit, undefined behaviour, or a value. -/
inductive Opt (α : Type*) where
  | refused : Opt α
  | undef : Opt α
  | ok (a : α) : Opt α

/-- Assigning the `double` with integer value `z` to a `size_t`: undefined out of range. -/
def toSize (z : ℤ) : Opt ℕ := if 0 ≤ z ∧ z < 2 ^ 64 then .ok z.toNat else .undef

/-- The samples `a + d*i`, `i < n`, grt_kernel.c 268-270, 313-316, 398-400. -/
def samples {α : Type*} [Field α] (a d : α) (n : ℕ) : List α := (List.range n).map fun i : ℕ => a + d * i

/-- `n = floor((b-a)/d) + 1`, lines 262, 312, 396; a zero step gives an infinity or no number, and its conversion is undefined. -/
noncomputable def count (a b d : ℝ) : Opt ℕ := if d = 0 then .undef else toSize (⌊(b - a) / d⌋ + 1)

/-- `Ctrl->F` after the option was read. -/
structure FOpt where
  freqs : List ℝ
  zeta : ℝ

open Classical in
/-- `-F<f1>/<f2>/<df>[+w<zeta>]`, lines 225-275; `w` is the value after `+w`, `zeta0` the default `GRT_GREENFN_F_ZETA`. -/
noncomputable def parseF (f1 f2 df : ℝ) (w : Option ℝ) (zeta0 : ℝ) : Opt FOpt :=
  if df ≤ 0 then .refused
  else if f1 < 0 ∨ f2 ≤ 0 then .refused
  else if f1 > f2 then .refused
  else
    let a1 := max f1 df
    let a2 := max a1 f2
    if w.any (fun z => decide (z ≤ 0)) then .refused
    else match count a1 a2 df with
      | .refused => .refused
      | .undef => .undef
      | .ok n => if n < 2 then .refused else .ok ⟨samples a1 df n, w.getD zeta0⟩

/-- What was written after `-C`. -/
inductive CArg where
  | one (dc : ℝ)
  | three (cmin cmax dc : ℝ)

/-- `Ctrl->C` after the options were read: the list (`isset`), or the step only. -/
inductive COpt where
  | list (cs : List ℝ)
  | step (dc : ℝ)

open Classical in
/-- `-C[<cmin>/<cmax>/]<dc>`, lines 284-319.  With three values the step is not tested. -/
noncomputable def parseC : CArg → Opt COpt
  | .one dc => if dc ≤ 0 then .refused else .ok (.step dc)
  | .three a b d =>
    if a ≤ 0 ∨ b ≤ 0 then .refused
    else if a ≥ b then .refused
    else match count a b d with
      | .refused => .refused
      | .undef => .undef
      | .ok n => .ok (.list (samples a d n))

/-- One turn of `grt_get_mod1d_vmin_vmax`, model.c 561-564. -/
noncomputable def vStep (v : ℝ × ℝ) (l : FLay ℝ) : ℝ × ℝ :=
  let v := (if l.m.va < v.1 then l.m.va else v.1, v.2)
  let v := (v.1, if l.m.va > v.2 then l.m.va else v.2)
  let v := (if l.m.vb < v.1 ∧ l.m.vb > 0 then l.m.vb else v.1, v.2)
  (v.1, if l.m.vb > v.2 ∧ l.m.vb > 0 then l.m.vb else v.2)

/-- `grt_get_mod1d_vmin_vmax`, model.c 554-566. -/
noncomputable def vMinMax (m : Mod1d ℝ) : ℝ × ℝ := m.lays.foldl vStep (9 * 10 ^ 30, 0)

/-- The phase velocities, lines 388-402. -/
noncomputable def velocities (m : Mod1d ℝ) : COpt → Opt (List ℝ)
  | .list cs => .ok cs
  | .step dc =>
    let v := vMinMax m
    match count (0.8 * v.1) v.2 dc with
    | .refused => .refused
    | .undef => .undef
    | .ok n => .ok (samples (0.8 * v.1) dc n)

/-- What the loop works with. -/
structure Job where
  m : Mod1d ℝ
  top : Bound
  bot : Bound
  /-- `-e` -/
  e : Bool
  f : FOpt
  cs : List ℝ

/-- `Ctrl->F.wI`, line 405. -/
noncomputable def Job.wI (J : Job) : ℝ := J.f.zeta * Real.pi * (J.f.freqs.getD 1 0 - J.f.freqs.getD 0 0)

/-- `mod1d->omgref`, line 416. -/
noncomputable def Job.omgref (J : Job) : ℝ := 2 * Real.pi * J.f.freqs.getD (J.f.freqs.length - 1) 0

/-- `fac`, lines 412-413. -/
noncomputable def Job.fac (J : Job) : ℝ := 1 / (4 * Real.pi * (J.m.at J.m.isrc).m.rho)

/-- `omega`, lines 422-424. -/
noncomputable def Job.omega (J : Job) (freq : ℝ) : ℂ := (2 * Real.pi * freq : ℝ) - I * J.wI

/-- A record: phase velocity and table; `done` is a ghost, see `Kern`. -/
structure Rec where
  c : ℝ
  rows : Src → Row ℂ
  done : Bool

/-- Multiplying a row by a number. -/
def scale (x : ℂ) (r : Row ℂ) : Row ℂ := ⟨fun i => r.qw i * x, r.v * x⟩

open Classical in
/-- The loop over phase velocities, lines 445-462; the matrices of the state are carried along.  The tables are cleared by the kernel at
every call (kernel_template.c_ 184-185), so only the matrices are. -/
noncomputable def phaseLoop (J : Job) (freq : ℝ) : List ℝ → Store ℂ → Out (List Rec)
  | [], _ => .ok []
  | cc :: cs, s =>
    let w := 2 * Real.pi * freq
    let omega := J.omega freq
    let k := w / cc
    match kernel (dynEnv (kernelIn J.m J.top J.bot J.omgref omega k)) s true with
    | .fail => .fail
    | .undef => .undef
    | .ok r =>
      let tmp := -(J.fac : ℂ) / (omega * omega)
      match phaseLoop J freq cs r.store with
      | .fail => .fail
      | .undef => .undef
      | .ok rest => .ok (⟨cc, fun t => scale tmp (if J.e then r.g.uz t else r.g.u t), r.done⟩ :: rest)

/-- The matrices of a state just allocated with `calloc`, model.c 357. -/
def freshStore : Store ℂ := fun _ => { RD := 0, RU := 0, TD := 0, TU := 0, invT := 0, RDL := 0, RUL := 0, TDL := 0, TUL := 0, invTL := 0, ok := true }

/-- The file of frequency `iw`, lines 420-467. -/
noncomputable def Job.file (J : Job) (iw : ℕ) : Out (List Rec) := phaseLoop J (J.f.freqs.getD iw 0) J.cs freshStore

/-- Numbers on the command line and in the model file. -/
structure Args where
  arr : List (FLay ℝ)
  zs : ℝ
  zr : ℝ
  top : Bound
  bot : Bound
  f1 : ℝ
  f2 : ℝ
  df : ℝ
  w : Option ℝ
  c : CArg
  e : Bool

/-- `kernel_main` up to the loop, lines 365-416, with the test of `-D` (lines 201-203); `zeta0` as for `parseF`. -/
noncomputable def start (zeta0 : ℝ) (A : Args) : Opt Job :=
  if A.zs < 0 ∨ A.zr < 0 then .refused
  else match parseF A.f1 A.f2 A.df A.w zeta0, parseC A.c with
    | .refused, _ | _, .refused => .refused
    | .undef, _ | _, .undef => .undef
    | .ok f, .ok c =>
      match readMod1d A.arr A.zs A.zr with
      | .error _ => .refused
      | .ok m =>
        if boundaryAccepted m (A.bot == .half) = false then .refused
        else match velocities m c with
          | .refused => .refused
          | .undef => .undef
          | .ok cs => .ok ⟨m, A.top, A.bot, A.e, f, cs⟩

end GRT.KernelProg
