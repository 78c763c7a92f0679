import Verif.Integ.Local
import Verif.StaticSyn.Dedupe
import Verif.Search.Model
import Verif.Model1D.Props

/-!
The program `grt static greenfn` (static/grt_static_greenfn.c 549-783) with `grt_integ_static_grn` (static/static_grn.c 38-181) and
the grid of a library (static/stgrnlib.c 19-61), in exact arithmetic. Paths are below pygrt/C_extension/src.

The static kernel is a function of the layered medium and the wavenumber (its boundary conditions are those of the run). Reading the
command line, the messages, the log files and the NetCDF file are left out. The input is the array of layers read from the model file.
`none` stands for the exits of the program and for a bound `n` on the turns of the search for the limit and of the adaptive
integration that does not suffice.

The static program sets the angular frequency to one but leaves `vmin` and `ampk` at zero, so the reference wavenumber of
integ_process.c 118 is `1/0·0`, not a number, and the comparison with it (safim.c 176) fails for every interval. Here the reference
wavenumber is the upper limit instead, which no interval exceeds.
-/

namespace GRT.StaticGrn

open Real GRT.Integ GRT.Freq GRT.StaticSyn GRT.Model1D

/-- Options `-L`, `-C`, `-K`, `-e` and the lower case of `-B`, grt_static_greenfn.c 18-100, 325-455, 530-534. -/
structure Opts where
  length : ℝ
  flen : ℝ
  saTol : ℝ
  fcut : ℝ
  keps : ℝ
  k0 : ℝ
  useRef : Bool
  cvg : Cvg
  upar : Bool
  botHalf : Bool

/-- Distances of the grid, grt_static_greenfn.c 549-556 and `fill_rs_meta`, stgrnlib.c 40-46. -/
noncomputable def gridRs (norths easts : List ℝ) : List ℝ := norths.flatMap fun x => easts.map fun y => √(x ^ 2 + y ^ 2)

/-- Largest distance, grt_static_greenfn.c 592. -/
noncomputable def rmaxOf (rs : List ℝ) : Option ℝ := (Search.findMax rs).bind fun i => rs[i]?

open Classical in
/-- `prepare_static_grn`, grt_static_greenfn.c 565-606; `none` is the exit for a Filon method at distance zero. -/
noncomputable def prepare (O : Opts) (rs : List ℝ) : Option Kproc :=
  if (0 < O.flen ∨ 0 < O.saTol) ∧ ∃ r ∈ rs, zeroDist r then none
  else (rmaxOf rs).map fun rmax =>
    let len := if O.length = 0 then 15 else O.length
    { k0 := 0, useRef := O.useRef, ampk := 0, keps := if O.cvg ≠ .auto then 0 else O.keps, vmin := 0, kcut := O.fcut / rmax, kmax := 0,
      dk := 2 * π / (len * max rmax (1 / 10 ^ 8)), fim := decide (0 < O.flen),
      filondk := if 0 < O.flen then 2 * π / (O.flen * rmax) else 0, safim := decide (0 < O.saTol), saTol := O.saTol, cvg := O.cvg }

open Classical in
/-- Settings for one pair of depths, static_grn.c 100-138. -/
noncomputable def settings (n : ℕ) (ker : ℝ → Chnl × Chnl) (same : Bool) (K : Kproc) : Option Kproc :=
  let K1 := if K.cvg = .auto ∧ same = true then { K with cvg := .dcm, keps := 0 } else K
  if K1.useRef then some { K1 with kmax := K1.k0 }
  else ((⟨same, K1.dk, K1.dk, K1.k0, ker⟩ : Kmax.Search).predict n).map fun kmax =>
    let K2 := if ⌊kmax / K1.dk⌋₊ + 1 < 500 then { K1 with dk := kmax / 500 } else K1
    let K3 := if K2.cvg = .auto ∧ K2.k0 ≤ kmax then { K2 with cvg := .dcm, keps := 0 } else K2
    { K3 with kmax := kmax }

/-- Displacement and its two derivatives for every source and component. -/
abbrev Val := Part → Fin 6 → Fin 3 → ℝ

open Classical in
/-- `recordin_GRN`, static_grn.c 38-58, called in 151-155, for one distance; the arrays are cleared before (grt_static_greenfn.c 689-693). -/
noncomputable def record (upar : Bool) (fac : ℂ) (S : Sums) : Val := fun p i c =>
  if (order i = 0 ∧ c = 2) ∨ (p ≠ .u ∧ upar = false) then 0 else (fac * merge (p.sums S) 0 i c).re

/-- Shear modulus at the source, static_grn.c 147 with model.c 413; without attenuation (static_grn.c 143). -/
noncomputable def srcMu (m : Mod1d ℝ) : ℂ := stateMu (m.at m.isrc).m.rho (m.at m.isrc).m.vb 1

open Classical in
/-- `grt_integ_static_grn`, static_grn.c 62-181. -/
noncomputable def integ (n : ℕ) (ker : Mod1d ℝ → ℝ → Chnl × Chnl) (m : Mod1d ℝ) (rs : List ℝ) (upar : Bool) (K : Kproc) : Option (List Val) :=
  (dedupe rs).bind fun d =>
  let same := decide (m.depsrc = m.deprcv)
  (settings n (ker m) same K).bind fun K' =>
  (wavenumberRef n same upar (fun i : Fin d.1.length => d.1[i]) (ker m) K'.kmax K').bind fun S =>
  let fac : ℂ := K'.dk / (4 * π * srcMu m)
  restore d.2 (List.ofFn fun i => record upar fac (S i)) (List.replicate rs.length 0)

/-- `copy_grn_slice_with_sign`, grt_static_greenfn.c 610-627; the library starts from zeros (stgrnlib.c 165). -/
def signed (upar : Bool) (v : Val) : Val := fun p i c =>
  if order i = 0 ∧ c = 2 then 0 else
  match p with
  | .u => (if c = 0 then -1 else 1) * v .u i c
  | .z => if upar then -1 * (if c = 0 then -1 else 1) * v .z i c else 0
  | .r => if upar then (if c = 0 then -1 else 1) * v .r i c else 0

/-- Velocities and density stored with a depth, grt_static_greenfn.c 699-704. -/
@[ext] structure Stored where
  va : ℝ
  vb : ℝ
  rho : ℝ

/-- The three numbers of a layer. -/
def Stored.of (f : FLay ℝ) : Stored := ⟨f.m.va, f.m.vb, f.m.rho⟩

open Classical in
/-- One pair of depths, grt_static_greenfn.c 675-706 with model.c 139-141: values at the grid points, medium at the source and at the receiver. -/
noncomputable def cell (n : ℕ) (ker : Mod1d ℝ → ℝ → Chnl × Chnl) (O : Opts) (arr : List (FLay ℝ)) (K : Kproc) (rs : List ℝ) (zs zr : ℝ) :
    Option (List Val × Stored × Stored) :=
  if ∃ f ∈ arr, f.m.vb = 0 then none
  else match readMod1d arr zs zr with
  | .error _ => none
  | .ok m =>
    if boundaryAccepted m O.botHalf = false then none
    else (integ n ker m rs O.upar { K with k0 := O.k0 * π / max |zs - zr| (1 / 10) }).map fun g =>
      (g.map (signed O.upar), Stored.of (m.at m.isrc), Stored.of (m.at m.ircv))

/-- The arrays of a library that are filled: values for a source depth, a receiver depth and a grid point, media at the depths. -/
structure Lib where
  val : ℕ → ℕ → List Val
  src : ℕ → Stored
  rcv : ℕ → Stored

/-- Writing the results of one pair of depths, grt_static_greenfn.c 699-706. -/
def Lib.put (L : Lib) (is ir : ℕ) (c : List Val × Stored × Stored) : Lib :=
  { val := Function.update L.val is (Function.update (L.val is) ir c.1)
    src := Function.update L.src is c.2.1
    rcv := Function.update L.rcv ir c.2.2 }

/-- The loop over receiver depths, grt_static_greenfn.c 674-713; the list holds the depths still to come. -/
def rcvLoop (f : ℝ → Option (List Val × Stored × Stored)) (is : ℕ) : List ℝ → ℕ → Lib → Option Lib
  | [], _, L => some L
  | zr :: t, ir, L => (f zr).bind fun c => rcvLoop f is t (ir + 1) (L.put is ir c)

/-- The loop over source depths, grt_static_greenfn.c 673-714. -/
def srcLoop (f : ℝ → ℝ → Option (List Val × Stored × Stored)) (zrs : List ℝ) : List ℝ → ℕ → Lib → Option Lib
  | [], _, L => some L
  | zs :: t, is, L => (rcvLoop (f zs) is zrs 0 L).bind fun L' => srcLoop f zrs t (is + 1) L'

/-- `require_strictly_ascending`, stgrnlib.c 19-26. -/
def Ascending (l : List ℝ) : Prop := l.IsChain (· < ·)

open Classical in
/-- `static_greenfn_main`, grt_static_greenfn.c 735-783, after the options are read, with `compute_stgrnlib_to_nc`, 636-731, and the
checks of `grt_stgrnlib_alloc`, stgrnlib.c 126-135. -/
noncomputable def run (n : ℕ) (ker : Mod1d ℝ → ℝ → Chnl × Chnl) (O : Opts) (arr : List (FLay ℝ)) (zss zrs norths easts : List ℝ) : Option Lib :=
  (prepare O (gridRs norths easts)).bind fun K =>
  if zss = [] ∨ zrs = [] ∨ norths = [] ∨ easts = [] then none
  else if ¬ (Ascending zss ∧ Ascending zrs ∧ Ascending norths ∧ Ascending easts) then none
  else srcLoop (fun zs zr => cell n ker O arr K (gridRs norths easts) zs zr) zrs zss 0 ⟨fun _ _ => [], fun _ => ⟨0, 0, 0⟩, fun _ => ⟨0, 0, 0⟩⟩

end GRT.StaticGrn
