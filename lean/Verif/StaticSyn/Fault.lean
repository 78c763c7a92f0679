import Verif.Syn.Synth
import Verif.Layer.Model
import Mathlib.Algebra.Order.Floor.Semiring
import Mathlib.Algebra.BigOperators.Intervals
import Mathlib.Algebra.BigOperators.Field

/-! Model of the finite-fault geometry (`common/finite_fault.c`) and C29. -/

set_option linter.unusedSectionVars false

namespace GRT.StaticSyn

open GRT.Layer GRT.Syn Real

/-! ### Model -/

/-- The Kodes of finite_fault.h 14-18. -/
inductive Kode | rtlatReverse | rtlatTensile | tensileReverse | pointDC | pointTensileInflate
  deriving DecidableEq, Repr

/-- `KODE_IS_POINT`, finite_fault.h 20. -/
def Kode.isPoint : Kode → Bool | .pointDC => true | .pointTensileInflate => true | _ => false

/-- `FINITE_FAULT`, finite_fault.h 43-66, without the raw columns. -/
structure Fault where
  eastBegin : ℝ
  northBegin : ℝ
  eastEnd : ℝ
  northEnd : ℝ
  kode : Kode
  rightLateral : ℝ
  reverse : ℝ
  tensile : ℝ
  inflate : ℝ
  dip : ℝ
  top : ℝ
  bot : ℝ
  strike : ℝ
  rake : ℝ
  slip : ℝ

/-- `hypot`. -/
noncomputable def hyp (x y : ℝ) : ℝ := √(x ^ 2 + y ^ 2)
/-- `atan2(y, x)`. -/
noncomputable def atan2 (y x : ℝ) : ℝ := Complex.arg ⟨x, y⟩

/-- `grt_finite_fault_set_derived`, finite_fault.c 34-44. -/
noncomputable def setDerived (f : Fault) : Fault :=
  let f := { f with strike := 1 / deg1 * atan2 (f.eastEnd - f.eastBegin) (f.northEnd - f.northBegin) }
  if f.kode = .pointTensileInflate then { f with rake := 0, slip := 0 }
  else { f with rake := 1 / deg1 * atan2 f.reverse (- f.rightLateral),
                slip := if f.kode.isPoint then 0 else hyp f.rightLateral f.reverse }

/-- `set_fault_components`, finite_fault.c 47-87: columns 7 and 8 (`v1`, `v2`) by Kode, into a cleared structure. `none`: the
`.inr` format with another Kode. -/
noncomputable def setComponents (f : Fault) (rakeFormat : Bool) (v1 v2 : ℝ) : Option Fault :=
  if rakeFormat ∧ f.kode ≠ .rtlatReverse then none
  else match f.kode with
  | .rtlatReverse => some (if rakeFormat then { f with rightLateral := - v2 * cos (v1 * deg1), reverse := v2 * sin (v1 * deg1) }
      else { f with rightLateral := v1, reverse := v2 })
  | .rtlatTensile => some { f with rightLateral := v1, tensile := v2 }
  | .tensileReverse => some { f with tensile := v1, reverse := v2 }
  | .pointDC => some { f with rightLateral := v1, reverse := v2 }
  | .pointTensileInflate => some { f with tensile := v1, inflate := v2 }

/-- `check_fault_geometry`, finite_fault.c 19-31, passes. -/
def GeometryOk (f : Fault) : Prop :=
  0 < hyp (f.eastEnd - f.eastBegin) (f.northEnd - f.northBegin) ∧ 0 < f.dip ∧ f.dip ≤ 90 ∧ f.top < f.bot
open Classical in
noncomputable instance (f : Fault) : Decidable (GeometryOk f) := inferInstance

/-- Result of `grt_finite_fault_subdiv`. -/
structure Subdiv where
  W : ℝ
  L : ℝ
  nW : ℕ
  nL : ℕ

/-- `grt_finite_fault_subdiv`, finite_fault.c 175-192. -/
noncomputable def subdiv (f : Fault) (dL dW : ℝ) : Option Subdiv :=
  if dL ≤ 0 ∨ dW ≤ 0 then none
  else if ¬ GeometryOk f then none
  else
    let W := (f.bot - f.top) / sin (deg1 * f.dip)
    let L := hyp (f.eastEnd - f.eastBegin) (f.northEnd - f.northBegin)
    if W ≤ 0 ∨ L ≤ 0 then none
    else some ⟨W, L, max 1 ⌈W / dW⌉₊, max 1 ⌈L / dL⌉₊⟩

/-- `FINITE_SUBFAULT`, finite_fault.h 69-76. -/
structure Sub where
  width : ℝ
  length : ℝ
  depsrc : ℝ
  east : ℝ
  north : ℝ
  potency : ℝ

/-- `grt_finite_fault_subfault`, finite_fault.c 195-227. -/
noncomputable def subfault (f : Fault) (dL dW W L : ℝ) (iW iL : ℕ) : Option Sub :=
  let width := min dW (W - iW * dW)
  let length := min dL (L - iL * dL)
  if width ≤ 0 ∨ length ≤ 0 then none
  else
    let w := iW * dW + (1/2) * width
    let l := iL * dL + (1/2) * length
    let sind := sin (deg1 * f.dip); let cosd := cos (deg1 * f.dip)
    let sins := sin (deg1 * f.strike); let coss := cos (deg1 * f.strike)
    let hproj := w * cosd
    let east0 := f.eastBegin + l * sins
    let north0 := f.northBegin + l * coss
    some ⟨width, length, f.top + w * sind, east0 + hproj * coss, north0 - hproj * sins, f.slip * width * length * 1e12⟩

/-! ### Specification -/

/-- Point of the fault plane at distance `l` along strike and `w` down dip: (north, east, depth). The strike direction is
the one from the first to the second end point. -/
noncomputable def onPlane (f : Fault) (l w : ℝ) : Fin 3 → ℝ :=
  let len := hyp (f.eastEnd - f.eastBegin) (f.northEnd - f.northBegin)
  let n := (f.northEnd - f.northBegin) / len
  let e := (f.eastEnd - f.eastBegin) / len
  ![f.northBegin + l * n - w * cos (deg1 * f.dip) * e, f.eastBegin + l * e + w * cos (deg1 * f.dip) * n,
    f.top + w * sin (deg1 * f.dip)]

/-- Consecutive half-open cells `[start i, start i + size i)` covering `[0, T)`. -/
structure Tiles (T d : ℝ) (n : ℕ) (start size : ℕ → ℝ) : Prop where
  pos : ∀ i < n, 0 < size i ∧ size i ≤ d
  first : start 0 = 0
  next : ∀ i, i + 1 < n → start (i + 1) = start i + size i
  last : start (n - 1) + size (n - 1) = T
  some : 0 < n

/-! ### Proofs -/

theorem deg1_pos : 0 < deg1 := by unfold deg1; positivity

theorem cells (T d : ℝ) (hT : 0 < T) (hd : 0 < d) :
    Tiles T d (max 1 ⌈T / d⌉₊) (fun i => i * d) (fun i => min d (T - i * d)) := by
  have hc : 0 < ⌈T / d⌉₊ := Nat.ceil_pos.2 (div_pos hT hd)
  rw [max_eq_right hc]
  set n := ⌈T / d⌉₊ with hn
  have h1 : T ≤ n * d := by
    have := Nat.le_ceil (T / d); rw [div_le_iff₀ hd] at this; exact this
  have h2 : ∀ i : ℕ, i < n → (i : ℝ) * d < T := by
    intro i hi
    have := Nat.lt_ceil.1 (hn ▸ hi)
    rwa [lt_div_iff₀ hd] at this
  refine ⟨?_, by simp, ?_, ?_, hc⟩
  · intro i hi
    exact ⟨lt_min hd (by linarith [h2 i hi]), min_le_left _ _⟩
  · intro i hi
    have := h2 (i + 1) hi
    push_cast at this ⊢
    rw [min_eq_left (by linarith)]; ring
  · have hcast : ((n - 1 : ℕ) : ℝ) = n - 1 := by
      rw [Nat.cast_sub hc]; simp
    rw [hcast, min_eq_right (by linarith)]; ring

theorem tiles_sum {T d : ℝ} {n : ℕ} {start size : ℕ → ℝ} (h : Tiles T d n start size) :
    ∑ i ∈ Finset.range n, size i = T := by
  have hs : ∀ m, m < n → ∑ i ∈ Finset.range m, size i = start m := by
    intro m
    induction m with
    | zero => intro _; simp [h.first]
    | succ m ih => intro hm; rw [Finset.sum_range_succ, ih (by omega), h.next m hm]
  obtain ⟨m, rfl⟩ : ∃ m, n = m + 1 := ⟨n - 1, by have := h.some; omega⟩
  rw [Finset.sum_range_succ, hs m (by omega)]
  simpa using h.last

theorem subdiv_ok (f : Fault) (dL dW : ℝ) (hL : 0 < dL) (hW : 0 < dW) (hf : GeometryOk f) :
    0 < (f.bot - f.top) / sin (deg1 * f.dip) ∧
    subdiv f dL dW = some ⟨(f.bot - f.top) / sin (deg1 * f.dip), hyp (f.eastEnd - f.eastBegin) (f.northEnd - f.northBegin),
      max 1 ⌈(f.bot - f.top) / sin (deg1 * f.dip) / dW⌉₊,
      max 1 ⌈hyp (f.eastEnd - f.eastBegin) (f.northEnd - f.northBegin) / dL⌉₊⟩ := by
  obtain ⟨h1, h2, h3, h4⟩ := hf
  have hs : 0 < sin (deg1 * f.dip) := by
    apply sin_pos_of_pos_of_lt_pi
    · exact mul_pos deg1_pos h2
    · have : deg1 * f.dip ≤ deg1 * 90 := mul_le_mul_of_nonneg_left h3 deg1_pos.le
      have h9 : deg1 * 90 = π / 2 := by unfold deg1; ring
      have := Real.pi_pos
      linarith
  have hWp : 0 < (f.bot - f.top) / sin (deg1 * f.dip) := div_pos (by linarith) hs
  refine ⟨hWp, ?_⟩
  unfold subdiv
  rw [if_neg (by rw [not_or]; exact ⟨not_le.2 hL, not_le.2 hW⟩), if_neg (not_not.2 ⟨h1, h2, h3, h4⟩)]
  dsimp only
  rw [if_neg (by rw [not_or]; exact ⟨not_le.2 hWp, not_le.2 h1⟩)]

theorem strike_dir (f : Fault) (h : 0 < hyp (f.eastEnd - f.eastBegin) (f.northEnd - f.northBegin)) :
    cos (deg1 * (setDerived f).strike) = (f.northEnd - f.northBegin) / hyp (f.eastEnd - f.eastBegin) (f.northEnd - f.northBegin) ∧
    sin (deg1 * (setDerived f).strike) = (f.eastEnd - f.eastBegin) / hyp (f.eastEnd - f.eastBegin) (f.northEnd - f.northBegin) := by
  have hst : deg1 * (setDerived f).strike = Complex.arg ⟨f.northEnd - f.northBegin, f.eastEnd - f.eastBegin⟩ := by
    have : (setDerived f).strike = 1 / deg1 * atan2 (f.eastEnd - f.eastBegin) (f.northEnd - f.northBegin) := by
      unfold setDerived; dsimp only; split <;> rfl
    rw [this, atan2, ← mul_assoc, mul_one_div_cancel deg1_pos.ne', one_mul]
  have hd : hyp (f.eastEnd - f.eastBegin) (f.northEnd - f.northBegin) = Syn.dist (f.northEnd - f.northBegin) (f.eastEnd - f.eastBegin) := by
    unfold hyp Syn.dist; rw [add_comm]
  rw [hst, hd]
  exact polar_cos _ _ (hd ▸ h)

/-- C29: for every accepted geometry and cell size the subdivision succeeds, its cells tile the rectangle, their
centres lie on the plane through the trace with the given dip, the rectangle ends at the bottom depth, and the potencies
add up. -/
theorem C29_tiling (f0 : Fault) (dL dW : ℝ) (hL : 0 < dL) (hW : 0 < dW) (hf : GeometryOk f0) :
    let f := setDerived f0
    ∃ (D : Subdiv) (sub : ℕ → ℕ → Sub), subdiv f dL dW = some D ∧ (∀ iW iL, iW < D.nW → iL < D.nL → subfault f dL dW D.W D.L iW iL = some (sub iW iL)) ∧
      Tiles D.W dW D.nW (fun i => i * dW) (fun i => (sub i 0).width) ∧
      Tiles D.L dL D.nL (fun i => i * dL) (fun i => (sub 0 i).length) ∧
      (∀ iW iL, iW < D.nW → iL < D.nL → (sub iW iL).width = (sub iW 0).width ∧ (sub iW iL).length = (sub 0 iL).length ∧
        ![(sub iW iL).north, (sub iW iL).east, (sub iW iL).depsrc]
          = onPlane f (iL * dL + (sub iW iL).length / 2) (iW * dW + (sub iW iL).width / 2)) ∧
      onPlane f D.L 0 0 = f.northEnd ∧ onPlane f D.L 0 1 = f.eastEnd ∧ onPlane f 0 D.W 2 = f.bot ∧
      ∑ iW ∈ Finset.range D.nW, ∑ iL ∈ Finset.range D.nL, (sub iW iL).potency = f.slip * (D.W * D.L) * 1e12 := by
  intro f
  have hgeo : f.eastEnd = f0.eastEnd ∧ f.eastBegin = f0.eastBegin ∧ f.northEnd = f0.northEnd ∧ f.northBegin = f0.northBegin ∧
      f.dip = f0.dip ∧ f.top = f0.top ∧ f.bot = f0.bot := by
    simp only [f, setDerived]; split <;> simp
  have hf' : GeometryOk f := by
    obtain ⟨a, b, c, d, e, g, i⟩ := hgeo
    unfold GeometryOk; rw [a, b, c, d, e, g, i]; exact hf
  obtain ⟨hWp, hsub⟩ := subdiv_ok f dL dW hL hW hf'
  have hcs := strike_dir f0 hf.1
  rw [← hgeo.1, ← hgeo.2.1, ← hgeo.2.2.1, ← hgeo.2.2.2.1] at hcs
  change cos (deg1 * f.strike) = _ ∧ sin (deg1 * f.strike) = _ at hcs
  set W := (f.bot - f.top) / sin (deg1 * f.dip) with hWd
  set L := hyp (f.eastEnd - f.eastBegin) (f.northEnd - f.northBegin) with hLd
  have hLp : 0 < L := hf'.1
  have tW := cells W dW hWp hW
  have tL := cells L dL hLp hL
  refine ⟨_, fun iW iL => ⟨min dW (W - iW * dW), min dL (L - iL * dL), f.top + (iW * dW + (1/2) * min dW (W - iW * dW)) * sin (deg1 * f.dip),
    f.eastBegin + (iL * dL + (1/2) * min dL (L - iL * dL)) * sin (deg1 * f.strike)
      + (iW * dW + (1/2) * min dW (W - iW * dW)) * cos (deg1 * f.dip) * cos (deg1 * f.strike),
    f.northBegin + (iL * dL + (1/2) * min dL (L - iL * dL)) * cos (deg1 * f.strike)
      - (iW * dW + (1/2) * min dW (W - iW * dW)) * cos (deg1 * f.dip) * sin (deg1 * f.strike),
    f.slip * min dW (W - iW * dW) * min dL (L - iL * dL) * 1e12⟩, hsub, ?_, tW, tL, ?_, ?_, ?_, ?_, ?_⟩
  · intro iW iL h1 h2
    unfold subfault
    dsimp only
    rw [if_neg]
    rw [not_or, not_le, not_le]
    exact ⟨(tW.pos iW h1).1, (tL.pos iL h2).1⟩
  · intro iW iL _ _
    refine ⟨rfl, rfl, ?_⟩
    ext i
    fin_cases i
    · simp [onPlane, hcs]; ring
    · simp [onPlane, hcs]; ring
    · change f.top + (_) * sin (deg1 * f.dip) = f.top + (_) * sin (deg1 * f.dip); ring
  · simp only [onPlane, ← hLd]; simp; field_simp; ring
  · simp only [onPlane, ← hLd]; simp; field_simp; ring
  · simp only [onPlane, hWd]
    have hs : sin (deg1 * f.dip) ≠ 0 := by
      intro h0; rw [hWd, h0, div_zero] at hWp; exact lt_irrefl _ hWp
    simp; field_simp; ring
  · dsimp only
    have e : ∀ iW iL : ℕ, f.slip * min dW (W - iW * dW) * min dL (L - iL * dL) * 1e12
        = f.slip * 1e12 * (min dW (W - iW * dW) * min dL (L - iL * dL)) := by intros; ring
    simp only [e]
    simp only [← Finset.mul_sum]
    rw [tiles_sum tL, ← Finset.sum_mul, tiles_sum tW]
    ring


/-- C29: the fault normal that the mechanism of each subfault is built from is normal to the plane the subfaults lie on. -/
theorem C29_normal (f0 : Fault) (hf : GeometryOk f0) (l w : ℝ) :
    let f := setDerived f0
    let ν := normal (f.strike * deg1) (f.dip * deg1)
    dot ν (fun i => onPlane f l w i - onPlane f 0 0 i) = 0 := by
  intro f ν
  have hgeo : f.eastEnd = f0.eastEnd ∧ f.eastBegin = f0.eastBegin ∧ f.northEnd = f0.northEnd ∧ f.northBegin = f0.northBegin := by
    simp only [f, setDerived]; split <;> simp
  have hcs := strike_dir f0 hf.1
  rw [← hgeo.1, ← hgeo.2.1, ← hgeo.2.2.1, ← hgeo.2.2.2] at hcs
  change cos (deg1 * f.strike) = _ ∧ sin (deg1 * f.strike) = _ at hcs
  simp only [ν, normal, dot, onPlane, ← hcs.1, ← hcs.2, mul_comm f.strike, mul_comm f.dip]
  have t := sin_sq_add_cos_sq (deg1 * f.strike)
  simp
  grind

/-- The rake and slip stored for a rectangular fault of Kode 100. -/
theorem rake_slip (rl rev : ℝ) : hyp rl rev * cos (atan2 rev (-rl)) = - rl ∧ hyp rl rev * sin (atan2 rev (-rl)) = rev := by
  have hd : hyp rl rev = Syn.dist (-rl) rev := by unfold hyp Syn.dist; ring_nf
  by_cases h : 0 < hyp rl rev
  · obtain ⟨h1, h2⟩ := polar_cos (-rl) rev (hd ▸ h)
    unfold atan2
    rw [h1, h2, ← hd]
    constructor <;> field_simp
  · have h0 : hyp rl rev = 0 := le_antisymm (not_lt.1 h) (sqrt_nonneg _)
    unfold hyp at h0
    rw [sqrt_eq_zero (by positivity)] at h0
    have h1 : rl = 0 := by nlinarith [sq_nonneg rl, sq_nonneg rev]
    have h2 : rev = 0 := by nlinarith [sq_nonneg rl, sq_nonneg rev]
    subst h1; subst h2
    simp [hyp]

/-- C61: a source of Kode 100 with right-lateral slip `rl` and reverse slip `rev` (as the program describes it: one rake and
net slip) radiates as the superposition of the pure right-lateral (rake 180) and the pure reverse (rake 90) sources, which
is how the program treats those components under Kodes 200 and 300. -/
theorem C61_superposition (strike dip rl rev area coef vpvs az : ℝ) (par : Bool) (s : Src) (c : Comp) :
    setRadiation zeroGrid .DC par (hyp rl rev * area) coef vpvs az ![strike, dip, 1 / deg1 * atan2 rev (-rl), 0, 0, 0] s c
    = setRadiation zeroGrid .DC par (rl * area) coef vpvs az ![strike, dip, 180, 0, 0, 0] s c
      + setRadiation zeroGrid .DC par (rev * area) coef vpvs az ![strike, dip, 90, 0, 0, 0] s c := by
  have hr : 1 / deg1 * atan2 rev (-rl) * deg1 = atan2 rev (-rl) := by
    have := deg1_pos.ne'; field_simp
  have h180 : 180 * deg1 = π := by unfold deg1; ring
  have h90 : 90 * deg1 = π / 2 := by unfold deg1; ring
  obtain ⟨h1, h2⟩ := rake_slip rl rev
  generalize hyp rl rev = h at *
  generalize hC : cos (atan2 rev (-rl)) = C at *
  generalize hS : sin (atan2 rev (-rl)) = Sn at *
  cases s <;> cases c <;> cases par <;>
    simp [setRadiation, setDisl, setRow, zeroGrid, hr, h180, h90, hC, hS] <;> grind

/-- The net slip vector so described: right-lateral slip is against the strike direction, reverse slip is up dip. -/
theorem C61_slip_vector (φ δ rl rev : ℝ) (i : Fin 3) :
    hyp rl rev * slip φ δ (atan2 rev (-rl)) i
      = - rl * ![cos φ, sin φ, 0] i - rev * ![- cos δ * sin φ, cos δ * cos φ, sin δ] i := by
  obtain ⟨h1, h2⟩ := rake_slip rl rev
  unfold slip
  generalize hyp rl rev = h at *
  generalize cos (atan2 rev (-rl)) = C at *
  generalize sin (atan2 rev (-rl)) = Sn at *
  fin_cases i <;> simp <;> grind

/-- A vertical fault 10 km long from 5 to 12 km, cells of 3 by 2 km: four by four cells. -/
example : GeometryOk ⟨0, 0, 0, 10, .rtlatReverse, 1, 1/2, 0, 0, 90, 5, 12, 0, 0, 0⟩ ∧ (0 : ℝ) < 3 ∧ (0 : ℝ) < 2 ∧
    ∃ D, subdiv ⟨0, 0, 0, 10, .rtlatReverse, 1, 1/2, 0, 0, 90, 5, 12, 0, 0, 0⟩ 3 2 = some D ∧ D.nL = 4 ∧ D.nW = 4 := by
  have hL : hyp (0 - 0) (10 - 0) = 10 := by
    rw [hyp, show ((0:ℝ) - 0) ^ 2 + (10 - 0) ^ 2 = 10 ^ 2 by norm_num, sqrt_sq (by norm_num)]
  have hg : GeometryOk ⟨0, 0, 0, 10, .rtlatReverse, 1, 1/2, 0, 0, 90, 5, 12, 0, 0, 0⟩ := by
    refine ⟨?_, by norm_num, by norm_num, by norm_num⟩
    simp only [hL]; norm_num
  have hs : sin (deg1 * 90) = 1 := by rw [show deg1 * 90 = π / 2 by unfold deg1; ring, sin_pi_div_two]
  refine ⟨hg, by norm_num, by norm_num, _, (subdiv_ok _ 3 2 (by norm_num) (by norm_num) hg).2, ?_, ?_⟩
  · simp only [hL]
    rw [show ⌈(10 : ℝ) / 3⌉₊ = 4 by rw [Nat.ceil_eq_iff (by norm_num)]; norm_num]; rfl
  · simp only [hs]
    rw [show ⌈((12 : ℝ) - 5) / 1 / 2⌉₊ = 4 by rw [Nat.ceil_eq_iff (by norm_num)]; norm_num]; rfl

end GRT.StaticSyn
