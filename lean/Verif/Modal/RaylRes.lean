import Verif.Modal.RaylVar
import Verif.Modal.Residue

/-! The residue of the P-SV response of a layered half-space at a Rayleigh mode, from the equations of motion alone. -/

set_option linter.unusedSectionVars false

namespace GRT.Modal

open GRT.RT GRT.Layer GRT.Kernel Filter Complex MeasureTheory Topology Matrix

/-- The P-SV motion of layers `0 .. n-1` (the last one the half-space) excited at depth `h` below the top of layer `js`: `up i` is the
field of layer `i` above the source, `low i` the one below it (they differ only in layer `js`).  Across the source displacement and
traction jump by `J`. -/
structure ForcedPSV (n : ℕ) (liq : ℕ → Bool) (m : ℕ → Medium ℂ) (thk : ℕ → ℝ) (k om : ℂ) (js : ℕ) (h : ℝ) (J : MS ℂ)
    (up low : ℕ → ℝ → MS ℂ) : Prop where
  same : ∀ i, i ≠ js → low i = up i
  solid : ∀ y, y = up ∨ y = low → ∀ i, i < n → liq i = false → ∀ z, Motion k (om^2) (m i) (y i) z
  liquid : ∀ y, y = up ∨ y = low → ∀ i, i < n → liq i = true → ∀ z, MotionL k (om^2) (m i) (y i) z
  free : (up 0 0).s = 0 ∧ (up 0 0).t = 0
  contact : ∀ i, i + 1 < n → (low i (thk i)).w = (up (i+1) 0).w ∧ (low i (thk i)).s = (up (i+1) 0).s ∧
    (low i (thk i)).t = (up (i+1) 0).t ∧ (liq i = false → liq (i+1) = false → (low i (thk i)).q = (up (i+1) 0).q)
  jump : (low js h).q - (up js h).q = J.q ∧ (low js h).w - (up js h).w = J.w ∧
    (low js h).s - (up js h).s = J.s ∧ (low js h).t - (up js h).t = J.t
  decay : Tendsto (fun z : ℝ => (low (n-1) z).q) atTop (nhds 0) ∧ Tendsto (fun z : ℝ => (low (n-1) z).w) atTop (nhds 0) ∧
    Tendsto (fun z : ℝ => (low (n-1) z).s) atTop (nhds 0) ∧ Tendsto (fun z : ℝ => (low (n-1) z).t) atTop (nhds 0)

/-- What the jump `J` does to the eigenfunction `y`. -/
def pairJ (J y : MS ℂ) : ℂ := J.q * y.t + J.w * y.s - J.s * y.w - J.t * y.q

/-- Reciprocity between a free wave and a forced motion of the same medium. -/
theorem weakJR {n : ℕ} {liq : ℕ → Bool} {m : ℕ → Medium ℂ} {thk : ℕ → ℝ} {c c0 k k0 om : ℂ} {js : ℕ} {h : ℝ} {J : MS ℂ}
    {up low y0 : ℕ → ℝ → MS ℂ} {l l0 : ℕ → Lay ℂ} {u d u0 d0 ul dl : ℕ → Fin 2 → ℂ} (hn : 1 ≤ n)
    (h0 : RaylField n liq m thk k0 om y0) (w0 : WaveField n c0 k0 l0 m y0 u0 d0) (f0 : ∀ i, (l0 i).liquid = liq i)
    (hf : ForcedPSV n liq m thk k om js h J up low) (eu : ∀ i, i < n → up i = psvField k (m i) (l i) (u i) (d i))
    (wl : WaveField n c k l m low ul dl) (hlam : ∀ i, i < n → (m i).lam + 2 * (m i).mu ≠ 0) (hjs : js < n) (hh : 0 ≤ h) :
    ∑ i ∈ Finset.range n, ∑ r, ∑ t, (bc (m i) k om r t - bc (m i) k0 om r t) *
      cutInt n thk (if i = js then h else 0) (fun z => cmp (up i) z r * cmp (y0 i) z t) (fun z => cmp (low i) z r * cmp (y0 i) z t) i =
      pairJ J (y0 js h) := by
  set W : (ℕ → ℝ → MS ℂ) → ℕ → ℝ → ℂ := fun y i z => work (y i) (y0 i) z - work (y0 i) (y i) z with hW
  set c : ℕ → ℝ := fun i => if i = js then h else 0 with hc
  have c0 : ∀ i, 0 ≤ c i := by intro i; simp only [hc]; split <;> simp [hh]
  have rep : ∀ y, y = up ∨ y = low → ∀ i, i < n → ∃ u d, y i = psvField k (m i) (l i) u d := by
    intro y hy i hi
    rcases hy with rfl | rfl
    · exact ⟨_, _, eu i hi⟩
    · exact ⟨_, _, wl.eq i hi⟩
  have mus : ∀ i, i < n → (liq i = false → (m i).mu ≠ 0) ∧ (liq i = true → (m i).mu = 0) := fun i hi =>
    ⟨fun e => ((w0.fits i hi).sol (by rw [f0, e])).1, fun e => (w0.fits i hi).liq (by rw [f0, e])⟩
  have lay : ∀ y, y = up ∨ y = low → ∀ i, i < n → ∀ z,
      HasDerivAt (W y i) (∑ r, ∑ t, (bc (m i) k om r t - bc (m i) k0 om r t) * (cmp (y i) z r * cmp (y0 i) z t)) z := by
    intro y hy i hi z
    obtain ⟨u, d, e⟩ := rep y hy i hi
    have g0 := cmp_diff (k := k0) (w0.fits i hi) (u0 i) (d0 i) z
    rw [← w0.eq i hi] at g0
    have g := cmp_diff (k := k) (wl.fits i hi) u d z
    rw [← e] at g
    have a := work_deriv (liq := liq i) (fun e => hf.solid y hy i hi e z) (fun e => hf.liquid y hy i hi e) (mus i hi).1 (mus i hi).2
      (hlam i hi) g0.1 g0.2
    have b := work_deriv (liq := liq i) (fun e => h0.solid i hi e z) (fun e => h0.liquid i hi e) (mus i hi).1 (mus i hi).2
      (hlam i hi) g.1 g.2
    refine (a.sub b).congr_deriv ?_
    simp only [Fin.sum_univ_four, bc, Matrix.of_apply, Matrix.cons_val', Matrix.cons_val_zero, Matrix.cons_val_one, Matrix.cons_val,
      Matrix.cons_val_fin_one]
    ring
  have cc : ∀ y, y = up ∨ y = low → ∀ i, i < n → ∀ r t, Continuous fun z => cmp (y i) z r * cmp (y0 i) z t := by
    intro y hy i hi r t
    obtain ⟨u, d, e⟩ := rep y hy i hi
    rw [e, w0.eq i hi]
    exact (cmp_cont (wl.fits i hi) _ _ r).mul (cmp_cont (w0.fits i hi) _ _ t)
  have fin : ∀ y, y = up ∨ y = low → ∀ i, i < n → ∀ a b : ℝ, ∑ r, ∑ t, (bc (m i) k om r t - bc (m i) k0 om r t) *
      (∫ z in a..b, cmp (y i) z r * cmp (y0 i) z t) = W y i b - W y i a := by
    intro y hy i hi a b
    have C : ∀ r t, Continuous fun z => (bc (m i) k om r t - bc (m i) k0 om r t) * (cmp (y i) z r * cmp (y0 i) z t) := fun r t =>
      continuous_const.mul (cc y hy i hi r t)
    have CC : ∀ r, Continuous fun z => ∑ t, (bc (m i) k om r t - bc (m i) k0 om r t) * (cmp (y i) z r * cmp (y0 i) z t) := fun r =>
      continuous_finsetSum _ fun t _ => C r t
    have F := intervalIntegral.integral_eq_sub_of_hasDerivAt (a := a) (b := b) (fun z _ => lay y hy i hi z)
      ((continuous_finsetSum _ fun r _ => CC r).intervalIntegrable _ _)
    rw [← F, intervalIntegral.integral_finsetSum fun r _ => (CC r).intervalIntegrable _ _]
    refine Finset.sum_congr rfl fun r _ => ?_
    rw [intervalIntegral.integral_finsetSum fun t _ => (C r t).intervalIntegrable _ _]
    refine Finset.sum_congr rfl fun t _ => ?_
    rw [intervalIntegral.integral_const_mul]
  have half : ∑ r, ∑ t, (bc (m (n-1)) k om r t - bc (m (n-1)) k0 om r t) *
      (∫ z in Set.Ioi (c (n-1)), cmp (low (n-1)) z r * cmp (y0 (n-1)) z t) = 0 - W low (n-1) (c (n-1)) := by
    have C : ∀ r t, IntegrableOn (fun z => (bc (m (n-1)) k om r t - bc (m (n-1)) k0 om r t) * (cmp (low (n-1)) z r * cmp (y0 (n-1)) z t))
        (Set.Ioi (c (n-1))) := fun r t =>
      ((wl.half hn w0 r t).1.mono_set (Set.Ioi_subset_Ioi (c0 _))).const_mul _
    have CC : ∀ r, IntegrableOn (fun z => ∑ t, (bc (m (n-1)) k om r t - bc (m (n-1)) k0 om r t) * (cmp (low (n-1)) z r * cmp (y0 (n-1)) z t))
        (Set.Ioi (c (n-1))) := fun r => integrable_finset_sum _ fun t _ => C r t
    have T : Tendsto (W low (n-1)) atTop (𝓝 0) := by
      have a := (hf.decay.2.2.1.mul h0.decay.2.1).add (hf.decay.2.2.2.mul h0.decay.1)
      have b := (h0.decay.2.2.1.mul hf.decay.2.1).add (h0.decay.2.2.2.mul hf.decay.1)
      simpa [hW, work] using a.sub b
    have F := integral_Ioi_of_hasDerivAt_of_tendsto (lay low (Or.inr rfl) (n-1) (by omega) (c (n-1))).continuousAt.continuousWithinAt
        (fun z _ => lay low (Or.inr rfl) (n-1) (by omega) z) (integrable_finset_sum _ fun r _ => CC r) T
    rw [← F, integral_finsetSum _ fun r _ => CC r]
    refine Finset.sum_congr rfl fun r _ => ?_
    rw [integral_finsetSum _ fun t _ => C r t]
    refine Finset.sum_congr rfl fun t _ => ?_
    rw [integral_const_mul]
  have joint : ∀ i, i + 1 < n → W low i (thk i) = W up (i+1) 0 := by
    intro i hi
    obtain ⟨a1, b1, c1, e1⟩ := hf.contact i hi
    obtain ⟨a2, b2, c2, e2⟩ := h0.contact i hi
    simp only [hW, work]
    cases g1 : liq i
    · cases g2 : liq (i+1)
      · rw [a1, b1, c1, e1 g1 g2, a2, b2, c2, e2 g1 g2]
      · rw [a1, b1, c1, a2, b2, c2, (hf.liquid up (Or.inl rfl) (i+1) hi g2 0).t, (h0.liquid (i+1) hi g2 0).t]; ring
    · rw [a1, b1, a2, b2, ← c1, ← c2, (hf.liquid low (Or.inr rfl) i (by omega) g1 (thk i)).t, (h0.liquid i (by omega) g1 (thk i)).t]; ring
  have cut : ∀ i, i < n → W up i (c i) - W low i (c i) = if i = js then pairJ J (y0 js h) else 0 := by
    intro i hi
    split
    · rename_i e
      subst e
      simp only [hW, hc, if_true, work, pairJ]
      obtain ⟨j1, j2, j3, j4⟩ := hf.jump
      linear_combination (y0 i h).t * j1 + (y0 i h).s * j2 - (y0 i h).w * j3 - (y0 i h).q * j4
    · rename_i e
      simp only [hW]
      rw [hf.same i e]
      ring
  have term : ∀ i, i < n → ∑ r, ∑ t, (bc (m i) k om r t - bc (m i) k0 om r t) *
      cutInt n thk (c i) (fun z => cmp (up i) z r * cmp (y0 i) z t) (fun z => cmp (low i) z r * cmp (y0 i) z t) i =
      (if i = js then pairJ J (y0 js h) else 0) + ((if i + 1 < n then W up (i+1) 0 else 0) - W up i 0) := by
    intro i hi
    simp only [cutInt, mul_add, Finset.sum_add_distrib]
    rw [fin up (Or.inl rfl) i hi, ← cut i hi]
    split
    · rename_i q
      rw [fin low (Or.inr rfl) i hi, joint i q]
      ring
    · rename_i q
      have : i = n - 1 := by omega
      subst this
      rw [half]
      ring
  rw [Finset.sum_congr rfl fun i hi => term i (Finset.mem_range.1 hi), Finset.sum_add_distrib, Finset.sum_ite_eq' (Finset.range n) js,
    if_pos (Finset.mem_range.2 hjs)]
  have tel : ∀ r, r < n → ∑ i ∈ Finset.range (r+1), ((if i + 1 < n then W up (i+1) 0 else 0) - W up i 0) =
      (if r + 1 < n then W up (r+1) 0 else 0) - W up 0 0 := by
    intro r
    induction r with
    | zero => intro _; simp
    | succ r ih =>
      intro hr
      rw [Finset.sum_range_succ, ih (by omega), if_pos hr]
      ring
  have t := tel (n-1) (by omega)
  rw [show n - 1 + 1 = n by omega, if_neg (by omega)] at t
  rw [t]
  simp only [hW, work]
  rw [hf.free.1, hf.free.2, h0.free.1, h0.free.2]
  ring

/-! ### Continuous dependence -/

section lim
variable {ι : Type*} {F : Filter ι}

/-- Convergence of displacement and traction. -/
def To (F : Filter ι) (f : ι → MS ℂ) (y : MS ℂ) : Prop :=
  Tendsto (fun x => (f x).q) F (𝓝 y.q) ∧ Tendsto (fun x => (f x).w) F (𝓝 y.w) ∧
  Tendsto (fun x => (f x).s) F (𝓝 y.s) ∧ Tendsto (fun x => (f x).t) F (𝓝 y.t)

theorem To.congr' {f g : ι → MS ℂ} {y : MS ℂ} (h : To F f y) (e : ∀ᶠ x in F, f x = g x) : To F g y :=
  ⟨h.1.congr' (e.mono fun _ h => by rw [h]), h.2.1.congr' (e.mono fun _ h => by rw [h]), h.2.2.1.congr' (e.mono fun _ h => by rw [h]),
    h.2.2.2.congr' (e.mono fun _ h => by rw [h])⟩

/-- Wavenumber, vertical wavenumbers and amplitudes of the waves of a layer converge. -/
structure Near (F : Filter ι) (k : ι → ℂ) (l : ι → Lay ℂ) (u d : ι → Fin 2 → ℂ) (k0 : ℂ) (l0 : Lay ℂ) (U D : Fin 2 → ℂ) : Prop where
  liq : ∀ x, (l x).liquid = l0.liquid
  k : Tendsto k F (𝓝 k0)
  xa : Tendsto (fun x => (l x).xa) F (𝓝 l0.xa)
  xb : Tendsto (fun x => (l x).xb) F (𝓝 l0.xb)
  u : ∀ j, Tendsto (fun x => u x j) F (𝓝 (U j))
  d : ∀ j, Tendsto (fun x => d x j) F (𝓝 (D j))

abbrev Tup := ℂ × ℂ × ℂ × ℂ × ℂ × ℂ × ℂ

theorem Near.tup {k : ι → ℂ} {l : ι → Lay ℂ} {u d : ι → Fin 2 → ℂ} {k0 : ℂ} {l0 : Lay ℂ} {U D : Fin 2 → ℂ}
    (N : Near F k l u d k0 l0 U D) : Tendsto (fun x => ((k x, (l x).xa, (l x).xb, u x 0, u x 1, d x 0, d x 1) : Tup)) F
      (𝓝 (k0, l0.xa, l0.xb, U 0, U 1, D 0, D 1)) :=
  N.k.prodMk_nhds (N.xa.prodMk_nhds (N.xb.prodMk_nhds ((N.u 0).prodMk_nhds ((N.u 1).prodMk_nhds ((N.d 0).prodMk_nhds (N.d 1))))))

/-- A layer with given vertical wavenumbers. -/
def tl (b : Bool) (p : Tup) : Lay ℂ := ⟨b, 0, 0, p.2.1, p.2.2.1, 0, 0⟩
def tu (p : Tup) : Fin 2 → ℂ := ![p.2.2.2.1, p.2.2.2.2.1]
def td (p : Tup) : Fin 2 → ℂ := ![p.2.2.2.2.2.1, p.2.2.2.2.2.2]

theorem field_tup (k : ℂ) (m : Medium ℂ) (l : Lay ℂ) (u d : Fin 2 → ℂ) (z : ℝ) : psvField k m l u d z =
    psvField k m (tl l.liquid (k, l.xa, l.xb, u 0, u 1, d 0, d 1)) (tu (k, l.xa, l.xb, u 0, u 1, d 0, d 1))
      (td (k, l.xa, l.xb, u 0, u 1, d 0, d 1)) z := by
  simp [psvField, psvState, upAt, dnAt, tl, tu, td]

theorem wcoef_tup (k : ℂ) (l : Lay ℂ) (u d : Fin 2 → ℂ) (r j : Fin 4) : wcoef k l u d r j =
    wcoef k (tl l.liquid (k, l.xa, l.xb, u 0, u 1, d 0, d 1)) (tu (k, l.xa, l.xb, u 0, u 1, d 0, d 1))
      (td (k, l.xa, l.xb, u 0, u 1, d 0, d 1)) r j := by
  cases e : l.liquid <;> fin_cases r <;> fin_cases j <;> simp [wcoef, side, D11, D12, D11z, D12z, tl, tu, td, e]

theorem Near.wcoef {k : ι → ℂ} {l : ι → Lay ℂ} {u d : ι → Fin 2 → ℂ} {k0 : ℂ} {l0 : Lay ℂ} {U D : Fin 2 → ℂ}
    (N : Near F k l u d k0 l0 U D) (r j : Fin 4) :
    Tendsto (fun x => wcoef (k x) (l x) (u x) (d x) r j) F (𝓝 (wcoef k0 l0 U D r j)) := by
  have C : ∀ b, Continuous fun p : Tup => Modal.wcoef p.1 (tl b p) (tu p) (td p) r j := by
    intro b
    cases b <;> fin_cases r <;> fin_cases j <;> simp [Modal.wcoef, side, D11, D12, D11z, D12z, tl, tu, td] <;> fun_prop
  rw [wcoef_tup k0]
  refine (((C l0.liquid).tendsto _).comp N.tup).congr fun x => ?_
  rw [wcoef_tup (k x), N.liq x]
  rfl

theorem Near.field {k : ι → ℂ} {l : ι → Lay ℂ} {u d : ι → Fin 2 → ℂ} {k0 : ℂ} {l0 : Lay ℂ} {U D : Fin 2 → ℂ}
    (N : Near F k l u d k0 l0 U D) (m : Medium ℂ) (z : ℝ) :
    To F (fun x => psvField (k x) m (l x) (u x) (d x) z) (psvField k0 m l0 U D z) := by
  have C : ∀ b, Continuous (fun p : Tup => (psvField p.1 m (tl b p) (tu p) (td p) z).q) ∧
      Continuous (fun p : Tup => (psvField p.1 m (tl b p) (tu p) (td p) z).w) ∧
      Continuous (fun p : Tup => (psvField p.1 m (tl b p) (tu p) (td p) z).s) ∧
      Continuous (fun p : Tup => (psvField p.1 m (tl b p) (tu p) (td p) z).t) := by
    intro b
    cases b <;> refine ⟨?_, ?_, ?_, ?_⟩ <;> simp [psvField, psvState, upAt, dnAt, hooke, tl, tu, td] <;> fun_prop
  rw [field_tup k0]
  obtain ⟨c1, c2, c3, c4⟩ := C l0.liquid
  refine ⟨((c1.tendsto _).comp N.tup).congr fun x => ?_, ((c2.tendsto _).comp N.tup).congr fun x => ?_,
    ((c3.tendsto _).comp N.tup).congr fun x => ?_, ((c4.tendsto _).comp N.tup).congr fun x => ?_⟩ <;>
  · have e := field_tup (k x) m (l x) (u x) (d x) z
    rw [N.liq x] at e
    simp only [e]
    rfl

/-- Overlap with a fixed function over a bounded stretch. -/
theorem Near.fin {k c : ι → ℂ} {l : ι → Lay ℂ} {u d : ι → Fin 2 → ℂ} {k0 c0 : ℂ} {l0 : Lay ℂ} {U D : Fin 2 → ℂ}
    (N : Near F k l u d k0 l0 U D) {m : Medium ℂ} (hf : ∀ᶠ x in F, Fits (c x) (l x) m) (hf0 : Fits c0 l0 m) {g : ℝ → ℂ} (hg : Continuous g)
    (r : Fin 4) (a b : ℝ) :
    Tendsto (fun x => ∫ z in a..b, cmp (psvField (k x) m (l x) (u x) (d x)) z r * g z) F
      (𝓝 (∫ z in a..b, cmp (psvField k0 m l0 U D) z r * g z)) := by
  set G : ℂ → ℂ := fun w => ∫ z in a..b, g z * exp (w * z) with hG
  have cG : Continuous G := by
    refine intervalIntegral.continuous_parametric_intervalIntegral_of_continuous' ?_ a b
    have : Continuous fun x : ℂ × ℝ => g x.2 := hg.comp continuous_snd
    fun_prop
  have e : ∀ {c k : ℂ} {l : Lay ℂ} (_ : Fits c l m) (u d : Fin 2 → ℂ), (∫ z in a..b, cmp (psvField k m l u d) z r * g z) =
      Modal.wcoef k l u d r 0 * G (k * l.xa) + Modal.wcoef k l u d r 1 * G (k * l.xb) + Modal.wcoef k l u d r 2 * G (-(k * l.xa)) +
        Modal.wcoef k l u d r 3 * G (-(k * l.xb)) := by
    intro c k l h u d
    simp only [hG, ← intervalIntegral.integral_const_mul]
    have II : ∀ (w v : ℂ), IntervalIntegrable (fun z : ℝ => v * (g z * exp (w * z))) volume a b := fun w v =>
      Continuous.intervalIntegrable (by fun_prop) _ _
    rw [← intervalIntegral.integral_add (II _ _) (II _ _), ← intervalIntegral.integral_add ((II _ _).add (II _ _)) (II _ _),
      ← intervalIntegral.integral_add (((II _ _).add (II _ _)).add (II _ _)) (II _ _)]
    refine intervalIntegral.integral_congr fun z _ => ?_
    rw [cmp_field h]
    simp only [Fin.sum_univ_four, wv, Matrix.cons_val_zero, Matrix.cons_val_one, Matrix.cons_val, neg_mul]
    ring
  rw [e hf0]
  have ka := N.k.mul N.xa
  have kb := N.k.mul N.xb
  refine (((((N.wcoef r 0).mul ((cG.tendsto _).comp ka)).add ((N.wcoef r 1).mul ((cG.tendsto _).comp kb))).add
    ((N.wcoef r 2).mul ((cG.tendsto _).comp ka.neg))).add ((N.wcoef r 3).mul ((cG.tendsto _).comp kb.neg))).congr' ?_
  filter_upwards [hf] with x hx
  rw [e hx]
  rfl

/-- Overlap of decaying waves with a fixed decaying wave over the half-space. -/
theorem Near.half {k c : ι → ℂ} {l : ι → Lay ℂ} {d : ι → Fin 2 → ℂ} {k0 c0 : ℂ} {l0 : Lay ℂ} {D : Fin 2 → ℂ}
    (N : Near F k l (fun _ => 0) d k0 l0 0 D) {m : Medium ℂ} (hf : ∀ᶠ x in F, Fits (c x) (l x) m) (hf0 : Fits c0 l0 m)
    (ta : 0 < (k0 * l0.xa).re) (tb : 0 < (k0 * l0.xb).re) (d0 : Fin 2 → ℂ) (r t : Fin 4) {a : ℝ} (ha : 0 ≤ a) :
    Tendsto (fun x => ∫ z in Set.Ioi a, cmp (psvField (k x) m (l x) 0 (d x)) z r * cmp (psvField k0 m l0 0 d0) z t) F
      (𝓝 (∫ z in Set.Ioi a, cmp (psvField k0 m l0 0 D) z r * cmp (psvField k0 m l0 0 d0) z t)) := by
  have ka := N.k.mul N.xa
  have kb := N.k.mul N.xb
  have pa : ∀ᶠ x in F, 0 < (k x * (l x).xa).re := ((continuous_re.tendsto _).comp ka).eventually (lt_mem_nhds ta)
  have pb : ∀ᶠ x in F, 0 < (k x * (l x).xb).re := ((continuous_re.tendsto _).comp kb).eventually (lt_mem_nhds tb)
  have cg : Continuous fun z => cmp (psvField k0 m l0 0 d0) z t := cmp_cont hf0 _ _ t
  have whole : ∀ {c k : ℂ} {l : Lay ℂ} (_ : Fits c l m) (_ : 0 < (k * l.xa).re) (_ : 0 < (k * l.xb).re) (d : Fin 2 → ℂ),
      IntegrableOn (fun z => cmp (psvField k m l 0 d) z r * cmp (psvField k0 m l0 0 d0) z t) (Set.Ioi 0) ∧
      (∫ z in Set.Ioi (0:ℝ), cmp (psvField k m l 0 d) z r * cmp (psvField k0 m l0 0 d0) z t) =
      Modal.wcoef k l 0 d r 2 * Modal.wcoef k0 l0 0 d0 t 2 / (k * l.xa + k0 * l0.xa) +
      Modal.wcoef k l 0 d r 2 * Modal.wcoef k0 l0 0 d0 t 3 / (k * l.xa + k0 * l0.xb) +
      Modal.wcoef k l 0 d r 3 * Modal.wcoef k0 l0 0 d0 t 2 / (k * l.xb + k0 * l0.xa) +
      Modal.wcoef k l 0 d r 3 * Modal.wcoef k0 l0 0 d0 t 3 / (k * l.xb + k0 * l0.xb) := by
    intro c k l h a b d
    simp only [cmp_half h, cmp_half hf0]
    exact two_exp a b ta tb _ _ _ _
  have tail : ∀ {c k : ℂ} {l : Lay ℂ} (_ : Fits c l m) (_ : 0 < (k * l.xa).re) (_ : 0 < (k * l.xb).re) (d : Fin 2 → ℂ),
      (∫ z in Set.Ioi a, cmp (psvField k m l 0 d) z r * cmp (psvField k0 m l0 0 d0) z t) =
      (∫ z in Set.Ioi (0:ℝ), cmp (psvField k m l 0 d) z r * cmp (psvField k0 m l0 0 d0) z t) -
      ∫ z in (0:ℝ)..a, cmp (psvField k m l 0 d) z r * cmp (psvField k0 m l0 0 d0) z t := by
    intro c k l h a' b' d
    have W := (whole h a' b' d).1
    rw [← intervalIntegral.integral_interval_add_Ioi W (W.mono_set (Set.Ioi_subset_Ioi ha))]
    ring
  have pos : ∀ a b : ℂ, 0 < a.re → 0 < b.re → a + b ≠ 0 := by
    intro a b ha hb h0
    have := congrArg Complex.re h0
    simp only [add_re, zero_re] at this
    linarith
  have T := fun (i j : Fin 4) => (N.wcoef r i).mul_const (Modal.wcoef k0 l0 0 d0 t j)
  rw [tail hf0 ta tb, (whole hf0 ta tb D).2]
  refine Tendsto.congr' ?_ ((((((T 2 2).div (ka.add_const _) (pos _ _ ta ta)).add ((T 2 3).div (ka.add_const _) (pos _ _ ta tb))).add
    ((T 3 2).div (kb.add_const _) (pos _ _ tb ta))).add ((T 3 3).div (kb.add_const _) (pos _ _ tb tb))).sub (N.fin hf hf0 cg r 0 a))
  filter_upwards [hf, pa, pb] with x h1 h2 h3
  rw [tail h1 h2 h3, (whole h1 h2 h3 (d x)).2]
  rfl

/-- Vertical wavenumbers near those of a given layer. -/
theorem lay_near {k : ι → ℂ} {k0 c0 om : ℂ} (hk : Tendsto k F (𝓝 k0)) (hk0 : k0 ≠ 0) (hck : c0 * k0 = om) {l0 : Lay ℂ} {m : Medium ℂ}
    (h : Fits c0 l0 m) (hlam : m.lam + 2 * m.mu ≠ 0) (xa0 : l0.xa ≠ 0) (xb0 : l0.xb ≠ 0) :
    ∃ l : ι → Lay ℂ, (∀ x, (l x).liquid = l0.liquid) ∧ (∀ x, k x ≠ 0 → Fits (om / k x) (l x) m) ∧
      Tendsto (fun x => (l x).xa) F (𝓝 l0.xa) ∧ Tendsto (fun x => (l x).xb) F (𝓝 l0.xb) ∧ Tendsto (fun x => (l x).cbcb) F (𝓝 l0.cbcb) := by
  have hc : Tendsto (fun x => om / k x) F (𝓝 c0) := by
    have : om / k0 = c0 := by rw [← hck]; field_simp
    rw [← this]
    exact tendsto_const_nhds.div hk hk0
  have ea : 1 - m.rho * (c0 * c0) / (m.lam + 2 * m.mu) = l0.xa ^ 2 := by
    rw [← h.ca, mul_div_cancel_left₀ _ hlam, sq, h.xa]
  obtain ⟨xa, a1, a2⟩ := root_near (l := F) (s := fun x => 1 - m.rho * (om / k x * (om / k x)) / (m.lam + 2 * m.mu)) xa0 (by
    rw [← ea]
    exact tendsto_const_nhds.sub (((hc.mul hc).const_mul _).div_const _))
  have B : ∃ xb : ι → ℂ, (l0.liquid = false → ∀ x, xb x ^ 2 = 1 - m.rho * (om / k x * (om / k x)) / m.mu) ∧ Tendsto xb F (𝓝 l0.xb) := by
    cases e : l0.liquid
    · obtain ⟨hm, hb⟩ := h.sol e
      have eb : 1 - m.rho * (c0 * c0) / m.mu = l0.xb ^ 2 := by
        rw [← hb, mul_div_cancel_left₀ _ hm, sq, h.xb]
      obtain ⟨xb, b1, b2⟩ := root_near (l := F) (s := fun x => 1 - m.rho * (om / k x * (om / k x)) / m.mu) xb0 (by
        rw [← eb]
        exact tendsto_const_nhds.sub (((hc.mul hc).const_mul _).div_const _))
      exact ⟨xb, fun _ => b1, b2⟩
    · exact ⟨fun _ => l0.xb, fun q => absurd q (by simp), tendsto_const_nhds⟩
  obtain ⟨xb, b1, b2⟩ := B
  refine ⟨fun x => ⟨l0.liquid, m.rho, m.mu, xa x, xb x, 1 - xa x ^ 2, 1 - xb x ^ 2⟩, fun _ => rfl, fun x hx => ?_, a2, b2, ?_⟩
  · refine ⟨rfl, h.rho0, rfl, by simp only; ring, by simp only; ring, ?_, h.liq, fun e => ⟨(h.sol e).1, ?_⟩⟩
    · simp only
      rw [a1]
      field_simp
      ring
    · have hm := (h.sol e).1
      simp only
      rw [b1 e]
      field_simp
      ring
  · have := (tendsto_const_nhds (x := (1:ℂ))).sub (b2.pow 2)
    rwa [show 1 - l0.xb ^ 2 = l0.cbcb by rw [sq, h.xb]; ring] at this

end lim

/-- `a` times a state. -/
def sc (a : ℂ) (y : MS ℂ) : MS ℂ := ⟨a * y.q, a * y.w, a * y.s, a * y.t⟩

theorem cmp_sc (a : ℂ) (f : ℝ → MS ℂ) (z : ℝ) (r : Fin 4) : cmp (fun z => sc a (f z)) z r = a * cmp f z r := by
  fin_cases r <;> simp [cmp, sc, deriv_const_mul_field]

theorem field_sc (a k : ℂ) (m : Medium ℂ) (l : Lay ℂ) (u d : Fin 2 → ℂ) :
    (fun z => sc a (psvField k m l u d z)) = psvField k m l (a • u) (a • d) := by
  funext z
  cases e : l.liquid <;> simp [psvField, psvState, upAt, dnAt, hooke, sc, e] <;> refine ⟨?_, ?_, ?_, ?_⟩ <;> ring

/-! ### Amplitudes -/

/-- Amplitudes of the upgoing waves in a state. -/
noncomputable def ampU (b : Bool) (k mu xa xb cb : ℂ) (y : MS ℂ) : Fin 2 → ℂ :=
  if b then ![1/2 * (y.q/k + y.w/(k*xa)), 0]
  else ![1/2 * (-(y.s - 2*mu*k*y.q) / (mu*k^2*cb) + (y.w/k + (y.t - 2*mu*k*y.w) / (mu*k^2*cb)) / xa),
    1/2 * (-(y.t - 2*mu*k*y.w) / (mu*k^2*cb) + (y.q/k + (y.s - 2*mu*k*y.q) / (mu*k^2*cb)) / xb)]

/-- Amplitudes of the downgoing waves in a state. -/
noncomputable def ampD (b : Bool) (k mu xa xb cb : ℂ) (y : MS ℂ) : Fin 2 → ℂ :=
  if b then ![1/2 * (y.q/k - y.w/(k*xa)), 0]
  else ![1/2 * (-(y.s - 2*mu*k*y.q) / (mu*k^2*cb) - (y.w/k + (y.t - 2*mu*k*y.w) / (mu*k^2*cb)) / xa),
    1/2 * (-(y.t - 2*mu*k*y.w) / (mu*k^2*cb) - (y.q/k + (y.s - 2*mu*k*y.q) / (mu*k^2*cb)) / xb)]

theorem amps_eq {c k : ℂ} {l : Lay ℂ} {m : Medium ℂ} (h : Fits c l m) (hk : k ≠ 0) (hc : c ≠ 0) (ha : l.xa ≠ 0) (hb : l.xb ≠ 0)
    {u d : Fin 2 → ℂ} (hl : l.liquid = true → u 1 = 0 ∧ d 1 = 0) :
    u = ampU l.liquid k m.mu l.xa l.xb l.cbcb (psvState k m l u d) ∧ d = ampD l.liquid k m.mu l.xa l.xb l.cbcb (psvState k m l u d) := by
  cases e : l.liquid
  · obtain ⟨a, b, c', d'⟩ := solid_amps h e hk hc ha hb u d
    simp only [ampU, ampD, Bool.false_eq_true, if_false]
    exact ⟨ext2 a c', ext2 b d'⟩
  · obtain ⟨a, b⟩ := liquid_amps h e hk ha u d
    simp only [ampU, ampD, if_true]
    exact ⟨ext2 a (hl e).1, ext2 b (hl e).2⟩

theorem amps_lim {ι : Type*} {F : Filter ι} {b : Bool} {mu k0 xa0 xb0 cb0 : ℂ} {k xa xb cb : ι → ℂ} {y : ι → MS ℂ} {y0 : MS ℂ}
    (hk : Tendsto k F (𝓝 k0)) (ha : Tendsto xa F (𝓝 xa0)) (hb : Tendsto xb F (𝓝 xb0)) (hc : Tendsto cb F (𝓝 cb0)) (hy : To F y y0)
    (nk : k0 ≠ 0) (na : xa0 ≠ 0) (nb : xb0 ≠ 0) (nm : b = false → mu * k0^2 * cb0 ≠ 0) (j : Fin 2) :
    Tendsto (fun x => ampU b (k x) mu (xa x) (xb x) (cb x) (y x) j) F (𝓝 (ampU b k0 mu xa0 xb0 cb0 y0 j)) ∧
    Tendsto (fun x => ampD b (k x) mu (xa x) (xb x) (cb x) (y x) j) F (𝓝 (ampD b k0 mu xa0 xb0 cb0 y0 j)) := by
  obtain ⟨cq, cw, cs, ct⟩ := hy
  cases b
  · have D := ((hk.pow 2).const_mul mu).mul hc
    have D0 := nm rfl
    have N1 := cs.sub ((hk.const_mul (2 * mu)).mul cq)
    have N2 := ct.sub ((hk.const_mul (2 * mu)).mul cw)
    have A1 := N1.neg.div D D0
    have A2 := N2.neg.div D D0
    have P1 := ((cw.div hk nk).add (N2.div D D0)).div ha na
    have P2 := ((cq.div hk nk).add (N1.div D D0)).div hb nb
    fin_cases j
    · exact ⟨(A1.add P1).const_mul (1/2), (A1.sub P1).const_mul (1/2)⟩
    · exact ⟨(A2.add P2).const_mul (1/2), (A2.sub P2).const_mul (1/2)⟩
  · have P := cw.div (hk.mul ha) (mul_ne_zero nk na)
    fin_cases j
    · exact ⟨((cq.div hk nk).add P).const_mul (1/2), ((cq.div hk nk).sub P).const_mul (1/2)⟩
    · exact ⟨tendsto_const_nhds, tendsto_const_nhds⟩

/-! ### Residue -/

/-- Change of the Lagrangian with wavenumber. -/
def db (m : Medium ℂ) (k k0 : ℂ) : Matrix (Fin 4) (Fin 4) ℂ :=
  !![(k + k0) * (m.lam + 2 * m.mu), 0, 0, -m.lam;
     0, (k + k0) * m.mu, m.mu, 0;
     0, m.mu, 0, 0;
     -m.lam, 0, 0, 0]

theorem bc_sub (m : Medium ℂ) (k k0 om : ℂ) (r t : Fin 4) : bc m k om r t - bc m k0 om r t = (k - k0) * db m k k0 r t := by
  fin_cases r <;> fin_cases t <;> simp [bc, db] <;> ring

/-- The size of a free wave: `2 k ∫ ((λ+2μ) q² + μ w²) - 2 ∫ (λ q w' - μ w q')`. -/
noncomputable def sizeR (n : ℕ) (m : ℕ → Medium ℂ) (thk : ℕ → ℝ) (k0 : ℂ) (y0 : ℕ → ℝ → MS ℂ) : ℂ :=
  ∑ i ∈ Finset.range n, ∑ r, ∑ t, db (m i) k0 k0 r t * overlap n thk y0 y0 i r t

theorem cut_same {n : ℕ} {thk : ℕ → ℝ} {c : ℝ} {f : ℝ → ℂ} {i : ℕ} (hi : i < n) (hc : 0 ≤ c) (cf : Continuous f)
    (hf : i = n - 1 → IntegrableOn f (Set.Ioi 0)) : cutInt n thk c f f i = layInt n thk (fun _ => f) i := by
  unfold cutInt layInt
  split
  · exact intervalIntegral.integral_add_adjacent_intervals (cf.intervalIntegrable _ _) (cf.intervalIntegrable _ _)
  · have W := hf (by omega)
    exact intervalIntegral.integral_interval_add_Ioi W (W.mono_set (Set.Ioi_subset_Ioi hc))

/-- The residue of the response at a free wave.  `kk` are wavenumbers tending to the wavenumber `k0` of the free wave `y0`, the only
one at `k0` up to a factor; `up`, `low` the motions excited at these wavenumbers; displacement and traction at the tops of the layers have
at most a simple pole.  Then the residue is the free wave times `(J.q t0 + J.w s0 - J.s w0 - J.t q0) / sizeR`. -/
theorem residue_PSV {n : ℕ} {liq : ℕ → Bool} {m : ℕ → Medium ℂ} {thk : ℕ → ℝ} {k0 c0 om : ℂ} {js : ℕ} {h : ℝ} {y0 : ℕ → ℝ → MS ℂ}
    {l0 : ℕ → Lay ℂ} {u0 d0 : ℕ → Fin 2 → ℂ} (hn : 1 ≤ n) (h0 : RaylField n liq m thk k0 om y0) (w0 : WaveField n c0 k0 l0 m y0 u0 d0)
    (hck : c0 * k0 = om) (f0 : ∀ i, (l0 i).liquid = liq i) (hk0 : k0 ≠ 0) (hc0 : c0 ≠ 0) (xa0 : ∀ i, i < n → (l0 i).xa ≠ 0)
    (xb0 : ∀ i, i < n → (l0 i).xb ≠ 0) (hlam : ∀ i, i < n → (m i).lam + 2 * (m i).mu ≠ 0)
    (huniq : ∀ y, RaylField n liq m thk k0 om y → ∃ a : ℂ, ∀ i, i < n → ∀ z, y i z = sc a (y0 i z))
    (hjs : js < n) (hh : 0 ≤ h)
    {ι : Type*} {F : Filter ι} [F.NeBot] {kk : ι → ℂ} (hk : Tendsto kk F (𝓝 k0)) {J : ι → MS ℂ} {J0 : MS ℂ} (hJ : To F J J0)
    {up low : ι → ℕ → ℝ → MS ℂ} (hf : ∀ᶠ x in F, ForcedPSV n liq m thk (kk x) om js h (J x) (up x) (low x))
    (pole : ∀ y, y = up ∨ y = low → ∀ i, i < n → ∃ a, To F (fun x => sc (kk x - k0) (y x i 0)) a)
    (hN : sizeR n m thk k0 y0 ≠ 0) :
    ∀ y, y = up ∨ y = low → ∀ i, i < n → ∀ z, To F (fun x => sc (kk x - k0) (y x i z))
      (sc (pairJ J0 (y0 js h) / sizeR n m thk k0 y0) (y0 i z)) := by
  have hs : Tendsto (fun x => kk x - k0) F (𝓝 0) := by simpa using hk.sub_const k0
  have om0 : om ≠ 0 := by rw [← hck]; exact mul_ne_zero hc0 hk0
  -- vertical wavenumbers
  have HL : ∀ i, ∃ l : ι → Lay ℂ, i < n → (∀ x, (l x).liquid = (l0 i).liquid) ∧ (∀ x, kk x ≠ 0 → Fits (om / kk x) (l x) (m i)) ∧
      Tendsto (fun x => (l x).xa) F (𝓝 (l0 i).xa) ∧ Tendsto (fun x => (l x).xb) F (𝓝 (l0 i).xb) ∧
      Tendsto (fun x => (l x).cbcb) F (𝓝 (l0 i).cbcb) := by
    intro i
    by_cases hi : i < n
    · obtain ⟨l, p⟩ := lay_near hk hk0 hck (w0.fits i hi) (hlam i hi) (xa0 i hi) (xb0 i hi)
      exact ⟨l, fun _ => p⟩
    · exact ⟨fun _ => l0 i, fun q => absurd q hi⟩
  choose L hL using HL
  have good : ∀ᶠ x in F, kk x ≠ 0 ∧ (∀ i ∈ Finset.range n, (L i x).xa ≠ 0 ∧ (L i x).xb ≠ 0) ∧ 0 < (kk x * (L (n-1) x).xa).re ∧
      0 < (kk x * (L (n-1) x).xb).re ∧ ForcedPSV n liq m thk (kk x) om js h (J x) (up x) (low x) := by
    have e1 := hk.eventually_ne hk0
    have e2 : ∀ᶠ x in F, ∀ i ∈ Finset.range n, (L i x).xa ≠ 0 ∧ (L i x).xb ≠ 0 := by
      rw [Filter.eventually_all_finset]
      intro i hi
      have hi := Finset.mem_range.1 hi
      exact ((hL i hi).2.2.1.eventually_ne (xa0 i hi)).and ((hL i hi).2.2.2.1.eventually_ne (xb0 i hi))
    have e3 := ((continuous_re.tendsto _).comp (hk.mul (hL (n-1) (by omega)).2.2.1)).eventually (lt_mem_nhds w0.ta)
    have e4 := ((continuous_re.tendsto _).comp (hk.mul (hL (n-1) (by omega)).2.2.2.1)).eventually (lt_mem_nhds w0.tb)
    filter_upwards [e1, e2, e3, e4, hf] with x a b c d e
    exact ⟨a, b, c, d, e⟩
  -- waves
  have rep : ∀ᶠ x in F, ∀ y, y = up ∨ y = low → ∀ i, i < n → ∃ u d, y x i = psvField (kk x) (m i) (L i x) u d ∧
      (liq i = true → u 1 = 0 ∧ d 1 = 0) := by
    filter_upwards [good] with x g y hy i hi
    obtain ⟨k1, ab, -, -, hx⟩ := g
    obtain ⟨a1, b1⟩ := ab i (Finset.mem_range.2 hi)
    obtain ⟨l1, l2, -⟩ := hL i hi
    have ck : om / kk x ≠ 0 := div_ne_zero om0 k1
    have e2 : (om / kk x * kk x) = om := by field_simp
    have hy' : y x = up x ∨ y x = low x := by rcases hy with rfl | rfl; exact Or.inl rfl; exact Or.inr rfl
    cases e : liq i
    · obtain ⟨u, d, r⟩ := solid_general (l2 x k1) (by rw [l1, f0, e]) k1 ck a1 b1 (hlam i hi) (y := y x i)
        (by rw [e2]; exact hx.solid (y x) hy' i hi e)
      exact ⟨u, d, funext r, fun q => by cases q⟩
    · obtain ⟨u, d, r1, r2, r⟩ := liquid_general (l2 x k1) (by rw [l1, f0, e]) k1 ck a1 (hlam i hi) (y := y x i)
        (by rw [e2]; exact hx.liquid (y x) hy' i hi e)
      exact ⟨u, d, funext r, fun _ => ⟨r1, r2⟩⟩
  have wave : ∀ᶠ x in F, ∃ u d, WaveField n (om / kk x) (kk x) (fun i => L i x) m (low x) u d ∧ ∀ i, i < n → liq i = true → u i 1 = 0 ∧ d i 1 = 0 := by
    filter_upwards [good, rep] with x g r
    obtain ⟨k1, ab, ta, tb, hx⟩ := g
    have r' : ∀ i, ∃ u d, i < n → low x i = psvField (kk x) (m i) (L i x) u d ∧ (liq i = true → u 1 = 0 ∧ d 1 = 0) := by
      intro i
      by_cases hi : i < n
      · obtain ⟨u, d, p⟩ := r low (Or.inr rfl) i hi
        exact ⟨u, d, fun _ => p⟩
      · exact ⟨0, 0, fun q => absurd q hi⟩
    choose u d p using r'
    refine ⟨u, d, ⟨fun i hi => (hL i hi).2.1 x k1, fun i hi => (p i hi).1, ?_, ta, tb⟩, fun i hi => (p i hi).2⟩
    have hi : n - 1 < n := by omega
    obtain ⟨a, b, a', b'⟩ := hx.decay
    obtain ⟨x1, x2⟩ := ab (n-1) (Finset.mem_range.2 hi)
    obtain ⟨s, t⟩ := half_no_upgoing ((hL (n-1) hi).2.1 x k1) k1 (div_ne_zero om0 k1) x1 x2 ta tb
      (fun z => congrFun (p (n-1) hi).1 z) a b a' b'
    rw [(hL (n-1) hi).1 x, f0] at t
    refine ext2 s ?_
    cases e : liq (n-1)
    · exact t e
    · exact ((p (n-1) hi).2 e).1
  -- scaled amplitudes
  have pole' : ∀ y : ι → ℕ → ℝ → MS ℂ, ∀ i, ∃ a, (y = up ∨ y = low) → i < n → To F (fun x => sc (kk x - k0) (y x i 0)) a := by
    intro y i
    by_cases c : (y = up ∨ y = low) ∧ i < n
    · obtain ⟨a, ha⟩ := pole y c.1 i c.2
      exact ⟨a, fun _ _ => ha⟩
    · exact ⟨⟨0, 0, 0, 0⟩, fun p q => absurd ⟨p, q⟩ c⟩
  choose P hP using pole'
  set aU : (ι → ℕ → ℝ → MS ℂ) → ℕ → ι → Fin 2 → ℂ := fun y i x =>
    ampU (liq i) (kk x) (m i).mu (L i x).xa (L i x).xb (L i x).cbcb (sc (kk x - k0) (y x i 0)) with haU
  set aD : (ι → ℕ → ℝ → MS ℂ) → ℕ → ι → Fin 2 → ℂ := fun y i x =>
    ampD (liq i) (kk x) (m i).mu (L i x).xa (L i x).xb (L i x).cbcb (sc (kk x - k0) (y x i 0)) with haD
  set U : (ι → ℕ → ℝ → MS ℂ) → ℕ → Fin 2 → ℂ := fun y i => ampU (liq i) k0 (m i).mu (l0 i).xa (l0 i).xb (l0 i).cbcb (P y i) with hU
  set D : (ι → ℕ → ℝ → MS ℂ) → ℕ → Fin 2 → ℂ := fun y i => ampD (liq i) k0 (m i).mu (l0 i).xa (l0 i).xb (l0 i).cbcb (P y i) with hD
  have near : ∀ y, y = up ∨ y = low → ∀ i, i < n → Near F kk (L i) (aU y i) (aD y i) k0 (l0 i) (U y i) (D y i) := by
    intro y hy i hi
    obtain ⟨l1, l2, l3, l4, l5⟩ := hL i hi
    have nm : liq i = false → (m i).mu * k0^2 * (l0 i).cbcb ≠ 0 := by
      intro e
      obtain ⟨mu, cb⟩ := (w0.fits i hi).sol (by rw [f0, e])
      have cb0 : (l0 i).cbcb ≠ 0 := by
        intro h0; rw [h0, mul_zero] at cb
        exact mul_ne_zero (w0.fits i hi).rho0 (mul_ne_zero hc0 hc0) cb.symm
      exact mul_ne_zero (mul_ne_zero mu (pow_ne_zero 2 hk0)) cb0
    have A := fun j => amps_lim (b := liq i) (mu := (m i).mu) hk l3 l4 l5 (hP y i hy hi) hk0 (xa0 i hi) (xb0 i hi) nm j
    exact ⟨l1, hk, l3, l4, fun j => (A j).1, fun j => (A j).2⟩
  -- the scaled fields
  have unsc : ∀ᶠ x in F, ∀ y, y = up ∨ y = low → ∀ i, i < n → ∀ u d, y x i = psvField (kk x) (m i) (L i x) u d →
      (liq i = true → u 1 = 0 ∧ d 1 = 0) → (kk x - k0) • u = aU y i x ∧ (kk x - k0) • d = aD y i x := by
    filter_upwards [good] with x g y hy i hi u d e e'
    obtain ⟨k1, ab, -⟩ := g
    obtain ⟨a1, b1⟩ := ab i (Finset.mem_range.2 hi)
    have A := amps_eq ((hL i hi).2.1 x k1) k1 (div_ne_zero om0 k1) a1 b1 (u := (kk x - k0) • u) (d := (kk x - k0) • d) (by
      rw [(hL i hi).1, f0]
      intro q
      simp [(e' q).1, (e' q).2])
    have st : psvState (kk x) (m i) (L i x) ((kk x - k0) • u) ((kk x - k0) • d) = sc (kk x - k0) (y x i 0) := by
      rw [← psvField_zero, ← field_sc, e]
    rw [st, (hL i hi).1, f0] at A
    exact A
  have form : ∀ᶠ x in F, ∀ y, y = up ∨ y = low → ∀ i, i < n →
      (fun z => sc (kk x - k0) (y x i z)) = psvField (kk x) (m i) (L i x) (aU y i x) (aD y i x) := by
    filter_upwards [rep, unsc] with x r s y hy i hi
    obtain ⟨u, d, e, e'⟩ := r y hy i hi
    obtain ⟨s1, s2⟩ := s y hy i hi u d e e'
    rw [e, field_sc, s1, s2]
  set R : (ι → ℕ → ℝ → MS ℂ) → ℕ → ℝ → MS ℂ := fun y i => psvField k0 (m i) (l0 i) (U y i) (D y i) with hR
  have limR : ∀ y, y = up ∨ y = low → ∀ i, i < n → ∀ z, To F (fun x => sc (kk x - k0) (y x i z)) (R y i z) := by
    intro y hy i hi z
    refine ((near y hy i hi).field (m i) z).congr' ?_
    filter_upwards [form] with x hx
    exact (congrFun (hx y hy i hi) z).symm
  have toU : ∀ {f : ι → MS ℂ} {a b : MS ℂ}, To F f a → To F f b → a = b := fun h1 h2 =>
    MS.ext (tendsto_nhds_unique h1.1 h2.1) (tendsto_nhds_unique h1.2.1 h2.2.1) (tendsto_nhds_unique h1.2.2.1 h2.2.2.1)
      (tendsto_nhds_unique h1.2.2.2 h2.2.2.2)
  -- the residues above and below the source are the same wave
  have same : ∀ i, i < n → R low i = R up i := by
    intro i hi
    by_cases c : i = js
    · subst c
      have a := limR up (Or.inl rfl) i hi h
      have b := limR low (Or.inr rfl) i hi h
      have eq : R low i h = R up i h := by
        have z : ∀ {f g : ι → ℂ} {a b : ℂ}, Tendsto (fun x => (kk x - k0) * f x) F (𝓝 a) → Tendsto (fun x => (kk x - k0) * g x) F (𝓝 b) →
            ∀ {j : ι → ℂ} {j0 : ℂ}, Tendsto j F (𝓝 j0) → (∀ᶠ x in F, g x - f x = j x) → b = a := by
          intro f g a b ha hb j j0 hj e
          have := hb.sub ha
          have t := hs.mul hj
          rw [zero_mul] at t
          have := tendsto_nhds_unique_of_eventuallyEq this t (e.mono fun x hx => by
            show (kk x - k0) * g x - (kk x - k0) * f x = (kk x - k0) * j x
            rw [← mul_sub, hx])
          linear_combination this
        exact MS.ext (z a.1 b.1 hJ.1 (hf.mono fun x hx => hx.jump.1)) (z a.2.1 b.2.1 hJ.2.1 (hf.mono fun x hx => hx.jump.2.1))
          (z a.2.2.1 b.2.2.1 hJ.2.2.1 (hf.mono fun x hx => hx.jump.2.2.1)) (z a.2.2.2 b.2.2.2 hJ.2.2.2 (hf.mono fun x hx => hx.jump.2.2.2))
      simp only [hR, psvField] at eq
      have z1 : ∀ y : ι → ℕ → ℝ → MS ℂ, (l0 i).liquid = true → upAt k0 (l0 i) (U y i) h 1 = 0 ∧ dnAt k0 (l0 i) (D y i) h 1 = 0 := by
        intro y e
        rw [f0] at e
        simp [upAt, dnAt, hU, hD, ampU, ampD, e]
      have A := amps_eq (w0.fits i hi) hk0 hc0 (xa0 i hi) (xb0 i hi) (z1 low)
      have B := amps_eq (w0.fits i hi) hk0 hc0 (xa0 i hi) (xb0 i hi) (z1 up)
      rw [eq, ← B.1, ← B.2] at A
      have u1 : U low i = U up i := ext2 (mul_right_cancel₀ (exp_ne_zero _) (congrFun A.1 0)) (mul_right_cancel₀ (exp_ne_zero _) (congrFun A.1 1))
      have d1 : D low i = D up i := ext2 (mul_right_cancel₀ (exp_ne_zero _) (congrFun A.2 0)) (mul_right_cancel₀ (exp_ne_zero _) (congrFun A.2 1))
      simp only [hR, u1, d1]
    · funext z
      refine toU (limR low (Or.inr rfl) i hi z) ((limR up (Or.inl rfl) i hi z).congr' ?_)
      filter_upwards [hf] with x hx
      rw [hx.same i c]
  -- no upgoing wave in the half-space
  have noup : ∀ᶠ x in F, aU low (n-1) x = 0 := by
    filter_upwards [wave, unsc] with x w s
    obtain ⟨u, d, W, z⟩ := w
    have := (s low (Or.inr rfl) (n-1) (by omega) _ _ (W.eq (n-1) (by omega)) (z (n-1) (by omega))).1
    rw [← this, W.up, smul_zero]
  have U0 : U low (n-1) = 0 := by
    funext j
    refine tendsto_nhds_unique ((near low (Or.inr rfl) (n-1) (by omega)).u j) (tendsto_const_nhds.congr' ?_)
    filter_upwards [noup] with x hx
    rw [hx]
  -- the residue is a free wave
  have RL : RaylField n liq m thk k0 om (R low) := by
    refine ⟨?_, ?_, ?_, ?_, ?_⟩
    · intro i hi e z
      rw [← hck]
      exact C18_field_motion (w0.fits i hi) (by rw [f0, e]) (hlam i hi) _ _ z
    · intro i hi e z
      rw [← hck]
      exact field_motionL (w0.fits i hi) (by rw [f0, e]) (hlam i hi) _ _ z
    · rw [same 0 (by omega)]
      have a := limR up (Or.inl rfl) 0 (by omega) 0
      refine ⟨tendsto_nhds_unique a.2.2.1 (tendsto_const_nhds.congr' ?_), tendsto_nhds_unique a.2.2.2 (tendsto_const_nhds.congr' ?_)⟩ <;>
        filter_upwards [hf] with x hx <;> simp [sc, hx.free.1, hx.free.2]
    · intro i hi
      have a := limR low (Or.inr rfl) i (by omega) (thk i)
      have b := limR up (Or.inl rfl) (i+1) hi 0
      rw [← same (i+1) hi] at b
      refine ⟨tendsto_nhds_unique a.2.1 (b.2.1.congr' ?_), tendsto_nhds_unique a.2.2.1 (b.2.2.1.congr' ?_),
        tendsto_nhds_unique a.2.2.2 (b.2.2.2.congr' ?_), fun e1 e2 => tendsto_nhds_unique a.1 (b.1.congr' ?_)⟩ <;>
        filter_upwards [hf] with x hx
      · simp only [sc, (hx.contact i hi).1]
      · simp only [sc, (hx.contact i hi).2.1]
      · simp only [sc, (hx.contact i hi).2.2.1]
      · simp only [sc, (hx.contact i hi).2.2.2 e1 e2]
    · refine half_decay (w0.fits (n-1) (by omega)) w0.ta w0.tb (D low (n-1)) fun z => ?_
      simp only [hR, U0]
  obtain ⟨a, ha⟩ := huniq _ RL
  have ha' : ∀ i, i < n → R low i = fun z => sc a (y0 i z) := fun i hi => funext (ha i hi)
  -- its size
  have key : a * sizeR n m thk k0 y0 = pairJ J0 (y0 js h) := by
    set c : ℕ → ℝ := fun i => if i = js then h else 0 with hc
    have c0' : ∀ i, 0 ≤ c i := by intro i; simp only [hc]; split <;> simp [hh]
    have y0c : ∀ i, i < n → ∀ t, Continuous fun z => cmp (y0 i) z t := by
      intro i hi t
      rw [w0.eq i hi]
      exact cmp_cont (w0.fits i hi) _ _ t
    have hfit : ∀ i, i < n → ∀ᶠ x in F, Fits (om / kk x) (L i x) (m i) := fun i hi => good.mono fun x g => (hL i hi).2.1 x g.1
    have ov : ∀ i, i < n → ∀ r t, Tendsto (fun x => (kk x - k0) * cutInt n thk (c i) (fun z => cmp (up x i) z r * cmp (y0 i) z t)
        (fun z => cmp (low x i) z r * cmp (y0 i) z t) i) F (𝓝 (a * overlap n thk y0 y0 i r t)) := by
      intro i hi r t
      have tgt : a * overlap n thk y0 y0 i r t = cutInt n thk (c i) (fun z => cmp (R up i) z r * cmp (y0 i) z t)
          (fun z => cmp (R low i) z r * cmp (y0 i) z t) i := by
        rw [← same i hi, ha' i hi]
        simp only [cmp_sc, mul_assoc]
        have C : Continuous fun z => a * (cmp (y0 i) z r * cmp (y0 i) z t) := ((y0c i hi r).mul (y0c i hi t)).const_mul a
        have H : i = n - 1 → IntegrableOn (fun z => cmp (y0 i) z r * cmp (y0 i) z t) (Set.Ioi 0) := by
          rintro rfl
          exact (w0.half hn w0 r t).1
        rw [cut_same hi (c0' i) C (fun e => (H e).const_mul a), overlap]
        unfold layInt
        split
        · rw [intervalIntegral.integral_const_mul]
        · rw [integral_const_mul]
      rw [tgt]
      have sfin : ∀ (f : ℝ → MS ℂ) (s : ℂ) (p q : ℝ), s * (∫ z in p..q, cmp f z r * cmp (y0 i) z t) =
          ∫ z in p..q, cmp (fun z => sc s (f z)) z r * cmp (y0 i) z t := by
        intro f s p q
        simp only [cmp_sc, mul_assoc, intervalIntegral.integral_const_mul]
      have shalf : ∀ (f : ℝ → MS ℂ) (s : ℂ) (p : ℝ), s * (∫ z in Set.Ioi p, cmp f z r * cmp (y0 i) z t) =
          ∫ z in Set.Ioi p, cmp (fun z => sc s (f z)) z r * cmp (y0 i) z t := by
        intro f s p
        simp only [cmp_sc, mul_assoc, integral_const_mul]
      have u1 := (near up (Or.inl rfl) i hi).fin (hfit i hi) (w0.fits i hi) (y0c i hi t) r 0 (c i)
      simp only [cutInt, mul_add]
      refine Tendsto.add (u1.congr' ?_) ?_
      · filter_upwards [form] with x hx
        rw [sfin, hx up (Or.inl rfl) i hi]
      split
      · have u2 := (near low (Or.inr rfl) i hi).fin (hfit i hi) (w0.fits i hi) (y0c i hi t) r (c i) (thk i)
        refine u2.congr' ?_
        filter_upwards [form] with x hx
        rw [sfin, hx low (Or.inr rfl) i hi]
      · have ei : i = n - 1 := by omega
        subst ei
        have N := near low (Or.inr rfl) (n-1) hi
        have N' : Near F kk (L (n-1)) (fun _ => 0) (aD low (n-1)) k0 (l0 (n-1)) 0 (D low (n-1)) :=
          ⟨N.liq, N.k, N.xa, N.xb, fun _ => tendsto_const_nhds, N.d⟩
        have u2 := N'.half (hfit (n-1) hi) (w0.fits (n-1) hi) w0.ta w0.tb (d0 (n-1)) r t (c0' (n-1))
        have y0h := w0.eq (n-1) hi
        rw [w0.up] at y0h
        rw [← y0h] at u2
        have Rh : R low (n-1) = psvField k0 (m (n-1)) (l0 (n-1)) 0 (D low (n-1)) := by simp only [hR, U0]
        rw [Rh]
        refine u2.congr' ?_
        filter_upwards [form, noup] with x hx hz
        rw [shalf, hx low (Or.inr rfl) (n-1) hi, hz]
    have lhs : Tendsto (fun x => ∑ i ∈ Finset.range n, ∑ r, ∑ t, db (m i) (kk x) k0 r t *
        ((kk x - k0) * cutInt n thk (c i) (fun z => cmp (up x i) z r * cmp (y0 i) z t) (fun z => cmp (low x i) z r * cmp (y0 i) z t) i)) F
        (𝓝 (∑ i ∈ Finset.range n, ∑ r, ∑ t, db (m i) k0 k0 r t * (a * overlap n thk y0 y0 i r t))) := by
      refine tendsto_finsetSum _ fun i hi => tendsto_finsetSum _ fun r _ => tendsto_finsetSum _ fun t _ => ?_
      refine Tendsto.mul ?_ (ov i (Finset.mem_range.1 hi) r t)
      have kk' := hk.add_const k0
      fin_cases r <;> fin_cases t <;> simp [db] <;> exact kk'.mul_const _
    have rhs : Tendsto (fun x => pairJ (J x) (y0 js h)) F (𝓝 (pairJ J0 (y0 js h))) :=
      (((hJ.1.mul_const _).add (hJ.2.1.mul_const _)).sub (hJ.2.2.1.mul_const _)).sub (hJ.2.2.2.mul_const _)
    have eq := tendsto_nhds_unique_of_eventuallyEq lhs rhs (by
      filter_upwards [good, rep, wave] with x g r w
      obtain ⟨u, d, W, -⟩ := w
      have r' : ∀ i, ∃ u d, i < n → up x i = psvField (kk x) (m i) (L i x) u d := by
        intro i
        by_cases hi : i < n
        · obtain ⟨u, d, p⟩ := r up (Or.inl rfl) i hi
          exact ⟨u, d, fun _ => p.1⟩
        · exact ⟨0, 0, fun q => absurd q hi⟩
      choose u' d' p using r'
      rw [← weakJR hn h0 w0 f0 g.2.2.2.2 p W hlam hjs hh]
      refine Finset.sum_congr rfl fun i _ => Finset.sum_congr rfl fun r _ => Finset.sum_congr rfl fun t _ => ?_
      rw [bc_sub]
      ring)
    rw [← eq, sizeR, Finset.mul_sum]
    refine Finset.sum_congr rfl fun i _ => ?_
    rw [Finset.mul_sum]
    refine Finset.sum_congr rfl fun r _ => ?_
    rw [Finset.mul_sum]
    refine Finset.sum_congr rfl fun t _ => ?_
    ring
  have av : a = pairJ J0 (y0 js h) / sizeR n m thk k0 y0 := by rw [eq_div_iff hN, key]
  intro y hy i hi z
  have e : R y i z = sc (pairJ J0 (y0 js h) / sizeR n m thk k0 y0) (y0 i z) := by
    have : R y i = R low i := by
      rcases hy with rfl | rfl
      · exact (same i hi).symm
      · rfl
    rw [this, ha i hi, av]
  rw [← e]
  exact limR y hy i hi z

end GRT.Modal
