import Verif.Modal.RaylGrn

/-! C91: an explosion in the ocean of RaylVarEx, to which the theorem applies.  C92: what is written in the water is not the derivative. -/

set_option linter.unusedSectionVars false

namespace GRT.Modal.Oc

open GRT.RT GRT.Layer GRT.Kernel Filter Complex MeasureTheory Topology Matrix

theorem one_M0 : one.M 0 = ⟨55, 55/2, 0⟩ := by
  have := one_lam 0
  simp only [lam1, if_true] at this
  rw [show one.M 0 = ⟨(one.M 0).rho, (one.M 0).lam, (one.M 0).mu⟩ from rfl, ← this]
  simp [M, one]

theorem one_M1 : one.M 1 = ⟨256, 6400/9 - 800, 400⟩ := by
  have := one_lam 1
  simp only [lam1, one_ne_zero, if_false] at this
  rw [show one.M 1 = ⟨(one.M 1).rho, (one.M 1).lam, (one.M 1).mu⟩ from rfl, ← this]
  simp only [M, one_ne_zero, if_false, one_mu]
  norm_num [one]

theorem one_liq (i : ℕ) : (one.I.lay i).liquid = decide (i = 0) := by
  by_cases h : i = 0 <;> simp [I, h]

/-! ### The forced motion -/

/-- Displacement and traction in the water for a potential `p` with derivative `p'`. -/
noncomputable def wat (x p p' : ℝ) : MS ℂ := ⟨((x * p : ℝ) : ℂ), (p' : ℂ), ((-55 * p : ℝ) : ℂ), 0⟩

/-- The ground at wavenumber `x`. -/
noncomputable def gr (sa sb : ℝ) : Lay ℂ := ⟨false, 256, 400, sa, sb, 1 - (sa:ℂ)^2, 1 - (sb:ℂ)^2⟩

/-- Ratio of traction and displacement of the sea floor. -/
noncomputable def gg (x sa sb : ℝ) : ℝ := 1250 * x^3 * ((1 + sb^2)^2 / (2 * sa) - 2 * sb)

/-- Amplitudes in the ground for vertical displacement `W`. -/
noncomputable def am1 (x sb W : ℝ) : ℝ := 2 * W / (x * (1 - sb^2))
noncomputable def am0 (x sa sb W : ℝ) : ℝ := (1 + sb^2) * am1 x sb W / (2 * sa)

noncomputable def grd (x sa sb W : ℝ) : ℝ → MS ℂ := psvField x (one.M 1) (gr sa sb) 0 ![(am0 x sa sb W : ℂ), (am1 x sb W : ℂ)]

/-- Vertical displacement of the sea floor. -/
noncomputable def flo (nu A B h : ℝ) : ℝ := A * (nu * Real.cos (nu * H)) + B * (nu * Real.cos (nu * (H - h)))

noncomputable def fup (x nu sa sb A B h : ℝ) (i : ℕ) (z : ℝ) : MS ℂ :=
  if i = 0 then wat x (A * Real.sin (nu * z)) (A * (nu * Real.cos (nu * z))) else grd x sa sb (flo nu A B h) z

noncomputable def flow (x nu sa sb A B h : ℝ) (i : ℕ) (z : ℝ) : MS ℂ :=
  if i = 0 then wat x (A * Real.sin (nu * z) + B * Real.sin (nu * (z - h))) (A * (nu * Real.cos (nu * z)) + B * (nu * Real.cos (nu * (z - h))))
  else grd x sa sb (flo nu A B h) z

theorem gr_fits {x sa sb : ℝ} (hx : 0 < x) (ha : sa^2 = 1 - 9/(25 * x^2)) (hb : sb^2 = 1 - 16/(25 * x^2)) :
    Fits (1 / (x:ℂ)) (gr sa sb) (one.M 1) := by
  rw [one_M1]
  have x0 : (x:ℂ) ≠ 0 := by exact_mod_cast hx.ne'
  have a : (sa:ℂ)^2 = 1 - 9/(25 * (x:ℂ)^2) := by exact_mod_cast ha
  have b : (sb:ℂ)^2 = 1 - 16/(25 * (x:ℂ)^2) := by exact_mod_cast hb
  refine ⟨rfl, by norm_num, rfl, ?_, ?_, ?_, ?_, ?_⟩
  · simp only [gr]; ring
  · simp only [gr]; ring
  · simp only [gr]; rw [a]; field_simp; norm_num
  · intro h; cases h
  · intro _
    refine ⟨by norm_num, ?_⟩
    simp only [gr]; rw [b]; field_simp; norm_num

theorem wat_motion {x nu : ℝ} (hnu : nu^2 = 2 - x^2) {p p' : ℝ → ℝ} (h1 : ∀ z, HasDerivAt p (p' z) z) (h2 : ∀ z, HasDerivAt p' (-nu^2 * p z) z)
    (z : ℝ) : MotionL x ((1:ℂ)^2) (one.M 0) (fun z => wat x (p z) (p' z)) z := by
  rw [one_M0]
  refine ⟨rfl, ?_, ?_, ?_⟩
  · simp only [wat]; push_cast; ring
  · refine (h2 z).ofReal_comp.congr_deriv ?_
    simp only [wat]
    rw [hnu]
    push_cast
    ring
  · refine ((h1 z).const_mul (-55)).ofReal_comp.congr_deriv ?_
    simp only [wat]
    push_cast
    ring

theorem grd_zero {x sa sb W : ℝ} (hx : 0 < x) (ha : sa^2 = 1 - 9/(25 * x^2)) (hb : sb^2 = 1 - 16/(25 * x^2)) (a0 : 0 < sa) :
    grd x sa sb W 0 = ⟨((x * (am0 x sa sb W - sb * am1 x sb W) : ℝ) : ℂ), (W : ℂ), ((gg x sa sb * W : ℝ) : ℂ), 0⟩ := by
  have q : 1 - sb^2 = 16/(25 * x^2) := by rw [hb]; ring
  have q0 : 1 - sb^2 ≠ 0 := by rw [q]; positivity
  have f := gr_fits hx ha hb
  unfold grd
  rw [psvField_zero, psvState_solid f rfl, one_M1]
  simp only [gr, Pi.zero_apply, Matrix.cons_val_zero, Matrix.cons_val_one, zero_add, zero_sub]
  refine MS.ext ?_ ?_ ?_ ?_ <;> dsimp only
  · push_cast; ring
  · have : x * (am1 x sb W - sa * am0 x sa sb W) = W := by
      simp only [am0, am1]; field_simp; ring
    refine Eq.trans ?_ (congrArg (fun r : ℝ => (r:ℂ)) this)
    push_cast; ring
  · have : 400 * x^2 * ((1 + sb^2) * am0 x sa sb W - 2 * sb * am1 x sb W) = gg x sa sb * W := by
      simp only [am0, am1, gg, q]; field_simp; ring
    rw [← this]; push_cast; ring
  · have : 400 * x^2 * (-(2 * sa * am0 x sa sb W) + (1 + sb^2) * am1 x sb W) = 0 := by
      simp only [am0]; field_simp; ring
    have := congrArg (fun r : ℝ => (r:ℂ)) this
    push_cast at this
    rw [← this]; ring

theorem trig_deriv (A nu c z : ℝ) : HasDerivAt (fun z => A * Real.sin (nu * (z - c))) (A * (nu * Real.cos (nu * (z - c)))) z ∧
    HasDerivAt (fun z => A * (nu * Real.cos (nu * (z - c)))) (-nu^2 * (A * Real.sin (nu * (z - c)))) z := by
  have l : HasDerivAt (fun z => nu * (z - c)) nu z := (((hasDerivAt_id z).sub_const c).const_mul nu).congr_deriv (by ring)
  exact ⟨((l.sin).const_mul A).congr_deriv (by ring), (((l.cos).const_mul nu).const_mul A).congr_deriv (by ring)⟩

theorem forced {x nu sa sb A B h : ℝ} (hx : 0 < x) (hnu : nu^2 = 2 - x^2) (ha : sa^2 = 1 - 9/(25 * x^2)) (hb : sb^2 = 1 - 16/(25 * x^2))
    (a0 : 0 < sa) (b0 : 0 < sb) (hB : B * nu = -4)
    (bot : 55 * (A * Real.sin (nu * H) + B * Real.sin (nu * (H - h))) = - (gg x sa sb * flo nu A B h)) :
    ForcedPSV 2 (fun i => (one.I.lay i).liquid) one.M (fun _ => H) x 1 0 h ⟨0, -4, 0, 0⟩ (fup x nu sa sb A B h) (flow x nu sa sb A B h) := by
  have x0 : (x:ℂ) ≠ 0 := by exact_mod_cast hx.ne'
  have f := gr_fits hx ha hb
  have T := trig_deriv A nu 0
  have T' := trig_deriv B nu h
  simp only [sub_zero] at T
  have gm : ∀ z, Motion x ((1:ℂ)^2) (one.M 1) (grd x sa sb (flo nu A B h)) z := by
    intro z
    have := C18_field_motion (k := (x:ℂ)) f rfl (by rw [one_M1]; norm_num) 0 ![(am0 x sa sb (flo nu A B h) : ℂ), (am1 x sb (flo nu A B h) : ℂ)] z
    rwa [one_div_mul_cancel x0] at this
  refine ⟨?_, ?_, ?_, ?_, ?_, ?_, ?_⟩
  · intro i hi; funext z; simp [fup, flow, hi]
  · intro y hy i hi e z
    rw [one_liq] at e
    have i1 : i = 1 := by have := of_decide_eq_false e; omega
    subst i1
    have : y 1 = grd x sa sb (flo nu A B h) := by rcases hy with rfl | rfl <;> funext z <;> simp [fup, flow]
    rw [this]
    exact gm z
  · intro y hy i hi e z
    rw [one_liq] at e
    have i0 : i = 0 := of_decide_eq_true e
    subst i0
    rcases hy with rfl | rfl
    · exact wat_motion hnu (fun z => (T z).1) (fun z => (T z).2) z
    · exact wat_motion hnu (p := fun z => A * Real.sin (nu * z) + B * Real.sin (nu * (z - h)))
        (p' := fun z => A * (nu * Real.cos (nu * z)) + B * (nu * Real.cos (nu * (z - h))))
        (fun z => (T z).1.add (T' z).1) (fun z => ((T z).2.add (T' z).2).congr_deriv (by ring)) z
  · simp [fup, wat]
  · intro i hi
    obtain rfl : i = 0 := by omega
    have g := grd_zero (W := flo nu A B h) hx ha hb a0
    simp only [flow, fup, if_true, zero_add, one_ne_zero, if_false, g, wat]
    refine ⟨by simp [flo], ?_, trivial, fun q => absurd q (by simp [one_liq])⟩
    rw [show -55 * (A * Real.sin (nu * H) + B * Real.sin (nu * (H - h))) = gg x sa sb * flo nu A B h by linarith]
  · simp only [flow, fup, if_true, wat, sub_self, mul_zero, Real.sin_zero, Real.cos_zero, add_zero, mul_one, true_and]
    refine ⟨?_, trivial⟩
    rw [hB]; push_cast; ring
  · refine half_decay (k := (x:ℂ)) f ?_ ?_ ![(am0 x sa sb (flo nu A B h) : ℂ), (am1 x sb (flo nu A B h) : ℂ)] (fun z => by simp [flow, grd])
    · simp only [gr]; rw [← ofReal_mul, ofReal_re]; positivity
    · simp only [gr]; rw [← ofReal_mul, ofReal_re]; positivity

/-! ### Limit of wavenumber 1 -/

noncomputable def nuX (x : ℝ) : ℝ := √(2 - x^2)
noncomputable def saX (x : ℝ) : ℝ := √(1 - 9/(25 * x^2))
noncomputable def sbX (x : ℝ) : ℝ := √(1 - 16/(25 * x^2))
/-- Zero at wavenumbers of modes. -/
noncomputable def secX (x : ℝ) : ℝ := 55 * Real.sin (nuX x * H) + gg x (saX x) (sbX x) * (nuX x * Real.cos (nuX x * H))
noncomputable def numX (h x : ℝ) : ℝ := 55 * Real.sin (nuX x * (H - h)) + gg x (saX x) (sbX x) * (nuX x * Real.cos (nuX x * (H - h)))
noncomputable def bX (x : ℝ) : ℝ := -4 / nuX x
noncomputable def aX (h x : ℝ) : ℝ := - (bX x * numX h x) / secX x

theorem nu1 : nuX 1 = 1 := by norm_num [nuX]
theorem sa1 : saX 1 = 4/5 := by
  unfold saX; rw [show (1 - 9/(25 * (1:ℝ)^2)) = (4/5)^2 by norm_num]; exact Real.sqrt_sq (by norm_num)
theorem sb1 : sbX 1 = 3/5 := by
  unfold sbX; rw [show (1 - 16/(25 * (1:ℝ)^2)) = (3/5)^2 by norm_num]; exact Real.sqrt_sq (by norm_num)
theorem gg1 : gg 1 (saX 1) (sbX 1) = -55 := by rw [sa1, sb1]; norm_num [gg]

theorem nu_deriv : HasDerivAt nuX (-1) 1 := by
  have h : HasDerivAt (fun x : ℝ => 2 - x^2) (-2) 1 := (((hasDerivAt_id (1:ℝ)).pow 2).const_sub 2).congr_deriv (by norm_num)
  refine (h.sqrt (by norm_num)).congr_deriv ?_
  rw [show √(2 - (1:ℝ)^2) = 1 from nu1]; norm_num

theorem inv_deriv (a : ℝ) : HasDerivAt (fun x : ℝ => 1 - a/(25 * x^2)) (2 * a / 25) 1 := by
  have h : HasDerivAt (fun x : ℝ => 25 * x^2) 50 1 := (((hasDerivAt_id (1:ℝ)).pow 2).const_mul 25).congr_deriv (by norm_num)
  refine (((hasDerivAt_const (1:ℝ) a).div h (by norm_num)).const_sub 1).congr_deriv ?_
  norm_num; ring

theorem sa_deriv : HasDerivAt saX (9/20) 1 := by
  refine ((inv_deriv 9).sqrt (by norm_num)).congr_deriv ?_
  rw [show √(1 - 9/(25 * (1:ℝ)^2)) = 4/5 from sa1]; norm_num

theorem sb_deriv : HasDerivAt sbX (16/15) 1 := by
  refine ((inv_deriv 16).sqrt (by norm_num)).congr_deriv ?_
  rw [show √(1 - 16/(25 * (1:ℝ)^2)) = 3/5 from sb1]; norm_num

theorem gg_deriv : HasDerivAt (fun x => gg x (saX x) (sbX x)) (-44375/48) 1 := by
  have a := (((sb_deriv.pow 2).const_add 1).pow 2).div (sa_deriv.const_mul 2) (by rw [sa1]; norm_num)
  have b := (((hasDerivAt_id (1:ℝ)).pow 3).const_mul 1250).mul (a.sub (sb_deriv.const_mul 2))
  refine b.congr_deriv ?_
  simp [sa1, sb1]
  norm_num

noncomputable def slopeX : ℝ := Real.cos H * (-41735/48 - 110 * H)

theorem slope_neg : slopeX < 0 := by
  have c : 0 < Real.cos H := by unfold H; rw [Real.cos_pi_div_four]; positivity
  have := H_pos
  unfold slopeX
  nlinarith

theorem sin_H : Real.sin H = Real.cos H := by unfold H; rw [Real.sin_pi_div_four, Real.cos_pi_div_four]

theorem sec_deriv : HasDerivAt secX slopeX 1 := by
  have n := nu_deriv.mul_const H
  refine ((n.sin.const_mul 55).add (gg_deriv.mul (nu_deriv.mul n.cos))).congr_deriv ?_
  simp only [nu1, gg1, one_mul, sin_H, slopeX, Pi.mul_apply]
  ring

theorem sec_one : secX 1 = 0 := by
  unfold secX; rw [gg1, nu1, one_mul, sin_H]; ring

theorem pole_lim : Tendsto (fun x => (x - 1) / secX x) (𝓝[≠] 1) (𝓝 (1 / slopeX)) := by
  have := (hasDerivAt_iff_tendsto_slope.1 sec_deriv).inv₀ slope_neg.ne
  simp only [one_div]
  refine this.congr fun x => ?_
  rw [slope_def_field, sec_one, sub_zero, inv_div]

theorem near : ∀ᶠ x in 𝓝[≠] (1:ℝ), 0 < x ∧ nuX x ^ 2 = 2 - x^2 ∧ 0 < nuX x ∧ saX x ^ 2 = 1 - 9/(25 * x^2) ∧ 0 < saX x ∧
    sbX x ^ 2 = 1 - 16/(25 * x^2) ∧ 0 < sbX x ∧ secX x ≠ 0 := by
  have e1 : ∀ᶠ x in 𝓝[≠] (1:ℝ), 9/10 < x ∧ x < 11/10 :=
    nhdsWithin_le_nhds ((lt_mem_nhds (show (9/10:ℝ) < 1 by norm_num)).and (gt_mem_nhds (show (1:ℝ) < 11/10 by norm_num)))
  have e2 := sec_deriv.eventually_ne (c := 0) slope_neg.ne
  filter_upwards [e1, e2] with x ⟨h1, h2⟩ h3
  have x0 : 0 < x := by linarith
  have x2 : 81/100 < x^2 := by nlinarith
  have x3 : x^2 < 121/100 := by nlinarith
  have a : 0 < 2 - x^2 := by linarith
  have b : 0 < 1 - 9/(25 * x^2) := by
    rw [sub_pos, div_lt_one (by positivity)]; linarith
  have c : 0 < 1 - 16/(25 * x^2) := by
    rw [sub_pos, div_lt_one (by positivity)]; linarith
  exact ⟨x0, Real.sq_sqrt a.le, Real.sqrt_pos.2 a, Real.sq_sqrt b.le, Real.sqrt_pos.2 b, Real.sq_sqrt c.le, Real.sqrt_pos.2 c, h3⟩

/-- Residue of the amplitude. -/
noncomputable def resA (h : ℝ) : ℝ := 220 * (Real.sin (H - h) - Real.cos (H - h)) / slopeX

section lims
variable (h : ℝ)

theorem nu_lim : Tendsto nuX (𝓝[≠] 1) (𝓝 1) := by
  have := nu_deriv.continuousAt.tendsto; rw [nu1] at this; exact this.mono_left nhdsWithin_le_nhds
theorem sa_lim : Tendsto saX (𝓝[≠] 1) (𝓝 (4/5)) := by
  have := sa_deriv.continuousAt.tendsto; rw [sa1] at this; exact this.mono_left nhdsWithin_le_nhds
theorem sb_lim : Tendsto sbX (𝓝[≠] 1) (𝓝 (3/5)) := by
  have := sb_deriv.continuousAt.tendsto; rw [sb1] at this; exact this.mono_left nhdsWithin_le_nhds
theorem gg_lim : Tendsto (fun x => gg x (saX x) (sbX x)) (𝓝[≠] 1) (𝓝 (-55)) := by
  have := gg_deriv.continuousAt.tendsto; rw [gg1] at this; exact this.mono_left nhdsWithin_le_nhds
theorem x_lim : Tendsto (fun x : ℝ => x) (𝓝[≠] 1) (𝓝 1) := nhdsWithin_le_nhds
theorem x1_lim : Tendsto (fun x : ℝ => x - 1) (𝓝[≠] 1) (𝓝 0) := by simpa using x_lim.sub_const 1

theorem b_lim : Tendsto bX (𝓝[≠] 1) (𝓝 (-4)) := by
  have := (tendsto_const_nhds (x := (-4:ℝ))).div nu_lim one_ne_zero
  rw [div_one] at this
  exact this

theorem a_lim : Tendsto (fun x => (x - 1) * aX h x) (𝓝[≠] 1) (𝓝 (resA h)) := by
  have n := nu_lim.mul_const (H - h)
  have N := ((Real.continuous_sin.tendsto _).comp n |>.const_mul 55).add (gg_lim.mul (nu_lim.mul ((Real.continuous_cos.tendsto _).comp n)))
  have := (b_lim.mul N).neg.mul pole_lim
  refine (this.congr fun x => ?_).trans ?_
  · simp only [aX, numX, Function.comp]; ring
  · refine le_of_eq ?_
    congr 1
    simp only [resA, one_mul]
    ring

theorem flo_lim : Tendsto (fun x => (x - 1) * flo (nuX x) (aX h x) (bX x) h) (𝓝[≠] 1) (𝓝 (resA h * Real.cos H)) := by
  have c1 := (Real.continuous_cos.tendsto _).comp (nu_lim.mul_const H)
  have c2 := (Real.continuous_cos.tendsto _).comp (nu_lim.mul_const (H - h))
  have := ((a_lim h).mul (nu_lim.mul c1)).add ((x1_lim.mul b_lim).mul (nu_lim.mul c2))
  simp only [one_mul, zero_mul, add_zero] at this
  refine this.congr fun x => ?_
  simp only [flo, Function.comp]; ring

end lims

/-- The source. -/
theorem jump_EX (x : ℂ) : jump x (((1:ℝ):ℂ)^2) (one.M 0) (srcForce x (2 * (one.M 0).rho * ((1:ℝ):ℂ)^2) .EX) = ⟨0, -4, 0, 0⟩ := by
  rw [one_M0]
  simp only [jump, motionRhs, srcForce, momentDiag]
  refine MS.ext ?_ ?_ ?_ ?_ <;> push_cast <;> ring

theorem To_real {F : Filter ℝ} {f : ℝ → MS ℂ} {q w s : ℝ → ℝ} {a b c : ℝ} (e : ∀ᶠ x in F, f x = ⟨(q x : ℂ), (w x : ℂ), (s x : ℂ), 0⟩)
    (h1 : Tendsto q F (𝓝 a)) (h2 : Tendsto w F (𝓝 b)) (h3 : Tendsto s F (𝓝 c)) : To F f ⟨a, b, c, 0⟩ := by
  have g : To F (fun x => ⟨(q x : ℂ), (w x : ℂ), (s x : ℂ), 0⟩) (⟨a, b, c, 0⟩ : MS ℂ) :=
    ⟨(continuous_ofReal.tendsto _).comp h1, (continuous_ofReal.tendsto _).comp h2, (continuous_ofReal.tendsto _).comp h3, tendsto_const_nhds⟩
  exact g.congr' (e.mono fun _ h => h.symm)

theorem up_lim (h : ℝ) : To (𝓝[≠] (1:ℝ)) (fun x => sc ((x:ℂ) - ((1:ℝ):ℂ)) (fup x (nuX x) (saX x) (sbX x) (aX h x) (bX x) h 0 0)) ⟨0, resA h, 0, 0⟩ := by
  have := To_real (F := 𝓝[≠] (1:ℝ)) (f := fun x => sc ((x:ℂ) - ((1:ℝ):ℂ)) (fup x (nuX x) (saX x) (sbX x) (aX h x) (bX x) h 0 0))
    (q := fun _ => 0) (w := fun x => (x - 1) * aX h x * nuX x) (s := fun _ => 0) (Eventually.of_forall fun x => ?_)
    tendsto_const_nhds ((a_lim h).mul nu_lim) tendsto_const_nhds
  · simpa using this
  · simp [sc, fup, wat]; ring

theorem low_lim (h : ℝ) : ∃ a, To (𝓝[≠] (1:ℝ)) (fun x => sc ((x:ℂ) - ((1:ℝ):ℂ)) (flow x (nuX x) (saX x) (sbX x) (aX h x) (bX x) h 0 0)) a := by
  have n := nu_lim.mul_const (0 - h)
  have p := (x1_lim.mul b_lim).mul ((Real.continuous_sin.tendsto _).comp n)
  have p' := (x1_lim.mul b_lim).mul (nu_lim.mul ((Real.continuous_cos.tendsto _).comp n))
  refine ⟨_, To_real (q := fun x => x * ((x - 1) * bX x * Real.sin (nuX x * (0 - h))))
    (w := fun x => (x - 1) * aX h x * nuX x + (x - 1) * bX x * (nuX x * Real.cos (nuX x * (0 - h))))
    (s := fun x => -55 * ((x - 1) * bX x * Real.sin (nuX x * (0 - h)))) (Eventually.of_forall fun x => ?_)
    (x_lim.mul p) (((a_lim h).mul nu_lim).add p') (p.const_mul (-55))⟩
  simp [sc, flow, wat]
  refine ⟨?_, ?_, ?_⟩ <;> ring

theorem grd_lim (h : ℝ) : ∃ a, To (𝓝[≠] (1:ℝ)) (fun x => sc ((x:ℂ) - ((1:ℝ):ℂ)) (grd x (saX x) (sbX x) (flo (nuX x) (aX h x) (bX x) h) 0)) a := by
  have W := flo_lim h
  have d1 : Tendsto (fun x => (x - 1) * am1 x (sbX x) (flo (nuX x) (aX h x) (bX x) h)) (𝓝[≠] 1)
      (𝓝 (2 * (resA h * Real.cos H) / (1 * (1 - (3/5)^2)))) := by
    refine ((W.const_mul 2).div (x_lim.mul ((sb_lim.pow 2).const_sub 1)) (by norm_num)).congr fun x => ?_
    simp only [am1, Pi.div_apply]; ring
  have d0 : Tendsto (fun x => (x - 1) * am0 x (saX x) (sbX x) (flo (nuX x) (aX h x) (bX x) h)) (𝓝[≠] 1)
      (𝓝 ((1 + (3/5)^2) * (2 * (resA h * Real.cos H) / (1 * (1 - (3/5)^2))) / (2 * (4/5)))) := by
    refine ((((sb_lim.pow 2).const_add 1).mul d1).div (sa_lim.const_mul 2) (by norm_num)).congr fun x => ?_
    simp only [am0, Pi.div_apply]; ring
  refine ⟨_, To_real (q := fun x => x * ((x - 1) * am0 x (saX x) (sbX x) (flo (nuX x) (aX h x) (bX x) h) -
      sbX x * ((x - 1) * am1 x (sbX x) (flo (nuX x) (aX h x) (bX x) h))))
    (w := fun x => (x - 1) * flo (nuX x) (aX h x) (bX x) h)
    (s := fun x => gg x (saX x) (sbX x) * ((x - 1) * flo (nuX x) (aX h x) (bX x) h)) ?_
    (x_lim.mul (d0.sub (sb_lim.mul d1))) W (gg_lim.mul W)⟩
  filter_upwards [near] with x hx
  obtain ⟨x0, _, _, a, a0, b, _, _⟩ := hx
  rw [grd_zero x0 a b a0]
  simp only [sc, mul_zero]
  refine MS.ext ?_ ?_ ?_ rfl <;> dsimp only <;> push_cast <;> ring

theorem one_simple : SimpleMode 2 (fun i => (one.I.lay i).liquid) one.M (fun _ => H) ((1:ℝ):ℂ) ((1:ℝ):ℂ) := by
  have k1 : one.k = 1 := rfl
  have c1 : one.c = 1 := rfl
  have D := one_ok.desc
  have key : ∀ y, RaylField 2 (fun i => (one.I.lay i).liquid) one.M (fun _ => H) ((1:ℝ):ℂ) ((1:ℝ):ℂ) y →
      ∃ a : ℂ, ∀ i, i < 2 → ∀ z, y i z = sc a (y1 i z) := by
    intro y hy
    have hy' : RaylField 2 (fun i => (one.I.lay i).liquid) one.M (fun _ => H) one.I.k (one.I.c * one.I.k) y := by
      simpa [I, k1, c1] using hy
    obtain ⟨u, d, W⟩ := rayl_waves (l := one.I.lay) (by decide) hy' D.k0 D.c0 (fun _ => rfl) D.fits D.lam D.xa0 D.xb0 D.ta D.tb
    have F0 := D.fits 0 (show 0 < 2 by decide)
    have F1 := D.fits 1 (show 1 < 2 by decide)
    have e0 := W.eq 0 (by decide)
    have e1 := W.eq 1 (by decide)
    have u1 : u 1 = 0 := W.up
    have W1 := one_waves
    have f0 : d 0 0 = - u 0 0 := by
      have := hy.free.1
      rw [e0, psvField_zero, psvState_liquid F0 (by simp [I]), one_M0] at this
      simp [I, k1, c1] at this
      linear_combination this
    have s0 : ∀ z, y 0 z = sc (-u 0 0) (y1 0 z) := by
      intro z
      have a : y1 0 = _ := W1.eq 0 (by decide)
      have b := congrFun (field_sc (-u 0 0) one.k (one.M 0) (one.I.lay 0) ![-1, 0] ![1, 0]) z
      rw [e0, a]
      simp only [if_true] at b ⊢
      rw [b]
      simp only [psvField]
      rw [psvState_liquid F0 (by simp [I]), psvState_liquid F0 (by simp [I])]
      simp [upAt, dnAt, f0, I]
    refine ⟨-u 0 0, fun i hi z => ?_⟩
    have : i = 0 ∨ i = 1 := by omega
    rcases this with rfl | rfl
    · exact s0 z
    · obtain ⟨cw, -, ct, -⟩ := hy.contact 0 (by decide)
      obtain ⟨bw, -, bt, -⟩ := one_ok.wave.contact 0 (by decide)
      change (y1 0 H).w = (y1 1 0).w at bw
      change (y1 0 H).t = (y1 1 0).t at bt
      have g1 : y1 1 = _ := W1.eq 1 (by decide)
      rw [s0, e1, u1] at cw ct
      simp only [sc] at cw ct
      rw [bw] at cw
      rw [bt] at ct
      rw [g1, psvField_zero, psvField_zero, psvState_solid F1 (by simp [I]), psvState_solid F1 (by simp [I]), one_M1] at cw ct
      simp [I, one] at cw ct
      have dd : d 1 = (-u 0 0) • ![Complex.I * (one.d0 : ℂ), Complex.I * (one.d1 : ℂ)] := by
        refine ext2 ?_ ?_
        · simp [one]; linear_combination (-85/32 : ℂ) * cw + (5/1024) * ct
        · simp [one]; linear_combination (-25/8 : ℂ) * cw + (1/256) * ct
      have b := congrFun (field_sc (-u 0 0) one.k (one.M 1) (one.I.lay 1) 0 ![Complex.I * (one.d0 : ℂ), Complex.I * (one.d1 : ℂ)]) z
      rw [e1, g1, u1, dd]
      simp only [one_ne_zero, if_false]
      rw [b, smul_zero]
      rfl
  intro y y' hy hy' ⟨j, hj, z, nz⟩
  obtain ⟨a, ha⟩ := key y hy
  obtain ⟨a', ha'⟩ := key y' hy'
  have a0 : a' ≠ 0 := by
    rintro rfl
    exact nz (by rw [ha' j hj]; simp [sc])
  refine ⟨a / a', fun i hi z => ?_⟩
  rw [ha i hi, ha' i hi]
  simp only [sc]
  refine MS.ext ?_ ?_ ?_ ?_ <;> dsimp only <;> field_simp

/-! ### C91 -/

theorem src_water : (open Classical in srcRow ((1:ℝ):ℂ) (one.I.lay 0) .EX) = .ok ⟨![2 / Complex.I, 0], ![2 / Complex.I, 0], 0, 0⟩ := by
  have e : one.I.lay 0 = ⟨true, 55, 0, Complex.I, 1, 2, 0⟩ := by simp [I, one]; norm_num
  rw [e]
  simp [srcRow]

theorem one_dom : 4 * egy1.2.1 - 2 * egy1.2.2.1 / ((1:ℝ):ℂ) ≠ 0 := by
  rw [ofReal_one, div_one]; exact one_egy.2

theorem one_out (zs zr r : ℝ) (ircv : ℕ) (hr : 0 < r) :
    ∃ out, modRayl one.I one.S (fun _ => H) 0 pot egy1.2.1 egy1.2.2.1 1 1 55 0 zs ircv zr .EX r = .ok out := by
  unfold modRayl
  rw [src_water]
  dsimp only
  rw [if_neg (by push Not; exact ⟨one_ne_zero, one_dom, by norm_num, one_ne_zero, by rw [one_mul]; exact hr.ne'⟩)]
  exact ⟨_, rfl⟩

/-- The hypotheses of `C91_pole` are met: an explosion in the water at depth `h`, the mode of wavenumber 1. -/
theorem ex91 (h r : ℝ) (hh : 0 ≤ h) (hr : 0 < r) :
    ∃ out res : _, modRayl one.I one.S (fun _ => H) 0 pot egy1.2.1 egy1.2.2.1 1 1 55 0 h 0 0 .EX r = .ok out ∧
      res = 220 * (Real.sin (H - h) - Real.cos (H - h)) / (Real.cos H * (-41735/48 - 110 * H)) ∧
      out.1.u = poleZ 0 55 1 1 r (res : ℝ) ∧ out.2.u = poleR 0 55 1 1 r 0 := by
  obtain ⟨out, ho⟩ := one_out h 0 r 0 hr
  have F : ∀ᶠ x : ℝ in 𝓝[≠] (1:ℝ), ForcedPSV 2 (fun i => (one.I.lay i).liquid) one.M (fun _ => H) (x:ℂ) ((1:ℝ):ℂ) 0 h
      (jump (x:ℂ) (((1:ℝ):ℂ)^2) (one.M 0) (srcForce (x:ℂ) (2 * (one.M 0).rho * ((1:ℝ):ℂ)^2) .EX))
      (fup x (nuX x) (saX x) (sbX x) (aX h x) (bX x) h) (flow x (nuX x) (saX x) (sbX x) (aX h x) (bX x) h) := by
    filter_upwards [near] with x hx
    obtain ⟨x0, n, n0, a, a0, b, b0, s0⟩ := hx
    rw [jump_EX, ofReal_one]
    refine forced x0 n a b a0 b0 ?_ ?_
    · unfold bX; field_simp
    · have : aX h x * secX x = - (bX x * numX h x) := by unfold aX; field_simp
      unfold secX numX at this
      unfold flo
      linear_combination this
  have C := C91_pole (dep := dep) one_ok.desc (iref := 0) (show 1 < 2 by decide) sound one_ok.sec (fun q => by simp [mixed] at q)
    (k := 1) (omega := 1) (rho := 55) (by simp [I, one]) (by simp [I, one]) one_simple one_lm (fun i _ => one_lam i) dep_succ (fun i _ => H_pos)
    (1/10) (by norm_num) (fun i _ => H_fine) 8 (by decide) (isrc := 0) (zs := h) (show 0 < 2 by decide) hh (by rw [one_M0]; norm_num)
    (ircv := 0) (zr := 0) (show 0 < 2 by decide) (t := .EX) (fun _ => rfl) (r := r) (F := 𝓝[≠] (1:ℝ)) (kk := fun x : ℝ => (x:ℂ))
    ((continuous_ofReal.tendsto _).mono_left nhdsWithin_le_nhds) (up := fun x => fup x (nuX x) (saX x) (sbX x) (aX h x) (bX x) h)
    (low := fun x => flow x (nuX x) (saX x) (sbX x) (aX h x) (bX x) h) F
    (fun y hy i hi => by
      have : i = 0 ∨ i = 1 := two hi
      rcases this with rfl | rfl
      · rcases hy with rfl | rfl
        · exact ⟨_, up_lim h⟩
        · exact low_lim h
      · have : ∀ x, y x 1 0 = grd x (saX x) (sbX x) (flo (nuX x) (aX h x) (bX x) h) 0 := by
          intro x; rcases hy with rfl | rfl <;> simp [fup, flow]
        simp only [this]
        exact grd_lim h)
    (out := out) ho
  obtain ⟨res, h1, h2, h3⟩ := C
  obtain ⟨a, b, -, -⟩ := h1 _ (Or.inl rfl)
  obtain ⟨a', b', -, -⟩ := up_lim h
  have ea := tendsto_nhds_unique a a'
  have eb := tendsto_nhds_unique b b'
  refine ⟨out, resA h, ho, rfl, ?_, ?_⟩
  · rw [h2, eb]; rfl
  · rw [h3, ea]; rfl

/-- The residue does not vanish for a source below the surface of the water. -/
example (h : ℝ) (h0 : 0 < h) (h1 : h < H) : 220 * (Real.sin (H - h) - Real.cos (H - h)) / (Real.cos H * (-41735/48 - 110 * H)) ≠ 0 := by
  refine div_ne_zero (mul_ne_zero (by norm_num) ?_) slope_neg.ne
  rw [Real.sin_sub, Real.cos_sub, sin_H]
  have c : 0 < Real.cos H := by unfold H; rw [Real.cos_pi_div_four]; positivity
  have s : 0 < Real.sin h := Real.sin_pos_of_pos_of_lt_pi h0 (by unfold H at h1; linarith [Real.pi_pos])
  nlinarith [mul_pos c s]

/-! ### C92 -/

theorem ekr_ne {k r : ℝ} (hk : 0 < k) (hr : 0 < r) : ekr k r ≠ 0 := by
  unfold ekr
  refine mul_ne_zero ?_ (Complex.exp_ne_zero _)
  have : 0 < √(2 / (Real.pi * k * r)) := by have := Real.pi_pos; positivity
  exact_mod_cast this.ne'

/-- C92 is violated at receivers in a liquid: the depth derivative written there is zero, that of the displacement is not.  Here an explosion
in the water, the receiver in the water too. -/
theorem C92_liquid_violated : ∃ (o : ℝ → Spec3 × Spec3) (d : ℂ), (∀ z, modRayl one.I one.S (fun _ => H) 0 pot egy1.2.1 egy1.2.2.1 1 1 55 0 (H/2) 0 z .EX 1 = .ok (o z)) ∧
    (o (H/2)).1.uz = 0 ∧ HasDerivAt (fun z => (o z).1.u) d (H/2) ∧ d ≠ 0 := by
  choose o ho using fun z => one_out (H/2) z 1 0 one_pos
  have hs : 0 < Real.sin (H/2) := Real.sin_pos_of_pos_of_lt_pi (by have := H_pos; linarith) (by unfold H; linarith [Real.pi_pos])
  have w : ∀ z, raylOut one.I one.S (fun _ => H) 0 pot 0 z = ⟨Complex.I * (-2 * Real.sin z : ℝ), Complex.I * (-2 * Real.cos z : ℝ),
      Complex.I * (110 * Real.sin z : ℝ), 0⟩ := by
    intro z
    rw [one_ok.water]
    simp [one]
    norm_num
  set A := ampR one.I one.S (fun _ => H) 0 pot egy1.2.1 egy1.2.2.1 1 1 55 0 (H/2) .EX ⟨![2 / Complex.I, 0], ![2 / Complex.I, 0], 0, 0⟩ with hA
  have A0 : A ≠ 0 := by
    have e : one.I.lay 0 = ⟨true, 55, 0, Complex.I, 1, 2, 0⟩ := by simp [I, one]; norm_num
    rw [hA]
    unfold ampR
    dsimp only
    rw [w, e]
    have : (Real.sin (H/2) : ℂ) ≠ 0 := by exact_mod_cast hs.ne'
    refine mul_ne_zero (div_ne_zero (mul_ne_zero ?_ ?_) one_dom) ?_
    · simp [srcOrder, iPow]
    · simp only [fcoefR, Matrix.cons_val_zero, Matrix.cons_val_one, Matrix.cons_val]
      push_cast
      have i0 := Complex.I_ne_zero
      field_simp
      push_cast at this; simpa using this
    · norm_num
  have f := fun z => (modRayl_same src_water (ho z)).1
  refine ⟨o, A * (Complex.I * (2 * Real.sin (H/2) : ℝ)) * ekr 1 1, ho, ?_, ?_, ?_⟩
  · obtain ⟨R, -, e⟩ := modRayl_ok (ho (H/2))
    rw [e]
    simp [raylOutZ, I]
  · rw [funext f]
    simp only [w]
    have d : HasDerivAt (fun z : ℝ => ((-2 * Real.cos z : ℝ) : ℂ)) ((2 * Real.sin (H/2) : ℝ) : ℂ) (H/2) :=
      HasDerivAt.ofReal_comp (((Real.hasDerivAt_cos (H/2)).const_mul (-2)).congr_deriv (by ring))
    exact ((d.const_mul Complex.I).const_mul A).mul_const _
  · refine mul_ne_zero (mul_ne_zero A0 (mul_ne_zero Complex.I_ne_zero ?_)) (ekr_ne one_pos one_pos)
    exact_mod_cast (by positivity : (2 * Real.sin (H/2)) ≠ 0)

/-- The hypotheses of `C92_depth_partial` are met by a receiver in the ground. -/
example (z : ℝ) : ∃ o : ℝ → Spec3 × Spec3, HasDerivAt (fun z => (o z).1.u) (o z).1.uz z ∧
    ∀ z, modRayl one.I one.S (fun _ => H) 0 pot egy1.2.1 egy1.2.2.1 1 1 55 0 (H/2) 1 z .EX 1 = .ok (o z) := by
  choose o ho using fun z => one_out (H/2) z 1 1 one_pos
  exact ⟨o, (C92_depth_partial (by simp [I]) ho z).1, ho⟩

/-- The hypotheses of `C93_surface` are met: a dip-slip source on the ground of RaylEx.lean, where the mode moves. -/
example (dep : ℕ → ℝ) : ∃ p o, raylSecular (exSolI exHS) exSolS (parC false false) 0 = .ok ⟨0, some p⟩ ∧
    modRayl (exSolI exHS) exSolS (fun _ => exHS) 0 p 1 0 1 1 1 0 0 1 0 .DS 1 = .ok o ∧
    modsumRayl (exSolI exHS) exSolS (fun _ => exHS) dep 0 p 1 0 1 1 1 0 0 1 0 .DS 1 = .ok o := by
  have h := exSol_sec exHS
  rw [if_neg exHS_ne, exHS_eq, sub_self, mul_zero] at h
  have hR : ∃ R, (open Classical in srcRow ((1:ℝ):ℂ) ((exSolI exHS).lay 0) .DS) = .ok R := by
    simp [srcRow, exSolI]
  obtain ⟨R, hR⟩ := hR
  have ho : ∀ p, ∃ o, modRayl (exSolI exHS) exSolS (fun _ => exHS) 0 p 1 0 1 1 1 0 0 1 0 .DS 1 = .ok o := by
    intro p
    unfold modRayl
    rw [hR]
    dsimp only
    rw [if_neg (by push Not; norm_num)]
    exact ⟨_, rfl⟩
  generalize hp : ((_ : Amp4 ℂ), (Amp4.zero : Amp4 ℂ)) = p at h
  obtain ⟨o, ho⟩ := ho p
  exact ⟨_, o, h, ho, C93_surface (exSol_describes exHS) (iref := 0) (by decide) (exSol_sound _) h (fun h => by simp [mixed] at h) ho⟩

end GRT.Modal.Oc
