import Verif.Okada.World

/-! Properties of the Okada program (C102-C104). -/

namespace GRT.Okada

open Spec GRT.Syn GRT.StaticSyn

/-! ### Specification -/

/-- The kind of source the options ask for, as in the synthesis from Green's functions. -/
def Geom.kind : Geom → SynType
  | .none => .EX
  | .tensile _ _ => .TS
  | .shear _ _ _ => .DC

/-- Its angles. -/
def Geom.angles : Geom → Fin 6 → ℝ
  | .none => 0
  | .tensile s d => ![s, d, 0, 0, 0, 0]
  | .shear s d r => ![s, d, r, 0, 0, 0]

/-- Lamé's parameters in dyn/cm² from velocities in km/s and a density in g/cm³. -/
noncomputable def lameMu (vs rho : ℝ) : ℝ := rho * vs ^ 2 * 1e10
noncomputable def lameLam (vp vs rho : ℝ) : ℝ := rho * (vp ^ 2 - 2 * vs ^ 2) * 1e10

/-- The moment tensor asked for: a moment, or with `u` a potency. -/
noncomputable def asked (vp vs rho : ℝ) (geom : Geom) (mult : Bool) (value : ℝ) : Ten := fun i j =>
  (if mult then lameMu vs rho * value else value) * tensorOf geom.kind (vp / vs) geom.angles i j

/-! ### Point sources -/

/-- The factor by which the program is off for cracks. -/
noncomputable def Geom.excess (lam mu : ℝ) : Geom → ℝ
  | .tensile _ _ => mu / lam
  | _ => 1

theorem med_lame (vp vs rho : ℝ) : (medPar vp vs rho).mu = lameMu vs rho ∧ (medPar vp vs rho).lambda = lameLam vp vs rho := by
  unfold medPar lameMu lameLam
  constructor <;> dsimp only <;> ring

theorem rake_tensor (lam mu strike dip rake a : ℝ) :
    planeTensor lam mu strike dip (a * Real.cos (rake * deg1)) (a * Real.sin (rake * deg1)) 0 0 = fun i j =>
      mu * a * tensorOf .DC 0 ![strike, dip, rake, 0, 0, 0] i j := by
  funext i j
  fin_cases i <;> fin_cases j <;> simp [planeTensor, tensorOf, slip, normal] <;> ring

/-- The source the program computes is the one asked for, for cracks times `mu / lambda`. -/
theorem pot_tensor {vp vs rho : ℝ} (hs : 0 < vs) (hr : 0 < rho) (geom : Geom) (mult : Bool) (value : ℝ)
    (hg : ∀ s d, geom = .tensile s d → lameLam vp vs rho ≠ 0) :
    ∃ pot, potencies (medPar vp vs rho) geom mult value = some pot ∧
      planeTensor (lameLam vp vs rho) (lameMu vs rho) geom.strike geom.dip (pot 0) (pot 1) (pot 2) (pot 3) = fun i j =>
        geom.excess (lameLam vp vs rho) (lameMu vs rho) * asked vp vs rho geom mult value i j := by
  have hm : 0 < lameMu vs rho := by unfold lameMu; positivity
  have hl : lameLam vp vs rho = lameMu vs rho * ((vp / vs) ^ 2 - 2) := by
    unfold lameLam lameMu
    field_simp
  unfold potencies
  rw [(med_lame vp vs rho).1, (med_lame vp vs rho).2, if_neg (fun h => hm.ne' h.2)]
  have sc : lameMu vs rho * (if mult then value else value / lameMu vs rho) = if mult then lameMu vs rho * value else value := by
    cases mult
    · simp only [Bool.false_eq_true, if_false]
      field_simp
    · simp
  cases geom with
  | none =>
    refine ⟨_, rfl, ?_⟩
    funext i j
    simp only [planeTensor, asked, Geom.kind, Geom.excess, tensorOf, ← sc]
    simp
  | shear s d r =>
    refine ⟨_, rfl, ?_⟩
    have := rake_tensor (lameLam vp vs rho) (lameMu vs rho) s d r (if mult then value else value / lameMu vs rho)
    simp only [Geom.strike, Geom.dip]
    refine this.trans ?_
    funext i j
    simp only [asked, Geom.kind, Geom.angles, Geom.excess, tensorOf, ← sc]
    ring
  | tensile s d =>
    have l0 := hg s d rfl
    dsimp only
    rw [if_neg l0]
    refine ⟨_, rfl, ?_⟩
    have sc' : (if mult then value * lameMu vs rho / lameLam vp vs rho else value / lameLam vp vs rho) =
        (if mult then lameMu vs rho * value else value) / lameLam vp vs rho := by
      cases mult <;> simp [mul_comm]
    funext i j
    simp only [planeTensor, asked, Geom.kind, Geom.angles, Geom.excess, Geom.strike, Geom.dip, tensorOf, sc']
    generalize (if mult then lameMu vs rho * value else value) = m0
    have m0' := hm.ne'
    have q : (vp / vs) ^ 2 - 2 = lameLam vp vs rho / lameMu vs rho := by rw [hl]; field_simp
    rw [q]
    simp only [Matrix.cons_val_zero, Matrix.cons_val_one, Matrix.cons_val]
    generalize (if i = j then (1 : ℝ) else 0) = δ
    field_simp
    ring

/-- What the program reports for a point source: the response to the source asked for, for cracks times `mu / lambda`. -/
theorem point_main {vp vs rho : ℝ} (hs : 0 < vs) (hp : vs < vp) (hr : 0 < rho) (geom : Geom) (hdip : Plain (cosDip geom.dip))
    (mult : Bool) (value : ℝ) (hg : ∀ s d, geom = .tensile s d → lameLam vp vs rho ≠ 0) {depsrc : ℝ} (hd : 1 / 1000000 ≤ depsrc) :
    ∃ (U : V3 → V3) (G : V3 → Fin 3 → V3),
      IsHalfSpace (lameLam vp vs rho) (lameMu vs rho) (upward fun i j =>
        geom.excess (lameLam vp vs rho) (lameMu vs rho) * asked vp vs rho geom mult value i j)
        (1e5 * depsrc) U G ∧
      ∀ north east depth, 0 ≤ depth → Plain (depsrc - depth) →
        ∃ n' e' f, pointZne (medPar vp vs rho) geom mult value depsrc north east depth = some f ∧ Reports f U G (inCm n' e' depth) ∧
          |n' - north| < 11 / 100000 ∧ |e' - east| < 11 / 100000 ∧
          ((depsrc = depth → 2 / 1000000 ≤ |north| ∨ 2 / 1000000 ≤ |east|) → |n' - north| < 2 / 1000000 ∧ |e' - east| < 2 / 1000000 ∧
            (Plain (toLocal geom.strike north east).1 → Plain (toLocal geom.strike north east).2 → n' = north ∧ e' = east)) := by
  obtain ⟨pot, hpot, htens⟩ := pot_tensor hs hr geom mult value hg
  obtain ⟨a1, a2, a3⟩ := medPar_alpha hs hp hr
  obtain ⟨m1, m2⟩ := med_lame vp vs rho
  rw [m1] at a1
  rw [m1, m2] at a2 a3
  obtain ⟨U, G, hh, h⟩ := point_world a1 a2 geom.strike hdip hd (pot 0) (pot 1) (pot 2) (pot 3)
  rw [htens] at hh
  refine ⟨U, G, hh, fun north east depth h0 hpl => ?_⟩
  have ha : (lameLam vp vs rho + lameMu vs rho) / (lameLam vp vs rho + 2 * lameMu vs rho) ≠ 0 := div_ne_zero a2.ne' (by linarith)
  have back := toLocal_back geom.strike north east
  generalize hx : (toLocal geom.strike north east).1 = x at *
  generalize hy : (toLocal geom.strike north east).2 = y at *
  have split : ∀ x' y' : ℝ, (toLocal geom.strike x' y').1 - north = (toLocal geom.strike (x' - x) (y' - y)).1 ∧
      (toLocal geom.strike x' y').2 - east = (toLocal geom.strike (x' - x) (y' - y)).2 := by
    intro x' y'
    have b1 : (toLocal geom.strike x y).1 = north := by rw [back]
    have b2 : (toLocal geom.strike x y).2 = east := by rw [back]
    constructor
    · rw [← b1]
      unfold toLocal
      ring
    · rw [← b2]
      unfold toLocal
      ring
  by_cases hn : |x| < 1 / 1000000 ∧ |y| < 1 / 1000000 ∧ depsrc = depth
  · obtain ⟨n1, n2, n3⟩ := hn
    have n1' := abs_lt.1 n1
    have big : ¬|x + 1e-4| < 1 / 1000000 := by
      rw [abs_of_pos (by norm_num; linarith [n1'.1])]
      norm_num
      linarith [n1'.1]
    obtain ⟨x', y', out, e1, e2, e3, e4, e5, e6⟩ := h (x + 1e-4) y depth h0 hpl (fun q => big q.1)
    obtain ⟨code, o, c1, c2, c3, c4, c5⟩ := C97_codes (x := x) (y := y) (z := -depth) ha (by linarith : (0 : ℝ) ≤ depsrc) geom.dip (pot 0) (pot 1) (pot 2) (pot 3)
    have hc : code = 1 := c3.2 ⟨by linarith, n1, n2, by rw [n3]; norm_num⟩
    refine ⟨_, _, _, ?_, e6, ?_, ?_, fun q => ?_⟩
    · unfold pointZne
      rw [hpot, a3]
      simp only [hx, hy, Option.bind_some]
      rw [c1, Option.bind_some, if_pos (by rw [hc]; norm_num), e5]
      rfl
    · rw [(split x' y').1]
      have := (toLocal_close geom.strike (a := x' - (x + 1e-4)) (b := y' - y) e1 e2).1
      have q : (toLocal geom.strike (x' - x) (y' - y)).1 = (toLocal geom.strike (x' - (x + 1e-4)) (y' - y)).1 + 1e-4 * Real.cos (geom.strike * deg1) := by
        unfold toLocal
        ring
      rw [q]
      refine (abs_add_le _ _).trans_lt ?_
      have k : |(1e-4 : ℝ) * Real.cos (geom.strike * deg1)| ≤ 1e-4 := by
        rw [abs_mul, abs_of_pos (by norm_num : (0 : ℝ) < 1e-4)]
        exact mul_le_of_le_one_right (by norm_num) (Real.abs_cos_le_one _)
      norm_num at k this ⊢
      linarith
    · rw [(split x' y').2]
      have := (toLocal_close geom.strike (a := x' - (x + 1e-4)) (b := y' - y) e1 e2).2
      have q : (toLocal geom.strike (x' - x) (y' - y)).2 = (toLocal geom.strike (x' - (x + 1e-4)) (y' - y)).2 + 1e-4 * Real.sin (geom.strike * deg1) := by
        unfold toLocal
        ring
      rw [q]
      refine (abs_add_le _ _).trans_lt ?_
      have k : |(1e-4 : ℝ) * Real.sin (geom.strike * deg1)| ≤ 1e-4 := by
        rw [abs_mul, abs_of_pos (by norm_num : (0 : ℝ) < 1e-4)]
        exact mul_le_of_le_one_right (by norm_num) (Real.abs_sin_le_one _)
      norm_num at k this ⊢
      linarith
    · exfalso
      have := toLocal_close geom.strike n1 n2
      rw [back] at this
      rcases q n3 with q | q
      · linarith [this.1]
      · linarith [this.2]
  · obtain ⟨x', y', out, e1, e2, e3, e4, e5, e6⟩ := h x y depth h0 hpl hn
    have cl := toLocal_close geom.strike e1 e2
    rw [← (split x' y').1, ← (split x' y').2] at cl
    refine ⟨_, _, _, ?_, e6, by linarith [cl.1], by linarith [cl.2], fun _ => ⟨by linarith [cl.1], by linarith [cl.2], fun p1 p2 => ?_⟩⟩
    · unfold pointZne
      rw [hpot, a3]
      simp only [hx, hy, Option.bind_some]
      rw [e5, Option.bind_some, if_neg (by norm_num)]
      rfl
    · rw [e3 p1, e4 p2, back]
      exact ⟨rfl, rfl⟩

/-- **C102.** A point source of an explosion or of a double couple, or of a crack where `lambda = mu`, is computed for the moment tensor
that the same options mean in the synthesis from Green's functions, in cm and without unit, in Z, N, E; at positions at most 2 mm away,
and 11 cm away for receivers at the source itself. -/
theorem C102_source_partial {vp vs rho : ℝ} (hs : 0 < vs) (hp : vs < vp) (hr : 0 < rho) (geom : Geom) (hdip : Plain (cosDip geom.dip))
    (mult : Bool) (value : ℝ) (hg : ∀ s d, geom = .tensile s d → lameLam vp vs rho = lameMu vs rho) {depsrc : ℝ}
    (hd : 1 / 1000000 ≤ depsrc) :
    ∃ (U : V3 → V3) (G : V3 → Fin 3 → V3),
      IsHalfSpace (lameLam vp vs rho) (lameMu vs rho) (upward (asked vp vs rho geom mult value)) (1e5 * depsrc) U G ∧
      ∀ north east depth, 0 ≤ depth → Plain (depsrc - depth) →
        ∃ n' e' f, pointZne (medPar vp vs rho) geom mult value depsrc north east depth = some f ∧ Reports f U G (inCm n' e' depth) ∧
          |n' - north| < 11 / 100000 ∧ |e' - east| < 11 / 100000 ∧
          ((depsrc = depth → 2 / 1000000 ≤ |north| ∨ 2 / 1000000 ≤ |east|) → |n' - north| < 2 / 1000000 ∧ |e' - east| < 2 / 1000000 ∧
            (Plain (toLocal geom.strike north east).1 → Plain (toLocal geom.strike north east).2 → n' = north ∧ e' = east)) := by
  have hm : 0 < lameMu vs rho := by unfold lameMu; positivity
  have e : geom.excess (lameLam vp vs rho) (lameMu vs rho) = 1 := by
    cases geom with
    | tensile s d =>
      show lameMu vs rho / lameLam vp vs rho = 1
      rw [hg s d rfl, div_self hm.ne']
    | _ => rfl
  have := point_main hs hp hr geom hdip mult value (fun s d h => by rw [hg s d h]; exact hm.ne') hd
  simpa only [e, one_mul] using this

/-- **C102 fails for cracks.** They are computed with the moment tensor asked for times `mu / lambda`. -/
theorem C102_violated {vp vs rho : ℝ} (hs : 0 < vs) (hp : vs < vp) (hr : 0 < rho) (strike : ℝ) {dip : ℝ} (hdip : Plain (cosDip dip))
    (mult : Bool) (value : ℝ) (hl : lameLam vp vs rho ≠ 0) {depsrc : ℝ} (hd : 1 / 1000000 ≤ depsrc) :
    ∃ (U : V3 → V3) (G : V3 → Fin 3 → V3),
      IsHalfSpace (lameLam vp vs rho) (lameMu vs rho) (upward fun i j =>
        lameMu vs rho / lameLam vp vs rho * asked vp vs rho (.tensile strike dip) mult value i j) (1e5 * depsrc) U G ∧
      ∀ north east depth, 0 ≤ depth → Plain (depsrc - depth) → (depsrc = depth → 2 / 1000000 ≤ |north| ∨ 2 / 1000000 ≤ |east|) →
        ∃ n' e' f, pointZne (medPar vp vs rho) (.tensile strike dip) mult value depsrc north east depth = some f ∧
          Reports f U G (inCm n' e' depth) ∧ |n' - north| < 2 / 1000000 ∧ |e' - east| < 2 / 1000000 := by
  obtain ⟨U, G, hh, h⟩ := point_main hs hp hr (.tensile strike dip) hdip mult value (fun _ _ _ => hl) hd
  refine ⟨U, G, hh, fun north east depth h0 hpl hn => ?_⟩
  obtain ⟨n', e', f, h1, h2, -, -, h3⟩ := h north east depth h0 hpl
  exact ⟨n', e', f, h1, h2, (h3 hn).1, (h3 hn).2.1⟩

theorem sin90 : Real.sin (90 * deg1) = 1 := by
  rw [show (90 * deg1 : ℝ) = Real.pi / 2 by unfold deg1; ring, Real.sin_pi_div_two]

theorem cos90 : Real.cos (90 * deg1) = 0 := by
  rw [show (90 * deg1 : ℝ) = Real.pi / 2 by unfold deg1; ring, Real.cos_pi_div_two]

/-- A vertical crack 3 deep seen from the surface 4 away: the uplift. -/
theorem crack_uplift {p : ℝ} (hp : p ≠ 0) : ∃ o, dc3d0 (3 / 4) 0 4 0 3 90 0 0 p 0 = some (0, o) ∧ o.u2 = p / (2 * Real.pi) * (2831 / 75000) := by
  have s1 : dipSC 90 = (1, 0) := by
    rw [dipSC_plain (Or.inl (by rw [cosDip_eq, cos90])), cosDip_eq, sinDip_eq, sin90, cos90]
  have q1 : snap 0 = 0 := snap_plain (Or.inl rfl)
  have q2 : snap 4 = 4 := snap_plain (Or.inr (by norm_num))
  have q3 : snap 3 = 3 := snap_plain (Or.inr (by norm_num))
  have r : √(25 : ℝ) = 5 := by
    rw [show (25 : ℝ) = 5 ^ 2 by norm_num, Real.sqrt_sq (by norm_num)]
  unfold dc3d0 dccon0 dccon1
  rw [s1, if_neg (by norm_num)]
  norm_num [q1, q2, q3, ptOf, r, medOf]
  simp [dc3d0Sum, UA0, UB0, UC0, hp, D12.addScaled, D12.zero, UB0_3]
  norm_num

/-- A point fault of Kode 500 on the vertical plane below the origin, 3 km deep, that opens by 1 m³. -/
noncomputable def crackFault : Fault := ⟨0, -1, 0, 1, .pointTensileInflate, 0, 0, 1, 0, 90, 2, 4, 0, 0, 0⟩

/-- **C102 fails for cracks**: the program disagrees with itself.  A crack of 1 m³ given as `-Su1e6` and as a line of Kode 500 lifts the
surface by amounts that differ by a factor of two where `lambda = 2 mu`. -/
theorem C102_violated_self : ∃ a b, pointZne (medPar 2 1 1) (.tensile 0 90) true 1e6 3 0 (-4) 0 = some a ∧
    faultZne (medPar 2 1 1) crackFault 0 (-4) 0 = some (0, b) ∧ a.1 0 = b.1 0 / 2 ∧ a.1 0 ≠ b.1 0 := by
  have al : (medPar 2 1 1).alpha = 3 / 4 := by norm_num [medPar]
  obtain ⟨o1, h1, e1⟩ := crack_uplift (p := 500000) (by norm_num)
  obtain ⟨o2, h2, e2⟩ := crack_uplift (p := 1000000) (by norm_num)
  refine ⟨localToZne 0 (pointUnits o1), localToZne 0 (pointUnits o2), ?_, ?_, ?_⟩
  · have hp : potencies (medPar 2 1 1) (.tensile 0 90) true 1e6 = some ![0, 0, 500000, 0] := by
      unfold potencies
      norm_num [medPar]
    unfold pointZne
    rw [hp]
    simp [toLocal, Geom.strike, Geom.dip, al, h1]
  · unfold faultZne
    have h9 : Real.sin (90 * deg1) ≠ 0 := by rw [sin90]; norm_num
    simp only [crackFault, Kode.isPoint, faultPot, if_neg h9, if_true]
    norm_num [toLocal, cos90, sin90, al]
    exact ⟨0, o2, h2, rfl, rfl⟩
  · have z : ∀ o : D12, (localToZne 0 (pointUnits o)).1 0 = o.u2 * 1e-10 := by
      intro o
      simp [localToZne, axes, pointUnits, D12.disp]
    rw [z, z, e1, e2]
    have := Real.pi_pos
    constructor
    · ring
    · intro h
      field_simp at h
      norm_num at h

/-! ### Faults of a Coulomb file -/

/-- The moment tensor of the motion of a fault in world axes, per area in km² for rectangles. -/
theorem fault_tensor {f0 f1 : Fault} {rf : Bool} {v1 v2 : ℝ}
    (hclear : f0.rightLateral = 0 ∧ f0.reverse = 0 ∧ f0.tensile = 0 ∧ f0.inflate = 0)
    (hgeo : GeometryOk f0) (hread : setComponents f0 rf v1 v2 = some f1) (lam mu k : ℝ) :
    planeTensor lam mu (setDerived f1).strike f0.dip (-k * f1.rightLateral) (k * f1.reverse) (k * f1.tensile) (k * f1.inflate) = fun i j =>
      k * dislocation lam mu ((Motion.ofColumns f0.kode rf v1 v2).jump f0) (StaticSyn.nrm f0) (Motion.ofColumns f0.kode rf v1 v2).infl i j := by
  obtain ⟨g1, g2, g3, g4, g5, g6⟩ := setComponents_geo hread
  have hfr : 0 < hyp (f1.eastEnd - f1.eastBegin) (f1.northEnd - f1.northBegin) := by rw [g1, g2, g3, g4]; exact hgeo.1
  obtain ⟨hslip, hnorm⟩ := frame_trace f1 hfr
  have hal : along f1 = along f0 := by unfold along; rw [g1, g2, g3, g4]
  have hup : StaticSyn.upDip f1 = StaticSyn.upDip f0 := by unfold StaticSyn.upDip; rw [hal, g6]
  have hnr : StaticSyn.nrm f1 = StaticSyn.nrm f0 := by unfold StaticSyn.nrm; rw [hal, g6]
  have hdp : (setDerived f1).dip = f0.dip := (setDerived_geo f1).2.2.2.2.2.1.trans g6
  rw [hal, hup, hdp] at hslip
  rw [hnr, hdp] at hnorm
  obtain ⟨o1, o2, o3⟩ := nrm_orth f0 hgeo.1
  obtain ⟨c1, c2, c3, c4⟩ := hclear
  have hmot : Motion.ofColumns f0.kode rf v1 v2 = ⟨f1.rightLateral, f1.reverse, f1.tensile, f1.inflate⟩ := by
    unfold setComponents at hread
    split at hread
    · cases hread
    · simp only [Motion.ofColumns]
      split at hread <;> rename_i hk
      · injection hread with hread; subst hread; cases rf <;> simp [hk, c1, c2, c3, c4]
      all_goals injection hread with hread; subst hread; simp [hk, c1, c2, c3, c4]
  have hd : dot ((⟨f1.rightLateral, f1.reverse, f1.tensile, f1.inflate⟩ : Motion).jump f0) (StaticSyn.nrm f0) = f1.tensile := by
    have : dot ((⟨f1.rightLateral, f1.reverse, f1.tensile, f1.inflate⟩ : Motion).jump f0) (StaticSyn.nrm f0) =
        - f1.rightLateral * dot (along f0) (StaticSyn.nrm f0) + f1.reverse * dot (StaticSyn.upDip f0) (StaticSyn.nrm f0) + f1.tensile * dot (StaticSyn.nrm f0) (StaticSyn.nrm f0) := by
      simp only [dot, Motion.jump]; ring
    rw [this, o1, o2, o3]; ring
  funext i j
  simp only [planeTensor, dislocation, hmot, hslip, hnorm, hd, Real.cos_zero, Real.sin_zero, Real.cos_pi_div_two, Real.sin_pi_div_two,
    Motion.jump]
  ring

/-- Length of the trace and width of the plane in km. -/
noncomputable def lenOf (f : Fault) : ℝ := hyp (f.eastEnd - f.eastBegin) (f.northEnd - f.northBegin)
noncomputable def widOf (f : Fault) : ℝ := (f.bot - f.top) / Real.sin (deg1 * f.dip)

/-- Distance of a receiver along the trace, from its first end, and horizontally to the left of it. -/
noncomputable def alongOf (f : Fault) (north east : ℝ) : ℝ := (north - f.northBegin) * along f 0 + (east - f.eastBegin) * along f 1
noncomputable def leftOf (f : Fault) (north east : ℝ) : ℝ := (north - f.northBegin) * along f 1 - (east - f.eastBegin) * along f 0

/-- The receiver is off the plane of the fault and of its image, and not closer than 1 mm to the planes through the edges unless
exactly on them. -/
structure OffPlanes (f : Fault) (north east depth : ℝ) : Prop where
  begin : Plain (alongOf f north east)
  stop : Plain (alongOf f north east - lenOf f)
  upper : ∀ d, (d = f.top - depth ∨ d = f.top + depth) → Plain (leftOf f north east * cosDip f.dip + d * sinDip f.dip)
  lower : ∀ d, (d = f.top - depth ∨ d = f.top + depth) → Plain (leftOf f north east * cosDip f.dip + d * sinDip f.dip + widOf f)
  off : ∀ d, (d = f.top - depth ∨ d = f.top + depth) → 1 / 1000000 ≤ |leftOf f north east * sinDip f.dip - d * cosDip f.dip|

theorem local_trace (f0 f1 : Fault) (h : 0 < lenOf f0) (he : f1.eastBegin = f0.eastBegin ∧ f1.northBegin = f0.northBegin ∧
    f1.eastEnd = f0.eastEnd ∧ f1.northEnd = f0.northEnd) :
    Real.cos ((setDerived f1).strike * deg1) = along f0 0 ∧ Real.sin ((setDerived f1).strike * deg1) = along f0 1 := by
  obtain ⟨a, b, c, d⟩ := he
  have e : hyp (f1.eastEnd - f1.eastBegin) (f1.northEnd - f1.northBegin) = lenOf f0 := by rw [a, b, c, d]; rfl
  have := strike_dir f1 (by rw [e]; exact h)
  rw [mul_comm _ deg1, this.1, this.2, e, a, b, c, d]
  exact ⟨rfl, rfl⟩

theorem along_len (f : Fault) (h : 0 < lenOf f) : f.northEnd - f.northBegin = lenOf f * along f 0 ∧ f.eastEnd - f.eastBegin = lenOf f * along f 1 ∧
    along f 0 * along f 0 + along f 1 * along f 1 = 1 := by
  have h0 : hyp (f.eastEnd - f.eastBegin) (f.northEnd - f.northBegin) ≠ 0 := h.ne'
  have e0 : along f 0 = (f.northEnd - f.northBegin) / lenOf f := rfl
  have e1 : along f 1 = (f.eastEnd - f.eastBegin) / lenOf f := rfl
  have t := local_trace f f h ⟨rfl, rfl, rfl, rfl⟩
  refine ⟨?_, ?_, ?_⟩
  · rw [e0]; field_simp
  · rw [e1]; field_simp
  · rw [← t.1, ← t.2]; exact cs_one _

theorem geo_sin {f : Fault} (h : GeometryOk f) : 0 < sinDip f.dip ∧ sinDip f.dip = Real.sin (deg1 * f.dip) ∧ cosDip f.dip = Real.cos (deg1 * f.dip) := by
  have e : sinDip f.dip = Real.sin (deg1 * f.dip) := by rw [sinDip_eq, mul_comm]
  refine ⟨?_, e, by rw [cosDip_eq, mul_comm]⟩
  have := (subdiv_ok f 1 1 one_pos one_pos h).1
  rw [← e] at this
  by_contra hc
  have := div_nonpos_of_nonneg_of_nonpos (by linarith [h.2.2.2] : 0 ≤ f.bot - f.top) (not_lt.1 hc)
  linarith

/-- **C103.** A rectangle of a Coulomb file at or below the surface gives the integral, over the rectangle through the trace with the
given dip between the given depths, of the responses to point sources with the moment of a dislocation that slips and opens as the columns
say (in cm; 10¹⁰ cm² to the km²). -/
theorem C103_rectangles {vp vs rho : ℝ} (hs : 0 < vs) (hp : vs < vp) (hr : 0 < rho) {f0 f1 : Fault} {rf : Bool} {v1 v2 : ℝ}
    (hclear : f0.rightLateral = 0 ∧ f0.reverse = 0 ∧ f0.tensile = 0 ∧ f0.inflate = 0) (hgeo : GeometryOk f0) (htop : 0 ≤ f0.top)
    (hread : setComponents f0 rf v1 v2 = some f1) (hk : f0.kode.isPoint = false) (hdip : Plain (cosDip f0.dip)) :
    ∃ (U : ℝ → V3 → V3) (G : ℝ → V3 → Fin 3 → V3),
      (∀ d, 0 < d → IsHalfSpace (lameLam vp vs rho) (lameMu vs rho) (upward fun i j => 100 * dislocation (lameLam vp vs rho) (lameMu vs rho)
        ((Motion.ofColumns f0.kode rf v1 v2).jump f0) (StaticSyn.nrm f0) 0 i j) d (U d) (G d)) ∧
      ∀ north east depth, 0 ≤ depth → OffPlanes f0 north east depth →
        ∃ f, faultZne (medPar vp vs rho) (setDerived f1) north east depth = some (0, f) ∧
          (∀ c, f.1 c = 1e10 * ∫ l in 0..lenOf f0, ∫ w in 0..widOf f0, U (1e5 * onPlane f0 l w 2)
            (inCm (north - onPlane f0 l w 0) (east - onPlane f0 l w 1) depth) (zne c)) ∧
          ∀ d c, f.2 d c = 1e10 * ∫ l in 0..lenOf f0, ∫ w in 0..widOf f0, G (1e5 * onPlane f0 l w 2)
            (inCm (north - onPlane f0 l w 0) (east - onPlane f0 l w 1) depth) (zne d) (zne c) := by
  obtain ⟨g1, g2, g3, g4, g5, g6⟩ := setComponents_geo hread
  obtain ⟨gt, gb⟩ : f1.top = f0.top ∧ f1.bot = f0.bot := by
    unfold setComponents at hread
    split at hread
    · cases hread
    · split at hread
      · injection hread with hread; subst hread; split <;> simp [*]
      all_goals injection hread with hread; subst hread; simp [*]
  obtain ⟨k1, k2, k3, k4, k5, k6, k7, k8, k9, k10⟩ := setDerived_geo f1
  obtain ⟨kt, kb⟩ : (setDerived f1).top = f1.top ∧ (setDerived f1).bot = f1.bot := by
    simp only [setDerived]; split <;> simp
  obtain ⟨a1, a2, a3⟩ := medPar_alpha hs hp hr
  obtain ⟨m1, m2⟩ := med_lame vp vs rho
  rw [m1] at a1
  rw [m1, m2] at a2 a3
  obtain ⟨sp, se, ce⟩ := geo_sin hgeo
  have lp : 0 < lenOf f0 := hgeo.1
  have wp : 0 < widOf f0 := (subdiv_ok f0 1 1 one_pos one_pos hgeo).1
  obtain ⟨hC, hS⟩ := local_trace f0 f1 lp ⟨g1, g2, g3, g4⟩
  obtain ⟨hn, he, ht⟩ := along_len f0 lp
  have hinf : (Motion.ofColumns f0.kode rf v1 v2).infl = 0 := by
    generalize f0.kode = k at *
    cases k <;> cases rf <;> simp_all [Motion.ofColumns, Kode.isPoint]
  have T := fault_tensor hclear hgeo hread (lameLam vp vs rho) (lameMu vs rho) 100
  obtain ⟨c1, c2, c3, c4⟩ := hclear
  have hi : f1.inflate = 0 := by
    unfold setComponents at hread
    split at hread
    · cases hread
    · split at hread <;> rename_i hk'
      · injection hread with hread; subst hread; split <;> simp [c4]
      all_goals injection hread with hread; subst hread; simp_all [Kode.isPoint]
  have hsl : slips (setDerived f1) = ![-100 * f1.rightLateral, 100 * f1.reverse, 100 * f1.tensile] := by
    unfold slips
    rw [k5, k7, k8, k9]
    unfold setComponents at hread
    split at hread
    · cases hread
    · split at hread <;> rename_i hk'
      · injection hread with hread; subst hread; cases rf <;> simp [c3, hk']
      all_goals injection hread with hread; subst hread; simp_all [Kode.isPoint]
  rw [hi, hinf, mul_zero] at T
  obtain ⟨U, G, h1, h2⟩ := fault_world a1 a2 (setDerived f1).strike hdip sp.le (-100 * f1.rightLateral) (100 * f1.reverse) (100 * f1.tensile)
  rw [T] at h1
  refine ⟨U, G, h1, fun north east depth h0 hoff => ?_⟩
  have l1 : (toLocal (setDerived f1).strike (north - 1 / 2 * (f0.northBegin + f0.northEnd)) (east - 1 / 2 * (f0.eastBegin + f0.eastEnd))).1 =
      alongOf f0 north east - 1 / 2 * lenOf f0 := by
    unfold toLocal alongOf
    dsimp only
    rw [hC, hS, show f0.northEnd = f0.northBegin + lenOf f0 * along f0 0 by linarith,
      show f0.eastEnd = f0.eastBegin + lenOf f0 * along f0 1 by linarith]
    linear_combination (-(1 / 2) * lenOf f0) * ht
  have l2 : (toLocal (setDerived f1).strike (north - 1 / 2 * (f0.northBegin + f0.northEnd)) (east - 1 / 2 * (f0.eastBegin + f0.eastEnd))).2 =
      leftOf f0 north east := by
    unfold toLocal leftOf
    dsimp only
    rw [hC, hS, show f0.northEnd = f0.northBegin + lenOf f0 * along f0 0 by linarith,
      show f0.eastEnd = f0.eastBegin + lenOf f0 * along f0 1 by linarith]
    ring
  obtain ⟨out, e1, e2, e3⟩ := h2 f0.top (lenOf f0) (widOf f0) (north - 1 / 2 * (f0.northBegin + f0.northEnd))
    (east - 1 / 2 * (f0.eastBegin + f0.eastEnd)) depth lp.le wp.le htop h0 (by
      rw [l1, l2]
      have q1 := Or.inl (b := f0.top - depth = f0.top + depth) (rfl : f0.top - depth = f0.top - depth)
      have q2 := Or.inr (a := f0.top + depth = f0.top - depth) (rfl : f0.top + depth = f0.top + depth)
      constructor
      · show Plain (alongOf f0 north east - 1 / 2 * lenOf f0 - -(1 / 2) * lenOf f0)
        convert hoff.begin using 1
        ring
      · show Plain (alongOf f0 north east - 1 / 2 * lenOf f0 - 1 / 2 * lenOf f0)
        convert hoff.stop using 1
        ring
      · show Plain (leftOf f0 north east * cosDip f0.dip + (f0.top + -depth) * sinDip f0.dip - -widOf f0)
        convert hoff.lower _ q1 using 1
        ring
      · show Plain (leftOf f0 north east * cosDip f0.dip + (f0.top + -depth) * sinDip f0.dip - 0)
        convert hoff.upper _ q1 using 1
        ring
      · show 1 / 1000000 ≤ |leftOf f0 north east * sinDip f0.dip - (f0.top + -depth) * cosDip f0.dip|
        have := hoff.off _ q1
        rwa [sub_eq_add_neg f0.top depth] at this
      · show Plain (leftOf f0 north east * cosDip f0.dip + (f0.top - -depth) * sinDip f0.dip - -widOf f0)
        convert hoff.lower _ q2 using 1
        ring
      · show Plain (leftOf f0 north east * cosDip f0.dip + (f0.top - -depth) * sinDip f0.dip - 0)
        convert hoff.upper _ q2 using 1
        ring
      · show 1 / 1000000 ≤ |leftOf f0 north east * sinDip f0.dip - (f0.top - -depth) * cosDip f0.dip|
        have := hoff.off _ q2
        rwa [← sub_neg_eq_add f0.top depth] at this)
  have p0 : ∀ l w : ℝ, north - 1 / 2 * (f0.northBegin + f0.northEnd) - ((l - 1 / 2 * lenOf f0) * Real.cos ((setDerived f1).strike * deg1) -
      w * cosDip f0.dip * Real.sin ((setDerived f1).strike * deg1)) = north - onPlane f0 l w 0 := by
    intro l w
    have : onPlane f0 l w 0 = f0.northBegin + l * along f0 0 - w * cosDip f0.dip * along f0 1 := by rw [ce]; rfl
    rw [this, hC, hS, show f0.northEnd = f0.northBegin + lenOf f0 * along f0 0 by linarith]
    ring
  have p1 : ∀ l w : ℝ, east - 1 / 2 * (f0.eastBegin + f0.eastEnd) - ((l - 1 / 2 * lenOf f0) * Real.sin ((setDerived f1).strike * deg1) +
      w * cosDip f0.dip * Real.cos ((setDerived f1).strike * deg1)) = east - onPlane f0 l w 1 := by
    intro l w
    have : onPlane f0 l w 1 = f0.eastBegin + l * along f0 1 + w * cosDip f0.dip * along f0 0 := by rw [ce]; rfl
    rw [this, hC, hS, show f0.eastEnd = f0.eastBegin + lenOf f0 * along f0 1 by linarith]
    ring
  have p2 : ∀ l w : ℝ, f0.top + w * sinDip f0.dip = onPlane f0 l w 2 := by
    intro l w
    rw [se]; rfl
  refine ⟨localToZne (setDerived f1).strike (faultUnits out), ?_, fun c => ?_, fun d c => ?_⟩
  rotate_left
  · rw [e2 c]
    simp only [p0, p1]
    refine congrArg _ (intervalIntegral.integral_congr fun l _ => intervalIntegral.integral_congr fun w _ => ?_)
    rw [p2 l w]
  · rw [e3 d c]
    simp only [p0, p1]
    refine congrArg _ (intervalIntegral.integral_congr fun l _ => intervalIntegral.integral_congr fun w _ => ?_)
    rw [p2 l w]
  · unfold faultZne
    have hw : (f0.bot - f0.top) / Real.sin (f0.dip * deg1) = widOf f0 := by unfold widOf; rw [mul_comm]
    have hl : hyp (f0.eastEnd - f0.eastBegin) (f0.northEnd - f0.northBegin) = lenOf f0 := rfl
    have hs0 : Real.sin (f0.dip * deg1) ≠ 0 := by rw [← sinDip_eq]; exact sp.ne'
    simp only [k1, k2, k3, k4, k5, k6, kt, kb, g1, g2, g3, g4, g5, g6, gt, gb, hw, hl, hsl]
    rw [if_neg hs0, if_neg (by rw [hk]; exact Bool.false_ne_true), a3]
    simp only [Matrix.cons_val_zero, Matrix.cons_val_one, Matrix.cons_val]
    rw [e1]
    rfl

theorem read_depths {f0 f1 : Fault} {rf : Bool} {v1 v2 : ℝ} (hread : setComponents f0 rf v1 v2 = some f1) :
    (setDerived f1).top = f0.top ∧ (setDerived f1).bot = f0.bot := by
  obtain ⟨gt, gb⟩ : f1.top = f0.top ∧ f1.bot = f0.bot := by
    unfold setComponents at hread
    split at hread
    · cases hread
    · split at hread
      · injection hread with hread; subst hread; split <;> simp [*]
      all_goals injection hread with hread; subst hread; simp [*]
  rw [← gt, ← gb]
  simp only [setDerived]; split <;> simp

/-- **C103.** A point source of a Coulomb file (Kode 400, 500) sits in the middle of the rectangle and has the moment of a dislocation with
the potencies of its columns (m³). -/
theorem C103_points {vp vs rho : ℝ} (hs : 0 < vs) (hp : vs < vp) (hr : 0 < rho) {f0 f1 : Fault} {rf : Bool} {v1 v2 : ℝ}
    (hclear : f0.rightLateral = 0 ∧ f0.reverse = 0 ∧ f0.tensile = 0 ∧ f0.inflate = 0) (hgeo : GeometryOk f0)
    (hread : setComponents f0 rf v1 v2 = some f1) (hk : f0.kode.isPoint = true) (hdip : Plain (cosDip f0.dip)) :
    let mid := onPlane f0 (1 / 2 * lenOf f0) (1 / 2 * widOf f0)
    1 / 1000000 ≤ mid 2 →
    ∃ (U : V3 → V3) (G : V3 → Fin 3 → V3),
      IsHalfSpace (lameLam vp vs rho) (lameMu vs rho) (upward fun i j => 1e6 * dislocation (lameLam vp vs rho) (lameMu vs rho)
        ((Motion.ofColumns f0.kode rf v1 v2).jump f0) (StaticSyn.nrm f0) (Motion.ofColumns f0.kode rf v1 v2).infl i j) (1e5 * mid 2) U G ∧
      ∀ north east depth, 0 ≤ depth → Plain (mid 2 - depth) →
        (mid 2 = depth → 2 / 1000000 ≤ |north - mid 0| ∨ 2 / 1000000 ≤ |east - mid 1|) →
        ∃ n' e' f, faultZne (medPar vp vs rho) (setDerived f1) north east depth = some (0, f) ∧
          Reports f U G (inCm (n' - mid 0) (e' - mid 1) depth) ∧ |n' - north| < 2 / 1000000 ∧ |e' - east| < 2 / 1000000 := by
  intro mid hd
  obtain ⟨g1, g2, g3, g4, g5, g6⟩ := setComponents_geo hread
  obtain ⟨kt, kb⟩ := read_depths hread
  obtain ⟨k1, k2, k3, k4, k5, k6, k7, k8, k9, k10⟩ := setDerived_geo f1
  obtain ⟨a1, a2, a3⟩ := medPar_alpha hs hp hr
  obtain ⟨m1, m2⟩ := med_lame vp vs rho
  rw [m1] at a1
  rw [m1, m2] at a2 a3
  obtain ⟨sp, se, ce⟩ := geo_sin hgeo
  have lp : 0 < lenOf f0 := hgeo.1
  obtain ⟨hC, hS⟩ := local_trace f0 f1 lp ⟨g1, g2, g3, g4⟩
  obtain ⟨hn, he, ht⟩ := along_len f0 lp
  have T := fault_tensor hclear hgeo hread (lameLam vp vs rho) (lameMu vs rho) 1e6
  obtain ⟨c1, c2, c3, c4⟩ := hclear
  have hpt : faultPot (setDerived f1) = ![-1e6 * f1.rightLateral, 1e6 * f1.reverse, 1e6 * f1.tensile, 1e6 * f1.inflate] := by
    unfold faultPot
    rw [k5, k7, k8, k9, k10]
    unfold setComponents at hread
    split at hread
    · cases hread
    · split at hread <;> rename_i hk'
      · rw [hk'] at hk
        cases hk
      all_goals injection hread with hread; subst hread; simp_all [Kode.isPoint]
  obtain ⟨U, G, h1, h2⟩ := point_world a1 a2 (setDerived f1).strike hdip hd (-1e6 * f1.rightLateral) (1e6 * f1.reverse) (1e6 * f1.tensile)
    (1e6 * f1.inflate)
  rw [T] at h1
  refine ⟨U, G, h1, fun north east depth h0 hpl hn' => ?_⟩
  have back := toLocal_back (setDerived f1).strike (north - mid 0) (east - mid 1)
  generalize hx : (toLocal (setDerived f1).strike (north - mid 0) (east - mid 1)).1 = x at *
  generalize hy : (toLocal (setDerived f1).strike (north - mid 0) (east - mid 1)).2 = y at *
  obtain ⟨x', y', out, e1, e2, -, -, e5, e6⟩ := h2 x y depth h0 hpl (by
    rintro ⟨n1, n2, n3⟩
    have := toLocal_close (setDerived f1).strike n1 n2
    rw [back] at this
    rcases hn' n3 with q | q
    · linarith [this.1]
    · linarith [this.2])
  have b1 : (toLocal (setDerived f1).strike x y).1 = north - mid 0 := by rw [back]
  have b2 : (toLocal (setDerived f1).strike x y).2 = east - mid 1 := by rw [back]
  have cl := toLocal_close (setDerived f1).strike e1 e2
  have hw : (f0.bot - f0.top) / Real.sin (f0.dip * deg1) = widOf f0 := by unfold widOf; rw [mul_comm]
  have hl : hyp (f0.eastEnd - f0.eastBegin) (f0.northEnd - f0.northBegin) = lenOf f0 := rfl
  have hs0 : Real.sin (f0.dip * deg1) ≠ 0 := by rw [← sinDip_eq]; exact sp.ne'
  have p0 : mid 0 = 1 / 2 * (f0.northBegin + f0.northEnd) - 1 / 2 * widOf f0 * Real.cos (f0.dip * deg1) * along f0 1 := by
    have : mid 0 = f0.northBegin + 1 / 2 * lenOf f0 * along f0 0 - 1 / 2 * widOf f0 * Real.cos (f0.dip * deg1) * along f0 1 := by
      rw [mul_comm f0.dip]; rfl
    rw [this]
    linear_combination (-(1 / 2)) * hn
  have p1 : mid 1 = 1 / 2 * (f0.eastBegin + f0.eastEnd) + 1 / 2 * widOf f0 * Real.cos (f0.dip * deg1) * along f0 0 := by
    have : mid 1 = f0.eastBegin + 1 / 2 * lenOf f0 * along f0 1 + 1 / 2 * widOf f0 * Real.cos (f0.dip * deg1) * along f0 0 := by
      rw [mul_comm f0.dip]; rfl
    rw [this]
    linear_combination (-(1 / 2)) * he
  have p2 : mid 2 = 1 / 2 * (f0.top + f0.bot) := by
    have : mid 2 = f0.top + 1 / 2 * widOf f0 * Real.sin (deg1 * f0.dip) := rfl
    rw [this]
    unfold widOf
    rw [← se]
    have := sp.ne'
    field_simp
    ring
  refine ⟨(toLocal (setDerived f1).strike x' y').1 + mid 0, (toLocal (setDerived f1).strike x' y').2 + mid 1,
    localToZne (setDerived f1).strike (pointUnits out), ?_, ?_, ?_, ?_⟩
  · unfold faultZne
    simp only [k1, k2, k3, k4, k5, k6, kt, kb, g1, g2, g3, g4, g5, g6, hw, hl, hpt, hC, hS]
    rw [if_neg hs0, if_pos hk, a3]
    simp only [← p0, ← p1, ← p2, hx, hy, Matrix.cons_val_zero, Matrix.cons_val_one, Matrix.cons_val]
    rw [e5]
    rfl
  · rw [add_sub_cancel_right, add_sub_cancel_right]
    exact e6
  · have : (toLocal (setDerived f1).strike x' y').1 + mid 0 - north = (toLocal (setDerived f1).strike (x' - x) (y' - y)).1 := by
      have e : north = (toLocal (setDerived f1).strike x y).1 + mid 0 := by rw [b1]; ring
      rw [e]
      unfold toLocal
      ring
    rw [this]
    linarith [cl.1]
  · have : (toLocal (setDerived f1).strike x' y').2 + mid 1 - east = (toLocal (setDerived f1).strike (x' - x) (y' - y)).2 := by
      have e : east = (toLocal (setDerived f1).strike x y).2 + mid 1 := by rw [b2]; ring
      rw [e]
      unfold toLocal
      ring
    rw [this]
    linarith [cl.2]

/-- **C103.** The results of several lines add up. -/
theorem C103_sum (m : MedPar) (north east depth : ℝ) (faults : List Fault) (F : Fault → Field)
    (h : ∀ f ∈ faults, faultZne m f north east depth = some (0, F f)) (n : Bool) :
    ∃ r : Field, faultsAt m faults n north east depth = some (.ok (if n then r else toZrt north east r)) ∧
      (∀ c, r.1 c = (faults.map fun f => (F f).1 c).sum) ∧ ∀ d c, r.2 d c = (faults.map fun f => (F f).2 d c).sum := by
  have key : ∀ (l : List Fault) (acc : Field), (∀ f ∈ l, faultZne m f north east depth = some (0, F f)) →
      ∃ r : Field, faultsZne m north east depth l acc = some (.ok r) ∧ (∀ c, r.1 c = acc.1 c + (l.map fun f => (F f).1 c).sum) ∧
        ∀ d c, r.2 d c = acc.2 d c + (l.map fun f => (F f).2 d c).sum := by
    intro l
    induction l with
    | nil =>
      intro acc _
      exact ⟨acc, rfl, by simp, by simp⟩
    | cons f l ih =>
      intro acc hl
      obtain ⟨r, e, e1, e2⟩ := ih (fun c => acc.1 c + (F f).1 c, fun d c => acc.2 d c + (F f).2 d c) fun g hg => hl g (List.mem_cons_of_mem _ hg)
      refine ⟨r, ?_, fun c => ?_, fun d c => ?_⟩
      · unfold faultsZne
        rw [hl f List.mem_cons_self, Option.bind_some, if_neg (by simp)]
        exact e
      · rw [e1, List.map_cons, List.sum_cons]
        dsimp only
        ring
      · rw [e2, List.map_cons, List.sum_cons]
        dsimp only
        ring
  obtain ⟨r, e, e1, e2⟩ := key faults (fun _ => 0, fun _ _ => 0) h
  refine ⟨r, ?_, fun c => by rw [e1]; exact zero_add _, fun d c => by rw [e2]; exact zero_add _⟩
  unfold faultsAt
  rw [e]
  rfl

/-! ### Failures -/

/-- The receiver is within 1 mm of where the response to the fault is singular: the edges of a rectangle or of its image, or the point. -/
def Singular (f : Fault) (north east depth : ℝ) : Prop :=
  if f.kode.isPoint then
    |alongOf f north east - 1 / 2 * lenOf f| < 1 / 1000000 ∧ |leftOf f north east + 1 / 2 * widOf f * cosDip f.dip| < 1 / 1000000 ∧
      |1 / 2 * (f.top + f.bot) - depth| < 1 / 1000000
  else ∃ d, (d = f.top - depth ∨ d = f.top + depth) ∧ NearEdge 0 (lenOf f) (-widOf f) 0 (alongOf f north east)
    (leftOf f north east * cosDip f.dip + d * sinDip f.dip) (leftOf f north east * sinDip f.dip - d * cosDip f.dip)

theorem fault_code {vp vs rho : ℝ} (hs : 0 < vs) (hp : vs < vp) (hr : 0 < rho) {f0 : Fault} (hgeo : GeometryOk f0) (htop : 0 ≤ f0.top)
    (hdip : Plain (cosDip f0.dip)) {north east depth : ℝ} (h0 : 0 ≤ depth) :
    ∃ code f, faultZne (medPar vp vs rho) (setDerived f0) north east depth = some (code, f) ∧ (code = 0 ∨ code = 1) ∧
      (code = 1 ↔ Singular f0 north east depth) := by
  obtain ⟨k1, k2, k3, k4, k5, k6, -⟩ := setDerived_geo f0
  obtain ⟨kt, kb⟩ : (setDerived f0).top = f0.top ∧ (setDerived f0).bot = f0.bot := by
    simp only [setDerived]; split <;> simp
  obtain ⟨a1, a2, a3⟩ := medPar_alpha hs hp hr
  have ha : (medPar vp vs rho).alpha ≠ 0 := by rw [a3]; exact div_ne_zero a2.ne' (by linarith)
  obtain ⟨sp, se, ce⟩ := geo_sin hgeo
  have lp : 0 < lenOf f0 := hgeo.1
  have wp : 0 < widOf f0 := (subdiv_ok f0 1 1 one_pos one_pos hgeo).1
  obtain ⟨hC, hS⟩ := local_trace f0 f0 lp ⟨rfl, rfl, rfl, rfl⟩
  obtain ⟨hn, he, ht⟩ := along_len f0 lp
  have hw : (f0.bot - f0.top) / Real.sin (f0.dip * deg1) = widOf f0 := by unfold widOf; rw [mul_comm]
  have hl : hyp (f0.eastEnd - f0.eastBegin) (f0.northEnd - f0.northBegin) = lenOf f0 := rfl
  have hs0 : Real.sin (f0.dip * deg1) ≠ 0 := by rw [← sinDip_eq]; exact sp.ne'
  have hn' : f0.northEnd = f0.northBegin + lenOf f0 * along f0 0 := by linarith
  have he' : f0.eastEnd = f0.eastBegin + lenOf f0 * along f0 1 := by linarith
  unfold faultZne
  simp only [k1, k2, k3, k4, k5, k6, kt, kb, hw, hl]
  rw [if_neg hs0]
  unfold Singular
  by_cases hk : f0.kode.isPoint = true
  · rw [if_pos hk, if_pos hk]
    have l1 : (toLocal (setDerived f0).strike (north - (1 / 2 * (f0.northBegin + f0.northEnd) - 1 / 2 * widOf f0 * Real.cos (f0.dip * deg1) * Real.sin ((setDerived f0).strike * deg1)))
        (east - (1 / 2 * (f0.eastBegin + f0.eastEnd) + 1 / 2 * widOf f0 * Real.cos (f0.dip * deg1) * Real.cos ((setDerived f0).strike * deg1)))).1 =
        alongOf f0 north east - 1 / 2 * lenOf f0 := by
      unfold toLocal alongOf
      dsimp only
      rw [hC, hS, hn', he']
      linear_combination (-(1 / 2) * lenOf f0) * ht
    have l2 : (toLocal (setDerived f0).strike (north - (1 / 2 * (f0.northBegin + f0.northEnd) - 1 / 2 * widOf f0 * Real.cos (f0.dip * deg1) * Real.sin ((setDerived f0).strike * deg1)))
        (east - (1 / 2 * (f0.eastBegin + f0.eastEnd) + 1 / 2 * widOf f0 * Real.cos (f0.dip * deg1) * Real.cos ((setDerived f0).strike * deg1)))).2 =
        leftOf f0 north east + 1 / 2 * widOf f0 * cosDip f0.dip := by
      unfold toLocal leftOf
      dsimp only
      rw [hC, hS, hn', he', cosDip_eq]
      linear_combination (1 / 2 * widOf f0 * Real.cos (f0.dip * deg1)) * ht
    rw [l1, l2]
    obtain ⟨code, o, q1, q2, q3, q4, -⟩ := C97_codes (x := alongOf f0 north east - 1 / 2 * lenOf f0)
      (y := leftOf f0 north east + 1 / 2 * widOf f0 * cosDip f0.dip) (z := -depth) (depth := 1 / 2 * (f0.top + f0.bot)) ha
      (by linarith [hgeo.2.2.2]) f0.dip (faultPot (setDerived f0) 0) (faultPot (setDerived f0) 1) (faultPot (setDerived f0) 2)
      (faultPot (setDerived f0) 3)
    rw [q1]
    refine ⟨code, _, rfl, ?_, ?_⟩
    · rcases q4 with q | q | q
      · exact Or.inl q
      · exact Or.inr q
      · exact absurd (q2.1 q) (by linarith)
    · rw [q3, ← sub_eq_add_neg]
      exact ⟨fun h => h.2, fun h => ⟨by linarith, h⟩⟩
  · rw [if_neg hk, if_neg hk]
    have l1 : (toLocal (setDerived f0).strike (north - 1 / 2 * (f0.northBegin + f0.northEnd)) (east - 1 / 2 * (f0.eastBegin + f0.eastEnd))).1 =
        alongOf f0 north east - 1 / 2 * lenOf f0 := by
      unfold toLocal alongOf
      dsimp only
      rw [hC, hS, hn', he']
      linear_combination (-(1 / 2) * lenOf f0) * ht
    have l2 : (toLocal (setDerived f0).strike (north - 1 / 2 * (f0.northBegin + f0.northEnd)) (east - 1 / 2 * (f0.eastBegin + f0.eastEnd))).2 =
        leftOf f0 north east := by
      unfold toLocal leftOf
      dsimp only
      rw [hC, hS, hn', he']
      ring
    rw [l1, l2]
    obtain ⟨code, o, q1, q2, q3, q4, -⟩ := C101_codes (x := alongOf f0 north east - 1 / 2 * lenOf f0) (y := leftOf f0 north east) (z := -depth)
      (dep := f0.top) (l1 := -(1 / 2) * lenOf f0) (l2 := 1 / 2 * lenOf f0) (w1 := -widOf f0) (w2 := 0) ha hdip sp.le
      (slips (setDerived f0) 0) (slips (setDerived f0) 1) (slips (setDerived f0) 2) (by linarith) (by linarith) htop (by nlinarith) (by linarith)
    rw [q1]
    refine ⟨code, _, rfl, ?_, ?_⟩
    · rcases q4 with q | q | q
      · exact Or.inl q
      · exact Or.inr q
      · exact absurd (q2.1 q) (by linarith)
    · rw [q3, ← sub_eq_add_neg, sub_neg_eq_add]
      have ne : ∀ p q, NearEdge (-(1 / 2) * lenOf f0) (1 / 2 * lenOf f0) (-widOf f0) 0 (alongOf f0 north east - 1 / 2 * lenOf f0) p q ↔
          NearEdge 0 (lenOf f0) (-widOf f0) 0 (alongOf f0 north east) p q := by
        intro p q
        unfold NearEdge
        rw [show alongOf f0 north east - 1 / 2 * lenOf f0 - -(1 / 2) * lenOf f0 = alongOf f0 north east - 0 by ring,
          show alongOf f0 north east - 1 / 2 * lenOf f0 - 1 / 2 * lenOf f0 = alongOf f0 north east - lenOf f0 by ring,
          show -(1 / 2) * lenOf f0 - 1 / 1000000 < alongOf f0 north east - 1 / 2 * lenOf f0 ↔ 0 - 1 / 1000000 < alongOf f0 north east by
            constructor <;> intro h <;> linarith,
          show alongOf f0 north east - 1 / 2 * lenOf f0 < 1 / 2 * lenOf f0 + 1 / 1000000 ↔ alongOf f0 north east < lenOf f0 + 1 / 1000000 by
            constructor <;> intro h <;> linarith]
      simp only [ne]
      exact ⟨fun h => h.2, fun h => ⟨by linarith, h⟩⟩

/-- **C104.** For faults at or below the surface and a receiver at or below it, the run ends with code 1 exactly if the receiver is within
1 mm of an edge of a rectangle or of its image or of a point source; otherwise there is a result, and nothing is divided by zero. -/
theorem C104_outcome_partial {vp vs rho : ℝ} (hs : 0 < vs) (hp : vs < vp) (hr : 0 < rho) (faults : List Fault)
    (hf : ∀ f ∈ faults, GeometryOk f ∧ 0 ≤ f.top ∧ Plain (cosDip f.dip)) (n : Bool) {north east depth : ℝ} (h0 : 0 ≤ depth) :
    (faultsAt (medPar vp vs rho) (faults.map setDerived) n north east depth = some (.error 1) ↔ ∃ f ∈ faults, Singular f north east depth) ∧
    ((¬∃ f ∈ faults, Singular f north east depth) → ∃ r, faultsAt (medPar vp vs rho) (faults.map setDerived) n north east depth = some (.ok r)) := by
  have key : ∀ (l : List Fault) (acc : Field), (∀ f ∈ l, GeometryOk f ∧ 0 ≤ f.top ∧ Plain (cosDip f.dip)) →
      ((∃ f ∈ l, Singular f north east depth) → faultsZne (medPar vp vs rho) north east depth (l.map setDerived) acc = some (.error 1)) ∧
      ((¬∃ f ∈ l, Singular f north east depth) → ∃ r, faultsZne (medPar vp vs rho) north east depth (l.map setDerived) acc = some (.ok r)) := by
    intro l
    induction l with
    | nil =>
      intro acc _
      exact ⟨by simp, fun _ => ⟨acc, rfl⟩⟩
    | cons f l ih =>
      intro acc hl
      obtain ⟨h1, h2, h3⟩ := hl f List.mem_cons_self
      obtain ⟨code, r, e, hc, hc1⟩ := fault_code hs hp hr h1 h2 h3 (north := north) (east := east) h0
      have i := ih (fun c => acc.1 c + r.1 c, fun d c => acc.2 d c + r.2 d c) fun g hg => hl g (List.mem_cons_of_mem _ hg)
      rw [List.map_cons]
      unfold faultsZne
      rw [e, Option.bind_some]
      dsimp only
      rcases hc with rfl | rfl
      · have ns : ¬Singular f north east depth := fun h => by simpa using hc1.2 h
        rw [if_neg (by simp)]
        constructor
        · rintro ⟨g, hg, hsg⟩
          rcases List.mem_cons.1 hg with rfl | hg
          · exact absurd hsg ns
          · exact i.1 ⟨g, hg, hsg⟩
        · intro hn
          exact i.2 fun ⟨g, hg, hsg⟩ => hn ⟨g, List.mem_cons_of_mem _ hg, hsg⟩
      · rw [if_pos (by simp)]
        exact ⟨fun _ => rfl, fun hn => absurd ⟨f, List.mem_cons_self, hc1.1 rfl⟩ hn⟩
  have k := key faults (fun _ => 0, fun _ _ => 0) hf
  have second : (¬∃ f ∈ faults, Singular f north east depth) →
      ∃ r, faultsAt (medPar vp vs rho) (faults.map setDerived) n north east depth = some (.ok r) := by
    intro h
    obtain ⟨r, e⟩ := k.2 h
    exact ⟨if n then r else toZrt north east r, by unfold faultsAt; rw [e]; rfl⟩
  refine ⟨⟨fun h => ?_, fun h => ?_⟩, second⟩
  · by_contra hn
    obtain ⟨r, e⟩ := second hn
    rw [e] at h
    cases h
  · unfold faultsAt
    rw [k.1 h]
    rfl

open Classical in
/-- Beside a vertical plane the routine gives a result whatever the depth of the rectangle, also above the surface. -/
theorem vertical_some {al x y z dep l1 l2 w1 w2 : ℝ} (ha : al ≠ 0) (d1 d2 d3 : ℝ) (hz : z ≤ 0) (hy : 1 / 1000000 ≤ |y|) :
    ∃ out, dc3d al x y z dep 90 l1 l2 w1 w2 d1 d2 d3 = some (0, out) := by
  have c0 : cosDip 90 = 0 := by rw [cosDip_eq, cos90]
  have s1 : sinDip 90 = 1 := by rw [sinDip_eq, sin90]
  have sy : snap y = y := snap_plain (Or.inr hy)
  have y0 : y ≠ 0 := ne_of_abs hy
  unfold dc3d
  rw [if_neg (not_lt.2 hz), if_neg ha]
  unfold dccon0
  rw [dipSC_plain (Or.inl c0), c0, s1]
  have ms : (medOf al 1 0).sd = 1 := rfl
  have mc : (medOf al 1 0).cd = 0 := rfl
  dsimp only
  simp only [ms, mc, mul_zero, mul_one, zero_add, sub_zero, sy]
  have ns : ∀ a b c d : ℝ, ¬finSingular y a b c d := fun a b c d h => y0 h.1
  rw [if_neg (ns _ _ _ _)]
  have nz : ∀ a b : ℝ, ¬(snap a = 0 ∧ snap b = 0 ∧ snap y = 0) := fun a b h => y0 (by rw [← sy]; exact h.2.2)
  have re : ∀ a b : ℝ, ∃ o, cornerReal (medOf al 1 0) d1 d2 d3 y (snap a) (snap b) = some o := by
    intro a b
    obtain ⟨f, hf, -, -⟩ := dccon2_some (c := medOf al 1 0) (nz a b)
    rw [sy] at hf
    exact ⟨_, by simp only [cornerReal, hf, Option.map_some]; rfl⟩
  have im : ∀ a b : ℝ, ∃ o, cornerImg (medOf al 1 0) z d1 d2 d3 y (snap a) (snap b) = some o := by
    intro a b
    obtain ⟨f, hf, fr, fd⟩ := dccon2_some (c := medOf al 1 0) (nz a b)
    rw [sy] at hf fr fd
    simp only [cornerImg, hf, Option.bind_some]
    rw [if_neg]
    · exact ⟨_, rfl⟩
    · rw [fr, fd, ms, mc, mul_one, mul_zero, sub_zero]
      intro h
      have h1 : rr (snap a) (snap b) y * rr (snap a) (snap b) y = snap a * snap a + snap b * snap b + y * y := Real.mul_self_sqrt (nn3 _ _ _)
      have h2 : rr (snap a) (snap b) y = -snap b := by linarith
      rw [h2] at h1
      nlinarith [mul_self_nonneg (snap a), mul_self_pos.2 y0]
  obtain ⟨u, hu⟩ := addCorners_some (f := cornerReal (medOf al 1 0) d1 d2 d3 y) (x0 := snap (x - l1)) (x1 := snap (x - l2))
    (e0 := snap (dep + z - w1)) (e1 := snap (dep + z - w2)) (by
      rintro _ _ (rfl | rfl) (rfl | rfl)
      exacts [re _ _, re _ _, re _ _, re _ _]) D12.zero
  rw [hu, Option.bind_some, if_neg (ns _ _ _ _)]
  obtain ⟨o, ho⟩ := addCorners_some (f := cornerImg (medOf al 1 0) z d1 d2 d3 y) (x0 := snap (x - l1)) (x1 := snap (x - l2))
    (e0 := snap (dep - z - w1)) (e1 := snap (dep - z - w2)) (by
      rintro _ _ (rfl | rfl) (rfl | rfl)
      exacts [im _ _, im _ _, im _ _, im _ _]) u
  rw [ho]
  exact ⟨o, rfl⟩

/-- A vertical fault whose upper edge is 1 km above the surface. -/
noncomputable def aboveFault : Fault := ⟨0, -1, 0, 1, .rtlatReverse, 1, 0, 0, 0, 90, -1, 4, 0, 0, 0⟩

theorem above_len : hyp (0 - 0) (1 - -1) = 2 := by
  rw [hyp, show ((0 : ℝ) - 0) ^ 2 + (1 - -1) ^ 2 = 2 ^ 2 by norm_num, Real.sqrt_sq (by norm_num)]

/-- **C104 fails above the surface**: a fault that sticks out of the half-space passes the checks of the reader and the run ends with
results. -/
theorem C104_violated : GeometryOk aboveFault ∧ aboveFault.top < 0 ∧
    ∃ r, faultsAt (medPar 2 1 1) [setDerived aboveFault] true 0 10 0 = some (.ok r) := by
  have h1 : hyp (aboveFault.eastEnd - aboveFault.eastBegin) (aboveFault.northEnd - aboveFault.northBegin) = 2 := above_len
  have hg : GeometryOk aboveFault := ⟨by rw [h1]; norm_num, by norm_num [aboveFault], by norm_num [aboveFault], by norm_num [aboveFault]⟩
  refine ⟨hg, by norm_num [aboveFault], ?_⟩
  obtain ⟨k1, k2, k3, k4, k5, k6, -⟩ := setDerived_geo aboveFault
  obtain ⟨kt, kb⟩ : (setDerived aboveFault).top = aboveFault.top ∧ (setDerived aboveFault).bot = aboveFault.bot := by
    simp only [setDerived]; split <;> simp
  have hd := strike_dir aboveFault hg.1
  have al : (medPar 2 1 1).alpha ≠ 0 := by norm_num [medPar]
  have hC : Real.cos ((setDerived aboveFault).strike * deg1) = 1 := by
    rw [mul_comm, hd.1, h1]; norm_num [aboveFault]
  have hS : Real.sin ((setDerived aboveFault).strike * deg1) = 0 := by
    rw [mul_comm, hd.2]; norm_num [aboveFault]
  have : ∃ f, faultZne (medPar 2 1 1) (setDerived aboveFault) 0 10 0 = some (0, f) := by
    unfold faultZne
    simp only [k1, k2, k3, k4, k5, k6, kt, kb, h1]
    have e90 : aboveFault.dip = 90 := rfl
    rw [e90, sin90, if_neg one_ne_zero, if_neg (show ¬aboveFault.kode.isPoint = true by decide)]
    unfold toLocal
    rw [hC, hS]
    obtain ⟨o, ho⟩ := vertical_some (x := (0 - 1 / 2 * (aboveFault.northBegin + aboveFault.northEnd)) * 1 +
      (10 - 1 / 2 * (aboveFault.eastBegin + aboveFault.eastEnd)) * 0) (y := (0 - 1 / 2 * (aboveFault.northBegin + aboveFault.northEnd)) * 0 -
      (10 - 1 / 2 * (aboveFault.eastBegin + aboveFault.eastEnd)) * 1) (z := -0) (dep := aboveFault.top) (l1 := -(1 / 2) * 2) (l2 := 1 / 2 * 2)
      (w1 := -((aboveFault.bot - aboveFault.top) / 1)) (w2 := 0) al (slips (setDerived aboveFault) 0) (slips (setDerived aboveFault) 1)
      (slips (setDerived aboveFault) 2) (by norm_num) (by norm_num [aboveFault, abs_of_pos])
    rw [ho]
    exact ⟨_, rfl⟩
  obtain ⟨f, hf⟩ := this
  obtain ⟨r, hr, -⟩ := C103_sum (medPar 2 1 1) 0 10 0 [setDerived aboveFault] (fun _ => f) (by simpa using hf) true
  exact ⟨_, hr⟩

/-! ### Cases that meet the hypotheses -/

/-- A double couple dipping 60° at 10 km in an ordinary medium, and an ordinary crack. -/
example : (0 : ℝ) < 3.5 ∧ (3.5 : ℝ) < 6 ∧ (0 : ℝ) < 2.7 ∧ Plain (cosDip (Geom.shear 30 60 20).dip) ∧ lameLam 6 3.5 2.7 ≠ 0 ∧
    lameLam 6 3.5 2.7 ≠ lameMu 3.5 2.7 ∧ (1 / 1000000 : ℝ) ≤ 10 ∧ Plain ((10 : ℝ) - 0) := by
  refine ⟨by norm_num, by norm_num, by norm_num, Or.inr ?_, ?_, ?_, by norm_num, Or.inr ?_⟩
  · show 1 / 1000000 ≤ |cosDip 60|
    rw [cosDip_60]
    norm_num [abs_of_pos]
  · norm_num [lameLam]
  · norm_num [lameLam, lameMu]
  · norm_num

/-- What is asked for is not zero: the `xy` moment of a vertical strike-slip source along north. -/
example : asked 6 3.5 2.7 (.shear 0 90 0) false 1e20 0 1 = 1e20 := by
  have h : (0 : ℝ) * deg1 = 0 := zero_mul _
  simp [asked, Geom.kind, Geom.angles, tensorOf, slip, normal, cos90, sin90]

/-- A vertical fault of Kode 100 from the surface to 4 km, with 1 m of right-lateral slip, and a receiver on the surface 10 km east. -/
noncomputable def plainFault : Fault := ⟨0, -1, 0, 1, .rtlatReverse, 0, 0, 0, 0, 90, 0, 4, 0, 0, 0⟩

example : GeometryOk plainFault ∧ 0 ≤ plainFault.top ∧ (∃ f1, setComponents plainFault false 1 0 = some f1) ∧ Plain (cosDip plainFault.dip) ∧
    plainFault.kode.isPoint = false ∧ OffPlanes plainFault 0 10 0 ∧ ¬Singular plainFault 0 10 0 := by
  have h1 : hyp (plainFault.eastEnd - plainFault.eastBegin) (plainFault.northEnd - plainFault.northBegin) = 2 := above_len
  have a0 : along plainFault 0 = 1 := by
    show (plainFault.northEnd - plainFault.northBegin) / hyp _ _ = 1
    rw [h1]; norm_num [plainFault]
  have a1 : along plainFault 1 = 0 := by
    show (plainFault.eastEnd - plainFault.eastBegin) / hyp _ _ = 0
    norm_num [plainFault]
  have al : alongOf plainFault 0 10 = 1 := by
    unfold alongOf; rw [a0, a1]; norm_num [plainFault]
  have lf : leftOf plainFault 0 10 = -10 := by
    unfold leftOf; rw [a0, a1]; norm_num [plainFault]
  have c0 : cosDip plainFault.dip = 0 := by
    show cosDip 90 = 0
    rw [cosDip_eq, cos90]
  have s1 : sinDip plainFault.dip = 1 := by
    show sinDip 90 = 1
    rw [sinDip_eq, sin90]
  have wd : widOf plainFault = 4 := by
    show (4 - 0) / Real.sin (deg1 * 90) = 4
    rw [mul_comm, sin90]; norm_num
  have t : plainFault.top = 0 := rfl
  refine ⟨⟨by rw [h1]; norm_num, by norm_num [plainFault], by norm_num [plainFault], by norm_num [plainFault]⟩, le_rfl,
    ⟨_, by simp [setComponents, plainFault]; rfl⟩, Or.inl c0, rfl, ?_, ?_⟩
  · constructor
    · rw [al]; exact Or.inr (by norm_num)
    · rw [al, show lenOf plainFault = 2 from h1]; exact Or.inr (by norm_num [abs_of_pos])
    · rintro d (rfl | rfl) <;> rw [c0, s1, lf, t] <;> exact Or.inl (by norm_num)
    · rintro d (rfl | rfl) <;> rw [c0, s1, lf, wd, t] <;> exact Or.inr (by norm_num [abs_of_pos])
    · rintro d (rfl | rfl) <;> rw [c0, s1, lf, t] <;> norm_num [abs_of_pos]
  · unfold Singular
    rw [if_neg (by decide)]
    rintro ⟨d, hd, h, -⟩
    rw [lf, s1, c0] at h
    norm_num at h

/-- A receiver on the upper edge of the same fault is singular. -/
example : Singular plainFault 0 0 0 := by
  have h1 : hyp (plainFault.eastEnd - plainFault.eastBegin) (plainFault.northEnd - plainFault.northBegin) = 2 := above_len
  have a0 : along plainFault 0 = 1 := by
    show (plainFault.northEnd - plainFault.northBegin) / hyp _ _ = 1
    rw [h1]; norm_num [plainFault]
  have a1 : along plainFault 1 = 0 := by
    show (plainFault.eastEnd - plainFault.eastBegin) / hyp _ _ = 0
    norm_num [plainFault]
  have al : alongOf plainFault 0 0 = 1 := by
    unfold alongOf; rw [a0, a1]; norm_num [plainFault]
  have lf : leftOf plainFault 0 0 = 0 := by
    unfold leftOf; rw [a0, a1]; norm_num [plainFault]
  unfold Singular
  rw [if_neg (by decide), al, lf, show lenOf plainFault = 2 from h1]
  have t : plainFault.top = 0 := rfl
  refine ⟨0, Or.inl (by rw [t]; norm_num), by norm_num, Or.inl ⟨by norm_num, by norm_num, Or.inr (by norm_num)⟩⟩

/-- A point source of Kode 500 with its middle at 3 km. -/
example : GeometryOk crackFault ∧ crackFault.kode.isPoint = true ∧ onPlane crackFault (1 / 2 * lenOf crackFault) (1 / 2 * widOf crackFault) 2 = 3 := by
  have h1 : hyp (crackFault.eastEnd - crackFault.eastBegin) (crackFault.northEnd - crackFault.northBegin) = 2 := above_len
  refine ⟨⟨by rw [h1]; norm_num, by norm_num [crackFault], by norm_num [crackFault], by norm_num [crackFault]⟩, rfl, ?_⟩
  show 2 + 1 / 2 * ((4 - 2) / Real.sin (deg1 * 90)) * Real.sin (deg1 * 90) = 3
  rw [mul_comm deg1, sin90]
  norm_num

end GRT.Okada
