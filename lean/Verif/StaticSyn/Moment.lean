import Verif.StaticSyn.Parallel

/-! C63: the point sources that stand for a line of a Coulomb file carry the moment of the described dislocation. -/

set_option linter.unusedSectionVars false

namespace GRT.StaticSyn

open GRT.Layer GRT.Syn Real

/-! ### Specification -/

/-- What the columns 7 and 8 of a Coulomb file mean: right-lateral, reverse and opening displacement (m; m³ for point
sources) and inflation (m³), for the formats `.inp` and `.inr` (rake, net slip). -/
structure Motion where
  rl : ℝ
  rev : ℝ
  opening : ℝ
  infl : ℝ

noncomputable def Motion.ofColumns (kode : Kode) (rakeFormat : Bool) (v1 v2 : ℝ) : Motion :=
  match kode, rakeFormat with
  | .rtlatReverse, false => ⟨v1, v2, 0, 0⟩
  | .rtlatReverse, true => ⟨- v2 * cos (v1 * deg1), v2 * sin (v1 * deg1), 0, 0⟩
  | .rtlatTensile, _ => ⟨v1, 0, v2, 0⟩
  | .tensileReverse, _ => ⟨0, v2, v1, 0⟩
  | .pointDC, _ => ⟨v1, v2, 0, 0⟩
  | .pointTensileInflate, _ => ⟨0, 0, v1, v2⟩

/-- Direction of the trace, north and east. -/
noncomputable def along (f : Fault) : Vec :=
  let len := hyp (f.eastEnd - f.eastBegin) (f.northEnd - f.northBegin)
  ![(f.northEnd - f.northBegin) / len, (f.eastEnd - f.eastBegin) / len, 0]
/-- Up-dip direction and normal of the plane dipping to the right of the trace. -/
noncomputable def upDip (f : Fault) : Vec :=
  ![cos (deg1 * f.dip) * along f 1, - cos (deg1 * f.dip) * along f 0, - sin (deg1 * f.dip)]
noncomputable def nrm (f : Fault) : Vec :=
  ![- sin (deg1 * f.dip) * along f 1, sin (deg1 * f.dip) * along f 0, - cos (deg1 * f.dip)]

/-- Displacement of the hanging wall against the footwall. -/
noncomputable def Motion.jump (m : Motion) (f : Fault) : Vec := fun i => - m.rl * along f i + m.rev * upDip f i + m.opening * nrm f i

/-- Moment tensor of a dislocation `d` per unit area in a medium with Lamé's parameters `lam`, `mu`, with inflation. -/
noncomputable def dislocation (lam mu : ℝ) (d ν : Vec) (infl : ℝ) : Ten := fun i j =>
  let δ : ℝ := if i = j then 1 else 0
  lam * dot d ν * δ + mu * (d i * ν j + d j * ν i) + mu * infl * δ

/-! ### C63 -/

theorem setComponents_geo {f0 f1 : Fault} {rf : Bool} {v1 v2 : ℝ} (h : setComponents f0 rf v1 v2 = some f1) :
    f1.eastBegin = f0.eastBegin ∧ f1.northBegin = f0.northBegin ∧ f1.eastEnd = f0.eastEnd ∧ f1.northEnd = f0.northEnd ∧
      f1.kode = f0.kode ∧ f1.dip = f0.dip := by
  unfold setComponents at h
  split at h
  · cases h
  · split at h
    · injection h with h; subst h; split <;> simp [*]
    all_goals injection h with h; subst h; simp [*]

theorem setDerived_geo (f : Fault) :
    let g := setDerived f
    g.eastBegin = f.eastBegin ∧ g.northBegin = f.northBegin ∧ g.eastEnd = f.eastEnd ∧ g.northEnd = f.northEnd ∧
      g.kode = f.kode ∧ g.dip = f.dip ∧ g.rightLateral = f.rightLateral ∧ g.reverse = f.reverse ∧ g.tensile = f.tensile ∧
      g.inflate = f.inflate := by
  simp only [setDerived]; split <;> simp

/-- Frame vectors of the radiation routine in terms of the trace. -/
theorem frame_trace (f : Fault) (h : 0 < hyp (f.eastEnd - f.eastBegin) (f.northEnd - f.northBegin)) :
    let g := setDerived f
    (∀ rk i, slip (g.strike * deg1) (g.dip * deg1) rk i = cos rk * along f i + sin rk * upDip f i) ∧
    ∀ i, normal (g.strike * deg1) (g.dip * deg1) i = nrm f i := by
  intro g
  obtain ⟨hc, hs⟩ := strike_dir f h
  have hd : g.dip = f.dip := (setDerived_geo f).2.2.2.2.2.1
  change cos (deg1 * g.strike) = _ at hc
  change sin (deg1 * g.strike) = _ at hs
  rw [mul_comm g.strike, mul_comm g.dip, hd]
  refine ⟨fun rk i => ?_, fun i => ?_⟩
  · fin_cases i <;> simp [slip, along, upDip, hc, hs] <;> ring
  · fin_cases i <;> simp [normal, nrm, along, hc, hs]

theorem nrm_orth (f : Fault) (h : 0 < hyp (f.eastEnd - f.eastBegin) (f.northEnd - f.northBegin)) :
    dot (along f) (nrm f) = 0 ∧ dot (upDip f) (nrm f) = 0 ∧ dot (nrm f) (nrm f) = 1 := by
  obtain ⟨hc, hs⟩ := strike_dir f h
  have t := sin_sq_add_cos_sq (deg1 * (setDerived f).strike)
  have t2 := sin_sq_add_cos_sq (deg1 * f.dip)
  rw [hc, hs] at t
  refine ⟨?_, ?_, ?_⟩ <;> simp [dot, along, upDip, nrm] <;> grind

/-- C63: for every line of a Coulomb file that the reader accepts, in either format, and every subfault, the moment tensors of the
point sources that stand for it add up to the moment tensor of a dislocation over the area of the subfault, opening and
slipping as the columns say, in the medium of the source depth (Lamé's parameters in dyn/cm², areas in cm², displacement
in cm). -/
theorem C63_moment (f0 f1 : Fault) (rf : Bool) (v1 v2 : ℝ) (hclear : f0.rightLateral = 0 ∧ f0.reverse = 0 ∧ f0.tensile = 0 ∧ f0.inflate = 0)
    (hgeo : GeometryOk f0) (hread : setComponents f0 rf v1 v2 = some f1)
    (dL dW W L : ℝ) (iW iL : ℕ) (sub : Sub) (hsub : subfault (setDerived f1) dL dW W L iW iL = some sub)
    (lib : Library) (is : ℕ) (hvb : lib.vb is ≠ 0) (i j : Fin 3) :
    let mu := lib.rho is * (lib.vb is) ^ 2 * 1e10
    let lam := lib.rho is * (lib.va is ^ 2 - 2 * lib.vb is ^ 2) * 1e10
    let m := Motion.ofColumns f0.kode rf v1 v2
    let unit := if f0.kode.isPoint then 1e6 else (sub.width * 1e5) * (sub.length * 1e5) * 1e2
    ((calls (setDerived f1) sub).map fun Q => (Q.at lib is).M0 * tensorOf (Q.at lib is).ty (Q.at lib is).vpvs (Q.at lib is).m i j).sum
      = unit * dislocation lam mu (m.jump f0) (nrm f0) m.infl i j := by
  intro mu lam m unit
  obtain ⟨g1, g2, g3, g4, g5, g6⟩ := setComponents_geo hread
  have hfr : 0 < hyp (f1.eastEnd - f1.eastBegin) (f1.northEnd - f1.northBegin) := by rw [g1, g2, g3, g4]; exact hgeo.1
  obtain ⟨hslip, hnorm⟩ := frame_trace f1 hfr
  have hal : along f1 = along f0 := by unfold along; rw [g1, g2, g3, g4]
  have hup : upDip f1 = upDip f0 := by unfold upDip; rw [hal, g6]
  have hnr : nrm f1 = nrm f0 := by unfold nrm; rw [hal, g6]
  rw [hal, hup] at hslip
  rw [hnr] at hnorm
  obtain ⟨o1, o2, o3⟩ := nrm_orth f0 hgeo.1
  have hd : dot (m.jump f0) (nrm f0) = m.opening := by
    have : dot (m.jump f0) (nrm f0) = - m.rl * dot (along f0) (nrm f0) + m.rev * dot (upDip f0) (nrm f0) + m.opening * dot (nrm f0) (nrm f0) := by
      simp only [dot, Motion.jump]; ring
    rw [this, o1, o2, o3]; ring
  have hpot : sub.potency = (setDerived f1).slip * sub.width * sub.length * 1e12 := by
    unfold subfault at hsub
    dsimp only at hsub
    split at hsub
    · cases hsub
    · injection hsub with hsub; subst hsub; rfl
  have hr : ∀ x : ℝ, 1 / deg1 * x * deg1 = x := fun x => by have := deg1_pos.ne'; field_simp
  have e12 : (1e12 : ℝ) = 1e5 * 1e5 * 1e2 := by norm_num
  have h180 : 180 * deg1 = π := by unfold deg1; ring
  have h90 : 90 * deg1 = π / 2 := by unfold deg1; ring
  have hvp : lib.rho is * lib.vb is ^ 2 * ((lib.va is / lib.vb is) ^ 2 - 2) = lib.rho is * (lib.va is ^ 2 - 2 * lib.vb is ^ 2) := by
    field_simp
  obtain ⟨c1, c2, c3, c4⟩ := hclear
  obtain ⟨d1, d2, d3, d4, d5, d6, d7, d8, d9, d10⟩ := setDerived_geo f1
  unfold dislocation
  simp only [hd]
  obtain ⟨q1, q2⟩ := rake_slip f1.rightLateral f1.reverse
  have hrake : f1.kode ≠ .pointTensileInflate → (setDerived f1).rake * deg1 = atan2 f1.reverse (- f1.rightLateral) := by
    intro hk; simp only [setDerived, if_neg hk, hr]
  -- the motion stored by the reader
  have hmot : m = ⟨f1.rightLateral, f1.reverse, f1.tensile, f1.inflate⟩ := by
    unfold setComponents at hread
    split at hread
    · cases hread
    · rename_i hrf
      simp only [m, Motion.ofColumns]
      split at hread <;> rename_i hk
      · injection hread with hread; subst hread; cases rf <;> simp [hk, c1, c2, c3, c4]
      all_goals injection hread with hread; subst hread; simp [hk, c1, c2, c3, c4]
  have hzero : (f1.kode = .rtlatReverse → f1.tensile = 0 ∧ f1.inflate = 0) ∧ (f1.kode = .rtlatTensile → f1.reverse = 0 ∧ f1.inflate = 0) ∧
      (f1.kode = .tensileReverse → f1.rightLateral = 0 ∧ f1.inflate = 0) ∧ (f1.kode = .pointDC → f1.tensile = 0 ∧ f1.inflate = 0) ∧
      (f1.kode = .pointTensileInflate → f1.rightLateral = 0 ∧ f1.reverse = 0) := by
    unfold setComponents at hread
    split at hread
    · cases hread
    · split at hread <;> rename_i hk
      · injection hread with hread; subst hread; cases rf <;> simp [hk, c1, c2, c3, c4]
      all_goals injection hread with hread; subst hread; simp [hk, c1, c2, c3, c4]
  obtain ⟨z1, z2, z3, z4, z5⟩ := hzero
  simp only [Motion.jump, hmot]
  have key : ∀ (Q : Source), Q.potency = true → Q.m 0 = (setDerived f1).strike → Q.m 1 = (setDerived f1).dip →
      (Q.at lib is).M0 * tensorOf (Q.at lib is).ty (Q.at lib is).vpvs (Q.at lib is).m i j
      = Q.M0 * (match Q.ty with
        | .EX => mu * (if i = j then 1 else 0)
        | .DC => mu * ((cos (Q.m 2 * deg1) * along f0 i + sin (Q.m 2 * deg1) * upDip f0 i) * nrm f0 j
            + (cos (Q.m 2 * deg1) * along f0 j + sin (Q.m 2 * deg1) * upDip f0 j) * nrm f0 i)
        | .TS => lam * (if i = j then 1 else 0) + 2 * mu * nrm f0 i * nrm f0 j
        | .MT => mu * tensorOf .MT 0 Q.m i j
        | .SF => 0) := by
    intro Q hp h0 h1
    obtain ⟨ty, M0, p, qm⟩ := Q
    dsimp only at hp h0 h1 ⊢
    subst hp
    simp only [Source.at, if_true, if_neg hvb, tensorOf]
    cases ty
    · dsimp only; simp only [mu]; ring
    · simp
    · dsimp only; rw [h0, h1, hslip, hslip, hnorm, hnorm]; simp only [mu]; ring
    · dsimp only; rw [h0, h1, hnorm, hnorm]
      have : lam = mu * ((lib.va is / lib.vb is) ^ 2 - 2) := by simp only [lam, mu]; rw [← hvp]; ring
      rw [this]; simp only [mu]; ring
    · dsimp only; simp only [mu]; ring
  have hite : ∀ (x : ℝ) (Q : Source) (F : Source → ℝ), (x = 0 → F Q = 0) → ((if x ≠ 0 then [Q] else []).map F).sum = F Q := by
    intro x Q F h
    by_cases hx : x = 0
    · simp [hx, h hx]
    · simp [hx]
  have hk0 : f0.kode = f1.kode := g5.symm
  simp only [calls, d5]
  set F : Source → ℝ := fun Q => (Q.at lib is).M0 * tensorOf (Q.at lib is).ty (Q.at lib is).vpvs (Q.at lib is).m i j with hF
  have hun : unit = if f1.kode.isPoint then 1e6 else (sub.width * 1e5) * (sub.length * 1e5) * 1e2 := by
    simp only [unit, hk0]
  generalize unit = u at *
  subst hun
  generalize (if i = j then (1 : ℝ) else 0) = δ at key ⊢
  rcases hk : f1.kode with _ | _ | _ | _ | _
  · obtain ⟨y1, y2⟩ := z1 hk
    have hs : (setDerived f1).slip = hyp f1.rightLateral f1.reverse := by simp [setDerived, hk, Kode.isPoint]
    dsimp only
    rw [List.map_singleton, List.sum_singleton, hF]; dsimp only
    rw [key _ rfl rfl rfl, hpot, hs, y1, y2]
    have hrk := hrake (by rw [hk]; decide)
    simp [Kode.isPoint, hrk]
    generalize hyp f1.rightLateral f1.reverse = h at *
    generalize cos (atan2 f1.reverse (-f1.rightLateral)) = C at *
    generalize sin (atan2 f1.reverse (-f1.rightLateral)) = Sn at *
    rw [show f1.rightLateral = -(h * C) by linarith, ← q2, e12]; ring
  · obtain ⟨y1, y2⟩ := z2 hk
    dsimp only
    rw [List.map_append, List.sum_append, hite, hite, hF]
    · dsimp only
      rw [key _ rfl rfl rfl, key _ rfl rfl rfl, d7, d9, y1, y2]
      simp [Kode.isPoint, h180, e12]; ring
    · intro h0; rw [hF]; dsimp only; rw [key _ rfl rfl rfl]; dsimp only; rw [h0]; ring
    · intro h0; rw [hF]; dsimp only; rw [key _ rfl rfl rfl]; dsimp only; rw [h0]; ring
  · obtain ⟨y1, y2⟩ := z3 hk
    dsimp only
    rw [List.map_append, List.sum_append, hite, hite, hF]
    · dsimp only
      rw [key _ rfl rfl rfl, key _ rfl rfl rfl, d8, d9, y1, y2]
      simp [Kode.isPoint, h90, e12]; ring
    · intro h0; rw [hF]; dsimp only; rw [key _ rfl rfl rfl]; dsimp only; rw [h0]; ring
    · intro h0; rw [hF]; dsimp only; rw [key _ rfl rfl rfl]; dsimp only; rw [h0]; ring
  · obtain ⟨y1, y2⟩ := z4 hk
    dsimp only
    rw [hite, hF]
    · dsimp only
      rw [key _ rfl rfl rfl, d7, d8, y1, y2]
      have hrk := hrake (by rw [hk]; decide)
      simp [Kode.isPoint, hrk]
      generalize hyp f1.rightLateral f1.reverse = h at *
      generalize cos (atan2 f1.reverse (-f1.rightLateral)) = C at *
      generalize sin (atan2 f1.reverse (-f1.rightLateral)) = Sn at *
      rw [show f1.rightLateral = -(h * C) by linarith, ← q2]; ring
    · intro h0; rw [hF]; dsimp only; rw [key _ rfl rfl rfl]; dsimp only; rw [h0]; ring
  · obtain ⟨y1, y2⟩ := z5 hk
    dsimp only
    rw [List.map_append, List.sum_append, hite, hite, hF]
    · dsimp only
      rw [key _ rfl rfl rfl, key _ rfl rfl rfl, d9, d10, y1, y2]
      simp [Kode.isPoint]; ring
    · intro h0; rw [hF]; dsimp only; rw [key _ rfl rfl rfl]; dsimp only; rw [h0]; ring
    · intro h0; rw [hF]; dsimp only; rw [key _ rfl rfl rfl]; dsimp only; rw [h0]; ring

/-- The formats disagree only where the `.inr` format is refused. -/
theorem C63_inr_only_100 (f0 : Fault) (rf : Bool) (v1 v2 : ℝ) :
    setComponents f0 rf v1 v2 = none ↔ rf = true ∧ f0.kode ≠ .rtlatReverse := by
  unfold setComponents
  split
  · rename_i h; simpa using h
  · rename_i h
    refine ⟨fun h0 => ?_, fun h0 => absurd h0 h⟩
    split at h0 <;> simp at h0

/-- A vertical fault of Kode 200 striking north, one metre of right-lateral slip and half a metre of opening, as one cell. -/
example : ∃ f1 sub, let f0 : Fault := ⟨0, 0, 0, 10, .rtlatTensile, 0, 0, 0, 0, 90, 5, 12, 0, 0, 0⟩
    GeometryOk f0 ∧ setComponents f0 false 1 (1/2) = some f1 ∧ subfault (setDerived f1) 10 7 7 10 0 0 = some sub := by
  have hL : hyp (0 - 0) (10 - 0) = 10 := by
    rw [hyp, show ((0:ℝ) - 0) ^ 2 + (10 - 0) ^ 2 = 10 ^ 2 by norm_num, sqrt_sq (by norm_num)]
  have hs : ∃ sub, subfault (setDerived ⟨0, 0, 0, 10, .rtlatTensile, 1, 0, 1/2, 0, 90, 5, 12, 0, 0, 0⟩) 10 7 7 10 0 0 = some sub := by
    unfold subfault; dsimp only; rw [if_neg (by norm_num)]; exact ⟨_, rfl⟩
  obtain ⟨sub, hs⟩ := hs
  exact ⟨_, sub, ⟨by simp only [hL]; norm_num, by norm_num, by norm_num, by norm_num⟩, by simp [setComponents], hs⟩

end GRT.StaticSyn
