import Verif.Okada.FiniteG

/-! Properties of Okada's rectangular faults (C98-C101). -/

namespace GRT.Okada

open Spec MeasureTheory Set

/-- The results of the program at a position; zero where the program fails. -/
noncomputable def finAt (alpha depth dip l1 l2 w1 w2 d1 d2 d3 : ℝ) (q : V3) : D12 :=
  match dc3d alpha (q 0) (q 1) (q 2) depth dip l1 l2 w1 w2 d1 d2 d3 with
  | some (_, o) => o
  | none => D12.zero

/-- More than 10⁻⁶ away from the planes through the edges of the fault and of its image, and below the surface. -/
structure GoodFin (sd cd dep l1 l2 w1 w2 : ℝ) (p : V3) : Prop where
  x1 : 1 / 1000000 < |p 0 - l1|
  x2 : 1 / 1000000 < |p 0 - l2|
  r1 : 1 / 1000000 < |upDip sd cd (p 1) (dep + p 2) - w1|
  r2 : 1 / 1000000 < |upDip sd cd (p 1) (dep + p 2) - w2|
  rq : 1 / 1000000 < |across sd cd (p 1) (dep + p 2)|
  i1 : 1 / 1000000 < |upDip sd cd (p 1) (dep - p 2) - w1|
  i2 : 1 / 1000000 < |upDip sd cd (p 1) (dep - p 2) - w2|
  iq : 1 / 1000000 < |across sd cd (p 1) (dep - p 2)|
  z : p 2 < 0

theorem GoodFin.plain {sd cd dep l1 l2 w1 w2 : ℝ} {p : V3} (h : GoodFin sd cd dep l1 l2 w1 w2 p) : PlainFin sd cd dep l1 l2 w1 w2 p :=
  ⟨Or.inr h.x1.le, Or.inr h.x2.le, Or.inr h.r1.le, Or.inr h.r2.le, h.rq.le, Or.inr h.i1.le, Or.inr h.i2.le, h.iq.le⟩

theorem PlainFin.off {sd cd dep l1 l2 w1 w2 : ℝ} {p : V3} (h : PlainFin sd cd dep l1 l2 w1 w2 p) : Off sd cd dep p :=
  ⟨ne_of_abs h.rq, ne_of_abs h.iq⟩

theorem goodFin_near {sd cd dep l1 l2 w1 w2 : ℝ} {p : V3} (h : GoodFin sd cd dep l1 l2 w1 w2 p) (i : Fin 3) :
    ∀ᶠ t in nhds (p i), GoodFin sd cd dep l1 l2 w1 w2 (Function.update p i t) := by
  have o : IsOpen {q | GoodFin sd cd dep l1 l2 w1 w2 q} := by
    have : {q | GoodFin sd cd dep l1 l2 w1 w2 q} = {q : V3 | (1 / 1000000 < |q 0 - l1| ∧ 1 / 1000000 < |q 0 - l2|) ∧
        (1 / 1000000 < |upDip sd cd (q 1) (dep + q 2) - w1| ∧ 1 / 1000000 < |upDip sd cd (q 1) (dep + q 2) - w2|) ∧
        1 / 1000000 < |across sd cd (q 1) (dep + q 2)| ∧
        (1 / 1000000 < |upDip sd cd (q 1) (dep - q 2) - w1| ∧ 1 / 1000000 < |upDip sd cd (q 1) (dep - q 2) - w2|) ∧
        1 / 1000000 < |across sd cd (q 1) (dep - q 2)| ∧ q 2 < 0} := by
      ext q
      exact ⟨fun h => ⟨⟨h.1, h.2⟩, ⟨h.3, h.4⟩, h.5, ⟨h.6, h.7⟩, h.8, h.9⟩,
        fun h => ⟨h.1.1, h.1.2, h.2.1.1, h.2.1.2, h.2.2.1, h.2.2.2.1.1, h.2.2.2.1.2, h.2.2.2.2.1, h.2.2.2.2.2⟩⟩
    rw [this]
    unfold upDip across
    exact ((isOpen_lt continuous_const (by fun_prop)).and (isOpen_lt continuous_const (by fun_prop))).and
      (((isOpen_lt continuous_const (by fun_prop)).and (isOpen_lt continuous_const (by fun_prop))).and
      ((isOpen_lt continuous_const (by fun_prop)).and
      (((isOpen_lt continuous_const (by fun_prop)).and (isOpen_lt continuous_const (by fun_prop))).and
      ((isOpen_lt continuous_const (by fun_prop)).and (isOpen_lt (by fun_prop) continuous_const)))))
  have c : Continuous (fun t => Function.update p i t) := continuous_const.update i continuous_id
  refine c.continuousAt.eventually (o.mem_nhds ?_)
  simpa using h

theorem dip_tr (dip : ℝ) : sinDip dip * sinDip dip + cosDip dip * cosDip dip = 1 := by
  have := Real.sin_sq_add_cos_sq (dip * Real.pi / 180)
  unfold sinDip cosDip
  linarith

theorem finAt_good {al dip dep l1 l2 w1 w2 : ℝ} (ha : al ≠ 0) (hdip : Plain (cosDip dip)) (hs : 0 ≤ sinDip dip) (d1 d2 d3 : ℝ)
    (k1 : w1 * sinDip dip ≤ dep) (k2 : w2 * sinDip dip ≤ dep) {p : V3} (h : GoodFin (sinDip dip) (cosDip dip) dep l1 l2 w1 w2 p) :
    finAt al dep dip l1 l2 w1 w2 d1 d2 d3 p = finT al (sinDip dip) (cosDip dip) dep l1 l2 w1 w2 d1 d2 d3 p := by
  simp only [finAt, fin_program ha hdip hs d1 d2 d3 h.z.le k1 k2 h.plain]

/-- **C98.** The nine derivatives the rectangular fault reports are the derivatives of the displacements it reports, for every medium,
dip, fault at or below the surface, slip and position off the planes through the edges. -/
theorem C98_derivatives {al dip dep l1 l2 w1 w2 : ℝ} (ha : al ≠ 0) (hdip : Plain (cosDip dip)) (hs : 0 ≤ sinDip dip) (d1 d2 d3 : ℝ)
    (k1 : w1 * sinDip dip ≤ dep) (k2 : w2 * sinDip dip ≤ dep) {p : V3} (h : GoodFin (sinDip dip) (cosDip dip) dep l1 l2 w1 w2 p) :
    IsGradAt (fun q => (finAt al dep dip l1 l2 w1 w2 d1 d2 d3 q).disp) (fun q => (finAt al dep dip l1 l2 w1 w2 d1 d2 d3 q).upar) p := by
  intro i c
  have e := finT_grad (al := al) (l1 := l1) (l2 := l2) (d1 := d1) (d2 := d2) (d3 := d3) (dip_tr dip) hs h.plain.off.real h.plain.off.img
    (show 0 ≤ dep - p 2 - w1 * sinDip dip by linarith [h.z]) (show 0 ≤ dep - p 2 - w2 * sinDip dip by linarith [h.z]) i c
  unfold PartialAt at e ⊢
  dsimp only at e ⊢
  rw [finAt_good ha hdip hs d1 d2 d3 k1 k2 h]
  refine e.congr_of_eventuallyEq ?_
  filter_upwards [goodFin_near h i] with t ht
  rw [finAt_good ha hdip hs d1 d2 d3 k1 k2 ht]

/-- **C99.** The results are those of a sheet of point sources: displacements and derivatives are the integrals over the fault of the
responses of the half-space to point sources with the moment tensor of the slip. -/
theorem C99_integral {lam mu : ℝ} (hm : 0 < mu) (hlm : 0 < lam + mu) {dip : ℝ} (hdip : Plain (cosDip dip)) (hs : 0 ≤ sinDip dip)
    (d1 d2 d3 : ℝ) :
    ∃ (u : ℝ → V3 → V3) (g : ℝ → V3 → Fin 3 → V3),
      (∀ d, 0 < d → IsHalfSpace lam mu (moment lam mu (sinDip dip) (cosDip dip) d1 d2 d3 0) d (u d) (g d)) ∧
      ∀ (dep l1 l2 w1 w2 : ℝ) (p : V3), l1 ≤ l2 → w1 ≤ w2 → w1 * sinDip dip ≤ dep → w2 * sinDip dip ≤ dep → p 2 ≤ 0 →
        PlainFin (sinDip dip) (cosDip dip) dep l1 l2 w1 w2 p →
        ∃ out, dc3d ((lam + mu) / (lam + 2 * mu)) (p 0) (p 1) (p 2) dep dip l1 l2 w1 w2 d1 d2 d3 = some (0, out) ∧
          (∀ c, out.disp c = ∫ s in l1..l2, ∫ w in w1..w2, u (dep - w * sinDip dip) (p - ![s, w * cosDip dip, 0]) c) ∧
          ∀ i c, out.upar i c = ∫ s in l1..l2, ∫ w in w1..w2, g (dep - w * sinDip dip) (p - ![s, w * cosDip dip, 0]) i c := by
  have h2 : lam + 2 * mu ≠ 0 := by linarith
  have ha : (lam + mu) / (lam + 2 * mu) ≠ 0 := div_ne_zero hlm.ne' h2
  have tr := dip_tr dip
  refine ⟨fun d q => (ptField ((lam + mu) / (lam + 2 * mu)) (sinDip dip) (cosDip dip) d1 d2 d3 d q).disp,
    fun d q => (ptField ((lam + mu) / (lam + 2 * mu)) (sinDip dip) (cosDip dip) d1 d2 d3 d q).upar, fun d hd => ?_, ?_⟩
  · have := point_solves hm hlm tr hd d1 d2 d3 0
    simp only [sum_eq] at this
    exact this
  · intro dep l1 l2 w1 w2 p hl hw k1 k2 hz hp
    have m1 : 0 ≤ dep - p 2 - w1 * sinDip dip := by linarith
    have m2 : 0 ≤ dep - p 2 - w2 * sinDip dip := by linarith
    refine ⟨_, fin_program ha hdip hs d1 d2 d3 hz k1 k2 hp, fun c => ?_, fun i c => ?_⟩
    · exact fin_disp tr hs d1 d2 d3 hp.off hw m1 m2 c
    · rw [fin_upar tr hs d1 d2 d3 hp.off hl hw m1 m2 i c, rect_int hl hw ((patch_slice tr hs d1 d2 d3 hp.off m1 m2 l1 l2).2 i c)]
      rfl

/-- **C100.** The stresses that follow from the reported derivatives balance, and at the surface there is no traction. -/
theorem C100_equilibrium {lam mu : ℝ} (hm : 0 < mu) (hlm : 0 < lam + mu) {dip dep l1 l2 w1 w2 : ℝ} (hdip : Plain (cosDip dip))
    (hs : 0 ≤ sinDip dip) (d1 d2 d3 : ℝ) (hl : l1 ≤ l2) (hw : w1 ≤ w2) (k1 : w1 * sinDip dip ≤ dep) (k2 : w2 * sinDip dip ≤ dep) :
    (∀ p, GoodFin (sinDip dip) (cosDip dip) dep l1 l2 w1 w2 p →
      EquilAt lam mu (fun q => (finAt ((lam + mu) / (lam + 2 * mu)) dep dip l1 l2 w1 w2 d1 d2 d3 q).upar) p) ∧
    ∀ x y, PlainFin (sinDip dip) (cosDip dip) dep l1 l2 w1 w2 ![x, y, 0] →
      ∃ out, dc3d ((lam + mu) / (lam + 2 * mu)) x y 0 dep dip l1 l2 w1 w2 d1 d2 d3 = some (0, out) ∧
        ∀ c, stress lam mu out.upar c 2 = 0 := by
  have ha : (lam + mu) / (lam + 2 * mu) ≠ 0 := div_ne_zero hlm.ne' (by linarith)
  constructor
  · intro p hp c
    obtain ⟨s, h1, h2⟩ := fin_equil hm hlm (dip_tr dip) hs d1 d2 d3 hp.plain.off hl hw k1 k2 hp.z c
    refine ⟨s, fun j => ?_, h2⟩
    have e := h1 j
    unfold PartialAt at e ⊢
    refine e.congr_of_eventuallyEq ?_
    filter_upwards [goodFin_near hp j] with t ht
    rw [finAt_good ha hdip hs d1 d2 d3 k1 k2 ht]
  · intro x y hp
    exact ⟨_, fin_program (p := ![x, y, 0]) ha hdip hs d1 d2 d3 le_rfl k1 k2 hp,
      fin_free hm hlm (dip_tr dip) hs d1 d2 d3 hp.off hl hw k1 k2 rfl⟩

/-- Within 10⁻⁶ of an edge of the rectangle, for a position `x` along the strike, `p` up the dip and `q` across. -/
def NearEdge (l1 l2 w1 w2 x p q : ℝ) : Prop :=
  |q| < 1 / 1000000 ∧
    (l1 - 1 / 1000000 < x ∧ x < l2 + 1 / 1000000 ∧ (|p - w1| < 1 / 1000000 ∨ |p - w2| < 1 / 1000000) ∨
      w1 - 1 / 1000000 < p ∧ p < w2 + 1 / 1000000 ∧ (|x - l1| < 1 / 1000000 ∨ |x - l2| < 1 / 1000000))

theorem snap_zero (v : ℝ) : snap v = 0 ↔ |v| < 1 / 1000000 := by
  unfold snap eps
  split
  · rename_i h
    exact ⟨fun _ => h, fun _ => rfl⟩
  · rename_i h
    constructor
    · rintro rfl
      norm_num
    · exact fun q => absurd q h

theorem snap_snap (v : ℝ) : snap (snap v) = snap v := by
  by_cases h : |v| < 1 / 1000000
  · rw [(snap_zero v).2 h, (snap_zero 0).2 (by norm_num)]
  · rw [snap_plain (Or.inr (not_lt.1 h)), snap_plain (Or.inr (not_lt.1 h))]

theorem snap_mul_le {a b : ℝ} (h : b ≤ a) : snap a * snap b ≤ 0 ↔ -(1 / 1000000) < a ∧ b < 1 / 1000000 := by
  unfold snap eps
  by_cases ha : |a| < 1 / 1000000 <;> by_cases hb : |b| < 1 / 1000000
  · rw [if_pos ha, if_pos hb]
    rw [abs_lt] at ha hb
    simp only [mul_zero, le_refl, true_iff]
    exact ⟨ha.1, hb.2⟩
  · rw [if_pos ha, if_neg hb]
    rw [abs_lt] at ha
    simp only [zero_mul, le_refl, true_iff]
    exact ⟨ha.1, by linarith⟩
  · rw [if_neg ha, if_pos hb]
    rw [abs_lt] at hb
    simp only [mul_zero, le_refl, true_iff]
    exact ⟨by linarith, hb.2⟩
  · rw [if_neg ha, if_neg hb]
    rw [not_lt, le_abs] at ha hb
    constructor
    · intro hm
      rcases ha with ha | ha <;> rcases hb with hb | hb
      · nlinarith
      · exact ⟨by linarith, by linarith⟩
      · linarith
      · nlinarith
    · rintro ⟨h1, h2⟩
      rcases ha with ha | ha <;> rcases hb with hb | hb
      · linarith
      · nlinarith
      · linarith
      · linarith

theorem sing_iff {l1 l2 w1 w2 : ℝ} (hl : l1 ≤ l2) (hw : w1 ≤ w2) (x p q : ℝ) :
    finSingular (snap q) (snap (x - l1)) (snap (x - l2)) (snap (p - w1)) (snap (p - w2)) ↔ NearEdge l1 l2 w1 w2 x p q := by
  unfold finSingular NearEdge
  rw [snap_zero, snap_mul_le (by linarith : x - l2 ≤ x - l1), snap_mul_le (by linarith : p - w2 ≤ p - w1), mul_eq_zero, mul_eq_zero,
    snap_zero, snap_zero, snap_zero, snap_zero]
  have e1 : -(1 / 1000000) < x - l1 ↔ l1 - 1 / 1000000 < x := by constructor <;> intro h <;> linarith
  have e2 : x - l2 < 1 / 1000000 ↔ x < l2 + 1 / 1000000 := by constructor <;> intro h <;> linarith
  have e3 : -(1 / 1000000) < p - w1 ↔ w1 - 1 / 1000000 < p := by constructor <;> intro h <;> linarith
  have e4 : p - w2 < 1 / 1000000 ↔ p < w2 + 1 / 1000000 := by constructor <;> intro h <;> linarith
  rw [e1, e2, e3, e4, and_assoc, and_assoc]

theorem rr_zero {x e q : ℝ} (h : rr x e q = 0) : x = 0 ∧ e = 0 ∧ q = 0 := by
  have h' : x * x + e * e + q * q = 0 := (Real.sqrt_eq_zero (nn3 x e q)).1 h
  refine ⟨?_, ?_, ?_⟩ <;> nlinarith [mul_self_nonneg x, mul_self_nonneg e, mul_self_nonneg q]

theorem rr_abs {x e q : ℝ} (h : rr x e q = |x|) : e = 0 ∧ q = 0 := by
  have h1 : rr x e q * rr x e q = x * x := by rw [h, abs_mul_abs_self]
  have h2 : rr x e q * rr x e q = x * x + e * e + q * q := Real.mul_self_sqrt (nn3 x e q)
  constructor <;> nlinarith [mul_self_nonneg e, mul_self_nonneg q]

open Classical in
/-- At a corner off which the position is, nothing is divided by zero and no logarithm of zero is taken. -/
theorem dccon2_some {c : Med} {a b q : ℝ} (h : ¬(snap a = 0 ∧ snap b = 0 ∧ snap q = 0)) :
    ∃ f, dccon2 c (snap a) (snap b) (snap q) = some f ∧ f.r = rr (snap a) (snap b) (snap q) ∧ f.d = snap b * c.sd - snap q * c.cd := by
  unfold dccon2
  simp only [snap_snap]
  generalize snap a = x at *
  generalize snap b = e at *
  generalize snap q = q at *
  have r0 : rr x e q ≠ 0 := fun h0 => h (rr_zero h0)
  have rp : 0 < rr x e q := lt_of_le_of_ne (Real.sqrt_nonneg _) r0.symm
  have er : ∀ (k1 k2 : Prop) [Decidable k1] [Decidable k2], (corOf c x e q k1 k2).r = rr x e q := fun _ _ => rfl
  rw [if_neg (by rw [er]; exact r0), if_neg]
  · exact ⟨_, rfl, rfl, rfl⟩
  · rintro (h1 | h1)
    · split at h1
      · rename_i hk
        have : rr x e q - x = 0 := h1
        linarith [hk.1]
      · rename_i hk
        have h2 : rr x e q + x = 0 := h1
        have hx : x < 0 := by linarith
        obtain ⟨h3, h4⟩ := rr_abs (x := x) (e := e) (q := q) (by rw [abs_of_neg hx]; linarith)
        exact hk ⟨hx, h4, h3⟩
    · split at h1
      · rename_i hk
        have : rr x e q - e = 0 := h1
        linarith [hk.1]
      · rename_i hk
        have h2 : rr x e q + e = 0 := h1
        have hx : e < 0 := by linarith
        have hs : rr e x q = rr x e q := by unfold rr; congr 1; ring
        obtain ⟨h3, h4⟩ := rr_abs (x := e) (e := x) (q := q) (by rw [abs_of_neg hx, hs]; linarith)
        exact hk ⟨hx, h4, h3⟩

/-- The distance an image corner is away from the depth of the observer, plus that away from the observer, is not zero. -/
theorem rd_ne {sd cd y d w a : ℝ} (tr : sd * sd + cd * cd = 1) (hs : 0 ≤ sd) (hd : 0 ≤ d) (hw : 0 ≤ d - w * sd)
    (h : ¬(snap a = 0 ∧ snap (upDip sd cd y d - w) = 0 ∧ snap (across sd cd y d) = 0)) :
    rr (snap a) (snap (upDip sd cd y d - w)) (snap (across sd cd y d)) +
      (snap (upDip sd cd y d - w) * sd - snap (across sd cd y d) * cd) ≠ 0 := by
  have r0 : rr (snap a) (snap (upDip sd cd y d - w)) (snap (across sd cd y d)) ≠ 0 := fun h0 => h (rr_zero h0)
  have rp := lt_of_le_of_ne (Real.sqrt_nonneg _) r0.symm
  change 0 < rr _ _ _ at rp
  have key : 0 ≤ snap (upDip sd cd y d - w) * sd - snap (across sd cd y d) * cd ∨
      |snap (upDip sd cd y d - w) * sd - snap (across sd cd y d) * cd| < rr (snap a) (snap (upDip sd cd y d - w)) (snap (across sd cd y d)) := by
    by_cases he : |upDip sd cd y d - w| < 1 / 1000000 <;> by_cases hq : |across sd cd y d| < 1 / 1000000
    · left
      rw [(snap_zero _).2 he, (snap_zero _).2 hq]
      simp
    · rw [(snap_zero _).2 he, snap_plain (Or.inr (not_lt.1 hq))]
      have q0 : across sd cd y d ≠ 0 := ne_of_abs (not_lt.1 hq)
      by_cases s0 : sd = 0
      · left
        subst s0
        have c1 : cd * cd = 1 := by linarith
        unfold across
        nlinarith
      · right
        have : cd * cd < 1 := by nlinarith [mul_self_pos.2 s0]
        rw [zero_mul, zero_sub, abs_neg]
        refine Real.lt_sqrt_of_sq_lt ?_
        rw [sq_abs]
        nlinarith [mul_self_nonneg (snap a), mul_self_pos.2 q0]
    · rw [(snap_zero _).2 hq, snap_plain (Or.inr (not_lt.1 he))]
      have e0 : upDip sd cd y d - w ≠ 0 := ne_of_abs (not_lt.1 he)
      by_cases c0 : cd = 0
      · left
        subst c0
        have s1 : sd = 1 := by nlinarith
        subst s1
        unfold upDip
        nlinarith
      · right
        have : sd * sd < 1 := by nlinarith [mul_self_pos.2 c0]
        rw [zero_mul, sub_zero]
        refine Real.lt_sqrt_of_sq_lt ?_
        rw [sq_abs]
        nlinarith [mul_self_nonneg (snap a), mul_self_pos.2 e0]
    · left
      rw [snap_plain (Or.inr (not_lt.1 he)), snap_plain (Or.inr (not_lt.1 hq)), dist_depth tr]
      exact hw
  rcases key with k | k
  · linarith
  · have := (abs_lt.1 k).1
    linarith

theorem addCorners_some {f : ℝ → ℝ → Option D12} {x0 x1 e0 e1 : ℝ} (h : ∀ x e, (x = x0 ∨ x = x1) → (e = e0 ∨ e = e1) → ∃ o, f x e = some o)
    (u : D12) : ∃ o, addCorners f x0 x1 e0 e1 u = some o := by
  obtain ⟨a, ha⟩ := h x0 e0 (Or.inl rfl) (Or.inl rfl)
  obtain ⟨b, hb⟩ := h x1 e0 (Or.inr rfl) (Or.inl rfl)
  obtain ⟨c, hc⟩ := h x0 e1 (Or.inl rfl) (Or.inr rfl)
  obtain ⟨d, hd⟩ := h x1 e1 (Or.inr rfl) (Or.inr rfl)
  exact ⟨_, by simp only [addCorners, ha, hb, hc, hd, Option.bind_eq_bind, Option.bind_some]; rfl⟩

open Classical in
/-- **C101.** For a fault at or below the surface nothing is divided by zero: above the surface the call fails with code 2 and zero
results, within 10⁻⁶ of an edge of the fault or of its image with code 1, and everywhere else it succeeds. -/
theorem C101_codes {al x y z dep dip l1 l2 w1 w2 : ℝ} (ha : al ≠ 0) (hdip : Plain (cosDip dip)) (hs : 0 ≤ sinDip dip) (d1 d2 d3 : ℝ)
    (hl : l1 ≤ l2) (hw : w1 ≤ w2) (hd : 0 ≤ dep) (k1 : w1 * sinDip dip ≤ dep) (k2 : w2 * sinDip dip ≤ dep) :
    ∃ code out, dc3d al x y z dep dip l1 l2 w1 w2 d1 d2 d3 = some (code, out) ∧ (code = 2 ↔ 0 < z) ∧
      (code = 1 ↔ z ≤ 0 ∧ ∃ d, (d = dep + z ∨ d = dep - z) ∧ NearEdge l1 l2 w1 w2 x (y * cosDip dip + d * sinDip dip)
        (y * sinDip dip - d * cosDip dip)) ∧
      (code = 0 ∨ code = 1 ∨ code = 2) ∧ (code = 2 → out = D12.zero) := by
  have tr := dip_tr dip
  unfold dc3d
  by_cases hz : 0 < z
  · rw [if_pos hz]
    exact ⟨2, _, rfl, by simpa using hz, by simp [hz], by simp, fun _ => rfl⟩
  have z0 := not_lt.1 hz
  rw [if_neg hz, if_neg ha]
  unfold dccon0
  rw [dipSC_plain hdip]
  have ms : (medOf al (sinDip dip) (cosDip dip)).sd = sinDip dip := rfl
  have mc : (medOf al (sinDip dip) (cosDip dip)).cd = cosDip dip := rfl
  dsimp only
  simp only [ms, mc]
  rw [sing_iff hl hw]
  by_cases n1 : NearEdge l1 l2 w1 w2 x (y * cosDip dip + (dep + z) * sinDip dip) (y * sinDip dip - (dep + z) * cosDip dip)
  · rw [if_pos n1]
    exact ⟨1, _, rfl, by simp [z0], by simpa [z0] using Or.inl n1, by simp, by simp⟩
  rw [if_neg n1]
  have nz : ∀ d, ¬NearEdge l1 l2 w1 w2 x (y * cosDip dip + d * sinDip dip) (y * sinDip dip - d * cosDip dip) →
      ∀ a w, (a = l1 ∨ a = l2) → (w = w1 ∨ w = w2) → ¬(snap (x - a) = 0 ∧ snap (y * cosDip dip + d * sinDip dip - w) = 0 ∧
        snap (y * sinDip dip - d * cosDip dip) = 0) := by
    intro d hn a w hal haw hh
    rw [snap_zero, snap_zero, snap_zero] at hh
    obtain ⟨h1, h2, h3⟩ := hh
    refine hn ⟨h3, Or.inl ?_⟩
    have := abs_lt.1 h1
    refine ⟨?_, ?_, ?_⟩
    · rcases hal with rfl | rfl <;> linarith [this.1]
    · rcases hal with rfl | rfl <;> linarith [this.2]
    · rcases haw with rfl | rfl
      · exact Or.inl h2
      · exact Or.inr h2
  obtain ⟨u, hu⟩ := addCorners_some (f := cornerReal (medOf al (sinDip dip) (cosDip dip)) d1 d2 d3
      (snap (y * sinDip dip - (dep + z) * cosDip dip))) (x0 := snap (x - l1)) (x1 := snap (x - l2))
      (e0 := snap (y * cosDip dip + (dep + z) * sinDip dip - w1)) (e1 := snap (y * cosDip dip + (dep + z) * sinDip dip - w2)) (by
    have : ∀ a w, (a = l1 ∨ a = l2) → (w = w1 ∨ w = w2) → ∃ o, cornerReal (medOf al (sinDip dip) (cosDip dip)) d1 d2 d3
        (snap (y * sinDip dip - (dep + z) * cosDip dip)) (snap (x - a)) (snap (y * cosDip dip + (dep + z) * sinDip dip - w)) = some o := by
      intro a w hal haw
      obtain ⟨f, hf, -, -⟩ := dccon2_some (c := medOf al (sinDip dip) (cosDip dip)) (nz _ n1 a w hal haw)
      exact ⟨_, by simp only [cornerReal, hf, Option.map_some]; rfl⟩
    rintro _ _ (rfl | rfl) (rfl | rfl)
    exacts [this _ _ (Or.inl rfl) (Or.inl rfl), this _ _ (Or.inl rfl) (Or.inr rfl), this _ _ (Or.inr rfl) (Or.inl rfl),
      this _ _ (Or.inr rfl) (Or.inr rfl)]) D12.zero
  rw [hu, Option.bind_some]
  rw [sing_iff hl hw]
  by_cases n2 : NearEdge l1 l2 w1 w2 x (y * cosDip dip + (dep - z) * sinDip dip) (y * sinDip dip - (dep - z) * cosDip dip)
  · rw [if_pos n2]
    exact ⟨1, _, rfl, by simp [z0], by simpa [z0] using Or.inr n2, by simp, by simp⟩
  rw [if_neg n2]
  obtain ⟨o, ho⟩ := addCorners_some (f := cornerImg (medOf al (sinDip dip) (cosDip dip)) z d1 d2 d3
      (snap (y * sinDip dip - (dep - z) * cosDip dip))) (x0 := snap (x - l1)) (x1 := snap (x - l2))
      (e0 := snap (y * cosDip dip + (dep - z) * sinDip dip - w1)) (e1 := snap (y * cosDip dip + (dep - z) * sinDip dip - w2)) (by
    have : ∀ a w, (a = l1 ∨ a = l2) → (w = w1 ∨ w = w2) → ∃ o, cornerImg (medOf al (sinDip dip) (cosDip dip)) z d1 d2 d3
        (snap (y * sinDip dip - (dep - z) * cosDip dip)) (snap (x - a)) (snap (y * cosDip dip + (dep - z) * sinDip dip - w)) = some o := by
      intro a w hal haw
      obtain ⟨f, hf, fr, fd⟩ := dccon2_some (c := medOf al (sinDip dip) (cosDip dip)) (nz _ n2 a w hal haw)
      have rd := rd_ne (a := x - a) (y := y) (d := dep - z) (w := w) tr hs (by linarith) (by rcases haw with rfl | rfl <;> linarith)
        (nz _ n2 a w hal haw)
      simp only [cornerImg, hf, Option.bind_some]
      rw [if_neg (by rw [fr, fd]; exact rd)]
      exact ⟨_, rfl⟩
    rintro _ _ (rfl | rfl) (rfl | rfl)
    exacts [this _ _ (Or.inl rfl) (Or.inl rfl), this _ _ (Or.inl rfl) (Or.inr rfl), this _ _ (Or.inr rfl) (Or.inl rfl),
      this _ _ (Or.inr rfl) (Or.inr rfl)]) u
  rw [ho, Option.map_some]
  refine ⟨0, _, rfl, by simp [z0], ?_, by simp, by simp⟩
  constructor
  · intro h
    exact absurd h (by norm_num)
  · rintro ⟨-, d, rfl | rfl, h⟩
    · exact absurd h n1
    · exact absurd h n2

theorem cosDip_60 : cosDip 60 = 1 / 2 := by
  unfold cosDip
  rw [show (60 * Real.pi / 180 : ℝ) = Real.pi / 3 by ring, Real.cos_pi_div_three]

theorem sinDip_60 : sinDip 60 = √3 / 2 := by
  unfold sinDip
  rw [show (60 * Real.pi / 180 : ℝ) = Real.pi / 3 by ring, Real.sin_pi_div_three]

/-- A fault 10 long and 4 wide that dips 60°, its centre 5 deep, and a position 1 deep beside it. -/
example : (2 / 3 : ℝ) ≠ 0 ∧ Plain (cosDip 60) ∧ 0 ≤ sinDip 60 ∧ (-2) * sinDip 60 ≤ 5 ∧ 2 * sinDip 60 ≤ 5 ∧
    GoodFin (sinDip 60) (cosDip 60) 5 (-5) 5 (-2) 2 ![1, 10, -1] := by
  rw [cosDip_60, sinDip_60]
  have h1 : (1.7 : ℝ) < √3 := Real.lt_sqrt_of_sq_lt (by norm_num)
  have h2 : √3 < 1.8 := by rw [Real.sqrt_lt' (by norm_num)]; norm_num
  refine ⟨by norm_num, Or.inr (by norm_num [abs_of_pos]), by positivity, by linarith, by linarith, ?_⟩
  constructor
  · show (1 / 1000000 : ℝ) < |1 - -5|
    norm_num [abs_of_pos]
  · show (1 / 1000000 : ℝ) < |1 - 5|
    norm_num [abs_of_pos]
  · show (1 / 1000000 : ℝ) < |10 * (1 / 2) + (5 + -1) * (√3 / 2) - -2|
    refine lt_of_lt_of_le ?_ (le_abs_self _)
    linarith
  · show (1 / 1000000 : ℝ) < |10 * (1 / 2) + (5 + -1) * (√3 / 2) - 2|
    refine lt_of_lt_of_le ?_ (le_abs_self _)
    linarith
  · show (1 / 1000000 : ℝ) < |10 * (√3 / 2) - (5 + -1) * (1 / 2)|
    refine lt_of_lt_of_le ?_ (le_abs_self _)
    linarith
  · show (1 / 1000000 : ℝ) < |10 * (1 / 2) + (5 - -1) * (√3 / 2) - -2|
    refine lt_of_lt_of_le ?_ (le_abs_self _)
    linarith
  · show (1 / 1000000 : ℝ) < |10 * (1 / 2) + (5 - -1) * (√3 / 2) - 2|
    refine lt_of_lt_of_le ?_ (le_abs_self _)
    linarith
  · show (1 / 1000000 : ℝ) < |10 * (√3 / 2) - (5 - -1) * (1 / 2)|
    refine lt_of_lt_of_le ?_ (le_abs_self _)
    linarith
  · show (-1 : ℝ) < 0
    norm_num

/-- A position on the surface at which the vertical fault reaches it is near an edge. -/
example : NearEdge (-5) 5 (-2) 2 1 2 0 :=
  ⟨by norm_num, Or.inl ⟨by norm_num, by norm_num, Or.inr (by norm_num)⟩⟩

/-- A position on the fault away from its edges is not. -/
example : ¬NearEdge (-5) 5 (-2) 2 1 1 0 := by
  rintro ⟨-, ⟨-, -, h⟩ | ⟨-, -, h⟩⟩ <;> rcases h with h | h <;> norm_num [abs_lt] at h

end GRT.Okada
