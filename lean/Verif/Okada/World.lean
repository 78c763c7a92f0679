import Verif.Okada.FiniteProp
import Verif.Okada.Turn
import Verif.Okada.Main
import Verif.StaticSyn.Moment

/-! What the outputs of the Okada program mean in north, east and up, in cm, and the two routines in those terms. -/

namespace GRT.Okada

open Spec GRT.Syn GRT.StaticSyn

/-! ### Specification -/

/-- Outputs are ordered Z, N, E; world axes are north, east, up. -/
def zne : Fin 3 → Fin 3 := ![2, 0, 1]

/-- A tensor given in north, east, down, in north, east, up. -/
def upward (T : Ten) : Fin 3 → V3 := fun i j => ![1, 1, -1] i * ![1, 1, -1] j * T i j

/-- The output is the displacement `U` and its gradient `G` at the position `P`: row `d` of the derivatives is the direction. -/
def Reports (f : Field) (U : V3 → V3) (G : V3 → Fin 3 → V3) (P : V3) : Prop :=
  (∀ c, f.1 c = U P (zne c)) ∧ ∀ d c, f.2 d c = G P (zne d) (zne c)

/-- A receiver in km in world axes and cm. -/
noncomputable def inCm (north east depth : ℝ) : V3 := ![1e5 * north, 1e5 * east, -(1e5 * depth)]

/-- The four elementary sources on a plane with the given strike and dip, in north, east, down. -/
noncomputable def planeTensor (lam mu strike dip p1 p2 p3 p4 : ℝ) : Ten := fun i j =>
  let a := slip (strike * deg1) (dip * deg1) 0
  let b := slip (strike * deg1) (dip * deg1) (Real.pi / 2)
  let n := normal (strike * deg1) (dip * deg1)
  let δ : ℝ := if i = j then 1 else 0
  mu * p1 * (a i * n j + n i * a j) + mu * p2 * (b i * n j + n i * b j) + p3 * (lam * δ + 2 * mu * n i * n j) + mu * p4 * δ

/-! ### Proofs -/

theorem cosDip_eq (dip : ℝ) : cosDip dip = Real.cos (dip * deg1) := by
  unfold cosDip deg1
  congr 1
  ring

theorem sinDip_eq (dip : ℝ) : sinDip dip = Real.sin (dip * deg1) := by
  unfold sinDip deg1
  congr 1
  ring

theorem cs_one (t : ℝ) : Real.cos t * Real.cos t + Real.sin t * Real.sin t = 1 := by
  have := Real.sin_sq_add_cos_sq t
  linarith

theorem moment_turn (lam mu strike dip p1 p2 p3 p4 : ℝ) :
    turnT (Real.cos (strike * deg1)) (Real.sin (strike * deg1)) (moment lam mu (sinDip dip) (cosDip dip) p1 p2 p3 p4) =
      upward (planeTensor lam mu strike dip p1 p2 p3 p4) := by
  have t := cs_one (strike * deg1)
  rw [cosDip_eq, sinDip_eq]
  funext i j
  fin_cases i <;> fin_cases j <;>
    simp [turnT, turn, Fin.sum_univ_three, moment, shearMoment, openMoment, isoMoment, upward, planeTensor, slip, normal] <;> grind

theorem local_eq (strike : ℝ) (f : Field) : localToZne strike f =
    (fun c => turnV (Real.cos (strike * deg1)) (Real.sin (strike * deg1)) f.1 (zne c),
      fun d c => turnT (Real.cos (strike * deg1)) (Real.sin (strike * deg1)) f.2 (zne d) (zne c)) := by
  have q : ∀ c, axes strike c = turn (Real.cos (strike * deg1)) (Real.sin (strike * deg1)) (zne c) := by
    intro c
    fin_cases c <;> rfl
  refine Prod.ext ?_ ?_
  · funext c
    simp only [localToZne, turnV, q, Fin.sum_univ_three]
  · funext d c
    simp only [localToZne, turnT, q]

/-- The position of a receiver in the axes of the fault. -/
theorem turnP_cm (strike north east depth : ℝ) :
    turnP 1e5 (Real.cos (strike * deg1)) (Real.sin (strike * deg1)) (inCm north east depth) =
      ![(toLocal strike north east).1, (toLocal strike north east).2, -depth] := by
  have h : (1e5 : ℝ) ≠ 0 := by norm_num
  funext i
  fin_cases i
  · show turnP _ _ _ _ 0 = _
    unfold turnP
    rw [turnV_0]
    simp only [inCm, toLocal, Matrix.cons_val_zero, Matrix.cons_val_one, Fin.zero_eta]
    field_simp
  · show turnP _ _ _ _ 1 = _
    unfold turnP
    rw [turnV_1]
    simp only [inCm, toLocal, Matrix.cons_val_zero, Matrix.cons_val_one, Fin.mk_one]
    field_simp
  · show turnP _ _ _ _ 2 = _
    unfold turnP
    rw [turnV_2]
    show -(1e5 * depth) / 1e5 = -depth
    field_simp

/-- Results in the axes of the fault and km, reported in world axes and cm. -/
theorem reports_turn {strike : ℝ} {o : D12} {u : V3 → V3} {g : V3 → Fin 3 → V3} {P : V3}
    (h1 : o.disp = u (turnP 1e5 (Real.cos (strike * deg1)) (Real.sin (strike * deg1)) P))
    (h2 : o.upar = g (turnP 1e5 (Real.cos (strike * deg1)) (Real.sin (strike * deg1)) P)) :
    Reports (localToZne strike (pointUnits o)) (turnU 1e5 (Real.cos (strike * deg1)) (Real.sin (strike * deg1)) u)
      (turnG 1e5 (Real.cos (strike * deg1)) (Real.sin (strike * deg1)) g) P := by
  rw [local_eq]
  constructor
  · intro c
    simp only [turnU, turnV, pointUnits, h1, Fin.sum_univ_three]
    norm_num
    ring
  · intro d c
    simp only [turnG, turnT, pointUnits, h2, Fin.sum_univ_three]
    norm_num
    ring

theorem toLocal_back (strike x y : ℝ) :
    toLocal strike (toLocal strike x y).1 (toLocal strike x y).2 = (x, y) := by
  have t := cs_one (strike * deg1)
  unfold toLocal
  refine Prod.ext ?_ ?_
  · dsimp only
    linear_combination x * t
  · dsimp only
    linear_combination y * t

/-- A shift along the axes of the fault is at most as large in north and east. -/
theorem toLocal_close (strike : ℝ) {a b : ℝ} {e : ℝ} (ha : |a| < e) (hb : |b| < e) :
    |(toLocal strike a b).1| < 2 * e ∧ |(toLocal strike a b).2| < 2 * e := by
  have hc := Real.abs_cos_le_one (strike * deg1)
  have hs := Real.abs_sin_le_one (strike * deg1)
  have m : ∀ x y : ℝ, |x| < e → |y| ≤ 1 → |x * y| < e := fun x y hx hy => by
    rw [abs_mul]
    exact lt_of_le_of_lt (mul_le_of_le_one_right (abs_nonneg x) hy) hx
  unfold toLocal
  dsimp only
  constructor
  · refine (abs_add_le _ _).trans_lt ?_
    linarith [m a _ ha hc, m b _ hb hs]
  · refine (abs_sub _ _).trans_lt ?_
    linarith [m a _ ha hs, m b _ hb hc]

/-- The medium of the program has the parameters of its velocities. -/
theorem medPar_alpha {vp vs rho : ℝ} (hs : 0 < vs) (hp : vs < vp) (hr : 0 < rho) :
    0 < (medPar vp vs rho).mu ∧ 0 < (medPar vp vs rho).lambda + (medPar vp vs rho).mu ∧
      (medPar vp vs rho).alpha = ((medPar vp vs rho).lambda + (medPar vp vs rho).mu) / ((medPar vp vs rho).lambda + 2 * (medPar vp vs rho).mu) := by
  have hp0 : 0 < vp := hs.trans hp
  have h1 : (medPar vp vs rho).lambda + (medPar vp vs rho).mu = rho * (vp * vp - vs * vs) * 1e10 := by
    unfold medPar
    ring
  have h2 : (medPar vp vs rho).lambda + 2 * (medPar vp vs rho).mu = rho * (vp * vp) * 1e10 := by
    unfold medPar
    ring
  refine ⟨?_, ?_, ?_⟩
  · unfold medPar
    positivity
  · rw [h1]
    have : 0 < vp * vp - vs * vs := by nlinarith
    positivity
  · rw [h1, h2]
    unfold medPar
    field_simp

/-- The point source of the program, for any potencies. -/
theorem point_world {lam mu : ℝ} (hm : 0 < mu) (hl : 0 < lam + mu) (strike : ℝ) {dip : ℝ} (hdip : Plain (cosDip dip)) {depsrc : ℝ}
    (hd : 1 / 1000000 ≤ depsrc) (p1 p2 p3 p4 : ℝ) :
    ∃ (U : V3 → V3) (G : V3 → Fin 3 → V3), IsHalfSpace lam mu (upward (planeTensor lam mu strike dip p1 p2 p3 p4)) (1e5 * depsrc) U G ∧
      ∀ x y depth, 0 ≤ depth → Plain (depsrc - depth) → ¬(|x| < 1 / 1000000 ∧ |y| < 1 / 1000000 ∧ depsrc = depth) →
        ∃ x' y' out, |x' - x| < 1 / 1000000 ∧ |y' - y| < 1 / 1000000 ∧ (Plain x → x' = x) ∧ (Plain y → y' = y) ∧
          dc3d0 ((lam + mu) / (lam + 2 * mu)) x y (-depth) depsrc dip p1 p2 p3 p4 = some (0, out) ∧
          Reports (localToZne strike (pointUnits out)) U G (inCm (toLocal strike x' y').1 (toLocal strike x' y').2 depth) := by
  obtain ⟨u, g, hs, h⟩ := C96_source hm hl hdip hd p1 p2 p3 p4
  have hh := hs.turn (k := 1e5) (by norm_num) (cs_one (strike * deg1))
  rw [moment_turn] at hh
  refine ⟨_, _, hh, fun x y depth h0 hp hn => ?_⟩
  obtain ⟨x', y', out, e1, e2, e3, e4, e5, e6, e7⟩ := h x y (-depth) (by linarith) (by rwa [← sub_eq_add_neg]) (by
    by_contra hc
    push Not at hc
    exact hn ⟨hc.1, hc.2.1, by linarith [hc.2.2]⟩)
  refine ⟨x', y', out, e1, e2, e3, e4, e5, ?_⟩
  apply reports_turn <;> rw [turnP_cm, toLocal_back] <;> assumption

/-! ### Rectangles -/

open MeasureTheory Set in
theorem rect_lin {ι : Type} [Fintype ι] {f : ι → ℝ × ℝ → ℝ} (a : ι → ℝ) {l1 l2 w1 w2 : ℝ} (hl : l1 ≤ l2) (hw : w1 ≤ w2)
    (hf : ∀ i, ContinuousOn (f i) (rect l1 l2 w1 w2)) :
    ∑ i, a i * ∫ s in l1..l2, ∫ w in w1..w2, f i (s, w) = ∫ s in l1..l2, ∫ w in w1..w2, ∑ i, a i * f i (s, w) := by
  have h1 : ∀ i, IntegrableOn (fun v => a i * f i v) (rect l1 l2 w1 w2) := fun i =>
    (hf i |>.integrableOn_compact (rect_compact _ _ _ _)).const_mul (a i)
  have h2 : ContinuousOn (fun v => ∑ i, a i * f i v) (rect l1 l2 w1 w2) := by
    refine continuousOn_finsetSum _ fun i _ => ?_
    exact continuousOn_const.mul (hf i)
  rw [← rect_int (f := fun v => ∑ i, a i * f i v) hl hw h2, integral_finsetSum _ fun i _ => h1 i]
  refine Finset.sum_congr rfl fun i _ => ?_
  rw [integral_const_mul, rect_int hl hw (hf i)]

open MeasureTheory Set in
/-- The results of a rectangle as integrals, with continuous integrands. -/
theorem fin_integral {lam mu : ℝ} (hm : 0 < mu) (hlm : 0 < lam + mu) {dip : ℝ} (hdip : Plain (cosDip dip)) (hs : 0 ≤ sinDip dip)
    (d1 d2 d3 : ℝ) :
    ∃ (u : ℝ → V3 → V3) (g : ℝ → V3 → Fin 3 → V3),
      (∀ d, 0 < d → IsHalfSpace lam mu (moment lam mu (sinDip dip) (cosDip dip) d1 d2 d3 0) d (u d) (g d)) ∧
      ∀ (dep l1 l2 w1 w2 : ℝ) (p : V3), l1 ≤ l2 → w1 ≤ w2 → w1 * sinDip dip ≤ dep → w2 * sinDip dip ≤ dep → p 2 ≤ 0 →
        PlainFin (sinDip dip) (cosDip dip) dep l1 l2 w1 w2 p →
        ∃ out, dc3d ((lam + mu) / (lam + 2 * mu)) (p 0) (p 1) (p 2) dep dip l1 l2 w1 w2 d1 d2 d3 = some (0, out) ∧
          (∀ c, out.disp c = ∫ s in l1..l2, ∫ w in w1..w2, u (dep - w * sinDip dip) (p - ![s, w * cosDip dip, 0]) c) ∧
          (∀ i c, out.upar i c = ∫ s in l1..l2, ∫ w in w1..w2, g (dep - w * sinDip dip) (p - ![s, w * cosDip dip, 0]) i c) ∧
          (∀ c, ContinuousOn (fun v : ℝ × ℝ => u (dep - v.2 * sinDip dip) (p - ![v.1, v.2 * cosDip dip, 0]) c) (rect l1 l2 w1 w2)) ∧
          ∀ i c, ContinuousOn (fun v : ℝ × ℝ => g (dep - v.2 * sinDip dip) (p - ![v.1, v.2 * cosDip dip, 0]) i c) (rect l1 l2 w1 w2) := by
  have h2 : lam + 2 * mu ≠ 0 := by linarith
  have ha : (lam + mu) / (lam + 2 * mu) ≠ 0 := div_ne_zero hlm.ne' h2
  have tr := dip_tr dip
  refine ⟨fun d q => (ptField ((lam + mu) / (lam + 2 * mu)) (sinDip dip) (cosDip dip) d1 d2 d3 d q).disp,
    fun d q => (ptField ((lam + mu) / (lam + 2 * mu)) (sinDip dip) (cosDip dip) d1 d2 d3 d q).upar, fun d hd => ?_, ?_⟩
  · have := point_solves hm hlm tr hd d1 d2 d3 0
    simp only [sum_eq] at this
    exact this
  · intro dep l1 l2 w1 w2 p hl hw k1 k2 hz hp
    have m1 : 0 ≤ dep - p 2 - w1 * sinDip dip := by linarith
    have m2 : 0 ≤ dep - p 2 - w2 * sinDip dip := by linarith
    have cs := patch_slice (al := (lam + mu) / (lam + 2 * mu)) tr hs d1 d2 d3 hp.off m1 m2 l1 l2
    refine ⟨_, fin_program ha hdip hs d1 d2 d3 hz k1 k2 hp, fun c => ?_, fun i c => ?_, cs.1, cs.2⟩
    · exact fin_disp tr hs d1 d2 d3 hp.off hw m1 m2 c
    · rw [fin_upar tr hs d1 d2 d3 hp.off hl hw m1 m2 i c, rect_int hl hw (cs.2 i c)]
      rfl

open MeasureTheory Set in
/-- The rectangle of the program in world axes and cm: `1e10` cm² to the km². -/
theorem fault_world {lam mu : ℝ} (hm : 0 < mu) (hl : 0 < lam + mu) (strike : ℝ) {dip : ℝ} (hdip : Plain (cosDip dip)) (hs : 0 ≤ sinDip dip)
    (d1 d2 d3 : ℝ) :
    ∃ (U : ℝ → V3 → V3) (G : ℝ → V3 → Fin 3 → V3),
      (∀ d, 0 < d → IsHalfSpace lam mu (upward (planeTensor lam mu strike dip d1 d2 d3 0)) d (U d) (G d)) ∧
      ∀ (dep len wid north east depth : ℝ), 0 ≤ len → 0 ≤ wid → 0 ≤ dep → 0 ≤ depth →
        PlainFin (sinDip dip) (cosDip dip) dep (-(1 / 2) * len) (1 / 2 * len) (-wid) 0
          ![(toLocal strike north east).1, (toLocal strike north east).2, -depth] →
        ∃ out, dc3d ((lam + mu) / (lam + 2 * mu)) (toLocal strike north east).1 (toLocal strike north east).2 (-depth) dep dip
            (-(1 / 2) * len) (1 / 2 * len) (-wid) 0 d1 d2 d3 = some (0, out) ∧
          (∀ c, (localToZne strike (faultUnits out)).1 c = 1e10 * ∫ l in 0..len, ∫ w in 0..wid, U (1e5 * (dep + w * sinDip dip))
            (inCm (north - ((l - 1 / 2 * len) * Real.cos (strike * deg1) - w * cosDip dip * Real.sin (strike * deg1)))
              (east - ((l - 1 / 2 * len) * Real.sin (strike * deg1) + w * cosDip dip * Real.cos (strike * deg1))) depth) (zne c)) ∧
          ∀ d c, (localToZne strike (faultUnits out)).2 d c = 1e10 * ∫ l in 0..len, ∫ w in 0..wid, G (1e5 * (dep + w * sinDip dip))
            (inCm (north - ((l - 1 / 2 * len) * Real.cos (strike * deg1) - w * cosDip dip * Real.sin (strike * deg1)))
              (east - ((l - 1 / 2 * len) * Real.sin (strike * deg1) + w * cosDip dip * Real.cos (strike * deg1))) depth) (zne d) (zne c) := by
  obtain ⟨u, g, hs1, h⟩ := fin_integral hm hl hdip hs d1 d2 d3
  set C := Real.cos (strike * deg1) with hC
  set S := Real.sin (strike * deg1) with hS
  have t : C * C + S * S = 1 := cs_one _
  refine ⟨fun d => turnU 1e5 C S (u (d / 1e5)), fun d => turnG 1e5 C S (g (d / 1e5)), fun d hd => ?_, ?_⟩
  · have e := (hs1 (d / 1e5) (by positivity)).turn (k := 1e5) (by norm_num) t
    rw [moment_turn, mul_div_cancel₀ d (by norm_num : (1e5 : ℝ) ≠ 0)] at e
    exact e
  · intro dep len wid north east depth h1 h2 h3 h4 hp
    have hw : (-wid) ≤ 0 := by linarith
    have hlen : -(1 / 2) * len ≤ 1 / 2 * len := by linarith
    obtain ⟨out, e1, e2, e3, e4, e5⟩ := h dep _ _ _ _ _ hlen hw
      (by nlinarith) (by linarith) (show -depth ≤ 0 by linarith) hp
    -- position of the receiver seen from a patch
    have pos : ∀ l w : ℝ, turnP 1e5 C S (inCm (north - ((l - 1 / 2 * len) * C - w * cosDip dip * S))
        (east - ((l - 1 / 2 * len) * S + w * cosDip dip * C)) depth) =
        ![(toLocal strike north east).1, (toLocal strike north east).2, -depth] - ![l - 1 / 2 * len, -w * cosDip dip, 0] := by
      intro l w
      rw [hC, hS, turnP_cm]
      simp only [toLocal, ← hC, ← hS]
      funext i
      fin_cases i
      · simp
        linear_combination (-(l - 1 / 2 * len)) * t
      · simp
        linear_combination (w * cosDip dip) * t
      · simp
    have shift : ∀ F : ℝ → ℝ → ℝ, ∫ s in -(1 / 2) * len..1 / 2 * len, ∫ w in -wid..0, F s w = ∫ l in 0..len, ∫ w in 0..wid, F (l - 1 / 2 * len) (-w) := by
      intro F
      rw [intervalIntegral.integral_comp_sub_right (fun s => ∫ w in 0..wid, F s (-w)) (1 / 2 * len)]
      rw [show (0 : ℝ) - 1 / 2 * len = -(1 / 2) * len by ring, show len - 1 / 2 * len = 1 / 2 * len by ring]
      refine intervalIntegral.integral_congr fun s _ => ?_
      rw [intervalIntegral.integral_comp_neg (fun w => F s w), neg_zero]
    have dq : ∀ w : ℝ, 1e5 * (dep + w * sinDip dip) / 1e5 = dep - -w * sinDip dip := by
      intro w
      rw [mul_div_cancel_left₀ _ (by norm_num : (1e5 : ℝ) ≠ 0)]
      ring
    refine ⟨out, e1, fun c => ?_, fun d c => ?_⟩
    · rw [local_eq]
      simp only [turnV, faultUnits, e2]
      rw [rect_lin _ hlen hw (fun i => e4 i), shift, ← intervalIntegral.integral_const_mul]
      refine intervalIntegral.integral_congr fun l _ => ?_
      dsimp only
      rw [← intervalIntegral.integral_const_mul]
      refine intervalIntegral.integral_congr fun w _ => ?_
      simp only [turnU, turnV, pos, dq, ← hC, ← hS]
      norm_num
      ring
    · rw [local_eq]
      have q : turnT C S (faultUnits out).2 (zne d) (zne c) = ∑ v : Fin 3 × Fin 3, (turn C S (zne d) v.1 * turn C S (zne c) v.2 * 1e-5) *
          ∫ s in -(1 / 2) * len..1 / 2 * len, ∫ w in -wid..0, g (dep - w * sinDip dip)
            (![(toLocal strike north east).1, (toLocal strike north east).2, -depth] - ![s, w * cosDip dip, 0]) v.1 v.2 := by
        rw [Fintype.sum_prod_type]
        simp only [turnT, faultUnits, e3]
        refine Finset.sum_congr rfl fun a _ => Finset.sum_congr rfl fun b _ => ?_
        ring
      rw [← hC, ← hS]
      dsimp only
      rw [q, rect_lin (ι := Fin 3 × Fin 3) _ hlen hw (fun v => e5 v.1 v.2), shift, ← intervalIntegral.integral_const_mul]
      refine intervalIntegral.integral_congr fun l _ => ?_
      dsimp only
      rw [← intervalIntegral.integral_const_mul]
      refine intervalIntegral.integral_congr fun w _ => ?_
      simp only [turnG, turnT, pos, dq, Fintype.sum_prod_type]
      rw [Finset.sum_div, Finset.mul_sum]
      refine Finset.sum_congr rfl fun a _ => ?_
      rw [Finset.sum_div, Finset.mul_sum]
      refine Finset.sum_congr rfl fun b _ => ?_
      norm_num
      ring

end GRT.Okada
