import Verif.Modal.Search
import Mathlib.Analysis.SpecialFunctions.Integrals.Basic

/-!
The test of an interval of the adaptive search for roots: `simpson` and `check_fit` (pygrt/C_extension/src/modal/root.c 178-242), in
exact arithmetic.
-/

namespace GRT.Modal

open MeasureTheory

/-- `SIMPSON_INTV`, root.c 118-124. -/
inductive Rule | before | whole | after | first | second

/-- `simpson`, root.c 178-204. -/
noncomputable def simpson (it : Itv ℂ) : Rule → ℂ
  | .whole => ((it.x2 - it.x0 : ℝ) : ℂ) * (it.f0 + 4 * it.f1 + it.f2) / 6
  | .before => ((it.x2 - it.x0 : ℝ) : ℂ) * (19 * it.f0 - 20 * it.f1 + 7 * it.f2) / 6
  | .after => ((it.x2 - it.x0 : ℝ) : ℂ) * (7 * it.f0 - 20 * it.f1 + 19 * it.f2) / 6
  | .first => ((it.x2 - it.x0 : ℝ) : ℂ) * (5 * it.f0 + 8 * it.f1 - it.f2) / 24
  | .second => ((it.x2 - it.x0 : ℝ) : ℂ) * (-it.f0 + 8 * it.f1 + 5 * it.f2) / 24

/-- The comparison `S_dif/S_ref > tol`, root.c 225, 230, 235; with a zero reference the ratio is infinite, or `0/0`, which does not
exceed anything. -/
def Over (dif ref tol : ℝ) : Prop := if ref = 0 then 0 < dif else dif / ref > tol

/-- `check_fit`, root.c 208-242. -/
noncomputable def checkFit (tol : ℝ) (it L R : Itv ℂ) : Prop :=
  let S11 := simpson it .first
  let S12 := simpson it .second
  let S21 := simpson L .whole
  let S22 := simpson R .whole
  ¬ Over ‖S11 + S12 - S21 - S22‖ ‖S11 + S12 + S21 + S22‖ tol ∧ ¬ Over ‖S11 - S21‖ ‖S11 + S21‖ tol ∧ ¬ Over ‖S12 - S22‖ ‖S12 + S22‖ tol

/-! ### Specification -/

/-- The interval that a rule is documented to integrate over (root.c 168-176), for samples at `a`, `a+h`, `a+2h`. -/
def Rule.range (a h : ℝ) : Rule → ℝ × ℝ
  | .before => (a - 2 * h, a)
  | .whole => (a, a + 2 * h)
  | .after => (a + 2 * h, a + 4 * h)
  | .first => (a, a + h)
  | .second => (a + h, a + 2 * h)

theorem integral_quadratic (x y z : ℂ) (a b : ℝ) :
    ∫ c in a..b, (x * (c : ℂ) ^ 2 + y * c + z) = x * (b ^ 3 - a ^ 3) / 3 + y * (b ^ 2 - a ^ 2) / 2 + z * (b - a) := by
  have h : ∀ c ∈ Set.uIcc a b, HasDerivAt (fun c : ℝ => x * (c : ℂ) ^ 3 / 3 + y * (c : ℂ) ^ 2 / 2 + z * c) (x * (c : ℂ) ^ 2 + y * c + z) c := by
    intro c _
    have h1 : HasDerivAt (fun c : ℝ => (c : ℂ)) 1 c := Complex.ofRealCLM.hasDerivAt
    have h2 := (((h1.pow 3).const_mul x).div_const 3).add ((((h1.pow 2).const_mul y).div_const 2)) |>.add (h1.const_mul z)
    refine h2.congr_deriv ?_
    push_cast
    ring
  rw [intervalIntegral.integral_eq_sub_of_hasDerivAt h (Continuous.intervalIntegrable (by fun_prop) _ _)]
  ring

/-- C53: each rule is the integral over its documented interval of any quadratic with the given samples. -/
theorem C53_simpson (it : Itv ℂ) (a h : ℝ) (h0 : it.x0 = a) (h2 : it.x2 = a + 2 * h) (q : ℝ → ℂ) (x y z : ℂ)
    (hq : ∀ c : ℝ, q c = x * (c : ℂ) ^ 2 + y * c + z) (f0 : it.f0 = q a) (f1 : it.f1 = q (a + h)) (f2 : it.f2 = q (a + 2 * h)) (r : Rule) :
    simpson it r = ∫ c in (r.range a h).1..(r.range a h).2, q c := by
  simp only [hq]
  rw [integral_quadratic]
  cases r <;> simp only [simpson, Rule.range, f0, f1, f2, h0, h2, hq] <;> push_cast <;> ring

theorem not_over {dif ref tol : ℝ} (h0 : 0 ≤ ref) (h : ¬ Over dif ref tol) : dif ≤ tol * ref := by
  unfold Over at h
  split at h
  · rename_i e; rw [e, mul_zero]; exact not_lt.1 h
  · rename_i e
    push Not at h
    rwa [div_le_iff₀ (lt_of_le_of_ne h0 (Ne.symm e))] at h

/-- C53: an interval is accepted where the secular function is a quadratic, whatever the tolerance. -/
theorem C53_accepted (tol : ℝ) (ht : 0 ≤ tol) (F : ℝ → ℂ) (lo hi : ℝ) (it : Itv ℂ) (hs : it.Sound F lo hi) (x y z : ℂ)
    (hF : ∀ c : ℝ, it.x0 ≤ c → c ≤ it.x2 → F c = x * (c : ℂ) ^ 2 + y * c + z) : checkFit tol it (it.left F) (it.right F) := by
  have hm := hs.mid
  have hlt := hs.lt
  have no : ∀ ref, ¬ Over 0 ref tol := fun ref => by
    unfold Over
    split
    · exact lt_irrefl _
    · rw [zero_div]; exact not_lt.2 ht
  have v0 : it.f0 = x * (it.x0 : ℂ) ^ 2 + y * it.x0 + z := by rw [hs.f0]; exact hF _ le_rfl hlt.le
  have v2 : it.f2 = x * (it.x2 : ℂ) ^ 2 + y * it.x2 + z := by rw [hs.f2]; exact hF _ hlt.le le_rfl
  have v1 : it.f1 = x * (it.x1 : ℂ) ^ 2 + y * it.x1 + z := by rw [hs.f1]; exact hF _ (by linarith) (by linarith)
  have vl : F ((it.x0 + it.x1) / 2) = x * (((it.x0 + it.x1) / 2 : ℝ) : ℂ) ^ 2 + y * ((it.x0 + it.x1) / 2 : ℝ) + z := hF _ (by linarith) (by linarith)
  have vr : F ((it.x1 + it.x2) / 2) = x * (((it.x1 + it.x2) / 2 : ℝ) : ℂ) ^ 2 + y * ((it.x1 + it.x2) / 2 : ℝ) + z := hF _ (by linarith) (by linarith)
  have e1 : simpson it .first = simpson (it.left F) .whole := by
    simp only [simpson, Itv.left, v0, v1, v2, vl]
    simp only [hm]
    push_cast
    ring
  have e2 : simpson it .second = simpson (it.right F) .whole := by
    simp only [simpson, Itv.right, v0, v1, v2, vr]
    simp only [hm]
    push_cast
    ring
  unfold checkFit
  simp only [e1, e2, sub_self, norm_zero]
  refine ⟨?_, no _, no _⟩
  rw [show ∀ a b : ℂ, a + b - a - b = 0 from fun a b => by ring, norm_zero]
  exact no _

/-- C53: what acceptance means: `P`, `PL`, `PR` are the quadratics through the samples of an interval and of its halves; their integrals over
each half and over the whole differ by at most the tolerance times the sum. -/
theorem C53_fit (tol : ℝ) (it L R : Itv ℂ) (a h : ℝ) (i0 : it.x0 = a) (i2 : it.x2 = a + 4 * h) (l0 : L.x0 = a) (l2 : L.x2 = a + 2 * h)
    (r0 : R.x0 = a + 2 * h) (r2 : R.x2 = a + 4 * h) (P PL PR : ℝ → ℂ)
    (hP : ∃ x y z : ℂ, ∀ c : ℝ, P c = x * (c : ℂ) ^ 2 + y * c + z) (hPL : ∃ x y z : ℂ, ∀ c : ℝ, PL c = x * (c : ℂ) ^ 2 + y * c + z)
    (hPR : ∃ x y z : ℂ, ∀ c : ℝ, PR c = x * (c : ℂ) ^ 2 + y * c + z)
    (s : it.f0 = P a ∧ it.f1 = P (a + 2 * h) ∧ it.f2 = P (a + 4 * h)) (sl : L.f0 = PL a ∧ L.f1 = PL (a + h) ∧ L.f2 = PL (a + 2 * h))
    (sr : R.f0 = PR (a + 2 * h) ∧ R.f1 = PR (a + 3 * h) ∧ R.f2 = PR (a + 4 * h)) (hfit : checkFit tol it L R) :
    let I := fun Q : ℝ → ℂ => ∫ c in a..(a + 2 * h), Q c
    let J := fun Q : ℝ → ℂ => ∫ c in (a + 2 * h)..(a + 4 * h), Q c
    ‖I P - I PL‖ ≤ tol * ‖I P + I PL‖ ∧ ‖J P - J PR‖ ≤ tol * ‖J P + J PR‖ ∧
      ‖I P + J P - I PL - J PR‖ ≤ tol * ‖I P + J P + I PL + J PR‖ := by
  obtain ⟨x, y, z, hP⟩ := hP
  obtain ⟨xl, yl, zl, hPL⟩ := hPL
  obtain ⟨xr, yr, zr, hPR⟩ := hPR
  have e1 := C53_simpson it a (2 * h) i0 (by rw [i2]; ring) P x y z hP s.1 s.2.1 (by rw [s.2.2]; congr 1; ring) .first
  have e2 := C53_simpson it a (2 * h) i0 (by rw [i2]; ring) P x y z hP s.1 s.2.1 (by rw [s.2.2]; congr 1; ring) .second
  have e3 := C53_simpson L a h l0 l2 PL xl yl zl hPL sl.1 sl.2.1 sl.2.2 .whole
  have e4 := C53_simpson R (a + 2 * h) h r0 (by rw [r2]; ring) PR xr yr zr hPR sr.1 (by rw [sr.2.1]; congr 1; ring)
    (by rw [sr.2.2]; congr 1; ring) .whole
  simp only [Rule.range] at e1 e2 e3 e4
  rw [show a + 2 * (2 * h) = a + 4 * h by ring] at e2
  rw [show a + 2 * h + 2 * h = a + 4 * h by ring] at e4
  intro I J
  unfold checkFit at hfit
  simp only [e1, e2, e3, e4] at hfit
  exact ⟨not_over (norm_nonneg _) hfit.2.1, not_over (norm_nonneg _) hfit.2.2, not_over (norm_nonneg _) hfit.1⟩

/-- A case: `c²` sampled on the interval from 1 to 3; the rule for the interval before it gives the integral from -1 to 1. -/
example : simpson ⟨1, 2, 3, 1, 4, 9⟩ .before = 2 / 3 ∧ ∫ c in (-1 : ℝ)..1, ((c : ℂ) ^ 2) = 2 / 3 := by
  constructor
  · simp only [simpson]; norm_num
  · have := integral_quadratic 1 0 0 (-1) 1
    simp only [one_mul, zero_mul, add_zero] at this
    rw [this]; norm_num

/-- A case that is accepted, and one that is not. -/
example : checkFit (1 / 100) (Itv.mk' (fun c : ℝ => (c : ℂ) ^ 2) 1 3) ((Itv.mk' (fun c : ℝ => (c : ℂ) ^ 2) 1 3).left fun c => (c : ℂ) ^ 2)
      ((Itv.mk' (fun c : ℝ => (c : ℂ) ^ 2) 1 3).right fun c => (c : ℂ) ^ 2) ∧
    ¬ checkFit (1 / 100) ⟨0, 1, 2, 0, 0, 0⟩ ⟨0, 1 / 2, 1, 0, 1, 0⟩ ⟨1, 3 / 2, 2, 0, 0, 0⟩ := by
  constructor
  · refine C53_accepted _ (by norm_num) (fun c : ℝ => (c : ℂ) ^ 2) 1 3 _ ⟨rfl, by norm_num [Itv.mk'], le_rfl, le_rfl, rfl, rfl, rfl⟩ 1 0 0 ?_
    intro c _ _
    ring
  · rintro ⟨h, -, -⟩
    apply h
    have h1 : simpson ⟨0, 1, 2, 0, 0, 0⟩ .first = 0 := by simp [simpson]
    have h2 : simpson ⟨0, 1, 2, 0, 0, 0⟩ .second = 0 := by simp [simpson]
    have h3 : simpson ⟨0, 1 / 2, 1, 0, 1, 0⟩ .whole = 2 / 3 := by simp only [simpson]; norm_num
    have h4 : simpson ⟨1, 3 / 2, 2, 0, 0, 0⟩ .whole = 0 := by simp [simpson]
    rw [h1, h2, h3, h4]
    unfold Over
    rw [if_neg (by norm_num)]
    norm_num

/-- The search of the code: complex values compared by absolute value (root.c 43, 56, 74, 97, 344-354, 364), `check_fit` with the tolerance
`satol`, and the markers `0.0`, `-999.0`. -/
noncomputable def realCfg (F : ℕ → ℝ → ℂ) (rtol satol cgap vgap : ℝ) (nmode : ℕ) (vel : List (ℝ × ℝ)) (udc : ℝ) : Cfg ℂ where
  F := F
  K := ⟨fun a b => ‖a‖ > ‖b‖, fun a b => ‖a‖ ≥ ‖b‖, fun a => ‖a‖ < rtol⟩
  fit := checkFit satol
  zero := 0
  fail := -999
  cgap := cgap
  vgap := vgap
  nmode := nmode
  vel := vel
  udc := udc

/-- A case of `C72_adaptive` and `C72_fixed`: one layer function with a root at 3, a first root already in the list, one model velocity. -/
example : ∃ S : Cfg ℂ, S.F 2 3 = 0 ∧ 0 < S.cgap ∧ 0 < S.udc ∧ ([2, 5 / 2, 4] : List ℝ).Pairwise (· ≤ ·) ∧
    Kept S.cgap S.nmode [(7 / 2, 0)] ⟨[7 / 2], [0]⟩ ∧
    ∃ early s', (∃ N, ∀ n ≥ N, S.adaptive 2 (21 / 10) [2, 5 / 2, 4] n ⟨[7 / 2], [0]⟩ [(7 / 2, 0)] = .ok early s') ∧
      Kept S.cgap S.nmode s'.found s'.eig := by
  have hs : ([2, 5 / 2, 4] : List ℝ).Pairwise (· ≤ ·) := by
    simp only [List.pairwise_cons, List.mem_cons, List.not_mem_nil, or_false, forall_eq_or_imp, forall_eq, false_implies, implies_true,
      List.Pairwise.nil, and_true]
    norm_num
  let S := realCfg (fun _ c => ((c - 3 : ℝ) : ℂ)) (1 / 10 ^ 6) (1 / 100) (1 / 1000) (1 / 100) 2 [(5, 29 / 10)] (1 / 10)
  have hk : Kept S.cgap S.nmode [(7 / 2, 0)] ⟨[7 / 2], [0]⟩ := by
    refine ⟨rfl, by simp, by simp, fun _ => by simp [S, realCfg], ?_, by simp⟩
    intro p hp
    simp only [List.mem_singleton] at hp
    subst hp
    exact Or.inl ⟨7 / 2, by simp, by simp [S, realCfg]⟩
  have hg : 0 < S.cgap := by norm_num [S, realCfg]
  refine ⟨S, by simp [S, realCfg], hg, by norm_num [S, realCfg], hs, hk, ?_⟩
  obtain ⟨early, s', h1, h2, -⟩ := C72_adaptive S hg 2 (21 / 10) [2, 5 / 2, 4] hs 2 4 rfl rfl (by norm_num) _ _ hk
  exact ⟨early, s', h1, h2⟩

end GRT.Modal
