import Verif.Okada.FiniteF

/-! The stresses of a finite fault balance and leave the surface free. -/

namespace GRT.Okada

open Spec MeasureTheory Set

theorem upd_sub (p a : V3) (i : Fin 3) (t : ℝ) : Function.update p i t - a = Function.update (p - a) i (t - a i) := by
  ext k
  by_cases h : k = i
  · subst h
    simp
  · simp [Function.update_of_ne h]

theorem PartialAt.shift {f : V3 → ℝ} {f' : ℝ} {i : Fin 3} {p a : V3} (h : PartialAt f f' i (p - a)) :
    PartialAt (fun q => f (q - a)) f' i p := by
  unfold PartialAt at h ⊢
  simp only [upd_sub]
  exact HasDerivAt.comp_sub_const (p i) (a i) h

theorem IsGradAt.shift {u : V3 → V3} {g : V3 → Fin 3 → V3} {p a : V3} (h : IsGradAt u g (p - a)) :
    IsGradAt (fun q => u (q - a)) (fun q => g (q - a)) p := fun i c => PartialAt.shift (f := fun q => u q c) (h i c)

theorem EquilAt.shift {lam mu : ℝ} {g : V3 → Fin 3 → V3} {p a : V3} (h : EquilAt lam mu g (p - a)) :
    EquilAt lam mu (fun q => g (q - a)) p := by
  intro c
  obtain ⟨s, h1, h2⟩ := h c
  exact ⟨s, fun j => PartialAt.shift (f := fun q => stress lam mu (g q) c j) (h1 j), h2⟩

theorem patch_grad {al sd cd dep : ℝ} (tr : sd * sd + cd * cd = 1) (d1 d2 d3 : ℝ) {p : V3} (h : Off sd cd dep p) {v : ℝ × ℝ}
    (k : 0 ≤ dep - p 2 - v.2 * sd) : GradD (fun q => patch al sd cd dep d1 d2 d3 q v) p := by
  have n1 := sq_ne tr h.real (p 0 - v.1) v.2
  have n2 := sq_ne tr h.img (p 0 - v.1) v.2
  have e1 : dep + p 2 - v.2 * sd = dep - v.2 * sd + p 2 := by ring
  have e2 : dep - p 2 - v.2 * sd = dep - v.2 * sd - p 2 := by ring
  rw [e1] at n1
  rw [e2] at n2 k
  have := (realT_grad (al := al) (dep := dep - v.2 * sd) (p := p - ![v.1, v.2 * cd, 0]) tr d1 d2 d3 0
    (by rw [sub0, sub1, sub2]; exact n1)).add (imgT_grad (al := al) tr d1 d2 d3 0 (by rw [sub0, sub1, sub2]; exact n2)
    (by rw [sub0, sub1, sub2]; exact rr_ne n2 k)) 1
  exact IsGradAt.shift this

theorem patch_equil {lam mu sd cd dep : ℝ} (hm : 0 < mu) (hl : 0 < lam + mu) (tr : sd * sd + cd * cd = 1) (d1 d2 d3 : ℝ) {p : V3}
    (h : Off sd cd dep p) {v : ℝ × ℝ} (k : 0 ≤ dep - p 2 - v.2 * sd) :
    EquilAt lam mu (fun q => (patch ((lam + mu) / (lam + 2 * mu)) sd cd dep d1 d2 d3 q v).upar) p := by
  have h2 : lam + 2 * mu ≠ 0 := by linarith
  have ha : (lam + mu) / (lam + 2 * mu) ≠ 0 := div_ne_zero hl.ne' h2
  have n1 := sq_ne tr h.real (p 0 - v.1) v.2
  have n2 := sq_ne tr h.img (p 0 - v.1) v.2
  have e1 : dep + p 2 - v.2 * sd = dep - v.2 * sd + p 2 := by ring
  have e2 : dep - p 2 - v.2 * sd = dep - v.2 * sd - p 2 := by ring
  rw [e1] at n1
  rw [e2] at n2 k
  have := EquilAt.scale h2 ((realT_eq (al := (lam + mu) / (lam + 2 * mu)) (dep := dep - v.2 * sd) (p := p - ![v.1, v.2 * cd, 0]) tr d1 d2 d3 0
    (by rw [sub0, sub1, sub2]; exact n1)).add (imgT_eq tr ha d1 d2 d3 0 (by rw [sub0, sub1, sub2]; exact n2)
    (by rw [sub0, sub1, sub2]; exact rr_ne n2 k)) 1)
  exact EquilAt.shift this

theorem patch_free {lam mu sd cd dep : ℝ} (hm : 0 < mu) (hl : 0 < lam + mu) (tr : sd * sd + cd * cd = 1) (d1 d2 d3 : ℝ) {p : V3}
    (h : Off sd cd dep p) (hz : p 2 = 0) (v : ℝ × ℝ) (c : Fin 3) :
    stress lam mu (patch ((lam + mu) / (lam + 2 * mu)) sd cd dep d1 d2 d3 p v).upar c 2 = 0 := by
  have h2 : lam + 2 * mu ≠ 0 := by linarith
  have ha : (lam + mu) / (lam + 2 * mu) ≠ 0 := div_ne_zero hl.ne' h2
  have n2 := sq_ne tr h.img (p 0 - v.1) v.2
  have e2 : dep - p 2 - v.2 * sd = dep - v.2 * sd := by rw [hz]; ring
  rw [e2] at n2
  rw [stress_scale lam mu h2]
  have := T_free (al := (lam + mu) / (lam + 2 * mu)) (dep := dep - v.2 * sd) (p := p - ![v.1, v.2 * cd, 0]) tr ha d1 d2 d3 0
    (by rw [sub2]; exact hz) (by rw [sub0, sub1]; exact n2) c
  exact mul_eq_zero_of_right _ this

/-- Partial derivatives under the integral. -/
theorem PartialAt.int {f : V3 → ℝ × ℝ → ℝ} {f' : ℝ × ℝ → ℝ} {R : Set (ℝ × ℝ)} (hR : IsCompact R) {i : Fin 3} {p : V3}
    (h : ∀ v ∈ R, ContDiffAt ℝ 2 (fun x : V3 × ℝ × ℝ => f x.1 x.2) (p, v)) (h' : ∀ v ∈ R, PartialAt (fun q => f q v) (f' v) i p) :
    IntegrableOn f' R ∧ PartialAt (fun q => ∫ v in R, f q v) (∫ v in R, f' v) i p := by
  refine diff_int (g := fun t v => f (Function.update p i t) v) hR (fun v hv => ?_) h'
  have c : ContDiffAt ℝ 1 (fun x : ℝ × ℝ × ℝ => ((Function.update p i x.1, x.2) : V3 × ℝ × ℝ)) (p i, v) := by
    refine ContDiffAt.prodMk ?_ (by fun_prop)
    rw [contDiffAt_pi]
    intro k
    by_cases hk : k = i
    · subst hk
      simpa using contDiffAt_fst
    · simpa [Function.update_of_ne hk] using contDiffAt_const
  have a : ContDiffAt ℝ 1 (fun x : V3 × ℝ × ℝ => f x.1 x.2) (Function.update p i (p i), v) := by
    rw [Function.update_eq_self]
    exact (h v hv).of_le (by norm_num)
  exact ContDiffAt.comp (p i, v) a c

theorem off_near {sd cd dep : ℝ} {p : V3} (h : Off sd cd dep p) (i : Fin 3) : ∀ᶠ t in nhds (p i), Off sd cd dep (Function.update p i t) := by
  have c : Continuous (fun t => Function.update p i t) := continuous_const.update i continuous_id
  have o1 : IsOpen {q : V3 | across sd cd (q 1) (dep + q 2) ≠ 0} := isOpen_ne_fun (by unfold across; fun_prop) continuous_const
  have o2 : IsOpen {q : V3 | across sd cd (q 1) (dep - q 2) ≠ 0} := isOpen_ne_fun (by unfold across; fun_prop) continuous_const
  have a1 : ∀ᶠ t in nhds (p i), Function.update p i t ∈ {q : V3 | across sd cd (q 1) (dep + q 2) ≠ 0} :=
    c.continuousAt.eventually (o1.mem_nhds (by simpa using h.real))
  have a2 : ∀ᶠ t in nhds (p i), Function.update p i t ∈ {q : V3 | across sd cd (q 1) (dep - q 2) ≠ 0} :=
    c.continuousAt.eventually (o2.mem_nhds (by simpa using h.img))
  filter_upwards [a1, a2] with t h1 h2 using ⟨h1, h2⟩

theorem upd_le {p : V3} {i : Fin 3} {t : ℝ} (h : t ≤ p i) : Function.update p i t 2 ≤ p 2 := by
  by_cases hi : i = 2
  · subst hi
    simpa using h
  · rw [Function.update_of_ne (Ne.symm hi)]

theorem patch_slice {al sd cd dep w1 w2 : ℝ} (tr : sd * sd + cd * cd = 1) (hs : 0 ≤ sd) (d1 d2 d3 : ℝ) {p : V3} (h : Off sd cd dep p)
    (k1 : 0 ≤ dep - p 2 - w1 * sd) (k2 : 0 ≤ dep - p 2 - w2 * sd) (l1 l2 : ℝ) :
    (∀ j, ContinuousOn (fun v => (patch al sd cd dep d1 d2 d3 p v).disp j) (rect l1 l2 w1 w2)) ∧
      ∀ i j, ContinuousOn (fun v => (patch al sd cd dep d1 d2 d3 p v).upar i j) (rect l1 l2 w1 w2) := by
  constructor
  · intro j v hv
    have a := ((patch_cont (al := al) tr hs d1 d2 d3 h k1 k2 hv).disp j).continuousAt
    exact (ContinuousAt.comp (f := fun v : ℝ × ℝ => ((p, v) : V3 × ℝ × ℝ)) (x := v) a (by fun_prop)).continuousWithinAt
  · intro i j v hv
    have a := ((patch_cont (al := al) tr hs d1 d2 d3 h k1 k2 hv).upar i j).continuousAt
    exact (ContinuousAt.comp (f := fun v : ℝ × ℝ => ((p, v) : V3 × ℝ × ℝ)) (x := v) a (by fun_prop)).continuousWithinAt

/-- The derivatives of a finite fault are the integrals of those of its patches. -/
theorem fin_upar {al sd cd dep l1 l2 w1 w2 : ℝ} (tr : sd * sd + cd * cd = 1) (hs : 0 ≤ sd) (d1 d2 d3 : ℝ) {p : V3} (h : Off sd cd dep p)
    (hl : l1 ≤ l2) (hw : w1 ≤ w2) (k1 : 0 ≤ dep - p 2 - w1 * sd) (k2 : 0 ≤ dep - p 2 - w2 * sd) (i j : Fin 3) :
    (finT al sd cd dep l1 l2 w1 w2 d1 d2 d3 p).upar i j = ∫ v in rect l1 l2 w1 w2, (patch al sd cd dep d1 d2 d3 p v).upar i j := by
  have a : HasDerivAt (fun t => (finT al sd cd dep l1 l2 w1 w2 d1 d2 d3 (Function.update p i t)).disp j) _ (p i) :=
    finT_grad (al := al) (l1 := l1) (l2 := l2) (d1 := d1) (d2 := d2) (d3 := d3) tr hs h.real h.img k1 k2 i j
  have b : HasDerivAt (fun t => ∫ v in rect l1 l2 w1 w2, (patch al sd cd dep d1 d2 d3 (Function.update p i t) v).disp j) _ (p i) :=
    (PartialAt.int (f := fun q v => (patch al sd cd dep d1 d2 d3 q v).disp j) (rect_compact l1 l2 w1 w2)
      (fun v hv => (patch_cont (al := al) tr hs d1 d2 d3 h k1 k2 hv).disp j)
      (fun v hv => patch_grad (al := al) tr d1 d2 d3 h (depth_mid k1 k2 hv.2.1 hv.2.2 hs) i j)).2
  have e : ∀ q : V3, Off sd cd dep q → q 2 ≤ p 2 → (finT al sd cd dep l1 l2 w1 w2 d1 d2 d3 q).disp j =
      ∫ v in rect l1 l2 w1 w2, (patch al sd cd dep d1 d2 d3 q v).disp j := by
    intro q hq hz
    have m1 : 0 ≤ dep - q 2 - w1 * sd := by linarith
    have m2 : 0 ≤ dep - q 2 - w2 * sd := by linarith
    rw [fin_disp tr hs d1 d2 d3 hq hw m1 m2 j, rect_int hl hw ((patch_slice tr hs d1 d2 d3 hq m1 m2 l1 l2).1 j)]
  refine (uniqueDiffWithinAt_Iic (p i)).eq_deriv _ a.hasDerivWithinAt (b.hasDerivWithinAt.congr_of_eventuallyEq ?_ ?_)
  · filter_upwards [mem_nhdsWithin_of_mem_nhds (off_near h i), self_mem_nhdsWithin] with t ht hle
    exact e _ ht (upd_le hle)
  · rw [Function.update_eq_self]
    exact e p h le_rfl

theorem stress_int {lam mu : ℝ} {G : ℝ × ℝ → Fin 3 → V3} {R : Set (ℝ × ℝ)} (h : ∀ i j, IntegrableOn (fun v => G v i j) R) (c j : Fin 3) :
    stress lam mu (fun i c => ∫ v in R, G v i c) c j = ∫ v in R, stress lam mu (G v) c j := by
  have a : ∫ v in R, mu * (G v j c + G v c j) = mu * ((∫ v in R, G v j c) + ∫ v in R, G v c j) := by
    rw [integral_const_mul, integral_add (h j c) (h c j)]
  have a' : IntegrableOn (fun v => mu * (G v j c + G v c j)) R := ((h j c).add (h c j)).const_mul mu
  by_cases hcj : c = j
  · simp only [stress, if_pos hcj]
    rw [integral_add _ a', a, integral_const_mul, integral_finsetSum]
    · exact fun k _ => h k k
    · exact (integrable_finsetSum _ fun k _ => h k k).const_mul lam
  · simp only [stress, if_neg hcj, zero_add]
    exact a.symm

theorem stress_smooth {E : Type*} [NormedAddCommGroup E] [NormedSpace ℝ E] {lam mu : ℝ} {F : E → D12} {x : E} (h : SmoothD F x) (c j : Fin 3) :
    ContDiffAt ℝ 2 (fun x => stress lam mu (F x).upar c j) x := by
  have a : ContDiffAt ℝ 2 (fun x => mu * ((F x).upar j c + (F x).upar c j)) x := contDiffAt_const.mul ((h.upar j c).add (h.upar c j))
  by_cases hcj : c = j
  · simp only [stress, if_pos hcj]
    exact (contDiffAt_const.mul (ContDiffAt.sum fun k _ => h.upar k k)).add a
  · simp only [stress, if_neg hcj, zero_add]
    exact a

/-- The stresses of a finite fault are the integrals of those of its patches. -/
theorem fin_stress {al lam mu sd cd dep l1 l2 w1 w2 : ℝ} (tr : sd * sd + cd * cd = 1) (hs : 0 ≤ sd) (d1 d2 d3 : ℝ) {p : V3} (h : Off sd cd dep p)
    (hl : l1 ≤ l2) (hw : w1 ≤ w2) (k1 : 0 ≤ dep - p 2 - w1 * sd) (k2 : 0 ≤ dep - p 2 - w2 * sd) (c j : Fin 3) :
    stress lam mu (finT al sd cd dep l1 l2 w1 w2 d1 d2 d3 p).upar c j =
      ∫ v in rect l1 l2 w1 w2, stress lam mu (patch al sd cd dep d1 d2 d3 p v).upar c j := by
  rw [← stress_int fun i j => ((patch_slice tr hs d1 d2 d3 h k1 k2 l1 l2).2 i j).integrableOn_compact (rect_compact _ _ _ _)]
  congr 1
  ext i j
  exact fin_upar tr hs d1 d2 d3 h hl hw k1 k2 i j

/-- The surface over a finite fault is free. -/
theorem fin_free {lam mu sd cd dep l1 l2 w1 w2 : ℝ} (hm : 0 < mu) (hlm : 0 < lam + mu) (tr : sd * sd + cd * cd = 1) (hs : 0 ≤ sd)
    (d1 d2 d3 : ℝ) {p : V3} (h : Off sd cd dep p) (hl : l1 ≤ l2) (hw : w1 ≤ w2) (k1 : w1 * sd ≤ dep) (k2 : w2 * sd ≤ dep) (hz : p 2 = 0) :
    TractionFreeAt lam mu (fun q => (finT ((lam + mu) / (lam + 2 * mu)) sd cd dep l1 l2 w1 w2 d1 d2 d3 q).upar) p := by
  intro c
  rw [fin_stress tr hs d1 d2 d3 h hl hw (by linarith) (by linarith)]
  simp only [patch_free hm hlm tr d1 d2 d3 h hz]
  simp

/-- The stresses of a finite fault balance. -/
theorem fin_equil {lam mu sd cd dep l1 l2 w1 w2 : ℝ} (hm : 0 < mu) (hlm : 0 < lam + mu) (tr : sd * sd + cd * cd = 1) (hs : 0 ≤ sd)
    (d1 d2 d3 : ℝ) {p : V3} (h : Off sd cd dep p) (hl : l1 ≤ l2) (hw : w1 ≤ w2) (k1 : w1 * sd ≤ dep) (k2 : w2 * sd ≤ dep) (hz : p 2 < 0) :
    EquilAt lam mu (fun q => (finT ((lam + mu) / (lam + 2 * mu)) sd cd dep l1 l2 w1 w2 d1 d2 d3 q).upar) p := by
  intro c
  have m1 : 0 ≤ dep - p 2 - w1 * sd := by linarith
  have m2 : 0 ≤ dep - p 2 - w2 * sd := by linarith
  have ex : ∀ v, ∃ s : Fin 3 → ℝ, v ∈ rect l1 l2 w1 w2 → (∀ j, PartialAt (fun q => stress lam mu
      (patch ((lam + mu) / (lam + 2 * mu)) sd cd dep d1 d2 d3 q v).upar c j) (s j) j p) ∧ ∑ j, s j = 0 := by
    intro v
    by_cases hv : v ∈ rect l1 l2 w1 w2
    · obtain ⟨s, hs⟩ := patch_equil hm hlm tr d1 d2 d3 h (depth_mid m1 m2 hv.2.1 hv.2.2 hs) c
      exact ⟨s, fun _ => hs⟩
    · exact ⟨0, fun h => absurd h hv⟩
  choose s hsv using ex
  have P : ∀ j, IntegrableOn (fun v => s v j) (rect l1 l2 w1 w2) ∧ PartialAt (fun q => ∫ v in rect l1 l2 w1 w2,
      stress lam mu (patch ((lam + mu) / (lam + 2 * mu)) sd cd dep d1 d2 d3 q v).upar c j) (∫ v in rect l1 l2 w1 w2, s v j) j p := by
    intro j
    refine PartialAt.int (f := fun q v => stress lam mu (patch ((lam + mu) / (lam + 2 * mu)) sd cd dep d1 d2 d3 q v).upar c j)
      (rect_compact l1 l2 w1 w2) (fun v hv => ?_) (fun v hv => (hsv v hv).1 j)
    exact stress_smooth (F := fun x : V3 × ℝ × ℝ => patch ((lam + mu) / (lam + 2 * mu)) sd cd dep d1 d2 d3 x.1 x.2)
      (patch_cont tr hs d1 d2 d3 h m1 m2 hv) c j
  refine ⟨fun j => ∫ v in rect l1 l2 w1 w2, s v j, fun j => ?_, ?_⟩
  · have a := (P j).2
    unfold PartialAt at a ⊢
    have hz' : ∀ᶠ t in nhds (p j), Function.update p j t 2 < 0 := by
      have u : Continuous (fun t => Function.update p j t) := continuous_const.update j continuous_id
      have c : Continuous (fun t => Function.update p j t 2) := (continuous_apply 2).comp u
      exact c.continuousAt.eventually (isOpen_Iio.mem_nhds (by simpa using hz))
    refine a.congr_of_eventuallyEq ?_
    filter_upwards [off_near h j, hz'] with t ht hzt
    exact fin_stress (al := (lam + mu) / (lam + 2 * mu)) tr hs d1 d2 d3 ht hl hw (by linarith) (by linarith) c j
  · rw [← integral_finsetSum _ fun j _ => (P j).1]
    have e : ∀ v ∈ rect l1 l2 w1 w2, ∑ j, s v j = 0 := fun v hv => (hsv v hv).2
    rw [setIntegral_congr_fun (rect_compact l1 l2 w1 w2).measurableSet e]
    simp

end GRT.Okada
