import Verif.Syn.RadProps
import Verif.Syn.CoordProps
import Mathlib.Analysis.SpecialFunctions.Complex.LogDeriv
import Mathlib.Analysis.SpecialFunctions.Complex.Arg
import Mathlib.Analysis.SpecialFunctions.Trigonometric.Angle
import Mathlib.Analysis.SpecialFunctions.Sqrt

/-! Model of `static_syn_from_gf_one` (`static/grt_static_syn.c` 590-661) and, per sample, of `syn_from_gf`
(`dynamic/grt_syn.c` 800-905), and C59: the derivative outputs are the gradient of the displacement output. -/

set_option linter.unusedSectionVars false

namespace GRT.Syn

open GRT.Layer Real

/-- `GRT_SRC_M_ORDERS`, const.c 19. -/
def order : Src → ℕ
  | .EX => 0 | .VF => 0 | .HF => 1 | .DD => 0 | .DS => 1 | .SS => 2

/-- Index in `GRT_ZRT_CODES`. -/
def Comp.idx : Comp → Fin 3 | .Z => 0 | .R => 1 | .T => 2
def compOf : Fin 3 → Comp | 0 => .Z | 1 => .R | 2 => .T

/-- The accumulation over sources, grt_static_syn.c 638-642. -/
def accum (up rad : Grid) (c : Comp) : ℝ :=
  [Src.EX, .VF, .HF, .DD, .DS, .SS].foldl
    (fun acc s => if order s = 0 ∧ c = .T then acc else acc + up s c * rad s c) 0

/-- Inputs that stay fixed in one call. -/
structure SynSrc where
  ty : SynType
  M0 : ℝ
  vpvs : ℝ
  m : Fin 6 → ℝ

/-- One round of the `ityp` loop, grt_static_syn.c 603-650: the new content of `srcRadi` and `tmpsyn`. -/
noncomputable def round (S : SynSrc) (az dist0 : ℝ) (u uiz uir : Grid) (rad : Grid) (ityp : ℕ) : Grid × (Fin 3 → ℝ) :=
  let scale : ℝ := if ityp = 0 then 1 else if ityp = 3 then (if IsZero dist0 then 1e-5 else 1e-5 / dist0) else 1e-5
  let up := if ityp = 1 then uiz else if ityp = 2 then uir else if ityp = 3 ∧ IsZero dist0 then uir else u
  let rad := setRadiation rad S.ty (ityp == 3) S.M0 scale S.vpvs az S.m
  (rad, fun i => accum up rad (compOf i))

/-- `static_syn_from_gf_one`, grt_static_syn.c 590-661, with `calc_upar`; `u`, `uiz`, `uir` are the Green's
functions at the picked distance. -/
noncomputable def synOne (S : SynSrc) (az dist0 : ℝ) (u uiz uir : Grid) (zne : Bool) : (Fin 3 → ℝ) × (Fin 3 → Fin 3 → ℝ) :=
  let p0 := round S az dist0 u uiz uir zeroGrid 0
  let p1 := round S az dist0 u uiz uir p0.1 1
  let p2 := round S az dist0 u uiz uir p1.1 2
  let p3 := round S az dist0 u uiz uir p2.1 3
  if zne then uparZXY az (dist0 * 1e5) p0.2 ![p1.2, p2.2, p3.2] else (p0.2, ![p1.2, p2.2, p3.2])

/-! ### Lemmas -/

/-- The synthetic in closed form: `Σ_s G_s rad_s`. -/
noncomputable def F (S : SynSrc) (G : Grid) (par : Bool) (az : ℝ) (i : Fin 3) : ℝ :=
  accum G (setRadiation zeroGrid S.ty par S.M0 1 S.vpvs az S.m) (compOf i)

theorem accum_eq (up rad : Grid) (c : Comp) :
    accum up rad c = if c = .T then up .HF c * rad .HF c + up .DS c * rad .DS c + up .SS c * rad .SS c
      else up .EX c * rad .EX c + up .VF c * rad .VF c + up .HF c * rad .HF c + up .DD c * rad .DD c
        + up .DS c * rad .DS c + up .SS c * rad .SS c := by
  cases c <;> simp [accum, order]

theorem rad_coef (ty : SynType) (par : Bool) (M0 coef vpvs az : ℝ) (m : Fin 6 → ℝ) (s : Src) (c : Comp) :
    setRadiation zeroGrid ty par M0 coef vpvs az m s c = coef * setRadiation zeroGrid ty par M0 1 vpvs az m s c := by
  cases ty <;> cases par <;> cases s <;> cases c <;>
    simp only [setRadiation, setDisl, setRow, zeroGrid, reduceCtorEq, if_true, if_false, Bool.false_eq_true] <;> ring1

theorem accum_rad (S : SynSrc) (up : Grid) (par : Bool) (coef az : ℝ) (i : Fin 3) :
    accum up (setRadiation zeroGrid S.ty par S.M0 coef S.vpvs az S.m) (compOf i) = coef * F S up par az i := by
  simp only [F, accum_eq, rad_coef S.ty par S.M0 coef]
  split <;> ring

theorem round_val (S : SynSrc) (az dist0 : ℝ) (u uiz uir : Grid) :
    (synOne S az dist0 u uiz uir false).1 = F S u false az ∧
    (synOne S az dist0 u uiz uir false).2 = ![fun i => 1e-5 * F S uiz false az i, fun i => 1e-5 * F S uir false az i,
      fun i => if IsZero dist0 then 1e-5 * F S uir true az i else 1e-5 / dist0 * F S u true az i] := by
  constructor
  · funext i
    simp only [synOne, round, Bool.false_eq_true, if_false, if_true, F]
    rfl
  · simp only [synOne, round, Bool.false_eq_true, if_false]
    norm_num
    simp only [C20_overwrites, accum_rad]
    refine ⟨rfl, rfl, ?_⟩
    funext i
    by_cases h : IsZero dist0 <;> simp [h]


theorem zne_val (S : SynSrc) (az dist0 : ℝ) (u uiz uir : Grid) :
    synOne S az dist0 u uiz uir true = uparZXY az (dist0 * 1e5) (synOne S az dist0 u uiz uir false).1
      (synOne S az dist0 u uiz uir false).2 := rfl

/-- Along any curve in distance and azimuth. -/
theorem F_curve (S : SynSrc) (G : ℝ → Grid) (Gr : Grid) (ρ φ : ℝ → ℝ) (ρ' φ' t : ℝ) (hρ : HasDerivAt ρ ρ' t)
    (hφ : HasDerivAt φ φ' t) (hG : ∀ s c, HasDerivAt (fun x => G x s c) (Gr s c) (ρ t)) (i : Fin 3) :
    HasDerivAt (fun x => F S (G (ρ x)) false (φ x) i)
      (F S Gr false (φ t) i * ρ' + F S (G (ρ t)) true (φ t) i * φ') t := by
  have h : ∀ s c, HasDerivAt (fun x => G (ρ x) s c * setRadiation zeroGrid S.ty false S.M0 1 S.vpvs (φ x) S.m s c)
      ((Gr s c * ρ') * setRadiation zeroGrid S.ty false S.M0 1 S.vpvs (φ t) S.m s c
        + G (ρ t) s c * (setRadiation zeroGrid S.ty true S.M0 1 S.vpvs (φ t) S.m s c * φ')) t := fun s c =>
    ((hG s c).comp t hρ).mul ((C20_derivative S.ty S.M0 1 S.vpvs S.m s c (φ t)).comp t hφ)
  simp only [F, accum_eq]
  split
  · exact (((h .HF (compOf i)).add (h .DS (compOf i))).add (h .SS (compOf i))).congr_deriv (by ring)
  · exact ((((((h .EX (compOf i)).add (h .VF (compOf i))).add (h .HF (compOf i))).add (h .DD (compOf i))).add
      (h .DS (compOf i))).add (h .SS (compOf i))).congr_deriv (by ring)

theorem er_et_periodic (az : ℝ) (k : ℤ) : er (az + 2 * π * k) = er az ∧ et (az + 2 * π * k) = et az := by
  have e : az + 2 * π * k = az + k * (2 * π) := by ring
  simp [er, et, e]

theorem F_periodic (S : SynSrc) (G : Grid) (az : ℝ) (k : ℤ) (i : Fin 3) :
    F S G false (az + 2 * π * k) i = F S G false az i := by
  have h : ∀ s c, setRadiation zeroGrid S.ty false S.M0 1 S.vpvs (az + 2 * π * k) S.m s c
      = setRadiation zeroGrid S.ty false S.M0 1 S.vpvs az S.m s c := by
    intro s c
    by_cases hty : S.ty = .SF
    · rw [hty, C21_force, C21_force]
      cases s <;> cases c <;> simp [radForce, er_et_periodic]
    · rw [C21_tensor _ hty, C21_tensor _ hty]
      cases s <;> cases c <;> simp [radTensor, er_et_periodic]
  simp only [F, accum_eq, h]

/-! ### Specification: the displacement field over the plane of receivers -/

/-- Distance and azimuth of the receiver at `(north, east)`, grt_static_syn.c 678-683. -/
noncomputable def dist (n e : ℝ) : ℝ := √(n ^ 2 + e ^ 2)
noncomputable def azimuth (n e : ℝ) : ℝ := if IsZero (dist n e) then 0 else Complex.arg ⟨n, e⟩

/-- The displacement (up, north, east) that the program outputs at each receiver, when the Green's functions
at that distance are `G`. -/
noncomputable def U (S : SynSrc) (G : ℝ → Grid) (n e : ℝ) : Fin 3 → ℝ :=
  (synOne S (azimuth n e) (dist n e) (G (dist n e)) zeroGrid zeroGrid true).1

/-- The derivative outputs there. -/
noncomputable def gradU (S : SynSrc) (G : ℝ → Grid) (uiz uir : Grid) (n e : ℝ) : Fin 3 → Fin 3 → ℝ :=
  (synOne S (azimuth n e) (dist n e) (G (dist n e)) uiz uir true).2

theorem U_eq (S : SynSrc) (G : ℝ → Grid) (n e : ℝ) :
    U S G n e = ![F S (G (dist n e)) false (azimuth n e) 0,
      F S (G (dist n e)) false (azimuth n e) 1 * cos (azimuth n e) - F S (G (dist n e)) false (azimuth n e) 2 * sin (azimuth n e),
      F S (G (dist n e)) false (azimuth n e) 1 * sin (azimuth n e) + F S (G (dist n e)) false (azimuth n e) 2 * cos (azimuth n e)] := by
  simp only [U, zne_val, (round_val S _ _ _ _ _).1, uparZXY]

/-- The displacement at a point, from polar coordinates whose angle need not be the principal one. -/
noncomputable def V (S : SynSrc) (G : ℝ → Grid) (ρ φ : ℝ) : Fin 3 → ℝ :=
  ![F S (G ρ) false φ 0, F S (G ρ) false φ 1 * cos φ - F S (G ρ) false φ 2 * sin φ,
    F S (G ρ) false φ 1 * sin φ + F S (G ρ) false φ 2 * cos φ]

theorem V_periodic (S : SynSrc) (G : ℝ → Grid) (ρ φ : ℝ) (k : ℤ) : V S G ρ (φ + 2 * π * k) = V S G ρ φ := by
  have e : φ + 2 * π * k = φ + k * (2 * π) := by ring
  have hs : sin (φ + 2 * π * k) = sin φ := by rw [e]; exact sin_add_int_mul_two_pi φ k
  have hc : cos (φ + 2 * π * k) = cos φ := by rw [e]; exact cos_add_int_mul_two_pi φ k
  simp only [V, F_periodic, hs, hc]

theorem V_curve (S : SynSrc) (G : ℝ → Grid) (Gr : Grid) (ρ φ : ℝ → ℝ) (ρ' φ' t : ℝ) (hρ : HasDerivAt ρ ρ' t)
    (hφ : HasDerivAt φ φ' t) (hG : ∀ s c, HasDerivAt (fun x => G x s c) (Gr s c) (ρ t)) (i : Fin 3) :
    HasDerivAt (fun x => V S G (ρ x) (φ x) i)
      (![F S Gr false (φ t) 0 * ρ' + F S (G (ρ t)) true (φ t) 0 * φ',
        (F S Gr false (φ t) 1 * ρ' + F S (G (ρ t)) true (φ t) 1 * φ') * cos (φ t) - F S (G (ρ t)) false (φ t) 1 * sin (φ t) * φ'
        - (F S Gr false (φ t) 2 * ρ' + F S (G (ρ t)) true (φ t) 2 * φ') * sin (φ t) - F S (G (ρ t)) false (φ t) 2 * cos (φ t) * φ',
        (F S Gr false (φ t) 1 * ρ' + F S (G (ρ t)) true (φ t) 1 * φ') * sin (φ t) + F S (G (ρ t)) false (φ t) 1 * cos (φ t) * φ'
        + (F S Gr false (φ t) 2 * ρ' + F S (G (ρ t)) true (φ t) 2 * φ') * cos (φ t) - F S (G (ρ t)) false (φ t) 2 * sin (φ t) * φ'] i) t := by
  have h := F_curve S G Gr ρ φ ρ' φ' t hρ hφ hG
  have hc := hφ.cos
  have hs := hφ.sin
  fin_cases i
  · exact h 0
  · exact (((h 1).mul hc).sub ((h 2).mul hs)).congr_deriv (by simp; ring)
  · exact (((h 1).mul hs).add ((h 2).mul hc)).congr_deriv (by simp; ring)

/-- Local polar coordinates around a point off the axis. -/
theorem polar_angle (n e θ : ℝ) (h : (⟨n, e⟩ : ℂ) ≠ 0) :
    ∃ k : ℤ, Complex.arg ⟨n, e⟩ = θ + Complex.arg (⟨n, e⟩ * Complex.exp (-(θ * Complex.I))) + 2 * π * k := by
  have hx : Complex.exp (-(θ * Complex.I)) ≠ 0 := Complex.exp_ne_zero _
  have h1 := Complex.arg_mul_coe_angle h hx
  have h2 : ((Complex.exp (-(θ * Complex.I))).arg : Real.Angle) = ((-θ : ℝ) : Real.Angle) := by
    have := Complex.arg_cos_add_sin_mul_I_coe_angle ((-θ : ℝ) : Real.Angle)
    have e : Complex.exp (-(θ * Complex.I)) = (((-θ : ℝ) : Real.Angle).cos : ℂ) + ((-θ : ℝ) : Real.Angle).sin * Complex.I := by
      rw [show -(θ * Complex.I) = ((-θ : ℝ) : ℂ) * Complex.I by push_cast; ring, Complex.exp_mul_I]
      simp
    rw [e]; exact this
  rw [h2] at h1
  have h3 : ((Complex.arg ⟨n, e⟩ : ℝ) : Real.Angle) = ((θ + Complex.arg (⟨n, e⟩ * Complex.exp (-(θ * Complex.I))) : ℝ) : Real.Angle) := by
    rw [Real.Angle.coe_add, h1]
    simp
  obtain ⟨k, hk⟩ := Real.Angle.angle_eq_iff_two_pi_dvd_sub.1 h3
  exact ⟨k, by linarith⟩

theorem norm_mk (n e : ℝ) : ‖(⟨n, e⟩ : ℂ)‖ = dist n e := by
  rw [Complex.norm_eq_sqrt_sq_add_sq, dist]

theorem polar_cos (n e : ℝ) (h : 0 < dist n e) :
    cos (Complex.arg ⟨n, e⟩) = n / dist n e ∧ sin (Complex.arg ⟨n, e⟩) = e / dist n e := by
  have hz : (⟨n, e⟩ : ℂ) ≠ 0 := by rw [← norm_pos_iff, norm_mk]; exact h
  rw [Complex.cos_arg hz, Complex.sin_arg, norm_mk]; exact ⟨rfl, rfl⟩

theorem rotated_base (n e : ℝ) (h : 0 < dist n e) :
    (⟨n, e⟩ : ℂ) * Complex.exp (-(Complex.arg ⟨n, e⟩ * Complex.I)) = (dist n e : ℂ) := by
  have h1 := Complex.norm_mul_exp_arg_mul_I (⟨n, e⟩ : ℂ)
  have h2 : Complex.exp (Complex.arg ⟨n, e⟩ * Complex.I) * Complex.exp (-(Complex.arg ⟨n, e⟩ * Complex.I)) = 1 := by
    rw [← Complex.exp_add]; simp
  calc (⟨n, e⟩ : ℂ) * Complex.exp (-(Complex.arg ⟨n, e⟩ * Complex.I))
      = ((‖(⟨n, e⟩ : ℂ)‖ : ℂ) * Complex.exp (Complex.arg ⟨n, e⟩ * Complex.I)) * Complex.exp (-(Complex.arg ⟨n, e⟩ * Complex.I)) := by
        rw [h1]
    _ = (dist n e : ℂ) := by rw [mul_assoc, h2, norm_mk, mul_one]

/-- Derivative of distance and (continued) azimuth along a line. -/
theorem polar_deriv (n e a b : ℝ) (h : 0 < dist n e) :
    HasDerivAt (fun t => dist (n + t * a) (e + t * b)) (a * cos (Complex.arg ⟨n, e⟩) + b * sin (Complex.arg ⟨n, e⟩)) 0 ∧
    HasDerivAt (fun t => Complex.arg ⟨n, e⟩
        + Complex.arg ((⟨n + t * a, e + t * b⟩ : ℂ) * Complex.exp (-(Complex.arg ⟨n, e⟩ * Complex.I))))
      ((- a * sin (Complex.arg ⟨n, e⟩) + b * cos (Complex.arg ⟨n, e⟩)) / dist n e) 0 := by
  obtain ⟨hc, hs⟩ := polar_cos n e h
  have hpos : n ^ 2 + e ^ 2 ≠ 0 := by
    intro h0; rw [dist, h0, sqrt_zero] at h; exact lt_irrefl _ h
  constructor
  · have h1 : HasDerivAt (fun t : ℝ => n + t * a) a 0 := by
      simpa using ((hasDerivAt_id (0 : ℝ)).mul_const a).const_add n
    have h2 : HasDerivAt (fun t : ℝ => e + t * b) b 0 := by
      simpa using ((hasDerivAt_id (0 : ℝ)).mul_const b).const_add e
    have h3 := ((h1.pow 2).add (h2.pow 2)).sqrt (by simpa using hpos)
    refine h3.congr_deriv ?_
    have e0 : √(n ^ 2 + e ^ 2) = dist n e := rfl
    simp only [Pi.add_apply, Pi.pow_apply, zero_mul, add_zero, e0, hc, hs]
    field_simp
    norm_num
    ring
  · set θ := Complex.arg ⟨n, e⟩ with hθ
    set w := Complex.exp (-(θ * Complex.I)) with hw
    have hw' : w = (cos θ : ℂ) - sin θ * Complex.I := by
      rw [hw, show -(θ * Complex.I) = ((-θ : ℝ) : ℂ) * Complex.I by push_cast; ring, Complex.exp_mul_I]
      push_cast; simp [sub_eq_add_neg]
    have h1 : HasDerivAt (fun t : ℝ => ((⟨n + t * a, e + t * b⟩ : ℂ) * w)) ((⟨a, b⟩ : ℂ) * w) 0 := by
      have h0 : HasDerivAt (fun t : ℝ => (⟨n, e⟩ : ℂ) + (t : ℂ) * ⟨a, b⟩) ⟨a, b⟩ 0 := by
        have := (((hasDerivAt_id (0 : ℝ)).ofReal_comp).mul_const (⟨a, b⟩ : ℂ)).const_add (⟨n, e⟩ : ℂ)
        simpa using this
      have h0' := h0.mul_const w
      refine h0'.congr_of_eventuallyEq (Filter.Eventually.of_forall fun t => ?_)
      show (⟨n + t * a, e + t * b⟩ : ℂ) * w = _
      congr 1
      apply Complex.ext <;> simp
    have hbase : (⟨n + 0 * a, e + 0 * b⟩ : ℂ) * w = (dist n e : ℂ) := by
      simpa using rotated_base n e h
    have h2 := h1.clog_real (by rw [hbase]; exact Complex.ofReal_mem_slitPlane.2 h)
    rw [hbase] at h2
    have h3 := Complex.imCLM.hasFDerivAt.comp_hasDerivAt (0 : ℝ) h2
    have h4 : HasDerivAt (fun t : ℝ => Complex.arg ((⟨n + t * a, e + t * b⟩ : ℂ) * w)) (Complex.imCLM ((⟨a, b⟩ : ℂ) * w / (dist n e : ℂ))) 0 := by
      refine h3.congr_of_eventuallyEq (Filter.Eventually.of_forall fun t => ?_)
      simp [Complex.log_im]
    refine (h4.const_add θ).congr_deriv ?_
    rw [Complex.imCLM_apply, Complex.div_ofReal_im, hw']
    simp only [Complex.mul_im, Complex.sub_re, Complex.sub_im, Complex.mul_re, Complex.ofReal_re, Complex.ofReal_im,
      Complex.I_re, Complex.I_im]
    ring

theorem U_eq_V (S : SynSrc) (G : ℝ → Grid) (n e : ℝ) : U S G n e = V S G (dist n e) (azimuth n e) := U_eq S G n e

/-! ### C59 -/

/-- C59 (vertical, radial and azimuthal outputs): in the frame ZRT the three derivative outputs are the
derivatives of the displacement output with respect to depth, distance and azimuth (the last over the distance),
per cm where the displacement's coordinates are in km. -/
theorem C59_zrt (S : SynSrc) (G : ℝ → ℝ → Grid) (Gz Gr : Grid) (z r θ : ℝ) (hr : ¬ IsZero r)
    (hz : ∀ s c, HasDerivAt (fun x => G x r s c) (Gz s c) z) (hG : ∀ s c, HasDerivAt (fun x => G z x s c) (Gr s c) r)
    (i : Fin 3) (uiz uir : Grid) :
    let D := (synOne S θ r (G z r) Gz Gr false).2
    HasDerivAt (fun x => (synOne S θ r (G x r) uiz uir false).1 i) (1e5 * D 0 i) z ∧
    HasDerivAt (fun x => (synOne S θ x (G z x) uiz uir false).1 i) (1e5 * D 1 i) r ∧
    HasDerivAt (fun x => (synOne S x r (G z r) uiz uir false).1 i) (1e5 * r * D 2 i) θ := by
  have hr0 : r ≠ 0 := by rintro rfl; exact hr (by unfold IsZero; norm_num)
  simp only [(round_val S _ _ _ _ _).1, (round_val S _ _ _ _ _).2]
  refine ⟨?_, ?_, ?_⟩
  · refine (F_curve S (fun x => G x r) Gz id (fun _ => θ) 1 0 z (hasDerivAt_id z) (hasDerivAt_const z θ) hz i).congr_deriv ?_
    simp; norm_num; ring
  · refine (F_curve S (fun x => G z x) Gr id (fun _ => θ) 1 0 r (hasDerivAt_id r) (hasDerivAt_const r θ) hG i).congr_deriv ?_
    simp; norm_num; ring
  · refine (F_curve S (fun x => G z x) Gr (fun _ => r) id 0 1 θ (hasDerivAt_const θ r) (hasDerivAt_id θ) hG i).congr_deriv ?_
    simp [hr]; field_simp; norm_num; ring

/-- C59 (horizontal gradient in the frame ZNE): at every receiver off the axis, in every direction `(a, b)`, the
directional derivative of the displacement the program outputs is the one its derivative outputs give. -/
theorem C59_gradient (S : SynSrc) (G : ℝ → Grid) (uiz Gr : Grid) (n e : ℝ) (hr : ¬ IsZero (dist n e))
    (hG : ∀ s c, HasDerivAt (fun x => G x s c) (Gr s c) (dist n e)) (a b : ℝ) (i : Fin 3) :
    HasDerivAt (fun t => U S G (n + t * a) (e + t * b) i)
      (1e5 * (a * gradU S G uiz Gr n e 1 i + b * gradU S G uiz Gr n e 2 i)) 0 := by
  have hgt : 1e-8 < dist n e := not_le.1 hr
  have hpos : 0 < dist n e := lt_trans (by norm_num) hgt
  obtain ⟨hρ, hφ⟩ := polar_deriv n e a b hpos
  set θ := Complex.arg ⟨n, e⟩ with hθ
  set φ : ℝ → ℝ := fun t => θ + Complex.arg ((⟨n + t * a, e + t * b⟩ : ℂ) * Complex.exp (-(θ * Complex.I))) with hφd
  set ρ : ℝ → ℝ := fun t => dist (n + t * a) (e + t * b) with hρd
  have hρ0 : ρ 0 = dist n e := by simp [hρd]
  have hφ0 : φ 0 = θ := by
    have := rotated_base n e hpos
    simp only [hφd, zero_mul, add_zero]
    rw [this, Complex.arg_ofReal_of_nonneg hpos.le, add_zero]
  have hV := V_curve S G Gr ρ φ _ _ 0 hρ hφ (by rw [hρ0]; exact hG) i
  have hev : ∀ᶠ t in nhds (0 : ℝ), 1e-8 < ρ t :=
    hρ.continuousAt.eventually (lt_mem_nhds (by rw [hρ0]; exact hgt))
  have hU : (fun t => U S G (n + t * a) (e + t * b) i) =ᶠ[nhds 0] fun t => V S G (ρ t) (φ t) i := by
    filter_upwards [hev] with t ht
    have ht' : ¬ IsZero (dist (n + t * a) (e + t * b)) := not_le.2 ht
    have hne : (⟨n + t * a, e + t * b⟩ : ℂ) ≠ 0 := by
      rw [← norm_pos_iff, norm_mk]; exact lt_trans (by norm_num) ht
    obtain ⟨k, hk⟩ := polar_angle (n + t * a) (e + t * b) θ hne
    rw [U_eq_V, azimuth, if_neg ht', hk, V_periodic]
  refine (hV.congr_of_eventuallyEq hU).congr_deriv ?_
  have haz : azimuth n e = θ := by rw [azimuth, if_neg hr]
  have hr0 : dist n e ≠ 0 := ne_of_gt hpos
  have t2 := sin_sq_add_cos_sq θ
  have hcm : ¬ IsZero (dist n e * 1e5 * 1e-5) := by rw [isZero_cm]; exact hr
  simp only [gradU, zne_val, uparZXY, haz, (round_val S _ _ _ _ _).1, (round_val S _ _ _ _ _).2, hφ0, hρ0, if_neg hcm, if_neg hr]
  generalize F S (G (dist n e)) false θ = A
  generalize F S (G (dist n e)) true θ = B
  generalize F S Gr false θ = C
  generalize dist n e = r at hr0
  clear hV hU hev hφ hρ hG hφ0 hρ0
  generalize sin θ = sn at *
  generalize cos θ = cs at *
  fin_cases i
  · simp; field_simp; norm_num; ring
  · simp; field_simp; norm_num; grind
  · simp; field_simp; norm_num; grind

/-- What cylindrical harmonics of order 0, 1, 2 satisfy on the axis (values `g`, derivatives with respect to distance
`g'`), so that the displacement is a differentiable field there. -/
structure AxisRegular (g g' : Grid) : Prop where
  r0 : ∀ s, order s = 0 → g s .R = 0 ∧ g' s .Z = 0
  r1 : ∀ s, order s = 1 → g s .Z = 0 ∧ g s .R = g s .T ∧ g' s .R = 0 ∧ g' s .T = 0
  r2 : ∀ s, order s = 2 → g s .Z = 0 ∧ g s .R = 0 ∧ g s .T = 0 ∧ g' s .Z = 0 ∧ g' s .R = g' s .T

theorem axis_value (S : SynSrc) (g g' : Grid) (h : AxisRegular g g') (φ : ℝ) (i : Fin 3) :
    ![F S g false φ 0, F S g false φ 1 * cos φ - F S g false φ 2 * sin φ,
      F S g false φ 1 * sin φ + F S g false φ 2 * cos φ] i
    = ![F S g false 0 0, F S g false 0 1, F S g false 0 2] i := by
  obtain ⟨h0, h1, h2⟩ := h
  have a1 := h0 .EX rfl; have a2 := h0 .VF rfl; have a3 := h0 .DD rfl
  have b1 := h1 .HF rfl; have b2 := h1 .DS rfl; have c1 := h2 .SS rfl
  have t := sin_sq_add_cos_sq φ
  by_cases hty : S.ty = .SF
  · fin_cases i <;>
    simp [F, accum_eq, compOf, hty, C21_force, radForce, dot, er, et, ez, a1, a2, a3, b1, b2, c1] <;> grind
  · fin_cases i <;>
    simp [F, accum_eq, compOf, C21_tensor _ hty, radTensor, bil, er, et, ez, a1, a2, a3, b1, b2, c1] <;> grind

/-- The factors with `par_theta`, from those without. -/
theorem rad_par (S : SynSrc) (az : ℝ) :
    let f := setRadiation zeroGrid S.ty false S.M0 1 S.vpvs az S.m
    let p := setRadiation zeroGrid S.ty true S.M0 1 S.vpvs az S.m
    (∀ s c, order s = 0 → p s c = 0) ∧
    (∀ s, order s = 1 → p s .Z = f s .T ∧ p s .R = f s .T ∧ p s .T = - f s .R) ∧
    (∀ s, order s = 2 → p s .Z = 2 * f s .T ∧ p s .R = 2 * f s .T ∧ p s .T = -2 * f s .R) := by
  refine ⟨?_, ?_, ?_⟩
  · intro s c hs
    cases h : S.ty <;> cases s <;> cases c <;> simp_all [setRadiation, setDisl, setRow, zeroGrid, order]
  · intro s hs
    cases h : S.ty <;> cases s <;> simp_all [setRadiation, setDisl, setRow, zeroGrid, order]
  · intro s hs
    cases h : S.ty <;> cases s <;> simp_all [setRadiation, setDisl, setRow, zeroGrid, order]

theorem axis_deriv (S : SynSrc) (g g' : Grid) (h : AxisRegular g g') (φ : ℝ) (i : Fin 3) :
    ![F S g' false φ 0, F S g' false φ 1 * cos φ - F S g' false φ 2 * sin φ,
      F S g' false φ 1 * sin φ + F S g' false φ 2 * cos φ] i
    = cos φ * ![F S g' false 0 0, F S g' false 0 1, F S g' false 0 2] i
      + sin φ * ![F S g' true 0 0, F S g' true 0 1 - F S g' false 0 2, F S g' true 0 2 + F S g' false 0 1] i := by
  obtain ⟨h0, h1, h2⟩ := h
  have a1 := h0 .EX rfl; have a2 := h0 .VF rfl; have a3 := h0 .DD rfl
  have b1 := h1 .HF rfl; have b2 := h1 .DS rfl; have c1 := h2 .SS rfl
  have t := sin_sq_add_cos_sq φ
  obtain ⟨p0, p1, p2⟩ := rad_par S 0
  have q1 := fun c => p0 .EX c rfl; have q2 := fun c => p0 .VF c rfl; have q3 := fun c => p0 .DD c rfl
  have q4 := p1 .HF rfl; have q5 := p1 .DS rfl; have q6 := p2 .SS rfl
  clear h0 h1 h2 p0 p1 p2
  by_cases hty : S.ty = .SF
  · rw [hty] at q1 q2 q3 q4 q5 q6
    fin_cases i <;>
    simp [F, accum_eq, compOf, hty, q1, q2, q3, q4, q5, q6, C21_force, radForce, dot, er, et, ez, a1, a2, a3, b1, b2, c1] <;> grind
  · have sy : tensorOf S.ty S.vpvs S.m 1 0 = tensorOf S.ty S.vpvs S.m 0 1 := by
      cases h : S.ty <;> simp [tensorOf] <;> ring
    fin_cases i <;>
    simp [F, accum_eq, compOf, q1, q2, q3, q4, q5, q6, C21_tensor _ hty, radTensor, bil, er, et, ez, a1, a2, a3, b1, b2, c1] <;> clear q1 q2 q3 q4 q5 q6 a1 a2 a3 b1 b2 c1 <;> grind

theorem dist_ray (t φ : ℝ) (ht : 0 ≤ t) : dist (t * cos φ) (t * sin φ) = t := by
  have : (t * cos φ) ^ 2 + (t * sin φ) ^ 2 = t ^ 2 := by
    have := sin_sq_add_cos_sq φ; linear_combination t ^ 2 * this
  rw [dist, this, sqrt_sq ht]

/-- The same field with the azimuth of the receiver taken also where the program puts zero (distances of at most
`1e-8` km but not zero). -/
noncomputable def U' (S : SynSrc) (G : ℝ → Grid) (n e : ℝ) : Fin 3 → ℝ := V S G (dist n e) (Complex.arg ⟨n, e⟩)

/-- C59 on the axis: for Green's functions with the regularity of cylindrical harmonics, the directional
derivative at the epicentre in every direction is the one the derivative outputs give there. -/
theorem C59_axis (S : SynSrc) (G : ℝ → Grid) (uiz Gr : Grid) (hreg : AxisRegular (G 0) Gr)
    (hG : ∀ s c, HasDerivAt (fun x => G x s c) (Gr s c) 0) (φ : ℝ) (i : Fin 3) :
    HasDerivWithinAt (fun t => U' S G (t * cos φ) (t * sin φ) i)
      (1e5 * (cos φ * gradU S G uiz Gr 0 0 1 i + sin φ * gradU S G uiz Gr 0 0 2 i)) (Set.Ici 0) 0 ∧
    U S G 0 0 = U' S G 0 0 := by
  have hd0 : dist 0 0 = 0 := by simp [dist]
  have hz : IsZero (dist 0 0) := by rw [hd0]; unfold IsZero; norm_num
  have hV := V_curve S G Gr id (fun _ => φ) 1 0 0 (hasDerivAt_id 0) (hasDerivAt_const 0 φ) hG i
  have haz : azimuth 0 0 = 0 := by rw [azimuth, if_pos hz]
  constructor
  · have hE : ∀ t ∈ Set.Ici (0 : ℝ), U' S G (t * cos φ) (t * sin φ) i = V S G (id t) φ i := by
      intro t ht
      rcases eq_or_lt_of_le (Set.mem_Ici.1 ht) with h0 | h0
      · subst h0
        have := axis_value S _ _ hreg φ i
        simp only [zero_mul, U', hd0, id]
        have e0 : Complex.arg ⟨0, 0⟩ = 0 := Complex.arg_zero
        rw [e0]
        simp only [V, cos_zero, sin_zero, mul_one, mul_zero, sub_zero, zero_add]
        exact this.symm
      · have hw : (⟨t * cos φ, t * sin φ⟩ : ℂ) ≠ 0 := by
          rw [← norm_pos_iff, norm_mk, dist_ray t φ h0.le]; exact h0
        obtain ⟨k, hk⟩ := polar_angle (t * cos φ) (t * sin φ) φ hw
        have hb : (⟨t * cos φ, t * sin φ⟩ : ℂ) * Complex.exp (-(φ * Complex.I)) = (t : ℂ) := by
          have : (⟨t * cos φ, t * sin φ⟩ : ℂ) = t * Complex.exp (φ * Complex.I) := by
            rw [Complex.exp_mul_I]; apply Complex.ext <;> simp [← Complex.ofReal_cos, ← Complex.ofReal_sin]
          rw [this, mul_assoc, ← Complex.exp_add]; simp
        rw [hb, Complex.arg_ofReal_of_nonneg h0.le, add_zero] at hk
        rw [U', dist_ray t φ h0.le, hk, V_periodic]; rfl
    refine (hV.hasDerivWithinAt.congr_of_mem hE (Set.mem_Ici.2 le_rfl)).congr_deriv ?_
    have hx := axis_deriv S _ _ hreg φ i
    have hz0 : IsZero 0 := by unfold IsZero; norm_num
    simp only [gradU, zne_val, uparZXY, haz, (round_val S _ _ _ _ _).1, (round_val S _ _ _ _ _).2, hd0,
      cos_zero, sin_zero, zero_mul, if_pos hz0]
    generalize F S Gr false φ = A at *
    generalize F S Gr false 0 = B at *
    generalize F S Gr true 0 = C at *
    fin_cases i
    · simp at hx ⊢; norm_num; linear_combination hx
    · simp at hx ⊢; norm_num; linear_combination hx
    · simp at hx ⊢; norm_num; linear_combination hx
  · rw [U_eq_V, haz, U', show Complex.arg ⟨0, 0⟩ = 0 from Complex.arg_zero]

/-! ### Concrete cases -/

/-- A horizontal force over Green's functions with `HF` radial and transverse part `1 + ρ²`, at the point (3, 4). -/
example : ∃ (G : ℝ → Grid) (Gr : Grid), ¬ IsZero (dist 3 4) ∧ (∀ s c, HasDerivAt (fun x => G x s c) (Gr s c) (dist 3 4)) ∧
    U ⟨.SF, 1e15, 1, ![1, 0, 0, 0, 0, 0]⟩ G 3 4 1 ≠ 0 := by
  have h5 : dist 3 4 = 5 := by rw [dist, show (3:ℝ) ^ 2 + 4 ^ 2 = 5 ^ 2 by norm_num, sqrt_sq (by norm_num)]
  refine ⟨fun x s c => if s = .HF then 1 + x ^ 2 else 0, fun s c => if s = .HF then 2 * 5 else 0, ?_, ?_, ?_⟩
  · rw [h5]; unfold IsZero; norm_num
  · intro s c
    rw [h5]
    by_cases hs : s = .HF
    · simp only [hs, if_true]
      simpa using (hasDerivAt_pow 2 (5 : ℝ)).const_add 1
    · simp only [hs, if_false]; exact hasDerivAt_const _ _
  · have t := sin_sq_add_cos_sq (azimuth 3 4)
    rw [U_eq, h5]
    simp [F, accum_eq, compOf, C21_force, radForce, dot, er, et, ez, forceOf]
    norm_num
    grind

/-- The same Green's functions are regular on the axis. -/
example : AxisRegular (fun s c => if s = .HF ∧ c ≠ .Z then 1 else 0) (fun _ _ => 0) := by
  refine ⟨?_, ?_, ?_⟩ <;> intro s hs <;> cases s <;> simp_all [order]

end GRT.Syn
