import Verif.Syn.Radiation
import Mathlib.Tactic.LinearCombination
import Mathlib.Tactic.FieldSimp
import Mathlib.Tactic.NormNum

/-! C20-C22: radiation factors.  The specification speaks of force vectors and moment tensors in the frame
north, east, down and of the local frame at azimuth `az`; it does not use the routine. -/

set_option linter.unusedSectionVars false

namespace GRT.Syn

open GRT.Layer Real

/-! ### Specification -/

abbrev Vec := Fin 3 → ℝ
abbrev Ten := Fin 3 → Fin 3 → ℝ

/-- `a · T b`. -/
def bil (T : Ten) (a b : Vec) : ℝ :=
  a 0 * (T 0 0 * b 0 + T 0 1 * b 1 + T 0 2 * b 2) + a 1 * (T 1 0 * b 0 + T 1 1 * b 1 + T 1 2 * b 2)
    + a 2 * (T 2 0 * b 0 + T 2 1 * b 1 + T 2 2 * b 2)
def dot (a b : Vec) : ℝ := a 0 * b 0 + a 1 * b 1 + a 2 * b 2
def tr (T : Ten) : ℝ := T 0 0 + T 1 1 + T 2 2

/-- Radial, transverse (clockwise seen from above) and downward unit vectors at azimuth `az`. -/
noncomputable def er (az : ℝ) : Vec := ![cos az, sin az, 0]
noncomputable def et (az : ℝ) : Vec := ![- sin az, cos az, 0]
def ez : Vec := ![0, 0, 1]

/-- Fault normal and slip vector from strike, dip, rake (radians; Aki & Richards, north-east-down). -/
noncomputable def normal (φ δ : ℝ) : Vec := ![- sin δ * sin φ, sin δ * cos φ, - cos δ]
noncomputable def slip (φ δ rk : ℝ) : Vec :=
  ![cos rk * cos φ + cos δ * sin rk * sin φ, cos rk * sin φ - cos δ * sin rk * cos φ, - sin rk * sin δ]

/-- Moment tensor per unit moment: isotropic, double couple, tensile crack (Lamé's `λ/μ = (Vp/Vs)² - 2`),
general. -/
noncomputable def tensorOf (ty : SynType) (vpvs : ℝ) (m : Fin 6 → ℝ) : Ten := fun i j =>
  let δ : ℝ := if i = j then 1 else 0
  match ty with
  | .EX => δ
  | .DC => slip (m 0 * deg1) (m 1 * deg1) (m 2 * deg1) i * normal (m 0 * deg1) (m 1 * deg1) j
      + slip (m 0 * deg1) (m 1 * deg1) (m 2 * deg1) j * normal (m 0 * deg1) (m 1 * deg1) i
  | .TS => (vpvs^2 - 2) * δ + 2 * normal (m 0 * deg1) (m 1 * deg1) i * normal (m 0 * deg1) (m 1 * deg1) j
  | .MT => !![m 0, m 1, m 2; m 1, m 3, m 4; m 2, m 4, m 5] i j
  | .SF => 0

/-- Factors of the six elementary sources for a moment tensor: an explosion of size `tr/3`, and the
deviatoric part split by azimuthal order in the local frame. -/
noncomputable def radTensor (T : Ten) (az : ℝ) : Grid := fun s c =>
  match s, c with
  | .EX, .T => 0
  | .EX, _ => tr T / 3
  | .DD, .T => 0
  | .DD, _ => (bil T ez ez - tr T / 3) / 2
  | .DS, .T => - bil T (et az) ez
  | .DS, _ => - bil T (er az) ez
  | .SS, .T => bil T (er az) (et az)
  | .SS, _ => (bil T (er az) (er az) - bil T (et az) (et az)) / 2
  | .VF, _ => 0
  | .HF, _ => 0

/-- Factors for a force. -/
noncomputable def radForce (f : Vec) (az : ℝ) : Grid := fun s c =>
  match s, c with
  | .VF, .T => 0
  | .VF, _ => dot f ez
  | .HF, .T => dot f (et az)
  | .HF, _ => dot f (er az)
  | _, _ => 0

def zeroGrid : Grid := fun _ _ => 0

/-- Force of `GRT_SYN_SF`. -/
def forceOf (m : Fin 6 → ℝ) : Vec := ![m 0, m 1, m 2]

/-! ### C21 -/

/-- C21, C22: whichever way a source is described, the factors are those of its moment tensor. -/
theorem C21_tensor (ty : SynType) (hty : ty ≠ .SF) (M0 coef vpvs az : ℝ) (m : Fin 6 → ℝ) (s : Src) (c : Comp) :
    setRadiation zeroGrid ty false M0 coef vpvs az m s c = 1e-20 * M0 * coef * radTensor (tensorOf ty vpvs m) az s c := by
  have t1 := sin_sq_add_cos_sq az
  cases ty with
  | SF => exact absurd rfl hty
  | EX =>
    cases s <;> cases c <;>
      simp [setRadiation, setRow, zeroGrid, radTensor, tensorOf, bil, tr, er, et, ez] <;> grind
  | MT =>
    cases s <;> cases c <;>
      simp [setRadiation, setDisl, setRow, zeroGrid, radTensor, tensorOf, bil, tr, er, et, ez] <;> grind
  | DC =>
    have t2 := sin_sq_add_cos_sq (m 0 * deg1)
    have t3 := sin_sq_add_cos_sq (m 1 * deg1)
    have t4 := sin_sq_add_cos_sq (m 2 * deg1)
    cases s <;> cases c <;>
      simp [setRadiation, setDisl, setRow, zeroGrid, radTensor, tensorOf, bil, tr, er, et, ez, normal, slip, sin_sub, cos_sub] <;> grind
  | TS =>
    have t2 := sin_sq_add_cos_sq (m 0 * deg1)
    have t3 := sin_sq_add_cos_sq (m 1 * deg1)
    cases s <;> cases c <;>
      simp [setRadiation, setDisl, setRow, zeroGrid, radTensor, tensorOf, bil, tr, er, et, ez, normal, sin_sub, cos_sub] <;> grind

/-- C21 for forces. -/
theorem C21_force (M0 coef vpvs az : ℝ) (m : Fin 6 → ℝ) (s : Src) (c : Comp) :
    setRadiation zeroGrid .SF false M0 coef vpvs az m s c = 1e-15 * M0 * coef * radForce (forceOf m) az s c := by
  cases s <;> cases c <;> simp [setRadiation, setRow, zeroGrid, radForce, forceOf, dot, er, et, ez] <;> grind

/-- The six components of a tensor, in the order of option `-T`. -/
def mchnOf (T : Ten) : Fin 6 → ℝ := ![T 0 0, T 0 1, T 0 2, T 1 1, T 1 2, T 2 2]

/-- C21 as stated: a double couple, a crack or an explosion given by angles or by its tensor. -/
theorem C21_equivalent (ty : SynType) (hty : ty ≠ .SF) (M0 coef vpvs vpvs' az : ℝ) (m : Fin 6 → ℝ) :
    setRadiation zeroGrid ty false M0 coef vpvs az m =
      setRadiation zeroGrid .MT false M0 coef vpvs' az (mchnOf (tensorOf ty vpvs m)) := by
  have hs : ∀ i j, tensorOf .MT vpvs' (mchnOf (tensorOf ty vpvs m)) i j = tensorOf ty vpvs m i j := by
    intro i j
    cases ty with
    | SF => exact absurd rfl hty
    | _ =>
      fin_cases i <;> fin_cases j <;> simp [tensorOf, mchnOf] <;> ring
  funext s c
  rw [C21_tensor ty hty, C21_tensor .MT (by decide), funext fun i => funext (hs i)]

/-- The moment tensors of the angle descriptions are symmetric; a double couple has no trace and no
determinant, and scalar moment one: `T : T = 2`. -/
theorem C21_double_couple (vpvs : ℝ) (m : Fin 6 → ℝ) :
    let T := tensorOf .DC vpvs m
    (∀ i j, T i j = T j i) ∧ tr T = 0 ∧
      T 0 0 ^ 2 + T 1 1 ^ 2 + T 2 2 ^ 2 + 2 * (T 0 1 ^ 2 + T 0 2 ^ 2 + T 1 2 ^ 2) = 2 := by
  have t2 := sin_sq_add_cos_sq (m 0 * deg1)
  have t3 := sin_sq_add_cos_sq (m 1 * deg1)
  have t4 := sin_sq_add_cos_sq (m 2 * deg1)
  refine ⟨fun i j => by simp only [tensorOf]; ring, ?_, ?_⟩
  · simp [tensorOf, tr, normal, slip]; grind
  · simp [tensorOf, normal, slip]; grind

/-! ### C20 -/

/-- Rows written by a call do not depend on what was there, and the others keep their value; so the grid
left by an earlier call of the same type (grt_static_syn.c 600, 636 does not clear it) is harmless. -/
theorem C20_overwrites (ty : SynType) (par par' : Bool) (M0 coef coef' vpvs az : ℝ) (m : Fin 6 → ℝ) :
    setRadiation (setRadiation zeroGrid ty par' M0 coef' vpvs az m) ty par M0 coef vpvs az m
      = setRadiation zeroGrid ty par M0 coef vpvs az m := by
  funext s c
  cases ty <;> cases s <;> cases c <;> simp [setRadiation, setDisl, setRow]

/-- C20: the factors returned with `par_theta` set are the derivatives of the ordinary factors with respect
to azimuth. -/
theorem C20_derivative (ty : SynType) (M0 coef vpvs : ℝ) (m : Fin 6 → ℝ) (s : Src) (c : Comp) (az : ℝ) :
    HasDerivAt (fun a => setRadiation zeroGrid ty false M0 coef vpvs a m s c)
      (setRadiation zeroGrid ty true M0 coef vpvs az m s c) az := by
  have hs : HasDerivAt (fun a : ℝ => sin a) (cos az) az := hasDerivAt_sin az
  have hc : HasDerivAt (fun a : ℝ => cos a) (- sin az) az := hasDerivAt_cos az
  have hs' : ∀ φ, HasDerivAt (fun a : ℝ => sin (a - φ)) (cos (az - φ)) az := fun φ => by
    simpa using ((hasDerivAt_id az).sub_const φ).sin
  have hc' : ∀ φ, HasDerivAt (fun a : ℝ => cos (a - φ)) (- sin (az - φ)) az := fun φ => by
    simpa using ((hasDerivAt_id az).sub_const φ).cos
  -- every factor is a trigonometric polynomial of degree two
  have key : ∀ (φ a0 a1 b1 a2 b2 : ℝ), HasDerivAt
      (fun a => a0 + a1 * cos (a - φ) + b1 * sin (a - φ) + a2 * (2 * cos (a - φ) * cos (a - φ) - 1)
        + b2 * (2 * sin (a - φ) * cos (a - φ)))
      (- a1 * sin (az - φ) + b1 * cos (az - φ) - a2 * (4 * cos (az - φ) * sin (az - φ))
        + b2 * (2 * (cos (az - φ) * cos (az - φ) - sin (az - φ) * sin (az - φ)))) az := by
    intro φ a0 a1 b1 a2 b2
    have h := ((((hc' φ).const_mul a1).const_add a0).add ((hs' φ).const_mul b1)).add
      (((((hc' φ).const_mul 2).mul (hc' φ)).sub_const 1).const_mul a2)
    have h := h.add ((((hs' φ).const_mul 2).mul (hc' φ)).const_mul b2)
    refine h.congr_deriv ?_
    ring
  have fin : ∀ (φ a0 a1 b1 a2 b2 : ℝ) (f : ℝ → ℝ) (d : ℝ),
      (∀ a, f a = a0 + a1 * cos (a - φ) + b1 * sin (a - φ) + a2 * (2 * cos (a - φ) * cos (a - φ) - 1)
        + b2 * (2 * sin (a - φ) * cos (a - φ))) →
      (d = - a1 * sin (az - φ) + b1 * cos (az - φ) - a2 * (4 * cos (az - φ) * sin (az - φ))
        + b2 * (2 * (cos (az - φ) * cos (az - φ) - sin (az - φ) * sin (az - φ)))) → HasDerivAt f d az := by
    intro φ a0 a1 b1 a2 b2 f d hf hd
    rw [hd, funext hf]
    exact key φ a0 a1 b1 a2 b2
  cases ty with
  | EX => cases s <;> cases c <;> simp only [setRadiation, setDisl, setRow, zeroGrid, reduceCtorEq, if_true, if_false, Bool.false_eq_true] <;> exact hasDerivAt_const _ _
  | SF =>
    cases s <;> cases c <;> simp only [setRadiation, setDisl, setRow, zeroGrid, reduceCtorEq, if_true, if_false, Bool.false_eq_true] <;>
      first
      | exact hasDerivAt_const _ _
      | (refine fin (0) 0 (m 0 * (1e-15 * M0 * coef)) (m 1 * (1e-15 * M0 * coef)) (0) (0) _ _ (fun a => ?_) ?_ <;> simp only [sub_zero] <;> first | ring1 | grind)
      | (refine fin (0) 0 (m 1 * (1e-15 * M0 * coef)) (- m 0 * (1e-15 * M0 * coef)) (0) (0) _ _ (fun a => ?_) ?_ <;> simp only [sub_zero] <;> first | ring1 | grind)
  | DC =>
    have t := sin_sq_add_cos_sq (az - m 0 * deg1)
    cases s <;> cases c <;> simp only [setRadiation, setDisl, setRow, zeroGrid, reduceCtorEq, if_true, if_false, Bool.false_eq_true] <;>
      first
      | exact hasDerivAt_const _ _
      | (refine fin (m 0 * deg1) 0 ((1e-20 * M0 * coef) * (cos (m 1 * deg1) * cos (m 2 * deg1))) (-((1e-20 * M0 * coef) * ((2 * cos (m 1 * deg1) * cos (m 1 * deg1) - 1) * sin (m 2 * deg1)))) 0 0 _ _ (fun a => ?_) ?_ <;> first | ring1 | grind)
      | (refine fin (m 0 * deg1) 0 (-((1e-20 * M0 * coef) * ((2 * cos (m 1 * deg1) * cos (m 1 * deg1) - 1) * sin (m 2 * deg1)))) (-((1e-20 * M0 * coef) * (cos (m 1 * deg1) * cos (m 2 * deg1)))) 0 0 _ _ (fun a => ?_) ?_ <;> first | ring1 | grind)
      | (refine fin (m 0 * deg1) 0 0 0 ((1e-20 * M0 * coef) * (sin (m 1 * deg1) * cos (m 1 * deg1) * sin (m 2 * deg1))) ((1e-20 * M0 * coef) * (sin (m 1 * deg1) * cos (m 2 * deg1))) _ _ (fun a => ?_) ?_ <;> first | ring1 | grind)
      | (refine fin (m 0 * deg1) 0 0 0 ((1e-20 * M0 * coef) * (sin (m 1 * deg1) * cos (m 2 * deg1))) (-((1e-20 * M0 * coef) * (sin (m 1 * deg1) * cos (m 1 * deg1) * sin (m 2 * deg1)))) _ _ (fun a => ?_) ?_ <;> first | ring1 | grind)
  | TS =>
    have t := sin_sq_add_cos_sq (az - m 0 * deg1)
    cases s <;> cases c <;> simp only [setRadiation, setDisl, setRow, zeroGrid, reduceCtorEq, if_true, if_false, Bool.false_eq_true] <;>
      first
      | exact hasDerivAt_const _ _
      | (refine fin (m 0 * deg1) 0 (0) ((1e-20 * M0 * coef) * (2 * sin (m 1 * deg1) * cos (m 1 * deg1))) 0 0 _ _ (fun a => ?_) ?_ <;> first | ring1 | grind)
      | (refine fin (m 0 * deg1) 0 ((1e-20 * M0 * coef) * (2 * sin (m 1 * deg1) * cos (m 1 * deg1))) (-(0)) 0 0 _ _ (fun a => ?_) ?_ <;> first | ring1 | grind)
      | (refine fin (m 0 * deg1) 0 0 0 (-((1e-20 * M0 * coef) * (sin (m 1 * deg1) * sin (m 1 * deg1)))) (0) _ _ (fun a => ?_) ?_ <;> first | ring1 | grind)
      | (refine fin (m 0 * deg1) 0 0 0 (0) (-(-((1e-20 * M0 * coef) * (sin (m 1 * deg1) * sin (m 1 * deg1))))) _ _ (fun a => ?_) ?_ <;> first | ring1 | grind)
  | MT =>
    have t := sin_sq_add_cos_sq (az - 0)
    cases s <;> cases c <;> simp only [setRadiation, setDisl, setRow, zeroGrid, reduceCtorEq, if_true, if_false, Bool.false_eq_true] <;>
      first
      | exact hasDerivAt_const _ _
      | (refine fin (0) 0 (-((1e-20 * M0 * coef) * m 2)) (-((1e-20 * M0 * coef) * m 4)) 0 0 _ _ (fun a => ?_) ?_ <;> simp only [sub_zero] at t ⊢ <;> first | ring1 | grind)
      | (refine fin (0) 0 (-((1e-20 * M0 * coef) * m 4)) (-(-((1e-20 * M0 * coef) * m 2))) 0 0 _ _ (fun a => ?_) ?_ <;> simp only [sub_zero] at t ⊢ <;> first | ring1 | grind)
      | (refine fin (0) 0 0 0 ((1e-20 * M0 * coef) * ((m 0 - m 3) / 2)) ((1e-20 * M0 * coef) * m 1) _ _ (fun a => ?_) ?_ <;> simp only [sub_zero] at t ⊢ <;> first | ring1 | grind)
      | (refine fin (0) 0 0 0 ((1e-20 * M0 * coef) * m 1) (-((1e-20 * M0 * coef) * ((m 0 - m 3) / 2))) _ _ (fun a => ?_) ?_ <;> simp only [sub_zero] at t ⊢ <;> first | ring1 | grind)

/-! ### C22 -/

/-- C22, linear in the moment: for every source type, factor and derivative. -/
theorem C22_linear_moment (ty : SynType) (par : Bool) (x y M0 M0' coef vpvs az : ℝ) (m : Fin 6 → ℝ) (s : Src) (c : Comp) :
    setRadiation zeroGrid ty par (x * M0 + y * M0') coef vpvs az m s c =
      x * setRadiation zeroGrid ty par M0 coef vpvs az m s c + y * setRadiation zeroGrid ty par M0' coef vpvs az m s c := by
  cases ty <;> cases par <;> cases s <;> cases c <;>
    simp only [setRadiation, setDisl, setRow, zeroGrid, reduceCtorEq, if_true, if_false, Bool.false_eq_true] <;> ring1

/-- C22, linear in the force or tensor components. -/
theorem C22_linear_source (ty : SynType) (hty : ty = .SF ∨ ty = .MT) (par : Bool) (x y M0 coef vpvs az : ℝ)
    (m m' : Fin 6 → ℝ) (s : Src) (c : Comp) :
    setRadiation zeroGrid ty par M0 coef vpvs az (fun i => x * m i + y * m' i) s c =
      x * setRadiation zeroGrid ty par M0 coef vpvs az m s c + y * setRadiation zeroGrid ty par M0 coef vpvs az m' s c := by
  rcases hty with rfl | rfl <;> cases par <;> cases s <;> cases c <;>
    simp only [setRadiation, setDisl, setRow, zeroGrid, reduceCtorEq, if_true, if_false, Bool.false_eq_true] <;> ring1

/-- Specification: the rotation by `ψ` about the vertical, taking `er az` to `er (az + ψ)`. -/
noncomputable def rotVec (ψ : ℝ) (v : Vec) : Vec := ![cos ψ * v 0 - sin ψ * v 1, sin ψ * v 0 + cos ψ * v 1, v 2]
noncomputable def rotTen (ψ : ℝ) (T : Ten) : Ten := fun i j =>
  rotVec ψ (fun k => rotVec ψ (fun l => T k l) j) i

theorem rotVec_er (ψ az : ℝ) : rotVec ψ (er az) = er (az + ψ) := by
  ext i; fin_cases i <;> simp [rotVec, er, sin_add, cos_add] <;> ring

/-- What rotating the source means for each description. -/
noncomputable def rotMchn (ty : SynType) (ψ vpvs : ℝ) (m : Fin 6 → ℝ) : Fin 6 → ℝ :=
  match ty with
  | .EX => m
  | .SF => let f := rotVec ψ (forceOf m); ![f 0, f 1, f 2, m 3, m 4, m 5]
  | .DC => fun i => if i = 0 then m 0 + ψ / deg1 else m i
  | .TS => fun i => if i = 0 then m 0 + ψ / deg1 else m i
  | .MT => mchnOf (rotTen ψ (tensorOf .MT vpvs m))

/-- C22: rotating source and receiver together changes nothing. -/
theorem C22_rotation (ty : SynType) (par : Bool) (M0 coef vpvs az ψ : ℝ) (m : Fin 6 → ℝ) :
    setRadiation zeroGrid ty par M0 coef vpvs (az + ψ) (rotMchn ty ψ vpvs m) =
      setRadiation zeroGrid ty par M0 coef vpvs az m := by
  have t0 := sin_sq_add_cos_sq az
  have t1 := sin_sq_add_cos_sq ψ
  have hd : (m 0 + ψ / deg1) * deg1 = m 0 * deg1 + ψ := by
    have : deg1 ≠ 0 := by unfold deg1; positivity
    field_simp
  funext s c
  cases ty with
  | EX => rfl
  | SF =>
    cases par <;> cases s <;> cases c <;>
      simp [setRadiation, setRow, zeroGrid, rotMchn, rotVec, forceOf, sin_add, cos_add] <;> grind
  | MT =>
    cases par <;> cases s <;> cases c <;>
      simp [setRadiation, setDisl, setRow, zeroGrid, rotMchn, mchnOf, rotTen, tensorOf, rotVec, sin_add, cos_add] <;> grind
  | _ =>
    have e : az + ψ - (m 0 * deg1 + ψ) = az - m 0 * deg1 := by ring
    have c1 : ((1 : Fin 6) = 0) = False := by simp
    have c2 : ((2 : Fin 6) = 0) = False := by simp
    simp only [setRadiation, rotMchn, if_true, hd, e, c1, c2, if_false]

/-- The rotated tensor of a double couple or crack is the tensor of the rotated strike. -/
theorem C22_rotated_strike (ty : SynType) (hty : ty = .DC ∨ ty = .TS) (ψ vpvs : ℝ) (m : Fin 6 → ℝ) :
    tensorOf ty vpvs (rotMchn ty ψ vpvs m) = rotTen ψ (tensorOf ty vpvs m) := by
  have t1 := sin_sq_add_cos_sq ψ
  have hd : (m 0 + ψ / deg1) * deg1 = m 0 * deg1 + ψ := by
    have : deg1 ≠ 0 := by unfold deg1; positivity
    field_simp
  have c1 : ((1 : Fin 6) = 0) = False := by simp
  have c2 : ((2 : Fin 6) = 0) = False := by simp
  funext i j
  rcases hty with rfl | rfl
  · simp only [tensorOf, rotMchn, if_true, hd, c1, c2, if_false]
    fin_cases i <;> fin_cases j <;> simp [rotTen, tensorOf, rotVec, normal, slip, sin_add, cos_add] <;> ring
  · simp only [tensorOf, rotMchn, if_true, hd, c1, if_false]
    fin_cases i <;> fin_cases j <;> simp [rotTen, tensorOf, rotVec, normal, sin_add, cos_add] <;> clear hd <;> grind

/-! ### Concrete cases -/

/-- A vertical strike-slip fault striking north, receiver at 45°: only the SS factor, maximal. -/
example : setRadiation zeroGrid .DC false 1 1 1 (Real.pi / 4) ![0, 90, 0, 0, 0, 0] .SS .Z = 1e-20 := by
  have h1 : (90 : ℝ) * deg1 = Real.pi / 2 := by unfold deg1; ring
  simp [setRadiation, setDisl, setRow, h1]
  rw [mul_assoc, div_mul_div_comm, Real.mul_self_sqrt (by norm_num)]
  norm_num

/-- The same source as a tensor: only `M12`. -/
example : mchnOf (tensorOf .DC 1 ![0, 90, 0, 0, 0, 0]) = ![0, 1, 0, 0, 0, 0] := by
  have h1 : (90 : ℝ) * deg1 = Real.pi / 2 := by unfold deg1; ring
  ext i; fin_cases i <;> simp [mchnOf, tensorOf, slip, normal, h1]

example : (SynType.DC ≠ .SF) ∧ (SynType.MT = .SF ∨ SynType.MT = .MT) := by decide

end GRT.Syn
