import Verif.Lamb.Facts

/-! The closed forms take conjugate values at conjugate places.  (This is all that is needed of those that do not contribute.) -/

namespace GRT.Lamb

open Complex Set

local notation "cj" => starRingEnd ℂ

theorem Off.conj {c : ℂ} {lo hi : ℝ} (h : Off c lo hi) : Off (cj c) lo hi := by
  rcases h with h | h | h
  · left; simpa using h
  · right; left; simpa using h
  · right; right; simpa using h

theorem conj_csqrt (z : ℂ) : cj (csqrt z) = csqrt (cj z) ∨ cj (csqrt z) = -csqrt (cj z) := by
  have h1 : cj (csqrt z) * cj (csqrt z) = csqrt (cj z) * csqrt (cj z) := by
    rw [← map_mul, csqrt_mul_self, csqrt_mul_self]
  exact mul_self_eq_mul_self_iff.mp h1

theorem slit_conj {z : ℂ} (h : z ∈ slitPlane) : cj z ∈ slitPlane := by
  rw [mem_slitPlane_iff] at h ⊢
  simpa using h

theorem log_inv_slit {w : ℂ} (h : w ∈ slitPlane) : Complex.log (w⁻¹) = -Complex.log w :=
  Complex.log_inv _ (mem_slitPlane_iff_arg.mp h).1

theorem carctan_neg {z : ℂ} (h : 1 + z * z ∈ slitPlane) : arctan (-z) = -arctan z := by
  obtain ⟨-, h2⟩ := arctan_slit h
  unfold arctan
  rw [show (1 + -z * I) / (1 - -z * I) = ((1 + z * I) / (1 - z * I))⁻¹ by rw [inv_div]; congr 1 <;> ring, log_inv_slit h2]
  ring

theorem carctan_conj {z : ℂ} (h : 1 + z * z ∈ slitPlane) : cj (arctan z) = arctan (cj z) := by
  obtain ⟨-, h2⟩ := arctan_slit h
  have h' : 1 + cj z * cj z ∈ slitPlane := by have := slit_conj h; simpa using this
  obtain ⟨-, h3⟩ := arctan_slit h'
  unfold arctan
  rw [map_mul, ← Complex.log_conj _ (mem_slitPlane_iff_arg.mp h2).1]
  have e : cj ((1 + z * I) / (1 - z * I)) = ((1 + cj z * I) / (1 - cj z * I))⁻¹ := by
    rw [inv_div, map_div₀]; simp; ring_nf
  rw [e, log_inv_slit h3]
  simp only [map_div₀, map_neg, conj_I, map_ofNat]
  ring

/-- With `s`, `z` going to `s'`, `z'` up to a common sign. -/
theorem conj_arc {s s' z z' : ℂ} (h : 1 + z * z ∈ slitPlane) (hs : (cj s = s' ∧ cj z = z') ∨ (cj s = -s' ∧ cj z = -z')) :
    cj (s * arctan z) = s' * arctan z' := by
  rw [map_mul, carctan_conj h]
  rcases hs with ⟨h1, h2⟩ | ⟨h1, h2⟩
  · rw [h1, h2]
  · rw [h1, h2]
    have h3 : 1 + z' * z' ∈ slitPlane := by
      have := slit_conj h
      rw [map_add, map_one, map_mul, h2] at this
      simpa using this
    rw [carctan_neg h3]; ring

theorem slit_mul_pos {z : ℂ} (h : z ∈ slitPlane) {r : ℝ} (hr : 0 < r) : (r : ℂ) * z ∈ slitPlane := by
  rw [mem_slitPlane_iff] at h ⊢
  rw [re_ofReal_mul, im_ofReal_mul]
  rcases h with h | h
  · left; positivity
  · right; exact mul_ne_zero hr.ne' h

theorem real_of_im {c : ℂ} (h : c.im = 0) : c = (c.re : ℂ) := by apply Complex.ext <;> simp [h]

/-- `I/ξ · arctan (g/(I ξ))`, ξ² = g² − c. -/
theorem conj_U1 {g : ℝ} {c : ℂ} (hc : Off c 0 (g ^ 2)) :
    cj (I / csqrt ((g ^ 2 : ℝ) - c) * arctan (g / (I * csqrt ((g ^ 2 : ℝ) - c)))) =
      I / csqrt ((g ^ 2 : ℝ) - cj c) * arctan (g / (I * csqrt ((g ^ 2 : ℝ) - cj c))) := by
  have hI : I * I = -1 := I_mul_I
  have n0 := hc.sub_ne (sq_nonneg g) le_rfl
  have x0 := csqrt_ne n0
  have x2 := csqrt_mul_self ((g ^ 2 : ℝ) - c)
  apply conj_arc
  · have := hc.div le_rfl (sq_nonneg g) (sq_nonneg g) le_rfl
    convert this using 1
    rw [div_mul_div_comm, show I * csqrt ((g ^ 2 : ℝ) - c) * (I * csqrt ((g ^ 2 : ℝ) - c)) =
      I * I * (csqrt ((g ^ 2 : ℝ) - c) * csqrt ((g ^ 2 : ℝ) - c)) by ring, hI, x2]
    have : -1 * (((g ^ 2 : ℝ) : ℂ) - c) ≠ 0 := mul_ne_zero (by norm_num) n0
    field_simp
    push_cast
    ring
  · have e : cj (((g ^ 2 : ℝ) : ℂ) - c) = (g ^ 2 : ℝ) - cj c := by rw [map_sub, conj_ofReal]
    rcases conj_csqrt ((g ^ 2 : ℝ) - c) with h | h
    · right
      rw [e] at h
      simp only [map_div₀, map_mul, conj_I, conj_ofReal, h]
      constructor <;> simp [neg_div, div_neg]
    · left
      rw [e] at h
      simp only [map_div₀, map_mul, conj_I, conj_ofReal, h]
      constructor <;> simp

/-- `-I/(ξη) · arctan (I g ξ/(h η))` with ξ² = A − c, η² = B − c and `h²(B−c) − g²(A−c) = −D c`. -/
theorem conj_V1 {A B g h D : ℝ} (hg : 0 < g) (hh : 0 < h) (hA : 0 ≤ A) (hB : 0 ≤ B) (hD : 0 < D) {c : ℂ} (hc : Off c 0 (max A B))
    (e1 : h ^ 2 * B = g ^ 2 * A) (e2 : h ^ 2 - g ^ 2 = D) :
    cj (-I / (csqrt (A - c) * csqrt (B - c)) * arctan (I * g * csqrt (A - c) / (h * csqrt (B - c)))) =
      -I / (csqrt (A - cj c) * csqrt (B - cj c)) * arctan (I * g * csqrt (A - cj c) / (h * csqrt (B - cj c))) := by
  have hI : I * I = -1 := I_mul_I
  have nA := hc.sub_ne hA (le_max_left A B)
  have nB := hc.sub_ne hB (le_max_right A B)
  have xA := csqrt_ne nA
  have xB := csqrt_ne nB
  have sA := csqrt_mul_self ((A : ℂ) - c)
  have sB := csqrt_mul_self ((B : ℂ) - c)
  have h0 : (h : ℂ) ≠ 0 := by exact_mod_cast hh.ne'
  have g0 : (g : ℂ) ≠ 0 := by exact_mod_cast hg.ne'
  apply conj_arc
  · have := slit_mul_pos (hc.div le_rfl (le_max_of_le_left hA) hB (le_max_right A B)) (r := D / h ^ 2) (by positivity)
    convert this using 1
    rw [div_mul_div_comm, show I * g * csqrt (A - c) * (I * g * csqrt (A - c)) = I * I * g ^ 2 * (csqrt (A - c) * csqrt (A - c)) by ring,
      show (h : ℂ) * csqrt (B - c) * (h * csqrt (B - c)) = h ^ 2 * (csqrt (B - c) * csqrt (B - c)) by ring, hI, sA, sB]
    have E1 : (h : ℂ) ^ 2 * B = g ^ 2 * A := by exact_mod_cast e1
    have E2 : (h : ℂ) ^ 2 - g ^ 2 = D := by exact_mod_cast e2
    push_cast
    field_simp
    linear_combination E1 - c * E2
  · have eA : cj ((A : ℂ) - c) = A - cj c := by rw [map_sub, conj_ofReal]
    have eB : cj ((B : ℂ) - c) = B - cj c := by rw [map_sub, conj_ofReal]
    rcases conj_csqrt ((A : ℂ) - c) with u | u <;> rcases conj_csqrt ((B : ℂ) - c) with v | v <;> rw [eA] at u <;> rw [eB] at v
    · right
      simp only [map_div₀, map_mul, map_neg, conj_I, conj_ofReal, u, v]
      constructor <;> ring
    · left
      simp only [map_div₀, map_mul, map_neg, conj_I, conj_ofReal, u, v]
      constructor <;> (simp; try ring)
    · left
      simp only [map_div₀, map_mul, map_neg, conj_I, conj_ofReal, u, v]
      constructor <;> (simp; try ring)
    · right
      simp only [map_div₀, map_mul, map_neg, conj_I, conj_ofReal, u, v]
      constructor <;> (simp; try ring)

/-- `1/(ξη)` times a real number, at a real place off the interval. -/
theorem conj_real_xieta {A B : ℝ} {c : ℂ} (hA : 0 ≤ A) (hB : 0 ≤ B) (hc : Off c 0 (max A B)) (h0 : c.im = 0) :
    cj (csqrt (A - c) * csqrt (B - c)) = csqrt (A - c) * csqrt (B - c) := by
  rw [real_of_im h0]
  rcases hc with h | h | h
  · exact absurd h0 h
  · rw [← ofReal_sub, ← ofReal_sub, csqrt_real (by linarith), csqrt_real (by linarith), map_mul, conj_ofReal, conj_ofReal]
  · have := le_max_left A B
    have := le_max_right A B
    rw [← ofReal_sub, ← ofReal_sub, show A - c.re = -(c.re - A) by ring, show B - c.re = -(c.re - B) by ring,
      csqrt_neg_real (by linarith), csqrt_neg_real (by linarith)]
    simp

theorem conj_self_real {c : ℂ} (h : c.im = 0) : cj c = c := conj_eq_iff_im.mpr h

variable {nu az t : ℝ}

open Classical in
theorem conj_uP1 (V : Vars) (ha : 0 ≤ t * t - V.kk) {c : ℂ} (hc : Off c 0 (t * t - V.kk)) : cj (uP V t 1 c) = uP V t 1 (cj c) := by
  have e2 : (√(t * t - V.kk)) ^ 2 = t * t - V.kk := Real.sq_sqrt ha
  simp only [uP, conj_re, conj_im, neg_eq_zero]
  by_cases h : c.im = 0 ∧ c.re < t * t - V.kk
  · rw [if_pos h, if_pos h, conj_self_real h.1]
    have hx : csqrt (((t * t - V.kk : ℝ) : ℂ) - c) = (√(t * t - V.kk - c.re) : ℝ) := by
      rw [real_of_im h.1, ← ofReal_sub, csqrt_real (by linarith [h.2])]; simp
    push_cast at hx ⊢
    rw [hx]
    simp only [map_mul, map_div₀, conj_ofReal]
    congr 2
    rw [show (0.5 : ℂ) = ((0.5 : ℝ) : ℂ) by norm_num, conj_ofReal]
  · rw [if_neg h, if_neg h]
    have := conj_U1 (g := √(t * t - V.kk)) (c := c) (by rw [e2]; exact hc)
    rw [e2] at this
    exact this

open Classical in
theorem conj_uS11 (V : Vars) (hb : 0 ≤ t * t - 1) {c : ℂ} (hc : Off c 0 (t * t - 1)) : cj (uS1 V t 1 c) = uS1 V t 1 (cj c) := by
  have e2 : (√(t * t - 1)) ^ 2 = t * t - 1 := Real.sq_sqrt hb
  simp only [uS1, conj_re, conj_im, neg_eq_zero]
  by_cases h : c.im = 0 ∧ c.re < t * t - 1
  · rw [if_pos h, if_pos h, conj_self_real h.1]
    have hx : csqrt (((t * t - 1 : ℝ) : ℂ) - c) = (√(t * t - 1 - c.re) : ℝ) := by
      rw [real_of_im h.1, ← ofReal_sub, csqrt_real (by linarith [h.2])]; simp
    push_cast at hx ⊢
    rw [hx]
    simp only [map_mul, map_div₀, conj_ofReal]
    congr 2
    rw [show (0.5 : ℂ) = ((0.5 : ℝ) : ℂ) by norm_num, conj_ofReal]
  · rw [if_neg h, if_neg h]
    have := conj_U1 (g := √(t * t - 1)) (c := c) (by rw [e2]; exact hc)
    rw [e2] at this
    exact this

/-- The part of `V_P(1)` that does not contribute, after the S arrival. -/
noncomputable def vP1dead (V : Vars) (tbar : ℝ) (c : ℂ) : ℂ :=
  open Classical in
  let kp := V.kp
  let kpkp := V.kpkp
  let aa := tbar * tbar - V.kk
  let a := √aa
  let xi := csqrt (aa - c)
  let et := csqrt (kpkp - c)
  let arg : ℂ := (c + a * kp + xi * et) * (xi + et) / ((c + a * kp - xi * et) * (xi - et))
  if c.im = 0 ∧ (c.re > aa ∨ c.re < kpkp) then 0.5 / (xi * et) * (Real.log ‖arg‖ : ℝ)
  else -I / (xi * et) * arctan (I * kp * xi / (a * et))

open Classical in
theorem vP1_split (L : Ell) (V : Vars) (ht : 1 < t) (c : ℂ) :
    vP L V t 1 c = vP1dead V t c + I * (-(Real.pi / 2 / (csqrt ((t * t - V.kk : ℝ) - c) * csqrt (V.kpkp - c)))) := by
  simp only [vP, vP1dead, gt_iff_lt, if_pos ht]
  split_ifs
  · ring
  · ring

theorem half_conj : cj (0.5 : ℂ) = 0.5 := by
  rw [show (0.5 : ℂ) = ((0.5 : ℝ) : ℂ) by norm_num, conj_ofReal]

open Classical in
theorem conj_vP1dead {V : Vars} (h1 : 1 < t) (hk : V.kpkp = 1 - V.kk) (hk0 : 0 < V.kpkp) (hkp : V.kp = √V.kpkp) {c : ℂ}
    (hc : Off c 0 (t * t - V.kk)) : cj (vP1dead V t c) = vP1dead V t (cj c) := by
  have ab : V.kpkp < t * t - V.kk := by nlinarith
  have a0 : 0 < t * t - V.kk := by linarith
  have hm : max (t * t - V.kk) V.kpkp = t * t - V.kk := max_eq_left ab.le
  simp only [vP1dead, conj_re, conj_im, neg_eq_zero]
  by_cases h : c.im = 0 ∧ (c.re > t * t - V.kk ∨ c.re < V.kpkp)
  · rw [if_pos h, if_pos h, conj_self_real h.1, map_mul, map_div₀, conj_ofReal, half_conj,
      conj_real_xieta a0.le hk0.le (by rw [hm]; exact hc) h.1]
  · rw [if_neg h, if_neg h]
    have s1 : √(t * t - V.kk) ^ 2 = t * t - V.kk := Real.sq_sqrt a0.le
    have s2 : V.kp ^ 2 = V.kpkp := by rw [hkp]; exact Real.sq_sqrt hk0.le
    exact conj_V1 (A := t * t - V.kk) (B := V.kpkp) (g := V.kp) (h := √(t * t - V.kk)) (D := t * t - V.kk - V.kpkp)
      (by rw [hkp]; exact Real.sqrt_pos.mpr hk0) (Real.sqrt_pos.mpr a0) a0.le hk0.le (by linarith) (by rw [hm]; exact hc)
      (by rw [s1, s2]; ring) (by rw [s1, s2])

open Classical in
theorem conj_vP1 (L : Ell) {V : Vars} (h0 : V.kk < t * t) (h1 : t < 1) (ht : 0 < t) (hk : V.kpkp = 1 - V.kk) (hkp : V.kp = √V.kpkp) {c : ℂ}
    (hc : Off c 0 V.kpkp) : cj (vP L V t 1 c) = vP L V t 1 (cj c) := by
  have ab : t * t - V.kk < V.kpkp := by nlinarith
  have a0 : 0 < t * t - V.kk := by linarith
  have hk0 : 0 < V.kpkp := by linarith
  have hm : max (t * t - V.kk) V.kpkp = V.kpkp := max_eq_right ab.le
  have ht' : ¬1 < t := by linarith
  simp only [vP, gt_iff_lt, if_neg ht', conj_re, conj_im, neg_eq_zero]
  by_cases h : c.im = 0 ∧ (c.re < t * t - V.kk ∨ V.kpkp < c.re)
  · rw [if_pos h, if_pos h, conj_self_real h.1, map_mul, map_div₀, conj_ofReal, half_conj,
      conj_real_xieta a0.le hk0.le (by rw [hm]; exact hc) h.1]
  · rw [if_neg h, if_neg h]
    have s1 : √(t * t - V.kk) ^ 2 = t * t - V.kk := Real.sq_sqrt a0.le
    have s2 : V.kp ^ 2 = V.kpkp := by rw [hkp]; exact Real.sq_sqrt hk0.le
    rw [mul_comm (csqrt (((t * t - V.kk : ℝ) : ℂ) - c)), mul_comm (csqrt (((t * t - V.kk : ℝ) : ℂ) - cj c))]
    exact conj_V1 (A := V.kpkp) (B := t * t - V.kk) (g := √(t * t - V.kk)) (h := V.kp) (D := V.kpkp - (t * t - V.kk))
      (Real.sqrt_pos.mpr a0) (by rw [hkp]; exact Real.sqrt_pos.mpr hk0) hk0.le a0.le (by linarith) (by rw [max_comm, hm]; exact hc)
      (by rw [s1, s2]; ring) (by rw [s1, s2])

/-- `z/d · arctan (r w/d)` type functions of a square root `d`. -/
theorem conj_d {d w z : ℂ} {r : ℝ} {d' w' : ℂ} (hz : cj z = z) (hd : cj d = d' ∨ cj d = -d') (hw : cj w = w')
    (h : 1 + r * w / d * (r * w / d) ∈ slitPlane) : cj (z / d * arctan (r * w / d)) = z / d' * arctan (r * w' / d') := by
  apply conj_arc h
  rcases hd with hd | hd
  · left; simp only [map_div₀, map_mul, conj_ofReal, hz, hd, hw, and_self]
  · right; simp only [map_div₀, map_mul, conj_ofReal, hz, hd, hw, div_neg, and_self]

theorem conj_uS22 {V : Vars} (h1 : 1 < t) (hk : V.kpkp = 1 - V.kk) (hk0 : 0 < V.kpkp) (hkp : V.kp = √V.kpkp) {c : ℂ}
    (hc : Off c (-V.kpkp) 0) (hb : ((t * t - 1 : ℝ) : ℂ) ≠ c) : cj (uS2 V t 2 c) = uS2 V t 2 (cj c) := by
  have b0 : 0 < t * t - 1 := by nlinarith
  have a0 : 0 < t * t - V.kk := by linarith
  have s1 : √(t * t - V.kk) ^ 2 = t * t - V.kk := Real.sq_sqrt a0.le
  have s2 : V.kp ^ 2 = V.kpkp := by rw [hkp]; exact Real.sq_sqrt hk0.le
  have q0 : ((√(t * t - V.kk) : ℝ) : ℂ) ≠ 0 := by exact_mod_cast (Real.sqrt_pos.mpr a0).ne'
  simp only [uS2]
  have n0 : (0 : ℂ) - c ≠ 0 := by have := hc.sub_ne (X := 0) (by linarith) le_rfl; simpa using this
  have c0 : c ≠ 0 := by intro h; apply n0; rw [h]; ring
  have nb := sub_ne_zero.mpr hb
  have re : ∀ c : ℂ, 1 / csqrt (c * (((t * t - 1 : ℝ) : ℂ) - c)) * arctan (V.kp * csqrt (((t * t - 1 : ℝ) : ℂ) - c) *
      csqrt (((t * t - 1 : ℝ) : ℂ) - c) / ((√(t * t - V.kk) : ℝ) * csqrt (c * (((t * t - 1 : ℝ) : ℂ) - c)))) =
      1 / csqrt (c * (((t * t - 1 : ℝ) : ℂ) - c)) *
        arctan ((V.kp / √(t * t - V.kk) : ℝ) * (((t * t - 1 : ℝ) : ℂ) - c) / csqrt (c * (((t * t - 1 : ℝ) : ℂ) - c))) := by
    intro c
    rw [mul_assoc, csqrt_mul_self]
    congr 2
    push_cast
    rw [div_mul_eq_mul_div, div_div]
  rw [re, re]
  apply conj_d (by simp)
  · have := conj_csqrt (c * (((t * t - 1 : ℝ) : ℂ) - c))
    rw [map_mul, map_sub, conj_ofReal] at this
    exact this
  · rw [map_sub, conj_ofReal]
  · have d2 := csqrt_mul_self (c * (((t * t - 1 : ℝ) : ℂ) - c))
    have := slit_mul_pos (hc.div (X := -V.kpkp) (Y := 0) le_rfl (by linarith) (by linarith) le_rfl) (r := (t * t - 1) / (t * t - V.kk)) (by positivity)
    convert this using 1
    rw [div_mul_div_comm, d2]
    have S1 : ((√(t * t - V.kk) : ℝ) : ℂ) ^ 2 = t * t - V.kk := by exact_mod_cast s1
    have S2 : (V.kp : ℂ) ^ 2 = V.kpkp := by exact_mod_cast s2
    have A0 : (t : ℂ) * t - V.kk ≠ 0 := by exact_mod_cast a0.ne'
    have K : (V.kpkp : ℂ) = 1 - V.kk := by exact_mod_cast hk
    push_cast at nb ⊢
    have e : (V.kp : ℂ) / (√(t * t - V.kk) : ℝ) * (t * t - 1 - c) * (V.kp / (√(t * t - V.kk) : ℝ) * (t * t - 1 - c)) =
        (V.kpkp : ℂ) / (t * t - V.kk) * (t * t - 1 - c) ^ 2 := by
      rw [← S1, ← S2]; field_simp
    rw [e]
    have n0' : -c ≠ 0 := neg_ne_zero.mpr c0
    rw [zero_sub]
    rw [show (V.kpkp : ℂ) / (t * t - V.kk) * (t * t - 1 - c) ^ 2 / (c * (t * t - 1 - c)) = V.kpkp * (t * t - 1 - c) / ((t * t - V.kk) * c) by
      field_simp, div_mul_div_comm, show (1 : ℂ) = ((t * t - V.kk) * c) / ((t * t - V.kk) * c) from (div_self (mul_ne_zero A0 c0)).symm,
      ← add_div, div_eq_div_iff (mul_ne_zero A0 c0) (mul_ne_zero A0 n0'), div_self (mul_ne_zero A0 c0), K]
    ring

theorem conj_uSP2 {V : Vars} (h0 : V.kk < t * t) (h1 : t < 1) (ht : 0 < t) (hk : V.kpkp = 1 - V.kk) (hkp : V.kp = √V.kpkp) {c : ℂ}
    (hc : Off c (-V.kpkp) (t * t - 1)) : cj (uSP V t 2 c) = uSP V t 2 (cj c) := by
  have b0 : t * t - 1 < 0 := by nlinarith
  have a0 : 0 < t * t - V.kk := by linarith
  have hk0 : 0 < V.kpkp := by linarith
  have s1 : √(t * t - V.kk) ^ 2 = t * t - V.kk := Real.sq_sqrt a0.le
  have s2 : V.kp ^ 2 = V.kpkp := by rw [hkp]; exact Real.sq_sqrt hk0.le
  have kp0 : 0 < V.kp := by rw [hkp]; exact Real.sqrt_pos.mpr hk0
  have q0 : 0 < √(t * t - V.kk) := (Real.sqrt_pos.mpr a0)
  simp only [uSP]
  have nb := hc.sub_ne (X := t * t - 1) (by linarith) le_rfl
  have re : ∀ c : ℂ, -1 / csqrt (c * (((t * t - 1 : ℝ) : ℂ) - c)) *
      arctan ((V.kp * ((V.kp + √(t * t - V.kk) : ℝ) : ℂ) + ((t * t - 1 : ℝ) : ℂ)) * c /
        (V.kp * ((V.kp + √(t * t - V.kk) : ℝ) : ℂ) * csqrt (c * (((t * t - 1 : ℝ) : ℂ) - c)))) =
      -1 / csqrt (c * (((t * t - 1 : ℝ) : ℂ) - c)) *
        arctan ((√(t * t - V.kk) / V.kp : ℝ) * c / csqrt (c * (((t * t - 1 : ℝ) : ℂ) - c))) := by
    intro c
    congr 2
    have f0 : ((V.kp + √(t * t - V.kk) : ℝ) : ℂ) ≠ 0 := by exact_mod_cast (by positivity : V.kp + √(t * t - V.kk) ≠ 0)
    have e : (V.kp * ((V.kp + √(t * t - V.kk) : ℝ) : ℂ) + ((t * t - 1 : ℝ) : ℂ)) = √(t * t - V.kk) * ((V.kp + √(t * t - V.kk) : ℝ) : ℂ) := by
      rw [← ofReal_mul, ← ofReal_mul, ← ofReal_add]
      congr 1
      linear_combination s2 - s1 + hk
    rw [e, ofReal_div]
    rw [show ((√(t * t - V.kk) : ℝ) : ℂ) * ((V.kp + √(t * t - V.kk) : ℝ) : ℂ) * c =
      ((V.kp + √(t * t - V.kk) : ℝ) : ℂ) * (((√(t * t - V.kk) : ℝ) : ℂ) * c) by ring,
      show (V.kp : ℂ) * ((V.kp + √(t * t - V.kk) : ℝ) : ℂ) * csqrt (c * (((t * t - 1 : ℝ) : ℂ) - c)) =
      ((V.kp + √(t * t - V.kk) : ℝ) : ℂ) * ((V.kp : ℂ) * csqrt (c * (((t * t - 1 : ℝ) : ℂ) - c))) by ring,
      mul_div_mul_left _ _ f0, div_mul_eq_mul_div, div_div]
  rw [re, re]
  have c0 : c ≠ 0 ∨ c = 0 := by tauto
  apply conj_d (by simp)
  · have := conj_csqrt (c * (((t * t - 1 : ℝ) : ℂ) - c))
    rw [map_mul, map_sub, conj_ofReal] at this
    exact this
  · rfl
  · rcases eq_or_ne c 0 with hc0 | c0
    · rw [hc0]; simp
    have d2 := csqrt_mul_self (c * (((t * t - 1 : ℝ) : ℂ) - c))
    have := slit_mul_pos (hc.div (X := -V.kpkp) (Y := t * t - 1) le_rfl (by linarith) (by linarith) le_rfl) (r := -(t * t - 1) / V.kpkp)
      (div_pos (by linarith) hk0)
    convert this using 1
    rw [div_mul_div_comm, d2]
    have S1 : ((√(t * t - V.kk) : ℝ) : ℂ) ^ 2 = t * t - V.kk := by exact_mod_cast s1
    have S2 : (V.kp : ℂ) ^ 2 = V.kpkp := by exact_mod_cast s2
    have A0 : (V.kpkp : ℂ) ≠ 0 := by exact_mod_cast hk0.ne'
    have KP0 : (V.kp : ℂ) ≠ 0 := by exact_mod_cast kp0.ne'
    have K : (V.kpkp : ℂ) = 1 - V.kk := by exact_mod_cast hk
    push_cast at nb ⊢
    have e : ((√(t * t - V.kk) : ℝ) : ℂ) / V.kp * c * ((√(t * t - V.kk) : ℝ) / V.kp * c) = (t * t - V.kk) / (V.kpkp : ℂ) * c ^ 2 := by
      rw [← S1, ← S2]; field_simp
    rw [e]
    rw [show ((t : ℂ) * t - V.kk) / V.kpkp * c ^ 2 / (c * (t * t - 1 - c)) = (t * t - V.kk) * c / (V.kpkp * (t * t - 1 - c)) by
      field_simp, div_mul_div_comm, eq_div_iff (mul_ne_zero A0 nb), add_mul, div_mul_cancel₀ _ (mul_ne_zero A0 nb), K]
    ring

theorem conj_uSP1 {V : Vars} (h0 : V.kk < t * t) (h1 : t < 1) (ht : 0 < t) (hk : V.kpkp = 1 - V.kk) {c : ℂ}
    (hc : Off c (-V.kpkp) (t * t - 1)) : cj (uSP V t 1 c) = uSP V t 1 (cj c) := by
  have hI : I * I = -1 := I_mul_I
  have a0 : 0 < t * t - V.kk := by linarith
  have s1 : √(t * t - V.kk) ^ 2 = t * t - V.kk := Real.sq_sqrt a0.le
  have nb := hc.sub_ne (X := t * t - 1) (by linarith) le_rfl
  have x0 := csqrt_ne nb
  have x2 := csqrt_mul_self (((t * t - 1 : ℝ) : ℂ) - c)
  simp only [uSP]
  apply conj_arc
  · have := hc.div (X := -V.kpkp) (Y := t * t - 1) le_rfl (by linarith) (by linarith) le_rfl
    convert this using 1
    rw [div_mul_div_comm, show I * csqrt ((t * t - 1 : ℝ) - c) * (I * csqrt ((t * t - 1 : ℝ) - c)) =
      I * I * (csqrt ((t * t - 1 : ℝ) - c) * csqrt ((t * t - 1 : ℝ) - c)) by ring, hI, x2]
    have S1 : ((√(t * t - V.kk) : ℝ) : ℂ) * (√(t * t - V.kk) : ℝ) = t * t - V.kk := by rw [← sq]; exact_mod_cast s1
    have K : (V.kpkp : ℂ) = 1 - V.kk := by exact_mod_cast hk
    rw [S1]
    push_cast at nb ⊢
    have : -1 * ((t : ℂ) * t - 1 - c) ≠ 0 := mul_ne_zero (by norm_num) nb
    rw [eq_div_iff nb, add_mul, neg_one_mul, div_neg, neg_mul, div_mul_cancel₀ _ nb, K]
    ring
  · have e : cj (((t * t - 1 : ℝ) : ℂ) - c) = (t * t - 1 : ℝ) - cj c := by rw [map_sub, conj_ofReal]
    rcases conj_csqrt (((t * t - 1 : ℝ) : ℂ) - c) with h | h
    · right
      rw [e] at h
      simp only [map_div₀, map_mul, map_neg, map_one, conj_I, conj_ofReal, h]
      constructor <;> simp [div_neg, neg_div]
    · left
      rw [e] at h
      simp only [map_div₀, map_mul, map_neg, map_one, conj_I, conj_ofReal, h]
      constructor <;> simp

/-- A product of two quotients with the same denominator, whose zero lies between. -/
theorem slit_between {c : ℂ} {k m : ℝ} (hm : 0 ≤ m) (hmk : m ≤ k) (hc : Off c (-k) 0) : c * (c + k) / ((c + m) * (c + m)) ∈ slitPlane := by
  have k0 : 0 ≤ k := by linarith
  have n1 : c + m ≠ 0 := by have := hc.sub_ne (X := -m) (by linarith) (by linarith); intro h; apply this; push_cast; linear_combination -h
  have n2 : c ≠ 0 := by have := hc.sub_ne (X := 0) (by linarith) le_rfl; intro h; apply this; rw [h]; simp
  have n3 : c + k ≠ 0 := by have := hc.sub_ne (X := -k) le_rfl (by linarith); intro h; apply this; push_cast; linear_combination -h
  by_contra hn
  rw [mem_slitPlane_iff] at hn
  push Not at hn
  obtain ⟨hr, hi⟩ := hn
  obtain ⟨r, hr', er⟩ : ∃ r : ℝ, 0 ≤ r ∧ c * (c + k) / ((c + m) * (c + m)) = -(r : ℂ) :=
    ⟨-(c * (c + k) / ((c + m) * (c + m))).re, by linarith, by apply Complex.ext <;> simp [hi]⟩
  rw [div_eq_iff (mul_ne_zero n1 n1)] at er
  have hd : (2 * (1 + r) * c + (k + 2 * r * m)) * (2 * (1 + r) * c + (k + 2 * r * m)) = ((k ^ 2 + 4 * r * m * (k - m) : ℝ) : ℂ) := by
    push_cast; linear_combination 4 * (1 + r) * er
  have hci : c.im = 0 := by
    set z := 2 * (1 + (r : ℂ)) * c + (k + 2 * r * m) with hz
    have hD : 0 ≤ k ^ 2 + 4 * r * m * (k - m) := by
      have := mul_nonneg (mul_nonneg hr' hm) (by linarith : 0 ≤ k - m); nlinarith
    have h1 := congrArg Complex.re hd
    have h2 := congrArg Complex.im hd
    simp only [mul_re, mul_im, ofReal_re, ofReal_im] at h1 h2
    have zi : z.im = 0 := by
      have : z.re * z.im = 0 := by linarith
      rcases mul_eq_zero.mp this with h | h
      · rw [h] at h1
        have : z.im * z.im ≤ 0 := by linarith
        nlinarith [mul_self_nonneg z.im]
      · exact h
    have : z.im = 2 * (1 + r) * c.im := by rw [hz]; simp
    rw [this] at zi
    have r1 : 2 * (1 + r) ≠ 0 := by positivity
    exact (mul_eq_zero.mp zi).resolve_left r1
  have ec := real_of_im hci
  rw [ec] at er
  have er' : c.re * (c.re + k) = -r * ((c.re + m) * (c.re + m)) := by exact_mod_cast er
  have : 0 < c.re * (c.re + k) := by
    rcases hc with h | h | h
    · exact absurd hci h
    · nlinarith
    · exact mul_pos h (by linarith)
  nlinarith [mul_nonneg hr' (mul_self_nonneg (c.re + m))]

theorem conj_uS21 {V : Vars} (h1 : 1 < t) (hk : V.kpkp = 1 - V.kk) (hk0 : 0 < V.kpkp) {c : ℂ}
    (hc : Off c (-V.kpkp) 0) : cj (uS2 V t 1 c) = uS2 V t 1 (cj c) := by
  have hI : I * I = -1 := I_mul_I
  have b0 : 0 < t * t - 1 := by nlinarith
  have a0 : 0 < t * t - V.kk := by linarith
  have s1 : √(t * t - V.kk) ^ 2 = t * t - V.kk := Real.sq_sqrt a0.le
  have s2 : √(t * t - 1) ^ 2 = t * t - 1 := Real.sq_sqrt b0.le
  have p1 := Real.sqrt_pos.mpr a0
  have p2 := Real.sqrt_pos.mpr b0
  have hab : √(t * t - 1) ≤ √(t * t - V.kk) := Real.sqrt_le_sqrt (by linarith)
  have x2 := csqrt_mul_self (((t * t - 1 : ℝ) : ℂ) - c)
  simp only [uS2]
  apply conj_arc
  · have hm0 : 0 ≤ √(t * t - 1) * (√(t * t - V.kk) - √(t * t - 1)) := mul_nonneg p2.le (by linarith)
    have := slit_between (c := c) (k := V.kpkp) (m := √(t * t - 1) * (√(t * t - V.kk) - √(t * t - 1))) hm0 (by nlinarith) hc
    convert this using 1
    have n1 : c + (√(t * t - 1) * (√(t * t - V.kk) - √(t * t - 1)) : ℝ) ≠ 0 := by
      have := hc.sub_ne (X := -(√(t * t - 1) * (√(t * t - V.kk) - √(t * t - 1)))) (by nlinarith) (by linarith)
      intro h; apply this; push_cast at h ⊢; linear_combination -h
    have S1 : ((√(t * t - V.kk) : ℝ) : ℂ) ^ 2 = t * t - V.kk := by exact_mod_cast s1
    have S2 : ((√(t * t - 1) : ℝ) : ℂ) ^ 2 = t * t - 1 := by exact_mod_cast s2
    have K : (V.kpkp : ℂ) = 1 - V.kk := by exact_mod_cast hk
    push_cast at n1 x2 ⊢
    generalize ((√(t * t - V.kk) : ℝ) : ℂ) = a at *
    generalize ((√(t * t - 1) : ℝ) : ℂ) = b at *
    generalize csqrt ((t : ℂ) * t - 1 - c) = x at *
    rw [div_mul_div_comm]
    field_simp
    linear_combination (a - b) ^ 2 * x ^ 2 * hI - (a - b) ^ 2 * x2 + c * S1 - c * S2 - c * K
      + (a - b) ^ 2 * S2
  · have e : cj (((t * t - 1 : ℝ) : ℂ) - c) = (t * t - 1 : ℝ) - cj c := by rw [map_sub, conj_ofReal]
    rcases conj_csqrt (((t * t - 1 : ℝ) : ℂ) - c) with h | h
    · right
      rw [e] at h
      simp only [map_div₀, map_mul, map_add, map_sub, map_one, conj_I, conj_ofReal, h]
      constructor <;> (try simp [div_neg, neg_div])
    · left
      rw [e] at h
      simp only [map_div₀, map_mul, map_add, map_sub, map_one, conj_I, conj_ofReal, h]
      constructor <;> simp

end GRT.Lamb
