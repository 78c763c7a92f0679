import Verif.Layer.Spec
import Mathlib.Algebra.CharZero.Defs
import Mathlib.Tactic.NormNum
import Mathlib.LinearAlgebra.FiniteDimensional.Lemmas
import Mathlib.LinearAlgebra.Dimension.Constructions

/-! C13: the closed-form interface coefficients satisfy continuity of displacement and traction. -/

set_option linter.unusedSectionVars false

namespace GRT.Layer

open GRT.RT Matrix

variable {K : Type*} [Field K] [CharZero K] [DecidableEq K]

theorem mv_apply (M : Mat2 K) (v : Fin 2 → K) (i : Fin 2) : (M *ᵥ v) i = M i 0 * v 0 + M i 1 * v 1 := by
  simp [Matrix.mulVec, dotProduct, Fin.sum_univ_two]

/-- Solid state with `λ` eliminated. -/
theorem psvState_solid {c k : K} {l : Lay K} {m : Medium K} (h : Fits c l m) (hl : l.liquid = false)
    (u d : Fin 2 → K) :
    psvState k m l u d =
      ⟨k * (u 0 + d 0) + k * l.xb * (u 1 - d 1), k * l.xa * (u 0 - d 0) + k * (u 1 + d 1),
       m.mu * k^2 * ((2 - l.cbcb) * (u 0 + d 0) + 2 * l.xb * (u 1 - d 1)),
       m.mu * k^2 * (2 * l.xa * (u 0 - d 0) + (2 - l.cbcb) * (u 1 + d 1))⟩ := by
  obtain ⟨h1, h2⟩ := h.sol hl
  simp only [psvState, hl, hooke]
  ext
  · simp
  · simp
  · simp only [Bool.false_eq_true, if_false]
    linear_combination (k^2 * (u 0 + d 0) * (m.lam + 2 * m.mu)) * h.xa - k^2 * (u 0 + d 0) * h.ca
      + k^2 * (u 0 + d 0) * h2
  · simp only [Bool.false_eq_true, if_false]
    linear_combination (k^2 * (u 1 + d 1) * m.mu) * h.xb

theorem psvState_liquid {c k : K} {l : Lay K} {m : Medium K} (h : Fits c l m) (hl : l.liquid = true)
    (u d : Fin 2 → K) :
    psvState k m l u d =
      ⟨k * (u 0 + d 0), k * l.xa * (u 0 - d 0), - m.rho * (c * c) * k^2 * (u 0 + d 0), 0⟩ := by
  have hmu := h.liq hl
  simp only [psvState, hl, hooke]
  ext
  · simp
  · simp
  · simp only [if_true]
    linear_combination (k^2 * (u 0 + d 0) * m.lam) * h.xa - k^2 * (u 0 + d 0) * h.ca
      + (2 * (k^2 * (u 0 + d 0)) * l.caca + 2 * (k * l.xa)^2 * (u 0 + d 0)) * hmu
  · simp only [if_true]
    linear_combination (2 * k^2 * l.xa * (u 0 - d 0)) * hmu

/-- C13, solid over solid, P-SV: whenever the routine succeeds, the outgoing waves it assigns to any
incident waves from above (`d`) and below (`u'`) make displacement and traction continuous. -/
theorem C13_ss_PSV {c k : K} {l1 l2 : Lay K} {m1 m2 : Medium K} {M : PSV K}
    (h1 : Fits c l1 m1) (h2 : Fits c l2 m2) (hl1 : l1.liquid = false) (hl2 : l2.liquid = false)
    (hM : ssPSV l1 l2 = .ok M) (d u' : Fin 2 → K) :
    psvState k m1 l1 (M.RD *ᵥ d + M.TU *ᵥ u') d = psvState k m2 l2 u' (M.TD *ᵥ d + M.RU *ᵥ u') := by
  rw [psvState_solid h1 hl1, psvState_solid h2 hl2]
  obtain ⟨m1ne, e1⟩ := h1.sol hl1
  obtain ⟨m2ne, e2⟩ := h2.sol hl2
  have r1 := h1.rho0
  have r2 := h2.rho0
  have hx1 := h1.xb
  have hx2 := h2.xb
  unfold ssPSV at hM
  simp only [h1.rho, h2.rho, h1.mu, h2.mu, m2ne, r1, r2, or_self, if_false] at hM
  -- reduce to the variables `h`, `r`
  obtain ⟨H, hH⟩ : ∃ H, H = m1.mu / m2.mu * l1.cbcb := ⟨_, rfl⟩
  obtain ⟨r, hr⟩ : ∃ r, r = m2.rho / m1.rho := ⟨_, rfl⟩
  have hr0 : r ≠ 0 := by rw [hr]; exact div_ne_zero r2 r1
  have hri : m1.rho / m2.rho = r⁻¹ := by rw [hr, inv_div]
  have hg : l2.cbcb = r * H := by
    rw [hr, hH]
    field_simp
    linear_combination m1.rho * e2 - m2.rho * e1
  have hq : ∃ q, q = m1.mu / m2.mu - 1 := ⟨_, rfl⟩
  obtain ⟨q, hq⟩ := hq
  have hmu1 : m1.mu = (q + 1) * m2.mu := by rw [hq]; field_simp; ring
  have hb1 : m1.mu * l1.cbcb = m2.mu * H := by rw [hH]; field_simp
  rw [← hq, ← hH, ← hr, hri, hg] at hM
  split at hM
  · cases hM
  rename_i hD
  generalize hDe : q * q * (1 - l1.xa * l1.xb) * (1 - l2.xa * l2.xb) +
      q * H * (r * (1 - l1.xa * l1.xb) - (1 - l2.xa * l2.xb)) +
      1 / 4 * (r * H) * H * (r⁻¹ * (1 - l2.xa * l2.xb) + r * (1 - l1.xa * l1.xb) - 2 -
        (l1.xa * l2.xb + l2.xa * l1.xb)) = D at hM hD
  injection hM with hM
  subst hM
  have hst : ∀ X Y : K, m1.mu * k^2 * ((2 - l1.cbcb) * X + Y) = m2.mu * k^2 * ((2*(q+1) - H) * X + (q+1) * Y) := by
    intro X Y
    linear_combination k^2 * (2 * X + Y) * hmu1 - k^2 * X * hb1
  have hst' : ∀ X Y : K, m1.mu * k^2 * (Y + (2 - l1.cbcb) * X) = m2.mu * k^2 * ((q+1) * Y + (2*(q+1) - H) * X) := by
    intro X Y
    linear_combination k^2 * (2 * X + Y) * hmu1 - k^2 * X * hb1
  rw [hst, hst', hg]
  clear hst hst' e1 e2 hx1 hx2 hH hr hri hg hq hmu1 hb1
  have hDD : D * D⁻¹ = 1 := mul_inv_cancel₀ hD
  ext <;> simp only [mv_apply, Pi.add_apply, Matrix.of_apply, Matrix.cons_val_zero, Matrix.cons_val_one, Matrix.cons_val', Matrix.cons_val_fin_one]
  all_goals generalize l1.xa = xa1 at *
  all_goals generalize l1.xb = xb1 at *
  all_goals generalize l2.xa = xa2 at *
  all_goals generalize l2.xb = xb2 at *
  all_goals field_simp
  all_goals rw [← hDe]
  all_goals field_simp
  all_goals ring

/-- The motion-stress matrix of a solid layer applied to amplitudes, as a linear map. -/
def solidMap (k mu xa xb cbcb : K) : ((Fin 2 → K) × (Fin 2 → K)) →ₗ[K] (K × K × K × K) where
  toFun p := (k * (p.1 0 + p.2 0) + k * xb * (p.1 1 - p.2 1), k * xa * (p.1 0 - p.2 0) + k * (p.1 1 + p.2 1),
       mu * k^2 * ((2 - cbcb) * (p.1 0 + p.2 0) + 2 * xb * (p.1 1 - p.2 1)),
       mu * k^2 * (2 * xa * (p.1 0 - p.2 0) + (2 - cbcb) * (p.1 1 + p.2 1)))
  map_add' a b := by
    simp only [Prod.fst_add, Prod.snd_add, Pi.add_apply, Prod.mk_add_mk, Prod.mk.injEq]
    refine ⟨?_, ?_, ?_, ?_⟩ <;> ring
  map_smul' a b := by
    simp only [Prod.smul_fst, Prod.smul_snd, Pi.smul_apply, Prod.smul_mk, Prod.mk.injEq, smul_eq_mul, RingHom.id_apply]
    refine ⟨?_, ?_, ?_, ?_⟩ <;> ring

theorem solidMap_surj {k mu xa xb cbcb : K} (hk : k ≠ 0) (hm : mu ≠ 0) (ha : xa ≠ 0) (hb : xb ≠ 0)
    (hc : cbcb ≠ 0) (y : K × K × K × K) : ∃ p, solidMap k mu xa xb cbcb p = y := by
  obtain ⟨y0, y1, y2, y3⟩ := y
  refine ⟨(![(2*k*mu*xa*xb*y0 - mu*(2-cbcb)*k*xb*y1 - xa*xb*y2 + xb*y3) / (2*mu*cbcb*k*xa*k*xb),
             (-mu*(2-cbcb)*k*xa*y0 + 2*k*mu*xa*xb*y1 + xa*y2 - xa*xb*y3) / (2*mu*cbcb*k*xa*k*xb)],
           ![(2*k*mu*xa*xb*y0 + mu*(2-cbcb)*k*xb*y1 - xa*xb*y2 - xb*y3) / (2*mu*cbcb*k*xa*k*xb),
             (mu*(2-cbcb)*k*xa*y0 + 2*k*mu*xa*xb*y1 - xa*y2 - xa*xb*y3) / (2*mu*cbcb*k*xa*k*xb)]), ?_⟩
  simp only [solidMap, LinearMap.coe_mk, AddHom.coe_mk, Matrix.cons_val_zero, Matrix.cons_val_one, Prod.mk.injEq]
  refine ⟨?_, ?_, ?_, ?_⟩ <;> field_simp <;> ring

theorem psvState_solidMap {c k : K} {l : Lay K} {m : Medium K} (h : Fits c l m) (hl : l.liquid = false)
    (u d : Fin 2 → K) :
    ((psvState k m l u d).q, (psvState k m l u d).w, (psvState k m l u d).s, (psvState k m l u d).t) =
      solidMap k m.mu l.xa l.xb l.cbcb (u, d) := by
  rw [psvState_solid h hl]; rfl

/-- C13, solid over solid, P-SV, converse: the outgoing waves are the only ones that make
displacement and traction continuous, so the coefficients are determined by the physics. -/
theorem C13_ss_PSV_unique {c k : K} {l1 l2 : Lay K} {m1 m2 : Medium K} {M : PSV K}
    (h1 : Fits c l1 m1) (h2 : Fits c l2 m2) (hl1 : l1.liquid = false) (hl2 : l2.liquid = false)
    (hM : ssPSV l1 l2 = .ok M) (hk : k ≠ 0) (hc : c ≠ 0) (ha : l1.xa ≠ 0) (hb : l1.xb ≠ 0)
    (d u u' d' : Fin 2 → K) (hcont : psvState k m1 l1 u d = psvState k m2 l2 u' d') :
    u = M.RD *ᵥ d + M.TU *ᵥ u' ∧ d' = M.TD *ᵥ d + M.RU *ᵥ u' := by
  have hcb : l1.cbcb ≠ 0 := by
    intro h0
    have := (h1.sol hl1).2
    rw [h0, mul_zero] at this
    exact (mul_ne_zero h1.rho0 (mul_ne_zero hc hc)) this.symm
  -- the map sending outgoing amplitudes to the jump they cause
  let L : ((Fin 2 → K) × (Fin 2 → K)) →ₗ[K] (K × K × K × K) :=
    (solidMap k m1.mu l1.xa l1.xb l1.cbcb).comp ((LinearMap.inl K _ _).comp (LinearMap.fst K _ _))
    - (solidMap k m2.mu l2.xa l2.xb l2.cbcb).comp ((LinearMap.inr K _ _).comp (LinearMap.snd K _ _))
  have hL : ∀ a b, L (a, b) = solidMap k m1.mu l1.xa l1.xb l1.cbcb (a, 0)
      - solidMap k m2.mu l2.xa l2.xb l2.cbcb (0, b) := fun a b => rfl
  have key : ∀ d u', solidMap k m1.mu l1.xa l1.xb l1.cbcb (M.RD *ᵥ d + M.TU *ᵥ u', d) =
      solidMap k m2.mu l2.xa l2.xb l2.cbcb (u', M.TD *ᵥ d + M.RU *ᵥ u') := by
    intro d u'
    rw [← psvState_solidMap h1 hl1, ← psvState_solidMap h2 hl2, C13_ss_PSV h1 h2 hl1 hl2 hM d u']
  have hsurj : Function.Surjective L := by
    intro y
    obtain ⟨⟨a, b⟩, hab⟩ := solidMap_surj hk (h1.sol hl1).1 ha hb hcb y
    refine ⟨(a - M.RD *ᵥ b, - (M.TD *ᵥ b)), ?_⟩
    have hk' := key b 0
    simp only [mulVec_zero, add_zero] at hk'
    have e1 : solidMap k m1.mu l1.xa l1.xb l1.cbcb (a - M.RD *ᵥ b, 0) = y - solidMap k m1.mu l1.xa l1.xb l1.cbcb (M.RD *ᵥ b, b) := by
      rw [← hab, ← map_sub]; congr 1; ext <;> simp
    have e2 : solidMap k m2.mu l2.xa l2.xb l2.cbcb (0, -(M.TD *ᵥ b)) = - solidMap k m2.mu l2.xa l2.xb l2.cbcb (0, M.TD *ᵥ b) := by
      rw [← map_neg]; congr 1; ext <;> simp
    rw [hL, e1, e2, hk']; abel
  have hinj : Function.Injective L :=
    (LinearMap.injective_iff_surjective_of_finrank_eq_finrank (by simp)).2 hsurj
  have h0 : solidMap k m1.mu l1.xa l1.xb l1.cbcb (u, d) = solidMap k m2.mu l2.xa l2.xb l2.cbcb (u', d') := by
    rw [← psvState_solidMap h1 hl1, ← psvState_solidMap h2 hl2, hcont]
  have hzero : L (u - (M.RD *ᵥ d + M.TU *ᵥ u'), d' - (M.TD *ᵥ d + M.RU *ᵥ u')) = 0 := by
    have e1 : solidMap k m1.mu l1.xa l1.xb l1.cbcb (u - (M.RD *ᵥ d + M.TU *ᵥ u'), 0) =
        solidMap k m1.mu l1.xa l1.xb l1.cbcb (u, d) - solidMap k m1.mu l1.xa l1.xb l1.cbcb (M.RD *ᵥ d + M.TU *ᵥ u', d) := by
      rw [← map_sub]; congr 1; ext <;> simp
    have e2 : solidMap k m2.mu l2.xa l2.xb l2.cbcb (0, d' - (M.TD *ᵥ d + M.RU *ᵥ u')) =
        solidMap k m2.mu l2.xa l2.xb l2.cbcb (u', d') - solidMap k m2.mu l2.xa l2.xb l2.cbcb (u', M.TD *ᵥ d + M.RU *ᵥ u') := by
      rw [← map_sub]; congr 1; ext <;> simp
    rw [hL, e1, e2, h0, key]; abel
  have := hinj (hzero.trans (map_zero L).symm)
  have a := congrArg Prod.fst this
  have b := congrArg Prod.snd this
  exact ⟨sub_eq_zero.1 a, sub_eq_zero.1 b⟩

/-! ### liquid over liquid -/

/-- C13, liquid over liquid. -/
theorem C13_ll_PSV {c k : K} {l1 l2 : Lay K} {m1 m2 : Medium K} {M : PSV K}
    (h1 : Fits c l1 m1) (h2 : Fits c l2 m2) (hl1 : l1.liquid = true) (hl2 : l2.liquid = true)
    (hM : llPSV l1 l2 = .ok M) (d u' : Fin 2 → K) :
    Contact l1 l2 (psvState k m1 l1 (M.RD *ᵥ d + M.TU *ᵥ u') d)
      (psvState k m2 l2 u' (M.TD *ᵥ d + M.RU *ᵥ u')) := by
  rw [psvState_liquid h1 hl1, psvState_liquid h2 hl2]
  unfold llPSV at hM
  simp only [h1.rho, h2.rho] at hM
  split at hM
  · cases hM
  rename_i hA
  generalize hAe : l1.xa * m2.rho + l2.xa * m1.rho = A at hM hA
  injection hM with hM
  subst hM
  refine ⟨?_, ?_, rfl, by simp [hl1]⟩ <;>
  simp only [mv_apply, Pi.add_apply, Matrix.of_apply, Matrix.cons_val_zero, Matrix.cons_val_one, Matrix.cons_val', Matrix.cons_val_fin_one]
  · field_simp
    rw [← hAe]; ring
  · field_simp
    rw [← hAe]; ring

/-- C13, liquid over liquid, converse for the acoustic amplitudes. -/
theorem C13_ll_PSV_unique {c k : K} {l1 l2 : Lay K} {m1 m2 : Medium K} {M : PSV K}
    (h1 : Fits c l1 m1) (h2 : Fits c l2 m2) (hl1 : l1.liquid = true) (hl2 : l2.liquid = true)
    (hM : llPSV l1 l2 = .ok M) (hk : k ≠ 0) (hc : c ≠ 0)
    (d u u' d' : Fin 2 → K)
    (hcont : Contact l1 l2 (psvState k m1 l1 u d) (psvState k m2 l2 u' d')) :
    u 0 = (M.RD *ᵥ d + M.TU *ᵥ u') 0 ∧ d' 0 = (M.TD *ᵥ d + M.RU *ᵥ u') 0 := by
  have key := C13_ll_PSV (k := k) h1 h2 hl1 hl2 hM d u'
  rw [psvState_liquid h1 hl1, psvState_liquid h2 hl2] at hcont key
  obtain ⟨a1, a2, -⟩ := hcont
  obtain ⟨b1, b2, -⟩ := key
  simp only at a1 a2 b1 b2
  set x := (M.RD *ᵥ d + M.TU *ᵥ u') 0
  set y := (M.TD *ᵥ d + M.RU *ᵥ u') 0
  unfold llPSV at hM
  simp only [h1.rho, h2.rho] at hM
  split at hM
  · cases hM
  rename_i hA
  have e1 : l1.xa * (u 0 - x) + l2.xa * (d' 0 - y) = 0 := by
    have : k * (l1.xa * (u 0 - x) + l2.xa * (d' 0 - y)) = 0 := by linear_combination a1 - b1
    exact (mul_eq_zero.1 this).resolve_left hk
  have e2 : m1.rho * (u 0 - x) - m2.rho * (d' 0 - y) = 0 := by
    have : (c * c * k^2) * (m1.rho * (u 0 - x) - m2.rho * (d' 0 - y)) = 0 := by linear_combination b2 - a2
    exact (mul_eq_zero.1 this).resolve_left (mul_ne_zero (mul_ne_zero hc hc) (pow_ne_zero _ hk))
  constructor
  · have : (l1.xa * m2.rho + l2.xa * m1.rho) * (u 0 - x) = 0 := by linear_combination m2.rho * e1 + l2.xa * e2
    exact sub_eq_zero.1 ((mul_eq_zero.1 this).resolve_left hA)
  · have : (l1.xa * m2.rho + l2.xa * m1.rho) * (d' 0 - y) = 0 := by linear_combination m1.rho * e1 - l1.xa * e2
    exact sub_eq_zero.1 ((mul_eq_zero.1 this).resolve_left hA)

/-! ### liquid-solid -/

theorem lsCore_contact {c sgn : K} {lq so : Lay K} {mq ms : Medium K} {M : PSV K}
    (h1 : Fits c lq mq) (h2 : Fits c so ms) (hl2 : so.liquid = false)
    (hs : sgn = 1 ∨ sgn = -1) (hM : lsCore c lq so sgn = .ok M) (p i : Fin 2 → K) :
    -- `p` incident from the liquid, `i` incident from the solid; `o` outgoing
    let oq := (M.RD *ᵥ p + M.TU *ᵥ i) 0
    let o0 := (M.TD *ᵥ p + M.RU *ᵥ i) 0
    let o1 := (M.TD *ᵥ p + M.RU *ᵥ i) 1
    lq.xa * (oq - p 0) = so.xa * (i 0 - o0) + sgn * (i 1 + o1) ∧
    - mq.rho * (c * c) * (oq + p 0) = ms.mu * ((2 - so.cbcb) * (i 0 + o0) + sgn * 2 * so.xb * (i 1 - o1)) ∧
    2 * so.xa * (i 0 - o0) + sgn * (2 - so.cbcb) * (i 1 + o1) = 0 := by
  obtain ⟨m2ne, e2⟩ := h2.sol hl2
  have hss : sgn * sgn = 1 := by rcases hs with h | h <;> rw [h] <;> ring
  unfold lsCore at hM
  simp only [h1.rho, h2.mu] at hM
  split at hM
  · cases hM
  rename_i hA
  split at hM
  · cases hM
  rename_i hB
  rw [not_or] at hB
  obtain ⟨hb, hO⟩ := hB
  generalize hAe : 4 * ((1 - 1 / 2 * so.cbcb) * (1 - 1 / 2 * so.cbcb)) * lq.xa * ms.mu +
      mq.rho * (c * c) * so.cbcb * so.xa - 4 * ms.mu * lq.xa * so.xa * so.xb = A at hM hA
  injection hM with hM
  subst hM
  have hO2 : (2 - so.cbcb) ≠ 0 := by
    intro h; apply hO; linear_combination (1/2) * h
  generalize hR : mq.rho * (c * c) = R at *
  have hR' : - mq.rho * (c * c) = - R := by rw [← hR]; ring
  rw [hR']
  intro oq o0 o1
  simp only [oq, o0, o1, mv_apply, Pi.add_apply, Matrix.of_apply, Matrix.cons_val_zero, Matrix.cons_val_one, Matrix.cons_val', Matrix.cons_val_fin_one]
  rcases hs with h | h <;> subst h
  · refine ⟨?_, ?_, ?_⟩ <;> field_simp <;> (try rw [← hAe]) <;> field_simp <;> ring
  · refine ⟨?_, ?_, ?_⟩ <;> field_simp <;> (try rw [← hAe]) <;> field_simp <;> ring

/-- The boundary equations of a liquid-solid contact determine the outgoing waves. -/
theorem lsCore_unique {c sgn : K} {lq so : Lay K} {mq ms : Medium K} {M : PSV K}
    (h1 : Fits c lq mq) (h2 : Fits c so ms) (hl2 : so.liquid = false) (hc : c ≠ 0)
    (hs : sgn = 1 ∨ sgn = -1) (hM : lsCore c lq so sgn = .ok M) {x a b : K}
    (e1 : lq.xa * x = - so.xa * a + sgn * b)
    (e2 : - mq.rho * (c * c) * x = ms.mu * ((2 - so.cbcb) * a - sgn * 2 * so.xb * b))
    (e3 : - 2 * so.xa * a + sgn * (2 - so.cbcb) * b = 0) : x = 0 ∧ a = 0 ∧ b = 0 := by
  have hs0 : sgn ≠ 0 := by rcases hs with h | h <;> rw [h] <;> simp
  obtain ⟨m2ne, -⟩ := h2.sol hl2
  unfold lsCore at hM
  simp only [h1.rho, h2.mu] at hM
  split at hM
  · cases hM
  rename_i hA
  clear hM
  have hb : b = 0 := by
    have : sgn * (4 * ((1 - 1 / 2 * so.cbcb) * (1 - 1 / 2 * so.cbcb)) * lq.xa * ms.mu +
      mq.rho * (c * c) * so.cbcb * so.xa - 4 * ms.mu * lq.xa * so.xa * so.xb) * b = 0 := by
      linear_combination (-2 * mq.rho * (c*c) * so.xa) * e1 - 2 * so.xa * lq.xa * e2
        + (-mq.rho * (c*c) * so.xa + lq.xa * ms.mu * (2 - so.cbcb)) * e3
    rcases mul_eq_zero.1 this with h | h
    · rcases mul_eq_zero.1 h with h | h
      · exact absurd h hs0
      · exact absurd h hA
    · exact h
  subst hb
  have f3 : so.xa * a = 0 := by linear_combination (-1/2) * e3
  have hR : mq.rho * (c * c) ≠ 0 := mul_ne_zero h1.rho0 (mul_ne_zero hc hc)
  have f4 : lq.xa * x = 0 := by linear_combination e1 - f3
  have ha : a = 0 := by
    have : (4 * ((1 - 1 / 2 * so.cbcb) * (1 - 1 / 2 * so.cbcb)) * lq.xa * ms.mu +
      mq.rho * (c * c) * so.cbcb * so.xa - 4 * ms.mu * lq.xa * so.xa * so.xb) * a = 0 := by
      linear_combination (mq.rho * (c*c) * so.cbcb - 4 * ms.mu * lq.xa * so.xb) * f3
        - lq.xa * (2 - so.cbcb) * e2 - (2 - so.cbcb) * mq.rho * (c*c) * f4
    exact (mul_eq_zero.1 this).resolve_left hA
  subst ha
  refine ⟨?_, rfl, rfl⟩
  have : mq.rho * (c * c) * x = 0 := by linear_combination -e2
  exact (mul_eq_zero.1 this).resolve_left hR

theorem C13_ls_contact {c k : K} {l1 l2 : Lay K} {m1 m2 : Medium K} {M : PSV K}
    (h1 : Fits c l1 m1) (h2 : Fits c l2 m2) (hl : l1.liquid = !l2.liquid)
    (hM : lsPSV c l1 l2 = .ok M) (d u' : Fin 2 → K) :
    Contact l1 l2 (psvState k m1 l1 (M.RD *ᵥ d + M.TU *ᵥ u') d)
      (psvState k m2 l2 u' (M.TD *ᵥ d + M.RU *ᵥ u')) := by
  unfold lsPSV at hM
  split at hM
  · rename_i hl1
    have hl2 : l2.liquid = false := by simpa [hl1] using hl
    obtain ⟨g1, g2, g3⟩ := lsCore_contact h1 h2 hl2 (Or.inl rfl) hM d u'
    rw [psvState_liquid h1 hl1, psvState_solid h2 hl2]
    refine ⟨?_, ?_, ?_, by simp [hl1]⟩
    · simp only; linear_combination k * g1
    · simp only; linear_combination k^2 * g2
    · simp only; linear_combination -(m2.mu * k^2) * g3
  · rename_i hl1
    have hl1 : l1.liquid = false := by simpa using hl1
    have hl2 : l2.liquid = true := by simpa [hl1] using hl
    split at hM
    · cases hM
    · cases hM
    · rename_i N hN
      injection hM with hM
      subst hM
      obtain ⟨g1, g2, g3⟩ := lsCore_contact h2 h1 hl1 (Or.inr rfl) hN u' d
      rw [add_comm (N.RD *ᵥ u'), add_comm (N.TD *ᵥ u')] at *
      rw [psvState_solid h1 hl1, psvState_liquid h2 hl2]
      refine ⟨?_, ?_, ?_, by simp [hl2]⟩
      · simp only; linear_combination k * g1
      · simp only; linear_combination - k^2 * g2
      · simp only; linear_combination -(m1.mu * k^2) * g3

/-- C13 (P-SV), all kinds of interface: for every pair of layers and whatever waves arrive from above
(`d`) and below (`u'`), the waves the coefficients send out satisfy the contact conditions. -/
theorem C13_interface_PSV {c k : K} {l1 l2 : Lay K} {m1 m2 : Medium K} {M : PSV K}
    (h1 : Fits c l1 m1) (h2 : Fits c l2 m2) (hM : rtPSV c l1 l2 = .ok M) (d u' : Fin 2 → K) :
    Contact l1 l2 (psvState k m1 l1 (M.RD *ᵥ d + M.TU *ᵥ u') d)
      (psvState k m2 l2 u' (M.TD *ᵥ d + M.RU *ᵥ u')) := by
  unfold rtPSV at hM
  cases e1 : l1.liquid <;> cases e2 : l2.liquid <;> simp only [e1, e2] at hM
  · have := C13_ss_PSV (k := k) h1 h2 e1 e2 (by simpa using hM) d u'
    rw [this]; exact ⟨rfl, rfl, rfl, fun _ _ => rfl⟩
  · exact C13_ls_contact h1 h2 (by simp [e1, e2]) (by simpa using hM) d u'
  · exact C13_ls_contact h1 h2 (by simp [e1, e2]) (by simpa using hM) d u'
  · exact C13_ll_PSV h1 h2 e1 e2 (by simpa using hM) d u'

/-- The amplitudes that exist in a layer: P always, S only in a solid. -/
def SameWaves (l : Lay K) (a b : Fin 2 → K) : Prop := a 0 = b 0 ∧ (l.liquid = false → a 1 = b 1)

/-- C13 (P-SV), converse: the contact conditions leave no other choice of outgoing waves. -/
theorem C13_interface_PSV_unique {c k : K} {l1 l2 : Lay K} {m1 m2 : Medium K} {M : PSV K}
    (h1 : Fits c l1 m1) (h2 : Fits c l2 m2) (hM : rtPSV c l1 l2 = .ok M) (hk : k ≠ 0) (hc : c ≠ 0)
    (ha : l1.xa ≠ 0) (hb : l1.xb ≠ 0) (d u u' d' : Fin 2 → K)
    (hcont : Contact l1 l2 (psvState k m1 l1 u d) (psvState k m2 l2 u' d')) :
    SameWaves l1 u (M.RD *ᵥ d + M.TU *ᵥ u') ∧ SameWaves l2 d' (M.TD *ᵥ d + M.RU *ᵥ u') := by
  have key := C13_interface_PSV (k := k) h1 h2 hM d u'
  have hk2 : k^2 ≠ 0 := pow_ne_zero _ hk
  unfold rtPSV at hM
  cases e1 : l1.liquid <;> cases e2 : l2.liquid <;> simp only [e1, e2] at hM
  · have hM' : ssPSV l1 l2 = .ok M := by simpa using hM
    obtain ⟨c1, c2, c3, c4⟩ := hcont
    have he : psvState k m1 l1 u d = psvState k m2 l2 u' d' := MS.ext (c4 e1 e2) c1 c2 c3
    obtain ⟨x, y⟩ := C13_ss_PSV_unique h1 h2 e1 e2 hM' hk hc ha hb d u u' d' he
    rw [← x, ← y]
    exact ⟨⟨rfl, fun _ => rfl⟩, ⟨rfl, fun _ => rfl⟩⟩
  · have hM' : lsPSV c l1 l2 = .ok M := by simpa using hM
    unfold lsPSV at hM'
    simp only [e1, Bool.false_eq_true, if_false] at hM'
    split at hM'
    · cases hM'
    · cases hM'
    · rename_i N hN
      rw [psvState_solid h1 e1, psvState_liquid h2 e2] at hcont key
      obtain ⟨a1, a2, a3, -⟩ := hcont
      obtain ⟨b1, b2, b3, -⟩ := key
      simp only at a1 a2 a3 b1 b2 b3
      set z := M.RD *ᵥ d + M.TU *ᵥ u'
      set y := M.TD *ᵥ d + M.RU *ᵥ u'
      have m1ne := (h1.sol e1).1
      have := lsCore_unique (x := d' 0 - y 0) (a := u 0 - z 0) (b := u 1 - z 1) h2 h1 e1 hc (Or.inr rfl) hN
        (mul_left_cancel₀ hk (by linear_combination a1 - b1))
        (mul_left_cancel₀ hk2 (by linear_combination b2 - a2))
        (mul_left_cancel₀ (mul_ne_zero m1ne hk2) (by linear_combination b3 - a3))
      obtain ⟨p, q, r⟩ := this
      exact ⟨⟨sub_eq_zero.1 q, fun _ => sub_eq_zero.1 r⟩, ⟨sub_eq_zero.1 p, by simp [e2]⟩⟩
  · have hM' : lsPSV c l1 l2 = .ok M := by simpa using hM
    unfold lsPSV at hM'
    simp only [e1, if_true] at hM'
    rw [psvState_liquid h1 e1, psvState_solid h2 e2] at hcont key
    obtain ⟨a1, a2, a3, -⟩ := hcont
    obtain ⟨b1, b2, b3, -⟩ := key
    simp only at a1 a2 a3 b1 b2 b3
    set z := M.RD *ᵥ d + M.TU *ᵥ u'
    set y := M.TD *ᵥ d + M.RU *ᵥ u'
    have m2ne := (h2.sol e2).1
    have := lsCore_unique (x := u 0 - z 0) (a := d' 0 - y 0) (b := d' 1 - y 1) h1 h2 e2 hc (Or.inl rfl) hM'
      (mul_left_cancel₀ hk (by linear_combination a1 - b1))
      (mul_left_cancel₀ hk2 (by linear_combination a2 - b2))
      (mul_left_cancel₀ (mul_ne_zero m2ne hk2) (by linear_combination b3 - a3))
    obtain ⟨p, q, r⟩ := this
    exact ⟨⟨sub_eq_zero.1 p, by simp [e1]⟩, ⟨sub_eq_zero.1 q, fun _ => sub_eq_zero.1 r⟩⟩
  · obtain ⟨p, q⟩ := C13_ll_PSV_unique h1 h2 e1 e2 (by simpa using hM) hk hc d u u' d' hcont
    exact ⟨⟨p, by simp [e1]⟩, ⟨q, by simp [e2]⟩⟩

/-! ### SH -/

/-- SH contact: traction continuous; displacement continuous only between solids. -/
def ContactSH (l1 l2 : Lay K) (a b : SHS K) : Prop :=
  a.t = b.t ∧ (l1.liquid = false → l2.liquid = false → a.v = b.v)

/-- C13 (SH), all kinds of interface. -/
theorem C13_interface_SH {c k : K} {l1 l2 : Lay K} {m1 m2 : Medium K} {M : SH K}
    (h1 : Fits c l1 m1) (h2 : Fits c l2 m2) (hM : rtSH l1 l2 = .ok M) (d u' : K) :
    ContactSH l1 l2 (shState k m1 l1 (M.RDL * d + M.TUL * u') d)
      (shState k m2 l2 u' (M.TDL * d + M.RUL * u')) := by
  unfold rtSH at hM
  cases e1 : l1.liquid <;> cases e2 : l2.liquid <;> simp only [e1, e2] at hM
  · have hM' : ssSH l1 l2 = .ok M := by simpa using hM
    unfold ssSH at hM'
    simp only [h1.mu, h2.mu] at hM'
    split at hM'
    · cases hM'
    rename_i hd
    generalize hde : m2.mu * l2.xb + m1.mu * l1.xb = D at hM' hd
    injection hM' with hM'
    subst hM'
    have hD : D * D⁻¹ = 1 := mul_inv_cancel₀ hd
    refine ⟨?_, fun _ _ => ?_⟩ <;> simp only [shState] <;> field_simp <;> rw [← hde] <;> ring
  · have : M = lsSH l1 := by have : Out.ok (lsSH l1) = Out.ok M := by simpa using hM
                             injection this with h; exact h.symm
    subst this
    have hmu := h2.liq e2
    refine ⟨?_, by simp [e2]⟩
    simp [shState, lsSH, e1, hmu]
  · have : M = lsSH l1 := by have : Out.ok (lsSH l1) = Out.ok M := by simpa using hM
                             injection this with h; exact h.symm
    subst this
    have hmu := h1.liq e1
    refine ⟨?_, by simp [e1]⟩
    simp [shState, lsSH, e1, hmu]
  · refine ⟨?_, by simp [e1]⟩
    simp [shState, h1.liq e1, h2.liq e2]

/-- C13 (SH), converse for solids. -/
theorem C13_ss_SH_unique {c k : K} {l1 l2 : Lay K} {m1 m2 : Medium K} {M : SH K}
    (h1 : Fits c l1 m1) (h2 : Fits c l2 m2) (e1 : l1.liquid = false) (e2 : l2.liquid = false)
    (hM : rtSH l1 l2 = .ok M) (hk : k ≠ 0) (d u u' d' : K)
    (hcont : ContactSH l1 l2 (shState k m1 l1 u d) (shState k m2 l2 u' d')) :
    u = M.RDL * d + M.TUL * u' ∧ d' = M.TDL * d + M.RUL * u' := by
  have key := C13_interface_SH (k := k) h1 h2 hM d u'
  obtain ⟨a1, a2⟩ := hcont
  obtain ⟨b1, b2⟩ := key
  replace a2 := a2 e1 e2
  replace b2 := b2 e1 e2
  simp only [shState] at a1 a2 b1 b2
  generalize M.RDL * d + M.TUL * u' = x at *
  generalize M.TDL * d + M.RUL * u' = y at *
  have hM' : ssSH l1 l2 = .ok M := by simpa [rtSH, e1, e2] using hM
  unfold ssSH at hM'
  simp only [h1.mu, h2.mu] at hM'
  split at hM'
  · cases hM'
  rename_i hd
  have f1 : u - x = d' - y := mul_left_cancel₀ hk (by linear_combination a2 - b2)
  have f2 : m1.mu * l1.xb * (u - x) = - m2.mu * l2.xb * (d' - y) :=
    mul_left_cancel₀ (mul_ne_zero hk hk) (by linear_combination a1 - b1)
  have f3 : (m2.mu * l2.xb + m1.mu * l1.xb) * (u - x) = 0 := by
    linear_combination f2 + m2.mu * l2.xb * f1
  have f4 := (mul_eq_zero.1 f3).resolve_left hd
  exact ⟨sub_eq_zero.1 f4, sub_eq_zero.1 (f1.symm.trans f4)⟩

/-! ### The layer matrix and its inverse (`grt_get_layer_D`) -/

/-- The blocks `D11 … D22` used by the code give the physical displacement and traction. -/
theorem C13_layer_matrix {c k omega : K} {l : Lay K} {m : Medium K} (h : Fits c l m) (hom : omega = c * k)
    (u d : Fin 2 → K) :
    psvState k m l u d = ⟨(D11 k l *ᵥ u + D12 k l *ᵥ d) 0, (D11 k l *ᵥ u + D12 k l *ᵥ d) 1,
      (D21 k omega l *ᵥ u + D22 k omega l *ᵥ d) 0, (D21 k omega l *ᵥ u + D22 k omega l *ᵥ d) 1⟩ := by
  cases e : l.liquid
  · rw [psvState_solid h e]
    ext <;> simp only [mv_apply, Pi.add_apply] <;> simp [D11, D12, D21, D22, e, h.mu] <;> ring
  · rw [psvState_liquid h e]
    ext <;> simp only [mv_apply, Pi.add_apply] <;> simp [D11, D12, D21, D22, e, h.rho, hom] <;> ring

/-- The inverse computed by `grt_get_layer_D` recovers the amplitudes from displacement and traction. -/
theorem C13_layer_inverse {c k : K} {l : Lay K} {m : Medium K} (h : Fits c l m) (e : l.liquid = false)
    {A B C D : Mat2 K} (hD : Dinv k l = .ok (A, B, C, D)) (u d : Fin 2 → K) :
    let y := psvState k m l u d
    u = A *ᵥ ![y.q, y.w] + B *ᵥ ![y.s, y.t] ∧ d = C *ᵥ ![y.q, y.w] + D *ᵥ ![y.s, y.t] := by
  intro y
  simp only [y]
  rw [psvState_solid h e]
  unfold Dinv at hD
  simp only [h.mu] at hD
  split at hD
  · cases hD
  rename_i hd
  have hd' : m.mu ≠ 0 ∧ l.cbcb ≠ 0 ∧ k ≠ 0 ∧ l.xa ≠ 0 ∧ l.xb ≠ 0 := by
    refine ⟨?_, ?_, ?_, ?_, ?_⟩ <;> (intro h0; apply hd; rw [h0]; ring)
  obtain ⟨a1, a2, a3, a4, a5⟩ := hd'
  simp only [Out.ok.injEq, Prod.mk.injEq] at hD
  obtain ⟨rfl, rfl, rfl, rfl⟩ := hD
  constructor <;> ext i <;> fin_cases i <;>
  simp <;> field_simp <;> ring

/-! ### Where the liquid-solid routine divides zero by zero -/

/-- C13 limit: at phase velocity `c = √2 β` of the solid the boundary system is regular (`A ≠ 0`) but the
routine computes `pTD[0][0]/Og2k` with `Og2k = 0`; the same happens at `c = β` (`xb2 = 0`).  The
coefficients come out undefined although they exist. -/
theorem C13_violated_ls_undef (c : K) (lq so : Lay K) (sgn : K) (ho : so.cbcb = 2)
    (hA : lq.rho * (c * c) * so.xa ≠ 2 * so.mu * lq.xa * so.xa * so.xb) :
    lsCore c lq so sgn = .undef := by
  unfold lsCore
  simp only [ho]
  rw [if_neg, if_pos]
  · right; norm_num
  · intro h; apply hA; linear_combination (1/2) * h

/-! ### Non-trivial instances -/

section examples

def lA : Lay ℚ := ⟨false, 1, 25/16, 12/13, 3/5, 25/169, 16/25⟩
def mA : Medium ℚ := ⟨1, 169/25 - 25/8, 25/16⟩
def lB : Lay ℚ := ⟨false, 2, 169/72, 4/5, 5/13, 9/25, 144/169⟩
def mB : Medium ℚ := ⟨2, 50/9 - 169/36, 169/72⟩
def lW : Lay ℚ := ⟨true, 1, 0, 3/5, 1, 16/25, 0⟩
def mW : Medium ℚ := ⟨1, 25/16, 0⟩
def lV : Lay ℚ := ⟨true, 2, 0, 4/5, 1, 9/25, 0⟩
def mV : Medium ℚ := ⟨2, 50/9, 0⟩

def Out.isOk {A : Type*} : Out A → Bool
  | .ok _ => true
  | _ => false

example : Fits 1 lA mA := by constructor <;> norm_num [lA, mA]
example : Fits 1 lB mB := by constructor <;> norm_num [lB, mB]
example : Fits 1 lW mW := by constructor <;> norm_num [lW, mW]
example : Fits 1 lV mV := by constructor <;> norm_num [lV, mV]
example : (rtPSV 1 lA lB).isOk = true ∧ (rtPSV 1 lW lB).isOk = true ∧ (rtPSV 1 lA lW).isOk = true ∧
    (rtPSV 1 lW lV).isOk = true ∧ (rtSH lA lB).isOk = true ∧ (rtSH lA lW).isOk = true := by
  decide +kernel
example : (Dinv 3 lA).isOk = true := by decide +kernel
/-- the reflection is not trivial -/
example : (match rtPSV 1 lA lB with | .ok M => decide (M.RD 0 0 ≠ 0 ∧ M.RD 0 1 ≠ 0) | _ => false) = true := by
  decide +kernel
/-- the undefined case is met by a concrete medium -/
example : lsCore 1 lW { lB with cbcb := 2 } 1 = .undef :=
  C13_violated_ls_undef _ _ _ _ rfl (by norm_num [lW, lB])

end examples

end GRT.Layer
