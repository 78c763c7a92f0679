import Verif.Modal.Rayl

/-! The secular function of Rayleigh waves: a zero is a set of amplitudes that satisfies all boundary
conditions, and conversely. -/

set_option linter.unusedSectionVars false

namespace GRT.Modal

open GRT.RT GRT.Layer GRT.Kernel Matrix

variable {K : Type*} [Field K] [CharZero K] [DecidableEq K]

/-! ### Liquids carry no S waves -/

theorem rt_liquid {c : K} {l1 l2 : Lay K} {M : PSV K} (h : rtPSV c l1 l2 = .ok M) :
    (l1.liquid = true → ∀ j, M.RD 1 j = 0 ∧ M.TU 1 j = 0) ∧ (l2.liquid = true → ∀ j, M.TD 1 j = 0 ∧ M.RU 1 j = 0) := by
  unfold rtPSV at h
  cases e1 : l1.liquid <;> cases e2 : l2.liquid <;> simp only [e1, e2] at h <;> simp only [Bool.false_eq_true, false_implies, true_and, true_implies, and_true]
  · simp [lsPSV, lsCore, e1] at h
    split at h
    · cases h
    · cases h
    · rename_i N hN
      split at hN
      · cases hN
      · split at hN
        · cases hN
        · injection hN with hN; injection h with h; subst hN; subst h
          intro j; fin_cases j <;> simp
  · simp [lsPSV, lsCore, e1] at h
    split at h
    · cases h
    · split at h
      · cases h
      · injection h with h; subst h
        intro j; fin_cases j <;> simp
  · simp [llPSV] at h
    split at h
    · cases h
    · injection h with h; subst h
      constructor <;> intro j <;> fin_cases j <;> simp

theorem row_mul {A B : Mat2 K} (h : ∀ j, A 1 j = 0) (j : Fin 2) : (A * B) 1 j = 0 := by
  rw [Matrix.mul_apply, Fin.sum_univ_two, h, h]; ring

theorem row_exp {I : ModeIn K} {i : ℕ} {A : Mat2 K} (h : ∀ j, A 1 j = 0) (j : Fin 2) : (expM I i * A) 1 j = 0 := by
  rw [Matrix.mul_apply, Fin.sum_univ_two, h]; simp [expM]

theorem rowR {I : ModeIn K} {S : ℕ → PSV K} (h2 : 2 ≤ I.nlay) {i : ℕ} (hi : i + 1 < I.nlay)
    (h : RlOkR I S i (I.nlay - 1 - i)) (g : i + 2 < I.nlay → RlOkR I S (i+1) (I.nlay - 1 - (i+1)))
    (hrt : rtPSV I.c (I.lay i) (I.lay (i+1)) = .ok (S (i+1))) (hl : (I.lay i).liquid = true) (j : Fin 2) :
    (allRLR I S i).RD 1 j = 0 := by
  have q := (rt_liquid hrt).1 hl
  rw [(down_recR h2 hi h g).2]
  refine row_exp (fun j => row_mul (fun j => ?_) j) j
  rw [Matrix.add_apply, (q j).1, row_mul (fun j => (q j).2)]; simp

theorem allFRR_zero (I : ModeIn K) (S : ℕ → PSV K) : (allFRR I S 0).RU = (topR I).RU := by
  obtain ⟨-, -, q1, q2⟩ := C10_neutral_PSV (topR I)
  exact (capTopR_val q1).trans q2.2.1

theorem topR_ok {I : ModeIn K} (h : (topR I).ok = true) :
    freeBoundPSV (I.lay 0).liquid (I.lay 0).cbcb (I.lay 0).xa (I.lay 0).xb 1 = .ok (topR I).RU := by
  unfold topR at h ⊢
  split
  · rename_i R e; rw [e]
  · rename_i e
    exfalso
    split at h
    · rename_i R e'; exact e R e'
    · cases h

theorem rowF {I : ModeIn K} {S : ℕ → PSV K} {i : ℕ} (ht : (topR I).ok = true) (fr : FrOkR I S i)
    (cap : ∀ j, j ≤ i → (combine (topR I) (frArrR I S j)).ok = true)
    (hrt : ∀ n, i = n + 1 → rtPSV I.c (I.lay n) (I.lay (n+1)) = .ok (S (n+1))) (hl : (I.lay i).liquid = true) (j : Fin 2) :
    (allFRR I S i).RU 1 j = 0 := by
  cases i with
  | zero =>
    rw [allFRR_zero]
    have := topR_ok ht
    rw [hl] at this
    simp only [freeBoundPSV, Bool.not_true, Bool.false_eq_true, if_false, Out.ok.injEq] at this
    rw [← this]; fin_cases j <;> rfl
  | succ n =>
    have q := (rt_liquid (hrt n rfl)).2 hl
    rw [(up_recR fr (cap _ (by omega)) (cap _ le_rfl)).2, Matrix.add_apply, (q j).2, row_mul (fun j => (q j).1)]; simp

/-! ### Null vectors -/

theorem null2 {D : Mat2 K} {h : K} (hd : D 0 0 * D 1 1 - D 0 1 * D 1 0 = 0) : D *ᵥ ![-D 0 1 / h, D 0 0 / h] = 0 := by
  ext i
  rw [mv_apply]
  fin_cases i
  · simp; ring
  · simp only [Fin.mk_one, Matrix.cons_val_zero, Matrix.cons_val_one, Pi.zero_apply]
    have : D 1 0 * (-D 0 1 / h) + D 1 1 * (D 0 0 / h) = (D 0 0 * D 1 1 - D 0 1 * D 1 0) / h := by ring
    rw [this, hd, zero_div]

theorem det2_zero {D : Mat2 K} {v : Fin 2 → K} (h : D *ᵥ v = 0) (hv : v ≠ 0) : D 0 0 * D 1 1 - D 0 1 * D 1 0 = 0 := by
  have a := congrFun h 0
  have b := congrFun h 1
  rw [mv_apply] at a b
  simp only [Pi.zero_apply] at a b
  by_contra hne
  apply hv
  ext i
  fin_cases i
  · have : (D 0 0 * D 1 1 - D 0 1 * D 1 0) * v 0 = 0 := by linear_combination D 1 1 * a - D 0 1 * b
    exact (mul_eq_zero.1 this).resolve_left hne
  · have : (D 0 0 * D 1 1 - D 0 1 * D 1 0) * v 1 = 0 := by linear_combination D 0 0 * b - D 1 0 * a
    exact (mul_eq_zero.1 this).resolve_left hne

theorem mv3 (M : Mat3 K) (v : Fin 3 → K) (i : Fin 3) : (M *ᵥ v) i = M i 0 * v 0 + M i 1 * v 1 + M i 2 * v 2 := by
  simp [Matrix.mulVec, dotProduct, Fin.sum_univ_three]

theorem mul3_eq (A B : Mat3 K) : mul3 A B = A * B := by
  ext i j; simp [mul3, Matrix.mul_apply, Fin.sum_univ_three]

theorem det3_eq (R : Mat3 K) : det3 R = R.det := by rw [Matrix.det_fin_three]; simp only [det3]; ring

theorem null3 {R : Mat3 K} {h : K} (hd : det3 R = 0) :
    R *ᵥ ![cross12 R 0 / h, cross12 R 1 / h, cross12 R 2 / h] = 0 := by
  ext i
  rw [mv3]
  simp only [Matrix.cons_val_zero, Matrix.cons_val_one, Matrix.cons_val, Pi.zero_apply]
  have : R i 0 * (cross12 R 0 / h) + R i 1 * (cross12 R 1 / h) + R i 2 * (cross12 R 2 / h) =
      (R i 0 * cross12 R 0 + R i 1 * cross12 R 1 + R i 2 * cross12 R 2) / h := by ring
  rw [this]
  have e : R i 0 * cross12 R 0 + R i 1 * cross12 R 1 + R i 2 * cross12 R 2 = 0 := by
    fin_cases i
    · simp only [cross12, Fin.zero_eta, Matrix.cons_val_zero, Matrix.cons_val_one, Matrix.cons_val]
      rw [← hd]; simp only [det3]; ring
    · simp only [cross12, Fin.mk_one, Matrix.cons_val_zero, Matrix.cons_val_one, Matrix.cons_val]; ring
    · simp only [cross12, Fin.reduceFinMk, Matrix.cons_val_zero, Matrix.cons_val_one, Matrix.cons_val]; ring
  rw [e, zero_div]

theorem det3_zero {R : Mat3 K} {v : Fin 3 → K} (h : R *ᵥ v = 0) (hv : v ≠ 0) : det3 R = 0 := by
  rw [det3_eq]
  exact Matrix.exists_mulVec_eq_zero_iff.1 ⟨v, hv, h⟩

/-! ### Contact of a liquid and a solid -/

/-- Continuity of normal displacement and traction between a liquid and a solid, in terms of the waves arriving
at (`i`) and leaving (`o`) the contact; entry 0 is the wave in the liquid. -/
def LSeq (c : K) (lq so : Lay K) (mq ms : Medium K) (sgn : K) (i o : Fin 3 → K) : Prop :=
  lq.xa * (o 0 - i 0) = so.xa * (i 1 - o 1) + sgn * (i 2 + o 2) ∧
  - mq.rho * (c * c) * (o 0 + i 0) = ms.mu * ((2 - so.cbcb) * (i 1 + o 1) + sgn * 2 * so.xb * (i 2 - o 2)) ∧
  2 * so.xa * (i 1 - o 1) + sgn * (2 - so.cbcb) * (i 2 + o 2) = 0

theorem q_contact {c sgn : K} {lq so : Lay K} {mq ms : Medium K} (h1 : Fits c lq mq) (h2 : Fits c so ms)
    (hl : so.liquid = false) (hs : sgn = 1 ∨ sgn = -1) (i o : Fin 3 → K) :
    qIn c lq so sgn *ᵥ i = qOut c lq so sgn *ᵥ o ↔ LSeq c lq so mq ms sgn i o := by
  obtain ⟨hm, -⟩ := h2.sol hl
  have hss : sgn * sgn = 1 := by rcases hs with h | h <;> rw [h] <;> ring
  have e : ∀ x y : Fin 3 → K, x = y ↔ x 0 = y 0 ∧ x 1 = y 1 ∧ x 2 = y 2 := by
    intro x y
    refine ⟨fun h => by rw [h]; exact ⟨rfl, rfl, rfl⟩, fun ⟨a, b, c⟩ => ?_⟩
    ext j; fin_cases j <;> assumption
  rw [e]
  simp only [mv3]
  simp only [qIn, qOut, LSeq, h1.rho, h2.mu, Matrix.of_apply, Matrix.cons_val', Matrix.cons_val_zero, Matrix.cons_val_one,
    Matrix.cons_val, Matrix.cons_val_fin_one]
  refine and_congr ?_ (and_congr ?_ ?_)
  · rcases hs with h | h <;> subst h <;> constructor <;> intro h
    · linear_combination h
    · linear_combination h
    · linear_combination -h
    · linear_combination -h
  · have f : ∀ x : K, -mq.rho * c * c / ms.mu * x = -(mq.rho * c * c * x / ms.mu) := fun x => by ring
    have f' : ∀ x : K, mq.rho * c * c / ms.mu * x = mq.rho * c * c * x / ms.mu := fun x => by ring
    rw [f, f']
    constructor <;> intro h
    · have h' : ms.mu * (mq.rho * c * c * i 0 / ms.mu) = mq.rho * c * c * i 0 := by field_simp
      have h'' : ms.mu * (mq.rho * c * c * o 0 / ms.mu) = mq.rho * c * c * o 0 := by field_simp
      linear_combination ms.mu * h + h' + h''
    · apply mul_left_cancel₀ hm
      have h' : ms.mu * (mq.rho * c * c * i 0 / ms.mu) = mq.rho * c * c * i 0 := by field_simp
      have h'' : ms.mu * (mq.rho * c * c * o 0 / ms.mu) = mq.rho * c * c * o 0 := by field_simp
      linear_combination h - h' - h''
  · rcases hs with h | h <;> subst h <;> constructor <;> intro h
    · linear_combination -h
    · linear_combination -h
    · linear_combination h
    · linear_combination h

/-- The 3x3 matrix of the contact holds the coefficients of the interface. -/
theorem rt3_core {c sgn : K} {lq so : Lay K} {RT : Mat3 K} (h : rt3 c lq so sgn = .ok RT) :
    ∃ M, lsCore c lq so sgn = .ok M ∧ ∀ i : Fin 3 → K,
      (RT *ᵥ i) 0 = (M.RD *ᵥ ![i 0, 0] + M.TU *ᵥ ![i 1, i 2]) 0 ∧
      (RT *ᵥ i) 1 = (M.TD *ᵥ ![i 0, 0] + M.RU *ᵥ ![i 1, i 2]) 0 ∧
      (RT *ᵥ i) 2 = (M.TD *ᵥ ![i 0, 0] + M.RU *ᵥ ![i 1, i 2]) 1 := by
  unfold rt3 at h
  unfold lsCore
  dsimp only at h ⊢
  split at h
  · cases h
  rename_i hA
  split at h
  · cases h
  rename_i hB
  injection h with h
  subst h
  have e2 : 4 * ((1 - 1 / 2 * so.cbcb) * (1 - 1 / 2 * so.cbcb)) * lq.xa * so.mu + lq.rho * (c * c) * so.cbcb * so.xa
      - 4 * so.mu * lq.xa * so.xa * so.xb =
      2 * (2 * ((1 - 1 / 2 * so.cbcb) * (1 - 1 / 2 * so.cbcb)) * lq.xa * so.mu + 1 / 2 * (lq.rho * (c * c)) * so.cbcb * so.xa
      - 2 * so.mu * lq.xa * so.xa * so.xb) := by ring
  have hA2 : ¬ (4 * ((1 - 1 / 2 * so.cbcb) * (1 - 1 / 2 * so.cbcb)) * lq.xa * so.mu + lq.rho * (c * c) * so.cbcb * so.xa
      - 4 * so.mu * lq.xa * so.xa * so.xb = 0) := by
    rw [e2]; exact mul_ne_zero two_ne_zero hA
  rw [if_neg hA2, if_neg hB]
  refine ⟨_, rfl, fun i => ?_⟩
  rw [not_or] at hB
  obtain ⟨hb, hO⟩ := hB
  rw [e2]
  generalize 2 * ((1 - 1 / 2 * so.cbcb) * (1 - 1 / 2 * so.cbcb)) * lq.xa * so.mu + 1 / 2 * (lq.rho * (c * c)) * so.cbcb * so.xa
      - 2 * so.mu * lq.xa * so.xa * so.xb = A at hA ⊢
  generalize 1 - 1 / 2 * so.cbcb = O at hO ⊢
  simp only [mv3, mv_apply, Pi.add_apply, Matrix.of_apply, Matrix.cons_val', Matrix.cons_val_zero, Matrix.cons_val_one,
    Matrix.cons_val, Matrix.cons_val_fin_one]
  refine ⟨?_, ?_, ?_⟩ <;> field_simp <;> ring

theorem rt_contact {c sgn : K} {lq so : Lay K} {mq ms : Medium K} (h1 : Fits c lq mq) (h2 : Fits c so ms)
    (hl : so.liquid = false) (hc : c ≠ 0) (hs : sgn = 1 ∨ sgn = -1) {RT : Mat3 K} (hRT : rt3 c lq so sgn = .ok RT) (i o : Fin 3 → K) :
    o = RT *ᵥ i ↔ LSeq c lq so mq ms sgn i o := by
  obtain ⟨M, hM, hi⟩ := rt3_core hRT
  obtain ⟨e0, e1, e2⟩ := hi i
  have key := lsCore_contact h1 h2 hl hs hM ![i 0, 0] ![i 1, i 2]
  rw [← e0, ← e1, ← e2] at key
  simp only [Matrix.cons_val_zero, Matrix.cons_val_one] at key
  constructor
  · intro h; subst h; exact key
  · rintro ⟨a1, a2, a3⟩
    obtain ⟨k1, k2, k3⟩ := key
    obtain ⟨p, q, r⟩ := lsCore_unique (x := o 0 - (RT *ᵥ i) 0) (a := o 1 - (RT *ᵥ i) 1) (b := o 2 - (RT *ᵥ i) 2)
      h1 h2 hl hc hs hM (by linear_combination a1 - k1) (by linear_combination a2 - k2) (by linear_combination a3 - k3)
    ext j; fin_cases j
    · exact sub_eq_zero.1 p
    · exact sub_eq_zero.1 q
    · exact sub_eq_zero.1 r

/-- The matrix of the mixed case annihilates exactly the outgoing waves whose own reflections, coming back,
meet the conditions of contact. -/
theorem mat3_null {c sgn : K} {lq so : Lay K} {mq ms : Medium K} (h1 : Fits c lq mq) (h2 : Fits c so ms)
    (hl : so.liquid = false) (hc : c ≠ 0) (hs : sgn = 1 ∨ sgn = -1) {low : Bool} {R3 R : Mat3 K}
    (hR : mat3 c lq so sgn low R3 = .ok R) (t : Fin 3 → K) :
    R *ᵥ t = 0 ↔ LSeq c lq so mq ms sgn (R3 *ᵥ t) t := by
  unfold mat3 at hR
  cases low
  · simp only [Bool.false_eq_true, if_false] at hR
    split at hR
    · rename_i RT hRT
      injection hR with hR
      have e : R = 1 - RT * R3 := by
        rw [← hR]; ext i j
        simp only [Matrix.of_apply, mul3_eq, Matrix.sub_apply, Matrix.one_apply]
        split <;> simp
      rw [e, Matrix.sub_mulVec, Matrix.one_mulVec, sub_eq_zero, ← Matrix.mulVec_mulVec]
      exact rt_contact h1 h2 hl hc hs hRT _ _
    · cases hR
    · cases hR
  · simp only [if_true, Out.ok.injEq] at hR
    have e : R = qIn c lq so sgn * R3 - qOut c lq so sgn := by
      rw [← hR]; ext i j
      simp only [Matrix.of_apply, mul3_eq, Matrix.sub_apply]
    rw [e, Matrix.sub_mulVec, sub_eq_zero, ← Matrix.mulVec_mulVec]
    exact q_contact h1 h2 hl hs _ _

/-- The contact of the layers on the two sides, with the liquid above or below. -/
theorem contact_above {c k : K} {l1 l2 : Lay K} {m1 m2 : Medium K} (h1 : Fits c l1 m1) (h2 : Fits c l2 m2) (hk : k ≠ 0)
    (e1 : l1.liquid = true) (e2 : l2.liquid = false) (u d u' d' : Fin 2 → K) :
    Contact l1 l2 (psvState k m1 l1 u d) (psvState k m2 l2 u' d') ↔
      LSeq c l1 l2 m1 m2 1 ![d 0, u' 0, u' 1] ![u 0, d' 0, d' 1] := by
  have hk2 : k^2 ≠ 0 := pow_ne_zero _ hk
  obtain ⟨hm, -⟩ := h2.sol e2
  rw [psvState_liquid h1 e1, psvState_solid h2 e2]
  simp only [Contact, LSeq, e1, Bool.true_eq_false, false_implies, and_true, Matrix.cons_val_zero, Matrix.cons_val_one, Matrix.cons_val]
  refine and_congr ⟨fun h => mul_left_cancel₀ hk ?_, fun h => ?_⟩ (and_congr ⟨fun h => mul_left_cancel₀ hk2 ?_, fun h => ?_⟩
    ⟨fun h => mul_left_cancel₀ (mul_ne_zero hm hk2) ?_, fun h => ?_⟩)
  · linear_combination h
  · linear_combination k * h
  · linear_combination h
  · linear_combination k^2 * h
  · linear_combination -h
  · linear_combination -(m2.mu * k^2) * h

theorem contact_below {c k : K} {l1 l2 : Lay K} {m1 m2 : Medium K} (h1 : Fits c l1 m1) (h2 : Fits c l2 m2) (hk : k ≠ 0)
    (e1 : l1.liquid = false) (e2 : l2.liquid = true) (u d u' d' : Fin 2 → K) :
    Contact l1 l2 (psvState k m1 l1 u d) (psvState k m2 l2 u' d') ↔
      LSeq c l2 l1 m2 m1 (-1) ![u' 0, d 0, d 1] ![d' 0, u 0, u 1] := by
  have hk2 : k^2 ≠ 0 := pow_ne_zero _ hk
  obtain ⟨hm, -⟩ := h1.sol e1
  rw [psvState_solid h1 e1, psvState_liquid h2 e2]
  simp only [Contact, LSeq, e2, Bool.true_eq_false, false_implies, implies_true, and_true, Matrix.cons_val_zero, Matrix.cons_val_one, Matrix.cons_val]
  refine and_congr ⟨fun h => mul_left_cancel₀ hk ?_, fun h => ?_⟩ (and_congr ⟨fun h => mul_left_cancel₀ hk2 ?_, fun h => ?_⟩
    ⟨fun h => mul_left_cancel₀ (mul_ne_zero hm hk2) ?_, fun h => ?_⟩)
  · linear_combination h
  · linear_combination k * h
  · linear_combination -h
  · linear_combination -k^2 * h
  · linear_combination -h
  · linear_combination -(m1.mu * k^2) * h

/-! ### A zero of the secular function is a start for the amplitudes -/

/-- `I` and `S` belong to the media `m`, and the interface coefficients could all be computed. -/
structure ModelR (I : ModeIn K) (S : ℕ → PSV K) (m : ℕ → Medium K) : Prop where
  k0 : I.k ≠ 0
  c0 : I.c ≠ 0
  fits : ∀ i, i < I.nlay → Fits I.c (I.lay i) (m i)
  xa0 : ∀ i, i < I.nlay → (I.lay i).xa ≠ 0
  xb0 : ∀ i, i < I.nlay → (I.lay i).xb ≠ 0
  rt : ∀ i, i + 1 < I.nlay → rtPSV I.c (I.lay i) (I.lay (i+1)) = .ok (S (i+1))

/-- The matrices for the secular function are complete, and so are those needed for the amplitudes. -/
structure SoundR (I : ModeIn K) (S : ℕ → PSV K) (iref : ℕ) : Prop where
  run : (raylMats I S iref).run = true
  all : AllOkR I S iref

/-- The norms used for scaling vanish at zero. -/
structure NormsR (P : SecPar K) : Prop where
  hyp : P.hyp 0 0 = 0
  amp : P.amp 0 = 0

theorem ext2 {a b : Fin 2 → K} (h0 : a 0 = b 0) (h1 : a 1 = b 1) : a = b := by
  ext i; fin_cases i <;> assumption

/-- Contact in terms of the coefficients, including the amplitudes a liquid does not have. -/
theorem contact_linked {I : ModeIn K} {S : ℕ → PSV K} {m : ℕ → Medium K} (hI : ModelR I S m) {i : ℕ} (hi : i + 1 < I.nlay)
    {b c : Amp4 K} (zb : (I.lay i).liquid = true → b.up 1 = 0) (zc : (I.lay (i+1)).liquid = true → c.dn 1 = 0) :
    Contact (I.lay i) (I.lay (i+1)) (psvState I.k (m i) (I.lay i) b.up b.dn) (psvState I.k (m (i+1)) (I.lay (i+1)) c.up c.dn) →
    b.up = (S (i+1)).RD *ᵥ b.dn + (S (i+1)).TU *ᵥ c.up ∧ c.dn = (S (i+1)).TD *ᵥ b.dn + (S (i+1)).RU *ᵥ c.up := by
  intro hc
  have hr := hI.rt i hi
  obtain ⟨⟨a1, a2⟩, b1, b2⟩ := C13_interface_PSV_unique (hI.fits i (by omega)) (hI.fits (i+1) hi) hr hI.k0 hI.c0
    (hI.xa0 i (by omega)) (hI.xb0 i (by omega)) _ _ _ _ hc
  obtain ⟨q1, q2⟩ := rt_liquid hr
  refine ⟨ext2 a1 ?_, ext2 b1 ?_⟩
  · cases e : (I.lay i).liquid
    · exact a2 e
    · rw [zb e, Pi.add_apply, mv_apply, mv_apply, (q1 e 0).1, (q1 e 1).1, (q1 e 0).2, (q1 e 1).2]; ring
  · cases e : (I.lay (i+1)).liquid
    · exact b2 e
    · rw [zc e, Pi.add_apply, mv_apply, mv_apply, (q2 e 0).1, (q2 e 1).1, (q2 e 0).2, (q2 e 1).2]; ring

theorem linked_contact {I : ModeIn K} {S : ℕ → PSV K} {m : ℕ → Medium K} (hI : ModelR I S m) {i : ℕ} (hi : i + 1 < I.nlay)
    {a b c : Amp4 K} (h : LinkedR I S i a b c) :
    Contact (I.lay i) (I.lay (i+1)) (psvState I.k (m i) (I.lay i) b.up b.dn) (psvState I.k (m (i+1)) (I.lay (i+1)) c.up c.dn) := by
  have := C13_interface_PSV (k := I.k) (hI.fits i (by omega)) (hI.fits (i+1) hi) (hI.rt i hi) b.dn c.up
  rw [← h.refl, ← h.trans] at this
  exact this

/-- What the secular function has to work with. -/
theorem sound_val {I : ModeIn K} {S : ℕ → PSV K} {m : ℕ → Medium K} (hI : ModelR I S m) {iref : ℕ} (hi : iref + 1 < I.nlay)
    (ok : SoundR I S iref) :
    (topR I).ok = true ∧ FrOkR I S (jr I iref) ∧ (∀ i, i ≤ jr I iref → (combine (topR I) (frArrR I S i)).ok = true) ∧
    (∀ my, iref ≤ my → my + 1 < I.nlay → RlOkR I S my (I.nlay - 1 - my)) ∧
    (raylMats I S iref).FA.RU = (allFRR I S (jr I iref)).RU ∧ (raylMats I S iref).BL.RD = (allRLR I S iref).RD ∧
    ((I.lay iref).liquid = true → ∀ j, (allRLR I S iref).RD 1 j = 0) ∧
    (∀ i, i ≤ jr I iref → (I.lay i).liquid = true → ∀ j, (allFRR I S i).RU 1 j = 0) := by
  obtain ⟨t, fr, c1, e1, r1, e2⟩ := raylMats_val hi ok.run
  have cap : ∀ i, i ≤ jr I iref → (combine (topR I) (frArrR I S i)).ok = true := by
    intro i hi'
    rcases Nat.lt_or_ge i (jr I iref) with q | q
    · exact ok.all.cap i q
    · have : i = jr I iref := by omega
      rw [this]; exact c1
  have rl : ∀ my, iref ≤ my → my + 1 < I.nlay → RlOkR I S my (I.nlay - 1 - my) := by
    intro my h1 h2
    rcases Nat.lt_or_ge iref my with q | q
    · exact ok.all.rl my q h2
    · have : my = iref := by omega
      rw [this]; exact r1
  refine ⟨t, fr, cap, rl, e1, e2, ?_, ?_⟩
  · intro e j
    exact rowR (by omega) hi r1 (fun h => rl (iref+1) (by omega) h) (hI.rt iref hi) e j
  · intro i hi' e j
    have hj := jr_le I iref
    exact rowF t (fun j a b => fr j a (by omega)) (fun j a => cap j (by omega))
      (fun n hn => by subst hn; exact hI.rt n (by omega)) e j

/-- The conditions on the amplitudes at layer `iref` and at the surface. -/
structure SeedR (I : ModeIn K) (S : ℕ → PSV K) (m : ℕ → Medium K) (iref : ℕ) (p : Amp4 K × Amp4 K) : Prop where
  start : StartR I S iref p
  top : iref = 0 → TractionFree (psvState I.k (m 0) (I.lay 0) p.1.up p.1.dn)

/-- A stored pair of amplitudes above the interface survives the propagation. -/
theorem start_given {I : ModeIn K} {S : ℕ → PSV K} {n : ℕ} {p : Amp4 K × Amp4 K}
    (hl : LinkedR I S n ⟨expM I n *ᵥ p.2.up, (allFRR I S n).RU *ᵥ (expM I n *ᵥ p.2.up)⟩ p.2 p.1)
    (hx : p.2.up 0 = 0 → (1 - (S (n+1)).RD * (expM I n * ((allFRR I S n).RU * expM I n))).det ≠ 0) :
    (downUpR I S n p.1 p.2) = (⟨expM I n *ᵥ p.2.up, (allFRR I S n).RU *ᵥ (expM I n *ᵥ p.2.up)⟩, p.2) := by
  unfold downUpR
  by_cases h0 : p.2.up 0 = 0
  · have d := hx h0
    simp only [mulV_eq, mul_eq, oneSub_eq, invKeep_eq d, h0, if_true]
    set F := (allFRR I S n).RU
    set M := S (n+1)
    set E := expM I n
    set G := E * (F * E)
    have hb : p.2.dn = G *ᵥ p.2.up := by
      rw [hl.dn]
      simp only [G, Matrix.mulVec_mulVec]
      rfl
    have h1 : (1 - M.RD * G) *ᵥ p.2.up = M.TU *ᵥ p.1.up := by
      rw [Matrix.sub_mulVec, Matrix.one_mulVec, ← Matrix.mulVec_mulVec, ← hb]
      nth_rewrite 1 [hl.refl]
      simp only [M]; abel
    have hy : ((1 - M.RD * G)⁻¹ * M.TU) *ᵥ p.1.up = p.2.up := by
      rw [← Matrix.mulVec_mulVec, ← h1, Matrix.mulVec_mulVec, inv_mul' d, Matrix.one_mulVec]
    rw [hy, ← hb]
  · simp only [mulV_eq, h0, if_false]

/-- What a null vector of the matrix between solids (or below the surface of a solid) means. -/
theorem seed_solid_null {I : ModeIn K} {S : ℕ → PSV K} {m : ℕ → Medium K} (hI : ModelR I S m) {P : SecPar K} {iref : ℕ}
    (hi : iref + 1 < I.nlay) (ok : SoundR I S iref) (e1 : (I.lay iref).liquid = false)
    (e2 : iref = 0 ∨ (I.lay (iref-1)).liquid = false) {v : Fin 2 → K}
    (hn : detSS I iref P.low (allFRR I S iref).RU (allRLR I S iref).RD *ᵥ v = 0) :
    (iref ≠ 0 → v = (allFRR I S iref).RU *ᵥ ((allRLR I S iref).RD *ᵥ v)) ∧
    (iref = 0 → TractionFree (psvState I.k (m 0) (I.lay 0) ((allRLR I S iref).RD *ᵥ v) v)) := by
  obtain ⟨t, fr, cap, rl, v1, v2, -, -⟩ := sound_val hI hi ok
  set F := (allFRR I S iref).RU
  set R := (allRLR I S iref).RD
  refine ⟨?_, ?_⟩
  · intro hi'
    have c1 : ¬ (iref = 0 ∧ P.low = true) := fun q => by omega
    rw [detSS, if_neg c1, oneSub_eq, mul_eq, Matrix.sub_mulVec, Matrix.one_mulVec, sub_eq_zero, ← Matrix.mulVec_mulVec] at hn
    exact hn
  · intro h0
    subst h0
    have f0 := hI.fits 0 (by omega)
    by_cases c1 : P.low = true
    · rw [detSS, if_pos ⟨rfl, c1⟩] at hn
      rw [add_eq, mul_eq, Matrix.add_mulVec, ← Matrix.mulVec_mulVec] at hn
      have n0 := congrFun hn 0
      have n1 := congrFun hn 1
      simp only [Pi.add_apply, mv_apply _ v, mv_apply _ (R *ᵥ v), Matrix.of_apply, Matrix.cons_val_zero, Matrix.cons_val_one, Matrix.cons_val',
        Matrix.cons_val_fin_one, Pi.zero_apply] at n0 n1
      rw [psvState_solid f0 e1]
      constructor
      · show (m 0).mu * I.k^2 * _ = 0
        simp only [mv_apply]
        linear_combination 2 * (m 0).mu * I.k^2 * n0
      · show (m 0).mu * I.k^2 * _ = 0
        simp only [mv_apply]
        linear_combination 2 * (m 0).mu * I.k^2 * n1
    · have c2 : ¬ ((0:ℕ) = 0 ∧ P.low = true) := fun q => c1 q.2
      rw [detSS, if_neg c2, oneSub_eq, mul_eq, Matrix.sub_mulVec, Matrix.one_mulVec, sub_eq_zero, ← Matrix.mulVec_mulVec] at hn
      have := C14_free_top (k := I.k) f0 (topR_ok t) (R *ᵥ v)
      rw [← allFRR_zero I S] at this
      nth_rewrite 2 [hn]
      exact this

/-- Between solids, or below the surface of a solid. -/
theorem seed_solid {I : ModeIn K} {S : ℕ → PSV K} {m : ℕ → Medium K} (hI : ModelR I S m) {P : SecPar K} (hP : NormsR P) {iref : ℕ}
    (hi : iref + 1 < I.nlay) (ok : SoundR I S iref) (e1 : (I.lay iref).liquid = false)
    (e2 : iref = 0 ∨ (I.lay (iref-1)).liquid = false) {p : Amp4 K × Amp4 K} (h : raylSecular I S P iref = .ok ⟨0, some p⟩) :
    SeedR I S m iref p ∧ p.1.dn ≠ 0 := by
  obtain ⟨t, fr, cap, rl, v1, v2, -, -⟩ := sound_val hI hi ok
  have hmx : mixed I iref = false := by
    unfold mixed; rcases e2 with rfl | e2
    · simp
    · simp [e1, e2]
  have hj : jr I iref = iref := by simp [jr, hmx]
  rw [hj] at fr cap v1
  unfold raylSecular raylSecularOf at h
  rw [if_pos ⟨e1, e2⟩, v1, v2] at h
  dsimp only at h
  injection h with h
  injection h with hs hp
  set F := (allFRR I S iref).RU
  set R := (allRLR I S iref).RD
  set D := detSS I iref P.low F R with hD
  split at hp
  · cases hp
  rename_i hh
  injection hp with hp
  have hd : D 0 0 * D 1 1 - D 0 1 * D 1 0 = 0 := by
    split at hs
    · exact (div_eq_zero_iff.1 hs).resolve_right two_ne_zero
    · exact hs
  have hn := null2 (h := P.hyp (D 0 0) (D 0 1)) hd
  have hne : (![-D 0 1 / P.hyp (D 0 0) (D 0 1), D 0 0 / P.hyp (D 0 0) (D 0 1)] : Fin 2 → K) ≠ 0 := by
    intro h0
    have z0 := congrFun h0 0
    have z1 := congrFun h0 1
    simp only [Matrix.cons_val_zero, Matrix.cons_val_one, Pi.zero_apply] at z0 z1
    have w0 := (div_eq_zero_iff.1 z0).resolve_right hh
    have w1 := (div_eq_zero_iff.1 z1).resolve_right hh
    apply hh
    rw [w1, neg_eq_zero.1 w0, hP.hyp]
  obtain ⟨v, hv⟩ : ∃ v : Fin 2 → K, v = ![-D 0 1 / P.hyp (D 0 0) (D 0 1), D 0 0 / P.hyp (D 0 0) (D 0 1)] := ⟨_, rfl⟩
  rw [← hv] at hn hne hp
  rw [mulV_eq] at hp
  subst hp
  obtain ⟨s1, s2⟩ := seed_solid_null hI (P := P) hi ok e1 e2 hn
  refine ⟨⟨⟨rfl, ?_⟩, s2⟩, hne⟩
  intro i hi'
  subst hi'
  obtain ⟨k1, k2⟩ := up_recR (S := S) (iy := i) fr (cap _ (by omega)) (cap _ le_rfl)
  exact downUpR_linked (by simp [Amp4.zero]) k1 k2 (s1 (by omega))

/-- Between liquids, or below the surface of a liquid. -/
theorem seed_liquid {I : ModeIn K} {S : ℕ → PSV K} {m : ℕ → Medium K} (hI : ModelR I S m) {P : SecPar K} {iref : ℕ}
    (hi : iref + 1 < I.nlay) (ok : SoundR I S iref) (e1 : (I.lay iref).liquid = true)
    (e2 : iref = 0 ∨ (I.lay (iref-1)).liquid = true) {p : Amp4 K × Amp4 K} (h : raylSecular I S P iref = .ok ⟨0, some p⟩) :
    SeedR I S m iref p ∧ p.1.dn = ![1, 0] := by
  obtain ⟨t, fr, cap, rl, v1, v2, zr, zf⟩ := sound_val hI hi ok
  have hmx : mixed I iref = false := by
    unfold mixed; rcases e2 with rfl | e2
    · simp
    · simp [e1, e2]
  have hj : jr I iref = iref := by simp [jr, hmx]
  rw [hj] at fr cap v1 zf
  unfold raylSecular raylSecularOf at h
  rw [if_neg (fun q => by rw [e1] at q; cases q.1), if_pos ⟨e1, e2⟩, v1, v2] at h
  injection h with h
  injection h with hs hp
  injection hp with hp
  set F := (allFRR I S iref).RU
  set R := (allRLR I S iref).RD
  have hR : (![R 0 0, 0] : Fin 2 → K) = R *ᵥ ![1, 0] := by
    refine ext2 ?_ ?_ <;> rw [mv_apply]
    · simp
    · rw [zr e1 0]; simp
  have hF : (![1, 0] : Fin 2 → K) = F *ᵥ ![R 0 0, 0] := by
    refine ext2 ?_ ?_ <;> rw [mv_apply]
    · simp; linear_combination hs
    · have zf' : F 1 0 = 0 := zf iref le_rfl e1 0
      rw [zf']; simp
  subst hp
  refine ⟨⟨⟨hR, ?_⟩, ?_⟩, rfl⟩
  · intro i hi'
    subst hi'
    obtain ⟨k1, k2⟩ := up_recR (S := S) (iy := i) fr (cap _ (by omega)) (cap _ le_rfl)
    exact downUpR_linked (by simp [Amp4.zero]) k1 k2 hF
  · intro h0
    subst h0
    have := C14_free_top (k := I.k) (hI.fits 0 (by omega)) (topR_ok t) ![R 0 0, 0]
    rw [← allFRR_zero I S] at this
    dsimp only
    rw [hF]
    exact this

theorem blk3_mv (l : K) (s : Mat2 K) (t : Fin 3 → K) :
    blk3 l s *ᵥ t = ![l * t 0, (s *ᵥ ![t 1, t 2]) 0, (s *ᵥ ![t 1, t 2]) 1] := by
  ext i
  rw [mv3, mv_apply, mv_apply]
  fin_cases i <;> simp [blk3]

theorem delayRU_eq (I : ModeIn K) (n : ℕ) (F : Mat2 K) : delayRU (I.exa n) (I.exb n) F = expM I n * (F * expM I n) := by
  ext i j; fin_cases i <;> fin_cases j <;> simp [delayRU, expM, Matrix.mul_apply, Fin.sum_univ_two] <;> ring

theorem cons3 (t : Fin 3 → K) : ![t 0, t 1, t 2] = t := by
  ext i; fin_cases i <;> rfl

theorem liq_up {F : Mat2 K} {I : ModeIn K} {n : ℕ} {x : K} (zf : ∀ j, F 1 j = 0) :
    (expM I n * (F * expM I n)) *ᵥ ![x, 0] = ![I.exa n * I.exa n * F 0 0 * x, 0] := by
  refine ext2 ?_ ?_ <;> rw [mv_apply] <;> simp only [expM, Matrix.mul_apply, Fin.sum_univ_two, zf, Matrix.of_apply, Matrix.cons_val_zero,
    Matrix.cons_val_one, Matrix.cons_val', Matrix.cons_val_fin_one] <;> ring

/-- The amplitudes of the routine in the mixed case, in terms of the vector `t` it has found. -/
theorem mixed_form {I : ModeIn K} {S : ℕ → PSV K} {m : ℕ → Medium K} (hI : ModelR I S m) {iref n : ℕ} (hn : iref = n + 1)
    (hi : iref + 1 < I.nlay) (ok : SoundR I S iref) (hm : (I.lay n).liquid = !(I.lay iref).liquid) (P : SecPar K) :
    ∃ lq so mq ms sgn, Fits I.c lq mq ∧ Fits I.c so ms ∧ so.liquid = false ∧ (sgn = (1:K) ∨ sgn = -1) ∧
    ∃ (R3 : Mat3 K) (A : (Fin 3 → K) → Amp4 K × Amp4 K),
      (∀ t, (A t).1.up = (allRLR I S iref).RD *ᵥ (A t).1.dn ∧
        (A t).2.dn = (expM I n * ((allFRR I S n).RU * expM I n)) *ᵥ (A t).2.up ∧
        ((I.lay n).liquid = true → (A t).2.up 1 = 0) ∧ ((I.lay iref).liquid = true → (A t).1.dn 1 = 0) ∧
        ((A t).1.dn = 0 → (A t).2.up = 0 → t = 0) ∧
        (Contact (I.lay n) (I.lay iref) (psvState I.k (m n) (I.lay n) (A t).2.up (A t).2.dn)
          (psvState I.k (m iref) (I.lay iref) (A t).1.up (A t).1.dn) ↔ LSeq I.c lq so mq ms sgn (R3 *ᵥ t) t)) ∧
      (∀ b c : Amp4 K, ((I.lay n).liquid = true → b.up 1 = 0) → ((I.lay iref).liquid = true → c.dn 1 = 0) →
        c.up = (allRLR I S iref).RD *ᵥ c.dn → b.dn = (expM I n * ((allFRR I S n).RU * expM I n)) *ᵥ b.up →
        ∃ t, A t = (c, b)) ∧
      (∀ s p, raylSecular I S P iref = .ok ⟨s, p⟩ → ∃ R, mat3 I.c lq so sgn P.low R3 = .ok R ∧
        s = (if P.low = true ∧ P.big = true then det3 R / (4 * I.c * I.c) else det3 R) ∧
        p = if P.amp (cross12 R) = 0 then none else some (A ![cross12 R 0 / P.amp (cross12 R),
          cross12 R 1 / P.amp (cross12 R), cross12 R 2 / P.amp (cross12 R)])) := by
  have f1 := hI.fits n (by omega)
  have f2 := hI.fits iref (by omega)
  obtain ⟨t, fr, cap, rl, v1, v2, zr, zf⟩ := sound_val hI hi ok
  have hsub : iref - 1 = n := by omega
  have hmx : mixed I iref = true := by
    unfold mixed; rw [hsub, hm]; cases (I.lay iref).liquid <;> rfl
  have hj : jr I iref = n := by simp [jr, hmx, hsub]
  rw [hj] at fr cap v1 zf
  have hc : ∀ X, raylSecular I S P iref = X → raylSecularOf I P iref (allFRR I S n).RU (allRLR I S iref).RD = X := by
    intro X hX; unfold raylSecular at hX; rwa [v1, v2] at hX
  set F := (allFRR I S n).RU
  set R := (allRLR I S iref).RD
  cases e : (I.lay iref).liquid
  · -- liquid above
    have e1 : (I.lay n).liquid = true := by rw [hm, e]; rfl
    refine ⟨I.lay n, I.lay iref, m n, m iref, 1, f1, f2, e, Or.inl rfl, blk3 (I.exa n * I.exa n * F 0 0) R,
      fun t => (⟨R *ᵥ ![t 1, t 2], ![t 1, t 2]⟩, ⟨![t 0, 0], ![I.exa n * I.exa n * F 0 0 * t 0, 0]⟩), ?_, ?_, ?_⟩
    · intro t
      refine ⟨rfl, (liq_up (zf n le_rfl e1)).symm, fun _ => rfl, fun q => (by cases q), ?_, ?_⟩
      · intro h1 h2
        have a := congrFun h1 0
        have b := congrFun h1 1
        have c := congrFun h2 0
        simp only [Matrix.cons_val_zero, Matrix.cons_val_one, Pi.zero_apply] at a b c
        ext i; fin_cases i
        · exact c
        · exact a
        · exact b
      · rw [contact_above f1 f2 hI.k0 e1 e, blk3_mv]
        simp only [Matrix.cons_val_zero, Matrix.cons_val_one, cons3]
    · intro b c zb _ h1 h2
      have zb := zb e1
      refine ⟨![b.up 0, c.dn 0, c.dn 1], ?_⟩
      have hb : (![b.up 0, 0] : Fin 2 → K) = b.up := ext2 rfl zb.symm
      have hcd : (![c.dn 0, c.dn 1] : Fin 2 → K) = c.dn := ext2 rfl rfl
      have hl := liq_up (I := I) (n := n) (x := b.up 0) (zf n le_rfl e1)
      rw [hb, ← h2] at hl
      simp only [Matrix.cons_val_zero, Matrix.cons_val_one, Matrix.cons_val, hcd, ← h1, hb]
      exact congrArg (Prod.mk c) (congrArg (Amp4.mk b.up) hl.symm)
    · intro s p hs
      have := hc _ hs
      unfold raylSecularOf at this
      rw [if_neg (by rw [hsub, e1]; rintro ⟨-, q | q⟩ <;> [omega; cases q]), if_neg (by rw [e]; rintro ⟨q, -⟩; cases q)] at this
      simp only [hsub, e1, if_true] at this
      have ed : delayRU (I.exa n) 0 !![F 0 0, 0; 0, 0] 0 0 = I.exa n * I.exa n * F 0 0 := by simp [delayRU]
      rw [ed] at this
      split at this
      · cases this
      · cases this
      · rename_i Rm hR
        injection this with this
        injection this with hs hp
        refine ⟨Rm, hR, hs.symm, ?_⟩
        rw [← hp]
        simp only [mulV_eq, Matrix.cons_val_zero, Matrix.cons_val_one, Matrix.cons_val]
  · -- solid above
    have e1 : (I.lay n).liquid = false := by rw [hm, e]; rfl
    have hR0 : ∀ x : K, (![R 0 0 * x, 0] : Fin 2 → K) = R *ᵥ ![x, 0] := by
      intro x
      refine ext2 ?_ ?_ <;> rw [mv_apply]
      · simp
      · rw [zr e 0]; simp
    refine ⟨I.lay iref, I.lay n, m iref, m n, -1, f2, f1, e1, Or.inr rfl, blk3 (R 0 0) (expM I n * (F * expM I n)),
      fun t => (⟨![R 0 0 * t 0, 0], ![t 0, 0]⟩, ⟨![t 1, t 2], (expM I n * (F * expM I n)) *ᵥ ![t 1, t 2]⟩), ?_, ?_, ?_⟩
    · intro t
      refine ⟨hR0 _, rfl, fun q => (by rw [e1] at q; cases q), fun _ => rfl, ?_, ?_⟩
      · intro h2 h1
        have a := congrFun h1 0
        have b := congrFun h1 1
        have c := congrFun h2 0
        simp only [Matrix.cons_val_zero, Matrix.cons_val_one, Pi.zero_apply] at a b c
        ext i; fin_cases i
        · exact c
        · exact a
        · exact b
      · rw [contact_below f1 f2 hI.k0 e1 e, blk3_mv]
        simp only [Matrix.cons_val_zero, Matrix.cons_val_one, cons3]
    · intro b c _ zc h1 h2
      have zc := zc rfl
      refine ⟨![c.dn 0, b.up 0, b.up 1], ?_⟩
      have hb : (![c.dn 0, 0] : Fin 2 → K) = c.dn := ext2 rfl zc.symm
      have hcd : (![b.up 0, b.up 1] : Fin 2 → K) = b.up := ext2 rfl rfl
      simp only [Matrix.cons_val_zero, Matrix.cons_val_one, Matrix.cons_val, hcd, hR0, hb, ← h1, ← h2]
    · intro s p hs
      have := hc _ hs
      unfold raylSecularOf at this
      rw [if_neg (by rw [e]; rintro ⟨q, -⟩; cases q), if_neg (by rw [hsub, e1]; rintro ⟨-, q | q⟩ <;> [omega; cases q])] at this
      simp only [hsub, e1, Bool.false_eq_true, if_false, delayRU_eq] at this
      split at this
      · cases this
      · cases this
      · rename_i Rm hR
        injection this with this
        injection this with hs hp
        refine ⟨Rm, hR, hs.symm, ?_⟩
        rw [← hp]
        simp only [mulV_eq, Matrix.cons_val_zero, Matrix.cons_val_one, Matrix.cons_val]

/-- Between a liquid and a solid. -/
theorem seed_mixed {I : ModeIn K} {S : ℕ → PSV K} {m : ℕ → Medium K} (hI : ModelR I S m) {P : SecPar K} (hP : NormsR P) {iref n : ℕ}
    (hn : iref = n + 1) (hi : iref + 1 < I.nlay) (ok : SoundR I S iref) (hm : (I.lay n).liquid = !(I.lay iref).liquid)
    {p : Amp4 K × Amp4 K} (h : raylSecular I S P iref = .ok ⟨0, some p⟩)
    (hx : p.2.up 0 = 0 → (1 - (S iref).RD * (expM I n * ((allFRR I S n).RU * expM I n))).det ≠ 0) :
    SeedR I S m iref p ∧ ¬ (p.1.dn = 0 ∧ p.2.up = 0) ∧ (downUpR I S n p.1 p.2).2 = p.2 ∧
    ((I.lay n).liquid = true → p.2.up 1 = 0) ∧ ((I.lay iref).liquid = true → p.1.dn 1 = 0) := by
  obtain ⟨lq, so, mq, ms, sgn, f1, f2, hl, hs, R3, A, hA, -, hsec⟩ := mixed_form hI hn hi ok hm P
  obtain ⟨R, hR, h0, hp⟩ := hsec _ _ h
  have hd : det3 R = 0 := by
    split at h0
    · have h4 : (4 * I.c * I.c : K) ≠ 0 := mul_ne_zero (mul_ne_zero (by norm_num) hI.c0) hI.c0
      exact (div_eq_zero_iff.1 h0.symm).resolve_right h4
    · exact h0.symm
  split at hp
  · cases hp
  rename_i hh
  injection hp with hp
  have hnull := null3 (h := P.amp (cross12 R)) hd
  have hne : (![cross12 R 0 / P.amp (cross12 R), cross12 R 1 / P.amp (cross12 R), cross12 R 2 / P.amp (cross12 R)] : Fin 3 → K) ≠ 0 := by
    intro z
    apply hh
    have : cross12 R = 0 := by
      ext i
      have z0 := congrFun z i
      fin_cases i
      · exact (div_eq_zero_iff.1 z0).resolve_right hh
      · exact (div_eq_zero_iff.1 z0).resolve_right hh
      · exact (div_eq_zero_iff.1 z0).resolve_right hh
    rw [this, hP.amp]
  generalize (![cross12 R 0 / P.amp (cross12 R), cross12 R 1 / P.amp (cross12 R), cross12 R 2 / P.amp (cross12 R)] : Fin 3 → K) = t at hnull hne hp
  obtain ⟨a1, a2, a3, a4, a5, a6⟩ := hA t
  rw [← hp] at a1 a2 a3 a4 a5 a6
  have hcon := a6.2 ((mat3_null f1 f2 hl hI.c0 hs hR t).1 hnull)
  subst hn
  obtain ⟨l1, l2⟩ := contact_linked hI (b := p.2) (c := p.1) (by omega) a3 a4 hcon
  have hL : LinkedR I S n ⟨expM I n *ᵥ p.2.up, (allFRR I S n).RU *ᵥ (expM I n *ᵥ p.2.up)⟩ p.2 p.1 := by
    refine ⟨?_, rfl, l1, l2⟩
    rw [a2]
    simp only [Matrix.mulVec_mulVec]
  have hst := start_given hL hx
  refine ⟨⟨⟨a1, ?_⟩, fun q => by omega⟩, fun q => hne (a5 q.1 q.2), by rw [hst], a3, a4⟩
  intro i hi'
  have : i = n := by omega
  subst this
  rw [hst]
  exact ⟨hL, rfl⟩

/-! ### The converse -/

/-- Amplitudes that satisfy all conditions: at the surface, across every layer and interface, at depth; a liquid has no S wave. -/
structure AmpR (I : ModeIn K) (S : ℕ → PSV K) (m : ℕ → Medium K) (D U : ℕ → Amp4 K) : Prop where
  linked : ∀ i, i + 1 < I.nlay → LinkedR I S i (D i) (U (i+1)) (D (i+1))
  top : TractionFree (psvState I.k (m 0) (I.lay 0) (D 0).up (D 0).dn)
  bot : (D (I.nlay - 1)).up = 0
  liq : ∀ i, i < I.nlay → (I.lay i).liquid = true → (D i).up 1 = 0 ∧ (D i).dn 1 = 0 ∧ (U (i+1)).up 1 = 0

/-- A wave in the layer or, at an interface between liquid and solid, on one of its sides. -/
def MovesR (I : ModeIn K) (iref : ℕ) (D U : ℕ → Amp4 K) : Prop :=
  (D iref).up ≠ 0 ∨ (D iref).dn ≠ 0 ∨ (mixed I iref = true ∧ ((U iref).up ≠ 0 ∨ (U iref).dn ≠ 0))

theorem amp_zero {I : ModeIn K} {S : ℕ → PSV K} {m : ℕ → Medium K} (hI : ModelR I S m) {P : SecPar K} {iref : ℕ}
    (hi : iref + 1 < I.nlay) (ok : SoundR I S iref) {D U : ℕ → Amp4 K} (hD : AmpR I S m D U) (hne : MovesR I iref D U)
    {s : K} {p : Option (Amp4 K × Amp4 K)} (h : raylSecular I S P iref = .ok ⟨s, p⟩) : s = 0 := by
  obtain ⟨t, fr, cap, rl, v1, v2, zr, zf⟩ := sound_val hI hi ok
  have hdn : (D iref).up = (allRLR I S iref).RD *ᵥ (D iref).dn := by
    have := linked_dnR (by omega) rl (fun i _ h => hD.linked i h) hD.bot (I.nlay - 1 - iref) (by omega) (by omega)
    have e : I.nlay - 1 - (I.nlay - 1 - iref) = iref := by omega
    rwa [e] at this
  have ht : (D 0).dn = (allFRR I S 0).RU *ᵥ (D 0).up := by
    rw [allFRR_zero]
    have f0 := hI.fits 0 (by omega)
    have htop := topR_ok t
    cases e : (I.lay 0).liquid
    · exact C14_free_unique f0 e hI.k0 htop _ _ hD.top
    · have := hD.top.1
      rw [psvState_liquid f0 e] at this
      simp only at this
      have hz : -(m 0).rho * (I.c * I.c) * I.k^2 ≠ 0 :=
        mul_ne_zero (mul_ne_zero (neg_ne_zero.2 f0.rho0) (mul_ne_zero hI.c0 hI.c0)) (pow_ne_zero _ hI.k0)
      have h0 := (mul_eq_zero.1 this).resolve_left hz
      obtain ⟨z1, z2, -⟩ := hD.liq 0 (by omega) e
      rw [e] at htop
      simp only [freeBoundPSV, Bool.not_true, Bool.false_eq_true, if_false, Out.ok.injEq] at htop
      rw [← htop]
      refine ext2 ?_ ?_ <;> rw [mv_apply]
      · simp; linear_combination h0
      · rw [z2]; simp
  have hup := linked_upR fr cap (fun i h => hD.linked i (by have := jr_le I iref; omega)) ht (jr I iref) le_rfl
  by_cases hmx : mixed I iref = true
  · -- liquid against solid
    obtain ⟨n, rfl⟩ : ∃ n, iref = n + 1 := by
      cases iref with
      | zero => simp [mixed] at hmx
      | succ n => exact ⟨n, rfl⟩
    have hm : (I.lay n).liquid = !(I.lay (n+1)).liquid := by
      unfold mixed at hmx
      rw [Nat.add_sub_cancel] at hmx
      revert hmx
      cases (I.lay n).liquid <;> cases (I.lay (n+1)).liquid <;> simp
    have hj : jr I (n+1) = n := by simp [jr, hmx]
    rw [hj] at hup
    obtain ⟨lq, so, mq, ms, sgn, f1, f2, hl, hs, R3, A, hA, hex, hsec⟩ := mixed_form hI rfl hi ok hm P
    have L := hD.linked n (by omega)
    have hb : (U (n+1)).dn = (expM I n * ((allFRR I S n).RU * expM I n)) *ᵥ (U (n+1)).up := by
      rw [L.dn, hup, L.up]
      simp only [Matrix.mulVec_mulVec]
    obtain ⟨t', ht'⟩ := hex (U (n+1)) (D (n+1)) (fun e => (hD.liq n (by omega) e).2.2) (fun e => (hD.liq (n+1) (by omega) e).2.1) hdn hb
    obtain ⟨R, hR, h0, -⟩ := hsec _ _ h
    have a6 := (hA t').2.2.2.2.2
    rw [ht'] at a6
    have hnull := (mat3_null f1 f2 hl hI.c0 hs hR t').2 (a6.1 (linked_contact hI (by omega) L))
    have hd : det3 R = 0 := by
      refine det3_zero hnull ?_
      intro z
      subst z
      have u0 : (U (n+1)).up = 0 ∧ (D (n+1)).dn = 0 := by
        have z0 : A 0 = (⟨0, 0⟩, ⟨0, 0⟩) := by
          obtain ⟨t0, h0⟩ := hex ⟨0, 0⟩ ⟨0, 0⟩ (fun _ => rfl) (fun _ => rfl) (by simp) (by simp)
          have := (hA t0).2.2.2.2.1 (by rw [h0]) (by rw [h0])
          rw [← h0, this]
        rw [z0] at ht'
        injection ht' with p1 p2
        exact ⟨by rw [← p2], by rw [← p1]⟩
      rcases hne with q | q | ⟨-, q | q⟩
      · apply q; rw [hdn, u0.2]; simp
      · exact q u0.2
      · exact q u0.1
      · apply q; rw [hb, u0.1]; simp
    rw [h0, hd]
    split <;> simp
  · have hmf : mixed I iref = false := by simpa using hmx
    have hj : jr I iref = iref := by simp [jr, hmf]
    rw [hj] at hup v1 zf
    have hnz : (D iref).dn ≠ 0 := by
      rcases hne with q | q | ⟨q, -⟩
      · intro z; apply q; rw [hdn, z]; simp
      · exact q
      · exact absurd q hmx
    unfold raylSecular raylSecularOf at h
    rw [v1, v2] at h
    unfold mixed at hmf
    cases e : (I.lay iref).liquid
    · have e2 : (I.lay (iref-1)).liquid = false := by rw [e] at hmf; simpa using hmf
      rw [if_pos ⟨e, Or.inr e2⟩] at h
      injection h with h
      injection h with hs _
      set F := (allFRR I S iref).RU
      set R := (allRLR I S iref).RD
      have hdet : detSS I iref P.low F R *ᵥ (D iref).dn = 0 := by
        unfold detSS
        split
        · rename_i q
          obtain ⟨rfl, -⟩ := q
          have f0 := hI.fits 0 (by omega)
          obtain ⟨s1, s2⟩ := hD.top
          rw [psvState_solid f0 e] at s1 s2
          simp only at s1 s2
          have hmk : (m 0).mu * I.k^2 ≠ 0 := mul_ne_zero (f0.sol e).1 (pow_ne_zero _ hI.k0)
          have r1 := (mul_eq_zero.1 s1).resolve_left hmk
          have r2 := (mul_eq_zero.1 s2).resolve_left hmk
          rw [add_eq, mul_eq, Matrix.add_mulVec, ← Matrix.mulVec_mulVec, ← hdn]
          refine ext2 ?_ ?_
          · simp only [Pi.add_apply, mv_apply, Matrix.of_apply, Matrix.cons_val_zero, Matrix.cons_val_one, Matrix.cons_val',
              Matrix.cons_val_fin_one, Pi.zero_apply]
            linear_combination (1/2) * r1
          · simp only [Pi.add_apply, mv_apply, Matrix.of_apply, Matrix.cons_val_zero, Matrix.cons_val_one, Matrix.cons_val',
              Matrix.cons_val_fin_one, Pi.zero_apply]
            linear_combination (1/2) * r2
        · rw [oneSub_eq, mul_eq, Matrix.sub_mulVec, Matrix.one_mulVec, sub_eq_zero, ← Matrix.mulVec_mulVec, ← hdn, ← hup]
      have := det2_zero hdet hnz
      rw [← hs]
      split
      · rw [this, zero_div]
      · exact this
    · have e2 : (I.lay (iref-1)).liquid = true := by rw [e] at hmf; simpa using hmf
      rw [if_neg (by rw [e]; rintro ⟨q, -⟩; cases q), if_pos ⟨e, Or.inr e2⟩] at h
      injection h with h
      injection h with hs _
      obtain ⟨z1, z2, -⟩ := hD.liq iref (by omega) e
      have d0 : (D iref).dn 0 ≠ 0 := by
        intro z; apply hnz; exact ext2 z z2
      have a := congrFun hdn 0
      have b := congrFun hup 0
      rw [mv_apply, z2] at a
      rw [mv_apply, z1] at b
      rw [← hs]
      have : (1 - (allFRR I S iref).RU 0 0 * (allRLR I S iref).RD 0 0) * (D iref).dn 0 = 0 := by
        linear_combination b + (allFRR I S iref).RU 0 0 * a
      exact (mul_eq_zero.1 this).resolve_right d0

end GRT.Modal
