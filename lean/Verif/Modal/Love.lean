import Verif.Kernel.Phys
import Mathlib.Analysis.Calculus.MeanValue

/-! Love modes: the secular function (secular.c) and the propagation of the wave amplitudes through the
model (eigenfn.c).  C76.

The modal programs accept only a free surface over a half-space (grt_eigenv.c 476-478), so only these two
boundary conditions are modelled. -/

set_option linter.unusedSectionVars false

namespace GRT.Modal

open GRT.RT GRT.Layer GRT.Kernel

section model
variable {K : Type*} [Field K] [DecidableEq K]

/-- What the modal routines read of `MODEL1D_STATE` after `grt_update_mod1d_state_k`: layers
`0 .. nlay-1` and the factors `exp(-k*Thk[i]*xa[i])`, `exp(-k*Thk[i]*xb[i])` of each layer. -/
structure ModeIn (K : Type*) where
  nlay : ℕ
  k : K
  c : K
  lay : ℕ → Lay K
  exa : ℕ → K
  exb : ℕ → K

/-- The local `M` of one round: reset, `grt_RT_matrix_SH`, `grt_delay_RT_matrix_SH`, secular.c 105-113 and
245-260.  `S iy` is what `grt_RT_matrix_SH(mstat, iy, M)` stores. -/
def ifaceL (I : ModeIn K) (S : ℕ → SH K) (iy : ℕ) : RTM K :=
  putS resetM (delaySH (I.exb (iy-1)) (S iy))

/-- `grt_recursion_RT_matrix_SH(&A, M, &A)`: the result overwrites the first argument. -/
def recInL (A M : RTM K) : RTM K := recRT_SH 0 1 0 (fun q => if q = 0 then A else M) 0

/-- `grt_topbound_RU_SH` for a free surface (layer.c 131-149): only `RUL` is read afterwards. -/
def topL (I : ModeIn K) : RTM K := { (resetM : RTM K) with RUL := freeBoundSH (I.lay 0).liquid }

/-- `grt_recursion_RU_SH(M_top, A, A)`. -/
def capTopL (I : ModeIn K) (A : RTM K) : RTM K := recRU_SH 0 1 1 (fun q => if q = 0 then topL I else A) 1

/-- `grt_botbound_RD_SH` for a half-space (layer.c 187-216): `grt_RT_matrix_SH(mstat, nlay-1, &M_bot)`, then
`RDL` is delayed. -/
def botL (I : ModeIn K) (S : ℕ → SH K) : RTM K :=
  let r := S (I.nlay - 1)
  putS resetM { r with RDL := r.RDL * (I.exb (I.nlay-2) * I.exb (I.nlay-2)) }

/-- `grt_recursion_RD_SH(A, M_bot, A)`. -/
def capBotL (I : ModeIn K) (S : ℕ → SH K) (A : RTM K) : RTM K :=
  recRD_SH 0 1 0 (fun q => if q = 0 then A else botL I S) 0

/-- One round of the loop of `grt_GRT_matrix_Love`, secular.c 242-278; `none` is `goto BEFORE_RETURN`.
The pair is `(M_FA, M_BL)`. -/
def loveStep (I : ModeIn K) (S : ℕ → SH K) (iref iy : ℕ) (p : RTM K × RTM K) : Option (RTM K × RTM K) :=
  let M := ifaceL I S iy
  if iy ≤ iref then
    if iy = 1 then some (M, p.2)
    else
      let A := recInL p.1 M
      if A.ok then some (A, p.2) else none
  else
    if iy = iref + 1 then some (p.1, M)
    else
      let A := recInL p.2 M
      if A.ok then some (p.1, A) else none

/-- Rounds `1 .. n`. -/
def loveLoop (I : ModeIn K) (S : ℕ → SH K) (iref : ℕ) : ℕ → Option (RTM K × RTM K)
  | 0 => some (resetM, resetM)
  | n + 1 => (loveLoop I S iref n).bind (loveStep I S iref (n + 1))

/-- `grt_GRT_matrix_Love`, secular.c 222-302.  `none`: the routine left early; the caller is not told and
goes on with what is in `M_FA` and `M_BL`. -/
def loveMats (I : ModeIn K) (S : ℕ → SH K) (iref : ℕ) : Option (RTM K × RTM K) :=
  (loveLoop I S iref (I.nlay - 2)).bind fun p =>
    let A := capTopL I p.1
    if A.ok then
      let B := capBotL I S p.2
      if B.ok then some (A, B) else none
    else none

/-- `*psec` and `ppot` of `grt_secular_function_potential_Love`, secular.c 493-524 (`iref` a solid layer). -/
def loveSecular (I : ModeIn K) (S : ℕ → SH K) (iref : ℕ) : Option (K × (K × K)) :=
  (loveMats I S iref).map fun p => (1 - p.1.RUL * p.2.RDL, (p.2.RDL, 1))

/-- `Mall_FR[iy]` after the loop of `grt_GRT_matrix_allLayer_Love`, secular.c 101-127: here the result goes
to the next entry, which was reset before. -/
def frArr (I : ModeIn K) (S : ℕ → SH K) : ℕ → RTM K
  | 0 => resetM
  | 1 => ifaceL I S 1
  | n + 2 => combineSH (frArr I S (n + 1)) (ifaceL I S (n + 2))

/-- `Mall_RL[my]` after `n` interfaces below layer `my` have been taken in, secular.c 123-127. -/
def rlArr (I : ModeIn K) (S : ℕ → SH K) (my : ℕ) : ℕ → RTM K
  | 0 => resetM
  | 1 => ifaceL I S (my + 1)
  | n + 2 => recInL (rlArr I S my (n + 1)) (ifaceL I S (my + n + 2))

/-- `Mall_FR[iy]` at the end, secular.c 132-136 (`iy < nlay-1`). -/
def allFR (I : ModeIn K) (S : ℕ → SH K) (iy : ℕ) : RTM K := capTopL I (frArr I S iy)

/-- `Mall_RL[iy]` at the end, secular.c 138-142; the entry of the half-space is as reset. -/
def allRL (I : ModeIn K) (S : ℕ → SH K) (iy : ℕ) : RTM K :=
  if iy + 1 < I.nlay then capBotL I S (rlArr I S iy (I.nlay - 2 - iy)) else resetM

/-- `grt_potential_propagate_UpDown_Love`, eigenfn.c 80-122: from the amplitudes below interface `iy-1` to
those below (first) and above (second) interface `iy`; a pair is (upgoing, downgoing). -/
def upDownL (I : ModeIn K) (S : ℕ → SH K) (iy : ℕ) (p1 : K × K) : (K × K) × (K × K) :=
  let M := S iy
  let R := (allRL I S iy).RDL
  let up1 := if (I.lay (iy-1)).liquid then 0 else p1.2 * I.exb (iy-1)
  let p2 : K × K :=
    if (I.lay iy).liquid then (0, 0)
    else
      let x := M.TDL * up1 / (1 - M.RUL * R)
      (R * x, x)
  let up : K × K := if (I.lay (iy-1)).liquid then (0, 0) else (M.RDL * up1 + M.TUL * p2.1, up1)
  (p2, up)

/-- `grt_potential_propagate_DownUp_Love`, eigenfn.c 184-213: from the amplitudes below interface `iy+1` to
those below interface `iy` (first) and above interface `iy+1` (second). -/
def downUpL (I : ModeIn K) (S : ℕ → SH K) (iy : ℕ) (p2 : K × K) : (K × K) × (K × K) :=
  if (I.lay iy).liquid then ((0, 0), (0, 0))
  else
    let M := S (iy + 1)
    let R := (allFR I S iy).RUL
    let delay := R * (I.exb iy * I.exb iy)
    let u := M.TUL * p2.1 / (1 - M.RDL * delay)
    ((u * I.exb iy, u * I.exb iy * R), (u, delay * u))

/-- `mod_potRaylLove_Down[iref + n]`, the downward loop of `grt_get_mod_potential_Up_Down_Love`, eigenfn.c
273-278. -/
def dnArr (I : ModeIn K) (S : ℕ → SH K) (iref : ℕ) (pot : K × K) : ℕ → K × K
  | 0 => pot
  | n + 1 => (upDownL I S (iref + n + 1) (dnArr I S iref pot n)).1

/-- `mod_potRaylLove_Down[iref - n]`, the upward loop, eigenfn.c 280-285. -/
def upArr (I : ModeIn K) (S : ℕ → SH K) (iref : ℕ) (pot : K × K) : ℕ → K × K
  | 0 => pot
  | n + 1 => (downUpL I S (iref - (n + 1)) (upArr I S iref pot n)).1

/-- `mod_potRaylLove_Down[i]`. -/
def potDown (I : ModeIn K) (S : ℕ → SH K) (iref : ℕ) (pot : K × K) (i : ℕ) : K × K :=
  if iref ≤ i then dnArr I S iref pot (i - iref) else upArr I S iref pot (iref - i)

/-- `mod_potRaylLove_Up[i]`: entries `1 .. iref` by the upward loop, entries above by the downward one,
entry `nlay` (allocated with calloc, grt_eigenfn.c 466-467) stays zero. -/
def potUp (I : ModeIn K) (S : ℕ → SH K) (iref : ℕ) (pot : K × K) (i : ℕ) : K × K :=
  if I.nlay ≤ i then (0, 0)
  else if iref < i then (upDownL I S i (potDown I S iref pot (i - 1))).2
  else if 1 ≤ i then (downUpL I S (i - 1) (potDown I S iref pot i)).2
  else (0, 0)

/-- The two amplitudes at a depth `dz` below the top of layer `i` and their product with the layer matrix
`grt_get_layer_T`, `grt_get_eigenfn_single_depth_Love`, eigenfn.c 347-384; `e1`, `e2` are
`exp(-k xb dz)`, `exp(-k xb (thk - dz))`.  The result is (displacement, stress). -/
def eigenfnL (I : ModeIn K) (S : ℕ → SH K) (iref : ℕ) (pot : K × K) (i : ℕ) (e1 e2 : K) : K × K :=
  if (I.lay i).liquid then (0, 0)
  else
    let a := (potUp I S iref pot (i + 1)).1 * e2
    let b := (potDown I S iref pot i).2 * e1
    let T := layT I.k (I.lay i)
    (T 0 0 * a + T 0 1 * b, T 1 0 * a + T 1 1 * b)

end model

/-! ### Algebra of the recursions -/

section alg
variable {K : Type*} [Field K] [DecidableEq K]

theorem combineSH_val {A B : RTM K} (h : 1 - A.RUL * B.RDL ≠ 0) :
    (combineSH A B).TDL = B.TDL * (1 / (1 - A.RUL * B.RDL) * A.TDL) ∧
    (combineSH A B).RDL = A.RDL + A.TUL * B.RDL * (1 / (1 - A.RUL * B.RDL) * A.TDL) ∧
    (combineSH A B).TUL = A.TUL * (1 / (1 - A.RUL * B.RDL) * B.TUL) ∧
    (combineSH A B).RUL = B.RUL + B.TDL * A.RUL * (1 / (1 - A.RUL * B.RDL) * B.TUL) := by
  have := congrFun (recRT_SH_val 0 1 2 (fun q => if q = 0 then A else if q = 1 then B else (resetM : RTM K))
    (by decide) (by simpa using h)) 2
  have e : combineSH A B = _ := this
  rw [e]
  simp [Store.set]

theorem combineSH_congr {A A' B B' : RTM K} (h : SameSH A A') (g : SameSH B B') (hd : 1 - A.RUL * B.RDL ≠ 0) :
    SameSH (combineSH A B) (combineSH A' B') := by
  obtain ⟨a1, a2, a3, a4⟩ := h
  obtain ⟨b1, b2, b3, b4⟩ := g
  obtain ⟨c1, c2, c3, c4⟩ := combineSH_val hd
  obtain ⟨d1, d2, d3, d4⟩ := combineSH_val (A := A') (B := B') (by rwa [← a2, ← b1])
  refine ⟨?_, ?_, ?_, ?_⟩
  · rw [c2, d2, a1, a2, a3, a4, b1]
  · rw [c4, d4, b2, b3, b4, a2, b1]
  · rw [c1, d1, b3, a2, b1, a3]
  · rw [c3, d3, a4, a2, b1, b4]

/-- The couplings met by the two bracketings. -/
theorem coupling_SH {A B C : RTM K} (h1 : 1 - A.RUL * B.RDL ≠ 0) (h3 : 1 - B.RUL * C.RDL ≠ 0) :
    (1 - A.RUL * B.RDL) * (1 - (combineSH A B).RUL * C.RDL) =
      (1 - B.RUL * C.RDL) * (1 - A.RUL * (combineSH B C).RDL) := by
  rw [(combineSH_val h1).2.2.2, (combineSH_val h3).2.1]
  field_simp
  ring

theorem recInL_ok {A M : RTM K} (h : (recInL A M).ok = true) :
    1 - A.RUL * M.RDL ≠ 0 ∧ A.ok = true := by
  unfold recInL at h
  have hd : 1 - A.RUL * M.RDL ≠ 0 := by
    intro e
    have := C12_failure_SH 0 1 0 (fun q => if q = 0 then A else M) (by simpa using e)
    rw [this] at h; cases h
  refine ⟨hd, ?_⟩
  rw [recRT_SH_val _ _ _ _ (by decide) (by simpa using hd)] at h
  simpa [Store.set] using h

theorem recInL_same {A M : RTM K} (hd : 1 - A.RUL * M.RDL ≠ 0) : SameSH (recInL A M) (combineSH A M) := by
  have := (C11_single_SH 0 1 0 (fun q => if q = 0 then A else M) (by simpa using hd)).2.2.2.2 (by decide)
  simpa [recInL] using this

theorem combineSH_ok {A M : RTM K} (h : (combineSH A M).ok = true) : 1 - A.RUL * M.RDL ≠ 0 := by
  intro e
  have := C12_failure_SH 0 1 2 (fun q => if q = 0 then A else if q = 1 then M else resetM) (by simpa using e)
  rw [combineSH, this] at h; cases h

theorem capTopL_ok {I : ModeIn K} {A : RTM K} (h : (capTopL I A).ok = true) : 1 - (topL I).RUL * A.RDL ≠ 0 := by
  intro e
  unfold capTopL recRU_SH at h
  simp [Store.set, e] at h

theorem capTopL_val {I : ModeIn K} {A : RTM K} (h : 1 - (topL I).RUL * A.RDL ≠ 0) :
    (capTopL I A).RUL = (combineSH (topL I) A).RUL := by
  have := (C11_single_SH 0 1 1 (fun q => if q = 0 then topL I else A) (by simpa using h)).2.2.1
  simpa [capTopL] using this

theorem capBotL_ok {I : ModeIn K} {S : ℕ → SH K} {A : RTM K} (h : (capBotL I S A).ok = true) :
    1 - A.RUL * (botL I S).RDL ≠ 0 ∧ A.ok = true := by
  unfold capBotL recRD_SH at h
  by_cases e : 1 - A.RUL * (botL I S).RDL = 0
  · simp [Store.set, e] at h
  · refine ⟨e, ?_⟩
    simpa [Store.set, e] using h

theorem capBotL_val {I : ModeIn K} {S : ℕ → SH K} {A : RTM K} (h : 1 - A.RUL * (botL I S).RDL ≠ 0) :
    (capBotL I S A).RDL = (combineSH A (botL I S)).RDL := by
  have := (C11_single_SH 0 1 0 (fun q => if q = 0 then A else botL I S) (by simpa using h)).1
  simpa [capBotL] using this

/-- The delayed response of interface `iy` in scalars. -/
theorem ifaceL_val (I : ModeIn K) (S : ℕ → SH K) (iy : ℕ) :
    (ifaceL I S iy).RDL = (S iy).RDL * (I.exb (iy-1) * I.exb (iy-1)) ∧ (ifaceL I S iy).RUL = (S iy).RUL ∧
    (ifaceL I S iy).TDL = (S iy).TDL * I.exb (iy-1) ∧ (ifaceL I S iy).TUL = (S iy).TUL * I.exb (iy-1) := by
  simp [ifaceL, putS, delaySH]

theorem botL_RDL (I : ModeIn K) (S : ℕ → SH K) (h : 2 ≤ I.nlay) :
    (botL I S).RDL = (ifaceL I S (I.nlay - 1)).RDL := by
  have : I.nlay - 1 - 1 = I.nlay - 2 := by omega
  simp [botL, ifaceL, putS, delaySH, this]

theorem combineSH_congr_RD {A B B' : RTM K} (h : B.RDL = B'.RDL) (hd : 1 - A.RUL * B.RDL ≠ 0) :
    (combineSH A B).RDL = (combineSH A B').RDL := by
  rw [(combineSH_val hd).2.1, (combineSH_val (A := A) (B := B') (by rwa [← h])).2.1, h]

/-- The entry for layer `my` with all interfaces below it, the half-space included. -/
def rlFull (I : ModeIn K) (S : ℕ → SH K) (my : ℕ) : RTM K := rlArr I S my (I.nlay - 1 - my)

/-- `rlArr` succeeded up to `n` interfaces. -/
def RlOk (I : ModeIn K) (S : ℕ → SH K) (my n : ℕ) : Prop :=
  ∀ j, 1 ≤ j → j < n → 1 - (rlArr I S my j).RUL * (ifaceL I S (my + j + 1)).RDL ≠ 0

theorem sameSH_refl (A : RTM K) : SameSH A A := ⟨rfl, rfl, rfl, rfl⟩
theorem SameSH.tr {A B C : RTM K} (h : SameSH A B) (g : SameSH B C) : SameSH A C :=
  ⟨h.1.trans g.1, h.2.1.trans g.2.1, h.2.2.1.trans g.2.2.1, h.2.2.2.trans g.2.2.2⟩
theorem SameSH.sm {A B : RTM K} (h : SameSH A B) : SameSH B A :=
  ⟨h.1.symm, h.2.1.symm, h.2.2.1.symm, h.2.2.2.symm⟩

theorem rlArr_same {I : ModeIn K} {S : ℕ → SH K} {my n : ℕ} (h : RlOk I S my (n + 2)) :
    SameSH (rlArr I S my (n + 2)) (combineSH (rlArr I S my (n + 1)) (ifaceL I S (my + n + 2))) :=
  recInL_same (h (n + 1) (by omega) (by omega))

/-- Taking in the interfaces one by one from the top is the same as putting the first one on top of the rest. -/
theorem rl_split {I : ModeIn K} {S : ℕ → SH K} {my : ℕ} (n : ℕ) (h : RlOk I S my (n + 2)) (g : RlOk I S (my + 1) (n + 1)) :
    1 - (ifaceL I S (my + 1)).RUL * (rlArr I S (my + 1) (n + 1)).RDL ≠ 0 ∧
    SameSH (rlArr I S my (n + 2)) (combineSH (ifaceL I S (my + 1)) (rlArr I S (my + 1) (n + 1))) := by
  induction n with
  | zero =>
    have h1 := h 1 (by omega) (by omega)
    exact ⟨h1, rlArr_same h⟩
  | succ n ih =>
    obtain ⟨i1, i2⟩ := ih (fun j a b => h j a (by omega)) (fun j a b => g j a (by omega))
    set A := ifaceL I S (my + 1)
    set B := rlArr I S (my + 1) (n + 1)
    have eC : ifaceL I S (my + (n + 1) + 2) = ifaceL I S (my + 1 + (n + 1) + 1) := by congr 1; omega
    set C := ifaceL I S (my + 1 + (n + 1) + 1)
    have hg := g (n + 1) (by omega) (by omega)
    have hB : SameSH (rlArr I S (my + 1) (n + 2)) (combineSH B C) := by
      have := rlArr_same (n := n) g
      have e : ifaceL I S (my + 1 + n + 2) = C := by congr 1
      rw [e] at this; exact this
    have hh := h (n + 2) (by omega) (by omega)
    have e2 : ifaceL I S (my + (n + 2) + 1) = C := by congr 1; omega
    rw [e2] at hh
    have hAB : 1 - (combineSH A B).RUL * C.RDL ≠ 0 := by rw [← i2.2.1]; exact hh
    have key := coupling_SH i1 hg
    have hABC : 1 - A.RUL * (combineSH B C).RDL ≠ 0 := by
      intro e
      rw [e, mul_zero] at key
      exact (mul_ne_zero i1 hAB) key
    refine ⟨by rw [hB.1]; exact hABC, ?_⟩
    have s1 := rlArr_same (n := n + 1) h
    rw [eC] at s1
    have s2 : SameSH (combineSH (rlArr I S my (n + 2)) C) (combineSH (combineSH A B) C) :=
      combineSH_congr i2 (sameSH_refl _) hh
    have s3 := C09_assoc_SH A B C i1 hAB hg hABC
    have s4 : SameSH (combineSH A (combineSH B C)) (combineSH A (rlArr I S (my + 1) (n + 2))) :=
      combineSH_congr (sameSH_refl _) (SameSH.sm hB) hABC
    exact SameSH.tr s1 (SameSH.tr s2 (SameSH.tr s3 s4))

theorem rlArr_ok {I : ModeIn K} {S : ℕ → SH K} {my : ℕ} (n : ℕ) (h : (rlArr I S my n).ok = true) : RlOk I S my n := by
  induction n with
  | zero => intro j _ hj; omega
  | succ n ih =>
    cases n with
    | zero => intro j _ hj; omega
    | succ n =>
      obtain ⟨h1, h2⟩ := recInL_ok (A := rlArr I S my (n + 1)) h
      intro j hj hj'
      rcases Nat.lt_or_ge j (n + 1) with q | q
      · exact ih h2 j hj q
      · have : j = n + 1 := by omega
        subst this; exact h1

/-- No recursion of `grt_GRT_matrix_allLayer_Love` reported failure (the routine does not look). -/
def AllOkL (I : ModeIn K) (S : ℕ → SH K) : Prop :=
  ∀ iy, iy + 1 < I.nlay → (allFR I S iy).ok = true ∧ (allRL I S iy).ok = true

theorem capTopL_keep {I : ModeIn K} {A : RTM K} (h : (capTopL I A).ok = true) : A.ok = true := by
  unfold capTopL recRU_SH at h
  by_cases e : 1 - (topL I).RUL * A.RDL = 0
  · simp [Store.set, e] at h
  · simpa [Store.set, e] using h

theorem combine_reset (B : RTM K) : (combineSH (resetM : RTM K) B).RDL = B.RDL ∧ (combineSH B (resetM : RTM K)).RUL = B.RUL := by
  constructor
  · rw [(combineSH_val (A := (resetM : RTM K)) (B := B) (by simp [resetM])).2.1]; simp [resetM]
  · rw [(combineSH_val (A := B) (B := (resetM : RTM K)) (by simp [resetM])).2.2.2]; simp [resetM]

theorem allRL_val {I : ModeIn K} {S : ℕ → SH K} (h2 : 2 ≤ I.nlay) {my : ℕ} (hm : my + 1 < I.nlay)
    (h : (allRL I S my).ok = true) :
    (allRL I S my).RDL = (rlFull I S my).RDL ∧ RlOk I S my (I.nlay - 1 - my) := by
  simp only [allRL, if_pos hm] at h ⊢
  obtain ⟨h1, h3⟩ := capBotL_ok h
  rw [capBotL_val h1]
  have hr := rlArr_ok _ h3
  obtain ⟨n, hn⟩ : ∃ n, I.nlay - 2 - my = n := ⟨_, rfl⟩
  have e1 : I.nlay - 1 - my = n + 1 := by omega
  unfold rlFull
  rw [hn] at h1 h3 hr ⊢
  rw [e1]
  cases n with
  | zero =>
    refine ⟨?_, fun j _ hj => by omega⟩
    have : my + 1 = I.nlay - 1 := by omega
    simp only [rlArr, this]
    rw [(combine_reset _).1, botL_RDL I S h2]
  | succ n =>
    have e2 : my + n + 2 = I.nlay - 1 := by omega
    have hb := botL_RDL I S h2
    refine ⟨?_, ?_⟩
    · simp only [rlArr, e2]
      have q : 1 - (rlArr I S my (n + 1)).RUL * (ifaceL I S (I.nlay - 1)).RDL ≠ 0 := by rw [← hb]; exact h1
      rw [(recInL_same q).1]
      exact combineSH_congr_RD hb h1
    · intro j hj hj'
      rcases Nat.lt_or_ge j (n + 1) with q | q
      · exact hr j hj q
      · have : j = n + 1 := by omega
        subst this
        have e3 : my + (n + 1) + 1 = I.nlay - 1 := by omega
        rw [e3, ← hb]; exact h1

/-- The reflection from below, layer by layer: the divisor of `upDownL` does not vanish. -/
theorem down_rec {I : ModeIn K} {S : ℕ → SH K} (h2 : 2 ≤ I.nlay) (ok : AllOkL I S) {my : ℕ} (hm : my + 1 < I.nlay) :
    1 - (S (my+1)).RUL * (allRL I S (my+1)).RDL ≠ 0 ∧
    (allRL I S my).RDL * (1 - (S (my+1)).RUL * (allRL I S (my+1)).RDL) =
      ((S (my+1)).RDL * (1 - (S (my+1)).RUL * (allRL I S (my+1)).RDL) +
        (S (my+1)).TUL * (allRL I S (my+1)).RDL * (S (my+1)).TDL) * (I.exb my * I.exb my) := by
  obtain ⟨v1, v2⟩ := allRL_val h2 hm (ok my hm).2
  have em : my + 1 - 1 = my := rfl
  obtain ⟨f1, f2, f3, f4⟩ := ifaceL_val I S (my + 1)
  rw [em] at f1 f3 f4
  by_cases hl : my + 1 + 1 < I.nlay
  · obtain ⟨w1, w2⟩ := allRL_val h2 hl (ok (my+1) hl).2
    obtain ⟨n, hn⟩ : ∃ n, I.nlay - 1 - (my + 1) = n + 1 := ⟨I.nlay - 1 - (my + 1) - 1, by omega⟩
    have hn' : I.nlay - 1 - my = n + 2 := by omega
    rw [hn'] at v2
    rw [hn] at w2
    obtain ⟨k1, k2⟩ := rl_split n v2 w2
    unfold rlFull at v1 w1
    rw [hn'] at v1
    rw [hn] at w1
    have d := (combineSH_val k1).2.1
    rw [← w1, f2] at k1
    refine ⟨k1, ?_⟩
    rw [v1, k2.1, d, ← w1, f1, f2, f3, f4]
    have e := one_div_mul_cancel k1
    linear_combination ((S (my+1)).TUL * I.exb my * (allRL I S (my+1)).RDL * (S (my+1)).TDL * I.exb my) * e
  · have e : (allRL I S (my + 1)).RDL = 0 := by
      simp [allRL, hl, resetM]
    have e1 : I.nlay - 1 - my = 1 := by omega
    unfold rlFull at v1
    rw [e1] at v1
    simp only [rlArr] at v1
    rw [e, v1, f1]
    constructor
    · simp
    · ring

/-- The reflection from above, layer by layer: the divisor of `downUpL` does not vanish. -/
theorem up_rec {I : ModeIn K} {S : ℕ → SH K} (ok : AllOkL I S) {iy : ℕ} (hm : iy + 2 < I.nlay) :
    1 - (S (iy+1)).RDL * ((allFR I S iy).RUL * (I.exb iy * I.exb iy)) ≠ 0 ∧
    (allFR I S (iy+1)).RUL * (1 - (S (iy+1)).RDL * ((allFR I S iy).RUL * (I.exb iy * I.exb iy))) =
      (S (iy+1)).RUL * (1 - (S (iy+1)).RDL * ((allFR I S iy).RUL * (I.exb iy * I.exb iy))) +
        (S (iy+1)).TDL * ((allFR I S iy).RUL * (I.exb iy * I.exb iy)) * (S (iy+1)).TUL := by
  have em : iy + 1 - 1 = iy := rfl
  obtain ⟨f1, f2, f3, f4⟩ := ifaceL_val I S (iy + 1)
  rw [em] at f1 f3 f4
  have o1 := capTopL_ok (ok iy (by omega)).1
  have o2 := capTopL_ok (ok (iy+1) hm).1
  have o3 := capTopL_keep (ok (iy+1) hm).1
  have v1 := capTopL_val o1
  have v2 := capTopL_val o2
  set T := topL I
  set A := frArr I S iy
  set B := ifaceL I S (iy + 1)
  -- the entry of layer iy+1 is A on top of B
  have hAB : 1 - A.RUL * B.RDL ≠ 0 ∧ SameSH (frArr I S (iy+1)) (combineSH A B) := by
    cases iy with
    | zero =>
      refine ⟨by simp [A, frArr, resetM], ?_⟩
      have e : A = resetM := rfl
      obtain ⟨q1, q2, q3, q4⟩ := combineSH_val (A := A) (B := B) (by simp [e, resetM])
      refine ⟨?_, ?_, ?_, ?_⟩
      · rw [q2]; simp [e, resetM, frArr, B]
      · rw [q4]; simp [e, resetM, frArr, B]
      · rw [q1]; simp [e, resetM, frArr, B]
      · rw [q3]; simp [e, resetM, frArr, B]
    | succ n => exact ⟨combineSH_ok o3, sameSH_refl _⟩
  obtain ⟨c1, c2⟩ := hAB
  rw [c2.1] at o2
  have key := coupling_SH o1 c1
  have o4 : 1 - (combineSH T A).RUL * B.RDL ≠ 0 := by
    intro e
    rw [e, mul_zero] at key
    exact (mul_ne_zero c1 o2) key.symm
  have s1 := C09_assoc_SH T A B o1 o4 c1 o2
  have s2 : SameSH (combineSH T (frArr I S (iy+1))) (combineSH T (combineSH A B)) :=
    combineSH_congr (sameSH_refl _) c2 (by rw [c2.1]; exact o2)
  have hv := (combineSH_val o4).2.2.2
  have w1 : (allFR I S iy).RUL = (combineSH T A).RUL := v1
  have w2 : (allFR I S (iy+1)).RUL = (combineSH T (frArr I S (iy+1))).RUL := v2
  rw [← w1, f1] at o4
  have o5 : 1 - (S (iy+1)).RDL * ((allFR I S iy).RUL * (I.exb iy * I.exb iy)) ≠ 0 := by
    intro e; apply o4; linear_combination e
  refine ⟨o5, ?_⟩
  rw [w2, s2.2.1, ← s1.2.1, hv, ← w1, f1, f2, f3, f4]
  have : 1 - (allFR I S iy).RUL * ((S (iy+1)).RDL * (I.exb iy * I.exb iy)) =
      1 - (S (iy+1)).RDL * ((allFR I S iy).RUL * (I.exb iy * I.exb iy)) := by ring
  rw [this]
  have e := one_div_mul_cancel o5
  linear_combination ((S (iy+1)).TDL * I.exb iy * (allFR I S iy).RUL * (S (iy+1)).TUL * I.exb iy) * e

/-! ### The two matrices of the secular function are entries of the two arrays -/

theorem loveLoop_val {I : ModeIn K} {S : ℕ → SH K} {iref : ℕ} (n : ℕ) {p : RTM K × RTM K} (h : loveLoop I S iref n = some p) :
    SameSH p.1 (frArr I S (min n iref)) ∧ p.2 = rlArr I S iref (n - iref) := by
  induction n generalizing p with
  | zero =>
    simp only [loveLoop, Option.some.injEq] at h
    subst h
    simp only [Nat.zero_min, Nat.zero_sub]
    exact ⟨sameSH_refl _, rfl⟩
  | succ n ih =>
    simp only [loveLoop] at h
    cases hp : loveLoop I S iref n with
    | none => rw [hp] at h; cases h
    | some q =>
      rw [hp] at h
      obtain ⟨i1, i2⟩ := ih hp
      simp only [Option.bind_some, loveStep] at h
      by_cases hc : n + 1 ≤ iref
      · rw [if_pos hc] at h
        have m1 : min (n + 1) iref = n + 1 := by omega
        have m2 : min n iref = n := by omega
        have m3 : n + 1 - iref = 0 := by omega
        have m4 : n - iref = 0 := by omega
        rw [m2] at i1
        rw [m4] at i2
        rw [m1, m3]
        split at h
        · rename_i hn
          injection h with h; subst h
          refine ⟨?_, i2⟩
          have : n = 0 := by omega
          subst this
          exact sameSH_refl _
        · rename_i hn
          split at h
          · rename_i hok
            injection h with h; subst h
            refine ⟨?_, i2⟩
            obtain ⟨k1, -⟩ := recInL_ok hok
            obtain ⟨m, rfl⟩ : ∃ m, n = m + 1 := ⟨n - 1, by omega⟩
            exact SameSH.tr (recInL_same k1) (combineSH_congr i1 (sameSH_refl _) k1)
          · cases h
      · rw [if_neg hc] at h
        have m1 : min (n + 1) iref = iref := by omega
        have m2 : min n iref = iref := by omega
        rw [m2] at i1
        rw [m1]
        split at h
        · rename_i hn
          injection h with h; subst h
          refine ⟨i1, ?_⟩
          have : n = iref := by omega
          subst this
          simp [rlArr]
        · rename_i hn
          split at h
          · rename_i hok
            injection h with h; subst h
            refine ⟨i1, ?_⟩
            obtain ⟨m, hm⟩ : ∃ m, n - iref = m + 1 := ⟨n - iref - 1, by omega⟩
            have hm' : n + 1 - iref = m + 2 := by omega
            rw [hm'] 
            rw [hm] at i2
            have : iref + m + 2 = n + 1 := by omega
            simp only [rlArr, i2, this]
          · cases h

/-- The secular function of layer `iref` and the amplitudes returned with it. -/
theorem loveSecular_val {I : ModeIn K} {S : ℕ → SH K} {iref : ℕ} (hi : iref + 1 < I.nlay) (ok : AllOkL I S) {s : K} {pot : K × K}
    (h : loveSecular I S iref = some (s, pot)) :
    s = 1 - (allFR I S iref).RUL * (allRL I S iref).RDL ∧ pot = ((allRL I S iref).RDL, 1) := by
  unfold loveSecular loveMats at h
  cases hp : loveLoop I S iref (I.nlay - 2) with
  | none => rw [hp] at h; cases h
  | some p =>
    rw [hp] at h
    obtain ⟨v1, v2⟩ := loveLoop_val _ hp
    have m1 : min (I.nlay - 2) iref = iref := by omega
    rw [m1] at v1
    simp only [Option.bind_some] at h
    split at h
    · rename_i o1
      split at h
      · rename_i o2
        simp only [Option.map_some, Option.some.injEq, Prod.mk.injEq] at h
        obtain ⟨h1, h2⟩ := h
        have w1 : (capTopL I p.1).RUL = (allFR I S iref).RUL := by
          have a := capTopL_ok o1
          have b := capTopL_ok (ok iref hi).1
          rw [capTopL_val a, allFR, capTopL_val b]
          exact (combineSH_congr (sameSH_refl _) v1 a).2.1
        have w2 : (capBotL I S p.2).RDL = (allRL I S iref).RDL := by
          rw [v2, allRL, if_pos hi]
        rw [← w1, ← w2]
        exact ⟨h1.symm, h2.symm⟩
      · cases h
    · cases h

/-! ### The amplitudes -/

theorem sh_liquid {l1 l2 : Lay K} {s : SH K} (h : rtSH l1 l2 = .ok s) :
    (l1.liquid = true → s.RDL = 0 ∧ s.TDL = 0 ∧ s.TUL = 0) ∧
    (l2.liquid = true → s.RUL = 0 ∧ s.TDL = 0 ∧ s.TUL = 0) := by
  unfold rtSH at h
  cases e1 : l1.liquid <;> cases e2 : l2.liquid <;> simp [e1, e2, lsSH, llSH] at h ⊢
  · subst h; simp
  · subst h; simp
  · subst h; simp

/-- Amplitudes on the two sides of interface `i+1`: `D i` just below interface `i`, `U (i+1)` just above
interface `i+1`, a pair being (upgoing, downgoing). -/
structure Linked (I : ModeIn K) (S : ℕ → SH K) (i : ℕ) (a b c : K × K) : Prop where
  /-- across layer `i` -/
  dn : b.2 = I.exb i * a.2
  up : a.1 = I.exb i * b.1
  /-- across interface `i+1` -/
  refl : b.1 = (S (i+1)).RDL * b.2 + (S (i+1)).TUL * c.1
  trans : c.2 = (S (i+1)).TDL * b.2 + (S (i+1)).RUL * c.1

theorem upDown_linked {I : ModeIn K} {S : ℕ → SH K} (h2 : 2 ≤ I.nlay) (ok : AllOkL I S)
    (hS : ∀ i, i + 1 < I.nlay → rtSH (I.lay i) (I.lay (i+1)) = .ok (S (i+1))) {i : ℕ} (hi : i + 1 < I.nlay) {a : K × K}
    (ha : a.1 = (allRL I S i).RDL * a.2) (hl : (I.lay i).liquid = true → a = (0, 0)) :
    Linked I S i a (upDownL I S (i+1) a).2 (upDownL I S (i+1) a).1 ∧
    (upDownL I S (i+1) a).1.1 = (allRL I S (i+1)).RDL * (upDownL I S (i+1) a).1.2 ∧
    ((I.lay (i+1)).liquid = true → (upDownL I S (i+1) a).1 = (0, 0)) := by
  obtain ⟨q1, q2⟩ := sh_liquid (hS i hi)
  obtain ⟨k1, k2⟩ := down_rec h2 ok hi
  have em : i + 1 - 1 = i := rfl
  unfold upDownL
  rw [em]
  cases e1 : (I.lay i).liquid
  · cases e2 : (I.lay (i+1)).liquid
    · simp only [Bool.false_eq_true, if_false, false_implies, and_true]
      set R := (allRL I S (i+1)).RDL
      set M := S (i+1)
      have hx : M.TDL * (a.2 * I.exb i) / (1 - M.RUL * R) * (1 - M.RUL * R) = M.TDL * (a.2 * I.exb i) :=
        div_mul_cancel₀ _ k1
      set x := M.TDL * (a.2 * I.exb i) / (1 - M.RUL * R)
      refine ⟨mul_comm _ _, ?_, rfl, ?_⟩
      · rw [ha]
        apply mul_right_cancel₀ k1
        linear_combination a.2 * k2 - M.TUL * R * I.exb i * hx
      · linear_combination hx
    · obtain ⟨r1, r2, r3⟩ := q2 e2
      simp only [Bool.false_eq_true, if_false, if_true, mul_zero, add_zero, implies_true, and_true, true_implies]
      refine ⟨mul_comm _ _, ?_, by simp, by simp [r2]⟩
      rw [ha]
      apply mul_right_cancel₀ k1
      rw [r1, r3] at k2
      rw [r1]
      dsimp only
      linear_combination a.2 * k2
  · have ha0 := hl e1
    subst ha0
    obtain ⟨r1, r2, r3⟩ := q1 e1
    cases e2 : (I.lay (i+1)).liquid
    · simp only [Bool.false_eq_true, if_false, if_true, mul_zero, zero_div, false_implies, and_true]
      exact ⟨by simp, by simp, by simp, by simp⟩
    · simp only [if_true, mul_zero, implies_true, and_true]
      exact ⟨by simp, by simp, by simp, by simp⟩

theorem downUp_linked {I : ModeIn K} {S : ℕ → SH K} (ok : AllOkL I S)
    (hS : ∀ i, i + 1 < I.nlay → rtSH (I.lay i) (I.lay (i+1)) = .ok (S (i+1))) {i : ℕ} (hi : i + 2 < I.nlay) {c : K × K}
    (hc : c.2 = (allFR I S (i+1)).RUL * c.1) (hl : (I.lay (i+1)).liquid = true → c = (0, 0)) :
    Linked I S i (downUpL I S i c).1 (downUpL I S i c).2 c ∧
    (downUpL I S i c).1.2 = (allFR I S i).RUL * (downUpL I S i c).1.1 ∧
    ((I.lay i).liquid = true → (downUpL I S i c).1 = (0, 0)) := by
  obtain ⟨q1, q2⟩ := sh_liquid (hS i (by omega))
  obtain ⟨k1, k2⟩ := up_rec ok hi
  unfold downUpL
  cases e1 : (I.lay i).liquid
  · simp only [Bool.false_eq_true, if_false, false_implies, and_true]
    set F := (allFR I S i).RUL
    set M := S (i+1)
    have hx := div_mul_cancel₀ (M.TUL * c.1) k1
    set x := M.TUL * c.1 / (1 - M.RDL * (F * (I.exb i * I.exb i)))
    refine ⟨⟨?_, ?_, ?_, ?_⟩, ?_⟩
    · dsimp only; ring
    · dsimp only; ring
    · dsimp only; linear_combination hx
    · dsimp only
      rw [hc]
      apply mul_right_cancel₀ k1
      linear_combination c.1 * k2 - M.TDL * F * (I.exb i * I.exb i) * hx
    · ring
  · obtain ⟨r1, r2, r3⟩ := q1 e1
    simp only [if_true, mul_zero, implies_true, and_true]
    refine ⟨by simp, by simp, by simp [r3], ?_⟩
    rw [hc]
    rw [r1, r2] at k2
    simp only [zero_mul, sub_zero, mul_one, add_zero] at k2
    rw [k2, r2]; ring

/-- All amplitudes fit together when the secular function vanishes. -/
theorem love_linked {I : ModeIn K} {S : ℕ → SH K} {iref : ℕ} (hi : iref + 1 < I.nlay) (ok : AllOkL I S)
    (hS : ∀ i, i + 1 < I.nlay → rtSH (I.lay i) (I.lay (i+1)) = .ok (S (i+1))) (hl : (I.lay iref).liquid = false)
    {pot : K × K} (h : loveSecular I S iref = some (0, pot)) :
    (∀ i, i + 1 < I.nlay → Linked I S i (potDown I S iref pot i) (potUp I S iref pot (i+1)) (potDown I S iref pot (i+1))) ∧
    (potDown I S iref pot 0).2 = (topL I).RUL * (potDown I S iref pot 0).1 ∧
    (potDown I S iref pot (I.nlay - 1)).1 = 0 ∧
    (∀ i, i < I.nlay → (I.lay i).liquid = true → potDown I S iref pot i = (0, 0)) := by
  obtain ⟨hs, hp⟩ := loveSecular_val hi ok h
  have h2 : 2 ≤ I.nlay := by omega
  have dn : ∀ n, iref + n < I.nlay → (dnArr I S iref pot n).1 = (allRL I S (iref+n)).RDL * (dnArr I S iref pot n).2 ∧
      ((I.lay (iref+n)).liquid = true → dnArr I S iref pot n = (0, 0)) := by
    intro n
    induction n with
    | zero =>
      intro _
      refine ⟨by simp [dnArr, hp], fun e => ?_⟩
      rw [Nat.add_zero, hl] at e; cases e
    | succ n ih =>
      intro hn
      obtain ⟨i1, i2⟩ := ih (by omega)
      obtain ⟨-, b, c⟩ := upDown_linked h2 ok hS (i := iref + n) (by omega) i1 i2
      exact ⟨b, c⟩
  have up : ∀ n, n ≤ iref → (upArr I S iref pot n).2 = (allFR I S (iref-n)).RUL * (upArr I S iref pot n).1 ∧
      ((I.lay (iref-n)).liquid = true → upArr I S iref pot n = (0, 0)) := by
    intro n
    induction n with
    | zero =>
      intro _
      refine ⟨?_, fun e => ?_⟩
      · simp only [upArr, hp, Nat.sub_zero]
        linear_combination -hs
      · rw [Nat.sub_zero, hl] at e; cases e
    | succ n ih =>
      intro hn
      obtain ⟨i1, i2⟩ := ih (by omega)
      have e : iref - n = iref - (n+1) + 1 := by omega
      rw [e] at i1 i2
      obtain ⟨-, b, c⟩ := downUp_linked ok hS (i := iref - (n+1)) (by omega) i1 i2
      exact ⟨b, c⟩
  refine ⟨?_, ?_, ?_, ?_⟩
  · intro i hi'
    rcases Nat.lt_or_ge i iref with q | q
    · obtain ⟨n, rfl⟩ : ∃ n, iref = i + 1 + n := ⟨iref - (i + 1), by omega⟩
      have u := up n (by omega)
      have e : i + 1 + n - n = i + 1 := by omega
      rw [e] at u
      have L := (downUp_linked ok hS (i := i) (by omega) u.1 u.2).1
      have e1 : potDown I S (i + 1 + n) pot (i+1) = upArr I S (i + 1 + n) pot n := by
        unfold potDown
        by_cases hn : i + 1 + n ≤ i + 1
        · have : n = 0 := by omega
          subst this
          simp [dnArr, upArr]
        · rw [if_neg hn]
          congr 1; omega
      have e2 : potDown I S (i + 1 + n) pot i = (downUpL I S i (upArr I S (i + 1 + n) pot n)).1 := by
        unfold potDown
        rw [if_neg (by omega), show i + 1 + n - i = n + 1 by omega]
        simp only [upArr]
        rw [show i + 1 + n - (n + 1) = i by omega]
      have e3 : potUp I S (i + 1 + n) pot (i+1) = (downUpL I S i (upArr I S (i + 1 + n) pot n)).2 := by
        unfold potUp
        rw [if_neg (by omega), if_neg (by omega), if_pos (by omega), e1]
        rfl
      rw [e1, e2, e3]
      exact L
    · obtain ⟨n, rfl⟩ : ∃ n, i = iref + n := ⟨i - iref, by omega⟩
      have d := dn n (by omega)
      have L := (upDown_linked h2 ok hS (i := iref + n) (by omega) d.1 d.2).1
      have e1 : potDown I S iref pot (iref + n) = dnArr I S iref pot n := by
        unfold potDown
        rw [if_pos (by omega)]; congr 1; omega
      have e2 : potDown I S iref pot (iref + n + 1) = (upDownL I S (iref + n + 1) (dnArr I S iref pot n)).1 := by
        unfold potDown
        rw [if_pos (by omega), show iref + n + 1 - iref = n + 1 by omega]
        rfl
      have e3 : potUp I S iref pot (iref + n + 1) = (upDownL I S (iref + n + 1) (dnArr I S iref pot n)).2 := by
        unfold potUp
        rw [if_neg (by omega), if_pos (by omega), show iref + n + 1 - 1 = iref + n by omega, e1]
      rw [e1, e2, e3]
      exact L
  · have u := (up iref le_rfl).1
    have e1 : potDown I S iref pot 0 = upArr I S iref pot iref := by
      unfold potDown
      by_cases hn : iref ≤ 0
      · have : iref = 0 := by omega
        subst this
        simp [dnArr, upArr]
      · rw [if_neg hn, Nat.sub_zero]
    rw [Nat.sub_self] at u
    rw [e1, u]
    have o1 := capTopL_ok (ok 0 (by omega)).1
    have : (allFR I S 0).RUL = (topL I).RUL := by
      have := capTopL_val o1
      rw [allFR, this]
      exact (combine_reset _).2
    rw [this]
  · obtain ⟨n, hn⟩ : ∃ n, I.nlay - 1 = iref + n := ⟨I.nlay - 1 - iref, by omega⟩
    have d := (dn n (by omega)).1
    have e1 : potDown I S iref pot (iref + n) = dnArr I S iref pot n := by
      unfold potDown
      rw [if_pos (by omega)]; congr 1; omega
    rw [hn, e1, d]
    have : ¬ (iref + n + 1 < I.nlay) := by omega
    simp [allRL, this, resetM]
  · intro i hi' e
    unfold potDown
    split
    · rename_i q
      have := (dn (i - iref) (by omega)).2
      rw [show iref + (i - iref) = i by omega] at this
      exact this e
    · rename_i q
      have := (up (iref - i) (by omega)).2
      rw [show iref - (iref - i) = i by omega] at this
      exact this e

theorem linked_dn {I : ModeIn K} {S : ℕ → SH K} (h2 : 2 ≤ I.nlay) (ok : AllOkL I S)
    {D U : ℕ → K × K} (hL : ∀ i, i + 1 < I.nlay → Linked I S i (D i) (U (i+1)) (D (i+1)))
    (hb : (D (I.nlay - 1)).1 = 0) :
    ∀ n, n < I.nlay → (D (I.nlay - 1 - n)).1 = (allRL I S (I.nlay - 1 - n)).RDL * (D (I.nlay - 1 - n)).2 := by
  intro n
  induction n with
  | zero =>
    intro _
    have : ¬ (I.nlay - 1 - 0 + 1 < I.nlay) := by omega
    rw [Nat.sub_zero, hb]
    rw [Nat.sub_zero] at this
    simp [allRL, this, resetM]
  | succ n ih =>
    intro hn
    have i1 := ih (by omega)
    obtain ⟨j, hj⟩ : ∃ j, I.nlay - 1 - (n + 1) = j := ⟨_, rfl⟩
    have hj' : I.nlay - 1 - n = j + 1 := by omega
    rw [hj'] at i1
    rw [hj]
    have L := hL j (by omega)
    obtain ⟨k1, k2⟩ := down_rec h2 ok (my := j) (by omega)
    have l1 := L.dn; have l2 := L.up; have l3 := L.refl; have l4 := L.trans
    rw [l1] at l3 l4
    rw [i1] at l3 l4
    rw [l2, l3]
    set R := (allRL I S (j+1)).RDL
    set M := S (j+1)
    apply mul_right_cancel₀ k1
    linear_combination -(D j).2 * k2 + I.exb j * M.TUL * R * l4

theorem linked_up {I : ModeIn K} {S : ℕ → SH K} {iref : ℕ} (hi : iref + 1 < I.nlay) (ok : AllOkL I S)
    {D U : ℕ → K × K} (hL : ∀ i, i + 1 < I.nlay → Linked I S i (D i) (U (i+1)) (D (i+1)))
    (ht : (D 0).2 = (topL I).RUL * (D 0).1) :
    ∀ n, n ≤ iref → (D n).2 = (allFR I S n).RUL * (D n).1 := by
  intro n
  induction n with
  | zero =>
    intro _
    have o1 := capTopL_ok (ok 0 (by omega)).1
    have : (allFR I S 0).RUL = (topL I).RUL := by
      have := capTopL_val o1
      rw [allFR, this]
      exact (combine_reset _).2
    rw [this, ht]
  | succ n ih =>
    intro hn
    have i1 := ih (by omega)
    have L := hL n (by omega)
    obtain ⟨k1, k2⟩ := up_rec ok (iy := n) (by omega)
    have l1 := L.dn; have l2 := L.up; have l3 := L.refl; have l4 := L.trans
    rw [i1, l2] at l1
    rw [l1] at l3 l4
    set F := (allFR I S n).RUL
    set M := S (n+1)
    rw [l4]
    apply mul_right_cancel₀ k1
    linear_combination -(D (n+1)).1 * k2 + M.TDL * F * I.exb n * I.exb n * l3

/-- The other direction: amplitudes that fit together make the secular function of any layer where they do
not vanish equal to zero. -/
theorem linked_love {I : ModeIn K} {S : ℕ → SH K} {iref : ℕ} (hi : iref + 1 < I.nlay) (ok : AllOkL I S)
    {D U : ℕ → K × K} (hL : ∀ i, i + 1 < I.nlay → Linked I S i (D i) (U (i+1)) (D (i+1)))
    (ht : (D 0).2 = (topL I).RUL * (D 0).1) (hb : (D (I.nlay - 1)).1 = 0) (hne : D iref ≠ (0, 0))
    {s : K} {pot : K × K} (h : loveSecular I S iref = some (s, pot)) : s = 0 := by
  obtain ⟨hs, -⟩ := loveSecular_val hi ok h
  have h2 : 2 ≤ I.nlay := by omega
  have dn := linked_dn h2 ok hL hb
  have up := linked_up hi ok hL ht
  have a := dn (I.nlay - 1 - iref) (by omega)
  rw [show I.nlay - 1 - (I.nlay - 1 - iref) = iref by omega] at a
  have b := up iref le_rfl
  have : (D iref).2 * s = 0 := by
    rw [hs]; rw [a] at b; linear_combination b
  rcases mul_eq_zero.1 this with q | q
  · exfalso
    apply hne
    rw [q, mul_zero] at a
    exact Prod.ext a q
  · exact q

/-- Amplitudes that fit together and vanish in one layer vanish everywhere. -/
theorem linked_zero {I : ModeIn K} {S : ℕ → SH K} {iref : ℕ} (hi : iref + 1 < I.nlay) (ok : AllOkL I S)
    {D U : ℕ → K × K} (hL : ∀ i, i + 1 < I.nlay → Linked I S i (D i) (U (i+1)) (D (i+1)))
    (ht : (D 0).2 = (topL I).RUL * (D 0).1) (hb : (D (I.nlay - 1)).1 = 0) (h0 : D iref = (0, 0)) :
    ∀ i, i < I.nlay → D i = (0, 0) := by
  have h2 : 2 ≤ I.nlay := by omega
  have dn := linked_dn h2 ok hL hb
  have up := linked_up hi ok hL ht
  have below : ∀ n, iref + n < I.nlay → D (iref + n) = (0, 0) := by
    intro n
    induction n with
    | zero => intro _; exact h0
    | succ n ih =>
      intro hn
      have z := ih (by omega)
      obtain ⟨j, hj⟩ : ∃ j, iref + n = j := ⟨_, rfl⟩
      rw [hj] at z
      rw [show iref + (n + 1) = j + 1 by omega] at hn ⊢
      have L := hL j hn
      have a := dn (I.nlay - 1 - (j+1)) (by omega)
      rw [show I.nlay - 1 - (I.nlay - 1 - (j+1)) = j + 1 by omega] at a
      obtain ⟨k1, -⟩ := down_rec h2 ok (my := j) hn
      have l1 := L.dn; have l4 := L.trans
      rw [z] at l1
      rw [l1, a] at l4
      have c : (D (j+1)).2 = 0 := by
        apply (mul_eq_zero.1 (show (1 - (S (j+1)).RUL * (allRL I S (j+1)).RDL) * (D (j+1)).2 = 0 by linear_combination l4)).resolve_left k1
      refine Prod.ext ?_ c
      rw [a, c, mul_zero]
  have above : ∀ n, n ≤ iref → D (iref - n) = (0, 0) := by
    intro n
    induction n with
    | zero => intro _; exact h0
    | succ n ih =>
      intro hn
      have z := ih (by omega)
      obtain ⟨j, hj⟩ : ∃ j, iref - (n + 1) = j := ⟨_, rfl⟩
      rw [show iref - n = j + 1 by omega] at z
      rw [hj]
      have L := hL j (by omega)
      have a := up j (by omega)
      obtain ⟨k1, -⟩ := up_rec ok (iy := j) (by omega)
      have l1 := L.dn; have l2 := L.up; have l3 := L.refl
      rw [z] at l3
      rw [a, l2] at l1
      rw [l1] at l3
      have c : (U (j+1)).1 = 0 := by
        apply (mul_eq_zero.1 (show _ * (U (j+1)).1 = 0 by linear_combination l3)).resolve_left k1
      have b : (D j).1 = 0 := by rw [l2, c, mul_zero]
      exact Prod.ext b (by rw [a, b, mul_zero])
  intro i hi'
  rcases Nat.lt_or_ge i iref with q | q
  · have := above (iref - i) (by omega)
    rwa [show iref - (iref - i) = i by omega] at this
  · have := below (i - iref) (by omega)
    rwa [show iref + (i - iref) = i by omega] at this

end alg

end GRT.Modal
