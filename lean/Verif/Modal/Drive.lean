import Verif.Modal.Search
import Verif.Model1D.State
import Mathlib.Topology.UniformSpace.HeineCantor
import Mathlib.Topology.MetricSpace.Basic

/-!
The search at one frequency, `get_secular_roots_single_freq` (pygrt/C_extension/src/modal/root.c 655-796): starting velocities
(`cpred`) from the estimated number of roots, choice of the layers whose secular function is searched, calls of the search.
-/

namespace GRT.Modal

open GRT.Search

/-! ### Starting velocities -/

/-- A layer as far as used here: velocities, thickness, and the mark of liquids. -/
structure MLay where
  va : ℝ
  vb : ℝ
  thk : ℝ
  liquid : Bool

/-- `grt_get_approx_nroots`, root.c 537-554, with the vertical wavenumbers of `grt_update_mod1d_state_k` for an elastic medium
(src/common/model.c 449-457; the modal code passes `isElastic = true`, root.c 816).  The layers are all but the last. -/
noncomputable def approxRoots (lays : List MLay) (rayl : Bool) (freq c : ℝ) : ℝ :=
  (lays.map fun l =>
    |(if 0 < l.vb then Model1D.csqrt (1 - (if l.liquid then 0 else (c / l.vb : ℝ)) * (if l.liquid then 0 else (c / l.vb : ℝ))) else 0 : ℂ).im| * l.thk +
      if rayl then |(Model1D.csqrt (1 - ((c / l.va : ℝ) : ℂ) * (c / l.va : ℝ))).im| * l.thk else 0).sum * (2 * freq) / c

open Classical in
/-- The halving loop, root.c 675-678: `rn2 > 0` and `|rn2 - rn1| > 0.5`.  `none`: more than `n` passes. -/
noncomputable def halve (rn : ℝ → ℝ) (c1 : ℝ) : ℕ → ℝ → Option ℝ
  | 0, _ => none
  | n + 1, c2 => if 0 < rn c2 ∧ |rn c2 - rn c1| > 1 / 2 then halve rn c1 n (c1 + (c2 - c1) / 2) else some c2

/-- The sampling loop, root.c 670-682: `c1`, `c2`, the list so far; at the end `c2` is appended.  `none`: more than `n` passes. -/
noncomputable def sample (rn : ℝ → ℝ) (cmax dc : ℝ) : ℕ → ℝ → ℝ → List ℝ → Option (List ℝ)
  | 0, _, _, _ => none
  | n + 1, c1, c2, l =>
    if c1 < cmax then (halve rn c1 (n + 1) (min (c1 + dc) cmax)).bind fun c2 => sample rn cmax dc n c2 c2 (l ++ [c1])
    else some (l ++ [c2])

/-- `cpred` before the estimated roots are added, root.c 662-682: `cmin`, `cmax` already with the gap. -/
noncomputable def cpredOf (rn : ℝ → ℝ) (cmin cmax : ℝ) (n : ℕ) : Option (List ℝ) :=
  sample rn cmax ((cmax - cmin) / (rn cmax + 1)) n cmin cmax []

/-- Estimated roots of half-spaces are inserted one after the other, root.c 684-723 (`capacity = npred + 1`, so nothing is dropped). -/
noncomputable def addEstimates : List ℝ → List ℝ → Option (List ℝ)
  | [], l => some l
  | t :: ts, l => (insertOrdered true (l.length + 1) l t).bind fun r => addEstimates ts r.1

/-! #### Continuity of the estimated number of roots -/

theorem csqrt_im_sq (r : ℝ) : (Model1D.csqrt (r : ℂ)).im ^ 2 = max 0 (-r) := by
  have h := Model1D.csqrt_mul (r : ℂ)
  set x := Model1D.csqrt (r : ℂ)
  have h1 := congrArg Complex.re h
  have h2 := congrArg Complex.im h
  simp only [Complex.mul_re, Complex.mul_im, Complex.ofReal_re, Complex.ofReal_im] at h1 h2
  have h3 : x.re * x.im = 0 := by linarith
  rcases mul_eq_zero.1 h3 with q | q
  · rw [q] at h1
    have : x.im ^ 2 = -r := by rw [sq]; linarith
    rw [this, max_eq_right]
    rw [← this]; positivity
  · rw [q] at h1 ⊢
    have : r = x.re ^ 2 := by rw [sq]; linarith
    rw [max_eq_left]
    · ring
    · rw [this]; nlinarith [sq_nonneg x.re]

theorem csqrt_im_abs (r : ℝ) : |(Model1D.csqrt (r : ℂ)).im| = √(max 0 (-r)) := by
  rw [← csqrt_im_sq, Real.sqrt_sq_eq_abs]

theorem approxRoots_continuous (lays : List MLay) (rayl : Bool) (freq : ℝ) : ContinuousOn (approxRoots lays rayl freq) (Set.Ioi 0) := by
  unfold approxRoots
  refine ContinuousOn.div (ContinuousOn.mul ?_ continuousOn_const) continuousOn_id fun c hc => (Set.mem_Ioi.1 hc).ne'
  refine Continuous.continuousOn ?_
  refine continuous_list_sum _ fun l _ => ?_
  have key : ∀ v : ℝ, Continuous fun c : ℝ => |(Model1D.csqrt (1 - ((c / v : ℝ) : ℂ) * (c / v : ℝ))).im| := by
    intro v
    have e : ∀ c : ℝ, (1 - ((c / v : ℝ) : ℂ) * (c / v : ℝ)) = ((1 - (c / v) * (c / v) : ℝ) : ℂ) := fun c => by push_cast; ring
    simp only [e, csqrt_im_abs]
    fun_prop
  refine Continuous.add (Continuous.mul ?_ continuous_const) ?_
  · by_cases hv : 0 < l.vb
    · simp only [hv, if_true]
      cases l.liquid
      · simpa using key l.vb
      · simp only [if_true]
        exact continuous_const
    · simp only [hv, if_false]
      exact continuous_const
  · cases rayl
    · simp only [Bool.false_eq_true, if_false]
      exact continuous_const
    · simp only [if_true]
      exact (key l.va).mul continuous_const

theorem approxRoots_nonneg (lays : List MLay) (rayl : Bool) (freq c : ℝ) (hf : 0 ≤ freq) (hc : 0 < c) (ht : ∀ l ∈ lays, 0 ≤ l.thk) :
    0 ≤ approxRoots lays rayl freq c := by
  unfold approxRoots
  refine div_nonneg (mul_nonneg (List.sum_nonneg ?_) (by linarith)) hc.le
  intro x hx
  obtain ⟨l, hl, rfl⟩ := List.mem_map.1 hx
  have := ht l hl
  refine add_nonneg (mul_nonneg (abs_nonneg _) this) ?_
  split
  · exact mul_nonneg (abs_nonneg _) this
  · exact le_rfl

/-! #### The loops end -/

theorem halve_spec (rn : ℝ → ℝ) (c1 cmax δ : ℝ) (hδ : ∀ c, c1 ≤ c → c ≤ cmax → c - c1 < δ → |rn c - rn c1| ≤ 1 / 2) :
    ∀ (n : ℕ) (c2 : ℝ), c1 < c2 → c2 ≤ cmax → c2 - c1 < δ * 2 ^ n →
    ∃ r, (∀ N > n, halve rn c1 N c2 = some r) ∧ c1 < r ∧ r ≤ c2 ∧ (r = c2 ∨ δ / 2 ≤ r - c1) ∧ (rn r ≤ 0 ∨ |rn r - rn c1| ≤ 1 / 2) := by
  intro n
  induction n with
  | zero =>
    intro c2 h1 h2 h3
    rw [pow_zero, mul_one] at h3
    refine ⟨c2, ?_, h1, le_rfl, Or.inl rfl, Or.inr (hδ c2 h1.le h2 h3)⟩
    intro N hN
    obtain ⟨N, rfl⟩ := Nat.exists_eq_succ_of_ne_zero (by omega : N ≠ 0)
    rw [halve, if_neg]
    rintro ⟨-, h⟩
    exact absurd (hδ c2 h1.le h2 h3) (not_le.2 h)
  | succ n ih =>
    intro c2 h1 h2 h3
    by_cases hc : 0 < rn c2 ∧ |rn c2 - rn c1| > 1 / 2
    · have hbig : δ ≤ c2 - c1 := by
        by_contra hlt
        exact absurd (hδ c2 h1.le h2 (not_le.1 hlt)) (not_le.2 hc.2)
      obtain ⟨r, hr, a1, a2, a3, a4⟩ := ih (c1 + (c2 - c1) / 2) (by linarith) (by linarith) (by rw [pow_succ] at h3; linarith)
      refine ⟨r, ?_, a1, by linarith, ?_, a4⟩
      · intro N hN
        obtain ⟨N, rfl⟩ := Nat.exists_eq_succ_of_ne_zero (by omega : N ≠ 0)
        rw [halve, if_pos hc]
        exact hr N (by omega)
      · right
        rcases a3 with rfl | a3
        · linarith
        · exact a3
    · refine ⟨c2, ?_, h1, le_rfl, Or.inl rfl, ?_⟩
      · intro N hN
        obtain ⟨N, rfl⟩ := Nat.exists_eq_succ_of_ne_zero (by omega : N ≠ 0)
        rw [halve, if_neg hc]
      · by_contra hn
        push Not at hn
        exact hc hn

/-- What the starting velocities should be: from `cmin` to `cmax`, increasing, with steps no larger than `dc` in which the estimated number
of roots changes by at most a half, or is zero at the end. -/
structure Sampling (rn : ℝ → ℝ) (dc cmin cmax : ℝ) (l : List ℝ) : Prop where
  head : l.head? = some cmin
  last : l.getLast? = some cmax
  sorted : l.Pairwise (· < ·)
  step : ∀ a b, Adj l a b → b - a ≤ dc ∧ (rn b ≤ 0 ∨ |rn b - rn a| ≤ 1 / 2)

theorem sample_spec (rn : ℝ → ℝ) (cmin cmax dc δ : ℝ) (hd : 0 < δ) (hdc : 0 < dc)
    (hδ : ∀ a b, cmin ≤ a → a ≤ b → b ≤ cmax → b - a < δ → |rn b - rn a| ≤ 1 / 2) :
    ∀ (m : ℕ) (c1 : ℝ) (l : List ℝ), cmin ≤ c1 → c1 ≤ cmax → cmax - c1 ≤ m * min dc (δ / 2) →
    ((l ++ [c1]).head? = some cmin ∧ (l ++ [c1]).Pairwise (· < ·) ∧
      ∀ a b, Adj (l ++ [c1]) a b → b - a ≤ dc ∧ (rn b ≤ 0 ∨ |rn b - rn a| ≤ 1 / 2)) →
    ∃ r N, (∀ n ≥ N, sample rn cmax dc n c1 c1 l = some r) ∧ Sampling rn dc cmin cmax r := by
  intro m
  induction m with
  | zero =>
    intro c1 l h1 h2 h3 ⟨h4, h5, h6⟩
    obtain rfl : c1 = cmax := by
      rw [Nat.cast_zero, zero_mul] at h3
      linarith
    refine ⟨l ++ [c1], 1, ?_, h4, by simp, h5, h6⟩
    intro n hn
    obtain ⟨n, rfl⟩ := Nat.exists_eq_succ_of_ne_zero (by omega : n ≠ 0)
    rw [sample, if_neg (lt_irrefl _)]
  | succ m ih =>
    intro c1 l h1 h2 h3 ⟨h4, h5, h6⟩
    rcases h2.lt_or_eq with hlt | rfl
    · have hc2 : c1 < min (c1 + dc) cmax := lt_min (by linarith) hlt
      obtain ⟨k, hk⟩ := pow_unbounded_of_one_lt ((min (c1 + dc) cmax - c1) / δ) (by norm_num : (1 : ℝ) < 2)
      rw [div_lt_iff₀ hd, mul_comm] at hk
      obtain ⟨c2, e, a1, a2, a3, a4⟩ := halve_spec rn c1 cmax δ (fun c q1 q2 q3 => hδ c1 c h1 q1 q2 q3) k _ hc2 (min_le_right _ _) hk
      have b1 : c2 ≤ cmax := a2.trans (min_le_right _ _)
      have b2 : c2 - c1 ≤ dc := by have := a2.trans (min_le_left _ _); linarith
      have b3 : cmax - c2 ≤ m * min dc (δ / 2) := by
        have hm : 0 ≤ (m : ℝ) * min dc (δ / 2) := mul_nonneg (Nat.cast_nonneg _) (le_min hdc.le (by linarith))
        push_cast at h3
        rcases a3 with rfl | a3
        · rcases min_cases (c1 + dc) cmax with ⟨q, -⟩ | ⟨q, -⟩
          · rw [q]; have := min_le_left dc (δ / 2); linarith
          · rw [q]; linarith
        · have := min_le_right dc (δ / 2); linarith
      have hadj : ∀ a b, Adj (l ++ [c1] ++ [c2]) a b → b - a ≤ dc ∧ (rn b ≤ 0 ∨ |rn b - rn a| ≤ 1 / 2) := by
        intro a b hab
        rcases adj_append _ _ _ _ hab with q | ⟨q, rfl⟩
        · exact h6 a b q
        · simp only [List.getLast?_append, List.getLast?_singleton, Option.some_or, Option.some.injEq] at q
          subst q
          exact ⟨b2, a4⟩
      obtain ⟨r, N, f1, f2⟩ := ih c2 (l ++ [c1]) (h1.trans a1.le) b1 b3 ⟨by
          rw [List.head?_append, h4]; rfl, by
          refine List.pairwise_append.2 ⟨h5, by simp, fun a ha b hb => ?_⟩
          simp only [List.mem_singleton] at hb
          subst hb
          rcases List.mem_append.1 ha with q | q
          · exact ((List.pairwise_append.1 h5).2.2 a q c1 (by simp)).trans a1
          · simp only [List.mem_singleton] at q; rw [q]; exact a1, hadj⟩
      refine ⟨r, max N (k + 1) + 1, ?_, f2⟩
      intro n hn
      obtain ⟨n, rfl⟩ := Nat.exists_eq_succ_of_ne_zero (by omega : n ≠ 0)
      rw [sample, if_pos hlt, e _ (by have := le_max_right N (k + 1); omega), Option.bind_some]
      exact f1 n (by have := le_max_left N (k + 1); omega)
    · refine ⟨l ++ [c1], 1, ?_, h4, by simp, h5, h6⟩
      intro n hn
      obtain ⟨n, rfl⟩ := Nat.exists_eq_succ_of_ne_zero (by omega : n ≠ 0)
      rw [sample, if_neg (lt_irrefl _)]

/-- C73: whatever the layers and the frequency, the sampling of the starting velocities ends, and gives an increasing list from `cmin` to
`cmax` whose steps are at most the range divided by the estimated number of roots plus one, the estimated number of roots
changing by at most a half in each, or being zero at its end. -/
theorem C73_sampling (lays : List MLay) (ht : ∀ l ∈ lays, 0 ≤ l.thk) (rayl : Bool) (freq : ℝ) (hf : 0 ≤ freq) (cmin cmax : ℝ) (h0 : 0 < cmin)
    (h1 : cmin < cmax) :
    let rn := approxRoots lays rayl freq
    ∃ l N, (∀ n ≥ N, cpredOf rn cmin cmax n = some l) ∧ Sampling rn ((cmax - cmin) / (rn cmax + 1)) cmin cmax l := by
  intro rn
  have hcont : ContinuousOn rn (Set.Icc cmin cmax) :=
    (approxRoots_continuous lays rayl freq).mono fun c hc => lt_of_lt_of_le h0 hc.1
  have huc := isCompact_Icc.uniformContinuousOn_of_continuous hcont
  obtain ⟨δ, hd, hδ⟩ := Metric.uniformContinuousOn_iff.1 huc (1 / 2) (by norm_num)
  have hrn : 0 ≤ rn cmax := approxRoots_nonneg lays rayl freq cmax hf (h0.trans h1) ht
  have hdc : 0 < (cmax - cmin) / (rn cmax + 1) := div_pos (by linarith) (by linarith)
  have hδ' : ∀ a b, cmin ≤ a → a ≤ b → b ≤ cmax → b - a < δ → |rn b - rn a| ≤ 1 / 2 := by
    intro a b q1 q2 q3 q4
    have := hδ b ⟨q1.trans q2, q3⟩ a ⟨q1, q2.trans q3⟩ (by rw [Real.dist_eq, abs_of_nonneg (by linarith)]; exact q4)
    rw [Real.dist_eq] at this
    exact this.le
  obtain ⟨m, hm⟩ := exists_nat_ge ((cmax - cmin) / min ((cmax - cmin) / (rn cmax + 1)) (δ / 2))
  rw [div_le_iff₀ (lt_min hdc (by linarith))] at hm
  obtain ⟨r, N, f1, f2⟩ := sample_spec rn cmin cmax _ δ hd hdc hδ' m cmin [] le_rfl h1.le hm ⟨rfl, by simp, fun a b ⟨l1, l2, e⟩ => by
    have := congrArg List.length e; simp at this; omega⟩
  refine ⟨r, N + 1, ?_, f2⟩
  intro n hn
  obtain ⟨n, rfl⟩ := Nat.exists_eq_succ_of_ne_zero (by omega : n ≠ 0)
  rw [← f1 (n + 1) (by omega), cpredOf]
  simp only [sample, if_pos h1]

/-- C73: the estimates are added in order; none of the velocities is lost. -/
theorem C73_estimates (ts l : List ℝ) (hl : l.Pairwise (· ≤ ·)) :
    ∃ r, addEstimates ts l = some r ∧ r.Pairwise (· ≤ ·) ∧ r.Perm (ts ++ l) := by
  induction ts generalizing l with
  | nil => exact ⟨l, rfl, hl, by simp⟩
  | cons t ts ih =>
    have htop : TopK true (l.length + 1) l l :=
      ⟨hl.imp fun h => by simpa [Before] using h, by simp, [], by simp, by simp⟩
    obtain ⟨k', r, e, hk, -⟩ := insertOrdered_step true (l.length + 1) (by omega) l l t htop
    have hk' : k'.Pairwise (· ≤ ·) := hk.sorted.imp fun h => by simpa [Before] using h
    have hperm : k'.Perm (l ++ [t]) := by
      obtain ⟨rej, hp, -⟩ := hk.best
      have hlen := hk.length
      have h2 := hp.length_eq
      simp only [List.length_append, List.length_singleton] at h2 hlen
      have : rej = [] := List.length_eq_zero_iff.1 (by omega)
      rw [this, List.append_nil] at hp
      exact hp
    obtain ⟨r', e', s', p'⟩ := ih k' hk'
    refine ⟨r', by simp only [addEstimates, e, Option.bind_some, e'], s', ?_⟩
    refine p'.trans ?_
    refine (hperm.append_left ts).trans ?_
    rw [← List.append_assoc]
    exact (List.perm_append_comm (l₁ := ts ++ l) (l₂ := [t]))

/-! ### Which layers are searched -/

/-- What a search at one frequency is called with, root.c 725-786: an error, or the layers in the order in which they are searched. -/
inductive Plan where
  | error
  | layers (l : List ℕ)
  deriving DecidableEq

/-- First solid layer from the top, or the number of layers, root.c 745-747. -/
def firstSolid : List MLay → ℕ
  | [] => 0
  | l :: t => if l.liquid then firstSolid t + 1 else 0

open Classical in
/-- The test for layers of low velocity and boundaries between solid and liquid, root.c 758-785, for layer `i`. -/
noncomputable def matches' (lays : List MLay) (love : Bool) (i : ℕ) : Bool :=
  match lays[i - 1]?, lays[i]?, lays[i + 1]? with
  | some a, some b, some c =>
    if love && b.liquid then false
    else decide ((a.va > b.va ∧ b.va ≤ c.va) ∨ (a.vb > b.vb ∧ b.vb ≤ c.vb) ∨ a.liquid ≠ b.liquid)
  | _, _, _ => false

/-- The layers searched, root.c 725-786.  `manual`: the layer given by the user. -/
noncomputable def plan (lays : List MLay) (love : Bool) (manual : Option ℕ) : Plan :=
  match manual with
  | some i => .layers [i]
  | none =>
    let low := (List.range' 1 (lays.length - 2)).filter (matches' lays love)
    if love then
      if firstSolid lays = lays.length - 1 then .error else .layers (firstSolid lays :: low)
    else .layers (0 :: low)

/-! ### C55 -/

theorem firstSolid_le (lays : List MLay) : firstSolid lays ≤ lays.length := by
  induction lays with
  | nil => exact le_rfl
  | cons l t ih =>
    unfold firstSolid
    split
    · simpa using ih
    · omega

theorem firstSolid_solid (lays : List MLay) (h : firstSolid lays < lays.length) : ∃ l, lays[firstSolid lays]? = some l ∧ l.liquid = false := by
  induction lays with
  | nil => simp at h
  | cons l t ih =>
    unfold firstSolid at h ⊢
    split at h
    · rename_i hl
      rw [if_pos hl, List.getElem?_cons_succ]
      exact ih (by simpa using h)
    · rename_i hl
      rw [if_neg hl]
      exact ⟨l, rfl, by simpa using hl⟩

theorem firstSolid_all (lays : List MLay) : firstSolid lays = lays.length ↔ ∀ l ∈ lays, l.liquid = true := by
  induction lays with
  | nil => simp [firstSolid]
  | cons l t ih =>
    unfold firstSolid
    split
    · rename_i hl
      simp [ih, hl]
    · rename_i hl
      simp [hl]

/-- C55 fails: for Love waves in every model without solid layer (and at least one layer) no error is raised and the search is called with
an index one beyond the last layer. -/
theorem C55_violated (lays : List MLay) (hn : 1 ≤ lays.length) (hl : ∀ l ∈ lays, l.liquid = true) :
    ∃ rest, plan lays true none = .layers (lays.length :: rest) ∧ lays[lays.length]? = none := by
  have h := (firstSolid_all lays).2 hl
  refine ⟨(List.range' 1 (lays.length - 2)).filter (matches' lays true), ?_, List.getElem?_eq_none le_rfl⟩
  unfold plan
  simp only [if_true]
  rw [if_neg (by omega), h]

/-- C55 also fails the other way: a stack of liquids over a solid half-space raises the error meant for models without solid layer. -/
theorem C55_error_violated (lays : List MLay) (half : MLay) (hl : ∀ l ∈ lays, l.liquid = true) (hh : half.liquid = false) :
    plan (lays ++ [half]) true none = .error := by
  have : firstSolid (lays ++ [half]) = lays.length := by
    induction lays with
    | nil => simp [firstSolid, hh]
    | cons l t ih =>
      rw [List.cons_append, firstSolid, if_pos (hl l (by simp)), ih fun x hx => hl x (List.mem_cons_of_mem _ hx)]
      rfl
  unfold plan
  simp [this]

/-- C55 where the model has a solid layer above the half-space: no error, and every layer searched for Love waves exists and is solid; for
Rayleigh waves every layer searched exists.  Missing: models without solid layer, or with a solid half-space only, see `C55_violated`,
`C55_error_violated`. -/
theorem C55_partial (lays : List MLay) (love : Bool) (h : ∃ i l, i + 1 < lays.length ∧ lays[i]? = some l ∧ l.liquid = false) :
    ∃ is, plan lays love none = .layers is ∧ ∀ i ∈ is, ∃ l, lays[i]? = some l ∧ (love = true → l.liquid = false) := by
  have hlow : ∀ i ∈ (List.range' 1 (lays.length - 2)).filter (matches' lays love), ∃ l, lays[i]? = some l ∧ (love = true → l.liquid = false) := by
    intro i hi
    have hm := (List.mem_filter.1 hi).2
    unfold matches' at hm
    split at hm
    · rename_i a b c ha hb hc
      refine ⟨b, hb, fun hlove => ?_⟩
      rw [hlove] at hm
      by_contra hliq
      simp only [Bool.not_eq_false] at hliq
      simp [hliq] at hm
    · simp at hm
  obtain ⟨i, l, hi, hil, hs⟩ := h
  have hfs : firstSolid lays ≤ i := by
    clear hlow
    induction lays generalizing i with
    | nil => simp at hi
    | cons x t ih =>
      unfold firstSolid
      split
      · rename_i hx
        cases i with
        | zero =>
          simp only [List.getElem?_cons_zero, Option.some.injEq] at hil
          rw [hil] at hx
          rw [hs] at hx
          simp at hx
        | succ i =>
          rw [List.getElem?_cons_succ] at hil
          have := ih i (by simpa using hi) hil
          omega
      · omega
  unfold plan
  cases love with
  | true =>
    dsimp only
    rw [if_pos rfl, if_neg (by omega)]
    refine ⟨_, rfl, ?_⟩
    intro j hj
    rcases List.mem_cons.1 hj with rfl | hj
    · obtain ⟨l', h1, h2⟩ := firstSolid_solid lays (by omega)
      exact ⟨l', h1, fun _ => h2⟩
    · exact hlow j hj
  | false =>
    dsimp only
    rw [if_neg (by simp)]
    refine ⟨_, rfl, ?_⟩
    intro j hj
    rcases List.mem_cons.1 hj with rfl | hj
    · exact ⟨lays[0], List.getElem?_eq_getElem (by omega), by simp⟩
    · exact hlow j hj

/-- A case of each: water over a crust over a half-space; water twice; water over a half-space. -/
example : let w : MLay := ⟨3 / 2, 0, 4, true⟩
    let s : MLay := ⟨6, 7 / 2, 30, false⟩
    let m : MLay := ⟨8, 9 / 2, 100, false⟩
    (∃ i l, i + 1 < [w, s, m].length ∧ [w, s, m][i]? = some l ∧ l.liquid = false) ∧ (∀ l ∈ [w, w], l.liquid = true) ∧
      plan [w, m] true none = .error := by
  intro w s m
  exact ⟨⟨1, s, by simp, rfl, rfl⟩, by simp [w], C55_error_violated [w] m (by simp [w]) rfl⟩

/-! ### One frequency -/

variable {V : Type*} (S : Cfg V)

/-- The calls of the adaptive search on one list of roots, root.c 727, 740, 751, 784; `cb` is the start of the search by layer (root.c
262-265).  `none`: not finished within `n` passes of a search, or an access out of bounds. -/
noncomputable def Cfg.singleFreq (cb : ℕ → ℝ) (cpred : List ℝ) (n : ℕ) : List ℕ → Eig ℝ → List (ℝ × ℕ) → Option (Eig ℝ × List (ℝ × ℕ))
  | [], e, found => some (e, found)
  | i :: is, e, found =>
    match S.adaptive i (cb i) cpred n e found with
    | .ok _ s => Cfg.singleFreq cb cpred n is s.eig s.found
    | _ => none

/-- C72 and C50 for a whole frequency: whatever the secular functions, the searches of all layers end, and the list of one frequency is
what should be kept of all roots found, each being a root of the secular function of the layer recorded with it, one of the
layers searched. -/
theorem C72_frequency (hg : 0 < S.cgap) (cb : ℕ → ℝ) (hcb : ∀ i, 0 ≤ cb i) (cpred : List ℝ) (hs : cpred.Pairwise (· ≤ ·)) (hi : ℝ)
    (hhi : cpred.getLast? = some hi) (is : List ℕ) :
    ∃ e found N, (∀ n ≥ N, S.singleFreq cb cpred n is ⟨[], []⟩ [] = some (e, found)) ∧ Kept S.cgap S.nmode found e ∧
      ∀ p ∈ e.c.zip e.iref, S.Good hi p ∧ p.2 ∈ is := by
  obtain ⟨lo, hlo⟩ : ∃ lo, cpred.head? = some lo := by
    cases cpred with
    | nil => simp at hhi
    | cons a t => exact ⟨a, rfl⟩
  have main : ∀ (js : List ℕ) (e : Eig ℝ) (found : List (ℝ × ℕ)), (∀ j ∈ js, j ∈ is) → Kept S.cgap S.nmode found e → (∀ p ∈ found, S.Good hi p ∧ p.2 ∈ is) →
      ∃ e' found' N, (∀ n ≥ N, S.singleFreq cb cpred n js e found = some (e', found')) ∧ Kept S.cgap S.nmode found' e' ∧
        ∀ p ∈ found', S.Good hi p ∧ p.2 ∈ is := by
    intro js
    induction js with
    | nil => intro e found _ hk hgood; exact ⟨e, found, 0, fun _ _ => rfl, hk, hgood⟩
    | cons j js ih =>
      intro e found hj hk hgood
      obtain ⟨early, s', ⟨N, hN⟩, k', -, g', -⟩ := C72_adaptive S hg j (cb j) cpred hs lo hi hlo hhi (hcb j) e found hk
      obtain ⟨e', found', N', hN', k'', g''⟩ := ih s'.eig s'.found (fun x hx => hj x (List.mem_cons_of_mem _ hx)) k' (fun p hp => by
        rcases g' p hp with q | ⟨q1, q2⟩
        · exact hgood p q
        · exact ⟨q1, q2 ▸ hj j (by simp)⟩)
      refine ⟨e', found', max N N', ?_, k'', g''⟩
      intro n hn
      simp only [Cfg.singleFreq, hN n ((le_max_left _ _).trans hn)]
      exact hN' n ((le_max_right _ _).trans hn)
  obtain ⟨e, found, N, h1, h2, h3⟩ := main is ⟨[], []⟩ [] (fun _ h => h) ⟨rfl, by simp, by simp, by simp, by simp, by simp⟩ (by simp)
  exact ⟨e, found, N, h1, h2, fun p hp => h3 p (h2.from_found p hp)⟩

/-- A case of `C73_sampling`: a crust over a half-space, Rayleigh waves at 2 Hz. -/
example : ∃ l N, (∀ n ≥ N, cpredOf (approxRoots [⟨6, 7 / 2, 30, false⟩] true 2) (31 / 10) (22 / 5) n = some l) ∧ l.Pairwise (· < ·) := by
  obtain ⟨l, N, h1, h2⟩ := C73_sampling [⟨6, 7 / 2, 30, false⟩] (by simp) true 2 (by norm_num) (31 / 10) (22 / 5) (by norm_num) (by norm_num)
  exact ⟨l, N, h1, h2.sorted⟩

example : addEstimates [3, 1] [2, 4] = some [1, 2, 3, 4] := by
  obtain ⟨r, e, s, p⟩ := C73_estimates [3, 1] [2, 4] (by norm_num)
  have h : ([1, 2, 3, 4] : List ℝ).Perm ([3, 1] ++ [2, 4]) := by
    have : ([1, 2, 3, 4] : List ℝ).Perm (3 :: 1 :: [2, 4]) :=
      (List.perm_middle (l₁ := [1, 2]) (l₂ := [4]) (a := (3 : ℝ)))
    exact this
  rw [e, (p.trans h.symm).eq_of_pairwise (fun a b _ _ => le_antisymm) s (by norm_num)]

end GRT.Modal
