import Verif.StaticSyn.Pick
import Verif.StaticSyn.Fault
import Verif.Search.PropsLocate
import Mathlib.Algebra.BigOperators.Group.Finset.Basic
import Mathlib.Algebra.BigOperators.Ring.Finset
import Mathlib.Algebra.Module.BigOperators
import Mathlib.Algebra.Module.Prod
import Mathlib.Algebra.Module.Pi

/-! Static synthesis at one receiver from a library of Green's functions (`static/grt_static_syn.c` 674-915): the
sum over distances (C60) and the sum over depth corners (C27). -/

set_option linter.unusedSectionVars false

namespace GRT.StaticSyn

open GRT.Layer GRT.Syn GRT.Search Real

/-! ### Model -/

/-- Displacement and its nine derivatives at one receiver. -/
abbrev Vals := (Fin 3 → ℝ) × (Fin 3 → Fin 3 → ℝ)

/-- `+=` of a sequence of terms; a term that is not a value ends it. -/
def accumOut {V : Type*} [Add V] (acc : V) : List (Out V) → Out V
  | [] => .ok acc
  | .ok a :: t => accumOut (acc + a) t
  | .fail :: _ => .fail
  | .undef :: _ => .undef

/-- `u`, `uiz`, `uir` at one tabulated distance. -/
structure GF where
  u : Grid
  uiz : Grid
  uir : Grid

/-- One term of the loop over `j`, grt_static_syn.c 719-733. -/
noncomputable def distTerm (T : Table ℝ) (gf : ℕ → GF) (S : SynSrc) (zne : Bool) (az : ℝ) (p : ℕ × ℝ) : Out Vals :=
  match T.idx[p.1]?, T.rs[p.1]? with
  | some k, some r => .ok (p.2 • synOne S az r (gf k).u (gf k).uiz (gf k).uir zne)
  | _, _ => .undef

/-- `static_syn_from_gf` for one receiver, grt_static_syn.c 683-735, onto cleared output. `gf k` is the Green's function
of the `k`-th distance in grid order. -/
noncomputable def synAt (T : Table ℝ) (gf : ℕ → GF) (S : SynSrc) (zne : Bool) (n e : ℝ) : Out Vals :=
  match pick T (Syn.dist n e) with
  | .skip => .ok 0
  | .undef => .undef
  | .ok l => accumOut 0 (l.map (distTerm T gf S zne (azimuth n e)))

/-- The part of `STGRNLIB` (stgrnlib.h) that synthesis reads. -/
structure Library where
  T : Table ℝ
  depsrcs : List ℝ
  deprcvs : List ℝ
  gf : ℕ → ℕ → ℕ → GF
  va : ℕ → ℝ
  vb : ℕ → ℝ
  rho : ℕ → ℝ

/-- A point source as the caller gives it; `potency`: `scale_by_src_mu`. -/
structure Source where
  ty : SynType
  M0 : ℝ
  potency : Bool
  m : Fin 6 → ℝ

/-- Source at corner `is`, grt_static_syn.c 805-813. -/
noncomputable def Source.at (Q : Source) (L : Library) (is : ℕ) : SynSrc where
  ty := Q.ty
  M0 := if Q.potency then Q.M0 * (L.vb is * L.vb is * L.rho is * 1e10) else Q.M0
  vpvs := if L.vb is = 0 then 0 else L.va is / L.vb is
  m := Q.m

/-- The corners and factors that `static_syn_ps_depth_corners` visits, grt_static_syn.c 790-800. -/
noncomputable def corners (is0 is1 : ℕ) (ws : ℝ) (ir0 ir1 : ℕ) (wr : ℝ) : List (ℕ × ℕ × ℝ) :=
  let A := if is0 = is1 then [(is0, 1 - ws)] else [(is0, 1 - ws), (is1, ws)]
  let B := if ir0 = ir1 then [(ir0, 1 - wr)] else [(ir0, 1 - wr), (ir1, wr)]
  (A.flatMap fun a => B.map fun b => (a.1, b.1, a.2 * b.2)).filter fun c => decide (¬ |c.2.2| < 1e-15)

/-- Multiplication of a value by a factor. -/
def scaleOut (c : ℝ) : Out Vals → Out Vals
  | .ok v => .ok (c • v)
  | .fail => .fail
  | .undef => .undef

/-- `static_syn_from_gf_PS` with `static_syn_ps_depth_corners` for one receiver, grt_static_syn.c 767-915, onto cleared
output. `fail`: "out of Green's function … range". (In the grid mode the receiver depth is that of the first point, which
all points share.) -/
noncomputable def psPoint (L : Library) (Q : Source) (zne : Bool) (depsrc n e z : ℝ) : Out Vals :=
  match locate L.depsrcs (.num depsrc) with
  | .ok is0 is1 ws =>
    match locate L.deprcvs (.num z) with
    | .ok ir0 ir1 wr =>
      accumOut 0 ((corners is0 is1 ws ir0 ir1 wr).map fun c =>
        scaleOut c.2.2 (synAt L.T (L.gf c.1 c.2.1) (Q.at L c.1) zne n e))
    | .refuse => .fail
    | _ => .undef
  | .refuse => .fail
  | _ => .undef

/-! ### C27 -/

/-- Weights of linear interpolation at `q` on the axis `x`. -/
structure AxisWeights (x : List ℝ) (q : ℝ) (w : ℕ → ℝ) : Prop where
  /-- at most two neighbouring entries are used -/
  support : ∃ i j a b, x[i]? = some a ∧ x[j]? = some b ∧ (j = i ∨ j = i + 1) ∧ (∀ k, k ≠ i → k ≠ j → w k = 0) ∧
    0 ≤ w j ∧ - 1e-8 ≤ w i * (b - a) ∧ (i = j → w i = 1)
  sum : ∑ k ∈ Finset.range x.length, w k = 1
  /-- reproduces the query within the slack -/
  near : |∑ k ∈ Finset.range x.length, w k * x[k]?.getD 0 - q| ≤ 2e-8
  /-- and exactly inside the axis, unless entries nearly coincide -/
  exact : (∀ u v, (∃ i : ℕ, x[i]? = some u ∧ x[i + 1]? = some v) → (1e-8 : ℝ) ≤ v - u) → (∃ u ∈ x, u ≤ q) → (∃ u ∈ x, q ≤ u) →
    ∑ k ∈ Finset.range x.length, w k * x[k]?.getD 0 = q

/-- The weights that a lookup answer stands for. -/
def wOf (i0 i1 : ℕ) (w : ℝ) (k : ℕ) : ℝ := (if k = i0 then 1 - w else 0) + (if k = i1 then w else 0)

theorem wOf_sum {M : Type*} [AddCommGroup M] [Module ℝ M] (n i0 i1 : ℕ) (w : ℝ) (h0 : i0 < n) (h1 : i1 < n) (f : ℕ → M) :
    ∑ k ∈ Finset.range n, wOf i0 i1 w k • f k = (1 - w) • f i0 + w • f i1 := by
  simp [wOf, add_smul, Finset.sum_add_distrib, ite_smul, h0, h1]

/-- More about the answer of the lookup than C01 says: equal indices come with weight zero, and the query is at most the
slack above the upper entry. -/
theorem locate_more (x : List ℝ) (hs : x.Pairwise (· ≤ ·)) (q : ℝ) (i0 i1 : ℕ) (w : ℝ) (h : locate x (.num q) = .ok i0 i1 w) :
    (i0 = i1 ∧ w = 0) ∨ (i1 = i0 + 1 ∧ ∃ a b, x[i0]? = some a ∧ x[i1]? = some b ∧ - atol ≤ (1 - w) * (b - a)) := by
  have hat : (0 : ℝ) < atol := atol_pos
  match x, hs with
  | [], _ => simp [locate] at h
  | [a], _ =>
    simp only [locate] at h
    split at h
    · simp at h
    · cases h; left; simp
  | a :: b :: t, hs =>
    simp only [locate] at h
    split at h
    · cases h
    · split at h
      · cases h; left; simp
      · split at h
        · cases h; left; simp
        · rename_i h1 h2 h3
          simp only [FP.le] at h2 h3
          obtain ⟨u, v, e1, e2, e3, e4⟩ := locScan_spec q a (b :: t) (not_le.1 h2) ⟨(b :: t).getLast (by simp), by
            rw [List.getLast?_eq_getLast_of_ne_nil (by simp)]; simp, not_le.1 h3⟩
          have huv : u ≤ v := by
            obtain ⟨k1, k2⟩ := List.getElem?_eq_some_iff.1 e1
            obtain ⟨k3, k4⟩ := List.getElem?_eq_some_iff.1 e2
            have := List.pairwise_iff_getElem.1 hs _ _ k1 k3 (by omega)
            rw [k2, k4] at this; exact this
          simp only [locFinish, e1, e2] at h
          right
          split at h
          · cases h
            refine ⟨rfl, u, v, e1, e2, ?_⟩
            rw [sub_zero, one_mul]; linarith
          · rename_i hdx
            cases h
            refine ⟨rfl, u, v, e1, e2, ?_⟩
            have hne : v - u ≠ 0 := by
              intro h0; rw [h0] at hdx; exact hdx (by simpa using hat)
            have : (1 - (q - u) / (v - u)) * (v - u) = v - q := by field_simp; ring
            rw [this]; linarith

theorem locate_weights (x : List ℝ) (hs : x.Pairwise (· ≤ ·)) (q : ℝ) (i0 i1 : ℕ) (w : ℝ) (h : locate x (.num q) = .ok i0 i1 w) :
    AxisWeights x q (wOf i0 i1 w) ∧ i0 < x.length ∧ i1 < x.length := by
  have hg := C01_locate_correct x hs q
  rw [h] at hg
  obtain ⟨a, b, ha, hb, h1, h2, h3, h4, h5, h6⟩ := hg
  have hi0 := (List.getElem?_eq_some_iff.1 ha).1
  have hi1 := (List.getElem?_eq_some_iff.1 hb).1
  have hm := locate_more x hs q i0 i1 w h
  have hat : (atol : ℝ) = 1e-8 := by unfold atol; norm_num
  have hsum : ∀ f : ℕ → ℝ, ∑ k ∈ Finset.range x.length, wOf i0 i1 w k * f k = (1 - w) * f i0 + w * f i1 :=
    fun f => wOf_sum x.length i0 i1 w hi0 hi1 f
  refine ⟨⟨?_, ?_, ?_, ?_⟩, hi0, hi1⟩
  · refine ⟨i0, i1, a, b, ha, hb, by omega, ?_, ?_, ?_, ?_⟩
    · intro k k1 k2; simp [wOf, k1, k2]
    · rcases hm with ⟨m1, m2⟩ | ⟨m1, m2⟩
      · subst m1; simp [wOf, m2]
      · have : i1 ≠ i0 := by omega
        simp [wOf, this, h3]
    · rcases hm with ⟨m1, m2⟩ | ⟨m1, a', b', m2, m3, m4⟩
      · subst m1; rw [ha] at hb; cases hb; simp; norm_num
      · rw [ha] at m2; rw [hb] at m3; cases m2; cases m3
        have : i0 ≠ i1 := by omega
        simp only [wOf, this, if_true, if_false, add_zero]
        rw [← hat]; exact m4
    · rintro rfl; simp [wOf]
  · have := hsum (fun _ => 1)
    simp only [mul_one] at this
    rw [this]; ring
  · rw [hsum, ha, hb]
    simp only [Option.getD_some]
    calc _ ≤ 2 * atol := h5
      _ = 2e-8 := by rw [hat]; norm_num
  · intro k1 k2 k3
    rw [hsum, ha, hb]
    simp only [Option.getD_some]
    exact h6 (by rw [hat]; exact k1) k2 k3

theorem accumOut_ok {V : Type*} [AddCommMonoid V] (l : List V) (acc : V) : accumOut acc (l.map .ok) = .ok (acc + l.sum) := by
  induction l generalizing acc with
  | nil => simp [accumOut]
  | cons a t ih => simp [accumOut, ih, add_assoc]

/-- Full tensor grid of two weight families against the visited corners. -/
theorem corners_sum (ns nr is0 is1 ir0 ir1 : ℕ) (ws wr : ℝ) (hs : (is0 = is1 ∧ ws = 0) ∨ is0 ≠ is1) (hr : (ir0 = ir1 ∧ wr = 0) ∨ ir0 ≠ ir1)
    (h0 : is0 < ns) (h1 : is1 < ns) (h2 : ir0 < nr) (h3 : ir1 < nr) :
    ∃ δ : ℕ → ℕ → ℝ, (∀ i j, δ i j = 0 ∨ (δ i j = wOf is0 is1 ws i * wOf ir0 ir1 wr j ∧ |δ i j| < 1e-15)) ∧
      ∀ R : ℕ → ℕ → Vals, ((corners is0 is1 ws ir0 ir1 wr).map fun c => c.2.2 • R c.1 c.2.1).sum
        = ∑ i ∈ Finset.range ns, ∑ j ∈ Finset.range nr, (wOf is0 is1 ws i * wOf ir0 ir1 wr j - δ i j) • R i j := by
  classical
  refine ⟨fun i j => if |wOf is0 is1 ws i * wOf ir0 ir1 wr j| < 1e-15 then wOf is0 is1 ws i * wOf ir0 ir1 wr j else 0, ?_, ?_⟩
  · intro i j
    dsimp only
    split
    · right; exact ⟨rfl, by assumption⟩
    · left; rfl
  · intro R
    set c : ℝ → ℝ := fun x => if |x| < 1e-15 then 0 else x with hc
    have e1 : ∀ x : ℝ, x - (if |x| < 1e-15 then x else 0) = c x := by
      intro x; simp only [hc]; split <;> simp
    simp only [e1]
    have hf : ∀ l : List (ℕ × ℕ × ℝ), ((l.filter fun p => decide (¬ |p.2.2| < 1e-15)).map fun p => p.2.2 • R p.1 p.2.1).sum
        = (l.map fun p => c p.2.2 • R p.1 p.2.1).sum := by
      intro l
      induction l with
      | nil => simp
      | cons p t ih =>
        rw [List.filter_cons]
        by_cases hp : |p.2.2| < 1e-15
        · simp only [hp, not_true_eq_false, decide_false, Bool.false_eq_true, if_false, List.map_cons, List.sum_cons, ih, hc, if_true, zero_smul,
            zero_add]
        · simp only [hp, not_false_eq_true, decide_true, if_true, List.map_cons, List.sum_cons, ih, hc, if_false]
    have h00 : c 0 = 0 := by simp [hc]
    have hw : ∀ (i0 i1 : ℕ) (w : ℝ) (k : ℕ), k ≠ i0 → k ≠ i1 → wOf i0 i1 w k = 0 := by
      intro i0 i1 w k a b; simp [wOf, a, b]
    have hsel : ∀ (n i0 i1 : ℕ) (w : ℝ) (f : ℕ → ℝ → Vals), ((i0 = i1 ∧ w = 0) ∨ i0 ≠ i1) → i0 < n → i1 < n → (∀ k, f k 0 = 0) →
        ∑ k ∈ Finset.range n, f k (wOf i0 i1 w k)
          = ((if i0 = i1 then [(i0, 1 - w)] else [(i0, 1 - w), (i1, w)]).map fun p => f p.1 p.2).sum := by
      intro n i0 i1 w f hh hi0 hi1 hz
      rcases hh with ⟨rfl, rfl⟩ | hne
      · rw [Finset.sum_eq_single i0]
        · simp [wOf]
        · intro b _ hb; rw [hw _ _ _ _ hb hb, hz]
        · intro hb; exact absurd (Finset.mem_range.2 hi0) hb
      · rw [if_neg hne, ← Finset.sum_subset (s₁ := {i0, i1})]
        · rw [Finset.sum_pair hne]
          have : i1 ≠ i0 := Ne.symm hne
          simp [wOf, hne, this]
        · intro k hk
          simp at hk
          rcases hk with rfl | rfl <;> simpa
        · intro k _ hk
          simp at hk
          rw [hw _ _ _ _ hk.1 hk.2, hz]
    have hin : ∀ x i, ∑ j ∈ Finset.range nr, c (x * wOf ir0 ir1 wr j) • R i j
        = ((if ir0 = ir1 then [(ir0, 1 - wr)] else [(ir0, 1 - wr), (ir1, wr)]).map fun p => c (x * p.2) • R i p.1).sum := by
      intro x i
      exact hsel nr ir0 ir1 wr (fun k y => c (x * y) • R i k) hr h2 h3 (by intro k; simp [h00])
    simp only [hin]
    rw [hsel ns is0 is1 ws (fun k y => ((if ir0 = ir1 then [(ir0, 1 - wr)] else [(ir0, 1 - wr), (ir1, wr)]).map fun p => c (y * p.2) • R k p.1).sum)
      hs h0 h1 (by intro k; simp [h00])]
    rw [corners, hf]
    simp only [List.map_flatMap, List.map_map, Function.comp_def]
    generalize (if ir0 = ir1 then [(ir0, 1 - wr)] else [(ir0, 1 - wr), (ir1, wr)]) = B
    generalize (if is0 = is1 then [(is0, 1 - ws)] else [(is0, 1 - ws), (is1, ws)]) = A
    induction A with
    | nil => simp
    | cons a t ih => simp [List.flatMap_cons, ih]

/-- C27: on ascending depth axes the point-source result is the tensor-product interpolation of the results at the
tabulated depths. The weights along each axis are those of linear interpolation; corners with a factor below 1e-15 are left
out (`δ`). Refused depths lie outside an axis by more than the slack. -/
theorem C27_interpolation (L : Library) (Q : Source) (zne : Bool) (depsrc n e z : ℝ)
    (hs : L.depsrcs.Pairwise (· ≤ ·)) (hr : L.deprcvs.Pairwise (· ≤ ·)) (R : ℕ → ℕ → Vals)
    (hR : ∀ i < L.depsrcs.length, ∀ j < L.deprcvs.length, synAt L.T (L.gf i j) (Q.at L i) zne n e = .ok (R i j)) :
    match psPoint L Q zne depsrc n e z with
    | .ok v => ∃ (ws wr : ℕ → ℝ) (δ : ℕ → ℕ → ℝ), AxisWeights L.depsrcs depsrc ws ∧ AxisWeights L.deprcvs z wr ∧
        (∀ i j, δ i j = 0 ∨ (δ i j = ws i * wr j ∧ |δ i j| < 1e-15)) ∧
        v = ∑ i ∈ Finset.range L.depsrcs.length, ∑ j ∈ Finset.range L.deprcvs.length, (ws i * wr j - δ i j) • R i j
    | .fail => (∀ u ∈ L.depsrcs, depsrc < u - 1e-8) ∨ (∀ u ∈ L.depsrcs, u + 1e-8 < depsrc) ∨
        (∀ u ∈ L.deprcvs, z < u - 1e-8) ∨ (∀ u ∈ L.deprcvs, u + 1e-8 < z)
    | .undef => False := by
  have hat : (atol : ℝ) = 1e-8 := by unfold atol; norm_num
  have gs := C01_locate_correct L.depsrcs hs depsrc
  have gr := C01_locate_correct L.deprcvs hr z
  unfold psPoint
  rcases hls : locate L.depsrcs (.num depsrc) with _ | ⟨is0, is1, ws⟩ | _ | _
  · rw [hls, hat] at gs
    dsimp only at gs ⊢
    rcases gs with h | h | h
    · left; rw [h]; simp
    · exact Or.inl h
    · exact Or.inr (Or.inl h)
  · rcases hlr : locate L.deprcvs (.num z) with _ | ⟨ir0, ir1, wr⟩ | _ | _
    · rw [hlr, hat] at gr
      dsimp only at gr ⊢
      rcases gr with h | h | h
      · right; right; left; rw [h]; simp
      · exact Or.inr (Or.inr (Or.inl h))
      · exact Or.inr (Or.inr (Or.inr h))
    · obtain ⟨w1, i1, i2⟩ := locate_weights _ hs _ _ _ _ hls
      obtain ⟨w2, i3, i4⟩ := locate_weights _ hr _ _ _ _ hlr
      have m1 := locate_more _ hs _ _ _ _ hls
      have m2 := locate_more _ hr _ _ _ _ hlr
      obtain ⟨δ, d1, d2⟩ := corners_sum L.depsrcs.length L.deprcvs.length is0 is1 ir0 ir1 ws wr
        (by rcases m1 with h | h; exact Or.inl h; exact Or.inr (by omega)) (by rcases m2 with h | h; exact Or.inl h; exact Or.inr (by omega))
        i1 i2 i3 i4
      have hmem : ∀ c ∈ corners is0 is1 ws ir0 ir1 wr, c.1 < L.depsrcs.length ∧ c.2.1 < L.deprcvs.length := by
        intro c hc
        simp only [corners] at hc
        have hc := List.mem_of_mem_filter hc
        rw [List.mem_flatMap] at hc
        obtain ⟨a, ha, hc⟩ := hc
        rw [List.mem_map] at hc
        obtain ⟨b, hb, rfl⟩ := hc
        constructor
        · split at ha <;> simp at ha
          · rw [ha]; exact i1
          · rcases ha with ha | ha <;> rw [ha] <;> assumption
        · split at hb <;> simp at hb
          · rw [hb]; exact i3
          · rcases hb with hb | hb <;> rw [hb] <;> assumption
      have hmap : (corners is0 is1 ws ir0 ir1 wr).map (fun c => scaleOut c.2.2 (synAt L.T (L.gf c.1 c.2.1) (Q.at L c.1) zne n e))
          = ((corners is0 is1 ws ir0 ir1 wr).map fun c => c.2.2 • R c.1 c.2.1).map .ok := by
        rw [List.map_map]
        apply List.map_congr_left
        intro c hc
        obtain ⟨k1, k2⟩ := hmem c hc
        simp [hR _ k1 _ k2, scaleOut]
      simp only [hmap, accumOut_ok, zero_add]
      exact ⟨_, _, δ, w1, w2, d1, d2 R⟩
    · rw [hlr] at gr; exact gr
    · rw [hlr] at gr; exact gr
  · rw [hls] at gs; exact gs
  · rw [hls] at gs; exact gs

/-- C27, bilinear data: if the results at the tabulated depths are a bilinear function of the depths, the result inside
separated axes is that function at the query, up to the left-out corners. -/
theorem C27_bilinear (L : Library) (Q : Source) (zne : Bool) (depsrc n e z : ℝ)
    (hs : L.depsrcs.Pairwise (fun u v => u + 1e-8 ≤ v)) (hr : L.deprcvs.Pairwise (fun u v => u + 1e-8 ≤ v)) (A B C D : Vals)
    (hR : ∀ i zs, L.depsrcs[i]? = some zs → ∀ j zr, L.deprcvs[j]? = some zr →
      synAt L.T (L.gf i j) (Q.at L i) zne n e = .ok (A + zs • B + zr • C + (zs * zr) • D))
    (q1 : ∃ u ∈ L.depsrcs, u ≤ depsrc) (q2 : ∃ u ∈ L.depsrcs, depsrc ≤ u) (q3 : ∃ u ∈ L.deprcvs, u ≤ z) (q4 : ∃ u ∈ L.deprcvs, z ≤ u) :
    ∃ δ : ℕ → ℕ → ℝ, (∀ i j, |δ i j| < 1e-15) ∧
      psPoint L Q zne depsrc n e z = .ok (A + depsrc • B + z • C + (depsrc * z) • D
        - ∑ i ∈ Finset.range L.depsrcs.length, ∑ j ∈ Finset.range L.deprcvs.length,
          δ i j • (A + L.depsrcs[i]?.getD 0 • B + L.deprcvs[j]?.getD 0 • C + (L.depsrcs[i]?.getD 0 * L.deprcvs[j]?.getD 0) • D)) := by
  have hs' : L.depsrcs.Pairwise (· ≤ ·) := hs.imp (by intro a b h; norm_num at h; linarith)
  have hr' : L.deprcvs.Pairwise (· ≤ ·) := hr.imp (by intro a b h; norm_num at h; linarith)
  have sep : ∀ x : List ℝ, x.Pairwise (fun u v => u + 1e-8 ≤ v) →
      ∀ u v, (∃ i : ℕ, x[i]? = some u ∧ x[i + 1]? = some v) → (1e-8 : ℝ) ≤ v - u := by
    rintro x hx u v ⟨i, h1, h2⟩
    obtain ⟨k1, k2⟩ := List.getElem?_eq_some_iff.1 h1
    obtain ⟨k3, k4⟩ := List.getElem?_eq_some_iff.1 h2
    have := List.pairwise_iff_getElem.1 hx _ _ k1 k3 (by omega)
    rw [k2, k4] at this; linarith
  set xs : ℕ → ℝ := fun i => L.depsrcs[i]?.getD 0 with hxs
  set xr : ℕ → ℝ := fun j => L.deprcvs[j]?.getD 0 with hxr
  have hk := C27_interpolation L Q zne depsrc n e z hs' hr' (fun i j => A + xs i • B + xr j • C + (xs i * xr j) • D) (by
    intro i hi j hj
    have a1 := List.getElem?_eq_getElem hi
    have a2 := List.getElem?_eq_getElem hj
    rw [hR i _ a1 j _ a2]
    simp [hxs, hxr, a1, a2])
  rcases hp : psPoint L Q zne depsrc n e z with _ | _ | v
  · rw [hp] at hk
    dsimp only at hk
    obtain ⟨u1, m1, l1⟩ := q1; obtain ⟨u2, m2, l2⟩ := q2; obtain ⟨u3, m3, l3⟩ := q3; obtain ⟨u4, m4, l4⟩ := q4
    norm_num at hk
    rcases hk with h | h | h | h
    · have := h u1 m1; linarith
    · have := h u2 m2; linarith
    · have := h u3 m3; linarith
    · have := h u4 m4; linarith
  · rw [hp] at hk; exact hk.elim
  · rw [hp] at hk
    obtain ⟨ws, wr, δ, w1, w2, d1, hv⟩ := hk
    refine ⟨δ, ?_, ?_⟩
    · intro i j
      rcases d1 i j with h | h
      · rw [h]; norm_num
      · exact h.2
    · rw [hv]
      have e1 := w1.sum; have e2 := w2.sum
      have e3 := w1.exact (sep _ hs) q1 q2
      have e4 := w2.exact (sep _ hr) q3 q4
      simp only [sub_smul, Finset.sum_sub_distrib]
      congr 2
      have key : ∀ i j, (ws i * wr j) • (A + xs i • B + xr j • C + (xs i * xr j) • D)
          = (ws i * wr j) • A + (ws i * xs i * wr j) • B + (ws i * (wr j * xr j)) • C + ((ws i * xs i) * (wr j * xr j)) • D := by
        intro i j
        module
      simp only [key, Finset.sum_add_distrib, ← Finset.sum_smul, ← Finset.mul_sum, ← Finset.sum_mul, ← Finset.sum_smul]
      rw [e1, e2, e3, e4]
      simp [mul_comm]

end GRT.StaticSyn
