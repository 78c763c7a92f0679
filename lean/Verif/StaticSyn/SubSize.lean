import Verif.StaticSyn.Pick
import Mathlib.Data.Real.Sqrt

/-!
The size of the parts of a fault when `+i<dL>/<dW>` is left out: `grt_stgrnlib_default_subfault_size`.
-/

set_option linter.unusedSectionVars false

namespace GRT.StaticSyn.SubSize

variable {α : Type*} [Field α] [LinearOrder α] [IsStrictOrderedRing α]

/-- The differences of neighbouring entries, `a[i + 1] - a[i]` for `i + 1 < n`. [pygrt/C_extension/src/static/stgrnlib.c:221-222, 227-228] -/
def gaps : List α → List α
  | a :: b :: l => (b - a) :: gaps (b :: l)
  | _ => []

/-- The loop over the differences: `if(d > atol && (dr < 0.0 || d < dr)) dr = d;`, from `dr`. [stgrnlib.c:223, 229] -/
def smallest (dr : α) : List α → α
  | [] => dr
  | d :: l => smallest (if 1e-8 < d ∧ (dr < 0 ∨ d < dr) then d else dr) l

/-- `grt_stgrnlib_default_subfault_size`, given the sorted epicentral distances and the source depths; `none`: the error "Cannot infer default subfault size".
Exact numbers. [stgrnlib.c:209-240] -/
def defaultSize (rs ds : List α) : Option α :=
  let dr := smallest (-1) (gaps rs)
  let dz := smallest (-1) ((gaps ds).map abs)
  if dr < 0 ∧ dz < 0 then none
  else if dr < 0 then some dz
  else if dz < 0 then some dr
  else some (min dr dz)

/-! ### Specification -/

/-- `s` is the difference of the entries `i` and `i + 1`. -/
def Step (l : List α) (s : α) : Prop := ∃ (i : ℕ) (h : i + 1 < l.length), l[i + 1] - l[i] = s

/-- Two different entries of the list are `s` or more apart, where entries are the same if they differ by no more than 1e-8 for every place between them. -/
def Apart (l : List α) (s : α) : Prop :=
  ∀ (i j : ℕ) (_ : i < j) (hj : j < l.length), l[j] - l[i] ≤ ((j : α) - i) * 1e-8 ∨ s ≤ l[j] - l[i]

/-- `s` is the finest sampling of the distances and the depths. -/
structure Finest (rs ds : List α) (s : α) : Prop where
  pos : 1e-8 < s
  step : Step rs s ∨ Step ds s
  rs : Apart rs s
  ds : Apart ds s

/-! ### Proofs -/

theorem gaps_length (l : List α) : (gaps l).length = l.length - 1 := by
  induction l with
  | nil => rfl
  | cons a l ih => cases l with
    | nil => rfl
    | cons b l => simp [gaps, ih]

theorem gaps_get (l : List α) (i : ℕ) (h : i + 1 < l.length) : (gaps l)[i]'(by rw [gaps_length]; omega) = l[i + 1] - l[i] := by
  induction l generalizing i with
  | nil => simp at h
  | cons a l ih => cases l with
    | nil => simp at h
    | cons b l => cases i with
      | zero => rfl
      | succ i =>
        simp only [gaps, List.getElem_cons_succ]
        exact ih i (by simpa using h)

theorem mem_gaps {l : List α} {s : α} : s ∈ gaps l ↔ Step l s := by
  rw [List.mem_iff_getElem]
  constructor
  · rintro ⟨i, hi, rfl⟩
    rw [gaps_length] at hi
    exact ⟨i, by omega, (gaps_get l i (by omega)).symm⟩
  · rintro ⟨i, hi, rfl⟩
    exact ⟨i, by rw [gaps_length]; omega, gaps_get l i hi⟩

theorem smallest_spec (l : List α) (d : α) (hd : d < 0 ∨ 1e-8 < d) :
    (smallest d l < 0 ∧ d < 0 ∧ ∀ x ∈ l, x ≤ 1e-8) ∨
    (1e-8 < smallest d l ∧ (smallest d l ∈ l ∨ smallest d l = d) ∧ (∀ x ∈ l, x ≤ 1e-8 ∨ smallest d l ≤ x) ∧ (d < 0 ∨ smallest d l ≤ d)) := by
  induction l generalizing d with
  | nil => rcases hd with h | h
           · exact .inl ⟨h, h, by simp⟩
           · exact .inr ⟨h, .inr rfl, by simp, .inr le_rfl⟩
  | cons x l ih =>
    have e0 : (0 : α) < 1e-8 := by norm_num
    unfold smallest
    split_ifs with c
    · rcases ih x (.inr c.1) with ⟨-, h, -⟩ | ⟨h1, h2, h3, h4⟩
      · exact absurd (h.trans (e0.trans c.1)) (lt_irrefl _)
      · have h4' : smallest x l ≤ x := h4.resolve_left (fun h => absurd (h.trans (e0.trans c.1)) (lt_irrefl _))
        refine .inr ⟨h1, ?_, ?_, ?_⟩
        · rcases h2 with h | h
          · exact .inl (List.mem_cons_of_mem _ h)
          · exact .inl (by rw [h]; exact List.mem_cons_self)
        · intro y hy
          rcases List.mem_cons.1 hy with rfl | hy
          · exact .inr h4'
          · exact h3 y hy
        · exact c.2.imp id fun h => h4'.trans h.le
    · rw [not_and_or, not_or, not_lt, not_lt, not_lt] at c
      rcases ih d hd with ⟨h1, h2, h3⟩ | ⟨h1, h2, h3, h4⟩
      · refine .inl ⟨h1, h2, ?_⟩
        intro y hy
        rcases List.mem_cons.1 hy with rfl | hy
        · exact c.resolve_right fun h => absurd (h2.trans_le h.1) (lt_irrefl _)
        · exact h3 y hy
      · refine .inr ⟨h1, h2.imp (List.mem_cons_of_mem _) id, ?_, h4⟩
        intro y hy
        rcases List.mem_cons.1 hy with rfl | hy
        · exact c.imp id fun h => (h4.resolve_left (not_lt.2 h.1)).trans h.2
        · exact h3 y hy

/-- From neighbours to all pairs of a sorted list. -/
theorem apart_of_gaps {l : List α} (hs : l.Pairwise (· ≤ ·)) {s : α} (h : ∀ x, Step l x → x ≤ 1e-8 ∨ s ≤ x) : Apart l s := by
  have mono : ∀ (i j : ℕ) (_ : i ≤ j) (hj : j < l.length), l[i] ≤ l[j] := by
    intro i j hij hj
    rcases hij.lt_or_eq with c | rfl
    · exact List.pairwise_iff_getElem.1 hs i j (by omega) hj c
    · exact le_rfl
  intro i j hij
  induction j, hij using Nat.le_induction with
  | base =>
    intro hj
    rcases h _ ⟨i, hj, rfl⟩ with c | c
    · left; push_cast; linarith
    · exact .inr c
  | succ j hij ih =>
    intro hj
    rcases h _ ⟨j, hj, rfl⟩ with c | c
    · rcases ih (by omega) with d | d
      · left; push_cast at d ⊢; linarith
      · right; linarith [mono j (j + 1) (by omega) hj]
    · right; linarith [mono i j (by omega) (by omega)]

theorem apart_gap {l : List α} {s : α} (h : Apart l s) {x : α} (hx : Step l x) : x ≤ 1e-8 ∨ s ≤ x := by
  obtain ⟨i, hi, rfl⟩ := hx
  have := h i (i + 1) (by omega) hi
  push_cast at this
  rwa [add_sub_cancel_left, one_mul] at this

/-- There is one finest sampling at most. -/
theorem Finest.unique {rs ds : List α} {s t : α} (h : Finest rs ds s) (k : Finest rs ds t) : s = t := by
  apply le_antisymm
  · rcases k.step with c | c
    · exact (apart_gap h.rs c).resolve_left (not_le.2 k.pos)
    · exact (apart_gap h.ds c).resolve_left (not_le.2 k.pos)
  · rcases h.step with c | c
    · exact (apart_gap k.rs c).resolve_left (not_le.2 h.pos)
    · exact (apart_gap k.ds c).resolve_left (not_le.2 h.pos)

theorem sorted_step {l : List α} (hs : l.Pairwise (· ≤ ·)) {x : α} (hx : Step l x) : 0 ≤ x := by
  obtain ⟨i, hi, rfl⟩ := hx
  exact sub_nonneg.2 (List.pairwise_iff_getElem.1 hs i (i + 1) (by omega) hi (by omega))

theorem abs_gaps {l : List α} (hs : l.Pairwise (· ≤ ·)) : (gaps l).map abs = gaps l := by
  conv_rhs => rw [← List.map_id (gaps l)]
  exact List.map_congr_left fun x hx => abs_of_nonneg (sorted_step hs (mem_gaps.1 hx))

theorem size_spec {rs ds : List α} (hr : rs.Pairwise (· ≤ ·)) (hd : ds.Pairwise (· ≤ ·)) :
    (defaultSize rs ds = none ∧ (∀ x, Step rs x → x ≤ 1e-8) ∧ ∀ x, Step ds x → x ≤ 1e-8) ∨ ∃ s, defaultSize rs ds = some s ∧ Finest rs ds s := by
  have n1 : (-1 : α) < 0 := by norm_num
  have e0 : (0 : α) < 1e-8 := by norm_num
  have m1 : ∀ {l : List α} {s : α}, (s ∈ l ∨ s = -1) → 1e-8 < s → s ∈ l := fun h hs => h.resolve_right fun e => by
    rw [e] at hs; exact absurd (hs.trans n1) (not_lt.2 e0.le)
  have A := smallest_spec (gaps rs) (-1) (.inl n1)
  have B := smallest_spec (gaps ds) (-1) (.inl n1)
  unfold defaultSize
  rw [abs_gaps hd]
  dsimp only
  generalize smallest (-1) (gaps rs) = a at *
  generalize smallest (-1) (gaps ds) = b at *
  rcases A with ⟨a1, -, a3⟩ | ⟨a1, a2, a3, -⟩ <;> rcases B with ⟨b1, -, b3⟩ | ⟨b1, b2, b3, -⟩
  · left
    rw [if_pos ⟨a1, b1⟩]
    exact ⟨rfl, fun x hx => a3 x (mem_gaps.2 hx), fun x hx => b3 x (mem_gaps.2 hx)⟩
  · right
    have b0 := not_lt.2 (e0.trans b1).le
    rw [if_neg (fun h => b0 h.2), if_pos a1]
    exact ⟨b, rfl, b1, .inr (mem_gaps.1 (m1 b2 b1)), apart_of_gaps hr fun x hx => .inl (a3 x (mem_gaps.2 hx)), apart_of_gaps hd fun x hx => b3 x (mem_gaps.2 hx)⟩
  · right
    have a0 := not_lt.2 (e0.trans a1).le
    rw [if_neg (fun h => a0 h.1), if_neg a0, if_pos b1]
    exact ⟨a, rfl, a1, .inl (mem_gaps.1 (m1 a2 a1)), apart_of_gaps hr fun x hx => a3 x (mem_gaps.2 hx), apart_of_gaps hd fun x hx => .inl (b3 x (mem_gaps.2 hx))⟩
  · right
    have a0 := not_lt.2 (e0.trans a1).le
    have b0 := not_lt.2 (e0.trans b1).le
    rw [if_neg (fun h => a0 h.1), if_neg a0, if_neg b0]
    refine ⟨min a b, rfl, lt_min a1 b1, ?_, apart_of_gaps hr fun x hx => (a3 x (mem_gaps.2 hx)).imp id (min_le_left a b).trans,
      apart_of_gaps hd fun x hx => (b3 x (mem_gaps.2 hx)).imp id (min_le_right a b).trans⟩
    rcases min_choice a b with h | h <;> rw [h]
    · exact .inl (mem_gaps.1 (m1 a2 a1))
    · exact .inr (mem_gaps.1 (m1 b2 b1))

/-- C130, the size: for sorted distances and depths it is `s` exactly if `s` is the finest sampling of the library. -/
theorem C130_finest {rs ds : List α} (hr : rs.Pairwise (· ≤ ·)) (hd : ds.Pairwise (· ≤ ·)) (s : α) : defaultSize rs ds = some s ↔ Finest rs ds s := by
  rcases size_spec hr hd with ⟨h, a, b⟩ | ⟨t, h, k⟩
  · rw [h]
    refine ⟨fun h => (by simp at h), fun f => absurd f.pos (not_lt.2 ?_)⟩
    exact f.step.elim (a s) (b s)
  · rw [h]
    refine ⟨fun e => ?_, fun f => ?_⟩
    · cases e; exact k
    · rw [k.unique f]

/-- C130, no size: the error is raised exactly if all distances and all depths are the same up to 1e-8 per place. A library with two source depths more than 1e-8
apart, as finite faults need, never raises it. -/
theorem C130_error {rs ds : List α} (hr : rs.Pairwise (· ≤ ·)) (hd : ds.Pairwise (· ≤ ·)) :
    defaultSize rs ds = none ↔ (∀ x, Step rs x → x ≤ 1e-8) ∧ ∀ x, Step ds x → x ≤ 1e-8 := by
  rcases size_spec hr hd with ⟨h, k⟩ | ⟨s, h, k⟩
  · exact ⟨fun _ => k, fun _ => h⟩
  · rw [h]
    refine ⟨fun h => (by simp at h), fun ⟨a, b⟩ => absurd k.pos (not_lt.2 ?_)⟩
    exact k.step.elim (a s) (b s)

/-- C130, the library of `fill_rs_meta`: the distances are those of the grid, in any order, the depths ascend. Whatever two distances of the grid differ by more than
1e-8 for every one of its points, the size is not above their difference. -/
theorem C130_library [FloorRing α] {rs : List α} {perm : List ℕ} (hp : Search.ArgsortResult rs perm) {ds : List α} (hd : ds.Pairwise (· ≤ ·)) {s : α}
    (h : defaultSize (fillMeta rs perm).rs ds = some s) {x y : α} (hx : x ∈ rs) (hy : y ∈ rs) (hxy : (rs.length : α) * 1e-8 < y - x) : s ≤ y - x := by
  obtain ⟨hlen, hs, hidx, hget⟩ := C26_table rs perm hp
  have mem : ∀ z ∈ rs, z ∈ (fillMeta rs perm).rs := by
    intro z hz
    obtain ⟨k, hk, rfl⟩ := List.mem_iff_getElem.1 hz
    obtain ⟨i, hi, e⟩ := List.mem_iff_getElem.1 (hidx.mem_iff.2 (List.mem_range.2 hk))
    have hi' : i < rs.length := by rw [hidx.length_eq, List.length_range] at hi; exact hi
    obtain ⟨j, h1, h2, h3⟩ := hget i hi'
    rw [List.getElem?_eq_getElem hi, e] at h1
    cases h1
    rw [List.getElem?_eq_getElem hk] at h3
    exact List.mem_of_getElem? h3
  have f := (C130_finest hs hd s).1 h
  generalize (fillMeta rs perm).rs = T at *
  obtain ⟨i, hi, rfl⟩ := List.mem_iff_getElem.1 (mem x hx)
  obtain ⟨j, hj, rfl⟩ := List.mem_iff_getElem.1 (mem y hy)
  have e0 : (0 : α) ≤ 1e-8 := by norm_num
  have hpos : T[i] < T[j] := by
    have : (0 : α) ≤ (rs.length : α) * 1e-8 := mul_nonneg (Nat.cast_nonneg _) e0
    linarith
  have hij : i < j := by
    by_contra c
    rcases (not_lt.1 c).lt_or_eq with c | rfl
    · exact absurd (List.pairwise_iff_getElem.1 hs j i hj hi c) (not_le.2 hpos)
    · exact lt_irrefl _ hpos
  refine (f.rs i j hij hj).resolve_left (not_le.2 (lt_of_le_of_lt ?_ hxy))
  refine mul_le_mul_of_nonneg_right ?_ e0
  rw [← hlen]
  have h1 : (j : α) ≤ T.length := by exact_mod_cast hj.le
  have h2 : (0 : α) ≤ i := Nat.cast_nonneg i
  linarith

/-- C130, what the finest sampling is for a grid: if the points (n h, 0) and (n h, h) belong to it, as in every square grid of step `h` with `n` steps, the parts are not
larger than `h / (2 n)`, far below the step of the grid. -/
theorem C130_grid {rs : List ℝ} {perm : List ℕ} (hp : Search.ArgsortResult rs perm) {ds : List ℝ} (hd : ds.Pairwise (· ≤ ·)) {s : ℝ}
    (h : defaultSize (fillMeta rs perm).rs ds = some s) {st : ℝ} (hst : 0 < st) {n : ℕ} (hn : 0 < n) (h1 : n * st ∈ rs) (h2 : √((n * st) ^ 2 + st ^ 2) ∈ rs)
    (hb : (rs.length : ℝ) * 1e-8 < √((n * st) ^ 2 + st ^ 2) - n * st) : s ≤ st / (2 * n) := by
  refine (C130_library hp hd h h1 h2 hb).trans ?_
  have hn' : (0 : ℝ) < n := by exact_mod_cast hn
  rw [sub_le_iff_le_add, Real.sqrt_le_left (by positivity)]
  have : (st / (2 * n) + n * st) ^ 2 = (n * st) ^ 2 + st ^ 2 + (st / (2 * n)) ^ 2 := by
    field_simp
    ring
  rw [this]
  nlinarith [sq_nonneg (st / (2 * n))]

/-- Distances 0, 1, 1, 1.5 (grid points at the same distance) and depths 2, 4: parts of 0.5. -/
example : defaultSize [0, 1, 1, (3 / 2 : ℚ)] [2, 4] = some (1 / 2) := by decide +kernel

/-- One distance: the depths decide. -/
example : defaultSize [(5 : ℚ)] [2, 4, 5] = some 1 := by decide +kernel

/-- The grid with the points (0, 0), (5, 0), (5, 1): the step is 1, and parts are below 0.1. -/
example (perm : List ℕ) (hp : Search.ArgsortResult [0, 5, √26] perm) (s : ℝ) (h : defaultSize (fillMeta [0, 5, √26] perm).rs [2, 4] = some s) : s ≤ 1 / 10 := by
  have e : √(((5 : ℕ) * (1 : ℝ)) ^ 2 + 1 ^ 2) = √26 := by norm_num
  have := C130_grid hp (ds := [2, 4]) (by norm_num) h (st := 1) one_pos (n := 5) (by norm_num) (by norm_num) (by rw [e]; simp) (by
    rw [e]
    have : (5.05 : ℝ) < √26 := Real.lt_sqrt_of_sq_lt (by norm_num)
    norm_num at *
    linarith)
  norm_num at this ⊢
  exact this

end GRT.StaticSyn.SubSize
