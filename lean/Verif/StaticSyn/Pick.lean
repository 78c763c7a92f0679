import Verif.Search.PropsInsert
import Mathlib.Algebra.Order.Floor.Semiring
import Mathlib.Algebra.Order.Floor.Ring
import Mathlib.Data.Rat.Floor
import Mathlib.Tactic.FieldSimp
import Mathlib.Tactic.Positivity
import Mathlib.Analysis.SpecialFunctions.Sqrt

/-! The distance table of a static library (`fill_rs_meta`, `static/stgrnlib.c` 28-75) and the lookup in
`static_syn_from_gf` (`static/grt_static_syn.c` 674-736), and C26. -/

set_option linter.unusedSectionVars false

namespace GRT.StaticSyn

variable {α : Type*} [Field α] [LinearOrder α] [IsStrictOrderedRing α] [FloorRing α]

/-! ### Model -/

/-- The loop of stgrnlib.c 53-60 over consecutive triples. -/
def uniformScan : List α → Bool
  | a :: b :: c :: t =>
    if |2 * b - (a + c)| > 1 / 1000 ∨ a ≥ b ∨ b ≥ c then false else uniformScan (b :: c :: t)
  | _ => true

/-- `isUniform`, stgrnlib.c 51-60. -/
def isUniform (rs : List α) : Bool := decide (rs.length > 2) && uniformScan rs

/-- `dr`, stgrnlib.c 52. -/
def dr (rs : List α) : α := match rs with | a :: b :: _ => b - a | _ => 0

/-- Fields of `STGRNLIB` used by the lookup. -/
structure Table (α : Type*) where
  rs : List α
  idx : List ℕ
  uniform : Bool
  dr : α

/-- `fill_rs_meta`, stgrnlib.c 28-75, from the distances in grid order; `perm` is what `grt_argsort` returned. -/
def fillMeta (rs : List α) (perm : List ℕ) : Table α :=
  if isUniform rs then ⟨rs, List.range rs.length, true, dr rs⟩ else ⟨perm.filterMap (rs[·]?), perm, false, dr rs⟩

/-- `(size_t)x` for a floating `x`: truncation; undefined for `x ≤ -1` (C11 6.3.1.4). Values beyond `2^64`, also
undefined, are not singled out. -/
def toSize (x : α) : Option ℕ := if -1 < x then some ⌊x⌋₊ else none

/-- The scan, grt_static_syn.c 706. -/
def scan (dist : α) : List α → ℕ
  | _ :: b :: t => if b > dist then 0 else scan dist (b :: t) + 1
  | _ => 0

/-- Outcome of the lookup: the receiver is skipped, the code reads outside the table (or converts a value out of
range), or the table entries used and their weights. -/
inductive Pick (α : Type*) where
  | skip : Pick α
  | undef : Pick α
  | ok : List (ℕ × α) → Pick α
  deriving DecidableEq

/-- Lookup of one receiver distance, grt_static_syn.c 693-724. -/
def pick (T : Table α) (dist : α) : Pick α :=
  match T.rs.head?, T.rs.getLast? with
  | some a, some l =>
    if dist < a - 1 / 100000000 ∨ dist > l + 1 / 100000000 then .skip
    else
      match (if T.uniform then toSize ((dist - a) / T.dr) else some (scan dist T.rs)) with
      | none => .undef
      | some i =>
        let i1 := min (i + 1) (T.rs.length - 1)
        match T.rs[i]?, T.rs[i1]? with
        | some r0, some r1 =>
          if i = i1 ∨ |r1 - r0| < 1 / 1000000000000000 then .ok [(i, 1 - 0)]
          else .ok [(i, 1 - (dist - r0) / (r1 - r0)), (i1, (dist - r0) / (r1 - r0))]
        | _, _ => .undef
  | _, _ => .undef

/-! ### Specification -/

/-- A good interpolation at `dist`: one entry equal to it within the slack, or two adjacent entries around it, with
weights in `[0, 1]` summing to one that reproduce linear functions. -/
def Good (rs : List α) (dist : α) (l : List (ℕ × α)) : Prop :=
  (∃ i r, l = [(i, 1)] ∧ rs[i]? = some r ∧ |r - dist| ≤ 1 / 100000000) ∨
  (∃ i r0 r1 w0 w1, l = [(i, w0), (i + 1, w1)] ∧ rs[i]? = some r0 ∧ rs[i + 1]? = some r1 ∧ r0 ≤ dist ∧ dist ≤ r1 ∧
    0 ≤ w0 ∧ 0 ≤ w1 ∧ w0 + w1 = 1 ∧ ∀ f g : α, w0 * (f + g * r0) + w1 * (f + g * r1) = f + g * dist)

/-! ### Proofs -/

theorem scan_spec (dist : α) : ∀ (rs : List α) (a : α), rs.head? = some a → a ≤ dist →
    ∃ r, rs[scan dist rs]? = some r ∧ r ≤ dist ∧ scan dist rs < rs.length ∧
      (∀ r', rs[scan dist rs + 1]? = some r' → dist < r')
  | [], a, h, _ => by simp at h
  | [b], a, h, ha => by
    simp at h; subst h
    exact ⟨b, rfl, ha, by simp [scan], by simp [scan]⟩
  | a :: b :: t, a', h, ha => by
    simp at h; subst h
    by_cases hb : b > dist
    · refine ⟨a, ?_, ha, ?_, ?_⟩ <;> simp [scan, hb]
    · obtain ⟨r, h1, h2, h3, h4⟩ := scan_spec dist (b :: t) b rfl (not_lt.1 hb)
      refine ⟨r, ?_, h2, ?_, ?_⟩
      · simpa [scan, hb] using h1
      · simp only [scan, hb, if_false, List.length_cons] at h3 ⊢; omega
      · simpa [scan, hb] using h4

/-- Once the index is right, weights are. -/
theorem finish_good (rs : List α) (dist : α) (i : ℕ) (r0 : α) (h0 : rs[i]? = some r0) (hle : r0 ≤ dist)
    (hlt : ∀ r', rs[i + 1]? = some r' → dist ≤ r') (hl : ∀ l, rs.getLast? = some l → dist ≤ l + 1 / 100000000) :
    ∃ l, Good rs dist l ∧
      (let i1 := min (i + 1) (rs.length - 1)
       (match rs[i]?, rs[i1]? with
        | some r0, some r1 =>
          if i = i1 ∨ |r1 - r0| < 1 / 1000000000000000 then (.ok [(i, 1 - 0)] : Pick α)
          else .ok [(i, 1 - (dist - r0) / (r1 - r0)), (i1, (dist - r0) / (r1 - r0))]
        | _, _ => .undef) = .ok l) := by
  have hi : i < rs.length := (List.getElem?_eq_some_iff.1 h0).1
  by_cases hlast : i + 1 < rs.length
  · have hm : min (i + 1) (rs.length - 1) = i + 1 := by omega
    have h1 : rs[i + 1]? = some rs[i + 1] := List.getElem?_eq_getElem hlast
    have hd := hlt _ h1
    simp only [hm, h0, h1]
    by_cases hc : |rs[i + 1] - r0| < 1 / 1000000000000000
    · refine ⟨[(i, 1)], Or.inl ⟨i, r0, rfl, h0, ?_⟩, by rw [if_pos (Or.inr hc), sub_zero]⟩
      have h3 := abs_lt.1 hc
      rw [abs_sub_comm, abs_of_nonneg (by linarith)]
      have : (1 : α) / 1000000000000000 ≤ 1 / 100000000 := by
        apply one_div_le_one_div_of_le <;> norm_num
      linarith
    · refine ⟨_, Or.inr ⟨i, r0, rs[i + 1], _, _, rfl, h0, h1, hle, hd, ?_, ?_, ?_, ?_⟩, if_neg (not_or.2 ⟨by omega, hc⟩)⟩
      all_goals
        have hne : rs[i + 1] - r0 ≠ 0 := by
          intro h; rw [h] at hc; exact hc (by norm_num)
        have hpos : 0 < rs[i + 1] - r0 := lt_of_le_of_ne (by linarith) (Ne.symm hne)
      · rw [sub_nonneg, div_le_one hpos]; linarith
      · exact div_nonneg (by linarith) hpos.le
      · ring
      · intro f g; field_simp; ring
  · have hm : min (i + 1) (rs.length - 1) = i := by omega
    have hl' : rs.getLast? = some r0 := by
      rw [List.getLast?_eq_getElem?, show rs.length - 1 = i by omega]; exact h0
    refine ⟨[(i, 1)], Or.inl ⟨i, r0, rfl, h0, ?_⟩, by simp only [hm, h0]; simp⟩
    rw [abs_sub_comm, abs_of_nonneg (by linarith)]
    linarith [hl _ hl']

/-- C26 on the general path: for any table not taken for uniform and any accepted distance not below the first
entry. -/
theorem C26_partial (T : Table α) (hu : T.uniform = false) (a l dist : α) (ha : T.rs.head? = some a)
    (hl : T.rs.getLast? = some l) (h1 : a ≤ dist) (h2 : dist ≤ l + 1 / 100000000) :
    ∃ p, pick T dist = .ok p ∧ Good T.rs dist p := by
  obtain ⟨r, b1, b2, b3, b4⟩ := scan_spec dist T.rs a ha h1
  obtain ⟨p, hp, he⟩ := finish_good T.rs dist (scan dist T.rs) r b1 b2 (fun r' h => (b4 r' h).le) (by
    intro l' hl'; rw [hl] at hl'; cases hl'; exact h2)
  refine ⟨p, ?_, hp⟩
  have hn : ¬ (dist < a - 1 / 100000000 ∨ dist > l + 1 / 100000000) := by
    rw [not_or, not_lt, not_lt]
    exact ⟨le_trans (sub_le_self _ (by norm_num)) h1, h2⟩
  simp only [pick, ha, hl, if_neg hn, hu, Bool.false_eq_true, if_false]
  exact he

/-- C26 on the fast path, when the table really is uniform. -/
theorem C26_uniform_partial (T : Table α) (hu : T.uniform = true) (a l dist : α) (ha : T.rs.head? = some a)
    (hd : 1 / 100000000 < T.dr) (hrs : ∀ i (h : i < T.rs.length), T.rs[i] = a + i * T.dr)
    (hl : T.rs.getLast? = some l) (h1 : a ≤ dist) (h2 : dist ≤ l + 1 / 100000000) :
    ∃ p, pick T dist = .ok p ∧ Good T.rs dist p := by
  have hdp : 0 < T.dr := lt_trans (by norm_num) hd
  have hn0 : 0 < T.rs.length := by
    cases h : T.rs with
    | nil => rw [h] at ha; simp at ha
    | cons _ _ => simp
  have hlv : l = a + ((T.rs.length - 1 : ℕ) : α) * T.dr := by
    rw [List.getLast?_eq_getElem?, List.getElem?_eq_getElem (by omega)] at hl
    cases hl
    exact hrs _ _
  set x := (dist - a) / T.dr with hx
  have hx0 : 0 ≤ x := div_nonneg (by linarith) hdp.le
  have hxd : x * T.dr = dist - a := by rw [hx]; field_simp
  have hf1 : ((⌊x⌋₊ : ℕ) : α) ≤ x := Nat.floor_le hx0
  have hf2 : x < (⌊x⌋₊ : α) + 1 := Nat.lt_floor_add_one x
  have hlt : ⌊x⌋₊ < T.rs.length := by
    rw [Nat.floor_lt hx0]
    have : x * T.dr < (T.rs.length : α) * T.dr := by
      rw [hxd]
      have : (T.rs.length : α) = ((T.rs.length - 1 : ℕ) : α) + 1 := by
        rw [← Nat.cast_succ]; congr 1; omega
      rw [this, add_mul]
      linarith
    exact lt_of_mul_lt_mul_right this hdp.le
  have hn : ¬ (dist < a - 1 / 100000000 ∨ dist > l + 1 / 100000000) := by
    rw [not_or, not_lt, not_lt]
    exact ⟨le_trans (sub_le_self _ (by norm_num)) h1, h2⟩
  obtain ⟨p, hp, he⟩ := finish_good T.rs dist ⌊x⌋₊ (T.rs[⌊x⌋₊]) (List.getElem?_eq_getElem hlt)
    (by rw [hrs]; nlinarith [mul_le_mul_of_nonneg_right hf1 hdp.le])
    (by
      intro r' hr'
      obtain ⟨h3, h4⟩ := List.getElem?_eq_some_iff.1 hr'
      rw [← h4, hrs]; push_cast
      nlinarith [mul_le_mul_of_nonneg_right hf2.le hdp.le])
    (by intro l' hl'; rw [hl] at hl'; cases hl'; exact h2)
  refine ⟨p, ?_, hp⟩
  have hs : toSize x = some ⌊x⌋₊ := by rw [toSize, if_pos (lt_of_lt_of_le (by norm_num) hx0)]
  simp only [pick, ha, hl, if_neg hn, hu, if_true]
  rw [← hx, hs]
  exact he

/-- The table: entry `i` of the sorted list is the distance of grid point `idx[i]`, whichever path. -/
theorem C26_table (rs : List α) (perm : List ℕ) (hp : Search.ArgsortResult rs perm) :
    let T := fillMeta rs perm
    T.rs.length = rs.length ∧ T.rs.Pairwise (· ≤ ·) ∧ T.idx.Perm (List.range rs.length) ∧
      ∀ i, i < rs.length → ∃ j, T.idx[i]? = some j ∧ j < rs.length ∧ T.rs[i]? = rs[j]? := by
  have hst := Search.C03_argsort_stable rs perm hp
  by_cases hu : isUniform rs
  · simp only [fillMeta, hu, if_true, true_and]
    refine ⟨?_, List.Perm.refl _, ?_⟩
    · have hs : ∀ l : List α, l.length > 2 → uniformScan l = true → l.Pairwise (· < ·) := by
        intro l
        induction l with
        | nil => intro h; simp at h
        | cons a l ih =>
          intro hl hs
          match l, ih, hl, hs with
          | [b, c], ih, hl, hs =>
            simp [uniformScan] at hs
            simp only [List.pairwise_cons, List.mem_cons, List.not_mem_nil, or_false]
            refine ⟨?_, ?_, by simp⟩
            · rintro x (rfl | rfl)
              · exact hs.2.1
              · exact hs.2.1.trans hs.2.2
            · rintro x rfl; exact hs.2.2
          | b :: c :: d :: t, ih, hl, hs =>
            rw [uniformScan] at hs
            split at hs
            · cases hs
            · rename_i hc
              push Not at hc
              have h1 := ih (by simp) hs
              rw [List.pairwise_cons]
              refine ⟨?_, h1⟩
              intro x hx
              rcases List.mem_cons.1 hx with rfl | hx
              · exact hc.2.1
              · exact hc.2.1.trans ((List.pairwise_cons.1 h1).1 x hx)
      simp only [isUniform, Bool.and_eq_true, decide_eq_true_eq] at hu
      exact (hs rs hu.1 hu.2).imp le_of_lt
    · intro i hi
      exact ⟨i, List.getElem?_range hi, hi, rfl⟩
  · simp only [fillMeta, hu, Bool.false_eq_true, if_false]
    have hmem : ∀ j ∈ perm, j < rs.length := fun j hj => List.mem_range.1 (hst.perm.subset hj)
    have hmap : perm.filterMap (rs[·]?) = perm.pmap (fun j (h : j < rs.length) => rs[j]) hmem := by
      generalize perm = q at hmem
      induction q with
      | nil => rfl
      | cons j q ih =>
        have hj := hmem j (by simp)
        rw [List.filterMap_cons, List.getElem?_eq_getElem hj, List.pmap_cons, ih]
    have hlen : perm.length = rs.length := by simpa using hst.perm.length_eq
    rw [hmap]
    refine ⟨by simp [hlen], ?_, hst.perm, ?_⟩
    · have := hst.sorted
      rw [List.pairwise_pmap]
      refine this.imp ?_
      intro i j hij hi hj
      rcases hij _ _ (List.getElem?_eq_getElem hi) (List.getElem?_eq_getElem hj) with h | ⟨h, _⟩
      · exact h.le
      · exact h.le
    · intro i hi
      have hi' : i < perm.length := by omega
      refine ⟨perm[i], List.getElem?_eq_getElem hi', hmem _ (List.getElem_mem hi'), ?_⟩
      rw [List.getElem?_eq_getElem (by simpa using hi'), List.getElem_pmap,
        List.getElem?_eq_getElem (hmem _ (List.getElem_mem hi'))]

/-- C26 is violated: a table with spacings 1, 2, 3 metres passes the test for uniformity (tolerance 1 m), and the
lookup of its last entry reads outside it. -/
theorem C26_violated : ∃ (rs : List ℚ) (dist : ℚ), dist ∈ rs ∧ isUniform rs = true ∧
    pick (fillMeta rs (List.range rs.length)) dist = .undef :=
  ⟨[0, 1/1000, 3/1000, 6/1000], 6/1000, by decide +kernel⟩

/-- C26 is violated without leaving the table: the pair used does not bracket the distance and one weight is
negative. -/
theorem C26_violated_bracket : ∃ (rs : List ℚ) (dist : ℚ), isUniform rs = true ∧
    pick (fillMeta rs (List.range rs.length)) dist = .ok [(2, 7 / 6), (3, -1 / 6)] ∧ dist < 3/1000 ∧ rs[2]? = some (3/1000) :=
  ⟨[0, 1/1000, 3/1000, 6/1000], 25/10000, by decide +kernel⟩

/-- C26 is violated on an ordinary profile: receivers of the library 5 km north, at 0, 50 and 100 m east; the synthetic
for the last of them reads outside the table. -/
theorem C26_violated_profile :
    let rs : List ℝ := [√(5 ^ 2 + 0 ^ 2), √(5 ^ 2 + 0.05 ^ 2), √(5 ^ 2 + 0.1 ^ 2)]
    isUniform rs = true ∧ pick (fillMeta rs (List.range rs.length)) (√(5 ^ 2 + 0.1 ^ 2)) = .undef := by
  have e0 : √((5:ℝ) ^ 2 + 0 ^ 2) = 5 := by
    rw [show (5:ℝ) ^ 2 + 0 ^ 2 = 5 ^ 2 by norm_num, Real.sqrt_sq (by norm_num)]
  have l1 : (5.00024 : ℝ) < √(5 ^ 2 + 0.05 ^ 2) := by
    apply Real.lt_sqrt_of_sq_lt; norm_num
  have u1 : √((5:ℝ) ^ 2 + 0.05 ^ 2) < 5.00026 := by
    rw [Real.sqrt_lt' (by norm_num)]; norm_num
  have l2 : (5.0009 : ℝ) < √(5 ^ 2 + 0.1 ^ 2) := by
    apply Real.lt_sqrt_of_sq_lt; norm_num
  have u2 : √((5:ℝ) ^ 2 + 0.1 ^ 2) < 5.0011 := by
    rw [Real.sqrt_lt' (by norm_num)]; norm_num
  rw [e0]
  generalize √((5:ℝ) ^ 2 + 0.05 ^ 2) = b at *
  generalize √((5:ℝ) ^ 2 + 0.1 ^ 2) = c at *
  norm_num at l1 u1 l2 u2
  have hU : isUniform [5, b, c] = true := by
    simp only [isUniform, uniformScan]
    rw [if_neg]
    · simp
    · push Not
      refine ⟨?_, by linarith, by linarith⟩
      rw [abs_le]; constructor <;> linarith
  refine ⟨hU, ?_⟩
  have hx : 3 ≤ (c - 5) / (b - 5) := by
    rw [le_div_iff₀ (by linarith)]; linarith
  have hs : ∃ n, toSize ((c - 5) / (b - 5)) = some n ∧ 3 ≤ n :=
    ⟨_, by rw [toSize, if_pos (by linarith)], Nat.le_floor (by simpa using hx)⟩
  obtain ⟨n, hn, h3⟩ := hs
  have hsk : ¬ (c < 5 - 1 / 100000000 ∨ c > c + 1 / 100000000) := by
    rw [not_or, not_lt, not_lt]; constructor <;> linarith
  simp only [fillMeta, hU, if_true, pick, List.head?_cons, List.getLast?_cons_cons, List.getLast?_singleton, dr, if_neg hsk, hn]
  have : ([5, b, c] : List ℝ)[n]? = none := List.getElem?_eq_none (by simpa using h3)
  rw [this]

/-! ### Concrete cases -/

/-- The general path, between two entries and at the end. -/
example : pick (fillMeta ([4, 1, 2] : List ℚ) [1, 2, 0]) 3 = .ok [(1, 1/2), (2, 1/2)] ∧
    pick (fillMeta ([4, 1, 2] : List ℚ) [1, 2, 0]) 4 = .ok [(2, 1)] ∧ pick (fillMeta ([4, 1, 2] : List ℚ) [1, 2, 0]) 5 = .skip ∧
    (fillMeta ([4, 1, 2] : List ℚ) [1, 2, 0]).uniform = false := by decide +kernel
/-- The fast path on a uniform table. -/
example : pick (fillMeta ([0, 2, 4] : List ℚ) [0, 1, 2]) 3 = .ok [(1, 1/2), (2, 1/2)] ∧
    (fillMeta ([0, 2, 4] : List ℚ) [0, 1, 2]).uniform = true := by decide +kernel

end GRT.StaticSyn
