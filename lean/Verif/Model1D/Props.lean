import Verif.Model1D.Shape

/-! C05, C06, C07: loading a layered model with a source and a receiver depth. -/

set_option linter.unusedSectionVars false

namespace GRT.Model1D

variable {α : Type*} [Field α] [LinearOrder α] [IsStrictOrderedRing α]

theorem setLast_ne {d : α} {fs : List (FLay α)} (h : fs ≠ []) : setLast d fs ≠ [] := by
  cases fs with
  | nil => exact absurd rfl h
  | cons f fs => cases fs <;> simp [setLast]

theorem setLast_length (d : α) (fs : List (FLay α)) : (setLast d fs).length = fs.length := by
  induction fs with
  | nil => rfl
  | cons f fs ih => cases fs <;> simp_all [setLast]

theorem setLast_pos (d : α) (fs : List (FLay α)) : Pos (setLast d fs) ↔ Pos fs := by
  induction fs with
  | nil => rfl
  | cons f fs ih =>
    cases fs with
    | nil => rfl
    | cons g gs =>
      have hne : setLast d (g :: gs) ≠ [] := setLast_ne (by simp)
      rcases he : setLast d (g :: gs) with _ | ⟨a, b⟩
      · exact absurd he hne
      · simp only [setLast, he, Pos] at ih ⊢
        rw [ih]

theorem Pos.tail {f : FLay α} {fs : List (FLay α)} (h : Pos (f :: fs)) : Pos fs := by
  cases fs with
  | nil => trivial
  | cons g gs => exact h.2

theorem Pos.of_append {a b : List (FLay α)} (h : Pos (a ++ b)) : Pos b := by
  induction a with
  | nil => exact h
  | cons f a ih => exact ih h.tail

theorem Pos.pre {a : List (FLay α)} {f : FLay α} {b : List (FLay α)} (h : Pos (a ++ f :: b)) : ∀ l ∈ a, 0 < l.h := by
  induction a with
  | nil => simp
  | cons g a ih =>
    intro l hl
    rcases List.mem_cons.1 hl with rfl | hl
    · cases a with
      | nil => exact h.1
      | cons c a => exact h.1
    · exact ih h.tail l hl

theorem Pos.head {f g : FLay α} {fs : List (FLay α)} (h : Pos (f :: g :: fs)) : 0 < f.h := h.1

theorem total_setLast {d : α} {fs : List (FLay α)} (hp : Pos fs) (hne : fs ≠ []) : d ≤ total (setLast d fs) := by
  induction fs with
  | nil => exact absurd rfl hne
  | cons f fs ih =>
    cases fs with
    | nil => simp only [setLast, total_cons, total_nil, add_zero]; linarith [pow_pos (show (0:α) < 10 by norm_num) 30]
    | cons g gs =>
      simp only [setLast, total_cons]
      have := ih hp.tail (by simp)
      linarith [hp.1]

theorem total_nonneg {fs : List (FLay α)} (h : ∀ l ∈ fs, 0 ≤ l.h) : 0 ≤ total fs := by
  induction fs with
  | nil => simp
  | cons f fs ih =>
    rw [total_cons]
    exact add_nonneg (h f (by simp)) (ih fun l hl => h l (by simp [hl]))

/-- Every layer has non-negative thickness once the last one is made thick. -/
theorem nonneg_setLast {d : α} (hd : 0 ≤ d) {fs : List (FLay α)} (hp : Pos fs) : ∀ l ∈ setLast d fs, 0 < l.h := by
  induction fs with
  | nil => simp [setLast]
  | cons f fs ih =>
    cases fs with
    | nil => intro l hl; simp only [setLast, List.mem_singleton] at hl; subst hl; show 0 < d + 10^30; linarith [pow_pos (show (0:α) < 10 by norm_num) 30]
    | cons g gs =>
      intro l hl
      simp only [setLast, List.mem_cons] at hl
      rcases hl with rfl | hl
      · exact hp.1
      · exact ih hp.tail l hl

/-- The outcome of the reader for non-negative depths. -/
theorem read_shape {arr : List (FLay α)} {zs zr : α} (hs : 0 ≤ zs) (hr : 0 ≤ zr) (hne : arr ≠ []) (hp : Pos arr) :
    ∃ lays imin imax, Shape (setLast (max zs zr) arr) (min zs zr) (max zs zr) lays imin imax ∧
      ∃ isrc ircv, isrc = (if zr ≤ zs then imax else imin) ∧ ircv = (if zr ≤ zs then imin else imax) ∧
      readMod1d arr zs zr = if onLiquid lays ircv then .error .receiverOnLiquid
        else if onLiquid lays isrc then .error .sourceOnLiquid
        else .ok ⟨lays, isrc, ircv, decide (zr ≤ zs), zs, zr, true⟩ := by
  have hsg : ¬ zs * zr < 0 := not_lt.2 (mul_nonneg hs hr)
  have hmin : (if decide (zr ≤ zs) = true then zr else zs) = min zs zr := by
    by_cases h : zr ≤ zs
    · simp [h]
    · simp [h, (not_le.1 h).le]
  have hmax : (if decide (zr ≤ zs) = true then zs else zr) = max zs zr := by
    by_cases h : zr ≤ zs
    · simp [h]
    · simp [h, (not_le.1 h).le]
  have hal : decide (0 ≤ zs ∧ 0 ≤ zr) = true := by simp [hs, hr]
  have hM : 0 ≤ max zs zr := hs.trans (le_max_left _ _)
  rcases hrun : run true (max zs zr) (setLast (max zs zr) arr) ⟨[], 0, 0, 0, false, min zs zr⟩ with _ | st
  · exact absurd ((setLast_pos _ _).2 hp) (run_none_or.1 hrun)
  refine ⟨st.lays, st.imin, st.imax, ?_, _, _, rfl, rfl, ?_⟩
  · have := run_first (min_le_max) (setLast (max zs zr) arr) [] rfl (by simpa using ⟨hs, hr⟩) (.inl rfl)
      (by rw [total_nil, zero_add]; exact total_setLast hp hne) (setLast_ne hne) hrun
    simpa using this
  · unfold readMod1d
    rw [if_neg hsg, if_neg hne]
    dsimp only
    rw [hmin, hmax, hal, hrun]
    dsimp only
    rw [if_pos hs, if_pos hr]
    simp only [decide_eq_true_eq]

theorem read_error {arr : List (FLay α)} {zs zr : α} (hs : 0 ≤ zs) (hr : 0 ≤ zr) (hne : arr ≠ []) :
    readMod1d arr zs zr = .error .thickness ↔ ¬ Pos arr := by
  by_cases hp : Pos arr
  · obtain ⟨lays, imin, imax, -, isrc, ircv, -, -, h⟩ := read_shape hs hr hne hp
    simp only [hp, not_true, iff_false]
    rw [h]
    intro hh
    split at hh
    · cases hh
    · split at hh <;> cases hh
  · simp only [hp, not_false_eq_true, iff_true]
    have hsg : ¬ zs * zr < 0 := not_lt.2 (mul_nonneg hs hr)
    unfold readMod1d
    rw [if_neg hsg, if_neg hne]
    dsimp only
    rw [run_none_or.2 (fun h => hp ((setLast_pos _ _).1 h))]

/-! ### C05 -/

/-- A virtual interface at index `i`, at depth `z`, inside one medium. -/
structure Virtual (lays : List (FLay α)) (i : ℕ) (z : α) : Prop where
  one : 1 ≤ i
  lt : i < lays.length
  depth : total (lays.take i) = z
  same : (lays[i-1]?).map FLay.m = (lays[i]?).map FLay.m

theorem shape_virtual {fs : List (FLay α)} {dmin dmax : α} {lays : List (FLay α)} {imin imax : ℕ}
    (h : Shape fs dmin dmax lays imin imax) :
    lays.length = fs.length + 2 ∧ imin < imax ∧ Virtual lays imin dmin ∧ Virtual lays imax dmax := by
  cases h with
  | same pre f post hfs h1 h1' h2 hl hmin hmax =>
    subst hmin; subst hmax; subst hfs
    refine ⟨by rw [hl]; simp; omega, by omega, ⟨by omega, by rw [hl]; simp, ?_, ?_⟩, ⟨by omega, by rw [hl]; simp, ?_, ?_⟩⟩
    · rw [hl]; simp [List.take_append, List.take_of_length_le]
    · rw [hl]; simp
    · rw [hl]; simp [List.take_append, List.take_of_length_le]
    · rw [hl]; simp
  | diff pre f mid g post hfs h1 h1' h2 h3 h3' h4 hl hmin hmax =>
    subst hmin; subst hmax; subst hfs
    have e1 : lays = pre ++ ⟨dmin - total pre, f.m⟩ :: ⟨total pre + f.h - dmin, f.m⟩ :: (mid ++
        ⟨dmax - (total pre + f.h + total mid), g.m⟩ :: ⟨total pre + f.h + total mid + g.h - dmax, g.m⟩ :: post) := by
      rw [hl]; simp
    have e2 : lays = (pre ++ ⟨dmin - total pre, f.m⟩ :: ⟨total pre + f.h - dmin, f.m⟩ :: mid) ++
        ⟨dmax - (total pre + f.h + total mid), g.m⟩ :: ⟨total pre + f.h + total mid + g.h - dmax, g.m⟩ :: post := by
      rw [hl]; simp
    have e3 : pre.length + mid.length + 3 = (pre ++ ⟨dmin - total pre, f.m⟩ :: ⟨total pre + f.h - dmin, f.m⟩ :: mid).length + 1 := by
      simp; omega
    refine ⟨by rw [hl]; simp; omega, by omega, ⟨by omega, by rw [hl]; simp, ?_, ?_⟩, ⟨by omega, by rw [hl]; simp; omega, ?_, ?_⟩⟩
    · rw [e1]; simp [List.take_append, List.take_of_length_le]
    · rw [e1]; simp
    · rw [e3, e2, List.take_append, List.take_of_length_le (by omega)]
      simp
      ring
    · rw [e3, e2]
      generalize (pre ++ ⟨dmin - total pre, f.m⟩ :: ⟨total pre + f.h - dmin, f.m⟩ :: mid) = q
      simp

theorem shape_nonneg {fs : List (FLay α)} {dmin dmax : α} (hmm : dmin ≤ dmax) {lays : List (FLay α)} {imin imax : ℕ}
    (h : Shape fs dmin dmax lays imin imax) (hp : ∀ l ∈ fs, 0 < l.h) : ∀ l ∈ lays, 0 ≤ l.h := by
  cases h with
  | same pre f post hfs h1 h1' h2 hl hmin hmax =>
    subst hfs
    intro l hm
    rw [hl] at hm
    simp only [List.mem_append, List.mem_cons, List.not_mem_nil, or_false] at hm
    rcases hm with (hm | rfl | rfl | rfl) | hm
    · exact (hp l (by simp [hm])).le
    · exact sub_nonneg.2 h1
    · exact sub_nonneg.2 hmm
    · exact sub_nonneg.2 h2
    · exact (hp l (by simp [hm])).le
  | diff pre f mid g post hfs h1 h1' h2 h3 h3' h4 hl hmin hmax =>
    subst hfs
    intro l hm
    rw [hl] at hm
    simp only [List.mem_append, List.mem_cons, List.not_mem_nil, or_false] at hm
    rcases hm with (((hm | rfl | rfl) | hm) | rfl | rfl) | hm
    · exact (hp l (by simp [hm])).le
    · exact sub_nonneg.2 h1
    · exact sub_nonneg.2 h2
    · exact (hp l (by simp [hm])).le
    · exact sub_nonneg.2 h3.le
    · exact sub_nonneg.2 h4
    · exact (hp l (by simp [hm])).le

/-- C05: a model that loads has two more layers than the file; source and receiver sit at distinct
interfaces, neither of them the surface of layer 0, at exactly the requested depths, each inside one
medium; the order flag agrees with the order of the depths and of the indices; no thickness is negative. -/
theorem C05_wellformed {arr : List (FLay α)} {zs zr : α} (hs : 0 ≤ zs) (hr : 0 ≤ zr) {m : Mod1d α}
    (h : readMod1d arr zs zr = .ok m) :
    m.lays.length = arr.length + 2 ∧ m.inserted = true ∧
    Virtual m.lays m.isrc zs ∧ Virtual m.lays m.ircv zr ∧
    (m.ircvup = true ↔ zr ≤ zs) ∧ (m.ircvup = true → m.ircv < m.isrc) ∧ (m.ircvup = false → m.isrc < m.ircv) ∧
    ∀ l ∈ m.lays, 0 ≤ l.h := by
  have hne : arr ≠ [] := by
    rintro rfl
    unfold readMod1d at h
    rw [if_neg (not_lt.2 (mul_nonneg hs hr)), if_pos rfl] at h
    cases h
  have hp : Pos arr := by
    by_contra hp
    rw [(read_error hs hr hne).2 hp] at h
    cases h
  obtain ⟨lays, imin, imax, hsh, isrc, ircv, hi1, hi2, he⟩ := read_shape hs hr hne hp
  rw [he] at h
  split at h
  · cases h
  split at h
  · cases h
  injection h with h
  subst h
  obtain ⟨v1, v2, v3, v4⟩ := shape_virtual hsh
  have hnn := shape_nonneg min_le_max hsh (nonneg_setLast (hs.trans (le_max_left _ _)) hp)
  rw [setLast_length] at v1
  subst hi1; subst hi2
  refine ⟨v1, rfl, ?_, ?_, by simp, ?_, ?_, hnn⟩
  · by_cases hc : zr ≤ zs
    · simpa [hc] using v4
    · simpa [hc, (not_le.1 hc).le] using v3
  · by_cases hc : zr ≤ zs
    · simpa [hc] using v3
    · simpa [hc, (not_le.1 hc).le] using v4
  · intro hc; have hc := of_decide_eq_true hc; simpa [hc] using v2
  · intro hc; have hc := of_decide_eq_false hc; simpa [hc] using v2

/-- C05: solid models with positive thicknesses always load. -/
theorem C05_loads {arr : List (FLay α)} {zs zr : α} (hs : 0 ≤ zs) (hr : 0 ≤ zr) (hne : arr ≠ []) (hp : Pos arr)
    (hsol : ∀ l ∈ arr, l.m.vb ≠ 0) : ∃ m, readMod1d arr zs zr = .ok m := by
  obtain ⟨lays, imin, imax, hsh, isrc, ircv, hi1, hi2, he⟩ := read_shape hs hr hne hp
  have hset : ∀ (d : α) (fs : List (FLay α)), (∀ l ∈ fs, l.m.vb ≠ 0) → ∀ l ∈ setLast d fs, l.m.vb ≠ 0 := by
    intro d fs
    induction fs with
    | nil => simp [setLast]
    | cons f fs ih =>
      cases fs with
      | nil => intro hh l hl; simp only [setLast, List.mem_singleton] at hl; subst hl; exact hh f (by simp)
      | cons g gs =>
        intro hh l hl
        simp only [setLast, List.mem_cons] at hl
        rcases hl with rfl | hl
        · exact hh _ (by simp)
        · exact ih (fun l hl => hh l (by simp [List.mem_cons.1 hl])) l hl
  have hset' := hset (max zs zr) arr hsol
  have hlay : ∀ l ∈ lays, l.m.vb ≠ 0 := by
    cases hsh with
    | same pre f post hfs h1 h1' h2 hl hmin hmax =>
      intro l hm
      rw [hfs] at hset'
      rw [hl] at hm
      simp only [List.mem_append, List.mem_cons, List.not_mem_nil, or_false] at hm
      rcases hm with (hm | rfl | rfl | rfl) | hm
      · exact hset' l (by simp [hm])
      · exact hset' f (by simp)
      · exact hset' f (by simp)
      · exact hset' f (by simp)
      · exact hset' l (by simp [hm])
    | diff pre f mid g post hfs h1 h1' h2 h3 h3' h4 hl hmin hmax =>
      intro l hm
      rw [hfs] at hset'
      rw [hl] at hm
      simp only [List.mem_append, List.mem_cons, List.not_mem_nil, or_false] at hm
      rcases hm with (((hm | rfl | rfl) | hm) | rfl | rfl) | hm
      · exact hset' l (by simp [hm])
      · exact hset' f (by simp)
      · exact hset' f (by simp)
      · exact hset' l (by simp [hm])
      · exact hset' g (by simp)
      · exact hset' g (by simp)
      · exact hset' l (by simp [hm])
  have hon : ∀ i, onLiquid lays i = false := by
    intro i
    unfold onLiquid
    rcases ha : lays[i]? with _ | a
    · rfl
    rcases hb : lays[i+1]? with _ | b
    · rfl
    simp [hlay a (List.mem_of_getElem? ha), hlay b (List.mem_of_getElem? hb)]
  rw [hon, hon] at he
  exact ⟨_, he⟩

/-! ### C06 -/

/-- Specification: `med` is the medium met at depth `z` (at an interface the upper side; the last layer has
no bottom). -/
def Covers (lays : List (FLay α)) (z : α) (med : Med α) : Prop :=
  ∃ pre l post, lays = pre ++ l :: post ∧ (pre = [] ∨ total pre < z) ∧ (post = [] ∨ z ≤ total pre + l.h) ∧ l.m = med

theorem mediumFrom_covers {lays : List (FLay α)} {z top : α} (hp : ∀ l ∈ lays, 0 ≤ l.h) (med : Med α) :
    mediumFrom top z lays = some med ↔
      ∃ pre l post, lays = pre ++ l :: post ∧ (pre = [] ∨ top + total pre < z) ∧ (post = [] ∨ z ≤ top + total pre + l.h) ∧ l.m = med := by
  induction lays generalizing top with
  | nil => simp [mediumFrom]
  | cons a ls ih =>
    cases ls with
    | nil =>
      simp only [mediumFrom, Option.some.injEq]
      constructor
      · rintro rfl; exact ⟨[], a, [], rfl, .inl rfl, .inl rfl, rfl⟩
      · rintro ⟨pre, l, post, h1, -, -, h4⟩
        cases pre with
        | nil => simp at h1; rw [h1.1]; exact h4
        | cons b pre => simp at h1
    | cons b ls =>
      simp only [mediumFrom]
      have hnn : ∀ l ∈ b :: ls, 0 ≤ l.h := fun l hl => hp l (List.mem_cons_of_mem _ hl)
      split
      · rename_i hz
        simp only [Option.some.injEq]
        constructor
        · rintro rfl; exact ⟨[], a, b :: ls, rfl, .inl rfl, .inr (by simpa using hz), rfl⟩
        · rintro ⟨pre, l, post, h1, h2, -, h4⟩
          cases pre with
          | nil => simp at h1; rw [h1.1]; exact h4
          | cons c pre =>
            simp only [List.cons_append, List.cons.injEq] at h1
            obtain ⟨rfl, h1⟩ := h1
            exfalso
            rcases h2 with h2 | h2
            · cases h2
            · simp only [total_cons] at h2
              have : 0 ≤ total pre := total_nonneg fun y hy => hnn y (by rw [h1]; simp [hy])
              linarith
      · rename_i hz
        rw [ih hnn]
        constructor
        · rintro ⟨pre, l, post, h1, h2, h3, h4⟩
          refine ⟨a :: pre, l, post, by rw [h1]; rfl, .inr ?_, ?_, h4⟩
          · rcases h2 with rfl | h2
            · simpa using not_le.1 hz
            · simpa [add_assoc] using h2
          · simpa [add_assoc] using h3
        · rintro ⟨pre, l, post, h1, h2, h3, h4⟩
          cases pre with
          | nil =>
            simp only [List.nil_append, List.cons.injEq] at h1
            obtain ⟨rfl, rfl⟩ := h1
            rcases h3 with h3 | h3
            · cases h3
            · simp at h3; exact absurd h3 hz
          | cons c pre =>
            simp only [List.cons_append, List.cons.injEq] at h1
            obtain ⟨rfl, h1⟩ := h1
            refine ⟨pre, l, post, h1, .inr ?_, ?_, h4⟩
            · rcases h2 with h2 | h2
              · cases h2
              · simpa [add_assoc] using h2
            · simpa [add_assoc] using h3

/-- The depth lookup of the program reports the medium at that depth. -/
theorem C06_lookup {lays : List (FLay α)} {z : α} (hz : 0 ≤ z) (hp : ∀ l ∈ lays, 0 ≤ l.h) (med : Med α) :
    mediumAt lays z = some med ↔ Covers lays z med := by
  unfold mediumAt
  rw [if_neg (not_lt.2 hz), mediumFrom_covers hp]
  simp [Covers]

/-- `lays` refines `fs`: every layer of `fs` is split into consecutive layers of the same medium whose
thicknesses add up to its own. -/
inductive Refines : List (FLay α) → List (FLay α) → Prop
  | nil : Refines [] []
  | cons (f : FLay α) (fs part lays : List (FLay α)) (hne : part ≠ []) (hm : ∀ l ∈ part, l.m = f.m)
      (ht : total part = f.h) (h : Refines fs lays) : Refines (f :: fs) (part ++ lays)

theorem Refines.refl (fs : List (FLay α)) : Refines fs fs := by
  induction fs with
  | nil => exact .nil
  | cons f fs ih => exact .cons f fs [f] fs (by simp) (by simp) (by simp) ih

theorem Refines.append {a b c d : List (FLay α)} (h1 : Refines a b) (h2 : Refines c d) : Refines (a ++ c) (b ++ d) := by
  induction h1 with
  | nil => exact h2
  | cons f fs part lays hne hm ht h ih =>
    rw [List.cons_append, List.append_assoc]
    exact .cons f _ part _ hne hm ht ih

/-- C06: the loaded layers are the layers of the file (the last one taken as thick), some of them split. -/
theorem shape_refines {fs : List (FLay α)} {dmin dmax : α} {lays : List (FLay α)} {imin imax : ℕ}
    (h : Shape fs dmin dmax lays imin imax) : Refines fs lays := by
  cases h with
  | same pre f post hfs h1 h1' h2 hl hmin hmax =>
    rw [hfs, hl, List.append_assoc]
    exact (Refines.refl pre).append (.cons f post _ post (by simp) (by simp) (by simp) (.refl post))
  | diff pre f mid g post hfs h1 h1' h2 h3 h3' h4 hl hmin hmax =>
    rw [hfs, hl]
    simp only [List.append_assoc]
    refine (Refines.refl pre).append (.cons f _ _ _ (by simp) (by simp) (by simp) ?_)
    exact (Refines.refl mid).append (.cons g post _ post (by simp) (by simp) (by simp) (.refl post))

/-- Splitting layers does not change the medium at any depth. -/
theorem Refines.medium {fs lays : List (FLay α)} (h : Refines fs lays) (hp : ∀ l ∈ lays, 0 ≤ l.h) (top z : α) :
    mediumFrom top z lays = mediumFrom top z fs := by
  induction h generalizing top with
  | nil => rfl
  | cons f fs part lays hne hm ht h ih =>
    have hnil : fs = [] ↔ lays = [] := by
      cases h with
      | nil => simp
      | cons g gs p q hpne _ _ _ => simp [hpne]
    have key : ∀ (part : List (FLay α)) (top : α), part ≠ [] → (∀ l ∈ part, 0 ≤ l.h) → (∀ l ∈ part, l.m = f.m) →
        mediumFrom top z (part ++ lays) = if lays = [] then some f.m else if z ≤ top + total part then some f.m
          else mediumFrom (top + total part) z lays := by
      intro part
      induction part with
      | nil => intro top h; exact absurd rfl h
      | cons a part ihp =>
        intro top _ hpos hm
        have ha : a.m = f.m := hm a (by simp)
        cases part with
        | nil =>
          rcases hl : lays with _ | ⟨b, ls⟩
          · simp [mediumFrom, ha]
          · simp only [List.cons_append, List.nil_append, mediumFrom, reduceCtorEq, if_false, total_cons, total_nil, add_zero, ha]
        | cons b part =>
          simp only [List.cons_append, mediumFrom]
          have ih' := ihp (top + a.h) (by simp) (fun l hl => hpos l (List.mem_cons_of_mem _ hl))
            (fun l hl => hm l (List.mem_cons_of_mem _ hl))
          rw [List.cons_append] at ih'
          rw [ih']
          have hnn : 0 ≤ total (b :: part) := total_nonneg fun y hy => hpos y (List.mem_cons_of_mem _ hy)
          have e : top + a.h + total (b :: part) = top + total (a :: b :: part) := by simp only [total_cons]; ring
          rw [e, ha]
          by_cases hz : z ≤ top + a.h
          · rw [if_pos hz]
            split
            · rfl
            · rw [if_pos]
              simp only [total_cons] at hnn ⊢
              linarith
          · rw [if_neg hz]
    rw [key part top hne (fun l hl => hp l (by simp [hl])) hm, ht, ih (fun l hl => hp l (by simp [hl]))]
    rcases hfs : fs with _ | ⟨g, gs⟩
    · rw [if_pos (hnil.1 hfs)]; rfl
    · rw [if_neg (fun hh => by rw [hnil.2 hh] at hfs; cases hfs)]; rfl

theorem mediumFrom_setLast (d top z : α) (fs : List (FLay α)) : mediumFrom top z (setLast d fs) = mediumFrom top z fs := by
  induction fs generalizing top with
  | nil => rfl
  | cons f fs ih =>
    cases fs with
    | nil => rfl
    | cons g gs =>
      rcases he : setLast d (g :: gs) with _ | ⟨a, b⟩
      · exact absurd he (setLast_ne (by simp))
      · simp only [setLast, he, mediumFrom]
        rw [← ih, he]

theorem read_ok {arr : List (FLay α)} {zs zr : α} (hs : 0 ≤ zs) (hr : 0 ≤ zr) {m : Mod1d α}
    (h : readMod1d arr zs zr = .ok m) : Pos arr ∧ arr ≠ [] ∧ ∃ imin imax, Shape (setLast (max zs zr) arr) (min zs zr) (max zs zr) m.lays imin imax := by
  have hne : arr ≠ [] := by
    rintro rfl
    unfold readMod1d at h
    rw [if_neg (not_lt.2 (mul_nonneg hs hr)), if_pos rfl] at h
    cases h
  have hp : Pos arr := by
    by_contra hp
    rw [(read_error hs hr hne).2 hp] at h
    cases h
  obtain ⟨lays, imin, imax, hsh, isrc, ircv, hi1, hi2, he⟩ := read_shape hs hr hne hp
  rw [he] at h
  split at h
  · cases h
  split at h
  · cases h
  injection h with h
  subst h
  exact ⟨hp, hne, imin, imax, hsh⟩

/-- C06: the loaded layers are those of the file, split, so no interface moves and nothing is lost. -/
theorem C06_refines {arr : List (FLay α)} {zs zr : α} (hs : 0 ≤ zs) (hr : 0 ≤ zr) {m : Mod1d α}
    (h : readMod1d arr zs zr = .ok m) : Refines (setLast (max zs zr) arr) m.lays := by
  obtain ⟨-, -, imin, imax, hsh⟩ := read_ok hs hr h
  exact shape_refines hsh

/-- C06: the medium at every depth is the one of the file. -/
theorem C06_medium {arr : List (FLay α)} {zs zr : α} (hs : 0 ≤ zs) (hr : 0 ≤ zr) {m : Mod1d α}
    (h : readMod1d arr zs zr = .ok m) (z : α) (med : Med α) (hz : 0 ≤ z) :
    Covers m.lays z med ↔ mediumAt arr z = some med := by
  have hnn := (C05_wellformed hs hr h).2.2.2.2.2.2.2
  rw [← C06_lookup hz hnn]
  unfold mediumAt
  rw [if_neg (not_lt.2 hz), if_neg (not_lt.2 hz), (C06_refines hs hr h).medium hnn, mediumFrom_setLast]

theorem covers_at {fs : List (FLay α)} {z : α} {dmin dmax : α} {lays : List (FLay α)} {imin imax : ℕ}
    (hmm : dmin ≤ dmax) (hp : ∀ l ∈ fs, 0 < l.h) (h : Shape fs dmin dmax lays imin imax) (i : ℕ)
    (hi : (i = imin ∧ z = dmin) ∨ (i = imax ∧ z = dmax)) :
    ∃ l, lays[i]? = some l ∧ mediumFrom 0 z fs = some l.m := by
  have hnn : ∀ l ∈ fs, 0 ≤ l.h := fun l hl => (hp l hl).le
  cases h with
  | same pre f post hfs h1 h1' h2 hl hmin hmax =>
    have hm : mediumFrom 0 z fs = some f.m := by
      rw [mediumFrom_covers hnn]
      refine ⟨pre, f, post, hfs, ?_, .inr ?_, rfl⟩
      · rcases h1' with h | h
        · exact .inl h
        · right; rcases hi with ⟨-, rfl⟩ | ⟨-, rfl⟩ <;> linarith
      · rcases hi with ⟨-, rfl⟩ | ⟨-, rfl⟩ <;> linarith
    rcases hi with ⟨rfl, -⟩ | ⟨rfl, -⟩
    · exact ⟨⟨dmax - dmin, f.m⟩, by rw [hl, hmin]; simp, hm⟩
    · exact ⟨⟨total pre + f.h - dmax, f.m⟩, by rw [hl, hmax]; simp, hm⟩
  | diff pre f mid g post hfs h1 h1' h2 h3 h3' h4 hl hmin hmax =>
    rcases hi with ⟨rfl, rfl⟩ | ⟨rfl, rfl⟩
    · refine ⟨⟨total pre + f.h - z, f.m⟩, by rw [hl, hmin]; simp, ?_⟩
      rw [mediumFrom_covers hnn]
      refine ⟨pre, f, _, hfs, ?_, .inr ?_, rfl⟩
      · simpa using h1'
      · linarith
    · refine ⟨⟨total pre + f.h + total mid + g.h - z, g.m⟩, ?_, ?_⟩
      · have e3 : pre.length + mid.length + 3 = (pre ++ ⟨dmin - total pre, f.m⟩ :: ⟨total pre + f.h - dmin, f.m⟩ :: mid).length + 1 := by
          simp; omega
        have e2 : lays = (pre ++ ⟨dmin - total pre, f.m⟩ :: ⟨total pre + f.h - dmin, f.m⟩ :: mid) ++
            ⟨z - (total pre + f.h + total mid), g.m⟩ :: ⟨total pre + f.h + total mid + g.h - z, g.m⟩ :: post := by
          rw [hl]; simp
        rw [hmax, e3, e2]
        generalize (pre ++ ⟨dmin - total pre, f.m⟩ :: ⟨total pre + f.h - dmin, f.m⟩ :: mid) = q
        simp
      · rw [mediumFrom_covers hnn]
        refine ⟨pre ++ f :: mid, g, post, by rw [hfs]; simp, .inr ?_, .inr ?_, rfl⟩
        · simp; linarith
        · simp; linarith

/-- C06: the layers at the source and receiver index carry the medium the depth lookup reports. -/
theorem C06_source_receiver {arr : List (FLay α)} {zs zr : α} (hs : 0 ≤ zs) (hr : 0 ≤ zr) {m : Mod1d α}
    (h : readMod1d arr zs zr = .ok m) :
    (∃ l, m.lays[m.isrc]? = some l ∧ mediumAt arr zs = some l.m) ∧
    (∃ l, m.lays[m.ircv]? = some l ∧ mediumAt arr zr = some l.m) := by
  obtain ⟨hp, hne, -⟩ := read_ok hs hr h
  obtain ⟨lays, imin, imax, hsh, isrc, ircv, hi1, hi2, he⟩ := read_shape hs hr hne hp
  rw [he] at h
  split at h
  · cases h
  split at h
  · cases h
  injection h with h
  subst h
  have hpos := nonneg_setLast (hs.trans (le_max_left _ _)) hp (d := max zs zr)
  unfold mediumAt
  rw [if_neg (not_lt.2 hs), if_neg (not_lt.2 hr), ← mediumFrom_setLast (max zs zr), ← mediumFrom_setLast (max zs zr) 0 zr]
  subst hi1; subst hi2
  dsimp only
  constructor
  · apply covers_at min_le_max hpos hsh
    by_cases hc : zr ≤ zs
    · right; simp [hc]
    · left; simp [hc, (not_le.1 hc).le]
  · apply covers_at min_le_max hpos hsh
    by_cases hc : zr ≤ zs
    · left; simp [hc]
    · right; simp [hc, (not_le.1 hc).le]

/-! ### C07 -/

/-- Specification: depth `z` is an interface of the file with liquid on at least one side. -/
def OnLiquidInterface (fs : List (FLay α)) (z : α) : Prop :=
  ∃ pre f g post, fs = pre ++ f :: g :: post ∧ total pre + f.h = z ∧ (f.m.vb = 0 ∨ g.m.vb = 0)

theorem onLiquidInterface_iff {pre post : List (FLay α)} {f : FLay α} {z : α} (hp : ∀ l ∈ pre ++ f :: post, 0 < l.h)
    (h1 : pre = [] ∨ total pre < z) (h2 : z ≤ total pre + f.h) :
    OnLiquidInterface (pre ++ f :: post) z ↔
      total pre + f.h = z ∧ ∃ g post', post = g :: post' ∧ (f.m.vb = 0 ∨ g.m.vb = 0) := by
  constructor
  · rintro ⟨pre', f', g', post', e, hz, hv⟩
    rcases List.append_eq_append_iff.1 e with ⟨a, ha, hb⟩ | ⟨a, ha, hb⟩
    · cases a with
      | nil =>
        simp only [List.append_nil, List.nil_append, List.cons.injEq] at ha hb
        obtain ⟨rfl, rfl⟩ := hb
        rw [ha] at hz
        exact ⟨hz, g', post', rfl, hv⟩
      | cons b a =>
        simp only [List.cons_append, List.cons.injEq] at hb
        obtain ⟨rfl, hb⟩ := hb
        exfalso
        have h0 : 0 ≤ total a := total_nonneg fun y hy => (hp y (by rw [hb]; simp [hy])).le
        have h3 : 0 < f'.h := hp f' (by rw [hb]; simp)
        rw [ha] at hz
        simp only [total_append, total_cons] at hz
        linarith
    · cases a with
      | nil =>
        simp only [List.append_nil, List.nil_append, List.cons.injEq] at ha hb
        obtain ⟨rfl, rfl⟩ := hb
        rw [← ha] at hz
        exact ⟨hz, g', post', rfl, hv⟩
      | cons b a =>
        simp only [List.cons_append, List.cons.injEq] at hb
        obtain ⟨rfl, hb⟩ := hb
        exfalso
        have h0 : 0 ≤ total a := total_nonneg fun y hy => (hp y (by rw [ha]; simp [hy])).le
        rcases h1 with rfl | h1
        · simp at ha
        · rw [ha] at h1
          simp only [total_append, total_cons] at h1
          linarith
  · rintro ⟨hz, g, post', rfl, hv⟩
    exact ⟨pre, f, g, post', rfl, hz, hv⟩

theorem onLiquid_at {a b : FLay α} {pre post : List (FLay α)} {i : ℕ} (hi : i = pre.length) :
    onLiquid (pre ++ a :: b :: post) i = true ↔ a.h = 0 ∧ (a.m.vb = 0 ∨ b.m.vb = 0) := by
  subst hi
  unfold onLiquid
  simp

theorem onLiquid_last {a : FLay α} {pre : List (FLay α)} {i : ℕ} (hi : i = pre.length) :
    onLiquid (pre ++ [a]) i = false := by
  subst hi
  unfold onLiquid
  simp

theorem shape_liquid {fs : List (FLay α)} {dmin dmax : α} (hmm : dmin ≤ dmax) {lays : List (FLay α)} {imin imax : ℕ}
    (h : Shape fs dmin dmax lays imin imax) (hp : ∀ l ∈ fs, 0 < l.h) :
    ((onLiquid lays imin = true ∨ onLiquid lays imax = true) ↔
      (dmin = dmax ∧ ∃ med, mediumFrom 0 dmin fs = some med ∧ med.vb = 0) ∨
      OnLiquidInterface fs dmin ∨ OnLiquidInterface fs dmax) := by
  have hnn : ∀ l ∈ fs, 0 ≤ l.h := fun l hl => (hp l hl).le
  cases h with
  | same pre f post hfs h1 h1' h2 hl hmin hmax =>
    have hm : mediumFrom 0 dmin fs = some f.m := by
      rw [mediumFrom_covers hnn]
      exact ⟨pre, f, post, hfs, by simpa using h1', .inr (by linarith), rfl⟩
    have hp' : ∀ l ∈ pre ++ f :: post, 0 < l.h := by rw [← hfs]; exact hp
    have ia : onLiquid lays imin = true ↔ dmin = dmax ∧ f.m.vb = 0 := by
      have e : lays = (pre ++ [⟨dmin - total pre, f.m⟩]) ++ ⟨dmax - dmin, f.m⟩ :: ⟨total pre + f.h - dmax, f.m⟩ :: post := by
        rw [hl]; simp
      rw [e, onLiquid_at (by simp [hmin])]
      simp only [sub_eq_zero, or_self]
      exact and_congr_left fun _ => eq_comm
    have ib : onLiquid lays imax = true ↔ OnLiquidInterface fs dmax := by
      rw [hfs, onLiquidInterface_iff hp' (by rcases h1' with h | h; exacts [.inl h, .inr (by linarith)]) h2]
      have e : lays = (pre ++ [⟨dmin - total pre, f.m⟩, ⟨dmax - dmin, f.m⟩]) ++ ⟨total pre + f.h - dmax, f.m⟩ :: post := by
        rw [hl]; simp
      rw [e]
      cases post with
      | nil => rw [onLiquid_last (by simp [hmax])]; simp
      | cons g post => rw [onLiquid_at (by simp [hmax])]; simp [sub_eq_zero]
    rw [ia, ib]
    have ic : OnLiquidInterface fs dmin → dmin = dmax := by
      rw [hfs, onLiquidInterface_iff hp' h1' (by linarith)]
      rintro ⟨h, -⟩
      linarith
    constructor
    · rintro (⟨a, b⟩ | h)
      · exact .inl ⟨a, f.m, hm, b⟩
      · exact .inr (.inr h)
    · rintro (⟨a, med, b, c⟩ | h | h)
      · rw [hm] at b; injection b with b; subst b; exact .inl ⟨a, c⟩
      · rw [ic h] at h; exact .inr h
      · exact .inr h
  | diff pre f mid g post hfs h1 h1' h2 h3 h3' h4 hl hmin hmax =>
    have hlt : dmin < dmax := by linarith
    have hp' : ∀ l ∈ pre ++ f :: (mid ++ g :: post), 0 < l.h := by rw [← hfs]; exact hp
    have ia : onLiquid lays imin = true ↔ OnLiquidInterface fs dmin := by
      rw [hfs, onLiquidInterface_iff hp' h1' h2]
      have e : lays = (pre ++ [⟨dmin - total pre, f.m⟩]) ++ ⟨total pre + f.h - dmin, f.m⟩ :: (mid ++
        [⟨dmax - (total pre + f.h + total mid), g.m⟩, ⟨total pre + f.h + total mid + g.h - dmax, g.m⟩] ++ post) := by
        rw [hl]; simp
      rw [e]
      cases mid with
      | nil => rw [List.nil_append, List.cons_append, onLiquid_at (by simp [hmin])]; simp [sub_eq_zero]
      | cons c mid => rw [List.cons_append, List.cons_append, onLiquid_at (by simp [hmin])]; simp [sub_eq_zero]
    have ib : onLiquid lays imax = true ↔ OnLiquidInterface fs dmax := by
      have e0 : pre ++ f :: (mid ++ g :: post) = (pre ++ f :: mid) ++ g :: post := by simp
      rw [hfs, e0, onLiquidInterface_iff (by rw [← e0]; exact hp') (.inr (by simp; linarith)) (by simp; linarith)]
      have e : lays = (pre ++ [⟨dmin - total pre, f.m⟩, ⟨total pre + f.h - dmin, f.m⟩] ++ mid ++
        [⟨dmax - (total pre + f.h + total mid), g.m⟩]) ++ ⟨total pre + f.h + total mid + g.h - dmax, g.m⟩ :: post := by
        rw [hl]; simp
      rw [e]
      cases post with
      | nil => rw [onLiquid_last (by simp [hmax]; omega)]; simp
      | cons c post => rw [onLiquid_at (by simp [hmax]; omega)]; simp [sub_eq_zero, add_assoc]
    rw [ia, ib]
    constructor
    · rintro (h | h)
      exacts [.inr (.inl h), .inr (.inr h)]
    · rintro (⟨a, -⟩ | h | h)
      · exact absurd a hlt.ne
      exacts [.inl h, .inr h]

theorem setLast_append (d : α) (pre post : List (FLay α)) (g : FLay α) :
    setLast d (pre ++ g :: post) = pre ++ setLast d (g :: post) := by
  induction pre with
  | nil => rfl
  | cons f pre ih =>
    rcases he : pre ++ g :: post with _ | ⟨a, b⟩
    · simp at he
    · rw [List.cons_append, he, setLast, ← he, ih]; rfl

theorem onLiquidInterface_setLast (d : α) (fs : List (FLay α)) (z : α) :
    OnLiquidInterface (setLast d fs) z ↔ OnLiquidInterface fs z := by
  constructor
  · rintro ⟨pre, f, g, post, e, hz, hv⟩
    have hlen : fs.length = pre.length + 2 + post.length := by
      rw [← setLast_length d, e]; simp; omega
    obtain ⟨pre', rest, rfl, hl⟩ : ∃ pre' rest, fs = pre' ++ rest ∧ pre'.length = pre.length :=
      ⟨fs.take pre.length, fs.drop pre.length, (List.take_append_drop _ _).symm, by simp; omega⟩
    rcases rest with _ | ⟨f', _ | ⟨g', post'⟩⟩
    · simp at hlen; omega
    · simp at hlen; omega
    rw [setLast_append] at e
    obtain ⟨rfl, e'⟩ := List.append_inj e hl
    clear e
    rw [setLast, List.cons.injEq] at e'
    obtain ⟨rfl, e⟩ := e'
    refine ⟨pre', f', g', post', rfl, hz, ?_⟩
    cases post' with
    | nil => simp only [setLast, List.cons.injEq] at e; rw [← e.1] at hv; exact hv
    | cons c p => simp only [setLast, List.cons.injEq] at e; rw [← e.1] at hv; exact hv
  · rintro ⟨pre, f, g, post, rfl, hz, hv⟩
    rw [setLast_append]
    cases post with
    | nil => exact ⟨pre, f, ⟨d + 10^30, g.m⟩, [], rfl, hz, hv⟩
    | cons c p => exact ⟨pre, f, g, setLast d (c :: p), rfl, hz, hv⟩

/-- C07, what the checks decide: a model with positive thicknesses is rejected exactly when source or
receiver lies on an interface with liquid on one side, or both are at the same depth anywhere inside a
liquid layer.  The last alternative is the disagreement with the property (`C07_violated`). -/
theorem C07_partial {arr : List (FLay α)} {zs zr : α} (hs : 0 ≤ zs) (hr : 0 ≤ zr) (hne : arr ≠ []) (hp : Pos arr) :
    (∃ e, readMod1d arr zs zr = .error e) ↔
      OnLiquidInterface arr zs ∨ OnLiquidInterface arr zr ∨
      (zs = zr ∧ ∃ med, mediumAt arr zs = some med ∧ med.vb = 0) := by
  obtain ⟨lays, imin, imax, hsh, isrc, ircv, hi1, hi2, he⟩ := read_shape hs hr hne hp
  have hpos := nonneg_setLast (hs.trans (le_max_left _ _)) hp (d := max zs zr)
  have hrej : (∃ e, readMod1d arr zs zr = .error e) ↔ (onLiquid lays ircv = true ∨ onLiquid lays isrc = true) := by
    rw [he]
    by_cases h1 : onLiquid lays ircv = true
    · simp [h1]
    · by_cases h2 : onLiquid lays isrc = true
      · rw [if_neg h1, if_pos h2]; simp [h2]
      · rw [if_neg h1, if_neg h2]; simp [h1, h2]
  have hL := shape_liquid min_le_max hsh hpos
  rw [hrej]
  rw [mediumFrom_setLast, onLiquidInterface_setLast, onLiquidInterface_setLast] at hL
  unfold mediumAt
  rw [if_neg (not_lt.2 hs)]
  by_cases hc : zr ≤ zs
  · rw [if_pos hc] at hi1 hi2
    rw [min_eq_right hc, max_eq_left hc] at hL
    rw [hi1, hi2, hL]
    constructor
    · rintro (⟨h, h'⟩ | h | h)
      · rw [h] at h'; exact .inr (.inr ⟨h.symm, h'⟩)
      · exact .inr (.inl h)
      · exact .inl h
    · rintro (h | h | ⟨h, h'⟩)
      · exact .inr (.inr h)
      · exact .inr (.inl h)
      · rw [h] at h'; exact .inl ⟨h.symm, h'⟩
  · rw [if_neg hc] at hi1 hi2
    have hc' := (not_le.1 hc).le
    rw [min_eq_left hc', max_eq_right hc'] at hL
    rw [hi1, hi2, or_comm, hL]
    have hne' : zs ≠ zr := fun h => hc h.ge
    constructor
    · rintro (⟨h, -⟩ | h | h)
      · exact absurd h hne'
      · exact .inl h
      · exact .inr (.inl h)
    · rintro (h | h | ⟨h, -⟩)
      · exact .inr (.inl h)
      · exact .inr (.inr h)
      · exact absurd h hne'

section examples

def water : Med ℚ := ⟨3/2, 0, 1, 0, 0⟩
def rock : Med ℚ := ⟨6, 7/2, 27/10, 600, 300⟩
def mantle : Med ℚ := ⟨8, 9/2, 33/10, 900, 500⟩
/-- the program exits with this error -/
def exits (m : Except Err (Mod1d ℚ)) (e : Err) : Bool :=
  match m with
  | .ok _ => false
  | .error e' => e' == e
theorem exits_iff {m : Except Err (Mod1d ℚ)} {e : Err} (h : exits m e = true) : m = .error e := by
  cases m with
  | ok _ => cases h
  | error e' => simpa [exits] using h
def ocean : List (FLay ℚ) := [⟨3, water⟩, ⟨10, rock⟩, ⟨0, mantle⟩]

theorem ocean_pos : Pos ocean := ⟨by norm_num, by norm_num, trivial⟩

/-- C07 is violated: source and receiver both one kilometre below the surface of a three kilometre deep
ocean are rejected as lying on a liquid interface, although no interface is there. -/
theorem C07_violated :
    readMod1d ocean 1 1 = .error .receiverOnLiquid ∧ ¬ OnLiquidInterface ocean 1 := by
  refine ⟨exits_iff (by decide +kernel), ?_⟩
  have := onLiquidInterface_iff (pre := []) (f := ⟨3, water⟩) (post := [⟨10, rock⟩, ⟨1, mantle⟩]) (z := (1 : ℚ))
    (by intro l hl; simp at hl; rcases hl with rfl | rfl | rfl <;> norm_num) (.inl rfl) (by norm_num)
  have h2 := onLiquidInterface_setLast (1 - 10^30 : ℚ) ocean 1
  rw [← h2]
  have e : setLast (1 - 10^30 : ℚ) ocean = [] ++ ⟨3, water⟩ :: [⟨10, rock⟩, ⟨1, mantle⟩] := by decide +kernel
  rw [e, this]
  norm_num

/-- The hypotheses of C05 and C06 are met: source at 13 km (on the interface), receiver on the sea floor
side, and source above the receiver. -/
def loaded (m : Except Err (Mod1d ℚ)) (a b : ℕ) (up : Bool) (thk : List ℚ) : Bool :=
  match m with
  | .ok m => m.isrc == a && m.ircv == b && m.ircvup == up && decide (m.lays.dropLast.map FLay.h = thk)
  | .error _ => false

example : loaded (readMod1d ocean 13 2) 3 1 true [2, 1, 10, 0] = true := by decide +kernel
example : loaded (readMod1d ocean 4 20) 2 4 false [3, 1, 9, 7] = true := by decide +kernel
example : loaded (readMod1d ocean 5 5) 3 2 true [3, 2, 0, 8] = true := by decide +kernel
example : readMod1d ocean 3 4 = .error .sourceOnLiquid ∧ OnLiquidInterface ocean 3 :=
  ⟨exits_iff (by decide +kernel), [], _, _, _, rfl, by norm_num, .inl rfl⟩

end examples

end GRT.Model1D
