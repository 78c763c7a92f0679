import Verif.Travt.Props

/-! C30 and C31 from the model file on: the reader's output meets the hypotheses of the theorems about
`grt_compute_travt1d`. -/

namespace GRT.Travt

open GRT.Model1D Finset

/-- Thickness array of a loaded model, `Thk`. -/
def thkOf (lays : List (FLay ℝ)) (i : ℕ) : ℝ := (lays[i]?).elim 0 (·.h)

/-- Velocity array of a loaded model, `Va` or `Vb`. -/
def velOf (sel : Med ℝ → ℝ) (lays : List (FLay ℝ)) (i : ℕ) : ℝ := (lays[i]?).elim 0 (fun l => sel l.m)

theorem fromFile_eq (sel : Med ℝ → ℝ) (arr : List (FLay ℝ)) (zs zr dist : ℝ) :
    fromFile sel arr zs zr dist = (readMod1d arr zs zr).map fun m =>
      travt1d (thkOf m.lays) (velOf sel m.lays) m.lays.length m.isrc m.ircv dist := rfl

theorem shape_adj {fs : List (FLay ℝ)} {dmin dmax : ℝ} {lays : List (FLay ℝ)} {imin imax : ℕ} (sel : Med ℝ → ℝ)
    (h : Shape fs dmin dmax lays imin imax) (h1 : imax - imin = 1) : velOf sel lays imin = velOf sel lays imax := by
  cases h with
  | same pre f post hfs h1 h1' h2 hl hmin hmax =>
    subst hmin; subst hmax; subst hl
    simp [velOf]
  | diff pre f mid g post hfs h1 h1' h2 h3 h3' h4 hl hmin hmax => omega

theorem shape_zero {fs : List (FLay ℝ)} {dmin dmax : ℝ} {lays : List (FLay ℝ)} {imin imax : ℕ}
    (h : Shape fs dmin dmax lays imin imax) (hp : ∀ l ∈ fs, 0 < l.h) {i : ℕ} (i1 : imin ≤ i) (i2 : i < imax)
    (i3 : thkOf lays i = 0) : i = imin := by
  cases h with
  | same pre f post hfs h1 h1' h2 hl hmin hmax => omega
  | diff pre f mid g post hfs h1 h1' h2 h3 h3' h4 hl hmin hmax =>
    by_contra hne
    obtain ⟨j, rfl⟩ : ∃ j, i = pre.length + 2 + j := ⟨i - (pre.length + 2), by omega⟩
    have e : lays[pre.length + 2 + j]? = (mid ++ [⟨dmax - (total pre + f.h + total mid), g.m⟩])[j]? := by
      rw [hl, show pre ++ [⟨dmin - total pre, f.m⟩, ⟨total pre + f.h - dmin, f.m⟩] ++ mid ++
        [⟨dmax - (total pre + f.h + total mid), g.m⟩, ⟨total pre + f.h + total mid + g.h - dmax, g.m⟩] ++ post =
        (pre ++ [⟨dmin - total pre, f.m⟩, ⟨total pre + f.h - dmin, f.m⟩]) ++ ((mid ++
        [⟨dmax - (total pre + f.h + total mid), g.m⟩]) ++ (⟨total pre + f.h + total mid + g.h - dmax, g.m⟩ :: post)) by simp]
      rw [List.getElem?_append_right (by simp), List.getElem?_append_left (by simp; omega)]
      congr 1
      simp
    have hj : j < (mid ++ [(⟨dmax - (total pre + f.h + total mid), g.m⟩ : FLay ℝ)]).length := by simp; omega
    rw [thkOf, e, List.getElem?_eq_getElem hj] at i3
    simp only [Option.elim] at i3
    have hmem := List.getElem_mem hj
    generalize (mid ++ [(⟨dmax - (total pre + f.h + total mid), g.m⟩ : FLay ℝ)])[j] = l at i3 hmem
    simp only [List.mem_append, List.mem_singleton] at hmem
    rcases hmem with hm | rfl
    · have := hp l (by rw [hfs]; simp [hm]); linarith
    · simp only at i3; linarith

/-- What a successful load gives. -/
theorem read_stack (sel : Med ℝ → ℝ) {arr : List (FLay ℝ)} {zs zr : ℝ} (hs : 0 ≤ zs) (hr : 0 ≤ zr) {m : Mod1d ℝ}
    (h : readMod1d arr zs zr = .ok m) :
    Stack (thkOf m.lays) (velOf sel m.lays) m.lays.length m.isrc m.ircv ∧
      Shape (setLast (max zs zr) arr) (min zs zr) (max zs zr) m.lays (min m.isrc m.ircv) (max m.isrc m.ircv) ∧ Pos arr := by
  obtain ⟨hp, hne, -⟩ := read_ok hs hr h
  obtain ⟨w1, -, w3, w4, w5, w6, w7, w8⟩ := C05_wellformed hs hr h
  obtain ⟨lays, imin, imax, hsh, isrc, ircv, hi1, hi2, he⟩ := read_shape hs hr hne hp
  rw [he] at h
  split at h
  · cases h
  split at h
  · cases h
  injection h with h
  subst h
  dsimp only at *
  have hlt := (shape_virtual hsh).2.1
  have hmin : min isrc ircv = imin ∧ max isrc ircv = imax := by
    rw [hi1, hi2]
    split <;> constructor <;> omega
  have hpos := nonneg_setLast (hs.trans (le_max_left zs zr)) hp
  refine ⟨⟨?_, w3.lt, w4.lt, ?_, ?_, ?_⟩, by rw [hmin.1, hmin.2]; exact hsh, hp⟩
  · rw [hi1, hi2]; split <;> omega
  · intro i
    unfold thkOf
    rcases hi : lays[i]? with _ | l
    · exact le_rfl
    · exact w8 l (List.mem_of_getElem? hi)
  · intro h1
    rw [hmin.1, hmin.2] at h1
    have := shape_adj sel hsh h1
    rw [hi1, hi2]
    split
    · exact this.symm
    · exact this
  · intro i i1 i2 i3
    rw [hmin.1] at i1; rw [hmin.2] at i2
    obtain rfl := shape_zero hsh hpos i1 i2 i3
    rw [hi1, hi2]
    split
    · exact .inr rfl
    · exact .inl rfl

/-- The reader of model files produces stacks as `Stack` describes them. -/
theorem C31_reader (sel : Med ℝ → ℝ) {arr : List (FLay ℝ)} {zs zr : ℝ} (hs : 0 ≤ zs) (hr : 0 ≤ zr) {m : Mod1d ℝ}
    (h : readMod1d arr zs zr = .ok m) : Stack (thkOf m.lays) (velOf sel m.lays) m.lays.length m.isrc m.ircv :=
  (read_stack sel hs hr h).1

/-! ### Media between two depths -/

theorem mediumFrom_at {top z : ℝ} {pre : List (FLay ℝ)} {f : FLay ℝ} {post : List (FLay ℝ)} (hp : ∀ l ∈ pre, 0 < l.h)
    (h1 : pre = [] ∨ top + total pre < z) (h2 : z ≤ top + total pre + f.h) :
    mediumFrom top z (pre ++ f :: post) = some f.m := by
  induction pre generalizing top with
  | nil =>
    rw [List.nil_append]
    cases post with
    | nil => rfl
    | cons g gs => simp only [mediumFrom]; rw [if_pos (by simpa using h2)]
  | cons a pre ih =>
    have ht : 0 ≤ total pre := by
      unfold total
      apply List.sum_nonneg
      intro x hx
      obtain ⟨l, hl, rfl⟩ := List.mem_map.1 hx
      exact (hp l (by simp [hl])).le
    have h1 : top + (a.h + total pre) < z := by simpa using h1
    have hgo : mediumFrom top z (a :: (pre ++ f :: post)) = mediumFrom (top + a.h) z (pre ++ f :: post) := by
      rcases hq : pre ++ f :: post with _ | ⟨b, c⟩
      · simp at hq
      · simp only [mediumFrom]; rw [if_neg (by linarith)]
    rw [List.cons_append, hgo]
    exact ih (fun l hl => hp l (by simp [hl])) (.inr (by linarith)) (by rw [total_cons] at h2; linarith)

theorem mediumFrom_mem {top z : ℝ} {mid : List (FLay ℝ)} {g : FLay ℝ} {post : List (FLay ℝ)} {med : Med ℝ}
    (h2 : z ≤ top + total mid + g.h) (h : mediumFrom top z (mid ++ g :: post) = some med) :
    ∃ l ∈ mid ++ [g], l.m = med := by
  induction mid generalizing top with
  | nil =>
    rw [List.nil_append] at h
    cases post with
    | nil => simp only [mediumFrom, Option.some.injEq] at h; exact ⟨g, by simp, h⟩
    | cons a b =>
      simp only [mediumFrom] at h; rw [if_pos (by simpa using h2)] at h
      exact ⟨g, by simp, by simpa using h⟩
  | cons a mid ih =>
    rw [List.cons_append] at h
    rcases hq : mid ++ g :: post with _ | ⟨b, c⟩
    · simp at hq
    · rw [hq] at h
      simp only [mediumFrom] at h
      split at h
      · exact ⟨a, by simp, by simpa using h⟩
      · rw [← hq] at h
        obtain ⟨l, hl, e⟩ := ih (by rw [total_cons] at h2; linarith) h
        exact ⟨l, by simp at hl ⊢; tauto, e⟩

theorem shape_media {fs : List (FLay ℝ)} {dmin dmax : ℝ} {lays : List (FLay ℝ)} {imin imax : ℕ} (sel : Med ℝ → ℝ)
    (h : Shape fs dmin dmax lays imin imax) (hp : ∀ l ∈ fs, 0 < l.h) (hm : dmin ≤ dmax) :
    (∃ i, imin ≤ i ∧ i ≤ imax ∧ velOf sel lays i = 0) ↔
      ∃ z med, dmin ≤ z ∧ z ≤ dmax ∧ mediumFrom 0 z fs = some med ∧ sel med = 0 := by
  cases h with
  | same pre f post hfs h1 h1' h2 hl hmin hmax =>
    subst hmin; subst hmax; subst hl; subst hfs
    have hat : ∀ z, dmin ≤ z → z ≤ dmax → mediumFrom 0 z (pre ++ f :: post) = some f.m := fun z z1 z2 =>
      mediumFrom_at (fun l hl => hp l (by simp [hl])) (h1'.imp id (by intro h; linarith)) (by linarith)
    constructor
    · rintro ⟨i, i1, i2, i3⟩
      refine ⟨dmin, f.m, le_rfl, hm, hat _ le_rfl hm, ?_⟩
      obtain rfl | rfl : i = pre.length + 1 ∨ i = pre.length + 2 := by omega
      · simpa [velOf] using i3
      · simpa [velOf] using i3
    · rintro ⟨z, med, z1, z2, z3, z4⟩
      rw [hat z z1 z2] at z3
      injection z3 with z3
      subst z3
      exact ⟨pre.length + 1, le_rfl, by omega, by simpa [velOf] using z4⟩
  | diff pre f mid g post hfs h1 h1' h2 h3 h3' h4 hl hmin hmax =>
    have hL : lays = (pre ++ [⟨dmin - total pre, f.m⟩]) ++ ((⟨total pre + f.h - dmin, f.m⟩ :: mid ++
        [⟨dmax - (total pre + f.h + total mid), g.m⟩, ⟨total pre + f.h + total mid + g.h - dmax, g.m⟩]) ++ post) := by
      rw [hl]; simp
    have hidx : ∀ j, j < mid.length + 3 → velOf sel lays (pre.length + 1 + j) =
        ((f :: mid ++ [g, g])[j]?).elim 0 (fun l => sel l.m) := by
      intro j hj
      unfold velOf
      rw [hL, List.getElem?_append_right (by simp), List.getElem?_append_left (by simp; omega)]
      rw [show pre.length + 1 + j - (pre ++ [(⟨dmin - total pre, f.m⟩ : FLay ℝ)]).length = j by simp]
      rcases j with _ | j
      · simp
      · simp only [List.cons_append, List.getElem?_cons_succ]
        rcases Nat.lt_or_ge j mid.length with h | h
        · rw [List.getElem?_append_left h, List.getElem?_append_left h]
        · rw [List.getElem?_append_right h, List.getElem?_append_right h]
          obtain h | h : j - mid.length = 0 ∨ j - mid.length = 1 := by omega
          · simp [h]
          · simp [h]
    have hfs' : fs = pre ++ f :: mid ++ g :: post := by rw [hfs]; simp
    constructor
    · rintro ⟨i, i1, i2, i3⟩
      obtain ⟨j, rfl⟩ : ∃ j, i = pre.length + 1 + j := ⟨i - (pre.length + 1), by omega⟩
      have hj : j < mid.length + 3 := by omega
      rw [hidx j hj] at i3
      have hj' : j < (f :: mid ++ [g, g]).length := by simp; omega
      rw [List.getElem?_eq_getElem hj'] at i3
      have hmem := List.getElem_mem hj'
      generalize (f :: mid ++ [g, g])[j] = l at i3 hmem
      simp only [Option.elim] at i3
      have hcase : l = f ∨ l ∈ mid ∨ l = g := by simpa using hmem
      rcases hcase with rfl | hl' | rfl
      · refine ⟨dmin, l.m, le_rfl, hm, ?_, i3⟩
        rw [hfs]
        exact mediumFrom_at (fun a ha => hp a (by rw [hfs]; simp [ha])) (h1'.imp id (by intro h; linarith)) (by linarith)
      · obtain ⟨m1, m2, rfl⟩ := List.append_of_mem hl'
        have hlpos : 0 < l.h := hp l (by rw [hfs]; simp)
        have hm1 : ∀ a ∈ m1 ++ l :: m2, 0 < a.h := fun a ha => hp a (by rw [hfs]; simp at ha ⊢; tauto)
        have t1 : 0 ≤ total m1 := by
          unfold total
          apply List.sum_nonneg
          intro x hx
          obtain ⟨l, hl, rfl⟩ := List.mem_map.1 hx
          exact (hm1 l (by simp [hl])).le
        have t2 : 0 ≤ total m2 := by
          unfold total
          apply List.sum_nonneg
          intro x hx
          obtain ⟨l, hl, rfl⟩ := List.mem_map.1 hx
          exact (hm1 l (by simp [hl])).le
        rw [total_append, total_cons] at h3
        refine ⟨total pre + f.h + total m1 + l.h, l.m, by linarith, by linarith, ?_, i3⟩
        rw [hfs, show pre ++ f :: (m1 ++ l :: m2 ++ g :: post) = (pre ++ f :: m1) ++ l :: (m2 ++ g :: post) by simp]
        refine mediumFrom_at (fun a ha => hp a (by rw [hfs]; simp at ha ⊢; tauto)) (.inr ?_) ?_
        · rw [total_append, total_cons]; linarith
        · rw [total_append, total_cons]; linarith
      · refine ⟨dmax, l.m, hm, le_rfl, ?_, i3⟩
        rw [hfs']
        refine mediumFrom_at (fun a ha => hp a (by rw [hfs]; simp at ha ⊢; tauto)) (.inr ?_) ?_
        · rw [total_append, total_cons]; linarith
        · rw [total_append, total_cons]; linarith
    · rintro ⟨z, med, z1, z2, z3, z4⟩
      have hmem : ∃ l ∈ f :: mid ++ [g], l.m = med := by
        by_cases hz : z ≤ total pre + f.h
        · rw [hfs, mediumFrom_at (fun a ha => hp a (by rw [hfs]; simp [ha])) (h1'.imp id (by intro h; linarith)) (by linarith)] at z3
          injection z3 with z3
          exact ⟨f, by simp, z3⟩
        · have hgo : ∀ (pre : List (FLay ℝ)) (top : ℝ), (∀ l ∈ pre, 0 < l.h) → top + total pre < z →
              mediumFrom top z (pre ++ (mid ++ g :: post)) = mediumFrom (top + total pre) z (mid ++ g :: post) := by
            intro pre
            induction pre with
            | nil => intro top _ _; simp
            | cons a pre ih =>
              intro top hp ht
              have h0 : 0 ≤ total pre := by
                unfold total
                apply List.sum_nonneg
                intro x hx
                obtain ⟨l, hl, rfl⟩ := List.mem_map.1 hx
                exact (hp l (by simp [hl])).le
              rw [total_cons] at ht
              rcases hq : pre ++ (mid ++ g :: post) with _ | ⟨b, c⟩
              · simp at hq
              · rw [List.cons_append, hq]
                simp only [mediumFrom]
                rw [if_neg (by linarith), ← hq, ih (top + a.h) (fun l hl => hp l (by simp [hl])) (by linarith), total_cons,
                  add_assoc]
          have hgo := hgo (pre ++ [f]) 0 (fun a ha => hp a (by rw [hfs]; simp at ha ⊢; tauto))
            (by rw [total_append, total_cons, total_nil]; linarith)
          rw [hfs, show pre ++ f :: (mid ++ g :: post) = pre ++ [f] ++ (mid ++ g :: post) by simp, hgo] at z3
          obtain ⟨l, hl, e⟩ := mediumFrom_mem (by rw [total_append, total_cons, total_nil]; linarith) z3
          exact ⟨l, by simp at hl ⊢; tauto, e⟩
      obtain ⟨l, hl', rfl⟩ := hmem
      obtain ⟨j, hj, rfl⟩ := List.getElem_of_mem hl'
      have hj2 : j < mid.length + 2 := by simp at hj; omega
      refine ⟨pre.length + 1 + j, by omega, by omega, ?_⟩
      rw [hidx j (by omega), show f :: mid ++ [g, g] = (f :: mid ++ [g]) ++ [g] by simp, List.getElem?_append_left hj,
        List.getElem?_eq_getElem hj]
      exact z4

/-! ### The properties, from the model file on -/

/-- C31: for a model file that loads, the marker is returned exactly when the wave type has zero velocity at some
depth between source and receiver, both included. -/
theorem C31_marker_file (sel : Med ℝ → ℝ) {arr : List (FLay ℝ)} {zs zr dist r : ℝ} (hs : 0 ≤ zs) (hr : 0 ≤ zr) (hd : 0 ≤ dist)
    (h : fromFile sel arr zs zr dist = .ok r) :
    (r = -12345 ↔ ∃ z med, min zs zr ≤ z ∧ z ≤ max zs zr ∧ mediumAt arr z = some med ∧ sel med = 0) ∧
    (r ≠ -12345 → 0 ≤ r) := by
  rw [fromFile_eq] at h
  rcases hm : readMod1d arr zs zr with e | m
  · rw [hm] at h; cases h
  rw [hm] at h
  injection h with h
  dsimp only at h
  obtain ⟨S, hsh, hp⟩ := read_stack sel hs hr hm
  obtain ⟨m1, m2⟩ := C31_marker (dist := dist) S hd
  rw [h] at m1 m2
  have hiff : (∃ z med, min zs zr ≤ z ∧ z ≤ max zs zr ∧ mediumAt arr z = some med ∧ sel med = 0) ↔
      ¬ Carries (velOf sel m.lays) m.isrc m.ircv := by
    have := shape_media sel hsh (nonneg_setLast (hs.trans (le_max_left zs zr)) hp) min_le_max
    unfold Carries
    push_neg
    rw [this]
    have hz : 0 ≤ min zs zr := le_min hs hr
    constructor
    · rintro ⟨z, med, z1, z2, z3, z4⟩
      refine ⟨z, med, z1, z2, ?_, z4⟩
      rw [mediumFrom_setLast]
      unfold mediumAt at z3
      rwa [if_neg (by linarith)] at z3
    · rintro ⟨z, med, z1, z2, z3, z4⟩
      refine ⟨z, med, z1, z2, ?_, z4⟩
      rw [mediumFrom_setLast] at z3
      unfold mediumAt
      rwa [if_neg (by linarith)]
  rw [hiff]
  refine ⟨m1, fun hne => m2 ?_⟩
  by_contra hc
  exact hne (m1.2 hc)

/-- C30: exchanging the depths of source and receiver gives the same travel time from the same model file, and
loads in both cases or in none. -/
theorem C30_reciprocity (sel : Med ℝ → ℝ) (arr : List (FLay ℝ)) {zs zr dist : ℝ} (hs : 0 ≤ zs) (hr : 0 ≤ zr) :
    (fromFile sel arr zs zr dist).toOption = (fromFile sel arr zr zs dist).toOption := by
  rcases eq_or_ne zs zr with rfl | hne
  · rfl
  have key : ∀ zs zr : ℝ, 0 ≤ zs → 0 ≤ zr → zs ≠ zr → ∀ m, readMod1d arr zs zr = .ok m →
      ∃ m', readMod1d arr zr zs = .ok m' ∧ m'.lays = m.lays ∧ m'.isrc = m.ircv ∧ m'.ircv = m.isrc := by
    intro zs zr hs hr hne m hm
    obtain ⟨hp, hne', -⟩ := read_ok hs hr hm
    unfold readMod1d at hm ⊢
    have c1 : ¬ zs * zr < 0 := not_lt.2 (mul_nonneg hs hr)
    have c2 : ¬ zr * zs < 0 := not_lt.2 (mul_nonneg hr hs)
    rw [if_neg c1, if_neg hne'] at hm
    rw [if_neg c2, if_neg hne']
    dsimp only at hm ⊢
    rcases lt_or_gt_of_ne hne with hlt | hlt
    · have d1 : ¬ zr ≤ zs := not_le.2 hlt
      have d2 : zs ≤ zr := hlt.le
      simp only [d1, d2, hs, hr, decide_false, decide_true, if_true, and_self, Bool.false_eq_true, if_false] at hm ⊢
      rcases hrun : run true zr (setLast zr arr) ⟨[], 0, 0, 0, false, zs⟩ with _ | st
      · rw [hrun] at hm; cases hm
      · rw [hrun] at hm
        dsimp only at hm ⊢
        split at hm
        · cases hm
        split at hm
        · cases hm
        rename_i g1 g2
        rw [if_neg g2, if_neg g1]
        injection hm with hm
        subst hm
        exact ⟨_, rfl, rfl, rfl, rfl⟩
    · have d1 : zr ≤ zs := hlt.le
      have d2 : ¬ zs ≤ zr := not_le.2 hlt
      simp only [d1, d2, hs, hr, decide_false, decide_true, if_true, and_self, Bool.false_eq_true, if_false] at hm ⊢
      rcases hrun : run true zs (setLast zs arr) ⟨[], 0, 0, 0, false, zr⟩ with _ | st
      · rw [hrun] at hm; cases hm
      · rw [hrun] at hm
        dsimp only at hm ⊢
        split at hm
        · cases hm
        split at hm
        · cases hm
        rename_i g1 g2
        rw [if_neg g2, if_neg g1]
        injection hm with hm
        subst hm
        exact ⟨_, rfl, rfl, rfl, rfl⟩
  rw [fromFile_eq, fromFile_eq]
  rcases h1 : readMod1d arr zs zr with e | m
  · rcases h2 : readMod1d arr zr zs with e' | m
    · rfl
    · obtain ⟨m', hm', -⟩ := key zr zs hr hs hne.symm m h2
      rw [h1] at hm'; cases hm'
  · obtain ⟨m', hm', e1, e2, e3⟩ := key zs zr hs hr hne m h1
    have S := C31_reader sel hs hr h1
    rw [hm']
    simp only [Except.map, Except.toOption]
    rw [e1, e2, e3]
    congr 1
    exact C30_exchange S.adj

end GRT.Travt
