import Verif.StaticGrn.Model
import Verif.Search.PropsFind

/-!
C108: an entry of a static library depends on its own depths and distance, the model, the options and the largest distance of the
grid, not on the other depths and grid points.
-/

namespace GRT.StaticGrn

open Real GRT.Integ GRT.Freq GRT.StaticSyn GRT.Model1D

/-! ### Specification -/

/-- Distances of the points of a grid. -/
def Dist (norths easts : List ℝ) : Set ℝ := {r | ∃ x ∈ norths, ∃ y ∈ easts, r = √(x ^ 2 + y ^ 2)}

/-- Different distances of a grid are at least 1e-8 km apart. -/
def Apart (norths easts : List ℝ) : Prop := ∀ r ∈ Dist norths easts, ∀ r' ∈ Dist norths easts, |r - r'| < 1 / 10 ^ 8 → r = r'

/-! ### Lemmas -/

theorem mem_gridRs {norths easts : List ℝ} {r : ℝ} : r ∈ gridRs norths easts ↔ r ∈ Dist norths easts := by
  unfold gridRs Dist
  simp only [List.mem_flatMap, List.mem_map, Set.mem_setOf_eq]
  constructor
  · rintro ⟨x, hx, y, hy, rfl⟩
    exact ⟨x, hx, y, hy, rfl⟩
  · rintro ⟨x, hx, y, hy, rfl⟩
    exact ⟨x, hx, y, hy, rfl⟩

theorem gridRs_get {norths easts : List ℝ} {a b : ℕ} {x y : ℝ} (hx : norths[a]? = some x) (hy : easts[b]? = some y) :
    (gridRs norths easts)[b + a * easts.length]? = some √(x ^ 2 + y ^ 2) := by
  unfold gridRs
  induction norths generalizing a with
  | nil => simp at hx
  | cons x0 t ih =>
    rw [List.flatMap_cons]
    cases a with
    | zero =>
      simp only [List.getElem?_cons_zero, Option.some.injEq] at hx
      subst hx
      have hb : b < easts.length := (List.getElem?_eq_some_iff.1 hy).1
      rw [Nat.zero_mul, Nat.add_zero, List.getElem?_append_left (by simpa using hb), List.getElem?_map, hy]
      rfl
    | succ a =>
      rw [List.getElem?_append_right (by simp; nlinarith), List.length_map]
      have : b + (a + 1) * easts.length - easts.length = b + a * easts.length := by
        rw [Nat.add_mul, one_mul]; omega
      rw [this]
      exact ih (by simpa using hx)

theorem rmaxOf_spec {rs : List ℝ} {R : ℝ} (h : IsGreatest {r | r ∈ rs} R) : rmaxOf rs = some R := by
  have hne : rs ≠ [] := by
    rintro rfl
    exact absurd h.1 (by simp)
  obtain ⟨i, v, h1, h2, h3⟩ := Search.C04_findMax rs hne
  unfold rmaxOf
  rw [h1, Option.bind_some, h2]
  have hv : v ∈ rs := List.mem_of_getElem? h2
  obtain ⟨j, hj⟩ := List.mem_iff_getElem?.1 h.1
  exact congrArg some (le_antisymm (h.2 hv) (h3 j R hj).1)

/-- What a setting of one pair of depths keeps. -/
theorem settings_keeps {n : ℕ} {ker : ℝ → Chnl × Chnl} {same : Bool} {K K' : Kproc} (h : settings n ker same K = some K') :
    (K.cvg ≠ .ptam → K'.cvg ≠ .ptam) ∧ K'.fim = K.fim ∧ K'.safim = K.safim ∧ (K.keps ≤ 0 → K'.keps ≤ 0) := by
  unfold settings at h
  dsimp only at h
  set K1 := if K.cvg = .auto ∧ same = true then { K with cvg := .dcm, keps := 0 } else K with hK1
  have h1 : (K.cvg ≠ .ptam → K1.cvg ≠ .ptam) ∧ K1.fim = K.fim ∧ K1.safim = K.safim ∧ (K.keps ≤ 0 → K1.keps ≤ 0) := by
    rw [hK1]
    split
    · exact ⟨fun _ => by simp, rfl, rfl, fun _ => le_rfl⟩
    · exact ⟨id, rfl, rfl, id⟩
  clear_value K1
  split at h
  · simp only [Option.some.injEq] at h
    subst h
    exact h1
  · obtain ⟨kmax, -, hk⟩ := Option.map_eq_some_iff.1 h
    rw [← hk]
    set K2 := if ⌊kmax / K1.dk⌋₊ + 1 < 500 then { K1 with dk := kmax / 500 } else K1 with hK2
    have h2 : K2.cvg = K1.cvg ∧ K2.fim = K1.fim ∧ K2.safim = K1.safim ∧ K2.keps = K1.keps := by
      rw [hK2]
      split <;> exact ⟨rfl, rfl, rfl, rfl⟩
    clear_value K2
    rw [← h2.1, ← h2.2.1, ← h2.2.2.1, ← h2.2.2.2] at h1
    show ((_ → (if _ then _ else _ : Kproc).cvg ≠ .ptam) ∧ (if _ then _ else _ : Kproc).fim = _ ∧ (if _ then _ else _ : Kproc).safim = _ ∧
      (_ → (if _ then _ else _ : Kproc).keps ≤ 0))
    split
    · exact ⟨fun _ => by simp, h1.2.1, h1.2.2.1, fun _ => le_rfl⟩
    · exact h1

/-- The value of one distance on its own. -/
noncomputable def alone (n : ℕ) (same upar : Bool) (ker : ℝ → Chnl × Chnl) (fac : ℂ) (K : Kproc) (r : ℝ) : Option Val :=
  (wavenumberRef n same upar (fun _ : Fin 1 => r) ker K.kmax K).map fun S => record upar fac (S 0)

theorem integ_alone {n : ℕ} {ker : Mod1d ℝ → ℝ → Chnl × Chnl} {m : Mod1d ℝ} {rs : List ℝ} {upar : Bool} {K : Kproc} {g : List Val}
    (h : integ n ker m rs upar K = some g) (hc : K.cvg ≠ .ptam)
    (hk : (K.fim || K.safim) = true → K.keps ≤ 0 ∧ ∀ r ∈ rs, ¬ zeroDist r)
    (hsep : ∀ r ∈ rs, ∀ r' ∈ rs, |r - r'| < 1 / 100000000 → r = r') :
    ∃ K', settings n (ker m) (decide (m.depsrc = m.deprcv)) K = some K' ∧ ∀ (j : ℕ) (r : ℝ), rs[j]? = some r → ∃ v, g[j]? = some v ∧
      alone n (decide (m.depsrc = m.deprcv)) upar (ker m) (K'.dk / (4 * π * srcMu m)) K' r = some v := by
  classical
  unfold integ at h
  obtain ⟨d, hd, h⟩ := Option.bind_eq_some_iff.1 h
  obtain ⟨K', hK', h⟩ := Option.bind_eq_some_iff.1 h
  obtain ⟨S, hS, h⟩ := Option.bind_eq_some_iff.1 h
  refine ⟨K', hK', ?_⟩
  obtain ⟨a1, a2, a3, a4⟩ := settings_keeps hK'
  have hsub := (C25_reduced rs d.1 d.2 hd).1
  have hs : Separate (fun i : Fin d.1.length => d.1[i]) K' := by
    refine ⟨a1 hc, fun hf => ?_⟩
    rw [a2, a3] at hf
    exact ⟨a4 (hk hf).1, fun i => (hk hf).2 _ (hsub.subset (List.getElem_mem _))⟩
  have hone : ∀ i : Fin d.1.length, alone n (decide (m.depsrc = m.deprcv)) upar (ker m) (K'.dk / (4 * π * srcMu m)) K' d.1[i] =
      some (record upar (K'.dk / (4 * π * srcMu m)) (S i)) := by
    intro i
    have := wavenumberRef_one n (decide (m.depsrc = m.deprcv)) upar (fun i : Fin d.1.length => d.1[i]) (ker m) K'.kmax K' hs i
    unfold alone
    rw [hS] at this
    cases hw : wavenumberRef n (decide (m.depsrc = m.deprcv)) upar (fun _ : Fin 1 => d.1[i]) (ker m) K'.kmax K' with
    | none => rw [hw] at this; simp at this
    | some S1 =>
      rw [hw] at this
      simp only [Option.map_some, Option.some.injEq] at this ⊢
      rw [this]
  have hlist : (List.ofFn fun i => record upar (K'.dk / (4 * π * srcMu m)) (S i)) =
      d.1.map fun r => (alone n (decide (m.depsrc = m.deprcv)) upar (ker m) (K'.dk / (4 * π * srcMu m)) K' r).getD 0 := by
    apply List.ext_getElem
    · simp
    · intro j h1 h2
      have hj : j < d.1.length := by simpa using h1
      have := hone ⟨j, hj⟩
      simp only [List.getElem_ofFn, List.getElem_map]
      have e : d.1[(⟨j, hj⟩ : Fin d.1.length)] = d.1[j] := rfl
      rw [e] at this
      rw [this]
      rfl
  have hrs : rs ≠ [] := by
    rintro rfl
    simp [dedupe] at hd
  obtain ⟨un, rf, h1, h2⟩ := C25_transparent rs hrs
    (fun r => (alone n (decide (m.depsrc = m.deprcv)) upar (ker m) (K'.dk / (4 * π * srcMu m)) K' r).getD 0)
    (List.replicate rs.length (0 : Val)) (by simp) hsep
  rw [hd] at h1
  simp only [Option.some.injEq] at h1
  dsimp only at h
  rw [hlist, h1, h2] at h
  simp only [Option.some.injEq] at h
  intro j r hj
  refine ⟨(alone n (decide (m.depsrc = m.deprcv)) upar (ker m) (K'.dk / (4 * π * srcMu m)) K' r).getD 0, ?_, ?_⟩
  · rw [← h, List.getElem?_map, hj]
    rfl
  · have hjl : j < rs.length := (List.getElem?_eq_some_iff.1 hj).1
    obtain ⟨p, u, -, -, hu, hclose, -⟩ := (dedupe_inv rs d hd).ref j hjl
    have hmem : u ∈ rs := hsub.subset (List.mem_of_getElem? hu)
    have hr : rs[j] = r := (List.getElem?_eq_some_iff.1 hj).2
    have : u = r := hsep u hmem r (List.mem_of_getElem? hj) (by rw [← hr]; exact hclose)
    subst this
    obtain ⟨hp, hpu⟩ := List.getElem?_eq_some_iff.1 hu
    have := hone ⟨p, hp⟩
    have e : d.1[(⟨p, hp⟩ : Fin d.1.length)] = u := hpu
    rw [e] at this
    rw [this]
    rfl

theorem rcvLoop_spec {f : ℝ → Option (List Val × Stored × Stored)} {is : ℕ} {l : List ℝ} {ir : ℕ} {L L' : Lib}
    (h : rcvLoop f is l ir L = some L') :
    (∀ j z, l[j]? = some z → ∃ c, f z = some c ∧ L'.val is (ir + j) = c.1 ∧ L'.rcv (ir + j) = c.2.2) ∧
    (∀ i j, i ≠ is ∨ j < ir → L'.val i j = L.val i j) ∧ (∀ j, j < ir → L'.rcv j = L.rcv j) ∧
    (∀ i, i ≠ is → L'.src i = L.src i) ∧ (∀ j, ir + l.length ≤ j → L'.rcv j = L.rcv j) ∧
    (l = [] → L'.src is = L.src is) ∧ (l ≠ [] → ∃ z ∈ l, ∃ c, f z = some c ∧ L'.src is = c.2.1) := by
  induction l generalizing ir L with
  | nil =>
    simp only [rcvLoop, Option.some.injEq] at h
    subst h
    exact ⟨by simp, fun _ _ _ => rfl, fun _ _ => rfl, fun _ _ => rfl, fun _ _ => rfl, fun _ => rfl, fun h => absurd rfl h⟩
  | cons z t ih =>
    simp only [rcvLoop] at h
    obtain ⟨c, hc, h⟩ := Option.bind_eq_some_iff.1 h
    obtain ⟨i1, i2, i3, i4, i5, i6, i7⟩ := ih h
    refine ⟨?_, ?_, ?_, ?_, ?_, by simp, fun _ => ?_⟩
    · intro j w hj
      cases j with
      | zero =>
        simp only [List.getElem?_cons_zero, Option.some.injEq] at hj
        subst hj
        refine ⟨c, hc, ?_, ?_⟩
        · rw [i2 _ _ (Or.inr (by omega))]
          simp [Lib.put]
        · rw [i3 _ (by omega)]
          simp [Lib.put]
      | succ j =>
        obtain ⟨c', a, b, e⟩ := i1 j w (by simpa using hj)
        exact ⟨c', a, by rw [← b]; congr 1; omega, by rw [← e]; congr 1; omega⟩
    · intro i j hij
      rw [i2 i j (hij.imp id fun h => by omega)]
      rcases hij with hi | hj
      · simp [Lib.put, Function.update_of_ne hi]
      · by_cases hi : i = is
        · subst hi
          simp [Lib.put, Function.update_of_ne (show j ≠ ir by omega)]
        · simp [Lib.put, Function.update_of_ne hi]
    · intro j hj
      rw [i3 j (by omega)]
      simp [Lib.put, Function.update_of_ne (show j ≠ ir by omega)]
    · intro i hi
      rw [i4 i hi]
      simp [Lib.put, Function.update_of_ne hi]
    · intro j hj
      simp only [List.length_cons] at hj
      rw [i5 j (by omega)]
      simp [Lib.put, Function.update_of_ne (show j ≠ ir by omega)]
    · by_cases ht : t = []
      · exact ⟨z, by simp, c, hc, by rw [i6 ht]; simp [Lib.put]⟩
      · obtain ⟨w, hw, c', a, b⟩ := i7 ht
        exact ⟨w, List.mem_cons_of_mem _ hw, c', a, b⟩

theorem srcLoop_spec {f : ℝ → ℝ → Option (List Val × Stored × Stored)} {zrs : List ℝ} {l : List ℝ} {is : ℕ} {L L' : Lib}
    (h : srcLoop f zrs l is L = some L') :
    (∀ i zs j zr, l[i]? = some zs → zrs[j]? = some zr → ∃ c, f zs zr = some c ∧ L'.val (is + i) j = c.1) ∧
    (∀ i j, i < is → L'.val i j = L.val i j) ∧ (∀ i, i < is → L'.src i = L.src i) ∧
    (∀ i zs, l[i]? = some zs → zrs ≠ [] → ∃ zr ∈ zrs, ∃ c, f zs zr = some c ∧ L'.src (is + i) = c.2.1) ∧
    (l ≠ [] → ∀ j zr, zrs[j]? = some zr → ∃ zs ∈ l, ∃ c, f zs zr = some c ∧ L'.rcv j = c.2.2) ∧ (l = [] → L'.rcv = L.rcv) := by
  induction l generalizing is L with
  | nil =>
    simp only [srcLoop, Option.some.injEq] at h
    subst h
    exact ⟨by simp, fun _ _ _ => rfl, fun _ _ => rfl, by simp, fun h => absurd rfl h, fun _ => rfl⟩
  | cons z t ih =>
    simp only [srcLoop] at h
    obtain ⟨L1, h1, h⟩ := Option.bind_eq_some_iff.1 h
    obtain ⟨r1, r2, r3, r4, r5, r6, r7⟩ := rcvLoop_spec h1
    obtain ⟨i1, i2, i3, i4, i5, i6⟩ := ih h
    refine ⟨?_, ?_, ?_, ?_, fun _ => ?_, by simp⟩
    · intro i zs j zr hi hj
      cases i with
      | zero =>
        simp only [List.getElem?_cons_zero, Option.some.injEq] at hi
        subst hi
        obtain ⟨c, a, b, -⟩ := r1 j zr hj
        refine ⟨c, a, ?_⟩
        rw [Nat.add_zero, i2 _ _ (by omega), ← b, Nat.zero_add]
      | succ i =>
        obtain ⟨c, a, b⟩ := i1 i zs j zr (by simpa using hi) hj
        exact ⟨c, a, by rw [← b]; congr 1; omega⟩
    · intro i j hi
      rw [i2 i j (by omega), r2 i j (Or.inl (by omega))]
    · intro i hi
      rw [i3 i (by omega), r4 i (by omega)]
    · intro i zs hi hz
      cases i with
      | zero =>
        simp only [List.getElem?_cons_zero, Option.some.injEq] at hi
        subst hi
        obtain ⟨w, hw, c, a, b⟩ := r7 hz
        exact ⟨w, hw, c, a, by rw [Nat.add_zero, i3 _ (by omega), b]⟩
      | succ i =>
        obtain ⟨w, hw, c, a, b⟩ := i4 i zs (by simpa using hi) hz
        exact ⟨w, hw, c, a, by rw [← b]; congr 1; omega⟩
    · intro j zr hj
      by_cases ht : t = []
      · obtain ⟨c, a, -, b⟩ := r1 j zr hj
        exact ⟨z, by simp, c, a, by rw [i6 ht, ← b, Nat.zero_add]⟩
      · obtain ⟨w, hw, c, a, b⟩ := i5 ht j zr hj
        exact ⟨w, List.mem_cons_of_mem _ hw, c, a, b⟩

/-- What one pair of depths stores about the media. -/
theorem cell_media {n : ℕ} {ker : Mod1d ℝ → ℝ → Chnl × Chnl} {O : Opts} {arr : List (FLay ℝ)} {K : Kproc} {rs : List ℝ} {zs zr : ℝ}
    {c : List Val × Stored × Stored} (h : cell n ker O arr K rs zs zr = some c) (hs : 0 ≤ zs) (hr : 0 ≤ zr) :
    (∃ md, mediumAt arr zs = some md ∧ c.2.1 = ⟨md.va, md.vb, md.rho⟩) ∧ ∃ md, mediumAt arr zr = some md ∧ c.2.2 = ⟨md.va, md.vb, md.rho⟩ := by
  unfold cell at h
  split at h
  · cases h
  · cases hm : readMod1d arr zs zr with
    | error e => rw [hm] at h; cases h
    | ok m =>
      rw [hm] at h
      dsimp only at h
      split at h
      · cases h
      · obtain ⟨g, -, hg⟩ := Option.map_eq_some_iff.1 h
        obtain ⟨⟨l1, a1, b1⟩, l2, a2, b2⟩ := C06_source_receiver hs hr hm
        subst hg
        refine ⟨⟨l1.m, b1, ?_⟩, l2.m, b2, ?_⟩
        · simp [Stored.of, Mod1d.at, a1]
        · simp [Stored.of, Mod1d.at, a2]

/-- What one pair of depths gives for two grids with the same settings. -/
theorem cell_two {n : ℕ} {ker : Mod1d ℝ → ℝ → Chnl × Chnl} {O : Opts} {arr : List (FLay ℝ)} {K : Kproc} {rs rs' : List ℝ} {zs zr : ℝ}
    {c c' : List Val × Stored × Stored} (h : cell n ker O arr K rs zs zr = some c) (h' : cell n ker O arr K rs' zs zr = some c')
    (hc : K.cvg ≠ .ptam) (hk : (K.fim || K.safim) = true → K.keps ≤ 0 ∧ (∀ r ∈ rs, ¬ zeroDist r) ∧ ∀ r ∈ rs', ¬ zeroDist r)
    (hsep : ∀ r ∈ rs, ∀ r' ∈ rs, |r - r'| < 1 / 100000000 → r = r') (hsep' : ∀ r ∈ rs', ∀ r' ∈ rs', |r - r'| < 1 / 100000000 → r = r')
    {j j' : ℕ} {r : ℝ} (hj : rs[j]? = some r) (hj' : rs'[j']? = some r) : ∃ v, c.1[j]? = some v ∧ c'.1[j']? = some v := by
  unfold cell at h h'
  split at h
  · cases h
  · rename_i hv
    rw [if_neg hv] at h'
    cases hm : readMod1d arr zs zr with
    | error e => rw [hm] at h; cases h
    | ok m =>
      rw [hm] at h h'
      dsimp only at h h'
      split at h
      · cases h
      · rename_i hb
        rw [if_neg hb] at h'
        obtain ⟨g, hg, rfl⟩ := Option.map_eq_some_iff.1 h
        obtain ⟨g', hg', rfl⟩ := Option.map_eq_some_iff.1 h'
        obtain ⟨K1, e1, f1⟩ := integ_alone hg hc (fun h => ⟨(hk h).1, (hk h).2.1⟩) hsep
        obtain ⟨K2, e2, f2⟩ := integ_alone hg' hc (fun h => ⟨(hk h).1, (hk h).2.2⟩) hsep'
        rw [e1] at e2
        simp only [Option.some.injEq] at e2
        subst e2
        obtain ⟨v, a, b⟩ := f1 j r hj
        obtain ⟨v', a', b'⟩ := f2 j' r hj'
        rw [b] at b'
        simp only [Option.some.injEq] at b'
        subst b'
        exact ⟨signed O.upar v, by simp [a], by simp [a']⟩

/-- Parts of a run. -/
theorem run_parts {n : ℕ} {ker : Mod1d ℝ → ℝ → Chnl × Chnl} {O : Opts} {arr : List (FLay ℝ)} {zss zrs norths easts : List ℝ} {L : Lib}
    (h : run n ker O arr zss zrs norths easts = some L) :
    ∃ K, prepare O (gridRs norths easts) = some K ∧ srcLoop (fun zs zr => cell n ker O arr K (gridRs norths easts) zs zr) zrs zss 0
      ⟨fun _ _ => [], fun _ => ⟨0, 0, 0⟩, fun _ => ⟨0, 0, 0⟩⟩ = some L ∧ zss ≠ [] ∧ zrs ≠ [] := by
  unfold run at h
  obtain ⟨K, hK, h⟩ := Option.bind_eq_some_iff.1 h
  split at h
  · cases h
  · rename_i hn
    split at h
    · cases h
    · push Not at hn
      exact ⟨K, hK, h, hn.1, hn.2.1⟩

/-- What the preparation gives. -/
theorem prepare_spec {O : Opts} {rs : List ℝ} {K : Kproc} (h : prepare O rs = some K) :
    K.cvg = O.cvg ∧ (K.fim = true ↔ 0 < O.flen) ∧ (K.safim = true ↔ 0 < O.saTol) ∧
    ((0 < O.flen ∨ 0 < O.saTol) → ∀ r ∈ rs, ¬ zeroDist r) ∧ (O.keps ≤ 0 ∨ O.cvg ≠ .auto → K.keps ≤ 0) := by
  unfold prepare at h
  split at h
  · cases h
  · rename_i hz
    obtain ⟨rmax, -, hk⟩ := Option.map_eq_some_iff.1 h
    subst hk
    refine ⟨rfl, by simp, by simp, fun hf r hr hz' => hz ⟨hf, r, hr, hz'⟩, fun hor => ?_⟩
    show (if _ then _ else _) ≤ (0 : ℝ)
    split
    · exact le_rfl
    · rename_i ha
      exact hor.resolve_right ha

/-- The settings depend on the distances only through the largest. -/
theorem prepare_two {O : Opts} {rs rs' : List ℝ} {K K' : Kproc} (h : prepare O rs = some K) (h' : prepare O rs' = some K')
    (e : rmaxOf rs = rmaxOf rs') : K = K' := by
  unfold prepare at h h'
  split at h
  · cases h
  · split at h'
    · cases h'
    · rw [e] at h
      rw [h] at h'
      simpa using h'

/-! ### C108 -/

/-- C108, values: two runs of the program for the same model and options, for grids with the same largest distance, give the same
values for a pair of depths that both have and for points at the same distance, whatever the other depths and points. Not for the
peak-trough averaging method; with a Filon method, without the convergence test of `-K+e`. -/
theorem C108_entry {n : ℕ} {ker : Mod1d ℝ → ℝ → Chnl × Chnl} {O : Opts} {arr : List (FLay ℝ)} {zss zrs norths easts zss' zrs' norths' easts' : List ℝ}
    {L L' : Lib} (h : run n ker O arr zss zrs norths easts = some L) (h' : run n ker O arr zss' zrs' norths' easts' = some L')
    (hc : O.cvg ≠ .ptam) (hk : O.keps ≤ 0 ∨ O.cvg ≠ .auto ∨ (O.flen ≤ 0 ∧ O.saTol ≤ 0))
    (hs : Apart norths easts) (hs' : Apart norths' easts') {R : ℝ} (hR : IsGreatest (Dist norths easts) R) (hR' : IsGreatest (Dist norths' easts') R)
    {is ir a b is' ir' a' b' : ℕ} {zs zr x y x' y' : ℝ} (h1 : zss[is]? = some zs) (h2 : zrs[ir]? = some zr) (h3 : norths[a]? = some x)
    (h4 : easts[b]? = some y) (h1' : zss'[is']? = some zs) (h2' : zrs'[ir']? = some zr) (h3' : norths'[a']? = some x')
    (h4' : easts'[b']? = some y') (hr : x ^ 2 + y ^ 2 = x' ^ 2 + y' ^ 2) :
    ∃ v, (L.val is ir)[b + a * easts.length]? = some v ∧ (L'.val is' ir')[b' + a' * easts'.length]? = some v := by
  obtain ⟨K, hK, hl, -⟩ := run_parts h
  obtain ⟨K', hK', hl', -⟩ := run_parts h'
  have hRr : rmaxOf (gridRs norths easts) = some R := rmaxOf_spec (by
    convert hR using 1
    ext r
    exact mem_gridRs)
  have hRr' : rmaxOf (gridRs norths' easts') = some R := rmaxOf_spec (by
    convert hR' using 1
    ext r
    exact mem_gridRs)
  have eK := prepare_two hK hK' (hRr.trans hRr'.symm)
  subst eK
  obtain ⟨p1, p2, p3, p4, p5⟩ := prepare_spec hK
  obtain ⟨-, -, -, p4', -⟩ := prepare_spec hK'
  obtain ⟨c, hc1, hv⟩ := (srcLoop_spec hl).1 is zs ir zr h1 h2
  obtain ⟨c', hc1', hv'⟩ := (srcLoop_spec hl').1 is' zs ir' zr h1' h2'
  rw [Nat.zero_add] at hv hv'
  rw [hv, hv']
  have hten : (1 : ℝ) / 100000000 = 1 / 10 ^ 8 := by norm_num
  refine cell_two hc1 hc1' (by rw [p1]; exact hc) (fun hf => ?_) ?_ ?_ (gridRs_get h3 h4) (by rw [hr]; exact gridRs_get h3' h4')
  · have hff : 0 < O.flen ∨ 0 < O.saTol := by
      rw [Bool.or_eq_true] at hf
      exact hf.imp p2.1 p3.1
    refine ⟨p5 ?_, p4 hff, p4' hff⟩
    rcases hk with hk | hk | hk
    · exact Or.inl hk
    · exact Or.inr hk
    · rcases hff with h | h
      · exact absurd h (not_lt.2 hk.1)
      · exact absurd h (not_lt.2 hk.2)
  · intro r hr' r' hr'' hd
    exact hs r (mem_gridRs.1 hr') r' (mem_gridRs.1 hr'') (by rw [← hten]; exact hd)
  · intro r hr' r' hr'' hd
    exact hs' r (mem_gridRs.1 hr') r' (mem_gridRs.1 hr'') (by rw [← hten]; exact hd)

/-- C108, media: the velocities and density stored with every depth are those of the layer of the model file the depth lies in. -/
theorem C108_media {n : ℕ} {ker : Mod1d ℝ → ℝ → Chnl × Chnl} {O : Opts} {arr : List (FLay ℝ)} {zss zrs norths easts : List ℝ}
    {L : Lib} (h : run n ker O arr zss zrs norths easts = some L) (hs : ∀ z ∈ zss, 0 ≤ z) (hr : ∀ z ∈ zrs, 0 ≤ z) :
    (∀ is zs, zss[is]? = some zs → ∃ md, mediumAt arr zs = some md ∧ L.src is = ⟨md.va, md.vb, md.rho⟩) ∧
    ∀ ir zr, zrs[ir]? = some zr → ∃ md, mediumAt arr zr = some md ∧ L.rcv ir = ⟨md.va, md.vb, md.rho⟩ := by
  obtain ⟨K, hK, hl, n1, n2⟩ := run_parts h
  obtain ⟨-, -, -, s4, s5, -⟩ := srcLoop_spec hl
  constructor
  · intro is zs hz
    obtain ⟨zr, hzr, c, hc, e⟩ := s4 is zs hz n2
    rw [Nat.zero_add] at e
    rw [e]
    exact (cell_media hc (hs _ (List.mem_of_getElem? hz)) (hr _ hzr)).1
  · intro ir zr hz
    obtain ⟨zs, hzs, c, hc, e⟩ := s5 n1 ir zr hz
    rw [e]
    exact (cell_media hc (hs _ hzs) (hr _ (List.mem_of_getElem? hz))).2

end GRT.StaticGrn
