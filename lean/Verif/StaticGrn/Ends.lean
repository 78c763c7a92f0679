import Verif.StaticGrn.Prop

/-!
C109: whether `grt static greenfn` comes to an end.
-/

namespace GRT.Integ.Kmax

open GRT.Integ

open Classical in
theorem loop_negative (S : Search) (hi : S.init < 0) (hr : S.init < S.ref) (n : ℕ) (k : ℝ) (st : St)
    (h : (k = S.init ∧ ∀ i c, st.nval i c = 0) ∨ k < S.init) : S.loop n k st = none := by
  induction n generalizing k st with
  | zero => rfl
  | succ n ih =>
    have hk : k ≤ S.init := h.elim (fun h => h.1.le) le_of_lt
    have hl : S.init ≤ low S.init S.klow S.ref := le_min (le_max_right _ _) hr.le
    unfold Search.loop
    rw [if_pos (hk.trans_lt hr)]
    have hn : ∀ i c, (S.turn k st).nval i c ≤ 1 := by
      intro i c
      unfold Search.turn
      dsimp only
      rcases h with h | h
      · rw [h.2]
        split <;> split <;> omega
      · rw [if_neg fun hh => absurd (hl.trans hh.1) (not_le.2 h)]
        exact Nat.zero_le _
    rw [if_neg fun ha => ?_]
    · apply ih
      right
      have : S.next k < k := by
        unfold Search.next stepFactor
        rw [if_pos (Or.inl hi.le)]
        have := min_le_left ((101 / 100 - 1) * k) (S.ref / 40)
        linarith
      exact this.trans_le hk
    · have h1 := ha 1 0 (by unfold used order; simp)
      have h2 := hn 1 0
      omega

/-- A search that starts from a negative wavenumber never ends. -/
theorem predict_negative (S : Search) (hi : S.init < 0) (hr : S.init < S.ref) (n : ℕ) : S.predict n = none := by
  unfold Search.predict
  rw [if_neg (not_le.2 hr)]
  exact loop_negative S hi hr n _ _ (Or.inl ⟨rfl, fun _ _ => rfl⟩)

end GRT.Integ.Kmax

namespace GRT.Integ

theorem Dwm.loop_k_nonneg {nr : ℕ} (D : Dwm nr) (hd : 0 ≤ D.dk) (n : ℕ) (k : ℝ) (hk : 0 ≤ k) (st : DwmState nr) (log : List ℝ) :
    0 ≤ (D.loop n k st log).k := by
  induction n generalizing k st log with
  | zero => exact hk
  | succ n ih =>
    unfold Dwm.loop
    dsimp only
    cases D.ker (k + D.dk) with
    | none => exact add_nonneg hk hd
    | some Q =>
      dsimp only
      split
      · exact add_nonneg hk hd
      · exact ih _ (add_nonneg hk hd) _ _

theorem Dwm.run_k_nonneg {nr : ℕ} (D : Dwm nr) (hd : 0 ≤ D.dk) (s : Fin nr → Sums) : 0 ≤ (D.run s).k := by
  unfold Dwm.run
  split
  · exact le_rfl
  · exact D.loop_k_nonneg hd _ _ le_rfl _ _

end GRT.Integ

namespace GRT.Freq

open GRT.Integ

/-- The wavenumber integration ends. -/
theorem wavenumberRef_ends {nr : ℕ} (n : ℕ) (same upar : Bool) (rs : Fin nr → ℝ) (ker : ℝ → Chnl × Chnl) (kref : ℝ) (K : Kproc)
    (hd : 0 ≤ K.dk) (hn : 2 * 10 ^ 7 * K.kmax + 2 ≤ n) : (wavenumberRef n same upar rs ker kref K).isSome := by
  unfold wavenumberRef
  dsimp only
  rw [Option.isSome_map]
  split
  · rfl
  · split
    · rw [Option.isSome_map]
      apply C41_terminates
      refine le_trans ?_ hn
      unfold Safim.kmin
      dsimp only
      have := Dwm.run_k_nonneg { dk := K.dk, kmax := (if (K.fim || K.safim) = true then min K.kcut K.kmax else K.kmax), keps := K.keps, rs := rs, same := same, dcm := decide (K.cvg = .dcm), upar := upar, Qm := (if decide (K.cvg = .dcm) = true then ker K.kmax else (0, 0)).1, Qzm := (if decide (K.cvg = .dcm) = true then ker K.kmax else (0, 0)).2, ker := fun k => some (ker k) } hd fun _ => ⟨0, 0, 0⟩
      linarith
    · rfl

end GRT.Freq

namespace GRT.StaticGrn

open Real GRT.Integ GRT.Freq GRT.StaticSyn GRT.Model1D

/-- The settings are found, with a limit between zero and the reference. -/
theorem settings_ends (ker : ℝ → Chnl × Chnl) (same : Bool) (K : Kproc) (hd : 0 < K.dk) (hk : 0 ≤ K.k0) :
    ∃ N, ∀ n, N ≤ n → ∃ K', settings n ker same K = some K' ∧ 0 ≤ K'.dk ∧ K'.kmax ≤ K.k0 := by
  unfold settings
  dsimp only
  set K1 := if K.cvg = .auto ∧ same = true then { K with cvg := .dcm, keps := 0 } else K with hK1
  have h1 : K1.dk = K.dk ∧ K1.k0 = K.k0 := by
    rw [hK1]
    split <;> exact ⟨rfl, rfl⟩
  clear_value K1
  rw [← h1.1] at hd
  rw [← h1.2] at hk ⊢
  split
  · exact ⟨0, fun n _ => ⟨_, rfl, hd.le, le_rfl⟩⟩
  · obtain ⟨N, hN⟩ := Kmax.C38_terminates ⟨same, K1.dk, K1.dk, K1.k0, ker⟩ hd
    refine ⟨N, fun n hn => ?_⟩
    obtain ⟨x, hx⟩ := hN n hn
    obtain ⟨b1, b2, b3⟩ := Kmax.C38_bounds ⟨same, K1.dk, K1.dk, K1.k0, ker⟩ hd n x hx
    have hx0 : 0 ≤ x := by
      rcases le_total K1.k0 K1.dk with h | h
      · rw [b2 h]; exact hk
      · exact hd.le.trans (b3 h)
    rw [hx, Option.map_some]
    refine ⟨_, rfl, ?_, b1⟩
    dsimp only
    set K2 := if ⌊x / K1.dk⌋₊ + 1 < 500 then { K1 with dk := x / 500 } else K1 with hK2
    have h2 : 0 ≤ K2.dk := by
      rw [hK2]
      split
      · exact div_nonneg hx0 (by norm_num)
      · exact hd.le
    clear_value K2
    by_cases hh : K2.cvg = .auto ∧ K2.k0 ≤ x
    · rw [if_pos hh]; exact h2
    · rw [if_neg hh]; exact h2

theorem integ_ends (ker : Mod1d ℝ → ℝ → Chnl × Chnl) (m : Mod1d ℝ) (rs : List ℝ) (hrs : rs ≠ []) (upar : Bool) (K : Kproc) (hd : 0 < K.dk)
    (hk : 0 ≤ K.k0) : ∃ N, ∀ n, N ≤ n → ∃ g, integ n ker m rs upar K = some g := by
  classical
  obtain ⟨N, hN⟩ := settings_ends (ker m) (decide (m.depsrc = m.deprcv)) K hd hk
  obtain ⟨M, hM⟩ := exists_nat_ge (2 * 10 ^ 7 * K.k0 + 2 : ℝ)
  refine ⟨max N M, fun n hn => ?_⟩
  obtain ⟨K', e, h1, h2⟩ := hN n (le_trans (le_max_left _ _) hn)
  obtain ⟨d, hd'⟩ : ∃ d, dedupe rs = some d := by
    cases rs with
    | nil => exact absurd rfl hrs
    | cons r t => exact ⟨_, rfl⟩
  have hend := wavenumberRef_ends n (decide (m.depsrc = m.deprcv)) upar (fun i : Fin d.1.length => d.1[i]) (ker m) K'.kmax K' h1 (by
    have : (M : ℝ) ≤ n := by exact_mod_cast le_trans (le_max_right _ _) hn
    linarith)
  obtain ⟨S, hS⟩ := Option.isSome_iff_exists.1 hend
  unfold integ
  rw [hd', Option.bind_some]
  dsimp only
  rw [e, Option.bind_some, hS, Option.bind_some]
  obtain ⟨un, rf, a, b⟩ := C25_restore rs hrs (List.ofFn fun i => record upar (K'.dk / (4 * π * srcMu m)) (S i)) (List.replicate rs.length 0)
    (by simp)
  rw [hd'] at a
  simp only [Option.some.injEq] at a
  obtain ⟨out, ho, -⟩ := b (by rw [List.length_ofFn, a])
  have : rf = d.2 := by rw [a]
  rw [this] at ho
  exact ⟨out, ho⟩

theorem forall_mem_eventually {α : Type*} {P : ℕ → α → Prop} {l : List α} (h : ∀ x ∈ l, ∃ N, ∀ n, N ≤ n → P n x) :
    ∃ N, ∀ n, N ≤ n → ∀ x ∈ l, P n x := by
  induction l with
  | nil => exact ⟨0, by simp⟩
  | cons a t ih =>
    obtain ⟨N, hN⟩ := h a (by simp)
    obtain ⟨M, hM⟩ := ih fun x hx => h x (List.mem_cons_of_mem _ hx)
    refine ⟨max N M, fun n hn x hx => ?_⟩
    rcases List.mem_cons.1 hx with rfl | hx
    · exact hN n (le_trans (le_max_left _ _) hn)
    · exact hM n (le_trans (le_max_right _ _) hn) x hx

theorem rcvLoop_some {f : ℝ → Option (List Val × Stored × Stored)} {is : ℕ} {l : List ℝ} (h : ∀ z ∈ l, ∃ c, f z = some c) (ir : ℕ) (L : Lib) :
    ∃ L', rcvLoop f is l ir L = some L' := by
  induction l generalizing ir L with
  | nil => exact ⟨L, rfl⟩
  | cons z t ih =>
    obtain ⟨c, hc⟩ := h z (by simp)
    simp only [rcvLoop, hc, Option.bind_some]
    exact ih (fun x hx => h x (List.mem_cons_of_mem _ hx)) _ _

theorem srcLoop_some {f : ℝ → ℝ → Option (List Val × Stored × Stored)} {zrs l : List ℝ} (h : ∀ zs ∈ l, ∀ zr ∈ zrs, ∃ c, f zs zr = some c)
    (is : ℕ) (L : Lib) : ∃ L', srcLoop f zrs l is L = some L' := by
  induction l generalizing is L with
  | nil => exact ⟨L, rfl⟩
  | cons z t ih =>
    obtain ⟨L1, h1⟩ := rcvLoop_some (is := is) (h z (by simp)) 0 L
    simp only [srcLoop, h1, Option.bind_some]
    exact ih (fun x hx => h x (List.mem_cons_of_mem _ hx)) _ _

/-- Input the program accepts, as far as the model file, the depths and the grid go: thicknesses positive (but for the last), no
liquid, depths not negative and in order, a half space below, distance zero not with a Filon method, `k0` not negative. -/
structure Accepted (O : Opts) (arr : List (FLay ℝ)) (zss zrs norths easts : List ℝ) : Prop where
  layers : arr ≠ [] ∧ Pos arr ∧ ∀ f ∈ arr, f.m.vb ≠ 0
  depths : (∀ z ∈ zss, 0 ≤ z) ∧ ∀ z ∈ zrs, 0 ≤ z
  some : zss ≠ [] ∧ zrs ≠ [] ∧ norths ≠ [] ∧ easts ≠ []
  order : Ascending zss ∧ Ascending zrs ∧ Ascending norths ∧ Ascending easts
  half : O.botHalf = true
  filon : 0 < O.flen ∨ 0 < O.saTol → ∀ r ∈ Dist norths easts, 1 / 10 ^ 8 < r
  k0 : 0 ≤ O.k0

/-- What the preparation gives for accepted input. -/
theorem prepare_accepted {O : Opts} {arr : List (FLay ℝ)} {zss zrs norths easts : List ℝ} (h : Accepted O arr zss zrs norths easts) :
    ∃ K rmax, prepare O (gridRs norths easts) = some K ∧ K.useRef = O.useRef ∧
      K.dk = 2 * π / ((if O.length = 0 then 15 else O.length) * max rmax (1 / 10 ^ 8)) := by
  obtain ⟨i, v, h1, h2, -⟩ := Search.C04_findMax (gridRs norths easts) (by
    obtain ⟨x, hx⟩ := List.exists_mem_of_ne_nil _ h.some.2.2.1
    obtain ⟨y, hy⟩ := List.exists_mem_of_ne_nil _ h.some.2.2.2
    exact List.ne_nil_of_mem (mem_gridRs.2 ⟨x, hx, y, hy, rfl⟩))
  have hr : rmaxOf (gridRs norths easts) = some v := by
    unfold rmaxOf
    rw [h1, Option.bind_some, h2]
  unfold prepare
  rw [if_neg, hr]
  · exact ⟨_, v, rfl, rfl, rfl⟩
  · rintro ⟨hf, r, hr', hz⟩
    have := h.filon hf r (mem_gridRs.1 hr')
    exact absurd hz (by unfold zeroDist; norm_num at this ⊢; exact this)

/-- C109 for lengths that are not negative (zero stands for the default): the program comes to an end and writes a library. Missing:
negative lengths, which are accepted too, see `C109_violated`. -/
theorem C109_ends_partial (ker : Mod1d ℝ → ℝ → Chnl × Chnl) {O : Opts} {arr : List (FLay ℝ)} {zss zrs norths easts : List ℝ}
    (h : Accepted O arr zss zrs norths easts) (hl : 0 ≤ O.length) :
    ∃ N, ∀ n, N ≤ n → ∃ L, run n ker O arr zss zrs norths easts = some L := by
  obtain ⟨K, rmax, hK, hu, hdk⟩ := prepare_accepted h
  have hd : 0 < K.dk := by
    rw [hdk]
    have : (0 : ℝ) < max rmax (1 / 10 ^ 8) := lt_max_of_lt_right (by norm_num)
    have hlen : 0 < (if O.length = 0 then 15 else O.length) := by
      split
      · norm_num
      · rename_i h0
        exact lt_of_le_of_ne hl (Ne.symm h0)
    positivity
  have hcell : ∀ zs ∈ zss, ∃ N, ∀ n, N ≤ n → ∀ zr ∈ zrs, ∃ c, cell n ker O arr K (gridRs norths easts) zs zr = some c := by
    intro zs hzs
    refine forall_mem_eventually (P := fun n zr => ∃ c, cell n ker O arr K (gridRs norths easts) zs zr = some c) fun zr hzr => ?_
    obtain ⟨m, hm⟩ := C05_loads (h.depths.1 zs hzs) (h.depths.2 zr hzr) h.layers.1 h.layers.2.1 h.layers.2.2
    obtain ⟨N, hN⟩ := integ_ends ker m (gridRs norths easts) (by
      obtain ⟨x, hx⟩ := List.exists_mem_of_ne_nil _ h.some.2.2.1
      obtain ⟨y, hy⟩ := List.exists_mem_of_ne_nil _ h.some.2.2.2
      exact List.ne_nil_of_mem (mem_gridRs.2 ⟨x, hx, y, hy, rfl⟩)) O.upar { K with k0 := O.k0 * π / max |zs - zr| (1 / 10) } hd (by
        have : (0 : ℝ) < max |zs - zr| (1 / 10) := lt_max_of_lt_right (by norm_num)
        have := h.k0
        show 0 ≤ O.k0 * π / max |zs - zr| (1 / 10)
        positivity)
    refine ⟨N, fun n hn => ?_⟩
    obtain ⟨g, hg⟩ := hN n hn
    unfold cell
    rw [if_neg (by push Not; exact h.layers.2.2), hm]
    dsimp only
    rw [if_neg (by unfold boundaryAccepted; simp [h.half]), hg]
    exact ⟨_, rfl⟩
  obtain ⟨N, hN⟩ := forall_mem_eventually (P := fun n zs => ∀ zr ∈ zrs, ∃ c, cell n ker O arr K (gridRs norths easts) zs zr = some c) hcell
  refine ⟨N, fun n hn => ?_⟩
  unfold run
  rw [hK, Option.bind_some, if_neg, if_neg]
  · exact srcLoop_some (hN n hn) _ _
  · exact not_not_intro h.order
  · push Not
    exact h.some

/-- C109 fails: for every accepted input with a negative length and without `-K+f`, the search for the limit never ends, whatever
the kernel. -/
theorem C109_violated (ker : Mod1d ℝ → ℝ → Chnl × Chnl) {O : Opts} {arr : List (FLay ℝ)} {zss zrs norths easts : List ℝ}
    (h : Accepted O arr zss zrs norths easts) (hl : O.length < 0) (hu : O.useRef = false) (n : ℕ) :
    run n ker O arr zss zrs norths easts = none ∧
    ∃ K, prepare O (gridRs norths easts) = some K ∧ K.dk < 0 ∧ ∀ zs zr (m : Mod1d ℝ), readMod1d arr zs zr = .ok m → ∀ same ref, 0 ≤ ref →
      (⟨same, K.dk, K.dk, ref, ker m⟩ : Kmax.Search).predict n = none := by
  classical
  obtain ⟨K, rmax, hK, hu', hdk⟩ := prepare_accepted h
  have hd : K.dk < 0 := by
    rw [hdk, if_neg hl.ne]
    have : (0 : ℝ) < max rmax (1 / 10 ^ 8) := lt_max_of_lt_right (by norm_num)
    exact div_neg_of_pos_of_neg (by positivity) (mul_neg_of_neg_of_pos hl this)
  refine ⟨?_, K, hK, hd, fun zs zr m _ same ref hr => Kmax.predict_negative _ hd (hd.trans_le hr) n⟩
  have hset : ∀ (kr : ℝ → Chnl × Chnl) (same : Bool) (k0 : ℝ), 0 ≤ k0 → settings n kr same { K with k0 := k0 } = none := by
    intro kr same k0 hk0
    unfold settings
    dsimp only
    have e : ∀ K1 : Kproc, K1.useRef = false → K1.dk = K.dk → K1.k0 = k0 →
        (if K1.useRef then some { K1 with kmax := K1.k0 } else
          ((⟨same, K1.dk, K1.dk, K1.k0, kr⟩ : Kmax.Search).predict n).map fun kmax =>
          let K2 := if ⌊kmax / K1.dk⌋₊ + 1 < 500 then { K1 with dk := kmax / 500 } else K1
          let K3 := if K2.cvg = .auto ∧ K2.k0 ≤ kmax then { K2 with cvg := .dcm, keps := 0 } else K2
          { K3 with kmax := kmax }) = none := by
      intro K1 h1 h2 h3
      rw [h1, h2, h3, if_neg (by simp), Kmax.predict_negative _ hd (hd.trans_le hk0) n]
      rfl
    apply e
    · split <;> exact hu'.trans hu
    · split <;> rfl
    · split <;> rfl
  have hcell : ∀ zs zr, cell n ker O arr K (gridRs norths easts) zs zr = none := by
    intro zs zr
    unfold cell
    split
    · rfl
    · cases readMod1d arr zs zr with
      | error e => rfl
      | ok m =>
        dsimp only
        split
        · rfl
        · rw [Option.map_eq_none_iff]
          unfold integ
          cases dedupe (gridRs norths easts) with
          | none => rfl
          | some d =>
            rw [Option.bind_some]
            dsimp only
            rw [hset]
            · rfl
            · have : (0 : ℝ) < max |zs - zr| (1 / 10) := lt_max_of_lt_right (by norm_num)
              have := h.k0
              positivity
  unfold run
  rw [hK, Option.bind_some]
  split
  · rfl
  · split
    · rfl
    · obtain ⟨z, t, hz⟩ := List.exists_cons_of_ne_nil h.some.1
      obtain ⟨w, s, hw⟩ := List.exists_cons_of_ne_nil h.some.2.1
      rw [hz, hw]
      simp only [srcLoop, rcvLoop, hcell, Option.bind_none]

/-! ### Cases -/

/-- A crust of ten kilometres over a half space. -/
noncomputable def twoLayers : List (FLay ℝ) := [⟨10, ⟨6, 7 / 2, 27 / 10, 600, 300⟩⟩, ⟨0, ⟨8, 9 / 2, 33 / 10, 900, 500⟩⟩]

/-- Default options but for the length. -/
noncomputable def plain (length : ℝ) : Opts :=
  { length := length, flen := 0, saTol := 0, fcut := 0, keps := 0, k0 := 5, useRef := false, cvg := .auto, upar := true, botHalf := true }

theorem accepted_case (length : ℝ) {zss easts : List ℝ} (h1 : ∀ z ∈ zss, 0 ≤ z) (h2 : zss ≠ []) (h3 : Ascending zss) (h4 : easts ≠ [])
    (h5 : Ascending easts) : Accepted (plain length) twoLayers zss [0] [0] easts where
  layers := ⟨by simp [twoLayers], by unfold twoLayers; simp [Pos], by unfold twoLayers; simp⟩
  depths := ⟨h1, by simp⟩
  some := ⟨h2, by simp, by simp, h4⟩
  order := ⟨h3, by simp [Ascending], by simp [Ascending], h5⟩
  half := rfl
  filon := by simp [plain]
  k0 := by simp [plain]

/-- Default length, sources at 1 and 2 km, distances 5 and 10 km: the program ends, whatever the kernel. -/
example (ker : Mod1d ℝ → ℝ → Chnl × Chnl) : ∃ N, ∀ n, N ≤ n → ∃ L, run n ker (plain 0) twoLayers [1, 2] [0] [0] [5, 10] = some L :=
  C109_ends_partial ker (accepted_case 0 (by simp) (by simp) (by norm_num [Ascending]) (by simp) (by norm_num [Ascending])) le_rfl

/-- Length -15: never. -/
example (ker : Mod1d ℝ → ℝ → Chnl × Chnl) (n : ℕ) : run n ker (plain (-15)) twoLayers [1, 2] [0] [0] [5, 10] = none :=
  (C109_violated ker (accepted_case (-15) (by simp) (by simp) (by norm_num [Ascending]) (by simp) (by norm_num [Ascending]))
    (by norm_num [plain]) rfl n).1

theorem dist_line {l : List ℝ} {r : ℝ} (h : ∀ y ∈ l, 0 ≤ y) : r ∈ Dist [0] l ↔ r ∈ l := by
  unfold Dist
  constructor
  · rintro ⟨x, hx, y, hy, rfl⟩
    simp only [List.mem_singleton] at hx
    subst hx
    rwa [zero_pow two_ne_zero, zero_add, Real.sqrt_sq (h y hy)]
  · intro hr
    exact ⟨0, by simp, r, hr, by rw [zero_pow two_ne_zero, zero_add, Real.sqrt_sq (h r hr)]⟩

/-- A source at 2 km at distance 5 km has the same values in a library of one depth and two distances and in one of two depths and
three distances, and both libraries are computed. -/
example (ker : Mod1d ℝ → ℝ → Chnl × Chnl) : ∃ n L L' v, run n ker (plain 0) twoLayers [2] [0] [0] [5, 10] = some L ∧
    run n ker (plain 0) twoLayers [1, 2] [0] [0] [3, 5, 10] = some L' ∧ (L.val 0 0)[0]? = some v ∧ (L'.val 1 0)[1]? = some v ∧
    L.src 0 = ⟨6, 7 / 2, 27 / 10⟩ := by
  obtain ⟨N, hN⟩ := C109_ends_partial ker (accepted_case 0 (zss := [2]) (easts := [5, 10]) (by simp) (by simp) (by norm_num [Ascending])
    (by simp) (by norm_num [Ascending])) le_rfl
  obtain ⟨M, hM⟩ := C109_ends_partial ker (accepted_case 0 (zss := [1, 2]) (easts := [3, 5, 10]) (by simp) (by simp) (by norm_num [Ascending])
    (by simp) (by norm_num [Ascending])) le_rfl
  obtain ⟨L, hL⟩ := hN (max N M) (le_max_left _ _)
  obtain ⟨L', hL'⟩ := hM (max N M) (le_max_right _ _)
  have p1 : ∀ y ∈ [(5 : ℝ), 10], 0 ≤ y := by simp
  have p2 : ∀ y ∈ [(3 : ℝ), 5, 10], 0 ≤ y := by simp
  obtain ⟨v, hv, hv'⟩ := C108_entry hL hL' (by simp [plain]) (Or.inl (by simp [plain]))
    (by
      intro r hr r' hr'
      rw [dist_line p1] at hr hr'
      simp only [List.mem_cons, List.not_mem_nil, or_false] at hr hr'
      rcases hr with rfl | rfl <;> rcases hr' with rfl | rfl <;> norm_num [abs_of_pos, abs_of_neg])
    (by
      intro r hr r' hr'
      rw [dist_line p2] at hr hr'
      simp only [List.mem_cons, List.not_mem_nil, or_false] at hr hr'
      rcases hr with rfl | rfl | rfl <;> rcases hr' with rfl | rfl | rfl <;> norm_num [abs_of_pos, abs_of_neg])
    (R := 10) ⟨(dist_line p1).2 (by simp), fun r hr => by
      have := (dist_line p1).1 hr
      simp only [List.mem_cons, List.not_mem_nil, or_false] at this
      rcases this with rfl | rfl <;> norm_num⟩
    ⟨(dist_line p2).2 (by simp), fun r hr => by
      have := (dist_line p2).1 hr
      simp only [List.mem_cons, List.not_mem_nil, or_false] at this
      rcases this with rfl | rfl | rfl <;> norm_num⟩
    (is := 0) (ir := 0) (a := 0) (b := 0) (is' := 1) (ir' := 0) (a' := 0) (b' := 1) rfl rfl rfl rfl rfl rfl rfl rfl rfl
  refine ⟨_, L, L', v, hL, hL', hv, hv', ?_⟩
  obtain ⟨md, e, h⟩ := (C108_media hL (by simp) (by simp)).1 0 2 rfl
  rw [h]
  unfold mediumAt twoLayers at e
  rw [if_neg (by norm_num)] at e
  simp only [mediumFrom] at e
  rw [if_pos (by norm_num)] at e
  simp only [Option.some.injEq] at e
  rw [← e]

end GRT.StaticGrn
