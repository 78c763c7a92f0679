import Verif.StaticSyn.Grid

/-! C60: strain, rotation and stress of static synthetics in the two output frames, with interpolation between tabulated
distances; concrete cases for C27. -/

set_option linter.unusedSectionVars false

namespace GRT.StaticSyn

open GRT.Layer GRT.Syn GRT.Search Real

/-- Output in the two frames at a receiver that needs one table entry. -/
theorem synAt_single (T : Table ℝ) (gf : ℕ → GF) (S : SynSrc) (zne : Bool) (n e : ℝ) (i k : ℕ) (r : ℝ)
    (hp : pick T (Syn.dist n e) = .ok [(i, 1)]) (hr : T.rs[i]? = some r) (hk : T.idx[i]? = some k) :
    synAt T gf S zne n e = .ok (synOne S (azimuth n e) r (gf k).u (gf k).uiz (gf k).uir zne) := by
  simp [synAt, hp, distTerm, hr, hk, accumOut]

/-- C60 at receivers on a tabulated distance: the derived quantities do not depend on the frame of the synthetics. -/
theorem C60_partial (T : Table ℝ) (gf : ℕ → GF) (S : SynSrc) (n e : ℝ) (i k : ℕ)
    (hp : pick T (Syn.dist n e) = .ok [(i, 1)]) (hr : T.rs[i]? = some (Syn.dist n e)) (hk : T.idx[i]? = some k) :
    ∃ p q, synAt T gf S false n e = .ok p ∧ synAt T gf S true n e = .ok q ∧
      let d := Syn.dist n e
      let az := azimuth n e
      packStrain false d p.1 p.2 = rotSymZRT az (packStrain true d q.1 q.2) ∧
      (∀ mu lam, packStress false d mu lam p.1 p.2 = rotSymZRT az (packStress true d mu lam q.1 q.2)) ∧
      rotMat false d p.1 p.2 = Q az * rotMat true d q.1 q.2 * (Q az).transpose := by
  refine ⟨_, _, synAt_single T gf S false n e i k _ hp hr hk, synAt_single T gf S true n e i k _ hp hr hk, ?_⟩
  intro d az
  rw [zne_val]
  exact ⟨(C24_strain az d _ _).1, fun mu lam => (C24_stress az d mu lam _ _).1, C24_rotation az d _ _⟩

/-- C60 fails between tabulated distances: the transverse normal strain of the same explosion at the same receiver is
`1/2` (per 1e5) from the ZRT output and `2/3` from the ZNE output, because the ZNE path divides by each tabulated distance
before interpolating and the ZRT path divides by the receiver distance afterwards. The Green's functions here (radial
displacement one at every distance) are consistent with their radial derivative (zero). -/
theorem C60_violated : ∃ (T : Table ℝ) (gf : ℕ → GF) (S : SynSrc) (n e : ℝ) (p q : Vals),
    T = fillMeta [1, 3] [0, 1] ∧ synAt T gf S false n e = .ok p ∧ synAt T gf S true n e = .ok q ∧ azimuth n e = 0 ∧
    packStrain false (Syn.dist n e) p.1 p.2 5 = 1/2 * 1e-5 ∧
    rotSymZRT (azimuth n e) (packStrain true (Syn.dist n e) q.1 q.2) 5 = 2/3 * 1e-5 := by
  set G : Grid := fun s c => if s = .EX ∧ c = .R then 1 else 0 with hG
  set Z : Grid := fun _ _ => 0 with hZ
  have hd : Syn.dist 2 0 = 2 := by rw [Syn.dist, show (2:ℝ) ^ 2 + 0 ^ 2 = 2 ^ 2 by norm_num, sqrt_sq (by norm_num)]
  have haz : azimuth 2 0 = 0 := by
    rw [azimuth, hd, if_neg (by unfold IsZero; norm_num)]
    have : (⟨2, 0⟩ : ℂ) = ((2 : ℝ) : ℂ) := rfl
    rw [this]; exact Complex.arg_ofReal_of_nonneg (by norm_num)
  set S : SynSrc := ⟨.EX, 1e20, 1, ![0, 0, 0, 0, 0, 0]⟩ with hS
  have hT : fillMeta ([1, 3] : List ℝ) [0, 1] = ⟨[1, 3], [0, 1], false, 2⟩ := by
    simp [fillMeta, isUniform, dr]; norm_num
  have hp : pick (fillMeta ([1, 3] : List ℝ) [0, 1]) 2 = .ok [(0, 1/2), (1, 1/2)] := by
    rw [hT]; simp [pick, scan]; norm_num
  have hF : ∀ i, F S G false 0 i = if i = 1 then 1 else 0 := by
    intro i
    fin_cases i <;> simp [F, accum_eq, compOf, hG, hS, setRadiation, setRow]
    norm_num
  have hF' : ∀ i, F S G true 0 i = 0 := by
    intro i
    fin_cases i <;> simp [F, accum_eq, compOf, hG, hS, setRadiation, setRow]
  have hFz : ∀ b i, F S Z b 0 i = 0 := by
    intro b i
    fin_cases i <;> simp [F, accum_eq, compOf, hZ]
  have key : ∀ b, synAt (fillMeta [1, 3] [0, 1]) (fun _ => ⟨G, Z, Z⟩) S b 2 0 = .ok ((1/2 : ℝ) • synOne S 0 1 G Z Z b + (1/2 : ℝ) • synOne S 0 3 G Z Z b) := by
    intro b
    rw [synAt, hd, hp, haz, hT]
    simp only [List.map_cons, List.map_nil, distTerm, List.getElem?_cons_zero, List.getElem?_cons_succ, accumOut, zero_add]
  refine ⟨_, fun _ => ⟨G, Z, Z⟩, S, 2, 0, _, _, rfl, key false, key true, haz, ?_, ?_⟩
  · have h1 : ¬ IsZero 1 := by unfold IsZero; norm_num
    have h3 : ¬ IsZero 3 := by unfold IsZero; norm_num
    have h2 : ¬ IsZero 2 := by unfold IsZero; norm_num
    rw [hd]
    simp only [packStrain, strain, overR, if_neg h2]
    simp [(round_val S _ _ _ _ _).1, (round_val S _ _ _ _ _).2, hF, hF', h1, h3]
  · have h1 : ¬ IsZero (1 * 1e5 * 1e-5) := by rw [isZero_cm]; unfold IsZero; norm_num
    have h3 : ¬ IsZero (3 * 1e5 * 1e-5) := by rw [isZero_cm]; unfold IsZero; norm_num
    have h1' : ¬ IsZero 1 := by unfold IsZero; norm_num
    have h3' : ¬ IsZero 3 := by unfold IsZero; norm_num
    rw [hd, haz]
    simp only [zne_val, (round_val S _ _ _ _ _).1, (round_val S _ _ _ _ _).2, uparZXY, if_neg h1, if_neg h3, if_neg h1', if_neg h3', packStrain, strain,
      rotSymZRT]
    simp [hF, hF', hFz]
    norm_num

/-! ### Concrete cases -/

/-- The synthetic is linear in the Green's function. -/
theorem F_smul (S : SynSrc) (G : Grid) (x : ℝ) (b : Bool) (az : ℝ) : F S (fun s c => x * G s c) b az = x • F S G b az := by
  funext i
  simp only [F, accum_eq, Pi.smul_apply, smul_eq_mul]
  split <;> ring

theorem synOne_smul (S : SynSrc) (u uiz uir : Grid) (x az d : ℝ) :
    synOne S az d (fun s c => x * u s c) (fun s c => x * uiz s c) (fun s c => x * uir s c) false = x • synOne S az d u uiz uir false := by
  apply Prod.ext
  · rw [Prod.smul_fst, (round_val S _ _ _ _ _).1, (round_val S _ _ _ _ _).1, F_smul]
  · rw [Prod.smul_snd, (round_val S _ _ _ _ _).2, (round_val S _ _ _ _ _).2]
    funext a i
    fin_cases a <;> simp [F_smul]
    · ring
    · ring
    · split <;> ring

/-- C27 and C60: a receiver on the only tabulated distance, depths between tabulated ones, Green's functions proportional to
the product of the depths. -/
example : ∃ (L : Library) (Q : Source) (D : Vals), D ≠ 0 ∧
    pick L.T (Syn.dist 1 0) = .ok [(0, 1)] ∧ L.T.rs[0]? = some (Syn.dist 1 0) ∧ L.T.idx[0]? = some 0 ∧
    L.depsrcs.Pairwise (fun u v => u + 1e-8 ≤ v) ∧ L.deprcvs.Pairwise (fun u v => u + 1e-8 ≤ v) ∧
    (∀ i zs, L.depsrcs[i]? = some zs → ∀ j zr, L.deprcvs[j]? = some zr →
      synAt L.T (L.gf i j) (Q.at L i) false 1 0 = .ok (0 + zs • 0 + zr • 0 + (zs * zr) • D)) ∧
    (∃ u ∈ L.depsrcs, u ≤ (3/2 : ℝ)) ∧ (∃ u ∈ L.depsrcs, (3/2 : ℝ) ≤ u) ∧ (∃ u ∈ L.deprcvs, u ≤ (7/2 : ℝ)) ∧ (∃ u ∈ L.deprcvs, (7/2 : ℝ) ≤ u) := by
  set G : Grid := fun s c => if s = .EX ∧ c = .R then 1 else 0 with hG
  set L : Library := ⟨fillMeta [1] [0], [1, 2], [3, 4], fun i j _ => ⟨fun s c => (([1, 2] : List ℝ)[i]?.getD 0 * ([3, 4] : List ℝ)[j]?.getD 0) * G s c,
    fun s c => (([1, 2] : List ℝ)[i]?.getD 0 * ([3, 4] : List ℝ)[j]?.getD 0) * G s c, fun s c => (([1, 2] : List ℝ)[i]?.getD 0 * ([3, 4] : List ℝ)[j]?.getD 0) * G s c⟩,
    fun _ => 2, fun _ => 1, fun _ => 3⟩ with hL
  have hd : Syn.dist 1 0 = 1 := by simp [Syn.dist]
  have hT : L.T = ⟨[1], [0], false, 0⟩ := by simp [hL, fillMeta, isUniform, dr]
  have hp : pick L.T (Syn.dist 1 0) = .ok [(0, 1)] := by
    rw [hd, hT]; simp [pick, scan]
  refine ⟨L, ⟨.EX, 1e20, false, 0⟩, synOne ⟨.EX, 1e20, 2 / 1, 0⟩ (azimuth 1 0) 1 G G G false, ?_, hp, by simp [hT, hd], by simp [hT], ?_, ?_, ?_, ?_, ?_, ?_, ?_⟩
  · intro h
    have h := congrFun (congrArg Prod.fst h) 1
    rw [(round_val _ _ _ _ _ _).1] at h
    simp [F, accum_eq, compOf, hG, setRadiation, setRow] at h
    norm_num at h
  · simp [hL]; norm_num
  · simp [hL]; norm_num
  · intro i zs hi j zr hj
    rw [synAt_single L.T (L.gf i j) _ false 1 0 0 0 1 hp (by simp [hT]) (by simp [hT])]
    have e1 : ([1, 2] : List ℝ)[i]?.getD 0 = zs := by simp only [hL] at hi; simp [hi]
    have e2 : ([3, 4] : List ℝ)[j]?.getD 0 = zr := by simp only [hL] at hj; simp [hj]
    have e3 : Source.at ⟨.EX, 1e20, false, 0⟩ L i = ⟨.EX, 1e20, 2 / 1, 0⟩ := by simp [Source.at, hL]
    have e4 : L.gf i j 0 = ⟨fun s c => (zs * zr) * G s c, fun s c => (zs * zr) * G s c, fun s c => (zs * zr) * G s c⟩ := by
      simp only [hL, e1, e2]
    rw [e3, e4]
    simp only [synOne_smul]
    simp
  · exact ⟨1, by simp [hL], by norm_num⟩
  · exact ⟨2, by simp [hL], by norm_num⟩
  · exact ⟨3, by simp [hL], by norm_num⟩
  · exact ⟨4, by simp [hL], by norm_num⟩

end GRT.StaticSyn
