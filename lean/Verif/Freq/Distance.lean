import Verif.Integ.Local

/-!
C110: the spectra of one distance do not depend on the other distances of the run, in the builds with and without OpenMP.
-/

namespace GRT.Freq

open Real GRT.Integ

variable {nr nr' : ℕ}

theorem sep_cvg {K : Kproc} {rs : Fin nr → ℝ} (h : Separate rs K) {P : Prop} {_ : Decidable P} : Separate rs (if P then { K with cvg := .dcm, keps := 0 } else K) := by
  split
  · exact ⟨by simp, fun hf => ⟨le_rfl, (h.2 hf).2⟩⟩
  · exact h

theorem sep_dk {K : Kproc} {rs : Fin nr → ℝ} (h : Separate rs K) {P : Prop} {_ : Decidable P} {x : ℝ} : Separate rs (if P then { K with dk := x } else K) := by
  split
  · exact h
  · exact h

/-- The settings of one frequency keep what `Separate` asks for. -/
theorem prepare_separate {K : Kproc} {rs : Fin nr → ℝ} (h : Separate rs K) (search : ℝ → ℝ → ℝ → ℝ) (same : Bool) (w : ℝ) :
    Separate rs (K.prepare search same w) := by
  obtain ⟨h1, h2⟩ := h
  unfold Kproc.prepare
  dsimp only
  set K1 := if K.cvg = .auto ∧ same = true then { K with cvg := .dcm, keps := 0 } else K with hK1
  have hs : Separate rs K1 := by
    rw [hK1]
    split
    · exact ⟨by simp, fun hf => ⟨le_rfl, (h2 hf).2⟩⟩
    · exact ⟨h1, h2⟩
  clear_value K1
  split
  · exact hs
  · have hs2 : Separate rs { K1 with kmax := search K1.dk (w / K1.vmin) √(K1.k0 ^ 2 + (K1.ampk * w / K1.vmin) ^ 2) } := hs
    exact sep_dk (sep_cvg hs2)

/-- Value written for one distance in two runs that have it. -/
theorem out_two (n : ℕ) (freqs : ℕ → ℝ) (wI fac : ℝ) (same upar : Bool) (rs : Fin nr → ℝ) (rs' : Fin nr' → ℝ) (ker : ℕ → ℝ → Chnl × Chnl)
    (K : Kproc) (h : Separate rs K) (h' : Separate rs' K) (iw : ℕ) (p : Part) (i : Fin nr) (i' : Fin nr') (hr : rs i = rs' i') (s : Fin 6) (c : Fin 3) :
    (Env.ofKernel n freqs wI fac same upar rs ker).out K iw (p, i, s, c) =
      (Env.ofKernel n freqs wI fac same upar rs' ker).out K iw (p, i', s, c) := by
  have e : ∀ K' : Kproc, Separate rs K' → Separate rs' K' →
      (Env.ofKernel n freqs wI fac same upar rs ker).integ iw K' i = (Env.ofKernel n freqs wI fac same upar rs' ker).integ iw K' i' := by
    intro K' hs hs'
    show ((wavenumber n same upar rs (ker iw) (freqs iw * (2 * π)) K').getD fun _ => ⟨0, 0, 0⟩) i =
      ((wavenumber n same upar rs' (ker iw) (freqs iw * (2 * π)) K').getD fun _ => ⟨0, 0, 0⟩) i'
    unfold wavenumber
    have a := wavenumberRef_one n same upar rs (ker iw) (open Classical in if 0 < freqs iw * (2 * π) then freqs iw * (2 * π) / K'.vmin * K'.ampk else 0) K' hs i
    have b := wavenumberRef_one n same upar rs' (ker iw) (open Classical in if 0 < freqs iw * (2 * π) then freqs iw * (2 * π) / K'.vmin * K'.ampk else 0) K' hs' i'
    rw [hr, ← b] at a
    revert a
    generalize wavenumberRef n same upar rs (ker iw) _ K' = S
    generalize wavenumberRef n same upar rs' (ker iw) _ K' = S'
    intro a
    cases S with
    | none => cases S' with
      | none => rfl
      | some T' => simp at a
    | some T => cases S' with
      | none => simp at a
      | some T' => simpa using a
  unfold Env.out
  dsimp only
  have es : (Env.ofKernel n freqs wI fac same upar rs ker).settings K iw = (Env.ofKernel n freqs wI fac same upar rs' ker).settings K iw := rfl
  have e' := e ((Env.ofKernel n freqs wI fac same upar rs' ker).settings K iw) (prepare_separate h _ _ _) (prepare_separate h' _ _ _)
  rw [es, e']
  rfl

/-- C110, build with OpenMP: two runs with the same settings, frequencies and medium, in any schedule on any number of threads, leave the
same spectra for a distance they both have. Not for the peak-trough averaging method; with a Filon method, without convergence test
and without distance zero. -/
theorem C110_parallel (n : ℕ) (freqs : ℕ → ℝ) (wI fac : ℝ) (same upar : Bool) (rs : Fin nr → ℝ) (rs' : Fin nr' → ℝ) (ker : ℕ → ℝ → Chnl × Chnl)
    (K : Kproc) (h : Separate rs K) (h' : Separate rs' K) {t t' : ℕ} (iters iters' : List ℕ) (mem : ℕ × Sub nr → ℂ) (mem' : ℕ × Sub nr' → ℂ)
    (S : PState nr t) (S' : PState nr' t')
    (hS : Reach (Env.ofKernel n freqs wI fac same upar rs ker) K (entry t iters mem) S) (hd : S.Done)
    (hS' : Reach (Env.ofKernel n freqs wI fac same upar rs' ker) K (entry t' iters' mem') S') (hd' : S'.Done)
    (iw : ℕ) (hi : iw ∈ iters) (hi' : iw ∈ iters') (p : Part) (i : Fin nr) (i' : Fin nr') (hr : rs i = rs' i') (s : Fin 6) (c : Fin 3)
    (hc : ¬ (order s = 0 ∧ c = 2)) (hp : upar = true ∨ p = .u) : S.mem (iw, p, i, s, c) = S'.mem (iw, p, i', s, c) := by
  rw [(C48_parallel_partial _ K t iters mem S hS hd iw (p, i, s, c)).1 hi ⟨hc, hp⟩,
    (C48_parallel_partial _ K t' iters' mem' S' hS' hd' iw (p, i', s, c)).1 hi' ⟨hc, hp⟩]
  exact out_two n freqs wI fac same upar rs rs' ker K h h' iw p i i' hr s c

theorem foldl_update {κ ν : Type*} [DecidableEq κ] (f : κ → ν) (L : List κ) (m : κ → ν) (l : κ) :
    (L.map fun x => (x, f x)).foldl (fun m w => Function.update m w.1 w.2) m l = (open Classical in if l ∈ L then f l else m l) := by
  classical
  induction L generalizing m with
  | nil => simp
  | cons a t ih =>
    rw [List.map_cons, List.foldl_cons, ih]
    by_cases ha : l ∈ t
    · rw [if_pos ha, if_pos (List.mem_cons_of_mem _ ha)]
    · rw [if_neg ha]
      by_cases he : l = a
      · subst he
        rw [Function.update_self, if_pos (by simp)]
      · rw [Function.update_of_ne he, if_neg (by simp [he, ha])]

open Classical in
theorem writes_apply (E : Env nr) (K : Kproc) (iw : ℕ) (mem : ℕ × Sub nr → ℂ) (jw : ℕ) (x : Sub nr) :
    (E.writes K iw).foldl (fun m w => Function.update m w.1 w.2) mem (jw, x) =
      if jw = iw ∧ Written E.upar x then E.out K iw x else mem (jw, x) := by
  have e : E.writes K iw = ((subs nr E.upar).map fun s => (iw, s)).map fun y => (y, E.out K iw y.2) := by
    unfold Env.writes
    rw [List.map_map]
    rfl
  rw [e, foldl_update fun y : ℕ × Sub nr => E.out K iw y.2]
  congr 1
  rw [List.mem_map]
  apply propext
  constructor
  · rintro ⟨s, hs, he⟩
    simp only [Prod.mk.injEq] at he
    exact ⟨he.1.symm, (mem_subs _ _).1 (he.2 ▸ hs)⟩
  · rintro ⟨h1, h2⟩
    exact ⟨x, (mem_subs _ _).2 h2, by rw [h1]⟩

/-- C110, build without OpenMP: the same, for the same list of frequencies. -/
theorem C110_serial (n : ℕ) (freqs : ℕ → ℝ) (wI fac : ℝ) (same upar : Bool) (rs : Fin nr → ℝ) (rs' : Fin nr' → ℝ) (ker : ℕ → ℝ → Chnl × Chnl)
    (K : Kproc) (h : Separate rs K) (h' : Separate rs' K) (iters : List ℕ) (mem : ℕ × Sub nr → ℂ) (mem' : ℕ × Sub nr' → ℂ)
    (i : Fin nr) (i' : Fin nr') (hr : rs i = rs' i') (hm : ∀ iw p s c, mem (iw, p, i, s, c) = mem' (iw, p, i', s, c))
    (iw : ℕ) (p : Part) (s : Fin 6) (c : Fin 3) :
    ((Env.ofKernel n freqs wI fac same upar rs ker).serial iters K mem).2 (iw, p, i, s, c) =
      ((Env.ofKernel n freqs wI fac same upar rs' ker).serial iters K mem').2 (iw, p, i', s, c) := by
  classical
  induction iters generalizing K mem mem' with
  | nil => exact hm iw p s c
  | cons a t ih =>
    unfold Env.serial
    have es : (Env.ofKernel n freqs wI fac same upar rs ker).settings K a = (Env.ofKernel n freqs wI fac same upar rs' ker).settings K a := rfl
    rw [es]
    apply ih _ (prepare_separate h _ _ _) (prepare_separate h' _ _ _)
    intro jw q s c
    rw [writes_apply, writes_apply, out_two n freqs wI fac same upar rs rs' ker K h h' a q i i' hr s c, hm]
    rfl

/-- Distances 10, 20 and 30 km in one run, 5, 20 and 30 km in another: the spectra at 20 km agree, for the default settings. -/
example (n : ℕ) (ker : ℕ → ℝ → Chnl × Chnl) (K : Kproc) (hK : K.cvg = .auto ∧ K.fim = false ∧ K.safim = false) (iters : List ℕ) (p : Part)
    (s : Fin 6) (c : Fin 3) (iw : ℕ) :
    ((Env.ofKernel n (fun j => j / 100) (1 / 100) 1 false true ![10, 20, 30] ker).serial iters K 0).2 (iw, p, 1, s, c) =
      ((Env.ofKernel n (fun j => j / 100) (1 / 100) 1 false true ![5, 20, 30] ker).serial iters K 0).2 (iw, p, 1, s, c) := by
  obtain ⟨h1, h2, h3⟩ := hK
  exact C110_serial n _ _ _ _ _ ![10, 20, 30] ![5, 20, 30] ker K ⟨by rw [h1]; simp, by rw [h2, h3]; simp⟩ ⟨by rw [h1]; simp, by rw [h2, h3]; simp⟩ iters 0 0 (1 : Fin 3) (1 : Fin 3) rfl
    (fun _ _ _ _ => rfl) iw p s c

end GRT.Freq
