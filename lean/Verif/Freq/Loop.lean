import Verif.Freq.Band
import Verif.Integ.Ptam
import Verif.Integ.Safim
import Verif.Integ.Fim
import Verif.Integ.Kmax
import Verif.Model1D.State

/-!
The loop over frequencies (`grt_integ_grn_spec`, dynamic/grn.c 63-254) with the wavenumber integration it calls
(`grt_wavenumber_integral`, integral/integ_process.c 80-143), and C48. Exact arithmetic; paths are below pygrt/C_extension/src.

The kernel is a function of frequency and wavenumber. No failure is reported by it: the flag `mstat->stats` that the integrators
look at is never assigned anywhere in the sources (see C19). Log files and messages are left out.
-/

deriving instance DecidableEq for GRT.Integ.Part

namespace GRT.Freq

open Real GRT.Integ

/-- `K_INTEG_CONVERG_METHOD`, include/grt/integral/integ_process.h 25-32. -/
inductive Cvg | auto | refuse | dcm | ptam
  deriving DecidableEq

/-- `K_INTEG_PROCESS`, include/grt/integral/integ_process.h 36-64, without the file pointers. -/
structure Kproc where
  k0 : ℝ
  useRef : Bool
  ampk : ℝ
  keps : ℝ
  vmin : ℝ
  kcut : ℝ
  kmax : ℝ
  dk : ℝ
  fim : Bool
  filondk : ℝ
  safim : Bool
  saTol : ℝ
  cvg : Cvg

section
variable {nr : ℕ}

/-- `grt_wavenumber_integral`, integ_process.c 80-143, with the reference wavenumber of line 118 given; `n` bounds the turns of the
adaptive integrator, `none` if they do not suffice. -/
noncomputable def wavenumberRef (n : ℕ) (same upar : Bool) (rs : Fin nr → ℝ) (ker : ℝ → Chnl × Chnl) (kref : ℝ) (K : Kproc) :
    Option (Fin nr → Sums) :=
  let filon := K.fim || K.safim
  let kcut := if filon then min K.kcut K.kmax else K.kmax
  let dcm := decide (K.cvg = .dcm)
  let Qm := if dcm then ker K.kmax else (0, 0)
  let k' := fun k => some (ker k)
  let o := Dwm.run { dk := K.dk, kmax := kcut, keps := K.keps, rs := rs, same := same, dcm := dcm, upar := upar, Qm := Qm.1,
                     Qzm := Qm.2, ker := k' } fun _ => ⟨0, 0, 0⟩
  let second : Option (ℝ × (Fin nr → Sums)) :=
    if K.fim then
      let o2 := Fim.run { k0 := o.k, dk0 := K.dk, dk := K.filondk, kmax := K.kmax, keps := K.keps, rs := rs, dcm := dcm, upar := upar,
                          Qm := Qm.1, Qzm := Qm.2, ker := k' } o.st.sums
      some (o2.k, o2.st.sums)
    else if K.safim then
      (Safim.run { k0 := o.k, dk0 := K.dk, tol := K.saTol, kmax := K.kmax,
                   kref := kref, rs := rs, dcm := dcm, upar := upar, Qm := Qm.1, Qzm := Qm.2, ker := k' } o.st.sums n).map fun o2 => (o2.k, o2.sums)
    else some (o.k, o.st.sums)
  second.map fun p =>
    match K.cvg with
    | .ptam => (Ptam.run { k0 := p.1, dk := K.dk, rs := rs, upar := upar, ker := k' } p.2).getD p.2
    | .dcm => fun ir => dcmCorrection (rs ir) K.dk kcut (!filon) upar Qm.1 Qm.2 (p.2 ir)
    | _ => p.2

open Classical in
/-- `grt_wavenumber_integral`, integ_process.c 80-143, for angular frequency `w`. -/
noncomputable def wavenumber (n : ℕ) (same upar : Bool) (rs : Fin nr → ℝ) (ker : ℝ → Chnl × Chnl) (w : ℝ) (K : Kproc) :
    Option (Fin nr → Sums) :=
  wavenumberRef n same upar rs ker (if 0 < w then w / K.vmin * K.ampk else 0) K

open Classical in
/-- Settings for one frequency, grn.c 142-204: `search init klow ref` is the result of `grt_predict_kmax`, `w` the real angular
frequency, `same` whether source and receiver are at one depth. -/
noncomputable def Kproc.prepare (K : Kproc) (search : ℝ → ℝ → ℝ → ℝ) (same : Bool) (w : ℝ) : Kproc :=
  let K1 := if K.cvg = .auto ∧ same = true then { K with cvg := .dcm, keps := 0 } else K
  let ref := √(K1.k0 ^ 2 + (K1.ampk * w / K1.vmin) ^ 2)
  if K1.useRef then { K1 with kmax := ref }
  else
    let K2 := { K1 with kmax := search K1.dk (w / K1.vmin) ref }
    let nk := ⌊K2.kmax / K2.dk⌋₊ + 1
    let K3 := if K2.cvg = .auto ∧ ref ≤ K2.kmax then { K2 with cvg := .dcm, keps := 0 } else K2
    if nk < 500 then { K3 with dk := K3.kmax / 500 } else K3

/-- What the loop works with: frequencies, damping, `1/(4πρ)` at the source, whether the depths agree, whether derivatives are wanted,
the search for the limit and the integration at each frequency. -/
structure Env (nr : ℕ) where
  freqs : ℕ → ℝ
  wI : ℝ
  fac : ℝ
  same : Bool
  upar : Bool
  search : ℕ → ℝ → ℝ → ℝ → ℝ
  integ : ℕ → Kproc → Fin nr → Sums

variable (E : Env nr)

/-- Settings at frequency `iw` from the settings found there. -/
noncomputable def Env.settings (K : Kproc) (iw : ℕ) : Kproc := K.prepare (E.search iw) E.same (E.freqs iw * (2 * π))

/-- A component of the spectra: result (displacement, vertical or radial derivative), distance, source, component. -/
abbrev Sub (nr : ℕ) := Part × Fin nr × Fin 6 × Fin 3

/-- Value written for one component, grn.c 206-219 and `recordin_GRN` 44-56. -/
noncomputable def Env.out (K : Kproc) (iw : ℕ) (s : Sub nr) : ℂ :=
  let K' := E.settings K iw;
  -(K'.dk * E.fac : ℝ) / omega (E.freqs iw) E.wI ^ 2 * merge (s.1.sums (E.integ iw K' s.2.1)) 0 s.2.2.1 s.2.2.2

/-- Components written for one frequency, in order, grn.c 44-56, 214-219. -/
def subs (nr : ℕ) (upar : Bool) : List (Sub nr) :=
  (if upar then [Part.u, .z, .r] else [Part.u]).flatMap fun p => (List.finRange nr).flatMap fun ir =>
    ((List.finRange 6).product (List.finRange 3)).filterMap fun q => if order q.1 = 0 ∧ q.2 = 2 then none else some (p, ir, q.1, q.2)

/-- The writes of one iteration. -/
noncomputable def Env.writes (K : Kproc) (iw : ℕ) : List ((ℕ × Sub nr) × ℂ) := (subs nr E.upar).map fun s => ((iw, s), E.out K iw s)

/-! ### Build with OpenMP: every iteration works on a copy of the settings -/

/-- State of the parallel loop with `n` threads: iterations not yet handed out, the spectra, and for each thread the writes left (`none`
when it has no iteration). -/
structure PState (nr n : ℕ) where
  pool : Multiset ℕ
  mem : ℕ × Sub nr → ℂ
  ph : Fin n → Option (List ((ℕ × Sub nr) × ℂ))

/-- One step of one thread, grn.c 109-236: any iteration may be handed to any thread; the shared settings `K` are only read (grn.c 118-121);
writes of different threads interleave. -/
inductive Step (K : Kproc) {n : ℕ} : PState nr n → PState nr n → Prop
  | start (s : PState nr n) (t : Fin n) (i : ℕ) : s.ph t = none → i ∈ s.pool →
      Step K s { s with pool := s.pool.erase i, ph := Function.update s.ph t (some (E.writes K i)) }
  | write (s : PState nr n) (t : Fin n) (l : ℕ × Sub nr) (x : ℂ) (rest : List ((ℕ × Sub nr) × ℂ)) : s.ph t = some ((l, x) :: rest) →
      Step K s { s with mem := Function.update s.mem l x, ph := Function.update s.ph t (some rest) }
  | finish (s : PState nr n) (t : Fin n) : s.ph t = some [] → Step K s { s with ph := Function.update s.ph t none }

/-- Reachable states. -/
inductive Reach (K : Kproc) {n : ℕ} (s0 : PState nr n) : PState nr n → Prop
  | refl : Reach K s0 s0
  | tail {s s' : PState nr n} : Reach K s0 s → Step E K s s' → Reach K s0 s'

/-- Entry of the loop. -/
def entry (n : ℕ) (iters : List ℕ) (mem : ℕ × Sub nr → ℂ) : PState nr n := ⟨iters, mem, fun _ => none⟩

/-- The loop is over. -/
def PState.Done {n : ℕ} (s : PState nr n) : Prop := s.pool = 0 ∧ ∀ t, s.ph t = none

/-! ### Build without OpenMP: one set of settings, changed by every iteration -/

/-- The loop, grn.c 110-236 with 123: settings and spectra after the iterations. -/
noncomputable def Env.serial : List ℕ → Kproc → (ℕ × Sub nr → ℂ) → Kproc × (ℕ × Sub nr → ℂ)
  | [], K, mem => (K, mem)
  | i :: l, K, mem => Env.serial l (E.settings K i) ((E.writes K i).foldl (fun m w => Function.update m w.1 w.2) mem)

/-! ### Specification and proofs -/

/-- Components that hold a spectrum: not the transverse one of an axially symmetric source, derivatives only if wanted. -/
def Written (upar : Bool) (s : Sub nr) : Prop := ¬ (order s.2.2.1 = 0 ∧ s.2.2.2 = 2) ∧ (upar = true ∨ s.1 = Part.u)

theorem mem_subs (upar : Bool) (s : Sub nr) : s ∈ subs nr upar ↔ Written upar s := by
  obtain ⟨p, ir, i, c⟩ := s
  unfold subs Written
  simp only [List.mem_flatMap, List.mem_finRange, true_and, List.mem_filterMap, Option.ite_none_left_eq_some, Option.some.injEq, Prod.mk.injEq]
  constructor
  · rintro ⟨p', hp, ir', q, hq, h1, h2, h3, h4, h5⟩
    subst h2 h3 h4 h5
    refine ⟨h1, ?_⟩
    cases upar
    · right; simpa using hp
    · left; rfl
  · rintro ⟨h1, h2⟩
    refine ⟨p, ?_, ir, (i, c), List.mem_product.2 ⟨List.mem_finRange _, List.mem_finRange _⟩, h1, rfl, rfl, rfl, rfl⟩
    rcases h2 with h2 | h2
    · subst h2; cases p <;> simp
    · subst h2; cases upar <;> simp

theorem mem_writes (K : Kproc) (iw : ℕ) (l : ℕ × Sub nr) (x : ℂ) :
    (l, x) ∈ E.writes K iw ↔ l.1 = iw ∧ Written E.upar l.2 ∧ x = E.out K iw l.2 := by
  unfold Env.writes
  rw [List.mem_map]
  constructor
  · rintro ⟨s, h1, h2⟩
    simp only [Prod.mk.injEq] at h2
    obtain ⟨h2, h3⟩ := h2
    subst h2
    exact ⟨rfl, (mem_subs _ _).1 h1, h3.symm⟩
  · rintro ⟨h1, h2, h3⟩
    subst h1
    exact ⟨l.2, (mem_subs _ _).2 h2, by rw [h3]⟩

/-- Invariant of the parallel loop. -/
structure Inv (K : Kproc) {n : ℕ} (iters : List ℕ) (mem0 : ℕ × Sub nr → ℂ) (s : PState nr n) : Prop where
  pool : ∀ i ∈ s.pool, i ∈ iters
  sound : ∀ t L, s.ph t = some L → ∀ l x, (l, x) ∈ L → l.1 ∈ iters ∧ Written E.upar l.2 ∧ x = E.out K l.1 l.2
  cells : ∀ l, l.1 ∈ iters → Written E.upar l.2 → s.mem l = E.out K l.1 l.2 ∨ l.1 ∈ s.pool ∨ ∃ t L x, s.ph t = some L ∧ (l, x) ∈ L
  rest : ∀ l, ¬ (l.1 ∈ iters ∧ Written E.upar l.2) → s.mem l = mem0 l

theorem inv_step {K : Kproc} {n : ℕ} {iters : List ℕ} {mem0 : ℕ × Sub nr → ℂ} {s s' : PState nr n} (hi : Inv E K iters mem0 s)
    (h : Step E K s s') : Inv E K iters mem0 s' := by
  obtain ⟨h1, h2, h3, h4⟩ := hi
  cases h with
  | start t i ht hm =>
    refine ⟨fun j hj => h1 j (Multiset.mem_of_mem_erase hj), fun u L hu l x hx => ?_, fun l hl hw => ?_, h4⟩
    · by_cases hut : u = t
      · subst hut
        simp only [Function.update_self, Option.some.injEq] at hu
        subst hu
        obtain ⟨e1, e2, e3⟩ := (mem_writes E K i l x).1 hx
        exact ⟨e1 ▸ h1 i hm, e2, e1 ▸ e3⟩
      · simp only [Function.update_of_ne hut] at hu
        exact h2 u L hu l x hx
    · rcases h3 l hl hw with h | h | ⟨u, L, x, hu, hx⟩
      · exact Or.inl h
      · by_cases e : l.1 = i
        · exact Or.inr (Or.inr ⟨t, E.writes K i, E.out K i l.2, by simp, (mem_writes E K i l _).2 ⟨e, hw, rfl⟩⟩)
        · exact Or.inr (Or.inl ((Multiset.mem_erase_of_ne e).2 h))
      · have hut : u ≠ t := fun e => by rw [e, ht] at hu; exact absurd hu (by simp)
        exact Or.inr (Or.inr ⟨u, L, x, by simp only [Function.update_of_ne hut]; exact hu, hx⟩)
  | write t l0 x0 rest ht =>
    obtain ⟨e1, e2, e3⟩ := h2 t _ ht l0 x0 (by simp)
    refine ⟨h1, fun u L hu l x hx => ?_, fun l hl hw => ?_, fun l hl => ?_⟩
    · by_cases hut : u = t
      · subst hut
        simp only [Function.update_self, Option.some.injEq] at hu
        subst hu
        exact h2 u _ ht l x (List.mem_cons_of_mem _ hx)
      · simp only [Function.update_of_ne hut] at hu
        exact h2 u L hu l x hx
    · by_cases e : l = l0
      · subst e
        left
        simp only [Function.update_self]
        exact e3
      · rcases h3 l hl hw with h | h | ⟨u, L, x, hu, hx⟩
        · left; simp only [Function.update_of_ne e]; exact h
        · exact Or.inr (Or.inl h)
        · right; right
          by_cases hut : u = t
          · subst hut
            rw [ht] at hu
            injection hu with hu
            subst hu
            refine ⟨u, rest, x, by simp, ?_⟩
            rcases List.mem_cons.1 hx with hx | hx
            · exact absurd (congrArg Prod.fst hx) e
            · exact hx
          · exact ⟨u, L, x, by simp only [Function.update_of_ne hut]; exact hu, hx⟩
    · have : l ≠ l0 := fun e => hl (e ▸ ⟨e1, e2⟩)
      simp only [Function.update_of_ne this]
      exact h4 l hl
  | finish t ht =>
    refine ⟨h1, fun u L hu l x hx => ?_, fun l hl hw => ?_, h4⟩
    · by_cases hut : u = t
      · subst hut; simp at hu
      · simp only [Function.update_of_ne hut] at hu
        exact h2 u L hu l x hx
    · rcases h3 l hl hw with h | h | ⟨u, L, x, hu, hx⟩
      · exact Or.inl h
      · exact Or.inr (Or.inl h)
      · have hut : u ≠ t := fun e => by
          rw [e, ht] at hu
          injection hu with hu
          subst hu
          exact absurd hx (by simp)
        exact Or.inr (Or.inr ⟨u, L, x, by simp only [Function.update_of_ne hut]; exact hu, hx⟩)

theorem inv_reach {K : Kproc} {n : ℕ} {iters : List ℕ} {mem : ℕ × Sub nr → ℂ} {s : PState nr n}
    (hr : Reach E K (entry n iters mem) s) : Inv E K iters mem s := by
  induction hr with
  | refl =>
    exact ⟨fun i hi => by simpa [entry] using hi, fun t L h => absurd h (by simp [entry]),
      fun l hl _ => Or.inr (Or.inl (by simpa [entry] using hl)), fun _ _ => rfl⟩
  | tail _ hs ih => exact inv_step E ih hs

/-- Work left. -/
def PState.work {n : ℕ} (m : ℕ) (s : PState nr n) : ℕ :=
  s.pool.card * (m + 2) + ∑ t, match s.ph t with | none => 0 | some L => L.length + 1

theorem sum_update_nat {n : ℕ} {β : Type*} (f : Fin n → β) (g : β → ℕ) (t : Fin n) (b : β) :
    ∑ u, g (Function.update f t b u) + g (f t) = ∑ u, g (f u) + g b := by
  rw [← Finset.add_sum_erase _ _ (Finset.mem_univ t), ← Finset.add_sum_erase _ (fun u => g (f u)) (Finset.mem_univ t)]
  have : ∑ u ∈ Finset.univ.erase t, g (Function.update f t b u) = ∑ u ∈ Finset.univ.erase t, g (f u) := by
    apply Finset.sum_congr rfl
    intro u hu
    rw [Function.update_of_ne (Finset.ne_of_mem_erase hu)]
  rw [this, Function.update_self]; ring

/-- Every step reduces the work left, so every schedule ends, and with a thread at hand it ends only when the loop is over. -/
theorem C48_terminates (K : Kproc) {n : ℕ} (s : PState nr n) :
    (∀ s', Step E K s s' → s'.work (subs nr E.upar).length < s.work (subs nr E.upar).length) ∧
    (0 < n → ¬ s.Done → ∃ s', Step E K s s') := by
  constructor
  · intro s' h
    have key := fun (t : Fin n) b => sum_update_nat s.ph (fun p => match p with | none => 0 | some L => L.length + 1) t b
    unfold PState.work
    cases h with
    | start t i ht hm =>
      have := key t (some (E.writes K i))
      have hl : (E.writes K i).length = (subs nr E.upar).length := by simp [Env.writes]
      have hc := Multiset.card_erase_add_one hm
      rw [ht] at this
      simp only [hl] at this
      rw [← hc]
      simp only at this ⊢
      rw [add_mul]
      omega
    | write t l x rest ht =>
      have := key t (some rest)
      rw [ht] at this
      simp only [List.length_cons] at this ⊢
      omega
    | finish t ht =>
      have := key t none
      rw [ht] at this
      simp only [List.length_nil] at this ⊢
      omega
  · intro hn hd
    unfold PState.Done at hd
    by_cases h : ∃ t L, s.ph t = some L
    · obtain ⟨t, L, h⟩ := h
      cases L with
      | nil => exact ⟨_, .finish s t h⟩
      | cons a L => exact ⟨_, .write s t a.1 a.2 L h⟩
    · push Not at h
      have h' : ∀ t, s.ph t = none := fun t => by
        cases e : s.ph t with
        | none => rfl
        | some L => exact absurd e (h t L)
      have : s.pool ≠ 0 := fun e => hd ⟨e, h'⟩
      obtain ⟨i, hi⟩ := Multiset.exists_mem_of_ne_zero this
      exact ⟨_, .start s ⟨0, hn⟩ i (h' _) hi⟩

/-- Frequencies are independent in the parallel build, given the medium's kernel at each frequency: whatever the number of threads, the
order in which the frequencies are handed out and the interleaving of the writes, when the loop is over the spectrum at each frequency
computed is what that frequency alone gives from the settings the loop was entered with, and everything else is unchanged.
(Missing: the build without OpenMP, `C48_serial_violated`; and the kernel itself depends on the last frequency of the band if the
medium is anelastic, `C48_reference_violated`.) -/
theorem C48_parallel_partial (K : Kproc) (n : ℕ) (iters : List ℕ) (mem : ℕ × Sub nr → ℂ) (s : PState nr n)
    (hr : Reach E K (entry n iters mem) s) (hd : s.Done) (iw : ℕ) (c : Sub nr) :
    (iw ∈ iters → Written E.upar c → s.mem (iw, c) = E.out K iw c) ∧
    (¬ (iw ∈ iters ∧ Written E.upar c) → s.mem (iw, c) = mem (iw, c)) := by
  have hinv := inv_reach E hr
  refine ⟨fun h1 h2 => ?_, hinv.rest (iw, c)⟩
  rcases hinv.cells (iw, c) h1 h2 with h | h | ⟨t, L, x, h, -⟩
  · exact h
  · rw [hd.1] at h; exact absurd h (by simp)
  · rw [hd.2 t] at h; exact absurd h (by simp)

/-- The same for the serial loop, in the mode in which the reference limit is taken without a search (`-K+...`), for which the settings one
frequency leaves behind do not matter to the next. -/
theorem C48_serial_partial (K : Kproc) (hK : K.useRef = true) (iters : List ℕ) (hnd : iters.Nodup) (mem : ℕ × Sub nr → ℂ) (iw : ℕ) (c : Sub nr) :
    (iw ∈ iters → Written E.upar c → (E.serial iters K mem).2 (iw, c) = E.out K iw c) ∧
    (¬ (iw ∈ iters ∧ Written E.upar c) → (E.serial iters K mem).2 (iw, c) = mem (iw, c)) := by
  have hset : ∀ (K : Kproc) (i j : ℕ), K.useRef = true → (E.settings K i).useRef = true ∧ E.settings (E.settings K i) j = E.settings K j := by
    intro K i j hK
    unfold Env.settings Kproc.prepare
    by_cases h : K.cvg = .auto ∧ E.same = true
    · simp [h, hK]
    · simp only [if_neg h, hK, if_true]
      exact ⟨trivial, trivial⟩
  have hwr : ∀ (L : List ((ℕ × Sub nr) × ℂ)) (m : ℕ × Sub nr → ℂ) (l : ℕ × Sub nr) (x : ℂ), (∀ y, (l, y) ∈ L → y = x) →
      ((∃ y, (l, y) ∈ L) → L.foldl (fun m w => Function.update m w.1 w.2) m l = x) ∧
      ((¬ ∃ y, (l, y) ∈ L) → L.foldl (fun m w => Function.update m w.1 w.2) m l = m l) := by
    intro L
    induction L with
    | nil => intro m l x _; exact ⟨fun ⟨y, h⟩ => absurd h (by simp), fun _ => rfl⟩
    | cons a L ih =>
      intro m l x h
      have ih' := ih (Function.update m a.1 a.2) l x fun y hy => h y (List.mem_cons_of_mem _ hy)
      simp only [List.foldl_cons]
      by_cases e : ∃ y, (l, y) ∈ L
      · exact ⟨fun _ => ih'.1 e, fun h' => absurd (e.imp fun y hy => List.mem_cons_of_mem _ hy) h'⟩
      · rw [ih'.2 e]
        constructor
        · rintro ⟨y, hy⟩
          rcases List.mem_cons.1 hy with hy | hy
          · have e1 : a.1 = l := by rw [← hy]
            have e2 : a.2 = y := by rw [← hy]
            rw [← e1, Function.update_self, e2]
            exact h y (by rw [List.mem_cons]; exact Or.inl hy)
          · exact absurd ⟨y, hy⟩ e
        · intro h'
          have : l ≠ a.1 := fun e1 => h' ⟨a.2, by rw [e1]; simp⟩
          rw [Function.update_of_ne this]
  induction iters generalizing K mem with
  | nil => exact ⟨fun h => absurd h (by simp), fun _ => rfl⟩
  | cons i l ih =>
    rw [List.nodup_cons] at hnd
    obtain ⟨ih1, ih2⟩ := ih (E.settings K i) (hset K i i hK).1 hnd.2 ((E.writes K i).foldl (fun m w => Function.update m w.1 w.2) mem)
    have hout : ∀ j d, E.out (E.settings K i) j d = E.out K j d := fun j d => by
      unfold Env.out; rw [(hset K i j hK).2]
    obtain ⟨w1, w2⟩ := hwr (E.writes K i) mem (iw, c) (E.out K i c) fun y hy => ((mem_writes E K i _ y).1 hy).2.2
    constructor
    · intro h1 h2
      rw [Env.serial]
      by_cases e : iw ∈ l
      · rw [ih1 e h2, hout]
      · have e' : iw = i := (List.mem_cons.1 h1).resolve_right e
        rw [ih2 fun h => e h.1, w1 ⟨E.out K i c, (mem_writes E K i _ _).2 ⟨e', h2, rfl⟩⟩, e']
    · intro h
      rw [Env.serial, ih2 fun h' => h ⟨List.mem_cons_of_mem _ h'.1, h'.2⟩, w2]
      rintro ⟨y, hy⟩
      obtain ⟨e1, e2, -⟩ := (mem_writes E K i _ y).1 hy
      exact h ⟨by rw [List.mem_cons]; exact Or.inl e1, e2⟩

end

/-! ### The build without OpenMP -/

/-- The limit found by the search, for every number of turns that suffices (C38). -/
noncomputable def limitOf (S : Kmax.Search) : ℝ := open Classical in if h : ∃ n x, S.predict n = some x then (h.choose_spec).choose else S.ref

theorem limitOf_spec (S : Kmax.Search) (hi : 0 < S.init) : ∃ n, S.predict n = some (limitOf S) := by
  obtain ⟨N, hN⟩ := Kmax.C38_terminates S hi
  have h : ∃ n x, S.predict n = some x := ⟨N, hN N le_rfl⟩
  unfold limitOf
  rw [dif_pos h]
  exact ⟨h.choose, h.choose_spec.choose_spec⟩

/-- The loop with the search and the integration of this code, for a kernel given at each frequency. -/
noncomputable def Env.ofKernel {nr : ℕ} (n : ℕ) (freqs : ℕ → ℝ) (wI fac : ℝ) (same upar : Bool) (rs : Fin nr → ℝ) (ker : ℕ → ℝ → Chnl × Chnl) : Env nr where
  freqs := freqs
  wI := wI
  fac := fac
  same := same
  upar := upar
  search := fun iw init klow ref => limitOf ⟨same, init, klow, ref, ker iw⟩
  integ := fun iw K => (wavenumber n same upar rs (ker iw) (freqs iw * (2 * π)) K).getD fun _ => ⟨0, 0, 0⟩

/-- For a kernel that does not depend on the wavenumber the search finds nothing and returns the reference limit. -/
theorem limitOf_constant (S : Kmax.Search) (hi : 0 < S.init) (hc : S.const = false) (Q : Chnl × Chnl) (hQ : S.ker = fun _ => Q)
    (h1 : 1 ≤ ‖Q.1 0 0‖) (h2 : 1 / 10 ^ 6 ≤ S.init) : limitOf S = S.ref := by
  obtain ⟨n, hn⟩ := limitOf_spec S hi
  obtain ⟨b1, b2, b3⟩ := Kmax.C38_bounds S hi n _ hn
  by_cases hr : S.ref ≤ S.init
  · exact b2 hr
  push Not at hr
  by_contra hne
  obtain ⟨m, -, ⟨-, hs⟩, -⟩ := (Kmax.C38_first_settled S hi hr n _ hn).1 (lt_of_le_of_ne b1 hne)
  have hu : Kmax.used 0 0 := fun h => absurd h.2 (by decide)
  obtain ⟨-, hg⟩ := (hs 0 0 hu).1
  rw [if_neg (by simp [hc])] at hg
  have hr' : 0 < S.ref := hi.trans hr
  have hp : S.init ≤ S.pt m := by
    have := Kmax.pt_pos S hi hr' m
    have h3 : 0 ≤ (m : ℝ) * min (1 / 100 * S.init) (S.ref / 40) := by positivity
    linarith
  have ht : S.amp (S.pt m) 0 0 ≤ S.top m 0 0 := by
    unfold Kmax.Search.top
    exact Finset.le_sup' (fun l => S.amp (S.pt l) 0 0) (Finset.mem_range.2 (Nat.lt_succ_self m))
  have ht' : S.top m 0 0 ≤ S.amp (S.pt m) 0 0 := by
    unfold Kmax.Search.top
    refine Finset.sup'_le _ _ fun l hl => ?_
    have := Kmax.pt_mono S hi hr' (Nat.lt_succ_iff.1 (Finset.mem_range.1 hl))
    unfold Kmax.Search.amp Kmax.Search.vals
    simp only [hc, hQ, Bool.false_eq_true, if_false]
    exact mul_le_mul_of_nonneg_right (Real.sqrt_le_sqrt this) (by positivity)
  have ha : 1 / 1000 ≤ S.amp (S.pt m) 0 0 := by
    unfold Kmax.Search.amp Kmax.Search.vals
    simp only [hc, hQ, Bool.false_eq_true, if_false]
    have e1 : (1 : ℝ) / 1000 ≤ √(S.pt m) := by
      apply Real.le_sqrt_of_sq_le
      have : (1 / 1000 : ℝ) ^ 2 = 1 / 10 ^ 6 := by norm_num
      rw [this]; exact h2.trans hp
    have e2 : 1 ≤ ‖Q.1 0 0‖ + ‖Q.2 0 0‖ := by have := norm_nonneg (Q.2 0 0); linarith
    nlinarith
  have : (1 : ℝ) / 10 ^ 30 ≤ 1 / 1000 := by norm_num
  nlinarith

/-- A medium whose kernel is one for every wavenumber, one receiver above the source: vertical displacement of the explosion at one
frequency for limit `kmax` and step `dk`, in units of the common factor: a step times the sum of the wavenumbers. -/
theorem constant_sum (n : ℕ) (w : ℝ) (K : Kproc) (hc : K.cvg = .refuse) (hf : K.fim = false) (hs : K.safim = false) (he : K.keps = 0)
    (hk : 0 < K.kmax) (hd : 0 < K.dk) :
    ∃ S : Fin 1 → Sums, wavenumber n false false (fun _ => 0) (fun _ => (fun _ _ => 1, fun _ _ => 1)) w K = some S ∧
      (S 0).u 0 2 = ∑ j ∈ Finset.range (⌊K.kmax / K.dk⌋₊ + 1), (((j + 1 : ℕ) : ℝ) * K.dk : ℝ) := by
  unfold wavenumber wavenumberRef
  simp only [hc, hf, hs, he, reduceCtorEq, decide_false, Bool.or_self, Bool.false_eq_true, if_false, Option.map_some]
  refine ⟨_, rfl, ?_⟩
  set D : Dwm 1 := { dk := K.dk, kmax := K.kmax, keps := 0, rs := fun _ => 0, same := false, dcm := false, upar := false, Qm := 0, Qzm := 0,
                     ker := fun _ => some (fun _ _ => 1, fun _ _ => 1) } with hD
  obtain ⟨m, h1, h2, h3, h4, h5, h6, h7⟩ := C37_grid_partial D (fun _ => ⟨0, 0, 0⟩) hk
  have hff : (D.run fun _ => ⟨0, 0, 0⟩).failed = false := by
    by_contra hc
    exact absurd (h6 (by simpa using hc)) (by simp [hD])
  have hns : ¬ D.singular 0 := fun h => absurd h.1 (by simp [hD])
  have hne : ∀ j, ¬ D.stopsAt (fun _ => ⟨0, 0, 0⟩) 0 j := fun j h => absurd h.1 (by simp [hD])
  have hm : m = ⌊K.kmax / K.dk⌋₊ + 1 := by
    by_contra hc
    obtain ⟨j, -, -, hj⟩ := (h7 hff).2.2.2 (lt_of_le_of_ne h2 hc) 0 hns
    exact hne j hj
  obtain ⟨c, -, e, -, h8⟩ := (h7 hff).2.2.1 0 hns
  have hcm : c = m := by
    rcases h8 with h8 | h8
    · exact h8.1
    · exact absurd h8.2 (hne c)
  rw [e, hcm, ← hm]
  simp only [Dwm.upTo, Pi.add_apply, Pi.zero_apply, zero_add, Finset.sum_apply]
  push_cast
  refine Finset.sum_congr rfl fun j _ => ?_
  have hz : zeroDist (0 : ℝ) := by unfold zeroDist; positivity
  simp [Dwm.termAt, Dwm.term, Dwm.val, hD, intPk, pkEntry, order, bjmk, hz]

theorem sum_steps (m : ℕ) (d : ℝ) : ∑ j ∈ Finset.range m, (((j + 1 : ℕ) : ℝ) * d) = d * (m * (m + 1) / 2) := by
  induction m with
  | zero => simp
  | succ m ih => rw [Finset.sum_range_succ, ih]; push_cast; ring

/-- C48 violated in the build without OpenMP: the step is refined for the first frequency (its limit being less than 500 steps) and
stays refined for the second, whose spectrum therefore differs from the one it has when computed alone. Here the kernel is one, the receiver
above the source, the wavenumber step ten, angular frequencies 1 and 2 at unit velocity. -/
theorem C48_serial_violated (n : ℕ) :
    let E := Env.ofKernel (nr := 1) n (fun i => i / (2 * π)) 0 1 false false (fun _ => 0) fun _ _ => (fun _ _ => 1, fun _ _ => 1)
    let K : Kproc := { k0 := 0, useRef := false, ampk := 1, keps := 0, vmin := 1, kcut := 0, kmax := 0, dk := 10, fim := false, filondk := 0,
                       safim := false, saTol := 0, cvg := .refuse }
    (E.serial [1, 2] K 0).2 (2, .u, 0, 0, 0) ≠ E.out K 2 (.u, 0, 0, 0) ∧ (E.serial [2] K 0).2 (2, .u, 0, 0, 0) = E.out K 2 (.u, 0, 0, 0) := by
  intro E K
  have hπ : (2 * π) ≠ 0 := by positivity
  have hw : ∀ i : ℕ, E.freqs i * (2 * π) = i := fun i => by
    show (i : ℝ) / (2 * π) * (2 * π) = i
    field_simp
  have hcell : ∀ (K' : Kproc) (m : ℕ × Sub 1 → ℂ), ((E.writes K' 2).foldl (fun m w => Function.update m w.1 w.2) m) (2, .u, 0, 0, 0) = E.out K' 2 (.u, 0, 0, 0) := by
    intro K' m
    have : subs 1 E.upar = subs 1 false := rfl
    unfold Env.writes
    rw [this]
    have hs : subs 1 false = [(Part.u, 0, 0, 0), (Part.u, 0, 0, 1), (Part.u, 0, 1, 0), (Part.u, 0, 1, 1), (Part.u, 0, 2, 0), (Part.u, 0, 2, 1), (Part.u, 0, 2, 2),
        (Part.u, 0, 3, 0), (Part.u, 0, 3, 1), (Part.u, 0, 4, 0), (Part.u, 0, 4, 1), (Part.u, 0, 4, 2), (Part.u, 0, 5, 0), (Part.u, 0, 5, 1), (Part.u, 0, 5, 2)] := by decide
    rw [hs]
    simp
  -- settings at a frequency from a step `d`
  have hset : ∀ (d : ℝ) (i : ℕ) (km : ℝ), 1 / 10 ^ 6 ≤ d → 0 < i → E.settings { K with dk := d, kmax := km } i =
      { K with kmax := i, dk := if ⌊(i : ℝ) / d⌋₊ + 1 < 500 then (i : ℝ) / 500 else d } := by
    intro d i km hd hi
    have hd0 : 0 < d := lt_of_lt_of_le (by norm_num) hd
    have hl : E.search i d (i : ℝ) (i : ℝ) = i := limitOf_constant ⟨false, d, i, i, _⟩ hd0 rfl _ rfl (by simp) hd
    unfold Env.settings Kproc.prepare
    rw [hw]
    have hq : √((0 : ℝ) ^ 2 + (1 * (i : ℝ)) ^ 2) = i := by
      rw [zero_pow two_ne_zero, zero_add, one_mul, Real.sqrt_sq (by positivity)]
    simp only [K, reduceCtorEq, false_and, if_false, Bool.false_eq_true, div_one, hq, hl]
    split <;> rfl
  have hval : ∀ (K' : Kproc) (d : ℝ) (km : ℝ), E.settings K' 2 = { K with kmax := km, dk := d } → 0 < km → 0 < d →
      E.out K' 2 (.u, 0, 0, 0) = -(d * (d * ((⌊km / d⌋₊ + 1 : ℕ) * ((⌊km / d⌋₊ + 1 : ℕ) + 1) / 2)) : ℝ) / omega (E.freqs 2) E.wI ^ 2 := by
    intro K' d km hK hk hd
    obtain ⟨S, h1, h2⟩ := constant_sum n (E.freqs 2 * (2 * π)) { K with kmax := km, dk := d } rfl rfl rfl rfl hk hd
    unfold Env.out
    rw [hK]
    have : E.integ 2 { K with kmax := km, dk := d } = S := by
      simp only [E, Env.ofKernel]
      simp only [E, Env.ofKernel] at h1
      rw [h1]; rfl
    simp only [this]
    have hm : merge (Part.u.sums (S 0)) 0 0 0 = (S 0).u 0 2 := rfl
    rw [hm, h2, sum_steps]
    show -((d * 1 : ℝ) : ℂ) / _ * _ = _
    push_cast
    ring
  have s1 : E.settings K 1 = { K with kmax := 1, dk := 1 / 500 } := by
    have := hset 10 1 0 (by norm_num) one_pos
    have e : ⌊((1 : ℕ) : ℝ) / 10⌋₊ = 0 := Nat.floor_eq_zero.2 (by norm_num)
    rw [e, if_pos (by norm_num)] at this
    simpa [K] using this
  have s2 : E.settings K 2 = { K with kmax := 2, dk := 2 / 500 } := by
    have := hset 10 2 0 (by norm_num) two_pos
    have e : ⌊((2 : ℕ) : ℝ) / 10⌋₊ = 0 := Nat.floor_eq_zero.2 (by norm_num)
    rw [e, if_pos (by norm_num)] at this
    simpa [K] using this
  have s12 : E.settings (E.settings K 1) 2 = { K with kmax := 2, dk := 1 / 500 } := by
    rw [s1]
    have := hset (1 / 500) 2 1 (by norm_num) two_pos
    have e : ⌊((2 : ℕ) : ℝ) / (1 / 500)⌋₊ = 1000 := by
      have : ((2 : ℕ) : ℝ) / (1 / 500) = (1000 : ℕ) := by norm_num
      rw [this, Nat.floor_natCast]
    rw [e, if_neg (by norm_num)] at this
    simpa using this
  have hω : omega (E.freqs 2) E.wI ^ 2 ≠ 0 := by
    have : omega (E.freqs 2) E.wI = 2 := by
      show ((E.freqs 2 * (2 * π) : ℝ) : ℂ) - ((0 : ℝ) : ℂ) * Complex.I = 2
      rw [hw]; norm_num
    rw [this]; norm_num
  constructor
  · rw [Env.serial, Env.serial, Env.serial]
    dsimp only
    rw [hcell, hval _ (1 / 500) 2 s12 two_pos (by norm_num), hval _ (2 / 500) 2 s2 two_pos (by norm_num)]
    have e1 : ⌊(2 : ℝ) / (1 / 500)⌋₊ = 1000 := by
      have : (2 : ℝ) / (1 / 500) = (1000 : ℕ) := by norm_num
      rw [this, Nat.floor_natCast]
    have e2 : ⌊(2 : ℝ) / (2 / 500)⌋₊ = 500 := by
      have : (2 : ℝ) / (2 / 500) = (500 : ℕ) := by norm_num
      rw [this, Nat.floor_natCast]
    rw [e1, e2, Ne, div_left_inj' hω]
    norm_num
  · rw [Env.serial, Env.serial]
    dsimp only
    rw [hcell]

/-! ### The reference frequency of the attenuation -/

/-- `mod1d->omgref`, grn.c 78. -/
noncomputable def omgref (freqs : ℕ → ℝ) (nf2 : ℕ) : ℝ := 2 * π * freqs nf2

/-- C48 violated in every build for an anelastic medium: the shear modulus of a layer at one frequency depends on the highest frequency of
the band, whatever that frequency is. -/
theorem C48_reference_violated (freqs : ℕ → ℝ) (wI : ℝ) (iw a b : ℕ) (hw : 0 < freqs iw) (ha : 0 < freqs a) (hb : 0 < freqs b)
    (hab : freqs a ≠ freqs b) (rho vb q : ℝ) (hr : rho ≠ 0) (hv : vb ≠ 0) (hq : 0 < q) :
    Model1D.stateMu (rho : ℂ) vb (Model1D.atn false q (omgref freqs a) (omega (freqs iw) wI)) ≠
      Model1D.stateMu (rho : ℂ) vb (Model1D.atn false q (omgref freqs b) (omega (freqs iw) wI)) := by
  have hq' : 0 < Model1D.qinv q := by unfold Model1D.qinv; rw [if_pos hq]; positivity
  set Q := Model1D.qinv q
  set ω := omega (freqs iw) wI with hω
  have hre : 0 < ω.re := by
    simp [hω, omega]
    positivity
  have hω0 : ω ≠ 0 := fun h => by rw [h] at hre; exact absurd hre (by simp)
  have hlog : ∀ f : ℝ, 0 < f → Complex.log (ω / ((2 * π * f : ℝ) : ℂ)) = Real.log (2 * π * f)⁻¹ + Complex.log ω := by
    intro f hf
    have hp : 0 < (2 * π * f)⁻¹ := by positivity
    rw [div_eq_mul_inv, mul_comm, ← Complex.ofReal_inv, Complex.log_ofReal_mul hp hω0]
  have hatn : ∀ f : ℝ, 0 < f → Model1D.atn false q ((2 * π * f : ℝ) : ℂ) ω = 1 + Q / π * (Real.log (2 * π * f)⁻¹ + Complex.log ω) + 0.5 * Q * Complex.I := by
    intro f hf
    unfold Model1D.atn
    rw [if_neg (by simp), if_pos hq', Model1D.attenuationLaw, hlog f hf]
  have harg : -(π / 2) < ω.arg := by
    rw [Complex.neg_pi_div_two_lt_arg_iff]
    exact Or.inl hre
  have him : ∀ f : ℝ, 0 < f → 0 < (Model1D.atn false q ((2 * π * f : ℝ) : ℂ) ω).im := by
    intro f hf
    rw [hatn f hf]
    have e : (Q / π * (Real.log (2 * π * f)⁻¹ + Complex.log ω) : ℂ) = ((Q / π : ℝ) : ℂ) * (((Real.log (2 * π * f)⁻¹ : ℝ) : ℂ) + Complex.log ω) := by
      push_cast; ring
    have e2 : (0.5 * Q * Complex.I : ℂ) = ((0.5 * Q : ℝ) : ℂ) * Complex.I := by push_cast; ring
    rw [e, e2]
    simp only [Complex.add_im, Complex.one_im, Complex.re_ofReal_mul, Complex.im_ofReal_mul, Complex.ofReal_im, Complex.log_im, Complex.I_im]
    have : -(Q / 2) < Q / π * ω.arg := by
      have h3 : Q / π * (-(π / 2)) < Q / π * ω.arg := mul_lt_mul_of_pos_left harg (by positivity)
      have h4 : Q / π * (-(π / 2)) = -(Q / 2) := by field_simp
      linarith
    linarith
  intro h
  unfold Model1D.stateMu at h
  have hsq : (Model1D.atn false q (omgref freqs a) ω) ^ 2 = (Model1D.atn false q (omgref freqs b) ω) ^ 2 := by
    have c1 : (rho : ℂ) ≠ 0 := by exact_mod_cast hr
    have c2 : (vb : ℂ) ≠ 0 := by exact_mod_cast hv
    have : (vb : ℂ) ^ 2 * rho * (Model1D.atn false q (omgref freqs a) ω) ^ 2 = (vb : ℂ) ^ 2 * rho * (Model1D.atn false q (omgref freqs b) ω) ^ 2 := by
      linear_combination h
    exact mul_left_cancel₀ (mul_ne_zero (pow_ne_zero 2 c2) c1) this
  have hA := him (freqs a) ha
  have hB := him (freqs b) hb
  rcases sq_eq_sq_iff_eq_or_eq_neg.1 hsq with h | h
  · rw [omgref, omgref, hatn _ ha, hatn _ hb] at h
    have c : (Q : ℂ) / π ≠ 0 := by
      have : (Q / π : ℝ) ≠ 0 := by positivity
      exact_mod_cast this
    have h2 : ((Real.log (2 * π * freqs a)⁻¹ : ℝ) : ℂ) = ((Real.log (2 * π * freqs b)⁻¹ : ℝ) : ℂ) := by
      apply mul_left_cancel₀ c
      linear_combination h
    have h3 := Complex.ofReal_injective h2
    have h4 := Real.log_injOn_pos (Set.mem_Ioi.2 (by positivity)) (Set.mem_Ioi.2 (by positivity)) h3
    have h5 := inv_injective h4
    exact hab (mul_left_cancel₀ (by positivity) h5)
  · have := congrArg Complex.im h
    rw [Complex.neg_im] at this
    unfold omgref at this
    linarith

/-- A case: 100 points at 1 s, the frequency 0.1 Hz, in the whole band and in the band up to 0.25 Hz, with Q = 300. -/
example : Model1D.stateMu ((2.7 : ℝ) : ℂ) ((3.5 : ℝ) : ℂ) (Model1D.atn false 300 (omgref (grid 100 1) 50) (omega (grid 100 1 10) 0)) ≠
    Model1D.stateMu ((2.7 : ℝ) : ℂ) ((3.5 : ℝ) : ℂ) (Model1D.atn false 300 (omgref (grid 100 1) 25) (omega (grid 100 1 10) 0)) :=
  C48_reference_violated (grid 100 1) 0 10 50 25 (by norm_num [grid, dfreq]) (by norm_num [grid, dfreq]) (by norm_num [grid, dfreq])
    (by norm_num [grid, dfreq]) _ _ _ (by norm_num) (by norm_num) (by norm_num)

/-- A case of `C48_parallel_partial`: two threads; the second frequency is started first and written in between. -/
example (E : Env 0) (K : Kproc) (mem : ℕ × Sub 0 → ℂ) : ∃ s, Reach E K (entry 2 [1, 2] mem) s ∧ s.Done := by
  have hw : ∀ i, E.writes K i = [] := by
    intro i
    have : subs 0 E.upar = [] := by cases E.upar <;> rfl
    simp [Env.writes, this]
  refine ⟨_, .tail (.tail (.tail (.tail .refl (.start _ 0 2 rfl (by simp [entry]))) (.start _ 1 1 ?_ ?_)) (.finish _ 0 ?_)) (.finish _ 1 ?_), ?_, ?_⟩
  · simp [entry]
  · simp only [entry]; decide
  · simp [hw]
  · simp [hw]
  · simp only [entry]; decide
  · intro t; fin_cases t <;> simp

end GRT.Freq
