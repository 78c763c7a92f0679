import Mathlib.Data.Fintype.Basic
import Mathlib.Tactic.FinCases

/-!
C134: what the programs read from a directory of synthetics that has been written to more than once.  `grt syn` writes its traces and leaves
other files where they are (pygrt/C_extension/src/dynamic/grt_syn.c 495, 736-745, 1087-1106); `grt strain`, `grt rotation` and `grt stress`
find out from the file `nN.sac` in which frame the traces are (dynamic/grt_strain.c 107-140, grt_rotation.c 103-137, grt_stress.c 164-207);
`compute_syn` returns all traces of the directory (pygrt/pymod.py 719-721).  A directory is a function from the names of its SAC files
(without `.sac`) to their content; other files are left out, and so is the content of the traces.
-/

namespace GRT.SynDir

variable {α : Type*}

/-- SAC files of a directory by name. -/
abbrev Dir (α : Type*) := List Char → Option α

/-- `GRT_ZNE_CODES`, `GRT_ZRT_CODES`, common/const.c 31, 34. -/
def code : Bool → Fin 3 → Char
  | _, 0 => 'Z'
  | true, 1 => 'N'
  | true, 2 => 'E'
  | false, 1 => 'R'
  | false, 2 => 'T'

/-- `tolower` of these codes, grt_syn.c 1094, grt_strain.c 131. -/
def low : Bool → Fin 3 → Char
  | _, 0 => 'z'
  | true, 1 => 'n'
  | true, 2 => 'e'
  | false, 1 => 'r'
  | false, 2 => 't'

/-- One run of `grt syn`: the frame (`-N`), whether derivatives are written (`-e`), the displacements, the derivatives (first index:
direction), and the time function if there is one (`-D`). -/
structure Run (α : Type*) where
  zne : Bool
  upar : Bool
  u : Fin 3 → α
  du : Fin 3 → Fin 3 → α
  sig : Option α

/-- The channels, in the order of the loops. -/
def idx : List (Fin 3) := [0, 1, 2]

/-- The files written by a run, in order, grt_syn.c 1087-1106. -/
def outputs (r : Run α) : List (List Char × α) :=
  (idx.flatMap fun i => ([code r.zne i], r.u i) ::
    if r.upar then idx.map fun j => ([low r.zne i, code r.zne j], r.du i j) else []) ++
  (r.sig.map fun s => (['s', 'i', 'g'], s)).toList

/-- `grt_write_SACTRACE`: a file of that name is replaced. -/
def write (d : Dir α) (f : List Char × α) : Dir α := fun n => if n = f.1 then some f.2 else d n

/-- `grt syn` with a directory, grt_syn.c 495, 1087-1106. -/
def syn (r : Run α) (d : Dir α) : Dir α := (outputs r).foldl write d

/-- What `grt strain`, `grt rotation` and `grt stress` read, grt_strain.c 106-137 (the same in the others): the frame, the displacements, the
derivatives (first index: direction).  `none`: a file is missing, which is an error. -/
def derive (d : Dir α) : Option (Bool × List α × List (List α)) :=
  let zne := (d ['n', 'N']).isSome
  (idx.mapM fun i => d [code zne i]).bind fun us =>
    (idx.mapM fun i => idx.mapM fun j => d [low zne i, code zne j]).map fun ds => (zne, us, ds)

/-- Several runs with the same directory, empty at first. -/
def history (rs : List (Run α)) : Dir α := rs.foldl (fun d r => syn r d) fun _ => none

/-! ### Specification -/

/-- The three derived-field programs work with the run `r`. -/
def Reads (d : Dir α) (r : Run α) : Prop :=
  derive d = some (r.zne, [r.u 0, r.u 1, r.u 2], [[r.du 0 0, r.du 0 1, r.du 0 2], [r.du 1 0, r.du 1 1, r.du 1 2], [r.du 2 0, r.du 2 1, r.du 2 2]])

/-- `n` is the name of a trace of the run `r`: a component, or with derivatives a direction in small letters before a component. -/
def Belongs (r : Run α) (n : List Char) (a : α) : Prop :=
  (∃ i, n = [code r.zne i] ∧ a = r.u i) ∨ (r.upar = true ∧ ∃ i j, n = [low r.zne i, code r.zne j] ∧ a = r.du i j) ∨
    (n = ['s', 'i', 'g'] ∧ r.sig = some a)

/-! ### Files after a run -/

theorem syn_u (r : Run α) (d : Dir α) (i : Fin 3) : syn r d [code r.zne i] = some (r.u i) := by
  obtain ⟨zne, upar, u, du, sig⟩ := r
  cases zne <;> cases upar <;> cases sig <;> fin_cases i <;> simp [syn, outputs, idx, write, code, low]

theorem syn_du (r : Run α) (d : Dir α) (h : r.upar = true) (i j : Fin 3) : syn r d [low r.zne i, code r.zne j] = some (r.du i j) := by
  obtain ⟨zne, upar, u, du, sig⟩ := r
  simp only at h
  subst h
  cases zne <;> cases sig <;> fin_cases i <;> fin_cases j <;> simp [syn, outputs, idx, write, code, low]

theorem syn_sig (r : Run α) (d : Dir α) (a : α) (h : r.sig = some a) : syn r d ['s', 'i', 'g'] = some a := by
  obtain ⟨zne, upar, u, du, sig⟩ := r
  simp only at h
  subst h
  simp [syn, outputs, write]

theorem foldl_write_other (l : List (List Char × α)) (d : Dir α) (n : List Char) (h : ∀ f ∈ l, n ≠ f.1) : l.foldl write d n = d n := by
  induction l generalizing d with
  | nil => rfl
  | cons f l ih =>
    rw [List.foldl_cons, ih _ fun g hg => h g (List.mem_cons_of_mem _ hg), write, if_neg (h f (by simp))]

theorem mem_outputs (r : Run α) (f : List Char × α) : f ∈ outputs r ↔ Belongs r f.1 f.2 := by
  obtain ⟨zne, upar, u, du, sig⟩ := r
  obtain ⟨n, a⟩ := f
  unfold outputs Belongs
  simp only [List.mem_append, List.mem_flatMap, List.mem_cons, Option.mem_toList, Option.map_eq_some_iff, Prod.mk.injEq]
  have hall : ∀ i : Fin 3, i ∈ idx := by intro i; fin_cases i <;> simp [idx]
  constructor
  · rintro (⟨i, -, h | h⟩ | ⟨s, hs, h1, h2⟩)
    · exact Or.inl ⟨i, h⟩
    · cases upar with
      | false => simp at h
      | true =>
        simp only [if_true, List.mem_map, Prod.mk.injEq] at h
        obtain ⟨j, -, h1, h2⟩ := h
        exact Or.inr (Or.inl ⟨rfl, i, j, h1.symm, h2.symm⟩)
    · exact Or.inr (Or.inr ⟨h1.symm, by rw [hs, h2]⟩)
  · rintro (⟨i, h⟩ | ⟨rfl, i, j, h1, h2⟩ | ⟨h1, h2⟩)
    · exact Or.inl ⟨i, hall i, Or.inl h⟩
    · exact Or.inl ⟨i, hall i, Or.inr (by simp only [if_true, List.mem_map, Prod.mk.injEq]; exact ⟨j, hall j, h1.symm, h2.symm⟩)⟩
    · exact Or.inr ⟨a, h2, h1.symm, rfl⟩

/-- A file of the directory after a run belongs to the run, or was there before and has no name of the run. -/
theorem syn_iff (r : Run α) (d : Dir α) (n : List Char) (a : α) :
    syn r d n = some a ↔ Belongs r n a ∨ ((∀ b, ¬ Belongs r n b) ∧ d n = some a) := by
  by_cases h : ∃ b, Belongs r n b
  · have h2 : ∀ b, Belongs r n b → syn r d n = some b := by
      rintro b (⟨i, rfl, rfl⟩ | ⟨hu, i, j, rfl, rfl⟩ | ⟨rfl, hs⟩)
      · exact syn_u r d i
      · exact syn_du r d hu i j
      · exact syn_sig r d b hs
    obtain ⟨b, hb⟩ := h
    constructor
    · intro e
      rw [h2 b hb, Option.some.injEq] at e
      exact Or.inl (e ▸ hb)
    · rintro (q | ⟨q, -⟩)
      · exact h2 a q
      · exact absurd hb (q b)
  · push Not at h
    have : syn r d n = d n := foldl_write_other _ _ _ fun f hf e => h f.2 (e ▸ (mem_outputs r f).1 hf)
    rw [this]
    exact ⟨fun e => Or.inr ⟨h, e⟩, fun e => e.elim (fun q => absurd q (h a)) fun q => q.2⟩

theorem syn_nN (r : Run α) (d : Dir α) : (syn r d ['n', 'N']).isSome = ((r.zne && r.upar) || (d ['n', 'N']).isSome) := by
  obtain ⟨zne, upar, u, du, sig⟩ := r
  cases zne <;> cases upar <;> cases sig <;> simp [syn, outputs, idx, write, code, low]

theorem history_nN (rs : List (Run α)) (d : Dir α) :
    ((rs.foldl (fun d r => syn r d) d) ['n', 'N']).isSome = (rs.any (fun r => r.zne && r.upar) || (d ['n', 'N']).isSome) := by
  induction rs generalizing d with
  | nil => simp
  | cons r rs ih =>
    rw [List.foldl_cons, ih, syn_nN, List.any_cons]
    cases (r.zne && r.upar) <;> cases (rs.any fun r => r.zne && r.upar) <;> simp

theorem derive_of (d : Dir α) (zne : Bool) (u : Fin 3 → α) (du : Fin 3 → Fin 3 → α) (h : (d ['n', 'N']).isSome = zne)
    (hu : ∀ i, d [code zne i] = some (u i)) (hd : ∀ i j, d [low zne i, code zne j] = some (du i j)) :
    derive d = some (zne, [u 0, u 1, u 2], [[du 0 0, du 0 1, du 0 2], [du 1 0, du 1 1, du 1 2], [du 2 0, du 2 1, du 2 2]]) := by
  unfold derive
  dsimp only
  rw [h]
  simp [idx, hu, hd]

/-! ### C134 -/

/-- C134 for derived fields: after any runs with the same directory, the last of them with derivatives, the programs work with the last run
exactly if this is in the frame Z, N, E or no run before wrote derivatives in that frame. -/
theorem C134_derived_partial (rs : List (Run α)) (r : Run α) (h : r.upar = true) (hf : r.zne = true ∨ ∀ q ∈ rs, ¬ (q.zne = true ∧ q.upar = true)) :
    Reads (history (rs ++ [r])) r := by
  have e : history (rs ++ [r]) = syn r (history rs) := by simp [history]
  unfold Reads
  rw [e]
  refine derive_of _ r.zne r.u r.du ?_ (syn_u r _) (syn_du r _ h)
  rw [syn_nN, history, history_nN]
  rcases hf with hz | hn
  · simp [hz, h]
  · have : (rs.any fun q => q.zne && q.upar) = false := by
      rw [List.any_eq_false]
      intro q hq
      simpa using hn q hq
    rw [this, h]
    simp

/-- C134 fails in all other cases: if the last run is in the frame Z, R, T and some run before wrote derivatives in the frame Z, N, E, the
programs never work with the last run; they take the frame Z, N, E. -/
theorem C134_violated (rs : List (Run α)) (r : Run α) (hz : r.zne = false) (hq : ∃ q ∈ rs, q.zne = true ∧ q.upar = true) :
    ¬ Reads (history (rs ++ [r])) r ∧ ∀ x, derive (history (rs ++ [r])) = some x → x.1 = true := by
  have hs : ((history (rs ++ [r])) ['n', 'N']).isSome = true := by
    rw [history, history_nN]
    obtain ⟨q, hq, h1, h2⟩ := hq
    simp only [List.any_append, Bool.or_eq_true, List.any_eq_true, Bool.and_eq_true]
    exact Or.inl (Or.inl ⟨q, hq, h1, h2⟩)
  have key : ∀ x, derive (history (rs ++ [r])) = some x → x.1 = true := by
    intro x hx
    unfold derive at hx
    dsimp only at hx
    rw [hs] at hx
    simp only [Option.bind_eq_some_iff, Option.map_eq_some_iff] at hx
    obtain ⟨us, -, ds, -, rfl⟩ := hx
    rfl
  refine ⟨fun hc => ?_, key⟩
  have := key _ hc
  simp [hz] at this

/-- C134 fails, what is read instead: after a run in the frame Z, N, E and one in the frame Z, R, T, both with derivatives, the vertical
displacement and its vertical derivative are of the second run, everything else of the first. -/
theorem C134_violated_mixed (q r : Run α) (hq : q.zne = true) (hqu : q.upar = true) (hr : r.zne = false) (hru : r.upar = true) :
    derive (history [q, r]) = some (true, [r.u 0, q.u 1, q.u 2],
      [[r.du 0 0, q.du 0 1, q.du 0 2], [q.du 1 0, q.du 1 1, q.du 1 2], [q.du 2 0, q.du 2 1, q.du 2 2]]) := by
  obtain ⟨zne, upar, u, du, sig⟩ := q
  obtain ⟨zne', upar', u', du', sig'⟩ := r
  simp only at hq hqu hr hru
  subst hq; subst hqu; subst hr; subst hru
  cases sig <;> cases sig' <;> simp [derive, history, syn, outputs, idx, write, code, low]

/-- C134 fails without derivatives: a run without derivatives after one with them in the same frame gives its displacements together with
the derivatives of the run before, without error. -/
theorem C134_violated_old (q r : Run α) (hz : q.zne = r.zne) (hqu : q.upar = true) (hru : r.upar = false) :
    derive (history [q, r]) = some (r.zne, [r.u 0, r.u 1, r.u 2],
      [[q.du 0 0, q.du 0 1, q.du 0 2], [q.du 1 0, q.du 1 1, q.du 1 2], [q.du 2 0, q.du 2 1, q.du 2 2]]) := by
  have e : history [q, r] = syn r (syn q fun _ => none) := rfl
  rw [e]
  refine derive_of _ r.zne r.u q.du ?_ (syn_u r _) fun i j => ?_
  · rw [syn_nN, syn_nN, hz, hqu, hru]; simp
  · rw [syn_iff]
    refine Or.inr ⟨?_, by rw [← hz]; exact syn_du q _ hqu i j⟩
    rintro b (⟨i', h, -⟩ | ⟨h, -⟩ | ⟨h, -⟩)
    · simp at h
    · rw [hru] at h; simp at h
    · simp at h

/-- C134 for the stream returned by `compute_syn`: its traces are those of the last run, and those of runs before whose names it has not
used; so for an empty directory they are exactly those of the run. -/
theorem C134_stream (r : Run α) (d : Dir α) (n : List Char) (a : α) :
    (syn r d n = some a ↔ Belongs r n a ∨ ((∀ b, ¬ Belongs r n b) ∧ d n = some a)) ∧ (history [r] n = some a ↔ Belongs r n a) := by
  refine ⟨syn_iff r d n a, ?_⟩
  show syn r (fun _ => none) n = some a ↔ _
  rw [syn_iff]
  simp

/-- C134 fails for the stream: after a run in the frame Z, R, T, one in the frame Z, N, E with the same directory returns the radial
component of the first beside its own. -/
theorem C134_violated_stream (q r : Run α) (hq : q.zne = false) (hr : r.zne = true) :
    history [q, r] ['R'] = some (q.u 1) ∧ ∀ b, ¬ Belongs r ['R'] b := by
  have hn : ∀ b, ¬ Belongs r ['R'] b := by
    rintro b (⟨i, h, -⟩ | ⟨-, i, j, h, -⟩ | ⟨h, -⟩)
    · rw [hr] at h
      fin_cases i <;> simp [code] at h
    · simp at h
    · simp at h
  refine ⟨?_, hn⟩
  show syn r (syn q fun _ => none) ['R'] = _
  rw [syn_iff]
  refine Or.inr ⟨hn, ?_⟩
  have := syn_u q (fun _ => none) 1
  rw [hq] at this
  exact this

/-- A run for the examples: numbers for traces. -/
def demo (zne upar : Bool) (k : ℕ) : Run ℕ := ⟨zne, upar, fun i => k + i, fun i j => k + 10 * (i + 1) + j, none⟩

/-- A case of `C134_derived_partial`: first Z, R, T, then Z, N, E. -/
example : Reads (history ([demo false true 100] ++ [demo true true 200])) (demo true true 200) :=
  C134_derived_partial [demo false true 100] _ rfl (Or.inl rfl)

/-- A case of `C134_violated`: the other way round. -/
example : ¬ Reads (history ([demo true true 100] ++ [demo false true 200])) (demo false true 200) :=
  (C134_violated [demo true true 100] _ rfl ⟨demo true true 100, by simp, rfl, rfl⟩).1

/-- A case of `C134_violated_old`. -/
example : derive (history [demo true true 100, demo true false 200]) =
    some (true, [200, 201, 202], [[110, 111, 112], [120, 121, 122], [130, 131, 132]]) :=
  C134_violated_old (demo true true 100) (demo true false 200) rfl rfl rfl

/-- A case of `C134_stream` and `C134_violated_stream`. -/
example : history [demo false false 100] ['R'] = some 101 ∧ history [demo false false 100, demo true false 200] ['R'] = some 101 :=
  ⟨((C134_stream (demo false false 100) (fun _ => none) ['R'] 101).2).2 (Or.inl ⟨1, rfl, rfl⟩),
    (C134_violated_stream (demo false false 100) (demo true false 200) rfl rfl).1⟩

end GRT.SynDir
