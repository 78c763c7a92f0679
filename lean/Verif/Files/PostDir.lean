import Verif.Files.SynDir

/-!
C136: what `compute_strain`, `compute_rotation` and `compute_stress` return from a directory used more than once (pygrt/utils.py 288-298).  The
programs write six (three) traces named after the frame they find (pygrt/C_extension/src/dynamic/grt_strain.c 141-151, grt_rotation.c
138-148, grt_stress.c 209-219); Python returns all files `strain_*.sac` (`rotation_*.sac`, `stress_*.sac`).  The synthesis and the reading
of its files are those of `Verif.Files.SynDir`.  The names `strain_ZZ` and so on are given by the kind and the two letters; what is computed from
the traces is left open (`F`).
-/

namespace GRT.PostDir

open GRT.SynDir

variable {α : Type*}

/-- The three programs. -/
inductive Kind where
  | strain | rotation | stress
  deriving DecidableEq

/-- A directory: files of the synthesis, and of each of the programs. -/
structure State (α : Type*) where
  plain : Dir α
  fld : Kind → Dir α

/-- Components written, grt_strain.c 142-144, grt_stress.c 210-212; grt_rotation.c 139-141. -/
def pairs : Kind → List (Fin 3 × Fin 3)
  | .strain => [(0, 0), (0, 1), (0, 2), (1, 1), (1, 2), (2, 2)]
  | .rotation => [(0, 1), (0, 2), (1, 2)]
  | .stress => [(0, 0), (0, 1), (0, 2), (1, 1), (1, 2), (2, 2)]

/-- What a program reads: frame, displacements, derivatives. -/
abbrev In (α : Type*) := Bool × List α × List (List α)

/-- One of the programs, grt_strain.c 106-151 and the like; `none`: error, nothing written. -/
def post (F : Kind → In α → Fin 3 → Fin 3 → α) (k : Kind) (s : State α) : Option (State α) :=
  (derive s.plain).map fun x =>
    { s with fld := fun k' => if k' = k then (pairs k).foldl (fun d p => write d ([code x.1 p.1, code x.1 p.2], F k x p.1 p.2)) (s.fld k)
                              else s.fld k' }

/-- What is done with a directory. -/
inductive Op (α : Type*) where
  | syn (r : Run α)
  | post (k : Kind)

/-- One step; a program that fails leaves the directory as it is. -/
def step (F : Kind → In α → Fin 3 → Fin 3 → α) (s : State α) : Op α → State α
  | .syn r => { s with plain := SynDir.syn r s.plain }
  | .post k => (post F k s).getD s

/-- Several steps, the directory empty at first. -/
def run (F : Kind → In α → Fin 3 → Fin 3 → α) (ops : List (Op α)) : State α := ops.foldl (step F) ⟨fun _ => none, fun _ _ => none⟩

/-- Stream returned by `compute_strain` and the like, utils.py 288-293: all traces of the kind. -/
def returned (k : Kind) (s : State α) : Dir α := s.fld k

/-- Specification: the components of the kind; symmetric tensors on and above the diagonal, rotations above it. -/
def Comp : Kind → Fin 3 → Fin 3 → Prop
  | .strain, i, j => i ≤ j
  | .rotation, i, j => i < j
  | .stress, i, j => i ≤ j

theorem mem_pairs (k : Kind) (i j : Fin 3) : (i, j) ∈ pairs k ↔ Comp k i j := by
  cases k <;> fin_cases i <;> fin_cases j <;> simp [pairs, Comp]

theorem code_inj (z : Bool) (i j : Fin 3) (h : code z i = code z j) : i = j := by
  cases z <;> fin_cases i <;> fin_cases j <;> first | rfl | simp [code] at h

theorem foldl_pairs (z : Bool) (f : Fin 3 → Fin 3 → α) (l : List (Fin 3 × Fin 3)) (d : Dir α) (n : List Char) (a : α) :
    l.foldl (fun d p => write d ([code z p.1, code z p.2], f p.1 p.2)) d n = some a ↔
      (∃ p ∈ l, n = [code z p.1, code z p.2] ∧ a = f p.1 p.2) ∨ ((∀ p ∈ l, n ≠ [code z p.1, code z p.2]) ∧ d n = some a) := by
  induction l using List.reverseRecOn with
  | nil => simp
  | append_singleton l q ih =>
    rw [List.foldl_append, List.foldl_cons, List.foldl_nil]
    unfold write at ih ⊢
    by_cases hq : n = [code z q.1, code z q.2]
    · rw [if_pos hq]
      constructor
      · intro h
        exact Or.inl ⟨q, by simp, hq, (Option.some.inj h).symm⟩
      · rintro (⟨p, -, h1, h2⟩ | ⟨h, -⟩)
        · rw [hq] at h1
          simp only [List.cons.injEq, and_true] at h1
          rw [h2, code_inj z _ _ h1.1, code_inj z _ _ h1.2]
        · exact absurd hq (h q (by simp))
    · rw [if_neg hq, ih]
      constructor
      · rintro (⟨p, hp, h⟩ | ⟨h1, h2⟩)
        · exact Or.inl ⟨p, by simp [hp], h⟩
        · refine Or.inr ⟨fun p hp => ?_, h2⟩
          rcases List.mem_append.1 hp with h3 | h3
          · exact h1 p h3
          · rw [List.mem_singleton] at h3
            rw [h3]; exact hq
      · rintro (⟨p, hp, h⟩ | ⟨h1, h2⟩)
        · rcases List.mem_append.1 hp with h3 | h3
          · exact Or.inl ⟨p, h3, h⟩
          · rw [List.mem_singleton] at h3
            rw [h3] at h
            exact absurd h.1 hq
        · exact Or.inr ⟨fun p hp => h1 p (by simp [hp]), h2⟩

/-- C136, one call: the stream returned holds the components of the call, and traces that were there under other names. -/
theorem C136_call (F : Kind → In α → Fin 3 → Fin 3 → α) (k : Kind) (s s' : State α) (x : In α) (hx : derive s.plain = some x) (h : post F k s = some s')
    (n : List Char) (a : α) :
    returned k s' n = some a ↔ (∃ i j, Comp k i j ∧ n = [code x.1 i, code x.1 j] ∧ a = F k x i j) ∨
      ((∀ i j, Comp k i j → n ≠ [code x.1 i, code x.1 j]) ∧ returned k s n = some a) := by
  unfold post at h
  rw [hx, Option.map_some, Option.some.injEq] at h
  subst h
  unfold returned
  simp only [if_true]
  rw [foldl_pairs x.1 (F k x)]
  simp only [Prod.exists, Prod.forall, mem_pairs]

/-- All syntheses of the history are in the frame `z`. -/
def Frame (z : Bool) (ops : List (Op α)) : Prop := ∀ r, Op.syn r ∈ ops → r.zne = z

theorem plain_post (F : Kind → In α → Fin 3 → Fin 3 → α) (s : State α) (k : Kind) : (step F s (.post k)).plain = s.plain := by
  unfold step post
  cases derive s.plain <;> rfl

theorem inv (F : Kind → In α → Fin 3 → Fin 3 → α) (z : Bool) (ops : List (Op α)) (h : Frame z ops) :
    (z = false → (run F ops).plain ['n', 'N'] = none) ∧ (z = true → (run F ops).plain ['R'] = none) ∧
    (∀ x, derive (run F ops).plain = some x → x.1 = z) ∧
    ∀ k n a, (run F ops).fld k n = some a → ∃ i j, Comp k i j ∧ n = [code z i, code z j] := by
  have fr : ∀ d : Dir α, (z = false → d ['n', 'N'] = none) → (z = true → d ['R'] = none) → ∀ x, derive d = some x → x.1 = z := by
    intro d h1 h2 x hx
    unfold derive at hx
    dsimp only at hx
    simp only [Option.bind_eq_some_iff, Option.map_eq_some_iff] at hx
    obtain ⟨us, hu, ds, -, rfl⟩ := hx
    cases z with
    | false => simp [h1 rfl]
    | true =>
      cases hn : d ['n', 'N'] with
      | some b => rfl
      | none =>
        simp [hn, idx, code, h2 rfl] at hu
  induction ops using List.reverseRecOn with
  | nil => 
    refine ⟨fun _ => rfl, fun _ => rfl, fr _ (fun _ => rfl) (fun _ => rfl), ?_⟩
    intro k n a hn
    simp [run] at hn
  | append_singleton ops o ih =>
    obtain ⟨i1, i2, i3, i4⟩ := ih fun r hr => h r (by simp [hr])
    have e : run F (ops ++ [o]) = step F (run F ops) o := by simp [run]
    rw [e]
    have p12 : (z = false → (step F (run F ops) o).plain ['n', 'N'] = none) ∧ (z = true → (step F (run F ops) o).plain ['R'] = none) := by
      cases o with
      | post k => rw [plain_post]; exact ⟨i1, i2⟩
      | syn r =>
        have hz : r.zne = z := h r (by simp)
        constructor
        · intro h0
          show SynDir.syn r (run F ops).plain ['n', 'N'] = none
          have := syn_nN r (run F ops).plain
          rw [hz, h0, i1 h0] at this
          simpa using this
        · intro h0
          show SynDir.syn r (run F ops).plain ['R'] = none
          rw [Option.eq_none_iff_forall_ne_some]
          intro a ha
          rw [syn_iff] at ha
          rcases ha with (⟨i, h1, -⟩ | ⟨-, i, j, h1, -⟩ | ⟨h1, -⟩) | ⟨-, h1⟩
          · rw [hz, h0] at h1
            fin_cases i <;> simp [code] at h1
          · simp at h1
          · simp at h1
          · rw [i2 h0] at h1; simp at h1
    refine ⟨p12.1, p12.2, fr _ p12.1 p12.2, ?_⟩
    intro k n a hn
    cases o with
    | syn r => exact i4 k n a hn
    | post k' =>
      unfold step at hn
      cases hd : derive (run F ops).plain with
      | none =>
        simp only [post, hd, Option.map_none, Option.getD_none] at hn
        exact i4 k n a hn
      | some x =>
        have hx := i3 x hd
        simp only [post, hd, Option.map_some, Option.getD_some] at hn
        split at hn
        · rename_i hk
          subst hk
          rw [foldl_pairs x.1 (F k x)] at hn
          rcases hn with ⟨p, hp, h1, -⟩ | ⟨-, h1⟩
          · exact ⟨p.1, p.2, (mem_pairs k p.1 p.2).1 hp, by rw [← hx]; exact h1⟩
          · exact i4 k n a h1
        · exact i4 k n a hn

/-- C136: if all syntheses written to the directory are in one frame, the stream returned holds exactly the components of the call, whatever
calls came before. -/
theorem C136_partial (F : Kind → In α → Fin 3 → Fin 3 → α) (z : Bool) (ops : List (Op α)) (h : Frame z ops) (k : Kind) (s' : State α)
    (hp : post F k (run F ops) = some s') :
    ∃ x, derive (run F ops).plain = some x ∧ x.1 = z ∧
      ∀ n a, returned k s' n = some a ↔ ∃ i j, Comp k i j ∧ n = [code z i, code z j] ∧ a = F k x i j := by
  obtain ⟨-, -, i3, i4⟩ := inv F z ops h
  cases hd : derive (run F ops).plain with
  | none => simp [post, hd] at hp
  | some x =>
    have hx := i3 x hd
    refine ⟨x, rfl, hx, fun n a => ?_⟩
    rw [C136_call F k _ s' x hd hp, hx]
    constructor
    · rintro (h1 | ⟨h1, h2⟩)
      · exact h1
      · obtain ⟨i, j, c, e⟩ := i4 k n a h2
        exact absurd e (h1 i j c)
    · exact Or.inl

/-- C136 fails: synthesis in the frame Z, R, T, strain, synthesis in the frame Z, N, E, strain: the second stream also holds the component ZR
of the first.  The same with rotations and stresses. -/
theorem C136_violated (F : Kind → In α → Fin 3 → Fin 3 → α) (q r : Run α) (hq : q.zne = false) (hqu : q.upar = true) (hr : r.zne = true)
    (hru : r.upar = true) (k : Kind) :
    ∃ s' x, post F k (run F [.syn q, .post k, .syn r]) = some s' ∧ x.1 = true ∧ derive (run F [.syn q, .post k, .syn r]).plain = some x ∧
      ∃ y, y.1 = false ∧ derive (run F [.syn q]).plain = some y ∧ returned k s' ['Z', 'N'] = some (F k x 0 1) ∧
        returned k s' ['Z', 'R'] = some (F k y 0 1) := by
  have e1 : (run F [.syn q]).plain = SynDir.history ([] ++ [q]) := rfl
  have e2 : (run F [.syn q, .post k, .syn r]).plain = SynDir.history ([q] ++ [r]) := by
    show SynDir.syn r (step F (run F [.syn q]) (.post k)).plain = _
    rw [plain_post]
    rfl
  have d1 := C134_derived_partial [] q hqu (Or.inr (by simp))
  have d2 := C134_derived_partial [q] r hru (Or.inl hr)
  unfold Reads at d1 d2
  rw [← e1] at d1
  rw [← e2] at d2
  refine ⟨_, _, by rw [post, d2]; rfl, hr, d2, _, hq, d1, ?_, ?_⟩
  · refine (C136_call F k _ _ _ d2 (by rw [post, d2]; rfl) _ _).2 (Or.inl ⟨0, 1, ?_, ?_, rfl⟩)
    · cases k <;> simp [Comp]
    · simp [code, hr]
  · refine (C136_call F k _ _ _ d2 (by rw [post, d2]; rfl) _ _).2 (Or.inr ⟨?_, ?_⟩)
    · intro i j _ h
      simp only [hr] at h
      fin_cases i <;> fin_cases j <;> simp [code] at h
    · have hs : (run F [.syn q, .post k, .syn r]).fld k = ((post F k (run F [.syn q])).getD (run F [.syn q])).fld k := rfl
      unfold returned
      rw [hs, post, d1]
      simp only [Option.map_some, Option.getD_some, if_true]
      rw [foldl_pairs _ (F k _)]
      refine Or.inl ⟨(0, 1), ?_, ?_, rfl⟩
      · cases k <;> simp [pairs]
      · simp [code, hq]

/-- A case of `C136_partial`: two syntheses in the frame Z, N, E and two calls. -/
example : ∃ s', post (fun _ _ i j => 3 * i.val + j.val) .rotation
      (run (fun _ _ i j => 3 * i.val + j.val) [.syn (demo true true 100), .post .rotation, .syn (demo true true 200)]) = some s' ∧
    ∀ n a, returned .rotation s' n = some a ↔ ∃ i j, Comp .rotation i j ∧ n = [code true i, code true j] ∧ a = 3 * i.val + j.val := by
  have hd : derive (run (fun _ _ i j => 3 * i.val + j.val) [.syn (demo true true 100), .post .rotation, .syn (demo true true 200)]).plain =
    some (true, [200, 201, 202], [[210, 211, 212], [220, 221, 222], [230, 231, 232]]) := by
    have := C134_derived_partial [demo true true 100] (demo true true 200) rfl (Or.inl rfl)
    exact this
  have hp : ∃ s', post (fun _ _ i j => 3 * i.val + j.val) .rotation
      (run (fun _ _ i j => 3 * i.val + j.val) [.syn (demo true true 100), .post .rotation, .syn (demo true true 200)]) = some s' := by
    rw [post, hd]; exact ⟨_, rfl⟩
  obtain ⟨s', hs⟩ := hp
  obtain ⟨x, -, -, h⟩ := C136_partial (fun _ _ i j => 3 * i.val + j.val) true
    [.syn (demo true true 100), .post .rotation, .syn (demo true true 200)] (by intro r hr; simp at hr; rcases hr with rfl | rfl <;> rfl) .rotation s' hs
  exact ⟨s', hs, h⟩

/-- A case of `C136_violated`: the content records the frame. -/
example : ∃ s', post (fun _ x _ _ => if x.1 then 1 else 0) .strain
      (run (fun _ x _ _ => if x.1 then 1 else 0) [.syn (demo false true 100), .post .strain, .syn (demo true true 200)]) = some s' ∧
    returned .strain s' ['Z', 'N'] = some 1 ∧ returned .strain s' ['Z', 'R'] = some 0 := by
  obtain ⟨s', x, h1, h2, -, y, h3, -, h4, h5⟩ := C136_violated (fun _ x _ _ => if x.1 then 1 else 0) (demo false true 100) (demo true true 200)
    rfl rfl rfl rfl .strain
  exact ⟨s', h1, by rw [h4, h2]; rfl, by rw [h5, h3]; rfl⟩

end GRT.PostDir
