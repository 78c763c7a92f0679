import Verif.Files.Text
import Mathlib.Tactic.IntervalCases

/-!
`grt_parse_real_array` (pygrt/C_extension/src/common/util.c 65-118): the values of `-Ds`, `-Dr` and `-R`.
-/

namespace GRT.Files

open GRT.Num

/-- Refused with a message, undefined behaviour, or accepted. -/
inductive Res (A : Type) where
  | err
  | undef
  | ok (a : A)
  deriving DecidableEq, Repr

/-- Characters of a comma-separated list, util.c 72; `GRT_NUM_STR`, include/grt/common/const.h. -/
def listChars : List Char := "0123456789eE+-.,".toList

/-- `n`, util.c 83, for finite operands; `none` when the conversion to `size_t` is undefined. -/
def count (a1 a2 d : ℚ) : Option ℕ :=
  if (2 : ℚ) ^ 1024 ≤ |dbl (a2 - a1)| then none
  else
    let q := ⌊dbl (dbl (a2 - a1) / d)⌋
    if (2 : ℤ) ^ 64 ≤ q then none else some (q.toNat + 1)

/-- Value `i` printed with `%.15g`, util.c 86, and read back by `atof`, util.c 102. -/
def rangeVal (a1 d : ℚ) (i : ℕ) : ℚ := dbl (dec15 (dbl (a1 + dbl (d * dbl i))))

/-- Equidistant range, util.c 75-88.  For an infinite step the single value is `a1 + inf*0`. -/
def range (a1 a2 d : Val) : Res (List Val) :=
  if d.lt (.num 0) || d == .num 0 then .err
  else if a2.lt a1 then .err
  else
    match a1, a2, d with
    | .num a1, .num a2, .num d =>
      match count a1 a2 d with
      | none => .undef
      | some n => .ok ((List.range n).map fun i => .num (rangeVal a1 d i))
    | .num _, .num _, .inf _ => .ok [.nan]
    | _, _, _ => .undef

/-- The checks of util.c 102-108 on the values after `prev`. -/
def ascending : Val → List Val → Bool
  | _, [] => true
  | prev, v :: vs => !v.lt (.num 0) && prev.lt v && ascending v vs

/-- Loop of util.c 100-109. -/
def checked : List Val → Bool
  | [] => true
  | v :: vs => !v.lt (.num 0) && ascending v vs

/-- Values before the checks, util.c 71-98; `file` gives the contents of a readable file. -/
def listed (file : List Char → Option (List Char)) (arg : List Char) : Res (List Val) :=
  if composedOf listChars arg then .ok ((split ',' arg).map atof)
  else
    match scan3 arg with
    | some (a1, a2, d) => range a1 a2 d
    | none =>
      match file arg with
      | none => .err
      | some t => .ok ((lines t).map atof)

/-- `grt_parse_real_array`, util.c 65-118. -/
def parseReals (file : List Char → Option (List Char)) (arg : List Char) : Res (List Val) :=
  match listed file arg with
  | .ok vs => if vs = [] then .err else if checked vs then .ok vs else .err
  | r => r

/-! ### Specification -/

/-- A number, or plus infinity, not below zero. -/
def Nonneg : Val → Prop
  | .nan => False
  | .inf neg => neg = false
  | .num q => 0 ≤ q

/-- Strict order of the extended reals. -/
def Below : Val → Val → Prop
  | .num a, .num b => a < b
  | .num _, .inf neg => neg = false
  | .inf neg, .num _ => neg = true
  | .inf a, .inf b => a = true ∧ b = false
  | _, _ => False

theorem lt_iff (a b : Val) : a.lt b = true ↔ Below a b := by
  cases a <;> cases b <;> simp [Val.lt, Below]

theorem nonneg_of (v : Val) (h : v.lt (.num 0) = false) (hn : v ≠ .nan) : Nonneg v := by
  cases v <;> simp_all [Val.lt, Nonneg]

theorem ascending_sound (vs : List Val) : ∀ p, ascending p vs = true →
    (vs ≠ [] → p ≠ .nan) ∧ (∀ v ∈ vs, Nonneg v) ∧ List.IsChain Below (p :: vs) := by
  induction vs with
  | nil => intro p _; simp
  | cons v vs ih =>
    intro p h
    simp only [ascending, Bool.and_eq_true, Bool.not_eq_true'] at h
    obtain ⟨⟨h1, h2⟩, h3⟩ := h
    obtain ⟨_, i2, i3⟩ := ih v h3
    have hb := (lt_iff p v).1 h2
    have hv : v ≠ .nan := by rintro rfl; cases p <;> simp [Below] at hb
    refine ⟨fun _ => by rintro rfl; cases v <;> simp [Below] at hb, ?_, ?_⟩
    · intro w hw
      rcases List.mem_cons.1 hw with rfl | hw
      · exact nonneg_of _ h1 hv
      · exact i2 w hw
    · exact List.IsChain.cons_cons hb i3

theorem Below.trans {a b c : Val} (h1 : Below a b) (h2 : Below b c) : Below a c := by
  cases a <;> cases b <;> cases c <;> simp_all [Below]
  linarith

/-- C36: an accepted list is not empty, and either a single not-a-number or entirely non-negative and strictly ascending. -/
theorem C36_sound_partial (file : List Char → Option (List Char)) (arg : List Char) (vs : List Val)
    (h : parseReals file arg = .ok vs) :
    vs ≠ [] ∧ (vs = [.nan] ∨ ((∀ v ∈ vs, Nonneg v) ∧ vs.Pairwise Below)) := by
  unfold parseReals at h
  split at h
  · rename_i ws _
    split at h
    · cases h
    · split at h
      · rename_i hne hc
        cases h
        refine ⟨hne, ?_⟩
        cases vs with
        | nil => exact absurd rfl hne
        | cons v vs =>
          simp only [checked, Bool.and_eq_true, Bool.not_eq_true'] at hc
          obtain ⟨i1, i2, i3⟩ := ascending_sound vs v hc.2
          by_cases hv : v = .nan
          · left
            cases vs with
            | nil => rw [hv]
            | cons _ _ => exact absurd hv (i1 (by simp))
          · right
            refine ⟨?_, ?_⟩
            · intro w hw
              rcases List.mem_cons.1 hw with rfl | hw
              · exact nonneg_of _ hc.1 hv
              · exact i2 w hw
            · haveI : Trans Below Below Below := ⟨Below.trans⟩
              exact List.isChain_iff_pairwise.1 i3
      · cases h
  · rename_i h'; rw [h] at h'; exact absurd rfl (h' vs)

theorem ascending_complete (vs : List Val) : ∀ p, (∀ v ∈ vs, Nonneg v) → List.IsChain Below (p :: vs) →
    ascending p vs = true := by
  induction vs with
  | nil => intro p _ _; rfl
  | cons v vs ih =>
    intro p h1 h2
    rw [List.isChain_cons_cons] at h2
    simp only [ascending, Bool.and_eq_true, Bool.not_eq_true']
    refine ⟨⟨?_, (lt_iff p v).2 h2.1⟩, ih v (fun w hw => h1 w (by simp [hw])) h2.2⟩
    have := h1 v (by simp)
    cases v <;> simp_all [Val.lt, Nonneg]

/-- C36, converse: a comma-separated list whose values are non-negative and strictly ascending is accepted with those values. -/
theorem C36_accepts (file : List Char → Option (List Char)) (arg : List Char)
    (hc : ∀ c ∈ arg, c ∈ "0123456789eE+-.,".toList) (hne : split ',' arg ≠ [])
    (hn : ∀ v ∈ (split ',' arg).map atof, Nonneg v) (hs : ((split ',' arg).map atof).Pairwise Below) :
    parseReals file arg = .ok ((split ',' arg).map atof) := by
  have h1 : composedOf listChars arg = true := by
    simp only [composedOf, List.all_eq_true, List.contains_iff_mem]
    exact hc
  unfold parseReals listed
  rw [if_pos h1]
  dsimp only
  have h2 : (split ',' arg).map atof ≠ [] := by simpa using hne
  rw [if_neg h2, if_pos]
  revert hn hs h2
  generalize (split ',' arg).map atof = vs
  intro hn hs h2
  cases vs with
  | nil => exact absurd rfl h2
  | cons v vs =>
    simp only [checked, Bool.and_eq_true, Bool.not_eq_true']
    refine ⟨?_, ascending_complete vs v (fun w hw => hn w (by simp [hw])) ?_⟩
    · have := hn v (by simp)
      cases v <;> simp_all [Val.lt, Nonneg]
    · haveI : Trans Below Below Below := ⟨Below.trans⟩
      exact List.isChain_iff_pairwise.2 hs

/-- C36 does not hold: a file with the single line `nan` is accepted. -/
theorem C36_violated : parseReals (fun _ => some "nan\n".toList) "depths.txt".toList = .ok [.nan] := by decide +kernel

/-- C36 does not hold: the range 0/0.3/0.1 loses its last value. -/
theorem C36_range_violated : ∃ vs, parseReals (fun _ => none) "0/0.3/0.1".toList = .ok vs ∧ vs.length = 3 :=
  ⟨[.num 0, .num (dbl (1/10)), .num (dbl (2/10))], by decide +kernel, rfl⟩

/-- Text that is no list of numbers is accepted: `e` is read as 0 and `1-2` as 1. -/
theorem C36_lenient_violated : parseReals (fun _ => none) "e,5".toList = .ok [.num 0, .num 5]
    ∧ parseReals (fun _ => none) "1-2,3".toList = .ok [.num 1, .num 3]
    ∧ parseReals (fun _ => none) "1e999".toList = .ok [.inf false] := by decide +kernel

example : parseReals (fun _ => none) "10,20.5,1e2".toList = .ok [.num 10, .num (41/2), .num 100] := by decide +kernel
example : parseReals (fun _ => none) "10,20,20".toList = .err := by decide +kernel
example : parseReals (fun _ => some "1\r\n2.5\n4".toList) "r.txt".toList = .ok [.num 1, .num (5/2), .num 4] := by decide +kernel
example : parseReals (fun _ => none) "1e/20/5".toList = .err ∧ scan3 "1e0/20/5".toList = some (.num 1, .num 20, .num 5) := by
  decide +kernel
example : scan3 "10/20/5e".toList = none ∧ parseReals (fun _ => none) "10/20/5e".toList = .err := by decide +kernel
example : parseReals (fun _ => none) "10/20/5".toList = .ok [.num 10, .num 15, .num 20] := by decide +kernel

end GRT.Files
