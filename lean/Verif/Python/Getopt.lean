import Verif.Python.Numbers

/-!
The C library functions that read the command lines: `getopt`, and the conversions `%d`, `%zu` and `%s` of `sscanf`.
-/

namespace GRT.Python

open GRT.Num GRT.Files GRT.Points

abbrev Text := List Char

/-- Options without value, with a value, and with a value only in the same argument (`x`, `x:` and `x::`). -/
inductive Arity where
  | flag
  | req
  | opt
  deriving DecidableEq

/-- `getopt`, called until it returns -1: the options with their values; `none` for an unknown option or a missing value (the program ends).  An
argument that is no option is passed over, `--` ends the options. -/
def getopt (ar : Char → Option Arity) : List Text → Option (List (Char × Option Text))
  | [] => some []
  | ('-' :: c :: t) :: rest =>
    if c = '-' ∧ t = [] then some []
    else
      match ar c with
      | none => none
      | some .flag =>
        if t = [] then (getopt ar rest).map ((c, none) :: ·) else (getopt ar (('-' :: t) :: rest)).map ((c, none) :: ·)
      | some .opt => (getopt ar rest).map ((c, if t = [] then none else some t) :: ·)
      | some .req =>
        if t = [] then
          match rest with
          | [] => none
          | b :: rest => (getopt ar rest).map ((c, some b) :: ·)
        else (getopt ar rest).map ((c, some t) :: ·)
  | _ :: rest => getopt ar rest
termination_by l => (l.map fun t => t.length + 1).sum
decreasing_by all_goals simp_wf <;> omega

/-- `%d` or `%zu` (for numbers in the range of the type): value and unread text. -/
def scanInt (cs : Text) : Option (ℤ × Text) :=
  let s := sign (cs.dropWhile isSpace)
  let ds := s.2.takeWhile isDig
  if ds = [] then none else some (if s.1 then -(digits ds : ℤ) else digits ds, s.2.dropWhile isDig)

/-- `%s`: the next word. -/
def scanWord (cs : Text) : Option Text :=
  let w := (cs.dropWhile isSpace).takeWhile fun c => !isSpace c
  if w = [] then none else some w

/-- Python's text of an integer. -/
def intText (n : ℤ) : Text := (if n < 0 then ['-'] else []) ++ dig (Nat.log 10 n.natAbs + 1) n.natAbs

theorem getopt_req {ar : Char → Option Arity} {c : Char} {t : Text} {rest : List Text} (hc : c ≠ '-') (h : ar c = some .req) (ht : t ≠ []) :
    getopt ar (('-' :: c :: t) :: rest) = (getopt ar rest).map ((c, some t) :: ·) := by
  cases rest <;> simp [getopt, hc, h, ht]

theorem getopt_flag {ar : Char → Option Arity} {c : Char} {rest : List Text} (hc : c ≠ '-') (h : ar c = some .flag) :
    getopt ar (['-', c] :: rest) = (getopt ar rest).map ((c, none) :: ·) := by
  cases rest <;> simp [getopt, hc, h]

theorem getopt_opt {ar : Char → Option Arity} {c : Char} {t : Text} {rest : List Text} (hc : c ≠ '-') (h : ar c = some .opt) :
    getopt ar (('-' :: c :: t) :: rest) = (getopt ar rest).map ((c, if t = [] then none else some t) :: ·) := by
  cases rest <;> simp [getopt, hc, h]

theorem intText_ne (n : ℤ) : intText n ≠ [] := by
  intro h
  have := congrArg List.length h
  rw [intText, List.length_append, dig_length] at this
  simp at this

theorem scanInt_intText (n : ℤ) (r : Text) (hr : ∀ c, r.head? = some c → isDig c = false) : scanInt (intText n ++ r) = some (n, r) := by
  obtain ⟨k, hk⟩ : ∃ k, k = Nat.log 10 n.natAbs + 1 := ⟨_, rfl⟩
  have hlen := dig_length k n.natAbs
  have hne : dig k n.natAbs ≠ [] := by intro h; rw [h] at hlen; simp at hlen; omega
  have hlt : n.natAbs < 10 ^ k := by rw [hk]; exact Nat.lt_pow_succ_log_self (by norm_num) _
  obtain ⟨t1, t2⟩ := takeWhile_dig (dig k n.natAbs) r (dig_isDigit _ _) hr
  have hv : digits (dig k n.natAbs) = n.natAbs := by rw [digits_dig, Nat.mod_eq_of_lt hlt]
  have hs : sign ((intText n ++ r).dropWhile isSpace) = (decide (n < 0), dig k n.natAbs ++ r) := by
    unfold intText
    rw [← hk]
    by_cases h : n < 0
    · rw [if_pos h]; simp [h, sign, isSpace]
    · rw [if_neg h, List.nil_append]
      obtain ⟨c, t, hct⟩ : ∃ c t, dig k n.natAbs = c :: t := by
        cases hd : dig k n.natAbs with
        | nil => exact absurd hd hne
        | cons c t => exact ⟨c, t, rfl⟩
      have hc := dig_isDigit k n.natAbs c (by rw [hct]; simp)
      have hsp : isSpace c = false := by
        by_contra hs
        rw [Bool.not_eq_false] at hs
        simp only [isSpace, Bool.or_eq_true, beq_iff_eq] at hs
        rcases hs with ((((rfl | rfl) | rfl) | rfl) | rfl) | rfl <;> · revert hc; decide
      rw [hct, List.cons_append]
      simp [hsp, sign_digit c _ (dig_ne_sign hc).1 (dig_ne_sign hc).2.1, h]
  unfold scanInt
  rw [hs]
  dsimp only
  rw [t1, t2, if_neg hne, hv]
  simp only [decide_eq_true_eq, Option.some.injEq, Prod.mk.injEq, and_true]
  split_ifs <;> omega

example : getopt (fun c => if c = 'N' then some .flag else if c = 'A' then some .req else none) ["-A30".toList, "-N".toList] =
    some [('A', some "30".toList), ('N', none)] := by
  rw [show "-A30".toList = '-' :: 'A' :: "30".toList from rfl, getopt_req (by decide) (by decide) (by decide),
    show "-N".toList = ['-', 'N'] from rfl, getopt_flag (by decide) (by decide), getopt.eq_1]
  rfl

end GRT.Python
