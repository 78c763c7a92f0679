import Mathlib.Data.List.Basic
import Mathlib.Tactic.Common

/-!
Model of the main program `grt` (pygrt/C_extension/src/grt.c): which module runs, with which arguments (C117).  The exit status is not modelled: it is
zero after a module has returned, whatever it returned (lines 184-187); every module returns zero or leaves with `exit`.
-/

namespace GRT.Files.Dispatch

/-- What a call comes to: the version or the help text, an error exit, or a module with its `argv`. -/
inductive Out where
  | version
  | help
  | error
  | run (name : String) (argv : List String)
  deriving DecidableEq, Repr

/-- `GRT_Module_List`, lines 15-38. -/
def modules : List String :=
  ["greenfn", "syn", "rotation", "strain", "stress", "kernel", "eigenv", "eigenfn", "modsum",
   "static_greenfn", "static_syn", "static_rotation", "static_strain", "static_stress",
   "disp2asc", "ker2asc", "sac2asc", "travt", "lamb1", "okada"]

/-- `getopt_from_command`, lines 114-131, for at most one argument (`getopt` with the options `:vh`; each option leaves the program, so the first
character decides; `-` and `--` are no options): `none` if the program goes on. -/
def options : List String → Option Out
  | [] => some .error
  | a :: _ =>
    match a.toList with
    | '-' :: c :: t =>
      if c = 'v' then some .version
      else if c = 'h' then some .help
      else if c = '-' ∧ t = [] then none
      else some .error
    | _ => none

/-- The search of the table, lines 155-167: `name` with the arguments that follow. -/
def start (name : String) (rest : List String) : Out := if name ∈ modules then .run name (name :: rest) else .error

/-- `dispatch_command`, lines 135-172; `args` are the arguments after the name of the program. -/
def dispatch : List String → Out
  | [] => .error
  | [name] => start name []
  | a :: x :: rest => if a = "static" then start ("static_" ++ x) rest else start a (x :: rest)

/-- `main`, lines 176-188. -/
def main (args : List String) : Out :=
  if args.length ≤ 1 then (options args).getD (dispatch args) else dispatch args

/-- No name of a module begins with a dash. -/
theorem options_module {n : String} (h : n ∈ modules) (rest : List String) : options (n :: rest) = none := by
  simp only [modules, List.mem_cons, List.not_mem_nil, or_false] at h
  rcases h with rfl | rfl | rfl | rfl | rfl | rfl | rfl | rfl | rfl | rfl | rfl | rfl | rfl | rfl | rfl | rfl | rfl | rfl | rfl | rfl <;>
    rfl

theorem start_run {name : String} {rest : List String} {n : String} {av : List String} :
    start name rest = .run n av ↔ n ∈ modules ∧ name = n ∧ av = n :: rest := by
  unfold start
  split
  · rename_i h
    constructor
    · intro e
      injection e with e1 e2
      subst e1
      exact ⟨h, rfl, e2.symm⟩
    · rintro ⟨-, rfl, rfl⟩; rfl
  · rename_i h
    constructor
    · intro e; cases e
    · rintro ⟨h1, rfl, -⟩; exact absurd h1 h

theorem dispatch_run {args : List String} {n : String} {av : List String} :
    dispatch args = .run n av ↔ n ∈ modules ∧ ∃ rest, av = n :: rest ∧ (args = n :: rest ∨ ∃ x, n = "static_" ++ x ∧ args = "static" :: x :: rest) := by
  have hstat : "static" ∉ modules := by decide
  match args with
  | [] => simp [dispatch]
  | [name] =>
    rw [dispatch, start_run]
    constructor
    · rintro ⟨h, rfl, rfl⟩; exact ⟨h, [], rfl, .inl rfl⟩
    · rintro ⟨h, rest, rfl, e | ⟨x, -, e⟩⟩
      · injection e with e1 e2
        exact ⟨h, e1, by rw [e2]⟩
      · simp at e
  | a :: x :: tl =>
    rw [dispatch]
    split
    · rename_i ha
      subst ha
      rw [start_run]
      constructor
      · rintro ⟨h, rfl, rfl⟩; exact ⟨h, tl, rfl, .inr ⟨x, rfl, rfl⟩⟩
      · rintro ⟨h, rest, rfl, e | ⟨y, rfl, e⟩⟩
        · injection e with e1 e2
          rw [← e1] at h
          exact absurd h hstat
        · injection e with e1 e2
          injection e2 with e3 e4
          exact ⟨h, by rw [e3], by rw [e4]⟩
    · rename_i ha
      rw [start_run]
      constructor
      · rintro ⟨h, rfl, rfl⟩; exact ⟨h, x :: tl, rfl, .inl rfl⟩
      · rintro ⟨h, rest, rfl, e | ⟨y, -, e⟩⟩
        · injection e with e1 e2
          exact ⟨h, e1, by rw [e2]⟩
        · injection e with e1 e2
          exact absurd e1 ha

/-- C117: a module runs exactly if its name, or `static` and the rest of the name, is the first argument; it gets its full name and all further
arguments, in order. -/
theorem C117_run {args : List String} {n : String} {av : List String} :
    main args = .run n av ↔ n ∈ modules ∧ ∃ rest, av = n :: rest ∧ (args = n :: rest ∨ ∃ x, n = "static_" ++ x ∧ args = "static" :: x :: rest) := by
  unfold main
  split
  · rename_i hlen
    constructor
    · intro h
      rcases ho : options args with _ | o
      · rw [ho] at h
        exact dispatch_run.1 h
      · rw [ho] at h
        have h : o = .run n av := h
        subst h
        unfold options at ho
        split at ho
        · simp at ho
        · split at ho
          · split_ifs at ho <;> simp at ho
          · cases ho
    · intro h
      have h' := dispatch_run.2 h
      obtain ⟨hm, rest, -, rfl | ⟨x, -, rfl⟩⟩ := h
      · rw [options_module hm]; exact h'
      · simp at hlen
  · exact dispatch_run

/-- C117, short form: `grt static name …` does what `grt static_name …` does, also for names that are not known. -/
theorem C117_static (x : String) (rest : List String) : main ("static" :: x :: rest) = main (("static_" ++ x) :: rest) := by
  have ho : options (("static_" ++ x) :: rest) = none := by
    unfold options
    have : ("static_" ++ x).toList = 's' :: ("tatic_".toList ++ x.toList) := by
      rw [String.toList_append]; rfl
    dsimp only
    rw [this]
    split
    · rename_i e; simp at e
    · rfl
  have hne : "static_" ++ x ≠ "static" := by
    intro h
    have := congrArg String.length h
    rw [String.length_append] at this
    have e1 : "static_".length = 7 := rfl
    have e2 : "static".length = 6 := rfl
    omega
  have hd : dispatch ("static" :: x :: rest) = dispatch (("static_" ++ x) :: rest) := by
    rw [dispatch, if_pos rfl]
    cases rest with
    | nil => rfl
    | cons y rest => rw [dispatch, if_neg hne]
  unfold main
  rw [if_neg (by simp), hd]
  split
  · rw [ho]; rfl
  · rfl

/-- The pages of the manual, docs/source/Module/*.rst. -/
def manual : List String :=
  ["disp2asc", "eigenfn", "eigenv", "greenfn", "ker2asc", "kernel", "lamb1", "modsum", "okada", "rotation", "sac2asc", "static_greenfn",
   "static_rotation", "static_strain", "static_stress", "static_syn", "strain", "stress", "syn", "travt"]

/-- C117: the modules are those of the manual; each runs, with all its arguments. -/
theorem C117_manual (n : String) (rest : List String) : main (n :: rest) = .run n (n :: rest) ↔ n ∈ manual := by
  have h1 : ∀ m ∈ manual, m ∈ modules := by decide
  have h2 : ∀ m ∈ modules, m ∈ manual := by decide
  rw [C117_run]
  exact ⟨fun h => h2 n h.1, fun h => ⟨h1 n h, rest, rfl, .inl rfl⟩⟩

example : main ["travt", "-h"] = .run "travt" ["travt", "-h"] := (C117_manual "travt" ["-h"]).2 (by decide)

/-- The documented calls. -/
example : main ["greenfn", "-h"] = .run "greenfn" ["greenfn", "-h"] := by decide +kernel
example : main ["static", "greenfn", "-h"] = .run "static_greenfn" ["static_greenfn", "-h"] := by decide +kernel
example : main ["-v"] = .version ∧ main ["-h"] = .help ∧ main [] = .error ∧ main ["static"] = .error ∧ main ["-v", "x"] = .error := by decide +kernel

end GRT.Files.Dispatch
