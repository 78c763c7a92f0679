import Verif.Freq.Sac

/-!
Which traces are written for one distance, and with which signs (`grt_grnspec_write_sac`, pygrt/C_extension/src/dynamic/grnspec.c 99-150): C70.
-/

namespace GRT.Freq

/-! ### Model -/

/-- `GRT_SRC_M_NAME_ABBR`, `GRT_SRC_M_ORDERS`, `GRT_ZRT_CODES`, common/const.c 19-31. -/
def srcName : Fin 6 → String := ![ "EX", "VF", "HF", "DD", "DS", "SS" ]
def srcOrder : Fin 6 → ℕ := ![0, 0, 1, 0, 1, 2]
def zrt : Fin 3 → Char := !['Z', 'R', 'T']

/-- The arrays `grn->u`, `grn->uiz`, `grn->uir`. -/
inductive Field | u | uiz | uir
  deriving DecidableEq

instance : Fintype Field := ⟨{.u, .uiz, .uir}, fun x => by cases x <;> simp⟩

/-- One call of `write_one_to_sac`: name of the file without extension, array, source, component, sign. -/
structure Written1 where
  name : String
  fld : Field
  im : Fin 6
  c : Fin 3
  sgn : ℤ
  deriving DecidableEq

/-- What the user selects: derivatives, components (`validChnls`) and source types. -/
structure Choice where
  upar : Bool
  chnl : Fin 3 → Bool
  ex : Bool
  vf : Bool
  hf : Bool
  dc : Bool

/-- The body of the loop, grnspec.c 121-148. -/
def writeOne (C : Choice) (im : Fin 6) (c : Fin 3) : List Written1 :=
  if C.chnl c = false then [] else
  if C.ex = false ∧ im = 0 then [] else
  if C.vf = false ∧ im = 1 then [] else
  if C.hf = false ∧ im = 2 then [] else
  if C.dc = false ∧ 3 ≤ im then [] else
  if srcOrder im = 0 ∧ zrt c = 'T' then [] else
  let sgn : ℤ := if zrt c = 'Z' then -1 else 1
  let nm := srcName im ++ (zrt c).toString
  ⟨nm, .u, im, c, sgn⟩ :: if C.upar then [⟨"z" ++ nm, .uiz, im, c, sgn * (-1)⟩, ⟨"r" ++ nm, .uir, im, c, sgn⟩] else []

/-- The loop, grnspec.c 121, `GRT_LOOP_ChnlGrid` (const.h 152-154). -/
def outputs (C : Choice) : List Written1 := (List.finRange 6).flatMap fun im => (List.finRange 3).flatMap (writeOne C im)

/-! ### Specification -/

/-- Whether the user asked for a source type: 0 explosion, 1 vertical force, 2 horizontal force, 3-5 double couple. -/
def Choice.asked (C : Choice) : Fin 6 → Prop := ![C.ex = true, C.vf = true, C.hf = true, C.dc = true, C.dc = true, C.dc = true]

/-- The vertical sense: inside, vertical components and depths count downwards, in files upwards. -/
def flips : Field → Fin 3 → ℕ
  | .uiz, 0 => 2
  | .uiz, _ => 1
  | _, 0 => 1
  | _, _ => 0

/-- Prefix of the name: displacement, derivative with depth, derivative with distance. -/
def pre : Field → String
  | .u => ""
  | .uiz => "z"
  | .uir => "r"

/-! ### C70 -/

open Classical in
theorem writeOne_eq (C : Choice) (im : Fin 6) (c : Fin 3) : writeOne C im c =
    if C.chnl c = true ∧ C.asked im ∧ ¬ (srcOrder im = 0 ∧ c = 2) then
      let sgn : ℤ := if zrt c = 'Z' then -1 else 1
      let nm := srcName im ++ (zrt c).toString
      ⟨nm, .u, im, c, sgn⟩ :: if C.upar then [⟨"z" ++ nm, .uiz, im, c, sgn * (-1)⟩, ⟨"r" ++ nm, .uir, im, c, sgn⟩] else []
    else [] := by
  have hT : zrt c = 'T' ↔ c = 2 := by fin_cases c <;> decide
  have hA : C.asked im ↔ ¬ (C.ex = false ∧ im = 0) ∧ ¬ (C.vf = false ∧ im = 1) ∧ ¬ (C.hf = false ∧ im = 2) ∧ ¬ (C.dc = false ∧ 3 ≤ im) := by
    unfold Choice.asked
    fin_cases im <;> simp
  unfold writeOne
  by_cases h1 : C.chnl c = false
  · simp [h1]
  by_cases h2 : C.ex = false ∧ im = 0
  · rw [if_neg h1, if_pos h2, if_neg (fun h => (hA.1 h.2.1).1 h2)]
  by_cases h3 : C.vf = false ∧ im = 1
  · rw [if_neg h1, if_neg h2, if_pos h3, if_neg (fun h => (hA.1 h.2.1).2.1 h3)]
  by_cases h4 : C.hf = false ∧ im = 2
  · rw [if_neg h1, if_neg h2, if_neg h3, if_pos h4, if_neg (fun h => (hA.1 h.2.1).2.2.1 h4)]
  by_cases h5 : C.dc = false ∧ 3 ≤ im
  · rw [if_neg h1, if_neg h2, if_neg h3, if_neg h4, if_pos h5, if_neg (fun h => (hA.1 h.2.1).2.2.2 h5)]
  rw [if_neg h1, if_neg h2, if_neg h3, if_neg h4, if_neg h5]
  by_cases h6 : srcOrder im = 0 ∧ c = 2
  · rw [if_pos (show srcOrder im = 0 ∧ zrt c = 'T' by rw [hT]; exact h6), if_neg (fun h => h.2.2 h6)]
  · rw [if_neg (show ¬ (srcOrder im = 0 ∧ zrt c = 'T') by rw [hT]; exact h6),
      if_pos (show C.chnl c = true ∧ C.asked im ∧ ¬ (srcOrder im = 0 ∧ c = 2) from ⟨by simpa using h1, hA.2 ⟨h2, h3, h4, h5⟩, h6⟩)]

/-- A file is written for exactly the selected sources and components, except the transverse component of sources that have none;
derivatives exactly on demand; its sign is that of the number of vertical senses to reverse. -/
theorem C70_files (C : Choice) (w : Written1) : w ∈ outputs C ↔
    C.chnl w.c = true ∧ C.asked w.im ∧ ¬ (srcOrder w.im = 0 ∧ w.c = 2) ∧ (w.fld ≠ .u → C.upar = true)
      ∧ w.name = pre w.fld ++ (srcName w.im ++ (zrt w.c).toString) ∧ w.sgn = (-1) ^ flips w.fld w.c := by
  obtain ⟨upar, chnl, ex, vf, hf, dc⟩ := C
  obtain ⟨name, fld, im, c, sgn⟩ := w
  simp only [outputs, List.mem_flatMap, List.mem_finRange, true_and]
  have hloc : (∃ a b, (⟨name, fld, im, c, sgn⟩ : Written1) ∈ writeOne ⟨upar, chnl, ex, vf, hf, dc⟩ a b) ↔
      (⟨name, fld, im, c, sgn⟩ : Written1) ∈ writeOne ⟨upar, chnl, ex, vf, hf, dc⟩ im c := by
    constructor
    · rintro ⟨a, b, h⟩
      have h' := h
      unfold writeOne at h'
      split_ifs at h' <;> simp at h'
      all_goals (obtain ⟨rfl, rfl⟩ : im = a ∧ c = b := by tauto)
      all_goals exact h
    · exact fun h => ⟨_, _, h⟩
  rw [hloc]
  rw [writeOne_eq]
  split
  · rename_i h
    obtain ⟨h1, h2, h3⟩ := h
    rw [and_iff_right h1, and_iff_right h2, and_iff_right h3]
    clear h1 h2 h3 hloc
    cases fld <;> cases upar <;> fin_cases c <;> simp [zrt, flips, pre]
  · rename_i h
    simp only [List.not_mem_nil, false_iff]
    exact fun g => h ⟨g.1, g.2.1, g.2.2.1⟩

/-- A case: only the double couple, vertical component, with derivatives. -/
example : (outputs ⟨true, fun c => c = 0, false, false, false, true⟩).map (fun w => (w.name, w.sgn)) =
    [("DDZ", -1), ("zDDZ", 1), ("rDDZ", -1), ("DSZ", -1), ("zDSZ", 1), ("rDSZ", -1), ("SSZ", -1), ("zSSZ", 1), ("rSSZ", -1)] := by
  decide +kernel

/-- No file is written twice: the name determines source, component and quantity. -/
theorem C70_names (C : Choice) (w v : Written1) (hw : w ∈ outputs C) (hv : v ∈ outputs C) (h : w.name = v.name) : w = v := by
  rw [C70_files] at hw hv
  obtain ⟨name, fld, im, c, sgn⟩ := w
  obtain ⟨name', fld', im', c', sgn'⟩ := v
  obtain ⟨-, -, -, -, h1, h2⟩ := hw
  obtain ⟨-, -, -, -, h3, h4⟩ := hv
  simp only at h h1 h2 h3 h4
  have key : ∀ (f f' : Field) (i i' : Fin 6) (d d' : Fin 3), pre f ++ (srcName i ++ (zrt d).toString) = pre f' ++ (srcName i' ++ (zrt d').toString) →
      f = f' ∧ i = i' ∧ d = d' := by decide +kernel
  obtain ⟨rfl, rfl, rfl⟩ := key fld fld' im im' c c' (by rw [← h1, ← h3, h])
  rw [h, h2, h4]

/-- The traces of the files are those of the spectra with the vertical senses reversed. -/
theorem C70_traces (H : Holder) (b wI : ℝ) (skip : Bool) (f : Field) (c : Fin 3) (grn : ℕ → ℂ) (j : ℕ) :
    trace H b wI (((-1 : ℤ) ^ flips f c : ℤ) : ℝ) skip grn j = (-1) ^ flips f c * trace H b wI 1 skip grn j := by
  rcases Nat.eq_zero_or_pos H.nt with h0 | h0
  · unfold trace c2r
    simp [h0]
  · unfold trace
    rw [c2r_real _ h0, c2r_real _ h0, Complex.ofReal_re, Complex.ofReal_re]
    have hs : ∀ k, shifted H b (((-1 : ℤ) ^ flips f c : ℤ) : ℝ) grn k = (((-1 : ℝ) ^ flips f c : ℝ) : ℂ) * shifted H b 1 grn k := by
      intro k
      unfold shifted
      split
      · rw [accum_eq, accum_eq]
        push_cast
        ring
      · simp
    simp only [hs, mul_assoc, re_smul]
    simp only [mul_left_comm (2 : ℝ), ← Finset.mul_sum]
    split <;> ring

end GRT.Freq
