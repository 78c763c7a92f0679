import Verif.Integ.Ptam
import Mathlib.Analysis.Real.Pi.Bounds

/-!
The log files of the integration: `grt_write_stats`, `grt_extract_stats`, `grt_write_stats_ptam`, `grt_extract_stats_ptam`
(pygrt/C_extension/src/integral/iostats.c 20-132) and `grt ker2asc` (src/tools/grt_ker2asc.c 57-125). A file is a list of bytes. A number
is its bytes; the digits printed for it and the padding of columns are not modelled: a printed number stands for its bytes.
-/

namespace GRT.Integ

/-- The bytes of a `real_t` or, with `n = 16`, of a `cplx_t`. -/
def Word (n : ℕ) := { l : List UInt8 // l.length = n }

/-- What is printed. -/
inductive Tok
  | name (s : String)
  | real (w : List UInt8)
  | cplx (w : List UInt8)
  | nl
deriving DecidableEq

/-- `fread` of one item of `n` bytes: `none` if fewer are left. -/
def fread (n : ℕ) (f : List UInt8) : Option (List UInt8 × List UInt8) := if n ≤ f.length then some (f.take n, f.drop n) else none

/-- `GRT_SRC_M_NAME_ABBR`, src/common/const.c 25. -/
def abbr : Fin 6 → String := ![ "EX", "VF", "HF", "DD", "DS", "SS"]

/-- `GRT_QWV_CODES`, src/common/const.c 28. -/
def code : Fin 3 → String := !["q", "w", "v"]

/-- `GRT_LOOP_ChnlGrid` with the test in its body, iostats.c 24-26, 41-43, 58-60. -/
def chnlLoop : List (Fin 6 × Fin 3) := ((List.finRange 6).flatMap fun i => (List.finRange 3).map fun c => (i, c)).filter
  fun p => ¬ (order p.1 = 0 ∧ code p.2 = "v")

/-- `GRT_LOOP_IntegGrid` with the test in its body, iostats.c 77-79, 94-96, 121-123. -/
def integLoop : List (Fin 6 × Fin 4) := ((List.finRange 6).flatMap fun i => (List.finRange 4).map fun v => (i, v)).filter
  fun p => ¬ (order p.1 = 0 ∧ p.2 ≠ 0 ∧ p.2 ≠ 2)

/-- `grt_write_stats`, iostats.c 20-30: the bytes appended to the file. -/
def writeStats (k : Word 8) (Q : Fin 6 → Fin 3 → Word 16) : List UInt8 := k.1 ++ chnlLoop.flatMap fun p => (Q p.1 p.2).1

/-- Title line of `grt_extract_stats`, iostats.c 35-50. -/
def titleStats (col0 : String) : List Tok := Tok.name ("#" ++ col0) :: chnlLoop.map fun p => Tok.name (abbr p.1 ++ "_" ++ code p.2)

/-- Reading loop of `grt_extract_stats`, iostats.c 58-64: what is printed, and the rest of the file unless it returns -1. -/
def readCplx : List (Fin 6 × Fin 3) → List UInt8 → List Tok × Option (List UInt8)
  | [], f => ([], some f)
  | _ :: l, f =>
    match fread 16 f with
    | none => ([], none)
    | some (w, f) => (Tok.cplx w :: (readCplx l f).1, (readCplx l f).2)

/-- `grt_extract_stats` on data, iostats.c 52-67. -/
def extractStats (f : List UInt8) : List Tok × Option (List UInt8) :=
  match fread 8 f with
  | none => ([], none)
  | some (w, f) => (Tok.real w :: (readCplx chnlLoop f).1, (readCplx chnlLoop f).2)

/-- `grt_write_stats_ptam`, iostats.c 70-85; the arrays hold 36 points. -/
def writePtam (K : Fin 36 → Fin 6 → Fin 4 → Word 8) (F : Fin 36 → Fin 6 → Fin 4 → Word 16) : List UInt8 :=
  (List.finRange 36).flatMap fun q => integLoop.flatMap fun p => (K q p.1 p.2).1 ++ (F q p.1 p.2).1

/-- Title line of `grt_extract_stats_ptam`, iostats.c 90-114. -/
def titlePtam : List Tok := integLoop.zipIdx.flatMap fun (p, icol) =>
  [Tok.name ((if icol = 0 then "#" else "") ++ "sum_" ++ abbr p.1 ++ "_" ++ toString p.2.1 ++ "_k"), Tok.name ("sum_" ++ abbr p.1 ++ "_" ++ toString p.2.1)]

/-- Reading loop of `grt_extract_stats_ptam`, iostats.c 121-129. -/
def readPair : List (Fin 6 × Fin 4) → List UInt8 → List Tok × Option (List UInt8)
  | [], f => ([], some f)
  | _ :: l, f =>
    match fread 8 f with
    | none => ([], none)
    | some (k, f) =>
      match fread 16 f with
      | none => ([Tok.real k], none)
      | some (w, f) => (Tok.real k :: Tok.cplx w :: (readPair l f).1, (readPair l f).2)

/-- `grt_extract_stats_ptam` on data, iostats.c 117-132. -/
def extractPtam (f : List UInt8) : List Tok × Option (List UInt8) := readPair integLoop f

/-- Loop of `print_K` and `print_PTAM`, grt_ker2asc.c 67-71, 85-89, with at most `n` turns. -/
def printLoop (extract : List UInt8 → List Tok × Option (List UInt8)) : ℕ → List UInt8 → List Tok
  | 0, _ => []
  | n + 1, f =>
    match extract f with
    | (t, none) => t
    | (t, some f) => t ++ Tok.nl :: printLoop extract n f

/-- `ker2asc_main` from the file's base name on, grt_ker2asc.c 107-126: what is printed, `none` if the name is not supported. The turns are
enough, since every turn but the last reads something (`printLoop_enough`). -/
def ker2asc (base : String) (f : List UInt8) : Option (List Tok) :=
  if base.startsWith "PTAM" then some (titlePtam ++ Tok.nl :: printLoop extractPtam (f.length + 1) f)
  else if base.startsWith "K" then some (titleStats "k" ++ Tok.nl :: printLoop extractStats (f.length + 1) f)
  else if base.startsWith "C" then some (titleStats "c" ++ Tok.nl :: printLoop extractStats (f.length + 1) f)
  else none

/-! ### Specification -/

/-- Columns of a kernel file after the first: `q` and `w` of every source, `v` of those of order 1 and 2. -/
def kernelColumns : List ((Fin 6 × Fin 3) × String) :=
  [((0, 0), "EX_q"), ((0, 1), "EX_w"), ((1, 0), "VF_q"), ((1, 1), "VF_w"), ((2, 0), "HF_q"), ((2, 1), "HF_w"), ((2, 2), "HF_v"),
   ((3, 0), "DD_q"), ((3, 1), "DD_w"), ((4, 0), "DS_q"), ((4, 1), "DS_w"), ((4, 2), "DS_v"), ((5, 0), "SS_q"), ((5, 1), "SS_w"), ((5, 2), "SS_v")]

/-- Pairs of columns of a file of extrema. -/
def pointColumns : List ((Fin 6 × Fin 4) × String) :=
  [((0, 0), "sum_EX_0"), ((0, 2), "sum_EX_2"), ((1, 0), "sum_VF_0"), ((1, 2), "sum_VF_2"),
   ((2, 0), "sum_HF_0"), ((2, 1), "sum_HF_1"), ((2, 2), "sum_HF_2"), ((2, 3), "sum_HF_3"), ((3, 0), "sum_DD_0"), ((3, 2), "sum_DD_2"),
   ((4, 0), "sum_DS_0"), ((4, 1), "sum_DS_1"), ((4, 2), "sum_DS_2"), ((4, 3), "sum_DS_3"),
   ((5, 0), "sum_SS_0"), ((5, 1), "sum_SS_1"), ((5, 2), "sum_SS_2"), ((5, 3), "sum_SS_3")]

/-- Line of a kernel file. -/
def kernelRow (x : Word 8 × (Fin 6 → Fin 3 → Word 16)) : List Tok := Tok.real x.1.1 :: kernelColumns.map fun c => Tok.cplx (x.2 c.1.1 c.1.2).1

/-- Line of a file of extrema. -/
def pointRow (x : (Fin 6 → Fin 4 → Word 8) × (Fin 6 → Fin 4 → Word 16)) : List Tok :=
  pointColumns.flatMap fun c => [Tok.real (x.1 c.1.1 c.1.2).1, Tok.cplx (x.2 c.1.1 c.1.2).1]

/-- Lines of a printout: those of `rows`, then an unfinished one. -/
def printed (rows : List (List Tok)) (part : List Tok) : List Tok := rows.flatMap (fun r => r ++ [Tok.nl]) ++ part

/-! ### Reading fields in turn -/

/-- Printed form of a field. -/
def tok (w : List UInt8) : Tok := if w.length = 8 then Tok.real w else Tok.cplx w

/-- Reads fields of the given sizes. -/
def readToks : List ℕ → List UInt8 → List Tok × Option (List UInt8)
  | [], f => ([], some f)
  | n :: l, f =>
    match fread n f with
    | none => ([], none)
    | some (w, f) => (tok w :: (readToks l f).1, (readToks l f).2)

theorem fread_some (n : ℕ) (w f : List UInt8) (h : w.length = n) : fread n (w ++ f) = some (w, f) := by
  unfold fread
  rw [if_pos (by simp; omega), ← h]
  simp

theorem fread_none (n : ℕ) (f : List UInt8) (h : f.length < n) : fread n f = none := if_neg (by omega)

theorem fread_len (n : ℕ) (f w g : List UInt8) (h : fread n f = some (w, g)) : w.length = n ∧ f = w ++ g := by
  unfold fread at h
  split at h
  · rename_i c
    simp only [Option.some.injEq, Prod.mk.injEq] at h
    obtain ⟨rfl, rfl⟩ := h
    simp [c]
  · cases h

theorem readCplx_eq (l : List (Fin 6 × Fin 3)) (f : List UInt8) : readCplx l f = readToks (l.map fun _ => 16) f := by
  induction l generalizing f with
  | nil => rfl
  | cons a l ih =>
    simp only [readCplx, List.map_cons, readToks]
    cases h : fread 16 f with
    | none => rfl
    | some x =>
      obtain ⟨w, g⟩ := x
      simp only [ih]
      have : tok w = Tok.cplx w := by
        rw [tok, (fread_len _ _ _ _ h).1]
        rfl
      rw [this]

/-- Sizes of the fields of a kernel record. -/
def kernelSizes : List ℕ := 8 :: List.replicate 15 16

/-- Sizes of the fields of a record of extrema. -/
def pointSizes : List ℕ := (List.replicate 18 [8, 16]).flatten

theorem chnlLoop_eq : chnlLoop = kernelColumns.map Prod.fst := by decide

theorem integLoop_eq : integLoop = pointColumns.map Prod.fst := by decide

theorem extractStats_eq (f : List UInt8) : extractStats f = readToks kernelSizes f := by
  have e : kernelSizes = 8 :: chnlLoop.map fun _ => 16 := by decide
  rw [e]
  simp only [extractStats, readToks]
  cases h : fread 8 f with
  | none => rfl
  | some x =>
    obtain ⟨w, g⟩ := x
    have : tok w = Tok.real w := by
      rw [tok, (fread_len _ _ _ _ h).1]
      rfl
    simp only [this, readCplx_eq]

theorem readPair_eq (l : List (Fin 6 × Fin 4)) (f : List UInt8) : readPair l f = readToks (l.flatMap fun _ => [8, 16]) f := by
  induction l generalizing f with
  | nil => rfl
  | cons a l ih =>
    simp only [readPair, List.flatMap_cons, List.cons_append, List.nil_append, readToks]
    cases h : fread 8 f with
    | none => rfl
    | some x =>
      obtain ⟨w, g⟩ := x
      have e1 : tok w = Tok.real w := by
        rw [tok, (fread_len _ _ _ _ h).1]
        rfl
      simp only [e1]
      cases h' : fread 16 g with
      | none => rfl
      | some y =>
        obtain ⟨w', g'⟩ := y
        have e2 : tok w' = Tok.cplx w' := by
          rw [tok, (fread_len _ _ _ _ h').1]
          rfl
        simp only [e2, ih]

theorem extractPtam_eq (f : List UInt8) : extractPtam f = readToks pointSizes f := by
  rw [extractPtam, readPair_eq]
  rfl

theorem read_full (ws : List (List UInt8)) (g : List UInt8) : readToks (ws.map List.length) (ws.flatten ++ g) = (ws.map tok, some g) := by
  induction ws with
  | nil => rfl
  | cons w ws ih => simp only [List.map_cons, readToks, List.flatten_cons, List.append_assoc, fread_some _ w _ rfl, ih]

theorem read_short (ws : List (List UInt8)) (r : ℕ) (hr : r < (ws.map List.length).sum) :
    ∃ part, readToks (ws.map List.length) (ws.flatten.take r) = (part, none) ∧ part <+: ws.map tok ∧ part ≠ ws.map tok := by
  induction ws generalizing r with
  | nil => simp at hr
  | cons w ws ih =>
    simp only [List.map_cons, readToks, List.flatten_cons, List.sum_cons] at hr ⊢
    by_cases h : r < w.length
    · rw [List.take_append_of_le_length h.le, fread_none _ _ (by simp; omega)]
      exact ⟨[], rfl, List.nil_prefix, by simp⟩
    · rw [List.take_append, List.take_of_length_le (by omega), fread_some _ w _ rfl]
      obtain ⟨part, h1, h2, h3⟩ := ih (r - w.length) (by omega)
      simp only [h1]
      exact ⟨_, rfl, (List.prefix_cons_inj _).2 h2, by simpa using h3⟩

/-- Reading a file of records of equal layout that was cut after `n` bytes. -/
theorem print_records (a : ℕ) (l : List ℕ) (ha : 0 < a) (S : ℕ) (hS : (a :: l).sum = S) (recs : List (List (List UInt8)))
    (hr : ∀ r ∈ recs, r.map List.length = a :: l) (n m : ℕ) (hm : recs.length < m) :
    ∃ part, printLoop (readToks (a :: l)) m ((recs.flatMap List.flatten).take n) = printed ((recs.take (n / S)).map (·.map tok)) part ∧
      (recs.length ≤ n / S → part = []) ∧
      ∀ r, recs[n / S]? = some r → part <+: r.map tok ∧ part ≠ r.map tok := by
  have hpos : 0 < S := by rw [← hS, List.sum_cons]; omega
  induction recs generalizing n m with
  | nil =>
    obtain ⟨m, rfl⟩ : ∃ k, m = k + 1 := ⟨m - 1, by simp at hm; omega⟩
    refine ⟨[], ?_, fun _ => rfl, by simp⟩
    simp [printLoop, readToks, fread_none a [] (by simpa using ha), printed]
  | cons r recs ih =>
    obtain ⟨m, rfl⟩ : ∃ k, m = k + 1 := ⟨m - 1, by simp at hm; omega⟩
    have hrl := hr r (by simp)
    have hlen : r.flatten.length = S := by rw [List.length_flatten, hrl, hS]
    simp only [List.flatMap_cons]
    by_cases h : n < S
    · rw [List.take_append_of_le_length (by omega), Nat.div_eq_of_lt h]
      obtain ⟨part, h1, h2, h3⟩ := read_short r n (by rw [hrl, hS]; exact h)
      rw [hrl] at h1
      refine ⟨part, ?_, by simp, ?_⟩
      · simp [printLoop, h1, printed]
      · intro r' e
        simp only [List.getElem?_cons_zero, Option.some.injEq] at e
        subst e
        exact ⟨h2, h3⟩
    · push Not at h
      have hd : n / S = (n - S) / S + 1 := by
        rw [Nat.div_eq_sub_div hpos h]
      rw [List.take_append, hlen, List.take_of_length_le (by omega)]
      have h1 := read_full r ((recs.flatMap List.flatten).take (n - S))
      rw [hrl] at h1
      obtain ⟨part, g1, g2, g3⟩ := ih (fun r' q => hr r' (by simp [q])) (n - S) m (by simp at hm; omega)
      refine ⟨part, ?_, ?_, ?_⟩
      · simp only [printLoop, h1, g1, hd]
        simp [printed]
      · intro q
        refine g2 ?_
        simp only [List.length_cons] at q
        omega
      · intro r' e
        rw [hd, List.getElem?_cons_succ] at e
        exact g3 r' e

/-- The turns allowed are enough: a further one would change nothing. -/
theorem printLoop_enough (a : ℕ) (l : List ℕ) (ha : 0 < a) (f : List UInt8) (m : ℕ) (hm : f.length < m) :
    printLoop (readToks (a :: l)) (m + 1) f = printLoop (readToks (a :: l)) m f := by
  have hrest : ∀ (l : List ℕ) (f g : List UInt8), (readToks l f).2 = some g → g.length ≤ f.length := by
    intro l
    induction l with
    | nil =>
      intro f g h
      obtain rfl := Option.some.inj h
      rfl
    | cons b l ih =>
      intro f g h
      simp only [readToks] at h
      cases e : fread b f with
      | none => rw [e] at h; cases h
      | some x =>
        obtain ⟨w, f'⟩ := x
        rw [e] at h
        have := ih f' g h
        rw [(fread_len _ _ _ _ e).2, List.length_append]
        omega
  induction m generalizing f with
  | zero => omega
  | succ m ih =>
    rw [printLoop, printLoop]
    cases e : readToks (a :: l) f with
    | mk t o =>
      cases o with
      | none => rfl
      | some g =>
        simp only
        rw [ih]
        have : g.length < f.length := by
          simp only [readToks] at e
          cases e' : fread a f with
          | none => rw [e'] at e; simp at e
          | some x =>
            obtain ⟨w, f'⟩ := x
            rw [e'] at e
            have h2 := hrest l f' g (by simpa using congrArg Prod.snd e)
            have h3 := fread_len _ _ _ _ e'
            rw [h3.2, List.length_append]
            omega
        omega

theorem printLoop_more (a : ℕ) (l : List ℕ) (ha : 0 < a) (f : List UInt8) (m k : ℕ) (hm : f.length < m) :
    printLoop (readToks (a :: l)) (m + k) f = printLoop (readToks (a :: l)) m f := by
  induction k with
  | zero => rfl
  | succ k ih => rw [← ih, ← printLoop_enough a l ha f (m + k) (by omega), Nat.add_assoc]

/-! ### The files -/

theorem writeStats_eq (x : Word 8 × (Fin 6 → Fin 3 → Word 16)) :
    writeStats x.1 x.2 = (x.1.1 :: kernelColumns.map fun c => (x.2 c.1.1 c.1.2).1).flatten := by
  rw [writeStats, chnlLoop_eq, List.flatten_cons, List.flatMap_map, List.flatMap_def]

theorem kernelRow_eq (x : Word 8 × (Fin 6 → Fin 3 → Word 16)) :
    (x.1.1 :: kernelColumns.map fun c => (x.2 c.1.1 c.1.2).1).map tok = kernelRow x := by
  have h8 : tok x.1.1 = Tok.real x.1.1 := if_pos x.1.2
  have h16 : ∀ w : Word 16, tok w.1 = Tok.cplx w.1 := fun w => if_neg (by rw [w.2]; decide)
  simp only [List.map_cons, List.map_map, kernelRow, h8, Function.comp_def, h16]

/-- A kernel file cut after `n` bytes (a whole one if `n` is large) is printed with the columns named as they were filled: all complete records
with exactly the values written, then a beginning of the next record, never all of it, without an end of line. -/
theorem C42_kernel_file (recs : List (Word 8 × (Fin 6 → Fin 3 → Word 16))) (n : ℕ) (base : String) (c : String)
    (hb : base.startsWith "PTAM" = false ∧ (base.startsWith "K" = true ∧ c = "k" ∨ base.startsWith "K" = false ∧ base.startsWith "C" = true ∧ c = "c")) :
    ∃ part, ker2asc base ((recs.flatMap fun x => writeStats x.1 x.2).take n) =
        some ((Tok.name ("#" ++ c) :: kernelColumns.map fun d => Tok.name d.2) ++ Tok.nl :: printed ((recs.take (n / 248)).map kernelRow) part) ∧
      (recs.length ≤ n / 248 → part = []) ∧
      ∀ x, recs[n / 248]? = some x → part <+: kernelRow x ∧ part ≠ kernelRow x := by
  have ht : ∀ c, titleStats c = Tok.name ("#" ++ c) :: kernelColumns.map fun d => Tok.name d.2 := fun c => by
    rw [titleStats, chnlLoop_eq, List.map_map]
    congr 1
  have hf : (recs.flatMap fun x => writeStats x.1 x.2) =
      (recs.map fun x => x.1.1 :: kernelColumns.map fun c => (x.2 c.1.1 c.1.2).1).flatMap List.flatten := by
    rw [List.flatMap_map]
    simp only [writeStats_eq]
  obtain ⟨part, h1, h2, h3⟩ := print_records 8 (List.replicate 15 16) (by omega) 248 (by decide)
    (recs.map fun x => x.1.1 :: kernelColumns.map fun c => (x.2 c.1.1 c.1.2).1)
    (by
      intro r hr
      obtain ⟨x, -, rfl⟩ := List.mem_map.1 hr
      simp only [List.map_cons, x.1.2, List.map_map, Function.comp_def, (x.2 _ _).2]
      rfl) n (((recs.flatMap fun x => writeStats x.1 x.2).take n).length + 1 + recs.length) (by simp)
  have hloop : printLoop extractStats (((recs.flatMap fun x => writeStats x.1 x.2).take n).length + 1) ((recs.flatMap fun x => writeStats x.1 x.2).take n)
      = printed ((recs.take (n / 248)).map kernelRow) part := by
    have e : extractStats = readToks (8 :: List.replicate 15 16) := funext extractStats_eq
    rw [e, ← printLoop_more 8 _ (by omega) _ _ recs.length (by omega)]
    rw [← hf] at h1
    rw [h1]
    congr 1
    rw [← List.map_take, List.map_map]
    exact List.map_congr_left fun x _ => kernelRow_eq x
  refine ⟨part, ?_, fun q => h2 (by simpa using q), fun x hx => ?_⟩
  · unfold ker2asc
    rw [hb.1]
    rcases hb.2 with ⟨a, rfl⟩ | ⟨a, b, rfl⟩
    · simp only [Bool.false_eq_true, if_false, a, if_true, hloop, ht]
    · simp only [Bool.false_eq_true, if_false, a, b, if_true, hloop, ht]
  · have := h3 _ (by rw [List.getElem?_map, hx]; rfl)
    rwa [kernelRow_eq] at this

/-- Records with the byte `b` in the wavenumber and the source's number in the kernel. -/
def byteRecord (b : UInt8) : Word 8 × (Fin 6 → Fin 3 → Word 16) :=
  (⟨List.replicate 8 b, by simp⟩, fun i _ => ⟨List.replicate 16 (UInt8.ofNat i.1), by simp⟩)

/-- Two records, the second cut after its wavenumber and one kernel value: both are printed as far as they go. -/
example : ∃ part, ker2asc "K_0001" (([byteRecord 1, byteRecord 2].flatMap fun x => writeStats x.1 x.2).take (248 + 25)) =
    some (titleStats "k" ++ Tok.nl :: (kernelRow (byteRecord 1) ++ Tok.nl :: part)) ∧
    part = [Tok.real (List.replicate 8 2), Tok.cplx (List.replicate 16 0)] := ⟨_, by decide +kernel, rfl⟩

/-- A cut within the first number of a record is not noticed at all: the printout is that of a whole file with a record less, and so is the
exit status. -/
theorem C42_cut_violated : ∃ (recs : List (Word 8 × (Fin 6 → Fin 3 → Word 16))) (n : ℕ),
    n < (recs.flatMap fun x => writeStats x.1 x.2).length ∧ n % 248 ≠ 0 ∧
    ker2asc "K" ((recs.flatMap fun x => writeStats x.1 x.2).take n) = ker2asc "K" ((recs.take (n / 248)).flatMap fun x => writeStats x.1 x.2) :=
  ⟨[byteRecord 1, byteRecord 2], 248 + 4, by decide +kernel, by decide, by decide +kernel⟩

theorem writePtam_eq (K : Fin 36 → Fin 6 → Fin 4 → Word 8) (F : Fin 36 → Fin 6 → Fin 4 → Word 16) :
    writePtam K F = ((List.finRange 36).map fun q => pointColumns.flatMap fun c => [(K q c.1.1 c.1.2).1, (F q c.1.1 c.1.2).1]).flatMap List.flatten := by
  rw [writePtam, List.flatMap_map, integLoop_eq]
  congr 1
  funext q
  rw [List.flatMap_map]
  induction pointColumns with
  | nil => rfl
  | cons a l ih => simp [ih]

theorem pointRow_eq (x : (Fin 6 → Fin 4 → Word 8) × (Fin 6 → Fin 4 → Word 16)) :
    (pointColumns.flatMap fun c => [(x.1 c.1.1 c.1.2).1, (x.2 c.1.1 c.1.2).1]).map tok = pointRow x := by
  have h8 : ∀ w : Word 8, tok w.1 = Tok.real w.1 := fun w => if_pos w.2
  have h16 : ∀ w : Word 16, tok w.1 = Tok.cplx w.1 := fun w => if_neg (by rw [w.2]; decide)
  rw [List.map_flatMap, pointRow]
  simp only [List.map_cons, List.map_nil, h8, h16]

/-- The same for a file of extrema: the 36 records come out as they were written. -/
theorem C42_point_file (K : Fin 36 → Fin 6 → Fin 4 → Word 8) (F : Fin 36 → Fin 6 → Fin 4 → Word 16) (n : ℕ) (base : String)
    (hb : base.startsWith "PTAM" = true) :
    ∃ part title, ker2asc base ((writePtam K F).take n) =
        some (title ++ Tok.nl :: printed (((List.finRange 36).take (n / 432)).map fun q => pointRow (K q, F q)) part) ∧
      title = (pointColumns.flatMap fun d => [Tok.name ((if d.1 = (0, 0) then "#" else "") ++ d.2 ++ "_k"), Tok.name d.2]) ∧
      (36 ≤ n / 432 → part = []) ∧
      ∀ q : Fin 36, q.1 = n / 432 → part <+: pointRow (K q, F q) ∧ part ≠ pointRow (K q, F q) := by
  obtain ⟨part, h1, h2, h3⟩ := print_records 8 (16 :: (List.replicate 17 [8, 16]).flatten) (by omega) 432 (by decide)
    ((List.finRange 36).map fun q => pointColumns.flatMap fun c => [(K q c.1.1 c.1.2).1, (F q c.1.1 c.1.2).1])
    (by
      intro r hr
      obtain ⟨q, -, rfl⟩ := List.mem_map.1 hr
      rw [List.map_flatMap]
      simp only [List.map_cons, List.map_nil, (K _ _ _).2, (F _ _ _).2]
      rfl) n (((writePtam K F).take n).length + 1 + 36) (by simp)
  have hloop : printLoop extractPtam (((writePtam K F).take n).length + 1) ((writePtam K F).take n)
      = printed (((List.finRange 36).take (n / 432)).map fun q => pointRow (K q, F q)) part := by
    have e : extractPtam = readToks (8 :: 16 :: (List.replicate 17 [8, 16]).flatten) := funext extractPtam_eq
    rw [e, ← printLoop_more 8 _ (by omega) _ _ 36 (by omega)]
    rw [← writePtam_eq] at h1
    rw [h1]
    congr 1
    rw [← List.map_take, List.map_map]
    exact List.map_congr_left fun q _ => pointRow_eq (K q, F q)
  refine ⟨part, titlePtam, ?_, by decide, fun q => h2 (by simpa using q), fun q hq => ?_⟩
  · unfold ker2asc
    rw [if_pos hb, hloop]
  · have := h3 _ (by rw [← hq, List.getElem?_map, List.getElem?_eq_getElem (by simp), List.getElem_finRange]; rfl)
    rwa [show Fin.cast (List.length_finRange) ⟨q.1, by simp⟩ = q from rfl, pointRow_eq (K q, F q)] at this

/-! ### The points in the log file of the averaging -/

/-- The arrays written for one distance, ptam.c 352; entries not filled are zero. -/
noncomputable def Ptam.pointLog {nr : ℕ} (D : Ptam nr) (st : PtamState nr) (ir : Fin nr) (q : Fin 36) (i : Fin 6) (v : Fin 4) : ℝ × ℂ :=
  ((((st.ent ir .u i v).pts[q.1]?).getD 0).1, ((((if D.upar then st.ent ir .z i v else st.ent ir .u i v).pts)[q.1]?).getD 0).2)

/-- Without derivatives each record is a recorded point. Missing: with derivatives, see `C42_points_violated`. -/
theorem C42_points_partial {nr : ℕ} (D : Ptam nr) (h : D.upar = false) (st : PtamState nr) (ir : Fin nr) (q : Fin 36) (i : Fin 6) (v : Fin 4)
    (p : ℝ × ℂ) (hp : (st.ent ir .u i v).pts[q.1]? = some p) : D.pointLog st ir q i v = p := by
  simp [Ptam.pointLog, h, hp]

theorem after_prefix (k0 dk : ℝ) (waits : ℕ) (x : ℕ → ℂ) (s : ℂ) (n m : ℕ) :
    (Ent.after k0 dk waits x s n).pts <+: (Ent.after k0 dk waits x s (n + m)).pts := by
  induction m with
  | zero => exact List.prefix_rfl
  | succ m ih =>
    refine ih.trans ?_
    rw [← Nat.add_assoc, Ent.after]
    generalize Ent.after k0 dk waits x s (n + m) = e
    rcases process_cases e (k0 + ((n + m : ℕ) + 1) * dk) dk waits (e.sum + x (n + m + 1)) with ⟨h, -⟩ | ⟨-, -, p, hp, -⟩
    · simp only [Ent.once, h]
      exact List.prefix_rfl
    · simp only [Ent.once, hp]
      exact List.prefix_append _ _

/-- Points recorded after the `n`-th sample lie beyond the sample before it. -/
theorem after_later (k0 dk : ℝ) (hd : 0 < dk) (waits : ℕ) (x : ℕ → ℂ) (s : ℂ) (n m : ℕ) (h0 : (Ent.after k0 dk waits x s n).pts = []) :
    ∀ p ∈ (Ent.after k0 dk waits x s (n + m)).pts, k0 + (n - 1) * dk < p.1 := by
  induction m with
  | zero => simp [h0]
  | succ m ih =>
    rw [← Nat.add_assoc, Ent.after]
    generalize Ent.after k0 dk waits x s (n + m) = e at ih
    have hk : k0 + (n - 1) * dk ≤ k0 + (((n + m : ℕ) : ℝ) + 1) * dk - dk - dk := by
      have : (0 : ℝ) ≤ m * dk := by positivity
      push_cast
      nlinarith
    rcases process_cases e (k0 + ((n + m : ℕ) + 1) * dk) dk waits (e.sum + x (n + m + 1)) with ⟨h, -⟩ | ⟨-, -, p, hp, hc⟩
    · simp only [Ent.once, h]
      exact ih
    · simp only [Ent.once, hp, List.mem_append, List.mem_singleton]
      rintro p' (h | rfl)
      · exact ih p' h
      · rcases hc with c | ⟨-, rfl⟩
        · have := (peak_recorded _ _ _ _ _ hd _ c).1
          linarith
        · simp only
          linarith

theorem J0_pos (x : ℝ) (h0 : 0 ≤ x) (h1 : x ≤ 1) : 0 < J 0 x := by
  unfold J
  refine mul_pos (by positivity) ?_
  refine intervalIntegral.intervalIntegral_pos_of_pos (int_cos 0 x) (fun t => ?_) (by positivity)
  have hb : |((0 : ℤ) : ℝ) * t - x * Real.sin t| ≤ 1 := by
    rw [Int.cast_zero, zero_mul, zero_sub, abs_neg, abs_mul, abs_of_nonneg h0]
    exact mul_le_one₀ h1 (abs_nonneg _) (Real.abs_sin_le_one t)
  obtain ⟨b1, b2⟩ := abs_le.1 hb
  exact Real.cos_pos_of_mem_Ioo ⟨lt_of_lt_of_le (by linarith [Real.pi_gt_three]) b1, lt_of_le_of_lt b2 (by linarith [Real.pi_gt_three])⟩

theorem after_small (k0 dk : ℝ) (waits : ℕ) (x : ℕ → ℂ) (s : ℂ) (n : ℕ) (hn : n ≤ 2) :
    (Ent.after k0 dk waits x s n).pts = [] ∧ (Ent.after k0 dk waits x s n).G = n := by
  induction n with
  | zero => exact ⟨rfl, rfl⟩
  | succ n ih =>
    obtain ⟨h1, h2⟩ := ih (by omega)
    rw [Ent.after]
    generalize Ent.after k0 dk waits x s n = e at h1 h2
    rcases process_cases e (k0 + (n + 1) * dk) dk waits (e.sum + x (n + 1)) with ⟨h, -⟩ | ⟨h, -⟩
    · simp only [Ent.once, h]
      exact ⟨h1, by rw [h2]⟩
    · omega

theorem after_three (k0 dk : ℝ) (waits : ℕ) (hw : 2 < waits) (x : ℕ → ℂ) (s : ℂ) :
    (Ent.after k0 dk waits x s 3).pts =
      (peak (partialSum s x 1) (partialSum s x 2) (partialSum s x 3) (k0 + 3 * dk) dk).toList := by
  obtain ⟨h1, h2⟩ := after_small k0 dk waits x s 2 le_rfl
  have e0 := after_w0 k0 dk waits x s 0
  have e1 := after_w1 k0 dk waits x s 1
  have e2 : (Ent.after k0 dk waits x s 2).sum + x 3 = partialSum s x 3 := by
    rw [after_sum]
    simp only [partialSum, Finset.sum_range_succ]
    ring
  rw [Ent.after]
  simp only [zero_add, Nat.reduceAdd] at e0 e1
  simp only [Ent.once, Ent.process, h1, h2, e0, e1, e2, le_refl, List.length_nil, Nat.ofNat_pos, and_self, if_true, ge_iff_le]
  rw [show ((2 : ℕ) : ℝ) + 1 = 3 by norm_num]
  cases peak (partialSum s x 1) (partialSum s x 2) (partialSum s x 3) (k0 + 3 * dk) dk with
  | none => simp [not_le.2 hw]
  | some p => simp

/-- The displacement kernel vanishes, that of the vertical derivative is that of a constant vertical motion. -/
noncomputable def logExample : Ptam 1 := ⟨0, 1 / 10, fun _ => 1, true, fun _ => some (0, fun _ c => if c = 1 then 1 else 0)⟩

/-- With derivatives, the wavenumbers in the log are those of the displacement's extrema and the values those of the vertical
derivative's: here the first record gives 0.2, before any recorded extremum of the derivative. -/
theorem C42_points_violated : ∃ st, logExample.endState (fun _ => ⟨0, 0, 0⟩) 1 = some st ∧ logExample.rmin = some 1 ∧
    (st.ent 0 .z 0 2).pts ≠ [] ∧ (∀ p ∈ (st.ent 0 .z 0 2).pts, (logExample.pointLog st 0 0 0 2).1 < p.1) ∧
    (logExample.pointLog st 0 0 0 2).2 = (((st.ent 0 .z 0 2).pts[0]?).getD 0).2 := by
  have hz : ¬ zeroDist (logExample.rs 0) := by
    simp only [zeroDist, logExample]
    norm_num
  have hmin : logExample.rmin = some 1 := by
    rw [Ptam.rmin, show List.finRange 1 = [0] from rfl, List.foldl_cons, List.foldl_nil, if_neg hz]
    rfl
  have hd : 0 < logExample.dk := by simp [logExample]
  obtain ⟨s', hs'⟩ := C39_defined logExample (fun _ => ⟨0, 0, 0⟩) (by simp [logExample])
  have hrun := hs'
  unfold Ptam.run at hs'
  simp only [hmin, if_neg (not_le.2 hd), Option.map_eq_some_iff] at hs'
  obtain ⟨st, hst, -⟩ := hs'
  have hinit : logExample.Inv (fun _ => ⟨0, 0, 0⟩) 0 ⟨fun ir p i v => Ent.init (p.sums ((fun _ => ⟨0, 0, 0⟩ : Fin 1 → Sums) ir) i v), fun _ => False⟩ := fun ir _ =>
    ⟨fun p _ => ⟨0, le_rfl, fun i v _ => rfl, Or.inl rfl⟩, fun h => h.elim⟩
  obtain ⟨m, hI, hend⟩ := logExample.loop_spec (fun _ => ⟨0, 0, 0⟩) (logExample.kmax 1) _ 0 False _ st hinit (fun h => h.elim)
    (logExample.turns_enough _ hd) (by simpa [Ptam.endState] using hst)
  obtain ⟨hI1, hI2⟩ := hI 0 hz
  have hun : ¬ unused 0 2 := by simp [unused]
  have hw : 2 < logExample.waits 0 := lt_of_lt_of_le (by omega) (le_max_right _ _)
  have hw' : (logExample.waits 0 : ℝ) < 46 := by
    have e : logExample.waits 0 = ⌈Real.pi / (logExample.rs 0 * logExample.dk)⌉₊ + 5 := max_eq_right (by omega)
    have h1 := Nat.ceil_lt_add_one (show 0 ≤ Real.pi / (logExample.rs 0 * logExample.dk) from
      div_nonneg Real.pi_pos.le (by simp [logExample]))
    have h2 : Real.pi / (logExample.rs 0 * logExample.dk) = 10 * Real.pi := by
      simp only [logExample]
      ring
    rw [h2] at h1 e
    rw [e]
    push_cast
    linarith [Real.pi_lt_four]
  -- every integral asked for has a recorded point
  have key : ∀ p, logExample.active p → ∃ n, st.ent 0 p 0 2 = logExample.after (fun _ => ⟨0, 0, 0⟩) 0 p 0 2 n ∧ 3 ≤ n ∧ (st.ent 0 p 0 2).pts ≠ [] := by
    intro p hp
    obtain ⟨n, hn, hent, hor⟩ := hI1 p hp
    have hcnt := after_count logExample.k0 logExample.dk (logExample.waits 0) (logExample.x 0 p 0 2) (p.sums ⟨0, 0, 0⟩ 0 2) hw.le n
    have hne : (st.ent 0 p 0 2).pts ≠ [] := by
      intro h0
      have hnc : ¬ complete (st.ent 0 p) := fun hc => by
        rcases hc 0 2 with q | q
        · exact hun q
        · rw [h0] at q
          cases q
      obtain rfl : n = m := hor.resolve_right hnc
      rcases hend with q | q
      · exact hnc (hI2 ((q 0).resolve_left hz) p hp)
      · have h00 : (Ent.after logExample.k0 logExample.dk (logExample.waits 0) (logExample.x 0 p 0 2) (p.sums ⟨0, 0, 0⟩ 0 2) n).pts = [] := by
          have := hent 0 2 hun
          rw [h0.symm, this]
          rfl
        rw [h00] at hcnt
        have h1 := hcnt.2.2 (by simp)
        have h2 : n ≤ logExample.waits 0 := by
          have := h1.2
          simp only [List.length_nil, mul_zero, zero_add] at this
          omega
        have h3 : (n : ℝ) ≤ logExample.waits 0 := by exact_mod_cast h2
        simp only [Ptam.kmax, logExample] at q
        have := Real.pi_gt_three
        norm_num at q
        linarith
    refine ⟨n, hent 0 2 hun, ?_, hne⟩
    by_contra c
    rw [hent 0 2 hun] at hne
    exact hne (after_small _ _ _ _ _ n (by omega)).1
  refine ⟨st, hst, hmin, ?_⟩
  obtain ⟨nz, ez, hz3, hzne⟩ := key .z (Or.inr rfl)
  obtain ⟨nu, eu, hu3, -⟩ := key .u (Or.inl rfl)
  refine ⟨hzne, ?_, by simp [Ptam.pointLog, logExample]⟩
  -- the displacement: first point at 0.2
  have hxu : ∀ j, logExample.x 0 .u 0 2 j = 0 := fun j => by
    simp [Ptam.x, Part.pk, Part.ker, logExample, intPk, pkEntry, order]
  have hu : (logExample.after (fun _ => ⟨0, 0, 0⟩) 0 .u 0 2 3).pts = [(2 / 10, 0)] := by
    rw [Ptam.after, after_three _ _ _ hw]
    have hS : ∀ n, partialSum (Part.u.sums (⟨0, 0, 0⟩ : Sums) 0 2) (logExample.x 0 .u 0 2) n = 0 := fun n => by
      simp [partialSum, hxu, Part.sums]
    simp only [hS]
    have ht : Turns 0 0 0 := by simp [Turns]
    rw [peak_turn _ _ _ _ _ ht _ (quadTerm_para _ _ hd.ne' ..), if_neg (by simp)]
    simp only [Option.toList_some, para, logExample]
    norm_num
  have hlog : (logExample.pointLog st 0 0 0 2).1 = 2 / 10 := by
    have := after_prefix logExample.k0 logExample.dk (logExample.waits 0) (logExample.x 0 .u 0 2) (Part.u.sums (⟨0, 0, 0⟩ : Sums) 0 2) 3 (nu - 3)
    rw [show 3 + (nu - 3) = nu by omega] at this
    obtain ⟨l, hl⟩ := this
    have hl' : (st.ent 0 .u 0 2).pts = [(2 / 10, 0)] ++ l := by
      rw [eu]
      exact (hu ▸ hl).symm
    simp only [Ptam.pointLog, hl']
    rfl
  -- the derivative: nothing recorded in the first three samples
  have hxz : ∀ j : ℕ, 1 ≤ j → j ≤ 3 → 0 < (logExample.x 0 .z 0 2 j).re := fun j h1 h3 => by
    have hj : logExample.x 0 .z 0 2 j = ((J 0 (j * (1 / 10)) * (j * (1 / 10)) : ℝ) : ℂ) := by
      simp only [logExample] at hz
      simp [Ptam.x, Part.pk, Part.ker, Part.uir, logExample, intPk, pkEntry, order, bjmk, hz, bessel]
    have a1 : (1 : ℝ) ≤ j := by exact_mod_cast h1
    have a3 : (j : ℝ) ≤ 3 := by exact_mod_cast h3
    rw [hj, Complex.ofReal_re]
    exact mul_pos (J0_pos _ (by linarith) (by linarith)) (by linarith)
  have hz0 : (logExample.after (fun _ => ⟨0, 0, 0⟩) 0 .z 0 2 3).pts = [] := by
    rw [Ptam.after, after_three _ _ _ hw]
    have : peak (partialSum (Part.z.sums (⟨0, 0, 0⟩ : Sums) 0 2) (logExample.x 0 .z 0 2) 1) (partialSum (Part.z.sums (⟨0, 0, 0⟩ : Sums) 0 2) (logExample.x 0 .z 0 2) 2)
        (partialSum (Part.z.sums (⟨0, 0, 0⟩ : Sums) 0 2) (logExample.x 0 .z 0 2) 3) (logExample.k0 + 3 * logExample.dk) logExample.dk = none := by
      rw [peak_none]
      have h2 := hxz 2 (by omega) (by omega)
      have h3 := hxz 3 (by omega) (by omega)
      simp only [Turns, partialSum, Finset.sum_range_succ, Finset.sum_range_zero, Complex.add_re, zero_add, Nat.reduceAdd]
      rintro (⟨-, h⟩ | ⟨h, -⟩) <;> linarith
    rw [this]
    rfl
  intro p hp
  rw [hlog]
  rw [ez, show nz = 3 + (nz - 3) by omega] at hp
  have := after_later logExample.k0 logExample.dk hd _ _ _ 3 (nz - 3) hz0 p hp
  simp only [logExample] at this
  norm_num at this ⊢
  exact this

end GRT.Integ
