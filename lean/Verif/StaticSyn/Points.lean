import Mathlib.Data.List.Basic
import Mathlib.Tactic.Ring
import Mathlib.Tactic.NormNum
import Mathlib.Algebra.Order.Ring.Nat

/-!
Receivers on a grid: the flattened points made from the two axes, the axes and fields written to the NetCDF file, and the points the
later commands make again from the file.  pygrt/C_extension/src/static/recv_points.c 46-78, src/static/grt_static_syn.c 1198-1243 and
1319-1343, src/static/grt_static_strain.c 148-178 (also grt_static_rotation.c 147-177, grt_static_stress.c 176-206).

An array is a list; reading or writing outside it is no result.  `nnorth*neast` does not wrap around.  NetCDF is taken by its contract:
a variable with the dimensions (north, east) put from a buffer holds at (i, j) the element i*neast + j of the buffer.
-/

namespace GRT.Points

variable {A B : Type}

/-- Store into an array. -/
def put (l : List A) (i : ℕ) (v : A) : Option (List A) := if i < l.length then some (l.set i v) else none

/-- `for(i = s; i < s + n; ++i) body` with a body that may have no result. -/
def loop (body : ℕ → B → Option B) : ℕ → ℕ → B → Option B
  | _, 0, x => some x
  | s, n + 1, x => (body s x).bind (loop body (s + 1) n)

/-- `GRT_RECV_POINTS`, include/grt/static/recv_points.h, for a grid. -/
structure Recv (A : Type) where
  nnorth : ℕ
  neast : ℕ
  npts : ℕ
  norths : List A
  easts : List A
  depths : List A
  deriving DecidableEq, Repr

/-- One pass of the inner loop, recv_points.c 68-73. -/
def cellBody (neast : ℕ) (norths easts : List A) (depth : A) (inorth ieast : ℕ) (s : List A × List A × List A) :
    Option (List A × List A × List A) :=
  let ipt := ieast + inorth * neast
  norths[inorth]?.bind fun n => easts[ieast]?.bind fun e =>
    (put s.1 ipt n).bind fun a => (put s.2.1 ipt e).bind fun b => (put s.2.2 ipt depth).bind fun c => some (a, b, c)

/-- Outcome of a function that may stop the program or have no defined result. -/
inductive Out (A : Type) where
  | ok (a : A)
  | err
  | undef
  deriving DecidableEq, Repr

/-- `grt_recv_points_from_grid`, recv_points.c 46-78 (`calloc` gives zeros). -/
def fromGrid [Zero A] [LT A] [DecidableRel (α := A) (· < ·)] (nnorth neast : ℕ) (norths easts : List A) (depth : A) : Out (Recv A) :=
  if nnorth = 0 ∨ neast = 0 then .err
  else if depth < 0 then .err
  else
    let npts := nnorth * neast
    let zs := List.replicate npts (0 : A)
    match loop (fun i => loop (fun j => cellBody neast norths easts depth i j) 0 neast) 0 nnorth (zs, zs, zs) with
    | some s => .ok ⟨nnorth, neast, npts, s.1, s.2.1, s.2.2⟩
    | none => .undef

/-- A grid file: the two axes, the receiver depth, and a variable stored row by row. -/
structure GridFile (A : Type) where
  north : List A
  east : List A
  deprcv : A
  field : List A
  deriving DecidableEq, Repr

/-- A loop copying `src (idx i)` to element `i` of a new array of length `n`. -/
def gather [Zero A] (src : List A) (idx : ℕ → ℕ) (n : ℕ) : Option (List A) :=
  loop (fun i l => src[idx i]?.bind fun v => put l i v) 0 n (List.replicate n 0)

/-- `put_syn_grid_meta` and `put_syn_fields`, grt_static_syn.c 1198-1243 and 1319-1343, for one channel `vals` of the synthetic field
(one value for each point). -/
def writeGrid [Zero A] (r : Recv A) (vals : List A) : Option (GridFile A) :=
  (gather r.norths (fun i => i * r.neast) r.nnorth).bind fun n =>
    (gather r.easts (fun i => i) r.neast).bind fun e =>
      r.depths[0]?.bind fun d => (gather vals (fun i => i) r.npts).bind fun f => some ⟨n, e, d, f⟩

/-- Element (i, j) of a variable with the dimensions (north, east). -/
def GridFile.at (f : GridFile A) (i j : ℕ) : Option A :=
  if i < f.north.length ∧ j < f.east.length then f.field[i * f.east.length + j]? else none

/-- One pass of the inner loop of grt_static_strain.c 166-172. -/
def flatBody (neast : ℕ) (norths easts : List A) (inorth ieast : ℕ) (s : List A × List A) : Option (List A × List A) :=
  let ipt := ieast + inorth * neast
  norths[inorth]?.bind fun n => easts[ieast]?.bind fun e =>
    (put s.1 ipt n).bind fun a => (put s.2 ipt e).bind fun b => some (a, b)

/-- The coordinates of all points made again from the axes of a file, grt_static_strain.c 148-178: the lengths are those of the
dimensions. -/
def flatten [Zero A] (f : GridFile A) : Option (List A × List A) :=
  let nnorth := f.north.length
  let neast := f.east.length
  let zs := List.replicate (nnorth * neast) (0 : A)
  loop (fun i => loop (fun j => flatBody neast f.north f.east i j) 0 neast) 0 nnorth (zs, zs)

/-! ### Proofs -/

theorem loop_inv (body : ℕ → B → Option B) (Inv : ℕ → B → Prop) : ∀ (n s : ℕ) (x : B), Inv s x →
    (∀ k y, s ≤ k → k < s + n → Inv k y → ∃ z, body k y = some z ∧ Inv (k + 1) z) → ∃ z, loop body s n x = some z ∧ Inv (s + n) z := by
  intro n
  induction n with
  | zero => intro s x h _; exact ⟨x, rfl, h⟩
  | succ n ih =>
    intro s x h hb
    obtain ⟨z, hz, hi⟩ := hb s x le_rfl (by omega) h
    obtain ⟨w, hw, hi'⟩ := ih (s + 1) z hi fun k y h1 h2 => hb k y (by omega) (by omega)
    refine ⟨w, ?_, by rw [show s + (n + 1) = s + 1 + n by ring]; exact hi'⟩
    rw [loop, hz]; exact hw

/-- The cells before cell (i, j) in row order. -/
def Before (ne i j a b : ℕ) : Prop := b < ne ∧ (a < i ∨ (a = i ∧ b < j))

/-- `l` holds `g a b` at the place of every cell before (i, j). -/
def Filled (nn ne i j : ℕ) (g : ℕ → ℕ → A) (l : List A) : Prop :=
  l.length = nn * ne ∧ ∀ a b, Before ne i j a b → l[a * ne + b]? = some (g a b)

theorem index_inj {ne a b i j : ℕ} (hb : b < ne) (hj : j < ne) (h : a * ne + b = i * ne + j) : a = i ∧ b = j := by
  have h1 : (a * ne + b) / ne = a := by
    rw [mul_comm, Nat.mul_add_div (by omega), Nat.div_eq_of_lt hb, add_zero]
  have h2 : (i * ne + j) / ne = i := by
    rw [mul_comm, Nat.mul_add_div (by omega), Nat.div_eq_of_lt hj, add_zero]
  have : a = i := by rw [← h1, ← h2, h]
  subst this
  exact ⟨rfl, by omega⟩

theorem index_lt {nn ne i j : ℕ} (hi : i < nn) (hj : j < ne) : j + i * ne < nn * ne := by
  have : (i + 1) * ne ≤ nn * ne := Nat.mul_le_mul_right _ hi
  have e : (i + 1) * ne = i * ne + ne := by ring
  omega

theorem filled_put {nn ne i j : ℕ} (g : ℕ → ℕ → A) (l : List A) (hi : i < nn) (hj : j < ne) (h : Filled nn ne i j g l) :
    ∃ l', put l (j + i * ne) (g i j) = some l' ∧ Filled nn ne i (j + 1) g l' := by
  have hlt : j + i * ne < l.length := by rw [h.1]; exact index_lt hi hj
  refine ⟨l.set (j + i * ne) (g i j), by rw [put, if_pos hlt], by rw [List.length_set, h.1], ?_⟩
  intro a b hab
  by_cases he : a = i ∧ b = j
  · obtain ⟨rfl, rfl⟩ := he
    rw [show a * ne + b = b + a * ne by ring, List.getElem?_set_self hlt]
  · rw [List.getElem?_set_ne, h.2 a b ⟨hab.1, by have := hab.2; omega⟩]
    intro hx
    exact he (index_inj hab.1 hj (by omega))

theorem filled_row {nn ne i : ℕ} (g : ℕ → ℕ → A) (l : List A) : Filled nn ne i ne g l ↔ Filled nn ne (i + 1) 0 g l := by
  unfold Filled Before
  constructor
  · rintro ⟨h1, h2⟩; exact ⟨h1, fun a b ⟨hb, h⟩ => h2 a b ⟨hb, by omega⟩⟩
  · rintro ⟨h1, h2⟩; exact ⟨h1, fun a b ⟨hb, h⟩ => h2 a b ⟨hb, by omega⟩⟩

theorem filled_start (nn ne : ℕ) (g : ℕ → ℕ → A) (l : List A) (h : l.length = nn * ne) : Filled nn ne 0 0 g l :=
  ⟨h, fun a b ⟨_, h⟩ => by omega⟩

theorem gather_spec [Zero A] (src : List A) (idx : ℕ → ℕ) (n : ℕ) (h : ∀ i < n, idx i < src.length) :
    ∃ l, gather src idx n = some l ∧ l.length = n ∧ ∀ i < n, l[i]? = src[idx i]? := by
  obtain ⟨l, h1, h2, h3⟩ := loop_inv (fun i l => src[idx i]?.bind fun v => put l i v)
    (fun k l => l.length = n ∧ ∀ i < k, l[i]? = src[idx i]?) n 0 (List.replicate n 0) ⟨by simp, by intro i hi; omega⟩ (by
      rintro k l - hk ⟨hl, hv⟩
      rw [zero_add] at hk
      refine ⟨l.set k (src[idx k]'(h k hk)), ?_, by rw [List.length_set, hl], ?_⟩
      · rw [List.getElem?_eq_getElem (h k hk)]
        show put l k _ = _
        rw [put, if_pos (by omega)]
      · intro i hi
        rcases Nat.lt_succ_iff_lt_or_eq.1 hi with h' | rfl
        · rw [List.getElem?_set_ne (by omega), hv i h']
        · rw [List.getElem?_set_self (by omega), List.getElem?_eq_getElem (h i hk)])
  rw [zero_add] at h3
  exact ⟨l, h1, h2, h3⟩

/-- C44: the points of a grid.  Every combination of a north and an east coordinate is one receiver at the receiver depth, and the
receivers are in rows of the same north coordinate. -/
theorem C44_points [Zero A] [LT A] [DecidableRel (α := A) (· < ·)] (norths easts : List A) (depth : A) (hn : norths ≠ [])
    (he : easts ≠ []) (hd : ¬ depth < 0) : ∃ r, fromGrid norths.length easts.length norths easts depth = .ok r ∧
      r.npts = norths.length * easts.length ∧ r.nnorth = norths.length ∧ r.neast = easts.length ∧
      r.norths.length = r.npts ∧ r.easts.length = r.npts ∧ r.depths.length = r.npts ∧
      ∀ i < norths.length, ∀ j < easts.length, r.norths[i * easts.length + j]? = norths[i]? ∧
        r.easts[i * easts.length + j]? = easts[j]? ∧ r.depths[i * easts.length + j]? = some depth := by
  have hn' : 0 < norths.length := List.length_pos_iff.2 hn
  have he' : 0 < easts.length := List.length_pos_iff.2 he
  set nn := norths.length with hnn
  set ne := easts.length with hne
  let gn : ℕ → ℕ → A := fun i _ => norths.getD i depth
  let ge : ℕ → ℕ → A := fun _ j => easts.getD j depth
  let gd : ℕ → ℕ → A := fun _ _ => depth
  obtain ⟨s, hs, h1, h2, h3⟩ := loop_inv (fun i => loop (fun j => cellBody ne norths easts depth i j) 0 ne)
    (fun i s => Filled nn ne i 0 gn s.1 ∧ Filled nn ne i 0 ge s.2.1 ∧ Filled nn ne i 0 gd s.2.2) nn 0
    (List.replicate (nn * ne) 0, List.replicate (nn * ne) 0, List.replicate (nn * ne) 0)
    ⟨filled_start _ _ _ _ (by simp), filled_start _ _ _ _ (by simp), filled_start _ _ _ _ (by simp)⟩ (by
      rintro i s - hi hInv
      rw [zero_add] at hi
      obtain ⟨z, hz, z1, z2, z3⟩ := loop_inv (fun j => cellBody ne norths easts depth i j)
        (fun j s => Filled nn ne i j gn s.1 ∧ Filled nn ne i j ge s.2.1 ∧ Filled nn ne i j gd s.2.2) ne 0 s hInv (by
          rintro j s - hj ⟨f1, f2, f3⟩
          rw [zero_add] at hj
          obtain ⟨a, ha, fa⟩ := filled_put gn s.1 hi hj f1
          obtain ⟨b, hb, fb⟩ := filled_put ge s.2.1 hi hj f2
          obtain ⟨c, hc, fc⟩ := filled_put gd s.2.2 hi hj f3
          refine ⟨(a, b, c), ?_, fa, fb, fc⟩
          have en : norths[i]? = some (gn i j) := by simp [gn, List.getElem?_eq_getElem (hnn ▸ hi : i < norths.length)]
          have ee : easts[j]? = some (ge i j) := by simp [ge, List.getElem?_eq_getElem (hne ▸ hj : j < easts.length)]
          simp only [cellBody, en, ee, Option.bind_some, ha, hb]
          rw [show depth = gd i j from rfl, hc]; rfl)
      rw [zero_add] at z1 z2 z3
      exact ⟨z, hz, (filled_row _ _).1 z1, (filled_row _ _).1 z2, (filled_row _ _).1 z3⟩)
  rw [zero_add] at h1 h2 h3
  refine ⟨⟨nn, ne, nn * ne, s.1, s.2.1, s.2.2⟩, ?_, rfl, rfl, rfl, h1.1, h2.1, h3.1, ?_⟩
  · unfold fromGrid
    rw [if_neg (by omega), if_neg hd]
    dsimp only
    rw [hs]
  · intro i hi j hj
    refine ⟨?_, ?_, ?_⟩
    · rw [h1.2 i j ⟨hj, Or.inl hi⟩]
      simp [gn, List.getElem?_eq_getElem (hnn ▸ hi : i < norths.length)]
    · rw [h2.2 i j ⟨hj, Or.inl hi⟩]
      simp [ge, List.getElem?_eq_getElem (hne ▸ hj : j < easts.length)]
    · exact h3.2 i j ⟨hj, Or.inl hi⟩

example : ([1, 2] : List ℤ) ≠ [] ∧ ([7, 8, 9] : List ℤ) ≠ [] ∧ ¬ (5 : ℤ) < 0 ∧
    fromGrid 2 3 [1, 2] [7, 8, 9] (5 : ℤ) = .ok ⟨2, 3, 6, [1, 1, 1, 2, 2, 2], [7, 8, 9, 7, 8, 9], [5, 5, 5, 5, 5, 5]⟩ := by decide
example : fromGrid 2 0 [1, 2] [] (5 : ℤ) = .err ∧ fromGrid 1 1 [1] [7] (-5 : ℤ) = .err := by decide

/-- C44: every point is a cell: the points of the grid are exactly its cells, none twice and none left out. -/
theorem C44_cells (nn ne k : ℕ) (hk : k < nn * ne) : ∃! c : ℕ × ℕ, c.1 < nn ∧ c.2 < ne ∧ k = c.1 * ne + c.2 := by
  have hne : 0 < ne := by
    rcases Nat.eq_zero_or_pos ne with rfl | h
    · simp at hk
    · exact h
  refine ⟨(k / ne, k % ne), ⟨Nat.div_lt_of_lt_mul (by rwa [mul_comm] at hk), Nat.mod_lt _ hne, ?_⟩, ?_⟩
  · rw [mul_comm]; exact (Nat.div_add_mod k ne).symm
  · rintro ⟨a, b⟩ ⟨_, hb, h⟩
    obtain ⟨h1, h2⟩ := index_inj (Nat.mod_lt k hne) hb (show k / ne * ne + k % ne = a * ne + b by
      rw [mul_comm, Nat.div_add_mod]; exact h)
    dsimp only at h1 h2 ⊢
    rw [h1, h2]

example : (5 : ℕ) < 2 * 3 := by decide

/-- C44: the file written for a grid has the axes given, the depth given, and at (i, j) the value computed for the receiver at
(norths i, easts j). -/
theorem C44_written [Zero A] [LT A] [DecidableRel (α := A) (· < ·)] (norths easts : List A) (depth : A) (hn : norths ≠ [])
    (he : easts ≠ []) (hd : ¬ depth < 0) (value : A → A → A → A) :
    ∃ r f, fromGrid norths.length easts.length norths easts depth = .ok r ∧
      writeGrid r ((r.norths.zip (r.easts.zip r.depths)).map fun p => value p.1 p.2.1 p.2.2) = some f ∧
      f.north = norths ∧ f.east = easts ∧ f.deprcv = depth ∧
      ∀ i (hi : i < norths.length) j (hj : j < easts.length), f.at i j = some (value norths[i] easts[j] depth) := by
  obtain ⟨r, hr, h1, h2, h3, l1, l2, l3, hv⟩ := C44_points norths easts depth hn he hd
  have hn' : 0 < norths.length := List.length_pos_iff.2 hn
  have he' : 0 < easts.length := List.length_pos_iff.2 he
  set vals := (r.norths.zip (r.easts.zip r.depths)).map fun p => value p.1 p.2.1 p.2.2 with hvals
  have lv : vals.length = r.npts := by simp [hvals, l1, l2, l3]
  obtain ⟨n, n1, n2, n3⟩ := gather_spec r.norths (fun i => i * r.neast) r.nnorth (by
    intro i hi
    have := index_lt (nn := norths.length) (ne := easts.length) (i := i) (j := 0) (by omega) he'
    rw [l1, h1, h3]; omega)
  obtain ⟨e, e1, e2, e3⟩ := gather_spec r.easts (fun i => i) r.neast (by
    intro i hi
    have := index_lt (nn := norths.length) (ne := easts.length) (i := 0) (j := i) hn' (by omega)
    rw [l2, h1]; omega)
  obtain ⟨f, f1, f2, f3⟩ := gather_spec vals (fun i => i) r.npts (by intro i hi; rw [lv]; exact hi)
  have d0 : r.depths[0]? = some depth := by simpa using (hv 0 hn' 0 he').2.2
  have en : n = norths := by
    apply List.ext_getElem?
    intro i
    by_cases hi : i < norths.length
    · rw [n3 i (by omega)]
      simpa [h3] using (hv i hi 0 he').1
    · rw [List.getElem?_eq_none (by omega), List.getElem?_eq_none (by omega)]
  have ee : e = easts := by
    apply List.ext_getElem?
    intro j
    by_cases hj : j < easts.length
    · rw [e3 j (by omega)]
      simpa using (hv 0 hn' j hj).2.1
    · rw [List.getElem?_eq_none (by omega), List.getElem?_eq_none (by omega)]
  refine ⟨r, ⟨n, e, depth, f⟩, hr, ?_, en, ee, rfl, ?_⟩
  · unfold writeGrid
    rw [n1, Option.bind_some, e1, Option.bind_some, d0, Option.bind_some, f1, Option.bind_some]
  · intro i hi j hj
    subst en; subst ee
    unfold GridFile.at
    dsimp only
    rw [if_pos ⟨hi, hj⟩]
    have hk := index_lt hi hj
    rw [f3 _ (by rw [h1]; omega)]
    obtain ⟨v1, v2, v3⟩ := hv i hi j hj
    rw [List.getElem?_eq_getElem hi] at v1
    rw [List.getElem?_eq_getElem hj] at v2
    rw [hvals, List.getElem?_map, List.zip, List.zip, List.getElem?_zipWith, List.getElem?_zipWith, v1, v2, v3]
    rfl

example : (writeGrid ⟨2, 3, 6, [1, 1, 1, 2, 2, 2], [7, 8, 9, 7, 8, 9], [5, 5, 5, 5, 5, 5]⟩ [175, 185, 195, 275, 285, 295]).bind
    (fun f : GridFile ℤ => some (f.north, f.east, f.deprcv, f.at 1 0, f.at 0 2, f.at 2 0)) =
      some ([1, 2], [7, 8, 9], 5, some 275, some 195, none) := rfl

/-- C44: strain, rotation and stress see the same receivers in the same order: the points they make from the axes of the file are the
points the field was computed at. -/
theorem C44_reread [Zero A] [LT A] [DecidableRel (α := A) (· < ·)] (norths easts : List A) (depth : A) (hn : norths ≠ [])
    (he : easts ≠ []) (hd : ¬ depth < 0) (vals : List A) (hv : vals.length = norths.length * easts.length) :
    ∃ r f, fromGrid norths.length easts.length norths easts depth = .ok r ∧ writeGrid r vals = some f ∧ f.field = vals ∧
      flatten f = some (r.norths, r.easts) := by
  obtain ⟨r, hr, h1, h2, h3, l1, l2, l3, hp⟩ := C44_points norths easts depth hn he hd
  have hn' : 0 < norths.length := List.length_pos_iff.2 hn
  have he' : 0 < easts.length := List.length_pos_iff.2 he
  obtain ⟨r', f, hr', hf, f1, f2, f3, -⟩ := C44_written norths easts depth hn he hd fun _ _ _ => 0
  rw [hr] at hr'
  injection hr' with hr'
  subst hr'
  obtain ⟨fld, g1, g2, g3⟩ := gather_spec vals (fun i => i) r.npts (by intro i hi; omega)
  have gf : fld = vals := by
    apply List.ext_getElem?
    intro i
    by_cases hi : i < r.npts
    · exact g3 i hi
    · rw [List.getElem?_eq_none (by omega), List.getElem?_eq_none (by omega)]
  have hw : writeGrid r vals = some ⟨norths, easts, depth, vals⟩ := by
    unfold writeGrid at hf ⊢
    simp only [Option.bind_eq_some_iff, Option.some.injEq] at hf
    obtain ⟨n, hn1, e, he1, d, hd1, q, -, rfl⟩ := hf
    dsimp only at f1 f2 f3
    subst f1; subst f2; subst f3
    simp [hn1, he1, hd1, g1, gf]
  refine ⟨r, _, hr, hw, rfl, ?_⟩
  set nn := norths.length with hnn
  set ne := easts.length with hne
  let gn : ℕ → ℕ → A := fun i _ => norths.getD i depth
  let ge : ℕ → ℕ → A := fun _ j => easts.getD j depth
  obtain ⟨s, hs, s1, s2⟩ := loop_inv (fun i => loop (fun j => flatBody ne norths easts i j) 0 ne)
    (fun i s => Filled nn ne i 0 gn s.1 ∧ Filled nn ne i 0 ge s.2) nn 0
    (List.replicate (nn * ne) 0, List.replicate (nn * ne) 0)
    ⟨filled_start _ _ _ _ (by simp), filled_start _ _ _ _ (by simp)⟩ (by
      rintro i s - hi hInv
      rw [zero_add] at hi
      obtain ⟨z, hz, z1, z2⟩ := loop_inv (fun j => flatBody ne norths easts i j)
        (fun j s => Filled nn ne i j gn s.1 ∧ Filled nn ne i j ge s.2) ne 0 s hInv (by
          rintro j s - hj ⟨q1, q2⟩
          rw [zero_add] at hj
          obtain ⟨a, ha, fa⟩ := filled_put gn s.1 hi hj q1
          obtain ⟨b, hb, fb⟩ := filled_put ge s.2 hi hj q2
          refine ⟨(a, b), ?_, fa, fb⟩
          have en : norths[i]? = some (gn i j) := by simp [gn, List.getElem?_eq_getElem (hnn ▸ hi : i < norths.length)]
          have ee : easts[j]? = some (ge i j) := by simp [ge, List.getElem?_eq_getElem (hne ▸ hj : j < easts.length)]
          simp only [flatBody, en, ee, Option.bind_some, ha, hb])
      rw [zero_add] at z1 z2
      exact ⟨z, hz, (filled_row _ _).1 z1, (filled_row _ _).1 z2⟩)
  rw [zero_add] at s1 s2
  have same : ∀ (l m : List A) (g : ℕ → ℕ → A), Filled nn ne nn 0 g l → m.length = nn * ne →
      (∀ i < nn, ∀ j < ne, m[i * ne + j]? = some (g i j)) → l = m := by
    intro l m g hl hm hg
    apply List.ext_getElem?
    intro k
    by_cases hk : k < nn * ne
    · obtain ⟨⟨a, b⟩, ⟨ha, hb, hab⟩, -⟩ := C44_cells nn ne k hk
      dsimp only at ha hb hab
      rw [hab, hl.2 a b ⟨hb, Or.inl ha⟩, hg a ha b hb]
    · rw [List.getElem?_eq_none (by rw [hl.1]; omega), List.getElem?_eq_none (by omega)]
  have e1 := same s.1 r.norths gn s1 (by rw [l1, h1]) (by
    intro i hi j hj
    rw [(hp i hi j hj).1]
    simp [gn, List.getElem?_eq_getElem (hnn ▸ hi : i < norths.length)])
  have e2 := same s.2 r.easts ge s2 (by rw [l2, h1]) (by
    intro i hi j hj
    rw [(hp i hi j hj).2.1]
    simp [ge, List.getElem?_eq_getElem (hne ▸ hj : j < easts.length)])
  unfold flatten
  dsimp only
  rw [hs, ← e1, ← e2]

example : flatten (⟨[1, 2], [7, 8, 9], 5, [0, 1, 2, 3, 4, 5]⟩ : GridFile ℤ) = some ([1, 1, 1, 2, 2, 2], [7, 8, 9, 7, 8, 9]) := by decide

end GRT.Points
