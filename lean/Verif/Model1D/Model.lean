import Mathlib.Algebra.Order.Field.Basic
import Mathlib.Algebra.BigOperators.Group.List.Basic
import Mathlib.Tactic.Linarith
import Mathlib.Tactic.Ring

/-! Model of the layered-model reader, `pygrt/C_extension/src/common/model.c` 175-349.  Numbers are elements
of an ordered field (the code uses `double`; rounding left out).  Reading the text of the file is not
modelled: the input is the array `modarr` after `grt_read_modarr_from_file`, thicknesses already formed. -/

namespace GRT.Model1D

variable {α : Type*} [Field α] [LinearOrder α]

/-- Columns 1-5 of `modarr` (model.c 139-144). -/
@[ext] structure Med (α : Type*) where
  va : α
  vb : α
  rho : α
  qa : α
  qb : α
  deriving DecidableEq

/-- A layer: thickness and medium.  Also one index of the arrays `Thk`, `Va`, `Vb`, `Rho`, `Qa`, `Qb`. -/
@[ext] structure FLay (α : Type*) where
  h : α
  m : Med α
  deriving DecidableEq

/-- `grt_modarr_medium_at_depth`, model.c 175-196, the loop from `top` on: the last layer is not compared. -/
def mediumFrom (top z : α) : List (FLay α) → Option (Med α)
  | [] => none
  | [l] => some l.m
  | l :: l' :: ls => if z ≤ top + l.h then some l.m else mediumFrom (top + l.h) z (l' :: ls)

/-- `grt_modarr_medium_at_depth`; `none` is the error exit (empty array, negative depth). -/
def mediumAt (lays : List (FLay α)) (z : α) : Option (Med α) :=
  if z < 0 then none else mediumFrom 0 z lays

/-- Local variables of the insertion loop, model.c 207-236: `second` tells whether `pimg_idx` points to the
deeper index. -/
structure St (α : Type*) where
  lays : List (FLay α)
  depth : α
  imin : ℕ
  imax : ℕ
  second : Bool
  depimg : α

/-- One round of the `k` loop, model.c 256-278, acting on the state and the remaining thickness `h`. -/
def insertOne (allowed : Bool) (depmax : α) (m : Med α) (p : St α × α) : St α × α :=
  let st := p.1
  let h := p.2
  if (if st.second then st.imax else st.imin) = 0 ∧ st.depimg ≤ st.depth + h ∧ allowed = true then
    let t := st.depimg - st.depth
    let n := st.lays.length + 1
    ({ lays := st.lays ++ [⟨t, m⟩]
       depth := st.depth + t
       imin := if st.second then st.imin else n
       imax := if st.second then n else st.imax
       second := true
       depimg := depmax }, h - t)
  else p

/-- Body of the layer loop after the thickness check, model.c 253-294. -/
def step (allowed : Bool) (depmax : α) (f : FLay α) (st : St α) : St α :=
  let p := insertOne allowed depmax f.m (insertOne allowed depmax f.m (st, f.h))
  { p.1 with lays := p.1.lays ++ [⟨p.2, f.m⟩], depth := p.1.depth + p.2 }

/-- The layer loop, model.c 237-294; `none` is the exit for a nonpositive thickness before the last layer. -/
def run (allowed : Bool) (depmax : α) : List (FLay α) → St α → Option (St α)
  | [], st => some st
  | f :: fs, st => if f.h ≤ 0 ∧ fs ≠ [] then none else run allowed depmax fs (step allowed depmax f st)

/-- `modarr[nlay-1][0] = depmax + 1e30`, model.c 233. -/
def setLast (depmax : α) : List (FLay α) → List (FLay α)
  | [] => []
  | [l] => [⟨depmax + 10^30, l.m⟩]
  | l :: l' :: ls => l :: setLast depmax (l' :: ls)

/-- Why `grt_read_mod1d_from_file` exits. -/
inductive Err | sign | empty | thickness | receiverOnLiquid | sourceOnLiquid
  deriving DecidableEq, Repr

/-- The parts of `MODEL1D` this function fills (`isLiquid[i]` is `Vb[i] == 0`, `Dep[i]` the sum of the
thicknesses above, model.c 305-332). -/
structure Mod1d (α : Type*) where
  lays : List (FLay α)
  isrc : ℕ
  ircv : ℕ
  ircvup : Bool
  depsrc : α
  deprcv : α
  inserted : Bool

/-- `Thk[i] == 0.0 && Vb[i]*Vb[i+1] == 0.0` under the guard `i < nlay-1`, model.c 310, 319. -/
def onLiquid (lays : List (FLay α)) (i : ℕ) : Bool :=
  match lays[i]?, lays[i+1]? with
  | some a, some b => decide (a.h = 0 ∧ a.m.vb * b.m.vb = 0)
  | _, _ => false

/-- `grt_read_mod1d_from_file`, model.c 198-333, from the array on. -/
def readMod1d (modarr : List (FLay α)) (depsrc deprcv : α) : Except Err (Mod1d α) :=
  if depsrc * deprcv < 0 then .error .sign
  else if modarr = [] then .error .empty
  else
    let ircvup := decide (deprcv ≤ depsrc)
    let depmin := if ircvup then deprcv else depsrc
    let depmax := if ircvup then depsrc else deprcv
    let allowed := decide (0 ≤ depsrc ∧ 0 ≤ deprcv)
    match run allowed depmax (setLast depmax modarr) ⟨[], 0, 0, 0, false, depmin⟩ with
    | none => .error .thickness
    | some st =>
      let isrc := if ircvup then st.imax else st.imin
      let ircv := if ircvup then st.imin else st.imax
      let n := st.lays.length
      if onLiquid st.lays ircv then .error .receiverOnLiquid
      else if onLiquid st.lays isrc then .error .sourceOnLiquid
      else .ok ⟨st.lays, if 0 ≤ depsrc then isrc else n, if 0 ≤ deprcv then ircv else n, ircvup, depsrc, deprcv, allowed⟩

/-- `GRT_BOUND_HALFSPACE` required when source or receiver lies in the last layer,
`grt_set_mod1d_boundary`, model.c 336-349; `false` is the error exit. -/
def boundaryAccepted (m : Mod1d α) (botIsHalf : Bool) : Bool :=
  !(decide (m.isrc + 1 ≥ m.lays.length ∨ m.ircv + 1 ≥ m.lays.length) && !botIsHalf)

end GRT.Model1D
