import Mathlib.Data.Matrix.Mul
import Mathlib.LinearAlgebra.Matrix.Notation

/-!
Model of `pygrt/C_extension/src/common/RT_matrix.c` and of the 2x2 routines of
`pygrt/C_extension/include/grt/common/matrix.h`.

`cplx_t` is an arbitrary field `K` (the code uses double complex; exact arithmetic here, so the
`long double` multiplication variant of matrix.h 85-97 is the same function).  `RT_MATRIX` objects live
in a store indexed by addresses, so that calls whose output overwrites an input are modelled as
written: every C statement becomes one store update.
-/

namespace GRT.RT

/-- `cplx_t [2][2]`. -/
abbrev Mat2 (K : Type*) := Matrix (Fin 2) (Fin 2) K

section mat
variable {K : Type*} [Field K]

/-- `grt_cmat2x2_mul`, matrix.h 99-127 (both precision branches). -/
def mul (A B : Mat2 K) : Mat2 K :=
  !![A 0 0 * B 0 0 + A 0 1 * B 1 0, A 0 0 * B 0 1 + A 0 1 * B 1 1;
     A 1 0 * B 0 0 + A 1 1 * B 1 0, A 1 0 * B 0 1 + A 1 1 * B 1 1]

/-- `grt_cmat2x2_add`, matrix.h 54-59. -/
def add (A B : Mat2 K) : Mat2 K :=
  !![A 0 0 + B 0 0, A 0 1 + B 0 1; A 1 0 + B 1 0, A 1 1 + B 1 1]

/-- `grt_cmat2x2_one_sub`, matrix.h 80-85. -/
def oneSub (A : Mat2 K) : Mat2 K := !![1 - A 0 0, -A 0 1; -A 1 0, 1 - A 1 1]

/-- `grt_cmat2x2_inv`, matrix.h 25-45. `none` is `GRT_INVERSE_FAILURE`. -/
def inv [DecidableEq K] (A : Mat2 K) : Option (Mat2 K) :=
  let det := A 0 0 * A 1 1 - A 0 1 * A 1 0
  if det = 0 then none
  else
    let d := 1 / det
    some !![A 1 1 * d, -A 0 1 * d; -A 1 0 * d, A 0 0 * d]

end mat

/-- `RT_MATRIX`, include/grt/common/RT_matrix.h. `ok` is `stats == GRT_INVERSE_SUCCESS`. -/
structure RTM (K : Type*) where
  RD : Mat2 K
  RU : Mat2 K
  TD : Mat2 K
  TU : Mat2 K
  invT : Mat2 K
  RDL : K
  RUL : K
  TDL : K
  TUL : K
  invTL : K
  ok : Bool

/-- Addresses of `RT_MATRIX` objects. -/
abbrev Ptr := Nat

/-- The memory holding `RT_MATRIX` objects. -/
abbrev Store (K : Type*) := Ptr → RTM K

/-- Assignment through a pointer: `*p = v`. -/
def Store.set {K : Type*} (s : Store K) (p : Ptr) (v : RTM K) : Store K :=
  fun q => if q = p then v else s q

section prog
variable {K : Type*} [Field K] [DecidableEq K]

/-- `grt_reset_RT_matrix`, RT_matrix.c 23-30. -/
def resetM : RTM K :=
  { RD := 0, RU := 0, TD := !![1, 0; 0, 1], TU := !![1, 0; 0, 1], invT := 0,
    RDL := 0, RUL := 0, TDL := 1, TUL := 1, invTL := 0, ok := true }

/-- `grt_recursion_RD_PSV`, RT_matrix.c 53-67. -/
def recRD_PSV (p1 p2 p : Ptr) (s : Store K) : Store K :=
  let tmp1 := mul (s p1).RU (s p2).RD
  let tmp1 := oneSub tmp1
  match inv tmp1 with
  | none => s.set p { s p with ok := false }
  | some tmp1 =>
    let s := s.set p { s p with ok := true }
    let tmp2 := mul tmp1 (s p1).TD
    let s := s.set p { s p with invT := tmp2 }
    let tmp1 := mul (s p2).RD tmp2
    let tmp2 := mul (s p1).TU tmp1
    s.set p { s p with RD := add (s p1).RD tmp2 }

/-- `grt_recursion_RD_SH`, RT_matrix.c 69-81. -/
def recRD_SH (p1 p2 p : Ptr) (s : Store K) : Store K :=
  let inv1 := 1 - (s p1).RUL * (s p2).RDL
  if inv1 = 0 then s.set p { s p with ok := false }
  else
    let inv1 := 1 / inv1 * (s p1).TDL
    let s := s.set p { s p with RDL := (s p1).RDL + (s p1).TUL * (s p2).RDL * inv1 }
    s.set p { s p with invTL := inv1 }

/-- `grt_recursion_RD`, RT_matrix.c 47-51. -/
def recRD (p1 p2 p : Ptr) (s : Store K) : Store K := recRD_SH p1 p2 p (recRD_PSV p1 p2 p s)

/-- `grt_recursion_TD_PSV`, RT_matrix.c 90-101. -/
def recTD_PSV (p1 p2 p : Ptr) (s : Store K) : Store K :=
  let tmp2 := mul (s p1).RU (s p2).RD
  let tmp2 := oneSub tmp2
  match inv tmp2 with
  | none => s.set p { s p with ok := false }
  | some tmp1 =>
    let s := s.set p { s p with ok := true }
    let tmp2 := mul tmp1 (s p1).TD
    let s := s.set p { s p with invT := tmp2 }
    s.set p { s p with TD := mul (s p2).TD tmp2 }

/-- `grt_recursion_TD_SH`, RT_matrix.c 103-115. -/
def recTD_SH (p1 p2 p : Ptr) (s : Store K) : Store K :=
  let inv1 := 1 - (s p1).RUL * (s p2).RDL
  if inv1 = 0 then s.set p { s p with ok := false }
  else
    let inv1 := 1 / inv1 * (s p1).TDL
    let s := s.set p { s p with TDL := (s p2).TDL * inv1 }
    s.set p { s p with invTL := inv1 }

/-- `grt_recursion_RU_PSV`, RT_matrix.c 123-137. -/
def recRU_PSV (p1 p2 p : Ptr) (s : Store K) : Store K :=
  let tmp2 := mul (s p2).RD (s p1).RU
  let tmp2 := oneSub tmp2
  match inv tmp2 with
  | none => s.set p { s p with ok := false }
  | some tmp1 =>
    let s := s.set p { s p with ok := true }
    let tmp2 := mul tmp1 (s p2).TU
    let s := s.set p { s p with invT := tmp2 }
    let tmp1 := mul (s p1).RU tmp2
    let tmp2 := mul (s p2).TD tmp1
    s.set p { s p with RU := add (s p2).RU tmp2 }

/-- `grt_recursion_RU_SH`, RT_matrix.c 140-152. -/
def recRU_SH (p1 p2 p : Ptr) (s : Store K) : Store K :=
  let inv1 := 1 - (s p1).RUL * (s p2).RDL
  if inv1 = 0 then s.set p { s p with ok := false }
  else
    let inv1 := 1 / inv1 * (s p2).TUL
    let s := s.set p { s p with RUL := (s p2).RUL + (s p2).TDL * (s p1).RUL * inv1 }
    s.set p { s p with invTL := inv1 }

/-- `grt_recursion_RU`, RT_matrix.c 117-121. -/
def recRU (p1 p2 p : Ptr) (s : Store K) : Store K := recRU_SH p1 p2 p (recRU_PSV p1 p2 p s)

/-- `grt_recursion_TU_PSV`, RT_matrix.c 162-173. -/
def recTU_PSV (p1 p2 p : Ptr) (s : Store K) : Store K :=
  let tmp2 := mul (s p2).RD (s p1).RU
  let tmp2 := oneSub tmp2
  match inv tmp2 with
  | none => s.set p { s p with ok := false }
  | some tmp1 =>
    let s := s.set p { s p with ok := true }
    let tmp2 := mul tmp1 (s p2).TU
    let s := s.set p { s p with invT := tmp2 }
    s.set p { s p with TU := mul (s p1).TU tmp2 }

/-- `grt_recursion_TU_SH`, RT_matrix.c 177-189. -/
def recTU_SH (p1 p2 p : Ptr) (s : Store K) : Store K :=
  let inv1 := 1 - (s p1).RUL * (s p2).RDL
  if inv1 = 0 then s.set p { s p with ok := false }
  else
    let inv1 := 1 / inv1 * (s p2).TUL
    let s := s.set p { s p with TUL := (s p1).TUL * inv1 }
    s.set p { s p with invTL := inv1 }

/-- `grt_recursion_RT_matrix_PSV`, RT_matrix.c 199-229. -/
def recRT_PSV (p1 p2 p : Ptr) (s : Store K) : Store K :=
  let tmp1 := mul (s p1).RU (s p2).RD
  let tmp1 := oneSub tmp1
  match inv tmp1 with
  | none => s.set p { s p with ok := false }
  | some tmp1 =>
    let s := s.set p { s p with ok := true }
    let tmp2 := mul tmp1 (s p1).TD
    -- TD
    let s := s.set p { s p with TD := mul (s p2).TD tmp2 }
    -- RD
    let tmp1 := mul (s p2).RD tmp2
    let tmp2 := mul (s p1).TU tmp1
    let s := s.set p { s p with RD := add (s p1).RD tmp2 }
    let tmp1 := mul (s p2).RD (s p1).RU
    let tmp1 := oneSub tmp1
    match inv tmp1 with
    | none => s.set p { s p with ok := false }
    | some tmp1 =>
      let s := s.set p { s p with ok := true }
      let tmp2 := mul tmp1 (s p2).TU
      -- TU
      let s := s.set p { s p with TU := mul (s p1).TU tmp2 }
      -- RU
      let tmp1 := mul (s p1).RU tmp2
      let tmp2 := mul (s p2).TD tmp1
      s.set p { s p with RU := add (s p2).RU tmp2 }

/-- `grt_recursion_RT_matrix_SH`, RT_matrix.c 232-258. -/
def recRT_SH (p1 p2 p : Ptr) (s : Store K) : Store K :=
  let inv0 := 1 - (s p1).RUL * (s p2).RDL
  if inv0 = 0 then s.set p { s p with ok := false }
  else
    let inv0 := 1 / inv0
    let inv1T := inv0 * (s p1).TDL
    let s := s.set p { s p with TDL := (s p2).TDL * inv1T }
    let s := s.set p { s p with RDL := (s p1).RDL + (s p1).TUL * (s p2).RDL * inv1T }
    let inv1T := inv0 * (s p2).TUL
    let s := s.set p { s p with TUL := (s p1).TUL * inv1T }
    s.set p { s p with RUL := (s p2).RUL + (s p2).TDL * (s p1).RUL * inv1T }

/-- `grt_recursion_RT_matrix`, RT_matrix.c 192-196. -/
def recRT (p1 p2 p : Ptr) (s : Store K) : Store K := recRT_SH p1 p2 p (recRT_PSV p1 p2 p s)

end prog

end GRT.RT
