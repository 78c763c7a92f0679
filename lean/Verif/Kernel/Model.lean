import Verif.Static.Model
import Verif.Layer.Split

/-! Model of `pygrt/C_extension/src/integral/kernel_template.c_` (the kernel at one wavenumber, dynamic and
static variants) and of `grt_construct_qwv` (`src/integral/kernel.c`).

The seven `RT_MATRIX` members of `MODEL1D_STATE` (and the local `M`) live in the store of
`Verif/RT/Model.lean`, so what one call leaves behind is visible to the next.  The routines that differ
between the two variants are fields of `Env`; `dynEnv` and `statEnv` fill them with the models of
`dynamic/layer.c`, `dynamic/source.c`, `static/static_layer.c` and `static/static_source.c`. -/

namespace GRT.Kernel

open GRT.RT GRT.Layer Matrix

variable {K : Type*} [Field K] [DecidableEq K]

/-- `GRT_BOUND_TYPE`, include/grt/common/model.h. -/
inductive Bound | free | rigid | half
  deriving DecidableEq, Repr

/-- What the template uses of the model and of the variant-specific routines at one wavenumber. -/
structure Env (K : Type*) where
  /-- `__DYNAMIC_KERNEL__` is defined -/
  dyn : Bool
  nlay : ℕ
  isrc : ℕ
  ircv : ℕ
  ircvup : Bool
  /-- `depsrc == 0.0 && deprcv == 0.0` -/
  atZero : Bool
  /-- `RT_matrix_PSV(mstat, iy, M)` and `RT_matrix_SH(mstat, iy, M)` -/
  rtP : ℕ → Out (PSV K)
  rtS : ℕ → Out (SH K)
  /-- `delay_RT_matrix(mstat, iy, M)` -/
  delP : ℕ → PSV K → PSV K
  delS : ℕ → SH K → SH K
  /-- `grt_delay_GRT_matrix(mstat, iy, M)` (dynamic variant only) -/
  delGP : ℕ → PSV K → PSV K
  delGS : ℕ → SH K → SH K
  /-- the coefficients stored by `topbound_RU_PSV`, `topbound_RU_SH` -/
  topP : Out (Mat2 K)
  topS : K
  /-- the coefficients stored by `botbound_RD_PSV`, `botbound_RD_SH`, without the delay -/
  botP : Out (Mat2 K)
  botS : Out K
  /-- the delays `botbound_RD_PSV`, `botbound_RD_SH` apply -/
  botDP : Mat2 K → Mat2 K
  botDS : K → K
  /-- `botbound == GRT_BOUND_HALFSPACE`; in this case `botbound_RD_SH` does not assign `M_bot.stats` -/
  botHalf : Bool
  /-- `source_coef(mstat, coefD, coefU)`, one row -/
  src : Src → Out (SrcRow K)
  /-- `wave2qwv_REV_PSV`, `_SH` and the `_z_` versions, as functions of `M_FA.RU`, `M_BL.RD` -/
  rev : Mat2 K → Mat2 K → Mat2 K
  revL : K → K → K
  revz : Mat2 K → Mat2 K → Mat2 K
  revzL : K → K → K

/-- Addresses of the `RT_MATRIX` members of `MODEL1D_STATE` and of the local `M`. -/
abbrev pFA : Ptr := 0
abbrev pRS : Ptr := 1
abbrev pBL : Ptr := 2
abbrev pTop : Ptr := 3
abbrev pBot : Ptr := 4
abbrev pFB : Ptr := 5
abbrev pAL : Ptr := 6
abbrev pM : Ptr := 7

/-- Control flow of `GRT_matrix`: an untested division by zero, `goto BEFORE_RETURN`, or go on. -/
inductive Res (K : Type*) where
  | undef : Res K
  | stop : Store K → Res K
  | go : Store K → Res K

/-- Sequencing of statements. -/
def Res.bind (r : Res K) (f : Store K → Res K) : Res K :=
  match r with
  | .undef => .undef
  | .stop s => .stop s
  | .go s => f s

/-- `if(M->stats==GRT_INVERSE_FAILURE) goto BEFORE_RETURN;` -/
def check (p : Ptr) (s : Store K) : Res K := if (s p).ok then .go s else .stop s

/-- The P-SV members of an `RT_MATRIX`. -/
def getP (M : RTM K) : PSV K := ⟨M.RD, M.RU, M.TD, M.TU⟩
/-- The SH members. -/
def getS (M : RTM K) : SH K := ⟨M.RDL, M.RUL, M.TDL, M.TUL⟩
/-- Assigning the P-SV members. -/
def putP (M : RTM K) (p : PSV K) : RTM K := { M with RD := p.RD, RU := p.RU, TD := p.TD, TU := p.TU }
/-- Assigning the SH members. -/
def putS (M : RTM K) (p : SH K) : RTM K :=
  { M with RDL := p.RDL, RUL := p.RUL, TDL := p.TDL, TUL := p.TUL }

/-- Calling `RT_matrix_PSV`: on failure only `stats` is written (layer.c 344, 422, 626). -/
def callRTP (o : Out (PSV K)) (p : Ptr) (s : Store K) : Res K :=
  match o with
  | .undef => .undef
  | .fail => .go (s.set p { s p with ok := false })
  | .ok c => .go (s.set p (putP (s p) c))

/-- Calling `RT_matrix_SH`; it never writes `stats` (layer.c 362-368, 557-584, 674-688). -/
def callRTS (o : Out (SH K)) (p : Ptr) (s : Store K) : Res K :=
  match o with
  | .ok c => .go (s.set p (putS (s p) c))
  | _ => .undef

/-- `imin`, `imax`, kernel_template.c_ 68-72. -/
def Env.imin (E : Env K) : ℕ := min E.isrc E.ircv
def Env.imax (E : Env K) : ℕ := max E.isrc E.ircv

/-- `maxidx`, kernel_template.c_ 91. -/
def Env.maxidx (E : Env K) : ℕ := if E.imax + 1 = E.nlay then E.nlay else E.nlay - 1

/-- The first half of the loop body, kernel_template.c_ 94-112: the matrix of the layer above interface
`iy` in the local `M`. -/
def layerM (E : Env K) (iy : ℕ) (s : Store K) : Res K :=
  let s := s.set pM resetM
  let r : Res K :=
    if !E.dyn || (iy != E.isrc && iy != E.ircv) then
      (callRTP (E.rtP iy) pM s).bind fun s =>
      (callRTS (E.rtS iy) pM s).bind fun s => check pM s
    else .go s
  r.bind fun s => .go (s.set pM (putS (putP (s pM) (E.delP iy (getP (s pM)))) (E.delS iy (getS (s pM)))))

/-- `grt_delay_GRT_matrix(mstat, iy, M)`. -/
def delG (E : Env K) (iy : ℕ) (M : RTM K) : RTM K := putS (putP M (E.delGP iy (getP M))) (E.delGS iy (getS M))

/-- One of the three branches of the second half of the loop body, kernel_template.c_ 115-154: `first`
is the initialisation test, `last` the depth where the dynamic variant only delays. -/
def accum (E : Env K) (p : Ptr) (first last : Bool) (iy : ℕ) (s : Store K) : Res K :=
  if first then .go (s.set p (s pM))
  else if E.dyn && last then .go (s.set p (delG E iy (s p)))
  else check p (recRT p pM p s)

/-- The loop body, kernel_template.c_ 92-156. -/
def body (E : Env K) (iy : ℕ) (s : Store K) : Res K :=
  (layerM E iy s).bind fun s =>
    if iy ≤ E.imin then accum E pFA (iy == 1) (iy == E.imin) iy s
    else if iy ≤ E.imax then accum E pRS (iy == E.imin + 1) (iy == E.imax) iy s
    else accum E pBL (iy == E.imax + 1) false iy s

/-- `n` rounds of the loop from `iy`. -/
def loop (E : Env K) : ℕ → ℕ → Store K → Res K
  | 0, _, s => .go s
  | n + 1, iy, s => (body E iy s).bind fun s => loop E n (iy + 1) s

/-- `topbound_RU_PSV`, `topbound_RU_SH` (layer.c 108-148, static_layer.c 69-107): the second call
overwrites `stats` with success. -/
def callTop (E : Env K) (s : Store K) : Res K :=
  match E.topP with
  | .undef => .undef
  | .fail => .go (s.set pTop { s pTop with RUL := E.topS, ok := true })
  | .ok R => .go (s.set pTop { s pTop with RU := R, RUL := E.topS, ok := true })

/-- `botbound_RD_PSV`, `botbound_RD_SH` (layer.c 150-216, static_layer.c 109-165).  Only `RD`, `RDL` and
`stats` of `M_bot` are read afterwards; with a half-space the other members are filled too, which is
left out. -/
def callBot (E : Env K) (s : Store K) : Res K :=
  let r : Res K := match E.botP with
    | .undef => .undef
    | .fail => .go (s.set pBot { s pBot with RD := E.botDP (s pBot).RD, ok := false })
    | .ok R => .go (s.set pBot { s pBot with RD := E.botDP R, ok := if E.botHalf then (s pBot).ok else true })
  r.bind fun s =>
    match E.botS with
    | .ok R => .go (s.set pBot { s pBot with RDL := E.botDS R, ok := if E.botHalf then (s pBot).ok else true })
    | _ => .undef

/-- The statements after the loop, kernel_template.c_ 159-173. -/
def bounds (E : Env K) (s : Store K) : Res K :=
  (callTop E s).bind fun s => (check pTop s).bind fun s =>
  (check pFA (recRU pTop pFA pFA s)).bind fun s =>
  if E.imax + 1 < E.nlay then
    (callBot E s).bind fun s => (check pBot s).bind fun s => check pBL (recRD pBL pBot pBL s)
  else .go s

/-- `grt_GRT_matrix` / `grt_static_GRT_matrix`, kernel_template.c_ 60-178; `stop` means that a `goto
BEFORE_RETURN` was taken, which the caller is not told. -/
def grtMatrix (E : Env K) (s : Store K) : Res K :=
  let s := s.set pBL resetM
  let s := s.set pRS resetM
  let s := s.set pFA resetM
  let s := s.set pTop resetM
  let s := s.set pBot resetM
  (loop E (E.maxidx - 1) 1 s).bind fun s => bounds E s

/-- One row of `cplxChnlGrid`: `q`, `w` and `v`. -/
@[ext] structure Row (K : Type*) where
  qw : Fin 2 → K
  v : K

/-- `grt_cmat2x1_mul`, include/grt/common/matrix.h 150-157. -/
def mulVec2 (A : Mat2 K) (v : Fin 2 → K) : Fin 2 → K :=
  ![A 0 0 * v 0 + A 0 1 * v 1, A 1 0 * v 0 + A 1 1 * v 1]

/-- `grt_construct_qwv`, kernel.c 48-70, one row. -/
def constructQWV (ircvup : Bool) (R1 : Mat2 K) (RL1 : K) (R2 : Mat2 K) (RL2 : K) (S : SrcRow K) : Row K :=
  if ircvup then
    let t := mulVec2 R2 S.D
    ⟨mulVec2 R1 ![t 0 + S.U 0, t 1 + S.U 1], RL1 * (RL2 * S.DL + S.UL)⟩
  else
    let t := mulVec2 R2 S.U
    ⟨mulVec2 R1 ![t 0 + S.D 0, t 1 + S.D 1], RL1 * (S.DL + RL2 * S.UL)⟩

/-- `QWV` and `QWV_uiz` (`calc_uiz` set). -/
structure QWV (K : Type*) where
  u : Src → Row K
  uz : Src → Row K

/-- The `memset` of kernel_template.c_ 184-185. -/
def zeroQWV : QWV K := ⟨fun _ => ⟨0, 0⟩, fun _ => ⟨0, 0⟩⟩

/-- The final correction, kernel_template.c_ 276-287. -/
def zeroDS (E : Env K) (g : QWV K) : QWV K :=
  if E.atZero then
    ⟨fun t => if t = .DS then ⟨0, 0⟩ else g.u t, fun t => if t = .DS then ⟨0, 0⟩ else g.uz t⟩
  else g

/-- The six rows of `source_coef`. -/
def srcAll (E : Env K) : Out (Src → SrcRow K) :=
  match E.src .EX, E.src .VF, E.src .HF, E.src .DD, E.src .DS, E.src .SS with
  | .ok a, .ok b, .ok c, .ok d, .ok e, .ok f => .ok fun t => match t with
    | .EX => a | .VF => b | .HF => c | .DD => d | .DS => e | .SS => f
  | _, _, _, _, _, _ => .undef

/-- What `GRT_build_QWV` leaves: the store, the table, and whether it went through (`false`: a `goto
BEFORE_RETURN` was taken; not visible to the caller). -/
structure Built (K : Type*) where
  store : Store K
  g : QWV K
  done : Bool

/-- `grt_GRT_build_QWV` / `grt_static_GRT_build_QWV`, kernel_template.c_ 181-288, with `calc_uiz`. -/
def buildQWV (E : Env K) (s : Store K) : Out (Built K) :=
  match srcAll E with
  | .fail => .undef
  | .undef => .undef
  | .ok S =>
    let R_EV := E.rev (s pFA).RU (s pBL).RD
    let R_EVL := E.revL (s pFA).RUL (s pBL).RDL
    let R_EVz := E.revz (s pFA).RU (s pBL).RD
    let R_EVLz := E.revzL (s pFA).RUL (s pBL).RDL
    if E.ircvup then
      let s := recRU pFA pRS pFB s
      if (s pFB).ok then
        let tmpR2 := oneSub (mul (s pBL).RD (s pFB).RU)
        match inv tmpR2 with
        | none => .ok ⟨s.set pFB { s pFB with ok := false }, zeroDS E zeroQWV, false⟩
        | some tmpR2 =>
          let s := s.set pFB { s pFB with ok := true }
          let tmp := mul (s pFB).invT tmpR2
          let den := 1 - (s pBL).RDL * (s pFB).RUL
          if den = 0 then .undef
          else
            let tmpRL := (s pFB).invTL / den
            .ok ⟨s, zeroDS E
              ⟨fun t => constructQWV true (mul R_EV tmp) (R_EVL * tmpRL) (s pBL).RD (s pBL).RDL (S t),
               fun t => constructQWV true (mul R_EVz tmp) (R_EVLz * tmpRL) (s pBL).RD (s pBL).RDL (S t)⟩, true⟩
      else .ok ⟨s, zeroDS E zeroQWV, false⟩
    else
      let s := recRD pRS pBL pAL s
      if (s pAL).ok then
        let tmpR2 := oneSub (mul (s pFA).RU (s pAL).RD)
        match inv tmpR2 with
        | none => .ok ⟨s.set pAL { s pAL with ok := false }, zeroDS E zeroQWV, false⟩
        | some tmpR2 =>
          let s := s.set pAL { s pAL with ok := true }
          let tmp := mul (s pAL).invT tmpR2
          let den := 1 - (s pFA).RUL * (s pAL).RDL
          if den = 0 then .undef
          else
            let tmpRL := (s pAL).invTL / den
            .ok ⟨s, zeroDS E
              ⟨fun t => constructQWV false (mul R_EV tmp) (R_EVL * tmpRL) (s pFA).RU (s pFA).RUL (S t),
               fun t => constructQWV false (mul R_EVz tmp) (R_EVLz * tmpRL) (s pFA).RU (s pFA).RUL (S t)⟩, true⟩
      else .ok ⟨s, zeroDS E zeroQWV, false⟩

/-- What a caller of `grt_kernel` sees: the two tables and `mstat->stats`; `done` is a ghost recording
that no `goto BEFORE_RETURN` was taken in either phase. -/
structure Kern (K : Type*) where
  store : Store K
  g : QWV K
  stats : Bool
  done : Bool

/-- `grt_kernel` / `grt_static_kernel`, kernel_template.c_ 291-295.  Neither phase assigns `mstat->stats`
(`stats` below is its value on entry). -/
def kernel (E : Env K) (s : Store K) (stats : Bool) : Out (Kern K) :=
  match grtMatrix E s with
  | .undef => .undef
  | .stop s => match buildQWV E s with
    | .ok b => .ok ⟨b.store, b.g, stats, false⟩
    | .fail => .fail
    | .undef => .undef
  | .go s => match buildQWV E s with
    | .ok b => .ok ⟨b.store, b.g, stats, b.done⟩
    | .fail => .fail
    | .undef => .undef

/-! ### The two variants -/

/-- What the kernel is called with: layers `0 .. nlay-1`, the factors `exp(-k thk x)` of each layer, the
two boundary types, source and receiver. `isrc` and `ircv` are as computed by `grt_read_mod1d_from_file`. -/
structure DynIn (K : Type*) where
  k : K
  c : K
  nlay : ℕ
  isrc : ℕ
  ircv : ℕ
  ircvup : Bool
  atZero : Bool
  lay : ℕ → Lay K
  exa : ℕ → K
  exb : ℕ → K
  top : Bound
  bot : Bound

/-- `out.map`. -/
def outMap {A B : Type*} (f : A → B) : Out A → Out B
  | .fail => .fail
  | .undef => .undef
  | .ok a => .ok (f a)

/-- `__DYNAMIC_KERNEL__`. -/
def dynEnv (I : DynIn K) : Env K :=
  let l := I.lay
  let n := I.nlay
  { dyn := true, nlay := n, isrc := I.isrc, ircv := I.ircv, ircvup := I.ircvup, atZero := I.atZero
    rtP := fun i => Layer.rtPSV I.c (l (i-1)) (l i)
    rtS := fun i => Layer.rtSH (l (i-1)) (l i)
    delP := fun i => Layer.delayPSV (I.exa (i-1)) (I.exb (i-1))
    delS := fun i => Layer.delaySH (I.exb (i-1))
    delGP := fun i => Layer.delayGRT_PSV (I.exa (i-1)) (I.exb (i-1))
    delGS := fun i => Layer.delayGRT_SH (I.exb (i-1))
    topP := match I.top with
      | .free => Layer.freeBoundPSV (l 0).liquid (l 0).cbcb (l 0).xa (l 0).xb 1
      | .rigid => Layer.rigidBoundPSV (l 0).liquid (l 0).xa (l 0).xb 1
      | .half => .ok 0
    topS := match I.top with
      | .free => Layer.freeBoundSH (l 0).liquid
      | .rigid => Layer.rigidBoundSH (l 0).liquid
      | .half => 0
    botP := match I.bot with
      | .free => Layer.freeBoundPSV (l (n-2)).liquid (l (n-2)).cbcb (l (n-2)).xa (l (n-2)).xb (-1)
      | .rigid => Layer.rigidBoundPSV (l (n-2)).liquid (l (n-2)).xa (l (n-2)).xb (-1)
      | .half => outMap PSV.RD (Layer.rtPSV I.c (l (n-2)) (l (n-1)))
    botS := match I.bot with
      | .free => .ok (Layer.freeBoundSH (l (n-2)).liquid)
      | .rigid => .ok (Layer.rigidBoundSH (l (n-2)).liquid)
      | .half => outMap SH.RDL (Layer.rtSH (l (n-2)) (l (n-1)))
    botDP := fun R => (Layer.delayPSV (I.exa (n-2)) (I.exb (n-2)) ⟨R, 0, 0, 0⟩).RD
    botDS := fun R => R * (I.exb (n-2) * I.exb (n-2))
    botHalf := I.bot == .half
    src := Layer.srcRow I.k (l I.isrc)
    rev := Layer.revPSV I.k (l I.ircv) I.ircvup
    revL := Layer.revSH I.k (l I.ircv) I.ircvup
    revz := Layer.revzPSV I.k (l I.ircv) I.ircvup
    revzL := Layer.revzSH I.k (l I.ircv) I.ircvup }

/-- The static kernel's input: `mu`, `delta`, `k*thk` and `exp(-k*thk)` of each layer. -/
structure StatIn (K : Type*) where
  k : K
  nlay : ℕ
  isrc : ℕ
  ircv : ℕ
  ircvup : Bool
  atZero : Bool
  lay : ℕ → Static.SLay K
  x : ℕ → K
  ex : ℕ → K
  top : Bound
  bot : Bound

/-- `__STATIC_KERNEL__`.  The dynamic-only `grt_delay_GRT_matrix` is not called.  (`pos` of the bottom
boundary is `thk > 0`; for `thk = 0` the two branches of static_layer.c 29-61 agree.) -/
def statEnv (I : StatIn K) : Env K :=
  let l := I.lay
  let n := I.nlay
  { dyn := false, nlay := n, isrc := I.isrc, ircv := I.ircv, ircvup := I.ircvup, atZero := I.atZero
    rtP := fun i => Static.rtPSV (I.x (i-1)) (l (i-1)) (l i)
    rtS := fun i => Static.rtSH (l (i-1)) (l i)
    delP := fun i => Static.delayPSV (I.ex (i-1))
    delS := fun i => Static.delaySH (I.ex (i-1))
    delGP := fun _ p => p
    delGS := fun _ p => p
    topP := match I.top with
      | .free => Static.freeBoundPSV false 0 (l 0).delta
      | .rigid => .ok (Static.rigidBoundPSV false 0 (l 0).delta)
      | .half => .ok 0
    topS := match I.top with
      | .free => Static.freeBoundSH
      | .rigid => Static.rigidBoundSH
      | .half => 0
    botP := match I.bot with
      | .free => Static.freeBoundPSV true (I.x (n-2)) (l (n-2)).delta
      | .rigid => .ok (Static.rigidBoundPSV true (I.x (n-2)) (l (n-2)).delta)
      | .half => outMap PSV.RD (Static.rtPSV (I.x (n-2)) (l (n-2)) (l (n-1)))
    botS := match I.bot with
      | .free => .ok Static.freeBoundSH
      | .rigid => .ok Static.rigidBoundSH
      | .half => outMap SH.RDL (Static.rtSH (l (n-2)) (l (n-1)))
    botDP := Static.botDelay (I.ex (n-2))
    botDS := fun R => R * (I.ex (n-2) * I.ex (n-2))
    botHalf := I.bot == .half
    src := Static.srcRow I.k (l I.isrc).delta
    rev := Static.revPSV I.ircvup
    revL := Static.revSH I.ircvup
    revz := Static.revzPSV I.k (l I.ircv).delta I.ircvup
    revzL := Static.revzSH I.k I.ircvup }

end GRT.Kernel
