import Verif.Okada.Point
import Verif.Okada.Finite
import Verif.StaticSyn.Fault
import Verif.Syn.Coord

/-! Model of `pygrt/C_extension/src/okada/grt_okada.c`: the medium, the sources, the change between the axes of the fault and north and
east, and the sums over receivers and faults, over ℝ.  Not modelled: the parsing of the options other than their meaning, the reading of
the receivers (C44, C71) and of the Coulomb file (C63), messages, and the layout of the output file.  `none` stands for a division by zero
or a logarithm of zero. -/

namespace GRT.Okada

open GRT.Syn GRT.StaticSyn

/-- `OKADA_MEDIUM_PARAMS`, grt_okada.c 75-83. -/
structure MedPar where
  vp : ℝ
  vs : ℝ
  rho : ℝ
  alpha : ℝ
  lambda : ℝ
  mu : ℝ

/-- The medium of `okada_main`, grt_okada.c 723-731, for `vp ≠ 0`. -/
noncomputable def medPar (vp vs rho : ℝ) : MedPar where
  vp := vp
  vs := vs
  rho := rho
  alpha := 1 - vs / vp * (vs / vp)
  mu := rho * vs * vs * 1e10
  lambda := rho * (vp * vp - 2 * vs * vs) * 1e10

/-- The options of a point source, grt_okada.c 23-36: `-M` absent, with two or with three angles (degrees); `-S` with or without `u`. -/
inductive Geom
  | none
  | tensile (strike dip : ℝ)
  | shear (strike dip rake : ℝ)

/-- Displacement and derivatives at one receiver, components and directions in the order Z, N, E or Z, R, T. -/
abbrev Field := (Fin 3 → ℝ) × (Fin 3 → Fin 3 → ℝ)

/-- The matrix of `local_to_zne`, grt_okada.c 368-373. -/
noncomputable def axes (strike : ℝ) : Fin 3 → Fin 3 → ℝ :=
  ![![0, 0, 1], ![Real.cos (strike * deg1), Real.sin (strike * deg1), 0], ![Real.sin (strike * deg1), -Real.cos (strike * deg1), 0]]

/-- `local_to_zne`, grt_okada.c 363-386. -/
noncomputable def localToZne (strike : ℝ) (f : Field) : Field :=
  let q := axes strike
  (fun c => q c 0 * f.1 0 + q c 1 * f.1 1 + q c 2 * f.1 2,
    fun d c => ∑ a, ∑ b, q d a * q c b * f.2 a b)

/-- The rotation to Z, R, T without `-N`, grt_okada.c 458-466 and 742-750. -/
noncomputable def toZrt (north east : ℝ) (f : Field) : Field :=
  let dist := hyp north east
  let theta := if IsZero dist then 0 else atan2 east north
  uparZRT theta (dist * 1e5) f.1 f.2

/-- Strike of a point source, grt_okada.c 404. -/
def Geom.strike : Geom → ℝ
  | .none => 0
  | .tensile s _ => s
  | .shear s _ _ => s

/-- Dip of a point source, grt_okada.c 405. -/
def Geom.dip : Geom → ℝ
  | .none => 0
  | .tensile _ d => d
  | .shear _ d _ => d

open Classical in
/-- The four potencies, grt_okada.c 406-416; `mult` is `-Su`. -/
noncomputable def potencies (m : MedPar) (geom : Geom) (mult : Bool) (value : ℝ) : Option (Fin 4 → ℝ) :=
  if mult = false ∧ m.mu = 0 then none
  else
    let scalar := if mult then value else value / m.mu
    match geom with
    | .none => some ![0, 0, 0, scalar]
    | .shear _ _ rake => some ![scalar * Real.cos (rake * deg1), scalar * Real.sin (rake * deg1), 0, 0]
    | .tensile _ _ =>
      if m.lambda = 0 then none
      else some ![0, 0, if mult then value * m.mu / m.lambda else value / m.lambda, 0]

/-- The position in the axes of the fault, grt_okada.c 420-422, 537-540 and 544-547. -/
noncomputable def toLocal (strike north east : ℝ) : ℝ × ℝ :=
  (north * Real.cos (strike * deg1) + east * Real.sin (strike * deg1), north * Real.sin (strike * deg1) - east * Real.cos (strike * deg1))

/-- The results of a point source in cm and without unit, grt_okada.c 447-450 and 566-569. -/
noncomputable def pointUnits (o : D12) : Field := (fun c => o.disp c * 1e-10, fun d c => o.upar d c * 1e-15)

/-- The results of a rectangle, grt_okada.c 560-563. -/
noncomputable def faultUnits (o : D12) : Field := (o.disp, fun d c => o.upar d c * 1e-5)

/-- `add_point_source`, grt_okada.c 399-470, for one receiver, in Z, N, E. -/
noncomputable def pointZne (m : MedPar) (geom : Geom) (mult : Bool) (value depsrc north east depth : ℝ) : Option Field :=
  let (x, y) := toLocal geom.strike north east
  let z := -depth
  (potencies m geom mult value).bind fun pot => (dc3d0 m.alpha x y z depsrc geom.dip (pot 0) (pot 1) (pot 2) (pot 3)).bind fun first =>
    (if first.1 ≠ 0 then dc3d0 m.alpha (x + 1e-4) y z depsrc geom.dip (pot 0) (pot 1) (pot 2) (pot 3) else some first).map fun r =>
      localToZne geom.strike (pointUnits r.2)

/-- The same with the rotation, grt_okada.c 452-468; `n` is `-N`. -/
noncomputable def pointAt (m : MedPar) (geom : Geom) (mult : Bool) (value depsrc : ℝ) (n : Bool) (north east depth : ℝ) : Option Field :=
  (pointZne m geom mult value depsrc north east depth).map fun f => if n then f else toZrt north east f

/-- Components of slip in cm, grt_okada.c 504-519. -/
def slips (f : Fault) : Fin 3 → ℝ :=
  match f.kode with
  | .rtlatReverse => ![-100 * f.rightLateral, 100 * f.reverse, 0]
  | .rtlatTensile => ![-100 * f.rightLateral, 0, 100 * f.tensile]
  | .tensileReverse => ![0, 100 * f.reverse, 100 * f.tensile]
  | _ => 0

/-- Potencies in cm³ of the point sources, grt_okada.c 507-525. -/
noncomputable def faultPot (f : Fault) : Fin 4 → ℝ :=
  match f.kode with
  | .pointDC => ![-1e6 * f.rightLateral, 1e6 * f.reverse, 0, 0]
  | .pointTensileInflate => ![0, 0, 1e6 * f.tensile, 1e6 * f.inflate]
  | _ => 0

/-- One fault at one receiver, `add_finite_faults`, grt_okada.c 488-571: the return code and the contribution in Z, N, E. -/
noncomputable def faultZne (m : MedPar) (f : Fault) (north east depth : ℝ) : Option (ℕ × Field) :=
  let length := hyp (f.eastEnd - f.eastBegin) (f.northEnd - f.northBegin)
  let width := (f.bot - f.top) / Real.sin (f.dip * deg1)
  let coss := Real.cos (f.strike * deg1)
  let sins := Real.sin (f.strike * deg1)
  let northMid := 1 / 2 * (f.northBegin + f.northEnd)
  let eastMid := 1 / 2 * (f.eastBegin + f.eastEnd)
  let depsrc := 1 / 2 * (f.top + f.bot)
  let shift := 1 / 2 * width * Real.cos (f.dip * deg1)
  let pointNorth := northMid - shift * sins
  let pointEast := eastMid + shift * coss
  if Real.sin (f.dip * deg1) = 0 then none
  else if f.kode.isPoint then
    let pot := faultPot f
    let (x, y) := toLocal f.strike (north - pointNorth) (east - pointEast)
    (dc3d0 m.alpha x y (-depth) depsrc f.dip (pot 0) (pot 1) (pot 2) (pot 3)).map fun r => (r.1, localToZne f.strike (pointUnits r.2))
  else
    let d := slips f
    let (x, y) := toLocal f.strike (north - northMid) (east - eastMid)
    (dc3d m.alpha x y (-depth) f.top f.dip (-(1 / 2) * length) (1 / 2 * length) (-width) 0 (d 0) (d 1) (d 2)).map fun r =>
      (r.1, localToZne f.strike (faultUnits r.2))

/-- The outcome of a run at one receiver: the return code with which it ends early, or the field. -/
abbrev Outcome := Except ℕ Field

/-- The sum over the faults, `add_finite_faults`, grt_okada.c 483-582; the run ends at the first failure, 551-559.  (The receivers of
one fault run in parallel; each only writes its own result.) -/
noncomputable def faultsZne (m : MedPar) (north east depth : ℝ) : List Fault → Field → Option Outcome
  | [], acc => some (.ok acc)
  | f :: fs, acc => (faultZne m f north east depth).bind fun r =>
      if r.1 ≠ 0 then some (.error r.1)
      else faultsZne m north east depth fs (fun c => acc.1 c + r.2.1 c, fun d c => acc.2 d c + r.2.2 d c)

/-- `okada_main` with `-C` for one receiver, grt_okada.c 738-752. -/
noncomputable def faultsAt (m : MedPar) (faults : List Fault) (n : Bool) (north east depth : ℝ) : Option Outcome :=
  (faultsZne m north east depth faults (fun _ => 0, fun _ _ => 0)).map fun r => r.map fun f => if n then f else toZrt north east f

end GRT.Okada
