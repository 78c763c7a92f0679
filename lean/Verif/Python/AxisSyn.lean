import Verif.Python.Axis
import Verif.Python.StaticSynProp

/-!
Ranges of fractions in `grt static syn` (C125), as in `Verif/Python/Axis`.
-/

namespace GRT.Python.StaticSyn

open GRT.Num GRT.Files GRT.Points GRT.Python GRT.Python.Syn GRT.Python.StaticGrn

/-- The program works with the coordinates that the ranges give. -/
theorem syn_grid (a : Args) (ha : Accepted a) {w : What} (hw : Wants a w) (he : w.exact) (hq : w.allowed) (o1 : a.stgrn ≠ []) (o2 : a.out ≠ [])
    (o3 : ∀ y ∈ a.depsrc, Plain y) (o4 : ∀ y ∈ a.deprcv, Plain y) {p q s p' q' s' : ℚ} (hn : a.norths = some [p, q, s]) (hy : a.easts = some [p', q', s'])
    (p5 : Plain p ∧ Plain q ∧ Plain s) (p6 : Plain p' ∧ Plain q' ∧ Plain s') (q2 : 0 < s ∧ p ≤ q) (q3 : 0 < s' ∧ p' ≤ q') {xs ys : List ℚ}
    (ex : axis p q s = some xs) (ey : axis p' q' s' = some ys) :
    ∃ argv, command a = some argv ∧ parse argv = some { expected a w with X := some (xs.map .num), Y := some (ys.map .num) } := by
  classical
  obtain ⟨src, h1, h2⟩ := run_what hw he o3
  have hpt : a.points = none := by
    rcases ha.receivers with ⟨g1, -, -⟩ | ⟨-, -, g3, -⟩ | ⟨g1, -⟩
    · exact g1
    · rw [hn] at g3; cases g3
    · exact g1
  have hrp : recvPart a = some ["-X".toList ++ joinSlash [p, q, s], "-Y".toList ++ joinSlash [p', q', s']] := by
    simp [recvPart, hpt, hn, hy, formatRange]
  refine ⟨line a src _, command_line ha h1 hrp, ?_⟩
  unfold parse line
  rw [run_G o1, run_O o2, h2, if_pos hq, run_Dr o4 ha.deprcv]
  refine (run_X (l := [p, q, s]) (by simp)).trans ?_
  rw [scanAxis_join p5.1 p5.2.1 p5.2.2, if_pos q2, ex, Option.map_some, Option.bind_some]
  refine (run_Y (l := [p', q', s']) (by simp)).trans ?_
  rw [scanAxis_join p6.1 p6.2.1 p6.2.2, if_pos q3, ey, Option.map_some, Option.bind_some]
  refine (run_N (b := a.zne) (rest := flag "-e" a.upar)).trans ?_
  rw [run_e]
  cases w with
  | faults p z => simp [finish, sete, setN, setX, setY, setDr, setWhat, setO, setG, setC, expected, withWhat, hn, hy, hpt]
  | point x s => cases s <;> simp [finish, sete, setN, setX, setY, setDr, setDs, setS, withSource, setWhat, setO, setG, expected, withWhat, Source.works, hn, hy, hpt]

/-- C125, ranges of any double numbers of at most fifteen digits with up to 2^50 steps: as in `C124_near`. -/
theorem C125_near (a : Args) (ha : Accepted a) {w : What} (hw : Wants a w) (he : w.exact) (hq : w.allowed) (o1 : a.stgrn ≠ []) (o2 : a.out ≠ [])
    (o3 : ∀ y ∈ a.depsrc, Plain y) (o4 : ∀ y ∈ a.deprcv, Plain y) {p q s p' q' s' : ℚ} (hn : a.norths = some [p, q, s]) (hy : a.easts = some [p', q', s'])
    (p5 : Plain p ∧ Plain q ∧ Plain s) (p6 : Plain p' ∧ Plain q' ∧ Plain s') (q2 : 0 < s ∧ p ≤ q) (q3 : 0 < s' ∧ p' ≤ q')
    (b1 : (q - p) / s ≤ 2 ^ 50) (b2 : (q' - p') / s' ≤ 2 ^ 50) :
    ∃ argv xs ys, command a = some argv ∧ parse argv = some { expected a w with X := some (xs.map .num), Y := some (ys.map .num) } ∧
      Near p q s xs ∧ Near p' q' s' ys ∧ xs ≠ [] ∧ ys ≠ [] := by
  obtain ⟨xs, ex, nx, hxs⟩ := axis_near q2.1 q2.2 b1
  obtain ⟨ys, ey, ny, hys⟩ := axis_near q3.1 q3.2 b2
  obtain ⟨argv, h1, h2⟩ := syn_grid a ha hw he hq o1 o2 o3 o4 hn hy p5 p6 q2 q3 ex ey
  exact ⟨argv, xs, ys, h1, h2, hxs, hys, nx, ny⟩

theorem plain_three : Plain (dbl (3 / 10)) := ⟨⟨3 / 10, ⟨3, -1, by norm_num, by norm_num⟩, rfl⟩, by decide +kernel⟩
theorem plain_tenth : Plain (dbl (1 / 10)) := ⟨⟨1 / 10, ⟨1, -1, by norm_num, by norm_num⟩, rfl⟩, by decide +kernel⟩
theorem plain_zero : Plain 0 := by exact_mod_cast plain_int 0 (by norm_num)
theorem plain_one : Plain 1 := by exact_mod_cast plain_int 1 (by norm_num)

/-- C125 does not hold for all ranges: from 0 to 0.3 in steps of 0.1 there are three coordinates, the last is 0.2. -/
theorem C125_violated_grid (a : Args) (ha : Accepted a) {w : What} (hw : Wants a w) (he : w.exact) (hq : w.allowed) (o1 : a.stgrn ≠ []) (o2 : a.out ≠ [])
    (o3 : ∀ y ∈ a.depsrc, Plain y) (o4 : ∀ y ∈ a.deprcv, Plain y) (hn : a.norths = some [0, dbl (3 / 10), dbl (1 / 10)]) (hy : a.easts = some [0, 1, 1]) :
    ∃ argv k, command a = some argv ∧ parse argv = some k ∧ k.X = some [.num 0, .num (dbl (1 / 10)), .num (dbl (2 / 10))] := by
  obtain ⟨argv, h1, h2⟩ := syn_grid a ha hw he hq o1 o2 o3 o4 hn hy ⟨plain_zero, plain_three, plain_tenth⟩ ⟨plain_zero, plain_one, plain_one⟩
    (by decide +kernel) (by norm_num) (xs := [0, dbl (1 / 10), dbl (2 / 10)]) (ys := [0, 1]) (by decide +kernel) (by decide +kernel)
  exact ⟨argv, _, h1, h2, rfl⟩

/-- Calls to which these apply: finite faults on a grid whose north coordinates are 0, 0.35, 0.1 and 0, 0.3, 0.1. -/
example : ∃ argv xs ys, command { sample with norths := some [0, dbl (35 / 100), dbl (1 / 10)] } = some argv ∧
    parse argv = some { expected { sample with norths := some [0, dbl (35 / 100), dbl (1 / 10)] } (.faults "slip.inp".toList (some (2, 1))) with
      X := some (xs.map .num), Y := some (ys.map .num) } ∧ Near 0 (dbl (35 / 100)) (dbl (1 / 10)) xs ∧ Near 0 1 1 ys ∧ xs ≠ [] ∧ ys ≠ [] := by
  have hw : Wants { sample with norths := some [0, dbl (35 / 100), dbl (1 / 10)] } (.faults "slip.inp".toList (some (2, 1))) :=
    ⟨rfl, rfl, rfl, rfl, ⟨rfl, rfl, rfl, rfl, rfl⟩, rfl⟩
  refine C125_near _ ⟨⟨_, hw⟩, by rintro y ⟨⟩; exact le_rfl, .inr (.inr ⟨rfl, _, _, rfl, rfl, rfl, rfl⟩)⟩ hw
    ⟨by decide, by decide, by rintro s ⟨⟩; exact ⟨small_two, small_one⟩⟩ (by rintro s ⟨⟩; exact ⟨by norm_num, by norm_num⟩) (by decide) (by decide)
    (by rintro y ⟨⟩) (by rintro y ⟨⟩; exact plain_zero) rfl rfl
    ⟨plain_zero, ⟨⟨35 / 100, ⟨35, -2, by norm_num, by norm_num⟩, rfl⟩, by decide +kernel⟩, plain_tenth⟩ ⟨plain_zero, plain_one, plain_one⟩
    (by decide +kernel) (by norm_num) (by decide +kernel) (by norm_num)

example : ∃ argv k, command { sample with norths := some [0, dbl (3 / 10), dbl (1 / 10)] } = some argv ∧ parse argv = some k ∧
    k.X = some [.num 0, .num (dbl (1 / 10)), .num (dbl (2 / 10))] := by
  have hw : Wants { sample with norths := some [0, dbl (3 / 10), dbl (1 / 10)] } (.faults "slip.inp".toList (some (2, 1))) :=
    ⟨rfl, rfl, rfl, rfl, ⟨rfl, rfl, rfl, rfl, rfl⟩, rfl⟩
  exact C125_violated_grid _ ⟨⟨_, hw⟩, by rintro y ⟨⟩; exact le_rfl, .inr (.inr ⟨rfl, _, _, rfl, rfl, rfl, rfl⟩)⟩ hw
    ⟨by decide, by decide, by rintro s ⟨⟩; exact ⟨small_two, small_one⟩⟩ (by rintro s ⟨⟩; exact ⟨by norm_num, by norm_num⟩) (by decide) (by decide)
    (by rintro y ⟨⟩) (by rintro y ⟨⟩; exact plain_zero) rfl rfl

end GRT.Python.StaticSyn
