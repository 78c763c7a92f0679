import Verif.Modal.Golden
import Verif.Modal.Roots

/-!
The two searches for roots of the secular function of one layer at one frequency:
`grt_adaptive_step_secular_roots` (pygrt/C_extension/src/modal/root.c 247-416) and `grt_fixed_step_secular_roots` (root.c 423-524).
The secular functions of the layers are arbitrary functions of the velocity; their values are of an arbitrary type with arbitrary
comparisons, and the test of an interval (`check_fit`) is an arbitrary condition.  Velocities are real numbers.  The option that
prints the samples instead of searching (`print_sec`) is in Verif.Modal.Table.  The lists `acc`, `tried`, `found` of the state record what
happens, for the statements; no decision depends on them.
-/

namespace GRT.Modal

open GRT.Search

/-- `Interval`, root.c 130-133. -/
structure Itv (V : Type*) where
  x0 : ℝ
  x1 : ℝ
  x2 : ℝ
  f0 : V
  f1 : V
  f2 : V

/-- What a search of one frequency depends on (`EIGENV_INFO`, the model, the frequency). -/
structure Cfg (V : Type*) where
  /-- secular function, by layer -/
  F : ℕ → ℝ → V
  K : Cmp V
  /-- `check_fit`, root.c 208-242 -/
  fit : Itv V → Itv V → Itv V → Prop
  /-- `0.0` as a value of the secular function -/
  zero : V
  /-- `-999.0` as a value of the secular function -/
  fail : V
  cgap : ℝ
  vgap : ℝ
  nmode : ℕ
  /-- `Va`, `Vb` of the layers -/
  vel : List (ℝ × ℝ)
  /-- `uniform_dc` -/
  udc : ℝ

variable {V : Type*} (S : Cfg V)

/-- `grt_check_vel_in_mod`, src/common/model.c 544-551. -/
def Cfg.inMod (c : ℝ) : Prop := ∃ p ∈ S.vel, |c - p.1| < S.vgap ∨ |c - p.2| < S.vgap

/-- Left half, root.c 318-325, 334-335, 338. -/
noncomputable def Itv.left (F : ℝ → V) (it : Itv V) : Itv V :=
  ⟨it.x0, (it.x0 + it.x1) / 2, it.x1, it.f0, F ((it.x0 + it.x1) / 2), it.f1⟩

/-- Right half, root.c 326-333, 336-337, 339. -/
noncomputable def Itv.right (F : ℝ → V) (it : Itv V) : Itv V :=
  ⟨it.x1, (it.x1 + it.x2) / 2, it.x2, it.f1, F ((it.x1 + it.x2) / 2), it.f2⟩

/-- A new interval, root.c 273-278. -/
noncomputable def Itv.mk' (F : ℝ → V) (a b : ℝ) : Itv V := ⟨a, (a + b) / 2, b, F a, F ((a + b) / 2), F b⟩

/-- The intervals pushed at the start, root.c 266-280; the first list is the rest of `cpred`, from its end; the head of the
second is the top of the stack. -/
noncomputable def initStack (F : ℝ → V) (cb cgap : ℝ) : List ℝ → List (Itv V) → List (Itv V)
  | c2 :: cl :: t, st =>
    if |c2 - max cb cl| < cgap then initStack F cb cgap (cl :: t) st
    else if cb ≥ c2 then st
    else initStack F cb cgap (cl :: t) (Itv.mk' F (max cb cl) c2 :: st)
  | _, st => st

/-- `refdc`, root.c 306-311; `none`: an access outside `cpred`. -/
noncomputable def refdc (cpred : List ℝ) (cgap x0 : ℝ) : Option ℝ :=
  let i0 := findLessEqualClosest cpred x0
  let i := if i0 = (cpred.length : ℤ) - 1 then i0 - 1 else i0
  if i < 0 then none
  else (cpred[i.toNat]?).bind fun a => (cpred[i.toNat + 1]?).bind fun b => some (max ((b - a) * (1 / 1000)) cgap)

/-- Results of the tests for troughs: last velocity refined (`root_c`), list of roots, and the records. -/
structure Scan where
  rootc : ℝ
  eig : Eig ℝ
  tried : List (ℝ × ℝ)
  found : List (ℝ × ℕ)

/-- `|p1|` is no larger than its neighbours, root.c 364, 468. -/
def Cfg.trough (p0 p1 p2 : ℝ × V) : Prop := S.K.ge p0.2 p1.2 ∧ S.K.ge p2.2 p1.2

open Classical in
/-- A trough is refined and the root recorded, root.c 367-407; the same in root.c 471-513. -/
noncomputable def Cfg.refine (iref : ℕ) (a b : ℝ) (s : Scan) : Option Scan :=
  let r := (golden S.K (S.F iref) goldenRatio S.fail S.cgap a b).1.2
  if 0 < r ∧ ¬ S.inMod r then
    (addRoot S.cgap S.nmode iref r s.eig).map fun e => ⟨r, e, s.tried ++ [(a, b)], s.found ++ [(r, iref)]⟩
  else some ⟨r, s.eig, s.tried ++ [(a, b)], s.found⟩

open Classical in
/-- One pass of the loop of root.c 360-408, for three neighbouring samples. -/
noncomputable def Cfg.tryAt (iref : ℕ) (p0 p1 p2 : ℝ × V) (s : Scan) : Option Scan :=
  if p2.1 < 0 then some s
  else if p2.1 < s.rootc then some s
  else if S.trough p0 p1 p2 then S.refine iref p0.1 p2.1 s
  else some s

/-- The six samples that are tested when an interval is accepted, root.c 341-356. -/
def six (prev : ℝ × V) (L R : Itv V) : List (ℝ × V) :=
  [prev, (L.x0, L.f0), (L.x1, L.f1), (L.x2, L.f2), (R.x1, R.f1), (R.x2, R.f2)]

/-- The loop of root.c 360-408 over neighbouring samples. -/
noncomputable def Cfg.scan (iref : ℕ) : List (ℝ × V) → Scan → Option Scan
  | p0 :: p1 :: p2 :: t, s => (S.tryAt iref p0 p1 p2 s).bind (Cfg.scan iref (p1 :: p2 :: t))
  | _, s => some s

/-- State of the adaptive search, root.c 252-262, 294. -/
structure St (V : Type*) where
  stack : List (Itv V)
  lastdc : ℝ
  last : ℝ × V
  eig : Eig ℝ
  acc : List (List (ℝ × V))
  tried : List (ℝ × ℝ)
  found : List (ℝ × ℕ)

/-- Outcome of a run: not finished, access out of bounds, finished (`true`: by the early exit). -/
inductive Out (V : Type*) where
  | fuel
  | undef
  | ok (early : Bool) (s : St V)

open Classical in
/-- The early exit, root.c 314-315. -/
def Cfg.full (e : Eig ℝ) (x0 : ℝ) : Prop := e.c.length = S.nmode ∧ e.c ≠ [] ∧ ∃ r, e.c.getLast? = some r ∧ r ≤ x0

open Classical in
/-- Loop of the adaptive search, root.c 298-413; the first argument bounds the number of passes. -/
noncomputable def Cfg.run (iref : ℕ) (cpred : List ℝ) : ℕ → St V → Out V
  | 0, _ => .fuel
  | n + 1, s =>
    match s.stack with
    | [] => .ok false s
    | it :: stack =>
      match refdc cpred S.cgap it.x0 with
      | none => .undef
      | some ref =>
        if S.full s.eig it.x0 then .ok true s
        else
          let L := it.left (S.F iref)
          let R := it.right (S.F iref)
          let dc := it.x2 - it.x0
          if dc > ref ∧ (¬ S.fit it L R ∨ dc > 2 * s.lastdc) then Cfg.run iref cpred n { s with stack := L :: R :: stack }
          else
            match S.scan iref (six s.last L R) ⟨-1, s.eig, s.tried, s.found⟩ with
            | none => .undef
            | some q =>
              Cfg.run iref cpred n ⟨stack, dc, (R.x1, R.f1), q.eig, s.acc ++ [six s.last L R], q.tried, q.found⟩

/-- `grt_adaptive_step_secular_roots`, root.c 247-416: `cb` is the variable `cbegin` (root.c 262-265), `cpred[npred-1]` its last entry.
The middle sample of `last_Citv_right` is `(0, 0)` at first (root.c 256). -/
noncomputable def Cfg.adaptive (iref : ℕ) (cb : ℝ) (cpred : List ℝ) (n : ℕ) (e : Eig ℝ) (found : List (ℝ × ℕ)) : Out V :=
  S.run iref cpred n ⟨initStack (S.F iref) cb S.cgap cpred.reverse [], 9 * 10 ^ 30, (0, S.zero), e, [], [], found⟩

/-- State of the search with fixed step: the last two samples, all samples so far, list of roots and records. -/
structure FSt (V : Type*) where
  p0 : ℝ × V
  p1 : ℝ × V
  pts : List (ℝ × V)
  log : Scan

/-- Outcome of the search with fixed step. -/
inductive FOut (V : Type*) where
  | fuel
  | undef
  | ok (s : FSt V)

open Classical in
/-- Loop of the search with fixed step, root.c 456-521; the first argument bounds the number of passes. -/
noncomputable def Cfg.fixedRun (iref : ℕ) (cmax : ℝ) : ℕ → FSt V → FOut V
  | 0, _ => .fuel
  | n + 1, s =>
    let c2 := s.p1.1 + S.udc
    if c2 < cmax then
      let p2 := (c2, S.F iref c2)
      if S.trough s.p0 s.p1 p2 then
        match S.refine iref s.p0.1 c2 s.log with
        | none => .undef
        | some q => Cfg.fixedRun iref cmax n ⟨s.p1, p2, s.pts ++ [p2], q⟩
      else Cfg.fixedRun iref cmax n ⟨s.p1, p2, s.pts ++ [p2], s.log⟩
    else .ok s

/-- `grt_fixed_step_secular_roots`, root.c 423-524: `cmin` is `max(cbegin, cpred[0])`, `cmax` is `cpred[npred-1]`. -/
noncomputable def Cfg.fixed (iref : ℕ) (cmin cmax : ℝ) (n : ℕ) (e : Eig ℝ) (found : List (ℝ × ℕ)) : FOut V :=
  let p0 := (cmin, S.F iref cmin)
  let p1 := (cmin + S.udc, S.F iref (cmin + S.udc))
  S.fixedRun iref cmax n ⟨p0, p1, [p0, p1], ⟨0, e, [], found⟩⟩

/-! ### Specification -/

/-- A root as the user understands it: a positive velocity up to `hi`, not closer than `vgap` to a velocity of the model, at which the
secular function of the layer recorded with it is below the tolerance. -/
structure Cfg.Good (hi : ℝ) (p : ℝ × ℕ) : Prop where
  pos : 0 < p.1
  le : p.1 ≤ hi
  below : S.K.below (S.F p.2 p.1)
  free : ∀ v ∈ S.vel, S.vgap ≤ |p.1 - v.1| ∧ S.vgap ≤ |p.1 - v.2|

/-- Three neighbours in a list. -/
def Triple {β : Type*} (l : List β) (a b c : β) : Prop := ∃ l1 l2, l = l1 ++ a :: b :: c :: l2

/-- Two neighbours in a list. -/
def Adj {β : Type*} (l : List β) (a b : β) : Prop := ∃ l1 l2, l = l1 ++ a :: b :: l2

/-! ### The tests for troughs -/

/-- Velocity returned for a bracket. -/
noncomputable def Cfg.root (iref : ℕ) (a b : ℝ) : ℝ := (golden S.K (S.F iref) goldenRatio S.fail S.cgap a b).1.2

/-- What holds of the records: the list is what should be kept, new roots are roots of this layer, every bracket that was refined
to an admissible velocity has given a root. -/
structure Cfg.SInv (iref : ℕ) (hi : ℝ) (found0 : List (ℝ × ℕ)) (eig : Eig ℝ) (tried : List (ℝ × ℝ)) (found : List (ℝ × ℕ)) : Prop where
  kept : Kept S.cgap S.nmode found eig
  old : ∀ p ∈ found0, p ∈ found
  good : ∀ p ∈ found, p ∈ found0 ∨ (S.Good hi p ∧ p.2 = iref)
  tried : ∀ t ∈ tried, 0 < S.root iref t.1 t.2 → ¬ S.inMod (S.root iref t.1 t.2) → (S.root iref t.1 t.2, iref) ∈ found

theorem Cfg.root_spec (iref : ℕ) (a b : ℝ) (ha : 0 ≤ a) (hab : a ≤ b) :
    S.root iref a b ≤ b ∧ (0 < S.root iref a b → a ≤ S.root iref a b ∧ S.K.below (S.F iref (S.root iref a b))) := by
  rcases (C54_bracket S.K (S.F iref) S.fail S.cgap a b ha hab).1 with h | ⟨h1, h2, h3⟩
  · have : S.root iref a b = -1 := by unfold Cfg.root; rw [h]
    rw [this]
    exact ⟨by linarith, fun h => by linarith⟩
  · refine ⟨h1.2, fun _ => ⟨h1.1, ?_⟩⟩
    rw [h2] at h3
    exact h3

theorem Cfg.refine_spec (hg : 0 ≤ S.cgap) (iref : ℕ) (hi : ℝ) (found0 : List (ℝ × ℕ)) (a b : ℝ) (ha : 0 ≤ a) (hab : a ≤ b) (hb : b ≤ hi)
    (s : Scan) (h : S.SInv iref hi found0 s.eig s.tried s.found) :
    ∃ s', S.refine iref a b s = some s' ∧ S.SInv iref hi found0 s'.eig s'.tried s'.found ∧ (∀ t ∈ s.tried, t ∈ s'.tried) ∧
      (a, b) ∈ s'.tried ∧ s'.rootc ≤ b := by
  obtain ⟨r1, r2⟩ := S.root_spec iref a b ha hab
  have er : S.root iref a b = (golden S.K (S.F iref) goldenRatio S.fail S.cgap a b).1.2 := rfl
  unfold Cfg.refine
  dsimp only
  rw [← er]
  split
  · rename_i hc
    obtain ⟨e, he, hk⟩ := addRoot_kept S.cgap hg S.nmode iref (S.root iref a b) s.found s.eig h.kept
    rw [he]
    refine ⟨_, rfl, ⟨hk, fun p hp => List.mem_append_left _ (h.old p hp), ?_, ?_⟩, fun t ht => List.mem_append_left _ ht, by simp, r1⟩
    · intro p hp
      rcases List.mem_append.1 hp with q | q
      · exact h.good p q
      · simp only [List.mem_singleton] at q
        subst q
        refine Or.inr ⟨⟨hc.1, r1.trans hb, (r2 hc.1).2, ?_⟩, rfl⟩
        intro v hv
        constructor
        · exact not_lt.1 fun hlt => hc.2 ⟨v, hv, Or.inl hlt⟩
        · exact not_lt.1 fun hlt => hc.2 ⟨v, hv, Or.inr hlt⟩
    · intro t ht h0 hm
      rcases List.mem_append.1 ht with q | q
      · exact List.mem_append_left _ (h.tried t q h0 hm)
      · simp only [List.mem_singleton] at q
        subst q
        simp
  · rename_i hc
    refine ⟨_, rfl, ⟨h.kept, h.old, h.good, ?_⟩, fun t ht => List.mem_append_left _ ht, by simp, r1⟩
    intro t ht h0 hm
    rcases List.mem_append.1 ht with q | q
    · exact h.tried t q h0 hm
    · simp only [List.mem_singleton] at q
      subst q
      exact absurd ⟨h0, hm⟩ hc

theorem Cfg.tryAt_spec (hg : 0 ≤ S.cgap) (iref : ℕ) (hi : ℝ) (found0 : List (ℝ × ℕ)) (p0 p1 p2 : ℝ × V) (h0 : 0 ≤ p0.1) (h1 : p0.1 ≤ p1.1)
    (h2 : p1.1 ≤ p2.1) (h3 : p2.1 ≤ hi) (s : Scan) (h : S.SInv iref hi found0 s.eig s.tried s.found) (hr : s.rootc ≤ p1.1) :
    ∃ s', S.tryAt iref p0 p1 p2 s = some s' ∧ S.SInv iref hi found0 s'.eig s'.tried s'.found ∧ (∀ t ∈ s.tried, t ∈ s'.tried) ∧
      (S.trough p0 p1 p2 → (p0.1, p2.1) ∈ s'.tried) ∧ s'.rootc ≤ p2.1 := by
  unfold Cfg.tryAt
  rw [if_neg (by linarith : ¬ p2.1 < 0), if_neg (by linarith : ¬ p2.1 < s.rootc)]
  split
  · obtain ⟨s', e1, e2, e3, e4, e5⟩ := S.refine_spec hg iref hi found0 p0.1 p2.1 h0 (h1.trans h2) h3 s h
    exact ⟨s', e1, e2, e3, fun _ => e4, e5⟩
  · rename_i hn
    exact ⟨s, rfl, h, fun _ ht => ht, fun hc => absurd hc hn, hr.trans h2⟩

theorem Cfg.scan_spec (hg : 0 ≤ S.cgap) (iref : ℕ) (hi : ℝ) (found0 : List (ℝ × ℕ)) (l : List (ℝ × V)) :
    ∀ s : Scan, l.Pairwise (fun p q => p.1 ≤ q.1) → (∀ p ∈ l, 0 ≤ p.1 ∧ p.1 ≤ hi) → (∀ p, l[1]? = some p → s.rootc ≤ p.1) →
    S.SInv iref hi found0 s.eig s.tried s.found →
    ∃ s', S.scan iref l s = some s' ∧ S.SInv iref hi found0 s'.eig s'.tried s'.found ∧ (∀ t ∈ s.tried, t ∈ s'.tried) ∧
      ∀ a b c, Triple l a b c → S.trough a b c → (a.1, c.1) ∈ s'.tried := by
  induction l with
  | nil => intro s _ _ _ h; exact ⟨s, rfl, h, fun _ ht => ht, fun a b c ⟨l1, l2, e⟩ => by simp at e⟩
  | cons p0 l ih =>
    intro s hs hb hr h
    match l, ih, hs, hb, hr with
    | [], _, _, _, _ =>
      refine ⟨s, rfl, h, fun _ ht => ht, fun a b c ⟨l1, l2, e⟩ => ?_⟩
      have := congrArg List.length e; simp at this; omega
    | [p1], _, _, _, _ =>
      refine ⟨s, rfl, h, fun _ ht => ht, fun a b c ⟨l1, l2, e⟩ => ?_⟩
      have := congrArg List.length e; simp at this; omega
    | p1 :: p2 :: t, ih, hs, hb, hr =>
      obtain ⟨q1, q2⟩ := List.pairwise_cons.1 hs
      obtain ⟨q3, q4⟩ := List.pairwise_cons.1 q2
      obtain ⟨s1, e1, i1, m1, t1, r1⟩ := S.tryAt_spec hg iref hi found0 p0 p1 p2 (hb p0 (by simp)).1 (q1 p1 (by simp)) (q3 p2 (by simp))
        (hb p2 (by simp)).2 s h (hr p1 rfl)
      obtain ⟨s2, e2, i2, m2, t2⟩ := ih s1 q2 (fun p hp => hb p (List.mem_cons_of_mem _ hp))
        (fun p hp => by simp only [List.getElem?_cons_succ, List.getElem?_cons_zero, Option.some.injEq] at hp; exact hp ▸ r1) i1
      refine ⟨s2, by rw [Cfg.scan, e1, Option.bind_some, e2], i2, fun t ht => m2 t (m1 t ht), ?_⟩
      intro a b c ⟨l1, l2, e⟩ htr
      match l1, e with
      | [], e =>
        simp only [List.nil_append, List.cons.injEq] at e
        obtain ⟨rfl, rfl, rfl, rfl⟩ := e
        exact m2 _ (t1 htr)
      | x :: l1, e =>
        simp only [List.cons_append, List.cons.injEq] at e
        exact t2 a b c ⟨l1, l2, e.2⟩ htr

/-! ### The intervals of the start -/

/-- An interval as the search makes them: middle point in the middle, samples of the secular function, within `lo .. hi`. -/
structure Itv.Sound (F : ℝ → V) (lo hi : ℝ) (it : Itv V) : Prop where
  mid : it.x1 = (it.x0 + it.x2) / 2
  lt : it.x0 < it.x2
  lo : lo ≤ it.x0
  hi : it.x2 ≤ hi
  f0 : it.f0 = F it.x0
  f1 : it.f1 = F it.x1
  f2 : it.f2 = F it.x2

/-- `c` lies in a piece of the starting partition that was left out because it is shorter than the gap. -/
def Skipped (cpred : List ℝ) (cb cgap c : ℝ) : Prop := ∃ a b, Adj cpred a b ∧ max cb a ≤ c ∧ c ≤ b ∧ b - max cb a < cgap

theorem initStack_spec (F : ℝ → V) (cb cgap hi lo : ℝ) (hg : 0 < cgap) (cpred : List ℝ) :
    ∀ (rem pre : List ℝ) (st : List (Itv V)), cpred.reverse = pre ++ rem → rem.Pairwise (· ≥ ·) → (∀ x ∈ rem, lo ≤ x ∧ x ≤ hi) →
    (∀ it ∈ st, it.Sound F (max cb lo) hi) → st.Pairwise (fun a b => a.x2 ≤ b.x0) → (∀ it ∈ st, ∀ x, rem.head? = some x → x ≤ it.x0) →
    let st' := initStack F cb cgap rem st
    (∀ it ∈ st', it.Sound F (max cb lo) hi) ∧ st'.Pairwise (fun a b => a.x2 ≤ b.x0) ∧ (∀ it ∈ st, it ∈ st') ∧
      (∀ c x y, cb < c → rem.head? = some x → rem.getLast? = some y → c ≤ x → y ≤ c → y < x →
        (∃ it ∈ st', it.x0 ≤ c ∧ c ≤ it.x2) ∨ Skipped cpred cb cgap c) := by
  intro rem
  induction rem with
  | nil => intro pre st _ _ _ h1 h2 _; exact ⟨h1, h2, fun _ h => h, fun c x y _ h => by simp at h⟩
  | cons c2 t ih =>
    intro pre st hpre hs hb h1 h2 h3
    match t, ih, hpre, hs, hb, h3 with
    | [], _, _, _, _, _ =>
      refine ⟨h1, h2, fun _ h => h, fun c x y _ hx hy h4 h5 h6 => ?_⟩
      simp only [List.head?_cons, Option.some.injEq, List.getLast?_singleton] at hx hy
      subst hx; subst hy
      exact absurd h6 (lt_irrefl _)
    | cl :: t, ih, hpre, hs, hb, h3 =>
      obtain ⟨q1, q2⟩ := List.pairwise_cons.1 hs
      have hcl : cl ≤ c2 := q1 cl (by simp)
      have hpre' : cpred.reverse = (pre ++ [c2]) ++ cl :: t := by simp [hpre]
      have hadj : Adj cpred cl c2 := by
        refine ⟨t.reverse, pre.reverse, ?_⟩
        have := congrArg List.reverse hpre
        simpa using this
      have hb' : ∀ x ∈ cl :: t, lo ≤ x ∧ x ≤ hi := fun x hx => hb x (List.mem_cons_of_mem _ hx)
      have hlast : ∀ y, (c2 :: cl :: t).getLast? = some y → (cl :: t).getLast? = some y := fun y hy => by simpa using hy
      have hlo : ∀ y, (cl :: t).getLast? = some y → y ≤ cl := by
        intro y hy
        rcases List.mem_cons.1 (List.mem_of_getLast? hy) with q | q
        · exact q.le
        · exact (List.pairwise_cons.1 q2).1 y q
      -- points above `cl` are left to the present piece, the others to the rest
      unfold initStack
      dsimp only
      split
      · rename_i hsmall
        obtain ⟨i1, i2, i3, i4⟩ := ih _ st hpre' q2 hb' h1 h2 (fun it hit x hx => by
          simp only [List.head?_cons, Option.some.injEq] at hx
          exact hx ▸ hcl.trans (h3 it hit c2 rfl))
        refine ⟨i1, i2, i3, ?_⟩
        intro c x y hcb hx hy hcx hyc hyx
        simp only [List.head?_cons, Option.some.injEq] at hx
        subst hx
        by_cases hc : cl ≤ c
        · refine Or.inr ⟨cl, c2, hadj, max_le hcb.le hc, hcx, ?_⟩
          exact lt_of_le_of_lt (le_abs_self _) hsmall
        · exact i4 c cl y hcb rfl (hlast y hy) (not_le.1 hc).le hyc (lt_of_le_of_lt hyc (not_le.1 hc))
      · rename_i hbig
        split
        · rename_i hstop
          refine ⟨h1, h2, fun _ h => h, ?_⟩
          intro c x y hcb hx hy hcx hyc hyx
          simp only [List.head?_cons, Option.some.injEq] at hx
          subst hx
          exact absurd hcb (not_lt.2 (hcx.trans hstop))
        · rename_i hgo
          have hlt : max cb cl < c2 := by
            refine lt_of_le_of_ne (max_le (not_le.1 hgo).le hcl) fun e => hbig ?_
            rw [e, sub_self, abs_zero]; exact hg
          have hsound : (Itv.mk' F (max cb cl) c2).Sound F (max cb lo) hi :=
            ⟨rfl, hlt, max_le_max le_rfl (hb' cl (by simp)).1, (hb c2 (by simp)).2, rfl, rfl, rfl⟩
          obtain ⟨i1, i2, i3, i4⟩ := ih _ (Itv.mk' F (max cb cl) c2 :: st) hpre' q2 hb'
            (fun it hit => (List.mem_cons.1 hit).elim (fun e => e ▸ hsound) (h1 it))
            (List.pairwise_cons.2 ⟨fun it hit => h3 it hit c2 rfl, h2⟩)
            (fun it hit x hx => by
              simp only [List.head?_cons, Option.some.injEq] at hx
              subst hx
              rcases List.mem_cons.1 hit with rfl | q
              · exact le_max_right _ _
              · exact hcl.trans (h3 it q c2 rfl))
          refine ⟨i1, i2, fun it hit => i3 it (List.mem_cons_of_mem _ hit), ?_⟩
          intro c x y hcb hx hy hcx hyc hyx
          simp only [List.head?_cons, Option.some.injEq] at hx
          subst hx
          by_cases hc : cl ≤ c
          · exact Or.inl ⟨Itv.mk' F (max cb cl) c2, i3 _ (List.mem_cons_self), max_le hcb.le hc, hcx⟩
          · exact i4 c cl y hcb rfl (hlast y hy) (not_le.1 hc).le hyc (lt_of_le_of_lt hyc (not_le.1 hc))

theorem initStack_short (F : ℝ → V) (cb cgap : ℝ) (cpred : List ℝ) (h : initStack F cb cgap cpred.reverse [] ≠ []) : 2 ≤ cpred.length := by
  rw [← List.length_reverse]
  match cpred.reverse, h with
  | [], h => exact absurd rfl h
  | [x], h => exact absurd rfl h
  | x :: y :: t, _ => simp

theorem refdc_spec (cpred : List ℝ) (cgap x0 : ℝ) (h2 : 2 ≤ cpred.length) (hx : ∃ a ∈ cpred, a ≤ x0) :
    ∃ ref, refdc cpred cgap x0 = some ref ∧ cgap ≤ ref := by
  obtain ⟨a, ha, hax⟩ := hx
  rcases C04_findLessEqualClosest cpred x0 with ⟨-, hn⟩ | ⟨j, v, hj, hv, -, -⟩
  · exact absurd hax (not_le.2 (hn a ha))
  · have hjl : j < cpred.length := by
      by_contra hc
      rw [List.getElem?_eq_none (not_lt.1 hc)] at hv
      simp at hv
    unfold refdc
    simp only [hj]
    by_cases he : (j : ℤ) = (cpred.length : ℤ) - 1
    · rw [if_pos he, if_neg (by omega)]
      have e1 : ((j : ℤ) - 1).toNat = j - 1 := by omega
      rw [e1, List.getElem?_eq_getElem (by omega : j - 1 < cpred.length), List.getElem?_eq_getElem (by omega : j - 1 + 1 < cpred.length)]
      exact ⟨_, rfl, le_max_right _ _⟩
    · rw [if_neg he, if_neg (by omega)]
      rw [Int.toNat_natCast, List.getElem?_eq_getElem hjl, List.getElem?_eq_getElem (by omega : j + 1 < cpred.length)]
      exact ⟨_, rfl, le_max_right _ _⟩

/-! ### The loop of the adaptive search -/

/-- `c` lies in an accepted interval, given by the samples tested with it. -/
def InSix (l : List (ℝ × V)) (c : ℝ) : Prop := ∃ a b, l[1]? = some a ∧ l[5]? = some b ∧ a.1 ≤ c ∧ c ≤ b.1

/-- What is recorded for an accepted interval: the five samples of the interval and its halves, after a sample further left; the
interval is short or its samples pass the test. -/
def Cfg.Accepted (iref : ℕ) (cpred : List ℝ) (lo hi : ℝ) (l : List (ℝ × V)) : Prop :=
  ∃ prev it, it.Sound (S.F iref) lo hi ∧ l = six prev (it.left (S.F iref)) (it.right (S.F iref)) ∧ prev.1 ≤ it.x0 ∧
    ((∃ ref, refdc cpred S.cgap it.x0 = some ref ∧ it.x2 - it.x0 ≤ ref) ∨ S.fit it (it.left (S.F iref)) (it.right (S.F iref)))

structure Cfg.Inv (iref : ℕ) (cpred : List ℝ) (cb lo hi : ℝ) (found0 : List (ℝ × ℕ)) (s : St V) : Prop where
  recs : S.SInv iref hi found0 s.eig s.tried s.found
  itv : ∀ it ∈ s.stack, it.Sound (S.F iref) (max cb lo) hi
  ord : s.stack.Pairwise fun a b => a.x2 ≤ b.x0
  last0 : 0 ≤ s.last.1
  last : ∀ it ∈ s.stack, s.last.1 ≤ it.x0
  two : s.stack ≠ [] → 2 ≤ cpred.length
  troughs : ∀ l ∈ s.acc, ∀ a b c, Triple l a b c → S.trough a b c → (a.1, c.1) ∈ s.tried
  acc : ∀ l ∈ s.acc, S.Accepted iref cpred (max cb lo) hi l
  first : ∀ l, s.acc.head? = some l → l[0]? = some (0, S.zero)
  chain : ∀ l l', Adj s.acc l l' → l'[0]? = l[4]?
  chainLast : ∀ l, s.acc.getLast? = some l → l[4]? = some s.last
  none_yet : s.acc = [] → s.last = (0, S.zero)
  cover : ∀ c, cb < c → lo < c → c ≤ hi →
    (∃ l ∈ s.acc, InSix l c) ∨ (∃ it ∈ s.stack, it.x0 ≤ c ∧ c ≤ it.x2) ∨ Skipped cpred cb S.cgap c

/-- Bound for the number of passes that the intervals of the stack need. -/
inductive Sized (g : ℝ) : List (Itv V) → ℕ → Prop
  | nil : Sized g [] 0
  | cons (it : Itv V) (st : List (Itv V)) (k m : ℕ) (h : it.x2 - it.x0 ≤ g * 2 ^ k) (hst : Sized g st m) :
      Sized g (it :: st) (2 ^ (k + 1) - 1 + m)

theorem Sized.exists {g : ℝ} (hg : 0 < g) (st : List (Itv V)) : ∃ m, Sized g st m := by
  induction st with
  | nil => exact ⟨0, .nil⟩
  | cons it st ih =>
    obtain ⟨m, hm⟩ := ih
    obtain ⟨k, hk⟩ := pow_unbounded_of_one_lt ((it.x2 - it.x0) / g) (by norm_num : (1 : ℝ) < 2)
    exact ⟨_, .cons it st k m (by rw [div_lt_iff₀ hg] at hk; linarith) hm⟩

theorem adj_append {β : Type*} (l : List β) (x a b : β) (h : Adj (l ++ [x]) a b) : Adj l a b ∨ (l.getLast? = some a ∧ b = x) := by
  obtain ⟨l1, l2, e⟩ := h
  rcases List.eq_nil_or_concat l2 with rfl | ⟨l2, y, rfl⟩
  · right
    have e' : l ++ [x] = (l1 ++ [a]) ++ [b] := by simpa using e
    obtain ⟨e1, e2⟩ := List.append_inj' e' rfl
    simp only [List.cons.injEq, and_true] at e2
    exact ⟨by simp [e1], e2.symm⟩
  · left
    have e' : l ++ [x] = (l1 ++ a :: b :: l2) ++ [y] := by simpa using e
    obtain ⟨e1, -⟩ := List.append_inj' e' rfl
    exact ⟨l1, l2, e1⟩

theorem Cfg.run_spec (hg : 0 < S.cgap) (iref : ℕ) (cpred : List ℝ) (cb lo hi : ℝ) (hmin : lo ∈ cpred)
    (found0 : List (ℝ × ℕ)) :
    ∀ (n m : ℕ) (s : St V), m < n → Sized S.cgap s.stack m → S.Inv iref cpred cb lo hi found0 s →
    ∃ early s', S.run iref cpred n s = .ok early s' ∧ S.Inv iref cpred cb lo hi found0 s' ∧
      (early = false → s'.stack = []) ∧ (early = true → ∃ it st, s'.stack = it :: st ∧ S.full s'.eig it.x0) := by
  intro n
  induction n with
  | zero => intro m s h; omega
  | succ n ih =>
    intro m s hm hsz hI
    obtain ⟨stack, lastdc, last, eig, acc, tried, found⟩ := s
    dsimp only at hsz
    cases hsz with
    | nil => exact ⟨false, _, rfl, hI, fun _ => rfl, fun h => by simp at h⟩
    | cons it st k m hw hst =>
      have so : it.Sound (S.F iref) (max cb lo) hi := hI.itv it (by simp)
      obtain ⟨ref, href, hgr⟩ := refdc_spec cpred S.cgap it.x0 (hI.two (by simp)) ⟨lo, hmin, (le_max_right _ _).trans so.lo⟩
      unfold Cfg.run
      dsimp only
      rw [href]
      dsimp only
      have x01 : it.x0 < it.x1 := by rw [so.mid]; linarith [so.lt]
      have x12 : it.x1 < it.x2 := by rw [so.mid]; linarith [so.lt]
      have soL : (it.left (S.F iref)).Sound (S.F iref) (max cb lo) hi :=
        ⟨rfl, x01, so.lo, x12.le.trans so.hi, so.f0, rfl, so.f1⟩
      have soR : (it.right (S.F iref)).Sound (S.F iref) (max cb lo) hi :=
        ⟨rfl, x12, so.lo.trans x01.le, so.hi, so.f1, rfl, so.f2⟩
      obtain ⟨o1, o2⟩ := List.pairwise_cons.1 hI.ord
      split
      · rename_i hfull
        exact ⟨true, _, rfl, hI, fun h => by simp at h, fun _ => ⟨it, st, rfl, hfull⟩⟩
      split
      · rename_i hsplit
        have hk : k ≠ 0 := by
          rintro rfl
          rw [pow_zero, mul_one] at hw
          linarith [hsplit.1]
        obtain ⟨j, rfl⟩ := Nat.exists_eq_succ_of_ne_zero hk
        have e2 : S.cgap * 2 ^ (j + 1) = 2 * (S.cgap * 2 ^ j) := by ring
        rw [Nat.succ_eq_add_one, e2] at hw
        have szR : Sized S.cgap (it.right (S.F iref) :: st) (2 ^ (j + 1) - 1 + m) := .cons _ _ j m (by
          simp only [Itv.right]; rw [so.mid]; linarith) hst
        have szL : Sized S.cgap (it.left (S.F iref) :: it.right (S.F iref) :: st) (2 ^ (j + 1) - 1 + (2 ^ (j + 1) - 1 + m)) :=
          .cons _ _ j _ (by simp only [Itv.left]; rw [so.mid]; linarith) szR
        have hp : 1 ≤ 2 ^ (j + 1) := Nat.one_le_two_pow
        have hp2 : 2 ^ (j.succ + 1) = 2 * 2 ^ (j + 1) := by rw [Nat.succ_eq_add_one]; ring
        refine ih _ _ (by omega) szL ⟨hI.recs, ?_, ?_, hI.last0, ?_, fun _ => hI.two (by simp), hI.troughs, hI.acc, hI.first, hI.chain,
          hI.chainLast, hI.none_yet, ?_⟩
        · intro a ha
          simp only [List.mem_cons] at ha
          rcases ha with rfl | rfl | ha
          · exact soL
          · exact soR
          · exact hI.itv a (by simp [ha])
        · refine List.pairwise_cons.2 ⟨?_, List.pairwise_cons.2 ⟨o1, o2⟩⟩
          intro a ha
          rcases List.mem_cons.1 ha with rfl | ha
          · exact le_rfl
          · exact x12.le.trans (o1 a ha)
        · intro a ha
          have h0 := hI.last it (by simp)
          simp only [List.mem_cons] at ha
          rcases ha with rfl | rfl | ha
          · exact h0
          · exact h0.trans x01.le
          · exact hI.last a (by simp [ha])
        · intro c h1 h2 h3
          rcases hI.cover c h1 h2 h3 with q | ⟨a, ha, q⟩ | q
          · exact Or.inl q
          · refine Or.inr (Or.inl ?_)
            rcases List.mem_cons.1 ha with rfl | ha
            · rcases le_total c a.x1 with w | w
              · exact ⟨a.left (S.F iref), List.mem_cons_self, q.1, w⟩
              · exact ⟨a.right (S.F iref), List.mem_cons_of_mem _ (List.mem_cons_self), w, q.2⟩
            · exact ⟨a, by simp [ha], q⟩
          · exact Or.inr (Or.inr q)
      · rename_i hacc
        have h0 := hI.last it (by simp)
        have hl0 := hI.last0
        dsimp only at h0 hl0
        have hpts : (six last (it.left (S.F iref)) (it.right (S.F iref))).Pairwise fun p q => p.1 ≤ q.1 := by
          simp only [six, Itv.left, Itv.right, List.pairwise_cons, List.mem_cons, List.not_mem_nil, or_false, forall_eq_or_imp, forall_eq,
            false_implies, implies_true, and_true, List.Pairwise.nil]
          refine ⟨⟨?_, ?_, ?_, ?_, ?_⟩, ⟨?_, ?_, ?_, ?_⟩, ⟨?_, ?_, ?_⟩, ⟨?_, ?_⟩, ?_⟩ <;> linarith
        have hbd : ∀ p ∈ six last (it.left (S.F iref)) (it.right (S.F iref)), 0 ≤ p.1 ∧ p.1 ≤ hi := by
          have hx2 := so.hi
          simp only [six, Itv.left, Itv.right, List.mem_cons, List.not_mem_nil, or_false, forall_eq_or_imp, forall_eq]
          refine ⟨⟨?_, ?_⟩, ⟨?_, ?_⟩, ⟨?_, ?_⟩, ⟨?_, ?_⟩, ⟨?_, ?_⟩, ⟨?_, ?_⟩⟩ <;> linarith
        obtain ⟨q, hq, hrec, hmono, htr⟩ := S.scan_spec hg.le iref hi found0 _ ⟨-1, eig, tried, found⟩ hpts hbd
          (fun p hp => by
            simp only [six, List.getElem?_cons_succ, List.getElem?_cons_zero, Option.some.injEq] at hp
            subst hp
            show -1 ≤ it.x0
            linarith) hI.recs
        rw [hq]
        dsimp only
        have hp : 1 ≤ 2 ^ (k + 1) - 1 := by
          have : 2 ≤ 2 ^ (k + 1) := by rw [pow_succ]; have := Nat.one_le_two_pow (n := k); omega
          omega
        have hfit : it.x2 - it.x0 ≤ ref ∨ S.fit it (it.left (S.F iref)) (it.right (S.F iref)) := by
          by_contra hc
          push Not at hc
          exact hacc ⟨hc.1, Or.inl hc.2⟩
        refine ih m _ (by omega) hst ⟨hrec, fun a ha => hI.itv a (List.mem_cons_of_mem _ ha), o2, ?_, ?_, fun _ => hI.two (by simp), ?_, ?_, ?_, ?_, ?_,
          ?_, ?_⟩
        · show 0 ≤ (it.x1 + it.x2) / 2
          linarith
        · intro a ha
          have := o1 a ha
          show (it.x1 + it.x2) / 2 ≤ a.x0
          linarith
        · intro l hl a b c h1 h2
          rcases List.mem_append.1 hl with hl | hl
          · exact hmono _ (hI.troughs l hl a b c h1 h2)
          · simp only [List.mem_singleton] at hl
            subst hl
            exact htr a b c h1 h2
        · intro l hl
          rcases List.mem_append.1 hl with hl | hl
          · exact hI.acc l hl
          · simp only [List.mem_singleton] at hl
            refine ⟨last, it, so, hl, h0, ?_⟩
            rcases hfit with q | q
            · exact Or.inl ⟨ref, href, q⟩
            · exact Or.inr q
        · intro l hl
          rcases List.eq_nil_or_concat acc with rfl | ⟨acc', y, rfl⟩
          · simp only [List.nil_append, List.head?_cons, Option.some.injEq] at hl
            subst hl
            have := hI.none_yet rfl
            dsimp only at this
            rw [this]; rfl
          · refine hI.first l ?_
            dsimp only at hl ⊢
            rcases acc' with _ | ⟨z, acc'⟩ <;> simpa using hl
        · intro l l' hl
          rcases adj_append _ _ _ _ hl with hl | ⟨hl2, rfl⟩
          · exact hI.chain l l' hl
          · rw [hI.chainLast l hl2]; rfl
        · intro l hl
          simp only [List.getLast?_append, List.getLast?_singleton, Option.some_or, Option.some.injEq] at hl
          subst hl; rfl
        · intro h; simp at h
        · intro c h1 h2 h3
          rcases hI.cover c h1 h2 h3 with ⟨l, hl, q⟩ | ⟨a, ha, q⟩ | q
          · exact Or.inl ⟨l, List.mem_append_left _ hl, q⟩
          · rcases List.mem_cons.1 ha with rfl | ha
            · exact Or.inl ⟨six last (a.left (S.F iref)) (a.right (S.F iref)), List.mem_append_right _ (List.mem_singleton.2 rfl),
                (a.x0, a.f0), (a.x2, a.f2), rfl, rfl, q.1, q.2⟩
            · exact Or.inr (Or.inl ⟨a, ha, q⟩)
          · exact Or.inr (Or.inr q)

theorem Cfg.run_succ (iref : ℕ) (cpred : List ℝ) (n : ℕ) (s : St V) (early : Bool) (s' : St V) (h : S.run iref cpred n s = .ok early s') :
    S.run iref cpred (n + 1) s = .ok early s' := by
  induction n generalizing s with
  | zero => simp [Cfg.run] at h
  | succ n ih =>
    obtain ⟨stack, lastdc, last, eig, acc, tried, found⟩ := s
    rw [Cfg.run] at h ⊢
    dsimp only at h ⊢
    cases stack with
    | nil => exact h
    | cons it stack =>
      dsimp only at h ⊢
      cases hr : refdc cpred S.cgap it.x0 with
      | none => rw [hr] at h; simp at h
      | some ref =>
        rw [hr] at h
        dsimp only at h ⊢
        split_ifs at h ⊢ with h1 h2
        · exact h
        · exact ih _ h
        · cases hq : S.scan iref (six last (it.left (S.F iref)) (it.right (S.F iref))) ⟨-1, eig, tried, found⟩ with
          | none => rw [hq] at h; simp at h
          | some q => rw [hq] at h; exact ih _ h

theorem Cfg.run_le (iref : ℕ) (cpred : List ℝ) (m n : ℕ) (s : St V) (hmn : m ≤ n) (early : Bool) (s' : St V)
    (h : S.run iref cpred m s = .ok early s') : S.run iref cpred n s = .ok early s' := by
  induction n, hmn using Nat.le_induction with
  | base => exact h
  | succ n _ ih => exact S.run_succ iref cpred n s early s' ih

/-- C72, adaptive search.  For every secular function, comparison, test of intervals and increasing list of starting velocities, and
whatever has been found before: the search ends, without access outside an array; the list of roots is what should be kept of
all roots found; every new one is a root of the layer searched, no larger than the last starting velocity.  The sampled
intervals are short or pass the test; each is tested together with a sample of the one before; every trough among the
samples tested is refined, and gives a root if the refinement gives an admissible velocity.  Every velocity of the range is in
a sampled interval or in a piece of the starting partition shorter than the gap, unless the list is full with velocities
below it. -/
theorem C72_adaptive (hg : 0 < S.cgap) (iref : ℕ) (cb : ℝ) (cpred : List ℝ) (hs : cpred.Pairwise (· ≤ ·)) (lo hi : ℝ)
    (hlo : cpred.head? = some lo) (hhi : cpred.getLast? = some hi) (h0 : 0 ≤ cb) (e : Eig ℝ) (found : List (ℝ × ℕ)) (hk : Kept S.cgap S.nmode found e) :
    ∃ early s', (∃ N, ∀ n ≥ N, S.adaptive iref cb cpred n e found = .ok early s') ∧ Kept S.cgap S.nmode s'.found s'.eig ∧
      (∀ p ∈ found, p ∈ s'.found) ∧ (∀ p ∈ s'.found, p ∈ found ∨ (S.Good hi p ∧ p.2 = iref)) ∧
      (∀ l ∈ s'.acc, S.Accepted iref cpred (max cb lo) hi l) ∧
      (∀ l, s'.acc.head? = some l → l[0]? = some (0, S.zero)) ∧ (∀ l l', Adj s'.acc l l' → l'[0]? = l[4]?) ∧
      (∀ l ∈ s'.acc, ∀ a b c, Triple l a b c → S.K.ge a.2 b.2 ∧ S.K.ge c.2 b.2 →
        let r := (golden S.K (S.F iref) goldenRatio S.fail S.cgap a.1 c.1).1.2
        0 < r → (∀ v ∈ S.vel, S.vgap ≤ |r - v.1| ∧ S.vgap ≤ |r - v.2|) → (r, iref) ∈ s'.found) ∧
      ∀ c, cb < c → lo < c → c ≤ hi → (∃ l ∈ s'.acc, InSix l c) ∨ Skipped cpred cb S.cgap c ∨
        (early = true ∧ s'.eig.c.length = S.nmode ∧ ∀ r ∈ s'.eig.c, r ≤ c) := by
  have hlom : lo ∈ cpred := List.mem_of_mem_head? hlo
  have hle : ∀ x ∈ cpred, lo ≤ x ∧ x ≤ hi := by
    intro x hx
    constructor
    · match cpred, hlo, hs, hx with
      | a :: t, hlo, hs, hx =>
        simp only [List.head?_cons, Option.some.injEq] at hlo
        subst hlo
        rcases List.mem_cons.1 hx with q | q
        · exact q.ge
        · exact (List.pairwise_cons.1 hs).1 x q
    · obtain ⟨l', rfl⟩ := List.getLast?_eq_some_iff.1 hhi
      rcases List.mem_append.1 hx with q | q
      · exact (List.pairwise_append.1 hs).2.2 x q hi (by simp)
      · simp only [List.mem_singleton] at q; exact q.le
  have hrev : cpred.reverse.Pairwise (· ≥ ·) := List.pairwise_reverse.2 hs
  obtain ⟨i1, i2, -, i4⟩ := initStack_spec (S.F iref) cb S.cgap hi lo hg cpred cpred.reverse [] [] rfl hrev
    (fun x hx => hle x (List.mem_reverse.1 hx)) (by simp) (by simp) (by simp)
  have hI : S.Inv iref cpred cb lo hi found
      ⟨initStack (S.F iref) cb S.cgap cpred.reverse [], 9 * 10 ^ 30, (0, S.zero), e, [], [], found⟩ := by
    refine ⟨⟨hk, fun p hp => hp, fun p hp => Or.inl hp, by simp⟩, i1, i2, le_rfl, fun it hit => h0.trans ((le_max_left _ _).trans (i1 it hit).lo),
      initStack_short _ _ _ _, by simp, by simp, by simp, ?_, by simp, fun _ => rfl, ?_⟩
    · intro l l' ⟨l1, l2, e⟩; simp at e
    · intro c h1 h2 h3
      rcases i4 c hi lo h1 (by rw [List.head?_reverse]; exact hhi) (by rw [List.getLast?_reverse]; exact hlo) h3 h2.le (lt_of_lt_of_le h2 h3) with q | q
      · exact Or.inr (Or.inl q)
      · exact Or.inr (Or.inr q)
  obtain ⟨m, hm⟩ := Sized.exists hg (initStack (S.F iref) cb S.cgap cpred.reverse [])
  obtain ⟨early, s', r1, r2, r3, r4⟩ := S.run_spec hg iref cpred cb lo hi hlom found (m + 1) m _ (by omega) hm hI
  refine ⟨early, s', ⟨m + 1, fun n hn => S.run_le iref cpred _ _ _ hn _ _ r1⟩, r2.recs.kept, r2.recs.old, r2.recs.good, r2.acc, r2.first, r2.chain, ?_, ?_⟩
  · intro l hl a b c h1 h2 r h3 h4
    refine r2.recs.tried _ (r2.troughs l hl a b c h1 h2) h3 ?_
    rintro ⟨v, hv, h5 | h5⟩
    · exact absurd h5 (not_lt.2 (h4 v hv).1)
    · exact absurd h5 (not_lt.2 (h4 v hv).2)
  · intro c h1 h2 h3
    rcases r2.cover c h1 h2 h3 with q | ⟨it, hit, q⟩ | q
    · exact Or.inl q
    · cases early with
      | false => rw [r3 rfl] at hit; simp at hit
      | true =>
        obtain ⟨it0, st, e1, e2, -, r, e3, e4⟩ := r4 rfl
        refine Or.inr (Or.inr ⟨rfl, e2, fun x hx => ?_⟩)
        have hxr : x ≤ r := by
          have hsep := r2.recs.kept.sep
          obtain ⟨l', hl'⟩ := List.getLast?_eq_some_iff.1 e3
          rw [hl'] at hx hsep
          rcases List.mem_append.1 hx with w | w
          · have := (List.pairwise_append.1 hsep).2.2 x w r (by simp)
            linarith
          · simp only [List.mem_singleton] at w; exact w.le
        have hord := r2.ord
        rw [e1] at hit hord
        have : it0.x0 ≤ it.x0 := by
          rcases List.mem_cons.1 hit with rfl | w
          · exact le_rfl
          · have h6 := (List.pairwise_cons.1 hord).1 it w
            have h7 := (r2.itv it0 (by rw [e1]; simp)).lt
            linarith
        linarith [q.1]
    · exact Or.inr (Or.inl q)

/-! ### The search with fixed step -/

theorem triple_append {β : Type*} (l : List β) (x y z a b c : β) (h : Triple (l ++ [x, y, z]) a b c) :
    Triple (l ++ [x, y]) a b c ∨ (a = x ∧ b = y ∧ c = z) := by
  obtain ⟨l1, l2, e⟩ := h
  rcases List.eq_nil_or_concat l2 with rfl | ⟨l2, w, rfl⟩
  · right
    obtain ⟨-, e2⟩ := List.append_inj' e rfl
    simp only [List.cons.injEq, and_true] at e2
    exact ⟨e2.1.symm, e2.2.1.symm, e2.2.2.symm⟩
  · left
    have e' : (l ++ [x, y]) ++ [z] = (l1 ++ a :: b :: c :: l2) ++ [w] := by simpa using e
    obtain ⟨e1, -⟩ := List.append_inj' e' rfl
    exact ⟨l1, l2, e1⟩

structure Cfg.FInv (iref : ℕ) (cmin hi : ℝ) (found0 : List (ℝ × ℕ)) (s : FSt V) : Prop where
  recs : S.SInv iref hi found0 s.log.eig s.log.tried s.log.found
  shape : ∃ l, s.pts = l ++ [s.p0, s.p1]
  pts : ∀ (j : ℕ) p, s.pts[j]? = some p → p = (cmin + j * S.udc, S.F iref (cmin + j * S.udc))
  p0 : s.p0.1 = cmin + (s.pts.length - 2 : ℕ) * S.udc
  p1 : s.p1.1 = cmin + (s.pts.length - 1 : ℕ) * S.udc
  troughs : ∀ a b c, Triple s.pts a b c → S.trough a b c → (a.1, c.1) ∈ s.log.tried
  small : ∀ j : ℕ, 2 ≤ j → j < s.pts.length → cmin + j * S.udc < hi

theorem Cfg.fixedRun_spec (hg : 0 ≤ S.cgap) (hd : 0 < S.udc) (iref : ℕ) (cmin hi : ℝ) (h0 : 0 ≤ cmin) (found0 : List (ℝ × ℕ)) :
    ∀ (n : ℕ) (s : FSt V), S.FInv iref cmin hi found0 s → hi ≤ s.p1.1 + n * S.udc → ∀ N > n,
    ∃ s', S.fixedRun iref hi N s = .ok s' ∧ S.FInv iref cmin hi found0 s' ∧ hi ≤ s'.p1.1 + S.udc := by
  intro n
  induction n with
  | zero =>
    intro s hI hlt N hN
    obtain ⟨N, rfl⟩ := Nat.exists_eq_succ_of_ne_zero (by omega : N ≠ 0)
    refine ⟨s, ?_, hI, ?_⟩
    · rw [Cfg.fixedRun]
      dsimp only
      rw [if_neg]
      push_cast at hlt
      linarith
    · push_cast at hlt; linarith
  | succ n ih =>
    intro s hI hlt N hN
    obtain ⟨N, rfl⟩ := Nat.exists_eq_succ_of_ne_zero (by omega : N ≠ 0)
    rw [Cfg.fixedRun]
    dsimp only
    by_cases hc : s.p1.1 + S.udc < hi
    swap
    · rw [if_neg hc]
      exact ⟨s, rfl, hI, not_lt.1 hc⟩
    rw [if_pos hc]
    obtain ⟨l, hl⟩ := hI.shape
    have hlen : s.pts.length = l.length + 2 := by rw [hl]; simp
    have e0 := hI.p0
    have e1 := hI.p1
    rw [hlen] at e0 e1
    have e0' : s.p0.1 = cmin + (l.length : ℝ) * S.udc := by rw [e0]; simp
    have e1' : s.p1.1 = cmin + ((l.length : ℝ) + 1) * S.udc := by rw [e1]; push_cast; simp
    have hle : s.p0.1 ≤ s.p1.1 := by rw [e0', e1']; linarith
    have hp0 : 0 ≤ s.p0.1 := by rw [e0']; positivity
    have e2 : s.p1.1 + S.udc = cmin + ((l.length : ℝ) + 2) * S.udc := by rw [e1']; ring
    set p2 : ℝ × V := (s.p1.1 + S.udc, S.F iref (s.p1.1 + S.udc)) with hp2
    have next : ∀ q : Scan, S.SInv iref hi found0 q.eig q.tried q.found → (∀ t ∈ s.log.tried, t ∈ q.tried) →
        (S.trough s.p0 s.p1 p2 → (s.p0.1, p2.1) ∈ q.tried) → S.FInv iref cmin hi found0 ⟨s.p1, p2, s.pts ++ [p2], q⟩ := by
      intro q hq hm ht
      refine ⟨hq, ⟨l ++ [s.p0], by simp [hl]⟩, ?_, ?_, ?_, ?_, ?_⟩
      · intro j p hj
        dsimp only at hj
        rw [List.getElem?_append] at hj
        split at hj
        · exact hI.pts j p hj
        · rename_i hjl
          rcases Nat.eq_or_lt_of_le (not_lt.1 hjl) with w | w
          · rw [← w, Nat.sub_self] at hj
            simp only [List.getElem?_cons_zero, Option.some.injEq] at hj
            rw [← hj, ← w, hlen]
            push_cast
            rw [hp2, e2]
          · rw [List.getElem?_eq_none (by simp; omega)] at hj
            simp at hj
      · dsimp only
        rw [e1', List.length_append, hlen]
        push_cast [List.length_singleton]
        simp
      · dsimp only
        rw [hp2, List.length_append, hlen]
        dsimp only
        rw [e2]
        push_cast [List.length_singleton]
        simp
      · intro a b c habc htr
        dsimp only at habc
        rw [hl, show l ++ [s.p0, s.p1] ++ [p2] = l ++ [s.p0, s.p1, p2] by simp] at habc
        rcases triple_append _ _ _ _ _ _ _ habc with w | ⟨rfl, rfl, rfl⟩
        · rw [← hl] at w
          exact hm _ (hI.troughs a b c w htr)
        · exact ht htr
      · intro j h2 hj
        dsimp only at hj
        rw [List.length_append, List.length_singleton] at hj
        rcases Nat.lt_or_ge j s.pts.length with w | w
        · exact hI.small j h2 w
        · have : j = l.length + 2 := by omega
          rw [this]
          push_cast
          rw [← e2]
          exact hc
    have hlt' : hi ≤ p2.1 + n * S.udc := by
      rw [hp2]; push_cast at hlt; dsimp only; linarith
    split
    · rename_i htr
      obtain ⟨q, hq, hq2, hq3, hq4, -⟩ := S.refine_spec hg iref hi found0 s.p0.1 (s.p1.1 + S.udc) hp0 (by linarith) hc.le s.log hI.recs
      rw [hq]
      dsimp only
      exact ih _ (next q hq2 hq3 fun _ => hq4) hlt' N (by omega)
    · rename_i htr
      exact ih _ (next s.log hI.recs (fun _ h => h) fun h => absurd h htr) hlt' N (by omega)

/-- C72, search with fixed step: it ends, without access outside an array; the list of roots is what should be kept of all roots
found; every new one is a root of the layer searched; the samples are those at `cmin`, `cmin + dc`, ... below `cmax` (at least two); every
trough among three neighbouring samples is refined, and gives a root if the refinement gives an admissible velocity. -/
theorem C72_fixed (hg : 0 ≤ S.cgap) (hd : 0 < S.udc) (iref : ℕ) (cmin cmax : ℝ) (h0 : 0 ≤ cmin) (e : Eig ℝ) (found : List (ℝ × ℕ))
    (hk : Kept S.cgap S.nmode found e) :
    ∃ N, ∀ n ≥ N, ∃ s', S.fixed iref cmin cmax n e found = .ok s' ∧ Kept S.cgap S.nmode s'.log.found s'.log.eig ∧
      (∀ p ∈ found, p ∈ s'.log.found) ∧ (∀ p ∈ s'.log.found, p ∈ found ∨ (S.Good cmax p ∧ p.2 = iref)) ∧
      (∀ (j : ℕ) p, s'.pts[j]? = some p → p = (cmin + j * S.udc, S.F iref (cmin + j * S.udc))) ∧
      (∀ j : ℕ, 2 ≤ j → (j < s'.pts.length ↔ cmin + j * S.udc < cmax)) ∧
      ∀ a b c, Triple s'.pts a b c → S.K.ge a.2 b.2 ∧ S.K.ge c.2 b.2 →
        let r := (golden S.K (S.F iref) goldenRatio S.fail S.cgap a.1 c.1).1.2
        0 < r → (∀ v ∈ S.vel, S.vgap ≤ |r - v.1| ∧ S.vgap ≤ |r - v.2|) → (r, iref) ∈ s'.log.found := by
  obtain ⟨m, hm⟩ := exists_nat_ge ((cmax - (cmin + S.udc)) / S.udc)
  refine ⟨m + 1, fun n hn => ?_⟩
  have hI : S.FInv iref cmin cmax found ⟨(cmin, S.F iref cmin), (cmin + S.udc, S.F iref (cmin + S.udc)),
      [(cmin, S.F iref cmin), (cmin + S.udc, S.F iref (cmin + S.udc))], ⟨0, e, [], found⟩⟩ := by
    refine ⟨⟨hk, fun _ h => h, fun _ h => Or.inl h, by simp⟩, ⟨[], rfl⟩, ?_, by simp, by simp, ?_, ?_⟩
    · intro j p hj
      match j, hj with
      | 0, hj => simp only [List.getElem?_cons_zero, Option.some.injEq] at hj; simp [← hj]
      | 1, hj => simp only [List.getElem?_cons_succ, List.getElem?_cons_zero, Option.some.injEq] at hj; simp [← hj]
      | j + 2, hj => simp at hj
    · rintro a b c ⟨l1, l2, h⟩
      have := congrArg List.length h
      simp at this
      omega
    · intro j h1 h2
      simp at h2
      omega
  obtain ⟨s', r1, r2, r3⟩ := S.fixedRun_spec hg hd iref cmin cmax h0 found m _ hI (by
    rw [div_le_iff₀ hd] at hm; dsimp only; linarith) n (by omega)
  refine ⟨s', r1, r2.recs.kept, r2.recs.old, r2.recs.good, r2.pts, ?_, ?_⟩
  · intro j hj
    refine ⟨r2.small j hj, fun h => ?_⟩
    by_contra hc
    have hp := r2.p1
    obtain ⟨l, hl⟩ := r2.shape
    have hlen : s'.pts.length = l.length + 2 := by rw [hl]; simp
    rw [hlen] at hp hc
    have h5 : ((l.length + 2 - 1 : ℕ) : ℝ) + 1 ≤ j := by
      have : l.length + 2 - 1 + 1 ≤ j := by omega
      exact_mod_cast this
    have := mul_le_mul_of_nonneg_right h5 hd.le
    linarith
  · intro a b c h1 h2 r h3 h4
    refine r2.recs.tried _ (r2.troughs a b c h1 h2) h3 ?_
    rintro ⟨v, hv, h5 | h5⟩
    · exact absurd h5 (not_lt.2 (h4 v hv).1)
    · exact absurd h5 (not_lt.2 (h4 v hv).2)

end GRT.Modal
