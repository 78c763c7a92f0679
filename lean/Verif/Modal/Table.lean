import Verif.Modal.Search

/-!
C132: the table that `grt eigenv -X` prints.  The searches of Verif.Modal.Search run with `print_sec` set: the samples are printed and no
roots are looked for (pygrt/C_extension/src/modal/root.c 286-290, 314-315, 357-365, 450-454, 459-463).  Velocities are real numbers, the
secular functions are arbitrary; the comment line before the samples and the rounding of `%.16e` are left out.
-/

namespace GRT.Modal

variable {V : Type*} (S : Cfg V)

/-- Outcome of printing: not finished; a value read that was never set or an access outside an array; the rows printed. -/
inductive Printed (V : Type*) where
  | fuel
  | undef
  | ok (rows : List (ℝ × V))

/-- The four samples printed for an accepted interval, root.c 357-363. -/
def four (L R : Itv V) : List (ℝ × V) := [(L.x1, L.f1), (L.x2, L.f2), (R.x1, R.f1), (R.x2, R.f2)]

open Classical in
/-- Loop of the adaptive search when printing, root.c 298-364: the early exit is switched off (root.c 315), after the four samples the
loop is continued (root.c 364).  The first argument bounds the number of passes, the last holds the rows printed so far. -/
noncomputable def Cfg.printRun (iref : ℕ) (cpred : List ℝ) : ℕ → List (Itv V) → ℝ → List (ℝ × V) → Printed V
  | 0, _, _, _ => .fuel
  | _ + 1, [], _, rows => .ok rows
  | n + 1, it :: stack, lastdc, rows =>
    match refdc cpred S.cgap it.x0 with
    | none => .undef
    | some ref =>
      let L := it.left (S.F iref)
      let R := it.right (S.F iref)
      let dc := it.x2 - it.x0
      if dc > ref ∧ (¬ S.fit it L R ∨ dc > 2 * lastdc) then Cfg.printRun iref cpred n (L :: R :: stack) lastdc rows
      else Cfg.printRun iref cpred n stack dc (rows ++ four L R)

/-- The table of the adaptive search, root.c 247-416 with `print_sec`: the first row is the left end of `Citv` (root.c 289), which is the
interval pushed last, or was never set if there is none. -/
noncomputable def Cfg.table (iref : ℕ) (cb : ℝ) (cpred : List ℝ) (n : ℕ) : Printed V :=
  match initStack (S.F iref) cb S.cgap cpred.reverse [] with
  | [] => .undef
  | it :: st => S.printRun iref cpred n (it :: st) (9 * 10 ^ 30) [(it.x0, it.f0)]

/-- Loop of the search with fixed step when printing, root.c 456-463, 515-520: `c` is `c3[1]`. -/
noncomputable def Cfg.stepRun (iref : ℕ) (cmax : ℝ) : ℕ → ℝ → List (ℝ × V) → Printed V
  | 0, _, _ => .fuel
  | n + 1, c, rows =>
    if c + S.udc < cmax then Cfg.stepRun iref cmax n (c + S.udc) (rows ++ [(c + S.udc, S.F iref (c + S.udc))]) else .ok rows

/-- The table of the search with fixed step, root.c 423-524 with `print_sec`: two rows are printed before the loop (root.c 450-454). -/
noncomputable def Cfg.stepTable (iref : ℕ) (cmin cmax : ℝ) (n : ℕ) : Printed V :=
  S.stepRun iref cmax n (cmin + S.udc) [(cmin, S.F iref cmin), (cmin + S.udc, S.F iref (cmin + S.udc))]

/-- Specification: a table of `F` over `lo .. hi`: velocities increase strictly and stay in the range, beside each is the value there. -/
structure IsTable (F : ℝ → V) (lo hi : ℝ) (rows : List (ℝ × V)) : Prop where
  asc : rows.Pairwise fun p q => p.1 < q.1
  range : ∀ p ∈ rows, lo ≤ p.1 ∧ p.1 ≤ hi
  value : ∀ p ∈ rows, p.2 = F p.1

/-- What holds while printing. -/
structure Cfg.PInv (iref : ℕ) (lo hi : ℝ) (stack : List (Itv V)) (rows : List (ℝ × V)) : Prop where
  tab : IsTable (S.F iref) lo hi rows
  itv : ∀ it ∈ stack, it.Sound (S.F iref) lo hi
  ord : stack.Pairwise fun a b => a.x2 ≤ b.x0
  below : ∀ it ∈ stack, ∀ p ∈ rows, p.1 ≤ it.x0

theorem Cfg.printRun_spec (iref : ℕ) (cpred : List ℝ) (cb lo hi : ℝ) (hmin : lo ∈ cpred) (h2 : 2 ≤ cpred.length) :
    ∀ (n m : ℕ) (stack : List (Itv V)) (lastdc : ℝ) (rows : List (ℝ × V)), m < n → Sized S.cgap stack m →
    S.PInv iref (max cb lo) hi stack rows →
    ∃ new, (∀ k ≥ n, S.printRun iref cpred k stack lastdc rows = .ok (rows ++ new)) ∧ IsTable (S.F iref) (max cb lo) hi (rows ++ new) ∧
      (∀ it ∈ stack, ∃ p ∈ new, p.1 = it.x2) ∧ 4 * stack.length ≤ new.length := by
  intro n
  induction n with
  | zero => intro m stack lastdc rows h; omega
  | succ n ih =>
    intro m stack lastdc rows hm hsz hI
    cases hsz with
    | nil =>
      refine ⟨[], ?_, by simpa using hI.tab, by simp, by simp⟩
      intro k hk
      obtain ⟨k, rfl⟩ : ∃ j, k = j + 1 := ⟨k - 1, by omega⟩
      simp [Cfg.printRun]
    | cons it st j m hw hst =>
      have so : it.Sound (S.F iref) (max cb lo) hi := hI.itv it (by simp)
      obtain ⟨ref, href, hgr⟩ := refdc_spec cpred S.cgap it.x0 h2 ⟨lo, hmin, (le_max_right _ _).trans so.lo⟩
      have x01 : it.x0 < it.x1 := by rw [so.mid]; linarith [so.lt]
      have x12 : it.x1 < it.x2 := by rw [so.mid]; linarith [so.lt]
      have soL : (it.left (S.F iref)).Sound (S.F iref) (max cb lo) hi := ⟨rfl, x01, so.lo, x12.le.trans so.hi, so.f0, rfl, so.f1⟩
      have soR : (it.right (S.F iref)).Sound (S.F iref) (max cb lo) hi := ⟨rfl, x12, so.lo.trans x01.le, so.hi, so.f1, rfl, so.f2⟩
      obtain ⟨o1, o2⟩ := List.pairwise_cons.1 hI.ord
      by_cases hc : it.x2 - it.x0 > ref ∧
          (¬ S.fit it (it.left (S.F iref)) (it.right (S.F iref)) ∨ it.x2 - it.x0 > 2 * lastdc)
      · have hj : j ≠ 0 := by
          rintro rfl
          rw [pow_zero, mul_one] at hw
          linarith [hc.1]
        obtain ⟨j, rfl⟩ := Nat.exists_eq_succ_of_ne_zero hj
        have hp : (2 : ℝ) ^ (j + 1) = 2 * 2 ^ j := by rw [pow_succ]; ring
        have hw2 : it.x2 - it.x0 ≤ 2 * (S.cgap * 2 ^ j) := by
          have := hw; rw [Nat.succ_eq_add_one, hp] at this; linarith
        have hL : (it.left (S.F iref)).x2 - (it.left (S.F iref)).x0 ≤ S.cgap * 2 ^ j := by
          show it.x1 - it.x0 ≤ _
          rw [so.mid]; linarith
        have hR : (it.right (S.F iref)).x2 - (it.right (S.F iref)).x0 ≤ S.cgap * 2 ^ j := by
          show it.x2 - it.x1 ≤ _
          rw [so.mid]; linarith
        obtain ⟨new, e1, e2, e3, e4⟩ := ih (2 ^ (j + 1) - 1 + (2 ^ (j + 1) - 1 + m)) (it.left (S.F iref) :: it.right (S.F iref) :: st) lastdc rows
          (by
            have h3 : 2 ^ (j.succ + 1) = 2 * 2 ^ (j + 1) := by rw [Nat.succ_eq_add_one, pow_succ (2 : ℕ) (j + 1)]; ring
            have h4 : 1 ≤ 2 ^ (j + 1) := Nat.one_le_two_pow
            omega)
          (.cons _ _ j _ hL (.cons _ _ j _ hR hst))
          ⟨hI.tab, by
            intro a ha
            simp only [List.mem_cons] at ha
            rcases ha with rfl | rfl | ha
            · exact soL
            · exact soR
            · exact hI.itv a (by simp [ha]), by
            refine List.pairwise_cons.2 ⟨?_, List.pairwise_cons.2 ⟨o1, o2⟩⟩
            intro a ha
            rcases List.mem_cons.1 ha with rfl | ha
            · exact le_rfl
            · exact x12.le.trans (o1 a ha), by
            intro a ha p hp
            have hb := hI.below it (by simp) p hp
            simp only [List.mem_cons] at ha
            rcases ha with rfl | rfl | ha
            · exact hb
            · exact hb.trans x01.le
            · exact hI.below a (by simp [ha]) p hp⟩
        refine ⟨new, ?_, e2, ?_, ?_⟩
        · intro k hk
          obtain ⟨k, rfl⟩ : ∃ j, k = j + 1 := ⟨k - 1, by omega⟩
          rw [Cfg.printRun, href]
          dsimp only
          rw [if_pos hc]
          exact e1 k (by omega)
        · intro a ha
          rcases List.mem_cons.1 ha with rfl | ha
          · exact e3 (a.right (S.F iref)) (by simp)
          · exact e3 a (by simp [ha])
        · simp only [List.length_cons] at e4 ⊢; omega
      · have e5 : four (it.left (S.F iref)) (it.right (S.F iref)) = [((it.x0 + it.x1) / 2, S.F iref ((it.x0 + it.x1) / 2)),
            (it.x1, it.f1), ((it.x1 + it.x2) / 2, S.F iref ((it.x1 + it.x2) / 2)), (it.x2, it.f2)] := rfl
        have hlo := so.lo
        have hhi := so.hi
        have hfour : ∀ p ∈ four (it.left (S.F iref)) (it.right (S.F iref)), it.x0 < p.1 ∧ p.1 ≤ it.x2 ∧ p.2 = S.F iref p.1 := by
          rw [e5]
          intro p hp
          simp only [List.mem_cons, List.not_mem_nil, or_false] at hp
          rcases hp with rfl | rfl | rfl | rfl
          · exact ⟨by dsimp only; linarith, by dsimp only; linarith, rfl⟩
          · exact ⟨x01, x12.le, so.f1⟩
          · exact ⟨by dsimp only; linarith, by dsimp only; linarith, rfl⟩
          · exact ⟨so.lt, le_rfl, so.f2⟩
        have hasc : (four (it.left (S.F iref)) (it.right (S.F iref))).Pairwise fun p q => p.1 < q.1 := by
          rw [e5]
          simp only [List.pairwise_cons, List.mem_cons, List.not_mem_nil, or_false, forall_eq_or_imp, forall_eq, IsEmpty.forall_iff,
            implies_true, List.Pairwise.nil, and_true]
          refine ⟨⟨?_, ?_, ?_⟩, ⟨?_, ?_⟩, ?_⟩ <;> linarith
        obtain ⟨new, e1, e2, e3, e4⟩ := ih m st (it.x2 - it.x0) (rows ++ four (it.left (S.F iref)) (it.right (S.F iref)))
          (by have h4 : 1 ≤ 2 ^ (j + 1) := Nat.one_le_two_pow
              have h5 : 2 ≤ 2 ^ (j + 1) := by rw [pow_succ]; have : 1 ≤ 2 ^ j := Nat.one_le_two_pow; omega
              omega) hst
          ⟨⟨List.pairwise_append.2 ⟨hI.tab.asc, hasc, fun p hp q hq => lt_of_le_of_lt (hI.below it (by simp) p hp) (hfour q hq).1⟩,
            fun p hp => (List.mem_append.1 hp).elim (hI.tab.range p) fun q => ⟨hlo.trans (hfour p q).1.le, (hfour p q).2.1.trans hhi⟩,
            fun p hp => (List.mem_append.1 hp).elim (hI.tab.value p) fun q => (hfour p q).2.2⟩,
            fun a ha => hI.itv a (by simp [ha]), o2,
            fun a ha p hp => (List.mem_append.1 hp).elim (hI.below a (by simp [ha]) p) fun q => (hfour p q).2.1.trans (o1 a ha)⟩
        refine ⟨four (it.left (S.F iref)) (it.right (S.F iref)) ++ new, ?_, by simpa using e2, ?_, ?_⟩
        · intro k hk
          obtain ⟨k, rfl⟩ : ∃ j, k = j + 1 := ⟨k - 1, by omega⟩
          rw [Cfg.printRun, href]
          dsimp only
          rw [if_neg hc, e1 k (by omega), List.append_assoc]
        · intro a ha
          rcases List.mem_cons.1 ha with rfl | ha
          · exact ⟨(a.x2, a.f2), by rw [e5]; simp, rfl⟩
          · obtain ⟨p, hp, q⟩ := e3 a ha
            exact ⟨p, List.mem_append_right _ hp, q⟩
        · rw [List.length_append, e5]; simp only [List.length_cons, List.length_nil] at e4 ⊢; omega

/-- C132, adaptive search: if the starting velocities increase and one of their pieces above `cb` is as long as the gap, then printing ends,
and the rows are a table of the secular function over the range, whatever this function and the test of intervals; every velocity of the
range lies between the first and the last row, or in a piece shorter than the gap; there are at least five rows. -/
theorem C132_adaptive (hg : 0 < S.cgap) (iref : ℕ) (cb : ℝ) (cpred : List ℝ) (hs : cpred.Pairwise (· ≤ ·)) (lo hi : ℝ)
    (hlo : cpred.head? = some lo) (hhi : cpred.getLast? = some hi)
    (hp : ∃ c, cb < c ∧ lo < c ∧ c ≤ hi ∧ ¬ Skipped cpred cb S.cgap c) :
    ∃ first rest, (∃ N, ∀ n ≥ N, S.table iref cb cpred n = .ok (first :: rest)) ∧
      IsTable (S.F iref) (max cb lo) hi (first :: rest) ∧ 4 ≤ rest.length ∧
      ∀ c, cb < c → lo < c → c ≤ hi → (first.1 ≤ c ∧ ∃ p ∈ rest, c ≤ p.1) ∨ Skipped cpred cb S.cgap c := by
  have hlom : lo ∈ cpred := List.mem_of_mem_head? hlo
  have hle : ∀ x ∈ cpred, lo ≤ x ∧ x ≤ hi := by
    intro x hx
    constructor
    · match cpred, hlo, hs, hx with
      | a :: t, hlo, hs, hx =>
        simp only [List.head?_cons, Option.some.injEq] at hlo
        subst hlo
        rcases List.mem_cons.1 hx with q | q
        · exact q.ge
        · exact (List.pairwise_cons.1 hs).1 x q
    · obtain ⟨l', rfl⟩ := List.getLast?_eq_some_iff.1 hhi
      rcases List.mem_append.1 hx with q | q
      · exact (List.pairwise_append.1 hs).2.2 x q hi (by simp)
      · simp only [List.mem_singleton] at q; exact q.le
  obtain ⟨i1, i2, -, i4⟩ := initStack_spec (S.F iref) cb S.cgap hi lo hg cpred cpred.reverse [] [] rfl (List.pairwise_reverse.2 hs)
    (fun x hx => hle x (List.mem_reverse.1 hx)) (by simp) (by simp) (by simp)
  have hcov : ∀ c, cb < c → lo < c → c ≤ hi →
      (∃ it ∈ initStack (S.F iref) cb S.cgap cpred.reverse [], it.x0 ≤ c ∧ c ≤ it.x2) ∨ Skipped cpred cb S.cgap c := fun c h1 h2 h3 =>
    i4 c hi lo h1 (by rw [List.head?_reverse]; exact hhi) (by rw [List.getLast?_reverse]; exact hlo) h3 h2.le (lt_of_lt_of_le h2 h3)
  have hshort := initStack_short (S.F iref) cb S.cgap cpred
  unfold Cfg.table
  generalize initStack (S.F iref) cb S.cgap cpred.reverse [] = st at i1 i2 hcov hshort
  match st, i1, i2, hcov, hshort with
  | [], _, _, hcov, _ =>
    obtain ⟨c, h1, h2, h3, h4⟩ := hp
    rcases hcov c h1 h2 h3 with ⟨it, hit, -⟩ | q
    · simp at hit
    · exact absurd q h4
  | it :: st, i1, i2, hcov, hshort =>
    have so := i1 it (by simp)
    obtain ⟨m, hm⟩ := Sized.exists hg (it :: st)
    have hx0 : ∀ a ∈ it :: st, it.x0 ≤ a.x0 := by
      intro a ha
      rcases List.mem_cons.1 ha with rfl | ha
      · exact le_rfl
      · exact so.lt.le.trans ((List.pairwise_cons.1 i2).1 a ha)
    obtain ⟨new, e1, e2, e3, e4⟩ := S.printRun_spec iref cpred cb lo hi hlom (hshort (by simp)) (m + 1) m (it :: st) (9 * 10 ^ 30)
      [(it.x0, it.f0)] (by omega) hm
      ⟨⟨by simp, by simpa using ⟨so.lo.trans' le_rfl |> max_le_iff.1, so.lt.le.trans so.hi⟩, by simpa using so.f0⟩, i1, i2, by
        intro a ha p hp
        simp only [List.mem_singleton] at hp
        subst hp
        exact hx0 a ha⟩
    refine ⟨(it.x0, it.f0), new, ⟨m + 1, e1⟩, e2, by simp only [List.length_cons] at e4; omega, ?_⟩
    intro c h1 h2 h3
    rcases hcov c h1 h2 h3 with ⟨a, ha, q⟩ | q
    · obtain ⟨p, hp, hpx⟩ := e3 a ha
      exact Or.inl ⟨(hx0 a ha).trans q.1, p, hp, hpx ▸ q.2⟩
    · exact Or.inr q

/-- C132 fails where the range is narrow: if the range of the starting velocities is shorter than the gap (in particular if there is only
one, as for a range shorter than two times `vgap`), the first row is taken from an interval that was never set. -/
theorem C132_violated (iref : ℕ) (cb lo hi : ℝ) (hcb : cb ≤ lo) (h : hi - lo < S.cgap) (cpred : List ℝ) (hs : cpred.Pairwise (· ≤ ·))
    (hr : ∀ x ∈ cpred, lo ≤ x ∧ x ≤ hi) (n : ℕ) : S.table iref cb cpred n = .undef := by
  have key : ∀ l : List ℝ, l.Pairwise (· ≥ ·) → (∀ x ∈ l, lo ≤ x ∧ x ≤ hi) → initStack (S.F iref) cb S.cgap l [] = [] := by
    intro l
    induction l with
    | nil => intro _ _; rfl
    | cons c2 t ih =>
      intro h1 h2
      match t, ih, h1, h2 with
      | [], _, _, _ => rfl
      | cl :: t, ih, h1, h2 =>
        obtain ⟨q1, q2⟩ := List.pairwise_cons.1 h1
        have b2 := h2 c2 (by simp)
        have bl := h2 cl (by simp)
        have hle : cl ≤ c2 := q1 cl (by simp)
        rw [initStack, if_pos]
        · exact ih q2 fun x hx => h2 x (List.mem_cons_of_mem _ hx)
        · rw [max_eq_right (hcb.trans bl.1), abs_of_nonneg (by linarith)]
          linarith
  unfold Cfg.table
  rw [key _ (List.pairwise_reverse.2 hs) fun x hx => hr x (List.mem_reverse.1 hx)]

/-- C132, fixed step: printing ends; the velocities are `cmin`, `cmin + dc`, ..., beside each is the value there; from the third on they are
below `cmax`, and the next one would not be. -/
theorem C132_fixed (hd : 0 < S.udc) (iref : ℕ) (cmin cmax : ℝ) :
    ∃ k ≥ 2, (∃ N, ∀ n ≥ N, S.stepTable iref cmin cmax n =
      .ok ((List.range k).map fun i : ℕ => (cmin + i * S.udc, S.F iref (cmin + i * S.udc)))) ∧
      cmax ≤ cmin + k * S.udc ∧ ∀ i : ℕ, 2 ≤ i → i < k → cmin + i * S.udc < cmax := by
  have key : ∀ (d j : ℕ), cmax ≤ cmin + ((j + d : ℕ) : ℝ) * S.udc → 2 ≤ j → (∀ i : ℕ, 2 ≤ i → i < j → cmin + i * S.udc < cmax) →
      ∃ k ≥ 2, (∀ n ≥ d + 1, S.stepRun iref cmax n (cmin + ((j - 1 : ℕ) : ℝ) * S.udc)
        ((List.range j).map fun i : ℕ => (cmin + i * S.udc, S.F iref (cmin + i * S.udc))) =
        .ok ((List.range k).map fun i : ℕ => (cmin + i * S.udc, S.F iref (cmin + i * S.udc)))) ∧
        cmax ≤ cmin + k * S.udc ∧ ∀ i : ℕ, 2 ≤ i → i < k → cmin + i * S.udc < cmax := by
    intro d
    induction d with
    | zero =>
      intro j h1 h2 h3
      refine ⟨j, h2, ?_, by simpa using h1, h3⟩
      intro n hn
      obtain ⟨n, rfl⟩ : ∃ m, n = m + 1 := ⟨n - 1, by omega⟩
      rw [Cfg.stepRun, if_neg]
      have : ((j - 1 : ℕ) : ℝ) = j - 1 := by rw [Nat.cast_sub (by omega)]; simp
      rw [this]
      simp only [add_zero] at h1
      linarith
    | succ d ih =>
      intro j h1 h2 h3
      have hj : ((j - 1 : ℕ) : ℝ) = j - 1 := by rw [Nat.cast_sub (by omega)]; simp
      have hnext : cmin + ((j - 1 : ℕ) : ℝ) * S.udc + S.udc = cmin + (j : ℝ) * S.udc := by rw [hj]; ring
      by_cases hc : cmin + (j : ℝ) * S.udc < cmax
      · obtain ⟨k, hk, e1, e2, e3⟩ := ih (j + 1) (by rw [show j + 1 + d = j + (d + 1) by omega]; exact h1) (by omega) (fun i h4 h5 => by
          rcases Nat.lt_succ_iff_lt_or_eq.1 h5 with h6 | h6
          · exact h3 i h4 h6
          · rw [h6]; exact hc)
        refine ⟨k, hk, ?_, e2, e3⟩
        intro n hn
        obtain ⟨n, rfl⟩ : ∃ m, n = m + 1 := ⟨n - 1, by omega⟩
        rw [Cfg.stepRun, hnext, if_pos hc, ← e1 n (by omega), List.range_succ, List.map_append, Nat.add_sub_cancel]
        rfl
      · refine ⟨j, h2, ?_, not_lt.1 hc, h3⟩
        intro n hn
        obtain ⟨n, rfl⟩ : ∃ m, n = m + 1 := ⟨n - 1, by omega⟩
        rw [Cfg.stepRun, hnext, if_neg hc]
  obtain ⟨d, hd'⟩ := exists_nat_gt ((cmax - cmin) / S.udc)
  rw [div_lt_iff₀ hd] at hd'
  obtain ⟨k, hk, e1, e2, e3⟩ := key d 2 (by push_cast; nlinarith) le_rfl (fun i h1 h2 => by omega)
  refine ⟨k, hk, ⟨d + 1, fun n hn => ?_⟩, e2, e3⟩
  rw [← e1 n hn]
  unfold Cfg.stepTable
  simp [List.range_succ]

/-- C132 fails for a fixed step longer than the range: the second row lies above the range. -/
theorem C132_violated_step (iref : ℕ) (cmin cmax : ℝ) (hd : 0 < S.udc) (h : cmax < cmin + S.udc) (n : ℕ) (hn : 1 ≤ n) :
    ∃ rows, S.stepTable iref cmin cmax n = .ok rows ∧ ¬ IsTable (S.F iref) cmin cmax rows := by
  obtain ⟨n, rfl⟩ : ∃ m, n = m + 1 := ⟨n - 1, by omega⟩
  refine ⟨_, by rw [Cfg.stepTable, Cfg.stepRun, if_neg (by linarith)], fun ht => ?_⟩
  have := (ht.range (cmin + S.udc, S.F iref (cmin + S.udc)) (by simp)).2
  dsimp only at this
  linarith

/-- A case of `C132_adaptive`: from 1 to 3 km/s in two pieces. -/
noncomputable example (S : Cfg V) (h : S.cgap = 1 / 10) : ∃ first rest, (∃ N, ∀ n ≥ N, S.table 0 0 [1, 2, 3] n = .ok (first :: rest)) ∧
    IsTable (S.F 0) 1 3 (first :: rest) ∧ 4 ≤ rest.length := by
  obtain ⟨f, r, h1, h2, h3, -⟩ := C132_adaptive S (by rw [h]; norm_num) 0 0 [1, 2, 3] (by norm_num) 1 3 rfl rfl ⟨3, by norm_num, by norm_num, le_rfl, by
    rintro ⟨a, b, ⟨l1, l2, e⟩, q1, q2, q3⟩
    rw [h] at q3
    match l1, e with
    | [], e => simp at e; obtain ⟨rfl, rfl, -⟩ := e; norm_num at q2
    | [_], e => simp at e; obtain ⟨-, rfl, rfl, -⟩ := e; norm_num at q3
    | [_, _], e => simp at e
    | _ :: _ :: _ :: _, e => simp at e⟩
  exact ⟨f, r, h1, by simpa using h2, h3⟩

/-- A case of `C132_violated`: `-X1+c3/3.00000025` with the default gaps of 1e-7 (grt_eigenv.c 13, 15). -/
example (S : Cfg V) (h : S.cgap = 1 / 10 ^ 7) : S.table 0 0 [3 + 1 / 10 ^ 7, 3 + 1.5 / 10 ^ 7] 5 = .undef :=
  C132_violated S 0 0 (3 + 1 / 10 ^ 7) (3 + 1.5 / 10 ^ 7) (by norm_num) (by rw [h]; norm_num) _ (by norm_num)
    (by intro x hx; simp only [List.mem_cons, List.not_mem_nil, or_false] at hx; rcases hx with rfl | rfl <;> norm_num) 5

/-- A case of `C132_fixed`: 1 to 2 km/s with a step of 1/4. -/
example (S : Cfg V) (h : S.udc = 1 / 4) : ∃ N, ∀ n ≥ N, S.stepTable 0 1 2 n =
    .ok ((List.range 4).map fun i : ℕ => (1 + i * S.udc, S.F 0 (1 + i * S.udc))) := by
  obtain ⟨k, h1, h2, h3, h4⟩ := C132_fixed S (by rw [h]; norm_num) 0 1 2
  have hk : k = 4 := by
    rw [h] at h3 h4
    refine le_antisymm ?_ ?_
    · by_contra hc
      have := h4 4 (by omega) (by omega)
      norm_num at this
    · have : (4 : ℝ) ≤ k := by linarith
      exact_mod_cast this
  rw [← hk]; exact h2

/-- A case of `C132_violated_step`. -/
example (S : Cfg V) (h : S.udc = 1) : ∃ rows, S.stepTable 0 3 (7 / 2) 4 = .ok rows ∧ ¬ IsTable (S.F 0) 3 (7 / 2) rows :=
  C132_violated_step S 0 3 (7 / 2) (by rw [h]; norm_num) (by rw [h]; norm_num) 4 (by norm_num)

end GRT.Modal
