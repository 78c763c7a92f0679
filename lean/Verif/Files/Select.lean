import Verif.Files.Options
import Mathlib.Data.List.Perm.Basic
import Mathlib.Data.List.Perm.Lattice

/-!
`resolve_syn_grn_path` (pygrt/C_extension/src/dynamic/grt_syn.c 574-732): the choice of a Green's function directory by
source depth, receiver depth and distance.  Header values are finite `float`s.
-/

namespace GRT.Files

open GRT.Num

/-- A subdirectory with a SAC file (grt_syn.c 622-638): path and the header values `evdp`, `stel`, `dist` of that file. -/
structure GreenDir where
  path : List Char
  evdp : ℚ
  stel : ℚ
  dist : ℚ
  deriving DecidableEq, Repr

/-- Receiver depth `-stel*1e-3`, grt_syn.c 641 and 707. -/
def GreenDir.rcv (g : GreenDir) : ℚ := dbl (-g.stel * dbl (1/1000))

/-- `match_tolerance`, grt_syn.c 600. -/
def tolerance : ℚ := dbl (1/100000)

/-- `fabs(a - b) <= tolerance`. -/
def close (a b : ℚ) : Bool := decide (|dbl (a - b)| ≤ tolerance)

/-- `append_unique_real` with `real_value_exists`, grt_syn.c 574-594. -/
def appendUnique (vs : List ℚ) (v : ℚ) : List ℚ := if vs.any fun w => close w v then vs else vs ++ [v]

/-- The distinct values of one header field, grt_syn.c 610-648. -/
def uniques (vs : List ℚ) : List ℚ := vs.foldl appendUnique []

/-- The value to look for: the option, or the only value there is, grt_syn.c 655-677. -/
def target (opt : Option ℚ) (us : List ℚ) : Option ℚ :=
  match opt with
  | some v => some v
  | none => match us with
    | [u] => some u
    | _ => none

/-- Second pass, grt_syn.c 689-731. -/
def pickDir (s r d : ℚ) (gs : List GreenDir) : Res (List Char) :=
  match gs.filter fun g => close g.evdp s && close g.rcv r && close g.dist d with
  | [g] => .ok g.path
  | _ => .err

/-- `resolve_syn_grn_path` for a root directory, grt_syn.c 598-732. -/
def resolve (s r d : Option ℚ) (gs : List GreenDir) : Res (List Char) :=
  if gs = [] then .err
  else
    match target s (uniques (gs.map (·.evdp))), target r (uniques (gs.map (·.rcv))), target d (uniques (gs.map (·.dist))) with
    | some s, some r, some d => pickDir s r d gs
    | _, _, _ => .err

/-! ### Tolerance -/

theorem tol_bounds : (99999999 : ℚ) / 10 ^ 13 < tolerance ∧ tolerance < 100000001 / 10 ^ 13 := by
  unfold tolerance; constructor <;> decide +kernel

theorem dbl_rel' (x : ℚ) : |dbl x - x| ≤ |x| / 2 ^ 53 := by
  have := rnd_err 2 53 (by norm_num) x
  refine this.trans (le_of_eq ?_)
  norm_num
  ring

/-- Values found close differ by at most 1e-5, up to 7 digits. -/
theorem close_sound (a b : ℚ) (h : close a b = true) : |a - b| < 1000001 / 10 ^ 11 := by
  simp only [close, decide_eq_true_eq] at h
  have h1 := dbl_rel' (a - b)
  have h2 := tol_bounds.2
  have h3 := abs_sub_abs_le_abs_sub (a - b) (dbl (a - b))
  rw [abs_sub_comm (a - b)] at h3
  have h4 : 0 ≤ |a - b| := abs_nonneg _
  norm_num at h1 h2 ⊢
  linarith

/-- Values that differ by 1e-5 or less, up to 7 digits, are found close. -/
theorem close_complete (a b : ℚ) (h : |a - b| ≤ 999999 / 10 ^ 11) : close a b = true := by
  simp only [close, decide_eq_true_eq]
  have h1 := dbl_rel' (a - b)
  have h2 := tol_bounds.1
  have h3 := abs_sub_abs_le_abs_sub (dbl (a - b)) (a - b)
  have h4 : 0 ≤ |a - b| := abs_nonneg _
  norm_num at *
  linarith

theorem close_self (a : ℚ) : close a a = true := close_complete a a (by rw [sub_self, abs_zero]; norm_num)

/-! ### Exactly one match -/

/-- C45: a directory is returned only if its header agrees with every given option, and no other directory does. -/
theorem C45_found (s r d : Option ℚ) (gs : List GreenDir) (p : List Char) (h : resolve s r d gs = .ok p) :
    ∃ g ∈ gs, g.path = p ∧ (∀ v ∈ s, |g.evdp - v| < 1000001 / 10 ^ 11) ∧ (∀ v ∈ r, |g.rcv - v| < 1000001 / 10 ^ 11) ∧
      (∀ v ∈ d, |g.dist - v| < 1000001 / 10 ^ 11) ∧
      ∀ sv ∈ s, ∀ rv ∈ r, ∀ dv ∈ d, (gs.filter fun g' => decide (|g'.evdp - sv| ≤ 999999 / 10 ^ 11 ∧ |g'.rcv - rv| ≤ 999999 / 10 ^ 11 ∧
        |g'.dist - dv| ≤ 999999 / 10 ^ 11)).length ≤ 1 := by
  unfold resolve at h
  split at h
  · cases h
  · split at h
    · rename_i s' r' d' hs hr hd
      unfold pickDir at h
      split at h
      · rename_i g hg
        cases h
        have hm : g ∈ gs.filter fun g => close g.evdp s' && close g.rcv r' && close g.dist d' := by rw [hg]; simp
        rw [List.mem_filter] at hm
        simp only [Bool.and_eq_true] at hm
        obtain ⟨hm1, ⟨c1, c2⟩, c3⟩ := hm
        have t : ∀ (o : Option ℚ) us x, target o us = some x → ∀ v ∈ o, v = x := by
          intro o us x h v hv
          cases hv
          simpa [target] using h
        refine ⟨g, hm1, rfl, ?_, ?_, ?_, ?_⟩
        · intro v hv; rw [t _ _ _ hs v hv]; exact close_sound _ _ c1
        · intro v hv; rw [t _ _ _ hr v hv]; exact close_sound _ _ c2
        · intro v hv; rw [t _ _ _ hd v hv]; exact close_sound _ _ c3
        · intro sv hsv rv hrv dv hdv
          rw [t _ _ _ hs sv hsv, t _ _ _ hr rv hrv, t _ _ _ hd dv hdv]
          have sub : (gs.filter fun g' => decide (|g'.evdp - s'| ≤ 999999 / 10 ^ 11 ∧ |g'.rcv - r'| ≤ 999999 / 10 ^ 11 ∧
              |g'.dist - d'| ≤ 999999 / 10 ^ 11)).Sublist (gs.filter fun g => close g.evdp s' && close g.rcv r' && close g.dist d') := by
            apply List.monotone_filter_right
            intro x hx
            simp only [decide_eq_true_eq] at hx
            simp [close_complete _ _ hx.1, close_complete _ _ hx.2.1, close_complete _ _ hx.2.2]
          have := sub.length_le
          rw [hg] at this
          simpa using this
      · cases h
    · cases h

/-- C45: a directory that agrees with all three options while no other comes near is returned. -/
theorem C45_finds (s r d : ℚ) (gs : List GreenDir) (g : GreenDir) (hnd : gs.Nodup) (hg : g ∈ gs)
    (h : |g.evdp - s| ≤ 999999 / 10 ^ 11 ∧ |g.rcv - r| ≤ 999999 / 10 ^ 11 ∧ |g.dist - d| ≤ 999999 / 10 ^ 11)
    (hu : ∀ g' ∈ gs, g' ≠ g → 1000001 / 10 ^ 11 ≤ |g'.evdp - s| ∨ 1000001 / 10 ^ 11 ≤ |g'.rcv - r| ∨ 1000001 / 10 ^ 11 ≤ |g'.dist - d|) :
    resolve (some s) (some r) (some d) gs = .ok g.path := by
  have e : gs.filter (fun g => close g.evdp s && close g.rcv r && close g.dist d) = gs.filter (· = g) := by
    apply List.filter_congr
    intro x hx
    by_cases hxg : x = g
    · subst hxg
      simp [close_complete _ _ h.1, close_complete _ _ h.2.1, close_complete _ _ h.2.2]
    · rw [decide_eq_false hxg]
      by_contra hc
      simp only [Bool.not_eq_false, Bool.and_eq_true] at hc
      obtain ⟨⟨c1, c2⟩, c3⟩ := hc
      have := close_sound _ _ c1; have := close_sound _ _ c2; have := close_sound _ _ c3
      rcases hu x hx hxg with h | h | h <;> linarith
  have e2 : gs.filter (· = g) = [g] := by
    have : gs.filter (· = g) = gs.filter (· == g) := by apply List.filter_congr; intro x _; rfl
    rw [this, List.filter_beq, List.count_eq_one_of_mem hnd hg]; rfl
  unfold resolve
  rw [if_neg (by rintro rfl; simp at hg)]
  simp only [target, pickDir, e, e2]

/-! ### Order of listing -/

theorem pickDir_perm (s r d : ℚ) {gs hs : List GreenDir} (h : gs.Perm hs) : pickDir s r d gs = pickDir s r d hs := by
  unfold pickDir
  have hp := h.filter fun g => close g.evdp s && close g.rcv r && close g.dist d
  generalize (gs.filter fun g => close g.evdp s && close g.rcv r && close g.dist d) = l at *
  generalize (hs.filter fun g => close g.evdp s && close g.rcv r && close g.dist d) = l' at *
  match l, l', hp with
  | [], l', hp => rw [List.nil_perm.1 hp]
  | [a], l', hp => rw [List.singleton_perm.1 hp]
  | a :: b :: t, [], hp => have := hp.length_eq; simp at this
  | a :: b :: t, [c], hp => have := hp.length_eq; simp at this
  | a :: b :: t, c :: e :: t', hp => rfl

/-- C45: with all three options given the listing order is irrelevant. -/
theorem C45_order_given (s r d : ℚ) (gs hs : List GreenDir) (h : gs.Perm hs) :
    resolve (some s) (some r) (some d) gs = resolve (some s) (some r) (some d) hs := by
  unfold resolve
  have : gs = [] ↔ hs = [] := by
    constructor
    · rintro rfl; exact List.nil_perm.1 h
    · rintro rfl; exact List.perm_nil.1 h
  by_cases hg : gs = []
  · rw [if_pos hg, if_pos (this.1 hg)]
  · rw [if_neg hg, if_neg (mt this.2 hg)]
    exact pickDir_perm s r d h

/-- Values that are either equal or clearly apart. -/
def Clear (vs : List ℚ) : Prop := ∀ a ∈ vs, ∀ b ∈ vs, a ≠ b → 1000001 / 10 ^ 11 ≤ |a - b|

theorem foldl_unique (vs : List ℚ) : ∀ us, (∀ a ∈ us ++ vs, ∀ b ∈ us ++ vs, close a b = true → a = b) → us.Nodup →
    (vs.foldl appendUnique us).Nodup ∧ ∀ x, x ∈ vs.foldl appendUnique us ↔ x ∈ us ∨ x ∈ vs := by
  induction vs with
  | nil => intro us _ h; simp [h]
  | cons v vs ih =>
    intro us hc hn
    rw [List.foldl_cons]
    by_cases hv : v ∈ us
    · have e : appendUnique us v = us := by
        unfold appendUnique
        rw [if_pos]
        rw [List.any_eq_true]
        exact ⟨v, hv, close_self v⟩
      rw [e]
      obtain ⟨i1, i2⟩ := ih us (fun a ha b hb => hc a (by simp at ha ⊢; tauto) b (by simp at hb ⊢; tauto)) hn
      refine ⟨i1, fun x => ?_⟩
      rw [i2 x]
      constructor
      · rintro (h | h) <;> simp [h]
      · rintro (h | h)
        · exact Or.inl h
        · rcases List.mem_cons.1 h with rfl | h
          · exact Or.inl hv
          · exact Or.inr h
    · have e : appendUnique us v = us ++ [v] := by
        unfold appendUnique
        rw [if_neg]
        rw [List.any_eq_true]
        rintro ⟨w, hw, hwv⟩
        have := hc w (by simp [hw]) v (by simp) hwv
        exact hv (this ▸ hw)
      rw [e]
      obtain ⟨i1, i2⟩ := ih (us ++ [v]) (fun a ha b hb => hc a (by simp at ha ⊢; tauto) b (by simp at hb ⊢; tauto))
        (by rw [List.nodup_append]; refine ⟨hn, by simp, ?_⟩; intro a ha b hb; simp at hb; subst hb; rintro rfl; exact hv ha)
      refine ⟨i1, fun x => ?_⟩
      rw [i2 x]
      simp only [List.mem_append, List.mem_cons, List.not_mem_nil, or_false]
      tauto

theorem target_perm (o : Option ℚ) (vs ws : List ℚ) (h : vs.Perm ws) (hc : Clear vs) :
    target o (uniques vs) = target o (uniques ws) := by
  have cl : ∀ l : List ℚ, l.Perm vs → ∀ a ∈ [] ++ l, ∀ b ∈ [] ++ l, close a b = true → a = b := by
    intro l hl a ha b hb hab
    by_contra hne
    have := hc a (hl.mem_iff.1 (by simpa using ha)) b (hl.mem_iff.1 (by simpa using hb)) hne
    have := close_sound a b hab
    linarith
  obtain ⟨a1, a2⟩ := foldl_unique vs [] (cl vs (List.Perm.refl _)) List.nodup_nil
  obtain ⟨b1, b2⟩ := foldl_unique ws [] (cl ws h.symm) List.nodup_nil
  have hp : (uniques vs).Perm (uniques ws) := by
    unfold uniques
    rw [List.perm_ext_iff_of_nodup a1 b1]
    intro x
    rw [a2, b2]
    simp [h.mem_iff]
  cases o with
  | some v => rfl
  | none =>
    unfold target
    dsimp only
    generalize uniques vs = l at *
    generalize uniques ws = l' at *
    match l, l', hp with
    | [], l', hp => rw [List.nil_perm.1 hp]
    | [a], l', hp => rw [List.singleton_perm.1 hp]
    | a :: b :: t, [], hp => have := hp.length_eq; simp at this
    | a :: b :: t, [c], hp => have := hp.length_eq; simp at this
    | a :: b :: t, c :: e :: t', hp => rfl

/-- C45: the listing order is irrelevant when the depths and distances in the directory are equal or clearly apart. -/
theorem C45_order_partial (s r d : Option ℚ) (gs hs : List GreenDir) (h : gs.Perm hs) (c1 : Clear (gs.map (·.evdp)))
    (c2 : Clear (gs.map (·.rcv))) (c3 : Clear (gs.map (·.dist))) : resolve s r d gs = resolve s r d hs := by
  unfold resolve
  have : gs = [] ↔ hs = [] := by
    constructor
    · rintro rfl; exact List.nil_perm.1 h
    · rintro rfl; exact List.perm_nil.1 h
  by_cases hg : gs = []
  · rw [if_pos hg, if_pos (this.1 hg)]
  · rw [if_neg hg, if_neg (mt this.2 hg)]
    rw [target_perm s _ _ (h.map (·.evdp)) c1, target_perm r _ _ (h.map (·.rcv)) c2, target_perm d _ _ (h.map (·.dist)) c3]
    split <;> first | exact pickDir_perm _ _ _ h | rfl

/-- Three source depths less than 1e-5 apart from the next. -/
def nearDepths (l : List ℕ) : List GreenDir :=
  l.map fun i => ⟨[Char.ofNat (97 + i)], flt (2 + 9 * i / 1000000), 0, 10 * (i + 1)⟩

/-- C45 does not hold without that condition: listed in one order the directory is found, in another order the source depth is
said to be ambiguous. -/
theorem C45_order_violated : resolve none none (some 10) (nearDepths [1, 0, 2]) = .ok ['a'] ∧
    resolve none none (some 10) (nearDepths [0, 1, 2]) = .err ∧ (nearDepths [1, 0, 2]).Perm (nearDepths [0, 1, 2]) := by
  refine ⟨by decide +kernel, by decide +kernel, ?_⟩
  exact (List.Perm.swap 0 1 [2]).map _

/-! ### Headers in single precision -/

/-- The directory written for given depths and distance in `double` (src/dynamic/grt_greenfn.c 1026-1027, src/dynamic/grnspec.c 109). -/
def written (path : List Char) (s r d : ℚ) : GreenDir := ⟨path, flt s, flt (dbl (-r * 1000)), flt d⟩

theorem flt_err (x : ℚ) (h : |x| < 256) : |flt x - x| ≤ 999999 / 10 ^ 11 := by
  have := rnd_err_abs 24 8 x (by norm_num; exact h)
  refine this.trans ?_
  norm_num

theorem rcv_err (path : List Char) (s r d : ℚ) (h0 : 0 ≤ r) (h : r < 250) : |(written path s r d).rcv - r| ≤ 999999 / 10 ^ 11 := by
  simp only [written, GreenDir.rcv]
  have e1 := dbl_rel' (-r * 1000)
  have a1 : |(-r * 1000 : ℚ)| = r * 1000 := by rw [abs_mul, abs_neg, abs_of_nonneg h0]; norm_num
  rw [a1] at e1
  generalize dbl (-r * 1000) = x at *
  have e2 := rnd_err_abs 24 18 x (by
    have := abs_le.1 e1
    rw [abs_lt]; norm_num at *; constructor <;> linarith)
  have e2 : |flt x - x| ≤ 2 ^ ((18 : ℤ) - 1 - 24) := e2
  generalize flt x = y at *
  have e3 : |dbl (1/1000) - (1/1000 : ℚ)| ≤ 1 / 10 ^ 18 := by decide +kernel
  have e3' : dbl (1/1000) ≤ 2 / 1000 := by decide +kernel
  have e3'' : 0 ≤ dbl (1/1000) := by decide +kernel
  generalize dbl (1/1000) = k at *
  have e4 := dbl_rel' (-y * k)
  have yb : |y| ≤ 262144 := by
    rw [abs_le] at *; norm_num at *; constructor <;> linarith
  have e5 : |-y * k - r| ≤ 79 / 10 ^ 7 := by
    have : -y * k - r = -(y - x) / 1000 - (x - -r * 1000) / 1000 - y * (k - 1/1000) := by ring
    rw [this]
    have t1 : |y * (k - 1/1000)| ≤ 262144 * (1 / 10 ^ 18) := by
      rw [abs_mul]; exact mul_le_mul yb e3 (abs_nonneg _) (by norm_num)
    rw [abs_le] at *
    norm_num at *
    constructor <;> linarith
  have e6 : |-y * k| ≤ 262144 * (2/1000) := by
    rw [abs_mul, abs_neg, abs_of_nonneg e3'']; exact mul_le_mul yb e3' e3'' (by norm_num)
  have e7 := abs_sub_le (dbl (-y * k)) (-y * k) r
  norm_num at *
  linarith

/-- C45: a directory is found again with the numbers it was computed for, below 250 km, when the others are clearly different. -/
theorem C45_lookup_partial (path : List Char) (s r d : ℚ) (hs : 0 ≤ s ∧ s < 250) (hr : 0 ≤ r ∧ r < 250) (hd : 0 ≤ d ∧ d < 250)
    (others : List GreenDir)
    (ho : ∀ g ∈ others, 1000001 / 10 ^ 11 ≤ |g.evdp - s| ∨ 1000001 / 10 ^ 11 ≤ |g.rcv - r| ∨ 1000001 / 10 ^ 11 ≤ |g.dist - d|)
    (hn : others.Nodup) (gs : List GreenDir) (hp : gs.Perm (written path s r d :: others)) :
    resolve (some s) (some r) (some d) gs = .ok path := by
  have m1 : |(written path s r d).evdp - s| ≤ 999999 / 10 ^ 11 := flt_err s (by rw [abs_of_nonneg hs.1]; linarith)
  have m2 := rcv_err path s r d hr.1 hr.2
  have m3 : |(written path s r d).dist - d| ≤ 999999 / 10 ^ 11 := flt_err d (by rw [abs_of_nonneg hd.1]; linarith)
  have hnot : written path s r d ∉ others := by
    intro h
    rcases ho _ h with h | h | h <;> norm_num at * <;> linarith
  rw [C45_order_given s r d _ _ hp]
  exact C45_finds s r d _ (written path s r d) (List.nodup_cons.2 ⟨hnot, hn⟩) (by simp) ⟨m1, m2, m3⟩ fun g hg hne => by
    rcases List.mem_cons.1 hg with h | h
    · exact absurd h hne
    · exact ho g h

/-- C45: at 300.3 km the directory computed for exactly that distance is not found again, since its header holds a `float`. -/
theorem C45_lookup_violated : resolve (some 2) (some 0) (some (dbl (3003/10))) [written ['a'] 2 0 (dbl (3003/10))] = .err := by
  decide +kernel

example : resolve (some 2) none none [written ['a'] 2 0 10, written ['b'] 5 0 10] = .ok ['a'] := by decide +kernel
example : resolve none none none [written ['a'] 2 0 10, written ['b'] 5 0 10] = .err := by decide +kernel
example : Clear ([written ['a'] 2 0 10, written ['b'] 5 0 10].map (·.evdp)) := by
  have e1 : flt 2 = 2 := by decide +kernel
  have e2 : flt 5 = 5 := by decide +kernel
  intro a ha b hb h
  simp only [written, List.map_cons, List.map_nil, e1, e2, List.mem_cons, List.not_mem_nil, or_false] at ha hb
  rcases ha with rfl | rfl <;> rcases hb with rfl | rfl <;> first | exact absurd rfl h | norm_num
example : resolve (some 2) (some 0) (some (dbl (101/10))) [written ['b'] 5 0 10, written ['a'] 2 0 (dbl (101/10))] = .ok ['a'] := by
  decide +kernel

end GRT.Files
