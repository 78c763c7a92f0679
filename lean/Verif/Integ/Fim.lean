import Verif.Integ.Quad
import Verif.Integ.Dwm

/-!
Filon integration with a fixed step, `grt_linear_filon_integ` (pygrt/C_extension/src/integral/fim.c 26-253) and
`grt_int_Pk_filon` (k_integ.c 153-191), in exact arithmetic. The kernel is a function of the wavenumber which may fail;
writing the log file is left out.
-/

open Real MeasureTheory Set

namespace GRT.Integ

/-- `bjmk` of `grt_int_Pk_filon`, k_integ.c 155-175. -/
noncomputable def filonB (k r : ℝ) (iscos uir : Bool) : Fin 3 → ℝ :=
  let phi0 := if iscos then 0 else -(π / 2)
  let kr := k * r
  if uir then fun m => (![-cos (kr - 3 * π / 4 - phi0), -cos (kr - 5 * π / 4 - phi0), -cos (kr - 7 * π / 4 - phi0)] : Fin 3 → ℝ) m * (√k * k)
  else fun m => (![cos (kr - π / 4 - phi0), cos (kr - 3 * π / 4 - phi0), cos (kr - 5 * π / 4 - phi0)] : Fin 3 → ℝ) m * √k

/-- `grt_int_Pk_filon`, k_integ.c 153-191. -/
noncomputable def intPkFilon (k r : ℝ) (iscos : Bool) (Q : Chnl) (uir : Bool) (old : Grid) : Grid := fun i =>
  let b := filonB k r iscos uir
  match order i with
  | 0 => ![-Q i 0 * b 1, old i 1, Q i 1 * b 0, old i 3]
  | 1 => ![Q i 0 * b 0, 0, Q i 1 * b 1, -Q i 2 * b 0]
  | 2 => ![Q i 0 * b 1, 0, Q i 1 * b 2, -Q i 2 * b 1]

/-- What `grt_linear_filon_integ` is called with, fim.c 26-28. -/
structure Fim (nr : ℕ) where
  k0 : ℝ
  dk0 : ℝ
  dk : ℝ
  kmax : ℝ
  keps : ℝ
  rs : Fin nr → ℝ
  dcm : Bool
  upar : Bool
  Qm : Chnl
  Qzm : Chnl
  /-- Kernel and its vertical derivative; `none` is `GRT_INVERSE_FAILURE`. -/
  ker : ℝ → Option (Chnl × Chnl)

variable {nr : ℕ} (D : Fim nr)

/-- Kernel after `grt_int_dcm_revision`, fim.c 60-62, 173-175. -/
noncomputable def Fim.rev (k : ℝ) (Q : Chnl × Chnl) : Chnl × Chnl :=
  if D.dcm then (revision D.kmax k Q.1 D.Qm, revisionZ D.kmax k Q.2 D.Qzm) else Q

/-- The terms of one wavenumber at distance `r`, fim.c 75-78, 104, 113 (cosine) and 184-187, 203-206, 215-218 (both). -/
noncomputable def Fim.term (k : ℝ) (Q : Chnl × Chnl) (r : ℝ) (iscos : Bool) : Sums :=
  { u := intPkFilon k r iscos Q.1 false 0
    z := if D.upar then intPkFilon k r iscos Q.2 false 0 else 0
    r := if D.upar then intPkFilon k r iscos Q.1 true 0 else 0 }

open Classical in
/-- One wavenumber, fim.c 68-122. -/
noncomputable def Fim.step (k : ℝ) (Q : Chnl × Chnl) (st : DwmState nr) : DwmState nr :=
  let t := fun ir => D.term k Q (D.rs ir) true
  { sums := fun ir => if st.done ir ∨ zeroDist (D.rs ir) then st.sums ir else Dwm.add (t ir) (st.sums ir)
    done := fun ir => if st.done ir ∨ zeroDist (D.rs ir) then st.done ir else
      0 < D.keps ∧ converged D.keps (t ir).u ((st.sums ir).u + (t ir).u) }

/-- `iendk`, fim.c 68-97. -/
def Fim.allDone (st' : DwmState nr) : Prop := ∀ ir, zeroDist (D.rs ir) ∨ st'.done ir

open Classical in
/-- Loop over wavenumbers, fim.c 47-127. -/
noncomputable def Fim.loop : ℕ → ℝ → DwmState nr → List ℝ → DwmOut nr
  | 0, k, st, log => ⟨k, st, log, false⟩
  | n + 1, k, st, log =>
    let k' := k + D.dk
    match D.ker k' with
    | none => ⟨k', st, k' :: log, true⟩
    | some Q =>
      let st' := D.step k' (D.rev k' Q) st
      if D.allDone st' then ⟨k', st', k' :: log, false⟩ else Fim.loop n k' st' (k' :: log)

/-- Number of turns of the loop, `nk`, fim.c 44. -/
noncomputable def Fim.nk : ℕ := ⌊(D.kmax - D.k0) / D.dk⌋₊ + 1

/-- Remainder from one end, fim.c 190-195, 209, 221; `sgn` is 1 at the first and -1 at the last point. -/
noncomputable def filonEnd (r dk : ℝ) (sgn : ℝ) (gc gs : ℂ) : ℂ :=
  let tmp := 1 / (r * r * dk)
  let tmpc := tmp * (1 - cos (dk * r))
  let tmps := sgn * tmp * sin (dk * r);
  -tmpc * gc + tmps * gs - sgn * gs / r

/-- Factor of the accumulated terms, fim.c 135. -/
noncomputable def filonMain (r dk : ℝ) : ℝ := 2 * (1 - cos (dk * r)) / (r * r * dk)

/-- Total of one entry, fim.c 133-145, 150-226: `s` the accumulated cosine terms, `c1`, `s1` the first and `cN`, `sN` the last
point. -/
noncomputable def filonTotal (r dk : ℝ) (s c1 s1 cN sN : ℂ) : ℂ :=
  s * filonMain r dk + filonEnd r dk 1 c1 s1 + filonEnd r dk (-1) cN sN

open Classical in
/-- `grt_linear_filon_integ`, fim.c 26-253, from sums `s`: the returned wavenumber, the sums, the wavenumbers at which the kernel was
evaluated (latest first) and whether it failed. -/
noncomputable def Fim.run (s : Fin nr → Sums) : DwmOut nr :=
  if D.k0 + D.dk0 ≥ D.kmax then ⟨D.k0, ⟨s, fun _ => False⟩, [], false⟩
  else
    let o := D.loop D.nk D.k0 ⟨fun _ => ⟨0, 0, 0⟩, fun _ => False⟩ []
    if o.failed then ⟨o.k, ⟨s, o.st.done⟩, o.log, true⟩
    else
      let ka := D.k0 + D.dk
      match D.ker ka with
      | none => ⟨o.k, ⟨s, o.st.done⟩, ka :: o.log, true⟩
      | some Qa =>
        match D.ker o.k with
        | none => ⟨o.k, ⟨s, o.st.done⟩, o.k :: ka :: o.log, true⟩
        | some Qb =>
          let add := fun ir =>
            let r := D.rs ir
            let f := fun g : Sums → Grid => g (s ir) + fun i v =>
              filonTotal r D.dk (g (o.st.sums ir) i v)
                (g (D.term ka (D.rev ka Qa) r true) i v) (g (D.term ka (D.rev ka Qa) r false) i v)
                (g (D.term o.k (D.rev o.k Qb) r true) i v) (g (D.term o.k (D.rev o.k Qb) r false) i v) *
              ((√(2 / (π * r)) / D.dk0 : ℝ) : ℂ)
            if zeroDist r then s ir else
              { u := f Sums.u
                z := if D.upar then f Sums.z else (s ir).z
                r := if D.upar then f Sums.r else (s ir).r }
          ⟨o.k, ⟨add, o.st.done⟩, o.k :: ka :: o.log, false⟩

/-! ### Specification -/

/-- A function that takes the values `f 1, …, f n` at `a + d, …, a + n d` and is affine in between. -/
def Broken (L : ℝ → ℂ) (f : ℕ → ℂ) (a d : ℝ) (n : ℕ) : Prop :=
  (∀ j, 1 ≤ j → j ≤ n → L (a + j * d) = f j) ∧
  ∀ j : ℕ, 1 ≤ j → j < n → ∃ p q : ℂ, ∀ k ∈ Icc (a + j * d) (a + (j + 1) * d), L k = p + q * k

/-- The amplitude that is interpolated: that of the far-field integral, times `-k` in the derivative with respect to distance. -/
noncomputable def ampD (i : Fin 6) (v : Fin 4) (uir : Bool) (k : ℝ) (Q : Chnl) : ℂ := if uir then -k * amp i v k Q else amp i v k Q

/-- Order of the far-field form that goes with it (the derivative of order `n` has order `n + 1`, `farD_eq`). -/
def fordD (i : Fin 6) (v : Fin 4) (uir : Bool) : ℕ := ford i v + if uir then 1 else 0

/-- The `j`-th point. -/
noncomputable def Fim.pt (j : ℕ) : ℝ := D.k0 + j * D.dk

/-- Kernel at the `j`-th point (zero where it fails), with its asymptotic part removed if that is done. -/
noncomputable def Fim.val (j : ℕ) : Chnl × Chnl := D.rev (D.pt j) ((D.ker (D.pt j)).getD (0, 0))

/-- The three results of a distance: displacement and its derivatives with respect to depth and distance. -/
inductive Part | u | z | r

/-- The sums of one result. -/
def Part.sums : Part → Sums → Grid
  | .u => Sums.u
  | .z => Sums.z
  | .r => Sums.r

/-- The kernel that one result is made from. -/
def Part.ker : Part → Chnl × Chnl → Chnl
  | .z => Prod.snd
  | _ => Prod.fst

/-- Whether the integrand is to be differentiated with respect to distance. -/
def Part.uir : Part → Bool
  | .r => true
  | _ => false

/-- The sine that goes with `far`. -/
noncomputable def farSin (n : ℕ) (x : ℝ) : ℝ := sin (x - (2 * n + 1) * π / 4)

/-- Amplitude and order together give the far-field integrand. -/
theorem ampD_far (i : Fin 6) (v : Fin 4) (uir : Bool) (k r : ℝ) (Q : Chnl) :
    ampD i v uir k Q * (far (fordD i v uir) (k * r) : ℝ) = amp i v k Q * (farD (ford i v) uir k r : ℝ) := by
  rw [farD_eq]
  cases uir <;> simp [ampD, fordD]
  ring

/-! ### The terms -/

theorem filonB_cos (k r : ℝ) (uir : Bool) (n : Fin 3) : filonB k r true uir n = √k * if uir then -k * far (n + 1) (k * r) else far n (k * r) := by
  unfold filonB far
  cases uir <;> fin_cases n <;> simp <;> ring_nf

theorem filonB_sin (k r : ℝ) (uir : Bool) (n : Fin 3) :
    filonB k r false uir n = -(√k * if uir then -k * farSin (n + 1) (k * r) else farSin n (k * r)) := by
  have e : ∀ x : ℝ, cos (x + π / 2) = -sin x := fun x => by rw [cos_add_pi_div_two]
  unfold filonB farSin
  cases uir <;> fin_cases n <;> simp [e] <;> ring_nf

theorem ford_lt (i : Fin 6) (v : Fin 4) : ford i v < 3 := by
  revert i v
  decide

theorem intPkFilon_entry (k r : ℝ) (iscos uir : Bool) (Q : Chnl) (i : Fin 6) (v : Fin 4) :
    intPkFilon k r iscos Q uir 0 i v = (farTable (order i) v).1 * Q i (farTable (order i) v).2.1 * filonB k r iscos uir ⟨ford i v, ford_lt i v⟩ := by
  unfold intPkFilon ford
  generalize_proofs hp
  revert hp
  generalize order i = m
  intro hp
  fin_cases m <;> fin_cases v <;> simp [farTable]

/-- Cosine terms are the amplitude times the far-field form. -/
theorem intPkFilon_cos (k r : ℝ) (uir : Bool) (Q : Chnl) (i : Fin 6) (v : Fin 4) :
    intPkFilon k r true Q uir 0 i v = ampD i v uir k Q * (far (fordD i v uir) (k * r) : ℝ) := by
  rw [intPkFilon_entry, filonB_cos]
  unfold ampD fordD amp
  cases uir <;> simp <;> ring

/-- Sine terms have the opposite sign. -/
theorem intPkFilon_sin (k r : ℝ) (uir : Bool) (Q : Chnl) (i : Fin 6) (v : Fin 4) :
    intPkFilon k r false Q uir 0 i v = -(ampD i v uir k Q * (farSin (fordD i v uir) (k * r) : ℝ)) := by
  rw [intPkFilon_entry, filonB_sin]
  unfold ampD fordD amp
  cases uir <;> simp <;> ring

/-! ### The rule -/

/-- Integral of an affine function against the cosine. -/
theorem affine_cos (p q : ℂ) (r φ a b : ℝ) (hr : r ≠ 0) :
    ∫ k in a..b, (p + q * k) * ((cos (k * r - φ) : ℝ) : ℂ) =
      ((p + q * b) * (sin (b * r - φ) : ℝ) - (p + q * a) * (sin (a * r - φ) : ℝ)) / r +
      q * ((cos (b * r - φ) : ℝ) - (cos (a * r - φ) : ℝ)) / r ^ 2 := by
  have hrc : (r : ℂ) ≠ 0 := by exact_mod_cast hr
  have ds : ∀ k : ℝ, HasDerivAt (fun k : ℝ => ((sin (k * r - φ) : ℝ) : ℂ)) ((cos (k * r - φ) * r : ℝ) : ℂ) k := fun k => by
    refine HasDerivAt.ofReal_comp ?_
    exact ((hasDerivAt_sin _).comp k (((hasDerivAt_id k).mul_const r).sub_const φ)).congr_deriv (by simp)
  have dc : ∀ k : ℝ, HasDerivAt (fun k : ℝ => ((cos (k * r - φ) : ℝ) : ℂ)) ((-sin (k * r - φ) * r : ℝ) : ℂ) k := fun k => by
    refine HasDerivAt.ofReal_comp ?_
    exact ((hasDerivAt_cos _).comp k (((hasDerivAt_id k).mul_const r).sub_const φ)).congr_deriv (by simp)
  have dp : ∀ k : ℝ, HasDerivAt (fun k : ℝ => (k : ℂ)) 1 k := fun k => (hasDerivAt_id (k : ℂ)).comp_ofReal
  have hd : ∀ k ∈ uIcc a b, HasDerivAt (fun k : ℝ => (p + q * k) / r * ((sin (k * r - φ) : ℝ) : ℂ) + q / r ^ 2 * ((cos (k * r - φ) : ℝ) : ℂ))
      ((p + q * k) * ((cos (k * r - φ) : ℝ) : ℂ)) k := by
    intro k _
    refine (((((dp k).const_mul q).const_add p).div_const (r : ℂ)).mul (ds k) |>.add ((dc k).const_mul (q / r ^ 2))).congr_deriv ?_
    push_cast
    field_simp
    ring
  rw [intervalIntegral.integral_eq_sub_of_hasDerivAt hd]
  · field_simp
    ring
  · apply Continuous.intervalIntegrable
    fun_prop

/-- With the sine terms taken with a plus sign the rule integrates the broken line exactly. -/
theorem filon_exact (r d a φ : ℝ) (hr : r ≠ 0) (hd : 0 < d) (f : ℕ → ℂ) (L : ℝ → ℂ) (n : ℕ) (hn : 1 ≤ n) (hL : Broken L f a d n) :
    filonTotal r d (∑ j ∈ Finset.range n, f (j + 1) * (cos ((a + (j + 1 : ℕ) * d) * r - φ) : ℝ))
      (f 1 * (cos ((a + 1 * d) * r - φ) : ℝ)) (f 1 * (sin ((a + 1 * d) * r - φ) : ℝ))
      (f n * (cos ((a + n * d) * r - φ) : ℝ)) (f n * (sin ((a + n * d) * r - φ) : ℝ)) =
    ∫ k in (a + 1 * d)..(a + n * d), L k * ((cos (k * r - φ) : ℝ) : ℂ) := by
  have hrc : (r : ℂ) ≠ 0 := by exact_mod_cast hr
  have hdc : (d : ℂ) ≠ 0 := by exact_mod_cast hd.ne'
  induction n, hn using Nat.le_induction with
  | base =>
    simp [filonTotal, filonEnd, filonMain]
    field_simp
    ring
  | succ n hn ih =>
    have hL' : Broken L f a d n := ⟨fun j h1 h2 => hL.1 j h1 (by omega), fun j h1 h2 => hL.2 j h1 (by omega)⟩
    have hle : a + n * d ≤ a + ((n + 1 : ℕ) : ℝ) * d := by push_cast; nlinarith
    obtain ⟨p, q, hpq⟩ := hL.2 n hn (by omega)
    have en : a + ((n : ℝ) + 1) * d = a + ((n + 1 : ℕ) : ℝ) * d := by push_cast; ring
    rw [en] at hpq
    have f1 : f n = p + q * ((a + n * d : ℝ) : ℂ) := by rw [← hL.1 n hn (by omega)]; exact hpq _ ⟨le_rfl, hle⟩
    have f2 : f (n + 1) = p + q * ((a + ((n + 1 : ℕ) : ℝ) * d : ℝ) : ℂ) := by
      rw [← hL.1 (n + 1) (by omega) le_rfl]; exact hpq _ ⟨hle, le_rfl⟩
    have piece : ∫ k in (a + n * d)..(a + ((n + 1 : ℕ) : ℝ) * d), L k * ((cos (k * r - φ) : ℝ) : ℂ) =
        ∫ k in (a + n * d)..(a + ((n + 1 : ℕ) : ℝ) * d), (p + q * k) * ((cos (k * r - φ) : ℝ) : ℂ) := by
      refine intervalIntegral.integral_congr fun k hk => ?_
      rw [uIcc_of_le hle] at hk
      simp only [hpq k hk]
    have hint : ∀ m : ℕ, 1 ≤ m → m ≤ n + 1 →
        IntervalIntegrable (fun k => L k * ((cos (k * r - φ) : ℝ) : ℂ)) volume (a + 1 * d) (a + m * d) := by
      intro m hm
      induction m, hm using Nat.le_induction with
      | base => intro _; simp
      | succ m hm ihm =>
        intro hmn
        refine (ihm (by omega)).trans ?_
        obtain ⟨p', q', h'⟩ := hL.2 m hm (by omega)
        have hle' : a + m * d ≤ a + ((m + 1 : ℕ) : ℝ) * d := by push_cast; nlinarith
        have : IntervalIntegrable (fun k : ℝ => (p' + q' * k) * ((cos (k * r - φ) : ℝ) : ℂ)) volume (a + m * d) (a + ((m + 1 : ℕ) : ℝ) * d) := by
          apply Continuous.intervalIntegrable
          fun_prop
        refine this.congr fun k hk => ?_
        rw [uIoc_of_le hle'] at hk
        simp only [h' k ⟨hk.1.le, by simpa using hk.2⟩]
    rw [← intervalIntegral.integral_add_adjacent_intervals (hint n hn (by omega))
      ((hint n hn (by omega)).symm.trans (hint (n + 1) (by omega) le_rfl)), ← ih hL', piece, affine_cos _ _ _ _ _ _ hr,
      Finset.sum_range_succ, ← f1, ← f2]
    have hq : q = (f (n + 1) - f n) / d := by
      rw [f1, f2]
      push_cast
      field_simp
      ring
    rw [hq]
    have ea : (a + ((n + 1 : ℕ) : ℝ) * d) * r - φ = ((a + n * d) * r - φ) + d * r := by push_cast; ring
    rw [ea, cos_add, sin_add]
    generalize (a + n * d) * r - φ = x
    generalize (∑ j ∈ Finset.range n, f (j + 1) * (cos ((a + (j + 1 : ℕ) * d) * r - φ) : ℝ)) = S
    generalize (a + 1 * d) * r - φ = y
    unfold filonTotal filonEnd filonMain
    have hsc : ((sin (d * r) : ℝ) : ℂ) ^ 2 + ((cos (d * r) : ℝ) : ℂ) ^ 2 = 1 := by exact_mod_cast sin_sq_add_cos_sq (d * r)
    simp only [Complex.ofReal_mul, Complex.ofReal_add, Complex.ofReal_sub, Complex.ofReal_div, Complex.ofReal_one, Complex.ofReal_neg,
      Complex.ofReal_ofNat]
    generalize ((sin (d * r) : ℝ) : ℂ) = Sd at *
    generalize ((cos (d * r) : ℝ) : ℂ) = Cd at *
    generalize ((sin x : ℝ) : ℂ) = sx at *
    generalize ((cos x : ℝ) : ℂ) = cx at *
    generalize ((sin y : ℝ) : ℂ) = sy at *
    generalize ((cos y : ℝ) : ℂ) = cy at *
    field_simp
    linear_combination (-(f (n + 1)) * cx) * hsc

/-! ### The loop -/

/-- Sums after `n` points. -/
noncomputable def Fim.upTo (ir : Fin nr) (n : ℕ) : Sums :=
  ⟨∑ j ∈ Finset.range n, (D.term (D.pt (j + 1)) (D.val (j + 1)) (D.rs ir) true).u,
   ∑ j ∈ Finset.range n, (D.term (D.pt (j + 1)) (D.val (j + 1)) (D.rs ir) true).z,
   ∑ j ∈ Finset.range n, (D.term (D.pt (j + 1)) (D.val (j + 1)) (D.rs ir) true).r⟩

theorem Fim.upTo_succ (ir : Fin nr) (n : ℕ) :
    D.upTo ir (n + 1) = Dwm.add (D.term (D.pt (n + 1)) (D.val (n + 1)) (D.rs ir) true) (D.upTo ir n) := by
  unfold Fim.upTo Dwm.add
  simp only [Finset.sum_range_succ]

/-- The near-field entry of an order-one source is zero at every point. -/
theorem Fim.term_near (k : ℝ) (Q : Chnl × Chnl) (r : ℝ) : (D.term k Q r true).u 2 1 = 0 := by
  unfold Fim.term
  show intPkFilon k r true Q.1 false 0 2 1 = 0
  rw [intPkFilon_entry]
  simp [farTable, order]

theorem Fim.upTo_near (ir : Fin nr) (n : ℕ) : (D.upTo ir n).u 2 1 = 0 := by
  unfold Fim.upTo
  simp only [Finset.sum_apply]
  exact Finset.sum_eq_zero fun j _ => D.term_near _ _ _

/-- The test never holds. -/
theorem Fim.not_converged (ir : Fin nr) (n : ℕ) (keps : ℝ) (t : Grid) : ¬ converged keps t (D.upTo ir n).u := by
  intro h
  rcases h 2 1 with h | h
  · exact absurd h.1 (by decide)
  · exact h.1 (D.upTo_near ir n)

theorem Fim.loop_spec (ir0 : Fin nr) (h0 : ¬ zeroDist (D.rs ir0)) : ∀ n m st log,
    (∀ ir, ¬ zeroDist (D.rs ir) → ¬ st.done ir ∧ st.sums ir = D.upTo ir m) →
    (∀ j, m < j → j ≤ m + n → (D.ker (D.pt j)).isSome) →
    let o := D.loop n (D.pt m) st log
    o.failed = false ∧ o.k = D.pt (m + n) ∧ o.log = ((List.range' (m + 1) n).map D.pt).reverse ++ log ∧
      ∀ ir, ¬ zeroDist (D.rs ir) → o.st.sums ir = D.upTo ir (m + n) := by
  intro n
  induction n with
  | zero =>
    intro m st log hst _
    exact ⟨rfl, rfl, by simp [Fim.loop], fun ir h => (hst ir h).2⟩
  | succ n ih =>
    intro m st log hst hk
    have hp : D.pt m + D.dk = D.pt (m + 1) := by
      unfold Fim.pt
      push_cast
      ring
    obtain ⟨Q, hQ⟩ := Option.isSome_iff_exists.1 (hk (m + 1) (by omega) (by omega))
    have hv : D.rev (D.pt (m + 1)) Q = D.val (m + 1) := by
      unfold Fim.val
      rw [hQ]
      rfl
    have hst' : ∀ ir, ¬ zeroDist (D.rs ir) → ¬ (D.step (D.pt (m + 1)) (D.val (m + 1)) st).done ir ∧
        (D.step (D.pt (m + 1)) (D.val (m + 1)) st).sums ir = D.upTo ir (m + 1) := by
      intro ir hz
      obtain ⟨h1, h2⟩ := hst ir hz
      have hn : ¬ (st.done ir ∨ zeroDist (D.rs ir)) := not_or.2 ⟨h1, hz⟩
      unfold Fim.step
      simp only [if_neg hn]
      rw [h2, D.upTo_succ]
      refine ⟨fun hc => D.not_converged ir (m + 1) D.keps (D.term (D.pt (m + 1)) (D.val (m + 1)) (D.rs ir) true).u ?_, rfl⟩
      rw [D.upTo_succ]
      exact hc.2
    have hnd : ¬ D.allDone (D.step (D.pt (m + 1)) (D.val (m + 1)) st) := fun hc => by
      rcases hc ir0 with h | h
      · exact h0 h
      · exact (hst' ir0 h0).1 h
    have e : D.loop (n + 1) (D.pt m) st log = D.loop n (D.pt (m + 1)) (D.step (D.pt (m + 1)) (D.val (m + 1)) st) (D.pt (m + 1) :: log) := by
      rw [Fim.loop]
      simp only [hp, hQ, hv]
      rw [hp, hv, if_neg hnd]
    obtain ⟨a, b, c, d⟩ := ih (m + 1) _ (D.pt (m + 1) :: log) hst' (fun j h1 h2 => hk j (by omega) (by omega))
    rw [e]
    refine ⟨a, by rw [b]; congr 1; omega, ?_, fun ir h => by rw [d ir h]; congr 1; omega⟩
    rw [c, List.range'_succ]
    simp

theorem Fim.nk_pos : 1 ≤ D.nk := Nat.le_add_left _ _

/-- The sums after a run without failure. -/
theorem Fim.run_spec (s : Fin nr → Sums) (hk : D.k0 + D.dk0 < D.kmax) (ir : Fin nr) (hr : ¬ zeroDist (D.rs ir))
    (hker : ∀ j, 1 ≤ j → j ≤ D.nk → (D.ker (D.pt j)).isSome) :
    (D.run s).failed = false ∧ (D.run s).k = D.pt D.nk ∧
    (D.run s).log = D.pt D.nk :: D.pt 1 :: ((List.range' 1 D.nk).map D.pt).reverse ∧
    (let f := fun g : Sums → Grid => g (s ir) + fun i v =>
        filonTotal (D.rs ir) D.dk (g (D.upTo ir D.nk) i v)
          (g (D.term (D.pt 1) (D.val 1) (D.rs ir) true) i v) (g (D.term (D.pt 1) (D.val 1) (D.rs ir) false) i v)
          (g (D.term (D.pt D.nk) (D.val D.nk) (D.rs ir) true) i v) (g (D.term (D.pt D.nk) (D.val D.nk) (D.rs ir) false) i v) *
        ((√(2 / (π * D.rs ir)) / D.dk0 : ℝ) : ℂ);
      (D.run s).st.sums ir = { u := f Sums.u, z := if D.upar then f Sums.z else (s ir).z, r := if D.upar then f Sums.r else (s ir).r }) := by
  have e0 : D.k0 = D.pt 0 := by simp [Fim.pt]
  have e1 : D.k0 + D.dk = D.pt 1 := by simp [Fim.pt]
  obtain ⟨a, b, c, d⟩ := D.loop_spec ir hr D.nk 0 ⟨fun _ => ⟨0, 0, 0⟩, fun _ => False⟩ []
    (fun ir _ => ⟨id, by simp [Fim.upTo]⟩) (fun j h1 h2 => hker j (by omega) (by omega))
  rw [← e0] at a b c d
  simp only [Nat.zero_add, List.append_nil] at a b c d
  obtain ⟨Qa, hQa⟩ := Option.isSome_iff_exists.1 (hker 1 le_rfl D.nk_pos)
  obtain ⟨Qb, hQb⟩ := Option.isSome_iff_exists.1 (hker D.nk D.nk_pos le_rfl)
  have hva : D.rev (D.pt 1) Qa = D.val 1 := by
    unfold Fim.val
    rw [hQa]
    rfl
  have hvb : D.rev (D.pt D.nk) Qb = D.val D.nk := by
    unfold Fim.val
    rw [hQb]
    rfl
  unfold Fim.run
  rw [if_neg (not_le.2 hk)]
  simp only [a, b, c, d ir hr, e1, hQa, hQb, hva, hvb, Bool.false_eq_true, if_false, if_neg hr]
  exact ⟨trivial, trivial, trivial, trivial⟩

/-- Amplitudes of one result at the points. -/
noncomputable def Fim.f (p : Part) (i : Fin 6) (v : Fin 4) (j : ℕ) : ℂ := ampD i v p.uir (D.pt j) (p.ker (D.val j))

/-- The terms in which the rule of the code departs from the exact one. -/
noncomputable def Fim.dep (p : Part) (i : Fin 6) (v : Fin 4) (r : ℝ) : ℂ :=
  ((sin (D.dk * r) / (r * r * D.dk) - 1 / r : ℝ) : ℂ) *
    (D.f p i v 1 * (farSin (fordD i v p.uir) (D.pt 1 * r) : ℝ) - D.f p i v D.nk * (farSin (fordD i v p.uir) (D.pt D.nk * r) : ℝ))

theorem Fim.part_term (p : Part) (hp : p = .u ∨ D.upar = true) (k : ℝ) (Q : Chnl × Chnl) (r : ℝ) (iscos : Bool) :
    p.sums (D.term k Q r iscos) = intPkFilon k r iscos (p.ker Q) p.uir 0 := by
  rcases p with _ | _ | _
  · rfl
  · simp only [reduceCtorEq, false_or] at hp
    simp [Fim.term, Part.sums, Part.ker, Part.uir, hp]
  · simp only [reduceCtorEq, false_or] at hp
    simp [Fim.term, Part.sums, Part.ker, Part.uir, hp]

theorem Fim.part_upTo (p : Part) (hp : p = .u ∨ D.upar = true) (ir : Fin nr) (n : ℕ) (i : Fin 6) (v : Fin 4) :
    p.sums (D.upTo ir n) i v = ∑ j ∈ Finset.range n, D.f p i v (j + 1) * (far (fordD i v p.uir) (D.pt (j + 1) * D.rs ir) : ℝ) := by
  have : p.sums (D.upTo ir n) = ∑ j ∈ Finset.range n, p.sums (D.term (D.pt (j + 1)) (D.val (j + 1)) (D.rs ir) true) := by
    rcases p with _ | _ | _ <;> rfl
  rw [this]
  simp only [Finset.sum_apply]
  refine Finset.sum_congr rfl fun j _ => ?_
  rw [D.part_term p hp, intPkFilon_cos]
  rfl

/-- C40 for the fixed-step rule. If the kernel does not fail at the points `k0 + dk, …, k0 + nk dk`, the kernel is evaluated at these
points in order and again at the first and last, and what is added for a distance that is not zero, for each result, source and
integral, is the integral from the first to the last point of the broken line through the amplitudes against the far-field form,
less the terms `2 dep` that come from the two ends. The line and the form are those of the derivative for the derivative with
respect to distance.
Missing for the full statement: the terms `dep` should not be there, see `C40_linear_violated`. -/
theorem C40_linear_partial (s : Fin nr → Sums) (hk : D.k0 + D.dk0 < D.kmax) (hdk : 0 < D.dk) (hd0 : 0 < D.dk0) (ir : Fin nr)
    (hr : ¬ zeroDist (D.rs ir)) (hker : ∀ j, 1 ≤ j → j ≤ D.nk → (D.ker (D.pt j)).isSome)
    (p : Part) (hp : p = .u ∨ D.upar = true) (i : Fin 6) (v : Fin 4) (L : ℝ → ℂ) (hL : Broken L (D.f p i v) D.k0 D.dk D.nk) :
    (D.run s).failed = false ∧ (D.run s).k = D.pt D.nk ∧
    (D.run s).log.reverse = (List.range' 1 D.nk).map D.pt ++ [D.pt 1, D.pt D.nk] ∧
    D.dk0 * (p.sums ((D.run s).st.sums ir) i v - p.sums (s ir) i v) = (√(2 / (π * D.rs ir)) : ℝ) *
      ((∫ k in (D.pt 1)..(D.pt D.nk), L k * (far (fordD i v p.uir) (k * D.rs ir) : ℝ)) - 2 * D.dep p i v (D.rs ir)) := by
  obtain ⟨a, b, c, d⟩ := D.run_spec s hk ir hr hker
  refine ⟨a, b, by rw [c]; simp, ?_⟩
  set r := D.rs ir with hrdef
  have hr0 : 0 < r := lt_trans (by norm_num) (not_le.1 hr)
  have hd : (D.dk0 : ℂ) ≠ 0 := by exact_mod_cast hd0.ne'
  have e : p.sums ((D.run s).st.sums ir) i v = p.sums (s ir) i v +
      filonTotal r D.dk (p.sums (D.upTo ir D.nk) i v)
          (p.sums (D.term (D.pt 1) (D.val 1) r true) i v) (p.sums (D.term (D.pt 1) (D.val 1) r false) i v)
          (p.sums (D.term (D.pt D.nk) (D.val D.nk) r true) i v) (p.sums (D.term (D.pt D.nk) (D.val D.nk) r false) i v) *
        ((√(2 / (π * r)) / D.dk0 : ℝ) : ℂ) := by
    rw [d]
    rcases p with _ | _ | _
    · rfl
    · simp only [reduceCtorEq, false_or] at hp
      simp only [Part.sums, hp, if_true]
      rfl
    · simp only [reduceCtorEq, false_or] at hp
      simp only [Part.sums, hp, if_true]
      rfl
  have ex := filon_exact r D.dk D.k0 ((2 * (fordD i v p.uir) + 1) * π / 4) hr0.ne' hdk (D.f p i v) L D.nk D.nk_pos hL
  have p1 : D.k0 + 1 * D.dk = D.pt 1 := by simp [Fim.pt]
  rw [p1] at ex
  have hpt : ∀ j : ℕ, D.k0 + (j : ℝ) * D.dk = D.pt j := fun _ => rfl
  have hf : ∀ j, ampD i v p.uir (D.pt j) (p.ker (D.val j)) = D.f p i v j := fun _ => rfl
  simp only [hpt] at ex
  unfold far Fim.dep farSin
  rw [← ex, e]
  simp only [D.part_term p hp, intPkFilon_cos, intPkFilon_sin, D.part_upTo p hp ir, hf, ← hrdef]
  unfold far farSin filonTotal filonEnd
  have hrc : (r : ℂ) ≠ 0 := by exact_mod_cast hr0.ne'
  have hdc : (D.dk : ℂ) ≠ 0 := by exact_mod_cast hdk.ne'
  generalize (∑ j ∈ Finset.range D.nk, D.f p i v (j + 1) * ((cos (D.pt (j + 1) * r - (2 * (fordD i v p.uir) + 1) * π / 4) : ℝ) : ℂ)) = S
  generalize ((sin (D.pt 1 * r - (2 * (fordD i v p.uir) + 1) * π / 4) : ℝ) : ℂ) = s1
  generalize ((cos (D.pt 1 * r - (2 * (fordD i v p.uir) + 1) * π / 4) : ℝ) : ℂ) = c1
  generalize ((sin (D.pt D.nk * r - (2 * (fordD i v p.uir) + 1) * π / 4) : ℝ) : ℂ) = sN
  generalize ((cos (D.pt D.nk * r - (2 * (fordD i v p.uir) + 1) * π / 4) : ℝ) : ℂ) = cN
  generalize √(2 / (π * r)) = w
  push_cast
  field_simp
  ring

/-- C40 violated by the fixed-step rule: whenever the two end terms of the sine do not happen to cancel, the result is not the
integral of the broken line. The function used for the sine terms is minus the sine (k_integ.c 155-156), while fim.c 190-195 is the
rule for plus the sine (`filon_exact`). -/
theorem C40_linear_violated (s : Fin nr → Sums) (hk : D.k0 + D.dk0 < D.kmax) (hdk : 0 < D.dk) (hd0 : 0 < D.dk0) (ir : Fin nr)
    (hr : ¬ zeroDist (D.rs ir)) (hker : ∀ j, 1 ≤ j → j ≤ D.nk → (D.ker (D.pt j)).isSome)
    (p : Part) (hp : p = .u ∨ D.upar = true) (i : Fin 6) (v : Fin 4) (L : ℝ → ℂ) (hL : Broken L (D.f p i v) D.k0 D.dk D.nk)
    (hne : D.f p i v 1 * (farSin (fordD i v p.uir) (D.pt 1 * D.rs ir) : ℝ) ≠
      D.f p i v D.nk * (farSin (fordD i v p.uir) (D.pt D.nk * D.rs ir) : ℝ)) :
    D.dk0 * (p.sums ((D.run s).st.sums ir) i v - p.sums (s ir) i v) ≠ (√(2 / (π * D.rs ir)) : ℝ) *
      ∫ k in (D.pt 1)..(D.pt D.nk), L k * (far (fordD i v p.uir) (k * D.rs ir) : ℝ) := by
  have hr0 : 0 < D.rs ir := lt_trans (by norm_num) (not_le.1 hr)
  obtain ⟨-, -, -, h⟩ := C40_linear_partial D s hk hdk hd0 ir hr hker p hp i v L hL
  rw [h]
  intro hc
  have hw : ((√(2 / (π * D.rs ir)) : ℝ) : ℂ) ≠ 0 := by
    have : 0 < √(2 / (π * D.rs ir)) := by positivity
    exact_mod_cast this.ne'
  have h0 := mul_left_cancel₀ hw hc
  have h1 : D.dep p i v (D.rs ir) = 0 := by linear_combination (-1 / 2) * h0
  unfold Fim.dep at h1
  rcases mul_eq_zero.1 h1 with h2 | h2
  · have h3 : sin (D.dk * D.rs ir) / (D.rs ir * D.rs ir * D.dk) - 1 / D.rs ir = 0 := by exact_mod_cast h2
    have hx : 0 < D.dk * D.rs ir := by positivity
    have := sin_lt hx
    have h4 : sin (D.dk * D.rs ir) = D.dk * D.rs ir := by
      field_simp at h3
      linarith
    linarith
  · exact hne (sub_eq_zero.1 h2)

/-- A case of the two theorems: one distance of 1 km, points 2, 3, 4, 5, and a vertical force whose vertical channel is not zero at the
first point only. -/
noncomputable def Fim.sample : Fim 1 where
  k0 := 1
  dk0 := 1 / 2
  dk := 1
  kmax := 4
  keps := -1
  rs := fun _ => 1
  dcm := false
  upar := true
  Qm := 0
  Qzm := 0
  ker := fun k => some (fun _ _ => if k = 2 then 1 else 0, 0)

open Classical in
example : (1 / 2 : ℝ) * (((Fim.sample.run fun _ => ⟨0, 0, 0⟩).st.sums 0).u 1 2 - 0) ≠ (√(2 / (π * 1)) : ℝ) *
      ∫ k in (Fim.sample.pt 1)..(Fim.sample.pt Fim.sample.nk), (if k ≤ 3 then (√2 : ℝ) * (3 - k) else 0 : ℂ) * (far 0 (k * 1) : ℝ) := by
  have hnk : Fim.sample.nk = 4 := by
    have : ((4 : ℝ) - 1) / 1 = (3 : ℕ) := by norm_num
    show ⌊((4 : ℝ) - 1) / 1⌋₊ + 1 = 4
    rw [this, Nat.floor_natCast]
  have hpt : ∀ j : ℕ, Fim.sample.pt j = 1 + j := fun j => by simp [Fim.pt, Fim.sample]
  have hf : ∀ j : ℕ, Fim.sample.f .u 1 2 j = if j = 1 then ((√2 : ℝ) : ℂ) else 0 := by
    intro j
    have hj : ((1 : ℝ) + j = 2) ↔ j = 1 := by
      constructor
      · intro h
        have : (j : ℝ) = (1 : ℕ) := by push_cast; linarith
        exact_mod_cast this
      · rintro rfl
        norm_num
    unfold Fim.f Fim.val
    rw [hpt]
    simp only [Fim.sample, Fim.rev, Part.ker, Part.uir, ampD, amp, farTable, order, Option.getD_some, hj]
    by_cases h : j = 1
    · subst h
      norm_num
    · simp [h]
  refine C40_linear_violated Fim.sample (fun _ => ⟨0, 0, 0⟩) ?_ ?_ ?_ 0 ?_ ?_ .u (Or.inl rfl) 1 2 _ ⟨?_, ?_⟩ ?_
  · norm_num [Fim.sample]
  · norm_num [Fim.sample]
  · norm_num [Fim.sample]
  · norm_num [Fim.sample, zeroDist]
  · intro j _ _
    rfl
  · intro j h1 h2
    have e : Fim.sample.k0 + j * Fim.sample.dk = 1 + j := hpt j
    rw [e, hf]
    rw [hnk] at h2
    interval_cases j <;> norm_num
  · intro j h1 h2
    have e : Fim.sample.k0 + j * Fim.sample.dk = 1 + j := hpt j
    have e' : Fim.sample.k0 + ((j : ℝ) + 1) * Fim.sample.dk = 2 + j := by
      have := hpt (j + 1)
      unfold Fim.pt at this
      push_cast at this
      rw [this]
      ring
    rw [e, e']
    rw [hnk] at h2
    by_cases hj : j = 1
    · refine ⟨(√2 : ℝ) * 3, -(√2 : ℝ), fun k hk => ?_⟩
      subst hj
      have : k ≤ 3 := by have := hk.2; norm_num at this; exact this
      simp only [if_pos this]
      ring
    · refine ⟨0, 0, fun k hk => ?_⟩
      have hj2 : (2 : ℝ) ≤ j := by exact_mod_cast (by omega : 2 ≤ j)
      by_cases hk3 : k ≤ 3
      · have : k = 3 := le_antisymm hk3 (by linarith [hk.1])
        simp [this]
      · simp [hk3]
  · rw [hf, hf, hnk, hpt]
    simp only [if_true, show ¬ (4 = 1) by decide, if_false, zero_mul]
    refine mul_ne_zero (by norm_num) ?_
    have : 0 < farSin (fordD 1 2 Part.u.uir) ((1 + (1 : ℕ)) * Fim.sample.rs 0) := by
      show 0 < sin ((1 + (1 : ℕ)) * 1 - (2 * ((0 : ℕ) : ℝ) + 1) * π / 4)
      have := two_le_pi
      have := pi_le_four
      apply sin_pos_of_pos_of_lt_pi <;> push_cast <;> linarith
    exact_mod_cast this.ne'

/-- C66 violated by the fixed-step rule, lower end: the discrete part, with one step for each of its points, accounts for the
wavenumbers up to `k0 + dk0`, but what is added here starts at `k0 + dk`. A kernel that vanishes from there on adds nothing,
whatever it is between `k0 + dk0` and `k0 + dk`. -/
theorem C66_fixed_step_gap_violated (s : Fin nr → Sums) (hk : D.k0 + D.dk0 < D.kmax) (hdk : 0 < D.dk) (hd0 : 0 < D.dk0) (ir : Fin nr)
    (hr : ¬ zeroDist (D.rs ir)) (hdcm : D.dcm = false) (hker : ∀ k, D.k0 + D.dk ≤ k → D.ker k = some (0, 0))
    (p : Part) : p.sums ((D.run s).st.sums ir) = p.sums (s ir) := by
  by_cases hp : p = .u ∨ D.upar = true
  · have hpt : ∀ j, 1 ≤ j → D.ker (D.pt j) = some (0, 0) := fun j hj => hker _ (by
      unfold Fim.pt
      have : (1 : ℝ) ≤ j := by exact_mod_cast hj
      nlinarith)
    have hf : ∀ i v j, 1 ≤ j → D.f p i v j = 0 := by
      intro i v j hj
      have : p.ker (0, 0) = 0 := by cases p <;> rfl
      unfold Fim.f Fim.val Fim.rev
      rw [hpt j hj, hdcm]
      simp [this, ampD, amp]
    funext i v
    obtain ⟨-, -, -, h⟩ := C40_linear_partial D s hk hdk hd0 ir hr (fun j hj _ => by rw [hpt j hj]; rfl) p hp i v (fun _ => 0)
      ⟨fun j hj _ => (hf i v j hj).symm, fun j _ _ => ⟨0, 0, fun k _ => by simp⟩⟩
    have hd : (D.dk0 : ℂ) ≠ 0 := by exact_mod_cast hd0.ne'
    unfold Fim.dep at h
    rw [hf i v 1 le_rfl, hf i v D.nk D.nk_pos] at h
    simp only [zero_mul, sub_self, mul_zero, intervalIntegral.integral_zero] at h
    exact sub_eq_zero.1 ((mul_eq_zero.1 h).resolve_left hd)
  · push Not at hp
    obtain ⟨h1, h2⟩ := hp
    have h2 : D.upar = false := by simpa using h2
    have hpt : ∀ j, 1 ≤ j → D.ker (D.pt j) = some (0, 0) := fun j hj => hker _ (by
      unfold Fim.pt
      have : (1 : ℝ) ≤ j := by exact_mod_cast hj
      nlinarith)
    obtain ⟨-, -, -, d⟩ := D.run_spec s hk ir hr (fun j hj _ => by rw [hpt j hj]; rfl)
    rw [d]
    cases p
    · exact absurd rfl h1
    · simp [Part.sums, h2]
    · simp [Part.sums, h2]

/-- C66 violated by the fixed-step rule, upper end: the last point lies beyond the limit, by up to a whole step. -/
theorem C66_fixed_step_overshoot_violated (hk : D.k0 + D.dk0 < D.kmax) (hdk : 0 < D.dk) (hd0 : 0 < D.dk0) :
    D.kmax < D.pt D.nk ∧ D.pt D.nk ≤ D.kmax + D.dk := by
  have h1 : 0 ≤ (D.kmax - D.k0) / D.dk := div_nonneg (by linarith) hdk.le
  have h2 := Nat.floor_le h1
  have h3 := Nat.lt_floor_add_one ((D.kmax - D.k0) / D.dk)
  rw [le_div_iff₀ hdk] at h2
  rw [div_lt_iff₀ hdk] at h3
  unfold Fim.pt Fim.nk
  push_cast
  exact ⟨by linarith, by linarith⟩

/-- A case of the two theorems: the kernel is one for wavenumbers between 1.5 and 2, which no part accounts for. -/
example : (({ Fim.sample with ker := fun k => some (fun _ _ => if k < 2 then 1 else 0, 0) } : Fim 1).run fun _ => ⟨0, 0, 0⟩).st.sums 0 =
    ⟨0, 0, 0⟩ := by
  have h := C66_fixed_step_gap_violated ({ Fim.sample with ker := fun k => some (fun _ _ => if k < 2 then 1 else 0, 0) } : Fim 1)
    (fun _ => ⟨0, 0, 0⟩) (by norm_num [Fim.sample]) (by norm_num [Fim.sample]) (by norm_num [Fim.sample]) 0
    (by norm_num [Fim.sample, zeroDist]) rfl (fun k hk => by
      have : ¬ k < 2 := by
        norm_num [Fim.sample] at hk
        linarith
      simp only [this, if_false]
      rfl)
  have hu := h .u
  have hz := h .z
  have hr := h .r
  simp only [Part.sums] at hu hz hr
  generalize (({ Fim.sample with ker := fun k => some (fun _ _ => if k < 2 then 1 else 0, 0) } : Fim 1).run fun _ => ⟨0, 0, 0⟩).st.sums 0 = x at *
  cases x
  simp_all

/-- C67 violated by the fixed-step rule: whatever the tolerance, the loop goes through all of its points. The near-field entry of the
sums is always zero, and its ratio `0/0` fails the test. -/
theorem C67_fixed_step_violated (s : Fin nr → Sums) (hk : D.k0 + D.dk0 < D.kmax) (ir : Fin nr) (hr : ¬ zeroDist (D.rs ir))
    (hker : ∀ j, 1 ≤ j → j ≤ D.nk → (D.ker (D.pt j)).isSome) :
    (D.run s).log.length = D.nk + 2 ∧ (D.run s).k = D.pt D.nk := by
  obtain ⟨-, b, c, -⟩ := D.run_spec s hk ir hr hker
  exact ⟨by rw [c]; simp, b⟩

example : (({ Fim.sample with keps := 1000 } : Fim 1).run fun _ => ⟨0, 0, 0⟩).log.length = ({ Fim.sample with keps := 1000 } : Fim 1).nk + 2 :=
  (C67_fixed_step_violated { Fim.sample with keps := 1000 } (fun _ => ⟨0, 0, 0⟩) (by norm_num [Fim.sample]) 0
    (by norm_num [Fim.sample, zeroDist]) (fun _ _ _ => rfl)).1

end GRT.Integ
