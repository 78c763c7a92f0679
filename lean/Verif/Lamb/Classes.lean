import Verif.Lamb.Dead

/-! Which coefficients are real, imaginary or zero. -/

namespace GRT.Lamb

open Complex

local notation "cj" => starRingEnd ℂ

variable (V : Vars) (t : ℝ)

def Cre (e : Fin 5 → ℂ) : Prop := ∀ n, cj (e n) = e n

def Cim (e : Fin 5 → ℂ) : Prop := ∀ n, cj (e n) = -e n

/-- Pieces on and off the diagonal blocks. -/
def Diag (i : ℕ) : Prop := i = 0 ∨ i = 1 ∨ i = 2 ∨ i = 5

def Side (i : ℕ) : Prop := i = 3 ∨ i = 4

theorem diag_or_side {i : ℕ} (h : i < 6) : Diag i ∨ Side i := by unfold Diag Side; omega

set_option maxHeartbeats 2000000 in
theorem class_P_diag {i : ℕ} (hi : Diag i) : Cre (evens (ckimP1 V t i)) ∧ odds (ckimP1 V t i) = 0 ∧ evens (ckimP2 V t i) = 0 ∧
    Cim (odds (ckimP2 V t i)) := by
  rcases hi with rfl | rfl | rfl | rfl <;> refine ⟨?_, ?_, ?_, ?_⟩ <;>
    first
    | (intro n; fin_cases n <;> simp [evens, odds, ckimP1, ckimP2, map_ofNat])
    | (funext n; fin_cases n <;> simp [evens, odds, ckimP1, ckimP2, map_ofNat])

set_option maxHeartbeats 2000000 in
theorem class_P_side {i : ℕ} (hi : Side i) : evens (ckimP1 V t i) = 0 ∧ Cim (odds (ckimP1 V t i)) ∧ Cre (evens (ckimP2 V t i)) ∧
    odds (ckimP2 V t i) = 0 := by
  rcases hi with rfl | rfl <;> refine ⟨?_, ?_, ?_, ?_⟩ <;>
    first
    | (intro n; fin_cases n <;> simp [evens, odds, ckimP1, ckimP2, map_ofNat])
    | (funext n; fin_cases n <;> simp [evens, odds, ckimP1, ckimP2, map_ofNat])

set_option maxHeartbeats 2000000 in
theorem class_S1_diag {i : ℕ} (hi : Diag i) : Cre (evens (ckimS1 V t i)) ∧ odds (ckimS1 V t i) = 0 ∧ evens (ckimS2 V t i) = 0 ∧
    Cre (odds (ckimS2 V t i)) := by
  rcases hi with rfl | rfl | rfl | rfl <;> refine ⟨?_, ?_, ?_, ?_⟩ <;>
    first
    | (intro n; fin_cases n <;> simp [evens, odds, ckimS1, ckimS2, map_ofNat])
    | (funext n; fin_cases n <;> simp [evens, odds, ckimS1, ckimS2, map_ofNat])

set_option maxHeartbeats 2000000 in
theorem class_S1_side {i : ℕ} (hi : Side i) : evens (ckimS1 V t i) = 0 ∧ Cim (odds (ckimS1 V t i)) ∧ Cim (evens (ckimS2 V t i)) ∧
    odds (ckimS2 V t i) = 0 := by
  rcases hi with rfl | rfl <;> refine ⟨?_, ?_, ?_, ?_⟩ <;>
    first
    | (intro n; fin_cases n <;> simp [evens, odds, ckimS1, ckimS2, map_ofNat])
    | (funext n; fin_cases n <;> simp [evens, odds, ckimS1, ckimS2, map_ofNat])

theorem evens_turn (c : ℕ → ℕ → ℂ) (i : ℕ) (n : Fin 5) : evens (turnC c i) n = (-1) ^ n.val * evens (c i) n := by
  fin_cases n <;> simp [evens, turnC] <;> ring

theorem odds_turn (c : ℕ → ℕ → ℂ) (i : ℕ) (n : Fin 5) : odds (turnC c i) n = -I * (-1) ^ n.val * odds (c i) n := by
  fin_cases n <;> simp [odds, turnC] <;> ring

theorem class_turn {c : ℕ → ℕ → ℂ} {i : ℕ} :
    (Cre (evens (c i)) → Cre (evens (turnC c i))) ∧ (Cim (evens (c i)) → Cim (evens (turnC c i))) ∧
    (Cre (odds (c i)) → Cim (odds (turnC c i))) ∧ (Cim (odds (c i)) → Cre (odds (turnC c i))) := by
  refine ⟨fun h n => ?_, fun h n => ?_, fun h n => ?_, fun h n => ?_⟩
  · rw [evens_turn, map_mul, h n, map_pow, map_neg, map_one]
  · rw [evens_turn, map_mul, h n, map_pow, map_neg, map_one]; ring
  · rw [odds_turn, map_mul, map_mul, h n, map_pow, map_neg, map_neg, map_one, conj_I]; ring
  · rw [odds_turn, map_mul, map_mul, h n, map_pow, map_neg, map_neg, map_one, conj_I]; ring

theorem class_S2_diag {i : ℕ} (hi : Diag i) : Cre (evens (turnC (ckimS1 V t) i)) ∧ odds (turnC (ckimS1 V t) i) = 0 ∧
    evens (turnC (ckimS2 V t) i) = 0 ∧ Cim (odds (turnC (ckimS2 V t) i)) := by
  obtain ⟨a, b, c, d⟩ := class_S1_diag V t hi
  refine ⟨class_turn.1 a, ?_, ?_, class_turn.2.2.1 d⟩
  · funext n; rw [odds_turn, b]; simp
  · funext n; rw [evens_turn, c]; simp

theorem class_S2_side {i : ℕ} (hi : Side i) : evens (turnC (ckimS1 V t) i) = 0 ∧ Cre (odds (turnC (ckimS1 V t) i)) ∧
    Cim (evens (turnC (ckimS2 V t) i)) ∧ odds (turnC (ckimS2 V t) i) = 0 := by
  obtain ⟨a, b, c, d⟩ := class_S1_side V t hi
  refine ⟨?_, class_turn.2.2.2 b, class_turn.2.1 c, ?_⟩
  · funext n; rw [evens_turn, a]; simp
  · funext n; rw [odds_turn, d]; simp

theorem turn_poly (c : ℕ → ℕ → ℂ) (i : ℕ) (x : ℂ) : poly (turnC c i) x = poly (c i) (-I * x) := by
  rw [poly_split, poly_split]
  have hI : I * I = -1 := I_mul_I
  have e : -I * x * (-I * x) = -(x * x) := by linear_combination x * x * hI
  rw [e]
  simp only [quart, evens_turn, odds_turn, Fin.val_zero, Fin.val_one, Fin.val_two, show (3 : Fin 5).val = 3 from rfl, show (4 : Fin 5).val = 4 from rfl]
  ring

theorem nine_zero (i : ℕ) : ckimP1 V t i 9 = 0 ∧ ckimS1 V t i 9 = 0 ∧ turnC (ckimS1 V t) i 9 = 0 := by
  have h : ckimS1 V t i 9 = 0 := by unfold ckimS1; split <;> simp_all
  refine ⟨by unfold ckimP1; split <;> simp_all, h, ?_⟩
  unfold turnC; simp [h]

theorem grp_zero (sgn kpkp : ℝ) (ys : Fin 3 → ℂ) (w : ℂ → ℂ) (w3 w5 : ℂ) : grp sgn kpkp ys 0 w w3 w5 = 0 := by
  simp [grp, quart]

theorem quart_zero (X : ℂ) : quart 0 X = 0 := by simp [quart]

theorem quart_re {e : Fin 5 → ℂ} (he : Cre e) (X : ℝ) : cj (quart e X) = quart e X := by
  rw [conj_quart, conj_ofReal]
  congr 1
  funext n; exact he n

theorem quart_im {e : Fin 5 → ℂ} (he : Cim e) (X : ℝ) : cj (quart e X) = -quart e X := by
  rw [conj_quart, conj_ofReal, show (fun n => cj (e n)) = fun n => -e n from funext he]
  simp only [quart]; ring

end GRT.Lamb
