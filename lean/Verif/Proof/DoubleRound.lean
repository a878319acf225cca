import Verif.Proof.DoubleBins

/-!
# The rounding of the model is the one of the standard
-/

namespace Feyn

theorem roundEven_best (z : ℚ) (m : ℤ) : |roundEven z - z| ≤ |m - z| ∧ (|(m : ℚ) - z| = |roundEven z - z| → m ≠ roundEven z → roundEven z % 2 = 0 ∧ |m - roundEven z| = 1) := by
  have h0 := Int.floor_le z
  have h1 := Int.lt_floor_add_one z
  have hm : m ≤ ⌊z⌋ ∨ ⌊z⌋ + 1 ≤ m := by omega
  have far : (m : ℚ) ≤ ⌊z⌋ ∨ (⌊z⌋ : ℚ) + 1 ≤ m := hm.imp (fun h => by exact_mod_cast h) (fun h => by exact_mod_cast h)
  have lo : (m : ℚ) ≤ ⌊z⌋ → |(m : ℚ) - z| = z - m := fun h => by rw [abs_of_nonpos (by linarith)]; ring
  have hi : (⌊z⌋ : ℚ) + 1 ≤ m → |(m : ℚ) - z| = m - z := fun h => by rw [abs_of_nonneg (by linarith)]
  have el : |(⌊z⌋ : ℚ) - z| = z - ⌊z⌋ := by rw [abs_of_nonpos (by linarith)]; ring
  have eh : |((⌊z⌋ + 1 : ℤ) : ℚ) - z| = ⌊z⌋ + 1 - z := by push_cast; rw [abs_of_nonneg (by linarith)]
  have key : ∀ r : ℤ, (r = ⌊z⌋ ∧ z - ⌊z⌋ < 1 / 2) ∨ (r = ⌊z⌋ + 1 ∧ 1 / 2 < z - ⌊z⌋) ∨ (r = ⌊z⌋ ∧ z - ⌊z⌋ = 1 / 2 ∧ r % 2 = 0) ∨ (r = ⌊z⌋ + 1 ∧ z - ⌊z⌋ = 1 / 2 ∧ r % 2 = 0) →
      |(r : ℚ) - z| ≤ |m - z| ∧ (|(m : ℚ) - z| = |(r : ℚ) - z| → m ≠ r → r % 2 = 0 ∧ |m - r| = 1) := by
    rintro r (⟨rfl, c⟩ | ⟨rfl, c⟩ | ⟨rfl, c, c'⟩ | ⟨rfl, c, c'⟩)
    · rw [el]
      rcases far with f | f
      · rw [lo f]
        refine ⟨by linarith, fun a b => absurd ?_ b⟩
        exact_mod_cast (show (m : ℚ) = ⌊z⌋ by linarith)
      · rw [hi f]
        exact ⟨by linarith, fun a b => by linarith⟩
    · rw [eh]
      rcases far with f | f
      · rw [lo f]
        exact ⟨by linarith, fun a b => by linarith⟩
      · rw [hi f]
        refine ⟨by linarith, fun a b => absurd ?_ b⟩
        exact_mod_cast (show (m : ℚ) = ⌊z⌋ + 1 by linarith)
    · rw [el]
      rcases far with f | f
      · rw [lo f]
        refine ⟨by linarith, fun a b => absurd ?_ b⟩
        exact_mod_cast (show (m : ℚ) = ⌊z⌋ by linarith)
      · rw [hi f]
        refine ⟨by linarith, fun a b => ⟨c', ?_⟩⟩
        have : m = ⌊z⌋ + 1 := by exact_mod_cast (show (m : ℚ) = ⌊z⌋ + 1 by linarith)
        rw [this]; simp
    · rw [eh]
      rcases far with f | f
      · rw [lo f]
        refine ⟨by linarith, fun a b => ⟨c', ?_⟩⟩
        have : m = ⌊z⌋ := by exact_mod_cast (show (m : ℚ) = ⌊z⌋ by linarith)
        rw [this]; simp
      · rw [hi f]
        refine ⟨by linarith, fun a b => absurd ?_ b⟩
        exact_mod_cast (show (m : ℚ) = ⌊z⌋ + 1 by linarith)
  apply key
  unfold roundEven
  split_ifs with a b c
  · exact Or.inl ⟨rfl, a⟩
  · exact Or.inr (Or.inl ⟨rfl, b⟩)
  · exact Or.inr (Or.inr (Or.inl ⟨rfl, le_antisymm (not_lt.1 b) (not_lt.1 a), c⟩))
  · exact Or.inr (Or.inr (Or.inr ⟨rfl, le_antisymm (not_lt.1 b) (not_lt.1 a), by omega⟩))

theorem lastBit_bound (x : ℚ) : |x| < 2 ^ (lastBit x + 53) ∧ (x ≠ 0 → -1074 < lastBit x → 2 ^ (lastBit x + 52) ≤ |x|) := by
  by_cases hx : x = 0
  · subst hx
    constructor
    · rw [abs_zero]; positivity
    · exact fun h => absurd rfl h
  have hp : 0 < |x| := abs_pos.2 hx
  constructor
  · have := Int.lt_zpow_succ_log_self (b := 2) (by norm_num) |x|
    refine lt_of_lt_of_le (by exact_mod_cast this) (zpow_le_zpow_right₀ (by norm_num) ?_)
    unfold lastBit
    omega
  · intro _ h
    have := Int.zpow_log_le_self (b := 2) (by norm_num) hp
    refine le_trans (le_of_eq ?_) this
    push_cast
    congr 1
    unfold lastBit at h ⊢
    omega

/-- Multiples of the last bit. -/
theorem rnd_multiple (x : ℚ) (m : ℤ) : |rnd x - x| ≤ |m * 2 ^ lastBit x - x| ∧
    (|(m : ℚ) * 2 ^ lastBit x - x| = |rnd x - x| → (m : ℚ) * 2 ^ lastBit x ≠ rnd x → ∃ n : ℤ, rnd x = 2 * n * 2 ^ lastBit x ∧ |m * 2 ^ lastBit x - rnd x| = 2 ^ lastBit x) := by
  have hp : (0 : ℚ) < 2 ^ lastBit x := by positivity
  obtain ⟨h1, h2⟩ := roundEven_best (x / 2 ^ lastBit x) m
  have e : ∀ r : ℤ, (r : ℚ) * 2 ^ lastBit x - x = (r - x / 2 ^ lastBit x) * 2 ^ lastBit x := fun r => by field_simp
  unfold rnd
  rw [e, e, abs_mul, abs_mul, abs_of_pos hp]
  refine ⟨mul_le_mul_of_nonneg_right h1 hp.le, fun a b => ?_⟩
  obtain ⟨h3, h4⟩ := h2 (mul_right_cancel₀ hp.ne' a) (fun c => b (by rw [c]))
  refine ⟨roundEven (x / 2 ^ lastBit x) / 2, ?_, ?_⟩
  · have : roundEven (x / 2 ^ lastBit x) = 2 * (roundEven (x / 2 ^ lastBit x) / 2) := by omega
    congr 1
    exact_mod_cast this
  · rw [← sub_mul, abs_mul, abs_of_pos hp]
    have : |(m : ℚ) - roundEven (x / 2 ^ lastBit x)| = 1 := by exact_mod_cast h4
    rw [this, one_mul]

theorem rnd_isDouble (x : ℚ) : IsDouble (rnd x) := by
  have hp : (0 : ℚ) < 2 ^ lastBit x := by positivity
  have hb := (lastBit_bound x).1
  have he : -1074 ≤ lastBit x := le_max_right _ _
  have hr : |roundEven (x / 2 ^ lastBit x)| ≤ 2 ^ 53 := by
    have h1 := abs_lt.1 hb
    rw [zpow_add₀ (by norm_num)] at h1
    have n := abs_le.1 (roundEven_near (x / 2 ^ lastBit x))
    have u : x / 2 ^ lastBit x < 2 ^ 53 := by rw [div_lt_iff₀ hp, mul_comm]; exact_mod_cast h1.2
    have l : -(2 ^ 53) < x / 2 ^ lastBit x := by rw [lt_div_iff₀ hp, neg_mul, mul_comm]; exact_mod_cast h1.1
    rw [abs_le]
    constructor
    · have : ((-(2 ^ 53) - 1 : ℤ) : ℚ) < roundEven (x / 2 ^ lastBit x) := by push_cast; linarith [n.1]
      have := Int.cast_lt.1 this
      omega
    · have : (roundEven (x / 2 ^ lastBit x) : ℚ) < ((2 ^ 53 + 1 : ℤ) : ℚ) := by push_cast; linarith [n.2]
      have := Int.cast_lt.1 this
      omega
  unfold rnd
  generalize roundEven (x / 2 ^ lastBit x) = r at *
  rcases lt_or_eq_of_le hr with h | h
  · exact ⟨r, _, h, he, rfl⟩
  · rcases abs_eq (by norm_num) |>.1 h with h | h
    · refine ⟨2 ^ 52, lastBit x + 1, by norm_num, by omega, ?_⟩
      rw [h, zpow_add₀ (by norm_num)]
      push_cast
      ring
    · refine ⟨-2 ^ 52, lastBit x + 1, by norm_num, by omega, ?_⟩
      rw [h, zpow_add₀ (by norm_num)]
      push_cast
      ring

/-- A double is a multiple of the last bit or strictly farther. -/
theorem double_cases (x : ℚ) {y : ℚ} (h : IsDouble y) : (∃ m : ℤ, y = m * 2 ^ lastBit x) ∨ |rnd x - x| < |y - x| := by
  obtain ⟨m, k, h1, h2, rfl⟩ := h
  by_cases c : lastBit x ≤ k
  · left
    obtain ⟨n, rfl⟩ := Int.le.dest c
    refine ⟨m * 2 ^ n, ?_⟩
    rw [zpow_add₀ (by norm_num), zpow_natCast]
    push_cast
    ring
  · by_cases hx : x = 0
    · subst hx
      by_cases hm : m = 0
      · exact Or.inl ⟨0, by rw [hm]; norm_num⟩
      · right
        rw [rnd_zero, sub_zero, sub_zero, abs_zero]
        positivity
    right
    have c' := not_le.1 c
    have big := (lastBit_bound x).2 hx (by omega)
    have small : |(m : ℚ) * 2 ^ k| < 2 ^ (lastBit x + 52) := by
      rw [abs_mul, abs_of_pos (show (0 : ℚ) < 2 ^ k by positivity)]
      have : |(m : ℚ)| < 2 ^ 53 := by exact_mod_cast h1
      refine lt_of_lt_of_le (mul_lt_mul_of_pos_right this (by positivity)) ?_
      rw [show ((2 : ℚ) ^ 53) = 2 ^ (53 : ℤ) by norm_num, ← zpow_add₀ (by norm_num)]
      exact zpow_le_zpow_right₀ (by norm_num) (by omega)
    rw [abs_lt] at small
    rcases le_abs.1 big with q | q
    · have := (rnd_multiple x (2 ^ 52)).1
      refine lt_of_le_of_lt this ?_
      have e : (((2 ^ 52 : ℤ) : ℚ)) * 2 ^ lastBit x = 2 ^ (lastBit x + 52) := by rw [zpow_add₀ (by norm_num)]; push_cast; ring
      rw [e, abs_of_nonpos (by linarith), abs_of_nonpos (by linarith)]
      linarith
    · have := (rnd_multiple x (-2 ^ 52)).1
      refine lt_of_le_of_lt this ?_
      have e : (((-2 ^ 52 : ℤ) : ℚ)) * 2 ^ lastBit x = -2 ^ (lastBit x + 52) := by rw [zpow_add₀ (by norm_num)]; push_cast; ring
      rw [e, abs_of_nonneg (by linarith), abs_of_nonneg (by linarith)]
      linarith

end Feyn
