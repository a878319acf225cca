import Verif.Model.Double
import Verif.Proof.Select
import Mathlib.Algebra.Order.Field.Power
import Mathlib.Data.Nat.Prime.Basic
import Mathlib.Tactic.Linarith
import Mathlib.Tactic.Ring
import Mathlib.Tactic.FieldSimp
import Mathlib.Tactic.NormNum
import Mathlib.Tactic.Positivity

/-!
# Errors of operations with double precision
-/

namespace Feyn

theorem roundEven_near (x : ℚ) : |(roundEven x : ℚ) - x| ≤ 1 / 2 := by
  have h1 := Int.floor_le x
  have h2 := Int.lt_floor_add_one x
  unfold roundEven
  split_ifs <;> rw [abs_le] <;> push_cast <;> constructor <;> linarith

theorem roundEven_int (n : ℤ) : roundEven n = n := by
  unfold roundEven
  rw [Int.floor_intCast, sub_self, if_pos (by norm_num)]

theorem rnd_zero : rnd 0 = 0 := by
  unfold rnd
  rw [zero_div, show (0 : ℚ) = ((0 : ℤ) : ℚ) by norm_num, roundEven_int]
  norm_num

/-- Relative error of an operation. -/
theorem rnd_near {x : ℚ} (h : (2 : ℚ) ^ (-1022 : ℤ) ≤ |x|) : |rnd x - x| ≤ |x| / 2 ^ 53 := by
  have hx : 0 < |x| := lt_of_lt_of_le (by positivity) h
  have h1 : (2 : ℚ) ^ Int.log 2 |x| ≤ |x| := by exact_mod_cast Int.zpow_log_le_self (b := 2) (by norm_num) hx
  have h2 : (-1022 : ℤ) ≤ Int.log 2 |x| := by
    have := Int.log_mono_right (b := 2) (by positivity) h
    rwa [show ((2 : ℚ) ^ (-1022 : ℤ)) = ((2 : ℕ) : ℚ) ^ (-1022 : ℤ) by norm_num, Int.log_zpow (by norm_num)] at this
  have h3 : lastBit x = Int.log 2 |x| - 52 := max_eq_left (by omega)
  have hp : (0 : ℚ) < 2 ^ lastBit x := by positivity
  have e : rnd x - x = (roundEven (x / 2 ^ lastBit x) - x / 2 ^ lastBit x) * 2 ^ lastBit x := by
    unfold rnd
    field_simp
  rw [e, abs_mul, abs_of_pos hp]
  have h4 := roundEven_near (x / 2 ^ lastBit x)
  calc _ ≤ 1 / 2 * (2 : ℚ) ^ lastBit x := mul_le_mul_of_nonneg_right h4 hp.le
    _ = 2 ^ Int.log 2 |x| / 2 ^ 53 := by
      rw [h3, zpow_sub₀ (by norm_num)]
      norm_num
      ring
    _ ≤ _ := by gcongr

/-- Numbers with 53 bits are not changed. -/
theorem rnd_exact {m k : ℤ} (hm : |m| < 2 ^ 53) (hk : -1074 ≤ k) : rnd (m * 2 ^ k) = m * 2 ^ k := by
  by_cases h0 : m = 0
  · subst h0
    simpa using rnd_zero
  have hb : lastBit (m * 2 ^ k) ≤ k := by
    unfold lastBit
    refine max_le ?_ hk
    have hx : 0 < |(m : ℚ) * 2 ^ k| := by positivity
    have h1 : ((2 : ℕ) : ℚ) ^ Int.log 2 |(m : ℚ) * 2 ^ k| ≤ |(m : ℚ) * 2 ^ k| := Int.zpow_log_le_self (b := 2) (by norm_num) hx
    have h2 : |(m : ℚ) * 2 ^ k| < 2 ^ (53 + k) := by
      rw [abs_mul, abs_of_pos (show (0 : ℚ) < 2 ^ k by positivity), zpow_add₀ (by norm_num)]
      have : |(m : ℚ)| < 2 ^ (53 : ℤ) := by
        have : ((|m| : ℤ) : ℚ) < ((2 ^ 53 : ℤ) : ℚ) := by exact_mod_cast hm
        rw [Int.cast_abs] at this
        exact_mod_cast this
      gcongr
    have h3 := lt_of_le_of_lt h1 h2
    have := (zpow_lt_zpow_iff_right₀ (show (1 : ℚ) < 2 by norm_num)).1 (by exact_mod_cast h3)
    omega
  have e : (m : ℚ) * 2 ^ k / 2 ^ lastBit (m * 2 ^ k) = ((m * 2 ^ (k - lastBit (m * 2 ^ k)).toNat : ℤ) : ℚ) := by
    push_cast
    rw [mul_div_assoc, ← zpow_sub₀ (by norm_num), ← zpow_natCast, Int.toNat_of_nonneg (by omega)]
  unfold rnd
  rw [e, roundEven_int, ← e]
  exact div_mul_cancel₀ _ (by positivity)

/-- The random number is exact. -/
theorem urnD_eq (w : Word) : urnD w = urn ℚ w := by
  unfold urnD urn
  generalize hs : (if w.val < 2147483648 then (w.val : ℤ) else (w.val : ℤ) - 4294967296 : ℤ) = s
  have hw := w.isLt
  have h1 : -2147483648 ≤ s ∧ s < 2147483648 := by
    split_ifs at hs <;> omega
  have e1 : (s : ℚ) * (1 / 4294967296) = s * 2 ^ (-32 : ℤ) := by norm_num [zpow_neg]
  rw [e1, rnd_exact (by rw [abs_lt]; constructor <;> norm_num <;> omega) (by norm_num)]
  have e2 : (s : ℚ) * 2 ^ (-32 : ℤ) + 1 / 2 = ((s + 2147483648 : ℤ) : ℚ) * 2 ^ (-32 : ℤ) := by
    push_cast
    rw [add_mul]
    norm_num [zpow_neg]
  rw [e2, rnd_exact (by rw [abs_lt]; constructor <;> norm_num <;> omega) (by norm_num), ← e2]
  norm_num [zpow_neg]
  ring

/-- Place of a word on the grid of the random numbers. -/
def wordPlace (w : Word) : ℕ := if w.val < 2147483648 then w.val + 2147483648 else w.val - 2147483648

theorem wordPlace_lt (w : Word) : wordPlace w < 4294967296 := by
  have := w.isLt
  unfold wordPlace
  split_ifs <;> omega

theorem urn_wordPlace (w : Word) : urn ℚ w = wordPlace w / 4294967296 := by
  unfold urn wordPlace
  split_ifs with h
  · push_cast; ring
  · rw [Nat.cast_sub (by omega)]
    push_cast; ring

/-! ## Choice of an update -/

theorem callSumD_near {n : ℕ} (hn : 0 < n) (hN : n ≤ 1024) : ∀ j < n, |callSumD n j - (j + 1) / n| ≤ (j + 1) / 2 ^ 51 := by
  have hn' : (0 : ℚ) < n := by exact_mod_cast hn
  have hN' : (n : ℚ) ≤ 1024 := by exact_mod_cast hN
  have hp1 : (1 : ℚ) / 1024 ≤ 1 / n := by gcongr
  have hp2 : (1 : ℚ) / n ≤ 1 := by rw [div_le_one hn']; exact_mod_cast hn
  have hsm : (2 : ℚ) ^ (-1022 : ℤ) ≤ 1 / 2048 := by
    have : (2 : ℚ) ^ (-1022 : ℤ) ≤ 2 ^ (-11 : ℤ) := zpow_le_zpow_right₀ (by norm_num) (by norm_num)
    norm_num at this ⊢
    exact this
  have hp : |rnd (1 / n) - 1 / (n : ℚ)| ≤ 1 / 2 ^ 53 := by
    have h := rnd_near (x := 1 / (n : ℚ)) (by rw [abs_of_pos (by positivity)]; linarith)
    rw [abs_of_pos (show (0 : ℚ) < 1 / n by positivity)] at h
    refine h.trans ?_
    gcongr
  rw [abs_le] at hp
  have step : ∀ s : ℚ, 0 ≤ s → s ≤ 1 → |rnd (s + rnd (1 / n)) - (s + 1 / n)| ≤ 1 / 2 ^ 51 := by
    intro s h0 h1
    have hl : 1 / 2048 ≤ s + rnd (1 / (n : ℚ)) := by norm_num at hp hp1 ⊢; linarith
    have hu : s + rnd (1 / (n : ℚ)) ≤ 2 + 1 / 2 ^ 53 := by norm_num at hp hp2 ⊢; linarith
    have h := rnd_near (x := s + rnd (1 / (n : ℚ))) (by rw [abs_of_pos (by linarith)]; linarith)
    rw [abs_of_pos (show (0 : ℚ) < s + rnd (1 / n) by linarith), abs_le] at h
    have h2 : (s + rnd (1 / (n : ℚ))) / 2 ^ 53 ≤ (2 + 1 / 2 ^ 53) / 2 ^ 53 := by gcongr
    rw [abs_le]
    norm_num at h h2 hp ⊢
    constructor <;> linarith [h.1, h.2]
  intro j
  induction j with
  | zero =>
    intro _
    have h := step 0 (le_refl _) (by norm_num)
    show |rnd (0 + rnd (1 / n)) - _| ≤ _
    simpa using h
  | succ j ih =>
    intro hj
    have ih := ih (by omega)
    have hjn : ((j : ℚ) + 1) / n ≤ 1 - 1 / n := by
      rw [div_le_iff₀ hn', sub_mul, one_div, inv_mul_cancel₀ hn'.ne']
      have : (j : ℚ) + 1 + 1 ≤ n := by exact_mod_cast hj
      linarith
    have hj' : (j : ℚ) + 1 ≤ 1024 := by
      have : (j : ℚ) + 1 + 1 ≤ n := by exact_mod_cast hj
      linarith
    rw [abs_le] at ih
    have hq : ((j : ℚ) + 1) / 2 ^ 51 ≤ 1024 / 2 ^ 51 := by gcongr
    have hjp : 1 / (1024 : ℚ) ≤ (j + 1) / n := hp1.trans (by gcongr; linarith [Nat.cast_nonneg (α := ℚ) j])
    have h := step (callSumD n j) (by norm_num at ih hq hjp ⊢; linarith [ih.1]) (by norm_num at ih hq hjn hp1 ⊢; linarith [ih.2])
    show |rnd (callSumD n j + rnd (1 / n)) - _| ≤ _
    rw [abs_le] at h ⊢
    push_cast
    rw [show ((j : ℚ) + 1 + 1) / n = (j + 1) / n + 1 / n by ring, show ((j : ℚ) + 1 + 1) / 2 ^ 51 = (j + 1) / 2 ^ 51 + 1 / 2 ^ 51 by ring]
    constructor <;> linarith [h.1, h.2, ih.1, ih.2]

theorem selectIdxD_eq {n : ℕ} (hn : n % 2 = 1) (hN : n ≤ 256) (w : Word) : selectIdxD n (urnD w) = some (wordPlace w * n / 4294967296) := by
  have hp := wordPlace_lt w
  have hn' : (0 : ℚ) < n := by exact_mod_cast (show 0 < n by omega)
  have hN' : (n : ℚ) ≤ 256 := by exact_mod_cast hN
  generalize hj : wordPlace w * n / 4294967296 = j
  have h1 : j * 4294967296 ≤ wordPlace w * n := by rw [← hj]; exact Nat.div_mul_le_self _ _
  have h2 : wordPlace w * n < (j + 1) * 4294967296 := by
    have := Nat.lt_div_mul_add (a := wordPlace w * n) (b := 4294967296) (by norm_num)
    rw [hj] at this
    omega
  have hjn : j < n := by
    by_contra h
    have : n * 4294967296 ≤ j * 4294967296 := Nat.mul_le_mul_right _ (by omega)
    have : wordPlace w * n < n * 4294967296 := by rw [Nat.mul_comm n]; exact Nat.mul_lt_mul_of_pos_right hp (by omega)
    omega
  have gap : ∀ a b : ℕ, a * 4294967296 + 1 ≤ b * n → (a : ℚ) / n + 1 / (n * 4294967296) ≤ b / 4294967296 := by
    intro a b h
    have h' : (a : ℚ) * 4294967296 + 1 ≤ b * n := by exact_mod_cast h
    rw [div_add_div _ _ hn'.ne' (by positivity), div_le_div_iff₀ (by positivity) (by positivity)]
    nlinarith [mul_le_mul_of_nonneg_left h' (show (0 : ℚ) ≤ n * 4294967296 by positivity)]
  have gap' : ∀ a b : ℕ, b * n + 1 ≤ a * 4294967296 → (b : ℚ) / 4294967296 + 1 / (n * 4294967296) ≤ a / n := by
    intro a b h
    have h' : (b : ℚ) * n + 1 ≤ a * 4294967296 := by exact_mod_cast h
    rw [div_add_div _ _ (by norm_num) (by positivity), div_le_div_iff₀ (by positivity) (by positivity)]
    nlinarith [mul_le_mul_of_nonneg_left h' (show (0 : ℚ) ≤ n * 4294967296 by positivity)]
  have hs : (1 : ℚ) / (256 * 4294967296) ≤ 1 / (n * 4294967296) := by gcongr
  have small : ∀ i < n, ((i : ℚ) + 1) / 2 ^ 51 < 1 / (n * 4294967296) := by
    intro i hi
    refine lt_of_lt_of_le ?_ hs
    have : (i : ℚ) + 1 ≤ 256 := by exact_mod_cast (show i + 1 ≤ 256 by omega)
    calc ((i : ℚ) + 1) / 2 ^ 51 ≤ 256 / 2 ^ 51 := by gcongr
      _ < _ := by norm_num
  unfold selectIdxD
  rw [urnD_eq, urn_wordPlace]
  refine find_range hjn ?_ fun i hi => ?_
  · have h3 := callSumD_near (n := n) (by omega) (by omega) j hjn
    have h4 := gap' (j + 1) (wordPlace w) (by omega)
    have h5 := small j hjn
    rw [abs_le] at h3
    push_cast at h4
    exact decide_eq_true (by linarith [h3.1])
  · have h3 := callSumD_near (n := n) (by omega) (by omega) i (by omega)
    have h6 : (i + 1) * 4294967296 ≤ j * 4294967296 := Nat.mul_le_mul_right 4294967296 hi
    have hne : (i + 1) * 4294967296 ≠ wordPlace w * n := by
      intro e
      have hd : 4294967296 ∣ wordPlace w * n := ⟨i + 1, by rw [← e]; ring⟩
      have hc : Nat.Coprime 4294967296 n := by
        rw [show 4294967296 = 2 ^ 32 by norm_num]
        exact Nat.Coprime.pow_left _ ((Nat.Prime.coprime_iff_not_dvd Nat.prime_two).2 (by omega))
      have := Nat.le_of_dvd (by
        by_contra h
        rw [show wordPlace w = 0 by omega, zero_mul] at e
        omega) (hc.dvd_of_dvd_mul_right hd)
      omega
    have h4 := gap (i + 1) (wordPlace w) (lt_of_le_of_ne (h6.trans h1) hne)
    have h5 := small i (by omega)
    rw [abs_le] at h3
    push_cast at h4
    exact decide_eq_false (by linarith [h3.2])

theorem selectIdx_wordPlace {Q F : Type} [Field Q] [LinearOrder Q] [IsStrictOrderedRing Q] [Field F] (P : Params Q F) (w : Word) :
    selectIdx (probOfIdx P) (numOps P) (urn Q w) = some (wordPlace w * numOps P / 4294967296) := by
  have hp := wordPlace_lt w
  have hn := numOps_pos P
  have hn' : (0 : Q) < numOps P := by exact_mod_cast hn
  have hu : urn Q w = wordPlace w / 4294967296 := by
    unfold urn wordPlace
    split_ifs with h
    · push_cast; ring
    · rw [Nat.cast_sub (by omega)]
      push_cast; ring
  generalize hj : wordPlace w * numOps P / 4294967296 = j
  have h1 : j * 4294967296 ≤ wordPlace w * numOps P := by rw [← hj]; exact Nat.div_mul_le_self _ _
  have h2 : wordPlace w * numOps P < (j + 1) * 4294967296 := by
    have := Nat.lt_div_mul_add (a := wordPlace w * numOps P) (b := 4294967296) (by norm_num)
    rw [hj] at this
    omega
  have hjn : j < numOps P := by
    by_contra h
    have : numOps P * 4294967296 ≤ j * 4294967296 := Nat.mul_le_mul_right _ (by omega)
    have : wordPlace w * numOps P < numOps P * 4294967296 := by rw [Nat.mul_comm (numOps P)]; exact Nat.mul_lt_mul_of_pos_right hp hn
    omega
  refine selectIdx_spec _ (fun i => ?_) _ _ _ hjn ?_ ?_
  · unfold probOfIdx
    split_ifs
    · positivity
    · exact le_refl _
  · rw [sum_probOfIdx P (by omega), hu, div_le_div_iff₀ hn' (by norm_num)]
    exact_mod_cast h1
  · rw [sum_probOfIdx P (by omega), hu, div_lt_div_iff₀ (by norm_num) hn']
    exact_mod_cast h2

end Feyn
