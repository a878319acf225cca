import Mathlib.Tactic.Ring
import Verif.Model.Momentum

/-! # Lemmas about momentum arithmetic -/

namespace Feyn

theorem shiftK_dvd (k : ℤ) : (20001 : ℤ) ∣ shiftK k - k := by
  unfold shiftK; dsimp only; split_ifs <;> omega

theorem shiftK_in {k : ℤ} (h1 : -30001 ≤ k) (h2 : k ≤ 30001) : InK (shiftK k) := by
  unfold InK shiftK; dsimp only; split_ifs <;> omega

theorem shiftK_of_in {k : ℤ} (h : InK k) : shiftK k = k := by
  unfold InK at h; unfold shiftK; dsimp only; split_ifs <;> omega

theorem addK_dvd (a b : ℤ) : (20001 : ℤ) ∣ addK a b - (a + b) := by
  have h1 := shiftK_dvd (a + b)
  have h2 := shiftK_dvd (shiftK (a + b))
  unfold addK ofInt; omega

theorem subK_dvd (a b : ℤ) : (20001 : ℤ) ∣ subK a b - (a - b) := by
  have h1 := shiftK_dvd (a - b)
  have h2 := shiftK_dvd (shiftK (a - b))
  unfold subK ofInt; omega

theorem mulK_dvd (n a : ℤ) : (20001 : ℤ) ∣ mulK n a - a * n := shiftK_dvd _

theorem addK_in {a b : ℤ} (ha : InK a) (hb : InK b) : InK (addK a b) := by
  have h : InK (shiftK (a + b)) := shiftK_in (by unfold InK at *; omega) (by unfold InK at *; omega)
  unfold addK ofInt; rw [shiftK_of_in h]; exact h

theorem subK_in {a b : ℤ} (ha : InK a) (hb : InK b) : InK (subK a b) := by
  have h : InK (shiftK (a - b)) := shiftK_in (by unfold InK at *; omega) (by unfold InK at *; omega)
  unfold subK ofInt; rw [shiftK_of_in h]; exact h

theorem mulK_sgn_in {a : ℤ} (e : Dir) (ha : InK a) : InK (mulK (sgn e) a) := by
  unfold mulK ofInt
  have : InK (a * sgn e) := by cases e <;> simp [sgn, InK] at * <;> omega
  rw [shiftK_of_in this]; exact this

theorem mulK_sgn_eq {a : ℤ} (e : Dir) (ha : InK a) : mulK (sgn e) a = a * sgn e := by
  unfold mulK ofInt
  have : InK (a * sgn e) := by cases e <;> simp [sgn, InK] at * <;> omega
  rw [shiftK_of_in this]

theorem mulK_sgn2_in {a : ℤ} (e e' : Dir) (ha : InK a) : InK (mulK (sgn e * sgn e') a) := by
  unfold mulK ofInt
  have : InK (a * (sgn e * sgn e')) := by cases e <;> cases e' <;> simp [sgn, InK] at * <;> omega
  rw [shiftK_of_in this]; exact this

/-- Two momenta in range that agree modulo `2 * MAX_K + 1` are equal. -/
theorem InK.eq_of_dvd {a b : ℤ} (ha : InK a) (hb : InK b) (h : (20001 : ℤ) ∣ a - b) : a = b := by
  unfold InK at *; omega

end Feyn
