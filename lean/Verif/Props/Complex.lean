import Verif.Spec.Complex
import Mathlib.Tactic.Linarith
import Mathlib.Tactic.LinearCombination
import Mathlib.Tactic.Positivity
import Mathlib.Analysis.SpecialFunctions.Pow.Complex

/-!
# Complex arithmetic: C40
-/

namespace Feyn
open Cx

/-- **C40**, correct operations: sums, differences, products and quotients of two complex numbers, with all their assignment forms. -/
theorem C40_arithmetic_partial (a b : Cx) :
    (add a b).val = a.val + b.val ∧ (addAssign a b).val = a.val + b.val ∧
      (sub a b).val = a.val - b.val ∧ (subAssign a b).val = a.val - b.val ∧
      (mul a b).val = a.val * b.val ∧ (mulAssign a b).val = a.val * b.val ∧ (mulSelf a).val = a.val * a.val ∧
      (neg a).val = -a.val ∧ (conjugate a).val = (starRingEnd ℂ) a.val := by
  refine ⟨?_, ?_, ?_, ?_, ?_, ?_, ?_, ?_, ?_⟩ <;>
    apply Complex.ext <;>
    simp [Cx.val, add, addAssign, sub, subAssign, mul, mulAssign, mulSelf, neg, conjugate, Complex.mul_re, Complex.mul_im]

theorem normSq_val (b : Cx) : mod2 b = Complex.normSq b.val := by
  simp [mod2, Complex.normSq_apply, Cx.val]

theorem val_ne_zero {b : Cx} (h : b.val ≠ 0) : mod2 b ≠ 0 := by
  rw [normSq_val]; exact fun h0 => h (Complex.normSq_eq_zero.1 h0)

/-- **C40**, quotients by a non-zero number. -/
theorem C40_quotient (a b : Cx) (hb : b.val ≠ 0) :
    (div a b).val = a.val / b.val ∧ (divAssign a b).val = a.val / b.val ∧ (divSelf b).val = b.val / b.val ∧
      (∀ x : ℝ, (realDiv x b).val = (x : ℂ) / b.val) := by
  have h1 : ∀ a : Cx, (divAssign a b).val = a.val / b.val := by
    intro a
    rw [div_eq_mul_inv]
    apply Complex.ext <;> simp [Cx.val, divAssign, Complex.mul_re, Complex.mul_im, Complex.inv_re, Complex.inv_im, normSq_val] <;> ring
  refine ⟨h1 a, h1 a, ?_, ?_⟩
  · rw [div_self hb]; apply Complex.ext <;> simp [Cx.val, divSelf]
  · intro x
    rw [div_eq_mul_inv]
    have : b.re * b.re + b.im * b.im = Complex.normSq b.val := by rw [← normSq_val]; rfl
    apply Complex.ext
    · simp only [Cx.val, realDiv, this, Complex.mul_re, Complex.inv_re, Complex.inv_im, Complex.ofReal_re, Complex.ofReal_im]
      ring
    · simp only [Cx.val, realDiv, this, Complex.mul_im, Complex.inv_re, Complex.inv_im, Complex.ofReal_re, Complex.ofReal_im]
      ring

/-- **C40**, mixed operations that are correct: products, quotients and the assignment forms. -/
theorem C40_mixed_partial (a : Cx) (d : ℝ) :
    (realMul d a).val = d * a.val ∧ (mulReal a d).val = a.val * d ∧ (mulAssignReal a d).val = a.val * d ∧
      (divReal a d).val = a.val / d ∧ (divAssignReal a d).val = a.val / d ∧
      (addAssignReal a d).val = a.val + d ∧ (subAssignReal a d).val = a.val - d ∧ (ofReal d).val = d := by
  refine ⟨?_, ?_, ?_, ?_, ?_, ?_, ?_, ?_⟩ <;>
    apply Complex.ext <;>
    simp [Cx.val, realMul, mulReal, mulAssignReal, divReal, divAssignReal, addAssignReal, subAssignReal, ofReal, mul_comm]

/-- **C40** fails for mixed sums and differences. The sums are right exactly if the real number is zero; the differences
`z - x` and `x - z` are right exactly if `x = 0` and if `x = Re z, Im z = x / 2`, respectively. -/
theorem C40_mixed_sums_refuted (a : Cx) (d : ℝ) :
    ((realAdd d a).val = d + a.val ↔ d = 0) ∧ ((addReal a d).val = a.val + d ↔ d = 0) ∧
      ((subReal a d).val = a.val - d ↔ d = 0) ∧ ((realSub d a).val = d - a.val ↔ d = a.re ∧ 2 * a.im = d) := by
  refine ⟨?_, ?_, ?_, ?_⟩ <;> rw [Complex.ext_iff] <;>
    simp only [Cx.val, realAdd, addReal, subReal, realSub, Complex.add_re, Complex.add_im, Complex.sub_re, Complex.sub_im,
      Complex.ofReal_re, Complex.ofReal_im]
  · constructor
    · rintro ⟨-, h⟩; linarith
    · rintro rfl; simp
  · constructor
    · rintro ⟨-, h⟩; linarith
    · rintro rfl; simp
  · constructor
    · rintro ⟨-, h⟩; linarith
    · rintro rfl; simp
  · constructor
    · rintro ⟨h1, h2⟩; constructor <;> linarith
    · rintro ⟨h1, h2⟩; constructor <;> linarith

/-- **C40**, modulus and phase: the modulus is the absolute value; a number is its modulus times its phase; the phase has modulus one,
except that the phase of zero is zero. -/
theorem C40_modulus (a : Cx) :
    mod a = ‖a.val‖ ∧ mod2 a = ‖a.val‖ ^ 2 ∧ a.val = (mod a : ℂ) * (phase a).val ∧
      (a.val ≠ 0 → ‖(phase a).val‖ = 1) ∧ (a.val = 0 → (phase a).val = 0) := by
  have h1 : mod a = ‖a.val‖ := by rw [mod, normSq_val, Complex.norm_def]
  have h2 : mod2 a = ‖a.val‖ ^ 2 := by rw [normSq_val, Complex.normSq_eq_norm_sq]
  have hz : isZero a = true ↔ a.val = 0 := by
    simp [isZero, Complex.ext_iff, Cx.val]
  have hp : a.val ≠ 0 → (phase a).val = a.val / (mod a : ℂ) := by
    intro h
    unfold phase
    rw [if_neg (by rw [hz]; exact h)]
    exact (C40_mixed_partial a (mod a)).2.2.2.1
  have hp0 : a.val = 0 → (phase a).val = 0 := by
    intro h
    unfold phase
    rw [if_pos (hz.2 h)]
    apply Complex.ext <;> simp [ofReal, Cx.val]
  refine ⟨h1, h2, ?_, ?_, hp0⟩
  · by_cases h : a.val = 0
    · rw [hp0 h, h]; simp
    · rw [hp h, mul_div_cancel₀]
      rw [h1]
      simpa using h
  · intro h
    rw [hp h, h1, norm_div]
    simp [h]

/-- **C40**, exponential and polar form. -/
theorem C40_exponential (a : Cx) (r t : ℝ) :
    (exp a).val = Complex.exp a.val ∧ (polar r t).val = r * Complex.exp (t * Complex.I) := by
  constructor
  · apply Complex.ext
    · rw [Complex.exp_re]; simp [exp, realMul, Cx.val, mul_comm]
    · rw [Complex.exp_im]; simp [exp, realMul, Cx.val, mul_comm]
  · apply Complex.ext <;> simp [polar, Cx.val, Complex.exp_ofReal_mul_I_re, Complex.exp_ofReal_mul_I_im]

/-- **C40**, square root: it squares to its argument and is the principal branch (right half plane, or upper imaginary axis). -/
theorem C40_square_root (a : Cx) :
    (sqrt a).val ^ 2 = a.val ∧ (0 < (sqrt a).re ∨ ((sqrt a).re = 0 ∧ 0 ≤ (sqrt a).im)) := by
  have hm0 : 0 ≤ mod a := Real.sqrt_nonneg _
  have hm2 : mod a * mod a = a.re * a.re + a.im * a.im :=
    Real.mul_self_sqrt (add_nonneg (mul_self_nonneg _) (mul_self_nonneg _))
  have key : ∀ x y : ℝ, x * x - y * y = a.re → 2 * (x * y) = a.im → (⟨x, y⟩ : Cx).val ^ 2 = a.val := by
    intro x y h1 h2
    rw [sq]
    apply Complex.ext
    · simp only [Cx.val, Complex.mul_re]; exact h1
    · simp only [Cx.val, Complex.mul_im]; linarith
  unfold sqrt
  simp only
  by_cases h0 : mod a = 0
  · rw [if_pos h0]
    rw [h0] at hm2
    have hr : a.re = 0 := by nlinarith [mul_self_nonneg a.re, mul_self_nonneg a.im]
    have hi : a.im = 0 := by nlinarith [mul_self_nonneg a.re, mul_self_nonneg a.im]
    exact ⟨key 0 0 (by rw [hr]; ring) (by rw [hi]; ring), Or.inr ⟨rfl, le_rfl⟩⟩
  have hmp : 0 < mod a := lt_of_le_of_ne hm0 (Ne.symm h0)
  rw [if_neg h0]
  by_cases hr : a.re > 0
  · rw [if_pos hr]
    have hp : 0 < 0.5 * (mod a + a.re) := by norm_num; linarith
    have hs : 0 < Real.sqrt (0.5 * (mod a + a.re)) := Real.sqrt_pos.2 hp
    have hss : Real.sqrt (0.5 * (mod a + a.re)) * Real.sqrt (0.5 * (mod a + a.re)) = 0.5 * (mod a + a.re) :=
      Real.mul_self_sqrt hp.le
    refine ⟨key _ _ ?_ ?_, Or.inl hs⟩
    · rw [div_mul_div_comm, hss, sub_eq_iff_eq_add, ← sub_eq_iff_eq_add', eq_div_iff hp.ne']
      norm_num at *
      nlinarith
    · have := hs.ne'
      rw [mul_div_cancel₀ _ this]
      norm_num; ring
  · rw [if_neg hr]
    have hp : 0 < 0.5 * (mod a - a.re) := by
      norm_num
      rcases lt_or_eq_of_le (not_lt.1 hr) with h | h
      · linarith
      · linarith
    have hs : 0 < Real.sqrt (0.5 * (mod a - a.re)) := Real.sqrt_pos.2 hp
    have hss : Real.sqrt (0.5 * (mod a - a.re)) * Real.sqrt (0.5 * (mod a - a.re)) = 0.5 * (mod a - a.re) :=
      Real.mul_self_sqrt hp.le
    have gen : ∀ y : ℝ, y ≠ 0 → y * y = 0.5 * (mod a - a.re) →
        (⟨0.5 * a.im / y, y⟩ : Cx).val ^ 2 = a.val := by
      intro y hy hyy
      refine key _ _ ?_ ?_
      · rw [div_mul_div_comm, hyy, sub_eq_iff_eq_add, div_eq_iff hp.ne']
        norm_num at *
        nlinarith
      · rw [div_mul_cancel₀ _ hy]; norm_num; ring
    by_cases hi : a.im < 0
    · rw [if_pos hi]
      refine ⟨gen _ (neg_ne_zero.2 hs.ne') (by rw [neg_mul_neg, hss]), Or.inl ?_⟩
      simp only
      rw [div_neg, ← neg_div]
      apply div_pos _ hs
      norm_num; linarith
    · rw [if_neg hi]
      refine ⟨gen _ hs.ne' hss, ?_⟩
      rcases lt_or_eq_of_le (not_lt.1 hi) with h | h
      · left; simp only; apply div_pos _ hs; norm_num; linarith
      · right; simp only; rw [← h]; simp

/-- Powers are not part of the claim, but they are wrong too: `pow(z, u)` with a real exponent ignores `z`. -/
theorem C40_pow_refuted (z : Cx) (u : ℝ) : (powReal z u).val = if u = 0 then 1 else 0 := by
  unfold powReal
  rw [if_pos (by simp [isZero, ofReal])]
  split_ifs <;> apply Complex.ext <;> simp [ofReal, Cx.val]

/-- `pow(z, w)` is the power for positive real bases and for bases off the real axis; on the negative real axis the argument is taken
as zero, so that `pow(-1, 1) = 1`. -/
theorem C40_pow_partial (z w : Cx) :
    ((z.im ≠ 0 ∨ 0 < z.re) → (pow z w).val = z.val ^ w.val) ∧ (pow ⟨-1, 0⟩ ⟨1, 0⟩).val = 1 := by
  constructor
  · intro h
    have hz : z.val ≠ 0 := by
      intro h0
      rw [Complex.ext_iff] at h0
      simp only [Cx.val, Complex.zero_re, Complex.zero_im] at h0
      rcases h with h | h
      · exact h h0.2
      · linarith [h0.1]
    have hzz : isZero z = false := by
      simp only [isZero, Bool.and_eq_false_iff, decide_eq_false_iff_not]
      rcases h with h | h
      · exact Or.inr h
      · exact Or.inl h.ne'
    have harg : arg z = Complex.arg z.val := by
      unfold arg
      split_ifs with hi
      · rfl
      · rcases h with h | h
        · exact absurd h hi
        · rw [eq_comm, Complex.arg_eq_zero_iff]
          simp only [not_not] at hi
          exact ⟨h.le, hi⟩
    have hlog : 0.5 * Real.log (mod2 z) = Real.log ‖z.val‖ := by
      rw [(C40_modulus z).2.1, Real.log_pow]; norm_num; ring
    unfold pow
    rw [if_neg (by rw [hzz]; simp)]
    simp only [hlog, harg]
    rw [Complex.cpow_def_of_ne_zero hz]
    apply Complex.ext
    · rw [Complex.exp_re, Complex.mul_re, Complex.mul_im, Complex.log_re, Complex.log_im]
      simp only [realMul, Cx.val]
      rw [mul_comm]
    · rw [Complex.exp_im, Complex.mul_re, Complex.mul_im, Complex.log_re, Complex.log_im]
      simp only [realMul, Cx.val]
      rw [mul_comm]
  · unfold pow
    rw [if_neg (by simp [isZero])]
    apply Complex.ext <;> simp [mod2, arg, realMul, Cx.val]

/-- C40 on a case: `(3 + 4 i) / (1 + 2 i) = (11 - 2 i) / 5`, and `1 + i` comes out of `1 + Complex(0, 0)`. -/
example : div ⟨3, 4⟩ ⟨1, 2⟩ = ⟨11 / 5, -2 / 5⟩ ∧ realAdd 1 ⟨0, 0⟩ = ⟨1, 1⟩ := by
  constructor <;> ext <;> simp [div, divAssign, mod2, realAdd] <;> norm_num

/-- **C40**, comparison: `Equal` holds exactly if both parts differ by less than the tolerance; so equal numbers are equal for every positive
tolerance, and numbers that are `Equal` for every positive tolerance are the same. -/
theorem C40_equal (a b : Cx) :
    (∀ eps, Cx.equal a b eps = true ↔ |(a.val - b.val).re| < eps ∧ |(a.val - b.val).im| < eps) ∧
      ((∀ eps, 0 < eps → Cx.equal a b eps = true) ↔ a.val = b.val) := by
  have h : ∀ eps, Cx.equal a b eps = true ↔ |(a.val - b.val).re| < eps ∧ |(a.val - b.val).im| < eps := by
    intro eps
    simp [Cx.equal, Cx.val]
  refine ⟨h, ?_, ?_⟩
  · intro h1
    rw [← sub_eq_zero]
    apply Complex.ext
    · by_contra h2
      exact lt_irrefl _ ((h _).1 (h1 _ (abs_pos.2 h2))).1
    · by_contra h2
      exact lt_irrefl _ ((h _).1 (h1 _ (abs_pos.2 h2))).2
  · intro h1 eps he
    rw [h, h1]
    simpa using he

end Feyn
