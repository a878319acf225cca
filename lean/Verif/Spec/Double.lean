import Mathlib.Data.Rat.Lemmas
import Mathlib.Algebra.Order.Field.Rat

/-!
# Specification: numbers of double precision, and parameters for which it neither overflows nor underflows
-/

namespace Feyn

/-- The numbers of the type `double`, without the largest exponent: 53 significant bits and a least exponent. -/
def IsDouble (y : ℚ) : Prop := ∃ m k : ℤ, |m| < 2 ^ 53 ∧ -1074 ≤ k ∧ y = m * 2 ^ k

/-- What is assumed about the temperature and the number of bins: no overflow and no underflow. -/
structure Modest (beta : ℚ) (bins : ℕ) : Prop where
  low : (2 : ℚ) ^ (-400 : ℤ) ≤ beta
  high : beta ≤ 2 ^ (400 : ℤ)
  pos : 0 < bins
  bins : bins < 2147483648

/-- `x` lies on the border between two bins of width one. -/
def OnBorder (x : ℚ) : Prop := ∃ z : ℤ, x = z

end Feyn
