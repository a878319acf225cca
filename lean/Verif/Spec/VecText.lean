import Verif.Model.VecText

/-! # The text of vectors and momenta: specification (C102) -/

namespace Feyn

/-- The numbers of an `int`. -/
def IsInt (n : ℤ) : Prop := -2147483648 ≤ n ∧ n ≤ 2147483647

/-- `t` is a text of the number `n`: spaces, perhaps a sign, and digits. -/
def IsIntText (n : ℤ) (t : List Byte) : Prop :=
  ∃ sp ds : List Byte, (∀ c ∈ sp, isSpace c) ∧ ds ≠ [] ∧ (∀ c ∈ ds, isDigitByte c) ∧
    ((t = sp ++ ds ∧ n = digitsValue ds) ∨ (t = sp ++ 43 :: ds ∧ n = digitsValue ds) ∨ (t = sp ++ 45 :: ds ∧ n = -(digitsValue ds : ℤ)))

/-- `t` is a text of the numbers `v`: a text of each of them, with commas between, and spaces before the commas. -/
inductive IsVecText : List ℤ → List Byte → Prop
  | one {n : ℤ} {t : List Byte} : IsIntText n t → IsVecText [n] t
  | more {n m : ℤ} {l : List ℤ} {t sp u : List Byte} : IsIntText n t → (∀ c ∈ sp, isSpace c) → IsVecText (m :: l) u → IsVecText (n :: m :: l) (t ++ sp ++ 44 :: u)

end Feyn
