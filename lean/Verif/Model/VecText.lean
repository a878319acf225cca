import Verif.Model.Rng
import Mathlib.Data.Real.Basic

/-!
# The text of vectors and momenta (`utility/vector.cpp`, `utility/momentum.cpp`) (C102)

A vector of `D` components is a list of `D` numbers. Streams are those of the text of the generator (`InStream`): `badbit` is never set.
-/

namespace Feyn

/-- `os << n` for an `int` with the flag `dec`. -/
def intText (n : ℤ) : List Byte := if n < 0 then 45 :: decimal n.natAbs else decimal n.natAbs

/-- `operator<<` of `Vec<int>`, `utility/vector.cpp` 15-22: the components with a comma after each but the last. -/
def vecText : List ℤ → List Byte
  | [] => []
  | [n] => intText n
  | n :: m :: l => intText n ++ [44] ++ vecText (m :: l)

/-- `is >> n` for an `int`. Nothing happens to the variable if a flag is set or only spaces are left. Without digits the variable becomes 0, numbers out of range give the nearest `int`; both set
`failbit`. -/
def readInt (s : InStream) (old : ℤ) : InStream × ℤ :=
  if s.eof || s.fail then ({ s with fail := true }, old)
  else
    match s.rest.dropWhile isSpace with
    | [] => (⟨[], true, true⟩, old)
    | c :: l =>
      let body := if c = 43 || c = 45 then l else c :: l
      let digits := body.takeWhile isDigitByte
      let rest := body.dropWhile isDigitByte
      let n : ℤ := if c = 45 then -(digitsValue digits : ℤ) else digitsValue digits
      if digits.isEmpty then (⟨rest, rest.isEmpty, true⟩, 0)
      else if 2147483647 < n then (⟨rest, rest.isEmpty, true⟩, 2147483647)
      else if n < -2147483648 then (⟨rest, rest.isEmpty, true⟩, -2147483648)
      else (⟨rest, rest.isEmpty, false⟩, n)

/-- `is >> c` for a `char`; the end of the text is not looked for. -/
def readByte (s : InStream) (old : Byte) : InStream × Byte :=
  if s.eof || s.fail then ({ s with fail := true }, old)
  else
    match s.rest.dropWhile isSpace with
    | [] => (⟨[], true, true⟩, old)
    | c :: l => (⟨l, false, false⟩, c)

/-- The loop of `operator>>` of `Vec<int>`, `utility/vector.cpp` 32-36; `sep` is what the variable has, at first any value. -/
def readTail : InStream → Byte → List ℤ → InStream × List ℤ
  | s, _, [] => (s, [])
  | s, sep, o :: l =>
    let a := readByte s sep
    let b := readInt a.1 o
    let r := readTail (if a.2 = 44 then b.1 else { b.1 with fail := true }) a.2 l
    (r.1, b.2 :: r.2)

/-- `operator>>` of `Vec<int>`, `utility/vector.cpp` 27-38: `v` has the components before. -/
def readVec (s : InStream) (sep : Byte) (v : List ℤ) : InStream × List ℤ :=
  match v with
  | [] => (s, [])
  | o :: l =>
    let b := readInt s o
    let r := readTail b.1 sep l
    (r.1, b.2 :: r.2)

/-- `operator<<` and `operator>>` of `Momentum`, `utility/momentum.cpp` 144-154. -/
def momentumText (k : ℤ) : List Byte := intText k
@[inherit_doc momentumText] def readMomentum (s : InStream) (k : ℤ) : InStream × ℤ := readInt s k

/-- `operator==` of `Vec<int>`, `utility/vector.cpp` 51-57. -/
def vecEq : List ℤ → List ℤ → Bool
  | a :: v, b :: w => if a ≠ b then false else vecEq v w
  | _, _ => true

/-- `operator==` of `Vec<real>`, `utility/vector.cpp` 59-65, with `Equal` (`utility/utility.cpp` 16-19); real numbers instead of `double`. -/
noncomputable def vecEqReal (eps : ℝ) : List ℝ → List ℝ → Bool
  | a :: v, b :: w => if ¬ |a - b| < eps then false else vecEqReal eps v w
  | _, _ => true

end Feyn
