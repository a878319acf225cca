import Mathlib.Analysis.Real.Sqrt
import Mathlib.Analysis.SpecialFunctions.Complex.Arg
import Mathlib.Analysis.SpecialFunctions.Log.Basic
import Mathlib.Analysis.SpecialFunctions.Trigonometric.Basic

/-!
# Complex numbers

`utility/complex.h`, `utility/complex.cpp`. The type `real` (double) is replaced by the real numbers: no rounding, no overflow, no
NaN. Division by zero, which gives infinities or NaN in the source, gives zero here; theorems about quotients assume a non-zero
divisor.
-/

namespace Feyn

/-- `Complex`, `complex.h` 24-48. -/
@[ext] structure Cx where
  re : ℝ
  im : ℝ

noncomputable section
namespace Cx

/-- `Complex(re, im = 0.0)`, `complex.cpp` 18-22. -/
def ofReal (r : ℝ) : Cx := ⟨r, 0⟩

/-- `operator+=(const Complex&)`, `complex.cpp` 45-50. -/
def addAssign (a c : Cx) : Cx := ⟨a.re + c.re, a.im + c.im⟩
/-- `operator+=(const real&)`, `complex.cpp` 52-56. -/
def addAssignReal (a : Cx) (d : ℝ) : Cx := ⟨a.re + d, a.im⟩
/-- `operator-=(const Complex&)`, `complex.cpp` 58-63. -/
def subAssign (a c : Cx) : Cx := ⟨a.re - c.re, a.im - c.im⟩
/-- `operator-=(const real&)`, `complex.cpp` 65-69. -/
def subAssignReal (a : Cx) (d : ℝ) : Cx := ⟨a.re - d, a.im⟩
/-- `operator*=(const Complex&)` with two different objects, `complex.cpp` 71-78. -/
def mulAssign (a c : Cx) : Cx := ⟨a.re * c.re - a.im * c.im, a.re * c.im + a.im * c.re⟩
/-- `c *= c`, `complex.cpp` 71-78: `Re` is overwritten before `c.Im` is read, `c.Re` was saved. -/
def mulSelf (a : Cx) : Cx :=
  let re := a.re
  let cre := a.re
  let a := { a with re := a.re * a.re - a.im * a.im }
  { a with im := re * a.im + a.im * cre }
/-- `operator*=(const real&)`, `complex.cpp` 80-85. -/
def mulAssignReal (a : Cx) (d : ℝ) : Cx := ⟨a.re * d, a.im * d⟩
/-- `mod2`, `complex.h` 88-91. -/
def mod2 (c : Cx) : ℝ := c.re * c.re + c.im * c.im
/-- `operator/=(const Complex&)` with two different objects, `complex.cpp` 87-101. -/
def divAssign (a c : Cx) : Cx :=
  ⟨(a.re * c.re + a.im * c.im) / mod2 c, (a.im * c.re - a.re * c.im) / mod2 c⟩
/-- `c /= c`, `complex.cpp` 89-92. -/
def divSelf (_ : Cx) : Cx := ⟨1, 0⟩
/-- `operator/=(const real&)`, `complex.cpp` 102-107. -/
def divAssignReal (a : Cx) (d : ℝ) : Cx := ⟨a.re / d, a.im / d⟩

/-- `operator+(Complex, Complex)`, `complex.cpp` 130-133. -/
def add (a b : Cx) : Cx := addAssign a b
/-- `operator+(real, Complex)`, `complex.cpp` 135-138. -/
def realAdd (l : ℝ) (r : Cx) : Cx := ⟨r.re + l, r.im + l⟩
/-- `operator+(Complex, real)`, `complex.cpp` 140-143. -/
def addReal (l : Cx) (r : ℝ) : Cx := ⟨l.re + r, l.im + r⟩
/-- `operator-(Complex, Complex)`, `complex.cpp` 150-153. -/
def sub (a b : Cx) : Cx := subAssign a b
/-- `operator-(real, Complex)`, `complex.cpp` 155-158. -/
def realSub (l : ℝ) (r : Cx) : Cx := ⟨r.re - l, r.im - l⟩
/-- `operator-(Complex, real)`, `complex.cpp` 160-163. -/
def subReal (l : Cx) (r : ℝ) : Cx := ⟨l.re + r, l.im + r⟩
/-- Unary `operator-`, `complex.cpp` 165-168. -/
def neg (c : Cx) : Cx := ⟨-c.re, -c.im⟩
/-- `operator*(Complex, Complex)`, `complex.cpp` 170-173. -/
def mul (a b : Cx) : Cx := mulAssign a b
/-- `operator*(real, Complex)`, `complex.cpp` 175-178. -/
def realMul (l : ℝ) (r : Cx) : Cx := ⟨r.re * l, r.im * l⟩
/-- `operator*(Complex, real)`, `complex.cpp` 180-183. -/
def mulReal (l : Cx) (r : ℝ) : Cx := ⟨l.re * r, l.im * r⟩
/-- `operator/(Complex, Complex)`, `complex.cpp` 185-188: the left operand is copied, so it never is the same object as the right one. -/
def div (a b : Cx) : Cx := divAssign a b
/-- `operator/(real, Complex)`, `complex.cpp` 190-195. -/
def realDiv (x : ℝ) (y : Cx) : Cx :=
  let factor := 1 / (y.re * y.re + y.im * y.im)
  ⟨x * y.re * factor, -x * y.im * factor⟩
/-- `operator/(Complex, real)`, `complex.cpp` 197-200. -/
def divReal (a : Cx) (d : ℝ) : Cx := divAssignReal a d

/-- `conjugate`, `complex.h` 82-85. -/
def conjugate (c : Cx) : Cx := ⟨c.re, -c.im⟩
/-- `mod`, `complex.h` 94-97. -/
def mod (c : Cx) : ℝ := Real.sqrt (mod2 c)
open Classical in
/-- `IsZero`, `complex.h` 60-63. -/
def isZero (c : Cx) : Bool := decide (c.re = 0) && decide (c.im = 0)
open Classical in
/-- `arg`, `complex.h` 99-102. The library function `atan2(y, x)` is the argument of `x + iy` in `(-π, π]`. -/
def arg (c : Cx) : ℝ := if c.im ≠ 0 then Complex.arg ⟨c.re, c.im⟩ else 0
/-- `phase`, `complex.h` 104-109. -/
def phase (c : Cx) : Cx := if isZero c then ofReal 0 else divReal c (mod c)
/-- `exp`, `complex.h` 111-114. -/
def exp (c : Cx) : Cx := realMul (Real.exp c.re) ⟨Real.cos c.im, Real.sin c.im⟩
open Classical in
/-- `sqrt`, `complex.h` 117-132. -/
def sqrt (x : Cx) : Cx :=
  let mag := mod x
  if mag = 0 then ⟨0, 0⟩
  else if x.re > 0 then
    let re := Real.sqrt (0.5 * (mag + x.re))
    ⟨re, 0.5 * x.im / re⟩
  else
    let im := Real.sqrt (0.5 * (mag - x.re))
    let im := if x.im < 0 then -im else im
    ⟨0.5 * x.im / im, im⟩
/-- `polar`, `complex.h` 134-137. -/
def polar (r t : ℝ) : Cx := ⟨r * Real.cos t, r * Real.sin t⟩
/-- `pow(Complex, Complex)`, `complex.h` 140-150. -/
def pow (z w : Cx) : Cx :=
  if isZero z then (if isZero w then ofReal 1 else ofReal 0)
  else
    let logr := 0.5 * Real.log (mod2 z)
    let th := arg z
    let phi := logr * w.im + th * w.re
    realMul (Real.exp (logr * w.re - th * w.im)) ⟨Real.cos phi, Real.sin phi⟩
open Classical in
/-- `pow(Complex, real)`, `complex.h` 152-159: the test is on the literal `0.0`, not on `z`. -/
def powReal (z : Cx) (u : ℝ) : Cx :=
  if isZero (ofReal 0) then (if u = 0 then ofReal 1 else ofReal 0)
  else
    let logr := 0.5 * Real.log (mod2 z)
    let theta := u * arg z
    realMul (Real.exp (logr * u)) ⟨Real.cos theta, Real.sin theta⟩

open Classical in
/-- `Equal(Complex, Complex, eps)`, `complex.h` 50-53. -/
def equal (a b : Cx) (eps : ℝ) : Bool := decide (|a.re - b.re| < eps) && decide (|a.im - b.im| < eps)

end Cx
end

end Feyn
