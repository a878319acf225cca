import Verif.Model.Basic

/-!
# Momenta (`utility/momentum.h`, `utility/momentum.cpp`)
-/

namespace Feyn

/-- `MAX_K`, `utility/momentum.h` 15. -/
macro "MAX_K" : term => `((10000 : ℤ))

/-- Number of distinct momenta, `2 * MAX_K + 1`. -/
macro "MOD_K" : term => `((20001 : ℤ))

/-- `Momentum::Shift`, `utility/momentum.cpp` 46-53: at most one wrap in each direction. -/
def shiftK (k : ℤ) : ℤ :=
  let k1 := if k > MAX_K then k - MOD_K else k
  if k1 < -MAX_K then k1 + MOD_K else k1

/-- Constructor from `int`, `momentum.cpp` 19-22. -/
def ofInt (k : ℤ) : ℤ := shiftK k

/-- `operator+`, `momentum.cpp` 79-92 (the sum is shifted and passed to the constructor). -/
def addK (a b : ℤ) : ℤ := ofInt (shiftK (a + b))

/-- `operator-`, `momentum.cpp` 94-107. -/
def subK (a b : ℤ) : ℤ := ofInt (shiftK (a - b))

/-- `int * Momentum`, `momentum.cpp` 109-112. -/
def mulK (n a : ℤ) : ℤ := ofInt (a * n)

/-- `operator+=`, `momentum.cpp` 55-65 (`Momentum` and `int` operand): one shift only. -/
def addAssignK (a b : ℤ) : ℤ := shiftK (a + b)

/-- `operator-=`, `momentum.cpp` 67-77. -/
def subAssignK (a b : ℤ) : ℤ := shiftK (a - b)

/-- `Momentum::index`, `momentum.cpp` 29-32. -/
def indexK (k : ℤ) : ℤ := k + MAX_K

/-- `Momentum::abs`, `momentum.cpp` 34-37. -/
def absK (k : ℤ) : ℤ := |k|

/-- A momentum stored in a valid object. -/
def InK (k : ℤ) : Prop := -MAX_K ≤ k ∧ k ≤ MAX_K

instance (k : ℤ) : Decidable (InK k) := by unfold InK; infer_instance

end Feyn
