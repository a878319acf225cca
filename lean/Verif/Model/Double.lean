import Verif.Model.Chain
import Verif.Model.IndexMap
import Mathlib.Data.Int.Log
import Mathlib.Data.Rat.Floor

/-!
# Double precision where the choice of an update and the address of a time depend on it

In the rest of the model `real` stands for exact numbers. Here it is `double` (`utility/convention.h` 12): every operation gives the exact result rounded to the nearest number with 53
significant bits and exponents of at least -1074, to the even one if two are equally near, as the standard of floating point numbers (IEEE 754) requires and as 64-bit Intel processors
do it with their vector registers. Not modelled: overflow, which cannot happen with the bounds of the theorems; compilers that keep more digits or fuse operations. Citations are
relative to `/repo/src`.
-/

namespace Feyn

/-- The integer nearest to `x`, the even one of two. -/
def roundEven (x : ℚ) : ℤ :=
  if x - ⌊x⌋ < 1 / 2 then ⌊x⌋ else if 1 / 2 < x - ⌊x⌋ then ⌊x⌋ + 1 else if ⌊x⌋ % 2 = 0 then ⌊x⌋ else ⌊x⌋ + 1

/-- The exponent of the last bit of the numbers near `x`. -/
def lastBit (x : ℚ) : ℤ := max (Int.log 2 |x| - 52) (-1074)

/-- The result of an operation with exact result `x`. -/
def rnd (x : ℚ) : ℚ := roundEven (x / 2 ^ lastBit x) * 2 ^ lastBit x

/-- `RandomFactory::urn`, `utility/rng.h` 15, 23-24, 48-51. The constant is 2^-32. -/
def urnD (w : Word) : ℚ :=
  rnd (rnd ((if w.val < 2147483648 then (w.val : ℤ) else (w.val : ℤ) - 4294967296 : ℤ) * (1 / 4294967296)) + 1 / 2)

/-- `RandomPickTau`, `module/markov/markov.cpp` 1683-1686. -/
def pickTauD (beta : ℚ) (w : Word) : ℚ := rnd (urnD w * beta)

/-! ## Choice of an update -/

/-- `SumofProbofCall[j]` in `Markov::BuildNew`, `module/markov/markov.cpp` 37-38 and 67-83: `ProbofCall[i] = 1.0 / n` is added for `i = 0, …, j`. -/
def callSumD (n : ℕ) : ℕ → ℚ
  | 0 => rnd (0 + rnd (1 / n))
  | j + 1 => rnd (callSumD n j + rnd (1 / n))

/-- The chain of comparisons in `Hop`, `module/markov/markov.cpp` 233-349. -/
def selectIdxD (n : ℕ) (x : ℚ) : Option ℕ := (List.range n).find? fun j => decide (x < callSumD n j)

/-- The operation called by an iteration of `Hop` that draws the word `w`, as `selectOp` of `Model/Chain`. -/
def selectOpD {Q F : Type} [Field Q] [LinearOrder Q] [Field F] (P : Params Q F) (w : Word) : Option Op :=
  match selectIdxD (numOps P) (urnD w) with
  | some j => opList[j]?
  | none => none

/-! ## Bins -/

/-- `_dBeta`, `module/weight/index_map.cpp` 20. -/
def dBetaD (beta : ℚ) (bins : ℕ) : ℚ := rnd (beta / bins)

/-- `TauIndex(tau)`, `module/weight/index_map.cpp` 21, 36-52. The sum with `MaxTauBin` is one of integers and exact. -/
def tauIndex1D (beta : ℚ) (bins : ℕ) (tau : ℚ) : ℤ :=
  let x := rnd (tau * rnd (1 / dBetaD beta bins))
  if tau < 0 then ⌊x⌋ + (bins : ℤ) else ⌊x⌋

/-- `TauIndex(t_in, t_out)`, `module/weight/index_map.cpp` 54-57. -/
def tauIndexD (beta : ℚ) (bins : ℕ) (tin tout : ℚ) : ℤ := tauIndex1D beta bins (rnd (tout - tin))

/-- `IndexToTau`, `module/weight/index_map.cpp` 59-63. -/
def indexToTauD (beta : ℚ) (bins : ℕ) (bin : ℤ) : ℚ := rnd (rnd (bin * dBetaD beta bins) + rnd (dBetaD beta bins / 2))

/-- The index of a time relative to the one of the interaction (`ut`) in the three-point functions, `module/weight/gamma3.cpp` 20, 44-49 and 51-56 (also 104-116, 179, 232-240,
303-313, 386-396). -/
def gammaIndexD (beta : ℚ) (bins : ℕ) (ut t : ℚ) : ℤ :=
  let t1 := rnd (t - ut)
  let t1 := if t1 < 0 then rnd (t1 + beta) else t1
  ⌊rnd (t1 * rnd (bins / beta))⌋

end Feyn
