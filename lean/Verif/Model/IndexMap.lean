import Verif.Model.Diagram
import Verif.Model.Lattice
import Mathlib.Algebra.Order.Floor.Ring

/-!
# Weight tables and how they are addressed (`module/weight/index_map.cpp`, `component_MC.cpp`)

Reals are an ordered field with a floor function, computed without rounding. `unsigned int` arithmetic is modulo `2^32`.
Conversions of doubles to `int` are assumed to be in the range of `int`.
-/

namespace Feyn

/-- Value of an integer expression stored in an `unsigned int`. -/
def u32 (x : ℤ) : ℤ := x % 4294967296

/-- A spin as a number. -/
def spinNum (s : Spin) : ℤ := if s then 1 else 0

/-- `IndexMapSPIN4::SpinIndex(const spin*)`, `index_map.cpp` 147-150: `Spin[IN] * SPIN + Spin[OUT]`. -/
def spinNum2 (s : Dir → Spin) : ℤ := spinNum (s IN) * 2 + spinNum (s OUT)

/-- The coordinates of a site. -/
def Site.vec (r : Site) : List ℤ := [r.x, r.y]

/-- `IndexMap`, `index_map.h` 38-63. `sp` is `_Shape[SP1]` and `_Shape[SP2]`: 2 for `IndexMapSPIN2`, 4 for `IndexMapSPIN4`
(`index_map.cpp` 84-90, 126-132). `sym` is `_TauSymmetryFactor`. -/
structure IndexMap (Q : Type) where
  beta : Q
  bins : ℕ
  lat : List ℤ
  nsub : ℤ
  sp : ℤ
  sym : ℤ

/-- `_UpdateCache`, `index_map.cpp` 70-82: strides of an array of the given shape and its size, from the last dimension to
the first. -/
def updateCache : List ℤ → List ℤ × ℤ
  | [] => ([], 1)
  | s :: ss => ((updateCache ss).2 :: (updateCache ss).1, u32 ((updateCache ss).2 * s))

namespace IndexMap
variable {Q : Type} [Field Q] [LinearOrder Q]

/-- `_Shape` without the time dimension, `index_map.cpp` 25-27. -/
def deltaShape (m : IndexMap Q) : List ℤ := [m.sp, m.nsub, m.sp, m.nsub, latVol m.lat]

/-- `_Shape`, `index_map.cpp` 25-28. -/
def smoothShape (m : IndexMap Q) : List ℤ := [m.sp, m.nsub, m.sp, m.nsub, latVol m.lat, (m.bins : ℤ)]

/-- `_CacheDeltaT`. -/
def cd (m : IndexMap Q) (i : ℕ) : ℤ := (updateCache m.deltaShape).1.getD i 0
/-- `_SizeDeltaT`. -/
def sizeDelta (m : IndexMap Q) : ℤ := (updateCache m.deltaShape).2
/-- `_CacheSmoothT`. -/
def cs (m : IndexMap Q) (i : ℕ) : ℤ := (updateCache m.smoothShape).1.getD i 0
/-- `_SizeSmoothT`. -/
def sizeSmooth (m : IndexMap Q) : ℤ := (updateCache m.smoothShape).2

/-- `_dBeta`, `index_map.cpp` 20. -/
def dBeta (m : IndexMap Q) : Q := m.beta / (m.bins : Q)
/-- `_dBetaInverse`, `index_map.cpp` 21. -/
def dBetaInv (m : IndexMap Q) : Q := 1 / m.dBeta

/-- `GetTauSymmetryFactor`, `index_map.cpp` 31-34. -/
def tauSym (m : IndexMap Q) (tin tout : Q) : ℤ := if tout > tin then 1 else m.sym

/-- `IndexToTau`, `index_map.cpp` 59-63. -/
def indexToTau (m : IndexMap Q) (bin : ℤ) : Q := (bin : Q) * m.dBeta + m.dBeta / 2

/-- Index of a delta function in time, `IndexMapSPIN2::GetIndex` 114-124 and `IndexMapSPIN4::GetIndex` 161-169. -/
def deltaIndex (m : IndexMap Q) (sin sout : ℤ) (rin rout : Site) : Res ℤ :=
  let index := u32 (sin * m.cd 0 + rin.sub * m.cd 1 + sout * m.cd 2 + rout.sub * m.cd 3
    + coordiIndex m.lat rin.vec rout.vec)
  if index ≥ m.sizeDelta then .abort else .ok index

variable [FloorRing Q]

/-- `TauIndex(tau)`, `index_map.cpp` 36-52. Values out of range are only logged. -/
def tauIndex1 (m : IndexMap Q) (tau : Q) : ℤ :=
  if tau < 0 then ⌊tau * m.dBetaInv⌋ + (m.bins : ℤ) else ⌊tau * m.dBetaInv⌋

/-- `TauIndex(t_in, t_out)`, `index_map.cpp` 54-57. -/
def tauIndex (m : IndexMap Q) (tin tout : Q) : ℤ := m.tauIndex1 (tout - tin)

/-- Index of a smooth function of time, `IndexMapSPIN2::GetIndex` 102-112 and `IndexMapSPIN4::GetIndex` 152-159. A number
out of range throws `IndexInvalid`. -/
def smoothIndex (m : IndexMap Q) (sin sout : ℤ) (rin rout : Site) (tin tout : Q) : Res ℤ :=
  let index := u32 (sin * m.cs 0 + rin.sub * m.cs 1 + sout * m.cs 2 + rout.sub * m.cs 3
    + coordiIndex m.lat rin.vec rout.vec * m.cs 4 + m.tauIndex tin tout)
  if index ≥ m.sizeSmooth then .abort else .ok index

end IndexMap

/-- `WeightArray`, `weight_array.h` 24-81: number of elements and contents. -/
structure Arr (F : Type) where
  n : ℤ
  data : ℤ → F

/-- `WeightArray::operator()`: not checked. -/
def Arr.at {F : Type} (a : Arr F) (i : ℤ) : Res F := if 0 ≤ i ∧ i < a.n then .ok (a.data i) else .ub

end Feyn
