import Verif.Model.Weights
import Verif.Model.Estimator

/-!
# Tables passed between the two programs (`module/weight/weight_array.cpp`, `utility/pyglue/pyarraywrapper.cpp`, dyson/weight.py)

Files and dictionaries are transparent: an array that is written by one program is the array that is read by the other.
-/

namespace Feyn

/-- A numpy array: its shape, whether its elements are complex numbers of the size of `Complex`, and its elements in C order
(`ArrayObject`, `pyarraywrapper.cpp` 34-54, copies arrays that are not in C order). -/
structure NArr (F : Type) where
  shape : List ℤ
  isComplex : Bool
  data : ℤ → F

/-- `WeightArray::FromDict`, `weight_array.cpp` 72-80, with `Equal` (`utility/utility.h` 39-46): the first entries of the shapes are compared, as many as the array of this
program has; the shape of an array with fewer axes is read out of bounds. The type of the elements is not checked (`Data`, `pyarraywrapper.cpp` 103-108). All elements of the table are
copied. -/
def Arr.fromDict {F : Type} (a : Arr F) (shape : List ℤ) (x : NArr F) : Res (Arr F) :=
  if x.shape.length < shape.length then .ub
  else if x.shape.take shape.length ≠ shape then .abort
  else if x.isComplex then .ok { a with data := fun i => if 0 ≤ i ∧ i < a.n then x.data i else a.data i }
  else .ub

section
variable {Q F : Type} [Field Q] [LinearOrder Q]

/-- `GClass::FromDict`, `component.cpp` 46-49. -/
def GTab.fromDict (T : GTab Q F) (x : NArr F) : Res (GTab Q F) := do
  let a ← T.smooth.fromDict T.map.smoothShape x
  .ok { T with smooth := a }

/-- `WClass::FromDict`, `component.cpp` 88-91. -/
def WTab.fromDict (T : WTab Q F) (smooth delta : NArr F) : Res (WTab Q F) := do
  let a ← T.smooth.fromDict T.map.smoothShape smooth
  let b ← T.delta.fromDict T.map.deltaShape delta
  .ok { T with smooth := a, delta := b }

/-- `self.Shape` of a Python weight, dyson/weight.py 147-153; `time` is the case `"SmoothT"`. -/
def pyShape (sp nsub : ℤ) (L : List ℤ) (bins : ℕ) (time : Bool) : List ℤ := [sp, nsub, sp, nsub, L.prod] ++ if time then [(bins : ℤ)] else []

/-- `IndexMap.TauIndex`, dyson/weight.py 38-41. -/
def pyTauIndex [FloorRing Q] (beta : Q) (bins : ℕ) (tin tout : Q) : ℤ :=
  if tout - tin ≥ 0 then ⌊(tout - tin) * (1 / (beta / bins))⌋ else ⌊(tout - tin) * (1 / (beta / bins))⌋ + bins

/-- `IndexMap.IndexToTau`, dyson/weight.py 43-44. -/
def pyIndexToTau (beta : Q) (bins : ℕ) (index : ℤ) : Q := (index + 1 / 2) * (beta / bins)

/-- `IndexMap.CoordiIndex`, dyson/weight.py 52-57. -/
def pyCoordiIndex : List ℤ → List ℤ → ℤ
  | _ :: Ls, o :: os => (Ls.zip os).foldl (fun index p => index * p.1 + p.2) o
  | _, _ => 0

/-- The loop of `IndexMap.IndexToCoordi` over the sizes in reverse order without the first. `%` and `/` of Python round down. -/
def pyIndexLoop : List ℤ → ℤ → List ℤ → List ℤ
  | [], index, acc => index :: acc
  | s :: ss, index, acc => pyIndexLoop ss (index.fdiv s) (index.fmod s :: acc)

/-- `IndexMap.IndexToCoordi`, dyson/weight.py 58-64. -/
def pyIndexToCoordi (L : List ℤ) (index : ℤ) : List ℤ := pyIndexLoop L.tail.reverse index []

/-- `IndexMap.Spin2Index`, dyson/weight.py 80-81. -/
def pySpin2Index (spinIn spinOut : ℤ) : ℤ := spinIn * 2 + spinOut

/-- `WeightEstimator::ToDict`, `weight_estimator.cpp` 86-93: the array `"WeightAccu"`; the shape was set by `Allocate` (28-30). -/
def Histo.weightAccu (h : Histo Q F) (m : IndexMap Q) (orders : ℤ) : NArr F := ⟨orders :: m.smoothShape, true, h.data⟩

end
end Feyn
