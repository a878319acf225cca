import Mathlib.Algebra.BigOperators.Group.List.Basic
import Mathlib.Algebra.Order.Ring.Int

/-!
# The lattice (`lattice/lattice.cpp`)

Vectors are lists of integers with one entry per dimension; the number of dimensions (`D == 2` in
`utility/convention.h`) is arbitrary but not zero. Machine integers are unbounded here, that is, volumes are assumed to
fit into an `int`.
-/

namespace Feyn

/-- `Lattice::Vol`, `lattice.cpp` 19-28. -/
def latVol (size : List ℤ) : ℤ := size.foldl (fun vol s => vol * s) 1

/-- `Lattice::Vec2Index`, `lattice.cpp` 47-54. -/
def vec2Index : List ℤ → List ℤ → ℤ
  | _ :: ss, v :: vs => (ss.zip vs).foldl (fun index p => index * p.1 + p.2) v
  | _, _ => 0

/-- The loop of `Index2Vec`: dimensions from the last to the second, `acc` holds the entries found so far. `%` and `/`
truncate. -/
def index2VecLoop : List ℤ → ℤ → List ℤ → List ℤ
  | [], index, acc => index :: acc
  | s :: ss, index, acc => index2VecLoop ss (index.tdiv s) (index.tmod s :: acc)

/-- `Lattice::Index2Vec`, `lattice.cpp` 61-70. -/
def index2Vec (size : List ℤ) (index : ℤ) : List ℤ := index2VecLoop size.tail.reverse index []

/-- `Lattice::Shift`, `lattice.cpp` 78-86, one coordinate. -/
def shift1 (s v : ℤ) : ℤ :=
  let v := if v < 0 then v + s else v
  if v ≥ s then v - s else v

/-- `Lattice::Shift`, `lattice.cpp` 78-86. -/
def latShift (size vec : List ℤ) : List ℤ := List.zipWith shift1 size vec

/-- `Lattice::CoordiIndex`, `lattice.cpp` 87-92, on the coordinates of the two sites. -/
def coordiIndex (size rin rout : List ℤ) : ℤ :=
  vec2Index size (latShift size (List.zipWith (fun a b => a - b) rout rin))

end Feyn
