import Verif.Model.Lattice

/-!
# Differences of sites by their indices (dyson/r_index.py) (C105)

`_map.L` is a list of positive integers, `_map.Dim` its length. The entries of `np.zeros` are floating point numbers that hold integers; integers are exact here. `%` and `/` of Python 2 round down.
-/

namespace Feyn

/-- `Vec2Index`, dyson/r_index.py 12-16. -/
def rVec2Index : List ℤ → List ℤ → ℤ
  | _ :: Ls, v :: vs => (Ls.zip vs).foldl (fun index p => index * p.1 + p.2) v
  | _, _ => 0

/-- The loop of `Index2Vec`, dyson/r_index.py 21-24: the lengths from the last to the second; `acc` are the entries that have been set. -/
def rIndex2VecLoop : List ℤ → ℤ → List ℤ → List ℤ
  | [], index, acc => index :: acc
  | s :: ss, index, acc => rIndex2VecLoop ss (index.fdiv s) (index.fmod s :: acc)

/-- `Index2Vec`, dyson/r_index.py 19-25. -/
def rIndex2Vec (L : List ℤ) (index : ℤ) : List ℤ := rIndex2VecLoop L.tail.reverse index []

/-- `Shift`, dyson/r_index.py 27-33. -/
def rShift : List ℤ → List ℤ → List ℤ
  | s :: L, v :: vec =>
    let v := if v < 0 then v + s else v
    let v := if v ≥ s then v - s else v
    v :: rShift L vec
  | _, vec => vec

/-- `CoordiIndex`, dyson/r_index.py 35-40. -/
def rCoordiIndex (L : List ℤ) (out inn : ℤ) : ℤ :=
  rVec2Index L (rShift L (List.zipWith (fun a b => a - b) (rIndex2Vec L out) (rIndex2Vec L inn)))

end Feyn
