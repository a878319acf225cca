import Verif.Model.Tables
import Verif.Spec.IndexMap
import Verif.Spec.Weights

/-!
# Elements of arrays
-/

namespace Feyn

/-- Position of an element in C order: the last index changes fastest. -/
def ravel : List ℤ → List ℤ → ℤ
  | _ :: ss, i :: is => i * ss.prod + ravel ss is
  | _, _ => 0

/-- Element of an array, `x[i, j, ...]` in Python. -/
def NArr.get {F : Type} (x : NArr F) (i : List ℤ) : F := x.data (ravel x.shape i)

/-- The number Python uses for a spin: `DOWN, UP = 0, 1`, dyson/weight.py 14. -/
def pySpin (s : Spin) : ℤ := if s then 1 else 0

/-- The indices in Python of the value of a smooth function between two sites and times. -/
def pyIndices {Q : Type} [Field Q] [LinearOrder Q] [FloorRing Q] (L : List ℤ) (beta : Q) (bins : ℕ) (sin sout : ℤ) (rin rout : Site) (tin tout : Q) : List ℤ :=
  [sin, rin.sub, sout, rout.sub, pyCoordiIndex L (relCoord L rin rout), pyTauIndex beta bins tin tout]

end Feyn
