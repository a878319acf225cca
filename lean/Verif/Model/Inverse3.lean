import Mathlib.LinearAlgebra.CrossProduct
import Mathlib.LinearAlgebra.Matrix.Determinant.Basic
import Mathlib.Algebra.BigOperators.Fin

/-!
# Inverses of three by three matrices (tool/matrix_inverse.py) (C106)

One matrix of the stack; the functions act on each of them. Numbers are exact; a division by zero (`inf` or `nan` in the program) is the outcome `none`.
-/

namespace Feyn
variable {F : Type} [Field F]

/-- `adjoint`, tool/matrix_inverse.py 12-17. The indices `i-2` and `i-1` count from the end where they are negative; as numbers of `Fin 3` they do the same. -/
def pyAdjoint (A : Matrix (Fin 3) (Fin 3) F) : Matrix (Fin 3) (Fin 3) F := fun i => crossProduct (A (i - 2)) (A (i - 1))

/-- `dot`, tool/matrix_inverse.py 30-32. -/
def pyDot (A B : Matrix (Fin 3) (Fin 3) F) (i : Fin 3) : F := ∑ j, A i j * B i j

/-- `inverse_transpose`, tool/matrix_inverse.py 19-25; `mean` is the sum over three. -/
def pyInverseTranspose [DecidableEq F] (A : Matrix (Fin 3) (Fin 3) F) : Option (Matrix (Fin 3) (Fin 3) F) :=
  let I := pyAdjoint A
  let det := (∑ i, pyDot I A i) / 3
  if det = 0 then none else some fun i j => I i j / det

/-- `inverse`, tool/matrix_inverse.py 27-29. -/
def pyInverse3 [DecidableEq F] (A : Matrix (Fin 3) (Fin 3) F) : Option (Matrix (Fin 3) (Fin 3) F) := (pyInverseTranspose A).map fun I => fun i j => I j i

end Feyn
