import Verif.Model.Dyson
import Mathlib.Data.Fin.Rev
import Mathlib.Algebra.Order.Ring.Defs
import Mathlib.GroupTheory.Perm.Basic

/-!
# The linear solver (dyson/solver/lu_fast.pyx, dyson/solver/lu_slow.py) and the check of the denominators

LAPACK is not part of the repository. `zgetrf` and `zgetrs` are modelled by the loops of its reference implementation (`zgetf2`, `zlaswp`, `ztrsm`) with exact
numbers; the blocking of `zgetrf` changes the order of the operations only. Indices start from zero, as in what `lu_factor` returns; the `-1` and `+1` of
lu_fast.pyx 46 and 75 convert from and to the convention of Fortran.
-/

namespace Feyn

/-- `for j in 0, ..., k - 1`, without passes beyond `n`. -/
def pass {α : Type} {n : ℕ} (f : α → Fin n → α) (s : α) : ℕ → α
  | 0 => s
  | j + 1 => if h : j < n then f (pass f s j) ⟨j, h⟩ else pass f s j

section
variable {Q F : Type} [LinearOrder Q] [Field F] [DecidableEq F] {n M : ℕ}

/-- `izamax` on column `j` from row `j` on: the first row where the size (`|Re| + |Im|`) is largest. -/
def pivotRow (size : F → Q) (a : Matrix (Fin n) (Fin n) F) (j : Fin n) : Fin n :=
  pass (fun p i => if j < i ∧ size (a p j) < size (a i j) then i else p) j n

/-- What `zgetrf` works on: the matrix, the row interchanges, and `info`. -/
structure LuState (n : ℕ) (F : Type) where
  a : Matrix (Fin n) (Fin n) F
  piv : Fin n → Fin n
  info : ℕ

/-- Interchange of two rows. -/
def swapRows (a : Matrix (Fin n) (Fin n) F) (p q : Fin n) : Matrix (Fin n) (Fin n) F := fun i => a (Equiv.swap p q i)

/-- The elements below the diagonal in column `j` are divided by the diagonal element. -/
def divideColumn (a : Matrix (Fin n) (Fin n) F) (j : Fin n) : Matrix (Fin n) (Fin n) F :=
  fun i k => if j < i ∧ k = j then a i k / a j j else a i k

/-- `zgeru`: column `j` times row `j` is subtracted from the rest. -/
def subtractProduct (a : Matrix (Fin n) (Fin n) F) (j : Fin n) : Matrix (Fin n) (Fin n) F :=
  fun i k => if j < i ∧ j < k then a i k - a i j * a j k else a i k

/-- One pass of the loop of `zgetf2`. If the whole rest of the column is zero then nothing is interchanged or divided, and the first such column is reported. -/
def luPass (size : F → Q) (s : LuState n F) (j : Fin n) : LuState n F :=
  let p := pivotRow size s.a j
  { a := subtractProduct (if s.a p j = 0 then s.a else divideColumn (swapRows s.a j p) j) j
    piv := Function.update s.piv j p
    info := if s.a p j = 0 ∧ s.info = 0 then (j : ℕ) + 1 else s.info }

/-- `zgetrf`. -/
def zgetrf (size : F → Q) (a : Matrix (Fin n) (Fin n) F) : LuState n F := pass (luPass size) ⟨a, id, 0⟩ n

/-- `zlaswp`: the row interchanges in the order of the factorisation. -/
def zlaswp (piv : Fin n → Fin n) (b : Matrix (Fin n) (Fin n) F) : Matrix (Fin n) (Fin n) F :=
  pass (fun b j => swapRows b j (piv j)) b n

/-- `ztrsm` with the lower triangle, diagonal elements one. -/
def ztrsmLower (a b : Matrix (Fin n) (Fin n) F) : Matrix (Fin n) (Fin n) F := fun i c =>
  pass (fun (x : Fin n → F) k => if x k = 0 then x else fun i => if k < i then x i - x k * a i k else x i) (fun i => b i c) n i

/-- `ztrsm` with the upper triangle; from the last row to the first. -/
def ztrsmUpper (a b : Matrix (Fin n) (Fin n) F) : Matrix (Fin n) (Fin n) F := fun i c =>
  pass (fun (x : Fin n → F) l =>
    let k := Fin.rev l
    if x k = 0 then x else fun i => if i = k then x k / a k k else if i < k then x i - x k / a k k * a i k else x i) (fun i => b i c) n i

/-- `zgetrs` with `trans = 'N'`. -/
def zgetrs (lu : Matrix (Fin n) (Fin n) F) (piv : Fin n → Fin n) (b : Matrix (Fin n) (Fin n) F) : Matrix (Fin n) (Fin n) F :=
  ztrsmUpper lu (ztrsmLower lu (zlaswp piv b))

/-! ## Arrays of matrices -/

/-- Order of the elements in memory: that of C, that of Fortran, another one. (An array that has both, e.g. of 1x1 matrices, may be taken for either.) -/
inductive Layout where
  | c
  | fortran
  | strided
deriving DecidableEq

/-- An array of shape `[N, N, M]`. -/
structure Stack (n M : ℕ) (F : Type) where
  layout : Layout
  elem : Fin M → Matrix (Fin n) (Fin n) F

/-- How far behind the first element of a contiguous array the element `[i, j, m]` is. -/
def offset (n M : ℕ) (fortran : Bool) (i j m : ℕ) : ℕ := if fortran then i + n * j + n * n * m else (i * n + j) * M + m

/-- The memory of a contiguous array. What is beyond the array is not known (`junk`). -/
def memory (fortran : Bool) (e : Fin M → Matrix (Fin n) (Fin n) F) (junk : ℕ → F) (x : ℕ) : F :=
  if h : 0 < n ∧ x < n * n * M then
    if fortran then
      e ⟨x / (n * n), Nat.div_lt_of_lt_mul h.2⟩ ⟨x % n, Nat.mod_lt _ h.1⟩ ⟨x / n % n, Nat.mod_lt _ h.1⟩
    else
      e ⟨x % M, Nat.mod_lt _ (Nat.pos_of_ne_zero fun h0 => by simp [h0] at h)⟩ ⟨x / M / n, Nat.div_lt_of_lt_mul (Nat.div_lt_of_lt_mul (by rw [Nat.mul_comm]; exact h.2))⟩
        ⟨x / M % n, Nat.mod_lt _ h.1⟩
  else junk x

/-- The matrix that LAPACK finds behind a pointer to `x`, with leading dimension `n`. -/
def matrixAt (mem : ℕ → F) (x : ℕ) : Matrix (Fin n) (Fin n) F := fun i j => mem (x + i + n * j)

/-- The memory after LAPACK has written a matrix behind a pointer to `x`. -/
def writeMatrix (mem : ℕ → F) (x : ℕ) (a : Matrix (Fin n) (Fin n) F) (y : ℕ) : F :=
  if h : x ≤ y ∧ y < x + n * n ∧ 0 < n then
    a ⟨(y - x) % n, Nat.mod_lt _ h.2.2⟩ ⟨(y - x) / n, Nat.div_lt_of_lt_mul (by omega)⟩ else mem y

/-- `lu_factor`, lu_fast.pyx 21-46 and lu_slow.py 4-18 (`fast`): the argument afterwards, the factors and the row interchanges; `none` if a matrix is singular
(`ValueError`). `lu_slow` works on its argument. `lu_fast` does if the argument is in the order of Fortran, otherwise `np.require` makes a copy. -/
def luFactor (fast : Bool) (size : F → Q) (arr : Stack n M F) : Option (Stack n M F × Stack n M F × (Fin M → Fin n → Fin n)) :=
  let s := fun m => zgetrf size (arr.elem m)
  if ∀ m, (s m).info = 0 then
    let lu : Stack n M F := ⟨if fast then .fortran else arr.layout, fun m => (s m).a⟩
    some (if fast ∧ arr.layout ≠ .fortran then arr else ⟨arr.layout, lu.elem⟩, lu, fun m => (s m).piv)
  else none

/-- `lu_solve` of lu_slow.py 21-45: `bb` is a copy of `b` in any case (`lapack.zgetrs` gets and returns matrices, not pointers). -/
def luSolveSlow (lu : Stack n M F) (piv : Fin M → Fin n → Fin n) (b : Stack n M F) : Stack n M F :=
  ⟨.c, fun m => zgetrs (lu.elem m) (piv m) (b.elem m)⟩

/-- `lu_solve` of lu_fast.pyx 48-82. `np.require(b, requirements=['F'])` is `b` itself if that is in the order of Fortran, otherwise a copy in this order. In the former case
`bb` becomes `b.copy()`, which is in the order of C. LAPACK gets pointers to `bb[0,0,i]`. -/
def luSolveFast (lu : Stack n M F) (piv : Fin M → Fin n → Fin n) (b : Stack n M F) (junk : ℕ → F) : Stack n M F :=
  let fortran := decide (b.layout ≠ .fortran)
  let mem := pass (fun mem (m : Fin M) =>
    let x := offset n M fortran 0 0 m
    writeMatrix mem x (zgetrs (lu.elem m) (piv m) (matrixAt mem x))) (memory fortran b.elem junk) M
  ⟨if fortran then .fortran else .c, fun m i j => mem (offset n M fortran i j m)⟩

/-- `lu_det`, lu_fast.pyx 87-109 and lu_slow.py 47-63. -/
def luDet (lu : Stack n M F) (piv : Fin M → Fin n → Fin n) (m : Fin M) : F :=
  pass (fun det j => if piv m j ≠ j then -det * lu.elem m j j else det * lu.elem m j j) 1 n

/-! ## The check of the denominators -/

/-- Comparison of complex numbers in numpy: real parts first, then imaginary parts. -/
def npLess (re im : F → Q) (x y : F) : Prop := re x < re y ∨ re x = re y ∧ im x < im y

instance (re im : F → Q) (x y : F) : Decidable (npLess re im x y) := by unfold npLess; infer_instance

/-- `Determ.min()`. -/
def npMin (re im : F → Q) : List F → Option F
  | [] => none
  | x :: l => some (l.foldl (fun m y => if npLess re im y m then y else m) x)

/-- `Check_Denorminator`, dyson/calculator.py 219-227: whether `DenorminatorTouchZero` is raised. (There is at least one determinant.) -/
def checkDenominator [Zero Q] (re im : F → Q) (small : Q) (dets : List F) : Bool :=
  match npMin re im dets with
  | none => false
  | some x => re x < 0 ∧ im x < small

/-- `LUFactor` and `LUSolve` for one matrix, dyson/weight.py 242-249 and 323-329, as a `Solver`: the program's own. -/
def luSolver (size : F → Q) : Solver (Fin n) F := fun D =>
  let s := zgetrf size D
  if s.info = 0 then some (zgetrs s.a s.piv) else none

/-- The determinant that `LUFactor` returns for one matrix. -/
def luDeterminant (size : F → Q) (D : Matrix (Fin n) (Fin n) F) : F :=
  let s := zgetrf size D
  luDet (M := 1) ⟨.c, fun _ => s.a⟩ (fun _ => s.piv) 0

/-- The check of all denominators, with the program's determinants. -/
noncomputable def luTouches [Zero Q] (size : F → Q) (re im : F → Q) (small : Q) {d : ℕ} {L : Fin d → ℕ} {N : ℕ} (D : Grid L N (Matrix (Fin n) (Fin n) F)) : Bool :=
  checkDenominator re im small ((Finset.univ : Finset ((∀ i, Fin (L i)) × Fin N)).toList.map fun x => luDeterminant size (D x.1 x.2))

end
end Feyn
