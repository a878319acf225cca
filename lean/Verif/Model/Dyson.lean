import Verif.Model.Fourier
import Mathlib.Data.Matrix.Mul

/-!
# Dyson equations (dyson/calculator.py)

Spin and sublattice axes together are one matrix index `S` (`NSpin*NSub`, the reshape of `LUFactor` and `LUSolve`), so the `einsum` calls over them are
matrix products. `LAPACK` is represented by a function that factorises a matrix or reports that it is singular.
-/

namespace Feyn

/-- How a calculation of the Dyson part ends: normally, with `DenorminatorTouchZero`, or with another exception. -/
inductive Outcome (α : Type) where
  | done (a : α)
  | touchZero
  | crash

section
variable {S F : Type} [Fintype S] [DecidableEq S] [Field F] [CharZero F] {d : ℕ} {L : Fin d → ℕ} {N : ℕ}

/-- `solver.lu_factor` followed by `solver.lu_solve`, dyson/solver/lu_slow.py 4-43: from a matrix, if it is not singular, the function that
solves linear equations with it. -/
abbrev Solver (S F : Type) := Matrix S S F → Option (Matrix S S F → Matrix S S F)

/-- `np.cos(np.pi*x)`. -/
def Phase.cos (E : Phase F) (x : ℚ) : F := (E.ph x + E.ph (-x)) / 2

/-- `LUFactor`, `Check_Denorminator` and the denominators of both equations, dyson/weight.py 323-329 and dyson/calculator.py 219-227: all matrices are factorised,
an exception follows if one of them is singular; `touches` is the test on the determinants. -/
def factorise (solve : Solver S F) (touches : Grid L N (Matrix S S F) → Bool) (denorm : Grid L N (Matrix S S F)) :
    Outcome (Grid L N (Matrix S S F → Matrix S S F)) :=
  if ∀ k m, (solve (denorm k m)).isSome then
    if touches denorm then .touchZero else .done fun k m => (solve (denorm k m)).getD id
  else .crash

/-- `G_Dyson`, dyson/calculator.py 136-160. `κ` is the kind of the propagators, `κ0` that of `SigmaDeltaT`. The result is in the domains `K`, `W`. -/
def gDyson (κ κ0 : Kind) (E : Phase F) (solve : Solver S F) (touches : Grid L N (Matrix S S F) → Bool)
    (G0 : Plain L N (Matrix S S F)) (SigmaDeltaT : Plain L 1 (Matrix S S F)) (Sigma : Plain L N (Matrix S S F)) :
    Outcome (Plain L N (Matrix S S F)) :=
  let G0 := G0.fft κ E [.K, .W]
  let SigmaDeltaT := SigmaDeltaT.fft κ0 E [.K]
  let Sigma := Sigma.fft κ E [.K, .W]
  let G0SigmaDeltaT : Grid L N (Matrix S S F) := fun k m =>
    E.cos (indexToTau κ.beta N m / κ.beta) • (G0.data k m * SigmaDeltaT.data k 0)
  let G0Sigma : Grid L N (Matrix S S F) := fun k m => G0.data k m * Sigma.data k m
  let GS : Grid L N (Matrix S S F) := fun k m =>
    ((κ.beta / N : ℚ) : F) • (((κ.beta / N : ℚ) : F) • G0Sigma k m + G0SigmaDeltaT k m)
  match factorise solve touches fun k m => 1 - GS k m with
  | .done lu => .done ⟨fun k m => lu k m (G0.data k m), true, true⟩
  | .touchZero => .touchZero
  | .crash => .crash

/-- `W_Dyson` with `Calculate_Denorminator`, dyson/calculator.py 107-134. `κ` is the kind of the polarisation, `κ0` that of the bare interaction. The results are
`W` and `ChiTensor`. -/
def wDyson (κ κ0 : Kind) (E : Phase F) (solve : Solver S F) (touches : Grid L N (Matrix S S F) → Bool)
    (W0 : Plain L 1 (Matrix S S F)) (Polar : Plain L N (Matrix S S F)) :
    Outcome (Plain L N (Matrix S S F) × Plain L N (Matrix S S F)) :=
  let Polar := Polar.fft κ E [.K, .W]
  let W0 := W0.fft κ0 E [.K]
  let JP : Grid L N (Matrix S S F) := fun k m => W0.data k 0 * Polar.data k m
  let Temp : Grid L N (Matrix S S F) := fun k m => E.cos (((m : ℕ) : ℚ) / N) • ((κ.beta / N : ℚ) : F) • JP k m
  let JPJ : Grid L N (Matrix S S F) := fun k m => JP k m * W0.data k 0
  match factorise solve touches fun k m => 1 - Temp k m with
  | .done lu => .done (⟨fun k m => lu k m (JPJ k m), true, true⟩, ⟨fun k m => lu k m (-Polar.data k m), true, true⟩)
  | .touchZero => .touchZero
  | .crash => .crash

end

end Feyn
