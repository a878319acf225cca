import Verif.Model.Chi
import Verif.Model.Vertex

/-!
# The susceptibility from the three-point function (dyson/gamma3_calc.py, dyson/main.py)

For one sublattice, as Model/Vertex.lean. Numbers are exact.
-/

namespace Feyn

section
variable {F : Type} [Field F] [CharZero F] {L : Fin 2 → ℕ} {N : ℕ}

/-- `BKPolar` before its transform, dyson/gamma3_calc.py 456-474: the values at equal times. `GGGammaG[UP]` is put between equal pairs of spins, `GGGammaG[DOWN]` between opposite ones. -/
def bkPolar (Γ : Three L N F) : Grid L N (Matrix (WIdx 1) (WIdx 1) F) := fun r t =>
  Matrix.of fun p q => if p.1.1 = p.1.2 ∧ q.1.1 = q.1.2 then Γ (p.1 = q.1) r t t else 0

variable [∀ i, NeZero (L i)]

/-- `FullGGGammaG` and `Calculate_Denorminator`, dyson/gamma3_calc.py 478-488 and dyson/calculator.py 107-120. `Check_Denorminator` of this file (516-525) only writes to the log. -/
def fullGGGammaG (κ κ0 : Kind) (E : Phase F) (solve : Solver (WIdx 1) F) (W0 : Plain L 1 (Matrix (WIdx 1) (WIdx 1) F)) (Γ : Three L N F) :
    Outcome (Plain L N (Matrix (WIdx 1) (WIdx 1) F)) :=
  let Polar := (Plain.mk (bkPolar Γ) false false).fft κ E [.K, .W]
  let W0 := W0.fft κ0 E [.K]
  let JP : Grid L N (Matrix (WIdx 1) (WIdx 1) F) := fun k m => W0.data k 0 * Polar.data k m
  let Temp : Grid L N (Matrix (WIdx 1) (WIdx 1) F) := fun k m => E.cos (((m : ℕ) : ℚ) / N) • ((κ.beta / N : ℚ) : F) • JP k m
  match factorise solve (fun _ => false) fun k m => 1 - Temp k m with
  | .done lu => .done ⟨fun k m => lu k m (-Polar.data k m), true, true⟩
  | .touchZero => .touchZero
  | .crash => .crash

/-- `BKChi` as it is saved, dyson/main.py 28-29 and 90-94; `Calculate_Chi`, dyson/gamma3_calc.py 491-513, is the same as the one of dyson/calculator.py. -/
def bkChi (κ κ0 : Kind) (E : Phase F) (solve : Solver (WIdx 1) F) (W0 : Plain L 1 (Matrix (WIdx 1) (WIdx 1) F)) (Γ : Three L N F) : Outcome (Plain L N (Matrix (Fin 1) (Fin 1) F)) :=
  match fullGGGammaG κ κ0 E solve W0 Γ with
  | .done X => .done ((calculateChi X).fft κ E [.R, .T])
  | .touchZero => .touchZero
  | .crash => .crash

end

end Feyn
