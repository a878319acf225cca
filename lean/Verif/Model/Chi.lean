import Verif.Model.SelfCons
import Mathlib.Analysis.SpecialFunctions.Pow.Complex

/-!
# Susceptibility and sum rule (dyson/calculator.py, dyson/main.py)

The tensor of the susceptibility has the matrix indices of `W`. Numbers are exact.
-/

namespace Feyn

section
variable {F : Type} [Field F] {d : ℕ} {L : Fin d → ℕ} {N m : ℕ}

/-- `SxSx`, dyson/calculator.py 188 and 195-196. -/
def sxsx (i k : Bool × Bool) : F := if i.1 ≠ i.2 ∧ k.1 ≠ k.2 then 1 else 0

/-- `SySy`, dyson/calculator.py 189 and 197-198. -/
def sysy (i k : Bool × Bool) : F := if i.1 ≠ i.2 ∧ k.1 ≠ k.2 then (if i = k then -1 else 1) else 0

/-- `SzSz`, dyson/calculator.py 190 and 199-200. -/
def szsz (i k : Bool × Bool) : F := if i.1 = i.2 ∧ k.1 = k.2 then (if i = k then 1 else -1) else 0

/-- One term of the sum of `Calculate_Chi`, dyson/calculator.py 207-208: `np.einsum("ik, kminvt->mnvt", SS/4.0, ChiTensor.Data)`. -/
def contractChi (SS : Bool × Bool → Bool × Bool → F) (X : Grid L N (Matrix (WIdx m) (WIdx m) F)) : Grid L N (Matrix (Fin m) (Fin m) F) := fun r t =>
  Matrix.of fun a b => ∑ i, ∑ k, SS i k / 4 * X r t (k, a) (i, b)

variable [CharZero F]

/-- `Calculate_Chi`, dyson/calculator.py 186-209: `SS=[SzSz/4.0]`, the line with three components is a comment. -/
def calculateChi (X : Plain L N (Matrix (WIdx m) (WIdx m) F)) : Plain L N (Matrix (Fin m) (Fin m) F) := ⟨contractChi szsz X.data, X.space, X.time⟩

variable [∀ i, NeZero (L i)]

/-- `Add_ChiTensor_ZerothOrder`, dyson/calculator.py 162-184; `κ` is the kind of the tensor, `κg` that of the propagator. The same matrix is added for every lattice vector and time. -/
def addZeroth (κ κg : Kind) (E : Phase F) (X : Plain L N (Matrix (WIdx m) (WIdx m) F)) (G : Plain L N (Matrix (GIdx m) (GIdx m) F)) : Plain L N (Matrix (WIdx m) (WIdx m) F) :=
  let G := G.fft κg E [.R, .T]
  let X := X.fft κ E [.R, .T]
  { X with data := fun r t => X.data r t + Matrix.of fun p q => lastG G.data 0 (p.1.1, p.2) (p.1.2, p.2) * lastG G.data 0 (q.1.1, q.2) (q.1.2, q.2) }

/-- The susceptibility that is reported and saved, dyson/main.py 24-25 and 45. -/
def measuredChi (κ κg : Kind) (E : Phase F) (X : Plain L N (Matrix (WIdx m) (WIdx m) F)) (G : Plain L N (Matrix (GIdx m) (GIdx m) F)) : Plain L N (Matrix (Fin m) (Fin m) F) :=
  (calculateChi (addZeroth κ κg E X G)).fft κ E [.R, .T]

end

section
variable {d : ℕ} {L : Fin d → ℕ} {N m : ℕ} [∀ i, NeZero (L i)] [NeZero N]

/-- `Polar`, `Wtmp`, `ChiTensor` and `Chi` in the loop for the sum rule, dyson/main.py 274-289. -/
structure SumRule (L : Fin d → ℕ) (N m : ℕ) where
  polar : Merged ℚ L N (Matrix (WIdx m) (WIdx m) ℂ)
  W : Plain L N (Matrix (WIdx m) (WIdx m) ℂ)
  X : Plain L N (Matrix (WIdx m) (WIdx m) ℂ)
  chi : Plain L N (Matrix (Fin m) (Fin m) ℂ)

/-- `W_Dyson`, `Add_ChiTensor_ZerothOrder`, `Calculate_Chi`, `Chi.FFT`, dyson/main.py 274, 277-279 and 285-288. `W_Dyson` transforms `Polar` in place. -/
noncomputable def SumRule.make (κ : ScfKinds) (T : ScfTools ℂ L N m) (W0 : Plain L 1 (Matrix (WIdx m) (WIdx m) ℂ)) (G : Plain L N (Matrix (GIdx m) (GIdx m) ℂ))
    (polar : Merged ℚ L N (Matrix (WIdx m) (WIdx m) ℂ)) : Outcome (SumRule L N m) :=
  let polar := polar.fft κ.w T.E [.K, .W]
  match wDyson κ.w κ.w0 T.E T.solveW T.touchW W0 polar.toPlain with
  | .done (W, X) =>
    let X := addZeroth κ.w κ.g T.E X G
    .done ⟨polar, W, X, (calculateChi X).fft κ.w T.E [.R, .T]⟩
  | .touchZero => .touchZero
  | .crash => .crash

variable [NeZero m]

/-- The condition of the loop, dyson/main.py 281. -/
def SumRule.Far (s : SumRule L N m) : Prop := 1 / 1000 < ‖s.chi.data 0 0 0 0 - 3 / 4‖

/-- `SumRuleRatio` and the rescaled polarisation, dyson/main.py 282-284; `PolarSumRule` and `Polar` are the same object. The sums `Polar` is the mean of stay as they are. -/
noncomputable def SumRule.rescale (s : SumRule L N m) : Merged ℚ L N (Matrix (WIdx m) (WIdx m) ℂ) :=
  { s.polar with data := fun r t => (3 / 4 / s.chi.data 0 0 0 0) ^ (1 / 2 : ℂ) • s.polar.data r t }

/-- The loop, dyson/main.py 281-289, as a relation between the variables before and after; it may also go on for ever or end with an exception. -/
inductive SumRule.Loop (κ : ScfKinds) (T : ScfTools ℂ L N m) (W0 : Plain L 1 (Matrix (WIdx m) (WIdx m) ℂ)) (G : Plain L N (Matrix (GIdx m) (GIdx m) ℂ)) : SumRule L N m → SumRule L N m → Prop
  | stop {s : SumRule L N m} : ¬ s.Far → Loop κ T W0 G s s
  | go {s s' s'' : SumRule L N m} : s.Far → SumRule.make κ T W0 G s.rescale = .done s' → Loop κ T W0 G s' s'' → Loop κ T W0 G s s''

end

end Feyn
