import Verif.Spec.Fourier
import Verif.Model.Dyson
import Mathlib.LinearAlgebra.Matrix.Determinant.Basic

/-!
# The Dyson equations in real space and imaginary time
-/

namespace Feyn

section
variable {S F : Type} [Fintype S] [DecidableEq S] [Field F] {d : ℕ} {L : Fin d → ℕ} {N : ℕ}

/-- A solver that solves, and reports singular matrices only. -/
def Solver.Good (solve : Solver S F) : Prop :=
  (∀ D s, solve D = some s → ∀ B, D * s B = B) ∧ ∀ D, solve D = none → D.det = 0

/-- A function of time continued periodically (`sigma = 0`) or antiperiodically (`sigma = 1`): bin `z + N` is the bin `z` one period later. -/
def cont {M : Type} [AddCommGroup M] [NeZero N] (σ : ℕ) (f : Grid L N M) (r : ∀ i, Fin (L i)) (z : ℤ) : M :=
  if σ = 1 ∧ (z / N) % 2 = 1 then -f r (Fin.ofNat N (z % N).toNat) else f r (Fin.ofNat N (z % N).toNat)

variable [CharZero F] [NeZero N] [∀ i, NeZero (L i)]

/-- Convolution of three functions over lattice vectors and times. The times are the centres of the bins, so `tau_j + tau_k + tau_l` is the centre of bin
`j + k + l + 1`. -/
def conv3 (σ : ℕ) (A B C : Grid L N (Matrix S S F)) : Grid L N (Matrix S S F) := fun r n =>
  ∑ r1, ∑ r2, ∑ j : Fin N, ∑ k : Fin N, A r1 j * B r2 k * cont σ C (r - r1 - r2) ((n : ℕ) - (j : ℕ) - (k : ℕ) - 1)

/-- Convolution with an instantaneous function in the middle. `tau_j + tau_l` is the boundary of the bins `j + l` and `j + l + 1`; each gets one half. -/
def conv2 (σ : ℕ) (A : Grid L N (Matrix S S F)) (B : Grid L 1 (Matrix S S F)) (C : Grid L N (Matrix S S F)) :
    Grid L N (Matrix S S F) := fun r n =>
  ∑ r1, ∑ r2, ∑ j : Fin N, (1 / 2 : F) • (A r1 j * B r2 0 *
    (cont σ C (r - r1 - r2) ((n : ℕ) - (j : ℕ)) + cont σ C (r - r1 - r2) ((n : ℕ) - (j : ℕ) - 1)))

/-- The same with the instantaneous function in front. -/
def conv2' (σ : ℕ) (A : Grid L 1 (Matrix S S F)) (B : Grid L N (Matrix S S F)) (C : Grid L N (Matrix S S F)) :
    Grid L N (Matrix S S F) := fun r n =>
  ∑ r1, ∑ r2, ∑ j : Fin N, (1 / 2 : F) • (A r1 0 * B r2 j *
    (cont σ C (r - r1 - r2) ((n : ℕ) - (j : ℕ)) + cont σ C (r - r1 - r2) ((n : ℕ) - (j : ℕ) - 1)))

/-- Two instantaneous functions around one of time. -/
def conv1 (A : Grid L 1 (Matrix S S F)) (B : Grid L N (Matrix S S F)) (C : Grid L 1 (Matrix S S F)) :
    Grid L N (Matrix S S F) := fun r n => ∑ r1, ∑ r2, A r1 0 * B r2 n * C (r - r1 - r2) 0

/-- The discretised Dyson equation of the propagator: `G = G0 + G0 (Sigma + Sigma_delta) G` with the bin width `dt`. -/
def DysonG (dt : F) (G0 : Grid L N (Matrix S S F)) (D : Grid L 1 (Matrix S S F)) (Sig G : Grid L N (Matrix S S F)) : Prop :=
  ∀ r n, G r n = G0 r n + (dt * dt) • conv3 1 G0 Sig G r n + dt • conv2 1 G0 D G r n

/-- The discretised Dyson equation of the interaction: `W = J P J + J P W`. -/
def DysonW (dt : F) (J : Grid L 1 (Matrix S S F)) (P W : Grid L N (Matrix S S F)) : Prop :=
  ∀ r n, W r n = conv1 J P J r n + dt • conv2' 0 J P W r n

/-- The discretised equation of the susceptibility: `X = -P + J P X`. -/
def DysonChi (dt : F) (J : Grid L 1 (Matrix S S F)) (P X : Grid L N (Matrix S S F)) : Prop :=
  ∀ r n, X r n = -P r n + dt • conv2' 0 J P X r n

end

end Feyn
