import Verif.Model.Chi
import Verif.Spec.SelfCons
import Verif.Spec.Isolated

/-!
# Susceptibilities of spins
-/

namespace Feyn

section
variable {F : Type} [Field F] [CharZero F] {d : ℕ} {L : Fin d → ℕ} {N m : ℕ} [∀ i, NeZero (L i)] [NeZero N]

/-- Susceptibility of spins that do not interact, from the polarisation: `-1/2` of its value for one spin. -/
def bubble (P : Grid L N (Matrix (WIdx m) (WIdx m) F)) : Grid L N (Matrix (Fin m) (Fin m) F) := fun r t => Matrix.of fun a b => -(1 / 2) * P r t ((true, true), a) ((true, true), b)

/-- The exchange constants: four times the interaction of parallel spins. -/
def constants (J : Grid L 1 (Matrix (WIdx m) (WIdx m) F)) : Grid L 1 (Matrix (Fin m) (Fin m) F) := fun r t => Matrix.of fun a b => 4 * J r t ((true, true), a) ((true, true), b)

/-- The correlation of the components along the axis of quantisation, from a tensor of pairs of spins: `1/4` of the sum with the sign of both spins. -/
def alongZ (X : Grid L N (Matrix (WIdx m) (WIdx m) F)) : Grid L N (Matrix (Fin m) (Fin m) F) := fun r t => Matrix.of fun a b =>
  (X r t ((true, true), a) ((true, true), b) - X r t ((true, true), a) ((false, false), b) - X r t ((false, false), a) ((true, true), b) + X r t ((false, false), a) ((false, false), b)) / 4

/-- The random phase approximation: `χ = χ0 - χ0 J χ`, a matrix equation in the sublattices, with the bin width `dt`. -/
def Rpa (dt : F) (J : Grid L 1 (Matrix (Fin m) (Fin m) F)) (χ0 χ : Grid L N (Matrix (Fin m) (Fin m) F)) : Prop := ∀ r n, χ r n = χ0 r n - dt • conv2 0 χ0 J χ r n

/-- The same with interaction and bare susceptibility exchanged. -/
def RpaExchanged (dt : F) (J : Grid L 1 (Matrix (Fin m) (Fin m) F)) (χ0 χ : Grid L N (Matrix (Fin m) (Fin m) F)) : Prop := ∀ r n, χ r n = χ0 r n - dt • conv2' 0 J χ0 χ r n

/-- The magnetisation of a sublattice: half the difference of the propagators of both spins at the end of the last bin. -/
def magnetisation (g : Grid L N (Matrix (GIdx m) (GIdx m) F)) (a : Fin m) : F := (lastG g 0 (false, a) (false, a) - lastG g 0 (true, a) (true, a)) / 2

end

/-- The bare propagators of a spin model as a function of lattice vector and time; `ι` is the index of a lattice vector. -/
noncomputable def freeG {d : ℕ} (L : Fin d → ℕ) (N : ℕ) {m : ℕ} (beta : ℝ) (delta external : Fin m → ℝ) (ι : (∀ i, Fin (L i)) → ℕ) : Grid L N (Matrix (GIdx m) (GIdx m) ℂ) := fun r t =>
  Matrix.of fun p q => spinBareG false beta N delta external (if p.1 then 1 else 0) p.2 (if q.1 then 1 else 0) q.2 (ι r) t

end Feyn
