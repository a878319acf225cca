import Verif.Model.Ladder
import Verif.Spec.Chi

/-!
# Susceptibility and three-point function
-/

namespace Feyn

section
variable {F : Type} [Field F] {d : ℕ} {L : Fin d → ℕ} {m : ℕ}

/-- The interaction has the spin structure of the exchange `S · S`. -/
def SpinExchange (J : Grid L 1 (Matrix (WIdx m) (WIdx m) F)) : Prop := ∀ r t p q a b, J r t (p, a) (q, b) = exchange p q (J r t ((true, true), a) ((true, true), b))

end

section
variable {F : Type} [Field F] {L : Fin 2 → ℕ} {N : ℕ}

/-- Response of the spins without the exchange of interactions between them, from the three-point function at equal times: `-1/2` of the difference between both spins. -/
def equalTimes (Γ : Three L N F) : Grid L N (Matrix (Fin 1) (Fin 1) F) := fun r t => Matrix.of fun _ _ => -(1 / 2) * (Γ true r t t - Γ false r t t)

end

end Feyn
