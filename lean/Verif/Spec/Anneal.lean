import Verif.Model.Anneal
import Mathlib.Data.Fin.VecNotation

/-!
# Fields that reach zero
-/

namespace Feyn

variable {Q : Type} [Field Q] [LinearOrder Q] {n : ℕ}

/-- The field is a whole number of intervals below zero; the interval was halved `j` times. -/
def Annealing.Multiple (d : Fin (n + 1) → Q) (s : Annealing Q n) (k j : ℕ) : Prop :=
  ∀ i, s.interval i = d i / 2 ^ j ∧ s.delta i = -(k * s.interval i)

end Feyn
