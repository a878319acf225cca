import Verif.Model.Lu

/-!
# Specification of the linear solver
-/

namespace Feyn

/-- Size of a number: zero for zero only, and never smaller than zero. -/
structure IsSize {Q F : Type} [LinearOrder Q] [Zero Q] [Zero F] (size : F → Q) : Prop where
  nonneg : ∀ x, 0 ≤ size x
  eq_zero : ∀ x, size x = 0 ↔ x = 0

end Feyn
