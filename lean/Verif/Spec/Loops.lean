import Mathlib.Data.Set.Card
import Verif.Spec.Inv

/-! # Closed fermion loops -/

namespace Feyn

/-- The vertices met when outgoing propagators are followed from `v`. -/
def loopOf (s : Shape) (v : ℕ) : Set ℕ := {u | ∃ n : ℕ, (nextVertex s)^[n] v = u}

/-- The closed fermion loops of a diagram with vertices `V`, each given by its set of vertices. -/
def fermiLoops (V : Finset ℕ) (s : Shape) : Set (Set ℕ) := {S | ∃ v ∈ V, S = loopOf s v}

end Feyn
