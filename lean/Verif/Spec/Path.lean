import Verif.Model.Path
import Verif.Spec.Momenta

/-!
# Momenta on a path
-/

namespace Feyn

section
variable {d : ℕ}

/-- A vector of the segment between two others. -/
def OnSegment (a b k : Fin d → ℝ) : Prop := ∃ s : ℝ, 0 ≤ s ∧ s ≤ 1 ∧ ∀ i, k i = a i + s * (b i - a i)

/-- Sum of the Euclidean distances to both ends, in excess of their distance. -/
noncomputable def detour (a b k : Fin d → ℝ) : ℝ := √(∑ i, (k i - a i) ^ 2) + √(∑ i, (b i - k i) ^ 2) - √(∑ i, (b i - a i) ^ 2)

/-- The momenta that the list is made of: around `Center`, up to one reciprocal lattice vector in each direction. -/
def NearGrid (rec : Fin d → Fin d → ℝ) (L : Fin d → ℕ) (Center k : Fin d → ℝ) : Prop := ∃ p : Fin d → ℤ, (∀ i, |p i| ≤ L i) ∧ ∀ j, k j = Center j + kvec rec L p j

/-- Results of one call after another, in order. -/
noncomputable def callsAlong (rec : Fin d → Fin d → ℝ) (L : Fin d → ℕ) : Option ((Fin d → ℝ) × List (Fin d → ℝ)) → List ((Fin d → ℝ) × (Fin d → ℝ) × (Fin d → ℝ)) → List (List (Fin d → ℝ))
  | _, [] => []
  | c, (a, b, z) :: l => (kAlongPath rec L c a b z).1 :: callsAlong rec L (kAlongPath rec L c a b z).2 l

end

end Feyn
