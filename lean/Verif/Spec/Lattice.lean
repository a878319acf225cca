import Verif.Model.Lattice
import Mathlib.Data.List.Forall2

/-!
# What lattice indices are about
-/

namespace Feyn

/-- A vector inside a lattice: one entry per dimension, each in `[0, size)`. -/
def InLat : List ℤ → List ℤ → Prop := List.Forall₂ fun s v => 0 ≤ v ∧ v < s

/-- All dimensions are positive and there is at least one. -/
def LatOk (size : List ℤ) : Prop := size ≠ [] ∧ ∀ s ∈ size, 0 < s

/-- Translate a vector periodically. -/
def translate (size v t : List ℤ) : List ℤ := List.zipWith (fun s p => p % s) size (List.zipWith (fun x y => x + y) v t)

end Feyn
