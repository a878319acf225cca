import Verif.Model.Bonds

/-! # The drawing of the model: specification (C100) -/

namespace Feyn

section
variable {d n : ℕ}

/-- The place in space of a site of the infinite lattice, relative to a site of the sublattice `a` in the cell zero. -/
def Geometry.placeOf (g : Geometry d n) (x : Fin d → ℤ) (a b : Fin n) : Fin d → ℝ := fun k => ∑ i, g.lat i k * (x i : ℝ) + g.sub b k - g.sub a k

/-- No two sites of the infinite lattice are at the same place. -/
def Geometry.NoOverlap (g : Geometry d n) : Prop := ∀ (v : Fin d → ℤ) (a b : Fin n), g.placeOf v a b = 0 → v = 0 ∧ a = b

/-- `x` is the cell `c` moved by `t`, in the periodic lattice. -/
def IsCell (L : Fin d → ℕ) (c t x : Fin d → ℤ) : Prop := ∀ i, 0 ≤ x i ∧ x i < L i ∧ (L i : ℤ) ∣ x i - (c i + t i)

/-- A vector of coordinates in the lattice. -/
def InCells (L : Fin d → ℕ) (c : Fin d → ℤ) : Prop := ∀ i, 0 ≤ c i ∧ c i < L i

end

end Feyn
