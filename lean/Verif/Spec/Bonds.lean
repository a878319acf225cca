import Verif.Model.Bonds
import Mathlib.Algebra.BigOperators.Finprod
import Mathlib.Data.Int.ModEq
import Mathlib.LinearAlgebra.Matrix.Notation

/-!
# What the bare interaction of a spin model is about

Sites of an infinite lattice, their distances, and the shells of neighbours; the interaction of a periodic lattice is the sum over the images.
-/

namespace Feyn

open scoped Classical in
section

variable {d n : ℕ}

/-- The vector from the site of sublattice `a` in the cell at the origin to the site of sublattice `b` in the cell `v`. -/
def Geometry.disp (g : Geometry d n) (a b : Fin n) (v : Fin d → ℤ) (k : Fin d) : ℝ := ∑ i, v i * g.lat i k + g.sub b k - g.sub a k

/-- The square of their distance. -/
def Geometry.dist2 (g : Geometry d n) (a b : Fin n) (v : Fin d → ℤ) : ℝ := ∑ k, g.disp a b v k ^ 2

/-- `x` is the square of the radius of the `k`-th shell of neighbours: of the smallest distance between two sites that is larger than the radius of the shell before it.
The shell number zero is the site itself. -/
def Geometry.shell (g : Geometry d n) : ℕ → ℝ → Prop
  | 0, x => x = 0
  | k + 1, x => (∃ a b v, g.dist2 a b v = x) ∧ ∃ y, g.shell k y ∧ y < x ∧ ∀ a b v, y < g.dist2 a b v → x ≤ g.dist2 a b v

/-- The two sites are neighbours of the `k`-th shell. -/
def Geometry.neighbour (g : Geometry d n) (k : ℕ) (a b : Fin n) (v : Fin d → ℤ) : Prop := g.shell k (g.dist2 a b v)

/-- The second site is reached from the first by going twice from a site to a nearest neighbour, in the same direction. -/
def Geometry.straight (g : Geometry d n) (a b : Fin n) (v : Fin d → ℤ) : Prop :=
  ∃ c u, g.neighbour 1 a c u ∧ ∀ k, g.disp a b v k = 2 * g.disp a c u k

/-- The Pauli matrices. -/
def pauli : Fin 3 → Matrix (Fin 2) (Fin 2) ℂ := ![!![0, 1; 1, 0], !![0, -Complex.I; Complex.I, 0], !![1, 0; 0, -1]]

/-- Matrix element of the product of two spins one half: the first goes from `s` to `t`, the second from `u` to `v`. -/
noncomputable def spinDot (s t u v : Fin 2) : ℂ := ∑ k, (pauli k s t / 2) * (pauli k u v / 2)

/-- Number of the spin pair `(s, t)` (`Spin2Index`, dyson/weight.py 80-81). -/
def pairIndex (s t : Fin 2) : Fin 4 := ⟨2 * s + t, by omega⟩

/-- The exchange between a site of sublattice `a` and one of sublattice `b` that is `r` cells away in a periodic lattice with `L` cells: the sum over the images `v` of the
cell. -/
noncomputable def images (L : Fin d → ℤ) (r : Fin d → ℤ) (J : (Fin d → ℤ) → ℂ) : ℂ := ∑ᶠ v : Fin d → ℤ, if ∀ i, v i ≡ r i [ZMOD L i] then J v else 0

/-- An exchange constant on some bonds. -/
noncomputable def onBonds (J : ℂ) (p : (Fin d → ℤ) → Prop) (v : Fin d → ℤ) : ℂ := if p v then J else 0

/-- A table of bare interactions is that of the exchange `J a b v` between sites. -/
def IsExchange (L : Fin d → ℤ) (w : BareW n) (J : Fin n → Fin n → (Fin d → ℤ) → ℂ) : Prop :=
  ∀ (r : Fin d → ℤ), (∀ i, 0 ≤ r i ∧ r i < L i) → ∀ s t u v a b,
    w (pairIndex s t) a (pairIndex u v) b (vec2Index (List.ofFn L) (List.ofFn r)) = images L r (J a b) * spinDot s t u v

end

end Feyn
