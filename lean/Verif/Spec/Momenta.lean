import Verif.Model.Momenta
import Verif.Spec.Bonds

/-!
# What momenta and susceptibilities are about
-/

namespace Feyn

section
variable {d n : ℕ} {L : Fin d → ℕ}

/-- Position of the site of sublattice `a` in the cell `c`. -/
def Geometry.pos (g : Geometry d n) (a : Fin n) (c : Fin d → ℤ) (k : Fin d) : ℝ := ∑ i, c i * g.lat i k + g.sub a k

/-- Plane wave `exp(-i r K)`. -/
noncomputable def wave (r K : Fin d → ℝ) : ℂ := Complex.exp (-Complex.I * ((∑ k, r k * K k : ℝ) : ℂ))

/-- Wave vectors of waves that fit on the periodic lattice with `L` cells. -/
def Geometry.Fits (g : Geometry d n) (L : Fin d → ℕ) (K : Fin d → ℝ) : Prop := ∀ i, wave (fun k => L i * g.lat i k) K = 1

/-- The reciprocal vectors are such that the momentum with integer coordinates `p` has the phase `2 pi p v/L` at the lattice vector `v`; coordinate `σ i` is the one for
direction `i`. -/
def Geometry.Momenta (g : Geometry d n) (rec : Fin d → Fin d → ℝ) (σ : Equiv.Perm (Fin d)) : Prop :=
  ∀ (L : Fin d → ℕ) (p v : Fin d → ℤ), ∑ k, (∑ i, v i * g.lat i k) * kvec rec L p k = 2 * Real.pi * ∑ i, (p (σ i) * v i / L (σ i) : ℝ)

/-- The cell of the infinite lattice that has the given coordinates. -/
def cell (c : ∀ i, Fin (L i)) : Fin d → ℤ := fun i => ((c i : ℕ) : ℤ)

/-- The transform as explained in the code (dyson/lattice.py 223-225): one over the number of sites times the sum over all pairs of sites of the periodic lattice. The
function depends on the difference of the cells modulo the size. -/
noncomputable def pairFourier [∀ i, NeZero (L i)] (g : Geometry d n) (data : Fin n → Fin n → (∀ i, Fin (L i)) → ℂ) (K : Fin d → ℝ) : ℂ :=
  (∑ a, ∑ i : ∀ k, Fin (L k), ∑ b, ∑ j : ∀ k, Fin (L k), data a b (j - i) * wave (fun k => g.pos b (cell j) k - g.pos a (cell i) k) K) / ((∏ i, L i : ℕ) * n)

end

end Feyn
