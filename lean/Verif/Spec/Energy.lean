import Verif.Model.Energy
import Verif.Spec.Bonds
import Mathlib.Algebra.Algebra.Basic
import Mathlib.Data.Fintype.Pi
import Mathlib.Data.Int.Interval
import Mathlib.Algebra.BigOperators.Finprod

/-!
# Energy of a spin model (C96): specification

Spins are elements `S a r k` of an algebra over the complex numbers, for the site of the sublattice `a` in the cell `r` and the component `k`; averages are a linear function.
Which algebra and which average (of the ground state, at a temperature) does not matter.
-/

namespace Feyn

section
variable {d n : ℕ} {A : Type*} [Ring A] [Algebra ℂ A]

/-- The spins of all sites. -/
abbrev Spins (d n : ℕ) (A : Type*) := Fin n → (Fin d → ℤ) → Fin 3 → A

/-- The cells of the lattice. -/
noncomputable def cells (L : Fin d → ℤ) : Finset (Fin d → ℤ) := Fintype.piFinset fun i => Finset.Ico 0 (L i)

/-- Energy of the exchange `J` between the sites for which `bond` holds. Each bond is met twice, once from each of its ends. -/
noncomputable def exchangeEnergy (L : Fin d → ℤ) (bond : Fin n → Fin n → (Fin d → ℤ) → Prop) (J : ℂ) (S : Spins d n A) : A :=
  (J / 2) • ∑ r ∈ cells L, ∑ a, ∑ b, ∑ᶠ v : Fin d → ℤ, open scoped Classical in if bond a b v then ∑ k, S a r k * S b (r + v) k else 0

/-- Average per site. -/
noncomputable def perSite (L : Fin d → ℤ) (n : ℕ) (avg : A →ₗ[ℂ] ℂ) (H : A) : ℂ := avg H / (n * (cells L).card)

/-- Component of the magnetisation. -/
noncomputable def totalSpin (L : Fin d → ℤ) (S : Spins d n A) (k : Fin 3) : A := ∑ a, ∑ r ∈ cells L, S a r k

/-- A state of a spin model without field: periodic boundary conditions, and correlations of two spins that are the same in all cells and for all components. -/
structure UniformState (L : Fin d → ℤ) (S : Spins d n A) (avg : A →ₗ[ℂ] ℂ) : Prop where
  periodic : ∀ a r r', (∀ i, r i ≡ r' i [ZMOD L i]) → S a r = S a r'
  translation : ∀ a b r v k, avg (S a r k * S b (r + v) k) = avg (S a 0 k * S b v k)
  isotropic : ∀ a b r k, avg (S a 0 k * S b r k) = avg (S a 0 2 * S b r 2)

/-- The first time bin of `Chi` holds the correlations at equal times of the third component. -/
def HoldsCorrelations (L : Fin d → ℤ) (S : Spins d n A) (avg : A →ₗ[ℂ] ℂ) (chi : Fin n → Fin n → ℤ → ℂ) : Prop :=
  ∀ a b, ∀ r ∈ cells L, chi a b (vec2Index (List.ofFn L) (List.ofFn r)) = avg (S a 0 2 * S b r 2)

end

end Feyn
