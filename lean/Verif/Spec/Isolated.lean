import Verif.Model.Isolated
import Verif.Spec.Bonds
import Mathlib.Algebra.FreeAlgebra
import Mathlib.Analysis.Normed.Algebra.Exponential

/-!
# Fermions and spins on isolated sites
-/

namespace Feyn

/-- Occupation numbers of the two spin states of a site. -/
abbrev Occ := Fin 2 → Bool

/-- Minus the energy of a state of a site with the chemical potentials `mu`. -/
noncomputable def Occ.mu (n : Occ) (mu : Fin 2 → ℂ) : ℂ := ∑ s, if n s then mu s else 0

/-- Grand partition function of one site. -/
noncomputable def fockZ (mu : Fin 2 → ℂ) (beta : ℝ) : ℂ := ∑ n : Occ, Complex.exp (beta * n.mu mu)

/-- The propagator `⟨c_s(τ) c†_s(0)⟩` of one site, as a sum over states: a particle is added to a state without one, lives for the time `tau` and is removed. -/
noncomputable def fockG (mu : Fin 2 → ℂ) (beta tau : ℝ) (s : Fin 2) : ℂ :=
  (∑ n : Occ, if n s then 0 else Complex.exp ((beta - tau : ℝ) * n.mu mu) * Complex.exp (tau * Occ.mu (Function.update n s true) mu)) / fockZ mu beta

/-- Thermal average of a function of the occupation numbers. -/
noncomputable def fockMean (mu : Fin 2 → ℂ) (beta : ℝ) (f : Occ → ℂ) : ℂ := (∑ n : Occ, f n * Complex.exp (beta * n.mu mu)) / fockZ mu beta

/-- States of a site that are states of a spin: exactly one particle. -/
def Occ.single (n : Occ) : Bool := n 0 != n 1

/-- The state of a site with one particle. -/
def Occ.ofSpin (s : Fin 2) : Occ := fun t => t = s

/-- The exchange of the empty and the doubly occupied state. -/
def Occ.flip (n : Occ) : Occ := if n.single then n else fun s => !n s

/-- Thermal average of a quantity of a spin one half in a field: state 0 has the energy `-field/2` and state 1 `field/2`. -/
noncomputable def spinMean (beta field : ℝ) (x : Fin 2 → ℂ) : ℂ :=
  (x 0 * Complex.exp (beta * field / 2) + x 1 * Complex.exp (-(beta * field / 2))) / (Complex.exp (beta * field / 2) + Complex.exp (-(beta * field / 2)))

/-- Number of particles on a site. -/
def Occ.count (n : Occ) : ℕ := ∑ s, if n s then 1 else 0

/-- The spin of a site with one particle. -/
def Occ.spin (n : Occ) : Fin 2 := if n 0 then 0 else 1

/-- Component `k` of the spin of site `i` as an operator on the fermion states of `m` sites: it moves the particle of a site with one particle and is zero on an empty or
doubly occupied site. -/
noncomputable def siteSpin {m : ℕ} (a : Fin 3 × Fin m) : Matrix (Fin m → Occ) (Fin m → Occ) ℂ :=
  fun c c' => if (∀ j, j ≠ a.2 → c j = c' j) ∧ (c a.2).single ∧ (c' a.2).single then pauli a.1 (c a.2).spin (c' a.2).spin / 2 else 0

/-- Component `k` of spin `i` of `m` spins one half. -/
noncomputable def pureSpin {m : ℕ} (a : Fin 3 × Fin m) : Matrix (Fin m → Fin 2) (Fin m → Fin 2) ℂ :=
  fun s s' => if ∀ j, j ≠ a.2 → s j = s' j then pauli a.1 (s a.2) (s' a.2) / 2 else 0

/-- A polynomial in the components of `m` spins, for example a Hamiltonian with exchange and fields. -/
abbrev SpinPoly (m : ℕ) := FreeAlgebra ℂ (Fin 3 × Fin m)

/-- The operator on fermion states. -/
noncomputable def SpinPoly.fock {m : ℕ} (H : SpinPoly m) : Matrix (Fin m → Occ) (Fin m → Occ) ℂ := FreeAlgebra.lift ℂ siteSpin H

/-- The operator on spin states. -/
noncomputable def SpinPoly.pure {m : ℕ} (H : SpinPoly m) : Matrix (Fin m → Fin 2) (Fin m → Fin 2) ℂ := FreeAlgebra.lift ℂ pureSpin H

end Feyn
