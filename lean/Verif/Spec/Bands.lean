import Verif.Model.Bands
import Verif.Spec.Bonds
import Verif.Spec.Fourier
import Mathlib.LinearAlgebra.UnitaryGroup
import Mathlib.LinearAlgebra.Matrix.Hermitian

/-!
# Free particles on a lattice
-/

namespace Feyn

section
variable {S : Type} [Fintype S] [DecidableEq S] {d : ℕ} {L : Fin d → ℕ}

/-- `g` is the propagator of free particles with the Hamiltonian `h` (matrix elements between two sites as a function of the vector between them) at inverse temperature
`beta`: it obeys the equation of motion and jumps by one at time zero, so that it is antiperiodic. -/
def FreeParticles (h : (∀ i, Fin (L i)) → Matrix S S ℂ) (beta : ℝ) (g : ℝ → (∀ i, Fin (L i)) → Matrix S S ℂ) : Prop :=
  (∀ tau r p q, HasDerivAt (fun tau => g tau r p q) (-(∑ r', h (r - r') * g tau r') p q) tau) ∧ ∀ r, g 0 r + g beta r = if ∀ i, (r i : ℕ) = 0 then 1 else 0

/-- The Hamiltonian is Hermitian. -/
def HermitianHopping (h : (∀ i, Fin (L i)) → Matrix S S ℂ) : Prop := ∀ r p q, h (-r) q p = star (h r p q)

/-- What numpy promises about `eig`: the columns are eigenvectors of unit length, and there is a full set of them if there can be (here: if the matrix is Hermitian). -/
def EigContract (eig : Eig S) : Prop :=
  ∀ H, H * (eig H).2 = (eig H).2 * Matrix.diagonal (eig H).1 ∧ (∀ j, ∑ i, ‖(eig H).2 i j‖ ^ 2 = 1) ∧ (H.IsHermitian → IsUnit (eig H).2.det)

/-- What is needed: the eigenvectors of Hermitian matrices are orthonormal. -/
def EigOrthonormal (eig : Eig S) : Prop :=
  ∀ H : Matrix S S ℂ, H.IsHermitian → H * (eig H).2 = (eig H).2 * Matrix.diagonal (eig H).1 ∧ (eig H).2 ∈ Matrix.unitaryGroup S ℂ

end

/-- The Hamiltonian of a band model on a lattice: hopping with the amplitude `t1` to nearest and `t2` to next nearest neighbours (images of a site in the periodic lattice added), chemical
potential `mu`, and a field that lowers the energy of spin 1 and raises that of spin 0. -/
noncomputable def hopping {n : ℕ} {L : Fin 2 → ℕ} (geo : Geometry 2 n) (t1 t2 mu : ℝ) (field : Fin n → ℝ) (r : ∀ i, Fin (L i)) : Matrix (Fin 2 × Fin n) (Fin 2 × Fin n) ℂ :=
  fun p q =>
    (if p.1 = q.1 then
      images (fun i => (L i : ℤ)) (fun i => ((r i : ℕ) : ℤ)) (fun v => onBonds (-t1) (geo.neighbour 1 p.2 q.2) v + onBonds (-t2) (geo.neighbour 2 p.2 q.2) v) else 0) +
    if p = q ∧ ∀ i, (r i : ℕ) = 0 then -(mu : ℂ) + ((-1) ^ (p.1 : ℕ) * field p.2 : ℝ) else 0

end Feyn
