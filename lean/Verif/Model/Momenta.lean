import Verif.Model.Bonds
import Verif.Model.Fourier
import Verif.Spec.Fourier

/-!
# Momenta of the lattices (dyson/lattice.py) and the susceptibilities measured by the Dyson part (dyson/measure.py)

`Verif.Spec.Fourier` is imported for the exponential function `Phase.complex` only.
-/

namespace Feyn

open Real (pi)

/-! `ReciprocalLatVec` (rows), dyson/lattice.py. -/

/-- dyson/lattice.py 25. -/
noncomputable def chainRec : Fin 1 → Fin 1 → ℝ := ![![2 * pi]]
/-- dyson/lattice.py 40-41. -/
noncomputable def checkerboardRec : Fin 2 → Fin 2 → ℝ := ![![pi, -pi], ![pi, pi]]
/-- dyson/lattice.py 55-56. -/
noncomputable def valenceRec : Fin 2 → Fin 2 → ℝ := ![![2 * pi, 0], ![0, pi]]
/-- dyson/lattice.py 69-70. -/
noncomputable def squareRec : Fin 2 → Fin 2 → ℝ := ![![2 * pi, 0], ![0, 2 * pi]]
/-- dyson/lattice.py 85-86. -/
noncomputable def triangularRec : Fin 2 → Fin 2 → ℝ := ![![2 * pi, -(2 * pi) / √3], ![0, 2 * (2 * pi) / √3]]
/-- dyson/lattice.py 103-104. -/
noncomputable def asymmetricRec : Fin 2 → Fin 2 → ℝ := ![![2 * pi, -(2 * pi) / √3], ![0, 2 * (2 * pi) / √3]]
/-- dyson/lattice.py 117-118. -/
noncomputable def honeycombRec : Fin 2 → Fin 2 → ℝ := ![![2 * pi / √3, 2 * pi], ![2 * pi * 2 / √3, 0]]
/-- dyson/lattice.py 136-137. -/
noncomputable def kagomeRec : Fin 2 → Fin 2 → ℝ := ![![0, 2 * pi * 2 / √3], ![2 * pi, -(2 * pi) / √3]]
/-- dyson/lattice.py 153-155. -/
noncomputable def cubicRec : Fin 3 → Fin 3 → ℝ := ![![2 * pi, 0, 0], ![0, 2 * pi, 0], ![0, 0, 2 * pi]]
/-- dyson/lattice.py 171-173. -/
noncomputable def checkerboard3Rec : Fin 3 → Fin 3 → ℝ := ![![pi, pi, -pi], ![pi, -pi, -pi], ![0, 0, 2 * pi]]
/-- dyson/lattice.py 191-193. -/
noncomputable def pyrochloreRec : Fin 3 → Fin 3 → ℝ := ![![2 * pi, -(2 * pi), 2 * pi], ![2 * pi, 2 * pi, -(2 * pi)], ![-(2 * pi), 2 * pi, 2 * pi]]

section
variable {d n : ℕ} {L : Fin d → ℕ}

/-- The momentum with integer coordinates, dyson/lattice.py 244-247. -/
noncomputable def kvec (rec : Fin d → Fin d → ℝ) (L : Fin d → ℕ) (p : Fin d → ℤ) (k : Fin d) : ℝ := ∑ i, rec i k * p i / L i

/-- `GetRealVec` without offset, dyson/lattice.py 294-300; `__Shift` changes nothing for coordinates in the lattice. -/
def Geometry.realVec (g : Geometry d n) (c : ∀ i, Fin (L i)) (subIn subOut : Fin n) (k : Fin d) : ℝ :=
  ∑ i, g.lat i k * ((c i : ℕ) : ℝ) + g.sub subOut k - g.sub subIn k

/-- One element of `FourierTransformation`, dyson/lattice.py 219-262, without `bound`: `np.dot(data, np.exp(-1j*np.dot(vec, KVec)))/NSublat`. `data` has the axes
in-sublattice, out-sublattice and lattice vector. -/
noncomputable def latFourier (g : Geometry d n) (data : Fin n → Fin n → (∀ i, Fin (L i)) → ℂ) (K : Fin d → ℝ) : ℂ :=
  (∑ subIn, ∑ c : ∀ i, Fin (L i), ∑ subOut, data subIn subOut c * Complex.exp (-Complex.I * ((∑ k, g.realVec c subIn subOut k * K k : ℝ) : ℂ))) / n

/-- The `[0, :, 0, :, :, :]` part of `Chi`, a weight of the kind `SmoothT`, `Symmetric`: for every lattice vector and time bin a matrix in the sublattices. -/
abbrev Chi (L : Fin d → ℕ) (N n : ℕ) := Plain L N (Fin n → Fin n → ℂ)

/-- `Chi.Data[0,:,0,:,:,0]*Factor` with `Factor=Beta/MaxTauBin`, dyson/measure.py 22, 27, 56. -/
noncomputable def Chi.first {N : ℕ} [NeZero N] (beta : ℚ) (χ : Chi L N n) : Fin n → Fin n → (∀ i, Fin (L i)) → ℂ :=
  fun a b r => χ.data r 0 a b * ((beta / N : ℚ) : ℂ)

/-- `UnifChi`, dyson/measure.py 24-31. -/
noncomputable def unifChi {N : ℕ} [NeZero N] (g : Geometry d n) (beta : ℚ) (χ : Chi L N n) : ℂ :=
  latFourier g (Chi.first beta (χ.fft ⟨beta, true, true⟩ Phase.complex [.R, .W])) (fun _ => 0)

/-- `StagChi` of the lattices of dyson/measure.py 52, dyson/measure.py 24-61: `Chi.FFT("R","W")`, `Chi.FFT("R","T")` and then the first element at the momentum `(pi,...,pi)`. -/
noncomputable def stagChi {N : ℕ} [NeZero N] (g : Geometry d n) (beta : ℚ) (χ : Chi L N n) : ℂ :=
  latFourier g (Chi.first beta ((χ.fft ⟨beta, true, true⟩ Phase.complex [.R, .W]).fft ⟨beta, true, true⟩ Phase.complex [.R, .T])) (fun _ => pi)

end

end Feyn
