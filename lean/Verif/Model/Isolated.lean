import Mathlib.Analysis.SpecialFunctions.Complex.Circle
import Mathlib.Data.Fin.VecNotation
import Mathlib.LinearAlgebra.Matrix.Notation

/-!
# Bare propagator of the spin models (dyson/model.py)

Numbers are exact. Spin 0 is `DOWN`, spin 1 is `UP` (dyson/weight.py 14).
-/

namespace Feyn

/-- `IndexMap.Pauli`, dyson/weight.py 83-84. -/
noncomputable def pyPauli : Fin 3 → Matrix (Fin 2) (Fin 2) ℂ := ![!![0, 1; -1, 0], !![0, Complex.I; -Complex.I, 0], !![1, 0; 0, -1]]

/-- `self.__Mu`, dyson/model.py 308-316; `imW` is the presence of `"ImW"` in the description. -/
noncomputable def spinMu0 (imW : Bool) (beta : ℝ) : ℂ := if imW then Real.pi / 4 / beta else Complex.I * Real.pi / 2 / beta

/-- `Mu` of dyson/model.py 327. `field` is the sum of annealing field and external field of the sublattice. -/
noncomputable def spinMu (imW : Bool) (beta field : ℝ) (sp : Fin 2) : ℂ := spinMu0 imW beta + 1 / 2 * pyPauli 2 sp sp * field

/-- `np.exp(Mu*TauGrid)/(1.0+np.exp(Mu*Beta))`, dyson/model.py 328, at one time. -/
noncomputable def expKernel (mu : ℂ) (beta tau : ℝ) : ℂ := Complex.exp (mu * tau) / (1 + Complex.exp (mu * beta))

/-- `IndexToTau`, dyson/weight.py 43-44. -/
noncomputable def tauGrid (beta : ℝ) (N t : ℕ) : ℝ := (t + 0.5) * (beta / N)

/-- `self.BareG.Data` of a spin model, dyson/model.py 296, 323-328, as a function of spin, sublattice, spin, sublattice, index of the lattice vector and time bin. -/
noncomputable def spinBareG {n : ℕ} (imW : Bool) (beta : ℝ) (N : ℕ) (delta external : Fin n → ℝ) (sp : Fin 2) (a : Fin n) (sp' : Fin 2) (b : Fin n) (r t : ℕ) : ℂ :=
  if sp = sp' ∧ a = b ∧ r = 0 then expKernel (spinMu imW beta (delta a + external a) sp) beta (tauGrid beta N t) else 0

/-- `1.5*G.Data[..,-1]-0.5*G.Data[..,-2]`, dyson/measure.py 113, 117: the value extrapolated to the end of the last bin. `g` are the `N ≥ 2` values of the time bins. -/
noncomputable def lastBins (N : ℕ) (g : ℕ → ℂ) : ℂ := 1.5 * g (N - 1) - 0.5 * g (N - 2)

/-- `<Sz_i>`, dyson/measure.py 113, of a propagator given by its spin-diagonal local values. -/
noncomputable def measureSz (N : ℕ) (g : Fin 2 → ℕ → ℂ) : ℂ := -0.5 * (lastBins N (g 1) - lastBins N (g 0))

/-- `<n_i>`, dyson/measure.py 117: the average over the momenta of the propagator is its local value. -/
noncomputable def measureN (N : ℕ) (g : Fin 2 → ℕ → ℂ) : ℂ := lastBins N (g 1) + lastBins N (g 0)

end Feyn
