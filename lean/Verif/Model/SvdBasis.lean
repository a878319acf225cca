import Mathlib.Analysis.SpecialFunctions.Trigonometric.DerivHyp
import Mathlib.Data.Matrix.Mul
import Mathlib.Data.Complex.Basic

/-!
# The basis of functions of imaginary time (basis.py, dyson/gamma3_calc.py) (C98)

Numbers are real numbers without rounding. Citations are relative to `/repo`.
-/

namespace Feyn

/-- `FermiKernel`, basis.py 14-21. -/
noncomputable def svdFermi (w t beta : ℝ) : ℝ :=
  let x := beta * w / 2
  let y := 2 * t / beta - 1
  if x > 100 then Real.exp (-x * (y + 1))
  else if x < -100 then Real.exp (x * (1 - y))
  else Real.exp (-x * y) / (2 * Real.cosh x)

/-- `BoseKernel`, basis.py 23-30. -/
noncomputable def svdBose (w t beta : ℝ) : ℝ :=
  let x := beta * w / 2
  let y := 2 * t / beta - 1
  if x > 200 then w * Real.exp (-x * (y + 1))
  else if x < -200 then -w * Real.exp (x * (1 - y))
  else w * Real.exp (-x * y) / (2 * Real.sinh x)

/-- `np.linspace(start, stop, num)[i]` for at least two points. -/
noncomputable def linspace (start stop : ℝ) (num i : ℕ) : ℝ := start + i * ((stop - start) / (num - 1))

/-- The frequencies, basis.py 33-34. -/
noncomputable def basisFreq (i : ℕ) : ℝ := linspace (-100) 100 1000 i

/-- The times, basis.py 35-37. -/
noncomputable def basisTime (beta : ℝ) (bins l : ℕ) : ℝ := linspace 0 beta (bins + 1) l + 1 / bins / 2

/-- `kMatrix`, basis.py 38-44, for the value `kind` of `BoseFermi`; other values leave the zeros. -/
noncomputable def kernelMatrix (kind : String) (beta : ℝ) (bins : ℕ) : Matrix (Fin 1000) (Fin bins) ℝ := fun i l =>
  if kind = "Fermi" then svdFermi (basisFreq i) (basisTime beta bins l) beta
  else if kind = "Bose" then svdBose (basisFreq i) (basisTime beta bins l) beta
  else 0

/-- `GenerateBasis`, basis.py 46-52, for the third factor `v` that `linalg.svd` returns; `inv` is `linalg.inv`. `none`: `IndexError`. -/
def generateBasis {bins : ℕ} (inv : Matrix (Fin bins) (Fin bins) ℝ → Matrix (Fin bins) (Fin bins) ℝ) (v : Matrix (Fin bins) (Fin bins) ℝ) (N : ℕ) :
    Option (List (Fin bins → ℝ)) :=
  (List.range N).mapM fun i => if h : i < bins then some fun l => inv v l ⟨i, h⟩ else none

/-- `BasisVec=np.array(Basis)`, dyson/gamma3_calc.py 536. -/
def basisVec {bins : ℕ} (basis : List (Fin bins → ℝ)) : Matrix (Fin basis.length) (Fin bins) ℝ := fun k => basis.get k

/-- One element of the result of `FitGammaW` for given spins and sites, dyson/gamma3_calc.py 551-555; the same with one index in front is `FitW` (539-543), with two
`FitGammaW_diagonal` (545-549). -/
noncomputable def fitGamma {n bins : ℕ} (B : Matrix (Fin n) (Fin bins) ℝ) (f : Fin bins → Fin bins → ℂ) : Fin n → Fin n → ℂ :=
  fun k l => ∑ s, (∑ m, f m s * (B k m : ℂ)) * (B l s : ℂ)

/-- `RestoreGammaW` for given spins and sites and all bins, dyson/gamma3_calc.py 563-573 with `TauBin=None`, and `RestoreGammaW_diagonal` (557-561). -/
noncomputable def restoreGamma {n bins : ℕ} (B : Matrix (Fin n) (Fin bins) ℝ) (c : Fin n → Fin n → ℂ) : Fin bins → Fin bins → ℂ :=
  fun m s => ∑ l, (∑ k, c k l * (B k m : ℂ)) * (B l s : ℂ)

/-- The length of `BasisVec[e][::Interval]`. -/
def sliceLength (bins interval : ℕ) : ℕ := (bins + interval - 1) / interval

theorem slice_lt {bins interval m : ℕ} (hi : interval ≠ 0) (hm : m < sliceLength bins interval) : m * interval < bins := by
  have h := Nat.mul_le_of_le_div interval (m + 1) _ hm
  rw [Nat.add_mul] at h
  omega

/-- `RestoreGammaW` with `TauBin`, dyson/gamma3_calc.py 563-573. `none`: `ZeroDivisionError` for `TauBin = 0`, `ValueError` for a step of zero, and for a slice that does not have
`TauBin` elements. (A slice with one element would be repeated, but then `TauBin` is one.) -/
noncomputable def restoreCoarse {n bins : ℕ} (B : Matrix (Fin n) (Fin bins) ℝ) (tauBin : ℕ) (c : Fin n → Fin n → ℂ) : Option (Fin tauBin → Fin tauBin → ℂ) :=
  if tauBin = 0 then none
  else if hi : bins / tauBin = 0 then none
  else if h : sliceLength bins (bins / tauBin) = tauBin then
    some (restoreGamma (fun k m => B k ⟨m.1 * (bins / tauBin), slice_lt hi (h.symm ▸ m.2)⟩) c)
  else none

end Feyn
