import Verif.Model.SvdBasis
import Mathlib.Data.Matrix.Diagonal

/-!
# Spectral functions and the best basis (C98)
-/

namespace Feyn

/-- The propagator of a fermion with energy `w` at the time `t`, without sign. -/
noncomputable def fermiLine (w t beta : ℝ) : ℝ := Real.exp (-w * t) / (1 + Real.exp (-beta * w))

/-- The propagator of a boson with energy `w`, times `w`. -/
noncomputable def boseLine (w t beta : ℝ) : ℝ := w * Real.exp (-w * t) / (1 - Real.exp (-beta * w))

/-- The middle of the bin `l`. -/
noncomputable def binMiddle (beta : ℝ) (bins l : ℕ) : ℝ := (l + 1 / 2) * (beta / bins)

/-- What the documentation of `linalg.svd` promises for its third result: there are the two others. -/
def IsSvd {M n : ℕ} (K : Matrix (Fin M) (Fin n) ℝ) (v : Matrix (Fin n) (Fin n) ℝ) (s : ℕ → ℝ) : Prop :=
  v * v.transpose = 1 ∧ Antitone s ∧ (∀ j, 0 ≤ s j) ∧
    ∃ u : Matrix (Fin M) (Fin M) ℝ, u.transpose * u = 1 ∧ K = u * (Matrix.of fun (i : Fin M) (j : Fin n) => if i.1 = j.1 then s i.1 else 0) * v

/-- What the documentation of `linalg.inv` promises. -/
def IsInv {n : ℕ} (inv : Matrix (Fin n) (Fin n) ℝ → Matrix (Fin n) (Fin n) ℝ) : Prop := ∀ a b, a * b = 1 → a * inv a = 1

/-- The sum of the squares of the differences. -/
def squareError {M n : ℕ} (K A : Matrix (Fin M) (Fin n) ℝ) : ℝ := ∑ i, ∑ j, (K i j - A i j) ^ 2

end Feyn
