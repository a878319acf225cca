import Verif.Model.Fourier
import Mathlib.Analysis.SpecialFunctions.Complex.Circle

/-!
# What the transforms of a weight should be
-/

namespace Feyn

/-- The complex exponential `exp(-i pi x)`. -/
noncomputable def Phase.complex : Phase ℂ where
  ph x := Complex.exp (-(Real.pi * Complex.I) * x)
  add a b := by rw [← Complex.exp_add]; congr 1; push_cast; ring
  one_iff a := by
    rw [Complex.exp_eq_one_iff]
    have hpi : (Real.pi : ℂ) * Complex.I ≠ 0 := mul_ne_zero (by exact_mod_cast Real.pi_ne_zero) Complex.I_ne_zero
    constructor
    · rintro ⟨n, h⟩
      refine ⟨-n, ?_⟩
      have : (Real.pi : ℂ) * Complex.I * ((a : ℂ) + 2 * n) = 0 := by linear_combination -h
      have h2 := (mul_eq_zero.1 this).resolve_left hpi
      have h3 : ((a + 2 * n : ℚ) : ℂ) = 0 := by push_cast; exact h2
      have h4 : a + 2 * n = 0 := by exact_mod_cast h3
      push_cast
      linarith
    · rintro ⟨k, rfl⟩
      exact ⟨-k, by push_cast; ring⟩

section
variable {F M : Type} [Field F] [AddCommGroup M] [Module F M] {d : ℕ} {L : Fin d → ℕ} {N : ℕ}

/-- 0 for bosons (symmetric), 1 for fermions (antisymmetric): the Matsubara frequencies are `(2 m + sigma) pi / beta`. -/
def Kind.sigma (κ : Kind) : ℕ := if κ.sym then 0 else 1

/-- The transform from time to frequency: `sum_n exp(-i omega_m tau_n) f(tau_n)`, where
`omega_m tau_n = pi (2 m + sigma) (n + 1/2) / N`. -/
def matsubara (E : Phase F) (σ : ℕ) (f : Grid L N M) : Grid L N M :=
  fun r m => ∑ n : Fin N, E.ph ((2 * ((m : ℕ) : ℚ) + σ) * ((((n : ℕ) : ℚ) + 1 / 2) / N)) • f r n

/-- The function `f` of lattice vector and time, looked at in another domain. -/
def Kind.view (κ : Kind) (E : Phase F) (f : Grid L N M) (space time : Bool) : Grid L N M :=
  let g := if time && κ.hasTau then matsubara E κ.sigma f else f
  if space then fftn E g else g

/-- A weight that represents the function `f` of lattice vector and time. -/
def Plain.Shows (κ : Kind) (E : Phase F) (w : Plain L N M) (f : Grid L N M) : Prop := w.data = κ.view E f w.space w.time

/-- A domain after a call of `FFT` with the given letters; the letters of the transformed domain win. -/
def after (b : Bool) (back forth : Bool) : Bool := if forth then true else if back then false else b

end

end Feyn
