import Verif.Model.Collect
import Verif.Spec.Monitor

/-!
# What collecting statistics is about
-/

namespace Feyn
variable {Q F ι κ : Type} [Field Q] [LinearOrder Q]

/-- Saved data that may be added: measured in the same units at the same orders. -/
structure Stat.Like (norm : Q) (orders : ℕ) (s : Stat Q F ι) : Prop where
  norm : s.norm = norm
  orders : s.orders = orders

variable [AddCommGroup F] [Module Q F]

/-- The measured function at order `n`: the ratio of data and normalisation, in units of `Norm`. -/
def Stat.value (s : Stat Q F ι) (n : ℕ) (i : ι) : F := (s.norm / s.normAccu) • s.accu (n - 1) i

/-- The error that order `n` is judged by: its own, or that of the last order with data. -/
def judged (err : ℕ → Option Q) : ℕ → Option Q
  | 0 => none
  | n + 1 => (err (n + 1)).or (judged err n)

/-- Order `n` is good enough, or was accepted before. -/
def Passes (err : ℕ → Option Q) (threshold : Q) (before n : ℕ) : Prop :=
  ∃ e, judged err n = some e ∧ (e < threshold ∨ n ≤ before)

/-- A monitor that has not measured anything yet, with the same tables and units as `m₀`. -/
structure Monitor.Blank {F : Type} [Field F] [Algebra Q F] [FloorRing Q] (m₀ m : Monitor Q F) : Prop where
  sigmaMap : m.sigma.map = m₀.sigma.map
  polarMap : m.polar.map = m₀.polar.map
  sigmaUnit : m.sigma.est.norm = m₀.sigma.est.norm
  polarUnit : m.polar.est.norm = m₀.polar.est.norm
  sigmaNorm : m.sigma.est.normAccu = 0
  polarNorm : m.polar.est.normAccu = 0
  sigmaCells : ∀ i, 0 ≤ i → i < m.sigma.est.cells → m.sigma.est.data i = 0
  polarCells : ∀ i, 0 ≤ i → i < m.polar.est.cells → m.polar.est.data i = 0

end Feyn
