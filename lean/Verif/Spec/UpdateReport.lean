import Verif.Model.UpdateReport
import Verif.Spec.Balance

/-!
# What the report on the updates should say
-/

namespace Feyn

/-- The two numbers of the summation; zero if there is none. -/
def summation (l : List ReportLine) : ℕ × ℕ :=
  match l.find? fun x => x.order.isNone with
  | some x => (x.first, x.second)
  | none => (0, 0)

/-- By how much the first number of the summation exceeds the second. -/
def excessOf (l : List ReportLine) : ℤ := ((summation l).1 : ℤ) - (summation l).2

/-- The number of interaction lines of a diagram that are instantaneous. -/
def deltaLines {Q F : Type} [Field Q] [LinearOrder Q] [Field F] (d : Diag Q F) : ℕ := (d.W.live.filter fun w => d.fl.wDelta w = true).card

end Feyn
