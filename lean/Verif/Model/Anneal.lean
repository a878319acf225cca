import Mathlib.Algebra.Order.Field.Basic
import Mathlib.Algebra.Order.Group.Unbundled.Abs
import Mathlib.Data.Rat.Defs

/-!
# The annealing field (dyson/model.py 69-85, dyson/main.py)

Numbers are exact. The arrays have the same length `n + 1`.
-/

namespace Feyn

/-- `self.__DeltaField` of the factory (dyson/model.py 16), and `Anneal["DeltaField"]`, `Anneal["Interval"]` of the parameters. -/
structure Annealing (Q : Type) (n : ℕ) where
  delta : Fin (n + 1) → Q
  saved : Fin (n + 1) → Q
  interval : Fin (n + 1) → Q

namespace Annealing
variable {Q : Type} [Field Q] [LinearOrder Q] {n : ℕ}

/-- The factory made from the parameters, dyson/model.py 16: the array is a copy. -/
def start (delta interval : Fin (n + 1) → Q) : Annealing Q n := ⟨delta, delta, interval⟩

/-- `DecreaseField`, dyson/model.py 69-78, with the flag it returns. -/
def decreaseField (s : Annealing Q n) : Annealing Q n × Bool :=
  if |s.delta 0| > 1 / 100000 then
    ({ s with delta := fun i => s.delta i + s.interval i, saved := fun i => s.saved i + s.interval i }, true)
  else (s, false)

/-- `RevertField`, dyson/model.py 80-85. -/
def revertField (s : Annealing Q n) : Annealing Q n :=
  { interval := fun i => s.interval i / 2
    delta := fun i => s.delta i - s.interval i / 2
    saved := fun i => s.saved i - s.interval i / 2 }

/-- How a version of the loop ends (dyson/main.py 293-326). -/
inductive Ending
  /-- No exception: `DecreaseField` (326). -/
  | done
  /-- `DenorminatorTouchZero`: `RevertField` (297). -/
  | touch
  /-- `CollectStatisFailure` (303-309). -/
  | collect
  deriving DecidableEq

/-- The effect of one version on the field. -/
def step (s : Annealing Q n) : Ending → Annealing Q n
  | .done => s.decreaseField.1
  | .touch => s.revertField
  | .collect => s

/-- The effect of several versions. -/
def run (s : Annealing Q n) (es : List Ending) : Annealing Q n := es.foldl step s

end Annealing
end Feyn
