import Verif.Model.LongRun

/-!
# Counters and timers of the main loop (C97): specification
-/

namespace Feyn

/-- The clock does not go back: later readings are not smaller. -/
def Monotone2 (start : ℤ) (l : List (ℤ × ℤ)) : Prop := (start :: l.flatMap fun p => [p.1, p.2]).Pairwise (· ≤ ·)

/-- How many measurements were of this kind and order. -/
def times (l : List (Option (Bool × ℕ))) (g : Bool) (order : ℕ) : ℕ := l.count (some (g, order))

end Feyn
