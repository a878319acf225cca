import Verif.Model.Double
import Verif.Model.Env

/-!
# Counters and timers of the main loop (C97)

Citations are relative to `/repo/src`. The loop itself is `mainLoop` of `Model/Env`.
-/

namespace Feyn

/-- A pass of the main loop asks the timers: `Step % 100 == 0` with the unsigned counter of 32 bits, `main.cpp` 80, 83 and 96. The number of the pass begins with 1. -/
def asksTimers (pass : ℕ) : Bool := pass % 4294967296 % 100 == 0

/-! ## Timers -/

/-- One call of `timer::check(Interval)`, `utility/timer.cpp` 95-104 with `restart` 48-60: `time(0)` is called a second time by `restart`. Times are in seconds. The result and the new
`start_time`. -/
def timerCheck (interval start : ℤ) (now : ℤ × ℤ) : Bool × ℤ := if now.1 - start < interval then (false, start) else (true, now.2)

/-- The results of several calls one after the other, of which each reads the given times. -/
def timerRun (interval : ℤ) : ℤ → List (ℤ × ℤ) → List Bool
  | _, [] => []
  | start, now :: l => (timerCheck interval start now).1 :: timerRun interval (timerCheck interval start now).2 l

/-! ## Integers -/

/-- The cells of the local arrays `sigma` (`true`) and `polar`, `main.cpp` 69-70. -/
abbrev LocalCounts := Bool → ℕ → ℤ

/-- `main.cpp` 89-94 after one measurement: `none` if there is a worm, otherwise whether the line measured is a propagator, and the order. Both the cell after the last one and a number
that does not fit into an `int` are undefined behaviour. -/
def LocalCounts.add (c : LocalCounts) : Option (Bool × ℕ) → Res LocalCounts
  | none => .ok c
  | some (g, order) =>
    if order ≥ MAX_ORDER then .ub
    else if c g order + 1 > 2147483647 then .ub
    else .ok fun g' o => if g' = g ∧ o = order then c g order + 1 else c g' o

/-- The same for many measurements. -/
def LocalCounts.run (c : LocalCounts) : List (Option (Bool × ℕ)) → Res LocalCounts
  | [] => .ok c
  | x :: l => do
    let c ← c.add x
    c.run l

/-! ## Counters that are no integers -/

/-- `x += 1.0` done `n` times with a number of the type `double`: `_norm` in `Estimator::Measure`, `estimator/estimator.cpp` 171-176, `Proposed` and `Accepted`,
e.g. `module/markov/markov.cpp` 390 and 392. -/
def countD (x : ℚ) : ℕ → ℚ
  | 0 => x
  | n + 1 => rnd (countD x n + 1)

end Feyn
