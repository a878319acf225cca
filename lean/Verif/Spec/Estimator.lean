import Verif.Model.Estimator
import Mathlib.Algebra.BigOperators.Group.List.Basic

/-!
# What estimators are about
-/

namespace Feyn
variable {Q T : Type} [Field Q] [LinearOrder Q] [AddCommGroup T] [Module Q T]

/-- Operations on an estimator that its users call. -/
inductive EstOp (Q T : Type) where
  | measure (t : T)
  | squeeze (factor : Q)
  | clear
  | addStatistics

/-- Executing one operation. -/
def EstOp.run (e : Est Q T) : EstOp Q T → Res (Est Q T)
  | .measure t => .ok (e.measure t)
  | .squeeze f => e.squeeze f
  | .clear => .ok e.clear
  | .addStatistics => e.addStatistics

/-- Executing a sequence of operations. -/
def EstOp.runs (e : Est Q T) : List (EstOp Q T) → Res (Est Q T)
  | [] => .ok e
  | op :: ops => (EstOp.run e op).bind fun e => EstOp.runs e ops

/-- Weighted samples, the ideal content of an estimator: a weight and a value each. A new estimator holds the value zero with
weight one. -/
abbrev Samples (Q T : Type) := List (Q × T)

/-- The weighted samples after one operation: a measurement adds a sample of weight one, squeezing divides all weights, clearing
forgets all samples. -/
def EstOp.ideal (s : Samples Q T) : EstOp Q T → Samples Q T
  | .measure t => (1, t) :: s
  | .squeeze f => s.map fun x => (x.1 / f, x.2)
  | .clear => [(1, 0)]
  | .addStatistics => s

/-- The total weight. -/
def Samples.weight (s : Samples Q T) : Q := (s.map fun x => x.1).sum

/-- The weighted sum. -/
def Samples.total (s : Samples Q T) : T := (s.map fun x => x.1 • x.2).sum

/-- A squeeze factor that is accepted. -/
def EstOp.Valid : EstOp Q T → Prop
  | .squeeze f => 0 < f
  | _ => True

/-- `n` calls of `AddStatistics`. -/
def Est.addMany (e : Est Q T) : ℕ → Res (Est Q T)
  | 0 => .ok e
  | n + 1 => (Est.addMany e n).bind Est.addStatistics

/-- Entry `i` belongs to the last two thirds of a history of `n` entries. -/
def Retained (n i : ℕ) : Prop := n / 3 ≤ i ∧ i < n

variable {F : Type} [AddCommGroup F] [Module Q F]

/-- The measured function, as the comment at `weight_estimator.h` 42 says: `_WeightAccu / _NormAccu * _Norm`. -/
def Histo.value (h : Histo Q F) (i : ℤ) : F := (h.norm / h.normAccu) • h.data i

/-- A histogram as `Allocate` creates it for `orders` orders of `size` cells each. -/
structure Histo.Wf (h : Histo Q F) (orders size : ℤ) : Prop where
  orders_pos : 0 < orders
  size_pos : 0 < size
  fits : orders * size < 4294967296
  cells : h.cells = orders * size
  perOrder : h.perOrder = size

end Feyn

namespace Feyn
variable {Q T : Type} [Field Q] [LinearOrder Q] [AddCommGroup T] [Module Q T]

/-- Executing a sequence of operations while counting how often the history was found full since the last clearing. -/
def EstOp.runsCount (e : Est Q T) (k : ℕ) : List (EstOp Q T) → Res (Est Q T × ℕ)
  | [] => .ok (e, k)
  | .clear :: ops => (EstOp.run e .clear).bind fun e' => EstOp.runsCount e' 0 ops
  | .addStatistics :: ops =>
    (EstOp.run e .addStatistics).bind fun e' => EstOp.runsCount e' (if e.used = HISTORY then k + 1 else k) ops
  | op :: ops => (EstOp.run e op).bind fun e' => EstOp.runsCount e' k ops

/-- Two estimators that no call other than `Estimate` before the next history entry can tell apart. -/
structure Est.Same (a b : Est Q T) : Prop where
  interval : a.interval = b.interval
  counter : a.counter = b.counter
  used : a.used = b.used
  accu : a.accu = b.accu
  norm : a.norm = b.norm
  ratio : a.ratio = b.ratio
  hist : ∀ i, i < a.used → a.hist i = b.hist i

variable {F : Type} [AddCommGroup F] [Module Q F]

/-- A sequence of measurements `(order, index, weight)`. -/
def Histo.measures (h : Histo Q F) : List (ℤ × ℤ × F) → Res (Histo Q F)
  | [] => .ok h
  | (n, i, w) :: l => (h.measure i n w).bind fun h => Histo.measures h l

/-- All that was measured at order `n` and index `i`. -/
def measuredAt (n i : ℤ) (l : List (ℤ × ℤ × F)) : F :=
  (l.map fun x => if x.1 = n ∧ x.2.1 = i then x.2.2 else 0).sum

end Feyn
