import Verif.Model.Basic
import Mathlib.Algebra.Module.Prod
import Mathlib.Algebra.Order.Floor.Semiring

/-!
# Estimators of observables

`estimator/estimator.h`, `estimator/estimator.cpp`. Floating point numbers are replaced by an exact ordered field `Q`. The
sample type `T` is `Q` (`Estimator<real>`) or `Q × Q` (`Estimator<Complex>`); dividing a sample by a real number is scalar
multiplication by its inverse. `uint` counters wrap around at `2^32`.
-/

namespace Feyn
variable {Q T : Type} [Field Q] [LinearOrder Q] [AddCommGroup T] [Module Q T]

/-- `SIZE`, `estimator.h` 17. -/
macro "HISTORY" : term => `((10000 : ℕ))

/-- `Estimator<T>`, `estimator.h` 38-65, without the name. `mean` and `error` are the fields of `_value`; `used` is `_end`. The
history buffer has `HISTORY` cells. -/
structure Est (Q T : Type) where
  interval : ℕ
  counter : ℕ
  used : ℕ
  accu : T
  norm : Q
  ratio : Q
  mean : T
  error : T
  hist : ℕ → T

namespace Est

/-- `ClearStatistics`, `estimator.cpp` 87-97. `_value` and the buffer keep their contents. -/
def clear (e : Est Q T) : Est Q T :=
  { e with interval := 1, counter := 0, used := 0, accu := 0, ratio := 1, norm := 1 }

/-- The constructors, `estimator.cpp` 73-85 with `EstimateClass()` 18-23. The buffer of an `Estimator<real>` is not initialised:
`junk` stands for its contents. -/
def new (junk : ℕ → T) : Est Q T :=
  clear { interval := 0, counter := 0, used := 0, accu := 0, norm := 0, ratio := 0, mean := 0, error := 0, hist := junk }

/-- `SqueezeStatistics`, `estimator.cpp` 99-105. -/
def squeeze (e : Est Q T) (factor : Q) : Res (Est Q T) :=
  if factor > 0 then .ok { e with accu := factor⁻¹ • e.accu, norm := e.norm / factor } else .abort

/-- `Measure`, `estimator.cpp` 170-175. -/
def measure (e : Est Q T) (t : T) : Est Q T := { e with accu := e.accu + t, norm := e.norm + 1 }

/-- The loop of lines 181-182: `_history[i] = _history[2 * i]` in place, for `i` from 0 to `n - 1`. -/
def thin (h : ℕ → T) (n : ℕ) : ℕ → T := (List.range n).foldl (fun h i => upd h i (h (2 * i))) h

/-- `AddStatistics`, `estimator.cpp` 177-196. -/
def addStatistics (e : Est Q T) : Res (Est Q T) :=
  if e.used = HISTORY then
    .ok { e with hist := thin e.hist (e.used / 2), used := e.used / 2, interval := e.interval * 2 % 4294967296 }
  else if e.used < HISTORY then
    let counter := (e.counter + 1) % 4294967296
    if counter ≥ e.interval then
      .ok { e with hist := upd e.hist e.used (e.norm⁻¹ • e.accu), used := e.used + 1, counter := 0 }
    else .ok { e with counter := counter }
  else .abort

/-- `MaxReal`, `utility/utility.h` 23; `MinReal` is its negative. -/
def maxReal : Q := (10 ^ 30 : ℕ)

/-- `Min`, `MinIndex`, `Max`, `MaxIndex` of `_update`. -/
structure Scan (Q : Type) where
  min : Q
  minIndex : ℤ
  max : Q
  maxIndex : ℤ

/-- One pass of the loop body, `estimator.cpp` 120-127 (and 145-160 for each part of a complex number). -/
def Scan.step (h : ℕ → Q) (s : Scan Q) (i : ℕ) : Scan Q :=
  let s := if s.min > h i then { s with min := h i, minIndex := i } else s
  if s.max < h i then { s with max := h i, maxIndex := i } else s

/-- The loop `for (i = size * ThrowRatio; i < size; i++)`, `estimator.cpp` 117-128. -/
def scan [FloorSemiring Q] (h : ℕ → Q) (size : ℕ) : Scan Q :=
  let first := ⌊(size : Q) * (1 / 3)⌋₊
  (List.range' first (size - first)).foldl (Scan.step h) ⟨maxReal, 0, -maxReal, 0⟩

/-- `Estimator<real>::_update`, `estimator.cpp` 110-131. -/
def updateReal [FloorSemiring Q] (e : Est Q Q) : Est Q Q :=
  let e := { e with mean := e.norm⁻¹ • e.accu }
  if e.used = 0 then e
  else
    let s := scan e.hist e.used
    { e with
      error := |s.max - s.min| / 2,
      ratio := ((s.maxIndex - s.minIndex : ℤ) : Q) / (e.used : Q) * (1 - 1 / 3) }

/-- `Estimator<Complex>::_update`, `estimator.cpp` 133-168: the two parts are scanned side by side. -/
def updateComplex [FloorSemiring Q] (e : Est Q (Q × Q)) : Est Q (Q × Q) :=
  let e := { e with mean := e.norm⁻¹ • e.accu }
  if e.used = 0 then e
  else
    let re := scan (fun i => (e.hist i).1) e.used
    let im := scan (fun i => (e.hist i).2) e.used
    { e with
      error := (|re.max - re.min| / 2, |im.max - im.min| / 2),
      ratio :=
        if re.maxIndex - re.minIndex < im.maxIndex - im.minIndex then
          ((im.maxIndex - im.minIndex : ℤ) : Q) / (e.used : Q) * (1 - 1 / 3)
        else ((re.maxIndex - re.minIndex : ℤ) : Q) / (e.used : Q) * (1 - 1 / 3) }

/-- `FromDict`, `estimator.cpp` 223-236, before its `_update`: the stored history is copied into the buffer unchecked, so a longer
one writes out of bounds. -/
def load (e : Est Q T) (hist : List T) (accu : T) (norm : Q) : Res (Est Q T) :=
  let e := e.clear
  if hist.length > HISTORY then .ub
  else .ok { e with
    hist := fun i => (hist[i]?).getD (e.hist i), used := hist.length, accu := accu, norm := norm }

/-- `ToDict`, `estimator.cpp` 238-251: the used part of the history, the sum and the norm. -/
def save (e : Est Q T) : List T × T × Q := ((List.range e.used).map e.hist, e.accu, e.norm)

end Est

/-! ## Histograms of measured functions -/

/-- `WeightEstimator`, `weight_estimator.h` 19-46. `cells` is the size of `_WeightAccu` and `perOrder` is `_WeightSize`. -/
structure Histo (Q F : Type) where
  beta : Q
  norm : Q
  normAccu : Q
  cells : ℤ
  data : ℤ → F
  perOrder : ℤ

namespace Histo
variable {F : Type} [AddCommGroup F] [Module Q F]

/-- Conversion to `uint`. -/
def wrap (x : ℤ) : ℤ := x % 4294967296

/-- `ClearStatistics`, `weight_estimator.cpp` 58-62. -/
def clear (h : Histo Q F) : Histo Q F :=
  { h with normAccu := 0, data := fun i => if 0 ≤ i ∧ i < h.cells then 0 else h.data i }

/-- `Allocate`, `weight_estimator.cpp` 23-34, with `WeightArray::Allocate` (`weight_array.cpp` 43-60). `size` is the number of cells
of the table (the product of `map.GetShape()`). `junk` is the content of fresh memory. -/
def allocate (beta : Q) (bins vol : ℕ) (size : ℤ) (order : ℤ) (norm : Q) (junk : ℤ → F) : Res (Histo Q F) :=
  let cells := wrap (wrap order * size)
  if wrap order = 0 then .ub
  else .ok (clear
    { beta := beta, norm := norm * ((bins : Q) / beta) / beta / (vol : Q), normAccu := 0,
      cells := cells, data := junk, perOrder := cells / wrap order })

/-- `Anneal`, `weight_estimator.cpp` 36-43. -/
def anneal (h : Histo Q F) (beta : Q) : Histo Q F := { h with normAccu := h.normAccu * (beta / h.beta) ^ 2 }

/-- `MeasureNorm`, `weight_estimator.cpp` 45-48. -/
def measureNorm (h : Histo Q F) (w : Q) : Histo Q F := { h with normAccu := h.normAccu + w }

/-- `Measure`, `weight_estimator.cpp` 50-56. An order below 1 is only logged; the index is a `uint`; the access is not checked. -/
def measure (h : Histo Q F) (index : ℤ) (order : ℤ) (w : F) : Res (Histo Q F) :=
  let i := wrap ((order - 1) * h.perOrder + index)
  if 0 ≤ i ∧ i < h.cells then .ok { h with data := fun j => if j = i then h.data j + w else h.data j } else .ub

/-- `SqueezeStatistics`, `weight_estimator.cpp` 65-70. -/
def squeeze (h : Histo Q F) (factor : Q) : Res (Histo Q F) :=
  if factor > 0 then
    .ok { h with
      normAccu := h.normAccu / factor,
      data := fun i => if 0 ≤ i ∧ i < h.cells then (1 / factor) • h.data i else h.data i }
  else .abort

/-- `FromDict`, `weight_estimator.cpp` 74-84. The stored array has the same shape except for the number `orders` of orders; all its
`orders * perOrder` cells are copied. More orders than allocated write out of bounds. -/
def load (h : Histo Q F) (norm normAccu : Q) (orders : ℤ) (stored : ℤ → F) : Res (Histo Q F) :=
  if orders * h.perOrder > h.cells then .ub
  else .ok { h with
    norm := norm, normAccu := normAccu,
    data := fun i => if 0 ≤ i ∧ i < orders * h.perOrder then stored i
      else if 0 ≤ i ∧ i < h.cells then 0 else h.data i }

end Histo

end Feyn
