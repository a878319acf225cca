import Verif.Model.Monitor
import Mathlib.Algebra.BigOperators.Group.Finset.Basic
import Mathlib.Algebra.BigOperators.Intervals

/-!
# Collecting the statistics of all processes (`dyson/collect.py`)

Python statements that raise an exception stop the function, but what they did to objects before remains; `Try α` has the object in
both cases. Arrays have the order as first axis; the other axes are one index `ι`, and all files have the same lengths there.
-/

namespace Feyn
variable {Q F ι : Type} [Field Q] [LinearOrder Q] [AddCommGroup F] [Module Q F]

/-- What a call leaves behind, and whether it ended without exception. -/
abbrev Try (α : Type) := α × Bool

/-- The dictionary that `WeightEstimator::ToDict` (`weight_estimator.cpp` 86-93) writes, and the state of the Python class
`WeightEstimator` once it has data (`collect.py` 26-41). `orders` is the length of the first axis; order `n` is at position `n - 1`. -/
structure Stat (Q F ι : Type) where
  norm : Q
  normAccu : Q
  orders : ℕ
  accu : ℕ → ι → F

namespace Stat

/-- `self.WeightAccu += array` of numpy. An axis of length one is repeated; other differences raise an exception before anything is
changed. The result has to fit into the left array. -/
def addTo (s : Stat Q F ι) (orders : ℕ) (x : ℕ → ι → F) : Option (Stat Q F ι) :=
  if orders = s.orders then some { s with accu := fun n i => s.accu n i + x n i }
  else if orders = 1 then some { s with accu := fun n i => s.accu n i + x 0 i }
  else none

/-- `WeightEstimator.MergeFromDict`, `collect.py` 31-41. The norms are compared after the data were added. `none`: no data yet. -/
def merge (s : Option (Stat Q F ι)) (d : Stat Q F ι) : Try (Option (Stat Q F ι)) :=
  match s with
  | none => (some d, true)
  | some s =>
    match s.addTo d.orders d.accu with
    | none => (some s, false)
    | some s => (some { s with normAccu := s.normAccu + d.normAccu }, decide (s.norm = d.norm))

/-- The order of acceptance, `collect.py` 56-88: `err n` is what `Smooth` reports for order `n`, `none` if the data of that order are
close to zero everywhere; then the variable `RelativeError` still has its last value, `last`, and without one the comparison raises an
exception. `left` orders remain, the next is `n`. -/
def accepted (err : ℕ → Option Q) (threshold : Q) (before : ℕ) (last : Option Q) : (left n : ℕ) → Option ℕ
  | 0, n => some (n - 1)
  | left + 1, n =>
    match (err n).or last with
    | none => none
    | some e => if e < threshold ∨ n ≤ before then accepted err threshold before (some e) left (n + 1) else some (n - 1)

/-- Outcome of `UpdateWeight`: a function and the accepted order; `CollectStatisFailure`, which the self consistency loop handles; or
another exception, which ends it (`main.py` 286-289). -/
inductive Update (α : Type) where
  | done (a : α)
  | failure
  | crash

/-- `WeightEstimator.UpdateWeight`, `collect.py` 43-99. `smooth` gives the error of the normalised data of one order (`none`: close to
zero); plots are left out. Without any order the loop variable is undefined. -/
def update (s : Stat Q F ι) (smooth : (ι → F) → Option Q) (threshold : Q) (before : ℕ) : Update ((ι → F) × ℕ) :=
  if |s.normAccu| < 1 / 1000 then .failure
  else
    let w : ℕ → ι → F := fun n i => (1 / s.normAccu * s.norm) • s.accu n i
    if s.orders = 0 then .crash
    else
      match accepted (fun n => smooth (w (n - 1))) threshold before none s.orders 1 with
      | none => .crash
      | some k => .done (fun i => ∑ n ∈ Finset.range k, w n i, k)

end Stat

/-- A statistics file, as far as it is used without three-point functions. A missing entry raises an exception. -/
structure StatFile (Q F ι κ : Type) where
  sigma : Option (Stat Q F ι)
  polar : Option (Stat Q F κ)

/-- The two estimators of `CollectStatis`. -/
structure Collected (Q F ι κ : Type) where
  sigma : Option (Stat Q F ι)
  polar : Option (Stat Q F κ)

/-- `WeightEstimator::ToDict`, `weight_estimator.cpp` 86-93: the whole array, whose first axis is the order. -/
def Histo.toStat (h : Histo Q F) : Stat Q F ℤ :=
  ⟨h.norm, h.normAccu, (h.cells / h.perOrder).toNat, fun n j => h.data (n * h.perOrder + j)⟩

/-- The part of `MarkovMonitor::ToDict` (`markov_monitor.cpp` 80-92) that `CollectStatis` uses. -/
def Monitor.toStatFile {F : Type} [Field F] [Algebra Q F] (m : Monitor Q F) : StatFile Q F ℤ ℤ :=
  ⟨some m.sigma.est.toStat, some m.polar.est.toStat⟩

variable {κ : Type}

/-- The body of the `try` block, `collect.py` 178-181. `none` is a file that cannot be read. -/
def Collected.add (c : Collected Q F ι κ) (f : Option (StatFile Q F ι κ)) : Try (Collected Q F ι κ) :=
  match f with
  | none => (c, false)
  | some f =>
    match f.sigma with
    | none => (c, false)
    | some d =>
      let r := Stat.merge c.sigma d
      let c := { c with sigma := r.1 }
      if r.2 then
        match f.polar with
        | none => (c, false)
        | some d =>
          let r := Stat.merge c.polar d
          ({ c with polar := r.1 }, r.2)
      else (c, false)

/-- The loop over the files with the counter `Success`, `collect.py` 176-209. -/
def Collected.addAll (c : Collected Q F ι κ) : List (Option (StatFile Q F ι κ)) → Collected Q F ι κ × ℕ
  | [] => (c, 0)
  | f :: l =>
    let r := c.add f
    let r' := Collected.addAll r.1 l
    (r'.1, r'.2 + if r.2 then 1 else 0)

/-- `CollectStatis`, `collect.py` 152-221, without three-point functions. `none` is a `CollectStatisFailure`. -/
def collectStatis (files : List (Option (StatFile Q F ι κ))) : Option (Collected Q F ι κ) :=
  if files.length = 0 then none
  else
    let r := Collected.addAll ⟨none, none⟩ files
    if (r.2 : Q) / (files.length : Q) < 3 / 4 then none else some r.1

/-- `UpdateWeight`, `collect.py` 223-232. -/
def updateWeights (c : Collected Q F ι κ) (smoothS : (ι → F) → Option Q) (smoothP : (κ → F) → Option Q) (threshold : Q)
    (before : ℕ × ℕ) : Stat.Update ((ι → F) × (κ → F) × ℕ × ℕ) :=
  match c.sigma with
  | none => .crash
  | some s =>
    match s.update smoothS threshold before.1 with
    | .failure => .failure
    | .crash => .crash
    | .done (sigma, a) =>
      match c.polar with
      | none => .crash
      | some p =>
        match p.update smoothP threshold before.2 with
        | .failure => .failure
        | .crash => .crash
        | .done (polar, b) => if a = 0 ∨ b = 0 then .failure else .done (sigma, polar, a, b)

end Feyn
