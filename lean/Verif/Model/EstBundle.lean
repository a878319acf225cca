import Verif.Model.Estimator
import Verif.Model.Rng

/-!
# Bundles of estimators (`estimator/estimator.cpp`, `module/markov/markov_monitor.cpp`) (C103)

Names are texts of bytes. A dictionary is the function that has the entry of each key. The estimators are those of C31 and C51, for real numbers. `RemoveEstimator` is declared in `estimator.h` 82
and not defined.
-/

namespace Feyn
variable {Q : Type} [Field Q] [LinearOrder Q] [FloorSemiring Q]

/-- `EstimatorBundle<real>`, `estimator/estimator.h` 71-92: the vector, with the name of each estimator, and the map from names to places. -/
structure EstBundle (Q : Type) where
  vec : List (List Byte × Est Q Q)
  map : List Byte → Option ℕ

/-- A new bundle. -/
def EstBundle.empty : EstBundle Q := ⟨[], fun _ => none⟩

/-- What `Estimator::ToDict` writes and `FromDict` reads: the history, the sum and the norm. -/
abbrev SavedEst (Q : Type) := List Q × Q × Q

/-- `"Order" + ToString(i)`, `markov_monitor.cpp` 33. -/
def orderName (i : ℕ) : List Byte := [79, 114, 100, 101, 114] ++ decimal i

namespace EstBundle

/-- `AddEstimator(string)` with `_MakeSureKeyNotExists`, `estimator.cpp` 256-262 and 275-283; `junk` is the uninitialised history. -/
def add (b : EstBundle Q) (name : List Byte) (junk : ℕ → Q) : Res (EstBundle Q) :=
  if (b.map name).isSome then .abort
  else
    let vec := b.vec ++ [(name, Est.new junk)]
    .ok ⟨vec, Function.update b.map name (some (vec.length - 1))⟩

/-- `operator[](string)`, `estimator.cpp` 326-330: the map gets an entry 0 for a name that it does not have. The estimator, and the bundle after it. -/
def byName (b : EstBundle Q) (name : List Byte) : Res (Est Q Q × EstBundle Q) :=
  let map := if (b.map name).isSome then b.map else Function.update b.map name (some 0)
  match b.vec[(map name).getD 0]? with
  | none => .ub
  | some e => .ok (e.2, { b with map := map })

/-- An operation on the estimator with an index, `operator[](int)`, `estimator.cpp` 320-324. -/
def modify (b : EstBundle Q) (i : ℕ) (f : Est Q Q → Est Q Q) : Res (EstBundle Q) :=
  match b.vec[i]? with
  | none => .ub
  | some e => .ok { b with vec := b.vec.set i (e.1, f e.2) }

/-- `ClearStatistics`, `estimator.cpp` 337-342. -/
def clear (b : EstBundle Q) : EstBundle Q := { b with vec := b.vec.map fun e => (e.1, e.2.clear) }

/-- `ToDict`, `estimator.cpp` 310-318: the assignments in order. -/
def toDict (b : EstBundle Q) : List Byte → Option (SavedEst Q) := b.vec.foldl (fun d e => Function.update d e.1 (some e.2.save)) fun _ => none

/-- `Estimator::FromDict`, `estimator.cpp` 223-236. -/
def loadOne (e : Est Q Q) (s : SavedEst Q) : Res (Est Q Q) := (e.load s.1 s.2.1 s.2.2).bind fun e => .ok e.updateReal

/-- The body of the loop of `FromDict`, `estimator.cpp` 303-305. A missing entry is an exception (`Dictionary::Get`). -/
def loadEntry (dict : List Byte → Option (SavedEst Q)) (allow : Bool) (e : List Byte × Est Q Q) : Res (Est Q Q) :=
  match dict e.1 with
  | none => if allow then .ok e.2 else .abort
  | some s => loadOne e.2 s

/-- The loop of `FromDict`, `estimator.cpp` 302-306. -/
def loadAll (dict : List Byte → Option (SavedEst Q)) (allow : Bool) : List (List Byte × Est Q Q) → Res (List (List Byte × Est Q Q))
  | [] => .ok []
  | e :: l => (loadEntry dict allow e).bind fun x => (loadAll dict allow l).bind fun r => .ok ((e.1, x) :: r)

/-- `FromDict`, `estimator.cpp` 298-308. -/
def fromDict (b : EstBundle Q) (dict : List Byte → Option (SavedEst Q)) (allow : Bool) : Res (EstBundle Q) := (loadAll dict allow b.vec).bind fun v => .ok { b with vec := v }

/-- The loop over the names of the orders, `markov_monitor.cpp` 32-35 and 59-62: `AddEstimator` for the orders `i`, …, `i + n - 1`. -/
def addOrders (junk : ℕ → ℕ → Q) : EstBundle Q → ℕ → ℕ → Res (EstBundle Q)
  | b, _, 0 => .ok b
  | b, i, n + 1 => (b.add (orderName i) (junk i)).bind fun b => addOrders junk b (i + 1) n

/-- One of the two bundles in `MarkovMonitor::BuildNew`, `markov_monitor.cpp` 32-37; `order` is `Para->Order`. -/
def buildNew (b : EstBundle Q) (junk : ℕ → ℕ → Q) (order : ℕ) : Res (EstBundle Q) := (b.addOrders junk 0 (order + 1)).bind fun b => .ok b.clear

/-- One of the two bundles in `MarkovMonitor::FromDict`, `markov_monitor.cpp` 59-69. -/
def monitorLoad (b : EstBundle Q) (junk : ℕ → ℕ → Q) (order : ℕ) (dict : List Byte → Option (SavedEst Q)) : Res (EstBundle Q) :=
  (b.addOrders junk 0 (order + 1)).bind fun b => b.fromDict dict true

end EstBundle
end Feyn
