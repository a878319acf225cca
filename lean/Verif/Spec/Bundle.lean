import Mathlib.Data.Finset.Card
import Verif.Model.Bundle

/-!
# Specification of the container: a finite set of cells

The operations of the class, as a client sees them: `add` returns a cell that was not in the set,
`remove` takes a cell out, queries agree with the set.
-/

namespace Feyn

/-- Consistency of the two tables: `slot` and `name` are inverse to each other on the cells. -/
structure Bundle.Wf (b : Bundle) : Prop where
  avail_le : b.avail ≤ MAX_BUNDLE
  slot_lt : ∀ i, i < MAX_BUNDLE → b.slot i < MAX_BUNDLE
  name_lt : ∀ p, p < MAX_BUNDLE → b.name p < MAX_BUNDLE
  name_slot : ∀ i, i < MAX_BUNDLE → b.name (b.slot i) = i
  slot_name : ∀ p, p < MAX_BUNDLE → b.slot (b.name p) = p

/-- A client call on the container. -/
inductive BundleOp where
  | add
  | remove (p : ℕ)
  | removeName (i : ℕ)
  deriving DecidableEq, Repr

/-- Execution of one call. -/
def BundleOp.run (b : Bundle) : BundleOp → Res Bundle
  | .add => do let (_, b') ← b.add; .ok b'
  | .remove p => b.remove p
  | .removeName i => b.removeName i

/-- Execution of a sequence of calls. -/
def runBundle (b : Bundle) : List BundleOp → Res Bundle
  | [] => .ok b
  | op :: ops => do let b' ← op.run b; runBundle b' ops

/-- Histories of a container: `BundleHist b S` says that `b` is the result of a sequence of calls on a new container,
where `S` is the set of the components that were added and not removed. Calls are within their preconditions: no
call of `Add` on a full container, only components in the container are removed. -/
inductive BundleHist : Bundle → Finset ℕ → Prop where
  | init : BundleHist Bundle.init ∅
  | add {b b' : Bundle} {S : Finset ℕ} {p : ℕ} : BundleHist b S → S.card < MAX_BUNDLE → b.add = .ok (p, b') →
      BundleHist b' (insert p S)
  | remove {b b' : Bundle} {S : Finset ℕ} {p : ℕ} : BundleHist b S → p ∈ S → b.remove p = .ok b' →
      BundleHist b' (S.erase p)
  | removeName {b b' : Bundle} {S : Finset ℕ} {i p : ℕ} : BundleHist b S → b.get i = .ok p → b.removeName i = .ok b' →
      BundleHist b' (S.erase p)

end Feyn
