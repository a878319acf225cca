import Verif.Spec.Run

/-!
# What the acceptance statistics should say
-/

namespace Feyn

section
variable {Q F : Type} [Field Q] [LinearOrder Q] [Field F]

/-- What an observer notes about one call of an update: which one, at which order of the diagram, and how it ended. -/
structure Event where
  op : Op
  order : ℕ
  tag : Tag
  deriving DecidableEq

/-- The calls made by a run of `Hop`. -/
inductive Trace : Chain Q F → List Words → List Event → Chain Q F → Prop where
  | done (c : Chain Q F) : Trace c [] [] c
  | idle {c c' c'' : Chain Q F} {o : Words} {os : List Words} {es : List Event} : selectOp c.P (urn Q (o 0)) = none →
      hopOne c o = .ok c' → Trace c' os es c'' → Trace c (o :: os) es c''
  | call {c c' c'' : Chain Q F} {o : Words} {os : List Words} {es : List Event} {op : Op} {out : Out Q F} :
      selectOp c.P (urn Q (o 0)) = some op → runOp c.P op (fun i => o (i + 1)) c.d = .ok out →
      hopOne c o = .ok c' → Trace c' os es c'' → Trace c (o :: os) (⟨op, c.d.order, out.tag⟩ :: es) c''

/-- Number of calls of `op` at order `n` that got as far as the acceptance test. -/
def tried (es : List Event) (op : Op) (n : ℕ) : ℕ := es.countP fun e => e.op = op ∧ e.order = n ∧ e.tag ≠ .skip

/-- Number of accepted calls of `op` at order `n`. -/
def succeeded (es : List Event) (op : Op) (n : ℕ) : ℕ := es.countP fun e => e.op = op ∧ e.order = n ∧ e.tag = .accept

/-- Accepted calls that raise the order from `n` to `n + 1`. -/
def ups (acc : Op → ℕ → ℕ) (n : ℕ) : ℤ :=
  acc .addInteraction n + acc .addDelta n + if n = 0 then acc .backToOrder1 0 else 0

/-- Accepted calls that lower the order from `n + 1` to `n`. -/
def downs (acc : Op → ℕ → ℕ) (n : ℕ) : ℤ :=
  acc .delInteraction (n + 1) + acc .delDelta (n + 1) + if n = 0 then acc .toOrder0 1 else 0

/-- Accepted calls of an update at all orders up to the largest. -/
def total (acc : Op → ℕ → ℕ) (maxOrd : ℕ) (op : Op) : ℤ := ∑ n ∈ Finset.range (maxOrd + 1), (acc op n : ℤ)

/-- 1 for true. -/
def asInt (b : Bool) : ℤ := if b then 1 else 0

end
end Feyn
