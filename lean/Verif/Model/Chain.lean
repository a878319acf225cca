import Verif.Model.Updates

/-!
# The Monte Carlo driver (`Markov::BuildNew` tables and `Markov::Hop`, `module/markov/markov.cpp`)
-/

namespace Feyn

section
variable {Q F : Type} [Field Q] [LinearOrder Q] [Field F]

/-- `SumofProbofCall[j]` after the double loop of `markov.cpp` 67-83: for every `i < n` the entry `p i` is
added to all entries `j ≥ i`. The loop over `j` is exchanged with the loop over `i`. -/
def callSum (p : ℕ → Q) (n j : ℕ) : Q :=
  (List.range n).foldl (fun s i => if i ≤ j then s + p i else s) 0

/-- The `if ... else if ...` chain of `Hop`, `markov.cpp` 233-349: the first operation of the list whose
cumulative probability exceeds `x`; no operation if there is none. -/
def selectIdx (p : ℕ → Q) (n : ℕ) (x : Q) : Option ℕ :=
  (List.range n).find? (fun j => decide (x < callSum p n j))

/-- Operations in the order of the enumeration, `markov.h` 115-141. -/
def opList : List Op :=
  [.createWorm, .deleteWorm, .moveWormG, .moveWormW, .reconnect, .addInteraction, .delInteraction,
   .addDelta, .delDelta, .changeTau, .changeRVertex, .changeRLoop, .g2w, .w2g, .delta2cont, .cont2delta,
   .changeSpin, .toOrder0, .backToOrder1, .toGGGammaG, .fromGGGammaG, .toWWGammaW, .fromWWGammaW]

/-- Number of operations that can be called, `markov.h` 39-41: `NUpdates` or `MCUpdates`. -/
def numOps (P : Params Q F) : ℕ := if P.runGamma3 then 23 else 19

/-- `ProbofCall[i]` for a plain index. -/
def probOfIdx (P : Params Q F) (i : ℕ) : Q := if i < numOps P then 1 / (numOps P : Q) else 0

/-- Operation chosen for the random number `x`. The conditions of the chain appear in the order of the
enumeration, in both branches. -/
def selectOp (P : Params Q F) (x : Q) : Option Op :=
  match selectIdx (probOfIdx P) (numOps P) x with
  | some j => opList[j]?
  | none => none

/-- The Markov chain object together with the data it points to. `Proposed[op][order]` and
`Accepted[op][order]` are `real` arrays holding counts; here they are natural numbers. -/
structure Chain (Q F : Type) [Field Q] [LinearOrder Q] [Field F] where
  P : Params Q F
  d : Diag Q F
  counter : ℕ
  proposed : Op → ℕ → ℕ
  accepted : Op → ℕ → ℕ

/-- Increment one cell of a counter table. -/
def bump (f : Op → ℕ → ℕ) (op : Op) (n : ℕ) : Op → ℕ → ℕ :=
  fun op' n' => if op' = op ∧ n' = n then f op' n' + 1 else f op' n'

/-- Book keeping of one call: `Proposed[OP][Diag->Order] += 1.0` before the acceptance test and
`Accepted[OP][Diag->Order] += 1.0` as first statement after it, before the order changes
(e.g. `markov.cpp` 390-392, 696-699, 807-811, 1598-1601). -/
def Chain.book (c : Chain Q F) (op : Op) (out : Out Q F) : Chain Q F :=
  { c with
    d := out.d
    counter := c.counter + 1
    proposed := if out.tag = .skip then c.proposed else bump c.proposed op c.d.order
    accepted := if out.tag = .accept then bump c.accepted op c.d.order else c.accepted }

/-- One iteration of `Hop`, `markov.cpp` 231-353. The first word chooses the operation. -/
def hopOne (c : Chain Q F) (o : Words) : Res (Chain Q F) :=
  match selectOp c.P (urn Q (o 0)) with
  | none => .ok { c with counter := c.counter + 1 }
  | some op => do
    let out ← runOp c.P op (fun i => o (i + 1)) c.d
    .ok (c.book op out)

/-- `Markov::Hop(sweep)`, `markov.cpp` 229-354. `os i` are the random words of iteration `i`. Iterations
read a common stream; arbitrary words per iteration cover every way the stream can be shared out. -/
def hop (c : Chain Q F) : List Words → Res (Chain Q F)
  | [] => .ok c
  | o :: os => do
    let c' ← hopOne c o
    hop c' os

end
end Feyn
