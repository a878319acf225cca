import Verif.Spec.Stationary
import Mathlib.Data.Fintype.BigOperators

/-!
# Specification: runs in terms of the words of the generator

The words of the generator are taken as independent and equally likely, that is, averages and shares are over all words. Nothing else
is idealised: the words are turned into choices as in the code, by reduction modulo the number of possibilities and by comparison
of multiples of 2^-32.
-/

namespace Feyn

section
variable {Q F : Type} [Field Q] [LinearOrder Q] [Field F]

/-- The words of one step: the given ones, which are more than any step uses, then `tail`. -/
def stream (tail : Words) {k : ℕ} (v : Fin k → Word) : Words := fun i => if h : i < k then v ⟨i, h⟩ else tail (i - k)

/-- A quantity after a run; 0 if the run did not end properly. -/
def runValue (g : Diag Q F → Q) : Res (Chain Q F) → Q
  | .ok c => g c.d
  | _ => 0

/-- The average of the quantity `g` after `n` steps, over all words, nine for each step. -/
def runMean (c : Chain Q F) (tail : Words) (n : ℕ) (g : Diag Q F → Q) : Q :=
  (∑ vs : Fin n → Fin 9 → Word, runValue g (hop c (List.ofFn fun i => stream tail (vs i)))) / (4294967296 ^ 9) ^ n

/-- The contribution of a move to the average of `g` after one step. -/
def Move.gain (P : Params Q F) (d : Diag Q F) (g : Diag Q F → Q) (m : Move Q) : Q :=
  match m.accepted P d with
  | some (a, d') => m.chance P d * a * g d'
  | none => 0

/-- The expectation of `g` after one step of the Markov chain of `Spec/Stationary`. -/
def stepMean (P : Params Q F) (g : Diag Q F → Q) (d : Diag Q F) : Q :=
  (∑ m ∈ allMoves P d, m.gain P d g) + stays P d * g d

/-- The expectation of `g` after `n` steps. -/
def stepsMean (P : Params Q F) (g : Diag Q F → Q) : ℕ → Diag Q F → Q
  | 0 => g
  | n + 1 => stepMean P (stepsMean P g n)

/-- A quantity with values from 0 to 1 that does not depend on the cells in which vertices and lines are stored. -/
structure CellFree (P : Params Q F) (g : Diag Q F → Q) : Prop where
  cells : ∀ d d', Inv P d → Inv P d' → SameUpToCells d d' → g d = g d'
  nonneg : ∀ d, 0 ≤ g d
  le_one : ∀ d, g d ≤ 1

/-- Bound of the deviation within one step: the number of possible momenta, at most 20 lines or vertices, the sizes of the lattice, at
most 23 updates, and a few, divided by 2^32. -/
def wordBias (P : Params Q F) : Q := ((20050 + P.lx + P.ly + P.nsub : ℕ) : Q) / 4294967296

open Classical in
/-- Is the diagram the given one, up to the cells? -/
noncomputable def isDiag (e d : Diag Q F) : Q := if SameUpToCells d e then 1 else 0

end
end Feyn
