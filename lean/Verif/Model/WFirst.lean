import Mathlib.Algebra.BigOperators.Intervals
import Mathlib.Data.Rat.Defs
import Mathlib.Tactic.Linarith

/-!
# First order of the screened interaction (dyson/calculator.py 81-105, dyson/weight.py 86-115) (C104)

Arrays at one wave number and one frequency, as functions of spin index, sublattice, spin index, sublattice. No other function of the repository calls `W_FirstOrder`.
-/

namespace Feyn
variable {F : Type} [Field F]

/-- The spins of one end of an interaction: incoming, outgoing; `DOWN` is 0 and `UP` is 1 (dyson/weight.py 12-14). -/
abbrev PySpins := ℕ × ℕ

/-- `IndexMap.Spin2Index`, dyson/weight.py 80-81, of `*spins`. -/
def pySpinsIndex (s : PySpins) : ℕ := s.1 * 2 + s.2

/-- `IndexMap.IsConserved(4, ...)`, dyson/weight.py 89-90. -/
def pyIsConserved4 (t : PySpins × PySpins) : Bool := t.1.1 + t.2.1 == t.1.2 + t.2.2

/-- `IndexMap.GetSpin4SimilarTuples`, dyson/weight.py 100-115. -/
def pySimilar (i o : PySpins) : List (PySpins × PySpins) :=
  if i = o then
    if i.1 = i.2 then [((0, 0), (0, 0)), ((1, 1), (1, 1))] else [((0, 1), (0, 1)), ((1, 0), (1, 0))]
  else if i.1 = i.2 ∧ o.1 = o.2 then [((0, 0), (1, 1)), ((1, 1), (0, 0))]
  else if i.1 ≠ i.2 ∧ o.1 ≠ o.2 then [((0, 1), (1, 0)), ((1, 0), (0, 1))]
  else [((0, 1), (1, 1)), ((1, 0), (1, 1)), ((0, 1), (0, 0)), ((1, 0), (0, 0)), ((1, 1), (0, 1)), ((1, 1), (1, 0)), ((0, 0), (0, 1)), ((0, 0), (1, 0))]

/-- `IndexMap.GetConservedSpinTuple("FourSpins")`, dyson/weight.py 95-98. -/
def pyConserved4 : List (PySpins × PySpins) := pySimilar (1, 1) (1, 1) ++ pySimilar (1, 1) (0, 0) ++ pySimilar (0, 1) (1, 0)

/-- `SpinList`, dyson/calculator.py 89-91. -/
def pyWSpinList : List ((PySpins × PySpins) × (PySpins × PySpins)) :=
  (pyConserved4.flatMap fun w => pyConserved4.map fun p => (w, p)).filter fun x => pyIsConserved4 (x.1.1, x.2.1)

/-- An array at one wave number and one frequency. -/
abbrev PyBlock (F : Type) := ℕ → ℕ → ℕ → ℕ → F

/-- The body of the loop over the spins, dyson/calculator.py 94-104. Every pair of outer sublattices is visited once for each pair of inner ones: the loops over `e[0]` and `e[3]` are left out,
those over `e[1]` and `e[2]` are sums. -/
def pyWStep (nsub : ℕ) (W0 Polar : PyBlock F) (W : PyBlock F) (x : (PySpins × PySpins) × (PySpins × PySpins)) : PyBlock F :=
  let w0l := (pySpinsIndex x.1.1, pySpinsIndex x.2.1)
  let w0r := (pySpinsIndex x.2.2, pySpinsIndex x.1.1)
  let w := (pySpinsIndex x.1.1, pySpinsIndex x.1.2)
  let pol := (pySpinsIndex x.2.1, pySpinsIndex x.2.2)
  fun s a s' b =>
    if s = w.1 ∧ s' = w.2 then
      W s a s' b + ∑ c ∈ Finset.range nsub, ∑ d ∈ Finset.range nsub, W0 w0l.1 a w0l.2 c * Polar pol.1 c pol.2 d * W0 w0r.1 d w0r.2 b
    else W s a s' b

/-- `W_FirstOrder`, dyson/calculator.py 81-105. -/
def pyWFirst (nsub : ℕ) (W0 Polar : PyBlock F) : PyBlock F := pyWSpinList.foldl (pyWStep nsub W0 Polar) fun _ _ _ _ => 0

end Feyn
