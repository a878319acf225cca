import Verif.Model.Chain
import Mathlib.Analysis.Real.Sqrt

/-!
# The report on the updates (`Markov::PrintDetailBalanceInfo`, `module/markov/markov.cpp` 109-222)

The numbers of the report, without the layout of the text. The entries of `Proposed` and `Accepted` are counts, so that `Equal(x, 0.0)` (`utility/utility.cpp`) is `x = 0`. Rounding of the
printed ratios is left out.
-/

namespace Feyn

/-- One printed line: "Order i" or "Summation" (`none`), two counts and a ratio. -/
structure ReportLine where
  order : Option ℕ
  first : ℕ
  second : ℕ
  ratio : ℝ

/-- The common form of the loops `markov.cpp` 113-127 and 135-181: `blank` is the test for a line that is not printed, `ratio` the third number. A pair that is not printed does not enter the
sums. "None" is the absence of a summation. -/
noncomputable def reportLines (blank : ℕ → ℕ → Bool) (ratio : ℕ → ℕ → ℝ) (pairs : List (ℕ × ℕ × ℕ)) : List ReportLine :=
  let s : List ReportLine × ℕ × ℕ := pairs.foldl (fun s p =>
    if blank p.2.1 p.2.2 then s
    else (s.1 ++ [⟨some p.1, p.2.1, p.2.2, ratio p.2.1 p.2.2⟩], s.2.1 + p.2.1, s.2.2 + p.2.2)) ([], 0, 0)
  if blank s.2.1 s.2.2 then s.1 else s.1 ++ [⟨none, s.2.1, s.2.2, ratio s.2.1 s.2.2⟩]

/-- `_DetailBalanceStr`, `markov.cpp` 109-129. `ord` is the member `Order`. -/
noncomputable def updateReport (ord : ℕ) (proposed accepted : Op → ℕ → ℕ) (op : Op) : List ReportLine :=
  reportLines (fun a _ => a == 0) (fun a b => (b : ℝ) / a) ((List.range (ord + 1)).map fun i => (i, proposed op i, accepted op i))

/-- The two entries that `_CheckBalance` compares for the index `i`, `markov.cpp` 138-172; `none` is `continue`. -/
def balancePair (ord : ℕ) (accepted : Op → ℕ → ℕ) (op1 op2 : Op) (i : ℕ) : Option (ℕ × ℕ × ℕ) :=
  if (op1 = .addInteraction ∧ op2 = .delInteraction) ∨ (op1 = .addDelta ∧ op2 = .delDelta) then
    if i = ord then none else some (i, accepted op1 i, accepted op2 (i + 1))
  else if op1 = .toOrder0 ∧ op2 = .backToOrder1 then
    if i ≠ 0 then none else some (i, accepted op1 (i + 1), accepted op2 i)
  else some (i, accepted op1 i, accepted op2 i)

/-- `_CheckBalance`, `markov.cpp` 131-183. -/
noncomputable def balanceReport (ord : ℕ) (accepted : Op → ℕ → ℕ) (op1 op2 : Op) : List ReportLine :=
  reportLines (fun a b => a + b == 0) (fun a b => |(a : ℝ) - b| / √((a : ℝ) + b)) ((List.range (ord + 1)).filterMap (balancePair ord accepted op1 op2))

/-- The updates of the first part, `markov.cpp` 190-214, in order. -/
def reportedOps (runGamma3 : Bool) : List Op :=
  [.createWorm, .deleteWorm, .moveWormG, .moveWormW, .reconnect, .addInteraction, .delInteraction, .addDelta, .delDelta, .changeTau, .changeRVertex, .changeRLoop, .g2w, .w2g,
   .cont2delta, .delta2cont, .changeSpin, .toOrder0, .backToOrder1] ++
  if runGamma3 then [.toGGGammaG, .fromGGGammaG, .toWWGammaW, .fromWWGammaW] else []

/-- The pairs of the second part, `markov.cpp` 216-219. -/
def reportedPairs : List (Op × Op) :=
  [(.addInteraction, .delInteraction), (.addDelta, .delDelta), (.g2w, .w2g), (.cont2delta, .delta2cont)]

/-- `PrintDetailBalanceInfo`, `markov.cpp` 185-222: the counter, the lines of the updates and the lines of the pairs. -/
noncomputable def printInfo {Q F : Type} [Field Q] [LinearOrder Q] [Field F] (c : Chain Q F) : ℕ × List (Op × List ReportLine) × List ((Op × Op) × List ReportLine) :=
  (c.counter, (reportedOps c.P.runGamma3).map (fun op => (op, updateReport c.P.maxOrd c.proposed c.accepted op)),
    reportedPairs.map fun p => (p, balanceReport c.P.maxOrd c.accepted p.1 p.2))

end Feyn
