import Verif.Model.Weights
import Verif.Spec.IndexMap

/-!
# What look-ups of composite weights are about
-/

namespace Feyn
variable {Q F : Type} [Field Q] [LinearOrder Q] [Field F]

/-- The time in `[0, β)` that is equivalent to a time difference in `[-β, β)`. -/
def foldTau (β t : Q) : Q := if t < 0 then t + β else t

/-- The difference `t` belongs to bin `b` if `[0, β)` is cut into `n` equal bins. -/
def InBin (β : Q) (n : ℕ) (t : Q) (b : ℤ) : Prop :=
  0 ≤ b ∧ b < (n : ℤ) ∧ (b : Q) * (β / (n : Q)) ≤ foldTau β t ∧ foldTau β t < ((b : Q) + 1) * (β / (n : Q))

/-- Sign of a fermionic function: one factor `-1` if the difference was folded. -/
def foldSign (t : Q) : ℤ := if t < 0 then -1 else 1

/-- A usable three-point propagator table. -/
structure GammaG.Wf (g : GammaG Q F) : Prop where
  beta : 0 < g.beta
  bins : 0 < g.bins
  lat : LatOk g.lat
  dim : g.lat.length = 2
  fits : 2 * latVol g.lat * (g.bins : ℤ) * (g.bins : ℤ) < 4294967296
  weight : g.weight.n = 2 * latVol g.lat * (g.bins : ℤ) * (g.bins : ℤ)
  accu : g.accu.n = 2 * latVol g.lat * (g.bins : ℤ) * (g.bins : ℤ)

/-- A usable composite interaction table: the index tables have the sizes that `WeightFromDict` checks
(`gamma3.cpp` 485-500), their entries address the table, symmetry factors do not vanish. -/
structure GammaW.Wf (g : GammaW Q F) : Prop where
  beta : 0 < g.beta
  bins : 0 < g.bins
  lat : LatOk g.lat
  dim : g.lat.length = 2
  rSqueeze : (g.rSqueeze.length : ℤ) = latVol g.lat * latVol g.lat
  rSym : (g.rSymFactor.length : ℤ) = latVol g.lat * latVol g.lat
  tauSqueeze : g.tauSqueeze.length = g.bins * g.bins
  tauSym : g.tauSymFactor.length = g.bins * g.bins
  tauFlag : g.tauFlag.length = g.bins * g.bins
  rVal : ∀ x ∈ g.rSqueeze, 0 ≤ x ∧ x < g.rSize
  tauVal : ∀ x ∈ g.tauSqueeze, 0 ≤ x ∧ x < g.tauSize
  rSymVal : ∀ x ∈ g.rSymFactor, (x : F) ≠ 0
  tauSymVal : ∀ x ∈ g.tauSymFactor, (x : F) ≠ 0
  fits : 2 * g.rSize * g.tauSize < 4294967296
  weight : g.weight.n = 2 * g.rSize * g.tauSize
  accu : g.accu.n = 2 * g.rSize * g.tauSize

/-- An array with `x` added to element `i`. -/
def Arr.plus (a : Arr F) (i : ℤ) (x : F) : Arr F := ⟨a.n, Function.update a.data i (a.data i + x)⟩

variable [FloorRing Q] [StarRing F]

/-- What evaluating returns after one measurement of `w` into an empty table, if the accumulated table is used as weight. -/
def GammaW.echo (g : GammaW Q F) (rin rout ur : Site) (tin tout ut : Q) (sin sout : Dir → Spin) (w : F) : Res F := do
  let g' ← g.measure rin rout ur tin tout ut sin sout w
  GammaW.eval { g' with weight := g'.accu } rin rout ur tin tout ut sin sout

end Feyn
