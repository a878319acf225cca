import Verif.Model.Chain
import Verif.Spec.Reverse

/-!
# Specification of returning to a state
-/

namespace Feyn

section
variable {Q F : Type} [Field Q] [LinearOrder Q] [Field F]

/-- A time that the generator can produce: a multiple of `2^-32` of the length of the time interval. -/
def GridTime (P : Params Q F) (t : Q) : Prop := ∃ n : ℕ, n < 4294967296 ∧ t = (n : Q) / 4294967296 * P.beta

/-- The lattice is so small that the generator reaches all sites. The sizes are of type `int` in the code. -/
def SmallLattice (P : Params Q F) : Prop := P.lx ≤ 4294967296 ∧ P.ly ≤ 4294967296 ∧ P.nsub ≤ 4294967296

/-- All times of a diagram are times of the generator: those of the vertices, and the external one if there is a
composite line. -/
def OnGrid (P : Params Q F) (d : Diag Q F) : Prop :=
  (∀ v ∈ d.Ver.live, GridTime P (d.co.tau v)) ∧ (d.hasGamma ≠ 0 → GridTime P d.ext.tau)

/-- Some sequence of hops leads from `a` to `b`. -/
def Hops (a b : Chain Q F) : Prop := ∃ os, hop a os = .ok b

/-- Some sequence of hops leads from `a` to `b` in which no instantaneous line is removed or made continuous while some
instantaneous line has ends with different times. -/
inductive HopsD : Chain Q F → Chain Q F → Prop where
  | refl (a : Chain Q F) : HopsD a a
  | hop {a b b' : Chain Q F} (o : Words) : HopsD a b → hopOne b o = .ok b' →
      (selectOp b.P (urn Q (o 0)) = some .delDelta ∨ selectOp b.P (urn Q (o 0)) = some .delta2cont → DeltaTau b.d) →
      HopsD a b'

end
end Feyn
