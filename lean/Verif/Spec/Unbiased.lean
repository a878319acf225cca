import Verif.Spec.Stationary
import Verif.Spec.First

/-!
# Specification of unbiased measuring

What is booked when a diagram is measured is the phase over the reweighting factor of the order. Diagrams occur with the distribution `stateWeight`. So on average every diagram counts with its complex
weight, whatever the reweighting factors are.
-/

namespace Feyn

section
variable {Q F : Type} [Field Q] [LinearOrder Q] [Field F] [Algebra Q F]

/-- Absolute value and phase are what these words say: a number is its absolute value times its phase, and the absolute value of a natural number is the number. -/
structure PolarForm (P : Params Q F) : Prop where
  split : ∀ w : F, P.mod w • P.ph w = w
  nat : ∀ n : ℕ, P.mod (n : F) = n

/-- Share of one choice of momenta, directions and times: each interaction line has `2 * MOD_K` labels, and each time has the distance of neighbouring times as its share. -/
def labelShare (P : Params Q F) (d : Diag Q F) : Q := (1 / (2 * ((MOD_K : ℤ) : Q))) ^ d.W.avail * timeStep P ^ freeTimes d

/-- Sum of a quantity over the diagrams of `X`, with their distribution. -/
def weighted {M : Type} [AddCommMonoid M] [SMul Q M] (P : Params Q F) (X : Finset (Diag Q F)) (f : Diag Q F → M) : M := ∑ x ∈ X, stateWeight P x • f x

/-- All diagrams of orders 0 and 1 (without worm and composite line) that are connected by the jumps between these orders, each one once. -/
structure FirstOrders (P : Params Q F) (X0 X1 : Finset (Diag Q F)) : Prop where
  good0 : ∀ z ∈ X0, GoodState P z
  order0 : ∀ z ∈ X0, z.order = 0
  good1 : ∀ x ∈ X1, GoodState P x
  order1 : ∀ x ∈ X1, x.order = 1 ∧ x.worm.exist = false ∧ x.hasGamma = 0
  differ0 : ∀ z ∈ X0, ∀ z' ∈ X0, SameUpToCells z z' → z = z'
  differ1 : ∀ x ∈ X1, ∀ x' ∈ X1, SameUpToCells x x' → x = x'
  up : ∀ z ∈ X0, ∀ m ∈ allMoves P z, ∀ a d', m.accepted P z = some (a, d') → ∃ x ∈ X1, SameUpToCells d' x
  down : ∀ x ∈ X1, ∀ a d', (Move.toOrder0 : Move Q).accepted P x = some (a, d') → ∃ z ∈ X0, SameUpToCells d' z

variable [FloorRing Q]

/-- The ends of the measured propagator do not differ by a multiple of the width of a bin. -/
def OffSigma (P : Params Q F) (bins : ℕ) (d : Diag Q F) : Prop :=
  OffBins P.beta bins (d.co.tau (d.sh.gV d.gMeasure OUT)) (d.co.tau (d.sh.gV d.gMeasure IN))

/-- The same for the measured interaction. -/
def OffPolar (P : Params Q F) (bins : ℕ) (d : Diag Q F) : Prop :=
  OffBins P.beta bins (d.co.tau (d.sh.wV d.wMeasure OUT)) (d.co.tau (d.sh.wV d.wMeasure IN))

open Classical in
/-- Number of pairs of times in time bin `t` that do not differ by a multiple of the width of a bin. -/
noncomputable def offPairs (P : Params Q F) (bins : ℕ) (t : ℤ) : ℕ :=
  ((timeGrid P ×ˢ timeGrid P).filter fun p => OffBins P.beta bins p.1 p.2 ∧ pyTauIndex P.beta bins p.1 p.2 = t).card

end
end Feyn
