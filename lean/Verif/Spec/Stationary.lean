import Verif.Spec.Return
import Mathlib.Algebra.BigOperators.Ring.Finset
import Mathlib.Data.Int.Interval

/-!
# Specification of the stationary distribution

One step of the simulation as a transition probability between diagrams. Times are those of the generator
(`timeGrid`), all equally likely; so are the updates, lines, vertices, momenta, directions, spins and sites. (The
generator draws the latter by reduction modulo their number, which makes some choices more likely than others by at
most one part in 2^32 of the number; this is not part of the specification.)
-/

namespace Feyn

deriving instance DecidableEq for Move

section
variable {Q F : Type} [Field Q] [LinearOrder Q] [Field F]

/-- The times that the generator can produce. -/
def timeGrid (P : Params Q F) : Finset Q :=
  (Finset.range 4294967296).image fun n : ℕ => (n : Q) / 4294967296 * P.beta

/-- The sites of the lattice. -/
def allSites (P : Params Q F) : Finset Site :=
  (Finset.range P.nsub ×ˢ Finset.range P.lx ×ˢ Finset.range P.ly).image fun x => ⟨x.1, x.2.1, x.2.2⟩

/-- The momenta. -/
def allK : Finset ℤ := Finset.Icc (-MAX_K) MAX_K

/-- The directions; also used for spins. -/
def both : Finset Bool := {true, false}

/-- All choices that can be drawn when the given update is called. `CHANGE_R_VERTEX` and `CHANGE_SPIN_VERTEX` do
nothing. -/
def movesOf (P : Params Q F) (d : Diag Q F) : Op → Finset (Move Q)
  | .createWorm => (d.W.live ×ˢ allK ×ˢ {1, -1}).image fun x => .createWorm x.1 x.2.1 x.2.2
  | .deleteWorm => {.deleteWorm}
  | .moveWormG => both.image .moveWormG
  | .moveWormW => {.moveWormW}
  | .reconnect => both.image .reconnect
  | .addInteraction => (allK ×ˢ both ×ˢ both ×ˢ timeGrid P ×ˢ timeGrid P).image fun x =>
      .add false x.1 x.2.1 x.2.2.1 x.2.2.2.1 x.2.2.2.2
  | .delInteraction => both.image (.del false)
  | .addDelta => (allK ×ˢ both ×ˢ both ×ˢ timeGrid P).image fun x => .add true x.1 x.2.1 x.2.2.1 x.2.2.2 x.2.2.2
  | .delDelta => both.image (.del true)
  | .changeTau => (d.Ver.live ×ˢ timeGrid P).image fun x => .changeTau x.1 x.2
  | .changeRVertex => ∅
  | .changeRLoop => (d.Ver.live ×ˢ allSites P).image fun x => .changeRLoop x.1 x.2
  | .g2w => d.W.live.image .g2w
  | .w2g => d.G.live.image .w2g
  | .delta2cont => (d.W.live ×ˢ timeGrid P).image fun x => .delta2cont x.1 x.2
  | .cont2delta => d.W.live.image .cont2delta
  | .changeSpin => ∅
  | .toOrder0 => {.toOrder0}
  | .backToOrder1 => (allSites P ×ˢ timeGrid P ×ˢ timeGrid P ×ˢ both ×ˢ both).image fun x =>
      .backToOrder1 x.1 x.2.1 x.2.2.1 x.2.2.2.1 x.2.2.2.2
  | .toGGGammaG => (d.G.live ×ˢ timeGrid P).image fun x => .toGGGammaG x.1 x.2
  | .fromGGGammaG => {.fromGGGammaG}
  | .toWWGammaW => (d.W.live ×ˢ timeGrid P ×ˢ allSites P).image fun x => .toWWGammaW x.1 x.2.1 x.2.2
  | .fromWWGammaW => {.fromWWGammaW}

/-- All updates. -/
def allOps : Finset Op :=
  {.createWorm, .deleteWorm, .moveWormG, .moveWormW, .reconnect, .addInteraction, .delInteraction, .addDelta, .delDelta,
    .changeTau, .changeRVertex, .changeRLoop, .g2w, .w2g, .delta2cont, .cont2delta, .changeSpin, .toOrder0, .backToOrder1,
    .toGGGammaG, .fromGGGammaG, .toWWGammaW, .fromWWGammaW}

/-- All updates that are called, with all choices that can be drawn. -/
def allMoves (P : Params Q F) (d : Diag Q F) : Finset (Move Q) :=
  (allOps.filter fun op => op.idx < numOps P).biUnion (movesOf P d)

/-- Distance of neighbouring times. -/
def timeStep (P : Params Q F) : Q := P.beta / 4294967296

/-- Number of times drawn by a move. -/
def Move.times : Move Q → ℕ
  | .add δ .. => if δ then 1 else 2
  | .changeTau .. => 1
  | .delta2cont .. => 1
  | .backToOrder1 .. => 2
  | .toGGGammaG .. => 1
  | .toWWGammaW .. => 1
  | _ => 0

/-- Probability that a move is drawn: its density in the times, times the distance of neighbouring times for each of
them. -/
def Move.chance (P : Params Q F) (d : Diag Q F) (m : Move Q) : Q := m.density P d * timeStep P ^ m.times

/-- Number of times on which a diagram depends: two for an interaction line, one for an instantaneous one, one for
the external point of a composite line; none in the order-0 sector. -/
def freeTimes (d : Diag Q F) : ℕ :=
  if d.order = 0 then 0
  else (∑ w ∈ d.W.live, if d.fl.wDelta w = true then 1 else 2) + if d.hasGamma = 0 then 0 else 1

/-- The distribution to be sampled, up to normalisation: the density `target`, times the distance of neighbouring times
for each time on which the diagram depends. -/
def stateWeight (P : Params Q F) (d : Diag Q F) : Q := target P d * timeStep P ^ freeTimes d

/-- Probability that the move is accepted, and the diagram after acceptance. (The number that is compared with the
acceptance ratio is uniform in `[0, 1)`; if it is 0 then every move is accepted that can be.) -/
def Move.accepted (P : Params Q F) (d : Diag Q F) (m : Move Q) : Option (Q × Diag Q F) :=
  match m.run P d 0 with
  | .ok out => if out.tag = .accept then some (min 1 out.prob, out.d) else none
  | _ => none

open Classical in
/-- Probability to draw the move at `d`, to accept it, and to be at `e` then, up to the cells. -/
noncomputable def Move.flow (P : Params Q F) (d e : Diag Q F) (m : Move Q) : Q :=
  match m.accepted P d with
  | some (a, d') => if SameUpToCells d' e then m.chance P d * a else 0
  | none => 0

/-- Probability to draw the move at `d` and to accept it. -/
def Move.exit (P : Params Q F) (d : Diag Q F) (m : Move Q) : Q :=
  match m.accepted P d with
  | some (a, _) => m.chance P d * a
  | none => 0

/-- Probability that a step from `d` is accepted and leads to `e`. -/
noncomputable def goes (P : Params Q F) (d e : Diag Q F) : Q := ∑ m ∈ allMoves P d, m.flow P d e

/-- Probability that nothing is accepted in a step from `d`. -/
def stays (P : Params Q F) (d : Diag Q F) : Q := 1 - ∑ m ∈ allMoves P d, m.exit P d

open Classical in
/-- Probability that a step leads from `d` to `e`, up to the cells. -/
noncomputable def stepProb (P : Params Q F) (d e : Diag Q F) : Q :=
  goes P d e + if SameUpToCells d e then stays P d else 0

/-- There is no instantaneous line. -/
def NoDelta (d : Diag Q F) : Prop := ∀ w ∈ d.W.live, d.fl.wDelta w = false

/-- The states among which the steps are balanced: consistent diagrams with times of the generator, with what runs
establish about spins, sites and instantaneous lines (`C86_good`); in the order-0 sector without instantaneous line. -/
structure GoodState (P : Params Q F) (d : Diag Q F) : Prop where
  inv : Inv P d
  spinW : SpinWOk d
  wormSpin : WormSpinOk d
  site : SiteGOk d
  delta : DeltaTau d
  grid : OnGrid P d
  zero : d.order = 0 → NoDelta d

/-- `X` consists of different good states and has all those that can be reached from `y` in one step. -/
structure Around (P : Params Q F) (X : Finset (Diag Q F)) (y : Diag Q F) : Prop where
  good : ∀ x ∈ X, GoodState P x
  differ : ∀ x ∈ X, ∀ x' ∈ X, SameUpToCells x x' → x = x'
  mem : y ∈ X
  cover : ∀ m ∈ allMoves P y, ∀ a d', m.accepted P y = some (a, d') → ∃ x ∈ X, SameUpToCells d' x

end
end Feyn
