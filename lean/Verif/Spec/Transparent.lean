import Verif.Spec.Inv
import Verif.Spec.Run
import Verif.Model.DiagIO
import Verif.Model.Monitor

/-!
# What is visible of a run

Used by C53-C55.
-/

namespace Feyn

section
variable {Q F : Type} [Field Q] [LinearOrder Q] [Field F]

/-- Parameters that agree in all numbers, and whose weight tables have the same entries for sites of the lattice and times in `[0, beta)`.
Outside this domain the tables are arbitrary. Of `wMeasDeltaT` nothing is said. -/
structure TabEq (P P' : Params Q F) : Prop where
  beta : P'.beta = P.beta
  maxOrd : P'.maxOrd = P.maxOrd
  runGamma3 : P'.runGamma3 = P.runGamma3
  lx : P'.lx = P.lx
  ly : P'.ly = P.ly
  nsub : P'.nsub = P.nsub
  rw : P'.orderRW = P.orderRW
  wormRW : P'.wormRW = P.wormRW
  polarRW : P'.polarRW = P.polarRW
  gammaGRW : P'.gammaGRW = P.gammaGRW
  gammaWRW : P'.gammaWRW = P.gammaWRW
  mod : P'.mod = P.mod
  ph : P'.ph = P.ph
  gMeasT : ∀ s s' r r' t t', SiteIn P r → SiteIn P r' → TauIn P t → TauIn P t' →
    P'.gMeasT s s' r r' t t' = P.gMeasT s s' r r' t t'
  gSmoothT : ∀ s s' r r' t t', SiteIn P r → SiteIn P r' → TauIn P t → TauIn P t' →
    P'.gSmoothT s s' r r' t t' = P.gSmoothT s s' r r' t t'
  gGamT : ∀ s s' r r' t t' e, SiteIn P r → SiteIn P r' → TauIn P t → TauIn P t' → ExtOk P e →
    P'.gGamT s s' r r' t t' e = P.gGamT s s' r r' t t' e
  wMeasT : ∀ s s' r r' t t', SiteIn P r → SiteIn P r' → TauIn P t → TauIn P t' →
    P'.wMeasT s s' r r' t t' = P.wMeasT s s' r r' t t'
  wDeltaT : ∀ s s' r r', SiteIn P r → SiteIn P r' → P'.wDeltaT s s' r r' = P.wDeltaT s s' r r'
  wSmoothT : ∀ s s' r r' t t', SiteIn P r → SiteIn P r' → TauIn P t → TauIn P t' →
    P'.wSmoothT s s' r r' t t' = P.wSmoothT s s' r r' t t'
  wGamT : ∀ s s' r r' t t' e, SiteIn P r → SiteIn P r' → TauIn P t → TauIn P t' → ExtOk P e →
    P'.wGamT s s' r r' t t' e = P.wGamT s s' r r' t t' e

/-- Blocks of hops, each followed by a measurement, as in the main loop (`main.cpp` 83-85). -/
def sweeps [FloorRing Q] [Algebra Q F] [StarRing F] : Chain Q F → Monitor Q F → List (List Words) → Res (Chain Q F × Monitor Q F)
  | c, m, [] => .ok (c, m)
  | c, m, os :: rest => do
    let c ← hop c os
    let m ← m.measure c.P c.d
    sweeps c m rest

/-- The results of a run: all estimators and histograms, the file that would be saved, and the scalars of the diagram. -/
def results (x : Chain Q F × Monitor Q F) : Monitor Q F × Res (DiagDict Q) × ℕ × F × F × ℕ :=
  (x.2, toDict x.1.d, x.1.d.order, x.1.d.weight, x.1.d.phase, x.1.d.hasGamma)

/-- The result of applying `f` to the returned value. -/
def Res.image {α β : Type} (f : α → β) : Res α → Res β
  | .ok a => .ok (f a)
  | .abort => .abort
  | .ub => .ub

/-- Between `a` and `e` the same hops, proposals and acceptances were counted as between `b` and `e'`. -/
structure SameCounts (a e b e' : Chain Q F) : Prop where
  counter : e'.counter + a.counter = e.counter + b.counter
  proposed : ∀ op n, e'.proposed op n + a.proposed op n = e.proposed op n + b.proposed op n
  accepted : ∀ op n, e'.accepted op n + a.accepted op n = e.accepted op n + b.accepted op n

end

end Feyn
