import Verif.Model.Diagram

/-!
# The Monte Carlo updates (`module/markov/markov.cpp`, `module/markov/gamma3_updates.cpp`)

Every update is written in two layers.

* `xxxCore P d <choices> u` takes the random choices as explicit values; `u` is the number compared with
  the acceptance probability.
* `xxx P o d` draws the choices from the words `o`, in the order of the C++ code. A call that returns early
  draws fewer words; since `o` is arbitrary this needs no bookkeeping.

Each C++ dereference `p->...` is preceded by `deref p`. All writes of an accepted move are collected in one
record update; the fallible parts (containers, hash tables) are executed in program order, because they can
stop the program. Reads of fields take place before the writes, as in the code.
-/

namespace Feyn

/-- `Markov::Operations`, `module/markov/markov.h` 115-141, in order. -/
inductive Op where
  | createWorm | deleteWorm | moveWormG | moveWormW | reconnect
  | addInteraction | delInteraction | addDelta | delDelta
  | changeTau | changeRVertex | changeRLoop
  | g2w | w2g | delta2cont | cont2delta | changeSpin
  | toOrder0 | backToOrder1
  | toGGGammaG | fromGGGammaG | toWWGammaW | fromWWGammaW
  deriving DecidableEq, Repr

/-- Numerical value of the enumerator. -/
def Op.idx : Op → ℕ
  | .createWorm => 0 | .deleteWorm => 1 | .moveWormG => 2 | .moveWormW => 3 | .reconnect => 4
  | .addInteraction => 5 | .delInteraction => 6 | .addDelta => 7 | .delDelta => 8
  | .changeTau => 9 | .changeRVertex => 10 | .changeRLoop => 11
  | .g2w => 12 | .w2g => 13 | .delta2cont => 14 | .cont2delta => 15 | .changeSpin => 16
  | .toOrder0 => 17 | .backToOrder1 => 18
  | .toGGGammaG => 19 | .fromGGGammaG => 20 | .toWWGammaW => 21 | .fromWWGammaW => 22

/-- How an update call ended: early return before a proposal was counted, rejected, or accepted. -/
inductive Tag where
  | skip | reject | accept
  deriving DecidableEq, Repr

/-- Result of an update call: how it ended, the computed acceptance probability, the diagram. -/
structure Out (Q F : Type) where
  tag : Tag
  prob : Q
  d : Diag Q F

section
variable {Q F : Type} [Field Q] [LinearOrder Q] [Field F]

/-- `return` before a proposal is made. -/
def skip (d : Diag Q F) : Res (Out Q F) := .ok ⟨.skip, 0, d⟩

/-- The common tail `if (prob >= 1.0 || RNG->urn() < prob) { ... }`. `Proposed[op][Diag->Order]` is an array
of `MAX_ORDER` numbers, written before the test. `rej` is the diagram left behind by a rejection. -/
def metropolis (d rej : Diag Q F) (prob u : Q) (acc : Res (Diag Q F)) : Res (Out Q F) :=
  if d.order < MAX_ORDER then
    if 1 ≤ prob ∨ u < prob then do
      let d' ← acc
      .ok ⟨.accept, prob, d'⟩
    else .ok ⟨.reject, prob, rej⟩
  else .ub

/-- `ProbofCall[op]`, `markov.cpp` 67-83 with `NUpdates = 23`, `MCUpdates = 19` (`markov.h` 39-41). -/
def probOfCall (P : Params Q F) (op : Op) : Q :=
  if P.runGamma3 then 1 / 23 else if op.idx < 19 then 1 / 19 else 0

/-- `OrderReWeight[i]`; outside the vector it is undefined. -/
def orderRW (P : Params Q F) (i : ℕ) : Res Q :=
  match P.orderRW[i]? with
  | some x => .ok x
  | none => .ub

/-- `ProbTau`, `markov.cpp` 1688-1691. -/
def probTau (P : Params Q F) (_ : Q) : Q := 1 / P.beta

/-- `ProbSite`, `markov.cpp` 1735-1738 (`Lat->Vol = Size[0] * Size[1]`). -/
def probSite (P : Params Q F) (_ : Site) : Q := 1 / (((P.lx * P.ly : ℕ) : Q) * (P.nsub : Q))

/-- `CanNotMoveWorm(int, spin, spin)`, `markov.cpp` 1750-1757. -/
def canNotMove (dspin : ℤ) (sin sout : Spin) : Bool :=
  (dspin == 1 && sin == DOWN && sout == UP) || (dspin == -1 && sin == UP && sout == DOWN)

/-- `CanNotMoveWorm(int, spin, int)`, `markov.cpp` 1769-1784. -/
def canNotMoveG (dspin : ℤ) (sg : Spin) (dir : Dir) : Bool :=
  if dspin = 1 then (dir == IN && sg == DOWN) || (dir == OUT && sg == UP)
  else (dir == IN && sg == UP) || (dir == OUT && sg == DOWN)

/-! ### Random choices, `markov.cpp` 1663-1704 -/

/-- `RandomPickK`, 1663-1666. -/
def pickK (w : Word) : Res ℤ := do
  let k ← irn w (-MAX_K) MAX_K
  .ok (ofInt k)

/-- `RandomPickDeltaSpin`, 1668-1671. -/
def pickDSpin (w : Word) : Res ℤ := do
  let k ← irn w 0 1
  .ok (k * 2 - 1)

/-- `RandomPickSpin`, 1673-1676. -/
def pickSpin (w : Word) : Res Spin := do
  let k ← irn w 0 1
  .ok (if k = 0 then DOWN else UP)

/-- `RandomPickDir`, 1678-1681: the value `0` is `IN`, `1` is `OUT`. -/
def pickDir (w : Word) : Res Dir := do
  let k ← irn w 0 1
  .ok (if k = 0 then IN else OUT)

/-- `RandomPickTau`, 1683-1686. -/
def pickTau (P : Params Q F) (w : Word) : Q := urn Q w * P.beta

/-- `RandomPickSite`, 1698-1704: coordinates first, then the sublattice. -/
def pickSite (P : Params Q F) (w0 w1 w2 : Word) : Res Site := do
  let x ← irn w0 0 ((P.lx : ℤ) - 1)
  let y ← irn w1 0 ((P.ly : ℤ) - 1)
  let s ← irn w2 0 ((P.nsub : ℤ) - 1)
  .ok ⟨s, x, y⟩

/-! ### Worm creation and deletion -/

/-- `CreateWorm` after the choices, `markov.cpp` 364-408. -/
def createWormCore (P : Params Q F) (d : Diag Q F) (w : ℕ) (kWorm dspin : ℤ) (u : Q) :
    Res (Out Q F) := do
  deref w
  let vin := d.sh.wV w IN
  let vout := d.sh.wV w OUT
  let kW := subK (d.mo.wK w) kWorm
  let occ ← wHashCheck d.mo.wHash kW
  if occ then skip d else do
  deref vin
  deref vout
  if canNotMove dspin (d.co.spin vin IN) (d.co.spin vin OUT) &&
      canNotMove (-dspin) (d.co.spin vout IN) (d.co.spin vout OUT) then skip d else do
  let wWeight := wW0 P d.ext (d.co.r vin) (d.co.r vout) (d.co.tau vin) (d.co.tau vout)
    (d.co.spin vin) (d.co.spin vout) true (d.fl.wMeas w) (d.fl.wDelta w) (d.fl.wGam w)
  let ratio := wWeight / d.wt.wWt w
  let wormWt : Q := wormWeight (d.co.r vin) (d.co.r vout) (d.co.tau vin) (d.co.tau vout)
  let prob := P.mod ratio * (probOfCall P .deleteWorm / probOfCall P .createWorm * P.wormRW * wormWt
    * (d.order : Q) * 2)
  metropolis d d prob u do
    let wh ← replaceWHash d.mo.wHash (d.mo.wK w) kW
    .ok { d with
      phase := d.phase * P.ph ratio
      weight := d.weight * ratio
      worm := ⟨true, vin, vout, kWorm, dspin, wormWt⟩
      mo := { d.mo with wHash := wh, wK := upd d.mo.wK w kW }
      fl := { d.fl with wWorm := upd d.fl.wWorm w true }
      wt := { d.wt with wWt := upd d.wt.wWt w wWeight } }

/-- `Markov::CreateWorm`, `markov.cpp` 359-408. -/
def createWorm (P : Params Q F) (o : Words) (d : Diag Q F) : Res (Out Q F) :=
  if d.order = 0 ∨ d.worm.exist = true then skip d else do
  let w ← d.W.pick (o 0)
  let kWorm ← pickK (o 1)
  let dspin ← pickDSpin (o 2)
  createWormCore P d w kWorm dspin (urn Q (o 3))

/-- `DeleteWorm` after the guard, `markov.cpp` 417-451. -/
def deleteWormCore (P : Params Q F) (d : Diag Q F) (u : Q) : Res (Out Q F) := do
  let ira := d.worm.ira
  let masha := d.worm.masha
  deref ira
  deref masha
  let w := d.sh.vW ira
  if w ≠ d.sh.vW masha then skip d else do
  deref w
  let k := addK (d.mo.wK w) (mulK (sgn (d.sh.vDir ira)) d.worm.k)
  let occ ← wHashCheck d.mo.wHash k
  if occ then skip d else do
  let wWeight := wW P d.ext (d.sh.vDir ira) (d.co.r ira) (d.co.r masha) (d.co.tau ira) (d.co.tau masha)
    (d.co.spin ira) (d.co.spin masha) false (d.fl.wMeas w) (d.fl.wDelta w) (d.fl.wGam w)
  let ratio := wWeight / d.wt.wWt w
  let prob := P.mod ratio * (probOfCall P .createWorm /
    (probOfCall P .deleteWorm * P.wormRW * d.worm.wt * (d.order : Q) * 2))
  metropolis d d prob u do
    let wh ← replaceWHash d.mo.wHash (d.mo.wK w) k
    .ok { d with
      phase := d.phase * P.ph ratio
      weight := d.weight * ratio
      worm := { d.worm with exist := false }
      mo := { d.mo with wHash := wh, wK := upd d.mo.wK w k }
      fl := { d.fl with wWorm := upd d.fl.wWorm w false }
      wt := { d.wt with wWt := upd d.wt.wWt w wWeight } }

/-- `Markov::DeleteWorm`, `markov.cpp` 413-451. -/
def deleteWorm (P : Params Q F) (o : Words) (d : Diag Q F) : Res (Out Q F) :=
  if d.order = 0 ∨ d.worm.exist = false then skip d else
  deleteWormCore P d (urn Q (o 0))

/-! ### Worm moves -/

/-- `MoveWormOnG` after the choice of `dir`, `markov.cpp` 461-532. -/
def moveWormGCore (P : Params Q F) (d : Diag Q F) (dir : Dir) (u : Q) : Res (Out Q F) := do
  let ira := d.worm.ira
  let masha := d.worm.masha
  deref ira
  let g := d.sh.vG ira dir
  deref g
  let v2 := d.sh.gV g dir
  deref (d.sh.gV g IN)
  let sg := d.co.spin (d.sh.gV g IN) OUT
  if v2 = ira ∨ v2 = masha ∨ canNotMoveG d.worm.dSpin sg dir = true then skip d else do
  let k := subK (d.mo.gK g) (mulK (sgn dir) d.worm.k)
  let occ ← gHashCheck d.mo.gHash k
  if occ then skip d else do
  let w1 := d.sh.vW ira
  deref w1
  let vW1 := d.sh.wV w1 (!d.sh.vDir ira)
  deref vW1
  let isWormW1 := if vW1 = v2 then true else d.worm.isWorm vW1
  let spinV1 : Dir → Spin := fun e => if e = dir then !d.co.spin ira e else d.co.spin ira e
  let w1Weight := wW P d.ext (d.sh.vDir ira) (d.co.r ira) (d.co.r vW1) (d.co.tau ira) (d.co.tau vW1)
    spinV1 (d.co.spin vW1) isWormW1 (d.fl.wMeas w1) (d.fl.wDelta w1) (d.fl.wGam w1)
  deref v2
  let w2 := d.sh.vW v2
  deref w2
  let vW2 := d.sh.wV w2 (!d.sh.vDir v2)
  deref vW2
  let spinV2 : Dir → Spin := fun e => if e = !dir then !d.co.spin v2 e else d.co.spin v2 e
  let w2Weight := wW P d.ext (d.sh.vDir v2) (d.co.r v2) (d.co.r vW2) (d.co.tau v2) (d.co.tau vW2)
    spinV2 (d.co.spin vW2) true (d.fl.wMeas w2) (d.fl.wDelta w2) (d.fl.wGam w2)
  let gWeight := gW P d.ext (!dir) (d.co.r ira) (d.co.r v2) (d.co.tau ira) (d.co.tau v2)
    (spinV1 dir) (spinV2 (!dir)) (d.fl.gMeas g) (d.fl.gGam g)
  let ratio := w1Weight * w2Weight * gWeight / (d.wt.gWt g * d.wt.wWt w1 * d.wt.wWt w2)
  deref masha
  let wormWt : Q := wormWeight (d.co.r v2) (d.co.r masha) (d.co.tau v2) (d.co.tau masha)
  let prob := P.mod ratio * (wormWt / d.worm.wt)
  metropolis d d prob u do
    let gh ← replaceGHash d.mo.gHash (d.mo.gK g) k
    .ok { d with
      phase := d.phase * P.ph ratio
      weight := d.weight * ratio
      worm := { d.worm with ira := v2, wt := wormWt }
      co := { d.co with spin := upd (upd d.co.spin ira spinV1) v2 spinV2 }
      mo := { d.mo with gHash := gh, gK := upd d.mo.gK g k }
      fl := { d.fl with wWorm := upd (upd d.fl.wWorm w1 isWormW1) w2 true }
      wt := { gWt := upd d.wt.gWt g gWeight, wWt := upd (upd d.wt.wWt w1 w1Weight) w2 w2Weight } }

/-- `Markov::MoveWormOnG`, `markov.cpp` 456-532. -/
def moveWormG (P : Params Q F) (o : Words) (d : Diag Q F) : Res (Out Q F) :=
  if d.order = 0 ∨ d.worm.exist = false then skip d else do
  let dir ← pickDir (o 0)
  moveWormGCore P d dir (urn Q (o 1))

/-- `MoveWormOnW` after the guard, `markov.cpp` 542-576. -/
def moveWormWCore (P : Params Q F) (d : Diag Q F) (u : Q) : Res (Out Q F) := do
  let ira := d.worm.ira
  let masha := d.worm.masha
  deref ira
  let w := d.sh.vW ira
  deref w
  let v2 := d.sh.wV w (!d.sh.vDir ira)
  if v2 = ira ∨ v2 = masha then skip d else do
  let k := addK (d.mo.wK w) (mulK (sgn (d.sh.vDir ira)) d.worm.k)
  let occ ← wHashCheck d.mo.wHash k
  if occ then skip d else do
  deref v2
  let wWeight := wW P d.ext (d.sh.vDir ira) (d.co.r ira) (d.co.r v2) (d.co.tau ira) (d.co.tau v2)
    (d.co.spin ira) (d.co.spin v2) (d.fl.wWorm w) (d.fl.wMeas w) (d.fl.wDelta w) (d.fl.wGam w)
  let ratio := wWeight / d.wt.wWt w
  deref masha
  let wormWt : Q := wormWeight (d.co.r v2) (d.co.r masha) (d.co.tau v2) (d.co.tau masha)
  let prob := P.mod ratio * (wormWt / d.worm.wt)
  metropolis d d prob u do
    let wh ← replaceWHash d.mo.wHash (d.mo.wK w) k
    .ok { d with
      phase := d.phase * P.ph ratio
      weight := d.weight * ratio
      worm := { d.worm with ira := v2, wt := wormWt }
      mo := { d.mo with wHash := wh, wK := upd d.mo.wK w k }
      wt := { d.wt with wWt := upd d.wt.wWt w wWeight } }

/-- `Markov::MoveWormOnW`, `markov.cpp` 537-576. -/
def moveWormW (P : Params Q F) (o : Words) (d : Diag Q F) : Res (Out Q F) :=
  if d.order = 0 ∨ d.worm.exist = false then skip d else
  moveWormWCore P d (urn Q (o 0))

/-- `Reconnect` after the first guards, `markov.cpp` 592-629. -/
def reconnectCore (P : Params Q F) (d : Diag Q F) (dir : Dir) (u : Q) : Res (Out Q F) := do
  let ira := d.worm.ira
  let masha := d.worm.masha
  deref ira
  deref masha
  let gIA := d.sh.vG ira dir
  let gMB := d.sh.vG masha dir
  deref gIA
  deref gMB
  deref (d.sh.gV gIA IN)
  deref (d.sh.gV gMB IN)
  if d.co.spin (d.sh.gV gIA IN) OUT ≠ d.co.spin (d.sh.gV gMB IN) OUT then skip d else do
  let k := addK d.worm.k (mulK (sgn dir) (subK (d.mo.gK gMB) (d.mo.gK gIA)))
  let vA := d.sh.gV gIA dir
  deref vA
  let gIAWeight := gW P d.ext (!dir) (d.co.r masha) (d.co.r vA) (d.co.tau masha) (d.co.tau vA)
    (d.co.spin masha dir) (d.co.spin vA (!dir)) (d.fl.gMeas gIA) (d.fl.gGam gIA)
  let vB := d.sh.gV gMB dir
  deref vB
  let gMBWeight := gW P d.ext (!dir) (d.co.r ira) (d.co.r vB) (d.co.tau ira) (d.co.tau vB)
    (d.co.spin ira dir) (d.co.spin vB (!dir)) (d.fl.gMeas gMB) (d.fl.gGam gMB)
  let ratio := (-1) * gIAWeight * gMBWeight / (d.wt.gWt gIA * d.wt.gWt gMB)
  let prob := P.mod ratio
  metropolis d d prob u <| .ok
    { d with
      phase := d.phase * P.ph ratio
      weight := d.weight * ratio
      sfl := d.sfl * (-1)
      worm := { d.worm with k := k }
      wt := { d.wt with gWt := upd (upd d.wt.gWt gIA gIAWeight) gMB gMBWeight }
      sh := { d.sh with
        vG := upd2 (upd2 d.sh.vG masha dir gIA) ira dir gMB
        gV := upd2 (upd2 d.sh.gV gIA (!dir) masha) gMB (!dir) ira } }

/-- `Markov::Reconnect`, `markov.cpp` 581-629. -/
def reconnect (P : Params Q F) (o : Words) (d : Diag Q F) : Res (Out Q F) :=
  if d.order = 0 ∨ d.worm.exist = false then skip d else do
  deref d.worm.ira
  deref d.worm.masha
  if d.co.r d.worm.ira ≠ d.co.r d.worm.masha then skip d else do
  let dir ← pickDir (o 0)
  reconnectCore P d dir (urn Q (o 1))

/-! ### Adding and removing interaction lines -/

/-- Proposal factor of `AddInteraction` (`markov.cpp` 694) and of `AddDeltaInteraction` (902). -/
def addFactor (P : Params Q F) (isDelta : Bool) (rwNew rwOld tauA tauB : Q) : Q :=
  if isDelta then
    rwNew * probOfCall P .delDelta / (probOfCall P .addDelta * rwOld * probTau P tauA)
  else
    rwNew * probOfCall P .delInteraction /
      (probOfCall P .addInteraction * rwOld * probTau P tauA * probTau P tauB)

/-- `AddInteraction` (`markov.cpp` 642-750, `isDelta = false`) and `AddDeltaInteraction`
(850-959, `isDelta = true`) after the choices. The two C++ functions differ only in: the flag `IsDelta` of the
new line, `tauB` being `tauA` for a delta line (the caller passes it), and the proposal factor. -/
def addCore (P : Params Q F) (d : Diag Q F) (isDelta : Bool) (kW : ℤ) (dir dirW : Dir) (tauA tauB u : Q) :
    Res (Out Q F) := do
  let ira := d.worm.ira
  let masha := d.worm.masha
  let occW ← wHashCheck d.mo.wHash kW
  if occW then skip d else do
  deref ira
  deref masha
  let gIC := d.sh.vG ira dir
  let gMD := d.sh.vG masha dir
  deref gIC
  deref gMD
  let kIA := subK (d.mo.gK gIC) (mulK (sgn dir * sgn dirW) kW)
  let kMB := addK (d.mo.gK gMD) (mulK (sgn dir * sgn dirW) kW)
  let kWorm := subK d.worm.k (mulK (sgn dirW) kW)
  let occ1 ← gHashCheck d.mo.gHash kIA
  if occ1 then skip d else do
  let occ2 ← gHashCheck d.mo.gHash kMB
  if occ2 then skip d else do
  if kIA = kMB then skip d else do
  deref (d.sh.gV gIC IN)
  deref (d.sh.gV gMD IN)
  let spinA : Dir → Spin := fun _ => d.co.spin (d.sh.gV gIC IN) OUT
  let spinB : Dir → Spin := fun _ => d.co.spin (d.sh.gV gMD IN) OUT
  let vC := d.sh.gV gIC dir
  let vD := d.sh.gV gMD dir
  deref vC
  deref vD
  let rA := d.co.r vC
  let rB := d.co.r vD
  let wWeight := wW P d.ext dirW rA rB tauA tauB spinA spinB false false isDelta false
  let gIAWeight := gW P d.ext (!dir) (d.co.r ira) rA (d.co.tau ira) tauA
    (d.co.spin ira dir) (spinA (!dir)) false false
  let gMBWeight := gW P d.ext (!dir) (d.co.r masha) rB (d.co.tau masha) tauB
    (d.co.spin masha dir) (spinB (!dir)) false false
  let gACWeight := gW P d.ext (!dir) rA (d.co.r vC) tauA (d.co.tau vC)
    (spinA dir) (d.co.spin vC (!dir)) (d.fl.gMeas gIC) (d.fl.gGam gIC)
  let gBDWeight := gW P d.ext (!dir) rB (d.co.r vD) tauB (d.co.tau vD)
    (spinB dir) (d.co.spin vD (!dir)) (d.fl.gMeas gMD) (d.fl.gGam gMD)
  let ratio := (-1) * gIAWeight * gMBWeight * wWeight * gACWeight * gBDWeight /
    (d.wt.gWt gIC * d.wt.gWt gMD)
  let rwNew ← orderRW P (d.order + 1)
  let rwOld ← orderRW P d.order
  let prob := P.mod ratio * addFactor P isDelta rwNew rwOld tauA tauB
  metropolis d d prob u do
    let (vA, ver1) ← d.Ver.add
    let (vB, ver2) ← ver1.add
    let (gIA, g1) ← d.G.add
    let (gMB, g2) ← g1.add
    let (wAB, w1) ← d.W.add
    let gh1 ← addGHash d.mo.gHash kIA
    let gh2 ← addGHash gh1 kMB
    let wh ← addWHash d.mo.wHash kW
    .ok { d with
      order := d.order + 1
      phase := d.phase * P.ph ratio
      weight := d.weight * ratio
      Ver := ver2, G := g2, W := w1
      sh := {
        vG := upd2 (upd2 (upd2 (upd2 (upd2 (upd2 d.sh.vG vA dir gIC) vA (!dir) gIA) vB dir gMD)
          vB (!dir) gMB) ira dir gIA) masha dir gMB
        vW := upd (upd d.sh.vW vA wAB) vB wAB
        vDir := upd (upd d.sh.vDir vA dirW) vB (!dirW)
        gV := upd2 (upd2 (upd2 (upd2 (upd2 (upd2 d.sh.gV gIA (!dir) ira) gIA dir vA) gMB (!dir) masha)
          gMB dir vB) gIC (!dir) vA) gMD (!dir) vB
        wV := upd2 (upd2 d.sh.wV wAB dirW vA) wAB (!dirW) vB }
      co := {
        r := upd (upd d.co.r vA rA) vB rB
        tau := upd (upd d.co.tau vA tauA) vB tauB
        spin := upd (upd d.co.spin vA spinA) vB spinB }
      mo := {
        gK := upd (upd d.mo.gK gIA kIA) gMB kMB
        wK := upd d.mo.wK wAB kW
        gHash := gh2
        wHash := wh }
      fl := {
        gMeas := upd (upd d.fl.gMeas gIA false) gMB false
        gGam := upd (upd d.fl.gGam gIA false) gMB false
        wMeas := upd d.fl.wMeas wAB false
        wWorm := upd d.fl.wWorm wAB false
        wDelta := upd d.fl.wDelta wAB isDelta
        wGam := upd d.fl.wGam wAB false }
      wt := {
        gWt := upd (upd (upd (upd d.wt.gWt gIA gIAWeight) gMB gMBWeight) gIC gACWeight) gMD gBDWeight
        wWt := upd d.wt.wWt wAB wWeight }
      worm := { d.worm with k := kWorm } }

/-- `Markov::AddInteraction`, `markov.cpp` 636-750. Draws: `kW`, `dir`, `dirW`, `tauA`, `tauB`. -/
def addInteraction (P : Params Q F) (o : Words) (d : Diag Q F) : Res (Out Q F) :=
  if d.worm.exist = false then skip d
  else if d.order = 0 ∨ d.order ≥ P.maxOrd then skip d else do
  let kW ← pickK (o 0)
  let dir ← pickDir (o 1)
  let dirW ← pickDir (o 2)
  addCore P d false kW dir dirW (pickTau P (o 3)) (pickTau P (o 4)) (urn Q (o 5))

/-- `Markov::AddDeltaInteraction`, `markov.cpp` 844-959. One time only. -/
def addDelta (P : Params Q F) (o : Words) (d : Diag Q F) : Res (Out Q F) :=
  if d.worm.exist = false then skip d
  else if d.order = 0 ∨ d.order ≥ P.maxOrd then skip d else do
  let kW ← pickK (o 0)
  let dir ← pickDir (o 1)
  let dirW ← pickDir (o 2)
  addCore P d true kW dir dirW (pickTau P (o 3)) (pickTau P (o 3)) (urn Q (o 4))

/-- Proposal factor of `DeleteInteraction` (`markov.cpp` 805) and of `DeleteDeltaInteraction` (1014). -/
def delFactor (P : Params Q F) (isDelta : Bool) (rwNew rwOld tauA tauB : Q) : Q :=
  if isDelta then
    rwNew * probOfCall P .addDelta * probTau P tauA / (probOfCall P .delDelta * rwOld)
  else
    rwNew * probOfCall P .addInteraction * probTau P tauA * probTau P tauB /
      (probOfCall P .delInteraction * rwOld)

/-- `DeleteInteraction` (`markov.cpp` 763-837, `isDelta = false`) and `DeleteDeltaInteraction`
(972-1046, `isDelta = true`) after the choice of `dir`. They differ only in the required value of `IsDelta`
and in the proposal factor. -/
def delCore (P : Params Q F) (d : Diag Q F) (isDelta : Bool) (dir : Dir) (u : Q) : Res (Out Q F) := do
  let ira := d.worm.ira
  let masha := d.worm.masha
  deref ira
  deref masha
  let gIA := d.sh.vG ira dir
  let gMB := d.sh.vG masha dir
  deref gIA
  if d.fl.gMeas gIA || d.fl.gGam gIA then skip d else do
  deref gMB
  if d.fl.gMeas gMB || d.fl.gGam gMB then skip d else do
  let vA := d.sh.gV gIA dir
  let vB := d.sh.gV gMB dir
  deref vA
  if d.co.spin vA IN ≠ d.co.spin vA OUT then skip d else do
  deref vB
  if d.co.spin vB IN ≠ d.co.spin vB OUT then skip d else do
  if d.sh.vW vA ≠ d.sh.vW vB then skip d else do
  let wAB := d.sh.vW vA
  deref wAB
  if d.fl.wMeas wAB || d.fl.wWorm wAB || (d.fl.wDelta wAB != isDelta) || d.fl.wGam wAB then skip d else do
  let gAC := d.sh.vG vA dir
  let gBD := d.sh.vG vB dir
  deref gAC
  deref gBD
  let vC := d.sh.gV gAC dir
  let vD := d.sh.gV gBD dir
  deref vC
  if d.co.r vA ≠ d.co.r vC then skip d else do
  deref vD
  if d.co.r vB ≠ d.co.r vD then skip d else do
  let kWorm := addK d.worm.k (mulK (sgn (d.sh.vDir vA)) (d.mo.wK wAB))
  let gICWeight := gW P d.ext (!dir) (d.co.r ira) (d.co.r vC) (d.co.tau ira) (d.co.tau vC)
    (d.co.spin ira dir) (d.co.spin vC (!dir)) (d.fl.gMeas gAC) (d.fl.gGam gAC)
  let gMDWeight := gW P d.ext (!dir) (d.co.r masha) (d.co.r vD) (d.co.tau masha) (d.co.tau vD)
    (d.co.spin masha dir) (d.co.spin vD (!dir)) (d.fl.gMeas gBD) (d.fl.gGam gBD)
  let ratio := (-1) * gICWeight * gMDWeight /
    (d.wt.gWt gIA * d.wt.gWt gMB * d.wt.gWt gAC * d.wt.gWt gBD * d.wt.wWt wAB)
  let rwNew ← orderRW P (d.order - 1)
  let rwOld ← orderRW P d.order
  let prob := P.mod ratio * delFactor P isDelta rwNew rwOld (d.co.tau vA) (d.co.tau vB)
  metropolis d d prob u do
    let ver1 ← d.Ver.remove vA
    let ver2 ← ver1.remove vB
    let gh1 ← removeGHash d.mo.gHash (d.mo.gK gIA)
    let g1 ← d.G.remove gIA
    let gh2 ← removeGHash gh1 (d.mo.gK gMB)
    let g2 ← g1.remove gMB
    let wh ← removeWHash d.mo.wHash (d.mo.wK wAB)
    let w1 ← d.W.remove wAB
    .ok { d with
      order := d.order - 1
      phase := d.phase * P.ph ratio
      weight := d.weight * ratio
      Ver := ver2, G := g2, W := w1
      sh := { d.sh with
        vG := upd2 (upd2 d.sh.vG ira dir gAC) masha dir gBD
        gV := upd2 (upd2 d.sh.gV gAC (!dir) ira) gBD (!dir) masha }
      mo := { d.mo with gHash := gh2, wHash := wh }
      wt := { d.wt with gWt := upd (upd d.wt.gWt gAC gICWeight) gBD gMDWeight }
      worm := { d.worm with k := kWorm } }

/-- `Markov::DeleteInteraction`, `markov.cpp` 757-837. -/
def delInteraction (P : Params Q F) (o : Words) (d : Diag Q F) : Res (Out Q F) :=
  if d.worm.exist = false then skip d
  else if d.order ≤ 1 then skip d else do
  let dir ← pickDir (o 0)
  delCore P d false dir (urn Q (o 1))

/-- `Markov::DeleteDeltaInteraction`, `markov.cpp` 966-1046. -/
def delDelta (P : Params Q F) (o : Words) (d : Diag Q F) : Res (Out Q F) :=
  if d.worm.exist = false then skip d
  else if d.order ≤ 1 then skip d else do
  let dir ← pickDir (o 0)
  delCore P d true dir (urn Q (o 1))

/-! ### Changing times -/

/-- `ChangeTauOnVertex` after the choices, `markov.cpp` 1056-1115. Moving the time of `ver` to `tau` with a
tadpole branch (`gin == gout`). In that branch `goutWeight` is not used. -/
def changeTauCore (P : Params Q F) (d : Diag Q F) (ver : ℕ) (tau u : Q) : Res (Out Q F) := do
  deref ver
  let w := d.sh.vW ver
  deref w
  if d.fl.wDelta w then skip d else do
  let gin := d.sh.vG ver IN
  let gout := d.sh.vG ver OUT
  deref gin
  let a := d.sh.gV gin IN
  deref a
  let ginWeight :=
    if gin = gout then
      gW0 P d.ext (d.co.r a) (d.co.r ver) tau tau (d.co.spin a OUT) (d.co.spin ver IN)
        (d.fl.gMeas gin) (d.fl.gGam gin)
    else
      gW0 P d.ext (d.co.r a) (d.co.r ver) (d.co.tau a) tau (d.co.spin a OUT) (d.co.spin ver IN)
        (d.fl.gMeas gin) (d.fl.gGam gin)
  deref gout
  let b := d.sh.gV gout OUT
  deref b
  let goutWeight :=
    gW0 P d.ext (d.co.r ver) (d.co.r b) tau (d.co.tau b) (d.co.spin ver OUT) (d.co.spin b IN)
      (d.fl.gMeas gout) (d.fl.gGam gout)
  let vW := d.sh.wV w (!d.sh.vDir ver)
  deref vW
  let wWeight :=
    if vW = ver then
      wW P d.ext (d.sh.vDir ver) (d.co.r ver) (d.co.r vW) tau tau (d.co.spin ver) (d.co.spin vW)
        (d.fl.wWorm w) (d.fl.wMeas w) (d.fl.wDelta w) (d.fl.wGam w)
    else
      wW P d.ext (d.sh.vDir ver) (d.co.r ver) (d.co.r vW) tau (d.co.tau vW) (d.co.spin ver) (d.co.spin vW)
        (d.fl.wWorm w) (d.fl.wMeas w) (d.fl.wDelta w) (d.fl.wGam w)
  let ratio :=
    if gin = gout then ginWeight * wWeight / (d.wt.gWt gin * d.wt.wWt w)
    else ginWeight * goutWeight * wWeight / (d.wt.gWt gin * d.wt.gWt gout * d.wt.wWt w)
  let prob := P.mod ratio * (probTau P (d.co.tau ver) / probTau P tau)
  metropolis d d prob u <| .ok
    { d with
      phase := d.phase * P.ph ratio
      weight := d.weight * ratio
      co := { d.co with tau := upd d.co.tau ver tau }
      wt := {
        gWt := if gout = gin then upd d.wt.gWt gin ginWeight
               else upd (upd d.wt.gWt gin ginWeight) gout goutWeight
        wWt := upd d.wt.wWt w wWeight } }

/-- `Markov::ChangeTauOnVertex`, `markov.cpp` 1051-1115. -/
def changeTau (P : Params Q F) (o : Words) (d : Diag Q F) : Res (Out Q F) :=
  if d.order = 0 ∨ d.worm.exist = true then skip d else do
  let ver ← d.Ver.pick (o 0)
  changeTauCore P d ver (pickTau P (o 1)) (urn Q (o 2))

/-- Common body of `ChangeDeltaToContinuous` (`markov.cpp` 1465-1514, `toDelta = false`, `tau` drawn) and
`ChangeContinuousToDelta` (1525-1574, `toDelta = true`, `tau = vin->Tau`): the line `w` gets
`IsDelta = toDelta` and its `OUT` vertex moves to the time `tau`. -/
def deltaCore (P : Params Q F) (d : Diag Q F) (toDelta : Bool) (w : ℕ) (tau factor u : Q) :
    Res (Out Q F) := do
  let vin := d.sh.wV w IN
  let vout := d.sh.wV w OUT
  deref vin
  deref vout
  let g1 := d.sh.vG vout IN
  let g2 := d.sh.vG vout OUT
  let wWeight := wW0 P d.ext (d.co.r vin) (d.co.r vout) (d.co.tau vin) tau (d.co.spin vin) (d.co.spin vout)
    (d.fl.wWorm w) (d.fl.wMeas w) toDelta (d.fl.wGam w)
  deref g1
  let a := d.sh.gV g1 IN
  deref a
  let g1Weight :=
    if g1 = g2 then
      gW0 P d.ext (d.co.r a) (d.co.r vout) tau tau (d.co.spin a OUT) (d.co.spin vout IN)
        (d.fl.gMeas g1) (d.fl.gGam g1)
    else
      gW0 P d.ext (d.co.r a) (d.co.r vout) (d.co.tau a) tau (d.co.spin a OUT) (d.co.spin vout IN)
        (d.fl.gMeas g1) (d.fl.gGam g1)
  deref g2
  let b := d.sh.gV g2 OUT
  deref b
  let g2Weight :=
    gW P d.ext OUT (d.co.r b) (d.co.r vout) (d.co.tau b) tau (d.co.spin b IN) (d.co.spin vout OUT)
      (d.fl.gMeas g2) (d.fl.gGam g2)
  let ratio :=
    if g1 = g2 then g1Weight * wWeight / (d.wt.gWt g1 * d.wt.wWt w)
    else g1Weight * g2Weight * wWeight / (d.wt.gWt g1 * d.wt.gWt g2 * d.wt.wWt w)
  let prob := P.mod ratio * factor
  metropolis d d prob u <| .ok
    { d with
      phase := d.phase * P.ph ratio
      weight := d.weight * ratio
      co := { d.co with tau := upd d.co.tau vout tau }
      fl := { d.fl with wDelta := upd d.fl.wDelta w toDelta }
      wt := {
        gWt := if g1 = g2 then upd d.wt.gWt g1 g1Weight
               else upd (upd d.wt.gWt g1 g1Weight) g2 g2Weight
        wWt := upd d.wt.wWt w wWeight } }

/-- `ChangeDeltaToContinuous` after the choices, `markov.cpp` 1465-1514. -/
def delta2contCore (P : Params Q F) (d : Diag Q F) (w : ℕ) (tau u : Q) : Res (Out Q F) := do
  deref w
  if !d.fl.wDelta w || d.fl.wMeas w || d.fl.wGam w then skip d else
  deltaCore P d false w tau (probOfCall P .cont2delta / (probOfCall P .delta2cont * probTau P tau)) u

/-- `Markov::ChangeDeltaToContinuous`, `markov.cpp` 1460-1514. -/
def delta2cont (P : Params Q F) (o : Words) (d : Diag Q F) : Res (Out Q F) :=
  if d.order < 2 ∨ d.worm.exist = true then skip d else do
  let w ← d.W.pick (o 0)
  delta2contCore P d w (pickTau P (o 1)) (urn Q (o 2))

/-- `ChangeContinuousToDelta` after the choice, `markov.cpp` 1525-1574. -/
def cont2deltaCore (P : Params Q F) (d : Diag Q F) (w : ℕ) (u : Q) : Res (Out Q F) := do
  deref w
  if d.fl.wDelta w || d.fl.wMeas w || d.fl.wGam w then skip d else do
  let vin := d.sh.wV w IN
  let vout := d.sh.wV w OUT
  deref vin
  deref vout
  deltaCore P d true w (d.co.tau vin)
    (probOfCall P .delta2cont * probTau P (d.co.tau vout) / probOfCall P .cont2delta) u

/-- `Markov::ChangeContinuousToDelta`, `markov.cpp` 1519-1574. -/
def cont2delta (P : Params Q F) (o : Words) (d : Diag Q F) : Res (Out Q F) :=
  if d.order < 2 ∨ d.worm.exist = true then skip d else do
  let w ← d.W.pick (o 0)
  cont2deltaCore P d w (urn Q (o 1))

/-! ### Moving a fermion loop -/

/-- The `while` loop of `ChangeRLoop`, `markov.cpp` 1276-1284. `cur` is `v[n]`, `vs` is `v[0..n-1]`, `fv` is
`flagVer` (`2 * MAX_ORDER` elements), `fw` is `flagW` (`MAX_ORDER` elements), `cap` counts the elements of
`v` after index `n`; writing behind the end is undefined. `none` is the early return on a different site. -/
def loopWalk (d : Diag Q F) (oldR : Site) :
    ℕ → ℕ → List ℕ → (ℕ → Bool) → (ℕ → ℕ) → Res (Option (List ℕ × (ℕ → ℕ)))
  | cap, cur, vs, fv, fw => do
    deref cur
    if ¬ d.Ver.name cur < 2 * MAX_ORDER then .ub
    else if fv (d.Ver.name cur) then .ok (some (vs, fw))
    else do
      let w := d.sh.vW cur
      deref w
      if ¬ d.W.name w < MAX_ORDER then .ub else do
      let g := d.sh.vG cur OUT
      deref g
      match cap with
      | 0 => .ub
      | cap + 1 => do
        let nxt := d.sh.gV g OUT
        deref nxt
        if d.co.r nxt ≠ oldR then .ok none
        else
          loopWalk d oldR cap nxt (vs ++ [cur]) (upd fv (d.Ver.name cur) true)
            (upd fw (d.W.name w) (fw (d.W.name w) + 1))

/-- One pass of the weight loop of `ChangeRLoop`, `markov.cpp` 1299-1330, over the collected vertices.
`i` is the loop index; entries are `(v[i], GWeight[i], WWeight[i])`. A counter other than 0, 1, 2 leaves
`WWeight[i]` at its initial value (`1` for `i = 0`, `0` otherwise, 1294). -/
def loopWeights (P : Params Q F) (d : Diag Q F) (newR : Site) :
    ℕ → List ℕ → (ℕ → ℕ) → F → F → Res (F × F × List (ℕ × F × F))
  | _, [], _, newW, oldW => .ok (newW, oldW, [])
  | i, v :: vs, fw, newW, oldW => do
    deref v
    let g := d.sh.vG v OUT
    deref g
    let b := d.sh.gV g OUT
    deref b
    let gWeight := gW0 P d.ext newR newR (d.co.tau v) (d.co.tau b) (d.co.spin v OUT) (d.co.spin b IN)
      (d.fl.gMeas g) (d.fl.gGam g)
    let newW := newW * gWeight
    let oldW := oldW * d.wt.gWt g
    let w := d.sh.vW v
    deref w
    if ¬ d.W.name w < MAX_ORDER then .ub else do
    let x := d.sh.wV w (!d.sh.vDir v)
    deref x
    let wFar := wW P d.ext (d.sh.vDir v) newR (d.co.r x) (d.co.tau v) (d.co.tau x) (d.co.spin v) (d.co.spin x)
      (d.fl.wWorm w) (d.fl.wMeas w) (d.fl.wDelta w) (d.fl.wGam w)
    let wNear := wW P d.ext (d.sh.vDir v) newR newR (d.co.tau v) (d.co.tau x) (d.co.spin v) (d.co.spin x)
      (d.fl.wWorm w) (d.fl.wMeas w) (d.fl.wDelta w) (d.fl.wGam w)
    if fw (d.W.name w) = 1 then do
      let (a, b, l) ← loopWeights P d newR (i + 1) vs fw (newW * wFar) (oldW * d.wt.wWt w)
      .ok (a, b, (v, gWeight, wFar) :: l)
    else if fw (d.W.name w) = 2 then do
      let (a, b, l) ← loopWeights P d newR (i + 1) vs (upd fw (d.W.name w) 0) (newW * wNear)
        (oldW * d.wt.wWt w)
      .ok (a, b, (v, gWeight, wNear) :: l)
    else if fw (d.W.name w) = 0 then do
      let (a, b, l) ← loopWeights P d newR (i + 1) vs fw newW oldW
      .ok (a, b, (v, gWeight, wNear) :: l)
    else do
      let (a, b, l) ← loopWeights P d newR (i + 1) vs fw newW oldW
      .ok (a, b, (v, gWeight, if i = 0 then 1 else 0) :: l)

/-- The assignments of one accepted loop entry, `markov.cpp` 1345-1349. -/
def loopAssign (newR : Site) (d : Diag Q F) (e : ℕ × F × F) : Diag Q F :=
  { d with
    co := { d.co with r := upd d.co.r e.1 newR }
    wt := { gWt := upd d.wt.gWt (d.sh.vG e.1 OUT) e.2.1, wWt := upd d.wt.wWt (d.sh.vW e.1) e.2.2 } }

/-- `ChangeRLoop` after the walk, `markov.cpp` 1289-1351. -/
def changeRLoopCore (P : Params Q F) (d : Diag Q F) (vs : List ℕ) (fw : ℕ → ℕ) (oldR newR : Site) (u : Q) :
    Res (Out Q F) := do
  let (newW, oldW, l) ← loopWeights P d newR 0 vs fw 1 1
  let ratio := newW / oldW
  let prob := P.mod ratio * (probSite P newR / probSite P oldR)
  metropolis d d prob u <| .ok
    (l.foldl (loopAssign newR) { d with phase := d.phase * P.ph ratio, weight := d.weight * ratio })

/-- `Markov::ChangeRLoop`, `markov.cpp` 1262-1351. `ASSERT_ALLWAYS(Order <= MAX_ORDER)` stops the program. -/
def changeRLoop (P : Params Q F) (o : Words) (d : Diag Q F) : Res (Out Q F) :=
  if d.order = 0 ∨ d.worm.exist = true then skip d
  else if ¬ P.maxOrd ≤ MAX_ORDER then .abort else do
  let v0 ← d.Ver.pick (o 0)
  deref v0
  let res ← loopWalk d (d.co.r v0) (2 * MAX_ORDER - 1) v0 [] (fun _ => false) (fun _ => 0)
  match res with
  | none => skip d
  | some (vs, fw) => do
    let newR ← pickSite P (o 1) (o 2) (o 3)
    changeRLoopCore P d vs fw (d.co.r v0) newR (urn Q (o 4))

/-! ### Changing the measuring line -/

/-- `ChangeMeasureFromGToW` after the choice, `markov.cpp` 1364-1403. -/
def g2wCore (P : Params Q F) (d : Diag Q F) (w : ℕ) (u : Q) : Res (Out Q F) := do
  deref w
  if d.fl.wDelta w then skip d else do
  let g := d.gMeasure
  deref g
  let a := d.sh.gV g IN
  let b := d.sh.gV g OUT
  deref a
  deref b
  let gWeight := gW0 P d.ext (d.co.r a) (d.co.r b) (d.co.tau a) (d.co.tau b)
    (d.co.spin a OUT) (d.co.spin a OUT) false false
  let x := d.sh.wV w IN
  let y := d.sh.wV w OUT
  deref x
  deref y
  let wWeight := wW0 P d.ext (d.co.r x) (d.co.r y) (d.co.tau x) (d.co.tau y) (d.co.spin x) (d.co.spin y)
    (d.fl.wWorm w) true (d.fl.wDelta w) false
  let ratio := gWeight * wWeight / (d.wt.gWt g * d.wt.wWt w)
  let prob := P.mod ratio * (1 / 2 * P.polarRW * probOfCall P .w2g / probOfCall P .g2w)
  metropolis d d prob u <| .ok
    { d with
      phase := d.phase * P.ph ratio
      weight := d.weight * ratio
      measG := false
      gMeasure := NULL
      wMeasure := w
      fl := { d.fl with gMeas := upd d.fl.gMeas g false, wMeas := upd d.fl.wMeas w true }
      wt := { gWt := upd d.wt.gWt g gWeight, wWt := upd d.wt.wWt w wWeight } }

/-- `Markov::ChangeMeasureFromGToW`, `markov.cpp` 1356-1403. -/
def g2w (P : Params Q F) (o : Words) (d : Diag Q F) : Res (Out Q F) :=
  if d.order = 0 ∨ d.worm.exist = true ∨ d.measG = false then skip d
  else if d.hasGamma ≠ 0 then skip d else do
  let w ← d.W.pick (o 0)
  g2wCore P d w (urn Q (o 1))

/-- `ChangeMeasureFromWToG` after the choice, `markov.cpp` 1417-1455. -/
def w2gCore (P : Params Q F) (d : Diag Q F) (g : ℕ) (u : Q) : Res (Out Q F) := do
  let w := d.wMeasure
  deref w
  if d.fl.wDelta w then skip d else do
  deref g
  let a := d.sh.gV g IN
  let b := d.sh.gV g OUT
  deref a
  deref b
  let gWeight := gW0 P d.ext (d.co.r a) (d.co.r b) (d.co.tau a) (d.co.tau b)
    (d.co.spin a OUT) (d.co.spin a OUT) true false
  let x := d.sh.wV w IN
  let y := d.sh.wV w OUT
  deref x
  deref y
  let wWeight := wW0 P d.ext (d.co.r x) (d.co.r y) (d.co.tau x) (d.co.tau y) (d.co.spin x) (d.co.spin y)
    (d.fl.wWorm w) false (d.fl.wDelta w) false
  let ratio := gWeight * wWeight / (d.wt.gWt g * d.wt.wWt w)
  let prob := P.mod ratio * (probOfCall P .g2w / (1 / 2 * P.polarRW * probOfCall P .w2g))
  metropolis d d prob u <| .ok
    { d with
      phase := d.phase * P.ph ratio
      weight := d.weight * ratio
      measG := true
      gMeasure := g
      wMeasure := NULL
      fl := { d.fl with gMeas := upd d.fl.gMeas g true, wMeas := upd d.fl.wMeas w false }
      wt := { gWt := upd d.wt.gWt g gWeight, wWt := upd d.wt.wWt w wWeight } }

/-- `Markov::ChangeMeasureFromWToG`, `markov.cpp` 1408-1455. -/
def w2g (P : Params Q F) (o : Words) (d : Diag Q F) : Res (Out Q F) :=
  if d.order = 0 ∨ d.worm.exist = true ∨ d.measG = true then skip d
  else if d.hasGamma ≠ 0 then skip d else do
  let g ← d.G.pick (o 0)
  w2gCore P d g (urn Q (o 1))

/-! ### Jumps between order 0 and order 1 -/

/-- `JumpToOrder0` after the first guards, `markov.cpp` 1584-1605. -/
def toOrder0Core (P : Params Q F) (d : Diag Q F) (u : Q) : Res (Out Q F) := do
  let v1 ← d.Ver.get 0
  let v2 ← d.Ver.get 1
  deref v1
  deref v2
  if d.co.r v1 ≠ d.co.r v2 then skip d else do
  let ratio := normWeight P / d.weight
  let rw0 ← orderRW P 0
  let rw1 ← orderRW P 1
  let prob := P.mod ratio * ((probOfCall P .backToOrder1 * probSite P (d.co.r v1) * probTau P (d.co.tau v1)
    * probTau P (d.co.tau v2) * (1 / 2) * (1 / 2) * rw0) / (probOfCall P .toOrder0 * rw1))
  metropolis d d prob u <| .ok
    { d with
      order := 0
      phase := d.phase * P.ph ratio
      weight := normWeight P }

/-- `Markov::JumpToOrder0`, `markov.cpp` 1576-1605. -/
def toOrder0 (P : Params Q F) (o : Words) (d : Diag Q F) : Res (Out Q F) :=
  if d.worm.exist = true ∨ d.order ≠ 1 then skip d
  else if d.hasGamma ≠ 0 then skip d
  else toOrder0Core P d (urn Q (o 0))

/-- `JumpBackToOrder1` after the choices, `markov.cpp` 1621-1661. -/
def backToOrder1Core (P : Params Q F) (d : Diag Q F) (r : Site) (tau1 tau2 : Q) (s1 s2 : Spin) (u : Q) :
    Res (Out Q F) := do
  let v1 ← d.Ver.get 0
  let v2 ← d.Ver.get 1
  deref v1
  deref v2
  let g1 := d.sh.vG v1 OUT
  let g2 := d.sh.vG v2 OUT
  let w1 := d.sh.vW v1
  deref g1
  deref g2
  deref w1
  let spinV1 : Dir → Spin := fun e => if e = OUT then s1 else s2
  let spinV2 : Dir → Spin := fun e => if e = OUT then s2 else s1
  let weightG1 := gW0 P d.ext r r tau1 tau2 s1 s1 (d.fl.gMeas g1) false
  let weightG2 := gW0 P d.ext r r tau2 tau1 s2 s2 (d.fl.gMeas g2) false
  let weightW := wW P d.ext (d.sh.vDir v1) r r tau1 tau2 spinV1 spinV2 false
    (d.fl.wMeas w1) (d.fl.wDelta w1) false
  let ratio := (-1) * weightG1 * weightG2 * weightW / d.weight
  let rw0 ← orderRW P 0
  let rw1 ← orderRW P 1
  let prob := P.mod ratio * (probOfCall P .toOrder0 * rw1 / (probOfCall P .backToOrder1 * rw0
    * probSite P r * probTau P tau1 * probTau P tau2 * (1 / 2) * (1 / 2)))
  metropolis d d prob u <| .ok
    { d with
      order := 1
      phase := d.phase * P.ph ratio
      weight := d.weight * ratio
      co := {
        r := upd (upd d.co.r v1 r) v2 r
        tau := upd (upd d.co.tau v1 tau1) v2 tau2
        spin := upd (upd d.co.spin v1 spinV1) v2 spinV2 }
      wt := {
        gWt := upd (upd d.wt.gWt g1 weightG1) g2 weightG2
        wWt := upd d.wt.wWt w1 weightW } }

/-- `Markov::JumpBackToOrder1`, `markov.cpp` 1607-1661. -/
def backToOrder1 (P : Params Q F) (o : Words) (d : Diag Q F) : Res (Out Q F) :=
  if d.hasGamma ≠ 0 then skip d
  else if d.worm.exist = true ∨ d.order ≠ 0 then skip d else do
  let r ← pickSite P (o 0) (o 1) (o 2)
  let s1 ← pickSpin (o 5)
  let s2 ← pickSpin (o 6)
  backToOrder1Core P d r (pickTau P (o 3)) (pickTau P (o 4)) s1 s2 (urn Q (o 7))

/-! ### Composite lines (`gamma3_updates.cpp`) -/

/-- Reweighting factor of composite lines, `gamma3_updates.cpp` 62-65. -/
def gammaRW (P : Params Q F) (measG : Bool) : Q := if measG then P.gammaGRW else P.gammaWRW

/-- `JumpToGGGammaG` after the choices, `gamma3_updates.cpp` 33-83. `UExt` is overwritten before the
acceptance test. -/
def toGGGammaGCore (P : Params Q F) (d : Diag Q F) (g : ℕ) (tauU u : Q) : Res (Out Q F) := do
  deref g
  if d.fl.gMeas g then skip d else do
  let a := d.sh.gV g IN
  let b := d.sh.gV g OUT
  deref a
  deref b
  let s := d.co.spin a OUT
  let e : Ext Q := ⟨tauU, d.co.r a, UP⟩
  let weight := gW0 P e (d.co.r a) (d.co.r b) (d.co.tau a) (d.co.tau b) s s false true
  let ratio := weight / d.wt.gWt g
  let prob := P.mod ratio * (probOfCall P .fromGGGammaG * 2 * (d.order : Q) /
    (probOfCall P .toGGGammaG * probTau P tauU)) * gammaRW P d.measG
  metropolis d { d with ext := e } prob u <| .ok
    { d with
      ext := e
      phase := d.phase * P.ph ratio
      weight := d.weight * ratio
      hasGamma := 1
      vin := .g g IN
      vout := .g g OUT
      fl := { d.fl with gGam := upd d.fl.gGam g true }
      wt := { d.wt with gWt := upd d.wt.gWt g weight } }

/-- `Markov::JumpToGGGammaG`, `gamma3_updates.cpp` 27-83. -/
def toGGGammaG (P : Params Q F) (o : Words) (d : Diag Q F) : Res (Out Q F) :=
  if d.order = 0 ∨ d.worm.exist = true ∨ d.hasGamma ≠ 0 then skip d else do
  let g ← d.G.pick (o 0)
  toGGGammaGCore P d g (pickTau P (o 1)) (urn Q (o 2))

/-- `JumpFromGGGammaGToG` after the guard, `gamma3_updates.cpp` 92-139. -/
def fromGGGammaGCore (P : Params Q F) (d : Diag Q F) (u : Q) : Res (Out Q F) := do
  let a ← d.vin.read d.sh
  let b ← d.vout.read d.sh
  deref a
  deref b
  let g := d.sh.vG a OUT
  if d.co.r a ≠ d.co.r b then skip d else do
  if d.ext.spin ≠ UP then skip d else do
  if d.co.r a ≠ d.ext.r then skip d else do
  deref g
  deref (d.sh.gV g IN)
  let s := d.co.spin (d.sh.gV g IN) OUT
  let weight := gW0 P d.ext (d.co.r a) (d.co.r b) (d.co.tau a) (d.co.tau b) s s false false
  let ratio := weight / d.wt.gWt g
  let prob := P.mod ratio * (probOfCall P .toGGGammaG * probTau P d.ext.tau /
    (probOfCall P .fromGGGammaG * 2 * (d.order : Q))) / gammaRW P d.measG
  metropolis d d prob u <| .ok
    { d with
      phase := d.phase * P.ph ratio
      weight := d.weight * ratio
      hasGamma := 0
      fl := { d.fl with gGam := upd d.fl.gGam g false }
      wt := { d.wt with gWt := upd d.wt.gWt g weight } }

/-- `Markov::JumpFromGGGammaGToG`, `gamma3_updates.cpp` 88-139. -/
def fromGGGammaG (P : Params Q F) (o : Words) (d : Diag Q F) : Res (Out Q F) :=
  if d.order = 0 ∨ d.worm.exist = true ∨ d.hasGamma ≠ 1 then skip d
  else fromGGGammaGCore P d (urn Q (o 0))

/-- `JumpToWWGammaW` after the choices, `gamma3_updates.cpp` 147-194. -/
def toWWGammaWCore (P : Params Q F) (d : Diag Q F) (w : ℕ) (tauU : Q) (rU : Site) (u : Q) :
    Res (Out Q F) := do
  deref w
  if d.fl.wMeas w then skip d else do
  if d.fl.wDelta w then skip d else do
  let a := d.sh.wV w IN
  let b := d.sh.wV w OUT
  let e : Ext Q := ⟨tauU, rU, UP⟩
  deref a
  deref b
  let weight := wW0 P e (d.co.r a) (d.co.r b) (d.co.tau a) (d.co.tau b) (d.co.spin a) (d.co.spin b)
    false false false true
  let ratio := weight / d.wt.wWt w
  let prob := P.mod ratio * (probOfCall P .fromWWGammaW * (d.order : Q) /
    (probOfCall P .toWWGammaW * probTau P tauU * probSite P rU)) * gammaRW P d.measG
  metropolis d { d with ext := e } prob u <| .ok
    { d with
      ext := e
      phase := d.phase * P.ph ratio
      weight := d.weight * ratio
      hasGamma := 2
      vin := .w w IN
      vout := .w w OUT
      fl := { d.fl with wGam := upd d.fl.wGam w true }
      wt := { d.wt with wWt := upd d.wt.wWt w weight } }

/-- `Markov::JumpToWWGammaW`, `gamma3_updates.cpp` 141-194. Draws: line, time, site. -/
def toWWGammaW (P : Params Q F) (o : Words) (d : Diag Q F) : Res (Out Q F) :=
  if d.order = 0 ∨ d.worm.exist = true ∨ d.hasGamma ≠ 0 then skip d else do
  let w ← d.W.pick (o 0)
  let rU ← pickSite P (o 2) (o 3) (o 4)
  toWWGammaWCore P d w (pickTau P (o 1)) rU (urn Q (o 5))

/-- `JumpFromWWGammaWToW` after the guard, `gamma3_updates.cpp` 200-240. -/
def fromWWGammaWCore (P : Params Q F) (d : Diag Q F) (u : Q) : Res (Out Q F) := do
  let a ← d.vin.read d.sh
  let b ← d.vout.read d.sh
  deref a
  let w := d.sh.vW a
  if d.ext.spin ≠ UP then skip d else do
  deref b
  let weight := wW0 P d.ext (d.co.r a) (d.co.r b) (d.co.tau a) (d.co.tau b) (d.co.spin a) (d.co.spin b)
    false false false false
  deref w
  let ratio := weight / d.wt.wWt w
  let prob := P.mod ratio * (probOfCall P .toWWGammaW * probTau P d.ext.tau * probSite P d.ext.r /
    (probOfCall P .fromWWGammaW * (d.order : Q))) / gammaRW P d.measG
  metropolis d d prob u <| .ok
    { d with
      phase := d.phase * P.ph ratio
      weight := d.weight * ratio
      hasGamma := 0
      fl := { d.fl with wGam := upd d.fl.wGam w false }
      wt := { d.wt with wWt := upd d.wt.wWt w weight } }

/-- `Markov::JumpFromWWGammaWToW`, `gamma3_updates.cpp` 196-240. -/
def fromWWGammaW (P : Params Q F) (o : Words) (d : Diag Q F) : Res (Out Q F) :=
  if d.order = 0 ∨ d.worm.exist = true ∨ d.hasGamma ≠ 2 then skip d
  else fromWWGammaWCore P d (urn Q (o 0))

/-! ### Dispatch -/

/-- The call made by `Hop` for each operation, `markov.cpp` 234-351. `CHANGE_R_VERTEX` and
`CHANGE_SPIN_VERTEX` are commented out there and do nothing. -/
def runOp (P : Params Q F) (op : Op) (o : Words) (d : Diag Q F) : Res (Out Q F) :=
  match op with
  | .createWorm => createWorm P o d
  | .deleteWorm => deleteWorm P o d
  | .moveWormG => moveWormG P o d
  | .moveWormW => moveWormW P o d
  | .reconnect => reconnect P o d
  | .addInteraction => addInteraction P o d
  | .delInteraction => delInteraction P o d
  | .addDelta => addDelta P o d
  | .delDelta => delDelta P o d
  | .changeTau => changeTau P o d
  | .changeRVertex => skip d
  | .changeRLoop => changeRLoop P o d
  | .g2w => g2w P o d
  | .w2g => w2g P o d
  | .delta2cont => delta2cont P o d
  | .cont2delta => cont2delta P o d
  | .changeSpin => skip d
  | .toOrder0 => toOrder0 P o d
  | .backToOrder1 => backToOrder1 P o d
  | .toGGGammaG => toGGGammaG P o d
  | .fromGGGammaG => fromGGGammaG P o d
  | .toWWGammaW => toWWGammaW P o d
  | .fromWWGammaW => fromWWGammaW P o d

end
end Feyn
