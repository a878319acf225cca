import Verif.Model.Chain
import Verif.Model.Rng

/-!
# The updates with the generator from which they draw (`module/markov/markov.cpp`, `module/markov/gamma3_updates.cpp`)

All random numbers of a process come from one generator, `Para.RNG`, to which `Markov::RNG` points (`markov.cpp` 106). Every call of `urn` and `irn` takes one word from it. In
`Model/Updates` the words of a call stand at fixed places; here every call draws them one after the other, where the code does, and a call that returns early draws fewer. Tests
that the code makes before it draws are made here before the body of the update, which makes them again. Citations are relative to `/repo/src/module/markov`.
-/

namespace Feyn

/-- A computation that draws words: `n` is the number of words of the sequence that have been drawn. -/
def Draw (α : Type) : Type := Words → ℕ → Res (α × ℕ)

instance : Monad Draw where
  pure a := fun _ n => .ok (a, n)
  bind x f := fun o n => x o n >>= fun p => f p.1 o p.2

/-- A computation without random numbers. -/
def Draw.lift {α : Type} (x : Res α) : Draw α := fun _ n => x >>= fun a => .ok (a, n)

/-- A word, and what is made from it. -/
def draw {α : Type} (f : Word → Res α) : Draw α := fun o n => f (o n) >>= fun a => .ok (a, n + 1)

section
variable {Q F : Type} [Field Q] [LinearOrder Q] [Field F]

/-- `RandomPickSite`, `markov.cpp` 1698-1704. -/
def drawSite (P : Params Q F) : Draw Site := do
  let x ← draw fun w => irn w 0 ((P.lx : ℤ) - 1)
  let y ← draw fun w => irn w 0 ((P.ly : ℤ) - 1)
  let s ← draw fun w => irn w 0 ((P.nsub : ℤ) - 1)
  return ⟨s, x, y⟩

/-- `RandomPickTau`, `markov.cpp` 1683-1686. -/
def drawTau (P : Params Q F) : Draw Q := draw fun w => .ok (pickTau P w)

/-- `return` before a proposal is made. -/
def giveUp (d : Diag Q F) : Draw (Out Q F) := Draw.lift (skip d)

/-- The rest of an update after its choices. `if (prob >= 1.0 || RNG->urn() < prob)` draws a word only if a proposal is made and `prob` is less than one. -/
def finish (f : Q → Res (Out Q F)) : Draw (Out Q F) := fun o n =>
  f (urn Q (o n)) >>= fun out => .ok (out, if out.tag = .skip ∨ 1 ≤ out.prob then n else n + 1)

/-- `CreateWorm`, `markov.cpp` 359-408. -/
def createWormD (P : Params Q F) (d : Diag Q F) : Draw (Out Q F) :=
  if d.order = 0 ∨ d.worm.exist = true then giveUp d else do
  let w ← draw d.W.pick
  let kWorm ← draw pickK
  let occ ← .lift (wHashCheck d.mo.wHash (subK (d.mo.wK w) kWorm))
  if occ then giveUp d else do
  let dspin ← draw pickDSpin
  finish (createWormCore P d w kWorm dspin)

/-- `DeleteWorm`, `markov.cpp` 413-451. -/
def deleteWormD (P : Params Q F) (d : Diag Q F) : Draw (Out Q F) :=
  if d.order = 0 ∨ d.worm.exist = false then giveUp d else finish (deleteWormCore P d)

/-- `MoveWormOnG`, `markov.cpp` 456-532. -/
def moveWormGD (P : Params Q F) (d : Diag Q F) : Draw (Out Q F) :=
  if d.order = 0 ∨ d.worm.exist = false then giveUp d else do
  let dir ← draw pickDir
  finish (moveWormGCore P d dir)

/-- `MoveWormOnW`, `markov.cpp` 537-576. -/
def moveWormWD (P : Params Q F) (d : Diag Q F) : Draw (Out Q F) :=
  if d.order = 0 ∨ d.worm.exist = false then giveUp d else finish (moveWormWCore P d)

/-- `Reconnect`, `markov.cpp` 581-629. -/
def reconnectD (P : Params Q F) (d : Diag Q F) : Draw (Out Q F) :=
  if d.order = 0 ∨ d.worm.exist = false then giveUp d else do
  .lift (deref d.worm.ira)
  .lift (deref d.worm.masha)
  if d.co.r d.worm.ira ≠ d.co.r d.worm.masha then giveUp d else do
  let dir ← draw pickDir
  finish (reconnectCore P d dir)

/-- The tests between the directions and the times in `AddInteraction` and `AddDeltaInteraction`, `markov.cpp` 650-660 and 858-868: is there a `return`? -/
def addTests (d : Diag Q F) (kW : ℤ) (dir dirW : Dir) : Res Bool := do
  deref d.worm.ira
  deref d.worm.masha
  let gIC := d.sh.vG d.worm.ira dir
  let gMD := d.sh.vG d.worm.masha dir
  deref gIC
  deref gMD
  let kIA := subK (d.mo.gK gIC) (mulK (sgn dir * sgn dirW) kW)
  let kMB := addK (d.mo.gK gMD) (mulK (sgn dir * sgn dirW) kW)
  let occ1 ← gHashCheck d.mo.gHash kIA
  if occ1 then .ok true else do
  let occ2 ← gHashCheck d.mo.gHash kMB
  if occ2 then .ok true else
  .ok (kIA = kMB)

/-- `AddInteraction`, `markov.cpp` 636-750. -/
def addInteractionD (P : Params Q F) (d : Diag Q F) : Draw (Out Q F) :=
  if d.worm.exist = false then giveUp d
  else if d.order = 0 ∨ d.order ≥ P.maxOrd then giveUp d else do
  let kW ← draw pickK
  let occ ← .lift (wHashCheck d.mo.wHash kW)
  if occ then giveUp d else do
  let dir ← draw pickDir
  let dirW ← draw pickDir
  let stop ← .lift (addTests d kW dir dirW)
  if stop then giveUp d else do
  let tauA ← drawTau P
  let tauB ← drawTau P
  finish (addCore P d false kW dir dirW tauA tauB)

/-- `DeleteInteraction`, `markov.cpp` 757-837. -/
def delInteractionD (P : Params Q F) (d : Diag Q F) : Draw (Out Q F) :=
  if d.worm.exist = false then giveUp d
  else if d.order ≤ 1 then giveUp d else do
  let dir ← draw pickDir
  finish (delCore P d false dir)

/-- `AddDeltaInteraction`, `markov.cpp` 844-959. -/
def addDeltaD (P : Params Q F) (d : Diag Q F) : Draw (Out Q F) :=
  if d.worm.exist = false then giveUp d
  else if d.order = 0 ∨ d.order ≥ P.maxOrd then giveUp d else do
  let kW ← draw pickK
  let occ ← .lift (wHashCheck d.mo.wHash kW)
  if occ then giveUp d else do
  let dir ← draw pickDir
  let dirW ← draw pickDir
  let stop ← .lift (addTests d kW dir dirW)
  if stop then giveUp d else do
  let tauA ← drawTau P
  finish (addCore P d true kW dir dirW tauA tauA)

/-- `DeleteDeltaInteraction`, `markov.cpp` 966-1046. -/
def delDeltaD (P : Params Q F) (d : Diag Q F) : Draw (Out Q F) :=
  if d.worm.exist = false then giveUp d
  else if d.order ≤ 1 then giveUp d else do
  let dir ← draw pickDir
  finish (delCore P d true dir)

/-- `ChangeTauOnVertex`, `markov.cpp` 1051-1115. -/
def changeTauD (P : Params Q F) (d : Diag Q F) : Draw (Out Q F) :=
  if d.order = 0 ∨ d.worm.exist = true then giveUp d else do
  let ver ← draw d.Ver.pick
  .lift (deref ver)
  let w := d.sh.vW ver
  .lift (deref w)
  if d.fl.wDelta w then giveUp d else do
  let tau ← drawTau P
  finish (changeTauCore P d ver tau)

/-- `ChangeRLoop`, `markov.cpp` 1262-1351. -/
def changeRLoopD (P : Params Q F) (d : Diag Q F) : Draw (Out Q F) :=
  if d.order = 0 ∨ d.worm.exist = true then giveUp d
  else if ¬ P.maxOrd ≤ MAX_ORDER then .lift .abort else do
  let v0 ← draw d.Ver.pick
  .lift (deref v0)
  let res ← .lift (loopWalk d (d.co.r v0) (2 * MAX_ORDER - 1) v0 [] (fun _ => false) (fun _ => 0))
  match res with
  | none => giveUp d
  | some (vs, fw) => do
    let newR ← drawSite P
    finish (changeRLoopCore P d vs fw (d.co.r v0) newR)

/-- `ChangeMeasureFromGToW`, `markov.cpp` 1356-1403. -/
def g2wD (P : Params Q F) (d : Diag Q F) : Draw (Out Q F) :=
  if d.order = 0 ∨ d.worm.exist = true ∨ d.measG = false then giveUp d
  else if d.hasGamma ≠ 0 then giveUp d else do
  let w ← draw d.W.pick
  finish (g2wCore P d w)

/-- `ChangeMeasureFromWToG`, `markov.cpp` 1408-1455. -/
def w2gD (P : Params Q F) (d : Diag Q F) : Draw (Out Q F) :=
  if d.order = 0 ∨ d.worm.exist = true ∨ d.measG = true then giveUp d
  else if d.hasGamma ≠ 0 then giveUp d else do
  let g ← draw d.G.pick
  finish (w2gCore P d g)

/-- `ChangeDeltaToContinuous`, `markov.cpp` 1460-1514. -/
def delta2contD (P : Params Q F) (d : Diag Q F) : Draw (Out Q F) :=
  if d.order < 2 ∨ d.worm.exist = true then giveUp d else do
  let w ← draw d.W.pick
  .lift (deref w)
  if !d.fl.wDelta w || d.fl.wMeas w || d.fl.wGam w then giveUp d else do
  let tau ← drawTau P
  finish (delta2contCore P d w tau)

/-- `ChangeContinuousToDelta`, `markov.cpp` 1519-1574. -/
def cont2deltaD (P : Params Q F) (d : Diag Q F) : Draw (Out Q F) :=
  if d.order < 2 ∨ d.worm.exist = true then giveUp d else do
  let w ← draw d.W.pick
  finish (cont2deltaCore P d w)

/-- `JumpToOrder0`, `markov.cpp` 1576-1605. -/
def toOrder0D (P : Params Q F) (d : Diag Q F) : Draw (Out Q F) :=
  if d.worm.exist = true ∨ d.order ≠ 1 then giveUp d
  else if d.hasGamma ≠ 0 then giveUp d
  else finish (toOrder0Core P d)

/-- `JumpBackToOrder1`, `markov.cpp` 1607-1661. -/
def backToOrder1D (P : Params Q F) (d : Diag Q F) : Draw (Out Q F) :=
  if d.hasGamma ≠ 0 then giveUp d
  else if d.worm.exist = true ∨ d.order ≠ 0 then giveUp d else do
  let r ← drawSite P
  let tau1 ← drawTau P
  let tau2 ← drawTau P
  let s1 ← draw pickSpin
  let s2 ← draw pickSpin
  finish (backToOrder1Core P d r tau1 tau2 s1 s2)

/-- `JumpToGGGammaG`, `gamma3_updates.cpp` 27-83. -/
def toGGGammaGD (P : Params Q F) (d : Diag Q F) : Draw (Out Q F) :=
  if d.order = 0 ∨ d.worm.exist = true ∨ d.hasGamma ≠ 0 then giveUp d else do
  let g ← draw d.G.pick
  .lift (deref g)
  if d.fl.gMeas g then giveUp d else do
  let tauU ← drawTau P
  finish (toGGGammaGCore P d g tauU)

/-- `JumpFromGGGammaGToG`, `gamma3_updates.cpp` 88-139. -/
def fromGGGammaGD (P : Params Q F) (d : Diag Q F) : Draw (Out Q F) :=
  if d.order = 0 ∨ d.worm.exist = true ∨ d.hasGamma ≠ 1 then giveUp d else finish (fromGGGammaGCore P d)

/-- `JumpToWWGammaW`, `gamma3_updates.cpp` 141-194. -/
def toWWGammaWD (P : Params Q F) (d : Diag Q F) : Draw (Out Q F) :=
  if d.order = 0 ∨ d.worm.exist = true ∨ d.hasGamma ≠ 0 then giveUp d else do
  let w ← draw d.W.pick
  .lift (deref w)
  if d.fl.wMeas w then giveUp d else do
  if d.fl.wDelta w then giveUp d else do
  let tauU ← drawTau P
  let rU ← drawSite P
  finish (toWWGammaWCore P d w tauU rU)

/-- `JumpFromWWGammaWToW`, `gamma3_updates.cpp` 196-240. -/
def fromWWGammaWD (P : Params Q F) (d : Diag Q F) : Draw (Out Q F) :=
  if d.order = 0 ∨ d.worm.exist = true ∨ d.hasGamma ≠ 2 then giveUp d else finish (fromWWGammaWCore P d)

/-- The call made by `Hop` for each operation, `markov.cpp` 234-351. -/
def runOpD (P : Params Q F) (op : Op) (d : Diag Q F) : Draw (Out Q F) :=
  match op with
  | .createWorm => createWormD P d
  | .deleteWorm => deleteWormD P d
  | .moveWormG => moveWormGD P d
  | .moveWormW => moveWormWD P d
  | .reconnect => reconnectD P d
  | .addInteraction => addInteractionD P d
  | .delInteraction => delInteractionD P d
  | .addDelta => addDeltaD P d
  | .delDelta => delDeltaD P d
  | .changeTau => changeTauD P d
  | .changeRVertex => giveUp d
  | .changeRLoop => changeRLoopD P d
  | .g2w => g2wD P d
  | .w2g => w2gD P d
  | .delta2cont => delta2contD P d
  | .cont2delta => cont2deltaD P d
  | .changeSpin => giveUp d
  | .toOrder0 => toOrder0D P d
  | .backToOrder1 => backToOrder1D P d
  | .toGGGammaG => toGGGammaGD P d
  | .fromGGGammaG => fromGGGammaGD P d
  | .toWWGammaW => toWWGammaWD P d
  | .fromWWGammaW => fromWWGammaWD P d

/-- One iteration of `Hop`, `markov.cpp` 231-353: the number `x` that chooses the operation is drawn first. -/
def hopOneSeq (c : Chain Q F) : Draw (Chain Q F) := do
  let x ← draw fun w => .ok (urn Q w)
  match selectOp c.P x with
  | none => return { c with counter := c.counter + 1 }
  | some op => do
    let out ← runOpD c.P op c.d
    return c.book op out

/-- `Markov::Hop(n)`, `markov.cpp` 229-354. -/
def hopSeq : ℕ → Chain Q F → Draw (Chain Q F)
  | 0, c => return c
  | n + 1, c => do
    let c ← hopOneSeq c
    hopSeq n c

/-- `Markov::Hop(n)` with the generator `g`: the new chain, and the generator after the words that were drawn. -/
def hopGen (n : ℕ) (c : Chain Q F) (g : Mt) : Res (Chain Q F × Mt) := do
  let p ← hopSeq n c (rngWords g) 0
  .ok (p.1, mtSkip p.2 g)

end
end Feyn
