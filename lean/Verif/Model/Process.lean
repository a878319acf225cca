import Verif.Model.Env

/-!
# Files of the Monte Carlo process and restarts
(`module/parameter/parameter.cpp`, `environment/envMonteCarlo.cpp`, `main.cpp`)

A Python dictionary is a record with optional entries; the conversion of values is not modelled. `Dictionary::Get` on a missing key
(`utility/dictionary.h` 21-64) raises an exception that nobody catches, which ends the process. Sizes, counters and orders in a file
are non-negative. The state of the random number generator is an element of an abstract type `R`: the C++ standard says that the text form
written by `ToString(RandomFactory)` restores it (shown for the engine in C90). The logger is not modelled.
-/

namespace Feyn

/-- `GET`, `utility/dictionary.h`: a missing key ends the process. -/
def need {α : Type} : Option α → Res α
  | some a => .ok a
  | none => .abort

/-- `para::ParaMC`, `parameter.h` 22-66. `temp` is `T`; `Lat` is determined by `lx`, `ly` and `nsub`. -/
structure ParaMC (Q R : Type) where
  version : ℤ
  beta : Q
  temp : Q
  bins : ℕ
  binsTiny : ℕ
  order : ℕ
  nsub : ℕ
  lx : ℕ
  ly : ℕ
  counter : ℕ
  toss : ℕ
  sweep : ℕ
  seed : ℤ
  rng : R
  wormRW : Q
  polarRW : Q
  runGamma3 : Bool
  gammaGRW : Q
  gammaWRW : Q
  orderRW : List Q
  timeRatio : List Q
  printer : ℤ
  writer : ℤ
  message : ℤ
  reweight : ℤ

/-- Sub-dictionary `Tau`, `parameter.cpp` 33-36. -/
structure TauDict (Q : Type) where
  beta : Option Q
  bins : Option ℕ
  binsTiny : Option ℕ

/-- Sub-dictionary `Lattice`, `parameter.cpp` 37-42. -/
structure LatDict where
  nsub : Option ℕ
  size : Option (List ℕ)

/-- Sub-dictionary `Timer`, `parameter.cpp` 95-99. -/
structure TimerDict where
  printer : Option ℤ
  writer : Option ℤ
  message : Option ℤ
  reweight : Option ℤ

/-- Sub-dictionary `Markov`, `parameter.cpp` 75-99. -/
structure MarkovDict (Q R : Type) where
  toss : Option ℕ
  sweep : Option ℕ
  wormRW : Option Q
  polarRW : Option Q
  runGamma3 : Option Bool
  gammaGRW : Option Q
  gammaWRW : Option Q
  orderRW : Option (List Q)
  timeRatio : Option (List Q)
  order : Option ℕ
  counter : Option ℕ
  seed : Option ℤ
  rng : Option R
  timer : Option TimerDict

/-- The dictionary under the key `Para`. -/
structure ParaDict (Q R : Type) where
  version : Option ℤ
  tau : Option (TauDict Q)
  lattice : Option LatDict
  markov : Option (MarkovDict Q R)

section
variable {Q R : Type} [Field Q]

/-- `L`, `parameter.cpp` 40-42: the list must have `D = 2` entries. -/
def twoSizes : List ℕ → Res (ℕ × ℕ)
  | [a, b] => .ok (a, b)
  | _ => .abort

/-- `ParaMC::FromDict`, `parameter.cpp` 72-101, with `Parameter::_FromDict`, 30-48. `seeded s` is the generator seeded with `s`. -/
def ParaMC.fromDict (seeded : ℤ → R) (d : ParaDict Q R) : Res (ParaMC Q R) := do
  let version := d.version.getD 0
  let tau ← need d.tau
  let beta ← need tau.beta
  let bins ← need tau.bins
  let binsTiny ← need tau.binsTiny
  let lat ← need d.lattice
  let nsub ← need lat.nsub
  let size ← need lat.size
  let l ← twoSizes size
  let m ← need d.markov
  let toss ← need m.toss
  let sweep ← need m.sweep
  let wormRW ← need m.wormRW
  let polarRW ← need m.polarRW
  let runGamma3 ← need m.runGamma3
  let gammaGRW ← need m.gammaGRW
  let gammaWRW ← need m.gammaWRW
  let orderRW ← need m.orderRW
  let timeRatio ← need m.timeRatio
  let order ← need m.order
  let counter := m.counter.getD 0
  let seed := m.seed.getD 0
  let rng := m.rng.getD (seeded seed)
  if order < MAX_ORDER ∧ order + 1 ≤ orderRW.length then do
    let timer ← need m.timer
    let printer ← need timer.printer
    let writer ← need timer.writer
    let message ← need timer.message
    let reweight ← need timer.reweight
    .ok { version := version, beta := beta, temp := 1 / beta, bins := bins, binsTiny := binsTiny, order := order, nsub := nsub,
          lx := l.1, ly := l.2, counter := counter, toss := toss, sweep := sweep, seed := seed, rng := rng, wormRW := wormRW,
          polarRW := polarRW, runGamma3 := runGamma3, gammaGRW := gammaGRW, gammaWRW := gammaWRW, orderRW := orderRW,
          timeRatio := timeRatio, printer := printer, writer := writer, message := message, reweight := reweight }
  else .abort

/-- `ParaMC::ToDict`, `parameter.cpp` 102-128, with `Parameter::_ToDict`, 49-63. The seed is not saved. -/
def ParaMC.toDict (p : ParaMC Q R) : ParaDict Q R where
  version := some p.version
  tau := some ⟨some p.beta, some p.bins, some p.binsTiny⟩
  lattice := some ⟨some p.nsub, some [p.lx, p.ly]⟩
  markov := some
    { toss := some p.toss, sweep := some p.sweep, wormRW := some p.wormRW, polarRW := some p.polarRW,
      runGamma3 := some p.runGamma3, gammaGRW := some p.gammaGRW, gammaWRW := some p.gammaWRW, orderRW := some p.orderRW,
      timeRatio := some p.timeRatio, order := some p.order, counter := some p.counter, seed := none, rng := some p.rng,
      timer := some ⟨some p.printer, some p.writer, some p.message, some p.reweight⟩ }

end

/-- Dictionary of an estimator, `estimator.cpp` 223-251. The entry `Estimation` is never read. -/
structure EstDict (Q : Type) where
  hist : Option (List Q)
  accu : Option Q
  norm : Option Q

/-- Dictionary of a histogram, `weight_estimator.cpp` 74-93: an array of shape `orders :: shape`. -/
structure HistoDict (Q F : Type) where
  norm : Option Q
  normAccu : Option Q
  array : Option (ℤ × List ℤ × (ℤ → F))

/-- The statistics file, `envMonteCarlo.cpp` 104-111. A histogram is addressed by `Histogram/SmoothT` below `Sigma` or `Polar`. The
bundles have one entry for each order (`Order0`, `Order1`, …), which may be missing. The entries for three-point functions are left out:
a process that simulates them does not get this far (see `Job.load`). -/
structure Statis (Q F : Type) where
  sigma : Option (HistoDict Q F)
  polar : Option (HistoDict Q F)
  worm : Option (ℕ → Option (EstDict Q))
  phy : Option (ℕ → Option (EstDict Q))
  sigmaE : Option (EstDict Q)
  polarE : Option (EstDict Q)

/-- The parameter file: `Para` and `Config`. -/
structure ParaFile (Q R : Type) where
  para : Option (ParaDict Q R)
  config : Option (DiagDict Q)

/-- The files that a process reads when it starts; `none` stands for a file that cannot be read. `para` is the file the process wrote
before, `input` the one written by the user. `fermi` and `bose` as in `MsgFiles`. -/
structure Disk (Q F R : Type) where
  para : Option (ParaFile Q R)
  input : Option (ParaFile Q R)
  weights : Option (WeightFile Q F)
  statis : Option (Statis Q F)
  fermi : Option Q
  bose : Option Q

/-- What is the same on all machines: absolute value and phase of complex numbers, and the generator for a seed. -/
structure Machine (Q F R : Type) [Field Q] [LinearOrder Q] [Field F] where
  mod : AbsoluteValue F Q
  ph : F →*₀ F
  seeded : ℤ → R

/-- The contents of the memory in which a new process builds its objects. -/
structure Memory (Q F : Type) [Field Q] [LinearOrder Q] [Field F] where
  diag : Diag Q F
  worm : ℕ → ℕ → Q
  phy : ℕ → ℕ → Q
  sigmaE : ℕ → Q
  polarE : ℕ → Q
  gammaGE : ℕ → Q
  gammaWE : ℕ → Q
  sigma : ℤ → F
  polar : ℤ → F

/-- A process: `Env` and the parameters that are only kept. -/
structure Job (Q F R : Type) [Field Q] [LinearOrder Q] [Field F] where
  env : Env Q F
  bins : ℕ
  binsTiny : ℕ
  toss : ℕ
  sweep : ℕ
  seed : ℤ
  rng : R
  printer : ℤ
  writer : ℤ
  message : ℤ
  reweight : ℤ

section
variable {Q F R : Type} [Field Q] [LinearOrder Q] [FloorRing Q] [Field F] [Algebra Q F]

/-- The member `Para` of a process. -/
def Job.para (p : Job Q F R) : ParaMC Q R where
  version := p.env.version
  beta := p.env.chain.P.beta
  temp := p.env.temp
  bins := p.bins
  binsTiny := p.binsTiny
  order := p.env.chain.P.maxOrd
  nsub := p.env.chain.P.nsub
  lx := p.env.chain.P.lx
  ly := p.env.chain.P.ly
  counter := p.env.chain.counter
  toss := p.toss
  sweep := p.sweep
  seed := p.seed
  rng := p.rng
  wormRW := p.env.chain.P.wormRW
  polarRW := p.env.chain.P.polarRW
  runGamma3 := p.env.chain.P.runGamma3
  gammaGRW := p.env.chain.P.gammaGRW
  gammaWRW := p.env.chain.P.gammaWRW
  orderRW := p.env.chain.P.orderRW
  timeRatio := p.env.timeRatio
  printer := p.printer
  writer := p.writer
  message := p.message
  reweight := p.reweight

/-- The parameters as the Markov chain sees them, before any table was read. The tables of the composite lines are null pointers, which
are never followed unless three-point functions are simulated; the model gives them the value zero. -/
def ParaMC.params (M : Machine Q F R) (p : ParaMC Q R) : Params Q F where
  beta := p.beta
  maxOrd := p.order
  runGamma3 := p.runGamma3
  lx := p.lx
  ly := p.ly
  nsub := p.nsub
  orderRW := p.orderRW
  wormRW := p.wormRW
  polarRW := p.polarRW
  gammaGRW := p.gammaGRW
  gammaWRW := p.gammaWRW
  gMeasT := fun _ _ _ _ _ _ => 0
  gSmoothT := fun _ _ _ _ _ _ => 0
  gGamT := fun _ _ _ _ _ _ _ => 0
  wMeasT := fun _ _ _ _ _ _ => 0
  wDeltaT := fun _ _ _ _ => 0
  wMeasDeltaT := fun _ _ _ _ => 0
  wSmoothT := fun _ _ _ _ _ _ => 0
  wGamT := fun _ _ _ _ _ _ _ => 0
  mod := M.mod
  ph := M.ph

/-- `Estimator<real>::FromDict`, `estimator.cpp` 223-236. -/
def Est.fromDict (e : Est Q Q) (d : EstDict Q) : Res (Est Q Q) := do
  let hist ← need d.hist
  if hist.length > HISTORY then .ub
  else do
    let accu ← need d.accu
    let norm ← need d.norm
    let e ← e.load hist accu norm
    .ok e.updateReal

/-- `Estimator<real>::ToDict`, `estimator.cpp` 238-251. -/
def Est.toDict (e : Est Q Q) : EstDict Q := ⟨some e.save.1, some e.save.2.1, some e.save.2.2⟩

/-- `EstimatorBundle::FromDict` with `AllowFailure`, `estimator.cpp` 300-309, on a bundle of estimators `es` of the orders from `i` on:
estimators without entry are left alone. -/
def bundleFromDict (d : ℕ → Option (EstDict Q)) : ℕ → List (Est Q Q) → Res (List (Est Q Q))
  | _, [] => .ok []
  | i, e :: es => do
    let e ← match d i with
      | none => .ok e
      | some x => e.fromDict x
    let es ← bundleFromDict d (i + 1) es
    .ok (e :: es)

/-- `EstimatorBundle::ToDict`, `estimator.cpp` 311-318. -/
def bundleToDict (es : List (Est Q Q)) (i : ℕ) : Option (EstDict Q) := (es[i]?).map Est.toDict

/-- The constructors of `SigmaClass` and `PolarClass`, `component.cpp` 100-105 and 137-141, as called by `_AllocateSigmaPolar`,
`weight.cpp` 165-172; `Norm` is `NormFactor`, `weight.cpp` 48 and 73. -/
def Measured.allocate (p : ParaMC Q R) (sp sym : ℤ) (junk : ℤ → F) : Res (Measured Q F) := do
  let map : IndexMap Q := ⟨p.beta, p.bins, [(p.lx : ℤ), (p.ly : ℤ)], p.nsub, sp, sym⟩
  let est ← Histo.allocate p.beta p.bins (p.lx * p.ly) map.sizeSmooth p.order ((p.lx * p.ly * p.nsub : ℕ) : Q) junk
  .ok ⟨map, est⟩

/-- `SigmaClass::FromDict` and `PolarClass::FromDict`, `component.cpp` 123-126 and 157-160, with `WeightEstimator::FromDict`,
`weight_estimator.cpp` 74-84. An array of another dimension reads out of bounds or is copied without regard to its shape; the model
takes it as undefined. -/
def Measured.fromDict (s : Measured Q F) (d : HistoDict Q F) : Res (Measured Q F) := do
  let norm ← need d.norm
  let normAccu ← need d.normAccu
  let a ← need d.array
  if a.2.1.length ≠ s.map.smoothShape.length then .ub
  else if a.2.1 ≠ s.map.smoothShape then .abort
  else do
    let est ← s.est.load norm normAccu a.1 a.2.2
    .ok { s with est := est }

/-- `SigmaClass::ToDict` and `PolarClass::ToDict`, `component.cpp` 128-133 and 162-167, with `weight_estimator.cpp` 86-93. The array was
allocated for `order` orders. -/
def Measured.toDict (s : Measured Q F) (order : ℕ) : HistoDict Q F :=
  ⟨some s.est.norm, some s.est.normAccu, some (order, s.map.smoothShape, s.est.data)⟩

/-- `EnvMonteCarlo::Save`, `envMonteCarlo.cpp` 95-113. -/
def Job.save (p : Job Q F R) : Res (Option (ParaFile Q R × Statis Q F)) := do
  match ← p.env.save with
  | none => .ok none
  | some config =>
    let m := p.env.mon
    .ok (some
      (⟨some p.para.toDict, some config⟩,
       { sigma := some (m.sigma.toDict p.env.chain.P.maxOrd), polar := some (m.polar.toDict p.env.chain.P.maxOrd),
         worm := some (bundleToDict m.wormE), phy := some (bundleToDict m.phyE),
         sigmaE := some m.sigmaE.toDict, polarE := some m.polarE.toDict }))

/-- The bundles as `AddEstimator` fills them, `markov_monitor.cpp` 32-35 and 59-62. -/
def newBundle (n : ℕ) (junk : ℕ → ℕ → Q) : List (Est Q Q) := (List.range (n + 1)).map fun i => Est.new (junk i)

/-- `Weight::FromDict`, `weight.cpp` 69-111, with the flag `GW`, for a new process. -/
def Disk.readGW (fs : Disk Q F R) (w : WeightFile Q F) (P : Params Q F) : Res (Params Q F) :=
  Feyn.readGW ⟨none, none, fs.fermi, fs.bose⟩ w P

/-- `_LoadBasis` in a later call of `Weight::FromDict` or `Weight::BuildNew`, `weight.cpp` 45 and 71. -/
def Disk.basis (fs : Disk Q F R) (beta : Q) : Res Unit := do
  loadBasis fs.fermi beta
  loadBasis fs.bose beta

/-- The process made of its parts. `Markov::BuildNew` (`markov.cpp` 31-85) clears the tables of proposed and accepted updates. -/
def Job.make (p : ParaMC Q R) (P : Params Q F) (d : Diag Q F) (mon : Monitor Q F) : Job Q F R where
  env :=
    { version := p.version, temp := p.temp, timeRatio := p.timeRatio,
      chain := ⟨P, d, p.counter, fun _ _ => 0, fun _ _ => 0⟩, mon := mon }
  bins := p.bins
  binsTiny := p.binsTiny
  toss := p.toss
  sweep := p.sweep
  seed := p.seed
  rng := p.rng
  printer := p.printer
  writer := p.writer
  message := p.message
  reweight := p.reweight

/-- `EnvMonteCarlo::BuildNew`, `envMonteCarlo.cpp` 26-52. With `runGamma3`, `_AllocateGammaGW` (`weight.cpp` 174-181) tests the pointers
`GammaG` and `GammaW`, which the constructor (18-25) does not initialise. The parameter file written at the end is not used by the model. -/
def Job.buildNew (M : Machine Q F R) (mem : Memory Q F) (fs : Disk Q F R) : Res (Job Q F R) := do
  let f ← need fs.input
  let pd ← need f.para
  let p ← ParaMC.fromDict M.seeded pd
  let w ← need fs.weights
  let P ← fs.readGW w (p.params M)
  if p.runGamma3 then .ub
  else do
    fs.basis p.beta
    if p.order = 0 then .abort
    else do
      let sigma ← Measured.allocate p 2 (-1) mem.sigma
      let polar ← Measured.allocate p 4 1 mem.polar
      let d ← Feyn.buildNew P mem.diag
      .ok (Job.make p P d
        { wormE := newBundle p.order mem.worm, phyE := newBundle p.order mem.phy, sigmaE := Est.new mem.sigmaE,
          polarE := Est.new mem.polarE, gammaGE := Est.new mem.gammaGE, gammaWE := Est.new mem.gammaWE,
          sigma := { sigma with est := sigma.est.clear }, polar := { polar with est := polar.est.clear },
          gammaG := none, gammaW := none })

/-- The diagram of a restarted process, `envMonteCarlo.cpp` 86-89: without parameter file a new one. -/
def loadConfig (P : Params Q F) (f : ParaFile Q R) (found : Bool) (d : Diag Q F) : Res (Diag Q F) :=
  if found then do
    let config ← need f.config
    loadDiagram P config d
  else Feyn.buildNew P d

/-- The file that `EnvMonteCarlo::Load` reads, `envMonteCarlo.cpp` 61-73. -/
def Disk.paraFile (fs : Disk Q F R) : Res (ParaFile Q R × Bool) :=
  match fs.para with
  | some f => .ok (f, true)
  | none => do
    let f ← need fs.input
    .ok (f, false)

/-- `MarkovMonitor::FromDict`, `markov_monitor.cpp` 54-79, without three-point functions. -/
def Monitor.fromDict (mem : Memory Q F) (order : ℕ) (sigma polar : Measured Q F) (st : Statis Q F) : Res (Monitor Q F) := do
  let x ← need st.worm
  let wormE ← bundleFromDict x 0 (newBundle order mem.worm)
  let x ← need st.phy
  let phyE ← bundleFromDict x 0 (newBundle order mem.phy)
  let x ← need st.sigmaE
  let sigmaE ← (Est.new mem.sigmaE).fromDict x
  let x ← need st.polarE
  let polarE ← (Est.new mem.polarE).fromDict x
  .ok { wormE := wormE, phyE := phyE, sigmaE := sigmaE, polarE := polarE, gammaGE := Est.new mem.gammaGE,
        gammaWE := Est.new mem.gammaWE, sigma := sigma, polar := polar, gammaG := none, gammaW := none }

/-- `EnvMonteCarlo::Load`, `envMonteCarlo.cpp` 58-93. For `runGamma3` see `Job.buildNew`. There is no test for order zero: the
allocation of the histograms divides by it. -/
def Job.load (M : Machine Q F R) (mem : Memory Q F) (fs : Disk Q F R) : Res (Job Q F R) := do
  let f ← fs.paraFile
  let pd ← need f.1.para
  let p ← ParaMC.fromDict M.seeded pd
  let w ← need fs.weights
  let st ← need fs.statis
  let P ← fs.readGW w (p.params M)
  fs.basis p.beta
  let sigma ← Measured.allocate p 2 (-1) mem.sigma
  let polar ← Measured.allocate p 4 1 mem.polar
  let x ← need st.sigma
  let sigma ← sigma.fromDict x
  let x ← need st.polar
  let polar ← polar.fromDict x
  if p.runGamma3 then .ub
  else do
    let d ← loadConfig P f.1 f.2 mem.diag
    let mon ← Monitor.fromDict mem p.order sigma polar st
    .ok (Job.make p P d mon)

variable [StarRing F]

/-- `MonteCarlo` after `Load` or `BuildNew`, `main.cpp` 71-121: a look at the message file, `Toss` sweeps that are not measured,
and the main loop. -/
def Env.resume (near : F → F → Bool) (e : Env Q F) (fs : MsgFiles Q F) (toss : List (List Words)) (ts : List (Tick Q F)) :
    Res (Env Q F) := do
  let r ← listen near e fs
  let c ← loopM hop r.2.chain toss
  mainLoop near { r.2 with chain := c } 0 ts

end
end Feyn
