import Verif.Model.Monitor
import Verif.Model.Check
import Verif.Model.Chain

/-!
# The Monte Carlo process (`environment/envMonteCarlo.cpp`, `main.cpp`)

MsgFiles are inputs: `none` stands for a file that cannot be read. Logging, files written and the Python interpreter are not modelled.
-/

namespace Feyn

/-- `para::Message`, `module/parameter/message.h` 17-26. -/
structure Message (Q : Type) where
  version : ℤ
  beta : Q
  squeeze : Q

/-- The dictionary in a readable message file; keys may be missing. -/
structure MessageDict (Q : Type) where
  version : Option ℤ
  beta : Option Q
  squeeze : Option Q

/-- `Message::Load`, `module/parameter/message.cpp` 12-26: `none` stands for `false`. A missing key raises an exception that nobody
catches. -/
def loadMessage {Q : Type} : Option (MessageDict Q) → Res (Option (Message Q))
  | none => .ok none
  | some d => match d.beta, d.version, d.squeeze with
    | some b, some v, some s => .ok (some ⟨v, b, s⟩)
    | _, _, _ => .abort

section
variable (Q F : Type)

/-- The tables of `GClass` and `WClass` (`component.h` 21-90) for one value of `beta`; see `Params`. -/
structure Tables where
  gMeasT : Spin → Spin → Site → Site → Q → Q → F
  gSmoothT : Spin → Spin → Site → Site → Q → Q → F
  wMeasT : (Dir → Spin) → (Dir → Spin) → Site → Site → Q → Q → F
  wDeltaT : (Dir → Spin) → (Dir → Spin) → Site → Site → F
  wMeasDeltaT : (Dir → Spin) → (Dir → Spin) → Site → Site → F
  wSmoothT : (Dir → Spin) → (Dir → Spin) → Site → Site → Q → Q → F

/-- A readable weight file: the tables under `G` and `W` (`none` if a key is missing), which are addressed with the `beta` of the
parameters, and the composite tables under `GGGammaG` and `WWGammaW`. -/
structure WeightFile where
  gw : Option (Q → Tables Q F)
  gg : Option (Spin → Spin → Site → Site → Q → Q → Ext Q → F)
  ww : Option ((Dir → Spin) → (Dir → Spin) → Site → Site → Q → Q → Ext Q → F)

/-- The files read by `ListenToMessage`. `fermi` and `bose` are the values of `Beta` in the two basis files; the other contents of the
basis files are only passed on to the composite interaction. -/
structure MsgFiles where
  message : Option (MessageDict Q)
  weights : Option (WeightFile Q F)
  fermi : Option Q
  bose : Option Q

end

/-- `EnvMonteCarlo`, `environment/environment.h` 19-42. `Para` is `version`, `temp` (the member `T`), `timeRatio` and `chain.P`. -/
structure Env (Q F : Type) [Field Q] [LinearOrder Q] [Field F] where
  version : ℤ
  temp : Q
  timeRatio : List Q
  chain : Chain Q F
  mon : Monitor Q F

section
variable {Q F : Type} [Field Q] [LinearOrder Q] [FloorRing Q] [Field F] [Algebra Q F]

/-- One basis file in `Weight::_LoadBasis`, `weight.cpp` 185-192 and 194-200. An unreadable file or a missing key raises an exception that
nobody catches. -/
def loadBasis (file : Option Q) (beta : Q) : Res Unit :=
  match file with
  | none => .abort
  | some b => if |b - beta| < 1 / 10000000000 then .ok () else .abort

/-- `Weight::FromDict`, `weight.cpp` 69-111, with the flag `GW`. `_LoadBasis` (183-201) has no return statement although it is declared to
return `bool`; nobody uses the value and it is taken to return. -/
def readGW (fs : MsgFiles Q F) (w : WeightFile Q F) (P : Params Q F) : Res (Params Q F) := do
  loadBasis fs.fermi P.beta
  loadBasis fs.bose P.beta
  match w.gw with
  | none => .abort
  | some t =>
    let t := t P.beta
    .ok { P with gMeasT := t.gMeasT, gSmoothT := t.gSmoothT, wMeasT := t.wMeasT, wDeltaT := t.wDeltaT,
                 wMeasDeltaT := t.wMeasDeltaT, wSmoothT := t.wSmoothT }

/-- The same with the flag `GammaGW`: a missing table of the composite propagator leaves the old one in place (the log says it becomes
zero), a missing table of the composite interaction aborts. -/
def readGammaGW (fs : MsgFiles Q F) (w : WeightFile Q F) (P : Params Q F) : Res (Params Q F) := do
  loadBasis fs.fermi P.beta
  loadBasis fs.bose P.beta
  let P := match w.gg with
    | none => P
    | some t => { P with gGamT := t }
  match w.ww with
  | none => .abort
  | some t => .ok { P with wGamT := t }

/-- `SigmaClass::Reset` and `PolarClass::Reset`, `component.cpp` 117-121 and 151-155. -/
def Measured.reset (s : Measured Q F) (beta : Q) : Measured Q F :=
  ⟨{ s.map with beta := beta }, s.est.anneal beta⟩

/-- `Weight::Anneal`, `weight.cpp` 61-67. `G` and `W` were built with the new `beta` already. The composite objects are not touched. -/
def Monitor.annealWeights (m : Monitor Q F) (beta : Q) : Monitor Q F :=
  { m with sigma := m.sigma.reset beta, polar := m.polar.reset beta }

/-- Lines 173-202 of `ListenToMessage`, after a new message and the weight file were read. `UpdateWithMessage` is `parameter.cpp` 23-28.
`Markov::Reset` and `MarkovMonitor::Reset` only reset pointers and copies. -/
def applyMessage (near : F → F → Bool) (e : Env Q F) (fs : MsgFiles Q F) (msg : Message Q) (w : WeightFile Q F) : Res (Env Q F) := do
  let P := { e.chain.P with beta := msg.beta }
  let P ← readGW fs w P
  let P ← if P.runGamma3 then readGammaGW fs w P else .ok P
  let mon := e.mon.annealWeights P.beta
  let d ← fixDiagram P e.chain.d
  let mon ← mon.squeeze P msg.squeeze
  let good ← checkDiagram near P d
  if good then
    .ok { e with version := msg.version, temp := 1 / msg.beta, chain := { e.chain with P := P, d := d }, mon := mon }
  else .abort

/-- `EnvMonteCarlo::ListenToMessage`, `envMonteCarlo.cpp` 151-205. While a composite line is present control reaches the end of the function
without a return statement. -/
def listen (near : F → F → Bool) (e : Env Q F) (fs : MsgFiles Q F) : Res (Bool × Env Q F) :=
  if !e.chain.P.runGamma3 || e.chain.d.hasGamma = 0 then do
    match ← loadMessage fs.message with
    | none => .ok (false, e)
    | some msg =>
      if e.version ≥ msg.version then .ok (false, e)
      else match fs.weights with
        | none => .ok (false, e)
        | some w => do
          let e ← applyMessage near e fs msg w
          .ok (true, e)
  else .ub

/-- What happens from outside during one pass of the main loop: the random words of the `Sweep` hops, which timers have run out, and the
files found by `ListenToMessage`. -/
structure Tick (Q F : Type) where
  words : List Words
  print : Bool
  save : Bool
  message : Bool
  reweight : Bool
  files : MsgFiles Q F

/-- `PrinterTimer`, `main.cpp` 102-108. -/
def Env.print (near : F → F → Bool) (e : Env Q F) : Res (Env Q F) := do
  let good ← checkDiagram near e.chain.P e.chain.d
  if good then do
    let P ← printReweight e.chain.P e.mon
    .ok { e with chain := { e.chain with P := P } }
  else .abort

/-- `DiskWriterTimer`, `main.cpp` 110-114 with `EnvMonteCarlo::Save`, `envMonteCarlo.cpp` 95-113. The state does not change; the contents
of the diagram are collected unless a composite line is present. -/
def Env.save (e : Env Q F) : Res (Option (DiagDict Q)) :=
  if e.chain.d.hasGamma = 0 then do
    let x ← toDict e.chain.d
    .ok (some x)
  else .ok none

/-- `main.cpp` 102-108 if the printer timer has run out. -/
def Env.onPrint (near : F → F → Bool) (b : Bool) (e : Env Q F) : Res (Env Q F) := if b then e.print near else .ok e

/-- `main.cpp` 110-114 if the writer timer has run out. -/
def Env.onSave (b : Bool) (e : Env Q F) : Res (Env Q F) :=
  if b then do
    let _ ← e.save
    .ok e
  else .ok e

/-- `main.cpp` 116-117; the value of `ListenToMessage` is not used. -/
def Env.onMessage (near : F → F → Bool) (b : Bool) (fs : MsgFiles Q F) (e : Env Q F) : Res (Env Q F) :=
  if b then do
    let r ← listen near e fs
    .ok r.2
  else .ok e

/-- `main.cpp` 119-120 with `EnvMonteCarlo::AdjustOrderReWeight`, `envMonteCarlo.cpp` 122-147. -/
def Env.onReweight (b : Bool) (e : Env Q F) : Res (Env Q F) :=
  if b then do
    let r ← adjust e.chain.P e.timeRatio e.mon
    .ok { e with chain := { e.chain with P := r.2 } }
  else .ok e

variable [StarRing F]

/-- `main.cpp` 84-94: `Hop`, `Measure` and the local counters. The local arrays `sigma` and `polar` have `MAX_ORDER` cells and are
only written. -/
def Env.sweep (e : Env Q F) (words : List Words) : Res (Env Q F) := do
  let c ← hop e.chain words
  let mon ← e.mon.measure c.P c.d
  if !c.d.worm.exist && c.d.order ≥ MAX_ORDER then .ub
  else .ok { e with chain := c, mon := mon }

/-- One pass of the main loop, `main.cpp` 83-121. `step` is the value of `Step` after its increment, a 32-bit counter.
`MarkovMonitor::AddStatistics` is empty. -/
def mainStep (near : F → F → Bool) (e : Env Q F) (step : ℕ) (t : Tick Q F) : Res (Env Q F) := do
  let e ← e.sweep t.words
  if step % 4294967296 % 100 = 0 then do
    let e ← e.onPrint near t.print
    let e ← e.onSave t.save
    let e ← e.onMessage near t.message t.files
    e.onReweight t.reweight
  else .ok e

/-- The main loop for as many passes as there are inputs. -/
def mainLoop (near : F → F → Bool) (e : Env Q F) (step : ℕ) : List (Tick Q F) → Res (Env Q F)
  | [] => .ok e
  | t :: ts => do
    let e ← mainStep near e (step + 1) t
    mainLoop near e (step + 1) ts

end
end Feyn
