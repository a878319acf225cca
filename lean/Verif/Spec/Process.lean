import Verif.Model.Process
import Verif.Spec.Env
import Verif.Spec.Transparent

/-!
# What restarts are about
-/

namespace Feyn

section
variable {Q F R : Type} [Field Q] [LinearOrder Q] [FloorRing Q] [Field F] [Algebra Q F]

/-- Sum and norm of an estimator. -/
def Est.sums (e : Est Q Q) : Q × Q := (e.accu, e.norm)

/-- Contents of a histogram. -/
structure HistoSeen (Q F : Type) where
  norm : Q
  normAccu : Q
  cells : ℤ
  perOrder : ℤ
  data : ℤ → F

/-- See `HistoSeen`; memory behind the last cell does not count. -/
def Histo.seen (h : Histo Q F) : HistoSeen Q F :=
  ⟨h.norm, h.normAccu, h.cells, h.perOrder, fun i => if 0 ≤ i ∧ i < h.cells then h.data i else 0⟩

/-- What can be seen of a process that does not simulate three-point functions: its parameters, its statistics (as far as results or
decisions depend on them), and its diagram as it would be saved, with order, weight and phase. -/
structure Seen (Q F : Type) [Field Q] [LinearOrder Q] [Field F] where
  version : ℤ
  temp : Q
  timeRatio : List Q
  par : Params Q F
  counter : ℕ
  config : Res (DiagDict Q)
  order : ℕ
  weight : F
  phase : F
  worm : List (Q × Q)
  phy : List (Q × Q)
  sigmaE : Q × Q
  polarE : Q × Q
  sigmaMap : IndexMap Q
  polarMap : IndexMap Q
  sigma : HistoSeen Q F
  polar : HistoSeen Q F

/-- See `Seen`. -/
def Env.seen (e : Env Q F) : Seen Q F where
  version := e.version
  temp := e.temp
  timeRatio := e.timeRatio
  par := e.chain.P
  counter := e.chain.counter
  config := toDict e.chain.d
  order := e.chain.d.order
  weight := e.chain.d.weight
  phase := e.chain.d.phase
  worm := e.mon.wormE.map Est.sums
  phy := e.mon.phyE.map Est.sums
  sigmaE := e.mon.sigmaE.sums
  polarE := e.mon.polarE.sums
  sigmaMap := e.mon.sigma.map
  polarMap := e.mon.polar.map
  sigma := e.mon.sigma.est.seen
  polar := e.mon.polar.est.seen

/-- Parameters for which the tables can be addressed: at least one time bin, and histograms whose size is a 32-bit number; and a time
ratio for every order, which nobody checks. -/
structure ParaMC.Usable (p : ParaMC Q R) : Prop where
  bins : 0 < p.bins
  fits : (p.order : ℤ) * (4 * p.nsub * 4 * p.nsub * (p.lx * p.ly) * p.bins) < 4294967296
  ratio : p.order + 1 ≤ p.timeRatio.length

/-- Both histograms were allocated at the present temperature. -/
def Env.SameBeta (e : Env Q F) : Prop := e.mon.sigma.est.beta = e.chain.P.beta ∧ e.mon.polar.est.beta = e.chain.P.beta

/-- The weight file contains the tables in use, and the basis files belong to the present temperature. -/
def Disk.Current (fs : Disk Q F R) (e : Env Q F) : Prop :=
  ∃ w, fs.weights = some w ∧ fs.readGW w e.chain.P = .ok e.chain.P

/-- A tick in which nothing happens but a look at the message file. -/
def lookTick (fs : MsgFiles Q F) : Tick Q F := ⟨[], false, false, true, false, fs⟩

/-- Nothing new for the whole time after a restart. -/
def QuietResume (v : ℤ) (fs : MsgFiles Q F) (ts : List (Tick Q F)) : Prop := (lookTick fs).Quiet v ∧ ∀ t ∈ ts, t.Quiet v

variable [StarRing F]

/-- All messages looked at after a restart are fair for the state in which they are met. -/
def FairResume (near : F → F → Bool) (e : Env Q F) (fs : MsgFiles Q F) (toss : List (List Words)) (ts : List (Tick Q F)) : Prop :=
  (lookTick fs).Fair e ∧
  ∀ r c, listen near e fs = .ok r → loopM hop r.2.chain toss = .ok c → FairRun near { r.2 with chain := c } 0 ts

/-- Processes that can be reached: a new process, a look at the message file, sweeps that are not measured, the main loop, and restarts
from the files that were saved, possibly with a new weight file. New parameters must be `Usable`, messages must be fair, and the
line weights of a diagram loaded with new tables must not vanish. -/
inductive Alive (M : Machine Q F R) (near : F → F → Bool) (P₀ : Params Q F) : Job Q F R → Prop where
  | start (mem : Memory Q F) (fs : Disk Q F R) (p : Job Q F R) : mem.diag.Fresh → Job.buildNew M mem fs = .ok p → p.para.Usable →
      p.env.chain.P = P₀ → p.env.chain.counter = 0 → Alive M near P₀ p
  | look (p : Job Q F R) (fs : MsgFiles Q F) (r : Bool × Env Q F) : Alive M near P₀ p → (lookTick fs).Fair p.env →
      listen near p.env fs = .ok r → Alive M near P₀ { p with env := r.2 }
  | toss (p : Job Q F R) (ws : List Words) (c : Chain Q F) : Alive M near P₀ p → hop p.env.chain ws = .ok c →
      Alive M near P₀ { p with env := { p.env with chain := c } }
  | run (p : Job Q F R) (n : ℕ) (ts : List (Tick Q F)) (e : Env Q F) : Alive M near P₀ p → FairRun near p.env n ts →
      mainLoop near p.env n ts = .ok e → Alive M near P₀ { p with env := e }
  | rng (p : Job Q F R) (r : R) : Alive M near P₀ p → Alive M near P₀ { p with rng := r }
  | restart (p p' : Job Q F R) (mem : Memory Q F) (fs : Disk Q F R) (f : ParaFile Q R) (s : Statis Q F) : Alive M near P₀ p →
      p.save = .ok (some (f, s)) → fs.para = some f → fs.statis = some s → mem.diag.Fresh → Job.load M mem fs = .ok p' →
      LinesNonzero p'.env.chain.d → Alive M near P₀ p'

end
end Feyn
