import Verif.Model.Env
import Verif.Spec.Monitor

/-!
# What the Monte Carlo process is about
-/

namespace Feyn
variable {Q F : Type} [Field Q] [LinearOrder Q] [FloorRing Q] [Field F] [Algebra Q F]

/-- A complete message. -/
def MessageDict.full (m : Message Q) : MessageDict Q := ⟨some m.version, some m.beta, some m.squeeze⟩

/-- Offering a sequence of files to `ListenToMessage`. -/
def listens (near : F → F → Bool) (e : Env Q F) : List (MsgFiles Q F) → Res (Env Q F)
  | [] => .ok e
  | f :: fs => (listen near e f).bind fun r => listens near r.2 fs

/-- The version and `beta` that count after a sequence of messages: those of the first message with the largest version, if this is larger
than the present one. -/
def newest (v : ℤ) (b : Q) : List (Message Q) → ℤ × Q
  | [] => (v, b)
  | m :: ms => if v < m.version then newest m.version m.beta ms else newest v b ms

/-- A process whose parts fit together: a state that a simulation can reach, a monitor for its parameters, and a time ratio for
each order. -/
structure Env.Ok (P₀ : Params Q F) (e : Env Q F) : Prop where
  reach : Reach P₀ e.chain
  fits : e.mon.Fits e.chain.P
  ratio : e.chain.P.maxOrd + 1 ≤ e.timeRatio.length

/-- Numbers of configurations counted at all orders but zero. -/
def Monitor.wormSum (n : ℕ) (m : Monitor Q F) : Q := ((List.range' 1 n).map m.wormAt).sum
/-- See `Monitor.wormSum`. -/
def Monitor.phySum (n : ℕ) (m : Monitor Q F) : Q := ((List.range' 1 n).map m.phyAt).sum

/-- A process that has counted configurations with and without worm, and whose factors are positive. -/
structure Env.Warm (e : Env Q F) : Prop where
  counts : e.mon.Counts
  worm : 0 < e.mon.wormSum e.chain.P.maxOrd
  phy : 0 < e.mon.phySum e.chain.P.maxOrd
  factors : e.chain.P.Positive
  ratios : ∀ x ∈ e.timeRatio, 0 < x

/-- Nothing new for a process at version `v`: no message is looked for, or it is unreadable, outdated, or comes without weights. -/
def Tick.Quiet (v : ℤ) (t : Tick Q F) : Prop :=
  t.message = true → t.files.message = none ∨
    ∃ m : Message Q, t.files.message = some (MessageDict.full m) ∧ (m.version ≤ v ∨ t.files.weights = none)

/-- A message that a process can follow: nothing new (see `Tick.Quiet`), or a temperature that is not higher, with a squeeze factor of at
least one, met in a state without composite lines in which no stale worm pointer names a vertex in use, and with weights that do
not vanish on the lines of the diagram. -/
def Tick.Fair (e : Env Q F) (t : Tick Q F) : Prop :=
  t.message = true → (e.chain.P.runGamma3 = false ∨ e.chain.d.hasGamma = 0) ∧
    (t.Quiet e.version ∨
      ∃ m w, t.files.message = some (MessageDict.full m) ∧ t.files.weights = some w ∧ e.chain.P.runGamma3 = false ∧
        e.chain.P.beta ≤ m.beta ∧ 1 ≤ m.squeeze ∧ NoStaleWorm e.chain.d ∧
        ∀ P' d', readGW t.files w { e.chain.P with beta := m.beta } = .ok P' → fixDiagram P' e.chain.d = .ok d' → LinesNonzero d')

variable [StarRing F]

/-- All messages looked at in a run of the main loop are fair for the state in which they are met. -/
def FairRun (near : F → F → Bool) (e : Env Q F) (step : ℕ) : List (Tick Q F) → Prop
  | [] => True
  | t :: ts =>
    (∀ e1 e2, e.sweep t.words = .ok e1 → e1.onPrint near t.print = .ok e2 → t.Fair e2) ∧
    ∀ e', mainStep near e (step + 1) t = .ok e' → FairRun near e' (step + 1) ts

end Feyn
