import Verif.Spec.Inv
import Verif.Model.Chain
import Verif.Model.DiagIO

/-!
# Executions of the simulation

A run starts with a freshly built diagram and then performs Monte Carlo hops with arbitrary random words,
changes of the reweighting factors (`MarkovMonitor::AdjustOrderReWeight`, `markov_monitor.cpp` 150-212, and
`PrintOrderReWeight` 112-147), annealing steps (new parameters and weight tables followed by
`Diagram::Reset`, `EnvMonteCarlo::ListenToMessage`, `environment/envMonteCarlo.cpp` 155-208) and restarts
(`EnvMonteCarlo::Save`, 97-117, which does nothing while a composite line is present, and
`EnvMonteCarlo::Load`, 58-95, in a new process; `Load` clears the tables of proposed and accepted
updates and takes the hop counter from the file).
-/

namespace Feyn

section
variable {Q F : Type} [Field Q] [LinearOrder Q] [Field F]

/-- The site of the two vertices of a new diagram, `diagram_IO.cpp` 172, 180-181. -/
def startSite : Site := ⟨0, 1, 0⟩

/-- What the start configuration needs from the weight tables and the lattice: its site is on the lattice
and its three lines have non-zero weights. -/
structure StartOk (P : Params Q F) : Prop where
  site : SiteIn P startSite
  gMeas : P.gMeasT UP UP startSite startSite 0 0 ≠ 0
  gSmooth : P.gSmoothT UP UP startSite startSite 0 0 ≠ 0
  wSmooth : P.wSmoothT spinUpUp spinUpUp startSite startSite 0 0 ≠ 0

/-- Parameters that differ only in the values of the reweighting factors. -/
def SameModel (P P' : Params Q F) : Prop :=
  ∃ (a : List Q) (b c e f : Q), a.length = P.orderRW.length ∧
    P' = { P with orderRW := a, wormRW := b, polarRW := c, gammaGRW := e, gammaWRW := f }

/-- Parameters of an annealing step: same lattice, not fewer orders, not a smaller `beta`. The tables are
arbitrary. -/
structure AnnealTo (P P' : Params Q F) : Prop where
  wf : P'.Wf
  lx : P'.lx = P.lx
  ly : P'.ly = P.ly
  nsub : P'.nsub = P.nsub
  beta : P.beta ≤ P'.beta
  maxOrd : P.maxOrd ≤ P'.maxOrd

/-- No vertex of the diagram is named by the worm pointers left behind by a deleted worm. -/
def NoStaleWorm (d : Diag Q F) : Prop :=
  d.worm.exist = true ∨ (d.worm.ira ∉ d.Ver.live ∧ d.worm.masha ∉ d.Ver.live)

/-- All line weights of the diagram are non-zero. -/
def LinesNonzero (d : Diag Q F) : Prop :=
  (∀ g ∈ d.G.live, d.wt.gWt g ≠ 0) ∧ (∀ w ∈ d.W.live, d.wt.wWt w ≠ 0)

/-- States that a simulation can reach. Annealing steps are restricted to diagrams without
stale worm pointers whose new line weights do not vanish; the other cases are treated separately. A restart may
read new weight tables as well. -/
inductive Reach (P₀ : Params Q F) : Chain Q F → Prop where
  | start (d₀ d : Diag Q F) : d₀.Fresh → buildNew P₀ d₀ = .ok d →
      Reach P₀ ⟨P₀, d, 0, fun _ _ => 0, fun _ _ => 0⟩
  | hop (c c' : Chain Q F) (o : Words) : Reach P₀ c → hopOne c o = .ok c' → Reach P₀ c'
  | reweight (c : Chain Q F) (P' : Params Q F) : Reach P₀ c → SameModel c.P P' → Reach P₀ { c with P := P' }
  | anneal (c : Chain Q F) (P' : Params Q F) (d' : Diag Q F) : Reach P₀ c → AnnealTo c.P P' →
      NoStaleWorm c.d → fixDiagram P' c.d = .ok d' → LinesNonzero d' →
      Reach P₀ { c with P := P', d := d' }
  | restart (c : Chain Q F) (P' : Params Q F) (dict : DiagDict Q) (d₀ d' : Diag Q F) (n : ℕ) : Reach P₀ c →
      AnnealTo c.P P' → c.d.hasGamma = 0 → toDict c.d = .ok dict → d₀.Fresh → loadDiagram P' dict d₀ = .ok d' →
      LinesNonzero d' → Reach P₀ ⟨P', d', n, fun _ _ => 0, fun _ _ => 0⟩

end
end Feyn
