import Verif.Spec.Run

/-!
# Further properties of diagrams: equal times of instantaneous lines, spin at interactions
-/

namespace Feyn

section
variable {Q F : Type} [Field Q] [LinearOrder Q] [Field F]

/-- Both ends of each instantaneous line have the same time. -/
def DeltaTau (d : Diag Q F) : Prop :=
  ∀ w ∈ d.W.live, d.fl.wDelta w = true → d.co.tau (d.sh.wV w IN) = d.co.tau (d.sh.wV w OUT)

/-- Spin as a number. -/
def spinVal (s : Spin) : ℤ := if s = UP then 1 else 0

/-- Spin that a vertex emits: outgoing minus incoming propagator. -/
def excess (spin : ℕ → Dir → Spin) (v : ℕ) : ℤ := spinVal (spin v OUT) - spinVal (spin v IN)

/-- Spin conservation at the interaction lines: the spins emitted at the two ends of a line cancel, except that
`masha` emits `dSpin` and `ira` absorbs it. -/
def SpinWF (W : Finset ℕ) (wV : ℕ → Dir → ℕ) (vW : ℕ → ℕ) (spin : ℕ → Dir → Spin) (exist : Bool) (ira masha : ℕ)
    (dSpin : ℤ) : Prop :=
  ∀ w ∈ W, excess spin (wV w IN) + excess spin (wV w OUT) =
    (if exist = true ∧ vW masha = w then dSpin else 0) - (if exist = true ∧ vW ira = w then dSpin else 0)

/-- The interaction line of `masha` could carry a new worm with the present `dSpin` if `ira` were back at its
`IN` end. -/
def WormSpinF (wV : ℕ → Dir → ℕ) (vW : ℕ → ℕ) (spin : ℕ → Dir → Spin) (exist : Bool) (ira masha : ℕ)
    (dSpin : ℤ) : Prop :=
  exist = true → excess spin (wV (vW masha) IN) - (if ira = wV (vW masha) IN then 0 else dSpin) ≠ dSpin

/-- `SpinWF` for a diagram. -/
def SpinWOk (d : Diag Q F) : Prop :=
  SpinWF d.W.live d.sh.wV d.sh.vW d.co.spin d.worm.exist d.worm.ira d.worm.masha d.worm.dSpin

/-- `WormSpinF` for a diagram. -/
def WormSpinOk (d : Diag Q F) : Prop :=
  WormSpinF d.sh.wV d.sh.vW d.co.spin d.worm.exist d.worm.ira d.worm.masha d.worm.dSpin

/-- Both ends of each fermion line are on the same site. -/
def SiteF (G : Finset ℕ) (gV : ℕ → Dir → ℕ) (r : ℕ → Site) : Prop := ∀ g ∈ G, ∀ e, r (gV g e) = r (gV g (!e))

/-- `SiteF` for a diagram. -/
def SiteGOk (d : Diag Q F) : Prop := SiteF d.G.live d.sh.gV d.co.r

/-- Executions in which no instantaneous line is present whenever a hop starts in the order-0 sector. -/
inductive ReachD (P₀ : Params Q F) : Chain Q F → Prop where
  | start (d₀ d : Diag Q F) : d₀.Fresh → buildNew P₀ d₀ = .ok d →
      ReachD P₀ ⟨P₀, d, 0, fun _ _ => 0, fun _ _ => 0⟩
  | hop (c c' : Chain Q F) (o : Words) : ReachD P₀ c →
      (c.d.order = 0 → ∀ w ∈ c.d.W.live, c.d.fl.wDelta w = false) → hopOne c o = .ok c' → ReachD P₀ c'
  | reweight (c : Chain Q F) (P' : Params Q F) : ReachD P₀ c → SameModel c.P P' → ReachD P₀ { c with P := P' }
  | anneal (c : Chain Q F) (P' : Params Q F) (d' : Diag Q F) : ReachD P₀ c → AnnealTo c.P P' →
      NoStaleWorm c.d → fixDiagram P' c.d = .ok d' → LinesNonzero d' →
      ReachD P₀ { c with P := P', d := d' }
  | restart (c : Chain Q F) (P' : Params Q F) (dict : DiagDict Q) (d₀ d' : Diag Q F) (n : ℕ) : ReachD P₀ c →
      AnnealTo c.P P' → c.d.hasGamma = 0 → toDict c.d = .ok dict → d₀.Fresh → loadDiagram P' dict d₀ = .ok d' →
      LinesNonzero d' → ReachD P₀ ⟨P', d', n, fun _ _ => 0, fun _ _ => 0⟩

end
end Feyn
