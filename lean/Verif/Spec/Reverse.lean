import Mathlib.Data.Set.Function
import Verif.Spec.Extra

/-!
# Specification of detailed balance

A `Move` is an update together with all its random choices. For each move there is the move that undoes it
(`Move.rev`). Detailed balance says: the acceptance ratio of a move is the quotient of the target distribution
(`target`) times the densities with which the move and its reverse are proposed (`Move.density`).

The times that the generator can produce are finitely many; here a time is any number of the interval, drawn with
density `1 / beta`.
-/

namespace Feyn

/-- An update with its random choices. -/
inductive Move (Q : Type) where
  | createWorm (w : ℕ) (k s : ℤ)
  | deleteWorm
  | moveWormG (dir : Dir)
  | moveWormW
  | reconnect (dir : Dir)
  | add (delta : Bool) (k : ℤ) (dir dirW : Dir) (tA tB : Q)
  | del (delta : Bool) (dir : Dir)
  | changeTau (v : ℕ) (t : Q)
  | changeRLoop (v : ℕ) (r : Site)
  | g2w (w : ℕ)
  | w2g (g : ℕ)
  | delta2cont (w : ℕ) (t : Q)
  | cont2delta (w : ℕ)
  | toOrder0
  | backToOrder1 (r : Site) (t1 t2 : Q) (s1 s2 : Spin)
  | toGGGammaG (g : ℕ) (t : Q)
  | fromGGGammaG
  | toWWGammaW (w : ℕ) (t : Q) (r : Site)
  | fromWWGammaW

section
variable {Q F : Type} [Field Q] [LinearOrder Q] [Field F]

/-- The update a move belongs to. -/
def Move.op : Move Q → Op
  | .createWorm .. => .createWorm
  | .deleteWorm => .deleteWorm
  | .moveWormG _ => .moveWormG
  | .moveWormW => .moveWormW
  | .reconnect _ => .reconnect
  | .add δ .. => if δ then .addDelta else .addInteraction
  | .del δ _ => if δ then .delDelta else .delInteraction
  | .changeTau .. => .changeTau
  | .changeRLoop .. => .changeRLoop
  | .g2w _ => .g2w
  | .w2g _ => .w2g
  | .delta2cont .. => .delta2cont
  | .cont2delta _ => .cont2delta
  | .toOrder0 => .toOrder0
  | .backToOrder1 .. => .backToOrder1
  | .toGGGammaG .. => .toGGGammaG
  | .fromGGGammaG => .fromGGGammaG
  | .toWWGammaW .. => .toWWGammaW
  | .fromWWGammaW => .fromWWGammaW

/-- The update of a move is called, and the choices are in the ranges from which they are drawn. -/
def Move.Valid (P : Params Q F) (d : Diag Q F) (m : Move Q) : Prop :=
  m.op.idx < numOps P ∧
  match m with
  | .createWorm w k s => w ∈ d.W.live ∧ InK k ∧ (s = 1 ∨ s = -1)
  | .add δ k _ _ tA tB => InK k ∧ TauIn P tA ∧ TauIn P tB ∧ (δ = true → tB = tA)
  | .changeTau v t => v ∈ d.Ver.live ∧ TauIn P t
  | .changeRLoop v r => v ∈ d.Ver.live ∧ SiteIn P r
  | .g2w w => w ∈ d.W.live
  | .w2g g => g ∈ d.G.live
  | .delta2cont w t => w ∈ d.W.live ∧ TauIn P t
  | .cont2delta w => w ∈ d.W.live
  | .backToOrder1 r t1 t2 _ _ => SiteIn P r ∧ TauIn P t1 ∧ TauIn P t2
  | .toGGGammaG g t => g ∈ d.G.live ∧ TauIn P t
  | .toWWGammaW w t r => w ∈ d.W.live ∧ TauIn P t ∧ SiteIn P r
  | _ => True

/-- The update call with the given choices; `u` is compared with the acceptance ratio. These are the functions of
the model with the drawing of the choices left out (`C16_calls_are_moves` says that each update call is of this form). -/
def Move.run (P : Params Q F) (d : Diag Q F) (m : Move Q) (u : Q) : Res (Out Q F) :=
  match m with
  | .createWorm w k s => if d.order = 0 ∨ d.worm.exist = true then skip d else createWormCore P d w k s u
  | .deleteWorm => if d.order = 0 ∨ d.worm.exist = false then skip d else deleteWormCore P d u
  | .moveWormG dir => if d.order = 0 ∨ d.worm.exist = false then skip d else moveWormGCore P d dir u
  | .moveWormW => if d.order = 0 ∨ d.worm.exist = false then skip d else moveWormWCore P d u
  | .reconnect dir =>
    if d.order = 0 ∨ d.worm.exist = false then skip d else do
    deref d.worm.ira
    deref d.worm.masha
    if d.co.r d.worm.ira ≠ d.co.r d.worm.masha then skip d else
    reconnectCore P d dir u
  | .add δ k dir dirW tA tB =>
    if d.worm.exist = false then skip d
    else if d.order = 0 ∨ d.order ≥ P.maxOrd then skip d
    else addCore P d δ k dir dirW tA tB u
  | .del δ dir =>
    if d.worm.exist = false then skip d
    else if d.order ≤ 1 then skip d
    else delCore P d δ dir u
  | .changeTau v t => if d.order = 0 ∨ d.worm.exist = true then skip d else changeTauCore P d v t u
  | .changeRLoop v r =>
    if d.order = 0 ∨ d.worm.exist = true then skip d
    else if ¬ P.maxOrd ≤ MAX_ORDER then .abort else do
    deref v
    let res ← loopWalk d (d.co.r v) (2 * MAX_ORDER - 1) v [] (fun _ => false) (fun _ => 0)
    match res with
    | none => skip d
    | some (vs, fw) => changeRLoopCore P d vs fw (d.co.r v) r u
  | .g2w w =>
    if d.order = 0 ∨ d.worm.exist = true ∨ d.measG = false then skip d
    else if d.hasGamma ≠ 0 then skip d else g2wCore P d w u
  | .w2g g =>
    if d.order = 0 ∨ d.worm.exist = true ∨ d.measG = true then skip d
    else if d.hasGamma ≠ 0 then skip d else w2gCore P d g u
  | .delta2cont w t => if d.order < 2 ∨ d.worm.exist = true then skip d else delta2contCore P d w t u
  | .cont2delta w => if d.order < 2 ∨ d.worm.exist = true then skip d else cont2deltaCore P d w u
  | .toOrder0 =>
    if d.worm.exist = true ∨ d.order ≠ 1 then skip d
    else if d.hasGamma ≠ 0 then skip d else toOrder0Core P d u
  | .backToOrder1 r t1 t2 s1 s2 =>
    if d.hasGamma ≠ 0 then skip d
    else if d.worm.exist = true ∨ d.order ≠ 0 then skip d else backToOrder1Core P d r t1 t2 s1 s2 u
  | .toGGGammaG g t =>
    if d.order = 0 ∨ d.worm.exist = true ∨ d.hasGamma ≠ 0 then skip d else toGGGammaGCore P d g t u
  | .fromGGGammaG =>
    if d.order = 0 ∨ d.worm.exist = true ∨ d.hasGamma ≠ 1 then skip d else fromGGGammaGCore P d u
  | .toWWGammaW w t r =>
    if d.order = 0 ∨ d.worm.exist = true ∨ d.hasGamma ≠ 0 then skip d else toWWGammaWCore P d w t r u
  | .fromWWGammaW =>
    if d.order = 0 ∨ d.worm.exist = true ∨ d.hasGamma ≠ 2 then skip d else fromWWGammaWCore P d u

/-- Line named by a slot pointer. -/
def Handle.line : Handle → ℕ
  | .none => 0
  | .g l _ => l
  | .w l _ => l

/-- The move that undoes `m`, a move on the diagram `d`: the complementary update with the choices read off from
`d`. -/
def Move.rev (d : Diag Q F) : Move Q → Move Q
  | .createWorm .. => .deleteWorm
  | .deleteWorm => .createWorm (d.sh.vW d.worm.ira) d.worm.k d.worm.dSpin
  | .moveWormG dir => .moveWormG (!dir)
  | .moveWormW => .moveWormW
  | .reconnect dir => .reconnect dir
  | .add δ _ dir _ _ _ => .del δ dir
  | .del δ dir =>
    let vA := d.sh.gV (d.sh.vG d.worm.ira dir) dir
    let vB := d.sh.gV (d.sh.vG d.worm.masha dir) dir
    .add δ (d.mo.wK (d.sh.vW vA)) dir (d.sh.vDir vA) (d.co.tau vA) (d.co.tau vB)
  | .changeTau v _ => .changeTau v (d.co.tau v)
  | .changeRLoop v _ => .changeRLoop v (d.co.r v)
  | .g2w _ => .w2g d.gMeasure
  | .w2g _ => .g2w d.wMeasure
  | .delta2cont w _ => .cont2delta w
  | .cont2delta w => .delta2cont w (d.co.tau (d.sh.wV w OUT))
  | .toOrder0 =>
    let v1 := d.Ver.slot 0
    let v2 := d.Ver.slot 1
    .backToOrder1 (d.co.r v1) (d.co.tau v1) (d.co.tau v2) (d.co.spin v1 OUT) (d.co.spin v2 OUT)
  | .backToOrder1 .. => .toOrder0
  | .toGGGammaG .. => .fromGGGammaG
  | .fromGGGammaG => .toGGGammaG d.vin.line d.ext.tau
  | .toWWGammaW .. => .fromWWGammaW
  | .fromWWGammaW => .toWWGammaW d.vin.line d.ext.tau d.ext.r

/-- Density with which a move is proposed: choice of the update among `numOps`, choice of lines and vertices among
those of the diagram, of a momentum among `MOD_K`, of directions and spins among two, of a site among all sites, of
a time uniformly in the time interval. -/
def Move.density (P : Params Q F) (d : Diag Q F) (m : Move Q) : Q :=
  1 / (numOps P : Q) *
  match m with
  | .createWorm .. => 1 / (d.W.avail : Q) * (1 / ((MOD_K : ℤ) : Q)) * (1 / 2)
  | .moveWormG _ => 1 / 2
  | .reconnect _ => 1 / 2
  | .add δ .. => 1 / ((MOD_K : ℤ) : Q) * (1 / 2) * (1 / 2) * (1 / P.beta) * (if δ then 1 else 1 / P.beta)
  | .del .. => 1 / 2
  | .changeTau .. => 1 / (d.Ver.avail : Q) * (1 / P.beta)
  | .changeRLoop .. => 1 / (d.Ver.avail : Q) * (1 / ((P.lx * P.ly * P.nsub : ℕ) : Q))
  | .g2w _ => 1 / (d.W.avail : Q)
  | .w2g _ => 1 / (d.G.avail : Q)
  | .delta2cont .. => 1 / (d.W.avail : Q) * (1 / P.beta)
  | .cont2delta _ => 1 / (d.W.avail : Q)
  | .backToOrder1 .. => 1 / ((P.lx * P.ly * P.nsub : ℕ) : Q) * (1 / P.beta) * (1 / P.beta) * (1 / 2) * (1 / 2)
  | .toGGGammaG .. => 1 / (d.G.avail : Q) * (1 / P.beta)
  | .toWWGammaW .. => 1 / (d.W.avail : Q) * (1 / P.beta) * (1 / ((P.lx * P.ly * P.nsub : ℕ) : Q))
  | _ => 1

/-- The distribution that the simulation samples, up to normalisation: modulus of the weight of the diagram, times
the reweighting factor of its order, of the worm sector, of the sector with a measured interaction, of the sector with
a composite line. The momentum label and the direction label of each interaction line and the momentum label of the
worm are distributed uniformly. -/
def target (P : Params Q F) (d : Diag Q F) : Q :=
  P.mod d.weight * P.orderRW.getD d.order 0 * (1 / (2 * ((MOD_K : ℤ) : Q))) ^ d.W.avail
    * (if d.worm.exist = true then P.wormRW * d.worm.wt * (1 / ((MOD_K : ℤ) : Q)) else 1)
    * (if d.measG = true then 1 else P.polarRW)
    * (if d.hasGamma = 0 then 1 else if d.measG = true then P.gammaGRW else P.gammaWRW)

/-- All reweighting factors are positive. -/
structure PosFactors (P : Params Q F) : Prop where
  order : ∀ x ∈ P.orderRW, 0 < x
  worm : 0 < P.wormRW
  polar : 0 < P.polarRW
  gammaG : 0 < P.gammaGRW
  gammaW : 0 < P.gammaWRW

/-- The call makes a proposal with acceptance ratio `p`; the diagram after acceptance is `d'`. -/
def Proposes (r : Q → Res (Out Q F)) (p : Q) (d' : Diag Q F) : Prop :=
  ∀ u, (1 ≤ p ∨ u < p → r u = .ok ⟨.accept, p, d'⟩) ∧
    (¬ (1 ≤ p ∨ u < p) → ∃ e, r u = .ok ⟨.reject, p, e⟩)

/-- `d'` is the diagram `d` up to the cells in which the components are stored: `fV`, `fG`, `fW` take the components
of `d` to those of `d'`. Left out is what has no meaning: the worm record if there is no worm, the external point if
there is no composite line, and positions, times, spins and line weights in the order-0 sector. -/
structure SameState (d d' : Diag Q F) (fV fG fW : ℕ → ℕ) : Prop where
  order : d'.order = d.order
  weight : d'.weight = d.weight
  phase : d'.phase = d.phase
  sfl : d'.sfl = d.sfl
  ver : Set.BijOn fV d.Ver.live d'.Ver.live
  g : Set.BijOn fG d.G.live d'.G.live
  w : Set.BijOn fW d.W.live d'.W.live
  nVer : d'.Ver.avail = d.Ver.avail
  nG : d'.G.avail = d.G.avail
  nW : d'.W.avail = d.W.avail
  vG : ∀ v ∈ d.Ver.live, ∀ e, d'.sh.vG (fV v) e = fG (d.sh.vG v e)
  vW : ∀ v ∈ d.Ver.live, d'.sh.vW (fV v) = fW (d.sh.vW v)
  vDir : ∀ v ∈ d.Ver.live, d'.sh.vDir (fV v) = d.sh.vDir v
  gV : ∀ g ∈ d.G.live, ∀ e, d'.sh.gV (fG g) e = fV (d.sh.gV g e)
  wV : ∀ w ∈ d.W.live, ∀ e, d'.sh.wV (fW w) e = fV (d.sh.wV w e)
  co : d.order ≠ 0 → ∀ v ∈ d.Ver.live, d'.co.r (fV v) = d.co.r v ∧ d'.co.tau (fV v) = d.co.tau v ∧
    d'.co.spin (fV v) = d.co.spin v
  gWt : d.order ≠ 0 → ∀ g ∈ d.G.live, d'.wt.gWt (fG g) = d.wt.gWt g
  wWt : d.order ≠ 0 → ∀ w ∈ d.W.live, d'.wt.wWt (fW w) = d.wt.wWt w
  gK : ∀ g ∈ d.G.live, d'.mo.gK (fG g) = d.mo.gK g
  wK : ∀ w ∈ d.W.live, d'.mo.wK (fW w) = d.mo.wK w
  gHash : d'.mo.gHash = d.mo.gHash
  wHash : d'.mo.wHash = d.mo.wHash
  gFl : ∀ g ∈ d.G.live, d'.fl.gMeas (fG g) = d.fl.gMeas g ∧ d'.fl.gGam (fG g) = d.fl.gGam g
  wFl : ∀ w ∈ d.W.live, d'.fl.wMeas (fW w) = d.fl.wMeas w ∧ d'.fl.wWorm (fW w) = d.fl.wWorm w ∧
    d'.fl.wDelta (fW w) = d.fl.wDelta w ∧ d'.fl.wGam (fW w) = d.fl.wGam w
  exist : d'.worm.exist = d.worm.exist
  worm : d.worm.exist = true → d'.worm.ira = fV d.worm.ira ∧ d'.worm.masha = fV d.worm.masha ∧
    d'.worm.k = d.worm.k ∧ d'.worm.dSpin = d.worm.dSpin ∧ d'.worm.wt = d.worm.wt
  measG : d'.measG = d.measG
  gMeasure : d.measG = true → d'.gMeasure = fG d.gMeasure
  wMeasure : d.measG = false → d'.wMeasure = fW d.wMeasure
  hasGamma : d'.hasGamma = d.hasGamma
  ext : d.hasGamma ≠ 0 → d'.ext = d.ext

/-- Some renaming of cells takes `d` to `d'`. -/
def SameUpToCells (d d' : Diag Q F) : Prop := ∃ fV fG fW, SameState d d' fV fG fW

end
end Feyn
