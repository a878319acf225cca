import Verif.Model.Monitor
import Verif.Spec.Run
import Verif.Spec.Estimator
import Verif.Spec.Weights

/-!
# What measuring a diagram is about
-/

namespace Feyn
variable {Q F : Type} [Field Q] [LinearOrder Q] [FloorRing Q] [Field F] [Algebra Q F]

/-- An estimator that has seen one more sample of value one. -/
def Est.counted (e : Est Q Q) : Est Q Q := { e with accu := e.accu + 1, norm := e.norm + 1 }

/-- The histogram of a self energy (`sp = 2`) or polarisation (`sp = 4`) that was allocated for the parameters `P`. -/
structure Measured.Fits (P : Params Q F) (s : Measured Q F) (sp : ℤ) : Prop where
  map : s.map.Wf
  beta : s.map.beta = P.beta
  lat : s.map.lat = [(P.lx : ℤ), (P.ly : ℤ)]
  nsub : s.map.nsub = P.nsub
  sp : s.map.sp = sp
  est : s.est.Wf P.maxOrd s.map.sizeSmooth

/-- A monitor that was built for the parameters `P`. -/
structure Monitor.Fits (P : Params Q F) (m : Monitor Q F) : Prop where
  worm : m.wormE.length = P.maxOrd + 1
  phy : m.phyE.length = P.maxOrd + 1
  sigma : m.sigma.Fits P 2
  polar : m.polar.Fits P 4
  gammaG : P.runGamma3 = true → ∃ g, m.gammaG = some g ∧ g.Wf ∧ g.beta = P.beta ∧ g.lat = [(P.lx : ℤ), (P.ly : ℤ)]
  gammaW : P.runGamma3 = true → ∃ g, m.gammaW = some g ∧ g.Wf ∧ g.beta = P.beta ∧ g.lat = [(P.lx : ℤ), (P.ly : ℤ)]

/-- Content of the histogram at order `n` and cell `j`. -/
def Measured.cell (s : Measured Q F) (n j : ℤ) : F := s.est.data ((n - 1) * s.map.sizeSmooth + j)

/-- The reweighting factor of the present order. -/
def orderFactor (P : Params Q F) (d : Diag Q F) : Q := P.orderRW.getD d.order 0

/-- A worm-free diagram of order at least one without composite line, with a measured propagator. -/
def MeasuresSigma (d : Diag Q F) : Prop := d.worm.exist = false ∧ d.measG = true ∧ 1 ≤ d.order ∧ d.hasGamma = 0
/-- The same with a measured interaction. -/
def MeasuresPolar (d : Diag Q F) : Prop := d.worm.exist = false ∧ d.measG = false ∧ 1 ≤ d.order ∧ d.hasGamma = 0
instance (d : Diag Q F) : Decidable (MeasuresSigma d) := inferInstanceAs (Decidable (_ ∧ _))
instance (d : Diag Q F) : Decidable (MeasuresPolar d) := inferInstanceAs (Decidable (_ ∧ _))

/-- The cell that the measured propagator of a diagram belongs to: the self energy runs from the vertex where the propagator ends to
the vertex where it starts. -/
def sigmaCell (s : Measured Q F) (d : Diag Q F) : Res ℤ :=
  let vin := d.sh.gV d.gMeasure OUT
  let vout := d.sh.gV d.gMeasure IN
  s.map.smoothIndex (spinNum (d.co.spin vin IN)) (spinNum (d.co.spin vout OUT)) (d.co.r vin) (d.co.r vout)
    (d.co.tau vin) (d.co.tau vout)

/-- The cell that the measured interaction of a diagram belongs to. -/
def polarCell (s : Measured Q F) (d : Diag Q F) : Res ℤ :=
  let vin := d.sh.wV d.wMeasure OUT
  let vout := d.sh.wV d.wMeasure IN
  s.map.smoothIndex (spinNum2 (d.co.spin vin)) (spinNum2 (d.co.spin vout)) (d.co.r vin) (d.co.r vout)
    (d.co.tau vin) (d.co.tau vout)

/-- Sign of an antiperiodic function between the two ends of the measured propagator. -/
def sigmaSign (s : Measured Q F) (d : Diag Q F) : ℤ :=
  if d.co.tau (d.sh.gV d.gMeasure IN) > d.co.tau (d.sh.gV d.gMeasure OUT) then 1 else s.map.sym

open Classical in
/-- What the diagram `d` contributes to the self energy at order `n` and cell `j`. -/
noncomputable def sigmaShare (P : Params Q F) (s : Measured Q F) (d : Diag Q F) (n j : ℤ) : F :=
  if MeasuresSigma d ∧ n = d.order ∧ sigmaCell s d = .ok j then
    (sigmaSign s d : F) * ((orderFactor P d)⁻¹ • d.phase)
  else 0

open Classical in
/-- What the diagram `d` contributes to the polarisation at order `n` and cell `j`. -/
noncomputable def polarShare (P : Params Q F) (s : Measured Q F) (d : Diag Q F) (n j : ℤ) : F :=
  if MeasuresPolar d ∧ n = d.order ∧ polarCell s d = .ok j then -((orderFactor P d)⁻¹ • d.phase) else 0

/-- What the diagram `d` contributes to the normalisation of the section of measured propagators (`measG = true`) or interactions. -/
def normShare (P : Params Q F) (measG : Bool) (d : Diag Q F) : Q :=
  if d.worm.exist = false ∧ d.order = 0 ∧ d.measG = measG then (orderFactor P d)⁻¹ else 0

variable [StarRing F]

/-- What one call of `Measure` must do with the diagram `d`, from the monitor `m` to the monitor `m'`. -/
structure Recorded (P : Params Q F) (d : Diag Q F) (m m' : Monitor Q F) : Prop where
  /-- worm configurations are counted at their order -/
  worm : ∀ i, m'.wormE[i]? = if d.worm.exist = true ∧ i = d.order then (m.wormE[i]?).map Est.counted else m.wormE[i]?
  /-- physical configurations are counted at their order -/
  phy : ∀ i, m'.phyE[i]? = if d.worm.exist = false ∧ i = d.order then (m.phyE[i]?).map Est.counted else m.phyE[i]?
  /-- counters of the four sections -/
  sigmaE : m'.sigmaE = if d.measG = true ∧ d.hasGamma = 0 ∧ 1 ≤ d.order then m.sigmaE.counted else m.sigmaE
  polarE : m'.polarE = if d.measG = false ∧ d.hasGamma = 0 ∧ 1 ≤ d.order then m.polarE.counted else m.polarE
  gammaGE : m'.gammaGE = if d.measG = true ∧ d.hasGamma ≠ 0 ∧ d.worm.exist = false then m.gammaGE.counted else m.gammaGE
  gammaWE : m'.gammaWE = if d.measG = false ∧ d.hasGamma ≠ 0 ∧ d.worm.exist = false then m.gammaWE.counted else m.gammaWE
  /-- normalisation -/
  sigmaNorm : m'.sigma.est.normAccu = m.sigma.est.normAccu + normShare P true d
  polarNorm : m'.polar.est.normAccu = m.polar.est.normAccu + normShare P false d
  /-- units are kept -/
  sigmaScale : m'.sigma.est.norm = m.sigma.est.norm ∧ m'.sigma.est.beta = m.sigma.est.beta
  polarScale : m'.polar.est.norm = m.polar.est.norm ∧ m'.polar.est.beta = m.polar.est.beta
  /-- tables are addressed as before -/
  sigmaMap : m'.sigma.map = m.sigma.map
  polarMap : m'.polar.map = m.polar.map
  /-- a measured propagator has a cell of the self energy -/
  sigmaHit : MeasuresSigma d → ∃ j, 0 ≤ j ∧ j < m.sigma.map.sizeSmooth ∧ sigmaCell m.sigma d = .ok j
  /-- a measured interaction has a cell of the polarisation -/
  polarHit : MeasuresPolar d → ∃ j, 0 ≤ j ∧ j < m.polar.map.sizeSmooth ∧ polarCell m.polar d = .ok j
  /-- data -/
  sigmaCells : ∀ (n : ℕ) (j : ℤ), 1 ≤ n → n ≤ P.maxOrd → 0 ≤ j → j < m.sigma.map.sizeSmooth →
    m'.sigma.cell n j = m.sigma.cell n j + sigmaShare P m.sigma d n j
  polarCells : ∀ (n : ℕ) (j : ℤ), 1 ≤ n → n ≤ P.maxOrd → 0 ≤ j → j < m.polar.map.sizeSmooth →
    m'.polar.cell n j = m.polar.cell n j + polarShare P m.polar d n j
  /-- three-point functions are left alone unless they are simulated -/
  noGammaG : P.runGamma3 = false → m'.gammaG = m.gammaG
  noGammaW : P.runGamma3 = false → m'.gammaW = m.gammaW
  /-- three-point functions: normalisation at order zero, data when a composite line is present, otherwise nothing -/
  gammaG : P.runGamma3 = true → ∀ g, m.gammaG = some g → ∃ g', m'.gammaG = some g' ∧
    (if d.worm.exist = false ∧ d.measG = true ∧ d.hasGamma ≠ 0 then
      g.measure (d.co.r (d.sh.gV d.gMeasure OUT)) d.ext.r (d.co.tau (d.sh.gV d.gMeasure OUT))
        (d.co.tau (d.sh.gV d.gMeasure IN)) d.ext.tau (d.co.spin (d.sh.gV d.gMeasure OUT) IN)
        ((orderFactor P d * P.gammaGRW)⁻¹ • d.phase) = .ok g'
    else g' = { g with normAccu := g.normAccu + normShare P true d })
  gammaW : P.runGamma3 = true → ∀ g, m.gammaW = some g → ∃ g', m'.gammaW = some g' ∧
    (if d.worm.exist = false ∧ d.measG = false ∧ d.hasGamma ≠ 0 then
      g.measure (d.co.r (d.sh.wV d.wMeasure IN)) (d.co.r (d.sh.wV d.wMeasure OUT)) d.ext.r
        (d.co.tau (d.sh.wV d.wMeasure IN)) (d.co.tau (d.sh.wV d.wMeasure OUT)) d.ext.tau
        (d.co.spin (d.sh.wV d.wMeasure IN)) (d.co.spin (d.sh.wV d.wMeasure OUT))
        ((orderFactor P d * P.gammaWRW)⁻¹ • d.phase) = .ok g'
    else g' = { g with normAccu := g.normAccu + normShare P false d })

/-- Measuring a sequence of configurations. -/
def Monitor.measures (m : Monitor Q F) : List (Chain Q F) → Res (Monitor Q F)
  | [] => .ok m
  | c :: l => (m.measure c.P c.d).bind fun m' => m'.measures l

/-- The number of configurations of a sequence with a given property. -/
def howMany (p : Diag Q F → Prop) [DecidablePred p] (l : List (Chain Q F)) : ℕ := (l.filter fun c => decide (p c.d)).length

/-- An estimator that only counts: it holds a number of samples of value one, possibly scaled down, and the weight of at most one
sample more. -/
def Est.IsCount (e : Est Q Q) : Prop := 0 ≤ e.accu ∧ 0 < e.norm - e.accu ∧ e.norm - e.accu ≤ 1

/-- All estimators of a monitor are counters. -/
structure Monitor.Counts (m : Monitor Q F) : Prop where
  worm : ∀ e ∈ m.wormE, e.IsCount
  phy : ∀ e ∈ m.phyE, e.IsCount
  sigma : m.sigmaE.IsCount
  polar : m.polarE.IsCount
  gammaG : m.gammaGE.IsCount
  gammaW : m.gammaWE.IsCount

/-- Enough statistics: every order was visited by physical configurations and both sections have data. -/
structure Enough (P : Params Q F) (m : Monitor Q F) : Prop where
  phy : ∀ i, i ≤ P.maxOrd → ∀ e, m.phyE[i]? = some e → 1000 ≤ e.norm
  polar : 1000 ≤ m.polarE.norm
  polarV : 1 / 1000000000 ≤ |m.polarE.accu|
  sigmaV : 1 / 1000000000 ≤ |m.sigmaE.accu|
  gammaG : P.runGamma3 = true → 1000 ≤ m.gammaGE.norm ∧ 1 / 1000000000 ≤ |m.gammaGE.accu|
  gammaW : P.runGamma3 = true → 1000 ≤ m.gammaWE.norm ∧ 1 / 1000000000 ≤ |m.gammaWE.accu|

/-- Number of configurations counted at order `i`, with and without worm. -/
def Monitor.wormAt (m : Monitor Q F) (i : ℕ) : Q := ((m.wormE[i]?).map fun e => e.accu).getD 0
/-- See `Monitor.wormAt`. -/
def Monitor.phyAt (m : Monitor Q F) (i : ℕ) : Q := ((m.phyE[i]?).map fun e => e.accu).getD 0

/-- The factor of order `i` after a successful adjustment with time ratios `t`: multiplied by the time ratio and by the number of
configurations of order zero over the number of configurations of order `i`; unchanged if order `i` was never visited. -/
def newFactor (m : Monitor Q F) (t rw : List Q) (i : ℕ) : Q :=
  if |m.wormAt i + m.phyAt i| < 1 / 1000000000 then rw.getD i 0
  else rw.getD i 0 * (t.getD i 0 * (m.wormAt 0 + m.phyAt 0) / (m.wormAt i + m.phyAt i))

/-- Positive reweighting factors. -/
structure Params.Positive (P : Params Q F) : Prop where
  order : ∀ x ∈ P.orderRW, 0 < x
  worm : 0 < P.wormRW
  polar : 0 < P.polarRW
  gammaG : 0 < P.gammaGRW
  gammaW : 0 < P.gammaWRW

/-- Life of a monitor between adjustments: it starts with empty counters, books configurations and is squeezed. -/
inductive Fed : Monitor Q F → Prop where
  | new (m : Monitor Q F) : (∀ e ∈ m.wormE, ∃ j, e = Est.new j) → (∀ e ∈ m.phyE, ∃ j, e = Est.new j) →
      (∃ j, m.sigmaE = Est.new j) → (∃ j, m.polarE = Est.new j) → (∃ j, m.gammaGE = Est.new j) → (∃ j, m.gammaWE = Est.new j) → Fed m
  | measure (m m' : Monitor Q F) (P : Params Q F) (d : Diag Q F) : Fed m → Recorded P d m m' → Fed m'
  | squeeze (m m' : Monitor Q F) (P : Params Q F) (f : Q) : Fed m → 1 ≤ f → m.squeeze P f = .ok m' → Fed m'

end Feyn
