import Verif.Model.Estimator
import Verif.Model.Weights
import Mathlib.Algebra.Algebra.Defs

/-!
# Measurements (`module/markov/markov_monitor.cpp`)

Estimator bundles are addressed by the order; `std::vector` accesses are not checked. `Weight->GammaG` and `Weight->GammaW` are
`none` as long as nothing has been assigned to them.
-/

namespace Feyn

/-- `SigmaClass`, `PolarClass`, `component.h` 93-128: an index map and a histogram. -/
structure Measured (Q F : Type) where
  map : IndexMap Q
  est : Histo Q F

/-- The estimators of `MarkovMonitor` (`markov_monitor.h` 22-45) and the weight objects it writes to. -/
structure Monitor (Q F : Type) where
  wormE : List (Est Q Q)
  phyE : List (Est Q Q)
  sigmaE : Est Q Q
  polarE : Est Q Q
  gammaGE : Est Q Q
  gammaWE : Est Q Q
  sigma : Measured Q F
  polar : Measured Q F
  gammaG : Option (GammaG Q F)
  gammaW : Option (GammaW Q F)

section
variable {Q F : Type} [Field Q] [LinearOrder Q] [FloorRing Q] [Field F] [Algebra Q F]

/-- `Estimator[i].Measure(1.0)` on a bundle, `estimator.cpp` 320-324. -/
def bumpAt (l : List (Est Q Q)) (i : ℕ) : Res (List (Est Q Q)) :=
  match l[i]? with
  | none => .ub
  | some e => .ok (l.set i (e.measure 1))

/-- `SigmaClass::Measure`, `component_MC.cpp` 119-124. -/
def Measured.sigmaMeasure (s : Measured Q F) (rin rout : Site) (tin tout : Q) (sin sout : Spin) (order : ℕ) (w : F) :
    Res (Measured Q F) := do
  let index ← s.map.smoothIndex (spinNum sin) (spinNum sout) rin rout tin tout
  let est ← s.est.measure index order (w * (s.map.tauSym tin tout : F))
  .ok { s with est := est }

/-- `PolarClass::Measure`, `component_MC.cpp` 126-131. -/
def Measured.polarMeasure (s : Measured Q F) (rin rout : Site) (tin tout : Q) (sin sout : Dir → Spin) (order : ℕ) (w : F) :
    Res (Measured Q F) := do
  let index ← s.map.smoothIndex (spinNum2 sin) (spinNum2 sout) rin rout tin tout
  let est ← s.est.measure index order w
  .ok { s with est := est }

/-- `MarkovMonitor::Measure`, lines 217-241: the counters for reweighting. -/
def Monitor.count (P : Params Q F) (d : Diag Q F) (m : Monitor Q F) : Res (Monitor Q F) :=
  if d.worm.exist then do
    let wormE ← bumpAt m.wormE d.order
    let m := { m with wormE := wormE }
    if d.hasGamma = 0 then
      if d.measG then .ok { m with sigmaE := m.sigmaE.measure 1 }
      else .ok { m with polarE := m.polarE.measure 1 }
    else .ok m
  else do
    let phyE ← bumpAt m.phyE d.order
    let m := { m with phyE := phyE }
    if d.order > 0 then
      if d.measG then
        if !P.runGamma3 || d.hasGamma = 0 then .ok { m with sigmaE := m.sigmaE.measure 1 }
        else .ok { m with gammaGE := m.gammaGE.measure 1 }
      else
        if !P.runGamma3 || d.hasGamma = 0 then .ok { m with polarE := m.polarE.measure 1 }
        else .ok { m with gammaWE := m.gammaWE.measure 1 }
    else .ok m

/-- `GammaG->MeasureNorm`, `gamma3.cpp` 71-74, through the pointer. -/
def normGammaG (g : Option (GammaG Q F)) (w : Q) : Res (Option (GammaG Q F)) :=
  match g with
  | none => .ub
  | some g => .ok (some { g with normAccu := g.normAccu + w })

/-- `GammaW->MeasureNorm`, `gamma3.cpp` 464-467, through the pointer. -/
def normGammaW (g : Option (GammaW Q F)) (w : Q) : Res (Option (GammaW Q F)) :=
  match g with
  | none => .ub
  | some g => .ok (some { g with normAccu := g.normAccu + w })

/-- `MarkovMonitor::Measure`, lines 246-256: the normalisation. -/
def Monitor.norm (P : Params Q F) (d : Diag Q F) (orderWeight : Q) (m : Monitor Q F) : Res (Monitor Q F) :=
  if d.order = 0 then
    if d.measG then do
      let m := { m with sigma := { m.sigma with est := m.sigma.est.measureNorm orderWeight } }
      if P.runGamma3 then do
        let g ← normGammaG m.gammaG orderWeight
        .ok { m with gammaG := g }
      else .ok m
    else do
      let m := { m with polar := { m.polar with est := m.polar.est.measureNorm orderWeight } }
      if P.runGamma3 then do
        let g ← normGammaW m.gammaW orderWeight
        .ok { m with gammaW := g }
      else .ok m
  else .ok m

variable [StarRing F]

/-- `MarkovMonitor::Measure`, lines 258-296: the data. Real factors act on complex numbers by scalar multiplication. -/
def Monitor.data (P : Params Q F) (d : Diag Q F) (orderWeight : Q) (m : Monitor Q F) : Res (Monitor Q F) :=
  if !P.runGamma3 || d.hasGamma = 0 then
    if d.measG then
      if d.order ≠ 0 then do
        let g := d.gMeasure
        deref g
        let vin := d.sh.gV g OUT
        deref vin
        let vout := d.sh.gV g IN
        deref vout
        let s ← m.sigma.sigmaMeasure (d.co.r vin) (d.co.r vout) (d.co.tau vin) (d.co.tau vout)
          (d.co.spin (d.sh.gV g OUT) IN) (d.co.spin (d.sh.gV g IN) OUT) d.order (orderWeight • d.phase)
        .ok { m with sigma := s }
      else .ok m
    else
      if d.order ≠ 0 then do
        let w := d.wMeasure
        deref w
        let vin := d.sh.wV w OUT
        deref vin
        let vout := d.sh.wV w IN
        deref vout
        let s ← m.polar.polarMeasure (d.co.r vin) (d.co.r vout) (d.co.tau vin) (d.co.tau vout)
          (d.co.spin vin) (d.co.spin vout) d.order (orderWeight • (-1 * d.phase))
        .ok { m with polar := s }
      else .ok m
  else if d.measG then
    if d.order ≠ 0 then do
      let g := d.gMeasure
      deref g
      let vin := d.sh.gV g OUT
      deref vin
      let vout := d.sh.gV g IN
      deref vout
      match m.gammaG with
      | none => .ub
      | some t => do
        let t ← t.measure (d.co.r vin) d.ext.r (d.co.tau vin) (d.co.tau vout) d.ext.tau
          (d.co.spin (d.sh.gV g OUT) IN) ((orderWeight / P.gammaGRW) • d.phase)
        .ok { m with gammaG := some t }
    else .ok m
  else
    if d.order ≠ 0 then do
      let w := d.wMeasure
      deref w
      let vin := d.sh.wV w IN
      deref vin
      let vout := d.sh.wV w OUT
      deref vout
      match m.gammaW with
      | none => .ub
      | some t => do
        let t ← t.measure (d.co.r vin) (d.co.r vout) d.ext.r (d.co.tau vin) (d.co.tau vout) d.ext.tau
          (d.co.spin vin) (d.co.spin vout) ((orderWeight / P.gammaWRW) • d.phase)
        .ok { m with gammaW := some t }
    else .ok m

/-- `MarkovMonitor::Measure`, `markov_monitor.cpp` 214-299. Dividing by a factor of zero gives infinity in the code and zero
here. -/
def Monitor.measure (P : Params Q F) (d : Diag Q F) (m : Monitor Q F) : Res (Monitor Q F) := do
  let rw ← match P.orderRW[d.order]? with
    | none => .ub
    | some rw => .ok rw
  let m ← m.count P d
  if d.worm.exist then .ok m
  else do
    let m ← m.norm P d (1 / rw)
    m.data P d (1 / rw)

/-- `SqueezeStatistics` of a bundle, `estimator.cpp` 344-349. -/
def squeezeAll (l : List (Est Q Q)) (factor : Q) : Res (List (Est Q Q)) :=
  match l with
  | [] => .ok []
  | e :: l => do
    let e ← e.squeeze factor
    let l ← squeezeAll l factor
    .ok (e :: l)

/-- `GammaGClass::SqueezeStatistics`, `gamma3.cpp` 129-134. -/
def GammaG.squeeze (g : GammaG Q F) (factor : Q) : Res (GammaG Q F) :=
  if factor > 0 then .ok { g with
    normAccu := g.normAccu / factor,
    accu := ⟨g.accu.n, fun i => if 0 ≤ i ∧ i < g.accu.n then (1 / factor) • g.accu.data i else g.accu.data i⟩ }
  else .abort

/-- `GammaWClass::SqueezeStatistics`, `gamma3.cpp` 476-481. -/
def GammaW.squeeze (g : GammaW Q F) (factor : Q) : Res (GammaW Q F) :=
  if factor > 0 then .ok { g with
    normAccu := g.normAccu / factor,
    accu := ⟨g.accu.n, fun i => if 0 ≤ i ∧ i < g.accu.n then (1 / factor) • g.accu.data i else g.accu.data i⟩ }
  else .abort

/-- `MarkovMonitor::SqueezeStatistics`, `markov_monitor.cpp` 94-110. -/
def Monitor.squeeze (P : Params Q F) (m : Monitor Q F) (factor : Q) : Res (Monitor Q F) := do
  let sigma ← m.sigma.est.squeeze factor
  let polar ← m.polar.est.squeeze factor
  let wormE ← squeezeAll m.wormE factor
  let phyE ← squeezeAll m.phyE factor
  let sigmaE ← m.sigmaE.squeeze factor
  let polarE ← m.polarE.squeeze factor
  let m := { m with
    sigma := { m.sigma with est := sigma }, polar := { m.polar with est := polar },
    wormE := wormE, phyE := phyE, sigmaE := sigmaE, polarE := polarE }
  if P.runGamma3 then
    match m.gammaG, m.gammaW with
    | some g, some w => do
      let g ← g.squeeze factor
      let w ← w.squeeze factor
      let gammaGE ← m.gammaGE.squeeze factor
      let gammaWE ← m.gammaWE.squeeze factor
      .ok { m with gammaG := some g, gammaW := some w, gammaGE := gammaGE, gammaWE := gammaWE }
    | _, _ => .ub
  else .ok m

/-! ## Reweighting -/

/-- `Zero(x, eps0)`, `utility.cpp` 37-40 with `eps0 = 1e-9` (`utility.h` 18). -/
def zeroTest (x : Q) : Bool := |x| < 1 / 1000000000

/-- `PhyEstimator[i].Norm() < 1000.0` for some `i <= Order`, `markov_monitor.cpp` 152-155. The first one ends the loop. -/
def anySmall (l : List (Est Q Q)) : List ℕ → Res Bool
  | [] => .ok false
  | i :: is => match l[i]? with
    | none => .ub
    | some e => if e.norm < 1000 then .ok true else anySmall l is

/-- `Estimator[i].Value()`. -/
def valueAt (l : List (Est Q Q)) (i : ℕ) : Res Q :=
  match l[i]? with
  | none => .ub
  | some e => .ok e.accu

/-- Element of `std::vector<real>`. -/
def realAt (l : List Q) (i : ℕ) : Res Q :=
  match l[i]? with
  | none => .ub
  | some x => .ok x

/-- State of the loop in `AdjustOrderReWeight`: the factors and the sums `wormweight`, `phyweight`. -/
structure AdjLoop (Q : Type) where
  rw : List Q
  worm : Q
  phy : Q

/-- One pass of the loop of lines 178-186. `OrderTimeRatio` is a `std::vector` whose size is never checked. -/
def adjustStep (m : Monitor Q F) (timeRatio : List Q) (weight0 : Q) (s : AdjLoop Q) (i : ℕ) : Res (AdjLoop Q) := do
  let w ← valueAt m.wormE i
  let p ← valueAt m.phyE i
  let weight := w + p
  let s := { s with worm := s.worm + w, phy := s.phy + p }
  if zeroTest weight then .ok s
  else do
    let old ← realAt s.rw i
    let t ← realAt timeRatio i
    .ok { s with rw := s.rw.set i (old * (t * weight0 / weight)) }

/-- The loop of lines 178-186. -/
def adjustLoop (m : Monitor Q F) (timeRatio : List Q) (weight0 : Q) : AdjLoop Q → List ℕ → Res (AdjLoop Q)
  | s, [] => .ok s
  | s, i :: is => do
    let s ← adjustStep m timeRatio weight0 s i
    adjustLoop m timeRatio weight0 s is

/-- The tests of lines 152-171: `true` if there are not enough statistics. -/
def tooFew (P : Params Q F) (m : Monitor Q F) : Res Bool := do
  let small ← anySmall m.phyE (List.range (P.maxOrd + 1))
  if small then .ok true
  else if m.polarE.norm < 1000 then .ok true
  else if zeroTest m.polarE.accu || zeroTest m.sigmaE.accu then .ok true
  else if P.runGamma3 then
    if m.gammaGE.norm < 1000 then .ok true
    else if m.gammaWE.norm < 1000 then .ok true
    else .ok (zeroTest m.gammaGE.accu || zeroTest m.gammaWE.accu)
  else .ok false

/-- `MarkovMonitor::AdjustOrderReWeight`, `markov_monitor.cpp` 150-212: the value returned and the parameters afterwards. -/
def adjust (P : Params Q F) (timeRatio : List Q) (m : Monitor Q F) : Res (Bool × Params Q F) := do
  let few ← tooFew P m
  if few then .ok (false, P)
  else do
    let w0 ← valueAt m.wormE 0
    let p0 ← valueAt m.phyE 0
    let s ← adjustLoop m timeRatio (w0 + p0) ⟨P.orderRW, 0, 0⟩ (List.range' 1 P.maxOrd)
    let _ ← realAt s.rw 0
    let P := { P with orderRW := s.rw.set 0 1 }
    if zeroTest s.worm then .ok (false, P)
    else
      let sigma := m.sigmaE.accu
      let polar := m.polarE.accu
      let P := { P with
        wormRW := P.wormRW * (s.phy / s.worm),
        polarRW := P.polarRW * (sigma / polar) }
      if P.runGamma3 then
        .ok (true, { P with
          gammaGRW := P.gammaGRW * (sigma / m.gammaGE.accu),
          gammaWRW := P.gammaWRW * (polar / m.gammaWE.accu) })
      else .ok (true, P)

/-- The sums of lines 118-126 of `PrintOrderReWeight`. -/
def sumValues (l : List (Est Q Q)) : List ℕ → Res Q
  | [] => .ok 0
  | i :: is => do
    let x ← valueAt l i
    let s ← sumValues l is
    .ok (x + s)

/-- `MarkovMonitor::PrintOrderReWeight`, `markov_monitor.cpp` 112-147: apart from printing it assigns `WormSpaceReweight`. A sum
of zero would make it infinite or not a number, which the model cannot represent and marks as `ub`. The two sums are computed one after
the other here. -/
def printReweight (P : Params Q F) (m : Monitor Q F) : Res (Params Q F) := do
  let _ ← valueAt m.wormE 0
  let _ ← valueAt m.phyE 0
  let worm ← sumValues m.wormE (List.range' 1 P.maxOrd)
  let phy ← sumValues m.phyE (List.range' 1 P.maxOrd)
  if worm = 0 then .ub else .ok { P with wormRW := phy / worm }

end
end Feyn
