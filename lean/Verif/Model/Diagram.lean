import Mathlib.Algebra.Order.AbsoluteValue.Basic
import Mathlib.Algebra.GroupWithZero.Hom
import Verif.Model.Momentum
import Verif.Model.Bundle

/-!
# Diagram state, line weights and hash tables

The heap of `Bundle<Vertex>`, `Bundle<GLine>`, `Bundle<WLine>` is stored as one function per field:
`x->f` of cell `x` is `f x`. Fields are grouped in small records.
Real numbers live in an ordered field `Q`, complex numbers in a field `F`. Rounding is not modelled.
-/

namespace Feyn

/-- `Site`, `lattice/lattice.h`: sublattice and coordinates (`D = 2`). -/
structure Site where
  sub : ℤ
  x : ℤ
  y : ℤ
  deriving DecidableEq, Repr

/-- `weight::ExtPoint`, `module/weight/component.h` 21-26. -/
structure Ext (Q : Type) where
  tau : Q
  r : Site
  spin : Spin

/-- What the Markov chain reads from parameters and weight objects
(`module/parameter/parameter.h`, `module/weight/component.h`).

* `gMeasT`, `gSmoothT`, `gGamT`: the three tables a G line can be weighted with
  (`GClass::Weight`, `module/weight/component_MC.cpp` 17-32). The symmetry factor is part of `gSmoothT`.
* `wMeasT`, `wDeltaT`, `wSmoothT`, `wGamT`: the same for W lines (`component_MC.cpp` 64-85). Delta weights
  do not see the times.
Tables are arbitrary functions here; their addressing is the subject of the index map model.
* `mod`, `ph`: `mod(Complex)` and `phase(Complex)`, `utility/complex.h` 94, 104-109. -/
structure Params (Q F : Type) [Field Q] [LinearOrder Q] [Field F] where
  beta : Q
  /-- `Order` of the parameter file: the highest order that may be sampled. -/
  maxOrd : ℕ
  runGamma3 : Bool
  lx : ℕ
  ly : ℕ
  nsub : ℕ
  orderRW : List Q
  wormRW : Q
  polarRW : Q
  gammaGRW : Q
  gammaWRW : Q
  gMeasT : Spin → Spin → Site → Site → Q → Q → F
  gSmoothT : Spin → Spin → Site → Site → Q → Q → F
  gGamT : Spin → Spin → Site → Site → Q → Q → Ext Q → F
  wMeasT : (Dir → Spin) → (Dir → Spin) → Site → Site → Q → Q → F
  wDeltaT : (Dir → Spin) → (Dir → Spin) → Site → Site → F
  /-- Read only by the direction-aware overload on a line that is both measured and delta. -/
  wMeasDeltaT : (Dir → Spin) → (Dir → Spin) → Site → Site → F
  wSmoothT : (Dir → Spin) → (Dir → Spin) → Site → Site → Q → Q → F
  wGamT : (Dir → Spin) → (Dir → Spin) → Site → Site → Q → Q → Ext Q → F
  mod : AbsoluteValue F Q
  ph : F →*₀ F

/-- Topology: `Vertex::nG`, `Vertex::nW`, `Vertex::Dir`, `GLine::nVer`, `WLine::nVer`
(`module/diagram/component.h` 29-84). -/
structure Shape where
  vG : ℕ → Dir → ℕ
  vW : ℕ → ℕ
  vDir : ℕ → Dir
  gV : ℕ → Dir → ℕ
  wV : ℕ → Dir → ℕ

/-- `Vertex::R`, `Vertex::Tau`, `Vertex::_spin`. -/
structure Coord (Q : Type) where
  r : ℕ → Site
  tau : ℕ → Q
  spin : ℕ → Dir → Spin

/-- `GLine::K`, `WLine::K`, `GHash`, `WHash`. Hash tables are indexed by momentum and by absolute value;
`index()` is a shift by `MAX_K` which the range test below accounts for. -/
structure Mom where
  gK : ℕ → ℤ
  wK : ℕ → ℤ
  gHash : ℤ → Bool
  wHash : ℤ → Bool

/-- Flags of the lines, `component.h` 29-64. -/
structure Flags where
  gMeas : ℕ → Bool
  gGam : ℕ → Bool
  wMeas : ℕ → Bool
  wWorm : ℕ → Bool
  wDelta : ℕ → Bool
  wGam : ℕ → Bool

/-- Cached line weights. -/
structure Wts (F : Type) where
  gWt : ℕ → F
  wWt : ℕ → F

/-- `WormClass`, `component.h` 86-103. -/
structure Worm (Q : Type) where
  exist : Bool
  ira : ℕ
  masha : ℕ
  k : ℤ
  dSpin : ℤ
  wt : Q

/-- The pointers-to-slot `Vin`, `Vout` (`vertex *`, `diagram.h`): address of `nVer[dir]` of a line. -/
inductive Handle where
  | none
  | g (line : ℕ) (dir : Dir)
  | w (line : ℕ) (dir : Dir)
  deriving DecidableEq, Repr

/-- `Diagram`, `module/diagram/diagram.h`. -/
structure Diag (Q F : Type) where
  order : ℕ
  phase : F
  weight : F
  sfl : ℤ
  G : Bundle
  W : Bundle
  Ver : Bundle
  sh : Shape
  co : Coord Q
  mo : Mom
  fl : Flags
  wt : Wts F
  worm : Worm Q
  measG : Bool
  gMeasure : ℕ
  wMeasure : ℕ
  hasGamma : ℕ
  ext : Ext Q
  vin : Handle
  vout : Handle

section
variable {Q F : Type} [Field Q] [LinearOrder Q] [Field F]

/-- `SPINUPUP`, `component_MC.cpp` 15. -/
def spinUpUp : Dir → Spin := fun _ => UP

/-- `GClass::Weight` without direction, `component_MC.cpp` 17-32. -/
def gW0 (P : Params Q F) (e : Ext Q) (rin rout : Site) (tin tout : Q) (sin sout : Spin)
    (isMeas isGam : Bool) : F :=
  if isMeas then P.gMeasT sin sout rin rout tin tout
  else if isGam then P.gGamT sin sout rin rout tin tout e
  else P.gSmoothT sin sout rin rout tin tout

/-- `GClass::Weight` with direction, `component_MC.cpp` 34-62. -/
def gW (P : Params Q F) (e : Ext Q) (dir : Dir) (r1 r2 : Site) (t1 t2 : Q) (s1 s2 : Spin)
    (isMeas isGam : Bool) : F :=
  if isMeas then
    if dir = IN then P.gMeasT s1 s2 r1 r2 t1 t2 else P.gMeasT s2 s1 r2 r1 t2 t1
  else if isGam then
    if dir = IN then P.gGamT s1 s2 r1 r2 t1 t2 e else P.gGamT s2 s1 r2 r1 t2 t1 e
  else
    if dir = IN then P.gSmoothT s1 s2 r1 r2 t1 t2 else P.gSmoothT s2 s1 r2 r1 t2 t1

/-- `WClass::Weight` without direction, `component_MC.cpp` 64-85. -/
def wW0 (P : Params Q F) (e : Ext Q) (rin rout : Site) (tin tout : Q) (sin sout : Dir → Spin)
    (isWorm isMeas isDelta isGam : Bool) : F :=
  let si := if isWorm then spinUpUp else sin
  let so := if isWorm then spinUpUp else sout
  if isDelta then P.wDeltaT si so rin rout
  else if isMeas then P.wMeasT si so rin rout tin tout
  else if isGam then P.wGamT si so rin rout tin tout e
  else P.wSmoothT si so rin rout tin tout

/-- `WClass::Weight` with direction, `component_MC.cpp` 87-117. The measured case is tested first and uses
the delta index if the line is a delta line. -/
def wW (P : Params Q F) (e : Ext Q) (dir : Dir) (r1 r2 : Site) (t1 t2 : Q) (s1 s2 : Dir → Spin)
    (isWorm isMeas isDelta isGam : Bool) : F :=
  let s1 := if isWorm then spinUpUp else s1
  let s2 := if isWorm then spinUpUp else s2
  if isMeas then
    if isDelta then
      if dir = IN then P.wMeasDeltaT s1 s2 r1 r2 else P.wMeasDeltaT s2 s1 r2 r1
    else
      if dir = IN then P.wMeasT s1 s2 r1 r2 t1 t2 else P.wMeasT s2 s1 r2 r1 t2 t1
  else if isDelta then
    if dir = IN then P.wDeltaT s1 s2 r1 r2 else P.wDeltaT s2 s1 r2 r1
  else if isGam then
    if dir = IN then P.wGamT s1 s2 r1 r2 t1 t2 e else P.wGamT s2 s1 r2 r1 t2 t1 e
  else
    if dir = IN then P.wSmoothT s1 s2 r1 r2 t1 t2 else P.wSmoothT s2 s1 r2 r1 t2 t1

/-- `weight::Worm::Weight`, `module/weight/component.h` 28-34. -/
def wormWeight (_ _ : Site) (_ _ : Q) : Q := 1

/-- `weight::Norm::Weight`, `component.h` 36-43. `NormFactor` is set to `Vol * SublatVol` whenever weights are built or
loaded (`weight.cpp` 48, 73), which happens before any diagram is built or loaded (`envMonteCarlo.cpp` 27-95). -/
def normWeight (P : Params Q F) : F := ((P.lx * P.ly * P.nsub : ℕ) : F)

end

/-! ## Hash tables, `module/diagram/diagram.cpp` 39-87 -/

/-- `GHashCheck`. The array has `2 * MAX_K + 1` elements. -/
def gHashCheck (h : ℤ → Bool) (k : ℤ) : Res Bool :=
  if 0 ≤ indexK k ∧ indexK k ≤ 2 * MAX_K then .ok (h k) else .ub

/-- `AddGHash`. -/
def addGHash (h : ℤ → Bool) (k : ℤ) : Res (ℤ → Bool) :=
  if 0 ≤ indexK k ∧ indexK k ≤ 2 * MAX_K then
    if h k then .abort else .ok (fun x => if x = k then true else h x)
  else .ub

/-- `RemoveGHash`. -/
def removeGHash (h : ℤ → Bool) (k : ℤ) : Res (ℤ → Bool) :=
  if 0 ≤ indexK k ∧ indexK k ≤ 2 * MAX_K then
    if !h k then .abort else .ok (fun x => if x = k then false else h x)
  else .ub

/-- `ReplaceGHash`. -/
def replaceGHash (h : ℤ → Bool) (kold k : ℤ) : Res (ℤ → Bool) := do
  let h ← removeGHash h kold
  addGHash h k

/-- `WHashCheck`: a zero momentum counts as occupied and the table is then not read. -/
def wHashCheck (h : ℤ → Bool) (k : ℤ) : Res Bool :=
  if k = 0 then .ok true
  else if absK k ≤ MAX_K then .ok (h (absK k)) else .ub

/-- `AddWHash`. -/
def addWHash (h : ℤ → Bool) (k : ℤ) : Res (ℤ → Bool) :=
  if absK k ≤ MAX_K then
    if h (absK k) then .abort else .ok (fun x => if x = absK k then true else h x)
  else .ub

/-- `RemoveWHash`. -/
def removeWHash (h : ℤ → Bool) (k : ℤ) : Res (ℤ → Bool) :=
  if absK k ≤ MAX_K then
    if !h (absK k) then .abort else .ok (fun x => if x = absK k then false else h x)
  else .ub

/-- `ReplaceWHash`. -/
def replaceWHash (h : ℤ → Bool) (kold k : ℤ) : Res (ℤ → Bool) := do
  let h ← removeWHash h kold
  addWHash h k

/-- `Diagram::IsWorm`, `diagram.cpp` 19-25. -/
def Worm.isWorm {Q : Type} (w : Worm Q) (v : ℕ) : Bool := w.exist && (w.ira == v || w.masha == v)

/-- `*Diag->Vin`, reading the vertex pointer stored in a line. -/
def Handle.read (sh : Shape) : Handle → Res ℕ
  | .none => .ub
  | .g l d => if l < MAX_BUNDLE then .ok (sh.gV l d) else .ub
  | .w l d => if l < MAX_BUNDLE then .ok (sh.wV l d) else .ub

end Feyn
