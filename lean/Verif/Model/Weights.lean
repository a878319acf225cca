import Verif.Model.IndexMap
import Mathlib.Algebra.Star.Basic

/-!
# Weight look-ups (`module/weight/component_MC.cpp`, `gamma3.cpp`)

Arrays are read without bound checks, so an index out of range is undefined behaviour; only `GetIndex` throws. The pointers
to the composite tables are `none` as long as nothing has been assigned to them. The abort and throw outcomes are the
same.
-/

namespace Feyn

/-- `WeightArray::operator[]` followed by `+=`: not checked. -/
def Arr.add {F : Type} [Add F] (a : Arr F) (i : ℤ) (x : F) : Res (Arr F) :=
  if 0 ≤ i ∧ i < a.n then .ok ⟨a.n, fun j => if j = i then a.data j + x else a.data j⟩ else .ub

/-- Element of a `std::vector<int>`: not checked. -/
def vecAt (l : List ℤ) (i : ℤ) : Res ℤ :=
  if 0 ≤ i then match l[i.toNat]? with
    | some x => .ok x
    | none => .ub
  else .ub

/-- `GammaGClass`, `gamma3.h` 24-66. -/
structure GammaG (Q F : Type) where
  beta : Q
  bins : ℕ
  lat : List ℤ
  weight : Arr F
  accu : Arr F
  normAccu : Q

/-- `GammaWClass`, `gamma3.h` 68-117. -/
structure GammaW (Q F : Type) where
  beta : Q
  bins : ℕ
  lat : List ℤ
  weight : Arr F
  accu : Arr F
  normAccu : Q
  rSqueeze : List ℤ
  rSymFactor : List ℤ
  tauSqueeze : List ℤ
  tauSymFactor : List ℤ
  tauFlag : List ℤ
  rSize : ℤ
  tauSize : ℤ

section
variable {Q F : Type} [Field Q] [LinearOrder Q] [FloorRing Q] [Field F]

/-- `_CacheIndex`, `gamma3.cpp` 31-34. -/
def GammaG.cache (g : GammaG Q F) (i : ℕ) : ℤ :=
  [1, u32 (g.bins : ℤ), u32 ((g.bins : ℤ) * g.bins), u32 ((g.bins : ℤ) * g.bins * latVol g.lat)].getD i 0

/-- `GammaGClass::Weight`, `gamma3.cpp` 38-69. -/
def GammaG.eval (g : GammaG Q F) (rin ur : Site) (tin tout ut : Q) (sin : Spin) : Res F := do
  let dBetaInv := (g.bins : Q) / g.beta
  let coord := coordiIndex g.lat rin.vec ur.vec
  let sign : ℤ := 1
  let t1 := tout - ut
  let sign := if t1 < 0 then -sign else sign
  let t1 := if t1 < 0 then t1 + g.beta else t1
  let t1Index := ⌊t1 * dBetaInv⌋
  let t2 := tin - ut
  let sign := if t2 < 0 then -sign else sign
  let t2 := if t2 < 0 then t2 + g.beta else t2
  let t2Index := ⌊t2 * dBetaInv⌋
  let index := u32 (spinNum sin * g.cache 3 + coord * g.cache 2 + t1Index * g.cache 1 + t2Index)
  let w ← g.weight.at index
  .ok (w * (sign : F))

/-- `GammaGClass::Measure`, `gamma3.cpp` 76-120. -/
def GammaG.measure (g : GammaG Q F) (rin ur : Site) (tin tout ut : Q) (sin : Spin) (weight : F) : Res (GammaG Q F) := do
  let dBetaInv := (g.bins : Q) / g.beta
  let coord := coordiIndex g.lat rin.vec ur.vec
  let sign : ℤ := 1
  let t1 := tout - ut
  let sign := if t1 < 0 then -sign else sign
  let t1 := if t1 < 0 then t1 + g.beta else t1
  let t1Index := ⌊t1 * dBetaInv⌋
  let t2 := tin - ut
  let sign := if t2 < 0 then -sign else sign
  let t2 := if t2 < 0 then t2 + g.beta else t2
  let t2Index := ⌊t2 * dBetaInv⌋
  let index := u32 (spinNum sin * g.cache 3 + coord * g.cache 2 + t1Index * g.cache 1 + t2Index)
  let accu ← g.accu.add index (weight * (sign : F))
  .ok { g with accu := accu }

/-- `GammaWClass::_SpinIndex`, `gamma3.cpp` 214-229; `-1` is converted to `unsigned int`. -/
def gammaSpinIndex (L R : Dir → Spin) : ℤ :=
  if L IN = UP ∧ L OUT = UP ∧ R IN = UP ∧ R OUT = UP then 0
  else if L IN = DOWN ∧ L OUT = DOWN ∧ R IN = DOWN ∧ R OUT = DOWN then 1
  else if L IN = UP ∧ L OUT = UP ∧ R IN = DOWN ∧ R OUT = DOWN then 2
  else if L IN = DOWN ∧ L OUT = DOWN ∧ R IN = UP ∧ R OUT = UP then 3
  else if L IN = UP ∧ L OUT = DOWN ∧ R IN = DOWN ∧ R OUT = UP then 4
  else if L IN = DOWN ∧ L OUT = UP ∧ R IN = UP ∧ R OUT = DOWN then 5
  else 4294967295

/-- `GammaWClass::_GetIndex`, `gamma3.cpp` 231-260: index, symmetry factor and whether the pair was exchanged. -/
def packedIndex (beta : Q) (bins : ℕ) (vol : ℤ) (r1 r2 : ℤ) (t1 t2 : Q) : ℤ × ℤ × Bool :=
  let dBetaInv := (bins : Q) / beta
  let t1 := if t1 < 0 then t1 + beta else t1
  let t1Index := ⌊t1 * dBetaInv⌋
  let t2 := if t2 < 0 then t2 + beta else t2
  let t2Index := ⌊t2 * dBetaInv⌋
  let row := u32 (r1 * bins + t1Index)
  let col := u32 (r2 * bins + t2Index)
  let mirrored := decide (row > col)
  let row' := if row > col then col else row
  let col' := if row > col then row else col
  let symm : ℤ := if row' = col' then 1 else 2
  (u32 (u32 (bins * vol * row' + col') - (u32 (row' * (row' + 1))) / 2), symm, mirrored)

variable [StarRing F]

/-- `GammaWClass::Weight`, `gamma3.cpp` 295-342. -/
def GammaW.eval (g : GammaW Q F) (rin rout ur : Site) (tin tout ut : Q) (sin sout : Dir → Spin) : Res F := do
  let dBetaInv := (g.bins : Q) / g.beta
  let r1 := coordiIndex g.lat rout.vec ur.vec
  let r2 := coordiIndex g.lat rin.vec ur.vec
  let coord := r1 * latVol g.lat + r2
  let t1 := tout - ut
  let t2 := tin - ut
  let t1 := if t1 < 0 then t1 + g.beta else t1
  let t1Index := ⌊t1 * dBetaInv⌋
  let t2 := if t2 < 0 then t2 + g.beta else t2
  let t2Index := ⌊t2 * dBetaInv⌋
  let tau := t1Index * g.bins + t2Index
  let a ← vecAt g.rSqueeze coord
  let b ← vecAt g.tauSqueeze tau
  let index := u32 (a * g.tauSize + b)
  let sp := gammaSpinIndex sout sin
  let index := if sp ≥ 4 then u32 (index + g.rSize * g.tauSize) else index
  let w ← g.weight.at index
  let flag ← vecAt g.tauFlag tau
  let w := if flag ≠ 0 then -(star w) else w
  .ok (if sp = 0 ∨ sp = 1 then w else if sp = 2 ∨ sp = 3 then -w else if sp = 4 then -(star w) else w)

/-- `GammaWClass::Measure`, `gamma3.cpp` 378-423. The symmetry factor is an `int` product, converted to a real number when
the weight is divided by it; a zero gives no number, here zero. -/
def GammaW.measure (g : GammaW Q F) (rin rout ur : Site) (tin tout ut : Q) (sin sout : Dir → Spin) (weight : F) :
    Res (GammaW Q F) := do
  let dBetaInv := (g.bins : Q) / g.beta
  let r1 := coordiIndex g.lat rout.vec ur.vec
  let r2 := coordiIndex g.lat rin.vec ur.vec
  let coord := r1 * latVol g.lat + r2
  let t1 := tout - ut
  let t2 := tin - ut
  let t1 := if t1 < 0 then t1 + g.beta else t1
  let t1Index := ⌊t1 * dBetaInv⌋
  let t2 := if t2 < 0 then t2 + g.beta else t2
  let t2Index := ⌊t2 * dBetaInv⌋
  let tau := t1Index * g.bins + t2Index
  let a ← vecAt g.rSqueeze coord
  let b ← vecAt g.tauSqueeze tau
  let index := u32 (a * g.tauSize + b)
  let sp := gammaSpinIndex sout sin
  let index := if sp ≥ 4 then u32 (index + g.rSize * g.tauSize) else index
  let c ← vecAt g.rSymFactor coord
  let e ← vecAt g.tauSymFactor tau
  let w := weight / ((c * e : ℤ) : F)
  let flag ← vecAt g.tauFlag tau
  let w := if flag ≠ 0 then -(star w) else w
  if sp = 0 ∨ sp = 1 then do
    let accu ← g.accu.add index w
    .ok { g with accu := accu }
  else if sp = 2 ∨ sp = 3 then do
    let accu ← g.accu.add index (-w)
    .ok { g with accu := accu }
  else if sp = 4 then do
    let accu ← g.accu.add index (w / 2)
    .ok { g with accu := accu }
  else if sp = 5 then do
    let accu ← g.accu.add index (-(star w) / 2)
    .ok { g with accu := accu }
  else .ok g

/-- `GClass`, `component.h` 48-69. -/
structure GTab (Q F : Type) where
  map : IndexMap Q
  smooth : Arr F
  meas : Arr F
  gamma : Option (GammaG Q F)

/-- `WClass`, `component.h` 75-98. -/
structure WTab (Q F : Type) where
  map : IndexMap Q
  smooth : Arr F
  delta : Arr F
  meas : Arr F
  gamma : Option (GammaW Q F)

/-- Call through the pointer `GGGammaGWeight`. -/
def GTab.gammaEval (T : GTab Q F) (rin ur : Site) (tin tout ut : Q) (sin : Spin) : Res F :=
  match T.gamma with
  | none => .ub
  | some g => g.eval rin ur tin tout ut sin

/-- Call through the pointer `WWGammaWWeight`. -/
def WTab.gammaEval (T : WTab Q F) (rin rout ur : Site) (tin tout ut : Q) (sin sout : Dir → Spin) : Res F :=
  match T.gamma with
  | none => .ub
  | some g => g.eval rin rout ur tin tout ut sin sout

/-- `GClass::Weight` without direction, `component_MC.cpp` 17-32. -/
def GTab.weight0 (T : GTab Q F) (e : Ext Q) (rin rout : Site) (tin tout : Q) (sin sout : Spin) (isMeas isGam : Bool) :
    Res F := do
  let index ← T.map.smoothIndex (spinNum sin) (spinNum sout) rin rout tin tout
  if isMeas then T.meas.at index
  else if isGam then T.gammaEval rin e.r tin tout e.tau sin
  else do
    let w ← T.smooth.at index
    .ok ((T.map.tauSym tin tout : F) * w)

/-- `GClass::Weight` with direction, `component_MC.cpp` 34-62. -/
def GTab.weight (T : GTab Q F) (e : Ext Q) (dir : Dir) (r1 r2 : Site) (t1 t2 : Q) (s1 s2 : Spin) (isMeas isGam : Bool) :
    Res F := do
  let index ← if dir = IN then T.map.smoothIndex (spinNum s1) (spinNum s2) r1 r2 t1 t2
    else T.map.smoothIndex (spinNum s2) (spinNum s1) r2 r1 t2 t1
  let factor := if dir = IN then T.map.tauSym t1 t2 else T.map.tauSym t2 t1
  if isMeas then T.meas.at index
  else if isGam then
    if dir = IN then T.gammaEval r1 e.r t1 t2 e.tau s1
    else T.gammaEval r2 e.r t2 t1 e.tau s2
  else do
    let w ← T.smooth.at index
    .ok ((factor : F) * w)

/-- `WClass::Weight` without direction, `component_MC.cpp` 64-85. -/
def WTab.weight0 (T : WTab Q F) (e : Ext Q) (rin rout : Site) (tin tout : Q) (sin sout : Dir → Spin)
    (isWorm isMeas isDelta isGam : Bool) : Res F :=
  let sin := if isWorm then spinUpUp else sin
  let sout := if isWorm then spinUpUp else sout
  if isDelta then do
    let index ← T.map.deltaIndex (spinNum2 sin) (spinNum2 sout) rin rout
    T.delta.at index
  else do
    let index ← T.map.smoothIndex (spinNum2 sin) (spinNum2 sout) rin rout tin tout
    if isMeas then T.meas.at index
    else if isGam then T.gammaEval rin rout e.r tin tout e.tau sin sout
    else T.smooth.at index

/-- `WClass::Weight` with direction, `component_MC.cpp` 87-117. -/
def WTab.weight (T : WTab Q F) (e : Ext Q) (dir : Dir) (r1 r2 : Site) (t1 t2 : Q) (s1 s2 : Dir → Spin)
    (isWorm isMeas isDelta isGam : Bool) : Res F := do
  let s1 := if isWorm then spinUpUp else s1
  let s2 := if isWorm then spinUpUp else s2
  let index ← if dir = IN then
      if isDelta then T.map.deltaIndex (spinNum2 s1) (spinNum2 s2) r1 r2
      else T.map.smoothIndex (spinNum2 s1) (spinNum2 s2) r1 r2 t1 t2
    else if isDelta then T.map.deltaIndex (spinNum2 s2) (spinNum2 s1) r2 r1
    else T.map.smoothIndex (spinNum2 s2) (spinNum2 s1) r2 r1 t2 t1
  if isMeas then T.meas.at index
  else if isDelta then T.delta.at index
  else if isGam then
    if dir = IN then T.gammaEval r1 r2 e.r t1 t2 e.tau s1 s2
    else T.gammaEval r2 r1 e.r t2 t1 e.tau s2 s1
  else T.smooth.at index

end
end Feyn
