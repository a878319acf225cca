import Verif.Model.Diagram

/-!
# Building, saving, loading and repairing a diagram
(`module/diagram/diagram.cpp` 89-169, `module/diagram/diagram_IO.cpp` 20-190)

A Python dictionary is a record here; the conversion of values is not modelled. Names in a file are
non-negative.
-/

namespace Feyn

/-- Entry of the list `Ver`, `diagram_IO.cpp` 98-120. -/
structure VerRec (Q : Type) where
  name : ℕ
  r : Site
  tau : Q
  spinIn : Spin
  spinOut : Spin

/-- Entry of the list `G`, `diagram_IO.cpp` 39-66. -/
structure GRec where
  inV : ℕ
  outV : ℕ
  k : ℤ
  isMeas : Bool
  isGam : Bool

/-- Entry of the list `W`, `diagram_IO.cpp` 68-97. -/
structure WRec where
  inV : ℕ
  outV : ℕ
  k : ℤ
  isDelta : Bool
  isMeas : Bool
  isGam : Bool

/-- The sub-dictionary `Worm`, `diagram_IO.cpp` 20-38. -/
structure WormRec where
  ira : ℕ
  masha : ℕ
  dSpin : ℤ
  k : ℤ

/-- The dictionary of `ToDict`, `diagram_IO.cpp` 122-140. -/
structure DiagDict (Q : Type) where
  ver : List (VerRec Q)
  g : List GRec
  w : List WRec
  worm : Option WormRec
  sfl : ℤ

section
variable {Q F : Type} [Field Q] [LinearOrder Q] [Field F]

/-- Run a loop body over a list. -/
def loopM {α β : Type} (f : β → α → Res β) : β → List α → Res β
  | b, [] => .ok b
  | b, a :: as => do
    let b' ← f b a
    loopM f b' as

/-- Run a producer over a list and collect the results. -/
def collectM {α β : Type} (f : α → Res β) : List α → Res (List β)
  | [] => .ok []
  | a :: as => do
    let b ← f a
    let bs ← collectM f as
    .ok (b :: bs)

/-! ### Saving -/

/-- `_ToDict(vertex)`, `diagram_IO.cpp` 98-108, on `Ver(index)`. -/
def verToDict (d : Diag Q F) (i : ℕ) : Res (VerRec Q) := do
  let v ← d.Ver.get i
  deref v
  .ok ⟨d.Ver.name v, d.co.r v, d.co.tau v, d.co.spin v IN, d.co.spin v OUT⟩

/-- `_ToDict(gLine)`, `diagram_IO.cpp` 39-48. -/
def gToDict (d : Diag Q F) (i : ℕ) : Res GRec := do
  let g ← d.G.get i
  deref g
  deref (d.sh.gV g IN)
  deref (d.sh.gV g OUT)
  .ok ⟨d.Ver.name (d.sh.gV g IN), d.Ver.name (d.sh.gV g OUT), d.mo.gK g, d.fl.gMeas g, d.fl.gGam g⟩

/-- `_ToDict(wLine)`, `diagram_IO.cpp` 68-78. -/
def wToDict (d : Diag Q F) (i : ℕ) : Res WRec := do
  let w ← d.W.get i
  deref w
  deref (d.sh.wV w IN)
  deref (d.sh.wV w OUT)
  .ok ⟨d.Ver.name (d.sh.wV w IN), d.Ver.name (d.sh.wV w OUT), d.mo.wK w, d.fl.wDelta w, d.fl.wMeas w, d.fl.wGam w⟩

/-- `_ToDict(WormClass)`, `diagram_IO.cpp` 20-28. -/
def wormToDict (d : Diag Q F) : Res WormRec := do
  deref d.worm.ira
  deref d.worm.masha
  .ok ⟨d.Ver.name d.worm.ira, d.Ver.name d.worm.masha, d.worm.dSpin, d.worm.k⟩

/-- `Diagram::ToDict`, `diagram_IO.cpp` 122-140. -/
def toDict (d : Diag Q F) : Res (DiagDict Q) := do
  let vs ← collectM (verToDict d) (List.range d.Ver.avail)
  let gs ← collectM (gToDict d) (List.range d.G.avail)
  let ws ← collectM (wToDict d) (List.range d.W.avail)
  if d.worm.exist then do
    let wo ← wormToDict d
    .ok ⟨vs, gs, ws, some wo, d.sfl⟩
  else .ok ⟨vs, gs, ws, none, d.sfl⟩

/-! ### Repairing -/

/-- Loop body for propagators, `diagram.cpp` 129-141. -/
def fixG (P : Params Q F) (d : Diag Q F) (i : ℕ) : Res (Diag Q F) := do
  let g ← d.G.get i
  deref g
  let vin := d.sh.gV g IN
  let vout := d.sh.gV g OUT
  deref vin
  deref vout
  let wt := gW0 P d.ext (d.co.r vin) (d.co.r vout) (d.co.tau vin) (d.co.tau vout)
    (d.co.spin vin OUT) (d.co.spin vout IN) (d.fl.gMeas g) false
  .ok { d with
    sh := { d.sh with vG := upd2 (upd2 d.sh.vG vin OUT g) vout IN g }
    fl := { d.fl with gGam := upd d.fl.gGam g false }
    wt := { d.wt with gWt := upd d.wt.gWt g wt }
    weight := d.weight * wt }

/-- Loop body for interactions, `diagram.cpp` 143-160. The worm flag is computed from the pointers
`Worm.Ira` and `Worm.Masha` without a test of `Worm.Exist` (line 149). -/
def fixW (P : Params Q F) (d : Diag Q F) (i : ℕ) : Res (Diag Q F) := do
  let w ← d.W.get i
  deref w
  let vin := d.sh.wV w IN
  let vout := d.sh.wV w OUT
  let isWorm := vin == d.worm.ira || vin == d.worm.masha || vout == d.worm.ira || vout == d.worm.masha
  deref vin
  deref vout
  let wt := wW0 P d.ext (d.co.r vin) (d.co.r vout) (d.co.tau vin) (d.co.tau vout)
    (d.co.spin vin) (d.co.spin vout) isWorm (d.fl.wMeas w) (d.fl.wDelta w) false
  .ok { d with
    sh := { d.sh with
      vW := upd (upd d.sh.vW vin w) vout w
      vDir := upd (upd d.sh.vDir vin IN) vout OUT }
    fl := { d.fl with wWorm := upd d.fl.wWorm w isWorm, wGam := upd d.fl.wGam w false }
    wt := { d.wt with wWt := upd d.wt.wWt w wt }
    weight := d.weight * wt }

/-- `Diagram::FixDiagram`, `diagram.cpp` 128-168: the loops over the lines and the total weight. -/
def fixLines (P : Params Q F) (d : Diag Q F) : Res (Diag Q F) := do
  let d := { d with weight := 1 }
  let d ← loopM (fixG P) d (List.range d.G.avail)
  let d ← loopM (fixW P) d (List.range d.W.avail)
  let w := d.weight * ((d.sfl : F) * (if d.order % 2 = 0 then 1 else -1))
  .ok { d with weight := w, phase := P.ph w }

/-- `Diagram::FixDiagram`, `diagram.cpp` 114-169. -/
def fixDiagram (P : Params Q F) (d : Diag Q F) : Res (Diag Q F) :=
  if d.hasGamma ≠ 0 then .abort
  else if d.worm.exist then do
    deref d.worm.ira
    deref d.worm.masha
    fixLines P { d with
      order := d.W.avail
      worm := { d.worm with
        wt := wormWeight (d.co.r d.worm.ira) (d.co.r d.worm.masha) (d.co.tau d.worm.ira)
          (d.co.tau d.worm.masha) } }
  else fixLines P { d with order := d.W.avail, worm := { d.worm with wt := 1 } }

/-! ### Loading -/

/-- `while (B.HowMany() > 0) B.Remove(B.HowMany() - 1);`, `diagram.cpp` 107-112. The number of rounds is
the number of components. -/
def clearBundle : ℕ → Bundle → Res Bundle
  | 0, b => .ok b
  | n + 1, b => do
    let b' ← b.removeName (b.avail - 1)
    clearBundle n b'

/-- `Diagram::ClearDiagram`, `diagram.cpp` 98-113. -/
def clearDiagram (d : Diag Q F) : Res (Diag Q F) := do
  let g ← clearBundle d.G.avail d.G
  let w ← clearBundle d.W.avail d.W
  let v ← clearBundle d.Ver.avail d.Ver
  .ok { d with
    mo := { d.mo with gHash := fun _ => false, wHash := fun _ => false }
    G := g
    W := w
    Ver := v }

/-- `_FromDict(dict, Ver.Add())`, `diagram_IO.cpp` 109-120, 150. -/
def verFromDict (d : Diag Q F) (r : VerRec Q) : Res (Diag Q F) := do
  let (v, ver) ← d.Ver.add
  .ok { d with
    Ver := { ver with name := upd ver.name v r.name }
    co := {
      r := upd d.co.r v r.r
      tau := upd d.co.tau v r.tau
      spin := upd d.co.spin v (fun e => if e = OUT then r.spinOut else r.spinIn) } }

/-- `_FromDict(dict, W.Add())`, `diagram_IO.cpp` 79-97, 152. -/
def wFromDict (d : Diag Q F) (r : WRec) : Res (Diag Q F) := do
  let (w, W) ← d.W.add
  let a ← d.Ver.get r.inV
  let b ← d.Ver.get r.outV
  let h ← addWHash d.mo.wHash r.k
  .ok { d with
    W := W
    sh := { d.sh with wV := upd2 (upd2 d.sh.wV w IN a) w OUT b }
    mo := { d.mo with wK := upd d.mo.wK w r.k, wHash := h }
    fl := { d.fl with
      wDelta := upd d.fl.wDelta w r.isDelta
      wMeas := upd d.fl.wMeas w r.isMeas
      wGam := upd d.fl.wGam w r.isGam }
    measG := if r.isMeas then false else d.measG
    gMeasure := if r.isMeas then NULL else d.gMeasure
    wMeasure := if r.isMeas then w else d.wMeasure }

/-- `_FromDict(dict, G.Add())`, `diagram_IO.cpp` 49-66, 154. -/
def gFromDict (d : Diag Q F) (r : GRec) : Res (Diag Q F) := do
  let (g, G) ← d.G.add
  let a ← d.Ver.get r.inV
  let b ← d.Ver.get r.outV
  let h ← addGHash d.mo.gHash r.k
  .ok { d with
    G := G
    sh := { d.sh with gV := upd2 (upd2 d.sh.gV g IN a) g OUT b }
    mo := { d.mo with gK := upd d.mo.gK g r.k, gHash := h }
    fl := { d.fl with
      gMeas := upd d.fl.gMeas g r.isMeas
      gGam := upd d.fl.gGam g r.isGam }
    measG := if r.isMeas then true else d.measG
    gMeasure := if r.isMeas then g else d.gMeasure
    wMeasure := if r.isMeas then NULL else d.wMeasure }

/-- `_FromDict(dict, Worm)` and the assignment of `Worm.Exist`, `diagram_IO.cpp` 29-38, 155-158. -/
def wormFromDict (d : Diag Q F) : Option WormRec → Res (Diag Q F)
  | none => .ok { d with worm := { d.worm with exist := false } }
  | some r => do
    let a ← d.Ver.get r.ira
    let b ← d.Ver.get r.masha
    .ok { d with worm := { d.worm with exist := true, ira := a, masha := b, dSpin := r.dSpin, k := r.k } }

/-- `Diagram::FromDict(const Dictionary&)`, `diagram_IO.cpp` 146-164. -/
def fromDict (P : Params Q F) (dict : DiagDict Q) (d : Diag Q F) : Res (Diag Q F) := do
  let d ← clearDiagram d
  let d ← loopM verFromDict d dict.ver
  let d ← loopM wFromDict d dict.w
  let d ← loopM gFromDict d dict.g
  let d ← wormFromDict d dict.worm
  fixDiagram P { d with sfl := dict.sfl }

/-- `Diagram::FromDict(dict, lat, g, w)`, `diagram_IO.cpp` 142-146: `Reset` (which repairs the diagram held
so far, `diagram.cpp` 89-96) and then the load. -/
def loadDiagram (P : Params Q F) (dict : DiagDict Q) (d : Diag Q F) : Res (Diag Q F) := do
  let d ← fixDiagram P d
  fromDict P dict d

/-- The configuration string of `Diagram::BuildNew`, `diagram_IO.cpp` 178-186 (`D == 2`). -/
def newDict : DiagDict Q where
  ver := [⟨0, ⟨0, 1, 0⟩, 0, UP, UP⟩, ⟨1, ⟨0, 1, 0⟩, 0, UP, UP⟩]
  g := [⟨0, 1, 1, true, false⟩, ⟨1, 0, 2, false, false⟩]
  w := [⟨0, 1, 1, false, false, false⟩]
  worm := none
  sfl := 1

/-- `Diagram::BuildNew`, `diagram_IO.cpp` 166-190. -/
def buildNew (P : Params Q F) (d : Diag Q F) : Res (Diag Q F) := loadDiagram P newDict d

end

/-- A diagram as left by the constructor `Diagram::Diagram`, `diagram.cpp` 27-37, and by the constructors of
its members (`component_bundle.cpp` 16-24, `component.h` 95-98). All other memory has arbitrary content. In
particular `SignFermiLoop` is read by the first `FixDiagram` before it is written; the product goes to
`Weight`, which is recomputed by the load. The model gives it an arbitrary value. -/
structure Diag.Fresh {Q F : Type} [Field Q] [LinearOrder Q] [Field F] (d : Diag Q F) : Prop where
  order : d.order = 0
  ver : d.Ver = Bundle.init
  g : d.G = Bundle.init
  w : d.W = Bundle.init
  hasGamma : d.hasGamma = 0
  worm : d.worm.exist = false
  ira : d.worm.ira = NULL
  masha : d.worm.masha = NULL

end Feyn
