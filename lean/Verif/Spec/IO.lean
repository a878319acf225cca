import Verif.Spec.Inv
import Verif.Model.DiagIO

/-!
# Specification of saving and loading

Two diagrams are the same if they agree in everything but the memory cells in which their components are stored.
Components are identified by their names (positions in the containers).
-/

namespace Feyn

section
variable {Q F : Type} [Field Q] [LinearOrder Q] [Field F]

/-- `d'` is the same diagram as `d`. -/
structure SameDiagram (d d' : Diag Q F) : Prop where
  nVer : d'.Ver.avail = d.Ver.avail
  nG : d'.G.avail = d.G.avail
  nW : d'.W.avail = d.W.avail
  order : d'.order = d.order
  sfl : d'.sfl = d.sfl
  weight : d'.weight = d.weight
  phase : d'.phase = d.phase
  hasGamma : d'.hasGamma = d.hasGamma
  gHash : d'.mo.gHash = d.mo.gHash
  wHash : d'.mo.wHash = d.mo.wHash
  /-- Vertices of the same name: coordinates and adjacent lines. -/
  ver : ∀ i v v', d.Ver.get i = .ok v → d'.Ver.get i = .ok v' →
    d'.co.r v' = d.co.r v ∧ d'.co.tau v' = d.co.tau v ∧ (∀ e, d'.co.spin v' e = d.co.spin v e) ∧
    d'.sh.vDir v' = d.sh.vDir v ∧ d'.W.name (d'.sh.vW v') = d.W.name (d.sh.vW v) ∧
    ∀ e, d'.G.name (d'.sh.vG v' e) = d.G.name (d.sh.vG v e)
  /-- Propagators of the same name. -/
  g : ∀ i g g', d.G.get i = .ok g → d'.G.get i = .ok g' →
    (∀ e, d'.Ver.name (d'.sh.gV g' e) = d.Ver.name (d.sh.gV g e)) ∧ d'.mo.gK g' = d.mo.gK g ∧
    d'.fl.gMeas g' = d.fl.gMeas g ∧ d'.fl.gGam g' = d.fl.gGam g ∧ d'.wt.gWt g' = d.wt.gWt g
  /-- Interactions of the same name. -/
  w : ∀ i w w', d.W.get i = .ok w → d'.W.get i = .ok w' →
    (∀ e, d'.Ver.name (d'.sh.wV w' e) = d.Ver.name (d.sh.wV w e)) ∧ d'.mo.wK w' = d.mo.wK w ∧
    d'.fl.wMeas w' = d.fl.wMeas w ∧ d'.fl.wGam w' = d.fl.wGam w ∧ d'.fl.wDelta w' = d.fl.wDelta w ∧
    d'.fl.wWorm w' = d.fl.wWorm w ∧ d'.wt.wWt w' = d.wt.wWt w
  exist : d'.worm.exist = d.worm.exist
  worm : d.worm.exist = true → d'.Ver.name d'.worm.ira = d.Ver.name d.worm.ira ∧
    d'.Ver.name d'.worm.masha = d.Ver.name d.worm.masha ∧ d'.worm.k = d.worm.k ∧ d'.worm.dSpin = d.worm.dSpin ∧
    d'.worm.wt = d.worm.wt
  measG : d'.measG = d.measG
  gMeasure : d.measG = true → d'.G.name d'.gMeasure = d.G.name d.gMeasure
  wMeasure : d.measG = false → d'.W.name d'.wMeasure = d.W.name d.wMeasure

end
end Feyn
