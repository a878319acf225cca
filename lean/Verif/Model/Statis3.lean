import Verif.Model.Symmetry
import Verif.Model.Collect

/-!
# Statistics of the three-point functions (`module/weight/gamma3.cpp`, `module/weight/weight.cpp`, IO.py, dyson/collect.py)

Numbers are exact: the loss of precision of single precision numbers is not modelled, the type of the elements is.
-/

namespace Feyn

/-- The entry `"GammaGStatis"` or `"GammaWStatis"` of the file of statistics. -/
structure StatDict (Q F : Type) where
  norm : Q
  normAccu : Q
  accu : NArr F

/-- `ArrayObject::Size`, `pyarraywrapper.cpp` 132-138. -/
def NArr.size {F : Type} (x : NArr F) : ℤ := x.shape.foldl (fun s i => u32 (s * i)) 1

/-- The array part of `StatisFromDict`, `gamma3.cpp` 147-150 and 523-526, with `WeightArray::Assign` (`weight_array.cpp` 18-41): the shapes are compared from the second axis on; the
number of elements that are copied is the size of the source, and the type of its elements is not checked. -/
def Arr.assignFrom {F : Type} [Zero F] (a : Arr F) (shape : List ℤ) (x : NArr F) : Res (Arr F) :=
  if x.shape.length < shape.length then .ub
  else if (x.shape.take shape.length).tail ≠ shape.tail then .abort
  else if x.size = 0 then .ok ⟨a.n, fun _ => 0⟩
  else if x.isComplex = false ∨ a.n < x.size then .ub
  else .ok ⟨a.n, fun i => if 0 ≤ i ∧ i < x.size then x.data i else 0⟩

section
variable {Q F : Type} [Field Q] [LinearOrder Q] [FloorRing Q] [Field F] [Algebra Q F]

/-- Shape of the arrays of `GammaGClass`, `gamma3.cpp` 26. -/
def GammaG.shape (g : GammaG Q F) : List ℤ := [2, latVol g.lat, g.bins, g.bins]

/-- `GammaGClass::StatisToDict`, `gamma3.cpp` 155-162. -/
def GammaG.statisToDict (g : GammaG Q F) (norm : Q) : StatDict Q F := ⟨norm, g.normAccu, ⟨g.shape, true, g.accu.data⟩⟩

/-- `GammaGClass::StatisFromDict`, `gamma3.cpp` 143-152. The second component is `_Norm`. -/
def GammaG.statisFromDict (g : GammaG Q F) (d : StatDict Q F) : Res (GammaG Q F × Q) := do
  let a ← g.accu.assignFrom g.shape d.accu
  .ok ({ g with normAccu := d.normAccu, accu := a }, d.norm)

/-- `GammaGClass::MeasureNorm`, `gamma3.cpp` 71-74. -/
def GammaG.measureNorm (g : GammaG Q F) (w : Q) : GammaG Q F := { g with normAccu := g.normAccu + w }

/-- `GammaGClass::ClearStatistics`, `gamma3.cpp` 122-126. -/
def GammaG.clear (g : GammaG Q F) : GammaG Q F := { g with normAccu := 0, accu := ⟨g.accu.n, fun _ => 0⟩ }

/-- Shape of the arrays of `GammaWClass`, `gamma3.cpp` 501. -/
def GammaW.shape (g : GammaW Q F) : List ℤ := [2, g.rSize, g.tauSize]

/-- `GammaWClass::StatisToDict`, `gamma3.cpp` 531-538. -/
def GammaW.statisToDict (g : GammaW Q F) (norm : Q) : StatDict Q F := ⟨norm, g.normAccu, ⟨g.shape, true, g.accu.data⟩⟩

/-- `GammaWClass::StatisFromDict`, `gamma3.cpp` 519-529. -/
def GammaW.statisFromDict (g : GammaW Q F) (d : StatDict Q F) : Res (GammaW Q F × Q) := do
  let a ← g.accu.assignFrom g.shape d.accu
  .ok ({ g with normAccu := d.normAccu, accu := a }, d.norm)

/-- The two entries of the file of statistics. -/
structure File3 (Q F : Type) where
  g : Option (StatDict Q F)
  w : Option (StatDict Q F)

/-- `SaveBigDict`, IO.py 23-30, and hickle: the second array is changed to single precision. -/
def File3.save (f : File3 Q F) : File3 Q F := { f with w := f.w.map fun d => { d with accu := { d.accu with isComplex := false } } }

/-- `LoadBigDict`, IO.py 32-40: nothing is changed here; the entry `"WWGammaW"` it looks for is in the file of weights. -/
def File3.load (f : File3 Q F) : File3 Q F := f

/-- The part of `Weight::ToDict`, `weight.cpp` 130-135, with the norms of both objects. -/
def toDict3 (g : GammaG Q F) (w : GammaW Q F) (ng nw : Q) : File3 Q F := ⟨some (g.statisToDict ng), some (w.statisToDict nw)⟩

/-- The part of `Weight::FromDict`, `weight.cpp` 100-110, for two objects that exist. Norms that are not read remain. -/
def fromDict3 (g : GammaG Q F) (w : GammaW Q F) (ng nw : Q) (f : File3 Q F) : Res ((GammaG Q F × Q) × GammaW Q F × Q) :=
  match f.g, f.w with
  | some dg, some dw => do
    let g ← g.statisFromDict dg
    let w ← w.statisFromDict dw
    .ok (g, w)
  | _, _ => .ok ((g.clear, ng), { w with normAccu := 0, accu := ⟨w.accu.n, fun _ => 0⟩ }, nw)

/-- A measurement of the three-point propagator (the arguments of `GammaGClass::Measure`). -/
structure Ev3 (Q F : Type) where
  rin : Site
  ur : Site
  tin : Q
  tout : Q
  ut : Q
  spin : Spin
  weight : F

/-- What happens to the statistics of the three-point propagator in the course of a simulation. -/
inductive Op3 (Q F : Type) where
  | measure (e : Ev3 Q F)
  | norm (w : Q)
  | squeeze (factor : Q)
  | restart

/-- One of these operations. A restart loads what was saved into a new object. -/
def GammaG.op (s : GammaG Q F × Q) : Op3 Q F → Res (GammaG Q F × Q)
  | .measure e => do
    let g ← s.1.measure e.rin e.ur e.tin e.tout e.ut e.spin e.weight
    .ok (g, s.2)
  | .norm w => .ok (s.1.measureNorm w, s.2)
  | .squeeze f => do
    let g ← s.1.squeeze f
    .ok (g, s.2)
  | .restart => match (File3.load (File3.save ⟨some (s.1.statisToDict s.2), none⟩)).g with
    | some d => s.1.clear.statisFromDict d
    | none => .ok s

/-- A sequence of operations. -/
def GammaG.ops (s : GammaG Q F × Q) : List (Op3 Q F) → Res (GammaG Q F × Q)
  | [] => .ok s
  | o :: l => do
    let s ← GammaG.op s o
    GammaG.ops s l

/-- `GammaGAccu += data['WeightAccu']` and the next two lines, dyson/collect.py 186-193 and 196-205. The norms are compared after the data were added. Arrays of other shapes raise an
exception; numpy would repeat axes of length one, which do not occur. `none`: no data yet. -/
def merge3 (s : Option (StatDict Q F)) (d : StatDict Q F) : Try (Option (StatDict Q F)) :=
  match s with
  | none => (some d, true)
  | some s =>
    if s.accu.shape ≠ d.accu.shape then (some s, false)
    else (some { s with normAccu := s.normAccu + d.normAccu, accu := { s.accu with data := fun i => s.accu.data i + d.accu.data i } }, decide (s.norm = d.norm))

/-- The part of the `try` block for three-point functions, dyson/collect.py 183-205. A missing entry raises an exception. -/
def File3.add (c : File3 Q F) (f : File3 Q F) : Try (File3 Q F) :=
  match f.g with
  | none => (c, false)
  | some d =>
    let r := merge3 c.g d
    let c := { c with g := r.1 }
    if r.2 then
      match f.w with
      | none => (c, false)
      | some d =>
        let r := merge3 c.w d
        ({ c with w := r.1 }, r.2)
    else (c, false)

/-- The loop over the files with the number of successes, dyson/collect.py 176-209, as far as three-point functions are concerned. `none` is a file that cannot be read. -/
def File3.addAll (c : File3 Q F) : List (Option (File3 Q F)) → File3 Q F × ℕ
  | [] => (c, 0)
  | none :: l => File3.addAll c l
  | some f :: l =>
    let r := c.add f
    let r' := File3.addAll r.1 l
    (r'.1, r'.2 + if r.2 then 1 else 0)

/-- `GammaGAccu *= 1.0/GammaGNormAccu*GammaGNorm`, dyson/collect.py 213-215. A division by zero raises an exception or gives numbers that are not finite; both are `none`. -/
def StatDict.finish (d : StatDict Q F) : Option (NArr F) :=
  if d.normAccu = 0 then none else some { d.accu with data := fun i => (1 / d.normAccu * d.norm) • d.accu.data i }

/-- `CollectStatis` with `runGamma3`, dyson/collect.py 152-221, as far as three-point functions are concerned. `none` is an exception: a `CollectStatisFailure`, or no data. -/
def collect3 (files : List (Option (File3 Q F))) : Option (NArr F × NArr F) :=
  if files.length = 0 then none
  else
    let r := File3.addAll ⟨none, none⟩ files
    if (r.2 : Q) / (files.length : Q) < 3 / 4 then none
    else do
      let dg ← r.1.g
      let dw ← r.1.w
      let a ← dg.finish
      let b ← dw.finish
      some (a, { b with isComplex := false })

end

end Feyn
