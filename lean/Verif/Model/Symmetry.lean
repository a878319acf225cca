import Verif.Model.Tables
import Verif.Model.Bonds
import Mathlib.Data.List.Dedup

/-!
# Symmetries of the three-point functions (dyson/gamma3_calc.py 612-748, dyson/main.py 83-97, `module/weight/gamma3.cpp` 485-518)

Tables are functions of their two indices. A `set` is a list without repetitions; the order in which a `set` is traversed does not matter since all elements write the same numbers.
-/

namespace Feyn

/-- `GetR`, dyson/gamma3_calc.py 612-621. -/
def pyGetR (r L : ℤ) : ℤ :=
  if r < 0 then
    if r + L < 0 then r + L + L else r + L
  else if r ≥ L then
    if r - L ≥ L then r - L - L else r - L
  else r

/-- A tuple `(x1,y1,x2,y2)`. -/
structure Quad where
  x1 : ℤ
  y1 : ℤ
  x2 : ℤ
  y2 : ℤ
deriving DecidableEq

/-- Comparison of tuples. -/
def Quad.lt (a b : Quad) : Bool :=
  a.x1 < b.x1 || a.x1 = b.x1 && (a.y1 < b.y1 || a.y1 = b.y1 && (a.x2 < b.x2 || a.x2 = b.x2 && a.y2 < b.y2))

/-- `MirrorR`, dyson/gamma3_calc.py 623-637. `sym` is `_map.Symmetry`, a list of names. -/
def pyMirror (sym : List String) (lx ly : ℤ) (v : Quad) : List Quad :=
  (v :: if "Triangular" ∈ sym then
      [⟨pyGetR (-v.x1 - v.y1) lx, v.y1, pyGetR (-v.x2 - v.y2) lx, v.y2⟩,
       ⟨pyGetR (-v.x1) lx, pyGetR (-v.y1) ly, pyGetR (-v.x2) lx, pyGetR (-v.y2) ly⟩,
       ⟨pyGetR (v.x1 + v.y1) lx, pyGetR (-v.y1) ly, pyGetR (v.x2 + v.y2) lx, pyGetR (-v.y2) ly⟩]
    else if "Square" ∈ sym then
      [⟨pyGetR (-v.x1) lx, v.y1, pyGetR (-v.x2) lx, v.y2⟩,
       ⟨pyGetR (-v.x1) lx, pyGetR (-v.y1) ly, pyGetR (-v.x2) lx, pyGetR (-v.y2) ly⟩,
       ⟨pyGetR v.x1 lx, pyGetR (-v.y1) ly, pyGetR v.x2 lx, pyGetR (-v.y2) ly⟩]
    else []).dedup

/-- `a[i,j]=v`. -/
def put (a : ℤ → ℤ → ℤ) (i j v : ℤ) : ℤ → ℤ → ℤ := fun k l => if k = i ∧ l = j then v else a k l

/-- `a is b` for integers that are computed separately: CPython keeps one object for every integer from -5 to 256 only. -/
def pyIs (a b : ℤ) : Bool := a = b && (-5 ≤ a && a ≤ 256)

/-- Variables of the first loop of `SymmetryMapping`. -/
structure TauTabs where
  squeeze : ℤ → ℤ → ℤ
  sym : ℤ → ℤ → ℤ
  flag : ℤ → ℤ → ℤ
  restore : List (ℤ × ℤ)
  index : ℤ

/-- Body of the first loop, dyson/gamma3_calc.py 653-662. -/
def tauStep (s : TauTabs) (p : ℤ × ℤ) : TauTabs :=
  let s := { s with squeeze := put s.squeeze p.1 p.2 s.index, sym := put s.sym p.1 p.2 2 }
  let s := if !pyIs p.1 p.2 then
    { s with squeeze := put s.squeeze p.2 p.1 s.index, sym := put s.sym p.2 p.1 2, flag := put s.flag p.2 p.1 1 } else s
  let s := if pyIs p.1 p.2 then { s with sym := put s.sym p.1 p.1 1 } else s
  { s with restore := s.restore ++ [p], index := s.index + 1 }

/-- `for t1 in range(TauBin): for t2 in range(t1, TauBin)`. -/
def tauPairs (n : ℕ) : List (ℤ × ℤ) :=
  (List.range n).flatMap fun (t1 : ℕ) => (List.range' t1 (n - t1)).map fun (t2 : ℕ) => ((t1 : ℤ), (t2 : ℤ))

/-- First half of `SymmetryMapping`, dyson/gamma3_calc.py 645-662. -/
def pyTauTabs (n : ℕ) : TauTabs := (tauPairs n).foldl tauStep ⟨fun _ _ => 0, fun _ _ => 0, fun _ _ => 0, [], 0⟩

/-- Variables of the second loop of `SymmetryMapping`. -/
structure RTabs where
  squeeze : ℤ → ℤ → ℤ
  sym : ℤ → ℤ → ℤ
  restore : List (ℤ × ℤ)
  points : List Quad
  index : ℤ

/-- `SiteList`, dyson/gamma3_calc.py 671-675. -/
def siteList (lx ly : ℕ) : List Quad :=
  (List.range lx).flatMap fun (x1 : ℕ) => (List.range ly).flatMap fun (y1 : ℕ) =>
    (List.range lx).flatMap fun (x2 : ℕ) => (List.range ly).map fun (y2 : ℕ) => ⟨x1, y1, x2, y2⟩

/-- `_map.CoordiIndex` of both sites. -/
def Quad.cell (lx ly : ℤ) (q : Quad) : ℤ × ℤ := (pyCoordiIndex [lx, ly] [q.x1, q.y1], pyCoordiIndex [lx, ly] [q.x2, q.y2])

/-- `for (x1,y1,x2,y2) in Rlist`, dyson/gamma3_calc.py 681-686; `size` is `RSize`. -/
def rFill (lx ly size : ℤ) (s : RTabs) (q : Quad) : Option RTabs := do
  let r1 ← npIndex (lx * ly) (q.cell lx ly).1
  let r2 ← npIndex (lx * ly) (q.cell lx ly).2
  some { s with squeeze := put s.squeeze r1 r2 s.index, points := q :: s.points, sym := put s.sym r1 r2 size }

/-- Body of the second loop, dyson/gamma3_calc.py 676-692. `sorted(Rlist)[0]` is found by comparing all elements. -/
def rStep (sym : List String) (lx ly : ℤ) (s : RTabs) (v : Quad) : Option RTabs :=
  if v ∈ s.points then some s
  else do
    let Rlist := pyMirror sym lx ly v
    let s ← Rlist.foldlM (rFill lx ly Rlist.length) s
    let m := Rlist.foldl (fun m q => if q.lt m then q else m) v
    some { s with index := s.index + 1, restore := s.restore ++ [m.cell lx ly] }

/-- Second half of `SymmetryMapping`, dyson/gamma3_calc.py 664-697. `none` is an `IndexError`. -/
def pyRTabs (sym : List String) (lx ly : ℕ) : Option RTabs :=
  (siteList lx ly).foldlM (rStep sym lx ly) ⟨fun _ _ => 0, fun _ _ => 0, [], [], 0⟩

/-- `.flatten().tolist()` of a table with `n` rows and columns. -/
def tabFlat (n : ℕ) (a : ℤ → ℤ → ℤ) : List ℤ := (List.range n).flatMap fun (i : ℕ) => (List.range n).map fun (j : ℕ) => a i j

section
variable {F : Type} [Zero F]

/-- An array with the axes spin, first and second site, first and second time. -/
abbrev Full (F : Type) := ℤ → ℤ → ℤ → ℤ → ℤ → F
/-- An array with the axes spin, class of pairs of sites, class of pairs of times. -/
abbrev Compact (F : Type) := ℤ → ℤ → ℤ → F

/-- `CompressGammaW` of an array with five axes and `MaxTauBinTiny` time bins, dyson/gamma3_calc.py 700-722. The second loop writes every element once. -/
def pyCompress (T : TauTabs) (R : RTabs) (n : ℕ) (Γ : Full F) : Compact F :=
  let C : ℤ → ℤ → ℤ → ℤ → F := (tauPairs n).foldl (fun C p => fun s r1 r2 k => if k = T.squeeze p.1 p.2 then Γ s r1 r2 p.1 p.2 else C s r1 r2 k) fun _ _ _ _ => 0
  fun s i k => match if 0 ≤ i then R.restore[i.toNat]? else none with
    | some r => C s r.1 r.2 k
    | none => 0

/-- `for t1 in range(TauBin): for t2 in range(0, t1)`. -/
def lowerPairs (n : ℕ) : List (ℤ × ℤ) :=
  (List.range n).flatMap fun (t1 : ℕ) => (List.range t1).map fun (t2 : ℕ) => ((t1 : ℤ), (t2 : ℤ))

end

/-- `UnCompressGammaW` of an array with three axes, dyson/gamma3_calc.py 724-748. -/
def pyUncompress {F : Type} [Ring F] [StarRing F] (T : TauTabs) (R : RTabs) (n : ℕ) (C : Compact F) : Full F :=
  let tauΓ : ℤ → ℤ → ℤ → ℤ → F := fun s r1 r2 k => C s (R.squeeze r1 r2) k
  let Γ : Full F := (lowerPairs n).foldl (fun Γ p => fun s r1 r2 t1 t2 => if t1 = p.1 ∧ t2 = p.2 then -star (tauΓ s r1 r2 (T.squeeze p.1 p.2)) else Γ s r1 r2 t1 t2)
    fun _ _ _ _ _ => 0
  let Γ : Full F := fun s r1 r2 t1 t2 => Γ s r2 r1 t1 t2
  (tauPairs n).foldl (fun Γ p => fun s r1 r2 t1 t2 => if t1 = p.1 ∧ t2 = p.2 then tauΓ s r1 r2 (T.squeeze p.1 p.2) else Γ s r1 r2 t1 t2) Γ

/-- The entry `"WWGammaW"` of the file of weights, dyson/main.py 86-97. -/
structure WWDict (F : Type) where
  tauSqueeze : List ℤ
  tauSymFactor : List ℤ
  tauFlag : List ℤ
  rSqueeze : List ℤ
  rSymFactor : List ℤ
  rSize : ℤ
  tauSize : ℤ
  smoothT : Option (NArr F)

/-- dyson/main.py 83-97; `Γ` is `WWGammaW` if there is one. The array is changed to `complex` when it is loaded, IO.py 36-39. -/
def wwDict {F : Type} [Zero F] (vol n : ℕ) (T : TauTabs) (R : RTabs) (Γ : Option (Full F)) : WWDict F :=
  ⟨tabFlat n T.squeeze, tabFlat n T.sym, tabFlat n T.flag, tabFlat vol R.squeeze, tabFlat vol R.sym, R.restore.length, T.restore.length,
    Γ.map fun Γ =>
      let rs : ℤ := R.restore.length
      let ts : ℤ := T.restore.length
      ⟨[2, rs, ts], true, fun i => pyCompress T R n Γ (i / (rs * ts)) (i / ts % rs) (i % ts)⟩⟩

/-- `GammaWClass::WeightFromDict`, `gamma3.cpp` 485-518, of an object without arrays. Elements of new arrays are zero (`utility/complex.cpp` 11-15). -/
def GammaW.weightFromDict {Q F : Type} [Zero F] (g : GammaW Q F) (d : WWDict F) : Res (GammaW Q F) := do
  let vol := latVol g.lat
  if d.rSqueeze.length ≠ u32 (vol * vol) then .abort
  else if d.rSymFactor.length ≠ u32 (vol * vol) then .abort
  else if d.tauSqueeze.length ≠ u32 (g.bins * g.bins) then .abort
  else if d.tauSymFactor.length ≠ u32 (g.bins * g.bins) then .abort
  else if d.tauFlag.length ≠ u32 (g.bins * g.bins) then .abort
  else
    let size := u32 (u32 (2 * d.rSize) * d.tauSize)
    let a : Arr F := ⟨size, fun _ => 0⟩
    let w ← match d.smoothT with
      | some x => a.fromDict [2, d.rSize, d.tauSize] x
      | none => .ok a
    .ok { g with rSqueeze := d.rSqueeze, rSymFactor := d.rSymFactor, tauSqueeze := d.tauSqueeze, tauSymFactor := d.tauSymFactor, tauFlag := d.tauFlag,
                 rSize := d.rSize, tauSize := d.tauSize, weight := w, accu := a }

end Feyn
