import Verif.Model.Momenta
import Verif.Model.Couplings
import Verif.Model.Tables

/-!
# The drawing of the model (`Coordinates`, dyson/main.py 161) and the list of sites (dyson/lattice.py, dyson/model.py) (C100)

Coordinates are lists, as in the code; real numbers are exact.
-/

namespace Feyn

/-- The tuples of `GetAllCoordi` in their order. -/
def coordRows : List ℕ → List (List ℤ)
  | [] => [[]]
  | l :: ls => (List.range l).flatMap fun i : ℕ => (coordRows ls).map fun c => (i : ℤ) :: c

/-- `IndexMap.GetAllCoordi`, dyson/weight.py 66-76; `none`: `AssertionError`. -/
def allCoordi (L : List ℕ) : Option (List (List ℤ)) := if L.length ∈ [1, 2, 3] then some (coordRows L) else none

/-- `IndexMap.LatIndex`, dyson/weight.py 77-78. -/
def pyLatIndex {n : ℕ} (L : List ℕ) (c : List ℤ) (sub : Fin n) : ℤ := pyCoordiIndex (L.map fun l : ℕ => (l : ℤ)) c * n + (sub : ℕ)

/-- One step of the loop of `__Shift`, dyson/lattice.py 212-216. -/
def foldOnce (l x : ℤ) : ℤ :=
  let x := if x < 0 then x + l else x
  if x ≥ l then x - l else x

/-- `offset`, dyson/lattice.py 307-310, and dyson/model.py 652. The division of Python 2 rounds down. -/
def drawOffset (L : List ℕ) (hasOffset : Bool) : List ℤ := L.map fun l : ℕ => if hasOffset then (l : ℤ).fdiv 2 - 1 else 0

/-- `self.__Shift(Coordi+offset)`, dyson/lattice.py 210-217, 299. -/
def drawCell (L : List ℕ) (offset c : List ℤ) : List ℤ := List.zipWith (fun l x => foldOnce l x) (L.map fun l : ℕ => (l : ℤ)) (List.zipWith (fun x o => x + o) c offset)

section
variable {d n : ℕ}

/-- `GetRealVec`, dyson/lattice.py 294-300. -/
def Geometry.drawVec (g : Geometry d n) (L : List ℕ) (offset c : List ℤ) (subIn subOut : Fin n) : Fin d → ℝ :=
  fun k => ∑ i : Fin d, g.lat i k * (((drawCell L offset c).getD i 0 : ℤ) : ℝ) + g.sub subOut k - g.sub subIn k

/-- An element of `Points`. -/
structure DrawnSite (d n : ℕ) where
  vec : Fin d → ℝ
  coord : List ℤ
  sub : Fin n

/-- `l[i]=x`; `none`: `IndexError`. -/
def pySetItem {α : Type} (l : List (Option α)) (i : ℤ) (x : α) : Option (List (Option α)) :=
  match npIndex l.length i with
  | none => none
  | some p => some (l.set p.toNat (some x))

/-- The assignments to `Points` in `GetSitesList`, dyson/lattice.py 314-317. -/
def Geometry.siteItems (g : Geometry d n) (L : List ℕ) (offset : List ℤ) (subIn : Fin n) (coords : List (List ℤ)) : List (ℤ × DrawnSite d n) :=
  coords.flatMap fun c => (List.finRange n).map fun s => (pyLatIndex L c s, ⟨g.drawVec L offset c subIn s, c, s⟩)

/-- `LinesInUnitCell`, dyson/lattice.py 318-320. -/
def cellLines (n : ℕ) (L : List ℕ) (coords : List (List ℤ)) : List ((ℤ × ℤ) × Fin n) :=
  coords.flatMap fun c => (List.finRange n).flatMap fun s => ((List.finRange n).filter fun t => s ≤ t).map fun t => ((pyLatIndex L c s, pyLatIndex L c t), s)

/-- `GetSitesList`, dyson/lattice.py 302-321. The one loop that fills both lists is written as two. -/
def Geometry.sitesList (g : Geometry d n) (L : List ℕ) (hasOffset : Bool) (subIn : Fin n) : Option (List (Option (DrawnSite d n)) × List ((ℤ × ℤ) × Fin n)) := do
  let coords ← allCoordi L
  let points ← (g.siteItems L (drawOffset L hasOffset) subIn coords).foldlM (fun l e => pySetItem l e.1 e.2) (List.replicate (L.prod * n) none)
  some (points, cellLines n L coords)

/-- An element of the list of `__GetBareWList`: the places of both ends, their indices, and the sublattice of the first. -/
structure DrawnBond (d n : ℕ) where
  fromVec : Fin d → ℝ
  toVec : Fin d → ℝ
  fromIndex : ℤ
  toIndex : ℤ
  sub : Fin n

/-- `weight*weight>1.0e-10`, dyson/model.py 659. Complex numbers of numpy are compared by the real parts, equal ones by the imaginary parts. -/
def IsDrawn (w : ℂ) : Prop := 1 / 10 ^ 10 < (w * w).re ∨ (w * w).re = 1 / 10 ^ 10 ∧ 0 < (w * w).im

open Classical in
/-- `__GetBareWList`, dyson/model.py 650-669. -/
noncomputable def Geometry.bareWList [NeZero n] (g : Geometry d n) (L : List ℕ) (w : BareW n) : Option (List (DrawnBond d n)) := do
  let coords ← allCoordi L
  let origin := L.map fun _ => (0 : ℤ)
  let offset := drawOffset L true
  some ((List.finRange n).flatMap fun a => (List.finRange n).flatMap fun b =>
    (coords.filter fun c => decide (IsDrawn (w 0 a 0 b (pyCoordiIndex (L.map fun l : ℕ => (l : ℤ)) c)))).map fun c =>
      ⟨g.drawVec L offset origin 0 a, g.drawVec L offset c 0 b, pyLatIndex L origin a, pyLatIndex L c b, a⟩)

/-- `FourierTransformation` for one real momentum, dyson/lattice.py 219-262, with its loops over the list of sites. The data are indexed as in the code. `none`: an exception. -/
noncomputable def Geometry.fourierLoop (g : Geometry d n) (L : List ℕ) (data : Fin n → Fin n → ℤ → ℂ) (K : Fin d → ℝ) : Option ℂ := do
  let parts ← (List.finRange n).mapM fun a => do
    let p ← g.sitesList L false a
    let sites ← p.1.mapM id
    some (sites.map fun x => data a x.sub (pyCoordiIndex (L.map fun l : ℕ => (l : ℤ)) x.coord) * Complex.exp (-Complex.I * ((∑ k, x.vec k * K k : ℝ) : ℂ)))
  some (parts.flatten.sum / n)

end

end Feyn
