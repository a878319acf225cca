import Verif.Model.Lattice
import Mathlib.Analysis.Complex.Trigonometric
import Mathlib.Analysis.SpecialFunctions.Sqrt
import Mathlib.Data.Complex.BigOperators
import Mathlib.Data.Fin.VecNotation

/-!
# Lattices and spin models of the Dyson part (dyson/lattice.py, dyson/model.py)

A tuple of `d` integers is a function `Fin d → ℤ`. `CoordiIndex` of dyson/weight.py 52-57 is the function `vec2Index` of the C++ code on the list of its entries.
Numbers are exact.
-/

namespace Feyn

/-- `self.LatVec` (rows) and `self.SubLatVec` (rows), dyson/lattice.py 18-201. -/
structure Geometry (d n : ℕ) where
  lat : Fin d → Fin d → ℝ
  sub : Fin n → Fin d → ℝ

/-- `NearestNeighbor`, `NextNearestNeighbor` and `NextNextNearestNeighbor`, dyson/model.py 36-52. -/
structure Neighbours (d n : ℕ) where
  nn : Fin n → Fin n → List (Fin d → ℤ)
  nnn : Fin n → Fin n → List (Fin d → ℤ) := fun _ _ => []
  nnnn : Fin n → Fin n → List (Fin d → ℤ) := fun _ _ => []

/-! The vectors of the lattices, dyson/lattice.py. -/

/-- `__Chain`, dyson/lattice.py 18-28. -/
def chainGeo : Geometry 1 1 := ⟨![![1]], ![![0]]⟩
/-- `__Checkerboard`, dyson/lattice.py 31-44. -/
def checkerboardGeo : Geometry 2 2 := ⟨![![1, 1], ![1, -1]], ![![0, 0], ![1, 0]]⟩
/-- `__ValenceBond`, dyson/lattice.py 46-59. -/
def valenceGeo : Geometry 2 2 := ⟨![![1, 0], ![0, 2]], ![![0, 0], ![0, 1]]⟩
/-- `__Square`, dyson/lattice.py 61-73. -/
def squareGeo : Geometry 2 1 := ⟨![![1, 0], ![0, 1]], ![![0, 0]]⟩
/-- `__Triangular`, dyson/lattice.py 75-89. -/
noncomputable def triangularGeo : Geometry 2 1 := ⟨![![1, 0], ![1 / 2, √3 / 2]], ![![0, 0]]⟩
/-- `__Assymetric_Triangular`, dyson/lattice.py 91-104. -/
noncomputable def asymmetricGeo : Geometry 2 3 := ⟨![![1, 0], ![1 / 2, √3 * (1 / 2)]], ![![0, 0], ![1 / 2, 1 / 2 / √3], ![1 / 2, -(1 / 2) / √3]]⟩
/-- `__Honeycomb`, dyson/lattice.py 106-122. -/
noncomputable def honeycombGeo : Geometry 2 2 := ⟨![![0, 1], ![√3 / 2, -1 / 2]], ![![0, 0], ![1 / 2 / √3, 1 / 2]]⟩
/-- `__Kagome`, dyson/lattice.py 124-141. -/
noncomputable def kagomeGeo : Geometry 2 3 := ⟨![![1, 0], ![1 / 2, √3 / 2]], ![![1 / 2, 0], ![1 / 4, √3 / 4], ![3 / 4, √3 / 4]]⟩
/-- `__Cubic`, dyson/lattice.py 144-159. -/
def cubicGeo : Geometry 3 1 := ⟨![![1, 0, 0], ![0, 1, 0], ![0, 0, 1]], ![![0, 0, 0]]⟩
/-- `__3DCheckerboard`, dyson/lattice.py 161-177. -/
def checkerboard3Geo : Geometry 3 2 := ⟨![![1, 1, 0], ![1, -1, 0], ![1, 0, 1]], ![![0, 0, 0], ![1, 0, 0]]⟩
/-- `__Pyrochlore`, dyson/lattice.py 179-202. -/
noncomputable def pyrochloreGeo : Geometry 3 4 :=
  ⟨![![0, 1 / 2, 1 / 2], ![1 / 2, 0, 1 / 2], ![1 / 2, 1 / 2, 0]], ![![0, 0, 0], ![0, 1 / 4, 1 / 4], ![1 / 4, 0, 1 / 4], ![1 / 4, 1 / 4, 0]]⟩

/-! The neighbour lists of the spin models, dyson/model.py. -/

/-- `Chain`, dyson/model.py 339-350; a `ValueError` for `Lx < 2`. -/
def chain (Lx : ℤ) : Option (Neighbours 1 1) :=
  if Lx > 2 then some ⟨fun _ _ => [![1], ![Lx - 1]], fun _ _ => [![2], ![Lx - 2]], fun _ _ => []⟩
  else if Lx = 2 then some ⟨fun _ _ => [![1], ![Lx - 1]], fun _ _ => [![0], ![0]], fun _ _ => []⟩
  else none

/-- `Checkerboard`, dyson/model.py 359-367. -/
def checkerboard (Lx Ly : ℤ) : Neighbours 2 2 where
  nn
    | 0, 1 => [![0, 0], ![0, Ly - 1], ![Lx - 1, 0], ![Lx - 1, Ly - 1]]
    | 1, 0 => [![0, 0], ![0, 1], ![1, 0], ![1, 1]]
    | _, _ => []
  nnn
    | 0, 0 => [![0, 1], ![1, 0], ![0, Ly - 1], ![Lx - 1, 0]]
    | 1, 1 => [![0, 1], ![1, 0], ![0, Ly - 1], ![Lx - 1, 0]]
    | _, _ => []

/-- `ValenceBond`, dyson/model.py 379-389. -/
def valence (Lx Ly : ℤ) : Neighbours 2 2 where
  nn
    | 0, 1 => [![0, 0]]
    | 1, 0 => [![0, 0]]
    | 0, 0 => [![Lx - 1, 0], ![1, 0]]
    | 1, 1 => [![Lx - 1, 0], ![1, 0]]
  nnn
    | 0, 1 => [![0, Ly - 1]]
    | 1, 0 => [![0, 1]]
    | _, _ => []

/-- `Square`, dyson/model.py 410-416. -/
def square (Lx Ly : ℤ) : Neighbours 2 1 where
  nn _ _ := [![0, 1], ![1, 0], ![Lx - 1, 0], ![0, Ly - 1]]
  nnn _ _ := [![1, 1], ![Lx - 1, 1], ![1, Ly - 1], ![Lx - 1, Ly - 1]]

/-- `Triangular`, dyson/model.py 425-431. -/
def triangular (Lx Ly : ℤ) : Neighbours 2 1 where
  nn _ _ := [![0, 1], ![1, 0], ![1, Ly - 1], ![0, Ly - 1], ![Lx - 1, 0], ![Lx - 1, 1]]
  nnn _ _ := [![1, 1], ![2, Ly - 1], ![1, Ly - 2], ![Lx - 1, Ly - 1], ![Lx - 2, 1], ![Lx - 1, 2]]

/-- `Assymetric_Triangular`, dyson/model.py 440-451. -/
def asymmetric (Lx Ly : ℤ) : Neighbours 2 3 where
  nn
    | 0, 1 => [![0, 0], ![0, Ly - 1], ![Lx - 1, 0]]
    | 0, 2 => [![0, 0], ![Lx - 1, 1], ![Lx - 1, 0]]
    | 1, 0 => [![0, 0], ![0, 1], ![1, 0]]
    | 1, 2 => [![0, 0], ![0, 1], ![Lx - 1, 1]]
    | 2, 0 => [![0, 0], ![1, 0], ![1, Ly - 1]]
    | 2, 1 => [![0, 0], ![1, Ly - 1], ![0, Ly - 1]]
    | _, _ => []

/-- `Honeycomb`, dyson/model.py 458-466. -/
def honeycomb (Lx Ly : ℤ) : Neighbours 2 2 where
  nn
    | 0, 1 => [![0, 0], ![Lx - 1, 0], ![Lx - 1, Ly - 1]]
    | 1, 0 => [![0, 0], ![1, 0], ![1, 1]]
    | _, _ => []
  nnn
    | 0, 0 => [![1, 0], ![Lx - 1, 0], ![0, 1], ![0, Ly - 1], ![1, 1], ![Lx - 1, Ly - 1]]
    | 1, 1 => [![1, 0], ![Lx - 1, 0], ![0, 1], ![0, Ly - 1], ![1, 1], ![Lx - 1, Ly - 1]]
    | _, _ => []

/-- `Kagome`, dyson/model.py 494-514. -/
def kagome (Lx Ly : ℤ) : Neighbours 2 3 where
  nn
    | 0, 1 => [![0, 0], ![1, Ly - 1]]
    | 0, 2 => [![0, 0], ![0, Ly - 1]]
    | 1, 0 => [![0, 0], ![Lx - 1, 1]]
    | 1, 2 => [![0, 0], ![Lx - 1, 0]]
    | 2, 0 => [![0, 0], ![0, 1]]
    | 2, 1 => [![0, 0], ![1, 0]]
    | _, _ => []
  nnn
    | 0, 1 => [![1, 0], ![0, Ly - 1]]
    | 0, 2 => [![1, Ly - 1], ![Lx - 1, 0]]
    | 1, 0 => [![0, 1], ![Lx - 1, 0]]
    | 1, 2 => [![Lx - 1, 1], ![0, Ly - 1]]
    | 2, 0 => [![1, 0], ![Lx - 1, 1]]
    | 2, 1 => [![0, 1], ![1, Ly - 1]]
    | _, _ => []
  nnnn
    | 0, 0 => [![1, 0], ![Lx - 1, 0]]
    | 1, 1 => [![0, 1], ![0, Ly - 1]]
    | 2, 2 => [![Lx - 1, 1], ![1, Ly - 1]]
    | _, _ => []

/-- `Cubic`, dyson/model.py 532-537. -/
def cubic (Lx Ly Lz : ℤ) : Neighbours 3 1 where
  nn _ _ := [![1, 0, 0], ![0, 1, 0], ![0, 0, 1], ![Lx - 1, 0, 0], ![0, Ly - 1, 0], ![0, 0, Lz - 1]]

/-- `Pyrochlore`, dyson/model.py 545-580. -/
def pyrochlore (Lx Ly Lz : ℤ) : Neighbours 3 4 where
  nn
    | 0, 1 => [![0, 0, 0], ![Lx - 1, 0, 0]]
    | 0, 2 => [![0, 0, 0], ![0, Ly - 1, 0]]
    | 0, 3 => [![0, 0, 0], ![0, 0, Lz - 1]]
    | 1, 0 => [![0, 0, 0], ![1, 0, 0]]
    | 1, 2 => [![0, 0, 0], ![1, Ly - 1, 0]]
    | 1, 3 => [![0, 0, 0], ![1, 0, Lz - 1]]
    | 2, 0 => [![0, 0, 0], ![0, 1, 0]]
    | 2, 1 => [![0, 0, 0], ![Lx - 1, 1, 0]]
    | 2, 3 => [![0, 0, 0], ![0, 1, Lz - 1]]
    | 3, 0 => [![0, 0, 0], ![0, 0, 1]]
    | 3, 1 => [![0, 0, 0], ![Lx - 1, 0, 1]]
    | 3, 2 => [![0, 0, 0], ![0, Ly - 1, 1]]
    | _, _ => []
  nnn
    | 0, 1 => [![0, Ly - 1, 0], ![0, 0, Lz - 1], ![Lx - 1, 1, 0], ![Lx - 1, 0, 1]]
    | 0, 2 => [![Lx - 1, 0, 0], ![0, 0, Lz - 1], ![1, Ly - 1, 0], ![0, Ly - 1, 1]]
    | 0, 3 => [![Lx - 1, 0, 0], ![0, Ly - 1, 0], ![1, 0, Lz - 1], ![0, 1, Lz - 1]]
    | 1, 0 => [![1, Ly - 1, 0], ![1, 0, Lz - 1], ![0, 0, 1], ![0, 1, 0]]
    | 1, 2 => [![1, 0, 0], ![1, 0, Lz - 1], ![0, Ly - 1, 0], ![0, Ly - 1, 1]]
    | 1, 3 => [![1, Ly - 1, 0], ![1, 0, 0], ![0, 0, Lz - 1], ![0, 1, Lz - 1]]
    | 2, 0 => [![Lx - 1, 1, 0], ![0, 1, Lz - 1], ![1, 0, 0], ![0, 0, 1]]
    | 2, 1 => [![0, 1, 0], ![0, 1, Lz - 1], ![Lx - 1, 0, 0], ![Lx - 1, 0, 1]]
    | 2, 3 => [![0, 1, 0], ![Lx - 1, 1, 0], ![0, 0, Lz - 1], ![1, 0, Lz - 1]]
    | 3, 0 => [![Lx - 1, 0, 1], ![0, Ly - 1, 1], ![1, 0, 0], ![0, 1, 0]]
    | 3, 1 => [![0, 0, 1], ![0, Ly - 1, 1], ![Lx - 1, 0, 0], ![Lx - 1, 1, 0]]
    | 3, 2 => [![0, 0, 1], ![Lx - 1, 0, 1], ![0, Ly - 1, 0], ![1, Ly - 1, 0]]
    | _, _ => []
  nnnn
    | 0, 0 => [![1, 0, 0], ![0, 1, 0], ![0, 0, 1], ![Lx - 1, 0, 0], ![0, Ly - 1, 0], ![0, 0, Lz - 1]]
    | 1, 1 => [![Lx - 1, 0, 0], ![Lx - 1, 1, 0], ![Lx - 1, 0, 1], ![1, 0, 0], ![1, Ly - 1, 0], ![1, 0, Lz - 1]]
    | 2, 2 => [![0, Ly - 1, 0], ![1, Ly - 1, 0], ![0, Ly - 1, 1], ![0, 1, 0], ![Lx - 1, 1, 0], ![0, 1, Lz - 1]]
    | 3, 3 => [![0, 0, Lz - 1], ![1, 0, Lz - 1], ![0, 1, Lz - 1], ![0, 0, 1], ![Lx - 1, 0, 1], ![0, Ly - 1, 1]]
    | _, _ => []

/-- `3DCheckerboard`, dyson/model.py 598-614. -/
def checkerboard3 (Lx Ly Lz : ℤ) : Neighbours 3 2 where
  nn
    | 0, 1 => [![0, 0, 0], ![0, Ly - 1, 0], ![Lx - 1, 0, 0], ![Lx - 1, Ly - 1, 0], ![Lx - 1, Ly - 1, 1], ![0, 0, Lz - 1]]
    | 1, 0 => [![0, 0, 0], ![0, 1, 0], ![1, 0, 0], ![1, 1, 0], ![0, 0, 1], ![1, 1, Lz - 1]]
    | _, _ => []
  nnn
    | 0, 0 => [![0, 1, 0], ![1, 0, 0], ![0, Ly - 1, 0], ![Lx - 1, 0, 0], ![Lx - 1, Ly - 1, 1], ![0, 0, Lz - 1], ![1, 1, Lz - 1], ![0, 0, 1],
        ![0, Ly - 1, 1], ![0, 1, Lz - 1], ![1, 0, Lz - 1], ![Lx - 1, 0, 1]]
    | 1, 1 => [![0, 1, 0], ![1, 0, 0], ![0, Ly - 1, 0], ![Lx - 1, 0, 0], ![Lx - 1, Ly - 1, 1], ![1, 1, Lz - 1], ![0, 0, Lz - 1], ![0, 0, 1],
        ![1, 0, Lz - 1], ![0, 1, Lz - 1], ![Lx - 1, 0, 1], ![0, Ly - 1, 1]]
    | _, _ => []

/-! The bare interaction. -/

/-- `BareW.Data`: spin pair and sublattice of both ends, and the index of the lattice vector. -/
abbrev BareW (n : ℕ) := Fin 4 → Fin n → Fin 4 → Fin n → ℤ → ℂ

/-- The spin matrices, dyson/model.py 298-300. -/
noncomputable def Sx : Fin 4 → ℂ := ![0, 1 / 2, 1 / 2, 0]
@[inherit_doc Sx] noncomputable def Sy : Fin 4 → ℂ := ![0, -Complex.I / 2, Complex.I / 2, 0]
@[inherit_doc Sx] noncomputable def Sz : Fin 4 → ℂ := ![1 / 2, 0, 0, -1 / 2]

/-- `SS`, dyson/model.py 302. -/
noncomputable def SS (α β : Fin 4) : ℂ := Sx α * Sx β + Sy α * Sy β + Sz α * Sz β

/-- Position in an axis of length `vol` that numpy takes for the index `i`; `none` is an `IndexError`. -/
def npIndex (vol i : ℤ) : Option ℤ := if 0 ≤ i ∧ i < vol then some i else if -vol ≤ i ∧ i < 0 then some (i + vol) else none

/-- `self.BareW.Data[:,i,:,j,self.__Map.CoordiIndex(e)]+= J*SS`, e.g. dyson/model.py 420. -/
noncomputable def addBond {d n : ℕ} (L : Fin d → ℤ) (w : BareW n) (i j : Fin n) (e : Fin d → ℤ) (J : ℂ) : Option (BareW n) :=
  match npIndex (latVol (List.ofFn L)) (vec2Index (List.ofFn L) (List.ofFn e)) with
  | none => none
  | some p => some fun α a β b r => if a = i ∧ b = j ∧ r = p then w α a β b r + J * SS α β else w α a β b r

/-- A sequence of such statements. An exception ends it and is caught by `Build`, dyson/model.py 61-64, which returns what is there. The flag tells that there was no
exception. -/
noncomputable def addBonds {d n : ℕ} (L : Fin d → ℤ) : BareW n → List (Fin n × Fin n × (Fin d → ℤ) × ℂ) → BareW n × Bool
  | w, [] => (w, true)
  | w, (i, j, e, J) :: l =>
    match addBond L w i j e J with
    | none => (w, false)
    | some w => addBonds L w l

/-- The loops over the sublattices and the lists, e.g. dyson/model.py 516-529. -/
def Neighbours.bonds {d n : ℕ} (t : Neighbours d n) (J1 J2 J3 : ℂ) : List (Fin n × Fin n × (Fin d → ℤ) × ℂ) :=
  (List.finRange n).flatMap fun i => (List.finRange n).flatMap fun j =>
    (t.nn i j).map (fun e => (i, j, e, J1)) ++ (t.nnn i j).map (fun e => (i, j, e, J2)) ++ (t.nnnn i j).map (fun e => (i, j, e, J3))

/-- `BareW` of a spin model, dyson/model.py 294-625 with 55-67: it starts from zero. -/
noncomputable def Neighbours.bareW {d n : ℕ} (t : Neighbours d n) (L : Fin d → ℤ) (J1 J2 J3 : ℂ) : BareW n × Bool :=
  addBonds L (fun _ _ _ _ _ => 0) (t.bonds J1 J2 J3)

/-- The same for the chain. -/
noncomputable def chainW (Lx : ℤ) (J1 J2 : ℂ) : BareW 1 × Bool :=
  match chain Lx with
  | none => (fun _ _ _ _ _ => 0, false)
  | some t => t.bareW ![Lx] J1 J2 0

/-- The same for `ValenceBond`, which adds the fourth coupling `J4` to the bond in the cell, dyson/model.py 399-408. -/
noncomputable def valenceW (Lx Ly : ℤ) (J1 J2 J4 : ℂ) : BareW 2 × Bool :=
  addBonds ![Lx, Ly] (fun _ _ _ _ _ => 0) ((valence Lx Ly).bonds J1 J2 0 ++ [(0, 1, ![0, 0], J4), (1, 0, ![0, 0], J4)])

/-- `__BuildHubbardInteraction`, dyson/model.py 212-216. -/
def hubbardW (n : ℕ) (U : ℂ) : BareW n := fun α a β b _ => if a = b ∧ (α = 0 ∧ β = 1 ∨ α = 1 ∧ β = 0) then U else 0

end Feyn
