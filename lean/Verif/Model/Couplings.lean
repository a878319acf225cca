import Verif.Model.Bands

/-!
# Interactions other than the Heisenberg exchange (dyson/model.py)

The Kitaev model and the short range interactions of the band models. Numbers are exact. The neighbour lists of dyson/model.py 261-262 and 276-280 are literally those of
410-416 and 458-466, which are `square` and `honeycomb` of Model/Bonds.lean.
-/

namespace Feyn

/-- The right hand side of a statement that adds to the table: a number for two spin pairs. -/
abbrev PairMatrix := Fin 4 → Fin 4 → ℂ

/-- `I`, dyson/model.py 228. -/
def pyI : Fin 4 → ℂ := ![1, 0, 0, 1]

/-- `SSxy`, `SxSx`, `SySy`, `SzSz` and `II`, dyson/model.py 230-234 and 303-306. -/
noncomputable def SSxy : PairMatrix := fun α β => Sx α * Sx β + Sy α * Sy β
@[inherit_doc SSxy] noncomputable def SxSx : PairMatrix := fun α β => Sx α * Sx β
@[inherit_doc SSxy] noncomputable def SySy : PairMatrix := fun α β => Sy α * Sy β
@[inherit_doc SSxy] noncomputable def SzSz : PairMatrix := fun α β => Sz α * Sz β
@[inherit_doc SSxy] def II : PairMatrix := fun α β => pyI α * pyI β

/-- `self.BareW.Data[:,i,:,j,self.__Map.CoordiIndex(e)]+= m`, e.g. dyson/model.py 266 or 484; `none` is an `IndexError`. -/
noncomputable def addTerm {d n : ℕ} (L : Fin d → ℤ) (w : BareW n) (i j : Fin n) (e : Fin d → ℤ) (m : PairMatrix) : Option (BareW n) :=
  match npIndex (latVol (List.ofFn L)) (vec2Index (List.ofFn L) (List.ofFn e)) with
  | none => none
  | some p => some fun α a β b r => if a = i ∧ b = j ∧ r = p then w α a β b r + m α β else w α a β b r

/-- A sequence of such statements. An exception ends it and is caught by `Build`, dyson/model.py 61-64, which returns what is there. The flag tells that there was no
exception. -/
noncomputable def addTerms {d n : ℕ} (L : Fin d → ℤ) : BareW n → List (Fin n × Fin n × (Fin d → ℤ) × PairMatrix) → BareW n × Bool
  | w, [] => (w, true)
  | w, (i, j, e, m) :: l =>
    match addTerm L w i j e m with
    | none => (w, false)
    | some w => addTerms L w l

/-- The entry for a name in the loop of dyson/model.py 239-251; other names have no branch. -/
noncomputable def typeMatrix (t : String) : Option PairMatrix :=
  if t = "SS" then some SS
  else if t = "SSxy" then some SSxy
  else if t = "SxSx" then some SxSx
  else if t = "SySy" then some SySy
  else if t = "SzSz" then some SzSz
  else if t = "nn" then some II
  else none

/-- `TypeList[k]` for `k` below five, dyson/model.py 238-253: the entries for the names, then zeros up to the length of the list of couplings, which is at least five (236). -/
noncomputable def typeList (types : List String) (k : ℕ) : PairMatrix := ((types.filterMap typeMatrix)[k]?).getD fun _ _ => 0

/-- The statements of the loops of dyson/model.py 265-269 and 283-292. `V` is `Hamiltonian["ShortRangeInteraction"]`, padded with zeros (236). -/
noncomputable def Neighbours.shortTerms {d n : ℕ} (t : Neighbours d n) (types : List String) (V : List ℝ) : List (Fin n × Fin n × (Fin d → ℤ) × PairMatrix) :=
  (List.finRange n).flatMap fun i => (List.finRange n).flatMap fun j =>
    (t.nn i j).map (fun e => (i, j, e, fun α β => V.getD 0 0 * typeList types 0 α β)) ++
      (t.nnn i j).map (fun e => (i, j, e, fun α β => V.getD 1 0 * typeList types 1 α β))

/-- `__BuildShortRangeInteraction`, dyson/model.py 218-294, for the lattices `Square` and `Honeycomb`. -/
noncomputable def Neighbours.shortRange {d n : ℕ} (t : Neighbours d n) (L : Fin d → ℤ) (types : List String) (V : List ℝ) : BareW n × Bool :=
  addTerms L (fun _ _ _ _ _ => 0) (t.shortTerms types V)

/-- `BareW` of the model `Haldane`, dyson/model.py 93-96 with 54-67: the interaction is built after the propagator, so an exception there leaves it zero. The keys
`Hopping`, `Phase`, `ChemicalPotential` and `ShortRangeInteraction` are present. `lat` is the name of the lattice. -/
noncomputable def haldaneW (lat : String) (Lx Ly : ℤ) (hop phase V : List ℝ) : BareW 2 × Bool :=
  if lat = "Honeycomb" then
    match addHops ![Lx, Ly] hop phase (fun _ _ _ _ _ => 0) (honeycomb Lx Ly).hops with
    | none => (fun _ _ _ _ _ => 0, false)
    | some _ => (honeycomb Lx Ly).shortRange ![Lx, Ly] ["nn"] V
  else (fun _ _ _ _ _ => 0, false)

/-- `BareW` of the model `Kitaev`, dyson/model.py 103-105 with 480-492. `J` is `Hamiltonian["Interaction"]`, padded with zeros (329-330). -/
noncomputable def kitaevW (lat : String) (Lx Ly : ℤ) (J : List ℝ) : BareW 2 × Bool :=
  if lat = "Honeycomb" then
    addTerms ![Lx, Ly] (fun _ _ _ _ _ => 0)
      [(0, 1, ![0, 0], fun α β => J.getD 0 0 * SxSx α β), (1, 0, ![0, 0], fun α β => J.getD 0 0 * SxSx α β),
        (0, 1, ![Lx - 1, 0], fun α β => J.getD 1 0 * SySy α β), (1, 0, ![1, 0], fun α β => J.getD 1 0 * SySy α β),
        (0, 1, ![Lx - 1, Ly - 1], fun α β => J.getD 2 0 * SzSz α β), (1, 0, ![1, 1], fun α β => J.getD 2 0 * SzSz α β)]
  else (fun _ _ _ _ _ => 0, false)

end Feyn
