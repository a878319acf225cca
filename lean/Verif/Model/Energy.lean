import Verif.Model.Bonds
import Verif.Model.Momenta
import Mathlib.Algebra.BigOperators.Group.Finset.Basic

/-!
# The observables `Energy`, `SumRule` and `Mag^2 density` (C96)

`Observable.Measure`, dyson/measure.py 33-50. `Chi` is given after the transformations of the lines 24 and 36 (C63): `chi a b p` stands for `Chi.Data[0,a,0,b,p,0]`, the
element of the first time bin for the two sublattices and the number `p` of the lattice vector. `NN` is the list of nearest neighbours of the model, `Factory.NearestNeighbor` of dyson/main.py 99.
`BK_Energy` and `BK_SumRule` are the same of another array. Numbers are exact.
-/

namespace Feyn

section
variable {d n : ℕ}

/-- What the three loops of dyson/measure.py 39-41 run through. -/
def Neighbours.pairs (t : Neighbours d n) : List (Fin n × Fin n × (Fin d → ℤ)) :=
  (List.finRange n).flatMap fun i => (List.finRange n).flatMap fun j => (t.nn i j).map fun e => (i, j, e)

/-- The statement of dyson/measure.py 42 for each of them. `none` is an `IndexError`. -/
noncomputable def energyLoop (L : Fin d → ℤ) (chi : Fin n → Fin n → ℤ → ℂ) : ℂ → List (Fin n × Fin n × (Fin d → ℤ)) → Option ℂ
  | x, [] => some x
  | x, (i, j, e) :: l =>
    match npIndex (latVol (List.ofFn L)) (vec2Index (List.ofFn L) (List.ofFn e)) with
    | none => none
    | some p => energyLoop L chi (x + chi i j p / n) l

/-- `Energy`, dyson/measure.py 38-44. -/
noncomputable def Neighbours.energy (t : Neighbours d n) (L : Fin d → ℤ) (chi : Fin n → Fin n → ℤ → ℂ) : Option ℂ := energyLoop L chi 0 t.pairs

/-- `SumRule`, dyson/measure.py 45. -/
def sumRule {n : ℕ} (chi : Fin (n + 1) → Fin (n + 1) → ℤ → ℂ) : ℂ := chi 0 0 0

/-- `Mag^2 density`, dyson/measure.py 33. `Vol` is the product of the lengths of the lattice, dyson/weight.py 26-28. -/
noncomputable def magDensity {d n N : ℕ} [NeZero N] {L : Fin d → ℕ} (g : Geometry d n) (beta : ℚ) (χ : Chi L N n) : ℂ :=
  unifChi g beta χ / ((∏ i, L i : ℕ) : ℂ) / n / (beta : ℂ)

end

end Feyn
