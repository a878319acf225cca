import Verif.Model.Couplings
import Verif.Spec.Bonds

/-!
# Interactions between sites

Operators of two sites in terms of the Pauli matrices and the density, and the kinds of bonds of the Kitaev model.
-/

namespace Feyn

variable {d n : ℕ}

/-- Matrix element of the product of the `k`-th components of two spins one half: the first goes from `s` to `t`, the second from `u` to `v`. -/
noncomputable def spinProduct (k : Fin 3) (s t u v : Fin 2) : ℂ := (pauli k s t / 2) * (pauli k u v / 2)

/-- Matrix element of the product of the densities of two sites. -/
def densityProduct (s t u v : Fin 2) : ℂ := (1 : Matrix (Fin 2) (Fin 2) ℂ) s t * (1 : Matrix (Fin 2) (Fin 2) ℂ) u v

/-- What the names of the interactions stand for (comment in dyson/model.py 219-222): the exchange, its part in the plane, the products of components, the product of the
densities. -/
noncomputable def bondOperator (name : String) : Option (Fin 2 → Fin 2 → Fin 2 → Fin 2 → ℂ) :=
  match name with
  | "SS" => some fun s t u v => spinProduct 0 s t u v + spinProduct 1 s t u v + spinProduct 2 s t u v
  | "SSxy" => some fun s t u v => spinProduct 0 s t u v + spinProduct 1 s t u v
  | "SxSx" => some (spinProduct 0)
  | "SySy" => some (spinProduct 1)
  | "SzSz" => some (spinProduct 2)
  | "nn" => some densityProduct
  | _ => none

/-- The operator named at a place of the list of names; zero if there is none. -/
noncomputable def namedAt (types : List String) (k : ℕ) : Fin 2 → Fin 2 → Fin 2 → Fin 2 → ℂ := ((types[k]?).bind bondOperator).getD fun _ _ _ _ => 0

/-- A table of bare interactions is that of the interaction `K a b v` between a site of sublattice `a` and one of sublattice `b` that is `v` cells away. -/
def IsCoupling (L : Fin d → ℤ) (w : BareW n) (K : Fin n → Fin n → (Fin d → ℤ) → Fin 2 → Fin 2 → Fin 2 → Fin 2 → ℂ) : Prop :=
  ∀ (r : Fin d → ℤ), (∀ i, 0 ≤ r i ∧ r i < L i) → ∀ s t u v a b,
    w (pairIndex s t) a (pairIndex u v) b (vec2Index (List.ofFn L) (List.ofFn r)) = images L r (fun x => K a b x s t u v)

/-- The three directions of the bonds of the honeycomb lattice: at 60, -60 and 0 degrees. -/
noncomputable def bondDirection : Fin 3 → Fin 2 → ℝ := ![![1 / 2, √3 / 2], ![1 / 2, -(√3 / 2)], ![1, 0]]

/-- The sites are nearest neighbours and their bond has the direction number `k`. -/
def kitaevBond (k : Fin 3) (a b : Fin 2) (v : Fin 2 → ℤ) : Prop :=
  honeycombGeo.neighbour 1 a b v ∧ honeycombGeo.disp a b v 0 * bondDirection k 1 = honeycombGeo.disp a b v 1 * bondDirection k 0

end Feyn
