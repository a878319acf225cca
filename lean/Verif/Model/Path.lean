import Verif.Model.Momenta

/-!
# Momenta along a path (dyson/lattice.py) and the staggered susceptibility of the triangular lattice (dyson/measure.py)

Numbers are real numbers.
-/

namespace Feyn

open Real (pi)

section
variable {d : ℕ}

/-- `__Distance`, dyson/lattice.py 264-265. -/
noncomputable def vecDist (a b : Fin d → ℝ) : ℝ := √(∑ i, |a i - b i| ^ 2)

/-- `range(-L, L+1)`, dyson/lattice.py 284-285. -/
def symRange (L : ℕ) : List ℤ := (List.range (2 * L + 1)).map fun n : ℕ => (n : ℤ) - L

/-- `itertools.product` of these ranges, dyson/lattice.py 281-286: the last coordinate changes first. -/
def gridCoords : {d : ℕ} → (Fin d → ℕ) → List (Fin d → ℤ)
  | 0, _ => [fun i => i.elim0]
  | _ + 1, L => (symRange (L 0)).flatMap fun a => (gridCoords fun i => L i.succ).map fun p => Fin.cons a p

/-- `__KVecList`, dyson/lattice.py 287-290. -/
noncomputable def kVecList (rec : Fin d → Fin d → ℝ) (L : Fin d → ℕ) (Center : Fin d → ℝ) : List (Fin d → ℝ) :=
  (gridCoords L).map fun p k => Center k + kvec rec L p k

open Classical in
/-- `__GetKVecBetween`, dyson/lattice.py 266-268. -/
noncomputable def kBetween (start stop : Fin d → ℝ) (K : List (Fin d → ℝ)) : List (Fin d → ℝ) :=
  K.filter fun k => decide (|vecDist k start + vecDist stop k - vecDist stop start| < 1 / 1000)

/-- `np.allclose(a, b)` with its default tolerances. -/
def AllClose (a b : Fin d → ℝ) : Prop := ∀ i, |a i - b i| ≤ 1 / 10 ^ 8 + 1 / 10 ^ 5 * |b i|

open Classical in
/-- `GetKVecAlongPath`, dyson/lattice.py 270-292, with the attributes `__Center` and `__KVecList` before (`none` if they do not exist yet) and after the call. -/
noncomputable def kAlongPath (rec : Fin d → Fin d → ℝ) (L : Fin d → ℕ) (cache : Option ((Fin d → ℝ) × List (Fin d → ℝ))) (start stop Center : Fin d → ℝ) :
    List (Fin d → ℝ) × Option ((Fin d → ℝ) × List (Fin d → ℝ)) :=
  let start := fun i => start i + Center i
  let stop := fun i => stop i + Center i
  let new := match cache with
    | some (c, K) => if AllClose c Center then (c, K) else (Center, kVecList rec L Center)
    | none => (Center, kVecList rec L Center)
  (kBetween start stop new.2, some new)

end

section
variable {L : Fin 2 → ℕ} {N : ℕ} [NeZero N]

/-- `self.Path[0]` and `self.Path[1]` of the triangular lattice, dyson/lattice.py 87. -/
noncomputable def triangularPath : (Fin 2 → ℝ) × (Fin 2 → ℝ) := (![0, 0], ![4 * pi / 3, 0])

/-- `StagK` of the triangular lattice, dyson/measure.py 71-81; `none` is the exception for an empty list. -/
noncomputable def triangularK (L : Fin 2 → ℕ) (cache : Option ((Fin 2 → ℝ) × List (Fin 2 → ℝ))) : Option (Fin 2 → ℝ) :=
  (kAlongPath triangularRec L cache triangularPath.1 triangularPath.2 ![0, 0]).1.getLast?

/-- `StagChi` of the triangular lattice, dyson/measure.py 24-25, 36-37, 69-70, 82-84. -/
noncomputable def stagTriangular (beta : ℚ) (χ : Chi L N 1) (cache : Option ((Fin 2 → ℝ) × List (Fin 2 → ℝ))) : Option ℂ :=
  (triangularK L cache).map (latFourier triangularGeo
    (Chi.first beta (((χ.fft ⟨beta, true, true⟩ Phase.complex [.R, .W]).fft ⟨beta, true, true⟩ Phase.complex [.R, .T]).fft ⟨beta, true, true⟩ Phase.complex [.R, .W])))

end

end Feyn
