import Verif.Model.Dyson
import Verif.Model.Loop
import Verif.Model.Vertex

/-!
# The self-consistency loop without Monte Carlo data (dyson/main.py, dyson/calculator.py)

A matrix index of `G` is a spin and a sublattice, one of `W` a pair of spins and a sublattice. In Model/Loop.lean the contributions of a version are arbitrary; here they are those of
the first-order functions, and `G` and `W` come from the Dyson equations. `EnforceSumRule` is off.
-/

namespace Feyn

/-- Matrix indices of `G`, `Sigma`, `SigmaDeltaT`: spin (`true` is `UP`) and sublattice. -/
abbrev GIdx (m : ℕ) := Bool × Fin m

/-- Matrix indices of `W`, `Polar`: two spins and sublattice. -/
abbrev WIdx (m : ℕ) := (Bool × Bool) × Fin m

section
variable {F : Type} [Field F] {d : ℕ} {L : Fin d → ℕ} {N m : ℕ}

/-- `SigmaSmoothT_FirstOrder`, dyson/calculator.py 10-25: the data of the result, from the data in the domains `R`, `T`. -/
def sigmaFirst (G : Grid L N (Matrix (GIdx m) (GIdx m) F)) (W : Grid L N (Matrix (WIdx m) (WIdx m) F)) : Grid L N (Matrix (GIdx m) (GIdx m) F) := fun r t =>
  Matrix.of fun p q => if p.1 = q.1 then ∑ s : Bool, -1 * G r t (s, p.2) (s, q.2) * W r t ((p.1, s), p.2) ((s, p.1), q.2) else 0

/-- `Polar_FirstOrder`, dyson/calculator.py 60-79. -/
def polarFirst (G : Grid L N (Matrix (GIdx m) (GIdx m) F)) : Grid L N (Matrix (WIdx m) (WIdx m) F) := fun r t =>
  Matrix.of fun p q => if q.1 = (p.1.2, p.1.1) then -1 * -1 * -1 * G r (Fin.rev t) (p.1.1, q.2) (p.1.1, p.2) * G r t (p.1.2, p.2) (p.1.2, q.2) else 0

/-- `1.5*G[...,-1]-0.5*G[...,-2]`, dyson/calculator.py 42-43 and 54. -/
def lastG (G : Grid L N (Matrix (GIdx m) (GIdx m) F)) (r : ∀ i, Fin (L i)) (p q : GIdx m) : F :=
  3 / 2 * binAt (fun t => G r t p q) (N - 1) - 1 / 2 * binAt (fun t => G r t p q) (N - 2)

/-- `SigmaDeltaT_FirstOrder`, dyson/calculator.py 27-57: the Fock and the Hartree diagram. -/
def deltaFirst [∀ i, NeZero (L i)] (G : Grid L N (Matrix (GIdx m) (GIdx m) F)) (W0 : Grid L 1 (Matrix (WIdx m) (WIdx m) F)) : Grid L 1 (Matrix (GIdx m) (GIdx m) F) := fun r _ =>
  Matrix.of fun p q =>
    (if p.1 = q.1 then ∑ s : Bool, -1 * -1 * lastG G r (s, p.2) (s, q.2) * W0 r 0 ((p.1, s), p.2) ((s, p.1), q.2) else 0) +
    if p = q ∧ r = 0 then ∑ s : Bool, ∑ b : Fin m, ∑ r', -1 * -1 * -1 * lastG G 0 (s, b) (s, b) * W0 r' 0 ((p.1, p.1), p.2) ((s, s), b) else 0

variable {Q : Type} [Field Q] [LinearOrder Q] [Module Q F] [CharZero F] [∀ i, NeZero (L i)]

/-- The variables of the loop that survive a version, dyson/main.py 161-192. -/
structure Scf (Q : Type) (F : Type) (L : Fin d → ℕ) (N m : ℕ) where
  G : Plain L N (Matrix (GIdx m) (GIdx m) F)
  W : Plain L N (Matrix (WIdx m) (WIdx m) F)
  delta : Merged Q L 1 (Matrix (GIdx m) (GIdx m) F)
  sigma : Merged Q L N (Matrix (GIdx m) (GIdx m) F)
  polar : Merged Q L N (Matrix (WIdx m) (WIdx m) F)

/-- The kinds of these weights, dyson/main.py 163-166 and dyson/model.py 15-18: `g` of `G`, `Sigma`, `w` of `W`, `Polar`, `delta` of `SigmaDeltaT`, `w0` of the bare interaction. -/
structure ScfKinds where
  g : Kind
  w : Kind
  delta : Kind
  w0 : Kind

/-- What the program uses to solve the equations: the phases of the transforms, the solvers and the tests of the determinants (`Check_Denorminator`). -/
structure ScfTools (F : Type) [Field F] (L : Fin d → ℕ) (N m : ℕ) where
  E : Phase F
  solveG : Solver (GIdx m) F
  touchG : Grid L N (Matrix (GIdx m) (GIdx m) F) → Bool
  solveW : Solver (WIdx m) F
  touchW : Grid L N (Matrix (WIdx m) (WIdx m) F) → Bool

/-- The exception handler, dyson/main.py 294-301; `G`, `W` are those of before. -/
def Scf.rollBack (κ : ScfKinds) (E : Phase F) (s : Scf Q F L N m) : Scf Q F L N m :=
  { s with delta := s.delta.rollBack κ.delta E, sigma := s.sigma.rollBack κ.g E, polar := s.polar.rollBack κ.w E }

/-- One version, dyson/main.py 194-338 with the branch 210-216, the bare functions are `G0`, `W0`. `none`: an exception ends the program. The transforms in place of the functions called are
in the order of the code; `G` and `W` stay in `R`, `T` when a version fails. -/
def Scf.version (κ : ScfKinds) (T : ScfTools F L N m) (v : ℕ) (G0 : Plain L N (Matrix (GIdx m) (GIdx m) F)) (W0 : Plain L 1 (Matrix (WIdx m) (WIdx m) F)) (s : Scf Q F L N m) :
    Option (Scf Q F L N m × Ending) :=
  let s := { s with G := s.G.fft κ.g T.E [.R, .T] }
  let W0 := W0.fft κ.w0 T.E [.R]
  let s := { s with delta := s.delta.merge κ.delta T.E (some (ratio v)) ⟨deltaFirst s.G.data W0.data, false, false⟩ }
  let s := { s with delta := s.delta.fft κ.delta T.E [.K], sigma := s.sigma.fft κ.g T.E [.K, .W] }
  match gDyson κ.g κ.delta T.E T.solveG T.touchG G0 s.delta.toPlain s.sigma.toPlain with
  | .crash => none
  | .touchZero => some (s.rollBack κ T.E, .early)
  | .done G =>
    let G := G.fft κ.g T.E [.R, .T]
    let s := { s with W := s.W.fft κ.w T.E [.R, .T] }
    let s := { s with sigma := s.sigma.merge κ.g T.E (some (ratio v)) ⟨sigmaFirst G.data s.W.data, false, false⟩ }
    let s := { s with delta := s.delta.fft κ.delta T.E [.K], sigma := s.sigma.fft κ.g T.E [.K, .W] }
    match gDyson κ.g κ.delta T.E T.solveG T.touchG G0 s.delta.toPlain s.sigma.toPlain with
    | .crash => none
    | .touchZero => some (s.rollBack κ T.E, .g)
    | .done G =>
      let G := G.fft κ.g T.E [.R, .T]
      let s := { s with polar := s.polar.merge κ.w T.E (some (ratio v)) ⟨polarFirst G.data, false, false⟩ }
      let s := { s with polar := s.polar.fft κ.w T.E [.K, .W] }
      match wDyson κ.w κ.w0 T.E T.solveW T.touchW W0 s.polar.toPlain with
      | .crash => none
      | .touchZero => some (s.rollBack κ T.E, .w)
      | .done (W, _) =>
        some (⟨G, W.fft κ.w T.E [.R, .T], s.delta.fft κ.delta T.E [.R], s.sigma.fft κ.g T.E [.R, .T], s.polar.fft κ.w T.E [.R, .T]⟩, .well)

/-- The loop, dyson/main.py 194-338: `v` is `Version` before; a pair of bare functions for every version. The result has the endings of the versions. -/
def Scf.run (κ : ScfKinds) (T : ScfTools F L N m) : ℕ → List (Plain L N (Matrix (GIdx m) (GIdx m) F) × Plain L 1 (Matrix (WIdx m) (WIdx m) F)) → Scf Q F L N m → Option (Scf Q F L N m × List Ending)
  | _, [], s => some (s, [])
  | v, x :: xs, s => do
    let r ← s.version κ T (v + 1) x.1 x.2
    let r' ← Scf.run κ T (v + 1) xs r.1
    some (r'.1, r.2 :: r'.2)

/-- The start of a new calculation, dyson/main.py 163-173: a copy of the bare propagator, everything else zero. -/
def Scf.new (G0 : Plain L N (Matrix (GIdx m) (GIdx m) F)) : Scf Q F L N m :=
  ⟨G0, ⟨fun _ _ => 0, false, false⟩, Merged.new false false, Merged.new false false, Merged.new false false⟩

end

end Feyn
