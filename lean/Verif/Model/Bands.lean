import Verif.Model.Bonds
import Verif.Model.Isolated
import Verif.Model.Fourier
import Mathlib.Analysis.Complex.Trigonometric
import Mathlib.LinearAlgebra.Matrix.ConjTranspose

/-!
# Bare propagator of the band models (dyson/model.py)

The models `Hubbard` and `Haldane`. Numbers are exact. Spin 0 is `DOWN`, spin 1 is `UP` (dyson/weight.py 14). The lattices `Square` and `Honeycomb` are those for which
dyson/model.py 134-166 has a branch; the neighbour lists there (139-140, 151-155) are literally those of 410-416 and 458-466, which are `square` and `honeycomb` of
Model/Bonds.lean.
-/

namespace Feyn

/-- `SpinOrbit[i]`, dyson/model.py 119-132; `none` is an `IndexError`. `phase` is `Hamiltonian["Phase"]`. -/
noncomputable def spinOrbit (phase : List ℝ) (i : ℕ) : Option (Matrix (Fin 2) (Fin 2) ℂ) :=
  let mod : ℝ := Real.sqrt (phase.map fun x => x ^ 2).sum
  if i < phase.length ∧ 1e-8 < mod then
    match (phase[0]? : Option ℝ), (phase[1]? : Option ℝ), (phase[2]? : Option ℝ) with
    | some a, some b, some c =>
      some ((Real.cos mod : ℂ) • (1 : Matrix (Fin 2) (Fin 2) ℂ) +
        (Complex.I * Real.sin mod) • ((mod : ℂ)⁻¹ • ((a : ℂ) • pyPauli 0 + (b : ℂ) • pyPauli 1 + (c : ℂ) • pyPauli 2)))
    | _, _, _ => none
  else some 1

/-- `self.__KineticTerm.Data`: spin, sublattice, spin, sublattice, index of the lattice vector. -/
abbrev HopTable (n : ℕ) := Fin 2 → Fin n → Fin 2 → Fin n → ℤ → ℂ

/-- `self.__KineticTerm.Data[:,i,:,j,self.__Map.CoordiIndex(e)]+= -self.__Hopping[k]*SpinOrbit[k]`, dyson/model.py 143, 145, 161, 163. `self.__Hopping` is the list as
given; the padded list `Hopping` of 116 is not used here. -/
noncomputable def addHop {n : ℕ} (L : Fin 2 → ℤ) (hop phase : List ℝ) (w : HopTable n) (i j : Fin n) (e : Fin 2 → ℤ) (k : ℕ) : Option (HopTable n) :=
  match npIndex (latVol (List.ofFn L)) (vec2Index (List.ofFn L) (List.ofFn e)), hop[k]?, spinOrbit phase k with
  | some p, some t, some u => some fun s a s' b r => if a = i ∧ b = j ∧ r = p then w s a s' b r + -t * u s s' else w s a s' b r
  | _, _, _ => none

/-- The loops of dyson/model.py 142-145 and 158-163. -/
def Neighbours.hops {n : ℕ} (t : Neighbours 2 n) : List (Fin n × Fin n × (Fin 2 → ℤ) × ℕ) :=
  (List.finRange n).flatMap fun i => (List.finRange n).flatMap fun j => (t.nn i j).map (fun e => (i, j, e, 0)) ++ (t.nnn i j).map (fun e => (i, j, e, 1))

/-- A sequence of such statements; `none` is an exception. -/
noncomputable def addHops {n : ℕ} (L : Fin 2 → ℤ) (hop phase : List ℝ) : HopTable n → List (Fin n × Fin n × (Fin 2 → ℤ) × ℕ) → Option (HopTable n)
  | w, [] => some w
  | w, (i, j, e, k) :: l => (addHop L hop phase w i j e k).bind fun w => addHops L hop phase w l

/-- `self.__LocalTerm.Data`, dyson/model.py 168-173, with the padded lists of 117-118. -/
noncomputable def localTerm {n : ℕ} (mu ext : List ℝ) : HopTable n := fun s a s' b r =>
  if s = s' ∧ a = b ∧ r = 0 then (if s = 1 then -mu.getD 0 0 + -ext.getD a 0 else -mu.getD 0 0 + ext.getD a 0 : ℝ) else 0

/-- The array of a weight from the data by index of the lattice vector. The spin and the sublattice are one matrix index, as after the `reshape` of dyson/model.py 184. -/
def HopTable.grid {n : ℕ} {L : Fin 2 → ℕ} (w : HopTable n) : Grid L 1 (Matrix (Fin 2 × Fin n) (Fin 2 × Fin n) ℂ) :=
  fun r _ p q => w p.1 p.2 q.1 q.2 (vec2Index (List.ofFn fun i => (L i : ℤ)) (List.ofFn fun i => ((r i : ℕ) : ℤ)))

/-- Order of complex numbers in numpy, lexicographic: `a > b`. -/
def npGreater (a b : ℂ) : Prop := b.re < a.re ∨ b.re = a.re ∧ b.im < a.im

open scoped Classical in
/-- `__FermiKernel`, dyson/model.py 203-210. -/
noncomputable def fermiKernel (w : ℂ) (t beta : ℝ) : ℂ :=
  let x := beta * w / 2
  let y : ℂ := ((2 * t / beta - 1 : ℝ) : ℂ)
  if npGreater x 100 then Complex.exp (-x * (y + 1))
  else if npGreater (-100) x then Complex.exp (x * (1 - y))
  else Complex.exp (-x * y) / (2 * Complex.cosh x)

/-- `numpy.linalg.eig`: eigenvalues and matrix of eigenvectors. What it returns is a parameter; the contract is `EigContract` in Spec/Bands.lean. -/
abbrev Eig (S : Type) := Matrix S S ℂ → (S → ℂ) × Matrix S S ℂ

/-- The loop of dyson/model.py 188-199, on the Hamiltonian `h` in momentum space. -/
noncomputable def bandG {S : Type} [Fintype S] [DecidableEq S] {d : ℕ} {L : Fin d → ℕ} (eig : Eig S) (beta : ℝ) (N : ℕ) (h : Grid L 1 (Matrix S S ℂ)) : Plain L N (Matrix S S ℂ) where
  data k t :=
    let e := eig (h k 0)
    e.2 * Matrix.diagonal (fun i => fermiKernel (e.1 i) (tauGrid beta N t) beta) * e.2.conjTranspose
  space := true
  time := false

/-- `self.BareG` of a band model, dyson/model.py 54-67 with 107-199. `E` is the exponential in the transform to momentum space (177-178). The transform `BareG.FFT("K","T")`
of 186 is that of zeros. An exception is caught in 61-64 and leaves the zeros of 109 in real space and time. -/
noncomputable def bandBareG {n : ℕ} {L : Fin 2 → ℕ} (E : Phase ℂ) (eig : Eig (Fin 2 × Fin n)) (beta : ℝ) (N : ℕ) (t : Neighbours 2 n) (hop phase mu ext : List ℝ) :
    Plain L N (Matrix (Fin 2 × Fin n) (Fin 2 × Fin n) ℂ) :=
  match addHops (fun i => (L i : ℤ)) hop phase (fun _ _ _ _ _ => 0) t.hops with
  | none => ⟨fun _ _ => 0, false, false⟩
  | some w => bandG eig beta N fun k x => fftn E w.grid k x + fftn E (localTerm mu ext : HopTable n).grid k x

end Feyn
