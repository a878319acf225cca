import Verif.Spec.Tables

/-!
# First order of the Dyson program (dyson/calculator.py 10-79)

Arrays in the domains of sites and times; results are given element by element. Slices that are added to are selected by comparing indices. `OrderSign`, `FermiLoopSign` and
`AntiSymmetricFactor` are `-1` each.
-/

namespace Feyn
variable {F : Type} [Field F]

/-- `for spin1 in range(2): for spin2 in range(2)`. -/
def pySpinPairs : List (ℤ × ℤ) := [(0, 0), (0, 1), (1, 0), (1, 1)]

/-- `SigmaSmoothT_FirstOrder`, dyson/calculator.py 10-25. -/
def pySigmaFirst (G W : NArr F) : List ℤ → F :=
  pySpinPairs.foldl (fun Sigma p => fun i => match i with
    | [s, a, s', b, r, t] =>
      if s = p.1 ∧ s' = p.1 then
        Sigma i + -1 * G.get [p.2, a, p.2, b, r, t] * W.get [pySpin2Index p.1 p.2, a, pySpin2Index p.2 p.1, b, r, t]
      else Sigma i
    | _ => Sigma i) fun _ => 0

/-- `Polar_FirstOrder`, dyson/calculator.py 60-79. Every pair of sublattices is visited once for a pair of spins, so that loop is left out. -/
def pyPolarFirst (bins : ℕ) (G : NArr F) : List ℤ → F :=
  pySpinPairs.foldl (fun Polar p => fun i => match i with
    | [s, a, s', b, r, t] =>
      if s = pySpin2Index p.1 p.2 ∧ s' = pySpin2Index p.2 p.1 then
        Polar i + -1 * -1 * -1 * G.get [p.1, b, p.1, a, r, bins - 1 - t] * G.get [p.2, a, p.2, b, r, t]
      else Polar i
    | _ => Polar i) fun _ => 0

/-- `1.5*G[..., -1] - 0.5*G[..., -2]`, dyson/calculator.py 42-43 and 54. -/
def pyLast (bins : ℕ) (G : NArr F) (i : List ℤ) : F := 3 / 2 * G.get (i ++ [(bins : ℤ) - 1]) - 1 / 2 * G.get (i ++ [(bins : ℤ) - 2])

/-- The Fock part of `SigmaDeltaT_FirstOrder`, dyson/calculator.py 29-44. -/
def pyFockDelta (bins : ℕ) (G W0 : NArr F) : List ℤ → F :=
  pySpinPairs.foldl (fun Sigma p => fun i => match i with
    | [s, a, s', b, r] =>
      if s = p.1 ∧ s' = p.1 then
        Sigma i + -1 * -1 * pyLast bins G [p.2, a, p.2, b, r] * W0.get [pySpin2Index p.1 p.2, a, pySpin2Index p.2 p.1, b, r]
      else Sigma i
    | _ => Sigma i) fun _ => 0

/-- `SigmaDeltaT_FirstOrder`, dyson/calculator.py 27-57: the Hartree part (46-56) is added to the Fock part; its loops over the second sublattice and over all sites are sums. -/
def pySigmaDelta (bins nsub vol : ℕ) (G W0 : NArr F) : List ℤ → F :=
  pySpinPairs.foldl (fun Sigma p => fun i => match i with
    | [s, a, s', b, r] =>
      if s = p.1 ∧ s' = p.1 ∧ a = b ∧ r = 0 then
        Sigma i + ((List.range nsub).flatMap fun (sub2 : ℕ) => (List.range vol).map fun (r' : ℕ) =>
          -1 * -1 * -1 * pyLast bins G [p.2, sub2, p.2, sub2, 0] * W0.get [pySpin2Index p.1 p.1, a, pySpin2Index p.2 p.2, sub2, r']).sum
      else Sigma i
    | _ => Sigma i) (pyFockDelta bins G W0)

end Feyn
