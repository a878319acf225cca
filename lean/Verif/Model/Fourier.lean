import Mathlib.Algebra.Algebra.Defs
import Mathlib.Algebra.Module.Defs
import Mathlib.Algebra.BigOperators.Group.Finset.Basic
import Mathlib.Algebra.Order.Field.Basic
import Mathlib.Data.Rat.Cast.Defs
import Mathlib.Data.Fintype.Pi

/-!
# Weight functions of the Dyson part (dyson/weight.py)

Arrays are modelled by functions of the lattice vector and the time bin with values in a vector space `M` over the
field `F` of complex numbers; `M` collects the two spin axes and the two sublattice axes. The flat volume axis of the code is its
C-order reshape to the axes `L` (`__SpatialShape`, dyson/weight.py 317-321), so the lattice vector is used in place of the flat index.
Numbers are exact. Arrays are values: two objects never share an array. In the code `Merge` and `RollBack` make `self.Data` and
`newWeight.Data` the same array if the norm is at most 0.001, and `ChangeSymmetry` and `__AdditionalPhaseFactor` write in place; a transform of
both the space and the time domain, as used for all weights that are merged, replaces the array before anything is written in place.
-/

namespace Feyn

/-- `np.exp(-1j*np.pi*x)` for rational `x`, by its two properties that matter: it turns sums into products, and it is `1` exactly at the even
integers. (`Phase.complex` in Spec/Fourier.lean is the exponential function.) -/
structure Phase (F : Type) [Field F] where
  ph : ℚ → F
  add : ∀ a b, ph (a + b) = ph a * ph b
  one_iff : ∀ a, ph a = 1 ↔ ∃ k : ℤ, a = 2 * k

/-- `IndexMap.IndexToTau`, dyson/weight.py 43-44 with `__dBeta` of 30: the centre of a time bin. -/
def indexToTau (beta : ℚ) (N n : ℕ) : ℚ := ((n : ℚ) + 1 / 2) * (beta / N)

/-- An array over lattice vectors and time bins. `L` are the extents of the lattice, `N` is `MaxTauBin`. -/
abbrev Grid {d : ℕ} (L : Fin d → ℕ) (N : ℕ) (M : Type) := (∀ i, Fin (L i)) → Fin N → M

section
variable {F M : Type} [Field F] [AddCommGroup M] [Module F M] {d : ℕ} {L : Fin d → ℕ} {N : ℕ}

/-- `numpy.fft.fft` along the time axis: `X[m] = sum_n x[n] exp(-2 pi i n m / N)`. -/
def fft (E : Phase F) (f : Grid L N M) : Grid L N M :=
  fun r m => ∑ n : Fin N, E.ph (2 * ((n : ℕ) * (m : ℕ)) / N) • f r n

/-- `numpy.fft.ifft` along the time axis: `x[n] = 1/N sum_m X[m] exp(2 pi i n m / N)`. -/
def ifft (E : Phase F) (f : Grid L N M) : Grid L N M :=
  fun r n => (N : F)⁻¹ • ∑ m : Fin N, E.ph (-(2 * ((n : ℕ) * (m : ℕ)) / N)) • f r m

/-- The argument of the phase of `numpy.fft.fftn` in units of `-i pi`. -/
def angle (r k : ∀ i, Fin (L i)) : ℚ := ∑ i, 2 * (((r i : ℕ) : ℚ) * ((k i : ℕ) : ℚ)) / (L i : ℚ)

/-- `numpy.fft.fftn` over the lattice axes. -/
def fftn (E : Phase F) (f : Grid L N M) : Grid L N M :=
  fun k n => ∑ r, E.ph (angle r k) • f r n

/-- `numpy.fft.ifftn` over the lattice axes. -/
def ifftn (E : Phase F) (f : Grid L N M) : Grid L N M :=
  fun r n => (∏ i, (L i : F))⁻¹ • ∑ k, E.ph (-angle r k) • f k n

/-- The four letters that `FFT` understands. -/
inductive Letter | R | K | T | W
  deriving DecidableEq

/-- What is fixed when a weight is created, dyson/weight.py 121-169: inverse temperature, `IsSymmetric`, and `__HasTau` (`SmoothT` or `DeltaT`).
A `DeltaT` array has no time axis; here it has one bin. -/
structure Kind where
  beta : ℚ
  sym : Bool
  hasTau : Bool

/-- The attributes of a weight that nothing was merged into, dyson/weight.py 117-169: data, and the domains (`true` is `K` and `W`). -/
structure Plain (L : Fin d → ℕ) (N : ℕ) (M : Type) where
  data : Grid L N M
  space : Bool
  time : Bool

/-- `ChangeSymmetry`, dyson/weight.py 219-231: the factor `exp(-i s pi tau/Beta)` for antisymmetric functions. -/
def Kind.changeSymmetry (κ : Kind) (E : Phase F) (s : ℤ) (f : Grid L N M) : Grid L N M :=
  if κ.sym || !κ.hasTau then f else fun r n => E.ph (s * (indexToTau κ.beta N n / κ.beta)) • f r n

/-- `__AdditionalPhaseFactor`, dyson/weight.py 299-315. -/
def Kind.additionalPhase (κ : Kind) (E : Phase F) (s : ℤ) (f : Grid L N M) : Grid L N M :=
  if !κ.hasTau then f else fun r m => E.ph (s * (((m : ℕ) : ℚ) / N)) • f r m

/-- `__fftTime(1)` for `self.Data`, dyson/weight.py 265-273. -/
def Kind.toW (κ : Kind) (E : Phase F) (f : Grid L N M) : Grid L N M :=
  if !κ.hasTau then f else κ.additionalPhase E 1 (fft E (κ.changeSymmetry E 1 f))

/-- `__fftTime(-1)` for `self.Data`, dyson/weight.py 274-279. -/
def Kind.toT (κ : Kind) (E : Phase F) (f : Grid L N M) : Grid L N M :=
  if !κ.hasTau then f else κ.changeSymmetry E (-1) (ifft E (κ.additionalPhase E (-1) f))

/-- `__fftTime(1)` for `self.AccuData`, dyson/weight.py 268-272: `__AdditionalPhaseFactor` does not touch it. -/
def Kind.accuToW (κ : Kind) (E : Phase F) (f : Grid L N M) : Grid L N M :=
  if !κ.hasTau then f else fft E (κ.changeSymmetry E 1 f)

/-- `__fftTime(-1)` for `self.AccuData`, dyson/weight.py 274-279. -/
def Kind.accuToT (κ : Kind) (E : Phase F) (f : Grid L N M) : Grid L N M :=
  if !κ.hasTau then f else κ.changeSymmetry E (-1) (ifft E f)

/-- `FFT`, dyson/weight.py 206-218, for a weight without accumulated data. The four tests come in this order. -/
def Plain.fft (κ : Kind) (E : Phase F) (w : Plain L N M) (ls : List Letter) : Plain L N M :=
  let w := if Letter.R ∈ ls ∧ w.space = true then { w with data := ifftn E w.data, space := false } else w
  let w := if Letter.K ∈ ls ∧ w.space = false then { w with data := fftn E w.data, space := true } else w
  let w := if Letter.T ∈ ls ∧ w.time = true then { w with data := κ.toT E w.data, time := false } else w
  if Letter.W ∈ ls ∧ w.time = false then { w with data := κ.toW E w.data, time := true } else w

/-- A weight that is merged into, dyson/weight.py 176-205. `accu` and `norm` are `none` before the first `Merge`; `back` is
`(BackUpRatio, BackUpWeight)`, `none` before the first `Merge`. The back-up is a weight into which nothing was merged: that holds for all arguments of `Merge` in
dyson/main.py. -/
structure Merged (Q : Type) (L : Fin d → ℕ) (N : ℕ) (M : Type) extends Plain L N M where
  accu : Option (Grid L N M)
  norm : Option Q
  back : Option (Option Q × Plain L N M)

variable {Q : Type} [Field Q] [LinearOrder Q] [Module Q M]

/-- `FFT`, dyson/weight.py 206-218, with the accumulated data. -/
def Merged.fft (κ : Kind) (E : Phase F) (w : Merged Q L N M) (ls : List Letter) : Merged Q L N M :=
  let w := if Letter.R ∈ ls ∧ w.space = true then { w with data := ifftn E w.data, accu := w.accu.map (ifftn E), space := false } else w
  let w := if Letter.K ∈ ls ∧ w.space = false then { w with data := fftn E w.data, accu := w.accu.map (fftn E), space := true } else w
  let w := if Letter.T ∈ ls ∧ w.time = true then { w with data := κ.toT E w.data, accu := w.accu.map (κ.accuToT E), time := false } else w
  if Letter.W ∈ ls ∧ w.time = false then { w with data := κ.toW E w.data, accu := w.accu.map (κ.accuToW E), time := true } else w

/-- The arguments `self.SpaceDomain, self.TimeDomain` of `FFT` in `Merge` and `RollBack`. -/
def domains (space time : Bool) : List Letter := [if space then .K else .R, if time then .W else .T]

/-- `Weight(...)`, dyson/weight.py 121-169: a new weight is zero. -/
def Merged.new (space time : Bool) : Merged Q L N M := ⟨⟨fun _ _ => 0, space, time⟩, none, none, none⟩

/-- `Merge`, dyson/weight.py 176-191. -/
def Merged.merge (κ : Kind) (E : Phase F) (w : Merged Q L N M) (ratio : Option Q) (new : Plain L N M) : Merged Q L N M :=
  let new := new.fft κ E (domains w.space w.time)
  let accu := w.accu.getD fun _ _ => 0
  let norm := w.norm.getD 0
  let accu := match ratio with | none => accu | some r => fun x n => accu x n + r • new.data x n
  let norm := match ratio with | none => norm | some r => norm + r
  { w with
    accu := some accu
    norm := some norm
    back := some (ratio, new)
    data := if 1 / 1000 < norm then fun x n => norm⁻¹ • accu x n else new.data }

/-- `RollBack`, dyson/weight.py 192-205. After a `Merge` the attributes `Norm` and `AccuData` exist. -/
def Merged.rollBack (κ : Kind) (E : Phase F) (w : Merged Q L N M) : Merged Q L N M :=
  match w.back with
  | none => w
  | some (none, _) => w
  | some (some r, b) =>
    let b := b.fft κ E (domains w.space w.time)
    let norm := w.norm.getD 0 - r
    let accu : Grid L N M := fun x n => (w.accu.getD fun _ _ => 0) x n - r • b.data x n
    { w with
      back := some (some r, b)
      norm := some norm
      accu := some accu
      data := if 1 / 1000 < norm then fun x n => norm⁻¹ • accu x n else b.data }

end

end Feyn
