import Verif.Model.Fourier

/-!
# The self-consistency loop (dyson/main.py)

The three functions that are accumulated over the versions: `SigmaDeltaT`, `Sigma`, `Polar`. What a version contributes to them is arbitrary. The
first-order functions of dyson/calculator.py and `UpdateWeight` of dyson/collect.py deliver them in the domains `R`, `T`. `EnforceSumRule` is off: its loop
multiplies `Polar.Data`. Other exceptions than the two below end the loop.
-/

namespace Feyn

section
variable {F M Q : Type} [Field F] [AddCommGroup M] [Module F M] [Field Q] [LinearOrder Q] [Module Q M] {d : ℕ} {L : Fin d → ℕ} {N : ℕ}

/-- How a version ends, dyson/main.py 194-338: with an exception of the first call in the branch (`CollectStatis`, or the first `G_Dyson`), of the `G_Dyson` after
`Sigma` is known, of `W_Dyson`, or well. -/
inductive Ending | early | g | w | well
  deriving DecidableEq

/-- What a version puts into the three functions, and how it ends. -/
structure Version (L : Fin d → ℕ) (N : ℕ) (M : Type) where
  delta : Grid L 1 M
  sigma : Grid L N M
  polar : Grid L N M
  ending : Ending

/-- The variables `SigmaDeltaT`, `Sigma`, `Polar`. -/
structure Funcs (Q : Type) (L : Fin d → ℕ) (N : ℕ) (M : Type) where
  delta : Merged Q L 1 M
  sigma : Merged Q L N M
  polar : Merged Q L N M

/-- `ratio`, dyson/main.py 199. -/
def ratio (v : ℕ) : Q := v / (v + 10)

/-- The kinds of the three functions, dyson/main.py 164-166. -/
structure Kinds where
  delta : Kind
  sigma : Kind
  polar : Kind

/-- The exception handlers, dyson/main.py 294-309. -/
def Funcs.rollBack (κ : Kinds) (E : Phase F) (s : Funcs Q L N M) : Funcs Q L N M :=
  ⟨s.delta.rollBack κ.delta E, s.sigma.rollBack κ.sigma E, s.polar.rollBack κ.polar E⟩

/-- The transforms of `G_Dyson`, dyson/calculator.py 140-141. -/
def Funcs.beforeG (κ : Kinds) (E : Phase F) (s : Funcs Q L N M) : Funcs Q L N M :=
  { s with delta := s.delta.fft κ.delta E [.K], sigma := s.sigma.fft κ.sigma E [.K, .W] }

/-- The transforms of `Measure`, dyson/main.py 37-44. -/
def Funcs.measure (κ : Kinds) (E : Phase F) (s : Funcs Q L N M) : Funcs Q L N M :=
  ⟨s.delta.fft κ.delta E [.R], s.sigma.fft κ.sigma E [.R, .T], s.polar.fft κ.polar E [.R, .T]⟩

/-- The second part of a version, dyson/main.py 216, 260 and 275-292: `Polar` is merged, `W_Dyson` transforms it. -/
def Funcs.finish (κ : Kinds) (E : Phase F) (v : ℕ) (x : Version L N M) (s : Funcs Q L N M) : Funcs Q L N M :=
  let s := { s with polar := s.polar.merge κ.polar E (some (ratio v)) ⟨x.polar, false, false⟩ }
  let s := { s with polar := s.polar.fft κ.polar E [.K, .W] }
  if x.ending = .w then s.rollBack κ E else s.measure κ E

/-- One version with Monte Carlo data, dyson/main.py 194-338, the branch 249-260. -/
def Funcs.versionMC (κ : Kinds) (E : Phase F) (v : ℕ) (x : Version L N M) (s : Funcs Q L N M) : Funcs Q L N M :=
  let s := { s with delta := s.delta.merge κ.delta E (some (ratio v)) ⟨x.delta, false, false⟩ }
  if x.ending = .early then s.rollBack κ E else
  let s := { s with sigma := ⟨⟨x.sigma, false, false⟩, none, none, none⟩ }
  let s := s.beforeG κ E
  if x.ending = .g then s.rollBack κ E else s.finish κ E v x

/-- One version without Monte Carlo data, dyson/main.py 194-338, the branch 210-216. -/
def Funcs.versionDyson (κ : Kinds) (E : Phase F) (v : ℕ) (x : Version L N M) (s : Funcs Q L N M) : Funcs Q L N M :=
  let s := { s with delta := s.delta.merge κ.delta E (some (ratio v)) ⟨x.delta, false, false⟩ }
  let s := s.beforeG κ E
  if x.ending = .early then s.rollBack κ E else
  let s := { s with sigma := s.sigma.merge κ.sigma E (some (ratio v)) ⟨x.sigma, false, false⟩ }
  let s := s.beforeG κ E
  if x.ending = .g then s.rollBack κ E else s.finish κ E v x

/-- The loop, dyson/main.py 194-338: `v` is `Version` before, `mc` tells whether Monte Carlo data are used. -/
def Funcs.loop (κ : Kinds) (E : Phase F) (mc : Bool) : ℕ → List (Version L N M) → Funcs Q L N M → Funcs Q L N M
  | _, [], s => s
  | v, x :: xs, s => Funcs.loop κ E mc (v + 1) xs (if mc then s.versionMC κ E (v + 1) x else s.versionDyson κ E (v + 1) x)

end

end Feyn
