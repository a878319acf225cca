import Verif.Model.First
import Verif.Spec.Tables
import Verif.Spec.Monitor

/-!
# The two diagrams of first order

The self energy of first order is an interaction times a propagator, the polarisation of first order is a product of two propagators. Each fermion line is `-1` times itself if it runs
backwards in time; a loop of fermions and each order are a factor `-1`.
-/

namespace Feyn
variable {Q F : Type} [Field Q] [LinearOrder Q] [FloorRing Q] [Field F] [StarRing F]

/-- The tables of the simulation with parameters `P` were read from the arrays `g`, `w` and `w0` of the Dyson program, with `bins` time bins; tables of measured lines are one. -/
structure FromArrays (P : Params Q F) (bins : ℕ) (g w w0 : NArr F) : Prop where
  pos : 0 < bins
  fits : 16 * (P.nsub : ℤ) * P.nsub * (P.lx * P.ly) * bins < 4294967296
  gShape : g.shape = pyShape 2 P.nsub [(P.lx : ℤ), (P.ly : ℤ)] bins true
  wShape : w.shape = pyShape 4 P.nsub [(P.lx : ℤ), (P.ly : ℤ)] bins true
  w0Shape : w0.shape = pyShape 4 P.nsub [(P.lx : ℤ), (P.ly : ℤ)] bins false
  gComplex : g.isComplex = true
  wComplex : w.isComplex = true
  w0Complex : w0.isComplex = true
  /-- the propagator of the program is that of a table that has read `g` -/
  gTab : ∃ T₀ T : GTab Q F, T₀.map = ⟨P.beta, bins, [(P.lx : ℤ), (P.ly : ℤ)], P.nsub, 2, -1⟩ ∧ T₀.smooth.n = g.shape.prod ∧ T₀.meas.n = g.shape.prod ∧
    (∀ i, T₀.meas.data i = 1) ∧ T₀.fromDict g = .ok T ∧
    ∀ e a b t1 t2 s1 s2 isMeas, SiteIn P a → SiteIn P b → TauIn P t1 → TauIn P t2 →
      T.weight0 e a b t1 t2 s1 s2 isMeas false = .ok (gW0 P e a b t1 t2 s1 s2 isMeas false)
  /-- the interaction of the program is that of a table that has read `w` and `w0` -/
  wTab : ∃ U₀ U : WTab Q F, U₀.map = ⟨P.beta, bins, [(P.lx : ℤ), (P.ly : ℤ)], P.nsub, 4, 1⟩ ∧ U₀.smooth.n = w.shape.prod ∧ U₀.meas.n = w.shape.prod ∧
    U₀.delta.n = w0.shape.prod ∧ (∀ i, U₀.meas.data i = 1) ∧ U₀.fromDict w w0 = .ok U ∧
    ∀ e a b t1 t2 s1 s2 isWorm isMeas isDelta, SiteIn P a → SiteIn P b → TauIn P t1 → TauIn P t2 →
      U.weight0 e a b t1 t2 s1 s2 isWorm isMeas isDelta false = .ok (wW0 P e a b t1 t2 s1 s2 isWorm isMeas isDelta false)

/-- The indices of an element of an array with these sizes. -/
structure Element (sp nsub vol bins : ℕ) (s a s' b r t : ℤ) : Prop where
  s : 0 ≤ s ∧ s < sp
  a : 0 ≤ a ∧ a < nsub
  s' : 0 ≤ s' ∧ s' < sp
  b : 0 ≤ b ∧ b < nsub
  r : 0 ≤ r ∧ r < vol
  t : 0 ≤ t ∧ t < bins

/-- No interaction of a site with itself, in an array of instantaneous interactions. -/
def NoOnsite (nsub : ℕ) (w0 : NArr F) : Prop := ∀ s s' a : ℤ, 0 ≤ s → s < 4 → 0 ≤ s' → s' < 4 → 0 ≤ a → a < nsub → w0.get [s, a, s', a, 0] = 0

/-- The interaction of a site with itself does not depend on which end is called the first. -/
def EndsAlike (nsub bins : ℕ) (w : NArr F) : Prop :=
  ∀ s s' a t : ℤ, 0 ≤ s → s < 4 → 0 ≤ s' → s' < 4 → 0 ≤ a → a < nsub → 0 ≤ t → t < bins →
    w.get [s, a, s', a, 0, t] = w.get [s', a, s, a, 0, bins - 1 - t]

/-- The times do not differ by a multiple of the width of a bin. -/
def OffBins (beta : Q) (bins : ℕ) (t1 t2 : Q) : Prop := ∀ k : ℤ, t2 - t1 ≠ k * (beta / bins)

/-- One diagram of the self energy of spin `s1` of a site with itself: propagator with spin `s2` times interaction, in time bin `t`. -/
def fockTerm (g w : NArr F) (s1 s2 : Spin) (a t : ℤ) : F :=
  -(g.get [pySpin s2, a, pySpin s2, a, 0, t] * w.get [2 * pySpin s1 + pySpin s2, a, 2 * pySpin s2 + pySpin s1, a, 0, t])

/-- The diagram of the polarisation of a site: a propagator with spin `s2` forward and one with spin `s1` back. -/
def bubbleTerm (bins : ℕ) (g : NArr F) (s1 s2 : Spin) (a t : ℤ) : F :=
  -(g.get [pySpin s1, a, pySpin s1, a, 0, bins - 1 - t] * g.get [pySpin s2, a, pySpin s2, a, 0, t])

/-- A propagator that stays on a site and keeps the spin. -/
def LocalG (nsub vol bins : ℕ) (g : NArr F) : Prop :=
  ∀ s a s' b r t : ℤ, Element 2 nsub vol bins s a s' b r t → s ≠ s' ∨ a ≠ b ∨ r ≠ 0 → g.get [s, a, s', b, r, t] = 0

end Feyn
