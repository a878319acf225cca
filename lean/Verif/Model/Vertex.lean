import Verif.Model.Fourier
import Verif.Model.Basic
import Mathlib.Algebra.Star.Basic

/-!
# Equations for the three-point functions (dyson/gamma3_calc.py, dyson/main.py)

For one sublattice and a lattice with two axes; `FFTGammaW` and `FFTWshift` read `L[0]` and `L[1]` only. The volume axis is replaced by the lattice vector as in Model/Fourier.lean. Loops
that add to an array of zeros are written as sums. Numbers are exact; `complex64` is not modelled. `UP` is `true`.
-/

namespace Feyn

/-- Lattice vectors of a lattice with two axes. -/
abbrev Vec2 (L : Fin 2 → ℕ) := ∀ i, Fin (L i)

/-- `GGGammaG` and `GammaG`: spin, lattice vector, outgoing time, incoming time. -/
abbrev Three (L : Fin 2 → ℕ) (N : ℕ) (F : Type) := Bool → Vec2 L → Fin N → Fin N → F

/-- One of the two parts of `GammaW`: both lattice vectors, both times. -/
abbrev Pair (L : Fin 2 → ℕ) (N : ℕ) (F : Type) := Vec2 L → Vec2 L → Fin N → Fin N → F

/-- `W.Data[p,0,q,0,r,t]`; a pair of spins stands for its `Spin2Index`. -/
abbrev WFun (L : Fin 2 → ℕ) (N : ℕ) (F : Type) := Bool × Bool → Bool × Bool → Vec2 L → Fin N → F

section
variable {F : Type} [Field F] {L : Fin 2 → ℕ} {N : ℕ}

/-- An element of an array with `N` elements; an index out of bounds gives 0 here and an exception in the code. -/
def binAt (f : Fin N → F) (i : ℤ) : F := if h : 0 ≤ i ∧ i < N then f ⟨i.toNat, by omega⟩ else 0

/-- `sign=1; if tg<0: tg+=MaxTauBin; sign*=-1` and `sign*G.Data[...,tg]`, e.g. dyson/gamma3_calc.py 74-79. -/
def signedAt (f : Fin N → F) (d : ℤ) : F := if d < 0 then -binAt f (d + N) else binAt f d

/-- `Gout=0.5*sign*G[tg-1]` and `Gout+=0.5*sign*G[tg]`, e.g. dyson/gamma3_calc.py 74-85. -/
def halfAt (f : Fin N → F) (d : ℤ) : F := 1 / 2 * signedAt f (d - 1) + 1 / 2 * signedAt f d

/-- `SimpleGG`, dyson/gamma3_calc.py 12-32. `G s t` is `G.Data[s,0,s,0,0,t]`. -/
def simpleGG (G : Bool → Fin N → F) : Three L N F := fun s r t1 t2 =>
  if s = true ∧ ∀ i, (r i : ℕ) = 0 then signedAt (G true) t1 * signedAt (G true) (-(t2 : ℤ) - 1) else 0

/-- `Wshift`, dyson/gamma3_calc.py 43-48 and 334-339. -/
def wShift (W : WFun L N F) : WFun L N F := fun p q r t =>
  let t1 : ℤ := (t : ℤ) - 1
  let t1 := if t1 < 0 then t1 + N else t1
  1 / 2 * (binAt (W p q r) t1 + binAt (W p q r) t)

/-- `AddW_To_GGGammaG`, dyson/gamma3_calc.py 34-61. `r0` is the lattice vector 0. -/
def addW (r0 : Vec2 L) (W : WFun L N F) (GG : Three L N F) : Three L N F := fun s r t1 t2 =>
  let dt : ℤ := (t1 : ℤ) - t2
  let dt := if dt < 0 then dt + N else dt
  let w := fun p q => binAt (wShift W p q r0) dt
  (if s then GG true r t1 t2 * w (true, true) (true, true) + GG false r t1 t2 * w (true, false) (false, true)
    else GG true r t1 t2 * w (false, true) (true, false) + GG false r t1 t2 * w (false, false) (false, false)) * -1

/-- `AddTwoG_To_GammaG`, dyson/gamma3_calc.py 63-106. -/
def addTwoG (beta : F) (G : Bool → Fin N → F) (Γ : Three L N F) : Three L N F :=
  let GΓ : Three L N F := fun s r t tin => ∑ tout : Fin N, halfAt (G s) ((t : ℤ) - tout) * Γ s r tout tin
  fun s r t t' => (∑ tin : Fin N, halfAt (G s) ((tin : ℤ) - t') * GΓ s r t tin) * beta ^ 2 / (N : F) ^ 2

/-- `AddG_To_GGGammaG`, dyson/gamma3_calc.py 108-193: two parts (`false` is index 0). -/
def addG (G : Bool → Fin N → F) (GG : Three L N F) : Bool → Pair L N F := fun k r1 r2 tout tin =>
  let out := fun s => halfAt (G s) ((tin : ℤ) - tout)
  let back := fun s => halfAt (G s) ((tout : ℤ) - tin)
  (if r1 = r2 then
      if k then out false * GG true r1 tout tin + back true * GG false r1 tin tout
      else out true * GG true r1 tout tin + out false * GG false r1 tout tin + (back true * GG true r1 tin tout + back false * GG false r1 tin tout)
    else 0) * -1

/-- `Wtot` before its transform, dyson/gamma3_calc.py 341-344: `N` is `MaxTauBin`, `n` is `MaxTauBinTiny`, a divisor of it. `beta` is a number of `F`; `W0` has no time. -/
def wTot (beta : F) (n : ℕ) (W0 : Bool × Bool → Bool × Bool → Vec2 L → F) (W : WFun L N F) : WFun L n F := fun p q r t =>
  binAt (wShift W p q r) ((t : ℤ) * (N / n : ℕ)) * beta / n + if (t : ℕ) = 0 then W0 p q r else 0

/-- `FFTWshift(Wtot, _map, 1)`, dyson/gamma3_calc.py 223-233: `fftn` over both lattice axes and the time. -/
def fftW (E : Phase F) (w : Vec2 L → Fin N → F) : Vec2 L → Fin N → F := fun k m =>
  ∑ r, ∑ t : Fin N, E.ph (angle r k) * E.ph (2 * ((t : ℕ) * (m : ℕ)) / N) * w r t

/-- `FFTGammaW(GammaW, _map, 1)`, dyson/gamma3_calc.py 205-221: first both times, then both lattice vectors. -/
def fftΓ (E : Phase F) (Γ : Pair L N F) : Pair L N F :=
  let Γ : Pair L N F := fun r1 r2 m1 m2 => ∑ t1 : Fin N, ∑ t2 : Fin N, E.ph (2 * ((t1 : ℕ) * (m1 : ℕ)) / N) * E.ph (2 * ((t2 : ℕ) * (m2 : ℕ)) / N) * Γ r1 r2 t1 t2
  fun k1 k2 m1 m2 => ∑ r1, ∑ r2, E.ph (angle r1 k1) * E.ph (angle r2 k2) * Γ r1 r2 m1 m2

/-- `FFTGammaW(GammaW, _map, -1)`. -/
def ifftΓ (E : Phase F) (Γ : Pair L N F) : Pair L N F :=
  let Γ : Pair L N F := fun k1 k2 t1 t2 => ((N : F) * N)⁻¹ * ∑ m1 : Fin N, ∑ m2 : Fin N, E.ph (-(2 * ((t1 : ℕ) * (m1 : ℕ)) / N)) * E.ph (-(2 * ((t2 : ℕ) * (m2 : ℕ)) / N)) * Γ k1 k2 m1 m2
  fun r1 r2 t1 t2 => ((∏ i, (L i : F)) * ∏ i, (L i : F))⁻¹ * ∑ k1, ∑ k2, E.ph (-angle r1 k1) * E.ph (-angle r2 k2) * Γ k1 k2 t1 t2

/-- `AddTwoW_To_GammaW`, dyson/gamma3_calc.py 316-408, of an array with five axes (`UnCompressGammaW` returns those as they are). -/
def addTwoW (E : Phase F) (beta : F) {n : ℕ} (W0 : Bool × Bool → Bool × Bool → Vec2 L → F) (W : WFun L N F) (Γ : Bool → Pair L n F) : Bool → Pair L n F :=
  let w := fftW E (wTot beta n W0 W (true, true) (true, true))
  fun k =>
    let x := fftΓ E (Γ k)
    let c : F := if k then 2 else 1
    let x : Pair L n F := fun k1 k2 m1 m2 => x k1 k2 m1 m2 * (w k1 m1 * c) * (w k2 m2 * c)
    fun r1 r2 t1 t2 => -1 * ifftΓ E x r1 r2 t1 t2

/-- `AddG_To_WWGammaW`, dyson/gamma3_calc.py 410-447. -/
def addGToWW [StarRing F] (G : Bool → Fin N → F) (WW : Bool → Pair L N F) : Three L N F := fun s r tout tin =>
  let out := fun s => halfAt (G s) ((tout : ℤ) - tin)
  if s then out true * WW false r r tout tin + out false * WW true r r tout tin
  else out false * -star (WW false r r tout tin) + out true * -star (WW true r r tout tin)

/-- The new `GGGammaG` of a calculation without statistics, dyson/main.py 218-246, for `MaxTauBin == MaxTauBinTiny`. -/
def newGGGammaG [StarRing F] (E : Phase F) (beta : F) (r0 : Vec2 L) (G : Bool → Fin N → F) (W0 : Bool × Bool → Bool × Bool → Vec2 L → F) (W : WFun L N F) (GG : Three L N F) : Three L N F :=
  let two := addTwoG beta G (addW r0 W GG)
  let three := addTwoG beta G (addGToWW G (addTwoW E beta W0 W (addG G GG)))
  fun s r t1 t2 => simpleGG G s r t1 t2 + (two s r t1 t2 - three s r t1 t2)

/-- `GGGammaG` after `n` updates, dyson/main.py 180-246 for a calculation without statistics; propagator and interaction may change between them. -/
def versionsGG [StarRing F] (E : Phase F) (beta : F) (r0 : Vec2 L) (G : ℕ → Bool → Fin N → F) (W0 : ℕ → Bool × Bool → Bool × Bool → Vec2 L → F) (W : ℕ → WFun L N F) (GG : Three L N F) : ℕ → Three L N F
  | 0 => GG
  | n + 1 => newGGGammaG E beta r0 (G n) (W0 n) (W n) (versionsGG E beta r0 G W0 W GG n)

end

end Feyn
