import Verif.Model.SelfCons
import Verif.Spec.Vertex
import Verif.Spec.Merge
import Verif.Spec.Dyson

/-!
# Symmetries of the functions in a self-consistent calculation
-/

namespace Feyn

section
variable {F : Type} [Field F] [StarRing F] {d : ℕ} {L : Fin d → ℕ} {N m : ℕ} [∀ i, NeZero (L i)]

/-- A propagator or self energy of spins in zero field: it stays on a site, conserves the spin, is the same for both spins, and has particle-hole symmetry:
its value at `β - τ` is the conjugate of its value at `τ`. -/
structure SymG (g : Grid L N (Matrix (GIdx m) (GIdx m) F)) : Prop where
  loc : ∀ r t p q, r ≠ 0 ∨ p ≠ q → g r t p q = 0
  spin : ∀ r t s s' a, g r t (s, a) (s, a) = g r t (s', a) (s', a)
  hole : ∀ r t p q, g r (Fin.rev t) p q = star (g r t p q)

/-- A function of lattice vector and time has the spin structure of the exchange interaction `S · S`, and is real and even in time. -/
structure SymW (w : Grid L N (Matrix (WIdx m) (WIdx m) F)) : Prop where
  spin : ∀ r t p q a b, w r t (p, a) (q, b) = exchange p q (w r t ((true, true), a) ((true, true), b))
  real : ∀ r t p q, star (w r t p q) = w r t p q
  even : ∀ r t p q, w r (Fin.rev t) p q = w r t p q

/-- A polarisation of spins in zero field: it stays on a site, a particle and a hole keep their spins, which do not matter otherwise, and it is real and even in time. -/
structure SymP (f : Grid L N (Matrix (WIdx m) (WIdx m) F)) : Prop where
  loc : ∀ r t p q a b, r ≠ 0 ∨ a ≠ b ∨ q ≠ (p.2, p.1) → f r t (p, a) (q, b) = 0
  spin : ∀ r t p q a, f r t (p, a) ((p.2, p.1), a) = f r t (q, a) ((q.2, q.1), a)
  real : ∀ r t p q, star (f r t p q) = f r t p q
  even : ∀ r t p q, f r (Fin.rev t) p q = f r t p q

/-- A bare interaction: the exchange interaction with real constants between different sites. -/
structure SymJ (J : Grid L 1 (Matrix (WIdx m) (WIdx m) F)) : Prop where
  spin : ∀ r t p q a b, J r t (p, a) (q, b) = exchange p q (J r t ((true, true), a) ((true, true), b))
  real : ∀ r t p q, star (J r t p q) = J r t p q
  site : ∀ t p q a, J 0 t (p, a) (q, a) = 0

variable {Q : Type} [Field Q] [LinearOrder Q] [Module Q F]

/-- All functions of the calculation have these symmetries; there is no instantaneous self energy. -/
structure Scf.Symmetric (κ : ScfKinds) (E : Phase F) (s : Scf Q F L N m) : Prop where
  G : ∃ g, s.G.Shows κ.g E g ∧ SymG g
  W : ∃ w, s.W.Shows κ.w E w ∧ SymW w
  delta : s.delta.toPlain.Shows κ.delta E fun _ _ => 0
  sigma : ∃ g, s.sigma.toPlain.Shows κ.g E g ∧ SymG g
  polar : ∃ f, s.polar.toPlain.Shows κ.w E f ∧ SymP f

/-- Nothing was merged yet; the functions are in the domains `R`, `T`. -/
structure Scf.Fresh (s : Scf Q F L N m) : Prop where
  delta : ∃ f, s.delta = ⟨⟨f, false, false⟩, none, none, none⟩
  sigma : ∃ f, s.sigma = ⟨⟨f, false, false⟩, none, none, none⟩
  polar : ∃ f, s.polar = ⟨⟨f, false, false⟩, none, none, none⟩

/-- What the code fixes: inverse temperatures that are not zero, propagators antisymmetric, interactions symmetric, `DeltaT` functions without time. -/
structure ScfKinds.Good (κ : ScfKinds) : Prop where
  g : κ.g.beta ≠ 0 ∧ κ.g.hasTau = true ∧ κ.g.sym = false
  w : κ.w.beta ≠ 0 ∧ κ.w.hasTau = true ∧ κ.w.sym = true
  delta : κ.delta.beta ≠ 0 ∧ κ.delta.hasTau = false
  w0 : κ.w0.beta ≠ 0 ∧ κ.w0.hasTau = false

end

section
variable {F : Type} [Field F] [CharZero F] {d : ℕ} {L : Fin d → ℕ} {N m : ℕ} [∀ i, NeZero (L i)] [NeZero N]

/-- The self-consistent equations of first order: propagator `g` and interaction `w` solve the Dyson equations with the self energies `δ` (instantaneous), `σ` and the polarisation `p`, and these are
the diagrams of first order with `g` and `w`: the exchange diagram, the bubble, and the Fock and Hartree diagrams with the value of `g` extrapolated to the end of the last bin.
`dt` and `dt'` are the widths of the bins. -/
structure SelfConsistent (dt dt' : F) (g0 : Grid L N (Matrix (GIdx m) (GIdx m) F)) (J : Grid L 1 (Matrix (WIdx m) (WIdx m) F)) (δ : Grid L 1 (Matrix (GIdx m) (GIdx m) F))
    (σ : Grid L N (Matrix (GIdx m) (GIdx m) F)) (p : Grid L N (Matrix (WIdx m) (WIdx m) F)) (g : Grid L N (Matrix (GIdx m) (GIdx m) F)) (w : Grid L N (Matrix (WIdx m) (WIdx m) F)) : Prop where
  G : DysonG dt g0 δ σ g
  W : DysonW dt' J p w
  sigma : ∀ r t s s' a b, σ r t (s, a) (s', b) = if s = s' then -∑ u, g r t (u, a) (u, b) * w r t ((s, u), a) ((u, s), b) else 0
  polar : ∀ r t s s' u u' a b, p r t ((s, s'), a) ((u, u'), b) = if u = s' ∧ u' = s then -(g r (Fin.rev t) (s, b) (s, a) * g r t (s', a) (s', b)) else 0
  delta : ∀ r s s' a b, δ r 0 (s, a) (s', b) =
    (if s = s' then ∑ u, (3 * cont 1 g r (N - 1) (u, a) (u, b) - cont 1 g r (N - 2) (u, a) (u, b)) / 2 * J r 0 ((s, u), a) ((u, s), b) else 0) -
    if s = s' ∧ a = b ∧ r = 0 then ∑ u, ∑ c, ∑ r', (3 * cont 1 g 0 (N - 1) (u, c) (u, c) - cont 1 g 0 (N - 2) (u, c) (u, c)) / 2 * J r' 0 ((s, s), a) ((u, u), c) else 0

/-- The calculation shows these functions. -/
structure Scf.Shows (κ : ScfKinds) (E : Phase F) (s : Scf ℚ F L N m) (δ : Grid L 1 (Matrix (GIdx m) (GIdx m) F)) (σ : Grid L N (Matrix (GIdx m) (GIdx m) F)) (p : Grid L N (Matrix (WIdx m) (WIdx m) F))
    (g : Grid L N (Matrix (GIdx m) (GIdx m) F)) (w : Grid L N (Matrix (WIdx m) (WIdx m) F)) : Prop where
  delta : s.delta.toPlain.Shows κ.delta E δ
  sigma : s.sigma.toPlain.Shows κ.g E σ
  polar : s.polar.toPlain.Shows κ.w E p
  G : s.G.Shows κ.g E g
  W : s.W.Shows κ.w E w

end

end Feyn
