import Verif.Model.Vertex

/-!
# The equations for the three-point functions

Functions of discrete times and lattice vectors are continued to all integers; `half` is the value between two bins, where the three-point functions live.
-/

namespace Feyn
variable {F : Type} [Field F] {L : Fin 2 → ℕ} {N : ℕ}

/-- `g` continues `f` antiperiodically: a fermion propagator. -/
def AntiExt (f : Fin N → F) (g : ℤ → F) : Prop := (∀ t : Fin N, g (t : ℕ) = f t) ∧ ∀ d, g (d + N) = -g d

/-- `g` continues `f` periodically. -/
def PerExt (f : Fin N → F) (g : ℤ → F) : Prop := (∀ t : Fin N, g (t : ℕ) = f t) ∧ ∀ d, g (d + N) = g d

/-- The mean of the bins on both sides of a time. -/
def half (g : ℤ → F) (d : ℤ) : F := (g (d - 1) + g d) / 2

/-- The integers of a lattice vector. -/
def ints (r : Vec2 L) : Fin 2 → ℤ := fun i => ((r i : ℕ) : ℤ)

/-- `g` continues the function `f` of lattice vector and time periodically. -/
def LatExt (f : Vec2 L → Fin N → F) (g : (Fin 2 → ℤ) → ℤ → F) : Prop :=
  (∀ r (t : Fin N), g (ints r) (t : ℕ) = f r t) ∧ (∀ x i t, g (Function.update x i (x i + L i)) t = g x t) ∧ ∀ x t, g x (t + N) = g x t

/-- The same for a function of the lattice vector. -/
def LatExt0 (f : Vec2 L → F) (g : (Fin 2 → ℤ) → F) : Prop := (∀ r, g (ints r) = f r) ∧ ∀ x i, g (Function.update x i (x i + L i)) = g x

/-- The data of an interaction: the arrays `W0` and `W` and their periodic continuations. -/
structure Lines (W0 : Bool × Bool → Bool × Bool → Vec2 L → F) (W : WFun L N F) (w0 : Bool × Bool → Bool × Bool → (Fin 2 → ℤ) → F)
    (w : Bool × Bool → Bool × Bool → (Fin 2 → ℤ) → ℤ → F) : Prop where
  inst : ∀ p q, LatExt0 (W0 p q) (w0 p q)
  smooth : ∀ p q, LatExt (W p q) (w p q)

/-- An interaction line whose ends are times between bins: the part `w` that depends on time, integrated over a bin of width `dt`, and the instantaneous part `w0`. -/
def lineW (dt : F) (N : ℕ) (w0 : (Fin 2 → ℤ) → F) (w : (Fin 2 → ℤ) → ℤ → F) : (Fin 2 → ℤ) → ℤ → F := fun x d => half (w x) d * dt + if (N : ℤ) ∣ d then w0 x else 0

/-- The spin matrix of an exchange interaction with strength `w`: `w` and `-w` without spin flip, `2 w` with spin flips that conserve the total spin. -/
def exchange (p q : Bool × Bool) (w : F) : F :=
  if p.1 = p.2 ∧ q.1 = q.2 then (if p.1 = q.1 then w else -w)
  else if p.1 ≠ p.2 ∧ q = (p.2, p.1) then 2 * w else 0

/-- The interaction is an exchange interaction. -/
def Exchange (W0 : Bool × Bool → Bool × Bool → Vec2 L → F) (W : WFun L N F) : Prop :=
  (∀ p q r, W0 p q r = exchange p q (W0 (true, true) (true, true) r)) ∧ ∀ p q r t, W p q r t = exchange p q (W (true, true) (true, true) r t)

section
variable [StarRing F]

/-- Particle-hole symmetry of the propagator: `G(β - τ)` is the conjugate of `G(τ)`. -/
def ParticleHole (G : Bool → Fin N → F) : Prop := ∀ s t, G s (Fin.rev t) = star (G s t)

/-- The interaction is real. -/
def RealW (W0 : Bool × Bool → Bool × Bool → Vec2 L → F) (W : WFun L N F) : Prop := (∀ p q r, star (W0 p q r) = W0 p q r) ∧ ∀ p q r t, star (W p q r t) = W p q r t

/-- The interaction is even in time. -/
def EvenW (W : WFun L N F) : Prop := ∀ p q r t, W p q r (Fin.rev t) = W p q r t

/-- The three-point function is hermitian in its two times. -/
def Hermitian3 (Γ : Three L N F) : Prop := ∀ s r t1 t2, Γ s r t2 t1 = star (Γ s r t1 t2)

end

/-- Two propagators joined to both ends. `g` is the propagator, `dt` the width of a bin. -/
def joinG (dt : F) (g : Bool → ℤ → F) (Γ : Three L N F) : Three L N F := fun s r t t' =>
  ∑ a : Fin N, ∑ b : Fin N, (half (g s) ((t : ℤ) - a) * dt) * Γ s r a b * (half (g s) ((b : ℤ) - t') * dt)

/-- The self energy part with one interaction line between both ends. `w p q d` is the interaction on one site. -/
def ladder (w : Bool × Bool → Bool × Bool → ℤ → F) (GG : Three L N F) : Three L N F := fun s r t t' =>
  -∑ s' : Bool, half (w (s, s') (s', s)) ((t : ℤ) - t') * GG s' r t t'

/-- A closed loop on one site with the external vertex on the line with spin `a` or, in the other direction, on the line with spin `b`. -/
def triangle (g : Bool → ℤ → F) (GG : Three L N F) (a b : Bool) (r : Vec2 L) (t t' : Fin N) : F :=
  half (g b) ((t' : ℤ) - t) * GG a r t t' + half (g a) ((t : ℤ) - t') * GG b r t' t

/-- The self energy part with a propagator between both ends that exchanges two interaction lines `w` with such a loop, summed over all spins and all places and times of the loop. -/
def exchangeTwo (g : Bool → ℤ → F) (w : Bool × Bool → Bool × Bool → (Fin 2 → ℤ) → ℤ → F) (GG : Three L N F) : Three L N F := fun s r t t' =>
  ∑ s' : Bool, half (g s') ((t : ℤ) - t') * ∑ a : Bool, ∑ b : Bool, ∑ r' : Vec2 L, ∑ u : Fin N, ∑ u' : Fin N,
    w (s', s) (a, b) (ints r - ints r') ((t : ℤ) - u) * triangle g GG a b r' u u' * w (b, a) (s, s') (ints r - ints r') ((t' : ℤ) - u')

end Feyn
