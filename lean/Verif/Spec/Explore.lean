import Verif.Spec.Return

/-!
# Specification of the exploration of times and sites

The lines of a diagram are kept; the vertices may be put on other sites and to other times, and interaction lines may be instantaneous
or continuous.
-/

namespace Feyn

section
variable {Q F : Type} [Field Q] [LinearOrder Q] [Field F]

/-- A diagram with the lines of `d`, its spins, momenta and marks, but other sites, times and instantaneous lines. The weights belong
to the new positions. -/
def place (d : Diag Q F) (r : ℕ → Site) (tau : ℕ → Q) (δ : ℕ → Bool) (wt : Wts F) (weight phase : F) : Diag Q F :=
  { d with
    co := { d.co with r := r, tau := tau }
    fl := { d.fl with wDelta := δ }
    wt := wt, weight := weight, phase := phase }

/-- Positions of the vertices that are possible for the lines of `d`: on the lattice, in the time interval, and with all vertices of
a fermion loop on the same site. -/
structure Placement (P : Params Q F) (d : Diag Q F) (r : ℕ → Site) (tau : ℕ → Q) : Prop where
  site : ∀ v ∈ d.Ver.live, SiteIn P (r v)
  time : ∀ v ∈ d.Ver.live, TauIn P (tau v)
  loop : ∀ g ∈ d.G.live, r (d.sh.gV g IN) = r (d.sh.gV g OUT)

/-- Weight of the fermion line `g` of `d` with the vertices at other positions. -/
def gAt (P : Params Q F) (d : Diag Q F) (r : ℕ → Site) (tau : ℕ → Q) (g : ℕ) : F :=
  gExpected P d.sh { d.co with r := r, tau := tau } d.fl d.ext g

/-- Weight of the interaction line `w` of `d` with the vertices at other positions, as an instantaneous line or as a continuous one. -/
def wAt (P : Params Q F) (d : Diag Q F) (r : ℕ → Site) (tau : ℕ → Q) (δ : Bool) (w : ℕ) : F :=
  wExpected P d.sh { d.co with r := r, tau := tau } { d.fl with wDelta := fun _ => δ } d.ext w

/-- No line of `d` has a vanishing weight at possible positions, as long as it is continuous. -/
structure NoZeros (P : Params Q F) (d : Diag Q F) : Prop where
  g : ∀ r tau, Placement P d r tau → ∀ g ∈ d.G.live, gAt P d r tau g ≠ 0
  w : ∀ r tau, Placement P d r tau → ∀ w ∈ d.W.live, wAt P d r tau false w ≠ 0

/-- Positions and instantaneous lines that a diagram with the lines of `d` can have: possible positions with times of the generator;
an instantaneous line is neither measured nor composite, has equal times at its ends and a weight that does not vanish. -/
structure Target (P : Params Q F) (d : Diag Q F) (r : ℕ → Site) (tau : ℕ → Q) (δ : ℕ → Bool) : Prop where
  site : ∀ v ∈ d.Ver.live, SiteIn P (r v)
  time : ∀ v ∈ d.Ver.live, GridTime P (tau v)
  loop : ∀ g ∈ d.G.live, r (d.sh.gV g IN) = r (d.sh.gV g OUT)
  plain : ∀ w ∈ d.W.live, δ w = true → d.fl.wMeas w = false ∧ d.fl.wGam w = false
  same : ∀ w ∈ d.W.live, δ w = true → tau (d.sh.wV w IN) = tau (d.sh.wV w OUT)
  weight : ∀ w ∈ d.W.live, δ w = true → wAt P d r tau true w ≠ 0

/-- `d'` is `d` with another measuring line. The weights belong to the new line. -/
def OtherMark (d d' : Diag Q F) : Prop :=
  d' = { d with
    measG := d'.measG, gMeasure := d'.gMeasure, wMeasure := d'.wMeasure
    fl := { d.fl with gMeas := d'.fl.gMeas, wMeas := d'.fl.wMeas }
    wt := d'.wt, weight := d'.weight, phase := d'.phase }

/-- No line of `d` has a vanishing weight as measuring line or as ordinary line. -/
structure MarkNoZeros (P : Params Q F) (d : Diag Q F) : Prop where
  g : ∀ g ∈ d.G.live, ∀ b, gExpected P d.sh d.co { d.fl with gMeas := fun _ => b } d.ext g ≠ 0
  w : ∀ w ∈ d.W.live, ∀ b, wExpected P d.sh d.co { d.fl with wMeas := fun _ => b } d.ext w ≠ 0

end
end Feyn
