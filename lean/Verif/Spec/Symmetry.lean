import Verif.Model.Symmetry
import Verif.Spec.Tables

/-!
# Mirror symmetries of a lattice
-/

namespace Feyn

/-- An integer matrix with two rows. -/
structure Mat2 where
  a : ℤ
  b : ℤ
  c : ℤ
  d : ℤ
deriving DecidableEq

/-- The symmetries in terms of integer coordinates: the identity, two mirrors and the inversion. The second basis vector of the triangular lattice has an angle of 60 degrees to
the first one. -/
def mirrors (sym : List String) : List Mat2 :=
  if "Triangular" ∈ sym then [⟨1, 0, 0, 1⟩, ⟨-1, -1, 0, 1⟩, ⟨-1, 0, 0, -1⟩, ⟨1, 1, 0, -1⟩]
  else if "Square" ∈ sym then [⟨1, 0, 0, 1⟩, ⟨-1, 0, 0, 1⟩, ⟨-1, 0, 0, -1⟩, ⟨1, 0, 0, -1⟩]
  else [⟨1, 0, 0, 1⟩]

/-- Apply a matrix to both sites of a pair, with periodic boundary conditions. -/
def Mat2.act (g : Mat2) (lx ly : ℤ) (q : Quad) : Quad :=
  ⟨(g.a * q.x1 + g.b * q.y1) % lx, (g.c * q.x1 + g.d * q.y1) % ly, (g.a * q.x2 + g.b * q.y2) % lx, (g.c * q.x2 + g.d * q.y2) % ly⟩

/-- Two pairs of sites are images of each other. -/
def Mirrored (sym : List String) (lx ly : ℤ) (p q : Quad) : Prop := ∃ g ∈ mirrors sym, g.act lx ly p = q

instance (sym : List String) (lx ly : ℤ) (p q : Quad) : Decidable (Mirrored sym lx ly p q) := inferInstanceAs (Decidable (∃ g ∈ mirrors sym, g.act lx ly p = q))

/-- Both sites are on the lattice. -/
def Quad.In (lx ly : ℤ) (q : Quad) : Prop := (0 ≤ q.x1 ∧ q.x1 < lx) ∧ (0 ≤ q.y1 ∧ q.y1 < ly) ∧ (0 ≤ q.x2 ∧ q.x2 < lx) ∧ (0 ≤ q.y2 ∧ q.y2 < ly)

/-- Lattices whose mirror symmetries respect the periodic boundary conditions. -/
def Proper (sym : List String) (lx ly : ℕ) : Prop := 0 < lx ∧ 0 < ly ∧ ("Triangular" ∈ sym → lx = ly)

/-- Number of the site with the given coordinates. -/
def siteNum (ly x y : ℤ) : ℤ := x * ly + y

/-- The entry of a table for a pair of sites. -/
def Quad.look (ly : ℤ) (a : ℤ → ℤ → ℤ) (q : Quad) : ℤ := a (siteNum ly q.x1 q.y1) (siteNum ly q.x2 q.y2)

/-- The entry of an array for a pair of sites and two times. -/
def Quad.full {F : Type} (ly : ℤ) (Γ : Full F) (s : ℤ) (q : Quad) (t1 t2 : ℤ) : F := Γ s (siteNum ly q.x1 q.y1) (siteNum ly q.x2 q.y2) t1 t2

/-- The same pair with the sites exchanged. -/
def Quad.swap (q : Quad) : Quad := ⟨q.x2, q.y2, q.x1, q.y1⟩

/-- An array that has the mirror symmetries of the lattice. -/
def MirrorSym {F : Type} (sym : List String) (lx ly n : ℕ) (Γ : Full F) : Prop :=
  ∀ (s : ℤ) (p q : Quad) (t1 t2 : ℤ), p.In lx ly → q.In lx ly → Mirrored sym lx ly p q → 0 ≤ t1 → t1 < n → 0 ≤ t2 → t2 < n → p.full ly Γ s t1 t2 = q.full ly Γ s t1 t2

/-- An array that changes into the negated complex conjugate if both ends are exchanged. -/
def ExchangeSym {F : Type} [Ring F] [StarRing F] (lx ly n : ℕ) (Γ : Full F) : Prop :=
  ∀ (s : ℤ) (q : Quad) (t1 t2 : ℤ), q.In lx ly → 0 ≤ t1 → t1 < n → 0 ≤ t2 → t2 < n → t1 ≠ t2 → q.full ly Γ s t1 t2 = -star (q.swap.full ly Γ s t2 t1)

/-- The positions of the external point relative to the ends of an interaction line: first the outgoing, then the incoming end. -/
def relQuad (lx ly : ℤ) (rin rout ur : Site) : Quad := ⟨(ur.x - rout.x) % lx, (ur.y - rout.y) % ly, (ur.x - rin.x) % lx, (ur.y - rin.y) % ly⟩

end Feyn
