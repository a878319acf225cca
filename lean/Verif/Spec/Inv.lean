import Mathlib.GroupTheory.Perm.Sign
import Mathlib.Algebra.BigOperators.Group.Finset.Basic
import Verif.Spec.Bundle
import Verif.Model.Updates

/-!
# Specification of a consistent diagram

Each structure below is one part of what a user of a diagram may rely on. They only mention the
cells that are in the containers (`V`, `G`, `W` are the sets of vertices, fermion lines and interaction
lines in use).
-/

namespace Feyn

section
variable {Q F : Type} [Field Q] [LinearOrder Q] [Field F]

/-- Admissible parameters. `norm_ne` follows from the three conditions before it if `F` has characteristic zero, as the
complex numbers have. -/
structure Params.Wf (P : Params Q F) : Prop where
  beta_pos : 0 < P.beta
  one_le : 1 ≤ P.maxOrd
  lt_max : P.maxOrd < MAX_ORDER
  rw_len : P.maxOrd + 1 ≤ P.orderRW.length
  lx_pos : 0 < P.lx
  ly_pos : 0 < P.ly
  nsub_pos : 0 < P.nsub
  norm_ne : normWeight P ≠ 0

/-- Every line joins two vertices in use and vertices point back to their lines. -/
structure TopoOk (V G W : Finset ℕ) (s : Shape) : Prop where
  gV_mem : ∀ g ∈ G, ∀ e, s.gV g e ∈ V
  vG_gV : ∀ g ∈ G, ∀ e, s.vG (s.gV g e) (!e) = g
  vG_mem : ∀ v ∈ V, ∀ e, s.vG v e ∈ G
  gV_vG : ∀ v ∈ V, ∀ e, s.gV (s.vG v e) (!e) = v
  wV_mem : ∀ w ∈ W, ∀ e, s.wV w e ∈ V
  vW_wV : ∀ w ∈ W, ∀ e, s.vW (s.wV w e) = w
  vDir_wV : ∀ w ∈ W, ∀ e, s.vDir (s.wV w e) = e
  vW_mem : ∀ v ∈ V, s.vW v ∈ W
  wV_vW : ∀ v ∈ V, s.wV (s.vW v) (s.vDir v) = v

/-- Momentum conservation at a vertex, modulo the number of momenta. The worm carries its momentum from
the vertex `ira` to the vertex `masha`. -/
def KConserved (s : Shape) (m : Mom) (wo : Worm Q) (v : ℕ) : Prop :=
  (MOD_K) ∣ m.gK (s.vG v IN) - m.gK (s.vG v OUT) - sgn (s.vDir v) * m.wK (s.vW v)
    - (if wo.exist ∧ v = wo.ira then wo.k else 0) + (if wo.exist ∧ v = wo.masha then wo.k else 0)

/-- Fermion lines have distinct momenta in range, and the table of used momenta is exact. -/
structure GHashOk (G : Finset ℕ) (gK : ℕ → ℤ) (gHash : ℤ → Bool) : Prop where
  mem : ∀ g ∈ G, InK (gK g)
  inj : ∀ g ∈ G, ∀ g' ∈ G, gK g = gK g' → g = g'
  hash : ∀ k, gHash k = true ↔ ∃ g ∈ G, gK g = k

/-- Interaction lines have non-zero momenta in range with distinct absolute values, and the table of used
absolute values is exact. -/
structure WHashOk (W : Finset ℕ) (wK : ℕ → ℤ) (wHash : ℤ → Bool) : Prop where
  mem : ∀ w ∈ W, InK (wK w)
  ne : ∀ w ∈ W, wK w ≠ 0
  inj : ∀ w ∈ W, ∀ w' ∈ W, |wK w| = |wK w'| → w = w'
  hash : ∀ k, wHash k = true ↔ ∃ w ∈ W, |wK w| = k

/-- Spin is conserved along fermion lines. -/
def SpinOk (G : Finset ℕ) (s : Shape) (spin : ℕ → Dir → Spin) : Prop :=
  ∀ g ∈ G, spin (s.gV g IN) OUT = spin (s.gV g OUT) IN

/-- The worm ends and the worm flag of the lines. -/
structure WormOk (V W : Finset ℕ) (s : Shape) (wWorm : ℕ → Bool) (wo : Worm Q) : Prop where
  ira_mem : wo.exist = true → wo.ira ∈ V
  masha_mem : wo.exist = true → wo.masha ∈ V
  ne : wo.exist = true → wo.ira ≠ wo.masha
  masha_dir : wo.exist = true → s.vDir wo.masha = OUT
  k_in : wo.exist = true → InK wo.k
  dSpin : wo.exist = true → wo.dSpin = 1 ∨ wo.dSpin = -1
  wt : wo.exist = true → wo.wt = 1
  flag : ∀ w ∈ W, (wWorm w = true ↔ wo.exist = true ∧ ∃ e, s.wV w e = wo.ira ∨ s.wV w e = wo.masha)

/-- Exactly one line is marked as the measuring line, and the diagram knows which. -/
structure MeasOk (G W : Finset ℕ) (gMeas wMeas : ℕ → Bool) (measG : Bool) (gM wM : ℕ) : Prop where
  g_mem : measG = true → gM ∈ G
  w_mem : measG = false → wM ∈ W
  g_flag : ∀ g ∈ G, (gMeas g = true ↔ measG = true ∧ g = gM)
  w_flag : ∀ w ∈ W, (wMeas w = true ↔ measG = false ∧ w = wM)

/-- Delta lines are neither measured nor composite. -/
def DeltaOk (W : Finset ℕ) (fl : Flags) : Prop :=
  ∀ w ∈ W, fl.wDelta w = true → fl.wMeas w = false ∧ fl.wGam w = false

/-- Status word, flags and slot pointers of composite lines agree; at most one line is composite and it is
not the measuring line. -/
structure GammaOk (G W : Finset ℕ) (gMeas gGam wMeas wGam : ℕ → Bool) (hasGamma : ℕ) (vin vout : Handle) : Prop where
  le : hasGamma ≤ 2
  g_flag : ∀ g ∈ G, (gGam g = true ↔ hasGamma = 1 ∧ vin = .g g IN ∧ vout = .g g OUT)
  w_flag : ∀ w ∈ W, (wGam w = true ↔ hasGamma = 2 ∧ vin = .w w IN ∧ vout = .w w OUT)
  g_ex : hasGamma = 1 → ∃ g ∈ G, gGam g = true
  w_ex : hasGamma = 2 → ∃ w ∈ W, wGam w = true
  g_meas : ∀ g ∈ G, gGam g = true → gMeas g = false
  w_meas : ∀ w ∈ W, wGam w = true → wMeas w = false

/-- A site of the lattice. -/
def SiteIn (P : Params Q F) (r : Site) : Prop :=
  0 ≤ r.x ∧ r.x < P.lx ∧ 0 ≤ r.y ∧ r.y < P.ly ∧ 0 ≤ r.sub ∧ r.sub < P.nsub

/-- A time of the imaginary time interval. -/
def TauIn (P : Params Q F) (t : Q) : Prop := 0 ≤ t ∧ t < P.beta

/-- All vertices lie on the lattice and in the time interval. -/
def DomOk (P : Params Q F) (V : Finset ℕ) (co : Coord Q) : Prop :=
  ∀ v ∈ V, SiteIn P (co.r v) ∧ TauIn P (co.tau v)

/-- The external point of a composite line lies in the domain. -/
def ExtOk (P : Params Q F) (e : Ext Q) : Prop := SiteIn P e.r ∧ TauIn P e.tau ∧ e.spin = UP

/-- The weight a fermion line must have, from its end points. -/
def gExpected (P : Params Q F) (s : Shape) (co : Coord Q) (fl : Flags) (e : Ext Q) (g : ℕ) : F :=
  gW0 P e (co.r (s.gV g IN)) (co.r (s.gV g OUT)) (co.tau (s.gV g IN)) (co.tau (s.gV g OUT))
    (co.spin (s.gV g IN) OUT) (co.spin (s.gV g OUT) IN) (fl.gMeas g) (fl.gGam g)

/-- The weight an interaction line must have, from its end points. -/
def wExpected (P : Params Q F) (s : Shape) (co : Coord Q) (fl : Flags) (e : Ext Q) (w : ℕ) : F :=
  wW0 P e (co.r (s.wV w IN)) (co.r (s.wV w OUT)) (co.tau (s.wV w IN)) (co.tau (s.wV w OUT))
    (co.spin (s.wV w IN)) (co.spin (s.wV w OUT)) (fl.wWorm w) (fl.wMeas w) (fl.wDelta w) (fl.wGam w)

/-- Cached line weights are the weights of the lines and none of them vanishes. -/
structure LineWtOk (P : Params Q F) (G W : Finset ℕ) (s : Shape) (co : Coord Q) (fl : Flags) (e : Ext Q)
    (wt : Wts F) : Prop where
  g_eq : ∀ g ∈ G, wt.gWt g = gExpected P s co fl e g
  w_eq : ∀ w ∈ W, wt.wWt w = wExpected P s co fl e w
  g_ne : ∀ g ∈ G, wt.gWt g ≠ 0
  w_ne : ∀ w ∈ W, wt.wWt w ≠ 0

/-- Product of all line weights with the sign of the fermion loops and of the order. -/
def totalWeight (G W : Finset ℕ) (wt : Wts F) (sfl : ℤ) (N : ℕ) : F :=
  (∏ g ∈ G, wt.gWt g) * (∏ w ∈ W, wt.wWt w) * ((sfl : F) * (-1) ^ N)

/-- The vertex reached from `v` along its outgoing fermion line. -/
def nextVertex (s : Shape) (v : ℕ) : ℕ := s.gV (s.vG v OUT) OUT

/-- `σ` is the permutation of the vertices along the fermion lines (extended by the identity to the
unused cells). -/
def IsLoopPerm (V : Finset ℕ) (s : Shape) (σ : Equiv.Perm (Fin MAX_BUNDLE)) : Prop :=
  ∀ v : Fin MAX_BUNDLE, (v.val ∈ V → (σ v).val = nextVertex s v.val) ∧ (v.val ∉ V → σ v = v)

/-- The stored sign is minus the sign of the permutation of vertices along fermion lines. -/
def SignOk (V : Finset ℕ) (s : Shape) (sfl : ℤ) : Prop :=
  ∃ σ : Equiv.Perm (Fin MAX_BUNDLE), IsLoopPerm V s σ ∧ sfl = -(Equiv.Perm.sign σ : ℤ)

/-- Number of lines and order. In the order-0 sector the diagram keeps the lines of order one. -/
structure CountOk (P : Params Q F) (d : Diag Q F) : Prop where
  verWf : d.Ver.Wf
  gWf : d.G.Wf
  wWf : d.W.Wf
  n_pos : 1 ≤ d.W.avail
  n_le : d.W.avail ≤ P.maxOrd
  ver : d.Ver.avail = 2 * d.W.avail
  g : d.G.avail = 2 * d.W.avail
  order : d.order = d.W.avail ∨
    (d.order = 0 ∧ d.W.avail = 1 ∧ d.worm.exist = false ∧ d.hasGamma = 0)

/-- A consistent diagram. -/
structure Inv (P : Params Q F) (d : Diag Q F) : Prop where
  count : CountOk P d
  topo : TopoOk d.Ver.live d.G.live d.W.live d.sh
  kcons : ∀ v ∈ d.Ver.live, KConserved d.sh d.mo d.worm v
  ghash : GHashOk d.G.live d.mo.gK d.mo.gHash
  whash : WHashOk d.W.live d.mo.wK d.mo.wHash
  spin : SpinOk d.G.live d.sh d.co.spin
  worm : WormOk d.Ver.live d.W.live d.sh d.fl.wWorm d.worm
  meas : MeasOk d.G.live d.W.live d.fl.gMeas d.fl.wMeas d.measG d.gMeasure d.wMeasure
  delta : DeltaOk d.W.live d.fl
  gamma : GammaOk d.G.live d.W.live d.fl.gMeas d.fl.gGam d.fl.wMeas d.fl.wGam d.hasGamma d.vin d.vout
  dom : DomOk P d.Ver.live d.co
  ext : d.hasGamma ≠ 0 → ExtOk P d.ext
  line : LineWtOk P d.G.live d.W.live d.sh d.co d.fl d.ext d.wt
  weight : d.weight = if d.order = 0 then normWeight P
    else totalWeight d.G.live d.W.live d.wt d.sfl d.W.avail
  phase : d.phase = P.ph d.weight
  sign : SignOk d.Ver.live d.sh d.sfl

end
end Feyn
