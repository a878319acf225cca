import Verif.Model.IndexMap
import Verif.Spec.Lattice

/-!
# What table addresses are about
-/

namespace Feyn
variable {Q : Type} [Field Q] [LinearOrder Q]

/-- A usable index map: non-empty lattice in two dimensions, positive temperature, at least one time bin, and a table whose
size fits into an `unsigned int`. -/
structure IndexMap.Wf (m : IndexMap Q) : Prop where
  beta : 0 < m.beta
  bins : 0 < m.bins
  lat : LatOk m.lat
  dim : m.lat.length = 2
  nsub : 0 < m.nsub
  sp : 0 < m.sp
  fits : m.sp * m.nsub * m.sp * m.nsub * latVol m.lat * (m.bins : ℤ) < 4294967296

/-- A site of the lattice of an index map. -/
def IndexMap.SiteOk (m : IndexMap Q) (r : Site) : Prop := InLat m.lat r.vec ∧ 0 ≤ r.sub ∧ r.sub < m.nsub

/-- A spin index of an index map. -/
def IndexMap.SpinOk (m : IndexMap Q) (s : ℤ) : Prop := 0 ≤ s ∧ s < m.sp

/-- A time. -/
def IndexMap.TauOk (m : IndexMap Q) (t : Q) : Prop := 0 ≤ t ∧ t < m.beta

/-- Relative coordinate: difference of the coordinates, modulo the size of the lattice. -/
def relCoord (lat : List ℤ) (rin rout : Site) : List ℤ :=
  List.zipWith (fun s d => d % s) lat [rout.x - rin.x, rout.y - rin.y]

end Feyn
