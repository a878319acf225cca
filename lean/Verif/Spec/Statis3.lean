import Verif.Model.Statis3
import Verif.Spec.Tables

/-!
# Sums of measurements
-/

namespace Feyn
variable {Q F : Type} [Field Q] [LinearOrder Q] [Field F] [Algebra Q F]

/-- A measurement on the lattice with times in `[0, β)`. -/
def Ev3.Valid (g : GammaG Q F) (e : Ev3 Q F) : Prop :=
  InLat g.lat e.rin.vec ∧ InLat g.lat e.ur.vec ∧ (0 ≤ e.tin ∧ e.tin < g.beta) ∧ (0 ≤ e.tout ∧ e.tout < g.beta) ∧ 0 ≤ e.ut ∧ e.ut < g.beta

/-- A measurement belongs to the element with this spin, relative position and time bins. -/
def Ev3.At (g : GammaG Q F) (e : Ev3 Q F) (s : Spin) (rel : List ℤ) (b1 b2 : ℤ) : Prop :=
  e.spin = s ∧ relCoord g.lat e.rin e.ur = rel ∧ InBin g.beta g.bins (e.tout - e.ut) b1 ∧ InBin g.beta g.bins (e.tin - e.ut) b2

/-- Its value: antiperiodic in both times. -/
def Ev3.value (e : Ev3 Q F) : F := e.weight * ((foldSign (e.tout - e.ut) * foldSign (e.tin - e.ut) : ℤ) : F)

/-- Measurements are valid, factors are positive. -/
def Op3.Valid (g : GammaG Q F) : Op3 Q F → Prop
  | .measure e => e.Valid g
  | .squeeze f => 0 < f
  | _ => True

/-- By how much the operations reduce older data. -/
def discount : List (Op3 Q F) → Q
  | [] => 1
  | .squeeze f :: l => 1 / f * discount l
  | _ :: l => discount l

open Classical in
/-- Sum of the measurements of an element, reduced by all later factors. -/
noncomputable def sumAt (g : GammaG Q F) (s : Spin) (rel : List ℤ) (b1 b2 : ℤ) : List (Op3 Q F) → F
  | [] => 0
  | .measure e :: l => (if e.At g s rel b1 b2 then discount l • e.value else 0) + sumAt g s rel b1 b2 l
  | _ :: l => sumAt g s rel b1 b2 l

/-- Sum of the norms, reduced by all later factors. -/
def sumNorm : List (Op3 Q F) → Q
  | [] => 0
  | .norm w :: l => w * discount l + sumNorm l
  | _ :: l => sumNorm l

/-- The position of an element in Python arrays. -/
def pyCell3 (g : GammaG Q F) (s : Spin) (rel : List ℤ) (b1 b2 : ℤ) : List ℤ := [pySpin s, pyCoordiIndex g.lat rel, b1, b2]

end Feyn
