import Verif.Model.EstBundle

/-! # Bundles of estimators: specification (C103) -/

namespace Feyn
variable {Q : Type} [Field Q] [LinearOrder Q] [FloorSemiring Q]

/-- A use of a bundle. -/
inductive EstBundleOp (Q : Type) where
  | add (name : List Byte) (junk : ℕ → Q)
  | modify (i : ℕ) (f : Est Q Q → Est Q Q)
  | clear
  | load (dict : List Byte → Option (SavedEst Q)) (allow : Bool)

/-- The bundle after a use. -/
def EstBundleOp.apply (b : EstBundle Q) : EstBundleOp Q → Res (EstBundle Q)
  | .add name junk => b.add name junk
  | .modify i f => b.modify i f
  | .clear => .ok b.clear
  | .load dict allow => b.fromDict dict allow

/-- The bundle after a sequence of uses. -/
def EstBundleOp.run (b : EstBundle Q) : List (EstBundleOp Q) → Res (EstBundle Q)
  | [] => .ok b
  | o :: l => (o.apply b).bind fun b => EstBundleOp.run b l

/-- The names that a sequence of uses adds, in order. -/
def addedNames : List (EstBundleOp Q) → List (List Byte)
  | [] => []
  | .add name _ :: l => name :: addedNames l
  | _ :: l => addedNames l

end Feyn
