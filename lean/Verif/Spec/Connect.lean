import Mathlib.Logic.Relation
import Verif.Spec.Inv

/-! # Connectedness of diagrams -/

namespace Feyn

section
variable {Q F : Type}

/-- `v` and `v'` are the two ends of a fermion line not in `gs` or of an interaction line not in `ws`. -/
def JoinedBut (d : Diag Q F) (gs ws : Finset ℕ) (v v' : ℕ) : Prop :=
  (∃ g ∈ d.G.live, g ∉ gs ∧ ∃ e, d.sh.gV g e = v ∧ d.sh.gV g (!e) = v') ∨
  (∃ w ∈ d.W.live, w ∉ ws ∧ ∃ e, d.sh.wV w e = v ∧ d.sh.wV w (!e) = v')

/-- There is a path of lines from `v` to `v'` that uses none of the fermion lines `gs` and interaction lines `ws`. -/
def PathBut (d : Diag Q F) (gs ws : Finset ℕ) : ℕ → ℕ → Prop := Relation.ReflTransGen (JoinedBut d gs ws)

/-- The diagram stays in one piece when the lines `gs` and `ws` are cut. -/
def ConnectedBut (d : Diag Q F) (gs ws : Finset ℕ) : Prop := ∀ v ∈ d.Ver.live, ∀ v' ∈ d.Ver.live, PathBut d gs ws v v'

end
end Feyn
