import Verif.Model.Loop
import Verif.Spec.Merge

/-!
# What the accumulated functions of the loop should be
-/

namespace Feyn

section
variable {F M Q : Type} [Field F] [AddCommGroup M] [Module F M] [Field Q] [LinearOrder Q] [Module Q M] {d : ℕ} {L : Fin d → ℕ} {N : ℕ}

/-- The contributions of the versions that ended well, with the weights `v/(v+10)`; `v` is the number of versions before. -/
def contributions {A : Type} (pick : Version L N M → A) : ℕ → List (Version L N M) → List (Q × A)
  | _, [] => []
  | v, x :: xs =>
    if x.ending = .well then ((v + 1 : ℕ) / ((v + 1 : ℕ) + 10), pick x) :: contributions pick (v + 1) xs else contributions pick (v + 1) xs

/-- The weighted mean. -/
def average (xs : List (Q × Grid L N M)) : Grid L N M :=
  fun r n => ((xs.map (·.1)).sum)⁻¹ • (xs.map fun x => x.1 • x.2 r n).sum

/-- The variables at the start of the loop: nothing was merged, the data are those of a file or zero. -/
structure Funcs.Start (s : Funcs Q L N M) : Prop where
  delta : ∃ f, s.delta = ⟨⟨f, false, false⟩, none, none, none⟩
  sigma : ∃ f, s.sigma = ⟨⟨f, false, false⟩, none, none, none⟩
  polar : ∃ f, s.polar = ⟨⟨f, false, false⟩, none, none, none⟩

end

end Feyn
