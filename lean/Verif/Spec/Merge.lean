import Verif.Spec.Fourier

/-!
# The running average of a weight
-/

namespace Feyn

section
variable {F M Q : Type} [Field F] [AddCommGroup M] [Module F M] [Field Q] [LinearOrder Q] [Module Q M] {d : ℕ} {L : Fin d → ℕ} {N : ℕ}

/-- A record of what was put into a weight: the function that it started with, the functions put in with their weights, and the last function
with its weight (`none`: only shown, not accumulated). -/
structure Ledger (Q : Type) (A : Type) where
  start : A
  entries : List (Q × A)
  last : Option (Option Q × A)

namespace Ledger

/-- The sum of the weights. -/
def total {A : Type} (b : Ledger Q A) : Q := (b.entries.map (·.1)).sum

/-- The weighted sum of the functions. -/
def sum (b : Ledger Q (Grid L N M)) : Grid L N M := fun r n => (b.entries.map fun e => e.1 • e.2 r n).sum

/-- What the weight should represent: the weighted mean, or, while the weights are negligible, the last function. -/
def value (b : Ledger Q (Grid L N M)) : Grid L N M :=
  if 1 / 1000 < b.total then fun r n => b.total⁻¹ • b.sum r n else
    match b.last with
    | none => b.start
    | some (_, f) => f

/-- A function is merged. -/
def merge {A : Type} (b : Ledger Q A) (ratio : Option Q) (f : A) : Ledger Q A :=
  match ratio with
  | none => { b with last := some (none, f) }
  | some r => { b with entries := b.entries ++ [(r, f)], last := some (some r, f) }

/-- The last function is taken out, which leaves the record of what was last. -/
def rollBack {A : Type} (b : Ledger Q A) : Ledger Q A :=
  match b.last with
  | some (some r, f) => { b with entries := b.entries ++ [(-r, f)] }
  | _ => b

end Ledger

/-- The histories of a weight: it starts with some data, is transformed at any time, and `Merge` and `RollBack` are called when its time domain is `t0`. The
arguments of `Merge` may be in any domain. -/
inductive Tracked (κ : Kind) (E : Phase F) (t0 : Bool) : Merged Q L N M → Ledger Q (Grid L N M) → Prop
  | new {w : Plain L N M} {f : Grid L N M} : w.Shows κ E f → Tracked κ E t0 ⟨w, none, none, none⟩ ⟨f, [], none⟩
  | fft {w : Merged Q L N M} {b : Ledger Q (Grid L N M)} (ls : List Letter) : Tracked κ E t0 w b → Tracked κ E t0 (w.fft κ E ls) b
  | merge {w : Merged Q L N M} {b : Ledger Q (Grid L N M)} {g : Plain L N M} {f : Grid L N M} (ratio : Option Q) : Tracked κ E t0 w b →
      w.time = t0 → g.Shows κ E f → Tracked κ E t0 (w.merge κ E ratio g) (b.merge ratio f)
  | rollBack {w : Merged Q L N M} {b : Ledger Q (Grid L N M)} : Tracked κ E t0 w b → w.time = t0 → Tracked κ E t0 (w.rollBack κ E) b.rollBack

end

end Feyn
