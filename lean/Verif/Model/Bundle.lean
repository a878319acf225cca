import Mathlib.Data.Finset.Range
import Mathlib.Data.Finset.Filter
import Verif.Model.Basic

/-!
# The fixed-capacity container `Bundle<T>` (`module/diagram/component_bundle.cpp`)

Cells are numbered `0 .. MAX_BUNDLE - 1`. `slot i` is `_component_name[i]` (a pointer, hence a cell
number) and `name p` is the field `Name` of cell `p`.
-/

namespace Feyn

structure Bundle where
  slot : ℕ → ℕ
  name : ℕ → ℕ
  avail : ℕ

namespace Bundle

/-- Constructor, `component_bundle.cpp` 16-24. -/
def init : Bundle := ⟨id, id, 0⟩

/-- `Bundle::Add()`, `component_bundle.cpp` 33-45. The guard is `_available_space > MAX_BUNDLE`;
reading `_component_name[MAX_BUNDLE]` is out of range. -/
def add (b : Bundle) : Res (ℕ × Bundle) :=
  if b.avail > MAX_BUNDLE then .abort
  else if b.avail < MAX_BUNDLE then
    let p := b.slot b.avail
    if p < MAX_BUNDLE then
      .ok (p, { b with name := upd b.name p b.avail, avail := b.avail + 1 })
    else .ub
  else .ub

/-- `Bundle::Add(T*)`, `component_bundle.cpp` 48-54. Unlike `Add()` it tests for a full container and does not
write the name of the component. -/
def addPtr (b : Bundle) (p : ℕ) : Res Bundle :=
  if b.avail ≥ MAX_BUNDLE then .abort
  else .ok { b with slot := upd b.slot b.avail p, avail := b.avail + 1 }

/-- `Bundle::Exist`, `component_bundle.cpp` 126-132. `target->Name` is read before the range of the
pointer is tested, so an address outside the array is undefined; NULL is refused. -/
def exist (b : Bundle) (p : ℕ) : Res Bool :=
  if p = NULL then .ok false
  else if p < MAX_BUNDLE then .ok (decide (b.name p < b.avail))
  else .ub

/-- `Bundle::Remove(T*)`, `component_bundle.cpp` 75-94. -/
def remove (b : Bundle) (p : ℕ) : Res Bundle := do
  let e ← b.exist p
  if !e then .abort
  else if b.avail = 0 then .abort
  else
    let a := b.avail - 1
    let nm := b.name p
    if a < MAX_BUNDLE ∧ nm < MAX_BUNDLE then
      let last := b.slot a
      if last < MAX_BUNDLE then
        .ok { slot := upd (upd b.slot nm last) a p
              name := upd (upd b.name p a) last nm
              avail := a }
      else .ub
    else .ub

/-- `Bundle::Remove(name)`, `component_bundle.cpp` 57-72. -/
def removeName (b : Bundle) (nm : ℕ) : Res Bundle :=
  if b.avail = 0 then .abort
  else
    let a := b.avail - 1
    if a < MAX_BUNDLE ∧ nm < MAX_BUNDLE then
      let last := b.slot a
      let target := b.slot nm
      if last < MAX_BUNDLE ∧ target < MAX_BUNDLE then
        .ok { slot := upd (upd b.slot nm last) a target
              name := upd (upd b.name target a) last nm
              avail := a }
      else .ub
    else .ub

/-- `operator()` and `operator[]`, `component_bundle.cpp` 97-110 (non-negative names). -/
def get (b : Bundle) (nm : ℕ) : Res ℕ :=
  if nm ≥ b.avail then .abort else if nm < MAX_BUNDLE then .ok (b.slot nm) else .ub

/-- `Bundle::RandomPick`, `component_bundle.cpp` 135-138. -/
def pick (b : Bundle) (w : Word) : Res ℕ := do
  let i ← irn w 0 ((b.avail : ℤ) - 1)
  if i.toNat < MAX_BUNDLE then .ok (b.slot i.toNat) else .ub

/-- The set of cells currently in the container, in the sense of `Exist`. -/
def live (b : Bundle) : Finset ℕ := (Finset.range MAX_BUNDLE).filter fun p => b.name p < b.avail

end Bundle
end Feyn
